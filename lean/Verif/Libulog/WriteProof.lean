import Verif.Libulog.Write

/-!
# Lemmas about the write side
-/
namespace Verif.Libulog
open Verif

/-- The tag a call uses, hence registers. -/
def WOp.tag : WOp → Option Cid
  | .init c | .log _ c _ | .str _ c _ | .buf _ c _ | .setLevel c _ | .getLevel c => some c
  | _ => none

/-- Tags in order of first use, last one first, after one more call. -/
def addTag (u : List Cid) (op : WOp) : List Cid :=
  match op.tag with
  | some c => if c ∈ u then u else c :: u
  | none => u

/-- Tags in order of first use, last one first. -/
def used (ops : List WOp) : List Cid := ops.foldl addTag []

theorem used_snoc (ops : List WOp) (op : WOp) : used (ops ++ [op]) = addTag (used ops) op := by
  unfold used
  rw [List.foldl_append]
  rfl

structure RegInv (s : Lib) (u : List Cid) : Prop where
  list : s.list = u
  mem : ∀ c, c ∈ u ↔ 0 ≤ s.level c
  nodup : u.Nodup
  neg : ∀ c, s.level c < 0 → s.level c = -1
  le : ∀ c, s.level c ≤ 7

/-- The part of the state that writing a message leaves alone. -/
structure SameReg (s s' : Lib) : Prop where
  list : s'.list = s.list
  level : s'.level = s.level
  hook : s'.hook = s.hook
  replay : s'.replay = s.replay
  device : s'.device = s.device

theorem SameReg.refl (s : Lib) : SameReg s s := ⟨rfl, rfl, rfl, rfl, rfl⟩

theorem SameReg.trans {a b c : Lib} (h : SameReg a b) (h' : SameReg b c) : SameReg a c :=
  ⟨h'.list.trans h.list, h'.level.trans h.level, h'.hook.trans h.hook, h'.replay.trans h.replay,
    h'.device.trans h.device⟩

theorem RegInv.same {s s' : Lib} {u : List Cid} (h : RegInv s u) (hs : SameReg s s') : RegInv s' u :=
  ⟨hs.list.trans h.list, by rw [hs.level]; exact h.mem, h.nodup, by rw [hs.level]; exact h.neg,
    by rw [hs.level]; exact h.le⟩

theorem ctrlInit_same (w : World) (s : Lib) : SameReg s (ctrlInit w s).1 := by
  unfold ctrlInit
  generalize devChoice w s = p
  generalize w.openDev p = fd
  dsimp only
  generalize (if fd.isSome then Wf.kernel else Wf.null) = base
  split <;> exact ⟨rfl, rfl, rfl, rfl, rfl⟩

theorem callWriter_same {nm : Cid → Bytes} {w : World} {prio : UInt32} {c : Cid} {data : Bytes} :
    ∀ {fuel : Nat} {f : Wf} {s s' : Lib} {e : List Ev},
      callWriter nm w prio c data fuel f s = .ok (s', e) → SameReg s s' := by
  intro fuel
  induction fuel with
  | zero => intro f s s' e h; cases h
  | succ fuel ih =>
    intro f s s' e h
    cases f with
    | null => simp only [callWriter, Except.ok.injEq, Prod.mk.injEq] at h; rw [← h.1]; exact .refl _
    | custom n => simp only [callWriter, Except.ok.injEq, Prod.mk.injEq] at h; rw [← h.1]; exact .refl _
    | kernel => simp only [callWriter, Except.ok.injEq, Prod.mk.injEq] at h; rw [← h.1]; exact .refl _
    | init =>
      simp only [callWriter] at h
      have hs : SameReg s (if s.writer = .init then ctrlInit w s else (s, [])).1 := by
        split
        · exact ctrlInit_same w s
        · exact .refl _
      generalize (if s.writer = .init then ctrlInit w s else (s, [])) = x at h hs
      simp only [bind, Except.bind] at h
      cases hx : callWriter nm w prio c data fuel x.1.writer x.1 with
      | error z => rw [hx] at h; cases h
      | ok z =>
        obtain ⟨z1, z2⟩ := z
        rw [hx] at h
        simp only [Except.ok.injEq, Prod.mk.injEq] at h
        rw [← h.1]
        exact hs.trans (ih hx)
    | wrap color =>
      simp only [callWriter] at h
      cases hg : s.writer2 with
      | none => rw [hg] at h; cases h
      | some g =>
        rw [hg] at h
        simp only [bind, Except.bind] at h
        cases hx : callWriter nm w prio c data fuel g s with
        | error z => rw [hx] at h; cases h
        | ok z =>
          obtain ⟨z1, z2⟩ := z
          rw [hx] at h
          simp only at h
          split at h
          · simp only [Except.ok.injEq, Prod.mk.injEq] at h; rw [← h.1]; exact ih hx
          · cases hl : stderrLine z1.replay color prio (nm c) data with
            | error y => rw [hl] at h; cases h
            | ok y =>
              rw [hl] at h
              simp only [Except.ok.injEq, Prod.mk.injEq] at h; rw [← h.1]; exact ih hx

theorem cap7 (x : Nat) : (if x > 7 then 7 else x) ≤ 7 := by split <;> omega

theorem parseLevel_le (b : UInt8) : parseLevel b ≤ 7 := cap7 _

theorem firstLevel_range {s : Lib} (h : ∀ c, s.level c ≤ 7) (nm : Cid → Bytes) (w : World) (c : Cid) :
    0 ≤ firstLevel nm w s c ∧ firstLevel nm w s c ≤ 7 := by
  unfold firstLevel
  dsimp only
  generalize hl1 : (if nm c ≠ [] then
      match w.getenv ((ascii "ULOG_LEVEL_" ++ nm c).take 79) with
      | some p => ((parseLevel (firstByte p) : Nat) : Int)
      | none => -1
    else -1) = l1
  have h1 : l1 ≤ 7 := by
    rw [← hl1]
    split
    · split
      · rename_i p _; have := parseLevel_le (firstByte p); omega
      · omega
    · omega
  generalize hl2 : (if l1 < 0 then
      match w.getenv (ascii "ULOG_LEVEL") with
      | some p => ((parseLevel (firstByte p) : Nat) : Int)
      | none => l1
    else l1) = l2
  have h2 : l2 ≤ 7 := by
    rw [← hl2]
    split
    · split
      · rename_i p _; have := parseLevel_le (firstByte p); omega
      · exact h1
    · exact h1
  have h0 := h 0
  split <;> split <;> omega

/-- What `ensureInit` does, in terms of the registration state. -/
theorem ensureInit_spec (nm : Cid → Bytes) (w : World) {s : Lib} {u : List Cid} (h : RegInv s u) (c : Cid) :
    RegInv (ensureInit nm w s c).1 (if c ∈ u then u else c :: u) ∧
      (∀ d, d ≠ c → (ensureInit nm w s c).1.level d = s.level d) ∧
      (ensureInit nm w s c).1.level c = (if c ∈ u then s.level c else firstLevel nm w s c) ∧
      (ensureInit nm w s c).2 = (if c ∈ u then [] else hookEv s c) ∧
      (ensureInit nm w s c).1.writer = s.writer ∧ (ensureInit nm w s c).1.writer2 = s.writer2 ∧
      (ensureInit nm w s c).1.fd = s.fd ∧ (ensureInit nm w s c).1.hook = s.hook ∧
      (ensureInit nm w s c).1.replay = s.replay ∧ (ensureInit nm w s c).1.device = s.device := by
  have hf := firstLevel_range h.le nm w c
  by_cases hc : c ∈ u
  · have hl := (h.mem c).mp hc
    have he : ensureInit nm w s c = (s, []) := by unfold ensureInit; rw [if_neg (by omega)]
    rw [he, if_pos hc, if_pos hc, if_pos hc]
    exact ⟨h, fun _ _ => rfl, rfl, rfl, rfl, rfl, rfl, rfl, rfl, rfl⟩
  · have hl : s.level c < 0 := by
      have := mt (h.mem c).mpr hc
      omega
    have he : ensureInit nm w s c =
        ({ s with list := c :: s.list, level := fun d => if d = c then firstLevel nm w s c else s.level d },
          hookEv s c) := by
      unfold ensureInit initCookie
      rw [if_pos hl]
      dsimp only
      rw [if_pos hl]
    rw [he, if_neg hc, if_neg hc, if_neg hc]
    refine ⟨⟨by simp [h.list], ?_, List.nodup_cons.mpr ⟨hc, h.nodup⟩, ?_, ?_⟩, ?_, ?_, rfl, rfl, rfl, rfl, rfl, rfl, rfl⟩
    · intro d
      dsimp only
      by_cases hd : d = c
      · rw [if_pos hd]; simp [hd, hf.1]
      · rw [if_neg hd, ← h.mem d]; simp [hd]
    · intro d
      dsimp only
      split
      · omega
      · exact h.neg d
    · intro d
      dsimp only
      split
      · omega
      · exact h.le d
    · intro d hd; simp [hd]
    · simp

theorem clampLevel_eq (l : Int) : clampLevel l = max 0 (min 7 l) := by
  unfold clampLevel
  dsimp only
  split <;> split <;> omega

theorem setLevel_spec (nm : Cid → Bytes) (w : World) {s : Lib} {u : List Cid} (h : RegInv s u) (c : Cid) (l : Int) :
    RegInv (setLevel nm w s c l).1 (if c ∈ u then u else c :: u) ∧
      (∀ d, d ≠ c → (setLevel nm w s c l).1.level d = s.level d) ∧
      (setLevel nm w s c l).1.level c = max 0 (min 7 l) ∧
      (setLevel nm w s c l).2 = (ensureInit nm w s c).2 ∧
      (setLevel nm w s c l).1.writer = s.writer ∧ (setLevel nm w s c l).1.writer2 = s.writer2 ∧
      (setLevel nm w s c l).1.fd = s.fd ∧ (setLevel nm w s c l).1.hook = s.hook ∧
      (setLevel nm w s c l).1.replay = s.replay ∧ (setLevel nm w s c l).1.device = s.device := by
  obtain ⟨h1, h2, h3, h4, h5, h6, h7, h8, h9, h10⟩ := ensureInit_spec nm w h c
  have hcl := clampLevel_eq l
  have hcl0 : 0 ≤ clampLevel l := by rw [hcl]; omega
  have hcl7 : clampLevel l ≤ 7 := by rw [hcl]; omega
  unfold setLevel
  dsimp only
  have hmem : c ∈ (if c ∈ u then u else c :: u) := by split <;> simp_all
  refine ⟨⟨h1.list, ?_, h1.nodup, ?_, ?_⟩, ?_, ?_, rfl, h5, h6, h7, h8, h9, h10⟩
  · intro d
    dsimp only
    by_cases hd : d = c
    · rw [if_pos hd, hd]; exact ⟨fun _ => hcl0, fun _ => hmem⟩
    · rw [if_neg hd]; exact h1.mem d
  · intro d
    dsimp only
    split
    · omega
    · exact h1.neg d
  · intro d
    dsimp only
    split
    · exact hcl7
    · exact h1.le d
  · intro d hd
    simp only [if_neg hd]
    exact h2 d hd
  · simp [hcl]

theorem logOn_reg {nm : Cid → Bytes} {w : World} {s s' : Lib} {u : List Cid} (h : RegInv s u) {prio : UInt32} {c : Cid}
    {d : Option Bytes} {r : WRes} {e : List Ev} (hs : logOn nm w s prio c d = .ok (s', r, e)) :
    SameReg (ensureInit nm w s c).1 s' := by
  unfold logOn at hs
  simp only [bind, Except.bind] at hs
  split at hs
  · cases d with
    | none => simp only [Except.ok.injEq, Prod.mk.injEq] at hs; rw [← hs.1]; exact .refl _
    | some d =>
      simp only at hs
      cases hx : deliver nm w (ensureInit nm w s c).1 prio c d with
      | error z => rw [hx] at hs; cases hs
      | ok z =>
        rw [hx] at hs
        simp only [Except.ok.injEq, Prod.mk.injEq] at hs
        rw [← hs.1]
        exact callWriter_same hx
  · simp only [Except.ok.injEq, Prod.mk.injEq] at hs; rw [← hs.1]; exact .refl _

/-- The registration state after one call. -/
theorem wstep_reg {nm : Cid → Bytes} {w : World} {s s' : Lib} {u : List Cid} (h : RegInv s u) {op : WOp}
    {r : WRes} {e : List Ev} (hs : wstep nm w s op = .ok (s', r, e)) :
    RegInv s' (addTag u op) := by
  cases op with
  | init c =>
    simp only [wstep, Except.ok.injEq, Prod.mk.injEq] at hs
    rw [← hs.1]; exact (ensureInit_spec nm w h c).1
  | log p c t => exact (ensureInit_spec nm w h c).1.same (logOn_reg (prio := p) (d := formatted t) h hs)
  | str p c t => exact (ensureInit_spec nm w h c).1.same (logOn_reg (prio := p) (d := some (t ++ [0])) h hs)
  | buf p c t => exact (ensureInit_spec nm w h c).1.same (logOn_reg (prio := p) (d := some t) h hs)
  | setLevel c l =>
    simp only [wstep, Except.ok.injEq, Prod.mk.injEq] at hs
    rw [← hs.1]; exact (setLevel_spec nm w h c l).1
  | getLevel c =>
    simp only [wstep, Except.ok.injEq, Prod.mk.injEq] at hs
    rw [← hs.1]; exact (ensureInit_spec nm w h c).1
  | setTagLevel name l =>
    simp only [wstep] at hs
    split at hs
    · rename_i c hc
      simp only [Except.ok.injEq, Prod.mk.injEq] at hs
      have hm : c ∈ u := h.list ▸ List.mem_of_find?_eq_some hc
      have := (setLevel_spec nm w h c l).1
      rw [if_pos hm, hs.1] at this
      exact this
    · simp only [Except.ok.injEq, Prod.mk.injEq] at hs
      rw [← hs.1]; exact h
  | getNames m => simp only [wstep, Except.ok.injEq, Prod.mk.injEq] at hs; rw [← hs.1]; exact h
  | foreach => simp only [wstep, Except.ok.injEq, Prod.mk.injEq] at hs; rw [← hs.1]; exact h
  | setWriter f =>
    cases f with
    | none => simp only [wstep, Except.ok.injEq, Prod.mk.injEq] at hs; rw [← hs.1]; exact h
    | some f =>
      simp only [wstep] at hs
      split at hs <;>
      · simp only [Except.ok.injEq, Prod.mk.injEq] at hs; rw [← hs.1]; exact h.same ⟨rfl, rfl, rfl, rfl, rfl⟩
  | getWriter =>
    simp only [wstep] at hs
    have hs' : SameReg s (if s.writer = .init then ctrlInit w s else (s, [])).1 := by
      split
      · exact ctrlInit_same w s
      · exact .refl _
    generalize (if s.writer = .init then ctrlInit w s else (s, [])) = x at hs hs'
    split at hs <;>
    · simp only [Except.ok.injEq, Prod.mk.injEq] at hs; rw [← hs.1]; exact h.same hs'
  | setHook f =>
    cases f with
    | none => simp only [wstep, Except.ok.injEq, Prod.mk.injEq] at hs; rw [← hs.1]; exact h
    | some f =>
      simp only [wstep, Except.ok.injEq, Prod.mk.injEq] at hs; rw [← hs.1]
      exact ⟨h.list, h.mem, h.nodup, h.neg, h.le⟩
  | setDevice f =>
    cases f with
    | none => simp only [wstep, Except.ok.injEq, Prod.mk.injEq] at hs; rw [← hs.1]; exact h
    | some f =>
      simp only [wstep] at hs
      have key : ∀ s'' : Lib, s''.list = s.list → s''.level = s.level → RegInv s'' u :=
        fun s'' a b => ⟨a.trans h.list, by rw [b]; exact h.mem, h.nodup, by rw [b]; exact h.neg, by rw [b]; exact h.le⟩
      split at hs
      · simp only [Except.ok.injEq, Prod.mk.injEq] at hs; rw [← hs.1]; exact h
      split at hs
      · simp only [Except.ok.injEq, Prod.mk.injEq] at hs; rw [← hs.1]; exact key _ rfl rfl
      split at hs
      · simp only [Except.ok.injEq, Prod.mk.injEq] at hs; rw [← hs.1]; exact key _ rfl rfl
      split at hs
      · simp only [Except.ok.injEq, Prod.mk.injEq] at hs; rw [← hs.1]; exact key _ rfl rfl
      · simp only [Except.ok.injEq, Prod.mk.injEq] at hs; rw [← hs.1]; exact key _ rfl rfl
  | replay a b =>
    simp only [wstep, Except.ok.injEq, Prod.mk.injEq] at hs; rw [← hs.1]
    exact ⟨h.list, h.mem, h.nodup, h.neg, h.le⟩

/-- Runs from the initial state. -/
def WRun (nm : Cid → Bytes) (ops : List (World × WOp)) (s : Lib) (tr : List (WRes × List Ev)) : Prop :=
  wrun nm Lib.start ops = .ok (s, tr)

theorem wrun_cons {nm : Cid → Bytes} {s s2 : Lib} {w : World} {op : WOp} {l : List (World × WOp)}
    {tr : List (WRes × List Ev)} (h : wrun nm s ((w, op) :: l) = .ok (s2, tr)) :
    ∃ s1 r e tr', wstep nm w s op = .ok (s1, r, e) ∧ wrun nm s1 l = .ok (s2, tr') ∧ tr = (r, e) :: tr' := by
  simp only [wrun, bind, Except.bind] at h
  cases hx : wstep nm w s op with
  | error z => rw [hx] at h; cases h
  | ok z =>
    obtain ⟨s1, r, e⟩ := z
    rw [hx] at h
    simp only at h
    cases hy : wrun nm s1 l with
    | error z => rw [hy] at h; cases h
    | ok z =>
      obtain ⟨s2', tr'⟩ := z
      rw [hy] at h
      simp only [Except.ok.injEq, Prod.mk.injEq] at h
      exact ⟨s1, r, e, tr', rfl, by rw [hy, h.1], h.2.symm⟩

theorem wrun_reg {nm : Cid → Bytes} : ∀ (l : List (World × WOp)) {s s2 : Lib} {pre : List WOp}
    {tr : List (WRes × List Ev)}, RegInv s (used pre) → wrun nm s l = .ok (s2, tr) →
    RegInv s2 (used (pre ++ l.map Prod.snd)) := by
  intro l
  induction l with
  | nil =>
    intro s s2 pre tr h hr
    simp only [wrun, Except.ok.injEq, Prod.mk.injEq] at hr
    rw [← hr.1]; simpa using h
  | cons x l ih =>
    intro s s2 pre tr h hr
    obtain ⟨w, op⟩ := x
    obtain ⟨s1, r, e, tr', h1, h2, _⟩ := wrun_cons hr
    have h3 := wstep_reg h h1
    rw [← used_snoc] at h3
    have := ih h3 h2
    simpa using this

theorem start_reg : RegInv Lib.start (used []) :=
  ⟨rfl, by intro c; simp [used, Lib.start], by simp [used], by intro c _; rfl, by intro c; simp [Lib.start]⟩

theorem WRun.reg {nm : Cid → Bytes} {ops : List (World × WOp)} {s : Lib} {tr : List (WRes × List Ev)}
    (h : WRun nm ops s tr) : RegInv s (used (ops.map Prod.snd)) := by
  simpa using wrun_reg ops start_reg h

end Verif.Libulog
