import Verif.Libulog.WriteProof

/-!
# Write side of libulog, sequential properties (C21, C23 - C26)

`used ops` (tags in order of first use, last first) is computed from the calls
alone. Levels are observed through the result of `ulog_get_level`.
-/
namespace Verif.Libulog
open Verif

/-- `ulog_get_level` of tag `c` would return `l`. -/
def LevelIs (nm : Cid → Bytes) (w : World) (s : Lib) (c : Cid) (l : Int) : Prop :=
  ∃ s' e, wstep nm w s (.getLevel c) = .ok (s', .int l, e)

/-- The message a call asks to log: priority, tag and, unless its formatting
fails, bytes. -/
def WOp.msg : WOp → Option (UInt32 × Cid × Option Bytes)
  | .log p c none => some (p, c, none)
  | .log p c (some t) => some (p, c, some (t.take 255 ++ [0]))
  | .str p c t => some (p, c, some (t ++ [0]))
  | .buf p c d => some (p, c, some d)
  | _ => none

def Ev.isHook : Ev → Bool
  | .hook _ _ => true
  | _ => false

theorem msg_logOn {nm : Cid → Bytes} {w : World} {s : Lib} {op : WOp} {p : UInt32} {c : Cid} {d : Option Bytes}
    (h : op.msg = some (p, c, d)) : wstep nm w s op = logOn nm w s p c d ∧ op.tag = some c := by
  cases op with
  | log p' c' t =>
    cases t <;>
    · simp only [WOp.msg, Option.some.injEq, Prod.mk.injEq] at h
      obtain ⟨rfl, rfl, rfl⟩ := h
      exact ⟨rfl, rfl⟩
  | str p' c' t =>
    simp only [WOp.msg, Option.some.injEq, Prod.mk.injEq] at h
    obtain ⟨rfl, rfl, rfl⟩ := h
    exact ⟨rfl, rfl⟩
  | buf p' c' t =>
    simp only [WOp.msg, Option.some.injEq, Prod.mk.injEq] at h
    obtain ⟨rfl, rfl, rfl⟩ := h
    exact ⟨rfl, rfl⟩
  | _ => simp [WOp.msg] at h

theorem levelIs_iff {nm : Cid → Bytes} {w : World} {s : Lib} {c : Cid} {l : Int} :
    LevelIs nm w s c l ↔ l = (ensureInit nm w s c).1.level c := by
  unfold LevelIs
  simp only [wstep]
  constructor
  · rintro ⟨s', e, h⟩
    simp only [Except.ok.injEq, Prod.mk.injEq, WRes.int.injEq] at h
    exact h.2.1.symm
  · intro h; exact ⟨_, _, by rw [h]⟩

theorem hookEv_isHook (s : Lib) (c : Cid) : ∀ e ∈ hookEv s c, e.isHook = true := by
  unfold hookEv
  intro e he
  simp only [List.mem_map] at he
  obtain ⟨h, _, rfl⟩ := he
  rfl

theorem ensureInit_hooks {nm : Cid → Bytes} {w : World} {s : Lib} {u : List Cid} (h : RegInv s u) (c : Cid) :
    ∀ e ∈ (ensureInit nm w s c).2, e.isHook = true := by
  rw [(ensureInit_spec nm w h c).2.2.2.1]
  split
  · simp
  · exact hookEv_isHook s c

/-! ## C21 -/

/-- C21, refused. A message whose level (low three bits of the priority) is
above the level of its tag has no effect but the registration of the tag. -/
theorem C21_refused {nm : Cid → Bytes} {ops : List (World × WOp)} {s : Lib} {tr : List (WRes × List Ev)}
    (h : WRun nm ops s tr) {w : World} {op : WOp} {p : UInt32} {c : Cid} {d : Option Bytes}
    (hm : op.msg = some (p, c, d)) {l : Int} (hl : LevelIs nm w s c l) (hp : l < (p.toNat % 8 : Nat)) :
    ∃ s' e, wstep nm w s op = .ok (s', .unit, e) ∧ (∀ x ∈ e, x.isHook = true) ∧
      s'.writer = s.writer ∧ s'.writer2 = s.writer2 ∧ s'.fd = s.fd := by
  obtain ⟨h1, h2⟩ := msg_logOn (nm := nm) (w := w) (s := s) hm
  have hr := h.reg
  have hsp := ensureInit_spec nm w hr c
  rw [levelIs_iff] at hl
  rw [h1]
  unfold logOn
  dsimp only
  rw [if_neg (by omega)]
  exact ⟨_, _, rfl, ensureInit_hooks hr c, hsp.2.2.2.2.1, hsp.2.2.2.2.2.1, hsp.2.2.2.2.2.2.1⟩

/-- C21, accepted. A message whose level is not above the level of its tag is
passed to the current write function, with the same priority word and bytes,
after the registration of the tag. Nothing of the priority word but its low
three bits takes part in the decision. -/
theorem C21_accepted {nm : Cid → Bytes} {ops : List (World × WOp)} {s : Lib} {tr : List (WRes × List Ev)}
    (h : WRun nm ops s tr) {w : World} {op : WOp} {p : UInt32} {c : Cid} {d : Bytes}
    (hm : op.msg = some (p, c, some d)) {l : Int} (hl : LevelIs nm w s c l) (hp : (p.toNat % 8 : Nat) ≤ l)
    {s' : Lib} {r : WRes} {e : List Ev} (hs : wstep nm w s op = .ok (s', r, e)) :
    ∃ s1 e1 e2, callWriter nm w p c d 4 s.writer s1 = .ok (s', e2) ∧ e = e1 ++ e2 ∧ (∀ x ∈ e1, x.isHook = true) ∧
      s1.writer = s.writer ∧ s1.writer2 = s.writer2 ∧ s1.fd = s.fd ∧ s1.replay = s.replay := by
  obtain ⟨h1, h2⟩ := msg_logOn (nm := nm) (w := w) (s := s) hm
  have hr := h.reg
  obtain ⟨i1, i2, i3, i4, i5, i6, i7, i8, i9, i10⟩ := ensureInit_spec nm w hr c
  rw [levelIs_iff] at hl
  rw [h1] at hs
  unfold logOn at hs
  dsimp only at hs
  rw [if_pos (by omega)] at hs
  simp only [bind, Except.bind] at hs
  cases hx : deliver nm w (ensureInit nm w s c).1 p c d with
  | error z => rw [hx] at hs; cases hs
  | ok z =>
    obtain ⟨z1, z2⟩ := z
    rw [hx] at hs
    simp only [Except.ok.injEq, Prod.mk.injEq] at hs
    unfold deliver at hx
    rw [i5] at hx
    exact ⟨_, _, z2, by rw [hx, hs.1], hs.2.2.symm, ensureInit_hooks hr c, i5, i6, i7, i9⟩

/-! ## C23 -/

/-- The level denoted by the first character of a value. -/
def levelOf (b : UInt8) : Int :=
  match [(67, 2), (69, 3), (87, 4), (78, 5), (73, 6), (68, 7), (48, 0), (49, 1), (50, 2), (51, 3), (52, 4), (53, 5),
      (54, 6), (55, 7), (56, 7), (57, 7)].lookup b with
  | some l => l
  | none => 0

theorem parseLevel_eq (b : UInt8) : (parseLevel b : Int) = levelOf b := by
  have : ∀ n : Fin 256, ((parseLevel (UInt8.ofNat n.val) : Nat) : Int) = levelOf (UInt8.ofNat n.val) := by decide +kernel
  have h := this ⟨b.toNat, b.toNat_lt⟩
  simpa using h

/-- C23. The level of a tag that was not used before comes from its own
variable (its name cut to 68 characters), else from `ULOG_LEVEL`, else from the
level of the default tag if that was used, else it is Info. -/
theorem C23_initial {nm : Cid → Bytes} {ops : List (World × WOp)} {s : Lib} {tr : List (WRes × List Ev)}
    (h : WRun nm ops s tr) {w : World} {c : Cid} (hc : c ∉ used (ops.map Prod.snd)) {l l0 : Int}
    (hl : LevelIs nm w s c l) (hl0 : LevelIs nm w s 0 l0) :
    l = match (if nm c = [] then none else w.getenv (ascii "ULOG_LEVEL_" ++ (nm c).take 68)),
          w.getenv (ascii "ULOG_LEVEL") with
      | some v, _ => levelOf (v.headD 0)
      | none, some v => levelOf (v.headD 0)
      | none, none => if 0 ∈ used (ops.map Prod.snd) then l0 else 6 := by
  have hr := h.reg
  rw [levelIs_iff, (ensureInit_spec nm w hr c).2.2.1, if_neg hc] at hl
  rw [levelIs_iff, (ensureInit_spec nm w hr 0).2.2.1] at hl0
  have htake : (ascii "ULOG_LEVEL_" ++ nm c).take 79 = ascii "ULOG_LEVEL_" ++ (nm c).take 68 := by
    rw [List.take_append]
    rfl
  have hnn : ∀ b, ¬ levelOf b < 0 := by
    intro b; rw [← parseLevel_eq]; omega
  rw [hl]
  unfold firstLevel firstByte
  simp only [htake, parseLevel_eq]
  have h0 := hr.mem 0
  by_cases hn : nm c = []
  · simp only [hn, ne_eq, not_true_eq_false, if_false, if_true]
    rw [if_pos (by omega : (-1 : Int) < 0)]
    cases w.getenv (ascii "ULOG_LEVEL") with
    | none =>
      by_cases hz : 0 ∈ used (ops.map Prod.snd)
      · rw [if_pos hz] at hl0
        simp only [if_pos hz]
        have := h0.mp hz
        (repeat' split) <;> omega
      · simp only [if_neg hz]
        have := mt h0.mpr hz
        (repeat' split) <;> omega
    | some v =>
      have := hnn (v.headD 0)
      simp only
      rw [if_neg (by omega), if_neg (by omega)]
  · simp only [hn, ne_eq, not_false_eq_true, if_false, if_true]
    cases w.getenv (ascii "ULOG_LEVEL_" ++ (nm c).take 68) with
    | some v =>
      have := hnn (v.headD 0)
      simp only
      rw [if_neg this, if_neg (by omega), if_neg (by omega)]
    | none =>
      simp only
      rw [if_pos (by omega : (-1 : Int) < 0)]
      cases w.getenv (ascii "ULOG_LEVEL") with
      | none =>
        by_cases hz : 0 ∈ used (ops.map Prod.snd)
        · rw [if_pos hz] at hl0
          simp only [if_pos hz]
          have := h0.mp hz
          (repeat' split) <;> omega
        · simp only [if_neg hz]
          have := mt h0.mpr hz
          (repeat' split) <;> omega
      | some v =>
        have := hnn (v.headD 0)
        simp only
        rw [if_neg (by omega), if_neg (by omega)]

/-- C23. The environment is not consulted again: the level of a used tag does
not depend on it. -/
theorem C23_once {nm : Cid → Bytes} {ops : List (World × WOp)} {s : Lib} {tr : List (WRes × List Ev)}
    (h : WRun nm ops s tr) {w w' : World} {c : Cid} (hc : c ∈ used (ops.map Prod.snd)) {l l' : Int}
    (hl : LevelIs nm w s c l) (hl' : LevelIs nm w' s c l') : l = l' := by
  rw [levelIs_iff, (ensureInit_spec nm w h.reg c).2.2.1, if_pos hc] at hl
  rw [levelIs_iff, (ensureInit_spec nm w' h.reg c).2.2.1, if_pos hc] at hl'
  rw [hl, hl']

/-! ## C24 -/

/-- C24. After setting a level, getting it returns the value clamped to 0..7. -/
theorem C24_set_get {nm : Cid → Bytes} {ops : List (World × WOp)} {s : Lib} {tr : List (WRes × List Ev)}
    (h : WRun nm ops s tr) (w : World) (c : Cid) (l : Int) :
    ∃ s' e, wstep nm w s (.setLevel c l) = .ok (s', .unit, e) ∧ ∀ w', LevelIs nm w' s' c (max 0 (min 7 l)) := by
  obtain ⟨h1, h2, h3, _⟩ := setLevel_spec nm w h.reg c l
  refine ⟨_, _, rfl, fun w' => ?_⟩
  have hx := (ensureInit_spec nm w' h1 c).2.2.1
  rw [if_pos (by split <;> simp_all), h3] at hx
  rw [levelIs_iff]
  exact hx.symm

/-- C24. The level of a used tag changes only when it is set, for the tag or by
its name. -/
theorem C24_sticky {nm : Cid → Bytes} {ops : List (World × WOp)} {s : Lib} {tr : List (WRes × List Ev)}
    (h : WRun nm ops s tr) {w : World} {op : WOp} {s' : Lib} {r : WRes} {e : List Ev}
    (hs : wstep nm w s op = .ok (s', r, e)) {c : Cid} (hc : c ∈ used (ops.map Prod.snd))
    (h1 : ∀ l, op ≠ .setLevel c l) (h2 : ∀ l, op ≠ .setTagLevel (nm c) l) {w1 w2 : World} {l1 : Int}
    (hl : LevelIs nm w1 s c l1) : LevelIs nm w2 s' c l1 := by
  have hr := h.reg
  have hr' := wstep_reg hr hs
  rw [levelIs_iff, (ensureInit_spec nm w1 hr c).2.2.1, if_pos hc] at hl
  have hc' : c ∈ addTag (used (ops.map Prod.snd)) op := by
    unfold addTag
    split
    · split
      · exact hc
      · exact List.mem_cons_of_mem _ hc
    · exact hc
  rw [levelIs_iff, (ensureInit_spec nm w2 hr' c).2.2.1, if_pos hc', hl]
  have hens : ∀ d, (ensureInit nm w s d).1.level c = s.level c := by
    intro d
    obtain ⟨_, e2, e3, _⟩ := ensureInit_spec nm w hr d
    by_cases hd : c = d
    · subst hd; rw [e3, if_pos hc]
    · exact e2 c hd
  have hlog : ∀ p d x, logOn nm w s p d x = .ok (s', r, e) → s.level c = s'.level c := by
    intro p d x hx
    rw [(logOn_reg hr hx).level, hens]
  cases op with
  | init d => simp only [wstep, Except.ok.injEq, Prod.mk.injEq] at hs; rw [← hs.1, hens]
  | getLevel d => simp only [wstep, Except.ok.injEq, Prod.mk.injEq] at hs; rw [← hs.1, hens]
  | log p d t => exact hlog _ _ _ hs
  | str p d t => exact hlog p d (some (t ++ [0])) hs
  | buf p d t => exact hlog p d (some t) hs
  | setLevel d l =>
    have hd : c ≠ d := fun hx => h1 l (by rw [hx])
    simp only [wstep, Except.ok.injEq, Prod.mk.injEq] at hs
    rw [← hs.1, (setLevel_spec nm w hr d l).2.1 c hd]
  | setTagLevel name l =>
    simp only [wstep] at hs
    split at hs
    · rename_i d hd
      simp only [Except.ok.injEq, Prod.mk.injEq] at hs
      have hname := List.find?_some hd
      have hcd : c ≠ d := by
        intro hx
        subst hx
        exact h2 l (by rw [eq_of_beq hname])
      rw [← hs.1, (setLevel_spec nm w hr d l).2.1 c hcd]
    · simp only [Except.ok.injEq, Prod.mk.injEq] at hs
      rw [← hs.1]
  | getNames m => simp only [wstep, Except.ok.injEq, Prod.mk.injEq] at hs; rw [← hs.1]
  | foreach => simp only [wstep, Except.ok.injEq, Prod.mk.injEq] at hs; rw [← hs.1]
  | setWriter f =>
    cases f with
    | none => simp only [wstep, Except.ok.injEq, Prod.mk.injEq] at hs; rw [← hs.1]
    | some f =>
      simp only [wstep] at hs
      split at hs <;>
      · simp only [Except.ok.injEq, Prod.mk.injEq] at hs; rw [← hs.1]
  | getWriter =>
    simp only [wstep] at hs
    have hx : SameReg s (if s.writer = .init then ctrlInit w s else (s, [])).1 := by
      split
      · exact ctrlInit_same w s
      · exact .refl _
    generalize (if s.writer = .init then ctrlInit w s else (s, [])) = x at hs hx
    split at hs <;>
    · simp only [Except.ok.injEq, Prod.mk.injEq] at hs; rw [← hs.1, hx.level]
  | setHook f =>
    cases f <;>
    · simp only [wstep, Except.ok.injEq, Prod.mk.injEq] at hs; rw [← hs.1]
  | setDevice f =>
    cases f with
    | none => simp only [wstep, Except.ok.injEq, Prod.mk.injEq] at hs; rw [← hs.1]
    | some f =>
      simp only [wstep] at hs
      split at hs
      · simp only [Except.ok.injEq, Prod.mk.injEq] at hs; rw [← hs.1]
      split at hs
      · simp only [Except.ok.injEq, Prod.mk.injEq] at hs; rw [← hs.1]
      split at hs
      · simp only [Except.ok.injEq, Prod.mk.injEq] at hs; rw [← hs.1]
      split at hs <;>
      · simp only [Except.ok.injEq, Prod.mk.injEq] at hs; rw [← hs.1]
  | replay a b => simp only [wstep, Except.ok.injEq, Prod.mk.injEq] at hs; rw [← hs.1]

/-- C24. Setting a level by name succeeds exactly when a used tag has that name;
it changes the level of one such tag, the one used first last, and of no other. -/
theorem C24_by_name {nm : Cid → Bytes} {ops : List (World × WOp)} {s : Lib} {tr : List (WRes × List Ev)}
    (h : WRun nm ops s tr) (w : World) (name : Bytes) (l : Int) :
    (∃ c s' e, wstep nm w s (.setTagLevel name l) = .ok (s', .int 0, e) ∧ e = [] ∧
      c ∈ used (ops.map Prod.snd) ∧ nm c = name ∧ (∀ w', LevelIs nm w' s' c (max 0 (min 7 l))) ∧
      (∀ d ∈ used (ops.map Prod.snd), d ≠ c → ∀ w1 w2 l1, LevelIs nm w1 s d l1 → LevelIs nm w2 s' d l1) ∧
      ∃ newer older, used (ops.map Prod.snd) = newer ++ c :: older ∧ ∀ d ∈ newer, nm d ≠ name) ∨
    (wstep nm w s (.setTagLevel name l) = .ok (s, .int (-1), []) ∧
      ∀ c ∈ used (ops.map Prod.snd), nm c ≠ name) := by
  have hr := h.reg
  simp only [wstep]
  cases hf : s.list.find? fun c => nm c == name with
  | none =>
    right
    refine ⟨rfl, fun c hc hx => ?_⟩
    rw [hr.list] at hf
    have := List.find?_eq_none.mp hf c hc
    simp [hx] at this
  | some c =>
    left
    rw [hr.list] at hf
    have hc := List.mem_of_find?_eq_some hf
    have hname : nm c = name := by have := List.find?_some hf; simpa using this
    obtain ⟨h1, h2, h3, h4, _⟩ := setLevel_spec nm w hr c l
    rw [if_pos hc] at h1
    refine ⟨c, _, _, rfl, ?_, hc, hname, fun w' => ?_, ?_, ?_⟩
    · rw [h4, (ensureInit_spec nm w hr c).2.2.2.1, if_pos hc]
    · rw [levelIs_iff, (ensureInit_spec nm w' h1 c).2.2.1, if_pos hc, h3]
    · intro d hd hne w1 w2 l1 hl
      rw [levelIs_iff, (ensureInit_spec nm w1 hr d).2.2.1, if_pos hd] at hl
      rw [levelIs_iff, (ensureInit_spec nm w2 h1 d).2.2.1, if_pos hd, hl, h2 d hne]
    · obtain ⟨_, as, bs, hab, hn⟩ := List.find?_eq_some_iff_append.mp hf
      exact ⟨as, bs, hab, fun d hd hx => by have := hn d hd; simp [hx] at this⟩

/-- C24. Listing names returns the names of the used tags, last used first, cut
to the requested number; no tag is listed twice. -/
theorem C24_names {nm : Cid → Bytes} {ops : List (World × WOp)} {s : Lib} {tr : List (WRes × List Ev)}
    (h : WRun nm ops s tr) (w : World) (max : Int) :
    wstep nm w s (.getNames max) = .ok (s, .names (((used (ops.map Prod.snd)).map nm).take max.toNat), []) ∧
      (used (ops.map Prod.snd)).Nodup ∧
      ∀ c, c ∈ used (ops.map Prod.snd) ↔ ∃ op ∈ ops.map Prod.snd, op.tag = some c := by
  have hr := h.reg
  refine ⟨by simp only [wstep, hr.list, List.map_take], hr.nodup, ?_⟩
  intro c
  clear h hr
  generalize ops.map Prod.snd = l
  have : ∀ l : List WOp, c ∈ used l ↔ ∃ op ∈ l, op.tag = some c := by
    intro l
    induction hn : l.length generalizing l with
    | zero =>
      have : l = [] := List.length_eq_zero_iff.mp hn
      subst this; simp [used]
    | succ n ih =>
      have hne : l ≠ [] := fun hx => by rw [hx] at hn; simp at hn
      have hsplit := List.dropLast_concat_getLast hne
      have hlen : l.dropLast.length = n := by rw [List.length_dropLast]; omega
      rw [← hsplit, used_snoc]
      unfold addTag
      have ih' := ih l.dropLast hlen
      cases ht : (l.getLast hne).tag with
      | none =>
        simp only [List.mem_append, List.mem_singleton]
        rw [ih']
        constructor
        · rintro ⟨op, h1, h2⟩; exact ⟨op, Or.inl h1, h2⟩
        · rintro ⟨op, h1 | h1, h2⟩
          · exact ⟨op, h1, h2⟩
          · rw [h1, ht] at h2; cases h2
      | some d =>
        simp only [List.mem_append, List.mem_singleton]
        constructor
        · intro hc
          by_cases hd : d ∈ used l.dropLast
          · rw [if_pos hd] at hc
            obtain ⟨op, h1, h2⟩ := ih'.mp hc
            exact ⟨op, Or.inl h1, h2⟩
          · rw [if_neg hd] at hc
            rcases List.mem_cons.mp hc with hc | hc
            · exact ⟨_, Or.inr rfl, by rw [ht, hc]⟩
            · obtain ⟨op, h1, h2⟩ := ih'.mp hc
              exact ⟨op, Or.inl h1, h2⟩
        · rintro ⟨op, h1 | h1, h2⟩
          · have := ih'.mpr ⟨op, h1, h2⟩
            split
            · exact this
            · exact List.mem_cons_of_mem _ this
          · rw [h1, ht] at h2
            injection h2 with h2
            subst h2
            split
            · assumption
            · exact List.mem_cons_self
  exact this l

/-- C24. The enumeration of tags visits the used ones once each, last used
first, except the default tag. -/
theorem C24_foreach {nm : Cid → Bytes} {ops : List (World × WOp)} {s : Lib} {tr : List (WRes × List Ev)}
    (h : WRun nm ops s tr) (w : World) :
    wstep nm w s .foreach = .ok (s, .tags ((used (ops.map Prod.snd)).filter fun c => decide (c ≠ 0)), []) := by
  simp only [wstep, h.reg.list]
  have : (fun c : Cid => c != 0) = fun c => decide (c ≠ 0) := by
    funext c; by_cases hc : c = 0 <;> simp [hc]
  rw [this]

/-! ## C25, C26 -/

/-- Does the environment ask for copies on stderr? -/
def World.stderr (w : World) : Bool := (w.getenv (ascii "ULOG_STDERR")).isSome

/-- The call neither installs a write function nor changes the device. -/
def keepsWriter (w : World) : WOp → Bool
  | .setWriter (some _) => false
  | .setDevice (some name) => decide (name.length ≥ 21) || !w.strdupOk
  | _ => true

/-- Function `n` is the current write function, possibly behind the stderr copy. -/
def Installed (s : Lib) (stderr : Bool) (n : Nat) : Prop :=
  if stderr then (∃ color, s.writer = .wrap color) ∧ s.writer2 = some (.custom n) else s.writer = .custom n

theorem Installed.congr {s s' : Lib} {b : Bool} {n : Nat} (h : Installed s b n) (h1 : s'.writer = s.writer)
    (h2 : s'.writer2 = s.writer2) : Installed s' b n := by
  unfold Installed at *
  rw [h1, h2]; exact h

theorem installed_call {nm : Cid → Bytes} {w : World} {p : UInt32} {c : Cid} {d : Bytes} {s s' : Lib} {b : Bool}
    {n : Nat} {e : List Ev} (h : Installed s b n) (hc : callWriter nm w p c d 4 s.writer s = .ok (s', e)) :
    s' = s ∧ (e = [.custom n p c d] ∨ ∃ l, e = [.custom n p c d, .stderr l]) ∧
      (b = false → e = [.custom n p c d]) ∧
      (b = true → (p.toNat.testBit 7 = true ↔ e = [.custom n p c d])) := by
  unfold Installed at h
  cases b with
  | false =>
    simp only [Bool.false_eq_true, if_false] at h
    rw [h] at hc
    simp only [callWriter, Except.ok.injEq, Prod.mk.injEq] at hc
    exact ⟨hc.1.symm, Or.inl hc.2.symm, fun _ => hc.2.symm, fun hx => by cases hx⟩
  | true =>
    simp only [if_true] at h
    obtain ⟨⟨color, h1⟩, h2⟩ := h
    rw [h1] at hc
    simp only [callWriter, h2, bind, Except.bind] at hc
    split at hc
    · rename_i hb
      simp only [Except.ok.injEq, Prod.mk.injEq] at hc
      exact ⟨hc.1.symm, Or.inl hc.2.symm, (fun hx => by cases hx), fun _ => ⟨fun _ => hc.2.symm, fun _ => hb⟩⟩
    · rename_i hb
      cases hl : stderrLine s.replay color p (nm c) d with
      | error y => rw [hl] at hc; cases hc
      | ok y =>
        rw [hl] at hc
        simp only [Except.ok.injEq, Prod.mk.injEq] at hc
        refine ⟨hc.1.symm, Or.inr ⟨y, hc.2.symm⟩, (fun hx => by cases hx), fun _ => ⟨fun hx => absurd hx hb, fun hx => ?_⟩⟩
        rw [hx] at hc
        simp at hc

theorem keeps_step {nm : Cid → Bytes} {w : World} {s s' : Lib} {u : List Cid} (hr : RegInv s u) {b : Bool} {n : Nat}
    (h : Installed s b n) {op : WOp} (hk : keepsWriter w op = true) {r : WRes} {e : List Ev}
    (hs : wstep nm w s op = .ok (s', r, e)) : Installed s' b n := by
  have hw : s.writer ≠ .init := by
    unfold Installed at h
    intro hx
    cases b
    · simp only [Bool.false_eq_true, if_false] at h; rw [h] at hx; cases hx
    · simp only [if_true] at h; obtain ⟨⟨color, h1⟩, _⟩ := h; rw [h1] at hx; cases hx
  have hens : ∀ c, Installed (ensureInit nm w s c).1 b n := fun c =>
    h.congr (ensureInit_spec nm w hr c).2.2.2.2.1 (ensureInit_spec nm w hr c).2.2.2.2.2.1
  have hlog : ∀ p d x, logOn nm w s p d x = .ok (s', r, e) → Installed s' b n := by
    intro p d x hx
    unfold logOn at hx
    dsimp only at hx
    split at hx
    · cases x with
      | none => simp only [Except.ok.injEq, Prod.mk.injEq] at hx; rw [← hx.1]; exact hens d
      | some x =>
        simp only [bind, Except.bind] at hx
        cases hy : deliver nm w (ensureInit nm w s d).1 p d x with
        | error z => rw [hy] at hx; cases hx
        | ok z =>
          rw [hy] at hx
          simp only [Except.ok.injEq, Prod.mk.injEq] at hx
          have := (installed_call (hens d) hy).1
          rw [← hx.1, this]; exact hens d
    · simp only [Except.ok.injEq, Prod.mk.injEq] at hx; rw [← hx.1]; exact hens d
  have hset : ∀ c l, Installed (setLevel nm w s c l).1 b n := fun c l =>
    h.congr (setLevel_spec nm w hr c l).2.2.2.2.1 (setLevel_spec nm w hr c l).2.2.2.2.2.1
  cases op with
  | init d => simp only [wstep, Except.ok.injEq, Prod.mk.injEq] at hs; rw [← hs.1]; exact hens d
  | getLevel d => simp only [wstep, Except.ok.injEq, Prod.mk.injEq] at hs; rw [← hs.1]; exact hens d
  | log p d t => exact hlog _ _ _ hs
  | str p d t => exact hlog p d (some (t ++ [0])) hs
  | buf p d t => exact hlog p d (some t) hs
  | setLevel d l => simp only [wstep, Except.ok.injEq, Prod.mk.injEq] at hs; rw [← hs.1]; exact hset d l
  | setTagLevel name l =>
    simp only [wstep] at hs
    split at hs
    · simp only [Except.ok.injEq, Prod.mk.injEq] at hs; rw [← hs.1]; exact hset _ l
    · simp only [Except.ok.injEq, Prod.mk.injEq] at hs; rw [← hs.1]; exact h
  | getNames m => simp only [wstep, Except.ok.injEq, Prod.mk.injEq] at hs; rw [← hs.1]; exact h
  | foreach => simp only [wstep, Except.ok.injEq, Prod.mk.injEq] at hs; rw [← hs.1]; exact h
  | setWriter f =>
    cases f with
    | none => simp only [wstep, Except.ok.injEq, Prod.mk.injEq] at hs; rw [← hs.1]; exact h
    | some f => simp [keepsWriter] at hk
  | getWriter =>
    simp only [wstep, if_neg hw] at hs
    split at hs <;>
    · simp only [Except.ok.injEq, Prod.mk.injEq] at hs; rw [← hs.1]; exact h
  | setHook f =>
    cases f with
    | none => simp only [wstep, Except.ok.injEq, Prod.mk.injEq] at hs; rw [← hs.1]; exact h
    | some f =>
      simp only [wstep, Except.ok.injEq, Prod.mk.injEq] at hs; rw [← hs.1]; exact h.congr rfl rfl
  | setDevice f =>
    cases f with
    | none => simp only [wstep, Except.ok.injEq, Prod.mk.injEq] at hs; rw [← hs.1]; exact h
    | some f =>
      simp only [keepsWriter, Bool.or_eq_true, decide_eq_true_eq, Bool.not_eq_true'] at hk
      simp only [wstep] at hs
      split at hs
      · simp only [Except.ok.injEq, Prod.mk.injEq] at hs; rw [← hs.1]; exact h
      split at hs
      · simp only [Except.ok.injEq, Prod.mk.injEq] at hs; rw [← hs.1]; exact h.congr rfl rfl
      · rename_i h1 h2
        rcases hk with hk | hk
        · exact absurd hk h1
        · exact absurd hk h2
  | replay a b =>
    simp only [wstep, Except.ok.injEq, Prod.mk.injEq] at hs; rw [← hs.1]; exact h.congr rfl rfl

theorem keeps_run {nm : Cid → Bytes} : ∀ (l : List (World × WOp)) {s s2 : Lib} {pre : List WOp}
    {tr : List (WRes × List Ev)} {b : Bool} {n : Nat}, RegInv s (used pre) → Installed s b n →
    (∀ x ∈ l, keepsWriter x.1 x.2 = true) → wrun nm s l = .ok (s2, tr) →
    Installed s2 b n ∧ ∃ u, RegInv s2 u := by
  intro l
  induction l with
  | nil =>
    intro s s2 pre tr b n hr h _ hw
    simp only [wrun, Except.ok.injEq, Prod.mk.injEq] at hw
    rw [← hw.1]; exact ⟨h, _, hr⟩
  | cons x l ih =>
    intro s s2 pre tr b n hr h hk hw
    obtain ⟨w, op⟩ := x
    obtain ⟨s1, r, e, tr', h1, h2, _⟩ := wrun_cons hw
    have h3 := wstep_reg hr h1
    rw [← used_snoc] at h3
    exact ih h3 (keeps_step hr h (hk _ List.mem_cons_self) h1) (fun y hy => hk y (List.mem_cons_of_mem _ hy)) h2

/-- C25, what holds. From the moment a foreign write function is installed and
as long as no function is installed and the device is not changed, in an
environment that keeps or keeps lacking `ULOG_STDERR`: querying the function
returns it; every accepted message is passed to it, exactly once, with its
priority, tag and bytes, and then copied to stderr if that is asked for and the
message is not binary; a refused message is not passed.
For device changes see `C25_device`. -/
theorem C25_custom {nm : Cid → Bytes} {ops l : List (World × WOp)} {s s1 s2 : Lib}
    {tr tr' : List (WRes × List Ev)} (h : WRun nm ops s tr) {w0 w : World} {n : Nat} {r : WRes} {e : List Ev}
    (hi : wstep nm w0 s (.setWriter (some (.custom n))) = .ok (s1, r, e))
    (hk : ∀ x ∈ l, keepsWriter x.1 x.2 = true) (hl : wrun nm s1 l = .ok (s2, tr')) (hw : w.stderr = w0.stderr) :
    wstep nm w s2 .getWriter = .ok (s2, .wf (some (.custom n)), []) ∧
    ∀ (op : WOp) (p : UInt32) (c : Cid) (d : Bytes) (lv : Int), op.msg = some (p, c, some d) → LevelIs nm w s2 c lv →
      ((p.toNat % 8 : Nat) ≤ lv → ∀ s3 r e, wstep nm w s2 op = .ok (s3, r, e) →
        ∃ e1 e2, e = e1 ++ .custom n p c d :: e2 ∧ (∀ x ∈ e1, x.isHook = true) ∧
          if w0.stderr ∧ ¬ p.toNat.testBit 7 then ∃ t, e2 = [.stderr t] else e2 = []) ∧
      (lv < (p.toNat % 8 : Nat) → ∀ s3 r e, wstep nm w s2 op = .ok (s3, r, e) → ∀ x ∈ e, x.isHook = true) := by
  have hr := h.reg
  have hr1 := wstep_reg hr hi
  have hin : Installed s1 w0.stderr n := by
    simp only [wstep] at hi
    unfold Installed World.stderr
    split at hi
    · rename_i hx
      simp only [Except.ok.injEq, Prod.mk.injEq] at hi
      rw [if_pos hx, ← hi.1]
      exact ⟨⟨_, rfl⟩, rfl⟩
    · rename_i hx
      simp only [Except.ok.injEq, Prod.mk.injEq] at hi
      rw [if_neg hx, ← hi.1]
  obtain ⟨hin2, u2, hr2⟩ := keeps_run l (pre := (ops.map Prod.snd)) hr1 hin hk hl
  constructor
  · simp only [wstep]
    have hst : (w.getenv (ascii "ULOG_STDERR")).isSome = w0.stderr := hw
    rw [hst]
    unfold Installed at hin2
    cases hb : w0.stderr with
    | false =>
      rw [hb] at hin2
      simp only [Bool.false_eq_true, if_false] at hin2 ⊢
      rw [if_neg (by rw [hin2]; simp), hin2]
    | true =>
      rw [hb] at hin2
      simp only [if_true] at hin2 ⊢
      obtain ⟨⟨color, h1⟩, h2⟩ := hin2
      rw [if_neg (by rw [h1]; simp), h2]
  · intro op p c d lv hm hlv
    obtain ⟨h1, _⟩ := msg_logOn (nm := nm) (w := w) (s := s2) hm
    have hsp := ensureInit_spec nm w hr2 c
    rw [levelIs_iff] at hlv
    constructor
    · intro hp s3 r e hs
      rw [h1] at hs
      unfold logOn at hs
      dsimp only at hs
      rw [if_pos (by omega)] at hs
      simp only [bind, Except.bind] at hs
      cases hy : deliver nm w (ensureInit nm w s2 c).1 p c d with
      | error z => rw [hy] at hs; cases hs
      | ok z =>
        obtain ⟨z1, z2⟩ := z
        rw [hy] at hs
        simp only [Except.ok.injEq, Prod.mk.injEq] at hs
        obtain ⟨_, q1, q2, q3⟩ := installed_call (hin2.congr hsp.2.2.2.2.1 hsp.2.2.2.2.2.1) hy
        have hh := ensureInit_hooks (nm := nm) (w := w) hr2 c
        cases hb : w0.stderr with
        | false =>
          rw [hb] at q2
          refine ⟨_, [], ?_, hh, ?_⟩
          · rw [← hs.2.2, q2 rfl]
          · simp
        | true =>
          rw [hb] at q3
          have q3' := q3 rfl
          by_cases hbit : p.toNat.testBit 7 = true
          · refine ⟨_, [], ?_, hh, ?_⟩
            · rw [← hs.2.2, q3'.mp hbit]
            · simp [hbit]
          · rcases q1 with q1 | ⟨t, q1⟩
            · exact absurd (q3'.mpr q1) hbit
            · refine ⟨_, [.stderr t], ?_, hh, ?_⟩
              · rw [← hs.2.2, q1]
              · simp [hbit]
    · intro hp s3 r e hs
      rw [h1] at hs
      unfold logOn at hs
      dsimp only at hs
      rw [if_neg (by omega)] at hs
      simp only [Except.ok.injEq, Prod.mk.injEq] at hs
      rw [← hs.2.2]
      exact ensureInit_hooks hr2 c

/-- An environment without variables or devices. -/
def bareWorld : World := { getenv := fun _ => none, openDev := fun _ => none, strdupOk := true }

/-- Tag 1 is called `foo`, the others have no name. -/
def exNames : Cid → Bytes := fun c => if c = 1 then ascii "foo" else []

/-- C25. Installing a null pointer is refused with -EINVAL and changes nothing; installing
anything else succeeds. -/
theorem C25_null_writer (nm : Cid → Bytes) (w : World) (s : Lib) (f : Option Wf) {s1 : Lib} {r : WRes} {e : List Ev}
    (h : wstep nm w s (.setWriter f) = .ok (s1, r, e)) :
    e = [] ∧ (f = none → s1 = s ∧ r = .int (-22)) ∧ (f ≠ none → r = .int 0) := by
  cases f with
  | none =>
    simp only [wstep, Except.ok.injEq, Prod.mk.injEq] at h
    exact ⟨h.2.2.symm, fun _ => ⟨h.1.symm, h.2.1.symm⟩, fun hn => absurd rfl hn⟩
  | some f =>
    simp only [wstep] at h
    split at h <;> simp only [Except.ok.injEq, Prod.mk.injEq] at h
    all_goals exact ⟨h.2.2.symm, by simp, fun _ => h.2.1.symm⟩

/-- C25 is false after changing the device: the function is replaced by the
stderr copy without any call that installs one. -/
theorem C25_false : ∃ s tr, WRun exNames [(bareWorld, .setWriter (some (.custom 5))), (bareWorld, .str 3 1 (ascii "a")),
      (bareWorld, .setDevice (some (ascii "bar"))), (bareWorld, .str 3 1 (ascii "b")), (bareWorld, .getWriter)] s tr ∧
    tr = [(.int 0, []), (.unit, [.custom 5 3 1 (ascii "a\x00")]), (.int 0, []),
      (.unit, [.stderr (ascii "E foo: b\n")]), (.wf (some (.wrap false)), [])] :=
  ⟨_, _, rfl, rfl⟩

/-- C26. What a foreign write function gets: of a formatted text the first 255
characters and a NUL, of a plain string all of it and its NUL, of a buffer the
buffer; a failed formatting is not passed on. -/
theorem C26_bytes {nm : Cid → Bytes} {ops : List (World × WOp)} {s : Lib} {tr : List (WRes × List Ev)}
    (h : WRun nm ops s tr) {w : World} {n : Nat} (hw : s.writer = .custom n) {p : UInt32} {c : Cid} {l : Int}
    (hl : LevelIs nm w s c l) (hp : (p.toNat % 8 : Nat) ≤ l) :
    ∃ s' e1, (∀ x ∈ e1, x.isHook = true) ∧
      (∀ t, wstep nm w s (.log p c (some t)) = .ok (s', .unit, e1 ++ [.custom n p c (t.take 255 ++ [0])])) ∧
      (∀ t, wstep nm w s (.str p c t) = .ok (s', .unit, e1 ++ [.custom n p c (t ++ [0])])) ∧
      (∀ d, wstep nm w s (.buf p c d) = .ok (s', .unit, e1 ++ [.custom n p c d])) ∧
      wstep nm w s (.log p c none) = .ok (s', .unit, e1) := by
  have hr := h.reg
  have hsp := ensureInit_spec nm w hr c
  rw [levelIs_iff] at hl
  have hcall : ∀ d, deliver nm w (ensureInit nm w s c).1 p c d =
      .ok ((ensureInit nm w s c).1, [.custom n p c d]) := by
    intro d
    unfold deliver
    rw [hsp.2.2.2.2.1, hw]
    rfl
  refine ⟨(ensureInit nm w s c).1, (ensureInit nm w s c).2, ensureInit_hooks hr c, ?_, ?_, ?_, ?_⟩
  · intro t
    simp only [wstep, logOn, formatted]
    rw [if_pos (by omega), hcall]
    rfl
  · intro t
    simp only [wstep, logOn]
    rw [if_pos (by omega), hcall]
    rfl
  · intro t
    simp only [wstep, logOn]
    rw [if_pos (by omega), hcall]
    rfl
  · simp only [wstep, logOn, formatted]
    rw [if_pos (by omega)]

theorem filter_reg {nm : Cid → Bytes} {s : Lib} {u : List Cid} (hr : RegInv s u) {w : World} {n : Nat} (hw : s.writer = .custom n)
    {op : WOp} {p : UInt32} {c : Cid} {d : Bytes} (hm : op.msg = some (p, c, some d)) {l : Int} (hl : LevelIs nm w s c l) :
    ∃ s' e, wstep nm w s op = .ok (s', .unit, e) ∧
      e.filter (fun x => !x.isHook) = if (p.toNat % 8 : Nat) ≤ l then [.custom n p c d] else [] := by
  have hsp := ensureInit_spec nm w hr c
  have hlv := levelIs_iff.mp hl
  have hnil : (ensureInit nm w s c).2.filter (fun x => !x.isHook) = [] := by
    rw [List.filter_eq_nil_iff]
    intro x hx
    simp [ensureInit_hooks hr c x hx]
  rw [(msg_logOn hm).1]
  unfold logOn
  dsimp only
  by_cases hp : (p.toNat % 8 : Nat) ≤ l
  · rw [if_pos (by omega), if_pos hp]
    have hcall : deliver nm w (ensureInit nm w s c).1 p c d = .ok ((ensureInit nm w s c).1, [.custom n p c d]) := by
      unfold deliver
      rw [hsp.2.2.2.2.1, hw]
      rfl
    refine ⟨(ensureInit nm w s c).1, (ensureInit nm w s c).2 ++ [.custom n p c d], ?_, ?_⟩
    · simp only [hcall]; rfl
    · rw [List.filter_append, hnil]; rfl
  · rw [if_neg (by omega), if_neg hp]
    exact ⟨_, _, rfl, hnil⟩

/-- C21, observed at a foreign write function: the message reaches it, once, as
it was given, exactly when its level is not above that of the tag; otherwise the
function is not called. -/
theorem C21_filter {nm : Cid → Bytes} {ops : List (World × WOp)} {s : Lib} {tr : List (WRes × List Ev)}
    (h : WRun nm ops s tr) {w : World} {n : Nat} (hw : s.writer = .custom n) {op : WOp} {p : UInt32} {c : Cid}
    {d : Bytes} (hm : op.msg = some (p, c, some d)) {l : Int} (hl : LevelIs nm w s c l) :
    ∃ s' e, wstep nm w s op = .ok (s', .unit, e) ∧
      e.filter (fun x => !x.isHook) = if (p.toNat % 8 : Nat) ≤ l then [.custom n p c d] else [] :=
  filter_reg h.reg hw hm hl

end Verif.Libulog
