import Verif.Tools.Py
import Verif.Libulog.PropsWriter

/-!
# The Python bridge (C49, C74)
-/
namespace Verif.Tools
open Verif Verif.Libulog

def PyEv.native? : PyEv → Option Ev
  | .native e => some e
  | _ => none

/-- What the rest of the process sees. -/
def natives (l : List PyEv) : List Ev := l.filterMap PyEv.native?

def PyEv.isHandledBy (g : Nat) : PyEv → Bool
  | .handled g' .. => g' == g
  | _ => false

/-- The last call about logger `g` enabled it. -/
def pyOn (g : Nat) (ops : List PyOp) : Bool :=
  ops.foldl (fun acc op => match op with
    | .enable g' _ => acc || g' == g
    | .disable g' => acc && g' != g
    | .lib _ => acc) false

def World.color (w : World) : Bool := (w.getenv (ascii "ULOG_STDERR_COLOR")).isSome

/-- The calls considered: bridging always with forwarding, no other function is
installed, the device is not changed, and the environment is that of `b` and `col`. -/
def PyKeeps (b col : Bool) (x : World × PyOp) : Prop :=
  x.1.stderr = b ∧ World.color x.1 = col ∧
  match x.2 with
  | .enable _ f => f = true
  | .disable _ => True
  | .lib op => keepsWriter x.1 op = true

/-- The state once the library has chosen its write function. -/
def chosen (w : World) (s : Lib) : Lib := if s.writer = .init then (ctrlInit w s).1 else s

theorem pyOn_snoc (g : Nat) (ops : List PyOp) (op : PyOp) : pyOn g (ops ++ [op]) = (match op with
    | .enable g' _ => pyOn g ops || g' == g
    | .disable g' => pyOn g ops && g' != g
    | .lib _ => pyOn g ops) := by
  unfold pyOn; rw [List.foldl_append]; rfl

/-- Calls that keep the function leave both pointers alone. -/
theorem keeps_same {nm : Cid → Bytes} {w : World} {s s' : Lib} {u : List Cid} (hr : RegInv s u) {b : Bool} {n : Nat}
    (h : Installed s b n) {op : WOp} (hk : keepsWriter w op = true) {r : WRes} {e : List Ev}
    (hs : wstep nm w s op = .ok (s', r, e)) : s'.writer = s.writer ∧ s'.writer2 = s.writer2 := by
  have hw : s.writer ≠ .init := by
    unfold Installed at h
    intro hx
    cases b
    · simp only [Bool.false_eq_true, if_false] at h; rw [h] at hx; cases hx
    · simp only [if_true] at h; obtain ⟨⟨color, h1⟩, _⟩ := h; rw [h1] at hx; cases hx
  have hens : ∀ c, (ensureInit nm w s c).1.writer = s.writer ∧ (ensureInit nm w s c).1.writer2 = s.writer2 := fun c =>
    ⟨(ensureInit_spec nm w hr c).2.2.2.2.1, (ensureInit_spec nm w hr c).2.2.2.2.2.1⟩
  have hlog : ∀ p d x, logOn nm w s p d x = .ok (s', r, e) → s'.writer = s.writer ∧ s'.writer2 = s.writer2 := by
    intro p d x hx
    unfold logOn at hx
    dsimp only at hx
    split at hx
    · cases x with
      | none => simp only [Except.ok.injEq, Prod.mk.injEq] at hx; rw [← hx.1]; exact hens d
      | some x =>
        simp only [bind, Except.bind] at hx
        cases hy : deliver nm w (ensureInit nm w s d).1 p d x with
        | error z => rw [hy] at hx; cases hx
        | ok z =>
          rw [hy] at hx
          simp only [Except.ok.injEq, Prod.mk.injEq] at hx
          have := (installed_call (h.congr (hens d).1 (hens d).2) hy).1
          rw [← hx.1, this]; exact hens d
    · simp only [Except.ok.injEq, Prod.mk.injEq] at hx; rw [← hx.1]; exact hens d
  have hset : ∀ c l, (setLevel nm w s c l).1.writer = s.writer ∧ (setLevel nm w s c l).1.writer2 = s.writer2 := fun c l =>
    ⟨(setLevel_spec nm w hr c l).2.2.2.2.1, (setLevel_spec nm w hr c l).2.2.2.2.2.1⟩
  cases op with
  | init d => simp only [wstep, Except.ok.injEq, Prod.mk.injEq] at hs; rw [← hs.1]; exact hens d
  | getLevel d => simp only [wstep, Except.ok.injEq, Prod.mk.injEq] at hs; rw [← hs.1]; exact hens d
  | log p d t => exact hlog _ _ _ hs
  | str p d t => exact hlog p d (some (t ++ [0])) hs
  | buf p d t => exact hlog p d (some t) hs
  | setLevel d l => simp only [wstep, Except.ok.injEq, Prod.mk.injEq] at hs; rw [← hs.1]; exact hset d l
  | setTagLevel name l =>
    simp only [wstep] at hs
    split at hs
    · simp only [Except.ok.injEq, Prod.mk.injEq] at hs; rw [← hs.1]; exact hset _ l
    · simp only [Except.ok.injEq, Prod.mk.injEq] at hs; rw [← hs.1]; exact ⟨rfl, rfl⟩
  | getNames m => simp only [wstep, Except.ok.injEq, Prod.mk.injEq] at hs; rw [← hs.1]; exact ⟨rfl, rfl⟩
  | foreach => simp only [wstep, Except.ok.injEq, Prod.mk.injEq] at hs; rw [← hs.1]; exact ⟨rfl, rfl⟩
  | setWriter f =>
    cases f with
    | none => simp only [wstep, Except.ok.injEq, Prod.mk.injEq] at hs; rw [← hs.1]; exact ⟨rfl, rfl⟩
    | some f => simp [keepsWriter] at hk
  | getWriter =>
    simp only [wstep, if_neg hw] at hs
    split at hs <;>
    · simp only [Except.ok.injEq, Prod.mk.injEq] at hs; rw [← hs.1]; exact ⟨rfl, rfl⟩
  | setHook f =>
    cases f with
    | none => simp only [wstep, Except.ok.injEq, Prod.mk.injEq] at hs; rw [← hs.1]; exact ⟨rfl, rfl⟩
    | some f => simp only [wstep, Except.ok.injEq, Prod.mk.injEq] at hs; rw [← hs.1]; exact ⟨rfl, rfl⟩
  | setDevice f =>
    cases f with
    | none => simp only [wstep, Except.ok.injEq, Prod.mk.injEq] at hs; rw [← hs.1]; exact ⟨rfl, rfl⟩
    | some f =>
      simp only [keepsWriter, Bool.or_eq_true, decide_eq_true_eq, Bool.not_eq_true'] at hk
      simp only [wstep] at hs
      split at hs
      · simp only [Except.ok.injEq, Prod.mk.injEq] at hs; rw [← hs.1]; exact ⟨rfl, rfl⟩
      split at hs
      · simp only [Except.ok.injEq, Prod.mk.injEq] at hs; rw [← hs.1]; exact ⟨rfl, rfl⟩
      · rename_i h1 h2
        rcases hk with hk | hk
        · exact absurd hk h1
        · exact absurd hk h2
  | replay a b =>
    simp only [wstep, Except.ok.injEq, Prod.mk.injEq] at hs; rw [← hs.1]; exact ⟨rfl, rfl⟩

/-- How the library looked before (`x`): the function `f` behind it is not the bridge and
calls no other, except the stderr copy of nothing. -/
structure PyBefore (b col : Bool) (x : Lib) (f : Wf) : Prop where
  off : b = false → x.writer = f
  on : b = true → x.writer = .wrap col ∧ x.writer2 = some f ∧ f.base = true
  wrap : ∀ color, f = .wrap color → x.writer2 = some .null
  ninit : f ≠ .init
  nself : f ≠ .custom 0

structure PyInv (b col : Bool) (x : Lib) (f : Wf) (p : Py) (ops : List PyOp) : Prop where
  reg : ∃ u, RegInv p.lib u
  fn : p.kernelFn = some (some f)
  off : b = false → p.lib.writer = .custom 0 ∧ p.lib.writer2 = x.writer2
  on : b = true → p.lib.writer = .wrap col ∧ p.lib.writer2 = some (.custom 0)
  nodup : p.loggers.Nodup
  mem : ∀ g, g ∈ p.loggers ↔ pyOn g ops = true

theorem PyInv.installed {b col : Bool} {x : Lib} {f : Wf} {p : Py} {ops : List PyOp} (h : PyInv b col x f p ops) : Installed p.lib b 0 := by
  unfold Installed
  cases b with
  | false => simpa using (h.off rfl).1
  | true => rw [if_pos rfl]; exact ⟨⟨col, (h.on rfl).1⟩, (h.on rfl).2⟩

/-- The function behind the bridge returns, leaves the state alone, does not call the
bridge and does not look at the first pointer. -/
theorem before_call {b col : Bool} {x : Lib} {f : Wf} (hb : PyBefore b col x f) {nm : Cid → Bytes} {w : World} {p : UInt32} {c : Cid}
    {d : Bytes} (hd : 0 ∈ d) {s : Lib} (h2 : b = false → s.writer2 = x.writer2) :
    ∃ es, callWriter nm w p c d 4 f s = .ok (s, es) ∧ (∀ e ∈ es, ∀ q c d, e ≠ .custom 0 q c d) ∧
      (∀ wr, callWriter nm w p c d 4 f { s with writer := wr } = .ok ({ s with writer := wr }, es)) ∧
      ∀ wr w2, f.base = true → callWriter nm w p c d 3 f { s with writer := wr, writer2 := w2 } = .ok ({ s with writer := wr, writer2 := w2 }, es) := by
  cases hf : f with
  | init => exact absurd hf hb.ninit
  | null => exact ⟨[], rfl, by simp, fun _ => rfl, fun _ _ _ => rfl⟩
  | kernel => exact ⟨_, rfl, by simp, fun _ => rfl, fun _ _ _ => rfl⟩
  | custom n =>
    have : n ≠ 0 := fun h => hb.nself (by rw [hf, h])
    exact ⟨_, rfl, by simp [this], fun _ => rfl, fun _ _ _ => rfl⟩
  | wrap color =>
    have hbf : b = false := by
      cases b with
      | false => rfl
      | true => have := (hb.on rfl).2.2; rw [hf] at this; cases this
    have hx : s.writer2 = some .null := by rw [h2 hbf]; exact hb.wrap color hf
    refine ⟨if p.toNat.testBit 7 then [] else [.stderr ((stderrLine s.replay color p (nm c) d).toOption.getD [])], ?_, ?_, fun wr => ?_, fun _ _ h => by cases h⟩
    · simp only [callWriter, hx, bind, Except.bind, stderrLine, if_pos hd]
      split <;> rfl
    · intro e he; split at he <;> simp at he; intro q c d hh; rw [he] at hh; cases hh
    · simp only [callWriter, hx, bind, Except.bind, stderrLine, if_pos hd]
      split <;> rfl

theorem pyEvents_native {nm : Cid → Bytes} {w : World} {en : Nat → Nat → Bool} {p : Py} {fuel : Nat} {s : Lib} :
    ∀ {es : List Ev}, (∀ e ∈ es, ∀ q c d, e ≠ .custom 0 q c d) → pyEvents (pyEv nm w en p (fuel + 1)) s es = .ok (s, es.map .native)
  | [], _ => rfl
  | e :: es, h => by
    have he : pyEv nm w en p (fuel + 1) s e = .ok (s, [.native e]) := by
      have := h e List.mem_cons_self
      cases e with
      | custom n q c d =>
        cases n with
        | zero => exact absurd rfl (this q c d)
        | succ n => rfl
      | _ => rfl
    rw [pyEvents, he]
    dsimp only
    rw [pyEvents_native (es := es) (fun e hx => h e (List.mem_cons_of_mem _ hx))]
    rfl

theorem before_same {b col : Bool} {x : Lib} {f : Wf} (hb : PyBefore b col x f) {nm : Cid → Bytes} {w : World} {p : UInt32} {c : Cid}
    {d : Bytes} {s s' : Lib} {es : List Ev} (h2 : b = false → s.writer2 = x.writer2) (h : callWriter nm w p c d 4 f s = .ok (s', es)) : s' = s := by
  cases hf : f with
  | init => exact absurd hf hb.ninit
  | null => rw [hf] at h; simp only [callWriter, Except.ok.injEq, Prod.mk.injEq] at h; exact h.1.symm
  | kernel => rw [hf] at h; simp only [callWriter, Except.ok.injEq, Prod.mk.injEq] at h; exact h.1.symm
  | custom n => rw [hf] at h; simp only [callWriter, Except.ok.injEq, Prod.mk.injEq] at h; exact h.1.symm
  | wrap color =>
    have hbf : b = false := by
      cases b with
      | false => rfl
      | true => have := (hb.on rfl).2.2; rw [hf] at this; cases this
    have hx : s.writer2 = some .null := by rw [h2 hbf]; exact hb.wrap color hf
    rw [hf] at h
    simp only [callWriter, hx, bind, Except.bind] at h
    split at h
    · simp only [Except.ok.injEq, Prod.mk.injEq] at h; exact h.1.symm
    · cases hl : stderrLine s.replay color p (nm c) d with
      | error y => rw [hl] at h; cases h
      | ok y => rw [hl] at h; simp only [Except.ok.injEq, Prod.mk.injEq] at h; exact h.1.symm

theorem pyEvents_same {f : Lib → Ev → Except WFault (Lib × List PyEv)} {s : Lib} (hf : ∀ e s' a, f s e = .ok (s', a) → s' = s) :
    ∀ {es : List Ev} {s' : Lib} {a : List PyEv}, pyEvents f s es = .ok (s', a) → s' = s
  | [], s', a, h => by simp only [pyEvents, Except.ok.injEq, Prod.mk.injEq] at h; exact h.1.symm
  | e :: es, s', a, h => by
    rw [pyEvents] at h
    split at h
    · cases h
    · rename_i s1 a1 h1
      have := hf _ _ _ h1
      subst this
      split at h
      · cases h
      · rename_i s2 a2 h2
        simp only [Except.ok.injEq, Prod.mk.injEq] at h
        rw [← h.1]; exact pyEvents_same hf h2

theorem pyEv_same {nm : Cid → Bytes} {w : World} {en : Nat → Nat → Bool} {p : Py} {f : Wf} (hfn : p.kernelFn = some (some f)) {s : Lib}
    (hs : ∀ q c d s' es, callWriter nm w q c d 4 f s = .ok (s', es) → s' = s) :
    ∀ (fuel : Nat) (e : Ev) (s' : Lib) (a : List PyEv), pyEv nm w en p fuel s e = .ok (s', a) → s' = s := by
  intro fuel
  induction fuel with
  | zero => intro e s' a h; rw [pyEv] at h; cases h
  | succ fuel ih =>
    intro e s' a h
    have hother : (∀ q c d, e ≠ .custom 0 q c d) → s' = s := by
      intro hne
      cases e with
      | custom n q c d =>
        cases n with
        | zero => exact absurd rfl (hne q c d)
        | succ n => rw [pyEv] at h; · simp only [Except.ok.injEq, Prod.mk.injEq] at h; exact h.1.symm
                    · intro _ _ _ hx; cases hx
      | _ => rw [pyEv] at h; · simp only [Except.ok.injEq, Prod.mk.injEq] at h; exact h.1.symm
             · intro _ _ _ hx; cases hx
    by_cases hc : ∃ q c d, e = .custom 0 q c d
    · obtain ⟨q, c, d, rfl⟩ := hc
      rw [pyEv, hfn] at h
      dsimp only at h
      split at h
      · cases h
      · rename_i s1 es h1
        have := hs _ _ _ _ _ h1
        subst this
        split at h
        · cases h
        · rename_i s2 a2 h2
          have := pyEvents_same (fun e s' a hx => ih e s' a hx) h2
          subst this
          split at h
          · cases h
          · simp only [Except.ok.injEq, Prod.mk.injEq] at h; exact h.1.symm
    · exact hother (fun q c d hx => hc ⟨q, c, d, hx⟩)

theorem pyInv_step {nm : Cid → Bytes} {en : Nat → Nat → Bool} {fuel : Nat} {b col : Bool} {x : Lib} {f : Wf} {p p' : Py} {ops : List PyOp}
    (hb : PyBefore b col x f) (h : PyInv b col x f p ops) {y : World × PyOp} (hk : PyKeeps b col y) {r : WRes} {e : List PyEv}
    (hs : pyStep nm en fuel y.1 p y.2 = .ok (p', r, e)) : PyInv b col x f p' (ops ++ [y.2]) := by
  obtain ⟨w, op⟩ := y
  obtain ⟨hwb, hwc, hop⟩ := hk
  dsimp only at *
  obtain ⟨u, hr⟩ := h.reg
  cases op with
  | disable g =>
    simp only [pyStep, Except.ok.injEq, Prod.mk.injEq] at hs
    rw [← hs.1]
    refine ⟨⟨u, hr⟩, h.fn, h.off, h.on, h.nodup.erase g, fun g' => ?_⟩
    rw [pyOn_snoc]
    dsimp only
    rw [List.Nodup.mem_erase_iff h.nodup, h.mem g']
    by_cases hg : g' = g
    · subst hg; simp
    · have : g ≠ g' := fun h => hg h.symm
      simp [hg, this]
  | enable g fwd =>
    subst hop
    have hb1 : pyBackup nm w { p with loggers := if g ∈ p.loggers then p.loggers else p.loggers ++ [g] } true =
        .ok ({ p with loggers := if g ∈ p.loggers then p.loggers else p.loggers ++ [g] }, []) := by
      unfold pyBackup
      rw [if_neg (by simp), if_neg (by simp [h.fn])]
    simp only [pyStep, hb1] at hs
    split at hs
    · cases hs
    · rename_i s1 r1 e1 h1
      simp only [Except.ok.injEq, Prod.mk.injEq] at hs
      rw [← hs.1]
      have hreg := wstep_reg hr h1
      have hnd : (if g ∈ p.loggers then p.loggers else p.loggers ++ [g]).Nodup := by
        split
        · exact h.nodup
        · rename_i hg
          rw [List.nodup_append]
          refine ⟨h.nodup, by simp, ?_⟩
          intro a ha c hc
          simp only [List.mem_singleton] at hc
          subst hc
          intro hac; subst hac; exact hg ha
      have hmem : ∀ g', g' ∈ (if g ∈ p.loggers then p.loggers else p.loggers ++ [g]) ↔ pyOn g' (ops ++ [.enable g true]) = true := by
        intro g'
        rw [pyOn_snoc]
        dsimp only
        rw [Bool.or_eq_true, ← h.mem g', beq_iff_eq]
        split
        · rename_i hg
          constructor
          · exact Or.inl
          · rintro (hx | rfl)
            · exact hx
            · exact hg
        · rw [List.mem_append, List.mem_singleton]
          constructor
          · rintro (hx | rfl)
            · exact Or.inl hx
            · exact Or.inr rfl
          · rintro (hx | rfl)
            · exact Or.inl hx
            · exact Or.inr rfl
      unfold World.stderr at hwb
      unfold World.color at hwc
      simp only [wstep] at h1
      cases b with
      | false =>
        rw [if_neg (by simp [hwb])] at h1
        simp only [Except.ok.injEq, Prod.mk.injEq] at h1
        refine ⟨⟨_, hreg⟩, h.fn, fun _ => ?_, (fun hx => by cases hx), hnd, hmem⟩
        rw [← h1.1]; exact ⟨rfl, (h.off rfl).2⟩
      | true =>
        rw [if_pos hwb] at h1
        simp only [Except.ok.injEq, Prod.mk.injEq] at h1
        refine ⟨⟨_, hreg⟩, h.fn, (fun hx => by cases hx), fun _ => ?_, hnd, hmem⟩
        rw [← h1.1]; dsimp only; rw [hwc]; exact ⟨rfl, rfl⟩
  | lib op =>
    simp only [pyStep] at hs
    split at hs
    · cases hs
    · rename_i s1 r1 e1 h1
      have hsame := keeps_same hr h.installed hop h1
      have hreg := wstep_reg hr h1
      split at hs
      · cases hs
      · rename_i s2 a2 h2
        simp only [Except.ok.injEq, Prod.mk.injEq] at hs
        have : s2 = s1 := by
          refine pyEvents_same (pyEv_same h.fn ?_ fuel) h2
          intro q c d s' es hc
          exact before_same hb (fun hbf => by rw [hsame.2]; exact (h.off hbf).2) hc
        subst this
        rw [← hs.1]
        refine ⟨⟨_, hreg⟩, h.fn, fun hx => ?_, fun hx => ?_, h.nodup, fun g => ?_⟩
        · dsimp only; rw [hsame.1, hsame.2]; exact h.off hx
        · dsimp only; rw [hsame.1, hsame.2]; exact h.on hx
        · rw [pyOn_snoc]; exact h.mem g

theorem pyInv_run {nm : Cid → Bytes} {en : Nat → Nat → Bool} {fuel : Nat} {b col : Bool} {x : Lib} {f : Wf} (hb : PyBefore b col x f) :
    ∀ (l : List (World × PyOp)) {p p' : Py} {ops : List PyOp} {tr : List (WRes × List PyEv)}, PyInv b col x f p ops →
      (∀ y ∈ l, PyKeeps b col y) → pyRun nm en fuel p l = .ok (p', tr) → PyInv b col x f p' (ops ++ l.map Prod.snd) := by
  intro l
  induction l with
  | nil =>
    intro p p' ops tr h _ hr
    simp only [pyRun, Except.ok.injEq, Prod.mk.injEq] at hr
    rw [← hr.1]; simpa using h
  | cons y l ih =>
    intro p p' ops tr h hk hr
    obtain ⟨w, op⟩ := y
    rw [pyRun] at hr
    split at hr
    · cases hr
    · rename_i p1 r1 e1 h1
      split at hr
      · cases hr
      · rename_i p2 tr2 h2
        simp only [Except.ok.injEq, Prod.mk.injEq] at hr
        rw [← hr.1]
        have := ih (pyInv_step hb h (hk _ List.mem_cons_self) h1) (fun z hz => hk z (List.mem_cons_of_mem _ hz)) h2
        simpa using this

theorem ctrlInit_custom (w : World) (s : Lib) : (ctrlInit w s).1.writer ≠ .custom 0 ∧
    (s.writer2 ≠ some (.custom 0) → (ctrlInit w s).1.writer2 ≠ some (.custom 0)) := by
  unfold ctrlInit
  dsimp only
  generalize hb : (if (w.openDev (devChoice w s)).isSome = true then Wf.kernel else Wf.null) = base
  have h0 : base ≠ .custom 0 := by rw [← hb]; split <;> simp
  split
  · exact ⟨by simp, fun _ => by simpa using h0⟩
  · exact ⟨h0, fun h => h⟩

/-- The first enabling, by a program that has used the library honestly. -/
theorem pyInv_first {nm : Cid → Bytes} {en : Nat → Nat → Bool} {fuel : Nat} {b col : Bool} {s0 : Lib} {got : List Wf} (hh : HonestRun nm b s0 got)
    (hn1 : s0.writer ≠ .custom 0) (hn2 : s0.writer2 ≠ some (.custom 0)) (hcol : ∀ color, s0.writer = .wrap color → color = col)
    {w0 : World} (hw : w0.stderr = b) (hc : World.color w0 = col) (g : Nat) :
    ∃ f p e, PyBefore b col (chosen w0 s0) f ∧
      pyStep nm en fuel w0 { kernelFn := none, loggers := [], lib := s0 } (.enable g true) = .ok (p, .unit, e) ∧
      PyInv b col (chosen w0 s0) f p [.enable g true] := by
  obtain ⟨hch, u, hr⟩ := hh.inv
  -- the state after the choice
  have hX : ChainOk b (chosen w0 s0) got ∧ (chosen w0 s0).writer ≠ .init ∧ (chosen w0 s0).writer ≠ .custom 0 ∧
      (chosen w0 s0).writer2 ≠ some (.custom 0) ∧ (b = true → ∀ color, (chosen w0 s0).writer = .wrap color → color = col) := by
    unfold chosen
    split
    · have := ctrlInit_chain hw hch
      refine ⟨this.1, this.2.1, ?_, ?_, ?_⟩
      · exact (ctrlInit_custom w0 s0).1
      · exact (ctrlInit_custom w0 s0).2 hn2
      · intro hbt color
        subst hbt
        unfold World.stderr at hw
        unfold World.color at hc
        unfold ctrlInit; dsimp only
        rw [if_pos (Or.inl hw)]
        dsimp only
        rw [hc]
        intro hx; injection hx with hx; exact hx.symm
    · rename_i hni; exact ⟨hch, hni, hn1, hn2, fun _ => hcol⟩
  have hget : ∃ e, wstep nm w0 s0 .getWriter = .ok (chosen w0 s0, .wf (if b then (chosen w0 s0).writer2 else some (chosen w0 s0).writer), e) := by
    unfold World.stderr at hw
    simp only [wstep, chosen]
    by_cases hi : s0.writer = .init
    · simp only [hi, if_true, hw]
      cases b <;> exact ⟨_, rfl⟩
    · simp only [hi, if_false, hw]
      cases b <;> exact ⟨_, rfl⟩
  obtain ⟨e1, he1⟩ := hget
  have hregX := wstep_reg hr he1
  generalize chosen w0 s0 = X at *
  obtain ⟨hcX, hXi, hX0, hX2, hXc⟩ := hX
  have hon : ∀ g', g' ∈ [g] ↔ pyOn g' [.enable g true] = true := by
    intro g'; simp [pyOn]; exact ⟨fun h => h.symm, fun h => h.symm⟩
  unfold World.stderr at hw
  unfold World.color at hc
  unfold ChainOk at hcX
  cases b with
  | false =>
    rw [if_neg (by simp)] at hcX
    simp only [Bool.false_eq_true, if_false] at he1
    have h1 : wstep nm w0 X (.setWriter (some (.custom 0))) = .ok ({ X with writer := .custom 0 }, .int 0, []) := by
      simp only [wstep, hw]; rfl
    refine ⟨X.writer, { kernelFn := some (some X.writer), loggers := [g], lib := { X with writer := .custom 0 } }, (e1 ++ []).map .native,
      ⟨fun _ => rfl, (fun hx => by cases hx), fun color hx => hcX.2.1 color hx, hXi, hX0⟩, ?_,
      ⟨⟨_, wstep_reg hregX h1⟩, rfl, fun _ => ⟨rfl, rfl⟩, (fun hx => by cases hx), by simp, hon⟩⟩
    simp only [pyStep, pyBackup, he1]
    simp [h1]
  | true =>
    rw [if_pos rfl] at hcX
    simp only [if_true] at he1
    obtain ⟨color, f, hw1, hw2⟩ := hcX.1.resolve_left hXi
    have hcc := hXc rfl color hw1
    subst hcc
    have hf := hcX.2.1 f hw2
    rw [hw2] at he1
    have h1 : wstep nm w0 X (.setWriter (some (.custom 0))) = .ok ({ X with writer2 := some (.custom 0), writer := .wrap color }, .int 0, []) := by
      simp only [wstep, hw, hc]; rfl
    refine ⟨f, { kernelFn := some (some f), loggers := [g], lib := { X with writer2 := some (.custom 0), writer := .wrap color } }, (e1 ++ []).map .native,
      ⟨(fun hx => by cases hx), fun _ => ⟨hw1, hw2, hf⟩, (fun c hx => by rw [hx] at hf; cases hf), (fun hx => by rw [hx] at hf; cases hf),
        fun hx => hX2 (by rw [hw2, hx])⟩, ?_,
      ⟨⟨_, wstep_reg hregX h1⟩, rfl, (fun hx => by cases hx), fun _ => ⟨rfl, rfl⟩, by simp, hon⟩⟩
    simp only [pyStep, pyBackup, he1]
    simp [h1]

theorem ensureInit_writer (nm : Cid → Bytes) (w : World) (s : Lib) (c : Cid) (a : Wf) (b : Option Wf) :
    ensureInit nm w { s with writer := a, writer2 := b } c =
      ({ (ensureInit nm w s c).1 with writer := a, writer2 := b }, (ensureInit nm w s c).2) := by
  unfold ensureInit initCookie
  dsimp only
  split <;> rfl

theorem natives_map (l : List Ev) : natives (l.map .native) = l := by
  unfold natives
  induction l with
  | nil => rfl
  | cons e l ih => simp only [List.map_cons, List.filterMap_cons, PyEv.native?, ih]

theorem natives_append (a b : List PyEv) : natives (a ++ b) = natives a ++ natives b := by
  unfold natives; rw [List.filterMap_append]

theorem countP_nodup {l : List Nat} (h : l.Nodup) (g : Nat) : l.countP (fun x => x == g) = if g ∈ l then 1 else 0 := by
  induction l with
  | nil => simp
  | cons x l ih =>
    rw [List.nodup_cons] at h
    rw [List.countP_cons, ih h.2]
    by_cases hx : x = g
    · subst hx; simp [h.1]
    · have : g ≠ x := fun h => hx h.symm
      simp [hx, this]

theorem pyRecords_spec (nm : Cid → Bytes) (en : Nat → Nat → Bool) {loggers : List Nat} (hnd : loggers.Nodup) {q : UInt32} (hq : q.toNat < 8)
    (c : Cid) {d : Bytes} (hd : 0 ∈ d) :
    ∃ l r, pyLevel q.toNat = some l ∧ pyRecords nm en loggers q c d = .ok r ∧ natives r = [] ∧
      (∀ e ∈ r, ∃ g, e = .handled g l (nm c) (stripNl (cstr d))) ∧
      ∀ g, r.countP (PyEv.isHandledBy g) = if g ∈ loggers ∧ en g l = true then 1 else 0 := by
  have : ∃ l, pyLevel q.toNat = some l := by
    unfold pyLevel
    repeat' split
    all_goals first | exact ⟨_, rfl⟩ | omega
  obtain ⟨l, hl⟩ := this
  refine ⟨l, _, hl, by unfold pyRecords; rw [if_pos hd, hl], ?_, ?_, ?_⟩
  · unfold natives
    rw [List.filterMap_map]
    exact List.filterMap_eq_nil_iff.mpr (fun _ _ => rfl)
  · intro e he
    obtain ⟨g, _, hg⟩ := List.mem_map.mp he
    exact ⟨g, hg.symm⟩
  · intro g
    rw [List.countP_map]
    have h1 : (PyEv.isHandledBy g ∘ fun g' => PyEv.handled g' l (nm c) (stripNl (cstr d))) = fun g' => g' == g := by funext g'; rfl
    rw [h1]
    rw [countP_nodup (hnd.filter _)]
    simp only [List.mem_filter]

theorem pyEvents_append {f : Lib → Ev → Except WFault (Lib × List PyEv)} {s s1 s2 : Lib} {a b : List Ev} {x y : List PyEv} :
    pyEvents f s a = .ok (s1, x) → pyEvents f s1 b = .ok (s2, y) → pyEvents f s (a ++ b) = .ok (s2, x ++ y) := by
  induction a generalizing s x with
  | nil =>
    intro h1 h2
    simp only [pyEvents, Except.ok.injEq, Prod.mk.injEq] at h1
    rw [← h1.1] at h2
    rw [← h1.2]; simpa using h2
  | cons e a ih =>
    intro h1 h2
    rw [pyEvents] at h1
    split at h1
    · cases h1
    · rename_i s' x1 he
      split at h1
      · cases h1
      · rename_i s'' x2 h3
        simp only [Except.ok.injEq, Prod.mk.injEq] at h1
        obtain ⟨rfl, rfl⟩ := h1
        rw [List.cons_append, pyEvents, he]
        dsimp only
        rw [ih h3 h2, List.append_assoc]

/-- What a message with a NUL does with the bridge enabled. -/
theorem bridge_effect {nm : Cid → Bytes} {en : Nat → Nat → Bool} {fuel : Nat} {b col : Bool} {s0 : Lib} {got : List Wf} (hh : HonestRun nm b s0 got)
    (hn1 : s0.writer ≠ .custom 0) (hn2 : s0.writer2 ≠ some (.custom 0)) (hcol : ∀ color, s0.writer = .wrap color → color = col)
    {w0 : World} {g0 : Nat} {ops : List (World × PyOp)} (hk : ∀ y ∈ (w0, PyOp.enable g0 true) :: ops, PyKeeps b col y) {p : Py}
    {tr : List (WRes × List PyEv)}
    (hrun : pyRun nm en (fuel + 2) { kernelFn := none, loggers := [], lib := s0 } ((w0, .enable g0 true) :: ops) = .ok (p, tr))
    (w : World) {op : WOp} {q : UInt32} {c : Cid} {d : Bytes} (hm : op.msg = some (q, c, some d)) (hd : 0 ∈ d)
    {lv : Int} (hl : LevelIs nm w p.lib c lv) {r : List PyEv} (hrec : pyRecords nm en p.loggers q c d = .ok r) (hrn : natives r = []) :
    (p.loggers.Nodup ∧ ∀ g, g ∈ p.loggers ↔ pyOn g (.enable g0 true :: ops.map Prod.snd) = true) ∧
    ∃ s1 E p' F,
      wstep nm w { p.lib with writer := (chosen w0 s0).writer, writer2 := (chosen w0 s0).writer2 } op = .ok (s1, .unit, E) ∧
      pyStep nm en (fuel + 2) w p (.lib op) = .ok (p', .unit, F) ∧ natives F = E ∧
      F.filter (fun e => e.native?.isNone) = if ((q.toNat % 8 : Nat) : Int) ≤ lv then r else [] := by
  obtain ⟨hw1, hc1, -⟩ := hk _ List.mem_cons_self
  dsimp only at hw1 hc1
  obtain ⟨f, p1, e1, hbef, hst, hinv1⟩ := pyInv_first (nm := nm) (en := en) (fuel := fuel + 2) hh hn1 hn2 hcol hw1 hc1 g0
  rw [pyRun, hst] at hrun
  dsimp only at hrun
  split at hrun
  · cases hrun
  rename_i p2 tr2 hrun2
  simp only [Except.ok.injEq, Prod.mk.injEq] at hrun
  obtain ⟨rfl, -⟩ := hrun
  have hinv := pyInv_run hbef ops hinv1 (fun y hy => hk y (List.mem_cons_of_mem _ hy)) hrun2
  rw [List.singleton_append] at hinv
  refine ⟨⟨hinv.nodup, hinv.mem⟩, ?_⟩
  generalize chosen w0 s0 = X at *
  obtain ⟨u, hreg⟩ := hinv.reg
  have hlv := levelIs_iff.mp hl
  obtain ⟨-, -, -, -, hi1, hi2, -⟩ := ensureInit_spec nm w hreg c
  have hhook := ensureInit_hooks (nm := nm) (w := w) hreg c
  rw [(msg_logOn hm).1]
  simp only [pyStep]
  rw [(msg_logOn hm).1]
  unfold logOn
  rw [ensureInit_writer]
  dsimp only
  rw [← hlv]
  generalize (ensureInit nm w p2.lib c).2 = e2 at *
  generalize (ensureInit nm w p2.lib c).1 = s at *
  have hnat : ∀ s : Lib, pyEvents (pyEv nm w en p2 (fuel + 2)) s e2 = .ok (s, e2.map .native) := fun s =>
    pyEvents_native (fun e he q c d hx => by have := hhook e he; rw [hx] at this; cases this)
  have hno : ∀ es : List Ev, (es.map PyEv.native).filter (fun e => e.native?.isNone) = [] := by
    intro es
    rw [List.filter_eq_nil_iff]
    intro e he
    obtain ⟨x, _, rfl⟩ := List.mem_map.mp he
    simp [PyEv.native?]
  have hall : r.filter (fun e => e.native?.isNone) = r := by
    rw [List.filter_eq_self]
    intro e he
    have := List.filterMap_eq_nil_iff.mp hrn e he
    rw [this]; rfl
  by_cases hpass : ((q.toNat % 8 : Nat) : Int) ≤ lv
  · rw [if_pos hpass, if_pos hpass, if_pos hpass]
    simp only [bind, Except.bind]
    obtain ⟨es, hc1, hc2, hc3, hc4⟩ := before_call hbef (nm := nm) (w := w) (p := q) (c := c) hd (s := s) (fun hbf => by rw [hi2]; exact (hinv.off hbf).2)
    have hbr : pyEv nm w en p2 (fuel + 2) s (.custom 0 q c d) = .ok (s, es.map .native ++ r) := by
      rw [pyEv, hinv.fn]
      dsimp only
      rw [hc1]
      dsimp only
      rw [pyEvents_native hc2]
      dsimp only
      rw [hrec]
    -- the rest, for what follows the call of the bridge
    have fin : ∀ rest : List Ev, (∀ e ∈ rest, ∀ q c d, e ≠ .custom 0 q c d) →
        ∃ F, pyEvents (pyEv nm w en p2 (fuel + 2)) s (e2 ++ (.custom 0 q c d :: rest)) = .ok (s, F) ∧
          natives F = e2 ++ (es ++ rest) ∧ F.filter (fun e => e.native?.isNone) = r := by
      intro rest hrest
      refine ⟨e2.map .native ++ ((es.map .native ++ r) ++ rest.map .native), pyEvents_append (hnat s) ?_, ?_, ?_⟩
      · rw [pyEvents, hbr]
        dsimp only
        rw [pyEvents_native hrest]
      · simp only [natives_append, natives_map, hrn, List.append_nil]
      · simp only [List.filter_append, hno, hall, List.append_nil, List.nil_append]
    unfold deliver
    cases b with
    | false =>
      have hw : s.writer = .custom 0 := by rw [hi1]; exact (hinv.off rfl).1
      have hw2 : s.writer2 = X.writer2 := by rw [hi2]; exact (hinv.off rfl).2
      have hb1 : callWriter nm w q c d 4 X.writer { s with writer := X.writer, writer2 := X.writer2 } =
          .ok ({ s with writer := X.writer, writer2 := X.writer2 }, es) := by
        rw [← hw2, hbef.off rfl]; exact hc3 f
      rw [hb1, hw]
      simp only [callWriter]
      obtain ⟨F, hF1, hF2, hF3⟩ := fin [] (by simp)
      rw [hF1]
      exact ⟨_, _, _, F, rfl, rfl, by rw [hF2, List.append_nil], hF3⟩
    | true =>
      obtain ⟨hx1, hx2, hx3⟩ := hbef.on rfl
      have hw : s.writer = .wrap col := by rw [hi1]; exact (hinv.on rfl).1
      have hw2 : s.writer2 = some (.custom 0) := by rw [hi2]; exact (hinv.on rfl).2
      have h3 := hc4 (.wrap col) (some f) hx3
      rw [hx1, hx2, hw]
      obtain ⟨L, hL⟩ : ∃ L, stderrLine s.replay col q (nm c) d = .ok L := by unfold stderrLine; rw [if_pos hd]; exact ⟨_, rfl⟩
      simp only [callWriter, hw2, h3, bind, Except.bind, hL]
      cases hbit : q.toNat.testBit 7 with
      | false =>
        obtain ⟨F, hF1, hF2, hF3⟩ := fin [.stderr L] (by simp)
        simp only [Bool.false_eq_true, if_false, List.singleton_append]
        rw [hF1]
        exact ⟨_, _, _, F, rfl, rfl, hF2, hF3⟩
      | true =>
        obtain ⟨F, hF1, hF2, hF3⟩ := fin [] (by simp)
        simp only [if_true]
        rw [hF1]
        exact ⟨_, _, _, F, rfl, rfl, by rw [hF2, List.append_nil], hF3⟩
  · rw [if_neg hpass, if_neg hpass, if_neg hpass]
    dsimp only
    rw [hnat]
    exact ⟨_, _, _, _, rfl, rfl, natives_map e2, hno e2⟩

/-- **C49:** as long as the bridge is only enabled with forwarding (from the first time
on), nothing else installs a function and the device and environment stay, each text
message has exactly the effects that it would have without the bridge, and besides is
handed once to each logger that is enabled and wants the level, and to no other. -/
theorem C49_once {nm : Cid → Bytes} {en : Nat → Nat → Bool} {fuel : Nat} {b col : Bool} {s0 : Lib} {got : List Wf} (hh : HonestRun nm b s0 got)
    (hn1 : s0.writer ≠ .custom 0) (hn2 : s0.writer2 ≠ some (.custom 0)) (hcol : ∀ color, s0.writer = .wrap color → color = col)
    {w0 : World} {g0 : Nat} {ops : List (World × PyOp)} (hk : ∀ y ∈ (w0, PyOp.enable g0 true) :: ops, PyKeeps b col y) {p : Py}
    {tr : List (WRes × List PyEv)}
    (hrun : pyRun nm en (fuel + 2) { kernelFn := none, loggers := [], lib := s0 } ((w0, .enable g0 true) :: ops) = .ok (p, tr))
    (w : World) {op : WOp} {q : UInt32} {c : Cid} {d : Bytes} (hm : op.msg = some (q, c, some d)) (hd : 0 ∈ d) (hq : q.toNat < 8)
    {lv : Int} (hl : LevelIs nm w p.lib c lv) :
    ∃ s1 E p' F l,
      wstep nm w { p.lib with writer := (chosen w0 s0).writer, writer2 := (chosen w0 s0).writer2 } op = .ok (s1, .unit, E) ∧
      pyStep nm en (fuel + 2) w p (.lib op) = .ok (p', .unit, F) ∧ natives F = E ∧ pyLevel q.toNat = some l ∧
      (∀ e ∈ F, (∃ x, e = .native x) ∨ ∃ g, e = .handled g l (nm c) (stripNl (cstr d))) ∧
      ∀ g, F.countP (PyEv.isHandledBy g) =
        if pyOn g (.enable g0 true :: ops.map Prod.snd) = true ∧ en g l = true ∧ (q.toNat : Int) ≤ lv then 1 else 0 := by
  have hnd : p.loggers.Nodup := by
    obtain ⟨hw1, hc1, -⟩ := hk _ List.mem_cons_self
    obtain ⟨f, p1, e1, hbef, hst, hinv1⟩ := pyInv_first (nm := nm) (en := en) (fuel := fuel + 2) hh hn1 hn2 hcol hw1 hc1 g0
    rw [pyRun] at hrun
    dsimp only at hst
    rw [hst] at hrun
    dsimp only at hrun
    split at hrun
    · cases hrun
    rename_i p2 tr2 hrun2
    simp only [Except.ok.injEq, Prod.mk.injEq] at hrun
    obtain ⟨rfl, -⟩ := hrun
    exact (pyInv_run hbef ops hinv1 (fun y hy => hk y (List.mem_cons_of_mem _ hy)) hrun2).nodup
  obtain ⟨l, r, hpl, hrec, hrn, hrm, hrc⟩ := pyRecords_spec nm en hnd hq c hd
  obtain ⟨⟨-, hmem⟩, s1, E, p', F, h1, h2, h3, h4⟩ := bridge_effect hh hn1 hn2 hcol hk hrun w hm hd hl hrec hrn
  rw [Nat.mod_eq_of_lt hq] at h4
  refine ⟨s1, E, p', F, l, h1, h2, h3, hpl, fun e he => ?_, fun g => ?_⟩
  · cases hn : e.native? with
    | some x =>
      left
      cases e with
      | native y => exact ⟨y, rfl⟩
      | handled => cases hn
      | keyError => cases hn
    | none =>
      right
      have : e ∈ F.filter (fun e => e.native?.isNone) := List.mem_filter.mpr ⟨he, by rw [hn]; rfl⟩
      rw [h4] at this
      split at this
      · exact hrm e this
      · cases this
  · have hcnt : F.countP (PyEv.isHandledBy g) = (F.filter (fun e => e.native?.isNone)).countP (PyEv.isHandledBy g) := by
      rw [List.countP_filter]
      refine List.countP_congr (fun e _ => ?_)
      cases e <;> simp [PyEv.isHandledBy, PyEv.native?]
    rw [hcnt, h4]
    by_cases hp : (q.toNat : Int) ≤ lv
    · rw [if_pos hp, hrc g]; simp only [hmem g, hp, and_true]
    · rw [if_neg hp, if_neg (fun h => hp h.2.2)]; rfl

/-- C49 is false of enabling without and then with forwarding: the bridge takes itself
for the previous function, and every message that is let through leads to endless
recursion (whatever depth is allowed). -/
theorem C49_false (nm : Cid → Bytes) (en : Nat → Nat → Bool) (fuel g : Nat) {w : World} (hw : w.stderr = false) (s0 : Lib)
    (q : UInt32) (c : Cid) (t : Bytes) :
    ∃ p tr, pyRun nm en fuel { kernelFn := none, loggers := [], lib := s0 } [(w, .enable g false), (w, .enable g true)] = .ok (p, tr) ∧
      ∀ lv, LevelIs nm w p.lib c lv → ((q.toNat % 8 : Nat) : Int) ≤ lv →
        pyStep nm en fuel w p (.lib (.str q c t)) = .error .recursion := by
  unfold World.stderr at hw
  have hrun : pyRun nm en fuel { kernelFn := none, loggers := [], lib := s0 } [(w, .enable g false), (w, .enable g true)] =
      .ok ({ kernelFn := some (some (.custom 0)), loggers := [g], lib := { s0 with writer := .custom 0 } }, [(.unit, []), (.unit, [])]) := by
    simp [pyRun, pyStep, pyBackup, wstep, hw]
  refine ⟨_, _, hrun, fun lv hl hq => ?_⟩
  have hlv := levelIs_iff.mp hl
  have hloop : ∀ fuel s d, pyEv nm w en { kernelFn := some (some (.custom 0)), loggers := [g], lib := { s0 with writer := .custom 0 } } fuel s
      (.custom 0 q c d) = .error .recursion := by
    intro fuel
    induction fuel with
    | zero => intro s d; rw [pyEv]
    | succ fuel ih => intro s d; rw [pyEv]; simp only [callWriter]; rw [pyEvents, ih]
  have hevs : ∀ (hs : List Ev) (s : Lib) (d : Bytes), (∀ e ∈ hs, e.isHook = true) →
      pyEvents (pyEv nm w en { kernelFn := some (some (.custom 0)), loggers := [g], lib := { s0 with writer := .custom 0 } } fuel) s
        (hs ++ [.custom 0 q c d]) = .error .recursion := by
    intro hs
    induction hs with
    | nil => intro s d _; rw [List.nil_append, pyEvents, hloop]
    | cons e hs ih =>
      intro s d hh
      cases fuel with
      | zero => rw [List.cons_append, pyEvents, pyEv]
      | succ fuel =>
        rw [List.cons_append, pyEvents]
        have he := hh e List.mem_cons_self
        cases e with
        | hook a b =>
          rw [pyEv]
          · dsimp only
            rw [ih s d (fun e he => hh e (List.mem_cons_of_mem _ he))]
          · intro _ _ _ hx; cases hx
        | _ => cases he
  simp only [pyStep, wstep]
  unfold logOn
  dsimp only
  rw [← hlv, if_pos hq]
  have hens : (ensureInit nm w { s0 with writer := .custom 0 } c).1.writer = .custom 0 ∧
      ∀ e ∈ (ensureInit nm w { s0 with writer := .custom 0 } c).2, e.isHook = true := by
    unfold ensureInit initCookie
    split
    · rename_i hlt
      simp only [if_pos hlt]
      refine ⟨trivial, fun e he => ?_⟩
      unfold hookEv at he
      obtain ⟨h, _, rfl⟩ := List.mem_map.mp he
      rfl
    · exact ⟨rfl, by simp⟩
  simp only [bind, Except.bind, deliver]
  rw [hens.1]
  simp only [callWriter]
  rw [hevs _ _ _ hens.2]

/-- C74 is false of the code: a message with a priority word of 8 or more (a colour, a
binary message that holds a NUL) ends in a `KeyError` and is handed to no logger; its
other effects are those that it has without the bridge. -/
theorem C74_false {nm : Cid → Bytes} {en : Nat → Nat → Bool} {fuel : Nat} {b col : Bool} {s0 : Lib} {got : List Wf} (hh : HonestRun nm b s0 got)
    (hn1 : s0.writer ≠ .custom 0) (hn2 : s0.writer2 ≠ some (.custom 0)) (hcol : ∀ color, s0.writer = .wrap color → color = col)
    {w0 : World} {g0 : Nat} {ops : List (World × PyOp)} (hk : ∀ y ∈ (w0, PyOp.enable g0 true) :: ops, PyKeeps b col y) {p : Py}
    {tr : List (WRes × List PyEv)}
    (hrun : pyRun nm en (fuel + 2) { kernelFn := none, loggers := [], lib := s0 } ((w0, .enable g0 true) :: ops) = .ok (p, tr))
    (w : World) {op : WOp} {q : UInt32} {c : Cid} {d : Bytes} (hm : op.msg = some (q, c, some d)) (hd : 0 ∈ d) (hq : 8 ≤ q.toNat)
    {lv : Int} (hl : LevelIs nm w p.lib c lv) :
    ∃ s1 E p' F,
      wstep nm w { p.lib with writer := (chosen w0 s0).writer, writer2 := (chosen w0 s0).writer2 } op = .ok (s1, .unit, E) ∧
      pyStep nm en (fuel + 2) w p (.lib op) = .ok (p', .unit, F) ∧ natives F = E ∧
      F.filter (fun e => e.native?.isNone) = if ((q.toNat % 8 : Nat) : Int) ≤ lv then [.keyError] else [] := by
  have hrec : pyRecords nm en p.loggers q c d = .ok [.keyError] := by
    unfold pyRecords
    have : pyLevel q.toNat = none := by
      unfold pyLevel
      repeat' split
      all_goals first | omega | rfl
    rw [this, if_pos hd]
  exact (bridge_effect hh hn1 hn2 hcol hk hrun w hm hd hl hrec rfl).2

/-- C74: a message without a NUL is read past its end by the bridge. -/
theorem C74_false_oob (nm : Cid → Bytes) (en : Nat → Nat → Bool) (fuel g : Nat) {w : World} (hw : w.stderr = false) (s0 : Lib)
    (q : UInt32) (c : Cid) {d : Bytes} (hd : 0 ∉ d) (hi : 0 ≤ s0.level c) (hq : ((q.toNat % 8 : Nat) : Int) ≤ s0.level c) :
    ∃ p tr, pyRun nm en (fuel + 1) { kernelFn := none, loggers := [], lib := s0 } [(w, .enable g false)] = .ok (p, tr) ∧
      pyStep nm en (fuel + 1) w p (.lib (.buf q c d)) = .error .oob := by
  unfold World.stderr at hw
  have hrun : pyRun nm en (fuel + 1) { kernelFn := none, loggers := [], lib := s0 } [(w, .enable g false)] =
      .ok ({ kernelFn := none, loggers := [g], lib := { s0 with writer := .custom 0 } }, [(.unit, [])]) := by
    simp [pyRun, pyStep, pyBackup, wstep, hw]
  refine ⟨_, _, hrun, ?_⟩
  have hens : ensureInit nm w { s0 with writer := .custom 0 } c = ({ s0 with writer := .custom 0 }, []) := by
    unfold ensureInit
    rw [if_neg (by dsimp only; omega)]
  simp only [pyStep, wstep]
  unfold logOn
  rw [hens]
  dsimp only
  rw [if_pos hq]
  simp only [bind, Except.bind, deliver, callWriter, List.nil_append, pyEvents, pyEv, pyRecords, if_neg hd]

end Verif.Tools
