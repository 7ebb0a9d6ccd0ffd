import Verif.Tools.ShdConc

/-!
# Threads that log to shared memory (C125)
-/
namespace Verif.Tools.ShdConc

/-! ## Specification -/

/-- Whether `ulog_shd_init` may be called: not while it runs, not after it returned 0. -/
inductive Phase
  | fresh
  | busy
  | done
  deriving DecidableEq, Repr

def ini : Option Phase → Ev → Option Phase
  | some .fresh, .initBegin _ => some .busy
  | _, .initBegin _ => none
  | some _, .initEnd _ r => some (if r = 0 then .done else .fresh)
  | p, _ => p

def phase (tr : List Ev) : Option Phase := tr.foldl ini (some .fresh)

/-- The calls of one thread that have begun and not ended. -/
def opened (t : Tid) (tr : List Ev) : Int :=
  tr.foldl (fun n e => match e with
    | .begin u _ => if u = t then n + 1 else n
    | .done u _ _ => if u = t then n - 1 else n
    | _ => n) 0

/-- The messages a thread logged through the section's writer and not from within `shd_write`, once `ulog_shd_init` had returned 0. -/
def said (t : Tid) (tr : List Ev) : List Call :=
  tr.filterMap fun e => match e with
    | .begin u c => if u = t ∧ c.inner = false ∧ c.late = true then some c else none
    | _ => none

/-- The samples in the section that are of such messages of that thread. -/
def kept (t : Tid) (sect : List (Tid × Call × Nat)) : List Call := (sect.filter fun x => decide (x.1 = t) && x.2.1.late).map (·.2.1)

/-- What `ulog_shd_init` returns, from what the functions it calls answer. -/
def answer : List Nat → Int
  | [] => 0
  | 0 :: l => answer l
  | r :: _ => -r

/-- One thread alone. -/
def solo (s : State) (t : Tid) : List Act → Option State
  | [] => some s
  | a :: l => (step s t a).bind fun s' => solo s' t l

/-! ## The invariant -/

def Frame.init : Frame → Bool
  | .create | .attr | .typ | .mutex | .hook | .enable => true
  | _ => false

/-- A thread that does not hold the mutex. -/
inductive Idle (s : State) (on : Bool) : List Frame → Prop
  | none : Idle s on []
  | lock {c : Call} : s.hooked = true → c.inner = false → (c.late = true → on = true) → Idle s on [.lock c]
  | hook : s.hooked = false → on = false → Idle s on [.hook]
  | enable : s.hooked = true → on = false → Idle s on [.enable]

/-- The next number is that after the last sample. -/
def Next (s : State) : Prop := s.index = (s.sect.length + 1) % 65536

/-- A number is taken and not yet written. -/
def Taken (s : State) (i : Nat) : Prop := i = (s.sect.length + 1) % 65536 ∧ s.index = (s.sect.length + 2) % 65536

/-- The thread that holds the mutex, `n` times. -/
inductive Hold (s : State) (on : Bool) : Nat → List Frame → Prop
  | check {c : Call} : c.inner = false → (c.late = true → on = true) → s.enabled = on → Next s → Hold s on 1 [.check c]
  | unlock {c : Call} {b : Bool} : c.inner = false → (c.late = true → b = true) → s.enabled = on → Next s → Hold s on 1 [.unlock c b]
  | num {c : Call} : c.inner = false → s.enabled = true → on = true → Next s → Hold s on 1 [.num c]
  | clear {c : Call} {i : Nat} : c.inner = false → s.enabled = true → on = true → Taken s i → Hold s on 1 [.clear c i]
  | wr {c : Call} {i : Nat} : c.inner = false → s.enabled = false → on = true → Taken s i → Hold s on 1 [.wr c i]
  | set {c : Call} : c.inner = false → s.enabled = false → on = true → Next s → Hold s on 1 [.set c]
  | lock2 {c d : Call} {i : Nat} : d.inner = true → c.inner = false → s.enabled = false → on = true → Taken s i → Hold s on 1 [.lock d, .wr c i]
  | check2 {c d : Call} {i : Nat} : d.inner = true → c.inner = false → s.enabled = false → on = true → Taken s i → Hold s on 2 [.check d, .wr c i]
  | unlock2 {c d : Call} {i : Nat} : d.inner = true → c.inner = false → s.enabled = false → on = true → Taken s i → Hold s on 2 [.unlock d false, .wr c i]

/-- The mutex is there. -/
inductive Live (s : State) (on : Bool) : Prop
  | free : s.lock = none → s.enabled = on → Next s → (∀ u, Idle s on (s.stack u)) → Live s on
  | held (t : Tid) (n : Nat) : s.lock = some (t, n) → Hold s on n (s.stack t) → (∀ u, u ≠ t → Idle s on (s.stack u)) → Live s on

/-- The mutex is not there yet. -/
structure Before (s : State) : Prop where
  lock : s.lock = none
  enabled : s.enabled = false
  index : s.index = 1
  hooked : s.hooked = false
  sect : s.sect = []
  stacks : ∀ u, s.stack u = [] ∨ s.stack u = [.create] ∨ (0 < s.made ∧ (s.stack u = [.attr] ∨ s.stack u = [.typ] ∨ s.stack u = [.mutex]))

def Initing (s : State) (u : Tid) : Prop := ∃ f, s.stack u = [f] ∧ f.init = true

structure Inv (s : State) (p : Phase) : Prop where
  good : s.bad = false
  before : s.mutex = false → Before s ∧ p ≠ .done
  live : s.mutex = true → Live s (decide (p = .done)) ∧ 0 < s.made ∧ p ≠ .fresh
  one : ∀ u v, Initing s u → Initing s v → u = v
  busy : ∀ u, Initing s u → p = .busy
  rdy : ready s.tr = decide (p = .done)
  numbers : ∀ k x, s.sect[k]? = some x → x.2.2 = (k + 1) % 65536
  sect : s.sect = s.tr.filterMap fun e => match e with | .write t c i => some (t, c, i) | _ => none

theorem ini_none (l : List Ev) : l.foldl ini none = none := by
  induction l with
  | nil => rfl
  | cons e l ih =>
    have : ini none e = none := by cases e <;> rfl
    rw [List.foldl_cons, this, ih]

theorem phase_snoc (tr : List Ev) (e : Ev) : phase (tr ++ [e]) = ini (phase tr) e := by
  unfold phase
  rw [List.foldl_append]
  rfl

theorem ready_snoc (tr : List Ev) (e : Ev) : ready (tr ++ [e]) = (ready tr || ready [e]) := by
  unfold ready
  rw [List.any_append]

theorem at_same (s : State) (t : Tid) (st : List Frame) : (s.at t st).stack t = st := if_pos rfl
theorem at_other (s : State) {t u : Tid} (st : List Frame) (h : u ≠ t) : (s.at t st).stack u = s.stack u := if_neg h

/-- Not initialising, unless it is the one that is. -/
theorem initing_at {s : State} {t : Tid} {st : List Frame} (hst : ∀ f, st = [f] → f.init = true → Initing s t) {u : Tid} (h : Initing (s.at t st) u) : Initing s u := by
  obtain ⟨f, hf, hi⟩ := h
  by_cases hu : u = t
  · subst hu
    rw [at_same] at hf
    exact hst f hf hi
  · rw [at_other _ _ hu] at hf
    exact ⟨f, hf, hi⟩

theorem Idle.congr {s s' : State} {on : Bool} {st : List Frame} (h : Idle s on st) (hh : s'.hooked = s.hooked) : Idle s' on st := by
  cases h with
  | none => exact .none
  | lock a b c => exact .lock (hh.trans a) b c
  | hook a b => exact .hook (hh.trans a) b
  | enable a b => exact .enable (hh.trans a) b

/-- A step of the thread that holds the mutex, or that takes it. -/
theorem Inv.hold {s s' : State} {p : Phase} (h : Inv s p) (hm : s.mutex = true) {t : Tid} {n : Nat} (hlk : s'.lock = some (t, n))
    (hidle : ∀ u, u ≠ t → Idle s (decide (p = .done)) (s.stack u)) (hold : Hold s' (decide (p = .done)) n (s'.stack t))
    (hst : ∀ u, u ≠ t → s'.stack u = s.stack u) (hni : ∀ f, s'.stack t = [f] → f.init = false)
    (hmx : s'.mutex = s.mutex) (hmd : s'.made = s.made) (hhk : s'.hooked = s.hooked) (hbd : s'.bad = s.bad)
    (hrdy : ready s'.tr = ready s.tr) (hnum : ∀ k x, s'.sect[k]? = some x → x.2.2 = (k + 1) % 65536)
    (hsect : s'.sect = s'.tr.filterMap fun e => match e with | .write t c i => some (t, c, i) | _ => none) : Inv s' p := by
  have hin : ∀ u, Initing s' u → Initing s u := by
    rintro u ⟨f, hf, hfi⟩
    by_cases hu : u = t
    · subst hu
      rw [hni f hf] at hfi
      cases hfi
    · rw [hst u hu] at hf
      exact ⟨f, hf, hfi⟩
  obtain ⟨_, hmade, hp⟩ := h.live hm
  refine ⟨hbd.trans h.good, fun hx => ?_, fun _ => ⟨.held t n hlk hold fun u hu => ?_, by rw [hmd]; exact hmade, hp⟩, fun u v hu hv => h.one u v (hin u hu) (hin v hv),
    fun u hu => h.busy u (hin u hu), hrdy.trans h.rdy, hnum, hsect⟩
  · rw [hmx, hm] at hx; cases hx
  · rw [hst u hu]
    exact (hidle u hu).congr hhk

theorem Live.holder {s : State} {on : Bool} (h : Live s on) {t : Tid} (hn : ¬ Idle s on (s.stack t)) :
    ∃ n, s.lock = some (t, n) ∧ Hold s on n (s.stack t) ∧ ∀ u, u ≠ t → Idle s on (s.stack u) := by
  cases h with
  | free _ _ _ h => exact absurd (h t) hn
  | held u n h1 h2 h3 =>
    by_cases hu : t = u
    · subst hu
      exact ⟨n, h1, h2, h3⟩
    · exact absurd (h3 t hu) hn

theorem Hold.congr {s s' : State} {on : Bool} {n : Nat} {st : List Frame} (h : Hold s on n st) (hen : s'.enabled = s.enabled) (hix : s'.index = s.index)
    (hse : s'.sect = s.sect) : Hold s' on n st := by
  have hnext : Next s → Next s' := by unfold Next; rw [hix, hse]; exact id
  have htaken : ∀ i, Taken s i → Taken s' i := by unfold Taken; rw [hix, hse]; exact fun _ => id
  cases h with
  | check a b c d => exact .check a b (hen.trans c) (hnext d)
  | unlock a b c d => exact .unlock a b (hen.trans c) (hnext d)
  | num a b c d => exact .num a (hen.trans b) c (hnext d)
  | clear a b c d => exact .clear a (hen.trans b) c (htaken _ d)
  | wr a b c d => exact .wr a (hen.trans b) c (htaken _ d)
  | set a b c d => exact .set a (hen.trans b) c (hnext d)
  | lock2 a b c d e => exact .lock2 a b (hen.trans c) d (htaken _ e)
  | check2 a b c d e => exact .check2 a b (hen.trans c) d (htaken _ e)
  | unlock2 a b c d e => exact .unlock2 a b (hen.trans c) d (htaken _ e)

theorem phase_keep {tr : List Ev} {p : Phase} (hp : phase tr = some p) {e : Ev} (h1 : ∀ t, e ≠ .initBegin t) (h2 : ∀ t r, e ≠ .initEnd t r) :
    phase (tr ++ [e]) = some p := by
  rw [phase_snoc, hp]
  cases e with
  | initBegin t => exact absurd rfl (h1 t)
  | initEnd t r => exact absurd rfl (h2 t r)
  | _ => cases p <;> rfl

/-- A step of a thread that does not hold the mutex, before and after. -/
theorem Inv.idle {s s' : State} {p : Phase} (h : Inv s p) (hm : s.mutex = true) {t : Tid} (hi : Idle s (decide (p = .done)) (s.stack t))
    (hi' : Idle s' (decide (p = .done)) (s'.stack t)) (hst : ∀ u, u ≠ t → s'.stack u = s.stack u) (hni : ∀ f, s'.stack t = [f] → f.init = false)
    (hmx : s'.mutex = s.mutex) (hmd : s'.made = s.made) (hhk : s'.hooked = s.hooked) (hbd : s'.bad = s.bad) (hlk : s'.lock = s.lock) (hen : s'.enabled = s.enabled)
    (hix : s'.index = s.index) (hse : s'.sect = s.sect)
    (hrdy : ready s'.tr = ready s.tr)
    (hsect : s'.sect = s'.tr.filterMap fun e => match e with | .write t c i => some (t, c, i) | _ => none) : Inv s' p := by
  have hin : ∀ u, Initing s' u → Initing s u := by
    rintro u ⟨f, hf, hfi⟩
    by_cases hu : u = t
    · subst hu
      rw [hni f hf] at hfi
      cases hfi
    · rw [hst u hu] at hf
      exact ⟨f, hf, hfi⟩
  obtain ⟨hlive, hmade, hp⟩ := h.live hm
  have hnext : Next s → Next s' := by unfold Next; rw [hix, hse]; exact id
  have htaken : ∀ i, Taken s i → Taken s' i := by unfold Taken; rw [hix, hse]; exact fun _ => id
  refine ⟨hbd.trans h.good, fun hx => ?_, fun _ => ⟨?_, by rw [hmd]; exact hmade, hp⟩, fun u v hu hv => h.one u v (hin u hu) (hin v hv),
    fun u hu => h.busy u (hin u hu), hrdy.trans h.rdy, by rw [hse]; exact h.numbers, hsect⟩
  · rw [hmx, hm] at hx; cases hx
  · cases hlive with
    | free h1 h2 h3 h4 =>
      refine .free (hlk.trans h1) (hen.trans h2) (hnext h3) fun u => ?_
      by_cases hu : u = t
      · subst hu; exact hi'
      · rw [hst u hu]; exact (h4 u).congr hhk
    | held u n h1 h2 h3 =>
      have hut : u ≠ t := by
        rintro rfl
        generalize s.stack u = st at h2 hi
        cases hi <;> cases h2
      refine .held u n (hlk.trans h1) ?_ fun v hv => ?_
      · rw [hst u hut]
        exact h2.congr hen hix hse
      · by_cases hvt : v = t
        · subst hvt; exact hi'
        · rw [hst v hvt]; exact (h3 v hv).congr hhk

theorem sect_snoc {s : State} (e : Ev) (hs : s.sect = s.tr.filterMap fun e => match e with | .write t c i => some (t, c, i) | _ => none)
    (he : (match e with | .write t c i => some (t, c, i) | _ => none : Option (Tid × Call × Nat)) = none) :
    s.sect = (s.tr ++ [e]).filterMap fun e => match e with | .write t c i => some (t, c, i) | _ => none := by
  rw [List.filterMap_append, ← hs, List.filterMap_cons, he]
  simp

/-- A step of `ulog_shd_init` before the mutex is there. -/
theorem Inv.early {s s' : State} {p p' : Phase} (h : Inv s p) (hm : s.mutex = false) {t : Tid} (hm' : s'.mutex = false)
    (hlk : s'.lock = s.lock) (hen : s'.enabled = s.enabled) (hix : s'.index = s.index) (hse : s'.sect = s.sect) (hhk : s'.hooked = s.hooked) (hbd : s'.bad = s.bad)
    (hmd : s.made ≤ s'.made) (hst : ∀ u, u ≠ t → s'.stack u = s.stack u)
    (hmy : s'.stack t = [] ∨ s'.stack t = [.create] ∨ (0 < s'.made ∧ (s'.stack t = [.attr] ∨ s'.stack t = [.typ] ∨ s'.stack t = [.mutex])))
    (hno : ∀ u, u ≠ t → ¬ Initing s u) (hp' : p' ≠ .done) (hb : s'.stack t ≠ [] → p' = .busy)
    (hrdy : ready s'.tr = decide (p' = .done))
    (hsect : s'.sect = s'.tr.filterMap fun e => match e with | .write t c i => some (t, c, i) | _ => none) : Inv s' p' := by
  obtain ⟨B, _⟩ := h.before hm
  have hin : ∀ u, Initing s' u → u = t := by
    rintro u ⟨f, hf, hi⟩
    refine Decidable.byContradiction fun hu => hno u hu ⟨f, ?_, hi⟩
    rw [← hst u hu]; exact hf
  refine ⟨hbd.trans h.good, fun _ => ⟨⟨hlk.trans B.lock, hen.trans B.enabled, hix.trans B.index, hhk.trans B.hooked, hse.trans B.sect, fun u => ?_⟩, hp'⟩, fun hx => ?_,
    fun u v hu hv => (hin u hu).trans (hin v hv).symm, fun u hu => ?_, hrdy, by rw [hse]; exact h.numbers, hsect⟩
  · by_cases hu : u = t
    · subst hu; exact hmy
    · rw [hst u hu]
      rcases B.stacks u with h1 | h1 | ⟨h1, h2⟩
      · exact .inl h1
      · exact .inr (.inl h1)
      · exact .inr (.inr ⟨by omega, h2⟩)
  · rw [hm'] at hx; cases hx
  · have := hin u hu
    subst this
    obtain ⟨f, hf, _⟩ := hu
    exact hb (by rw [hf]; nofun)

/-- Something is noted that is neither written nor of `ulog_shd_init`. -/
theorem Inv.note {s : State} {p : Phase} (h : Inv s p) {e : Ev}
    (he : (match e with | .write t c i => some (t, c, i) | _ => none : Option (Tid × Call × Nat)) = none)
    (hr : ready [e] = false) : Inv (s.ev e) p := by
  refine ⟨h.good, fun hm => ?_, fun hm => ?_, h.one, h.busy, ?_, h.numbers, sect_snoc _ h.sect he⟩
  · obtain ⟨B, hp⟩ := h.before hm
    exact ⟨⟨B.lock, B.enabled, B.index, B.hooked, B.sect, B.stacks⟩, hp⟩
  · obtain ⟨hl, hp⟩ := h.live hm
    refine ⟨?_, hp⟩
    cases hl with
    | free h1 h2 h3 h4 => exact .free h1 h2 h3 fun u => (h4 u).congr rfl
    | held t n h1 h2 h3 => exact .held t n h1 (h2.congr rfl rfl rfl) fun u hu => (h3 u hu).congr rfl
  · show ready (s.tr ++ [e]) = _
    rw [ready_snoc, hr, Bool.or_false]
    exact h.rdy

theorem notInit {s : State} {t : Tid} {f : Frame} {st : List Frame} (hf : f.init = false) : ∀ g, (s.at t (f :: st)).stack t = [g] → g.init = false := by
  intro g hg
  rw [at_same] at hg
  injection hg with hg
  subst hg
  exact hf

theorem Inv.mutexed {s : State} {p : Phase} (h : Inv s p) {t : Tid} {f : Frame} {st : List Frame} (hst : s.stack t = f :: st) (hf : f.init = false) : s.mutex = true := by
  cases hm : s.mutex with
  | true => rfl
  | false =>
    have := (h.before hm).1.stacks t
    rw [hst] at this
    rcases this with h1 | h1 | ⟨_, h1 | h1 | h1⟩ <;> cases h1 <;> cases hf

theorem Inv.unmutexed {s : State} {p : Phase} (h : Inv s p) {t : Tid} {f : Frame} {st : List Frame} (hst : s.stack t = f :: st)
    (hf : f = .create ∨ f = .attr ∨ f = .typ ∨ f = .mutex) : s.mutex = false ∧ st = [] ∧ p = .busy ∧ (f ≠ .create → 0 < s.made) ∧ ∀ u, u ≠ t → ¬ Initing s u := by
  have hm : s.mutex = false := by
    cases hm : s.mutex with
    | false => rfl
    | true =>
      obtain ⟨hl, -⟩ := h.live hm
      cases hl with
      | free _ _ _ h4 =>
        have := h4 t
        rw [hst] at this
        rcases hf with rfl | rfl | rfl | rfl <;> cases this
      | held u n _ h2 h3 =>
        by_cases hu : t = u
        · subst hu
          rw [hst] at h2
          rcases hf with rfl | rfl | rfl | rfl <;> cases h2
        · have := h3 t hu
          rw [hst] at this
          rcases hf with rfl | rfl | rfl | rfl <;> cases this
  have hs := (h.before hm).1.stacks t
  rw [hst] at hs
  have hnil : st = [] := by rcases hs with h1 | h1 | ⟨_, h1 | h1 | h1⟩ <;> cases h1 <;> rfl
  have hi : Initing s t := ⟨f, by rw [hst, hnil], by rcases hf with rfl | rfl | rfl | rfl <;> rfl⟩
  refine ⟨hm, hnil, h.busy t hi, fun hc => ?_, fun u hu hx => hu (h.one u t hx hi)⟩
  rcases hs with h1 | h1 | ⟨h0, -⟩
  · cases h1
  · cases h1; exact absurd rfl hc
  · exact h0

/-- `ulog_shd_init` fails before the mutex is there. -/
theorem Inv.fails {s : State} {p : Phase} {t : Tid} {res : Nat} (h : Inv s p) (hp : phase s.tr = some p) (hr : res ≠ 0) (hm : s.mutex = false) (hb : p = .busy)
    (hno : ∀ u, u ≠ t → ¬ Initing s u) :
    ∃ p', phase ((s.at t []).ev (.initEnd t (-res))).tr = some p' ∧ Inv ((s.at t []).ev (.initEnd t (-res))) p' := by
  have hr' : ¬ (-(res : Int)) = 0 := by omega
  refine ⟨.fresh, ?_, h.early hm (t := t) hm rfl rfl rfl rfl rfl rfl (Nat.le_refl _) (fun u hu => at_other s _ hu) (.inl (at_same s t _)) hno nofun
    (fun hx => absurd (at_same s t []) hx) ?_ (sect_snoc _ h.sect rfl)⟩
  · show phase (s.tr ++ [_]) = _
    rw [phase_snoc, hp, hb]
    exact congrArg some (if_neg hr')
  · show ready (s.tr ++ [_]) = _
    rw [ready_snoc, h.rdy, hb]
    show (false || (decide _ || false)) = false
    rw [decide_eq_false hr']
    rfl

theorem Inv.idling {s : State} {p : Phase} (h : Inv s p) {t : Tid} {f : Frame} {st : List Frame} (hst : s.stack t = f :: st) (hf : f = .hook ∨ f = .enable) :
    s.mutex = true ∧ Idle s (decide (p = .done)) (s.stack t) := by
  have hm : s.mutex = true := by
    cases hm : s.mutex with
    | true => rfl
    | false =>
      have := (h.before hm).1.stacks t
      rw [hst] at this
      rcases this with h1 | h1 | ⟨_, h1 | h1 | h1⟩ <;> cases h1 <;> (rcases hf with hf | hf <;> cases hf)
  refine ⟨hm, ?_⟩
  cases (h.live hm).1 with
  | free _ _ _ h4 => exact h4 t
  | held u n _ h2 h3 =>
    by_cases hu : t = u
    · subst hu
      rw [hst] at h2
      rcases hf with rfl | rfl <;> cases h2
    · exact h3 t hu

theorem inv_step {s s' : State} {p : Phase} {t : Tid} {a : Act} (h : Inv s p) (hp : phase s.tr = some p) (hs : step s t a = some s') (hok : phase s'.tr ≠ none) :
    ∃ p', phase s'.tr = some p' ∧ Inv s' p' := by
  have hon : ready s.tr = true → decide (p = .done) = true := fun hr => h.rdy ▸ hr
  cases a with
  | log m =>
    unfold step at hs
    dsimp only at hs
    -- where the thread is
    cases hst : s.stack t with
    | nil =>
      rw [hst] at hs
      dsimp only at hs
      by_cases hh : s.hooked = true
      · rw [if_pos hh] at hs
        injection hs with hs
        subst hs
        have hm : s.mutex = true := by
          cases hm : s.mutex with
          | true => rfl
          | false => rw [(h.before hm).1.hooked] at hh; cases hh
        refine ⟨p, phase_keep hp nofun nofun, h.idle hm (t := t) (by rw [hst]; exact .none) ?_ (fun u hu => at_other s _ hu) ?_ rfl rfl rfl rfl rfl rfl rfl rfl
          (by show ready (s.tr ++ [_]) = _; rw [ready_snoc]; exact Bool.or_false _) (sect_snoc _ h.sect rfl)⟩
        · show Idle _ _ ((s.at t _).stack t)
          rw [at_same]
          exact .lock hh rfl hon
        · intro f hf
          have hf : (s.at t _).stack t = [f] := hf
          rw [at_same] at hf
          injection hf with hf
          subst hf
          rfl
      · rw [if_neg hh] at hs
        injection hs with hs
        subst hs
        refine ⟨p, phase_keep hp nofun nofun, h.note rfl rfl⟩
    | cons f st =>
      rw [hst] at hs
      cases f with
      | wr c i =>
        dsimp only at hs
        have hm : s.mutex = true := by
          cases hm : s.mutex with
          | true => rfl
          | false =>
            have := (h.before hm).1.stacks t
            rw [hst] at this
            simp at this
        by_cases hh : s.hooked = true
        · rw [if_pos hh] at hs
          injection hs with hs
          subst hs
          obtain ⟨n, h1, h2, h3⟩ := (h.live hm).1.holder (t := t) (by rw [hst]; intro hx; cases hx)
          rw [hst] at h2
          cases h2 with
          | wr a b c d =>
            refine ⟨p, phase_keep hp nofun nofun, h.hold hm (t := t) (n := 1) h1 h3 ?_ (fun u hu => at_other s _ hu) ?_ rfl rfl rfl rfl
              (by show ready (s.tr ++ [_]) = _; rw [ready_snoc]; exact Bool.or_false _) h.numbers (sect_snoc _ h.sect rfl)⟩
            · show Hold _ _ _ ((s.at t _).stack t)
              rw [at_same]
              exact .lock2 rfl a b c d
            · intro f hf
              have hf : (s.at t _).stack t = [f] := hf
              rw [at_same] at hf
              cases hf
        · rw [if_neg hh] at hs
          injection hs with hs
          subst hs
          refine ⟨p, phase_keep hp nofun nofun, h.note rfl rfl⟩
      | _ => cases hs
  | init =>
    unfold step at hs
    dsimp only at hs
    cases hst : s.stack t with
    | cons f st => rw [hst] at hs; cases hs
    | nil =>
      rw [hst] at hs
      injection hs with hs
      subst hs
      have hok : phase (s.tr ++ [.initBegin t]) ≠ none := hok
      rw [phase_snoc, hp] at hok
      cases p with
      | busy => exact absurd rfl hok
      | done => exact absurd rfl hok
      | fresh =>
        have hm : s.mutex = false := by
          cases hm : s.mutex with
          | false => rfl
          | true => exact absurd rfl (h.live hm).2.2
        refine ⟨.busy, by show phase (s.tr ++ [_]) = _; rw [phase_snoc, hp]; rfl, h.early hm (t := t) hm rfl rfl rfl rfl rfl rfl (Nat.le_refl _) (fun u hu => at_other s _ hu)
          (.inr (.inl (at_same s t _))) (fun u _ hu => by have := h.busy u hu; cases this) nofun (fun _ => rfl) ?_ (sect_snoc _ h.sect rfl)⟩
        show ready (s.tr ++ [_]) = _
        rw [ready_snoc, h.rdy]
        rfl
  | go res =>
    unfold step at hs
    dsimp only at hs
    cases hst : s.stack t with
    | nil => rw [hst] at hs; cases hs
    | cons f st =>
      rw [hst] at hs
      cases f with
      | lock c =>
        dsimp only at hs
        have hm := h.mutexed hst rfl
        rw [if_neg (by rw [hm]; nofun)] at hs
        cases hlv : (h.live hm).1 with
        | free h1 h2 h3 h4 =>
          rw [h1] at hs
          injection hs with hs
          subst hs
          have hi := h4 t
          rw [hst] at hi
          cases hi with
          | lock a b d =>
            refine ⟨p, hp, h.hold hm (t := t) (n := 1) rfl (fun u _ => h4 u) ?_ (fun u hu => at_other _ _ hu) (notInit rfl) rfl rfl rfl rfl rfl h.numbers h.sect⟩
            rw [at_same]
            exact .check b d h2 h3
        | held u n h1 h2 h3 =>
          rw [h1] at hs
          dsimp only at hs
          by_cases hu : u = t
          · rw [if_pos hu] at hs
            subst hu
            injection hs with hs
            subst hs
            rw [hst] at h2
            cases h2 with
            | lock2 a b d e f =>
              refine ⟨p, hp, h.hold hm (t := u) (n := 2) rfl h3 ?_ (fun v hv => at_other _ _ hv) (notInit rfl) rfl rfl rfl rfl rfl h.numbers h.sect⟩
              rw [at_same]
              exact .check2 a b d e f
          · rw [if_neg hu] at hs
            cases hs
      | check c =>
        dsimp only at hs
        have hm := h.mutexed hst rfl
        obtain ⟨n, h1, h2, h3⟩ := (h.live hm).1.holder (t := t) (by rw [hst]; intro hx; cases hx)
        rw [hst] at h2
        by_cases he : s.enabled = true
        · rw [if_pos he] at hs
          injection hs with hs
          subst hs
          cases h2 with
          | check a b d e =>
            refine ⟨p, hp, h.hold hm (t := t) (n := 1) h1 h3 ?_ (fun u hu => at_other _ _ hu) (notInit rfl) rfl rfl rfl rfl rfl h.numbers h.sect⟩
            rw [at_same]
            exact .num a he (d.symm.trans he) e
          | check2 a b d e f => rw [d] at he; cases he
        · rw [if_neg he] at hs
          injection hs with hs
          subst hs
          have he : s.enabled = false := by cases hx : s.enabled <;> simp_all
          cases h2 with
          | check a b d e =>
            refine ⟨p, hp, h.hold hm (t := t) (n := 1) h1 h3 ?_ (fun u hu => at_other _ _ hu) (notInit rfl) rfl rfl rfl rfl rfl h.numbers h.sect⟩
            rw [at_same]
            exact .unlock a (fun hl => by rw [← d, he] at b; exact b hl) d e
          | check2 a b d e f =>
            refine ⟨p, hp, h.hold hm (t := t) (n := 2) h1 h3 ?_ (fun u hu => at_other _ _ hu) (notInit rfl) rfl rfl rfl rfl rfl h.numbers h.sect⟩
            rw [at_same]
            exact .unlock2 a b d e f
      | num c =>
        dsimp only at hs
        have hm := h.mutexed hst rfl
        obtain ⟨n, h1, h2, h3⟩ := (h.live hm).1.holder (t := t) (by rw [hst]; intro hx; cases hx)
        rw [hst] at h2
        injection hs with hs
        subst hs
        cases h2 with
        | num a b d e =>
          refine ⟨p, hp, h.hold hm (t := t) (n := 1) h1 h3 ?_ (fun u hu => at_other _ _ hu) (notInit rfl) rfl rfl rfl rfl rfl h.numbers h.sect⟩
          rw [at_same]
          refine .clear a b d ⟨e, ?_⟩
          have e : s.index = (s.sect.length + 1) % 65536 := e
          show (s.index + 1) % 65536 = (s.sect.length + 2) % 65536
          omega
      | clear c i =>
        dsimp only at hs
        have hm := h.mutexed hst rfl
        obtain ⟨n, h1, h2, h3⟩ := (h.live hm).1.holder (t := t) (by rw [hst]; intro hx; cases hx)
        rw [hst] at h2
        injection hs with hs
        subst hs
        cases h2 with
        | clear a b d e =>
          refine ⟨p, hp, h.hold hm (t := t) (n := 1) h1 h3 ?_ (fun u hu => at_other _ _ hu) (notInit rfl) rfl rfl rfl rfl rfl h.numbers h.sect⟩
          rw [at_same]
          exact .wr a rfl d e
      | wr c i =>
        dsimp only at hs
        have hm := h.mutexed hst rfl
        obtain ⟨n, h1, h2, h3⟩ := (h.live hm).1.holder (t := t) (by rw [hst]; intro hx; cases hx)
        rw [hst] at h2
        have hmd := (h.live hm).2.1
        rw [if_neg (by omega)] at hs
        injection hs with hs
        subst hs
        cases h2 with
        | wr a b d e =>
          refine ⟨p, phase_keep hp nofun nofun, h.hold hm (t := t) (n := 1) h1 h3 ?_ (fun u hu => at_other _ _ hu) (notInit rfl) rfl rfl rfl rfl
            (by show ready (s.tr ++ [_]) = _; rw [ready_snoc]; exact Bool.or_false _) ?_ ?_⟩
          · show Hold _ _ _ ((State.at _ t _).stack t)
            rw [at_same]
            refine .set a b d ?_
            show s.index = ((s.sect ++ [(t, c, i)]).length + 1) % 65536
            rw [e.2, List.length_append]
            rfl
          · intro k x hx
            have hx : (s.sect ++ [(t, c, i)])[k]? = some x := hx
            rcases Nat.lt_trichotomy k s.sect.length with hk | hk | hk
            · rw [List.getElem?_append_left hk] at hx
              exact h.numbers k x hx
            · subst hk
              rw [List.getElem?_append_right (Nat.le_refl _), Nat.sub_self] at hx
              cases hx
              exact e.1
            · rw [List.getElem?_eq_none (by rw [List.length_append]; show _ + 1 ≤ _; omega)] at hx
              cases hx
          · show s.sect ++ [(t, c, i)] = (s.tr ++ [_]).filterMap _
            rw [List.filterMap_append, ← h.sect]
            rfl
      | set c =>
        dsimp only at hs
        have hm := h.mutexed hst rfl
        obtain ⟨n, h1, h2, h3⟩ := (h.live hm).1.holder (t := t) (by rw [hst]; intro hx; cases hx)
        rw [hst] at h2
        injection hs with hs
        subst hs
        cases h2 with
        | set a b d e =>
          refine ⟨p, hp, h.hold hm (t := t) (n := 1) h1 h3 ?_ (fun u hu => at_other _ _ hu) (notInit rfl) rfl rfl rfl rfl rfl h.numbers h.sect⟩
          rw [at_same]
          exact .unlock a (fun _ => rfl) d.symm e
      | unlock c b =>
        dsimp only at hs
        have hm := h.mutexed hst rfl
        obtain ⟨n, h1, h2, h3⟩ := (h.live hm).1.holder (t := t) (by rw [hst]; intro hx; cases hx)
        rw [hst] at h2
        rw [h1] at hs
        dsimp only at hs
        rw [if_pos rfl] at hs
        injection hs with hs
        subst hs
        have hrd : ready (s.tr ++ [.done t c b]) = ready s.tr := by rw [ready_snoc]; exact Bool.or_false _
        cases h2 with
        | unlock a d e f =>
          refine ⟨p, phase_keep hp nofun nofun, h.good, fun hx => ?_, fun _ => ⟨.free rfl e f fun u => ?_, (h.live hm).2⟩, fun u v hu hv => ?_, fun u hu => ?_, hrd.trans h.rdy, h.numbers,
            sect_snoc _ h.sect rfl⟩
          · have hx : s.mutex = false := hx
            rw [hm] at hx; cases hx
          · show Idle _ _ ((State.at _ t _).stack u)
            by_cases hu : u = t
            · subst hu; rw [at_same]; exact .none
            · rw [at_other _ _ hu]; exact (h3 u hu).congr rfl
          · exact h.one u v (initing_at (s := s) (t := t) (st := []) nofun hu) (initing_at (s := s) (t := t) (st := []) nofun hv)
          · exact h.busy u (initing_at (s := s) (t := t) (st := []) nofun hu)
        | unlock2 a d e f g =>
          refine ⟨p, phase_keep hp nofun nofun, h.hold hm (t := t) (n := 1) rfl h3 ?_ (fun u hu => at_other _ _ hu) (notInit rfl) rfl rfl rfl rfl hrd h.numbers (sect_snoc _ h.sect rfl)⟩
          show Hold _ _ _ ((State.at _ t _).stack t)
          rw [at_same]
          exact .wr d e f g
      | create =>
        obtain ⟨hm, rfl, hb, hmd, hno⟩ := h.unmutexed hst (by simp)
        dsimp only at hs
        by_cases hr : res = 0
        · rw [if_pos hr] at hs
          injection hs with hs
          subst hs
          exact ⟨p, hp, h.early hm (t := t) hm rfl rfl rfl rfl rfl rfl (Nat.le_succ _) (fun u hu => at_other _ _ hu) (.inr (.inr ⟨Nat.succ_pos _, .inl (at_same _ t _)⟩)) hno
            (by rw [hb]; nofun) (fun _ => hb) h.rdy h.sect⟩
        · rw [if_neg hr] at hs
          injection hs with hs
          subst hs
          exact h.fails hp hr hm hb hno
      | attr =>
        obtain ⟨hm, rfl, hb, hmd, hno⟩ := h.unmutexed hst (by simp)
        dsimp only at hs
        by_cases hr : res = 0
        · rw [if_pos hr] at hs
          injection hs with hs
          subst hs
          exact ⟨p, hp, h.early hm (t := t) hm rfl rfl rfl rfl rfl rfl (Nat.le_refl _) (fun u hu => at_other _ _ hu) (.inr (.inr ⟨hmd nofun, .inr (.inl (at_same _ t _))⟩)) hno
            (by rw [hb]; nofun) (fun _ => hb) h.rdy h.sect⟩
        · rw [if_neg hr] at hs
          injection hs with hs
          subst hs
          exact h.fails hp hr hm hb hno
      | typ =>
        obtain ⟨hm, rfl, hb, hmd, hno⟩ := h.unmutexed hst (by simp)
        dsimp only at hs
        by_cases hr : res = 0
        · rw [if_pos hr] at hs
          injection hs with hs
          subst hs
          exact ⟨p, hp, h.early hm (t := t) hm rfl rfl rfl rfl rfl rfl (Nat.le_refl _) (fun u hu => at_other _ _ hu) (.inr (.inr ⟨hmd nofun, .inr (.inr (at_same _ t _))⟩)) hno
            (by rw [hb]; nofun) (fun _ => hb) h.rdy h.sect⟩
        · rw [if_neg hr] at hs
          injection hs with hs
          subst hs
          exact h.fails hp hr hm hb hno
      | mutex =>
        obtain ⟨hm, rfl, hb, hmd, hno⟩ := h.unmutexed hst (by simp)
        dsimp only at hs
        by_cases hr : res = 0
        · rw [if_pos hr] at hs
          injection hs with hs
          subst hs
          obtain ⟨B, -⟩ := h.before hm
          have hi : Initing s t := ⟨.mutex, hst, rfl⟩
          have hall : ∀ u, Initing (State.at { s with mutex := true, lock := none } t [.hook]) u → Initing s u := by
            rintro u ⟨f, hf, hfi⟩
            by_cases hu : u = t
            · rw [hu]; exact hi
            · rw [at_other _ _ hu] at hf; exact ⟨f, hf, hfi⟩
          refine ⟨p, hp, h.good, nofun, fun _ => ⟨.free rfl ?_ ?_ fun u => ?_, hmd nofun, by rw [hb]; nofun⟩, fun u v hu hv => h.one u v (hall u hu) (hall v hv), fun u hu => h.busy u (hall u hu),
            h.rdy, h.numbers, h.sect⟩
          · rw [hb]; exact B.enabled
          · show s.index = (s.sect.length + 1) % 65536
            rw [B.index, B.sect]
            rfl
          · by_cases hu : u = t
            · subst hu
              rw [at_same, hb]
              exact .hook B.hooked rfl
            · rw [at_other _ _ hu]
              have hx := hno u hu
              show Idle _ _ (s.stack u)
              rcases B.stacks u with h1 | h1 | ⟨_, h1 | h1 | h1⟩
              · rw [h1]; exact .none
              all_goals exact absurd ⟨_, h1, rfl⟩ hx
        · rw [if_neg hr] at hs
          injection hs with hs
          subst hs
          exact h.fails hp hr hm hb hno
      | hook =>
        dsimp only at hs
        injection hs with hs
        subst hs
        obtain ⟨hm, hi⟩ := h.idling hst (by simp)
        rw [hst] at hi
        cases hi with
        | hook hh hd =>
          have hin : Initing s t := ⟨_, hst, rfl⟩
          have hall : ∀ u, Initing (State.at { s with hooked := true } t [.enable]) u → Initing s u := by
            rintro u ⟨f, hf, hfi⟩
            by_cases hu : u = t
            · rw [hu]; exact hin
            · rw [at_other _ _ hu] at hf; exact ⟨f, hf, hfi⟩
          have hoth : ∀ u, u ≠ t → Idle s (decide (p = .done)) (s.stack u) → Idle { s with hooked := true } (decide (p = .done)) (s.stack u) := by
            intro u hu hx
            have hnu : ¬ Initing s u := fun hq => hu (h.one u t hq hin)
            generalize hg : s.stack u = q at hx
            cases hx with
            | none => exact .none
            | lock a b c => rw [hh] at a; cases a
            | hook a b => exact absurd ⟨_, hg, rfl⟩ hnu
            | enable a b => rw [hh] at a; cases a
          obtain ⟨hl, hl2⟩ := h.live hm
          refine ⟨p, hp, h.good, fun hx => ?_, fun _ => ⟨?_, hl2⟩, fun u v hu hv => h.one u v (hall u hu) (hall v hv), fun u hu => h.busy u (hall u hu), h.rdy, h.numbers, h.sect⟩
          · have hx : s.mutex = false := hx
            rw [hm] at hx; cases hx
          · have hmine : Idle (State.at { s with hooked := true } t [.enable]) (decide (p = .done)) ((State.at { s with hooked := true } t [.enable]).stack t) := by
              rw [at_same]; exact .enable rfl hd
            cases hl with
            | free h1 h2 h3 h4 =>
              refine .free h1 h2 h3 fun u => ?_
              by_cases hu : u = t
              · subst hu; exact hmine
              · rw [at_other _ _ hu]; exact (hoth u hu (h4 u)).congr rfl
            | held v n h1 h2 h3 =>
              have hvt : v ≠ t := by
                rintro rfl
                rw [hst] at h2; cases h2
              refine .held v n h1 ?_ fun u hu => ?_
              · rw [at_other _ _ hvt]; exact h2.congr rfl rfl rfl
              · by_cases hut : u = t
                · subst hut; exact hmine
                · rw [at_other _ _ hut]; exact (hoth u hut (h3 u hu)).congr rfl
      | enable =>
        dsimp only at hs
        injection hs with hs
        subst hs
        obtain ⟨hm, hi⟩ := h.idling hst (by simp)
        rw [hst] at hi
        cases hi with
        | enable hh hd =>
          have hin : Initing s t := ⟨_, hst, rfl⟩
          have hb := h.busy t hin
          subst hb
          have hnone : ∀ u, ¬ Initing (State.at { s with enabled := true } t []) u := by
            rintro u ⟨f, hf, hfi⟩
            by_cases hu : u = t
            · rw [hu, at_same] at hf; cases hf
            · rw [at_other _ _ hu] at hf
              exact hu (h.one u t ⟨f, hf, hfi⟩ hin)
          have hoth : ∀ u, u ≠ t → Idle s false (s.stack u) → Idle s true (s.stack u) := by
            intro u hu hx
            have hnu : ¬ Initing s u := fun hq => hu (h.one u t hq hin)
            generalize hg : s.stack u = q at hx
            cases hx with
            | none => exact .none
            | lock a b c => exact .lock a b fun _ => rfl
            | hook a b => exact absurd ⟨_, hg, rfl⟩ hnu
            | enable a b => exact absurd ⟨_, hg, rfl⟩ hnu
          obtain ⟨hl, hl2⟩ := h.live hm
          refine ⟨.done, ?_, h.good, fun hx => ?_, fun _ => ⟨?_, hl2.1, nofun⟩, fun u v hu _ => absurd hu (hnone u), fun u hu => absurd hu (hnone u), ?_, h.numbers, sect_snoc _ h.sect rfl⟩
          · show phase (s.tr ++ [_]) = _
            rw [phase_snoc, hp]
            rfl
          · have hx : s.mutex = false := hx
            rw [hm] at hx; cases hx
          · have hmine : Idle (State.at { s with enabled := true } t []) true ((State.at { s with enabled := true } t []).stack t) := by
              rw [at_same]; exact .none
            cases hl with
            | free h1 h2 h3 h4 =>
              refine .free h1 rfl h3 fun u => ?_
              by_cases hu : u = t
              · subst hu; exact hmine.congr rfl
              · show Idle _ _ ((State.at _ t _).stack u)
                rw [at_other _ _ hu]; exact (hoth u hu (h4 u)).congr rfl
            | held v n h1 h2 h3 =>
              have hvt : v ≠ t := by
                rintro rfl
                rw [hst] at h2; cases h2
              refine .held v n h1 ?_ fun u hu => ?_
              · show Hold _ _ _ ((State.at _ t _).stack v)
                rw [at_other _ _ hvt]
                show Hold _ _ _ (s.stack v)
                generalize s.stack v = q at h2
                cases h2 with
                | check a b c d => exact .check a (fun _ => rfl) rfl d
                | unlock a b c d => exact .unlock a b rfl d
                | num _ _ c _ => cases c
                | clear _ _ c _ => cases c
                | wr _ _ c _ => cases c
                | set _ _ c _ => cases c
                | lock2 _ _ _ c _ => cases c
                | check2 _ _ _ c _ => cases c
                | unlock2 _ _ _ c _ => cases c
              · show Idle _ _ ((State.at _ t _).stack u)
                by_cases hut : u = t
                · subst hut; exact hmine.congr rfl
                · rw [at_other _ _ hut]; exact (hoth u hut (h3 u hu)).congr rfl
          · show ready (s.tr ++ [_]) = _
            rw [ready_snoc]
            exact Bool.or_true _

/-! ## Every run -/

theorem step_tr {s s' : State} {t : Tid} {a : Act} (hs : step s t a = some s') : s'.tr = s.tr ∨ ∃ e, s'.tr = s.tr ++ [e] := by
  unfold step at hs
  cases a with
  | log m => dsimp only at hs; repeat' split at hs
             all_goals cases hs
             all_goals exact .inr ⟨_, rfl⟩
  | init => dsimp only at hs; split at hs
            all_goals cases hs
            all_goals exact .inr ⟨_, rfl⟩
  | go r =>
    dsimp only at hs
    repeat' split at hs
    all_goals cases hs
    all_goals first | exact .inr ⟨_, rfl⟩ | exact .inl rfl

theorem phase_before {s s' : State} {t : Tid} {a : Act} (hs : step s t a = some s') (h : phase s'.tr ≠ none) : phase s.tr ≠ none := by
  rcases step_tr hs with h1 | ⟨e, h1⟩
  · rw [← h1]; exact h
  · intro hx
    rw [h1, phase_snoc, hx] at h
    exact h (by cases e <;> rfl)

theorem inv_all {s : State} (h : Steps s) (hok : phase s.tr ≠ none) : ∃ p, phase s.tr = some p ∧ Inv s p := by
  induction h with
  | start =>
    refine ⟨.fresh, rfl, rfl, fun _ => ⟨⟨rfl, rfl, rfl, rfl, rfl, fun _ => .inl rfl⟩, nofun⟩, nofun, ?_, ?_, rfl, nofun, rfl⟩
    · rintro u v ⟨f, hf, _⟩; cases hf
    · rintro u ⟨f, hf, _⟩; cases hf
  | next t a h1 h2 ih =>
    obtain ⟨p, hp, hi⟩ := ih (phase_before h2 hok)
    exact inv_step hi hp h2 hok

/-- Nothing undefined happens. -/
theorem C125_safe {s : State} (h : Steps s) (hok : phase s.tr ≠ none) : s.bad = false :=
  let ⟨_, _, hi⟩ := inv_all h hok
  hi.good

/-- Samples are numbered 1, 2, ... without a gap, modulo 65536. -/
theorem C125_numbers {s : State} (h : Steps s) (hok : phase s.tr ≠ none) (k : Nat) (x : Tid × Call × Nat) (hx : s.sect[k]? = some x) : x.2.2 = (k + 1) % 65536 :=
  let ⟨_, _, hi⟩ := inv_all h hok
  hi.numbers k x hx

/-- What `late` says. -/
theorem C125_late {s : State} (h : Steps s) {pre post : List Ev} {t : Tid} {c : Call} (htr : s.tr = pre ++ .begin t c :: post) : c.late = ready pre := by
  induction h generalizing post with
  | start => simp [State.start] at htr
  | @next s0 s1 u a h1 h2 ih =>
    have hcase : ∀ e, s1.tr = s0.tr ++ [e] → (∀ t c, e = .begin t c → c.late = ready s0.tr) → c.late = ready pre := by
      intro e he hb
      rw [htr] at he
      rcases List.eq_nil_or_concat post with rfl | ⟨l, x, rfl⟩
      · obtain ⟨ha, hb'⟩ := List.append_inj' he rfl
        injection hb' with hb'
        subst ha
        exact hb t c hb'.symm
      · have he' : (pre ++ .begin t c :: l) ++ [x] = s0.tr ++ [e] := by rw [← he]; simp
        exact ih (List.append_inj' he' rfl).1.symm
    unfold step at h2
    cases a with
    | log m =>
      dsimp only at h2
      repeat' split at h2
      all_goals cases h2
      all_goals exact hcase _ rfl (by rintro _ _ ⟨⟩ <;> rfl)
    | init =>
      dsimp only at h2
      split at h2
      all_goals cases h2
      all_goals exact hcase _ rfl (by rintro _ _ ⟨⟩)
    | go r =>
      dsimp only at h2
      repeat' split at h2
      all_goals cases h2
      all_goals first
        | exact ih htr
        | exact hcase _ rfl (by rintro _ _ ⟨⟩)

/-! ## Within `shd_write` -/

def depth (st : List Frame) : Nat := st.countP fun f => !f.init

theorem opened_snoc (t : Tid) (tr : List Ev) (e : Ev) :
    opened t (tr ++ [e]) = match e with
      | .begin u _ => if u = t then opened t tr + 1 else opened t tr
      | .done u _ _ => if u = t then opened t tr - 1 else opened t tr
      | _ => opened t tr := by
  unfold opened
  rw [List.foldl_append]
  rfl

theorem at_stack (s : State) (t u : Tid) (st : List Frame) : (s.at t st).stack u = if u = t then st else s.stack u := rfl
theorem at_tr (s : State) (t : Tid) (st : List Frame) : (s.at t st).tr = s.tr := rfl
theorem at_sect (s : State) (t : Tid) (st : List Frame) : (s.at t st).sect = s.sect := rfl
theorem ev_stack (s : State) (e : Ev) : (s.ev e).stack = s.stack := rfl
theorem ev_tr (s : State) (e : Ev) : (s.ev e).tr = s.tr ++ [e] := rfl
theorem ev_sect (s : State) (e : Ev) : (s.ev e).sect = s.sect := rfl

theorem opened_all {s : State} (h : Steps s) : ∀ t, opened t s.tr = depth (s.stack t) := by
  induction h with
  | start => intro t; rfl
  | @next s0 s1 u a h1 h2 ih =>
    clear h1
    intro t
    have iht := ih t
    unfold step at h2
    cases a <;> dsimp only at h2 <;> repeat' split at h2
    all_goals cases h2
    all_goals clear ih
    all_goals
      by_cases hu : t = u
      · subst hu
        simp_all [opened_snoc, at_stack, at_tr, ev_stack, ev_tr, depth, Frame.init]
      · have hu' : ¬ u = t := fun h => hu h.symm
        simp_all [opened_snoc, at_stack, at_tr, ev_stack, ev_tr]

/-- What `inner` says: that the thread is within a call. -/
theorem C125_inner {s : State} (h : Steps s) {pre post : List Ev} {t : Tid} {c : Call} (htr : s.tr = pre ++ .begin t c :: post) : c.inner = true ↔ opened t pre > 0 := by
  induction h generalizing post with
  | start => simp [State.start] at htr
  | @next s0 s1 u a h1 h2 ih =>
    have hd := opened_all h1
    have hcase : ∀ e, s1.tr = s0.tr ++ [e] → (∀ t c, e = .begin t c → (c.inner = true ↔ opened t s0.tr > 0)) → (c.inner = true ↔ opened t pre > 0) := by
      intro e he hb
      rw [htr] at he
      rcases List.eq_nil_or_concat post with rfl | ⟨l, x, rfl⟩
      · obtain ⟨ha, hb'⟩ := List.append_inj' he rfl
        injection hb' with hb'
        subst ha
        exact hb t c hb'.symm
      · have he' : (pre ++ .begin t c :: l) ++ [x] = s0.tr ++ [e] := by rw [← he]; simp
        exact ih (List.append_inj' he' rfl).1.symm
    unfold step at h2
    cases a with
    | log m =>
      dsimp only at h2
      repeat' split at h2
      all_goals cases h2
      all_goals refine hcase _ rfl ?_
      all_goals rintro v d hv
      all_goals cases hv
      all_goals rename_i hst _
      all_goals rw [hd u, hst]
      all_goals simp [depth, Frame.init]
      all_goals omega
    | init =>
      dsimp only at h2
      split at h2
      all_goals cases h2
      all_goals exact hcase _ rfl (by rintro _ _ ⟨⟩)
    | go r =>
      dsimp only at h2
      repeat' split at h2
      all_goals cases h2
      all_goals first
        | exact ih htr
        | exact hcase _ rfl (by rintro _ _ ⟨⟩)

/-! ## Nothing is lost -/

/-- Calls a frame stands for that are yet to be written. -/
def pendF : Frame → List Call
  | .lock c | .check c | .num c | .clear c _ | .wr c _ => if c.inner = false ∧ c.late = true then [c] else []
  | _ => []

def Kept (s : State) : Prop := ∀ t, kept t s.sect ++ (s.stack t).flatMap pendF = said t s.tr

theorem said_snoc (t : Tid) (tr : List Ev) (e : Ev) :
    said t (tr ++ [e]) = said t tr ++ match e with | .begin u c => if u = t ∧ c.inner = false ∧ c.late = true then [c] else [] | _ => [] := by
  unfold said
  rw [List.filterMap_append]
  congr 1
  cases e with
  | begin u c => by_cases h : u = t ∧ c.inner = false ∧ c.late = true <;> simp [h]
  | _ => rfl

theorem kept_snoc (t : Tid) (l : List (Tid × Call × Nat)) (x : Tid × Call × Nat) :
    kept t (l ++ [x]) = kept t l ++ if x.1 = t ∧ x.2.1.late = true then [x.2.1] else [] := by
  unfold kept
  rw [List.filter_append, List.map_append]
  congr 1
  by_cases h : x.1 = t ∧ x.2.1.late = true
  · rw [if_pos h]; simp [h]
  · rw [if_neg h]
    simp
    intro h1
    cases hl : x.2.1.late with
    | false => rfl
    | true => exact absurd ⟨h1, hl⟩ h

theorem kept_step {s s' : State} {p : Phase} {t : Tid} {a : Act} (h : Inv s p) (hk : Kept s) (hs : step s t a = some s') : Kept s' := by
  intro u
  have hku := hk u
  have hcheck : ∀ c st, s.stack t = .check c :: st → s.enabled = false → ¬ (c.inner = false ∧ c.late = true) := by
    intro c st hst he
    obtain ⟨n, h1, h2, h3⟩ := (h.live (h.mutexed hst rfl)).1.holder (t := t) (by rw [hst]; intro hx; cases hx)
    rw [hst] at h2
    cases h2 with
    | check a b d e =>
      rintro ⟨_, hl⟩
      rw [b hl, he] at d
      cases d
    | check2 a b d e f => rintro ⟨hx, _⟩; rw [a] at hx; cases hx
  have hwr : ∀ c i st, s.stack t = .wr c i :: st → c.inner = false := by
    intro c i st hst
    obtain ⟨n, h1, h2, h3⟩ := (h.live (h.mutexed hst rfl)).1.holder (t := t) (by rw [hst]; intro hx; cases hx)
    rw [hst] at h2
    cases h2 with
    | wr a b d e => exact a
  unfold step at hs
  cases a <;> dsimp only at hs <;> repeat' split at hs
  all_goals cases hs
  all_goals
    by_cases hu : u = t
    · subst hu
      first
        | (simp_all [said_snoc, kept_snoc, at_stack, at_tr, at_sect, ev_stack, ev_tr, ev_sect, pendF]; done)
        | (rename_i hst _
           have hno := hcheck _ _ hst (by simp_all)
           rw [hst, List.flatMap_cons, pendF, if_neg hno] at hku
           rw [at_stack, if_pos rfl]
           exact hku)
    · have hu' : ¬ t = u := fun h => hu h.symm
      simp_all [said_snoc, kept_snoc, at_stack, at_tr, at_sect, ev_stack, ev_tr, ev_sect]

theorem kept_all {s : State} (h : Steps s) (hok : phase s.tr ≠ none) : Kept s := by
  induction h with
  | start => intro t; rfl
  | next t a h1 h2 ih =>
    have hb := phase_before h2 hok
    obtain ⟨p, _, hi⟩ := inv_all h1 hb
    exact kept_step hi (ih hb) h2

/-- What a thread logs once `ulog_shd_init` has returned 0, outside of `shd_write`, is in
the section, once and in order, but for a message the thread is still at. -/
theorem C125_kept {s : State} (h : Steps s) (hok : phase s.tr ≠ none) (t : Tid) : ∃ l, l.length ≤ 1 ∧ (s.stack t = [] → l = []) ∧ kept t s.sect ++ l = said t s.tr := by
  refine ⟨(s.stack t).flatMap pendF, ?_, fun hn => by rw [hn]; rfl, kept_all h hok t⟩
  obtain ⟨p, _, hi⟩ := inv_all h hok
  have hone : ∀ c, (if c.inner = false ∧ c.late = true then [c] else ([] : List Call)).length ≤ 1 := by intro c; split <;> simp
  have hin : ∀ c : Call, c.inner = true → (if c.inner = false ∧ c.late = true then [c] else ([] : List Call)) = [] := by intro c hc; simp [hc]
  have hidle : Idle s (decide (p = .done)) (s.stack t) → ((s.stack t).flatMap pendF).length ≤ 1 := by
    intro hx
    generalize s.stack t = st at hx
    cases hx <;> simp only [List.flatMap_cons, List.flatMap_nil, List.append_nil, pendF] <;> first | exact hone _ | simp
  cases hm : s.mutex with
  | false =>
    rcases (hi.before hm).1.stacks t with h1 | h1 | ⟨_, h1 | h1 | h1⟩ <;> rw [h1] <;> simp [pendF]
  | true =>
    cases (hi.live hm).1 with
    | free _ _ _ h4 => exact hidle (h4 t)
    | held u n h1 h2 h3 =>
      by_cases hu : t = u
      · subst hu
        generalize s.stack t = st at h2
        cases h2 <;> simp only [List.flatMap_cons, List.flatMap_nil, List.append_nil, pendF] <;> first | exact hone _ | simp | skip
        all_goals (rename_i hd _ _ _ _; rw [hin _ hd, List.length_nil, Nat.zero_add]; exact hone _)
      · exact hidle (h3 t hu)

/-- What each call comes to: a message from within `shd_write` never reaches the section;
one logged once `ulog_shd_init` has returned 0 does. -/
theorem C125_ends {s : State} (h : Steps s) (hok : phase s.tr ≠ none) {t : Tid} {c : Call} {b : Bool} (hd : .done t c b ∈ s.tr) :
    (c.inner = true → b = false) ∧ (c.inner = false → c.late = true → b = true) := by
  induction h with
  | start => cases hd
  | @next s0 s1 u a h1 h2 ih =>
    have hb := phase_before h2 hok
    obtain ⟨p, _, hi⟩ := inv_all h1 hb
    have hold : ∀ d b st, s0.stack u = .unlock d b :: st → (d.inner = true → b = false) ∧ (d.inner = false → d.late = true → b = true) := by
      intro d b st hst
      obtain ⟨n, _, h3, _⟩ := (hi.live (hi.mutexed hst rfl)).1.holder (t := u) (by rw [hst]; intro hx; cases hx)
      rw [hst] at h3
      cases h3 with
      | unlock h4 h5 _ _ => exact ⟨fun hx => (by rw [h4] at hx; cases hx), fun _ => h5⟩
      | unlock2 h4 _ _ _ _ => exact ⟨fun _ => rfl, fun hx => by rw [h4] at hx; cases hx⟩
    have hcase : ∀ e, s1.tr = s0.tr ++ [e] → (∀ t c b, e = .done t c b → (c.inner = true → b = false) ∧ (c.inner = false → c.late = true → b = true)) →
        (c.inner = true → b = false) ∧ (c.inner = false → c.late = true → b = true) := by
      intro e he hx
      rw [he] at hd
      rcases List.mem_append.1 hd with h3 | h3
      · exact ih hb h3
      · exact hx t c b (List.mem_singleton.1 h3).symm
    unfold step at h2
    cases a <;> dsimp only at h2 <;> repeat' split at h2
    all_goals cases h2
    all_goals first
      | exact ih hb hd
      | (refine hcase _ rfl ?_
         intro _ _ _ hx
         cases hx
         done)
      | (refine hcase _ rfl ?_
         intro _ _ _ hx
         cases hx
         apply hold
         assumption)

/-- No sample is of a message from within `shd_write`. -/
theorem C125_outer {s : State} (h : Steps s) (hok : phase s.tr ≠ none) {x : Tid × Call × Nat} (hx : x ∈ s.sect) : x.2.1.inner = false := by
  induction h with
  | start => cases hx
  | @next s0 s1 u a h1 h2 ih =>
    have hb := phase_before h2 hok
    obtain ⟨p, _, hi⟩ := inv_all h1 hb
    have hold : ∀ d i st, s0.stack u = .wr d i :: st → d.inner = false := by
      intro d i st hst
      obtain ⟨n, _, h3, _⟩ := (hi.live (hi.mutexed hst rfl)).1.holder (t := u) (by rw [hst]; intro hx; cases hx)
      rw [hst] at h3
      cases h3 with
      | wr a b d e => exact a
    unfold step at h2
    cases a <;> dsimp only at h2 <;> repeat' split at h2
    all_goals cases h2
    all_goals first
      | exact ih hb hx
      | (rcases List.mem_append.1 hx with h3 | h3
         · exact ih hb h3
         · rw [List.mem_singleton.1 h3]
           apply hold
           assumption)

/-! ## No thread waits for ever -/

/-- Steps the thread that holds the mutex is from freeing it. -/
def left : List Frame → Nat
  | [.lock _, .wr _ _] => 6
  | [.check _, .wr _ _] => 5
  | [.unlock _ _, .wr _ _] => 4
  | [.check _] => 6 | [.num _] => 5 | [.clear _ _] => 4 | [.wr _ _] => 3 | [.set _] => 2 | [.unlock _ _] => 1
  | _ => 0

theorem left_step {s : State} {p : Phase} (h : Inv s p) (hp : phase s.tr = some p) {u : Tid} {n : Nat} (hl : s.lock = some (u, n)) :
    ∃ s', step s u (.go 0) = some s' ∧ phase s'.tr = some p ∧ (s'.lock = none ∨ ∃ m, s'.lock = some (u, m)) ∧ left (s'.stack u) < left (s.stack u) := by
  have hm : s.mutex = true := by
    cases hm : s.mutex with
    | true => rfl
    | false => rw [(h.before hm).1.lock] at hl; cases hl
  have hmade := (h.live hm).2.1
  cases (h.live hm).1 with
  | free h1 _ _ _ => rw [h1] at hl; cases hl
  | held v n' h1 h2 h3 =>
    rw [hl] at h1
    injection h1 with h1
    injection h1 with h1 h1'
    subst h1 h1'
    generalize hst : s.stack u = st at h2
    unfold step
    dsimp only
    rw [hst]
    cases h2 with
    | check a b c d =>
      dsimp only
      by_cases he : s.enabled = true
      · rw [if_pos he]
        exact ⟨_, rfl, hp, .inr ⟨_, hl⟩, by rw [at_same]; show 5 < 6; decide⟩
      · rw [if_neg he]
        exact ⟨_, rfl, hp, .inr ⟨_, hl⟩, by rw [at_same]; show 1 < 6; decide⟩
    | unlock a b c d =>
      dsimp only
      rw [hl]
      dsimp only
      rw [if_pos rfl]
      exact ⟨_, rfl, phase_keep hp nofun nofun, .inl rfl, by rw [ev_stack, at_same]; show 0 < 1; decide⟩
    | num a b c d => exact ⟨_, rfl, hp, .inr ⟨_, hl⟩, by rw [at_same]; show 4 < 5; decide⟩
    | clear a b c d => exact ⟨_, rfl, hp, .inr ⟨_, hl⟩, by rw [at_same]; show 3 < 4; decide⟩
    | wr a b c d =>
      dsimp only
      rw [if_neg (by omega)]
      exact ⟨_, rfl, phase_keep hp nofun nofun, .inr ⟨_, hl⟩, by rw [ev_stack, at_same]; show 2 < 3; decide⟩
    | set a b c d => exact ⟨_, rfl, hp, .inr ⟨_, hl⟩, by rw [at_same]; show 1 < 2; decide⟩
    | lock2 a b c d e =>
      dsimp only
      rw [if_neg (by rw [hm]; nofun), hl]
      dsimp only
      rw [if_pos rfl]
      exact ⟨_, rfl, hp, .inr ⟨_, rfl⟩, by rw [at_same]; show 5 < 6; decide⟩
    | check2 a b c d e =>
      dsimp only
      rw [if_neg (by rw [c]; nofun)]
      exact ⟨_, rfl, hp, .inr ⟨_, hl⟩, by rw [at_same]; show 4 < 5; decide⟩
    | unlock2 a b c d e =>
      dsimp only
      rw [hl]
      dsimp only
      rw [if_pos rfl]
      exact ⟨_, rfl, phase_keep hp nofun nofun, .inr ⟨_, rfl⟩, by rw [ev_stack, at_same]; show 3 < 4; decide⟩

theorem left_le (st : List Frame) : left st ≤ 6 := by
  unfold left
  split <;> decide

theorem free_of {k : Nat} : ∀ {s : State} {p : Phase} {u : Tid} {n : Nat}, Inv s p → phase s.tr = some p → s.lock = some (u, n) → left (s.stack u) ≤ k →
    ∃ j s', j ≤ k ∧ solo s u (List.replicate j (.go 0)) = some s' ∧ s'.lock = none := by
  induction k with
  | zero =>
    intro s p u n h hp hl hk
    obtain ⟨s', _, _, _, hlt⟩ := left_step h hp hl
    omega
  | succ k ih =>
    intro s p u n h hp hl hk
    obtain ⟨s', hs, hp', hl', hlt⟩ := left_step h hp hl
    obtain ⟨p2, hp2, hi⟩ := inv_step h hp hs (by rw [hp']; nofun)
    rw [hp'] at hp2
    injection hp2 with hp2
    subst hp2
    rcases hl' with hl' | ⟨m, hl'⟩
    · exact ⟨1, s', by omega, by show (step s u (.go 0)).bind _ = _; rw [hs]; rfl, hl'⟩
    · obtain ⟨j, s2, hj, hrun, hfree⟩ := ih hi hp' hl' (by omega)
      refine ⟨j + 1, s2, by omega, ?_, hfree⟩
      show (step s u (.go 0)).bind _ = _
      rw [hs]
      exact hrun

/-- Whoever holds the mutex frees it within six steps of its own. -/
theorem C125_free {s : State} (h : Steps s) (hok : phase s.tr ≠ none) {u : Tid} {n : Nat} (hl : s.lock = some (u, n)) :
    ∃ j s', j ≤ 6 ∧ solo s u (List.replicate j (.go 0)) = some s' ∧ s'.lock = none :=
  let ⟨_, hp, hi⟩ := inv_all h hok
  free_of hi hp hl (left_le _)

/-- A thread waits for nothing but the mutex, held by another. -/
theorem C125_waits {s : State} {t : Tid} (hst : s.stack t ≠ []) (res : Nat) (hw : step s t (.go res) = none) : ∃ u n, u ≠ t ∧ s.lock = some (u, n) := by
  unfold step at hw
  dsimp only at hw
  repeat' split at hw
  all_goals first
    | (cases hw; done)
    | (rename_i h1; exact absurd h1 hst)
    | (rename_i h1 hu; exact ⟨_, _, hu, h1⟩)

/-! ## The answer of `ulog_shd_init` -/

/-- It returns 0 if all went well, else the error of the first function that failed; and then nothing has changed but for the section, made if `shd_create2` went well. -/
theorem C125_init (s : State) (t : Tid) (hst : s.stack t = []) (a b c d : Nat) :
    ∃ k s', k ≤ 6 ∧ solo s t (.init :: ([a, b, c, d, 0, 0].take k).map .go) = some s' ∧
      s'.tr = s.tr ++ [.initBegin t, .initEnd t (answer [a, b, c, d])] ∧ s'.stack = s.stack ∧
      s'.made = (if a = 0 then s.made + 1 else s.made) ∧ s'.bad = s.bad ∧ s'.sect = s.sect ∧ s'.index = s.index ∧
      (answer [a, b, c, d] = 0 → s'.mutex = true ∧ s'.hooked = true ∧ s'.enabled = true ∧ s'.lock = none) ∧
      (answer [a, b, c, d] ≠ 0 → s'.mutex = s.mutex ∧ s'.hooked = s.hooked ∧ s'.enabled = s.enabled ∧ s'.lock = s.lock) := by
  by_cases ha : a = 0
  · by_cases hb : b = 0
    · by_cases hc : c = 0
      · by_cases hd : d = 0
        · refine ⟨6, ?_⟩
          simp [solo, step, hst, State.at, State.ev, answer, ha, hb, hc, hd]
          funext u
          by_cases hu : u = t <;> simp [hu, hst]
        · refine ⟨4, ?_⟩
          simp [solo, step, hst, State.at, State.ev, answer, ha, hb, hc, hd]
          funext u
          by_cases hu : u = t <;> simp [hu, hst]
      · refine ⟨3, ?_⟩
        simp [solo, step, hst, State.at, State.ev, answer, ha, hb, hc]
        funext u
        by_cases hu : u = t <;> simp [hu, hst]
    · refine ⟨2, ?_⟩
      simp [solo, step, hst, State.at, State.ev, answer, ha, hb]
      funext u
      by_cases hu : u = t <;> simp [hu, hst]
  · refine ⟨1, ?_⟩
    simp [solo, step, hst, State.at, State.ev, answer, ha]
    funext u
    by_cases hu : u = t <;> simp [hu, hst]

/-! ## Where messages go -/

theorem ready_one (e : Ev) : ready [e] = match e with | .initEnd _ r => decide (r = 0) | _ => false := by
  cases e <;> simp [ready]

theorem hooked_step {s s' : State} {t : Tid} {a : Act} (hs : step s t a = some s')
    (h : (∀ u, .enable ∈ s.stack u → s.hooked = true) ∧ (ready s.tr = true → s.hooked = true)) :
    (∀ u, .enable ∈ s'.stack u → s'.hooked = true) ∧ (ready s'.tr = true → s'.hooked = true) := by
  obtain ⟨h1, h2⟩ := h
  have h1t := h1 t
  unfold step at hs
  cases a <;> dsimp only at hs <;> repeat' split at hs
  all_goals cases hs
  all_goals
    refine ⟨fun u => ?_, ?_⟩
    · have h1u := h1 u
      by_cases hu : u = t
      · subst hu
        simp_all [State.at, State.ev]
      · simp_all [State.at, State.ev]
    · simp_all [State.at, State.ev, ready_snoc, ready_one]

/-- Once `ulog_shd_init` has returned 0 no message goes elsewhere. -/
theorem C125_here {s : State} (h : Steps s) {pre post : List Ev} {t : Tid} {m : Nat} (htr : s.tr = pre ++ .elsewhere t m :: post) : ready pre = false := by
  suffices hb : ((∀ u, .enable ∈ s.stack u → s.hooked = true) ∧ (ready s.tr = true → s.hooked = true)) ∧
      ∀ pre post t m, s.tr = pre ++ .elsewhere t m :: post → ready pre = false from hb.2 pre post t m htr
  clear htr pre post t m
  induction h with
  | start => exact ⟨⟨nofun, nofun⟩, by intro pre post t m hx; simp [State.start] at hx⟩
  | @next s0 s1 u a h1 h2 ih =>
    refine ⟨hooked_step h2 ih.1, ?_⟩
    intro pre post t m htr
    have hcase : ∀ e, s1.tr = s0.tr ++ [e] → (∀ t m, e = .elsewhere t m → ready s0.tr = false) → ready pre = false := by
      intro e he hb
      rw [htr] at he
      rcases List.eq_nil_or_concat post with rfl | ⟨l, x, rfl⟩
      · obtain ⟨ha, hb'⟩ := List.append_inj' he rfl
        injection hb' with hb'
        subst ha
        exact hb t m hb'.symm
      · have he' : (pre ++ .elsewhere t m :: l) ++ [x] = s0.tr ++ [e] := by rw [← he]; simp
        exact ih.2 pre l t m (List.append_inj' he' rfl).1.symm
    unfold step at h2
    cases a <;> dsimp only at h2 <;> repeat' split at h2
    all_goals cases h2
    all_goals first
      | exact ih.2 pre post t m htr
      | (refine hcase _ rfl ?_
         intro _ _ hx
         cases hx
         done)
      | (refine hcase _ rfl ?_
         intro _ _ hx
         cases hr : ready s0.tr with
         | false => rfl
         | true => exact absurd (ih.1.2 hr) (by assumption))

/-! ## False of other runs -/

def run (s : State) : List (Tid × Act) → Option State
  | [] => some s
  | (t, a) :: l => (step s t a).bind fun s' => run s' l

theorem steps_run {s s' : State} {l : List (Tid × Act)} (h : Steps s) (hr : run s l = some s') : Steps s' := by
  induction l generalizing s with
  | nil => cases hr; exact h
  | cons x l ih =>
    obtain ⟨t, a⟩ := x
    unfold run at hr
    cases hs : step s t a with
    | none => rw [hs] at hr; cases hr
    | some s1 => rw [hs] at hr; exact ih (.next t a h hs) hr

/-- Thread `t` calls `ulog_shd_init` and all goes well. -/
def initAll (t : Tid) : List (Tid × Act) := (.init :: List.replicate 6 (.go 0)).map (Prod.mk t)

/-- Where `ulog_shd_init` is called again while a thread writes, a message from within
`shd_write` is stored in the section, before the one that is being written and with the number after. -/
def againRun : List (Tid × Act) :=
  initAll 0 ++ ([.log 7, .go 0, .go 0, .go 0, .go 0].map (Prod.mk 0)) ++ initAll 1 ++ ((.log 8 :: List.replicate 7 (.go 0)).map (Prod.mk 0)) ++ [(0, .go 0)]

theorem C125_false_again : ∃ s, Steps s ∧ ∃ x ∈ s.sect, x.2.1.inner = true := by
  have h : (run .start againRun).map (·.sect) = some [(0, ⟨8, true, true⟩, 2), (0, ⟨7, true, false⟩, 1)] := by decide +kernel
  cases hr : run .start againRun with
  | none => rw [hr] at h; cases h
  | some s =>
    rw [hr] at h
    injection h with h
    have h : s.sect = _ := h
    exact ⟨s, steps_run .start hr, (0, ⟨8, true, true⟩, 2), by rw [h]; exact .head _, rfl⟩

/-- A message logged while `ulog_shd_init` is between 154 and 155 is in no section and
nowhere else. -/
def windowRun : List (Tid × Act) :=
  ((.init :: List.replicate 5 (.go 0)).map (Prod.mk 0)) ++ ([.log 7, .go 0, .go 0, .go 0].map (Prod.mk 1)) ++ [(0, .go 0)]

theorem C125_false_window : ∃ s, Steps s ∧ phase s.tr = some .done ∧ s.tr = [.initBegin 0, .begin 1 ⟨7, false, false⟩, .done 1 ⟨7, false, false⟩ false, .initEnd 0 0] ∧ s.sect = [] := by
  have h : (run .start windowRun).map (fun s => (s.tr, s.sect)) =
      some ([.initBegin 0, .begin 1 ⟨7, false, false⟩, .done 1 ⟨7, false, false⟩ false, .initEnd 0 0], []) := by decide +kernel
  cases hr : run .start windowRun with
  | none => rw [hr] at h; cases h
  | some s =>
    rw [hr] at h
    injection h with h
    injection h with h1 h2
    exact ⟨s, steps_run .start hr, by rw [h1]; decide, h1, h2⟩

/-- Where the mutex cannot be made the section stays; calling again makes another. -/
def leakRun : List (Tid × Act) := ([.init, .go 0, .go 0, .go 0, .go 12].map (Prod.mk 0)) ++ initAll 0

theorem C125_false_leak : ∃ s, Steps s ∧ s.tr = [.initBegin 0, .initEnd 0 (-12), .initBegin 0, .initEnd 0 0] ∧ s.made = 2 := by
  have h : (run .start leakRun).map (fun s => (s.tr, s.made)) = some ([.initBegin 0, .initEnd 0 (-12), .initBegin 0, .initEnd 0 0], 2) := by decide +kernel
  cases hr : run .start leakRun with
  | none => rw [hr] at h; cases h
  | some s =>
    rw [hr] at h
    injection h with h
    injection h with h1 h2
    exact ⟨s, steps_run .start hr, h1, h2⟩

end Verif.Tools.ShdConc
