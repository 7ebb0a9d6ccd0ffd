import Verif.Libulog.ConcWInv

/-! # C118: the writer under several threads -/
namespace Verif.Libulog.ConcW
open Verif Verif.Libulog

variable {E : Envir} {own : Nat → Option Nat} {s s' : State} {t u : Tid} {ch : Choice} {m : Msg}

/-! ### Events -/

/-- The state in which an event happens. -/
def State.Emits (E : Envir) (s : State) (u : Tid) : Ev → Prop
  | .begin t _ => u = t ∧ s.pc t = .idle
  | .wrote t m to d => u = t ∧ ∃ fd n, s.pc t = .write fd m n ∧ to = fd.bind s.files ∧ d = s.dirty t
  | .custom t m f => u = t ∧ ∃ n, s.pc t = .run (.custom f) m n
  | .null t m => u = t ∧ ∃ n, s.pc t = .run .null m n
  | .copy t m => u = t ∧ m.bin = false ∧ ∃ n, s.pc t = .after m (n + 1)
  | .done t m => u = t ∧ s.pc t = .after m 0
  | .opened p n => p = E.path s.device ∧ s.files n = none ∧ ∃ k, s.pc u = .iOpen k
  | .openFailed p => p = E.path s.device ∧ ∃ k, s.pc u = .iOpen k
  | .closed n => s.pc u = .dClose n
  | .device d => (∃ d, s.pc u = .dStore d) ∧ ∀ x, d = some x → s.pc u = .dStore x
  | .reset => s.pc u = .dInit
  | .installed f => s.pc u = .sW f ∨ ∃ k, f = .custom k ∧ s.pc u = .sW2 k
  | .got t f => u = t ∧ s.pc t = .gUnlock f

theorem step_tr (hs : step E u ch s = some s') : s'.tr = s.tr ∨ ∃ e, s'.tr = e :: s.tr ∧ s.Emits E u e := by
  unfold step at hs
  split at hs <;> (try split at hs) <;> (try (cases hs; done)) <;> cases hs <;>
    first
      | exact .inl rfl
      | exact .inr ⟨_, rfl, by simp_all [State.Emits]⟩
      | (split
         · exact .inl rfl
         · exact .inr ⟨_, rfl, by simp_all [State.Emits]⟩)

/-- An event of the trace, with the state in which it happened. -/
theorem Reach.event (h : Reach E own s) : ∀ {post pre : List Ev} {e : Ev}, s.tr = post ++ e :: pre → ∃ s0 u, Reach E own s0 ∧ s0.tr = pre ∧ s0.Emits E u e := by
  induction h with
  | start => intro post pre e he; simp [State.start] at he
  | step t ch h0 hs ih =>
    intro post pre e he
    rcases step_tr hs with h1 | ⟨e', h1, h2⟩
    · exact ih (h1 ▸ he)
    · rw [h1] at he
      cases post with
      | nil => simp only [List.nil_append, List.cons.injEq] at he; obtain ⟨rfl, rfl⟩ := he; exact ⟨_, t, h0, rfl, h2⟩
      | cons x post => simp only [List.cons_append, List.cons.injEq] at he; exact ih he.2

/-! ### The device -/

/-- The name set last; none if it could not be stored, or none was set. -/
def named : List Ev → Option Bytes
  | [] => none
  | .device d :: _ => d
  | _ :: r => named r

theorem step_device (hs : step E u ch s = some s') (h : s.device = named s.tr) : s'.device = named s'.tr := by
  unfold step at hs
  split at hs <;> (try split at hs) <;> (try (cases hs; done)) <;> cases hs <;> first | exact h | rfl | (split <;> exact h)

theorem Reach.named (h : Reach E own s) : s.device = named s.tr := by
  induction h with
  | start => rfl
  | step t ch _ hs ih => exact step_device hs ih

/-- An event that neither opens a device nor sets one. -/
def Ev.quiet : Ev → Bool
  | .opened .. | .device (some _) => false
  | _ => true

theorem cur_spec {p : Bytes} : ∀ {tr : List Ev}, cur tr = some p → ∃ a n b, tr = a ++ .opened p n :: b ∧ ∀ e ∈ a, e.quiet = true
  | [], h => by cases h
  | e :: r, h => by
    by_cases hq : e.quiet = true
    · have : cur r = some p := by
        cases e with
        | device d => cases d <;> first | exact h | cases hq
        | opened => cases hq
        | _ => exact h
      obtain ⟨a, n, b, rfl, h2⟩ := cur_spec this
      refine ⟨e :: a, n, b, rfl, ?_⟩
      intro x hx
      rcases List.mem_cons.1 hx with rfl | hx
      · exact hq
      · exact h2 x hx
    · cases e with
      | opened q n => cases h; exact ⟨[], n, r, rfl, by simp⟩
      | device d => cases d <;> first | cases h | exact absurd rfl hq
      | _ => exact absurd rfl hq

theorem named_append {b : List Ev} : ∀ {a : List Ev}, (∀ e ∈ a, ∀ d, e ≠ .device d) → named (a ++ b) = named b
  | [], _ => rfl
  | e :: a, h => by
    have h1 := h e (by simp)
    have h2 := named_append (b := b) fun x hx => h x (List.mem_cons_of_mem _ hx)
    cases e with
    | device d => exact absurd rfl (h1 d)
    | _ => exact h2

/-- **C118** A message whose call no change of the device overlaps, and that goes to the
kernel writer, is written to a device: the one that was opened last, which no successful
`ulog_set_log_device` followed; it was opened by the name that was set at that moment. -/
theorem C118_device (h : Reach E own s) {post pre : List Ev} {to : Option Target} (hw : s.tr = post ++ .wrote t m to false :: pre) :
    ∃ p n a b, to = some (.dev p) ∧ pre = a ++ .opened p n :: b ∧ (∀ e ∈ a, e.quiet = true) ∧ p = E.path (named b) := by
  obtain ⟨s0, u, h0, h1, rfl, fd, k, h2, h3, h4⟩ := h.event hw
  have hT := h0.inv.thread u
  unfold State.Thread at hT
  rw [h2] at hT
  obtain ⟨-, e1, n, p, e2, e3, e4⟩ := hT h4.symm
  rw [h1] at e4
  obtain ⟨a, k, b, h5, h6⟩ := cur_spec e4
  refine ⟨p, k, a, b, ?_, h5, h6, ?_⟩
  · rw [h3, e1, e2]; exact e3
  · obtain ⟨s1, v, g0, g1, g2, -⟩ := h0.event (h1.trans h5)
    rw [g2, g0.named, g1]

/-- **C118** If no call of `ulog_set_log_device` ran out of memory, it is the device set
last. -/
theorem C118_latest (h : Reach E own s) {post pre : List Ev} {to : Option Target} (hw : s.tr = post ++ .wrote t m to false :: pre)
    (hm : .device none ∉ pre) : to = some (.dev (E.path (named pre))) := by
  obtain ⟨p, n, a, b, h1, rfl, h2, h3⟩ := C118_device h hw
  rw [h1, h3, named_append]
  · rfl
  · rintro e he d rfl
    cases d with
    | none => exact hm (List.mem_append_left _ he)
    | some d => exact absurd (h2 _ he) (by simp [Ev.quiet])

/-! ### Every message once -/

/-- The thread whose call an event is part of. -/
def Ev.of : Ev → Option Tid
  | .begin t _ | .wrote t _ _ _ | .custom t _ _ | .null t _ | .copy t _ | .done t _ | .got t _ => some t
  | _ => none

/-- What the calls of a thread did, newest first. -/
def mine (t : Tid) (tr : List Ev) : List Ev := tr.filter fun e => e.of == some t

/-- The message is given to the kernel, to a function of the program, or to nobody. -/
inductive Delivers (t : Tid) (m : Msg) : Ev → Prop
  | wrote (to : Option Target) (d : Bool) : Delivers t m (.wrote t m to d)
  | custom (f : Nat) : Delivers t m (.custom t m f)
  | null : Delivers t m (.null t m)

/-- The copies of a message: one if `ULOG_STDERR` is set or the message goes to nobody, but
none of a binary message. -/
def copies (E : Envir) (t : Tid) (m : Msg) (d : Ev) : List Ev :=
  if m.bin = false ∧ (E.stderr = true ∨ d = .null t m) then [.copy t m] else []

/-- What finished calls did. -/
inductive Calls (E : Envir) (t : Tid) : List Ev → Prop
  | nil : Calls E t []
  | got {r : List Ev} (f : Option Wf) : Calls E t r → Calls E t (.got t f :: r)
  | msg {r : List Ev} {m : Msg} {d : Ev} : Calls E t r → Delivers t m d → Calls E t (.done t m :: (copies E t m d ++ d :: .begin t m :: r))

/-- The message has been begun and not delivered. -/
def Begun (E : Envir) (t : Tid) (m : Msg) (l : List Ev) : Prop := ∃ r, Calls E t r ∧ l = .begin t m :: r

/-- The message has been delivered, with `n` copies to come. -/
def Given (E : Envir) (t : Tid) (m : Msg) (n : Nat) (l : List Ev) : Prop :=
  ∃ r d k, Calls E t r ∧ Delivers t m d ∧ l = List.replicate k (.copy t m) ++ d :: .begin t m :: r ∧
    (m.bin = true → k = 0) ∧ (m.bin = false → k + n = if E.stderr = true ∨ d = .null t m then 1 else 0)

def RunOk (E : Envir) (f : Wf) (n : Nat) : Prop :=
  (n = 0 ∧ f ≠ .null ∧ (E.stderr = true → f = .init ∨ ∃ c, f = .wrap c)) ∨ (n = 1 ∧ baseWf f = true ∧ (E.stderr = false → f = .null))

def Fine (E : Envir) (f : Wf) : Prop := f ≠ .null ∧ (E.stderr = true → ∃ c, f = .wrap c)

def ForOk (E : Envir) (t : Tid) (l : List Ev) : For → Prop
  | .msg m n => Begun E t m l ∧ n = 0
  | .get => Calls E t l

def Local (E : Envir) (t : Tid) (l : List Ev) : Pc → Prop
  | .start m => Begun E t m l
  | .run f m n => Begun E t m l ∧ RunOk E f n
  | .write _ m n => Begun E t m l ∧ n = if E.stderr then 1 else 0
  | .after m n => Given E t m n l
  | .iLock m n | .iCheck m n | .iUnlock m n | .again m n => Begun E t m l ∧ n = 0
  | .iOpen k => ForOk E t l k
  | .iW2 base k => ForOk E t l k ∧ baseWf base = true ∧ (E.stderr = false → base = .null)
  | .iW f k => ForOk E t l k ∧ Fine E f
  | .sW2 _ => Calls E t l ∧ E.stderr = true
  | .sW g => Calls E t l ∧ Fine E g
  | .gUnlock f => Calls E t l ∧ ∃ g, f = some g ∧ g ≠ .init ∧ (E.stderr = true → baseWf g = true)
  | _ => Calls E t l

structure Global (E : Envir) (s : State) : Prop where
  w : s.writer = .init ∨ Fine E s.writer
  w2 : E.stderr = false → s.writer2 = none ∨ s.writer2 = some .null

theorem mine_cons {e : Ev} {tr : List Ev} : mine t (e :: tr) = if e.of = some t then e :: mine t tr else mine t tr := by
  unfold mine
  rw [List.filter_cons]
  simp only [beq_iff_eq]

theorem Global.runOk (g : Global E s) : RunOk E s.writer 0 := by
  rcases g.w with h | ⟨h1, h2⟩
  · rw [h]; exact .inl ⟨rfl, by simp, fun _ => .inl rfl⟩
  · exact .inl ⟨rfl, h1, fun e => .inr (h2 e)⟩

theorem Begun.given {l : List Ev} {n : Nat} {d : Ev} (h : Begun E t m l) (hd : Delivers t m d) (hn : n = if E.stderr = true ∨ d = .null t m then 1 else 0) :
    Given E t m n (d :: l) := by
  obtain ⟨r, h1, rfl⟩ := h
  exact ⟨r, d, 0, h1, hd, rfl, fun _ => rfl, fun _ => by rw [Nat.zero_add]; exact hn⟩

theorem Given.done {l : List Ev} (h : Given E t m 0 l) : Calls E t (.done t m :: l) := by
  obtain ⟨r, d, k, h1, h2, rfl, h4, h5⟩ := h
  have : List.replicate k (.copy t m) = copies E t m d := by
    unfold copies
    cases hb : m.bin with
    | true => rw [h4 hb]; simp
    | false =>
      have := h5 hb
      rw [Nat.add_zero] at this
      rw [this]
      by_cases hc : E.stderr = true ∨ d = .null t m
      · rw [if_pos hc, if_pos ⟨rfl, hc⟩]; rfl
      · rw [if_neg hc, if_neg (fun x => hc x.2)]; rfl
  rw [this]
  exact .msg h1 h2

/-- The thread goes on without an event of its own. -/
theorem local_at {b : State} {p : Pc} {l : List Ev} (g : Global E b) (hb : b.pc u = p) (hl : mine u b.tr = l) (h : Local E u l p) :
    Global E b ∧ Local E u (mine u b.tr) (b.pc u) := by
  rw [hb, hl]; exact ⟨g, h⟩

theorem mine_own {e : Ev} {tr : List Ev} (h : e.of = some t) : mine t (e :: tr) = e :: mine t tr := by rw [mine_cons, if_pos h]

theorem mine_other {e : Ev} {tr : List Ev} (h : e.of ≠ some t) : mine t (e :: tr) = mine t tr := by rw [mine_cons, if_neg h]

theorem local_step (hi : Inv s) (hs : step E u ch s = some s') (g : Global E s) (h : Local E u (mine u s.tr) (s.pc u)) :
    Global E s' ∧ Local E u (mine u s'.tr) (s'.pc u) := by
  have g0 := g
  obtain ⟨g1, g2⟩ := g0
  unfold step at hs
  cases hp : s.pc u with
  | idle =>
    rw [hp] at h hs
    cases ch <;> simp only [reduceCtorEq, Option.some.injEq] at hs
    · subst hs
      exact local_at ⟨g1, g2⟩ (if_pos rfl) (mine_own rfl) ⟨_, h, rfl⟩
    · split at hs
      · simp only [Option.some.injEq] at hs; subst hs; exact local_at ⟨g1, g2⟩ (if_pos rfl) rfl h
      · cases hs
    · subst hs; exact local_at ⟨g1, g2⟩ (if_pos rfl) rfl h
    · subst hs; exact local_at ⟨g1, g2⟩ (if_pos rfl) rfl h
    · split at hs
      · simp only [Option.some.injEq] at hs; subst hs; exact local_at ⟨g1, g2⟩ hp rfl h
      · cases hs
    · split at hs
      · simp only [Option.some.injEq] at hs; subst hs; exact local_at ⟨g1, g2⟩ hp rfl h
      · cases hs
  | start m =>
    rw [hp] at h hs
    cases ch <;> simp only [reduceCtorEq, Option.some.injEq] at hs
    subst hs
    exact local_at ⟨g1, g2⟩ (if_pos rfl) rfl ⟨h, g.runOk⟩
  | again m n =>
    rw [hp] at h hs
    obtain ⟨h, rfl⟩ := h
    cases ch <;> simp only [reduceCtorEq, Option.some.injEq] at hs
    subst hs
    exact local_at ⟨g1, g2⟩ (if_pos rfl) rfl ⟨h, g.runOk⟩
  | run f m n =>
    rw [hp] at h hs
    obtain ⟨h, hr⟩ := h
    cases ch <;> try (cases f <;> cases hs; done)
    cases f with
    | init =>
      simp only [Option.some.injEq] at hs; subst hs
      refine local_at ⟨g1, g2⟩ (if_pos rfl) rfl ⟨h, ?_⟩
      rcases hr with ⟨e, _⟩ | ⟨_, e, _⟩
      · exact e
      · cases e
    | null =>
      simp only [Option.some.injEq] at hs; subst hs
      refine local_at ⟨g1, g2⟩ (if_pos rfl) (mine_own rfl) (h.given .null ?_)
      rw [if_pos (.inr rfl)]
      rcases hr with ⟨_, e, _⟩ | ⟨e, _⟩
      · exact absurd rfl e
      · exact e
    | custom f =>
      simp only [Option.some.injEq] at hs; subst hs
      refine local_at ⟨g1, g2⟩ (if_pos rfl) (mine_own rfl) (h.given (.custom f) ?_)
      rcases hr with ⟨e, _, k⟩ | ⟨e, _, k⟩
      · rw [if_neg, e]
        rintro (x | x)
        · have := k x; simp at this
        · cases x
      · rw [if_pos, e]
        cases hE : E.stderr with
        | true => exact .inl rfl
        | false => cases k hE
    | kernel =>
      simp only [Option.some.injEq] at hs; subst hs
      refine local_at ⟨g1, g2⟩ (if_pos rfl) rfl ⟨h, ?_⟩
      rcases hr with ⟨e, _, k⟩ | ⟨e, _, k⟩
      · rw [if_neg, e]
        intro x
        have := k x; simp at this
      · rw [if_pos, e]
        cases hE : E.stderr with
        | true => rfl
        | false => cases k hE
    | wrap c =>
      have hT := hi.thread u
      unfold State.Thread at hT
      rw [hp] at hT
      cases hw : s.writer2 with
      | none => exact absurd hw (hT.2.1 c rfl)
      | some f =>
        simp only [hw, Option.some.injEq] at hs; subst hs
        refine local_at ⟨g1, g2⟩ (if_pos rfl) rfl ⟨h, .inr ⟨?_, hi.w2 f hw, ?_⟩⟩
        · rcases hr with ⟨e, _⟩ | ⟨_, e, _⟩
          · rw [e]
          · cases e
        · intro e
          have := g2 e
          rw [hw] at this
          simpa using this
  | write fd m n =>
    rw [hp] at h hs
    obtain ⟨h, hn⟩ := h
    cases ch <;> simp only [reduceCtorEq, Option.some.injEq] at hs
    · subst hs
      refine local_at ⟨g1, g2⟩ (if_pos rfl) (mine_own rfl) (h.given (.wrote _ _) ?_)
      rw [hn]
      simp
    · subst hs
      refine local_at ⟨g1, g2⟩ (if_pos rfl) rfl ⟨h, ?_⟩
      rw [hn]
      cases hE : E.stderr with
      | true => exact .inr ⟨rfl, rfl, fun e => by rw [hE] at e; cases e⟩
      | false => exact .inl ⟨rfl, by simp, fun e => by rw [hE] at e; cases e⟩
  | after m n =>
    rw [hp] at h hs
    cases ch <;> cases n <;> simp only [reduceCtorEq, Option.some.injEq] at hs
    · subst hs
      exact local_at ⟨g1, g2⟩ (if_pos rfl) (mine_own rfl) h.done
    · subst hs
      obtain ⟨r, d, k, h1, h2, h3, h4, h5⟩ := h
      cases hb : m.bin
      · rw [if_neg (by simp)]
        refine local_at ⟨g1, g2⟩ (if_pos rfl) (mine_own rfl) ⟨r, d, k + 1, h1, h2, ?_, fun e => ?_, fun e => ?_⟩
        · show _ :: mine u s.tr = _
          rw [h3]; rfl
        · rw [hb] at e; cases e
        · rw [← h5 hb]; omega
      · rw [if_pos rfl]
        refine local_at ⟨g1, g2⟩ (if_pos rfl) rfl ⟨r, d, k, h1, h2, h3, h4, fun e => ?_⟩
        rw [hb] at e; cases e
  | iLock m n =>
    rw [hp] at h hs
    cases ch <;> simp only [reduceCtorEq] at hs
    split at hs
    · simp only [Option.some.injEq] at hs; subst hs; exact local_at ⟨g1, g2⟩ (if_pos rfl) rfl h
    · cases hs
  | iCheck m n =>
    rw [hp] at h hs
    cases ch <;> simp only [reduceCtorEq, Option.some.injEq] at hs
    subst hs
    split
    · exact local_at ⟨g1, g2⟩ (if_pos rfl) rfl h
    · exact local_at ⟨g1, g2⟩ (if_pos rfl) rfl h
  | iOpen k =>
    rw [hp] at h hs
    cases ch <;> try (cases hs; done)
    rename_i o
    cases o with
    | none =>
      simp only [Option.some.injEq] at hs; subst hs
      exact local_at ⟨g1, g2⟩ (if_pos rfl) (mine_other (by simp [Ev.of])) ⟨h, rfl, fun _ => rfl⟩
    | some n =>
      simp only at hs
      split at hs
      · simp only [Option.some.injEq] at hs; subst hs
        cases hE : E.stderr
        · rw [if_neg (by simp)]
          exact local_at ⟨g1, g2⟩ (if_pos rfl) (mine_other (by simp [Ev.of])) ⟨h, by simp, fun e => by rw [hE] at e; cases e⟩
        · rw [if_pos rfl]
          exact local_at ⟨g1, g2⟩ (if_pos rfl) (mine_other (by simp [Ev.of])) ⟨h, rfl, fun e => by rw [hE] at e; cases e⟩
      · cases hs
  | iW2 base k =>
    rw [hp] at h hs
    obtain ⟨h, h1, h2⟩ := h
    cases ch <;> simp only [reduceCtorEq, Option.some.injEq] at hs
    subst hs
    exact local_at ⟨g1, fun e => .inr (by rw [h2 e]; rfl)⟩ (if_pos rfl) rfl ⟨h, by simp, fun _ => ⟨_, rfl⟩⟩
  | iW f k =>
    rw [hp] at h hs
    obtain ⟨h, h1⟩ := h
    cases ch <;> simp only [reduceCtorEq, Option.some.injEq] at hs
    subst hs
    cases k with
    | msg m n => exact local_at ⟨.inr h1, g2⟩ (if_pos rfl) rfl h
    | get => exact local_at ⟨.inr h1, g2⟩ (if_pos rfl) rfl h
  | iUnlock m n =>
    rw [hp] at h hs
    cases ch <;> simp only [reduceCtorEq, Option.some.injEq] at hs
    subst hs; exact local_at ⟨g1, g2⟩ (if_pos rfl) rfl h
  | dLock d =>
    rw [hp] at h hs
    cases ch <;> simp only [reduceCtorEq] at hs
    split at hs
    · simp only [Option.some.injEq] at hs; subst hs; exact local_at ⟨g1, g2⟩ (if_pos rfl) rfl h
    · cases hs
  | dStore d =>
    rw [hp] at h hs
    cases ch <;> try (cases hs; done)
    rename_i o
    cases o <;> simp only [Option.some.injEq] at hs <;> subst hs <;> exact local_at ⟨g1, g2⟩ (if_pos rfl) (mine_other (by simp [Ev.of])) h
  | dTest =>
    rw [hp] at h hs
    cases ch <;> simp only [reduceCtorEq, Option.some.injEq] at hs
    subst hs
    split
    · exact local_at ⟨g1, g2⟩ (if_pos rfl) rfl h
    · exact local_at ⟨g1, g2⟩ (if_pos rfl) rfl h
  | dFd =>
    rw [hp] at h hs
    cases ch <;> try (cases hs; done)
    simp only at hs
    split at hs <;> simp only [Option.some.injEq] at hs <;> subst hs <;> exact local_at ⟨g1, g2⟩ (if_pos rfl) rfl h
  | dClose n =>
    rw [hp] at h hs
    cases ch <;> simp only [reduceCtorEq, Option.some.injEq] at hs
    subst hs; exact local_at ⟨g1, g2⟩ (if_pos rfl) (mine_other (by simp [Ev.of])) h
  | dMinus =>
    rw [hp] at h hs
    cases ch <;> simp only [reduceCtorEq, Option.some.injEq] at hs
    subst hs; exact local_at ⟨g1, g2⟩ (if_pos rfl) rfl h
  | dInit =>
    rw [hp] at h hs
    cases ch <;> simp only [reduceCtorEq, Option.some.injEq] at hs
    subst hs; exact local_at ⟨.inl rfl, g2⟩ (if_pos rfl) (mine_other (by simp [Ev.of])) h
  | dUnlock =>
    rw [hp] at h hs
    cases ch <;> simp only [reduceCtorEq, Option.some.injEq] at hs
    subst hs; exact local_at ⟨g1, g2⟩ (if_pos rfl) rfl h
  | sLock f =>
    rw [hp] at h hs
    cases ch <;> simp only [reduceCtorEq] at hs
    split at hs
    · simp only [Option.some.injEq] at hs; subst hs
      cases hE : E.stderr
      · rw [if_neg (by simp)]
        exact local_at ⟨g1, g2⟩ (if_pos rfl) rfl ⟨h, by simp, fun e => by rw [hE] at e; cases e⟩
      · rw [if_pos rfl]
        exact local_at ⟨g1, g2⟩ (if_pos rfl) rfl ⟨h, hE⟩
    · cases hs
  | sW2 f =>
    rw [hp] at h hs
    cases ch <;> simp only [reduceCtorEq, Option.some.injEq] at hs
    subst hs
    exact local_at ⟨g1, fun e => by rw [h.2] at e; cases e⟩ (if_pos rfl) (mine_other (by simp [Ev.of])) ⟨h.1, by simp, fun _ => ⟨_, rfl⟩⟩
  | sW f =>
    rw [hp] at h hs
    cases ch <;> simp only [reduceCtorEq, Option.some.injEq] at hs
    subst hs
    exact local_at ⟨.inr h.2, g2⟩ (if_pos rfl) (mine_other (by simp [Ev.of])) h.1
  | sUnlock =>
    rw [hp] at h hs
    cases ch <;> simp only [reduceCtorEq, Option.some.injEq] at hs
    subst hs; exact local_at ⟨g1, g2⟩ (if_pos rfl) rfl h
  | gLock =>
    rw [hp] at h hs
    cases ch <;> simp only [reduceCtorEq] at hs
    split at hs
    · simp only [Option.some.injEq] at hs; subst hs; exact local_at ⟨g1, g2⟩ (if_pos rfl) rfl h
    · cases hs
  | gCheck =>
    rw [hp] at h hs
    cases ch <;> simp only [reduceCtorEq, Option.some.injEq] at hs
    subst hs
    split
    · exact local_at ⟨g1, g2⟩ (if_pos rfl) rfl h
    · exact local_at ⟨g1, g2⟩ (if_pos rfl) rfl h
  | gRead =>
    have hT := hi.thread u
    unfold State.Thread at hT
    rw [hp] at h hs hT
    cases ch <;> simp only [reduceCtorEq, Option.some.injEq] at hs
    subst hs
    refine local_at ⟨g1, g2⟩ (if_pos rfl) rfl ⟨h, ?_⟩
    have hT : s.writer ≠ .init := hT
    cases hE : E.stderr
    · exact ⟨_, if_neg (by simp), hT, fun e => by cases e⟩
    · rcases g1 with g1 | ⟨_, g1⟩
      · exact absurd g1 hT
      · obtain ⟨c, g1⟩ := g1 hE
        have := hi.wrap c g1
        cases hw : s.writer2 with
        | none => exact absurd hw this
        | some f =>
          have := hi.w2 f hw
          exact ⟨f, if_pos rfl, fun e => (by rw [e] at this; cases this), fun _ => this⟩
  | gUnlock f =>
    rw [hp] at h hs
    cases ch <;> simp only [reduceCtorEq, Option.some.injEq] at hs
    subst hs; exact local_at ⟨g1, g2⟩ (if_pos rfl) (mine_own rfl) (.got f h.1)
  | crash => rw [hp] at hs; cases ch <;> cases hs

/-- A step of another thread. -/
theorem step_other (hs : step E u ch s = some s') (ht : t ≠ u) : s'.pc t = s.pc t ∧ mine t s'.tr = mine t s.tr := by
  have hm : ∀ e : Ev, s.Emits E u e → mine t (e :: s.tr) = mine t s.tr := by
    intro e he
    refine mine_other ?_
    cases e <;> simp only [Ev.of, ne_eq, reduceCtorEq, not_false_eq_true, Option.some.injEq]
    all_goals rw [← he.1]; exact fun x => ht x.symm
  constructor
  · unfold step at hs
    split at hs <;> (try split at hs) <;> (try (cases hs; done)) <;> cases hs <;> first | exact if_neg ht | rfl | (split <;> exact if_neg ht)
  · rcases step_tr hs with h | ⟨e, h, he⟩
    · rw [h]
    · rw [h]; exact hm e he

theorem Reach.local (h : Reach E own s) : Global E s ∧ ∀ t, Local E t (mine t s.tr) (s.pc t) := by
  induction h with
  | start => exact ⟨⟨.inl rfl, fun _ => .inl rfl⟩, fun t => .nil⟩
  | step u ch h0 hs ih =>
    have := local_step h0.inv hs ih.1 (ih.2 u)
    refine ⟨this.1, fun t => ?_⟩
    by_cases ht : t = u
    · rw [ht]; exact this.2
    · obtain ⟨a, b⟩ := step_other hs ht
      rw [a, b]; exact ih.2 t

/-- **C118** What the finished calls of a thread did, whatever the other threads do
meanwhile: every message was delivered exactly once, to the kernel, to a function that the
program installed, or to nobody if the device could not be opened; then a copy of it was
printed exactly if `ULOG_STDERR` is set or nobody got it, and it is not binary. -/
theorem C118_once (h : Reach E own s) (hi : s.pc t = .idle) : Calls E t (mine t s.tr) := by
  have := h.local.2 t
  rw [hi] at this
  exact this

/-- **C118** So it is at the end of each call, too. -/
theorem C118_done (h : Reach E own s) {post pre : List Ev} (hd : s.tr = post ++ .done t m :: pre) :
    ∃ d r, Delivers t m d ∧ Calls E t r ∧ mine t pre = copies E t m d ++ d :: .begin t m :: r := by
  obtain ⟨s0, u, h0, h1, rfl, h2⟩ := h.event hd
  have := h0.local.2 u
  rw [h2, h1] at this
  have hc := Given.done this
  generalize mine u pre = l at hc
  cases hc with
  | msg a b => exact ⟨_, _, b, a, rfl⟩

/-- **C118** With `ULOG_STDERR`, every message that is not binary is printed, too. -/
theorem C118_copied (h : Reach E own s) {post pre : List Ev} (hd : s.tr = post ++ .done t m :: pre) (hE : E.stderr = true) (hb : m.bin = false) :
    ∃ r, mine t pre = .copy t m :: r := by
  obtain ⟨d, r, _, _, h3⟩ := C118_done h hd
  rw [h3, copies, if_pos ⟨hb, .inl hE⟩]
  exact ⟨_, rfl⟩

/-- **C118** `ulog_get_write_func` gives a function, and never the one that initialises; with
`ULOG_STDERR` it is not the wrapper either. -/
theorem C118_get (h : Reach E own s) {post pre : List Ev} {f : Option Wf} (hd : s.tr = post ++ .got t f :: pre) :
    ∃ g, f = some g ∧ g ≠ .init ∧ (E.stderr = true → ∀ c, g ≠ .wrap c) := by
  obtain ⟨s0, u, h0, h1, rfl, h2⟩ := h.event hd
  have := h0.local.2 u
  rw [h2] at this
  obtain ⟨-, g, a, b, c⟩ := this
  exact ⟨g, a, b, fun e k x => by rw [x] at c; exact absurd (c e) (by simp [baseWf])⟩

/-! ### Who gets a message -/

/-- Why a function may get messages. -/
def Src (tr : List Ev) : Wf → Prop
  | .custom k => .installed (.custom k) ∈ tr
  | .null => ∃ p, .openFailed p ∈ tr
  | _ => True

def SrcPc (tr : List Ev) : Pc → Prop
  | .run f _ _ | .iW2 f _ | .iW f _ => Src tr f
  | _ => True

theorem Src.mono {tr tr' : List Ev} (h : ∀ e, e ∈ tr → e ∈ tr') {f : Wf} (hf : Src tr f) : Src tr' f := by
  cases f with
  | custom k => exact h _ hf
  | null => exact hf.imp fun _ => h _
  | _ => trivial

theorem SrcPc.mono {tr tr' : List Ev} (h : ∀ e, e ∈ tr → e ∈ tr') {p : Pc} (hf : SrcPc tr p) : SrcPc tr' p := by
  cases p <;> first | trivial | exact Src.mono h hf

structure Sourced (s : State) : Prop where
  w : Src s.tr s.writer
  w2 : ∀ g, s.writer2 = some g → Src s.tr g
  pc : ∀ t, SrcPc s.tr (s.pc t)

theorem step_grows (hs : step E u ch s = some s') : ∀ e, e ∈ s.tr → e ∈ s'.tr := by
  intro e he
  rcases step_tr hs with h | ⟨x, h, _⟩
  · rw [h]; exact he
  · rw [h]; exact List.mem_cons_of_mem _ he

theorem sourced_step (hi : Inv s) (hs : step E u ch s = some s') (h : Sourced s) : Sourced s' := by
  have hm := step_grows hs
  obtain ⟨h1, h2, h3⟩ := h
  have h3u := h3 u
  suffices hh : Src s'.tr s'.writer ∧ (∀ g, s'.writer2 = some g → Src s'.tr g) ∧ SrcPc s'.tr (s'.pc u) by
    refine ⟨hh.1, hh.2.1, fun t => ?_⟩
    by_cases ht : t = u
    · rw [ht]; exact hh.2.2
    · rw [(step_other hs ht).1]; exact (h3 t).mono hm
  have h1' := h1.mono hm
  have h2' := fun g hg => (h2 g hg).mono hm
  have h3' := h3u.mono hm
  have hT := hi.thread u
  unfold State.Thread at hT
  clear h3
  unfold step at hs
  split at hs <;> (try split at hs) <;> (try (cases hs; done)) <;> cases hs
  all_goals first
    | (refine ⟨h1', h2', ?_⟩; simp_all [SrcPc, Src, State.at, State.ev, State.setFile]; done)
    | (refine ⟨h1', h2', ?_⟩; simp only [State.at, State.ev, State.setFile, if_pos]; split <;> simp_all [SrcPc, Src]; done)
    | (simp_all [SrcPc, Src, State.at, State.ev]; done)
    | skip
  rename_i hp
  rw [hp] at hT
  refine ⟨?_, h2', by simp [SrcPc, State.at, State.ev]⟩
  rcases hT.2 with ⟨f, rfl⟩ | ⟨c, f, rfl, _⟩
  · exact List.mem_cons_self
  · trivial

theorem Reach.sourced (h : Reach E own s) : Sourced s := by
  induction h with
  | start => exact ⟨trivial, fun g hg => by simp [State.start] at hg, fun t => trivial⟩
  | step u ch h0 hs ih => exact sourced_step h0.inv hs ih

/-- **C118** A function gets a message only if the program installed it. -/
theorem C118_custom (h : Reach E own s) {post pre : List Ev} {f : Nat} (hd : s.tr = post ++ .custom t m f :: pre) : .installed (.custom f) ∈ pre := by
  obtain ⟨s0, u, h0, h1, rfl, n, h2⟩ := h.event hd
  have := h0.sourced.pc u
  rw [h2, h1] at this
  exact this

/-- **C118** Nobody gets a message only if a device could not be opened. -/
theorem C118_null (h : Reach E own s) {post pre : List Ev} (hd : s.tr = post ++ .null t m :: pre) : ∃ p, .openFailed p ∈ pre := by
  obtain ⟨s0, u, h0, h1, rfl, n, h2⟩ := h.event hd
  have := h0.sourced.pc u
  rw [h2, h1] at this
  exact this

/-- **C118** So without functions of the program, and as long as each device can be opened,
every message is written to a device. -/
theorem C118_written (h : Reach E own s) {post pre : List Ev} (hd : s.tr = post ++ .done t m :: pre) (hf : ∀ f, .installed f ∉ pre)
    (ho : ∀ p, .openFailed p ∉ pre) : ∃ to dirty, .wrote t m to dirty ∈ pre := by
  obtain ⟨d, r, h1, h2, h3⟩ := C118_done h hd
  have hmem : d ∈ pre := by
    have : d ∈ mine t pre := by rw [h3]; simp
    exact (List.mem_filter.1 this).1
  have hin := List.append_of_mem hmem
  obtain ⟨a, b, hab⟩ := hin
  have hsub : ∀ e, e ∈ b → e ∈ pre := fun e he => by rw [hab]; simp [he]
  cases h1 with
  | wrote to d => exact ⟨_, _, hmem⟩
  | custom f =>
    have := C118_custom (t := t) (m := m) h (post := post ++ .done t m :: a) (pre := b) (f := f) (by rw [hd, hab]; simp)
    exact absurd (hsub _ this) (hf _)
  | null =>
    obtain ⟨p, this⟩ := C118_null (t := t) (m := m) h (post := post ++ .done t m :: a) (pre := b) (by rw [hd, hab]; simp)
    exact absurd (hsub _ this) (ho _)

/-! ### How often the device is opened -/

def opensIn (tr : List Ev) : Nat := tr.countP fun e => match e with | .opened .. | .openFailed _ => true | _ => false

def resetsIn (tr : List Ev) : Nat := tr.count .reset

theorem writer_init (hi : Inv s) (hs : step E u ch s = some s') (hw : s'.writer = .init) : s.writer = .init ∨ s'.tr = .reset :: s.tr := by
  have hT := hi.thread u
  unfold State.Thread at hT
  unfold step at hs
  split at hs <;> (try split at hs) <;> (try (cases hs; done)) <;> cases hs <;> first
    | exact .inl hw
    | exact .inr rfl
    | (simp_all [State.AtPc, State.at, State.ev]; done)
    | (split at hw <;> exact .inl hw)

theorem opens_kept (hi : Inv s) (hs : step E u ch s = some s') (ho : (s.pc u).opens = true) : (s'.pc u).opens = true ∨ s'.writer ≠ .init := by
  have hT := hi.thread u
  unfold State.Thread at hT
  unfold step at hs
  cases hp : s.pc u <;> rw [hp] at ho hs hT <;> first | (cases ho; done) | skip
  · cases ch <;> simp only [reduceCtorEq, Option.some.injEq] at hs
    subst hs
    left
    simp [State.at, Pc.opens]
  · cases ch <;> simp only [reduceCtorEq, Option.some.injEq] at hs
    subst hs
    exact .inr hT.2.2.1

structure Counted (s : State) : Prop where
  all : opensIn s.tr ≤ resetsIn s.tr + 1
  idle : s.writer = .init → (∀ t, (s.pc t).opens = false) → opensIn s.tr ≤ resetsIn s.tr

theorem counted_step (hi : Inv s) (hs : step E u ch s = some s') (h : Counted s) : Counted s' := by
  obtain ⟨h1, h2⟩ := h
  have keep : opensIn s'.tr = opensIn s.tr → resetsIn s'.tr = resetsIn s.tr → s'.tr ≠ .reset :: s.tr → Counted s' := by
    intro a b c
    refine ⟨by omega, fun hw ho => ?_⟩
    rw [a, b]
    refine h2 ((writer_init hi hs hw).resolve_right c) fun t => ?_
    by_cases ht : t = u
    · subst ht
      cases hq : (s.pc t).opens with
      | false => rfl
      | true =>
        rcases opens_kept hi hs hq with x | x
        · rw [ho t] at x; cases x
        · exact absurd hw x
    · rw [← (step_other hs ht).1]; exact ho t
  have others : ∀ k, s.pc u = .iOpen k → opensIn s.tr ≤ resetsIn s.tr ∧ (s'.pc u).opens = true := by
    intro k hp
    have hT := hi.thread u
    unfold State.Thread at hT
    rw [hp] at hT
    refine ⟨h2 hT.2.1 fun t => ?_, ?_⟩
    · cases hq : (s.pc t).opens with
      | false => rfl
      | true =>
        have e1 := (hi.lock t).1 (by cases hh : s.pc t <;> rw [hh] at hq <;> first | (cases hq; done) | rfl)
        have e2 := (hi.lock u).1 (by rw [hp]; rfl)
        rw [e1] at e2; cases e2
        rw [hp] at hq; cases hq
    · unfold step at hs
      rw [hp] at hs
      cases ch <;> try (cases hs; done)
      rename_i o
      cases o with
      | none => simp only [Option.some.injEq] at hs; subst hs; simp [State.at, State.ev, Pc.opens]
      | some n =>
        simp only at hs
        split at hs
        · simp only [Option.some.injEq] at hs; subst hs
          cases E.stderr <;> simp [State.at, State.ev, Pc.opens]
        · cases hs
  rcases step_tr hs with e | ⟨e, h3, h4⟩
  · refine keep (by rw [e]) (by rw [e]) ?_
    rw [e]
    intro x
    have := congrArg List.length x
    simp at this
  · cases e with
    | opened p n =>
      obtain ⟨-, -, k, hp⟩ := h4
      obtain ⟨a, b⟩ := others k hp
      refine ⟨?_, fun _ ho => by rw [ho u] at b; cases b⟩
      rw [h3]; simp [opensIn, resetsIn] at a ⊢; omega
    | openFailed p =>
      obtain ⟨-, k, hp⟩ := h4
      obtain ⟨a, b⟩ := others k hp
      refine ⟨?_, fun _ ho => by rw [ho u] at b; cases b⟩
      rw [h3]; simp [opensIn, resetsIn] at a ⊢; omega
    | reset =>
      have a : opensIn s'.tr = opensIn s.tr := by rw [h3]; simp [opensIn]
      have b : resetsIn s'.tr = resetsIn s.tr + 1 := by rw [h3]; simp [resetsIn]
      exact ⟨by omega, fun _ _ => by omega⟩
    | _ =>
      refine keep ?_ ?_ ?_
      · rw [h3]; simp [opensIn]
      · rw [h3]; simp [resetsIn]
      · rw [h3]; simp

theorem Reach.counted (h : Reach E own s) : Counted s := by
  induction h with
  | start => exact ⟨by simp [opensIn, State.start], fun _ _ => by simp [opensIn, State.start]⟩
  | step u ch h0 hs ih => exact counted_step h0.inv hs ih

/-- **C118** However many threads send the first message at the same time, the device is
opened once; later once for each change of the device, at most. -/
theorem C118_opens (h : Reach E own s) : opensIn s.tr ≤ resetsIn s.tr + 1 := h.counted.all

/-- **C118** It is opened, or this is tried, before a message is written (away from changes of
the device) or dropped. -/
theorem C118_opened (h : Reach E own s) (hw : (∃ to, .wrote t m to false ∈ s.tr) ∨ .null t m ∈ s.tr) : 1 ≤ opensIn s.tr := by
  have key : ∀ e : Ev, e ∈ s.tr → (match e with | .opened .. | .openFailed _ => true | _ => false) = true → 1 ≤ opensIn s.tr := fun e he hp =>
    List.countP_pos_iff.2 ⟨e, he, hp⟩
  rcases hw with ⟨to, hw⟩ | hw
  · obtain ⟨post, pre, e⟩ := List.append_of_mem hw
    obtain ⟨p, n, a, b, _, h2, _⟩ := C118_device h e
    exact key (.opened p n) (by rw [e, h2]; simp) rfl
  · obtain ⟨post, pre, e⟩ := List.append_of_mem hw
    obtain ⟨p, h2⟩ := C118_null h e
    exact key (.openFailed p) (by rw [e]; simp [h2]) rfl

/-! ### Descriptors -/

/-- What `ctrl.fd` has to do with the open devices. -/
def Held (s : State) : Prop := ∀ n p, s.files n = some (.dev p) → n = 0 ∨ (s.fd = some n ∧ ∀ t, s.pc t ≠ .dMinus)

theorem step_fields (hs : step E u ch s = some s') : (∃ k, s.pc u = .iOpen k) ∨ (∃ k, s.pc u = .dClose k) ∨ s.pc u = .dMinus ∨ s.pc u = .idle ∨
    (s'.files = s.files ∧ s'.fd = s.fd ∧ s'.pc u ≠ .dMinus) := by
  unfold step at hs
  split at hs <;> (try split at hs) <;> (try (cases hs; done)) <;> cases hs <;> first
    | (simp_all [State.at, State.ev]; done)
    | (refine .inr (.inr (.inr (.inr ⟨?_, ?_, ?_⟩))) <;> split <;> simp_all [State.at])

theorem held_step (hi : Inv s) (hs : step E u ch s = some s') (h : Held s) : Held s' := by
  have hT := hi.thread u
  unfold State.Thread at hT
  -- nothing about descriptors changes
  have keep : s'.files = s.files → s'.fd = s.fd → (s'.pc u = .dMinus → s.pc u = .dMinus) → Held s' := by
    intro a b c n p hf
    rw [a] at hf
    rcases h n p hf with x | ⟨x, y⟩
    · exact .inl x
    · refine .inr ⟨b ▸ x, fun t ht => ?_⟩
      by_cases e : t = u
      · subst e; exact y t (c ht)
      · rw [(step_other hs e).1] at ht; exact y t ht
  cases hp : s.pc u with
  | iOpen k =>
    rw [hp] at hT
    have hs0 := hs
    unfold step at hs
    rw [hp] at hs
    have hno : ∀ t, s.pc t ≠ .dMinus := by
      intro t ht
      have e1 := (hi.lock t).1 (by rw [ht]; rfl)
      have e2 := (hi.lock u).1 (by rw [hp]; rfl)
      rw [e1] at e2; cases e2
      rw [hp] at ht; cases ht
    have h0 : ∀ n p, s.files n = some (.dev p) → n = 0 := by
      intro n p hf
      rcases h n p hf with x | ⟨x, _⟩
      · exact x
      · rcases hT.2.2 with y | y <;> rw [x] at y
        · cases y
        · exact Option.some.inj y
    cases ch <;> try (cases hs; done)
    rename_i o
    cases o with
    | none =>
      simp only [Option.some.injEq] at hs; subst hs
      exact fun n p hf => .inl (h0 n p hf)
    | some k =>
      simp only at hs
      split at hs
      · simp only [Option.some.injEq] at hs; subst hs
        intro n p hf
        by_cases e : n = k
        · subst e
          refine .inr ⟨rfl, fun t => ?_⟩
          by_cases et : t = u
          · subst et
            simp only [State.at, State.ev, if_pos]
            split <;> simp
          · rw [(step_other hs0 et).1]; exact hno t
        · refine .inl (h0 n p ?_)
          have : (if n = k then _ else s.files n) = some (Target.dev p) := hf
          rw [if_neg e] at this; exact this
      · cases hs
  | dClose k =>
    rw [hp] at hT
    unfold step at hs
    rw [hp] at hs
    cases ch <;> simp only [reduceCtorEq, Option.some.injEq] at hs
    subst hs
    intro n p hf
    have hf : (if n = k then none else s.files n) = some (Target.dev p) := hf
    split at hf
    · cases hf
    · rename_i e
      rcases h n p hf with x | ⟨x, _⟩
      · exact .inl x
      · rw [hT.2.1] at x; exact absurd (Option.some.inj x).symm e
  | dMinus =>
    unfold step at hs
    rw [hp] at hs
    cases ch <;> simp only [reduceCtorEq, Option.some.injEq] at hs
    subst hs
    intro n p hf
    rcases h n p hf with x | ⟨_, y⟩
    · exact .inl x
    · exact absurd hp (y u)
  | idle =>
    have hs0 := hs
    unfold step at hs
    rw [hp] at hs
    cases ch <;> simp only [reduceCtorEq, Option.some.injEq] at hs
    · subst hs; exact keep rfl rfl fun x => by simp [State.at, State.ev] at x
    · split at hs
      · simp only [Option.some.injEq] at hs; subst hs; exact keep rfl rfl fun x => by simp [State.at] at x
      · cases hs
    · subst hs; exact keep rfl rfl fun x => by simp [State.at] at x
    · subst hs; exact keep rfl rfl fun x => by simp [State.at] at x
    all_goals
      split at hs
      · simp only [Option.some.injEq] at hs; subst hs
        intro n p hf
        refine h n p ?_
        have hf : (if n = _ then _ else s.files n) = some (Target.dev p) := hf
        split at hf
        · cases hf
        · exact hf
      · cases hs
  | _ =>
    rcases step_fields hs with ⟨k, e⟩ | ⟨k, e⟩ | e | e | ⟨a, b, c⟩
    · rw [hp] at e; cases e
    · rw [hp] at e; cases e
    · rw [hp] at e; cases e
    · rw [hp] at e; cases e
    · exact keep a b fun x => absurd x c

theorem Reach.held (h : Reach E own s) : Held s := by
  induction h with
  | start =>
    intro n p hf
    simp [State.start] at hf
  | step u ch h0 hs ih => exact held_step h0.inv hs ih

/-- **C118** The only descriptors of devices are `ctrl.fd` and perhaps 0: no other stays
open. -/
theorem C118_descriptors (h : Reach E own s) {n : Nat} {p : Bytes} (hf : s.files n = some (.dev p)) : n = 0 ∨ s.fd = some n :=
  (h.held n p hf).imp id And.left

/-! ### Progress -/

/-- **C118** No thread calls a null pointer. -/
theorem C118_safe (h : Reach E own s) : s.pc t ≠ .crash := by
  intro hp
  have hT := h.inv.thread t
  unfold State.Thread at hT
  rw [hp] at hT; exact hT

/-- How many steps the thread that has the lock needs at most to give it back. -/
def Pc.steps : Pc → Nat
  | .iCheck .. | .gCheck => 6
  | .iOpen _ => 5
  | .iW2 .. => 4
  | .iW .. => 3
  | .gRead => 2
  | .dStore _ => 7
  | .dTest => 6
  | .dFd => 5
  | .dClose _ => 4
  | .dMinus => 3
  | .dInit => 2
  | .sW2 _ => 3
  | .sW _ => 2
  | .iUnlock .. | .gUnlock _ | .dUnlock | .sUnlock => 1
  | _ => 0

theorem holder_steps (h : (s.pc t).holds = true) : ∃ ch s', step E t ch s = some s' := by
  cases hp : s.pc t <;> rw [hp] at h <;> first
    | (cases h; done)
    | exact ⟨.go, by unfold step; rw [hp]; exact ⟨_, rfl⟩⟩
    | exact ⟨.opens none, by unfold step; rw [hp]; exact ⟨_, rfl⟩⟩
    | exact ⟨.memory true, by unfold step; rw [hp]; exact ⟨_, rfl⟩⟩
    | exact ⟨.go, by unfold step; rw [hp]; dsimp only; split <;> exact ⟨_, rfl⟩⟩

/-- **C118** The thread that has the lock is never stuck, and gives the lock back after
seven steps of its own at most. -/
theorem C118_lock (h : Reach E own s) (hl : s.lock = some t) :
    (∃ ch s', step E t ch s = some s') ∧ (s.pc t).steps ≤ 7 ∧
      ∀ ch s', step E t ch s = some s' → (s'.pc t).steps < (s.pc t).steps ∧ ((s'.pc t).steps = 0 ↔ s'.lock = none) := by
  have hh := (h.inv.lock t).2 hl
  refine ⟨holder_steps hh, by cases s.pc t <;> simp [Pc.steps], fun ch s' hs => ?_⟩
  have hl' : s.lock ≠ none := by rw [hl]; simp
  unfold step at hs
  split at hs <;> (try split at hs) <;> (try (cases hs; done)) <;> cases hs
  all_goals first
    | (simp_all [Pc.holds]; done)
    | (simp_all [State.at, State.ev, Pc.steps]; done)
    | (simp_all [State.at, State.ev, State.setFile, Pc.steps]; split <;> simp_all [Pc.steps]; done)
    | (cases hE : E.stderr <;> simp_all [State.at, State.ev, State.setFile, Pc.steps])

/-- **C118** A thread that is in no call can begin any, in every state; a device is only
accepted if its name has at most 20 bytes. -/
theorem C118_begin (hi : s.pc t = .idle) : (∀ m, ∃ s', step E t (.log m) s = some s') ∧
    (∀ d, (∃ s', step E t (.setDevice d) s = some s') ↔ d.length ≤ 20) ∧ (∀ f, ∃ s', step E t (.setWriter f) s = some s') ∧
    ∃ s', step E t .getWriter s = some s' := by
  unfold step
  rw [hi]
  refine ⟨fun m => ⟨_, rfl⟩, fun d => ⟨fun ⟨s', h⟩ => ?_, fun h => ⟨_, if_pos (Nat.lt_succ_of_le h)⟩⟩, fun f => ⟨_, rfl⟩, _, rfl⟩
  dsimp only at h
  split at h
  · omega
  · cases h

/-- The name a thread is about to store. -/
def Pc.naming : Pc → Option Bytes
  | .dLock d | .dStore d => some d
  | _ => none

theorem step_naming {ch : Choice} {s' : State} (hs : step E t ch s = some s') :
    (∀ u, u ≠ t → s'.pc u = s.pc u) ∧ (∀ d, (s'.pc t).naming = some d → (s.pc t).naming = some d ∨ d.length ≤ 20) ∧
    (∀ d, .device (some d) ∈ s'.tr → .device (some d) ∈ s.tr ∨ (s.pc t).naming = some d) := by
  unfold step at hs
  split at hs <;> (try split at hs) <;> (try (cases hs; done)) <;> cases hs
  all_goals
    refine ⟨fun u hu => by simp [State.at, State.ev, State.setFile, hu], ?_, ?_⟩
  all_goals
    simp_all [State.at, State.ev, State.setFile, Pc.naming]
  all_goals first
    | omega
    | (cases hE : E.stderr <;> simp [Pc.naming]; done)
    | (cases hE : E.stderr <;> simp; done)
    | (intro d hd; exfalso; revert hd; split <;> (try simp; done) <;> (rename_i he; split at he <;> simp at he))
    | (intro d hd; split at hd <;> simp_all; done)

/-- **C118** So what is opened after a name was stored is `/dev/ulog_` with the whole name. -/
theorem C118_named (h : Reach E own s) {d : Bytes} (hd : .device (some d) ∈ s.tr) :
    d.length ≤ 20 ∧ E.path (some d) = ascii "/dev/ulog_" ++ d := by
  have key : (∀ u d, (s.pc u).naming = some d → d.length ≤ 20) ∧ ∀ d, .device (some d) ∈ s.tr → d.length ≤ 20 := by
    clear hd
    induction h with
    | start => exact ⟨fun u d h => by simp [State.start, Pc.naming] at h, fun d h => by simp [State.start] at h⟩
    | step t ch _ hs ih =>
      obtain ⟨h1, h2, h3⟩ := step_naming hs
      refine ⟨fun u d hu => ?_, fun d hd => ?_⟩
      · by_cases e : u = t
        · subst e
          rcases h2 d hu with h | h
          · exact ih.1 u d h
          · exact h
        · rw [h1 u e] at hu
          exact ih.1 u d hu
      · rcases h3 d hd with h | h
        · exact ih.2 d h
        · exact ih.1 t d h
  have := key.2 d hd
  refine ⟨this, ?_⟩
  show (ascii "/dev/ulog_" ++ d).take 31 = _
  rw [List.take_of_length_le]
  rw [List.length_append, show (ascii "/dev/ulog_").length = 10 by decide]
  omega

/-- **C118** No deadlock: a thread that is in a call can go on, or the thread that has the
lock can. -/
theorem C118_progress (h : Reach E own s) (hb : s.pc t ≠ .idle) :
    (∃ ch s', step E t ch s = some s') ∨ ∃ u, s.lock = some u ∧ ∃ ch s', step E u ch s = some s' := by
  by_cases hl : s.lock = none
  · left
    cases hp : s.pc t with
    | idle => exact absurd hp hb
    | crash => exact absurd hp (C118_safe h)
    | run f m n => 
      refine ⟨.go, ?_⟩
      unfold step; rw [hp]
      cases f <;> first | exact ⟨_, rfl⟩ | (dsimp only; split <;> exact ⟨_, rfl⟩)
    | after m n =>
      refine ⟨.go, ?_⟩
      unfold step; rw [hp]
      cases n <;> exact ⟨_, rfl⟩
    | _ => first
      | exact ⟨.go, by unfold step; rw [hp]; exact ⟨_, rfl⟩⟩
      | exact ⟨.go, by unfold step; rw [hp]; exact ⟨_, if_pos hl⟩⟩
      | exact holder_steps (by rw [hp]; rfl)
  · cases hk : s.lock with
    | none => exact absurd hk hl
    | some u => exact .inr ⟨u, rfl, holder_steps ((h.inv.lock u).2 hk)⟩

/-! ### What does not hold -/

/-- A run: which thread, what happens. -/
def runs (E : Envir) (s : State) : List (Tid × Choice) → Option State
  | [] => some s
  | (t, ch) :: r =>
    match step E t ch s with
    | none => none
    | some s' => runs E s' r

theorem Reach.runs {l : List (Tid × Choice)} : ∀ {s s' : State}, Reach E own s → ConcW.runs E s l = some s' → Reach E own s' := by
  induction l with
  | nil => intro s s' h hr; cases hr; exact h
  | cons x l ih =>
    obtain ⟨t, ch⟩ := x
    intro s s' h hr
    unfold ConcW.runs at hr
    split at hr
    · cases hr
    · rename_i s1 hs
      exact ih (.step t ch h hs) hr

def plainE : Envir := ⟨false, false, none⟩

/-- Thread 0 sends a message as far as the call of `writev` on descriptor 3. -/
def toWrite (m : Msg) : List (Tid × Choice) :=
  [(0, .log m), (0, .go), (0, .go), (0, .go), (0, .go), (0, .opens (some 3)), (0, .go), (0, .go), (0, .go), (0, .go)]

/-- Thread 1 sets another device. -/
def setX : List (Tid × Choice) :=
  [(1, .setDevice (ascii "x")), (1, .go), (1, .memory true), (1, .go), (1, .go), (1, .go), (1, .go), (1, .go), (1, .go)]

/-- A thread that sets the device closes the descriptor under another that is about to
write; the program opens a file that gets the same number, and the message goes there. -/
theorem C118_false_foreign : ∃ s, Reach plainE (fun _ => none) s ∧ s.tr.head? = some (.wrote 0 ⟨7, false⟩ (some (.other 5)) true) := by
  have h : ((runs plainE (.start fun _ => none) (toWrite ⟨7, false⟩ ++ setX ++ [(2, .otherOpen 3 5), (0, .go)])).map fun s => s.tr.head?) =
      some (some (.wrote 0 ⟨7, false⟩ (some (.other 5)) true)) := by decide +kernel
  rw [Option.map_eq_some_iff] at h
  obtain ⟨s, a, b⟩ := h
  exact ⟨s, .runs .start a, b⟩

/-- Or the message is lost. -/
theorem C118_false_lost : ∃ s, Reach plainE (fun _ => none) s ∧ s.tr.head? = some (.wrote 0 ⟨7, false⟩ none true) := by
  have h : ((runs plainE (.start fun _ => none) (toWrite ⟨7, false⟩ ++ setX ++ [(0, .go)])).map fun s => s.tr.head?) =
      some (some (.wrote 0 ⟨7, false⟩ none true)) := by decide +kernel
  rw [Option.map_eq_some_iff] at h
  obtain ⟨s, a, b⟩ := h
  exact ⟨s, .runs .start a, b⟩

/-- A device that was opened as descriptor 0 stays open when another is set. -/
theorem C118_false_zero : ∃ s, Reach plainE (fun _ => none) s ∧ s.fd = some 3 ∧ s.files 3 = some (.dev (ascii "/dev/ulog_x")) ∧
    s.files 0 = some (.dev (ascii "/dev/ulog_main")) := by
  have h : ((runs plainE (.start fun _ => none)
      ([(0, .log ⟨7, false⟩), (0, .go), (0, .go), (0, .go), (0, .go), (0, .opens (some 0)), (0, .go), (0, .go), (0, .go), (0, .go), (0, .go), (0, .go)] ++
        [(1, .setDevice (ascii "x")), (1, .go), (1, .memory true), (1, .go), (1, .go), (1, .go), (1, .go)] ++ toWrite ⟨8, false⟩)).map
        fun s => (s.fd, s.files 3, s.files 0)) =
      some (some 3, some (.dev (ascii "/dev/ulog_x")), some (.dev (ascii "/dev/ulog_main"))) := by decide +kernel
  rw [Option.map_eq_some_iff] at h
  obtain ⟨s, a, b⟩ := h
  simp only [Prod.mk.injEq] at b
  exact ⟨s, .runs .start a, b.1, b.2.1, b.2.2⟩

/-- If a call of `ulog_set_log_device` runs out of memory, the name is forgotten, but
messages still go to the device that was set before. -/
theorem C118_false_memory : ∃ s, Reach plainE (fun _ => none) s ∧ s.tr.head? = some (.wrote 0 ⟨8, false⟩ (some (.dev (ascii "/dev/ulog_x"))) false) ∧
    named s.tr = none := by
  have h : ((runs plainE (.start fun _ => none)
      ([(1, .setDevice (ascii "x")), (1, .go), (1, .memory true), (1, .go), (1, .go)] ++ toWrite ⟨7, false⟩ ++ [(0, .go), (0, .go)] ++
        [(1, .setDevice (ascii "y")), (1, .go), (1, .memory false), (1, .go), (0, .log ⟨8, false⟩), (0, .go), (0, .go), (0, .go)])).map
        fun s => (s.tr.head?, named s.tr)) =
      some (some (.wrote 0 ⟨8, false⟩ (some (.dev (ascii "/dev/ulog_x"))) false), none) := by decide +kernel
  rw [Option.map_eq_some_iff] at h
  obtain ⟨s, a, b⟩ := h
  simp only [Prod.mk.injEq] at b
  exact ⟨s, .runs .start a, b.1, b.2⟩

end Verif.Libulog.ConcW
