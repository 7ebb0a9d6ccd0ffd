import Verif.Ulogcat.Follow

/-!
# Two worlds that do the same

If two worlds give the same answers as long as their states are related, the
reading loop does the same with both, and the states stay related. With a world
and itself, this says what stays true of its state.
-/
namespace Verif.Ulogcat

variable {σ τ : Type}

structure Sim (W : World σ) (V : World τ) (R : σ → τ → Prop) : Prop where
  poll : ∀ {s t}, R s t → ∀ a, (W.poll s a).1 = (V.poll t a).1 ∧ R (W.poll s a).2 (V.poll t a).2
  recv : ∀ {s t}, R s t → ∀ i, (W.recv s i).1 = (V.recv t i).1 ∧ R (W.recv s i).2 (V.recv t i).2
  output : ∀ {s t}, R s t → ∀ e, (W.output s e).1 = (V.output t e).1 ∧ R (W.output s e).2 (V.output t e).2

/-- The same for relations that also speak of what was output and whether an output
failed. -/
structure SimO (W : World σ) (V : World τ) (R : List OutEv → Bool → σ → τ → Prop) : Prop where
  poll : ∀ {o b s t}, R o b s t → ∀ a, (W.poll s a).1 = (V.poll t a).1 ∧ R o b (W.poll s a).2 (V.poll t a).2
  recv : ∀ {o b s t}, R o b s t → ∀ i, (W.recv s i).1 = (V.recv t i).1 ∧ R o b (W.recv s i).2 (V.recv t i).2
  output : ∀ {o s t}, R o false s t → ∀ e, (W.output s e).1 = (V.output t e).1 ∧
    ((W.output s e).1 = true → R (o ++ [e]) false (W.output s e).2 (V.output t e).2) ∧
    ((W.output s e).1 = false → R o true (W.output s e).2 (V.output t e).2)

/-- The same outcome, with related states. -/
def SameO (R : List OutEv → Bool → σ → τ → Prop) : Except CFault (Ctx × σ) → Except CFault (Ctx × τ) → Prop
  | .ok x, .ok y => x.1 = y.1 ∧ R x.1.out x.1.outErr x.2 y.2
  | .error e, .error e' => e = e'
  | _, _ => False

/-- The same outcome and value, with related states. -/
def SameVO {α : Type} (R : List OutEv → Bool → σ → τ → Prop) : Except CFault (Ctx × σ × α) → Except CFault (Ctx × τ × α) → Prop
  | .ok x, .ok y => x.1 = y.1 ∧ R x.1.out x.1.outErr x.2.1 y.2.1 ∧ x.2.2 = y.2.2
  | .error e, .error e' => e = e'
  | _, _ => False

variable {W : World σ} {V : World τ} {R : List OutEv → Bool → σ → τ → Prop}

theorem SameO.bind {x : Except CFault (Ctx × σ)} {y : Except CFault (Ctx × τ)} (h : SameO R x y)
    {f : Ctx × σ → Except CFault (Ctx × σ)} {g : Ctx × τ → Except CFault (Ctx × τ)}
    (hf : ∀ c s t, R c.out c.outErr s t → SameO R (f (c, s)) (g (c, t))) : SameO R (x.bind f) (y.bind g) := by
  cases x with
  | error e => cases y with
    | error e' => exact h
    | ok y => exact h.elim
  | ok x => cases y with
    | error e' => exact h.elim
    | ok y =>
      obtain ⟨c, s⟩ := x
      obtain ⟨c', t⟩ := y
      obtain ⟨h1, h2⟩ := h
      cases h1
      exact hf c s t h2

theorem SimO.out (S : SimO W V R) (c : Ctx) {s t} (h : R c.out c.outErr s t) (e : OutEv) :
    (Ulogcat.output W c s e).1 = (Ulogcat.output V c t e).1 ∧
      R (Ulogcat.output W c s e).1.out (Ulogcat.output W c s e).1.outErr (Ulogcat.output W c s e).2 (Ulogcat.output V c t e).2 := by
  unfold Ulogcat.output
  split
  · exact ⟨rfl, h⟩
  · rename_i hb
    have hb : c.outErr = false := by simpa using hb
    rw [hb] at h
    have h1 := S.output h e
    generalize W.output s e = x at h1
    generalize V.output t e = y at h1
    obtain ⟨b, s'⟩ := x
    obtain ⟨b', t'⟩ := y
    obtain ⟨h2, h3, h4⟩ := h1
    cases h2
    cases b
    · exact ⟨rfl, h4 rfl⟩
    · refine ⟨rfl, ?_⟩
      show R (c.out ++ [e]) c.outErr s' t'
      rw [hb]
      exact h3 rfl

theorem SimO.banner (S : SimO W V R) (c : Ctx) {s t} (h : R c.out c.outErr s t) (f : Frame) (d : Dev) :
    (flushBanner W c s f d).1 = (flushBanner V c t f d).1 ∧
      R (flushBanner W c s f d).1.out (flushBanner W c s f d).1.outErr (flushBanner W c s f d).2 (flushBanner V c t f d).2 := by
  unfold flushBanner
  split
  · have h1 := S.out c h (.banner f.dev f.stamp)
    exact ⟨by dsimp only; rw [h1.1], h1.2⟩
  · exact ⟨rfl, h⟩

theorem SimO.frame (S : SimO W V R) (c : Ctx) {s t} (h : R c.out c.outErr s t) (f : Frame) :
    SameO R (flushFrame W c s f) (flushFrame V c t f) := by
  unfold flushFrame
  split
  · rfl
  · rename_i d _
    have h1 := S.banner c h f d
    generalize flushBanner W c s f d = x at h1
    generalize flushBanner V c t f d = y at h1
    obtain ⟨c1, s1⟩ := x
    obtain ⟨c2, t1⟩ := y
    obtain ⟨h2, h3⟩ := h1
    cases h2
    unfold flushEntry
    split
    · exact S.out c1 h3 (.entry f)
    · exact ⟨rfl, h3⟩

theorem SimO.unless (S : SimO W V R) (drop : Bool) (c : Ctx) {s t} (h : R c.out c.outErr s t) (f : Frame) :
    SameO R (flushUnless W drop c s f) (flushUnless V drop c t f) := by
  unfold flushUnless
  split
  · exact ⟨rfl, h⟩
  · exact S.frame c h f

theorem SimO.renderFrame (S : SimO W V R) (drop : Bool) (c : Ctx) {s t} (h : R c.out c.outErr s t) :
    SameO R (flushRenderFrame W drop c s) (flushRenderFrame V drop c t) := by
  unfold flushRenderFrame
  split
  · split
    · rfl
    · rename_i f q _
      exact SameO.bind (S.unless drop c h f) fun c s t h => ⟨rfl, h⟩
  · exact ⟨rfl, h⟩

theorem SimO.pendingFrame (S : SimO W V R) (drop : Bool) (c : Ctx) {s t} (h : R c.out c.outErr s t) :
    SameO R (flushPendingFrame W drop c s) (flushPendingFrame V drop c t) := by
  unfold flushPendingFrame
  split
  · split
    · rfl
    · rename_i f q _
      exact SameO.bind (S.unless drop c h f) fun c s t h => ⟨rfl, h⟩
  · exact ⟨rfl, h⟩

theorem SimO.renderQueue (S : SimO W V R) (n : Nat) : ∀ (c : Ctx) {s t}, R c.out c.outErr s t →
    SameO R (flushRenderQueue W n c s) (flushRenderQueue V n c t) := by
  induction n with
  | zero =>
    intro c s t h
    unfold flushRenderQueue
    split
    · rfl
    · exact ⟨rfl, h⟩
  | succ n ih =>
    intro c s t h
    unfold flushRenderQueue
    split
    · exact SameO.bind (S.renderFrame false c h) fun c s t h => ih c h
    · exact ⟨rfl, h⟩

theorem SimO.pendingQueue (S : SimO W V R) (n : Nat) : ∀ (c : Ctx) {s t}, R c.out c.outErr s t →
    SameO R (flushPendingQueue W n c s) (flushPendingQueue V n c t) := by
  induction n with
  | zero =>
    intro c s t h
    unfold flushPendingQueue
    split
    · rfl
    · exact ⟨rfl, h⟩
  | succ n ih =>
    intro c s t h
    unfold flushPendingQueue
    split
    · exact SameO.bind (S.pendingFrame false c h) fun c s t h => ih c h
    · exact ⟨rfl, h⟩

theorem SimO.excess (S : SimO W V R) (n : Nat) : ∀ (c : Ctx) {s t}, R c.out c.outErr s t →
    SameO R (dropExcess W n c s) (dropExcess V n c t) := by
  induction n with
  | zero =>
    intro c s t h
    unfold dropExcess
    split
    · rfl
    · exact ⟨rfl, h⟩
  | succ n ih =>
    intro c s t h
    unfold dropExcess
    by_cases h1 : c.render + c.pending > c.tail
    · rw [if_pos h1, if_pos h1]
      by_cases h2 : c.render > 0
      · rw [if_pos h2, if_pos h2]
        exact SameO.bind (S.renderFrame true c h) fun c s t h => ih c h
      · rw [if_neg h2, if_neg h2]
        by_cases h3 : c.pending > 0
        · rw [if_pos h3, if_pos h3]
          exact SameO.bind (S.pendingFrame true c h) fun c s t h => ih c h
        · rw [if_neg h3, if_neg h3]
          rfl
    · rw [if_neg h1, if_neg h1]
      exact ⟨rfl, h⟩

theorem SimO.tailFlush (S : SimO W V R) (c : Ctx) {s t} (h : R c.out c.outErr s t) :
    SameO R (tailFlush W c s) (tailFlush V c t) := by
  unfold Ulogcat.tailFlush
  split
  · exact ⟨rfl, h⟩
  · exact SameO.bind (S.excess _ c h) fun c s t h => SameO.bind (S.renderQueue _ c h) fun c s t h => ⟨rfl, h⟩

theorem SimO.devs (S : SimO W V R) (asked ready : Nat → Bool) (is : List Nat) : ∀ (c : Ctx) (n : Int) {s t}, R c.out c.outErr s t →
    (readDevs W asked ready is c s n).1 = (readDevs V asked ready is c t n).1 ∧
    R (readDevs W asked ready is c s n).1.out (readDevs W asked ready is c s n).1.outErr (readDevs W asked ready is c s n).2.1
      (readDevs V asked ready is c t n).2.1 ∧
    (readDevs W asked ready is c s n).2.2 = (readDevs V asked ready is c t n).2.2 := by
  induction is with
  | nil => intro c n s t h; exact ⟨rfl, h, rfl⟩
  | cons i is ih =>
    intro c n s t h
    unfold readDevs
    by_cases h1 : (asked i && ready i) = false
    · rw [if_pos h1, if_pos h1]
      refine ih _ n ?_
      split <;> exact h
    · rw [if_neg h1, if_neg h1]
      by_cases h2 : c.free = 0
      · rw [if_pos h2, if_pos h2]
        exact ih _ n h
      · rw [if_neg h2, if_neg h2]
        have h3 := S.recv h i
        generalize W.recv s i = x at h3
        generalize V.recv t i = y at h3
        obtain ⟨r, s1⟩ := x
        obtain ⟨r', t1⟩ := y
        obtain ⟨h4, h5⟩ := h3
        cases h4
        cases r with
        | err => exact ⟨rfl, h5, rfl⟩
        | again => exact ⟨rfl, h5, rfl⟩
        | got stamp id shown dec => exact ih _ (n + 1) h5

theorem SimO.pull (S : SimO W V R) (c : Ctx) {s t} (h : R c.out c.outErr s t) :
    SameO R (pullFrame W c s) (pullFrame V c t) := by
  unfold pullFrame
  split
  · exact ⟨rfl, h⟩
  · dsimp only
    split
    · refine ⟨rfl, ?_⟩
      unfold enqueueRender
      dsimp only
      split <;> exact h
    · exact SameO.bind (S.frame _ (by exact h) _) fun c s t h => ⟨rfl, h⟩

theorem updateMark_seen (c : Ctx) : (updateMark c).out = c.out ∧ (updateMark c).outErr = c.outErr := by
  unfold updateMark
  split
  · exact ⟨rfl, rfl⟩
  · split <;> exact ⟨rfl, rfl⟩

theorem SimO.endPass (S : SimO W V R) (c : Ctx) {s t} (h : R c.out c.outErr s t) :
    SameO R (endPass W c s) (endPass V c t) := by
  unfold Ulogcat.endPass
  exact SameO.bind (S.pull c h) fun c s t h =>
    S.tailFlush (updateMark c) (by rw [(updateMark_seen c).1, (updateMark_seen c).2]; exact h)

theorem SimO.devices (S : SimO W V R) (c : Ctx) {s t} (h : R c.out c.outErr s t) :
    SameVO R (processDevices W c s) (processDevices V c t) := by
  rw [processDevices_eq, processDevices_eq]
  generalize c.asked = asked
  have h1 := S.poll h asked
  generalize W.poll s asked = x at h1
  generalize V.poll t asked = y at h1
  obtain ⟨r, s1⟩ := x
  obtain ⟨r', t1⟩ := y
  obtain ⟨h2, h3⟩ := h1
  cases h2
  cases r with
  | intr => exact ⟨rfl, h3, rfl⟩
  | err => exact ⟨rfl, h3, rfl⟩
  | ok ready =>
    dsimp only
    have h4 := S.devs asked ready (List.range c.devs.length) c 0 h3
    generalize readDevs W asked ready (List.range c.devs.length) c s1 0 = x at h4
    generalize readDevs V asked ready (List.range c.devs.length) c t1 0 = y at h4
    obtain ⟨c1, s2, r, n⟩ := x
    obtain ⟨c2, t2, r', n'⟩ := y
    obtain ⟨h5, h6, h7⟩ := h4
    cases h5
    cases h7
    cases r with
    | some r => exact ⟨rfl, h6, rfl⟩
    | none =>
      dsimp only
      have h8 := S.endPass c1 h6
      generalize Ulogcat.endPass W c1 s2 = x at h8
      generalize Ulogcat.endPass V c1 t2 = y at h8
      cases x with
      | error e => cases y with
        | error e' => exact h8
        | ok y => exact h8.elim
      | ok x => cases y with
        | error e' => exact h8.elim
        | ok y => exact ⟨h8.1, h8.2, rfl⟩

theorem SimO.logs (S : SimO W V R) (dump : Bool) (max : Int) (fuel : Nat) : ∀ (c : Ctx) (fr : Int) {s t}, R c.out c.outErr s t →
    SameVO R (processLogs W dump max fuel c s fr) (processLogs V dump max fuel c t fr) := by
  induction fuel with
  | zero => intro c fr s t h; exact ⟨rfl, h, rfl⟩
  | succ fuel ih =>
    intro c fr s t h
    unfold processLogs
    have h1 := S.devices c h
    generalize processDevices W c s = x at h1
    generalize processDevices V c t = y at h1
    cases x with
    | error e => cases y with
      | error e' => exact h1
      | ok y => exact h1.elim
    | ok x => cases y with
      | error e' => exact h1.elim
      | ok y =>
        obtain ⟨c1, s1, r⟩ := x
        obtain ⟨c2, t1, r'⟩ := y
        obtain ⟨h2, h3, h4⟩ := h1
        cases h2
        cases h4
        dsimp only [bind, Except.bind]
        by_cases g1 : r < 0
        · rw [if_pos g1, if_pos g1]; exact ⟨rfl, h3, rfl⟩
        rw [if_neg g1, if_neg g1]
        by_cases g2 : (dump && c1.markReached) = true
        · rw [if_pos g2, if_pos g2]
          have h8 := S.pendingQueue c1.pending.toNat c1 h3
          generalize flushPendingQueue W c1.pending.toNat c1 s1 = x at h8
          generalize flushPendingQueue V c1.pending.toNat c1 t1 = y at h8
          cases x with
          | error e => cases y with
            | error e' => exact h8
            | ok y => exact h8.elim
          | ok x => cases y with
            | error e' => exact h8.elim
            | ok y => exact ⟨h8.1, h8.2, rfl⟩
        rw [if_neg g2, if_neg g2]
        by_cases g3 : c1.outErr = true
        · rw [if_pos g3, if_pos g3]; exact ⟨rfl, h3, rfl⟩
        rw [if_neg g3, if_neg g3]
        by_cases g4 : max = 0 ∨ fr + r < max
        · rw [if_pos g4, if_pos g4]; exact ih c1 _ h3
        rw [if_neg g4, if_neg g4]; exact ⟨rfl, h3, rfl⟩

theorem SimO.calls (S : SimO W V R) (dump : Bool) (l : List (Nat × Int)) : ∀ (c : Ctx) {s t}, R c.out c.outErr s t →
    SameO R (calls W dump l c s) (calls V dump l c t) := by
  induction l with
  | nil => intro c s t h; exact ⟨rfl, h⟩
  | cons x l ih =>
    intro c s t h
    obtain ⟨fuel, max⟩ := x
    unfold Ulogcat.calls
    have h1 := S.logs dump max fuel c 0 h
    generalize processLogs W dump max fuel c s 0 = x at h1
    generalize processLogs V dump max fuel c t 0 = y at h1
    cases x with
    | error e => cases y with
      | error e' => exact h1
      | ok y => exact h1.elim
    | ok x => cases y with
      | error e' => exact h1.elim
      | ok y =>
        obtain ⟨c1, s1, r⟩ := x
        obtain ⟨c2, t1, r'⟩ := y
        obtain ⟨h2, h3, h4⟩ := h1
        cases h2
        exact ih c1 h3

/-! ## Without the output -/

theorem Sim.toO {R : σ → τ → Prop} (S : Sim W V R) : SimO W V fun _ _ => R :=
  ⟨fun h a => S.poll h a, fun h i => S.recv h i, fun h e => ⟨(S.output h e).1, fun _ => (S.output h e).2, fun _ => (S.output h e).2⟩⟩

/-- The same outcome, with related states. -/
def Same (R : σ → τ → Prop) : Except CFault (Ctx × σ) → Except CFault (Ctx × τ) → Prop
  | .ok x, .ok y => x.1 = y.1 ∧ R x.2 y.2
  | .error e, .error e' => e = e'
  | _, _ => False

/-- The same outcome and value, with related states. -/
def SameV {α : Type} (R : σ → τ → Prop) : Except CFault (Ctx × σ × α) → Except CFault (Ctx × τ × α) → Prop
  | .ok x, .ok y => x.1 = y.1 ∧ R x.2.1 y.2.1 ∧ x.2.2 = y.2.2
  | .error e, .error e' => e = e'
  | _, _ => False

theorem Sim.logs {R : σ → τ → Prop} (S : Sim W V R) (dump : Bool) (max : Int) (fuel : Nat) (c : Ctx) (fr : Int) {s t} (h : R s t) :
    SameV R (processLogs W dump max fuel c s fr) (processLogs V dump max fuel c t fr) := by
  have h1 := S.toO.logs dump max fuel c fr h
  generalize processLogs W dump max fuel c s fr = x at h1
  generalize processLogs V dump max fuel c t fr = y at h1
  cases x <;> cases y <;> exact h1

theorem Sim.calls {R : σ → τ → Prop} (S : Sim W V R) (dump : Bool) (l : List (Nat × Int)) (c : Ctx) {s t} (h : R s t) :
    Same R (calls W dump l c s) (calls V dump l c t) := by
  have h1 := S.toO.calls dump l c h
  generalize Ulogcat.calls W dump l c s = x at h1
  generalize Ulogcat.calls V dump l c t = y at h1
  cases x <;> cases y <;> exact h1

/-- What is true of the state of a world and is kept by it. -/
structure Keeps (W : World σ) (P : σ → Prop) : Prop where
  poll : ∀ {s}, P s → ∀ a, P (W.poll s a).2
  recv : ∀ {s}, P s → ∀ i, P (W.recv s i).2
  output : ∀ {s}, P s → ∀ e, P (W.output s e).2

theorem Keeps.sim {P : σ → Prop} (K : Keeps W P) : Sim W W fun s t => s = t ∧ P s :=
  ⟨fun h a => by obtain ⟨rfl, h⟩ := h; exact ⟨rfl, rfl, K.poll h a⟩,
   fun h i => by obtain ⟨rfl, h⟩ := h; exact ⟨rfl, rfl, K.recv h i⟩,
   fun h e => by obtain ⟨rfl, h⟩ := h; exact ⟨rfl, rfl, K.output h e⟩⟩

theorem Keeps.logs {P : σ → Prop} (K : Keeps W P) {dump max fuel c s fr c' s' r} (h : P s)
    (he : processLogs W dump max fuel c s fr = .ok (c', s', r)) : P s' := by
  have := K.sim.logs dump max fuel c fr ⟨rfl, h⟩
  rw [he] at this
  exact this.2.1.2

theorem Keeps.calls {P : σ → Prop} (K : Keeps W P) {dump l c s c' s'} (h : P s)
    (he : calls W dump l c s = .ok (c', s')) : P s' := by
  have := K.sim.calls dump l c ⟨rfl, h⟩
  rw [he] at this
  exact this.2.2

end Verif.Ulogcat
