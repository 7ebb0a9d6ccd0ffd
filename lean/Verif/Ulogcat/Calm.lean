import Verif.Ulogcat.Quiet

/-!
# What printing leaves alone

Flushing frames changes neither the amounts still to be read nor whatever the
output does not touch in the world.
-/
namespace Verif.Ulogcat

variable {σ α : Type}

/-- Marks and a part `g` of the world stay. -/
structure Calm (g : σ → α) (c c' : Ctx) (s s' : σ) : Prop where
  world : g s' = g s
  marks : ∀ i, c'.markOf i = c.markOf i
  reached : c'.markReached = c.markReached

theorem Calm.rfl' (g : σ → α) (c : Ctx) (s : σ) : Calm g c c s s := ⟨rfl, fun _ => rfl, rfl⟩

theorem Calm.trans {g : σ → α} {c c1 c2 : Ctx} {s s1 s2 : σ} (h1 : Calm g c c1 s s1) (h2 : Calm g c1 c2 s1 s2) :
    Calm g c c2 s s2 :=
  ⟨h2.world.trans h1.world, fun i => (h2.marks i).trans (h1.marks i), h2.reached.trans h1.reached⟩

theorem Calm.mod {g : σ → α} {c c1 c2 : Ctx} {s s1 : σ} (h1 : Calm g c c1 s s1) (h2 : c2.devs = c1.devs)
    (h3 : c2.markReached = c1.markReached) : Calm g c c2 s s1 :=
  ⟨h1.world, fun i => by rw [← h1.marks i]; unfold Ctx.markOf; rw [h2], h3.trans h1.reached⟩

theorem Calm.upd {g : σ → α} {c c1 : Ctx} {s s1 : σ} (h1 : Calm g c c1 s s1) (i : Nat) {u : Dev → Dev}
    (hu : ∀ d, (u d).mark = d.mark) : Calm g c (c1.upd i u) s s1 :=
  ⟨h1.world, fun j => by rw [← h1.marks j]; exact markOf_upd c1 i j u hu, h1.reached⟩

variable (W : World σ) (g : σ → α) (hg : ∀ s e, g (W.output s e).2 = g s)
include hg

theorem output_calm (c : Ctx) (s : σ) (e : OutEv) : Calm g c (output W c s e).1 s (output W c s e).2 := by
  have h := hg s e
  unfold output
  split
  · exact Calm.rfl' g c s
  · split <;>
    · rename_i s' hx
      rw [hx] at h
      exact ⟨h, fun _ => rfl, rfl⟩

theorem flushFrame_calm {c c' : Ctx} {s s' : σ} {f : Frame} (h : flushFrame W c s f = .ok (c', s')) :
    Calm g c c' s s' := by
  unfold flushFrame at h
  split at h
  · cases h
  · rename_i d _
    simp only [Except.ok.injEq] at h
    have hb : Calm g c (flushBanner W c s f d).1 s (flushBanner W c s f d).2 := by
      unfold flushBanner
      split
      · exact (output_calm W g hg c s (.banner f.dev f.stamp)).upd f.dev (fun _ => rfl)
      · exact Calm.rfl' g c s
    have he : Calm g c (flushEntry W (flushBanner W c s f d) f).1 s (flushEntry W (flushBanner W c s f d) f).2 := by
      unfold flushEntry
      split
      · exact hb.trans (output_calm W g hg _ _ _)
      · exact hb
    rw [h] at he
    exact he

theorem flushUnless_calm {drop : Bool} {c c' : Ctx} {s s' : σ} {f : Frame}
    (h : flushUnless W drop c s f = .ok (c', s')) : Calm g c c' s s' := by
  unfold flushUnless at h
  split at h
  · simp only [Except.ok.injEq, Prod.mk.injEq] at h
    rw [← h.1, ← h.2]; exact Calm.rfl' g c s
  · exact flushFrame_calm W g hg h

theorem flushRenderFrame_calm {drop : Bool} {c c' : Ctx} {s s' : σ}
    (h : flushRenderFrame W drop c s = .ok (c', s')) : Calm g c c' s s' := by
  unfold flushRenderFrame at h
  by_cases hpos : c.render > 0
  · rw [if_pos hpos] at h
    cases hq : c.rendQ with
    | nil => rw [hq] at h; cases h
    | cons f t =>
      rw [hq] at h
      dsimp only [bind, Except.bind] at h
      cases hx : flushUnless W drop c s f with
      | error e => rw [hx] at h; cases h
      | ok x =>
        obtain ⟨x1, x2⟩ := x
        rw [hx] at h
        simp only [Except.ok.injEq, Prod.mk.injEq] at h
        rw [← h.1, ← h.2]
        exact (flushUnless_calm W g hg hx).mod rfl rfl
  · rw [if_neg hpos] at h
    simp only [Except.ok.injEq, Prod.mk.injEq] at h
    rw [← h.1, ← h.2]; exact Calm.rfl' g c s

theorem flushPendingFrame_calm {drop : Bool} {c c' : Ctx} {s s' : σ}
    (h : flushPendingFrame W drop c s = .ok (c', s')) : Calm g c c' s s' := by
  unfold flushPendingFrame at h
  by_cases hpos : c.pending > 0
  · rw [if_pos hpos] at h
    cases hq : popOldest c.pendQ with
    | none => rw [hq] at h; cases h
    | some ft =>
      obtain ⟨f, t⟩ := ft
      rw [hq] at h
      dsimp only [bind, Except.bind] at h
      cases hx : flushUnless W drop c s f with
      | error e => rw [hx] at h; cases h
      | ok x =>
        obtain ⟨x1, x2⟩ := x
        rw [hx] at h
        simp only [Except.ok.injEq, Prod.mk.injEq] at h
        rw [← h.1, ← h.2]
        exact ((flushUnless_calm W g hg hx).upd f.dev (u := fun d => { d with pending := false }) (fun _ => rfl)).mod rfl rfl
  · rw [if_neg hpos] at h
    simp only [Except.ok.injEq, Prod.mk.injEq] at h
    rw [← h.1, ← h.2]; exact Calm.rfl' g c s

theorem flushRenderQueue_calm (n : Nat) : ∀ {c c' : Ctx} {s s' : σ},
    flushRenderQueue W n c s = .ok (c', s') → Calm g c c' s s' := by
  induction n with
  | zero =>
    intro c c' s s' h
    unfold flushRenderQueue at h
    split at h
    · cases h
    · simp only [Except.ok.injEq, Prod.mk.injEq] at h; rw [← h.1, ← h.2]; exact Calm.rfl' g c s
  | succ n ih =>
    intro c c' s s' h
    unfold flushRenderQueue at h
    split at h
    · dsimp only [bind, Except.bind] at h
      cases hx : flushRenderFrame W false c s with
      | error e => rw [hx] at h; cases h
      | ok x =>
        obtain ⟨x1, x2⟩ := x
        rw [hx] at h
        exact (flushRenderFrame_calm W g hg hx).trans (ih h)
    · simp only [Except.ok.injEq, Prod.mk.injEq] at h; rw [← h.1, ← h.2]; exact Calm.rfl' g c s

theorem flushPendingQueue_calm (n : Nat) : ∀ {c c' : Ctx} {s s' : σ},
    flushPendingQueue W n c s = .ok (c', s') → Calm g c c' s s' := by
  induction n with
  | zero =>
    intro c c' s s' h
    unfold flushPendingQueue at h
    split at h
    · cases h
    · simp only [Except.ok.injEq, Prod.mk.injEq] at h; rw [← h.1, ← h.2]; exact Calm.rfl' g c s
  | succ n ih =>
    intro c c' s s' h
    unfold flushPendingQueue at h
    split at h
    · dsimp only [bind, Except.bind] at h
      cases hx : flushPendingFrame W false c s with
      | error e => rw [hx] at h; cases h
      | ok x =>
        obtain ⟨x1, x2⟩ := x
        rw [hx] at h
        exact (flushPendingFrame_calm W g hg hx).trans (ih h)
    · simp only [Except.ok.injEq, Prod.mk.injEq] at h; rw [← h.1, ← h.2]; exact Calm.rfl' g c s

theorem dropExcess_calm (n : Nat) : ∀ {c c' : Ctx} {s s' : σ},
    dropExcess W n c s = .ok (c', s') → Calm g c c' s s' := by
  induction n with
  | zero =>
    intro c c' s s' h
    unfold dropExcess at h
    split at h
    · cases h
    · simp only [Except.ok.injEq, Prod.mk.injEq] at h; rw [← h.1, ← h.2]; exact Calm.rfl' g c s
  | succ n ih =>
    intro c c' s s' h
    unfold dropExcess at h
    split at h
    · split at h
      · dsimp only [bind, Except.bind] at h
        cases hx : flushRenderFrame W true c s with
        | error e => rw [hx] at h; cases h
        | ok x =>
          obtain ⟨x1, x2⟩ := x
          rw [hx] at h
          exact (flushRenderFrame_calm W g hg hx).trans (ih h)
      · split at h
        · dsimp only [bind, Except.bind] at h
          cases hx : flushPendingFrame W true c s with
          | error e => rw [hx] at h; cases h
          | ok x =>
            obtain ⟨x1, x2⟩ := x
            rw [hx] at h
            exact (flushPendingFrame_calm W g hg hx).trans (ih h)
        · cases h
    · simp only [Except.ok.injEq, Prod.mk.injEq] at h; rw [← h.1, ← h.2]; exact Calm.rfl' g c s

theorem pullFrame_calm {c c' : Ctx} {s s' : σ} (h : pullFrame W c s = .ok (c', s')) : Calm g c c' s s' := by
  unfold pullFrame at h
  cases hq : popOldest c.pendQ with
  | none =>
    rw [hq] at h
    simp only [Except.ok.injEq, Prod.mk.injEq] at h
    rw [← h.1, ← h.2]; exact Calm.rfl' g c s
  | some ft =>
    obtain ⟨f, t⟩ := ft
    rw [hq] at h
    dsimp only at h
    have h0 : Calm g c ({ c.upd f.dev fun d => { d with pending := false } with pendQ := t, pending := c.pending - 1 } : Ctx) s s :=
      ((Calm.rfl' g c s).upd f.dev (u := fun d => { d with pending := false }) (fun _ => rfl)).mod rfl rfl
    split at h
    · generalize ({ c.upd f.dev fun d => { d with pending := false } with pendQ := t, pending := c.pending - 1 } : Ctx) = c1 at h h0
      simp only [Except.ok.injEq, Prod.mk.injEq] at h
      rw [← h.1, ← h.2]
      unfold enqueueRender
      dsimp only
      split
      · exact h0.mod rfl rfl
      · exact h0.mod rfl rfl
    · generalize ({ c.upd f.dev fun d => { d with pending := false } with pendQ := t, pending := c.pending - 1 } : Ctx) = c1 at h h0
      dsimp only [bind, Except.bind] at h
      cases hx : flushFrame W c1 s f with
      | error e => rw [hx] at h; cases h
      | ok x =>
        obtain ⟨x1, x2⟩ := x
        rw [hx] at h
        simp only [Except.ok.injEq, Prod.mk.injEq] at h
        rw [← h.1, ← h.2]
        exact (h0.trans (flushFrame_calm W g hg hx)).mod rfl rfl

theorem tailFlush_calm {c c' : Ctx} {s s' : σ} (h : tailFlush W c s = .ok (c', s')) : Calm g c c' s s' := by
  unfold tailFlush at h
  by_cases ht : c.tail = 0 ∨ c.markReached = false
  · rw [if_pos ht] at h
    simp only [Except.ok.injEq, Prod.mk.injEq] at h; rw [← h.1, ← h.2]; exact Calm.rfl' g c s
  · rw [if_neg ht] at h
    dsimp only [bind, Except.bind] at h
    cases hx : dropExcess W (c.render + c.pending).toNat c s with
    | error e => rw [hx] at h; cases h
    | ok x =>
      obtain ⟨x1, x2⟩ := x
      rw [hx] at h
      dsimp only at h
      cases hy : flushRenderQueue W x1.render.toNat x1 x2 with
      | error e => rw [hy] at h; cases h
      | ok y =>
        obtain ⟨y1, y2⟩ := y
        rw [hy] at h
        simp only [Except.ok.injEq, Prod.mk.injEq] at h
        rw [← h.1, ← h.2]
        exact ((dropExcess_calm W g hg _ hx).trans (flushRenderQueue_calm W g hg _ hy)).mod rfl rfl

/-- The end of a turn leaves the marks alone; the mark is reached then only if it
was before or no mark is left. -/
theorem endPass_calm {c c' : Ctx} {s s' : σ} (h : endPass W c s = .ok (c', s')) :
    g s' = g s ∧ (∀ i, c'.markOf i = c.markOf i) ∧
    (c'.markReached = true → c.markReached = true ∨ c'.devs.any (fun d => decide (d.mark > 0)) = false) := by
  unfold endPass at h
  dsimp only [bind, Except.bind] at h
  cases hx : pullFrame W c s with
  | error e => rw [hx] at h; cases h
  | ok x =>
    obtain ⟨x1, x2⟩ := x
    rw [hx] at h
    dsimp only at h
    have h1 := pullFrame_calm W g hg hx
    have h2 := tailFlush_calm W g hg h
    have hu : ∀ i, (updateMark x1).markOf i = x1.markOf i := by
      intro i
      unfold updateMark
      split
      · rfl
      · split <;> rfl
    refine ⟨h2.world.trans h1.world, fun i => by rw [h2.marks, hu, h1.marks], ?_⟩
    intro hm
    rw [h2.reached] at hm
    by_cases hr : c.markReached = true
    · exact Or.inl hr
    · right
      unfold updateMark at hm
      rw [if_neg (by rw [h1.reached]; exact hr)] at hm
      split at hm
      · rw [h1.reached] at hm; exact absurd hm hr
      · rename_i hany
        -- marks of the devices are those of `markOf`
        have hall : ∀ i, x1.markOf i ≤ 0 := by
          intro i
          unfold Ctx.markOf
          cases hd : x1.devs[i]? with
          | none => exact Int.le_refl _
          | some d =>
            have hmem := List.mem_of_getElem? hd
            rw [List.any_eq_true] at hany
            refine Int.not_lt.mp (fun hlt => hany ⟨d, hmem, ?_⟩)
            rw [decide_eq_true_eq]
            exact hlt
        rw [Bool.eq_false_iff]
        intro ha
        rw [List.any_eq_true] at ha
        obtain ⟨d, hd, hlt⟩ := ha
        obtain ⟨i, hi⟩ := List.getElem?_of_mem hd
        have h3 : c'.markOf i ≤ 0 := by rw [h2.marks, hu]; exact hall i
        unfold Ctx.markOf at h3
        rw [hi] at h3
        rw [decide_eq_true_eq] at hlt
        dsimp only at h3
        omega

end Verif.Ulogcat
