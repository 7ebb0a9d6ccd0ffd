import Verif.Ulogcat.QueueSim
import Verif.Ulogcat.CoreInv

/-! # The loop on linked queues does what `Core` says, continued -/
namespace Verif.Ulogcat.Queue
open Verif Verif.Ulogcat

variable {σ : Type}

theorem flushPendingFrame_sim {W : World σ} {drop : Bool} {D : List Nat} {n : Nat} {p : PCtx} {c c' : Ctx} {s s' : σ}
    (S : Sim D n p c) (e : flushPendingFrame W drop c s = .ok (c', s')) :
    ∃ p', pFlushPendingFrame W drop p s = .ok (p', s') ∧ Sim D n p' c' := by
  obtain ⟨hn, Q, hD, R, rfl⟩ := S
  unfold flushPendingFrame at e
  unfold pFlushPendingFrame
  by_cases hr : p.c.pending > 0
  · rw [if_pos (show (view p Q).pending > 0 from hr)] at e
    rw [if_pos hr, findOldest_spec R, bind_ok]
    have e0 : (view p Q).pendQ = (Q 2).map p.mem := rfl
    rw [e0] at e
    rcases oldest_pop p.mem (Q 2) with ⟨_, _, h3⟩ | ⟨a, f, b, h1, h2, h3⟩
    · rw [h3] at e; cases e
    · rw [h3] at e
      dsimp only at e
      rw [h1]
      dsimp only
      cases h4 : flushUnless W drop (view p Q) s (p.mem f) with
      | error x => rw [h4] at e; cases e
      | ok x =>
        rw [h4, bind_ok] at e
        obtain ⟨c1, s1⟩ := x
        injection e with e
        injection e with ec es
        subst es
        have hf : f ∈ Q 2 := by rw [h2]; simp
        obtain ⟨c2, e2, rfl⟩ := pFlushUnless_sim R (by simp [hf]) h4
        rw [e2, bind_ok]
        dsimp only
        rw [(rel_ctx R c2).isFrame (by simp [hf]), bind_ok]
        obtain ⟨p1, p2, Q', u1, u2, u3, u4, R', q3, q0, q1, q2⟩ :=
          release (rel_ctx R (c2.upd (p.mem f).dev fun d => { d with pending := false })) (q := 2) (x := f) (l := a) (m := b)
            (by omega) h2
        dsimp only
        rw [u1, bind_ok, u2, bind_ok]
        refine ⟨_, rfl, by exact u4.trans hn, Q', by rw [q3, hD], rel_ctx R' _, ?_⟩
        subst ec
        unfold view withQ
        rw [q0, q1, q2, u3]
        rfl
  · rw [if_neg (show ¬ (view p Q).pending > 0 from hr)] at e
    injection e with e
    injection e with ec es
    subst ec es
    rw [if_neg hr]
    exact ⟨p, rfl, hn, Q, hD, R, rfl⟩

theorem Sim.ctx {D : List Nat} {n : Nat} {p : PCtx} {c : Ctx} (S : Sim D n p c) :
    c.render = p.c.render ∧ c.pending = p.c.pending ∧ c.tail = p.c.tail ∧ c.markReached = p.c.markReached ∧
      c.outErr = p.c.outErr ∧ c.devs = p.c.devs ∧ c.out = p.c.out ∧ c.starved = p.c.starved := by
  obtain ⟨_, Q, _, _, rfl⟩ := S
  exact ⟨rfl, rfl, rfl, rfl, rfl, rfl, rfl, rfl⟩

theorem ok_bind {ε α β : Type} {x : Except ε α} {f : α → Except ε β} {b : β} (e : (x >>= f) = .ok b) :
    ∃ a, x = .ok a ∧ f a = .ok b := by
  cases x with
  | error e' => cases e
  | ok a => exact ⟨a, rfl, e⟩

theorem flushRenderQueue_sim {W : World σ} {D : List Nat} {n : Nat} : ∀ {k : Nat} {p : PCtx} {c c' : Ctx} {s s' : σ},
    Sim D n p c → flushRenderQueue W k c s = .ok (c', s') → ∃ p', pFlushRenderQueue W k p s = .ok (p', s') ∧ Sim D n p' c' := by
  intro k
  induction k with
  | zero =>
    intro p c c' s s' S e
    unfold flushRenderQueue at e
    unfold pFlushRenderQueue
    rw [S.ctx.1] at e
    by_cases h : p.c.render > 0
    · rw [if_pos h] at e; cases e
    · rw [if_neg h] at e ⊢
      injection e with e; injection e with ec es; subst ec es
      exact ⟨p, rfl, S⟩
  | succ k ih =>
    intro p c c' s s' S e
    unfold flushRenderQueue at e
    unfold pFlushRenderQueue
    rw [S.ctx.1] at e
    by_cases h : p.c.render > 0
    · rw [if_pos h] at e ⊢
      obtain ⟨⟨c1, s1⟩, e1, e2⟩ := ok_bind e
      obtain ⟨p1, f1, S1⟩ := flushRenderFrame_sim S e1
      obtain ⟨p2, f2, S2⟩ := ih S1 e2
      exact ⟨p2, by rw [f1]; exact f2, S2⟩
    · rw [if_neg h] at e ⊢
      injection e with e; injection e with ec es; subst ec es
      exact ⟨p, rfl, S⟩

theorem flushPendingQueue_sim {W : World σ} {D : List Nat} {n : Nat} : ∀ {k : Nat} {p : PCtx} {c c' : Ctx} {s s' : σ},
    Sim D n p c → flushPendingQueue W k c s = .ok (c', s') → ∃ p', pFlushPendingQueue W k p s = .ok (p', s') ∧ Sim D n p' c' := by
  intro k
  induction k with
  | zero =>
    intro p c c' s s' S e
    unfold flushPendingQueue at e
    unfold pFlushPendingQueue
    rw [S.ctx.2.1] at e
    by_cases h : p.c.pending > 0
    · rw [if_pos h] at e; cases e
    · rw [if_neg h] at e ⊢
      injection e with e; injection e with ec es; subst ec es
      exact ⟨p, rfl, S⟩
  | succ k ih =>
    intro p c c' s s' S e
    unfold flushPendingQueue at e
    unfold pFlushPendingQueue
    rw [S.ctx.2.1] at e
    by_cases h : p.c.pending > 0
    · rw [if_pos h] at e ⊢
      obtain ⟨⟨c1, s1⟩, e1, e2⟩ := ok_bind e
      obtain ⟨p1, f1, S1⟩ := flushPendingFrame_sim S e1
      obtain ⟨p2, f2, S2⟩ := ih S1 e2
      exact ⟨p2, by rw [f1]; exact f2, S2⟩
    · rw [if_neg h] at e ⊢
      injection e with e; injection e with ec es; subst ec es
      exact ⟨p, rfl, S⟩

theorem dropExcess_sim {W : World σ} {D : List Nat} {n : Nat} : ∀ {k : Nat} {p : PCtx} {c c' : Ctx} {s s' : σ},
    Sim D n p c → dropExcess W k c s = .ok (c', s') → ∃ p', pDropExcess W k p s = .ok (p', s') ∧ Sim D n p' c' := by
  intro k
  induction k with
  | zero =>
    intro p c c' s s' S e
    unfold dropExcess at e
    unfold pDropExcess
    rw [S.ctx.1, S.ctx.2.1, S.ctx.2.2.1] at e
    by_cases h : p.c.render + p.c.pending > p.c.tail
    · rw [if_pos h] at e; cases e
    · rw [if_neg h] at e ⊢
      injection e with e; injection e with ec es; subst ec es
      exact ⟨p, rfl, S⟩
  | succ k ih =>
    intro p c c' s s' S e
    unfold dropExcess at e
    unfold pDropExcess
    rw [S.ctx.1, S.ctx.2.1, S.ctx.2.2.1] at e
    by_cases h : p.c.render + p.c.pending > p.c.tail
    · rw [if_pos h] at e ⊢
      by_cases h1 : p.c.render > 0
      · rw [if_pos h1] at e ⊢
        obtain ⟨⟨c1, s1⟩, e1, e2⟩ := ok_bind e
        obtain ⟨p1, f1, S1⟩ := flushRenderFrame_sim S e1
        obtain ⟨p2, f2, S2⟩ := ih S1 e2
        exact ⟨p2, by rw [f1]; exact f2, S2⟩
      · rw [if_neg h1] at e ⊢
        by_cases h2 : p.c.pending > 0
        · rw [if_pos h2] at e ⊢
          obtain ⟨⟨c1, s1⟩, e1, e2⟩ := ok_bind e
          obtain ⟨p1, f1, S1⟩ := flushPendingFrame_sim S e1
          obtain ⟨p2, f2, S2⟩ := ih S1 e2
          exact ⟨p2, by rw [f1]; exact f2, S2⟩
        · rw [if_neg h2] at e; cases e
    · rw [if_neg h] at e ⊢
      injection e with e; injection e with ec es; subst ec es
      exact ⟨p, rfl, S⟩

theorem tailFlush_sim {W : World σ} {D : List Nat} {n : Nat} {p : PCtx} {c c' : Ctx} {s s' : σ}
    (S : Sim D n p c) (e : tailFlush W c s = .ok (c', s')) : ∃ p', pTailFlush W p s = .ok (p', s') ∧ Sim D n p' c' := by
  unfold tailFlush at e
  unfold pTailFlush
  rw [S.ctx.1, S.ctx.2.1, S.ctx.2.2.1, S.ctx.2.2.2.1] at e
  split at e
  · rename_i h
    rw [if_pos h]
    injection e with e; injection e with ec es; subst ec es
    exact ⟨p, rfl, S⟩
  · rename_i h
    rw [if_neg h]
    obtain ⟨⟨c1, s1⟩, e1, e2⟩ := ok_bind e
    obtain ⟨p1, f1, S1⟩ := dropExcess_sim S e1
    dsimp only at e2
    obtain ⟨⟨c2, s2⟩, e3, e4⟩ := ok_bind e2
    rw [S1.ctx.1] at e3
    obtain ⟨p2, f2, S2⟩ := flushRenderQueue_sim S1 e3
    injection e4 with e4; injection e4 with ec es; subst ec es
    obtain ⟨hn, Q, hD, R, rfl⟩ := S2
    exact ⟨{ p2 with c := { p2.c with tail := 0 } }, by rw [f1]; show (pFlushRenderQueue W _ p1 s1 >>= _) = _; rw [f2]; rfl,
      hn, Q, hD, rel_ctx R _, rfl⟩

/-- The context while frame `f` is in no queue. -/
theorem enqueueRender_sim {D : List Nat} {n : Nat} {p : PCtx} {Q : Nat → List Nat} {f : Nat} (hn : p.n = n) (hD : Q 3 = D)
    (R : Rel p Q [f]) : ∃ p', pEnqueueRender p f = .ok p' ∧ Sim D n p' (enqueueRender (view p Q) (p.mem f)) := by
  obtain ⟨h', e1, R1⟩ := link_sim R (q := 1) (by omega)
  unfold pEnqueueRender enqueueRender
  rw [show link p renderQ f = _ from e1, bind_ok]
  dsimp only
  have e0 : (view p Q).rendQ ++ [p.mem f] = (Q 1 ++ [f]).map p.mem := by simp [view, withQ]
  rw [e0]
  by_cases h : p.c.render < p.c.tail
  · rw [if_pos h, if_pos (show (view p Q).render < (view p Q).tail from h)]
    exact ⟨_, rfl, hn, _, by simp [upd, hD], rel_ctx R1 _, by simp [view, withQ, upd]⟩
  · rw [if_neg h, if_neg (show ¬ (view p Q).render < (view p Q).tail from h)]
    have hx := R1.next (q := 1) (by omega)
    rw [upd_same] at hx
    cases hq : Q 1 ++ [f] with
    | nil => simp at hq
    | cons x m =>
      rw [hq] at hx R1
      rw [show ({ p with h := h' } : PCtx).h.next renderQ = _ from hx, bind_ok]
      obtain ⟨p1, p2, Q', u1, u2, u3, u4, R', q3, q0, q1, q2⟩ :=
        release R1 (q := 1) (x := x) (l := []) (m := m) (by omega) (by simp [upd])
      rw [show (x :: m).headD 1 = x from rfl, u1, bind_ok, u2]
      refine ⟨p2, rfl, by exact u4.trans hn, Q', by rw [q3]; simp [upd, hD], R', ?_⟩
      unfold view withQ
      rw [q0, q1, q2, u3]
      simp [upd]

theorem pFlush_sim {W : World σ} {p : PCtx} {Q : Nat → List Nat} {H : List Nat} (R : Rel p Q H) {f : Nat}
    (hf : f ∈ Q 0 ∨ f ∈ Q 1 ∨ f ∈ Q 2 ∨ f ∈ H) {s s' : σ} {c' : Ctx} {a : Nat} {b d : List Frame}
    (e : flushFrame W (withQ p.c a b d) s (p.mem f) = .ok (c', s')) :
    ∃ c1, pFlush W p s f = .ok ({ p with c := c1 }, s') ∧ c' = withQ c1 a b d :=
  pFlushUnless_sim (drop := false) R hf e

theorem pullFrame_sim {W : World σ} {D : List Nat} {n : Nat} {p : PCtx} {c c' : Ctx} {s s' : σ}
    (S : Sim D n p c) (e : pullFrame W c s = .ok (c', s')) : ∃ p', pPullFrame W p s = .ok (p', s') ∧ Sim D n p' c' := by
  obtain ⟨hn, Q, hD, R, rfl⟩ := S
  unfold pullFrame at e
  unfold pPullFrame
  rw [findOldest_spec R, bind_ok]
  rw [show (view p Q).pendQ = (Q 2).map p.mem from rfl] at e
  rcases oldest_pop p.mem (Q 2) with ⟨h1, _, h3⟩ | ⟨a, f, b, h1, h2, h3⟩
  · rw [h3] at e
    injection e with e; injection e with ec es; subst ec es
    rw [h1]
    exact ⟨p, rfl, hn, Q, hD, R, rfl⟩
  · rw [h3] at e
    dsimp only at e
    rw [h1]
    dsimp only
    obtain ⟨h', e1, R1⟩ := unlink_sim R (q := 2) (by omega) h2
    rw [e1, bind_ok, R1.isFrame (by simp), bind_ok]
    dsimp only
    let c1 : Ctx := { p.c.upd (p.mem f).dev fun d => { d with pending := false } with pending := p.c.pending - 1 }
    have R2 : Rel { p with h := h', c := c1 } (upd Q 2 (a ++ b)) [f] := rel_ctx R1 c1
    by_cases ht : p.c.tail > 0
    · replace e : (if p.c.tail > 0 then _ else _) = _ := e
      rw [if_pos ht] at e
      injection e with e; injection e with ec es; subst ec es
      obtain ⟨p', f1, S1⟩ := enqueueRender_sim (D := D) (n := n) (p := { p with h := h', c := c1 }) hn (by simp [upd, hD]) R2
      refine ⟨p', ?_, ?_⟩
      · show (if p.c.tail > 0 then _ else _) = _
        rw [if_pos ht]
        show (pEnqueueRender { p with h := h', c := c1 } f >>= _) = _
        rw [f1, bind_ok]
      · have hv : view { p with h := h', c := c1 } (upd Q 2 (a ++ b)) =
            { (view p Q).upd (p.mem f).dev fun d => { d with pending := false } with
              pendQ := (a ++ b).map p.mem, pending := (view p Q).pending - 1 } := by
          simp [view, withQ, upd, Ctx.upd, c1]
        rw [hv] at S1
        exact S1
    · replace e : (if p.c.tail > 0 then _ else _) = _ := e
      rw [if_neg ht] at e
      obtain ⟨⟨c2, s2⟩, e2, e3⟩ := ok_bind e
      injection e3 with e3; injection e3 with ec es; subst ec es
      have hv : (({ (view p Q).upd (p.mem f).dev fun d => { d with pending := false } with
          pendQ := (a ++ b).map p.mem, pending := (view p Q).pending - 1 } : Ctx)) =
          withQ c1 (Q 0).length ((a ++ b).map p.mem) ((Q 1).map p.mem) := rfl
      rw [hv] at e2
      obtain ⟨c3, f2, rfl⟩ := pFlush_sim R2 (by simp) e2
      obtain ⟨p', f3, u3, u4, u5, R'⟩ := freeFrame_sim (rel_ctx R2 c3)
      refine ⟨p', ?_, by exact u4.trans hn, _, ?_, R', ?_⟩
      · show (if p.c.tail > 0 then _ else _) = _
        rw [if_neg ht]
        show (pFlush W { p with h := h', c := c1 } s f >>= _) = _
        rw [f2, bind_ok]
        dsimp only
        rw [f3, bind_ok]
      · simp [upd, hD]
      · unfold view
        rw [u3, u5]
        simp [withQ, upd]

theorem updateMark_sim {D : List Nat} {n : Nat} {p : PCtx} {c : Ctx} (S : Sim D n p c) :
    Sim D n { p with c := updateMark p.c } (updateMark c) := by
  obtain ⟨hn, Q, hD, R, rfl⟩ := S
  refine ⟨hn, Q, hD, rel_ctx R _, ?_⟩
  unfold updateMark
  show (if p.c.markReached = true then _ else if (p.c.devs.any fun d => decide (d.mark > 0)) = true then _ else _) = _
  unfold view
  dsimp only
  split
  · rfl
  · split <;> rfl

theorem endPass_sim {W : World σ} {D : List Nat} {n : Nat} {p : PCtx} {c c' : Ctx} {s s' : σ}
    (S : Sim D n p c) (e : endPass W c s = .ok (c', s')) : ∃ p', pEndPass W p s = .ok (p', s') ∧ Sim D n p' c' := by
  unfold endPass at e
  obtain ⟨⟨c1, s1⟩, e1, e2⟩ := ok_bind e
  obtain ⟨p1, f1, S1⟩ := pullFrame_sim S e1
  obtain ⟨p2, f2, S2⟩ := tailFlush_sim (updateMark_sim S1) e2
  exact ⟨p2, by unfold pEndPass; rw [f1]; exact f2, S2⟩

theorem allocFrame_none {p : PCtx} {Q : Nat → List Nat} (R : Rel p Q []) (h : Q 0 = []) : allocFrame p = .ok (none, p) := by
  unfold allocFrame
  rw [R.next (show freeQ < 4 by decide), bind_ok]
  rw [show (Q freeQ).headD freeQ = freeQ by rw [show Q freeQ = [] from h]; rfl, if_pos rfl]

theorem allocFrame_some {p : PCtx} {Q : Nat → List Nat} (R : Rel p Q []) {f : Nat} {m : List Nat} (h : Q 0 = f :: m) :
    ∃ h', allocFrame p = .ok (some f, { p with h := h' }) ∧ Rel { p with h := h' } (upd Q 0 m) [f] ∧ p.buf f = .own := by
  obtain ⟨h', e1, R1⟩ := unlink_sim R (q := 0) (x := f) (l := []) (m := m) (by omega) h
  refine ⟨h', ?_, R1, R.own f (by simp [h])⟩
  unfold allocFrame
  rw [R.next (show freeQ < 4 by decide), bind_ok]
  have hf : f ≠ 0 := by have := R.lists.ge (q := 0) (x := f) (by omega) (by simp [h]); omega
  rw [show (Q freeQ).headD freeQ = f by rw [show Q freeQ = f :: m from h]; rfl, if_neg hf]
  unfold unlink at e1
  obtain ⟨x, e2, e3⟩ := ok_bind e1
  rw [e2, bind_ok]
  injection e3 with e3
  rw [e3]

theorem takeBuf_sim {p : PCtx} {Q : Nat → List Nat} {f : Nat} (R : Rel p Q [f]) (ho : p.buf f = .own) (b : Buf) :
    Rel (takeBuf p f b) Q [f] := by
  have hq : ∀ q, q < 4 → f ∉ Q q := fun q hq => R.lists.held hq (by simp)
  have hc : ∀ l : List Nat, f ∉ l → (l.countP fun y => decide ((takeBuf p f b).buf y = Buf.extra)) =
      l.countP fun y => decide (p.buf y = Buf.extra) := by
    intro l hl
    apply List.countP_congr
    intro y hy
    rw [show (takeBuf p f b).buf y = p.buf y from upd_other _ _ (by rintro rfl; exact hl hy)]
  refine ⟨R.lists, ?_, ?_, R.ok⟩
  · intro x hx
    rw [show (takeBuf p f b).buf x = p.buf x from upd_other _ _ (by rintro rfl; exact hq 0 (by omega) hx)]
    exact R.own x hx
  · have := R.bufs
    simp only [List.countP_append, List.countP_cons, List.countP_nil, ho] at this
    rw [List.countP_append, List.countP_append, hc _ (hq 1 (by omega)), hc _ (hq 2 (by omega))]
    unfold takeBuf
    simp only [List.countP_cons, List.countP_nil, upd_same]
    cases b <;> simp at this ⊢ <;> omega

theorem view_devs {p : PCtx} {Q : Nat → List Nat} : (view p Q).devs = p.c.devs := rfl

theorem upd_upd (c : Ctx) (i : Nat) (g g' : Dev → Dev) : (c.upd i g).upd i g' = c.upd i fun d => g' (g d) := by
  unfold Ctx.upd
  dsimp only
  congr 1
  rw [List.modify_modify_eq]
  rfl

theorem readDevs_sim {W : World σ} {ext : σ → Nat → Buf} {D : List Nat} {n : Nat} {asked ready : Nat → Bool} :
    ∀ {is : List Nat} {p : PCtx} {c : Ctx} {s : σ} {k : Int}, Sim D n p c →
      ∃ p', pReadDevs W ext asked ready is p s k = .ok (p', (readDevs W asked ready is c s k).2) ∧
        Sim D n p' (readDevs W asked ready is c s k).1 := by
  intro is
  induction is with
  | nil => exact fun {p c s k} S => ⟨p, rfl, S⟩
  | cons i is ih =>
    intro p c s k S
    unfold pReadDevs readDevs
    by_cases h : (asked i && ready i) = false
    · rw [if_pos h, if_pos h]
      dsimp only
      apply ih
      obtain ⟨hn, Q, hD, R, rfl⟩ := S
      refine ⟨hn, Q, hD, rel_ctx R _, ?_⟩
      split <;> rfl
    · rw [if_neg h, if_neg h]
      obtain ⟨hn, Q, hD, R, rfl⟩ := S
      cases hq : Q 0 with
      | nil =>
        rw [if_pos (show (view p Q).free = 0 by simp [view, withQ, hq]), allocFrame_none R hq, bind_ok]
        dsimp only
        apply ih
        exact ⟨hn, Q, hD, rel_ctx R _, rfl⟩
      | cons f m =>
        rw [if_neg (show ¬ (view p Q).free = 0 by simp [view, withQ, hq])]
        obtain ⟨h', e1, R1, ho⟩ := allocFrame_some R hq
        rw [e1, bind_ok]
        dsimp only
        have R2 := takeBuf_sim R1 ho (ext s i)
        unfold pReceive
        dsimp only
        rcases hw : W.recv s i with ⟨_ | _ | ⟨stamp, id, shown, dec⟩, s'⟩
        · obtain ⟨p', f3, u3, u4, u5, R'⟩ := freeFrame_sim R2
          dsimp only
          rw [f3, bind_ok, bind_ok]
          refine ⟨p', rfl, u4.trans hn, _, by simp [upd, hD], R', ?_⟩
          unfold view
          rw [u3, u5]
          simp [withQ, upd, takeBuf, hq]
        · obtain ⟨p', f3, u3, u4, u5, R'⟩ := freeFrame_sim R2
          dsimp only
          rw [f3, bind_ok, bind_ok]
          refine ⟨p', rfl, u4.trans hn, _, by simp [upd, hD], R', ?_⟩
          unfold view
          rw [u3, u5]
          simp [withQ, upd, takeBuf, hq]
        · dsimp only
          have hf : ∀ q, q < 4 → f ∉ upd Q 0 m q := fun q hq => R1.lists.held hq (by simp)
          let fr : Frame := ⟨i, stamp, id, shown⟩
          let c1 : Ctx := p.c.upd i fun d => { d with mark := d.mark - dec }
          let p1 : PCtx := { takeBuf { p with h := h' } f (ext s i) with mem := upd p.mem f fr, c := c1 }
          have R3 : Rel p1 (upd Q 0 m) [f] := ⟨R2.lists, R2.own, R2.bufs, R2.ok⟩
          obtain ⟨h2, e2, R4⟩ := link_sim R3 (q := 2) (by omega)
          show ∃ p', ((link p1 pendingQ f >>= _) >>= _) = _ ∧ _
          rw [show link p1 pendingQ f = _ from e2, bind_ok, bind_ok]
          dsimp only
          apply ih
          refine ⟨hn, _, ?_, rel_ctx R4 _, ?_⟩
          · simp [upd, hD]
          · have hm : ∀ l : List Nat, f ∉ l → l.map (upd p.mem f fr) = l.map p.mem := by
              intro l hl
              apply List.map_congr_left
              intro y hy
              exact upd_other _ _ (by rintro rfl; exact hl hy)
            have h1 := hm (Q 1) (by simpa [upd] using hf 1 (by omega))
            have h2 := hm (Q 2) (by simpa [upd] using hf 2 (by omega))
            show _ = withQ _ _ ((upd (upd Q 0 m) 2 (upd Q 0 m 2 ++ [f]) 2).map (upd p.mem f fr))
              ((upd (upd Q 0 m) 2 (upd Q 0 m 2 ++ [f]) 1).map (upd p.mem f fr))
            rw [show upd (upd Q 0 m) 2 (upd Q 0 m 2 ++ [f]) 2 = Q 2 ++ [f] by simp [upd],
              show upd (upd Q 0 m) 2 (upd Q 0 m 2 ++ [f]) 1 = Q 1 by simp [upd], List.map_append, h1, h2]
            show _ = withQ ({ c1.upd i fun d => { d with pending := true } with pending := c1.pending + 1 }) _ _ _
            rw [upd_upd]
            simp [withQ, view, upd, hq, Ctx.upd, fr, c1]

theorem pProcessDevices_eq (W : World σ) (ext : σ → Nat → Buf) (p : PCtx) (s : σ) :
    pProcessDevices W ext p s =
    (match W.poll s p.c.asked with
    | (.intr, s) => .ok (p, s, 0)
    | (.err, s) => .ok (p, s, -1)
    | (.ok ready, s) => do
      match ← pReadDevs W ext p.c.asked ready (List.range p.c.devs.length) p s 0 with
      | (p, s, some r, _) => .ok (p, s, r)
      | (p, s, none, n) =>
        let (p, s) ← pEndPass W p s
        .ok (p, s, n)) := rfl

theorem processDevices_sim {W : World σ} {ext : σ → Nat → Buf} {D : List Nat} {n : Nat} {p : PCtx} {c c' : Ctx} {s s' : σ} {r : Int}
    (S : Sim D n p c) (e : processDevices W c s = .ok (c', s', r)) :
    ∃ p', pProcessDevices W ext p s = .ok (p', s', r) ∧ Sim D n p' c' := by
  rw [processDevices_eq] at e
  have ha : c.asked = p.c.asked := by obtain ⟨_, Q, _, _, rfl⟩ := S; rfl
  rw [S.ctx.2.2.2.2.2.1, ha] at e
  rw [pProcessDevices_eq]
  generalize p.c.asked = asked at e ⊢
  rcases hp : W.poll s asked with ⟨_ | _ | ready, s1⟩
  · rw [hp] at e
    injection e with e; injection e with ec es; injection es with es er; subst ec es er
    exact ⟨p, rfl, S⟩
  · rw [hp] at e
    injection e with e; injection e with ec es; injection es with es er; subst ec es er
    exact ⟨p, rfl, S⟩
  · rw [hp] at e
    dsimp only at e ⊢
    obtain ⟨p1, f1, S1⟩ := readDevs_sim (W := W) (ext := ext) (asked := asked) (ready := ready)
      (is := List.range p.c.devs.length) (s := s1) (k := 0) S
    rw [f1, bind_ok]
    rcases hr : readDevs W asked ready (List.range p.c.devs.length) c s1 0 with ⟨c1, s2, _ | r1, k⟩
    · rw [hr] at e S1
      dsimp only at e S1 ⊢
      cases h1 : endPass W c1 s2 with
      | error x => rw [h1] at e; cases e
      | ok x =>
        rw [h1] at e
        injection e with e; injection e with ec es; injection es with es er; subst ec es er
        obtain ⟨p2, f2, S2⟩ := endPass_sim S1 h1
        rw [f2, bind_ok]
        exact ⟨p2, rfl, S2⟩
    · rw [hr] at e S1
      injection e with e; injection e with ec es; injection es with es er; subst ec es er
      exact ⟨p1, rfl, S1⟩

theorem processLogs_sim {W : World σ} {ext : σ → Nat → Buf} {D : List Nat} {n : Nat} {dump : Bool} {max : Int} :
    ∀ {fuel : Nat} {p : PCtx} {c c' : Ctx} {s s' : σ} {k : Int} {r : Option Int}, Sim D n p c →
      processLogs W dump max fuel c s k = .ok (c', s', r) →
      ∃ p', pProcessLogs W ext dump max fuel p s k = .ok (p', s', r) ∧ Sim D n p' c' := by
  intro fuel
  induction fuel with
  | zero =>
    intro p c c' s s' k r S e
    unfold processLogs at e
    injection e with e; injection e with ec es; injection es with es er; subst ec es er
    exact ⟨p, rfl, S⟩
  | succ fuel ih =>
    intro p c c' s s' k r S e
    unfold processLogs at e
    obtain ⟨⟨c1, s1, r1⟩, e1, e2⟩ := ok_bind e
    obtain ⟨p1, f1, S1⟩ := processDevices_sim (ext := ext) S e1
    unfold pProcessLogs
    rw [f1, bind_ok]
    dsimp only at e2 ⊢
    rw [← S1.ctx.2.2.2.1, ← S1.ctx.2.2.2.2.1, ← S1.ctx.2.1]
    split at e2
    · rename_i h
      rw [if_pos h]
      injection e2 with e; injection e with ec es; injection es with es er; subst ec es er
      exact ⟨p1, rfl, S1⟩
    · rename_i h
      rw [if_neg h]
      split at e2
      · rename_i h
        rw [if_pos h]
        obtain ⟨⟨c2, s2⟩, e3, e4⟩ := ok_bind e2
        obtain ⟨p2, f2, S2⟩ := flushPendingQueue_sim S1 e3
        injection e4 with e; injection e with ec es; injection es with es er; subst ec es er
        rw [f2]
        exact ⟨p2, rfl, S2⟩
      · rename_i h
        rw [if_neg h]
        split at e2
        · rename_i h
          rw [if_pos h]
          injection e2 with e; injection e with ec es; injection es with es er; subst ec es er
          exact ⟨p1, rfl, S1⟩
        · rename_i h
          rw [if_neg h]
          split at e2
          · rename_i h
            rw [if_pos h]
            exact ih S1 e2
          · rename_i h
            rw [if_neg h]
            injection e2 with e; injection e with ec es; injection es with es er; subst ec es er
            exact ⟨p1, rfl, S1⟩

end Verif.Ulogcat.Queue
