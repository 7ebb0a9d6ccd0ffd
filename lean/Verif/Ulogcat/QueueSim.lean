import Verif.Ulogcat.QueueProof

/-!
# The loop on linked queues does what `Core` says

For each function: if the function of `Core` ends without a fault, so does the one
on linked queues, with the same effect.
-/
namespace Verif.Ulogcat.Queue
open Verif Verif.Ulogcat

variable {σ : Type}

/-- The queues of `p` are in order, `D` are its devices, it has `n` frames, and `c` is
its context with the queues as values. -/
def Sim (D : List Nat) (n : Nat) (p : PCtx) (c : Ctx) : Prop :=
  p.n = n ∧ ∃ Q, Q 3 = D ∧ Rel p Q [] ∧ c = view p Q

theorem Rel.next {p : PCtx} {Q : Nat → List Nat} {H : List Nat} (R : Rel p Q H) {q : Nat} (hq : q < 4) :
    p.h.next q = .ok ((Q q).headD q) := by
  rw [next_ok (R.lists.live q (by omega)), ring_next (R.lists.ring q hq)]

/-- The context after a frame went from queue `q` to the free queue. -/
theorem release {p : PCtx} {Q : Nat → List Nat} (R : Rel p Q []) {q x : Nat} (hq : q = 1 ∨ q = 2) {l m : List Nat}
    (e : Q q = l ++ x :: m) :
    ∃ p1 p2 Q', unlink p x = .ok p1 ∧ freeFrame p1 x = .ok p2 ∧ p2.c = p.c ∧ p2.n = p.n ∧ Rel p2 Q' [] ∧ Q' 3 = Q 3 ∧
      (Q' 0).length = (Q 0).length + 1 ∧ (Q' 1).map p2.mem = (if q = 1 then l ++ m else Q 1).map p.mem ∧
      (Q' 2).map p2.mem = (if q = 2 then l ++ m else Q 2).map p.mem := by
  obtain ⟨h', e1, R1⟩ := unlink_sim R (by omega) e
  obtain ⟨p2, e2, c2, n2, m2, R2⟩ := freeFrame_sim R1
  refine ⟨_, p2, _, e1, e2, c2, n2, R2, ?_, ?_, ?_, ?_⟩
  · rcases hq with rfl | rfl <;> simp [upd]
  · rcases hq with rfl | rfl <;> simp [upd]
  · rw [m2]; rcases hq with rfl | rfl <;> simp [upd]
  · rw [m2]; rcases hq with rfl | rfl <;> simp [upd]

theorem flushRenderFrame_sim {W : World σ} {drop : Bool} {D : List Nat} {n : Nat} {p : PCtx} {c c' : Ctx} {s s' : σ}
    (S : Sim D n p c) (e : flushRenderFrame W drop c s = .ok (c', s')) :
    ∃ p', pFlushRenderFrame W drop p s = .ok (p', s') ∧ Sim D n p' c' := by
  obtain ⟨hn, Q, hD, R, rfl⟩ := S
  unfold flushRenderFrame at e
  unfold pFlushRenderFrame
  by_cases hr : p.c.render > 0
  · rw [if_pos (show (view p Q).render > 0 from hr)] at e
    rw [if_pos hr, R.next (show renderQ < 4 by decide), bind_ok]
    have e0 : (view p Q).rendQ = (Q 1).map p.mem := rfl
    cases h1 : Q 1 with
    | nil => rw [e0, h1] at e; cases e
    | cons f m =>
      rw [e0, h1, List.map_cons] at e
      dsimp only at e
      cases h2 : flushUnless W drop (view p Q) s (p.mem f) with
      | error x => rw [h2] at e; cases e
      | ok x =>
        rw [h2, bind_ok] at e
        obtain ⟨c1, s1⟩ := x
        injection e with e
        injection e with ec es
        subst es
        obtain ⟨c2, e2, rfl⟩ := pFlushUnless_sim R (by simp [h1]) h2
        rw [show (f :: m).headD renderQ = f from rfl]
        rw [e2, bind_ok]
        obtain ⟨p1, p2, Q', u1, u2, u3, u4, R', q3, q0, q1, q2⟩ :=
          release (rel_ctx R c2) (q := 1) (x := f) (l := []) (m := m) (by omega) h1
        dsimp only
        rw [u1, bind_ok, u2, bind_ok]
        refine ⟨_, rfl, by exact u4.trans hn, Q', by rw [q3, hD], rel_ctx R' _, ?_⟩
        subst ec
        unfold view withQ
        rw [q0, q1, q2, u3]
        rfl
  · rw [if_neg (show ¬ (view p Q).render > 0 from hr)] at e
    injection e with e
    injection e with ec es
    subst ec es
    rw [if_neg hr]
    exact ⟨p, rfl, hn, Q, hD, R, rfl⟩

/-! ## The oldest frame -/

/-- The address `find_oldest_pending_frame` is expected to return. -/
def oldest (mem : Nat → Frame) : List Nat → Option Nat
  | [] => none
  | x :: l =>
    match oldest mem l with
    | none => some x
    | some y => if (mem y).stamp < (mem x).stamp then some y else some x

theorem oldest_pop (mem : Nat → Frame) (l : List Nat) :
    (oldest mem l = none ∧ l = [] ∧ popOldest (l.map mem) = none) ∨
      ∃ a x b, oldest mem l = some x ∧ l = a ++ x :: b ∧ popOldest (l.map mem) = some (mem x, (a ++ b).map mem) := by
  induction l with
  | nil => exact .inl ⟨rfl, rfl, rfl⟩
  | cons x l ih =>
    right
    rcases ih with ⟨h1, rfl, h3⟩ | ⟨a, y, b, h1, h2, h3⟩
    · exact ⟨[], x, [], rfl, rfl, rfl⟩
    · by_cases h : (mem y).stamp < (mem x).stamp
      · refine ⟨x :: a, y, b, ?_, by rw [h2]; rfl, ?_⟩
        · simp only [oldest, h1, h, if_true]
        · rw [List.map_cons]; unfold popOldest; rw [h3]; simp only [h, if_true]; rfl
      · refine ⟨[], x, l, ?_, rfl, ?_⟩
        · simp only [oldest, h1, h, if_false]
        · rw [List.map_cons]; unfold popOldest; rw [h3]; simp only [h, if_false]; rfl

/-- The walk over the rest of a ring. -/
theorem walk_spec {p : PCtx} {a : Nat} {l : List Nat} (P : Path p.h a l pendingQ) (hl : ∀ x ∈ l, p.frame x = .ok (p.mem x) ∧ x ≠ pendingQ)
    (lv : ∀ x ∈ l, p.h.live x = true) {k : Nat} (hk : l.length ≤ k) (r st : Nat) :
    oldestWalk p k (p.h.nx a) (some r) st = .ok (match oldest p.mem l with
      | none => some r
      | some y => if (p.mem y).stamp < st then some y else some r) := by
  induction l generalizing a k r st with
  | nil =>
    rw [P.1]
    cases k <;> rfl
  | cons x l ih =>
    rw [P.1.1]
    cases k with
    | zero => simp at hk
    | succ k =>
      have hk' : l.length ≤ k := by simpa using hk
      unfold oldestWalk
      rw [if_neg (hl x (by simp)).2, (hl x (by simp)).1, bind_ok, next_ok (lv x (by simp)), bind_ok]
      have IH := fun r st => ih P.2 (fun y hy => hl y (by simp [hy])) (fun y hy => lv y (by simp [hy])) hk' r st
      simp only [reduceCtorEq, false_or]
      by_cases h : (p.mem x).stamp < st
      · rw [if_pos h, IH]
        simp only [oldest]
        cases ho : oldest p.mem l with
        | none => simp [h]
        | some y =>
          by_cases h2 : (p.mem y).stamp < (p.mem x).stamp
          · have : (p.mem y).stamp < st := by omega
            simp [h2, this]
          · simp [h2, h]
      · rw [if_neg h, IH]
        simp only [oldest]
        cases ho : oldest p.mem l with
        | none => simp [h]
        | some y =>
          by_cases h2 : (p.mem y).stamp < (p.mem x).stamp
          · simp [h2]
          · have : ¬ (p.mem y).stamp < st := by omega
            simp [h2, h, this]

theorem Lists.short {h : Heap} {n : Nat} {Q : Nat → List Nat} {H : List Nat} (L : Lists h n Q H) : (Q 2).length ≤ n := by
  have nd := (List.nodup_cons.1 (L.nodup (q := 2) (by omega))).2
  have sub : Q 2 ⊆ (List.range n).map (4 + ·) := by
    intro x hx
    have := L.frames x (by simp [hx])
    exact List.mem_map.2 ⟨x - 4, List.mem_range.2 (by omega), by omega⟩
  simpa using nd.length_le_of_subset sub

theorem findOldest_spec {p : PCtx} {Q : Nat → List Nat} {H : List Nat} (R : Rel p Q H) :
    findOldest p = .ok (oldest p.mem (Q 2)) := by
  unfold findOldest
  rw [next_ok (R.lists.live pendingQ (by show (2 < 4 + p.n) ∨ _; omega)), bind_ok]
  have P : Path p.h 2 (Q 2) 2 := R.lists.ring 2 (by omega)
  have hs := R.lists.short
  have hl : ∀ x ∈ Q 2, p.frame x = .ok (p.mem x) ∧ x ≠ pendingQ := fun x hx =>
    ⟨R.isFrame (by simp [hx]), by have := R.lists.ge (q := 2) (by omega) hx; show x ≠ 2; omega⟩
  have lv : ∀ x ∈ Q 2, p.h.live x = true := fun x hx => R.lists.alive (q := 2) (by omega) (by simp [hx])
  show oldestWalk p p.n (p.h.nx 2) none 0 = _
  cases hq : Q 2 with
  | nil =>
    rw [hq] at P
    rw [P.1]
    cases p.n <;> rfl
  | cons x l =>
    rw [hq] at P hs hl lv
    rw [P.1.1]
    cases hn : p.n with
    | zero => rw [hn] at hs; simp at hs
    | succ k =>
      rw [hn] at hs
      unfold oldestWalk
      rw [if_neg (hl x (by simp)).2, (hl x (by simp)).1, bind_ok, next_ok (lv x (by simp)), bind_ok]
      simp only [true_or, if_true]
      rw [walk_spec P.2 (fun y hy => hl y (by simp [hy])) (fun y hy => lv y (by simp [hy])) (by simpa using hs)]
      rfl

end Verif.Ulogcat.Queue
