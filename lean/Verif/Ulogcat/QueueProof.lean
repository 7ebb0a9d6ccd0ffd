import Verif.Ulogcat.QueueRing

/-!
# The linked queues hold what `Core` says

`Rel p c Q H`: the queues of `p` are rings over the lists `Q`, the frames `H` are in
no queue, and `c` is the context of `p` with the contents of the queues as values.
-/
namespace Verif.Ulogcat.Queue
open Verif Verif.Ulogcat

variable {σ : Type}

/-- The context with other queues. -/
def withQ (c : Ctx) (free : Nat) (pendQ rendQ : List Frame) : Ctx := { c with free, pendQ, rendQ }

/-- `Q` are the nodes behind the four heads, `H` frames in no queue. -/
structure Lists (h : Heap) (n : Nat) (Q : Nat → List Nat) (H : List Nat) : Prop where
  ring : ∀ q, q < 4 → Ring h q (Q q)
  uniq : ∀ x, (Q 0).count x + (Q 1).count x + (Q 2).count x + (Q 3).count x + H.count x ≤ 1
  frames : ∀ x, x ∈ Q 0 ∨ x ∈ Q 1 ∨ x ∈ Q 2 ∨ x ∈ H → 4 ≤ x ∧ x < 4 + n
  devs : ∀ x ∈ Q 3, 4 + n ≤ x
  live : ∀ x, x < 4 + n ∨ x ∈ Q 3 → h.live x = true

theorem lt4 {q : Nat} (h : q < 4) : q = 0 ∨ q = 1 ∨ q = 2 ∨ q = 3 := by omega

theorem Lists.ge {h : Heap} {n : Nat} {Q : Nat → List Nat} {H : List Nat} (L : Lists h n Q H) {q x : Nat} (hq : q < 4)
    (hx : x ∈ Q q) : 4 ≤ x := by
  rcases lt4 hq with rfl | rfl | rfl | rfl
  · exact (L.frames x (by simp [hx])).1
  · exact (L.frames x (by simp [hx])).1
  · exact (L.frames x (by simp [hx])).1
  · exact Nat.le_trans (by omega) (L.devs x hx)

theorem Lists.alive {h : Heap} {n : Nat} {Q : Nat → List Nat} {H : List Nat} (L : Lists h n Q H) {q x : Nat} (hq : q < 4)
    (hx : x ∈ q :: Q q) : h.live x = true := by
  rcases List.mem_cons.1 hx with rfl | hx
  · exact L.live _ (by omega)
  rcases lt4 hq with rfl | rfl | rfl | rfl
  · exact L.live _ (.inl (L.frames x (by simp [hx])).2)
  · exact L.live _ (.inl (L.frames x (by simp [hx])).2)
  · exact L.live _ (.inl (L.frames x (by simp [hx])).2)
  · exact L.live _ (.inr hx)

theorem Lists.apart {h : Heap} {n : Nat} {Q : Nat → List Nat} {H : List Nat} (L : Lists h n Q H) {q q' x : Nat} (hq : q < 4)
    (hq' : q' < 4) (hne : q ≠ q') (hx : x ∈ Q q) : x ∉ Q q' := by
  intro hx'
  have h1 := List.count_pos_iff.2 hx
  have h2 := List.count_pos_iff.2 hx'
  have h3 := L.uniq x
  rcases lt4 hq with rfl | rfl | rfl | rfl <;> rcases lt4 hq' with rfl | rfl | rfl | rfl <;>
    first | exact hne rfl | omega

theorem Lists.held {h : Heap} {n : Nat} {Q : Nat → List Nat} {H : List Nat} (L : Lists h n Q H) {q x : Nat} (hq : q < 4)
    (hx : x ∈ H) : x ∉ Q q := by
  intro hx'
  have h1 := List.count_pos_iff.2 hx
  have h2 := List.count_pos_iff.2 hx'
  have h3 := L.uniq x
  rcases lt4 hq with rfl | rfl | rfl | rfl <;> omega

theorem Lists.nodup {h : Heap} {n : Nat} {Q : Nat → List Nat} {H : List Nat} (L : Lists h n Q H) {q : Nat} (hq : q < 4) :
    (q :: Q q).Nodup := by
  refine List.nodup_cons.2 ⟨fun hx => ?_, ?_⟩
  · have := L.ge hq hx; omega
  · rw [List.nodup_iff_count]
    intro x
    have h3 := L.uniq x
    rcases lt4 hq with rfl | rfl | rfl | rfl <;> omega

/-- Rings away from the change are kept. -/
theorem ring_keep {h h' : Heap} {n : Nat} {Q : Nat → List Nat} {H : List Nat} (L : Lists h n Q H) {q q' : Nat}
    (hq : q < 4) (hq' : q' < 4) (hne : q' ≠ q) {X : List Nat} (hX : ∀ x ∈ X, x ∈ q :: Q q ∨ x ∈ H)
    (hk : ∀ y, y ∉ X → h'.nx y = h.nx y ∧ h'.pv y = h.pv y) : Ring h' q' (Q q') := by
  have key : ∀ x ∈ q' :: Q q', x ∉ X := by
    intro x hx hx'
    rcases List.mem_cons.1 hx with rfl | hx
    · rcases hX x hx' with h1 | h1
      · rcases List.mem_cons.1 h1 with rfl | h1
        · exact hne rfl
        · have := L.ge hq h1; omega
      · have := (L.frames x (by simp [h1])).1; omega
    · rcases hX x hx' with h1 | h1
      · rcases List.mem_cons.1 h1 with rfl | h1
        · have := L.ge hq' hx; omega
        · exact L.apart hq' hq hne hx h1
      · exact L.held hq' h1 hx
  exact path_congr (fun x hx => (hk x (key x hx)).1) (fun x hx => (hk x (key x hx)).2) (L.ring q' hq')

theorem upd_ring {h' : Heap} {Q : Nat → List Nat} {q : Nat} {l : List Nat} (R : Ring h' q l)
    (K : ∀ q', q' < 4 → q' ≠ q → Ring h' q' (Q q')) : ∀ q', q' < 4 → Ring h' q' (upd Q q l q') := by
  intro q' hq'
  by_cases e : q' = q
  · subst e; rw [upd_same]; exact R
  · rw [upd_other _ _ e]; exact K q' hq' e

theorem lists_remove {h : Heap} {n : Nat} {Q : Nat → List Nat} {H : List Nat} (L : Lists h n Q H) {q x : Nat} (hq : q < 3)
    {l m : List Nat} (e : Q q = l ++ x :: m) :
    ∃ h', listRemove h x = .ok h' ∧ Lists h' n (upd Q q (l ++ m)) (x :: H) := by
  have hq4 : q < 4 := by omega
  have R := L.ring q hq4
  have nd := L.nodup hq4
  have al : ∀ y ∈ q :: Q q, h.live y = true := fun y hy => L.alive hq4 hy
  rw [e] at R nd al
  obtain ⟨h', e1, R', lv, _, hk⟩ := remove_spec R nd al
  refine ⟨h', e1, upd_ring R' fun q' hq' hne => ring_keep L hq4 hq' hne (X := q :: (l ++ m)) ?_ hk, ?_, ?_, ?_, ?_⟩
  · intro y hy; rw [e]; left; grind
  · intro y
    have := L.uniq y
    have hc : (Q q).count y = (l ++ m).count y + [x].count y := by
      rw [e]; simp only [List.count_append, List.count_cons, List.count_nil]; omega
    have h2 : (x :: H).count y = [x].count y + H.count y := by
      simp only [List.count_cons, List.count_nil]; omega
    rw [h2]
    rcases (show q = 0 ∨ q = 1 ∨ q = 2 by omega) with rfl | rfl | rfl <;> simp [upd] <;>
      simp only [List.count_append] at hc <;> omega
  · intro y hy
    apply L.frames
    rcases (show q = 0 ∨ q = 1 ∨ q = 2 by omega) with rfl | rfl | rfl <;> simp [upd] at hy <;> grind
  · intro y hy
    rw [upd_other _ _ (by omega)] at hy
    exact L.devs y hy
  · intro y hy
    rw [upd_other _ _ (by omega)] at hy
    rw [lv]
    exact L.live y hy

theorem lists_add {h : Heap} {n : Nat} {Q : Nat → List Nat} {H : List Nat} {q x : Nat} (L : Lists h n Q (x :: H)) (hq : q < 3) :
    ∃ h', listAddTail h q x = .ok h' ∧ Lists h' n (upd Q q (Q q ++ [x])) H := by
  have hq4 : q < 4 := by omega
  have hxr := L.frames x (by simp)
  obtain ⟨h', e1, R', lv, hk⟩ := addTail_spec (L.ring q hq4) (L.nodup hq4) (x := x)
    (by
      intro hx
      rcases List.mem_cons.1 hx with hx | hx
      · omega
      · exact L.held hq4 (by simp) hx)
    (fun y hy => L.alive hq4 hy) (L.live x (.inl hxr.2))
  refine ⟨h', e1, upd_ring R' fun q' hq' hne => ring_keep L hq4 hq' hne (X := x :: q :: Q q) ?_ hk, ?_, ?_, ?_, ?_⟩
  · intro y hy; grind
  · intro y
    have := L.uniq y
    have h2 : (x :: H).count y = [x].count y + H.count y := by
      simp only [List.count_cons, List.count_nil]; omega
    rw [h2] at this
    rcases (show q = 0 ∨ q = 1 ∨ q = 2 by omega) with rfl | rfl | rfl <;> simp [upd] <;> omega
  · intro y hy
    apply L.frames
    rcases (show q = 0 ∨ q = 1 ∨ q = 2 by omega) with rfl | rfl | rfl <;> simp [upd] at hy <;> grind
  · intro y hy
    rw [upd_other _ _ (by omega)] at hy
    exact L.devs y hy
  · intro y hy
    rw [upd_other _ _ (by omega)] at hy
    rw [lv]
    exact L.live y hy

/-- The first node of a ring. -/
theorem ring_next {h : Heap} {a : Nat} {l : List Nat} (R : Ring h a l) : h.nx a = l.headD a := by
  cases l with
  | nil => exact R.1
  | cons x l => exact R.1.1

/-! ## The relation -/

structure Rel (p : PCtx) (Q : Nat → List Nat) (H : List Nat) : Prop where
  lists : Lists p.h p.n Q H
  own : ∀ x ∈ Q 0, p.buf x = .own
  bufs : p.bufs = (Q 1 ++ Q 2 ++ H).countP fun x => decide (p.buf x = .extra)
  ok : p.badFree = false

/-- The context with the contents of the queues as values. -/
def view (p : PCtx) (Q : Nat → List Nat) : Ctx := withQ p.c (Q 0).length ((Q 2).map p.mem) ((Q 1).map p.mem)

theorem Rel.isFrame {p : PCtx} {Q : Nat → List Nat} {H : List Nat} (R : Rel p Q H) {x : Nat}
    (hx : x ∈ Q 0 ∨ x ∈ Q 1 ∨ x ∈ Q 2 ∨ x ∈ H) : p.frame x = .ok (p.mem x) := by
  have := R.lists.frames x hx
  unfold PCtx.frame PCtx.isFrame
  rw [if_pos (by simp; omega)]

theorem flush_view (W : World σ) (c : Ctx) (a : Nat) (b d : List Frame) (s : σ) (f : Frame) :
    flushFrame W (withQ c a b d) s f = (flushFrame W c s f).map fun x => (withQ x.1 a b d, x.2) := by
  have ho : ∀ (c : Ctx) (s : σ) (e : OutEv), output W (withQ c a b d) s e =
      (withQ (output W c s e).1 a b d, (output W c s e).2) := by
    intro c s e
    unfold output
    show (if c.outErr then _ else _) = _
    by_cases h : c.outErr = true
    · rw [if_pos h, if_pos h]
    · rw [if_neg h, if_neg h]
      rcases W.output s e with ⟨_ | _, s'⟩ <;> rfl
  unfold flushFrame
  show (match c.devs[f.dev]? with | none => _ | some d => _) = _
  cases c.devs[f.dev]? with
  | none => rfl
  | some dv =>
    show Except.ok (flushEntry W (flushBanner W (withQ c a b d) s f dv) f) = Except.ok (_, _)
    congr 1
    have hb : flushBanner W (withQ c a b d) s f dv = (withQ (flushBanner W c s f dv).1 a b d, (flushBanner W c s f dv).2) := by
      unfold flushBanner
      show (if (!dv.printed && decide (c.devs.length > 1)) = true then _ else _) = _
      split
      · dsimp only
        rw [ho]
        rfl
      · rfl
    rw [hb]
    unfold flushEntry
    split
    · dsimp only
      rw [ho]
    · rfl

theorem flushUnless_view (W : World σ) (drop : Bool) (c : Ctx) (a : Nat) (b d : List Frame) (s : σ) (f : Frame) :
    flushUnless W drop (withQ c a b d) s f = (flushUnless W drop c s f).map fun x => (withQ x.1 a b d, x.2) := by
  unfold flushUnless
  cases drop with
  | true => rfl
  | false => exact flush_view W c a b d s f

theorem pFlushUnless_sim {W : World σ} {drop : Bool} {p : PCtx} {Q : Nat → List Nat} {H : List Nat} (R : Rel p Q H) {f : Nat}
    (hf : f ∈ Q 0 ∨ f ∈ Q 1 ∨ f ∈ Q 2 ∨ f ∈ H) {s s' : σ} {c' : Ctx} {a : Nat} {b d : List Frame}
    (e : flushUnless W drop (withQ p.c a b d) s (p.mem f) = .ok (c', s')) :
    ∃ c1, pFlushUnless W drop p s f = .ok ({ p with c := c1 }, s') ∧ c' = withQ c1 a b d := by
  rw [flushUnless_view] at e
  unfold pFlushUnless
  cases drop with
  | true =>
    have e' : Except.ok (ε := CFault) (withQ p.c a b d, s) = .ok (c', s') := e
    injection e' with e'
    injection e' with e1 e2
    subst e1 e2
    exact ⟨p.c, rfl, rfl⟩
  | false =>
    have e' : (flushFrame W p.c s (p.mem f)).map (fun x => (withQ x.1 a b d, x.2)) = .ok (c', s') := e
    cases h1 : flushFrame W p.c s (p.mem f) with
    | error x => rw [h1] at e'; cases e'
    | ok x =>
      rw [h1] at e'
      injection e' with e'
      injection e' with e1 e2
      subst e1 e2
      refine ⟨x.1, ?_, rfl⟩
      show pFlush W p s f = _
      unfold pFlush
      rw [R.isFrame hf, bind_ok, h1]
      rfl

/-! ## Moving a frame -/

theorem rel_ctx {p : PCtx} {Q : Nat → List Nat} {H : List Nat} (R : Rel p Q H) (c : Ctx) : Rel { p with c } Q H :=
  ⟨R.lists, R.own, R.bufs, R.ok⟩

theorem unlink_sim {p : PCtx} {Q : Nat → List Nat} (R : Rel p Q []) {q x : Nat} (hq : q < 3) {l m : List Nat}
    (e : Q q = l ++ x :: m) : ∃ h', unlink p x = .ok { p with h := h' } ∧ Rel { p with h := h' } (upd Q q (l ++ m)) [x] := by
  obtain ⟨h', e1, L⟩ := lists_remove R.lists hq e
  refine ⟨h', ?_, L, ?_, ?_, R.ok⟩
  · unfold unlink; rw [e1]; rfl
  · intro y hy
    apply R.own
    rcases (show q = 0 ∨ q = 1 ∨ q = 2 by omega) with rfl | rfl | rfl <;> simp [upd] at hy <;> grind
  · show p.bufs = _
    rw [R.bufs]
    rcases (show q = 0 ∨ q = 1 ∨ q = 2 by omega) with rfl | rfl | rfl
    · have := R.own x (by rw [e]; simp)
      simp [upd, this]
    · simp only [upd, List.countP_append, e, List.countP_cons, List.countP_nil]; simp; omega
    · simp only [upd, List.countP_append, e, List.countP_cons, List.countP_nil]; simp; omega

theorem link_sim {p : PCtx} {Q : Nat → List Nat} {x : Nat} (R : Rel p Q [x]) {q : Nat} (hq : q = 1 ∨ q = 2) :
    ∃ h', link p q x = .ok { p with h := h' } ∧ Rel { p with h := h' } (upd Q q (Q q ++ [x])) [] := by
  obtain ⟨h', e1, L⟩ := lists_add R.lists (q := q) (by omega)
  refine ⟨h', ?_, L, ?_, ?_, R.ok⟩
  · unfold link; rw [e1]; rfl
  · intro y hy
    apply R.own
    rcases hq with rfl | rfl <;> simpa [upd] using hy
  · show p.bufs = _
    rw [R.bufs]
    rcases hq with rfl | rfl
    · simp only [upd, List.countP_append, List.countP_cons, List.countP_nil]; simp; omega
    · simp only [upd, List.countP_append, List.countP_cons, List.countP_nil]; simp; omega

theorem freeFrame_sim {p : PCtx} {Q : Nat → List Nat} {x : Nat} (R : Rel p Q [x]) :
    ∃ p', freeFrame p x = .ok p' ∧ p'.c = p.c ∧ p'.n = p.n ∧ p'.mem = p.mem ∧ Rel p' (upd Q 0 (Q 0 ++ [x])) [] := by
  have hd : (dropBuf p x).h = p.h ∧ (dropBuf p x).n = p.n ∧ (dropBuf p x).c = p.c ∧ (dropBuf p x).mem = p.mem ∧
      (dropBuf p x).buf x = .own ∧ (∀ y, y ≠ x → (dropBuf p x).buf y = p.buf y) := by
    unfold dropBuf
    cases hb : p.buf x with
    | own => exact ⟨rfl, rfl, rfl, rfl, hb, fun _ _ => rfl⟩
    | null => exact ⟨rfl, rfl, rfl, rfl, upd_same _ _ _, fun _ h => upd_other _ _ h⟩
    | extra => exact ⟨rfl, rfl, rfl, rfl, upd_same _ _ _, fun _ h => upd_other _ _ h⟩
  obtain ⟨d1, d2, d3, d4, d5, d6⟩ := hd
  obtain ⟨h', e1, L⟩ := lists_add R.lists (q := 0) (by omega)
  have hx1 : x ∉ Q 1 := R.lists.held (by omega) (by simp)
  have hx2 : x ∉ Q 2 := R.lists.held (by omega) (by simp)
  have hc : ∀ l : List Nat, x ∉ l → (l.countP fun y => decide ((dropBuf p x).buf y = Buf.extra)) =
      l.countP fun y => decide (p.buf y = .extra) := by
    intro l hl
    apply List.countP_congr
    intro y hy
    rw [d6 y (by rintro rfl; exact hl hy)]
  refine ⟨{ dropBuf p x with h := h' }, ?_, d3, d2, d4, ?_, ?_, ?_, ?_⟩
  · unfold freeFrame
    rw [R.isFrame (by simp), bind_ok]
    dsimp only
    rw [d1, e1]
    rfl
  · show Lists h' (dropBuf p x).n _ _
    rw [d2]; exact L
  · intro y hy
    show (dropBuf p x).buf y = .own
    by_cases hyx : y = x
    · rw [hyx, d5]
    · rw [d6 y hyx]
      apply R.own
      simp [upd] at hy
      grind
  · show (dropBuf p x).bufs = _
    have hb := R.bufs
    simp only [List.countP_append, List.countP_cons, List.countP_nil] at hb
    show _ = ((upd Q 0 (Q 0 ++ [x]) 1 ++ upd Q 0 (Q 0 ++ [x]) 2 ++ []).countP fun y => decide ((dropBuf p x).buf y = Buf.extra))
    rw [upd_other _ _ (by omega), upd_other _ _ (by omega), List.append_nil, List.countP_append, hc _ hx1, hc _ hx2]
    unfold dropBuf
    cases hx : p.buf x <;> simp [hx] at hb ⊢ <;> omega
  · show (dropBuf p x).badFree = false
    have hb := R.bufs
    simp only [List.countP_append, List.countP_cons, List.countP_nil] at hb
    have ho := R.ok
    unfold dropBuf
    cases hx : p.buf x <;> simp [hx, ho] at hb ⊢
    omega

end Verif.Ulogcat.Queue
