import Verif.Ulogcat.QueueLoop

/-! # Opening and closing with linked queues -/
namespace Verif.Ulogcat.Queue
open Verif Verif.Ulogcat

/-- Four disjoint rings. -/
structure Rings (h : Heap) (Q : Nat → List Nat) : Prop where
  ring : ∀ q, q < 4 → Ring h q (Q q)
  uniq : ∀ x, (Q 0).count x + (Q 1).count x + (Q 2).count x + (Q 3).count x ≤ 1
  ge : ∀ q x, q < 4 → x ∈ Q q → 4 ≤ x
  live : ∀ q x, q < 4 → x ∈ q :: Q q → h.live x = true

theorem Rings.nodup {h : Heap} {Q : Nat → List Nat} (L : Rings h Q) {q : Nat} (hq : q < 4) : (q :: Q q).Nodup := by
  refine List.nodup_cons.2 ⟨fun hx => ?_, ?_⟩
  · have := L.ge q q hq hx; omega
  · rw [List.nodup_iff_count]
    intro x
    have h3 := L.uniq x
    rcases lt4 hq with rfl | rfl | rfl | rfl <;> omega

theorem Rings.apart {h : Heap} {Q : Nat → List Nat} (L : Rings h Q) {q q' x : Nat} (hq : q < 4)
    (hq' : q' < 4) (hne : q ≠ q') (hx : x ∈ Q q) : x ∉ Q q' := by
  intro hx'
  have h1 := List.count_pos_iff.2 hx
  have h2 := List.count_pos_iff.2 hx'
  have h3 := L.uniq x
  rcases lt4 hq with rfl | rfl | rfl | rfl <;> rcases lt4 hq' with rfl | rfl | rfl | rfl <;>
    first | exact hne rfl | omega

theorem rings_add {h : Heap} {Q : Nat → List Nat} (L : Rings h Q) {q x : Nat} (hq : q < 4) (hx4 : 4 ≤ x)
    (hx : ∀ q', q' < 4 → x ∉ Q q') (lx : h.live x = true) :
    ∃ h', listAddTail h q x = .ok h' ∧ Rings h' (upd Q q (Q q ++ [x])) ∧ h'.live = h.live := by
  obtain ⟨h', e1, R', lv, hk⟩ := addTail_spec (L.ring q hq) (L.nodup hq) (x := x)
    (by
      intro h1
      rcases List.mem_cons.1 h1 with h1 | h1
      · omega
      · exact hx q hq h1)
    (fun y hy => L.live q y hq hy) lx
  refine ⟨h', e1, ⟨upd_ring R' ?_, ?_, ?_, ?_⟩, lv⟩
  · intro q' hq' hne
    have key : ∀ y ∈ q' :: Q q', y ∉ x :: q :: Q q := by
      intro y hy hy'
      have hxq := hx q' hq'
      have := L.ge q' y hq'
      have := L.ge q y hq
      have := L.apart (x := y) hq' hq hne
      simp only [List.mem_cons] at hy hy'
      grind
    exact path_congr (fun y hy => (hk y (key y hy)).1) (fun y hy => (hk y (key y hy)).2) (L.ring q' hq')
  · intro y
    have := L.uniq y
    have hz : ∀ q', q' < 4 → (Q q').count x = 0 := fun q' hq' => List.count_eq_zero.2 (hx q' hq')
    have h0 := hz 0 (by omega)
    have h1 := hz 1 (by omega)
    have h2 := hz 2 (by omega)
    have h3 := hz 3 (by omega)
    by_cases hyx : y = x
    · subst hyx
      rcases lt4 hq with rfl | rfl | rfl | rfl <;> simp [upd] <;> omega
    · have : [x].count y = 0 := by simp [Ne.symm hyx]
      rcases lt4 hq with rfl | rfl | rfl | rfl <;> simp [upd] <;> omega
  · intro q' y hq' hy
    by_cases e : q' = q
    · subst e
      rw [upd_same] at hy
      rcases List.mem_append.1 hy with hy | hy
      · exact L.ge _ y hq hy
      · rw [List.mem_singleton.1 hy]; exact hx4
    · rw [upd_other _ _ e] at hy
      exact L.ge q' y hq' hy
  · intro q' y hq' hy
    rw [lv]
    by_cases e : q' = q
    · subst e
      rw [upd_same] at hy
      by_cases hyx : y = x
      · rw [hyx]; exact lx
      · exact L.live _ y hq (by grind)
    · rw [upd_other _ _ e] at hy
      exact L.live q' y hq' hy

theorem poolLoop_spec : ∀ (k i : Nat) {h : Heap} {Q : Nat → List Nat}, Rings h Q →
    (∀ j, i ≤ j → j < i + k → h.live (4 + j) = true ∧ ∀ q, q < 4 → 4 + j ∉ Q q) →
    ∃ h', poolLoop k i h = .ok h' ∧ Rings h' (upd Q 0 (Q 0 ++ (List.range' i k).map (4 + ·))) ∧ h'.live = h.live := by
  intro k
  induction k with
  | zero =>
    intro i h Q L _
    refine ⟨h, rfl, ?_, rfl⟩
    have : upd Q 0 (Q 0 ++ (List.range' i 0).map (4 + ·)) = Q := by
      simp only [List.range'_zero, List.map_nil, List.append_nil]; exact upd_id Q 0
    rw [this]; exact L
  | succ k ih =>
    intro i h Q L hj
    obtain ⟨h1, e1, L1, lv1⟩ := rings_add L (q := 0) (x := 4 + i) (by omega) (by omega) (hj i (by omega) (by omega)).2
      (hj i (by omega) (by omega)).1
    obtain ⟨h2, e2, L2, lv2⟩ := ih (i + 1) L1 (by
      intro j h1 h2
      refine ⟨by rw [lv1]; exact (hj j (by omega) (by omega)).1, fun q hq => ?_⟩
      by_cases e : q = 0
      · subst e
        rw [upd_same]
        intro hm
        rcases List.mem_append.1 hm with hm | hm
        · exact (hj j (by omega) (by omega)).2 0 hq hm
        · have := List.mem_singleton.1 hm; omega
      · rw [upd_other _ _ e]
        exact (hj j (by omega) (by omega)).2 q hq)
    refine ⟨h2, ?_, ?_, by rw [lv2, lv1]⟩
    · unfold poolLoop
      rw [show listAddTail h freeQ (4 + i) = _ from e1, bind_ok]
      exact e2
    · have : upd (upd Q 0 (Q 0 ++ [4 + i])) 0 (upd Q 0 (Q 0 ++ [4 + i]) 0 ++ (List.range' (i + 1) k).map (4 + ·)) =
          upd Q 0 (Q 0 ++ (List.range' i (k + 1)).map (4 + ·)) := by
        funext q
        by_cases e : q = 0
        · subst e; simp [upd, List.range'_succ]
        · simp [upd, e]
      rw [this] at L2
      exact L2

theorem devLoop_spec : ∀ (ds : List Nat) {h : Heap} {Q : Nat → List Nat}, Rings h Q → ds.Nodup →
    (∀ d ∈ ds, 4 ≤ d ∧ h.live d = true ∧ ∀ q, q < 4 → d ∉ Q q) →
    ∃ h', devLoop ds h = .ok h' ∧ Rings h' (upd Q 3 (Q 3 ++ ds)) ∧ h'.live = h.live := by
  intro ds
  induction ds with
  | nil =>
    intro h Q L _ _
    refine ⟨h, rfl, ?_, rfl⟩
    rw [List.append_nil, upd_id]; exact L
  | cons d ds ih =>
    intro h Q L nd hd
    have hd0 := hd d (by simp)
    obtain ⟨h1, e1, L1, lv1⟩ := rings_add L (q := 3) (x := d) (by omega) hd0.1 hd0.2.2 hd0.2.1
    obtain ⟨h2, e2, L2, lv2⟩ := ih L1 (List.nodup_cons.1 nd).2 (by
      intro x hx
      have hx0 := hd x (by simp [hx])
      refine ⟨hx0.1, by rw [lv1]; exact hx0.2.1, fun q hq => ?_⟩
      by_cases e : q = 3
      · subst e
        rw [upd_same]
        intro hm
        rcases List.mem_append.1 hm with hm | hm
        · exact hx0.2.2 3 hq hm
        · rw [List.mem_singleton.1 hm] at hx; exact (List.nodup_cons.1 nd).1 hx
      · rw [upd_other _ _ e]
        exact hx0.2.2 q hq)
    refine ⟨h2, ?_, ?_, by rw [lv2, lv1]⟩
    · unfold devLoop
      rw [show listAddTail h devsQ d = _ from e1, bind_ok]
      exact e2
    · have : upd (upd Q 3 (Q 3 ++ [d])) 3 (upd Q 3 (Q 3 ++ [d]) 3 ++ ds) = upd Q 3 (Q 3 ++ d :: ds) := by
        funext q
        by_cases e : q = 3
        · subst e; simp [upd]
        · simp [upd, e]
      rw [this] at L2
      exact L2

/-- The addresses of the devices and frames. -/
def devAddrs (n ndev : Nat) : List Nat := (List.range ndev).map fun i => 4 + n + i
def frameAddrs (n : Nat) : List Nat := (List.range n).map (4 + ·)

theorem openHeap_spec (n ndev : Nat) (junk : Nat → Nat) :
    ∃ h Q, openHeap n ndev junk = .ok h ∧ Lists h n Q [] ∧ Q 0 = frameAddrs n ∧ Q 1 = [] ∧ Q 2 = [] ∧ Q 3 = devAddrs n ndev := by
  let h0 : Heap := { nx := junk, pv := junk, live := fun a => decide (a < 4 + n + ndev) }
  have l0 : ∀ x, x < 4 + n + ndev → h0.live x = true := fun x hx => decide_eq_true hx
  obtain ⟨h1, e1, r1, v1, k1⟩ := init_spec (a := 3) (l0 3 (by omega))
  obtain ⟨h2, e2, r2, v2, k2⟩ := init_spec (h := h1) (a := 0) (by rw [v1]; exact l0 0 (by omega))
  obtain ⟨h3, e3, r3, v3, k3⟩ := init_spec (h := h2) (a := 1) (by rw [v2, v1]; exact l0 1 (by omega))
  obtain ⟨h4, e4, r4, v4, k4⟩ := init_spec (h := h3) (a := 2) (by rw [v3, v2, v1]; exact l0 2 (by omega))
  have v : h4.live = h0.live := by rw [v4, v3, v2, v1]
  have L4 : Rings h4 (fun _ => []) := by
    refine ⟨fun q hq => ?_, fun x => by simp, fun q x _ hx => by simp at hx, fun q x hq hx => ?_⟩
    · rcases lt4 hq with rfl | rfl | rfl | rfl
      · exact ⟨by rw [(k4 0 (by omega)).1, (k3 0 (by omega)).1]; exact r2.1, by rw [(k4 0 (by omega)).2, (k3 0 (by omega)).2]; exact r2.2⟩
      · exact ⟨by rw [(k4 1 (by omega)).1]; exact r3.1, by rw [(k4 1 (by omega)).2]; exact r3.2⟩
      · exact r4
      · exact ⟨by rw [(k4 3 (by omega)).1, (k3 3 (by omega)).1, (k2 3 (by omega)).1]; exact r1.1,
          by rw [(k4 3 (by omega)).2, (k3 3 (by omega)).2, (k2 3 (by omega)).2]; exact r1.2⟩
    · rw [v]
      have := List.mem_singleton.1 hx
      exact l0 x (by omega)
  have hnd : (devAddrs n ndev).Nodup := by
    unfold devAddrs
    rw [List.nodup_iff_pairwise_ne, List.pairwise_map]
    exact (List.nodup_iff_pairwise_ne.1 List.nodup_range).imp (fun h => by omega)
  have hdm : ∀ d ∈ devAddrs n ndev, 4 + n ≤ d ∧ d < 4 + n + ndev := by
    intro d hd
    obtain ⟨i, hi, rfl⟩ := List.mem_map.1 hd
    have := List.mem_range.1 hi
    omega
  obtain ⟨h5, e5, L5, v5⟩ := devLoop_spec (devAddrs n ndev) L4 hnd (by
    intro d hd
    have := hdm d hd
    exact ⟨by omega, by rw [v]; exact l0 d (by omega), fun q _ => by simp⟩)
  obtain ⟨h6, e6, L6, v6⟩ := poolLoop_spec n 0 L5 (by
    intro j _ hj
    refine ⟨by rw [v5, v]; exact l0 _ (by omega), fun q _ => ?_⟩
    by_cases e : q = 3
    · subst e
      rw [upd_same]
      intro hm
      have := hdm _ (by simpa using hm)
      omega
    · rw [upd_other _ _ e]; simp)
  refine ⟨h6, upd (upd (fun _ => []) 3 ([] ++ devAddrs n ndev)) 0 ([] ++ (List.range' 0 n).map (4 + ·)), ?_, ?_, ?_, ?_, ?_, ?_⟩
  rotate_left 3
  · simp [upd]
  · simp [upd]
  · simp [upd]
  · unfold openHeap
    dsimp only
    rw [show listInit _ devsQ = .ok h1 from e1, bind_ok, show listInit _ freeQ = .ok h2 from e2, bind_ok,
      show listInit _ renderQ = .ok h3 from e3, bind_ok, show listInit _ pendingQ = .ok h4 from e4, bind_ok]
    show (devLoop (devAddrs n ndev) h4 >>= _) = _
    rw [e5, bind_ok, e6]
  · have q0 : (upd (upd (fun _ => []) 3 ([] ++ devAddrs n ndev)) 0 ([] ++ (List.range' 0 n).map (4 + ·))) 0 = frameAddrs n := by
      simp [upd, frameAddrs, List.range_eq_range']
    have hfm : ∀ x ∈ frameAddrs n, 4 ≤ x ∧ x < 4 + n := by
      intro x hx
      obtain ⟨i, hi, rfl⟩ := List.mem_map.1 hx
      have := List.mem_range.1 hi
      omega
    refine ⟨L6.ring, ?_, ?_, ?_, ?_⟩
    · intro x
      have := L6.uniq x
      simpa [upd] using this
    · intro x hx
      simp only [List.not_mem_nil, or_false] at hx
      rcases hx with hx | hx | hx
      · exact hfm x (q0 ▸ hx)
      · simp [upd] at hx
      · simp [upd] at hx
    · intro x hx
      exact (hdm x (by simpa [upd] using hx)).1
    · intro x hx
      rw [v6, v5, v]
      apply l0
      rcases hx with hx | hx
      · omega
      · have := hdm x (by simpa [upd] using hx)
        omega
  · simp [upd, frameAddrs, List.range_eq_range']

/-! ## Closing -/

theorem setNext_live {h h' : Heap} {a v : Nat} (e : h.setNext a v = .ok h') : h'.live = h.live := by
  unfold Heap.setNext at e
  split at e
  · injection e with e; rw [← e]
  · cases e

theorem setPrev_live {h h' : Heap} {a v : Nat} (e : h.setPrev a v = .ok h') : h'.live = h.live := by
  unfold Heap.setPrev at e
  split at e
  · injection e with e; rw [← e]
  · cases e

theorem addTail_live {h h' : Heap} {a x : Nat} (e : listAddTail h a x = .ok h') : h'.live = h.live := by
  unfold listAddTail at e
  obtain ⟨h1, e1, e⟩ := ok_bind e
  obtain ⟨p1, _, e⟩ := ok_bind e
  obtain ⟨h2, e2, e⟩ := ok_bind e
  obtain ⟨p2, _, e⟩ := ok_bind e
  obtain ⟨h3, e3, e⟩ := ok_bind e
  rw [setPrev_live e, setNext_live e3, setPrev_live e2, setNext_live e1]

theorem remove_live {h h' : Heap} {x : Nat} (e : listRemove h x = .ok h') : h'.live = h.live := by
  unfold listRemove at e
  obtain ⟨n1, _, e⟩ := ok_bind e
  obtain ⟨p1, _, e⟩ := ok_bind e
  obtain ⟨h2, e2, e⟩ := ok_bind e
  obtain ⟨p2, _, e⟩ := ok_bind e
  obtain ⟨n2, _, e⟩ := ok_bind e
  rw [setNext_live e, setPrev_live e2]

theorem unlink_live {p p' : PCtx} {x : Nat} (e : unlink p x = .ok p') : p'.h.live = p.h.live := by
  unfold unlink at e
  obtain ⟨h1, e1, e⟩ := ok_bind e
  injection e with e
  rw [← e]
  exact remove_live e1

theorem freeFrame_live {p p' : PCtx} {x : Nat} (e : freeFrame p x = .ok p') : p'.h.live = p.h.live := by
  unfold freeFrame at e
  obtain ⟨_, _, e⟩ := ok_bind e
  obtain ⟨h1, e1, e⟩ := ok_bind e
  injection e with e
  rw [← e]
  show h1.live = _
  rw [addTail_live e1]
  unfold dropBuf
  cases p.buf x <;> rfl

theorem lists_remove_dev {h : Heap} {n : Nat} {Q : Nat → List Nat} {H : List Nat} (L : Lists h n Q H) {x : Nat} {l m : List Nat}
    (e : Q 3 = l ++ x :: m) :
    ∃ h1 h2, listRemove h x = .ok h1 ∧ listRemove h1 x = .ok h1 ∧ freeDev h1 x = .ok h2 ∧ Lists h2 n (upd Q 3 (l ++ m)) H ∧
      h2.live = upd h.live x false := by
  have R := L.ring 3 (by omega)
  have nd := L.nodup (q := 3) (by omega)
  have al : ∀ y ∈ 3 :: Q 3, h.live y = true := fun y hy => L.alive (by omega) hy
  rw [e] at R nd al
  obtain ⟨h1, e1, R', lv, e2, hk⟩ := remove_spec R nd al
  refine ⟨h1, { h1 with live := upd h1.live x false }, e1, e2, ?_, ?_, by rw [lv]⟩
  · unfold freeDev
    rw [lv, al x (by simp)]
    rfl
  · have hx : 4 + n ≤ x := L.devs x (by rw [e]; simp)
    have hxm : x ∉ l ++ m := by grind
    refine ⟨?_, ?_, ?_, ?_, ?_⟩
    · have := upd_ring (Q := Q) R' fun q' hq' hne => ring_keep L (q := 3) (by omega) hq' hne (X := 3 :: (l ++ m))
        (by intro y hy; rw [e]; left; grind) hk
      intro q hq
      exact path_congr (h := h1) (fun _ _ => rfl) (fun _ _ => rfl) (this q hq)
    · intro y
      have := L.uniq y
      rw [e] at this
      simp only [List.count_append, List.count_cons] at this
      simp [upd]
      omega
    · intro y hy
      apply L.frames
      simpa [upd] using hy
    · intro y hy
      rw [upd_same] at hy
      exact L.devs y (by rw [e]; grind)
    · intro y hy
      rw [upd_same] at hy
      have hyx : y ≠ x := by
        rintro rfl
        rcases hy with hy | hy
        · omega
        · exact hxm hy
      show upd h1.live x false y = true
      rw [upd_other _ _ hyx, lv]
      apply L.live
      rcases hy with hy | hy
      · exact .inl hy
      · right; rw [e]; grind

theorem closeDevs_spec : ∀ (D : List Nat) {k : Nat} {h : Heap} {n : Nat} {Q : Nat → List Nat} {fr : List Nat}, Lists h n Q [] →
    Q 3 = D → D.length ≤ k → ∃ h', closeDevs k h fr = .ok (h', fr ++ D) ∧ Lists h' n (upd Q 3 []) [] ∧
      ∀ x, h'.live x = (h.live x && !decide (x ∈ D)) := by
  intro D
  induction D with
  | nil =>
    intro k h n Q fr L hD _
    have e1 : h.next 3 = .ok 3 := by
      rw [next_ok (L.live 3 (by omega)), ring_next (L.ring 3 (by omega)), hD]; rfl
    refine ⟨h, ?_, ?_, by simp⟩
    · cases k with
      | zero => unfold closeDevs; rw [show h.next devsQ = _ from e1, bind_ok, List.append_nil]; rfl
      | succ k => unfold closeDevs; rw [show h.next devsQ = _ from e1, bind_ok, List.append_nil]; rfl
    · rw [show upd Q 3 [] = Q by conv => rhs; rw [← upd_id Q 3, hD]]; exact L
  | cons d D ih =>
    intro k h n Q fr L hD hk
    have e1 : h.next 3 = .ok d := by
      rw [next_ok (L.live 3 (by omega)), ring_next (L.ring 3 (by omega)), hD]; rfl
    have hd : d ≠ 3 := by have := L.devs d (by rw [hD]; simp); omega
    obtain ⟨h1, h2, f1, f2, f3, L2, v2⟩ := lists_remove_dev L (l := []) hD
    cases k with
    | zero => simp at hk
    | succ k =>
      obtain ⟨h', f4, L', v'⟩ := ih (k := k) (fr := fr ++ [d]) L2 (by simp [upd]) (by simpa using hk)
      refine ⟨h', ?_, ?_, ?_⟩
      · unfold closeDevs
        rw [show h.next devsQ = _ from e1, bind_ok, if_neg hd, f1, bind_ok, f2, bind_ok, f3, bind_ok, f4]
        simp
      · have : upd (upd Q 3 ([] ++ D)) 3 [] = upd Q 3 [] := by
          funext q; unfold upd; split <;> rfl
        rw [this] at L'
        exact L'
      · intro x
        rw [v', v2]
        by_cases hx : x = d
        · subst hx; simp
        · rw [upd_other _ _ hx]; simp [hx]

theorem closeQueue_spec {q : Nat} (hq : q = 1 ∨ q = 2) : ∀ (l : List Nat) {k : Nat} {p : PCtx} {Q : Nat → List Nat}, Rel p Q [] →
    Q q = l → l.length ≤ k → ∃ p' Q', closeQueue q k p = .ok p' ∧ Rel p' Q' [] ∧ p'.n = p.n ∧ p'.c = p.c ∧ Q' q = [] ∧
      Q' (3 - q) = Q (3 - q) ∧ Q' 3 = Q 3 ∧ (Q' 0).length = (Q 0).length + l.length ∧ p'.h.live = p.h.live := by
  intro l
  induction l with
  | nil =>
    intro k p Q R hl _
    have e1 : p.h.next q = .ok q := by rw [R.next (by omega), hl]; rfl
    refine ⟨p, Q, ?_, R, rfl, rfl, hl, rfl, rfl, rfl, rfl⟩
    cases k with
    | zero => unfold closeQueue; rw [e1, bind_ok, if_pos rfl]
    | succ k => unfold closeQueue; rw [e1, bind_ok, if_pos rfl]
  | cons f l ih =>
    intro k p Q R hl hk
    have e1 : p.h.next q = .ok f := by rw [R.next (by omega), hl]; rfl
    have hf : f ≠ q := by have := R.lists.ge (q := q) (x := f) (by omega) (by rw [hl]; simp); omega
    cases k with
    | zero => simp at hk
    | succ k =>
      obtain ⟨h', f1, R1⟩ := unlink_sim R (by omega) (l := []) hl
      obtain ⟨p2, f2, c2, n2, m2, R2⟩ := freeFrame_sim R1
      obtain ⟨p3, Q3, f3, R3, n3, c3, a1, a2, a3, a4, a5⟩ := ih (k := k) R2
        (by rcases hq with rfl | rfl <;> simp [upd]) (by simpa using hk)
      refine ⟨p3, Q3, ?_, R3, n3.trans n2, c3.trans c2, a1, ?_, ?_, ?_, ?_⟩
      · unfold closeQueue
        rw [e1, bind_ok, if_neg hf, f1, bind_ok, f2, bind_ok, f3]
      · rw [a2]; rcases hq with rfl | rfl <;> simp [upd]
      · rw [a3]; rcases hq with rfl | rfl <;> simp [upd]
      · rw [a4]; rcases hq with rfl | rfl <;> simp [upd] <;> omega
      · rw [a5]
        exact (freeFrame_live f2).trans (unlink_live f1)

end Verif.Ulogcat.Queue
