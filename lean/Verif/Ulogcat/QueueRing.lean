import Verif.Ulogcat.Queue

/-!
# Rings of nodes

`Path h a l b`: from `a` the `next` pointers lead over the nodes `l` to `b`, and the
`prev` pointers lead back. A ring is a path from a head to itself.
-/
namespace Verif.Ulogcat.Queue
open Verif Verif.Ulogcat

def Path (h : Heap) : Nat → List Nat → Nat → Prop
  | a, [], b => h.nx a = b ∧ h.pv b = a
  | a, x :: l, b => (h.nx a = x ∧ h.pv x = a) ∧ Path h x l b

/-- The nodes `l` in this order make a ring with head `a`. -/
def Ring (h : Heap) (a : Nat) (l : List Nat) : Prop := Path h a l a

@[simp] theorem upd_same {α : Type} (g : Nat → α) (a : Nat) (v : α) : upd g a v a = v := by simp [upd]
theorem upd_other {α : Type} (g : Nat → α) {a x : Nat} (v : α) (hx : x ≠ a) : upd g a v x = g x := by simp [upd, hx]

theorem upd_id {α : Type} (g : Nat → α) (a : Nat) : upd g a (g a) = g := by
  funext x
  unfold upd
  split
  · subst x; rfl
  · rfl

theorem path_append {h : Heap} {a b x : Nat} {l m : List Nat} :
    Path h a (l ++ x :: m) b ↔ Path h a l x ∧ Path h x m b := by
  induction l generalizing a with
  | nil => simp [Path]
  | cons y l ih => simp only [List.cons_append, Path, ih, and_assoc]

theorem path_congr {h h' : Heap} {a b : Nat} {l : List Nat} (hn : ∀ x ∈ a :: l, h'.nx x = h.nx x)
    (hp : ∀ x ∈ b :: l, h'.pv x = h.pv x) (P : Path h a l b) : Path h' a l b := by
  induction l generalizing a with
  | nil => exact ⟨(hn a (by simp)).trans P.1, (hp b (by simp)).trans P.2⟩
  | cons y l ih =>
    refine ⟨⟨(hn a (by simp)).trans P.1.1, (hp y (by simp)).trans P.1.2⟩, ih ?_ ?_ P.2⟩
    · exact fun x hx => hn x (by simp only [List.mem_cons] at hx ⊢; grind)
    · exact fun x hx => hp x (by simp only [List.mem_cons] at hx ⊢; grind)

/-- The node before the last `prev`. -/
theorem ring_prev {h : Heap} {a : Nat} {l : List Nat} (R : Ring h a l) : h.pv a ∈ a :: l := by
  unfold Ring at R
  suffices H : ∀ (l : List Nat) (x : Nat), Path h x l a → h.pv a ∈ x :: l from H l a R
  intro l
  induction l with
  | nil => intro x P; simp [P.2]
  | cons y l ih =>
    intro x P
    have := ih y P.2
    simp only [List.mem_cons] at this ⊢
    grind

theorem bind_ok {ε α β : Type} (a : α) (f : α → Except ε β) : (Except.ok a >>= f) = f a := rfl

theorem next_ok {h : Heap} {a : Nat} (e : h.live a = true) : h.next a = .ok (h.nx a) := by simp [Heap.next, e]
theorem prev_ok {h : Heap} {a : Nat} (e : h.live a = true) : h.prev a = .ok (h.pv a) := by simp [Heap.prev, e]
theorem setNext_ok {h : Heap} {a : Nat} (v : Nat) (e : h.live a = true) :
    h.setNext a v = .ok { h with nx := upd h.nx a v } := by simp [Heap.setNext, e]
theorem setPrev_ok {h : Heap} {a : Nat} (v : Nat) (e : h.live a = true) :
    h.setPrev a v = .ok { h with pv := upd h.pv a v } := by simp [Heap.setPrev, e]

/-- What `list_init` does. -/
theorem init_spec {h : Heap} {a : Nat} (ha : h.live a = true) :
    ∃ h', listInit h a = .ok h' ∧ Ring h' a [] ∧ h'.live = h.live ∧
      ∀ x, x ≠ a → h'.nx x = h.nx x ∧ h'.pv x = h.pv x := by
  refine ⟨{ h with nx := upd h.nx a a, pv := upd h.pv a a }, ?_, ?_, rfl, ?_⟩
  · unfold listInit
    rw [setNext_ok _ ha, bind_ok, setPrev_ok _ (by exact ha)]
  · exact ⟨upd_same _ _ _, upd_same _ _ _⟩
  · exact fun x hx => ⟨upd_other _ _ hx, upd_other _ _ hx⟩

/-- What `list_add_tail` does to a ring. -/
theorem addTail_spec {h : Heap} {a x : Nat} {l : List Nat} (R : Ring h a l) (nd : (a :: l).Nodup) (hx : x ∉ a :: l)
    (la : ∀ y ∈ a :: l, h.live y = true) (lx : h.live x = true) :
    ∃ h', listAddTail h a x = .ok h' ∧ Ring h' a (l ++ [x]) ∧ h'.live = h.live ∧
      ∀ y, y ∉ x :: a :: l → h'.nx y = h.nx y ∧ h'.pv y = h.pv y := by
  have hla := la a (by simp)
  have hp := ring_prev R
  have hlp := la _ hp
  have hax : a ≠ x := by rintro rfl; exact hx (by simp)
  have hpx : h.pv a ≠ x := by rintro e; exact hx (e ▸ hp)
  refine ⟨{ nx := upd (upd h.nx x a) (h.pv a) x, pv := upd (upd h.pv x (h.pv a)) a x, live := h.live }, ?_, ?_, rfl, ?_⟩
  · unfold listAddTail
    rw [setNext_ok _ lx, bind_ok, prev_ok (by exact hla), bind_ok, setPrev_ok _ (by exact lx), bind_ok,
      prev_ok (by exact hla), bind_ok]
    dsimp only
    rw [upd_other _ _ hax, setNext_ok _ (by exact hlp), bind_ok, setPrev_ok _ (by exact hla)]
  · unfold Ring at *
    rcases List.eq_nil_or_concat l with rfl | ⟨m, y, rfl⟩
    · have e : h.pv a = a := R.2
      refine ⟨⟨?_, ?_⟩, ?_, ?_⟩ <;> dsimp only
      · rw [e]; exact upd_same _ _ _
      · rw [upd_other _ _ (Ne.symm hax), upd_same]; exact e
      · rw [upd_other _ _ (by rw [e]; exact Ne.symm hax), upd_same]
      · exact upd_same _ _ _
    · rw [List.concat_eq_append] at *
      have Pm := path_append.1 R
      have e : h.pv a = y := Pm.2.2
      have hay : a ≠ y := by rintro rfl; simp at nd
      have hym : y ∉ m := by
        have := nd; simp only [List.nodup_cons, List.nodup_append] at this
        intro hm
        exact this.2.2.2 y hm y (by simp) rfl
      have ham : a ∉ m := by
        have := nd; simp only [List.nodup_cons, List.mem_append] at this
        grind
      have hxm : x ∉ m := by simp only [List.mem_cons, List.mem_append] at hx; grind
      have hxy : x ≠ y := by rintro rfl; simp at hx
      rw [List.append_assoc]
      refine path_append.2 ⟨path_congr (h := h) ?_ ?_ Pm.1, ⟨?_, ?_⟩, ?_, ?_⟩
      · intro z hz
        dsimp only
        have h1 : z ≠ y := by
          rintro rfl
          simp only [List.mem_cons] at hz
          rcases hz with hz | hz
          · exact hay hz.symm
          · exact hym hz
        have h2 : z ≠ x := by
          rintro rfl
          simp only [List.mem_cons] at hz
          rcases hz with hz | hz
          · exact hax hz.symm
          · exact hxm hz
        rw [e, upd_other _ _ h1, upd_other _ _ h2]
      · intro z hz
        dsimp only
        have h1 : z ≠ a := by
          rintro rfl
          simp only [List.mem_cons] at hz
          rcases hz with hz | hz
          · exact hay hz
          · exact ham hz
        have h2 : z ≠ x := by
          rintro rfl
          simp only [List.mem_cons] at hz
          rcases hz with hz | hz
          · exact hxy hz
          · exact hxm hz
        rw [upd_other _ _ h1, upd_other _ _ h2]
      · show upd _ _ _ _ = _
        rw [e, upd_same]
      · show upd _ _ _ _ = _
        rw [upd_other _ _ (Ne.symm hax), upd_same, e]
      · show upd _ _ _ _ = _
        rw [e, upd_other _ _ hxy, upd_same]
      · show upd _ _ _ _ = _
        rw [upd_same]
  · intro y hy
    simp only [List.mem_cons, not_or] at hy
    have h1 : y ≠ h.pv a := by
      rintro rfl
      simp only [List.mem_cons] at hp
      grind
    exact ⟨by dsimp only; rw [upd_other _ _ h1, upd_other _ _ hy.1], by dsimp only; rw [upd_other _ _ hy.2.1, upd_other _ _ hy.1]⟩

/-- What `list_remove` does to a ring; doing it again changes nothing. -/
theorem remove_spec {h : Heap} {a x : Nat} {l m : List Nat} (R : Ring h a (l ++ x :: m))
    (nd : (a :: (l ++ x :: m)).Nodup) (la : ∀ y ∈ a :: (l ++ x :: m), h.live y = true) :
    ∃ h', listRemove h x = .ok h' ∧ Ring h' a (l ++ m) ∧ h'.live = h.live ∧ listRemove h' x = .ok h' ∧
      ∀ y, y ∉ a :: (l ++ m) → h'.nx y = h.nx y ∧ h'.pv y = h.pv y := by
  have lx := la x (by simp)
  unfold Ring at R
  obtain ⟨P1, P2⟩ := path_append.1 R
  have hxa : x ≠ a := by rintro rfl; simp at nd
  have hxl : x ∉ l := by grind
  have hxm : x ∉ m := by grind
  have hal : a ∉ l := by grind
  have ham : a ∉ m := by grind
  have hlm : ∀ y ∈ l, y ∉ m := by grind
  -- the neighbours
  have hp : h.pv x ∈ a :: l := by
    clear la nd R P2 hxa hxl hxm hal ham hlm
    induction l generalizing a with
    | nil => simp [P1.2]
    | cons y l ih => have := ih P1.2; grind
  have hn : h.nx x ∈ a :: m := by
    cases m with
    | nil => simp [P2.1]
    | cons y m => simp [P2.1.1]
  have lp := la (h.pv x) (by grind)
  have ln := la (h.nx x) (by grind)
  have hpx : h.pv x ≠ x := by grind
  have hnx : h.nx x ≠ x := by grind
  have e1 : listRemove h x = .ok { h with nx := upd h.nx (h.pv x) (h.nx x), pv := upd h.pv (h.nx x) (h.pv x) } := by
    unfold listRemove
    rw [next_ok lx, bind_ok, prev_ok lx, bind_ok, setPrev_ok _ ln, bind_ok, prev_ok (by exact lx), bind_ok,
      next_ok (by exact lx), bind_ok]
    dsimp only
    rw [upd_other _ _ (Ne.symm hnx), setNext_ok _ (by exact lp)]
  refine ⟨_, e1, ?_, rfl, ?_, ?_⟩
  · unfold Ring
    -- the path up to the node before x, the link, the path from the node after x
    rcases List.eq_nil_or_concat l with rfl | ⟨l, y, rfl⟩
    · have ep : h.pv x = a := P1.2
      cases m with
      | nil =>
        have en : h.nx x = a := P2.1
        refine ⟨?_, ?_⟩
        · show upd _ _ _ _ = _
          rw [ep, en, upd_same]
        · show upd _ _ _ _ = _
          rw [ep, en, upd_same]
      | cons z m =>
        have en : h.nx x = z := P2.1.1
        refine ⟨⟨?_, ?_⟩, path_congr (h := h) ?_ ?_ P2.2⟩
        · show upd _ _ _ _ = _
          rw [ep, en, upd_same]
        · show upd _ _ _ _ = _
          rw [ep, en, upd_same]
        · exact fun w hw => upd_other _ _ (by grind)
        · exact fun w hw => upd_other _ _ (by grind)
    · rw [List.concat_eq_append] at *
      obtain ⟨P3, P4⟩ := path_append.1 P1
      have ep : h.pv x = y := P4.2
      rw [List.append_assoc]
      refine path_append.2 ⟨path_congr (h := h) ?_ ?_ P3, ?_⟩
      · exact fun w hw => upd_other _ _ (by grind)
      · exact fun w hw => upd_other _ _ (by grind)
      · cases m with
        | nil =>
          have en : h.nx x = a := P2.1
          refine ⟨?_, ?_⟩
          · show upd _ _ _ _ = _
            rw [ep, en, upd_same]
          · show upd _ _ _ _ = _
            rw [ep, en, upd_same]
        | cons z m =>
          have en : h.nx x = z := P2.1.1
          refine ⟨⟨?_, ?_⟩, path_congr (h := h) ?_ ?_ P2.2⟩
          · show upd _ _ _ _ = _
            rw [ep, en, upd_same]
          · show upd _ _ _ _ = _
            rw [ep, en, upd_same]
          · exact fun w hw => upd_other _ _ (by grind)
          · exact fun w hw => upd_other _ _ (by grind)
  · unfold listRemove
    rw [next_ok (by exact lx), bind_ok, prev_ok (by exact lx), bind_ok]
    dsimp only
    rw [upd_other _ _ (Ne.symm hnx), upd_other _ _ (Ne.symm hpx), setPrev_ok _ (by exact ln), bind_ok,
      prev_ok (by exact lx), bind_ok, next_ok (by exact lx), bind_ok]
    dsimp only
    rw [upd_other _ _ (Ne.symm hnx), upd_other _ _ (Ne.symm hpx), upd_other _ _ (Ne.symm hnx),
      setNext_ok _ (by exact lp)]
    dsimp only
    congr 2
    · funext y; unfold upd; split <;> rfl
    · funext y; unfold upd; split <;> rfl
  · intro y hy
    have h1 : y ≠ h.pv x := by grind
    have h2 : y ≠ h.nx x := by grind
    exact ⟨upd_other _ _ h1, upd_other _ _ h2⟩

end Verif.Ulogcat.Queue
