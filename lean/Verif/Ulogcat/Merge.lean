import Verif.Ulogcat.Core

/-!
# Merging by turns: what C36, C37, C119 and C130 mean by the order of a dump

Nothing here refers to the program. Things have a number (that of their device) and a
stamp. `Picked q r v`: they wait in the line `q`, and behind each number `d` there are
`r d`. Always the one with the smallest stamp leaves the line, among equal ones the one
in front; the next thing of its number goes to the end of the line. `v` is the order in
which they leave.
-/
namespace Verif.Ulogcat

variable {α β : Type}

/-- `r` without the first thing behind `d`. -/
def behind (r : Nat → List α) (d : Nat) : Nat → List α := fun e => if e = d then (r e).drop 1 else r e

inductive Picked (num stamp : α → Nat) : List α → (Nat → List α) → List α → Prop
  | nil (r : Nat → List α) (h : ∀ d, r d = []) : Picked num stamp [] r []
  | cons (a : List α) (f : α) (b : List α) (r : Nat → List α) (v : List α)
      (ha : ∀ g ∈ a, stamp f < stamp g) (hb : ∀ g ∈ b, stamp f ≤ stamp g)
      (h : Picked num stamp (a ++ b ++ (r (num f)).take 1) (behind r (num f)) v) : Picked num stamp (a ++ f :: b) r (f :: v)

/-- The first of each of the first `n` lists, and the rest. -/
def firsts (L : Nat → List α) (n : Nat) : List α := (List.range n).flatMap fun d => (L d).take 1

def rests (L : Nat → List α) : Nat → List α := fun d => (L d).drop 1

/-- The things of `n` lists by turns: at first the first of each list stand in line, in the
order of their numbers. -/
def ByTurns (num stamp : α → Nat) (n : Nat) (L : Nat → List α) (v : List α) : Prop :=
  Picked num stamp (firsts L n) (rests L) v

variable {num stamp : α → Nat}

/-- The first in the line to leave is determined. -/
theorem split_min {a b a' b' : List α} {f f' : α} (h : a ++ f :: b = a' ++ f' :: b')
    (ha : ∀ g ∈ a, stamp f < stamp g) (hb : ∀ g ∈ b, stamp f ≤ stamp g)
    (ha' : ∀ g ∈ a', stamp f' < stamp g) (hb' : ∀ g ∈ b', stamp f' ≤ stamp g) : a = a' ∧ f = f' ∧ b = b' := by
  induction a generalizing a' with
  | nil =>
    cases a' with
    | nil => simp at h; exact ⟨rfl, h.1, h.2⟩
    | cons x a' =>
      simp only [List.nil_append, List.cons_append, List.cons.injEq] at h
      have h1 := ha' x (by simp)
      rw [← h.1] at h1
      have h2 := hb f' (by rw [h.2]; simp)
      omega
  | cons x a ih =>
    cases a' with
    | nil =>
      simp only [List.nil_append, List.cons_append, List.cons.injEq] at h
      have h1 := ha x (by simp)
      rw [h.1] at h1
      have h2 := hb' f (by rw [← h.2]; simp)
      omega
    | cons y a' =>
      simp only [List.cons_append, List.cons.injEq] at h
      obtain ⟨h1, h2, h3⟩ := ih h.2 (fun g hg => ha g (List.mem_cons_of_mem _ hg)) (fun g hg => ha' g (List.mem_cons_of_mem _ hg))
      exact ⟨by rw [h.1, h1], h2, h3⟩

theorem Picked.unique {q : List α} {r : Nat → List α} {v w : List α} (hv : Picked num stamp q r v) (hw : Picked num stamp q r w) : v = w := by
  induction hv generalizing w with
  | nil r h =>
    cases hq : w with
    | nil => rfl
    | cons x t =>
      exfalso
      generalize hz : ([] : List α) = z at hw
      cases hw with
      | nil => cases hq
      | cons => simp at hz
  | cons a f b r v ha hb h ih =>
    generalize hz : a ++ f :: b = z at hw
    cases hw with
    | nil => simp at hz
    | cons a' f' b' r v' ha' hb' h' =>
      obtain ⟨rfl, rfl, rfl⟩ := split_min hz ha hb ha' hb'
      rw [ih h']

/-- The line holds at most one frame of each number, and one of each number with frames behind it. -/
structure Line (num : α → Nat) (q : List α) (r : Nat → List α) : Prop where
  nd : (q.map num).Nodup
  own : ∀ d, ∀ f ∈ r d, num f = d
  front : ∀ d, r d ≠ [] → d ∈ q.map num

theorem Line.next {a b : List α} {f : α} {r : Nat → List α} (L : Line num (a ++ f :: b) r) :
    Line num (a ++ b ++ (r (num f)).take 1) (behind r (num f)) := by
  have hnd := L.nd
  simp only [List.map_append, List.map_cons] at hnd
  have hp : ((a.map num) ++ num f :: (b.map num)).Perm (num f :: (a.map num ++ b.map num)) := List.perm_middle
  have hnd2 := List.nodup_cons.1 (hp.nodup_iff.1 hnd)
  refine ⟨?_, ?_, ?_⟩
  · cases hr : r (num f) with
    | nil => simpa using hnd2.2
    | cons g t =>
      have hg := L.own (num f) g (by rw [hr]; simp)
      simp only [List.take_succ_cons, List.take_zero, List.map_append, List.map_cons, List.map_nil, hg]
      have : (num f :: (a.map num ++ b.map num)).Nodup := List.nodup_cons.2 hnd2
      refine (List.perm_append_comm (l₁ := [num f])).nodup_iff.1 this
  · intro d g hg
    unfold behind at hg
    split at hg
    · exact L.own d g (List.mem_of_mem_drop hg)
    · exact L.own d g hg
  · intro d hd
    unfold behind at hd
    by_cases h : d = num f
    · subst h
      rw [if_pos rfl] at hd
      cases hr : r (num f) with
      | nil => rw [hr] at hd; simp at hd
      | cons g t =>
        have hg := L.own (num f) g (by rw [hr]; simp)
        simp [hg]
    · rw [if_neg h] at hd
      have := L.front d hd
      simp only [List.map_append, List.map_cons, List.mem_append, List.mem_cons] at this ⊢
      rcases this with h1 | h1 | h1
      · exact Or.inl (Or.inl h1)
      · exact absurd h1 h
      · exact Or.inl (Or.inr h1)

/-- Each number's frames leave in their order, all of them. -/
theorem Picked.device {q : List α} {r : Nat → List α} {v : List α} (h : Picked num stamp q r v) (L : Line num q r) (d : Nat) :
    v.filter (fun f => num f == d) = q.filter (fun f => num f == d) ++ r d := by
  induction h with
  | nil r h => simp [h]
  | cons a f b r v ha hb h ih =>
    have hnd := L.nd
    simp only [List.map_append, List.map_cons] at hnd
    have hp : ((a.map num) ++ num f :: (b.map num)).Perm (num f :: (a.map num ++ b.map num)) := List.perm_middle
    have hnd2 := List.nodup_cons.1 (hp.nodup_iff.1 hnd)
    have ih := ih L.next
    by_cases hd : num f = d
    · subst hd
      have hna : ∀ l : List α, num f ∉ l.map num → l.filter (fun g => num g == num f) = [] := by
        intro l hl
        rw [List.filter_eq_nil_iff]
        intro g hg hgd
        exact hl (List.mem_map.2 ⟨g, hg, by simpa using hgd⟩)
      have h1 : num f ∉ a.map num := fun h => hnd2.1 (List.mem_append_left _ h)
      have h2 : num f ∉ b.map num := fun h => hnd2.1 (List.mem_append_right _ h)
      rw [List.filter_cons_of_pos (by simp), ih]
      have hfb : (f :: b).filter (fun g => num g == num f) = [f] := by
        rw [List.filter_cons_of_pos (by simp), hna b h2]
      simp only [List.filter_append, hna a h1, hna b h2, hfb, List.nil_append, List.cons_append, behind, if_true]
      congr 1
      cases hr : r (num f) with
      | nil => rfl
      | cons g t =>
        have hg := L.own (num f) g (by rw [hr]; simp)
        simp [hg]
    · rw [List.filter_cons_of_neg (by simpa using hd), ih]
      have h1 : ((r (num f)).take 1).filter (fun g => num g == d) = [] := by
        rw [List.filter_eq_nil_iff]
        intro g hg hgd
        have := L.own (num f) g (List.mem_of_mem_take hg)
        exact hd (this ▸ by simpa using hgd)
      rw [List.filter_append, h1, List.append_nil, List.filter_append, List.filter_append, List.filter_cons_of_neg (by simpa using hd)]
      unfold behind
      rw [if_neg (fun e => hd e.symm)]

/-- One that leaves after a later one has a frame of its own number before it, left no sooner
than the other, that is as late. -/
theorem Picked.late {q : List α} {r : Nat → List α} {v : List α} (h : Picked num stamp q r v) (L : Line num q r)
    {u w z : List α} {x y : α} (hv : v = u ++ x :: (w ++ y :: z)) (hlt : stamp y < stamp x) :
    ∃ g ∈ x :: w, num g = num y ∧ stamp x ≤ stamp g := by
  induction h generalizing u with
  | nil r h => simp at hv
  | cons a f b r v ha hb h ih =>
    cases u with
    | cons p u =>
      simp only [List.cons_append, List.cons.injEq] at hv
      exact ih L.next hv.2
    | nil =>
      have hdev := (Picked.cons a f b r v ha hb h).device L (num y)
      rw [hv] at hdev
      simp only [List.nil_append, List.cons.injEq] at hv
      obtain ⟨rfl, hv⟩ := hv
      by_cases hxy : num f = num y
      · exact ⟨f, by simp, hxy, Nat.le_refl _⟩
      · -- the first frame of that number is in the line
        rw [List.nil_append, List.filter_cons_of_neg (by simpa using hxy), List.filter_append,
          List.filter_cons_of_pos (by simp)] at hdev
        have hmin : ∀ g ∈ a ++ f :: b, stamp f ≤ stamp g := by
          intro g hg
          rcases List.mem_append.1 hg with hg | hg
          · exact Nat.le_of_lt (ha g hg)
          · rcases List.mem_cons.1 hg with rfl | hg
            · exact Nat.le_refl _
            · exact hb g hg
        have hin : num y ∈ (a ++ f :: b).map num := by
          by_cases hr : r (num y) = []
          · rw [hr, List.append_nil] at hdev
            have : y ∈ (a ++ f :: b).filter (fun g => num g == num y) := by rw [← hdev]; simp
            exact List.mem_map.2 ⟨y, (List.mem_filter.1 this).1, rfl⟩
          · exact L.front _ hr
        obtain ⟨g, hg, hgd⟩ := List.mem_map.1 hin
        have hgf : g ∈ (a ++ f :: b).filter (fun k => num k == num y) := List.mem_filter.2 ⟨hg, by simp [hgd]⟩
        cases hq : (a ++ f :: b).filter (fun k => num k == num y) with
        | nil => rw [hq] at hgf; simp at hgf
        | cons g0 t0 =>
          have hg0 : g0 ∈ (a ++ f :: b).filter (fun k => num k == num y) := by rw [hq]; simp
          have hge := hmin g0 (List.mem_filter.1 hg0).1
          have hd0 : num g0 = num y := by simpa using (List.mem_filter.1 hg0).2
          rw [hq] at hdev
          cases hw : w.filter (fun k => num k == num y) with
          | nil =>
            rw [hw] at hdev
            simp only [List.nil_append, List.cons_append, List.cons.injEq] at hdev
            rw [hdev.1] at hlt
            omega
          | cons g1 t1 =>
            rw [hw] at hdev
            simp only [List.cons_append, List.cons.injEq] at hdev
            have : g1 ∈ w.filter (fun k => num k == num y) := by rw [hw]; simp
            exact ⟨g0, by rw [← hdev.1]; exact List.mem_cons_of_mem _ (List.mem_filter.1 this).1, hd0, hge⟩

/-- If the frames of each number are in order, all leave in order. -/
theorem Picked.sorted {q : List α} {r : Nat → List α} {v : List α} (h : Picked num stamp q r v) (L : Line num q r)
    (hs : ∀ d, (q.filter (fun f => num f == d) ++ r d).Pairwise fun a b => stamp a ≤ stamp b) :
    v.Pairwise fun a b => stamp a ≤ stamp b := by
  suffices H : ∀ t u, v = u ++ t → t.Pairwise fun a b => stamp a ≤ stamp b from H v [] rfl
  intro t
  induction t with
  | nil => intro u hu; exact List.Pairwise.nil
  | cons x t ih =>
    intro u hu
    refine List.pairwise_cons.2 ⟨?_, ih (u ++ [x]) (by simp [hu])⟩
    intro y hy
    rcases Nat.lt_or_ge (stamp y) (stamp x) with hlt | hge
    · exfalso
      obtain ⟨w, z, rfl⟩ := List.append_of_mem hy
      obtain ⟨g, hg, hd, hge⟩ := h.late L hu hlt
      have hp := hs (num y)
      rw [← h.device L, hu] at hp
      have hp2 : (((x :: w) ++ y :: z).filter (fun f => num f == num y)).Pairwise fun a b => stamp a ≤ stamp b := by
        rw [List.filter_append] at hp
        exact (List.pairwise_append.1 hp).2.1
      rw [List.filter_append] at hp2
      have := (List.pairwise_append.1 hp2).2.2 g (List.mem_filter.2 ⟨hg, by simp [hd]⟩) y (List.mem_filter.2 ⟨by simp, by simp⟩)
      omega
    · exact hge

theorem flatMap_take_filter {L : Nat → List α} (own : ∀ d, ∀ f ∈ L d, num f = d) (l : List Nat) (nd : l.Nodup) (d : Nat) :
    (l.flatMap fun d => (L d).take 1).filter (fun f => num f == d) = if d ∈ l then (L d).take 1 else [] := by
  induction l with
  | nil => rfl
  | cons e l ih =>
    have nd' := List.nodup_cons.1 nd
    rw [List.flatMap_cons, List.filter_append, ih nd'.2]
    by_cases h : d = e
    · subst h
      rw [if_neg nd'.1, List.append_nil, if_pos (by simp)]
      exact List.filter_eq_self.2 fun f hf => by simp [own d f (List.mem_of_mem_take hf)]
    · have : ((L e).take 1).filter (fun f => num f == d) = [] := by
        rw [List.filter_eq_nil_iff]
        intro f hf hfd
        have := own e f (List.mem_of_mem_take hf)
        exact h (by rw [← this]; simpa using (show d = num f from by simpa using Eq.symm (by simpa using hfd)))
      rw [this, List.nil_append]
      simp [h]

/-- Lists of frames by number: the line of the first ones. -/
theorem line_firsts {L : Nat → List α} {n : Nat} (own : ∀ d, ∀ f ∈ L d, num f = d) (hb : ∀ d, n ≤ d → L d = []) :
    Line num (firsts L n) (rests L) := by
  refine ⟨?_, fun d f hf => own d f (List.mem_of_mem_drop hf), ?_⟩
  · have h : ∀ l : List Nat, l.Nodup → ((l.flatMap fun d => (L d).take 1).map num).Nodup := by
      intro l
      induction l with
      | nil => intro _; exact List.Pairwise.nil
      | cons e l ih =>
        intro nd
        have nd' := List.nodup_cons.1 nd
        rw [List.flatMap_cons, List.map_append]
        refine List.nodup_append.2 ⟨?_, ih nd'.2, ?_⟩
        · cases hL : L e <;> simp
        · intro x hx y hy hxy
          obtain ⟨f, hf, rfl⟩ := List.mem_map.1 hx
          obtain ⟨g, hg, rfl⟩ := List.mem_map.1 hy
          obtain ⟨d, hd, hg⟩ := List.mem_flatMap.1 hg
          have h1 := own e f (List.mem_of_mem_take hf)
          have h2 := own d g (List.mem_of_mem_take hg)
          exact nd'.1 (by rw [← h1, hxy, h2]; exact hd)
    exact h _ List.nodup_range
  · intro d hd
    have hdn : d < n := by
      rcases Nat.lt_or_ge d n with h | h
      · exact h
      · exact absurd (by simp [rests, hb d h]) hd
    cases hL : L d with
    | nil => exact absurd (by simp [rests, hL]) hd
    | cons f t =>
      refine List.mem_map.2 ⟨f, List.mem_flatMap.2 ⟨d, List.mem_range.2 hdn, by simp [hL]⟩, own d f (by simp [hL])⟩

theorem firsts_rests {L : Nat → List α} {n : Nat} (own : ∀ d, ∀ f ∈ L d, num f = d) (hb : ∀ d, n ≤ d → L d = []) (d : Nat) :
    (firsts L n).filter (fun f => num f == d) ++ rests L d = L d := by
  unfold firsts
  rw [flatMap_take_filter own _ List.nodup_range]
  by_cases h : d < n
  · rw [if_pos (List.mem_range.2 h)]
    exact List.take_append_drop 1 _
  · rw [if_neg (by simpa using h)]
    simp [rests, hb d (by omega)]

/-! ## By turns -/

theorem ByTurns.line {n : Nat} {L : Nat → List α} {v : List α} (_ : ByTurns num stamp n L v) (own : ∀ d, ∀ f ∈ L d, num f = d)
    (hb : ∀ d, n ≤ d → L d = []) : Line num (firsts L n) (rests L) := line_firsts own hb

theorem ByTurns.unique {n : Nat} {L : Nat → List α} {v w : List α} (hv : ByTurns num stamp n L v) (hw : ByTurns num stamp n L w) : v = w :=
  Picked.unique hv hw

theorem ByTurns.device {n : Nat} {L : Nat → List α} {v : List α} (h : ByTurns num stamp n L v) (own : ∀ d, ∀ f ∈ L d, num f = d)
    (hb : ∀ d, n ≤ d → L d = []) (d : Nat) : v.filter (fun f => num f == d) = L d :=
  (Picked.device h (line_firsts own hb) d).trans (firsts_rests own hb d)

theorem ByTurns.late {n : Nat} {L : Nat → List α} {v : List α} (h : ByTurns num stamp n L v) (own : ∀ d, ∀ f ∈ L d, num f = d)
    (hb : ∀ d, n ≤ d → L d = []) {u w z : List α} {x y : α} (hv : v = u ++ x :: (w ++ y :: z)) (hlt : stamp y < stamp x) :
    ∃ g ∈ x :: w, num g = num y ∧ stamp x ≤ stamp g :=
  Picked.late h (line_firsts own hb) hv hlt

theorem ByTurns.sorted {n : Nat} {L : Nat → List α} {v : List α} (h : ByTurns num stamp n L v) (own : ∀ d, ∀ f ∈ L d, num f = d)
    (hb : ∀ d, n ≤ d → L d = []) (hs : ∀ d, (L d).Pairwise fun a b => stamp a ≤ stamp b) : v.Pairwise fun a b => stamp a ≤ stamp b :=
  Picked.sorted h (line_firsts own hb) fun d => by rw [firsts_rests own hb d]; exact hs d

theorem behind_map (g : α → β) (r : Nat → List α) (d : Nat) :
    behind (fun e => (r e).map g) d = fun e => (behind r d e).map g := by
  funext e
  unfold behind
  split
  · rw [List.map_drop]
  · rfl

/-- The same things under other names. -/
theorem Picked.map {num' stamp' : β → Nat} (g : α → β) {q : List α} {r : Nat → List α} {v : List α} (h : Picked num stamp q r v)
    (hq : ∀ f ∈ q, num' (g f) = num f ∧ stamp' (g f) = stamp f) (hr : ∀ d, ∀ f ∈ r d, num' (g f) = num f ∧ stamp' (g f) = stamp f) :
    Picked num' stamp' (q.map g) (fun d => (r d).map g) (v.map g) := by
  induction h with
  | nil r h => exact .nil _ fun d => by rw [h d]; rfl
  | cons a f b r v ha hb h ih =>
    obtain ⟨hf1, hf2⟩ := hq f (by simp)
    rw [List.map_append, List.map_cons, List.map_cons]
    refine .cons _ _ _ _ _ ?_ ?_ ?_
    · intro k hk
      obtain ⟨l, hl, rfl⟩ := List.mem_map.1 hk
      rw [hf2, (hq l (by simp [hl])).2]
      exact ha l hl
    · intro k hk
      obtain ⟨l, hl, rfl⟩ := List.mem_map.1 hk
      rw [hf2, (hq l (by simp [hl])).2]
      exact hb l hl
    · rw [hf1, behind_map]
      have := ih (by
        intro k hk
        rcases List.mem_append.1 hk with hk | hk
        · refine hq k ?_
          rcases List.mem_append.1 hk with hk | hk <;> simp [hk]
        · exact hr _ k (List.mem_of_mem_take hk)) (by
        intro d k hk
        unfold behind at hk
        split at hk
        · exact hr d k (List.mem_of_mem_drop hk)
        · exact hr d k hk)
      rw [List.map_append, List.map_append, List.map_take] at this
      exact this

theorem firsts_map (g : α → β) (L : Nat → List α) (n : Nat) : firsts (fun d => (L d).map g) n = (firsts L n).map g := by
  unfold firsts
  rw [List.map_flatMap]
  congr 1
  funext d
  rw [List.map_take]

theorem rests_map (g : α → β) (L : Nat → List α) : rests (fun d => (L d).map g) = fun d => (rests L d).map g := by
  funext d
  unfold rests
  rw [List.map_drop]

theorem ByTurns.map {num' stamp' : β → Nat} (g : α → β) {n : Nat} {L : Nat → List α} {v : List α} (h : ByTurns num stamp n L v)
    (hL : ∀ d, ∀ f ∈ L d, num' (g f) = num f ∧ stamp' (g f) = stamp f) : ByTurns num' stamp' n (fun d => (L d).map g) (v.map g) := by
  unfold ByTurns
  rw [firsts_map, rests_map]
  refine Picked.map g h ?_ fun d f hf => hL d f (List.mem_of_mem_drop hf)
  intro f hf
  obtain ⟨d, _, hf⟩ := List.mem_flatMap.1 hf
  exact hL d f (List.mem_of_mem_take hf)

/-- And back. -/
theorem Picked.unmap {num' stamp' : β → Nat} (g : α → β) {q' : List β} {r' : Nat → List β} {v' : List β} (h : Picked num' stamp' q' r' v') :
    ∀ {q : List α} {r : Nat → List α}, q' = q.map g → r' = (fun d => (r d).map g) →
    (∀ f ∈ q, num' (g f) = num f ∧ stamp' (g f) = stamp f) → (∀ d, ∀ f ∈ r d, num' (g f) = num f ∧ stamp' (g f) = stamp f) →
    ∃ v, v' = v.map g ∧ Picked num stamp q r v := by
  induction h with
  | nil r' h =>
    intro q r hq hr _ _
    have : q = [] := List.map_eq_nil_iff.1 hq.symm
    subst this
    refine ⟨[], rfl, .nil _ fun d => ?_⟩
    have := h d
    rw [hr] at this
    exact List.map_eq_nil_iff.1 this
  | cons a' f' b' r' v' ha hb h ih =>
    intro q r hq hr hqs hrs
    obtain ⟨a, t, rfl, rfl, ht⟩ := List.map_eq_append_iff.1 hq.symm
    obtain ⟨f, b, rfl, rfl, rfl⟩ := List.map_eq_cons_iff.1 ht
    obtain ⟨hf1, hf2⟩ := hqs f (by simp)
    subst hr
    obtain ⟨v, rfl, hv⟩ := ih (q := a ++ b ++ (r (num f)).take 1) (r := behind r (num f))
      (by rw [List.map_append, List.map_append, List.map_take, hf1]) (by rw [hf1, behind_map])
      (by
        intro k hk
        rcases List.mem_append.1 hk with hk | hk
        · refine hqs k ?_
          rcases List.mem_append.1 hk with hk | hk <;> simp [hk]
        · exact hrs _ k (List.mem_of_mem_take hk))
      (by
        intro d k hk
        unfold behind at hk
        split at hk
        · exact hrs d k (List.mem_of_mem_drop hk)
        · exact hrs d k hk)
    refine ⟨f :: v, rfl, .cons a f b r v ?_ ?_ hv⟩
    · intro k hk
      have := ha (g k) (List.mem_map.2 ⟨k, hk, rfl⟩)
      rwa [hf2, (hqs k (by simp [hk])).2] at this
    · intro k hk
      have := hb (g k) (List.mem_map.2 ⟨k, hk, rfl⟩)
      rwa [hf2, (hqs k (by simp [hk])).2] at this

theorem ByTurns.unmap {num' stamp' : β → Nat} (g : α → β) {n : Nat} {L : Nat → List α} {v' : List β}
    (h : ByTurns num' stamp' n (fun d => (L d).map g) v') (hL : ∀ d, ∀ f ∈ L d, num' (g f) = num f ∧ stamp' (g f) = stamp f) :
    ∃ v, v' = v.map g ∧ ByTurns num stamp n L v := by
  unfold ByTurns at h
  rw [firsts_map, rests_map] at h
  refine Picked.unmap g h rfl rfl ?_ fun d f hf => hL d f (List.mem_of_mem_drop hf)
  intro f hf
  obtain ⟨d, _, hf⟩ := List.mem_flatMap.1 hf
  exact hL d f (List.mem_of_mem_take hf)

end Verif.Ulogcat
