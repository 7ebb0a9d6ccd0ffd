import Verif.Ulogcat.PropsWhile

/-!
# A viewer that follows catches up (C138)
-/
namespace Verif.Ulogcat
open Verif Verif.Kernel Verif.Libulog

variable {σ : Type}

/-- A world of `N` devices in which at most `left s i` more things happen to device `i`: others
use it or something is read from it. What is ready stays so until it is read. -/
structure Drains (W : World σ) (N : Nat) (Q : σ → Prop) (left : σ → Nat → Nat) (Ready : σ → Nat → Prop) : Prop where
  poll : ∀ {s}, Q s → ∀ a : Nat → Bool, ∃ ready s1, W.poll s a = (.ok ready, s1) ∧ Q s1 ∧ (∀ i, i < N → left s1 i ≤ left s i) ∧
    (∀ i, i < N → a i = true → ready i = true → Ready s1 i) ∧
    ∀ i, i < N → a i = true → ready i = false → left s i = 0 ∨ left s1 i < left s i
  recv : ∀ {s}, Q s → ∀ {i}, i < N → Ready s i → ∃ r s1, W.recv s i = (r, s1) ∧ r ≠ .err ∧ Q s1 ∧ left s1 i < left s i ∧
    ∀ j, j < N → j ≠ i → left s1 j = left s j ∧ (Ready s j → Ready s1 j)
  output : ∀ {s}, Q s → ∀ e, ∃ s1, W.output s e = (true, s1) ∧ Q s1 ∧ ∀ i, i < N → left s1 i = left s i

/-- All that is left. -/
def allLeft (N : Nat) (left : Nat → Nat) : Nat := ((List.range N).map left).sum

theorem sum_map_le {α : Type} {f g : α → Nat} : ∀ (l : List α), (∀ i ∈ l, f i ≤ g i) → (l.map f).sum ≤ (l.map g).sum
  | [], _ => Nat.le_refl _
  | a :: l, h => by
    have := sum_map_le l fun i hi => h i (by simp [hi])
    have := h a (by simp)
    simp only [List.map_cons, List.sum_cons]
    omega

theorem sum_map_lt {α : Type} {f g : α → Nat} : ∀ (l : List α), (∀ i ∈ l, f i ≤ g i) → (∃ i ∈ l, f i < g i) → (l.map f).sum < (l.map g).sum
  | [], _, h => by simp at h
  | a :: l, h, h2 => by
    have h3 := h a (by simp)
    simp only [List.map_cons, List.sum_cons]
    obtain ⟨i, hi, hlt⟩ := h2
    rcases List.mem_cons.1 hi with rfl | hi
    · have := sum_map_le l fun i hi => h i (by simp [hi])
      omega
    · have := sum_map_lt l (fun i hi => h i (by simp [hi])) ⟨i, hi, hlt⟩
      omega

theorem allLeft_congr {N : Nat} {f g : Nat → Nat} (h : ∀ i, i < N → f i = g i) : allLeft N f = allLeft N g := by
  unfold allLeft
  congr 1
  exact List.map_congr_left fun i hi => h i (List.mem_range.1 hi)

theorem allLeft_lt {N : Nat} {f g : Nat → Nat} {i : Nat} (hi : i < N) (hlt : f i < g i) (h : ∀ j, j < N → j ≠ i → f j = g j) :
    allLeft N f < allLeft N g := by
  refine sum_map_lt _ (fun j hj => ?_) ⟨i, List.mem_range.2 hi, hlt⟩
  by_cases e : j = i
  · subst e; omega
  · exact Nat.le_of_eq (h j (List.mem_range.1 hj) e)

theorem allLeft_zero {N : Nat} {f : Nat → Nat} : allLeft N f = 0 ↔ ∀ i, i < N → f i = 0 := by
  constructor
  · intro h i hi
    have := List.sum_eq_zero_iff_forall_eq_nat.1 h
    exact this _ (List.mem_map_of_mem (List.mem_range.2 hi))
  · intro h
    exact List.sum_eq_zero_iff_forall_eq_nat.2 fun x hx => by
      obtain ⟨i, hi, rfl⟩ := List.mem_map.1 hx
      exact h i (List.mem_range.1 hi)

variable {W : World σ} {N : Nat} {Q : σ → Prop} {left : σ → Nat → Nat} {Ready : σ → Nat → Prop}

/-- What is to be done: every record left is to be read and printed, every frame that waits is
to be printed. -/
def toDo (N : Nat) (left : σ → Nat → Nat) (c : Ctx) (s : σ) : Nat := 2 * allLeft N (left s) + c.pendQ.length

theorem Drains.devs (D : Drains W N Q left Ready) (asked ready : Nat → Bool) (is : List Nat) (nd : is.Nodup) :
    ∀ {c : Ctx} {s : σ} (m : Int), Q s → Inv 0 N c → c.outErr = false → (∀ i ∈ is, asked i = true → i < N ∧ c.isPending i = false) →
      (∀ i ∈ is, asked i = true → ready i = true → Ready s i) → 0 ≤ m →
    ∃ c' s' r m', readDevs W asked ready is c s m = (c', s', r, m') ∧ Q s' ∧ Inv 0 N c' ∧ c'.outErr = false ∧ 0 ≤ m' ∧ (r = none ∨ r = some 0) ∧
      toDo N left c' s' ≤ toDo N left c s ∧ (r = some 0 → toDo N left c' s' < toDo N left c s) ∧
      ((∃ i ∈ is, asked i = true ∧ ready i = true) → toDo N left c' s' < toDo N left c s) := by
  induction is with
  | nil =>
    intro c s m hq I ho _ _ hm
    exact ⟨c, s, none, m, rfl, hq, I, ho, hm, .inl rfl, Nat.le_refl _, nofun, by simp⟩
  | cons i is ih =>
    intro c s m hq I ho ha hr hm
    have nd' := List.nodup_cons.1 nd
    rw [readDevs_cons]
    split
    · rename_i hne
      have hno : ¬ (asked i = true ∧ ready i = true) := by
        intro h
        simp [h.1, h.2] at hne
      have hsame : toDo N left (if asked i = true then c.upd i Dev.unready else c) s = toDo N left c s := by
        unfold toDo; split <;> rfl
      obtain ⟨c', s', r, m', e1, e2, e3, e4, e5, e6, e7, e8, e9⟩ := ih nd'.2 (c := if asked i = true then c.upd i Dev.unready else c) (s := s) m hq
        (by split; exact I.unready i; exact I) (by split <;> exact ho)
        (by
          intro j hj hja
          have := ha j (List.mem_cons_of_mem _ hj) hja
          refine ⟨this.1, ?_⟩
          split
          · rw [isPending_unready]; exact this.2
          · exact this.2)
        (fun j hj => hr j (List.mem_cons_of_mem _ hj)) hm
      rw [hsame] at e7 e8 e9
      refine ⟨c', s', r, m', e1, e2, e3, e4, e5, e6, e7, e8, ?_⟩
      rintro ⟨j, hj, h1, h2⟩
      rcases List.mem_cons.1 hj with rfl | hj
      · exact absurd ⟨h1, h2⟩ hno
      · exact e9 ⟨j, hj, h1, h2⟩
    · rename_i hne
      have hboth : asked i = true ∧ ready i = true := by
        cases h1 : asked i <;> cases h2 : ready i <;> simp [h1, h2] at hne ⊢
      have hi := ha i (by simp) hboth.1
      have hroom := room I hi.1 hi.2
      rw [if_neg (by omega)]
      obtain ⟨r, s1, f1, f2, f3, f4, f5⟩ := D.recv hq hi.1 (hr i (by simp) hboth.1 hboth.2)
      have hlt := allLeft_lt hi.1 f4 fun j hj hn => (f5 j hj hn).1
      rw [f1]
      cases r with
      | err => exact absurd rfl f2
      | again =>
        have : toDo N left c s1 < toDo N left c s := by unfold toDo; omega
        exact ⟨c, s1, some 0, m, rfl, f3, I, ho, hm, .inr rfl, Nat.le_of_lt this, fun _ => this, fun _ => this⟩
      | got stamp id shown dec =>
        dsimp only
        have hlt2 : toDo N left (c.got (Frame.mk i stamp id shown) dec) s1 < toDo N left c s := by
          unfold toDo
          have : (c.got (Frame.mk i stamp id shown) dec).pendQ.length = c.pendQ.length + 1 := by simp [Ctx.got, Ctx.upd]
          omega
        obtain ⟨c', s', r, m', e1, e2, e3, e4, e5, e6, e7, e8, e9⟩ := ih nd'.2 (c := c.got (Frame.mk i stamp id shown) dec) (s := s1) (m + 1) f3
          (I.got _ _ hi.1 hi.2) ho
          (by
            intro j hj hja
            have hj2 := ha j (List.mem_cons_of_mem _ hj) hja
            refine ⟨hj2.1, ?_⟩
            rw [isPending_got _ _ _ (by rw [I.len]; exact hi.1), if_neg]
            · exact hj2.2
            · intro e
              have e : i = j := e
              exact nd'.1 (e ▸ hj))
          (by
            intro j hj hja hjr
            have hj2 := ha j (List.mem_cons_of_mem _ hj) hja
            exact (f5 j hj2.1 (fun e => nd'.1 (e ▸ hj))).2 (hr j (List.mem_cons_of_mem _ hj) hja hjr))
          (by omega)
        exact ⟨c', s', r, m', e1, e2, e3, e4, e5, e6, by omega, fun _ => by omega, fun _ => by omega⟩

theorem Drains.print (D : Drains W N Q left Ready) {c : Ctx} {s : σ} (hq : Q s) (ho : c.outErr = false) (e : OutEv) :
    ∃ c' s', Verif.Ulogcat.output W c s e = (c', s') ∧ Q s' ∧ c'.outErr = false ∧ c'.pendQ = c.pendQ ∧ ∀ i, i < N → left s' i = left s i := by
  unfold Verif.Ulogcat.output
  rw [ho]
  obtain ⟨s1, h1, h2, h3⟩ := D.output hq e
  rw [h1]
  exact ⟨_, _, rfl, h2, rfl, rfl, h3⟩

theorem Drains.flush (D : Drains W N Q left Ready) {c c' : Ctx} {s s' : σ} {f : Frame} (hq : Q s) (ho : c.outErr = false)
    (h : flushFrame W c s f = .ok (c', s')) : Q s' ∧ c'.outErr = false ∧ c'.pendQ = c.pendQ ∧ ∀ i, i < N → left s' i = left s i := by
  unfold flushFrame at h
  split at h
  · cases h
  · rename_i d _
    have hb : ∃ c1 s1, flushBanner W c s f d = (c1, s1) ∧ Q s1 ∧ c1.outErr = false ∧ c1.pendQ = c.pendQ ∧ ∀ i, i < N → left s1 i = left s i := by
      unfold flushBanner
      split
      · obtain ⟨c1, s1, h1, h2, h3, h4, h5⟩ := D.print hq ho (.banner f.dev f.stamp)
        rw [h1]
        exact ⟨_, _, rfl, h2, h3, h4, h5⟩
      · exact ⟨_, _, rfl, hq, ho, rfl, fun _ _ => rfl⟩
    obtain ⟨c1, s1, h1, h2, h3, h4, h5⟩ := hb
    rw [h1] at h
    unfold flushEntry at h
    dsimp only at h
    split at h
    · obtain ⟨c2, s2, g1, g2, g3, g4, g5⟩ := D.print h2 h3 (.entry f)
      rw [g1] at h
      cases h
      exact ⟨g2, g3, g4.trans h4, fun i hi => (g5 i hi).trans (h5 i hi)⟩
    · cases h
      exact ⟨h2, h3, h4, h5⟩

theorem popOldest_length : ∀ {q : List Frame} {f : Frame} {t : List Frame}, popOldest q = some (f, t) → t.length + 1 = q.length
  | [], _, _, h => by simp [popOldest] at h
  | g :: q, f, t, h => by
    unfold popOldest at h
    split at h
    · rename_i hn
      cases q with
      | nil => simp at h; rw [← h.2]; rfl
      | cons a b => unfold popOldest at hn; split at hn <;> (try split at hn) <;> simp at hn
    · rename_i x r hx
      have := popOldest_length hx
      split at h
      · simp at h; rw [← h.2]; simp; omega
      · simp at h; rw [← h.2]; simp

theorem Drains.pull (D : Drains W N Q left Ready) {c : Ctx} {s : σ} (hq : Q s) (I : Inv 0 N c) (ho : c.outErr = false) :
    ∃ c' s', pullFrame W c s = .ok (c', s') ∧ Q s' ∧ Inv 0 N c' ∧ c'.outErr = false ∧ (∀ i, i < N → left s' i = left s i) ∧
      c'.pendQ.length = c.pendQ.length - 1 := by
  obtain ⟨c', s', h, I', ht⟩ := pullFrame_inv W s I
  refine ⟨c', s', h, ?_⟩
  have htail : ¬ c.tail > 0 := by have := I.tT; omega
  unfold pullFrame at h
  split at h
  · rename_i hn
    cases h
    refine ⟨hq, I, ho, fun _ _ => rfl, ?_⟩
    cases hp : c.pendQ with
    | nil => rfl
    | cons a b => rw [hp] at hn; unfold popOldest at hn; split at hn <;> (try split at hn) <;> simp at hn
  · rename_i f t hp
    have hl := popOldest_length hp
    dsimp only at h
    split at h
    · rename_i h'
      exact absurd h' htail
    simp only [bind, Except.bind] at h
    split at h
    · cases h
    · rename_i x hx
      obtain ⟨c1, s1⟩ := x
      obtain ⟨g1, g2, g3, g4⟩ := D.flush (s := s) (c := { c.upd f.dev fun d => { d with pending := false } with pendQ := t, pending := c.pending - 1 }) hq ho hx
      cases h
      refine ⟨g1, I', g2, g4, ?_⟩
      show c1.pendQ.length = _
      rw [g3]
      show t.length = _
      omega

/-- A turn does part of what is to be done. -/
theorem Drains.turn (D : Drains W N Q left Ready) {c : Ctx} {s : σ} (hq : Q s) (I : Inv 0 N c) (ho : c.outErr = false) :
    ∃ c' s' r, processDevices W c s = .ok (c', s', r) ∧ Q s' ∧ Inv 0 N c' ∧ c'.outErr = false ∧ 0 ≤ r ∧
      toDo N left c' s' ≤ toDo N left c s ∧ (0 < toDo N left c s → toDo N left c' s' < toDo N left c s) := by
  rw [processDevices_eq]
  obtain ⟨ready, s1, h1, h2, h3, h4, h5⟩ := D.poll hq c.asked
  rw [h1]
  dsimp only
  have hsame : toDo N left c s1 ≤ toDo N left c s := by
    unfold toDo
    have := sum_map_le (List.range N) fun i hi => h3 i (List.mem_range.1 hi)
    unfold allLeft
    omega
  have hask : ∀ i ∈ List.range c.devs.length, c.asked i = true → i < N ∧ c.isPending i = false := by
    intro i hi ha
    have := (asked_iff c i).1 ha
    rw [I.len] at this
    exact this
  obtain ⟨c1, s2, r, m', e1, e2, e3, e4, e5, e6, e7, e8, e9⟩ := D.devs c.asked ready (List.range c.devs.length) List.nodup_range (c := c) (s := s1) 0 h2 I ho
    hask (fun i hi ha => h4 i (hask i hi ha).1 ha) (by omega)
  rw [e1]
  rcases e6 with rfl | rfl
  · dsimp only
    obtain ⟨c2, s3, g1, g2, g3, g4, g5, g6⟩ := D.pull e2 e3 e4
    have hu : (updateMark c2).pendQ = c2.pendQ ∧ (updateMark c2).outErr = c2.outErr := by
      unfold updateMark; repeat' split
      all_goals exact ⟨rfl, rfl⟩
    have I3 := updateMark_inv g3
    have ht : (updateMark c2).tail = 0 := by
      have h1 := I3.tT; have h2 := I3.rt; omega
    unfold endPass
    rw [g1]
    dsimp only [bind, Except.bind]
    unfold tailFlush
    rw [if_pos (.inl ht)]
    have hdo : toDo N left (updateMark c2) s3 = 2 * allLeft N (left s2) + (c1.pendQ.length - 1) := by
      unfold toDo; rw [hu.1, g6, allLeft_congr g5]
    refine ⟨_, _, _, rfl, g2, I3, by rw [hu.2]; exact g4, e5, ?_, ?_⟩
    · rw [hdo]; unfold toDo at e7 hsame ⊢; omega
    · intro hpos
      rw [hdo]
      by_cases hp : 0 < c1.pendQ.length
      · unfold toDo at e7 hsame ⊢; omega
      · by_cases hs : ∃ i ∈ List.range c.devs.length, c.asked i = true ∧ ready i = true
        · have := e9 hs
          unfold toDo at this hsame ⊢; omega
        · by_cases hstrict : allLeft N (left s1) < allLeft N (left s)
          · unfold toDo at e7 ⊢; omega
          exfalso
          -- nothing waits, nothing is readable
          have hz : c1.pendQ.length = 0 := by omega
          by_cases hpc : c.pendQ = []
          · have hall : allLeft N (left s) = 0 := by
              rw [allLeft_zero]
              intro i hi
              have hai : c.asked i = true := by
                rw [asked_iff, I.len]
                refine ⟨hi, ?_⟩
                cases h : c.isPending i with
                | false => rfl
                | true => rw [I.pf, hpc] at h; simp at h
              have hri : ready i = false := by
                cases h : ready i with
                | false => rfl
                | true => exact absurd ⟨i, by rw [I.len]; exact List.mem_range.2 hi, hai, h⟩ hs
              rcases h5 i hi hai hri with h0 | h0
              · exact h0
              · exact absurd (sum_map_lt _ (fun j hj => h3 j (List.mem_range.1 hj)) ⟨i, List.mem_range.2 hi, h0⟩) hstrict
            unfold toDo at hpos
            rw [hall, hpc] at hpos
            simp at hpos
          · -- a frame that waits stays
            obtain ⟨f, hf⟩ := List.exists_mem_of_ne_nil _ hpc
            have hkeep := (readDevs_all W c.asked ready (List.range c.devs.length) List.nodup_range I (by
              intro i hi ha; exact hask i hi ha) e1).1 f.dev ((I.pf f.dev).2 (List.mem_map_of_mem hf))
            rw [e3.pf, List.length_eq_zero_iff.1 hz] at hkeep
            simp at hkeep
  · exact ⟨_, _, _, rfl, e2, e3, e4, by omega, by omega, fun _ => by have := e8 rfl; omega⟩

/-- A call with as many turns as there is to do leaves nothing to do. -/
theorem Drains.logs (D : Drains W N Q left Ready) (fuel : Nat) : ∀ {c : Ctx} {s : σ} (fr : Int), Q s → Inv 0 N c → c.outErr = false → 0 ≤ fr →
    toDo N left c s ≤ fuel →
    ∃ c' s', processLogs W false 0 fuel c s fr = .ok (c', s', none) ∧ Q s' ∧ Inv 0 N c' ∧ c'.outErr = false ∧ toDo N left c' s' = 0 := by
  induction fuel with
  | zero =>
    intro c s fr hq I ho _ hle
    exact ⟨c, s, rfl, hq, I, ho, by omega⟩
  | succ fuel ih =>
    intro c s fr hq I ho hfr hle
    obtain ⟨c1, s1, r, e1, e2, e3, e4, e5, e6, e7⟩ := D.turn hq I ho
    unfold processLogs
    rw [e1]
    dsimp only [bind, Except.bind]
    rw [if_neg (by omega), if_neg (by simp), if_neg (by simp [e4]), if_pos (.inl rfl)]
    refine ih (fr + r) e2 e3 e4 (by omega) ?_
    by_cases h : 0 < toDo N left c s
    · have := e7 h; omega
    · omega

/-- A call without an end does not end. -/
theorem Drains.goes (D : Drains W N Q left Ready) (fuel : Nat) : ∀ {c : Ctx} {s : σ} (fr : Int), Q s → Inv 0 N c → c.outErr = false → 0 ≤ fr →
    ∃ c' s', processLogs W false 0 fuel c s fr = .ok (c', s', none) := by
  induction fuel with
  | zero => intro c s fr _ _ _ _; exact ⟨c, s, rfl⟩
  | succ fuel ih =>
    intro c s fr hq I ho hfr
    obtain ⟨c1, s1, r, e1, e2, e3, e4, e5, _⟩ := D.turn hq I ho
    unfold processLogs
    rw [e1]
    dsimp only [bind, Except.bind]
    rw [if_neg (by omega), if_neg (by simp), if_neg (by simp [e4]), if_pos (.inl rfl)]
    exact ih (fr + r) e2 e3 e4 (by omega)

/-- Reading no device that is asked sets the marks of all to 0 at most. -/
theorem readDevs_unready (W : World σ) {asked ready : Nat → Bool} : ∀ (is : List Nat), (∀ i ∈ is, asked i = true ∧ ready i = false) →
    ∀ (c : Ctx) (s : σ) (m : Int), ∃ c2, readDevs W asked ready is c s m = (c2, s, none, m) ∧ c2.pendQ = c.pendQ ∧
      ∀ i, c2.markOf i = if i ∈ is ∧ c.markOf i > 0 then 0 else c.markOf i
  | [], _, c, s, m => ⟨c, rfl, rfl, by simp⟩
  | i :: is, h, c, s, m => by
    have hi := h i (by simp)
    rw [readDevs_cons, if_pos (by rw [hi.2]; simp), if_pos hi.1]
    obtain ⟨c2, e1, e2, e3⟩ := readDevs_unready W is (fun j hj => h j (by simp [hj])) (c.upd i Dev.unready) s m
    refine ⟨c2, e1, e2, fun j => ?_⟩
    rw [e3, markOf_unready]
    by_cases hij : i = j
    · subst hij
      by_cases hm : c.markOf i > 0 <;> simp [hm]
    · have : ¬ j = i := fun e => hij e.symm
      simp [hij, this]

/-- A turn with nothing to do reaches the marks. -/
theorem Drains.mark (D : Drains W N Q left Ready) {c : Ctx} {s : σ} (hq : Q s) (I : Inv 0 N c) (h0 : toDo N left c s = 0) {c' : Ctx} {s' : σ} {r : Int}
    (h : processDevices W c s = .ok (c', s', r)) : c'.markReached = true := by
  unfold toDo at h0
  have hp : c.pendQ = [] := List.length_eq_zero_iff.1 (by omega)
  have hl := allLeft_zero.1 (show allLeft N (left s) = 0 by omega)
  rw [processDevices_eq] at h
  obtain ⟨ready, s1, e1, e2, e3, e4, _⟩ := D.poll hq c.asked
  rw [e1] at h
  dsimp only at h
  have hask : ∀ i ∈ List.range c.devs.length, c.asked i = true ∧ ready i = false := by
    intro i hi
    have hiN : i < N := by rw [← I.len]; exact List.mem_range.1 hi
    have ha : c.asked i = true := by
      rw [asked_iff]
      refine ⟨List.mem_range.1 hi, ?_⟩
      cases h : c.isPending i
      · rfl
      · rw [I.pf, hp] at h; simp at h
    refine ⟨ha, ?_⟩
    cases hr : ready i with
    | false => rfl
    | true =>
      obtain ⟨_, _, _, _, _, hlt, _⟩ := D.recv e2 hiN (e4 i hiN ha hr)
      have := e3 i hiN
      have := hl i hiN
      omega
  obtain ⟨c1, f1, f2, f3⟩ := readDevs_unready W (List.range c.devs.length) hask c s1 0
  have I1 : Inv 0 N c1 := by
    have := readDevs_inv W c.asked ready (List.range c.devs.length) List.nodup_range s1 0 I (by
      intro i hi ha
      have := (asked_iff c i).1 ha
      rw [I.len] at this
      exact this)
    rwa [f1] at this
  have hpull : pullFrame W c1 s1 = .ok (c1, s1) := by
    unfold pullFrame
    rw [show popOldest c1.pendQ = none from (popOldest_none _).2 (f2.trans hp)]
  have hum : (updateMark c1).markReached = true := by
    unfold updateMark
    by_cases hc : c1.markReached = true
    · rw [if_pos hc]; exact hc
    · rw [if_neg hc, if_neg]
      rw [Bool.not_eq_true, any_mark I1.len]
      intro i hi
      rw [f3]
      split
      · exact Int.le_refl _
      · rename_i hn
        have : i ∈ List.range c.devs.length := List.mem_range.2 (by rw [I.len]; exact hi)
        have : ¬ c.markOf i > 0 := fun h => hn ⟨this, h⟩
        omega
  have I3 := updateMark_inv I1
  have ht : (updateMark c1).tail = 0 := by
    have h1 := I3.tT; have h2 := I3.rt; omega
  rw [f1] at h
  dsimp only at h
  unfold endPass at h
  rw [hpull] at h
  dsimp only [bind, Except.bind] at h
  unfold tailFlush at h
  rw [if_pos (.inl ht)] at h
  cases h
  exact hum

/-- A call with one turn more than there is to do reaches the marks. -/
theorem Drains.marked (D : Drains W N Q left Ready) (fuel : Nat) : ∀ {c : Ctx} {s : σ} (fr : Int), Q s → Inv 0 N c → c.outErr = false → 0 ≤ fr →
    toDo N left c s ≤ fuel → ∀ {c' : Ctx} {s' : σ} {r : Option Int}, processLogs W false 0 (fuel + 1) c s fr = .ok (c', s', r) → c'.markReached = true := by
  induction fuel with
  | zero =>
    intro c s fr hq I ho hfr hle c' s' r h
    obtain ⟨c1, s1, r1, e1, e2, e3, e4, e5, e6, e7⟩ := D.turn hq I ho
    unfold processLogs at h
    rw [e1] at h
    dsimp only [bind, Except.bind] at h
    rw [if_neg (by omega), if_neg (by simp), if_neg (by simp [e4]), if_pos (.inl rfl)] at h
    unfold processLogs at h
    simp only [Except.ok.injEq, Prod.mk.injEq] at h
    rw [← h.1]
    exact D.mark hq I (by omega) e1
  | succ fuel ih =>
    intro c s fr hq I ho hfr hle c' s' r h
    obtain ⟨c1, s1, r1, e1, e2, e3, e4, e5, e6, e7⟩ := D.turn hq I ho
    unfold processLogs at h
    rw [e1] at h
    dsimp only [bind, Except.bind] at h
    rw [if_neg (by omega), if_neg (by simp), if_neg (by simp [e4]), if_pos (.inl rfl)] at h
    refine ih (fr + r1) e2 e3 e4 (by omega) ?_ h
    by_cases hpos : 0 < toDo N left c s
    · have := e7 hpos; omega
    · omega

/-- A dump with one turn more than there is to do ends with 0. -/
theorem Drains.ends (D : Drains W N Q left Ready) (fuel : Nat) : ∀ {c : Ctx} {s : σ} (fr : Int), Q s → Inv 0 N c → c.outErr = false → 0 ≤ fr →
    toDo N left c s ≤ fuel → ∃ c' s', processLogs W true 0 (fuel + 1) c s fr = .ok (c', s', some 0) := by
  induction fuel with
  | zero =>
    intro c s fr hq I ho hfr hle
    obtain ⟨c1, s1, r1, e1, e2, e3, e4, e5, e6, e7⟩ := D.turn hq I ho
    have hm := D.mark hq I (by omega) e1
    have hpc := e3.pc
    obtain ⟨c2, s2, f1, _⟩ := flushPendingQueue_inv W c1.pending.toNat s1 e3 (by omega)
    unfold processLogs
    rw [e1]
    dsimp only [bind, Except.bind]
    rw [if_neg (by omega), hm, if_pos (by rfl), f1]
    exact ⟨c2, s2, rfl⟩
  | succ fuel ih =>
    intro c s fr hq I ho hfr hle
    obtain ⟨c1, s1, r1, e1, e2, e3, e4, e5, e6, e7⟩ := D.turn hq I ho
    have hpc := e3.pc
    obtain ⟨c2, s2, f1, _⟩ := flushPendingQueue_inv W c1.pending.toNat s1 e3 (by omega)
    unfold processLogs
    rw [e1]
    dsimp only [bind, Except.bind]
    rw [if_neg (by omega)]
    cases hm : c1.markReached with
    | true =>
      rw [if_pos (by rfl), f1]
      exact ⟨c2, s2, rfl⟩
    | false =>
      rw [if_neg (by simp), if_neg (by simp [e4]), if_pos (.inl rfl)]
      refine ih (fr + r1) e2 e3 e4 (by omega) ?_
      by_cases hpos : 0 < toDo N left c s
      · have := e7 hpos; omega
      · omega

end Verif.Ulogcat
