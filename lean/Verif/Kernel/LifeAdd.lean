import Verif.Kernel.LifeOpen

/-!
# Devices come and go
-/
namespace Verif.Kernel.Life
open Verif Verif.Kernel
open Verif.Ulogcat.Queue (Heap Ring Path upd_same upd_other path_congr)

variable {m : Mem} {ls : List Log} {loc : Role → Nat}

/-- Only links of free memory differ. -/
theorem MRel.congr (h : MRel m ls loc) {m' : Mem} (ho : ∀ a, m'.obj a = m.obj a)
    (hl : ∀ a, m.obj a ≠ none → m'.nx a = m.nx a ∧ m'.pv a = m.pv a) : MRel m' ls loc := by
  refine ⟨?_, ?_, ?_, ?_, ?_, h.inj, h.even, ?_, h.nodup, h.own⟩
  · intro i l hi; rw [ho]; exact h.log i l hi
  · intro i l hi; rw [ho]; exact h.name i l hi
  · intro i l hi; rw [ho]; exact h.buf i l hi
  · intro i l p hi hp; rw [ho]; exact h.rdr i l p hi hp
  · intro a ha; rw [ho] at ha; exact h.only a ha
  · intro i l hi
    have live : ∀ y ∈ loc (.log i) :: rdrs loc l, m.obj y ≠ none := by
      intro y hy
      rcases List.mem_cons.1 hy with rfl | hy
      · exact h.live (x := .log i) (lt_of_get hi)
      · obtain ⟨f, hf, rfl⟩ := List.mem_map.1 hy
        exact h.live (x := .rdr f) ⟨i, l, hi, hf⟩
    refine path_congr (h := m.heap) (fun y hy => (hl y (live y (by grind))).1) (fun y hy => (hl y (live y (by grind))).2) (h.ring i l hi)

/-- The addresses with those of a new device. -/
def newLoc (loc : Role → Nat) (n na la ba : Nat) : Role → Nat := fun x =>
  if x = .name n then na else if x = .log n then la else if x = .buf n then ba else loc x

theorem newLoc_name {n na la ba : Nat} : newLoc loc n na la ba (.name n) = na := if_pos rfl
theorem newLoc_log {n na la ba : Nat} : newLoc loc n na la ba (.log n) = la := by
  unfold newLoc
  rw [if_neg nofun, if_pos rfl]
theorem newLoc_buf {n na la ba : Nat} : newLoc loc n na la ba (.buf n) = ba := by
  unfold newLoc
  rw [if_neg nofun, if_neg nofun, if_pos rfl]
theorem newLoc_rdr {n na la ba f : Nat} : newLoc loc n na la ba (.rdr f) = loc (.rdr f) := by
  unfold newLoc
  rw [if_neg nofun, if_neg nofun, if_neg nofun]
theorem newLoc_old {n na la ba : Nat} (hn : n = ls.length) {x : Role} (hx : Has ls x) : newLoc loc n na la ba x = loc x := by
  unfold newLoc
  rw [if_neg, if_neg, if_neg]
  all_goals rintro rfl; simp only [Has] at hx; omega

theorem get_snoc {α : Type} {ls : List α} {x : α} {i : Nat} {l : α} (h : (ls ++ [x])[i]? = some l) : ls[i]? = some l ∨ (i = ls.length ∧ l = x) := by
  by_cases hil : i < ls.length
  · rw [List.getElem?_append_left hil] at h
    exact .inl h
  · rw [List.getElem?_append_right (by omega)] at h
    by_cases h0 : i - ls.length = 0
    · rw [h0] at h
      simp at h
      exact .inr ⟨by omega, h.symm⟩
    · rw [List.getElem?_eq_none (by simp; omega)] at h
      cases h

/-- A new device. -/
theorem MRel.addDevice (h : MRel m ls loc) {m' : Mem} {new : Log} (hr : new.readers = []) {na la ba : Nat}
    (fn : m.obj na = none ∧ na % 2 = 0 ∧ na ≠ 0) (fl : m.obj la = none ∧ la % 2 = 0 ∧ la ≠ 0) (fb : m.obj ba = none ∧ ba % 2 = 0 ∧ ba ≠ 0)
    (d1 : na ≠ la) (d2 : na ≠ ba) (d3 : la ≠ ba)
    (on : m'.obj na = some (.name new.name))
    (ol : m'.obj la = some (.log { name := na, size := new.size, buffer := ba, wOff := new.wOff, head := new.head, dropped := new.dropped }))
    (ob : m'.obj ba = some (.buf new.buf)) (oo : ∀ a, a ≠ na → a ≠ la → a ≠ ba → m'.obj a = m.obj a)
    (hl : ∀ a, m.obj a ≠ none → m'.nx a = m.nx a ∧ m'.pv a = m.pv a) (hring : m'.nx la = la ∧ m'.pv la = la) :
    MRel m' (ls ++ [new]) (newLoc loc ls.length na la ba) := by
  have hk : keys new = [] := by unfold keys; rw [hr]; rfl
  have hold : ∀ x, Has ls x → newLoc loc ls.length na la ba x = loc x := fun x hx => newLoc_old rfl hx
  have hmo : ∀ x, Has ls x → m'.obj (newLoc loc ls.length na la ba x) = m.obj (loc x) := by
    intro x hx
    rw [hold x hx]
    refine oo _ ?_ ?_ ?_
    · intro e; exact h.live hx (e ▸ fn.1)
    · intro e; exact h.live hx (e ▸ fl.1)
    · intro e; exact h.live hx (e ▸ fb.1)
  have has : ∀ x, Has (ls ++ [new]) x → Has ls x ∨ x = .log ls.length ∨ x = .name ls.length ∨ x = .buf ls.length := by
    intro x hx
    cases x with
    | rdr f =>
      obtain ⟨i, l, hi, hf⟩ := hx
      rcases get_snoc hi with hi | ⟨_, rfl⟩
      · exact .inl ⟨i, l, hi, hf⟩
      · rw [hk] at hf; cases hf
    | _ i =>
      simp only [Has, List.length_append, List.length_cons, List.length_nil] at hx ⊢
      by_cases hi : i < ls.length
      · exact .inl hi
      · have : i = ls.length := by omega
        subst this
        simp
  have has' : ∀ x, Has ls x → Has (ls ++ [new]) x := by
    intro x hx
    cases x with
    | rdr f =>
      obtain ⟨i, l, hi, hf⟩ := hx
      exact ⟨i, l, by rw [List.getElem?_append_left (lt_of_get hi)]; exact hi, hf⟩
    | _ i =>
      simp only [Has, List.length_append, List.length_cons, List.length_nil] at hx ⊢
      omega
  have hlobj : ∀ (j : Nat) (k : Log), j < ls.length → lobj (newLoc loc ls.length na la ba) j k = lobj loc j k := by
    intro j k hj
    unfold lobj
    rw [hold (.name j) hj, hold (.buf j) hj]
  have hrd : ∀ k : Log, rdrs (newLoc loc ls.length na la ba) k = rdrs loc k := by
    intro k
    unfold rdrs
    exact List.map_congr_left fun f _ => newLoc_rdr
  have dead : ∀ x, Has ls x → loc x ≠ na ∧ loc x ≠ la ∧ loc x ≠ ba := by
    intro x hx
    exact ⟨fun e => h.live hx (e ▸ fn.1), fun e => h.live hx (e ▸ fl.1), fun e => h.live hx (e ▸ fb.1)⟩
  constructor
  · intro i l hi
    rcases get_snoc hi with hi | ⟨rfl, rfl⟩
    · rw [hmo (.log i) (lt_of_get hi), h.log i l hi, hlobj i l (lt_of_get hi)]
    · rw [newLoc_log, ol]
      unfold lobj
      rw [newLoc_name, newLoc_buf]
  · intro i l hi
    rcases get_snoc hi with hi | ⟨rfl, rfl⟩
    · rw [hmo (.name i) (lt_of_get hi), h.name i l hi]
    · rw [newLoc_name, on]
  · intro i l hi
    rcases get_snoc hi with hi | ⟨rfl, rfl⟩
    · rw [hmo (.buf i) (lt_of_get hi), h.buf i l hi]
    · rw [newLoc_buf, ob]
  · intro i l p hi hp
    rcases get_snoc hi with hi | ⟨rfl, rfl⟩
    · rw [hmo (.rdr p.1) ⟨i, l, hi, mem_keys hp⟩, h.rdr i l p hi hp, hold (.log i) (lt_of_get hi)]
    · rw [hr] at hp; cases hp
  · intro a ha
    by_cases h1 : a = na
    · exact ⟨.name ls.length, by simp [Has], by rw [newLoc_name, h1]⟩
    · by_cases h2 : a = la
      · exact ⟨.log ls.length, by simp [Has], by rw [newLoc_log, h2]⟩
      · by_cases h3 : a = ba
        · exact ⟨.buf ls.length, by simp [Has], by rw [newLoc_buf, h3]⟩
        · rw [oo a h1 h2 h3] at ha
          obtain ⟨x, hx, rfl⟩ := h.only a ha
          exact ⟨x, has' x hx, hold x hx⟩
  · intro x y hx hy hxy
    rcases has x hx with hx | rfl | rfl | rfl <;> rcases has y hy with hy | rfl | rfl | rfl
    all_goals try rfl
    · rw [hold x hx, hold y hy] at hxy
      exact h.inj x y hx hy hxy
    all_goals first
      | rw [hold x hx] at hxy
        have hd := dead x hx
        first | rw [newLoc_log] at hxy | rw [newLoc_name] at hxy | rw [newLoc_buf] at hxy
        grind
      | rw [hold y hy] at hxy
        have hd := dead y hy
        first | rw [newLoc_log] at hxy | rw [newLoc_name] at hxy | rw [newLoc_buf] at hxy
        grind
      | rw [newLoc_log, newLoc_name] at hxy; exact absurd hxy (Ne.symm d1)
      | rw [newLoc_log, newLoc_buf] at hxy; exact absurd hxy d3
      | rw [newLoc_name, newLoc_log] at hxy; exact absurd hxy d1
      | rw [newLoc_name, newLoc_buf] at hxy; exact absurd hxy d2
      | rw [newLoc_buf, newLoc_log] at hxy; exact absurd hxy (Ne.symm d3)
      | rw [newLoc_buf, newLoc_name] at hxy; exact absurd hxy (Ne.symm d2)
  · intro x hx
    rcases has x hx with hx | rfl | rfl | rfl
    · rw [hold x hx]; exact h.even x hx
    · rw [newLoc_log]; exact fl.2
    · rw [newLoc_name]; exact fn.2
    · rw [newLoc_buf]; exact fb.2
  · intro i l hi
    rw [hrd]
    rcases get_snoc hi with hi | ⟨rfl, rfl⟩
    · rw [hold (.log i) (lt_of_get hi)]
      have live : ∀ y ∈ loc (.log i) :: rdrs loc l, m.obj y ≠ none := by
        intro y hy
        rcases List.mem_cons.1 hy with rfl | hy
        · exact h.live (x := .log i) (lt_of_get hi)
        · obtain ⟨f, hf, rfl⟩ := List.mem_map.1 hy
          exact h.live (x := .rdr f) ⟨i, l, hi, hf⟩
      exact path_congr (h := m.heap) (fun y hy => (hl y (live y (by grind))).1) (fun y hy => (hl y (live y (by grind))).2) (h.ring i l hi)
    · rw [newLoc_log]
      unfold rdrs
      rw [hk]
      exact hring
  · intro i l hi
    rcases get_snoc hi with hi | ⟨rfl, rfl⟩
    · exact h.nodup i l hi
    · rw [hk]; exact List.nodup_nil
  · intro i j l l' f hi hj hf hf'
    rcases get_snoc hi with hi | ⟨rfl, rfl⟩
    · rcases get_snoc hj with hj | ⟨rfl, rfl⟩
      · exact h.own i j l l' f hi hj hf hf'
      · rw [hk] at hf'; cases hf'
    · rw [hk] at hf; cases hf

theorem mrel_nil (loc : Role → Nat) {m : Mem} (h : ∀ a, m.obj a = none) : MRel m [] loc := by
  have no : ∀ x, ¬ Has [] x := by
    intro x hx
    cases x with
    | rdr f => obtain ⟨i, l, hi, _⟩ := hx; cases hi
    | _ i => simp [Has] at hx
  refine ⟨?_, ?_, ?_, ?_, ?_, ?_, ?_, ?_, ?_, ?_⟩
  · intro i l hi; cases hi
  · intro i l hi; cases hi
  · intro i l hi; cases hi
  · intro i l p hi; cases hi
  · intro a ha; exact absurd (h a) ha
  · intro x y hx; exact absurd hx (no x)
  · intro x hx; exact absurd hx (no x)
  · intro i l hi; cases hi
  · intro i l hi; cases hi
  · intro i j l l' f hi; cases hi

/-! ## The table and the registrations -/

/-- `n` slots from device `i` on. -/
def ptrs (loc : Role → Nat) : Nat → Nat → List (Option Nat)
  | _, 0 => []
  | i, n + 1 => some (loc (.log i)) :: ptrs loc (i + 1) n

/-- The registrations of devices of these names. -/
def entries (loc : Role → Nat) : Nat → List Bytes → List (Bytes × Nat)
  | _, [] => []
  | i, nm :: t => (nm, loc (.log i)) :: entries loc (i + 1) t

theorem ptrs_snoc (loc : Role → Nat) : ∀ (n i : Nat), ptrs loc i (n + 1) = ptrs loc i n ++ [some (loc (.log (i + n)))] := by
  intro n
  induction n with
  | zero => intro i; rfl
  | succ n ih =>
    intro i
    show some (loc (.log i)) :: ptrs loc (i + 1) (n + 1) = some (loc (.log i)) :: (ptrs loc (i + 1) n ++ _)
    rw [ih, show i + 1 + n = i + (n + 1) by omega]

theorem ptrs_length (loc : Role → Nat) : ∀ (n i : Nat), (ptrs loc i n).length = n := by
  intro n
  induction n with
  | zero => intro i; rfl
  | succ n ih =>
    intro i
    show (ptrs loc (i + 1) n).length + 1 = n + 1
    rw [ih]

theorem ptrs_congr {loc loc' : Role → Nat} : ∀ (n i : Nat), (∀ j, i ≤ j → j < i + n → loc' (.log j) = loc (.log j)) → ptrs loc' i n = ptrs loc i n := by
  intro n
  induction n with
  | zero => intro i _; rfl
  | succ n ih =>
    intro i h
    show some _ :: _ = some _ :: _
    rw [h i (by omega) (by omega), ih (i + 1) fun j h1 h2 => h j (by omega) (by omega)]

theorem entries_snoc (loc : Role → Nat) (nm : Bytes) : ∀ (t : List Bytes) (i : Nat),
    entries loc i (t ++ [nm]) = entries loc i t ++ [(nm, loc (.log (i + t.length)))] := by
  intro t
  induction t with
  | nil => intro i; rfl
  | cons x t ih =>
    intro i
    show (x, _) :: entries loc (i + 1) (t ++ [nm]) = (x, _) :: (entries loc (i + 1) t ++ _)
    rw [ih, List.length_cons, show i + 1 + t.length = i + (t.length + 1) by omega]

theorem entries_congr {loc loc' : Role → Nat} : ∀ (t : List Bytes) (i : Nat), (∀ j, i ≤ j → j < i + t.length → loc' (.log j) = loc (.log j)) →
    entries loc' i t = entries loc i t := by
  intro t
  induction t with
  | nil => intro i _; rfl
  | cons x t ih =>
    intro i h
    show (x, _) :: _ = (x, _) :: _
    rw [h i (by omega) (by simp), ih (i + 1) fun j h1 h2 => h j (by omega) (by simp; omega)]

theorem mem_entries {loc : Role → Nat} : ∀ {t : List Bytes} {i : Nat} {p : Bytes × Nat}, p ∈ entries loc i t → ∃ j, i ≤ j ∧ j < i + t.length ∧ p.2 = loc (.log j) := by
  intro t
  induction t with
  | nil => intro i p h; cases h
  | cons x t ih =>
    intro i p h
    rcases List.mem_cons.1 h with rfl | h
    · exact ⟨i, by omega, by simp, rfl⟩
    · obtain ⟨j, h1, h2, h3⟩ := ih h
      exact ⟨j, by omega, by simp; omega, h3⟩

/-- A node is found exactly if the device is in the table. -/
theorem entries_lookup (loc : Role → Nat) (nm : Bytes) (k : Nat) : ∀ (ls : List Log) (i : Nat),
    (entries loc i (ls.map (·.name))).lookup nm = (slotOf nm (ls.map some ++ List.replicate k none)).map fun j => loc (.log (i + j)) := by
  intro ls
  induction ls with
  | nil =>
    intro i
    have : ∀ k : Nat, slotOf nm (List.replicate k none) = none := by
      intro k
      induction k with
      | zero => rfl
      | succ k ih => rw [List.replicate_succ]; unfold slotOf; rw [ih]; rfl
    rw [List.map_nil, List.map_nil, List.nil_append, this]
    rfl
  | cons l ls ih =>
    intro i
    show List.lookup nm ((l.name, loc (.log i)) :: entries loc (i + 1) (ls.map (·.name))) = Option.map _ (slotOf nm (some l :: (ls.map some ++ List.replicate k none)))
    unfold slotOf
    rw [List.lookup_cons]
    by_cases h : l.name = nm
    · rw [if_pos h, h]
      simp
    · rw [if_neg h, show (nm == l.name) = false by simpa using Ne.symm h]
      dsimp only
      rw [ih, Option.map_map]
      congr 1
      funext j
      show loc (.log (i + 1 + j)) = loc (.log (i + (j + 1)))
      rw [show i + 1 + j = i + (j + 1) by omega]

/-- Log and name of these devices are there. -/
def There (m : Mem) (loc : Role → Nat) (i : Nat) (ls : List Log) : Prop :=
  ∀ (j : Nat) l, ls[j]? = some l → m.log (loc (.log (i + j))) = .ok (lobj loc (i + j) l) ∧ m.name (loc (.name (i + j))) = .ok l.name ∧ loc (.buf (i + j)) ≠ 0

theorem There.tail {m : Mem} {loc : Role → Nat} {i : Nat} {l : Log} {ls : List Log} (h : There m loc i (l :: ls)) : There m loc (i + 1) ls := by
  intro j l' hj
  have := h (j + 1) l' hj
  rw [show i + (j + 1) = i + 1 + j by omega] at this
  exact this

theorem MRel.there (h : MRel m ls loc) : There m loc 0 ls := by
  intro j l hj
  rw [Nat.zero_add]
  unfold Mem.log Mem.name
  rw [h.log j l hj, h.name j l hj]
  exact ⟨rfl, rfl, (h.even (.buf j) (lt_of_get hj)).2⟩

theorem slotNames_spec {m : Mem} {loc : Role → Nat} (k : Nat) : ∀ (ls : List Log) (i : Nat), There m loc i ls →
    slotNames m (ptrs loc i ls.length ++ List.replicate k none) = .ok (ls.map (fun l => some (regLog l)) ++ List.replicate k none) := by
  intro ls
  induction ls with
  | nil =>
    intro i _
    have : ∀ k : Nat, slotNames m (List.replicate k none) = .ok (List.replicate k none) := by
      intro k
      induction k with
      | zero => rfl
      | succ k ih => rw [List.replicate_succ]; unfold slotNames; rw [ih]; rfl
    exact this k
  | cons l ls ih =>
    intro i h
    obtain ⟨h1, h2, h3⟩ := h 0 l rfl
    rw [Nat.add_zero] at h1 h2 h3
    show slotNames m (some (loc (.log i)) :: (ptrs loc (i + 1) ls.length ++ List.replicate k none)) = _
    unfold slotNames
    rw [h1, bok]
    show (m.name (loc (.name i)) >>= _) = _
    rw [h2, bok, ih (i + 1) h.tail, bok]
    show Except.ok (some ({ name := l.name, size := l.size, buf := loc (.buf i) != 0 } : RLog) :: _) = _
    rw [show (loc (.buf i) != 0) = true by simpa using h3]
    rfl

theorem findSlot_spec {m : Mem} {loc : Role → Nat} (k : Nat) (word : Bytes) (register : Bool) : ∀ (ls : List Log) (i : Nat), There m loc i ls →
    findSlot m word register (ptrs loc i ls.length ++ List.replicate k none) =
      .ok (if word ∉ ls.map (·.name) ∧ k ≠ 0 ∧ register = true then some ls.length else none) := by
  intro ls
  induction ls with
  | nil =>
    intro i _
    cases k with
    | zero => rfl
    | succ k => cases register <;> simp [ptrs, List.replicate_succ, findSlot]
  | cons l ls ih =>
    intro i h
    obtain ⟨h1, h2, h3⟩ := h 0 l rfl
    rw [Nat.add_zero] at h1 h2 h3
    show findSlot m word register (some (loc (.log i)) :: (ptrs loc (i + 1) ls.length ++ List.replicate k none)) = _
    unfold findSlot
    rw [h1, bok]
    show (m.name (loc (.name i)) >>= _) = _
    rw [h2, bok]
    by_cases hw : l.name = word
    · rw [if_pos hw, if_neg (by simp [hw])]
    · rw [if_neg hw, ih (i + 1) h.tail, bok]
      by_cases hc : word ∉ ls.map (·.name) ∧ k ≠ 0 ∧ register = true
      · rw [if_pos hc, if_pos]
        · rfl
        · refine ⟨?_, hc.2⟩
          rw [List.map_cons, List.mem_cons, not_or]
          exact ⟨fun e => hw e.symm, hc.1⟩
      · rw [if_neg hc, if_neg]
        · rfl
        · rintro ⟨c1, c2⟩
          rw [List.map_cons, List.mem_cons, not_or] at c1
          exact hc ⟨c1.2, c2⟩

/-! ## Unloading -/

/-- The devices from `j` on are left, and the static memory. -/
structure Left (m : Mem) (ls : List Log) (loc : Role → Nat) (j : Nat) : Prop where
  dev : ∀ (i : Nat) l, ls[i]? = some l → j ≤ i → m.obj (loc (.log i)) = some (.log (lobj loc i l)) ∧
    m.obj (loc (.name i)) = some (.name l.name) ∧ m.obj (loc (.buf i)) = some (.buf l.buf)
  only : ∀ a, m.obj a ≠ none → a = loc (.log 0) ∨ a = loc (.name 0) ∨
    ∃ i, j ≤ i ∧ i < ls.length ∧ (a = loc (.log i) ∨ a = loc (.name i) ∨ a = loc (.buf i))

theorem entries_filter {loc : Role → Nat} {nm : Bytes} {t : List Bytes} {i : Nat} (h : ∀ j, i < j → j < i + 1 + t.length → loc (.log j) ≠ loc (.log i)) :
    (entries loc i (nm :: t)).filter (fun p => p.2 ≠ loc (.log i)) = entries loc (i + 1) t := by
  show List.filter _ ((nm, loc (.log i)) :: entries loc (i + 1) t) = _
  rw [List.filter_cons, if_neg (by simp)]
  refine List.filter_eq_self.2 fun p hp => ?_
  obtain ⟨j, h1, h2, h3⟩ := mem_entries hp
  rw [h3]
  simpa using h j (by omega) (by omega)

theorem deregister_spec {s : K} {i : Nat} {o : LObj} {nm : Bytes} {t : List Bytes} (hm : s.mem.log (loc (.log i)) = .ok o)
    (hs : s.misc = entries loc i (nm :: t)) (h : ∀ j, i < j → j < i + 1 + t.length → loc (.log j) ≠ loc (.log i)) :
    deregister s (loc (.log i)) = .ok { s with misc := entries loc (i + 1) t } := by
  unfold deregister
  rw [hm, bok, hs, entries_filter h, if_pos]
  show List.any ((nm, loc (.log i)) :: entries loc (i + 1) t) _ = true
  simp

theorem deleteLog_spec {s : K} {ls : List Log} {j : Nat} {l : Log} {t : List Bytes} (h : Left s.mem ls loc j) (hl : ls[j]? = some l) (hj : 0 < j)
    (inj : ∀ x y, Has ls x → Has ls y → loc x = loc y → x = y) (nz : ∀ x, Has ls x → loc x ≠ 0) (ht : t.length + j + 1 = ls.length)
    (hm : s.misc = entries loc j (l.name :: t)) :
    ∃ m', deleteLog s (loc (.log j)) = .ok { s with mem := m', misc := entries loc (j + 1) t } ∧ Left m' ls loc (j + 1) := by
  have hjl := lt_of_get hl
  obtain ⟨o1, o2, o3⟩ := h.dev j l hl (Nat.le_refl j)
  have hlog : s.mem.log (loc (.log j)) = .ok (lobj loc j l) := by unfold Mem.log; rw [o1]
  have ne : ∀ {x y : Role}, Has ls x → Has ls y → x ≠ y → loc x ≠ loc y := fun hx hy hxy e => hxy (inj _ _ hx hy e)
  have hd := deregister_spec (loc := loc) hlog hm (fun i h1 h2 => ne (x := .log i) (y := .log j) (show i < ls.length by omega) hjl (fun e => by injection e; omega))
  have b_n : loc (.buf j) ≠ loc (.name j) := ne (x := .buf j) (y := .name j) hjl hjl nofun
  have b_l : loc (.buf j) ≠ loc (.log j) := ne (x := .buf j) (y := .log j) hjl hjl nofun
  have n_l : loc (.name j) ≠ loc (.log j) := ne (x := .name j) (y := .log j) hjl hjl nofun
  let g1 := Ulogcat.Queue.upd s.mem.obj (loc (.buf j)) none
  let g2 := Ulogcat.Queue.upd g1 (loc (.name j)) none
  let g3 := Ulogcat.Queue.upd g2 (loc (.log j)) none
  refine ⟨{ s.mem with obj := g3 }, ?_, ?_⟩
  · unfold deleteLog
    rw [hd, bok]
    dsimp only
    rw [hlog, bok]
    have f1 : s.mem.vfree (lobj loc j l).buffer = .ok { s.mem with obj := g1 } := by
      show s.mem.vfree (loc (.buf j)) = _
      unfold Mem.vfree
      rw [if_neg (nz (.buf j) hjl), o3]
    have f2 : Mem.kfree { s.mem with obj := g1 } (lobj loc j l).name = .ok { s.mem with obj := g2 } := by
      show Mem.kfree { s.mem with obj := g1 } (loc (.name j)) = _
      unfold Mem.kfree
      rw [if_neg (nz (.name j) hjl)]
      dsimp only
      rw [show g1 (loc (.name j)) = some (.name l.name) from (upd_other _ _ (Ne.symm b_n)).trans o2]
    have f3 : Mem.kfree { s.mem with obj := g2 } (loc (.log j)) = .ok { s.mem with obj := g3 } := by
      unfold Mem.kfree
      rw [if_neg (nz (.log j) hjl)]
      dsimp only
      rw [show g2 (loc (.log j)) = some (.log (lobj loc j l)) from
        (upd_other _ _ (Ne.symm n_l)).trans ((upd_other _ _ (Ne.symm b_l)).trans o1)]
    rw [f1, bok, f2, bok, f3, bok]
  · have keep : ∀ x, Has ls x → x ≠ .log j → x ≠ .name j → x ≠ .buf j → g3 (loc x) = s.mem.obj (loc x) := by
      intro x hx h1 h2 h3
      exact (upd_other _ _ (ne hx (y := .log j) hjl h1)).trans ((upd_other _ _ (ne hx (y := .name j) hjl h2)).trans
        (upd_other _ _ (ne hx (y := .buf j) hjl h3)))
    refine ⟨fun i k hi hji => ?_, fun a ha => ?_⟩
    · obtain ⟨q1, q2, q3⟩ := h.dev i k hi (by omega)
      have hil := lt_of_get hi
      have hne : i ≠ j := by omega
      refine ⟨?_, ?_, ?_⟩
      · exact (keep (.log i) hil (by simpa using hne) nofun nofun).trans q1
      · exact (keep (.name i) hil nofun (by simpa using hne) nofun).trans q2
      · exact (keep (.buf i) hil nofun nofun (by simpa using hne)).trans q3
    · have ha : g3 a ≠ none := ha
      have a3 : a ≠ loc (.log j) := by rintro rfl; exact ha (upd_same _ _ _)
      have e3 : g3 a = g2 a := upd_other _ _ a3
      rw [e3] at ha
      have a2 : a ≠ loc (.name j) := by rintro rfl; exact ha (upd_same _ _ _)
      have e2 : g2 a = g1 a := upd_other _ _ a2
      rw [e2] at ha
      have a1 : a ≠ loc (.buf j) := by rintro rfl; exact ha (upd_same _ _ _)
      have e1 : g1 a = s.mem.obj a := upd_other _ _ a1
      rw [e1] at ha
      rcases h.only a ha with e | e | ⟨i, i1, i2, i3⟩
      · exact .inl e
      · exact .inr (.inl e)
      · refine .inr (.inr ⟨i, ?_, i2, i3⟩)
        by_cases hij : i = j
        · subst hij
          rcases i3 with e | e | e
          · exact absurd e a3
          · exact absurd e a2
          · exact absurd e a1
        · omega

theorem deleteLogs_spec {ls : List Log} (inj : ∀ x y, Has ls x → Has ls y → loc x = loc y → x = y) (nz : ∀ x, Has ls x → loc x ≠ 0) (k : Nat) :
    ∀ (n j : Nat) (s : K), 0 < j → n + j = ls.length → Left s.mem ls loc j → s.misc = entries loc j ((ls.drop j).map (·.name)) →
    ∃ m', deleteLogs (loc (.log 0)) (ptrs loc j n ++ List.replicate k none) s = .ok { s with mem := m', misc := [] } ∧ Left m' ls loc ls.length := by
  intro n
  induction n with
  | zero =>
    intro j s h1 h2 h3 h4
    have : ls.length = j := by omega
    refine ⟨s.mem, ?_, by rw [this]; exact h3⟩
    have hm : s.misc = [] := by rw [h4, List.drop_eq_nil_of_le (by omega)]; rfl
    rw [← hm]
    cases k with
    | zero => rfl
    | succ k => rfl
  | succ n ih =>
    intro j s h1 h2 h3 h4
    have hj : j < ls.length := by omega
    have hl : ls[j]? = some ls[j] := List.getElem?_eq_getElem hj
    rw [List.drop_eq_getElem_cons hj, List.map_cons] at h4
    obtain ⟨m1, e1, L1⟩ := deleteLog_spec h3 hl h1 inj nz (t := (ls.drop (j + 1)).map (·.name)) (by simp; omega) h4
    obtain ⟨m2, e2, L2⟩ := ih (j + 1) { s with mem := m1, misc := entries loc (j + 1) ((ls.drop (j + 1)).map (·.name)) } (by omega) (by omega) L1 rfl
    refine ⟨m2, ?_, L2⟩
    show deleteLogs (loc (.log 0)) (some (loc (.log j)) :: (ptrs loc (j + 1) n ++ List.replicate k none)) s = _
    unfold deleteLogs
    rw [if_neg, e1, bok, e2]
    intro e
    have := inj (.log j) (.log 0) hj (show 0 < ls.length by omega) e
    injection this
    omega

end Verif.Kernel.Life
