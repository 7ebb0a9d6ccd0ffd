import Verif.Kernel.LifeRen

/-!
# Devices in memory
-/
namespace Verif.Kernel.Life
open Verif Verif.Kernel
open Verif.Ulogcat.Queue (Heap Ring Path upd_same upd_other path_congr addTail_spec remove_spec listAddTail listRemove
  next_ok prev_ok setNext_ok setPrev_ok ring_prev)

/-- What is at an address: log, name and buffer of a device, the reader of a file. -/
inductive Role
  | log (i : Nat)
  | name (i : Nat)
  | buf (i : Nat)
  | rdr (f : Nat)
  deriving DecidableEq

/-- The structures that there are for these devices. -/
def Has (ls : List Log) : Role → Prop
  | .log i => i < ls.length
  | .name i => i < ls.length
  | .buf i => i < ls.length
  | .rdr f => ∃ (i : Nat) (l : Log), ls[i]? = some l ∧ f ∈ keys l

def lobj (loc : Role → Nat) (i : Nat) (l : Log) : LObj :=
  { name := loc (.name i), size := l.size, buffer := loc (.buf i), wOff := l.wOff, head := l.head, dropped := l.dropped }

/-- The nodes of the readers of a log. -/
def rdrs (loc : Role → Nat) (l : Log) : List Nat := (keys l).map fun f => loc (.rdr f)

/-- These devices are in memory, at these addresses, and nothing else is. -/
structure MRel (m : Mem) (ls : List Log) (loc : Role → Nat) : Prop where
  log : ∀ (i : Nat) l, ls[i]? = some l → m.obj (loc (.log i)) = some (.log (lobj loc i l))
  name : ∀ (i : Nat) l, ls[i]? = some l → m.obj (loc (.name i)) = some (.name l.name)
  buf : ∀ (i : Nat) l, ls[i]? = some l → m.obj (loc (.buf i)) = some (.buf l.buf)
  rdr : ∀ (i : Nat) l p, ls[i]? = some l → p ∈ l.readers → m.obj (loc (.rdr p.1)) = some (.reader { log := loc (.log i), rd := p.2 })
  only : ∀ a, m.obj a ≠ none → ∃ x, Has ls x ∧ loc x = a
  inj : ∀ x y, Has ls x → Has ls y → loc x = loc y → x = y
  even : ∀ x, Has ls x → loc x % 2 = 0 ∧ loc x ≠ 0
  ring : ∀ (i : Nat) l, ls[i]? = some l → Ring m.heap (loc (.log i)) (rdrs loc l)
  nodup : ∀ (i : Nat) l, ls[i]? = some l → (keys l).Nodup
  own : ∀ (i j : Nat) l l' f, ls[i]? = some l → ls[j]? = some l' → f ∈ keys l → f ∈ keys l' → i = j

theorem lt_of_get {α : Type} {ls : List α} {i : Nat} {l : α} (h : ls[i]? = some l) : i < ls.length := (List.getElem?_eq_some_iff.1 h).1

theorem mem_keys {l : Log} {p : Nat × Reader} (h : p ∈ l.readers) : p.1 ∈ keys l := List.mem_map.2 ⟨p, h, rfl⟩

theorem nodup_map_on {α β : Type} {g : α → β} : ∀ {l : List α}, (∀ x ∈ l, ∀ y ∈ l, g x = g y → x = y) → l.Nodup → (l.map g).Nodup := by
  intro l
  induction l with
  | nil => intro _ _; exact List.nodup_nil
  | cons a l ih =>
    intro h nd
    obtain ⟨n1, n2⟩ := List.nodup_cons.1 nd
    refine List.nodup_cons.2 ⟨fun hm => ?_, ih (fun x hx y hy => h x (by simp [hx]) y (by simp [hy])) n2⟩
    obtain ⟨b, hb, e⟩ := List.mem_map.1 hm
    exact n1 (h b (by simp [hb]) a (by simp) e ▸ hb)

/-! ## Lists -/

theorem mnext_ok {m : Mem} {a : Nat} (e : m.node a = true) : m.next a = .ok (m.nx a) := by simp [Mem.next, e]
theorem mprev_ok {m : Mem} {a : Nat} (e : m.node a = true) : m.prev a = .ok (m.pv a) := by simp [Mem.prev, e]
theorem msetNext_ok {m : Mem} {a : Nat} (v : Nat) (e : m.node a = true) :
    m.setNext a v = .ok { m with nx := Ulogcat.Queue.upd m.nx a v } := by simp [Mem.setNext, e]
theorem msetPrev_ok {m : Mem} {a : Nat} (v : Nat) (e : m.node a = true) :
    m.setPrev a v = .ok { m with pv := Ulogcat.Queue.upd m.pv a v } := by simp [Mem.setPrev, e]

theorem initList_spec {m : Mem} {a : Nat} (ha : m.node a = true) :
    initList m a = .ok { m with nx := Ulogcat.Queue.upd m.nx a a, pv := Ulogcat.Queue.upd m.pv a a } := by
  unfold initList
  rw [msetNext_ok _ ha, bok, msetPrev_ok _ (by exact ha)]

theorem listAdd_spec {m : Mem} {a x : Nat} {l : List Nat} (R : Ring m.heap a l) (nd : (a :: l).Nodup) (hx : x ∉ a :: l)
    (la : ∀ y ∈ a :: l, m.node y = true) (lx : m.node x = true) :
    ∃ m', listAdd m a x = .ok m' ∧ Ring m'.heap a (l ++ [x]) ∧ m'.obj = m.obj ∧
      ∀ y, y ∉ x :: a :: l → m'.nx y = m.nx y ∧ m'.pv y = m.pv y := by
  have hla := la a (by simp)
  have hp := ring_prev R
  have hlp : m.node (m.pv a) = true := la _ hp
  have hax : a ≠ x := by rintro rfl; exact hx (by simp)
  obtain ⟨h', e, R', lv, hk⟩ := addTail_spec R nd hx la lx
  let m' : Mem := { m with nx := Ulogcat.Queue.upd (Ulogcat.Queue.upd m.nx x a) (m.pv a) x, pv := Ulogcat.Queue.upd (Ulogcat.Queue.upd m.pv a x) x (m.pv a) }
  have e' : listAddTail m.heap a x = .ok m'.heap := by
    unfold listAddTail
    rw [setNext_ok _ (by exact lx), Verif.Ulogcat.Queue.bind_ok, prev_ok (by exact hla), Verif.Ulogcat.Queue.bind_ok, setPrev_ok _ (by exact lx), Verif.Ulogcat.Queue.bind_ok,
      prev_ok (by exact hla), Verif.Ulogcat.Queue.bind_ok]
    dsimp only
    rw [upd_other _ _ hax, setNext_ok _ (by exact hlp), Verif.Ulogcat.Queue.bind_ok, setPrev_ok _ (by exact hla)]
    congr 1
    show Heap.mk _ _ _ = Heap.mk _ _ _
    congr 1
    funext y
    show Ulogcat.Queue.upd (Ulogcat.Queue.upd m.pv x (m.pv a)) a x y = Ulogcat.Queue.upd (Ulogcat.Queue.upd m.pv a x) x (m.pv a) y
    unfold Ulogcat.Queue.upd
    split <;> split <;> simp_all
  rw [e'] at e
  injection e with e
  subst e
  refine ⟨m', ?_, R', rfl, hk⟩
  unfold listAdd
  rw [mprev_ok hla, bok, msetPrev_ok _ hla, bok, msetNext_ok _ (by exact lx), bok, msetPrev_ok _ (by exact lx), bok,
    msetNext_ok _ (by exact hlp)]

theorem listDel_spec {m : Mem} {a x : Nat} {l k : List Nat} (R : Ring m.heap a (l ++ x :: k))
    (nd : (a :: (l ++ x :: k)).Nodup) (la : ∀ y ∈ a :: (l ++ x :: k), m.node y = true) :
    ∃ m', listDel m x = .ok m' ∧ Ring m'.heap a (l ++ k) ∧ m'.obj = m.obj ∧
      ∀ y, y ∉ a :: (l ++ x :: k) → m'.nx y = m.nx y ∧ m'.pv y = m.pv y := by
  have lx := la x (by simp)
  obtain ⟨P1, P2⟩ := Verif.Ulogcat.Queue.path_append.1 R
  have hp : m.pv x ∈ a :: l := by
    clear la nd R P2
    revert P1
    generalize ha : a = b
    intro P1
    clear ha
    induction l generalizing b with
    | nil => have := P1.2; simp only [Mem.heap] at this; simp [this]
    | cons y l ih => have := ih y P1.2; simp only [List.mem_cons] at this ⊢; grind
  have hn : m.nx x ∈ a :: k := by
    cases k with
    | nil => have := P2.1; simp only [Mem.heap] at this; simp [this]
    | cons y k => have := P2.1.1; simp only [Mem.heap] at this; simp [this]
  have lp := la (m.pv x) (by grind)
  have ln := la (m.nx x) (by grind)
  have hpx : m.pv x ≠ x := by grind
  have hnx : m.nx x ≠ x := by grind
  obtain ⟨h', e, R', lv, _, hk⟩ := remove_spec R nd la
  have e' : listRemove m.heap x = .ok { m.heap with nx := Ulogcat.Queue.upd m.nx (m.pv x) (m.nx x), pv := Ulogcat.Queue.upd m.pv (m.nx x) (m.pv x) } := by
    unfold listRemove
    rw [next_ok (by exact lx), Verif.Ulogcat.Queue.bind_ok, prev_ok (by exact lx), Verif.Ulogcat.Queue.bind_ok, setPrev_ok _ (by exact ln), Verif.Ulogcat.Queue.bind_ok,
      prev_ok (by exact lx), Verif.Ulogcat.Queue.bind_ok, next_ok (by exact lx), Verif.Ulogcat.Queue.bind_ok]
    dsimp only [Mem.heap]
    rw [upd_other _ _ (Ne.symm hnx)]
    exact setNext_ok _ (by exact lp)
  rw [e'] at e
  injection e with e
  subst e
  refine ⟨{ m with nx := Ulogcat.Queue.upd (Ulogcat.Queue.upd m.nx (m.pv x) (m.nx x)) x poison1, pv := Ulogcat.Queue.upd (Ulogcat.Queue.upd m.pv (m.nx x) (m.pv x)) x poison2 }, ?_, ?_, rfl, ?_⟩
  · unfold listDel
    rw [mnext_ok lx, bok, mprev_ok lx, bok, msetPrev_ok _ ln, bok, msetNext_ok _ (by exact lp), bok, msetNext_ok _ (by exact lx), bok,
      msetPrev_ok _ (by exact lx)]
  · refine path_congr (fun y hy => ?_) (fun y hy => ?_) R'
    · exact upd_other _ _ (by grind)
    · exact upd_other _ _ (by grind)
  · intro y hy
    have hyx : y ≠ x := by grind
    have h1 : y ∉ a :: (l ++ k) := by grind
    obtain ⟨k1, k2⟩ := hk y h1
    exact ⟨(upd_other _ _ hyx).trans k1, (upd_other _ _ hyx).trans k2⟩

theorem walk_spec {m : Mem} {head : Nat} : ∀ {l : List Nat} {a n : Nat}, Path m.heap a l head → head ∉ l → (∀ y ∈ l, m.node y = true) → l.length ≤ n →
    walk m head n (m.nx a) = .ok l := by
  intro l
  induction l with
  | nil =>
    intro a n P _ _ _
    have e : m.nx a = head := P.1
    rw [e]
    cases n <;> (unfold walk; rw [if_pos rfl])
  | cons x l ih =>
    intro a n P hh hl hn
    cases n with
    | zero => cases hn
    | succ n =>
      have e : m.nx a = x := P.1.1
      rw [e]
      unfold walk
      rw [if_neg (by rintro rfl; exact hh (by simp)), mnext_ok (hl x (by simp)), bok,
        ih P.2 (fun h => hh (by simp [h])) (fun y hy => hl y (by simp [hy])) (by simpa using hn)]
      rfl

/-! ## Reading and writing a log -/

variable {m : Mem} {ls : List Log} {loc : Role → Nat}

theorem MRel.node_log (h : MRel m ls loc) {i : Nat} {l : Log} (hi : ls[i]? = some l) : m.node (loc (.log i)) = true := by
  unfold Mem.node
  rw [h.log i l hi]

theorem MRel.node_rdr (h : MRel m ls loc) {i : Nat} {l : Log} (hi : ls[i]? = some l) {a : Nat} (ha : a ∈ rdrs loc l) : m.node a = true := by
  obtain ⟨f, hf, rfl⟩ := List.mem_map.1 ha
  obtain ⟨p, hp, rfl⟩ := List.mem_map.1 hf
  unfold Mem.node
  rw [h.rdr i l p hi hp]

theorem MRel.nodup_ring (h : MRel m ls loc) {i : Nat} {l : Log} (hi : ls[i]? = some l) : (loc (.log i) :: rdrs loc l).Nodup := by
  refine List.nodup_cons.2 ⟨fun hx => ?_, ?_⟩
  · obtain ⟨f, hf, e⟩ := List.mem_map.1 hx
    have := h.inj (.rdr f) (.log i) ⟨i, l, hi, hf⟩ (lt_of_get hi) e
    cases this
  · refine nodup_map_on ?_ (h.nodup i l hi)
    intro f hf g hg e
    have := h.inj (.rdr f) (.rdr g) ⟨i, l, hi, hf⟩ ⟨i, l, hi, hg⟩ e
    injection this

theorem readersAt_spec : ∀ {rs : List (Nat × Reader)} {a : Nat}, (∀ p ∈ rs, m.obj (loc (.rdr p.1)) = some (.reader { log := a, rd := p.2 })) →
    readersAt m (rs.map fun p => loc (.rdr p.1)) = .ok (rs.map fun p => (loc (.rdr p.1), p.2)) := by
  intro rs
  induction rs with
  | nil => intro a _; rfl
  | cons p rs ih =>
    intro a h
    rw [List.map_cons, List.map_cons]
    unfold readersAt Mem.reader
    rw [h p (by simp)]
    dsimp only
    rw [bok, ih fun q hq => h q (by simp [hq])]
    rfl

/-- What is found behind a pointer to a log. -/
theorem MRel.logAt (h : MRel m ls loc) {i : Nat} {l : Log} (hi : ls[i]? = some l) {n : Nat} (hn : (keys l).length ≤ n) :
    Life.logAt m n (loc (.log i)) = .ok (ren (fun f => loc (.rdr f)) l) := by
  have h1 : m.log (loc (.log i)) = .ok (lobj loc i l) := by unfold Mem.log; rw [h.log i l hi]
  have h2 : m.name (lobj loc i l).name = .ok l.name := by unfold Mem.name lobj; dsimp only; rw [h.name i l hi]
  have h3 : m.buf (lobj loc i l).buffer = .ok l.buf := by unfold Mem.buf lobj; dsimp only; rw [h.buf i l hi]
  unfold Life.logAt
  rw [h1, bok, h2, bok, h3]
  have hr : rdrs loc l = l.readers.map fun p => loc (.rdr p.1) := by
    unfold rdrs keys
    rw [List.map_map]
    rfl
  rw [bok, mnext_ok (h.node_log hi), bok, walk_spec (h.ring i l hi) (List.nodup_cons.1 (h.nodup_ring hi)).1 (fun y hy => h.node_rdr hi hy)
    (by unfold rdrs; rw [List.length_map]; exact hn), bok, hr, readersAt_spec fun p hp => h.rdr i l p hi hp, bok]
  rfl

theorem putReaders_spec : ∀ {rs : List (Nat × Reader)} {m : Mem} {a : Nat}, (rs.map (·.1)).Nodup →
    (∀ p ∈ rs, ∃ r, m.obj p.1 = some (.reader { log := a, rd := r })) →
    ∃ m', putReaders m rs = .ok m' ∧ m'.nx = m.nx ∧ m'.pv = m.pv ∧ (∀ x, x ∉ rs.map (·.1) → m'.obj x = m.obj x) ∧
      ∀ p ∈ rs, m'.obj p.1 = some (.reader { log := a, rd := p.2 }) := by
  intro rs
  induction rs with
  | nil => intro m a _ _; exact ⟨m, rfl, rfl, rfl, fun _ _ => rfl, nofun⟩
  | cons p rs ih =>
    intro m a nd h
    obtain ⟨b, r⟩ := p
    obtain ⟨r0, h0⟩ := h (b, r) (by simp)
    obtain ⟨nd1, nd2⟩ := List.nodup_cons.1 nd
    obtain ⟨m', e, e1, e2, e3, e4⟩ := ih (m := m.set b (.reader { log := a, rd := r })) (a := a) nd2 (by
      intro q hq
      obtain ⟨rq, hrq⟩ := h q (by simp [hq])
      refine ⟨rq, ?_⟩
      rw [← hrq]
      refine upd_other _ _ ?_
      intro hqb
      apply nd1
      show b ∈ _
      rw [← hqb]
      exact List.mem_map.2 ⟨q, hq, rfl⟩)
    refine ⟨m', ?_, e1, e2, ?_, ?_⟩
    · unfold putReaders Mem.reader
      dsimp only at h0
      rw [h0]
      exact e
    · intro x hx
      have hx : ¬ (x = b ∨ x ∈ rs.map (·.1)) := fun hh => hx (by simpa using hh)
      rw [e3 x (fun hh => hx (.inr hh))]
      exact upd_other _ _ (fun hh => hx (.inl hh))
    · intro q hq
      rcases List.mem_cons.1 hq with rfl | hq
      · rw [e3 _ nd1]
        exact upd_same _ _ _
      · exact e4 q hq

theorem Has.set {i : Nat} {l l' : Log} (hi : ls[i]? = some l) (hk : keys l' = keys l) (x : Role) : Has (ls.set i l') x ↔ Has ls x := by
  have hil := lt_of_get hi
  have get : ∀ j : Nat, (ls.set i l')[j]? = if j = i then some l' else ls[j]? := by
    intro j
    by_cases hj : j = i
    · subst hj; rw [List.getElem?_set_self hil, if_pos rfl]
    · rw [List.getElem?_set_ne (by omega), if_neg hj]
  cases x with
  | rdr f =>
    constructor
    · rintro ⟨j, k, h1, h2⟩
      rw [get] at h1
      split at h1
      · injection h1 with h1
        subst h1
        exact ⟨i, l, hi, hk ▸ h2⟩
      · exact ⟨j, k, h1, h2⟩
    · rintro ⟨j, k, h1, h2⟩
      by_cases hj : j = i
      · subst hj
        rw [hi] at h1
        injection h1 with h1
        subst h1
        exact ⟨j, l', by rw [get, if_pos rfl], by rw [hk]; exact h2⟩
      · exact ⟨j, k, by rw [get, if_neg hj]; exact h1, h2⟩
  | _ => simp [Has]

/-- Writing a log back. -/
theorem MRel.putLog (h : MRel m ls loc) {i : Nat} {l l' : Log} (hi : ls[i]? = some l) (hk : keys l' = keys l) (hn : l'.name = l.name)
    (hs : l'.size = l.size) : ∃ m', Life.putLog m (loc (.log i)) (ren (fun f => loc (.rdr f)) l') = .ok m' ∧ MRel m' (ls.set i l') loc := by
  have hil := lt_of_get hi
  have get : ∀ j : Nat, (ls.set i l')[j]? = if j = i then some l' else ls[j]? := by
    intro j
    by_cases hj : j = i
    · subst hj; rw [List.getElem?_set_self hil, if_pos rfl]
    · rw [List.getElem?_set_ne (by omega), if_neg hj]
  have hbl : loc (.buf i) ≠ loc (.log i) := fun e => by cases h.inj (.buf i) (.log i) hil hil e
  let m2 : Mem := (m.set (loc (.log i)) (.log (lobj loc i l'))).set (loc (.buf i)) (.buf l'.buf)
  have hrd : ∀ f, f ∈ keys l → loc (.rdr f) ≠ loc (.log i) ∧ loc (.rdr f) ≠ loc (.buf i) := by
    intro f hf
    constructor
    · intro e; cases h.inj (.rdr f) (.log i) ⟨i, l, hi, hf⟩ hil e
    · intro e; cases h.inj (.rdr f) (.buf i) ⟨i, l, hi, hf⟩ hil e
  have hkeys : ((ren (fun f => loc (.rdr f)) l').readers.map (·.1)) = rdrs loc l := by
    unfold ren rdrs
    rw [← hk]
    unfold keys
    dsimp only
    rw [List.map_map, List.map_map]
    rfl
  obtain ⟨m', e, e1, e2, e3, e4⟩ := putReaders_spec (rs := (ren (fun f => loc (.rdr f)) l').readers) (m := m2) (a := loc (.log i))
    (by rw [hkeys]; exact (List.nodup_cons.1 (h.nodup_ring hi)).2)
    (by
      intro p hp
      have hp1 : p.1 ∈ rdrs loc l := by rw [← hkeys]; exact List.mem_map.2 ⟨p, hp, rfl⟩
      obtain ⟨f, hf, hfe⟩ := List.mem_map.1 hp1
      obtain ⟨q, hq, rfl⟩ := List.mem_map.1 hf
      refine ⟨q.2, ?_⟩
      rw [← hfe]
      obtain ⟨n1, n2⟩ := hrd q.1 hf
      show Ulogcat.Queue.upd (Ulogcat.Queue.upd m.obj _ _) _ _ _ = _
      rw [upd_other _ _ n2, upd_other _ _ n1]
      exact h.rdr i l q hi hq)
  have out : ∀ x, Has ls x → x ≠ .log i → x ≠ .buf i → (∀ f ∈ keys l, x ≠ .rdr f) → m'.obj (loc x) = m.obj (loc x) := by
    intro x hx h1 h2 h3
    rw [e3]
    · show Ulogcat.Queue.upd (Ulogcat.Queue.upd m.obj _ _) _ _ _ = _
      rw [upd_other _ _ fun e => h2 (h.inj _ _ hx (show Has ls (.buf i) from hil) e), upd_other _ _ fun e => h1 (h.inj _ _ hx (show Has ls (.log i) from hil) e)]
    · rw [hkeys]
      intro hm
      obtain ⟨f, hf, hfe⟩ := List.mem_map.1 hm
      exact h3 f hf (h.inj _ _ hx (show Has ls (.rdr f) from ⟨i, l, hi, hf⟩) hfe.symm)
  have hnr : ∀ x, x = .log i ∨ x = .buf i → loc x ∉ rdrs loc l := by
    intro x hx hm
    obtain ⟨f, hf, hfe⟩ := List.mem_map.1 hm
    obtain ⟨n1, n2⟩ := hrd f hf
    rcases hx with rfl | rfl
    · exact n1 hfe
    · exact n2 hfe
  refine ⟨m', ?_, ?_⟩
  · unfold Life.putLog Mem.log
    rw [h.log i l hi]
    dsimp only
    rw [bok]
    have hb : (m.set (loc (.log i)) (.log (lobj loc i l'))).buf (loc (.buf i)) = .ok l.buf := by
      unfold Mem.buf Mem.set
      dsimp only
      rw [upd_other _ _ hbl, h.buf i l hi]
    have hob : ({ lobj loc i l with wOff := l'.wOff, head := l'.head, dropped := l'.dropped } : LObj) = lobj loc i l' := by
      unfold lobj
      rw [hs]
    show ((m.set (loc (.log i)) (.log { lobj loc i l with wOff := l'.wOff, head := l'.head, dropped := l'.dropped })).buf (loc (.buf i)) >>= fun _ =>
      putReaders ((m.set (loc (.log i)) (.log { lobj loc i l with wOff := l'.wOff, head := l'.head, dropped := l'.dropped })).set (loc (.buf i)) (.buf l'.buf)) _) = _
    rw [hob, hb, bok]
    exact e
  · constructor
    · intro j k hj
      rw [get] at hj
      split at hj
      · rename_i hji
        subst hji
        injection hj with hj
        subst hj
        rw [e3 _ (by rw [hkeys]; exact hnr _ (.inl rfl))]
        show Ulogcat.Queue.upd (Ulogcat.Queue.upd m.obj _ _) _ _ _ = _
        rw [upd_other _ _ (Ne.symm hbl), upd_same]
      · rename_i hji
        rw [out (.log j) (lt_of_get hj) (by simpa using hji) nofun (fun _ _ => nofun)]
        exact h.log j k hj
    · intro j k hj
      have hj' : ∃ k', ls[j]? = some k' ∧ k'.name = k.name := by
        rw [get] at hj
        split at hj
        · rename_i hji
          injection hj with hj
          subst hji hj
          exact ⟨l, hi, hn.symm⟩
        · exact ⟨k, hj, rfl⟩
      obtain ⟨k', hk', hnk⟩ := hj'
      rw [out (.name j) (lt_of_get hk') nofun nofun (fun _ _ => nofun), h.name j k' hk', hnk]
    · intro j k hj
      rw [get] at hj
      split at hj
      · rename_i hji
        subst hji
        injection hj with hj
        subst hj
        rw [e3 _ (by rw [hkeys]; exact hnr _ (.inr rfl))]
        exact upd_same _ _ _
      · rename_i hji
        rw [out (.buf j) (lt_of_get hj) nofun (by simpa using hji) (fun _ _ => nofun)]
        exact h.buf j k hj
    · intro j k p hj hp
      rw [get] at hj
      split at hj
      · rename_i hji
        subst hji
        injection hj with hj
        subst hj
        exact e4 (loc (.rdr p.1), p.2) (List.mem_map.2 ⟨p, hp, rfl⟩)
      · rename_i hji
        rw [out (.rdr p.1) ⟨j, k, hj, mem_keys hp⟩ nofun nofun ?_]
        · exact h.rdr j k p hj hp
        · intro f hf e
          injection e with e
          subst e
          exact hji (h.own j i k l _ hj hi (mem_keys hp) hf)
    · intro a ha
      have : m.obj a ≠ none := by
        by_cases hr : a ∈ rdrs loc l
        · obtain ⟨f, hf, rfl⟩ := List.mem_map.1 hr
          obtain ⟨p, hp, rfl⟩ := List.mem_map.1 hf
          rw [h.rdr i l p hi hp]
          nofun
        · rw [e3 a (by rw [hkeys]; exact hr)] at ha
          intro hm
          apply ha
          show Ulogcat.Queue.upd (Ulogcat.Queue.upd m.obj _ _) _ _ a = none
          have h1 : a ≠ loc (.log i) := by rintro rfl; rw [h.log i l hi] at hm; cases hm
          have h2 : a ≠ loc (.buf i) := by rintro rfl; rw [h.buf i l hi] at hm; cases hm
          rw [upd_other _ _ h2, upd_other _ _ h1, hm]
      obtain ⟨x, hx, hxe⟩ := h.only a this
      exact ⟨x, (Has.set hi hk x).2 hx, hxe⟩
    · intro x y hx hy
      exact h.inj x y ((Has.set hi hk x).1 hx) ((Has.set hi hk y).1 hy)
    · intro x hx
      exact h.even x ((Has.set hi hk x).1 hx)
    · intro j k hj
      have hj' : ∃ k', ls[j]? = some k' ∧ rdrs loc k' = rdrs loc k := by
        rw [get] at hj
        split at hj
        · rename_i hji
          injection hj with hj
          subst hji hj
          exact ⟨l, hi, by unfold rdrs; rw [hk]⟩
        · exact ⟨k, hj, rfl⟩
      obtain ⟨k', hk', hrk⟩ := hj'
      rw [← hrk]
      refine path_congr (fun x _ => ?_) (fun x _ => ?_) (h.ring j k' hk')
      · show m'.nx x = m.nx x
        rw [e1]
        rfl
      · show m'.pv x = m.pv x
        rw [e2]
        rfl
    · intro j k hj
      rw [get] at hj
      split at hj
      · injection hj with hj
        subst hj
        rw [hk]
        exact h.nodup i l hi
      · exact h.nodup j k hj
    · intro j j' k k' f hj hj' hf hf'
      have back : ∀ (j : Nat) k, (ls.set i l')[j]? = some k → ∃ k', ls[j]? = some k' ∧ keys k' = keys k := by
        intro j k hj
        rw [get] at hj
        split at hj
        · rename_i hji
          injection hj with hj
          exact ⟨l, by rw [hji]; exact hi, by rw [← hj]; exact hk.symm⟩
        · exact ⟨k, hj, rfl⟩
      obtain ⟨a, ha, ka⟩ := back j k hj
      obtain ⟨b, hb, kb⟩ := back j' k' hj'
      exact h.own j j' a b f ha hb (ka ▸ hf) (kb ▸ hf')

end Verif.Kernel.Life
