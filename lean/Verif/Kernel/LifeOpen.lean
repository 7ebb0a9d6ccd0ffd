import Verif.Kernel.LifeMem

/-!
# Readers come and go
-/
namespace Verif.Kernel.Life
open Verif Verif.Kernel
open Verif.Ulogcat.Queue (Heap Ring Path upd_same upd_other path_congr)

variable {m : Mem} {ls : List Log} {loc : Role → Nat}

theorem get_set {α : Type} {ls : List α} {i : Nat} (h : i < ls.length) (l : α) (j : Nat) : (ls.set i l)[j]? = if j = i then some l else ls[j]? := by
  by_cases hj : j = i
  · subst hj; rw [List.getElem?_set_self h, if_pos rfl]
  · rw [List.getElem?_set_ne (by omega), if_neg hj]

theorem get_of_lt {α : Type} {ls : List α} {i : Nat} (h : i < ls.length) : ∃ l, ls[i]? = some l := ⟨ls[i], List.getElem?_eq_getElem h⟩

theorem MRel.live (h : MRel m ls loc) {x : Role} (hx : Has ls x) : m.obj (loc x) ≠ none := by
  cases x with
  | log i => obtain ⟨l, hl⟩ := get_of_lt hx; rw [h.log i l hl]; nofun
  | name i => obtain ⟨l, hl⟩ := get_of_lt hx; rw [h.name i l hl]; nofun
  | buf i => obtain ⟨l, hl⟩ := get_of_lt hx; rw [h.buf i l hl]; nofun
  | rdr f =>
    obtain ⟨i, l, hl, hf⟩ := hx
    obtain ⟨p, hp, rfl⟩ := List.mem_map.1 hf
    rw [h.rdr i l p hl hp]
    nofun

/-- An address more. -/
def put (loc : Role → Nat) (r : Role) (a : Nat) : Role → Nat := fun x => if x = r then a else loc x

theorem put_self (r : Role) (a : Nat) : put loc r a r = a := if_pos rfl
theorem put_other {r x : Role} (a : Nat) (h : x ≠ r) : put loc r a x = loc x := if_neg h

/-- Readers and logs of other devices are other nodes. -/
theorem MRel.apart (h : MRel m ls loc) {i j : Nat} {l k : Log} (hi : ls[i]? = some l) (hj : ls[j]? = some k) (hij : j ≠ i) :
    ∀ y ∈ loc (.log j) :: rdrs loc k, y ∉ loc (.log i) :: rdrs loc l := by
  intro y hy hz
  have e1 : ∃ x, Has ls x ∧ loc x = y ∧ (x = .log j ∨ ∃ f ∈ keys k, x = .rdr f) := by
    rcases List.mem_cons.1 hy with rfl | hy
    · exact ⟨.log j, lt_of_get hj, rfl, .inl rfl⟩
    · obtain ⟨f, hf, rfl⟩ := List.mem_map.1 hy
      exact ⟨.rdr f, ⟨j, k, hj, hf⟩, rfl, .inr ⟨f, hf, rfl⟩⟩
  have e2 : ∃ x, Has ls x ∧ loc x = y ∧ (x = .log i ∨ ∃ f ∈ keys l, x = .rdr f) := by
    rcases List.mem_cons.1 hz with rfl | hz
    · exact ⟨.log i, lt_of_get hi, rfl, .inl rfl⟩
    · obtain ⟨f, hf, rfl⟩ := List.mem_map.1 hz
      exact ⟨.rdr f, ⟨i, l, hi, hf⟩, rfl, .inr ⟨f, hf, rfl⟩⟩
  obtain ⟨x, x1, x2, x3⟩ := e1
  obtain ⟨z, z1, z2, z3⟩ := e2
  have := h.inj x z x1 z1 (x2.trans z2.symm)
  subst this
  rcases x3 with rfl | ⟨f, hf, rfl⟩
  · rcases z3 with e | ⟨g, _, e⟩
    · injection e with e; exact hij e
    · cases e
  · rcases z3 with e | ⟨g, hg, e⟩
    · cases e
    · injection e with e
      subst e
      exact hij (h.own j i k l f hj hi hf hg)

theorem rdrs_put {l : Log} {fid a : Nat} (h : fid ∉ keys l) : rdrs (put loc (.rdr fid) a) l = rdrs loc l := by
  unfold rdrs
  refine List.map_congr_left fun f hf => put_other a ?_
  intro e
  injection e with e
  subst e
  exact h hf

/-- A new reader. -/
theorem MRel.addReader (h : MRel m ls loc) {i : Nat} {l : Log} (hi : ls[i]? = some l) {fid a : Nat}
    (hn : ∀ (j : Nat) k, ls[j]? = some k → fid ∉ keys k) (ha : m.obj a = none) (ha0 : a ≠ 0) (ha2 : a % 2 = 0) (r : Reader) :
    ∃ m', ((initList (m.set a (.reader { log := loc (.log i), rd := r })) a) >>= fun m => listAdd m (loc (.log i)) a) = .ok m' ∧
      MRel m' (ls.set i { l with readers := l.readers ++ [(fid, r)] }) (put loc (.rdr fid) a) := by
  have hil := lt_of_get hi
  have hnot : ¬ Has ls (.rdr fid) := fun ⟨j, k, hj, hk⟩ => hn j k hj hk
  have hne : ∀ x, Has ls x → x ≠ .rdr fid := fun x hx e => hnot (e ▸ hx)
  have hpo : ∀ x, Has ls x → put loc (.rdr fid) a x = loc x := fun x hx => put_other a (hne x hx)
  have hla : ∀ x, Has ls x → loc x ≠ a := fun x hx e => h.live hx (e ▸ ha)
  let m1 := m.set a (.reader { log := loc (.log i), rd := r })
  have o1 : ∀ x, Has ls x → m1.obj (loc x) = m.obj (loc x) := fun x hx => upd_other _ _ (hla x hx)
  have n1 : m1.node a = true := by
    unfold Mem.node
    rw [show m1.obj a = some (.reader { log := loc (.log i), rd := r }) from upd_same _ _ _]
  let m2 : Mem := { m1 with nx := Ulogcat.Queue.upd m1.nx a a, pv := Ulogcat.Queue.upd m1.pv a a }
  have hnodes : ∀ y ∈ loc (.log i) :: rdrs loc l, ∃ x, Has ls x ∧ loc x = y := by
    intro y hy
    rcases List.mem_cons.1 hy with rfl | hy
    · exact ⟨.log i, hil, rfl⟩
    · obtain ⟨f, hf, rfl⟩ := List.mem_map.1 hy
      exact ⟨.rdr f, ⟨i, l, hi, hf⟩, rfl⟩
  have hany : ∀ y ∈ loc (.log i) :: rdrs loc l, y ≠ a := by
    intro y hy
    obtain ⟨x, hx, rfl⟩ := hnodes y hy
    exact hla x hx
  have R2 : Ring m2.heap (loc (.log i)) (rdrs loc l) := by
    refine path_congr (h := m.heap) (fun y hy => ?_) (fun y hy => ?_) (h.ring i l hi)
    · exact upd_other m.nx a (hany y (by grind))
    · exact upd_other m.pv a (hany y (by grind))
  have ndr := h.nodup_ring hi
  obtain ⟨m', e, R', hobj, hk⟩ := listAdd_spec R2 ndr (fun hm => hany a hm rfl) (by
    intro y hy
    show m2.node y = true
    have : m1.node y = true := by
      unfold Mem.node
      have hy' : m.node y = true := by
        rcases List.mem_cons.1 hy with rfl | hy
        · exact h.node_log hi
        · exact h.node_rdr hi hy
      rw [show m1.obj y = m.obj y from upd_other _ _ (hany y hy)]
      exact hy'
    exact this) (by exact n1)
  refine ⟨m', by rw [initList_spec n1, bok]; exact e, ?_⟩
  have ho : ∀ x, Has ls x → m'.obj (put loc (.rdr fid) a x) = m.obj (loc x) := by
    intro x hx
    rw [hpo x hx, hobj]
    exact o1 x hx
  generalize hl' : ({ l with readers := l.readers ++ [(fid, r)] } : Log) = l'
  have kl' : keys l' = keys l ++ [fid] := by
    rw [← hl']
    unfold keys
    rw [List.map_append]
    rfl
  have has : ∀ x, Has (ls.set i l') x ↔ Has ls x ∨ x = .rdr fid := by
    intro x
    cases x with
    | rdr f =>
      constructor
      · rintro ⟨j, k, h1, h2⟩
        rw [get_set hil] at h1
        split at h1
        · injection h1 with h1
          subst h1
          rw [kl'] at h2
          rcases List.mem_append.1 h2 with h2 | h2
          · exact .inl ⟨i, l, hi, h2⟩
          · rw [List.mem_singleton] at h2; rw [h2]; exact .inr rfl
        · exact .inl ⟨j, k, h1, h2⟩
      · rintro (⟨j, k, h1, h2⟩ | e)
        · by_cases hj : j = i
          · subst hj
            rw [hi] at h1
            injection h1 with h1
            subst h1
            exact ⟨j, l', by rw [get_set hil, if_pos rfl], by rw [kl']; exact List.mem_append_left _ h2⟩
          · exact ⟨j, k, by rw [get_set hil, if_neg hj]; exact h1, h2⟩
        · injection e with e
          subst e
          exact ⟨i, l', by rw [get_set hil, if_pos rfl], by rw [kl']; simp⟩
    | _ => simp [Has]
  have back : ∀ (j : Nat) k, (ls.set i l')[j]? = some k → ∃ k0, ls[j]? = some k0 ∧ k.name = k0.name ∧ k.buf = k0.buf ∧ lobj loc j k = lobj loc j k0 ∧
      ((j = i ∧ k = l' ∧ k0 = l) ∨ (j ≠ i ∧ k = k0)) := by
    intro j k hj
    rw [get_set hil] at hj
    split at hj
    · rename_i hji
      injection hj with hj
      refine ⟨l, by rw [hji]; exact hi, ?_, ?_, ?_, .inl ⟨hji, hj.symm, rfl⟩⟩
      all_goals rw [← hj, ← hl']; try rfl
    · rename_i hji
      exact ⟨k, hj, rfl, rfl, rfl, .inr ⟨hji, rfl⟩⟩
  have hlobj : ∀ (j : Nat) (k : Log), j < ls.length → lobj (put loc (.rdr fid) a) j k = lobj loc j k := by
    intro j k hj
    unfold lobj
    rw [put_other (r := .rdr fid) (x := .name j) a nofun, put_other (r := .rdr fid) (x := .buf j) a nofun]
  constructor
  · intro j k hj
    obtain ⟨k0, hk0, _, _, e3, _⟩ := back j k hj
    rw [ho (.log j) (lt_of_get hk0), h.log j k0 hk0, hlobj j k (lt_of_get hk0), e3]
  · intro j k hj
    obtain ⟨k0, hk0, e1, _, _, _⟩ := back j k hj
    rw [ho (.name j) (lt_of_get hk0), h.name j k0 hk0, e1]
  · intro j k hj
    obtain ⟨k0, hk0, _, e2, _, _⟩ := back j k hj
    rw [ho (.buf j) (lt_of_get hk0), h.buf j k0 hk0, e2]
  · intro j k p hj hp
    obtain ⟨k0, hk0, _, _, _, hc⟩ := back j k hj
    rw [put_other (r := .rdr fid) (x := .log j) a nofun]
    have old : ∀ p ∈ k0.readers, m'.obj (put loc (.rdr fid) a (.rdr p.1)) = some (.reader { log := loc (.log j), rd := p.2 }) := by
      intro p hp
      rw [ho (.rdr p.1) ⟨j, k0, hk0, mem_keys hp⟩]
      exact h.rdr j k0 p hk0 hp
    rcases hc with ⟨rfl, rfl, rfl⟩ | ⟨_, rfl⟩
    · rw [← hl'] at hp
      rcases List.mem_append.1 hp with hp | hp
      · exact old p hp
      · rw [List.mem_singleton] at hp
        subst hp
        rw [put_self, hobj]
        exact upd_same _ _ _
    · exact old p hp
  · intro b hb
    by_cases hba : b = a
    · exact ⟨.rdr fid, (has _).2 (.inr rfl), by rw [put_self, hba]⟩
    · rw [hobj] at hb
      have : m.obj b ≠ none := by rw [← show m1.obj b = m.obj b from upd_other _ _ hba]; exact hb
      obtain ⟨x, hx, rfl⟩ := h.only b this
      exact ⟨x, (has x).2 (.inl hx), hpo x hx⟩
  · intro x y hx hy hxy
    rcases (has x).1 hx with hx | rfl <;> rcases (has y).1 hy with hy | rfl
    · rw [hpo x hx, hpo y hy] at hxy
      exact h.inj x y hx hy hxy
    · rw [hpo x hx, put_self] at hxy
      exact absurd hxy (hla x hx)
    · rw [hpo y hy, put_self] at hxy
      exact absurd hxy.symm (hla y hy)
    · rfl
  · intro x hx
    rcases (has x).1 hx with hx | rfl
    · rw [hpo x hx]; exact h.even x hx
    · rw [put_self]; exact ⟨ha2, ha0⟩
  · intro j k hj
    obtain ⟨k0, hk0, _, _, _, hc⟩ := back j k hj
    rw [put_other (r := .rdr fid) (x := .log j) a nofun]
    rcases hc with ⟨rfl, rfl, rfl⟩ | ⟨hji, rfl⟩
    · have : rdrs (put loc (.rdr fid) a) k = rdrs loc k0 ++ [a] := by
        unfold rdrs
        rw [kl', List.map_append]
        show rdrs (put loc (.rdr fid) a) k0 ++ _ = _
        rw [rdrs_put (hn j k0 hk0)]
        show _ ++ [put loc (.rdr fid) a (.rdr fid)] = _
        rw [put_self]
        rfl
      rw [this]
      exact R'
    · rw [rdrs_put (hn j k hk0)]
      have hdis := h.apart hi hk0 hji
      have hya : ∀ y ∈ loc (.log j) :: rdrs loc k, y ≠ a := by
        intro y hy e
        subst e
        have : m.node y = true := by
          rcases List.mem_cons.1 hy with rfl | hy
          · exact h.node_log hk0
          · exact h.node_rdr hk0 hy
        unfold Mem.node at this
        rw [ha] at this
        cases this
      refine path_congr (fun y hy => ?_) (fun y hy => ?_) (h.ring j k hk0)
      · have hy : y ∈ loc (.log j) :: rdrs loc k := by grind
        have := (hk y (by have := hdis y hy; have := hya y hy; grind)).1
        exact this.trans (upd_other _ _ (hya y hy))
      · have hy : y ∈ loc (.log j) :: rdrs loc k := by grind
        have := (hk y (by have := hdis y hy; have := hya y hy; grind)).2
        exact this.trans (upd_other _ _ (hya y hy))
  · intro j k hj
    obtain ⟨k0, hk0, _, _, _, hc⟩ := back j k hj
    rcases hc with ⟨rfl, rfl, rfl⟩ | ⟨hji, rfl⟩
    · rw [kl']
      refine List.nodup_append.2 ⟨h.nodup j k0 hk0, by simp, ?_⟩
      intro x hx y hy e
      rw [List.mem_singleton] at hy
      subst hy e
      exact hn j k0 hk0 hx
    · exact h.nodup j k hk0
  · intro j j' k k' f hj hj' hf hf'
    obtain ⟨k0, hk0, _, _, _, hc⟩ := back j k hj
    obtain ⟨k0', hk0', _, _, _, hc'⟩ := back j' k' hj'
    have mem : ∀ {j : Nat} {k k0 : Log}, ls[j]? = some k0 → ((j = i ∧ k = l' ∧ k0 = l) ∨ (j ≠ i ∧ k = k0)) → f ∈ keys k → f ∈ keys k0 ∨ (f = fid ∧ j = i) := by
      rintro j k k0 _ (⟨rfl, rfl, rfl⟩ | ⟨_, rfl⟩) hf
      · rw [kl'] at hf
        rcases List.mem_append.1 hf with hf | hf
        · exact .inl hf
        · exact .inr ⟨List.mem_singleton.1 hf, rfl⟩
      · exact .inl hf
    rcases mem hk0 hc hf with g | ⟨g, gi⟩ <;> rcases mem hk0' hc' hf' with g' | ⟨g', gi'⟩
    · exact h.own j j' k0 k0' f hk0 hk0' g g'
    · subst g'; exact absurd g (hn j k0 hk0)
    · subst g; exact absurd g' (hn j' k0' hk0')
    · omega

/-- A reader goes. -/
theorem MRel.delReader (h : MRel m ls loc) {i : Nat} {l : Log} (hi : ls[i]? = some l) {fid : Nat} (hf : fid ∈ keys l) :
    ∃ m', (listDel m (loc (.rdr fid)) >>= fun m => m.kfree (loc (.rdr fid))) = .ok m' ∧
      MRel m' (ls.set i { l with readers := l.readers.filter fun p => p.1 ≠ fid }) loc := by
  have hil := lt_of_get hi
  have hrf : Has ls (.rdr fid) := ⟨i, l, hi, hf⟩
  obtain ⟨u, v, huv⟩ := List.append_of_mem hf
  have nd := h.nodup i l hi
  rw [huv] at nd
  obtain ⟨nd1, nd2, nd3⟩ := List.nodup_append.1 nd
  have hu : fid ∉ u := fun hx => nd3 fid hx fid (by simp) rfl
  have hv : fid ∉ v := (List.nodup_cons.1 nd2).1
  have hrd : rdrs loc l = u.map (fun f => loc (.rdr f)) ++ loc (.rdr fid) :: v.map fun f => loc (.rdr f) := by
    unfold rdrs
    rw [huv, List.map_append, List.map_cons]
  have ndr := h.nodup_ring hi
  have R := h.ring i l hi
  have hnode : ∀ y ∈ loc (.log i) :: rdrs loc l, m.node y = true := by
    intro y hy
    rcases List.mem_cons.1 hy with rfl | hy
    · exact h.node_log hi
    · exact h.node_rdr hi hy
  have hdis := fun (j : Nat) k (hj : ls[j]? = some k) hji => h.apart hi hj hji (k := k)
  rw [hrd] at ndr R hnode hdis
  obtain ⟨m1, e, R', hobj, hk⟩ := listDel_spec R ndr hnode
  obtain ⟨p, hp, hpf⟩ := List.mem_map.1 hf
  let m' : Mem := { m1 with obj := Ulogcat.Queue.upd m1.obj (loc (.rdr fid)) none }
  have hfree : m1.kfree (loc (.rdr fid)) = .ok m' := by
    unfold Mem.kfree
    rw [if_neg (h.even _ hrf).2, hobj]
    have := h.rdr i l p hi hp
    rw [hpf] at this
    rw [this]
    show Except.ok ({ m1 with obj := Ulogcat.Queue.upd m.obj (loc (.rdr fid)) none } : Mem) = .ok m'
    rw [← hobj]
  refine ⟨m', by rw [e, bok]; exact hfree, ?_⟩
  have ho : ∀ x, Has ls x → x ≠ .rdr fid → m'.obj (loc x) = m.obj (loc x) := by
    intro x hx hne
    rw [← hobj]
    exact upd_other _ _ fun e => hne (h.inj _ _ hx hrf e)
  generalize hl' : ({ l with readers := l.readers.filter fun p => p.1 ≠ fid } : Log) = l'
  have hrl : l'.readers = l.readers.filter fun p => p.1 ≠ fid := by rw [← hl']
  have kl' : keys l' = u ++ v := by
    have : keys l' = (keys l).filter fun f => f ≠ fid := by
      unfold keys
      rw [hrl, List.filter_map]
      rfl
    rw [this, huv, List.filter_append, List.filter_cons, if_neg (by simp)]
    rw [List.filter_eq_self.2, List.filter_eq_self.2]
    · intro x hx; simp; rintro rfl; exact hv hx
    · intro x hx; simp; rintro rfl; exact hu hx
  have sub : ∀ f, f ∈ keys l' → f ∈ keys l ∧ f ≠ fid := by
    intro f hf
    rw [kl'] at hf
    rw [huv]
    grind
  have back : ∀ (j : Nat) k, (ls.set i l')[j]? = some k → ∃ k0, ls[j]? = some k0 ∧ k.name = k0.name ∧ k.buf = k0.buf ∧ lobj loc j k = lobj loc j k0 ∧
      ((j = i ∧ k = l' ∧ k0 = l) ∨ (j ≠ i ∧ k = k0)) := by
    intro j k hj
    rw [get_set hil] at hj
    split at hj
    · rename_i hji
      injection hj with hj
      refine ⟨l, by rw [hji]; exact hi, ?_, ?_, ?_, .inl ⟨hji, hj.symm, rfl⟩⟩
      all_goals rw [← hj, ← hl']; try rfl
    · rename_i hji
      exact ⟨k, hj, rfl, rfl, rfl, .inr ⟨hji, rfl⟩⟩
  have has : ∀ x, Has (ls.set i l') x ↔ Has ls x ∧ x ≠ .rdr fid := by
    intro x
    cases x with
    | rdr f =>
      constructor
      · rintro ⟨j, k, h1, h2⟩
        obtain ⟨k0, hk0, _, _, _, ⟨rfl, rfl, rfl⟩ | ⟨hji, rfl⟩⟩ := back j k h1
        · exact ⟨⟨j, k0, hk0, (sub f h2).1⟩, fun e => by injection e with e; exact (sub f h2).2 e⟩
        · refine ⟨⟨j, k, hk0, h2⟩, fun e => ?_⟩
          injection e with e
          subst e
          exact hji (h.own j i k l f hk0 hi h2 hf)
      · rintro ⟨⟨j, k, h1, h2⟩, hne⟩
        by_cases hj : j = i
        · subst hj
          rw [hi] at h1
          injection h1 with h1
          subst h1
          refine ⟨j, l', by rw [get_set hil, if_pos rfl], ?_⟩
          rw [kl']
          rw [huv] at h2
          have : f ≠ fid := fun e => hne (by rw [e])
          grind
        · exact ⟨j, k, by rw [get_set hil, if_neg hj]; exact h1, h2⟩
    | _ => simp [Has]
  constructor
  · intro j k hj
    obtain ⟨k0, hk0, _, _, e3, _⟩ := back j k hj
    rw [ho (.log j) (lt_of_get hk0) nofun, h.log j k0 hk0, e3]
  · intro j k hj
    obtain ⟨k0, hk0, e1, _, _, _⟩ := back j k hj
    rw [ho (.name j) (lt_of_get hk0) nofun, h.name j k0 hk0, e1]
  · intro j k hj
    obtain ⟨k0, hk0, _, e2, _, _⟩ := back j k hj
    rw [ho (.buf j) (lt_of_get hk0) nofun, h.buf j k0 hk0, e2]
  · intro j k q hj hq
    have hne : Role.rdr q.1 ≠ .rdr fid := ((has (.rdr q.1)).1 ⟨j, k, hj, mem_keys hq⟩).2
    obtain ⟨k0, hk0, _, _, _, hc⟩ := back j k hj
    have hq0 : q ∈ k0.readers := by
      rcases hc with ⟨rfl, rfl, rfl⟩ | ⟨_, rfl⟩
      · rw [hrl] at hq; exact (List.mem_filter.1 hq).1
      · exact hq
    rw [ho (.rdr q.1) ⟨j, k0, hk0, mem_keys hq0⟩ hne]
    exact h.rdr j k0 q hk0 hq0
  · intro b hb
    by_cases hba : b = loc (.rdr fid)
    · subst hba
      exact absurd (upd_same _ _ _) hb
    · have : m.obj b ≠ none := by rw [← hobj, ← show m'.obj b = m1.obj b from upd_other _ _ hba]; exact hb
      obtain ⟨x, hx, rfl⟩ := h.only b this
      exact ⟨x, (has x).2 ⟨hx, fun e => hba (by rw [e])⟩, rfl⟩
  · intro x y hx hy
    exact h.inj x y ((has x).1 hx).1 ((has y).1 hy).1
  · intro x hx
    exact h.even x ((has x).1 hx).1
  · intro j k hj
    obtain ⟨k0, hk0, _, _, _, hc⟩ := back j k hj
    rcases hc with ⟨rfl, rfl, rfl⟩ | ⟨hji, rfl⟩
    · have : rdrs loc k = u.map (fun f => loc (.rdr f)) ++ v.map fun f => loc (.rdr f) := by
        unfold rdrs
        rw [kl', List.map_append]
      rw [this]
      exact path_congr (h := m1.heap) (fun _ _ => rfl) (fun _ _ => rfl) R'
    · have hd := hdis j k hk0 hji
      refine path_congr (h := m.heap) (fun y hy => (hk y (hd y (by grind))).1) (fun y hy => (hk y (hd y (by grind))).2) (h.ring j k hk0)
  · intro j k hj
    obtain ⟨k0, hk0, _, _, _, hc⟩ := back j k hj
    rcases hc with ⟨rfl, rfl, rfl⟩ | ⟨hji, rfl⟩
    · rw [kl']
      exact List.nodup_append.2 ⟨nd1, (List.nodup_cons.1 nd2).2, fun a ha b hb => nd3 a ha b (by simp [hb])⟩
    · exact h.nodup j k hk0
  · intro j j' k k' f hj hj' hf1 hf'
    obtain ⟨k0, hk0, _, _, _, hc⟩ := back j k hj
    obtain ⟨k0', hk0', _, _, _, hc'⟩ := back j' k' hj'
    refine h.own j j' k0 k0' f hk0 hk0' ?_ ?_
    · rcases hc with ⟨rfl, rfl, rfl⟩ | ⟨_, rfl⟩
      · exact (sub f hf1).1
      · exact hf1
    · rcases hc' with ⟨rfl, rfl, rfl⟩ | ⟨_, rfl⟩
      · exact (sub f hf').1
      · exact hf'

end Verif.Kernel.Life
