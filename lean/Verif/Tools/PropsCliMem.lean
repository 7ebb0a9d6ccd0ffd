import Verif.Tools.CliMem

/-!
# C134: the memory of the control client and server

`heap` is the specification: a block handed out is not in use, a block used or given back
is in use. What a whole life leaves is what is in use at its end.
-/
namespace Verif.Tools.CliMem
open Verif Verif.Libulog Verif.Tools

/-- The blocks in use after some calls; `none` if a block not in use is used or given back. -/
def heap : List Nat → List HOp → Option (List Nat)
  | l, [] => some l
  | l, .alloc b :: h => if b ∈ l then none else heap (b :: l) h
  | l, .free b :: h => if b ∈ l then heap (l.erase b) h else none
  | l, .use b :: h => if b ∈ l then heap l h else none

/-- Names received. -/
def MEv.named : MEv → Bool
  | .ev (.reply (.info _ _)) => true
  | .lostInfo _ _ => true
  | _ => false

theorem heap_append (a b : List HOp) : ∀ l, heap l (a ++ b) = (heap l a).bind (heap · b) := by
  induction a with
  | nil => intro l; rfl
  | cons o a ih =>
    intro l
    cases o <;> simp only [List.cons_append, heap] <;> split <;> simp [ih]

/-- The blocks in use `l` are the client, its context, the message, the array and the names
`N`, all different and handed out before. -/
structure Holds (c : MCli) (l N : List Nat) : Prop where
  perm : l.Perm (c.self :: c.ctx :: (c.msg.toList.map (·.1) ++ (c.arr.toList ++ N)))
  nodup : l.Nodup
  low : ∀ b ∈ l, b < c.next
  names : ∀ t ∈ c.tags, ∃ b ∈ N, t.blk = some b
  arr : c.arr.isSome = !c.tags.isEmpty

theorem Holds.mem {c : MCli} {l N : List Nat} (h : Holds c l N) (b : Nat) :
    b ∈ l ↔ b = c.self ∨ b = c.ctx ∨ b ∈ c.msg.toList.map (·.1) ∨ b ∈ c.arr.toList ∨ b ∈ N := by
  rw [h.perm.mem_iff]; simp

theorem heap_uses (l : List Nat) (u : List Nat) (h : List HOp) (hu : ∀ b ∈ u, b ∈ l) : heap l (u.map .use ++ h) = heap l h := by
  induction u with
  | nil => rfl
  | cons b u ih =>
    simp only [List.map_cons, List.cons_append, heap]
    rw [if_pos (hu b (by simp)), ih (fun x hx => hu x (by simp [hx]))]

theorem Holds.stack {c : MCli} {l N : List Nat} (h : Holds c l N) (k : List Cont) : Holds { c with stack := k } l N :=
  ⟨h.perm, h.nodup, h.low, h.names, h.arr⟩

theorem Holds.state {c : MCli} {l N : List Nat} (h : Holds c l N) (s : CState) : Holds { c with st := s } l N :=
  ⟨h.perm, h.nodup, h.low, h.names, h.arr⟩

theorem Holds.fresh {c : MCli} {l N : List Nat} (h : Holds c l N) : c.next ∉ l := fun hm => Nat.lt_irrefl _ (h.low _ hm)

/-- The pending message given back. -/
theorem Holds.drop {c : MCli} {l N : List Nat} (h : Holds c l N) :
    ∃ l', heap l (dropMsg c.msg) = some l' ∧ Holds { c with msg := none } l' N := by
  cases hm : c.msg with
  | none =>
    refine ⟨l, rfl, ?_, h.nodup, h.low, h.names, h.arr⟩
    have := h.perm; rw [hm] at this; exact this
  | some m =>
    have hb : m.1 ∈ l := by rw [h.mem]; simp [hm]
    refine ⟨l.erase m.1, ?_, ?_, h.nodup.erase _, fun b hb => h.low b (List.mem_of_mem_erase hb), h.names, h.arr⟩
    · simp [dropMsg, heap, hb]
    · have hp := h.perm
      rw [hm] at hp
      have hn := hp.nodup_iff.1 h.nodup
      have := hp.erase m.1
      refine this.trans ?_
      simp only [Option.toList_some, List.map_cons, List.map_nil, List.cons_append, List.nil_append] at hn ⊢
      simp only [List.nodup_cons, List.mem_cons, not_or] at hn
      rw [List.erase_cons_tail (by simpa using hn.1.2.1), List.erase_cons_tail (by simpa using hn.2.1.1), List.erase_cons_head]
      simp

/-- The array given back. -/
theorem Holds.dropArr {c : MCli} {l N : List Nat} (h : Holds c l N) :
    ∃ l', heap l (dropArr c.arr) = some l' ∧ l'.Perm (c.self :: c.ctx :: (c.msg.toList.map (·.1) ++ N)) ∧ l'.Nodup ∧ (∀ b ∈ l', b < c.next) := by
  cases hm : c.arr with
  | none =>
    refine ⟨l, rfl, ?_, h.nodup, h.low⟩
    have := h.perm; rw [hm] at this; simpa using this
  | some a =>
    have hb : a ∈ l := by rw [h.mem]; simp [hm]
    refine ⟨l.erase a, by simp [CliMem.dropArr, heap, hb], ?_, h.nodup.erase _, fun b hb => h.low b (List.mem_of_mem_erase hb)⟩
    have hp := h.perm
    rw [hm] at hp
    have : (c.self :: c.ctx :: (c.msg.toList.map (·.1) ++ ((some a).toList ++ N))).Perm (a :: (c.self :: c.ctx :: (c.msg.toList.map (·.1) ++ N))) := by
      simp only [Option.toList_some, List.cons_append, List.nil_append]
      have h1 : (c.msg.toList.map (·.1) ++ a :: N).Perm (a :: (c.msg.toList.map (·.1) ++ N)) := List.perm_middle
      exact ((h1.cons _).cons _).trans (((List.Perm.swap _ _ _).cons _).trans (List.Perm.swap _ _ _))
    have := ((hp.trans this).erase a)
    rwa [List.erase_cons_head] at this

theorem Holds.self_mem {c : MCli} {l N : List Nat} (h : Holds c l N) : c.self ∈ l := by rw [h.mem]; simp

theorem Holds.ctx_mem {c : MCli} {l N : List Nat} (h : Holds c l N) : c.ctx ∈ l := by rw [h.mem]; simp

theorem Holds.msg_mem {c : MCli} {l N : List Nat} (h : Holds c l N) {b : Nat} {r : Req} (hm : c.msg = some (b, r)) : b ∈ l := by
  rw [h.mem]; simp [hm]

/-- What holds after a step: it is defined, uses only what is in use, and keeps one more
name if it received one. -/
def Good (qs : List MTag → List MTag) (c : MCli) (l N : List Nat) (e : MEv) : Prop :=
  ∃ c' o ops l' N', mstep qs c e = some (c', o, ops) ∧ heap l ops = some l' ∧ Holds c' l' N' ∧
    N'.length = N.length + if e.named then 1 else 0

theorem stop_holds {c : MCli} {l N : List Nat} (h : Holds c l N) : ∃ l', heap l (mstop c).2.2 = some l' ∧ Holds (mstop c).1 l' N := by
  unfold mstop
  split
  · exact ⟨l, by simp [heap, h.self_mem], h⟩
  · split
    · exact ⟨l, by simp [heap, h.self_mem], (h.state .idle).stack _⟩
    · exact ⟨l, by simp [heap, h.self_mem, h.ctx_mem], h.state .idle⟩

theorem infos_holds {c : MCli} {l N : List Nat} {l0 : List Nat} {ops : List HOp} (h : Holds c l N) (ho : heap l0 ops = some l) (i : Nat) :
    ∃ c' o ops' l', minfos c i ops = some (c', o, ops') ∧ heap l0 ops' = some l' ∧ Holds c' l' N := by
  unfold minfos
  cases ht : c.tags[i]? with
  | none => exact ⟨_, _, _, _, rfl, ho, h⟩
  | some t =>
    obtain ⟨b, hb, he⟩ := h.names t (List.mem_of_getElem? ht)
    simp only [he]
    refine ⟨_, _, _, l, rfl, ?_, h.stack _⟩
    rw [List.append_assoc, heap_append, ho]
    show heap l _ = _
    rw [heap_uses _ _ _ (by intro x hx; rw [h.mem]; simp [hx])]
    have : b ∈ l := by rw [h.mem]; simp [hb]
    simp [heap, this]

theorem request_holds {c : MCli} {l N : List Nat} (h : Holds c l N) (r : Req) (a b d : Bool) :
    ∃ l', heap l (mrequest c r a b d).2.2 = some l' ∧ Holds (mrequest c r a b d).1 l' N := by
  unfold mrequest
  split
  · exact ⟨l, by simp [heap, h.self_mem], h⟩
  split
  · exact ⟨l, by simp [heap, h.self_mem], h⟩
  split
  · exact ⟨l, by simp [heap, h.self_mem], h⟩
  rename_i hm _
  have hm : c.msg = none := by simpa using hm
  -- the client without the array, and with the block of the message
  have key : ∃ l' c1, (if r = .list then { c with tags := [], arr := none } else c) = c1 ∧
      heap l ([.use c.self, .alloc c.next] ++ (if r = .list then CliMem.dropArr c.arr else [])) = some l' ∧
      l'.Perm (c.next :: c1.self :: c1.ctx :: (c1.arr.toList ++ N)) ∧ l'.Nodup ∧ (∀ x ∈ l', x < c.next + 1) ∧
      (∀ t ∈ c1.tags, ∃ b ∈ N, t.blk = some b) ∧ c1.arr.isSome = (!c1.tags.isEmpty) ∧ c1.next = c.next ∧ c1.msg = none ∧ c1.ctx = c.ctx := by
    by_cases hr : r = .list
    · simp only [hr, if_true]
      cases ha : c.arr with
      | none =>
        refine ⟨c.next :: l, _, rfl, ?_, ?_, ?_, ?_, by simp, by simp, rfl, hm, rfl⟩
        · simp [heap, CliMem.dropArr, h.self_mem, h.fresh]
        · have := h.perm; simp only [hm, ha] at this; simpa using this
        · exact List.nodup_cons.2 ⟨h.fresh, h.nodup⟩
        · intro x hx; rcases List.mem_cons.1 hx with rfl | hx
          · omega
          · have := h.low x hx; omega
      | some a =>
        have hal : a ∈ l := by rw [h.mem]; simp [ha]
        obtain ⟨l', h1, h2, h3, h4⟩ := h.dropArr
        rw [ha] at h1
        have hl' : l' = l.erase a := by simpa [CliMem.dropArr, heap, hal] using h1.symm
        have hne : a ≠ c.next := fun e => h.fresh (e ▸ hal)
        refine ⟨c.next :: l.erase a, _, rfl, ?_, ?_, ?_, ?_, by simp, by simp, rfl, hm, rfl⟩
        · simp [heap, CliMem.dropArr, h.self_mem, h.fresh, hal, List.erase_cons_tail, Ne.symm hne]
        · rw [← hl']; simp only [hm] at h2; simpa using h2
        · rw [← hl']; exact List.nodup_cons.2 ⟨fun hx => Nat.lt_irrefl _ (h4 _ hx), h3⟩
        · rw [← hl']; intro x hx; rcases List.mem_cons.1 hx with rfl | hx
          · omega
          · have := h4 x hx; omega
    · simp only [hr, if_false]
      refine ⟨c.next :: l, _, rfl, ?_, ?_, ?_, ?_, h.names, h.arr, rfl, hm, rfl⟩
      · simp [heap, h.self_mem, h.fresh]
      · have := h.perm; simp only [hm] at this; simpa using this
      · exact List.nodup_cons.2 ⟨h.fresh, h.nodup⟩
      · intro x hx; rcases List.mem_cons.1 hx with rfl | hx
        · omega
        · have := h.low x hx; omega
  obtain ⟨l', c1, hc1, h1, h2, h3, h4, h5, h6, h7, h8, h9⟩ := key
  simp only [hc1]
  have hb : c.next ∈ l' := by rw [h2.mem_iff]; simp
  have hx : c1.ctx ∈ l' := by rw [h2.mem_iff]; simp
  have hkeep : Holds { c1 with next := c.next + 1, msg := some (c.next, r) } l' N := by
    refine ⟨h2.trans ?_, h3, h4, h5, h6⟩
    simp only [Option.toList_some, List.map_cons, List.map_nil, List.cons_append, List.nil_append]
    exact (List.Perm.swap _ _ _).trans ((List.Perm.swap _ _ _).cons _)
  have hdrop : Holds { c1 with next := c.next + 1 } (l'.erase c.next) N := by
    refine ⟨?_, h3.erase _, fun x hx => h4 x (List.mem_of_mem_erase hx), h5, h6⟩
    have := h2.erase c.next
    rw [List.erase_cons_head] at this
    simpa [h8] using this
  split
  · refine ⟨_, ?_, hdrop⟩
    simp only [heap_append] at h1 ⊢
    rw [h1]
    simp [heap, hb]
  · split
    · split
      · refine ⟨_, ?_, hkeep⟩
        rw [heap_append, h1]
        simp [heap, hb, hx]
      · refine ⟨_, ?_, hdrop⟩
        rw [heap_append, h1]
        simp [heap, hb, hx]
    · exact ⟨_, h1, hkeep⟩

theorem step_holds {qs : List MTag → List MTag} (hq : ∀ l, (qs l).Perm l) {c : MCli} {l N : List Nat} (h : Holds c l N) {e : MEv} (he : e ≠ .badInfo) :
    Good qs c l N e := by
  cases e with
  | badInfo => exact absurd rfl he
  | lostInfo n v =>
    refine ⟨_, _, _, c.next :: l, c.next :: N, rfl, ?_, ⟨?_, ?_, ?_, ?_, h.arr⟩, by simp [MEv.named]⟩
    · simp [heap, h.fresh, h.self_mem]
    · refine (h.perm.cons _).trans ?_
      have h1 : (c.msg.toList.map (·.1) ++ (c.arr.toList ++ c.next :: N)).Perm (c.next :: (c.msg.toList.map (·.1) ++ (c.arr.toList ++ N))) := by
        rw [← List.append_assoc, ← List.append_assoc]; exact List.perm_middle
      exact (((List.Perm.swap _ _ _).trans ((List.Perm.swap _ _ _).cons _))).trans ((h1.symm.cons _).cons _)
    · exact List.nodup_cons.2 ⟨h.fresh, h.nodup⟩
    · intro x hx
      show x < c.next + 1
      rcases List.mem_cons.1 hx with rfl | hx
      · omega
      · have := h.low x hx; omega
    · intro t ht
      obtain ⟨b, hb, h2⟩ := h.names t ht
      exact ⟨b, by simp [hb], h2⟩
  | ev e =>
    cases e with
    | start ok =>
      unfold Good; simp only [mstep]
      split
      · exact ⟨_, _, _, l, N, rfl, by simp [heap, h.self_mem], h, rfl⟩
      · exact ⟨_, _, _, l, N, rfl, by simp [heap, h.self_mem, h.ctx_mem], h.state _, rfl⟩
    | stop =>
      obtain ⟨l', h1, h2⟩ := stop_holds h
      exact ⟨_, _, _, l', N, rfl, h1, h2, rfl⟩
    | disconnected =>
      obtain ⟨l', h1, h2⟩ := stop_holds h
      exact ⟨_, _, _, l', N, rfl, h1, h2, rfl⟩
    | request r a b d =>
      obtain ⟨l', h1, h2⟩ := request_holds h r a b d
      exact ⟨_, _, _, l', N, rfl, h1, h2, rfl⟩
    | connected ok =>
      unfold Good; simp only [mstep]
      split
      · cases hm : c.msg with
        | none =>
          refine ⟨_, _, _, l, N, rfl, by simp [heap, h.self_mem], ?_, rfl⟩
          have := h.state .connected
          rw [← hm]; exact this
        | some m =>
          obtain ⟨b, r⟩ := m
          have hb := h.msg_mem hm
          cases ok with
          | true =>
            refine ⟨_, _, _, l, N, rfl, by simp [heap, h.self_mem, h.ctx_mem, hb], ?_, rfl⟩
            have := h.state .connected
            rw [← hm]; exact this
          | false =>
            obtain ⟨l', h1, h2⟩ := h.drop
            rw [hm] at h1
            refine ⟨_, _, _, l', N, rfl, ?_, h2.state .connected, rfl⟩
            simp only [dropMsg] at h1
            simp only [heap, h.self_mem, h.ctx_mem, hb, if_true] at h1 ⊢
            exact h1
      · exact ⟨_, _, _, l, N, rfl, by simp [heap, h.self_mem], h, rfl⟩
    | sendCb a =>
      unfold Good; simp only [mstep]
      cases hm : c.msg with
      | none => exact ⟨_, _, _, l, N, rfl, by simp [heap, h.self_mem], h, rfl⟩
      | some m =>
        obtain ⟨b, r⟩ := m
        have hb := h.msg_mem hm
        cases r with
        | list => exact ⟨_, _, _, l, N, rfl, by simp [heap, h.self_mem, hb], h, rfl⟩
        | setTag n v => exact ⟨_, _, _, l, N, rfl, by simp [heap, h.self_mem, hb], hm ▸ h.stack _, rfl⟩
        | setAll v => exact ⟨_, _, _, l, N, rfl, by simp [heap, h.self_mem, hb], hm ▸ h.stack _, rfl⟩
    | reply m =>
      cases m with
      | listEnd => exact ⟨_, _, _, l, N, rfl, by simp [heap, h.self_mem], h.stack _, rfl⟩
      | info n v =>
        obtain ⟨l', h1, h2, h3, h4⟩ := h.dropArr
        have hfr : c.next ∉ l := h.fresh
        -- with the block of the name
        have hcons : heap (c.next :: l) (CliMem.dropArr c.arr) = some (c.next :: l') := by
          cases ha : c.arr with
          | none => rw [ha] at h1; simp only [CliMem.dropArr, heap] at h1 ⊢; cases h1; rfl
          | some a =>
            have hal : a ∈ l := by rw [h.mem]; simp [ha]
            have hne : c.next ≠ a := fun e => hfr (e ▸ hal)
            rw [ha] at h1
            simp only [CliMem.dropArr, heap, hal, if_true, List.mem_cons, or_true] at h1 ⊢
            cases h1
            rw [List.erase_cons_tail (by simpa using hne)]
        have hn' : c.next ∉ l' := fun hx => Nat.lt_irrefl _ (h4 _ hx)
        have hn'' : c.next + 1 ∉ c.next :: l' := by
          intro hx; rcases List.mem_cons.1 hx with hx | hx
          · omega
          · have := h4 _ hx; omega
        refine ⟨_, _, _, (c.next + 1) :: c.next :: l', c.next :: N, rfl, ?_, ⟨?_, ?_, ?_, ?_, ?_⟩, by simp [MEv.named]⟩
        · show heap l ([.alloc c.next, .use c.self] ++ (CliMem.dropArr c.arr ++ [.alloc (c.next + 1)])) = _
          rw [heap_append]
          have : heap l [.alloc c.next, .use c.self] = some (c.next :: l) := by simp [heap, hfr, h.self_mem]
          rw [this]
          show heap (c.next :: l) _ = _
          rw [heap_append, hcons]
          show heap (c.next :: l') _ = _
          simp only [heap, hn'', if_false]
        · show ((c.next + 1) :: c.next :: l').Perm (c.self :: c.ctx :: (c.msg.toList.map (·.1) ++ ([c.next + 1] ++ c.next :: N)))
          refine ((h2.cons _).cons _).trans ?_
          have h5 : (c.msg.toList.map (·.1) ++ (c.next + 1) :: c.next :: N).Perm ((c.next + 1) :: c.next :: (c.msg.toList.map (·.1) ++ N)) :=
            List.perm_middle.trans (List.perm_middle.cons _)
          have h6 := (h5.cons c.ctx).cons c.self
          refine List.Perm.trans ?_ h6.symm
          exact List.perm_iff_count.2 fun x => by simp only [List.count_cons]; omega
        · exact List.nodup_cons.2 ⟨hn'', List.nodup_cons.2 ⟨hn', h3⟩⟩
        · intro x hx
          show x < c.next + 1 + 1
          rcases List.mem_cons.1 hx with rfl | hx
          · omega
          rcases List.mem_cons.1 hx with rfl | hx
          · omega
          · have := h4 x hx; omega
        · intro t ht
          rcases List.mem_append.1 (show t ∈ c.tags ++ [_] from ht) with ht | ht
          · obtain ⟨b, hb, h7⟩ := h.names t ht
            exact ⟨b, by simp [hb], h7⟩
          · simp only [List.mem_singleton] at ht
            subst ht
            exact ⟨c.next, by simp, rfl⟩
        · show true = !(c.tags ++ [_]).isEmpty
          simp
    | ret =>
      unfold Good; simp only [mstep]
      cases hs : c.stack with
      | nil => exact ⟨_, _, _, l, N, rfl, rfl, h, rfl⟩
      | cons k ks =>
        obtain ⟨l', h1, h2⟩ := h.drop
        have hd : heap l ([.use c.self] ++ dropMsg c.msg) = some l' := by
          simp only [List.cons_append, List.nil_append, heap, h.self_mem, if_true]; exact h1
        cases k with
        | sent => exact ⟨_, _, _, l', N, rfl, hd, h2.stack _, rfl⟩
        | stopped =>
          refine ⟨_, _, _, l', N, rfl, ?_, h2.stack _, rfl⟩
          rw [heap_append, hd]
          have : c.ctx ∈ l' := h2.ctx_mem
          simp [heap, this]
        | infos i =>
          obtain ⟨c', o, ops, l'', h3, h4, h5⟩ := infos_holds (ops := [.use c.self]) (l0 := l) (h.stack ks) (by simp [heap, h.self_mem]) i
          exact ⟨c', o, ops, l'', N, h3, h4, h5, rfl⟩
        | listEnd =>
          have hsrt : sortable c.tags = true := by
            simp only [sortable, Bool.or_eq_true, List.all_eq_true]
            refine Or.inr fun t ht => ?_
            obtain ⟨b, _, hb⟩ := h.names t ht
            simp [hb]
          simp only [hsrt, if_true]
          have h6 : Holds { c with msg := none, tags := qs c.tags, stack := ks } l' N := by
            refine ⟨h2.perm, h2.nodup, h2.low, fun t ht => h.names t ((hq _).mem_iff.1 ht), ?_⟩
            show c.arr.isSome = !(qs c.tags).isEmpty
            rw [h.arr, (hq c.tags).isEmpty_eq]
          have h7 : heap l ([.use c.self] ++ dropMsg c.msg ++ sortUses c) = some l' := by
            rw [heap_append, hd]
            show heap l' _ = _
            unfold sortUses
            rw [heap_uses _ _ _ (by intro x hx; rw [h2.mem]; simp [hx])]
            split
            · rfl
            · have := heap_uses l' (c.tags.filterMap (·.blk)) [] (by
                intro x hx
                obtain ⟨t, ht, hx⟩ := List.mem_filterMap.1 hx
                obtain ⟨b, hb, h8⟩ := h.names t ht
                rw [h8] at hx; cases hx
                rw [h2.mem]; simp [hb])
              rw [List.append_nil] at this
              exact this
          obtain ⟨c', o, ops, l'', h8, h9, h10⟩ := infos_holds h6 h7 0
          exact ⟨c', o, ops, l'', N, h8, h9, h10, rfl⟩

theorem run_holds {qs : List MTag → List MTag} (hq : ∀ l, (qs l).Perm l) (es : List MEv) : ∀ {c : MCli} {l N : List Nat}, Holds c l N → MEv.badInfo ∉ es →
    ∃ c' o ops l' N', mrun qs c es = some (c', o, ops) ∧ heap l ops = some l' ∧ Holds c' l' N' ∧ N'.length = N.length + es.countP MEv.named := by
  induction es with
  | nil => intro c l N h _; exact ⟨_, _, _, l, N, rfl, rfl, h, rfl⟩
  | cons e es ih =>
    intro c l N h he
    obtain ⟨c1, o1, p1, l1, N1, h1, h2, h3, h4⟩ := step_holds hq h (e := e) (fun hb => he (by simp [hb]))
    obtain ⟨c2, o2, p2, l2, N2, g1, g2, g3, g4⟩ := ih h3 (fun hb => he (by simp [hb]))
    refine ⟨c2, o1 ++ o2, p1 ++ p2, l2, N2, by simp only [mrun, h1, g1], ?_, g3, ?_⟩
    · rw [heap_append, h2]; exact g2
    · rw [g4, h4, List.countP_cons]; omega

theorem fresh_holds : Holds fresh [1, 0] [] :=
  ⟨by show List.Perm [1, 0] [0, 1]; exact List.Perm.swap _ _ _, by decide, by decide, by simp [fresh], rfl⟩

/-- C134: from the making of a client to its end, whatever the user calls and libpomp reports
(but a tag that cannot be read): every step is defined, and only blocks in use are used or
given back, each once. What is left in use are all the names ever received, the array if
tags were received since the last list, the message if one is pending, and the context if
libpomp keeps it. -/
theorem C134_life {qs : List MTag → List MTag} (hq : ∀ l, (qs l).Perm l) {args allocOk ctxOk : Bool} {s d : Int} {addr : Bytes} {len : Nat}
    {r : Int} {c0 : MCli} {h0 : List HOp} (hn : mnew args allocOk ctxOk s d addr len = some (r, some c0, h0))
    {es : List MEv} (he : MEv.badInfo ∉ es) (res : Int) :
    ∃ c o ops left, mrun qs c0 es = some (c, o, ops) ∧ heap [] (h0 ++ ops ++ mdestroy c res) = some left ∧
      left.length = es.countP MEv.named + (if c.tags = [] then 0 else 1) + (if c.msg = none then 0 else 1) + if res < 0 then 1 else 0 := by
  have hc : c0 = fresh ∧ h0 = [.alloc 0, .alloc 1, .use 1] := by
    unfold mnew at hn
    repeat' split at hn
    all_goals simp_all
  obtain ⟨rfl, rfl⟩ := hc
  obtain ⟨c, o, ops, l, N, h1, h2, h3, h4⟩ := run_holds hq es fresh_holds he
  have hself := h3.self_mem
  have hctx := h3.ctx_mem
  have hnd := h3.perm.nodup_iff.1 h3.nodup
  have hne : c.self ≠ c.ctx := by
    intro e; rw [e] at hnd; simp at hnd
  have hlen := h3.perm.length_eq
  have ha : c.arr.toList.length = if c.tags = [] then 0 else 1 := by
    have := h3.arr
    cases ht : c.tags <;> cases hr : c.arr <;> simp_all
  have hm : (c.msg.toList.map (·.1)).length = if c.msg = none then 0 else 1 := by cases c.msg <;> simp
  simp only [List.length_cons, List.length_append] at hlen
  rw [ha, hm] at hlen
  have pre : heap [] ([HOp.alloc 0, .alloc 1, .use 1] ++ ops) = some l := by
    rw [heap_append]; exact h2
  by_cases hr : res < 0
  · refine ⟨c, o, ops, l.erase c.self, h1, ?_, ?_⟩
    · rw [heap_append, pre]
      simp [mdestroy, hr, heap, hself, hctx]
    · rw [List.length_erase_of_mem hself, if_pos hr]
      simp only [List.length_nil] at h4
      omega
  · have hs' : c.self ∈ l.erase c.ctx := (List.mem_erase_of_ne hne).2 hself
    refine ⟨c, o, ops, (l.erase c.ctx).erase c.self, h1, ?_, ?_⟩
    · rw [heap_append, pre]
      simp [mdestroy, hr, heap, hself, hctx, hs']
    · rw [List.length_erase_of_mem hs', List.length_erase_of_mem hctx, if_neg hr]
      simp only [List.length_nil] at h4
      omega

/-! ## The client of `Ctl` -/

def pair (t : MTag) : Bytes × Int := (t.name, t.level)

/-- The client without its blocks. -/
def plain (c : MCli) : Cli := { st := c.st, msg := c.msg.map (·.2), tags := c.tags.map pair, stack := c.stack }

theorem plain_infos {c c' : MCli} {i : Nat} {ops h : List HOp} {o : List COut} (hs : minfos c i ops = some (c', o, h)) : (plain c).infos i = (plain c', o) := by
  unfold minfos at hs
  unfold Cli.infos
  cases ht : c.tags[i]? with
  | none =>
    simp only [ht] at hs
    cases hs
    simp [plain, ht]
  | some t =>
    simp only [ht] at hs
    split at hs
    · cases hs
    · cases hs
      simp [plain, ht, pair]

theorem plain_step {qs : List MTag → List MTag} {qs' : List (Bytes × Int) → List (Bytes × Int)} (hq : ∀ l, (qs l).map pair = qs' (l.map pair))
    {c c' : MCli} {e : CEv} {o : List COut} {h : List HOp} (hs : mstep qs c (.ev e) = some (c', o, h)) : cstep qs' (plain c) e = (plain c', o) := by
  have stop : plain (mstop c).1 = (plain c).stop.1 ∧ (mstop c).2.1 = (plain c).stop.2 := by
    unfold mstop Cli.stop plain
    by_cases h1 : c.st = .idle
    · simp [h1]
    · by_cases h2 : c.msg.isSome <;> simp [h1, h2]
  cases e with
  | start ok =>
    simp only [mstep] at hs
    unfold cstep
    by_cases h1 : c.st = .idle <;> simp only [h1, ne_eq, not_true, not_false_iff, if_true, if_false] at hs <;> cases hs <;> simp [plain, h1]
  | stop =>
    have e := Option.some.inj hs
    rw [e] at stop
    exact Prod.ext stop.1.symm stop.2.symm
  | disconnected =>
    have e := Option.some.inj hs
    rw [e] at stop
    exact Prod.ext stop.1.symm stop.2.symm
  | request r a b d =>
    have e := Option.some.inj hs
    have e1 : (mrequest c r a b d).1 = c' := congrArg (·.1) e
    have e2 : (mrequest c r a b d).2.1 = o := congrArg (·.2.1) e
    subst e1 e2
    clear e hs
    unfold cstep Cli.request mrequest plain
    by_cases h1 : c.st = .idle
    · simp [h1]
    · by_cases h2 : c.msg.isSome
      · simp [h1, h2]
      · have h2' : c.msg = none := by simpa using h2
        cases a
        · simp [h1, h2']
        · by_cases hr : r = .list <;> cases b <;> by_cases h3 : c.st = .connected <;> cases d <;> simp [h1, h2', hr, h3]
  | connected ok =>
    simp only [mstep] at hs
    unfold cstep
    by_cases h1 : c.st = .connecting
    · simp only [h1, if_true] at hs
      cases hm : c.msg with
      | none => simp only [hm] at hs; cases hs; simp [plain, h1, hm]
      | some m => cases ok <;> simp only [hm] at hs <;> cases hs <;> simp [plain, h1, hm]
    · simp only [h1, if_false] at hs; cases hs; simp [plain, h1]
  | sendCb a =>
    simp only [mstep] at hs
    unfold cstep
    cases hm : c.msg with
    | none => simp only [hm] at hs; cases hs; simp [plain, hm]
    | some m =>
      obtain ⟨b, r⟩ := m
      cases r <;> simp only [hm] at hs <;> cases hs <;> simp [plain, hm]
  | reply m =>
    cases m with
    | info n v => simp only [mstep] at hs; cases hs; simp [cstep, plain, keepTag, pair]
    | listEnd => simp only [mstep] at hs; cases hs; simp [cstep, plain]
  | ret =>
    simp only [mstep] at hs
    unfold cstep
    cases hk : c.stack with
    | nil => simp only [hk] at hs; cases hs; simp [plain, hk]
    | cons k ks =>
      cases k with
      | sent => simp only [hk] at hs; cases hs; simp [plain, hk]
      | stopped => simp only [hk] at hs; cases hs; simp [plain, hk]
      | infos i =>
        simp only [hk] at hs
        have := plain_infos hs
        simpa [plain, hk] using this
      | listEnd =>
        simp only [hk] at hs
        split at hs
        · have := plain_infos hs
          simpa [plain, hk, hq] using this
        · cases hs

/-- C134: without its blocks the client is that of C44: the same states and the same calls
of the user and of libpomp. -/
theorem C134_same {qs : List MTag → List MTag} {qs' : List (Bytes × Int) → List (Bytes × Int)} (hq : ∀ l, (qs l).map pair = qs' (l.map pair))
    (es : List CEv) : ∀ {c c' : MCli} {o : List COut} {h : List HOp}, mrun qs c (es.map .ev) = some (c', o, h) → crun qs' (plain c) es = (plain c', o) := by
  induction es with
  | nil => intro c c' o h hr; simp only [List.map_nil, mrun] at hr; cases hr; rfl
  | cons e es ih =>
    intro c c' o h hr
    simp only [List.map_cons, mrun] at hr
    cases h1 : mstep qs c (.ev e) with
    | none => simp [h1] at hr
    | some x =>
      obtain ⟨c1, o1, p1⟩ := x
      simp only [h1] at hr
      cases h2 : mrun qs c1 (es.map .ev) with
      | none => simp [h2] at hr
      | some y =>
        obtain ⟨c2, o2, p2⟩ := y
        simp only [h2] at hr
        cases hr
        have := plain_step hq h1
        have := ih h2
        simp only [crun, plain_step hq h1, ih h2]

/-! ## Connecting and stopping -/

theorem idle_step {qs : List MTag → List MTag} {c c' : MCli} {e : MEv} {o : List COut} {h : List HOp} (hs : mstep qs c e = some (c', o, h))
    (hi : c.st = .idle → c.msg = none ∨ Cont.stopped ∈ c.stack) : c'.st = .idle → c'.msg = none ∨ Cont.stopped ∈ c'.stack := by
  have infos : ∀ {c : MCli} {i : Nat} {ops : List HOp}, minfos c i ops = some (c', o, h) → c.msg = none ∨ (c.st = .idle → Cont.stopped ∈ c.stack) →
      c'.st = .idle → c'.msg = none ∨ Cont.stopped ∈ c'.stack := by
    intro c i ops hm hc hst
    unfold minfos at hm
    split at hm
    · cases hm; rcases hc with hc | hc
      · exact Or.inl hc
      · exact Or.inr (hc hst)
    · split at hm
      · cases hm
      · cases hm; rcases hc with hc | hc
        · exact Or.inl hc
        · exact Or.inr (by simp [hc hst])
  have stop : (mstop c).1.st = .idle → (mstop c).1.msg = none ∨ Cont.stopped ∈ (mstop c).1.stack := by
    unfold mstop
    split
    · exact hi
    · split
      · intro _; right; simp
      · rename_i hm; intro _; left; simpa using hm
  cases e with
  | badInfo => simp only [mstep] at hs; cases hs; exact hi
  | lostInfo n v => simp only [mstep] at hs; cases hs; exact hi
  | ev e =>
    cases e with
    | start ok =>
      simp only [mstep] at hs
      split at hs <;> cases hs
      · exact hi
      · intro h; simp at h
    | stop =>
      have e := Option.some.inj hs
      rw [e] at stop
      exact stop
    | disconnected =>
      have e := Option.some.inj hs
      rw [e] at stop
      exact stop
    | request r a b d =>
      have e := Option.some.inj hs
      have e1 : (mrequest c r a b d).1 = c' := congrArg (·.1) e
      subst e1
      clear e hs
      unfold mrequest
      split
      · exact hi
      · rename_i h1
        split
        · exact hi
        · split
          · exact hi
          · intro hst
            exfalso
            revert hst
            by_cases hr : r = .list <;> cases b <;> by_cases h3 : c.st = .connected <;> cases d <;> simp [h1, hr, h3]
    | connected ok =>
      simp only [mstep] at hs
      split at hs
      · split at hs
        · cases hs; intro h; simp at h
        · split at hs <;> cases hs <;> intro h <;> simp at h
      · cases hs; exact hi
    | sendCb a =>
      simp only [mstep] at hs
      split at hs <;> cases hs
      · exact hi
      · exact hi
      · intro h; rcases hi h with h | h
        · exact Or.inl h
        · exact Or.inr (by simp [h])
    | reply m =>
      cases m with
      | info n v => simp only [mstep] at hs; cases hs; exact hi
      | listEnd =>
        simp only [mstep] at hs; cases hs
        intro h; rcases hi h with h | h
        · exact Or.inl h
        · exact Or.inr (by simp [h])
    | ret =>
      simp only [mstep] at hs
      cases hk : c.stack with
      | nil => simp only [hk] at hs; cases hs; exact hi
      | cons k ks =>
        cases k with
        | sent => simp only [hk] at hs; cases hs; intro _; exact Or.inl rfl
        | stopped => simp only [hk] at hs; cases hs; intro _; exact Or.inl rfl
        | infos i =>
          simp only [hk] at hs
          refine infos hs ?_
          by_cases hm : c.msg = none
          · exact Or.inl hm
          · right
            intro h
            rcases hi h with h | h
            · exact absurd h hm
            · simpa [hk] using h
        | listEnd =>
          simp only [hk] at hs
          split at hs
          · exact infos hs (Or.inl rfl)
          · cases hs

/-- C134: outside of callbacks a stopped client has no message, so that its end leaves none
behind. -/
theorem C134_stopped (qs : List MTag → List MTag) {es : List MEv} {c : MCli} {o : List COut} {h : List HOp}
    (hr : mrun qs fresh es = some (c, o, h)) (hst : c.st = .idle) (hk : c.stack = []) : c.msg = none := by
  have key : ∀ (es : List MEv) {c0 c : MCli} {o : List COut} {h : List HOp}, mrun qs c0 es = some (c, o, h) →
      (c0.st = .idle → c0.msg = none ∨ Cont.stopped ∈ c0.stack) → c.st = .idle → c.msg = none ∨ Cont.stopped ∈ c.stack := by
    intro es
    induction es with
    | nil => intro c0 c o h hr hi; simp only [mrun] at hr; cases hr; exact hi
    | cons e es ih =>
      intro c0 c o h hr hi
      simp only [mrun] at hr
      cases h1 : mstep qs c0 e with
      | none => simp [h1] at hr
      | some x =>
        obtain ⟨c1, o1, p1⟩ := x
        simp only [h1] at hr
        cases h2 : mrun qs c1 es with
        | none => simp [h2] at hr
        | some y =>
          obtain ⟨c2, o2, p2⟩ := y
          simp only [h2] at hr
          cases hr
          exact ih h2 (idle_step h1 hi)
  rcases key es hr (fun _ => Or.inl rfl) hst with h | h
  · exact h
  · simp [hk] at h

/-- Whether a context is connected, or on its way, after some calls; `none` if it was asked to
connect while it was. -/
def line : Bool → List COut → Option Bool
  | b, [] => some b
  | b, .dial :: o => if b then none else line true o
  | _, .hangup :: o => line false o
  | b, _ :: o => line b o

theorem line_append (a : List COut) : ∀ (b : Bool) (o : List COut), line b (a ++ o) = (line b a).bind (line · o) := by
  induction a with
  | nil => intro b o; rfl
  | cons x a ih =>
    intro b o
    cases x <;> simp only [List.cons_append, line, ih]
    split <;> simp [ih]

/-- C134: if the client is not started inside the callback of a stop, its context is asked to
connect only after it was asked to stop; and a client that is stopped, outside of callbacks,
has asked it to stop. -/
theorem C134_turns (qs : List (Bytes × Int) → List (Bytes × Int)) (es : List CEv)
    (hs : ∀ a ok b, es = a ++ .start ok :: b → Cont.stopped ∉ (crun qs Cli.new a).1.stack) :
    ∃ up, line false (crun qs Cli.new es).2 = some up ∧
      ((crun qs Cli.new es).1.st = .idle → (crun qs Cli.new es).1.stack = [] → up = false) := by
  suffices h : ∃ up, line false (crun qs Cli.new es).2 = some up ∧
      (up = true → (crun qs Cli.new es).1.st = .idle → Cont.stopped ∈ (crun qs Cli.new es).1.stack) by
    obtain ⟨up, h1, h2⟩ := h
    refine ⟨up, h1, fun h3 h4 => ?_⟩
    cases up with
    | false => rfl
    | true => have := h2 rfl h3; simp [h4] at this
  have key : ∀ (n : Nat), n ≤ es.length → ∃ up, line false (crun qs Cli.new (es.take n)).2 = some up ∧
      (up = true → (crun qs Cli.new (es.take n)).1.st = .idle → Cont.stopped ∈ (crun qs Cli.new (es.take n)).1.stack) := by
    intro n
    induction n with
    | zero => intro _; exact ⟨false, rfl, fun h => by simp at h⟩
    | succ n ih =>
      intro hn
      obtain ⟨up, h1, h2⟩ := ih (by omega)
      have hget : es.take (n + 1) = es.take n ++ [es[n]'(by omega)] := (List.take_append_getElem (by omega)).symm
      have hsplit : es = es.take n ++ es[n]'(by omega) :: es.drop (n + 1) := by
        rw [← List.drop_eq_getElem_cons, List.take_append_drop]
      rw [hget, crun_append]
      generalize hc : (crun qs Cli.new (es.take n)).1 = c at h2
      have hstart : ∀ ok, es[n]'(by omega) = .start ok → Cont.stopped ∉ c.stack := by
        intro ok he
        rw [he] at hsplit
        rw [← hc]; exact hs _ ok _ hsplit
      generalize es[n]'(by omega) = e at hstart
      simp only [crun, List.append_nil, line_append, h1, Option.bind_some]
      have stop : ∃ up', line up c.stop.2 = some up' ∧ (up' = true → c.stop.1.st = .idle → Cont.stopped ∈ c.stop.1.stack) := by
        unfold Cli.stop
        split
        · exact ⟨up, rfl, h2⟩
        · split
          · exact ⟨up, rfl, fun _ _ => by simp⟩
          · exact ⟨false, rfl, fun h => by simp at h⟩
      have infos : ∀ (c : Cli) (i : Nat), (up = true → c.st = .idle → Cont.stopped ∈ c.stack) →
          ∃ up', line up (c.infos i).2 = some up' ∧ (up' = true → (c.infos i).1.st = .idle → Cont.stopped ∈ (c.infos i).1.stack) := by
        intro c i h2
        unfold Cli.infos
        split
        · exact ⟨up, rfl, h2⟩
        · exact ⟨up, rfl, fun a b => by simp [h2 a b]⟩
      cases e with
      | start ok =>
        simp only [cstep]
        split
        · exact ⟨up, rfl, h2⟩
        · rename_i hst
          have hst : c.st = .idle := by simpa using hst
          have hup : up = false := by
            cases up with
            | false => rfl
            | true => exact absurd (h2 rfl hst) (hstart ok rfl)
          subst hup
          cases ok
          · exact ⟨false, rfl, fun h => by simp at h⟩
          · exact ⟨true, rfl, fun _ h => by simp at h⟩
      | stop => exact stop
      | disconnected => exact stop
      | request r a b d =>
        simp only [cstep]
        unfold Cli.request
        split
        · exact ⟨up, rfl, h2⟩
        · rename_i h3
          split
          · exact ⟨up, rfl, h2⟩
          · split
            · exact ⟨up, rfl, h2⟩
            · refine ⟨up, ?_, fun _ hst => ?_⟩
              · by_cases hr : r = .list <;> cases b <;> by_cases h4 : c.st = .connected <;> cases d <;> simp [hr, h4, line]
              · exfalso
                revert hst
                by_cases hr : r = .list <;> cases b <;> by_cases h4 : c.st = .connected <;> cases d <;> simp [h3, hr, h4]
      | connected ok =>
        simp only [cstep]
        split
        · split
          · exact ⟨up, rfl, fun _ h => by simp at h⟩
          · split
            · exact ⟨up, rfl, fun _ h => by simp at h⟩
            · exact ⟨up, rfl, fun _ h => by simp at h⟩
        · exact ⟨up, rfl, h2⟩
      | sendCb a =>
        simp only [cstep]
        split
        · exact ⟨up, rfl, h2⟩
        · exact ⟨up, rfl, h2⟩
        · exact ⟨up, rfl, fun a b => by simp [h2 a b]⟩
      | reply m =>
        cases m with
        | info n v => exact ⟨up, rfl, h2⟩
        | listEnd => exact ⟨up, rfl, fun a b => by simp [cstep, h2 a b]⟩
      | ret =>
        simp only [cstep]
        cases hk : c.stack with
        | nil => rw [hk] at h2; exact ⟨up, rfl, by simpa [hk] using h2⟩
        | cons k ks =>
          rw [hk] at h2
          cases k with
          | sent => exact ⟨up, rfl, fun a b => by simpa using h2 a b⟩
          | stopped => exact ⟨false, rfl, fun h => by simp at h⟩
          | infos i => exact infos _ i (fun a b => by simpa using h2 a b)
          | listEnd => exact infos _ 0 (fun a b => by simpa using h2 a b)
  simpa using key es.length (Nat.le_refl _)

/-! ## Making a client -/

/-- C134: a client is made exactly if nothing fails, and then the result is 0; else the
result is -22 for a missing argument, -12 without memory or what libpomp answered, and nothing
stays in use but a context that libpomp keeps. Memory outside
the address is touched exactly if all else succeeds and the address is longer than what was
given or than 128 bytes. -/
theorem C134_new (args allocOk ctxOk : Bool) (s d : Int) (addr : Bytes) (len : Nat) :
    (mnew args allocOk ctxOk s d addr len = none ↔ (args && allocOk && ctxOk) = true ∧ 0 ≤ s ∧ (addr.length < len ∨ 128 < len)) ∧
    ∀ r c h, mnew args allocOk ctxOk s d addr len = some (r, c, h) →
      (c.isSome ↔ (args && allocOk && ctxOk) = true ∧ 0 ≤ s) ∧ (c.isSome ↔ r = 0) ∧
      r = (if args = false then -22 else if (allocOk && ctxOk) = false then -12 else if s < 0 then s else 0) ∧
      (c = none → heap [] h = some (if (args && allocOk && ctxOk) = true ∧ d < 0 then [1] else [])) := by
  have hcopy : copyAddr addr len = none ↔ addr.length < len ∨ 128 < len := by
    unfold copyAddr storage
    split <;> simp <;> omega
  constructor
  · unfold mnew
    cases args <;> cases allocOk <;> cases ctxOk <;> simp
    by_cases hs : s < 0
    · simp [hs]; omega
    · simp only [hs, if_false]
      rw [← hcopy]
      cases copyAddr addr len <;> simp <;> omega
  · intro r c h hm
    unfold mnew at hm
    cases args <;> cases allocOk <;> cases ctxOk <;> simp at hm <;>
      try (obtain ⟨rfl, rfl, rfl⟩ := hm; simp [heap])
    by_cases hs : s < 0
    · simp only [hs, if_true, Option.some.injEq, Prod.mk.injEq] at hm
      obtain ⟨rfl, rfl, rfl⟩ := hm
      by_cases hd : d < 0
      · simp [mdestroy, fresh, heap, hd, hs]; omega
      · simp [mdestroy, fresh, heap, hd, hs]; omega
    · simp only [hs, if_false] at hm
      split at hm
      · cases hm
      · simp only [Option.some.injEq, Prod.mk.injEq] at hm
        obtain ⟨rfl, rfl, rfl⟩ := hm
        simp [hs]; omega

/-! ## The server -/

theorem try_heap (b : Nat) (t : Try) (l : List Nat) (hl : ∀ x ∈ l, x < b) : heap l (tryOps b t).2 = some l ∧ b ≤ (tryOps b t).1 := by
  have hb : b ∉ l := fun h => Nat.lt_irrefl _ (hl b h)
  unfold tryOps
  split
  · simp [heap]
  · split <;> simp [heap, hb]

theorem tries_heap (ts : List Try) : ∀ (b : Nat) (l : List Nat), (∀ x ∈ l, x < b) → heap l (triesOps b ts).2 = some l ∧ b ≤ (triesOps b ts).1 := by
  induction ts with
  | nil => intro b l _; exact ⟨rfl, Nat.le_refl _⟩
  | cons t ts ih =>
    intro b l hl
    obtain ⟨h1, h2⟩ := try_heap b t l hl
    obtain ⟨h3, h4⟩ := ih (tryOps b t).1 l (fun x hx => by have := hl x hx; omega)
    simp only [triesOps, heap_append, h1]
    exact ⟨h3, by omega⟩

/-- C134: a server uses only blocks in use and gives each message back; what it keeps for
ever is the name of every request to set one tag that could be read. -/
theorem C134_server (ms : List SMsg) : ∀ (b : Nat) (l : List Nat), (∀ x ∈ l, x < b) →
    ∃ k, heap l (smsgs b ms).2 = some (k ++ l) ∧ k.length = ms.count (.setTag true) := by
  induction ms with
  | nil => intro b l _; exact ⟨[], rfl, rfl⟩
  | cons m ms ih =>
    intro b l hl
    have hb : b ∉ l := fun h => Nat.lt_irrefl _ (hl b h)
    have none : ∀ (m : SMsg), m ≠ .setTag true → heap l (smsg b m).2 = some l ∧ b ≤ (smsg b m).1 := by
      intro m hm
      cases m with
      | setTag ok => cases ok <;> simp_all [smsg, heap]
      | setAll => simp [smsg, heap]
      | list ok ts t =>
        cases ok
        · simp [smsg, heap]
        · exact tries_heap _ b l hl
    by_cases hm : m = .setTag true
    · subst hm
      obtain ⟨k, h1, h2⟩ := ih (b + 1) (b :: l) (by
        intro x hx; rcases List.mem_cons.1 hx with rfl | hx
        · omega
        · have := hl x hx; omega)
      refine ⟨k ++ [b], ?_, by simp [h2]⟩
      simp only [smsgs, smsg, if_true, heap_append]
      have : heap l [.alloc b, .use b] = some (b :: l) := by simp [heap, hb]
      rw [this]
      simpa using h1
    · obtain ⟨h1, h2⟩ := none m hm
      obtain ⟨k, h3, h4⟩ := ih (smsg b m).1 l (fun x hx => by have := hl x hx; omega)
      refine ⟨k, ?_, by simp [h4, List.count_cons, hm]⟩
      simp only [smsgs, heap_append, h1]
      exact h3

/-- The blocks allocated. -/
def made : List HOp → List Nat
  | [] => []
  | .alloc b :: h => b :: made h
  | _ :: h => made h

/-- The blocks used. -/
def used : List HOp → List Nat
  | [] => []
  | .use b :: h => b :: used h
  | _ :: h => used h

/-- C134: the answers to a list. One message is allocated for each answer that could be made,
never the same one twice, and exactly those that could be encoded are used. -/
theorem C134_answers (ts : List Try) : ∀ b, (triesOps b ts).1 = b + ts.countP (·.newOk) ∧
    made (triesOps b ts).2 = List.range' b (ts.countP (·.newOk)) ∧
    (used (triesOps b ts).2).length = ts.countP (fun t => t.newOk && t.encOk) := by
  induction ts with
  | nil => intro b; simp [triesOps, made, used]
  | cons t ts ih =>
    intro b
    obtain ⟨n, e, s⟩ := t
    cases n
    · have := ih b
      simpa [triesOps, tryOps] using this
    · obtain ⟨h1, h2, h3⟩ := ih (b + 1)
      cases e
      · have hh : triesOps b (⟨true, false, s⟩ :: ts) = ((triesOps (b + 1) ts).1, [.alloc b, .free b] ++ (triesOps (b + 1) ts).2) := rfl
        rw [hh]
        simp [made, used, h1, h2, h3, List.range'_succ]
        omega
      · have hh : triesOps b (⟨true, true, s⟩ :: ts) = ((triesOps (b + 1) ts).1, [.alloc b, .use b, .free b] ++ (triesOps (b + 1) ts).2) := rfl
        rw [hh]
        simp [made, used, h1, h2, h3, List.range'_succ]
        omega

/-- C134: a list of one tag whose name could not be read is sorted without a look at the name;
only then is the name shown, which is a fault. A list of no tag ends well. -/
theorem C134_one {qs : List MTag → List MTag} (hq : ∀ l, (qs l).Perm l) {c : MCli} {k : List Cont} (hk : c.stack = .listEnd :: k)
    (hl : c.tags.length ≤ 1) :
    (mstep qs c (.ev .ret) = none ↔ ∃ t, c.tags = [t] ∧ t.blk = none) ∧
    ∀ c' o h, mstep qs c (.ev .ret) = some (c', o, h) → c'.tags = c.tags ∧
      ∀ b, HOp.use b ∈ h → b = c.self ∨ c.arr = some b ∨ (∃ m, c.msg = some (b, m)) ∨ ∃ t ∈ c.tags, t.blk = some b := by
  have hs : sortable c.tags = true := by simp [sortable, hl]
  have hu : sortUses c = c.arr.toList.map .use := by simp [sortUses, hl]
  have hd : ∀ b, HOp.use b ∉ dropMsg c.msg := by intro b; unfold dropMsg; split <;> simp
  have hstep : mstep qs c (.ev .ret) =
      minfos { c with msg := none, tags := qs c.tags, stack := k } 0 ([.use c.self] ++ dropMsg c.msg ++ sortUses c) := by
    simp only [mstep, hk, hs, if_true]
  match ht : c.tags, hl with
  | [], _ =>
    have hq0 : qs c.tags = [] := by rw [ht]; exact List.perm_nil.1 (hq [])
    rw [ht] at hq0
    rw [hstep, ht, hq0]
    simp only [minfos, List.getElem?_nil]
    refine ⟨by simp, ?_⟩
    intro c' o h e
    cases e
    refine ⟨rfl, ?_⟩
    intro b hb
    rw [hu] at hb
    simp [hd] at hb
    rcases hb with hb | hb
    · exact .inl hb
    · exact .inr (.inl hb)
  | [t], _ =>
    have hq1 : qs c.tags = [t] := by rw [ht]; exact List.perm_singleton.1 (hq [t])
    rw [ht] at hq1
    rw [hstep, ht, hq1]
    simp only [minfos, List.getElem?_cons_zero]
    cases hb : t.blk with
    | none => exact ⟨by simp [hb], by simp⟩
    | some b0 =>
      refine ⟨by simp [hb], ?_⟩
      intro c' o h e
      simp only [Option.some.injEq, Prod.mk.injEq] at e
      obtain ⟨rfl, _, rfl⟩ := e
      refine ⟨rfl, ?_⟩
      intro b h
      rw [hu] at h
      simp [hd] at h
      rcases h with h | h | h
      · exact .inl h
      · exact .inr (.inl h)
      · subst h; exact .inr (.inr (.inr ⟨t, by simp, hb⟩))
  | _ :: _ :: _, hl => simp at hl

/-! ## What is false -/

/-- C134 is false for a client taken away inside a callback: whatever the library does after
the callback uses what was given back. -/
theorem C134_false_inside {qs : List MTag → List MTag} {c c' : MCli} {l N : List Nat} (h : Holds c l N) (res : Int) {o : List COut} {ops : List HOp}
    (hk : c.stack ≠ []) (hs : mstep qs c (.ev .ret) = some (c', o, ops)) : heap l (mdestroy c res ++ ops) = none := by
  have hself := h.self_mem
  have hctx := h.ctx_mem
  have hne : c.self ≠ c.ctx := by
    intro e
    have hnd := h.perm.nodup_iff.1 h.nodup
    rw [e] at hnd; simp at hnd
  have hs' : c.self ∈ l.erase c.ctx := (List.mem_erase_of_ne hne).2 hself
  have hfirst : ∃ t, ops = .use c.self :: t := by
    have inf : ∀ {d : MCli} {i : Nat} {t : List HOp}, minfos d i (.use c.self :: t) = some (c', o, ops) → ∃ t, ops = .use c.self :: t := by
      intro d i t hm
      unfold minfos at hm
      split at hm
      · cases hm; exact ⟨_, rfl⟩
      · split at hm
        · cases hm
        · cases hm; exact ⟨_, rfl⟩
    simp only [mstep] at hs
    cases hk' : c.stack with
    | nil => exact absurd hk' hk
    | cons k ks =>
      cases k with
      | sent => simp only [hk'] at hs; cases hs; exact ⟨_, rfl⟩
      | stopped => simp only [hk'] at hs; cases hs; exact ⟨_, rfl⟩
      | infos i => simp only [hk'] at hs; exact inf hs
      | listEnd =>
        simp only [hk'] at hs
        split at hs
        · exact inf hs
        · cases hs
  obtain ⟨t, rfl⟩ := hfirst
  have hn1 : c.self ∉ l.erase c.self := fun hx => by
    have := (h.nodup.mem_erase_iff).1 hx; exact this.1 rfl
  have hn2 : c.self ∉ (l.erase c.ctx).erase c.self := fun hx => by
    have := ((h.nodup.erase c.ctx).mem_erase_iff).1 hx; exact this.1 rfl
  by_cases hr : res < 0
  · simp [mdestroy, hr, heap, hself, hctx, hn1]
  · simp [mdestroy, hr, heap, hself, hctx, hs', hn2]

/-- C134 is false if a tag cannot be read: a null pointer is compared when the list is sorted,
or handed to the user. -/
theorem C134_false_bad (qs : List MTag → List MTag) (n : Bytes) (v : Int) :
    mrun qs fresh [.ev (.start true), .ev (.connected true), .ev (.request .list true true true), .ev (.reply (.info n v)), .badInfo,
      .ev (.reply .listEnd), .ev .ret] = none := rfl

/-- C134 is false for a client started inside the callback of its stop: its context is asked to
connect before it is asked to stop, and the client waits for a connection that was given
up; to start it again is refused. -/
theorem C134_false_restart (qs : List (Bytes × Int) → List (Bytes × Int)) :
    let es : List CEv := [.start true, .request .list true true true, .stop, .start true, .ret]
    line false (crun qs Cli.new es).2 = none ∧ (crun qs Cli.new es).2.getLast? = some .hangup ∧ (crun qs Cli.new es).1.st = .connecting ∧
      (cstep qs (crun qs Cli.new es).1 (.start true)).2 = [.refused] := ⟨rfl, rfl, rfl, rfl⟩

/-- C134 is false for a client taken away while libpomp keeps its context: whatever libpomp
reports next uses what was given back. -/
theorem C134_false_busy {qs : List MTag → List MTag} {c c' : MCli} {l N : List Nat} (h : Holds c l N) {res : Int} (hr : res < 0) {e : CEv}
    (he : (∃ b, e = .connected b) ∨ e = .disconnected ∨ (∃ b, e = .sendCb b) ∨ ∃ m, e = .reply m) {o : List COut} {ops : List HOp}
    (hs : mstep qs c (.ev e) = some (c', o, ops)) : c.ctx ∈ l.erase c.self ∧ heap l (mdestroy c res ++ ops) = none := by
  have hself := h.self_mem
  have hctx := h.ctx_mem
  have hne : c.self ≠ c.ctx := by
    intro e
    have hnd := h.perm.nodup_iff.1 h.nodup
    rw [e] at hnd; simp at hnd
  refine ⟨(List.mem_erase_of_ne (Ne.symm hne)).2 hctx, ?_⟩
  have hn1 : c.self ∉ l.erase c.self := fun hx => by
    have := (h.nodup.mem_erase_iff).1 hx; exact this.1 rfl
  have hnx : c.next ∉ l.erase c.self := fun hx => h.fresh (List.mem_of_mem_erase hx)
  have hns : c.self ≠ c.next := fun e => h.fresh (e ▸ hself)
  have hfirst : (∃ t, ops = .use c.self :: t) ∨ ∃ t, ops = .alloc c.next :: .use c.self :: t := by
    rcases he with ⟨b, rfl⟩ | rfl | ⟨b, rfl⟩ | ⟨m, rfl⟩
    · simp only [mstep] at hs
      split at hs
      · split at hs
        · cases hs; exact Or.inl ⟨_, rfl⟩
        · split at hs <;> cases hs <;> exact Or.inl ⟨_, rfl⟩
      · cases hs; exact Or.inl ⟨_, rfl⟩
    · have e := Option.some.inj hs
      have e1 : (mstop c).2.2 = ops := congrArg (·.2.2) e
      rw [← e1]
      unfold mstop
      split
      · exact Or.inl ⟨_, rfl⟩
      · split <;> exact Or.inl ⟨_, rfl⟩
    · simp only [mstep] at hs
      split at hs <;> cases hs <;> exact Or.inl ⟨_, rfl⟩
    · cases m with
      | info n v => simp only [mstep] at hs; cases hs; exact Or.inr ⟨_, rfl⟩
      | listEnd => simp only [mstep] at hs; cases hs; exact Or.inl ⟨_, rfl⟩
  rcases hfirst with ⟨t, rfl⟩ | ⟨t, rfl⟩
  · simp [mdestroy, hr, heap, hself, hctx, hn1]
  · simp [mdestroy, hr, heap, hself, hctx, hn1, hnx, hns]

/-- C134: the answer to a list is one message for each tag and one for its end, as far as memory
for them is granted; nothing is made if the request cannot be read. -/
theorem C134_list (b : Nat) (readOk : Bool) (ts : List Try) (l : Try) :
    made (smsg b (.list readOk ts l)).2 =
      if readOk then List.range' b (ts.countP (·.newOk) + if l.newOk then 1 else 0) else [] := by
  cases readOk
  · rfl
  · have h := (C134_answers (ts ++ [l]) b).2.1
    rw [List.countP_append, List.countP_singleton] at h
    exact h

end Verif.Tools.CliMem
