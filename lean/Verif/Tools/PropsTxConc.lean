import Verif.Tools.TxConc

/-!
# C127: threads of ThreadX that log to shared memory at the same time
-/
namespace Verif.Tools.TxConc

/-! ## Words for the statements -/

/-- The call a thread is in. -/
def Pc.call : Pc → Nat
  | .test c => c
  | .load c => c
  | .store c _ => c
  | .clear c _ => c
  | .write c _ => c
  | .set c => c

/-- Between the clearing of the flag and its setting (111-115). -/
def Pc.writing : Pc → Prop
  | .write _ _ => True
  | .set _ => True
  | _ => False

/-- The record is not in memory yet. -/
def Pc.pending : Pc → Prop
  | .set _ => False
  | _ => True

/-- Between the load and the store of `index++`. -/
def Pc.counting : Pc → Prop
  | .store _ _ => True
  | _ => False

/-- No thread is in a call. -/
def Quiet (s : State) : Prop := ∀ t, s.stack t = []

/-- No two threads are in `index++` at the same time, anywhere in the run. -/
def OneCounts : State → List Op → Prop
  | s, [] => ∀ t u p q, p ∈ s.stack t → q ∈ s.stack u → p.counting → q.counting → t = u
  | s, o :: os => (∀ t u p q, p ∈ s.stack t → q ∈ s.stack u → p.counting → q.counting → t = u) ∧ ∀ s', step s o = some s' → OneCounts s' os

/-- The thread of a step. -/
def Op.thread : Op → Nat
  | .call t => t
  | .go t => t

/-! ## The invariant -/

structure Inv (s : State) : Prop where
  stoN : (s.stored.map Prod.fst).Nodup
  dropN : s.dropped.Nodup
  apart : ∀ c ∈ s.dropped, c ∉ s.stored.map Prod.fst
  sto : ∀ c ∈ s.stored.map Prod.fst, c < s.calls
  drp : ∀ c ∈ s.dropped, c < s.calls
  pend : ∀ t p, p ∈ s.stack t → p.call < s.calls ∧ p.call ∉ s.dropped ∧ (p.pending → p.call ∉ s.stored.map Prod.fst) ∧ (¬ p.pending → p.call ∈ s.stored.map Prod.fst)
  uniq : ∀ t u p q, p ∈ s.stack t → q ∈ s.stack u → p.call = q.call → t = u ∧ p = q
  nodup : ∀ t, ((s.stack t).map Pc.call).Nodup
  all : ∀ c < s.calls, c ∈ s.stored.map Prod.fst ∨ c ∈ s.dropped ∨ ∃ t p, p ∈ s.stack t ∧ p.call = c
  flag : s.enabled = false → ∃ t p, p ∈ s.stack t ∧ p.writing

theorem Inv.start : Inv start := by
  constructor <;> simp [TxConc.start]

theorem at_stack (s : State) (t : Nat) (k : List Pc) (u : Nat) : (s.at t k).stack u = if u = t then k else s.stack u := rfl

theorem mem_at {s : State} {t : Nat} {k : List Pc} {u : Nat} {p : Pc} (h : p ∈ (s.at t k).stack u) :
    (u = t ∧ p ∈ k) ∨ (u ≠ t ∧ p ∈ s.stack u) := by
  rw [at_stack] at h
  split at h
  · exact .inl ⟨‹_›, h⟩
  · exact .inr ⟨‹_›, h⟩

/-- Moving the innermost call on, without storing or dropping. -/
theorem Inv.move {s s' : State} (h : Inv s) {t : Nat} {p q : Pc} {k : List Pc} (hs : s.stack t = p :: k)
    (hc : q.call = p.call) (hp : p.pending) (hq : q.pending) (e1 : s'.stored = s.stored) (e2 : s'.dropped = s.dropped) (e3 : s'.calls = s.calls)
    (e4 : ∀ u, s'.stack u = if u = t then q :: k else s.stack u) (hf : s'.enabled = false → ∃ t p, p ∈ s'.stack t ∧ p.writing) : Inv s' := by
  have back : ∀ u x, x ∈ s'.stack u → ∃ y, y ∈ s.stack u ∧ x.call = y.call ∧ (x.pending ↔ y.pending) ∧ (x = y ∨ (u = t ∧ x = q ∧ y = p)) := by
    intro u x hx
    rw [e4] at hx
    split at hx
    · rename_i hu
      subst hu
      rcases List.mem_cons.1 hx with rfl | hx
      · exact ⟨p, by rw [hs]; exact List.mem_cons_self, hc, ⟨fun _ => hp, fun _ => hq⟩, .inr ⟨rfl, rfl, rfl⟩⟩
      · exact ⟨x, by rw [hs]; exact List.mem_cons_of_mem _ hx, rfl, Iff.rfl, .inl rfl⟩
    · exact ⟨x, hx, rfl, Iff.rfl, .inl rfl⟩
  have hnd := h.nodup t
  rw [hs, List.map_cons, List.nodup_cons] at hnd
  refine ⟨by rw [e1]; exact h.stoN, by rw [e2]; exact h.dropN, by rw [e1, e2]; exact h.apart, by rw [e1, e3]; exact h.sto,
    by rw [e2, e3]; exact h.drp, ?_, ?_, ?_, ?_, hf⟩
  · intro u x hx
    obtain ⟨y, hy, h1, h2, _⟩ := back u x hx
    obtain ⟨a1, a2, a3, a4⟩ := h.pend u y hy
    rw [e1, e2, e3, h1]
    exact ⟨a1, a2, fun hh => a3 (h2.1 hh), fun hh => a4 (fun g => hh (h2.2 g))⟩
  · intro u v x z hx hz hxz
    obtain ⟨y, hy, h1, _, h3⟩ := back u x hx
    obtain ⟨w, hw, k1, _, k3⟩ := back v z hz
    obtain ⟨b1, b2⟩ := h.uniq u v y w hy hw (by rw [← h1, ← k1]; exact hxz)
    subst b1; subst b2
    refine ⟨rfl, ?_⟩
    rcases h3 with rfl | ⟨hu, rfl, rfl⟩
    · rcases k3 with rfl | ⟨hv, rfl, rfl⟩
      · rfl
      · subst hv
        rw [e4, if_pos rfl] at hx
        rcases List.mem_cons.1 hx with rfl | hx
        · rfl
        · exact absurd (List.mem_map_of_mem hx) hnd.1
    · rcases k3 with rfl | ⟨_, rfl, _⟩
      · subst hu
        rw [e4, if_pos rfl] at hz
        rcases List.mem_cons.1 hz with rfl | hz
        · rfl
        · exact absurd (List.mem_map_of_mem hz) hnd.1
      · rfl
  · intro u
    rw [e4]
    split
    · rw [List.map_cons, List.nodup_cons, hc]; exact hnd
    · exact h.nodup u
  · intro c hcc
    rw [e3] at hcc
    rw [e1, e2]
    rcases h.all c hcc with h1 | h1 | ⟨u, x, hx, hxc⟩
    · exact .inl h1
    · exact .inr (.inl h1)
    · refine .inr (.inr ?_)
      by_cases hu : u = t
      · subst hu
        rw [hs] at hx
        rcases List.mem_cons.1 hx with rfl | hx
        · exact ⟨u, q, by rw [e4, if_pos rfl]; exact List.mem_cons_self, by rw [hc, hxc]⟩
        · exact ⟨u, x, by rw [e4, if_pos rfl]; exact List.mem_cons_of_mem _ hx, hxc⟩
      · exact ⟨u, x, by rw [e4, if_neg hu]; exact hx, hxc⟩

/-- A new call. -/
theorem Inv.new {s : State} (h : Inv s) {t : Nat} {k : List Pc} (hs : s.stack t = k) :
    Inv ({ s with calls := s.calls + 1 }.at t (.test s.calls :: k)) := by
  have old : ∀ u x, x ∈ s.stack u → x.call < s.calls := fun u x hx => (h.pend u x hx).1
  have back : ∀ u x, x ∈ ({ s with calls := s.calls + 1 }.at t (.test s.calls :: k)).stack u → (u = t ∧ x = .test s.calls) ∨ x ∈ s.stack u := by
    intro u x hx
    rcases mem_at hx with ⟨hu, hx⟩ | ⟨_, hx⟩
    · rcases List.mem_cons.1 hx with rfl | hx
      · exact .inl ⟨hu, rfl⟩
      · exact .inr (by rw [hu, hs]; exact hx)
    · exact .inr hx
  have fwd : ∀ u x, x ∈ s.stack u → x ∈ ({ s with calls := s.calls + 1 }.at t (.test s.calls :: k)).stack u := by
    intro u x hx
    rw [at_stack]
    split
    · rename_i hu
      rw [hu, hs] at hx
      exact List.mem_cons_of_mem _ hx
    · exact hx
  refine ⟨h.stoN, h.dropN, h.apart, fun c hc => Nat.lt_succ_of_lt (h.sto c hc), fun c hc => Nat.lt_succ_of_lt (h.drp c hc), ?_, ?_, ?_, ?_, ?_⟩
  · intro u x hx
    rcases back u x hx with ⟨_, rfl⟩ | hx
    · refine ⟨Nat.lt_succ_self _, fun hh => Nat.lt_irrefl _ (h.drp _ hh), fun _ hh => Nat.lt_irrefl _ (h.sto _ hh), fun hh => absurd trivial hh⟩
    · obtain ⟨a1, a2, a3, a4⟩ := h.pend u x hx
      exact ⟨Nat.lt_succ_of_lt a1, a2, a3, a4⟩
  · intro u v x z hx hz e
    rcases back u x hx with ⟨h1, rfl⟩ | hx
    · rcases back v z hz with ⟨h2, rfl⟩ | hz
      · exact ⟨h1.trans h2.symm, rfl⟩
      · have := old v z hz
        rw [← e] at this
        exact absurd this (Nat.lt_irrefl _)
    · rcases back v z hz with ⟨h2, rfl⟩ | hz
      · have := old u x hx
        rw [e] at this
        exact absurd this (Nat.lt_irrefl _)
      · exact h.uniq u v x z hx hz e
  · intro u
    rw [at_stack]
    split
    · rw [List.map_cons, List.nodup_cons]
      refine ⟨fun hm => ?_, by rw [← hs]; exact h.nodup t⟩
      obtain ⟨x, hx, e⟩ := List.mem_map.1 hm
      have := old t x (by rw [hs]; exact hx)
      rw [e] at this
      exact Nat.lt_irrefl _ this
    · exact h.nodup u
  · intro c hc
    rcases Nat.lt_or_eq_of_le (Nat.lt_succ_iff.1 hc) with hc | rfl
    · rcases h.all c hc with h1 | h1 | ⟨u, x, hx, e⟩
      · exact .inl h1
      · exact .inr (.inl h1)
      · exact .inr (.inr ⟨u, x, fwd u x hx, e⟩)
    · exact .inr (.inr ⟨t, .test s.calls, by rw [at_stack, if_pos rfl]; exact List.mem_cons_self, rfl⟩)
  · intro hf
    obtain ⟨u, x, hx, hw⟩ := h.flag hf
    exact ⟨u, x, fwd u x hx, hw⟩

/-- A call ends: it is stored already or is dropped now. -/
theorem Inv.leave {s s' : State} (h : Inv s) {t : Nat} {p : Pc} {k : List Pc} (hs : s.stack t = p :: k)
    (e1 : s'.stored = s.stored) (e3 : s'.calls = s.calls) (e4 : ∀ u, s'.stack u = if u = t then k else s.stack u)
    (hd : (p.pending ∧ s'.dropped = s.dropped ++ [p.call]) ∨ (¬ p.pending ∧ s'.dropped = s.dropped))
    (hf : s'.enabled = false → ∃ t p, p ∈ s'.stack t ∧ p.writing) : Inv s' := by
  have hpm : p ∈ s.stack t := by rw [hs]; exact List.mem_cons_self
  have back : ∀ u x, x ∈ s'.stack u → x ∈ s.stack u ∧ x.call ≠ p.call := by
    intro u x hx
    have hnd := h.nodup t
    rw [hs, List.map_cons, List.nodup_cons] at hnd
    rw [e4] at hx
    split at hx
    · rename_i hu
      rw [hu, hs]
      exact ⟨List.mem_cons_of_mem _ hx, fun e => hnd.1 (by rw [← e]; exact List.mem_map_of_mem hx)⟩
    · rename_i hu
      exact ⟨hx, fun e => hu (h.uniq u t x p hx hpm e).1⟩
  obtain ⟨b1, b2, b3, b4⟩ := h.pend t p hpm
  refine ⟨by rw [e1]; exact h.stoN, ?_, ?_, by rw [e1, e3]; exact h.sto, ?_, ?_, ?_, ?_, ?_, hf⟩
  · rcases hd with ⟨_, e⟩ | ⟨_, e⟩
    · rw [e, List.nodup_append]
      refine ⟨h.dropN, by simp, fun a ha b hb => ?_⟩
      rw [List.mem_singleton.1 hb]
      exact fun e => b2 (by rw [← e]; exact ha)
    · rw [e]; exact h.dropN
  · intro c hc
    rw [e1]
    rcases hd with ⟨hp, e⟩ | ⟨_, e⟩
    · rw [e] at hc
      rcases List.mem_append.1 hc with hc | hc
      · exact h.apart c hc
      · rw [List.mem_singleton.1 hc]; exact b3 hp
    · rw [e] at hc; exact h.apart c hc
  · intro c hc
    rw [e3]
    rcases hd with ⟨hp, e⟩ | ⟨_, e⟩
    · rw [e] at hc
      rcases List.mem_append.1 hc with hc | hc
      · exact h.drp c hc
      · rw [List.mem_singleton.1 hc]; exact b1
    · rw [e] at hc; exact h.drp c hc
  · intro u x hx
    obtain ⟨hx, hne⟩ := back u x hx
    obtain ⟨a1, a2, a3, a4⟩ := h.pend u x hx
    rw [e1, e3]
    refine ⟨a1, ?_, a3, a4⟩
    rcases hd with ⟨_, e⟩ | ⟨_, e⟩
    · rw [e]
      intro hm
      rcases List.mem_append.1 hm with hm | hm
      · exact a2 hm
      · exact hne (List.mem_singleton.1 hm)
    · rw [e]; exact a2
  · intro u v x z hx hz e
    exact h.uniq u v x z (back u x hx).1 (back v z hz).1 e
  · intro u
    rw [e4]
    split
    · have := h.nodup t
      rw [hs, List.map_cons, List.nodup_cons] at this
      exact this.2
    · exact h.nodup u
  · intro c hc
    rw [e3] at hc
    rw [e1]
    rcases h.all c hc with h1 | h1 | ⟨u, x, hx, e⟩
    · exact .inl h1
    · refine .inr (.inl ?_)
      rcases hd with ⟨_, e⟩ | ⟨_, e⟩
      · rw [e]; exact List.mem_append_left _ h1
      · rw [e]; exact h1
    · by_cases hu : u = t
      · rw [hu, hs] at hx
        rcases List.mem_cons.1 hx with rfl | hx
        · rcases hd with ⟨_, e'⟩ | ⟨hp, _⟩
          · refine .inr (.inl ?_)
            rw [e', ← e]; simp
          · exact .inl (by rw [← e]; exact b4 hp)
        · exact .inr (.inr ⟨t, x, by rw [e4, if_pos rfl]; exact hx, e⟩)
      · exact .inr (.inr ⟨u, x, by rw [e4, if_neg hu]; exact hx, e⟩)

/-- A record gets into memory. -/
theorem Inv.put {s : State} (h : Inv s) {t c n : Nat} {k : List Pc} (hs : s.stack t = .write c n :: k) :
    Inv ({ s with stored := s.stored ++ [(c, n)] }.at t (.set c :: k)) := by
  have hpm : Pc.write c n ∈ s.stack t := by rw [hs]; exact List.mem_cons_self
  have hnd := h.nodup t
  rw [hs, List.map_cons, List.nodup_cons] at hnd
  have back : ∀ u x, x ∈ ({ s with stored := s.stored ++ [(c, n)] }.at t (.set c :: k)).stack u →
      (u = t ∧ x = .set c) ∨ (x ∈ s.stack u ∧ x.call ≠ c) := by
    intro u x hx
    rcases mem_at hx with ⟨hu, hx⟩ | ⟨hu, hx⟩
    · rcases List.mem_cons.1 hx with rfl | hx
      · exact .inl ⟨hu, rfl⟩
      · exact .inr ⟨by rw [hu, hs]; exact List.mem_cons_of_mem _ hx, fun e => hnd.1 (by rw [show (Pc.write c n).call = x.call from e.symm]; exact List.mem_map_of_mem hx)⟩
    · exact .inr ⟨hx, fun e => hu (h.uniq u t x _ hx hpm e).1⟩
  obtain ⟨b1, b2, b3, _⟩ := h.pend t _ hpm
  have b3 := b3 trivial
  have hmap : (s.stored ++ [(c, n)]).map Prod.fst = s.stored.map Prod.fst ++ [c] := by simp
  refine ⟨?_, h.dropN, ?_, ?_, h.drp, ?_, ?_, ?_, ?_, ?_⟩
  · show ((s.stored ++ [(c, n)]).map Prod.fst).Nodup
    rw [hmap, List.nodup_append]
    refine ⟨h.stoN, by simp, fun a ha b hb => ?_⟩
    rw [List.mem_singleton.1 hb]
    exact fun e => b3 (by show c ∈ _; rw [← e]; exact ha)
  · intro d hd
    show d ∉ (s.stored ++ [(c, n)]).map Prod.fst
    rw [hmap]
    intro hm
    rcases List.mem_append.1 hm with hm | hm
    · exact h.apart d hd hm
    · rw [List.mem_singleton.1 hm] at hd; exact b2 hd
  · intro d hd
    have hd : d ∈ (s.stored ++ [(c, n)]).map Prod.fst := hd
    rw [hmap] at hd
    rcases List.mem_append.1 hd with hd | hd
    · exact h.sto d hd
    · rw [List.mem_singleton.1 hd]; exact b1
  · intro u x hx
    show x.call < s.calls ∧ x.call ∉ s.dropped ∧ (x.pending → x.call ∉ (s.stored ++ [(c, n)]).map Prod.fst) ∧ (¬ x.pending → x.call ∈ (s.stored ++ [(c, n)]).map Prod.fst)
    rw [hmap]
    rcases back u x hx with ⟨_, rfl⟩ | ⟨hx, hne⟩
    · refine ⟨b1, b2, fun hh => absurd hh (fun g => g), fun _ => List.mem_append_right _ (List.mem_singleton.2 rfl)⟩
    · obtain ⟨a1, a2, a3, a4⟩ := h.pend u x hx
      refine ⟨a1, a2, fun hh hm => ?_, fun hh => List.mem_append_left _ (a4 hh)⟩
      rcases List.mem_append.1 hm with hm | hm
      · exact a3 hh hm
      · exact hne (List.mem_singleton.1 hm)
  · intro u v x z hx hz e
    rcases back u x hx with ⟨h1, rfl⟩ | ⟨hx, hne⟩
    · rcases back v z hz with ⟨h2, rfl⟩ | ⟨hz, hne'⟩
      · exact ⟨h1.trans h2.symm, rfl⟩
      · exact absurd e.symm hne'
    · rcases back v z hz with ⟨h2, rfl⟩ | ⟨hz, _⟩
      · exact absurd e hne
      · exact h.uniq u v x z hx hz e
  · intro u
    rw [at_stack]
    split
    · rw [List.map_cons, List.nodup_cons]; exact hnd
    · exact h.nodup u
  · intro d hd
    show d ∈ (s.stored ++ [(c, n)]).map Prod.fst ∨ _
    rw [hmap]
    rcases h.all d hd with h1 | h1 | ⟨u, x, hx, e⟩
    · exact .inl (List.mem_append_left _ h1)
    · exact .inr (.inl h1)
    · by_cases hx' : x.call = c
      · exact .inl (List.mem_append_right _ (List.mem_singleton.2 (by rw [← e, hx'])))
      · refine .inr (.inr ⟨u, x, ?_, e⟩)
        rw [at_stack]
        split
        · rename_i hu
          rw [hu, hs] at hx
          rcases List.mem_cons.1 hx with rfl | hx
          · exact absurd rfl hx'
          · exact List.mem_cons_of_mem _ hx
        · exact hx
  · intro _
    exact ⟨t, .set c, by rw [at_stack, if_pos rfl]; exact List.mem_cons_self, trivial⟩

/-- A thread in a record other than the one that moves stays there. -/
theorem flag_other {s s' : State} (h : Inv s) {t : Nat} {p : Pc} {k l : List Pc} (hs : s.stack t = p :: k) (hp : ¬ p.writing)
    (e4 : ∀ u, s'.stack u = if u = t then l else s.stack u) (hk : ∀ x ∈ k, x ∈ l) (he : s.enabled = false) : ∃ t p, p ∈ s'.stack t ∧ p.writing := by
  obtain ⟨u, x, hx, hw⟩ := h.flag he
  by_cases hu : u = t
  · rw [hu, hs] at hx
    rcases List.mem_cons.1 hx with rfl | hx
    · exact absurd hw hp
    · exact ⟨t, x, by rw [e4, if_pos rfl]; exact hk x hx, hw⟩
  · exact ⟨u, x, by rw [e4, if_neg hu]; exact hx, hw⟩

theorem Inv.step {s s' : State} (h : Inv s) {o : Op} (hs : step s o = some s') : Inv s' := by
  cases o with
  | call t =>
    simp only [TxConc.step] at hs
    split at hs
    · rename_i e; cases hs; exact h.new e
    · rename_i e; cases hs; exact h.new e
    · cases hs
  | go t =>
    simp only [TxConc.step] at hs
    split at hs
    · cases hs
    · rename_i c k e
      split at hs
      · rename_i he
        cases hs
        exact h.move (q := .load c) e rfl trivial trivial rfl rfl rfl (fun _ => rfl) (fun hf => absurd (he.symm.trans hf) nofun)
      · rename_i he
        cases hs
        exact h.leave e rfl rfl (fun _ => rfl) (.inl ⟨trivial, rfl⟩)
          (fun hf => flag_other h e (fun g => g) (fun _ => rfl) (fun _ hx => hx) hf)
    · rename_i c k e
      cases hs
      exact h.move (q := .store c s.index) e rfl trivial trivial rfl rfl rfl (fun _ => rfl)
        (fun hf => flag_other h e (fun g => g) (fun _ => rfl) (fun _ hx => List.mem_cons_of_mem _ hx) hf)
    · rename_i c v k e
      cases hs
      exact h.move (q := .clear c v) e rfl trivial trivial rfl rfl rfl (fun _ => rfl)
        (fun hf => flag_other h e (fun g => g) (fun _ => rfl) (fun _ hx => List.mem_cons_of_mem _ hx) hf)
    · rename_i c n k e
      cases hs
      exact h.move (q := .write c n) e rfl trivial trivial rfl rfl rfl (fun _ => rfl)
        (fun _ => ⟨t, .write c n, by rw [at_stack, if_pos rfl]; exact List.mem_cons_self, trivial⟩)
    · rename_i c n k e
      cases hs
      exact h.put e
    · rename_i c k e
      cases hs
      exact h.leave e rfl rfl (fun _ => rfl) (.inr ⟨fun g => g, rfl⟩) (fun hf => absurd hf nofun)

theorem Inv.run {ops : List Op} : ∀ {s s' : State}, Inv s → run s ops = some s' → Inv s' := by
  induction ops with
  | nil => intro s s' h e; cases e; exact h
  | cons o os ih =>
    intro s s' h e
    simp only [TxConc.run] at e
    cases h1 : TxConc.step s o with
    | none => rw [h1] at e; cases e
    | some x =>
      rw [h1] at e
      exact ih (h.step h1) e

/-- **C127:** however the threads are preempted, no message is stored twice and none is both
stored and dropped; when all calls have returned, each is one or the other, and messages are
taken again. -/
theorem C127_once {ops : List Op} {s : State} (h : run start ops = some s) :
    (s.stored.map Prod.fst).Nodup ∧ (∀ c ∈ s.dropped, c ∉ s.stored.map Prod.fst) ∧
    (Quiet s → s.enabled = true ∧ ∀ c, c < s.calls ↔ c ∈ s.stored.map Prod.fst ∨ c ∈ s.dropped) := by
  have hi := Inv.start.run h
  refine ⟨hi.stoN, hi.apart, fun hq => ⟨?_, fun c => ⟨fun hc => ?_, fun hc => ?_⟩⟩⟩
  · cases he : s.enabled with
    | true => rfl
    | false =>
      obtain ⟨t, p, hp, _⟩ := hi.flag he
      rw [hq t] at hp
      cases hp
  · rcases hi.all c hc with h1 | h1 | ⟨t, p, hp, _⟩
    · exact .inl h1
    · exact .inr h1
    · rw [hq t] at hp; cases hp
  · exact hc.elim (hi.sto c) (hi.drp c)

/-- **C127:** a message is dropped only while a record is being written, by another thread or
by the same one. -/
theorem C127_dropped {ops : List Op} {s s' : State} (h : run start ops = some s) {o : Op} (hs : step s o = some s')
    (hd : s'.dropped ≠ s.dropped) : ∃ t p, p ∈ s.stack t ∧ p.writing := by
  have hi := Inv.start.run h
  refine hi.flag ?_
  cases he : s.enabled with
  | false => rfl
  | true =>
    refine absurd ?_ hd
    cases o with
    | call t => simp only [step] at hs; split at hs <;> cases hs <;> rfl
    | go t =>
      simp only [step, he, if_true] at hs
      split at hs <;> cases hs <;> rfl

/-- How many steps a thread is from returning. -/
def left : List Pc → Nat
  | [] => 0
  | .test _ :: k => 6 + left k
  | .load _ :: k => 5 + left k
  | .store _ _ :: k => 4 + left k
  | .clear _ _ :: k => 3 + left k
  | .write _ _ :: k => 2 + left k
  | .set _ :: k => 1 + left k

theorem go_left (s : State) (t : Nat) (h : s.stack t ≠ []) : ∃ s', step s (.go t) = some s' ∧ left (s'.stack t) < left (s.stack t) := by
  have ht : ∀ (x : State) k, (x.at t k).stack t = k := fun x k => by rw [at_stack, if_pos rfl]
  simp only [step]
  split
  · exact absurd ‹_› h
  · split
    · exact ⟨_, rfl, by rw [ht]; simp [*, left]⟩
    · exact ⟨_, rfl, by rw [ht]; simp only [*, left]; omega⟩
  all_goals exact ⟨_, rfl, by rw [ht]; simp only [*, left]; omega⟩

theorem left_le : ∀ k : List Pc, left k ≤ 6 * k.length
  | [] => Nat.le_refl _
  | p :: k => by have := left_le k; cases p <;> simp only [left, List.length_cons] <;> omega

/-- **C127:** nothing waits: whatever the others do, a thread that is in a call can go on, and
its call and those it is nested in have returned after at most six steps of the thread each. -/
theorem C127_ends (s : State) (t : Nat) :
    (s.stack t ≠ [] → ∃ s', step s (.go t) = some s') ∧
    (∀ o s', step s o = some s' → o.thread ≠ t → s'.stack t = s.stack t) ∧
    ∃ n s', n ≤ 6 * (s.stack t).length ∧ run s (List.replicate n (.go t)) = some s' ∧ s'.stack t = [] := by
  refine ⟨fun h => (go_left s t h).imp fun _ h => h.1, fun o s' hs hne => ?_, ?_⟩
  · have hat : ∀ (x : State) u k, u ≠ t → (x.at u k).stack t = x.stack t := fun x u k hu => by
      rw [at_stack, if_neg (fun e => hu e.symm)]
    cases o with
    | call u => simp only [step] at hs; split at hs <;> cases hs <;> exact hat _ _ _ hne
    | go u =>
      simp only [step] at hs
      repeat' split at hs
      all_goals cases hs
      all_goals exact hat _ _ _ hne
  · have key : ∀ m (s : State), left (s.stack t) ≤ m → ∃ n s', n ≤ left (s.stack t) ∧ run s (List.replicate n (.go t)) = some s' ∧ s'.stack t = [] := by
      intro m
      induction m with
      | zero =>
        intro s hm
        refine ⟨0, s, Nat.zero_le _, rfl, ?_⟩
        cases hk : s.stack t with
        | nil => rfl
        | cons p k => rw [hk] at hm; cases p <;> simp only [left] at hm <;> omega
      | succ m ih =>
        intro s hm
        by_cases hk : s.stack t = []
        · exact ⟨0, s, Nat.zero_le _, rfl, hk⟩
        · obtain ⟨s1, h1, h2⟩ := go_left s t hk
          obtain ⟨n, s2, h3, h4, h5⟩ := ih s1 (by omega)
          refine ⟨n + 1, s2, by omega, ?_, h5⟩
          rw [List.replicate_succ]
          simp only [run, h1, Option.bind_some]
          exact h4
    obtain ⟨n, s', h1, h2, h3⟩ := key _ s (Nat.le_refl _)
    exact ⟨n, s', Nat.le_trans h1 (left_le _), h2, h3⟩

/-! ## The numbers -/

/-- A call with a number. -/
def Pc.numbered (c n : Nat) : Pc → Prop
  | .store d m => d = c ∧ m = n
  | .clear d m => d = c ∧ m = n
  | .write d m => d = c ∧ m = n
  | _ => False

/-- A call without one. -/
def Pc.fresh : Pc → Prop
  | .test _ => True
  | .load _ => True
  | _ => False

/-- What holds of the numbers; `H` are the calls in the order in which they loaded `index`,
with what they loaded. -/
structure Num (s : State) (H : List (Nat × Nat)) : Prop where
  shape : ∀ t p k, s.stack t = p :: k → ∀ x ∈ k, ∃ c n, x = .write c n
  vals : H.map Prod.snd = (List.range H.length).map fun i => (1 + i) % 65536
  nod : (H.map Prod.fst).Nodup
  idx : (∀ t p, p ∈ s.stack t → ¬ p.counting) → s.index = (1 + H.length) % 65536
  cnt : ∀ t c v, .store c v ∈ s.stack t → v = H.length % 65536
  has : ∀ t p c n, p ∈ s.stack t → p.numbered c n → (c, n) ∈ H
  sto : ∀ x ∈ s.stored, x ∈ H
  fresh : ∀ t p, p ∈ s.stack t → p.fresh → p.call ∉ H.map Prod.fst
  old : ∀ c ∈ H.map Prod.fst, c < s.calls
  drp : ∀ c ∈ s.dropped, c ∉ H.map Prod.fst

/-- At most one thread is in `index++`. -/
def One (s : State) : Prop := ∀ t u p q, p ∈ s.stack t → q ∈ s.stack u → p.counting → q.counting → t = u

theorem counting_top {s : State} {H : List (Nat × Nat)} (h : Num s H) {t : Nat} {p : Pc} {k : List Pc} (e : s.stack t = p :: k) :
    ∀ x ∈ k, ¬ x.counting := by
  intro x hx
  obtain ⟨c, n, rfl⟩ := h.shape t p k e x hx
  exact fun g => g

/-- Steps that do not load. -/
theorem Num.keep {s s' : State} {H : List (Nat × Nat)} (h : Num s H) {t : Nat} {k l : List Pc} (ek : s.stack t = k)
    (e4 : ∀ u, s'.stack u = if u = t then l else s.stack u)
    (hshape : ∀ p r, l = p :: r → ∀ x ∈ r, ∃ c n, x = .write c n)
    (hidx : (∀ u p, p ∈ s'.stack u → ¬ p.counting) → s'.index = (1 + H.length) % 65536)
    (hcnt : ∀ c v, .store c v ∈ l → .store c v ∈ k)
    (hhas : ∀ p c n, p ∈ l → p.numbered c n → ∃ q, q ∈ k ∧ q.numbered c n)
    (hsto : ∀ x ∈ s'.stored, x ∈ H) (hfresh : ∀ p, p ∈ l → p.fresh → p.call ∉ H.map Prod.fst)
    (hcalls : s.calls ≤ s'.calls) (hdrp : ∀ c ∈ s'.dropped, c ∉ H.map Prod.fst) : Num s' H := by
  refine ⟨?_, h.vals, h.nod, hidx, ?_, ?_, hsto, ?_, fun c hc => Nat.lt_of_lt_of_le (h.old c hc) hcalls, hdrp⟩
  · intro u p r e
    rw [e4] at e
    split at e
    · exact hshape p r e
    · exact h.shape u p r e
  · intro u c v hm
    rw [e4] at hm
    split at hm
    · exact h.cnt t c v (by rw [ek]; exact hcnt c v hm)
    · exact h.cnt u c v hm
  · intro u p c n hm hn
    rw [e4] at hm
    split at hm
    · obtain ⟨q, hq, hn'⟩ := hhas p c n hm hn
      exact h.has t q c n (by rw [ek]; exact hq) hn'
    · exact h.has u p c n hm hn
  · intro u p hm hf
    rw [e4] at hm
    split at hm
    · exact hfresh p hm hf
    · exact h.fresh u p hm hf

theorem Num.step {s s' : State} {H : List (Nat × Nat)} (hi : Inv s) (h : Num s H) {o : Op} (hs : step s o = some s') (ho : One s') :
    ∃ H', Num s' H' := by
  have quiet : ∀ {t : Nat} {p : Pc} {k : List Pc} {l : List Pc} {s' : State}, s.stack t = p :: k → ¬ p.counting →
      (∀ u, s'.stack u = if u = t then l else s.stack u) → (∀ u p, p ∈ s'.stack u → ¬ p.counting) → ∀ u p, p ∈ s.stack u → ¬ p.counting := by
    intro t p k l s' e hp e4 hq u x hx
    by_cases hu : u = t
    · rw [hu, e] at hx
      rcases List.mem_cons.1 hx with rfl | hx
      · exact hp
      · exact counting_top h e x hx
    · exact hq u x (by rw [e4, if_neg hu]; exact hx)
  cases o with
  | call t =>
    have key : ∀ k, s.stack t = k → (∀ x ∈ k, ∃ c n, x = .write c n) → Num ({ s with calls := s.calls + 1 }.at t (.test s.calls :: k)) H := by
      intro k e hk
      refine h.keep e (fun _ => rfl) ?_ ?_ ?_ ?_ h.sto ?_ (Nat.le_succ _) h.drp
      · intro p r e'; cases e'; exact hk
      · intro hq
        refine h.idx fun u x hx => ?_
        by_cases hu : u = t
        · rw [hu, e] at hx
          obtain ⟨c, n, rfl⟩ := hk x hx
          exact fun g => g
        · exact hq u x (by rw [at_stack, if_neg hu]; exact hx)
      · intro c v hm
        rcases List.mem_cons.1 hm with hm | hm
        · cases hm
        · exact hm
      · intro p c n hm hn
        rcases List.mem_cons.1 hm with rfl | hm
        · exact absurd hn (fun g => g)
        · exact ⟨p, hm, hn⟩
      · intro p hm hf
        rcases List.mem_cons.1 hm with rfl | hm
        · exact fun hc => Nat.lt_irrefl _ (h.old _ hc)
        · obtain ⟨c, n, rfl⟩ := hk p hm
          exact absurd hf (fun g => g)
    simp only [TxConc.step] at hs
    split at hs
    · rename_i e
      cases hs
      exact ⟨H, key [] e nofun⟩
    · rename_i c n k e
      cases hs
      refine ⟨H, key _ e fun x hx => ?_⟩
      rcases List.mem_cons.1 hx with rfl | hx
      · exact ⟨c, n, rfl⟩
      · exact h.shape t _ k e x hx
    · cases hs
  | go t =>
    have fr : ∀ {p : Pc} {k : List Pc}, s.stack t = p :: k → p.fresh → ∀ x, x ∈ p :: k → x.fresh → x.call ∉ H.map Prod.fst := by
      intro p k e _ x hx hf
      exact h.fresh t x (by rw [e]; exact hx) hf
    simp only [TxConc.step] at hs
    split at hs
    · cases hs
    · rename_i c k e
      have hk := h.shape t _ k e
      split at hs
      · cases hs
        refine ⟨H, h.keep e (l := .load c :: k) (fun _ => rfl) ?_ ?_ ?_ ?_ h.sto ?_ (Nat.le_refl _) h.drp⟩
        · intro p r e'; cases e'; exact hk
        · exact fun hq => h.idx (quiet e (fun g => g) (fun u => at_stack s t (.load c :: k) u) hq)
        · intro d v hm
          rcases List.mem_cons.1 hm with hm | hm
          · cases hm
          · exact List.mem_cons_of_mem _ hm
        · intro p d n hm hn
          rcases List.mem_cons.1 hm with rfl | hm
          · exact absurd hn (fun g => g)
          · exact ⟨p, List.mem_cons_of_mem _ hm, hn⟩
        · intro p hm hf
          rcases List.mem_cons.1 hm with rfl | hm
          · exact fr e trivial (.test c) List.mem_cons_self trivial
          · exact fr e trivial p (List.mem_cons_of_mem _ hm) hf
      · cases hs
        refine ⟨H, h.keep e (l := k) (fun _ => rfl) ?_ ?_ ?_ ?_ h.sto ?_ (Nat.le_refl _) ?_⟩
        · intro p r e'; rw [e'] at hk; exact fun x hx => hk x (List.mem_cons_of_mem _ hx)
        · exact fun hq => h.idx (quiet e (fun g => g) (fun u => at_stack { s with dropped := s.dropped ++ [c] } t k u) hq)
        · exact fun d v hm => List.mem_cons_of_mem _ hm
        · exact fun p d n hm hn => ⟨p, List.mem_cons_of_mem _ hm, hn⟩
        · exact fun p hm hf => fr e trivial p (List.mem_cons_of_mem _ hm) hf
        · intro d hd
          rcases List.mem_append.1 hd with hd | hd
          · exact h.drp d hd
          · rw [List.mem_singleton.1 hd]
            exact fr e trivial (.test c) List.mem_cons_self trivial
    · rename_i c k e
      have hk := h.shape t _ k e
      cases hs
      -- the load
      have hno : ∀ u p, p ∈ s.stack u → ¬ p.counting := by
        intro u p hp hc
        by_cases hu : u = t
        · rw [hu, e] at hp
          rcases List.mem_cons.1 hp with rfl | hp
          · exact hc
          · exact counting_top h e p hp hc
        · exact hu (ho u t p (.store c s.index) (by rw [at_stack, if_neg hu]; exact hp) (by rw [at_stack, if_pos rfl]; exact List.mem_cons_self) hc trivial)
      have hx := h.idx hno
      have hfresh : c ∉ H.map Prod.fst := fr e trivial (.load c) List.mem_cons_self trivial
      obtain ⟨a1, a2, _, _⟩ := hi.pend t (.load c) (by rw [e]; exact List.mem_cons_self)
      refine ⟨H ++ [(c, s.index)], ?_, ?_, ?_, ?_, ?_, ?_, ?_, ?_, ?_, ?_⟩
      · intro u p r e'
        rw [at_stack] at e'
        split at e'
        · cases e'; exact hk
        · exact h.shape u p r e'
      · rw [List.map_append, h.vals, List.length_append, List.length_singleton, List.range_succ, List.map_append, List.map_singleton, List.map_singleton, hx]
      · rw [List.map_append, List.nodup_append]
        refine ⟨h.nod, by simp, fun a ha b hb => ?_⟩
        simp at hb
        exact fun e => hfresh (by rw [← hb, ← e]; exact ha)
      · intro hq
        exact absurd trivial (hq t (.store c s.index) (by rw [at_stack, if_pos rfl]; exact List.mem_cons_self))
      · intro u d v hm
        rw [List.length_append, List.length_singleton, Nat.add_comm, ← hx]
        rcases mem_at hm with ⟨_, hm⟩ | ⟨_, hm⟩
        · rcases List.mem_cons.1 hm with hm | hm
          · cases hm; rfl
          · obtain ⟨_, _, e'⟩ := hk _ hm
            cases e'
        · exact absurd trivial (hno u _ hm)
      · intro u p d n hm hn
        rcases mem_at hm with ⟨_, hm⟩ | ⟨_, hm⟩
        · rcases List.mem_cons.1 hm with rfl | hm
          · obtain ⟨rfl, rfl⟩ := hn
            exact List.mem_append_right _ (List.mem_singleton.2 rfl)
          · exact List.mem_append_left _ (h.has t p d n (by rw [e]; exact List.mem_cons_of_mem _ hm) hn)
        · exact List.mem_append_left _ (h.has u p d n hm hn)
      · exact fun x hx => List.mem_append_left _ (h.sto x hx)
      · intro u p hm hf
        rw [List.map_append]
        intro hmem
        rcases mem_at hm with ⟨_, hm⟩ | ⟨hu, hm⟩
        · rcases List.mem_cons.1 hm with rfl | hm
          · exact hf
          · obtain ⟨_, _, rfl⟩ := hk p hm
            exact hf
        · rcases List.mem_append.1 hmem with hmem | hmem
          · exact h.fresh u p hm hf hmem
          · simp at hmem
            exact hu (hi.uniq u t p (.load c) hm (by rw [e]; exact List.mem_cons_self) hmem).1
      · intro d hd
        rw [List.map_append] at hd
        rcases List.mem_append.1 hd with hd | hd
        · exact h.old d hd
        · simp at hd; rw [hd]; exact a1
      · intro d hd hm
        rw [List.map_append] at hm
        rcases List.mem_append.1 hm with hm | hm
        · exact h.drp d hd hm
        · simp at hm; rw [hm] at hd; exact a2 hd
    · rename_i c v k e
      have hk := h.shape t _ k e
      cases hs
      have hv := h.cnt t c v (by rw [e]; exact List.mem_cons_self)
      refine ⟨H, h.keep e (l := .clear c v :: k) (fun _ => rfl) ?_ ?_ ?_ ?_ h.sto ?_ (Nat.le_refl _) h.drp⟩
      · intro p r e'; cases e'; exact hk
      · intro _
        show (v + 1) % 65536 = _
        omega
      · intro d w hm
        rcases List.mem_cons.1 hm with hm | hm
        · cases hm
        · exact List.mem_cons_of_mem _ hm
      · intro p d n hm hn
        rcases List.mem_cons.1 hm with rfl | hm
        · exact ⟨_, List.mem_cons_self, hn⟩
        · exact ⟨p, List.mem_cons_of_mem _ hm, hn⟩
      · intro p hm hf
        rcases List.mem_cons.1 hm with rfl | hm
        · exact absurd hf (fun g => g)
        · exact h.fresh t p (by rw [e]; exact List.mem_cons_of_mem _ hm) hf
    · rename_i c n k e
      have hk := h.shape t _ k e
      cases hs
      refine ⟨H, h.keep e (l := .write c n :: k) (fun _ => rfl) ?_ ?_ ?_ ?_ h.sto ?_ (Nat.le_refl _) h.drp⟩
      · intro p r e'; cases e'; exact hk
      · exact fun hq => h.idx (quiet e (fun g => g) (fun u => at_stack { s with enabled := false } t (.write c n :: k) u) hq)
      · intro d w hm
        rcases List.mem_cons.1 hm with hm | hm
        · cases hm
        · exact List.mem_cons_of_mem _ hm
      · intro p d n hm hn
        rcases List.mem_cons.1 hm with rfl | hm
        · exact ⟨_, List.mem_cons_self, hn⟩
        · exact ⟨p, List.mem_cons_of_mem _ hm, hn⟩
      · intro p hm hf
        rcases List.mem_cons.1 hm with rfl | hm
        · exact absurd hf (fun g => g)
        · exact h.fresh t p (by rw [e]; exact List.mem_cons_of_mem _ hm) hf
    · rename_i c n k e
      have hk := h.shape t _ k e
      cases hs
      refine ⟨H, h.keep e (l := .set c :: k) (fun _ => rfl) ?_ ?_ ?_ ?_ ?_ ?_ (Nat.le_refl _) h.drp⟩
      · intro p r e'; cases e'; exact hk
      · exact fun hq => h.idx (quiet e (fun g => g) (fun u => at_stack { s with stored := s.stored ++ [(c, n)] } t (.set c :: k) u) hq)
      · intro d w hm
        rcases List.mem_cons.1 hm with hm | hm
        · cases hm
        · exact List.mem_cons_of_mem _ hm
      · intro p d n hm hn
        rcases List.mem_cons.1 hm with rfl | hm
        · exact absurd hn (fun g => g)
        · exact ⟨p, List.mem_cons_of_mem _ hm, hn⟩
      · intro x hx
        rcases List.mem_append.1 hx with hx | hx
        · exact h.sto x hx
        · rw [List.mem_singleton.1 hx]
          exact h.has t (.write c n) c n (by rw [e]; exact List.mem_cons_self) ⟨rfl, rfl⟩
      · intro p hm hf
        rcases List.mem_cons.1 hm with rfl | hm
        · exact absurd hf (fun g => g)
        · exact h.fresh t p (by rw [e]; exact List.mem_cons_of_mem _ hm) hf
    · rename_i c k e
      have hk := h.shape t _ k e
      cases hs
      refine ⟨H, h.keep e (l := k) (fun _ => rfl) ?_ ?_ ?_ ?_ h.sto ?_ (Nat.le_refl _) h.drp⟩
      · intro p r e'; rw [e'] at hk; exact fun x hx => hk x (List.mem_cons_of_mem _ hx)
      · exact fun hq => h.idx (quiet e (fun g => g) (fun u => at_stack { s with enabled := true } t k u) hq)
      · exact fun d v hm => List.mem_cons_of_mem _ hm
      · exact fun p d n hm hn => ⟨p, List.mem_cons_of_mem _ hm, hn⟩
      · exact fun p hm hf => h.fresh t p (by rw [e]; exact List.mem_cons_of_mem _ hm) hf

theorem Num.run {ops : List Op} : ∀ {s s' : State} {H : List (Nat × Nat)}, Inv s → Num s H → OneCounts s ops → run s ops = some s' → ∃ H', Num s' H' := by
  induction ops with
  | nil => intro s s' H _ h _ e; cases e; exact ⟨H, h⟩
  | cons o os ih =>
    intro s s' H hi h ho e
    simp only [TxConc.run] at e
    cases h1 : TxConc.step s o with
    | none => rw [h1] at e; cases e
    | some x =>
      rw [h1] at e
      have hx := ho.2 x h1
      have h1x : One x := by
        cases os with
        | nil => exact hx
        | cons _ _ => exact hx.1
      obtain ⟨H', hn⟩ := Num.step hi h h1 h1x
      exact ih (hi.step h1) hn hx e

/-- **C127:** if no two threads are in `index++` at the same time, then the records of calls
that have all returned have the numbers 1, 2, 3, … modulo 65536, each once; only
the order in memory may differ. -/
theorem C127_numbers {ops : List Op} {s : State} (h : run start ops = some s) (ho : OneCounts start ops) (hq : Quiet s) :
    (s.stored.map Prod.snd).Perm ((List.range s.stored.length).map fun i => (1 + i) % 65536) := by
  have h0 : Num start [] := by constructor <;> simp [start]
  obtain ⟨H, hn⟩ := Num.run Inv.start h0 ho h
  obtain ⟨c1, _, c3⟩ := C127_once h
  have hnd : ∀ l : List (Nat × Nat), (l.map Prod.fst).Nodup → l.Nodup := fun l hl => List.Pairwise.of_map Prod.fst (fun a b h e => h (congrArg _ e)) hl
  have hp : s.stored.Perm H := by
    refine (List.perm_ext_iff_of_nodup (hnd _ c1) (hnd _ hn.nod)).2 fun x => ⟨hn.sto x, fun hx => ?_⟩
    have hxf : x.1 ∈ H.map Prod.fst := List.mem_map_of_mem hx
    rcases ((c3 hq).2 x.1).1 (hn.old _ hxf) with h1 | h1
    · obtain ⟨y, hy, e⟩ := List.mem_map.1 h1
      have hyH := hn.sto y hy
      have : y = x := by
        have key : ∀ l : List (Nat × Nat), (l.map Prod.fst).Nodup → ∀ a ∈ l, ∀ b ∈ l, a.1 = b.1 → a = b := by
          intro l
          induction l with
          | nil => intro _ a ha; cases ha
          | cons z l ih =>
            intro hl a ha b hb e
            rw [List.map_cons, List.nodup_cons] at hl
            rcases List.mem_cons.1 ha with rfl | ha'
            · rcases List.mem_cons.1 hb with rfl | hb
              · rfl
              · have := List.mem_map_of_mem (f := Prod.fst) hb
                rw [← e] at this
                exact absurd this hl.1
            · rcases List.mem_cons.1 hb with rfl | hb'
              · have := List.mem_map_of_mem (f := Prod.fst) ha'
                rw [e] at this
                exact absurd this hl.1
              · exact ih hl.2 a ha' b hb' e
        exact key H hn.nod y hyH x hx e
      rw [← this]; exact hy
    · exact absurd hxf (hn.drp _ h1)
  have := hp.map Prod.snd
  rw [hn.vals, ← hp.length_eq] at this
  exact this

/-! ## One thread alone -/

structure Alone (t : Nat) (s : State) : Prop where
  sorted : (s.stored.map Prod.fst).Pairwise (· < ·)
  vals : s.stored.map Prod.snd = (List.range s.stored.length).map fun i => (1 + i) % 65536
  old : ∀ c ∈ s.stored.map Prod.fst, c < s.calls
  at_ : (s.stack t = [] ∧ s.enabled = true ∧ s.index = (1 + s.stored.length) % 65536) ∨
    (∃ c, (∀ d ∈ s.stored.map Prod.fst, d < c) ∧ c < s.calls ∧
      ((s.stack t = [.test c] ∧ s.enabled = true ∧ s.index = (1 + s.stored.length) % 65536) ∨
       (s.stack t = [.load c] ∧ s.enabled = true ∧ s.index = (1 + s.stored.length) % 65536) ∨
       (s.stack t = [.store c ((1 + s.stored.length) % 65536)] ∧ s.enabled = true) ∨
       (s.stack t = [.clear c ((1 + s.stored.length) % 65536)] ∧ s.enabled = true ∧ s.index = (2 + s.stored.length) % 65536) ∨
       (s.stack t = [.write c ((1 + s.stored.length) % 65536)] ∧ s.enabled = false ∧ s.index = (2 + s.stored.length) % 65536) ∨
       (∃ d, s.stack t = [.test d, .write c ((1 + s.stored.length) % 65536)] ∧ s.enabled = false ∧ s.index = (2 + s.stored.length) % 65536))) ∨
    (∃ c, s.stack t = [.set c] ∧ s.enabled = false ∧ s.index = (1 + s.stored.length) % 65536)

theorem at_self (s : State) (t : Nat) (k : List Pc) : (s.at t k).stack t = k := by rw [at_stack, if_pos rfl]

theorem Alone.step {t : Nat} {s s' : State} (h : Alone t s) {o : Op} (ho : o.thread = t) (hs : step s o = some s') : Alone t s' := by
  obtain ⟨h1, h2, h3, h4⟩ := h
  cases o with
  | call u =>
    obtain rfl : u = t := ho
    have old' : ∀ c ∈ s.stored.map Prod.fst, c < s.calls + 1 := fun c hc => Nat.lt_succ_of_lt (h3 c hc)
    rcases h4 with ⟨e, en, ix⟩ | ⟨c, hc, hc', h4⟩ | ⟨c, e, en, ix⟩
    · simp only [TxConc.step, e] at hs
      cases hs
      exact ⟨h1, h2, old', .inr (.inl ⟨s.calls, h3, Nat.lt_succ_self _, .inl ⟨at_self _ _ _, en, ix⟩⟩)⟩
    · rcases h4 with ⟨e, _⟩ | ⟨e, _⟩ | ⟨e, _⟩ | ⟨e, _⟩ | ⟨e, en, ix⟩ | ⟨d, e, _⟩
      case inr.inr.inr.inr.inl =>
        simp only [TxConc.step, e] at hs
        cases hs
        exact ⟨h1, h2, old', .inr (.inl ⟨c, hc, Nat.lt_succ_of_lt hc', .inr (.inr (.inr (.inr (.inr ⟨s.calls, at_self _ _ _, en, ix⟩))))⟩)⟩
      all_goals (simp only [TxConc.step, e] at hs; cases hs)
    · simp only [TxConc.step, e] at hs
      cases hs
  | go u =>
    obtain rfl : u = t := ho
    rcases h4 with ⟨e, en, ix⟩ | ⟨c, hc, hc', h4⟩ | ⟨c, e, en, ix⟩
    · simp only [TxConc.step, e] at hs
      cases hs
    · rcases h4 with ⟨e, en, ix⟩ | ⟨e, en, ix⟩ | ⟨e, en⟩ | ⟨e, en, ix⟩ | ⟨e, en, ix⟩ | ⟨d, e, en, ix⟩
      · simp only [TxConc.step, e, en, if_true] at hs
        cases hs
        exact ⟨h1, h2, h3, .inr (.inl ⟨c, hc, hc', .inr (.inl ⟨at_self _ _ _, en, ix⟩)⟩)⟩
      · simp only [TxConc.step, e, ix] at hs
        cases hs
        exact ⟨h1, h2, h3, .inr (.inl ⟨c, hc, hc', .inr (.inr (.inl ⟨at_self _ _ _, en⟩))⟩)⟩
      · simp only [TxConc.step, e] at hs
        cases hs
        refine ⟨h1, h2, h3, .inr (.inl ⟨c, hc, hc', .inr (.inr (.inr (.inl ⟨at_self _ _ _, en, ?_⟩)))⟩)⟩
        show ((1 + s.stored.length) % 65536 + 1) % 65536 = (2 + s.stored.length) % 65536
        omega
      · simp only [TxConc.step, e] at hs
        cases hs
        exact ⟨h1, h2, h3, .inr (.inl ⟨c, hc, hc', .inr (.inr (.inr (.inr (.inl ⟨at_self _ _ _, rfl, ix⟩))))⟩)⟩
      · simp only [TxConc.step, e] at hs
        cases hs
        have hm : (s.stored ++ [(c, (1 + s.stored.length) % 65536)]).map Prod.fst = s.stored.map Prod.fst ++ [c] := by simp
        refine ⟨?_, ?_, ?_, .inr (.inr ⟨c, at_self _ _ _, en, ?_⟩)⟩
        · show ((s.stored ++ [(c, (1 + s.stored.length) % 65536)]).map Prod.fst).Pairwise (· < ·)
          rw [hm, List.pairwise_append]
          refine ⟨h1, by simp, fun a ha b hb => ?_⟩
          rw [List.mem_singleton.1 hb]
          exact hc a ha
        · show (s.stored ++ [(c, (1 + s.stored.length) % 65536)]).map Prod.snd = (List.range (s.stored ++ [(c, (1 + s.stored.length) % 65536)]).length).map _
          rw [List.map_append, h2, List.length_append, List.length_singleton, List.range_succ, List.map_append, List.map_singleton, List.map_singleton]
        · intro d hd
          have hd : d ∈ (s.stored ++ [(c, (1 + s.stored.length) % 65536)]).map Prod.fst := hd
          rw [hm] at hd
          rcases List.mem_append.1 hd with hd | hd
          · exact h3 d hd
          · rw [List.mem_singleton.1 hd]; exact hc'
        · show s.index = (1 + (s.stored ++ [(c, (1 + s.stored.length) % 65536)]).length) % 65536
          rw [List.length_append, List.length_singleton, ix]
          congr 1; omega
      · simp only [TxConc.step, e] at hs
        rw [if_neg (by rw [en]; decide)] at hs
        cases hs
        exact ⟨h1, h2, h3, .inr (.inl ⟨c, hc, hc', .inr (.inr (.inr (.inr (.inl ⟨at_self _ _ _, en, ix⟩))))⟩)⟩
    · simp only [TxConc.step, e] at hs
      cases hs
      exact ⟨h1, h2, h3, .inl ⟨at_self _ _ _, rfl, ix⟩⟩

theorem Alone.run {t : Nat} {ops : List Op} : ∀ {s s' : State}, Alone t s → (∀ o ∈ ops, o.thread = t) → run s ops = some s' → Alone t s' := by
  induction ops with
  | nil => intro s s' h _ e; cases e; exact h
  | cons o os ih =>
    intro s s' h ho e
    simp only [TxConc.run] at e
    cases h1 : TxConc.step s o with
    | none => rw [h1] at e; cases e
    | some x =>
      rw [h1] at e
      exact ih (h.step (ho o List.mem_cons_self) h1) (fun o hm => ho o (List.mem_cons_of_mem _ hm)) e

/-- **C127:** with one thread alone the flag does what it is for: messages come into memory
in the order of the calls, with the numbers 1, 2, 3, …; a call from outside finds the flag
set, a call made while a record is written finds it cleared, and calls are nested at most two
deep. -/
theorem C127_alone {t : Nat} {ops : List Op} {s : State} (h : run start ops = some s) (ho : ∀ o ∈ ops, o.thread = t) :
    (s.stored.map Prod.fst).Pairwise (· < ·) ∧ s.stored.map Prod.snd = (List.range s.stored.length).map (fun i => (1 + i) % 65536) ∧
    (s.stack t = [] → s.enabled = true) ∧ (∀ c, s.stack t = [.test c] → s.enabled = true) ∧
    (∀ c p k, s.stack t = .test c :: p :: k → s.enabled = false) ∧ (s.stack t).length ≤ 2 := by
  have h0 : Alone t start := ⟨.nil, rfl, nofun, .inl ⟨rfl, rfl, rfl⟩⟩
  obtain ⟨h1, h2, _, h4⟩ := h0.run ho h
  refine ⟨h1, h2, ?_⟩
  rcases h4 with ⟨e, en, _⟩ | ⟨c, _, _, h4⟩ | ⟨c, e, en, _⟩
  · rw [e]; simp [en]
  · rcases h4 with ⟨e, en, _⟩ | ⟨e, en, _⟩ | ⟨e, en⟩ | ⟨e, en, _⟩ | ⟨e, en, _⟩ | ⟨d, e, en, _⟩ <;> rw [e] <;> simp [en]
  · rw [e]; simp

/-! ## What does not hold -/

theorem run_append (a b : List Op) (s : State) : run s (a ++ b) = (run s a).bind fun s' => run s' b := by
  induction a generalizing s with
  | nil => rfl
  | cons o os ih =>
    simp only [List.cons_append, run]
    cases step s o with
    | none => rfl
    | some x => exact ih x

/-- One message from start to end. -/
def whole (t : Nat) : List Op := .call t :: List.replicate 6 (.go t)

theorem run_whole {s : State} {t : Nat} (h : s.stack t = []) (he : s.enabled = true) :
    ∃ s', run s (whole t) = some s' ∧ s'.enabled = true ∧ s'.index = (s.index + 1) % 65536 ∧ s'.stored = s.stored ++ [(s.calls, s.index)] ∧
      ∀ u, s'.stack u = s.stack u := by
  refine ⟨_, by simp [run, whole, step, h, he, List.replicate, State.at]; rfl, rfl, rfl, rfl, fun u => ?_⟩
  show (if u = t then [] else _) = _
  split
  · rename_i hu; rw [hu, h]
  · rfl

theorem run_wholes (k : Nat) : ∀ {s : State} {t : Nat}, s.stack t = [] → s.enabled = true →
    ∃ s', run s ((List.replicate k (whole t)).flatten) = some s' ∧ s'.enabled = true ∧ s'.index % 65536 = (s.index + k) % 65536 ∧
      s'.stored.map Prod.snd = s.stored.map Prod.snd ++ (List.range k).map (fun i => if i = 0 then s.index else (s.index + i) % 65536) ∧
      ∀ u, s'.stack u = s.stack u := by
  induction k with
  | zero => intro s t _ he; exact ⟨s, rfl, he, rfl, by simp, fun _ => rfl⟩
  | succ k ih =>
    intro s t h he
    obtain ⟨s1, r1, e1, i1, t1, k1⟩ := run_whole h he
    obtain ⟨s2, r2, e2, i2, t2, k2⟩ := ih (s := s1) (t := t) (by rw [k1, h]) e1
    refine ⟨s2, ?_, e2, by rw [i2, i1]; omega, ?_, fun u => by rw [k2, k1]⟩
    · rw [List.replicate_succ, List.flatten_cons, run_append, r1]; exact r2
    · rw [t2, t1, i1, List.range_succ_eq_map]
      simp only [List.map_append, List.map_cons, List.map_nil, List.map_map, List.append_assoc, List.singleton_append, if_true]
      congr 2
      refine List.map_congr_left fun i _ => ?_
      show (if i = 0 then (s.index + 1) % 65536 else ((s.index + 1) % 65536 + i) % 65536) = if i + 1 = 0 then s.index else (s.index + (i + 1)) % 65536
      rw [if_neg (Nat.succ_ne_zero i)]
      split
      · subst_vars; rfl
      · omega

/-- C127 is false of the code without the condition: two records get the same number. -/
theorem C127_false_same : (run start [.call 0, .call 1, .go 0, .go 1, .go 0, .go 1, .go 0, .go 1, .go 0, .go 1, .go 0, .go 1, .go 0, .go 1]).map
    (fun s => (s.stored, s.index, s.enabled)) = some ([(0, 1), (1, 1)], 2, true) := by decide

/-- C127 is false of the code without the condition: a thread preempted in `index++` sets the
numbers back, however many messages another thread has stored meanwhile. -/
theorem C127_false_back (k : Nat) : ∃ ops s, run start ops = some s ∧ Quiet s ∧
    s.stored.map Prod.snd = (List.range k).map (fun i => if i = 0 then 1 else (1 + i) % 65536) ++ [1, 2] := by
  obtain ⟨s1, r1, e1, _, t1, k1⟩ : ∃ s1, run start [.call 0, .go 0, .go 0] = some s1 ∧ s1.enabled = true ∧ s1.index = 1 ∧ s1.stored = [] ∧
      ∀ u, s1.stack u = if u = 0 then [.store 0 1] else [] :=
    ⟨_, rfl, rfl, rfl, rfl, fun u => by simp only [State.at]; split <;> simp [start, *]⟩
  obtain ⟨s2, r2, e2, i2, t2, k2⟩ := run_wholes k (s := s1) (t := 1) (by rw [k1]; rfl) e1
  obtain ⟨s3, r3, e3, i3, t3, k3⟩ : ∃ s3, run s2 [.go 0, .go 0, .go 0, .go 0] = some s3 ∧ s3.enabled = true ∧ s3.index = 2 ∧
      s3.stored = s2.stored ++ [(0, 1)] ∧ ∀ u, s3.stack u = [] := by
    have h0 : s2.stack 0 = [.store 0 1] := by rw [k2, k1]; rfl
    refine ⟨_, by simp [run, step, h0, State.at]; rfl, rfl, rfl, rfl, fun u => ?_⟩
    show (if u = 0 then [] else _) = []
    split
    · rfl
    · rw [k2, k1, if_neg ‹_›]
  obtain ⟨s4, r4, _, _, t4, k4⟩ := run_whole (s := s3) (t := 1) (k3 1) e3
  refine ⟨[.call 0, .go 0, .go 0] ++ ((List.replicate k (whole 1)).flatten ++ ([.go 0, .go 0, .go 0, .go 0] ++ whole 1)), s4, ?_, fun u => by rw [k4, k3], ?_⟩
  · rw [run_append, r1, Option.bind_some, run_append, r2, Option.bind_some, run_append, r3, Option.bind_some, r4]
  · rw [t4, t3, List.map_append, List.map_append, t2, t1, i3]
    simp [‹s1.index = 1›]

/-- C127 is false of the code with two threads: the flag does not keep the writing of a record
from logging. If it prints, a thread can get as deep as one likes. -/
theorem C127_false_nested (d : Nat) : ∃ ops s, run start ops = some s ∧ (s.stack 0).length = d + 1 := by
  have key : ∀ d, ∃ ops s c n k c', run start ops = some s ∧ s.stack 0 = .write c n :: k ∧ k.length = d ∧ s.stack 1 = [.load c'] := by
    intro d
    induction d with
    | zero => exact ⟨[.call 1, .go 1, .call 0, .go 0, .go 0, .go 0, .go 0], _, _, _, _, _, rfl, rfl, rfl, rfl⟩
    | succ d ih =>
      obtain ⟨ops, s, c, n, k, c', r, h0, hk, h1⟩ := ih
      refine ⟨ops ++ [.go 1, .go 1, .go 1, .go 1, .go 1, .call 1, .go 1, .call 0, .go 0, .go 0, .go 0, .go 0], ?_⟩
      rw [run_append, r]
      simp [run, step, h0, h1, State.at]
      exact ⟨_, _, _, ⟨⟨rfl, rfl⟩, rfl⟩, by rw [List.length_cons, hk]⟩
  obtain ⟨ops, s, c, n, k, _, r, h0, hk, _⟩ := key d
  exact ⟨ops, s, r, by rw [h0, List.length_cons, hk]⟩

end Verif.Tools.TxConc
