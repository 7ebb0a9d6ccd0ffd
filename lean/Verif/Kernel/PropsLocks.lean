import Verif.Kernel.Locks
import Verif.Kernel.PropsRegistry

/-!
# No deadlock, and every device is found (C100)
-/
namespace Verif.Kernel
open Verif

/-- A thread takes locks in the order of their numbers and gives all of them back. -/
def LockOrder : List Nat → List LockAct → Prop
  | held, [] => held = []
  | held, .lock l :: p => (∀ h ∈ held, h < l) ∧ LockOrder (l :: held) p
  | held, .unlock l :: p => l ∈ held ∧ LockOrder (held.erase l) p

theorem LockOrder.append : ∀ {p q : List LockAct} {held : List Nat}, LockOrder held p → LockOrder [] q → LockOrder held (p ++ q)
  | [], q, held, h, hq => by
    have : held = [] := h
    subst this; exact hq
  | .lock l :: p, q, held, h, hq => ⟨h.1, LockOrder.append h.2 hq⟩
  | .unlock l :: p, q, held, h, hq => ⟨h.1, LockOrder.append h.2 hq⟩

theorem sections_order (l : Nat) : ∀ (n : Nat) {held : List Nat} {p : List LockAct}, (∀ h ∈ held, h < l) → LockOrder held p →
    LockOrder held (sections l n ++ p)
  | 0, _, _, _, hp => hp
  | n + 1, held, p, hl, hp => by
    refine ⟨hl, by simp, ?_⟩
    rw [List.erase_cons_head]
    exact sections_order l n hl hp

theorem lockOps_order (c : LockCall) : LockOrder [] (lockOps false c) := by
  cases c with
  | openDev d rd =>
    cases rd
    · simp [lockOps, LockOrder]
    · simp only [lockOps, LockOrder, Bool.false_and, Bool.false_eq_true, if_false, if_true, List.append_nil, List.cons_append,
        List.nil_append]
      simp
      show 1 < 2 + d
      omega
  | use d n =>
    have := sections_order (devMutex d) n (held := []) (p := []) (by simp) rfl
    rwa [List.append_nil] at this
  | showLogs => simp [lockOps, LockOrder]
  | addLog register => cases register <;> simp [lockOps, LockOrder]
  | unload n =>
    refine ⟨by simp, by simp, ?_⟩
    refine ⟨by simp, ?_⟩
    refine sections_order miscMtx n (by simp) ?_
    simp [LockOrder]

theorem calls_order : ∀ cs : List LockCall, LockOrder [] (cs.flatMap (lockOps false))
  | [] => rfl
  | c :: cs => by
    rw [List.flatMap_cons]
    exact LockOrder.append (lockOps_order c) (calls_order cs)

/-- Every thread follows the order. -/
def LSys.Ordered (s : LSys) : Prop := ∀ t ∈ s.threads, LockOrder t.1 t.2

theorem LSys.step_ordered {s s' : LSys} {i : Nat} (h : s.step i = some s') (ho : s.Ordered) : s'.Ordered := by
  unfold LSys.step at h
  split at h
  · rename_i held l rest hi
    split at h
    · cases h
    · simp only [Option.some.injEq] at h
      subst h
      intro t ht
      rcases List.mem_or_eq_of_mem_set ht with ht | rfl
      · exact ho t ht
      · exact (ho _ (List.mem_of_getElem? hi)).2
  · rename_i held l rest hi
    simp only [Option.some.injEq] at h
    subst h
    intro t ht
    rcases List.mem_or_eq_of_mem_set ht with ht | rfl
    · exact ho t ht
    · exact (ho _ (List.mem_of_getElem? hi)).2
  · cases h

theorem LReach.ordered {s0 s : LSys} (h : LReach s0 s) (h0 : s0.Ordered) : s.Ordered := by
  induction h with
  | init => exact h0
  | step _ hs ih => exact LSys.step_ordered hs ih

/-- The lock a thread asks for. -/
def wants (t : List Nat × List LockAct) : Nat :=
  match t.2 with
  | .lock l :: _ => l
  | _ => 0

/-- A thread that asks for a lock waits for one with a higher lock, up to one that can go
on. -/
theorem someone {s : LSys} (ho : s.Ordered) {bound : Nat} (hb : ∀ t ∈ s.threads, wants t ≤ bound) :
    ∀ (n : Nat) (t : List Nat × List LockAct), t ∈ s.threads → t.2 ≠ [] → bound - wants t ≤ n → ∃ i s', s.step i = some s' := by
  intro n
  induction n with
  | zero =>
    intro t ht hne hn
    have h1 := hb t ht
    obtain ⟨held, rest⟩ := t
    obtain ⟨i, hi⟩ := List.getElem?_of_mem ht
    cases rest with
    | nil => exact absurd rfl hne
    | cons a rest =>
      cases a with
      | unlock l => exact ⟨i, _, by rw [LSys.step, hi]⟩
      | lock l =>
        by_cases hfree : s.threads.any (fun t => t.1.contains l) = true
        · rw [List.any_eq_true] at hfree
          obtain ⟨u, hu, hl⟩ := hfree
          obtain ⟨uh, ur⟩ := u
          have huo := ho _ hu
          simp only [List.contains_eq_mem, decide_eq_true_eq] at hl
          cases ur with
          | nil =>
            have : uh = [] := huo
            subst this; cases hl
          | cons b ur =>
            cases b with
            | unlock l' =>
              obtain ⟨j, hj⟩ := List.getElem?_of_mem hu
              exact ⟨j, _, by rw [LSys.step, hj]⟩
            | lock l' =>
              have h2 := huo.1 l hl
              have h3 := hb _ hu
              simp only [wants] at h1 hn h3
              omega
        · exact ⟨i, _, by rw [LSys.step, hi]; dsimp only; rw [if_neg hfree]⟩
  | succ n ih =>
    intro t ht hne hn
    have h1 := hb t ht
    obtain ⟨held, rest⟩ := t
    obtain ⟨i, hi⟩ := List.getElem?_of_mem ht
    cases rest with
    | nil => exact absurd rfl hne
    | cons a rest =>
      cases a with
      | unlock l => exact ⟨i, _, by rw [LSys.step, hi]⟩
      | lock l =>
        by_cases hfree : s.threads.any (fun t => t.1.contains l) = true
        · rw [List.any_eq_true] at hfree
          obtain ⟨u, hu, hl⟩ := hfree
          obtain ⟨uh, ur⟩ := u
          have huo := ho _ hu
          simp only [List.contains_eq_mem, decide_eq_true_eq] at hl
          cases ur with
          | nil =>
            have : uh = [] := huo
            subst this; cases hl
          | cons b ur =>
            cases b with
            | unlock l' =>
              obtain ⟨j, hj⟩ := List.getElem?_of_mem hu
              exact ⟨j, _, by rw [LSys.step, hj]⟩
            | lock l' =>
              have h2 := huo.1 l hl
              refine ih _ hu (by simp) ?_
              simp only [wants] at hn ⊢
              omega
        · exact ⟨i, _, by rw [LSys.step, hi]; dsimp only; rw [if_neg hfree]⟩

theorem bound_exists : ∀ ts : List (List Nat × List LockAct), ∃ b, ∀ t ∈ ts, wants t ≤ b
  | [] => ⟨0, by simp⟩
  | t :: ts => by
    obtain ⟨b, hb⟩ := bound_exists ts
    refine ⟨max (wants t) b, fun u hu => ?_⟩
    rcases List.mem_cons.1 hu with rfl | hu
    · omega
    · have := hb u hu; omega

/-- C100: since Linux 2.6.35, whatever the threads call, as long as one of them is inside
the driver, one of them can go on. -/
theorem C100_locks {calls : List (List LockCall)} {s : LSys} (h : LReach (LSys.start false calls) s)
    {t : List Nat × List LockAct} (ht : t ∈ s.threads) (hne : t.2 ≠ []) : ∃ i s', s.step i = some s' := by
  have ho : s.Ordered := by
    refine h.ordered ?_
    intro t ht
    obtain ⟨c, _, rfl⟩ := List.mem_map.1 ht
    exact calls_order c
  obtain ⟨b, hb⟩ := bound_exists s.threads
  exact someone ho hb _ t ht hne (Nat.le_refl _)

/-- What is left to do gets less with every step. -/
def LSys.left (s : LSys) : Nat := (s.threads.map fun t => t.2.length).sum

theorem sum_set : ∀ (ts : List (List Nat × List LockAct)) (i : Nat) (t u : List Nat × List LockAct), ts[i]? = some t →
    ((ts.set i u).map fun t => t.2.length).sum + t.2.length = (ts.map fun t => t.2.length).sum + u.2.length
  | [], i, t, u, h => by simp at h
  | x :: ts, 0, t, u, h => by
    simp only [List.getElem?_cons_zero, Option.some.injEq] at h
    subst h
    simp only [List.set_cons_zero, List.map_cons, List.sum_cons]
    omega
  | x :: ts, i + 1, t, u, h => by
    simp only [List.getElem?_cons_succ] at h
    have := sum_set ts i t u h
    simp only [List.set_cons_succ, List.map_cons, List.sum_cons]
    omega

/-- C100: so every thread comes out of the driver after as many steps as are left. -/
theorem C100_ends {s s' : LSys} {i : Nat} (h : s.step i = some s') : s'.left + 1 = s.left := by
  unfold LSys.step at h
  split at h
  · rename_i held l rest hi
    split at h
    · cases h
    · simp only [Option.some.injEq] at h
      subst h
      have := sum_set s.threads i _ (l :: held, rest) hi
      simp only [List.length_cons] at this
      unfold LSys.left
      dsimp only
      omega
  · rename_i held l rest hi
    simp only [Option.some.injEq] at h
    subst h
    have := sum_set s.threads i _ (held.erase l, rest) hi
    simp only [List.length_cons] at this
    unfold LSys.left
    dsimp only
    omega
  · cases h

/-- Locks exclude each other: no lock is held twice. -/
theorem C100_exclusive {old : Bool} {calls : List (List LockCall)} {s : LSys} (h : LReach (LSys.start old calls) s) {i j : Nat}
    {a b : List Nat × List LockAct} (hi : s.threads[i]? = some a) (hj : s.threads[j]? = some b) (hij : i ≠ j) {l : Nat}
    (ha : l ∈ a.1) : l ∉ b.1 := by
  induction h generalizing i j a b l with
  | init =>
    have := List.mem_of_getElem? hi
    obtain ⟨c, _, rfl⟩ := List.mem_map.1 this
    cases ha
  | @step s s' k _ hs ih =>
    unfold LSys.step at hs
    split at hs
    · rename_i held l' rest hk
      split at hs
      · cases hs
      rename_i hfree
      simp only [Option.some.injEq] at hs
      subst hs
      have hno : ∀ u ∈ s.threads, l' ∉ u.1 := by
        intro u hu hl
        exact hfree (List.any_eq_true.2 ⟨u, hu, by simp [hl]⟩)
      dsimp only at hi hj
      rw [List.getElem?_set] at hi hj
      split at hi
      · subst i
        split at hi
        · simp only [Option.some.injEq] at hi
          subst hi
          rw [if_neg hij] at hj
          rcases List.mem_cons.1 ha with rfl | ha
          · exact hno b (List.mem_of_getElem? hj)
          · exact ih hk hj hij ha
        · cases hi
      · split at hj
        · subst j
          split at hj
          · simp only [Option.some.injEq] at hj
            subst hj
            intro hl
            rcases List.mem_cons.1 hl with rfl | hl
            · exact hno a (List.mem_of_getElem? hi) ha
            · exact ih hi hk hij ha hl
          · cases hj
        · exact ih hi hj hij ha
    · rename_i held l' rest hk
      simp only [Option.some.injEq] at hs
      subst hs
      dsimp only at hi hj
      rw [List.getElem?_set] at hi hj
      split at hi
      · subst i
        split at hi
        · simp only [Option.some.injEq] at hi
          subst hi
          rw [if_neg hij] at hj
          exact ih hk hj hij (List.mem_of_mem_erase ha)
        · cases hi
      · split at hj
        · subst j
          split at hj
          · simp only [Option.some.injEq] at hj
            subst hj
            intro hl
            exact ih hi hk hij ha (List.mem_of_mem_erase hl)
          · cases hj
        · exact ih hi hj hij ha
    · cases hs

/-- A thread that opens a device other than `ulog_main`, and one that adds a device. -/
def twoThreads : List (List LockCall) := [[.openDev 1 true], [.addLog true]]

/-- C100 is false before Linux 2.6.35: each of the two holds the lock the other one needs. -/
theorem C100_false_old : ∃ s, LReach (LSys.start true twoThreads) s ∧ (∀ t ∈ s.threads, t.2 ≠ []) ∧ ∀ i, s.step i = none := by
  have h1 : ∃ s1, (LSys.start true twoThreads).step 0 = some s1 ∧ ∃ s2, s1.step 1 = some s2 ∧
      s2.threads = [([1], [.lock 0, .unlock 0, .lock 3, .unlock 3, .unlock 1]), ([0], [.lock 1, .unlock 1, .unlock 0])] :=
    ⟨_, rfl, _, rfl, rfl⟩
  obtain ⟨s1, e1, s2, e2, e3⟩ := h1
  refine ⟨s2, .step (.step .init e1) e2, ?_, ?_⟩
  · rw [e3]; decide
  · intro i
    unfold LSys.step
    rw [e3]
    match i with
    | 0 => rfl
    | 1 => rfl
    | _ + 2 => rfl

/-- C100, before Linux 2.6.35: threads that open no other device than `ulog_main` do not
wait for each other forever either. -/
theorem C100_old_main {calls : List (List LockCall)} (hm : ∀ c ∈ calls, ∀ x ∈ c, ∀ d rd, x = .openDev d rd → d = 0) {s : LSys}
    (h : LReach (LSys.start true calls) s) {t : List Nat × List LockAct} (ht : t ∈ s.threads) (hne : t.2 ≠ []) :
    ∃ i s', s.step i = some s' := by
  have he : LSys.start true calls = LSys.start false calls := by
    unfold LSys.start
    congr 1
    refine List.map_congr_left fun c hc => ?_
    have : c.map (lockOps true) = c.map (lockOps false) := by
      refine List.map_congr_left fun x hx => ?_
      cases x with
      | openDev d rd =>
        have := hm c hc _ hx d rd rfl
        subst this
        rfl
      | _ => rfl
    rw [List.flatMap_def, List.flatMap_def, this]
  rw [he] at h
  exact C100_locks h ht hne

/-- C100, finding devices: with minor numbers that differ, each registered device is found
by its own. -/
theorem C100_lookup {mainSize : Int} {got : Bool} {r : Reg} (h : RegReach mainSize got r) {minorOf : RLog → Int}
    (hinj : ∀ a ∈ r.devs, ∀ b ∈ r.devs, minorOf a = minorOf b → a = b) (m : Int) (d : RLog) :
    getLogFromMinor minorOf r m = some d ↔ d ∈ r.devs ∧ minorOf d = m := by
  obtain ⟨_, hs⟩ := h.packed.eq
  have hfirst := (C15_devices h).first
  have htake : (r.slots.takeWhile Option.isSome).filterMap id = r.devs := by
    rw [hs, List.takeWhile_append_of_pos (by simp)]
    rw [show (List.replicate (16 - r.devs.length) (none : Option RLog)).takeWhile Option.isSome = [] by
      cases 16 - r.devs.length <;> simp [List.replicate_succ], List.append_nil]
    have := slots_filterMap r.devs 0
    rwa [List.replicate_zero, List.append_nil] at this
  have hfind : ∀ ds : List RLog, (∀ a ∈ ds, ∀ b ∈ ds, minorOf a = minorOf b → a = b) →
      (ds.find? (fun l => minorOf l = m) = some d ↔ d ∈ ds ∧ minorOf d = m) := by
    intro ds hd
    constructor
    · intro hf
      have h1 := List.mem_of_find?_eq_some hf
      have h2 := List.find?_some hf
      exact ⟨h1, by simpa using h2⟩
    · intro ⟨h1, h2⟩
      cases hf : ds.find? (fun l => minorOf l = m) with
      | none =>
        rw [List.find?_eq_none] at hf
        exact absurd h2 (by simpa using hf d h1)
      | some e =>
        have h3 := List.mem_of_find?_eq_some hf
        have h4 := List.find?_some hf
        rw [hd e h3 d h1 (by rw [h2]; simpa using h4)]
  unfold getLogFromMinor
  rw [htake]
  cases hd : r.devs with
  | nil => rw [hd] at hfirst; simp at hfirst
  | cons main ds =>
    have hh : r.slots.head? = some (some main) := by rw [hs, hd]; rfl
    rw [hh]
    dsimp only
    by_cases hm : minorOf main = m
    · rw [if_pos hm, ← hd]
      constructor
      · intro e
        simp only [Option.some.injEq] at e
        subst e
        exact ⟨by rw [hd]; simp, hm⟩
      · intro ⟨e1, e2⟩
        rw [hinj main (by rw [hd]; simp) d e1 (by rw [hm, e2])]
    · rw [if_neg hm, ← hd]
      exact hfind r.devs hinj

end Verif.Kernel
