import Verif.Tools.PropsTxConc

namespace Verif.Tools.TxConc.Examples
open Verif.Tools.TxConc

/-- Three messages of two threads; the second call of thread 1 comes while thread 0 writes. -/
def mix : List Op := [.call 0, .go 0, .call 1, .go 1, .go 0, .go 0, .go 1, .go 1, .go 1, .go 0, .go 0, .go 0, .go 1, .go 1,
  .call 0, .go 0, .go 0, .go 0, .go 0, .call 1, .go 1, .go 0, .go 0]

/-- What is left after `mix`. -/
def mixEnd : State := { enabled := true, index := 4, stored := [(0, 1), (1, 2), (2, 3)], dropped := [3], calls := 4, stack := fun _ => [] }

theorem others {t : Nat} : ∀ (ops : List Op) {s s' : State}, (∀ o ∈ ops, o.thread ≠ t) → run s ops = some s' → s'.stack t = s.stack t
  | [], _, _, _, h => by cases h; rfl
  | o :: os, s, s', ho, h => by
    simp only [run] at h
    cases h1 : step s o with
    | none => rw [h1] at h; cases h
    | some x =>
      rw [h1] at h
      rw [others os (fun o hm => ho o (List.mem_cons_of_mem _ hm)) h, (C127_ends s t).2.1 o x h1 (ho o List.mem_cons_self)]

theorem mix_run : ∃ s, run start mix = some s ∧ s.stored = mixEnd.stored ∧ s.dropped = [3] ∧ s.calls = 4 ∧ Quiet s := by
  have key : (run start mix).map (fun s => (s.stored, s.dropped, s.calls, s.stack 0, s.stack 1)) = some (mixEnd.stored, [3], 4, [], []) := by decide +kernel
  cases h : run start mix with
  | none => rw [h] at key; cases key
  | some s =>
    rw [h] at key
    simp only [Option.map_some, Option.some.injEq, Prod.mk.injEq] at key
    obtain ⟨k1, k2, k3, k4, k5⟩ := key
    refine ⟨s, rfl, k1, k2, k3, fun t => ?_⟩
    match t with
    | 0 => exact k4
    | 1 => exact k5
    | t + 2 =>
      refine others mix ?_ h
      intro o ho
      have hall : ∀ o ∈ mix, o.thread < 2 := by decide
      have := hall o ho
      omega

/-- `C127_once`, `C127_dropped`: three stored, one dropped. -/
example : ∃ s, run start mix = some s ∧ s.stored.map Prod.fst = [0, 1, 2] ∧ s.dropped = [3] ∧ s.calls = 4 ∧ Quiet s := by
  obtain ⟨s, h1, h2, h3, h4, h5⟩ := mix_run
  exact ⟨s, h1, by rw [h2]; rfl, h3, h4, h5⟩

/-- `C127_dropped`: the step that drops. -/
example : ∃ s s', run start (mix.take 20) = some s ∧ step s (.go 1) = some s' ∧ s.dropped = [] ∧ s'.dropped = [3] ∧ Pc.write 2 3 ∈ s.stack 0 :=
  ⟨_, _, rfl, rfl, rfl, rfl, List.mem_cons_self⟩

/-- `C127_ends`: from the middle of two calls. -/
example : ∃ s, run start (mix.take 7) = some s ∧ s.stack 0 ≠ [] ∧ s.stack 1 ≠ [] := ⟨_, rfl, nofun, nofun⟩

def isCounting : Pc → Bool
  | .store _ _ => true
  | _ => false

/-- A check for runs of the threads 0 and 1. -/
def check : State → List Op → Bool
  | s, [] => !((s.stack 0).any isCounting && (s.stack 1).any isCounting)
  | s, o :: os => !((s.stack 0).any isCounting && (s.stack 1).any isCounting) && (o.thread == 0 || o.thread == 1) &&
    match step s o with
    | none => true
    | some s' => check s' os

theorem check_one {s : State} (hc : ((s.stack 0).any isCounting && (s.stack 1).any isCounting) = false) (hz : ∀ t, 2 ≤ t → s.stack t = []) :
    ∀ t u p q, p ∈ s.stack t → q ∈ s.stack u → p.counting → q.counting → t = u := by
  intro t u p q hp hq h1 h2
  have hb : ∀ p : Pc, p.counting → isCounting p = true := by intro p h; cases p <;> first | rfl | exact absurd h (fun g => g)
  have lt : ∀ t p, p ∈ s.stack t → t = 0 ∨ t = 1 := by
    intro t p hp
    by_cases h : 2 ≤ t
    · rw [hz t h] at hp; cases hp
    · omega
  have a : ∀ t p, p ∈ s.stack t → p.counting → (s.stack t).any isCounting = true := fun t p hp h => List.any_eq_true.2 ⟨p, hp, hb p h⟩
  have ha := a t p hp h1
  have hb := a u q hq h2
  rcases lt t p hp with rfl | rfl <;> rcases lt u q hq with rfl | rfl
  · rfl
  · rw [ha, hb] at hc; cases hc
  · rw [ha, hb] at hc; cases hc
  · rfl

theorem check_counts : ∀ (ops : List Op) (s : State), check s ops = true → (∀ t, 2 ≤ t → s.stack t = []) → OneCounts s ops
  | [], s, hc, hz => check_one (by simp only [check, Bool.not_eq_true'] at hc; exact hc) hz
  | o :: os, s, hc, hz => by
    simp only [check, Bool.and_eq_true, Bool.not_eq_true'] at hc
    obtain ⟨⟨h1, h2⟩, h3⟩ := hc
    refine ⟨check_one h1 hz, fun s' hs => ?_⟩
    rw [hs] at h3
    refine check_counts os s' h3 fun t ht => ?_
    rw [(C127_ends s t).2.1 o s' hs (by intro e; rw [e] at h2; simp at h2; omega), hz t ht]

/-- `C127_numbers`: the threads take turns, but not in `index++`. -/
example : OneCounts start mix ∧ ∃ s, run start mix = some s ∧ Quiet s ∧ s.stored.map Prod.snd = [1, 2, 3] := by
  refine ⟨check_counts mix start (by decide +kernel) fun _ _ => rfl, ?_⟩
  obtain ⟨s, h1, h2, _, _, h5⟩ := mix_run
  exact ⟨s, h1, h5, by rw [h2]; rfl⟩

/-- `C127_alone`: a message, one logged while it is written, and another message. -/
example : let ops : List Op := [.call 5, .go 5, .go 5, .go 5, .go 5, .call 5, .go 5, .go 5, .go 5, .call 5, .go 5, .go 5, .go 5, .go 5, .go 5, .go 5]
    (∀ o ∈ ops, o.thread = 5) ∧ (run start ops).map (fun s => (s.stored, s.dropped)) = some ([(0, 1), (2, 2)], [1]) := by decide +kernel

end Verif.Tools.TxConc.Examples
