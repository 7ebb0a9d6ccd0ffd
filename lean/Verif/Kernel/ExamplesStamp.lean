import Verif.Kernel.PropsStamp
import Verif.Kernel.ExamplesBase

/-!
# Two writers and a change of mode
-/
namespace Verif.Kernel.Examples
open Verif Verif.Kernel

/-- Steps that are allowed with `q`: no release, no change of mode while someone writes. -/
def calm (w : SSys) : SChoice → Bool
  | .other (.release _) => false
  | .other (.setRaw ..) => (List.range 5).all fun u => match w.pc u with | .idle => true | _ => false
  | _ => true

def srunC : List (Tid × SChoice) → SSys → Option SSys
  | [], w => some w
  | (t, ch) :: l, w => if t < 5 ∧ calm w ch = true then (sstep t ch w).bind (srunC l) else none

theorem sstep_low {w w' : SSys} {t : Tid} {ch : SChoice} (ht : t < 5) (hw : ∀ u, 5 ≤ u → w.pc u = .idle)
    (h : sstep t ch w = some w') : ∀ u, 5 ≤ u → w'.pc u = .idle := by
  intro u hu
  have hne : u ≠ t := fun e => Nat.not_le.mpr ht (e ▸ hu)
  unfold sstep at h
  repeat' split at h
  all_goals first | cases h; done | skip
  all_goals (injection h with h; subst h)
  all_goals first | exact hw u hu | exact (if_neg hne).trans (hw u hu)

theorem srunC_reach {name : Bytes} {k : Nat} {buf : Nat → UInt8} {l : List (Tid × SChoice)} :
    ∀ {w w' : SSys}, SReach true name k buf w → (∀ u, 5 ≤ u → w.pc u = .idle) → srunC l w = some w' →
      SReach true name k buf w' := by
  induction l with
  | nil => intro w w' h _ e; injection e with e; subst e; exact h
  | cons p l ih =>
    intro w w' h hw e
    unfold srunC at e
    split at e
    · rename_i hc
      obtain ⟨w1, h1, h2⟩ := Option.bind_eq_some_iff.mp e
      have hcalm := hc.2
      refine ih (.step p.1 p.2 h ?_ (fun _ => ?_) h1) (sstep_low hc.1 hw h1) h2
      · unfold smay
        split
        · rename_i e'; rw [e'] at hcalm; cases hcalm
        · trivial
      · unfold squiet
        split
        · rename_i fid c v e'
          rw [e'] at hcalm
          intro u hu
          unfold calm at hcalm
          rw [List.all_eq_true] at hcalm
          by_cases h5 : u < 5
          · have := hcalm u (List.mem_range.mpr h5)
            cases hp : w.pc u with
            | idle => rw [hp] at hu; cases hu
            | ready => rw [hp] at this; cases this
          · rw [hw u (Nat.not_lt.mp h5)] at hu; cases hu
        · trivial
    · cases e

/-- Thread 1 is stamped at 5 s, waits for the mutex while thread 2 writes at 6 s; then thread 2
sets raw mode on its file and writes once more. -/
def stampSched : List (Tid × SChoice) :=
  [(1, .other (.openF 0 true true true)), (2, .other (.openF 1 false true false)), (0, .tick 5000000000),
   (1, .write 0 t1 (txt 3 65) noJunk), (0, .tick 1000000007), (2, .write 1 t2 (txt 4 66) noJunk), (2, .go), (1, .go),
   (2, .other (.setRaw 1 true (some 1))), (2, .write 1 t2 (txt 30 67) noJunk), (2, .go)]

/-- Thread, when it was stamped and when it had the mutex, raw mode. -/
def stampSeen (w : SSys) : List (Nat × Nat × Nat × Bool) := w.calls.map fun c => (c.tid, c.begun, c.ended, c.raw)

def stampTimes (w : SSys) : List (Nat × UInt32 × UInt32) := w.calls.map fun c => (c.stamp, c.task.sec, c.task.nsec)

def stampLog (w : SSys) : List (UInt32 × UInt32 × UInt32) := (obs dev w.tr).hist.map fun e => (e.pid, e.sec, e.nsec)

theorem stamp_ok : ((srunC stampSched (.start dev 14 noJunk)).map fun w =>
    decide (stampSeen w = [(2, 5, 6, false), (1, 3, 7, false), (2, 9, 10, true)]) &&
    decide (stampTimes w = [(6000000007, 6, 7), (5000000000, 5, 0), (6000000007, 6, 7)]) &&
    decide (stampLog w = [(20, 6, 7), (10, 5, 0), (0x43434343, 0x43434343, 0x43434343)]) &&
    decide (Genuine (obs dev w.tr).hist)) = some true := by decide +kernel

/-- `C129_linear`, `C129_order`, `C129_entries`: three writes, two of them overlapping and out of order. -/
example : ∃ w, SReach true dev 14 noJunk w ∧ w.calls.length = 3 ∧ Genuine (obs dev w.tr).hist ∧
    (obs dev w.tr).hist.length < 2147483648 := by
  have h := stamp_ok
  cases hr : srunC stampSched (.start dev 14 noJunk) with
  | none => rw [hr] at h; cases h
  | some w =>
    rw [hr] at h
    simp only [Option.map_some, Option.some.injEq, Bool.and_eq_true, decide_eq_true_eq] at h
    obtain ⟨⟨⟨h1, _⟩, h2⟩, h3⟩ := h
    have l1 := congrArg List.length h1
    have l2 := congrArg List.length h2
    unfold stampSeen at l1
    unfold stampLog at l2
    rw [List.length_map] at l1 l2
    exact ⟨w, srunC_reach .start (fun _ _ => rfl) hr, l1, h3, by rw [l2]; decide⟩

/-- `C129_safe`: a thread waiting for the mutex after another one has set raw mode. -/
example : (srun (rawSched.take 5) (.start [97] 14 zeros)).map (fun w =>
    (match w.pc 1 with | .ready _ raw .. => some raw | .idle => none, w.sys.rawFile 0)) = some (some false, true) := by
  decide +kernel

/-- `C129_false_order` for three. -/
example : ∃ w cs c, SReach true dev 14 noJunk w ∧ w.calls = cs ++ [c] ∧ cs.length = 3 ∧ c.entry.isSome ∧
    ∀ d ∈ cs, d.entry.isSome ∧ c.stamp < d.stamp :=
  C129_false_order 3 noJunk (by decide) (by decide)

end Verif.Kernel.Examples
