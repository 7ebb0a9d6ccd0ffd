import Verif.Kernel.PropsVariants
import Verif.Kernel.PropsLocks
import Verif.Kernel.ExamplesBase

/-!
# Concrete runs for the older drivers and the locks
-/
namespace Verif.Kernel.Examples.Variants
open Verif Verif.Kernel Verif.Kernel.Examples

def seg (s : String) : Seg := (ascii s).map some

/-- Three segments, one of them empty. -/
def vec : From := .iovec [seg "ab", [], seg "cde"] 0 5

def calls (it : From) : List OpK :=
  [.other (.openF 0 true false true), .other (.openF 1 false true false), .write 1 t2 it noJunk, .other (.read 0 0 5000 5000)]

def bytesOf (r : Except Fault (Sys × List Out)) : Option Bytes :=
  match r with
  | .ok (_, [_, _, .ret 5, .data bs]) => some (bs.drop 24)
  | _ => none

/-- All drivers store the same. -/
theorem same : ∀ k ∈ [Kern.k3, .k4, .k60, .k64], bytesOf (runK k (init dev 14 noJunk) (calls vec)) = some (ascii "other\x00abcde") := by
  decide +kernel

/-- The hypotheses of `C99_run` and `C99_safe`. -/
theorem proper (k : Kern) : (∀ op ∈ calls vec, Proper k op) ∧ ∀ op ∈ calls vec, FromUser k op := by
  refine ⟨?_, ?_⟩
  · intro op h
    simp only [calls, List.mem_cons, List.not_mem_nil, or_false] at h
    rcases h with rfl | rfl | rfl | rfl
    · trivial
    · trivial
    · exact ⟨by cases k <;> trivial, rfl, rfl⟩
    · trivial
  · intro op h
    simp only [calls, List.mem_cons, List.not_mem_nil, or_false] at h
    rcases h with rfl | rfl | rfl | rfl <;> trivial

example (k : Kern) : ∃ s os, runK k (init dev 14 noJunk) (calls vec) = .ok (s, os) :=
  C99_safe k noJunk (by decide) (by decide) _ (proper k).1 (proper k).2

/-- `C99_left` and `C99_neg_offset`: seven bytes of which two are done. -/
theorem position : [Kern.k4, .k60, .k64].map (fun k => bytesOf (runK k (init dev 14 noJunk) (calls (.iovec [seg "abcdefg"] 2 5)))) =
    [some (ascii "other\x00cdefg"), some (ascii "other\x00cdefg"), some (ascii "other\x00abcde")] := by decide +kernel
example : ∀ s, [seg "abcdefg"].head? = some s → 2 ≤ s.length := by
  intro s h
  simp only [List.head?_cons, Option.some.injEq] at h
  subst h; decide
/-- `C99_neg_ubuf`. -/
theorem buffer : bytesOf (runK .k60 (init dev 14 noJunk) (calls (.ubuf (seg "abcdefg") 2 5))) = some (ascii "other\x00abcde") := by
  decide +kernel

/-- 4.x: a kernel vector fails. 6.x: C13. -/
theorem kvecs : (runK .k4 (init dev 14 noJunk) [.other (.openF 1 false true false), .write 1 t2 (.kvec 9) noJunk]).toOption.map (·.2) =
      some [.ok, .err .efault] ∧
    (runK .k64 (init dev 14 noJunk) [.other (.openF 1 false true false), .write 1 t2 (.kvec 9) noJunk]).toOption.map (·.2) =
      some [.ok, .ret 0] := by decide +kernel

/-- C100: the threads of `C100_false_old` with a newer kernel: one waits, the other goes on. -/
theorem waits : ((LSys.start false twoThreads).step 0).bind (fun s => (s.step 1).bind fun s => some ((s.step 1).isSome, (s.step 0).isSome)) =
    some (false, true) := by decide +kernel

/-- C100_old_main: threads that open `ulog_main` and add a device. -/
example : ∀ c ∈ ([[.openDev 0 true, .use 2 3], [.addLog true]] : List (List LockCall)), ∀ x ∈ c, ∀ d rd, x = .openDev d rd → d = 0 := by
  intro c hc x hx d rd e
  subst e
  simp only [List.mem_cons, List.not_mem_nil, or_false] at hc
  rcases hc with rfl | rfl <;> simp at hx
  exact hx.1

/-- A registry with three devices, for `C100_lookup`. -/
def three : Option Reg := (regInit 18 true true).map fun r =>
  (addLog (addLog r (ascii "ulog_a 15") ⟨true, true, true, true⟩).1 (ascii "ulog_b 16") ⟨true, true, true, true⟩).1
def minorOf (l : RLog) : Int := l.size
theorem found : three.map (fun r => [262144, 32768, 65536, 7].map fun m => (getLogFromMinor minorOf r m).map RLog.name) =
    some [some (ascii "ulog_main"), some (ascii "ulog_a"), some (ascii "ulog_b"), none] := by decide +kernel
example : ∃ r, three = some r ∧ RegReach 18 true r ∧ ∀ a ∈ r.devs, ∀ b ∈ r.devs, minorOf a = minorOf b → a = b := by
  refine ⟨_, rfl, .add _ _ (.add _ _ (.init true rfl) (by decide +kernel)) (by decide +kernel), by decide +kernel⟩

end Verif.Kernel.Examples.Variants
