import Verif.Kernel.PropsWait
import Verif.Kernel.ExamplesBase

/-!
# A reader asleep while a writer commits
-/
namespace Verif.Kernel.Examples
open Verif Verif.Kernel

/-- Calls and steps one after another. -/
def krun : List (Tid × KChoice) → WSys → Option WSys
  | [], w => some w
  | (t, ch) :: l, w => (kstep t ch w).bind (krun l)

/-- No file is released in the schedule. -/
def noRelease : KChoice → Bool
  | .other (.release _) => false
  | _ => true

theorem krun_reach {name : Bytes} {k : Nat} {buf : Nat → UInt8} {l : List (Tid × KChoice)} {w w' : WSys}
    (h : KReach name k buf w) (hl : ∀ p ∈ l, noRelease p.2 = true) (hr : krun l w = some w') : KReach name k buf w' := by
  induction l generalizing w with
  | nil => injection hr with hr; subst hr; exact h
  | cons p l ih =>
    obtain ⟨w1, h1, h2⟩ := Option.bind_eq_some_iff.mp hr
    refine ih (.step p.1 p.2 h ?_ h1) (fun q hq => hl q (List.mem_cons_of_mem _ hq)) h2
    have := hl p List.mem_cons_self
    unfold noRelease at this
    unfold mayCall
    split
    · rename_i e; rw [e] at this; cases this
    · trivial

def rdA : RdArgs := { fid := 0, euid := 0, count := 5000, uw := 5000, nb := false }

/-- Thread 1 tests for data with the mutex held and finds none; before it sleeps
thread 2 commits an entry and is about to wake the readers. -/
def sched : List (Tid × KChoice) :=
  [(1, .other (.openF 0 true true true)), (1, .read rdA), (1, .go), (1, .go), (2, .write 0 t1 (txt 3 65) noJunk),
   (1, .go), (2, .go), (1, .go)]

/-- Is the thread asleep? -/
def asleep (w : WSys) (t : Tid) : Bool :=
  !w.run t && match w.pc t with
    | .sleep a => match findReader w.sys.log a.fid with
      | .ok r => decide (w.sys.log.wOff ≠ r.off)
      | .error _ => false
    | _ => false

def waking (w : WSys) (t : Tid) : Bool :=
  match w.pc t with
  | .wake => true
  | _ => false

theorem sched_ok : ((krun sched (.start [97] 14 noJunk)).map fun w => asleep w 1 && waking w 2) = some true := by
  decide +kernel

/-- `C14_no_lost_wakeup`, `C14_wake`, `C14_progress`: a thread asleep with an entry to read. -/
example : ∃ w a r, KReach [97] 14 noJunk w ∧ w.pc 1 = .sleep a ∧ w.run 1 = false ∧
    findReader w.sys.log a.fid = .ok r ∧ w.sys.log.wOff ≠ r.off ∧ w.pc 2 = .wake := by
  have h := sched_ok
  cases hr : krun sched (.start [97] 14 noJunk) with
  | none => rw [hr] at h; cases h
  | some w =>
    rw [hr] at h
    simp only [Option.map_some, Option.some.injEq, Bool.and_eq_true] at h
    obtain ⟨h1, h2⟩ := h
    have hreach := krun_reach KReach.start (by decide) hr
    unfold asleep at h1
    unfold waking at h2
    split at h2
    · rename_i h2'
      simp only [Bool.and_eq_true, Bool.not_eq_true'] at h1
      obtain ⟨h1, h3⟩ := h1
      split at h3
      · rename_i a ha
        split at h3
        · rename_i r hr'
          exact ⟨w, a, r, hreach, ha, h1, hr', by simpa using h3, h2'⟩
        · cases h3
      · cases h3
    · cases h2

/-- And it gets the entry: after the wake-up its read returns. -/
example : ((krun (sched ++ [(2, .go), (1, .go), (1, .go), (1, .go), (1, .go), (1, .go), (1, .go)])
    (.start [97] 14 noJunk)).map fun w => match w.pc 1, findReader w.sys.log 0 with
      | .idle, .ok r => decide (w.sys.log.wOff = r.off ∧ r.off = 24 + 15)
      | _, _ => false) = some true := by
  decide +kernel

def schedBad : List (Tid × KChoice) :=
  [(1, .other (.openF 0 true true true)), (1, .read rdA), (1, .go), (1, .go), (2, .write 0 t1 bad noJunk), (1, .go), (1, .go)]

/-- Thread 2 is about to write something that cannot be copied, thread 1 asleep. -/
def failing (w : WSys) : Bool :=
  !w.run 1 && match w.pc 2, step w.sys (.write 0 t1 bad noJunk) with
    | .commit 0 _ _ _, .ok (_, .err _) => (kstep 2 .go w).any fun w' => !w'.run 1
    | _, _ => false

/-- `C14_silent`: a copy that fails does not wake the reader. -/
example : (krun schedBad (.start [97] 14 noJunk)).map failing = some true := by decide +kernel

end Verif.Kernel.Examples
