import Verif.Kernel.PropsPoll
import Verif.Kernel.ExamplesBase

/-!
# A viewer asleep in poll on two devices
-/
namespace Verif.Kernel.Examples
open Verif Verif.Kernel

/-- Calls and steps one after another. -/
def prun : List (Tid × PChoice) → PSys → Option PSys
  | [], w => some w
  | (t, ch) :: l, w => (pstep t ch w).bind (prun l)

def noRel : PChoice → Bool
  | .other _ (.release _) => false
  | _ => true

theorem prun_reach {name : Nat → Bytes} {k : Nat → Nat} {buf : Nat → Nat → UInt8} {l : List (Tid × PChoice)} {w w' : PSys}
    (h : PReach name k buf w) (hl : ∀ p ∈ l, noRel p.2 = true) (hr : prun l w = some w') : PReach name k buf w' := by
  induction l generalizing w with
  | nil => injection hr with hr; subst hr; exact h
  | cons p l ih =>
    obtain ⟨w1, h1, h2⟩ := Option.bind_eq_some_iff.mp hr
    refine ih (.step p.1 p.2 h ?_ h1) (fun q hq => hl q (List.mem_cons_of_mem _ hq)) h2
    have := hl p List.mem_cons_self
    unfold noRel at this
    unfold pmay
    split
    · rename_i e; rw [e] at this; cases this
    · trivial

def two : PArgs := { euid := 0, fds := [(0, 0), (1, 0)] }

def fresh : PSys := .start (fun d => if d = 0 then [97] else [98]) (fun _ => 14) (fun _ => noJunk)

/-- Thread 1 has looked at the first device when thread 2 commits to it; it then looks at
the other one, finds nothing and sleeps. -/
def pollSched : List (Tid × PChoice) :=
  [(1, .other 0 (.openF 0 true true true)), (1, .other 1 (.openF 0 true true true)), (1, .poll two), (1, .go), (1, .go),
   (2, .write 0 0 t1 (txt 3 65) noJunk), (2, .go), (1, .go), (1, .go), (1, .go)]

def pAsleep (w : PSys) (t : Tid) : Bool :=
  match w.pc t with
  | .sleep a => decide (a.fds = [(0, 0), (1, 0)]) && decide (a.euid = 0)
  | _ => false

def unread (w : PSys) (d : Nat) : Bool :=
  (w.dev d).readable 0 && match findReader (w.dev d).log 0, step (w.dev d) (.poll 0 0) with
    | .ok r, .ok (_, .poll b) => b && decide ((w.dev d).log.wOff ≠ r.off)
    | _, _ => false

def pWaking (w : PSys) (t : Tid) : Bool :=
  match w.pc t with
  | .wake 0 => true
  | _ => false

def said (w : PSys) (t : Tid) : Bool :=
  match w.pc t with
  | .ret true => true
  | _ => false

/-- `C128_asleep`, `C128_wake`, `C128_progress`: asleep with an entry to read, not woken yet. -/
theorem pollSched_ok : ((prun pollSched fresh).map fun w => (pAsleep w 1, unread w 0, unread w 1, w.trig 1, pWaking w 2)) =
    some (true, true, false, false, true) := by decide +kernel

/-- `C128_returns`: woken with an entry to read. -/
theorem pollWoken : ((prun (pollSched ++ [(2, .go)]) fresh).map fun w => (pAsleep w 1, unread w 0, w.trig 1)) =
    some (true, true, true) := by decide +kernel

/-- `C128_true`: it looks again and returns. -/
theorem pollEnd : ((prun (pollSched ++ [(2, .go), (1, .go), (1, .go), (1, .go), (1, .go), (1, .go), (1, .go)]) fresh).map
    fun w => said w 1) = some true := by decide +kernel

/-- `C128_at_once`: the entry is there before the call. -/
example : ((prun ([(1, .other 0 (.openF 0 true true true)), (1, .other 1 (.openF 0 true true true)),
    (2, .write 0 0 t1 (txt 3 65) noJunk), (2, .go)]) fresh).map fun w => (unread w 0, (psolo 1 5 <$> pstep 1 (.poll two) w).join.map
      fun w => said w 1)) = some (true, some true) := by decide +kernel

/-- `C128_back`, `C128_sleeps`: an entry of another user wakes a thread that then goes back to sleep, with the flag clear. -/
example : ((prun [(1, .other 0 (.openF 0 true true false)), (1, .other 1 (.openF 0 true true false)), (1, .poll two), (1, .go),
    (1, .go), (1, .go), (1, .go), (1, .go), (2, .write 0 0 t1 (txt 3 65) noJunk), (2, .go), (2, .go), (1, .go), (1, .go),
    (1, .go), (1, .go), (1, .go), (1, .go)] fresh).map fun w => (pAsleep w 1, unread w 0, w.trig 1)) =
    some (true, false, false) := by decide +kernel

/-- The hypotheses of the theorems hold together. -/
example : ∃ w a r, PReach (fun d => if d = 0 then [97] else [98]) (fun _ => 14) (fun _ => noJunk) w ∧ w.pc 1 = .sleep a ∧
    (0, 0) ∈ a.fds ∧ (w.dev 0).readable 0 = true ∧ Ready (w.dev 0) 0 a.euid ∧ findReader (w.dev 0).log 0 = .ok r ∧
    (w.dev 0).log.wOff ≠ r.off ∧ w.trig 1 = false ∧ w.pc 2 = .wake 0 := by
  have h := pollSched_ok
  cases hr : prun pollSched fresh with
  | none => rw [hr] at h; cases h
  | some w =>
    rw [hr] at h
    simp only [Option.map_some, Option.some.injEq, Prod.mk.injEq] at h
    obtain ⟨h1, h2, _, h4, h5⟩ := h
    have hreach := prun_reach PReach.start (by decide) hr
    unfold pAsleep at h1
    unfold pWaking at h5
    unfold unread at h2
    simp only [Bool.and_eq_true] at h2
    split at h1
    · rename_i a ha
      simp only [Bool.and_eq_true, decide_eq_true_eq] at h1
      split at h5
      · rename_i h5'
        obtain ⟨h2, h3⟩ := h2
        split at h3
        · rename_i r s b hr' hst
          simp only [Bool.and_eq_true, decide_eq_true_eq] at h3
          refine ⟨w, a, r, hreach, ha, by rw [h1.1]; exact List.mem_cons_self, h2, ⟨s, ?_⟩, hr', h3.2, h4, h5'⟩
          rw [h1.2, ← h3.1]; exact hst
        · cases h3
      · cases h5
    · cases h1

/-- `C128_clean`: on both queues while asleep, on none after the call. -/
example : (prun pollSched fresh).map (fun w => w.reg 1) = some [1, 0] ∧
    (prun (pollSched ++ [(1, .signal)]) fresh).map (fun w => ((w.pc 1).inPoll, w.reg 1)) = some (false, []) := by
  decide +kernel

end Verif.Kernel.Examples
