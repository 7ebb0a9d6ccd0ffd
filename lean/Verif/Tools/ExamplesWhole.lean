import Verif.Tools.PropsWhole
import Verif.Tools.ExamplesCat
import Verif.Ulogcat.ExamplesFleet

/-!
# A machine meeting the hypotheses of C133

The logs of `ExamplesRegistry`, to which the programs of `ExamplesFleet` log; those of the
second log have ULOG_DEVICE in their environment.
-/
namespace Verif.Tools.Examples.Whole
open Verif Verif.Kernel Verif.Kernel.Examples Verif.Libulog Verif.Ulogcat Verif.Ulogcat.Examples Verif.Ulogcat.Examples.Screen
  Verif.Ulogcat.Examples.Said Verif.Ulogcat.Examples.Fleet Verif.Tools Verif.Tools.Whole Verif.Tools.Examples.Cat

def flightProgs : Nat → Prog := fun _ =>
  { env := { getenv := fun n => if n = ascii "ULOG_DEVICE" then some (ascii "flight") else none
             openDev := fun p => if p = ascii "/dev/ulog_flight" then some 5 else none
             strdupOk := true }
    nm := tags }

def isMain (d : RLog) : Bool := d.name == ascii "ulog_main"

def box : Box where
  reg := reg1
  page := 4096
  buf _ := noJunk
  prog d := if isMain d then progs else flightProgs
  said d := if isMain d then [m1, m2, m3] else [m4, m5]

def main1 : RLog := { name := ascii "ulog_main", size := 262144, buf := true }
def flight1 : RLog := { name := ascii "ulog_flight", size := 65536, buf := true }

theorem box_devs : box.reg.devs = [main1, flight1] := by decide +kernel

theorem both {p : RLog → Prop} (h0 : p main1) (h1 : p flight1) : ∀ d ∈ box.reg.devs, p d := by
  intro d hd
  rw [box_devs] at hd
  rcases List.mem_cons.1 hd with rfl | hd
  · exact h0
  · rw [List.mem_singleton.1 hd]; exact h1

theorem flight_plain : ∀ m ∈ [m4, m5], m.Plain flightProgs := by
  have h : ∀ m ∈ [m4, m5], NoNul (m.name flightProgs) ∧ NoNul m.text ∧ prioBinary m.prio = false ∧
      prefixLen m.task + (4 + (m.name flightProgs).length + 1) < 4076 ∧ ¬ (m.task.pid = 0xffffffff ∧ m.task.tid = 0xffffffff) := by decide +kernel
  exact fun m hm => ⟨(h m hm).1, (h m hm).2.1, (h m hm).2.2.1, (h m hm).2.2.2.1, (h m hm).2.2.2.2⟩

theorem box_ok : box.Ok where
  reached := ⟨18, true, reg1_reach⟩
  page := Nat.le_refl _
  prog := both (fun p => progs_plain p) (fun _ => ⟨rfl, rfl, by show (flightProgs 0).device = _; decide +kernel, 5, by show (flightProgs 0).env.openDev _ = _; decide +kernel⟩)
  said := both (logs_plain 0 (by omega)) flight_plain
  count := both (by decide +kernel) (by decide +kernel)
  room := both (by decide +kernel) (by decide +kernel)

/-- The system calls, if the logs hold these amounts. -/
def opening (mark : Nat → Nat) : OWorld where
  noMem _ := false
  openAt evs p := if 120 ∈ p then none else some (((held evs).getD []).foldl (· + ·) 0 + 1)
  logLen evs := match evs.getLast? with
    | some (.opened p _) => if p = ascii "/dev/ulog_main" then mark 0 else mark 1
    | _ => -1
  kmsgReads _ := false
  klogSize _ := 0
  logs := some (showLogs 4096 reg1)

/-- `ulogcat -d -l -v short`, `ulogcat -d -l -t 3 -v short` and `ulogcat -b x -d`. -/
def opts : List CatOpt := [.dump, .label, .format (ascii "short")]
def optsT : List CatOpt := [.dump, .label, .tail (ascii "3"), .format (ascii "short")]
def optsB : List CatOpt := [.buffer (ascii "x"), .dump]

theorem not_stops {os : List CatOpt} (h : os.all fun o => match o with
    | .help => false
    | .bad => false
    | .format a => (formats.lookup a).isSome
    | _ => true) : ∀ o ∈ os, ¬ CatStops o := by
  intro o ho hs
  have := List.all_eq_true.1 h o ho
  rcases hs with rfl | rfl | ⟨a, rfl, ha⟩
  · cases this
  · cases this
  · dsimp only at this
    rw [ha] at this
    cases this

theorem chosen_both {os : List CatOpt} (h : asked os = []) : Chosen box os [main1, flight1] where
  some d hd := by rw [box_devs]; exact hd
  named h' := absurd h h'
  all _ := by rw [box_devs]; decide +kernel

/-- The hypotheses of `C133_dump`, and what is shown. -/
example : box.Ok ∧ (∀ o ∈ optsT, ¬ CatStops o) ∧ CatOpt.klog ∉ optsT ∧ CatOpt.dump ∈ optsT ∧ CatOpt.clear ∉ optsT ∧
    Chosen box optsT [main1, flight1] ∧ tailOf optsT = (3 : Nat) ∧ (tailOf opts = (0 : Nat)) :=
  ⟨box_ok, not_stops (by decide +kernel), by decide, by decide, by decide, chosen_both (by decide +kernel), by decide +kernel, by decide +kernel⟩

theorem opening_ok (mark : Nat → Nat) : Opens box [main1, flight1] mark (opening mark) := by
  refine ⟨?_, fun _ => rfl, ?_, ?_, rfl⟩
  · intro evs H p fd hH ho hm
    unfold opening at ho
    dsimp only at ho
    split at ho
    · simp at ho
    · rw [hH] at ho
      have := (sum_ge H 0).1 fd hm
      have e : H.foldl (· + ·) 0 + 1 = fd := by simpa using ho
      omega
  · have h : ∀ p : Bytes, 120 ∉ p → ∀ evs, ∃ fd, (opening mark).openAt evs p = some fd := fun p hp evs => by
      unfold opening
      exact ⟨_, if_neg hp⟩
    exact both (h _ (by decide +kernel)) (h _ (by decide +kernel))
  · refine two (fun evs fd => ?_) (fun evs fd => ?_)
    · unfold opening
      dsimp only
      rw [List.getLast?_concat]
      exact if_pos (by decide +kernel)
    · unfold opening
      dsimp only
      rw [List.getLast?_concat]
      exact if_neg (by decide +kernel)

theorem says_same : (toSay 2 (fun i => box.prog (nth [main1, flight1] i)) fun i => box.said (nth [main1, flight1] i)) =
    toSay 2 (fun _ => progs) logs := by
  funext i
  match i with
  | 0 => rfl
  | 1 =>
    rw [says1]
    show ([m4, m5].filter (·.passes flightProgs)).map _ = _
    rw [List.filter_cons_of_pos (by decide +kernel), List.filter_cons_of_pos (by decide +kernel)]
    rfl
  | i + 2 => rw [toSay_beyond _ (by omega), toSay_beyond _ (by omega)]

/-- What `ulogcat -d -l -t 3 -v short` shows. -/
def lastThree : Bytes := ascii "---------------------------------------------------- beginning of /dev/ulog_flight\nU I             : hello\n" ++
  ascii "---------------------------------------------------- beginning of /dev/ulog_main\nU E ui          : no\nU E ui          : screen\n" ++
  ascii "U I             : bye\n"

theorem look_of : lookOf optsT look.ansi look.clock = look := by
  have h1 : fmtOf optsT = .short := by decide +kernel
  unfold lookOf
  rw [h1]
  rfl

theorem lastThree_ok : screenOf (fun i => pathOf (nth [main1, flight1] i)) (fun i m => m.lines (box.prog (nth [main1, flight1] i)) look) true []
    (Ulogcat.lastOf 3 merged) = lastThree := by decide +kernel

/-- `C133_dump`: the bytes. -/
example : ∃ (sys : Nat → Sys) (tr : Nat → List (Op × Out)) (mark : Nat → Nat) (need : Nat), ∀ fuel, need ≤ fuel → ∃ all devs c t evs,
    catMain allMem (opening mark) clearW ((fleet 2 0 0 false (fun _ => canRender look) 1).onto .file
        (fun i => pathOf (nth [main1, flight1] i)) (fleetEntries 2 (fun _ => look) all) fun _ _ => [.took 6000]) 1 fuel
        ⟨fun i => opened (sys i) (tr i) (mark i), List.replicate 5248 170, []⟩ optsT = .ended 0 devs c t evs ∧ t.bytes = lastThree := by
  obtain ⟨ops, sys, tr, mark, h1, h2⟩ := C133_dump box_ok noJunk (mem := allMem) (os := optsT) (not_stops (by decide +kernel))
    (by decide) (by decide) (by decide) (fun _ _ => rfl) (chosen_both (by decide +kernel)) (T := 3) (by decide +kernel) (by decide)
    look.ansi look.clock (fun h => absurd h (by decide +kernel))
  obtain ⟨need, h3⟩ := h2 (opening_ok mark) clearW
  refine ⟨sys, tr, mark, need, fun fuel hf => ?_⟩
  obtain ⟨all, devs, c, t, evs, v, e1, _, _, _, e5, e6⟩ := h3 0 0 0 fuel hf (buf0 := List.replicate 5248 170) List.length_replicate
    (ans := fun _ _ => [.took 6000]) (fun _ _ => ⟨6000, rfl, by omega⟩)
  rw [look_of] at e1 e6
  have hcsv : decide (fmtOf optsT = .csv) = false := by decide +kernel
  rw [hcsv] at e1
  refine ⟨all, devs, c, t, evs, e1, e6.trans ?_⟩
  have e5' : ByTurns (·.1) saidTime 2 (toSay 2 (fun _ => progs) logs) v := by rw [← says_same]; exact e5
  rw [(C119_order merged_ok).1 v e5']
  exact lastThree_ok

/-- `C133_missing`: there is no log of this name. -/
example : Fresh (opening fun _ => 0) ∧ ascii "x" ∈ asked optsB ∧ (∀ o ∈ optsB, ¬ CatStops o) ∧
    ∀ evs, (opening fun _ => 0).openAt evs ((ascii "/dev/ulog_" ++ ascii "x").take 63) = none :=
  ⟨(opening_ok _).fresh, by decide +kernel, not_stops (by decide +kernel), by
    intro evs
    unfold opening
    dsimp only
    rw [if_pos (show 120 ∈ (ascii "/dev/ulog_" ++ ascii "x").take 63 by decide +kernel)]⟩

end Verif.Tools.Examples.Whole
