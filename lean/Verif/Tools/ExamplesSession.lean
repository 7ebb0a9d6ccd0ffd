import Verif.Tools.PropsSession
import Verif.Tools.ExamplesWhole
import Verif.Tools.ExamplesGetopt

/-! # A session meeting the hypotheses of C143 -/
namespace Verif.Tools.Examples.Session
open Verif Verif.Kernel Verif.Kernel.Examples Verif.Libulog Verif.Ulogcat Verif.Ulogcat.Examples Verif.Ulogcat.Examples.Screen
  Verif.Ulogcat.Examples.Said Verif.Ulogcat.Examples.Fleet Verif.Tools Verif.Tools.Whole Verif.Tools.Examples.Cat Verif.Tools.Examples.Whole
  Verif.Tools.Getopt.Examples
open Verif.Tools.Getopt hiding look

/-- `ulogger one -pW --tag=boot`, and with ULOG_DEVICE `ulogger -t net -- -2` -/
def typed1 : Typed :=
  { words := [ascii "one", ascii "-pW", ascii "--tag=boot"], clock := fun i => (UInt32.ofNat (20 + i), 5), self := ascii "ulogger", pid := 77
    input := [], task := t1 }
def typed2 : Typed :=
  { words := [ascii "-t", ascii "net", ascii "--", ascii "-2"], clock := fun i => (UInt32.ofNat (15 + i), 5), self := ascii "ulogger", pid := 78
    input := [], task := t1 }

/-- `ulogger -x lost`, and with ULOG_DEVICE `ulogger no -h` -/
def typed3 : Typed := { typed1 with words := [ascii "-x", ascii "lost"], pid := 79 }
def typed4 : Typed := { typed1 with words := [ascii "no", ascii "-h"], pid := 80 }

def cmd1 : Cmd := typed1.with [.prio (ascii "W"), .tag (ascii "boot")] [ascii "one"]
def cmd2 : Cmd := typed2.with [.tag (ascii "net")] [ascii "-2"]

theorem line1 : LgLine true [.prio (ascii "W"), .tag (ascii "boot")] [ascii "one"] typed1.words := by
  have ht : Names lgGram (ascii "tag") ⟨ascii "tag", true, 116⟩ := (find_names lgReads.table (by decide +kernel) _).1 (by decide +kernel)
  refine ⟨by decide +kernel, ?_⟩
  refine .operand (by decide +kernel) ?_
  refine .word (ws := [(112, some (ascii "W"))]) (.letters (by decide +kernel) (.glued (by decide +kernel) (by decide +kernel))) ?_
  exact .word (ws := [(116, some (ascii "boot"))]) (.longIs ht rfl) .done

theorem line2 : LgLine true [.tag (ascii "net")] [ascii "-2"] typed2.words := by
  refine ⟨by decide +kernel, ?_⟩
  refine .pair (ws := []) (o := 116) (.letters (by decide +kernel) (.wants (by decide +kernel))) ?_
  exact .stop _

theorem line3 : ¬ ∃ opts args, LgLine true opts args typed3.words := (reads_refused lgReads _).1 (by decide +kernel)

theorem line4 : LgLine true [.help] [ascii "no"] typed4.words :=
  ⟨by decide +kernel, .operand (by decide +kernel) (.word (ws := [(104, none)]) (.letters (by decide +kernel) (.flag (by decide +kernel) .done)) .done)⟩

def steps (d : RLog) : List Step := if isMain d then [.said m1, .said m2, .typed typed3, .typed typed1] else [.typed typed2, .typed typed4]
def acts (d : RLog) : List Act := if isMain d then [.said m1, .said m2, .cmd typed3.silent, .cmd cmd1] else [.cmd cmd2, .cmd typed4.silent]
def says (c : Cmd) : List LgMsg := if c.pid = 77 then [(20, 5, ascii "one")] else if c.pid = 78 then [(15, 5, ascii "-2")] else []

theorem meant : ∀ d ∈ box.reg.devs, Meant true (steps d) (acts d) :=
  both (.cons (.said m1) (.cons (.said m2) (.cons (.refused line3) (.cons (.typed line1 (by decide +kernel)) .nil))))
    (.cons (.typed line2 (by decide +kernel)) (.cons (.help line4 (by decide +kernel)) .nil))

theorem says_none {t : Typed} : t.silent.Says [] :=
  .lines (cs := []) (by simp [Typed.silent]) rfl ⟨rfl, by simp, by simp⟩

theorem plain : ∀ d ∈ box.reg.devs, ∀ x ∈ acts d, x.Plain (box.prog d) says := by
  refine both ?_ ?_
  · intro x hx
    have hx : x ∈ [Act.said m1, .said m2, .cmd typed3.silent, .cmd cmd1] := hx
    simp only [List.mem_cons, List.not_mem_nil, or_false] at hx
    rcases hx with rfl | rfl | rfl | rfl
    · exact logs_plain 0 (by omega) m1 (by simp [logs])
    · exact logs_plain 0 (by omega) m2 (by simp [logs])
    · exact ⟨⟨⟨by decide, by decide⟩, by decide, by decide, by decide, by decide, by decide⟩, says_none⟩
    · exact ⟨⟨⟨by decide, by decide⟩, by decide, by decide, by decide, by decide, by decide⟩, .args (by decide) (by decide)⟩
  · intro x hx
    have hx : x ∈ [Act.cmd cmd2, .cmd typed4.silent] := hx
    simp only [List.mem_cons, List.not_mem_nil, or_false] at hx
    rcases hx with rfl | rfl
    · exact ⟨⟨⟨by decide, by decide⟩, by decide, by decide, by decide, by decide, by decide⟩, .args (by decide) (by decide)⟩
    · exact ⟨⟨⟨by decide, by decide⟩, by decide, by decide, by decide, by decide, by decide⟩, says_none⟩

/-- `C143_silent` -/
example : Act.voices progs says (.cmd typed3.silent) = [] := C143_silent progs says_none

/-- `ulogcat -ldt2 -v short` -/
def words : List Bytes := [ascii "-ldt2", ascii "-v", ascii "short"]
def catOs : List CatOpt := [.label, .dump, .tail (ascii "2"), .format (ascii "short")]

theorem wordsLine : CatLine true catOs [] words := by
  refine ⟨by decide +kernel, ?_⟩
  refine .word (ws := [(108, none), (100, none), (116, some (ascii "2"))]) (.letters (by decide +kernel)
    (.flag (by decide +kernel) (.flag (by decide +kernel) (.glued (by decide +kernel) (by decide +kernel))))) ?_
  exact .pair (ws := []) (o := 118) (.letters (by decide +kernel) (.wants (by decide +kernel))) .done

def shownLast : Bytes := ascii "---------------------------------------------------- beginning of /dev/ulog_flight\nU I net         : -2\n" ++
  ascii "---------------------------------------------------- beginning of /dev/ulog_main\nU W boot        : one\n"

theorem look_is : lookOf catOs look.ansi look.clock = look := by
  have h1 : fmtOf catOs = .short := by decide +kernel
  unfold lookOf
  rw [h1]
  rfl

def inTurn : List (Nat × Voice) := [(0, .prog m1), (1, .cmd cmd2 (15, 5, ascii "-2")), (0, .cmd cmd1 (20, 5, ascii "one"))]

abbrev V := voicesOf 2 (fun i => box.prog (nth [main1, flight1] i)) says fun i => acts (nth [main1, flight1] i)

theorem v0 : V 0 = [(0, .prog m1), (0, .cmd cmd1 (20, 5, ascii "one"))] := by
  show (((if m1.passes progs then [Voice.prog m1] else []) ++ ((if m2.passes progs then [Voice.prog m2] else []) ++ _)).map _) = _
  rw [if_pos (by decide +kernel), if_neg (by decide +kernel)]
  rfl

theorem v1 : V 1 = [(1, .cmd cmd2 (15, 5, ascii "-2"))] := rfl

theorem inTurn_ok : ByTurns (·.1) voiceTime 2 V inTurn := by
  have hf : firsts V 2 = [(0, .prog m1), (1, .cmd cmd2 (15, 5, ascii "-2"))] := by
    show (V 0).take 1 ++ ((V 1).take 1 ++ []) = _
    rw [v0, v1]
    rfl
  unfold ByTurns
  rw [hf]
  refine .cons [] _ [((1 : Nat), Voice.cmd cmd2 (15, 5, ascii "-2"))] _ _ (by simp) (by decide +kernel) ?_
  have e1 : rests V 0 = [(0, .cmd cmd1 (20, 5, ascii "one"))] := by unfold rests; rw [v0]; rfl
  have e2 : rests V 1 = [] := by unfold rests; rw [v1]; rfl
  have e5 : ∀ d, 2 ≤ d → rests V d = [] := fun d hd => by unfold rests V; rw [voicesOf_beyond d hd]; rfl
  generalize rests V = r at e1 e2 e5
  show Picked _ _ ([((1 : Nat), Voice.cmd cmd2 (15, 5, ascii "-2"))] ++ (r 0).take 1) (behind r 0) _
  rw [e1]
  refine .cons [] _ [((0 : Nat), Voice.cmd cmd1 (20, 5, ascii "one"))] _ _ (by simp) (by decide +kernel) ?_
  show Picked _ _ ([((0 : Nat), Voice.cmd cmd1 (20, 5, ascii "one"))] ++ (behind r 0 1).take 1) (behind (behind r 0) 1) _
  have e3 : behind r 0 1 = [] := by unfold behind; simpa using e2
  rw [e3]
  refine .cons [] _ [] _ _ (by simp) (by simp) ?_
  have e4 : behind (behind r 0) 1 0 = [] := by unfold behind; simp [e1]
  show Picked _ _ ([] ++ (behind (behind r 0) 1 0).take 1) _ _
  rw [e4]
  refine .nil _ fun d => ?_
  match d with
  | 0 => unfold behind; simp [e1]
  | 1 => unfold behind; simp [e2]
  | d + 2 => unfold behind; simp [e5 (d + 2) (by omega)]

theorem shownLast_ok : screenOf (fun i => pathOf (nth [main1, flight1] i)) (fun i v => v.lines (box.prog (nth [main1, flight1] i)) look) true []
    (Ulogcat.lastOf 2 inTurn) = shownLast := by decide +kernel

/-- `C143_session`, `C143_order`: four commands and two messages, and the bytes on the screen. -/
example : ∃ (sys : Nat → Sys) (tr : Nat → List (Op × Out)) (mark : Nat → Nat) (need : Nat), ∀ fuel, need ≤ fuel → ∃ all devs c t evs,
    catMain allMem (opening mark) clearW ((fleet 2 0 0 false (fun _ => canRender look) 1).onto .file
        (fun i => pathOf (nth [main1, flight1] i)) (fleetEntries 2 (fun _ => look) all) fun _ _ => [.took 6000]) 1 fuel
        ⟨fun i => opened (sys i) (tr i) (mark i), List.replicate 5248 170, []⟩ (catArgs true words) = .ended 0 devs c t evs ∧ t.bytes = shownLast := by
  obtain ⟨ops, sys, tr, mark, h1, h2⟩ := C143_session box_ok.toSound noJunk meant plain (both (by decide +kernel) (by decide +kernel))
    (both (by decide +kernel) (by decide +kernel)) wordsLine (mem := allMem) (not_stops (by decide +kernel)) (by decide) (by decide) (by decide)
    (fun _ _ => rfl) (chosen_both (by decide +kernel)) (T := 2) (by decide +kernel) (by decide) look.ansi look.clock
    (fun h => absurd h (by decide +kernel))
  obtain ⟨need, h3⟩ := h2 (opening_ok mark) clearW
  refine ⟨sys, tr, mark, need, fun fuel hf => ?_⟩
  obtain ⟨all, devs, c, t, evs, v, e1, _, _, _, e5, e6⟩ := h3 0 0 0 fuel hf (buf0 := List.replicate 5248 170) List.length_replicate
    (ans := fun _ _ => [.took 6000]) (fun _ _ => ⟨6000, rfl, by omega⟩)
  rw [look_is] at e1 e6
  have hcsv : decide (fmtOf catOs = .csv) = false := by decide +kernel
  rw [hcsv] at e1
  refine ⟨all, devs, c, t, evs, e1, e6.trans ?_⟩
  rw [(C143_order inTurn_ok).1 v e5]
  exact shownLast_ok

end Verif.Tools.Examples.Session
