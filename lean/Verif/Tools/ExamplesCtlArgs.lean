import Verif.Tools.PropsCtlArgs
import Verif.Tools.ExamplesCtlTool
import Verif.Tools.ExamplesGetopt

/-! # Lines of ulogctl meeting the hypotheses of C142 -/
namespace Verif.Tools.Getopt.Examples
open Verif Verif.Ulogcat Verif.Tools Verif.Tools.Getopt
open Verif.Tools.Examples (isort)
open Verif.Tools.Examples.CtlTool (world)

/-- `ulogctl unix:/run/x -Clt foo warn --ta=net E -aD -- -x` -/
def ctlWords : List Bytes :=
  [ascii "unix:/run/x", ascii "-Clt", ascii "foo", ascii "warn", ascii "--ta=net", ascii "E", ascii "-aD", ascii "--", ascii "-x"]

def ctlOpts : List TOpt :=
  [.color, .list, .tag (ascii "foo") (some (ascii "warn")), .tag (ascii "net") (some (ascii "E")), .all (ascii "D")]

theorem ctlLine : CtlLine true ctlOpts [ascii "unix:/run/x", ascii "-x"] ctlWords := by
  have ht : Names ctlGram (ascii "ta") ⟨ascii "tag", true, 116⟩ := (find_names ctlTable (by decide +kernel) _).1 (by decide +kernel)
  refine .operand (by decide +kernel) ?_
  refine .tagPair (ts := [.color, .list]) (ws := [(67, none), (108, none)]) (.cons .color (.cons .list .nil))
    (.letters (by decide +kernel) (.flag (by decide +kernel) (.flag (by decide +kernel) (.wants (by decide +kernel)))))
    (by decide +kernel) ?_
  refine .tag (ts := []) (ws := []) (v := ascii "net") .nil (.longIs ht rfl) (by decide +kernel) ?_
  refine .word (ts := [.all (ascii "D")]) (ws := [(97, some (ascii "D"))]) (.cons (.all _) .nil)
    (.letters (by decide +kernel) (.glued (by decide +kernel) (by decide +kernel))) ?_
  exact .stop _

/-- `C142_line`, `C142_request`: the last tag gets the last level. -/
example : ctlArgs true ctlWords = (ctlOpts, [ascii "unix:/run/x", ascii "-x"]) ∧ world.made = true ∧
    ctlOpts.findSome? TOpt.ends = none ∧ ctlOpts.reverse.findSome? TOpt.procName = none ∧
    wanted ctlOpts = some (.setTag (ascii "net") 7) ∧ (ascii "/run/x").length ≤ 126 ∧
    toolMain isort world (ctlArgs true ctlWords).1 (ctlArgs true ctlWords).2 [.group [.connected true, .sendCb false]] =
      .exits 0 [.dial, .accepted (.setTag (ascii "net") 7), .send (.setTag (ascii "net") 7), .status true, .hangup] [] :=
  ⟨C142_line ctlLine, by decide +kernel, by decide +kernel, by decide +kernel, by decide +kernel, by decide +kernel, by decide +kernel⟩

/-- `pair`: `ulogctl --proc daemon -l` -/
example : CtlLine false [.proc (ascii "daemon"), .list] [] [ascii "--proc", ascii "daemon", ascii "-l"] := by
  have hp : Names ctlGram (ascii "proc") ⟨ascii "process", true, 112⟩ := (find_names ctlTable (by decide +kernel) _).1 (by decide +kernel)
  refine .pair (ts := []) (t := .proc (ascii "daemon")) (ws := []) (o := 112) .nil (.proc _) (.longWants (by decide +kernel) hp rfl) ?_
  exact .word (ts := [.list]) (ws := [(108, none)]) (.cons .list .nil)
    (.letters (by decide +kernel) (.flag (by decide +kernel) .done)) .done

theorem none_of {perm : Bool} {args : List Bytes} (h : TOpt.bad ∈ (ctlArgs perm args).1 ∨ ∃ v, TOpt.tag v none ∈ (ctlArgs perm args).1) :
    ¬ ∃ opts ops, CtlLine perm opts ops args := by
  rintro ⟨opts, ops, hl⟩
  rw [C142_line hl] at h
  have hP : ∀ {ts ws}, Plains ts ws → TOpt.bad ∉ ts ∧ ∀ v, TOpt.tag v none ∉ ts := by
    intro ts ws hp
    induction hp with
    | nil => simp
    | cons h _ ih => cases h <;> simpa using ih
  have hN : TOpt.bad ∉ opts ∧ ∀ v, TOpt.tag v none ∉ opts := by
    clear h
    induction hl with
    | done | stop _ | first _ _ => simp
    | operand _ _ ih => exact ih
    | word hp _ _ ih => simpa [hP hp] using ih
    | pair hp ht _ _ ih => cases ht <;> simpa [hP hp] using ih
    | tag hp _ _ _ ih => simpa [hP hp] using ih
    | tagPair hp _ _ _ ih => simpa [hP hp] using ih
  rcases h with h | ⟨v, h⟩
  · exact hN.1 h
  · exact hN.2 v h

/-- `C142_refused`: `ulogctl -t foo`, and `ulogctl -lx unix:/run/x` -/
example : (¬ ∃ opts ops, CtlLine true opts ops [ascii "-t", ascii "foo"]) ∧
    ¬ ∃ opts ops, CtlLine true opts ops [ascii "-lx", ascii "unix:/run/x"] :=
  ⟨none_of (.inr ⟨ascii "foo", by decide +kernel⟩), none_of (.inl (by decide +kernel))⟩

/-- `C142_false_behind`: `ulogctl unix:/run/x -l` makes no request. -/
example : Operand (ascii "unix:/run/x") ∧
    wanted (ctlArgs false [ascii "unix:/run/x", ascii "-l"]).1 = none ∧
    wanted (ctlArgs true [ascii "unix:/run/x", ascii "-l"]).1 = some .list := by decide +kernel

end Verif.Tools.Getopt.Examples
