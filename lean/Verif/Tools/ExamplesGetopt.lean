import Verif.Tools.PropsGetopt

/-! # Lines of arguments meeting the hypotheses of C141 -/
namespace Verif.Tools.Getopt.Examples
open Verif Verif.Ulogcat Verif.Tools Verif.Tools.Getopt

instance (a : Bytes) : Decidable (Operand a) := by unfold Operand; infer_instance

/-- `ulogcat -ldt5 main -b net -v short -- -k` -/
def catWords : List Bytes := [ascii "-ldt5", ascii "main", ascii "-b", ascii "net", ascii "-v", ascii "short", ascii "--", ascii "-k"]

def catOpts : List CatOpt := [.label, .dump, .tail (ascii "5"), .buffer (ascii "net"), .format (ascii "short")]

theorem catLine : CatLine true catOpts [ascii "main", ascii "-k"] catWords := by
  refine ⟨by decide +kernel, ?_⟩
  refine .word (ws := [(108, none), (100, none), (116, some (ascii "5"))]) (.letters (by decide +kernel)
    (.flag (by decide +kernel) (.flag (by decide +kernel) (.glued (by decide +kernel) (by decide +kernel))))) ?_
  refine .operand (by decide +kernel) ?_
  refine .pair (ws := []) (o := 98) (.letters (by decide +kernel) (.wants (by decide +kernel))) ?_
  refine .pair (ws := []) (o := 118) (.letters (by decide +kernel) (.wants (by decide +kernel))) ?_
  exact .stop _

/-- `C141_line`, `C141_cat` -/
example : catArgs true catWords = catOpts := C141_cat catLine

/-- With a library that does not move operands, the log is not chosen. -/
example : CatLine false (catOpts.take 3) (catWords.drop 1) catWords ∧
    catArgs false catWords = [.label, .dump, .tail (ascii "5")] := by
  have : CatLine false (catOpts.take 3) (catWords.drop 1) catWords := by
    refine ⟨by decide +kernel, ?_⟩
    refine .word (ws := [(108, none), (100, none), (116, some (ascii "5"))]) (.letters (by decide +kernel)
      (.flag (by decide +kernel) (.flag (by decide +kernel) (.glued (by decide +kernel) (by decide +kernel))))) ?_
    exact .first (by decide +kernel) _
  exact ⟨this, C141_cat this⟩

/-- `C141_same`: `ulogcat -dk --` -/
example : Line catGram false [(100, none), (107, none)] [] [ascii "-dk", ascii "--"] :=
  .word (ws := [(100, none), (107, none)]) (.letters (by decide +kernel) (.flag (by decide +kernel) (.flag (by decide +kernel) .done))) (.stop [])

/-- `C141_refused`, `C141_cat_refused`: `ulogcat -d -t` and `ulogcat --dump` -/
example : (¬ ∃ opts ops, CatLine true opts ops [ascii "-d", ascii "-t"]) ∧ ¬ ∃ opts ops, CatLine true opts ops [ascii "--dump"] :=
  ⟨(reads_refused catReads _).1 (by decide +kernel), (reads_refused catReads _).1 (by decide +kernel)⟩

/-- `C141_false_name`, `C141_false_behind`: also one dash is an operand. -/
example : Operand (ascii "main") ∧ Operand (ascii "-") ∧ Operand [] ∧ ¬ Operand (ascii "-d") ∧
    catArgs true [ascii "main", ascii "-d"] = [.dump] ∧ catArgs false [ascii "main", ascii "-d"] = [] := by decide +kernel

/-- `ulogger up --pri W --tag=net --std -si42 -- -5` -/
def lgWords : List Bytes := [ascii "up", ascii "--pri", ascii "W", ascii "--tag=net", ascii "--std", ascii "-si42", ascii "--", ascii "-5"]

def lgOpts : List LgOpt := [.prio (ascii "W"), .tag (ascii "net"), .stderr, .stderr, .pid (ascii "42")]

theorem lgLine : LgLine true lgOpts [ascii "up", ascii "-5"] lgWords := by
  have hp : Names lgGram (ascii "pri") ⟨ascii "prio", true, 112⟩ := (find_names lgReads.table (by decide +kernel) _).1 (by decide +kernel)
  have ht : Names lgGram (ascii "tag") ⟨ascii "tag", true, 116⟩ := (find_names lgReads.table (by decide +kernel) _).1 (by decide +kernel)
  have hs : Names lgGram (ascii "std") ⟨ascii "stderr", false, 115⟩ := (find_names lgReads.table (by decide +kernel) _).1 (by decide +kernel)
  refine ⟨by decide +kernel, ?_⟩
  refine .operand (by decide +kernel) ?_
  refine .pair (ws := []) (o := 112) (.longWants (by decide +kernel) hp rfl) ?_
  refine .word (ws := [(116, some (ascii "net"))]) (.longIs ht rfl) ?_
  refine .word (ws := [(115, none)]) (.long (by decide +kernel) hs rfl) ?_
  refine .word (ws := [(115, none), (105, some (ascii "42"))]) (.letters (by decide +kernel) (.flag (by decide +kernel)
    (.glued (by decide +kernel) (by decide +kernel)))) ?_
  exact .stop _

/-- `C141_logger`, `C141_logged`: both messages are written. -/
example : logArgs true lgWords = (lgOpts, [ascii "up", ascii "-5"]) ∧ .help ∉ lgOpts ∧ LgOpt.time ∉ lgOpts ∧
    (whoOf (ascii "ulogger") 7 lgOpts).pid = 42 ∧
    (ulogger { dev := some 3, clock := fun i => some (UInt32.ofNat (100 + i), 5), write := fun _ => none } (ascii "ulogger") 7
      (logArgs true lgWords).1 (logArgs true lgWords).2 []).1.length = 4 :=
  ⟨C141_logger lgLine, by decide +kernel, by decide +kernel, by decide +kernel, by decide +kernel⟩

/-- `C141_logger_refused`: `--p` begins two names; `--time` takes no argument. -/
example : (¬ ∃ opts ops, LgLine true opts ops [ascii "--p", ascii "W", ascii "hello"]) ∧
    (¬ ∃ opts ops, LgLine true opts ops [ascii "--time=5", ascii "hello"]) ∧
    ¬ ∃ opts ops, LgLine true opts ops [ascii "hello", ascii "--tag"] :=
  ⟨(reads_refused lgReads _).1 (by decide +kernel), (reads_refused lgReads _).1 (by decide +kernel),
    (reads_refused lgReads _).1 (by decide +kernel)⟩

/-- `C141_false_dash`: `ulogger -5` -/
example : (53 : UInt8) ∉ lgGram.flags ∧ (53 : UInt8) ∉ lgGram.args ∧ (53 : UInt8) ≠ 45 := by decide +kernel

/-- `C141_shd`: `shdlogd --per 7 -s x --pname=n -d d` -/
example : Line shdGram true ([.period (ascii "7"), .sect (ascii "x"), .pname (ascii "n"), .device (ascii "d")].map shdSpell) []
    [ascii "--per", ascii "7", ascii "-sx", ascii "--pname=n", ascii "-d", ascii "d"] := by
  have hp : Names shdGram (ascii "per") ⟨ascii "period", true, 112⟩ := (find_names shdTable (by decide +kernel) _).1 (by decide +kernel)
  have hn : Names shdGram (ascii "pname") ⟨ascii "pname", true, 110⟩ := (find_names shdTable (by decide +kernel) _).1 (by decide +kernel)
  refine .pair (ws := []) (o := 112) (.longWants (by decide +kernel) hp rfl) ?_
  refine .word (ws := [(115, some (ascii "x"))]) (.letters (by decide +kernel) (.glued (by decide +kernel) (by decide +kernel))) ?_
  refine .word (ws := [(110, some (ascii "n"))]) (.longIs hn rfl) ?_
  exact .pair (ws := []) (o := 100) (.letters (by decide +kernel) (.wants (by decide +kernel))) .done

/-- `C141_shd_refused`: `shdlogd --p 7` -/
example : ¬ ∃ os ops, Line shdGram true os ops [ascii "--p", ascii "7"] := (C141_refused shdTable _).1 (by decide +kernel)

end Verif.Tools.Getopt.Examples
