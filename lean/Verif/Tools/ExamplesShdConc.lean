import Verif.Tools.PropsShdConc

/-!
# Runs that meet the hypotheses of C125
-/
namespace Verif.Tools.ShdConc

/-- One thread sets up; another logs before; then two threads log at once, and `shd_write`
of the first logs itself. -/
def twoRun : List (Tid × Act) :=
  [(1, .log 4)] ++ initAll 0 ++
  [(1, .log 5), (2, .log 6), (2, .go 0), (2, .go 0), (2, .go 0), (2, .go 0), (2, .log 60), (2, .go 0), (2, .go 0), (2, .go 0),
   (2, .go 0), (2, .go 0), (2, .go 0), (1, .go 0), (1, .go 0), (2, .log 7), (1, .go 0), (1, .go 0), (1, .go 0)]

def twoTrace : List Ev :=
  [.elsewhere 1 4, .initBegin 0, .initEnd 0 0, .begin 1 ⟨5, true, false⟩, .begin 2 ⟨6, true, false⟩, .begin 2 ⟨60, true, true⟩, .done 2 ⟨60, true, true⟩ false,
   .write 2 ⟨6, true, false⟩ 1, .done 2 ⟨6, true, false⟩ true, .begin 2 ⟨7, true, false⟩, .write 1 ⟨5, true, false⟩ 2]

example : (run .start twoRun).map (fun s => (s.tr, s.sect, s.bad)) = some (twoTrace, [(2, ⟨6, true, false⟩, 1), (1, ⟨5, true, false⟩, 2)], false) := by decide +kernel
example : phase twoTrace = some .done := by decide
example : said 1 twoTrace = [⟨5, true, false⟩] ∧ said 2 twoTrace = [⟨6, true, false⟩, ⟨7, true, false⟩] := by decide
example : kept 2 [(2, ⟨6, true, false⟩, 1), (1, ⟨5, true, false⟩, 2)] = [⟨6, true, false⟩] := by decide
/-- C125_kept for thread 2: message 7 is still on its way. -/
example : (run .start twoRun).map (fun s => (s.stack 2, s.lock, left (s.stack 1))) = some ([.lock ⟨7, true, false⟩], some (1, 1), 2) := by decide +kernel
/-- C125_waits -/
example : ((run .start twoRun).bind fun s => step s 2 (.go 0)).isNone = true := by decide +kernel
/-- C125_free -/
example : ((run .start twoRun).bind fun s => solo s 1 [.go 0, .go 0]).map (·.lock) = some none := by decide +kernel
/-- C125_late, C125_inner -/
example : ready (twoTrace.take 3) = true ∧ opened 2 (twoTrace.take 5) = 1 ∧ opened 2 (twoTrace.take 4) = 0 := by decide
/-- C125_here -/
example : twoTrace = [] ++ .elsewhere 1 4 :: twoTrace.drop 1 ∧ ready [] = false := by decide

/-! Tests of the model -/

example : answer [0, 0, 0, 0] = 0 ∧ answer [17, 3, 0, 0] = -17 ∧ answer [0, 0, 22, 1] = -22 := by decide
example : (solo .start 3 [.init, .go 0, .go 11]).map (fun s => (s.tr, s.made, s.mutex, s.hooked)) = some ([.initBegin 3, .initEnd 3 (-11)], 1, false, false) := by decide +kernel
/-- A call of `ulog_shd_write` with no mutex cannot happen: nothing leads there. -/
example : (run .start [(0, .log 1), (1, .log 2)]).map (·.tr) = some [.elsewhere 0 1, .elsewhere 1 2] := by decide +kernel
/-- `ulog_shd_init` by two threads at once is outside of the claim. -/
example : ((run .start [(0, .init), (1, .init)]).map (fun s => phase s.tr)) = some none := by decide +kernel

end Verif.Tools.ShdConc
