import Verif.Tools.PropsShd

/-!
# Concrete records for the shared-memory logs
-/
namespace Verif.Tools.Examples
open Verif Verif.Ulogcat Verif.Tools Verif.Libulog

def stale : Bytes := List.replicate 256 27

def rtos : RawEntry :=
  { pid := 0, tid := 0, sec := 0, nsec := 0, euid := 0, prio := 0, pname := ascii "rtos" ++ [0], tname := [], tag := [], message := none }

def sent (msg : Bytes) : Option RawEntry :=
  (shdPack stale 4 (some (ascii "worker" ++ [0] ++ ascii "junk")) 77 (ascii "net" ++ [0]) msg 9).bind fun b => fillRaw rtos 0 b 3 5

/-- C42: hypotheses and result for a short message. -/
example : stale.length = 256 ∧ (cstr ((ascii "worker" ++ [0] ++ ascii "junk").take 15)).length + 1 + ((ascii "net").length + 1) + ((ascii "link up").length + 1) ≤ 256 := by
  decide +kernel
example : NoNul (ascii "net") ∧ NoNul (ascii "link up") ∧ (ascii "link up").head? ≠ some 27 ∧ NoNul (ascii "rtos") := by
  refine ⟨?_, ?_, by decide, ?_⟩ <;> unfold NoNul <;> decide
example : sent (ascii "link up" ++ [0]) =
    some { rtos with tid := 77, sec := 3, nsec := 5, prio := 4, tname := ascii "worker" ++ [0], tag := ascii "net" ++ [0],
                     message := some (ascii "link up" ++ [0]) } := by decide +kernel

/-- C42_noname -/
example : ((shdPack stale 4 none 77 (ascii "net" ++ [0]) (ascii "up" ++ [0]) 9).bind fun b => fillRaw rtos 0 b 3 5) =
    some { rtos with tid := 0, sec := 3, nsec := 5, prio := 4, tname := [], tag := ascii "net" ++ [0], message := some (ascii "up" ++ [0]) } := by decide +kernel

/-- C42: a message that does not fit ends with a NUL. -/
example : (sent (List.replicate 300 65 ++ [0])).map (·.message) = some (some (List.replicate 244 65 ++ [0])) := by decide +kernel

/-- C42: the daemon looks at the byte after the tag even if the message is empty; here
it is stale, but too short for a colour. -/
example : (sent []).map (·.message) = some (some []) := by decide +kernel

/-- C69: a blue message; a cyan one comes out yellow. -/
example : (sent ([27] ++ ascii "[0;34msky" ++ [0])).map (fun r => (r.prio, r.message)) = some (4 + 256 * 0x0000FF, some (ascii "sky" ++ [0])) := by
  decide +kernel
example : (sent ([27] ++ ascii "[0;36msea" ++ [0])).map (·.prio) = (sent ([27] ++ ascii "[0;33msun" ++ [0])).map (·.prio) := by decide +kernel

/-- C42_false_escape: two bytes of the text are lost. -/
example : (sent ([27] ++ ascii "[31mhello" ++ [0])).map (·.message) = some (some (ascii "llo" ++ [0])) := by decide +kernel

/-- C43: four records arrive; five were lost, then none, then 40000. -/
example : Gaps 65530 [65536, 65537, 105538] := ⟨by decide, by decide, by decide, by decide, by decide, by decide, trivial⟩
example : losses (idx 65530) ([65536, 65537, 105538].map idx) = [.lost 5, .none, .many] := by decide +kernel

end Verif.Tools.Examples
