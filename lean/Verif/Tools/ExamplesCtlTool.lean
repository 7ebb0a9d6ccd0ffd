import Verif.Tools.PropsCtlTool
import Verif.Tools.ExamplesCtl

/-!
# Examples for C104
-/
namespace Verif.Tools.Examples.CtlTool
open Verif Verif.Tools Verif.Libulog Verif.Tools.Examples

def world : ToolWorld := { pomp := fun _ => none, made := true, connectOk := true, newOk := true, encOk := true }

/-- C104_options: `ulogctl -C -l -t foo warn -p daemon`; a level that is not one; help. -/
example :
    let opts : List TOpt := [.color, .list, .tag (ascii "foo") (some (ascii "warn")), .proc (ascii "daemon")]
    opts.findSome? TOpt.ends = none ∧ wanted opts = some (.setTag (ascii "foo") 4) ∧
    wanted [.color, .list] = some .list ∧ wanted [.all (ascii "e"), .all (ascii "D")] = some (.setAll 7) ∧
    [TOpt.list, .tag (ascii "foo") (some (ascii "-l")), .help].findSome? TOpt.ends = some (-1) ∧
    [TOpt.list, .help, .bad].findSome? TOpt.ends = some 0 := by decide +kernel

/-- C104_status: no address; an error of the connection. -/
example : toolMain isort world [.list] [] [] = .exits (-1) [] [] ∧
    toolMain isort { world with connectOk := false } [.list] [ascii "unix:/run/x"] [] = .exits 0 [.refused, .hangup] [] ∧
    toolMain isort world [.list] [ascii "nonsense"] [] = .exits 0 [] [] := by decide +kernel

/-- C104_set, C104_main: `ulogctl -t foo D unix:/run/x`, both events in one group. -/
example : world.connectOk = true ∧ world.newOk = true ∧ world.encOk = true ∧
    [[CEv.connected true, .sendCb false]].flatten = [.connected true, .sendCb false] ∧
    toolMain isort world [.tag (ascii "foo") (some (ascii "D"))] [ascii "unix:/run/x"] [.group [.connected true, .sendCb false]] =
      .exits 0 [.dial, .accepted (.setTag (ascii "foo") 7), .send (.setTag (ascii "foo") 7), .status true, .hangup] [] := by
  decide +kernel

/-- C104_error -/
example : toolMain isort world [.all (ascii "D")] [ascii "unix:/run/x"] [.group [.connected true], .group [.disconnected]] =
      .exits 0 [.dial, .accepted (.setAll 7), .send (.setAll 7), .status false, .hangup] (ascii "Error occurred.\n") ∧
    toolMain isort world [.all (ascii "D")] [ascii "unix:/run/x"] [.signal] =
      .exits 0 [.dial, .accepted (.setAll 7), .status false, .hangup] (ascii "Error occurred.\n") := by decide +kernel

/-- C104_false_wait: no operation; connected, disconnected, the tag of another list. -/
example : (∀ g ∈ [[CEv.connected true], [.reply (.info (ascii "a") 3), .disconnected]], ∀ e ∈ g,
      e.pomp = true ∧ e ≠ .reply .listEnd) ∧ TOpts.none.request = none ∧
    toolMain isort world [.proc (ascii "d")] [] [.group [.connected true], .group [.reply (.info (ascii "a") 3), .disconnected]] =
      .waits [.dial, .hangup] [] := by decide +kernel

/-- C104_list: the process of `calls`; the answers in two groups. -/
def groups : List (List CEv) :=
  [[.connected true], [.sendCb false, .reply (.info (ascii "a") 6)], [.reply (.info (ascii "b") 3), .reply .listEnd]]

example : ∃ s tr, WRun names calls s tr ∧
    groups.flatten = .connected true :: [.sendCb false, .reply (.info (ascii "a") 6), .reply (.info (ascii "b") 3)] ++ [.reply .listEnd] ∧
    (answersIn [.sendCb false, .reply (.info (ascii "a") 6), .reply (.info (ascii "b") 3)]).map (fun t => Reply.info t.1 t.2) =
      (serve names bareWorld s .list).2.1 :=
  ⟨_, _, rfl, rfl, by decide +kernel⟩

example : toolMain isort world [.list] [ascii "unix:/run/x"] (groups.map .group) =
    .exits 0 [.dial, .accepted .list, .send .list, .status true, .info (ascii "a") 6, .info (ascii "b") 3, .hangup]
      (ascii "[I] a\n[E] b\n") := by decide +kernel

example : toolMain isort world [.color, .list] [ascii "unix:/run/x"] (groups.map .group) =
    .exits 0 [.dial, .accepted .list, .send .list, .status true, .info (ascii "a") 6, .info (ascii "b") 3, .hangup]
      (ascii "\x1b[00;94m[I] a\x1b[0m\n\x1b[00;91m[E] b\x1b[0m\n") := by decide +kernel

/-- C104_addr: an abstract socket; a path that leaves the storage. -/
example : toolAddr world TOpts.none [ascii "unix:@foo"] = some (some ([1, 0, 0] ++ ascii "foo")) ∧
    srvAddr (ascii "@foo") = some ([1, 0, 0] ++ ascii "foo") ∧
    toolMain isort world [.list] [ascii "unix:" ++ List.replicate 127 97] [] = .undef := by decide +kernel

end Verif.Tools.Examples.CtlTool
