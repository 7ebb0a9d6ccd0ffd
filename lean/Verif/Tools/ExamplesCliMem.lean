import Verif.Tools.PropsCliMem

/-!
# C134 on concrete clients and servers
-/
namespace Verif.Tools.CliMem
open Verif Verif.Libulog Verif.Tools

/-- Sorting by names. -/
def byName (l : List MTag) : List MTag := l.mergeSort fun a b => decide (a.name ≤ b.name)

example (l : List MTag) : (byName l).Perm l := List.mergeSort_perm _ _

/-- The sort of `Ctl` that belongs to it. -/
example (l : List MTag) : (byName l).map pair = (l.map pair).mergeSort fun a b => decide (a.1 ≤ b.1) :=
  List.map_mergeSort fun _ _ _ _ => rfl

/-- A client lists two tags twice, sets a level and is stopped while a third list is asked for. -/
def busy : List CEv :=
  [.start true, .request .list true true true, .connected true, .sendCb false,
   .reply (.info [98] 6), .reply (.info [97] 7), .reply .listEnd, .ret, .ret, .ret,
   .request .list true true true, .reply (.info [98] 6), .reply (.info [97] 7), .reply .listEnd, .ret, .ret, .ret,
   .request (.setTag [97] 3) true true true, .sendCb false, .ret,
   .request .list true false true, .request .list true true false, .request .list false true true,
   .request .list true true true, .reply (.info [98] 6), .stop, .ret]

example : MEv.badInfo ∉ busy.map .ev := by decide

/-- It leaves the five names and the array. -/
example : ((mrun id fresh (busy.map .ev)).bind fun r => heap [] ([.alloc 0, .alloc 1, .use 1] ++ r.2.2 ++ mdestroy r.1 0)) =
    some [17, 16, 10, 8, 5, 3] := by decide +kernel

example : (busy.map MEv.ev).countP MEv.named = 5 := by decide

example : ((mrun id fresh (busy.map .ev)).map fun r => (r.1.tags.length, r.1.msg, r.1.st, r.1.stack)) = some (1, none, .idle, []) := by decide +kernel

/-- What the user is told. -/
example : ((mrun id fresh (busy.map .ev)).map fun r => r.2.1) =
    some [.dial, .accepted .list, .send .list, .status true, .info [98] 6, .info [97] 7,
      .send .list, .accepted .list, .status true, .info [98] 6, .info [97] 7,
      .send (.setTag [97] 3), .accepted (.setTag [97] 3), .status true, .refused, .refused, .refused,
      .send .list, .accepted .list, .status false, .hangup] := by decide +kernel

example : line false (crun id Cli.new busy).2 = some false := by decide +kernel

/-- Taken away with a request pending the message stays as well. -/
example : ((mrun id fresh [.ev (.start true), .ev (.request .list true true true)]).bind fun r =>
    heap [] ([.alloc 0, .alloc 1, .use 1] ++ r.2.2 ++ mdestroy r.1 (-16))) = some [2, 1] := by decide +kernel

/-- A name without room in the array is kept too. -/
example : ((mrun id fresh [.ev (.start true), .lostInfo [97] 3]).bind fun r =>
    heap [] ([.alloc 0, .alloc 1, .use 1] ++ r.2.2 ++ mdestroy r.1 0)) = some [2] := by decide +kernel

example : mnew true true true 0 0 [1, 0, 0, 97] 4 = some (0, some fresh, [.alloc 0, .alloc 1, .use 1]) := by decide
example : mnew true true true 0 0 [1, 0, 0, 97] 5 = none := by decide
example : (mnew true true true (-22) 0 [] 0).bind (fun r => heap [] r.2.2) = some [] := by decide
example : (mnew true true true (-22) (-16) [] 0).bind (fun r => heap [] r.2.2) = some [1] := by decide

/-- A server that lists two tags, one message of which cannot be encoded, and sets two. -/
example : heap [0, 1] (smsgs 2 [.setTag true, .list true [⟨true, true, true⟩, ⟨true, false, true⟩] ⟨true, true, false⟩, .setAll, .setTag false, .setTag true]).2 =
    some [6, 2, 0, 1] := by decide

/-- A client inside the callback of a stop. -/
example : ((mrun id fresh [.ev (.start true), .ev (.request .list true true true), .ev .stop]).map fun r => r.1.stack) = some [.stopped] := by decide +kernel
example : ((mrun id fresh [.ev (.start true), .ev (.request .list true true true), .ev .stop]).bind fun r =>
    (mstep id r.1 (.ev .ret)).bind fun s => heap [] ([.alloc 0, .alloc 1, .use 1] ++ r.2.2 ++ mdestroy r.1 0 ++ s.2.2)) = none := by decide +kernel

/-- C134_list: two tags, of which one message cannot be made, and the end. -/
example : made (smsg 4 (.list true [⟨true, true, true⟩, ⟨false, true, true⟩] ⟨true, true, true⟩)).2 = [4, 5] := by decide
example : made (smsg 4 (.list false [⟨true, true, true⟩] ⟨true, true, true⟩)).2 = [] := by decide

/-- C134_answers: three answers, of which one cannot be made and one not be encoded. -/
example : triesOps 5 [⟨true, true, true⟩, ⟨false, true, true⟩, ⟨true, false, true⟩, ⟨true, true, false⟩] =
    (8, [.alloc 5, .use 5, .free 5, .alloc 6, .free 6, .alloc 7, .use 7, .free 7]) := by decide

/-- C134_one: a tag with a name is shown, one without is not. -/
example : ((mrun id fresh [.ev (.start true), .ev (.request .list true true true), .ev (.reply (.info [97] 3)), .ev (.reply .listEnd), .ev .ret]).map fun r =>
    (r.1.tags.length, r.2.1.getLast?)) = some (1, some (.info [97] 3)) := by decide +kernel
example : (mrun id fresh [.ev (.start true), .ev (.request .list true true true), .badInfo, .ev (.reply .listEnd)]).isSome = true ∧
    (mrun id fresh [.ev (.start true), .ev (.request .list true true true), .badInfo, .ev (.reply .listEnd), .ev .ret]).isSome = false := by decide +kernel

end Verif.Tools.CliMem
