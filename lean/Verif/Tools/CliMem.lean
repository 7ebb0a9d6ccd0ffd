import Verif.Tools.PropsCtlSrv

/-!
# The memory of the control client and server
(libulogctl/src/ulogctl_cli.c, ulogctl_srv.c:52-260)

The client of `Ctl` once more, now with the blocks of memory it holds: itself, its
context of libpomp, the pending message, the array of tags and the names of the tags.
A step gives the calls of the heap it makes. `realloc` takes a new block and gives the
old one back. A block is named by a number that was not used before.

A result `none` is a null pointer used as a name: by `strcmp` while sorting, or handed to
the callback `tag_info`. Any sort of two or more tags is taken to look at all of them.
-/
namespace Verif.Tools.CliMem
open Verif Verif.Libulog Verif.Tools

/-- Calls of the heap, and uses of a block. -/
inductive HOp
  | alloc (b : Nat)
  | free (b : Nat)
  | use (b : Nat)
  deriving DecidableEq, Repr

/-- `struct tag` (ulogctl_cli.c:40-44); `blk` is the block of the name, `none` for NULL. -/
structure MTag where
  blk : Option Nat
  name : Bytes
  level : Int
  deriving DecidableEq, Repr

/-- `struct ulogctl_cli` (ulogctl_cli.c:46-63) without the address. -/
structure MCli where
  self : Nat
  ctx : Nat
  st : CState
  msg : Option (Nat × Req)
  arr : Option Nat
  tags : List MTag
  stack : List Cont
  /-- the next block to be handed out -/
  next : Nat
  deriving DecidableEq, Repr

/-- Events: those of `Ctl` (there a tag is read and memory is found), and for a tag: it
cannot be read, so that the name stays NULL; no memory is found for the array. -/
inductive MEv
  | ev (e : CEv)
  | badInfo
  | lostInfo (name : Bytes) (level : Int)
  deriving DecidableEq, Repr

abbrev MRes := MCli × List COut × List HOp

/-- `pomp_msg_destroy(self->msg)`; a null pointer is refused by libpomp. -/
def dropMsg (m : Option (Nat × Req)) : List HOp :=
  match m with
  | none => []
  | some (b, _) => [.free b]

/-- `free(self->tags)` -/
def dropArr : Option Nat → List HOp
  | none => []
  | some a => [.free a]

/-- ulogctl_cli.c:356-378: up to the callback or to the end. -/
def mstop (c : MCli) : MRes :=
  if c.st = .idle then (c, [], [.use c.self])
  else if c.msg.isSome then ({ c with st := .idle, stack := .stopped :: c.stack }, [.status false], [.use c.self])
  else ({ c with st := .idle }, [.hangup], [.use c.self, .use c.ctx])

/-- The loop of ulogctl_cli.c:118-121 from tag `i` on. -/
def minfos (c : MCli) (i : Nat) (ops : List HOp) : Option MRes :=
  match c.tags[i]? with
  | none => some (c, [], ops)
  | some t =>
    match t.blk with
    | none => none
    | some b =>
      some ({ c with stack := .infos (i + 1) :: c.stack }, [.info t.name t.level], ops ++ c.arr.toList.map .use ++ [.use b])

/-- ulogctl_cli.c:380-435, 437-489, 491-547. The array is given back after the message is
made and before it is encoded (ulogctl_cli.c:514-517). -/
def mrequest (c : MCli) (r : Req) (newOk encOk sendOk : Bool) : MRes :=
  if c.st = .idle then (c, [.refused], [.use c.self])
  else if c.msg.isSome then (c, [.refused], [.use c.self])
  else if newOk = false then (c, [.refused], [.use c.self])
  else
    let b := c.next
    let pre := [.use c.self, .alloc b] ++ (if r = .list then dropArr c.arr else [])
    let c := if r = .list then { c with tags := [], arr := none } else c
    let c := { c with next := b + 1 }
    if encOk = false then (c, [.refused], pre ++ [.free b])
    else if c.st = .connected then
      if sendOk then ({ c with msg := some (b, r) }, [.send r, .accepted r], pre ++ [.use c.ctx, .use b])
      else (c, [.refused], pre ++ [.use c.ctx, .use b, .free b])
    else ({ c with msg := some (b, r) }, [.accepted r], pre)

/-- `decode_tag_info_msg` (ulogctl_cli.c:65-91) after the name was read. -/
def keepTag (c : MCli) (blk : Option Nat) (n : Bytes) (l : Int) : MCli × List HOp :=
  ({ c with tags := c.tags ++ [{ blk := blk, name := n, level := l }], arr := some c.next, next := c.next + 1 },
   dropArr c.arr ++ [.alloc c.next])

/-- `qsort` of ulogctl_cli.c:113-115: names are looked at if there are two tags. -/
def sortable (l : List MTag) : Bool := l.length ≤ 1 || l.all (·.blk.isSome)

/-- What the sort looks at. -/
def sortUses (c : MCli) : List HOp :=
  c.arr.toList.map .use ++ (if c.tags.length ≤ 1 then [] else (c.tags.filterMap (·.blk)).map .use)

/-- One event; `qs` is what `qsort` does. -/
def mstep (qs : List MTag → List MTag) (c : MCli) : MEv → Option MRes
  /- ulogctl_cli.c:335-354 -/
  | .ev (.start ok) =>
    if c.st ≠ .idle then some (c, [.refused], [.use c.self])
    else some ({ c with st := .connecting }, if ok then [.dial] else [.refused], [.use c.self, .use c.ctx])
  | .ev .stop => some (mstop c)
  | .ev (.request r a b d) => some (mrequest c r a b d)
  /- ulogctl_cli.c:143-177 -/
  | .ev (.connected sendOk) =>
    if c.st = .connecting then
      let c := { c with st := .connected }
      match c.msg with
      | none => some (c, [], [.use c.self])
      | some (b, r) =>
        if sendOk then some (c, [.send r], [.use c.self, .use c.ctx, .use b])
        else some ({ c with msg := none }, [], [.use c.self, .use c.ctx, .use b, .free b])
    else some (c, [], [.use c.self])
  | .ev .disconnected => some (mstop c)
  /- ulogctl_cli.c:211-244 -/
  | .ev (.sendCb _) =>
    match c.msg with
    | none => some (c, [], [.use c.self])
    | some (b, .list) => some (c, [], [.use c.self, .use b])
    | some (b, _) => some ({ c with stack := .sent :: c.stack }, [.status true], [.use c.self, .use b])
  /- ulogctl_cli.c:65-91 -/
  | .ev (.reply (.info n l)) =>
    let b := c.next
    let r := keepTag { c with next := b + 1 } (some b) n l
    some (r.1, [], [.alloc b, .use c.self] ++ r.2)
  /- ulogctl_cli.c:103-109 -/
  | .ev (.reply .listEnd) => some ({ c with stack := .listEnd :: c.stack }, [.status true], [.use c.self])
  | .ev .ret =>
    match c.stack with
    | [] => some (c, [], [])
    | .listEnd :: k =>
      if sortable c.tags then
        minfos { c with msg := none, tags := qs c.tags, stack := k } 0 ([.use c.self] ++ dropMsg c.msg ++ sortUses c)
      else none
    | .sent :: k => some ({ c with msg := none, stack := k }, [], [.use c.self] ++ dropMsg c.msg)
    | .stopped :: k => some ({ c with msg := none, stack := k }, [.hangup], [.use c.self] ++ dropMsg c.msg ++ [.use c.ctx])
    | .infos i :: k => minfos { c with stack := k } i [.use c.self]
  /- ulogctl_cli.c:76-78: the answer of `pomp_msg_read` is not looked at -/
  | .badInfo =>
    let r := keepTag c none [] 0
    some (r.1, [], [.use c.self] ++ r.2)
  /- ulogctl_cli.c:83-86: the name is not given back -/
  | .lostInfo _ _ => some ({ c with next := c.next + 1 }, [], [.alloc c.next, .use c.self])

def mrun (qs : List MTag → List MTag) : MCli → List MEv → Option MRes
  | c, [] => some (c, [], [])
  | c, e :: es =>
    match mstep qs c e with
    | none => none
    | some (c', o, h) =>
      match mrun qs c' es with
      | none => none
      | some (c'', o', h') => some (c'', o ++ o', h ++ h')

/-- The new client: block 0 is the client, block 1 its context. -/
def fresh : MCli :=
  { self := 0, ctx := 1, st := .idle, msg := none, arr := none, tags := [], stack := [], next := 2 }

/-- `ulogctl_cli_destroy` (ulogctl_cli.c:321-333); `res` is the answer of
`pomp_ctx_destroy`, which leaves the context if it is an error. -/
def mdestroy (c : MCli) (res : Int) : List HOp :=
  [.use c.self, if res < 0 then .use c.ctx else .free c.ctx, .free c.self]

/-- `ulogctl_cli_new` (ulogctl_cli.c:270-319): result, client, calls of the heap. `args`:
no pointer is NULL; `setRes`, `desRes`: answers of `pomp_ctx_set_send_cb` and, on the error
path, of `pomp_ctx_destroy`. `none`: memory outside the address is copied. -/
def mnew (args allocOk ctxOk : Bool) (setRes desRes : Int) (addr : Bytes) (len : Nat) : Option (Int × Option MCli × List HOp) :=
  if args = false then some (-22, none, [])
  else if allocOk = false then some (-12, none, [])
  else if ctxOk = false then some (-12, none, [.alloc 0, .use 0, .free 0])
  else if setRes < 0 then some (setRes, none, [.alloc 0, .alloc 1, .use 1] ++ mdestroy fresh desRes)
  else
    match copyAddr addr len with
    | none => none
    | some _ => some (0, some fresh, [.alloc 0, .alloc 1, .use 1])

/-! ## The server -/

/-- A message made, encoded and sent, and what of it succeeds. -/
structure Try where
  newOk : Bool
  encOk : Bool
  sendOk : Bool
  deriving DecidableEq, Repr

/-- `send_tag_info_cb`, `send_list_end_msg` (ulogctl_srv.c:108-193): the message is given back
on every path. -/
def tryOps (b : Nat) (t : Try) : Nat × List HOp :=
  if t.newOk = false then (b, [])
  else if t.encOk = false then (b + 1, [.alloc b, .free b])
  else (b + 1, [.alloc b, .use b, .free b])

def triesOps (b : Nat) : List Try → Nat × List HOp
  | [] => (b, [])
  | t :: ts =>
    let r := tryOps b t
    let q := triesOps r.1 ts
    (q.1, r.2 ++ q.2)

/-- Messages a server gets, with what becomes of its answers. -/
inductive SMsg
  /-- ulogctl_srv.c:53-74; if it cannot be read nothing is kept -/
  | setTag (readOk : Bool)
  /-- ulogctl_srv.c:87-106 -/
  | setAll
  /-- ulogctl_srv.c:195-219: one message for each tag, then the end -/
  | list (readOk : Bool) (tags : List Try) (last : Try)
  deriving DecidableEq, Repr

/-- `b` is the next block; the name read in ulogctl_srv.c:61-63 is never given back. -/
def smsg (b : Nat) : SMsg → Nat × List HOp
  | .setTag readOk => if readOk then (b + 1, [.alloc b, .use b]) else (b, [])
  | .setAll => (b, [])
  | .list readOk ts l => if readOk then triesOps b (ts ++ [l]) else (b, [])

def smsgs (b : Nat) : List SMsg → Nat × List HOp
  | [] => (b, [])
  | m :: ms =>
    let r := smsg b m
    let q := smsgs r.1 ms
    (q.1, r.2 ++ q.2)

end Verif.Tools.CliMem
