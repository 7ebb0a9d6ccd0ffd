import Verif.Tools.PropsRemote

/-!
# The server of libulogctl as an object, and the example server
(libulogctl/src/ulogctl_srv.c:268-415, libulogctl/examples/ulogctl-srv.c)

What libpomp answers is part of the calls. The address is in `Ctl`; here any. Options
come as `getopt_long` returns them.
-/
namespace Verif.Tools.CtlSrv
open Verif Verif.Kernel Verif.Libulog Verif.Ulogcat Verif.Tools Verif.Tools.Remote

/-- Calls of libpomp and of the heap, with what they return. -/
inductive PEv
  | loopNew (ok : Bool)
  | timerNew (ok : Bool)
  | alloc (ok : Bool)
  | ctxNew (ok : Bool)
  | listen (res : Int)
  | ctxStop (res : Int)
  /-- `ctx` says whether there is a context or a null pointer is passed -/
  | ctxDestroy (ctx : Bool) (res : Int)
  | free
  | periodic (res : Int)
  | tick
  | timerClear (res : Int)
  | timerDestroy (res : Int)
  | loopDestroy (res : Int)
  deriving DecidableEq, Repr

/-- `struct ulogctl_srv` (ulogctl_srv.c:41-50) without the address; the context is not
NULL once the structure is handed out. -/
structure Srv where
  started : Bool
  deriving DecidableEq, Repr

/-- `ulogctl_srv_new` with an address, ulogctl_srv.c:268-302, and on its error path
`ulogctl_srv_destroy`: the result, what is stored through `ret_ctr`, the calls. `loop` is
not NULL; `destroyNull` is the answer of `pomp_ctx_destroy(NULL)`. -/
def srvNew (loop allocOk ctxOk : Bool) (destroyNull : Int) : Int × Option Srv × List PEv :=
  if loop = false then (-22, none, [])
  else if allocOk = false then (-12, none, [.alloc false])
  else if ctxOk = false then (0, none, [.alloc true, .ctxNew false, .ctxDestroy false destroyNull, .free])
  else (0, some { started := false }, [.alloc true, .ctxNew true])

/-- `ulogctl_srv_start`, ulogctl_srv.c:380-398; `res` is the answer of
`pomp_ctx_listen`. -/
def srvStart (res : Int) : Option Srv → Int × Option Srv × List PEv
  | none => (-22, none, [])
  | some s =>
    if s.started then (-16, some s, [])
    else if res < 0 then (res, some s, [.listen res])
    else (0, some { s with started := true }, [.listen res])

/-- `ulogctl_srv_stop`, ulogctl_srv.c:400-415. -/
def srvStop (res : Int) : Option Srv → Int × Option Srv × List PEv
  | none => (-22, none, [])
  | some s =>
    if s.started = false then (0, some s, [])
    else (res, some { s with started := false }, [.ctxStop res])

/-- `ulogctl_srv_destroy`, ulogctl_srv.c:366-378. -/
def srvDestroy (res : Int) : Option Srv → Int × List PEv
  | none => (-22, [])
  | some _ => (0, [.ctxDestroy true res, .free])

/-- A call of the user of the server, with the answer of libpomp. -/
inductive SCall
  | start (res : Int)
  | stop (res : Int)
  deriving DecidableEq, Repr

def srvCall (s : Option Srv) : SCall → Int × Option Srv × List PEv
  | .start r => srvStart r s
  | .stop r => srvStop r s

/-- Calls one after the other: the results, the server, the calls of libpomp. -/
def srvCalls : Option Srv → List SCall → List Int × Option Srv × List PEv
  | s, [] => ([], s, [])
  | s, c :: cs =>
    let r := srvCall s c
    let t := srvCalls r.2.1 cs
    (r.1 :: t.1, t.2.1, r.2.2 ++ t.2.2)

/-! ## The example -/

/-- ulogctl-srv.c:115-121, 137-156 -/
inductive EOpt
  | help
  | inet (port : Int)
  | unix (sock : Bytes)
  | process
  | bad
  deriving DecidableEq, Repr

/-- The local variables of `main`, ulogctl-srv.c:108-113. -/
structure EOpts where
  port : Int
  sock : Option Bytes
  process : Bool
  deriving DecidableEq, Repr

/-- ulogctl-srv.c:128-157; an error is the status of `exit`. -/
def exOptions : List EOpt → EOpts → Except Int EOpts
  | [], o => .ok o
  | .help :: _, _ => .error 0
  | .inet p :: l, o => exOptions l { o with port := p }
  | .unix s :: l, o => exOptions l { o with sock := some s }
  | .process :: l, o => exOptions l { o with process := true }
  | .bad :: _, _ => .error (-1)

/-- Which server is made, ulogctl-srv.c:163-188. -/
inductive Kind
  | unix (sock : Bytes)
  | inet (port : Int)
  | process
  deriving DecidableEq, Repr

def EOpts.kind (o : EOpts) : Option Kind :=
  match o.sock with
  | some s => some (.unix s)
  | none => if o.port ≠ -1 then some (.inet o.port) else if o.process then some .process else none

/-- What libpomp, the heap and `prctl` answer. -/
structure EWorld where
  loop : Bool
  timer : Bool
  /-- `prctl(PR_GET_NAME)`: an error number, or none -/
  name : Option Nat
  alloc : Bool
  ctx : Bool
  destroyNull : Int
  listen : Int
  periodic : Int
  /-- how often the timer fires before a signal ends the loop -/
  ticks : Nat
  timerClear : Int
  ctxStop : Int
  ctxDestroy : Int
  timerDestroy : Int
  loopDestroy : Int

/-- `ulogctl_srv_new_unix`, `_inet`, `_unix_proc`: ulogctl_srv.c:304-364. -/
def newKind (w : EWorld) : Kind → Int × Option Srv × List PEv
  | .process =>
    match w.name with
    | some e => (-(e : Int), none, [])
    | none => srvNew w.loop w.alloc w.ctx w.destroyNull
  | _ => srvNew w.loop w.alloc w.ctx w.destroyNull

/-- From ulogctl-srv.c:163 to the end of the loop, 205: the server and the calls. -/
def exBody (w : EWorld) (o : EOpts) : Option Srv × List PEv :=
  match o.kind with
  | none => (none, [])
  | some k =>
    let r := newKind w k
    if r.1 < 0 then (r.2.1, r.2.2)
    else
      let t := srvStart w.listen r.2.1
      if t.1 < 0 then (t.2.1, r.2.2 ++ t.2.2)
      else if w.periodic < 0 then (t.2.1, r.2.2 ++ t.2.2 ++ [.periodic w.periodic])
      else (t.2.1, r.2.2 ++ t.2.2 ++ [.periodic w.periodic] ++ List.replicate w.ticks .tick)

/-- ulogctl-srv.c:215-223 -/
def exClean (w : EWorld) : Option Srv → List PEv
  | none => []
  | some s => (srvStop w.ctxStop (some s)).2.2 ++ (srvDestroy w.ctxDestroy (srvStop w.ctxStop (some s)).2.1).2

/-- `main`, ulogctl-srv.c:106-238, without the options: the status and the calls. -/
def exMain (w : EWorld) (o : EOpts) : Int × List PEv :=
  let b := exBody w o
  (0, [.loopNew w.loop, .timerNew w.timer] ++ b.2 ++
    (if w.timer then [.timerClear w.timerClear] else []) ++
    exClean w b.1 ++
    (if w.timer then [.timerDestroy w.timerDestroy] else []) ++
    (if w.loop then [.loopDestroy w.loopDestroy] else []))

def exRun (w : EWorld) (l : List EOpt) : Int × List PEv :=
  match exOptions l { port := -1, sock := none, process := false } with
  | .error e => (e, [])
  | .ok o => exMain w o

/-- `timer_cb`, ulogctl-srv.c:80-92: the messages when the counter is `n`; `c` is the tag
`ulogctl_srv_app`. -/
def tickSays (p : Nat) (t : Task) (c : Cid) (n : Nat) : List Said :=
  [(7, "log debug "), (6, "log info "), (5, "log normal "), (4, "log warning "), (3, "log error "), (2, "log critical ")].map fun x =>
    { prog := p, task := t, tag := c, prio := x.1, text := ascii x.2 ++ decNat n, whole := false }

/-- The messages of the timer while the counter goes from `n` on. -/
def ticksSay (p : Nat) (t : Task) (c : Cid) : Nat → Nat → List Said
  | _, 0 => []
  | n, k + 1 => tickSays p t c n ++ ticksSay p t c (n + 1) k

end Verif.Tools.CtlSrv
