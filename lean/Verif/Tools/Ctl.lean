import Verif.Libulog.Write

/-!
# Remote control of levels (libulogctl/src/ulogctl_cli.c, ulogctl_srv.c)

The client is a machine whose steps end where a callback of the user begins: inside
a callback the user may call any function of the library, so what the library does
after a callback waits on a stack. libpomp is not modelled; what it answers and when
it calls back is part of the events. Messages on one connection arrive in order.
-/
namespace Verif.Tools
open Verif Verif.Libulog

/-- Messages from client to server (ulogctl_priv.h:79-114). -/
inductive Req
  | setTag (name : Bytes) (level : Int)
  | setAll (level : Int)
  | list
  deriving DecidableEq, Repr

/-- Messages from server to client. -/
inductive Reply
  | info (name : Bytes) (level : Int)
  | listEnd
  deriving DecidableEq, Repr

/-- ulogctl_cli.c:34-38 -/
inductive CState
  | idle
  | connecting
  | connected
  deriving DecidableEq, Repr

/-- What the library does when a callback returns. -/
inductive Cont
  /-- ulogctl_cli.c:110-122 -/
  | listEnd
  /-- ulogctl_cli.c:226-227, 231-232 -/
  | sent
  /-- ulogctl_cli.c:369-377 -/
  | stopped
  /-- the loop of ulogctl_cli.c:118-121 from tag `i` on -/
  | infos (i : Nat)
  deriving DecidableEq, Repr

structure Cli where
  st : CState
  msg : Option Req
  tags : List (Bytes × Int)
  stack : List Cont
  deriving DecidableEq, Repr

def Cli.new : Cli := { st := .idle, msg := none, tags := [], stack := [] }

/-- What the client does to its environment. -/
inductive COut
  /-- a request function returns 0 -/
  | accepted (r : Req)
  /-- a function returns an error -/
  | refused
  /-- `request_status(REQUEST_DONE)` or `request_status(REQUEST_ERROR)` -/
  | status (done : Bool)
  /-- `tag_info` -/
  | info (name : Bytes) (level : Int)
  /-- `pomp_ctx_send_msg` succeeds -/
  | send (r : Req)
  /-- `pomp_ctx_connect` succeeds -/
  | dial
  /-- `pomp_ctx_stop` -/
  | hangup
  deriving DecidableEq, Repr

/-- Calls of the user, calls by libpomp, and the return of a callback. -/
inductive CEv
  | start (connectOk : Bool)
  | stop
  /-- the message is allocated, encoded and (if connected) sent -/
  | request (r : Req) (newOk encOk sendOk : Bool)
  | connected (sendOk : Bool)
  | disconnected
  /-- `aborted`: the status says that the message was not sent -/
  | sendCb (aborted : Bool)
  | reply (m : Reply)
  | ret
  deriving DecidableEq, Repr

/-- `ulogctl_cli_stop` (ulogctl_cli.c:356-378) -/
def Cli.stop (c : Cli) : Cli × List COut :=
  if c.st = .idle then (c, [])
  else if c.msg.isSome then ({ c with st := .idle, stack := .stopped :: c.stack }, [.status false])
  else ({ c with st := .idle }, [.hangup])

/-- The loop of `decode_list_end_msg` (ulogctl_cli.c:118-121) from tag `i` on. -/
def Cli.infos (c : Cli) (i : Nat) : Cli × List COut :=
  match c.tags[i]? with
  | none => (c, [])
  | some t => ({ c with stack := .infos (i + 1) :: c.stack }, [.info t.1 t.2])

/-- `ulogctl_cli_set_tag_level`, `..._set_all_level`, `..._list`
(ulogctl_cli.c:380-435, 437-489, 491-547) -/
def Cli.request (c : Cli) (r : Req) (newOk encOk sendOk : Bool) : Cli × List COut :=
  if c.st = .idle then (c, [.refused])
  else if c.msg.isSome then (c, [.refused])
  else if newOk = false then (c, [.refused])
  else
    let c := if r = .list then { c with tags := [] } else c
    if encOk = false then (c, [.refused])
    else if c.st = .connected then
      if sendOk then ({ c with msg := some r }, [.send r, .accepted r]) else (c, [.refused])
    else ({ c with msg := some r }, [.accepted r])

/-- `qs` is the `qsort` of ulogctl_cli.c:113-115. -/
def cstep (qs : List (Bytes × Int) → List (Bytes × Int)) (c : Cli) : CEv → Cli × List COut
  /- ulogctl_cli.c:335-354: after an error the state stays "connecting" -/
  | .start ok =>
    if c.st ≠ .idle then (c, [.refused])
    else ({ c with st := .connecting }, if ok then [.dial] else [.refused])
  | .stop => c.stop
  | .request r a b d => c.request r a b d
  /- ulogctl_cli.c:143-177: a message that cannot be sent is forgotten -/
  | .connected sendOk =>
    if c.st = .connecting then
      let c := { c with st := .connected }
      match c.msg with
      | none => (c, [])
      | some r => if sendOk then (c, [.send r]) else ({ c with msg := none }, [])
    else (c, [])
  /- ulogctl_cli.c:197-202 -/
  | .disconnected => c.stop
  /- ulogctl_cli.c:211-244: the status is ignored -/
  | .sendCb _ =>
    match c.msg with
    | none => (c, [])
    | some .list => (c, [])
    | some _ => ({ c with stack := .sent :: c.stack }, [.status true])
  /- ulogctl_cli.c:65-91 (memory is found) -/
  | .reply (.info n l) => ({ c with tags := c.tags ++ [(n, l)] }, [])
  /- ulogctl_cli.c:103-109 -/
  | .reply .listEnd => ({ c with stack := .listEnd :: c.stack }, [.status true])
  | .ret =>
    match c.stack with
    | [] => (c, [])
    | .listEnd :: k => { c with msg := none, tags := qs c.tags, stack := k : Cli }.infos 0
    | .sent :: k => ({ c with msg := none, stack := k }, [])
    | .stopped :: k => ({ c with msg := none, stack := k }, [.hangup])
    | .infos i :: k => { c with stack := k : Cli }.infos i

def crun (qs : List (Bytes × Int) → List (Bytes × Int)) : Cli → List CEv → Cli × List COut
  | c, [] => (c, [])
  | c, e :: es => ((crun qs (cstep qs c e).1 es).1, (cstep qs c e).2 ++ (crun qs (cstep qs c e).1 es).2)

/-- `set_level_cb` for the listed tags (ulogctl_srv.c:77-85). -/
def setLevels (nm : Cid → Bytes) (w : World) (s : Lib) (l : Int) : List Cid → Lib
  | [] => s
  | c :: cs => setLevels nm w (setLevel nm w s c l).1 l cs

/-- The server receives a request (ulogctl_srv.c:52-73, 86-106, 108-219): the state of
its process, the answers to this client, and whether the end of the list is sent to all
clients (`pomp_ctx_send_msg`). The messages logged by the server are in `Remote.doReq`. -/
def serve (nm : Cid → Bytes) (w : World) (s : Lib) : Req → Lib × List Reply × Bool
  | .setTag name l =>
    match s.list.find? fun c => nm c == name with
    | some c => ((setLevel nm w s c l).1, [], false)
    | none => (s, [], false)
  | .setAll l => (setLevels nm w s l (s.list.filter (· != 0)), [], false)
  | .list => (s, (s.list.filter (· != 0)).map (fun c => .info (nm c) (s.level c)), true)

/-- A connection: whose it is, whether the client still has it open, what is under way
in both directions. -/
structure Conn where
  owner : Nat
  live : Bool
  up : List Req
  down : List Reply
  deriving DecidableEq, Repr

/-- A server, its clients and all connections ever made. -/
structure Net where
  lib : Lib
  cli : Nat → Cli
  conns : List Conn

inductive NEv
  /-- a call by the user of client `i`, the return of its callback, or a notification
  of libpomp that carries no message -/
  | client (i : Nat) (e : CEv)
  /-- connection to the server of client `i` -/
  | connect (i : Nat) (sendOk : Bool)
  /-- the server handles the next request of connection `k` -/
  | serve (k : Nat)
  /-- the client of connection `k` gets the next answer -/
  | deliver (k : Nat)

/-- The effect of outputs of client `i` on the connections: a message goes out on the
open connection of the client, `hangup` closes it. -/
def netOut (i : Nat) (cs : List Conn) : COut → List Conn
  | .send r => cs.map fun k => if k.owner = i ∧ k.live then { k with up := k.up ++ [r] } else k
  | .hangup => cs.map fun k => if k.owner = i then { k with live := false } else k
  | _ => cs

def setCli (f : Nat → Cli) (i : Nat) (c : Cli) : Nat → Cli := fun j => if j = i then c else f j

/-- One step of the system, with the outputs of a client. -/
def nstep (qs : List (Bytes × Int) → List (Bytes × Int)) (nm : Cid → Bytes) (w : World) (n : Net) : NEv → Net × List (Nat × COut)
  | .client i e =>
    let (c, o) := cstep qs (n.cli i) e
    ({ n with cli := setCli n.cli i c, conns := o.foldl (netOut i) n.conns }, o.map (i, ·))
  | .connect i sendOk =>
    let conns := n.conns ++ [{ owner := i, live := true, up := [], down := [] }]
    let (c, o) := cstep qs (n.cli i) (.connected sendOk)
    ({ n with cli := setCli n.cli i c, conns := o.foldl (netOut i) conns }, o.map (i, ·))
  | .serve k =>
    match n.conns[k]? with
    | some { up := r :: up, owner, live, down } =>
      let (lib, answers, all) := serve nm w n.lib r
      let conns := n.conns.set k { owner, live, up, down := down ++ answers }
      ({ n with lib, conns := if all then conns.map fun c => { c with down := c.down ++ [.listEnd] } else conns }, [])
    | _ => (n, [])
  | .deliver k =>
    match n.conns[k]? with
    | some { up, owner, live := true, down := m :: down } =>
      let (c, o) := cstep qs (n.cli owner) (.reply m)
      ({ n with cli := setCli n.cli owner c, conns := o.foldl (netOut owner) (n.conns.set k { owner, live := true, up, down }) }, o.map (owner, ·))
    | _ => (n, [])

def nrun (qs : List (Bytes × Int) → List (Bytes × Int)) (nm : Cid → Bytes) (w : World) : Net → List NEv → Net × List (Nat × COut)
  | n, [] => (n, [])
  | n, e :: es =>
    let r := nstep qs nm w n e
    ((nrun qs nm w r.1 es).1, r.2 ++ (nrun qs nm w r.1 es).2)

/-! ## Addresses of sockets -/

/-- `sizeof(sun_path)`, `offsetof(struct sockaddr_un, sun_path)`,
`sizeof(struct sockaddr_storage)` on Linux -/
def sunPath : Nat := 108
def sunOff : Nat := 2
def storage : Nat := 128

/-- AF_UNIX in native (little-endian) order -/
def afUnix : Bytes := [1, 0]

/-- What `memcpy(&ulogctl->addr, addr, addrlen)` copies (ulogctl_srv.c:293-294,
ulogctl_cli.c:308-309): undefined when it reads past the `sockaddr_un` on the
caller's stack or writes past the storage. -/
def copyAddr (a : Bytes) (len : Nat) : Option Bytes :=
  if len ≤ a.length ∧ len ≤ storage then some (a.take len) else none

def pad (n : Nat) (b : Bytes) : Bytes := b ++ List.replicate (n - b.length) 0

/-- `ulogctl_srv_new_unix` (ulogctl_srv.c:319-338), `sock` without its NUL. -/
def srvAddr (sock : Bytes) : Option Bytes :=
  let path := pad sunPath (sock.take (sunPath - 1))
  let path := if path.head? = some 64 then path.set 0 0 else path
  copyAddr (afUnix ++ path) (sunOff + sock.length)

/-- `ulogctl_srv_new_unix_proc` (ulogctl_srv.c:340-364), the process name without NUL
(at most 16 bytes). The buffer for the name of the socket has 50 bytes. -/
def srvProcAddr (proc : Bytes) : Option Bytes := srvAddr ((ascii "@ulogctl_" ++ proc.take 16).take 49)

/-- `ulogctl_cli_new_proc` (ulogctl_cli.c:246-268) -/
def cliAddr (proc : Bytes) : Option Bytes :=
  let full := ascii "@ulogctl_" ++ proc
  let path := (pad sunPath (full.take (sunPath - 1))).set 0 0
  copyAddr (afUnix ++ path) (full.length + sunOff)

end Verif.Tools
