import Verif.Tools.PyLog
import Verif.Ulogcat.PropsSaid

/-!
# Python programs set up for libulog (ulogpy/ulog.py:290-386)

`setup_logging`, the records of the program's loggers and the exceptions that nobody
catches, in a process that may use libulog from C as well. Text is bytes (`str` encoded).
The formatter is the default one. Handlers other than `ULogHandler`, `logging.disable`
and loggers that do not propagate are not modelled.
-/
namespace Verif.Tools.PySet
open Verif Verif.Libulog Verif.Kernel

/-- The tag that `emit` makes for a record (ulog.py:315-320), gone when `emit` is done. -/
def tmpTag : Cid := 1

/-- The tag of the `i`-th handler (ulog.py:297-304). -/
def master (i : Nat) : Cid := 2 * i + 2

/-- What the interpreter knows. -/
structure Interp where
  /-- handlers of the root logger, all `ULogHandler` -/
  handlers : Nat
  /-- level of the root logger; `WARNING` in a new interpreter -/
  root : Nat
  /-- names of the threads (`comm` of the kernel) -/
  comm : UInt32 → Bytes

/-- Where an exception ends that nobody catches. -/
inductive Place
  /-- the main thread: `sys.excepthook` -/
  | main
  /-- another thread: `threading.excepthook`, which is left as it is -/
  | thread
  /-- callbacks from C, finalisers: `sys.unraisablehook`. What the hook raises is
  printed and dropped, so its `sys.exit` has no effect. -/
  | unraisable
  deriving DecidableEq, Repr

inductive PyOp
  /-- `setup_logging(name)` -/
  | setup (name : Bytes)
  /-- a record; `own` is the level of its logger or of the nearest parent that has one,
  the root logger excepted -/
  | record (own : Option Nat) (level : Nat) (tag msg : Bytes)
  /-- an exception and its traceback as text -/
  | uncaught (at_ : Place) (keyboard : Bool) (trace : Bytes)
  /-- the thread starts another one -/
  | start (child : UInt32)
  deriving DecidableEq, Repr

/-- A thread does something. The clock gives the time of each line a handler sends. -/
structure Act where
  tid : UInt32
  op : PyOp
  euid : UInt32
  clock : Nat → Nat → UInt32 × UInt32

inductive PyRes
  | done
  /-- an exception of the handler: the level has no priority -/
  | keyError
  | exit (status : Nat)
  /-- the traceback on stderr, nothing else -/
  | traceback
  deriving DecidableEq, Repr

/-- A call of `ulog_log_str` by a handler. -/
structure Call where
  handler : Nat
  tag : Bytes
  prio : UInt32
  text : Bytes
  task : Task

/-- One digit of an escape. -/
def hexDigit (n : Nat) : UInt8 := if n < 10 then UInt8.ofNat (48 + n) else UInt8.ofNat (87 + n)

/-- How `repr` shows a byte between quotes `q`. -/
def reprByte (q b : UInt8) : Bytes :=
  if b = q ∨ b = 92 then [92, b]
  else if b = 9 then ascii "\\t"
  else if b = 10 then ascii "\\n"
  else if b = 13 then ascii "\\r"
  else if b < 32 ∨ 127 ≤ b then ascii "\\x" ++ [hexDigit (b.toNat / 16), hexDigit (b.toNat % 16)]
  else [b]

/-- `"%s" % bytes`, that is `repr`. -/
def pyRepr (s : Bytes) : Bytes :=
  let q : UInt8 := if 39 ∈ s ∧ 34 ∉ s then 34 else 39
  98 :: q :: s.flatMap (reprByte q) ++ [q]

/-- `prctl(PR_SET_NAME)` of the kernel. -/
def setName (name : Bytes) : Bytes := (cstr name).take 15

/-- The thread as the driver sees it while it sends the `i`-th line of a handler. -/
def taskOf (pid : UInt32) (p : Interp) (a : Act) (h i : Nat) : Task :=
  { pid, tid := a.tid, sec := (a.clock h i).1, nsec := (a.clock h i).2, euid := a.euid, pcomm := p.comm pid, tcomm := p.comm a.tid }

/-- `ULogHandler.emit` for each handler (ulog.py:307-330). The record of a level without
priority is an exception in the first handler. -/
def emitAll (pid : UInt32) (p : Interp) (a : Act) (level : Nat) (tag msg : Bytes) : List Call × PyRes :=
  if p.handlers = 0 then ([], .done)
  else
    match pyEmit level msg with
    | none => ([], .keyError)
    | some ls => ((List.range p.handlers).flatMap fun h => ls.zipIdx.map fun l =>
        { handler := h, tag, prio := l.1.1, text := l.1.2, task := taskOf pid p a h l.2 }, .done)

/-- A record given to a logger: `isEnabledFor`, then the handlers of the root logger. -/
def logRecord (pid : UInt32) (p : Interp) (a : Act) (own : Option Nat) (level : Nat) (tag msg : Bytes) : List Call × PyRes :=
  if level < own.getD p.root then ([], .done) else emitAll pid p a level tag msg

/-- `handle_exception`, ulog.py:353-360; `status` is what becomes of its `sys.exit(1)`. -/
def handleException (pid : UInt32) (p : Interp) (a : Act) (keyboard : Bool) (trace : Bytes) (status : PyRes) : List Call × PyRes :=
  if keyboard then ([], .traceback)
  else
    match logRecord pid p a none 40 (ascii "root") (ascii "Uncaught exception" ++ [10] ++ trace) with
    | (cs, .keyError) => (cs, .keyError)
    | (cs, _) => (cs, status)

/-- What a thread does: the new state, the handler made, the calls, the result. Without
`setup_logging` exceptions are shown as usual and records go to no handler. -/
def act (getenv : Bytes → Option Bytes) (pid : UInt32) (p : Interp) (a : Act) : Interp × Option Nat × List Call × PyRes :=
  match a.op with
  | .setup name =>
    -- ulog.py:343-348
    let p1 := { p with handlers := p.handlers + 1, root := if getenv (ascii "ULOG_LEVEL") = some (ascii "D") then 10 else 20 }
    -- ulog.py:371-384
    if name = [] then (p1, some p.handlers, [], .done)
    else
      let p2 := { p1 with comm := fun t => if t = a.tid then setName name else p.comm t }
      if 15 < name.length then
        let (cs, r) := logRecord pid p2 a none 30 (ascii "root")
          (ascii "Truncating process name " ++ pyRepr name ++ ascii " -> " ++ pyRepr (name.take 15))
        (p2, some p.handlers, cs, r)
      else (p2, some p.handlers, [], .done)
  | .record own level tag msg => let (cs, r) := logRecord pid p a own level tag msg; (p, none, cs, r)
  | .uncaught place keyboard trace =>
    if p.handlers = 0 then (p, none, [], .traceback)
    else
      match place with
      | .main => let (cs, r) := handleException pid p a keyboard trace (.exit 1); (p, none, cs, r)
      | .thread => (p, none, [], .traceback)
      | .unraisable => let (cs, r) := handleException pid p a keyboard trace .done; (p, none, cs, r)
  | .start child => ({ p with comm := fun t => if t = child then p.comm a.tid else p.comm t }, none, [], .done)

/-! ## The library in the same process -/

/-- One call of `ulog_log_str` with the temporary tag, which has the level of the tag of
the handler. -/
def callLib (nm : Cid → Bytes) (w : World) (s : Lib) (c : Call) : Except WFault (Lib × List Ev) := do
  let (s', _, e) ← wstep (fun x => if x = tmpTag then c.tag else nm x) w
    { s with level := fun x => if x = tmpTag then s.level (master c.handler) else s.level x } (.str c.prio tmpTag c.text)
  .ok ({ s' with level := fun x => if x = tmpTag then s.level tmpTag else s'.level x }, e)

/-- The calls of an action, with the task that makes each. -/
def callAll (nm : Cid → Bytes) (w : World) : Lib → List Call → Except WFault (Lib × List (Task × List Ev))
  | s, [] => .ok (s, [])
  | s, c :: cs => do
    let (s, e) ← callLib nm w s c
    let (s, es) ← callAll nm w s cs
    .ok (s, (c.task, e) :: es)

/-- `ULogHandler.__init__`: `ulog_init_cookie` (ulog.py:297-305). -/
def newHandler (nm : Cid → Bytes) (w : World) (s : Lib) : Option Nat → Lib
  | none => s
  | some i => (initCookie nm w s (master i)).1

end Verif.Tools.PySet
