import Verif.Libulog.Write

/-!
# libulog/ulog_write.c, the writer under several threads

The fields `writer`, `writer2`, `fd` and `device` of `ctrl` and the descriptors of the
process, under any interleaving. Each access to a field and each system call is one step;
memory is sequentially consistent. `writer` is read without the lock, as are `writer2` and
`fd` by the write functions. The environment stays as it is. The rest of the program opens
and closes descriptors of its own, and installs only write functions of its own. The check
of the tag's level is left out (see Conc.lean): the messages here are those that pass it.
A write may be interrupted any number of times.

The trace (newest first) and `dirty` are not part of the program; nothing reads them.
-/
namespace Verif.Libulog.ConcW
open Verif Verif.Libulog

abbrev Tid := Nat

/-- A message: which, and whether it is binary. -/
structure Msg where
  id : Nat
  bin : Bool
  deriving DecidableEq, Repr

/-- What a descriptor refers to: a log device, or something else. -/
inductive Target
  | dev (path : Bytes)
  | other (k : Nat)
  deriving DecidableEq, Repr

/-- `ULOG_STDERR`, `ULOG_STDERR_COLOR` are set; `ULOG_DEVICE`. -/
structure Envir where
  stderr : Bool
  color : Bool
  dev : Option Bytes

/-- ulog_write.c:175-186 -/
def Envir.path (E : Envir) (device : Option Bytes) : Bytes :=
  match device, E.dev with
  | some d, _ => devPath d
  | none, some p => devPath p
  | none, none => ascii "/dev/ulog_main"

/-- What `__ctrl_init` is called for: a message with `n` copies to be printed afterwards, or
`ulog_get_write_func`. -/
inductive For
  | msg (m : Msg) (n : Nat)
  | get
  deriving DecidableEq, Repr

/-- Place in ulog_write.c, with the local variables. -/
inductive Pc
  | idle
  /-- 435, 454, 464: `ctrl.writer` is read and called -/
  | start (m : Msg)
  /-- in function `f` -/
  | run (f : Wf) (m : Msg) (n : Nat)
  /-- 101: the call of `writev`, `ctrl.fd` has been read -/
  | write (fd : Option Nat) (m : Msg) (n : Nat)
  /-- 116-129, with `n` copies to be printed -/
  | after (m : Msg) (n : Nat)
  /-- 218 -/
  | iLock (m : Msg) (n : Nat)
  /-- 220 -/
  | iCheck (m : Msg) (n : Nat)
  /-- 187-193 -/
  | iOpen (k : For)
  /-- 205 -/
  | iW2 (base : Wf) (k : For)
  /-- 211 -/
  | iW (f : Wf) (k : For)
  /-- 223 -/
  | iUnlock (m : Msg) (n : Nat)
  /-- 225: `ctrl.writer` is read and called -/
  | again (m : Msg) (n : Nat)
  /-- 317 -/
  | dLock (name : Bytes)
  /-- 319-326 -/
  | dStore (name : Bytes)
  /-- 328 -/
  | dTest
  /-- 330 -/
  | dFd
  /-- 331 -/
  | dClose (n : Nat)
  /-- 332 -/
  | dMinus
  /-- 334 -/
  | dInit
  /-- 337 -/
  | dUnlock
  /-- 235 -/
  | sLock (f : Nat)
  /-- 239 -/
  | sW2 (f : Nat)
  /-- 248 -/
  | sW (g : Wf)
  /-- 250 -/
  | sUnlock
  /-- 258 -/
  | gLock
  /-- 260 -/
  | gCheck
  /-- 263-266 -/
  | gRead
  /-- 268 -/
  | gUnlock (f : Option Wf)
  /-- a call of a null pointer -/
  | crash
  deriving DecidableEq

inductive Ev
  /-- the message is given to `ctrl.writer` -/
  | begin (t : Tid) (m : Msg)
  /-- `writev`: what the descriptor refers to, if it is open; whether a change of the
  device overlaps the call -/
  | wrote (t : Tid) (m : Msg) (to : Option Target) (dirty : Bool)
  /-- function `f` of the program was called -/
  | custom (t : Tid) (m : Msg) (f : Nat)
  /-- the writer that does nothing was called -/
  | null (t : Tid) (m : Msg)
  /-- the copy was printed to stderr -/
  | copy (t : Tid) (m : Msg)
  /-- the call is about to return -/
  | done (t : Tid) (m : Msg)
  | opened (path : Bytes) (n : Nat)
  | openFailed (path : Bytes)
  | closed (n : Nat)
  /-- the name of the device was stored; none if there was no memory -/
  | device (name : Option Bytes)
  /-- `ctrl.writer` became `__writer_init` again -/
  | reset
  /-- `ctrl.writer` or what the wrapper calls was set by the program -/
  | installed (f : Wf)
  | got (t : Tid) (f : Option Wf)
  deriving DecidableEq

structure State where
  lock : Option Tid
  fd : Option Nat
  writer : Wf
  writer2 : Option Wf
  device : Option Bytes
  files : Nat → Option Target
  pc : Tid → Pc
  dirty : Tid → Bool
  tr : List Ev

/-- ulog_write.c:49-71; the descriptors that the program has open are its own. -/
def State.start (own : Nat → Option Nat) : State :=
  { lock := none, fd := none, writer := .init, writer2 := none, device := none, files := fun n => (own n).map .other
    pc := fun _ => .idle, dirty := fun _ => false, tr := [] }

inductive Choice
  | go
  | log (m : Msg)
  | setDevice (name : Bytes)
  | setWriter (f : Nat)
  | getWriter
  /-- what `open` and the check of the node give -/
  | opens (n : Option Nat)
  /-- whether `strdup` has memory -/
  | memory (ok : Bool)
  /-- `writev` gives `EINTR` -/
  | interrupted
  /-- the rest of the program opens a descriptor, or closes one of its own -/
  | otherOpen (n k : Nat)
  | otherClose (n : Nat)

def State.at (s : State) (t : Tid) (p : Pc) : State := { s with pc := fun u => if u = t then p else s.pc u }

def State.ev (s : State) (e : Ev) : State := { s with tr := e :: s.tr }

def State.setFile (s : State) (n : Nat) (x : Option Target) : State := { s with files := fun i => if i = n then x else s.files i }

/-- `ulog_set_log_device` holds the lock. -/
def Pc.changing : Pc → Bool
  | .dStore _ | .dTest | .dFd | .dClose _ | .dMinus | .dInit | .dUnlock => true
  | _ => false

def State.changing (s : State) : Bool :=
  match s.lock with
  | none => false
  | some u => (s.pc u).changing

/-- One step of thread `t`; none if it is not possible. -/
def step (E : Envir) (t : Tid) (ch : Choice) (s : State) : Option State :=
  match s.pc t, ch with
  | .idle, .log m => some ((({ s with dirty := fun u => if u = t then s.changing else s.dirty u } : State).at t (.start m)).ev (.begin t m))
  | .idle, .setDevice d => if d.length < 21 then some (s.at t (.dLock d)) else none
  | .idle, .setWriter f => some (s.at t (.sLock f))
  | .idle, .getWriter => some (s.at t .gLock)
  | .idle, .otherOpen n k => if s.files n = none then some (s.setFile n (some (.other k))) else none
  | .idle, .otherClose n =>
    match s.files n with
    | some (.other _) => some (s.setFile n none)
    | _ => none
  | .start m, .go => some (s.at t (.run s.writer m 0))
  | .run .null m n, .go => some ((s.at t (.after m n)).ev (.null t m))
  | .run (.custom f) m n, .go => some ((s.at t (.after m n)).ev (.custom t m f))
  | .run .kernel m n, .go => some (s.at t (.write s.fd m n))
  | .run .init m n, .go => some (s.at t (.iLock m n))
  | .run (.wrap _) m n, .go =>
    match s.writer2 with
    | none => some (s.at t .crash)
    | some g => some (s.at t (.run g m (n + 1)))
  | .write fd m n, .go => some ((s.at t (.after m n)).ev (.wrote t m (fd.bind s.files) (s.dirty t)))
  | .write _ m n, .interrupted => some (s.at t (.run .kernel m n))
  | .after m 0, .go => some ((s.at t .idle).ev (.done t m))
  | .after m (n + 1), .go => some (if m.bin then s.at t (.after m n) else (s.at t (.after m n)).ev (.copy t m))
  | .iLock m n, .go => if s.lock = none then some (({ s with lock := some t } : State).at t (.iCheck m n)) else none
  | .iCheck m n, .go => some (s.at t (if s.writer = .init then .iOpen (.msg m n) else .iUnlock m n))
  | .iOpen k, .opens none =>
    some ((({ s with fd := none } : State).at t (.iW2 .null k)).ev (.openFailed (E.path s.device)))
  | .iOpen k, .opens (some n) =>
    if s.files n = none then
      some (((({ s with fd := some n } : State).setFile n (some (.dev (E.path s.device)))).at t
        (if E.stderr then .iW2 .kernel k else .iW .kernel k)).ev (.opened (E.path s.device) n))
    else none
  | .iW2 base k, .go => some (({ s with writer2 := some base } : State).at t (.iW (.wrap E.color) k))
  | .iW f k, .go =>
    some (({ s with writer := f } : State).at t (match k with | .msg m n => .iUnlock m n | .get => .gRead))
  | .iUnlock m n, .go => some (({ s with lock := none } : State).at t (.again m n))
  | .again m n, .go => some (s.at t (.run s.writer m n))
  | .dLock d, .go => if s.lock = none then some (({ s with lock := some t, dirty := fun _ => true } : State).at t (.dStore d)) else none
  | .dStore d, .memory true => some ((({ s with device := some d } : State).at t .dTest).ev (.device (some d)))
  | .dStore _, .memory false => some ((({ s with device := none } : State).at t .dUnlock).ev (.device none))
  | .dTest, .go => some (s.at t (if s.writer = .init then .dUnlock else .dFd))
  | .dFd, .go =>
    match s.fd with
    | some (n + 1) => some (s.at t (.dClose (n + 1)))
    | _ => some (s.at t .dInit)
  | .dClose n, .go => some (((s.setFile n none).at t .dMinus).ev (.closed n))
  | .dMinus, .go => some (({ s with fd := none } : State).at t .dInit)
  | .dInit, .go => some ((({ s with writer := .init } : State).at t .dUnlock).ev .reset)
  | .dUnlock, .go => some (({ s with lock := none } : State).at t .idle)
  | .sLock f, .go =>
    if s.lock = none then some (({ s with lock := some t } : State).at t (if E.stderr then .sW2 f else .sW (.custom f))) else none
  | .sW2 f, .go => some ((({ s with writer2 := some (.custom f) } : State).at t (.sW (.wrap E.color))).ev (.installed (.custom f)))
  | .sW g, .go => some ((({ s with writer := g } : State).at t .sUnlock).ev (.installed g))
  | .sUnlock, .go => some (({ s with lock := none } : State).at t .idle)
  | .gLock, .go => if s.lock = none then some (({ s with lock := some t } : State).at t .gCheck) else none
  | .gCheck, .go => some (s.at t (if s.writer = .init then .iOpen .get else .gRead))
  | .gRead, .go => some (s.at t (.gUnlock (if E.stderr then s.writer2 else some s.writer)))
  | .gUnlock f, .go => some ((({ s with lock := none } : State).at t .idle).ev (.got t f))
  | _, _ => none

/-- Reachable states: any threads, any interleaving. -/
inductive Reach (E : Envir) (own : Nat → Option Nat) : State → Prop
  | start : Reach E own (.start own)
  | step {s s' : State} (t : Tid) (ch : Choice) : Reach E own s → step E t ch s = some s' → Reach E own s'

end Verif.Libulog.ConcW
