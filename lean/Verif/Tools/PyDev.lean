import Verif.Tools.PyLog
import Verif.Libulog.OpenDev
import Verif.Libulog.Raw
import Verif.Kernel.Registry

/-!
# Python records written to a log device of their own (ulogpy/ulog.py:94-289)

`ULogDeviceHandler`. Python's `bytes` are bytes here, a `str` is a list of characters. The
handler's formatter returns the message itself. What a property of the handler (process
and thread names and numbers, the clock) gives when a record comes is part of the record.
A NUL in the device's name (no such path can be there, and the driver refuses the
request), a request of more than 4096 bytes (written in two pieces) and the rounding of
the clock's float are not modelled.
-/
namespace Verif.Tools.PyDev
open Verif Verif.Libulog Verif.Kernel

/-- `str.encode("utf-8")` -/
def utf8 (s : List Char) : Bytes := s.flatMap String.utf8EncodeChar

structure Names where
  name : Bytes
  path : Bytes
  deriving DecidableEq, Repr

/-- ulog.py:106-113 -/
def names (arg : Bytes) : Names :=
  if (ascii "/dev/ulog_").isPrefixOf arg then { name := arg.drop 10, path := arg }
  else { name := arg, path := ascii "/dev/ulog_" ++ arg }

/-- What the handler meets when it is made. -/
structure DevEnv where
  /-- files that are no devices of the driver -/
  others : Bytes → Bool
  /-- `errno` if the attribute `logs` cannot be opened -/
  logs : Option Nat
  grant : Grant
  /-- `/proc/self/comm`, if it can be read -/
  comm : Option Bytes
  files : OpenEnv

/-- `os.path.exists`; devices appear under `/dev` with their names. -/
def there (e : DevEnv) (r : Reg) (path : Bytes) : Bool := e.others path || r.devs.any fun d => ascii "/dev/" ++ d.name == path

inductive Ensured
  | ready (r : Reg)
  /-- `OSError` -/
  | raised (r : Reg) (errno : Nat)
  /-- the driver crashed (see C15) -/
  | oops

/-- `_ensure_ulog_device`, ulog.py:127-138. A refused write raises when the attribute is
closed. -/
def ensure (e : DevEnv) (r : Reg) (n : Names) : Ensured :=
  if there e r n.path then .ready r
  else
    match e.logs with
    | some err => .raised r err
    | none =>
      match addLog r (ascii "ulog_" ++ n.name ++ ascii " 17") e.grant with
      | (r', .done _) => if there e r' n.path then .ready r' else .raised r' 2
      | (r', .einval) => .raised r' 22
      | (r', .enomem) => .raised r' 12
      | (_, .fault) => .oops

/-- `bytes.strip()` -/
def pyStrip (b : Bytes) : Bytes :=
  let f := fun b : UInt8 => b == 32 || (9 ≤ b && b ≤ 13)
  ((b.dropWhile f).reverse.dropWhile f).reverse

inductive Opened
  | raised (errno : Nat)
  | handler (fd : Nat) (raw : Bool) (pname : Option Bytes)
  deriving DecidableEq, Repr

/-- `_open_ulog`, ulog.py:155-163 -/
def openPlain (e : DevEnv) (path : Bytes) (pname : Option Bytes) : Opened × List OEv :=
  match e.files.openRes path with
  | .inr err => (.raised err, [])
  | .inl fd => (.handler fd false pname, [.opened path fd])

/-- ulog.py:117-125 with `_open_ulog_raw` (140-153) -/
def openHandler (e : DevEnv) (path : Bytes) (rawMode : Bool) : Opened × List OEv :=
  if rawMode then
    match e.comm with
    | none => openPlain e path none
    | some c =>
      let o := rawOpen e.files (some path)
      if o.1 < 0 then ((openPlain e path (some (pyStrip c))).1, o.2 ++ (openPlain e path (some (pyStrip c))).2)
      else (.handler o.1.toNat true (some (pyStrip c)), o.2)
  else openPlain e path none

inductive Made
  | raised (r : Reg) (errno : Nat) (evs : List OEv)
  | made (r : Reg) (fd : Nat) (raw : Bool) (pname : Option Bytes) (evs : List OEv)
  | oops

/-- `__init__`, ulog.py:96-125 -/
def make (e : DevEnv) (r : Reg) (arg : Bytes) (rawMode : Bool) : Made :=
  match ensure e r (names arg) with
  | .oops => .oops
  | .raised r err => .raised r err []
  | .ready r =>
    match openHandler e (names arg).path rawMode with
    | (.raised err, evs) => .raised r err evs
    | (.handler fd raw pname, evs) => .made r fd raw pname evs

/-- A record, and what the handler's properties give when it comes (ulog.py:165-245). -/
structure PyRec where
  level : Nat
  /-- `record.name` and the formatted message in UTF-8 -/
  tag : Bytes
  msg : Bytes
  pid : UInt32
  tid : UInt32
  pname : Bytes
  /-- the thread name that was set, `[]` if none was -/
  tset : Bytes
  /-- the name of the current thread -/
  tcur : List Char
  /-- the time when the line of this number is written -/
  clock : Nat → UInt32 × UInt32
  /-- the task that writes that line -/
  task : Nat → Task

/-- `tname` with `tname_len` (ulog.py:268, 272): of a `str` the length is its number of
characters, the bytes are those of its encoding. -/
def PyRec.tfield (r : PyRec) : Bytes :=
  if r.tset ≠ [] then r.tset ++ [0] else (utf8 r.tcur ++ [0]).take (r.tcur.length + 1)

/-- `format_raw_entry`, ulog.py:260-274. `euid` is not set. -/
def rawOf (r : PyRec) (prio : UInt32) (line : Bytes) (i : Nat) : RawEntry :=
  { pid := r.pid, tid := r.tid, sec := (r.clock i).1, nsec := (r.clock i).2, euid := 0, prio
    pname := r.pname ++ [0], tname := r.tfield, tag := r.tag ++ [0], message := some (line ++ [0]) }

/-- `emit`, ulog.py:247-258: for each line what is written, `none` for a line that
`ulog_raw_log` refuses (its result is not looked at). `none` is a `KeyError`. -/
def emit (fd : Nat) (raw : Bool) (r : PyRec) : Option (List (Option (List Bytes))) :=
  match pyPrio r.level with
  | none => none
  | some p => some ((splitLines none r.msg).zipIdx.map fun l =>
      if raw then rawLog fd (some (rawOf r p l.1 l.2)) else some [le32 p, r.tag ++ [0], l.1 ++ [0]])

/-- The writes of a record: who writes what. -/
def writes (fd : Nat) (raw : Bool) (r : PyRec) : List (Task × List Bytes) :=
  ((emit fd raw r).getD []).zipIdx.filterMap fun x => x.1.map fun v => (r.task x.2, v)

/-- `close`, ulog.py:284-289 -/
def closeHandler (fd : Nat) (raw : Bool) : List OEv := if raw then rawClose fd else [.closed fd]

end Verif.Tools.PyDev
