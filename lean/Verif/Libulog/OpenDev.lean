import Verif.Libulog.Write

/-!
# Opening a log device for raw and binary messages

libulog/ulog_write_raw.c:35-83, libulog/ulog_write_bin.c:45-100 on Linux, and the
retry of interrupted writes. Descriptors are numbers, -1 is what the C code uses for
none. Memory of the process and `errno` after success are not modelled.
-/
namespace Verif.Libulog
open Verif

/-- What the process sees of its environment during one call. -/
structure OpenEnv where
  getenv : Bytes → Option Bytes
  /-- `open` for writing: a descriptor or `errno` -/
  openRes : Bytes → Nat ⊕ Nat
  /-- `fstat` succeeds and the file is a character device -/
  isChr : Nat → Bool
  /-- `ULOGGER_SET_RAW_MODE` succeeds -/
  rawOk : Nat → Bool

inductive OEv
  | opened (path : Bytes) (fd : Nat)
  | closed (fd : Nat)
  /-- the descriptor was switched to raw mode -/
  | raw (fd : Nat)
  deriving DecidableEq, Repr

/-- The path opened: ulog_write_raw.c:44-51, ulog_write_bin.c:53-60. `var` is the
variable consulted and `dflt` the path without it. -/
def openPath (getenv : Bytes → Option Bytes) (var dflt : Bytes) : Option Bytes → Bytes
  | some dev => dev
  | none =>
    match getenv var with
    | some prop => (ascii "/dev/ulog_" ++ prop).take 31
    | none => dflt

/-- `ulog_raw_open`, ulog_write_raw.c:35-77. -/
def rawOpen (e : OpenEnv) (dev : Option Bytes) : Int × List OEv :=
  let path := openPath e.getenv (ascii "ULOG_DEVICE") (ascii "/dev/ulog_main") dev
  match e.openRes path with
  | .inr err => (-(err : Int), [])
  | .inl fd =>
    if e.isChr fd = false then (-22, [.opened path fd, .closed fd])
    else if e.rawOk fd = false then (-38, [.opened path fd, .closed fd])
    else (fd, [.opened path fd, .raw fd])

/-- `ulog_bin_open`, ulog_write_bin.c:45-86. -/
def binOpen (e : OpenEnv) (dev : Option Bytes) : Int × List OEv :=
  let path := openPath e.getenv (ascii "ULOG_DEVICE_BIN") (ascii "/dev/ulog_mainbin") dev
  match e.openRes path with
  | .inr err => (-(err : Int), [])
  | .inl fd =>
    if e.isChr fd = false then (-22, [.opened path fd, .closed fd])
    else (fd, [.opened path fd])

/-- `ulog_raw_close` and `ulog_bin_close`, ulog_write_raw.c:79-83,
ulog_write_bin.c:88-96. -/
def rawClose (fd : Int) : List OEv := if fd ≥ 0 then [.closed fd.toNat] else []

inductive HOp
  | rawOpen (dev : Option Bytes)
  | binOpen (dev : Option Bytes)
  | close (fd : Int)

/-- One call: the result (0 for a close) and what it does. -/
def hstep (e : OpenEnv) : HOp → Int × List OEv
  | .rawOpen dev => rawOpen e dev
  | .binOpen dev => binOpen e dev
  | .close fd => (0, rawClose fd)

/-- What the system call answers: a number of bytes or `errno`. -/
abbrev WvRes := Nat ⊕ Nat

/-- The loop around `writev` and what is returned, ulog_write_raw.c:163-167 and, with
`bin`, ulog_write_bin.c:138-142: the value of `errno` and the answers still to come; the
result and how many calls were made. `none` while the answers do not suffice. With `bin`
an answer of zero bytes returns the `errno` of an earlier call. -/
def writevLoop (bin : Bool) : Nat → List WvRes → Option (Int × Nat)
  | _, [] => none
  | errno, .inl n :: _ => some (if bin && n = 0 then -(errno : Int) else 0, 1)
  | _, .inr err :: l =>
    if err = 4 then (writevLoop bin err l).map fun r => (r.1, r.2 + 1) else some (-(err : Int), 1)

end Verif.Libulog
