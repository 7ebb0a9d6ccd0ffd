import Verif.Mem

/-!
# Model of the entry parser (libulog/ulog_read.c)

The buffer is a list of bytes; every load and store is checked (`none` is an
access outside the buffer). The parser stores NUL terminators in the buffer.
-/
namespace Verif.Libulog
open Verif

/-- A `const char *` of the decoded entry: a string literal of the parser
(without its NUL) or a position in the buffer. -/
inductive Ptr
  | lit (s : Bytes)
  | buf (off : Nat)
  deriving DecidableEq, Repr

/-- libulog/include/ulogprint.h:32-45. pid, tid, sec and nsec as 32-bit words;
priority, colour and len as naturals (all are non-negative). -/
structure PEntry where
  sec : UInt32
  nsec : UInt32
  priority : Nat
  pid : UInt32
  pname : Ptr
  tid : UInt32
  tname : Ptr
  tag : Ptr
  message : Ptr
  len : Nat
  isBinary : Bool
  color : Nat
  deriving DecidableEq, Repr

/-- libulog/ulog_read.c:48 -/
def zeroLengthStr : Bytes := ascii "<<zero-length>>"

/-- libulog/ulog_read.c:28-41. Result: `none` memory fault, `some none` NULL,
otherwise the token, the new position and the new size. -/
def getToken (m : Bytes) (p size : Nat) : Option (Option (Nat × Nat × Nat)) := do
  let len ← strnlen m p size
  if len + 1 > size then return none
  return some (p, p + len + 1, size - len - 1)

/-- libulog/ulog_read.c:44-73. Returns the buffer after the stores. -/
def parseUnformatted (m : Bytes) (p size : Nat) (e : PEntry) : Option (Bytes × PEntry) := do
  let e := { e with priority := 6, isBinary := false, color := 0, pname := .lit [], tname := .lit []
                    tag := .lit [], message := .buf p }
  let len ← strnlen m p size
  if len = 0 then
    return (m, { e with message := .lit zeroLengthStr, len := zeroLengthStr.length + 1 })
  else if len < size then
    let m ← wr m (p + len) 0
    return (m, { e with len := len + 1 })
  else
    let m ← wr m (p + (size - 1)) 0
    return (m, { e with len := size })

/-- libulog/ulog_read.c:115-134, the part after the priority word. -/
def parseMessage (m : Bytes) (p size : Nat) (e : PEntry) : Option (Bytes × PEntry) := do
  let e := { e with message := .buf p, len := size }
  if e.isBinary then return (m, e)
  else if size = 0 then parseUnformatted m p 0 e
  else
    let len ← strnlen m p size
    if len = size then
      let m ← wr m (p + (size - 1)) 0
      return (m, { e with len })
    else return (m, { e with len := len + 1 })

/-- libulog/ulog_read.c:99-113. Called with the position before the priority
word, which is `p-4`, `size+4` of line 113. -/
def parsePrio (m : Bytes) (p size : Nat) (e : PEntry) : Option (Bytes × PEntry) := do
  if size < 4 then parseUnformatted m p size e
  else
    let b0 ← rd m p
    let b1 ← rd m (p + 1)
    let b2 ← rd m (p + 2)
    let b3 ← rd m (p + 3)
    let e := { e with priority := b0.toNat % 8, isBinary := b0.toNat / 128 % 2 = 1
                      color := b1.toNat + 256 * b2.toNat + 65536 * b3.toNat }
    match ← getToken m (p + 4) (size - 4) with
    | none => parseUnformatted m p size e
    | some (tag, p', size') => parseMessage m p' size' { e with tag := .buf tag }

/-- libulog/ulog_read.c:83-135 -/
def parsePayload (m : Bytes) (p size : Nat) (e : PEntry) : Option (Bytes × PEntry) := do
  match ← getToken m p size with
  | none => parseUnformatted m p size e
  | some (pname, p1, size1) =>
    let e := { e with pname := .buf pname }
    if e.pid ≠ e.tid then
      match ← getToken m p1 size1 with
      | none => parseUnformatted m p1 size1 e
      | some (tname, p2, size2) => parsePrio m p2 size2 { e with tname := .buf tname }
    else parsePrio m p1 size1 { e with tname := .buf pname }

/-- An uninitialised `struct ulog_entry`: nothing of it is read before it is
written. -/
def blank : PEntry :=
  { sec := 0, nsec := 0, priority := 0, pid := 0, pname := .lit [], tid := 0, tname := .lit [], tag := .lit []
    message := .lit [], len := 0, isBinary := false, color := 0 }

def rd16 (m : Bytes) (i : Nat) : Option Nat := do
  return unle16 (← rd m i) (← rd m (i + 1))

def rd32 (m : Bytes) (i : Nat) : Option UInt32 := do
  return unle32 (← rd m i) (← rd m (i + 1)) (← rd m (i + 2)) (← rd m (i + 3))

/-- libulog/ulog_read.c:137-147. `m` is the buffer that starts with a
`struct ulogger_entry`. -/
def parseBuf (m : Bytes) : Option (Bytes × PEntry) := do
  let sec ← rd32 m 12
  let nsec ← rd32 m 16
  let pid ← rd32 m 4
  let tid ← rd32 m 8
  let hdr ← rd16 m 2
  let len ← rd16 m 0
  parsePayload m hdr len { blank with sec, nsec, pid, tid }

/-- libulog/ulog_read.c:149-172. `some none` is the result -1. `len` is the
caller's length argument. -/
def parseRaw (m : Bytes) (len : Nat) : Option (Option (Bytes × PEntry)) := do
  if len < 24 then return none
  -- memcpy of the whole header: all its bytes are read
  if m.length < 24 then none
  let hdr ← rd16 m 2
  let rlen ← rd16 m 0
  if len < hdr then return none
  if rlen ≠ len - hdr then return none
  let sec ← rd32 m 12
  let nsec ← rd32 m 16
  let pid ← rd32 m 4
  let tid ← rd32 m 8
  return some (← parsePayload m hdr rlen { blank with sec, nsec, pid, tid })

end Verif.Libulog
