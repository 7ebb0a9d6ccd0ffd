import Verif.Ulogcat.PropsKlog
import Verif.Ulogcat.Receive

/-!
# Reading /dev/kmsg (ulogcat/libulogcat_klog.c:100-185 and 248-311)

The kernel's side is an environment: records numbered from 0, of which the oldest
may have been overwritten, and the position of the reader (Linux,
kernel/printk/printk.c, `devkmsg_read`). A record that does not fit is refused
with EINVAL; `skips` tells whether the reader is then past it. In Linux it is: the
position is advanced before the sizes are compared. (The ulogger driver leaves the
reader where it is.)

`EINTR` cannot come from a non-blocking read and is left out; `BUFSIZ` is that of
glibc.
-/
namespace Verif.Ulogcat
open Verif

structure KRec where
  prio : Nat
  usec : Nat
  flags : Bytes
  text : Bytes
  dict : Bytes
  deriving DecidableEq, Repr

/-- What `read` returns for record number `seq`. -/
def KRec.bytes (r : KRec) (seq : Nat) : Bytes := kmsgRecord r.prio seq r.usec r.flags r.text r.dict

/-- All records so far, the number of the oldest that is still there, and the
number of the next one to read. -/
structure Kmsg where
  recs : List KRec
  first : Nat
  pos : Nat
  deriving DecidableEq, Repr

inductive KRes
  | data (bs : Bytes)
  | inval
  | again
  | pipe
  deriving DecidableEq, Repr

/-- A non-blocking `read` of at most `count` bytes. -/
def Kmsg.read (skips : Bool) (k : Kmsg) (count : Nat) : Kmsg × KRes :=
  if k.pos < k.first then ({ k with pos := k.first }, .pipe)
  else match k.recs[k.pos]? with
    | none => (k, .again)
    | some r =>
      if (r.bytes k.pos).length > count then (if skips then { k with pos := k.pos + 1 } else k, .inval)
      else ({ k with pos := k.pos + 1 }, .data (r.bytes k.pos))

/-- The kernel logs `more` and drops records so that `drop` is the oldest. -/
def Kmsg.log (k : Kmsg) (more : List KRec) (drop : Nat) : Kmsg :=
  { k with recs := k.recs ++ more, first := min (max k.first drop) (k.recs ++ more).length }

/-- `BUFSIZ`. -/
abbrev bufsiz : Nat := 8192

/-- What a call of `klog_receive_entry` leaves: its result, the frame buffer
(`none`: the null pointer), what it decoded and the amount taken off
`mark_readable`. -/
structure KOut where
  ret : Int
  frame : Option RFrame
  entry : Option KFrame
  taken : Nat
  deriving DecidableEq, Repr

/-- libulogcat_klog.c:119-185, what follows the last `read`; `none` is an access
outside the buffer. -/
def afterKRead (f : RFrame) : KRes → Option KOut
  | .inval => some { ret := -1, frame := some f, entry := none, taken := 0 }
  | .again => some { ret := 0, frame := some f, entry := none, taken := 0 }
  | .pipe => some { ret := 0, frame := some f, entry := none, taken := 0 }
  | .data bs =>
    if f.mem.length < bs.length + 1 then none
    else
      let mem := bs ++ 0 :: f.mem.drop (bs.length + 1)
      if bs.length = 0 then some { ret := 0, frame := some { f with mem }, entry := none, taken := 0 }
      else do
        match ← klogReceive mem with
        | none => return { ret := -1, frame := some { f with mem }, entry := none, taken := 0 }
        | some e => return { ret := 1, frame := some { f with mem := e.buf }, entry := some e, taken := bs.length }

/-- libulogcat_klog.c:100-185. `alloc` tells whether `malloc` succeeds, `fresh` is
what is in the memory it returns; `more` and `drop` is what the kernel does
between the two reads if there are two. -/
def klogEntry (skips alloc : Bool) (fresh : Nat → UInt8) (more : List KRec) (drop : Nat) (f : RFrame) (k : Kmsg) :
    Kmsg × Option KOut :=
  match k.read skips (f.mem.length - 1) with
  | (k, .inval) =>
    if f.big then (k, afterKRead f .inval)
    else if alloc then
      match (k.log more drop).read skips (bufsiz - 1) with
      | (k, r) => (k, afterKRead { big := true, mem := (List.range bufsiz).map fresh } r)
    else (k, some { ret := -1, frame := none, entry := none, taken := 0 })
  | (k, r) => (k, afterKRead f r)

/-- libulogcat_klog.c:249-309, after `log_device_create`. `opens`: `open` succeeds;
`cleared`, `cleared'`: the first record since the log was last cleared, at the two
calls of `lseek`; `more`, `drop`: what the kernel does between them, after the
read; `size`: the result of `klogctl`. `none`: the device is not used. Returns the
state and `mark_readable`. -/
def openKmsg (skips opens : Bool) (cleared cleared' : Nat) (more : List KRec) (drop : Nat) (size : Int) (k : Kmsg) :
    Option (Kmsg × Int) :=
  if !opens then none
  else match ({ k with pos := cleared } : Kmsg).read skips bufsiz with
    | (_, .inval) => none
    | (k, _) =>
      let k := { k.log more drop with pos := cleared' }
      if 2 * size < 0 then none else some (k, 2 * size)

end Verif.Ulogcat
