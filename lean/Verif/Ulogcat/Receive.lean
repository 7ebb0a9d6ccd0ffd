import Verif.Libulog.PropsEnd

/-!
# Taking an entry from a log device (ulogcat/libulogcat_ulog.c:29-92)

`ulog_receive_entry` over the results of its one or two `read` calls, with the
frame buffer as checked memory. `SysRead` says which results the driver model
gives to a non-blocking `read`, other processes being free to act on the device
before, between and after the lock sections of the call.

Simplifications: `errno` values other than `EINVAL`, `EINTR` and `EAGAIN` are one
(`other`); what a failed `read` left in the buffer is not modelled (the buffer is
kept); nothing is said about the messages printed to standard error.
-/
namespace Verif.Ulogcat
open Verif Verif.Kernel Verif.Libulog

/-- Result of `read`. -/
inductive RdRes
  | data (bs : Bytes)
  | inval
  | intr
  | again
  | other
  deriving DecidableEq, Repr

/-- The buffer of a `struct frame` (libulogcat_private.h:84-92): `big` is
`buf != data`, `mem` the `bufsize` bytes at `buf`. -/
structure RFrame where
  big : Bool
  mem : Bytes
  deriving DecidableEq, Repr

/-- `ULOGCAT_FRAME_BUFSIZE` (libulogcat_private.h:82). -/
abbrev frameSize : Nat := 200
/-- `ULOGGER_ENTRY_MAX_LEN` (libulog/include/ulogger.h:72). -/
abbrev entryMax : Nat := 5120

/-- What a call of `ulog_receive_entry` leaves: its result, the frame buffer
(`none`: the null pointer), the decoded entry and time stamp if any, and the
amount subtracted from `mark_readable`. -/
structure RecvOut where
  ret : Int
  frame : Option RFrame
  entry : Option PEntry
  stamp : Nat
  taken : Int
  deriving DecidableEq, Repr

/-- A 32-bit field of the header taken as `int32_t` and converted to 64 bits
unsigned. -/
def sext64 (x : UInt32) : Nat := if x.toNat < 2 ^ 31 then x.toNat else x.toNat + (2 ^ 64 - 2 ^ 32)

/-- libulogcat_ulog.c:79 in 64-bit unsigned arithmetic. -/
def stampOf (sec nsec : UInt32) : Nat := (sext64 sec * 1000000 % 2 ^ 64 + sext64 nsec / 1000) % 2 ^ 64

/-- libulogcat_ulog.c:49-91, what follows the last `read`. The variable `ret`
is overwritten by the result of `ulog_parse_buf`, which is 0 (line 72), and that
is what line 84 subtracts. -/
def afterRead (csv : Bool) (f : RFrame) : RdRes → Option RecvOut
  | .intr => some { ret := 0, frame := some f, entry := none, stamp := 0, taken := 0 }
  | .again => some { ret := 0, frame := some f, entry := none, stamp := 0, taken := 0 }
  | .inval => some { ret := -1, frame := some f, entry := none, stamp := 0, taken := 0 }
  | .other => some { ret := -1, frame := some f, entry := none, stamp := 0, taken := 0 }
  | .data bs =>
    if f.mem.length < bs.length then none
    else
      let f1 : RFrame := { f with mem := bs ++ f.mem.drop bs.length }
      if bs.length = 0 then some { ret := -1, frame := some f1, entry := none, stamp := 0, taken := 0 }
      else do
        let rawLen ← rd16 f1.mem 0
        if (rawLen : Int) ≠ (bs.length : Int) - 24 then
          return { ret := -1, frame := some f1, entry := none, stamp := 0, taken := 0 }
        let (m, e) ← parseBuf f1.mem
        let ret : Int := 0
        let sec ← rd32 m 12
        let nsec ← rd32 m 16
        let pid ← rd32 m 4
        let tid ← rd32 m 8
        let taken := if pid ≠ 0xffffffff ∨ tid ≠ 0xffffffff then ret else 0
        return { ret := if e.isBinary && !csv then 0 else 1, frame := some { f1 with mem := m }, entry := some e
                 stamp := stampOf sec nsec, taken }

/-- The first `read` failed for want of room and the frame has its own small
buffer (libulogcat_ulog.c:37). -/
def retries (f : RFrame) (r1 : RdRes) : Bool := r1 = .inval && !f.big

/-- libulogcat_ulog.c:29-92. `r1` is the result of the first `read`, `r2` that
of the second if there is one; `alloc` tells whether `malloc` succeeds, `fresh`
is what is in the memory it returns. -/
def receive (alloc csv : Bool) (fresh : Nat → UInt8) (f : RFrame) (r1 r2 : RdRes) : Option RecvOut :=
  if retries f r1 then
    if alloc then afterRead csv { big := true, mem := (List.range entryMax).map fresh } r2
    else some { ret := -1, frame := none, entry := none, stamp := 0, taken := 0 }
  else afterRead csv f r1

/-- The frame as `alloc_frame` hands it out: `free_frame` has put the small
buffer back (libulogcat_core.c:62-73). -/
def RFrame.fresh (f : RFrame) : Prop := f.big = false ∧ f.mem.length = frameSize

/-- Calls of others. -/
def Others (fid : Nat) (t : List (Op × Out)) : Prop := ∀ p ∈ t, p.1.fid ≠ fid

/-- A non-blocking `read` of `count` bytes into writable memory on file `fid`
(kernel/ulogger-6.x.c:346-418): the calls that happen meanwhile, with those of
this file, and the result. -/
inductive SysRead (fid : Nat) (euid : UInt32) (count : Nat) : List (Op × Out) → RdRes → Prop
  /-- lines 354-367 -/
  | again {t} (h : Others fid t) : SysRead fid euid count (t ++ [(.check fid, .block)]) .again
  | data {t u bs} (h : Others fid t) (h' : Others fid u) :
      SysRead fid euid count (t ++ (.check fid, .ready) :: u ++ [(.read fid euid count count, .data bs)]) (.data bs)
  | inval {t u} (h : Others fid t) (h' : Others fid u) :
      SysRead fid euid count (t ++ (.check fid, .ready) :: u ++ [(.read fid euid count count, .err .einval)]) .inval
  | other {t u e} (h : Others fid t) (h' : Others fid u) (he : e ≠ .einval) :
      SysRead fid euid count (t ++ (.check fid, .ready) :: u ++ [(.read fid euid count count, .err e)]) .other
  /-- the file is not open for reading -/
  | closed {t e} (h : Others fid t) : SysRead fid euid count (t ++ [(.check fid, .err e)]) .other
  /-- lines 388-392, `goto start` -/
  | start {t u v r} (h : Others fid t) (h' : Others fid u) (hv : SysRead fid euid count v r) :
      SysRead fid euid count
        (t ++ (.check fid, .ready) :: u ++ [(.read fid euid count count, .block)] ++ v) r

end Verif.Ulogcat
