import Verif.Kernel.Model

/-!
# The drivers for older kernels

kernel/ulogger.c picks one of three files by the kernel version. By `diff`, they differ
from kernel/ulogger-6.x.c (the model in `Model`) in the write method's walk over the
user buffers, which is modelled here, and in kernel API names. `Iter` in `Model` is the
data of a write; here the iterator the kernel passes has a position and a count too,
and the loops are those of each file.

Simplifications:
* `iov_iter_advance` is that of Linux 5.x and 6.x.
* A write method of 3.x gets the whole array (`aio` retries of Linux before 3.12 with a
  position are not modelled).
* `copy_from_user` from a kernel vector fails (4.x only; so since Linux 5.10, before
  that with `set_fs` the kernel passed user vectors).
-/
namespace Verif.Kernel
open Verif

/-- Which driver, and for 6.x before or since Linux 6.4 (kernel/ulogger.c:1-11,
kernel/ulogger-6.x.c:639-644). -/
inductive Kern | k3 | k4 | k60 | k64
  deriving DecidableEq, Repr

/-- What the write method gets: a user vector or a user buffer, from the position on and
up to the count; a kernel vector; pages. -/
inductive From
  | iovec (segs : List Seg) (off count : Nat)
  | ubuf (seg : Seg) (off count : Nat)
  | kvec (count : Nat)
  | pages (count : Nat)

/-- `iov_iter_count`; `ki_nbytes` or `ki_left` in 3.x (kernel/ulogger-3.x.h:44,48). -/
def From.count : From → Nat
  | .iovec _ _ n | .ubuf _ _ n | .kvec n | .pages n => n

/-- The loop of `iov_iter_iovec_advance` (Linux lib/iov_iter.c). -/
def skipSegs : List Seg → Nat → List Seg × Nat
  | [], n => ([], n)
  | s :: ss, n => if n < s.length then (s :: ss, n) else skipSegs ss (n - s.length)

/-- `iov_iter_advance`: vector, position and count after `n` bytes. -/
def advance (segs : List Seg) (off count n : Nat) : List Seg × Nat × Nat :=
  let n := min n count
  if count = 0 then (segs, off, count)
  else
    let r := skipSegs segs (n + off)
    (r.1, r.2, count - n)

/-- The loop over user vectors of kernel/ulogger-4.x.c:673-690 (`iov_for_each`, lines
46-66) and kernel/ulogger-6.x.c:638-661. `whole` is `iter_iov` (Linux 6.4 and later):
the segment as it was given. Otherwise `iov_iter_iovec`: what is left of it. Reading
past the vector is a fault, and so is a position behind the segment. -/
def walk (junk : Nat → UInt8) (whole : Bool) (room : Nat) :
    (fuel : Nat) → List Seg → (off count : Nat) → Log → (ret : Nat) → Except Fault (Log × Option Nat)
  | 0, _, _, _, _, _ => .error .hang
  | fuel + 1, segs, off, count, l, ret =>
    if count = 0 then .ok (l, some ret)
    else match segs with
      | [] => .error .oob
      | s :: ss =>
        if s.length < off then .error .oob
        else
          let seg := if whole then s else (s.drop off).take count
          let len := min seg.length (room - ret)
          match doWriteLogFromUser l (seg.take len) junk with
          | .error e => .error e
          | .ok (l', ok) =>
            if !ok then .ok (l', none)
            else
              let a := advance (s :: ss) off count seg.length
              walk junk whole room fuel a.1 a.2.1 a.2.2 l' (ret + len)

/-- kernel/ulogger-3.x.c:635-652: an array of `nr_segs` segments. -/
def walk3 (junk : Nat → UInt8) (room : Nat) : List Seg → Log → Nat → Except Fault (Log × Option Nat)
  | [], l, ret => .ok (l, some ret)
  | s :: ss, l, ret =>
    let len := min s.length (room - ret)
    match doWriteLogFromUser l (s.take len) junk with
    | .error e => .error e
    | .ok (l', ok) => if !ok then .ok (l', none) else walk3 junk room ss l' (ret + len)

/-- The user data of a write, for each driver. -/
def writeFrom (k : Kern) (junk : Nat → UInt8) (l : Log) (it : From) (room : Nat) : Except Fault (Log × Option Nat) :=
  match k, it with
  -- 3.x: `aio_write` has a vector only
  | .k3, .iovec segs _ _ => walk3 junk room segs l 0
  | .k3, _ => .ok (l, some 0)
  -- 4.x: neither BVEC nor PIPE
  | .k4, .iovec segs off count => walk junk false room (segs.length + 1) segs off count l 0
  | .k4, .kvec n => walk junk false room 2 [List.replicate n none] 0 n l 0
  | .k4, _ => .ok (l, some 0)
  -- 6.x
  | k, .iovec segs off count => walk junk (k = .k64) room (segs.length + 1) segs off count l 0
  | _, .ubuf seg _ count =>
    let len := min room count
    match doWriteLogFromUser l (seg.take len) junk with
    | .error e => .error e
    | .ok (l', ok) => .ok (l', if ok then some len else none)
  | _, _ => .ok (l, some 0)

/-- The write method (kernel/ulogger-3.x.c:551-660, kernel/ulogger-4.x.c:581-700,
kernel/ulogger-6.x.c:554-684). Only the user data differ; `tlen` and `plen`, not
initialised in 3.x, are not used in raw mode. -/
def writeEntryK (k : Kern) (l : Log) (raw : Bool) (t : Task) (it : From) (junk : Nat → UInt8) : Except Fault (Log × Out) := do
  let len := it.count
  if raw && len < hdrSize - 4 then return (l, .err .einval)
  let hlen := entryLen raw t len
  if hlen = 0 then return (l, .ret 0)
  let orig := l.wOff
  let l ← fixUpReaders l (hdrSize + hlen)
  let (l, room) ← writePrefix l raw t hlen
  let (l, r) ← writeFrom k junk l it room
  match r with
  | some n => return (l, .ret n)
  | none => return ({ l with wOff := orig }, .err .efault)

/-- A call: a write with what the kernel passes, or any other call of `Op`. -/
inductive OpK
  | write (fid : Nat) (t : Task) (it : From) (junk : Nat → UInt8)
  | other (op : Op)

/-- One call of the driver of `k`. -/
def stepK (k : Kern) (s : Sys) : OpK → Except Fault (Sys × Out)
  | .other op => step s op
  | .write fid t it junk =>
    match s.files fid with
    | none => .ok (s, .err .ebadf)
    | some f =>
      if f.wr then do
        let (l, o) ← writeEntryK k s.log f.raw t it junk
        return ({ s with log := l }, o)
      else .ok (s, .err .ebadf)

/-- A run, with the answers. -/
def runK (k : Kern) : Sys → List OpK → Except Fault (Sys × List Out)
  | s, [] => .ok (s, [])
  | s, op :: ops => do
    let (s', o) ← stepK k s op
    let (s'', os) ← runK k s' ops
    return (s'', o :: os)

end Verif.Kernel
