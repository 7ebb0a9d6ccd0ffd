import Verif.Bytes

/-!
# Chunked binary writes (libulog/ulog_write_bin.c:165-272)

Buffers are byte lists, `struct iovec` arrays lists of them. Reading `iov` or
writing `iov2` outside their bounds, a subtraction that would wrap and a loop
that does not end are the distinct outcomes `oob`, `wrap` and `hang`.

Sums of lengths are unbounded: buffers that exist at the same time in one
address space have lengths whose sum is below 2^64.
-/
namespace Verif.Libulog
open Verif

inductive BinFault
  | oob
  | wrap
  | hang
  deriving DecidableEq, Repr

/-- `ULOGGER_ENTRY_MAX_PAYLOAD`. -/
def maxPayload : Nat := 4076

/-- libulog/ulog_write_bin.c:175-180. -/
def maxChunkLen (tagsize hdrlen : Nat) : Nat :=
  let extra := 2 * 16 + 4 + tagsize + hdrlen + 1
  if extra < maxPayload then maxPayload - extra else 0

/-- libulog/ulog_write_bin.c:243-261: fill `iov2`, which has room for `cap`
elements, with `rem` bytes from position (`idx`, `off`) of `iov`. Returns the
vector and the new position. -/
def fillChunk (iov : List Bytes) (cap : Nat) : Nat → Nat → Nat → Nat → List Bytes →
    Except BinFault (List Bytes × Nat × Nat)
  | _, idx, off, 0, iov2 => .ok (iov2, idx, off)
  | 0, _, _, _ + 1, _ => .error .hang
  | fuel + 1, idx, off, rem, iov2 =>
    match iov[idx]? with
    | none => .error .oob
    | some b =>
      if cap ≤ iov2.length then .error .oob
      else if b.length < off then .error .wrap
      else
        let len := if b.length - off < rem then b.length - off else rem
        let piece := (b.drop off).take len
        if off + len = b.length then fillChunk iov cap fuel (idx + 1) 0 (rem - len) (iov2 ++ [piece])
        else fillChunk iov cap fuel idx (off + len) (rem - len) (iov2 ++ [piece])

/-- libulog/ulog_write_bin.c:224-271. `res i` is what `ulog_bin_writev` returns
for the `i`-th vector. Result: the return value and the vectors passed to
`ulog_bin_writev`, in order. -/
def chunkLoop (hdr : Bytes) (iov : List Bytes) (maxlen : Nat) (res : Nat → Int) :
    Nat → Nat → UInt8 → Nat → Nat → Nat → Except BinFault (Int × List (List Bytes))
  | _, _, _, _, _, 0 => .ok (0, [])
  | 0, _, _, _, _, _ + 1 => .error .hang
  | fuel + 1, i, chunkidx, idx, off, total => do
    let chunklen := if total < maxlen then total else maxlen
    let start := (if hdr.length > 0 then [hdr] else []) ++ [[chunkidx]]
    let (iov2, idx', off') ← fillChunk iov (iov.length + 2) (iov.length + 1) idx off chunklen start
    if res i < 0 then .ok (res i, [iov2])
    else do
      let (r, l) ← chunkLoop hdr iov maxlen res fuel (i + 1) (chunkidx + 1) idx' off' (total - chunklen)
      .ok (r, iov2 :: l)

/-- `-EINVAL`. -/
def einval : Int := -22

/-- libulog/ulog_write_bin.c:196-272, `ulog_bin_writev_chunk`. -/
def writevChunk (tagsize : Nat) (hdr : Bytes) (iov : List Bytes) (res : Nat → Int) :
    Except BinFault (Int × List (List Bytes)) :=
  let maxlen := maxChunkLen tagsize hdr.length
  if maxlen = 0 then .ok (einval, [])
  else
    let total := (iov.map List.length).sum
    chunkLoop hdr iov maxlen res total 0 0 0 0 total

/-- libulog/ulog_write_bin.c:182-194, `ulog_bin_write_chunk`. -/
def writeChunk (tagsize : Nat) (hdr buf : Bytes) (res : Nat → Int) : Except BinFault (Int × List (List Bytes)) :=
  writevChunk tagsize hdr [buf] res

end Verif.Libulog
