import Verif.Ulogcat.Text
import Verif.Libulog.Raw

/-!
# Logs through shared memory (ulog_shd/src/ulog.c, shdlogd/src/shdlogd.c)

The shared memory itself (libshdata) is not modelled: a record arrives as it was
written. The mutex of the writer is not modelled: one record is built at a time.
-/
namespace Verif.Tools
open Verif Verif.Ulogcat Verif.Libulog

/-- `struct ulog_shd_blob` (ulog_shd/include/ulog_shd.h:30-39). -/
structure Blob where
  index : Nat
  prio : UInt8
  tid : UInt32
  thn : Nat
  tag : Nat
  log : Nat
  buf : Bytes
  deriving DecidableEq, Repr

/-- `ULOG_BUF_SIZE` (libulog/include/ulog.h:293) -/
def bufSize : Nat := 256

/-- The thread name (ulog_shd/src/ulog.c:62-78): `comm` is what `prctl` stored, if it
did; memory and `thnsize`. -/
def packThread (m : Bytes) (comm : Option Bytes) : Option (Bytes × Nat) :=
  match comm with
  | none => some (m, 0)
  | some c =>
    let s := cstr (c.take 15)
    (snprint m 0 bufSize s).map fun m => (m, if s.length ≥ bufSize then bufSize else s.length + 1)

/-- Copy at most what fits at `offset` (ulog.c:82-88, 90-96): memory and size. -/
def packPart (m : Bytes) (offset : Nat) (src : Bytes) : Option (Bytes × Nat) :=
  if offset < bufSize then
    let n := min src.length (bufSize - offset)
    (poke m offset (src.take n)).map fun m => (m, n)
  else some (m, 0)

/-- `ulog_shd_write` (ulog.c:43-116) up to the write. `old` is what the memory of the
record held before, `name` the name of the cookie with its NUL, `msg` the `len` bytes
of the message. -/
def shdPack (old : Bytes) (prio : UInt32) (comm : Option Bytes) (tid : UInt32) (name msg : Bytes) (index : Nat) : Option Blob := do
  let (m, thn) ← packThread old comm
  let (m, tag) ← packPart m thn name
  let (m, log) ← packPart m (thn + tag) msg
  let m ← if thn + tag + log = bufSize then wr m (bufSize - 1) 0 else some m
  return { index, prio := UInt8.ofNat (prio.toNat % 8), tid, thn, tag, log, buf := m }

/-- `shdcolor` (shdlogd.c:95-104) -/
def shdColor : List Nat := [0x000000, 0xFF0000, 0x00FF00, 0xFFFF00, 0x0000FF, 0xFF00FF, 0xFFFF00, 0x808080]

/-- `fill_raw_entry` (shdlogd.c:106-136). `raw` holds the process of the daemon's
configuration. The byte after the 256 bytes is padding of the structure (275 bytes
packed, aligned to 4), `pad` here; the program reads it if the message is empty
and the record full. -/
def fillRaw (raw : RawEntry) (pad : UInt8) (b : Blob) (sec nsec : UInt32) : Option RawEntry := do
  let r := { raw with tid := if b.thn ≠ 0 then b.tid else 0, sec, nsec, prio := b.prio.toUInt32, tname := win b.buf 0 b.thn, tag := win b.buf b.thn b.tag }
  let at_ := b.thn + b.tag
  let first ← rd (b.buf ++ [pad]) at_
  if first = 27 ∧ b.log ≥ 7 then
    let c ← rd b.buf (at_ + 5)
    let color := shdColor[c.toNat % 8]?.getD 0
    return { r with prio := UInt32.ofNat (b.prio.toNat + color * 256), message := some (win b.buf (at_ + 7) (b.log - 7)) }
  else return { r with message := some (win b.buf at_ b.log) }

inductive Loss
  | none
  /-- "%d shared memory log messages lost" -/
  | lost (n : Nat)
  /-- "many shared memory log messages lost" -/
  | many
  deriving DecidableEq, Repr

/-- The check of the index (shdlogd.c:182-189); `d` is a `short int`. -/
def lossOf (prev index : Nat) : Loss :=
  let d := (index + 65536 - prev + 65535) % 65536
  if d = 0 then .none else if d < 32768 then .lost d else .many

/-- Announcements for records one after the other (shdlogd.c:176-192). -/
def losses : Nat → List Nat → List Loss
  | _, [] => []
  | prev, i :: is => lossOf prev i :: losses i is

end Verif.Tools
