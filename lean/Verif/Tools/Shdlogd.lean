import Verif.Tools.Shd

/-!
# The writer and the daemon of the shared-memory logs (ulog_shd/src/ulog.c,
shdlogd/src/shdlogd.c)

libshdata is not part of the project. A section is the list of the samples written,
of which the oldest may be gone. Assumed: `shd_select_samples` gives the oldest sample
there is, or with `SHD_FIRST_AFTER` the first one not older than the date, and those
that follow it, 2048 at most, or fails if there is none; `shd_write` adds one sample,
and may log messages meanwhile.

Simplifications: time stamps are numbers of nanoseconds; the mutex is recursive, so that
the calls of one process are one after the other or nested; messages that the daemon
logs about itself go elsewhere and are left out, but those that announce losses.
-/
namespace Verif.Tools.Shdd
open Verif Verif.Ulogcat Verif.Libulog Verif.Tools

/-! ## The writer -/

/-- `ctrl` (ulog_shd/src/ulog.c:30-39). -/
structure ShdCtrl where
  enabled : Bool
  index : Nat
  deriving DecidableEq, Repr

/-- A message given to `ulog_shd_write`: the priority, what `prctl` stored, the thread,
the name of the tag and the text, both without their NUL. -/
structure ShdMsg where
  prio : UInt32
  comm : Bytes
  tid : UInt32
  tag : Bytes
  text : Bytes
  deriving DecidableEq, Repr

structure Sample where
  ns : Nat
  blob : Blob
  deriving DecidableEq, Repr

/-- A call of `ulog_shd_write`: what the memory of the record held before, the message,
the time, and the calls made while the sample is written. -/
inductive ShdCall
  | mk (old : Bytes) (m : ShdMsg) (ns : Nat) (inner : List ShdCall)

mutual
/-- `ulog_shd_write` (ulog_shd/src/ulog.c:43-116): the samples written. -/
def shdCall (c : ShdCtrl) : ShdCall → Option (ShdCtrl × List Sample)
  | .mk old m ns inner =>
    if c.enabled then
      match shdPack old m.prio (some m.comm) m.tid (m.tag ++ [0]) (m.text ++ [0]) c.index with
      | none => none
      | some b =>
        match shdCalls { enabled := false, index := (c.index + 1) % 65536 } inner with
        | none => none
        | some (c', l) => some ({ c' with enabled := true }, { ns, blob := b } :: l)
    else some (c, [])
def shdCalls (c : ShdCtrl) : List ShdCall → Option (ShdCtrl × List Sample)
  | [] => some (c, [])
  | x :: xs =>
    match shdCall c x with
    | none => none
    | some (c', l) =>
      match shdCalls c' xs with
      | none => none
      | some (c'', l') => some (c'', l ++ l')
end

/-- The static initialiser (ulog.c:36-38). -/
def ShdCtrl.start : ShdCtrl := { enabled := false, index := 1 }

/-- `ulog_shd_init` (ulog.c:118-159) when nothing fails. -/
def ShdCtrl.init (c : ShdCtrl) : ShdCtrl := { c with enabled := true }

/-! ## The daemon -/

/-- `search.method` (shdlogd.c:84, 339) -/
inductive Search
  | oldest
  | firstAfter
  deriving DecidableEq, Repr

/-- `ctx` (shdlogd.c:44-93): `blobs` and `stamps` are the allocated arrays. -/
structure Shdlogd where
  search : Search
  date : Nat
  index : Nat
  raw : RawEntry
  blobs : List Blob
  stamps : List Nat
  stop : Bool
  deriving DecidableEq, Repr

/-- The result of `shd_select_samples`: an error (positive here) or the time stamps. -/
inductive Sel
  | fail (e : Nat)
  | found (stamps : List Nat)
  deriving DecidableEq, Repr

/-- What libshdata answers in one call of `read_samples`: the selection, the contents
of the array `blobs` after `shd_read_quantity` and whether it succeeded, and the error
of `shd_end_read` if any. `pad` is the byte after each record. -/
structure Answers where
  sel : Sel
  left : List Blob
  read : Bool
  fin : Option Nat
  pad : UInt8

inductive DEv
  /-- close and open again, shdlogd.c:151-152 -/
  | reopen
  /-- a message that something failed -/
  | failed
  /-- the `writev` of `ulog_raw_log` -/
  | write (v : List Bytes)
  /-- "%d shared memory log messages lost" -/
  | lost (n : Nat)
  /-- "many shared memory log messages lost" -/
  | many
  deriving DecidableEq, Repr

def lossEv : Loss → List DEv
  | .none => []
  | .lost n => [.lost n]
  | .many => [.many]

/-- One turn of the loop of shdlogd.c:178-192; the result of `ulog_raw_log` is not
looked at. -/
def forwardOne (fd : Int) (pad : UInt8) (d : Shdlogd) (b : Blob) (ns : Nat) : Option (Shdlogd × List DEv) :=
  match fillRaw d.raw pad b (UInt32.ofNat (ns / 1000000000)) (UInt32.ofNat (ns % 1000000000)) with
  | none => none
  | some r =>
    some ({ d with raw := r, index := b.index },
      (match rawLog fd (some r) with | some v => [.write v] | none => []) ++ lossEv (lossOf d.index b.index))

def forwardAll (fd : Int) (pad : UInt8) : Shdlogd → List (Blob × Nat) → Option (Shdlogd × List DEv)
  | d, [] => some (d, [])
  | d, (b, ns) :: l =>
    match forwardOne fd pad d b ns with
    | none => none
    | some (d', e) =>
      match forwardAll fd pad d' l with
      | none => none
      | some (d'', e') => some (d'', e ++ e')

/-- `read_samples` (shdlogd.c:138-199): the events and the result, `none` for 0. No match
or more than the arrays hold is undefined behaviour. -/
def readSamples (fd : Int) (a : Answers) (d : Shdlogd) : Option (Shdlogd × List DEv × Option Nat) :=
  match a.sel with
  | .fail e =>
    some (d, if e = 19 then [.failed, .reopen] else if e = 2 ∨ e = 11 then [] else [.failed], some e)
  | .found ts =>
    if d.stamps.length < ts.length then none
    else
      let d := { d with stamps := ts ++ d.stamps.drop ts.length, blobs := a.left }
      let e1 := if a.read then [] else [.failed]
      match a.fin with
      | some e => some ({ d with stop := d.stop || decide (e = 19) }, e1 ++ [.failed], some e)
      | none =>
        if d.blobs.length < ts.length then none
        else
          match forwardAll fd a.pad d ((d.blobs.take ts.length).zip (d.stamps.take ts.length)) with
          | none => none
          | some (d, e2) =>
            match ts.getLast? with
            | none => none
            | some t => some ({ d with date := t + 1 }, e1 ++ e2, none)

/-- A turn of the loop at shdlogd.c:331-336, or of the timer (line 201): after the first
success the method is changed (line 339); nothing is done after `stop`. -/
def turn (fd : Int) (a : Answers) (d : Shdlogd) : Option (Shdlogd × List DEv) :=
  if d.stop then some (d, [])
  else
    match readSamples fd a d with
    | none => none
    | some (d', e, none) => some ({ d' with search := .firstAfter }, e)
    | some (d', e, some _) => some (d', e)

/-- shdlogd.c:60-93, 315-329. `pname` is the name given with `-n` or "rtos"; `blobs` and
`stamps` are what the allocated memory holds. -/
def Shdlogd.start (pname : Bytes) (blobs : List Blob) (stamps : List Nat) : Shdlogd :=
  { search := .oldest, date := 0, index := 0, blobs, stamps, stop := false
    raw := { pid := 0, tid := 0, sec := 0, nsec := 0, euid := 0, prio := 0, pname := pname ++ [0], tname := [], tag := [], message := none } }

/-! ## The section -/

/-- The samples written, of which the first `lo` are gone. -/
structure Sect where
  hist : List Sample
  lo : Nat

/-- Where the selection begins. -/
def Sect.begin (s : Sect) : Search → Nat → Nat
  | .oldest, _ => s.lo
  | .firstAfter, date => s.lo + ((s.hist.drop s.lo).takeWhile fun x => decide (x.ns < date)).length

/-- What libshdata answers if nothing changes meanwhile. -/
def Sect.answers (s : Sect) (d : Shdlogd) (pad : UInt8) : Answers :=
  let l := (s.hist.drop (s.begin d.search d.date)).take 2048
  if l = [] then { sel := .fail 2, left := d.blobs, read := true, fin := none, pad }
  else { sel := .found (l.map (·.ns)), left := l.map (·.blob) ++ d.blobs.drop l.length, read := true, fin := none, pad }

inductive SOp
  /-- a call of `ulog_shd_write` -/
  | log (c : ShdCall)
  /-- the `n` oldest samples are overwritten -/
  | lose (n : Nat)
  /-- the daemon reads -/
  | poll (pad : UInt8)

/-- Writer, section and daemon. -/
structure Shm where
  ctrl : ShdCtrl
  sect : Sect
  dmn : Shdlogd

def Shm.step (fd : Int) (s : Shm) : SOp → Option (Shm × List DEv)
  | .log c =>
    match shdCall s.ctrl c with
    | none => none
    | some (c', l) => some ({ s with ctrl := c', sect := { s.sect with hist := s.sect.hist ++ l } }, [])
  | .lose n => some ({ s with sect := { s.sect with lo := min s.sect.hist.length (s.sect.lo + n) } }, [])
  | .poll pad =>
    match turn fd (s.sect.answers s.dmn pad) s.dmn with
    | none => none
    | some (d, e) => some ({ s with dmn := d }, e)

def Shm.run (fd : Int) : Shm → List SOp → Option (Shm × List DEv)
  | s, [] => some (s, [])
  | s, op :: ops =>
    match s.step fd op with
    | none => none
    | some (s', e) =>
      match s'.run fd ops with
      | none => none
      | some (s'', e') => some (s'', e ++ e')

end Verif.Tools.Shdd
