import Verif.Bytes

/-!
# The ulogger driver (kernel/ulogger-6.x.c)

Executable model of the driver of one log device.  Every driver call takes the
log mutex for its whole effect on the log (`rt_mutex_lock(&log->mutex)`), so a
concurrent execution is a sequence of the atomic steps below; `ulogger_read`
takes the mutex twice and is therefore two steps, `check` (lines 354-376) and
`read` (lines 382-417).

The 3.x and 4.x variants of the driver differ in how they walk the user buffers
(modelled in `Variants`) and in kernel API names.

Memory accesses outside the ring buffer are the outcome `Fault.oob`, a scan
that does not end is `Fault.hang`; nothing is papered over by defaults.

Simplifications:
* `size_t` counters are `Nat`. Offsets are below 2^24 and the loss counters
  cannot reach 2^64.
* `ITER_XARRAY` iterators (never passed to a character device) are not
  modelled.
* What a failing `copy_to_user` left in the user buffer is not modelled.
* `kmalloc` in `ulogger_open` does not fail.
-/
namespace Verif.Kernel
open Verif

/-- The two ways a driver step can go wrong. -/
inductive Fault | oob | hang
  deriving DecidableEq, Repr

inductive Errno | einval | efault | ebadf | eperm
  deriving DecidableEq, Repr

/-- `sizeof(struct ulogger_entry)` (kernel/ulogger-6.x.h:45-54). -/
abbrev hdrSize : Nat := 24
/-- `sizeof(struct user_ulogger_entry_compat)` (kernel/ulogger-6.x.h:30-38). -/
abbrev compatHdrSize : Nat := 20
/-- kernel/ulogger-6.x.h:58 -/
abbrev maxPayload : Nat := 4076

/-- `struct ulogger_reader` (kernel/ulogger-6.x.c:66-73). -/
structure Reader where
  off : Nat
  all : Bool
  ver : Nat
  dropped : Nat

/-- `struct ulogger_log` (kernel/ulogger-6.x.c:48-58). Readers are keyed by the
open file they belong to, in list order. -/
structure Log where
  name : Bytes
  size : Nat
  buf : Nat → UInt8
  wOff : Nat
  head : Nat
  dropped : Nat
  readers : List (Nat × Reader)

/-- kernel/ulogger-6.x.c:76-79 -/
def offset (size n : Nat) : Nat := n &&& (size - 1)

/-- `memcpy` out of the ring: `n` bytes at `off`. -/
def load (size : Nat) (buf : Nat → UInt8) (off n : Nat) : Except Fault Bytes :=
  if off + n ≤ size then .ok ((List.range n).map fun i => buf (off + i)) else .error .oob

/-- `memcpy` into the ring. -/
def store (size : Nat) (buf : Nat → UInt8) (off : Nat) (bs : Bytes) :
    Except Fault (Nat → UInt8) :=
  if off + bs.length ≤ size then
    .ok fun i => if off ≤ i ∧ i < off + bs.length then bs.getD (i - off) 0 else buf i
  else .error .oob

/-- kernel/ulogger-6.x.c:136-149. The 24 header bytes at `off`. -/
def getEntryHeader (l : Log) (off : Nat) : Except Fault Bytes := do
  let len := min hdrSize (l.size - off)
  if len ≠ hdrSize then
    let a ← load l.size l.buf off len
    let b ← load l.size l.buf 0 (hdrSize - len)
    return a ++ b
  else
    load l.size l.buf off hdrSize

/-- The field `len` of header bytes. -/
def hLen (h : Bytes) : Nat := unle16 (h.getD 0 0) (h.getD 1 0)
/-- The field `euid` of header bytes. -/
def hEuid (h : Bytes) : UInt32 :=
  unle32 (h.getD 20 0) (h.getD 21 0) (h.getD 22 0) (h.getD 23 0)

/-- kernel/ulogger-6.x.c:161-168 -/
def getEntryMsgLen (l : Log) (off : Nat) : Except Fault Nat := do
  let h ← getEntryHeader l off
  return hLen h

/-- kernel/ulogger-6.x.c:170-176 -/
def userHdrLen (ver : Nat) : Nat := if ver < 2 then compatHdrSize else hdrSize

/-- kernel/ulogger-6.x.c:178-200. The header bytes as sent to user space. -/
def userHeader (ver : Nat) (h : Bytes) : Bytes :=
  if ver < 2 then h.take 2 ++ [0, 0] ++ (h.drop 4).take 16 else h

/-- Results of calls as seen by the caller. -/
inductive Out
  | ok                    -- 0
  | ret (n : Nat)         -- a non-negative count or value
  | err (e : Errno)
  | data (bs : Bytes)     -- read: the bytes placed in the user buffer
  | block                 -- nothing to read: EAGAIN, or sleep
  | ready                 -- the first lock section of read found something
  | poll (readable : Bool)
  deriving DecidableEq, Repr

/-- The text of kernel/ulogger-6.x.c:229-236, including the NUL counted at
line 241. -/
def summaryText (name : Bytes) (dropped : Nat) : Bytes :=
  [0, 4, 0, 0, 0] ++ name ++ [0] ++ decInt (toInt32 dropped) ++
    ascii " log entries dropped\n" ++ [0]

/-- kernel/ulogger-6.x.c:208-257. `uw` is how many bytes of the user buffer can
be written. -/
def doReadDropSummary (l : Log) (r : Reader) (count uw : Nat) :
    Except Fault (Reader × Out) := do
  let h ← getEntryHeader l r.off
  let msg := summaryText l.name r.dropped
  -- `ret >= sizeof(msgbuf)`; ret does not count the final NUL
  if msg.length - 1 ≥ 128 then return (r, .err .efault)
  let sh := le16 msg.length ++ (h.drop 2).take 2 ++ le32 0xffffffff ++ le32 0xffffffff ++ h.drop 12
  let hl := userHdrLen r.ver
  if count < hl + msg.length then return (r, .err .einval)
  if uw < hl then return (r, .err .efault)
  if uw < hl + msg.length then return (r, .err .efault)
  return ({ r with dropped := 0 }, .data (userHeader r.ver sh ++ msg))

/-- kernel/ulogger-6.x.c:265-308 -/
def doReadLogToUser (l : Log) (r : Reader) (count uw : Nat) :
    Except Fault (Reader × Out) := do
  let h ← getEntryHeader l r.off
  let hl := userHdrLen r.ver
  if uw < hl then return (r, .err .efault)
  let cnt := count - hl
  let start := offset l.size (r.off + hdrSize)
  let len := min cnt (l.size - start)
  let a ← load l.size l.buf start len
  if uw < hl + len then return (r, .err .efault)
  let b ← if cnt ≠ len then load l.size l.buf 0 (cnt - len) else pure []
  if uw < hl + cnt then return (r, .err .efault)
  return ({ r with off := offset l.size (r.off + hdrSize + cnt) },
          .data (userHeader r.ver h ++ a ++ b))

/-- kernel/ulogger-6.x.c:314-332. Every entry is at least 24 bytes long, so in
a sound ring `size` iterations are more than enough; running out is `hang`. -/
def getNextEntryByUid (l : Log) (euid : UInt32) : (fuel off : Nat) → Except Fault Nat
  | fuel, off =>
    if off = l.wOff then .ok off
    else match fuel with
      | 0 => .error .hang
      | fuel + 1 => do
        let h ← getEntryHeader l off
        if hEuid h = euid then return off
        getNextEntryByUid l euid fuel (offset l.size (off + (hdrSize + hLen h)))

/-- `if (!reader->r_all) reader->r_off = get_next_entry_by_uid(...)`
(kernel/ulogger-6.x.c:384-386, 775-777, 844-846). -/
def skipForeign (l : Log) (euid : UInt32) (r : Reader) : Except Fault Reader := do
  if r.all then return r
  let off ← getNextEntryByUid l euid l.size r.off
  return { r with off := off }

/-- kernel/ulogger-6.x.c:382-417, the second lock section of `ulogger_read`.
`block` is the `goto start`. -/
def readSection (l : Log) (euid : UInt32) (r : Reader) (count uw : Nat) :
    Except Fault (Reader × Out) := do
  let r ← skipForeign l euid r
  if l.wOff = r.off then return (r, .block)
  if r.dropped > 0 then return ← doReadDropSummary l r count uw
  let n ← getEntryMsgLen l r.off
  let ret := userHdrLen r.ver + n
  if count < ret then return (r, .err .einval)
  doReadLogToUser l r ret uw

/-- kernel/ulogger-6.x.c:426-441. Returns the new offset and the number of
entries passed. `need` is `len - count`; each round adds at least 24 to
`count`, so `len` rounds suffice. -/
def getNextEntry (l : Log) : (fuel off need : Nat) → Except Fault (Nat × Nat)
  | 0, _, _ => .error .hang
  | fuel + 1, off, need => do
    let n ← getEntryMsgLen l off
    let nr := hdrSize + n
    let off' := offset l.size (off + nr)
    if nr < need then
      let (o, k) ← getNextEntry l fuel off' (need - nr)
      return (o, k + 1)
    else return (off', 1)

/-- kernel/ulogger-6.x.c:457-470 -/
def isBetween (a b c : Nat) : Bool :=
  if a < b then decide (a < c ∧ c ≤ b) else decide (c ≤ b ∨ a < c)

/-- One reader of kernel/ulogger-6.x.c:491-496. -/
def fixReader (l : Log) (old new len : Nat) (r : Reader) : Except Fault Reader := do
  if isBetween old new r.off then
    let (o, k) ← getNextEntry l len r.off len
    return { r with off := o, dropped := r.dropped + k }
  else return r

/-- The reader loop of kernel/ulogger-6.x.c:491-496. -/
def fixReaders (l : Log) (old new len : Nat) :
    List (Nat × Reader) → Except Fault (List (Nat × Reader))
  | [] => .ok []
  | (f, r) :: rs => do
    let r' ← fixReader l old new len r
    let rs' ← fixReaders l old new len rs
    return (f, r') :: rs'

/-- kernel/ulogger-6.x.c:486-489: the log head. -/
def fixHead (l : Log) (old new len : Nat) : Except Fault Log := do
  if isBetween old new l.head then
    let (o, k) ← getNextEntry l len l.head len
    return { l with head := o, dropped := l.dropped + k }
  else return l

/-- kernel/ulogger-6.x.c:480-497 -/
def fixUpReaders (l : Log) (len : Nat) : Except Fault Log := do
  let old := l.wOff
  let new := offset l.size (old + len)
  let l1 ← fixHead l old new len
  let rs ← fixReaders l1 old new len l1.readers
  return { l1 with readers := rs }

/-- kernel/ulogger-6.x.c:504-515 -/
def doWriteLog (l : Log) (bs : Bytes) : Except Fault Log := do
  let len := min bs.length (l.size - l.wOff)
  let b1 ← store l.size l.buf l.wOff (bs.take len)
  let b2 ← if bs.length ≠ len then store l.size b1 0 (bs.drop len) else pure b1
  return { l with buf := b2, wOff := offset l.size (l.wOff + bs.length) }

/-- A piece of user memory: `none` is a byte that cannot be read. -/
abbrev Seg := List (Option UInt8)

/-- `copy_from_user` into the ring. When some source byte cannot be read the
call fails and the destination holds arbitrary bytes (`junk`): the kernel
copies some prefix and clears the rest. -/
def copyFromUser (size : Nat) (buf : Nat → UInt8) (off : Nat) (s : Seg) (junk : Nat → UInt8) :
    Except Fault ((Nat → UInt8) × Bool) := do
  if s.all Option.isSome then
    let b ← store size buf off (s.filterMap id)
    return (b, true)
  else
    let b ← store size buf off ((List.range s.length).map junk)
    return (b, false)

/-- kernel/ulogger-6.x.c:525-547. `false` is `-EFAULT`. -/
def doWriteLogFromUser (l : Log) (s : Seg) (junk : Nat → UInt8) : Except Fault (Log × Bool) := do
  let len := min s.length (l.size - l.wOff)
  let (b1, ok1) ← if len ≠ 0 then copyFromUser l.size l.buf l.wOff (s.take len) junk
    else if l.wOff ≤ l.size then pure (l.buf, true) else .error .oob
  if !ok1 then return ({ l with buf := b1 }, false)
  let (b2, ok2) ← if s.length ≠ len then copyFromUser l.size b1 0 (s.drop len) junk
    else pure (b1, true)
  if !ok2 then return ({ l with buf := b2 }, false)
  return ({ l with buf := b2, wOff := offset l.size (l.wOff + s.length) }, true)

/-- The loop of kernel/ulogger-6.x.c:638-661. Empty segments change nothing.
The result is the byte count, or `none` for `-EFAULT`. -/
def writeSegs (junk : Nat → UInt8) (room : Nat) :
    List Seg → Log → Nat → Except Fault (Log × Option Nat)
  | [], l, ret => .ok (l, some ret)
  | s :: ss, l, ret => do
    let len := min s.length (room - ret)
    let (l', ok) ← doWriteLogFromUser l (s.take len) junk
    if !ok then return (l', none)
    writeSegs junk room ss l' (ret + len)

/-- What `struct iov_iter *from` can be (kernel/ulogger-6.x.c:637-676):
a user iovec array, a single user buffer, or anything else (kernel vectors,
page vectors), of which only the byte count matters to the driver. -/
inductive Iter
  | iovec (segs : List Seg)
  | ubuf (seg : Seg)
  | other (len : Nat)

/-- `iov_iter_count`. -/
def Iter.count : Iter → Nat
  | .iovec segs => (segs.map List.length).sum
  | .ubuf seg => seg.length
  | .other len => len

/-- kernel/ulogger-6.x.c:637-676 -/
def writeIter (junk : Nat → UInt8) (l : Log) (it : Iter) (room : Nat) :
    Except Fault (Log × Option Nat) :=
  match it with
  | .iovec segs => writeSegs junk room segs l 0
  | .ubuf seg => do
    let len := min room seg.length
    let (l', ok) ← doWriteLogFromUser l (seg.take len) junk
    return (l', if ok then some len else none)
  | .other _ => .ok (l, some 0)

/-- The part of `current` the write method uses: ids, clock, credentials and
the two 16-byte `comm` arrays. -/
structure Task where
  pid : UInt32
  tid : UInt32
  sec : UInt32
  nsec : UInt32
  euid : UInt32
  pcomm : Bytes
  tcomm : Bytes
  deriving DecidableEq, Repr

/-- `sizeof(current->comm)`. -/
abbrev commLen : Nat := 16

/-- A NUL-terminated copy of a `comm` array (kernel/ulogger-6.x.c:581-587),
including the terminator. -/
def commStr (comm : Bytes) : Bytes := cstr (comm.take commLen) ++ [0]

/-- The header bytes of kernel/ulogger-6.x.c:577-599 for an ordinary write. -/
def mkHeader (t : Task) (len : Nat) : Bytes :=
  le16 len ++ le16 hdrSize ++ le32 t.pid ++ le32 t.tid ++ le32 t.sec ++ le32 t.nsec ++ le32 t.euid

/-- The two strings stored before the user data (kernel/ulogger-6.x.c:580-590). -/
def names (t : Task) : Bytes × Bytes :=
  (commStr t.pcomm, if t.pid ≠ t.tid then commStr t.tcomm else [])

/-- kernel/ulogger-6.x.c:620-635: header and names. Returns the log and the
room left for user bytes. -/
def writePrefix (l : Log) (raw : Bool) (t : Task) (hlen : Nat) : Except Fault (Log × Nat) :=
  let size := hdrSize + hlen
  let pname := (names t).1
  let tname := (names t).2
  if raw then do
    let l ← doWriteLog l (le16 hlen ++ le16 hdrSize)
    return (l, size - 4)
  else do
    let l ← doWriteLog l (mkHeader t hlen)
    let l ← doWriteLog l pname
    let l ← if tname.length ≠ 0 then doWriteLog l tname else pure l
    return (l, size - hdrSize - pname.length - tname.length)

/-- `header.len` (kernel/ulogger-6.x.c:568-597); `len` is `iov_iter_count`. -/
def entryLen (raw : Bool) (t : Task) (len : Nat) : Nat :=
  if raw then min (len - (hdrSize - 4)) maxPayload
  else min ((names t).1.length + (names t).2.length + len) maxPayload

/-- kernel/ulogger-6.x.c:554-684. -/
def writeEntry (l : Log) (raw : Bool) (t : Task) (it : Iter) (junk : Nat → UInt8) :
    Except Fault (Log × Out) := do
  let len := it.count
  if raw && len < hdrSize - 4 then return (l, .err .einval)
  let hlen := entryLen raw t len
  if hlen = 0 then return (l, .ret 0)
  let orig := l.wOff
  let l ← fixUpReaders l (hdrSize + hlen)
  let (l, room) ← writePrefix l raw t hlen
  let (l, r) ← writeIter junk l it room
  match r with
  | some n => return (l, .ret n)
  | none => return ({ l with wOff := orig }, .err .efault)

/-- An open file of the device: mode and the raw-mode flag kept in the low bit
of `private_data` (kernel/ulogger-6.x.c:82-104). -/
structure File where
  rd : Bool
  wr : Bool
  raw : Bool
  deriving DecidableEq, Repr

/-- The device with its open files. -/
structure Sys where
  log : Log
  files : Nat → Option File

/-- Calls. `euid` is the caller's effective uid at the call. -/
inductive Op
  | openF (fid : Nat) (rd wr all : Bool)
  | release (fid : Nat)
  | write (fid : Nat) (t : Task) (it : Iter) (junk : Nat → UInt8)
  | check (fid : Nat)
  | read (fid : Nat) (euid : UInt32) (count uw : Nat)
  | poll (fid : Nat) (euid : UInt32)
  | getBufSize (fid : Nat)
  | getLogLen (fid : Nat)
  | getNextLen (fid : Nat) (euid : UInt32)
  | flush (fid : Nat)
  | getVersion (fid : Nat)
  | setVersion (fid : Nat) (arg : Option Int)
  | setRaw (fid : Nat) (cap : Bool) (arg : Option Int)

/-- The reader a readable file points to. It exists as long as the file is
open; a dangling pointer would be a memory fault. -/
def findReader (l : Log) (fid : Nat) : Except Fault Reader :=
  match l.readers.lookup fid with
  | some r => .ok r
  | none => .error .oob

/-- Update through the reader pointer. -/
def setReader (l : Log) (fid : Nat) (r : Reader) : Log :=
  { l with readers := l.readers.map fun p => if p.1 = fid then (p.1, r) else p }

def Sys.setFile (s : Sys) (fid : Nat) (f : Option File) : Sys :=
  { s with files := fun i => if i = fid then f else s.files i }

/-- One driver call on an open file `f` with id `fid`. -/
def stepFile (s : Sys) (fid : Nat) (f : File) : Op → Except Fault (Sys × Out)
  -- kernel/ulogger-6.x.c:735-749
  | .release _ =>
    let s' := s.setFile fid none
    if f.rd then
      .ok ({ s' with log := { s.log with readers := s.log.readers.filter fun p => p.1 ≠ fid } }, .ok)
    else .ok (s', .ok)
  -- kernel/ulogger-6.x.c:554-684; the VFS refuses a file not opened for writing
  | .write _ t it junk =>
    if f.wr then do
      let (l, o) ← writeEntry s.log f.raw t it junk
      return ({ s with log := l }, o)
    else .ok (s, .err .ebadf)
  -- kernel/ulogger-6.x.c:355-373
  | .check _ =>
    if f.rd then do
      let r ← findReader s.log fid
      return (s, if s.log.wOff = r.off then .block else .ready)
    else .ok (s, .err .ebadf)
  -- kernel/ulogger-6.x.c:382-417
  | .read _ euid count uw =>
    if f.rd then do
      let r ← findReader s.log fid
      let (r', o) ← readSection s.log euid r count uw
      return ({ s with log := setReader s.log fid r' }, o)
    else .ok (s, .err .ebadf)
  -- kernel/ulogger-6.x.c:760-784; a file not opened for reading is only writable
  | .poll _ euid =>
    if f.rd then do
      let r ← findReader s.log fid
      let r' ← skipForeign s.log euid r
      return ({ s with log := setReader s.log fid r' }, .poll (s.log.wOff ≠ r'.off))
    else .ok (s, .poll false)
  -- kernel/ulogger-6.x.c:823-825
  | .getBufSize _ => .ok (s, .ret s.log.size)
  -- kernel/ulogger-6.x.c:826-836
  | .getLogLen _ =>
    if f.rd then do
      let r ← findReader s.log fid
      return (s, .ret (if s.log.wOff ≥ r.off then s.log.wOff - r.off
                       else (s.log.size - r.off) + s.log.wOff))
    else .ok (s, .err .ebadf)
  -- kernel/ulogger-6.x.c:837-853
  | .getNextLen _ euid =>
    if f.rd then do
      let r ← findReader s.log fid
      let r' ← skipForeign s.log euid r
      let n ← if s.log.wOff ≠ r'.off then do
          let m ← getEntryMsgLen s.log r'.off
          pure (userHdrLen r'.ver + m)
        else pure 0
      return ({ s with log := setReader s.log fid r' }, .ret n)
    else .ok (s, .err .ebadf)
  -- kernel/ulogger-6.x.c:854-866
  | .flush _ =>
    if f.wr then
      let l := s.log
      .ok ({ s with log := { l with
              readers := l.readers.map fun p => (p.1, { p.2 with off := l.wOff, dropped := 0 })
              head := l.wOff
              dropped := 0 } }, .ok)
    else .ok (s, .err .ebadf)
  -- kernel/ulogger-6.x.c:867-874
  | .getVersion _ =>
    if f.rd then do
      let r ← findReader s.log fid
      return (s, .ret r.ver)
    else .ok (s, .err .ebadf)
  -- kernel/ulogger-6.x.c:875-882, 786-797
  | .setVersion _ arg =>
    if f.rd then do
      let r ← findReader s.log fid
      match arg with
      | none => return (s, .err .efault)
      | some v =>
        if v < 1 ∨ v > 2 then return (s, .err .einval)
        else return ({ s with log := setReader s.log fid { r with ver := v.toNat } }, .ok)
    else .ok (s, .err .ebadf)
  -- kernel/ulogger-6.x.c:883-899, 799-810; `cap` is true on x86 or with CAP_SYS_ADMIN
  | .setRaw _ cap arg =>
    if f.wr then
      if !cap then .ok (s, .err .eperm)
      else match arg with
        | none => .ok (s, .err .efault)
        | some v =>
          if v ≠ 0 ∧ v ≠ 1 then .ok (s, .err .einval)
          else .ok (s.setFile fid (some { f with raw := v = 1 }), .ok)
    else .ok (s, .err .ebadf)
  | .openF .. => .ok (s, .err .ebadf)

/-- The file id a call refers to. -/
@[reducible] def Op.fid : Op → Nat
  | .openF f .. | .release f | .write f .. | .check f | .read f .. | .poll f .. | .getBufSize f
  | .getLogLen f | .getNextLen f .. | .flush f | .getVersion f | .setVersion f .. | .setRaw f .. => f

/-- One driver call. Calls on an id that is not open (and opening an id that is
in use) are not possible calls; they are answered `EBADF` without effect. -/
def step (s : Sys) (op : Op) : Except Fault (Sys × Out) :=
  match op, s.files op.fid with
  -- kernel/ulogger-6.x.c:691-728
  | .openF fid rd wr all, none =>
    let s' := s.setFile fid (some { rd, wr, raw := false })
    if rd then
      .ok ({ s' with log := { s.log with
              readers := s.log.readers ++
                [(fid, { off := s.log.head, all, ver := 2, dropped := s.log.dropped })] } }, .ok)
    else .ok (s', .ok)
  | _, none => .ok (s, .err .ebadf)
  | op, some f => stepFile s op.fid f op

/-- A run of calls; the trace pairs each call with its result. -/
def run : Sys → List Op → Except Fault (Sys × List (Op × Out))
  | s, [] => .ok (s, [])
  | s, op :: ops => do
    let (s', o) ← step s op
    let (s'', tr) ← run s' ops
    return (s'', (op, o) :: tr)

/-- A fresh device (kernel/ulogger-6.x.c:1050-1058, 1110-1112): `buf` is
whatever `vmalloc` returned. -/
def init (name : Bytes) (pow2 : Nat) (buf : Nat → UInt8) : Sys :=
  { log := { name, size := 2 ^ pow2, buf, wOff := 0, head := 0, dropped := 0, readers := [] }
    files := fun _ => none }

end Verif.Kernel
