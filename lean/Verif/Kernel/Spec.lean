import Verif.Kernel.Model

/-!
# Abstract log

What the driver is meant to be: a list of committed entries, never changed
except by appending, and cursors into it.  No ring, no bytes in memory, no
wrapping offsets.  `Sim.lean` shows the driver model refines this machine.
-/
namespace Verif.Kernel
open Verif

/-- A committed entry. -/
structure Entry where
  pid : UInt32
  tid : UInt32
  sec : UInt32
  nsec : UInt32
  euid : UInt32
  payload : Bytes
  deriving DecidableEq, Repr

/-- Header of an entry as version 2 readers see it. -/
def Entry.header (e : Entry) : Bytes :=
  le16 e.payload.length ++ le16 24 ++ le32 e.pid ++ le32 e.tid ++ le32 e.sec ++ le32 e.nsec ++
    le32 e.euid

/-- The stored form of an entry. -/
def Entry.encode (e : Entry) : Bytes := e.header ++ e.payload

/-- Bytes an entry takes in the log. -/
def Entry.size (e : Entry) : Nat := 24 + e.payload.length

/-- What a reader of ABI version `ver` receives for an entry. -/
def Entry.view (e : Entry) (ver : Nat) : Bytes :=
  if ver < 2 then
    le16 e.payload.length ++ [0, 0] ++ le32 e.pid ++ le32 e.tid ++ le32 e.sec ++ le32 e.nsec ++
      e.payload
  else e.encode

/-- The drop notice for `n` lost entries placed before entry `e`: it borrows
time and uid from that entry. -/
def summaryEntry (name : Bytes) (n : Nat) (e : Entry) : Entry :=
  { e with pid := 0xffffffff, tid := 0xffffffff, payload := summaryText name n }

/-- Total stored size. -/
def bytesLen (es : List Entry) : Nat := (es.map Entry.size).sum

/-- How many entries must go to free at least `need` bytes. -/
def adv : List Entry → Nat → Nat
  | [], _ => 0
  | e :: es, need => if e.size < need then adv es (need - e.size) + 1 else 1

structure ARd where
  idx : Nat
  all : Bool
  ver : Nat
  dropped : Nat
  deriving DecidableEq, Repr

structure ALog where
  name : Bytes
  size : Nat
  hist : List Entry
  head : Nat
  dropped : Nat
  readers : List (Nat × ARd)

structure ASys where
  log : ALog
  files : Nat → Option File

/-- A cursor is pushed forward by a write of `len` bytes when what it has not
read plus the new bytes would fill the ring. -/
def apush (size : Nat) (hist : List Entry) (len i : Nat) : Nat :=
  if size ≤ bytesLen (hist.drop i) + len then adv (hist.drop i) len else 0

/-- First entry from cursor `i` on that belongs to `euid` (or the end). -/
def askip (hist : List Entry) (euid : UInt32) (r : ARd) : ARd :=
  if r.all then r
  else { r with idx := r.idx + (hist.drop r.idx).findIdx (fun e => e.euid == euid) }

/-- All user bytes of a write. -/
def Iter.data : Iter → Seg
  | .iovec segs => segs.flatten
  | .ubuf seg => seg
  | .other _ => []

/-- The driver handles this iterator kind. -/
def Iter.supported : Iter → Bool
  | .other _ => false
  | _ => true

/-- The entry an ordinary write of `data` by task `t` commits. -/
def plainEntry (t : Task) (data : Bytes) : Entry :=
  { pid := t.pid, tid := t.tid, sec := t.sec, nsec := t.nsec, euid := t.euid
    payload := ((names t).1 ++ (names t).2 ++ data).take 4076 }

/-- Four bytes at `i` as a word. -/
def word (d : Bytes) (i : Nat) : UInt32 :=
  unle32 (d.getD i 0) (d.getD (i + 1) 0) (d.getD (i + 2) 0) (d.getD (i + 3) 0)

/-- The entry a raw write of `data` (at least 20 bytes) commits. -/
def rawEntry (data : Bytes) : Entry :=
  { pid := word data 0, tid := word data 4, sec := word data 8, nsec := word data 12
    euid := word data 16, payload := (data.drop 20).take 4076 }

/-- User bytes an accepted write keeps. -/
def keepLen (raw : Bool) (t : Task) : Nat :=
  if raw then 20 + 4076 else 4076 - ((names t).1.length + (names t).2.length)

/-- Abstract write. -/
def awrite (l : ALog) (raw : Bool) (t : Task) (data : Seg) : ALog × Out :=
  if raw && data.length < 20 then (l, .err .einval)
  else if raw && data.length = 20 then (l, .ret 0)
  else
    let keep := data.take (keepLen raw t)
    let bs := keep.map fun o => o.getD 0
    let e := if raw then rawEntry bs else plainEntry t bs
    let push := apush l.size l.hist e.size
    let l' := { l with
      head := l.head + push l.head
      dropped := l.dropped + push l.head
      readers := l.readers.map fun p =>
        (p.1, { p.2 with idx := p.2.idx + push p.2.idx, dropped := p.2.dropped + push p.2.idx }) }
    if keep.all Option.isSome then ({ l' with hist := l.hist ++ [e] }, .ret keep.length)
    else (l', .err .efault)

/-- Abstract read. -/
def aread (l : ALog) (euid : UInt32) (r : ARd) (count uw : Nat) : ARd × Out :=
  let r := askip l.hist euid r
  match l.hist[r.idx]? with
  | none => (r, .block)
  | some e =>
    let v := if r.dropped > 0 then (summaryEntry l.name r.dropped e).view r.ver else e.view r.ver
    if count < v.length then (r, .err .einval)
    else if uw < v.length then (r, .err .efault)
    else if r.dropped > 0 then ({ r with dropped := 0 }, .data v)
    else ({ r with idx := r.idx + 1 }, .data v)

def ALog.find (l : ALog) (fid : Nat) : Option ARd := l.readers.lookup fid

def ALog.set (l : ALog) (fid : Nat) (r : ARd) : ALog :=
  { l with readers := l.readers.map fun p => if p.1 = fid then (p.1, r) else p }

def ASys.setFile (s : ASys) (fid : Nat) (f : Option File) : ASys :=
  { s with files := fun i => if i = fid then f else s.files i }

/-- One abstract call on an open file. -/
def astepFile (s : ASys) (fid : Nat) (f : File) (op : Op) : ASys × Out :=
  let l := s.log
  let rd (k : ARd → ASys × Out) : ASys × Out :=
    if f.rd then match l.find fid with
      | some r => k r
      | none => (s, .err .ebadf)
    else (s, .err .ebadf)
  match op with
  | .release _ =>
    let s' := s.setFile fid none
    if f.rd then ({ s' with log := { l with readers := l.readers.filter fun p => p.1 ≠ fid } }, .ok)
    else (s', .ok)
  | .write _ t it _ =>
    if f.wr then
      let (l', o) := awrite l f.raw t it.data
      ({ s with log := l' }, o)
    else (s, .err .ebadf)
  | .check _ => rd fun r => (s, if r.idx = l.hist.length then .block else .ready)
  | .read _ euid count uw => rd fun r =>
      let (r', o) := aread l euid r count uw
      ({ s with log := l.set fid r' }, o)
  | .poll _ euid =>
    if f.rd then rd fun r =>
      let r' := askip l.hist euid r
      ({ s with log := l.set fid r' }, .poll (r'.idx ≠ l.hist.length))
    else (s, .poll false)
  | .getBufSize _ => (s, .ret l.size)
  | .getLogLen _ => rd fun r => (s, .ret (bytesLen (l.hist.drop r.idx)))
  | .getNextLen _ euid => rd fun r =>
      let r' := askip l.hist euid r
      ({ s with log := l.set fid r' },
        .ret (match l.hist[r'.idx]? with | some e => (e.view r'.ver).length | none => 0))
  | .flush _ =>
    if f.wr then
      ({ s with log := { l with
          readers := l.readers.map fun p => (p.1, { p.2 with idx := l.hist.length, dropped := 0 })
          head := l.hist.length
          dropped := 0 } }, .ok)
    else (s, .err .ebadf)
  | .getVersion _ => rd fun r => (s, .ret r.ver)
  | .setVersion _ arg => rd fun r =>
      match arg with
      | none => (s, .err .efault)
      | some v => if v = 1 ∨ v = 2 then ({ s with log := l.set fid { r with ver := v.toNat } }, .ok)
                  else (s, .err .einval)
  | .setRaw _ cap arg =>
    if f.wr then
      if !cap then (s, .err .eperm)
      else match arg with
        | none => (s, .err .efault)
        | some v => if v = 0 ∨ v = 1 then (s.setFile fid (some { f with raw := v = 1 }), .ok)
                    else (s, .err .einval)
    else (s, .err .ebadf)
  | .openF .. => (s, .err .ebadf)

/-- One abstract call. -/
def astep (s : ASys) (op : Op) : ASys × Out :=
  match op, s.files op.fid with
  | .openF fid rd wr all, none =>
    let s' := s.setFile fid (some { rd, wr, raw := false })
    if rd then
      ({ s' with log := { s.log with
          readers := s.log.readers ++
            [(fid, { idx := s.log.head, all, ver := 2, dropped := s.log.dropped })] } }, .ok)
    else (s', .ok)
  | _, none => (s, .err .ebadf)
  | op, some f => astepFile s op.fid f op

def arun : ASys → List Op → ASys × List (Op × Out)
  | s, [] => (s, [])
  | s, op :: ops =>
    let (s', o) := astep s op
    let (s'', tr) := arun s' ops
    (s'', (op, o) :: tr)

def ainit (name : Bytes) (pow2 : Nat) : ASys :=
  { log := { name, size := 2 ^ pow2, hist := [], head := 0, dropped := 0, readers := [] }
    files := fun _ => none }

/-- A call whose iterator kind the driver handles. -/
def Op.supported : Op → Bool
  | .write _ _ it _ => it.supported
  | _ => true

end Verif.Kernel
