import Verif.Ulogcat.Text

/-!
# The kernel message daemon (kmsgd/kmsgd.c, kmsgd/kmsgd_evt.c)

The buffer has any size; in the program it has 16384 bytes. A read takes at most
what was asked for, and at most the number the kernel chooses. The buffers of libulog
(which cut long messages) are not modelled here; a log call is an output.
-/
namespace Verif.Tools
open Verif Verif.Ulogcat

inductive KOut
  /-- `ULOG_STR(ULOG_INFO, p)` -/
  | line (text : Bytes)
  /-- `ULOG_EVT("KANOMALY", "type='kernel';id='%s'", id)` -/
  | anomaly (id : Bytes)
  deriving DecidableEq, Repr

structure KState where
  buf : Bytes
  offset : Nat
  deriving DecidableEq, Repr

/-- `strstr`: the offset of the first occurrence. -/
def findSub (w : Bytes) : Bytes → Option Nat
  | [] => if w = [] then some 0 else none
  | b :: t => if w <+: b :: t then some 0 else (findSub w t).map (· + 1)

def oopsMarker : Bytes := ascii "---[ end trace "

/-- `gen_evt` (kmsgd_evt.c:35-56). -/
def genEvt (m : Bytes) (p : Nat) : Option (Bytes × List KOut) := do
  let s ← strAt m p
  match findSub oopsMarker s with
  | none => return (m, [])
  | some i =>
    let oops := p + i + oopsMarker.length
    match ← strchr m oops 32 (m.length + 1) with
    | none => return (m, [])
    | some e =>
      let m ← wr m e 0
      let id ← strAt m oops
      return (m, [.anomaly id])

/-- One line at `p`, ending at `q` (kmsgd.c:60-65). -/
def takeLine (m : Bytes) (p q : Nat) : Option (Bytes × List KOut) := do
  let m ← wr m q 0
  let s ← strAt m p
  let (m, ev) ← genEvt m p
  return (m, .line s :: ev)

/-- The loop over lines (kmsgd.c:58-68): memory, `count`, output. -/
def splitLoop : Nat → Bytes → Nat → Nat → List KOut → Option (Bytes × Nat × List KOut)
  | 0, _, _, _, _ => none
  | n + 1, m, p, count, out =>
    (strchr m p 10 (m.length + 1)).bind fun
      | none => some (m, count, out)
      | some q => (takeLine m p q).bind fun (m, o) => splitLoop n m (q + 1) (count + (q + 1 - p)) (out ++ o)

/-- `memmove(buf, &buf[count], size-count)` -/
def moveRest (m : Bytes) (count size : Nat) : Option Bytes :=
  if 0 < count ∧ count < size then
    if size ≤ m.length then poke m 0 (win m count (size - count)) else none
  else some m

/-- One turn of the loop in `main` (kmsgd.c:42-77) after a read gave `chunk`. -/
def kmsgdTurn (s : KState) (chunk : Bytes) : Option (KState × List KOut) := do
  let m ← poke s.buf s.offset chunk
  let size := s.offset + chunk.length
  let m ← wr m size 0
  let (m, count, out) ← splitLoop (m.length + 1) m 0 0 []
  let m ← moveRest m count size
  let offset := size - count
  return ({ buf := m, offset := if offset ≥ m.length - 1 then 0 else offset }, out)

/-- `klogctl(2, buf, want)` when the kernel gives at most `n` bytes: the bytes and
what is left. -/
def klogRead (stream : Bytes) (want n : Nat) : Bytes × Bytes :=
  (stream.take (min want n), stream.drop (min want n))

/-- The daemon reads a stream; the list says how much the kernel gives each time. -/
def kmsgdRun : List Nat → KState → Bytes → Option (KState × Bytes × List KOut)
  | [], s, stream => some (s, stream, [])
  | n :: ns, s, stream =>
    let r := klogRead stream (s.buf.length - 1 - s.offset) n
    (kmsgdTurn s r.1).bind fun (s, o) => (kmsgdRun ns s r.2).map fun (s, rest, o') => (s, rest, o ++ o')

end Verif.Tools
