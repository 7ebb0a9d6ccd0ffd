import Verif.Ulogcat.Text
import Verif.Kernel.Trace

/-!
# Kernel messages in libulogcat (ulogcat/libulogcat_klog.c)

A frame buffer is an object of bytes; `none` is an access outside it (or outside
the C string that must be in it). Library functions (`strtok_r`, `strchr`,
`strtol`…) are those of glibc on a 64-bit machine in the C locale.

`klog_read_entry` and `add_klog_device` are in `Kmsg`.
-/
namespace Verif.Ulogcat
open Verif.Kernel (parseDec isDigit)

def isSpace (b : UInt8) : Bool := (9 ≤ b ∧ b ≤ 13) ∨ b = 32

/-- What `strtol` and its kin find: a minus sign, the digits, and the number of
bytes used (0 without digits). -/
def strtoParts (s : Bytes) : Bool × Bytes × Nat :=
  let w := (s.takeWhile isSpace).length
  let r := s.drop w
  let sg := if r.head? = some 45 ∨ r.head? = some 43 then 1 else 0
  let ds := (r.drop sg).takeWhile isDigit
  if ds = [] then (false, [], 0) else (r.head? = some 45, ds, w + sg + ds.length)

/-- `strtoul(s, &endp, 10)`: the value and `endp - s`. -/
def strtoul (s : Bytes) : Nat × Nat :=
  let (neg, ds, n) := strtoParts s
  let v := parseDec ds
  (if v ≥ 18446744073709551616 then 18446744073709551615
   else if neg then (18446744073709551616 - v) % 18446744073709551616 else v, n)

/-- `strtol`/`strtoll(s, NULL, 10)`. -/
def strtol (s : Bytes) : Int :=
  let (neg, ds, _) := strtoParts s
  let v : Int := parseDec ds
  if neg then (if v > 9223372036854775808 then -9223372036854775808 else -v)
  else (if v > 9223372036854775807 then 9223372036854775807 else v)

/-- `strspn`/`strcspn(m + p, ",")` are found with this: the length of the longest
run of bytes satisfying `f` at `p`. -/
def runLen (m : Bytes) (p : Nat) (f : UInt8 → Bool) : Nat → Option Nat
  | 0 => none
  | n + 1 => do
    let b ← rd m p
    if f b then return (← runLen m (p + 1) f n) + 1
    else return 0

/-- `strtok_r` continuing at `p` with the delimiter `,`: the memory, the token and
the new save pointer. -/
def strtokComma (m : Bytes) (p : Nat) : Option (Bytes × Option Nat × Nat) := do
  let k ← runLen m p (· == 44) (m.length + 1)
  let s := p + k
  let b ← rd m s
  if b = 0 then return (m, none, s)
  else do
    let j ← runLen m s (fun b => b != 44 && b != 0) (m.length + 1)
    let e := s + j
    let b ← rd m e
    if b = 0 then return (m, some s, e)
    else do
      let m ← wr m e 0
      return (m, some s, e + 1)

/-- What `klog_receive_entry` stores in the frame. -/
structure KFrame where
  buf : Bytes
  priority : Nat
  sec : Int
  nsec : Int
  stamp : Int
  /-- `entry->message`: where the `;` is -/
  semi : Nat
  deriving DecidableEq, Repr

/-- `(int)(x & 7)` of a `long`. -/
def and7 (i : Int) : Nat := (i.emod 8).toNat

/-- Conversion to `unsigned long long`. -/
def toU64 (i : Int) : Int := i.emod 18446744073709551616

/-- libulogcat_klog.c:167-171. The division is that of `unsigned long long`. -/
def secOf (usec : Int) : Int := toU64 usec / 1000000

/-- libulogcat_klog.c:172: all in `unsigned long long`. -/
def nsecOf (usec : Int) : Int := toU64 (toU64 (usec - secOf usec * 1000000) * 1000)

/-- libulogcat_klog.c:142-185 after a successful read; the result `some none` is
-1. -/
def klogReceive (buf : Bytes) : Option (Option KFrame) := do
  let (m, prio, sv) ← strtokComma buf 0
  let (m, _, sv) ← strtokComma m sv
  let (m, ts, _) ← strtokComma m sv
  match prio, ts with
  | some prio, some ts => do
    let t ← strAt m ts
    let pr ← strAt m prio
    let usec := strtol t
    let semi ← strchr m (ts + t.length + 1) 59 (m.length + 1)
    match semi with
    | none => return none
    | some semi =>
      return some { buf := m, priority := and7 (strtol pr), sec := secOf usec, nsec := nsecOf usec, stamp := toU64 usec, semi }
  | _, _ => return none

def isXDigit (b : UInt8) : Bool := isDigit b ∨ (97 ≤ b ∧ b ≤ 102) ∨ (65 ≤ b ∧ b ≤ 70)

/-- libulogcat_klog.c:187-190. -/
def hex2dec (b : UInt8) : Nat :=
  (if isDigit b then b.toNat - 48 else (if 65 ≤ b ∧ b ≤ 90 then b.toNat + 32 else b.toNat) - 97 + 10) % 16

/-- libulogcat_klog.c:234-238: an escape begins at `p`. -/
def isEscape (m : Bytes) (p : Nat) : Option Bool := do
  if (← rd m p) ≠ 92 then return false
  else if (← rd m (p + 1)) ≠ 120 then return false
  else if isXDigit (← rd m (p + 2)) = false then return false
  else return isXDigit (← rd m (p + 3))

/-- The loop of libulogcat_klog.c:232-245: the memory and `q` after it. -/
def unescapeLoop : Nat → Bytes → Nat → Nat → Option (Bytes × Nat)
  | 0, _, _, _ => none
  | fuel + 1, m, p, q => do
    let b ← rd m p
    if b = 0 then return (m, q)
    else do
      let x ← isEscape m p
      if x then do
        let h ← rd m (p + 2)
        let l ← rd m (p + 3)
        let m ← wr m q (UInt8.ofNat (16 * hex2dec h + hex2dec l))
        unescapeLoop fuel m (p + 4) (q + 1)
      else do
        let m ← wr m q b
        unescapeLoop fuel m (p + 1) (q + 1)

/-- `klog_parse_entry` (206-251): the memory, the message and its length; `some
none` is -1. -/
def klogParse (f : KFrame) : Option (Option (Bytes × Nat × Nat)) := do
  let msg := f.semi + 1
  let nl ← strchr f.buf msg 10 (f.buf.length + 1)
  match nl with
  | none => return none
  | some nl => do
    let m ← wr f.buf nl 0
    let bs ← strchr m msg 92 (m.length + 1)
    match bs with
    | none => return some (m, msg, nl - msg + 1)
    | some p => do
      let (m, q) ← unescapeLoop (m.length + 1) m p p
      let m ← wr m q 0
      return some (m, msg, q - msg + 1)

/-! ### Kernel messages copied to a ulog device by kmsgd -/

/-- The part of `struct ulog_entry` that `kmsgd_fix_entry` works on: `text` is the
C string at `message`. -/
structure KEntry where
  text : Bytes
  len : Int
  priority : Nat
  sec : Nat
  nsec : Nat
  deriving DecidableEq, Repr

/-- `parse_prefix` (22-49). The priority is changed even when the line turns out
to be malformed. -/
def parsePrefix (e : KEntry) : KEntry :=
  if e.text.head? ≠ some 60 ∨ e.len < 4 then e
  else if e.text[2]? = some 62 then
    let d := e.text[1]?.getD 0
    { e with priority := if isDigit d then (d.toNat - 48) % 8 else 6, text := e.text.drop 3, len := e.len - 3 }
  else
    let (v, n) := strtoul (e.text.drop 1)
    let e := { e with priority := v % 8 }
    if e.text[1 + n]? = some 62 then { e with text := e.text.drop (2 + n), len := e.len - (2 + n) } else e

/-- `parse_timestamp` (51-83); `long` wraps around. -/
def parseTimestamp (e : KEntry) : KEntry :=
  let none_ := { e with sec := 0, nsec := 0 }
  if e.text.head? ≠ some 91 then none_
  else
    let (s, n) := strtoul (e.text.drop 1)
    if e.text[1 + n]? ≠ some 46 then none_
    else
      let (u, k) := strtoul (e.text.drop (2 + n))
      if e.text[2 + n + k]? = some 93 ∧ e.text[3 + n + k]? = some 32 then
        { e with sec := s, nsec := u * 1000 % 18446744073709551616, text := e.text.drop (4 + n + k), len := e.len - (4 + n + k) }
      else none_

/-- `kmsgd_fix_entry` (86-98), without the constant fields. -/
def kmsgdFix (e : KEntry) : KEntry := parseTimestamp (parsePrefix e)

end Verif.Ulogcat
