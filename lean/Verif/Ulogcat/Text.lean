import Verif.Mem

/-!
# Text rendering in libulogcat (ulogcat/libulogcat_text.c)

The render buffer is an object of `size` bytes; a store outside it, and a read of
the message outside its object, is the outcome `none`. Strings that are only read
(`tag`, `pname`, `tname`, the colours) are byte lists without NUL.

Simplifications: `localtime_r` and `strftime` are any function of the seconds;
`int` counters do not overflow (all lengths are below 2^31); `snprintf` never
reports an error.
-/
namespace Verif.Ulogcat

/-- `struct ulog_entry` (libulog/include/ulogprint.h:33-46), without `message`
and `len`. -/
structure Meta where
  sec : Int
  nsec : Int
  priority : Nat
  pid : Int
  pname : Bytes
  tid : Int
  tname : Bytes
  tag : Bytes
  isBinary : Bool
  color : Nat
  deriving DecidableEq, Repr

/-- `enum ulogcat_format` (ulogcat/include/libulogcat.h:26-32). -/
inductive Fmt
  | short
  | aligned
  | process
  | long
  | csv
  deriving DecidableEq, Repr

/-- What rendering needs of `struct ulogcat3_context` and of the device. -/
structure Look where
  fmt : Fmt
  /-- `ULOGCAT_FLAG_COLOR` -/
  color : Bool
  /-- `ULOGCAT_FLAG_SHOW_LABEL` -/
  showLabel : Bool
  /-- `ansi_color`: at most 31 bytes each -/
  ansi : Nat → Bytes
  /-- the device is labelled 'K' -/
  klog : Bool
  /-- `strftime` of `localtime_r` in a 32-byte buffer -/
  clock : Int → Bytes
  /-- the device is that of kmsgd: `parse_entry` is `ulog_parse_kmsgd_entry`
  (libulogcat_ulog.c:150-155) -/
  kmsgd : Bool := false

/-- Store bytes at offset `p` of an object. -/
def poke (m : Bytes) (p : Nat) (bs : Bytes) : Option Bytes :=
  if p + bs.length ≤ m.length then some (m.take p ++ bs ++ m.drop (p + bs.length)) else none

/-- `snprintf` of the text `s` in the `n` bytes at `p`. -/
def snprint (m : Bytes) (p n : Nat) (s : Bytes) : Option Bytes :=
  if n = 0 then some m else poke m p (s.take (n - 1) ++ [0])

/-- `%-Ns`. -/
def padTo (n : Nat) (s : Bytes) : Bytes := s ++ List.replicate (n - s.length) 32

/-- `%03ld`. -/
def dec3 : Int → Bytes
  | .ofNat n => List.replicate (3 - (decNat n).length) 48 ++ decNat n
  | .negSucc n => 45 :: (List.replicate (2 - (decNat (n + 1)).length) 48 ++ decNat (n + 1))

/-- `priotab` (libulogcat_text.c:28); see `renderFrame` for other values. -/
def prioChar (p : Nat) : UInt8 :=
  match [32, 32, 67, 69, 87, 78, 73, 68][p]? with
  | some c => c
  | none => 63

/-- `ansinone` (libulogcat_text.c:27). -/
def ansiNone : Bytes := [27, 91, 48, 109]

/-- libulogcat_text.c:120-121 and 188-189. -/
def cstart (L : Look) (e : Meta) : Bytes := if L.color then L.ansi e.priority else []

/-- libulogcat_text.c:122 and 190. -/
def cend (L : Look) : Bytes := if L.color then ansiNone else []

/-- libulogcat_text.c:123 and 191. -/
def clabel (L : Look) : Bytes :=
  if L.showLabel then (if L.klog then [75, 32] else [85, 32]) else []

/-- The thread name part of libulogcat_text.c:134-137 and 142-147. -/
def threadPart (e : Meta) : Bytes := if e.pid ≠ e.tid then 47 :: e.tname else []

/-- `buf2` (128 bytes) of libulogcat_text.c:134-137. -/
def whoAligned (e : Meta) : Bytes :=
  (padTo 12 e.tag ++ [40] ++ e.pname ++ threadPart e ++ [41]).take 127

/-- `buf2` of libulogcat_text.c:154-162. -/
def whoLong (e : Meta) : Bytes :=
  (padTo 12 e.tag ++ [40] ++ e.pname ++ [45] ++ decInt e.pid ++
    (if e.pid ≠ e.tid then [47] ++ e.tname ++ [45] ++ decInt e.tid else []) ++ [41]).take 127

/-- What stands before the message: libulogcat_text.c:125-169 (`print_ulog_line`). -/
def headU (L : Look) (e : Meta) : Bytes :=
  match L.fmt with
  | .short => cstart L e ++ clabel L ++ [prioChar e.priority, 32] ++ padTo 12 e.tag ++ [58, 32]
  | .process =>
    cstart L e ++ clabel L ++ [prioChar e.priority, 32] ++ padTo 12 e.tag ++ [40] ++ e.pname ++ threadPart e ++
      [41, 58, 32]
  | .long =>
    cstart L e ++ clabel L ++ L.clock e.sec ++ [46] ++ dec3 (e.nsec.tdiv 1000000) ++ [32, prioChar e.priority, 32] ++
      padTo 45 (whoLong e) ++ [58, 32]
  | _ => cstart L e ++ clabel L ++ [prioChar e.priority, 32] ++ padTo 45 (whoAligned e) ++ [58, 32]

/-- libulogcat_text.c:193-222 (`print_klog_line`). -/
def headK (L : Look) (e : Meta) : Bytes :=
  match L.fmt with
  | .short => cstart L e ++ clabel L ++ [prioChar e.priority, 32] ++ padTo 12 e.tag ++ [58, 32]
  | .process => cstart L e ++ clabel L ++ [prioChar e.priority, 32] ++ padTo 12 e.tag ++ [58, 32]
  | .long =>
    cstart L e ++ clabel L ++ L.clock e.sec ++ [46] ++ dec3 (e.nsec.tdiv 1000000) ++ [32, prioChar e.priority, 32] ++
      padTo 45 e.tag ++ [58, 32]
  | _ => cstart L e ++ clabel L ++ [prioChar e.priority, 32] ++ padTo 45 e.tag ++ [58, 32]

/-- The text of one line: the arguments of `snprintf` in `print_ulog_line`
(105-176) and `print_klog_line` (179-229). -/
def lineText (L : Look) (e : Meta) (msg : Bytes) : Bytes :=
  (if L.klog then headK L e else headU L e) ++ msg ++ cend L ++ [10]

/-- `print_log_line` (231-245), `print_ulog_line`, `print_klog_line`: the buffer
and the count they return. -/
def printLine (L : Look) (e : Meta) (msg : Bytes) (m : Bytes) (p n : Nat) : Option (Bytes × Nat) := do
  let s := lineText L e msg
  let m ← snprint m p n s
  return (m, if s.length ≥ n then n else s.length)

/-- `strchr(msg + p, c)`: the outer `none` is a read outside the object. -/
def strchr (m : Bytes) (p : Nat) (c : UInt8) : Nat → Option (Option Nat)
  | 0 => none
  | n + 1 => do
    let b ← rd m p
    if b = c then return some p
    else if b = 0 then return none
    else strchr m (p + 1) c n

/-- State of the loop of `text_render_frame`: the message object, the render
buffer, `render_len`, `p`, `size`. -/
structure RState where
  msg : Bytes
  buf : Bytes
  len : Nat
  p : Nat
  size : Nat
  deriving DecidableEq, Repr

/-- One line: libulogcat_text.c:285-299. The result tells where the next line
begins, if there is one. -/
def renderStep (L : Look) (e : Meta) (at_ : Nat) (s : RState) : Option (RState × Option Nat) := do
  let nl ← strchr s.msg at_ 10 (s.msg.length + 1)
  let msg ← match nl with
    | some i => wr s.msg i 0
    | none => some s.msg
  let line ← strAt msg at_
  let (buf, count) ← printLine L e line s.buf s.p s.size
  let s' : RState := { msg, buf, len := s.len + count, p := s.p + count, size := s.size - count }
  match nl with
  | some i => do
    let b ← rd msg (i + 1)
    return (s', if b = 0 then none else some (i + 1))
  | none => return (s', none)

/-- The loop of libulogcat_text.c:284-300; `none` also when it does not end
within `fuel` lines. -/
def renderLoop (L : Look) (e : Meta) : Nat → Nat → RState → Option RState
  | 0, _, _ => none
  | fuel + 1, at_, s => do
    let (s, next) ← renderStep L e at_ s
    match next with
    | none => return s
    | some i => renderLoop L e fuel i s

/-- Lower case hexadecimal digit (libulogcat_text.c:60). -/
def hexDigit (n : Nat) : UInt8 := UInt8.ofNat (if n < 10 then 48 + n else 87 + n)

/-- `%x`. -/
def hexNat (n : Nat) : Bytes :=
  if _h : n < 16 then [hexDigit n] else hexNat (n / 16) ++ [hexDigit (n % 16)]
termination_by n

/-- `%0Nx`. -/
def hexPad (w n : Nat) : Bytes :=
  let s := hexNat n
  List.replicate (w - s.length) 48 ++ s

/-- Conversion to `unsigned int`. -/
def toU32 (i : Int) : Nat := (i.emod 4294967296).toNat

/-- The text of the prefix: libulogcat_text.c:66-79. -/
def csvPrefix (e : Meta) (len : Nat) : Bytes :=
  [48, 120] ++ hexPad 8 (toU32 e.sec) ++ [44] ++
  [48, 120] ++ hexPad 8 (toU32 e.nsec) ++ [44] ++
  decNat e.priority ++ [44] ++
  [48, 120] ++ hexPad 6 e.color ++ [44] ++
  decNat (if e.isBinary then 1 else 0) ++ [44] ++
  e.tag ++ [44] ++ e.pname ++ [44] ++ decInt e.pid ++ [44] ++ e.tname ++ [44] ++ decInt e.tid ++ [44] ++
  decNat len ++ [44]

/-- libulogcat_text.c:92-97. -/
def hexDump (bs : Bytes) : Bytes := bs.flatMap fun b => [hexDigit (b.toNat / 16), hexDigit (b.toNat % 16)]

/-- The payload of a CSV line (libulogcat_text.c:63-64, 91-102): `len` is
`entry->len`. -/
def payloadOf (e : Meta) (msg : Bytes) (len : Nat) : Option Bytes :=
  if e.isBinary then (if len ≤ msg.length then some (hexDump (msg.take len)) else none) else strAt msg 0

/-- `print_log_line_csv` (54-108): `none` is a store outside the buffer or a read
outside the message; the number is `none` for -1. -/
def printCsv (e : Meta) (msg : Bytes) (len : Nat) (m : Bytes) (n : Nat) : Option (Bytes × Option Nat) := do
  let payload ← payloadOf e msg len
  let pre := csvPrefix e payload.length
  let m ← snprint m 0 n pre
  if pre.length ≥ n then return (m, none)
  else if pre.length + payload.length + 1 > n then return (m, none)
  else do
    let m ← poke m pre.length (payload ++ [10])
    return (m, some (pre.length + payload.length + 1))

/-- libulogcat_text.c:258-265. The text is the whole line, so the length may
exceed the buffer. -/
def printBanner (text : Bytes) (m : Bytes) (n : Nat) : Option (Bytes × Nat) := do
  let s := List.replicate 39 45 ++ text ++ [10]
  let m ← snprint m 0 n s
  return (m, s.length)

/-- The message of a banner: `str` (128 bytes) of libulogcat_core.c:107-111. -/
def bannerText (path : Bytes) : Bytes := (ascii "------------- beginning of " ++ path).take 127

/-- `text_render_frame` (250-303) for an entry whose message object is `msg`
(starting with the message) with `entry->len` = `len`: the buffer and, when it
returns 0, `render_len`. A priority above 7 reads outside `priotab`. -/
def renderFrame (L : Look) (e : Meta) (msg : Bytes) (len : Nat) (buf : Bytes) : Option (Bytes × Option Nat) :=
  match L.fmt with
  | .csv => printCsv e msg len buf buf.length
  | _ =>
    if e.isBinary then some (buf, none)
    else if 8 ≤ e.priority then none
    else do
      let s ← renderLoop L e (msg.length + 1) 0 { msg, buf, len := 0, p := 0, size := buf.length }
      return (s.buf, if s.len ≠ 0 then some s.len else none)

end Verif.Ulogcat
