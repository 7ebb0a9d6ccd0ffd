import Verif.Bytes

/-!
# Adding and listing log devices (kernel/ulogger-6.x.c:942-1123)

The `logs` attribute of `ulog_main`. A request is parsed and its memory is
allocated before `logs_mutex` is taken; the search for a slot and the
registration are one critical section, so requests of several threads act one
after another in the order of their critical sections.

`sscanf`, `islower`, `isspace`, `kstrdup`, `ffs` and `scnprintf` belong to the
kernel, not to this repository; their behaviour is taken from Linux
(`lib/vsprintf.c`, `lib/ctype.c`): a conversion to `%u` drops the bits above 32,
the character classes include Latin-1.
-/
namespace Verif.Kernel
open Verif

/-- `isspace` of the kernel: ASCII white space and the no-break space. -/
def kspace (b : UInt8) : Bool := (9 ≤ b && b ≤ 13) || b = 32 || b = 160

/-- `isdigit`. -/
def kdigit (b : UInt8) : Bool := 48 ≤ b && b ≤ 57

/-- `islower` of the kernel: `a`-`z` and the small letters of Latin-1. -/
def klower (b : UInt8) : Bool := (97 ≤ b && b ≤ 122) || (223 ≤ b && b != 247)

/-- `simple_strtoull` in base ten, kept in 64 bits. -/
def strtoull (l : Bytes) : Nat := l.foldl (fun n b => (n * 10 + (b.toNat - 48)) % 18446744073709551616) 0

/-- `sscanf(buf, "%15s %u", namebuf, &size) == 2` (1020): the word and the number. -/
def scanSpec (buf : Bytes) : Option (Bytes × Nat) :=
  let s := (cstr buf).dropWhile kspace
  let word := (s.takeWhile fun b => !kspace b).take 15
  let rest := (s.drop word.length).dropWhile kspace
  let digits := rest.takeWhile kdigit
  if digits.isEmpty then none else some (word, strtoull digits % 4294967296)

/-- A registered device: `misc.name`, `size` and whether `buffer` is non-null. -/
structure RLog where
  name : Bytes
  size : Nat
  buf : Bool
  deriving DecidableEq

/-- `ULOGGER_MAX_LOGS`. -/
abbrev maxLogs : Nat := 16

/-- `ulogger_logs` (949). -/
structure Reg where
  slots : List (Option RLog)
  deriving DecidableEq

/-- 999-1003. The argument is an `unsigned int` converted to `int`. -/
def checkBufSize (p : Int) : Bool := 14 ≤ p && p ≤ 24

/-- What the kernel says to the allocations and to `misc_register`. -/
structure Grant where
  /-- `kstrdup`, 1039 -/
  name : Bool
  /-- `kzalloc`, 1042 -/
  log : Bool
  /-- `vmalloc`, 1043 -/
  buffer : Bool
  /-- `init_log`, 1066 -/
  register : Bool

inductive AddRes
  /-- the request is accepted; the byte count -/
  | done (n : Nat)
  | einval
  | enomem
  /-- a null pointer is dereferenced -/
  | fault
  deriving DecidableEq

/-- The checks on the word (1024-1035) and on the size. -/
def specOk (word : Bytes) (size : Nat) : Bool :=
  word.take 5 == ascii "ulog_" && (word.drop 5).all klower && checkBufSize (toInt32 size)

/-- The loop of 1064-1075 from some slot on; `none` leaves `slot` at -1. -/
def place (d : RLog) (register : Bool) : List (Option RLog) → Option (List (Option RLog))
  | [] => none
  | none :: t => if register then some (some d :: t) else none
  | some l :: t => if l.name = d.name then none else (place d register t).map (some l :: ·)

/-- `ulogger_add_log` (1008-1091). A failed `kstrdup` goes unnoticed and `strcmp`
gets the null pointer at 1072 (slot 0 is never empty). -/
def addLog (r : Reg) (buf : Bytes) (g : Grant) : Reg × AddRes :=
  match scanSpec buf with
  | none => (r, .einval)
  | some (word, size) =>
    if specOk word size then
      if g.log && g.buffer then
        if g.name then
          match place { name := word, size := 2 ^ size, buf := true } g.register r.slots with
          | some s => ({ slots := s }, .done buf.length)
          | none => (r, .einval)
        else (r, .fault)
      else (r, .enomem)
    else (r, .einval)

/-- `ulogger_init` (1097-1123); `none` if the driver does not load. `got` is
whether `vmalloc` succeeded, `register` whether `init_log` did. -/
def regInit (mainSize : Int) (got register : Bool) : Option Reg :=
  if checkBufSize mainSize && register then
    some { slots := some { name := ascii "ulog_main", size := 2 ^ mainSize.toNat, buf := got } ::
      List.replicate (maxLogs - 1) none }
  else none

/-- `ffs`: the place of the lowest one bit, from one. -/
def ffs (n : Nat) : Nat :=
  if h : n = 0 then 0 else if n % 2 = 1 then 1 else ffs (n / 2) + 1
termination_by n

/-- `scnprintf(&buf[count], length, "%s %u\n", ...)`: at most `length - 1` bytes. -/
def showLine (page : Nat) (l : RLog) : Bytes :=
  (l.name ++ [32] ++ decNat (ffs l.size - 1) ++ [10]).take (page / maxLogs - 1)

/-- `ulogger_show_logs` (977-997); `page` is `PAGE_SIZE`. -/
def showLogs (page : Nat) (r : Reg) : Bytes :=
  ((r.slots.takeWhile Option.isSome).filterMap id).flatMap (showLine page)

/-- States reached by any requests; the driver is gone after a fault. -/
inductive RegReach (mainSize : Int) (got : Bool) : Reg → Prop
  | init {r : Reg} (register : Bool) : regInit mainSize got register = some r → RegReach mainSize got r
  | add {r : Reg} (buf : Bytes) (g : Grant) : RegReach mainSize got r → (addLog r buf g).2 ≠ .fault →
    RegReach mainSize got (addLog r buf g).1

/-- The registered devices. -/
def Reg.devs (r : Reg) : List RLog := r.slots.filterMap id

end Verif.Kernel
