import Verif.Libulog.Raw
import Verif.Ulogcat.Klog

/-!
# The shell command (ulogger/ulogger.c)

Input: the options in the order in which `getopt_long` gives them, the other
arguments, standard input, and the environment (can the device be opened, what
each call of `clock_gettime` gives, how each `writev` ends). Output: the events
and the exit status.

Simplifications: the permutation of arguments by `getopt_long` is not modelled;
`fgets` meets no read error; the message printed when the device cannot be
opened or a write fails is left out; times of the clock are kept modulo 2^32 as
the fields of the header are; `isdigit` is defined for every `char`.
-/
namespace Verif.Tools
open Verif Verif.Libulog Verif.Ulogcat
open Verif.Kernel (isDigit)

/-- What `getopt_long` returned (ulogger.c:180-189, 219-254). -/
inductive LgOpt
  | pid (arg : Bytes)
  | time
  | name (arg : Bytes)
  | prio (arg : Bytes)
  | stderr
  | tag (arg : Bytes)
  | help
  | bad
  deriving DecidableEq, Repr

/-- The fields of `raw` that change, and the flags (ulogger.c:178, 193-202).
`tid` is always equal to `pid`; `tname` is null with length 0. Strings are
without their NUL. -/
structure Lg where
  pid : UInt32
  sec : UInt32 := 0
  nsec : UInt32 := 0
  prio : Nat := 6
  pname : Bytes
  tag : Bytes := ascii "ulogger"
  hasTime : Bool := false
  copyErr : Bool := false
  deriving DecidableEq, Repr

inductive LgEv
  /-- `writev` on the device -/
  | write (vec : List Bytes)
  /-- `ULOG_STR` with the tag of the program -/
  | str (prio : Nat) (tag text : Bytes)
  /-- text on standard error -/
  | err (text : Bytes)
  deriving DecidableEq, Repr

/-- ulogger.c:54-89 -/
def parseLevel (c : UInt8) : Nat :=
  if isDigit c then (if c.toNat - 48 > 7 then 7 else c.toNat - 48)
  else if c = 67 then 2
  else if c = 69 then 3
  else if c = 87 then 4
  else if c = 78 then 5
  else if c = 73 then 6
  else if c = 68 then 7
  else 6

/-- Conversion to a 32-bit field. -/
def low32 (v : Int) : UInt32 := UInt32.ofNat (v.emod 4294967296).toNat

/-- `strtol(s, &endptr, 10)`: the value and `endptr - s`. -/
def strtolEnd (s : Bytes) : Int × Nat := (strtol s, (strtoParts s).2.2)

/-- ulogger.c:91-107, called with valid pointers. -/
def parseInt32 (s : Bytes) : Option UInt32 :=
  if s = [] then none
  else
    let (v, n) := strtolEnd s
    if s.drop n = [] then some (low32 v) else none

/-- ulogger.c:109-138: the times written, if any, and `*pendptr - str`. -/
def parseTime (s : Bytes) : Option (UInt32 × UInt32) × Nat :=
  if s = [] ∨ s.head? = some 32 then (none, 0)
  else
    let (v, n) := strtolEnd s
    if (s.drop n).head? = some 32 then
      let (w, k) := strtolEnd (s.drop (n + 1))
      (some (low32 v, if k ≠ 0 then low32 w else 0), n + 1 + k)
    else (none, n)

/-- ulogger.c:140-149 -/
def spaceSkip (s : Bytes) : Bytes := s.dropWhile (· == 32)

/-- `prios` (ulogger.c:154) -/
def prioLetters : Bytes := ascii "01CEWNID"

/-- ulogger.c:164-170 -/
def errCopy (st : Lg) (text : Bytes) : List LgEv :=
  if st.copyErr then
    [.err ([prioLetters.getD st.prio 0, 32] ++ st.tag ++ [58, 32] ++ text ++
      (if text = [] ∨ text.getLast? ≠ some 10 then [10] else []))]
  else []

/-- The environment: the result of opening the device (`none`: failed), of the
calls of `clock_gettime` and of the calls of `writev` (`some e`: failed with `e`). -/
structure LgEnv where
  dev : Option Nat
  clock : Nat → Option (UInt32 × UInt32)
  write : Nat → Option Nat

/-- The entry given to `ulog_raw_log`. -/
def rawOf (st : Lg) (text : Bytes) : RawEntry :=
  { pid := st.pid, tid := st.pid, sec := st.sec, nsec := st.nsec, euid := 0, prio := UInt32.ofNat st.prio
    pname := st.pname ++ [0], tname := [], tag := st.tag ++ [0], message := some (text ++ [0]) }

/-- `ulogger_log` (ulogger.c:151-172) for the `i`-th message: the events and the
status with which the program ends here, if it does. The tag of the library call
was set before the options were read (lines 209-214). -/
def lgLog (env : LgEnv) (i : Nat) (st : Lg) (text : Bytes) : List LgEv × Option Nat :=
  match env.dev with
  | some fd =>
    match rawLog fd (some (rawOf st text)) with
    | none => ([], some 22)
    | some v =>
      match env.write i with
      | some e => ([.write v], some e)
      | none => (.write v :: errCopy st text, none)
  | none => (.str st.prio (ascii "ulogger") text :: errCopy st text, none)

/-- ulogger.c:219-254: the options, or the status with which the program ends. -/
def lgOpts (st : Lg) : List LgOpt → Lg ⊕ Nat
  | [] => .inl st
  | .pid a :: os =>
    match parseInt32 a with
    | some p => lgOpts { st with pid := p } os
    | none => lgOpts st os
  | .time :: os => lgOpts { st with hasTime := true } os
  | .name a :: os => lgOpts { st with pname := a } os
  | .prio a :: os => lgOpts { st with prio := parseLevel (a.headD 0) } os
  | .stderr :: os => lgOpts { st with copyErr := true } os
  | .tag a :: os => lgOpts { st with tag := a } os
  | .help :: _ => .inr 0
  | .bad :: _ => .inr 1

/-- What line 258 and line 281 ask: the clock, unless times are given. -/
def clockOf (env : LgEnv) (i : Nat) (st : Lg) : Option (UInt32 × UInt32) := if st.hasTime then none else env.clock i

/-- One turn of the loop over the arguments (ulogger.c:257-276): the new fields,
the message and the arguments left. -/
def lgArg (env : LgEnv) (i : Nat) (st : Lg) (a : Bytes) (rest : List Bytes) : Lg × Bytes × List Bytes :=
  match clockOf env i st with
  | some (s, n) => ({ st with sec := s, nsec := n }, a, rest)
  | none =>
    match rest with
    | [] => (st, a, [])
    | b :: r =>
      match parseInt32 a with
      | none => (st, a, b :: r)
      | some s =>
        let st := { st with sec := s }
        match r with
        | [] => (st, b, [])
        | c :: r' =>
          match parseInt32 b with
          | none => (st, b, c :: r')
          | some n => ({ st with nsec := n }, c, r')

/-- ulogger.c:256-276 -/
def lgArgs (env : LgEnv) : Nat → Nat → Lg → List Bytes → List LgEv × Nat
  | 0, _, _, _ => ([], 0)
  | _, _, _, [] => ([], 0)
  | fuel + 1, i, st, a :: rest =>
    let (st, text, rest) := lgArg env i st a rest
    match lgLog env i st text with
    | (ev, some e) => (ev, e)
    | (ev, none) => let (ev', e) := lgArgs env fuel (i + 1) st rest; (ev ++ ev', e)

/-- `fgets(buf, 256, stdin)` on what is left of the input: what goes to the buffer
and what is left. -/
def fgets (s : Bytes) : Bytes × Bytes :=
  let n := (s.takeWhile (· != 10)).length
  let k := min 255 (if n < s.length then n + 1 else n)
  (s.take k, s.drop k)

/-- One turn of the loop over lines (ulogger.c:280-292); `line` is the string in
the buffer. -/
def lgLine (env : LgEnv) (i : Nat) (st : Lg) (line : Bytes) : Lg × Bytes :=
  match clockOf env i st with
  | some (s, n) => ({ st with sec := s, nsec := n }, line)
  | none =>
    let (t, k) := parseTime line
    let st := match t with
      | some (s, n) => { st with sec := s, nsec := n }
      | none => st
    (st, spaceSkip (line.drop k))

/-- ulogger.c:279-293; the string in the buffer ends at the first NUL read. -/
def lgLines (env : LgEnv) : Nat → Nat → Lg → Bytes → List LgEv × Nat
  | 0, _, _, _ => ([], 0)
  | fuel + 1, i, st, input =>
    if input = [] then ([], 0)
    else
      let (buf, left) := fgets input
      let (st, text) := lgLine env i st (cstr buf)
      match lgLog env i st text with
      | (ev, some e) => (ev, e)
      | (ev, none) => let (ev', e) := lgLines env fuel (i + 1) st left; (ev ++ ev', e)

/-- ulogger.c:174-295. `self` is the short name of the program, `pid` its number. -/
def ulogger (env : LgEnv) (self : Bytes) (pid : UInt32) (opts : List LgOpt) (args : List Bytes) (input : Bytes) :
    List LgEv × Nat :=
  match lgOpts { pid, pname := self } opts with
  | .inr e => ([], e)
  | .inl st =>
    if args ≠ [] then lgArgs env args.length 0 st args
    else lgLines env input.length 0 st input

end Verif.Tools
