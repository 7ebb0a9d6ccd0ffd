import Verif.Libulog.Write

/-!
# The errno and event macros of libulog/include/ulog.h

Expressions handed to a macro may have side effects, may log themselves and may
read `errno`. What is followed here is which expression is evaluated when, and how
often.
-/
namespace Verif.Libulog
open Verif

/-- State of a thread: the library, `errno`, everything else of the program, and what
the library did so far. -/
structure CSt (μ : Type) where
  lib : Lib
  errno : Int
  mem : μ
  evs : List Ev

/-- A C expression. -/
abbrev Ex (μ α : Type) := CSt μ → α × CSt μ

/-- What surrounds a call site: names of the tags, environment, what `errno` is after
a message was handed to the writer (`writev` may have failed), what `strerror` says. -/
structure Site (μ : Type) where
  nm : Cid → Bytes
  world : World
  after : CSt μ → Int
  strerror : Int → Bytes

variable {μ α : Type}

/-- `ulog_log`, libulog/include/ulog.h:500-508. `text` evaluates the arguments and
formats them. `ulog_init_cookie` restores `errno` (libulog/ulog_write.c:365-420). -/
def ulogLog (S : Site μ) (prio : Ex μ UInt32) (c : Cid) (text : Ex μ (Option Bytes)) (s : CSt μ) : Except WFault (CSt μ) :=
  let (p, s) := prio s
  let (lib, e) := ensureInit S.nm S.world s.lib c
  let s := { s with lib, evs := s.evs ++ e }
  if ((p.toNat % 8 : Nat) : Int) ≤ s.lib.level c then
    let (t, s) := text s
    match formatted t with
    | none => .ok s
    | some d => do
      let (lib, e) ← deliver S.nm S.world s.lib p c d
      .ok { s with lib, evs := s.evs ++ e, errno := S.after s }
  else .ok s

/-- The text of `ULOG_PRI_ERRNO`: `"%s:%d: " _fmt " err=%d(%s)"`, `msg` being what
`_fmt` gives (libulog/include/ulog.h:408-410). -/
def errnoText (func : Bytes) (line : Nat) (msg : Bytes) (err : Int) (str : Bytes) : Bytes :=
  func ++ ascii ":" ++ decNat line ++ ascii ": " ++ msg ++ ascii " err=" ++ decInt err ++ ascii "(" ++ str ++ ascii ")"

/-- `ULOG_PRI_ERRNO`, libulog/include/ulog.h:405-411. -/
def priErrno (S : Site μ) (c : Cid) (func : Bytes) (line : Nat) (err : Ex μ Int) (prio : Ex μ UInt32) (msg : Ex μ (Option Bytes))
    (s : CSt μ) : Except WFault (CSt μ) :=
  let (e, s) := err s
  ulogLog S prio c (fun s => let (m, s) := msg s; (m.map fun m => errnoText func line m e (S.strerror e), s)) s

/-- `ULOGE_ERRNO((_err), "")`, libulog/include/ulog.h:189-190. -/
def ulogeErrno (S : Site μ) (c : Cid) (func : Bytes) (line : Nat) (err : Ex μ Int) (s : CSt μ) : Except WFault (CSt μ) :=
  priErrno S c func line err (fun s => (3, s)) (fun s => (some [], s)) s

/-- `ULOG_ERRNO_RETURN_IF`, libulog/include/ulog.h:212-218: whether the function
returned. -/
def returnIf (S : Site μ) (c : Cid) (func : Bytes) (line : Nat) (cond : Ex μ Bool) (err : Ex μ Int) (s : CSt μ) :
    Except WFault (Option Unit × CSt μ) :=
  let (b, s) := cond s
  if b then do
    let s ← ulogeErrno S c func line err s
    .ok (some (), s)
  else .ok (none, s)

/-- `ULOG_ERRNO_RETURN_ERR_IF`, libulog/include/ulog.h:225-232. `none` in the place of
the value: the negation of the least `int`. -/
def returnErrIf (S : Site μ) (c : Cid) (func : Bytes) (line : Nat) (cond : Ex μ Bool) (err : Ex μ Int) (s : CSt μ) :
    Except WFault (Option (Option Int) × CSt μ) :=
  let (b, s) := cond s
  if b then
    let (e, s) := err s
    do
      let s ← ulogeErrno S c func line (fun s => (e, s)) s
      .ok (some (if e = -2147483648 then none else some (-e)), s)
  else .ok (none, s)

/-- `ULOG_ERRNO_RETURN_VAL_IF`, libulog/include/ulog.h:239-246. -/
def returnValIf (S : Site μ) (c : Cid) (func : Bytes) (line : Nat) (cond : Ex μ Bool) (err : Ex μ Int) (val : Ex μ α) (s : CSt μ) :
    Except WFault (Option α × CSt μ) :=
  let (b, s) := cond s
  if b then do
    let s ← ulogeErrno S c func line err s
    let (v, s) := val s
    .ok (some v, s)
  else .ok (none, s)

/-- `ULOG_EVT` and, `secret`, `ULOG_EVTS` (libulog/include/ulog.h:261-262, 282-283). -/
def ulogEvt (S : Site μ) (c : Cid) (secret : Bool) (type : Bytes) (args : Ex μ (Option Bytes)) (s : CSt μ) : Except WFault (CSt μ) :=
  ulogLog S (fun s => (5, s)) c
    (fun s => let (a, s) := args s; (a.map fun a => ascii (if secret then "EVTS:" else "EVT:") ++ type ++ ascii ";" ++ a, s)) s

/-- `ULOG_BIN` (libulog/include/ulog.h:414-415) as a call of `ulog_log_buf`. -/
def ulogBin (prio : UInt32) (c : Cid) (data : Bytes) : WOp := .buf (prio ||| 128) c data

end Verif.Libulog
