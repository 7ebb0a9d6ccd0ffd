import Verif.Tools.Py

/-!
# Python records sent to libulog, and the loggers that thin out messages (ulogpy/ulog.py)

Text is bytes. Times are numbers of any one unit; rounding of Python floats is not
modelled. The handler's formatter returns the message itself.
-/
namespace Verif.Tools
open Verif Verif.Libulog

/-- ulog.py:25-31; any other level is a `KeyError`. -/
def pyPrio (level : Nat) : Option UInt32 :=
  if level = 50 then some 0
  else if level = 40 then some 3
  else if level = 30 then some 4
  else if level = 20 then some 6
  else if level = 10 then some 7
  else none

/-- `bytes.splitlines`: `cur` is the line read so far, reversed; `none` if the text so far
ended with the end of a line. -/
def splitLines : Option Bytes → Bytes → List Bytes
  | none, [] => []
  | some cur, [] => [cur.reverse]
  | cur, 13 :: 10 :: t => (cur.getD []).reverse :: splitLines none t
  | cur, b :: t =>
    if b = 10 ∨ b = 13 then (cur.getD []).reverse :: splitLines none t
    else splitLines (some (b :: cur.getD [])) t

/-- The calls of `ulog_log_str` by `ULogHandler.emit` (ulog.py:307-330): priority and
text. `none` is a `KeyError`. -/
def pyEmit (level : Nat) (msg : Bytes) : Option (List (UInt32 × Bytes)) :=
  match pyPrio level with
  | none => none
  | some p =>
    let p := if (ascii "EVT:").isPrefixOf msg then 5 else p
    some ((splitLines none msg).map fun l => (p, cstr l))

/-- The temporary tag has the level of the master tag (ulog.py:311-320), so the library
passes on what is within that level. -/
def pyPassed (master : Int) (l : List (UInt32 × Bytes)) : List (UInt32 × Bytes) :=
  l.filter fun x => decide (((x.1.toNat % 8 : Nat) : Int) ≤ master)

/-- A message handed to the bridge when the logger that is enabled has a handler that
sends its records to libulog again (`setup_logging` gives one to the root logger): number
of calls of the bridge within `fuel`, `none` if that is not enough. -/
def pyEcho (master : Int) (en : Nat → Bool) : Nat → UInt32 × Bytes → Option Nat
  | 0, _ => none
  | fuel + 1, (q, t) =>
    match pyLevel q.toNat with
    | none => some 1
    | some l =>
      if en l = false then some 1
      else
        match pyEmit l (stripNl t) with
        | none => some 1
        | some ls => (pyPassed master ls).foldl (fun acc x => acc.bind fun n => (pyEcho master en fuel x).map (n + ·)) (some 1)

/-- What `_saved_msg` holds for a key (ulog.py:389-426). -/
inductive Saved
  | throttle (last masked : Nat)
  | value (v : Nat)
  deriving DecidableEq, Repr

inductive PlusOp
  /-- `*_throttle` at time `now` with the formatted text (ulog.py:393-416) -/
  | throttle (level delay now : Nat) (text : Bytes)
  /-- `*_change` with the text before formatting (ulog.py:418-427) -/
  | change (level value : Nat) (msg : Bytes)
  deriving DecidableEq, Repr

inductive PlusOut
  | silent
  /-- a record, with the number of masked ones if the text shows it -/
  | logged (level : Nat) (shown : Nat) (text : Bytes)
  /-- the value saved under the key is no pair -/
  | typeError
  deriving DecidableEq, Repr

def throttleKey (t : Bytes) : Bytes := t ++ ascii "_throttled"

def setKey (s : Bytes → Option Saved) (k : Bytes) (v : Saved) : Bytes → Option Saved := fun k' => if k' = k then some v else s k'

/-- ulog.py:393-427 -/
def plusStep (s : Bytes → Option Saved) : PlusOp → (Bytes → Option Saved) × PlusOut
  | .throttle level delay now text =>
    match s (throttleKey text) with
    | none => (setKey s (throttleKey text) (.throttle now 0), .logged level 0 text)
    | some (.value _) => (s, .typeError)
    | some (.throttle last masked) =>
      if now > last + delay then (setKey s (throttleKey text) (.throttle now 0), .logged level masked text)
      else (setKey s (throttleKey text) (.throttle last (masked + 1)), .silent)
  | .change level value msg =>
    if s msg = some (.value value) then (s, .silent)
    else (setKey s msg (.value value), .logged level 0 msg)

def plusRun : (Bytes → Option Saved) → List PlusOp → (Bytes → Option Saved) × List (PlusOp × PlusOut)
  | s, [] => (s, [])
  | s, op :: l => ((plusRun (plusStep s op).1 l).1, (op, (plusStep s op).2) :: (plusRun (plusStep s op).1 l).2)

end Verif.Tools
