import Verif.Libulog.Write

/-!
# The bridge from libulog to Python loggers (ulogpy/ulog.py)

The write function of the bridge is the foreign function 0. Its body runs when the
library calls it; here its effects are put in the place of the event of that call, which
comes to the same because no function it calls changes the state that the rest of the
call of the library uses. Python loggers are numbered; `handle` of a logger is an event
and calls nothing of ulog here (for a handler that does see `pyEcho` in PyLog.lean). An
exception in the body ends the body (ctypes prints it and returns).
-/
namespace Verif.Tools
open Verif Verif.Libulog

/-- ulog.py:13-22 -/
def pyLevel (prio : Nat) : Option Nat :=
  if prio ≤ 2 then some 50
  else if prio = 3 then some 40
  else if prio ≤ 5 then some 30
  else if prio = 6 then some 20
  else if prio = 7 then some 10
  else none

/-- `message.strip("\r\n")` (ulog.py:45); decoding with `surrogateescape` loses nothing,
the text stays a list of bytes here. -/
def stripNl (t : Bytes) : Bytes :=
  let f := fun b : UInt8 => b == 10 || b == 13
  ((t.dropWhile f).reverse.dropWhile f).reverse

structure Py where
  /-- `ulog_kernel_write_func`: `None`, or a function pointer that may be NULL -/
  kernelFn : Option (Option Wf)
  /-- `_ulog_loggers` -/
  loggers : List Nat
  lib : Lib

inductive PyEv
  | native (e : Ev)
  /-- `handle` of a logger with a record -/
  | handled (logger : Nat) (level : Nat) (func text : Bytes)
  | keyError
  deriving DecidableEq, Repr

/-- Lines 43-61 of `_ulog_bridge`; `en`: `isEnabledFor` of the loggers. -/
def pyRecords (nm : Cid → Bytes) (en : Nat → Nat → Bool) (loggers : List Nat) (prio : UInt32) (c : Cid) (data : Bytes) :
    Except WFault (List PyEv) :=
  if 0 ∈ data then
    match pyLevel prio.toNat with
    | none => .ok [.keyError]
    | some l => .ok ((loggers.filter fun g => en g l).map fun g => .handled g l (nm c) (stripNl (cstr data)))
  else .error .oob

def pyEvents (f : Lib → Ev → Except WFault (Lib × List PyEv)) : Lib → List Ev → Except WFault (Lib × List PyEv)
  | s, [] => .ok (s, [])
  | s, e :: l =>
    match f s e with
    | .error x => .error x
    | .ok (s, a) =>
      match pyEvents f s l with
      | .error x => .error x
      | .ok (s, b) => .ok (s, a ++ b)

/-- What an event of the library comes to: `_ulog_bridge` (ulog.py:37-61) if it is a call
of the bridge. `fuel` bounds the depth of calls of the bridge. -/
def pyEv (nm : Cid → Bytes) (w : World) (en : Nat → Nat → Bool) (p : Py) : Nat → Lib → Ev → Except WFault (Lib × List PyEv)
  | 0, _, _ => .error .recursion
  | fuel + 1, s, .custom 0 prio c data =>
    match p.kernelFn with
    | none =>
      match pyRecords nm en p.loggers prio c data with
      | .error x => .error x
      | .ok r => .ok (s, r)
    | some none => .error .nullCall
    | some (some g) =>
      match callWriter nm w prio c data 4 g s with
      | .error x => .error x
      | .ok (s, es) =>
        match pyEvents (pyEv nm w en p fuel) s es with
        | .error x => .error x
        | .ok (s, a) =>
          match pyRecords nm en p.loggers prio c data with
          | .error x => .error x
          | .ok r => .ok (s, a ++ r)
  | _ + 1, s, e => .ok (s, [.native e])

inductive PyOp
  /-- ulog.py:67-82 -/
  | enable (logger : Nat) (forward : Bool)
  /-- ulog.py:85-88 -/
  | disable (logger : Nat)
  /-- any call of libulog by the process -/
  | lib (op : WOp)

/-- ulog.py:72-77: what `ulog_kernel_write_func` becomes. -/
def pyBackup (nm : Cid → Bytes) (w : World) (p : Py) (forward : Bool) : Except WFault (Py × List Ev) :=
  if forward = false then .ok ({ p with kernelFn := none }, [])
  else if p.kernelFn = none then
    match wstep nm w p.lib .getWriter with
    | .error x => .error x
    | .ok (s, .wf f, e) => .ok ({ p with kernelFn := some f, lib := s }, e)
    | .ok (s, _, e) => .ok ({ p with lib := s }, e)
  else .ok (p, [])

def pyStep (nm : Cid → Bytes) (en : Nat → Nat → Bool) (fuel : Nat) (w : World) (p : Py) : PyOp → Except WFault (Py × WRes × List PyEv)
  | .enable g forward =>
    let p := { p with loggers := if g ∈ p.loggers then p.loggers else p.loggers ++ [g] }
    match pyBackup nm w p forward with
    | .error x => .error x
    | .ok (p, e) =>
      match wstep nm w p.lib (.setWriter (some (.custom 0))) with
      | .error x => .error x
      | .ok (s, _, e') => .ok ({ p with lib := s }, .unit, (e ++ e').map .native)
  | .disable g => .ok ({ p with loggers := p.loggers.erase g }, .unit, [])
  | .lib op =>
    match wstep nm w p.lib op with
    | .error x => .error x
    | .ok (s, r, e) =>
      match pyEvents (pyEv nm w en p fuel) s e with
      | .error x => .error x
      | .ok (s, a) => .ok ({ p with lib := s }, r, a)

def pyRun (nm : Cid → Bytes) (en : Nat → Nat → Bool) (fuel : Nat) : Py → List (World × PyOp) → Except WFault (Py × List (WRes × List PyEv))
  | p, [] => .ok (p, [])
  | p, (w, op) :: l =>
    match pyStep nm en fuel w p op with
    | .error x => .error x
    | .ok (p, r, e) =>
      match pyRun nm en fuel p l with
      | .error x => .error x
      | .ok (p, tr) => .ok (p, (r, e) :: tr)

end Verif.Tools
