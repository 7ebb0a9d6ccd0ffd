import Verif.Libulog.Write

/-!
# The replacement of syslog (ulogwrapper/ulog_syslog.c)

One call at a time. The tag of the wrapper is a tag of libulog like any other; all
other calls of the process to libulog may come in between. `strdup` finds memory.
-/
namespace Verif.Tools
open Verif Verif.Libulog

/-- The static `cookie` (ulog_syslog.c:29-34). -/
abbrev sysTag : Cid := 1

/-- ulog_syslog.c:26-34 and the state of libulog. -/
structure Sys where
  done : Bool
  long : Bool
  name : Bytes
  lib : Lib

def Sys.start : Sys := { done := false, long := false, name := [], lib := Lib.start }

/-- The names of all tags. -/
def Sys.nm (nm : Cid → Bytes) (s : Sys) : Cid → Bytes := fun c => if c = sysTag then s.name else nm c

inductive SFault
  | lib (f : WFault)
  /-- a `va_list` is used again after `vsnprintf` -/
  | vaReuse
  deriving DecidableEq, Repr

inductive SOp
  /-- `ndelay`: `option & 0x08` -/
  | openlog (ident : Option Bytes) (ndelay : Bool)
  /-- `syslog`, `vsyslog`, `__syslog_chk`, `__vsyslog_chk`: the priority and the complete
  formatted text, `none` if formatting fails -/
  | syslog (prio : UInt32) (text : Option Bytes)
  | setlogmask (mask : UInt32)
  | closelog
  /-- a call of libulog by another part of the process -/
  | other (op : WOp)

/-- The part of `openlog` that is done once (ulog_syslog.c:58-70). -/
def Sys.init (w : World) (s : Sys) (ident : Option Bytes) : Sys :=
  if s.done then s
  else { s with done := true, name := ident.getD s.name, long := s.long || (w.getenv (ascii "ULOGWRAPPER_LONG_LOGS")).isSome }

/-- A call of libulog. -/
def Sys.call (nm : Cid → Bytes) (w : World) (s : Sys) (op : WOp) : Except SFault (Sys × WRes × List Ev) :=
  match wstep (s.nm nm) w s.lib op with
  | .ok (l, r, e) => .ok ({ s with lib := l }, r, e)
  | .error f => .error (.lib f)

/-- The loop of ulog_syslog.c:170-173: the place of the highest bit, -1 if there is none. -/
def topBit (n : Nat) : Int := if n = 0 then -1 else topBit (n / 2) + 1
decreasing_by omega

/-- ulog_syslog.c:178-181 -/
def sanitize (level : Int) : Int := if level < 2 then 2 else if level > 7 then 7 else level

/-- ulog_syslog.c:54-184 -/
def sysStep (nm : Cid → Bytes) (w : World) (s : Sys) : SOp → Except SFault (Sys × WRes × List Ev)
  | .openlog ident ndelay =>
    let s := s.init w ident
    if ndelay then s.call nm w (.log 6 sysTag (some (ascii "redirecting syslog to ulog"))) else .ok (s, .unit, [])
  | .syslog prio text =>
    let s := s.init w none
    match text with
    | none => .ok (s, .unit, [])
    | some t =>
      if t.length < 256 then s.call nm w (.buf (prio &&& 7) sysTag (t ++ [0]))
      else if s.long = false then s.call nm w (.buf (prio &&& 7) sysTag (t.take 255 ++ [0]))
      else .error .vaReuse
  | .setlogmask mask =>
    let s := s.init w none
    let old := 2 ^ (s.lib.level sysTag + 1).toNat - 1
    match s.call nm w (.setLevel sysTag (sanitize (topBit mask.toNat))) with
    | .ok (s, _, e) => .ok (s, .int old, e)
    | .error f => .error f
  | .closelog => .ok (s, .unit, [])
  | .other op => s.call nm w op

def sysRun (nm : Cid → Bytes) : Sys → List (World × SOp) → Except SFault (Sys × List (WRes × List Ev))
  | s, [] => .ok (s, [])
  | s, (w, op) :: l =>
    match sysStep nm w s op with
    | .error f => .error f
    | .ok (s, r, e) =>
      match sysRun nm s l with
      | .error f => .error f
      | .ok (s, tr) => .ok (s, (r, e) :: tr)

end Verif.Tools
