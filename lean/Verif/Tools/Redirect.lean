import Verif.Libulog.Write

/-!
# Messages of GLib and libobus (libulog-redirect/ulog_glib.c, ulog_obus.c)

One call at a time. The tags of the two files are tags of libulog like any other; all
other calls of the process to libulog may come in between. The tag made on the stack
for a message of GLib has a number of its own, and a name and a level only during the
call: outside of it the object does not exist, so that a number found in the list of
tags would be a dangling pointer.

GLib and libobus are not part of the project. Assumed of GLib: the values of
`GLogLevelFlags`, a message that is a string, and that the handler is called for each
message logged after it was set. Assumed of libobus: the callback gets the level of
the message, here the distance from `OBUS_LOG_CRITICAL`.
-/
namespace Verif.Tools
open Verif Verif.Libulog

/-- The `cookie` on the stack of `glog_func` (ulog_glib.c:34). -/
abbrev tmpTag : Cid := 2

/-- `ULOG_DECLARE_TAG(ulog_glib)` (ulog_glib.c:26). -/
abbrev glibTag : Cid := 3

/-- `ULOG_DECLARE_TAG(obus)` (ulog_obus.c:27). -/
abbrev obusTag : Cid := 4

/-- The two redirections in force and the state of libulog. -/
structure Red where
  glib : Bool
  obus : Bool
  lib : Lib

def Red.start : Red := { glib := false, obus := false, lib := Lib.start }

/-- ulog_glib.c:42-53, `none` for -1. -/
def glibLevel (flags : Nat) : Option Nat :=
  if flags.testBit 2 then some 2
  else if flags.testBit 3 then some 3
  else if flags.testBit 4 then some 4
  else if flags.testBit 5 then some 6
  else if flags.testBit 6 then some 6
  else if flags.testBit 7 then some 7
  else none

/-- The names during `glog_func`. -/
def tmpNames (nm : Cid → Bytes) (domain : Bytes) : Cid → Bytes := fun c => if c = tmpTag then domain else nm c

/-- The field `level` of the tag on the stack. -/
def setTmp (s : Lib) (l : Int) : Lib := { s with level := fun c => if c = tmpTag then l else s.level c }

/-- ulog_glib.c:30-68: `domain` is NULL or a string. -/
def glogFunc (nm : Cid → Bytes) (w : World) (s : Lib) (domain : Option Bytes) (flags : Nat) (text : Bytes) :
    Except WFault (Lib × List Ev) :=
  match glibLevel flags with
  | none => .ok (s, [])
  | some l =>
    if s.level glibTag ≥ 0 then
      match wstep (tmpNames nm (domain.getD (ascii "APP"))) w (setTmp s (s.level glibTag))
          (.str (UInt32.ofNat l) tmpTag text) with
      | .ok (s', _, e) => .ok (setTmp s' (-1), e)
      | .error f => .error f
    else .ok (s, [])

/-- The priority of a message of libobus whose level is `d` above
`OBUS_LOG_CRITICAL` (ulog_obus.c:32): the conversion of an `int` to `uint32_t`. -/
def obusPrio (d : Int) : UInt32 := UInt32.ofNat ((d + 2) % 2 ^ 32).toNat

inductive ROp
  /-- `ulog_glib_redirect`, ulog_glib.c:72-78 -/
  | glibRedirect
  /-- `ulog_glib_set_level`, ulog_glib.c:80-83 -/
  | glibLevel (l : Int)
  /-- a message logged with GLib -/
  | glib (domain : Option Bytes) (flags : Nat) (text : Bytes)
  /-- `ulog_obus_redirect`, ulog_obus.c:35-39 -/
  | obusRedirect
  /-- `ulog_obus_set_level`, ulog_obus.c:41-44 -/
  | obusLevel (l : Int)
  /-- a message logged by libobus: its level and its formatted text, `none` if the
  formatting fails -/
  | obus (d : Int) (text : Option Bytes)
  /-- a call of libulog by another part of the process -/
  | other (op : WOp)

/-- A call of libulog. -/
def Red.call (nm : Cid → Bytes) (w : World) (s : Red) (op : WOp) : Except WFault (Red × WRes × List Ev) :=
  match wstep nm w s.lib op with
  | .ok (l, r, e) => .ok ({ s with lib := l }, r, e)
  | .error f => .error f

def redStep (nm : Cid → Bytes) (w : World) (s : Red) : ROp → Except WFault (Red × WRes × List Ev)
  | .glibRedirect =>
    match s.call nm w (.init glibTag) with
    | .ok (s, r, e) => .ok ({ s with glib := true }, r, e)
    | .error f => .error f
  | .glibLevel l => s.call nm w (.setLevel glibTag l)
  | .glib domain flags text =>
    if s.glib then
      match glogFunc nm w s.lib domain flags text with
      | .ok (l, e) => .ok ({ s with lib := l }, .unit, e)
      | .error f => .error f
    else .ok (s, .unit, [])
  | .obusRedirect => .ok ({ s with obus := true }, .unit, [])
  | .obusLevel l => s.call nm w (.setLevel obusTag l)
  | .obus d text => if s.obus then s.call nm w (.log (obusPrio d) obusTag text) else .ok (s, .unit, [])
  | .other op => s.call nm w op

def redRun (nm : Cid → Bytes) : Red → List (World × ROp) → Except WFault (Red × List (WRes × List Ev))
  | s, [] => .ok (s, [])
  | s, (w, op) :: l =>
    match redStep nm w s op with
    | .error f => .error f
    | .ok (s, r, e) =>
      match redRun nm s l with
      | .error f => .error f
      | .ok (s, tr) => .ok (s, (r, e) :: tr)

end Verif.Tools
