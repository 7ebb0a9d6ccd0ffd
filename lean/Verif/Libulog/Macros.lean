import Verif.Libulog.Write

/-!
# The throttling and change macros of libulog/include/ulog.h

One call site, one thread (the state is thread-local). A call turns into at most
one call of the logging functions of `Write`.
-/
namespace Verif.Libulog
open Verif

/-- `__masked` (unsigned int) and `__last` (unsigned long long),
libulog/include/ulog.h:516-517. -/
structure Throttle where
  masked : Nat
  last : Nat

/-- Static storage is zero. -/
def Throttle.start : Throttle := ⟨0, 0⟩

inductive MFault
  /-- `_buf` is passed on although `snprintf` failed -/
  | uninit
  deriving DecidableEq, Repr

/-- `ulog_log_throttle`, libulog/include/ulog.h:514-538. `now` is what
`ulog_get_time_monotonic` returned, `text` the complete formatted text (`none`
if formatting fails). -/
def throttle (ms : Nat) (prio : UInt32) (c : Cid) (t : Throttle) (now : Nat) (text : Option Bytes) :
    Except MFault (Throttle × Option WOp) :=
  if now ≥ (t.last + ms) % 2 ^ 64 then
    if t.masked ≠ 0 then
      match text with
      | none => .error .uninit
      | some x =>
        .ok (⟨0, now⟩, some (.str prio c (cstr ((ascii "[" ++ decNat t.masked ++ ascii "] " ++ x).take 255))))
    else .ok (⟨t.masked, now⟩, some (.log prio c text))
  else .ok (⟨(t.masked + 1) % 2 ^ 32, t.last⟩, none)

/-- Calls at one site, with time and text. -/
def throttleRun (ms : Nat) (prio : UInt32) (c : Cid) :
    Throttle → List (Nat × Option Bytes) → Except MFault (Throttle × List (Option WOp))
  | t, [] => .ok (t, [])
  | t, (now, text) :: l => do
    let (t, o) ← throttle ms prio c t now text
    let (t, os) ← throttleRun ms prio c t l
    .ok (t, o :: os)

/-- `__initialized` and `__last_value`, libulog/include/ulog.h:554-555. Also the
`u_init` and `u_last` variables of the version without thread-local storage
(565-567), where `u_last` starts with the initial value (569-574). -/
structure Change where
  init : Bool
  last : UInt64

/-- `ulog_log_change`, libulog/include/ulog.h:552-563 and 576-585. `value` is the
value converted to `uintptr_t` (64 bits). -/
def change (prio : UInt32) (c : Cid) (s : Change) (value : UInt64) (text : Option Bytes) : Change × Option WOp :=
  if value ≠ s.last ∨ s.init = false then (⟨true, value⟩, some (.log prio c text)) else (s, none)

def changeRun (prio : UInt32) (c : Cid) : Change → List (UInt64 × Option Bytes) → Change × List (Option WOp)
  | s, [] => (s, [])
  | s, (v, text) :: l =>
    let (s, o) := change prio c s v text
    let (s, os) := changeRun prio c s l
    (s, o :: os)

end Verif.Libulog
