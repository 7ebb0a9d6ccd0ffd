import Verif.Libulog.Write

/-!
# The library built for Android and for Windows

libulog/ulog_write.c compiled with `ANDROID` or `_WIN32`, and
libulog/ulog_write_android.c. `Write` is the Linux build. The builds differ in
`__ctrl_init` (libulog/ulog_write.c:167-212): on Android, what takes over when no
device can be opened is `ulog_writer_android` (197-198), which unlike
`__writer_null` does not make the copy to stderr compulsory (204); on Windows the
search for a device is left out (170, 201).

`__writer_null` cannot be met in the Android build, so `Wf.null` stands there for
`ulog_writer_android`. `__android_log_write` is an event; `ANDROID_LOG_*` are the
numbers of <android/log.h>: UNKNOWN 0, DEBUG 3, INFO 4, WARN 5, ERROR 6, FATAL 7.
-/
namespace Verif.Libulog
open Verif

inductive Platform
  | linux
  | android
  | windows
  deriving DecidableEq, Repr

/-- Effects of a call: those of `Write`, and `__android_log_write`. -/
inductive PEv
  | ev (e : Ev)
  | alog (prio : Nat) (tag text : Bytes)
  deriving DecidableEq, Repr

/-- `prio_map` (libulog/ulog_write_android.c:34-41); levels 0 and 1 have no initialiser. -/
def droidPrio : Nat → Nat
  | 2 => 7
  | 3 => 6
  | 4 => 5
  | 5 => 4
  | 6 => 4
  | 7 => 3
  | _ => 0

/-- libulog/ulog_write_android.c:30-50. `buf` is read as a C string. -/
def writerAndroid (prio : UInt32) (tag data : Bytes) : Except WFault (List PEv) :=
  if prio.toNat.testBit 7 then .ok []
  else if 0 ∈ data then .ok [.alog (droidPrio (prio.toNat % 8)) tag (cstr data)]
  else .error .oob

/-- libulog/ulog_write.c:167-212. -/
def ctrlInitOn (p : Platform) (w : World) (s : Lib) : Lib × List Ev :=
  let fd := if p = .windows then s.fd else w.openDev (devChoice w s)
  let base := if p ≠ .windows ∧ fd.isSome then Wf.kernel else Wf.null
  let evs := if p = .windows then [] else fd.toList.map Ev.opened
  if (w.getenv (ascii "ULOG_STDERR")).isSome ∨ (base = .null ∧ p ≠ .android) then
    ({ s with fd, writer2 := some base, writer := .wrap (w.getenv (ascii "ULOG_STDERR_COLOR")).isSome }, evs)
  else ({ s with fd, writer := base }, evs)

/-- `callWriter` on each platform. -/
def callWriterOn (p : Platform) (nm : Cid → Bytes) (w : World) (prio : UInt32) (c : Cid) (data : Bytes) :
    Nat → Wf → Lib → Except WFault (Lib × List PEv)
  | 0, _, _ => .error .recursion
  | _ + 1, .null, s =>
    match p with
    | .android => do
      let e ← writerAndroid prio (nm c) data
      .ok (s, e)
    | _ => .ok (s, [])
  | _ + 1, .custom n, s => .ok (s, [.ev (.custom n prio c data)])
  | _ + 1, .kernel, s => .ok (s, [.ev (.writev s.fd (writerKernel prio (nm c) data))])
  | fuel + 1, .init, s => do
    let (s, e1) := if s.writer = .init then ctrlInitOn p w s else (s, [])
    let (s, e2) ← callWriterOn p nm w prio c data fuel s.writer s
    .ok (s, e1.map .ev ++ e2)
  | fuel + 1, .wrap color, s =>
    match s.writer2 with
    | none => .error .nullCall
    | some g => do
      let (s, e1) ← callWriterOn p nm w prio c data fuel g s
      if prio.toNat.testBit 7 then .ok (s, e1)
      else do
        let l ← stderrLine s.replay color prio (nm c) data
        .ok (s, e1 ++ [.ev (.stderr l)])

/-- `logOn` on each platform. -/
def logOnP (p : Platform) (nm : Cid → Bytes) (w : World) (s : Lib) (prio : UInt32) (c : Cid) (data : Option Bytes) :
    Except WFault (Lib × WRes × List PEv) := do
  let (s, e1) := ensureInit nm w s c
  if ((prio.toNat % 8 : Nat) : Int) ≤ s.level c then
    match data with
    | none => .ok (s, .unit, e1.map .ev)
    | some d => do
      let (s, e2) ← callWriterOn p nm w prio c d 4 s.writer s
      .ok (s, .unit, e1.map .ev ++ e2)
  else .ok (s, .unit, e1.map .ev)

/-- One call. Calls that neither write a message nor ask for the writer do not
reach the code that differs. -/
def stepOn (p : Platform) (nm : Cid → Bytes) (w : World) (s : Lib) (op : WOp) :
    Except WFault (Lib × WRes × List PEv) :=
  match op with
  | .log prio c text => logOnP p nm w s prio c (formatted text)
  | .str prio c text => logOnP p nm w s prio c (some (text ++ [0]))
  | .buf prio c data => logOnP p nm w s prio c (some data)
  | .getWriter =>
    let (s, e) := if s.writer = .init then ctrlInitOn p w s else (s, [])
    if (w.getenv (ascii "ULOG_STDERR")).isSome then
      .ok (s, .wf s.writer2, e.map .ev)
    else .ok (s, .wf (some s.writer), e.map .ev)
  | op => do
    let (s, r, e) ← wstep nm w s op
    .ok (s, r, e.map .ev)

/-- A sequence of calls, each with what the environment is during it. -/
def runOn (p : Platform) (nm : Cid → Bytes) : Lib → List (World × WOp) → Except WFault (Lib × List (WRes × List PEv))
  | s, [] => .ok (s, [])
  | s, (w, op) :: l => do
    let (s, r, e) ← stepOn p nm w s op
    let (s, tr) ← runOn p nm s l
    .ok (s, (r, e) :: tr)

end Verif.Libulog
