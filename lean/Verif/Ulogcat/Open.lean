import Verif.Bytes

/-!
# Opening and closing a context of libulogcat

`ulogcat3_open`, `ulogcat3_close`, `log_device_create`, `log_device_destroy`
(ulogcat/libulogcat_core.c:391-572), `add_ulog_device`, `add_all_ulog_devices`
(ulogcat/libulogcat_ulog.c:127-203), `add_klog_device`
(ulogcat/libulogcat_klog.c:249-309), the first version of the interface
(ulogcat/libulogcat_compat.c).

What happens to descriptors is a list of events; a world answers from all events
so far. A device under construction is the last of the list in the program; here
it is kept apart until it is complete. The linked lists are in `Queue`.
-/
namespace Verif.Ulogcat
open Verif

inductive OEv
  /-- a call of `malloc` or `calloc` -/
  | alloc
  /-- `open` of a path, with its descriptor or nothing -/
  | opened (path : Bytes) (fd : Option Nat)
  | closed (fd : Nat)
  /-- the output given by the caller is closed -/
  | closeOut
  deriving DecidableEq, Repr

structure OWorld where
  /-- memory is refused -/
  noMem : List OEv → Bool
  openAt : List OEv → Bytes → Option Nat
  /-- `ioctl(ULOGGER_GET_LOG_LEN)` -/
  logLen : List OEv → Int
  /-- the first read of /dev/kmsg is possible -/
  kmsgReads : List OEv → Bool
  /-- `klogctl(SYSLOG_ACTION_SIZE_BUFFER)` -/
  klogSize : List OEv → Int
  /-- contents of /sys/devices/virtual/misc/ulog_main/logs -/
  logs : Option Bytes

/-- `struct log_device` (libulogcat_private.h:99-119). -/
structure ODev where
  idx : Int
  path : Bytes
  fd : Nat
  label : UInt8
  mark : Int
  deriving DecidableEq, Repr

/-- `log_devices`, `device_count`, `ulog_device_count`; the events so far. -/
structure OSt where
  evs : List OEv
  devs : List ODev
  count : Int
  ulogs : Int
  deriving DecidableEq, Repr

def OSt.note (s : OSt) (e : OEv) : OSt := { s with evs := s.evs ++ [e] }

def kmsgdName : Bytes := ascii "kmsgd"

/-- `log_device_create` (391-404): the index of the device, if there is memory. -/
def devCreate (w : OWorld) (s : OSt) : Option Int × OSt :=
  let s := s.note .alloc
  if w.noMem s.evs then (none, s) else (some s.count, { s with count := s.count + 1 })

/-- `log_device_destroy` (406-420) for a device under construction. -/
def devDestroy (fd : Option Nat) (s : OSt) : OSt :=
  let s := { s with count := s.count - 1 }
  match fd with
  | some n => s.note (.closed n)
  | none => s

/-- `open` -/
def devOpen (w : OWorld) (path : Bytes) (s : OSt) : Option Nat × OSt :=
  (w.openAt s.evs path, s.note (.opened path (w.openAt s.evs path)))

/-- `add_ulog_device` (libulogcat_ulog.c:127-170); a path has 63 bytes at most. -/
def addUlog (w : OWorld) (name : Bytes) (s : OSt) : Bool × OSt :=
  match devCreate w s with
  | (none, s) => (false, s)
  | (some idx, s) =>
    let path := (ascii "/dev/ulog_" ++ name).take 63
    match devOpen w path s with
    | (none, s) => (false, devDestroy none s)
    | (some fd, s) =>
      let s := { s with ulogs := if name = kmsgdName then s.ulogs + 1 - 1 else s.ulogs + 1 }
      let mark := w.logLen s.evs
      if mark < 0 then (false, devDestroy (some fd) s)
      else
        let path := if name = kmsgdName then ascii "/proc/kmsg" else path
        (true, { s with devs := s.devs ++ [{ idx, path, fd, label := if name = kmsgdName then 75 else 85, mark }] })

/-- `add_klog_device` (libulogcat_klog.c:249-309). -/
def addKlog (w : OWorld) (s : OSt) : Bool × OSt :=
  match devCreate w s with
  | (none, s) => (false, s)
  | (some idx, s) =>
    let path := ascii "/dev/kmsg"
    match devOpen w path s with
    | (none, s) => (false, devDestroy none s)
    | (some fd, s) =>
      if w.kmsgReads s.evs = false then (false, devDestroy (some fd) s)
      else
        let mark := 2 * w.klogSize s.evs
        if mark < 0 then (false, devDestroy (some fd) s)
        else (true, { s with devs := s.devs ++ [{ idx, path, fd, label := 75, mark }] })

/-- `fgets(buf, n + 1, fp)`: the bytes read and the rest of the file. -/
def fgets : Nat → Bytes → Bytes × Bytes
  | 0, f => ([], f)
  | _, [] => ([], [])
  | n + 1, b :: f =>
    if b = 10 then ([10], f) else ((b :: (fgets n f).1), (fgets n f).2)

/-- What the body of the loop finds in a buffer (libulogcat_ulog.c:183-190). -/
def logName (chunk : Bytes) : Option Bytes :=
  let buf := cstr chunk
  let p := (buf.takeWhile (· ≠ 32)).length
  if p < buf.length ∧ 5 < buf.length then some (cstr ((buf.set p 0).drop 5)) else none

/-- The loop of `add_all_ulog_devices` (182-195). -/
def addLines (w : OWorld) : Nat → Bytes → OSt → Bool × OSt
  | 0, _, s => (true, s)
  | n + 1, file, s =>
    if file = [] then (true, s)
    else
      let r := fgets 31 file
      match logName r.1 with
      | none => addLines w n r.2 s
      | some name =>
        if name = kmsgdName then addLines w n r.2 s
        else if (addUlog w name s).1 then addLines w n r.2 (addUlog w name s).2
        else addUlog w name s

/-- `add_all_ulog_devices` (172-203). -/
def addAll (w : OWorld) (s : OSt) : Bool × OSt :=
  match w.logs with
  | some file => addLines w (file.length + 1) file s
  | none => addUlog w (ascii "main") s

/-- The loop over the devices asked for (libulogcat_core.c:459-466). -/
def addNames (w : OWorld) : List Bytes → OSt → Bool × OSt
  | [], s => (true, s)
  | n :: ns, s =>
    if n = kmsgdName then addNames w ns s
    else if (addUlog w n s).1 then addNames w ns (addUlog w n s).2 else addUlog w n s

/-- `ulogcat3_close` (532-572): descriptors of devices, then the output. -/
def ulogClose (s : OSt) : List OEv := s.evs ++ s.devs.map (fun d => .closed d.fd) ++ [.closeOut]

/-- Devices if none was asked for (468-473). -/
def openAll (w : OWorld) (ulog : Bool) (s : OSt) : Bool × OSt :=
  if s.ulogs = 0 ∧ ulog then addAll w s else (true, s)

/-- The kernel device (475-490). -/
def openKlog (w : OWorld) (klog : Bool) (s : OSt) : Bool × OSt :=
  if klog then if (addKlog w s).1 then addKlog w s else addUlog w kmsgdName (addKlog w s).2 else (true, s)

/-- All devices (458-490). -/
def openDevs (w : OWorld) (ulog klog : Bool) (names : List Bytes) (s : OSt) : Bool × OSt :=
  if (addNames w names s).1 then
    if (openAll w ulog (addNames w names s).2).1 then openKlog w klog (openAll w ulog (addNames w names s).2).2
    else openAll w ulog (addNames w names s).2
  else addNames w names s

/-- The last allocations (498-519); the first that fails ends it. -/
def openMem (w : OWorld) : Nat → OSt → Bool × OSt
  | 0, s => (true, s)
  | n + 1, s => if w.noMem (s.note .alloc).evs then (false, s.note .alloc) else openMem w n (s.note .alloc)

/-- `ulogcat3_open` (422-530) with `ULOGCAT_FLAG_ULOG`, `ULOGCAT_FLAG_KLOG` and the
names of devices; `evs` is what happened before. The context, or all events. -/
def ulogOpen (w : OWorld) (ulog klog : Bool) (names : List Bytes) (evs : List OEv) : Except (List OEv) OSt :=
  if w.noMem (evs ++ [.alloc]) then .error (evs ++ [.alloc])
  else
    let s : OSt := { evs := evs ++ [.alloc], devs := [], count := 0, ulogs := 0 }
    let r := openDevs w ulog klog names s
    if r.1 = false then .error (ulogClose r.2)
    else if r.2.count = 0 then .error (ulogClose r.2)
    else
      let r := openMem w 3 r.2
      if r.1 then .ok r.2 else .error (ulogClose r.2)

/-- `struct ulogcat_context` (libulogcat_compat.c:23-29): the context of the third
version, if there is one. -/
structure V1 where
  ctx : Option OSt
  names : List Bytes

/-- `ulogcat_process_logs` (111-126) up to the processing; the events so far. -/
def v1Process (w : OWorld) (v : V1) (evs : List OEv) : Bool × V1 × List OEv :=
  match v.ctx with
  | some s => (true, v, s.evs)
  | none =>
    match ulogOpen w true false v.names evs with
    | .ok s => (true, { v with ctx := some s }, s.evs)
    | .error evs => (false, v, evs)

/-- `ulogcat_destroy` (63-70). -/
def v1Destroy (v : V1) (evs : List OEv) : List OEv :=
  match v.ctx with
  | some s => ulogClose s
  | none => evs

end Verif.Ulogcat
