import Verif.Kernel.Registry

/-!
# The driver's locks, and finding a device by its minor number

The driver has one mutex for the array of devices (`logs_mutex`), one per device
(`log->mutex`), and calls `misc_register`, which takes the mutex of the misc devices
(`misc_mtx`, Linux drivers/char/misc.c). `misc_open` holds `misc_mtx` while it calls
`ulogger_open`. A thread inside the driver is the list of its lock operations.

Before Linux 2.6.35 (3.x only), `ulogger_open` looks the device up by its minor number
with `logs_mutex` (kernel/ulogger-3.x.c:678-687, 941-965).

Simplifications: a thread between two lock operations can always go on (user memory
that is not there, memory allocation and sleeping in `read`, where no lock is held, are
not modelled). The locks of the kernel that sysfs takes are not modelled.
-/
namespace Verif.Kernel
open Verif

inductive LockAct
  | lock (l : Nat)
  | unlock (l : Nat)
  deriving DecidableEq, Repr

/-- `logs_mutex`. -/
abbrev logsMutex : Nat := 0
/-- `misc_mtx`. -/
abbrev miscMtx : Nat := 1
/-- The mutex of device `d`. -/
abbrev devMutex (d : Nat) : Nat := 2 + d

/-- What a thread calls. -/
inductive LockCall
  /-- open device `d`, for reading or not -/
  | openDev (d : Nat) (rd : Bool)
  /-- read, write, poll, ioctl or release on device `d`: as many sections as it takes -/
  | use (d : Nat) (n : Nat)
  /-- read the list of devices -/
  | showLogs
  /-- add a device: the first request with a new name comes to `misc_register` -/
  | addLog (register : Bool)
  /-- unload the driver with `n` devices that were added -/
  | unload (n : Nat)

/-- The same section `n` times. -/
def sections (l : Nat) : Nat → List LockAct
  | 0 => []
  | n + 1 => .lock l :: .unlock l :: sections l n

/-- The lock operations of a call. `old` is Linux before 2.6.35; device 0 is
`ulog_main`, which is found without the lock (kernel/ulogger-3.x.c:948-949). -/
def lockOps (old : Bool) : LockCall → List LockAct
  -- kernel/ulogger-6.x.c:691-728 inside misc_open
  | .openDev d rd =>
    [.lock miscMtx] ++ (if old && d ≠ 0 then [.lock logsMutex, .unlock logsMutex] else []) ++
      (if rd then [.lock (devMutex d), .unlock (devMutex d)] else []) ++ [.unlock miscMtx]
  -- 356-361, 382-415, 608-678, 741-743, 774-781, 820-902
  | .use d n => sections (devMutex d) n
  -- 984-994
  | .showLogs => [.lock logsMutex, .unlock logsMutex]
  -- 1063-1076, 961
  | .addLog register =>
    [.lock logsMutex] ++ (if register then [.lock miscMtx, .unlock miscMtx] else []) ++ [.unlock logsMutex]
  -- 1137-1152, 1127
  | .unload n => [.lock miscMtx, .unlock miscMtx, .lock logsMutex] ++ sections miscMtx n ++ [.unlock logsMutex]

/-- Each thread with the locks it holds and what it still does. -/
structure LSys where
  threads : List (List Nat × List LockAct)

/-- One thread goes on; `none` if it has finished or has to wait. -/
def LSys.step (s : LSys) (i : Nat) : Option LSys :=
  match s.threads[i]? with
  | some (held, .lock l :: rest) =>
    if s.threads.any (fun t => t.1.contains l) then none
    else some { threads := s.threads.set i (l :: held, rest) }
  | some (held, .unlock l :: rest) => some { threads := s.threads.set i (held.erase l, rest) }
  | _ => none

/-- Each thread runs a list of calls. -/
def LSys.start (old : Bool) (calls : List (List LockCall)) : LSys :=
  { threads := calls.map fun c => ([], c.flatMap (lockOps old)) }

inductive LReach (s0 : LSys) : LSys → Prop
  | init : LReach s0 s0
  | step {s s' : LSys} {i : Nat} (h : LReach s0 s) (hs : s.step i = some s') : LReach s0 s'

/-- `get_log_from_minor` (kernel/ulogger-3.x.c:942-965). -/
def getLogFromMinor (minorOf : RLog → Int) (r : Reg) (m : Int) : Option RLog :=
  match r.slots.head? with
  | some (some main) =>
    if minorOf main = m then some main
    else ((r.slots.takeWhile Option.isSome).filterMap id).find? fun l => minorOf l = m
  | _ => none

end Verif.Kernel
