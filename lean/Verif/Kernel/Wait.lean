import Verif.Kernel.Spec

/-!
# Sleeping and waking (kernel/ulogger-6.x.c:346-419, 554-684)

Threads of the kernel around the driver steps of `Model`. The log mutex is taken
for one step at a time except in the first section of `ulogger_read`, where the
wait queue is touched as well: `wake_up_interruptible` does not take the log
mutex and can come between any two of its steps.

A thread is on the wait queue or not (`on`) and runnable or not (`run`).
`prepare_to_wait` puts it on the queue and marks it not runnable, `schedule`
returns only to a runnable thread, `wake_up_interruptible` makes every thread on
the queue that is not runnable runnable and takes it off the queue
(`autoremove_wake_function`), `finish_wait` takes it off and marks it runnable. A
signal makes a sleeping thread runnable. The queue operations are atomic (they
hold the spin lock of the queue).

A file cannot be released while a thread is inside a read on it (the file is
referenced for the time of the call).
-/
namespace Verif.Kernel
open Verif

abbrev Tid := Nat

/-- Arguments of `ulogger_read`; `nb` is `O_NONBLOCK`. -/
structure RdArgs where
  fid : Nat
  euid : UInt32
  count : Nat
  uw : Nat
  nb : Bool

inductive KPc
  | idle
  /-- 356 -/
  | lock (a : RdArgs)
  /-- 358, mutex held -/
  | prep (a : RdArgs)
  /-- 360-361, mutex held -/
  | test (a : RdArgs)
  /-- 365-373 -/
  | decide (a : RdArgs)
  /-- 375 -/
  | sleep (a : RdArgs)
  /-- 378 -/
  | finish (a : RdArgs)
  /-- 382-417 -/
  | second (a : RdArgs)
  /-- 554-678 -/
  | commit (fid : Nat) (task : Task) (it : Iter) (junk : Nat → UInt8)
  /-- 681 -/
  | wake

/-- The file a thread reads from. -/
def KPc.reading : KPc → Option Nat
  | .lock a | .prep a | .test a | .decide a | .sleep a | .finish a | .second a => some a.fid
  | _ => none

structure WSys where
  sys : Sys
  mutex : Option Tid
  on : Tid → Bool
  run : Tid → Bool
  pc : Tid → KPc

inductive KChoice
  | go
  | signal
  | read (a : RdArgs)
  | write (fid : Nat) (task : Task) (it : Iter) (junk : Nat → UInt8)
  /-- any other call -/
  | other (op : Op)

def WSys.at (w : WSys) (t : Tid) (p : KPc) : WSys := { w with pc := fun u => if u = t then p else w.pc u }

/-- `finish_wait`. -/
def WSys.finish (w : WSys) (t : Tid) : WSys :=
  { w with on := fun u => if u = t then false else w.on u, run := fun u => if u = t then true else w.run u }

/-- The write method reaches line 681: it did not return at 571, 603 or with an
error from the copy. -/
def reachesWake (raw : Bool) (task : Task) (it : Iter) (o : Out) : Bool :=
  match o with
  | .ret _ => decide (entryLen raw task it.count ≠ 0)
  | _ => false

/-- The file is open for reading. -/
def Sys.readable (s : Sys) (fid : Nat) : Bool :=
  match s.files fid with
  | some f => f.rd
  | none => false

/-- The raw flag of an open file. -/
def Sys.rawFile (s : Sys) (fid : Nat) : Bool :=
  match s.files fid with
  | some f => f.raw
  | none => false

/-- Calls that are one lock section and touch no wait queue. -/
def plainCall : Op → Bool
  | .read .. | .check .. | .write .. => false
  | _ => true

/-- What one step of `t` does; `none` if it is not possible now. -/
def kstep (t : Tid) (ch : KChoice) (w : WSys) : Option WSys :=
  match w.pc t, ch with
  | .idle, .read a => if w.sys.readable a.fid then some (w.at t (.lock a)) else none
  | .idle, .write fid task it junk => if it.supported then some (w.at t (.commit fid task it junk)) else none
  | .idle, .other op =>
    if plainCall op = true ∧ w.mutex = none then
      match step w.sys op with
      | .ok (s, _) => some { w with sys := s }
      | .error _ => none
    else none
  | .lock a, .go => if w.mutex = none then some ({ w with mutex := some t }.at t (.prep a)) else none
  | .prep a, .go =>
    some ({ w with on := fun u => if u = t then true else w.on u, run := fun u => if u = t then false else w.run u }.at t
      (.test a))
  | .test a, .go =>
    match findReader w.sys.log a.fid with
    | .ok r => some ({ w with mutex := none }.at t (if w.sys.log.wOff = r.off then .decide a else .finish a))
    | .error _ => none
  | .decide a, .go => some (if a.nb then (w.finish t).at t .idle else w.at t (.sleep a))
  | .decide _, .signal => some ((w.finish t).at t .idle)
  | .sleep a, .go => if w.run t then some (w.at t (.lock a)) else none
  | .sleep _, .signal => some { w with run := fun u => if u = t then true else w.run u }
  | .finish a, .go => some ((w.finish t).at t (.second a))
  | .second a, .go =>
    if w.mutex = none then
      match step w.sys (.read a.fid a.euid a.count a.uw) with
      | .ok (s, .block) => some ({ w with sys := s }.at t (.lock a))
      | .ok (s, _) => some ({ w with sys := s }.at t .idle)
      | .error _ => none
    else none
  | .commit fid task it junk, .go =>
    if w.mutex = none then
      match step w.sys (.write fid task it junk) with
      | .ok (s, o) =>
        some ({ w with sys := s }.at t (if reachesWake (w.sys.rawFile fid) task it o then .wake else .idle))
      | .error _ => none
    else none
  | .wake, .go =>
    some ({ w with run := fun u => w.run u || w.on u, on := fun u => w.on u && w.run u }.at t .idle)
  | _, _ => none

/-- A release is not possible while a thread reads from the file. -/
def mayCall (w : WSys) : KChoice → Prop
  | .other (.release fid) => ∀ u, (w.pc u).reading ≠ some fid
  | _ => True

def WSys.start (name : Bytes) (k : Nat) (buf : Nat → UInt8) : WSys :=
  { sys := init name k buf, mutex := none, on := fun _ => false, run := fun _ => true, pc := fun _ => .idle }

/-- Reachable states, any threads, any interleaving. -/
inductive KReach (name : Bytes) (k : Nat) (buf : Nat → UInt8) : WSys → Prop
  | start : KReach name k buf (.start name k buf)
  | step {w w' : WSys} (t : Tid) (ch : KChoice) : KReach name k buf w → mayCall w ch → kstep t ch w = some w' →
    KReach name k buf w'

end Verif.Kernel
