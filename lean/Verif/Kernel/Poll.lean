import Verif.Kernel.Wait

/-!
# Waiting for several devices (kernel/ulogger-6.x.c:751-784)

`poll` as `ulogcat` uses it: a thread waits for data on any number of open files
of any number of devices. `ulogger_poll` is called for one file after the other;
it puts the thread on the wait queue of the log (`poll_wait`, 772, no lock held)
and then looks at the log with the mutex held (774-781). Writers come between any
two of these steps; they commit with the mutex held and wake the readers after it
is released (679-681).

Of the kernel around the driver (fs/select.c): `poll_wait` adds an entry to the
queue only in the first round and as long as nothing was found; the entries stay
until the call returns. `wake_up_interruptible` sets the flag `triggered` of each
thread with an entry (`pollwake`). A thread that found nothing sleeps until its
flag is set (at once if it is set already), clears it and looks at all files
again. A signal or the time-out ends the call; that the kernel looks once more
after a time-out is left out. Only `POLLIN` is asked for.

Calls other than write and poll are one step (C14 is about blocking reads). The
log mutex is not held across steps here, so it does not appear. Files that are
polled are not released before the call returns (they are referenced).
-/
namespace Verif.Kernel
open Verif

/-- Files (device, open file) that are polled and the effective uid. -/
structure PArgs where
  euid : UInt32
  fds : List (Nat × Nat)

inductive PPc
  | idle
  /-- about to call `ulogger_poll` for the next file in `todo` (766-772); `first` round,
  something `found` before -/
  | wait (a : PArgs) (todo : List (Nat × Nat)) (first found : Bool)
  /-- 774-781 -/
  | test (a : PArgs) (p : Nat × Nat) (todo : List (Nat × Nat)) (first found : Bool)
  | sleep (a : PArgs)
  /-- the call returns: is a file ready? -/
  | ret (found : Bool)
  /-- 554-678 -/
  | commit (d fid : Nat) (task : Task) (it : Iter) (junk : Nat → UInt8)
  /-- 681 -/
  | wake (d : Nat)

/-- Devices, and for each thread the queues it has entries on and its flag. -/
structure PSys where
  dev : Nat → Sys
  reg : Tid → List Nat
  trig : Tid → Bool
  pc : Tid → PPc

inductive PChoice
  | go
  /-- a signal, or the time is over -/
  | signal
  | poll (a : PArgs)
  | write (d fid : Nat) (task : Task) (it : Iter) (junk : Nat → UInt8)
  | other (d : Nat) (op : Op)

def PSys.at (w : PSys) (t : Tid) (p : PPc) : PSys := { w with pc := fun u => if u = t then p else w.pc u }

def PSys.setDev (w : PSys) (d : Nat) (s : Sys) : PSys := { w with dev := fun e => if e = d then s else w.dev e }

def PSys.setReg (w : PSys) (t : Tid) (l : List Nat) : PSys := { w with reg := fun u => if u = t then l else w.reg u }

def PSys.setTrig (w : PSys) (t : Tid) (b : Bool) : PSys := { w with trig := fun u => if u = t then b else w.trig u }

/-- `f_mode & FMODE_READ` of an open file. -/
def Sys.rdOf (s : Sys) (fid : Nat) : Option Bool := (s.files fid).map (·.rd)

def isWrite : Op → Bool
  | .write .. => true
  | _ => false

/-- What one step of `t` does; `none` if it is not possible now. -/
def pstep (t : Tid) (ch : PChoice) (w : PSys) : Option PSys :=
  match w.pc t, ch with
  | .idle, .poll a =>
    if a.fds.all fun p => ((w.dev p.1).rdOf p.2).isSome then
      some (((w.setReg t []).setTrig t false).at t (.wait a a.fds true false))
    else none
  | .idle, .write d fid task it junk => if it.supported then some (w.at t (.commit d fid task it junk)) else none
  | .idle, .other d op =>
    if isWrite op then none
    else match step (w.dev d) op with
      | .ok (s, _) => some (w.setDev d s)
      | .error _ => none
  | .wait a [] _ found, .go => some (if found then (w.setReg t []).at t (.ret true) else w.at t (.sleep a))
  | .wait a (p :: todo) first found, .go =>
    if (w.dev p.1).readable p.2 then
      some ((if first && !found then w.setReg t (p.1 :: w.reg t) else w).at t (.test a p todo first found))
    else some (w.at t (.wait a todo first found))
  | .test a p todo first found, .go =>
    match step (w.dev p.1) (.poll p.2 a.euid) with
    | .ok (s, .poll b) => some ((w.setDev p.1 s).at t (.wait a todo first (found || b)))
    | _ => none
  | .sleep a, .go => if w.trig t then some ((w.setTrig t false).at t (.wait a a.fds false false)) else none
  | .sleep _, .signal => some ((w.setReg t []).at t (.ret false))
  | .ret _, .go => some (w.at t .idle)
  | .commit d fid task it junk, .go =>
    match step (w.dev d) (.write fid task it junk) with
    | .ok (s, o) =>
      some ((w.setDev d s).at t (if reachesWake ((w.dev d).rawFile fid) task it o then .wake d else .idle))
    | .error _ => none
  | .wake d, .go => some ({ w with trig := fun u => w.trig u || (w.reg u).contains d }.at t .idle)
  | _, _ => none

/-- The files a thread polls. -/
def PPc.polled : PPc → List (Nat × Nat)
  | .wait a .. | .test a .. | .sleep a => a.fds
  | _ => []

/-- A release is not possible while a thread polls the file. -/
def pmay (w : PSys) : PChoice → Prop
  | .other d (.release fid) => ∀ u, (d, fid) ∉ (w.pc u).polled
  | _ => True

/-- Device `d` has the name `name d` and `2 ^ k d` bytes. -/
def PSys.start (name : Nat → Bytes) (k : Nat → Nat) (buf : Nat → Nat → UInt8) : PSys :=
  { dev := fun d => init (name d) (k d) (buf d), reg := fun _ => [], trig := fun _ => false, pc := fun _ => .idle }

/-- Reachable states, any threads, any devices, any interleaving. -/
inductive PReach (name : Nat → Bytes) (k : Nat → Nat) (buf : Nat → Nat → UInt8) : PSys → Prop
  | start : PReach name k buf (.start name k buf)
  | step {w w' : PSys} (t : Tid) (ch : PChoice) : PReach name k buf w → pmay w ch → pstep t ch w = some w' →
    PReach name k buf w'

end Verif.Kernel
