import Verif.Kernel.Wait

/-!
# Writers side by side (kernel/ulogger-6.x.c:554-684)

`ulogger_write_iter` reads the raw-mode flag of the file (566) and the clock (575)
before it takes the log mutex (608). Between the two other threads can write, and
the time can go on. Here a write is two steps, every other call one step; the
clock (`ktime_get_ts64`, in nanoseconds) never goes back. A file is not released
while a write to it is under way (it is referenced), but its raw mode can be set.
A write to a file that is not open for writing is refused by the VFS and is not a
call here.
-/
namespace Verif.Kernel
open Verif

/-- A write that has returned: by whom, when (counted in steps of the system) and at which
time of the clock it was stamped, when it had the mutex. -/
structure Call where
  tid : Tid
  fid : Nat
  begun : Nat
  stamp : Nat
  ended : Nat
  task : Task
  it : Iter
  raw : Bool
  out : Out

inductive SPc
  | idle
  /-- 608, stamped at step `begun` and time `stamp` -/
  | ready (fid : Nat) (raw : Bool) (t : Task) (it : Iter) (junk : Nat → UInt8) (begun stamp : Nat)

/-- `tr` has all calls with their results and `calls` the writes, in the order in which they
had the mutex. -/
structure SSys where
  sys : Sys
  now : Nat
  n : Nat
  pc : Tid → SPc
  tr : List (Op × Out)
  calls : List Call

inductive SChoice
  /-- time goes on -/
  | tick (d : Nat)
  | write (fid : Nat) (t : Task) (it : Iter) (junk : Nat → UInt8)
  | go
  | other (op : Op)

/-- 575, 590-591: the time stamp. -/
def stamped (t : Task) (now : Nat) : Task :=
  { t with sec := UInt32.ofNat (now / 1000000000), nsec := UInt32.ofNat (now % 1000000000) }

def Sys.writable (s : Sys) (fid : Nat) : Bool :=
  match s.files fid with
  | some f => f.wr
  | none => false

def isWriteOp : Op → Bool
  | .write .. => true
  | _ => false

/-- What one step of `t` does; `none` if it is not possible now. -/
def sstep (t : Tid) (ch : SChoice) (w : SSys) : Option SSys :=
  match w.pc t, ch with
  | _, .tick d => some { w with now := w.now + d, n := w.n + 1 }
  | .idle, .write fid task it junk =>
    if it.supported && w.sys.writable fid then
      some { w with n := w.n + 1
                    pc := fun u => if u = t then .ready fid (w.sys.rawFile fid) (stamped task w.now) it junk w.n w.now
                      else w.pc u }
    else none
  | .ready fid raw task it junk begun stamp, .go =>
    match writeEntry w.sys.log raw task it junk with
    | .ok (l, o) =>
      some { w with sys := { w.sys with log := l }
                    n := w.n + 1
                    pc := fun u => if u = t then .idle else w.pc u
                    tr := w.tr ++ [(.write fid task it junk, o)]
                    calls := w.calls ++ [{ tid := t, fid, begun, stamp, ended := w.n, task, it, raw, out := o }] }
    | .error _ => none
  | .idle, .other op =>
    if isWriteOp op then none
    else match step w.sys op with
      | .ok (s, o) => some { w with sys := s, n := w.n + 1, tr := w.tr ++ [(op, o)] }
      | .error _ => none
  | _, _ => none

/-- The file a thread writes to. -/
def SPc.writing : SPc → Option Nat
  | .ready fid .. => some fid
  | .idle => none

/-- A file that is written to is not released. -/
def smay (w : SSys) : SChoice → Prop
  | .other (.release fid) => ∀ u, (w.pc u).writing ≠ some fid
  | _ => True

/-- Nor, as an assumption on the program, is its raw mode set. -/
def squiet (w : SSys) : SChoice → Prop
  | .other (.setRaw fid _ _) => ∀ u, (w.pc u).writing ≠ some fid
  | _ => True

def SSys.start (name : Bytes) (k : Nat) (buf : Nat → UInt8) : SSys :=
  { sys := init name k buf, now := 0, n := 0, pc := fun _ => .idle, tr := [], calls := [] }

/-- Reachable states, any threads, any interleaving; with `q` no program sets the raw mode of
a file it writes to at the same time. -/
inductive SReach (q : Bool) (name : Bytes) (k : Nat) (buf : Nat → UInt8) : SSys → Prop
  | start : SReach q name k buf (.start name k buf)
  | step {w w' : SSys} (t : Tid) (ch : SChoice) : SReach q name k buf w → smay w ch → (q = true → squiet w ch) →
    sstep t ch w = some w' → SReach q name k buf w'

end Verif.Kernel
