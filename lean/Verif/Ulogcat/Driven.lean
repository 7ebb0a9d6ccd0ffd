import Verif.Ulogcat.Receive
import Verif.Ulogcat.Core

/-!
# The reading loop on a log device of the driver

`Drives` says of a world (see `Core`) that its device number `d` is a log device
of the driver (`Kernel.Model`) that the viewer has opened as file `fid`, with
anybody using the device at any time. The other devices may be anything.

`driverWorld` is such a world: one device, whose driver state is part of the
state of the world, and a list of what others do to it before each call.
-/
namespace Verif.Ulogcat
open Verif Verif.Kernel Verif.Libulog

variable {σ : Type}

/-- What `process_devices` sees of a call of `ulog_receive_entry`
(libulogcat_core.c:317-330); `n` numbers the calls, `sh` tells whether the entry
can be rendered. -/
def RecvOut.toRecv (sh : RecvOut → Bool) (n : Nat) (o : RecvOut) : Recv :=
  if o.ret < 0 then .err else if o.ret = 0 then .again else .got o.stamp n (sh o) o.taken.toNat

/-- Calls of others, and questions whether the file is readable. -/
def Asks (fid : Nat) (euid : UInt32) (t : List (Op × Out)) : Prop :=
  ∀ p ∈ t, p.1.fid ≠ fid ∨ ∃ b, p = (.poll fid euid, .poll b)

/-- What the system call `poll` does to a device: if it is asked for, its driver
may be asked several times, and the last answer counts. -/
def Polled (fid : Nat) (euid : UInt32) (asked : Bool) (d : Nat) (r : Poll) (t : List (Op × Out)) : Prop :=
  if asked then
    match r with
    | .ok ready => ∃ t1 t2, Asks fid euid t1 ∧ Others fid t2 ∧ t = t1 ++ (.poll fid euid, .poll (ready d)) :: t2
    | _ => Asks fid euid t
  else Others fid t

/-- The world reads device `d` from the driver. `tr` is what happened to the
device so far, `os` are the outcomes of the calls of `ulog_receive_entry` for it; the
entry of call number `j` gets the number `num j`. -/
structure Drives (W : World σ) (d fid : Nat) (euid : UInt32) (csv : Bool) (sh : RecvOut → Bool) (num : Nat → Nat)
    (tr : σ → List (Op × Out)) (os : σ → List RecvOut) : Prop where
  output : ∀ s e, ∃ t, Others fid t ∧ tr (W.output s e).2 = tr s ++ t ∧ os (W.output s e).2 = os s
  other : ∀ s i, i ≠ d → ∃ t, Others fid t ∧ tr (W.recv s i).2 = tr s ++ t ∧ os (W.recv s i).2 = os s
  poll : ∀ s a, ∃ t, Polled fid euid (a d) d (W.poll s a).1 t ∧ tr (W.poll s a).2 = tr s ++ t ∧
    os (W.poll s a).2 = os s
  /-- a call of `ulog_receive_entry`, or it fails at once -/
  recv : ∀ s,
    (∃ f r1 r2 alloc fresh t1 t2 o, RFrame.fresh f ∧ SysRead fid euid frameSize t1 r1 ∧
      (if retries f r1 && alloc then SysRead fid euid entryMax t2 r2 else t2 = []) ∧
      receive alloc csv fresh f r1 r2 = some o ∧
      tr (W.recv s d).2 = tr s ++ (t1 ++ t2) ∧ os (W.recv s d).2 = os s ++ [o] ∧
      (W.recv s d).1 = o.toRecv sh (num (os s).length)) ∨
    (∃ t, Others fid t ∧ tr (W.recv s d).2 = tr s ++ t ∧ os (W.recv s d).2 = os s ∧ (W.recv s d).1 = .err)

/-! ## A world made of the driver -/

/-- The driver, what happened to the device, the outcomes of the calls of
`ulog_receive_entry`, and what others will do before the next calls. -/
structure DW where
  sys : Sys
  tr : List (Op × Out)
  os : List RecvOut
  env : List (List Op)

/-- One call of the driver; a fault leaves everything as it is. -/
def DW.exec (w : DW) (op : Op) : DW × Option Out :=
  match Kernel.step w.sys op with
  | .ok (s, o) => ({ w with sys := s, tr := w.tr ++ [(op, o)] }, some o)
  | .error _ => (w, none)

/-- Others use the device. -/
def DW.execAll : DW → List Op → DW
  | w, [] => w
  | w, op :: ops => DW.execAll (w.exec op).1 ops

/-- The turn of the others. -/
def DW.others (fid : Nat) (w : DW) : DW :=
  ({ w with env := w.env.tail }).execAll ((w.env.headD []).filter fun op => op.fid ≠ fid)

/-- A non-blocking `read` (kernel/ulogger-6.x.c:346-418) with others between its
two critical sections; `n` bounds the number of times it starts over. -/
def DW.sysRead (fid : Nat) (euid : UInt32) (count : Nat) : Nat → DW → DW × Option RdRes
  | 0, w => (w, none)
  | n + 1, w =>
    let (w, o) := (w.others fid).exec (.check fid)
    match o with
    | some .block => (w, some .again)
    | some .ready =>
      let (w, o) := (w.others fid).exec (.read fid euid count count)
      match o with
      | some (.data bs) => (w, some (.data bs))
      | some (.err .einval) => (w, some .inval)
      | some (.err _) => (w, some .other)
      | some .block => DW.sysRead fid euid count n w
      | _ => (w, none)
    | some (.err _) => (w, some .other)
    | _ => (w, none)

/-- The frame as handed out (contents of no importance). -/
def zeroFrame : RFrame := { big := false, mem := List.replicate frameSize 0 }

/-- `ulog_receive_entry` (libulogcat_ulog.c:29-92); `none`: the driver faulted or
the call is still at it. -/
def DW.receive (fid : Nat) (euid : UInt32) (csv : Bool) (n : Nat) (w : DW) : DW × Option RecvOut :=
  match w.sysRead fid euid frameSize n with
  | (w, none) => (w, none)
  | (w, some r1) =>
    if retries zeroFrame r1 then
      match w.sysRead fid euid entryMax n with
      | (w, none) => (w, none)
      | (w, some r2) => (w, Ulogcat.receive true csv (fun _ => 0) zeroFrame r1 r2)
    else (w, Ulogcat.receive true csv (fun _ => 0) zeroFrame r1 .other)

/-- A viewer with one device; `n` bounds how often one `read` starts over. When
the driver faults or a `read` takes more turns, the call of `ulog_receive_entry`
fails and what it did to the device is forgotten. -/
def driverWorld (fid : Nat) (euid : UInt32) (csv : Bool) (sh : RecvOut → Bool) (n : Nat) : World DW where
  poll w a :=
    if a 0 then
      match (w.others fid).exec (.poll fid euid) with
      | (w', some (.poll b)) => (.ok fun i => i = 0 && b, w')
      | _ => (.err, w)
    else (.ok fun _ => false, w.others fid)
  recv w i :=
    if i = 0 then
      match w.receive fid euid csv n with
      | (w', some o) => (o.toRecv sh w.os.length, { w' with os := w.os ++ [o] })
      | (_, none) => (.err, w)
    else (.err, w)
  output w _ := (true, w.others fid)

end Verif.Ulogcat
