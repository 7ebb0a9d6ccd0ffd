import Verif.Kernel.PropsRegistry
import Verif.Kernel.Reach

/-!
# The whole driver: all devices and all files (kernel/ulogger-6.x.c)

`Model` is one device with its files, `Registry` the table of devices without what they
hold. Here the table holds the devices themselves, and an open file points to one of
them, as `file->private_data` does. Files are numbered over all devices.
-/
namespace Verif.Kernel
open Verif

/-- `ulogger_logs` (949) and the open files: each has the slot of its log and its mode. -/
structure Drv where
  slots : List (Option Log)
  files : Nat → Option (Nat × File)

/-- What the attribute `logs` shows of a device. -/
def regLog (l : Log) : RLog := { name := l.name, size := l.size, buf := true }

def Drv.reg (d : Drv) : Reg := { slots := d.slots.map (·.map regLog) }

/-- The structure of a new device (1042-1058, 926-942): everything but name, size and
buffer is zero, and `vmalloc` does not clear the buffer. -/
def freshLog (mem : Nat → UInt8) (x : RLog) : Log :=
  { name := x.name, size := x.size, buf := mem, wOff := 0, head := 0, dropped := 0, readers := [] }

/-- The slot that a request filled gets the new device, the others stay (1064-1075). -/
def fillSlots (mem : Nat → UInt8) : List (Option RLog) → List (Option Log) → List (Option Log)
  | x :: xs, l :: ls => (match l with | some l => some l | none => x.map (freshLog mem)) :: fillSlots mem xs ls
  | _, ls => ls

/-- The device of slot `i`, whose log is `l`, with its files. -/
def Drv.view (d : Drv) (i : Nat) (l : Log) : Sys :=
  { log := l, files := fun f => match d.files f with | some (j, F) => if j = i then some F else none | none => none }

/-- Results of calls. -/
inductive DOut
  | added (r : AddRes)
  | text (b : Bytes)
  /-- there is no such device -/
  | noent
  | out (o : Out)

/-- Calls of the driver. -/
inductive DOp
  /-- writing `text` to the attribute `logs`; `mem` is what `vmalloc` gives -/
  | add (text : Bytes) (g : Grant) (mem : Nat → UInt8)
  /-- reading the attribute -/
  | list (page : Nat)
  /-- opening the node of a device as file `fid` -/
  | opn (name : Bytes) (fid : Nat) (rd wr all : Bool)
  /-- any other call on an open file -/
  | call (op : Op)

/-- A call that reaches the log of slot `i`. -/
def Drv.on (d : Drv) (i : Nat) (op : Op) : Except Fault (Drv × DOut) :=
  match d.slots[i]? with
  | some (some l) =>
    match step (d.view i l) op with
    | .ok (s, o) =>
      .ok ({ slots := d.slots.set i (some s.log), files := fun f => if f = op.fid then (s.files f).map fun F => (i, F) else d.files f }, .out o)
    | .error e => .error e
  | _ => .error .oob

/-- The slot of the device with this name: `misc_open` finds the structure that was
registered with the node. -/
def slotOf (nm : Bytes) : List (Option Log) → Option Nat
  | [] => none
  | some l :: t => if l.name = nm then some 0 else (slotOf nm t).map (· + 1)
  | none :: t => (slotOf nm t).map (· + 1)

/-- One call. Calls on a number that is not open, and opening one in use, are not
possible calls; they are answered `EBADF` without effect. -/
def dstep (d : Drv) : DOp → Except Fault (Drv × DOut)
  -- 1008-1091
  | .add text g mem =>
    match addLog d.reg text g with
    | (_, .fault) => .error .oob
    | (r, .done n) => .ok ({ d with slots := fillSlots mem r.slots d.slots }, .added (.done n))
    | (_, e) => .ok (d, .added e)
  -- 977-997
  | .list page => .ok (d, .text (showLogs page d.reg))
  -- 691-728
  | .opn nm fid rd wr all =>
    match d.files fid with
    | some _ => .ok (d, .out (.err .ebadf))
    | none =>
      match slotOf nm d.slots with
      | none => .ok (d, .noent)
      | some i => d.on i (.openF fid rd wr all)
  -- the file operations: private_data leads to the log
  | .call op =>
    match d.files op.fid with
    | none => .ok (d, .out (.err .ebadf))
    | some (i, _) => d.on i op

def drun : Drv → List DOp → Except Fault (Drv × List (DOp × DOut))
  | d, [] => .ok (d, [])
  | d, op :: ops => do
    let (d', o) ← dstep d op
    let (d'', tr) ← drun d' ops
    return (d'', (op, o) :: tr)

/-- `ulogger_init` (1097-1123) with memory for `ulog_main`, loaded with
`main_buffer_size` = `k`; `none` if the driver does not load. -/
def dinit (k : Int) (register : Bool) (mem : Nat → UInt8) : Option Drv :=
  (regInit k true register).map fun r => { slots := r.slots.map (·.map (freshLog mem)), files := fun _ => none }

end Verif.Kernel
