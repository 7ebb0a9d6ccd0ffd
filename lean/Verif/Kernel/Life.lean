import Verif.Kernel.Driver
import Verif.Ulogcat.QueueRing

/-!
# The driver in memory, from loading to unloading (kernel/ulogger-6.x.c)

`Driver` takes the devices to be values and lets an open file name the slot of its
device. Here the driver is what it is in the kernel: structures at addresses, found
through pointers, allocated and freed; `file->private_data` is a word whose lowest bit
is a flag (81-104); the readers of a log are nodes of a ring; loading can fail half
way and unloading frees what was allocated (1097-1158).

An address is a number, 0 the null pointer. `list_head`s are named by the address of the
structure they are in. Memory that is not there, a structure taken for one of another
kind, and a second `kfree` are the error `oob`; a walk that does not come back is `hang`.

What the kernel does on behalf of the driver: `misc_open` looks the structure up among
those registered and takes a reference on the module, `delete_module` refuses a module
in use, the memory of a module (`log_main` and its name) is there from loading until
unloading or until `ulogger_init` has failed. The addresses that `kmalloc`, `vmalloc`
and the loader give come with the calls (see `Sane`).

Simplification: what a call does to the fields of a log and of its readers is taken from
`Model`, applied to what is found in memory behind the pointer (`logAt`); every structure
of the log has to be there, also those that the call would not look at. The node names of
misc devices are kept beside the registration.
-/
namespace Verif.Kernel.Life
open Verif Verif.Kernel
open Verif.Ulogcat.Queue (Heap)

/-- `struct ulogger_reader` (66-73) without its list node. -/
structure RObj where
  log : Nat
  rd : Reader

/-- `struct ulogger_log` (48-58): pointers to name and buffer. -/
structure LObj where
  name : Nat
  size : Nat
  buffer : Nat
  wOff : Nat
  head : Nat
  dropped : Nat

inductive Obj
  | log (o : LObj)
  | reader (o : RObj)
  | name (b : Bytes)
  | buf (g : Nat → UInt8)

/-- Memory: the structure at each address, and `next` and `prev` of its node. -/
structure Mem where
  obj : Nat → Option Obj
  nx : Nat → Nat
  pv : Nat → Nat

/-- Logs and readers have a node. -/
def Mem.node (m : Mem) (a : Nat) : Bool :=
  match m.obj a with
  | some (.log _) => true
  | some (.reader _) => true
  | _ => false

def Mem.heap (m : Mem) : Heap := { nx := m.nx, pv := m.pv, live := m.node }

def Mem.log (m : Mem) (a : Nat) : Except Fault LObj :=
  match m.obj a with | some (.log o) => .ok o | _ => .error .oob

def Mem.reader (m : Mem) (a : Nat) : Except Fault RObj :=
  match m.obj a with | some (.reader o) => .ok o | _ => .error .oob

def Mem.name (m : Mem) (a : Nat) : Except Fault Bytes :=
  match m.obj a with | some (.name b) => .ok b | _ => .error .oob

def Mem.buf (m : Mem) (a : Nat) : Except Fault (Nat → UInt8) :=
  match m.obj a with | some (.buf g) => .ok g | _ => .error .oob

def Mem.set (m : Mem) (a : Nat) (o : Obj) : Mem := { m with obj := Ulogcat.Queue.upd m.obj a (some o) }

/-- `kfree`: nothing for the null pointer; not for memory of `vmalloc`. -/
def Mem.kfree (m : Mem) (a : Nat) : Except Fault Mem :=
  if a = 0 then .ok m
  else match m.obj a with
    | none => .error .oob
    | some (.buf _) => .error .oob
    | some _ => .ok { m with obj := Ulogcat.Queue.upd m.obj a none }

/-- `vfree`. -/
def Mem.vfree (m : Mem) (a : Nat) : Except Fault Mem :=
  if a = 0 then .ok m
  else match m.obj a with
    | some (.buf _) => .ok { m with obj := Ulogcat.Queue.upd m.obj a none }
    | _ => .error .oob

def Mem.next (m : Mem) (a : Nat) : Except Fault Nat := if m.node a then .ok (m.nx a) else .error .oob
def Mem.prev (m : Mem) (a : Nat) : Except Fault Nat := if m.node a then .ok (m.pv a) else .error .oob
def Mem.setNext (m : Mem) (a v : Nat) : Except Fault Mem :=
  if m.node a then .ok { m with nx := Ulogcat.Queue.upd m.nx a v } else .error .oob
def Mem.setPrev (m : Mem) (a v : Nat) : Except Fault Mem :=
  if m.node a then .ok { m with pv := Ulogcat.Queue.upd m.pv a v } else .error .oob

/-- `INIT_LIST_HEAD`. -/
def initList (m : Mem) (a : Nat) : Except Fault Mem := do
  let m ← m.setNext a a
  m.setPrev a a

/-- `list_add_tail(new, head)`: `__list_add(new, head->prev, head)`. -/
def listAdd (m : Mem) (head new : Nat) : Except Fault Mem := do
  let p ← m.prev head
  let m ← m.setPrev head new
  let m ← m.setNext new head
  let m ← m.setPrev new p
  m.setNext p new

/-- `LIST_POISON1` and `LIST_POISON2`: no memory of the driver. -/
abbrev poison1 : Nat := 0xdead000000000100
abbrev poison2 : Nat := 0xdead000000000122

/-- `list_del`. -/
def listDel (m : Mem) (a : Nat) : Except Fault Mem := do
  let n ← m.next a
  let p ← m.prev a
  let m ← m.setPrev n p
  let m ← m.setNext p n
  let m ← m.setNext a poison1
  m.setPrev a poison2

/-- `list_for_each_entry` from a node on: the nodes up to the head. -/
def walk (m : Mem) (head : Nat) : Nat → Nat → Except Fault (List Nat)
  | 0, a => if a = head then .ok [] else .error .hang
  | n + 1, a =>
    if a = head then .ok []
    else do
      let b ← m.next a
      let r ← walk m head n b
      .ok (a :: r)

def readersAt (m : Mem) : List Nat → Except Fault (List (Nat × Reader))
  | [] => .ok []
  | a :: as => do
    let r ← m.reader a
    let rs ← readersAt m as
    .ok ((a, r.rd) :: rs)

/-- The log at an address with its name, its buffer and its readers, each named by its
address. `n` bounds the number of readers. -/
def logAt (m : Mem) (n a : Nat) : Except Fault Log := do
  let o ← m.log a
  let nm ← m.name o.name
  let g ← m.buf o.buffer
  let b ← m.next a
  let as ← walk m a n b
  let rs ← readersAt m as
  .ok { name := nm, size := o.size, buf := g, wOff := o.wOff, head := o.head, dropped := o.dropped, readers := rs }

/-- Write the fields of readers back. -/
def putReaders (m : Mem) : List (Nat × Reader) → Except Fault Mem
  | [] => .ok m
  | (a, r) :: rs => do
    let o ← m.reader a
    putReaders (m.set a (.reader { o with rd := r })) rs

/-- Write a log back; name, size and buffer pointer do not change. -/
def putLog (m : Mem) (a : Nat) (l : Log) : Except Fault Mem := do
  let o ← m.log a
  let m := m.set a (.log { o with wOff := l.wOff, head := l.head, dropped := l.dropped })
  let _ ← m.buf o.buffer
  let m := m.set o.buffer (.buf l.buf)
  putReaders m l.readers

/-- An open file: `private_data` and the mode. -/
structure KFile where
  word : Nat
  rd : Bool
  wr : Bool

/-- `file_get_private_ptr` and `file_get_private_flag` (81-91). -/
def KFile.ptr (f : KFile) : Nat := f.word - f.word % 2
def KFile.flag (f : KFile) : Bool := f.word % 2 = 1

/-- `(unsigned long)ptr | (flag ? 1UL : 0UL)` (94-104). -/
def tagged (p : Nat) (flag : Bool) : Nat := p ||| (if flag then 1 else 0)

/-- `file_get_log` (119-126). -/
def fileLog (m : Mem) (f : KFile) : Except Fault Nat :=
  if f.rd then do
    let r ← m.reader f.ptr
    .ok r.log
  else .ok f.ptr

/-- The driver and the part of the kernel that knows it. -/
structure K where
  mem : Mem
  /-- the loaded module: addresses of `log_main` and of its name -/
  mod : Option (Nat × Nat)
  /-- `ulogger_logs` (949) -/
  slots : List (Option Nat)
  /-- the misc devices registered, by name -/
  misc : List (Bytes × Nat)
  /-- the attribute `logs` is there -/
  attr : Bool
  files : Nat → Option KFile
  /-- references on the module -/
  refs : Nat

/-- Nothing of the driver is anywhere. -/
def K.none : K :=
  { mem := { obj := fun _ => Option.none, nx := fun _ => 0, pv := fun _ => 0 }, mod := Option.none, slots := [], misc := [],
    attr := false, files := fun _ => Option.none, refs := 0 }

/-- What the kernel gives to a request for a device: addresses, or nothing. -/
structure KGrant where
  name : Option Nat
  log : Option Nat
  buffer : Option (Nat × (Nat → UInt8))
  register : Bool

inductive KOp
  /-- loading the module with `main_buffer_size` = `k`: `log_main` and its name are at
  `main` and `nm`; `vmalloc`, `misc_register` and `device_create_file` say what follows -/
  | load (k : Int) (main nm : Nat) (buffer : Option (Nat × (Nat → UInt8))) (register attr : Bool)
  | add (text : Bytes) (g : KGrant)
  | list (page : Nat)
  /-- `reader` is what `kmalloc` gives -/
  | opn (name : Bytes) (fid : Nat) (rd wr all : Bool) (reader : Option Nat)
  | call (op : Op)
  | unload

inductive KOut
  | loaded
  /-- `ulogger_init` failed -/
  | failed
  /-- the module is in use, or loaded already -/
  | busy
  | unloaded
  | enomem
  | drv (o : DOut)

/-- `kmalloc` and the like, where it succeeds. -/
def alloc (m : Mem) (o : Obj) : Option Nat → Mem × Nat
  | some a => (m.set a o, a)
  | none => (m, 0)

/-- The memory of the module is given back. -/
def dropModule (m : Mem) (main nm : Nat) : Mem := { m with obj := Ulogcat.Queue.upd (Ulogcat.Queue.upd m.obj main none) nm none }

/-- `ulogger_init` (1097-1123); the structure is initialised by the compiler (926-942). -/
def kload (s : K) (k : Int) (main nm : Nat) (buffer : Option (Nat × (Nat → UInt8))) (register attr : Bool) : Except Fault (K × KOut) :=
  let m := s.mem.set nm (.name (ascii "ulog_main"))
  let m := m.set main (.log { name := nm, size := 0, buffer := 0, wOff := 0, head := 0, dropped := 0 })
  let m := { m with nx := Ulogcat.Queue.upd m.nx main main, pv := Ulogcat.Queue.upd m.pv main main }
  -- 1105-1108
  if checkBufSize k = false then .ok ({ s with mem := dropModule m main nm }, .failed)
  else
    -- 1110-1112
    let (m, b) := alloc m (.buf ((buffer.map (·.2)).getD fun _ => 0)) (buffer.map (·.1))
    let m := m.set main (.log { name := nm, size := 2 ^ k.toNat, buffer := b, wOff := 0, head := 0, dropped := 0 })
    -- 1115-1117
    if register = false then .ok ({ s with mem := dropModule m main nm }, .failed)
    else
      let misc := s.misc ++ [(ascii "ulog_main", main)]
      -- 1120
      if attr = false then .ok ({ s with mem := dropModule m main nm, misc }, .failed)
      else .ok ({ s with mem := m, mod := some (main, nm), misc, attr := true,
                         slots := some main :: List.replicate (maxLogs - 1) none }, .loaded)

/-- The names of the logs in the slots (1065-1074, 986-993). -/
def slotNames (m : Mem) : List (Option Nat) → Except Fault (List (Option RLog))
  | [] => .ok []
  | none :: t => do
    let r ← slotNames m t
    .ok (none :: r)
  | some a :: t => do
    let o ← m.log a
    let nm ← m.name o.name
    let r ← slotNames m t
    .ok (some { name := nm, size := o.size, buf := o.buffer != 0 } :: r)

/-- The search for a slot (1064-1075): the index, if the device was registered. -/
def findSlot (m : Mem) (name : Bytes) (register : Bool) : List (Option Nat) → Except Fault (Option Nat)
  | [] => .ok none
  | none :: _ => .ok (if register then some 0 else none)
  | some a :: t => do
    let o ← m.log a
    let nm ← m.name o.name
    if nm = name then .ok none
    else do
      let r ← findSlot m name register t
      .ok (r.map (· + 1))

/-- `fail:` (1085-1090). -/
def addFail (m : Mem) (name log buffer : Nat) : Except Fault Mem := do
  let m ← m.kfree name
  let m ← m.kfree log
  m.vfree buffer

/-- `ulogger_add_log` (1008-1091). -/
def kadd (s : K) (text : Bytes) (g : KGrant) : Except Fault (K × KOut) :=
  match scanSpec text with
  | none => .ok (s, .drv (.added .einval))
  | some (word, size) =>
    if specOk word size = false then .ok (s, .drv (.added .einval))
    else
      -- 1039-1043
      let (m, name) := alloc s.mem (.name word) g.name
      let (m, log) := alloc m (.log { name := 0, size := 0, buffer := 0, wOff := 0, head := 0, dropped := 0 }) g.log
      let (m, buffer) := alloc m (.buf ((g.buffer.map (·.2)).getD fun _ => 0)) (g.buffer.map (·.1))
      -- 1045-1050
      if log = 0 ∨ buffer = 0 then do
        let m ← addFail m name log buffer
        .ok ({ s with mem := m }, .drv (.added .enomem))
      else do
        -- 1052-1060
        let m := m.set log (.log { name, size := 2 ^ size, buffer, wOff := 0, head := 0, dropped := 0 })
        let m ← initList m log
        -- 1062-1076; the first slot is never empty, so `name` is looked at
        let nm ← m.name name
        let slot ← findSlot m nm g.register s.slots
        match slot with
        | none => do
          let m ← addFail m name log buffer
          .ok ({ s with mem := m }, .drv (.added .einval))
        | some i => .ok ({ s with mem := m, slots := s.slots.set i (some log), misc := s.misc ++ [(nm, log)] }, .drv (.added (.done text.length)))

/-- `ulogger_open` (691-728) behind `misc_open`. -/
def kopen (s : K) (nm : Bytes) (fid : Nat) (rd wr all : Bool) (reader : Option Nat) : Except Fault (K × KOut) :=
  match s.misc.lookup nm with
  | none => .ok (s, .drv .noent)
  | some misc => do
    -- misc_open: private_data is the misc structure
    let f : KFile := { word := misc, rd, wr }
    let log := f.ptr
    let o ← s.mem.log log
    if rd then
      match reader with
      | none => .ok (s, .enomem)
      | some a => do
        let m := s.mem.set a (.reader { log, rd := { off := o.head, all, ver := 2, dropped := o.dropped } })
        let m ← initList m a
        let m ← listAdd m log a
        .ok ({ s with mem := m, refs := s.refs + 1, files := Ulogcat.Queue.upd s.files fid (some { f with word := tagged a false }) }, .drv (.out .ok))
    else .ok ({ s with refs := s.refs + 1, files := Ulogcat.Queue.upd s.files fid (some { f with word := tagged log false }) }, .drv (.out .ok))

/-- `ulogger_release` (735-749). -/
def krelease (s : K) (fid : Nat) (f : KFile) : Except Fault (K × KOut) := do
  let m ← if f.rd then do
      let r ← s.mem.reader f.ptr
      let _ ← s.mem.log r.log
      let m ← listDel s.mem f.ptr
      m.kfree f.ptr
    else .ok s.mem
  .ok ({ s with mem := m, refs := s.refs - 1, files := Ulogcat.Queue.upd s.files fid none }, .drv (.out .ok))

/-- The other calls on an open file: what they do to the log is in `Model`. -/
def kcall (s : K) (fid : Nat) (f : KFile) (op : Op) : Except Fault (K × KOut) := do
  let a ← fileLog s.mem f
  let l ← logAt s.mem s.refs a
  let F : File := { rd := f.rd, wr := f.wr, raw := f.flag }
  let (t, o) ← stepFile { log := l, files := fun x => if x = f.ptr then some F else none } f.ptr F op
  let m ← putLog s.mem a t.log
  let raw := match t.files f.ptr with | some F' => F'.raw | none => F.raw
  .ok ({ s with mem := m, files := Ulogcat.Queue.upd s.files fid (some { f with word := tagged f.ptr raw }) }, .drv (.out o))

/-- `misc_deregister`, for a structure that is registered and still there. -/
def deregister (s : K) (a : Nat) : Except Fault K := do
  let _ ← s.mem.log a
  if s.misc.any fun p => p.2 = a then .ok { s with misc := s.misc.filter fun p => p.2 ≠ a } else .error .oob

/-- `delete_log` (1125-1131). -/
def deleteLog (s : K) (a : Nat) : Except Fault K := do
  let s ← deregister s a
  let o ← s.mem.log a
  let m ← s.mem.vfree o.buffer
  let m ← m.kfree o.name
  let m ← m.kfree a
  .ok { s with mem := m }

/-- The loop of 1143-1150. -/
def deleteLogs (main : Nat) : List (Option Nat) → K → Except Fault K
  | [], s => .ok s
  | none :: _, s => .ok s
  | some a :: t, s =>
    if a = main then deleteLogs main t s
    else do
      let s ← deleteLog s a
      deleteLogs main t s

/-- `ulogger_exit` (1133-1153), and the module is gone. -/
def kunload (s : K) (main nm : Nat) : Except Fault (K × KOut) := do
  let s := { s with attr := false }
  let s ← deregister s main
  let o ← s.mem.log main
  let m ← s.mem.vfree o.buffer
  let s ← deleteLogs main s.slots { s with mem := m }
  .ok ({ s with mem := dropModule s.mem main nm, mod := none, slots := [] }, .unloaded)

/-- One call. As in `dstep`, calls on a number that is not open, and opening one in use,
are answered `EBADF`; the attribute of a module that is not loaded is not found. -/
def kstep (s : K) : KOp → Except Fault (K × KOut)
  | .load k main nm buffer register attr =>
    match s.mod with
    | some _ => .ok (s, .busy)
    | none => kload s k main nm buffer register attr
  | .add text g => if s.attr then kadd s text g else .ok (s, .drv .noent)
  | .list page =>
    if s.attr then do
      let r ← slotNames s.mem s.slots
      .ok (s, .drv (.text (showLogs page { slots := r })))
    else .ok (s, .drv .noent)
  | .opn nm fid rd wr all reader =>
    match s.files fid with
    | some _ => .ok (s, .drv (.out (.err .ebadf)))
    | none => kopen s nm fid rd wr all reader
  | .call op =>
    match s.files op.fid with
    | none => .ok (s, .drv (.out (.err .ebadf)))
    | some f =>
      match op with
      | .release fid => krelease s fid f
      | op => kcall s op.fid f op
  | .unload =>
    match s.mod with
    | none => .ok (s, .drv .noent)
    | some (main, nm) => if s.refs = 0 then kunload s main nm else .ok (s, .busy)

def krun : K → List KOp → Except Fault (K × List (KOp × KOut))
  | s, [] => .ok (s, [])
  | s, op :: ops => do
    let (s', o) ← kstep s op
    let (s'', tr) ← krun s' ops
    return (s'', (op, o) :: tr)

/-! ## What the kernel promises -/

/-- An address that the kernel may give for a structure: not null, nothing there, even. -/
structure Free (s : K) (a : Nat) : Prop where
  pos : a ≠ 0
  empty : s.mem.obj a = none
  even : a % 2 = 0

/-- Addresses given are free and different from each other. -/
def Sane (s : K) : KOp → Prop
  | .load _ main nm buffer _ _ => Free s main ∧ Free s nm ∧ main ≠ nm ∧
    ∀ b, buffer.map (·.1) = some b → Free s b ∧ b ≠ main ∧ b ≠ nm
  | .add _ g => (∀ a, g.name = some a → Free s a ∧ g.log ≠ some a ∧ g.buffer.map (·.1) ≠ some a) ∧
    (∀ a, g.log = some a → Free s a ∧ g.buffer.map (·.1) ≠ some a) ∧ ∀ a, g.buffer.map (·.1) = some a → Free s a
  | .opn _ _ _ _ _ reader => ∀ a, reader = some a → Free s a
  | _ => True

/-- The addresses of a whole run. -/
def Given : K → List KOp → Prop
  | _, [] => True
  | s, op :: ops => Sane s op ∧ ∀ s' o, kstep s op = .ok (s', o) → Given s' ops

end Verif.Kernel.Life
