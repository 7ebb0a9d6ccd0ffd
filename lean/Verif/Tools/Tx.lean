import Verif.Libulog.Write
import Verif.Tools.Shd

/-!
# The port for ThreadX (threadx/src/ulog.c, threadx/src/ulog_ctrl.c)

Threads take turns at the points where shared variables are read or written; what is
done with the mutex held is one turn (a thread that waits for the mutex just gets its
turn later). `AmbaKAL_MutexTake` may fail: each turn that takes the mutex says whether
it did. Tags are numbered, 0 is the default tag; a tag has the level -1 until it is
registered, as set by `ULOG_DECLARE_TAG`.

Not modelled: the functions of the Ambarella SDK beyond what is said here;
`ulog_get_time_monotonic`; the variant `CONFIG_PARROT_LINUXLOG`.
-/
namespace Verif.Tools
open Verif Verif.Libulog Verif.Ulogcat

/-- threadx/src/ulog.c:45-52 and the levels of the tags -/
structure Tx where
  ready : Bool
  list : List Cid
  level : Cid → Int

/-- threadx/src/ulog.c:37-52 -/
def Tx.start : Tx := { ready := false, list := [0], level := fun c => if c = 0 then 6 else -1 }

/-- Where a thread is. -/
inductive TxPc
  | idle
  /-- in `ulog_init_cookie` before the mutex (ulog.c:138), with the level computed
  (115-136); `next`: what `ulog_set_level` sets afterwards (235) -/
  | init (c : Cid) (lv : Int) (next : Option Int)
  /-- in `ulog_set_level` before the last assignment (235) -/
  | store (c : Cid) (l : Int)
  /-- in `ulog_set_tag_level` before the mutex (257) -/
  | find (name : Bytes) (l : Int)
  deriving DecidableEq, Repr

inductive TxCall
  /-- `ulog_amba_early_init` (331-341); whether the mutex could be created -/
  | early (ok : Bool)
  /-- `ulog_init_cookie`, `ulog_init`, `ulog_get_level` or a log macro on the tag -/
  | touch (c : Cid)
  | setLevel (c : Cid) (l : Int)
  | setTag (name : Bytes) (l : Int)
  deriving DecidableEq, Repr

inductive TxEv
  /-- the thread begins a call (nothing if it is in one) -/
  | call (x : TxCall)
  /-- the thread goes on; whether the mutex can be taken -/
  | go (mutex : Bool)
  deriving DecidableEq, Repr

structure TxSys where
  tx : Tx
  pc : Nat → TxPc

def TxSys.start : TxSys := { tx := .start, pc := fun _ => .idle }

/-- threadx/src/ulog.c:127-136; `parse_level` and the environment play no role here. -/
def txDefault (s : Tx) : Int := if s.level 0 ≥ 0 then s.level 0 else 6

/-- threadx/src/ulog.c:225-229 -/
def txClamp (l : Int) : Int := if l < 0 then 0 else if l > 7 then 7 else l

def setLv (f : Cid → Int) (c : Cid) (l : Int) : Cid → Int := fun c' => if c' = c then l else f c'

/-- `ulog_set_level` (219-236) up to where it waits -/
def txSet (s : Tx) (c : Cid) (l : Int) : TxPc :=
  if s.ready = false then .idle
  else if s.level c < 0 then .init c (txDefault s) (some (txClamp l))
  else .store c (txClamp l)

/-- The beginning of a call by a thread that is in none. -/
def txCall (s : Tx) : TxCall → Tx × TxPc
  | .early ok => ({ s with ready := s.ready || ok }, .idle)
  | .touch c => if s.ready = true ∧ s.level c < 0 then (s, .init c (txDefault s) none) else (s, .idle)
  | .setLevel c l => (s, txSet s c l)
  | .setTag name l => if s.ready then (s, .find name l) else (s, .idle)

/-- The next turn of a thread in a call. -/
def txGo (nm : Cid → Bytes) (s : Tx) (mutex : Bool) : TxPc → Tx × TxPc
  | .idle => (s, .idle)
  /- threadx/src/ulog.c:138-151 -/
  | .init c lv next =>
    let s := if mutex = true ∧ s.level c < 0 then { s with list := c :: s.list, level := setLv s.level c lv } else s
    (s, match next with | some l => .store c l | none => .idle)
  | .store c l => ({ s with level := setLv s.level c l }, .idle)
  /- threadx/src/ulog.c:257-274 -/
  | .find name l =>
    if mutex = false then (s, .idle)
    else
      match s.list.find? fun c => nm c == name with
      | some c => (s, txSet s c l)
      | none => (s, .idle)

def setPc (f : Nat → TxPc) (t : Nat) (p : TxPc) : Nat → TxPc := fun t' => if t' = t then p else f t'

def txStep (nm : Cid → Bytes) (s : TxSys) (t : Nat) : TxEv → TxSys
  | .call x => if s.pc t = .idle then { tx := (txCall s.tx x).1, pc := setPc s.pc t (txCall s.tx x).2 } else s
  | .go m => { tx := (txGo nm s.tx m (s.pc t)).1, pc := setPc s.pc t (txGo nm s.tx m (s.pc t)).2 }

def txRun (nm : Cid → Bytes) (s : TxSys) (l : List (Nat × TxEv)) : TxSys := l.foldl (fun s x => txStep nm s x.1 x.2) s

/-- A whole call while no other thread runs: no call has more than three turns. -/
def txWhole (nm : Cid → Bytes) (s : Tx) (x : TxCall) : Tx :=
  let go := fun y : Tx × TxPc => txGo nm y.1 true y.2
  (go (go (go (txCall s x)))).1

/-- The result of `ulog_set_tag_level` (249-275) -/
def txSetTagRes (nm : Cid → Bytes) (s : Tx) (mutex : Bool) (name : Bytes) : Int :=
  if s.ready = false then -1
  else if mutex = false then -1
  else if (s.list.find? fun c => nm c == name).isSome then 0 else -1

/-- `ulog_get_tag_level` (277-299) -/
def txGetTag (nm : Cid → Bytes) (s : Tx) (mutex : Bool) (name : Bytes) : Int :=
  if s.ready = false ∨ mutex = false then -1
  else
    match s.list.find? fun c => nm c == name with
    | some c => s.level c
    | none => -1

/-- `ulog_get_tag_names` (301-318) -/
def txNames (nm : Cid → Bytes) (s : Tx) (mutex : Bool) (maxlen : Int) : List Bytes :=
  if s.ready = false ∨ mutex = false then [] else (s.list.take maxlen.toNat).map nm

/-- `ulog_foreach` (64-85): the result and the tags the function is called with; `cb`:
whether there is one. -/
def txForeach (s : Tx) (mutex cb : Bool) : Int × List Cid :=
  if s.ready = false then (-1, [])
  else if cb = false then (-22, [])
  else if mutex = false then (-1, [])
  else (0, s.list)

/-! ## Levels as letters -/

/-- `tab` (91-98) -/
def txTab (i : Nat) : Int :=
  if i = 2 then 2 else if i = 3 then 7 else if i = 4 then 3 else if i = 8 then 6 else if i = 13 then 5 else if i = 22 then 4 else 0

/-- `parse_level` (88-110) in the C locale -/
def txParse (c : Nat) : Int :=
  let level : Int := if 48 ≤ c ∧ c ≤ 57 then (c : Int) - 48 else if 65 ≤ c ∧ c ≤ 90 then txTab (c - 65) else 0
  if level > 7 then 7 else level

/-- `ulog_prio2char` (344-362) -/
def txChar (prio : Int) : UInt8 :=
  if prio < 0 ∨ prio > 7 then 32 else [32, 32, 67, 69, 87, 78, 73, 68][prio.toNat]?.getD 32

/-! ## Output -/

/-- The marker of `prio_tab` (161-173); `none` is an access outside the table. -/
def txMarker (prio : Nat) : Option UInt8 :=
  if prio ≥ 8 then none
  else if prio = 2 then some 67
  else if prio = 3 then some 69
  else if prio = 4 then some 87
  else if prio = 5 then some 78
  else if prio = 6 then some 73
  else if prio = 7 then some 68
  else some 0

/-- The colours of the SDK that are used, `zero` being the value 0. -/
inductive TxColour
  | zero | cyan | red | yellow | magenta | gray
  deriving DecidableEq, Repr

/-- The colour of `prio_tab` (161-173): `some none` is -1, for `AmbaPrint` (180-184). -/
def txColour (prio : Nat) : Option (Option TxColour) :=
  if prio ≥ 8 then none
  else if prio = 2 then some (some .cyan)
  else if prio = 3 then some (some .red)
  else if prio = 4 then some (some .yellow)
  else if prio = 5 then some (some .magenta)
  else if prio = 6 then some none
  else if prio = 7 then some (some .gray)
  else some (some .zero)

inductive TxMsg
  /-- `ulog_log` and its macros (libulog/include/ulog.h:500-508): `none` if formatting
  fails -/
  | fmt (prio : UInt32) (c : Cid) (text : Option Bytes)
  /-- `ulog_log_str` (206-209) -/
  | str (prio : UInt32) (c : Cid) (text : Bytes)
  /-- `ulog_log_buf` (211-214) -/
  | buf (prio : UInt32) (c : Cid) (data : Bytes)
  deriving DecidableEq, Repr

/-- What is given to `AmbaPrint`, with nobody else running: the marker, the tag, the
text. The outer `none` is undefined behaviour. (ulog.h:500-508, threadx/src/ulog.c:156-204) -/
def txLog (nm : Cid → Bytes) (s : Tx) : TxMsg → Option (Option (UInt8 × Bytes × Bytes))
  | .fmt prio c text =>
    let lv := if s.level c < 0 ∧ s.ready = true then txDefault s else s.level c
    if ((prio.toNat % 8 : Nat) : Int) ≤ lv then
      if s.ready = false then some none
      else
        match text with
        | none => some none
        | some t => (txMarker prio.toNat).map fun m => some (m, nm c, t.take 255)
    else some none
  | .str .. => some none
  | .buf .. => some none

/-! ## Records in shared memory -/

/-- The thread name (ulog_ctrl.c:66-87): memory, size and thread number. -/
def txThread (m : Bytes) : Option Bytes → Option (Bytes × Nat × UInt32)
  | none => some (m, 0, 0)
  | some t => (snprint m 0 bufSize t).map fun m => (m, if t.length ≥ bufSize then bufSize else t.length + 1, 1)

/-- ulog_ctrl.c:57-63 -/
def txPrio (prio : Nat) (log : Bytes) : Nat :=
  if prio ≠ 0 then prio % 8
  else if log.length ≥ 6 ∧ log[0]? = some 27 ∧ log[5]? = some 49 then 3
  else 6

/-- `ulog_shd_put` (ulog_ctrl.c:43-118) up to the write. -/
def txPack (old : Bytes) (prio : Nat) (thread : Option Bytes) (name msg : Bytes) (index : Nat) : Option Blob :=
  (txThread old thread).bind fun x =>
  (packPart x.1 x.2.1 name).bind fun y =>
  (packPart y.1 (x.2.1 + y.2) msg).bind fun z =>
  (if x.2.1 + y.2 + z.2 = bufSize then wr z.1 (bufSize - 1) 0 else some z.1).map fun m =>
    { index, prio := UInt8.ofNat (txPrio prio msg), tid := x.2.2, thn := x.2.1, tag := y.2, log := z.2, buf := m }

/-- The flag, the counter and the memory; messages are numbered. -/
structure TxShd where
  enabled : Bool
  index : Nat
  stored : List (Nat × Nat)
  /-- threads that are building a record (ulog_ctrl.c:54-108), and those that have
  cleared the flag and write (111-113), with message and number -/
  building : Nat → Option Nat
  writing : Nat → Option (Nat × Nat)

/-- Before `ulog_amba_shd_init`. -/
def TxShd.off : TxShd := { enabled := false, index := 1, stored := [], building := fun _ => none, writing := fun _ => none }

/-- `ulog_amba_shd_init` (ulog_ctrl.c:121-144) with a section or without: the new state,
whether messages go to `ulog_shd_put` from now on, whether they still go to the console. -/
def txShdInit (section_ : Bool) (s : TxShd) : TxShd × Bool × Bool := if section_ then ({ s with enabled := true }, true, false) else (s, false, true)

def TxShd.start : TxShd := { enabled := true, index := 1, stored := [], building := fun _ => none, writing := fun _ => none }

inductive ShdEv
  /-- `ulog_shd_put` begins with message `m` -/
  | put (t m : Nat)
  /-- the number is taken and the flag cleared (108-111) -/
  | begin (t : Nat)
  /-- the record is written and the flag set (113-115) -/
  | finish (t : Nat)
  deriving DecidableEq, Repr

def updN {α : Type} (f : Nat → Option α) (t : Nat) (x : Option α) : Nat → Option α := fun t' => if t' = t then x else f t'

def shdStep (s : TxShd) : ShdEv → TxShd
  | .put t m => if s.enabled then { s with building := updN s.building t (some m) } else s
  | .begin t =>
    match s.building t with
    | none => s
    | some m => { s with building := updN s.building t none, writing := updN s.writing t (some (m, s.index)), index := (s.index + 1) % 65536, enabled := false }
  | .finish t =>
    match s.writing t with
    | none => s
    | some r => { s with writing := updN s.writing t none, stored := s.stored ++ [r], enabled := true }

def shdRun (s : TxShd) (l : List ShdEv) : TxShd := l.foldl shdStep s

end Verif.Tools
