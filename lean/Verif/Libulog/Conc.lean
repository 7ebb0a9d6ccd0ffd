import Verif.Libulog.Write

/-!
# libulog/ulog_write.c, several threads

Tags, their list, their levels and the registration hook under any interleaving.
Every access to shared memory is one step: a read or write of a tag's `level` or
`next`, of the list head or of the hook pointer. Memory is sequentially
consistent (the code has data races on `level`; C11 gives them no meaning, the
model gives them the usual one of word-sized accesses). `pthread_mutex_lock` is a
step that is possible only while the lock is free. The names of tags never change.

A hook or a callback of `ulog_foreach` is called without the lock held; calls it
makes in turn are calls of some other thread of the model.

The trace (newest event first) is not part of the program; nothing reads it.
-/
namespace Verif.Libulog
open Verif

abbrev Tid := Nat

/-- What a call does once the tag is initialised. -/
inductive Then
  /-- `ulog_init` -/
  | done
  /-- the three logging functions -/
  | log (prio : UInt32)
  /-- `ulog_set_level` -/
  | set (l : Int)
  /-- `ulog_get_level` -/
  | get
  deriving DecidableEq, Repr

/-- Place in the code of libulog/ulog_write.c, with the local variables. -/
inductive Pc
  | idle
  /-- 450, 460, 470: `cookie->level < 0` -/
  | test (c : Cid) (k : Then)
  /-- 375-390: the two `getenv` -/
  | env (c : Cid) (k : Then)
  /-- 391: first read of the default level -/
  | def1 (c : Cid) (k : Then)
  /-- 393: second read -/
  | def2 (c : Cid) (k : Then)
  /-- 399 -/
  | lock (c : Cid) (lvl : Int) (k : Then)
  /-- 401 -/
  | check (c : Cid) (lvl : Int) (k : Then)
  /-- 403 -/
  | link (c : Cid) (lvl : Int) (k : Then)
  /-- 404 -/
  | publish (c : Cid) (lvl : Int) (k : Then)
  /-- 406 -/
  | store (c : Cid) (lvl : Int) (k : Then)
  /-- 407 -/
  | readHook (c : Cid) (k : Then)
  /-- 413 -/
  | unlock (c : Cid) (h : Option Nat) (k : Then)
  /-- 416-417 -/
  | callHook (c : Cid) (h : Option Nat) (k : Then)
  /-- 453, 463, 485, 491 -/
  | fin (c : Cid) (k : Then)
  /-- 500 -/
  | findLock (name : Bytes) (l : Int)
  /-- 502, initialisation of the loop -/
  | findHead (name : Bytes) (l : Int)
  /-- 502-506 -/
  | findWalk (name : Bytes) (l : Int) (p : Option Cid)
  /-- 508 -/
  | findUnlock (r : Option Cid) (l : Int)
  /-- 522 -/
  | namesLock (max : Nat)
  /-- 524, initialisation of the loop -/
  | namesHead (max : Nat)
  /-- 524-525 -/
  | namesWalk (max : Nat) (p : Option Cid) (acc : List Cid)
  /-- 527 -/
  | namesUnlock (max : Nat) (acc : List Cid)
  /-- 295 -/
  | feLock
  /-- 296 -/
  | feHead
  /-- 297 -/
  | feUnlock (p : Option Cid)
  /-- 299-302 -/
  | feWalk (p : Option Cid) (acc : List Cid)
  /-- 303 -/
  | feNext (c : Cid) (acc : List Cid)
  /-- 277 -/
  | hookLock (h : Nat)
  /-- 278 -/
  | hookStore (h : Nat)
  /-- 279 -/
  | hookUnlock (h : Nat)
  deriving DecidableEq

inductive COp
  | use (c : Cid) (k : Then)
  | setTag (name : Bytes) (l : Int)
  | names (max : Nat)
  | foreach
  | setHook (h : Nat)

inductive CEv
  /-- `cookie_list` now starts with `c` -/
  | reg (t : Tid) (c : Cid)
  /-- the initialisation wrote the level of `c` -/
  | first (c : Cid) (l : Int)
  /-- `ulog_set_level` wrote the level of `c` -/
  | set (t : Tid) (c : Cid) (l : Int)
  /-- `ulog_get_level` returns -/
  | got (t : Tid) (c : Cid) (l : Int)
  /-- a message was passed to the writer or not -/
  | msg (t : Tid) (c : Cid) (prio : UInt32) (passed : Bool)
  /-- the hook pointer was written -/
  | setHook (h : Nat)
  /-- the hook was called -/
  | hook (t : Tid) (h : Nat) (c : Cid)
  /-- a call on tag `c` is about to return -/
  | ret (t : Tid) (c : Cid)
  /-- `ulog_set_tag_level` found no tag of that name -/
  | notFound (t : Tid) (name : Bytes)
  /-- `ulog_get_tag_names` returns -/
  | names (t : Tid) (max : Nat) (l : List Cid)
  /-- `ulog_foreach` read the head of the list -/
  | feStart (t : Tid)
  /-- `ulog_foreach` called its callback for these tags and returns -/
  | feDone (t : Tid) (l : List Cid)
  deriving DecidableEq

structure CState where
  lock : Option Tid
  head : Option Cid
  next : Cid → Option Cid
  level : Cid → Int
  hook : Option Nat
  pc : Tid → Pc
  tr : List CEv

def CState.start : CState :=
  { lock := none, head := none, next := fun _ => none, level := fun _ => -1, hook := none, pc := fun _ => .idle
    tr := [] }

/-- What a step leaves open. -/
inductive Choice
  | go
  | call (op : COp)
  /-- what the two variables of the environment say -/
  | env (l : Option (Fin 8))

/-- libulog/ulog_write.c:477-480. -/
def Then.clamp : Then → Then
  | .set l => .set (clampLevel l)
  | k => k

/-- Thread `t` moves on to `p`. -/
def CState.at (s : CState) (t : Tid) (p : Pc) : CState := { s with pc := fun u => if u = t then p else s.pc u }

def CState.ev (s : CState) (e : CEv) : CState := { s with tr := e :: s.tr }

/-- One step of thread `t`; `none` if it is not possible. -/
def cstep (nm : Cid → Bytes) (t : Tid) (ch : Choice) (s : CState) : Option CState :=
  match s.pc t, ch with
  | .idle, .call (.use c k) => some (s.at t (.test c k.clamp))
  | .idle, .call (.setTag name l) => some (s.at t (.findLock name (clampLevel l)))
  | .idle, .call (.names max) => some (s.at t (.namesLock max))
  | .idle, .call .foreach => some (s.at t .feLock)
  | .idle, .call (.setHook h) => some (s.at t (.hookLock h))
  | .test c k, .go => some (s.at t (if s.level c < 0 then .env c k else .fin c k))
  | .env c k, .env none => some (s.at t (.def1 c k))
  | .env c k, .env (some l) => some (s.at t (.lock c (l.val : Nat) k))
  | .def1 c k, .go => some (s.at t (if s.level 0 ≥ 0 then .def2 c k else .lock c 6 k))
  | .def2 c k, .go => some (s.at t (.lock c (if s.level 0 < 0 then 6 else s.level 0) k))
  | .lock c lvl k, .go => if s.lock = none then some ({ s with lock := some t }.at t (.check c lvl k)) else none
  | .check c lvl k, .go => some (s.at t (if s.level c < 0 then .link c lvl k else .unlock c none k))
  | .link c lvl k, .go =>
    some ({ s with next := fun d => if d = c then s.head else s.next d }.at t (.publish c lvl k))
  | .publish c lvl k, .go => some (({ s with head := some c }.at t (.store c lvl k)).ev (.reg t c))
  | .store c lvl k, .go =>
    some (({ s with level := fun d => if d = c then lvl else s.level d }.at t (.readHook c k)).ev (.first c lvl))
  | .readHook c k, .go => some (s.at t (.unlock c s.hook k))
  | .unlock c h k, .go => some ({ s with lock := none }.at t (.callHook c h k))
  | .callHook c h k, .go =>
    match h with
    | none => some (s.at t (.fin c k))
    | some h => some ((s.at t (.fin c k)).ev (.hook t h c))
  | .fin c k, .go =>
    match k with
    | .done => some ((s.at t .idle).ev (.ret t c))
    | .log prio =>
      some (((s.at t .idle).ev (.msg t c prio (decide (((prio.toNat % 8 : Nat) : Int) ≤ s.level c)))).ev (.ret t c))
    | .set l =>
      some ((({ s with level := fun d => if d = c then l else s.level d }.at t .idle).ev (.set t c l)).ev (.ret t c))
    | .get => some (((s.at t .idle).ev (.got t c (s.level c))).ev (.ret t c))
  | .findLock name l, .go => if s.lock = none then some ({ s with lock := some t }.at t (.findHead name l)) else none
  | .findHead name l, .go => some (s.at t (.findWalk name l s.head))
  | .findWalk name l p, .go =>
    match p with
    | none => some ((s.at t (.findUnlock none l)).ev (.notFound t name))
    | some c => some (s.at t (if nm c = name then .findUnlock (some c) l else .findWalk name l (s.next c)))
  | .findUnlock r l, .go =>
    some ({ s with lock := none }.at t (match r with
      | none => .idle
      | some c => .test c (.set l)))
  | .namesLock max, .go => if s.lock = none then some ({ s with lock := some t }.at t (.namesHead max)) else none
  | .namesHead max, .go => some (s.at t (.namesWalk max s.head []))
  | .namesWalk max p acc, .go =>
    match p with
    | none => some (s.at t (.namesUnlock max acc))
    | some c =>
      some (s.at t (if acc.length < max then .namesWalk max (s.next c) (acc ++ [c]) else .namesUnlock max acc))
  | .namesUnlock max acc, .go => some (({ s with lock := none }.at t .idle).ev (.names t max acc))
  | .feLock, .go => if s.lock = none then some ({ s with lock := some t }.at t .feHead) else none
  | .feHead, .go => some ((s.at t (.feUnlock s.head)).ev (.feStart t))
  | .feUnlock p, .go => some ({ s with lock := none }.at t (.feWalk p []))
  | .feWalk p acc, .go =>
    match p with
    | none => some ((s.at t .idle).ev (.feDone t acc))
    | some c => some (s.at t (.feNext c (if c ≠ 0 then acc ++ [c] else acc)))
  | .feNext c acc, .go => some (s.at t (.feWalk (s.next c) acc))
  | .hookLock h, .go => if s.lock = none then some ({ s with lock := some t }.at t (.hookStore h)) else none
  | .hookStore h, .go => some (({ s with hook := some h }.at t (.hookUnlock h)).ev (.setHook h))
  | .hookUnlock _, .go => some ({ s with lock := none }.at t .idle)
  | _, _ => none

/-- Reachable states: any threads, any interleaving. -/
inductive CReach (nm : Cid → Bytes) : CState → Prop
  | start : CReach nm .start
  | step {s s' : CState} (t : Tid) (ch : Choice) : CReach nm s → cstep nm t ch s = some s' → CReach nm s'

end Verif.Libulog
