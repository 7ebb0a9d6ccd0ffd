import Verif.Tools.Cat

/-!
# The first version of the viewer's interface (ulogcat/libulogcat_compat.c)

A handle and any sequence of `ulogcat_add_device` and `ulogcat_process_logs` on it, then
`ulogcat_destroy`. The names given to `ulogcat_add_device` are pointers, which are stored and
read when a context of the third version is opened; `text` is the memory of the caller at
that time (`none`: not a string any more). Undefined behaviour is an error.

Simplifications: as in `Cat`, an overflow of the number of frames and a negative one are looked at
after the other steps of `ulogcat3_open`; one thread uses the handle.
-/
namespace Verif.Tools.First
open Verif Verif.Ulogcat Verif.Tools

/-- `struct ulogcat_opts` (libulogcat.h:112-124); options that are numbers or a pointer as whether
they are set. -/
structure Opts where
  fmt : Fmt
  binary : Bool
  clear : Bool
  tail : Int
  getsize : Bool
  rotate : Bool
  dump : Bool
  color : Bool
  fd : Int
  deriving DecidableEq, Repr

inductive Fault
  /-- the array of devices is the null pointer -/
  | null
  /-- an entry of the array that was never written -/
  | unwritten
  /-- a name that is no string any more -/
  | gone
  /-- the number of frames is not an `int` -/
  | overflow
  | core (f : CFault)
  deriving DecidableEq, Repr

/-- `struct ulogcat_context` (libulogcat_compat.c:23-29) and what it is part of: all events so far,
the state of the world, and the number of arrays of pointers that are allocated. `arr` is `devices`,
an entry `none` was never written. -/
structure Handle (σ : Type) where
  opts : Opts
  arr : Option (List (Option Nat))
  n : Nat
  ctx : Option (OSt × Ctx)
  evs : List OEv
  s : σ
  arrays : Nat

/-- `ulogcat_create` (libulogcat_compat.c:33-61); `mem`: `calloc` succeeds. -/
def create {σ : Type} (o : Opts) (mem : Bool) (evs : List OEv) (s : σ) : Option (Handle σ) :=
  if o.binary ∨ o.getsize ∨ o.rotate then none
  else if mem then some { opts := o, arr := none, n := 0, ctx := none, evs, s, arrays := 0 }
  else none

/-- The worlds of opening, clearing and reading. -/
structure Env (σ : Type) where
  w : OWorld
  cw : ClearWorld
  W : World σ

/-- `ulogcat_add_device` (libulogcat_compat.c:78-92); `mem`: `realloc` succeeds. -/
def addDevice {σ : Type} (p : Nat) (mem : Bool) (h : Handle σ) : Handle σ × Int :=
  if mem then
    match h.arr with
    | some l => ({ h with arr := some (l ++ [some p]), n := h.n + 1 }, 0)
    | none => ({ h with arr := some (List.replicate h.n none ++ [some p]), n := h.n + 1, arrays := h.arrays + 1 }, 0)
  else ({ h with arr := none }, -1)

/-- The names that the loop of `ulogcat3_open` (libulogcat_core.c:459-466) reads before it ends. -/
def seen (w : OWorld) (text : Nat → Option Bytes) : List (Option Nat) → OSt → Except Fault (List Bytes)
  | [], _ => .ok []
  | none :: _, _ => .error .unwritten
  | some p :: ps, s =>
    match text p with
    | none => .error .gone
    | some name =>
      if name = kmsgdName then (seen w text ps s).map (name :: ·)
      else if (addUlog w name s).1 then (seen w text ps (addUlog w name s).2).map (name :: ·)
      else .ok [name]

/-- `ulogcat3_open(&v1->opts, v1->devices, v1->ndevices)` with the options of `ulogcat_create`
(48-51): user logs, no kernel log. -/
def openFrom {σ : Type} (w : OWorld) (text : Nat → Option Bytes) (h : Handle σ) : Except Fault (Except (List OEv) OSt) :=
  if w.noMem (h.evs ++ [.alloc]) ∨ h.n = 0 then .ok (ulogOpen w true false [] h.evs)
  else
    match h.arr with
    | none => .error .null
    | some l =>
      (seen w text (l.take h.n) { evs := h.evs ++ [.alloc], devs := [], count := 0, ulogs := 0 }).map fun names =>
        ulogOpen w true false names h.evs

/-- libulogcat_compat.c:119-124, with a context; the loop of lines 94-109 is that of `catLoop`. -/
def go {σ : Type} (E : Env σ) (calls fuel : Nat) (o : OSt) (x : Ctx) (h : Handle σ) : Except Fault (Handle σ × Option Int) :=
  if h.opts.clear then
    let r := clearDevs E.cw o.devs 0 h.evs
    .ok ({ h with ctx := some (o, x), evs := r.2 }, some r.1)
  else
    match catLoop E.W h.opts.dump fuel calls x h.s with
    | .error f => .error (.core f)
    | .ok (x, s, r) => .ok ({ h with ctx := some (o, x), s }, r)

/-- `ulogcat_process_logs` (libulogcat_compat.c:111-126); at most `calls` turns of its loop, of at
most `fuel` passes each. The result is `none` if it is still at it. -/
def process {σ : Type} (E : Env σ) (text : Nat → Option Bytes) (calls fuel : Nat) (h : Handle σ) :
    Except Fault (Handle σ × Option Int) :=
  match h.ctx with
  | some (o, x) => go E calls fuel o x h
  | none =>
    match openFrom E.w text h with
    | .error f => .error f
    | .ok (.error evs) => .ok ({ h with evs }, some (-1))
    | .ok (.ok o) =>
      if h.opts.tail + o.count + 1 > 2147483647 then .error .overflow
      else if h.opts.tail + o.count + 1 < 0 then .ok ({ h with evs := ulogClose o }, some (-1))
      else go E calls fuel o (openCtx (o.devs.map fun d => d.mark.toNat) h.opts.tail) { h with evs := o.evs }

inductive Call
  | add (p : Nat) (mem : Bool)
  | process (text : Nat → Option Bytes) (calls fuel : Nat)

def step {σ : Type} (E : Env σ) (h : Handle σ) : Call → Except Fault (Handle σ × Option Int)
  | .add p mem => .ok ((addDevice p mem h).1, some (addDevice p mem h).2)
  | .process text calls fuel => process E text calls fuel h

/-- Calls that all return, and what they return. -/
inductive Ran {σ : Type} (E : Env σ) (h0 : Handle σ) : List Call → Handle σ → List Int → Prop
  | nil : Ran E h0 [] h0 []
  | snoc {cs h rs c h' r} (a : Ran E h0 cs h rs) (b : step E h c = .ok (h', some r)) : Ran E h0 (cs ++ [c]) h' (rs ++ [r])

/-- `ulogcat_destroy` (libulogcat_compat.c:63-70): all events and how many arrays are left. -/
def destroy {σ : Type} (h : Handle σ) : List OEv × Nat :=
  (match h.ctx with
    | some (o, _) => ulogClose { o with evs := h.evs }
    | none => h.evs,
   if h.arr.isSome then h.arrays - 1 else h.arrays)

end Verif.Tools.First
