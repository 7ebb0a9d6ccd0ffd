/-!
# The reading loop of libulogcat (ulogcat/libulogcat_core.c)

Frames are values; the pool of free frames is a count (see `Queue` for the linked
lists). A frame carries the index
of its device, its time stamp, a number that stands for its contents, and whether
`parse_entry` and rendering succeed for it.

Everything outside is a `World`: a state and functions for what `poll`, the
`receive_entry` functions and the output do to it. A world may be anything.

Elsewhere: `ulogcat3_open` apart from the values it leaves in the context and
`ulogcat3_close` (`Open`), `ulogcat3_clear` (`Tools.Cat`), the contents of lines
(`Text`). Not modelled: overflow of `int` counters.
-/
namespace Verif.Ulogcat

structure Frame where
  dev : Nat
  stamp : Nat
  id : Nat
  /-- `parse_entry` and `render_frame` succeed -/
  shown : Bool
  deriving DecidableEq, Repr

/-- `struct log_device` (libulogcat_private.h:105-119); the index is the position
in the list. -/
structure Dev where
  mark : Int
  pending : Bool
  printed : Bool
  deriving DecidableEq, Repr

/-- One call of `output_rendered`. -/
inductive OutEv
  | banner (dev : Nat) (stamp : Nat)
  | entry (f : Frame)
  deriving DecidableEq, Repr

/-- `struct ulogcat3_context` (libulogcat_private.h:121-142). -/
structure Ctx where
  devs : List Dev
  /-- length of `free_queue` -/
  free : Nat
  pendQ : List Frame
  pending : Int
  rendQ : List Frame
  render : Int
  tail : Int
  markReached : Bool
  outErr : Bool
  /-- what was output; not part of the program -/
  out : List OutEv
  /-- `alloc_frame` returned NULL at some time; not part of the program -/
  starved : Bool
  deriving DecidableEq, Repr

inductive CFault
  /-- a null pointer or the head of an empty list is used as a frame -/
  | null
  /-- a loop that does not end -/
  | hang
  deriving DecidableEq, Repr

inductive Poll
  | intr
  | err
  /-- the descriptors that are readable; those given as -1 never are -/
  | ok (ready : Nat → Bool)

/-- What `receive_entry` returns: -1, 0, or 1 with the frame and the amount taken
from `mark_readable`. -/
inductive Recv
  | err
  | again
  | got (stamp id : Nat) (shown : Bool) (dec : Nat)

structure World (σ : Type) where
  /-- given which devices are polled -/
  poll : σ → (Nat → Bool) → Poll × σ
  recv : σ → Nat → Recv × σ
  /-- whether the output succeeds -/
  output : σ → OutEv → Bool × σ

variable {σ : Type}

/-- libulogcat_core.c:22-45. -/
def output (W : World σ) (c : Ctx) (s : σ) (e : OutEv) : Ctx × σ :=
  if c.outErr then (c, s)
  else
    match W.output s e with
    | (true, s) => ({ c with out := c.out ++ [e] }, s)
    | (false, s) => ({ c with outErr := true }, s)

/-- libulogcat_core.c:75-90 together with the `list_remove` of its callers: the
first frame of the queue that has the smallest time stamp, and the other frames. -/
def popOldest : List Frame → Option (Frame × List Frame)
  | [] => none
  | f :: t =>
    match popOldest t with
    | none => some (f, [])
    | some (g, r) => if g.stamp < f.stamp then some (g, f :: r) else some (f, t)

/-- libulogcat_core.c:306-311: no more data in this device. -/
def Dev.unready (d : Dev) : Dev := if d.mark > 0 then { d with mark := 0 } else d

/-- Change device `i`. -/
def Ctx.upd (c : Ctx) (i : Nat) (g : Dev → Dev) : Ctx := { c with devs := c.devs.modify i g }

/-- libulogcat_core.c:136-140 (and `flush_banner_frame`, 100-128). -/
def flushBanner (W : World σ) (c : Ctx) (s : σ) (f : Frame) (d : Dev) : Ctx × σ :=
  if !d.printed && decide (c.devs.length > 1) then
    let r := output W c s (.banner f.dev f.stamp)
    (r.1.upd f.dev fun d => { d with printed := true }, r.2)
  else (c, s)

/-- libulogcat_core.c:142-148. -/
def flushEntry (W : World σ) (x : Ctx × σ) (f : Frame) : Ctx × σ :=
  if f.shown then output W x.1 x.2 (.entry f) else x

/-- libulogcat_core.c:131-149. -/
def flushFrame (W : World σ) (c : Ctx) (s : σ) (f : Frame) : Except CFault (Ctx × σ) :=
  match c.devs[f.dev]? with
  | none => .error .null
  | some d => .ok (flushEntry W (flushBanner W c s f d) f)

/-- `if (!drop) flush_frame(ctx, frame)`. -/
def flushUnless (W : World σ) (drop : Bool) (c : Ctx) (s : σ) (f : Frame) : Except CFault (Ctx × σ) :=
  if drop then .ok (c, s) else flushFrame W c s f

/-- libulogcat_core.c:151-164. -/
def enqueueRender (c : Ctx) (f : Frame) : Ctx :=
  let q := c.rendQ ++ [f]
  if c.render < c.tail then { c with rendQ := q, render := c.render + 1 }
  else { c with rendQ := q.drop 1, free := c.free + 1 }

/-- libulogcat_core.c:166-179 (and `drop_render_frame`, 187-190). -/
def flushRenderFrame (W : World σ) (drop : Bool) (c : Ctx) (s : σ) : Except CFault (Ctx × σ) :=
  if c.render > 0 then
    match c.rendQ with
    | [] => .error .null
    | f :: t => do
      let (c, s) ← flushUnless W drop c s f
      .ok ({ c with rendQ := t, free := c.free + 1, render := c.render - 1 }, s)
  else .ok (c, s)

/-- libulogcat_core.c:192-205 (and `drop_pending_frame`, 207-210). -/
def flushPendingFrame (W : World σ) (drop : Bool) (c : Ctx) (s : σ) : Except CFault (Ctx × σ) :=
  if c.pending > 0 then
    match popOldest c.pendQ with
    | none => .error .null
    | some (f, t) => do
      let (c, s) ← flushUnless W drop c s f
      .ok ({ c.upd f.dev fun d => { d with pending := false } with
        pendQ := t, free := c.free + 1, pending := c.pending - 1 }, s)
  else .ok (c, s)

/-- libulogcat_core.c:181-185; every turn takes one off `render`. -/
def flushRenderQueue (W : World σ) : Nat → Ctx → σ → Except CFault (Ctx × σ)
  | 0, c, s => if c.render > 0 then .error .hang else .ok (c, s)
  | n + 1, c, s =>
    if c.render > 0 then do
      let (c, s) ← flushRenderFrame W false c s
      flushRenderQueue W n c s
    else .ok (c, s)

/-- libulogcat_core.c:212-216. -/
def flushPendingQueue (W : World σ) : Nat → Ctx → σ → Except CFault (Ctx × σ)
  | 0, c, s => if c.pending > 0 then .error .hang else .ok (c, s)
  | n + 1, c, s =>
    if c.pending > 0 then do
      let (c, s) ← flushPendingFrame W false c s
      flushPendingQueue W n c s
    else .ok (c, s)

/-- libulogcat_core.c:222-238. -/
def updateMark (c : Ctx) : Ctx :=
  if c.markReached then c
  else if c.devs.any fun d => decide (d.mark > 0) then c
  else { c with markReached := true }

/-- The loop of libulogcat_core.c:253-266. -/
def dropExcess (W : World σ) : Nat → Ctx → σ → Except CFault (Ctx × σ)
  | 0, c, s => if c.render + c.pending > c.tail then .error .hang else .ok (c, s)
  | n + 1, c, s =>
    if c.render + c.pending > c.tail then
      if c.render > 0 then do
        let (c, s) ← flushRenderFrame W true c s
        dropExcess W n c s
      else if c.pending > 0 then do
        let (c, s) ← flushPendingFrame W true c s
        dropExcess W n c s
      else .error .hang
    else .ok (c, s)

/-- libulogcat_core.c:247-271. Each turn of the loops takes one off `render` or
`pending`, so as many turns as their sum are enough if any number is. -/
def tailFlush (W : World σ) (c : Ctx) (s : σ) : Except CFault (Ctx × σ) :=
  if c.tail = 0 ∨ c.markReached = false then .ok (c, s)
  else do
    let (c, s) ← dropExcess W (c.render + c.pending).toNat c s
    let (c, s) ← flushRenderQueue W c.render.toNat c s
    .ok ({ c with tail := 0 }, s)

/-- The loop of libulogcat_core.c:303-330 over the devices `is`. The result holds
the value returned early, if any, and the number of frames. -/
def readDevs (W : World σ) (asked ready : Nat → Bool) : List Nat → Ctx → σ → Int → Ctx × σ × Option Int × Int
  | [], c, s, n => (c, s, none, n)
  | i :: is, c, s, n =>
    if (asked i && ready i) = false then
      let c := if asked i then c.upd i Dev.unready else c
      readDevs W asked ready is c s n
    else if c.free = 0 then readDevs W asked ready is { c with starved := true } s n
    else
      match W.recv s i with
      | (.err, s) => (c, s, some (-1), n)
      | (.again, s) => (c, s, some 0, n)
      | (.got stamp id shown dec, s) =>
        let c := { c with
          free := c.free - 1, pendQ := c.pendQ ++ [Frame.mk i stamp id shown], pending := c.pending + 1 }
        let c := c.upd i fun d => { d with mark := d.mark - dec, pending := true }
        readDevs W asked ready is c s (n + 1)

/-- libulogcat_core.c:332-347: pull the oldest frame. -/
def pullFrame (W : World σ) (c : Ctx) (s : σ) : Except CFault (Ctx × σ) :=
  match popOldest c.pendQ with
  | none => .ok (c, s)
  | some (f, t) =>
    let c := { c.upd f.dev fun d => { d with pending := false } with pendQ := t, pending := c.pending - 1 }
    if c.tail > 0 then .ok (enqueueRender c f, s)
    else do
      let (c, s) ← flushFrame W c s f
      .ok ({ c with free := c.free + 1 }, s)

/-- libulogcat_core.c:332-351. -/
def endPass (W : World σ) (c : Ctx) (s : σ) : Except CFault (Ctx × σ) := do
  let (c, s) ← pullFrame W c s
  tailFlush W (updateMark c) s

/-- libulogcat_core.c:277-354. -/
def processDevices (W : World σ) (c : Ctx) (s : σ) : Except CFault (Ctx × σ × Int) :=
  let asked := fun i => match c.devs[i]? with
    | some d => !d.pending
    | none => false
  match W.poll s asked with
  | (.intr, s) => .ok (c, s, 0)
  | (.err, s) => .ok (c, s, -1)
  | (.ok ready, s) =>
    match readDevs W asked ready (List.range c.devs.length) c s 0 with
    | (c, s, some r, _) => .ok (c, s, r)
    | (c, s, none, n) => (endPass W c s).map fun x => (x.1, x.2, n)

/-- libulogcat_core.c:363-388, `ulogcat3_process_logs`. `none`: still at it after
`fuel` turns. -/
def processLogs (W : World σ) (dump : Bool) (max : Int) : Nat → Ctx → σ → Int → Except CFault (Ctx × σ × Option Int)
  | 0, c, s, _ => .ok (c, s, none)
  | fuel + 1, c, s, frames => do
    let (c, s, r) ← processDevices W c s
    if r < 0 then .ok (c, s, some r)
    else if dump && c.markReached then do
      let (c, s) ← flushPendingQueue W c.pending.toNat c s
      .ok (c, s, some 0)
    else if c.outErr then .ok (c, s, some (-1))
    else if max = 0 ∨ frames + r < max then processLogs W dump max fuel c s (frames + r)
    else .ok (c, s, some r)

/-- The context `ulogcat3_open` returns (423-530): `marks` are the amounts
readable in each device, `nframes` is the number of free frames. -/
def openCtx (marks : List Nat) (tail : Int) : Ctx :=
  { devs := marks.map fun (m : Nat) => { mark := (m : Int), pending := false, printed := false }
    free := (tail + marks.length + 1).toNat
    pendQ := [], pending := 0, rendQ := [], render := 0, tail, markReached := false, outErr := false, out := []
    starved := false }

end Verif.Ulogcat
