import Verif.Ulogcat.Core

/-!
# The queues of libulogcat as linked nodes (ulogcat/libulogcat_list.h)

`Core` takes the queues of frames to be lists of values and the free frames to be
a number. Here they are what they are in the program: rings of nodes in memory,
changed by assignments to `next` and `prev`.

An address is a number. The four heads of `struct ulogcat3_context` are at 0
(`free_queue`), 1 (`render_queue`), 2 (`pending_queue`) and 3 (`log_devices`),
frame `i` of `frame_pool` is at `4 + i`, devices are at higher addresses. A node
is the first thing in its frame or device, as far as addresses go. Using memory
that is not there (a head taken for a frame, a device after `free`) is the error
`null`; a walk that does not come back to its head is `hang`.

Every frame has a buffer: its own, an extra one from `malloc`, or the null pointer
left by a `malloc` that failed (libulogcat_ulog.c:39-43, libulogcat_klog.c:108-112).
Which of them a call of `receive_entry` leaves is a parameter (`ext`).

Simplifications: the list of devices is walked by `Core` as a list of indices, as
it does not change between `ulogcat3_open` and `ulogcat3_close`; the fields `free`,
`pendQ` and `rendQ` of the context in `PCtx` are not used and never read.
-/
namespace Verif.Ulogcat.Queue
open Verif Verif.Ulogcat

/-- `struct listnode` (libulogcat_list.h:20-23) at every address; `live`: there is
memory at this address. -/
structure Heap where
  nx : Nat → Nat
  pv : Nat → Nat
  live : Nat → Bool

/-- `g` with another value at `a`. -/
def upd {α : Type} (g : Nat → α) (a : Nat) (v : α) : Nat → α := fun x => if x = a then v else g x

def Heap.next (h : Heap) (a : Nat) : Except CFault Nat := if h.live a then .ok (h.nx a) else .error .null
def Heap.prev (h : Heap) (a : Nat) : Except CFault Nat := if h.live a then .ok (h.pv a) else .error .null
def Heap.setNext (h : Heap) (a v : Nat) : Except CFault Heap :=
  if h.live a then .ok { h with nx := upd h.nx a v } else .error .null
def Heap.setPrev (h : Heap) (a v : Nat) : Except CFault Heap :=
  if h.live a then .ok { h with pv := upd h.pv a v } else .error .null

/-- libulogcat_list.h:45-49. -/
def listInit (h : Heap) (node : Nat) : Except CFault Heap := do
  let h ← h.setNext node node
  h.setPrev node node

/-- libulogcat_list.h:51-57. -/
def listAddTail (h : Heap) (head item : Nat) : Except CFault Heap := do
  let h ← h.setNext item head
  let p ← h.prev head
  let h ← h.setPrev item p
  let p ← h.prev head
  let h ← h.setNext p item
  h.setPrev head item

/-- libulogcat_list.h:59-63. -/
def listRemove (h : Heap) (item : Nat) : Except CFault Heap := do
  let n ← h.next item
  let p ← h.prev item
  let h ← h.setPrev n p
  let p ← h.prev item
  let n ← h.next item
  h.setNext p n

abbrev freeQ : Nat := 0
abbrev renderQ : Nat := 1
abbrev pendingQ : Nat := 2
abbrev devsQ : Nat := 3

/-- Where `buf` of a frame points (libulogcat_private.h:84-92). -/
inductive Buf
  | own
  | extra
  | null
  deriving DecidableEq, Repr

/-- The context with its frames in memory. -/
structure PCtx where
  /-- everything but the queues -/
  c : Ctx
  h : Heap
  /-- number of frames in `frame_pool` -/
  n : Nat
  /-- `dev`, `stamp`, `entry` of the frame at an address -/
  mem : Nat → Frame
  buf : Nat → Buf
  /-- extra buffers allocated and not yet freed; not part of the program -/
  bufs : Nat
  /-- `free` of an extra buffer that is not there; not part of the program -/
  badFree : Bool

/-- There is a frame at `f`. -/
def PCtx.isFrame (p : PCtx) (f : Nat) : Bool := decide (4 ≤ f) && decide (f < 4 + p.n)

/-- Read a frame. -/
def PCtx.frame (p : PCtx) (f : Nat) : Except CFault Frame :=
  if p.isFrame f then .ok (p.mem f) else .error .null

/-- libulogcat_core.c:47-60. -/
def allocFrame (p : PCtx) : Except CFault (Option Nat × PCtx) := do
  let f ← p.h.next freeQ
  if f = freeQ then .ok (none, p)
  else do
    let h ← listRemove p.h f
    .ok (some f, { p with h })

/-- libulogcat_core.c:65-70. -/
def dropBuf (p : PCtx) (f : Nat) : PCtx :=
  match p.buf f with
  | .own => p
  | .null => { p with buf := upd p.buf f .own }
  | .extra => { p with buf := upd p.buf f .own, bufs := p.bufs - 1, badFree := p.badFree || decide (p.bufs = 0) }

/-- libulogcat_core.c:62-73. -/
def freeFrame (p : PCtx) (f : Nat) : Except CFault PCtx := do
  let _ ← p.frame f
  let p := dropBuf p f
  let h ← listAddTail p.h freeQ f
  .ok { p with h }

/-- The loop of libulogcat_core.c:81-87 from a node on. A frame is taken for the
oldest if there is none yet or it is older. -/
def oldestWalk (p : PCtx) : Nat → Nat → Option Nat → Nat → Except CFault (Option Nat)
  | 0, node, res, _ => if node = pendingQ then .ok res else .error .hang
  | k + 1, node, res, stamp =>
    if node = pendingQ then .ok res
    else do
      let f ← p.frame node
      let n ← p.h.next node
      if res = none ∨ f.stamp < stamp then oldestWalk p k n (some node) f.stamp
      else oldestWalk p k n res stamp

/-- libulogcat_core.c:75-90. -/
def findOldest (p : PCtx) : Except CFault (Option Nat) := do
  let node ← p.h.next pendingQ
  oldestWalk p p.n node none 0

/-- libulogcat_core.c:131-149, for the frame at `f`. -/
def pFlush {σ : Type} (W : World σ) (p : PCtx) (s : σ) (f : Nat) : Except CFault (PCtx × σ) := do
  let fr ← p.frame f
  let (c, s) ← flushFrame W p.c s fr
  .ok ({ p with c }, s)

def pFlushUnless {σ : Type} (W : World σ) (drop : Bool) (p : PCtx) (s : σ) (f : Nat) : Except CFault (PCtx × σ) :=
  if drop then .ok (p, s) else pFlush W p s f

/-- `list_remove(&frame->flist)`. -/
def unlink (p : PCtx) (f : Nat) : Except CFault PCtx := do
  let h ← listRemove p.h f
  .ok { p with h }

/-- `list_add_tail(q, &frame->flist)`. -/
def link (p : PCtx) (q f : Nat) : Except CFault PCtx := do
  let h ← listAddTail p.h q f
  .ok { p with h }

/-- libulogcat_core.c:151-164. -/
def pEnqueueRender (p : PCtx) (f : Nat) : Except CFault PCtx := do
  let p ← link p renderQ f
  if p.c.render < p.c.tail then .ok { p with c := { p.c with render := p.c.render + 1 } }
  else do
    let f ← p.h.next renderQ
    let p ← unlink p f
    freeFrame p f

/-- libulogcat_core.c:166-179. -/
def pFlushRenderFrame {σ : Type} (W : World σ) (drop : Bool) (p : PCtx) (s : σ) : Except CFault (PCtx × σ) :=
  if p.c.render > 0 then do
    let f ← p.h.next renderQ
    let (p, s) ← pFlushUnless W drop p s f
    let p ← unlink p f
    let p ← freeFrame p f
    .ok ({ p with c := { p.c with render := p.c.render - 1 } }, s)
  else .ok (p, s)

/-- libulogcat_core.c:192-205. -/
def pFlushPendingFrame {σ : Type} (W : World σ) (drop : Bool) (p : PCtx) (s : σ) : Except CFault (PCtx × σ) :=
  if p.c.pending > 0 then do
    match ← findOldest p with
    | none => .error .null
    | some f =>
      let (p, s) ← pFlushUnless W drop p s f
      let fr ← p.frame f
      let p := { p with c := p.c.upd fr.dev fun d => { d with pending := false } }
      let p ← unlink p f
      let p ← freeFrame p f
      .ok ({ p with c := { p.c with pending := p.c.pending - 1 } }, s)
  else .ok (p, s)

/-- libulogcat_core.c:181-185. -/
def pFlushRenderQueue {σ : Type} (W : World σ) : Nat → PCtx → σ → Except CFault (PCtx × σ)
  | 0, p, s => if p.c.render > 0 then .error .hang else .ok (p, s)
  | n + 1, p, s =>
    if p.c.render > 0 then do
      let (p, s) ← pFlushRenderFrame W false p s
      pFlushRenderQueue W n p s
    else .ok (p, s)

/-- libulogcat_core.c:212-216. -/
def pFlushPendingQueue {σ : Type} (W : World σ) : Nat → PCtx → σ → Except CFault (PCtx × σ)
  | 0, p, s => if p.c.pending > 0 then .error .hang else .ok (p, s)
  | n + 1, p, s =>
    if p.c.pending > 0 then do
      let (p, s) ← pFlushPendingFrame W false p s
      pFlushPendingQueue W n p s
    else .ok (p, s)

/-- libulogcat_core.c:253-266. -/
def pDropExcess {σ : Type} (W : World σ) : Nat → PCtx → σ → Except CFault (PCtx × σ)
  | 0, p, s => if p.c.render + p.c.pending > p.c.tail then .error .hang else .ok (p, s)
  | n + 1, p, s =>
    if p.c.render + p.c.pending > p.c.tail then
      if p.c.render > 0 then do
        let (p, s) ← pFlushRenderFrame W true p s
        pDropExcess W n p s
      else if p.c.pending > 0 then do
        let (p, s) ← pFlushPendingFrame W true p s
        pDropExcess W n p s
      else .error .hang
    else .ok (p, s)

/-- libulogcat_core.c:247-271. -/
def pTailFlush {σ : Type} (W : World σ) (p : PCtx) (s : σ) : Except CFault (PCtx × σ) :=
  if p.c.tail = 0 ∨ p.c.markReached = false then .ok (p, s)
  else do
    let (p, s) ← pDropExcess W (p.c.render + p.c.pending).toNat p s
    let (p, s) ← pFlushRenderQueue W p.c.render.toNat p s
    .ok ({ p with c := { p.c with tail := 0 } }, s)

/-- What `receive_entry` did to the buffer of the frame. -/
def takeBuf (p : PCtx) (f : Nat) (b : Buf) : PCtx :=
  { p with buf := upd p.buf f b, bufs := if b = .extra then p.bufs + 1 else p.bufs }

/-- libulogcat_core.c:317-330 once there is a frame. The value returned early, if any. -/
def pReceive {σ : Type} (W : World σ) (ext : σ → Nat → Buf) (i : Nat) (f : Nat) (p : PCtx) (s : σ) (n : Int) :
    Except CFault (PCtx × σ × Option Int × Int) := do
  let p := takeBuf p f (ext s i)
  match W.recv s i with
  | (.err, s) =>
    let p ← freeFrame p f
    .ok (p, s, some (-1), n)
  | (.again, s) =>
    let p ← freeFrame p f
    .ok (p, s, some 0, n)
  | (.got stamp id shown dec, s) =>
    let p := { p with mem := upd p.mem f (Frame.mk i stamp id shown), c := p.c.upd i fun d => { d with mark := d.mark - dec } }
    let p ← link p pendingQ f
    .ok ({ p with c := { p.c.upd i fun d => { d with pending := true } with pending := p.c.pending + 1 } }, s, none, n + 1)

/-- The loop of libulogcat_core.c:303-330. -/
def pReadDevs {σ : Type} (W : World σ) (ext : σ → Nat → Buf) (asked ready : Nat → Bool) :
    List Nat → PCtx → σ → Int → Except CFault (PCtx × σ × Option Int × Int)
  | [], p, s, n => .ok (p, s, none, n)
  | i :: is, p, s, n =>
    if (asked i && ready i) = false then
      pReadDevs W ext asked ready is { p with c := if asked i then p.c.upd i Dev.unready else p.c } s n
    else do
      match ← allocFrame p with
      | (none, p) => pReadDevs W ext asked ready is { p with c := { p.c with starved := true } } s n
      | (some f, p) =>
        match ← pReceive W ext i f p s n with
        | (p, s, some r, n) => .ok (p, s, some r, n)
        | (p, s, none, n) => pReadDevs W ext asked ready is p s n

/-- libulogcat_core.c:332-347. -/
def pPullFrame {σ : Type} (W : World σ) (p : PCtx) (s : σ) : Except CFault (PCtx × σ) := do
  match ← findOldest p with
  | none => .ok (p, s)
  | some f =>
    let p ← unlink p f
    let fr ← p.frame f
    let p := { p with c := { p.c.upd fr.dev fun d => { d with pending := false } with pending := p.c.pending - 1 } }
    if p.c.tail > 0 then do
      let p ← pEnqueueRender p f
      .ok (p, s)
    else do
      let (p, s) ← pFlush W p s f
      let p ← freeFrame p f
      .ok (p, s)

/-- libulogcat_core.c:332-351. -/
def pEndPass {σ : Type} (W : World σ) (p : PCtx) (s : σ) : Except CFault (PCtx × σ) := do
  let (p, s) ← pPullFrame W p s
  pTailFlush W { p with c := updateMark p.c } s

/-- libulogcat_core.c:277-354. -/
def pProcessDevices {σ : Type} (W : World σ) (ext : σ → Nat → Buf) (p : PCtx) (s : σ) : Except CFault (PCtx × σ × Int) :=
  let asked := fun i => match p.c.devs[i]? with
    | some d => !d.pending
    | none => false
  match W.poll s asked with
  | (.intr, s) => .ok (p, s, 0)
  | (.err, s) => .ok (p, s, -1)
  | (.ok ready, s) => do
    match ← pReadDevs W ext asked ready (List.range p.c.devs.length) p s 0 with
    | (p, s, some r, _) => .ok (p, s, r)
    | (p, s, none, n) =>
      let (p, s) ← pEndPass W p s
      .ok (p, s, n)

/-- libulogcat_core.c:363-388. -/
def pProcessLogs {σ : Type} (W : World σ) (ext : σ → Nat → Buf) (dump : Bool) (max : Int) :
    Nat → PCtx → σ → Int → Except CFault (PCtx × σ × Option Int)
  | 0, p, s, _ => .ok (p, s, none)
  | fuel + 1, p, s, frames => do
    let (p, s, r) ← pProcessDevices W ext p s
    if r < 0 then .ok (p, s, some r)
    else if dump && p.c.markReached then do
      let (p, s) ← pFlushPendingQueue W p.c.pending.toNat p s
      .ok (p, s, some 0)
    else if p.c.outErr then .ok (p, s, some (-1))
    else if max = 0 ∨ frames + r < max then pProcessLogs W ext dump max fuel p s (frames + r)
    else .ok (p, s, some r)

/-- The loop of libulogcat_core.c:518-524 from frame `i` on. -/
def poolLoop : Nat → Nat → Heap → Except CFault Heap
  | 0, _, h => .ok h
  | k + 1, i, h => do
    let h ← listAddTail h freeQ (4 + i)
    poolLoop k (i + 1) h

/-- `list_add_tail(&ctx->log_devices, &dev->dlist)` for devices at the given
addresses (391-404). -/
def devLoop : List Nat → Heap → Except CFault Heap
  | [], h => .ok h
  | d :: ds, h => do
    let h ← listAddTail h devsQ d
    devLoop ds h

/-- The lists of `ulogcat3_open` (448-451, 458-490, 513-524) for devices that could
all be opened: four heads, devices at `4 + n` and on, `n` frames; at first the
memory of the nodes is whatever it is. -/
def openHeap (n ndev : Nat) (junk : Nat → Nat) : Except CFault Heap := do
  let h : Heap := { nx := junk, pv := junk, live := fun a => decide (a < 4 + n + ndev) }
  let h ← listInit h devsQ
  let h ← listInit h freeQ
  let h ← listInit h renderQ
  let h ← listInit h pendingQ
  let h ← devLoop ((List.range ndev).map fun i => 4 + n + i) h
  poolLoop n 0 h

/-- The context of `ulogcat3_open` with its frames. -/
def openP (marks : List Nat) (tail : Int) (junk : Nat → Nat) : Except CFault PCtx := do
  let n := (tail + marks.length + 1).toNat
  let h ← openHeap n marks.length junk
  .ok { c := openCtx marks tail, h, n, mem := fun _ => ⟨0, 0, 0, false⟩, buf := fun _ => .own, bufs := 0, badFree := false }

/-- `free(dev)` at the end of `log_device_destroy` (418). -/
def freeDev (h : Heap) (d : Nat) : Except CFault Heap :=
  if h.live d then .ok { h with live := upd h.live d false } else .error .null

/-- The first loop of `ulogcat3_close` (538-543) with `log_device_destroy`
(406-420), which removes the device from the list a second time; the devices in
the order they are freed. -/
def closeDevs : Nat → Heap → List Nat → Except CFault (Heap × List Nat)
  | 0, h, fr => do
    let d ← h.next devsQ
    if d = devsQ then .ok (h, fr) else .error .hang
  | k + 1, h, fr => do
    let d ← h.next devsQ
    if d = devsQ then .ok (h, fr)
    else do
      let h ← listRemove h d
      let h ← listRemove h d
      let h ← freeDev h d
      closeDevs k h (fr ++ [d])

/-- The loops of `ulogcat3_close` over a queue of frames (547-558). -/
def closeQueue (q : Nat) : Nat → PCtx → Except CFault PCtx
  | 0, p => do
    let f ← p.h.next q
    if f = q then .ok p else .error .hang
  | k + 1, p => do
    let f ← p.h.next q
    if f = q then .ok p
    else do
      let p ← unlink p f
      let p ← freeFrame p f
      closeQueue q k p

/-- The lists of `ulogcat3_close` (532-558) and the devices it freed. -/
def pClose (p : PCtx) : Except CFault (PCtx × List Nat) := do
  let (h, fr) ← closeDevs p.c.devs.length p.h []
  let p ← closeQueue renderQ p.n { p with h }
  let p ← closeQueue pendingQ p.n p
  .ok (p, fr)

end Verif.Ulogcat.Queue
