import Verif.Libulog.Raw

/-!
# libulog/ulog_write.c, one call at a time

The Linux, non-Android configuration. Tags (`struct ulog_cookie`) are numbered,
tag 0 is `__ulog_default_cookie`. What the library does to its environment is a
list of events. Calling a NULL function pointer, reading past a buffer and
endless recursion are distinct outcomes.

Not modelled here: other threads (see `Conc`), `errno`, the return value of
`writev`, the `userdata` of tags, an environment in a locale where bytes above
127 are letters.
-/
namespace Verif.Libulog
open Verif

abbrev Cid := Nat

/-- `ulog_write_func_t` values: the functions of the library and foreign ones. -/
inductive Wf
  | init
  | null
  | kernel
  | wrap (color : Bool)
  | custom (n : Nat)
  deriving DecidableEq, Repr

/-- What the process sees of its environment during one call. -/
structure World where
  getenv : Bytes → Option Bytes
  /-- `open` and `fstat` of a path: a descriptor of a character device, or not
  (libulog/ulog_write.c:187-194) -/
  openDev : Bytes → Option Nat
  /-- `strdup` finds memory -/
  strdupOk : Bool

/-- libulog/ulog_write.c:51-70. -/
structure Lib where
  fd : Option Nat
  writer : Wf
  writer2 : Option Wf
  hook : Option Nat
  /-- `cookie_list` followed along `next` -/
  list : List Cid
  device : Option Bytes
  replay : Option (Nat × Nat)
  /-- the `level` field of every tag -/
  level : Cid → Int

/-- libulog/ulog_write.c:39-45, 60-70, libulog/include/ulog.h:429-430. -/
def Lib.start : Lib :=
  { fd := none, writer := .init, writer2 := none, hook := none, list := [], device := none, replay := none
    level := fun _ => -1 }

inductive Ev
  /-- `writev` on a descriptor (`none`: -1) -/
  | writev (fd : Option Nat) (vec : List Bytes)
  /-- call of a foreign write function -/
  | custom (n : Nat) (prio : UInt32) (c : Cid) (data : Bytes)
  | stderr (text : Bytes)
  | hook (h : Nat) (c : Cid)
  | opened (fd : Nat)
  | closed (fd : Nat)
  deriving DecidableEq, Repr

inductive WFault
  | nullCall
  | oob
  | recursion
  deriving DecidableEq, Repr

/-- libulog/ulog_write.c:137-146 and 156-158. -/
def prioTab (color : Bool) (level : Nat) : Bytes :=
  if color then
    match level with
    | 2 => 27 :: ascii "[7;31mC" ++ 27 :: ascii "[0m"
    | 3 => 27 :: ascii "[1;31mE" ++ 27 :: ascii "[0m"
    | 4 => 27 :: ascii "[1;33mW" ++ 27 :: ascii "[0m"
    | 5 => 27 :: ascii "[1;32mN" ++ 27 :: ascii "[0m"
    | 6 => 27 :: ascii "[1;35mI" ++ 27 :: ascii "[0m"
    | 7 => 27 :: ascii "[1;36mD" ++ 27 :: ascii "[0m"
    | _ => ascii " "
  else
    match level with
    | 2 => ascii "C"
    | 3 => ascii "E"
    | 4 => ascii "W"
    | 5 => ascii "N"
    | 6 => ascii "I"
    | 7 => ascii "D"
    | _ => ascii " "

/-- `%03lu`. -/
def dec3 (n : Nat) : Bytes := List.replicate (3 - (decNat n).length) 48 ++ decNat n

/-- The line printed by `__writer_stderr` (libulog/ulog_write.c:120-129).
`data` must hold a NUL since it is printed with `%s`. -/
def stderrLine (replay : Option (Nat × Nat)) (color : Bool) (prio : UInt32) (tag data : Bytes) : Except WFault Bytes :=
  if 0 ∈ data then
    .ok ((match replay with
      | some (sec, nsec) => decNat sec ++ ascii "." ++ dec3 (nsec / 1000000) ++ ascii " "
      | none => []) ++
      prioTab color (prio.toNat % 8) ++ ascii " " ++ tag ++ ascii ": " ++ cstr data ++
      (if 2 ≤ data.length ∧ data[data.length - 2]? = some 10 then [] else [10]))
  else .error .oob

/-- `snprintf(devbuf, 32, ...)` (libulog/ulog_write.c:179-185). -/
def devPath (name : Bytes) : Bytes := (ascii "/dev/ulog_" ++ name).take 31

/-- The device opened (libulog/ulog_write.c:175-186). -/
def devChoice (w : World) (s : Lib) : Bytes :=
  match s.device, w.getenv (ascii "ULOG_DEVICE") with
  | some d, _ => devPath d
  | none, some p => devPath p
  | none, none => ascii "/dev/ulog_main"

/-- libulog/ulog_write.c:167-212. -/
def ctrlInit (w : World) (s : Lib) : Lib × List Ev :=
  let fd := w.openDev (devChoice w s)
  let base := if fd.isSome then Wf.kernel else Wf.null
  let evs := fd.toList.map Ev.opened
  if (w.getenv (ascii "ULOG_STDERR")).isSome ∨ base = .null then
    ({ s with fd, writer2 := some base, writer := .wrap (w.getenv (ascii "ULOG_STDERR_COLOR")).isSome }, evs)
  else ({ s with fd, writer := base }, evs)

/-- Call of the write function `f`. `fuel` bounds the depth of the calls.
`null`: 73-78; `kernel`: 82-102; `wrap`: 112-162; `init`: 214-226. -/
def callWriter (nm : Cid → Bytes) (w : World) (prio : UInt32) (c : Cid) (data : Bytes) :
    Nat → Wf → Lib → Except WFault (Lib × List Ev)
  | 0, _, _ => .error .recursion
  | _ + 1, .null, s => .ok (s, [])
  | _ + 1, .custom n, s => .ok (s, [.custom n prio c data])
  | _ + 1, .kernel, s => .ok (s, [.writev s.fd (writerKernel prio (nm c) data)])
  | fuel + 1, .init, s => do
    let (s, e1) := if s.writer = .init then ctrlInit w s else (s, [])
    let (s, e2) ← callWriter nm w prio c data fuel s.writer s
    .ok (s, e1 ++ e2)
  | fuel + 1, .wrap color, s =>
    match s.writer2 with
    | none => .error .nullCall
    | some g => do
      let (s, e1) ← callWriter nm w prio c data fuel g s
      if prio.toNat.testBit 7 then .ok (s, e1)
      else do
        let l ← stderrLine s.replay color prio (nm c) data
        .ok (s, e1 ++ [.stderr l])

/-- `ctrl.writer(prio, cookie, buf, len)`. The library nests at most three
calls (init, wrapper, base writer). -/
def deliver (nm : Cid → Bytes) (w : World) (s : Lib) (prio : UInt32) (c : Cid) (data : Bytes) :
    Except WFault (Lib × List Ev) := callWriter nm w prio c data 4 s.writer s

/-- libulog/ulog_write.c:342-363 in the C locale. -/
def parseLevel (b : UInt8) : Nat :=
  let level :=
    if 48 ≤ b.toNat ∧ b.toNat ≤ 57 then b.toNat - 48
    else if b = 67 then 2
    else if b = 68 then 7
    else if b = 69 then 3
    else if b = 73 then 6
    else if b = 78 then 5
    else if b = 87 then 4
    else 0
  if level > 7 then 7 else level

/-- First byte of a C string, NUL included. -/
def firstByte (l : Bytes) : UInt8 := l.headD 0

/-- The level computed by `ulog_init_cookie` (libulog/ulog_write.c:375-398). -/
def firstLevel (nm : Cid → Bytes) (w : World) (s : Lib) (c : Cid) : Int :=
  let l1 : Int :=
    if nm c ≠ [] then
      match w.getenv ((ascii "ULOG_LEVEL_" ++ nm c).take 79) with
      | some p => parseLevel (firstByte p)
      | none => -1
    else -1
  let l2 : Int :=
    if l1 < 0 then
      match w.getenv (ascii "ULOG_LEVEL") with
      | some p => parseLevel (firstByte p)
      | none => l1
    else l1
  let l3 : Int := if l2 < 0 ∧ s.level 0 ≥ 0 then s.level 0 else l2
  if l3 < 0 then 6 else l3

/-- The call of the registration hook (libulog/ulog_write.c:407, 415-417). -/
def hookEv (s : Lib) (c : Cid) : List Ev := s.hook.toList.map fun h => .hook h c

/-- libulog/ulog_write.c:365-420. -/
def initCookie (nm : Cid → Bytes) (w : World) (s : Lib) (c : Cid) : Lib × List Ev :=
  let level := firstLevel nm w s c
  if s.level c < 0 then
    ({ s with list := c :: s.list, level := fun d => if d = c then level else s.level d }, hookEv s c)
  else (s, [])

/-- libulog/ulog_write.c:467-472, `ulog_init`. -/
def ensureInit (nm : Cid → Bytes) (w : World) (s : Lib) (c : Cid) : Lib × List Ev :=
  if s.level c < 0 then initCookie nm w s c else (s, [])

/-- libulog/ulog_write.c:477-480. -/
def clampLevel (l : Int) : Int :=
  let l := if l < 0 then 0 else l
  if l > 7 then 7 else l

/-- libulog/ulog_write.c:474-486. -/
def setLevel (nm : Cid → Bytes) (w : World) (s : Lib) (c : Cid) (l : Int) : Lib × List Ev :=
  let (s, e) := ensureInit nm w s c
  ({ s with level := fun d => if d = c then clampLevel l else s.level d }, e)

/-- What `vsnprintf` and lines 430-435 of libulog/ulog_write.c hand over:
`none` for a formatting error, the buffer content otherwise. -/
def formatted (text : Option Bytes) : Option Bytes :=
  match text with
  | none => none
  | some t => some (t.take 255 ++ [0])

inductive WOp
  | init (c : Cid)
  /-- `ulog_log`/`ulog_vlog` (libulog/include/ulog.h:486-508), `text` is the
  complete formatted text -/
  | log (prio : UInt32) (c : Cid) (text : Option Bytes)
  /-- `ulog_log_str`, 447-455 -/
  | str (prio : UInt32) (c : Cid) (text : Bytes)
  /-- `ulog_log_buf`, 457-465 -/
  | buf (prio : UInt32) (c : Cid) (data : Bytes)
  | setLevel (c : Cid) (l : Int)
  /-- 488-492 -/
  | getLevel (c : Cid)
  /-- 494-515 -/
  | setTagLevel (name : Bytes) (l : Int)
  /-- 517-530 -/
  | getNames (max : Int)
  /-- 283-307, the tags the callback is called for -/
  | foreach
  /-- 228-252 -/
  | setWriter (f : Option Wf)
  /-- 254-270 -/
  | getWriter
  /-- 272-281 -/
  | setHook (h : Option Nat)
  /-- 309-339 -/
  | setDevice (name : Option Bytes)
  /-- 105-109 -/
  | replay (sec nsec : Nat)

inductive WRes
  | unit
  | int (i : Int)
  /-- a write function or NULL -/
  | wf (f : Option Wf)
  | names (l : List Bytes)
  | tags (l : List Cid)
  deriving DecidableEq, Repr

/-- A filtered message: initialise the tag, then pass `data` to the writer
unless the level forbids it (or there is no data). -/
def logOn (nm : Cid → Bytes) (w : World) (s : Lib) (prio : UInt32) (c : Cid) (data : Option Bytes) :
    Except WFault (Lib × WRes × List Ev) := do
  let (s, e1) := ensureInit nm w s c
  if ((prio.toNat % 8 : Nat) : Int) ≤ s.level c then
    match data with
    | none => .ok (s, .unit, e1)
    | some d => do
      let (s, e2) ← deliver nm w s prio c d
      .ok (s, .unit, e1 ++ e2)
  else .ok (s, .unit, e1)

def wstep (nm : Cid → Bytes) (w : World) (s : Lib) : WOp → Except WFault (Lib × WRes × List Ev)
  | .init c => let (s, e) := ensureInit nm w s c; .ok (s, .unit, e)
  | .log prio c text => logOn nm w s prio c (formatted text)
  | .str prio c text => logOn nm w s prio c (some (text ++ [0]))
  | .buf prio c data => logOn nm w s prio c (some data)
  | .setLevel c l => let (s, e) := setLevel nm w s c l; .ok (s, .unit, e)
  | .getLevel c => let (s, e) := ensureInit nm w s c; .ok (s, .int (s.level c), e)
  | .setTagLevel name l =>
    match s.list.find? fun c => nm c == name with
    | some c => let (s, e) := setLevel nm w s c l; .ok (s, .int 0, e)
    | none => .ok (s, .int (-1), [])
  | .getNames max => .ok (s, .names ((s.list.take max.toNat).map nm), [])
  | .foreach => .ok (s, .tags (s.list.filter (· != 0)), [])
  | .setWriter none => .ok (s, .int (-22), [])
  | .setWriter (some f) =>
    if (w.getenv (ascii "ULOG_STDERR")).isSome then
      .ok ({ s with writer2 := some f, writer := .wrap (w.getenv (ascii "ULOG_STDERR_COLOR")).isSome }, .int 0, [])
    else .ok ({ s with writer := f }, .int 0, [])
  | .getWriter =>
    let (s, e) := if s.writer = .init then ctrlInit w s else (s, [])
    if (w.getenv (ascii "ULOG_STDERR")).isSome then
      .ok (s, .wf s.writer2, e)
    else .ok (s, .wf (some s.writer), e)
  | .setHook none => .ok (s, .int (-22), [])
  | .setHook (some h) => .ok ({ s with hook := some h }, .int 0, [])
  | .setDevice none => .ok (s, .int (-22), [])
  | .setDevice (some name) =>
    if name.length ≥ 21 then .ok (s, .int (-7), [])
    else if w.strdupOk = false then .ok ({ s with device := none }, .int (-12), [])
    else
      let s := { s with device := some name }
      if s.writer = .init then .ok (s, .int 0, [])
      else
        match s.fd with
        | some (n + 1) => .ok ({ s with fd := none, writer := .init }, .int 0, [.closed (n + 1)])
        | _ => .ok ({ s with writer := .init }, .int 0, [])
  | .replay sec nsec => .ok ({ s with replay := some (sec, nsec) }, .unit, [])

/-- A sequence of calls, each with what the environment is during it. -/
def wrun (nm : Cid → Bytes) : Lib → List (World × WOp) → Except WFault (Lib × List (WRes × List Ev))
  | s, [] => .ok (s, [])
  | s, (w, op) :: l => do
    let (s, r, e) ← wstep nm w s op
    let (s, tr) ← wrun nm s l
    .ok (s, (r, e) :: tr)

end Verif.Libulog
