import Verif.Ulogcat.Open
import Verif.Ulogcat.Core
import Verif.Ulogcat.Klog

/-!
# The log viewer command (ulogcat/ulogcat.c) and clearing logs

Input: the options in the order in which `getopt` gives them, which of the calls of
`realloc` succeed, and the worlds of opening (`OWorld`), clearing (`ClearWorld`) and
reading (`World`). Undefined behaviour is a result of its own (`crash`).

Simplifications: the permutation of arguments by `getopt` is not modelled; of two
faults of the same call of `ulogcat3_open`, a failing allocation of the frames hides
an overflow of their number; `signal`, `fclose` and messages on standard error are
left out.
-/
namespace Verif.Tools
open Verif Verif.Ulogcat

/-- What `getopt` returned (ulogcat.c:107-161). -/
inductive CatOpt
  | clear
  | dump
  | color
  | klog
  | ulog
  | label
  | buffer (arg : Bytes)
  | tail (arg : Bytes)
  | help
  | format (arg : Bytes)
  | bad
  deriving DecidableEq, Repr

/-- `struct options` (ulogcat.c:34-39). In `devs`, `none` is the null pointer; an
entry `none` was never written. -/
structure Cat where
  fmt : Fmt := .aligned
  dump : Bool := false
  color : Bool := false
  klog : Bool := false
  ulog : Bool := false
  label : Bool := false
  tail : Int := 0
  clear : Bool := false
  devs : Option (List (Option Bytes)) := none
  n : Nat := 0
  deriving DecidableEq, Repr

/-- ulogcat.c:80-98 -/
def parseFormat (s : Bytes) : Option Fmt :=
  if s = ascii "short" then some .short
  else if s = ascii "aligned" then some .aligned
  else if s = ascii "process" then some .process
  else if s = ascii "long" then some .long
  else if s = ascii "csv" then some .csv
  else none

/-- `atoi` of glibc: the value of `strtol` cut to 32 bits. -/
def atoi (s : Bytes) : Int := (strtol s + 2147483648).emod 4294967296 - 2147483648

/-- ulogcat.c:131-138; `mem`: `realloc` succeeds. Memory from `realloc` of a null
pointer has no contents. -/
def addBuffer (mem : Bool) (arg : Bytes) (c : Cat) : Cat :=
  let c := { c with ulog := true }
  if mem then
    let old := match c.devs with
      | some l => l
      | none => List.replicate c.n none
    { c with devs := some (old ++ [some arg]), n := c.n + 1 }
  else { c with devs := none }

/-- The loop of ulogcat.c:107-161; the options, or the status of `exit`. `mem k`:
the `k`-th call of `realloc` succeeds. -/
def catLoopOpts (mem : Nat → Bool) : Nat → Cat → List CatOpt → Except Int Cat
  | _, c, [] => .ok c
  | k, c, o :: os =>
    match o with
    | .clear => catLoopOpts mem k { c with clear := true } os
    | .dump => catLoopOpts mem k { c with dump := true } os
    | .color => catLoopOpts mem k { c with color := true } os
    | .klog => catLoopOpts mem k { c with klog := true } os
    | .ulog => catLoopOpts mem k { c with ulog := true } os
    | .label => catLoopOpts mem k { c with label := true } os
    | .buffer a => catLoopOpts mem (k + 1) (addBuffer (mem k) a c) os
    | .tail a => catLoopOpts mem k { c with tail := atoi a } os
    | .help => .error 0
    | .format a =>
      match parseFormat a with
      | some f => catLoopOpts mem k { c with fmt := f } os
      | none => .error (-1)
    | .bad => .error (-1)

/-- ulogcat.c:100-167 -/
def catOptions (mem : Nat → Bool) (os : List CatOpt) : Except Int Cat := do
  let c ← catLoopOpts mem 0 {} os
  return if c.ulog || c.klog then c else { c with ulog := true }

/-- The names that `ulogcat3_open` finds in the array; `none` is undefined. -/
def Cat.names (c : Cat) : Option (List Bytes) :=
  if c.n = 0 then some [] else c.devs.bind fun l => (l.take c.n).mapM id

/-- What clearing does: `open` for writing, `ioctl(ULOGGER_FLUSH_LOG)` on the
descriptor, `klogctl(SYSLOG_ACTION_CLEAR)`. -/
structure ClearWorld where
  openW : List OEv → Bytes → Option Nat
  flush : List OEv → Nat → Int
  klog : List OEv → Int

/-- `ulog_clear_buffer` (libulogcat_ulog.c:106-125) and `klog_clear_buffer`
(libulogcat_klog.c:238-247), as set up by `add_ulog_device` and `add_klog_device`:
the result and all events. -/
def clearDev (w : ClearWorld) (d : ODev) (evs : List OEv) : Int × List OEv :=
  if d.path = ascii "/dev/kmsg" then (w.klog evs, evs)
  else
    match w.openW evs d.path with
    | none => (-1, evs ++ [.opened d.path none])
    | some fd =>
      let evs := evs ++ [.opened d.path (some fd)]
      (w.flush evs fd, evs ++ [.closed fd])

/-- `ulogcat3_clear` (libulogcat_core.c:575-591); `r` is `ret`. -/
def clearDevs (w : ClearWorld) : List ODev → Int → List OEv → Int × List OEv
  | [], r, evs => (r, evs)
  | d :: ds, _, evs =>
    if (clearDev w d evs).1 < 0 then clearDev w d evs
    else clearDevs w ds (clearDev w d evs).1 (clearDev w d evs).2

/-- `process_logs(ctx, 0, 0)` (ulogcat.c:169-188); at most `n` calls of at most
`fuel` turns. -/
def catLoop {σ : Type} (W : World σ) (dump : Bool) (fuel : Nat) : Nat → Ctx → σ → Except CFault (Ctx × σ × Option Int)
  | 0, c, s => .ok (c, s, none)
  | n + 1, c, s => do
    match ← processLogs W dump 0 fuel c s 0 with
    | (c, s, some r) => if r > 0 then catLoop W dump fuel n c s else .ok (c, s, some r)
    | (c, s, none) => .ok (c, s, none)

/-- How the command ends. -/
inductive CatEnd (σ : Type)
  /-- `exit` while reading the options -/
  | exit (status : Int)
  | crash
  /-- no context; result of `main` and all events -/
  | failed (ret : Int) (evs : List OEv)
  | cleared (ret : Int) (evs : List OEv)
  /-- the reading loop runs on the devices, or has ended with the result of `main`,
  and all events; the context and what is around it are those so far -/
  | running (devs : List ODev) (c : Ctx) (s : σ)
  | fault (f : CFault)
  | ended (ret : Int) (devs : List ODev) (c : Ctx) (s : σ) (evs : List OEv)

/-- ulogcat.c:190-221. -/
def catMain {σ : Type} (mem : Nat → Bool) (w : OWorld) (cw : ClearWorld) (W : World σ) (calls fuel : Nat) (s : σ)
    (os : List CatOpt) : CatEnd σ :=
  match catOptions mem os with
  | .error st => .exit st
  | .ok c =>
    match c.names with
    | none => .crash
    | some names =>
      match ulogOpen w c.ulog c.klog names [] with
      | .error evs => .failed (-1) evs
      | .ok o =>
        let nframes := c.tail + o.count + 1
        if nframes > 2147483647 then .crash
        else if nframes < 0 then .failed (-1) (ulogClose o)
        else if c.clear then
          let r := clearDevs cw o.devs 0 o.evs
          .cleared r.1 (ulogClose { o with evs := r.2 })
        else
          match catLoop W c.dump fuel calls (openCtx (o.devs.map fun d => d.mark.toNat) c.tail) s with
          | .error f => .fault f
          | .ok (x, s, none) => .running o.devs x s
          | .ok (x, s, some r) => .ended r o.devs x s (ulogClose o)

end Verif.Tools
