import Verif.Tools.Shdlogd
import Verif.Tools.Cat

/-!
# The program shdlogd (shdlogd/src/shdlogd.c)

Options, the resources obtained in turn, the readings before and after the first success, and the
end. A reading is `readSamples` of `Shdlogd`; what libpomp, libshdata, the allocator and signals do is
an arbitrary input. `none` is undefined behaviour.

Simplifications: options are what `getopt_long` returns; `free` and the destructors do not fail; a
call of `pomp_loop_wait_and_process` makes at most one call of the timer's function.
-/
namespace Verif.Tools.ShdMain
open Verif Verif.Ulogcat Verif.Libulog Verif.Tools Verif.Tools.Shdd

/-! ## Options -/

/-- What `getopt_long` gives; `other` is `-h` or anything unknown. -/
inductive MOpt
  | period (a : Bytes)
  | sect (a : Bytes)
  | device (a : Bytes)
  | pname (a : Bytes)
  | other
  deriving DecidableEq, Repr

/-- The options in `ctx` (shdlogd.c:38-42, 60-77). -/
structure Conf where
  period : Nat := 50
  sect : Bytes := ascii "ulog"
  device : Option Bytes := none
  pname : Bytes := ascii "rtos"
  deriving DecidableEq, Repr

/-- `parse_opts` (shdlogd.c:226-266): the options, and how often `usage` was called. The period is
unsigned with 32 bits. -/
def parseOpts : Conf → List MOpt → Conf × Nat
  | c, [] => (c, 0)
  | c, .period a :: l => parseOpts { c with period := (atoi a).emod 4294967296 |>.toNat } l
  | c, .sect a :: l => parseOpts { c with sect := a } l
  | c, .device a :: l => parseOpts { c with device := some a } l
  | c, .pname a :: l => parseOpts { c with pname := a } l
  | c, .other :: l => ((parseOpts c l).1, (parseOpts c l).2 + 1)

/-! ## Resources -/

inductive Res
  | loop
  | timer
  | raw (fd : Nat)
  | sect (c : Nat)
  | blobs
  | stamps
  deriving DecidableEq, Repr

inductive MEv
  | usage
  | starting (period : Nat)
  /-- a message that something failed -/
  | failed
  | got (r : Res)
  | freed (r : Res)
  /-- `pomp_timer_set_periodic(timer, 1, period)` -/
  | timerSet (period : Nat)
  | rawOpen (dev : Option Bytes)
  | shdOpen (name : Bytes)
  /-- `shd_select_samples` on a context or the null pointer, and what follows of `read_samples` -/
  | select (c : Option Nat)
  /-- `shd_close` of the null pointer -/
  | closedNull
  | dmn (e : DEv)
  | slept
  deriving DecidableEq, Repr

/-- What the libraries answer. -/
structure Sys where
  loop : Bool
  timer : Bool
  timerSet : Int
  raw : Int
  shd : List MEv → Option Nat
  mem1 : Bool
  mem2 : Bool
  blobs : List Blob
  stamps : List Nat

/-- A turn of the loop of shdlogd.c:331-336: a signal before the check at line 333, or after it. -/
structure First where
  a : Answers
  sig : Bool
  sig2 : Bool

/-- A turn of the loop of shdlogd.c:341-348: whether the timer is due, the result, a signal. -/
structure Later where
  a : Option Answers
  ret : Int
  sig : Bool

structure MSt where
  d : Shdlogd
  ctx : Option Nat
  evs : List MEv
  sig : Bool

def opened (c : Option Nat) : List MEv :=
  match c with
  | some c => [.got (.sect c)]
  | none => []

def closed (c : Option Nat) : MEv :=
  match c with
  | some c => .freed (.sect c)
  | none => .closedNull

/-- `read_samples` with its use of the context (shdlogd.c:144-153). -/
def readOne (cf : Conf) (w : Sys) (fd : Int) (a : Answers) (s : MSt) : Option (MSt × Option Nat) :=
  match readSamples fd a s.d with
  | none => none
  | some (d, es, r) =>
    let evs := s.evs ++ .select s.ctx :: es.map .dmn
    if a.sel = .fail 19 then
      let evs := evs ++ [closed s.ctx, .shdOpen cf.sect]
      some ({ s with d, ctx := w.shd evs, evs := evs ++ opened (w.shd evs) }, r)
    else some ({ s with d, evs }, r)

inductive Phase
  /-- not ended yet -/
  | running (s : MSt)
  /-- at `finish`, and whether `ret` is 0 -/
  | ended (s : MSt) (ok : Bool)

/-- shdlogd.c:341-348; `ok`: `ret` is 0. -/
def phase2 (cf : Conf) (w : Sys) (fd : Int) : List Later → MSt → Bool → Option Phase
  | [], s, ok => if s.sig || s.d.stop then some (.ended s ok) else some (.running s)
  | l :: ls, s, ok =>
    if s.sig || s.d.stop then some (.ended s ok)
    else
      match (match l.a with | some a => (readOne cf w fd a s).map Prod.fst | none => some s) with
      | none => none
      | some s =>
        phase2 cf w fd ls { s with sig := l.sig, evs := s.evs ++ if l.ret < 0 then [.failed] else [] } (decide (l.ret = 0))

/-- shdlogd.c:330-339, and then `phase2`. -/
def phase1 (cf : Conf) (w : Sys) (fd : Int) (ls : List Later) : List First → MSt → Option Phase
  | [], s => some (.running s)
  | f :: fs, s =>
    match readOne cf w fd f.a s with
    | none => none
    | some (s, r) =>
      if s.sig || f.sig || s.d.stop then some (.ended s r.isNone)
      else
        let s := { s with sig := f.sig2, evs := s.evs ++ [.slept] }
        match r with
        | some _ => phase1 cf w fd ls fs s
        | none => phase2 cf w fd ls { s with d := { s.d with search := .firstAfter } } true

/-- What `finish` looks at. -/
structure Have where
  stamps : Bool := false
  blobs : Bool := false
  ctx : Option Nat := none
  raw : Option Nat := none
  timer : Bool := false
  loop : Bool := false

/-- shdlogd.c:350-362. -/
def finish (h : Have) (evs : List MEv) : List MEv :=
  evs ++ (if h.stamps then [.freed .stamps] else []) ++ (if h.blobs then [.freed .blobs] else []) ++
    (match h.ctx with | some c => [.freed (.sect c)] | none => []) ++
    (match h.raw with | some fd => [.freed (.raw fd)] | none => []) ++
    (if h.timer then [.freed .timer] else []) ++ (if h.loop then [.freed .loop] else [])

/-- All events, the status if the program has ended, and the state of the readings. -/
structure Out where
  evs : List MEv
  status : Option Nat
  d : Option Shdlogd := none

/-- `main` (shdlogd.c:269-364). -/
def main (w : Sys) (os : List MOpt) (fs : List First) (ls : List Later) : Option Out :=
  let (cf, n) := parseOpts {} os
  if n ≠ 0 then some { evs := List.replicate n .usage, status := some 0 }
  else
    let evs : List MEv := [.starting cf.period]
    if !w.loop then some { evs := finish {} (evs ++ [.failed]), status := some 1 }
    else
      let evs := evs ++ [.got .loop]
      if !w.timer then some { evs := finish { loop := true } (evs ++ [.failed]), status := some 1 }
      else
        let evs := evs ++ [.got .timer, .timerSet cf.period]
        if w.timerSet < 0 then some { evs := finish { loop := true, timer := true } (evs ++ [.failed]), status := some 1 }
        else
          let evs := evs ++ [.rawOpen cf.device]
          if w.raw < 0 then some { evs := finish { loop := true, timer := true } (evs ++ [.failed]), status := some 1 }
          else
            let fd := w.raw.toNat
            let evs := evs ++ [.got (.raw fd), .shdOpen cf.sect]
            match w.shd evs with
            | none => some { evs := finish { loop := true, timer := true, raw := some fd } (evs ++ [.failed]), status := some 1 }
            | some c =>
              let evs := evs ++ [.got (.sect c)]
              if !w.mem1 then
                some { evs := finish { loop := true, timer := true, raw := some fd, ctx := some c } (evs ++ [.failed]), status := some 1 }
              else
                let evs := evs ++ [.got .blobs]
                if !w.mem2 then
                  some { evs := finish { loop := true, timer := true, raw := some fd, ctx := some c, blobs := true } (evs ++ [.failed])
                         status := some 1 }
                else
                  let evs := evs ++ [.got .stamps]
                  let s : MSt := { d := Shdlogd.start cf.pname w.blobs w.stamps, ctx := some c, evs, sig := false }
                  match phase1 cf w fd ls fs s with
                  | none => none
                  | some (.running s) => some { evs := s.evs, status := none, d := some s.d }
                  | some (.ended s ok) =>
                    some { evs := finish { loop := true, timer := true, raw := some fd, ctx := s.ctx, blobs := true, stamps := true } s.evs
                           status := some (if ok then 0 else 1), d := some s.d }

end Verif.Tools.ShdMain
