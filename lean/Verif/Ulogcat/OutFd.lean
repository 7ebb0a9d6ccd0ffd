import Verif.Ulogcat.Open

/-!
# The output of a context (ulogcat/libulogcat_core.c:439-448, 561-566)

What `ulogcat3_open` and `ulogcat3_close` do to the output of the caller, between the
events of `Open`. A stream is a number; that of `stdout` is 0.
-/
namespace Verif.Ulogcat
open Verif

/-- `opt_output_fd`, `opt_output_fp` -/
structure OutReq where
  fd : Int
  fp : Option Nat
  deriving DecidableEq, Repr

inductive FEv
  | ev (e : OEv)
  /-- `setlinebuf` of a stream -/
  | linebuf (fp : Nat)
  | close (fd : Nat)
  | fclose (fp : Nat)
  deriving DecidableEq, Repr

/-- `output_fd` and `output_fp` of the context (439-444) -/
def outOf3 (o : OutReq) : OutReq := if o.fd < 0 ∧ o.fp = none then { o with fp := some 0 } else o

/-- 446-448 -/
def outBegin (o : OutReq) : List FEv := ((outOf3 o).fp.map FEv.linebuf).toList

/-- 561-566 -/
def outEnd (o : OutReq) : List FEv :=
  (if (outOf3 o).fd ≥ 0 then [.close (outOf3 o).fd.toNat] else []) ++ ((outOf3 o).fp.map FEv.fclose).toList

def outEv (o : OutReq) : OEv → List FEv
  | .closeOut => outEnd o
  | e => [.ev e]

/-- All events of a context that is opened and closed. -/
def allEvs (w : OWorld) (ulog klog : Bool) (names : List Bytes) (evs : List OEv) : List OEv :=
  match ulogOpen w ulog klog names evs with
  | .ok s => ulogClose s
  | .error e => e

/-- A context that is opened, perhaps used, and closed: first the memory for it (432), then
the output, then the rest. -/
def useCtx (w : OWorld) (o : OutReq) (ulog klog : Bool) (names : List Bytes) (evs : List OEv) : List FEv :=
  if w.noMem (evs ++ [.alloc]) then [.ev .alloc]
  else .ev .alloc :: outBegin o ++ ((allEvs w ulog klog names evs).drop (evs.length + 1)).flatMap (outEv o)

/-- The options of `ulogcat` (ulogcat.c:105, 196): all 0, then the stream. -/
def mainOut : OutReq := { fd := 0, fp := some 0 }

/-- The options of the first version of the interface (libulogcat_compat.c:45-53). -/
def v1Out (fd : Int) : OutReq := { fd, fp := none }

end Verif.Ulogcat
