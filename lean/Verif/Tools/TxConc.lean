import Verif.Tools.Tx

/-!
# Threads of ThreadX that log to shared memory at the same time (threadx/src/ulog_ctrl.c)

`Tx` takes a call of `ulog_shd_put` in two pieces. Here every access to what the threads
share is a step of its own, and the threads are preempted anywhere: the test of
`ctrl.shd_enabled` (54), the load and the store of `index++` (108), the clearing of the flag
(111), the write (113) and the setting of the flag (115). Nothing is locked.

`shd_write_new_blob` may itself print, as the comment of 110 expects; then `ulog_shd_put` is
called again by the same thread, which is why a thread has a stack of calls.

Simplifications: the record is not looked at here (`Tx.txPack`); a record gets into memory
in one step; what the compiler may make of accesses to variables that are neither atomic nor
volatile is not modelled, only their interleaving. A call is known by its number in the order
in which calls are made.
-/
namespace Verif.Tools.TxConc

/-- Where a call is; `c` is the call. -/
inductive Pc
  /-- before 54 -/
  | test (c : Nat)
  /-- the flag was set; before the load of `index` (108) -/
  | load (c : Nat)
  /-- `v` was loaded; before the store of `v + 1` (108) -/
  | store (c v : Nat)
  /-- before 111; the number of the record is `n` -/
  | clear (c n : Nat)
  /-- in `shd_write_new_blob` (113) -/
  | write (c n : Nat)
  /-- the record is in memory; before 115 -/
  | set (c : Nat)
  deriving DecidableEq, Repr

structure State where
  /-- `ctrl.shd_enabled` -/
  enabled : Bool
  /-- `index`, an `unsigned short` -/
  index : Nat
  /-- the records in memory: call and number -/
  stored : List (Nat × Nat)
  /-- the calls that returned at 55 -/
  dropped : List Nat
  /-- the number of calls so far -/
  calls : Nat
  /-- the calls of each thread, the innermost first -/
  stack : Nat → List Pc

/-- After `ulog_amba_shd_init` (121-145). -/
def start : State := { enabled := true, index := 1, stored := [], dropped := [], calls := 0, stack := fun _ => [] }

inductive Op
  /-- thread `t` calls `ulog_shd_put` -/
  | call (t : Nat)
  /-- thread `t` goes on -/
  | go (t : Nat)
  deriving DecidableEq, Repr

def State.at (s : State) (t : Nat) (k : List Pc) : State := { s with stack := fun u => if u = t then k else s.stack u }

/-- One step, `none` if it cannot be made: a thread calls from outside or while it is in
`shd_write_new_blob`, and goes on if it is in a call. -/
def step (s : State) : Op → Option State
  | .call t =>
    match s.stack t with
    | [] => some ({ s with calls := s.calls + 1 }.at t [.test s.calls])
    | .write c n :: k => some ({ s with calls := s.calls + 1 }.at t (.test s.calls :: .write c n :: k))
    | _ => none
  | .go t =>
    match s.stack t with
    | [] => none
    | .test c :: k => some (if s.enabled then s.at t (.load c :: k) else { s with dropped := s.dropped ++ [c] }.at t k)
    | .load c :: k => some (s.at t (.store c s.index :: k))
    | .store c v :: k => some ({ s with index := (v + 1) % 65536 }.at t (.clear c v :: k))
    | .clear c n :: k => some ({ s with enabled := false }.at t (.write c n :: k))
    | .write c n :: k => some ({ s with stored := s.stored ++ [(c, n)] }.at t (.set c :: k))
    | .set _ :: k => some ({ s with enabled := true }.at t k)

def run : State → List Op → Option State
  | s, [] => some s
  | s, o :: os => (step s o).bind fun s' => run s' os

end Verif.Tools.TxConc
