/-!
# Threads that log to shared memory (ulog_shd/src/ulog.c)

Any number of threads call `ulog_shd_init` and, through the library, `ulog_shd_write`;
libshdata may log while it writes a sample, in the same thread. Each access to `ctrl`, to
the mutex and to the section is one step; the mutex is recursive (139). What a record is
made of is in `Shd` (C42); here a message is a number.

`pthread_mutex_lock` of a mutex that was never initialised, and `shd_write` without a
section, are undefined behaviour (`bad`). A mutex that is initialised again is free.

The function given to `ulog_set_write_func` is called for each message from that moment
on; what comes before goes elsewhere. (With `ULOG_STDERR` a copy goes to stderr, which
changes nothing here.)

`Call.late`, `Call.inner` and the trace are not part of the program; nothing depends on
them.
-/
namespace Verif.Tools.ShdConc

abbrev Tid := Nat

/-- A call of `ulog_shd_write`: whether `ulog_shd_init` had returned 0 when it began, and
whether it comes from within `shd_write` of the same thread. -/
structure Call where
  msg : Nat
  late : Bool
  inner : Bool
  deriving DecidableEq, Repr

/-- Where a function is. -/
inductive Frame
  /-- `ulog_shd_write` before line 51 -/
  | lock (c : Call)
  /-- before the test at 54 -/
  | check (c : Call)
  /-- building the record, up to `ctrl.index++` (59-103) -/
  | num (c : Call)
  /-- before 109 -/
  | clear (c : Call) (i : Nat)
  /-- in `shd_write` (111) -/
  | wr (c : Call) (i : Nat)
  /-- before 113 -/
  | set (c : Call)
  /-- before 55 or 115 -/
  | unlock (c : Call) (stored : Bool)
  /-- `ulog_shd_init` at `shd_create2` (129) -/
  | create
  /-- at 136, 142 and 148 -/
  | attr
  | typ
  | mutex
  /-- at 154 -/
  | hook
  /-- at 155 -/
  | enable
  deriving DecidableEq, Repr

inductive Ev
  | begin (t : Tid) (c : Call)
  /-- the sample is in the section, with number `i` -/
  | write (t : Tid) (c : Call) (i : Nat)
  | done (t : Tid) (c : Call) (stored : Bool)
  /-- the library had another writer -/
  | elsewhere (t : Tid) (m : Nat)
  | initBegin (t : Tid)
  | initEnd (t : Tid) (res : Int)
  deriving DecidableEq, Repr

/-- `ctrl` (30-39), the writer of the library, the section, the threads. -/
structure State where
  /-- sections made -/
  made : Nat
  mutex : Bool
  lock : Option (Tid × Nat)
  enabled : Bool
  index : Nat
  hooked : Bool
  sect : List (Tid × Call × Nat)
  stack : Tid → List Frame
  tr : List Ev
  bad : Bool

def State.start : State :=
  { made := 0, mutex := false, lock := none, enabled := false, index := 1, hooked := false, sect := [], stack := fun _ => [], tr := [], bad := false }

inductive Act
  /-- the thread logs -/
  | log (m : Nat)
  /-- the thread calls `ulog_shd_init` -/
  | init
  /-- the thread goes on; `res`: what the function it calls answers, 0 if all is well -/
  | go (res : Nat)
  deriving DecidableEq, Repr

def State.at (s : State) (t : Tid) (st : List Frame) : State := { s with stack := fun u => if u = t then st else s.stack u }
def State.ev (s : State) (e : Ev) : State := { s with tr := s.tr ++ [e] }

/-- Whether `ulog_shd_init` has returned 0. -/
def ready (tr : List Ev) : Bool := tr.any fun e => match e with | .initEnd _ r => decide (r = 0) | _ => false

/-- One step of a thread; `none` if it cannot take that step. -/
def step (s : State) (t : Tid) : Act → Option State
  | .log m =>
    match s.stack t with
    | [] =>
      if s.hooked then
        let c : Call := { msg := m, late := ready s.tr, inner := false }
        some ((s.at t [.lock c]).ev (.begin t c))
      else some (s.ev (.elsewhere t m))
    | .wr c i :: st =>
      if s.hooked then
        let c' : Call := { msg := m, late := ready s.tr, inner := true }
        some ((s.at t (.lock c' :: .wr c i :: st)).ev (.begin t c'))
      else some (s.ev (.elsewhere t m))
    | _ => none
  | .init =>
    match s.stack t with
    | [] => some ((s.at t [.create]).ev (.initBegin t))
    | _ => none
  | .go res =>
    match s.stack t with
    | [] => none
    | .lock c :: st =>
      if s.mutex = false then some { s with bad := true }
      else match s.lock with
        | none => some ({ s with lock := some (t, 1) }.at t (.check c :: st))
        | some (u, n) => if u = t then some ({ s with lock := some (t, n + 1) }.at t (.check c :: st)) else none
    | .check c :: st => if s.enabled then some (s.at t (.num c :: st)) else some (s.at t (.unlock c false :: st))
    | .num c :: st => some ({ s with index := (s.index + 1) % 65536 }.at t (.clear c s.index :: st))
    | .clear c i :: st => some ({ s with enabled := false }.at t (.wr c i :: st))
    | .wr c i :: st =>
      if s.made = 0 then some { s with bad := true }
      else some (({ s with sect := s.sect ++ [(t, c, i)] }.at t (.set c :: st)).ev (.write t c i))
    | .set c :: st => some ({ s with enabled := true }.at t (.unlock c true :: st))
    | .unlock c b :: st =>
      match s.lock with
      | some (u, n) =>
        if u = t then some (({ s with lock := if n ≤ 1 then none else some (t, n - 1) }.at t st).ev (.done t c b))
        else some { s with bad := true }
      | none => some { s with bad := true }
    | .create :: st =>
      if res = 0 then some ({ s with made := s.made + 1 }.at t (.attr :: st)) else some ((s.at t st).ev (.initEnd t (-res)))
    | .attr :: st => if res = 0 then some (s.at t (.typ :: st)) else some ((s.at t st).ev (.initEnd t (-res)))
    | .typ :: st => if res = 0 then some (s.at t (.mutex :: st)) else some ((s.at t st).ev (.initEnd t (-res)))
    | .mutex :: st =>
      if res = 0 then some ({ s with mutex := true, lock := none }.at t (.hook :: st)) else some ((s.at t st).ev (.initEnd t (-res)))
    | .hook :: st => some ({ s with hooked := true }.at t (.enable :: st))
    | .enable :: st => some (({ s with enabled := true }.at t st).ev (.initEnd t 0))

/-- Any interleaving. -/
inductive Steps : State → Prop
  | start : Steps .start
  | next {s s' : State} (t : Tid) (a : Act) : Steps s → step s t a = some s' → Steps s'

end Verif.Tools.ShdConc
