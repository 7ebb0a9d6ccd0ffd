import Verif.Libulog.Write

/-!
# The C++ streams (libulog/ulog.cpp)

The string of a thread is shared by all streams; only text that goes through `xsputn`
gets there. Single characters (`put`, `endl`) go to the buffer of the base class, which
is never read; when it is full, `overflow` of the base class fails and `std::ostream`
marks the stream as bad, after which it ignores insertions.

Taken from libstdc++: `operator<<` of strings, characters and numbers calls `sputn`;
`reserve(512)` of an empty string gives a capacity of 512, which `clear` keeps.
`sentry` tells whether `flush` ignores a bad stream as well (newer versions do).
Insertions are shorter than 2^31. Calls are made one after the other: the buffer of the
base class is shared by all threads without a lock, and races on it are not modelled.
Exit of a thread (which frees its string) is not modelled.
-/
namespace Verif.Tools
open Verif Verif.Libulog

inductive StOp
  /-- `xsputn` through stream `k` (ulog.cpp:100-122) -/
  | insert (k : Nat) (s : Bytes)
  /-- `sputc` through stream `k` -/
  | put (k : Nat) (b : UInt8)
  /-- `sync` through stream `k` (ulog.cpp:124-142) -/
  | flush (k : Nat)
  /-- `operator()` (ulog.cpp:64-69, 162-165) -/
  | setTag (c : Cid)
  deriving DecidableEq, Repr

structure Streams where
  /-- `mBufKey` of each thread -/
  buf : Nat → Option Bytes
  /-- `mTagKey` of each thread -/
  tag : Nat → Option Cid
  /-- used part of `mFakeBuf` of each stream -/
  fake : Nat → Nat
  bad : Nat → Bool

def Streams.start : Streams := { buf := fun _ => none, tag := fun _ => none, fake := fun _ => 0, bad := fun _ => false }

def upd {α : Type} (f : Nat → α) (i : Nat) (x : α) : Nat → α := fun j => if j = i then x else f j

/-- A call by thread `t`; what is logged is a call of `ulog_log_str` (`level`: of the
streams). -/
def stStep (level : Nat → UInt32) (sentry : Bool) (s : Streams) (t : Nat) : StOp → Streams × List WOp
  | .insert k x =>
    if s.bad k then (s, [])
    else
      match s.buf t with
      | none => ({ s with buf := upd s.buf t (some (x.take 512)) }, [])
      | some y => ({ s with buf := upd s.buf t (some (y ++ x.take (512 - y.length))) }, [])
  | .put k _ =>
    if s.bad k then (s, [])
    else if s.fake k < 512 then ({ s with fake := upd s.fake k (s.fake k + 1) }, [])
    else ({ s with bad := upd s.bad k true }, [])
  | .flush k =>
    if sentry ∧ s.bad k then (s, [])
    else
      let s' := { s with fake := upd s.fake k 0 }
      match s.buf t with
      | none => (s', [])
      | some y =>
        if y = [] then (s', [])
        else ({ s' with buf := upd s.buf t (some []) }, [.str (level k) ((s.tag t).getD 0) (cstr y)])
  | .setTag c => ({ s with tag := upd s.tag t (some c) }, [])

def stRun (level : Nat → UInt32) (sentry : Bool) : Streams → List (Nat × StOp) → Streams × List WOp
  | s, [] => (s, [])
  | s, (t, op) :: l =>
    let (s, o) := stStep level sentry s t op
    let (s, o') := stRun level sentry s l
    (s, o ++ o')

/-- Output to `std::cerr`: a text or number, or a single character (`put`, `endl`). -/
inductive CerrOp
  | text (s : Bytes)
  | char (b : UInt8)

/-- `ulog_stdcerr_redirect` (libulog-redirect/ulog_stdcerr.cpp:24-27) gives `std::cerr`
the buffer of stream `k` (ulog.cpp:179-182). `std::cerr` has `unitbuf` set, so that every
output operation ends with `sync`; `rdbuf` clears the state of the stream. -/
def cerrOps (k : Nat) : Nat × CerrOp → List (Nat × StOp)
  | (t, .text x) => [(t, .insert k x), (t, .flush k)]
  | (t, .char b) => [(t, .put k b), (t, .flush k)]

end Verif.Tools
