import Verif.Ulogcat.Output
import Verif.Ulogcat.Driven
import Verif.Ulogcat.Klog

/-!
# From the frame buffer to what is rendered (libulogcat_ulog.c:72, libulogcat_text.c)

`ulog_parse_buf` leaves pointers into the frame buffer in `frame->entry`; rendering
reads the strings there. `ulog_parse_entry` does nothing (libulogcat_ulog.c:94-98);
`ulog_parse_kmsgd_entry` (100-104) takes the level and the time from the message.
-/
namespace Verif.Ulogcat
open Verif Verif.Libulog

/-- The C string at a pointer; `none` if it does not end inside the buffer. -/
def ptrStr (m : Bytes) : Ptr → Option Bytes
  | .lit s => some s
  | .buf p => strAt m p

/-- The memory at a pointer, to the end of the object. -/
def ptrMem (m : Bytes) : Ptr → Bytes
  | .lit s => s ++ [0]
  | .buf p => m.drop p

/-- `int32_t`. -/
def int32 (x : UInt32) : Int := if x.toNat < 2 ^ 31 then x.toNat else (x.toNat : Int) - 2 ^ 32

/-- Conversion of `unsigned long` to `long`. -/
def int64 (n : Nat) : Int :=
  if n % 18446744073709551616 < 9223372036854775808 then n % 18446744073709551616
  else (n % 18446744073709551616 : Nat) - 18446744073709551616

/-- The fields that `kmsgd_fix_entry` sets (libulogcat_klog.c:86-98). -/
def kernelInfo (k : KEntry) : Meta :=
  { sec := int64 k.sec, nsec := int64 k.nsec, priority := k.priority, pid := 0, pname := [], tid := 0, tname := [], tag := ascii "KERNEL"
    isBinary := false, color := 0 }

/-- `ulog_parse_kmsgd_entry` (libulogcat_ulog.c:100-104). It looks for the end of
numbers and rendering looks for the end of the message: `none` if there is no NUL. -/
def kernelOf (L : Look) (m : Bytes) (x : PEntry) : Option Shown := do
  let text ← ptrStr m x.message
  let k := kmsgdFix { text, len := x.len, priority := x.priority, sec := 0, nsec := 0 }
  return { look := L, info := kernelInfo k, msg := (ptrMem m x.message).drop (text.length - k.text.length), len := k.len.toNat }

/-- `frame->entry` as rendering finds it. -/
def shownOf (L : Look) (m : Bytes) (x : PEntry) : Option Shown := if L.kmsgd then kernelOf L m x else do
  let pname ← ptrStr m x.pname
  let tname ← ptrStr m x.tname
  let tag ← ptrStr m x.tag
  return { look := L
           info := { sec := int32 x.sec, nsec := int32 x.nsec, priority := x.priority, pid := int32 x.pid, pname
                     tid := int32 x.tid, tname, tag, isBinary := x.isBinary, color := x.color }
           msg := ptrMem m x.message, len := x.len }

/-- What a call of `ulog_receive_entry` left. -/
def RecvOut.shown (L : Look) (o : RecvOut) : Option Shown :=
  match o.frame, o.entry with
  | some f, some x => shownOf L f.mem x
  | _, _ => none

/-- The entry can be rendered: in CSV format it must fit (libulogcat_text.c:80-90). -/
def canRender (L : Look) (o : RecvOut) : Bool :=
  match o.shown L with
  | some x => L.fmt ≠ .csv || (csvPrefix x.info ((payloadOf x.info x.msg x.len).getD []).length ++
      ((payloadOf x.info x.msg x.len).getD []) ++ [10]).length ≤ 5248
  | none => false

/-- Something to show for calls that left nothing to render. -/
def blank (L : Look) : Shown :=
  { look := L
    info := { sec := 0, nsec := 0, priority := 0, pid := 0, pname := [], tid := 0, tname := [], tag := [], isBinary := false, color := 0 }
    msg := [0], len := 1 }

/-- The entries by the number of the call that received them. -/
def entriesBy (L : Look) (os : List RecvOut) (i : Nat) : Shown :=
  match os[i]? with
  | some o => if 0 < o.ret ∧ canRender L o then (o.shown L).getD (blank L) else blank L
  | none => blank L

end Verif.Ulogcat
