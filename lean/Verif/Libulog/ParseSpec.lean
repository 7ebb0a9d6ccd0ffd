import Verif.Libulog.Parse

/-!
# What decoding a payload means

The specification works on lists, without positions or sizes:
`<pname>\0[<tname>\0]<priority:4><tag>\0<message>`.
-/
namespace Verif.Libulog
open Verif

inductive Msg
  | text (s : Bytes)
  | bin (s : Bytes)
  deriving DecidableEq, Repr

structure Decoded where
  pname : Bytes
  tname : Bytes
  tag : Bytes
  level : Nat
  color : Nat
  msg : Msg
  deriving DecidableEq, Repr

/-- The bytes before the first NUL and those after it. -/
def token (bs : Bytes) : Option (Bytes × Bytes) :=
  if 0 ∈ bs then some (cstr bs, bs.drop ((cstr bs).length + 1)) else none

/-- The text of a string field that may lack its terminator: its last byte
gives way to one. -/
def clip (bs : Bytes) : Bytes := if 0 ∈ bs then cstr bs else bs.dropLast

/-- Anything that is not in the expected form: an Info message without names or
tag. -/
def unformatted (bs : Bytes) : Decoded :=
  { pname := [], tname := [], tag := [], level := 6, color := 0
    msg := .text (if cstr bs = [] then ascii "<<zero-length>>" else clip bs) }

/-- Priority word, tag and message. -/
def decodeBody (pname tname : Bytes) : Bytes → Decoded
  | b0 :: b1 :: b2 :: b3 :: r =>
    match token r with
    | none => unformatted (b0 :: b1 :: b2 :: b3 :: r)
    | some (tag, m) =>
      let d : Decoded :=
        { pname, tname, tag, level := b0.toNat % 8,
          color := b1.toNat + 256 * b2.toNat + 65536 * b3.toNat, msg := .text [] }
      if 128 ≤ b0.toNat then { d with msg := .bin m }
      else if m = [] then unformatted [] else { d with msg := .text (clip m) }
  | bs => unformatted bs

/-- `two`: the thread is not the main thread of its process, so its name
follows the process name. -/
def decode (two : Bool) (bs : Bytes) : Decoded :=
  match token bs with
  | none => unformatted bs
  | some (pname, r) =>
    if two then
      match token r with
      | none => unformatted r
      | some (tname, r) => decodeBody pname tname r
    else decodeBody pname pname r

/-- The string a pointer of the result designates in buffer `m`: a literal, or
a string that starts at `lo` or later and ends before `lim`. -/
def Ptr.str (m : Bytes) (lo lim : Nat) : Ptr → Option Bytes
  | .lit s => some s
  | .buf p => if lo ≤ p then strAt (m.take lim) p else none

/-- The result `e`, left in buffer `m`, stands for `d`: the three strings are
literals or lie, with their terminator, at `lo ≤ i < lim`; a text message too,
and its length counts its one terminator; a binary message is the `len` bytes
up to `lim`. -/
structure Shows (m : Bytes) (lo lim : Nat) (e : PEntry) (d : Decoded) : Prop where
  pname : e.pname.str m lo lim = some d.pname
  tname : e.tname.str m lo lim = some d.tname
  tag : e.tag.str m lo lim = some d.tag
  level : e.priority = d.level
  color : e.color = d.color
  msg : match d.msg with
    | .text s => e.isBinary = false ∧ e.message.str m lo lim = some s ∧ e.len = s.length + 1 ∧ NoNul s
    | .bin s => e.isBinary = true ∧ ∃ p, e.message = .buf p ∧ win m p e.len = s ∧ lo ≤ p ∧ p + e.len = lim

end Verif.Libulog
