import Verif.Tools.Cat
import Verif.Tools.Ulogger
import Verif.Tools.ShdMain

/-!
# Reading the arguments of the commands

The commands read their arguments with `getopt` (ulogcat/ulogcat.c:107) or `getopt_long`
(ulogger/ulogger.c:218, shdlogd/src/shdlogd.c:241). These are functions of the C library, not of
/repo: what is here is what their manual says, with the strings and tables that the commands give
them.

Simplifications: arguments are byte strings without NUL; an option's argument is never optional
(no command has `::` in its string); a long option with a `flag` pointer (`--time` and `--stderr`
of ulogger) is given the letter of the short option that sets the same variable; what the library
prints on standard error is left out. `perm` tells the library that moves operands behind options
(GNU) from the one that stops at the first operand (`POSIXLY_CORRECT` set, or other libraries).
-/
namespace Verif.Tools.Getopt
open Verif Verif.Ulogcat Verif.Tools

/-- An entry of a table of long options. -/
structure Long where
  name : Bytes
  arg : Bool
  val : UInt8
  deriving DecidableEq, Repr

/-- What a command gives to the library: the string and the table (`getopt` has no table). -/
structure Syn where
  short : Bytes
  longs : Option (List Long)

/-- One result of the library; `wrong` is `?`. -/
inductive GEv
  | opt (c : UInt8) (arg : Option Bytes)
  | wrong
  deriving DecidableEq, Repr

/-- A letter in the string: none if it is not there, otherwise if it is followed by a colon. -/
def look : Bytes → UInt8 → Option Bool
  | [], _ => none
  | x :: xs, c => if c = 58 then none else if x = c then some (xs.head? == some 58) else look xs c

/-- The letters of one argument: the results, and the letter that waits for the next argument. -/
def cluster (short : Bytes) : Bytes → List GEv × Option UInt8
  | [] => ([], none)
  | c :: cs =>
    match look short c with
    | none => (.wrong :: (cluster short cs).1, (cluster short cs).2)
    | some false => (.opt c none :: (cluster short cs).1, (cluster short cs).2)
    | some true => if cs = [] then ([], some c) else ([.opt c (some cs)], none)

/-- The entry for a name: the one with that name, otherwise the one whose name begins so; several
count as one if they do the same. -/
def findLong (ls : List Long) (n : Bytes) : Option Long :=
  match ls.find? (fun l => l.name = n) with
  | some l => some l
  | none =>
    match ls.filter (fun l => n.isPrefixOf l.name) with
    | [] => none
    | l :: more => if more.all (fun x => x.arg = l.arg ∧ x.val = l.val) then some l else none

/-- An argument after `--`. -/
def longWord (ls : List Long) (b : Bytes) : List GEv × Option UInt8 :=
  match findLong ls (b.takeWhile (· ≠ 61)), b.dropWhile (· ≠ 61) with
  | none, _ => ([.wrong], none)
  | some l, [] => if l.arg then ([], some l.val) else ([.opt l.val none], none)
  | some l, _ :: v => if l.arg then ([.opt l.val (some v)], none) else ([.wrong], none)

/-- An argument after its first dash. -/
def word (S : Syn) (cs : Bytes) : List GEv × Option UInt8 :=
  match S.longs, cs with
  | some ls, 45 :: b => longWord ls b
  | _, _ => cluster S.short cs

/-- All the results, and the operands: the arguments from `optind` on. -/
def getopt (perm : Bool) (S : Syn) : List Bytes → List GEv × List Bytes
  | [] => ([], [])
  | a :: as =>
    match a with
    | 45 :: c :: cs =>
      if c = 45 ∧ cs = [] then ([], as)
      else
        match word S (c :: cs) with
        | (evs, none) => (evs ++ (getopt perm S as).1, (getopt perm S as).2)
        | (evs, some o) =>
          match as with
          | [] => (evs ++ [.wrong], [])
          | x :: as => (evs ++ .opt o (some x) :: (getopt perm S as).1, (getopt perm S as).2)
    | _ => if perm then ((getopt perm S as).1, a :: (getopt perm S as).2) else ([], a :: as)

/-! ## ulogcat -/

/-- ulogcat.c:107 -/
def catSyn : Syn := { short := ascii "b:Ccdhklt:uv:", longs := none }

/-- The cases of ulogcat.c:108-160. -/
def toCat : GEv → CatOpt
  | .opt c a =>
    if c = 99 then .clear
    else if c = 100 then .dump
    else if c = 67 then .color
    else if c = 107 then .klog
    else if c = 117 then .ulog
    else if c = 108 then .label
    else if c = 98 then .buffer (a.getD [])
    else if c = 116 then .tail (a.getD [])
    else if c = 104 then .help
    else if c = 118 then .format (a.getD [])
    else .bad
  | .wrong => .bad

/-- The options of ulogcat; `optind` is not used, so that operands are not looked at. -/
def catArgs (perm : Bool) (args : List Bytes) : List CatOpt := (getopt perm catSyn args).1.map toCat

/-! ## ulogger -/

/-- ulogger.c:182-191, 218 -/
def lgSyn : Syn :=
  { short := ascii "hi:mn:p:st:"
    longs := some [⟨ascii "help", false, 104⟩, ⟨ascii "pid", true, 105⟩, ⟨ascii "time", false, 109⟩, ⟨ascii "name", true, 110⟩,
      ⟨ascii "prio", true, 112⟩, ⟨ascii "stderr", false, 115⟩, ⟨ascii "tag", true, 116⟩] }

/-- The cases of ulogger.c:220-252. -/
def toLg : GEv → LgOpt
  | .opt c a =>
    if c = 105 then .pid (a.getD [])
    else if c = 109 then .time
    else if c = 110 then .name (a.getD [])
    else if c = 112 then .prio (a.getD [])
    else if c = 115 then .stderr
    else if c = 116 then .tag (a.getD [])
    else if c = 104 then .help
    else .bad
  | .wrong => .bad

/-- The options of ulogger and its messages (ulogger.c:255-256). -/
def logArgs (perm : Bool) (args : List Bytes) : List LgOpt × List Bytes :=
  ((getopt perm lgSyn args).1.map toLg, (getopt perm lgSyn args).2)

/-! ## shdlogd -/

/-- shdlogd.c:231-241 -/
def shdSyn : Syn :=
  { short := ascii "s:p:d:n:h"
    longs := some [⟨ascii "period", true, 112⟩, ⟨ascii "section", true, 115⟩, ⟨ascii "device", true, 100⟩,
      ⟨ascii "pname", true, 110⟩, ⟨ascii "help", false, 104⟩] }

/-- The cases of shdlogd.c:245-263. -/
def toShd : GEv → ShdMain.MOpt
  | .opt c a =>
    if c = 115 then .sect (a.getD [])
    else if c = 100 then .device (a.getD [])
    else if c = 110 then .pname (a.getD [])
    else if c = 112 then .period (a.getD [])
    else .other
  | .wrong => .other

/-- The options of shdlogd; operands are not looked at. -/
def shdArgs (perm : Bool) (args : List Bytes) : List ShdMain.MOpt := (getopt perm shdSyn args).1.map toShd

end Verif.Tools.Getopt
