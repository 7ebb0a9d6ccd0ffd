import Verif.Tools.Getopt
import Verif.Tools.CtlTool

/-!
# Reading the arguments of ulogctl

libulogctl/tool/ulogctl.c:286-366. `-t` takes a tag, which `getopt_long` finds, and a level, which
the program takes itself from `argv[optind]` (ulogctl.c:323-328). `optind` is then the first word
that `getopt_long` has not looked at, also when it has moved operands: it moves them behind all
words before `optind`, and so behind the level.

Simplifications: as in `Verif.Tools.Getopt`. The program ends when the level is missing or begins
with a dash; what is read after that does not matter.
-/
namespace Verif.Tools.Getopt
open Verif Verif.Ulogcat Verif.Tools

/-- ulogctl.c:286-294, 303 -/
def ctlSyn : Syn :=
  { short := ascii "hlCt:a:p:"
    longs := some [⟨ascii "help", false, 104⟩, ⟨ascii "list", false, 108⟩, ⟨ascii "color", false, 67⟩, ⟨ascii "tag", true, 116⟩,
      ⟨ascii "all", true, 97⟩, ⟨ascii "process", true, 112⟩] }

/-- The cases of ulogctl.c:310-365 but for that of `-t`. -/
def toCtl : GEv → TOpt
  | .opt c a =>
    if c = 104 then .help
    else if c = 108 then .list
    else if c = 67 then .color
    else if c = 97 then .all (a.getD [])
    else if c = 112 then .proc (a.getD [])
    else .bad
  | .wrong => .bad

/-- The tag, if the last result is `-t`. -/
def lastTag (evs : List GEv) : Option Bytes :=
  match evs.getLast? with
  | some (.opt c (some v)) => if c = 116 then some v else none
  | _ => none

/-- The loop of ulogctl.c:302-366: the options with the levels, and the arguments from `optind` on. -/
def ctlArgs (perm : Bool) : List Bytes → List TOpt × List Bytes
  | [] => ([], [])
  | a :: as =>
    match a with
    | 45 :: c :: cs =>
      if c = 45 ∧ cs = [] then ([], as)
      else
        match word ctlSyn (c :: cs) with
        | (evs, none) =>
          match lastTag evs with
          | none => (evs.map toCtl ++ (ctlArgs perm as).1, (ctlArgs perm as).2)
          | some v =>
            match as with
            | [] => (evs.dropLast.map toCtl ++ [.tag v none], [])
            | y :: as => (evs.dropLast.map toCtl ++ .tag v (some y) :: (ctlArgs perm as).1, (ctlArgs perm as).2)
        | (evs, some o) =>
          match as with
          | [] => (evs.map toCtl ++ [.bad], [])
          | x :: as =>
            if o = 116 then
              match as with
              | [] => (evs.map toCtl ++ [.tag x none], [])
              | y :: as => (evs.map toCtl ++ .tag x (some y) :: (ctlArgs perm as).1, (ctlArgs perm as).2)
            else (evs.map toCtl ++ toCtl (.opt o (some x)) :: (ctlArgs perm as).1, (ctlArgs perm as).2)
    | _ => if perm then ((ctlArgs perm as).1, a :: (ctlArgs perm as).2) else ([], a :: as)

end Verif.Tools.Getopt
