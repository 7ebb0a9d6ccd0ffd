import Verif.Tools.Getopt
import Verif.Tools.CtlSrv

/-! # The arguments of the example ulogctl-srv (libulogctl/examples/ulogctl-srv.c) -/
namespace Verif.Tools.Getopt
open Verif Verif.Libulog Verif.Tools Verif.Tools.CtlSrv

/-- ulogctl-srv.c:115-121, 130-131 -/
def srvSyn : Syn :=
  { short := ascii "hi:u:p"
    longs := some [⟨ascii "help", false, 104⟩, ⟨ascii "inet", true, 105⟩, ⟨ascii "unix", true, 117⟩, ⟨ascii "process", false, 112⟩] }

/-- The cases of ulogctl-srv.c:137-156. -/
def toSrv : GEv → EOpt
  | .opt c a =>
    if c = 104 then .help
    else if c = 105 then .inet (atoi (a.getD []))
    else if c = 117 then .unix (a.getD [])
    else if c = 112 then .process
    else .bad
  | .wrong => .bad

/-- The options of the example; operands are not looked at. -/
def srvArgs (perm : Bool) (args : List Bytes) : List EOpt := (getopt perm srvSyn args).1.map toSrv

end Verif.Tools.Getopt
