import Verif.Libulog.OpenDev

/-!
# ulogwrapper/ulogwrapper.c

The command that runs a program with the replacement of syslog. The environment is a
function; `setenv` finds memory. How the dynamic linker reads `LD_PRELOAD` is taken from
ld.so(8): names separated by spaces or colons.
-/
namespace Verif.Tools
open Verif Verif.Libulog

/-- ulogwrapper.c:28 -/
def wrapLib : Bytes := ascii "/usr/lib/libulog_syslogwrap.so"

/-- `strstr(l, w) != NULL`. -/
def hasSub (w : Bytes) : Bytes → Bool
  | [] => w.isPrefixOf []
  | b :: l => w.isPrefixOf (b :: l) || hasSub w l

abbrev Env := Bytes → Option Bytes

def Env.set (e : Env) (n v : Bytes) : Env := fun x => if x = n then some v else e x

/-- What becomes of the process: it ends with a status, or it is another program, called
with these arguments and this environment. -/
inductive WrapRes
  | ends (status : Int)
  | execs (path : Bytes) (args : List Bytes) (env : Env)

/-- ulogwrapper.c:47-65: the environment handed on. -/
def wrapEnv (openOk : Bytes → Bool) (env : Env) : Env :=
  if openOk (openPath env (ascii "ULOG_DEVICE") (ascii "/dev/ulog_main") none) then
    match env (ascii "LD_PRELOAD") with
    | some libs =>
      if hasSub wrapLib libs then env
      else (env.set (ascii "LD_PRELOAD") ((wrapLib ++ [32] ++ libs).take 4095)).set (ascii "ULOG_NOSYSLOG") (ascii "yes")
    | none => (env.set (ascii "LD_PRELOAD") wrapLib).set (ascii "ULOG_NOSYSLOG") (ascii "yes")
  else env

/-- ulogwrapper.c:30-72; `argv` is without the name of the command. `execOk`: the program
can be run. -/
def wrapMain (openOk execOk : Bytes → Bool) (env : Env) : List Bytes → WrapRes
  | [] => .ends 1
  | prog :: args => if execOk prog then .execs prog (prog :: args) (wrapEnv openOk env) else .ends (-1)

end Verif.Tools
