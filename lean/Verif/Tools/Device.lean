import Verif.Libulog.OpenDev

/-! # The log that the command ulogger opens (ulogger/ulogger.c) -/
namespace Verif.Tools
open Verif Verif.Libulog

/-- ulogger.c:33, 177, 192, 206-208: the path given to `ulog_raw_open`. -/
def cmdPath (getenv : Bytes → Option Bytes) : Bytes :=
  (ascii "/dev/ulog_" ++ (getenv (ascii "ULOG_DEVICE")).getD (ascii "main")).take 127

/-- ulogger.c:209: the descriptor, or a negative number, and what was opened. -/
def cmdOpen (e : OpenEnv) : Int × List OEv := rawOpen e (some (cmdPath e.getenv))

end Verif.Tools
