import Verif.Kernel.Reach

/-!
# Requests by number (kernel/ulogger-6.x.c:812-905, libulog/include/ulogger.h:74-82)

`ulogger_ioctl` as it is called: any number as request, any pointer as argument, the
result as the `long` it returns. What the seven requests do is `stepFile`. A pointer is
the four bytes there, or `none` if they cannot be read (`copy_from_user`).
-/
namespace Verif.Kernel
open Verif

/-- `_IO(__ULOGGERIO, n)` (ulogger.h:74-82; asm-generic/ioctl.h: no direction, no size) -/
def ioReq (n : Nat) : Nat := 0xAE * 256 + n

/-- `copy_from_user(&x, arg, sizeof(int))` (789, 802), little endian -/
def intAt (arg : Option Bytes) : Option Int := arg.map fun b => toInt32 (b.foldr (fun x n => x.toNat + 256 * n) 0)

/-- The cases of the switch (822-900); `cap`: see `Op.setRaw`. -/
def request (fid : Nat) (euid : UInt32) (cap : Bool) (arg : Option Bytes) (cmd : Nat) : Option Op :=
  if cmd = ioReq 21 then some (.getBufSize fid)
  else if cmd = ioReq 22 then some (.getLogLen fid)
  else if cmd = ioReq 23 then some (.getNextLen fid euid)
  else if cmd = ioReq 24 then some (.flush fid)
  else if cmd = ioReq 25 then some (.getVersion fid)
  else if cmd = ioReq 26 then some (.setVersion fid (intAt arg))
  else if cmd = ioReq 27 then some (.setRaw fid cap (intAt arg))
  else none

def errnoNum : Errno → Int
  | .eperm => 1
  | .ebadf => 9
  | .efault => 14
  | .einval => 22

/-- The `long` that is returned; requests give no other results. -/
def retval : Out → Int
  | .ret n => n
  | .err e => -errnoNum e
  | _ => 0

/-- `ulogger_ioctl` on file `fid`; a file that is not open is refused by the kernel. -/
def ioctl (s : Sys) (fid : Nat) (euid : UInt32) (cap : Bool) (cmd : Nat) (arg : Option Bytes) : Except Fault (Sys × Int) :=
  match s.files fid, request fid euid cap arg cmd with
  | none, _ => .ok (s, -9)
  /- 817: none of the cases -/
  | some _, none => .ok (s, -22)
  | some _, some op => (step s op).map fun x => (x.1, retval x.2)

end Verif.Kernel
