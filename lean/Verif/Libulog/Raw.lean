import Verif.Kernel.Model

/-!
# What libulog passes to writev()

Writers produce a vector of readable user buffers. The retry on EINTR
(libulog/ulog_write.c:99-101 and the like) is not modelled: the driver's write
method never returns EINTR.
-/
namespace Verif.Libulog
open Verif Verif.Kernel

/-- A vector of readable buffers as the driver sees it. -/
def userVec (v : List Bytes) : Iter := .iovec (v.map fun b => b.map some)

/-- libulog/ulog_write.c:82-102. `tag` is the cookie's name without its NUL
(`namesize` counts it, libulog/include/ulog.h:429-430), `data` the `len` bytes
of `buf`. -/
def writerKernel (prio : UInt32) (tag data : Bytes) : List Bytes := [le32 prio, tag ++ [0], data]

/-- libulog/ulog_write_bin.c:110-143 without a custom write function. `tag` is
the `tagsize` bytes given, which must include a NUL. The priority is
`ULOG_INFO | 1 << 7` = 134. -/
def binWritev (tag : Bytes) (iov : List Bytes) : List Bytes := le32 134 :: tag :: iov

/-- libulog/include/ulograw.h:41-61: the caller's header and strings; the string
fields are the bytes of the given lengths. -/
structure RawEntry where
  pid : UInt32
  tid : UInt32
  sec : UInt32
  nsec : UInt32
  euid : UInt32
  prio : UInt32
  pname : Bytes
  tname : Bytes
  tag : Bytes
  /-- NULL or the message bytes -/
  message : Option Bytes
  deriving DecidableEq, Repr

/-- libulog/ulog_write_raw.c:107-166: EINVAL (`none`) or the vector written. -/
def rawLogv (fd : Int) (raw : Option RawEntry) (iov : List Bytes) : Option (List Bytes) :=
  match raw with
  | none => none
  | some r =>
    if fd < 0 ∨ r.message.isSome then none
    else if r.pid = 0xffffffff ∧ r.tid = 0xffffffff then none
    else some ([le32 r.pid ++ le32 r.tid ++ le32 r.sec ++ le32 r.nsec ++ le32 r.euid, r.pname] ++
      (if r.pid ≠ r.tid then [r.tname] else []) ++ [le32 r.prio, r.tag] ++ iov)

/-- libulog/ulog_write_raw.c:86-105. A NULL message with length 0 is the empty
buffer. -/
def rawLog (fd : Int) (raw : Option RawEntry) : Option (List Bytes) :=
  match raw with
  | none => none
  | some r => rawLogv fd (some { r with message := none }) [r.message.getD []]

end Verif.Libulog
