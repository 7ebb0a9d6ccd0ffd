import Verif.Ulogcat.Text

/-!
# Redirection of GStreamer messages (libulog-redirect/ulog_gst.c)

`snprintf` does not fail and no text is longer than an `int` can tell. Strings of
GStreamer have no NUL inside.
-/
namespace Verif.Tools
open Verif Verif.Ulogcat

/-- What `prettify_object` distinguishes (ulog_gst.c:51-66); `ptr` is the text of `%p`. -/
inductive GstObject
  | null
  | pad (parent name : Bytes)
  | object (name : Bytes)
  | gobject (type ptr : Bytes)
  | other (ptr : Bytes)
  deriving DecidableEq, Repr

/-- ulog_gst.c:51-66 -/
def GstObject.text : GstObject → Bytes
  | .null => ascii "(NULL)"
  | .pad p n => ascii "<" ++ p ++ ascii ":" ++ n ++ ascii ">"
  | .object n => ascii "<" ++ n ++ ascii ">"
  | .gobject t p => ascii "<" ++ t ++ ascii "@" ++ p ++ ascii ">"
  | .other p => p

/-- `snprintf(buf + off, sizeof(buf) - off, ...)`: a pointer behind the end of the buffer
(and a size that wraps around) is undefined behaviour. -/
def printAt (m : Bytes) (off : Nat) (s : Bytes) : Option Bytes :=
  if m.length < off then none else snprint m off (m.length - off) s

/-- What `prettify_object` returns (ulog_gst.c:68-77) for a text of `len` bytes: the
`size_t` value `size - 1` becomes -1 if there is no room at all. -/
def prettyLen (len size : Nat) : Int := if len ≥ size then (size : Int) - 1 else len

/-- The basename of GNU (ulog_gst.c:130-132): what follows the last `/`. -/
def baseName (file : Bytes) : Bytes :=
  let b := (file.reverse.takeWhile (· != 47)).reverse
  if b = [] then ascii "unknown" else b

/-- The text made in the buffer (ulog_gst.c:134-148). -/
def gstText (buf : Bytes) (file : Bytes) (line : Int) (function : Bytes) (obj : GstObject) (msg : Bytes) : Option Bytes :=
  let loc := baseName file ++ ascii ":" ++ decInt line ++ ascii ":" ++ function
  (printAt buf 0 loc).bind fun m =>
  let off := loc.length
  (printAt m off obj.text).bind fun m =>
  let ret := prettyLen obj.text.length (buf.length - off)
  let off := if ret > 0 then off + ret.toNat else off
  (printAt m off (ascii ":" ++ msg)).bind fun m => strAt m 0

/-- ulog_gst.c:102-116; the levels of GStreamer are 0 (none), 1 (error), 2 (warning),
3 (fixme), 4 (info), 5 (debug), 6 (log), 7 (trace) and 9 (memdump). -/
def gstLevel (level : Nat) : Int :=
  if level = 1 then 3
  else if level = 2 then 4
  else if level = 3 then 4
  else if level = 4 then 6
  else if level = 5 then 7
  else if level = 6 then 7
  else if level ≥ 7 then 7
  else -1

inductive GstOut
  | nothing
  /-- `ulog_log_str` with a temporary tag of this name and level (ulog_gst.c:123-127, 150) -/
  | log (prio : Int) (tag : Bytes) (level : Int) (text : Bytes)
  deriving DecidableEq, Repr

/-- `gst_log_func` (ulog_gst.c:80-152); `none` is undefined behaviour. `buf` is what the
buffer of 2048 bytes holds at first. -/
def gstLog (buf : Bytes) (threshold level : Nat) (catname : Option Bytes) (master : Int) (file : Bytes) (line : Int) (function : Bytes)
    (obj : GstObject) (msg : Bytes) : Option GstOut :=
  if level > threshold then some .nothing
  else if gstLevel level ≠ -1 ∧ master ≥ 0 then
    (gstText buf file line function obj msg).bind fun t => some (.log (gstLevel level) (catname.getD (ascii "APP")) master t)
  else some .nothing

/-- What gets to the write function: `ulog_log_str` drops what is above the level of the
tag (libulog/ulog_write.c:447-455). -/
def GstOut.passed : GstOut → Option (Int × Bytes × Bytes)
  | .nothing => none
  | .log p t l x => if p ≤ l then some (p, t, x) else none

end Verif.Tools
