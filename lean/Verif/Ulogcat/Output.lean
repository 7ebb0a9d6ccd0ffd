import Verif.Ulogcat.Core
import Verif.Ulogcat.Text

/-!
# The bytes a viewer writes (ulogcat/libulogcat_core.c:22-45, 93-149)

`World.onto` replaces the output of a world by rendering into the render buffer and
`output_rendered`; its state also holds that buffer and all bytes that have reached
the destination. What `fwrite` and `write` answer may depend on anything.
-/
namespace Verif.Ulogcat
open Verif

/-- What `write` answers, or how many bytes a stream takes. -/
inductive WrAns
  | took (n : Nat)
  | intr
  | fail
  deriving DecidableEq, Repr

/-- `output_fp`, else `output_fd` if not negative. -/
inductive Dest
  | file
  | fd
  | nowhere
  deriving DecidableEq, Repr

/-- libulogcat_core.c:29-45, for the bytes `line` of the render buffer: no error, and
the bytes that reached the destination. `fwrite` returns the number of complete
items, which is 0 for an empty one. A `write` interrupted for ever counts as an
error. -/
def outputRendered (d : Dest) (line : Bytes) (ans : List WrAns) : Bool × Bytes :=
  match d with
  | .file =>
    match ans with
    | .took n :: _ => (decide (line ≠ [] ∧ line.length ≤ n), line.take n)
    | _ => (false, [])
  | .fd =>
    match ans.dropWhile (· = .intr) with
    | .took n :: _ => (true, line.take n)
    | _ => (false, [])
  | .nowhere => (true, [])

/-- What `parse_entry` makes of an entry, with what rendering needs. -/
structure Shown where
  look : Look
  info : Meta
  msg : Bytes
  len : Nat

/-- `text_render_frame` for a banner (libulogcat_core.c:100-128) or an entry; `paths`
are the paths of the devices, `what` are the entries. -/
def renderEv (paths : Nat → Bytes) (what : Nat → Shown) (buf : Bytes) : OutEv → Option (Bytes × Option Nat)
  | .banner d _ => (printBanner (bannerText (paths d)) buf buf.length).map fun r => (r.1, some r.2)
  | .entry f => renderFrame (what f.id).look (what f.id).info (what f.id).msg (what f.id).len buf

structure Scr (σ : Type) where
  st : σ
  buf : Bytes
  bytes : Bytes

variable {σ : Type}

/-- The world with its output. A rendering that is undefined or fails counts as an
error of the output (the loop of `Core` does not output frames that cannot be
shown). -/
def World.onto (W : World σ) (d : Dest) (paths : Nat → Bytes) (what : Nat → Shown) (ans : Scr σ → OutEv → List WrAns) :
    World (Scr σ) where
  poll s a := ((W.poll s.st a).1, { s with st := (W.poll s.st a).2 })
  recv s i := ((W.recv s.st i).1, { s with st := (W.recv s.st i).2 })
  output s e :=
    match renderEv paths what s.buf e with
    | some (buf, some n) =>
      let r := outputRendered d (buf.take n) (ans s e)
      (r.1, { st := (W.output s.st e).2, buf, bytes := s.bytes ++ r.2 })
    | _ => (false, s)

end Verif.Ulogcat
