import Verif.Ulogcat.Text

/-!
# The colours of the viewer (ulogcat/libulogcat_text.c:30-53)

`ansi_color[8][32]` (libulogcat_private.h:121) is one object of 256 bytes; a store
outside it is the outcome `none`. The string that `strdup` returns belongs to
`setup_colors` and is cut up by `strsep`: it is a byte list without NUL, `none` is
the null pointer.
-/
namespace Verif.Ulogcat

/-- `DEFAULT_COLORS` (libulogcat_private.h:52). -/
def defaultColors : Bytes := ascii "||4;1;31|1;31|1;33|35||1;30"

/-- `strsep(&tmp, "|")`: the token and the new `tmp`. -/
def strsepBar : Option Bytes → Option Bytes × Option Bytes
  | none => (none, none)
  | some s =>
    let t := s.takeWhile (· != 124)
    (some t, match s.drop t.length with
      | [] => none
      | _ :: r => some r)

/-- The body of the loop of libulogcat_text.c:42-51 for number `i`. -/
def colorStep (m : Bytes) (i : Nat) : Option Bytes → Option Bytes
  | some (b :: s) => snprint m (32 * i) 32 ([27, 91] ++ (b :: s) ++ [109])
  | _ => wr m (32 * i) 0

/-- The loop of libulogcat_text.c:42-51, `n` rounds from number `i`. -/
def colorLoop : Nat → Nat → Option Bytes → Bytes → Option Bytes
  | 0, _, _, m => some m
  | n + 1, i, tmp, m => do
    let (seq, tmp) := strsepBar tmp
    let m ← colorStep m i seq
    colorLoop n (i + 1) tmp m

/-- `setup_colors` (30-53): `env` is the value of `ULOGCAT_COLORS`, `dup` tells
whether `strdup` succeeds. -/
def setupColors (env : Option Bytes) (dup : Bool) (m : Bytes) : Option Bytes :=
  colorLoop 8 0 (if dup then some (env.getD defaultColors) else none) m

/-- `ctx->ansi_color[i]` as the string argument of `snprintf`
(libulogcat_text.c:123-124 and 194-195): reads no further than the object. -/
def ansiAt (m : Bytes) (i : Nat) : Option Bytes := strAt m (32 * i)

end Verif.Ulogcat
