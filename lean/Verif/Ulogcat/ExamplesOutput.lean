import Verif.Ulogcat.PropsOutput
import Verif.Ulogcat.ExamplesText
import Verif.Tools.ExamplesCat

/-!
# Concrete outputs of a viewer
-/
namespace Verif.Ulogcat.Examples.Output
open Verif Verif.Ulogcat Verif.Ulogcat.Examples Verif.Tools Verif.Tools.Examples.Cat

/-- Entries with the message "m1", "m2" and so on. -/
def entries (f : Fmt) (id : Nat) : Shown :=
  { look := looks f, info := seen, msg := [109, UInt8.ofNat (48 + id % 10), 0], len := 3 }

theorem message (id : Nat) : NoNul [109, UInt8.ofNat (48 + id % 10)] := by
  have : (UInt8.ofNat (48 + id % 10)).toNat = 48 + id % 10 := by rw [UInt8.toNat_ofNat']; omega
  intro b hb
  simp only [List.mem_cons, List.not_mem_nil, or_false] at hb
  rcases hb with rfl | rfl
  · decide
  · intro h; rw [h] at this; simp at this; omega

theorem short_ok (id : Nat) : CanShow (entries .short id) :=
  ⟨fun _ => ⟨rfl, (by decide : seen.priority < 8), _, [], message id, rfl⟩, fun h => by cases h⟩

theorem payload (id : Nat) : csvPayload (entries .csv id).info (entries .csv id).msg (entries .csv id).len =
    [109, UInt8.ofNat (48 + id % 10)] := by
  show cstr ([109, UInt8.ofNat (48 + id % 10)] ++ 0 :: []) = _
  rw [cstr_of_noNul (message id)]

theorem prefix_short : (csvPrefix seen 2).length ≤ 100 := by decide +kernel

theorem csv_ok (id : Nat) : CanShow (entries .csv id) := by
  refine ⟨fun h => (h rfl).elim, fun _ => ⟨by show 0 ∈ [109, UInt8.ofNat (48 + id % 10), 0]; simp, ?_⟩⟩
  rw [payload]
  have := prefix_short
  show (csvPrefix seen 2 ++ [109, UInt8.ofNat (48 + id % 10)] ++ [10]).length ≤ 5248
  simp only [List.length_append, List.length_cons, List.length_nil]
  omega

def names : Nat → Bytes := fun d => if d = 0 then ascii "/dev/ulog_b" else ascii "/dev/ulog_c"

def screen : Bytes := List.replicate 5248 170

/-- A stream that takes everything, one that is full after a byte, a descriptor that
takes half a line after an interruption. -/
def good : Scr Logs → OutEv → List WrAns := fun _ e => [.took (textOf names (entries .short) e).length]
def full : Scr Logs → OutEv → List WrAns := fun s _ => if s.bytes = [] then [.took 5248] else [.took 1]
def half : Scr Logs → OutEv → List WrAns := fun _ _ => [.intr, .intr, .took 10]

example : ∀ s e, ∃ n, good s e = [.took n] ∧ (textOf names (entries .short) e).length ≤ n := fun _ _ => ⟨_, rfl, Nat.le_refl _⟩
example : screen.length = 5248 := by decide +kernel
example : ∀ s e n, WrAns.took n ∈ good s e → (textOf names (entries .short) e).length ≤ n := by
  intro s e n h
  simp only [good, List.mem_singleton, WrAns.took.injEq] at h
  omega

/-- The bytes after a dump of two logs. -/
def after (d : Dest) (ans : Scr Logs → OutEv → List WrAns) : Option (Option Int × Bytes) :=
  match processLogs (quiet.onto d names (entries .short) ans) true 0 20 (openCtx [40, 40] 0) ⟨catLogs, screen, []⟩ 0 with
  | .ok (_, t, r) => some (r, t.bytes)
  | .error _ => none

def b0 : Bytes := List.replicate 39 45 ++ bannerText (ascii "/dev/ulog_b") ++ [10]
def b1 : Bytes := List.replicate 39 45 ++ bannerText (ascii "/dev/ulog_c") ++ [10]
def line (s : String) : Bytes := lineText (looks .short) seen (ascii s)

/-- C96, C97: all is written. -/
theorem all_written : after .file good = some (some 0, b0 ++ line "m1" ++ b1 ++ line "m3" ++ line "m2") := by decide +kernel

/-- C96_file: a stream that fails. -/
theorem cut_short : after .file full = some (some (-1), b0 ++ (line "m1").take 1) := by decide +kernel

/-- C96_fd_pieces: a descriptor that takes ten bytes of each. -/
theorem ten_each : after .fd half =
    some (some 0, b0.take 10 ++ (line "m1").take 10 ++ b1.take 10 ++ (line "m3").take 10 ++ (line "m2").take 10) := by decide +kernel

/-- C96_nowhere. -/
theorem to_nowhere : after .nowhere (fun _ _ => []) = some (some 0, []) := by decide +kernel

/-- C97_csv: one log, read back. -/
example : csvReadAll 3 ((annotate false [] [⟨0, 10, 1, true⟩, ⟨0, 20, 2, true⟩]).flatMap (textOf names (entries .csv))) =
    some [rowOf seen (ascii "m1"), rowOf seen (ascii "m2")] := by decide +kernel
example : ∀ id, (entries .csv id).look.fmt = .csv ∧ (∀ b ∈ (entries .csv id).info.tag, b ≠ 44) := by
  intro id
  exact ⟨rfl, by show ∀ b ∈ seen.tag, b ≠ 44; decide⟩
/-- C97_false_csv: two logs. -/
example : csvReadAll 9 ((annotate true [] [⟨0, 10, 1, true⟩, ⟨1, 20, 2, true⟩]).flatMap (textOf names (entries .csv))) ≠
    some [rowOf seen (ascii "m1"), rowOf seen (ascii "m2")] := by decide +kernel

end Verif.Ulogcat.Examples.Output
