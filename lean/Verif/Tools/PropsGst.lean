import Verif.Tools.Gst
import Verif.Tools.PropsShd

/-!
# GStreamer messages (C48, C72)
-/
namespace Verif.Tools
open Verif Verif.Ulogcat

/-- The place of a message as it is printed. -/
def gstPlace (file : Bytes) (line : Int) (function : Bytes) : Bytes :=
  baseName file ++ ascii ":" ++ decInt line ++ ascii ":" ++ function

/-- The buffer begins with the string `a` and its NUL. -/
def Holds (m a : Bytes) : Prop := ∃ r, m = a ++ 0 :: r

theorem Holds.str {m a : Bytes} (h : Holds m a) (hn : NoNul a) : strAt m 0 = some a := by
  obtain ⟨r, rfl⟩ := h
  exact strAt_eq (r := r) (by simp) hn

theorem printAt_first {m s : Bytes} (hm : m.length = 2048) :
    ∃ m', printAt m 0 s = some m' ∧ m'.length = 2048 ∧ Holds m' (s.take 2047) := by
  have hl : (s.take 2047 ++ [0]).length ≤ 2048 := by simp [List.length_take]; omega
  unfold printAt snprint
  rw [if_neg (by omega), if_neg (by omega), poke_some (by rw [hm]; simp [List.length_take]; omega)]
  refine ⟨_, rfl, ?_, ?_⟩
  · exact (poke_length (poke_some (by rw [hm]; simp [List.length_take]; omega))).trans hm
  · rw [hm]; exact ⟨m.drop (0 + (s.take (2048 - 0 - 1) ++ [0]).length), by simp⟩

/-- How an object is shown: `(NULL)`, `<parent:pad>`, `<name>`, `<type@address>`, address. -/
def objBytes : GstObject → Bytes
  | .null => [40, 78, 85, 76, 76, 41]
  | .pad p n => [60] ++ p ++ [58] ++ n ++ [62]
  | .object n => [60] ++ n ++ [62]
  | .gobject t p => [60] ++ t ++ [64] ++ p ++ [62]
  | .other p => p

theorem obj_text (o : GstObject) : o.text = objBytes o := by
  have h1 : ascii "<" = [60] := by decide
  have h2 : ascii ">" = [62] := by decide
  have h3 : ascii ":" = [58] := by decide
  have h4 : ascii "@" = [64] := by decide
  have h5 : ascii "(NULL)" = [40, 78, 85, 76, 76, 41] := by decide
  cases o <;> simp only [GstObject.text, objBytes, h1, h2, h3, h4, h5]

/-- A text put behind the one that is there. -/
theorem printAt_more {m a s : Bytes} (hm : m.length = 2048) (ha : Holds m a) (hl : a.length ≤ 2047) :
    ∃ m', printAt m a.length s = some m' ∧ m'.length = 2048 ∧ Holds m' ((a ++ s).take 2047) := by
  obtain ⟨r, hr⟩ := ha
  have hp : a.length + (s.take (2048 - a.length - 1) ++ [0]).length ≤ m.length := by
    rw [hm, List.length_append, List.length_take]; simp; omega
  unfold printAt snprint
  rw [if_neg (by omega), hm, if_neg (by omega), poke_some hp]
  refine ⟨_, rfl, (poke_length (poke_some hp)).trans hm, ?_⟩
  have htake : m.take a.length = a := by rw [hr]; simp
  rw [htake, List.take_append, List.take_of_length_le hl, show 2048 - a.length - 1 = 2047 - a.length by omega]
  exact ⟨m.drop (a.length + (s.take (2047 - a.length) ++ [0]).length), by simp⟩

theorem printAt_full {m s : Bytes} (hm : m.length = 2048) : printAt m 2048 s = some m := by
  unfold printAt snprint
  rw [if_neg (by omega), hm]; rfl

theorem noNul_append {a b : Bytes} (ha : NoNul a) (hb : NoNul b) : NoNul (a ++ b) := by
  intro x hx
  rcases List.mem_append.mp hx with h | h
  · exact ha x h
  · exact hb x h

theorem noNul_take {a : Bytes} (ha : NoNul a) (n : Nat) : NoNul (a.take n) := fun x hx => ha x (List.mem_of_mem_take hx)

/-- **C48:** the forwarded text is place, object, `:` and message, cut to 2047 bytes, and
no access is outside the buffer, if the place takes at most 2048 bytes. -/
theorem C48_text {buf file function msg : Bytes} {line : Int} {obj : GstObject} (hb : buf.length = 2048)
    (h : (gstPlace file line function).length ≤ 2048) (h1 : NoNul (gstPlace file line function)) (h2 : NoNul (objBytes obj)) (h3 : NoNul msg) :
    gstText buf file line function obj msg = some ((gstPlace file line function ++ objBytes obj ++ ascii ":" ++ msg).take 2047) := by
  unfold gstText
  dsimp only
  rw [show baseName file ++ ascii ":" ++ decInt line ++ ascii ":" ++ function = gstPlace file line function from rfl, obj_text]
  generalize gstPlace file line function = loc at *
  generalize objBytes obj = ob at *
  have hcolon : NoNul (ascii ":") := by decide
  obtain ⟨m1, e1, l1, s1⟩ := printAt_first (s := loc) hb
  rw [e1]
  dsimp only [Option.bind_some]
  rcases Nat.lt_or_ge loc.length 2048 with hlt | hge
  · rw [List.take_of_length_le (by omega)] at s1
    obtain ⟨m2, e2, l2, s2⟩ := printAt_more (s := ob) l1 s1 (by omega)
    rw [e2]
    dsimp only [Option.bind_some]
    have hoff : (if prettyLen ob.length (buf.length - loc.length) > 0 then loc.length + (prettyLen ob.length (buf.length - loc.length)).toNat else loc.length) =
        ((loc ++ ob).take 2047).length := by
      rw [hb, List.length_take, List.length_append]
      unfold prettyLen
      split <;> split <;> omega
    rw [hoff]
    obtain ⟨m3, e3, l3, s3⟩ := printAt_more (s := ascii ":" ++ msg) l2 s2 (by rw [List.length_take]; omega)
    rw [e3]
    dsimp only [Option.bind_some]
    have hx : (((loc ++ ob).take 2047) ++ (ascii ":" ++ msg)).take 2047 = (loc ++ ob ++ ascii ":" ++ msg).take 2047 := by
      rw [List.append_assoc (loc ++ ob), List.take_append, List.take_append (l₁ := loc ++ ob), List.take_take]
      rw [show min 2047 2047 = 2047 from rfl]
      congr 1
      rw [List.length_take]
      rcases Nat.lt_or_ge (loc ++ ob).length 2047 with hh | hh
      · rw [Nat.min_eq_right (by omega)]
      · rw [Nat.min_eq_left hh, show 2047 - (loc ++ ob).length = 0 by omega]
    rw [hx] at s3
    exact s3.str (noNul_take (noNul_append (noNul_append (noNul_append h1 h2) hcolon) h3) _)
  · have he : loc.length = 2048 := by omega
    rw [he, printAt_full l1]
    dsimp only [Option.bind_some]
    rw [hb]
    have : ¬ prettyLen ob.length (2048 - 2048) > 0 := by unfold prettyLen; rw [if_pos (by omega)]; omega
    rw [if_neg this, printAt_full l1]
    dsimp only [Option.bind_some]
    rw [s1.str (noNul_take h1 _), List.append_assoc, List.append_assoc, List.take_append, show 2047 - loc.length = 0 by omega]
    simp

/-- C48 is false of the code when the place takes more: the next text is put behind the
end of the buffer. -/
theorem C48_false {buf file function msg : Bytes} {line : Int} {obj : GstObject} (hb : buf.length = 2048)
    (h : 2048 < (gstPlace file line function).length) : gstText buf file line function obj msg = none := by
  unfold gstText
  dsimp only
  rw [show baseName file ++ ascii ":" ++ decInt line ++ ascii ":" ++ function = gstPlace file line function from rfl]
  obtain ⟨m1, e1, l1, s1⟩ := printAt_first (s := gstPlace file line function) hb
  rw [e1]
  dsimp only [Option.bind_some]
  have : printAt m1 (gstPlace file line function).length obj.text = none := by unfold printAt; rw [if_pos (by omega)]
  rw [this]; rfl

/-- **C72:** a message gets to the write function exactly if GStreamer has it within the
threshold of its category and its level, converted, is at most that of the tag
`ulog_gst`; the tag is the name of the category. -/
theorem C72_filter {buf file function msg : Bytes} {line : Int} {obj : GstObject} {threshold level : Nat} {cat : Option Bytes} {master : Int}
    (hb : buf.length = 2048) (h : (gstPlace file line function).length ≤ 2048) (h1 : NoNul (gstPlace file line function))
    (h2 : NoNul (objBytes obj)) (h3 : NoNul msg) :
    ∃ o, gstLog buf threshold level cat master file line function obj msg = some o ∧
      o.passed = if 1 ≤ level ∧ level ≤ threshold ∧ gstLevel level ≤ master then
        some (gstLevel level, cat.getD (ascii "APP"), (gstPlace file line function ++ objBytes obj ++ ascii ":" ++ msg).take 2047) else none := by
  have hg : gstLevel level = -1 ∧ level = 0 ∨ 3 ≤ gstLevel level ∧ 1 ≤ level := by
    unfold gstLevel; repeat' split
    all_goals omega
  unfold gstLog
  split
  · rename_i ht; exact ⟨_, rfl, by rw [if_neg (by omega)]; rfl⟩
  · split
    · rename_i hc
      rw [C48_text hb h h1 h2 h3]
      refine ⟨_, rfl, ?_⟩
      unfold GstOut.passed
      dsimp only
      split
      · rw [if_pos (by omega)]
      · rw [if_neg (by omega)]
    · exact ⟨_, rfl, by rw [if_neg (by omega)]; rfl⟩

/-- The converted level: more severe messages never get a less severe level. -/
theorem C72_mono {a b : Nat} (ha : 1 ≤ a) (h : a ≤ b) : gstLevel a ≤ gstLevel b ∧ 3 ≤ gstLevel a ∧ gstLevel b ≤ 7 := by
  unfold gstLevel; repeat' split
  all_goals omega

/-- The converted level by name: errors are errors, warnings and fixmes are warnings,
information is information, all beyond is debug. -/
theorem C72_table : gstLevel 1 = 3 ∧ gstLevel 2 = 4 ∧ gstLevel 3 = 4 ∧ gstLevel 4 = 6 ∧ ∀ l, 5 ≤ l → gstLevel l = 7 := by
  refine ⟨rfl, rfl, rfl, rfl, fun l h => ?_⟩
  unfold gstLevel; repeat' split
  all_goals omega

/-- **C48:** the file name in the place is what follows the last `/`, or `unknown` if
nothing follows it. -/
theorem C48_base (file : Bytes) : ∃ dir base, file = dir ++ base ∧ (47 : UInt8) ∉ base ∧ (dir = [] ∨ dir.getLast? = some 47) ∧
    baseName file = if base = [] then ascii "unknown" else base := by
  refine ⟨(file.reverse.dropWhile (· != 47)).reverse, (file.reverse.takeWhile (· != 47)).reverse, ?_, ?_, ?_, rfl⟩
  · rw [← List.reverse_append, List.takeWhile_append_dropWhile, List.reverse_reverse]
  · intro h
    have := List.all_takeWhile (p := fun x : UInt8 => x != 47) (l := file.reverse)
    rw [List.all_eq_true] at this
    have := this 47 (List.mem_reverse.mp h)
    simp at this
  · rw [List.getLast?_reverse]
    cases h : file.reverse.dropWhile (· != 47) with
    | nil => exact Or.inl rfl
    | cons c r =>
      right
      have := List.head_dropWhile_not (fun x : UInt8 => x != 47) (l := file.reverse) (by rw [h]; simp)
      simp only [h, List.head_cons] at this
      simpa using this

end Verif.Tools
