import Verif.Ulogcat.Colors
import Verif.Ulogcat.PropsText

/-!
# C109: the colours of the viewer
-/
namespace Verif.Ulogcat
open Verif

/-- Words separated by bars. -/
def barred : List Bytes → Bytes
  | [] => []
  | [w] => w
  | w :: ws => w ++ 124 :: barred ws

/-- The escape sequence for a word: nothing for no word, otherwise what fits
31 bytes of `ESC [ word m`. -/
def escapeFor : Option Bytes → Bytes
  | some (b :: s) => (27 :: 91 :: (b :: s) ++ [109]).take 31
  | _ => []

theorem barred_cons (w : Bytes) (ws : List Bytes) (h : ws ≠ []) : barred (w :: ws) = w ++ 124 :: barred ws := by
  cases ws with
  | nil => exact absurd rfl h
  | cons _ _ => rfl

/-- Every string is a list of words separated by bars. -/
theorem C109_words (s : Bytes) : ∃ w ws, s = barred (w :: ws) ∧ (∀ x ∈ w :: ws, ∀ b ∈ x, b ≠ 124) := by
  induction s with
  | nil => exact ⟨[], [], rfl, by simp⟩
  | cons b s ih =>
    obtain ⟨w, ws, h1, h2⟩ := ih
    by_cases hb : b = 124
    · refine ⟨[], w :: ws, ?_, ?_⟩
      · rw [barred_cons _ _ (by simp), ← h1, hb]; rfl
      · intro x hx
        rcases List.mem_cons.1 hx with rfl | hx
        · simp
        · exact h2 x hx
    · refine ⟨b :: w, ws, ?_, ?_⟩
      · rw [h1]
        cases ws with
        | nil => rfl
        | cons y ys => rfl
      · intro x hx
        rcases List.mem_cons.1 hx with rfl | hx
        · intro c hc
          rcases List.mem_cons.1 hc with rfl | hc
          · exact hb
          · exact h2 w (by simp) c hc
        · exact h2 x (by simp [hx])

theorem takeWhile_bar {w : Bytes} (h : ∀ b ∈ w, b ≠ 124) (r : Bytes) :
    (w ++ 124 :: r).takeWhile (· != 124) = w := by
  rw [List.takeWhile_append_of_pos (by simpa using h)]
  simp

theorem takeWhile_all {w : Bytes} (h : ∀ b ∈ w, b ≠ 124) : w.takeWhile (· != 124) = w := by
  have := List.takeWhile_append_of_pos (p := fun b : UInt8 => b != 124) (l₁ := w) (l₂ := []) (by simpa using h)
  simpa using this

/-- What `strsep` leaves of words. -/
def rest : List Bytes → Option Bytes
  | [] => none
  | w :: ws => some (barred (w :: ws))

theorem strsepBar_rest (ws : List Bytes) (h : ∀ x ∈ ws, ∀ b ∈ x, b ≠ 124) :
    strsepBar (rest ws) = (ws.head?, rest ws.tail) := by
  cases ws with
  | nil => rfl
  | cons w ws =>
    have hw := h w (by simp)
    cases ws with
    | nil =>
      show strsepBar (some w) = (some w, none)
      unfold strsepBar
      simp only [takeWhile_all hw, List.drop_length]
    | cons y ys =>
      show strsepBar (some (w ++ 124 :: barred (y :: ys))) = (some w, some (barred (y :: ys)))
      unfold strsepBar
      simp only [takeWhile_bar hw, List.drop_left]

/-- The parts of the object: array `i` holds the C string `s`. -/
def Holds (m : Bytes) (i : Nat) (s : Bytes) : Prop :=
  NoNul s ∧ s.length ≤ 31 ∧ (m.drop (32 * i)).take (s.length + 1) = s ++ [0]

theorem Holds.ansi {m : Bytes} {i : Nat} {s : Bytes} (h : Holds m i s) : ansiAt m i = some s := by
  obtain ⟨h1, _, h3⟩ := h
  have h4 : m.drop (32 * i) = s ++ 0 :: (m.drop (32 * i)).drop (s.length + 1) := by
    have := (List.take_append_drop (s.length + 1) (m.drop (32 * i))).symm
    rw [h3] at this
    simpa using this
  exact strAt_eq (r := (m.drop (32 * i)).drop (s.length + 1)) h4 h1

theorem escapeFor_length (o : Option Bytes) : (escapeFor o).length ≤ 31 := by
  unfold escapeFor
  split
  · rw [List.length_take]; omega
  · simp

theorem escapeFor_noNul {o : Option Bytes} (h : ∀ w, o = some w → NoNul w) : NoNul (escapeFor o) := by
  unfold escapeFor
  split
  · rename_i b s
    have := h _ rfl
    intro c hc
    have hc := List.mem_of_mem_take hc
    simp only [List.cons_append, List.mem_cons, List.mem_append, List.not_mem_nil, or_false] at hc
    rcases hc with rfl | rfl | rfl | hc | rfl
    · decide
    · decide
    · exact this _ (by simp)
    · exact this _ (by simp [hc])
    · decide
  · intro c hc; simp at hc

/-- One round stores the sequence in its own array and nothing elsewhere. -/
theorem colorStep_eq {m : Bytes} {i : Nat} (hm : m.length = 256) (hi : i < 8) (o : Option Bytes) :
    ∃ m', colorStep m i o = some m' ∧ m'.length = 256 ∧
      (∀ j, j < 32 * i ∨ 32 * i + 32 ≤ j → m'[j]? = m[j]?) ∧
      (m'.drop (32 * i)).take ((escapeFor o).length + 1) = escapeFor o ++ [0] := by
  have poke_ok : ∀ bs : Bytes, bs.length ≤ 32 → ∃ m', poke m (32 * i) bs = some m' ∧ m'.length = 256 ∧
      (∀ j, j < 32 * i ∨ 32 * i + 32 ≤ j → m'[j]? = m[j]?) ∧ (m'.drop (32 * i)).take bs.length = bs := by
    intro bs hbs
    refine ⟨m.take (32 * i) ++ bs ++ m.drop (32 * i + bs.length), ?_, ?_, ?_, ?_⟩
    · unfold poke; rw [if_pos (by omega)]
    · simp only [List.length_append, List.length_take, List.length_drop]; omega
    · intro j hj
      have ht : (m.take (32 * i)).length = 32 * i := by rw [List.length_take]; omega
      rcases hj with hj | hj
      · rw [List.append_assoc, List.getElem?_append_left (by omega), List.getElem?_take, if_pos hj]
      · rw [List.getElem?_append_right (by rw [List.length_append]; omega), List.getElem?_drop]
        congr 1
        rw [List.length_append]; omega
    · have ht : (m.take (32 * i)).length = 32 * i := by rw [List.length_take]; omega
      rw [List.append_assoc]
      have : ((m.take (32 * i)) ++ (bs ++ m.drop (32 * i + bs.length))).drop (32 * i) = bs ++ m.drop (32 * i + bs.length) := by
        conv => lhs; rw [← ht]
        rw [show (m.take (32 * i)).length = 32 * i from ht]
        rw [List.drop_append_of_le_length (by omega), List.drop_of_length_le (by omega), List.nil_append]
      rw [this, List.take_append_of_le_length (Nat.le_refl _), List.take_length]
  have hz : ∃ m', wr m (32 * i) 0 = some m' ∧ m'.length = 256 ∧
      (∀ j, j < 32 * i ∨ 32 * i + 32 ≤ j → m'[j]? = m[j]?) ∧ (m'.drop (32 * i)).take 1 = [0] := by
    refine ⟨m.set (32 * i) 0, wr_eq (by omega), by simp [hm], ?_, ?_⟩
    · intro j hj
      rw [List.getElem?_set_ne (by omega)]
    · rw [List.drop_eq_getElem_cons (by simp; omega)]
      simp
  match o with
  | some (b :: s) =>
    have hlen : (27 :: 91 :: (b :: s) ++ [109] : Bytes).take 31 ++ [0] = escapeFor (some (b :: s)) ++ [0] := rfl
    obtain ⟨m', h1, h2, h3, h4⟩ := poke_ok (escapeFor (some (b :: s)) ++ [0]) (by
      have := escapeFor_length (some (b :: s)); rw [List.length_append]; simp; omega)
    refine ⟨m', ?_, h2, h3, ?_⟩
    · show snprint m (32 * i) 32 ([27, 91] ++ (b :: s) ++ [109]) = some m'
      unfold snprint
      rw [if_neg (by decide)]
      exact h1
    · rw [List.length_append] at h4; exact h4
  | some [] => exact hz
  | none => exact hz

theorem take_drop_congr {m m' : Bytes} {a n : Nat} (h : ∀ j, a ≤ j → j < a + n → m'[j]? = m[j]?) :
    (m'.drop a).take n = (m.drop a).take n := by
  apply List.ext_getElem?
  intro k
  rw [List.getElem?_take, List.getElem?_take]
  split
  · rw [List.getElem?_drop, List.getElem?_drop]
    exact h _ (by omega) (by omega)
  · rfl

theorem colorLoop_eq (n : Nat) : ∀ (i : Nat) (ws : List Bytes) (m : Bytes), m.length = 256 → i + n ≤ 8 →
    (∀ x ∈ ws, ∀ b ∈ x, b ≠ 124) → (∀ x ∈ ws, NoNul x) →
    ∃ m', colorLoop n i (rest ws) m = some m' ∧ m'.length = 256 ∧
      (∀ j, j < 32 * i → m'[j]? = m[j]?) ∧ ∀ k < n, Holds m' (i + k) (escapeFor ws[k]?) := by
  induction n with
  | zero => intro i ws m hm _ _ _; exact ⟨m, rfl, hm, fun _ _ => rfl, fun k hk => by omega⟩
  | succ n ih =>
    intro i ws m hm hi hb h0
    obtain ⟨m1, a1, a2, a3, a4⟩ := colorStep_eq hm (by omega : i < 8) ws.head?
    obtain ⟨m2, b1, b2, b3, b4⟩ := ih (i + 1) ws.tail m1 a2 (by omega)
      (fun x hx => hb x (List.mem_of_mem_tail hx)) (fun x hx => h0 x (List.mem_of_mem_tail hx))
    refine ⟨m2, ?_, b2, ?_, ?_⟩
    · unfold colorLoop
      rw [strsepBar_rest ws hb]
      simp only [a1, Option.bind_eq_bind, Option.bind_some]
      exact b1
    · intro j hj
      rw [b3 j (by omega), a3 j (.inl hj)]
    · intro k hk
      cases k with
      | zero =>
        have e : ws[0]? = ws.head? := by rw [List.head?_eq_getElem?]
        have hl := escapeFor_length ws.head?
        rw [Nat.add_zero, e]
        refine ⟨escapeFor_noNul (fun w hw => h0 w (List.mem_of_mem_head? hw)), hl, ?_⟩
        rw [← a4]
        exact take_drop_congr (fun j _ h2 => b3 j (by omega))
      | succ k =>
        have := b4 k (by omega)
        rw [show i + 1 + k = i + (k + 1) by omega] at this
        rwa [List.getElem?_tail] at this

/-- C109: with `ULOGCAT_COLORS` a list of words separated by bars, the sequence
of level `i` is made of word number `i`: nothing if there is none or it is empty,
otherwise `ESC [ word m`, cut to 31 bytes. All stores are inside the arrays,
whatever was there before. -/
theorem C109_colors (w : Bytes) (ws : List Bytes) (m : Bytes) (hm : m.length = 256)
    (hb : ∀ x ∈ w :: ws, ∀ b ∈ x, b ≠ 124) (h0 : ∀ x ∈ w :: ws, NoNul x) :
    ∃ m', setupColors (some (barred (w :: ws))) true m = some m' ∧ m'.length = 256 ∧
      ∀ i < 8, ansiAt m' i = some (escapeFor (w :: ws)[i]?) := by
  obtain ⟨m', h1, h2, _, h4⟩ := colorLoop_eq 8 0 (w :: ws) m hm (by omega) hb h0
  exact ⟨m', h1, h2, fun i hi => by have := (h4 i hi).ansi; rwa [Nat.zero_add] at this⟩

/-- C109: the same for the built-in colours. -/
theorem C109_default (m : Bytes) (hm : m.length = 256) :
    ∃ m', setupColors none true m = some m' ∧ ∀ i < 8, ansiAt m' i =
      [[], [], ascii "\x1b[4;1;31m", ascii "\x1b[1;31m", ascii "\x1b[1;33m", ascii "\x1b[35m", [], ascii "\x1b[1;30m"][i]? := by
  obtain ⟨m', h1, _, h3⟩ := C109_colors [] [[], ascii "4;1;31", ascii "1;31", ascii "1;33", ascii "35", [], ascii "1;30"] m hm
    (by decide +kernel) (by decide +kernel)
  refine ⟨m', ?_, ?_⟩
  · rw [← h1]
    show colorLoop 8 0 (some defaultColors) m = colorLoop 8 0 (some (barred _)) m
    rw [show barred ([] :: [[], ascii "4;1;31", ascii "1;31", ascii "1;33", ascii "35", [], ascii "1;30"]) = defaultColors by
      decide +kernel]
  · intro i hi
    rw [h3 i hi]
    have : ∀ i < 8, some (escapeFor ([] :: [[], ascii "4;1;31", ascii "1;31", ascii "1;33", ascii "35", [], ascii "1;30"] : List Bytes)[i]?) =
      ([[], [], ascii "\x1b[4;1;31m", ascii "\x1b[1;31m", ascii "\x1b[1;33m", ascii "\x1b[35m", [], ascii "\x1b[1;30m"] : List Bytes)[i]? := by
      decide +kernel
    exact this i hi

/-- C109: without memory for the copy no level has a colour. -/
theorem C109_nomem (env : Option Bytes) (m : Bytes) (hm : m.length = 256) :
    ∃ m', setupColors env false m = some m' ∧ ∀ i < 8, ansiAt m' i = some [] := by
  obtain ⟨m', h1, _, _, h4⟩ := colorLoop_eq 8 0 [] m hm (by omega) (by simp) (by simp)
  exact ⟨m', h1, fun i hi => by have := (h4 i hi).ansi; rwa [Nat.zero_add] at this⟩

/-- C109: whatever the environment holds, every level has a sequence of at most
31 bytes. -/
theorem C109_fits (env : Option Bytes) (dup : Bool) (m : Bytes) (hm : m.length = 256) (he : ∀ s, env = some s → NoNul s) :
    ∃ m', setupColors env dup m = some m' ∧ ∀ i < 8, ∃ s, ansiAt m' i = some s ∧ s.length ≤ 31 := by
  cases dup with
  | false =>
    obtain ⟨m', h1, h2⟩ := C109_nomem env m hm
    exact ⟨m', h1, fun i hi => ⟨[], h2 i hi, by simp⟩⟩
  | true =>
    obtain ⟨w, ws, e, hb⟩ := C109_words (env.getD defaultColors)
    have hn : NoNul (env.getD defaultColors) := by
      cases env with
      | none => show NoNul defaultColors; decide +kernel
      | some s => exact he s rfl
    have h0 : ∀ (ws : List Bytes), NoNul (barred ws) → ∀ x ∈ ws, NoNul x := by
      intro ws
      induction ws with
      | nil => intro _ x hx; simp at hx
      | cons y ys ih =>
        intro hn x hx
        cases ys with
        | nil =>
          rcases List.mem_cons.1 hx with rfl | hx
          · exact hn
          · simp at hx
        | cons z zs =>
          rw [barred_cons _ _ (by simp)] at hn
          rcases List.mem_cons.1 hx with rfl | hx
          · exact fun b hb => hn b (by simp [hb])
          · exact ih (fun b hb => hn b (by simp [hb])) x hx
    obtain ⟨m', h1, _, h3⟩ := C109_colors w ws m hm hb (h0 _ (e ▸ hn))
    refine ⟨m', ?_, fun i hi => ⟨_, h3 i hi, escapeFor_length _⟩⟩
    rw [← h1, ← e]
    cases env <;> rfl

/-- C109: a word of at most 28 bytes gives the whole sequence. -/
theorem C109_whole (w : Bytes) (hw : w ≠ []) (hl : w.length ≤ 28) : escapeFor (some w) = [27, 91] ++ w ++ [109] := by
  cases w with
  | nil => exact absurd rfl hw
  | cons b s =>
    show (27 :: 91 :: (b :: s) ++ [109] : Bytes).take 31 = _
    rw [List.take_of_length_le (by simp at hl ⊢; omega)]
    rfl

/-- C109, the case where it is false that a colour is a complete sequence: a
longer word loses the `m` that ends it, so that the terminal takes what follows as
part of the sequence. -/
theorem C109_false_long (w : Bytes) (hl : 28 < w.length) : escapeFor (some w) = [27, 91] ++ w.take 29 := by
  cases w with
  | nil => simp at hl
  | cons b s =>
    unfold escapeFor
    show (27 :: 91 :: ((b :: s) ++ [109])).take 31 = _
    rw [List.take_succ_cons, List.take_succ_cons, List.take_append_of_le_length (by omega)]
    rfl

/-- C109: colours only decorate: a coloured line is the sequence of its level,
the line printed without colours, and the sequence that ends colours. -/
theorem C109_decoration (L : Look) (e : Meta) (msg : Bytes) :
    lineText { L with color := true } e msg = L.ansi e.priority ++ (lineText { L with color := false } e msg).dropLast ++ [27, 91, 48, 109, 10] := by
  have hU : headU { L with color := true } e = L.ansi e.priority ++ headU { L with color := false } e := by
    unfold headU
    cases L.fmt <;> simp [cstart, clabel]
  have hK : headK { L with color := true } e = L.ansi e.priority ++ headK { L with color := false } e := by
    unfold headK
    cases L.fmt <;> simp [cstart, clabel]
  unfold lineText
  rw [show cend { L with color := true } = [27, 91, 48, 109] from rfl, show cend { L with color := false } = [] from rfl]
  rw [List.append_nil, List.dropLast_concat]
  split <;> simp [hU, hK]

namespace ExColors

/-- A viewer with three levels coloured, one of them with a word that is too long. -/
def env : Bytes := ascii "1;31||35|38;2;100;100;100;48;2;200;200;200"

example : (setupColors (some env) true (List.replicate 256 7)).map (fun m => (List.range 8).map (ansiAt m)) =
    some [some (ascii "\x1b[1;31m"), some [], some (ascii "\x1b[35m"), some (ascii "\x1b[38;2;100;100;100;48;2;200;200"),
      some [], some [], some [], some []] := by decide +kernel

example : barred [ascii "1;31", [], ascii "35", ascii "38;2;100;100;100;48;2;200;200;200"] = env := by decide +kernel

end ExColors

end Verif.Ulogcat
