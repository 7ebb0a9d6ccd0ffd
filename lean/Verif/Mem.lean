import Verif.Bytes

/-!
# Byte buffers with checked accesses

A C object is a list of bytes, a pointer into it an offset. `none` stands for
an access outside the object (undefined behaviour in C).
-/
namespace Verif

/-- Load one byte. -/
def rd (m : Bytes) (i : Nat) : Option UInt8 := m[i]?

/-- Store one byte. -/
def wr (m : Bytes) (i : Nat) (v : UInt8) : Option Bytes :=
  if i < m.length then some (m.set i v) else none

/-- `strnlen(m + p, n)`: looks at no byte after the first NUL. -/
def strnlen (m : Bytes) (p : Nat) : Nat → Option Nat
  | 0 => some 0
  | n + 1 => do
    let b ← rd m p
    if b = 0 then return 0
    return (← strnlen m (p + 1) n) + 1

/-- The `n` bytes at offset `p`. -/
def win (m : Bytes) (p n : Nat) : Bytes := (m.drop p).take n

/-- The C string at offset `p`, if a NUL ends it inside the object. -/
def strAt (m : Bytes) (p : Nat) : Option Bytes :=
  if 0 ∈ m.drop p then some (cstr (m.drop p)) else none

theorem rd_eq {m : Bytes} {i : Nat} (h : i < m.length) : rd m i = some m[i] := by
  unfold rd; exact List.getElem?_eq_getElem h

theorem wr_eq {m : Bytes} {i : Nat} {v : UInt8} (h : i < m.length) : wr m i v = some (m.set i v) := by
  unfold wr; rw [if_pos h]

theorem win_cons {m : Bytes} {p n : Nat} (h : p < m.length) : win m p (n + 1) = m[p] :: win m (p + 1) n := by
  unfold win
  rw [List.drop_eq_getElem_cons h, List.take_succ_cons]

theorem win_length {m : Bytes} {p n : Nat} (h : p + n ≤ m.length) : (win m p n).length = n := by
  unfold win; rw [List.length_take, List.length_drop]; omega

theorem win_zero (m : Bytes) (p : Nat) : win m p 0 = [] := by simp [win]

theorem win_drop (m : Bytes) (p n k : Nat) : (win m p n).drop k = win m (p + k) (n - k) := by
  unfold win; rw [List.drop_take, List.drop_drop]

theorem win_take (m : Bytes) (p n k : Nat) (h : k ≤ n) : (win m p n).take k = win m p k := by
  unfold win; rw [List.take_take]; congr 1; omega

theorem win_set {m : Bytes} {p n i : Nat} {v : UInt8} (h : i < p ∨ p + n ≤ i) :
    win (m.set i v) p n = win m p n := by
  apply List.ext_getElem?
  intro j
  unfold win
  rw [List.getElem?_take, List.getElem?_take]
  split
  · rw [List.getElem?_drop, List.getElem?_drop, List.getElem?_set_ne (by omega)]
  · rfl

/-- Setting the last byte of a window. -/
theorem win_set_last {m : Bytes} {p n : Nat} {v : UInt8} (h : p + n < m.length) :
    win (m.set (p + n) v) p (n + 1) = win m p n ++ [v] := by
  have h1 : (win (m.set (p + n) v) p (n + 1)).take n = win m p n := by
    rw [win_take _ _ _ _ (by omega), win_set (by omega)]
  have h2 : (win (m.set (p + n) v) p (n + 1)).drop n = [v] := by
    rw [win_drop, show n + 1 - n = 0 + 1 from by omega, win_cons (by simpa using h), win_zero]
    simp
  rw [← h1, ← h2, List.take_append_drop]

theorem cstr_nil : cstr [] = [] := rfl

theorem cstr_cons (b : UInt8) (l : Bytes) : cstr (b :: l) = if b = 0 then [] else b :: cstr l := by
  unfold cstr
  by_cases h : b = 0 <;> simp [h]

theorem cstr_length_le (l : Bytes) : (cstr l).length ≤ l.length := by
  induction l with
  | nil => simp [cstr]
  | cons b l ih => rw [cstr_cons]; split <;> simp <;> omega

/-- A string shorter than its window is followed by a NUL. -/
theorem cstr_split {l : Bytes} (h : (cstr l).length < l.length) :
    l = cstr l ++ 0 :: l.drop ((cstr l).length + 1) := by
  induction l with
  | nil => simp at h
  | cons b l ih =>
    rw [cstr_cons] at h ⊢
    by_cases hb : b = 0
    · simp [hb]
    · rw [if_neg hb] at h ⊢
      simp only [List.length_cons] at h
      simp only [List.cons_append, List.length_cons, List.drop_succ_cons, List.cons.injEq, true_and]
      exact ih (by omega)

theorem cstr_full {l : Bytes} (h : (cstr l).length = l.length) : cstr l = l := by
  unfold cstr at *
  exact (List.takeWhile_prefix _).eq_of_length h

theorem noNul_of_cstr {l : Bytes} (h : (cstr l).length = l.length) : NoNul l := by
  rw [← cstr_full h]; exact cstr_noNul l

theorem cstr_of_noNul_all {l : Bytes} (h : NoNul l) : cstr l = l := by
  induction l with
  | nil => rfl
  | cons b l ih =>
    rw [cstr_cons, if_neg (h b (by simp)), ih (fun c hc => h c (by simp [hc]))]

theorem strnlen_eq {m : Bytes} : ∀ {n p : Nat}, p + n ≤ m.length →
    strnlen m p n = some (cstr (win m p n)).length := by
  intro n
  induction n with
  | zero => intro p _; simp [strnlen, win_zero, cstr_nil]
  | succ n ih =>
    intro p h
    have hp : p < m.length := by omega
    rw [win_cons hp, cstr_cons]
    unfold strnlen
    rw [rd_eq hp]
    simp only [Option.bind_eq_bind, Option.bind_some]
    by_cases h0 : m[p] = 0
    · simp [h0]
    · rw [if_neg h0, if_neg h0, ih (by omega)]
      rfl

end Verif
