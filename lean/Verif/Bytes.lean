/-!
# Bytes, little-endian integers and C strings

Shared vocabulary of all models.  All ulog targets are little endian; the
parser says so itself (libulog/ulog_read.c:103).
-/
namespace Verif

abbrev Bytes := List UInt8

/-- `__u16` in memory (kernel/ulogger-6.x.h:46-47). -/
def le16 (n : Nat) : Bytes := [UInt8.ofNat n, UInt8.ofNat (n / 256)]

/-- Value of a `__u16` from its two bytes. -/
def unle16 (b0 b1 : UInt8) : Nat := b0.toNat + 256 * b1.toNat

/-- A 32-bit word in memory (kernel/ulogger-6.x.h:48-52). -/
def le32 (x : UInt32) : Bytes :=
  [UInt8.ofNat x.toNat, UInt8.ofNat (x.toNat / 256),
   UInt8.ofNat (x.toNat / 65536), UInt8.ofNat (x.toNat / 16777216)]

/-- Value of a 32-bit word from its four bytes. -/
def unle32 (b0 b1 b2 b3 : UInt8) : UInt32 :=
  UInt32.ofNat (b0.toNat + 256 * b1.toNat + 65536 * b2.toNat + 16777216 * b3.toNat)

/-- The C string stored at the start of `l`: the bytes before the first NUL. -/
def cstr (l : Bytes) : Bytes := l.takeWhile (· != 0)

/-- No NUL byte inside. -/
def NoNul (l : Bytes) : Prop := ∀ b ∈ l, b ≠ 0

instance (l : Bytes) : Decidable (NoNul l) := by unfold NoNul; infer_instance

/-- Decimal digits of a natural number in ASCII, as produced by `%d`/`%u`. -/
def decNat (n : Nat) : Bytes :=
  if h : n < 10 then [UInt8.ofNat (48 + n)]
  else decNat (n / 10) ++ [UInt8.ofNat (48 + n % 10)]
termination_by n

/-- `%d`. -/
def decInt : Int → Bytes
  | .ofNat n => decNat n
  | .negSucc n => 45 :: decNat (n + 1)

/-- Conversion of an unsigned count to a 32-bit signed `int`. -/
def toInt32 (n : Nat) : Int :=
  let m := n % 4294967296
  if m < 2147483648 then (m : Int) else (m : Int) - 4294967296

/-- ASCII bytes of a Lean string literal (only used for ASCII literals). -/
def ascii (s : String) : Bytes := s.toList.map fun c => UInt8.ofNat c.toNat

@[simp] theorem le16_length (n : Nat) : (le16 n).length = 2 := rfl
@[simp] theorem le32_length (x : UInt32) : (le32 x).length = 4 := rfl

theorem unle16_le16 {n : Nat} (h : n < 65536) :
    unle16 (UInt8.ofNat n) (UInt8.ofNat (n / 256)) = n := by
  simp only [unle16, UInt8.toNat_ofNat']
  omega

theorem unle32_le32 (x : UInt32) :
    unle32 (UInt8.ofNat x.toNat) (UInt8.ofNat (x.toNat / 256))
      (UInt8.ofNat (x.toNat / 65536)) (UInt8.ofNat (x.toNat / 16777216)) = x := by
  have hx := x.toNat_lt
  apply UInt32.toNat_inj.mp
  simp only [unle32, UInt8.toNat_ofNat', UInt32.toNat_ofNat']
  omega

theorem le32_unle32 (a b c d : UInt8) : le32 (unle32 a b c d) = [a, b, c, d] := by
  have ha := a.toNat_lt; have hb := b.toNat_lt; have hc := c.toNat_lt; have hd := d.toNat_lt
  simp only [le32, unle32, UInt32.toNat_ofNat', List.cons.injEq, and_true]
  refine ⟨?_, ?_, ?_, ?_⟩ <;> apply UInt8.toNat_inj.mp <;> simp only [UInt8.toNat_ofNat'] <;> omega

theorem cstr_noNul (l : Bytes) : NoNul (cstr l) := by
  induction l with
  | nil => intro b hb; simp [cstr] at hb
  | cons a l ih =>
    intro b hb
    unfold cstr at hb
    rw [List.takeWhile_cons] at hb
    split at hb
    · rename_i h
      rcases List.mem_cons.mp hb with rfl | hb
      · simpa using h
      · exact ih b hb
    · simp at hb

theorem cstr_of_noNul {l : Bytes} (h : NoNul l) (r : Bytes) : cstr (l ++ 0 :: r) = l := by
  unfold cstr
  induction l with
  | nil => simp
  | cons a l ih =>
    have ha : a ≠ 0 := h a (by simp)
    have := ih (fun b hb => h b (by simp [hb]))
    simp [ha, this]

end Verif
