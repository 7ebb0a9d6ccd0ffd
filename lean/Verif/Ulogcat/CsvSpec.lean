import Verif.Ulogcat.TextProof
import Verif.Kernel.Trace

/-!
# A reader of the CSV format

Written from the format alone: eleven fields ended by commas, the last of them
the number of bytes of payload, then that payload and a newline.
-/
namespace Verif.Ulogcat
open Verif.Kernel (parseDec parseDec_decNat decNat_digits isDigit)

structure CsvRow where
  sec : Nat
  nsec : Nat
  priority : Nat
  color : Nat
  binary : Nat
  tag : Bytes
  pname : Bytes
  pid : Int
  tname : Bytes
  tid : Int
  payload : Bytes
  deriving DecidableEq, Repr

/-- The bytes before the next comma, and those after it. -/
def field (bs : Bytes) : Bytes × Bytes := (bs.takeWhile (· != 44), (bs.dropWhile (· != 44)).drop 1)

def unhexDigit (b : UInt8) : Nat := if b.toNat < 58 then b.toNat - 48 else b.toNat - 87

/-- Value of a string of hexadecimal digits. -/
def unhex (bs : Bytes) : Nat := bs.foldl (fun n b => 16 * n + unhexDigit b) 0

/-- Bytes from pairs of hexadecimal digits. -/
def unhexDump : Bytes → Bytes
  | a :: b :: t => UInt8.ofNat (16 * unhexDigit a + unhexDigit b) :: unhexDump t
  | _ => []

/-- A decimal number with an optional sign. -/
def readInt : Bytes → Int
  | 45 :: t => - (parseDec t : Int)
  | t => (parseDec t : Int)

/-- One row and what follows it. -/
def csvRead (bs : Bytes) : Option (CsvRow × Bytes) :=
  let f1 := field bs
  let f2 := field f1.2
  let f3 := field f2.2
  let f4 := field f3.2
  let f5 := field f4.2
  let f6 := field f5.2
  let f7 := field f6.2
  let f8 := field f7.2
  let f9 := field f8.2
  let f10 := field f9.2
  let f11 := field f10.2
  let len := parseDec f11.1
  if f11.2[len]? = some 10 then
    some ({ sec := unhex (f1.1.drop 2), nsec := unhex (f2.1.drop 2), priority := parseDec f3.1, color := unhex (f4.1.drop 2), binary := parseDec f5.1, tag := f6.1, pname := f7.1, pid := readInt f8.1, tname := f9.1, tid := readInt f10.1, payload := f11.2.take len },
      f11.2.drop (len + 1))
  else none

/-- All the rows of a file. -/
def csvReadAll : Nat → Bytes → Option (List CsvRow)
  | 0, _ => none
  | n + 1, bs =>
    if bs = [] then some []
    else (csvRead bs).bind fun x => (csvReadAll n x.2).map (x.1 :: ·)

/-! ### Digits -/

theorem field_append {a r : Bytes} (h : ∀ b ∈ a, b ≠ 44) : field (a ++ 44 :: r) = (a, r) := by
  unfold field
  have h1 : (a ++ 44 :: r).takeWhile (· != 44) = a :=
    Kernel.takeWhile_append_all (fun x hx => by simpa using h x hx) (fun x hx => by simp at hx; simp [← hx])
  have h2 : (a ++ 44 :: r).dropWhile (· != 44) = 44 :: r := by
    induction a with
    | nil => simp
    | cons b a ih =>
      have hb : (b != 44) = true := by simpa using h b (by simp)
      rw [List.cons_append, List.dropWhile_cons, if_pos hb]
      refine ih (fun c hc => h c (by simp [hc])) ?_
      exact Kernel.takeWhile_append_all (fun x hx => by simpa using h x (by simp [hx])) (fun x hx => by simp at hx; simp [← hx])
  rw [h1, h2]; rfl

theorem hexDigit_toNat {n : Nat} (h : n < 16) : (hexDigit n).toNat = if n < 10 then 48 + n else 87 + n := by
  unfold hexDigit
  rw [UInt8.toNat_ofNat']
  split <;> omega

theorem unhexDigit_hexDigit {n : Nat} (h : n < 16) : unhexDigit (hexDigit n) = n := by
  unfold unhexDigit
  rw [hexDigit_toNat h]
  by_cases h1 : n < 10
  · rw [if_pos h1, if_pos (by omega)]; omega
  · rw [if_neg h1, if_neg (by omega)]; omega

theorem hexDigit_ne {n : Nat} (h : n < 16) : hexDigit n ≠ 44 ∧ hexDigit n ≠ 10 ∧ hexDigit n ≠ 0 := by
  have := hexDigit_toNat h
  refine ⟨?_, ?_, ?_⟩ <;> intro e <;> rw [e] at this <;> revert this <;> split <;> simp <;> omega

theorem unhex_snoc (bs : Bytes) (b : UInt8) : unhex (bs ++ [b]) = 16 * unhex bs + unhexDigit b := by
  simp [unhex, List.foldl_append]

theorem unhex_hexNat (n : Nat) : unhex (hexNat n) = n := by
  induction n using Nat.strongRecOn with
  | ind n ih =>
    unfold hexNat
    split
    · rename_i h
      simp only [unhex, List.foldl_cons, List.foldl_nil, unhexDigit_hexDigit h]; omega
    · rw [unhex_snoc, ih (n / 16) (by omega), unhexDigit_hexDigit (by omega)]
      omega

theorem unhex_zeros (k : Nat) (s : Bytes) : unhex (List.replicate k 48 ++ s) = unhex s := by
  induction k with
  | zero => rfl
  | succ k ih =>
    have : unhex (48 :: (List.replicate k 48 ++ s)) = unhex (List.replicate k 48 ++ s) := by
      simp [unhex, unhexDigit]
    rw [List.replicate_succ, List.cons_append, this, ih]

theorem unhex_hexPad (w n : Nat) : unhex (hexPad w n) = n := by
  unfold hexPad
  dsimp only
  rw [unhex_zeros, unhex_hexNat]

theorem hexNat_ne (n : Nat) : ∀ b ∈ hexNat n, b ≠ 44 := by
  induction n using Nat.strongRecOn with
  | ind n ih =>
    intro b hb
    unfold hexNat at hb
    split at hb
    · rename_i h
      simp only [List.mem_singleton] at hb
      rw [hb]; exact (hexDigit_ne h).1
    · rcases List.mem_append.mp hb with hb | hb
      · exact ih (n / 16) (by omega) b hb
      · simp only [List.mem_singleton] at hb
        rw [hb]; exact (hexDigit_ne (by omega)).1

theorem hexPad_ne (w n : Nat) : ∀ b ∈ [48, 120] ++ hexPad w n, b ≠ 44 := by
  intro b hb
  unfold hexPad at hb
  dsimp only at hb
  rcases List.mem_append.mp hb with hb | hb
  · simp at hb; rcases hb with rfl | rfl <;> decide
  · rcases List.mem_append.mp hb with hb | hb
    · rw [(List.mem_replicate.mp hb).2]; decide
    · exact hexNat_ne n b hb

theorem digit_ne {b : UInt8} (h : isDigit b = true) : b ≠ 44 ∧ b ≠ 45 := by
  constructor <;> intro e <;> rw [e] at h <;> revert h <;> decide

theorem decNat_ne (n : Nat) : ∀ b ∈ decNat n, b ≠ 44 := fun b hb => (digit_ne (decNat_digits n b hb)).1

theorem decInt_ne (i : Int) : ∀ b ∈ decInt i, b ≠ 44 := by
  intro b hb
  cases i with
  | ofNat n => exact decNat_ne n b hb
  | negSucc n =>
    rcases List.mem_cons.mp hb with rfl | hb
    · decide
    · exact decNat_ne _ b hb

theorem readInt_decInt (i : Int) : readInt (decInt i) = i := by
  cases i with
  | ofNat n =>
    have h : ∀ b ∈ decNat n, b ≠ 45 := fun b hb => (digit_ne (decNat_digits n b hb)).2
    show readInt (decNat n) = _
    unfold readInt
    split
    · rename_i t he
      exact absurd rfl (h 45 (by rw [he]; simp))
    · rw [parseDec_decNat]; rfl
  | negSucc n =>
    show - (parseDec (decNat (n + 1)) : Int) = _
    rw [parseDec_decNat]
    omega

theorem unhexDump_hexDump (bs : Bytes) : unhexDump (hexDump bs) = bs := by
  induction bs with
  | nil => rfl
  | cons b bs ih =>
    have hb := b.toNat_lt
    have : hexDump (b :: bs) = hexDigit (b.toNat / 16) :: hexDigit (b.toNat % 16) :: hexDump bs := rfl
    rw [this, unhexDump, ih, unhexDigit_hexDigit (by omega), unhexDigit_hexDigit (by omega)]
    congr 1
    apply UInt8.toNat_inj.mp
    rw [UInt8.toNat_ofNat']
    omega

theorem hexDump_length (bs : Bytes) : (hexDump bs).length = 2 * bs.length := by
  induction bs with
  | nil => rfl
  | cons b bs ih =>
    have : hexDump (b :: bs) = hexDigit (b.toNat / 16) :: hexDigit (b.toNat % 16) :: hexDump bs := rfl
    rw [this]; simp only [List.length_cons, ih]; omega

/-- The row an entry should give. -/
def rowOf (e : Meta) (payload : Bytes) : CsvRow :=
  { sec := toU32 e.sec, nsec := toU32 e.nsec, priority := e.priority, color := e.color, binary := if e.isBinary then 1 else 0, tag := e.tag, pname := e.pname, pid := e.pid, tname := e.tname, tid := e.tid, payload }

theorem csvRead_line (e : Meta) (payload rest : Bytes)
    (h1 : ∀ b ∈ e.tag, b ≠ 44) (h2 : ∀ b ∈ e.pname, b ≠ 44) (h3 : ∀ b ∈ e.tname, b ≠ 44) :
    csvRead (csvPrefix e payload.length ++ payload ++ [10] ++ rest) = some (rowOf e payload, rest) := by
  have hp : csvPrefix e payload.length ++ payload ++ [10] ++ rest =
      ([48, 120] ++ hexPad 8 (toU32 e.sec)) ++ 44 :: (([48, 120] ++ hexPad 8 (toU32 e.nsec)) ++ 44 ::
      (decNat e.priority ++ 44 :: (([48, 120] ++ hexPad 6 e.color) ++ 44 :: (decNat (if e.isBinary then 1 else 0) ++ 44 ::
      (e.tag ++ 44 :: (e.pname ++ 44 :: (decInt e.pid ++ 44 :: (e.tname ++ 44 :: (decInt e.tid ++ 44 ::
      (decNat payload.length ++ 44 :: (payload ++ 10 :: rest))))))))))) := by
    unfold csvPrefix
    simp only [List.append_assoc, List.cons_append, List.nil_append]
  rw [hp]
  unfold csvRead
  simp only [field_append (hexPad_ne 8 (toU32 e.sec)), field_append (hexPad_ne 8 (toU32 e.nsec)), field_append (decNat_ne e.priority),
    field_append (hexPad_ne 6 e.color), field_append (decNat_ne (if e.isBinary then 1 else 0)), field_append h1, field_append h2,
    field_append (decInt_ne e.pid), field_append h3, field_append (decInt_ne e.tid), field_append (decNat_ne payload.length), parseDec_decNat]
  have hl : (payload ++ 10 :: rest)[payload.length]? = some 10 := by simp
  rw [if_pos hl]
  simp only [List.drop_append, List.take_left', List.cons_append, List.nil_append, List.drop_succ_cons, List.drop_zero,
    unhex_hexPad, readInt_decInt, Option.some.injEq, Prod.mk.injEq]
  refine ⟨rfl, ?_⟩
  simp

end Verif.Ulogcat
