import Verif.Ulogcat.Klog
import Verif.Ulogcat.TextProof

/-!
# What kernel records mean, and lemmas on their parsing

`kmsgEsc` is the encoding of the text in a record of /dev/kmsg (Linux,
`msg_add_ext_text` in kernel/printk/printk.c); `unesc` is its inverse.
-/
namespace Verif.Ulogcat
open Verif.Kernel (parseDec isDigit)

/-- Value of a hexadecimal digit of either case. -/
def hexValue (b : UInt8) : Option Nat :=
  if 48 ≤ b.toNat ∧ b.toNat ≤ 57 then some (b.toNat - 48)
  else if 97 ≤ b.toNat ∧ b.toNat ≤ 102 then some (b.toNat - 87)
  else if 65 ≤ b.toNat ∧ b.toNat ≤ 70 then some (b.toNat - 55)
  else none

/-- The byte denoted by an escape `\xHH` at the start of the text. -/
def escByte : Bytes → Option UInt8
  | 92 :: 120 :: h :: l :: _ =>
    match hexValue h, hexValue l with
    | some a, some b => some (UInt8.ofNat (16 * a + b))
    | _, _ => none
  | _ => none

/-- The text denoted by an escaped text. -/
def unesc (t : Bytes) : Bytes :=
  match t with
  | [] => []
  | b :: t' =>
    match escByte (b :: t') with
    | some v => v :: unesc (t'.drop 3)
    | none => b :: unesc t'
termination_by t.length
decreasing_by all_goals simp only [List.length_cons, List.length_drop]; omega

/-- The escaped form the kernel gives to a text. -/
def kmsgEsc (t : Bytes) : Bytes :=
  t.flatMap fun b =>
    if b.toNat < 32 ∨ 127 ≤ b.toNat ∨ b = 92 then [92, 120, hexDigit (b.toNat / 16), hexDigit (b.toNat % 16)] else [b]

/-! ### Digits -/

theorem isXDigit_iff (b : UInt8) : isXDigit b = (hexValue b).isSome := by
  unfold isXDigit isDigit hexValue
  simp only [UInt8.le_iff_toNat_le]
  by_cases h1 : 48 ≤ b.toNat ∧ b.toNat ≤ 57
  · simp [h1]
  · by_cases h2 : 97 ≤ b.toNat ∧ b.toNat ≤ 102
    · simp [h1, h2]
    · by_cases h3 : 65 ≤ b.toNat ∧ b.toNat ≤ 70
      · simp [h1, h2, h3]
      · simp [h1, h2, h3]

theorem hex2dec_eq {b : UInt8} {v : Nat} (h : hexValue b = some v) : hex2dec b = v ∧ v < 16 := by
  unfold hexValue at h
  unfold hex2dec isDigit
  simp only [UInt8.le_iff_toNat_le]
  have e48 : (48 : UInt8).toNat = 48 := rfl
  have e57 : (57 : UInt8).toNat = 57 := rfl
  have e65 : (65 : UInt8).toNat = 65 := rfl
  have e90 : (90 : UInt8).toNat = 90 := rfl
  rw [e48, e57, e65, e90]
  split at h
  · rename_i h1
    cases h
    simp only [h1, and_self, decide_true, if_true]
    omega
  · rename_i h1
    simp only [h1, decide_false, Bool.false_eq_true, if_false]
    split at h
    · cases h
      rw [if_neg (by omega)]; omega
    · split at h
      · cases h
        rw [if_pos (by omega)]; omega
      · exact absurd h (by simp)

/-! ### Unescaping in place -/

theorem rd_drop {m : Bytes} {p k : Nat} {l : Bytes} (h : m.drop p = l) : rd m (p + k) = l[k]? := by
  unfold rd; rw [← h, List.getElem?_drop]

theorem isEscape_eq {m t r : Bytes} {p : Nat} (h : m.drop p = t ++ 0 :: r) (ht : t ≠ []) :
    isEscape m p = some (escByte t).isSome := by
  have h0 : rd m p = (t ++ 0 :: r)[0]? := by have := rd_drop (k := 0) h; rwa [Nat.add_zero] at this
  have h1 := rd_drop (k := 1) h
  have h2 := rd_drop (k := 2) h
  have h3 := rd_drop (k := 3) h
  unfold isEscape
  rw [h0, h1, h2, h3]
  have hx0 : isXDigit 0 = false := by decide
  rcases t with _ | ⟨a, t⟩
  · exact absurd rfl ht
  by_cases ha : a = 92
  · subst ha
    rcases t with _ | ⟨b, t⟩
    · simp [escByte]
    by_cases hb : b = 120
    · subst hb
      rcases t with _ | ⟨c, t⟩
      · simp [escByte, hx0]
      rcases t with _ | ⟨d, t⟩
      · simp only [List.cons_append, List.nil_append, List.getElem?_cons_zero, List.getElem?_cons_succ, Option.bind_eq_bind,
          Option.bind_some, ne_eq, not_true_eq_false, if_false, escByte, hx0]
        split <;> rfl
      · simp only [List.cons_append, List.getElem?_cons_zero, List.getElem?_cons_succ, Option.bind_eq_bind,
          Option.bind_some, ne_eq, not_true_eq_false, if_false, escByte, isXDigit_iff]
        cases hexValue c <;> cases hexValue d <;> simp
    · have : escByte (92 :: b :: t) = none := by
        unfold escByte
        split
        · rename_i he
          simp only [List.cons.injEq] at he
          exact absurd he.2.1 hb
        · rfl
      simp [this, hb]
  · have : escByte (a :: t) = none := by
      unfold escByte
      split
      · rename_i he
        simp only [List.cons.injEq] at he
        exact absurd he.1 ha
      · rfl
    simp [this, ha]

theorem escByte_shape {t : Bytes} {v : UInt8} (h : escByte t = some v) :
    ∃ a b t' x y, t = 92 :: 120 :: a :: b :: t' ∧ hexValue a = some x ∧ hexValue b = some y ∧ v = UInt8.ofNat (16 * x + y) := by
  unfold escByte at h
  split at h
  · rename_i a b t'
    split at h
    · rename_i x y hx hy
      cases h
      exact ⟨a, b, t', x, y, rfl, hx, hy, rfl⟩
    · exact absurd h (by simp)
  · exact absurd h (by simp)

theorem set_at_length (pre y : Bytes) (c v : UInt8) : (pre ++ c :: y).set pre.length v = pre ++ v :: y := by
  rw [List.set_append_right _ _ (Nat.le_refl _), Nat.sub_self, List.set_cons_zero]

/-- One store of the loop: the first byte of what follows `pre` is replaced. -/
theorem set_head (pre x z : Bytes) (v : UInt8) (hx : x ≠ []) :
    (pre ++ (x ++ z)).set pre.length v = (pre ++ [v]) ++ (x.tail ++ z) := by
  obtain ⟨c, y, rfl⟩ := List.exists_cons_of_ne_nil hx
  rw [List.cons_append, set_at_length]
  simp

theorem unescapeLoop_spec : ∀ (fuel : Nat) (pre mid t r : Bytes), NoNul t → t.length < fuel →
    ∃ mid', unescapeLoop fuel (pre ++ (mid ++ (t ++ 0 :: r))) (pre.length + mid.length) pre.length =
      some (pre ++ unesc t ++ (mid' ++ 0 :: r), pre.length + (unesc t).length) ∧
      mid'.length + (unesc t).length = mid.length + t.length := by
  intro fuel
  induction fuel with
  | zero => intro _ _ _ _ _ h; omega
  | succ fuel ih =>
    intro pre mid t r h0 hf
    have hd : (pre ++ (mid ++ (t ++ 0 :: r))).drop (pre.length + mid.length) = t ++ 0 :: r := by
      rw [← List.append_assoc, ← List.length_append, List.drop_left]
    have hr0 : rd (pre ++ (mid ++ (t ++ 0 :: r))) (pre.length + mid.length) = (t ++ 0 :: r)[0]? := by
      have := rd_drop (k := 0) hd; rwa [Nat.add_zero] at this
    cases t with
    | nil =>
      refine ⟨mid, ?_, by simp [unesc]⟩
      unfold unescapeLoop
      rw [hr0]
      simp [unesc]
    | cons b t =>
      have hb : ¬ b = 0 := h0 b (by simp)
      have hesc := isEscape_eq hd (by simp)
      unfold unescapeLoop
      rw [hr0, hesc]
      simp only [List.cons_append, List.getElem?_cons_zero, Option.bind_eq_bind, Option.bind_some, hb, if_false]
      cases he : escByte (b :: t) with
      | some v =>
        obtain ⟨a, c, t', x, y, ht, hx, hy, hv⟩ := escByte_shape he
        simp only [List.cons.injEq] at ht
        obtain ⟨rfl, rfl⟩ := ht
        have hr2 := rd_drop (k := 2) hd
        have hr3 := rd_drop (k := 3) hd
        simp only [List.cons_append, List.getElem?_cons_zero, List.getElem?_cons_succ] at hr2 hr3
        simp only [Option.isSome_some, if_true, List.cons_append]
        rw [hr2, hr3]
        simp only [Option.bind_some]
        rw [(hex2dec_eq hx).1, (hex2dec_eq hy).1, ← hv, wr_eq (by simp only [List.length_append, List.length_cons]; omega)]
        simp only [Option.bind_some]
        have hsplit : pre ++ (mid ++ 92 :: 120 :: a :: c :: (t' ++ 0 :: r)) =
            pre ++ ((mid ++ [92, 120, a, c]) ++ (t' ++ 0 :: r)) := by simp
        rw [hsplit, set_head _ _ _ _ (by simp)]
        have hl : (mid ++ [92, 120, a, c]).tail.length = mid.length + 3 := by
          rw [List.length_tail, List.length_append]; simp
        obtain ⟨mid', h1, h2⟩ := ih (pre ++ [v]) (mid ++ [92, 120, a, c]).tail t' r (fun z hz => h0 z (by simp [hz]))
          (by simp only [List.length_cons] at hf; omega)
        rw [hl, List.length_append, List.length_singleton] at h1
        refine ⟨mid', ?_, ?_⟩
        · rw [show pre.length + mid.length + 4 = pre.length + 1 + (mid.length + 3) by omega, h1]
          have hu : unesc (92 :: 120 :: a :: c :: t') = v :: unesc t' := by
            rw [unesc, he]; rfl
          rw [hu]
          simp only [List.append_assoc, List.cons_append, List.nil_append, List.length_cons]
          congr 2; omega
        · have hu : unesc (92 :: 120 :: a :: c :: t') = v :: unesc t' := by
            rw [unesc, he]; rfl
          rw [hu, List.length_cons]
          simp only [List.length_cons]
          omega
      | none =>
        simp only [Option.isSome_none, Bool.false_eq_true, if_false]
        rw [wr_eq (by simp only [List.length_append, List.length_cons]; omega)]
        simp only [Option.bind_some]
        have hsplit : pre ++ (mid ++ b :: (t ++ 0 :: r)) = pre ++ ((mid ++ [b]) ++ (t ++ 0 :: r)) := by simp
        rw [hsplit, set_head _ _ _ _ (by simp)]
        have hl : (mid ++ [b]).tail.length = mid.length := by
          rw [List.length_tail, List.length_append]; simp
        obtain ⟨mid', h1, h2⟩ := ih (pre ++ [b]) (mid ++ [b]).tail t r (fun z hz => h0 z (by simp [hz]))
          (by simp only [List.length_cons] at hf; omega)
        rw [hl, List.length_append, List.length_singleton] at h1
        have hu : unesc (b :: t) = b :: unesc t := by rw [unesc, he]
        refine ⟨mid', ?_, ?_⟩
        · rw [show pre.length + mid.length + 1 = pre.length + 1 + mid.length by omega, h1, hu]
          simp only [List.append_assoc, List.cons_append, List.nil_append, List.length_cons]
          congr 2; omega
        · rw [hu, List.length_cons, List.length_cons]; omega

theorem unesc_length (t : Bytes) : (unesc t).length ≤ t.length := by
  induction h : t.length using Nat.strongRecOn generalizing t with
  | ind n ih =>
    cases t with
    | nil => simp [unesc]
    | cons b t =>
      subst h
      rw [unesc]
      split
      · have := ih (t.drop 3).length (by rw [List.length_drop, List.length_cons]; omega) _ rfl
        rw [List.length_drop] at this
        simp only [List.length_cons]; omega
      · have := ih t.length (by simp) _ rfl
        simp only [List.length_cons]; omega

theorem escByte_plain {b : UInt8} (t : Bytes) (hb : b ≠ 92) : escByte (b :: t) = none := by
  unfold escByte
  split
  · rename_i he
    simp only [List.cons.injEq] at he
    exact absurd he.1 hb
  · rfl

theorem unesc_plain (a t : Bytes) (h : ∀ b ∈ a, b ≠ 92) : unesc (a ++ t) = a ++ unesc t := by
  induction a with
  | nil => rfl
  | cons b a ih =>
    rw [List.cons_append, unesc, escByte_plain _ (h b (by simp))]
    dsimp only
    rw [ih (fun c hc => h c (by simp [hc]))]
    rfl

theorem hexValue_hexDigit {n : Nat} (h : n < 16) : hexValue (hexDigit n) = some n := by
  have hd : (hexDigit n).toNat = if n < 10 then 48 + n else 87 + n := by
    unfold hexDigit
    rw [UInt8.toNat_ofNat']
    split <;> omega
  unfold hexValue
  rw [hd]
  by_cases h1 : n < 10
  · simp only [h1, if_true]
    rw [if_pos (by omega)]; congr 1; omega
  · simp only [h1, if_false]
    rw [if_neg (by omega), if_pos (by omega)]; congr 1; omega

/-- Unescaping undoes the kernel's escaping. -/
theorem unesc_kmsgEsc (t : Bytes) : unesc (kmsgEsc t) = t := by
  induction t with
  | nil => simp [kmsgEsc, unesc]
  | cons b t ih =>
    have hb := b.toNat_lt
    have hc : kmsgEsc (b :: t) =
        (if b.toNat < 32 ∨ 127 ≤ b.toNat ∨ b = 92 then [92, 120, hexDigit (b.toNat / 16), hexDigit (b.toNat % 16)] else [b]) ++ kmsgEsc t := rfl
    rw [hc]
    split
    · rw [List.cons_append, List.cons_append, List.cons_append, List.cons_append, List.nil_append, unesc]
      have he : escByte (92 :: 120 :: hexDigit (b.toNat / 16) :: hexDigit (b.toNat % 16) :: kmsgEsc t) = some b := by
        show (match hexValue (hexDigit (b.toNat / 16)), hexValue (hexDigit (b.toNat % 16)) with
          | some a, some b => some (UInt8.ofNat (16 * a + b))
          | _, _ => none) = some b
        rw [hexValue_hexDigit (by omega), hexValue_hexDigit (by omega)]
        dsimp only
        congr 1
        apply UInt8.toNat_inj.mp
        rw [UInt8.toNat_ofNat']
        omega
      rw [he]
      show b :: unesc (kmsgEsc t) = b :: t
      rw [ih]
    · rename_i h
      rw [List.cons_append, List.nil_append, unesc, escByte_plain _ (fun e => h (Or.inr (Or.inr e)))]
      dsimp only
      rw [ih]

theorem kmsgEsc_bytes (t : Bytes) : ∀ b ∈ kmsgEsc t, 32 ≤ b.toNat ∧ b.toNat < 127 := by
  intro b hb
  unfold kmsgEsc at hb
  obtain ⟨c, _, hc⟩ := List.mem_flatMap.mp hb
  have hcl := c.toNat_lt
  have hd : ∀ n, n < 16 → 32 ≤ (hexDigit n).toNat ∧ (hexDigit n).toNat < 127 := by
    intro n hn
    have : (hexDigit n).toNat = if n < 10 then 48 + n else 87 + n := by
      unfold hexDigit
      rw [UInt8.toNat_ofNat']
      split <;> omega
    rw [this]; split <;> omega
  split at hc
  · simp only [List.mem_cons, List.not_mem_nil, or_false] at hc
    rcases hc with rfl | rfl | rfl | rfl
    · decide
    · decide
    · exact hd _ (by omega)
    · exact hd _ (by omega)
  · rename_i h
    simp only [List.mem_singleton] at hc
    rw [hc]
    omega

/-! ### Fields -/

theorem runLen_eq {m a r : Bytes} {c : UInt8} {f : UInt8 → Bool} : ∀ {p n : Nat}, m.drop p = a ++ c :: r →
    (∀ b ∈ a, f b = true) → f c = false → a.length < n → runLen m p f n = some a.length := by
  induction a with
  | nil =>
    intro p n h _ hc hn
    cases n with
    | zero => exact absurd hn (by simp)
    | succ n =>
      have hr : rd m p = some c := by unfold rd; rw [← List.head?_drop, h]; rfl
      unfold runLen; rw [hr]; simp [hc]
  | cons b a ih =>
    intro p n h ha hc hn
    cases n with
    | zero => exact absurd hn (by simp)
    | succ n =>
      have hr : rd m p = some b := by unfold rd; rw [← List.head?_drop, h]; rfl
      have hd : m.drop (p + 1) = a ++ c :: r := by rw [← List.drop_drop, h]; rfl
      unfold runLen; rw [hr]
      simp only [Option.bind_eq_bind, Option.bind_some, ha b (by simp), if_true]
      rw [ih hd (fun x hx => ha x (by simp [hx])) hc (by simp at hn; omega)]
      simp

/-- A field followed by a comma. -/
theorem strtok_comma (pre a r : Bytes) (hne : a ≠ []) (ha : ∀ b ∈ a, b ≠ 44 ∧ b ≠ 0) :
    strtokComma (pre ++ (a ++ 44 :: r)) pre.length =
      some (pre ++ (a ++ 0 :: r), some pre.length, pre.length + a.length + 1) := by
  obtain ⟨c, y, rfl⟩ := List.exists_cons_of_ne_nil hne
  have hd : (pre ++ (c :: y ++ 44 :: r)).drop pre.length = c :: y ++ 44 :: r := List.drop_left
  have hc := ha c (by simp)
  have h1 : runLen (pre ++ (c :: y ++ 44 :: r)) pre.length (· == 44) ((pre ++ (c :: y ++ 44 :: r)).length + 1) = some 0 :=
    runLen_eq (a := []) (c := c) (r := y ++ 44 :: r) hd (by simp) (by simpa using hc.1) (by simp)
  have hr : rd (pre ++ (c :: y ++ 44 :: r)) pre.length = some c := by
    have := rd_drop (k := 0) hd; rw [Nat.add_zero] at this; rw [this]; rfl
  have h2 : runLen (pre ++ (c :: y ++ 44 :: r)) pre.length (fun b => b != 44 && b != 0) ((pre ++ (c :: y ++ 44 :: r)).length + 1) =
      some (c :: y).length :=
    runLen_eq (a := c :: y) (c := 44) (r := r) hd (fun b hb => by simp [ha b hb]) (by simp)
      (by simp only [List.length_append]; omega)
  have hr2 : rd (pre ++ (c :: y ++ 44 :: r)) (pre.length + (c :: y).length) = some 44 := by
    rw [rd_drop hd, List.getElem?_append_right (Nat.le_refl _)]; simp
  have hw : wr (pre ++ (c :: y ++ 44 :: r)) (pre.length + (c :: y).length) 0 = some (pre ++ (c :: y ++ 0 :: r)) := by
    rw [wr_eq (by simp only [List.length_append, List.length_cons]; omega)]
    rw [← List.append_assoc, ← List.length_append, set_at_length, List.append_assoc]
  unfold strtokComma
  rw [h1]
  simp only [Option.bind_eq_bind, Option.bind_some, Nat.add_zero]
  rw [hr]
  simp only [Option.bind_some, hc.2, if_false]
  rw [h2]
  simp only [Option.bind_some]
  rw [hr2]
  simp only [Option.bind_some, hw]
  rfl

/-- A field that ends the string. -/
theorem strtok_end (pre a r : Bytes) (hne : a ≠ []) (ha : ∀ b ∈ a, b ≠ 44 ∧ b ≠ 0) :
    strtokComma (pre ++ (a ++ 0 :: r)) pre.length =
      some (pre ++ (a ++ 0 :: r), some pre.length, pre.length + a.length) := by
  obtain ⟨c, y, rfl⟩ := List.exists_cons_of_ne_nil hne
  have hd : (pre ++ (c :: y ++ 0 :: r)).drop pre.length = c :: y ++ 0 :: r := List.drop_left
  have hc := ha c (by simp)
  have h1 : runLen (pre ++ (c :: y ++ 0 :: r)) pre.length (· == 44) ((pre ++ (c :: y ++ 0 :: r)).length + 1) = some 0 :=
    runLen_eq (a := []) (c := c) (r := y ++ 0 :: r) hd (by simp) (by simpa using hc.1) (by simp)
  have hr : rd (pre ++ (c :: y ++ 0 :: r)) pre.length = some c := by
    have := rd_drop (k := 0) hd; rw [Nat.add_zero] at this; rw [this]; rfl
  have h2 : runLen (pre ++ (c :: y ++ 0 :: r)) pre.length (fun b => b != 44 && b != 0) ((pre ++ (c :: y ++ 0 :: r)).length + 1) =
      some (c :: y).length :=
    runLen_eq (a := c :: y) (c := 0) (r := r) hd (fun b hb => by simp [ha b hb]) (by simp)
      (by simp only [List.length_append]; omega)
  have hr2 : rd (pre ++ (c :: y ++ 0 :: r)) (pre.length + (c :: y).length) = some 0 := by
    rw [rd_drop hd, List.getElem?_append_right (Nat.le_refl _)]; simp
  unfold strtokComma
  rw [h1]
  simp only [Option.bind_eq_bind, Option.bind_some, Nat.add_zero]
  rw [hr]
  simp only [Option.bind_some, hc.2, if_false]
  rw [h2]
  simp only [Option.bind_some]
  rw [hr2]
  rfl

end Verif.Ulogcat
