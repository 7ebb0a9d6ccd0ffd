import Verif.Ulogcat.KlogProof
import Verif.Ulogcat.CsvSpec

/-!
# Properties of the parsing of kernel messages
-/
namespace Verif.Ulogcat
open Verif.Kernel (parseDec parseDec_decNat decNat_digits isDigit)

/-! ### Numbers -/

theorem dropWhile_length {s : Bytes} {f : UInt8 → Bool} {a r : Bytes} (hs : s = a ++ r) (ha : ∀ b ∈ a, f b = true)
    (hr : ∀ b, r.head? = some b → f b = false) : s.takeWhile f = a := by
  rw [hs]; exact Kernel.takeWhile_append_all ha hr

theorem strtoParts_digits (sp ds r : Bytes) (hs : ∀ b ∈ sp, isSpace b = true) (hd : ∀ b ∈ ds, isDigit b = true) (hne : ds ≠ [])
    (hr : ∀ b, r.head? = some b → isDigit b = false) :
    strtoParts (sp ++ (ds ++ r)) = (false, ds, sp.length + ds.length) := by
  obtain ⟨c, y, hcy⟩ := List.exists_cons_of_ne_nil hne
  have hc : isDigit c = true := hd c (by rw [hcy]; simp)
  have hns : isSpace c = false := by
    revert hc; unfold isDigit isSpace
    simp only [UInt8.le_iff_toNat_le, decide_eq_true_eq, decide_eq_false_iff_not, ← UInt8.toNat_inj]
    have e1 : (48 : UInt8).toNat = 48 := rfl
    have e2 : (57 : UInt8).toNat = 57 := rfl
    have e3 : (13 : UInt8).toNat = 13 := rfl
    have e4 : (32 : UInt8).toNat = 32 := rfl
    rw [e1, e2, e3, e4]; omega
  have h45 : ¬ c = 45 := fun e => by rw [e] at hc; revert hc; decide
  have h43 : ¬ c = 43 := fun e => by rw [e] at hc; revert hc; decide
  have hw : (sp ++ (ds ++ r)).takeWhile isSpace = sp :=
    dropWhile_length rfl hs (fun b hb => by rw [hcy] at hb; simp at hb; rw [← hb]; exact hns)
  unfold strtoParts
  rw [hw]
  dsimp only
  rw [List.drop_left]
  have hh : (ds ++ r).head? = some c := by rw [hcy]; rfl
  rw [hh]
  have hno : ¬ (some c = some (45 : UInt8) ∨ some c = some 43) := by simp [h45, h43]
  rw [if_neg hno, List.drop_zero, dropWhile_length (a := ds) rfl hd hr, if_neg hne]
  simp [h45]

theorem decNat_ne_nil' (n : Nat) : decNat n ≠ [] := by
  unfold decNat; split <;> simp

theorem strtol_digits (ds : Bytes) (hd : ∀ b ∈ ds, isDigit b = true) (hne : ds ≠ []) (h : parseDec ds < 9223372036854775808) :
    strtol ds = parseDec ds := by
  have hp := strtoParts_digits [] ds [] (by simp) hd hne (by simp)
  simp only [List.nil_append, List.append_nil] at hp
  unfold strtol
  rw [hp]
  dsimp only
  rw [if_neg (by simp), if_neg (by omega)]

theorem strtoul_digits (sp ds r : Bytes) (hs : ∀ b ∈ sp, isSpace b = true) (hd : ∀ b ∈ ds, isDigit b = true) (hne : ds ≠ [])
    (hr : ∀ b, r.head? = some b → isDigit b = false) (h : parseDec ds < 18446744073709551616) :
    strtoul (sp ++ (ds ++ r)) = (parseDec ds, sp.length + ds.length) := by
  unfold strtoul
  rw [strtoParts_digits sp ds r hs hd hne hr]
  dsimp only
  rw [if_neg (by omega), if_neg (by simp)]

/-- A number with a minus sign wraps around. -/
theorem strtoul_minus (ds r : Bytes) (hd : ∀ b ∈ ds, isDigit b = true) (hne : ds ≠ [])
    (hr : ∀ b, r.head? = some b → isDigit b = false) (h0 : 0 < parseDec ds) (h : parseDec ds < 18446744073709551616) :
    strtoul (45 :: (ds ++ r)) = (18446744073709551616 - parseDec ds, ds.length + 1) := by
  have ht : (ds ++ r).takeWhile isDigit = ds := by
    rw [List.takeWhile_append_of_pos hd]
    cases r with
    | nil => simp
    | cons b r => rw [List.takeWhile_cons, if_neg (by rw [hr b rfl]; simp)]; simp
  have hw : isSpace 45 = false := by decide
  unfold strtoul strtoParts
  simp only [List.takeWhile_cons, hw, Bool.false_eq_true, if_false, List.length_nil, List.drop_zero, List.head?_cons,
    true_or, if_true, List.drop_succ_cons, ht, hne]
  simp only [decide_true, if_true]
  rw [if_neg (by omega), Nat.mod_eq_of_lt (by omega)]
  congr 1
  omega

/-- C65: a line of the kernel log whose priority is written with a minus sign
and two digits or more of text keeps the rest of the line; the priority is the
negated number modulo eight. -/
theorem C65_minus (e : KEntry) (ds T : Bytes) (ht : e.text = 60 :: 45 :: (ds ++ 62 :: T)) (hl : e.len = e.text.length)
    (hd : ∀ b ∈ ds, isDigit b = true) (hne : ds ≠ []) (h0 : 0 < parseDec ds) (h : parseDec ds < 18446744073709551616) :
    parsePrefix e = { e with priority := (8 - parseDec ds % 8) % 8, text := T, len := T.length } := by
  have hst := strtoul_minus ds (62 :: T) hd hne (by intro b hb; simp at hb; rw [← hb]; decide) h0 h
  have hdl : 0 < ds.length := List.length_pos_iff.mpr hne
  unfold parsePrefix
  rw [if_neg (by rw [hl, ht]; simp; omega)]
  have h2 : e.text[2]? ≠ some 62 := by
    obtain ⟨b, ds', hds⟩ := List.exists_cons_of_ne_nil hne
    rw [ht, hds]
    have := hd b (by rw [hds]; simp)
    simp
    rintro rfl
    revert this; decide
  rw [if_neg h2, show e.text.drop 1 = 45 :: (ds ++ 62 :: T) by rw [ht]; rfl, hst]
  dsimp only
  have hg : e.text[1 + (ds.length + 1)]? = some 62 := by
    rw [ht, show 1 + (ds.length + 1) = (60 :: 45 :: ds).length by simp; omega,
      show 60 :: 45 :: (ds ++ 62 :: T) = (60 :: 45 :: ds) ++ 62 :: T by simp, List.getElem?_append_right (Nat.le_refl _)]
    simp
  have hdrop : e.text.drop (2 + (ds.length + 1)) = T := by
    rw [ht, show 2 + (ds.length + 1) = (60 :: 45 :: (ds ++ [62])).length by simp; omega,
      show 60 :: 45 :: (ds ++ 62 :: T) = (60 :: 45 :: (ds ++ [62])) ++ T by simp, List.drop_left]
  rw [if_pos hg, hdrop, hl, ht]
  have hlen : ((60 :: 45 :: (ds ++ 62 :: T)).length : Int) - (2 + (ds.length + 1) : Nat) = T.length := by
    simp; omega
  have hm : (18446744073709551616 - parseDec ds) % 8 = (8 - parseDec ds % 8) % 8 := by omega
  rw [hm, ← hlen]
  rfl

/-- C65: a priority of 2^64 or more, which no unsigned long holds, is read as the largest one, so the priority is 7. -/
theorem C65_over (e : KEntry) (ds T : Bytes) (ht : e.text = 60 :: (ds ++ 62 :: T)) (hl : e.len = e.text.length)
    (hd : ∀ b ∈ ds, isDigit b = true) (h2 : 1 < ds.length) (h : 2 ^ 64 ≤ parseDec ds) :
    parsePrefix e = { e with priority := 7, text := T, len := T.length } := by
  have hne : ds ≠ [] := fun x => by rw [x] at h2; simp at h2
  have hst : strtoul (ds ++ 62 :: T) = (18446744073709551615, ds.length) := by
    have hp := strtoParts_digits [] ds (62 :: T) (by simp) hd hne (by intro b hb; simp at hb; rw [← hb]; decide)
    simp only [List.nil_append, List.length_nil, Nat.zero_add] at hp
    unfold strtoul
    rw [hp]
    dsimp only
    rw [if_pos (show parseDec ds ≥ 18446744073709551616 from h)]
  unfold parsePrefix
  rw [if_neg (by rw [hl, ht]; simp; omega)]
  have h3 : e.text[2]? ≠ some 62 := by
    obtain ⟨a, b, r, hds⟩ : ∃ a b r, ds = a :: b :: r := by
      rcases ds with _ | ⟨a, _ | ⟨b, r⟩⟩
      · simp at h2
      · simp at h2
      · exact ⟨a, b, r, rfl⟩
    have hb := hd b (by rw [hds]; simp)
    rw [ht, hds]
    simp
    rintro rfl
    revert hb; decide
  rw [if_neg h3, show e.text.drop 1 = ds ++ 62 :: T by rw [ht]; rfl, hst]
  dsimp only
  have hg : e.text[1 + ds.length]? = some 62 := by
    rw [ht, Nat.add_comm, List.getElem?_cons_succ, List.getElem?_append_right (Nat.le_refl _)]; simp
  have hdrop : e.text.drop (2 + ds.length) = T := by
    rw [ht, show 2 + ds.length = (60 :: (ds ++ [62])).length by simp; omega,
      show 60 :: (ds ++ 62 :: T) = (60 :: (ds ++ [62])) ++ T by simp, List.drop_left]
  have hlen : ((60 :: (ds ++ 62 :: T)).length : Int) - (2 + ds.length : Nat) = T.length := by simp; omega
  rw [if_pos hg, hdrop, hl, ht, ← hlen]
  rfl

example : (parsePrefix { priority := 6, sec := 0, nsec := 0, text := ascii "<18446744073709551616>x", len := 23 }).priority = 7 := by decide +kernel

/-! ### Records of /dev/kmsg -/

/-- C40: for a record with three non-empty fields ended by commas, reading stays
inside the record, whatever it contains; without `;` after them the result is
-1. -/
theorem C40_receive_none (p s u X rest : Bytes) (hp : p ≠ []) (hs : s ≠ []) (hu : u ≠ [])
    (hp' : ∀ b ∈ p, b ≠ 44 ∧ b ≠ 0) (hs' : ∀ b ∈ s, b ≠ 44 ∧ b ≠ 0) (hu' : ∀ b ∈ u, b ≠ 44 ∧ b ≠ 0) (hX : NoNul X)
    (h : ∀ b ∈ X, b ≠ 59) :
    klogReceive (p ++ 44 :: (s ++ 44 :: (u ++ 44 :: (X ++ 0 :: rest)))) = some none := by
  have h1 := strtok_comma [] p (s ++ 44 :: (u ++ 44 :: (X ++ 0 :: rest))) hp hp'
  have h2 := strtok_comma (p ++ [0]) s (u ++ 44 :: (X ++ 0 :: rest)) hs hs'
  have h3 := strtok_comma (p ++ [0] ++ s ++ [0]) u (X ++ 0 :: rest) hu hu'
  simp only [List.append_assoc, List.cons_append, List.nil_append, List.length_append, List.length_cons, List.length_nil, Nat.zero_add] at h1 h2 h3
  unfold klogReceive
  rw [h1]
  simp only [Option.bind_eq_bind, Option.bind_some]
  rw [h2]
  simp only [Option.bind_some]
  rw [show p.length + 1 + s.length + 1 = p.length + (s.length + 1 + 1) by omega, h3]
  simp only [Option.bind_some]
  have ht : strAt (p ++ 0 :: (s ++ 0 :: (u ++ 0 :: (X ++ 0 :: rest)))) (p.length + (s.length + 1 + 1)) = some u :=
    strAt_eq (r := X ++ 0 :: rest) (by
      rw [show p ++ 0 :: (s ++ 0 :: (u ++ 0 :: (X ++ 0 :: rest))) = (p ++ [0] ++ s ++ [0]) ++ (u ++ 0 :: (X ++ 0 :: rest)) by simp,
        show p.length + (s.length + 1 + 1) = (p ++ [0] ++ s ++ [0]).length by simp, List.drop_left])
      (fun b hb => (hu' b hb).2)
  have hpr : strAt (p ++ 0 :: (s ++ 0 :: (u ++ 0 :: (X ++ 0 :: rest)))) 0 = some p :=
    strAt_eq (r := s ++ 0 :: (u ++ 0 :: (X ++ 0 :: rest))) rfl (fun b hb => (hp' b hb).2)
  have hsc : strchr (p ++ 0 :: (s ++ 0 :: (u ++ 0 :: (X ++ 0 :: rest)))) (p.length + (s.length + 1 + 1) + u.length + 1) 59
      ((p ++ 0 :: (s ++ 0 :: (u ++ 0 :: (X ++ 0 :: rest)))).length + 1) = some none :=
    strchr_none (a := X) (r := rest) (by decide) (by
      rw [show p ++ 0 :: (s ++ 0 :: (u ++ 0 :: (X ++ 0 :: rest))) = (p ++ [0] ++ s ++ [0] ++ u ++ [0]) ++ (X ++ 0 :: rest) by simp,
        show p.length + (s.length + 1 + 1) + u.length + 1 = (p ++ [0] ++ s ++ [0] ++ u ++ [0]).length by simp; omega, List.drop_left])
      hX h (by simp only [List.length_append, List.length_cons]; omega)
  rw [ht, hpr]
  simp only [Option.bind_some]
  rw [hsc]
  rfl

/-- C40: with a `;` after the third field the record is accepted, its message
begins there, and its fields are the priority and the time. -/
theorem C40_receive (p s u fl body rest : Bytes) (hp : p ≠ []) (hs : s ≠ []) (hu : u ≠ [])
    (hp' : ∀ b ∈ p, b ≠ 44 ∧ b ≠ 0) (hs' : ∀ b ∈ s, b ≠ 44 ∧ b ≠ 0) (hu' : ∀ b ∈ u, b ≠ 44 ∧ b ≠ 0) (hfl : NoNul fl)
    (h : ∀ b ∈ fl, b ≠ 59) :
    klogReceive (p ++ 44 :: (s ++ 44 :: (u ++ 44 :: (fl ++ 59 :: (body ++ 0 :: rest))))) = some (some
      { buf := p ++ 0 :: (s ++ 0 :: (u ++ 0 :: (fl ++ 59 :: (body ++ 0 :: rest)))), priority := and7 (strtol p), sec := secOf (strtol u), nsec := nsecOf (strtol u), stamp := toU64 (strtol u), semi := p.length + s.length + u.length + fl.length + 3 }) := by
  have h1 := strtok_comma [] p (s ++ 44 :: (u ++ 44 :: (fl ++ 59 :: (body ++ 0 :: rest)))) hp hp'
  have h2 := strtok_comma (p ++ [0]) s (u ++ 44 :: (fl ++ 59 :: (body ++ 0 :: rest))) hs hs'
  have h3 := strtok_comma (p ++ [0] ++ s ++ [0]) u (fl ++ 59 :: (body ++ 0 :: rest)) hu hu'
  simp only [List.append_assoc, List.cons_append, List.nil_append, List.length_append, List.length_cons, List.length_nil, Nat.zero_add] at h1 h2 h3
  unfold klogReceive
  rw [h1]
  simp only [Option.bind_eq_bind, Option.bind_some]
  rw [h2]
  simp only [Option.bind_some]
  rw [show p.length + 1 + s.length + 1 = p.length + (s.length + 1 + 1) by omega, h3]
  simp only [Option.bind_some]
  have ht : strAt (p ++ 0 :: (s ++ 0 :: (u ++ 0 :: (fl ++ 59 :: (body ++ 0 :: rest))))) (p.length + (s.length + 1 + 1)) = some u :=
    strAt_eq (r := fl ++ 59 :: (body ++ 0 :: rest)) (by
      rw [show p ++ 0 :: (s ++ 0 :: (u ++ 0 :: (fl ++ 59 :: (body ++ 0 :: rest)))) = (p ++ [0] ++ s ++ [0]) ++ (u ++ 0 :: (fl ++ 59 :: (body ++ 0 :: rest))) by simp,
        show p.length + (s.length + 1 + 1) = (p ++ [0] ++ s ++ [0]).length by simp, List.drop_left])
      (fun b hb => (hu' b hb).2)
  have hpr : strAt (p ++ 0 :: (s ++ 0 :: (u ++ 0 :: (fl ++ 59 :: (body ++ 0 :: rest))))) 0 = some p :=
    strAt_eq (r := s ++ 0 :: (u ++ 0 :: (fl ++ 59 :: (body ++ 0 :: rest)))) rfl (fun b hb => (hp' b hb).2)
  have hsc : strchr (p ++ 0 :: (s ++ 0 :: (u ++ 0 :: (fl ++ 59 :: (body ++ 0 :: rest))))) (p.length + (s.length + 1 + 1) + u.length + 1) 59
      ((p ++ 0 :: (s ++ 0 :: (u ++ 0 :: (fl ++ 59 :: (body ++ 0 :: rest))))).length + 1) = some (some (p.length + (s.length + 1 + 1) + u.length + 1 + fl.length)) :=
    strchr_found (a := fl) (r := body ++ 0 :: rest) (by
      rw [show p ++ 0 :: (s ++ 0 :: (u ++ 0 :: (fl ++ 59 :: (body ++ 0 :: rest)))) = (p ++ [0] ++ s ++ [0] ++ u ++ [0]) ++ (fl ++ 59 :: (body ++ 0 :: rest)) by simp,
        show p.length + (s.length + 1 + 1) + u.length + 1 = (p ++ [0] ++ s ++ [0] ++ u ++ [0]).length by simp; omega, List.drop_left])
      hfl h (by simp only [List.length_append, List.length_cons]; omega)
  rw [ht, hpr]
  simp only [Option.bind_some]
  rw [hsc]
  simp only [Option.bind_some]
  show some (some _) = some (some _)
  congr 3
  omega

/-- C40 is false of a record whose third field ends the buffer: 199 bytes read in
the frame buffer of 200 bytes. -/
theorem C40_false (n : Nat) (hn : 0 < n) : klogReceive ([54, 44, 49, 44] ++ (List.replicate n 53 ++ [0])) = none := by
  have hu : List.replicate n (53 : UInt8) ≠ [] := by
    intro e; have := congrArg List.length e; simp at this; omega
  have hu' : ∀ b ∈ List.replicate n (53 : UInt8), b ≠ 44 ∧ b ≠ 0 := by
    intro b hb; rw [(List.mem_replicate.mp hb).2]; decide
  have h1 := strtok_comma [] [54] (49 :: 44 :: (List.replicate n 53 ++ [0])) (by simp) (by intro b hb; simp at hb; rw [hb]; decide)
  have h2 := strtok_comma [54, 0] [49] (List.replicate n 53 ++ [0]) (by simp) (by intro b hb; simp at hb; rw [hb]; decide)
  have h3 := strtok_end [54, 0, 49, 0] (List.replicate n 53) [] hu hu'
  simp only [List.cons_append, List.nil_append, List.length_cons, List.length_nil, Nat.zero_add, Nat.reduceAdd] at h1 h2 h3
  unfold klogReceive
  simp only [List.cons_append, List.nil_append]
  rw [h1]
  simp only [Option.bind_eq_bind, Option.bind_some]
  rw [h2]
  simp only [Option.bind_some]
  rw [h3]
  simp only [Option.bind_some]
  have ht : strAt (54 :: 0 :: 49 :: 0 :: (List.replicate n 53 ++ [0])) 4 = some (List.replicate n 53) :=
    strAt_eq (r := []) rfl (fun b hb => (hu' b hb).2)
  have hpr : strAt (54 :: 0 :: 49 :: 0 :: (List.replicate n 53 ++ [0])) 0 = some [54] :=
    strAt_eq (r := 49 :: 0 :: (List.replicate n 53 ++ [0])) rfl (by intro b hb; simp at hb; rw [hb]; decide)
  rw [ht, hpr]
  simp only [Option.bind_some]
  have hrd : rd (54 :: 0 :: 49 :: 0 :: (List.replicate n 53 ++ [0])) (4 + (List.replicate n (53 : UInt8)).length + 1) = none := by
    unfold rd; rw [List.getElem?_eq_none]; simp; omega
  have : strchr (54 :: 0 :: 49 :: 0 :: (List.replicate n 53 ++ [0])) (4 + (List.replicate n (53 : UInt8)).length + 1) 59
      (((54 : UInt8) :: 0 :: 49 :: 0 :: (List.replicate n 53 ++ [0])).length + 1) = none := by
    unfold strchr; rw [hrd]; rfl
  rw [this]
  rfl

/-- C40: without a newline the record is refused. -/
theorem C40_parse_none (f : KFrame) (pre X r : Bytes) (c : UInt8) (hb : f.buf = pre ++ c :: (X ++ 0 :: r)) (hs : f.semi = pre.length)
    (hX : NoNul X) (h : ∀ b ∈ X, b ≠ 10) : klogParse f = some none := by
  have hd : f.buf.drop (f.semi + 1) = X ++ 0 :: r := by
    rw [hb, hs, show pre ++ c :: (X ++ 0 :: r) = (pre ++ [c]) ++ (X ++ 0 :: r) by simp, show pre.length + 1 = (pre ++ [c]).length by simp, List.drop_left]
  have hl := drop_length_of hd (by simp)
  unfold klogParse
  dsimp only
  rw [strchr_none (by decide) hd hX h (by rw [List.length_append] at hl; omega)]
  rfl

/-- C40: whatever the message, parsing stays inside the buffer; the message is the
first line with its escapes decoded, it is NUL-terminated, its length counts that
NUL, and it is never longer than the line. -/
theorem C40_parse (f : KFrame) (pre line more r : Bytes) (c : UInt8) (hb : f.buf = pre ++ c :: (line ++ 10 :: (more ++ 0 :: r)))
    (hs : f.semi = pre.length) (h0 : NoNul line) (h : ∀ b ∈ line, b ≠ 10) :
    ∃ m tl, klogParse f = some (some (m, pre.length + 1, (unesc line).length + 1)) ∧ m.length = f.buf.length ∧
      m.drop (pre.length + 1) = unesc line ++ 0 :: tl ∧ (unesc line).length ≤ line.length := by
  have hd : f.buf.drop (f.semi + 1) = line ++ 10 :: (more ++ 0 :: r) := by
    rw [hb, hs, show pre ++ c :: (line ++ 10 :: (more ++ 0 :: r)) = (pre ++ [c]) ++ (line ++ 10 :: (more ++ 0 :: r)) by simp,
      show pre.length + 1 = (pre ++ [c]).length by simp, List.drop_left]
  have hl := drop_length_of hd (by simp)
  have hlen : f.semi + 1 + line.length < f.buf.length := by
    rw [List.length_append, List.length_cons] at hl; omega
  have hset := drop_set_mid (v := 0) hd
  have hsl : (f.buf.set (f.semi + 1 + line.length) 0).length = f.buf.length := by simp
  have hm : f.buf.set (f.semi + 1 + line.length) 0 = (pre ++ [c]) ++ (line ++ 0 :: (more ++ 0 :: r)) := by
    rw [hb, hs, show pre ++ c :: (line ++ 10 :: (more ++ 0 :: r)) = ((pre ++ [c]) ++ line) ++ 10 :: (more ++ 0 :: r) by simp,
      show pre.length + 1 + line.length = ((pre ++ [c]) ++ line).length by simp; omega, set_at_length]
    simp
  unfold klogParse
  dsimp only
  rw [strchr_found hd h0 h (by omega)]
  simp only [Option.bind_eq_bind, Option.bind_some]
  rw [wr_eq hlen]
  simp only [Option.bind_some]
  by_cases hbs : ∀ b ∈ line, b ≠ 92
  · rw [strchr_none (by decide) hset h0 hbs (by omega)]
    have hu : unesc line = line := by
      have := unesc_plain line [] hbs
      rw [List.append_nil] at this
      rw [this]; simp [unesc]
    refine ⟨f.buf.set (f.semi + 1 + line.length) 0, more ++ 0 :: r, ?_, hsl, ?_, unesc_length line⟩
    · simp only [Option.bind_some]
      rw [hu, hs]
      show some (some _) = some (some _)
      congr 3
      simp
    · rw [hu, ← hs]; exact hset
  · have hmem : (92 : UInt8) ∈ line := by
      rcases Classical.em ((92 : UInt8) ∈ line) with h | h
      · exact h
      · exact (hbs fun b hb e => h (by rw [← e]; exact hb)).elim
    obtain ⟨a, b, hab, hna⟩ := List.eq_append_cons_of_mem hmem
    have hna' : ∀ x ∈ a, x ≠ 92 := fun x hx e => hna (e ▸ hx)
    have hset' : (f.buf.set (f.semi + 1 + line.length) 0).drop (f.semi + 1) = a ++ 92 :: (b ++ 0 :: (more ++ 0 :: r)) := by
      rw [hset, hab]; simp
    rw [strchr_found hset' (fun x hx => h0 x (by rw [hab]; simp [hx])) hna' (by
      rw [hab, List.length_append] at hlen; omega)]
    simp only [Option.bind_some]
    have hu : unesc line = a ++ unesc (92 :: b) := by rw [hab, unesc_plain a _ hna']
    obtain ⟨mid', h1, h2⟩ := unescapeLoop_spec ((f.buf.set (f.semi + 1 + line.length) 0).length + 1) (pre ++ [c] ++ a) [] (92 :: b) (more ++ 0 :: r)
      (fun x hx => h0 x (by rw [hab]; exact List.mem_append_right _ hx)) (by
        rw [hsl]; rw [hab, List.length_append] at hlen; omega)
    have hq : f.semi + 1 + a.length = (pre ++ [c] ++ a).length := by rw [hs]; simp; omega
    have hm2 : f.buf.set (f.semi + 1 + line.length) 0 = pre ++ [c] ++ a ++ ([] ++ (92 :: b ++ 0 :: (more ++ 0 :: r))) := by
      rw [hm, hab]; simp
    rw [← hm2, ← hq] at h1
    simp only [List.length_nil, Nat.add_zero] at h1
    rw [h1]
    simp only [Option.bind_some]
    rw [List.length_nil, Nat.zero_add] at h2
    have hml : (pre ++ [c] ++ a ++ unesc (92 :: b) ++ (mid' ++ 0 :: (more ++ 0 :: r))).length = f.buf.length := by
      rw [← hsl, hm2]
      simp only [List.length_append, List.length_cons, List.length_nil] at h2 ⊢
      omega
    have hql : f.semi + 1 + a.length + (unesc (92 :: b)).length = (pre ++ [c] ++ a ++ unesc (92 :: b)).length := by
      rw [List.length_append, ← hq]
    rw [wr_eq (by rw [hml, ← hml, hql]; simp only [List.length_append, List.length_cons]; omega)]
    simp only [Option.bind_some]
    have hne : mid' ++ 0 :: (more ++ 0 :: r) ≠ [] := by simp
    obtain ⟨z, tl, hz⟩ := List.exists_cons_of_ne_nil hne
    refine ⟨(pre ++ [c] ++ a ++ unesc (92 :: b) ++ (mid' ++ 0 :: (more ++ 0 :: r))).set (f.semi + 1 + a.length + (unesc (92 :: b)).length) 0, tl, ?_, ?_, ?_, unesc_length line⟩
    · rw [hu, hs, List.length_append]
      show some (some _) = some (some _)
      congr 3
      simp; omega
    · rw [List.length_set, hml]
    · rw [hz, hql, set_at_length, hu]
      rw [show pre ++ [c] ++ a ++ unesc (92 :: b) ++ 0 :: tl = (pre ++ [c]) ++ (a ++ unesc (92 :: b) ++ 0 :: tl) by simp,
        show pre.length + 1 = (pre ++ [c]).length by simp, List.drop_left]

/-- A record of /dev/kmsg (Linux, `info_print_ext_header` and
`msg_print_ext_body`): facility and level, sequence number, microseconds, flags
(and further fields), then the escaped text and a dictionary. -/
def kmsgRecord (prio seq usec : Nat) (flags text dict : Bytes) : Bytes :=
  decNat prio ++ 44 :: (decNat seq ++ 44 :: (decNat usec ++ 44 :: (flags ++ 59 :: (kmsgEsc text ++ 10 :: dict))))

theorem decNat_field (n : Nat) : ∀ b ∈ decNat n, b ≠ 44 ∧ b ≠ 0 := by
  intro b hb
  have := decNat_digits n b hb
  exact ⟨(digit_ne this).1, fun e => by rw [e] at this; revert this; decide⟩

/-- C40, C64: a record of the kernel is displayed with the level, the time and
the very text that the kernel logged, whatever bytes that text holds. -/
theorem C64_kmsg (prio seq usec : Nat) (flags text dict rest : Bytes) (hf : NoNul flags) (hf' : ∀ b ∈ flags, b ≠ 59)
    (ht : NoNul text) (hp : prio < 9223372036854775808) (hu : usec < 9223372036854775808) :
    ∃ f m p, klogReceive (kmsgRecord prio seq usec flags text dict ++ 0 :: rest) = some (some f) ∧
      f.priority = prio % 8 ∧ f.stamp = usec ∧ f.sec = usec / 1000000 ∧ f.nsec = usec % 1000000 * 1000 ∧
      klogParse f = some (some (m, p, text.length + 1)) ∧ strAt m p = some text := by
  have h := C40_receive (decNat prio) (decNat seq) (decNat usec) flags (kmsgEsc text ++ 10 :: dict) rest
    (decNat_ne_nil' _) (decNat_ne_nil' _) (decNat_ne_nil' _) (decNat_field _) (decNat_field _) (decNat_field _) hf hf'
  have e1 : strtol (decNat prio) = prio := by
    rw [strtol_digits _ (decNat_digits _) (decNat_ne_nil' _) (by rw [parseDec_decNat]; exact hp), parseDec_decNat]
  have e2 : strtol (decNat usec) = usec := by
    rw [strtol_digits _ (decNat_digits _) (decNat_ne_nil' _) (by rw [parseDec_decNat]; exact hu), parseDec_decNat]
  have e3 : secOf (usec : Int) = (usec : Int) / 1000000 := by
    unfold secOf
    show ((usec : Int) % 18446744073709551616) / 1000000 = _
    omega
  have e4 : nsecOf (usec : Int) = ((usec : Int) - (usec : Int) / 1000000 * 1000000) * 1000 := by
    unfold nsecOf
    rw [e3]
    show ((((usec : Int) - (usec : Int) / 1000000 * 1000000) % 18446744073709551616) * 1000) % 18446744073709551616 = _
    omega
  have e5 : toU64 (usec : Int) = usec := by
    show (usec : Int) % 18446744073709551616 = _
    omega
  rw [e1, e2, e3, e4, e5] at h
  have hbuf : kmsgRecord prio seq usec flags text dict ++ 0 :: rest =
      decNat prio ++ 44 :: (decNat seq ++ 44 :: (decNat usec ++ 44 :: (flags ++ 59 :: (kmsgEsc text ++ 10 :: dict ++ 0 :: rest)))) := by
    unfold kmsgRecord; simp
  rw [hbuf]
  have hb := kmsgEsc_bytes text
  obtain ⟨m, tl, h1, _, h3, _⟩ := C40_parse
    { buf := decNat prio ++ 0 :: (decNat seq ++ 0 :: (decNat usec ++ 0 :: (flags ++ 59 :: (kmsgEsc text ++ 10 :: dict ++ 0 :: rest)))), priority := and7 prio, sec := (usec : Int) / 1000000, nsec := ((usec : Int) - (usec : Int) / 1000000 * 1000000) * 1000, stamp := usec, semi := (decNat prio).length + (decNat seq).length + (decNat usec).length + flags.length + 3 }
    (decNat prio ++ 0 :: (decNat seq ++ 0 :: (decNat usec ++ 0 :: flags))) (kmsgEsc text) dict rest 59 (by simp) (by simp; omega)
    (fun b hb' e => by have := hb b hb'; rw [e] at this; simp at this)
    (fun b hb' e => by have := hb b hb'; rw [e] at this; revert this; decide)
  rw [unesc_kmsgEsc] at h1 h3
  refine ⟨_, m, _, h, ?_, rfl, rfl, ?_, h1, strAt_eq h3 ht⟩
  · show ((prio : Int) % 8).toNat = prio % 8
    omega
  · show ((usec : Int) - (usec : Int) / 1000000 * 1000000) * 1000 = _
    omega

/-! ### Lines copied by kmsgd -/

/-- C65: a kernel line `<N>[  S.U] text` read from the ulog device of kmsgd is
displayed with the level, the time and the text it holds. -/
theorem C65_fix (ps sp ss us msg : Bytes) (e : KEntry)
    (hp : ∀ b ∈ ps, isDigit b = true) (hp0 : ps ≠ []) (hpv : parseDec ps < 18446744073709551616)
    (hsp : ∀ b ∈ sp, b = 32)
    (hs : ∀ b ∈ ss, isDigit b = true) (hs0 : ss ≠ []) (hsv : parseDec ss < 18446744073709551616)
    (hu : ∀ b ∈ us, isDigit b = true) (hu0 : us ≠ []) (huv : parseDec us < 1000000)
    (ht : e.text = [60] ++ ps ++ [62] ++ [91] ++ sp ++ ss ++ [46] ++ us ++ [93, 32] ++ msg) (hl : e.len = e.text.length + 1) :
    kmsgdFix e = { text := msg, len := msg.length + 1, priority := parseDec ps % 8, sec := parseDec ss, nsec := parseDec us * 1000 } := by
  have hpre : parsePrefix e = { e with text := [91] ++ sp ++ ss ++ [46] ++ us ++ [93, 32] ++ msg, len := (([91] ++ sp ++ ss ++ [46] ++ us ++ [93, 32] ++ msg).length : Int) + 1, priority := parseDec ps % 8 } := by
    generalize hT : [91] ++ sp ++ ss ++ [46] ++ us ++ [93, 32] ++ msg = T
    have ht' : e.text = 60 :: (ps ++ 62 :: T) := by rw [ht, ← hT]; simp
    have hlen : (e.len : Int) = ps.length + T.length + 3 := by rw [hl, ht']; simp; omega
    have hpl : 0 < ps.length := List.length_pos_iff.mpr hp0
    unfold parsePrefix
    have hTl : 0 < T.length := by rw [← hT]; simp
    rw [if_neg (by rw [ht']; simp; omega)]
    by_cases h1 : ps.length = 1
    · obtain ⟨d, hd⟩ := List.length_eq_one_iff.mp h1
      subst hd
      have hdd := hp d (by simp)
      rw [if_pos (by rw [ht']; simp)]
      dsimp only
      have hg : e.text[1]?.getD 0 = d := by rw [ht']; simp
      rw [hg, hdd]
      have hdrop : e.text.drop 3 = T := by rw [ht']; simp
      rw [hdrop]
      have hv : parseDec [d] = d.toNat - 48 := by simp [parseDec]
      rw [hv]
      simp only [if_true]
      congr 1
      rw [hlen]; simp; omega
    · obtain ⟨a, b, ps', hps⟩ : ∃ a b ps', ps = a :: b :: ps' := by
        rcases ps with _ | ⟨a, _ | ⟨b, ps'⟩⟩
        · exact absurd rfl hp0
        · exact absurd rfl h1
        · exact ⟨a, b, ps', rfl⟩
      have hb : isDigit b = true := hp b (by rw [hps]; simp)
      rw [if_neg (by rw [ht', hps]; simp; intro e; rw [e] at hb; revert hb; decide)]
      have hst : strtoul (e.text.drop 1) = (parseDec ps, ps.length) := by
        have := strtoul_digits [] ps (62 :: T) (by simp) hp hp0 (by intro b hb; simp at hb; rw [← hb]; decide) hpv
        rw [ht']
        simpa using this
      rw [hst]
      dsimp only
      have hg : e.text[1 + ps.length]? = some 62 := by
        rw [ht', Nat.add_comm, List.getElem?_cons_succ, List.getElem?_append_right (Nat.le_refl _)]; simp
      rw [if_pos hg]
      have hdrop : e.text.drop (2 + ps.length) = T := by
        rw [ht', show 2 + ps.length = (60 :: (ps ++ [62])).length by simp; omega, show 60 :: (ps ++ 62 :: T) = (60 :: (ps ++ [62])) ++ T by simp, List.drop_left]
      rw [hdrop]
      congr 1
      rw [hlen]; omega
  unfold kmsgdFix
  rw [hpre]
  unfold parseTimestamp
  dsimp only
  have hT' : [91] ++ sp ++ ss ++ [46] ++ us ++ [93, 32] ++ msg = 91 :: (sp ++ (ss ++ (46 :: (us ++ 93 :: 32 :: msg)))) := by simp
  rw [hT']
  have hss : strtoul ((91 :: (sp ++ (ss ++ (46 :: (us ++ 93 :: 32 :: msg))))).drop 1) = (parseDec ss, sp.length + ss.length) := by
    have := strtoul_digits sp ss (46 :: (us ++ 93 :: 32 :: msg)) (fun b hb => by rw [hsp b hb]; decide) hs hs0
      (by intro b hb; simp at hb; rw [← hb]; decide) hsv
    simpa using this
  have hg1 : (91 :: (sp ++ (ss ++ (46 :: (us ++ 93 :: 32 :: msg)))))[1 + (sp.length + ss.length)]? = some 46 := by
    rw [show 91 :: (sp ++ (ss ++ (46 :: (us ++ 93 :: 32 :: msg)))) = (91 :: (sp ++ ss)) ++ (46 :: (us ++ 93 :: 32 :: msg)) by simp,
      List.getElem?_append_right (by simp; omega), show 1 + (sp.length + ss.length) - (91 :: (sp ++ ss)).length = 0 by simp; omega]
    rfl
  have hd1 : (91 :: (sp ++ (ss ++ (46 :: (us ++ 93 :: 32 :: msg))))).drop (2 + (sp.length + ss.length)) = us ++ 93 :: 32 :: msg := by
    rw [show 91 :: (sp ++ (ss ++ (46 :: (us ++ 93 :: 32 :: msg)))) = (91 :: (sp ++ ss) ++ [46]) ++ (us ++ 93 :: 32 :: msg) by simp,
      show 2 + (sp.length + ss.length) = (91 :: (sp ++ ss) ++ [46]).length by simp; omega, List.drop_left]
  have hus : strtoul (us ++ 93 :: 32 :: msg) = (parseDec us, us.length) := by
    have := strtoul_digits [] us (93 :: 32 :: msg) (by simp) hu hu0 (by intro b hb; simp at hb; rw [← hb]; decide) (by omega)
    simpa using this
  have hg2 : ∀ k, (91 :: (sp ++ (ss ++ (46 :: (us ++ 93 :: 32 :: msg)))))[2 + (sp.length + ss.length) + us.length + k]? = (93 :: 32 :: msg)[k]? := by
    intro k
    rw [show 91 :: (sp ++ (ss ++ (46 :: (us ++ 93 :: 32 :: msg)))) = (91 :: (sp ++ ss) ++ [46] ++ us) ++ (93 :: 32 :: msg) by simp,
      List.getElem?_append_right (by simp; omega)]
    congr 1
    simp; omega
  have hg3 := hg2 0
  have hg4 := hg2 1
  rw [Nat.add_zero] at hg3
  rw [hss]
  dsimp only
  rw [if_neg (by simp), if_neg (by rw [hg1]; simp), hd1, hus]
  dsimp only
  rw [if_pos ⟨by rw [hg3]; rfl, by rw [show 3 + (sp.length + ss.length) + us.length = 2 + (sp.length + ss.length) + us.length + 1 by omega, hg4]; rfl⟩]
  have hd2 : (91 :: (sp ++ (ss ++ (46 :: (us ++ 93 :: 32 :: msg))))).drop (4 + (sp.length + ss.length) + us.length) = msg := by
    rw [show 91 :: (sp ++ (ss ++ (46 :: (us ++ 93 :: 32 :: msg)))) = (91 :: (sp ++ ss) ++ [46] ++ us ++ [93, 32]) ++ msg by simp,
      show 4 + (sp.length + ss.length) + us.length = (91 :: (sp ++ ss) ++ [46] ++ us ++ [93, 32]).length by simp; omega, List.drop_left]
  rw [hd2, Nat.mod_eq_of_lt (show parseDec us * 1000 < 18446744073709551616 by omega)]
  congr 1
  simp; omega

theorem strtoul_used (s : Bytes) : (strtoul s).2 ≤ s.length := by
  have h : (strtoParts s).2.2 ≤ s.length := by
    unfold strtoParts
    dsimp only
    generalize hw : (s.takeWhile isSpace).length = w
    have hwl : w ≤ s.length := by rw [← hw]; exact (List.takeWhile_prefix _).length_le
    generalize hsg : (if (s.drop w).head? = some 45 ∨ (s.drop w).head? = some 43 then 1 else 0) = sg
    split
    · simp
    · have h1 : (((s.drop w).drop sg).takeWhile isDigit).length ≤ ((s.drop w).drop sg).length := (List.takeWhile_prefix _).length_le
      rename_i hne
      have h2 : 0 < (((s.drop w).drop sg).takeWhile isDigit).length := List.length_pos_iff.mpr hne
      rw [List.length_drop, List.length_drop] at h1
      dsimp only
      omega
  exact h

/-- C65: whatever the line holds, what is displayed is an end of it, its length
counts its NUL, and the level is from 0 to 7. -/
theorem C65_safe (e : KEntry) (hl : e.len = e.text.length + 1) (hp : e.priority < 8) :
    (kmsgdFix e).text <:+ e.text ∧ (kmsgdFix e).len = (kmsgdFix e).text.length + 1 ∧ (kmsgdFix e).priority < 8 := by
  have h1 : ∀ e : KEntry, e.len = e.text.length + 1 → e.priority < 8 →
      (parsePrefix e).text <:+ e.text ∧ (parsePrefix e).len = (parsePrefix e).text.length + 1 ∧ (parsePrefix e).priority < 8 := by
    intro e hl hp
    unfold parsePrefix
    split
    · exact ⟨List.suffix_refl _, hl, hp⟩
    · rename_i hh
      split
      · rename_i h2
        have h3 : 2 < e.text.length := by
          rcases Nat.lt_or_ge 2 e.text.length with h | h
          · exact h
          · rw [List.getElem?_eq_none h] at h2; exact absurd h2 (by simp)
        refine ⟨List.drop_suffix _ _, ?_, ?_⟩
        · dsimp only; rw [List.length_drop, hl]; omega
        · dsimp only; split <;> omega
      · dsimp only
        split
        · rename_i h2
          have h3 : 1 + (strtoul (e.text.drop 1)).2 < e.text.length := by
            rcases Nat.lt_or_ge (1 + (strtoul (e.text.drop 1)).2) e.text.length with h | h
            · exact h
            · rw [List.getElem?_eq_none h] at h2; exact absurd h2 (by simp)
          refine ⟨List.drop_suffix _ _, ?_, ?_⟩
          · dsimp only; rw [List.length_drop, hl]; omega
          · dsimp only; omega
        · exact ⟨List.suffix_refl _, hl, by dsimp only; omega⟩
  have h2 : ∀ e : KEntry, e.len = e.text.length + 1 → e.priority < 8 →
      (parseTimestamp e).text <:+ e.text ∧ (parseTimestamp e).len = (parseTimestamp e).text.length + 1 ∧ (parseTimestamp e).priority < 8 := by
    intro e hl hp
    unfold parseTimestamp
    cases hst : strtoul (e.text.drop 1) with
    | mk s n =>
      dsimp only
      split
      · exact ⟨List.suffix_refl _, hl, hp⟩
      · split
        · exact ⟨List.suffix_refl _, hl, hp⟩
        · cases hsu : strtoul (e.text.drop (2 + n)) with
          | mk u k =>
            dsimp only
            split
            · rename_i h3
              have h4 : 3 + n + k < e.text.length := by
                rcases Nat.lt_or_ge (3 + n + k) e.text.length with h | h
                · exact h
                · rw [List.getElem?_eq_none h] at h3; exact absurd h3.2 (by simp)
              refine ⟨List.drop_suffix _ _, ?_, hp⟩
              dsimp only; rw [List.length_drop, hl]; omega
            · exact ⟨List.suffix_refl _, hl, hp⟩
  obtain ⟨a1, a2, a3⟩ := h1 e hl hp
  obtain ⟨b1, b2, b3⟩ := h2 _ a2 a3
  exact ⟨b1.trans a1, b2, b3⟩

end Verif.Ulogcat
