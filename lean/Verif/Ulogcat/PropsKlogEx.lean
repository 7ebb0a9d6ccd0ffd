import Verif.Ulogcat.PropsKlog

/-!
# Which kernel records are read outside their buffer
-/
namespace Verif.Ulogcat

def Commas (a : Bytes) : Prop := ∀ b ∈ a, b = 44

/-- A field: at least one byte, no comma, no NUL. -/
def Field (u : Bytes) : Prop := u ≠ [] ∧ ∀ b ∈ u, b ≠ 44 ∧ b ≠ 0

/-- A record that consists of exactly three fields and nothing after them. -/
def ThreeFields (t : Bytes) : Prop :=
  ∃ a p b s c u, t = a ++ (p ++ (b ++ (s ++ (c ++ u)))) ∧ Commas a ∧ Field p ∧ Commas b ∧ b ≠ [] ∧ Field s ∧ Commas c ∧ c ≠ [] ∧ Field u

theorem strtok_skip {m a r : Bytes} {c : UInt8} {p : Nat} (h : m.drop p = a ++ c :: r) (ha : Commas a) (hc : c ≠ 44) :
    strtokComma m p = strtokComma m (p + a.length) := by
  have hl := drop_length_of h (by simp)
  rw [List.length_append, List.length_cons] at hl
  have h1 := runLen_eq (m := m) (p := p) (n := m.length + 1) (f := (· == 44)) h (fun b hb => by simp [ha b hb]) (by simpa using hc) (by omega)
  have hd : m.drop (p + a.length) = [] ++ c :: r := by rw [← List.drop_drop, h, List.drop_left]; rfl
  have h2 := runLen_eq (m := m) (p := p + a.length) (n := m.length + 1) (f := (· == 44)) hd (by simp) (by simpa using hc) (by simp)
  unfold strtokComma
  rw [h1, h2]
  rfl

theorem field_split (x : Bytes) (h : NoNul x) :
    Commas x ∨ (∃ a u, x = a ++ u ∧ Commas a ∧ Field u) ∨ ∃ a u y, x = a ++ (u ++ 44 :: y) ∧ Commas a ∧ Field u := by
  have key : x = x.takeWhile (· == 44) ++ x.dropWhile (· == 44) := (List.takeWhile_append_dropWhile).symm
  have ha : Commas (x.takeWhile (· == 44)) := by
    intro b hb
    have := List.all_takeWhile (p := fun b : UInt8 => b == 44) (l := x)
    rw [List.all_eq_true] at this
    simpa using this b hb
  cases h1 : x.dropWhile (· == 44) with
  | nil => left; rw [h1, List.append_nil] at key; rw [key]; exact ha
  | cons c y =>
    right
    have hc : c ≠ 44 := by
      have := List.head_dropWhile_not (fun b : UInt8 => b == 44) (l := x) (by rw [h1]; simp)
      simp only [h1, List.head_cons] at this
      simpa using this
    have key2 : c :: y = (c :: y).takeWhile (· != 44) ++ (c :: y).dropWhile (· != 44) := (List.takeWhile_append_dropWhile).symm
    have hmem : ∀ b ∈ c :: y, b ∈ x := fun b hb => by rw [key, h1]; exact List.mem_append_right _ hb
    have hu : Field ((c :: y).takeWhile (· != 44)) := by
      refine ⟨by simp [List.takeWhile_cons, hc], fun b hb => ?_⟩
      have h44 := List.all_takeWhile (p := fun b : UInt8 => b != 44) (l := c :: y)
      rw [List.all_eq_true] at h44
      exact ⟨by simpa using h44 b hb, h b (hmem b ((List.takeWhile_sublist _).subset hb))⟩
    cases h2 : (c :: y).dropWhile (· != 44) with
    | nil =>
      left
      rw [h2, List.append_nil] at key2
      exact ⟨_, _, by rw [← key2, ← h1]; exact key, ha, hu⟩
    | cons d z =>
      right
      have hd : d = 44 := by
        have := List.head_dropWhile_not (fun b : UInt8 => b != 44) (l := c :: y) (by rw [h2]; simp)
        simp only [h2, List.head_cons] at this
        simpa using this
      rw [h2, hd] at key2
      exact ⟨_, _, z, by rw [← key2, ← h1]; exact key, ha, hu⟩

/-- Where `strtok_r` gets in a string without fields. -/
theorem strtok_none (pre x rest : Bytes) (hx : Commas x) :
    strtokComma (pre ++ (x ++ 0 :: rest)) pre.length = some (pre ++ (x ++ 0 :: rest), none, pre.length + x.length) := by
  have hd : (pre ++ (x ++ 0 :: rest)).drop pre.length = x ++ 0 :: rest := List.drop_left
  have h1 := runLen_eq (n := (pre ++ (x ++ 0 :: rest)).length + 1) (f := (· == 44)) hd (fun b hb => by simp [hx b hb]) (by decide)
    (by simp only [List.length_append, List.length_cons]; omega)
  have h2 : rd (pre ++ (x ++ 0 :: rest)) (pre.length + x.length) = some 0 := by
    rw [rd_drop hd]; simp
  unfold strtokComma
  rw [h1]
  simp only [Option.bind_eq_bind, Option.bind_some]
  rw [h2]
  rfl

theorem strtok_last (pre a u rest : Bytes) (ha : Commas a) (hu : Field u) :
    strtokComma (pre ++ (a ++ u ++ 0 :: rest)) pre.length =
      some (pre ++ (a ++ u ++ 0 :: rest), some (pre.length + a.length), pre.length + (a ++ u).length) := by
  obtain ⟨c, y, rfl⟩ := List.exists_cons_of_ne_nil hu.1
  have hc := hu.2 c (by simp)
  rw [strtok_skip (a := a) (c := c) (r := y ++ 0 :: rest) (by rw [List.drop_left]; simp) ha hc.1]
  have := strtok_end (pre ++ a) (c :: y) rest hu.1 hu.2
  simp only [List.append_assoc, List.length_append] at this ⊢
  rw [this, Nat.add_assoc]

theorem strtok_more (pre a u x rest : Bytes) (ha : Commas a) (hu : Field u) :
    strtokComma (pre ++ (a ++ (u ++ 44 :: x) ++ 0 :: rest)) pre.length =
      some (pre ++ (a ++ (u ++ 0 :: x) ++ 0 :: rest), some (pre.length + a.length), (pre ++ (a ++ (u ++ [0]))).length) := by
  obtain ⟨c, y, rfl⟩ := List.exists_cons_of_ne_nil hu.1
  have hc := hu.2 c (by simp)
  rw [strtok_skip (a := a) (c := c) (r := y ++ 44 :: (x ++ 0 :: rest)) (by rw [List.drop_left]; simp) ha hc.1]
  have := strtok_comma (pre ++ a) (c :: y) (x ++ 0 :: rest) hu.1 hu.2
  simp only [List.append_assoc, List.length_append, List.cons_append] at this ⊢
  rw [this]
  congr 3
  simp only [List.length_cons, List.length_append, List.length_nil]
  omega

theorem strchr_any {m : Bytes} {p : Nat} {c : UInt8} (hc : c ≠ 0) (h : 0 ∈ m.drop p) :
    strchr m p c (m.length + 1) = some none ∨
    ∃ q, strchr m p c (m.length + 1) = some (some q) ∧ p ≤ q ∧ q < m.length ∧ 0 ∈ m.drop (q + 1) := by
  obtain ⟨a, r, e, ha⟩ : ∃ a r, m.drop p = a ++ 0 :: r ∧ NoNul a := by
    obtain ⟨a, r, e, ha⟩ := List.eq_append_cons_of_mem h
    exact ⟨a, r, e, fun b hb hb0 => ha (hb0 ▸ hb)⟩
  have hl := drop_length_of e (by simp)
  rw [List.length_append, List.length_cons] at hl
  by_cases hca : c ∈ a
  · right
    obtain ⟨a1, a2, ea, hn⟩ := List.eq_append_cons_of_mem hca
    subst ea
    have e' : m.drop p = a1 ++ c :: (a2 ++ 0 :: r) := by rw [e]; simp
    refine ⟨p + a1.length, strchr_found e' (fun b hb => ha b (List.mem_append_left _ hb)) (fun b hb hbc => hn (hbc ▸ hb)) (by simp at hl; omega), by omega, by simp at hl; omega, ?_⟩
    rw [show p + a1.length + 1 = p + (a1.length + 1) by omega, ← List.drop_drop, e', show a1 ++ c :: (a2 ++ 0 :: r) = (a1 ++ [c]) ++ (a2 ++ 0 :: r) by simp,
      show a1.length + 1 = (a1 ++ [c]).length by simp, List.drop_left]
    simp
  · left
    exact strchr_none hc e ha (fun b hb hbc => hca (hbc ▸ hb)) (by omega)

theorem receive_none {buf m1 m2 m3 : Bytes} {P Q S : Option Nat} {s1 s2 s3 : Nat} (h1 : strtokComma buf 0 = some (m1, P, s1))
    (h2 : strtokComma m1 s1 = some (m2, Q, s2)) (h3 : strtokComma m2 s2 = some (m3, S, s3)) (h : S = none) :
    klogReceive buf = some none := by
  unfold klogReceive
  rw [h1]
  simp only [Option.bind_eq_bind, Option.bind_some]
  rw [h2]
  simp only [Option.bind_some]
  rw [h3]
  simp only [Option.bind_some]
  subst h
  cases P <;> rfl

theorem receive_some {buf m1 m2 m3 t : Bytes} {P S : Nat} {Q : Option Nat} {s1 s2 s3 : Nat} (h1 : strtokComma buf 0 = some (m1, some P, s1))
    (h2 : strtokComma m1 s1 = some (m2, Q, s2)) (h3 : strtokComma m2 s2 = some (m3, some S, s3)) (ht : strAt m3 S = some t)
    (hP : 0 ∈ m3.drop P) (h0 : 0 ∈ m3.drop (S + t.length + 1)) :
    ∃ r, klogReceive buf = some r ∧ ∀ f, r = some f → f.buf = m3 ∧ f.semi < m3.length ∧ 0 ∈ m3.drop (f.semi + 1) := by
  have hp : strAt m3 P = some (cstr (m3.drop P)) := by unfold strAt; rw [if_pos hP]
  unfold klogReceive
  rw [h1]
  simp only [Option.bind_eq_bind, Option.bind_some]
  rw [h2]
  simp only [Option.bind_some]
  rw [h3]
  simp only [Option.bind_some]
  rw [ht, hp]
  simp only [Option.bind_some]
  rcases strchr_any (c := 59) (by decide) h0 with h | ⟨q, h, hq1, hq2, hq3⟩
  · rw [h]
    exact ⟨none, rfl, fun f hf => by cases hf⟩
  · rw [h]
    refine ⟨_, rfl, fun f hf => ?_⟩
    cases hf
    exact ⟨rfl, hq2, hq3⟩

theorem receive_bad {buf m1 m2 m3 t : Bytes} {P S : Nat} {Q : Option Nat} {s1 s2 s3 : Nat} (h1 : strtokComma buf 0 = some (m1, some P, s1))
    (h2 : strtokComma m1 s1 = some (m2, Q, s2)) (h3 : strtokComma m2 s2 = some (m3, some S, s3)) (ht : strAt m3 S = some t)
    (h0 : m3.length ≤ S + t.length + 1) : klogReceive buf = none := by
  unfold klogReceive
  rw [h1]
  simp only [Option.bind_eq_bind, Option.bind_some]
  rw [h2]
  simp only [Option.bind_some]
  rw [h3]
  simp only [Option.bind_some]
  rw [ht]
  simp only [Option.bind_some]
  have hrd : rd m3 (S + t.length + 1) = none := by unfold rd; rw [List.getElem?_eq_none h0]
  have hs : strchr m3 (S + t.length + 1) 59 (m3.length + 1) = none := by unfold strchr; rw [hrd]; rfl
  rw [hs]
  cases strAt m3 P <;> rfl

theorem parse_inside {f : KFrame} (hs : f.semi < f.buf.length) (h0 : 0 ∈ f.buf.drop (f.semi + 1)) : ∃ r, klogParse f = some r := by
  obtain ⟨x, r, e, hx⟩ := List.eq_append_cons_of_mem h0
  have hx' : NoNul x := fun b hb hb0 => hx (hb0 ▸ hb)
  have hb : f.buf = f.buf.take f.semi ++ f.buf[f.semi] :: (x ++ 0 :: r) := by
    rw [← e, ← List.drop_eq_getElem_cons hs, List.take_append_drop]
  have hl : f.semi = (f.buf.take f.semi).length := by rw [List.length_take]; omega
  by_cases h : (10 : UInt8) ∈ x
  · obtain ⟨line, more, ex, hn⟩ := List.eq_append_cons_of_mem h
    obtain ⟨m, tl, e1, -⟩ := C40_parse f (f.buf.take f.semi) line more r f.buf[f.semi] (by rw [ex] at hb; simpa using hb) hl
      (fun b hb => hx' b (by rw [ex]; exact List.mem_append_left _ hb)) (fun b hb hb' => hn (hb' ▸ hb))
    exact ⟨_, e1⟩
  · exact ⟨_, C40_parse_none f _ x r _ hb hl hx' (fun b hb hb' => h (hb' ▸ hb))⟩

theorem strtok_at_end (y rest : Bytes) : strtokComma (y ++ 0 :: rest) y.length = some (y ++ 0 :: rest, none, y.length) :=
  strtok_none y [] rest (fun b hb => by cases hb)

theorem mem_drop_end {m y rest : Bytes} {p : Nat} (h : m = y ++ 0 :: rest) (hp : p ≤ y.length) : 0 ∈ m.drop p := by
  rw [h, List.drop_append_of_le_length hp]; simp

theorem commas_cons {y : Bytes} (h : Commas y) : Commas (44 :: y) := fun b hb => by
  cases hb with
  | head => rfl
  | tail _ hb => exact h b hb

/-- **C40:** for every record, reading and parsing it stay inside the received bytes
exactly if the record is not made of three fields only. -/
theorem C40_inside (t : Bytes) :
    (ThreeFields t → klogReceive (t ++ [0]) = none) ∧
    (¬ ThreeFields t → ∃ r, klogReceive (t ++ [0]) = some r ∧ ∀ f, r = some f →
      f.buf.length = t.length + 1 ∧ ∃ r', klogParse f = some r') := by
  obtain ⟨x, rest, e, hx, hr⟩ : ∃ x rest, t ++ [0] = x ++ 0 :: rest ∧ NoNul x ∧ ((rest = [] ∧ t = x) ∨ (0 ∈ rest ∧ ¬ NoNul t)) := by
    obtain ⟨x, rest, e, hx⟩ := List.eq_append_cons_of_mem (show (0 : UInt8) ∈ t ++ [0] by simp)
    refine ⟨x, rest, e, fun b hb hb0 => hx (hb0 ▸ hb), ?_⟩
    rcases List.eq_nil_or_concat rest with h | ⟨r', c, h⟩
    · left
      subst h
      exact ⟨rfl, (List.append_inj' e rfl).1⟩
    · right
      subst h
      rw [show x ++ 0 :: (r'.concat c) = (x ++ 0 :: r') ++ [c] by simp] at e
      obtain ⟨e1, e2⟩ := List.append_inj' e rfl
      simp only [List.cons.injEq, and_true] at e2
      refine ⟨by rw [← e2]; simp, fun hn => hn 0 (by rw [e1]; simp) rfl⟩
  rw [e]
  have hlen : t.length + 1 = (x ++ 0 :: rest).length := by rw [← e]; simp
  have three_noNul : ∀ {t}, ThreeFields t → NoNul t := by
    rintro t ⟨a, p, b, s, c, u, rfl, ha, hp, hb, -, hs, hc, -, hu⟩ z hz h0
    subst h0
    simp only [List.mem_append] at hz
    rcases hz with h | h | h | h | h | h
    · exact absurd (ha _ h) (by decide)
    · exact (hp.2 _ h).2 rfl
    · exact absurd (hb _ h) (by decide)
    · exact (hs.2 _ h).2 rfl
    · exact absurd (hc _ h) (by decide)
    · exact (hu.2 _ h).2 rfl
  have good : ∀ {m3 t' : Bytes} {P S : Nat} {Q : Option Nat} {m1 m2 : Bytes} {s1 s2 s3 : Nat}, strtokComma (x ++ 0 :: rest) 0 = some (m1, some P, s1) →
      strtokComma m1 s1 = some (m2, Q, s2) → strtokComma m2 s2 = some (m3, some S, s3) → strAt m3 S = some t' →
      0 ∈ m3.drop P → 0 ∈ m3.drop (S + t'.length + 1) → m3.length = t.length + 1 →
      ∃ r, klogReceive (x ++ 0 :: rest) = some r ∧ ∀ f, r = some f → f.buf.length = t.length + 1 ∧ ∃ r', klogParse f = some r' := by
    intro m3 t' P S Q m1 m2 s1 s2 s3 h1 h2 h3 ht hP h0 hl
    obtain ⟨r, e1, e2⟩ := receive_some h1 h2 h3 ht hP h0
    refine ⟨r, e1, fun f hf => ?_⟩
    obtain ⟨g1, g2, g3⟩ := e2 f hf
    exact ⟨by rw [g1, hl], parse_inside (by rw [g1]; exact g2) (by rw [g1]; exact g3)⟩
  have refuse : klogReceive (x ++ 0 :: rest) = some none →
      (∃ r, klogReceive (x ++ 0 :: rest) = some r ∧ ∀ f, r = some f → f.buf.length = t.length + 1 ∧ ∃ r', klogParse f = some r') :=
    fun h => ⟨none, h, fun f hf => by cases hf⟩
  constructor
  · intro h3
    rcases hr with ⟨rfl, rfl⟩ | ⟨-, h⟩
    · obtain ⟨a, p, b, s, c, u, hx3, ha, hp, hb, hb0, hs, hc, hc0, hu⟩ := h3
      obtain ⟨b0, b', rfl⟩ := List.exists_cons_of_ne_nil hb0
      obtain ⟨c0, c', rfl⟩ := List.exists_cons_of_ne_nil hc0
      have e1 : b0 = 44 := hb b0 (by simp)
      have e2 : c0 = 44 := hc c0 (by simp)
      subst e1 e2
      have hb' : Commas b' := fun y hy => hb y (by simp [hy])
      have hc' : Commas c' := fun y hy => hc y (by simp [hy])
      have h1 := strtok_more [] a p (b' ++ (s ++ 44 :: (c' ++ u))) [] ha hp
      have h2 := strtok_more (a ++ (p ++ [0])) b' s (c' ++ u) [] hb' hs
      have h3 := strtok_last (a ++ (p ++ [0]) ++ (b' ++ (s ++ [0]))) c' u [] hc' hu
      have ht : strAt (a ++ (p ++ [0]) ++ (b' ++ (s ++ [0])) ++ (c' ++ u ++ [0])) ((a ++ (p ++ [0]) ++ (b' ++ (s ++ [0]))).length + c'.length) = some u :=
        strAt_eq (r := []) (by rw [← List.drop_drop, List.drop_left, List.append_assoc, List.drop_left]) (fun y hy => (hu.2 y hy).2)
      rw [hx3]
      simp only [List.nil_append, List.append_assoc, List.cons_append] at h1 h2 h3 ht ⊢
      refine receive_bad h1 h2 h3 ht ?_
      simp only [List.length_append, List.length_cons, List.length_nil]
      omega
    · exact absurd (three_noNul h3) h
  · intro hno
    rcases field_split x hx with h | ⟨a, u, rfl, ha, hu⟩ | ⟨a, u, x2, rfl, ha, hu⟩
    · exact refuse (receive_none (strtok_none [] x rest h) (by rw [List.nil_append, List.length_nil, Nat.zero_add]; exact strtok_at_end x rest) (strtok_at_end x rest) rfl)
    · exact refuse (receive_none (strtok_last [] a u rest ha hu)
        (by rw [List.nil_append, List.length_nil, Nat.zero_add]; exact strtok_at_end (a ++ u) rest) (strtok_at_end (a ++ u) rest) rfl)
    · have h1 := strtok_more [] a u x2 rest ha hu
      have hx2 : NoNul x2 := fun b hb => hx b (by simp [hb])
      rw [List.nil_append, List.nil_append, List.nil_append, List.length_nil, Nat.zero_add,
        show a ++ (u ++ 0 :: x2) ++ 0 :: rest = (a ++ (u ++ [0])) ++ (x2 ++ 0 :: rest) by simp] at h1
      rcases field_split x2 hx2 with h | ⟨a2, u2, rfl, ha2, hu2⟩ | ⟨a2, u2, x3, rfl, ha2, hu2⟩
      · have h3 := strtok_at_end (a ++ (u ++ [0]) ++ x2) rest
        rw [List.append_assoc (a ++ (u ++ [0])), List.length_append] at h3
        exact refuse (receive_none h1 (strtok_none _ x2 rest h) h3 rfl)
      · have h3 := strtok_at_end (a ++ (u ++ [0]) ++ (a2 ++ u2)) rest
        rw [List.append_assoc (a ++ (u ++ [0])), List.length_append] at h3
        exact refuse (receive_none h1 (strtok_last _ a2 u2 rest ha2 hu2) h3 rfl)
      · have h2 := strtok_more (a ++ (u ++ [0])) a2 u2 x3 rest ha2 hu2
        have hx3 : NoNul x3 := fun b hb => hx2 b (by simp [hb])
        rw [show a ++ (u ++ [0]) ++ (a2 ++ (u2 ++ 0 :: x3) ++ 0 :: rest) = (a ++ (u ++ [0]) ++ (a2 ++ (u2 ++ [0]))) ++ (x3 ++ 0 :: rest) by simp] at h2
        generalize hpre : a ++ (u ++ [0]) ++ (a2 ++ (u2 ++ [0])) = pre at h2
        have hpl : a.length ≤ pre.length := by rw [← hpre]; simp only [List.length_append]; omega
        rcases field_split x3 hx3 with h | ⟨a3, u3, rfl, ha3, hu3⟩ | ⟨a3, u3, x4, rfl, ha3, hu3⟩
        · exact refuse (receive_none h1 h2 (strtok_none pre x3 rest h) rfl)
        · have h3 := strtok_last pre a3 u3 rest ha3 hu3
          have ht : strAt (pre ++ (a3 ++ u3 ++ 0 :: rest)) (pre.length + a3.length) = some u3 :=
            strAt_eq (r := rest) (by rw [← List.drop_drop, List.drop_left, List.append_assoc, List.drop_left]) (fun y hy => (hu3.2 y hy).2)
          rcases hr with ⟨rfl, rfl⟩ | ⟨hr, -⟩
          · exact absurd ⟨a, u, 44 :: a2, u2, 44 :: a3, u3, by simp, ha, hu, commas_cons ha2, by simp, hu2, commas_cons ha3, by simp, hu3⟩ hno
          · refine good h1 h2 h3 ht (mem_drop_end (y := pre ++ (a3 ++ u3)) (rest := rest) (by simp) (by simp; omega)) ?_ ?_
            · rw [show pre ++ (a3 ++ u3 ++ 0 :: rest) = (pre ++ a3 ++ u3 ++ [0]) ++ rest by simp,
                show pre.length + a3.length + u3.length + 1 = (pre ++ a3 ++ u3 ++ [0]).length by simp; omega, List.drop_left]
              exact hr
            · rw [hlen, ← hpre]
              simp only [List.length_append, List.length_cons, List.length_nil]
              omega
        · have h3 := strtok_more pre a3 u3 x4 rest ha3 hu3
          have ht : strAt (pre ++ (a3 ++ (u3 ++ 0 :: x4) ++ 0 :: rest)) (pre.length + a3.length) = some u3 :=
            strAt_eq (r := x4 ++ 0 :: rest) (by
              rw [← List.drop_drop, List.drop_left, List.append_assoc, List.drop_left, List.append_assoc, List.cons_append]) (fun y hy => (hu3.2 y hy).2)
          refine good h1 h2 h3 ht (mem_drop_end (y := pre ++ (a3 ++ (u3 ++ 0 :: x4))) (rest := rest) (by simp) (by simp; omega)) ?_ ?_
          · rw [show pre ++ (a3 ++ (u3 ++ 0 :: x4) ++ 0 :: rest) = (pre ++ a3 ++ u3 ++ [0]) ++ (x4 ++ 0 :: rest) by simp,
              show pre.length + a3.length + u3.length + 1 = (pre ++ a3 ++ u3 ++ [0]).length by simp; omega, List.drop_left]
            simp
          · rw [hlen, ← hpre]
            simp only [List.length_append, List.length_cons, List.length_nil]
            omega

/-- The bad records are rare but not absurd: three numbers. A record without fields, with
one field or with a comma after the third is not among them. -/
example : ThreeFields (ascii ",6,12,345") :=
  ⟨ascii ",", ascii "6", ascii ",", ascii "12", ascii ",", ascii "345", by decide +kernel, by unfold Commas; decide +kernel,
    ⟨by decide +kernel, by decide +kernel⟩, by unfold Commas; decide +kernel, by decide +kernel, ⟨by decide +kernel, by decide +kernel⟩,
    by unfold Commas; decide +kernel, by decide +kernel, ⟨by decide +kernel, by decide +kernel⟩⟩

example : ¬ ThreeFields (ascii "6,12,345,-;usb\n") := fun h => by
  have := (C40_inside _).1 h
  revert this; decide +kernel

end Verif.Ulogcat
