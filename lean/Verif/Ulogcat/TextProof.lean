import Verif.Ulogcat.Text

/-!
# Lemmas on text rendering
-/
namespace Verif.Ulogcat

/-- The pieces of `t` between newlines. -/
def splitNl : Bytes → List Bytes
  | [] => [[]]
  | b :: t =>
    if b = 10 then [] :: splitNl t
    else
      match splitNl t with
      | [] => [[b]]
      | l :: ls => (b :: l) :: ls

/-- The lines of a message: one newline at its end does not count. -/
def shownLines (t : Bytes) : List Bytes :=
  splitNl (if t.getLast? = some 10 then t.dropLast else t)

/-- What is left of the text `F` in `n` bytes: all of it when it is shorter, else
its beginning and a NUL. -/
def cut (n : Nat) (F : Bytes) : Bytes :=
  if F.length < n then F else if n = 0 then [] else F.take (n - 1) ++ [0]

theorem cut_length (n : Nat) (F : Bytes) : (cut n F).length = min n F.length := by
  unfold cut
  split
  · omega
  · split
    · simp; omega
    · simp only [List.length_append, List.length_take, List.length_cons, List.length_nil]; omega

theorem cut_append (n : Nat) (s F : Bytes) : cut n (s ++ F) = cut n s ++ cut (n - (cut n s).length) F := by
  rw [cut_length]
  by_cases h1 : s.length < n
  · have e1 : cut n s = s := by unfold cut; rw [if_pos h1]
    rw [e1, Nat.min_eq_right (by omega)]
    unfold cut
    by_cases h2 : F.length < n - s.length
    · rw [if_pos (by rw [List.length_append]; omega), if_pos h2]
    · rw [if_neg (by rw [List.length_append]; omega), if_neg h2, if_neg (by omega), if_neg (by omega),
        List.take_append, List.take_of_length_le (by omega : s.length ≤ n - 1), List.append_assoc]
      congr 3; omega
  · have e0 : n - min n s.length = 0 := by omega
    have e2 : cut 0 F = [] := by simp [cut]
    rw [e0, e2, List.append_nil]
    unfold cut
    rw [if_neg (by rw [List.length_append]; omega), if_neg h1]
    split
    · rfl
    · rw [List.take_append_of_le_length (by omega)]

theorem poke_some {m bs : Bytes} {p : Nat} (h : p + bs.length ≤ m.length) :
    poke m p bs = some (m.take p ++ bs ++ m.drop (p + bs.length)) := if_pos h

theorem poke_length {m bs m' : Bytes} {p : Nat} (h : poke m p bs = some m') : m'.length = m.length := by
  unfold poke at h
  split at h
  · cases h; simp only [List.length_append, List.length_take, List.length_drop]; omega
  · exact absurd h (by simp)

theorem printLine_spec (L : Look) (e : Meta) (msg m : Bytes) (p n : Nat) (h : p + n ≤ m.length) :
    ∃ m', printLine L e msg m p n = some (m', (cut n (lineText L e msg)).length) ∧ m'.length = m.length ∧
      m'.take (p + (cut n (lineText L e msg)).length) = m.take p ++ cut n (lineText L e msg) := by
  unfold printLine
  dsimp only
  generalize lineText L e msg = s
  have hc : (if s.length ≥ n then n else s.length) = (cut n s).length := by
    rw [cut_length]; split <;> omega
  rw [hc]
  by_cases h0 : n = 0
  · subst h0
    refine ⟨m, by simp [snprint], rfl, ?_⟩
    have : cut 0 s = [] := by simp [cut]
    simp [this]
  · have hs : snprint m p n s = poke m p (s.take (n - 1) ++ [0]) := if_neg h0
    have hl : (s.take (n - 1) ++ [0]).length ≤ n := by simp only [List.length_append, List.length_take, List.length_cons, List.length_nil]; omega
    rw [hs, poke_some (by omega)]
    refine ⟨_, rfl, poke_length (poke_some (by omega)), ?_⟩
    have hp : (m.take p).length = p := by rw [List.length_take]; omega
    rw [List.append_assoc, List.take_append, hp, List.take_of_length_le (by omega)]
    congr 1
    rw [show p + (cut n s).length - p = (cut n s).length by omega, cut_length]
    unfold cut
    split
    · rw [List.take_of_length_le (by omega : s.length ≤ n - 1), Nat.min_eq_right (by omega), List.append_assoc,
        List.take_left]
    · rw [Nat.min_eq_left (by omega)]
      have : (s.take (n - 1) ++ [0]).length = n := by
        simp only [List.length_append, List.length_take, List.length_cons, List.length_nil]; omega
      rw [List.take_append, List.take_of_length_le (by omega), this]
      simp

/-! ### Lines -/

theorem splitNl_noNl {t : Bytes} (h : ∀ b ∈ t, b ≠ 10) : splitNl t = [t] := by
  induction t with
  | nil => rfl
  | cons b t ih =>
    unfold splitNl
    rw [if_neg (h b (by simp)), ih (fun c hc => h c (by simp [hc]))]

theorem splitNl_append {a b : Bytes} (h : ∀ c ∈ a, c ≠ 10) : splitNl (a ++ 10 :: b) = a :: splitNl b := by
  induction a with
  | nil => rw [List.nil_append, splitNl, if_pos rfl]
  | cons c a ih =>
    rw [List.cons_append, splitNl, if_neg (h c (by simp)), ih (fun d hd => h d (by simp [hd]))]

theorem shownLines_one {t : Bytes} (h : ∀ b ∈ t, b ≠ 10) : shownLines t = [t] := by
  unfold shownLines
  rw [if_neg, splitNl_noNl h]
  intro e
  exact h 10 (List.mem_of_getLast? e) rfl

theorem shownLines_last {a : Bytes} (h : ∀ b ∈ a, b ≠ 10) : shownLines (a ++ [10]) = [a] := by
  unfold shownLines
  rw [if_pos (by simp), List.dropLast_concat, splitNl_noNl h]

theorem shownLines_cons {a b : Bytes} (h : ∀ c ∈ a, c ≠ 10) (hb : b ≠ []) :
    shownLines (a ++ 10 :: b) = a :: shownLines b := by
  unfold shownLines
  have hg : (a ++ 10 :: b).getLast? = b.getLast? := by
    rw [List.getLast?_append, List.getLast?_cons]
    cases hx : b.getLast? with
    | none => exact absurd (List.getLast?_eq_none_iff.mp hx) hb
    | some x => simp
  rw [hg]
  split
  · rw [List.dropLast_append_of_ne_nil (by simp), List.dropLast_cons_of_ne_nil hb, splitNl_append h]
  · rw [splitNl_append h]

/-! ### Strings in memory -/

theorem strchr_found {m a r : Bytes} {c : UInt8} : ∀ {p n : Nat}, m.drop p = a ++ c :: r → NoNul a → (∀ b ∈ a, b ≠ c) →
    a.length < n → strchr m p c n = some (some (p + a.length)) := by
  induction a with
  | nil =>
    intro p n h _ _ hn
    cases n with
    | zero => exact absurd hn (by simp)
    | succ n =>
      have hr : rd m p = some c := by
        unfold rd; rw [← List.head?_drop, h]; rfl
      unfold strchr; rw [hr]; simp
  | cons b a ih =>
    intro p n h h0 hc hn
    cases n with
    | zero => exact absurd hn (by simp)
    | succ n =>
      have hr : rd m p = some b := by
        unfold rd; rw [← List.head?_drop, h]; rfl
      have hd : m.drop (p + 1) = a ++ c :: r := by
        rw [← List.drop_drop, h]; rfl
      have hb1 : ¬ b = c := hc b (by simp)
      have hb2 : ¬ b = 0 := h0 b (by simp)
      unfold strchr; rw [hr]
      simp only [Option.bind_eq_bind, Option.bind_some, hb1, hb2, if_false]
      rw [ih hd (fun x hx => h0 x (by simp [hx])) (fun x hx => hc x (by simp [hx])) (by simp at hn; omega)]
      simp only [List.length_cons]
      congr 2; omega

theorem strchr_none {m a r : Bytes} {c : UInt8} (hc0 : c ≠ 0) : ∀ {p n : Nat}, m.drop p = a ++ 0 :: r → NoNul a →
    (∀ b ∈ a, b ≠ c) → a.length < n → strchr m p c n = some none := by
  induction a with
  | nil =>
    intro p n h _ _ hn
    cases n with
    | zero => exact absurd hn (by simp)
    | succ n =>
      have hr : rd m p = some 0 := by
        unfold rd; rw [← List.head?_drop, h]; rfl
      have h0 : ¬ (0 : UInt8) = c := fun e => hc0 e.symm
      unfold strchr; rw [hr]; simp [h0]
  | cons b a ih =>
    intro p n h h0 hc hn
    cases n with
    | zero => exact absurd hn (by simp)
    | succ n =>
      have hr : rd m p = some b := by
        unfold rd; rw [← List.head?_drop, h]; rfl
      have hd : m.drop (p + 1) = a ++ 0 :: r := by
        rw [← List.drop_drop, h]; rfl
      have hb1 : ¬ b = c := hc b (by simp)
      have hb2 : ¬ b = 0 := h0 b (by simp)
      unfold strchr; rw [hr]
      simp only [Option.bind_eq_bind, Option.bind_some, hb1, hb2, if_false]
      exact ih hd (fun x hx => h0 x (by simp [hx])) (fun x hx => hc x (by simp [hx])) (by simp at hn; omega)

theorem strAt_eq {m a r : Bytes} {p : Nat} (h : m.drop p = a ++ 0 :: r) (h0 : NoNul a) : strAt m p = some a := by
  unfold strAt
  rw [h, if_pos (by simp), cstr_of_noNul h0]

theorem drop_set_mid {m a r : Bytes} {p : Nat} {c v : UInt8} (h : m.drop p = a ++ c :: r) :
    (m.set (p + a.length) v).drop p = a ++ v :: r := by
  have hl : p ≤ m.length := by
    rcases Nat.lt_or_ge m.length p with hlt | hge
    · rw [List.drop_eq_nil_of_le (by omega)] at h; simp at h
    · exact hge
  rw [List.drop_set, if_neg (by omega), h, show p + a.length - p = a.length by omega]
  simp

theorem drop_length_of {m a : Bytes} {p : Nat} (h : m.drop p = a) (ha : a ≠ []) : p + a.length = m.length := by
  have := congrArg List.length h
  rw [List.length_drop] at this
  have : 0 < a.length := List.length_pos_iff.mpr ha
  omega

theorem renderLoop_spec (L : Look) (e : Meta) : ∀ (fuel : Nat) (at_ : Nat) (s : RState) (t r : Bytes),
    s.msg.drop at_ = t ++ 0 :: r → NoNul t → t.length < fuel → s.p + s.size = s.buf.length →
    ∃ s', renderLoop L e fuel at_ s = some s' ∧ s'.buf.length = s.buf.length ∧
      s'.len = s.len + (cut s.size ((shownLines t).map (lineText L e)).flatten).length ∧
      s'.buf.take (s.p + (cut s.size ((shownLines t).map (lineText L e)).flatten).length) =
        s.buf.take s.p ++ cut s.size ((shownLines t).map (lineText L e)).flatten := by
  intro fuel
  induction fuel with
  | zero => intro _ _ _ _ _ _ h; omega
  | succ fuel ih =>
    intro at_ s t r hm h0 hf hb
    have hlen : at_ + (t ++ 0 :: r).length = s.msg.length := drop_length_of hm (by simp)
    rw [List.length_append, List.length_cons] at hlen
    by_cases hn : ∀ b ∈ t, b ≠ 10
    · have h1 := strchr_none (c := 10) (by decide) hm h0 hn (n := s.msg.length + 1) (by omega)
      obtain ⟨m', hp, hl, ht⟩ := printLine_spec L e t s.buf s.p s.size (by omega)
      rw [shownLines_one hn]
      refine ⟨{ msg := s.msg, buf := m', len := s.len + (cut s.size (lineText L e t)).length, p := s.p + (cut s.size (lineText L e t)).length, size := s.size - (cut s.size (lineText L e t)).length }, ?_, hl, by simp, by simpa using ht⟩
      unfold renderLoop renderStep
      rw [h1]
      simp [strAt_eq hm h0, hp]
    · have hex : ∃ b ∈ t, b = 10 := by
        rcases Classical.em (∃ b ∈ t, b = 10) with h | h
        · exact h
        · exact absurd (fun b hb e => h ⟨b, hb, e⟩) hn
      have hmem : (10 : UInt8) ∈ t := by obtain ⟨b, hb, e⟩ := hex; rwa [e] at hb
      obtain ⟨a, b, hab, hna⟩ := List.eq_append_cons_of_mem hmem
      subst hab
      have hna' : ∀ c ∈ a, c ≠ 10 := fun c hc e => hna (e ▸ hc)
      have h0a : NoNul a := fun c hc => h0 c (by simp [hc])
      have h0b : NoNul b := fun c hc => h0 c (by simp [hc])
      rw [List.append_assoc, List.cons_append] at hm
      have h1 := strchr_found hm h0a hna' (n := s.msg.length + 1) (by rw [List.length_append] at hlen; omega)
      have hset := drop_set_mid (v := 0) hm
      have hwr : wr s.msg (at_ + a.length) 0 = some (s.msg.set (at_ + a.length) 0) :=
        wr_eq (by rw [List.length_append] at hlen; omega)
      have hstr := strAt_eq hset h0a
      have hnext : (s.msg.set (at_ + a.length) 0).drop (at_ + a.length + 1) = b ++ 0 :: r := by
        have : at_ + a.length + 1 = at_ + (a.length + 1) := by omega
        rw [this, ← List.drop_drop, hset, List.drop_append, List.drop_eq_nil_of_le (by omega)]
        simp
      obtain ⟨m', hp, hl, ht⟩ := printLine_spec L e a s.buf s.p s.size (by omega)
      cases b with
      | nil =>
        have hrd : rd (s.msg.set (at_ + a.length) 0) (at_ + a.length + 1) = some 0 := by
          unfold rd; rw [← List.head?_drop, hnext]; rfl
        rw [shownLines_last hna']
        refine ⟨{ msg := s.msg.set (at_ + a.length) 0, buf := m', len := s.len + (cut s.size (lineText L e a)).length, p := s.p + (cut s.size (lineText L e a)).length, size := s.size - (cut s.size (lineText L e a)).length }, ?_, hl, by simp, by simpa using ht⟩
        unfold renderLoop renderStep
        rw [h1]
        simp [hwr, hstr, hp, hrd]
      | cons x b =>
        have hrd : rd (s.msg.set (at_ + a.length) 0) (at_ + a.length + 1) = some x := by
          unfold rd; rw [← List.head?_drop, hnext]; rfl
        have hx : ¬ x = 0 := h0b x (by simp)
        rw [shownLines_cons hna' (by simp)]
        have hcl := cut_length s.size (lineText L e a)
        obtain ⟨s', hs', hb', hl', ht'⟩ := ih (at_ + a.length + 1) { msg := s.msg.set (at_ + a.length) 0, buf := m', len := s.len + (cut s.size (lineText L e a)).length, p := s.p + (cut s.size (lineText L e a)).length, size := s.size - (cut s.size (lineText L e a)).length } (x :: b) r hnext h0b
            (by simp only [List.length_append, List.length_cons] at hf ⊢; omega) (by dsimp only; omega)
        dsimp only at hb' hl' ht'
        refine ⟨s', ?_, by rw [hb', hl], ?_, ?_⟩
        · unfold renderLoop renderStep
          rw [h1]
          simp [hwr, hstr, hp, hrd, hx, hs']
        · rw [hl', List.map_cons, List.flatten_cons, cut_append, List.length_append]; omega
        · rw [List.map_cons, List.flatten_cons, cut_append, List.length_append, ← Nat.add_assoc, ht', ht, List.append_assoc]

end Verif.Ulogcat
