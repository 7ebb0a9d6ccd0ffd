import Verif.Tools.Kmsgd
import Verif.Ulogcat.TextProof

/-!
# What the kernel message daemon logs (C41, C68)
-/
namespace Verif.Tools
open Verif Verif.Ulogcat

/-- The complete lines of a text, and what follows the last line break. -/
def linesOf : Bytes → List Bytes × Bytes
  | [] => ([], [])
  | b :: t =>
    if b = 10 then ([] :: (linesOf t).1, (linesOf t).2)
    else
      match (linesOf t).1 with
      | [] => ([], b :: (linesOf t).2)
      | l :: ls => ((b :: l) :: ls, (linesOf t).2)

theorem linesOf_no {a : Bytes} (h : ∀ b ∈ a, b ≠ 10) : linesOf a = ([], a) := by
  induction a with
  | nil => rfl
  | cons b a ih => rw [linesOf, if_neg (h b (by simp)), ih (fun c hc => h c (by simp [hc]))]

theorem linesOf_nl {a : Bytes} (h : ∀ b ∈ a, b ≠ 10) (t : Bytes) : linesOf (a ++ 10 :: t) = (a :: (linesOf t).1, (linesOf t).2) := by
  induction a with
  | nil => rw [List.nil_append, linesOf, if_pos rfl]
  | cons b a ih =>
    rw [List.cons_append, linesOf, if_neg (h b (by simp)), ih (fun c hc => h c (by simp [hc]))]

/-- A text has no line break, or a first line. -/
theorem first_line (t : Bytes) : (∀ b ∈ t, b ≠ 10) ∨ ∃ a t', t = a ++ 10 :: t' ∧ ∀ b ∈ a, b ≠ 10 := by
  induction t with
  | nil => left; simp
  | cons b t ih =>
    by_cases hb : b = 10
    · right; exact ⟨[], t, by simp [hb], by simp⟩
    · rcases ih with h | ⟨a, t', h1, h2⟩
      · left; intro c hc; rcases List.mem_cons.mp hc with rfl | hc
        · exact hb
        · exact h c hc
      · right
        refine ⟨b :: a, t', by simp [h1], ?_⟩
        intro c hc; rcases List.mem_cons.mp hc with rfl | hc
        · exact hb
        · exact h2 c hc

/-- The length of the complete lines with their line breaks. -/
theorem linesOf_length : ∀ (n : Nat) (t : Bytes), t.length ≤ n →
    ((linesOf t).1.map (·.length + 1)).sum + (linesOf t).2.length = t.length ∧
    t.drop (((linesOf t).1.map (·.length + 1)).sum) = (linesOf t).2 ∧ ∀ b ∈ (linesOf t).2, b ≠ 10 := by
  intro n
  induction n with
  | zero =>
    intro t h
    have : t = [] := List.eq_nil_of_length_eq_zero (by omega)
    subst this; simp [linesOf]
  | succ n ih =>
    intro t h
    rcases first_line t with h1 | ⟨a, t', rfl, h2⟩
    · rw [linesOf_no h1]; simpa using h1
    · rw [linesOf_nl h2]
      rw [List.length_append, List.length_cons] at h
      obtain ⟨i1, i2, i3⟩ := ih t' (by omega)
      refine ⟨?_, ?_, i3⟩
      · simp only [List.map_cons, List.sum_cons, List.length_append, List.length_cons]; omega
      · simp only [List.map_cons, List.sum_cons]
        rw [← i2, show a ++ 10 :: t' = (a ++ [10]) ++ t' by simp]
        rw [List.drop_append, List.drop_eq_nil_of_le (by simp only [List.length_append, List.length_singleton]; omega), List.nil_append]
        congr 1
        simp only [List.length_append, List.length_singleton]; omega

theorem linesOf_append (x y : Bytes) : linesOf (x ++ y) = ((linesOf x).1 ++ (linesOf ((linesOf x).2 ++ y)).1, (linesOf ((linesOf x).2 ++ y)).2) := by
  have : ∀ (n : Nat) (x : Bytes), x.length ≤ n →
      linesOf (x ++ y) = ((linesOf x).1 ++ (linesOf ((linesOf x).2 ++ y)).1, (linesOf ((linesOf x).2 ++ y)).2) := by
    intro n
    induction n with
    | zero =>
      intro x h
      have : x = [] := List.eq_nil_of_length_eq_zero (by omega)
      subst this; simp [linesOf]
    | succ n ih =>
      intro x h
      rcases first_line x with h1 | ⟨a, x', rfl, h2⟩
      · rw [linesOf_no h1]; simp
      · rw [List.length_append, List.length_cons] at h
        rw [linesOf_nl h2, List.append_assoc, List.cons_append, linesOf_nl h2, ih x' (by omega)]
        rfl
  exact this x.length x (Nat.le_refl _)

/-- The anomaly that a line announces: the text after the first marker, up to a space. -/
def anomalyOf (l : Bytes) : List KOut :=
  match findSub oopsMarker l with
  | none => []
  | some i => if 32 ∈ l.drop (i + 15) then [.anomaly ((l.drop (i + 15)).takeWhile (· ≠ 32))] else []

def lineOut (l : Bytes) : List KOut := .line l :: anomalyOf l

theorem findSub_some {w t : Bytes} {i : Nat} (h : findSub w t = some i) : ∃ a r, t = a ++ w ++ r ∧ a.length = i := by
  induction t generalizing i with
  | nil =>
    unfold findSub at h
    split at h
    · rename_i hw; cases h; exact ⟨[], [], by simp [hw], rfl⟩
    · simp at h
  | cons b t ih =>
    unfold findSub at h
    split at h
    · rename_i hw
      obtain ⟨r, hr⟩ := hw
      cases h; exact ⟨[], r, by simp [hr], rfl⟩
    · cases hf : findSub w t with
      | none => rw [hf] at h; simp at h
      | some j =>
        rw [hf] at h
        obtain ⟨a, r, e1, e2⟩ := ih hf
        have : j + 1 = i := by simpa using h
        exact ⟨b :: a, r, by simp [e1], by simp; omega⟩

theorem marker_length : oopsMarker.length = 15 := by decide +kernel

theorem split_at {c : UInt8} {t : Bytes} (h : c ∈ t) : ∃ a r, t = a ++ c :: r ∧ (∀ b ∈ a, b ≠ c) ∧ t.takeWhile (· ≠ c) = a := by
  induction t with
  | nil => simp at h
  | cons b t ih =>
    by_cases hb : b = c
    · exact ⟨[], t, by simp [hb], by simp, by simp [hb]⟩
    · obtain ⟨a, r, e1, e2, e3⟩ := ih (by rcases List.mem_cons.mp h with h | h; exact absurd h.symm hb; exact h)
      refine ⟨b :: a, r, by simp [e1], ?_, ?_⟩
      · intro d hd; rcases List.mem_cons.mp hd with rfl | hd
        · exact hb
        · exact e2 d hd
      · rw [List.takeWhile_cons_of_pos (by simpa using hb), e3]

theorem genEvt_spec {m l r : Bytes} {p : Nat} (h : m.drop p = l ++ 0 :: r) (h0 : NoNul l) :
    ∃ m', genEvt m p = some (m', anomalyOf l) ∧ m'.length = m.length ∧ m'.drop (p + l.length) = m.drop (p + l.length) := by
  unfold genEvt anomalyOf
  rw [strAt_eq h h0]
  simp only [Option.bind_eq_bind, Option.bind_some]
  cases hf : findSub oopsMarker l with
  | none => exact ⟨m, rfl, rfl, rfl⟩
  | some i =>
    dsimp only
    obtain ⟨a, t, e1, e2⟩ := findSub_some hf
    have hl15 := marker_length
    have hdl : l.drop (i + 15) = t := by
      rw [e1, show i + 15 = (a ++ oopsMarker).length by rw [List.length_append]; omega, List.drop_left]
    have hdm : m.drop (p + i + oopsMarker.length) = t ++ 0 :: r := by
      rw [show p + i + oopsMarker.length = p + (a ++ oopsMarker).length by rw [List.length_append]; omega, ← List.drop_drop, h, e1,
        List.append_assoc, List.drop_left]
    have ht0 : NoNul t := fun b hb => h0 b (by rw [e1]; simp [hb])
    have hlen := drop_length_of hdm (by simp)
    have hll : l.length = i + 15 + t.length := by rw [e1, List.length_append, List.length_append]; omega
    rw [hdl]
    by_cases hsp : 32 ∈ t
    · rw [if_pos hsp]
      obtain ⟨id, z, e3, e4, e5⟩ := split_at hsp
      have hid0 : NoNul id := fun b hb => ht0 b (by rw [e3]; simp [hb])
      have hdm' : m.drop (p + i + oopsMarker.length) = id ++ 32 :: (z ++ 0 :: r) := by rw [hdm, e3]; simp
      rw [strchr_found hdm' hid0 e4 (by rw [e3, List.length_append] at hlen; simp only [List.length_append, List.length_cons] at hlen; omega)]
      simp only [Option.bind_some]
      have hlt : p + i + oopsMarker.length + id.length < m.length := by
        rw [e3] at hlen; simp only [List.length_append, List.length_cons] at hlen; omega
      rw [wr_eq hlt]
      simp only [Option.bind_some]
      rw [strAt_eq (drop_set_mid hdm') hid0]
      simp only [Option.bind_some]
      refine ⟨_, by rw [e5]; rfl, by simp, ?_⟩
      rw [List.drop_set, if_pos]
      rw [hll, e3, List.length_append, List.length_cons]; omega
    · rw [if_neg hsp]
      rw [strchr_none (c := 32) (n := m.length + 1) (by decide) hdm ht0 (fun b hb e => hsp (e ▸ hb)) (by rw [List.length_append] at hlen; omega)]
      simp only [Option.bind_some]
      exact ⟨m, rfl, rfl, rfl⟩

theorem takeLine_spec {m l r : Bytes} {p : Nat} (h : m.drop p = l ++ 10 :: r) (h0 : NoNul l) :
    ∃ m', takeLine m p (p + l.length) = some (m', lineOut l) ∧ m'.length = m.length ∧
      m'.drop (p + l.length + 1) = m.drop (p + l.length + 1) := by
  have hlen := drop_length_of h (by simp)
  have hlt : p + l.length < m.length := by simp only [List.length_append, List.length_cons] at hlen; omega
  have hd := drop_set_mid (v := 0) h
  obtain ⟨m', h1, h2, h3⟩ := genEvt_spec hd h0
  unfold takeLine
  rw [wr_eq hlt]
  simp only [Option.bind_eq_bind, Option.bind_some]
  rw [strAt_eq hd h0]
  simp only [Option.bind_some]
  rw [h1]
  simp only [Option.bind_some]
  refine ⟨m', rfl, by rw [h2]; simp, ?_⟩
  rw [← List.drop_drop, h3, List.drop_drop, List.drop_set, if_pos (by omega)]

theorem splitLoop_spec : ∀ (n : Nat) (m t r : Bytes) (p count : Nat) (out : List KOut), m.drop p = t ++ 0 :: r → NoNul t →
    t.length < n →
    ∃ m', splitLoop n m p count out = some (m', count + ((linesOf t).1.map (·.length + 1)).sum, out ++ (linesOf t).1.flatMap lineOut) ∧
      m'.length = m.length ∧
      m'.drop (p + ((linesOf t).1.map (·.length + 1)).sum) = m.drop (p + ((linesOf t).1.map (·.length + 1)).sum) := by
  intro n
  induction n with
  | zero => intro m t r p count out _ _ h; omega
  | succ n ih =>
    intro m t r p count out h h0 hn
    have hlen := drop_length_of h (by simp)
    rw [List.length_append, List.length_cons] at hlen
    rcases first_line t with h1 | ⟨a, t', rfl, h2⟩
    · rw [linesOf_no h1, splitLoop, strchr_none (by decide) h h0 h1 (by omega)]
      exact ⟨m, by simp, rfl, by simp⟩
    · have ha0 : NoNul a := fun b hb => h0 b (by simp [hb])
      have ht0 : NoNul t' := fun b hb => h0 b (by simp [hb])
      have h' : m.drop p = a ++ 10 :: (t' ++ 0 :: r) := by rw [h]; simp
      rw [List.length_append, List.length_cons] at hlen hn
      rw [splitLoop, strchr_found h' ha0 h2 (by omega)]
      obtain ⟨m1, h3, h4, h5⟩ := takeLine_spec h' ha0
      simp only [Option.bind_some]
      rw [h3]
      simp only [Option.bind_some]
      have h6 : m1.drop (p + a.length + 1) = t' ++ 0 :: r := by
        rw [h5, show p + a.length + 1 = p + (a ++ [10]).length by simp; omega, ← List.drop_drop, h',
          show a ++ 10 :: (t' ++ 0 :: r) = (a ++ [10]) ++ (t' ++ 0 :: r) by simp, List.drop_left]
      obtain ⟨m2, i1, i2, i3⟩ := ih m1 t' r (p + a.length + 1) (count + (p + a.length + 1 - p)) (out ++ lineOut a) h6 ht0 (by omega)
      rw [linesOf_nl h2]
      generalize hS : ((linesOf t').1.map (·.length + 1)).sum = S at *
      have hS' : ((a :: (linesOf t').1, (linesOf t').2).1.map (·.length + 1)).sum = a.length + 1 + S := by simp [hS]
      rw [hS', i1]
      refine ⟨m2, ?_, by rw [i2, h4], ?_⟩
      · simp only [List.flatMap_cons, List.append_assoc]
        congr 2
        congr 1
        omega
      · rw [show p + (a.length + 1 + S) = p + a.length + 1 + S by omega, i3, ← List.drop_drop, h5, List.drop_drop]

/-- One turn, without memory: what is logged, and what is kept. -/
def turnSpec (N : Nat) (kept chunk : Bytes) : Bytes × List KOut :=
  let rest := (kept ++ chunk).drop (((linesOf (cstr (kept ++ chunk))).1.map (·.length + 1)).sum)
  (if rest.length ≥ N - 1 then [] else rest, (linesOf (cstr (kept ++ chunk))).1.flatMap lineOut)

theorem cstr_after (t r : Bytes) : ∃ r', t ++ 0 :: r = cstr t ++ 0 :: r' := by
  induction t with
  | nil => exact ⟨r, rfl⟩
  | cons b t ih =>
    rw [cstr_cons]
    by_cases hb : b = 0
    · rw [if_pos hb, hb]; exact ⟨t ++ 0 :: r, rfl⟩
    · rw [if_neg hb]
      obtain ⟨r', h⟩ := ih
      exact ⟨r', by rw [List.cons_append, List.cons_append, h]⟩

theorem kmsgdTurn_spec {s : KState} {chunk : Bytes} (h : s.offset + chunk.length < s.buf.length) :
    ∃ s', kmsgdTurn s chunk = some (s', (turnSpec s.buf.length (s.buf.take s.offset) chunk).2) ∧ s'.buf.length = s.buf.length ∧
      s'.buf.take s'.offset = (turnSpec s.buf.length (s.buf.take s.offset) chunk).1 ∧ (1 < s.buf.length → s'.offset < s.buf.length - 1) := by
  unfold kmsgdTurn
  rw [poke_some (by omega)]
  simp only [Option.bind_eq_bind, Option.bind_some]
  generalize hT : s.buf.take s.offset ++ chunk = T
  have hTl : T.length = s.offset + chunk.length := by rw [← hT]; simp; omega
  generalize hm1 : T ++ s.buf.drop (s.offset + chunk.length) = m1
  have hm1l : m1.length = s.buf.length := by rw [← hm1]; simp; omega
  rw [wr_eq (by omega : s.offset + chunk.length < m1.length)]
  simp only [Option.bind_some]
  have hsz : s.offset + chunk.length = T.length := hTl.symm
  rw [hsz]
  rw [hsz] at hm1
  have hset : m1.set T.length 0 = T ++ 0 :: s.buf.drop (T.length + 1) := by
    rw [← hm1, List.set_append_right _ _ (Nat.le_refl _), Nat.sub_self, List.drop_eq_getElem_cons (by omega), List.set_cons_zero]
  obtain ⟨r', hr'⟩ := cstr_after T (s.buf.drop (T.length + 1))
  have hcl := cstr_length_le T
  obtain ⟨m2, h1, h2, h3⟩ := splitLoop_spec ((m1.set T.length 0).length + 1) (m1.set T.length 0) (cstr T) r' 0 0 []
    (by rw [List.drop_zero, hset, hr']) (cstr_noNul T) (by rw [List.length_set]; omega)
  rw [h1]
  simp only [Option.bind_some]
  unfold turnSpec
  dsimp only
  rw [hT]
  obtain ⟨l1, _, _⟩ := linesOf_length _ (cstr T) (Nat.le_refl _)
  generalize hc : ((linesOf (cstr T)).1.map (·.length + 1)).sum = c at *
  have hcT : c ≤ T.length := by omega
  simp only [Nat.zero_add] at h3 ⊢
  rw [List.length_set] at h2
  have hd : m2.drop c = T.drop c ++ 0 :: s.buf.drop (T.length + 1) := by
    rw [h3, hset, List.drop_append_of_le_length hcT]
  have hwin : win m2 c (T.length - c) = T.drop c := by
    unfold win
    rw [hd, List.take_append_of_le_length (by rw [List.length_drop]; omega), List.take_of_length_le (by rw [List.length_drop]; omega)]
  have hmove : ∃ m3, moveRest m2 c T.length = some m3 ∧ m3.length = s.buf.length ∧ m3.take (T.length - c) = T.drop c := by
    unfold moveRest
    by_cases hcc : 0 < c ∧ c < T.length
    · rw [if_pos hcc, if_pos (by omega), hwin]
      have hp : 0 + (T.drop c).length ≤ m2.length := by rw [List.length_drop]; omega
      rw [poke_some hp]
      refine ⟨_, rfl, by rw [poke_length (poke_some hp)]; omega, ?_⟩
      rw [List.take_zero, List.nil_append, List.take_append_of_le_length (by rw [List.length_drop]; omega),
        List.take_of_length_le (by rw [List.length_drop]; omega)]
    · rw [if_neg hcc]
      refine ⟨m2, rfl, by omega, ?_⟩
      rcases Nat.eq_zero_or_pos c with h0 | h0
      · rw [h0, List.drop_zero] at hd
        rw [h0, hd, List.drop_zero, Nat.sub_zero, List.take_left]
      · rw [show T.length - c = 0 by omega, List.take_zero, List.drop_eq_nil_of_le (by omega)]
  obtain ⟨m3, e1, e2, e3⟩ := hmove
  rw [e1]
  simp only [Option.bind_some]
  refine ⟨_, rfl, e2, ?_, ?_⟩
  · dsimp only
    rw [e2, List.length_drop]
    split
    · simp
    · exact e3
  · intro hN
    dsimp only
    rw [e2]
    split <;> omega

/-- All lines, and what follows the last line break, fit in the buffer. -/
def Short (N : Nat) (t : Bytes) : Prop := (∀ l ∈ (linesOf t).1, l.length < N - 1) ∧ (linesOf t).2.length < N - 1

theorem short_prefix {N : Nat} {K t : Bytes} (hK : ∀ b ∈ K, b ≠ 10) (h : Short N (K ++ t)) : K.length < N - 1 := by
  rcases first_line t with h1 | ⟨a, t', rfl, h2⟩
  · have hno : ∀ b ∈ K ++ t, b ≠ 10 := by
      intro b hb; rcases List.mem_append.mp hb with hb | hb
      · exact hK b hb
      · exact h1 b hb
    have := h.2
    rw [linesOf_no hno, List.length_append] at this
    omega
  · have hno : ∀ b ∈ K ++ a, b ≠ 10 := by
      intro b hb; rcases List.mem_append.mp hb with hb | hb
      · exact hK b hb
      · exact h2 b hb
    have := h.1 (K ++ a) (by rw [← List.append_assoc, linesOf_nl hno]; simp)
    rw [List.length_append] at this
    omega

/-- The state of the daemon: `N` bytes of buffer, of which `K` is kept. -/
def Keeps (N : Nat) (s : KState) (K : Bytes) : Prop :=
  s.buf.length = N ∧ s.offset < N - 1 ∧ s.buf.take s.offset = K

theorem Keeps.length {N : Nat} {s : KState} {K : Bytes} (h : Keeps N s K) : K.length = s.offset := by
  obtain ⟨h1, h2, h3⟩ := h
  rw [← h3, List.length_take]; omega

theorem turn_keeps {N : Nat} (hN : 2 ≤ N) {s : KState} {K : Bytes} (h : Keeps N s K) (stream : Bytes) (n : Nat) :
    ∃ s', kmsgdTurn s (klogRead stream (s.buf.length - 1 - s.offset) n).1 =
        some (s', (turnSpec N K (stream.take (min (N - 1 - K.length) n))).2) ∧
      Keeps N s' (turnSpec N K (stream.take (min (N - 1 - K.length) n))).1 := by
  have hl := h.length
  obtain ⟨h1, h2, h3⟩ := h
  have hr : (klogRead stream (s.buf.length - 1 - s.offset) n).1 = stream.take (min (N - 1 - K.length) n) := by
    unfold klogRead; rw [h1, hl]
  rw [hr]
  obtain ⟨s', e1, e2, e3, e4⟩ := kmsgdTurn_spec (s := s) (chunk := stream.take (min (N - 1 - K.length) n))
    (by rw [List.length_take]; omega)
  rw [h1, h3] at e1 e3
  exact ⟨s', e1, by omega, by have := e4 (by omega); omega, e3⟩

/-- **C41, safety:** whatever the kernel sends, the daemon stays inside its buffer. -/
theorem C41_safe {N : Nat} (hN : 2 ≤ N) (ns : List Nat) : ∀ {s : KState} {K : Bytes}, Keeps N s K → ∀ stream : Bytes,
    ∃ s' K' rest out, kmsgdRun ns s stream = some (s', rest, out) ∧ Keeps N s' K' := by
  induction ns with
  | nil => intro s K h stream; exact ⟨s, K, stream, [], rfl, h⟩
  | cons n ns ih =>
    intro s K h stream
    obtain ⟨s1, e1, e2⟩ := turn_keeps hN h stream n
    obtain ⟨s2, K', rest, out, e3, e4⟩ := ih e2 (klogRead stream (s.buf.length - 1 - s.offset) n).2
    unfold kmsgdRun
    dsimp only
    rw [e1]
    simp only [Option.bind_some]
    rw [e3]
    exact ⟨s2, K', rest, _, rfl, e4⟩

theorem run_lines {N : Nat} (hN : 2 ≤ N) (ns : List Nat) : ∀ {s : KState} {K : Bytes}, Keeps N s K → ∀ stream : Bytes,
    NoNul K → (∀ b ∈ K, b ≠ 10) → NoNul stream → Short N (K ++ stream) →
    ∃ s' used rest, kmsgdRun ns s stream = some (s', rest, (linesOf (K ++ used)).1.flatMap lineOut) ∧ used ++ rest = stream ∧
      Keeps N s' (linesOf (K ++ used)).2 ∧ ((∀ n ∈ ns, 0 < n) → rest.length + ns.length ≤ stream.length ∨ rest = []) := by
  induction ns with
  | nil =>
    intro s K h stream _ hK _ _
    exact ⟨s, [], stream, by rw [List.append_nil, linesOf_no hK]; rfl, rfl, by rw [List.append_nil, linesOf_no hK]; exact h, by simp⟩
  | cons n ns ih =>
    intro s K h stream hK0 hK hs0 hsh
    obtain ⟨s1, e1, e2⟩ := turn_keeps hN h stream n
    have hl := h.length
    generalize hw : min (N - 1 - K.length) n = w at e1 e2
    have hrest : (klogRead stream (s.buf.length - 1 - s.offset) n).2 = stream.drop w := by
      unfold klogRead; rw [h.1, ← hl, hw]
    have hT0 : NoNul (K ++ stream.take w) := by
      intro b hb; rcases List.mem_append.mp hb with hb | hb
      · exact hK0 b hb
      · exact hs0 b (List.mem_of_mem_take hb)
    have hcat : K ++ stream = (K ++ stream.take w) ++ stream.drop w := by rw [List.append_assoc, List.take_append_drop]
    obtain ⟨l1, l2, l3⟩ := linesOf_length _ (K ++ stream.take w) (Nat.le_refl _)
    have hsh' : Short N ((linesOf (K ++ stream.take w)).2 ++ stream.drop w) := by
      rw [hcat, Short, linesOf_append] at hsh
      exact ⟨fun l hl => hsh.1 l (by simp [hl]), hsh.2⟩
    have hts : turnSpec N K (stream.take w) = ((linesOf (K ++ stream.take w)).2, (linesOf (K ++ stream.take w)).1.flatMap lineOut) := by
      unfold turnSpec
      dsimp only
      rw [cstr_of_noNul_all hT0, l2]
      have := short_prefix l3 hsh'
      rw [if_neg (by omega)]
    rw [hts] at e1 e2
    dsimp only at e1 e2
    obtain ⟨s2, used, rest, e3, e4, e5, e6⟩ := ih e2 (stream.drop w)
      (by rw [← l2]; intro b hb; exact hT0 b (List.mem_of_mem_drop hb)) l3
      (fun b hb => hs0 b (List.mem_of_mem_drop hb)) hsh'
    refine ⟨s2, stream.take w ++ used, rest, ?_, ?_, ?_, ?_⟩
    · unfold kmsgdRun
      dsimp only
      rw [e1]
      simp only [Option.bind_some]
      rw [hrest, e3, ← List.append_assoc, linesOf_append (K ++ stream.take w) used]
      simp
    · rw [List.append_assoc, e4, List.take_append_drop]
    · rw [← List.append_assoc, linesOf_append (K ++ stream.take w) used]; exact e5
    · intro hpos
      rcases e6 (fun k hk => hpos k (by simp [hk])) with h6 | h6
      · rw [List.length_drop] at h6
        have hn := hpos n (by simp)
        have := h.2.1
        rcases Nat.eq_zero_or_pos stream.length with hz | hz
        · right
          exact List.eq_nil_of_length_eq_zero (by omega)
        · left; rw [List.length_cons]; omega
      · exact Or.inr h6

/-- **C41.** However the kernel cuts the stream into reads, the daemon has logged
exactly the complete lines of what it has read, each once and in order, each
followed by its anomaly, if there is one; the rest is kept. -/
theorem C41_lines {N : Nat} (hN : 2 ≤ N) {s : KState} (hb : s.buf.length = N) (ho : s.offset = 0) (ns : List Nat) (stream : Bytes)
    (h0 : NoNul stream) (hl : Short N stream) :
    ∃ s' used rest, kmsgdRun ns s stream = some (s', rest, (linesOf used).1.flatMap lineOut) ∧ used ++ rest = stream ∧
      s'.buf.take s'.offset = (linesOf used).2 := by
  obtain ⟨s', used, rest, h1, h2, h3, _⟩ := run_lines hN ns (s := s) (K := []) ⟨hb, by omega, by rw [ho]; rfl⟩ stream
    (by intro b hb; simp at hb) (by simp) h0 hl
  exact ⟨s', used, rest, h1, h2, h3.2.2⟩

/-- **C41:** with enough reads everything is logged. -/
theorem C41_all {N : Nat} (hN : 2 ≤ N) {s : KState} (hb : s.buf.length = N) (ho : s.offset = 0) (ns : List Nat) (stream : Bytes)
    (h0 : NoNul stream) (hl : Short N stream) (hn : ∀ n ∈ ns, 0 < n) (hlen : stream.length ≤ ns.length) :
    ∃ s', kmsgdRun ns s stream = some (s', [], (linesOf stream).1.flatMap lineOut) := by
  obtain ⟨s', used, rest, h1, h2, _, h4⟩ := run_lines hN ns (s := s) (K := []) ⟨hb, by omega, by rw [ho]; rfl⟩ stream
    (by intro b hb; simp at hb) (by simp) h0 hl
  have hr : rest = [] := by
    rcases h4 hn with h | h
    · exact List.eq_nil_of_length_eq_zero (by omega)
    · exact h
  rw [hr, List.append_nil] at h2
  rw [hr, List.nil_append, h2] at h1
  exact ⟨s', h1⟩

/-- C41 is false for a stream with a NUL: from a line with a NUL on, nothing is
logged, until the buffer is full and all is dropped. -/
theorem C41_false_nul {N : Nat} (hN : 2 ≤ N) (ns : List Nat) : ∀ {s : KState} {K : Bytes}, Keeps N s K → ∀ (stream a z : Bytes),
    K ++ stream = a ++ 0 :: z → (∀ b ∈ a, b ≠ 10) → (a ++ 0 :: z).length < N - 1 →
    ∃ s' rest, kmsgdRun ns s stream = some (s', rest, []) := by
  induction ns with
  | nil => intro s K h stream a z _ _ _; exact ⟨s, stream, rfl⟩
  | cons n ns ih =>
    intro s K h stream a z he ha hlen
    obtain ⟨s1, e1, e2⟩ := turn_keeps hN h stream n
    have hl := h.length
    generalize hw : min (N - 1 - K.length) n = w at e1 e2
    have hrest : (klogRead stream (s.buf.length - 1 - s.offset) n).2 = stream.drop w := by
      unfold klogRead; rw [h.1, ← hl, hw]
    have hcat : (K ++ stream.take w) ++ stream.drop w = a ++ 0 :: z := by rw [List.append_assoc, List.take_append_drop, he]
    generalize hT : K ++ stream.take w = T at *
    have hno : ∀ b ∈ cstr T, b ≠ 10 := by
      have hpre : cstr T <+: cstr (T ++ stream.drop w) := by
        clear hcat hT e1 e2
        induction T with
        | nil => exact List.nil_prefix
        | cons b T ih =>
          rw [List.cons_append, cstr_cons, cstr_cons]
          by_cases hb : b = 0
          · rw [if_pos hb]; exact List.nil_prefix
          · rw [if_neg hb, if_neg hb]; exact List.cons_prefix_cons.mpr ⟨rfl, ih⟩
      intro b hb
      have hb' := hpre.subset hb
      rw [hcat] at hb'
      obtain ⟨r', hr'⟩ := cstr_after a z
      have : cstr (a ++ 0 :: z) = cstr a := by rw [hr', cstr_of_noNul (cstr_noNul a)]
      rw [this] at hb'
      exact ha b ((List.takeWhile_prefix _).subset hb')
    have hTlen : T.length < N - 1 := by
      have := congrArg List.length hcat
      rw [List.length_append] at this
      omega
    have hts : turnSpec N K (stream.take w) = (T, []) := by
      unfold turnSpec
      dsimp only
      rw [hT, linesOf_no hno]
      simp only [List.map_nil, List.sum_nil, List.drop_zero, List.flatMap_nil]
      rw [if_neg (by omega)]
    rw [hts] at e1 e2
    obtain ⟨s2, rest, e3⟩ := ih e2 (stream.drop w) a z hcat ha hlen
    refine ⟨s2, rest, ?_⟩
    unfold kmsgdRun
    dsimp only
    rw [e1]
    simp only [Option.bind_some]
    rw [hrest, e3]
    rfl

theorem findSub_first {w t : Bytes} : ∀ {i : Nat}, findSub w t = some i → ∀ a r, t = a ++ w ++ r → i ≤ a.length := by
  induction t with
  | nil =>
    intro i h a r e
    unfold findSub at h
    split at h
    · cases h; omega
    · simp at h
  | cons b t ih =>
    intro i h a r e
    unfold findSub at h
    split at h
    · cases h; omega
    · rename_i hw
      cases hf : findSub w t with
      | none => rw [hf] at h; simp at h
      | some j =>
        rw [hf] at h
        have : j + 1 = i := by simpa using h
        cases a with
        | nil => exact absurd ⟨r, by rw [e]; simp⟩ hw
        | cons c a =>
          have e' : t = a ++ w ++ r := by simp at e; simp [e.2]
          have := ih hf a r e'
          rw [List.length_cons]; omega

theorem findSub_none {w t : Bytes} : findSub w t = none → ∀ a r, t ≠ a ++ w ++ r := by
  induction t with
  | nil =>
    intro h a r e
    unfold findSub at h
    split at h
    · simp at h
    · rename_i hw
      simp at e
      exact hw e.2.1
  | cons b t ih =>
    intro h a r e
    unfold findSub at h
    split at h
    · simp at h
    · rename_i hw
      cases a with
      | nil => exact hw ⟨r, by rw [e]; simp⟩
      | cons c a =>
        have e' : t = a ++ w ++ r := by simp at e; simp [e.2]
        exact ih (by simpa using h) a r e'

/-- **C68.** An anomaly is announced exactly for a line with a space after its first
end marker of a trace; its id is the text between the two. -/
theorem C68_anomaly (l : Bytes) (o : KOut) : o ∈ anomalyOf l ↔
    ∃ a id z, l = a ++ ascii "---[ end trace " ++ id ++ 32 :: z ∧ 32 ∉ id ∧ o = .anomaly id ∧
      ∀ a' r, l = a' ++ ascii "---[ end trace " ++ r → a.length ≤ a'.length := by
  unfold anomalyOf
  constructor
  · intro h
    cases hf : findSub oopsMarker l with
    | none => rw [hf] at h; simp at h
    | some i =>
      rw [hf] at h
      dsimp only at h
      obtain ⟨a, t, e1, e2⟩ := findSub_some hf
      have hl15 := marker_length
      have hdl : l.drop (i + 15) = t := by
        rw [e1, show i + 15 = (a ++ oopsMarker).length by rw [List.length_append]; omega, List.drop_left]
      rw [hdl] at h
      split at h
      · rename_i hsp
        obtain ⟨id, z, e3, e4, e5⟩ := split_at hsp
        rw [List.mem_singleton, e5] at h
        refine ⟨a, id, z, ?_, fun hm => e4 32 hm rfl, h, fun a' r e => ?_⟩
        · rw [e1, e3]; show a ++ oopsMarker ++ _ = a ++ oopsMarker ++ _ ++ _; simp
        · have := findSub_first hf a' r e; omega
      · simp at h
  · rintro ⟨a, id, z, e1, h2, rfl, h3⟩
    cases hf : findSub oopsMarker l with
    | none => exact absurd (by rw [e1]; show _ = a ++ oopsMarker ++ (id ++ 32 :: z); simp [oopsMarker]) (findSub_none hf a (id ++ 32 :: z))
    | some i =>
      dsimp only
      obtain ⟨a', t, e3, e4⟩ := findSub_some hf
      have h4 := findSub_first hf a (id ++ 32 :: z) (by rw [e1]; show _ = a ++ oopsMarker ++ _; simp [oopsMarker])
      have h5 := h3 a' t e3
      have hia : i = a.length := by omega
      have hl15 := marker_length
      have hdl : l.drop (i + 15) = id ++ 32 :: z := by
        rw [e1, show i + 15 = (a ++ ascii "---[ end trace ").length by
          rw [List.length_append]; show _ = a.length + oopsMarker.length; omega, List.append_assoc, List.drop_left]
      rw [hdl, if_pos (by simp)]
      have : (id ++ 32 :: z).takeWhile (· ≠ 32) = id := by
        clear e1 hdl
        induction id with
        | nil => simp
        | cons b id ih =>
          have hb : b ≠ 32 := fun e => h2 (by simp [e])
          rw [List.cons_append, List.takeWhile_cons_of_pos (by simpa using hb), ih (fun hm => h2 (by simp [hm]))]
      rw [this]; simp

end Verif.Tools
