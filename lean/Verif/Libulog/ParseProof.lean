import Verif.Libulog.ParseSpec

/-!
# The parser meets its specification
-/
namespace Verif.Libulog
open Verif

/-- The terminated string `s` lies at `q`, before `lim`. -/
structure Tok (m : Bytes) (q lim : Nat) (s : Bytes) : Prop where
  bytes : win m q (s.length + 1) = s ++ [0]
  noNul : NoNul s
  inside : q + s.length < lim
  lim_le : lim ≤ m.length

/-- `m'` has the same length as `m` and differs only from `p` to `lim`. -/
def Agree (m m' : Bytes) (p lim : Nat) : Prop :=
  m'.length = m.length ∧ ∀ i, i < p ∨ lim ≤ i → m'[i]? = m[i]?

theorem Agree.refl (m : Bytes) (p lim : Nat) : Agree m m p lim := ⟨rfl, fun _ _ => rfl⟩

theorem Agree.mono {m m' : Bytes} {p p' lim : Nat} (h : Agree m m' p lim) (hp : p' ≤ p) : Agree m m' p' lim :=
  ⟨h.1, fun i hi => h.2 i (by omega)⟩

theorem Agree.set {m : Bytes} {p lim i : Nat} {v : UInt8} (h1 : p ≤ i) (h2 : i < lim) : Agree m (m.set i v) p lim :=
  ⟨by simp, fun j hj => List.getElem?_set_ne (by omega)⟩

theorem Agree.win {m m' : Bytes} {p lim q n : Nat} (h : Agree m m' p lim) (hq : q + n ≤ p) : win m' q n = win m q n := by
  apply List.ext_getElem?
  intro j
  unfold Verif.win
  rw [List.getElem?_take, List.getElem?_take]
  split
  · rw [List.getElem?_drop, List.getElem?_drop, h.2 _ (by omega)]
  · rfl

theorem Tok.agree {m m' : Bytes} {q p lim : Nat} {s : Bytes} (h : Tok m q p s) (ha : Agree m m' p lim)
    (hl : p ≤ lim) (hlm : lim ≤ m.length) : Tok m' q lim s := by
  have := h.inside
  refine ⟨?_, h.noNul, by omega, by rw [ha.1]; exact hlm⟩
  rw [ha.win (by omega)]
  exact h.bytes

theorem Tok.mono {m : Bytes} {q p lim : Nat} {s : Bytes} (h : Tok m q p s) (hl : p ≤ lim) (hlm : lim ≤ m.length) :
    Tok m q lim s := h.agree (Agree.refl m p lim) hl hlm

theorem Tok.str {m : Bytes} {lo q lim : Nat} {s : Bytes} (h : Tok m q lim s) (hlo : lo ≤ q) :
    Ptr.str m lo lim (.buf q) = some s := by
  have hi := h.inside
  have e : (m.take lim).drop q = s ++ 0 :: win m (q + (s.length + 1)) (lim - q - (s.length + 1)) := by
    have h1 : (m.take lim).drop q = win m q (lim - q) := by unfold Verif.win; rw [List.drop_take]
    rw [h1, ← List.take_append_drop (s.length + 1) (win m q (lim - q)), win_take _ _ _ _ (by omega), h.bytes, win_drop,
      List.append_assoc]
    rfl
  simp only [Ptr.str, strAt]
  rw [if_pos hlo, e, if_pos (by simp), cstr_of_noNul h.noNul]

/-- What `getToken` returns. -/
theorem getToken_eq {m : Bytes} {p size : Nat} (h : p + size ≤ m.length) :
    (0 ∉ win m p size ∧ getToken m p size = some none ∧ token (win m p size) = none) ∨
    ∃ s, s.length + 1 ≤ size ∧ getToken m p size = some (some (p, p + s.length + 1, size - s.length - 1)) ∧
      token (win m p size) = some (s, win m (p + s.length + 1) (size - s.length - 1)) ∧
      Tok m p (p + s.length + 1) s := by
  have hl := win_length h
  have hc := cstr_length_le (win m p size)
  rcases Nat.lt_or_ge (cstr (win m p size)).length size with h1 | h1
  · right
    have hs := cstr_split (l := win m p size) (by omega)
    have h0 : (0 : UInt8) ∈ win m p size := by
      rw [hs]; simp
    refine ⟨cstr (win m p size), by omega, ?_, ?_, ⟨?_, cstr_noNul _, by omega, by omega⟩⟩
    · unfold getToken
      rw [strnlen_eq h]
      simp only [Option.bind_eq_bind, Option.bind_some]
      rw [if_neg (by omega)]
      rfl
    · unfold token
      rw [if_pos h0, win_drop]
      rfl
    · have : win m p ((cstr (win m p size)).length + 1) = (win m p size).take ((cstr (win m p size)).length + 1) := by
        rw [win_take _ _ _ _ (by omega)]
      rw [this]
      generalize cstr (win m p size) = s at *
      rw [hs, show s ++ 0 :: List.drop (s.length + 1) (win m p size) = (s ++ [0]) ++ List.drop (s.length + 1) (win m p size)
        by simp]
      rw [List.take_append_of_le_length (by simp)]
      rw [List.take_of_length_le (by simp)]
  · left
    have hn := noNul_of_cstr (l := win m p size) (by omega)
    have h0 : (0 : UInt8) ∉ win m p size := fun h => hn 0 h rfl
    refine ⟨h0, ?_, ?_⟩
    · unfold getToken
      rw [strnlen_eq h]
      simp only [Option.bind_eq_bind, Option.bind_some]
      rw [if_pos (by omega)]
      rfl
    · unfold token; rw [if_neg h0]

/-- Common part of the results. -/
structure Good (m : Bytes) (lo p size : Nat) (e : PEntry) (d : Decoded) (r : Option (Bytes × PEntry)) : Prop where
  ok : ∃ m' e', r = some (m', e') ∧ Agree m m' p (p + size) ∧ Shows m' lo (p + size) e' d ∧
    e'.pid = e.pid ∧ e'.tid = e.tid ∧ e'.sec = e.sec ∧ e'.nsec = e.nsec

/-- Terminating a window without NUL: the text before its last byte. -/
theorem terminate {m : Bytes} {p size : Nat} (h : p + size ≤ m.length) (h0 : 0 < size) (hn : 0 ∉ win m p size) :
    Tok (m.set (p + (size - 1)) 0) p (p + size) (win m p size).dropLast := by
  have hl := win_length h
  have hd : (win m p size).dropLast = win m p (size - 1) := by
    rw [List.dropLast_eq_take, hl, win_take _ _ _ _ (by omega)]
  have hl' : (win m p (size - 1)).length = size - 1 := win_length (by omega)
  rw [hd]
  refine ⟨?_, ?_, by omega, by simpa using h⟩
  · rw [hl', win_set_last (by omega)]
  · intro b hb hb0
    rw [← win_take m p size (size - 1) (by omega)] at hb
    exact hn (hb0 ▸ List.mem_of_mem_take hb)

theorem tokenAt {m : Bytes} {p size : Nat} (h : p + size ≤ m.length) (hc : (cstr (win m p size)).length < size) :
    Tok m p (p + size) (cstr (win m p size)) := by
  have hl := win_length h
  have hs := cstr_split (l := win m p size) (by omega)
  refine ⟨?_, cstr_noNul _, by omega, h⟩
  have : win m p ((cstr (win m p size)).length + 1) = (win m p size).take ((cstr (win m p size)).length + 1) := by
    rw [win_take _ _ _ _ (by omega)]
  rw [this]
  generalize cstr (win m p size) = s at *
  rw [hs, show s ++ 0 :: List.drop (s.length + 1) (win m p size) = (s ++ [0]) ++ List.drop (s.length + 1) (win m p size)
    by simp]
  rw [List.take_append_of_le_length (by simp)]
  rw [List.take_of_length_le (by simp)]

theorem zero_mem_win {m : Bytes} {p size : Nat} (h : p + size ≤ m.length) :
    0 ∈ win m p size ↔ (cstr (win m p size)).length < size := by
  have hl := win_length h
  have hc := cstr_length_le (win m p size)
  constructor
  · intro h0
    rcases Nat.lt_or_ge (cstr (win m p size)).length size with h1 | h1
    · exact h1
    · exact absurd rfl (noNul_of_cstr (l := win m p size) (by omega) 0 h0)
  · intro h1
    rw [cstr_split (l := win m p size) (by omega)]
    simp

theorem parseUnformatted_good {m : Bytes} {lo p size : Nat} (h : p + size ≤ m.length) (hlo : lo ≤ p) (e : PEntry) :
    Good m lo p size e (unformatted (win m p size)) (parseUnformatted m p size e) := by
  have hl := win_length h
  have hc := cstr_length_le (win m p size)
  have hz := zero_mem_win h
  have hset : (cstr (win m p size)).length < size → m.set (p + (cstr (win m p size)).length) 0 = m := by
    intro h1
    have ht := (tokenAt h h1).bytes
    generalize hs : cstr (win m p size) = s at *
    have e1 : m[p + s.length]? = some 0 := by
      have e2 : (win m p (s.length + 1))[s.length]? = some 0 := by rw [ht]; simp
      unfold win at e2
      rw [List.getElem?_take, if_pos (by omega), List.getElem?_drop] at e2
      exact e2
    apply List.ext_getElem?
    intro j
    rw [List.getElem?_set]
    split
    · rename_i hj
      rw [← hj]
      split
      · exact e1.symm
      · rename_i hj2
        rw [List.getElem?_eq_none (by omega)] at e1
        cases e1
    · rfl
  unfold parseUnformatted
  rw [strnlen_eq h]
  simp only [Option.bind_eq_bind, Option.bind_some]
  by_cases h0 : (cstr (win m p size)).length = 0
  · rw [if_pos h0]
    refine ⟨m, _, rfl, Agree.refl _ _ _, ⟨rfl, rfl, rfl, rfl, rfl, ?_⟩, rfl, rfl, rfl, rfl⟩
    simp only [unformatted]
    rw [if_pos (List.length_eq_zero_iff.mp h0)]
    exact ⟨trivial, rfl, rfl, by decide⟩
  · rw [if_neg h0]
    have hne : cstr (win m p size) ≠ [] := fun h => h0 (by rw [h]; rfl)
    by_cases h1 : (cstr (win m p size)).length < size
    · rw [if_pos h1, wr_eq (by omega)]
      simp only [Option.bind_some]
      rw [hset h1]
      refine ⟨m, _, rfl, Agree.refl _ _ _, ⟨rfl, rfl, rfl, rfl, rfl, ?_⟩, rfl, rfl, rfl, rfl⟩
      simp only [unformatted]
      rw [if_neg hne]
      unfold clip
      rw [if_pos (hz.mpr h1)]
      exact ⟨trivial, (tokenAt h h1).str hlo, rfl, cstr_noNul _⟩
    · rw [if_neg h1, wr_eq (by omega)]
      simp only [Option.bind_some]
      have hn : 0 ∉ win m p size := fun hm => h1 (hz.mp hm)
      have ht := terminate h (by omega) hn
      refine ⟨_, _, rfl, Agree.set (by omega) (by omega), ⟨rfl, rfl, rfl, rfl, rfl, ?_⟩, rfl, rfl, rfl, rfl⟩
      simp only [unformatted]
      rw [if_neg hne]
      unfold clip
      rw [if_neg hn]
      refine ⟨trivial, ht.str hlo, ?_, ht.noNul⟩
      rw [List.length_dropLast, hl]
      omega

/-- A pointer to a terminated string before `p`. -/
def Before (m : Bytes) (lo p : Nat) (x : Ptr) (s : Bytes) : Prop := ∃ q, x = .buf q ∧ lo ≤ q ∧ Tok m q p s

theorem Before.str {m m' : Bytes} {lo p lim : Nat} {x : Ptr} {s : Bytes} (h : Before m lo p x s) (ha : Agree m m' p lim)
    (hl : p ≤ lim) (hlm : lim ≤ m.length) : x.str m' lo lim = some s := by
  obtain ⟨q, rfl, hq, ht⟩ := h
  exact (ht.agree ha hl hlm).str hq

theorem Before.mono {m : Bytes} {lo p p' : Nat} {x : Ptr} {s : Bytes} (h : Before m lo p x s) (hl : p ≤ p')
    (hlm : p' ≤ m.length) : Before m lo p' x s := by
  obtain ⟨q, rfl, hq, ht⟩ := h
  exact ⟨q, rfl, hq, ht.mono hl hlm⟩

theorem parseMessage_good {m : Bytes} {lo p size : Nat} (h : p + size ≤ m.length) (hlo : lo ≤ p) {e : PEntry} {d : Decoded}
    (hp : Before m lo p e.pname d.pname) (ht : Before m lo p e.tname d.tname) (hg : Before m lo p e.tag d.tag)
    (hl : e.priority = d.level) (hc : e.color = d.color) :
    Good m lo p size e
      (if e.isBinary then { d with msg := .bin (win m p size) }
       else if win m p size = [] then unformatted [] else { d with msg := .text (clip (win m p size)) })
      (parseMessage m p size e) := by
  have hwl := win_length h
  have hz := zero_mem_win h
  have hcl := cstr_length_le (win m p size)
  unfold parseMessage
  simp only
  by_cases hb : e.isBinary = true
  · rw [if_pos hb, if_pos hb]
    refine ⟨m, _, rfl, Agree.refl _ _ _, ⟨?_, ?_, ?_, hl, hc, hb, p, rfl, rfl, hlo, rfl⟩, rfl, rfl, rfl, rfl⟩
    · exact hp.str (Agree.refl _ _ _) (by omega) h
    · exact ht.str (Agree.refl _ _ _) (by omega) h
    · exact hg.str (Agree.refl _ _ _) (by omega) h
  · rw [if_neg hb, if_neg hb]
    by_cases h0 : size = 0
    · subst h0
      simp only [win_zero, if_true]
      have := parseUnformatted_good (m := m) (p := p) (size := 0) h hlo { e with message := .buf p, len := 0 }
      rw [win_zero] at this
      exact ⟨this.ok⟩
    · rw [if_neg h0]
      have hne : win m p size ≠ [] := fun hx => h0 (by rw [← hwl, hx]; rfl)
      rw [if_neg hne, strnlen_eq h]
      simp only [Option.bind_eq_bind, Option.bind_some]
      by_cases h1 : (cstr (win m p size)).length = size
      · rw [if_pos h1, wr_eq (by omega)]
        simp only [Option.bind_some]
        have hn : 0 ∉ win m p size := fun hm => by have := hz.mp hm; omega
        have htm := terminate h (by omega) hn
        have ha : Agree m (m.set (p + (size - 1)) 0) p (p + size) := Agree.set (by omega) (by omega)
        refine ⟨_, _, rfl, ha, ⟨hp.str ha (by omega) h, ht.str ha (by omega) h, hg.str ha (by omega) h, hl, hc,
          by simpa using hb, ?_⟩, rfl, rfl, rfl, rfl⟩
        unfold clip
        rw [if_neg hn]
        refine ⟨htm.str hlo, ?_, htm.noNul⟩
        rw [List.length_dropLast, hwl]
        dsimp only
        omega
      · rw [if_neg h1]
        have ha := Agree.refl m p (p + size)
        refine ⟨_, _, rfl, ha, ⟨hp.str ha (by omega) h, ht.str ha (by omega) h, hg.str ha (by omega) h, hl, hc,
          by simpa using hb, ?_⟩, rfl, rfl, rfl, rfl⟩
        unfold clip
        rw [if_pos (hz.mpr (by omega))]
        exact ⟨(tokenAt h (by omega)).str hlo, rfl, cstr_noNul _⟩

theorem Good.wider {m : Bytes} {lo p p' size size' : Nat} {e e' : PEntry} {d : Decoded} {r : Option (Bytes × PEntry)}
    (h : Good m lo p size e d r) (hp : p' ≤ p) (hs : p' + size' = p + size)
    (he : e'.pid = e.pid ∧ e'.tid = e.tid ∧ e'.sec = e.sec ∧ e'.nsec = e.nsec) : Good m lo p' size' e' d r := by
  obtain ⟨m', x, h1, h2, h3, h4⟩ := h.ok
  rw [he.1.symm, he.2.1.symm, he.2.2.1.symm, he.2.2.2.symm] at h4
  exact ⟨m', x, h1, hs ▸ h2.mono hp, hs ▸ h3, h4⟩

theorem parsePrio_good {m : Bytes} {lo p size : Nat} (h : p + size ≤ m.length) (hlo : lo ≤ p) {e : PEntry} {pn tn : Bytes}
    (hp : Before m lo p e.pname pn) (ht : Before m lo p e.tname tn) :
    Good m lo p size e (decodeBody pn tn (win m p size)) (parsePrio m p size e) := by
  unfold parsePrio
  by_cases h4 : size < 4
  · rw [if_pos h4]
    have hd : decodeBody pn tn (win m p size) = unformatted (win m p size) := by
      have hl := win_length h
      unfold decodeBody
      split
      · rename_i heq
        rw [heq] at hl
        simp only [List.length_cons] at hl
        omega
      · rfl
    rw [hd]
    exact parseUnformatted_good h hlo e
  · rw [if_neg h4]
    rw [rd_eq (by omega : p < m.length), rd_eq (by omega : p + 1 < m.length), rd_eq (by omega : p + 2 < m.length),
      rd_eq (by omega : p + 3 < m.length)]
    simp only [Option.bind_eq_bind, Option.bind_some]
    have hw : win m p size = m[p] :: m[p + 1] :: m[p + 2] :: m[p + 3] :: win m (p + 4) (size - 4) := by
      obtain ⟨n, rfl⟩ : ∃ n, size = n + 4 := ⟨size - 4, by omega⟩
      rw [win_cons (by omega), win_cons (by omega), win_cons (by omega), win_cons (by omega)]
      rfl
    generalize m[p] = b0 at hw
    generalize m[p + 1] = b1 at hw
    generalize m[p + 2] = b2 at hw
    generalize m[p + 3] = b3 at hw
    rcases getToken_eq (m := m) (p := p + 4) (size := size - 4) (by omega) with ⟨_, e1, e2⟩ | ⟨s, hs, e1, e2, htok⟩
    · rw [e1, hw]
      simp only [Option.bind_some, decodeBody, e2]
      rw [← hw]
      exact (parseUnformatted_good h hlo _).wider (Nat.le_refl _) rfl ⟨rfl, rfl, rfl, rfl⟩
    · rw [e1, hw]
      simp only [Option.bind_some, decodeBody, e2]
      have hb0 := b0.toNat_lt
      have hlim : p + 4 + s.length + 1 + (size - 4 - s.length - 1) ≤ m.length := by omega
      have hg := parseMessage_good (m := m) (p := p + 4 + s.length + 1) (size := size - 4 - s.length - 1) hlim (lo := lo) (by omega)
        (e := { e with priority := b0.toNat % 8, isBinary := decide (b0.toNat / 128 % 2 = 1)
                       color := b1.toNat + 256 * b2.toNat + 65536 * b3.toNat, tag := .buf (p + 4) })
        (d := { pname := pn, tname := tn, tag := s, level := b0.toNat % 8
                color := b1.toNat + 256 * b2.toNat + 65536 * b3.toNat, msg := .text [] })
        (hp.mono (by omega) (by omega)) (ht.mono (by omega) (by omega)) ⟨p + 4, rfl, by omega, htok⟩ rfl rfl
      have hbit : (decide (b0.toNat / 128 % 2 = 1) = true) = (128 ≤ b0.toNat) := by
        simp only [decide_eq_true_eq, eq_iff_iff]; omega
      simp only [hbit] at hg
      exact hg.wider (by omega) (by omega) ⟨rfl, rfl, rfl, rfl⟩

theorem parsePayload_good {m : Bytes} {lo p size : Nat} (h : p + size ≤ m.length) (hlo : lo ≤ p) (e : PEntry) :
    Good m lo p size e (decode (e.pid != e.tid) (win m p size)) (parsePayload m p size e) := by
  unfold parsePayload decode
  rcases getToken_eq (m := m) (p := p) (size := size) h with ⟨_, e1, e2⟩ | ⟨s, hs, e1, e2, htok⟩
  · rw [e1, e2]
    exact parseUnformatted_good h hlo e
  · rw [e1, e2]
    simp only [Option.bind_eq_bind, Option.bind_some]
    by_cases hne : e.pid ≠ e.tid
    · rw [if_pos hne]
      have hb : (e.pid != e.tid) = true := by simpa using hne
      rw [hb, if_pos rfl]
      have h1 : p + s.length + 1 + (size - s.length - 1) ≤ m.length := by omega
      rcases getToken_eq h1 with ⟨_, f1, f2⟩ | ⟨t, ht, f1, f2, ttok⟩
      · rw [f1, f2]
        exact (parseUnformatted_good h1 (by omega) _).wider (by omega) (by omega) ⟨rfl, rfl, rfl, rfl⟩
      · rw [f1, f2]
        simp only [Option.bind_some]
        have h2 : p + s.length + 1 + t.length + 1 + (size - s.length - 1 - t.length - 1) ≤ m.length := by omega
        exact (parsePrio_good h2 (lo := lo) (by omega) (e := { e with pname := .buf p, tname := .buf (p + s.length + 1) })
          (pn := s) (tn := t) ⟨p, rfl, hlo, htok.mono (by omega) (by omega)⟩ ⟨_, rfl, by omega, ttok⟩).wider (by omega) (by omega)
          ⟨rfl, rfl, rfl, rfl⟩
    · rw [if_neg hne]
      have hb : (e.pid != e.tid) = false := by simpa using hne
      rw [hb]
      simp only [Bool.false_eq_true, if_false]
      have h1 : p + s.length + 1 + (size - s.length - 1) ≤ m.length := by omega
      exact (parsePrio_good h1 (lo := lo) (by omega) (e := { e with pname := .buf p, tname := .buf p })
        (pn := s) (tn := s) ⟨p, rfl, hlo, htok⟩ ⟨_, rfl, hlo, htok⟩).wider (by omega) (by omega)
        ⟨rfl, rfl, rfl, rfl⟩

end Verif.Libulog
