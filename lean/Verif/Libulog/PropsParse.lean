import Verif.Libulog.ParseProof

/-!
# Parser properties (C17, C18)
-/
namespace Verif.Libulog
open Verif

/-- A 16-bit field of a buffer. -/
def field16 (m : Bytes) (i : Nat) : Nat := unle16 (m.getD i 0) (m.getD (i + 1) 0)

/-- A 32-bit field of a buffer. -/
def field32 (m : Bytes) (i : Nat) : UInt32 :=
  unle32 (m.getD i 0) (m.getD (i + 1) 0) (m.getD (i + 2) 0) (m.getD (i + 3) 0)

theorem rd_getD {m : Bytes} {i : Nat} (h : i < m.length) : rd m i = some (m.getD i 0) := by
  rw [rd_eq h, List.getD_eq_getElem?_getD, List.getElem?_eq_getElem h]
  rfl

theorem rd16_eq {m : Bytes} {i : Nat} (h : i + 2 ≤ m.length) : rd16 m i = some (field16 m i) := by
  unfold rd16 field16
  rw [rd_getD (by omega), rd_getD (by omega)]
  rfl

theorem rd32_eq {m : Bytes} {i : Nat} (h : i + 4 ≤ m.length) : rd32 m i = some (field32 m i) := by
  unfold rd32 field32
  rw [rd_getD (by omega), rd_getD (by omega), rd_getD (by omega), rd_getD (by omega)]
  rfl

/-- What a successful decoding of buffer `m` with payload at `hdr`, `len` means. -/
structure Decodes (m : Bytes) (hdr len : Nat) (m' : Bytes) (e : PEntry) : Prop where
  /-- the buffer keeps its size and nothing outside the payload is changed -/
  size : m'.length = m.length
  outside : ∀ i, i < hdr ∨ hdr + len ≤ i → m'[i]? = m[i]?
  /-- names, tag, level, colour and message are those the payload holds -/
  content : Shows m' hdr (hdr + len) e (decode (field32 m 4 != field32 m 8) (win m hdr len))
  pid : e.pid = field32 m 4
  tid : e.tid = field32 m 8
  sec : e.sec = field32 m 12
  nsec : e.nsec = field32 m 16

/-- C17. A buffer holding a header and the payload the header announces is
decoded without touching anything outside it; the call succeeds and the result
is what the payload holds. -/
theorem C17_parse (m : Bytes) (hm : 20 ≤ m.length) (hfit : field16 m 2 + field16 m 0 ≤ m.length) :
    ∃ m' e, parseBuf m = some (m', e) ∧ Decodes m (field16 m 2) (field16 m 0) m' e := by
  unfold parseBuf
  rw [rd32_eq (by omega), rd32_eq (by omega), rd32_eq (by omega), rd32_eq (by omega), rd16_eq (by omega),
    rd16_eq (by omega)]
  simp only [Option.bind_eq_bind, Option.bind_some]
  obtain ⟨m', e, h1, h2, h3, h4, h5, h6, h7⟩ := (parsePayload_good hfit (Nat.le_refl _)
    { blank with sec := field32 m 12, nsec := field32 m 16, pid := field32 m 4, tid := field32 m 8 }).ok
  exact ⟨m', e, h1, h2.1, h2.2, h3, h4, h5, h6, h7⟩

/-- C17, form of the text results: whatever the payload, the reported length of
a message that is not binary counts exactly one NUL, at the end, and the message
is a literal of the parser or lies inside the payload. -/
theorem C17_text {m m' : Bytes} {hdr len : Nat} {e : PEntry} (h : Decodes m hdr len m' e) (hb : e.isBinary = false) :
    (∃ s, e.message = .lit s ∧ NoNul s ∧ e.len = s.length + 1) ∨
    ∃ p s, e.message = .buf p ∧ hdr ≤ p ∧ p + e.len ≤ hdr + len ∧ NoNul s ∧ win m' p e.len = s ++ [0] := by
  have hc := h.content.msg
  cases hd : (decode (field32 m 4 != field32 m 8) (win m hdr len)).msg with
  | bin s =>
    rw [hd] at hc
    simp only at hc
    rw [hc.1] at hb; cases hb
  | text s =>
    rw [hd] at hc
    simp only at hc
    obtain ⟨_, h1, h2, h3⟩ := hc
    cases hm : e.message with
    | lit t =>
      rw [hm] at h1
      simp only [Ptr.str, Option.some.injEq] at h1
      subst h1
      exact .inl ⟨t, rfl, h3, h2⟩
    | buf p =>
      right
      rw [hm] at h1
      simp only [Ptr.str, strAt] at h1
      split at h1
      · rename_i hp
        split at h1
        · rename_i h0
          injection h1 with h1
          have hlt : (cstr ((m'.take (hdr + len)).drop p)).length < ((m'.take (hdr + len)).drop p).length := by
            rcases Nat.lt_or_ge (cstr ((m'.take (hdr + len)).drop p)).length ((m'.take (hdr + len)).drop p).length
              with hl | hl
            · exact hl
            · have := cstr_length_le ((m'.take (hdr + len)).drop p)
              exact absurd rfl (noNul_of_cstr (by omega) 0 h0)
          have hsp := cstr_split hlt
          rw [h1] at hsp hlt
          have hlen : ((m'.take (hdr + len)).drop p).length ≤ hdr + len - p := by
            rw [List.length_drop, List.length_take]; omega
          refine ⟨p, s, rfl, hp, by omega, h3, ?_⟩
          rw [h2]
          have hw : win m' p (s.length + 1) = ((m'.take (hdr + len)).drop p).take (s.length + 1) := by
            unfold win
            rw [List.drop_take, List.take_take]
            congr 1
            omega
          rw [hw, hsp, show ∀ r, s ++ 0 :: r = (s ++ [0]) ++ r by intro r; simp]
          rw [List.take_append_of_le_length (by simp), List.take_of_length_le (by simp)]
        · cases h1
      · cases h1

/-- C17, form of the binary results: the message is exactly the payload bytes
from its start to the end of the payload. -/
theorem C17_binary {m m' : Bytes} {hdr len : Nat} {e : PEntry} (h : Decodes m hdr len m' e) (hb : e.isBinary = true) :
    ∃ p s, e.message = .buf p ∧ hdr ≤ p ∧ p + e.len = hdr + len ∧ win m' p e.len = s ∧ s <:+ win m hdr len := by
  have hc := h.content.msg
  have hsuf : ∀ bs : Bytes, ∀ t r, token bs = some (t, r) → r <:+ bs := by
    intro bs t r ht
    unfold token at ht
    split at ht
    · simp only [Option.some.injEq, Prod.mk.injEq] at ht
      rw [← ht.2]; exact List.drop_suffix _ _
    · cases ht
  have hbody : ∀ pn tn bs s, (decodeBody pn tn bs).msg = .bin s → s <:+ bs := by
    intro pn tn bs s hs
    unfold decodeBody at hs
    split at hs
    · split at hs
      · cases hs
      · rename_i b0 b1 b2 b3 r _ tag mm ht
        simp only at hs
        split at hs
        · injection hs with hs
          rw [← hs]
          have := hsuf _ _ _ ht
          exact this.trans ⟨[b0, b1, b2, b3], rfl⟩
        · split at hs <;> cases hs
    · cases hs
  have hdec : ∀ two bs s, (decode two bs).msg = .bin s → s <:+ bs := by
    intro two bs s hs
    unfold decode at hs
    split at hs
    · cases hs
    · rename_i pn r ht
      split at hs
      · split at hs
        · cases hs
        · rename_i tn r2 ht2
          exact (hbody _ _ _ _ hs).trans ((hsuf _ _ _ ht2).trans (hsuf _ _ _ ht))
      · exact (hbody _ _ _ _ hs).trans (hsuf _ _ _ ht)
  cases hd : (decode (field32 m 4 != field32 m 8) (win m hdr len)).msg with
  | text s =>
    rw [hd] at hc
    simp only at hc
    rw [hc.1] at hb; cases hb
  | bin s =>
    rw [hd] at hc
    simp only at hc
    obtain ⟨_, p, h1, h2, h3, h4⟩ := hc
    exact ⟨p, s, h1, h3, h4, h2, hdec _ _ _ hd⟩

/-- C18. The raw parser never touches anything outside the buffer, rejects it
exactly when it is too short for a header or its announced sizes do not add up
to its length, and otherwise decodes it. -/
theorem C18_raw (m : Bytes) :
    (parseRaw m m.length = some none ∧ ¬ (24 ≤ m.length ∧ field16 m 2 + field16 m 0 = m.length)) ∨
    (24 ≤ m.length ∧ field16 m 2 + field16 m 0 = m.length ∧
      ∃ m' e, parseRaw m m.length = some (some (m', e)) ∧ Decodes m (field16 m 2) (field16 m 0) m' e) := by
  unfold parseRaw
  by_cases h24 : m.length < 24
  · left; rw [if_pos h24]; exact ⟨rfl, by omega⟩
  · rw [if_neg h24]
    rw [if_neg h24, rd16_eq (by omega), rd16_eq (by omega)]
    simp only [Option.bind_eq_bind, Option.bind_some]
    by_cases h1 : m.length < field16 m 2
    · left; rw [if_pos h1]; exact ⟨rfl, by omega⟩
    · rw [if_neg h1]
      by_cases h2 : field16 m 0 ≠ m.length - field16 m 2
      · left; rw [if_pos h2]; exact ⟨rfl, by omega⟩
      · rw [if_neg h2]
        right
        have h2' : field16 m 0 = m.length - field16 m 2 := by simpa using h2
        refine ⟨by omega, by omega, ?_⟩
        rw [rd32_eq (by omega), rd32_eq (by omega), rd32_eq (by omega), rd32_eq (by omega)]
        simp only [Option.bind_some]
        obtain ⟨m', e, h1, h2, h3, h4, h5, h6, h7⟩ := (parsePayload_good (m := m) (p := field16 m 2)
          (size := field16 m 0) (by omega) (Nat.le_refl _)
          { blank with sec := field32 m 12, nsec := field32 m 16, pid := field32 m 4, tid := field32 m 8 }).ok
        rw [h1]
        exact ⟨m', e, rfl, h2.1, h2.2, h3, h4, h5, h6, h7⟩

/-! ## Concrete buffers -/

/-- A header (pid 10, tid 11) followed by a payload. -/
def exBuf (payload : Bytes) : Bytes :=
  le16 payload.length ++ le16 24 ++ le32 10 ++ le32 11 ++ le32 5 ++ le32 6 ++ le32 1000 ++ payload

def exText : Bytes := ascii "prog\x00worker\x00" ++ [4, 1, 2, 3] ++ ascii "tag\x00hello\x00"
/-- cut inside the message -/
def exCut : Bytes := ascii "prog\x00worker\x00" ++ [4, 1, 2, 3] ++ ascii "tag\x00hell"
def exBin : Bytes := ascii "prog\x00worker\x00" ++ [134, 0, 0, 0] ++ ascii "tag\x00" ++ [1, 0, 2, 0]
/-- no thread name -/
def exBad : Bytes := ascii "prog\x00worker"

example : 20 ≤ (exBuf exText).length ∧ field16 (exBuf exText) 2 + field16 (exBuf exText) 0 ≤ (exBuf exText).length := by
  decide
example : (parseBuf (exBuf exText)).map (fun r => (r.2.color, r.2.len, r.2.tag.str r.1 24 100,
    r.2.message.str r.1 24 100)) = some (197121, 6, some (ascii "tag"), some (ascii "hello")) := by decide
example : (parseBuf (exBuf exCut)).map (fun r => (r.2.len, r.2.message.str r.1 24 100)) =
    some (4, some (ascii "hel")) := by decide
example : (parseBuf (exBuf exBin)).map (fun r => (r.2.isBinary, r.2.len, r.2.tag.str r.1 24 100)) =
    some (true, 4, some (ascii "tag")) := by decide
example : (parseBuf (exBuf exBad)).map (fun r => (r.2.priority, r.2.len, r.2.message.str r.1 24 100)) =
    some (6, 6, some (ascii "worke")) := by decide
example : (parseRaw (exBuf exText) (exBuf exText).length).isSome = true ∧
    parseRaw (exBuf exText ++ [0]) (exBuf exText ++ [0]).length = some none := by decide
example : decode true exBad = unformatted (ascii "worker") ∧ (decode true exText).msg = .text (ascii "hello") := by decide

end Verif.Libulog
