import Verif.Libulog.Raw
import Verif.Libulog.PropsParse
import Verif.Kernel.Props

/-!
# From writer to parser through the driver (C19, C20, C31, C32, C33)
-/
namespace Verif.Libulog
open Verif Verif.Kernel

theorem token_append {s : Bytes} (hs : NoNul s) (r : Bytes) : token (s ++ 0 :: r) = some (s, r) := by
  unfold token
  rw [if_pos (by simp), cstr_of_noNul hs]
  congr 1
  rw [show s ++ 0 :: r = (s ++ [0]) ++ r by simp, List.drop_append_of_le_length (by simp),
    List.drop_of_length_le (by simp)]
  rfl

/-- The fixed part of a priority word. -/
def prioLevel (p : UInt32) : Nat := p.toNat % 8
def prioColor (p : UInt32) : Nat := p.toNat / 256
def prioBinary (p : UInt32) : Bool := p.toNat / 128 % 2 = 1

theorem decodeBody_prio {pn tn tag : Bytes} (ht : NoNul tag) (p : UInt32) (m : Bytes) :
    decodeBody pn tn (le32 p ++ tag ++ 0 :: m) =
      if prioBinary p then
        { pname := pn, tname := tn, tag, level := prioLevel p, color := prioColor p, msg := .bin m }
      else if m = [] then unformatted []
      else { pname := pn, tname := tn, tag, level := prioLevel p, color := prioColor p, msg := .text (clip m) } := by
  have hp := p.toNat_lt
  simp only [le32, List.cons_append, List.nil_append, decodeBody, token_append ht, UInt8.toNat_ofNat',
    prioBinary, prioLevel, prioColor, decide_eq_true_eq]
  have e1 : p.toNat % 2 ^ 8 % 8 = p.toNat % 8 := by omega
  have e2 : p.toNat / 256 % 2 ^ 8 + 256 * (p.toNat / 65536 % 2 ^ 8) + 65536 * (p.toNat / 16777216 % 2 ^ 8) =
    p.toNat / 256 := by omega
  rw [e1, e2]
  have e3 : (128 ≤ p.toNat % 2 ^ 8) ↔ (p.toNat / 128 % 2 = 1) := by omega
  by_cases hb : p.toNat / 128 % 2 = 1
  · rw [if_pos hb, if_pos (e3.mpr hb)]
  · rw [if_neg hb, if_neg (fun h => hb (e3.mp h))]

theorem decode_one {pn : Bytes} (hp : NoNul pn) (r : Bytes) : decode false (pn ++ 0 :: r) = decodeBody pn pn r := by
  unfold decode
  rw [token_append hp]
  rfl

theorem decode_two {pn tn : Bytes} (hp : NoNul pn) (ht : NoNul tn) (r : Bytes) :
    decode true (pn ++ 0 :: (tn ++ 0 :: r)) = decodeBody pn tn r := by
  unfold decode
  rw [token_append hp]
  simp only [if_true]
  rw [token_append ht]

theorem clip_terminated {s : Bytes} (h : NoNul s) (r : Bytes) : clip (s ++ 0 :: r) = s := by
  unfold clip
  rw [if_pos (by simp), cstr_of_noNul h]

/-- A stored entry, read with header version 2 into a buffer that may be
larger, decodes to what its payload holds. -/
theorem parse_view {e : Entry} (hl : e.payload.length < 65536) (rest : Bytes) :
    ∃ m' x, parseBuf (e.view 2 ++ rest) = some (m', x) ∧ m'.length = (e.view 2 ++ rest).length ∧
      Shows m' 24 (24 + e.payload.length) x (decode (e.pid != e.tid) e.payload) ∧
      x.pid = e.pid ∧ x.tid = e.tid ∧ x.sec = e.sec ∧ x.nsec = e.nsec := by
  have hv : e.view 2 ++ rest = le16 e.payload.length ++ le16 24 ++ le32 e.pid ++ le32 e.tid ++ le32 e.sec ++
      le32 e.nsec ++ le32 e.euid ++ (e.payload ++ rest) := by
    simp [Entry.view, Entry.encode, Entry.header]
  have hlen : (e.view 2 ++ rest).length = 24 + e.payload.length + rest.length := by
    rw [hv]; simp only [List.length_append, le16_length, le32_length]; omega
  have f0 : field16 (e.view 2 ++ rest) 0 = e.payload.length := by
    rw [hv]
    exact unle16_le16 hl
  have f2 : field16 (e.view 2 ++ rest) 2 = 24 := by
    rw [hv]; rfl
  have f4 : field32 (e.view 2 ++ rest) 4 = e.pid := by
    rw [hv]; exact unle32_le32 e.pid
  have f8 : field32 (e.view 2 ++ rest) 8 = e.tid := by
    rw [hv]; exact unle32_le32 e.tid
  have f12 : field32 (e.view 2 ++ rest) 12 = e.sec := by
    rw [hv]; exact unle32_le32 e.sec
  have f16 : field32 (e.view 2 ++ rest) 16 = e.nsec := by
    rw [hv]; exact unle32_le32 e.nsec
  have hw : win (e.view 2 ++ rest) 24 e.payload.length = e.payload := by
    unfold win
    rw [hv, List.drop_append_of_le_length (by simp), List.drop_of_length_le (by simp), List.nil_append,
      List.take_append_of_le_length (Nat.le_refl _), List.take_length]
  obtain ⟨m', x, h1, h2⟩ := C17_parse (e.view 2 ++ rest) (by omega) (by rw [f0, f2]; omega)
  have hc := h2.content
  rw [f0, f2, f4, f8, hw] at hc
  exact ⟨m', x, h1, h2.size, hc, h2.pid.trans f4, h2.tid.trans f8, h2.sec.trans f12, h2.nsec.trans f16⟩

theorem taskName_noNul (c : Bytes) : NoNul (taskName c) := cstr_noNul (c.take 16)

theorem userVec_bytes (v : List Bytes) : (userVec v).bytes = v.flatten := by
  simp only [userVec, Iter.bytes, Iter.data]
  induction v with
  | nil => rfl
  | cons b v ih =>
    simp only [List.map_cons, List.flatten_cons, List.map_append, ih]
    congr 1
    rw [List.map_map]
    exact List.map_id b

theorem userVec_supported (v : List Bytes) : (userVec v).supported = true := rfl

/-- Who wrote: the names a reader should see. -/
def threadName (t : Task) : Bytes := if t.pid = t.tid then taskName t.pcomm else taskName t.tcomm

/-- The decoded form of an ordinary entry holding a priority word, a tag and
message bytes, when they are not cut. -/
theorem decode_plain {t : Task} {prio : UInt32} {tag msg : Bytes}
    (hroom : prefixLen t + (4 + tag.length + 1) ≤ 4076) :
    decode (t.pid != t.tid) (specPayload t (le32 prio ++ tag ++ 0 :: msg)) =
      decodeBody (taskName t.pcomm) (threadName t)
        (le32 prio ++ tag ++ 0 :: msg.take (4076 - prefixLen t - (4 + tag.length + 1))) := by
  have hcut : ∀ (a b : Bytes) (n : Nat), a.length ≤ n → (a ++ b).take n = a ++ b.take (n - a.length) := by
    intro a b n h
    rw [List.take_append, List.take_of_length_le h]
  unfold specPayload threadName prefixLen at *
  by_cases he : t.pid = t.tid
  · have hb : (t.pid != t.tid) = false := by simpa using he
    rw [hb, if_pos he, if_pos he]
    rw [if_pos he] at hroom
    have e : taskName t.pcomm ++ [0] ++ [] ++ (le32 prio ++ tag ++ 0 :: msg) =
        (taskName t.pcomm ++ 0 :: (le32 prio ++ tag ++ [0])) ++ msg := by simp
    rw [e, hcut _ _ _ (by simp; omega), ← decode_one (taskName_noNul _), if_pos he]
    have e2 : 4076 - (taskName t.pcomm ++ 0 :: (le32 prio ++ tag ++ [0])).length =
        4076 - ((taskName t.pcomm).length + 1 + 0) - (4 + tag.length + 1) := by simp; omega
    rw [e2]
    simp
  · have hb : (t.pid != t.tid) = true := by simpa using he
    rw [hb, if_neg he, if_neg he]
    rw [if_neg he] at hroom
    have e : taskName t.pcomm ++ [0] ++ (taskName t.tcomm ++ [0]) ++ (le32 prio ++ tag ++ 0 :: msg) =
        (taskName t.pcomm ++ 0 :: (taskName t.tcomm ++ 0 :: (le32 prio ++ tag ++ [0]))) ++ msg := by simp
    rw [e, hcut _ _ _ (by simp; omega), ← decode_two (taskName_noNul _) (taskName_noNul _), if_neg he]
    have e2 : 4076 - (taskName t.pcomm ++ 0 :: (taskName t.tcomm ++ 0 :: (le32 prio ++ tag ++ [0]))).length =
        4076 - ((taskName t.pcomm).length + 1 + ((taskName t.tcomm).length + 1)) - (4 + tag.length + 1) := by
      simp; omega
    rw [e2]
    simp

end Verif.Libulog
