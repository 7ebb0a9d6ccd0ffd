import Verif.Kernel.Ring
import Verif.Kernel.Spec

/-!
# The driver model refines the abstract log: ring level

Helper lemmas. The relation `RelLog` ties ring bytes and wrapped offsets to the
committed entries: `G` is the highest absolute position ever written (at least
the committed length; more after failed writes), and the ring agrees with the
committed byte stream on every absolute position `a` with `G ≤ a + size`.
-/
namespace Verif.Kernel
open Verif

def stream (h : List Entry) : Bytes := h.flatMap Entry.encode

def Entry.wf (e : Entry) : Prop := e.payload.length ≤ 4076

@[simp] theorem Entry.header_length (e : Entry) : e.header.length = 24 := rfl

theorem Entry.encode_length (e : Entry) : e.encode.length = e.size := by
  simp [Entry.encode, Entry.size]

@[simp] theorem bytesLen_nil : bytesLen [] = 0 := rfl
@[simp] theorem bytesLen_cons {e es} : bytesLen (e :: es) = e.size + bytesLen es := by
  simp [bytesLen]
@[simp] theorem bytesLen_append {es fs} : bytesLen (es ++ fs) = bytesLen es + bytesLen fs := by
  simp [bytesLen]

theorem Entry.size_ge (e : Entry) : 24 ≤ e.size := by simp [Entry.size]

@[simp] theorem stream_nil : stream [] = [] := rfl
@[simp] theorem stream_append {es fs} : stream (es ++ fs) = stream es ++ stream fs := by
  simp [stream]
@[simp] theorem stream_cons {e es} : stream (e :: es) = e.encode ++ stream es := by
  simp [stream]

@[simp] theorem stream_length (h : List Entry) : (stream h).length = bytesLen h := by
  induction h with
  | nil => rfl
  | cons e h ih => simp [ih, Entry.encode_length]

/-- Absolute position of cursor `i`. -/
def pos (h : List Entry) (i : Nat) : Nat := bytesLen (h.take i)

theorem pos_add_drop (h : List Entry) (i : Nat) : pos h i + bytesLen (h.drop i) = bytesLen h := by
  rw [pos, ← bytesLen_append, List.take_append_drop]

theorem pos_le (h : List Entry) (i : Nat) : pos h i ≤ bytesLen h := by
  have := pos_add_drop h i; omega

theorem pos_of_length_le {h : List Entry} {i : Nat} (hi : h.length ≤ i) : pos h i = bytesLen h := by
  rw [pos, List.take_of_length_le hi]

theorem drop_eq_cons {h : List Entry} {i : Nat} {e : Entry} (he : h[i]? = some e) :
    h.drop i = e :: h.drop (i + 1) := by
  have hi : i < h.length := by
    rcases Nat.lt_or_ge i h.length with hlt | hge
    · exact hlt
    · rw [List.getElem?_eq_none hge] at he; cases he
  rw [List.drop_eq_getElem_cons hi]
  rw [List.getElem?_eq_getElem hi] at he
  cases he; rfl

theorem pos_succ {h : List Entry} {i : Nat} {e : Entry} (he : h[i]? = some e) :
    pos h (i + 1) = pos h i + e.size := by
  have h1 := pos_add_drop h i
  have h2 := pos_add_drop h (i + 1)
  rw [drop_eq_cons he, bytesLen_cons] at h1
  omega

theorem pos_mono {h : List Entry} {i j : Nat} (hij : i ≤ j) : pos h i ≤ pos h j := by
  induction hij with
  | refl => exact Nat.le_refl _
  | step _ ih =>
    rename_i m _
    by_cases hm : m < h.length
    · have := pos_succ (h := h) (i := m) (List.getElem?_eq_getElem hm)
      rw [Nat.succ_eq_add_one]; omega
    · have h1 := pos_of_length_le (h := h) (i := m) (by omega)
      have h2 := pos_of_length_le (h := h) (i := m + 1) (by omega)
      have h3 : m.succ = m + 1 := rfl
      rw [h3]; omega

theorem pos_append {h g : List Entry} {i : Nat} (hi : i ≤ h.length) : pos (h ++ g) i = pos h i := by
  rw [pos, pos, List.take_append_of_le_length hi]

theorem pos_lt_iff {h : List Entry} {i : Nat} (hi : i ≤ h.length) :
    pos h i = bytesLen h ↔ i = h.length := by
  constructor
  · intro hp
    rcases Nat.lt_or_ge i h.length with hlt | hge
    · have := pos_succ (h := h) (i := i) (List.getElem?_eq_getElem hlt)
      have h2 := pos_le h (i + 1)
      have h3 := Entry.size_ge h[i]
      omega
    · omega
  · intro h1; exact pos_of_length_le (by omega)

/-- The ring agrees with the committed stream on the live window. -/
def Mem (size : Nat) (buf : Nat → UInt8) (G : Nat) (st : Bytes) : Prop :=
  ∀ a, G ≤ a + size → a < st.length → st[a]? = some (buf (a % size))

theorem ring_eq_stream {size buf G st a n} (hm : Mem size buf G st) (hG : G ≤ a + size)
    (hn : a + n ≤ st.length) : ring size buf a n = (st.drop a).take n := by
  apply List.ext_getElem?
  intro i
  rcases Nat.lt_or_ge i n with hi | hi
  · rw [ring_getElem? hi, List.getElem?_take_of_lt hi, List.getElem?_drop, hm (a + i) (by omega) (by omega)]
  · rw [List.getElem?_eq_none (by simp; omega), List.getElem?_eq_none]
    simp; omega

theorem Mem.touched {size buf buf' G st n} (hm : Mem size buf G st)
    (ht : Touched size buf buf' st.length n) :
    Mem size buf' (max G (st.length + n)) st := by
  intro a h1 h2
  rw [ht a (outside_of_window h2 (by omega))]
  exact hm a (by omega) h2

theorem Mem.wrote {size buf buf' G st bs} (hm : Mem size buf G st)
    (hw : Wrote size buf buf' st.length bs) :
    Mem size buf' (max G (st.length + bs.length)) (st ++ bs) := by
  intro a h1 h2
  rw [List.length_append] at h2
  rcases Nat.lt_or_ge a st.length with hlt | hge
  · rw [List.getElem?_append_left hlt]
    exact hm.touched hw.1 a h1 hlt
  · rw [List.getElem?_append_right hge, hw.2 (a - st.length) (by omega)]
    congr 3; omega

/-! ## Reading the ring -/

theorem getEntryHeader_ring {l : Log} {a : Nat} (hs : 24 ≤ l.size) :
    getEntryHeader l (a % l.size) = .ok (ring l.size l.buf a 24) := by
  have h0 : 0 < l.size := by omega
  have hm := Nat.mod_lt a h0
  obtain ⟨h1, h2⟩ := load_split (buf := l.buf) (a := a) h0 hs
  unfold getEntryHeader
  by_cases heq : min 24 (l.size - a % l.size) = 24
  · rw [heq] at h1
    rw [heq, if_neg (by simp), h1]
  · rw [if_pos heq, h1, h2]
    simp only [bind, Except.bind, pure, Except.pure]
    rw [ring_append]
    congr 2
    omega

theorem header_at {l : Log} {h : List Entry} {G i : Nat} {e : Entry} (hs : 24 ≤ l.size)
    (hm : Mem l.size l.buf G (stream h)) (hG : G ≤ pos h i + l.size) (he : h[i]? = some e) :
    getEntryHeader l (pos h i % l.size) = .ok e.header := by
  have hle := pos_le h (i + 1)
  have hps := pos_succ he
  have hge := Entry.size_ge e
  rw [getEntryHeader_ring hs, ring_eq_stream hm hG (by rw [stream_length]; omega)]
  have hst : stream h = stream (h.take i) ++ (e.header ++ (e.payload ++ stream (h.drop (i + 1)))) := by
    conv => lhs; rw [← List.take_append_drop i h]
    rw [stream_append, drop_eq_cons he, stream_cons, Entry.encode, List.append_assoc]
  rw [hst, List.drop_append_of_le_length (by simp [pos]), List.drop_of_length_le (by simp [pos]),
    List.nil_append, List.take_append_of_le_length (by simp), List.take_of_length_le (by simp)]

theorem hLen_header {e : Entry} (he : e.wf) : hLen e.header = e.payload.length := by
  unfold Entry.wf at he
  show unle16 _ _ = _
  exact unle16_le16 (by omega)

theorem hEuid_header (e : Entry) : hEuid e.header = e.euid := by
  show unle32 _ _ _ _ = _
  exact unle32_le32 e.euid

theorem getNextEntry_ok {l : Log} {k : Nat} {h : List Entry} {G : Nat} (hsz : l.size = 2 ^ k)
    (hs : 24 ≤ l.size) (hm : Mem l.size l.buf G (stream h)) (hwf : ∀ e ∈ h, e.wf) :
    ∀ (fuel i need : Nat), G ≤ pos h i + l.size → 0 < need → need ≤ fuel →
      need ≤ bytesLen (h.drop i) →
      getNextEntry l fuel (pos h i % l.size) need =
        .ok (pos h (i + adv (h.drop i) need) % l.size, adv (h.drop i) need) := by
  intro fuel
  induction fuel with
  | zero => intro i need _ h1 h2; omega
  | succ fuel ih =>
    intro i need hG hpos hf hb
    have hi : i < h.length := by
      rcases Nat.lt_or_ge i h.length with hlt | hge
      · exact hlt
      · rw [List.drop_of_length_le hge] at hb; simp at hb; omega
    have he : h[i]? = some h[i] := List.getElem?_eq_getElem hi
    generalize h[i] = e at he
    have hew : e.wf := hwf e (List.mem_of_getElem? he)
    have hps := pos_succ he
    have hge := Entry.size_ge e
    have hoff : offset l.size (pos h i % l.size + (hdrSize + e.payload.length)) =
        pos h (i + 1) % l.size := by
      rw [hsz, offset_mod_add, hps]; rfl
    unfold getNextEntry getEntryMsgLen
    rw [header_at hs hm hG he]
    simp only [bind, Except.bind, pure, Except.pure, hLen_header hew]
    rw [hoff, drop_eq_cons he]
    rw [drop_eq_cons he, bytesLen_cons] at hb
    unfold adv
    have hsz' : hdrSize + e.payload.length = e.size := rfl
    rw [hsz']
    split
    · rename_i hlt
      rw [ih (i + 1) (need - e.size) (by omega) (by omega) (by omega) (by omega)]
      simp only
      rw [show i + 1 + adv (List.drop (i + 1) h) (need - e.size) =
        i + (adv (List.drop (i + 1) h) (need - e.size) + 1) by omega]
    · rfl

theorem adv_spec (es : List Entry) : ∀ need, 0 < need → need ≤ bytesLen es →
    0 < adv es need ∧ adv es need ≤ es.length ∧ need ≤ bytesLen (es.take (adv es need)) ∧
    bytesLen (es.take (adv es need - 1)) < need := by
  induction es with
  | nil => intro need h1 h2; simp at h2; omega
  | cons e es ih =>
    intro need h1 h2
    rw [bytesLen_cons] at h2
    unfold adv
    split
    · rename_i hlt
      obtain ⟨i0, i1, i2, i3⟩ := ih (need - e.size) (by omega) (by omega)
      refine ⟨by omega, by simp; omega, ?_, ?_⟩
      · rw [List.take_succ_cons, bytesLen_cons]; omega
      · rw [show adv es (need - e.size) + 1 - 1 = (adv es (need - e.size) - 1) + 1 by omega,
          List.take_succ_cons, bytesLen_cons]
        omega
    · refine ⟨by omega, by simp, ?_, ?_⟩
      · simp; omega
      · simp; omega

theorem pos_add_take (h : List Entry) (i j : Nat) :
    pos h (i + j) = pos h i + bytesLen ((h.drop i).take j) := by
  rw [pos, pos, ← bytesLen_append, List.take_add]

/-- A cursor inside the committed entries whose bytes are still in the ring. -/
def Live (size G : Nat) (h : List Entry) (i : Nat) : Prop := i ≤ h.length ∧ G < pos h i + size

/-- What a cursor looks like after `fix_up_readers`. -/
theorem apush_spec {size G : Nat} {h : List Entry} {len i : Nat} (hl : Live size G h i)
    (hW : bytesLen h ≤ G) (h0 : 0 < len) (h2 : 2 * len ≤ size) :
    Live size (max G (bytesLen h + len)) h (i + apush size h len i) := by
  obtain ⟨hi, hG⟩ := hl
  have hpd := pos_add_drop h i
  unfold apush
  split
  · rename_i hlap
    obtain ⟨a0, a1, a2, a3⟩ := adv_spec (h.drop i) len h0 (by omega)
    refine ⟨by rw [List.length_drop] at a1; omega, ?_⟩
    rw [pos_add_take]
    omega
  · refine ⟨hi, ?_⟩
    simp only [Nat.add_zero]
    omega

theorem mod_eq_iff_of_window {size p W : Nat} (h1 : p ≤ W) (h2 : W < p + size) :
    W % size = p % size ↔ W = p := by
  constructor
  · intro h
    rcases Nat.lt_or_ge p W with hlt | hge
    · exact absurd h.symm (mod_ne_of_close hlt h2)
    · omega
  · rintro rfl; rfl

theorem live_eof_iff {size G : Nat} {h : List Entry} {i : Nat} (hl : Live size G h i)
    (hW : bytesLen h ≤ G) : bytesLen h % size = pos h i % size ↔ i = h.length := by
  have hle := pos_le h i
  rw [mod_eq_iff_of_window hle (by have := hl.2; omega), ← pos_lt_iff hl.1]
  exact eq_comm

theorem isBetween_live {size G : Nat} {h : List Entry} {len i : Nat} (hl : Live size G h i)
    (hW : bytesLen h ≤ G) (h0 : 0 < len) (h2 : len < size) :
    isBetween (bytesLen h % size) ((bytesLen h + len) % size) (pos h i % size) = true ↔
      size ≤ bytesLen (h.drop i) + len := by
  have hpd := pos_add_drop h i
  rw [isBetween_iff h0 h2 (by have := hl.2; omega) (pos_le h i)]
  omega

theorem getNextEntryByUid_ok {l : Log} {k : Nat} {h : List Entry} {G : Nat} {euid : UInt32}
    (hsz : l.size = 2 ^ k) (hs : 24 ≤ l.size) (hm : Mem l.size l.buf G (stream h))
    (hwf : ∀ e ∈ h, e.wf) (hW : bytesLen h ≤ G) (hw : l.wOff = bytesLen h % l.size) :
    ∀ (fuel i : Nat), Live l.size G h i → (h.drop i).length ≤ fuel →
      getNextEntryByUid l euid fuel (pos h i % l.size) =
        .ok (pos h (i + (h.drop i).findIdx (fun e => e.euid == euid)) % l.size) := by
  intro fuel
  induction fuel with
  | zero =>
    intro i hl hf
    have hi : h.length ≤ i := by simpa [Nat.sub_eq_zero_iff_le] using hf
    have heq : i = h.length := by have := hl.1; omega
    unfold getNextEntryByUid
    rw [hw, if_pos ((live_eof_iff hl hW).mpr heq).symm, List.drop_of_length_le hi]
    rfl
  | succ fuel ih =>
    intro i hl hf
    unfold getNextEntryByUid
    by_cases heq : i = h.length
    · rw [hw, if_pos ((live_eof_iff hl hW).mpr heq).symm, List.drop_of_length_le (by omega)]
      rfl
    · rw [hw, if_neg (fun hc => heq ((live_eof_iff hl hW).mp hc.symm))]
      have hi : i < h.length := by have := hl.1; omega
      have he : h[i]? = some h[i] := List.getElem?_eq_getElem hi
      generalize h[i] = e at he
      have hew : e.wf := hwf e (List.mem_of_getElem? he)
      have hps := pos_succ he
      have hge := Entry.size_ge e
      have hoff : offset l.size (pos h i % l.size + (hdrSize + e.payload.length)) =
          pos h (i + 1) % l.size := by
        rw [hsz, offset_mod_add, hps]; rfl
      simp only
      rw [header_at hs hm (Nat.le_of_lt hl.2) he]
      simp only [bind, Except.bind, pure, Except.pure, hLen_header hew, hEuid_header]
      rw [drop_eq_cons he, List.findIdx_cons]
      by_cases hu : e.euid = euid
      · simp [hu]
      · rw [if_neg hu, hoff, ih (i + 1) ⟨by omega, by have := hl.2; omega⟩
          (by simp at hf ⊢; omega)]
        have : (e.euid == euid) = false := by simpa using hu
        rw [this]
        simp only [cond_false]
        congr 3; omega

/-! ## Writing the ring -/

theorem doWriteLog_ok {l : Log} {k w : Nat} {bs : Bytes} (hsz : l.size = 2 ^ k)
    (hn : bs.length ≤ l.size) (hw : l.wOff = w % l.size) :
    ∃ b, doWriteLog l bs = .ok { l with buf := b, wOff := (w + bs.length) % l.size } ∧
      Wrote l.size l.buf b w bs := by
  have h0 : 0 < l.size := by rw [hsz]; exact Nat.two_pow_pos k
  obtain ⟨b1, e1, w1, b2, e2, w2⟩ := store_split (buf := l.buf) (w := w) h0 hn
  have hoff : offset l.size (w % l.size + bs.length) = (w + bs.length) % l.size := by
    rw [hsz, offset_mod_add]
  generalize hlen : min bs.length (l.size - w % l.size) = len at *
  have hlt : (bs.take len).length = len := by rw [List.length_take]; omega
  unfold doWriteLog
  simp only [hw, hlen, e1, bind, Except.bind, pure, Except.pure, hoff]
  by_cases hc : bs.length = len
  · refine ⟨b1, by simp [hc], ?_⟩
    rwa [List.take_of_length_le (by omega)] at w1
  · refine ⟨b2, by simp [hc, e2], ?_⟩
    have := w1.trans (by rw [hlt]; exact w2) (by simp; omega)
    rwa [List.take_append_drop] at this

/-- The bytes of a fully readable piece of user memory. -/
def Seg.bytes (s : Seg) : Bytes := s.map fun o => o.getD 0

theorem filterMap_id_eq {s : Seg} (h : s.all Option.isSome = true) : s.filterMap id = Seg.bytes s := by
  induction s with
  | nil => rfl
  | cons o s ih =>
    simp only [List.all_cons, Bool.and_eq_true] at h
    obtain ⟨v, hv⟩ := Option.isSome_iff_exists.mp h.1
    subst hv
    have := ih h.2
    simp only [Seg.bytes] at this ⊢
    simp [this]

theorem store_junk_split {size buf w} {n : Nat} (junk : Nat → UInt8) (hs : 0 < size)
    (hn : w % size + n ≤ size) :
    ∃ b, store size buf (w % size) ((List.range n).map junk) = .ok b ∧ Touched size buf b w n := by
  have hm := Nat.mod_lt w hs
  obtain ⟨b1, e1, w1, _⟩ := store_split (buf := buf) (w := w) (bs := (List.range n).map junk) hs
    (by simp; omega)
  have hl : min ((List.range n).map junk).length (size - w % size) = n := by simp; omega
  rw [hl, List.take_of_length_le (by simp)] at e1 w1
  exact ⟨b1, e1, by simpa using w1.1⟩

/-- `copy_from_user` of a piece that does not wrap. -/
theorem copyFromUser_ok {size buf w} {s : Seg} (junk : Nat → UInt8) (hs : 0 < size)
    (hn : w % size + s.length ≤ size) :
    ∃ b, copyFromUser size buf (w % size) s junk = .ok (b, s.all Option.isSome) ∧
      Touched size buf b w s.length ∧
      (s.all Option.isSome = true → Wrote size buf b w (Seg.bytes s)) := by
  unfold copyFromUser
  by_cases h : s.all Option.isSome = true
  · obtain ⟨b1, e1, w1, _⟩ := store_split (buf := buf) (w := w) (bs := Seg.bytes s) hs
      (by simp [Seg.bytes]; have := Nat.mod_lt w hs; omega)
    have hl : min (Seg.bytes s).length (size - w % size) = s.length := by
      simp [Seg.bytes]; omega
    rw [hl, List.take_of_length_le (by simp [Seg.bytes])] at e1 w1
    refine ⟨b1, ?_, ?_, fun _ => w1⟩
    · rw [if_pos h, filterMap_id_eq h, e1, h]; rfl
    · have := w1.1; simpa [Seg.bytes] using this
  · obtain ⟨b1, e1, w1⟩ := store_junk_split (buf := buf) (w := w) (n := s.length) junk hs hn
    refine ⟨b1, ?_, w1, fun hh => absurd hh h⟩
    rw [if_neg h, e1]
    simp only [Bool.not_eq_true] at h
    rw [h]; rfl

theorem seg_bytes_take {s : Seg} {n} : Seg.bytes (s.take n) = (Seg.bytes s).take n := by
  simp [Seg.bytes, List.map_take]
theorem seg_bytes_drop {s : Seg} {n} : Seg.bytes (s.drop n) = (Seg.bytes s).drop n := by
  simp [Seg.bytes, List.map_drop]
@[simp] theorem seg_bytes_length {s : Seg} : (Seg.bytes s).length = s.length := by simp [Seg.bytes]

theorem doWriteLogFromUser_ok {l : Log} {k w : Nat} {s : Seg} (junk : Nat → UInt8)
    (hsz : l.size = 2 ^ k) (hn : s.length ≤ l.size) (hw : l.wOff = w % l.size) :
    ∃ b, Touched l.size l.buf b w s.length ∧
      if s.all Option.isSome then
        doWriteLogFromUser l s junk =
          .ok ({ l with buf := b, wOff := (w + s.length) % l.size }, true) ∧
        Wrote l.size l.buf b w (Seg.bytes s)
      else doWriteLogFromUser l s junk = .ok ({ l with buf := b }, false) := by
  have h0 : 0 < l.size := by rw [hsz]; exact Nat.two_pow_pos k
  have hm := Nat.mod_lt w h0
  have hoff : offset l.size (w % l.size + s.length) = (w + s.length) % l.size := by
    rw [hsz, offset_mod_add]
  generalize hlen : min s.length (l.size - w % l.size) = len
  have hlt : (s.take len).length = len := by rw [List.length_take]; omega
  have hall : s.all Option.isSome = ((s.take len).all Option.isSome && (s.drop len).all Option.isSome) := by
    conv => lhs; rw [← List.take_append_drop len s]
    rw [List.all_append]
  obtain ⟨b1, e1, t1, w1⟩ := copyFromUser_ok (buf := l.buf) (w := w) (s := s.take len) junk h0 (by omega)
  rw [hlt] at t1
  have hw0 : w % l.size ≤ l.size := Nat.le_of_lt hm
  obtain ⟨b1', hfirst, ht1, hw1⟩ : ∃ b1', doWriteLogFromUser l s junk =
      (do
        if !(s.take len).all Option.isSome then return ({ l with buf := b1' }, false)
        let (b2, ok2) ← if s.length ≠ len then copyFromUser l.size b1' 0 (s.drop len) junk
          else pure (b1', true)
        if !ok2 then return ({ l with buf := b2 }, false)
        return ({ l with buf := b2, wOff := (w + s.length) % l.size }, true)) ∧
      Touched l.size l.buf b1' w len ∧
      ((s.take len).all Option.isSome = true →
        Wrote l.size l.buf b1' w (Seg.bytes (s.take len))) := by
    unfold doWriteLogFromUser
    simp only [hw, hlen, hoff]
    by_cases hl0 : len = 0
    · refine ⟨l.buf, ?_, Touched.refl, fun _ => ?_⟩
      · rw [if_neg (by simpa using hl0), if_pos hw0]
        subst hl0; rfl
      · subst hl0; exact Wrote.nil
    · refine ⟨b1, ?_, t1, w1⟩
      rw [if_pos hl0, e1]; rfl
  clear w1 t1 e1
  rw [hfirst]
  simp only [bind, Except.bind, pure, Except.pure]
  generalize b1' = b1 at *
  cases hp : (s.take len).all Option.isSome with
  | false =>
    refine ⟨b1, ht1.mono (by omega), ?_⟩
    rw [hall, hp]
    simp
  | true =>
    by_cases hc : s.length = len
    · refine ⟨b1, by rw [hc]; exact ht1, ?_⟩
      have hdr : s.drop len = [] := List.drop_of_length_le (by omega)
      rw [hall, hp, hdr]
      have hb := hw1 hp
      rw [List.take_of_length_le (by omega)] at hb
      simp [hc, hb]
    · obtain ⟨b2, e2, t2, w2⟩ := copyFromUser_ok (buf := b1) (w := w + len) (s := s.drop len) junk h0
        (by rw [add_mod_wrap h0 (by omega) (by omega), List.length_drop]; omega)
      have hz : (w + len) % l.size = 0 := by
        rw [add_mod_wrap h0 (by omega) (by omega)]; omega
      rw [hz] at e2
      rw [List.length_drop] at t2
      refine ⟨b2, ?_, ?_⟩
      · have := ht1.trans t2
        rwa [show len + (s.length - len) = s.length by omega] at this
      · rw [hall, hp]
        cases hq : (s.drop len).all Option.isSome with
        | false => simp [hc, e2, hq]
        | true =>
          have hb := (hw1 hp).trans (by rw [seg_bytes_length, hlt]; exact w2 hq)
            (by simp only [seg_bytes_length, List.length_drop, hlt]; omega)
          rw [seg_bytes_take, seg_bytes_drop, List.take_append_drop] at hb
          simp [hc, e2, hq, hb]

end Verif.Kernel
