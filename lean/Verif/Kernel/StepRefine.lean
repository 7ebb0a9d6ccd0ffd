import Verif.Kernel.Refine

/-!
# The driver model refines the abstract log: whole steps
-/
namespace Verif.Kernel
open Verif

/-! ## Write -/

theorem writePrefix_ok {k w : Nat} {l : Log} (raw : Bool) (t : Task) (hlen : Nat)
    (hsz : l.size = 2 ^ k) (hs : 16384 ≤ l.size) (hw : l.wOff = w % l.size)
    (hl : raw = false → (names t).1.length + (names t).2.length ≤ hlen) :
    ∃ b pre room, writePrefix l raw t hlen =
        .ok ({ l with buf := b, wOff := (w + pre.length) % l.size }, room) ∧
      Wrote l.size l.buf b w pre ∧
      pre = (if raw then le16 hlen ++ le16 24
        else mkHeader t hlen ++ (names t).1 ++ (names t).2) ∧
      pre.length + room = 24 + hlen := by
  have hn := names_length t
  have hh : (mkHeader t hlen).length = 24 := rfl
  unfold writePrefix
  cases raw with
  | true =>
    obtain ⟨b, e, wr⟩ := doWriteLog_ok (bs := le16 hlen ++ le16 hdrSize) hsz (by simp; omega) hw
    refine ⟨b, _, 20 + hlen, ?_, wr, rfl, ?_⟩
    · simp only [if_true]
      rw [e]
      simp only [bind, Except.bind, pure, Except.pure]
      have hz : hdrSize = 24 := rfl
      congr 2
      omega
    · simp; omega
  | false =>
    have hl := hl rfl
    simp only [Bool.false_eq_true, if_false]
    obtain ⟨b1, e1, w1⟩ := doWriteLog_ok (bs := mkHeader t hlen) hsz (by omega) hw
    obtain ⟨b2, e2, w2⟩ := doWriteLog_ok (w := w + 24) (bs := (names t).1)
      (l := { l with buf := b1, wOff := (w + 24) % l.size }) hsz (by simp only; omega) rfl
    rw [hh] at e1
    have w12 := w1.trans (by rw [hh]; exact w2) (by rw [hh]; omega)
    rw [e1]
    simp only [bind, Except.bind, pure, Except.pure]
    rw [e2]
    simp only
    by_cases ht : (names t).2.length = 0
    · refine ⟨b2, mkHeader t hlen ++ (names t).1 ++ (names t).2,
        hdrSize + hlen - hdrSize - (names t).1.length - (names t).2.length, ?_, ?_, rfl, ?_⟩
      rotate_left
      · rw [List.eq_nil_of_length_eq_zero ht, List.append_nil]; exact w12
      · simp only [List.length_append, hh]; omega
      · simp only [ht, ne_eq, not_true, if_false, List.length_append, hh, Nat.add_zero, Nat.add_assoc]
    · obtain ⟨b3, e3, w3⟩ := doWriteLog_ok (w := w + 24 + (names t).1.length) (bs := (names t).2)
        (l := { l with buf := b2, wOff := (w + 24 + (names t).1.length) % l.size }) hsz
        (by simp only; omega) rfl
      refine ⟨b3, mkHeader t hlen ++ (names t).1 ++ (names t).2,
        hdrSize + hlen - hdrSize - (names t).1.length - (names t).2.length, ?_, ?_, rfl, ?_⟩
      rotate_left
      · refine w12.trans ?_ ?_
        · rw [List.length_append, hh, ← Nat.add_assoc]; exact w3
        · rw [List.length_append, hh]; omega
      · simp only [List.length_append, hh]; omega
      · simp only [ne_eq, ht, not_false_eq_true, if_true]
        rw [e3]
        simp only [List.length_append, hh]
        simp only [Nat.add_assoc]

theorem write_refines {k G : Nat} {l : Log} {a : ALog} (h : RelLog k G l a) (raw : Bool) (t : Task)
    {it : Iter} (hit : it.supported = true) (junk : Nat → UInt8) :
    ∃ G' l', writeEntry l raw t it junk = .ok (l', (awrite a raw t it.data).2) ∧
      RelLog k G' l' (awrite a raw t it.data).1 := by
  have hlen := Iter.data_length hit
  have hbig := h.big
  have hn := names_length t
  have hz : hdrSize = 24 := rfl
  have hz' : hdrSize - 4 = 20 := rfl
  unfold writeEntry awrite
  rw [← hlen]
  simp only [hz']
  by_cases h1 : (raw && decide (it.data.length < 20)) = true
  · refine ⟨G, l, ?_, ?_⟩
    · simp only [h1, if_true]; rfl
    · simp only [h1, if_true]; exact h
  simp only [h1, Bool.false_eq_true, if_false]
  simp only [Bool.not_eq_true] at h1
  by_cases h2 : (raw && decide (it.data.length = 20)) = true
  · simp only [Bool.and_eq_true, decide_eq_true_eq] at h2
    refine ⟨G, l, ?_, ?_⟩
    · simp [h2.1, h2.2, entryLen]; rfl
    · simp [h2.1, h2.2]; exact h
  simp only [h2, Bool.false_eq_true, if_false]
  -- the entry
  generalize hdata : it.data = data at *
  generalize hkeep : data.take (keepLen raw t) = keep
  generalize hbs : keep.map (fun o => o.getD 0) = bs
  have hbs' : Seg.bytes keep = bs := hbs
  have hbl : bs.length = keep.length := by rw [← hbs, List.length_map]
  generalize hhl : entryLen raw t data.length = hl
  have hkl : keep.length = min (keepLen raw t) data.length := by rw [← hkeep, List.length_take]
  -- facts by mode
  have hent : 0 < hl ∧ hl ≤ 4076 ∧ ∃ e : Entry, e = (if raw then rawEntry bs else plainEntry t bs) ∧
      e.wf ∧ e.size = 24 + hl ∧ (raw = false → (names t).1.length + (names t).2.length ≤ hl) ∧
      e.encode = (if raw then le16 hl ++ le16 24 else mkHeader t hl ++ (names t).1 ++ (names t).2) ++ bs ∧
      e.size = (if raw then le16 hl ++ le16 24 else mkHeader t hl ++ (names t).1 ++ (names t).2).length +
        bs.length := by
    cases raw with
    | true =>
      simp only [Bool.true_and, decide_eq_false_iff_not] at h1
      simp only [Bool.true_and, decide_eq_true_eq] at h2
      simp only [entryLen, keepLen, if_true, hdrSize, maxPayload] at hhl hkl
      have hsz := rawEntry_size (d := bs) (by omega) (by omega)
      refine ⟨by omega, by omega, _, rfl, ?_, ?_, by simp, ?_, ?_⟩
      · show (rawEntry bs).payload.length ≤ 4076
        simp only [rawEntry, List.length_take]; omega
      · simp only [if_true]; omega
      · simp only [if_true]; rw [rawEntry_encode (by omega) (by omega)]
        congr 3; omega
      · simp only [if_true, List.length_append, le16_length]; omega
    | false =>
      simp only [entryLen, keepLen, Bool.false_eq_true, if_false, maxPayload] at hhl hkl
      have hpl := plainEntry_payload (t := t) (d := bs) (by omega)
      have hsz : (plainEntry t bs).size = 24 + ((names t).1.length + (names t).2.length + bs.length) := by
        rw [Entry.size, hpl]; simp only [List.length_append]
      have hhl' : hl = (names t).1.length + (names t).2.length + bs.length := by omega
      refine ⟨by omega, by omega, _, rfl, ?_, ?_, fun _ => by omega, ?_, ?_⟩
      · show (plainEntry t bs).payload.length ≤ 4076
        rw [hpl]; simp only [List.length_append]; omega
      · simp only [Bool.false_eq_true, if_false]; omega
      · simp only [Bool.false_eq_true, if_false]; rw [plainEntry_encode (by omega), ← hhl']
      · simp only [Bool.false_eq_true, if_false, hsz, List.length_append]
        have : (mkHeader t hl).length = 24 := rfl
        omega
  obtain ⟨hl0, hl1, e, hee, hewf, hesz, hnm, henc, hesz2⟩ := hent
  rw [← hee]
  generalize hpre : (if raw then le16 hl ++ le16 24
    else mkHeader t hl ++ (names t).1 ++ (names t).2) = pre at *
  have hl0' : hl ≠ 0 := by omega
  simp only [hl0', if_false]
  obtain ⟨l1, he1, hr1, hb1, hs1, hw1⟩ := fixUp_ok (len := hdrSize + hl) h (by omega) (by omega)
  have hw1' : l1.wOff = bytesLen a.hist % l1.size := hr1.w
  obtain ⟨b2, pre', room, he2, hwr2, hp2, hrm2⟩ := writePrefix_ok (k := k) (l := l1)
    raw t hl hr1.size (by omega) hw1' hnm
  rw [hpre] at hp2
  subst hp2
  have hroom : data.take room = keep := by
    have : room = min data.length (keepLen raw t) := by omega
    rw [this, take_min_length, hkeep]
  obtain ⟨b3, ht3, hr3⟩ := writeIter_ok (k := k) (room := room) (w := bytesLen a.hist + pre'.length)
    junk (l := { l1 with buf := b2, wOff := (bytesLen a.hist + pre'.length) % l1.size }) hit hr1.size
    (by simp only; omega) rfl
  rw [hdata, hroom] at hr3 ht3
  have htouch := hwr2.1.trans ht3
  simp only [bind, Except.bind, pure, Except.pure]
  rw [he1]
  simp only
  rw [he2]
  simp only
  have hGe : bytesLen a.hist + e.size ≤ max G (bytesLen a.hist + (hdrSize + hl)) := by
    rw [hesz]; exact Nat.le_max_right _ _
  have hpush : a.pushAll (hdrSize + hl) = a.pushAll e.size := by rw [hesz]
  refine ⟨max G (bytesLen a.hist + (hdrSize + hl)), ?_⟩
  cases hall : keep.all Option.isSome with
  | false =>
    rw [hall] at hr3
    simp only [Bool.false_eq_true, if_false] at hr3 ⊢
    obtain ⟨wo, hwo⟩ := hr3
    rw [hwo]
    refine ⟨{ l1 with buf := b3, wOff := l.wOff }, rfl, ?_⟩
    have := hr1.touch (n := pre'.length + keep.length) (b := b3)
      (by show bytesLen a.hist + _ ≤ _; omega) htouch
    rw [hpush] at this
    rw [← hw1]
    exact this
  | true =>
    rw [hall] at hr3
    simp only [if_true] at hr3 ⊢
    obtain ⟨hr3, hw3⟩ := hr3
    rw [hr3]
    simp only [Nat.zero_add]
    refine ⟨_, rfl, ?_⟩
    have hw := hwr2.trans hw3 (by rw [hbs']; omega)
    rw [hbs', ← henc] at hw
    have := hr1.commit (e := e) (b := b3) hGe hewf hw
    rw [hpush] at this
    have hwe : bytesLen a.hist + pre'.length + keep.length = bytesLen a.hist + e.size := by omega
    rw [hwe]
    exact this

/-! ## Read -/

theorem Live.mono {size G : Nat} {h : List Entry} {i j : Nat} (hl : Live size G h i) (hij : i ≤ j)
    (hj : j ≤ h.length) : Live size G h j :=
  ⟨hj, by have := pos_mono (h := h) hij; have := hl.2; omega⟩

theorem askip_live {size G : Nat} {h : List Entry} {r : ARd} (euid : UInt32)
    (hl : Live size G h r.idx) : Live size G h (askip h euid r).idx := by
  unfold askip
  split
  · exact hl
  · have := List.findIdx_le_length (p := fun e : Entry => e.euid == euid) (xs := h.drop r.idx)
    rw [List.length_drop] at this
    have := hl.1
    exact hl.mono (by simp) (by simp only; omega)

theorem bytesLen_ge (h : List Entry) : h.length ≤ bytesLen h := by
  induction h with
  | nil => simp
  | cons e h ih => have := Entry.size_ge e; simp; omega

theorem skipForeign_ok {k G : Nat} {l : Log} {a : ALog} (h : RelLog k G l a) (euid : UInt32) {r : ARd}
    (hl : Live l.size G a.hist r.idx) :
    skipForeign l euid (crd l.size a.hist r) = .ok (crd l.size a.hist (askip a.hist euid r)) := by
  unfold skipForeign askip
  have hbig := h.big
  cases hr : r.all with
  | true => simp [crd, hr, pure, Except.pure]
  | false =>
    have hf : (a.hist.drop r.idx).length ≤ l.size := by
      have h1 := bytesLen_ge (a.hist.drop r.idx)
      have h2 := pos_add_drop a.hist r.idx
      have h3 := h.hW
      have h4 := hl.2
      omega
    have := getNextEntryByUid_ok (euid := euid) h.size (by omega) h.mem h.wf h.hW h.w l.size r.idx hl hf
    simp only [crd, hr, Bool.false_eq_true, if_false]
    rw [this]
    rfl

theorem userHeader_length {e : Entry} (ver : Nat) : (userHeader ver e.header).length = userHdrLen ver := by
  unfold userHeader userHdrLen
  split <;> rfl

theorem view_eq {e : Entry} (ver : Nat) : e.view ver = userHeader ver e.header ++ e.payload := by
  unfold Entry.view userHeader Entry.encode
  split
  · have : e.header.take 2 ++ [0, 0] ++ (e.header.drop 4).take 16 =
      le16 e.payload.length ++ [0, 0] ++ le32 e.pid ++ le32 e.tid ++ le32 e.sec ++ le32 e.nsec := rfl
    rw [this]
  · rfl

theorem view_length {e : Entry} (ver : Nat) :
    (e.view ver).length = userHdrLen ver + e.payload.length := by
  rw [view_eq, List.length_append, userHeader_length]

theorem decNat_length : ∀ (k n : Nat), n < 10 ^ (k + 1) → (decNat n).length ≤ k + 1 := by
  intro k
  induction k with
  | zero =>
    intro n hn
    unfold decNat
    rw [dif_pos (by omega)]; simp
  | succ k ih =>
    intro n hn
    unfold decNat
    split
    · simp
    · have := ih (n / 10) (by rw [Nat.pow_succ] at hn; omega)
      simp; omega

theorem decInt_length (k : Nat) (z : Int) (h : z.natAbs < 10 ^ (k + 1)) :
    (decInt z).length ≤ k + 2 := by
  cases z with
  | ofNat n => have := decNat_length k n h; simp only [decInt]; omega
  | negSucc n => have := decNat_length k (n + 1) h; simp only [decInt, List.length_cons]; omega

theorem decInt_toInt32_length (n : Nat) : (decInt (toInt32 n)).length ≤ 11 := by
  have hm : n % 4294967296 < 4294967296 := Nat.mod_lt _ (by omega)
  have h0 : toInt32 n < 2147483648 ∧ -2147483648 ≤ toInt32 n := by
    unfold toInt32
    dsimp only
    generalize n % 4294967296 = m at *
    split <;> omega
  exact decInt_length 9 _ (by omega)

theorem summaryText_length (name : Bytes) (n : Nat) :
    (summaryText name n).length ≤ name.length + 39 ∧ 1 ≤ (summaryText name n).length := by
  have := decInt_toInt32_length n
  have h2 : (ascii " log entries dropped\n").length = 21 := by decide
  simp only [summaryText, List.length_append, List.length_cons, List.length_nil, h2]
  omega

theorem payload_at {l : Log} {h : List Entry} {G i : Nat} {e : Entry}
    (hm : Mem l.size l.buf G (stream h)) (hG : G ≤ pos h i + l.size) (he : h[i]? = some e) :
    ring l.size l.buf (pos h i + 24) e.payload.length = e.payload := by
  have hle := pos_le h (i + 1)
  have hps := pos_succ he
  have hsz : e.size = 24 + e.payload.length := rfl
  rw [ring_eq_stream hm (by omega) (by rw [stream_length]; omega)]
  have hst : stream h = (stream (h.take i) ++ e.header) ++ (e.payload ++ stream (h.drop (i + 1))) := by
    conv => lhs; rw [← List.take_append_drop i h]
    rw [stream_append, drop_eq_cons he, stream_cons, Entry.encode, List.append_assoc,
      List.append_assoc]
  rw [hst, List.drop_append_of_le_length (by simp [pos]), List.drop_of_length_le (by simp [pos]),
    List.nil_append, List.take_append_of_le_length (by simp), List.take_of_length_le (by simp)]

theorem readSection_ok {k G : Nat} {l : Log} {a : ALog} (h : RelLog k G l a) (euid : UInt32) {r : ARd}
    (hl : Live l.size G a.hist r.idx) (count uw : Nat) :
    readSection l euid (crd l.size a.hist r) count uw =
        .ok (crd l.size a.hist (aread a euid r count uw).1, (aread a euid r count uw).2) ∧
      Live l.size G a.hist (aread a euid r count uw).1.idx := by
  have hbig := h.big
  have hz : hdrSize = 24 := rfl
  unfold readSection aread
  rw [skipForeign_ok h euid hl]
  have hl := askip_live euid hl
  generalize askip a.hist euid r = r at *
  simp only [bind, Except.bind, pure, Except.pure]
  have hoff : (crd l.size a.hist r).off = pos a.hist r.idx % l.size := rfl
  have hdr : (crd l.size a.hist r).dropped = r.dropped := rfl
  have hver : (crd l.size a.hist r).ver = r.ver := rfl
  have heof := live_eof_iff hl h.hW
  by_cases hi : r.idx = a.hist.length
  · have : l.wOff = (crd l.size a.hist r).off := by rw [h.w, hoff]; exact heof.mpr hi
    rw [if_pos this, List.getElem?_eq_none (by omega)]
    exact ⟨rfl, hl⟩
  have hlt : r.idx < a.hist.length := by have := hl.1; omega
  have hne : ¬ l.wOff = (crd l.size a.hist r).off := by
    rw [h.w, hoff]; exact fun hc => hi (heof.mp hc)
  rw [if_neg hne]
  have he : a.hist[r.idx]? = some a.hist[r.idx] := List.getElem?_eq_getElem hlt
  generalize a.hist[r.idx] = e at he
  rw [he]
  simp only
  have hewf : e.wf := h.wf e (List.mem_of_getElem? he)
  have hgh := header_at (l := l) (by omega) h.mem (Nat.le_of_lt hl.2) he
  by_cases hd : r.dropped > 0
  · rw [if_pos (by rw [hdr]; exact hd)]
    simp only [hd, if_true]
    unfold doReadDropSummary
    rw [hoff, hgh]
    have hsl := summaryText_length a.name r.dropped
    have hnl := h.nameLen
    simp only [bind, Except.bind, pure, Except.pure, hdr, hver, h.name]
    rw [if_neg (by omega)]
    have hsh : le16 (summaryText a.name r.dropped).length ++ (e.header.drop 2).take 2 ++
        le32 0xffffffff ++ le32 0xffffffff ++ e.header.drop 12 =
        (summaryEntry a.name r.dropped e).header := rfl
    rw [hsh]
    have hvl : ((summaryEntry a.name r.dropped e).view r.ver).length =
      userHdrLen r.ver + (summaryText a.name r.dropped).length := view_length _
    rw [hvl]
    by_cases h1 : count < userHdrLen r.ver + (summaryText a.name r.dropped).length
    · simp only [h1, if_true]; exact ⟨trivial, hl⟩
    simp only [h1, if_false]
    by_cases h2 : uw < userHdrLen r.ver + (summaryText a.name r.dropped).length
    · refine ⟨?_, by simp only [h2, if_true]; exact hl⟩
      simp only [h2, if_true]
      split <;> rfl
    · rw [if_neg (by omega)]
      simp only [h2, if_false]
      refine ⟨?_, hl⟩
      rw [view_eq]
      rfl
  · rw [if_neg (by rw [hdr]; exact hd)]
    simp only [hd, if_false]
    unfold getEntryMsgLen
    rw [hoff, hgh]
    simp only [bind, Except.bind, pure, Except.pure, hLen_header hewf, hver]
    rw [view_length]
    by_cases h1 : count < userHdrLen r.ver + e.payload.length
    · simp only [h1, if_true]; exact ⟨trivial, hl⟩
    simp only [h1, if_false]
    unfold doReadLogToUser
    rw [hoff, hgh]
    have hstart : offset l.size (pos a.hist r.idx % l.size + hdrSize) =
        (pos a.hist r.idx + 24) % l.size := by rw [h.size, offset_mod_add]
    have hcnt : userHdrLen r.ver + e.payload.length - userHdrLen r.ver = e.payload.length := by omega
    have hpl : e.payload.length ≤ 4076 := hewf
    have hps := pos_succ he
    have hend : offset l.size (pos a.hist r.idx % l.size + hdrSize + e.payload.length) =
        pos a.hist (r.idx + 1) % l.size := by
      rw [Nat.add_assoc, h.size, offset_mod_add, hps]; rfl
    simp only [bind, Except.bind, pure, Except.pure, hver, hstart, hcnt]
    obtain ⟨hl1, hl2⟩ := load_split (buf := l.buf) (a := pos a.hist r.idx + 24)
      (n := e.payload.length) (size := l.size) (by omega) (by omega)
    have hring := payload_at (l := l) h.mem (Nat.le_of_lt hl.2) he
    generalize hm : min e.payload.length (l.size - (pos a.hist r.idx + 24) % l.size) = m at *
    have hmle : m ≤ e.payload.length := by omega
    rw [hl1]
    simp only
    have happ : ring l.size l.buf (pos a.hist r.idx + 24) m ++
        ring l.size l.buf (pos a.hist r.idx + 24 + m) (e.payload.length - m) = e.payload := by
      rw [ring_append, Nat.add_sub_cancel' hmle, hring]
    have hlive' : Live l.size G a.hist (r.idx + 1) := hl.mono (by omega) hlt
    by_cases h2 : uw < userHdrLen r.ver + e.payload.length
    · simp only [h2, if_true]
      refine ⟨?_, hl⟩
      split
      · rfl
      · split
        · rfl
        · split
          · rw [hl2]
          · rfl
    · rw [if_neg (by omega), if_neg (by omega)]
      simp only [h2, if_false]
      refine ⟨?_, hlive'⟩
      have hb : (if e.payload.length ≠ m then load l.size l.buf 0 (e.payload.length - m) else .ok []) =
          .ok (ring l.size l.buf (pos a.hist r.idx + 24 + m) (e.payload.length - m)) := by
        split
        · exact hl2
        · rename_i hc
          have : e.payload.length - m = 0 := by simp at hc; omega
          rw [this]; rfl
      by_cases hc : e.payload.length = m
      · rw [hc] at happ hend
        simp only [hc, ne_eq, not_true, if_false]
        simp only [Nat.sub_self] at happ
        have : ring l.size l.buf (pos a.hist r.idx + 24 + m) 0 = [] := rfl
        rw [this] at happ
        rw [view_eq, hend, ← happ]
        simp [crd]
      · rw [if_pos hc] at hb
        simp only [ne_eq, hc, not_false_eq_true, if_true]
        rw [hb]
        simp only
        rw [hend, List.append_assoc, happ, view_eq]
        rfl

/-! ## All calls -/

structure Rel (k G : Nat) (c : Sys) (a : ASys) : Prop where
  log : RelLog k G c.log a.log
  files : c.files = a.files
  rd : ∀ fid, (a.log.readers.lookup fid).isSome =
    match a.files fid with | some f => f.rd | none => false

theorem lookup_map_snd {α β} (g : α → β) (fid : Nat) (rs : List (Nat × α)) :
    (rs.map fun p => (p.1, g p.2)).lookup fid = (rs.lookup fid).map g := by
  induction rs with
  | nil => rfl
  | cons p rs ih =>
    obtain ⟨i, r⟩ := p
    simp only [List.map_cons, List.lookup_cons]
    cases h : (fid == i) with
    | true => rfl
    | false => exact ih

theorem lookup_map_isSome {α β} (g : Nat × α → β) (fid : Nat) (rs : List (Nat × α)) :
    ((rs.map fun p => (p.1, g p)).lookup fid).isSome = (rs.lookup fid).isSome := by
  induction rs with
  | nil => rfl
  | cons p rs ih =>
    obtain ⟨i, r⟩ := p
    simp only [List.map_cons, List.lookup_cons]
    cases h : (fid == i) with
    | true => rfl
    | false => exact ih

theorem lookup_mem {α} {fid : Nat} {rs : List (Nat × α)} {r : α} (h : rs.lookup fid = some r) :
    (fid, r) ∈ rs := by
  induction rs with
  | nil => simp at h
  | cons p rs ih =>
    obtain ⟨i, x⟩ := p
    rw [List.lookup_cons] at h
    cases hb : (fid == i) with
    | true =>
      rw [hb] at h
      simp at h hb
      subst h; subst hb; simp
    | false => rw [hb] at h; exact List.mem_cons_of_mem _ (ih h)

theorem lookup_set {α} (fid g : Nat) (rs : List (Nat × α)) (r : α) :
    (rs.map fun p => if p.1 = fid then (p.1, r) else p).lookup g =
      if g = fid then (rs.lookup g).map fun _ => r else rs.lookup g := by
  induction rs with
  | nil => simp
  | cons p rs ih =>
    obtain ⟨i, x⟩ := p
    by_cases hi : i = fid
    · simp only [List.map_cons, hi, if_true, List.lookup_cons]
      by_cases hg : g = fid
      · simp [hg]
      · have : (g == fid) = false := by simpa using hg
        rw [this]
        simp only [hg, if_false] at ih ⊢
        exact ih
    · simp only [List.map_cons, hi, if_false, List.lookup_cons]
      by_cases hgi : g = i
      · have : g ≠ fid := by rw [hgi]; exact hi
        simp [hgi, hi]
      · have : (g == i) = false := by simpa using hgi
        rw [this]
        exact ih

theorem lookup_filter_ne {α} (fid g : Nat) (rs : List (Nat × α)) :
    (rs.filter fun p => p.1 ≠ fid).lookup g = if g = fid then none else rs.lookup g := by
  induction rs with
  | nil => simp
  | cons p rs ih =>
    obtain ⟨i, x⟩ := p
    rw [List.filter_cons]
    by_cases hi : i = fid
    · simp only [hi, ne_eq, not_true, decide_false, Bool.false_eq_true, if_false, List.lookup_cons]
      rw [ih]
      by_cases hg : g = fid
      · simp [hg]
      · have : (g == fid) = false := by simpa using hg
        rw [this]
    · simp only [ne_eq, hi, not_false_eq_true, decide_true, if_true, List.lookup_cons]
      by_cases hgi : g = i
      · simp [hgi, hi]
      · have : (g == i) = false := by simpa using hgi
        rw [this]; exact ih

theorem lookup_append {α} (g : Nat) (rs ss : List (Nat × α)) :
    (rs ++ ss).lookup g = (rs.lookup g).or (ss.lookup g) := by
  induction rs with
  | nil => simp
  | cons p rs ih =>
    obtain ⟨i, x⟩ := p
    simp only [List.cons_append, List.lookup_cons]
    cases (g == i) with
    | true => simp
    | false => exact ih

/-- Updating one reader on both sides. -/
theorem RelLog.setReader {k G : Nat} {l : Log} {a : ALog} (h : RelLog k G l a) (fid : Nat) {r : ARd}
    (hl : Live l.size G a.hist r.idx) :
    RelLog k G (setReader l fid (crd l.size a.hist r)) (a.set fid r) := by
  refine { h with readers := ?_, live := ?_ }
  · simp only [Kernel.setReader, ALog.set, h.readers, List.map_map]
    apply List.map_congr_left
    intro p _
    simp only [Function.comp]
    split <;> rfl
  · intro p hp
    simp only [ALog.set, List.mem_map] at hp
    obtain ⟨q, hq, rfl⟩ := hp
    split
    · exact hl
    · exact h.live q hq

theorem Rel.setReader {k G : Nat} {c : Sys} {a : ASys} (h : Rel k G c a) (fid : Nat) {r : ARd}
    (hl : Live c.log.size G a.log.hist r.idx) :
    Rel k G { c with log := setReader c.log fid (crd c.log.size a.log.hist r) }
      { a with log := a.log.set fid r } := by
  refine ⟨h.log.setReader fid hl, h.files, ?_⟩
  intro g
  simp only [ALog.set]
  rw [lookup_set]
  have := h.rd g
  split
  · rw [Option.isSome_map]; exact this
  · exact this

/-- A readable file has its reader on both sides. -/
theorem Rel.find {k G : Nat} {c : Sys} {a : ASys} (h : Rel k G c a) {fid : Nat} {f : File}
    (hf : a.files fid = some f) (hr : f.rd = true) :
    ∃ r, a.log.find fid = some r ∧ findReader c.log fid = .ok (crd c.log.size a.log.hist r) ∧
      Live c.log.size G a.log.hist r.idx := by
  have hs := h.rd fid
  rw [hf] at hs
  simp only [hr] at hs
  obtain ⟨r, hr⟩ := Option.isSome_iff_exists.mp hs
  refine ⟨r, hr, ?_, h.log.live (fid, r) (lookup_mem hr)⟩
  unfold findReader
  rw [h.log.readers, lookup_map_snd, hr]
  rfl

/-- One call. -/
theorem step_refines {k G : Nat} {c : Sys} {a : ASys} (h : Rel k G c a) (op : Op)
    (hop : op.supported = true) :
    ∃ G' c', step c op = .ok (c', (astep a op).2) ∧ Rel k G' c' (astep a op).1 := by
  have hL := h.log
  have hF := h.files
  have hRd := h.rd
  have hbig := hL.big
  unfold step astep
  rw [hF]
  cases hfile : a.files op.fid with
  | none =>
    cases op with
    | openF fid rd wr all =>
      simp only [Op.fid] at hfile
      cases rd with
      | false =>
        simp only [Bool.false_eq_true, if_false]
        refine ⟨G, _, rfl, hL, by simp only [Sys.setFile, ASys.setFile, hF], ?_⟩
        intro g
        have := hRd g
        simp only [ASys.setFile]
        by_cases hg : g = fid
        · subst hg; rw [hfile] at this; simpa using this
        · simpa [hg] using this
      | true =>
        simp only [if_true]
        refine ⟨G, _, rfl, ?_, by simp only [Sys.setFile, ASys.setFile, hF], ?_⟩
        · refine { hL with readers := ?_, live := ?_ }
          · simp only [Sys.setFile, ASys.setFile, List.map_append, hL.readers, List.map_cons, List.map_nil,
              crd, hL.head, hL.dropped]
          · intro p hp
            simp only [if_true, ASys.setFile] at hp
            rcases List.mem_append.mp hp with hp | hp
            · exact hL.live p hp
            · simp only [List.mem_singleton] at hp
              subst hp; exact hL.liveHead
        · intro g
          have := hRd g
          simp only [if_true, ASys.setFile]
          rw [lookup_append]
          by_cases hg : g = fid
          · subst hg; simp [List.lookup_cons]
          · have hb : (g == fid) = false := by simpa using hg
            simp only [List.lookup_cons, hb, List.lookup_nil, Option.or_none, hg, if_false]
            exact this
    | _ => exact ⟨G, c, rfl, h⟩
  | some f =>
    cases op with
    | openF fid rd wr all => exact ⟨G, c, rfl, h⟩
    | release fid =>
      simp only [Op.fid] at hfile
      simp only [stepFile, astepFile, Op.fid]
      cases hrd : f.rd with
      | false =>
        refine ⟨G, _, rfl, hL, by simp only [Sys.setFile, ASys.setFile, hF]; rfl, ?_⟩
        intro g
        have := hRd g
        simp only [ASys.setFile, Bool.false_eq_true, if_false]
        by_cases hg : g = fid
        · subst hg; rw [hfile] at this; simpa [hrd] using this
        · simpa [hg] using this
      | true =>
        refine ⟨G, _, rfl, ?_, by simp only [Sys.setFile, ASys.setFile, hF]; rfl, ?_⟩
        · refine { hL with readers := ?_, live := ?_ }
          · simp only [if_true, ASys.setFile, hL.readers, List.filter_map]
            rfl
          · intro p hp
            simp only [if_true, ASys.setFile] at hp
            exact hL.live p (List.mem_filter.mp hp).1
        · intro g
          simp only [if_true, ASys.setFile]
          rw [lookup_filter_ne]
          by_cases hg : g = fid
          · simp [hg]
          · simp only [hg, if_false]; exact hRd g
    | write fid t it junk =>
      simp only [Op.supported] at hop
      simp only [stepFile, astepFile, Op.fid]
      cases hwr : f.wr with
      | false => exact ⟨G, c, rfl, h⟩
      | true =>
        obtain ⟨G', l', e, r⟩ := write_refines hL f.raw t hop junk
        refine ⟨G', { c with log := l' }, ?_, r, hF, ?_⟩
        · simp only [if_true]; rw [e]; rfl
        · intro g
          refine Eq.trans ?_ (hRd g)
          simp only [if_true]
          unfold awrite
          split
          · rfl
          split
          · rfl
          simp only
          split
          · exact lookup_map_isSome _ _ _
          · exact lookup_map_isSome _ _ _
    | check fid =>
      simp only [Op.fid] at hfile
      simp only [stepFile, astepFile, Op.fid]
      cases hrd : f.rd with
      | false => exact ⟨G, c, rfl, h⟩
      | true =>
        obtain ⟨r, e1, e2, hl⟩ := h.find hfile hrd
        refine ⟨G, c, ?_, ?_⟩
        · simp only [if_true, e1]
          rw [e2]
          simp only [bind, Except.bind, pure, Except.pure]
          congr 2
          have := live_eof_iff hl hL.hW
          rw [← hL.w] at this
          by_cases hi : r.idx = a.log.hist.length
          · simp only [hi, if_true]; exact if_pos (this.mpr hi)
          · simp only [hi, if_false]; exact if_neg (fun hc => hi (this.mp hc))
        · simp only [if_true, e1]; exact h
    | read fid euid count uw =>
      simp only [Op.fid] at hfile
      simp only [stepFile, astepFile, Op.fid]
      cases hrd : f.rd with
      | false => exact ⟨G, c, rfl, h⟩
      | true =>
        obtain ⟨r, e1, e2, hl⟩ := h.find hfile hrd
        obtain ⟨e3, hl'⟩ := readSection_ok hL euid hl count uw
        simp only [if_true, e1]
        rw [e2]
        simp only [bind, Except.bind, pure, Except.pure]
        rw [e3]
        exact ⟨G, _, rfl, h.setReader fid hl'⟩
    | poll fid euid =>
      simp only [Op.fid] at hfile
      simp only [stepFile, astepFile, Op.fid]
      cases hrd : f.rd with
      | false => exact ⟨G, c, rfl, h⟩
      | true =>
        obtain ⟨r, e1, e2, hl⟩ := h.find hfile hrd
        simp only [if_true, e1]
        rw [e2]
        simp only [bind, Except.bind, pure, Except.pure]
        rw [skipForeign_ok hL euid hl]
        have hl' := askip_live euid hl
        have := live_eof_iff hl' hL.hW
        rw [← hL.w] at this
        refine ⟨G, _, ?_, h.setReader fid hl'⟩
        simp only [crd, ne_eq, this]
    | getBufSize fid =>
      refine ⟨G, c, ?_, h⟩
      simp only [stepFile, astepFile, hL.size, hL.asize]
    | getLogLen fid =>
      simp only [Op.fid] at hfile
      simp only [stepFile, astepFile, Op.fid]
      cases hrd : f.rd with
      | false => exact ⟨G, c, rfl, h⟩
      | true =>
        obtain ⟨r, e1, e2, hl⟩ := h.find hfile hrd
        simp only [if_true, e1]
        rw [e2]
        simp only [bind, Except.bind, pure, Except.pure]
        refine ⟨G, c, ?_, h⟩
        congr 3
        show (if c.log.wOff ≥ pos a.log.hist r.idx % c.log.size then
          c.log.wOff - pos a.log.hist r.idx % c.log.size
          else c.log.size - pos a.log.hist r.idx % c.log.size + c.log.wOff) = _
        have h1 := pos_add_drop a.log.hist r.idx
        have h2 := hL.hW
        have h3 := hl.2
        rw [hL.w, ← h1]
        generalize bytesLen (a.log.hist.drop r.idx) = d at *
        generalize pos a.log.hist r.idx = p at *
        have hs0 : 0 < c.log.size := by omega
        have hp := Nat.mod_lt p hs0
        by_cases hc : p % c.log.size + d < c.log.size
        · rw [add_mod_small hc, if_pos (by omega)]; omega
        · rw [add_mod_wrap hs0 (by omega) (by omega), if_neg (by omega)]; omega
    | getNextLen fid euid =>
      simp only [Op.fid] at hfile
      simp only [stepFile, astepFile, Op.fid]
      cases hrd : f.rd with
      | false => exact ⟨G, c, rfl, h⟩
      | true =>
        obtain ⟨r, e1, e2, hl⟩ := h.find hfile hrd
        simp only [if_true, e1]
        rw [e2]
        simp only [bind, Except.bind, pure, Except.pure]
        rw [skipForeign_ok hL euid hl]
        have hl' := askip_live euid hl
        generalize askip a.log.hist euid r = r' at *
        refine ⟨G, _, ?_, h.setReader fid hl'⟩
        have heof := live_eof_iff hl' hL.hW
        rw [← hL.w] at heof
        have hoff : (crd c.log.size a.log.hist r').off = pos a.log.hist r'.idx % c.log.size := rfl
        have hver : (crd c.log.size a.log.hist r').ver = r'.ver := rfl
        simp only
        rw [hoff, hver]
        by_cases hi : r'.idx = a.log.hist.length
        · rw [List.getElem?_eq_none (by omega)]
          have : c.log.wOff = pos a.log.hist r'.idx % c.log.size := heof.mpr hi
          simp only [← this, ne_eq, not_true, if_false]
        · have hne : ¬ c.log.wOff = pos a.log.hist r'.idx % c.log.size := fun hc => hi (heof.mp hc)
          have hlt : r'.idx < a.log.hist.length := by have := hl'.1; omega
          have he : a.log.hist[r'.idx]? = some a.log.hist[r'.idx] := List.getElem?_eq_getElem hlt
          generalize a.log.hist[r'.idx] = e at he
          rw [he]
          simp only [ne_eq, hne, not_false_eq_true, if_true, getEntryMsgLen]
          rw [header_at (l := c.log) (by omega) hL.mem (Nat.le_of_lt hl'.2) he]
          simp only [bind, Except.bind, pure, Except.pure,
            hLen_header (hL.wf e (List.mem_of_getElem? he)), view_length]
    | flush fid =>
      simp only [stepFile, astepFile, Op.fid]
      cases hwr : f.wr with
      | false => exact ⟨G, c, rfl, h⟩
      | true =>
        have hpl : pos a.log.hist a.log.hist.length = bytesLen a.log.hist := pos_of_length_le (Nat.le_refl _)
        have hlive : Live c.log.size G a.log.hist a.log.hist.length := by
          have := hL.liveHead.2
          have := pos_le a.log.hist a.log.head
          exact ⟨Nat.le_refl _, by omega⟩
        refine ⟨G, _, rfl, ?_, hF, ?_⟩
        · refine { hL with liveHead := hlive, head := ?_, dropped := rfl, readers := ?_, live := ?_ }
          · simp only [if_true, hpl]; exact hL.w
          · simp only [if_true, hL.readers, List.map_map]
            apply List.map_congr_left
            intro p _
            simp only [Function.comp, crd, hpl, hL.w]
          · intro p hp
            simp only [if_true, List.mem_map] at hp
            obtain ⟨q, _, rfl⟩ := hp
            exact hlive
        · intro g
          simp only [if_true]
          exact (lookup_map_isSome _ _ _).trans (hRd g)
    | getVersion fid =>
      simp only [Op.fid] at hfile
      simp only [stepFile, astepFile, Op.fid]
      cases hrd : f.rd with
      | false => exact ⟨G, c, rfl, h⟩
      | true =>
        obtain ⟨r, e1, e2, hl⟩ := h.find hfile hrd
        simp only [if_true, e1]
        rw [e2]
        exact ⟨G, c, rfl, h⟩
    | setVersion fid arg =>
      simp only [Op.fid] at hfile
      simp only [stepFile, astepFile, Op.fid]
      cases hrd : f.rd with
      | false => exact ⟨G, c, rfl, h⟩
      | true =>
        obtain ⟨r, e1, e2, hl⟩ := h.find hfile hrd
        simp only [if_true, e1]
        rw [e2]
        simp only [bind, Except.bind, pure, Except.pure]
        cases arg with
        | none => exact ⟨G, c, rfl, h⟩
        | some v =>
          by_cases hv : v = 1 ∨ v = 2
          · have hn : ¬ (v < 1 ∨ v > 2) := by omega
            simp only [hv, hn, if_true, if_false]
            exact ⟨G, _, rfl, h.setReader fid (r := { r with ver := v.toNat }) hl⟩
          · have hn : v < 1 ∨ v > 2 := by omega
            simp only [hv, hn, if_true, if_false]
            exact ⟨G, c, rfl, h⟩
    | setRaw fid cap arg =>
      simp only [Op.fid] at hfile
      simp only [stepFile, astepFile, Op.fid]
      cases hwr : f.wr with
      | false => exact ⟨G, c, rfl, h⟩
      | true =>
        simp only [if_true]
        cases cap with
        | false => exact ⟨G, c, rfl, h⟩
        | true =>
          simp only [Bool.not_true, Bool.false_eq_true, if_false]
          cases arg with
          | none => exact ⟨G, c, rfl, h⟩
          | some v =>
            by_cases hv : v = 0 ∨ v = 1
            · have hn : ¬ (v ≠ 0 ∧ v ≠ 1) := by omega
              simp only [hv, hn, if_true, if_false]
              refine ⟨G, _, rfl, hL, by simp only [Sys.setFile, ASys.setFile, hF], ?_⟩
              intro g
              have := hRd g
              simp only [ASys.setFile]
              by_cases hg : g = fid
              · subst hg; rw [hfile] at this; simpa using this
              · simpa [hg] using this
            · have hn : v ≠ 0 ∧ v ≠ 1 := by omega
              simp only
              rw [if_pos hn, if_neg hv]
              exact ⟨G, c, rfl, h⟩

/-- A fresh device. -/
theorem init_rel {name : Bytes} {k : Nat} (buf : Nat → UInt8) (hk : 14 ≤ k) (hn : name.length ≤ 89) :
    Rel k 0 (init name k buf) (ainit name k) := by
  have hp : 0 < 2 ^ k := Nat.two_pow_pos k
  refine ⟨⟨hk, rfl, rfl, rfl, hn, ?_, ?_, ?_, ?_, ?_, ?_, rfl, rfl, ?_⟩, rfl, fun _ => rfl⟩
  · intro e he; simp [ainit] at he
  · simp [ainit]
  · simp [init, ainit]
  · intro x _ hx; simp [ainit] at hx
  · exact ⟨by simp [ainit], by simp [ainit, pos, init, hp]⟩
  · simp [init, ainit, pos]
  · intro p hp; simp [ainit] at hp

/-- Any sequence of calls from a related pair: no fault, same results. -/
theorem run_refines {k : Nat} (ops : List Op) : ∀ {G : Nat} {c : Sys} {a : ASys}, Rel k G c a →
    (∀ op ∈ ops, op.supported = true) →
    ∃ G' c', run c ops = .ok (c', (arun a ops).2) ∧ Rel k G' c' (arun a ops).1 := by
  induction ops with
  | nil => intro G c a h _; exact ⟨G, c, rfl, h⟩
  | cons op ops ih =>
    intro G c a h hs
    obtain ⟨G1, c1, e1, h1⟩ := step_refines h op (hs op (by simp))
    obtain ⟨G2, c2, e2, h2⟩ := ih h1 (fun o ho => hs o (by simp [ho]))
    refine ⟨G2, c2, ?_, h2⟩
    simp only [run, arun]
    rw [e1]
    simp only [bind, Except.bind, pure, Except.pure]
    rw [e2]

end Verif.Kernel
