import Verif.Kernel.Sim

/-!
# The driver model refines the abstract log: calls

Helper lemmas leading to `step_refines` and `run_refines`.
-/
namespace Verif.Kernel
open Verif

/-- The driver's reader for an abstract reader. -/
def crd (size : Nat) (h : List Entry) (r : ARd) : Reader :=
  { off := pos h r.idx % size, all := r.all, ver := r.ver, dropped := r.dropped }

structure RelLog (k G : Nat) (l : Log) (a : ALog) : Prop where
  hk : 14 ≤ k
  size : l.size = 2 ^ k
  asize : a.size = 2 ^ k
  name : l.name = a.name
  nameLen : a.name.length ≤ 89
  wf : ∀ e ∈ a.hist, e.wf
  hW : bytesLen a.hist ≤ G
  w : l.wOff = bytesLen a.hist % l.size
  mem : Mem l.size l.buf G (stream a.hist)
  liveHead : Live l.size G a.hist a.head
  head : l.head = pos a.hist a.head % l.size
  dropped : l.dropped = a.dropped
  readers : l.readers = a.readers.map fun p => (p.1, crd l.size a.hist p.2)
  live : ∀ p ∈ a.readers, Live l.size G a.hist p.2.idx

theorem RelLog.big {k G l a} (h : RelLog k G l a) : 16384 ≤ l.size := by
  rw [h.size]
  exact Nat.pow_le_pow_right (n := 2) (i := 14) (by omega) h.hk

/-! ## fix_up_readers -/

/-- The abstract effect of `fix_up_readers`. -/
def ALog.pushAll (l : ALog) (len : Nat) : ALog :=
  { l with
      head := l.head + apush l.size l.hist len l.head
      dropped := l.dropped + apush l.size l.hist len l.head
      readers := l.readers.map fun p =>
        (p.1, { p.2 with idx := p.2.idx + apush l.size l.hist len p.2.idx
                         dropped := p.2.dropped + apush l.size l.hist len p.2.idx }) }

theorem cursor_fix {k G len i : Nat} {l : Log} {h : List Entry} (hsz : l.size = 2 ^ k)
    (hs : 16384 ≤ l.size) (hm : Mem l.size l.buf G (stream h)) (hwf : ∀ e ∈ h, e.wf)
    (hW : bytesLen h ≤ G) (hl : Live l.size G h i) (h0 : 0 < len) (h1 : len ≤ 4100) :
    (isBetween (bytesLen h % l.size) ((bytesLen h + len) % l.size) (pos h i % l.size) = true ∧
      getNextEntry l len (pos h i % l.size) len =
        .ok (pos h (i + apush l.size h len i) % l.size, apush l.size h len i)) ∨
    (isBetween (bytesLen h % l.size) ((bytesLen h + len) % l.size) (pos h i % l.size) = false ∧
      apush l.size h len i = 0) := by
  have hb := isBetween_live hl hW h0 (by omega)
  have hpd := pos_add_drop h i
  have hG := hl.2
  by_cases hc : l.size ≤ bytesLen (h.drop i) + len
  · left
    refine ⟨hb.mpr hc, ?_⟩
    have hap : apush l.size h len i = adv (h.drop i) len := by unfold apush; rw [if_pos hc]
    rw [hap]
    exact getNextEntry_ok hsz (by omega) hm hwf len i len (by omega) h0 (Nat.le_refl _) (by omega)
  · right
    refine ⟨?_, by unfold apush; rw [if_neg hc]⟩
    cases hx : isBetween (bytesLen h % l.size) ((bytesLen h + len) % l.size) (pos h i % l.size)
    · rfl
    · exact absurd (hb.mp hx) hc

theorem getNextEntry_congr {l l' : Log} (hs : l.size = l'.size) (hb : l.buf = l'.buf) :
    ∀ fuel off need, getNextEntry l fuel off need = getNextEntry l' fuel off need := by
  intro fuel
  induction fuel with
  | zero => intros; rfl
  | succ n ih =>
    intro off need
    unfold getNextEntry getEntryMsgLen getEntryHeader
    simp only [hs, hb, ih]

theorem fixReaders_ok {k G len : Nat} {l : Log} {h : List Entry} (hsz : l.size = 2 ^ k)
    (hs : 16384 ≤ l.size) (hm : Mem l.size l.buf G (stream h)) (hwf : ∀ e ∈ h, e.wf)
    (hW : bytesLen h ≤ G) (h0 : 0 < len) (h1 : len ≤ 4100) (rs : List (Nat × ARd))
    (hl : ∀ p ∈ rs, Live l.size G h p.2.idx) :
    fixReaders l (bytesLen h % l.size) ((bytesLen h + len) % l.size) len
        (rs.map fun p => (p.1, crd l.size h p.2)) =
      .ok (rs.map fun p => (p.1, crd l.size h
        { p.2 with idx := p.2.idx + apush l.size h len p.2.idx
                   dropped := p.2.dropped + apush l.size h len p.2.idx })) := by
  induction rs with
  | nil => rfl
  | cons p rs ih =>
    obtain ⟨f, r⟩ := p
    have ih := ih (fun q hq => hl q (List.mem_cons_of_mem _ hq))
    simp only [List.map_cons, fixReaders]
    have hfr : fixReader l (bytesLen h % l.size) ((bytesLen h + len) % l.size) len (crd l.size h r) =
        .ok (crd l.size h { r with idx := r.idx + apush l.size h len r.idx
                                   dropped := r.dropped + apush l.size h len r.idx }) := by
      unfold fixReader
      rcases cursor_fix hsz hs hm hwf hW (hl (f, r) (by simp)) h0 h1 with ⟨hb, hg⟩ | ⟨hb, hg⟩
      · replace hb : isBetween (bytesLen h % l.size) ((bytesLen h + len) % l.size)
          (crd l.size h r).off = true := hb
        replace hg : getNextEntry l len (crd l.size h r).off len = _ := hg
        rw [if_pos hb, hg]; rfl
      · replace hb : isBetween (bytesLen h % l.size) ((bytesLen h + len) % l.size)
          (crd l.size h r).off = false := hb
        rw [if_neg (by rw [hb]; simp)]
        simp only at hg
        simp only [hg]
        rfl
    rw [hfr, ih]
    rfl

theorem fixUp_ok {k G len : Nat} {l : Log} {a : ALog} (h : RelLog k G l a)
    (h0 : 0 < len) (h1 : len ≤ 4100) :
    ∃ l', fixUpReaders l len = .ok l' ∧
      RelLog k (max G (bytesLen a.hist + len)) l' (a.pushAll len) ∧
      l'.buf = l.buf ∧ l'.size = l.size ∧ l'.wOff = l.wOff := by
  have hbig := h.big
  have hnew : offset l.size (l.wOff + len) = (bytesLen a.hist + len) % l.size := by
    rw [h.w, h.size, offset_mod_add]
  have hasz : a.size = l.size := by rw [h.size, h.asize]
  let l1 : Log := { l with
    head := pos a.hist (a.head + apush l.size a.hist len a.head) % l.size
    dropped := a.dropped + apush l.size a.hist len a.head }
  have hhead : fixHead l (bytesLen a.hist % l.size) ((bytesLen a.hist + len) % l.size) len = .ok l1 := by
    unfold fixHead
    rw [h.head]
    rcases cursor_fix h.size hbig h.mem h.wf h.hW h.liveHead h0 h1 with ⟨hb, hg⟩ | ⟨hb, hg⟩
    · rw [if_pos hb, hg]
      simp only [bind, Except.bind, pure, Except.pure, l1, h.dropped]
    · rw [if_neg (by rw [hb]; simp)]
      simp only [pure, Except.pure, l1, hg, ← h.dropped, Nat.add_zero, ← h.head]
  have hrd := fixReaders_ok (l := l1) h.size hbig h.mem h.wf h.hW h0 h1 a.readers h.live
  refine ⟨{ l1 with readers := a.readers.map fun p => (p.1, crd l.size a.hist
        { p.2 with idx := p.2.idx + apush l.size a.hist len p.2.idx
                   dropped := p.2.dropped + apush l.size a.hist len p.2.idx }) }, ?_, ?_, rfl, rfl, rfl⟩
  · have hl1 : l1.readers = a.readers.map fun p => (p.1, crd l1.size a.hist p.2) := h.readers
    show (fixHead l l.wOff (offset l.size (l.wOff + len)) len).bind (fun l1 =>
      (fixReaders l1 l.wOff (offset l.size (l.wOff + len)) len l1.readers).bind fun rs =>
        .ok { l1 with readers := rs }) = _
    rw [hnew]
    have hl1s : l1.size = l.size := rfl
    rw [hl1s] at hrd hl1
    rw [show fixHead l l.wOff ((bytesLen a.hist + len) % l.size) len = .ok l1 by rw [h.w]; exact hhead]
    simp only [Except.bind]
    rw [hl1, h.w, hrd]
  · have hapl : ∀ i, Live l.size G a.hist i →
        Live l.size (max G (bytesLen a.hist + len)) a.hist (i + apush l.size a.hist len i) :=
      fun i hi => apush_spec hi h.hW h0 (by omega)
    refine ⟨h.hk, h.size, h.asize, h.name, h.nameLen, h.wf, ?_, h.w, ?_, ?_, ?_, ?_, ?_, ?_⟩
    · have := h.hW; simp only [ALog.pushAll]; omega
    · intro x hx hx'; exact h.mem x (Nat.le_trans (Nat.le_max_left _ _) hx) hx'
    · simp only [ALog.pushAll, hasz]; exact hapl _ h.liveHead
    · simp only [ALog.pushAll, hasz, l1]
    · simp only [ALog.pushAll, hasz, l1]
    · simp only [ALog.pushAll, hasz, List.map_map, l1]; rfl
    · intro p hp
      simp only [ALog.pushAll, hasz, List.mem_map] at hp
      obtain ⟨q, hq, rfl⟩ := hp
      exact hapl _ (h.live q hq)

/-! ## Committing -/

theorem RelLog.touch {k G n : Nat} {l : Log} {a : ALog} {b : Nat → UInt8} (h : RelLog k G l a)
    (hn : bytesLen a.hist + n ≤ G) (ht : Touched l.size l.buf b (bytesLen a.hist) n) :
    RelLog k G { l with buf := b } a := by
  have := h.mem.touched (n := n) (buf' := b) (by rwa [stream_length])
  rw [stream_length, Nat.max_eq_left hn] at this
  exact { h with mem := this }

theorem RelLog.commit {k G : Nat} {l : Log} {a : ALog} {b : Nat → UInt8} {e : Entry}
    (h : RelLog k G l a) (hn : bytesLen a.hist + e.size ≤ G) (he : e.wf)
    (ht : Wrote l.size l.buf b (bytesLen a.hist) e.encode) :
    RelLog k G { l with buf := b, wOff := (bytesLen a.hist + e.size) % l.size }
      { a with hist := a.hist ++ [e] } := by
  have hm := h.mem.wrote (bs := e.encode) (buf' := b) (by rwa [stream_length])
  rw [stream_length, Entry.encode_length, Nat.max_eq_left hn] at hm
  have hlive : ∀ i, Live l.size G a.hist i → Live l.size G (a.hist ++ [e]) i := by
    intro i hi
    refine ⟨by rw [List.length_append]; have := hi.1; omega, ?_⟩
    rw [pos_append hi.1]; exact hi.2
  refine ⟨h.hk, h.size, h.asize, h.name, h.nameLen, ?_, ?_, ?_, ?_, ?_, ?_, h.dropped, ?_, ?_⟩
  · intro x hx
    rcases List.mem_append.mp hx with hx | hx
    · exact h.wf x hx
    · simp at hx; subst hx; exact he
  · simp only [bytesLen_append, bytesLen_cons, bytesLen_nil]; omega
  · simp only [bytesLen_append, bytesLen_cons, bytesLen_nil]; rfl
  · simpa using hm
  · exact hlive _ h.liveHead
  · simp only [pos_append h.liveHead.1]; exact h.head
  · simp only
    rw [h.readers]
    apply List.map_congr_left
    intro p hp
    simp only [crd, pos_append (h.live p hp).1]
  · intro p hp
    exact hlive _ (h.live p hp)

/-! ## Copying the user data -/

theorem take_min_length {α} (l : List α) (n : Nat) : l.take (min l.length n) = l.take n := by
  rw [← List.take_take, List.take_of_length_le (by rw [List.length_take]; omega)]

/-- Outcome of copying user bytes `keep` at absolute position `w`. -/
def Copied (l : Log) (w ret : Nat) (keep : Seg) (res : Except Fault (Log × Option Nat)) : Prop :=
  ∃ b, Touched l.size l.buf b w keep.length ∧
    if keep.all Option.isSome then
      res = .ok ({ l with buf := b, wOff := (w + keep.length) % l.size }, some (ret + keep.length)) ∧
      Wrote l.size l.buf b w (Seg.bytes keep)
    else ∃ wo, res = .ok ({ l with buf := b, wOff := wo }, none)

theorem seg_bytes_append {s t : Seg} : Seg.bytes (s ++ t) = Seg.bytes s ++ Seg.bytes t := by
  simp [Seg.bytes]

theorem writeSegs_ok {k room : Nat} (junk : Nat → UInt8) (segs : List Seg) :
    ∀ (l : Log) (w ret : Nat), l.size = 2 ^ k → room ≤ l.size → ret ≤ room →
      l.wOff = w % l.size →
      Copied l w ret (segs.flatten.take (room - ret)) (writeSegs junk room segs l ret) := by
  induction segs with
  | nil =>
    intro l w ret _ _ _ hw
    refine ⟨l.buf, Touched.refl, ?_⟩
    simp only [List.flatten_nil, List.take_nil, List.all_nil, if_true, writeSegs]
    refine ⟨?_, Wrote.nil⟩
    simp [← hw]
  | cons s segs ih =>
    intro l w ret hsz hroom hret hw
    generalize hlen : min s.length (room - ret) = len
    have hst : (s.take len).length = len := by rw [List.length_take]; omega
    have hsplit : (s :: segs).flatten.take (room - ret) =
        s.take len ++ segs.flatten.take (room - (ret + len)) := by
      rw [List.flatten_cons, List.take_append]
      congr 1
      · rw [← hlen, take_min_length]
      · congr 1; omega
    rw [hsplit]
    generalize hrest : segs.flatten.take (room - (ret + len)) = rest at *
    have hrl : rest.length ≤ room - (ret + len) := by rw [← hrest, List.length_take]; omega
    obtain ⟨b, ht, hr⟩ := doWriteLogFromUser_ok (w := w) (s := s.take len) junk hsz (by omega) hw
    simp only [writeSegs, hlen]
    cases hall : (s.take len).all Option.isSome with
    | false =>
      rw [hall, if_neg (by simp)] at hr
      refine ⟨b, ht.mono (by simp), ?_⟩
      rw [List.all_append, hall]
      simp only [Bool.false_and, Bool.false_eq_true, if_false]
      refine ⟨l.wOff, ?_⟩
      rw [hr]; rfl
    | true =>
      rw [hall, if_pos rfl] at hr
      obtain ⟨hr, hwr⟩ := hr
      rw [hr]
      simp only [bind, Except.bind, Bool.not_true, Bool.false_eq_true, if_false]
      obtain ⟨b', ht', hr'⟩ := ih { l with buf := b, wOff := (w + (s.take len).length) % l.size }
        (w + len) (ret + len) hsz hroom (by omega) (by simp only; rw [hst])
      rw [hrest] at hr' ht'
      refine ⟨b', ?_, ?_⟩
      · rw [List.length_append, hst]
        rw [hst] at ht
        exact ht.trans ht'
      · rw [List.all_append, hall, Bool.true_and]
        cases hall' : rest.all Option.isSome with
        | false =>
          rw [hall'] at hr'
          simp only [Bool.false_eq_true, if_false] at hr' ⊢
          obtain ⟨wo, hwo⟩ := hr'
          exact ⟨wo, hwo⟩
        | true =>
          rw [hall'] at hr'
          simp only [if_true] at hr' ⊢
          obtain ⟨hr1, hr2⟩ := hr'
          constructor
          · rw [hr1, List.length_append, hst]
            simp only [Nat.add_assoc]
          · rw [seg_bytes_append]
            refine hwr.trans ?_ ?_
            · rw [seg_bytes_length, hst]; exact hr2
            · rw [seg_bytes_length, seg_bytes_length, hst]; omega

theorem writeIter_ok {k room w : Nat} (junk : Nat → UInt8) {l : Log} {it : Iter}
    (hit : it.supported = true) (hsz : l.size = 2 ^ k) (hroom : room ≤ l.size)
    (hw : l.wOff = w % l.size) :
    Copied l w 0 (it.data.take room) (writeIter junk l it room) := by
  cases it with
  | iovec segs =>
    have := writeSegs_ok junk segs l w 0 hsz hroom (by omega) hw
    simpa [writeIter, Iter.data] using this
  | ubuf seg =>
    have hlen : seg.take (min room seg.length) = seg.take room := by
      rw [Nat.min_comm, take_min_length]
    obtain ⟨b, ht, hr⟩ := doWriteLogFromUser_ok (w := w) (s := seg.take room) junk hsz
      (by rw [List.length_take]; omega) hw
    refine ⟨b, ht, ?_⟩
    simp only [writeIter, Iter.data, hlen]
    cases hall : (seg.take room).all Option.isSome with
    | false =>
      rw [hall] at hr
      simp only [Bool.false_eq_true, if_false] at hr ⊢
      exact ⟨l.wOff, by rw [hr]; rfl⟩
    | true =>
      rw [hall] at hr
      simp only [if_true] at hr ⊢
      refine ⟨?_, hr.2⟩
      rw [hr.1]
      simp [bind, Except.bind, pure, Except.pure, List.length_take]
  | other n => simp [Iter.supported] at hit

theorem Iter.data_length {it : Iter} (h : it.supported = true) : it.data.length = it.count := by
  cases it with
  | iovec segs => simp [Iter.data, Iter.count, List.length_flatten]
  | ubuf seg => rfl
  | other n => simp [Iter.supported] at h

/-! ## The entry written -/

theorem commStr_length (c : Bytes) : 1 ≤ (commStr c).length ∧ (commStr c).length ≤ 17 := by
  have h1 : (cstr (c.take commLen)).length ≤ (c.take commLen).length := by
    unfold cstr
    exact (List.takeWhile_prefix _).length_le
  rw [List.length_take] at h1
  simp only [commStr, List.length_append, List.length_singleton]
  simp only [commLen] at *
  omega

theorem names_length (t : Task) : 1 ≤ (names t).1.length ∧
    (names t).1.length + (names t).2.length ≤ 34 := by
  have h1 := commStr_length t.pcomm
  have h2 := commStr_length t.tcomm
  refine ⟨h1.1, ?_⟩
  simp only [names]
  split
  · omega
  · simp; omega

theorem word_le32 {d : Bytes} {i : Nat} (h : i + 4 ≤ d.length) : le32 (word d i) = (d.drop i).take 4 := by
  unfold word
  rw [le32_unle32]
  have e : ∀ j, j < d.length → d[j]? = some (d.getD j 0) := by
    intro j hj
    rw [List.getD_eq_getElem?_getD, List.getElem?_eq_getElem hj]; rfl
  apply List.ext_getElem?
  intro j
  rcases Nat.lt_or_ge j 4 with hj | hj
  · rw [List.getElem?_take_of_lt hj, List.getElem?_drop, e (i + j) (by omega)]
    match j, hj with
    | 0, _ => rfl
    | 1, _ => rfl
    | 2, _ => rfl
    | 3, _ => rfl
  · rw [List.getElem?_eq_none (by simpa using hj), List.getElem?_eq_none (by simp; omega)]

theorem rawEntry_encode {d : Bytes} (h1 : 20 ≤ d.length) (h2 : d.length ≤ 4096) :
    (rawEntry d).encode = le16 (d.length - 20) ++ le16 24 ++ d := by
  have hp : (rawEntry d).payload = d.drop 20 := by
    simp only [rawEntry]; rw [List.take_of_length_le (by rw [List.length_drop]; omega)]
  unfold Entry.encode Entry.header
  rw [hp]
  simp only [rawEntry, List.length_drop]
  rw [word_le32 (by omega), word_le32 (by omega), word_le32 (by omega), word_le32 (by omega),
    word_le32 (by omega)]
  have hd : d = (d.drop 0).take 4 ++ ((d.drop 4).take 4 ++ ((d.drop 8).take 4 ++ ((d.drop 12).take 4 ++
      ((d.drop 16).take 4 ++ d.drop 20)))) := by
    have st : ∀ i, (d.drop i).take 4 ++ d.drop (i + 4) = d.drop i := by
      intro i
      rw [← List.drop_drop, List.take_append_drop]
    rw [st 16, st 12, st 8, st 4, st 0]; rfl
  have e2 : le16 (d.length - 20) ++ le16 24 ++ d = le16 (d.length - 20) ++ le16 24 ++
      ((d.drop 0).take 4 ++ ((d.drop 4).take 4 ++ ((d.drop 8).take 4 ++ ((d.drop 12).take 4 ++
      ((d.drop 16).take 4 ++ d.drop 20))))) := congrArg _ hd
  rw [e2]
  simp only [List.append_assoc]

theorem rawEntry_size {d : Bytes} (h1 : 20 ≤ d.length) (h2 : d.length ≤ 4096) :
    (rawEntry d).size = 4 + d.length := by
  simp only [Entry.size, rawEntry, List.length_take, List.length_drop]; omega

theorem plainEntry_payload {t : Task} {d : Bytes}
    (h : d.length ≤ 4076 - ((names t).1.length + (names t).2.length)) :
    (plainEntry t d).payload = (names t).1 ++ (names t).2 ++ d := by
  have := (names_length t).2
  simp only [plainEntry]
  rw [List.take_of_length_le (by simp only [List.length_append]; omega)]

theorem plainEntry_encode {t : Task} {d : Bytes}
    (h : d.length ≤ 4076 - ((names t).1.length + (names t).2.length)) :
    (plainEntry t d).encode =
      mkHeader t ((names t).1.length + (names t).2.length + d.length) ++ (names t).1 ++ (names t).2 ++ d := by
  unfold Entry.encode Entry.header
  rw [plainEntry_payload h]
  simp only [mkHeader, plainEntry, List.length_append, List.append_assoc, Nat.add_assoc]

end Verif.Kernel
