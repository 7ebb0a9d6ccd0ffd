import Verif.Libulog.Bin
import Verif.Libulog.PropsEnd

/-!
# Chunked binary writes (C29, C30)
-/
namespace Verif.Libulog
open Verif Verif.Kernel

/-! ## Specification -/

/-- A block cut in pieces of `m` bytes, the last one possibly shorter. -/
def pieces (m : Nat) (l : Bytes) : List Bytes :=
  if h : m = 0 ∨ l = [] then [] else l.take m :: pieces m (l.drop m)
termination_by l.length
decreasing_by
  have : l.length ≠ 0 := fun hx => h (Or.inr (List.length_eq_zero_iff.mp hx))
  rw [List.length_drop]; omega

/-- The bytes of the `i`-th chunk. -/
def chunkBytes (hdr : Bytes) (i : Nat) (piece : Bytes) : Bytes := hdr ++ [UInt8.ofNat i] ++ piece

theorem pieces_nil (m : Nat) : pieces m [] = [] := by unfold pieces; simp

theorem pieces_cons {m : Nat} {l : Bytes} (hm : m ≠ 0) (hl : l ≠ []) :
    pieces m l = l.take m :: pieces m (l.drop m) := by
  conv => lhs; unfold pieces
  rw [dif_neg (by simp [hm, hl])]

/-! ## Proof -/

/-- Bytes of `iov` from position (`idx`, `off`). -/
def restOf (iov : List Bytes) (idx off : Nat) : Bytes := (iov.drop idx).flatten.drop off

theorem restOf_split {iov : List Bytes} {idx off : Nat} {b : Bytes} (h : iov[idx]? = some b) (ho : off ≤ b.length) :
    restOf iov idx off = b.drop off ++ restOf iov (idx + 1) 0 := by
  obtain ⟨hi, hb⟩ := List.getElem?_eq_some_iff.mp h
  unfold restOf
  rw [List.drop_eq_getElem_cons hi, hb, List.flatten_cons, List.drop_append_of_le_length ho, List.drop_zero]

/-- Position (`idx`, `off`) is inside the vector. -/
def PosOk (iov : List Bytes) (idx off : Nat) : Prop :=
  idx ≤ iov.length ∧ (∀ b, iov[idx]? = some b → off ≤ b.length) ∧ (iov[idx]? = none → off = 0)

theorem fillChunk_ok (iov : List Bytes) (cap : Nat) : ∀ (fuel idx off rem : Nat) (acc : List Bytes),
    PosOk iov idx off → iov.length - idx < fuel → iov.length - idx + acc.length ≤ cap →
    rem ≤ (restOf iov idx off).length →
    ∃ v idx' off', fillChunk iov cap fuel idx off rem acc = .ok (v, idx', off') ∧ PosOk iov idx' off' ∧
      v.flatten = acc.flatten ++ (restOf iov idx off).take rem ∧
      restOf iov idx' off' = (restOf iov idx off).drop rem ∧ v.length ≤ iov.length - idx + acc.length := by
  intro fuel
  induction fuel with
  | zero => intro idx off rem acc _ h; omega
  | succ fuel ih =>
    intro idx off rem acc hp hf hc hr
    cases rem with
    | zero => exact ⟨acc, idx, off, by simp [fillChunk], hp, by simp, by simp, by omega⟩
    | succ rem =>
      obtain ⟨p1, p2, p3⟩ := hp
      cases hb : iov[idx]? with
      | none =>
        have := p3 hb
        have hi : iov.length ≤ idx := List.getElem?_eq_none_iff.mp hb
        subst this
        unfold restOf at hr
        rw [List.drop_eq_nil_of_le hi] at hr
        simp at hr
      | some b =>
        obtain ⟨hi, _⟩ := List.getElem?_eq_some_iff.mp hb
        have ho := p2 b hb
        have hsplit := restOf_split hb ho
        simp only [fillChunk, hb]
        rw [if_neg (by omega), if_neg (by omega)]
        by_cases hlt : b.length - off < rem + 1
        · rw [if_pos hlt, if_pos (by omega)]
          have hpos : PosOk iov (idx + 1) 0 := ⟨by omega, fun _ _ => by omega, fun _ => rfl⟩
          have htk : (b.drop off).take (b.length - off) = b.drop off := by
            rw [List.take_of_length_le (by simp)]
          obtain ⟨v, i', o', e1, e2, e3, e4, e5⟩ := ih (idx + 1) 0 (rem + 1 - (b.length - off))
            (acc ++ [(b.drop off).take (b.length - off)]) hpos (by omega) (by simp; omega) (by
              rw [hsplit] at hr
              simp only [List.length_append, List.length_drop] at hr
              omega)
          refine ⟨v, i', o', e1, e2, ?_, ?_, by simp only [List.length_append, List.length_singleton] at e5; omega⟩
          · rw [e3, htk, hsplit, List.take_append]
            simp only [List.flatten_append, List.flatten_cons, List.flatten_nil, List.append_nil, List.length_drop,
              List.append_assoc]
            rw [List.take_of_length_le (l := List.drop off b) (by simp; omega)]
          · rw [e4, hsplit, List.drop_append, List.length_drop,
              List.drop_eq_nil_of_le (as := List.drop off b) (by simp; omega), List.nil_append]
        · rw [if_neg hlt]
          have hnil : ∀ v i o, fillChunk iov cap fuel i o 0 v = .ok (v, i, o) := by
            intro v i o; cases fuel <;> rfl
          rw [show rem + 1 - (rem + 1) = 0 by omega, hnil, hnil]
          have htake : (restOf iov idx off).take (rem + 1) = (b.drop off).take (rem + 1) := by
            rw [hsplit, List.take_append_of_le_length (by rw [List.length_drop]; omega)]
          have hdrop : (restOf iov idx off).drop (rem + 1) = b.drop (off + (rem + 1)) ++ restOf iov (idx + 1) 0 := by
            rw [hsplit, List.drop_append_of_le_length (by rw [List.length_drop]; omega), List.drop_drop]
          by_cases he : off + (rem + 1) = b.length
          · rw [if_pos he]
            refine ⟨_, _, _, rfl, ⟨by omega, fun _ _ => by omega, fun _ => rfl⟩, ?_, ?_, by simp; omega⟩
            · rw [htake]; simp
            · rw [hdrop, he, List.drop_eq_nil_of_le (Nat.le_refl _), List.nil_append]
          · rw [if_neg he]
            refine ⟨_, _, _, rfl, ⟨p1, ?_, ?_⟩, ?_, ?_, by simp; omega⟩
            · intro b' hb'
              rw [hb] at hb'
              injection hb' with hb'
              subst hb'
              omega
            · intro hx; rw [hb] at hx; cases hx
            · rw [htake]; simp
            · rw [hdrop]
              exact restOf_split hb (by omega)

/-- The first vectors up to and including the first failed one. -/
def upToFailure (res : Nat → Int) : Nat → List Bytes → Int × List Bytes
  | _, [] => (0, [])
  | i, v :: l => if res i < 0 then (res i, [v]) else ((upToFailure res (i + 1) l).1, v :: (upToFailure res (i + 1) l).2)

theorem chunkLoop_ok (hdr : Bytes) (iov : List Bytes) {m : Nat} (hm : m ≠ 0) (res : Nat → Int) :
    ∀ (fuel i idx off total : Nat), PosOk iov idx off → total ≤ fuel → total = (restOf iov idx off).length →
    ∃ l, chunkLoop hdr iov m res fuel i (UInt8.ofNat i) idx off total =
        .ok ((upToFailure res i ((pieces m (restOf iov idx off)).mapIdx fun j p => chunkBytes hdr (i + j) p)).1, l) ∧
      l.map List.flatten =
        (upToFailure res i ((pieces m (restOf iov idx off)).mapIdx fun j p => chunkBytes hdr (i + j) p)).2 ∧
      ∀ v ∈ l, v.length ≤ iov.length + 2 := by
  intro fuel
  induction fuel with
  | zero =>
    intro i idx off total hp ht hr
    have h0 : total = 0 := by omega
    subst h0
    rw [List.length_eq_zero_iff.mp hr.symm, pieces_nil]
    exact ⟨[], rfl, rfl, by simp⟩
  | succ fuel ih =>
    intro i idx off total hp ht hr
    cases total with
    | zero =>
      rw [List.length_eq_zero_iff.mp hr.symm, pieces_nil]
      exact ⟨[], rfl, rfl, by simp⟩
    | succ total =>
      have hne : restOf iov idx off ≠ [] := fun hx => by rw [hx] at hr; simp at hr
      generalize hcl : (if total + 1 < m then total + 1 else m) = cl
      have hcl1 : cl ≤ total + 1 ∧ 0 < cl ∧ (restOf iov idx off).take cl = (restOf iov idx off).take m ∧
          (restOf iov idx off).drop cl = (restOf iov idx off).drop m := by
        split at hcl
        · subst hcl
          refine ⟨by omega, by omega, ?_, ?_⟩
          · rw [List.take_of_length_le (by omega), List.take_of_length_le (by omega)]
          · rw [List.drop_eq_nil_of_le (by omega), List.drop_eq_nil_of_le (by omega)]
        · subst hcl
          exact ⟨by omega, by omega, rfl, rfl⟩
      obtain ⟨c1, c2, c3, c4⟩ := hcl1
      generalize hst : (if hdr.length > 0 then [hdr] else []) ++ [[UInt8.ofNat i]] = start
      have hst1 : start.length ≤ 2 ∧ start.flatten = hdr ++ [UInt8.ofNat i] := by
        rw [← hst]
        split
        · simp
        · have : hdr = [] := List.length_eq_zero_iff.mp (by omega)
          simp [this]
      obtain ⟨v, idx', off', e1, e2, e3, e4, e5⟩ := fillChunk_ok iov (iov.length + 2) (iov.length + 1) idx off cl start
        hp (by omega) (by omega) (by omega)
      rw [pieces_cons hm hne]
      simp only [chunkLoop, hcl, hst, e1, bind, Except.bind, List.mapIdx_cons, Nat.add_zero, upToFailure]
      have hv : v.flatten = chunkBytes hdr i ((restOf iov idx off).take m) := by
        rw [e3, hst1.2, c3]; rfl
      by_cases hres : res i < 0
      · rw [if_pos hres, if_pos hres]
        exact ⟨[v], rfl, by simp [hv], by
          intro w hw; simp at hw; subst hw; omega⟩
      · rw [if_neg hres, if_neg hres]
        have hi1 : (UInt8.ofNat i + 1) = UInt8.ofNat (i + 1) := by
          apply UInt8.toNat_inj.mp; simp
        rw [hi1]
        obtain ⟨l, f1, f2, f3⟩ := ih (i + 1) idx' off' (total + 1 - cl) e2 (by omega) (by
          rw [e4, List.length_drop]; omega)
        rw [e4, c4] at f1 f2
        have hfun : (fun j p => chunkBytes hdr (i + (j + 1)) p) = fun j p => chunkBytes hdr (i + 1 + j) p := by
          funext j p; rw [show i + (j + 1) = i + 1 + j by omega]
        rw [hfun, f1]
        refine ⟨v :: l, rfl, ?_, ?_⟩
        · simp [hv, f2]
        · intro w hw
          rcases List.mem_cons.mp hw with hw | hw
          · subst hw; omega
          · exact f3 w hw

/-! ## C29 -/

theorem sum_length (iov : List Bytes) : (iov.map List.length).sum = iov.flatten.length := by
  simp [List.length_flatten]

/-- C29. The chunked write never faults (no overrun of the temporary vector, no
read past the buffers, no endless loop). With a tag and header that leave room,
what it hands to `ulog_bin_writev`, as bytes, is header, index and consecutive
pieces of the concatenated buffers, up to and including the first one refused,
whose error is returned. -/
theorem C29_chunks (tagsize : Nat) (hdr : Bytes) (iov : List Bytes) (res : Nat → Int)
    (hroom : 37 + tagsize + hdr.length < 4076) :
    ∃ l, writevChunk tagsize hdr iov res =
        .ok ((upToFailure res 0
          ((pieces (4076 - (37 + tagsize + hdr.length)) iov.flatten).mapIdx fun j p => chunkBytes hdr j p)).1, l) ∧
      l.map List.flatten = (upToFailure res 0
          ((pieces (4076 - (37 + tagsize + hdr.length)) iov.flatten).mapIdx fun j p => chunkBytes hdr j p)).2 ∧
      ∀ v ∈ l, v.length ≤ iov.length + 2 := by
  have hm : maxChunkLen tagsize hdr.length = 4076 - (37 + tagsize + hdr.length) := by
    unfold maxChunkLen maxPayload
    dsimp only
    split <;> omega
  unfold writevChunk
  simp only [hm]
  rw [if_neg (by omega)]
  have h0 : restOf iov 0 0 = iov.flatten := by simp [restOf]
  have hpos : PosOk iov 0 0 := ⟨by omega, fun _ _ => by omega, fun _ => rfl⟩
  have := chunkLoop_ok hdr iov (m := 4076 - (37 + tagsize + hdr.length)) (by omega) res
    (iov.map List.length).sum 0 0 0 (iov.map List.length).sum hpos (Nat.le_refl _) (by rw [h0, sum_length])
  rw [h0] at this
  simp only [Nat.zero_add] at this
  exact this

/-- C29. When header and tag leave no room, `-EINVAL` and nothing is written. -/
theorem C29_no_room (tagsize : Nat) (hdr : Bytes) (iov : List Bytes) (res : Nat → Int)
    (hroom : ¬ 37 + tagsize + hdr.length < 4076) : writevChunk tagsize hdr iov res = .ok (-22, []) := by
  have hm : maxChunkLen tagsize hdr.length = 0 := by
    unfold maxChunkLen maxPayload
    dsimp only
    split <;> omega
  unfold writevChunk
  simp only [hm, if_true, einval]

theorem pieces_spec {m : Nat} (hm : m ≠ 0) (l : Bytes) :
    (pieces m l).flatten = l ∧ (∀ p ∈ pieces m l, p.length ≤ m ∧ p ≠ []) ∧
      (∀ p ∈ (pieces m l).dropLast, p.length = m) ∧ (pieces m l = [] ↔ l = []) := by
  induction hn : l.length using Nat.strongRecOn generalizing l with
  | _ n ih =>
    by_cases hl : l = []
    · subst hl; rw [pieces_nil]; simp
    · have hpos : 0 < l.length := List.length_pos_iff.mpr hl
      rw [pieces_cons hm hl]
      obtain ⟨i1, i2, i3, i4⟩ := ih (l.drop m).length (by rw [List.length_drop]; omega) (l.drop m) rfl
      refine ⟨by simp [i1], ?_, ?_, by simp [hl]⟩
      · intro p hp
        rcases List.mem_cons.mp hp with hp | hp
        · subst hp
          refine ⟨by rw [List.length_take]; omega, fun hx => ?_⟩
          have := congrArg List.length hx
          rw [List.length_take, List.length_nil] at this
          omega
        · exact i2 p hp
      · intro p hp
        by_cases hr : pieces m (l.drop m) = []
        · rw [hr] at hp; simp at hp
        · rw [List.dropLast_cons_of_ne_nil hr] at hp
          rcases List.mem_cons.mp hp with hp | hp
          · subst hp
            have : l.drop m ≠ [] := fun hx => hr (i4.mpr hx)
            have := List.length_pos_iff.mpr this
            rw [List.length_drop] at this
            rw [List.length_take]; omega
          · exact i3 p hp

theorem upToFailure_ok {res : Nat → Int} (h : ∀ i, 0 ≤ res i) (i : Nat) (l : List Bytes) :
    upToFailure res i l = (0, l) := by
  induction l generalizing i with
  | nil => rfl
  | cons v l ih =>
    have := h i
    simp only [upToFailure, ih]
    rw [if_neg (by omega)]

theorem upToFailure_err (res : Nat → Int) (i : Nat) (l : List Bytes) :
    ((upToFailure res i l).1 = 0 ∧ (upToFailure res i l).2 = l ∧ ∀ j < l.length, 0 ≤ res (i + j)) ∨
      ∃ k < l.length, (upToFailure res i l).1 = res (i + k) ∧ (upToFailure res i l).1 < 0 ∧
        (upToFailure res i l).2 = l.take (k + 1) ∧ ∀ j < k, 0 ≤ res (i + j) := by
  induction l generalizing i with
  | nil => exact Or.inl ⟨rfl, rfl, by simp⟩
  | cons v l ih =>
    simp only [upToFailure]
    split
    · rename_i hres
      exact Or.inr ⟨0, by simp, rfl, hres, by simp, by simp⟩
    · rename_i hres
      rcases ih (i + 1) with ⟨a, b, c⟩ | ⟨k, a, b, c, d, e⟩
      · refine Or.inl ⟨a, by rw [b], ?_⟩
        intro j hj
        cases j with
        | zero => simpa using hres
        | succ j =>
          have := c j (by simpa using hj)
          rw [show i + (j + 1) = i + 1 + j by omega]; exact this
      · refine Or.inr ⟨k + 1, by simpa using a, ?_, c, by rw [d]; simp, ?_⟩
        · rw [b, show i + (k + 1) = i + 1 + k by omega]
        · intro j hj
          cases j with
          | zero => simpa using hres
          | succ j =>
            have := e j (by omega)
            rw [show i + (j + 1) = i + 1 + j by omega]; exact this

/-- C29, nothing lost. When every write succeeds the call returns 0 and the
vectors written are, as bytes, header, index modulo 256 and a non-empty piece;
the pieces concatenate to the given buffers; only the last is short. -/
theorem C29_lossless (tagsize : Nat) (hdr : Bytes) (iov : List Bytes) (res : Nat → Int)
    (hroom : 37 + tagsize + hdr.length < 4076) (hres : ∀ i, 0 ≤ res i) :
    ∃ (l : List (List Bytes)) (ps : List Bytes), writevChunk tagsize hdr iov res = .ok (0, l) ∧ ps.flatten = iov.flatten ∧ l.length = ps.length ∧
      (∀ (i : Nat) (v : List Bytes), l[i]? = some v →
        ∃ p, ps[i]? = some p ∧ v.flatten = hdr ++ [UInt8.ofNat i] ++ p) ∧
      (∀ p ∈ ps, p ≠ [] ∧ 37 + tagsize + hdr.length + p.length ≤ 4076) ∧
      (∀ p ∈ ps.dropLast, 37 + tagsize + hdr.length + p.length = 4076) := by
  obtain ⟨l, h1, h2, h3⟩ := C29_chunks tagsize hdr iov res hroom
  rw [upToFailure_ok hres] at h1 h2
  obtain ⟨s1, s2, s3, _⟩ := pieces_spec (m := 4076 - (37 + tagsize + hdr.length)) (by omega) iov.flatten
  refine ⟨l, _, h1, s1, ?_, ?_, ?_, ?_⟩
  · have := congrArg List.length h2
    simpa using this
  · intro i v hv
    have h4 : (l.map List.flatten)[i]? = some v.flatten := by rw [List.getElem?_map, hv]; rfl
    rw [h2, List.getElem?_mapIdx] at h4
    cases hp : (pieces (4076 - (37 + tagsize + hdr.length)) iov.flatten)[i]? with
    | none => rw [hp] at h4; simp at h4
    | some p =>
      rw [hp] at h4
      simp only [Option.map_some, Option.some.injEq] at h4
      exact ⟨p, rfl, h4.symm⟩
  · intro p hp
    have := s2 p hp
    exact ⟨this.2, by omega⟩
  · intro p hp
    have := s3 p hp
    omega

/-- C29, on error. The result of a chunked write whose `k`-th vector is the
first refused is that error, and exactly `k + 1` vectors, the ones that would
have been written anyway, were tried. -/
theorem C29_error (tagsize : Nat) (hdr : Bytes) (iov : List Bytes) (res : Nat → Int)
    (hroom : 37 + tagsize + hdr.length < 4076) {r : Int} {l l0 : List (List Bytes)}
    (h : writevChunk tagsize hdr iov res = .ok (r, l)) (h0 : writevChunk tagsize hdr iov (fun _ => 0) = .ok (0, l0)) :
    (r = 0 ∧ l.map List.flatten = l0.map List.flatten ∧ ∀ j < l0.length, 0 ≤ res j) ∨
      ∃ k < l0.length, r = res k ∧ r < 0 ∧ l.map List.flatten = (l0.map List.flatten).take (k + 1) ∧
        ∀ j < k, 0 ≤ res j := by
  obtain ⟨l1, h1, h2, _⟩ := C29_chunks tagsize hdr iov res hroom
  obtain ⟨l2, g1, g2, _⟩ := C29_chunks tagsize hdr iov (fun _ => 0) hroom
  rw [upToFailure_ok (by simp)] at g1 g2
  rw [h] at h1
  rw [h0] at g1
  simp only [Except.ok.injEq, Prod.mk.injEq] at h1 g1
  rw [← h1.2] at h2
  rw [← g1.2] at g2
  have hlen := congrArg List.length g2
  simp only [List.length_map] at hlen
  rw [g2, h2, h1.1]
  rcases upToFailure_err res 0 _ with ⟨a, b, c⟩ | ⟨k, a, b, c, d, e⟩
  · refine Or.inl ⟨a, b, ?_⟩
    rw [hlen]
    simpa using c
  · refine Or.inr ⟨k, by rw [hlen]; exact a, by simpa using b, c, d, by simpa using e⟩

/-- C29, no chunk is truncated: written by any task whose names fit
`TASK_COMM_LEN` with their NUL, every chunk is decoded by every reader as one
binary entry holding header, index and its whole piece. -/
theorem C29_read {name k buf ops s tr} (h : Run name k buf ops s tr) {fid : Nat} {t : Task} {junk : Nat → UInt8}
    {s' : Sys} {n : Nat} {tag hdr : Bytes} {iov : List Bytes}
    (hc1 : 0 ∈ t.pcomm.take 16) (hc2 : 0 ∈ t.tcomm.take 16)
    {res : Nat → Int} {ret : Int} {l : List (List Bytes)} {i : Nat} {v : List Bytes}
    (hw : writevChunk (tag.length + 1) hdr iov res = .ok (ret, l)) (hv : l[i]? = some v)
    (hs : step s (.write fid t (userVec (binWritev (tag ++ [0]) v)) junk) = .ok (s', .ret n))
    (hraw : (obs name tr).raw fid = false) (ht : NoNul tag)
    {fid' : Nat} {euid : UInt32} {count : Nat} {r : RObs} {d : List Bytes}
    (hr : (obs name tr).rds fid' = some r) (hall : r.all = true) (hver : r.ver = 2) (hc : 4100 ≤ count)
    (hd : Drains fid' euid count s' d) :
    ∃ p d' bs, (pieces (4076 - (38 + tag.length + hdr.length)) iov.flatten)[i]? = some p ∧ d = d' ++ [bs] ∧
      ReadsAs bs t.pid t.tid t.sec t.nsec
      { pname := taskName t.pcomm, tname := if t.pid = t.tid then taskName t.pcomm else taskName t.tcomm, tag
        level := 6, color := 0, msg := .bin (hdr ++ [UInt8.ofNat i] ++ p) } := by
  by_cases hroom : 37 + (tag.length + 1) + hdr.length < 4076
  · obtain ⟨l', h1, h2, _⟩ := C29_chunks (tag.length + 1) hdr iov res hroom
    rw [hw] at h1
    simp only [Except.ok.injEq, Prod.mk.injEq] at h1
    rw [← h1.2] at h2
    have h4 : (l.map List.flatten)[i]? = some v.flatten := by rw [List.getElem?_map, hv]; rfl
    rw [h2] at h4
    have hpre : ∀ (i : Nat) (L : List Bytes), (upToFailure res i L).2 <+: L := by
      intro i L
      rcases upToFailure_err res i L with ⟨_, b, _⟩ | ⟨k, _, _, _, d, _⟩
      · rw [b]; exact List.prefix_refl _
      · rw [d]; exact List.take_prefix _ _
    obtain ⟨z, hz⟩ := hpre 0 ((pieces (4076 - (37 + (tag.length + 1) + hdr.length)) iov.flatten).mapIdx
      fun j p => chunkBytes hdr j p)
    have hlt := (List.getElem?_eq_some_iff.mp h4).1
    have h5 := h4
    rw [← List.getElem?_append_left (l₂ := z) hlt, hz, List.getElem?_mapIdx] at h5
    rw [show 37 + (tag.length + 1) + hdr.length = 38 + tag.length + hdr.length by omega] at h5
    cases hp : (pieces (4076 - (38 + tag.length + hdr.length)) iov.flatten)[i]? with
    | none => rw [hp] at h5; simp at h5
    | some p =>
      rw [hp] at h5
      simp only [Option.map_some, Option.some.injEq] at h5
      have hpl := ((pieces_spec (m := 4076 - (38 + tag.length + hdr.length)) (by omega) iov.flatten).2.1 p
        (List.mem_of_getElem? hp)).1
      have hvl : v.flatten.length = hdr.length + 1 + p.length := by
        rw [← h5]; simp [chunkBytes]; omega
      have htn : ∀ c : Bytes, 0 ∈ c.take 16 → (taskName c).length ≤ 15 := by
        intro c hc
        unfold taskName
        rcases Nat.lt_or_ge (List.takeWhile (fun x => x != 0) (List.take 16 c)).length 16 with hlt | hge
        · omega
        · exfalso
          have hpx := List.takeWhile_prefix (fun x : UInt8 => x != 0) (l := List.take 16 c)
          have heq : List.takeWhile (fun x => x != 0) (List.take 16 c) = List.take 16 c := by
            apply List.IsPrefix.eq_of_length hpx
            have := hpx.length_le
            rw [List.length_take] at this ⊢
            omega
          rw [← heq] at hc
          have := List.all_eq_true.mp (List.all_takeWhile (p := fun x : UInt8 => x != 0) (l := List.take 16 c)) 0 hc
          simp at this
      have hpx : prefixLen t ≤ 32 := by
        have a := htn _ hc1
        have b := htn _ hc2
        unfold prefixLen
        split <;> omega
      obtain ⟨d', bs, e1, e2⟩ := C31_bin h hs hraw ht (by omega) hr hall hver hc hd
      refine ⟨p, d', bs, rfl, e1, ?_⟩
      rw [← h5] at e2
      exact e2
  · rw [C29_no_room (tag.length + 1) hdr iov res hroom] at hw
    simp only [Except.ok.injEq, Prod.mk.injEq] at hw
    rw [← hw.2] at hv
    simp at hv

/-! ## C30 -/

/-- C30 is false: a chunked write of one empty buffer succeeds and writes nothing. -/
theorem C30_false : writevChunk 4 (ascii "hdr") [[], []] (fun _ => 0) = .ok (0, []) := rfl

/-- C30: a chunked write that succeeds writes at least one entry exactly when
some buffer is not empty. -/
theorem C30_emits (tagsize : Nat) (hdr : Bytes) (iov : List Bytes) (res : Nat → Int) {l : List (List Bytes)}
    (h : writevChunk tagsize hdr iov res = .ok (0, l)) : l ≠ [] ↔ iov.flatten ≠ [] := by
  by_cases hroom : 37 + tagsize + hdr.length < 4076
  · obtain ⟨l', h1, h2, _⟩ := C29_chunks tagsize hdr iov res hroom
    rw [h] at h1
    simp only [Except.ok.injEq, Prod.mk.injEq] at h1
    rw [← h1.2] at h2
    have hp := (pieces_spec (m := 4076 - (37 + tagsize + hdr.length)) (by omega) iov.flatten).2.2.2
    cases hq : pieces (4076 - (37 + tagsize + hdr.length)) iov.flatten with
    | nil =>
      rw [hq] at h2
      simp only [List.mapIdx_nil, upToFailure] at h2
      have : l = [] := by simpa using h2
      exact ⟨fun hl => absurd this hl, fun hn => absurd (hp.mp hq) hn⟩
    | cons a b =>
      rw [hq] at h2
      simp only [List.mapIdx_cons, upToFailure] at h2
      refine ⟨fun _ hn => ?_, fun _ hl => ?_⟩
      · rw [hp.mpr hn] at hq; cases hq
      · subst hl
        split at h2 <;> simp at h2
  · rw [C29_no_room tagsize hdr iov res hroom] at h
    simp at h

/-! ## Examples -/

/-- Three buffers, one empty, in three chunks; the tag leaves room for four bytes a chunk. -/
example : writevChunk 4034 [9] [[1, 2, 3], [], [4, 5, 6, 7, 8, 10]] (fun _ => 0) =
    .ok (0, [[[9], [0], [1, 2, 3], [], [4]], [[9], [1], [5, 6, 7, 8]], [[9], [2], [10]]]) ∧
    37 + 4034 + 1 < 4076 := ⟨rfl, by decide⟩

/-- The second write fails. -/
example : writevChunk 4034 [9] [[1, 2, 3], [], [4, 5, 6, 7, 8, 10]] (fun i => if i = 1 then -11 else 0) =
    .ok (-11, [[[9], [0], [1, 2, 3], [], [4]], [[9], [1], [5, 6, 7, 8]]]) := rfl

/-- `C29_no_room` -/
example : ¬ 37 + 4030 + ([9, 9, 9, 9, 9, 9, 9, 9, 9] : Bytes).length < 4076 := by decide

end Verif.Libulog
