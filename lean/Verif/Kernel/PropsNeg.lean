import Verif.Kernel.Props

/-!
# Driver properties that are false of the code (C09, C13)

Concrete runs that refute the full claims, and the part of C13 that holds.
-/
namespace Verif.Kernel
open Verif

/-- Device, task and user data of the witnesses. -/
def wDev : Bytes := ascii "ulog_main"
def wTask : Task :=
  { pid := 20, tid := 20, sec := 7, nsec := 8, euid := 1001, pcomm := [112, 0], tcomm := [112, 0] }
def wBig : Iter := .ubuf (List.replicate 4074 (some 66))
def wJunk : Nat → UInt8 := fun _ => 0

/-- A reader is lapped and the first entry it has not lost is tiny. -/
def wOps : List Op :=
  [.openF 0 true true true, .write 0 wTask wBig wJunk, .write 0 wTask (.ubuf [some 65]) wJunk,
   .write 0 wTask wBig wJunk, .write 0 wTask wBig wJunk, .write 0 wTask wBig wJunk]

/-- C09 is false: the announced length is 27 bytes, and a read with a buffer of
27 bytes right after the query is refused, because the pending drop notice is
longer than the entry. -/
theorem C09_false : ∃ s s1 s2, Run wDev 14 wJunk wOps s (arun (ainit wDev 14) wOps).2 ∧
    step s (.getNextLen 0 0) = .ok (s1, .ret 27) ∧
    step s1 (.read 0 0 27 27) = .ok (s2, .err .einval) := by
  have hs : ∀ op ∈ wOps, op.supported = true := List.all_eq_true.mp (by decide)
  have hn : wDev.length ≤ 89 := by decide
  obtain ⟨G, s, e, hr⟩ := run_refines wOps (init_rel (name := wDev) (k := 14) wJunk (by omega) hn) hs
  obtain ⟨_, s1, e1, hr1⟩ := step_refines hr (.getNextLen 0 0) rfl
  obtain ⟨_, s2, e2, hr2⟩ := step_refines hr1 (.read 0 0 27 27) rfl
  have o1 : (astep (arun (ainit wDev 14) wOps).1 (.getNextLen 0 0)).2 = .ret 27 := by decide +kernel
  have o2 : (astep (astep (arun (ainit wDev 14) wOps).1 (.getNextLen 0 0)).1 (.read 0 0 27 27)).2 = .err .einval := by
    decide +kernel
  rw [o1] at e1
  rw [o2] at e2
  refine ⟨s, s1, s2, ⟨by omega, hn, hs, e, ?_, by decide +kernel⟩, e1, e2⟩
  have : ((obs wDev (arun (ainit wDev 14) wOps).2).hist.all
      fun e => !(e.pid == 0xffffffff && e.tid == 0xffffffff)) = true := by decide +kernel
  rw [List.all_eq_true] at this
  intro e he hc
  have := this e he
  simp [hc.1, hc.2] at this

deriving instance DecidableEq for Except

/-- The results of a run, or the fault it ended with. -/
def results (s : Sys) (ops : List Op) : Except Fault (List Out) :=
  (run s ops).map fun p => p.2.map (·.2)

/-- The calls of the C13 witness: one successful write through an iterator
that is neither user iovec nor ubuf, then reads. -/
def w13 : List Op := [.openF 0 true true true, .write 0 wTask (.other 100) wJunk]

/-- C13 is false, part one: the write reports success (0 bytes), yet the reader
receives an entry that announces 102 payload bytes, of which the last 100 were
never written by anyone: they are what the ring memory held at allocation. -/
theorem C13_false_leak : results (init wDev 14 fun _ => 0xaa) (w13 ++ [.read 0 0 5000 5000]) =
    .ok [.ok, .ret 0,
      .data ([102, 0, 24, 0, 20, 0, 0, 0, 20, 0, 0, 0, 7, 0, 0, 0, 8, 0, 0, 0, 233, 3, 0, 0, 112, 0] ++
        List.replicate 100 0xaa)] := by
  decide +kernel

/-- C13 is false, part two: the next read of that reader runs outside the ring. -/
theorem C13_false_oob : results (init wDev 14 fun _ => 0xaa)
    (w13 ++ [.read 0 0 5000 5000, .read 0 0 65536 65536]) = .error .oob := by
  decide +kernel

/-- The bytes stored before the user data: the header and the two names. -/
def storedLen (t : Task) : Nat := 24 + (names t).1.length + (names t).2.length

/-- C13, the other iterator kinds: in every state, a write of `n` bytes through
an iterator that is neither a user iovec nor a user buffer succeeds with result
0. Seen by a reader that had read everything, the queue then holds the header
and the names only, while the next entry is announced with the `n` bytes in
addition (cut to the largest payload): the entry is complete only if `n = 0`. -/
theorem C13_other {name k buf ops s tr} (h : Run name k buf ops s tr) {fid fid' : Nat} {t : Task}
    {n : Nat} {junk : Nat → UInt8} {f f' : File} {r : Reader} (euid : UInt32)
    (hf : s.files fid = some f) (hw : f.wr = true) (hraw : f.raw = false)
    (hf' : s.files fid' = some f') (hrd' : f'.rd = true)
    (hr : s.log.readers.lookup fid' = some r) (hall : r.all = true)
    (hend : step s (.check fid') = .ok (s, .block)) :
    ∃ s', step s (.write fid t (.other n) junk) = .ok (s', .ret 0) ∧
      step s' (.getLogLen fid') = .ok (s', .ret (storedLen t)) ∧
      (step s' (.getNextLen fid' euid)).map (·.2) =
        .ok (.ret (userHdrLen r.ver + min (storedLen t - 24 + n) 4076)) := by
  obtain ⟨G, a, hrel, -, -, -⟩ := h.abs
  have hl := hrel.log
  have hbig := hl.big
  have hn := names_length t
  -- the reader is at the end
  have hoff : s.log.wOff = r.off := by
    simp only [step, hf', stepFile, hrd', if_true, findReader, hr, bind, Except.bind, pure, Except.pure] at hend
    by_cases hc : s.log.wOff = r.off
    · exact hc
    · rw [if_neg hc] at hend; cases hend
  rw [hl.readers, lookup_map_snd] at hr
  obtain ⟨x, hx, hxr⟩ := Option.map_eq_some_iff.mp hr
  have hmem : (fid', x) ∈ a.log.readers := by
    obtain ⟨l1, l2, h1, -⟩ := List.lookup_eq_some_iff.mp hx
    rw [h1]; simp
  have hlive := hl.live _ hmem
  have hpos : pos a.log.hist x.idx = bytesLen a.log.hist := by
    have h1 : bytesLen a.log.hist % s.log.size = pos a.log.hist x.idx % s.log.size := by
      rw [← hl.w, hoff, ← hxr]; rfl
    have h2 := hlive.2
    have h3 := hl.hW
    have h4 := pos_le a.log.hist x.idx
    dsimp only at h2
    have h5 := Nat.sub_mod_eq_zero_of_mod_eq h1
    rw [Nat.mod_eq_of_lt (by omega)] at h5
    omega
  have hdrop : bytesLen (a.log.hist.drop x.idx) = 0 := by
    have := pos_add_drop a.log.hist x.idx
    omega
  -- the write
  generalize hhl : min ((names t).1.length + (names t).2.length + n) 4076 = hl0
  obtain ⟨l1, he1, hr1, hb1, hs1, hw1⟩ := fixUp_ok (len := hdrSize + hl0) hl
    (by unfold hdrSize; omega) (by unfold hdrSize; omega)
  obtain ⟨b2, pre, room, he2, hwr, hp, -⟩ := writePrefix_ok (k := k) (l := l1) (w := bytesLen a.log.hist)
    false t hl0 hr1.size (by omega) hr1.w (fun _ => by omega)
  simp only [Bool.false_eq_true, if_false] at hp
  have hpl : pre.length = storedLen t := by
    rw [hp]; simp only [List.length_append, storedLen]; rfl
  have hp56 : storedLen t ≤ 58 := by unfold storedLen; omega
  have hp24 : 24 < storedLen t := by unfold storedLen; omega
  have hstep : step s (.write fid t (.other n) junk) =
      .ok ({ s with log := { l1 with buf := b2, wOff := (bytesLen a.log.hist + storedLen t) % l1.size } }, .ret 0) := by
    have hel : entryLen false t n = hl0 := by
      rw [← hhl]; rfl
    simp only [step, hf, stepFile, hw, if_true, writeEntry, hraw, Iter.count, Bool.false_and, Bool.false_eq_true,
      if_false, hel, writeIter]
    rw [if_neg (by omega), he1]
    simp only [bind, Except.bind, pure, Except.pure]
    rw [he2, hpl]
  have hpush : apush a.log.size a.log.hist (hdrSize + hl0) x.idx = 0 := by
    have : a.log.size = s.log.size := by rw [hl.size, hl.asize]
    unfold apush
    rw [if_neg (by rw [hdrop]; unfold hdrSize; omega)]
  have hlook : l1.readers.lookup fid' = some r := by
    rw [hr1.readers, lookup_map_snd]
    have h1 : (a.log.pushAll (hdrSize + hl0)).readers.lookup fid' = some x := by
      have := find_push (l := a.log) (len := hdrSize + hl0) (fid := fid') (x := x) hx
      rw [show pushed a.log (hdrSize + hl0) x = x by simp only [pushed, hpush, Nat.add_zero]] at this
      exact this
    rw [h1, hs1]
    simp only [Option.map_some, ALog.pushAll]
    rw [hxr]
  have hro : r.off = bytesLen a.log.hist % l1.size := by rw [hs1, ← hoff, hl.w]
  have hlt : bytesLen a.log.hist % l1.size < l1.size := Nat.mod_lt _ (by omega)
  have hmod : (bytesLen a.log.hist + storedLen t) % l1.size =
      if bytesLen a.log.hist % l1.size + storedLen t < l1.size
        then bytesLen a.log.hist % l1.size + storedLen t
        else bytesLen a.log.hist % l1.size + storedLen t - l1.size := by
    rw [Nat.add_mod, Nat.mod_eq_of_lt (a := storedLen t) (by omega)]
    split
    · rw [Nat.mod_eq_of_lt (by omega)]
    · rw [Nat.mod_eq_sub_mod (by omega), Nat.mod_eq_of_lt (by omega)]
  refine ⟨_, hstep, ?_, ?_⟩
  · simp only [step, hf', stepFile, hrd', if_true, findReader, hlook, bind, Except.bind, pure, Except.pure]
    congr 3
    rw [hro, hmod]
    split <;> split <;> omega
  · have hne : (bytesLen a.log.hist + storedLen t) % l1.size ≠ r.off := by
      rw [hro, hmod]; split <;> omega
    simp only [step, hf', stepFile, hrd', if_true, findReader, hlook, bind, Except.bind, pure, Except.pure,
      skipForeign, hall, hne, ne_eq, not_false_eq_true, getEntryMsgLen]
    rw [hro, getEntryHeader_ring (l := { l1 with buf := b2, wOff := (bytesLen a.log.hist + storedLen t) % l1.size })
      (by simp only; omega)]
    have hring : ring l1.size b2 (bytesLen a.log.hist) 24 = mkHeader t hl0 := by
      apply List.ext_getElem?
      intro i
      by_cases hi : i < 24
      · have h1 := hwr.2 i (by omega)
        rw [hp, List.append_assoc, List.getElem?_append_left (by show i < 24; exact hi)] at h1
        rw [h1]
        simp [ring, hi]
      · rw [List.getElem?_eq_none (by simp [ring]; omega), List.getElem?_eq_none (by show 24 ≤ i; omega)]
    simp only [hring]
    have : hLen (mkHeader t hl0) = hl0 := by
      have := unle16_le16 (n := hl0) (by omega)
      exact this
    rw [this]
    simp only [Except.map]
    congr 3
    rw [← hhl]
    unfold storedLen
    congr 1
    omega

/-- The hypotheses of `C13_other` are met by a fresh device opened for reading
and writing. -/
example : ∃ s r, Run wDev 14 wJunk [.openF 0 true true true] s [(.openF 0 true true true, .ok)] ∧
    s.files 0 = some { rd := true, wr := true, raw := false } ∧ s.log.readers.lookup 0 = some r ∧ r.all = true ∧
    step s (.check 0) = .ok (s, .block) :=
  ⟨_, _, ⟨by omega, by decide, List.all_eq_true.mp (by decide), rfl, (by intro e he; cases he), by decide⟩,
    rfl, rfl, rfl, rfl⟩

/-- C13: for user iovecs and single user buffers, a write that reports
success and stored something is delivered last, with a header whose length field
is the number of payload bytes that follow. For the other iterator kinds see
`C13_other`. -/
theorem C13_complete {name k buf ops s tr} (h : Run name k buf ops s tr) {fid : Nat} {t : Task} {it : Iter}
    {junk : Nat → UInt8} {s' : Sys} {n : Nat} (hit : it.supported = true)
    (hs : step s (.write fid t it junk) = .ok (s', .ret n)) (hne : (obs name tr).raw fid = true → n ≠ 0)
    {fid' : Nat} {euid : UInt32} {count : Nat} {r : RObs} {l : List Bytes}
    (hr : (obs name tr).rds fid' = some r) (hall : r.all = true) (hv : r.ver = 2) (hcount : 4100 ≤ count)
    (hd : Drains fid' euid count s' l) :
    ∃ l' bs, l = l' ++ [bs] ∧ unle16 (bs.getD 0 0) (bs.getD 1 0) = bs.length - 24 ∧ 24 < bs.length := by
  obtain ⟨G, a, f, hrel, hinv, hname, hsz, hf, hfr, h1, G', hrel'⟩ := h.write hit hs (by simp)
  rw [← hfr] at hne
  obtain ⟨l', hl⟩ := write_drain hinv hr hall hcount h1 hne hrel' hd
  refine ⟨l', _, hl, ?_⟩
  rw [hv]
  have key : ∀ e : Entry, e.wf → 0 < e.payload.length →
      unle16 ((e.view 2).getD 0 0) ((e.view 2).getD 1 0) = (e.view 2).length - 24 ∧ 24 < (e.view 2).length := by
    intro e hw h0
    have hp : e.payload.length ≤ 4076 := hw
    rw [view_length]
    have := unle16_le16 (n := e.payload.length) (by omega)
    simp only [userHdrLen]
    exact ⟨this.trans (by simp), by simp; omega⟩
  rcases awrite_cases a.log f.raw t it with ⟨e, hc, _⟩ | ⟨e, hc, _⟩ | ⟨en, m, e, hen, hwf, hm, hraw, _⟩ | ⟨en, m, e, _⟩
  · rw [e] at h1; cases h1
  · rw [e] at h1
    simp only [Out.ret.injEq] at h1
    exact absurd h1.symm (hne hc)
  · rw [← hen]
    refine key en hwf ?_
    rw [hen]
    cases hb : f.raw with
    | true =>
      have hb' : it.bytes.length = it.data.length := by simp [Iter.bytes]
      have := hraw hb
      simp only [if_true, rawSpec, List.length_take, List.length_drop]
      omega
    | false =>
      simp only [Bool.false_eq_true, if_false, plainSpec, specPayload, List.length_take, List.length_append,
        List.length_cons]
      omega
  · rw [e] at h1; cases h1

/-- The hypotheses of `C13_complete` are met by the small writes of
`wOps` (see also Examples.lean for the other theorems). -/
example : ∃ s s', Run wDev 14 wJunk [.openF 0 true true true] s [(.openF 0 true true true, .ok)] ∧
    step s (.write 0 wTask (.ubuf [some 65]) wJunk) = .ok (s', .ret 1) := by
  obtain ⟨G, s, e, hr⟩ := run_refines [.openF 0 true true true]
    (init_rel (name := wDev) (k := 14) wJunk (by omega) (by decide)) (List.all_eq_true.mp (by decide))
  obtain ⟨_, s1, e1, hr1⟩ := step_refines hr (.write 0 wTask (.ubuf [some 65]) wJunk) rfl
  exact ⟨s, s1, ⟨by omega, by decide, List.all_eq_true.mp (by decide), e, (by intro e he; cases he), by decide⟩, e1⟩

end Verif.Kernel
