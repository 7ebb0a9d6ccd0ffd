import Verif.Kernel.Reach

/-!
# Driver properties (C01, C02, C04 - C12, C16)

Every statement is about the driver model `run`/`step`, in terms of calls,
their results, and the observer's account `obs` of the calls made so far.
`Run name k buf ops s tr` says that `ops` led a fresh device of size `2^k` to
`s` with trace `tr`.
-/
namespace Verif.Kernel
open Verif

/-- A run with a given list of calls exists (used by the examples). -/
theorem Run.exists {name : Bytes} {k : Nat} (buf : Nat → UInt8) {ops : List Op} (hk : 14 ≤ k) (hn : name.length ≤ 89)
    (hs : ∀ op ∈ ops, op.supported = true) (hg : Genuine (obs name (arun (ainit name k) ops).2).hist)
    (hc : (obs name (arun (ainit name k) ops).2).hist.length < 2147483648) :
    ∃ s, Run name k buf ops s (arun (ainit name k) ops).2 := by
  obtain ⟨G, s, e, _⟩ := run_refines ops (init_rel buf hk hn) hs
  exact ⟨s, hk, hn, hs, e, hg, hc⟩

theorem AInv.reader {a : ASys} {o : Obs} (hinv : AInv a o) {fid : Nat} {r : RObs} (hr : o.rds fid = some r) :
    ∃ f x, a.files fid = some f ∧ f.rd = true ∧ a.log.find fid = some x ∧ RdOk a.log o.base r x := by
  have h1 := hinv.rds fid
  rw [hr] at h1
  cases hx : a.log.readers.lookup fid with
  | none => rw [hx] at h1; cases h1
  | some x =>
    have h2 := hinv.rd fid
    rw [hx] at h2
    cases hf : a.files fid with
    | none => rw [hf] at h2; cases h2
    | some f =>
      rw [hf] at h2
      obtain ⟨r', hr', hok⟩ := hinv.ok (fid := fid) (x := x) hx
      rw [hr] at hr'
      injection hr' with hr'
      subst hr'
      exact ⟨f, x, rfl, h2.symm, hx, hok⟩

theorem Run.reader {name k buf ops s tr} (h : Run name k buf ops s tr) {fid : Nat} {r : RObs}
    (hr : (obs name tr).rds fid = some r) :
    ∃ G a f x, Rel k G s a ∧ AInv a (obs name tr) ∧ a.log.name = name ∧ a.log.size = 2 ^ k ∧
      a.files fid = some f ∧ f.rd = true ∧ a.log.find fid = some x ∧ RdOk a.log (obs name tr).base r x := by
  obtain ⟨G, a, hrel, hinv, hn, hsz⟩ := h.abs
  obtain ⟨f, x, h1⟩ := hinv.reader hr
  exact ⟨G, a, f, x, hrel, hinv, hn, hsz, h1⟩

/-! ## C01 -/

/-- C01. An ordinary entry received by a reader that sees everything is the
committed entry at position (committed before the last flush) + (ordinary
entries received) + (losses announced), byte for byte. -/
theorem C01_delivery {name k buf ops s tr} (h : Run name k buf ops s tr) {fid : Nat} {euid : UInt32}
    {count uw : Nat} {bs : Bytes} {s' : Sys} {r : RObs}
    (hr : (obs name tr).rds fid = some r) (hall : r.all = true)
    (hs : step s (.read fid euid count uw) = .ok (s', .data bs)) (hn : isNotice bs = false) :
    ∃ e, (obs name tr).hist[(obs name tr).base + r.got + r.told]? = some e ∧ bs = e.view r.ver := by
  obtain ⟨G, a, f, x, hrel, hinv, hname, hsz, hf, hfr, hx, hok⟩ := h.reader hr
  obtain ⟨ho, _⟩ := hrel.step rfl hs
  rw [astep_read hf hfr hx] at ho
  simp only at ho
  have hg : Genuine a.log.hist := by rw [← hinv.hist]; exact h.genuine
  have hl : a.log.hist.length < 2147483648 := by rw [← hinv.hist]; exact h.count
  obtain ⟨k1, k2, k3, k4, k5, k6⟩ := hok
  rcases aread_obs (euid := euid) (count := count) (uw := uw) (r := x) hg (by omega) with
    ⟨bs', e, h1, _⟩ | ⟨bs', e, h1, h2, en, h3, h4, _⟩ | ⟨_, e⟩
  · rw [e] at ho; simp only [Out.data.injEq] at ho; rw [ho, hn] at h1; cases h1
  · rw [e] at ho
    simp only [Out.data.injEq] at ho
    have hxall : x.all = true := by rw [← k1]; exact hall
    rw [askip_all hxall] at h3
    have := (k6 hxall).1
    refine ⟨en, ?_, by rw [← ho, h4, k2]⟩
    rw [hinv.hist, ← h3]
    congr 1
    omega
  · exact absurd ho (e bs)

/-- C01, announcements: a drop notice announces at least one entry, and only
entries that were committed and not received before. -/
theorem C01_notice {name k buf ops s tr} (h : Run name k buf ops s tr) {fid : Nat} {euid : UInt32}
    {count uw : Nat} {bs : Bytes} {s' : Sys} {r : RObs}
    (hr : (obs name tr).rds fid = some r)
    (hs : step s (.read fid euid count uw) = .ok (s', .data bs)) (hn : isNotice bs = true) :
    0 < noticeCount name r.ver bs ∧
      (obs name tr).base + r.got + r.told + noticeCount name r.ver bs < (obs name tr).hist.length := by
  obtain ⟨G, a, f, x, hrel, hinv, hname, hsz, hf, hfr, hx, hok⟩ := h.reader hr
  obtain ⟨ho, _⟩ := hrel.step rfl hs
  rw [astep_read hf hfr hx] at ho
  simp only at ho
  have hg : Genuine a.log.hist := by rw [← hinv.hist]; exact h.genuine
  have hl : a.log.hist.length < 2147483648 := by rw [← hinv.hist]; exact h.count
  have hsk := hok.skip euid
  have hfl := askip_fields a.log.hist euid x
  obtain ⟨k1, k2, k3, k4, k5, k6⟩ := hok
  rcases aread_obs (euid := euid) (count := count) (uw := uw) (r := x) hg (by omega) with
    ⟨bs', e, h1, h2, h3⟩ | ⟨bs', e, h1, _⟩ | ⟨_, e⟩
  · have ho' := ho
    rw [e] at ho
    simp only [Out.data.injEq] at ho
    rw [ho, hname, ← k2] at h2
    rw [h2, hinv.hist]
    refine ⟨h3, ?_⟩
    have hlt : (askip a.log.hist euid x).idx < a.log.hist.length := by
      rcases Nat.lt_or_ge (askip a.log.hist euid x).idx a.log.hist.length with hc | hc
      · exact hc
      · simp only [aread, List.getElem?_eq_none hc] at ho'
        cases ho'
    have := hfl.2.2.2.1
    omega
  · rw [e] at ho; simp only [Out.data.injEq] at ho; rw [ho, hn] at h1; cases h1
  · exact absurd ho (e bs)

/-! ## C02 -/

/-- C02. Whatever calls came before, no call accesses memory outside the ring
and every scan ends (for write iterators made of user buffers). -/
theorem C02_safe {name : Bytes} {k : Nat} (buf : Nat → UInt8) (hk : 14 ≤ k) (hn : name.length ≤ 89)
    (ops : List Op) (hs : ∀ op ∈ ops, op.supported = true) :
    ∃ s tr, run (init name k buf) ops = .ok (s, tr) := by
  obtain ⟨G, s, e, _⟩ := run_refines ops (init_rel buf hk hn) hs
  exact ⟨s, _, e⟩

/-! ## C05 and C16: what a write stores -/

/-- The drain of a reader that sees everything. -/
theorem Run.drain {name k buf ops s tr} (h : Run name k buf ops s tr) {fid : Nat} {r : RObs}
    (hr : (obs name tr).rds fid = some r) (hall : r.all = true) (euid : UInt32) {count : Nat} (hc : 4100 ≤ count) :
    ∃ d, d ≤ (obs name tr).hist.length ∧ (obs name tr).base + r.got + r.told + d ≤ (obs name tr).hist.length ∧
      LostOk (2 ^ k) (obs name tr).hist ((obs name tr).base + r.got + r.told)
        ((obs name tr).base + r.got + r.told + d) ∧
      Drains fid euid count s
        ((match (obs name tr).hist[(obs name tr).base + r.got + r.told + d]? with
          | some e => if d > 0 then [(summaryEntry name d e).view r.ver] else []
          | none => []) ++
        ((obs name tr).hist.drop ((obs name tr).base + r.got + r.told + d)).map fun e => e.view r.ver) := by
  obtain ⟨G, a, f, x, hrel, hinv, hname, hsz, hf, hfr, hx, hok⟩ := h.reader hr
  have hxall : x.all = true := by rw [← hok.1]; exact hall
  have hd := drain_ok (f := f) (euid := euid) hc _ hrel hf hfr hx hxall rfl
  obtain ⟨k1, k2, k3, k4, k5, k6⟩ := hok
  obtain ⟨f1, f2⟩ := k6 hxall
  refine ⟨x.dropped, ?_⟩
  rw [hinv.hist, ← f1, ← hname, k2]
  refine ⟨by omega, k4, ?_, hd⟩
  rw [← hsz]
  have : (obs name tr).base + r.got + r.told = x.idx - x.dropped := by omega
  rw [hname, this]
  exact f2

/-- Bytes of name prefix an ordinary write by `t` stores before the user data. -/
def prefixLen (t : Task) : Nat :=
  (taskName t.pcomm).length + 1 + if t.pid = t.tid then 0 else (taskName t.tcomm).length + 1

theorem prefixLen_names (t : Task) : (names t).1.length + (names t).2.length = prefixLen t := by
  simp only [names, commStr, prefixLen, taskName, cstr, commLen, List.length_append, List.length_cons,
    List.length_nil]
  by_cases h : t.pid = t.tid <;> simp [h]

/-- The abstract file table agrees with the account on raw mode. -/
theorem Run.write {name k buf ops s tr} (h : Run name k buf ops s tr) {fid : Nat} {t : Task} {it : Iter}
    {junk : Nat → UInt8} {s' : Sys} {o : Out} (hit : it.supported = true)
    (hs : step s (.write fid t it junk) = .ok (s', o)) (ho : o ≠ .err .ebadf) :
    ∃ G a f, Rel k G s a ∧ AInv a (obs name tr) ∧ a.log.name = name ∧ a.log.size = 2 ^ k ∧
      a.files fid = some f ∧ f.raw = (obs name tr).raw fid ∧
      (awrite a.log f.raw t it.data).2 = o ∧
      ∃ G', Rel k G' s' { a with log := (awrite a.log f.raw t it.data).1 } := by
  obtain ⟨G, a, hrel, hinv, hn, hsz⟩ := h.abs
  obtain ⟨h1, G', h2⟩ := hrel.step (op := .write fid t it junk) hit hs
  cases hf : a.files fid with
  | none => simp only [astep, hf] at h1; exact absurd h1.symm ho
  | some f =>
    have hraw := hinv.raw fid f hf
    cases hw : f.wr with
    | false => simp only [astep, hf, astepFile, hw] at h1; exact absurd h1.symm ho
    | true =>
      simp only [astep, hf, astepFile, hw, if_true] at h1 h2
      exact ⟨G, a, f, hrel, hinv, hn, hsz, hf, hraw, h1, G', h2⟩

/-- A reader after room was made for `len` bytes. -/
def pushed (l : ALog) (len : Nat) (x : ARd) : ARd :=
  { x with idx := x.idx + apush l.size l.hist len x.idx
           dropped := x.dropped + apush l.size l.hist len x.idx }

theorem find_push {l : ALog} {fid : Nat} {x : ARd} {len : Nat} (hx : l.find fid = some x) :
    (l.pushAll len).find fid = some (pushed l len x) := by
  unfold ALog.find at hx ⊢
  refine (lookup_map_snd (pushed l len) fid l.readers).trans ?_
  rw [hx]; rfl

/-- After a successful write a drain ends with the entry the write stands for. -/
theorem write_drain {k G' : Nat} {a : ASys} {o : Obs} (hinv : AInv a o) {raw : Bool} {t : Task} {it : Iter}
    {n : Nat} {fid : Nat} {r : RObs} (hr : o.rds fid = some r) (hall : r.all = true)
    {euid : UInt32} {count : Nat} (hcount : 4100 ≤ count) (h1 : (awrite a.log raw t it.data).2 = .ret n)
    (hn : raw = true → n ≠ 0) {s' : Sys}
    (hrel' : Rel k G' s' { a with log := (awrite a.log raw t it.data).1 }) {l : List Bytes}
    (hd : Drains fid euid count s' l) :
    ∃ l', l = l' ++ [(if raw then rawSpec it.bytes else plainSpec t it.bytes).view r.ver] := by
  obtain ⟨f, x, hf, hfr, hx, hok⟩ := hinv.reader hr
  have hxall : x.all = true := by rw [← hok.1]; exact hall
  rcases awrite_cases a.log raw t it with ⟨e, hc, _⟩ | ⟨e, hc, _⟩ | ⟨en, m, e, hen, hwf, hm, _⟩ | ⟨en, m, e, _⟩
  · rw [e] at h1; cases h1
  · rw [e] at h1
    simp only [Out.ret.injEq] at h1
    exact absurd h1.symm (hn hc)
  · rw [← hen]
    rw [e] at hrel'
    have hx' : ({ a.log.pushAll en.size with hist := a.log.hist ++ [en] } : ALog).find fid =
        some (pushed a.log en.size x) := find_push hx
    have hdr := drain_ok (f := f) (euid := euid) hcount _ hrel' hf hfr hx' hxall rfl
    rw [hd.unique hdr]
    have hsz : en.size ≤ 4100 := by have : en.payload.length ≤ 4076 := hwf; unfold Entry.size; omega
    have hle := apush_le (size := a.log.size) (len := en.size) (h := a.log.hist) (i := x.idx)
      (by have := Entry.size_ge en; omega) (by have := hinv.size; omega) hok.2.2.2.1
    simp only [drainList, pushed]
    rw [List.drop_append_of_le_length hle, List.map_append, ← List.append_assoc, hok.2.1]
    exact ⟨_, rfl⟩
  · rw [e] at h1; cases h1

/-- C05. An ordinary write that succeeds returns how many user bytes were kept,
which is all of them or what fits beside the names in 4076 bytes, and every
reader that sees everything and drains the log afterwards receives as its last
entry the specified one: ids, time and uid of the caller, and the first 4076
bytes of names and data. Nothing else changed for that reader except possibly
losses at the front. -/
theorem C05_write {name k buf ops s tr} (h : Run name k buf ops s tr) {fid : Nat} {t : Task} {it : Iter}
    {junk : Nat → UInt8} {s' : Sys} {n : Nat} (hit : it.supported = true)
    (hs : step s (.write fid t it junk) = .ok (s', .ret n)) (hraw : (obs name tr).raw fid = false) :
    n = min it.bytes.length (4076 - prefixLen t) ∧
    (n = it.bytes.length ↔ prefixLen t + it.bytes.length ≤ 4076) ∧
    ∀ fid' euid count r l, (obs name tr).rds fid' = some r → r.all = true → 4100 ≤ count →
      Drains fid' euid count s' l → ∃ l', l = l' ++ [(plainSpec t it.bytes).view r.ver] := by
  have hpl : prefixLen t ≤ 34 := by rw [← prefixLen_names]; exact (names_length t).2
  have hn : n = min it.bytes.length (4076 - prefixLen t) := by
    obtain ⟨G, a, f, hrel, hinv, hname, hsz, hf, hfr, h1, _⟩ := h.write hit hs (by simp)
    rw [hfr, hraw] at h1
    have hb : it.bytes.length = it.data.length := by simp [Iter.bytes]
    rcases awrite_cases a.log false t it with ⟨e, hc, _⟩ | ⟨e, hc, _⟩ | ⟨en, m, e, _, _, hm, _⟩ | ⟨en, m, e, _⟩
    · cases hc
    · cases hc
    · rw [e] at h1
      simp only [Out.ret.injEq] at h1
      rw [← h1, hm, prefixLen_names, hb]; simp
    · rw [e] at h1; cases h1
  refine ⟨hn, by omega, ?_⟩
  intro fid' euid count r l hr hall hcount hd
  obtain ⟨G, a, f, hrel, hinv, hname, hsz, hf, hfr, h1, G', hrel'⟩ := h.write hit hs (by simp)
  rw [hfr, hraw] at h1 hrel'
  have := write_drain hinv hr hall hcount h1 (by simp) hrel' hd
  simpa using this

/-- C16. Raw mode: fewer than 20 bytes is refused and exactly 20 bytes does
nothing; both leave the device as it was. -/
theorem C16_raw_short {name k buf ops s tr} (h : Run name k buf ops s tr) {fid : Nat} {t : Task} {it : Iter}
    {junk : Nat → UInt8} {s' : Sys} {o : Out} (hit : it.supported = true)
    (hs : step s (.write fid t it junk) = .ok (s', o)) (ho : o ≠ .err .ebadf)
    (hraw : (obs name tr).raw fid = true) (hlen : it.bytes.length ≤ 20) :
    (o = if it.bytes.length < 20 then .err .einval else .ret 0) ∧
    ∀ later, (∀ op ∈ later, op.supported = true) →
      (run s' later).map (·.2) = (run s later).map (·.2) := by
  obtain ⟨G, a, f, hrel, hinv, hname, hsz, hf, hfr, h1, G', hrel'⟩ := h.write hit hs ho
  rw [hfr, hraw] at h1 hrel'
  have hb : it.bytes.length = it.data.length := by simp [Iter.bytes]
  rw [hb] at hlen ⊢
  rcases awrite_cases a.log true t it with ⟨e, _, hc⟩ | ⟨e, _, hc⟩ | ⟨en, m, e, _, _, _, hc, _⟩ |
      ⟨en, m, e, _, _, _, hc, _⟩
  · rw [e] at h1 hrel'
    rw [if_pos hc]
    exact ⟨h1.symm, fun later hl => hrel'.same_trace hrel hl⟩
  · rw [e] at h1 hrel'
    rw [if_neg (by omega)]
    exact ⟨h1.symm, fun later hl => hrel'.same_trace hrel hl⟩
  · have := hc rfl; omega
  · have := hc rfl; omega

/-- C16. Raw mode: a longer write that succeeds stores the supplied ids, time
and uid, and the rest cut to 4076 bytes; it returns the number of bytes taken. -/
theorem C16_raw {name k buf ops s tr} (h : Run name k buf ops s tr) {fid : Nat} {t : Task} {it : Iter}
    {junk : Nat → UInt8} {s' : Sys} {n : Nat} (hit : it.supported = true)
    (hs : step s (.write fid t it junk) = .ok (s', .ret n)) (hraw : (obs name tr).raw fid = true)
    (hlen : 20 < it.bytes.length) :
    n = min it.bytes.length 4096 ∧
    ∀ fid' euid count r l, (obs name tr).rds fid' = some r → r.all = true → 4100 ≤ count →
      Drains fid' euid count s' l → ∃ l', l = l' ++ [(rawSpec it.bytes).view r.ver] := by
  obtain ⟨G, a, f, hrel, hinv, hname, hsz, hf, hfr, h1, G', hrel'⟩ := h.write hit hs (by simp)
  rw [hfr, hraw] at h1 hrel'
  have hb : it.bytes.length = it.data.length := by simp [Iter.bytes]
  have hn : n = min it.bytes.length 4096 := by
    rcases awrite_cases a.log true t it with ⟨e, _, hc⟩ | ⟨e, _, hc⟩ | ⟨en, m, e, _, _, hm, hc, _⟩ |
        ⟨en, m, e, _, _, _, hc, _⟩
    · omega
    · omega
    · rw [e] at h1
      simp only [Out.ret.injEq] at h1
      rw [← h1, hm, hb]; simp
    · rw [e] at h1; cases h1
  refine ⟨hn, ?_⟩
  intro fid' euid count r l hr hall hcount hd
  have := write_drain hinv hr hall hcount h1 (by omega) hrel' hd
  simpa using this

/-! ## C04 -/

/-- The ordinary entries among read results. -/
def ordinary (l : List Bytes) : List Bytes := l.filter fun bs => !isNotice bs

/-- The losses announced by the notices among read results. -/
def announced (name : Bytes) (ver : Nat) (l : List Bytes) : Nat :=
  ((l.filter isNotice).map (noticeCount name ver)).sum

theorem views_ordinary {h : List Entry} (hg : Genuine h) (ver : Nat) :
    ∀ bs ∈ h.map (fun e => e.view ver), isNotice bs = false := by
  intro bs hb
  obtain ⟨e, he, rfl⟩ := List.mem_map.mp hb
  cases hn : isNotice (e.view ver) with
  | false => rfl
  | true => exact absurd ((isNotice_view_iff e ver).mp hn) (hg e he)

theorem drainList_split {l : ALog} {x : ARd} (hg : Genuine l.hist) (hd : x.dropped < 2147483648) :
    ordinary (drainList l x) = (l.hist.drop x.idx).map (fun e => e.view x.ver) ∧
      announced l.name x.ver (drainList l x) = if x.idx < l.hist.length then x.dropped else 0 := by
  have hg' : Genuine (l.hist.drop x.idx) := fun e he => hg e (List.mem_of_mem_drop he)
  have hv := views_ordinary hg' x.ver
  have f1 : ((l.hist.drop x.idx).map (fun e => e.view x.ver)).filter (fun bs => !isNotice bs) =
      (l.hist.drop x.idx).map (fun e => e.view x.ver) :=
    List.filter_eq_self.mpr (fun bs hb => by rw [hv bs hb]; rfl)
  have f2 : ((l.hist.drop x.idx).map (fun e => e.view x.ver)).filter isNotice = [] :=
    List.filter_eq_nil_iff.mpr (fun bs hb => by rw [hv bs hb]; simp)
  unfold ordinary announced drainList
  rw [List.filter_append, List.filter_append, f1, f2]
  rcases Nat.lt_or_ge x.idx l.hist.length with hlt | hge
  · rw [List.getElem?_eq_getElem hlt, if_pos hlt]
    simp only
    by_cases h0 : x.dropped > 0
    · have hn : isNotice ((summaryEntry l.name x.dropped l.hist[x.idx]).view x.ver) = true := by
        rw [isNotice_view_iff]; exact ⟨rfl, rfl⟩
      simp only [h0, if_true, List.filter_cons, hn, Bool.not_true, Bool.false_eq_true, if_false, List.filter_nil,
        List.nil_append, List.append_nil, List.map_cons, List.map_nil, List.sum_cons, List.sum_nil,
        noticeCount_view hd]
      exact ⟨trivial, rfl⟩
    · simp only [h0, if_false, List.filter_nil, List.nil_append, List.map_nil, List.sum_nil, true_and]
      omega
  · rw [List.getElem?_eq_none hge, if_neg (by omega)]
    simp

/-- A reader with a loss pending has something left to read. -/
theorem pending_lt {l : ALog} {base : Nat} {r : RObs} {x : ARd} (hok : RdOk l base r x) (hall : x.all = true)
    (hsz : 16384 ≤ l.size) (hwf : ∀ e ∈ l.hist, e.wf) (hd : 0 < x.dropped) : x.idx < l.hist.length := by
  obtain ⟨k1, k2, k3, k4, k5, k6⟩ := hok
  have h1 := (k6 hall).2 (x.idx - 1) (by omega) (by omega)
  rcases Nat.lt_or_ge x.idx l.hist.length with hlt | hge
  · exact hlt
  · have hi : x.idx - 1 < l.hist.length := by omega
    rw [List.drop_eq_getElem_cons hi, List.drop_of_length_le (by omega)] at h1
    have := hwf _ (List.getElem_mem hi)
    simp only [Entry.wf, bytesLen, List.map_cons, List.map_nil, List.sum_cons, List.sum_nil, Entry.size] at this h1
    omega

/-- C04, first part. After a write that fails, whatever a reader that sees
everything can still get is a suffix of what it could get before, and the
entries missing are added to the announced losses. -/
theorem C04_failed_write {name k buf ops s tr} (h : Run name k buf ops s tr) {fid : Nat} {t : Task} {it : Iter}
    {junk : Nat → UInt8} {s' : Sys} {e : Errno} (hit : it.supported = true)
    (hs : step s (.write fid t it junk) = .ok (s', .err e))
    {fid' : Nat} {euid : UInt32} {count : Nat} {r : RObs} {l l' : List Bytes}
    (hr : (obs name tr).rds fid' = some r) (hall : r.all = true) (hcount : 4100 ≤ count)
    (hd : Drains fid' euid count s l) (hd' : Drains fid' euid count s' l') :
    ordinary l' <:+ ordinary l ∧
      announced name r.ver l' + (ordinary l').length = announced name r.ver l + (ordinary l).length := by
  by_cases hbad : e = .ebadf
  · -- not open for writing: nothing happened
    subst hbad
    obtain ⟨G, a, hrel, hinv, hn, hsz⟩ := h.abs
    obtain ⟨f', x, hf', hfr, hx, hok⟩ := hinv.reader hr
    have hxall : x.all = true := by rw [← hok.1]; exact hall
    have hd1 := drain_ok (f := f') (euid := euid) hcount _ hrel hf' hfr hx hxall rfl
    obtain ⟨h1, G', h2⟩ := hrel.step (op := .write fid t it junk) hit hs
    have ha : (astep a (.write fid t it junk)).1 = a := by
      cases hf : a.files fid with
      | none => simp only [astep, hf]
      | some f =>
        cases hw : f.wr with
        | false => simp only [astep, hf, astepFile, hw]; rfl
        | true =>
          simp only [astep, hf, astepFile, hw, if_true] at h1
          rcases awrite_cases a.log f.raw t it with ⟨e, _⟩ | ⟨e, _⟩ | ⟨en, m, e, _⟩ | ⟨en, m, e, _⟩ <;>
            (rw [e] at h1; cases h1)
    rw [ha] at h2
    have hd2 := drain_ok (f := f') (euid := euid) hcount _ h2 hf' hfr hx hxall rfl
    rw [hd.unique hd1, hd'.unique hd2]
    exact ⟨List.suffix_refl _, rfl⟩
  obtain ⟨G, a, f, hrel, hinv, hname, hsz, hf, hfr, h1, G', hrel'⟩ := h.write hit hs
    (by simp only [ne_eq, Out.err.injEq]; exact hbad)
  obtain ⟨f', x, hf', hfr', hx, hok⟩ := hinv.reader hr
  have hg : Genuine a.log.hist := by rw [← hinv.hist]; exact h.genuine
  have hl : a.log.hist.length < 2147483648 := by rw [← hinv.hist]; exact h.count
  have hxall : x.all = true := by rw [← hok.1]; exact hall
  have hd1 := drain_ok (f := f') (euid := euid) hcount _ hrel hf' hfr' hx hxall rfl
  rcases awrite_cases a.log f.raw t it with ⟨e, _⟩ | ⟨e, _⟩ | ⟨en, m, e, _⟩ | ⟨en, m, e, hwf, _⟩
  · rw [e] at hrel'
    have hd2 := drain_ok (f := f') (euid := euid) hcount _ hrel' hf' hfr' hx hxall rfl
    rw [hd.unique hd1, hd'.unique hd2]
    exact ⟨List.suffix_refl _, rfl⟩
  · rw [e] at h1; cases h1
  · rw [e] at h1; cases h1
  · rw [e] at hrel'
    have hd2 := drain_ok (f := f') (euid := euid) hcount _ hrel' hf' hfr' (find_push hx) hxall rfl
    rw [hd.unique hd1, hd'.unique hd2]
    have h0 : 0 < en.size := by have := Entry.size_ge en; omega
    have hsz' : en.size ≤ 4100 := by have : en.payload.length ≤ 4076 := hwf; unfold Entry.size; omega
    have hbig := hinv.size
    have hle := apush_le (size := a.log.size) (len := en.size) (h := a.log.hist) (i := x.idx) h0 (by omega) hok.2.2.2.1
    have hip := hinv.push en.size [] h0 hsz' (by simp)
    rw [List.append_nil] at hip
    have hok' : RdOk a.log (obs name tr).base r (pushed a.log en.size x) := by
      have := hip.ok (fid := fid') (x := pushed a.log en.size x) (find_push hx)
      obtain ⟨r', hr', hok'⟩ := this
      simp only [hr, Option.some.injEq] at hr'
      subst hr'
      exact hok'
    have hb1 := hok.2.2.2.1
    have hb2 := hok.2.2.2.2.1
    have hb3 : x.idx + apush a.log.size a.log.hist en.size x.idx ≤ a.log.hist.length := hle
    obtain ⟨s1, s2⟩ := drainList_split (l := a.log) (x := x) hg (by omega)
    obtain ⟨s3, s4⟩ := drainList_split (l := a.log.pushAll en.size) (x := pushed a.log en.size x) hg
      (by simp only [pushed]; omega)
    rw [hok.2.1, s1, ← hname, s2]
    have s4' : announced a.log.name x.ver (drainList (a.log.pushAll en.size) (pushed a.log en.size x)) = _ := s4
    rw [s4', s3]
    have p1 := pending_lt hok hxall hbig hinv.wf
    have p2 := pending_lt hok' hxall hbig hinv.wf
    have hh : (a.log.pushAll en.size).hist = a.log.hist := rfl
    have q1 : (pushed a.log en.size x).idx = x.idx + apush a.log.size a.log.hist en.size x.idx := rfl
    have q2 : (pushed a.log en.size x).dropped = x.dropped + apush a.log.size a.log.hist en.size x.idx := rfl
    have q3 : (pushed a.log en.size x).ver = x.ver := rfl
    rw [hh, q3]
    generalize pushed a.log en.size x = y at *
    generalize apush a.log.size a.log.hist en.size x.idx = d at *
    constructor
    · rw [q1, ← List.drop_drop]
      exact List.IsSuffix.map _ (List.drop_suffix _ _)
    · simp only [List.length_map, List.length_drop]
      by_cases c1 : y.idx < a.log.hist.length
      · rw [if_pos c1, if_pos (by omega : x.idx < a.log.hist.length)]; omega
      · rw [if_neg c1]
        by_cases c2 : x.idx < a.log.hist.length
        · rw [if_pos c2]; omega
        · rw [if_neg c2]; omega

/-- C04, second part. A failed write does not enter the list of committed
entries, hence (C01, C03) nothing of it is ever delivered to anyone. -/
theorem C04_not_committed (name : Bytes) (tr1 tr2 : List (Op × Out)) (fid : Nat) (t : Task) (it : Iter)
    (junk : Nat → UInt8) (e : Errno) :
    obs name (tr1 ++ (.write fid t it junk, .err e) :: tr2) = obs name (tr1 ++ tr2) := by
  simp only [obs, List.foldl_append, List.foldl_cons]
  rfl

/-- C04, third part. Any ordinary entry anyone receives is a committed one. -/
theorem C04_delivered_committed {name k buf ops s tr} (h : Run name k buf ops s tr) {fid : Nat} {euid : UInt32}
    {count uw : Nat} {bs : Bytes} {s' : Sys}
    (hs : step s (.read fid euid count uw) = .ok (s', .data bs)) (hn : isNotice bs = false) :
    ∃ r i e, (obs name tr).rds fid = some r ∧ (obs name tr).base + r.got + r.told ≤ i ∧
      (obs name tr).hist[i]? = some e ∧ bs = e.view r.ver := by
  obtain ⟨G, a, hrel, hinv, hname, hsz⟩ := h.abs
  obtain ⟨ho, _⟩ := hrel.step rfl hs
  cases hf : a.files fid with
  | none => simp only [astep, hf] at ho; cases ho
  | some f =>
  cases hfr : f.rd with
  | false => simp only [astep, hf, astepFile, hfr] at ho; cases ho
  | true =>
  cases hx : a.log.find fid with
  | none => simp only [astep, hf, astepFile, hfr, hx] at ho; cases ho
  | some x =>
  obtain ⟨r, hr, hok⟩ := hinv.ok hx
  rw [astep_read hf hfr hx] at ho
  have hg : Genuine a.log.hist := by rw [← hinv.hist]; exact h.genuine
  have hl : a.log.hist.length < 2147483648 := by rw [← hinv.hist]; exact h.count
  have hsk := askip_fields a.log.hist euid x
  obtain ⟨k1, k2, k3, k4, k5, k6⟩ := hok
  rcases aread_obs (euid := euid) (count := count) (uw := uw) (r := x) hg (by omega) with
    ⟨bs', e, h1, _⟩ | ⟨bs', e, h1, h2, en, h3, h4, _⟩ | ⟨_, e⟩
  · rw [e] at ho; simp only [Out.data.injEq] at ho; rw [ho, hn] at h1; cases h1
  · rw [e] at ho
    simp only [Out.data.injEq] at ho
    refine ⟨r, (askip a.log.hist euid x).idx, en, hr, ?_, by rw [hinv.hist]; exact h3, by rw [← ho, h4, k2]⟩
    have := hsk.2.2.2.1
    omega
  · exact absurd ho (e bs)

/-! ## C06 -/

/-- C06. An entry announced as lost had been followed (itself included) by more
than ring size - 8200 bytes. -/
theorem C06_lost_is_old {name k buf ops s tr} (h : Run name k buf ops s tr) {fid : Nat} {euid : UInt32}
    {count uw : Nat} {bs : Bytes} {s' : Sys} {r : RObs}
    (hr : (obs name tr).rds fid = some r) (hall : r.all = true)
    (hs : step s (.read fid euid count uw) = .ok (s', .data bs)) (hn : isNotice bs = true)
    {q : Nat} (hq : (obs name tr).base + r.got + r.told ≤ q)
    (hq' : q < (obs name tr).base + r.got + r.told + noticeCount name r.ver bs) :
    2 ^ k < bytesLen ((obs name tr).hist.drop q) + 8200 := by
  obtain ⟨G, a, f, x, hrel, hinv, hname, hsz, hf, hfr, hx, hok⟩ := h.reader hr
  obtain ⟨ho, _⟩ := hrel.step rfl hs
  rw [astep_read hf hfr hx] at ho
  simp only at ho
  have hg : Genuine a.log.hist := by rw [← hinv.hist]; exact h.genuine
  have hl : a.log.hist.length < 2147483648 := by rw [← hinv.hist]; exact h.count
  obtain ⟨k1, k2, k3, k4, k5, k6⟩ := hok
  rcases aread_obs (euid := euid) (count := count) (uw := uw) (r := x) hg (by omega) with
    ⟨bs', e, h1, h2, h3⟩ | ⟨bs', e, h1, _⟩ | ⟨_, e⟩
  · rw [e] at ho
    simp only [Out.data.injEq] at ho
    rw [ho, hname, ← k2] at h2
    rw [h2] at hq'
    have hxall : x.all = true := by rw [← k1]; exact hall
    obtain ⟨f1, f2⟩ := k6 hxall
    have := f2 q (by omega) (by omega)
    rw [hsz] at this
    rw [hinv.hist]; exact this
  · rw [e] at ho; simp only [Out.data.injEq] at ho; rw [ho, hn] at h1; cases h1
  · exact absurd ho (e bs)

/-- C06. The newest entries adding up to at most ring size - 8200 bytes, among
those a reader has not been given or told lost, are all still delivered. -/
theorem C06_retained {name k buf ops s tr} (h : Run name k buf ops s tr) {fid : Nat} {euid : UInt32}
    {count : Nat} {r : RObs} {l : List Bytes}
    (hr : (obs name tr).rds fid = some r) (hall : r.all = true) (hcount : 4100 ≤ count)
    (hd : Drains fid euid count s l) {q : Nat} (hq : (obs name tr).base + r.got + r.told ≤ q)
    (hsize : bytesLen ((obs name tr).hist.drop q) + 8200 ≤ 2 ^ k) :
    ((obs name tr).hist.drop q).map (fun e => e.view r.ver) <:+ l := by
  obtain ⟨d, h1, h2, h3, h4⟩ := h.drain hr hall euid hcount
  rw [hd.unique h4]
  have hqd : (obs name tr).base + r.got + r.told + d ≤ q := by
    rcases Nat.lt_or_ge q ((obs name tr).base + r.got + r.told + d) with hc | hc
    · have := h3 q hq hc; omega
    · exact hc
  refine List.IsSuffix.trans ?_ (List.suffix_append _ _)
  obtain ⟨i, rfl⟩ := Nat.exists_eq_add_of_le hqd
  rw [← List.drop_drop]
  exact List.IsSuffix.map _ (List.drop_suffix _ _)

/-- C06, for a reader opened now. -/
theorem C06_retained_new {name k buf ops s tr} (h : Run name k buf ops s tr) {fid : Nat} {wr : Bool} {s' : Sys}
    (hs : step s (.openF fid true wr true) = .ok (s', .ok)) {euid : UInt32}
    {count : Nat} {l : List Bytes} (hcount : 4100 ≤ count) (hd : Drains fid euid count s' l) {q : Nat}
    (hq : (obs name tr).base ≤ q) (hsize : bytesLen ((obs name tr).hist.drop q) + 8200 ≤ 2 ^ k) :
    ((obs name tr).hist.drop q).map (fun e => e.view 2) <:+ l := by
  have ho : obs name (tr ++ [(.openF fid true wr true, .ok)]) =
      { obs name tr with raw := upd (obs name tr).raw fid false
                         rds := upd (obs name tr).rds fid (some { all := true, ver := 2, got := 0, told := 0 }) } := by
    rw [obs_snoc]; rfl
  have h' := h.snoc rfl hs (by rw [ho]; exact h.genuine) (by rw [ho]; exact h.count)
  have := C06_retained h' (fid := fid) (r := { all := true, ver := 2, got := 0, told := 0 })
    (by rw [ho]; simp [upd]) rfl hcount hd (q := q) (by rw [ho]; exact hq) (by rw [ho]; exact hsize)
  rw [ho] at this
  exact this

/-! ## C07 -/

theorem base_after_flush (name : Bytes) (tr1 tr2 : List (Op × Out)) (g : Nat) :
    (obs name tr1).hist.length ≤ (obs name (tr1 ++ (.flush g, .ok) :: tr2)).base := by
  have := (obs_append_mono name (tr1 ++ [(.flush g, .ok)]) tr2).2
  rw [List.append_assoc, List.singleton_append, obs_snoc] at this
  exact this

/-- C07. After a flush nobody receives an entry committed before it, and the
losses announced since never reach back before it. -/
theorem C07_after_flush {name k buf ops s tr1 tr2} {g : Nat}
    (h : Run name k buf ops s (tr1 ++ (.flush g, .ok) :: tr2)) {fid : Nat} {euid : UInt32}
    {count uw : Nat} {bs : Bytes} {s' : Sys} {r : RObs}
    (hr : (obs name (tr1 ++ (.flush g, .ok) :: tr2)).rds fid = some r)
    (hs : step s (.read fid euid count uw) = .ok (s', .data bs)) :
    if isNotice bs then
      (obs name tr1).hist.length + r.got + r.told + noticeCount name r.ver bs <
        (obs name (tr1 ++ (.flush g, .ok) :: tr2)).hist.length
    else ∃ i e, (obs name tr1).hist.length + r.got + r.told ≤ i ∧
      (obs name (tr1 ++ (.flush g, .ok) :: tr2)).hist[i]? = some e ∧ bs = e.view r.ver := by
  have hb := base_after_flush name tr1 tr2 g
  split
  · rename_i hn
    have := (C01_notice h hr hs hn).2
    omega
  · rename_i hn
    obtain ⟨r', i, e, h1, h2, h3, h4⟩ := C04_delivered_committed h hs (by simpa using hn)
    rw [hr] at h1
    injection h1 with h1
    subst h1
    exact ⟨i, e, by omega, h3, h4⟩

/-- C07. As long as nothing was committed after the flush, a reader is not
readable, has used length 0, and blocks. -/
theorem C07_quiet {name k buf ops s tr1 tr2} {g : Nat}
    (h : Run name k buf ops s (tr1 ++ (.flush g, .ok) :: tr2))
    (hq : (obs name (tr1 ++ (.flush g, .ok) :: tr2)).hist.length = (obs name tr1).hist.length)
    {fid : Nat} {r : RObs} (hr : (obs name (tr1 ++ (.flush g, .ok) :: tr2)).rds fid = some r)
    (euid : UInt32) (count uw : Nat) :
    (∃ s', step s (.poll fid euid) = .ok (s', .poll false)) ∧
    (∃ s', step s (.getLogLen fid) = .ok (s', .ret 0)) ∧
    (∃ s', step s (.check fid) = .ok (s', .block)) ∧
    (∃ s', step s (.read fid euid count uw) = .ok (s', .block)) := by
  have hb := base_after_flush name tr1 tr2 g
  obtain ⟨G, a, f, x, hrel, hinv, hname, hsz, hf, hfr, hx, hok⟩ := h.reader hr
  rw [hinv.hist] at hq
  have hsk := (hok.skip euid).2.2.2
  have hfl := (askip_fields a.log.hist euid x).2.2.2.1
  obtain ⟨k1, k2, k3, k4, k5, k6⟩ := hok
  have hi : x.idx = a.log.hist.length := by omega
  have hi' : (askip a.log.hist euid x).idx = a.log.hist.length := by omega
  refine ⟨?_, ?_, ?_, ?_⟩
  · obtain ⟨_, s', e, _⟩ := step_refines hrel (.poll fid euid) rfl
    refine ⟨s', ?_⟩
    rw [e]
    simp only [astep, hf, astepFile, hfr, if_true, hx, hi']
    simp
  · obtain ⟨_, s', e, _⟩ := step_refines hrel (.getLogLen fid) rfl
    refine ⟨s', ?_⟩
    rw [e]
    simp only [astep, hf, astepFile, hfr, if_true, hx, hi, List.drop_length]
    rfl
  · obtain ⟨_, s', e, _⟩ := step_refines hrel (.check fid) rfl
    refine ⟨s', ?_⟩
    rw [e]
    simp only [astep, hf, astepFile, hfr, if_true, hx, hi]
  · obtain ⟨_, s', e, _⟩ := step_refines hrel (.read fid euid count uw) rfl
    refine ⟨s', ?_⟩
    rw [e, astep_read hf hfr hx]
    simp only [aread, hi', List.getElem?_eq_none (Nat.le_refl _)]

/-! ## C08 -/

/-- C08. The used length a reader that sees everything is told is the sum of
the stored sizes of exactly the ordinary entries it would receive by draining
the log; these are the last committed entries. -/
theorem C08_log_len {name k buf ops s tr} (h : Run name k buf ops s tr) {fid : Nat} {r : RObs} {n : Nat} {s' : Sys}
    (hr : (obs name tr).rds fid = some r) (hall : r.all = true)
    (hs : step s (.getLogLen fid) = .ok (s', .ret n))
    {euid : UInt32} {count : Nat} (hcount : 4100 ≤ count) {l : List Bytes} (hd : Drains fid euid count s l) :
    ∃ es, es <:+ (obs name tr).hist ∧ ordinary l = es.map (fun e => e.view r.ver) ∧
      n = (es.map fun e => 24 + e.payload.length).sum ∧ (n = 0 ↔ l = []) := by
  obtain ⟨G, a, f, x, hrel, hinv, hname, hsz, hf, hfr, hx, hok⟩ := h.reader hr
  have hxall : x.all = true := by rw [← hok.1]; exact hall
  have hg : Genuine a.log.hist := by rw [← hinv.hist]; exact h.genuine
  have hl : a.log.hist.length < 2147483648 := by rw [← hinv.hist]; exact h.count
  have hd1 := drain_ok (f := f) (euid := euid) hcount _ hrel hf hfr hx hxall rfl
  obtain ⟨ho, _⟩ := hrel.step rfl hs
  simp only [astep, hf, astepFile, hfr, if_true, hx, Out.ret.injEq] at ho
  have hb1 := hok.2.2.2.1
  have hb2 := hok.2.2.2.2.1
  obtain ⟨s1, s2⟩ := drainList_split (l := a.log) (x := x) hg (by omega)
  rw [hd.unique hd1, hok.2.1]
  refine ⟨a.log.hist.drop x.idx, by rw [hinv.hist]; exact List.drop_suffix _ _, s1, ?_, ?_⟩
  · rw [← ho]; rfl
  · rw [← ho]
    rcases Nat.lt_or_ge x.idx a.log.hist.length with hlt | hge
    · rw [List.drop_eq_getElem_cons hlt]
      constructor
      · intro h0
        simp only [bytesLen, List.map_cons, List.sum_cons, Entry.size] at h0
        omega
      · intro h0
        simp only [drainList, List.drop_eq_getElem_cons hlt] at h0
        simp at h0
        omega
    · simp only [drainList, List.drop_of_length_le hge, List.getElem?_eq_none hge]
      exact ⟨fun _ => rfl, fun _ => rfl⟩

/-! ## C09, C10, C11, C12 -/

/-- Skipping foreign entries twice is skipping them once. -/
theorem askip_askip (h : List Entry) (euid : UInt32) (x : ARd) :
    askip h euid (askip h euid x) = askip h euid x := by
  by_cases ha : x.all = true
  · rw [askip_all ha, askip_all ha]
  · unfold askip
    simp only [ha, Bool.false_eq_true, if_false]
    have : (h.drop (x.idx + (h.drop x.idx).findIdx fun e => e.euid == euid)).findIdx
        (fun e => e.euid == euid) = 0 := by
      rw [← List.drop_drop]
      generalize h.drop x.idx = g
      induction g with
      | nil => rfl
      | cons e g ih =>
        by_cases he : (e.euid == euid) = true
        · simp [List.findIdx_cons, he]
        · simp only [List.findIdx_cons, he, cond_false, List.drop_succ_cons]; exact ih
    rw [this]
    simp

theorem aread_askip (l : ALog) (euid : UInt32) (x : ARd) (count uw : Nat) :
    aread l euid (askip l.hist euid x) count uw = aread l euid x count uw := by
  unfold aread
  rw [askip_askip]

theorem set_set (l : ALog) (fid : Nat) (x y : ARd) : (l.set fid x).set fid y = l.set fid y := by
  simp only [ALog.set, List.map_map]
  congr 1
  apply List.map_congr_left
  intro p _
  simp only [Function.comp]
  by_cases h : p.1 = fid <;> simp [h]

/-- A read by `euid` after the reader's position was advanced over foreign
entries for the same `euid`: same result, same state. -/
theorem astep_read_skipped {a : ASys} {fid : Nat} {f : File} {x : ARd} (hf : a.files fid = some f)
    (hfr : f.rd = true) (hx : a.log.find fid = some x) (euid : UInt32) (count uw : Nat) :
    astep { a with log := a.log.set fid (askip a.log.hist euid x) } (.read fid euid count uw) =
      astep a (.read fid euid count uw) := by
  rw [astep_read (a := { a with log := a.log.set fid (askip a.log.hist euid x) }) hf hfr (find_set hx),
    astep_read hf hfr hx]
  have : aread (a.log.set fid (askip a.log.hist euid x)) euid (askip a.log.hist euid x) count uw =
      aread a.log euid x count uw := aread_askip a.log euid x count uw
  simp only [this, set_set]

/-- C09. After the query of the next length there is one record to read, `bs`: a read
with a buffer that takes it gives it, one with a smaller buffer is refused. It has the
announced length if it is not a drop notice. If 0 was announced, reads block. -/
theorem C09_next_len {name k buf ops s tr} (h : Run name k buf ops s tr) {fid : Nat} {euid : UInt32}
    {n : Nat} {s1 : Sys} {r : RObs} (hr : (obs name tr).rds fid = some r)
    (hs : step s (.getNextLen fid euid) = .ok (s1, .ret n)) :
    (n = 0 → ∀ c, ∃ s2, step s1 (.read fid euid c c) = .ok (s2, .block)) ∧
    (0 < n → ∃ bs, (isNotice bs = false → bs.length = n) ∧
      (∀ c, bs.length ≤ c → ∃ s2, step s1 (.read fid euid c c) = .ok (s2, .data bs)) ∧
      ∀ c, c < bs.length → ∃ s2, step s1 (.read fid euid c c) = .ok (s2, .err .einval)) := by
  obtain ⟨G, a, f, x, hrel, hinv, hname, hsz, hf, hfr, hx, hok⟩ := h.reader hr
  have hg : Genuine a.log.hist := by rw [← hinv.hist]; exact h.genuine
  obtain ⟨ho, G1, hrel1⟩ := hrel.step rfl hs
  simp only [astep, hf, astepFile, hfr, if_true, hx, Out.ret.injEq] at ho hrel1
  have hsk := askip_fields a.log.hist euid x
  have hrd : ∀ c, ∃ s2, step s1 (.read fid euid c c) = .ok (s2, (aread a.log euid x c c).2) := by
    intro c
    obtain ⟨_, s3, e3, _⟩ := step_refines hrel1 (.read fid euid c c) rfl
    refine ⟨s3, ?_⟩
    rw [e3, astep_read_skipped hf hfr hx, astep_read hf hfr hx]
  cases he : a.log.hist[(askip a.log.hist euid x).idx]? with
  | none =>
    rw [he] at ho
    refine ⟨fun _ c => ?_, fun h0 => absurd ho (by dsimp only; omega)⟩
    obtain ⟨s2, e⟩ := hrd c
    refine ⟨s2, ?_⟩
    rw [e]
    simp only [aread, he]
  | some e =>
    rw [he] at ho
    dsimp only at ho
    rw [hsk.2.1] at ho
    have hpos : 0 < (e.view x.ver).length := by rw [view_length]; unfold userHdrLen compatHdrSize hdrSize; split <;> omega
    refine ⟨fun h0 => by omega, fun _ => ?_⟩
    refine ⟨if x.dropped > 0 then (summaryEntry a.log.name x.dropped e).view x.ver else e.view x.ver, ?_, ?_, ?_⟩
    · intro hno
      split at hno
      · exfalso
        have : isNotice ((summaryEntry a.log.name x.dropped e).view x.ver) = true := by
          rw [isNotice_view_iff]; exact ⟨rfl, rfl⟩
        rw [this] at hno; cases hno
      · rename_i hd
        rw [if_neg hd]; exact ho
    · intro c hc
      obtain ⟨s2, e2⟩ := hrd c
      refine ⟨s2, ?_⟩
      rw [e2]
      simp only [aread, he, hsk.2.2.1, hsk.2.1]
      rw [if_neg (Nat.not_lt.mpr hc), if_neg (Nat.not_lt.mpr hc)]
      split <;> rfl
    · intro c hc
      obtain ⟨s2, e2⟩ := hrd c
      refine ⟨s2, ?_⟩
      rw [e2]
      simp only [aread, he, hsk.2.2.1, hsk.2.1]
      rw [if_pos hc]

/-- C10. Poll tells the truth: after "readable", neither lock section of a read
by the same user blocks; after "not readable" the first one does. -/
theorem C10_poll {name k buf ops s tr} (h : Run name k buf ops s tr) {fid : Nat} {euid : UInt32} {r : RObs}
    (hr : (obs name tr).rds fid = some r) {b : Bool} {s1 : Sys}
    (hs : step s (.poll fid euid) = .ok (s1, .poll b)) :
    (∃ s2, step s1 (.check fid) = .ok (s2, if b then .ready else .block)) ∧
    ∀ count uw, ∃ s2 o, step s1 (.read fid euid count uw) = .ok (s2, o) ∧ (o = .block ↔ b = false) := by
  obtain ⟨G, a, f, x, hrel, hinv, hname, hsz, hf, hfr, hx, hok⟩ := h.reader hr
  obtain ⟨ho, G1, hrel1⟩ := hrel.step rfl hs
  simp only [astep, hf, astepFile, hfr, if_true, hx, Out.poll.injEq] at ho hrel1
  have hle := (askip_fields a.log.hist euid x).2.2.2.2 hok.2.2.2.1
  constructor
  · obtain ⟨_, s2, e2, _⟩ := step_refines hrel1 (.check fid) rfl
    refine ⟨s2, ?_⟩
    rw [e2]
    simp only [astep, hf, astepFile, hfr, if_true, find_set hx]
    by_cases hi : (askip a.log.hist euid x).idx = a.log.hist.length
    · have : b = false := by rw [← ho]; simp [hi]
      rw [this]; exact congrArg (fun o => Except.ok (s2, o)) (if_pos hi)
    · have : b = true := by rw [← ho]; simp [hi]
      rw [this]; exact congrArg (fun o => Except.ok (s2, o)) (if_neg hi)
  · intro count uw
    obtain ⟨_, s2, e2, _⟩ := step_refines hrel1 (.read fid euid count uw) rfl
    refine ⟨s2, _, e2, ?_⟩
    rw [astep_read_skipped hf hfr hx, astep_read hf hfr hx]
    by_cases hi : (askip a.log.hist euid x).idx = a.log.hist.length
    · have hb : b = false := by rw [← ho]; simp [hi]
      rw [hb]
      simp only [aread, hi, List.getElem?_eq_none (Nat.le_refl _)]
    · have hb : b = true := by rw [← ho]; simp [hi]
      have hlt : (askip a.log.hist euid x).idx < a.log.hist.length := by omega
      rw [hb]
      simp only [aread, List.getElem?_eq_getElem hlt]
      generalize (if (askip a.log.hist euid x).dropped > 0 then _ else _ : Bytes) = v
      repeat' split
      all_goals simp

/-- C10. Poll takes nothing away: a read after it gives what a read before it
would have given, and everything after that is the same too. -/
theorem C10_poll_keeps {name k buf ops s tr} (h : Run name k buf ops s tr) {fid : Nat} {euid : UInt32} {r : RObs}
    (hr : (obs name tr).rds fid = some r) {o : Out} {s1 : Sys}
    (hs : step s (.poll fid euid) = .ok (s1, o)) (count uw : Nat) (later : List Op)
    (hl : ∀ op ∈ later, op.supported = true) :
    (run s1 (.read fid euid count uw :: later)).map (·.2) =
      (run s (.read fid euid count uw :: later)).map (·.2) := by
  obtain ⟨G, a, f, x, hrel, hinv, hname, hsz, hf, hfr, hx, hok⟩ := h.reader hr
  obtain ⟨ho, G1, hrel1⟩ := hrel.step rfl hs
  simp only [astep, hf, astepFile, hfr, if_true, hx] at hrel1
  obtain ⟨_, _, e1, _⟩ := run_refines (.read fid euid count uw :: later) hrel1
    (by intro op hop; rcases List.mem_cons.mp hop with hop | hop; · rw [hop]; rfl
        · exact hl op hop)
  obtain ⟨_, _, e2, _⟩ := run_refines (.read fid euid count uw :: later) hrel
    (by intro op hop; rcases List.mem_cons.mp hop with hop | hop; · rw [hop]; rfl
        · exact hl op hop)
  rw [e1, e2]
  simp only [arun, astep_read_skipped hf hfr hx, Except.map]

/-- C11. A read that fails consumes nothing: a retry by the same user gives
what it would have given instead of the failed call, and everything after that
is the same too. -/
theorem C11_failed_read {name k buf ops s tr} (h : Run name k buf ops s tr) {fid : Nat} {euid : UInt32}
    {count uw : Nat} {e : Errno} {s1 : Sys}
    (hs : step s (.read fid euid count uw) = .ok (s1, .err e)) (count' uw' : Nat) (later : List Op)
    (hl : ∀ op ∈ later, op.supported = true) :
    (run s1 (.read fid euid count' uw' :: later)).map (·.2) =
      (run s (.read fid euid count' uw' :: later)).map (·.2) := by
  obtain ⟨G, a, hrel, hinv, hname, hsz⟩ := h.abs
  obtain ⟨ho, G1, hrel1⟩ := hrel.step rfl hs
  have hsup : ∀ op ∈ (Op.read fid euid count' uw' :: later), op.supported = true := by
    intro op hop
    rcases List.mem_cons.mp hop with hop | hop
    · rw [hop]; rfl
    · exact hl op hop
  obtain ⟨_, _, e1, _⟩ := run_refines (.read fid euid count' uw' :: later) hrel1 hsup
  obtain ⟨_, _, e2, _⟩ := run_refines (.read fid euid count' uw' :: later) hrel hsup
  rw [e1, e2]
  simp only [Except.map, Except.ok.injEq]
  cases hf : a.files fid with
  | none => simp only [astep, hf]
  | some f =>
  cases hfr : f.rd with
  | false => simp only [astep, hf, astepFile, hfr]; rfl
  | true =>
  cases hx : a.log.find fid with
  | none => simp only [astep, hf, astepFile, hfr, hx]; rfl
  | some x =>
  obtain ⟨r, hr, hok⟩ := hinv.ok hx
  have hg : Genuine a.log.hist := by rw [← hinv.hist]; exact h.genuine
  have hlen : a.log.hist.length < 2147483648 := by rw [← hinv.hist]; exact h.count
  rw [astep_read hf hfr hx] at ho ⊢
  have hb1 := hok.2.2.2.1
  have hb2 := hok.2.2.2.2.1
  rcases aread_obs (euid := euid) (count := count) (uw := uw) (r := x) hg (by omega) with
    ⟨bs', e', _⟩ | ⟨bs', e', _⟩ | ⟨e', _⟩
  · rw [e'] at ho; cases ho
  · rw [e'] at ho; cases ho
  · simp only [arun, e', astep_read_skipped hf hfr hx]

/-- C12. Switching a reader to version 1 or to version 2 and reading gives the
same entry: version 1 is version 2 with the header size and the uid removed. -/
theorem C12_versions {name k buf ops s tr} (h : Run name k buf ops s tr) {fid : Nat} {euid : UInt32}
    {c1 u1 c2 u2 : Nat} {sa sb sa' sb' : Sys} {b1 b2 : Bytes}
    (ha : step s (.setVersion fid (some 1)) = .ok (sa, .ok))
    (ha' : step sa (.read fid euid c1 u1) = .ok (sa', .data b1))
    (hb : step s (.setVersion fid (some 2)) = .ok (sb, .ok))
    (hb' : step sb (.read fid euid c2 u2) = .ok (sb', .data b2)) :
    b1 = b2.take 2 ++ [0, 0] ++ (b2.drop 4).take 16 ++ b2.drop 24 ∧
    (b2.drop 2).take 2 = [24, 0] ∧ b2.length = b1.length + 4 ∧
    unle16 (b2.getD 0 0) (b2.getD 1 0) = b2.length - 24 := by
  obtain ⟨G, a, hrel, hinv, hname, hsz⟩ := h.abs
  obtain ⟨hoa, _, hra⟩ := hrel.step rfl ha
  obtain ⟨hob, _, hrb⟩ := hrel.step rfl hb
  obtain ⟨hoa', _⟩ := hra.step rfl ha'
  obtain ⟨hob', _⟩ := hrb.step rfl hb'
  cases hf : a.files fid with
  | none => simp only [astep, hf] at hoa; cases hoa
  | some f =>
  cases hfr : f.rd with
  | false => simp only [astep, hf, astepFile, hfr] at hoa; cases hoa
  | true =>
  cases hx : a.log.find fid with
  | none => simp only [astep, hf, astepFile, hfr, hx] at hoa; cases hoa
  | some x =>
  have ea : (astep a (.setVersion fid (some 1))).1 = { a with log := a.log.set fid { x with ver := 1 } } := by
    simp only [astep, hf, astepFile, hfr, hx]; rfl
  have eb : (astep a (.setVersion fid (some 2))).1 = { a with log := a.log.set fid { x with ver := 2 } } := by
    simp only [astep, hf, astepFile, hfr, hx]; rfl
  rw [ea, astep_read (a := { a with log := a.log.set fid { x with ver := 1 } }) hf hfr (find_set hx)] at hoa'
  rw [eb, astep_read (a := { a with log := a.log.set fid { x with ver := 2 } }) hf hfr (find_set hx)] at hob'
  have hi : ∀ v, (askip a.log.hist euid { x with ver := v }).idx = (askip a.log.hist euid x).idx := by
    intro v; unfold askip; split <;> rfl
  have key : ∀ v c u bs, (aread (a.log.set fid { x with ver := v }) euid { x with ver := v } c u).2 = .data bs →
      ∃ e, a.log.hist[(askip a.log.hist euid x).idx]? = some e ∧
        bs = (if x.dropped > 0 then summaryEntry a.log.name x.dropped e else e).view v := by
    intro v c u bs hbs
    have hs := askip_fields a.log.hist euid { x with ver := v }
    simp only [aread, ALog.set, hi] at hbs
    cases he : a.log.hist[(askip a.log.hist euid x).idx]? with
    | none => rw [he] at hbs; cases hbs
    | some e =>
      rw [he] at hbs
      simp only [hs.2.2.1, hs.2.1] at hbs
      refine ⟨e, rfl, ?_⟩
      by_cases h0 : x.dropped > 0
      · simp only [h0, if_true] at hbs ⊢
        split at hbs
        · cases hbs
        · split at hbs
          · cases hbs
          · simp only [Out.data.injEq] at hbs; exact hbs.symm
      · simp only [h0, if_false] at hbs ⊢
        split at hbs
        · cases hbs
        · split at hbs
          · cases hbs
          · simp only [Out.data.injEq] at hbs; exact hbs.symm
  obtain ⟨e1, h1, v1⟩ := key 1 _ _ _ hoa'
  obtain ⟨e2, h2, v2⟩ := key 2 _ _ _ hob'
  rw [h1] at h2
  injection h2 with h2
  subst h2
  have hwf : (if x.dropped > 0 then summaryEntry a.log.name x.dropped e1 else e1).wf := by
    split
    · have := (summaryText_length a.log.name x.dropped).1
      have := hrel.log.nameLen
      show (summaryText a.log.name x.dropped).length ≤ 4076
      omega
    · exact hinv.wf _ (List.mem_of_getElem? h1)
  generalize (if x.dropped > 0 then summaryEntry a.log.name x.dropped e1 else e1) = e at *
  have hp : e.payload.length ≤ 4076 := hwf
  subst v1 v2
  refine ⟨rfl, rfl, ?_, ?_⟩
  · rw [view_length, view_length]; simp [userHdrLen, hdrSize, compatHdrSize]; omega
  · rw [view_length]
    have := unle16_le16 (n := e.payload.length) (by omega)
    simp only [userHdrLen]
    exact this.trans (by simp)

end Verif.Kernel
