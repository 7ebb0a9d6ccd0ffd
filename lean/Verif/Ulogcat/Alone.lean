import Verif.Ulogcat.PropsScreen

/-!
# A viewer that is alone with its device

`driverWorld` when nobody else uses the device: a dump ends, and it has met no
fault. Helper lemmas for C106.
-/
namespace Verif.Ulogcat
open Verif Verif.Kernel Verif.Libulog

/-- Without losses the bytes shown are the texts of the entries. -/
theorem OnScreen.lossless {L : Look} {name : Bytes} {size : Nat} {hist : List Entry} {p q : Nat} {bs : Bytes}
    (h : OnScreen L name size hist p bs q) (hs : bytesLen (hist.drop p) + 8200 ≤ size) :
    p ≤ q ∧ bs = ((hist.drop p).take (q - p)).flatMap (entryText L) := by
  induction h with
  | nil => exact ⟨Nat.le_refl _, by simp⟩
  | @entry p e bs q h _ ih =>
    have hd : hist.drop p = e :: hist.drop (p + 1) := by
      obtain ⟨hl, he⟩ := List.getElem?_eq_some_iff.1 h
      rw [List.drop_eq_getElem_cons hl, he]
    have hb : bytesLen (hist.drop (p + 1)) ≤ bytesLen (hist.drop p) := by
      rw [hd]; simp [bytesLen]
    obtain ⟨i1, i2⟩ := ih (by omega)
    refine ⟨by omega, ?_⟩
    rw [hd, show q - p = (q - (p + 1)) + 1 by omega, List.take_succ_cons, List.flatMap_cons, ← i2]
  | @lost p n e bs q hn ho _ _ _ =>
    have := ho p (Nat.le_refl _) (by omega)
    omega

/-- Nobody else acts, the calls so far are a run of the driver, and the reader is at
number `p`. -/
structure Alone (name : Bytes) (k : Nat) (buf : Nat → UInt8) (fid p : Nat) (w : DW) : Prop where
  env : w.env = []
  run : ∃ ops, Run name k buf ops w.sys w.tr
  pos : At name w.tr fid p

/-- The entries committed so far. -/
def DW.hist (name : Bytes) (w : DW) : List Entry := (obs name w.tr).hist

variable {name : Bytes} {k : Nat} {buf : Nat → UInt8} {fid p : Nat} {w : DW}

theorem others_alone (h : w.env = []) : w.others fid = w := by
  unfold DW.others
  obtain ⟨sys, tr, os, env⟩ := w
  have h : env = [] := h
  subst h
  rfl

/-- A call that commits nothing. -/
theorem exec_keeps {ops : List Op} (hrun : Run name k buf ops w.sys w.tr) {op : Op} (hop : op.supported = true) {s' : Sys} {o : Out}
    (hs : Kernel.step w.sys op = .ok (s', o)) (hh : (obs name (w.tr ++ [(op, o)])).hist = (obs name w.tr).hist) :
    w.exec op = ({ w with sys := s', tr := w.tr ++ [(op, o)] }, some o) ∧
      Run name k buf (ops ++ [op]) s' (w.tr ++ [(op, o)]) := by
  refine ⟨?_, hrun.snoc hop hs (by rw [hh]; exact hrun.genuine) (by rw [hh]; exact hrun.count)⟩
  unfold DW.exec
  rw [hs]

theorem obs_quiet (name : Bytes) (tr : List (Op × Out)) (op : Op) (o : Out)
    (h : (∃ f e, op = .poll f e) ∨ (∃ f, op = .check f) ∨ (∃ f, op = .getLogLen f) ∨ ∃ f e c u, op = .read f e c u) :
    (obs name (tr ++ [(op, o)])).hist = (obs name tr).hist := by
  rw [obs_snoc]
  rcases h with ⟨f, e, rfl⟩ | ⟨f, rfl⟩ | ⟨f, rfl⟩ | ⟨f, e, c, u, rfl⟩
  · rfl
  · rfl
  · rfl
  · cases o <;> rfl

/-- Where the reader stands in the abstract log. -/
theorem Alone.reader (h : Alone name k buf fid p w) :
    ∃ G a f x, Rel k G w.sys a ∧ a.files fid = some f ∧ f.rd = true ∧ a.log.find fid = some x ∧ x.all = true ∧
      a.log.hist = w.hist name ∧ (x.idx < a.log.hist.length ↔ p < a.log.hist.length) ∧ x.idx ≤ a.log.hist.length := by
  obtain ⟨ops, hrun⟩ := h.run
  have hat := h.pos
  obtain ⟨r, hr, hall, hv, hp⟩ := hat
  obtain ⟨G, a, f, x, hrel, hinv, hname, hsz, hf, hfr, hx, hok⟩ := hrun.reader hr
  have hok' := hok
  obtain ⟨k1, k2, k3, k4, k5, k6⟩ := hok
  have hxall : x.all = true := by rw [← k1]; exact hall
  obtain ⟨hk, hlost⟩ := k6 hxall
  refine ⟨G, a, f, x, hrel, hf, hfr, hx, hxall, hinv.hist.symm, ⟨fun hl => by omega, fun hl => ?_⟩, by omega⟩
  by_cases hi : x.idx = a.log.hist.length
  · obtain ⟨G', s', hs, _⟩ := step_refines hrel (.check fid) rfl
    have ho : (astep a (.check fid)).2 = .block := by
      simp only [astep, Op.fid, hf, astepFile, hfr, if_true, hx, hi]
    rw [ho] at hs
    have := check_end hrun h.pos hs
    rw [hinv.hist] at this
    omega
  · omega

/-- `poll` tells whether something is left. -/
theorem Alone.poll (h : Alone name k buf fid p w) (euid : UInt32) :
    ∃ w', w.exec (.poll fid euid) = (w', some (.poll (decide (p < (w.hist name).length)))) ∧ Alone name k buf fid p w' ∧
      w'.hist name = w.hist name ∧ w'.os = w.os ∧ ∃ t, w'.tr = w.tr ++ t ∧ NoFlush t := by
  obtain ⟨G, a, f, x, hrel, hf, hfr, hx, hall, hh, hi, hle⟩ := h.reader
  obtain ⟨ops, hrun⟩ := h.run
  obtain ⟨G', s', hs, _⟩ := step_refines hrel (.poll fid euid) rfl
  have ho : (astep a (.poll fid euid)).2 = .poll (decide (p < (w.hist name).length)) := by
    simp only [astep, Op.fid, hf, astepFile, hfr, if_true, hx, askip_all hall, Out.poll.injEq, ← hh, decide_eq_decide]
    omega
  rw [ho] at hs
  have hq := obs_quiet name w.tr (.poll fid euid) (.poll (decide (p < (w.hist name).length))) (.inl ⟨_, _, rfl⟩)
  obtain ⟨e1, e2⟩ := exec_keeps hrun rfl hs hq
  refine ⟨_, e1, ⟨h.env, ⟨_, e2⟩, ?_⟩, hq, rfl, _, rfl, ?_⟩
  · exact h.pos.step (q := (.poll fid euid, .poll _)) (by simp) (.inr (.inr (.inr (.inl ⟨_, rfl⟩))))
  · intro x hx g hg
    rw [List.mem_singleton.1 hx] at hg
    cases hg

/-- The amount left is not 0 if something is left. -/
theorem Alone.logLen (h : Alone name k buf fid p w) :
    ∃ w' m, w.exec (.getLogLen fid) = (w', some (.ret m)) ∧ (p < (w.hist name).length → 0 < m) ∧ Alone name k buf fid p w' ∧
      w'.hist name = w.hist name ∧ w'.os = w.os ∧ w'.tr = w.tr ++ [(.getLogLen fid, .ret m)] := by
  obtain ⟨G, a, f, x, hrel, hf, hfr, hx, hall, hh, hi, hle⟩ := h.reader
  obtain ⟨ops, hrun⟩ := h.run
  obtain ⟨G', s', hs, _⟩ := step_refines hrel (.getLogLen fid) rfl
  have ho : (astep a (.getLogLen fid)).2 = .ret (bytesLen (a.log.hist.drop x.idx)) := by
    simp only [astep, Op.fid, hf, astepFile, hfr, if_true, hx]
  rw [ho] at hs
  have hq := obs_quiet name w.tr (.getLogLen fid) (.ret (bytesLen (a.log.hist.drop x.idx))) (.inr (.inr (.inl ⟨_, rfl⟩)))
  obtain ⟨e1, e2⟩ := exec_keeps hrun rfl hs hq
  refine ⟨_, _, e1, ?_, ⟨h.env, ⟨_, e2⟩, ?_⟩, hq, rfl, rfl⟩
  · intro hp
    have hl := hi.2 (by rw [hh]; exact hp)
    rw [List.drop_eq_getElem_cons hl]
    simp only [bytesLen, List.map_cons, List.sum_cons, Entry.size]
    omega
  · exact h.pos.step (q := (.getLogLen fid, .ret _)) (by simp) (.inr (.inr (.inr (.inr rfl))))

theorem noFlush_append {t u : List (Op × Out)} (h : NoFlush t) (h' : NoFlush u) : NoFlush (t ++ u) := by
  intro x hx
  rcases List.mem_append.1 hx with hx | hx
  · exact h x hx
  · exact h' x hx

/-- A non-blocking `read` when something is left. -/
theorem Alone.sysRead (h : Alone name k buf fid p w) (hp : p < (w.hist name).length) (euid : UInt32) (count n : Nat) :
    ∃ w' r, w.sysRead fid euid count (n + 1) = (w', some r) ∧ w'.hist name = w.hist name ∧ w'.os = w.os ∧
      (∃ t, w'.tr = w.tr ++ t ∧ NoFlush t) ∧
      ((r = .inval ∧ count < 4100 ∧ Alone name k buf fid p w') ∨
       ∃ bs q, r = .data bs ∧ p < q ∧ q ≤ (w.hist name).length ∧ Alone name k buf fid q w') := by
  obtain ⟨G, a, f, x, hrel, hf, hfr, hx, hall, hh, hi, hle⟩ := h.reader
  have hi := hi.2 (by rw [hh]; exact hp)
  obtain ⟨ops, hrun⟩ := h.run
  obtain ⟨G1, s1, hs1, hrel1⟩ := step_refines hrel (.check fid) rfl
  have ho1 : astep a (.check fid) = (a, .ready) := by
    simp only [astep, Op.fid, hf, astepFile, hfr, if_true, hx]
    rw [if_neg (by omega)]
  rw [ho1] at hs1 hrel1
  have hq1 := obs_quiet name w.tr (.check fid) .ready (.inr (.inl ⟨_, rfl⟩))
  obtain ⟨e1, r1⟩ := exec_keeps hrun rfl hs1 hq1
  have hat1 := h.pos.step (q := (.check fid, .ready)) (by simp) (.inr (.inl rfl))
  obtain ⟨G2, s2, hs2, hrel2⟩ := step_refines hrel1 (.read fid euid count count) rfl
  dsimp only at hs2 hrel2
  rw [astep_read hf hfr hx] at hs2 hrel2
  have hen : a.log.hist[x.idx]? = some a.log.hist[x.idx] := List.getElem?_eq_getElem hi
  have hcase : (aread a.log euid x count count).2 = .err .einval ∨ ∃ bs, (aread a.log euid x count count).2 = .data bs := by
    simp only [aread, askip_all hall, hen]
    generalize (if x.dropped > 0 then (summaryEntry a.log.name x.dropped a.log.hist[x.idx]).view x.ver
      else a.log.hist[x.idx].view x.ver) = v
    by_cases hc : count < v.length
    · rw [if_pos hc]; exact .inl rfl
    · rw [if_neg hc, if_neg hc]
      split <;> exact .inr ⟨_, rfl⟩
  have nf : ∀ o, NoFlush ([(Op.check fid, Out.ready)] ++ [(Op.read fid euid count count, o)]) := by
    intro o x hx g hg
    rcases List.mem_append.1 hx with hx | hx
    · rw [List.mem_singleton.1 hx] at hg; cases hg
    · rw [List.mem_singleton.1 hx] at hg; cases hg
  have hstart : ∀ (x : DW × Option RdRes),
      (match ({ w with sys := s1, tr := w.tr ++ [(Op.check fid, Out.ready)] } : DW).exec (.read fid euid count count) with
        | (w, o) => match o with
          | some (.data bs) => (w, some (RdRes.data bs))
          | some (.err .einval) => (w, some .inval)
          | some (.err _) => (w, some .other)
          | some .block => DW.sysRead fid euid count n w
          | _ => (w, none)) = x → w.sysRead fid euid count (n + 1) = x := by
    intro x hx
    unfold DW.sysRead
    rw [others_alone h.env, e1]
    dsimp only
    rw [others_alone (w := { w with sys := s1, tr := w.tr ++ [(Op.check fid, Out.ready)] }) h.env]
    exact hx
  rcases hcase with hc | ⟨bs, hc⟩
  · rw [hc] at hs2
    have hq2 := obs_quiet name (w.tr ++ [(.check fid, .ready)]) (.read fid euid count count) (.err .einval)
      (.inr (.inr (.inr ⟨_, _, _, _, rfl⟩)))
    obtain ⟨e2, r2⟩ := exec_keeps (w := { w with sys := s1, tr := w.tr ++ [(.check fid, .ready)] }) r1 rfl hs2 hq2
    refine ⟨{ w with sys := s2, tr := w.tr ++ [(.check fid, .ready)] ++ [(.read fid euid count count, .err .einval)] }, .inval, hstart _ (by rw [e2]), ?_, rfl, ⟨_, List.append_assoc _ _ _, nf _⟩, .inl ⟨rfl, ?_, ?_⟩⟩
    · unfold DW.hist
      dsimp only
      rw [hq2, hq1]
    · have hw : ∀ e ∈ a.log.hist, e.payload.length ≤ 4076 := fun e he => hrel.log.wf e he
      simp only [aread, askip_all hall, hen] at hc
      have hv : (if x.dropped > 0 then (summaryEntry a.log.name x.dropped a.log.hist[x.idx]).view x.ver
          else a.log.hist[x.idx].view x.ver).length ≤ 4100 := by
        split
        · exact summary_le hrel.log.nameLen _ _ _
        · exact view_le (hw _ (List.getElem_mem _)) _
      revert hc hv
      generalize (if x.dropped > 0 then (summaryEntry a.log.name x.dropped a.log.hist[x.idx]).view x.ver
        else a.log.hist[x.idx].view x.ver) = v
      intro hc hv
      by_cases hlt : count < v.length
      · omega
      · rw [if_neg hlt, if_neg hlt] at hc
        split at hc <;> cases hc
    · exact ⟨h.env, ⟨_, r2⟩, hat1.step (q := (.read fid euid count count, .err .einval)) (by simp)
        (.inr (.inr (.inl ⟨⟨_, _, _, rfl⟩, by simp⟩)))⟩
  · rw [hc] at hs2
    have hq2 := obs_quiet name (w.tr ++ [(.check fid, .ready)]) (.read fid euid count count) (.data bs)
      (.inr (.inr (.inr ⟨_, _, _, _, rfl⟩)))
    obtain ⟨e2, r2⟩ := exec_keeps (w := { w with sys := s1, tr := w.tr ++ [(.check fid, .ready)] }) r1 rfl hs2 hq2
    obtain ⟨e, q, g1, g2, g3, g4⟩ := read_next r1 hat1 hs2
    refine ⟨{ w with sys := s2, tr := w.tr ++ [(.check fid, .ready)] ++ [(.read fid euid count count, .data bs)] }, .data bs, hstart _ (by rw [e2]), ?_, rfl, ⟨_, List.append_assoc _ _ _, nf _⟩,
      .inr ⟨bs, q, rfl, ?_, ?_, h.env, ⟨_, r2⟩, g4⟩⟩
    · unfold DW.hist
      dsimp only
      rw [hq2, hq1]
    · cases g1 <;> omega
    · rw [hq1] at g1
      show q ≤ (obs name w.tr).hist.length
      cases g1 with
      | entry h => have := (List.getElem?_eq_some_iff.1 h).1; omega
      | lost _ _ h => have := (List.getElem?_eq_some_iff.1 h).1; omega

theorem afterRead_ret {csv f r o} (h : afterRead csv f r = some o) : o.ret = -1 ∨ 0 ≤ o.ret := by
  unfold afterRead at h
  split at h
  · cases h; exact .inr (Int.le_refl 0)
  · cases h; exact .inr (Int.le_refl 0)
  · cases h; exact .inl rfl
  · cases h; exact .inl rfl
  · split at h
    · cases h
    · dsimp only at h
      split at h
      · cases h; exact .inl rfl
      · simp only [Option.bind_eq_bind, Option.pure_def, Option.bind_eq_some_iff] at h
        obtain ⟨raw, _, h⟩ := h
        split at h
        · cases h; exact .inl rfl
        · simp only [Option.bind_eq_some_iff] at h
          obtain ⟨_, _, _, _, _, _, _, _, _, _, h⟩ := h
          cases h
          dsimp only
          split
          · exact .inr (Int.le_refl 0)
          · exact .inr (by decide)

/-- A call of `ulog_receive_entry` when something is left. -/
theorem Alone.receive (h : Alone name k buf fid p w) (hp : p < (w.hist name).length) (euid : UInt32) (csv : Bool) (n : Nat) :
    ∃ w' o q, w.receive fid euid csv (n + 1) = (w', some o) ∧ 0 ≤ o.ret ∧ o.taken = 0 ∧ w'.hist name = w.hist name ∧
      w'.os = w.os ∧ (∃ t, w'.tr = w.tr ++ t ∧ NoFlush t) ∧ p < q ∧ q ≤ (w.hist name).length ∧ Alone name k buf fid q w' := by
  obtain ⟨w1, r1, e1, h1, o1, ⟨t1, ht1, nf1⟩, c1⟩ := h.sysRead hp euid frameSize n
  obtain ⟨u1, a1, a2, _⟩ := DW.sysRead_tr _ _ _ _ e1
  have hu1 : u1 = t1 := List.append_cancel_left (a2.symm.trans ht1)
  subst hu1
  have fresh : zeroFrame.fresh := ⟨rfl, by simp [zeroFrame]⟩
  rcases c1 with ⟨rfl, _, al1⟩ | ⟨bs, q, rfl, hq1, hq2, al1⟩
  · obtain ⟨w2, r2, e2, h2, o2, ⟨t2, ht2, nf2⟩, c2⟩ := al1.sysRead (by rw [h1]; exact hp) euid entryMax n
    obtain ⟨u2, b1, b2, _⟩ := DW.sysRead_tr _ _ _ _ e2
    have hu2 : u2 = t2 := List.append_cancel_left (b2.symm.trans ht2)
    subst hu2
    rcases c2 with ⟨_, hc, _⟩ | ⟨bs, q, rfl, hq1, hq2, al2⟩
    · exact absurd hc (by decide)
    · obtain ⟨ops, hrun⟩ := al2.run
      have heq : w2.tr = w.tr ++ u1 ++ u2 := by rw [b2, a2]
      rw [heq] at hrun
      obtain ⟨o, g1, g2, g3, _⟩ := C84_receive hrun h.pos.openWith fresh a1 true csv (fun _ => 0) (r2 := .data bs) (by simpa [retries, zeroFrame] using b1)
      refine ⟨w2, o, q, ?_, ?_, g3, h2.trans h1, o2.trans o1, ⟨u1 ++ u2, by rw [heq, List.append_assoc], noFlush_append nf1 nf2⟩,
        hq1, by rw [← h1]; exact hq2, al2⟩
      · unfold DW.receive
        rw [e1]
        dsimp only
        rw [if_pos (by decide), e2]
        dsimp only
        rw [g1]
      · have hn : ¬ o.ret = -1 := fun hx => by simpa using g2.1 hx
        unfold Ulogcat.receive at g1
        rw [if_pos (by decide), if_pos rfl] at g1
        rcases afterRead_ret g1 with hx | hx
        · exact absurd hx hn
        · exact hx
  · obtain ⟨ops, hrun⟩ := al1.run
    have heq : w1.tr = w.tr ++ u1 ++ [] := by rw [a2, List.append_nil]
    rw [heq] at hrun
    obtain ⟨o, g1, g2, g3, _⟩ := C84_receive hrun h.pos.openWith fresh a1 true csv (fun _ => 0) (r2 := .other) (by simp [retries])
    refine ⟨w1, o, q, ?_, ?_, g3, h1, o1, ⟨u1, a2, nf1⟩, hq1, hq2, al1⟩
    · unfold DW.receive
      rw [e1]
      dsimp only
      rw [if_neg (by simp [retries]), g1]
    · have hn : ¬ o.ret = -1 := fun hx => by simpa using g2.1 hx
      unfold Ulogcat.receive at g1
      rw [if_neg (by simp [retries])] at g1
      rcases afterRead_ret g1 with hx | hx
      · exact absurd hx hn
      · exact hx

/-! ## Turns of the loop -/

/-- The viewer between two turns: nothing waits. -/
def idle (m : Nat) (out : List OutEv) : Ctx := { openCtx [m] 0 with out }

theorem Alone.withOs {os : List RecvOut} (h : Alone name k buf fid p w) : Alone name k buf fid p { w with os } :=
  ⟨h.env, h.run, h.pos⟩

variable {euid : UInt32} {csv : Bool} {sh : RecvOut → Bool} {n m : Nat} {out : List OutEv}

theorem driver_poll (h : Alone name k buf fid p w) :
    ∃ w', (∀ a : Nat → Bool, a 0 = true →
        (driverWorld fid euid csv sh n).poll w a = (.ok fun i => i = 0 && decide (p < (w.hist name).length), w')) ∧
      Alone name k buf fid p w' ∧ w'.hist name = w.hist name ∧ w'.os = w.os ∧ ∃ t, w'.tr = w.tr ++ t ∧ NoFlush t := by
  obtain ⟨w', e, h1⟩ := h.poll euid
  refine ⟨w', fun a ha => ?_, h1⟩
  unfold driverWorld
  dsimp only
  rw [if_pos ha, others_alone h.env, e]

theorem idle_again (W : World DW) {w w1 w2 : DW} {ready : Nat → Bool} (hpoll : ∀ a, a 0 = true → W.poll w a = (.ok ready, w1))
    (hr : ready 0 = true) (hrecv : W.recv w1 0 = (.again, w2)) :
    processDevices W (idle m out) w = .ok (idle m out, w2, 0) := by
  unfold processDevices
  dsimp only
  rw [hpoll _ rfl]
  simp [idle, openCtx, readDevs, List.range_succ, hr, hrecv]

theorem idle_got (W : World DW) {w w1 w2 : DW} {ready : Nat → Bool} (hpoll : ∀ a, a 0 = true → W.poll w a = (.ok ready, w1))
    (hr : ready 0 = true) {stamp id : Nat} {shown : Bool} (hrecv : W.recv w1 0 = (.got stamp id shown 0, w2)) (hm : 0 < m)
    (hW : ∀ e, W.output w2 e = (true, w2)) :
    ∃ out', processDevices W (idle m out) w = .ok (idle m out', w2, 1) := by
  have hm' : (0 : Int) < m := by omega
  cases shown with
  | false =>
    refine ⟨out, ?_⟩
    unfold processDevices
    dsimp only
    rw [hpoll _ rfl]
    simp [idle, openCtx, readDevs, List.range_succ, hr, hrecv, endPass, pullFrame, popOldest, Ctx.upd, flushFrame, flushBanner, flushEntry,
      updateMark, tailFlush, bind, Except.bind, Except.map, hm]
  | true =>
    refine ⟨out ++ [.entry ⟨0, stamp, id, true⟩], ?_⟩
    unfold processDevices
    dsimp only
    rw [hpoll _ rfl]
    simp [idle, openCtx, readDevs, List.range_succ, hr, hrecv, endPass, pullFrame, popOldest, Ctx.upd, flushFrame, flushBanner, flushEntry,
      updateMark, tailFlush, bind, Except.bind, Except.map, hm, output, hW]

theorem idle_done (W : World DW) {w w1 : DW} {ready : Nat → Bool} (hpoll : ∀ a, a 0 = true → W.poll w a = (.ok ready, w1))
    (hr : ready 0 = false) :
    ∃ c, processDevices W (idle m out) w = .ok (c, w1, 0) ∧ c.markReached = true ∧ c.pending = 0 ∧ c.outErr = false := by
  refine ⟨{ idle m out with devs := [{ mark := 0, pending := false, printed := false }], markReached := true }, ?_, rfl, rfl, rfl⟩
  unfold processDevices
  dsimp only
  rw [hpoll _ rfl]
  rcases Nat.eq_zero_or_pos m with h0 | h0
  · subst h0
    simp [idle, openCtx, readDevs, List.range_succ, hr, endPass, pullFrame, popOldest, Ctx.upd, Dev.unready,
      updateMark, tailFlush, bind, Except.bind, Except.map]
  · simp [idle, openCtx, readDevs, List.range_succ, hr, endPass, pullFrame, popOldest, Ctx.upd, Dev.unready,
      updateMark, tailFlush, bind, Except.bind, Except.map, h0]

/-- A turn when something is left. -/
theorem Alone.turn (h : Alone name k buf fid p w) (hp : p < (w.hist name).length) (hm : 0 < m) :
    ∃ w' out' q r, processDevices (driverWorld fid euid csv sh (n + 1)) (idle m out) w = .ok (idle m out', w', r) ∧ 0 ≤ r ∧
      w'.hist name = w.hist name ∧ (∃ t, w'.tr = w.tr ++ t ∧ NoFlush t) ∧ p < q ∧ Alone name k buf fid q w' := by
  obtain ⟨w1, e1, al1, h1, o1, t1, ht1, nf1⟩ := driver_poll (euid := euid) (csv := csv) (sh := sh) (n := n + 1) h
  obtain ⟨w2, o, q, e2, g1, g2, h2, o2, ⟨t2, ht2, nf2⟩, q1, q2, al2⟩ := al1.receive (by rw [h1]; exact hp) euid csv n
  have htr : ∃ t, w2.tr = w.tr ++ t ∧ NoFlush t := ⟨t1 ++ t2, by rw [ht2, ht1, List.append_assoc], noFlush_append nf1 nf2⟩
  have hrecv : (driverWorld fid euid csv sh (n + 1)).recv w1 0 =
      (o.toRecv sh w1.os.length, { w2 with os := w1.os ++ [o] }) := by
    unfold driverWorld
    dsimp only
    rw [if_pos rfl, e2]
  have hready : (decide ((0 : Nat) = 0) && decide (p < (w.hist name).length)) = true := by simp [hp]
  have hout : ∀ w : DW, w.env = [] → ∀ e, (driverWorld fid euid csv sh (n + 1)).output w e = (true, w) := by
    intro w hw e
    show (true, w.others fid) = (true, w)
    rw [others_alone hw]
  by_cases hr : o.ret = 0
  · refine ⟨{ w2 with os := w1.os ++ [o] }, out, q, 0, ?_, Int.le_refl _, h2.trans h1, htr, q1, al2.withOs⟩
    refine idle_again _ e1 hready ?_
    rw [hrecv]
    unfold RecvOut.toRecv
    rw [if_neg (by rw [hr]; decide), if_pos hr]
  · have hgot : o.toRecv sh w1.os.length = .got o.stamp w1.os.length (sh o) 0 := by
      unfold RecvOut.toRecv
      rw [if_neg (Int.not_lt.2 g1), if_neg hr, g2]
      rfl
    rw [hgot] at hrecv
    obtain ⟨out', e⟩ := idle_got (out := out) _ e1 hready hrecv hm (hout _ al2.env)
    exact ⟨_, out', q, 1, e, by decide, h2.trans h1, htr, q1, al2.withOs⟩

/-- A dump of a device nobody else uses ends, after at most one turn more than there
are entries left. -/
theorem Alone.dump : ∀ (j : Nat) {p : Nat} {w : DW} {out : List OutEv} (fr : Int), Alone name k buf fid p w →
    (w.hist name).length - p ≤ j → (p < (w.hist name).length → 0 < m) → ∀ fuel, j < fuel →
    ∃ c w', processLogs (driverWorld fid euid csv sh (n + 1)) true 0 fuel (idle m out) w fr = .ok (c, w', some 0) ∧ c.outErr = false ∧
      w'.hist name = w.hist name ∧ (∃ t, w'.tr = w.tr ++ t ∧ NoFlush t) ∧ ∃ ops, Run name k buf ops w'.sys w'.tr := by
  intro j
  induction j with
  | zero =>
    intro p w out fr h hj _ fuel hf
    obtain ⟨fuel, rfl⟩ : ∃ f, fuel = f + 1 := ⟨fuel - 1, by omega⟩
    obtain ⟨w1, e1, al1, h1, o1, t1, ht1, nf1⟩ := driver_poll (euid := euid) (csv := csv) (sh := sh) (n := n + 1) h
    obtain ⟨c, e2, c1, c2, c3⟩ := idle_done (m := m) (out := out) _ e1 (by simp; omega)
    refine ⟨c, w1, ?_, c3, h1, ⟨t1, ht1, nf1⟩, al1.run⟩
    unfold processLogs
    rw [e2]
    simp [bind, Except.bind, c1, c2, flushPendingQueue]
  | succ j ih =>
    intro p w out fr h hj hm fuel hf
    by_cases hp : p < (w.hist name).length
    · obtain ⟨fuel, rfl⟩ : ∃ f, fuel = f + 1 := ⟨fuel - 1, by omega⟩
      obtain ⟨w1, out1, q, r, e1, hr, h1, ⟨t1, ht1, nf1⟩, hq, al1⟩ := h.turn (euid := euid) (csv := csv) (sh := sh) (n := n) (out := out) hp (hm hp)
      obtain ⟨c, w', e2, c1, c2, ⟨t2, ht2, nf2⟩, c4⟩ := ih (p := q) (w := w1) (out := out1) (fr + r) al1 (by rw [h1]; omega)
        (fun _ => hm hp) fuel (by omega)
      refine ⟨c, w', ?_, c1, c2.trans h1, ⟨t1 ++ t2, by rw [ht2, ht1, List.append_assoc], noFlush_append nf1 nf2⟩, c4⟩
      unfold processLogs
      rw [e1]
      have h2 : (idle m out1).markReached = false := rfl
      have h3 : (idle m out1).outErr = false := rfl
      simp only [bind, Except.bind, if_neg (Int.not_lt.2 hr), h2, h3, Bool.and_false, Bool.false_eq_true, if_false, true_or, if_true]
      exact e2
    · exact ih fr h (by omega) hm fuel (by omega)

end Verif.Ulogcat
