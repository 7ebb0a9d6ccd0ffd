import Verif.Ulogcat.PropsSaid

/-!
# Where a reader stands

A viewer alone with a device whose log may have lost entries: what is left to receive
is known exactly. Helper lemmas for C119 and C135.
-/
namespace Verif.Ulogcat
open Verif Verif.Kernel Verif.Libulog

/-- What reader `x` of a log with these entries has yet to receive: a notice, if entries
were dropped, and the entries from its place on. -/
def seenFrom (name : Bytes) (x : ARd) (hist : List Entry) : List Entry :=
  match hist.drop x.idx with
  | [] => []
  | e :: t => if x.dropped > 0 then summaryEntry name x.dropped e :: e :: t else e :: t

/-- Nobody else acts, and file `fid` is a reader that sees everything, in place `x`. -/
structure Stands (name : Bytes) (k fid : Nat) (hist : List Entry) (x : ARd) (w : DW) : Prop where
  env : w.env = []
  abs : ∃ G a f, Rel k G w.sys a ∧ a.log.hist = hist ∧ a.log.name = name ∧ a.files fid = some f ∧ f.rd = true ∧ a.log.find fid = some x
  all : x.all = true
  ver : x.ver = 2

variable {name : Bytes} {k fid : Nat} {hist : List Entry} {x : ARd} {w : DW}

theorem Stands.withOs {os : List RecvOut} (h : Stands name k fid hist x w) : Stands name k fid hist x { w with os } :=
  ⟨h.env, h.abs, h.all, h.ver⟩

theorem seenFrom_empty (name : Bytes) (x : ARd) (hist : List Entry) : (seenFrom name x hist).isEmpty = decide (hist.length ≤ x.idx) := by
  unfold seenFrom
  by_cases h : x.idx < hist.length
  · rw [List.drop_eq_getElem_cons h]
    dsimp only
    have : ¬ hist.length ≤ x.idx := by omega
    split <;> simp [this]
  · rw [List.drop_of_length_le (by omega)]
    have : hist.length ≤ x.idx := by omega
    simp [this]

theorem Stands.le (h : Stands name k fid hist x w) : x.idx ≤ hist.length := by
  obtain ⟨G, a, f, hrel, hh, _, _, _, hx⟩ := h.abs
  subst hh
  exact (hrel.log.live _ (lookup_mem hx)).1

/-- A step of the driver that changes only the reader's place. -/
theorem Stands.exec (h : Stands name k fid hist x w) {op : Op} (hop : op.supported = true) {y : ARd} {o : Out}
    (hs : ∀ (a : ASys) (f : File), a.log.hist = hist → a.log.name = name → a.files fid = some f → f.rd = true → a.log.find fid = some x →
      ∃ b, astep a op = (b, o) ∧ b.log.hist = hist ∧ b.log.name = name ∧ b.files fid = some f ∧ b.log.find fid = some y)
    (ha : y.all = true) (hv : y.ver = 2) :
    ∃ s', w.exec op = ({ w with sys := s', tr := w.tr ++ [(op, o)] }, some o) ∧
      Stands name k fid hist y { w with sys := s', tr := w.tr ++ [(op, o)] } := by
  obtain ⟨G, a, f, hrel, g1, g2, g3, g4, g5⟩ := h.abs
  obtain ⟨b, e, b1, b2, b3, b4⟩ := hs a f g1 g2 g3 g4 g5
  obtain ⟨G', s', hs, hrel'⟩ := step_refines hrel op hop
  rw [e] at hs hrel'
  refine ⟨s', ?_, h.env, ⟨G', b, f, hrel', b1, b2, b3, g4, b4⟩, ha, hv⟩
  unfold DW.exec
  rw [hs]

/-- `poll` tells whether something is left. -/
theorem Stands.poll (h : Stands name k fid hist x w) (euid : UInt32) :
    ∃ w', w.exec (.poll fid euid) = (w', some (.poll (!(seenFrom name x hist).isEmpty))) ∧ Stands name k fid hist x w' ∧ w'.os = w.os := by
  have hle := h.le
  obtain ⟨s', e1, e2⟩ := h.exec (op := .poll fid euid) rfl (y := x) (o := .poll (!(seenFrom name x hist).isEmpty)) (fun a f g1 g2 g3 g4 g5 => by
    refine ⟨{ a with log := a.log.set fid x }, ?_, g1, g2, g3, find_set g5⟩
    simp only [astep, Op.fid, g3, astepFile, g4, if_true, g5, askip_all h.all, Prod.mk.injEq, true_and, Out.poll.injEq]
    rw [seenFrom_empty, g1]
    by_cases hx : x.idx = hist.length
    · simp [hx]
    · have : ¬ hist.length ≤ x.idx := by omega
      simp [hx, this]) h.all h.ver
  exact ⟨_, e1, e2, rfl⟩

theorem Stands.check (h : Stands name k fid hist x w) :
    ∃ s', w.exec (.check fid) = ({ w with sys := s', tr := w.tr ++ [(.check fid, if x.idx = hist.length then .block else .ready)] },
        some (if x.idx = hist.length then .block else .ready)) ∧
      Stands name k fid hist x { w with sys := s', tr := w.tr ++ [(.check fid, if x.idx = hist.length then .block else .ready)] } :=
  h.exec rfl (fun a f g1 g2 g3 g4 g5 => ⟨a, by simp only [astep, Op.fid, g3, astepFile, g4, if_true, g5, g1], g1, g2, g3, g5⟩) h.all h.ver

/-- The reader after the next record. -/
def _root_.Verif.Kernel.ARd.after (x : ARd) : ARd := if x.dropped > 0 then { x with dropped := 0 } else { x with idx := x.idx + 1 }

theorem seenFrom_cons {e : Entry} {t : List Entry} (h : seenFrom name x hist = e :: t) :
    x.idx < hist.length ∧ seenFrom name x.after hist = t ∧
      ∃ e0, hist[x.idx]? = some e0 ∧ e = if x.dropped > 0 then summaryEntry name x.dropped e0 else e0 := by
  unfold seenFrom at h
  by_cases hi : x.idx < hist.length
  · rw [List.drop_eq_getElem_cons hi] at h
    dsimp only at h
    refine ⟨hi, ?_, _, List.getElem?_eq_getElem hi, ?_⟩
    · unfold ARd.after seenFrom
      by_cases hd : x.dropped > 0
      · rw [if_pos hd] at h ⊢
        dsimp only
        rw [List.drop_eq_getElem_cons hi]
        dsimp only
        rw [if_neg (Nat.lt_irrefl 0)]
        exact (List.cons.inj h).2
      · rw [if_neg hd] at h ⊢
        dsimp only
        rw [← (List.cons.inj h).2]
        cases hist.drop (x.idx + 1) with
        | nil => rfl
        | cons a t => dsimp only; rw [if_neg hd]
    · by_cases hd : x.dropped > 0
      · rw [if_pos hd] at h ⊢
        exact (List.cons.inj h).1.symm
      · rw [if_neg hd] at h ⊢
        exact (List.cons.inj h).1.symm
  · rw [List.drop_of_length_le (by omega)] at h
    cases h

theorem _root_.Verif.Kernel.ARd.after_all (x : ARd) : x.after.all = x.all ∧ x.after.ver = x.ver := by
  unfold ARd.after
  split <;> exact ⟨rfl, rfl⟩

/-- A non-blocking `read` when something is left. -/
theorem Stands.sysRead (h : Stands name k fid hist x w) {e : Entry} {t : List Entry} (he : seenFrom name x hist = e :: t)
    (euid : UInt32) (count n : Nat) :
    e.payload.length ≤ 4076 ∧ (e.view 2).length ≤ 4100 ∧ ∃ w', w'.os = w.os ∧
      ((count < (e.view 2).length ∧ w.sysRead fid euid count (n + 1) = (w', some .inval) ∧ Stands name k fid hist x w') ∨
       ((e.view 2).length ≤ count ∧ w.sysRead fid euid count (n + 1) = (w', some (.data (e.view 2))) ∧ Stands name k fid hist x.after w')) := by
  obtain ⟨hi, _, e0, h0, hee⟩ := seenFrom_cons he
  obtain ⟨s1, c1, h1⟩ := h.check
  rw [if_neg (by omega : ¬ x.idx = hist.length)] at c1 h1
  have hlens : e.payload.length ≤ 4076 ∧ (e.view 2).length ≤ 4100 := by
    obtain ⟨G, a, f, hrel, g1, g2, _⟩ := h.abs
    have hw : e0.wf := hrel.log.wf _ (by rw [g1]; exact List.mem_of_getElem? h0)
    rw [hee]
    split
    · have hs := summary_le hrel.log.nameLen x.dropped e0 2
      rw [g2] at hs
      refine ⟨?_, hs⟩
      rw [view_length, show userHdrLen 2 = 24 from rfl] at hs
      omega
    · exact ⟨hw, view_le hw 2⟩
  refine ⟨hlens.1, hlens.2, ?_⟩
  have hstart : ∀ (y : DW × Option RdRes),
      (match ({ w with sys := s1, tr := w.tr ++ [(Op.check fid, Out.ready)] } : DW).exec (.read fid euid count count) with
        | (w, o) => match o with
          | some (.data bs) => (w, some (RdRes.data bs))
          | some (.err .einval) => (w, some .inval)
          | some (.err _) => (w, some .other)
          | some .block => DW.sysRead fid euid count n w
          | _ => (w, none)) = y → w.sysRead fid euid count (n + 1) = y := by
    intro y hy
    unfold DW.sysRead
    rw [others_alone h.env, c1]
    dsimp only
    rw [others_alone (w := { w with sys := s1, tr := w.tr ++ [(Op.check fid, Out.ready)] }) h.env]
    exact hy
  have hview : ∀ a : ASys, a.log.hist = hist → a.log.name = name → aread a.log euid x count count =
      if count < (e.view 2).length then (x, .err .einval) else (x.after, .data (e.view 2)) := by
    intro a g1 g2
    have hv : (if x.dropped > 0 then (summaryEntry name x.dropped e0).view 2 else e0.view 2) = e.view 2 := by
      rw [hee]; split <;> rfl
    simp only [aread, askip_all h.all, g1, g2, h0, h.ver, hv]
    by_cases hc : count < (e.view 2).length
    · rw [if_pos hc, if_pos hc]
    · rw [if_neg hc, if_neg hc, if_neg hc]
      unfold ARd.after
      split <;> rw [← h.ver]
  by_cases hc : count < (e.view 2).length
  · obtain ⟨s2, c2, h2⟩ := h1.exec (op := .read fid euid count count) rfl (y := x) (o := .err .einval) (fun a f g1 g2 g3 g4 g5 => by
      refine ⟨{ a with log := a.log.set fid x }, ?_, g1, g2, g3, find_set g5⟩
      rw [astep_read g3 g4 g5, hview a g1 g2, if_pos hc]) h.all h.ver
    refine ⟨_, ?_, .inl ⟨hc, hstart _ ?_, h2⟩⟩
    · rfl
    · rw [c2]
  · obtain ⟨s2, c2, h2⟩ := h1.exec (op := .read fid euid count count) rfl (y := x.after) (o := .data (e.view 2)) (fun a f g1 g2 g3 g4 g5 => by
      refine ⟨{ a with log := a.log.set fid x.after }, ?_, g1, g2, g3, find_set g5⟩
      rw [astep_read g3 g4 g5, hview a g1 g2, if_neg hc]) (x.after_all.1.trans h.all) (x.after_all.2.trans h.ver)
    refine ⟨_, ?_, .inr ⟨by omega, hstart _ ?_, h2⟩⟩
    · rfl
    · rw [c2]

theorem received_view {e : Entry} (hl : e.payload.length ≤ 4076) {f : RFrame} (csv : Bool) (hfit : (e.view 2).length ≤ f.mem.length) :
    ∃ o, afterRead csv f (.data (e.view 2)) = some o ∧ Received csv (e.view 2) e o := by
  obtain ⟨x, m', e1, hml, e3, e4⟩ := afterRead_view hl csv hfit
  exact ⟨_, e1, rfl, stampOf_eq _ _, rfl, _, x, rfl, rfl, by dsimp only; rw [hml]; exact hfit, e3, e4⟩

/-- A call of `ulog_receive_entry` receives the next record. -/
theorem Stands.next (h : Stands name k fid hist x w) {e : Entry} {t : List Entry} (he : seenFrom name x hist = e :: t)
    (euid : UInt32) (csv : Bool) (n : Nat) :
    ∃ w' o x', w.receive fid euid csv (n + 1) = (w', some o) ∧ Received csv (e.view 2) e o ∧ w'.os = w.os ∧
      Stands name k fid hist x' w' ∧ seenFrom name x' hist = t := by
  obtain ⟨hp, hv, w1, o1, c1⟩ := h.sysRead he euid frameSize n
  have ht := (seenFrom_cons he).2.1
  rcases c1 with ⟨_, c1, h1⟩ | ⟨hc, c1, h1⟩
  · obtain ⟨_, _, w2, o2, c2⟩ := h1.sysRead he euid entryMax n
    rcases c2 with ⟨hc, _, _⟩ | ⟨hc, c2, h2⟩
    · exact absurd hc (by unfold entryMax; omega)
    · obtain ⟨o, r1, r2⟩ := received_view hp (f := { big := true, mem := (List.range entryMax).map fun _ => 0 }) csv (by simpa using hc)
      refine ⟨w2, o, x.after, ?_, r2, o2.trans o1, h2, ht⟩
      unfold DW.receive
      rw [c1]
      dsimp only
      rw [if_pos (by decide), c2]
      dsimp only
      unfold Ulogcat.receive
      rw [if_pos (by decide), if_pos rfl, r1]
  · obtain ⟨o, r1, r2⟩ := received_view hp (f := zeroFrame) csv (by simpa [zeroFrame] using hc)
    refine ⟨w1, o, x.after, ?_, r2, o1, h1, ht⟩
    have hre : retries zeroFrame (.data (e.view 2)) = false := by simp [retries]
    unfold DW.receive
    rw [c1]
    dsimp only
    rw [if_neg (by rw [hre]; simp)]
    unfold Ulogcat.receive
    rw [if_neg (by rw [hre]; simp), r1]

/-- A call of `ulog_receive_entry` when nothing is left. -/
theorem Stands.none_left (h : Stands name k fid hist x w) (he : seenFrom name x hist = []) (euid : UInt32) (csv : Bool) (n : Nat) :
    ∃ w' o, w.receive fid euid csv (n + 1) = (w', some o) ∧ o.ret = 0 ∧ w'.os = w.os ∧ Stands name k fid hist x w' := by
  have hemp := seenFrom_empty name x hist
  rw [he] at hemp
  have hi : x.idx = hist.length := by
    have h1 := h.le
    have h2 : hist.length ≤ x.idx := by simpa using hemp
    omega
  obtain ⟨s1, c1, h1⟩ := h.check
  rw [if_pos hi] at c1 h1
  refine ⟨{ w with sys := s1, tr := w.tr ++ [(.check fid, .block)] }, { ret := 0, frame := some zeroFrame, entry := none, stamp := 0, taken := 0 }, ?_, rfl, rfl, h1⟩
  have hsr : w.sysRead fid euid frameSize (n + 1) = ({ w with sys := s1, tr := w.tr ++ [(.check fid, .block)] }, some .again) := by
    unfold DW.sysRead
    rw [others_alone h.env, c1]
  unfold DW.receive
  rw [hsr]
  dsimp only
  rw [if_neg (by simp [retries])]
  rfl

theorem seenFrom_whole (name : Bytes) (hist : List Entry) : seenFrom name { idx := 0, all := true, ver := 2, dropped := 0 } hist = hist := by
  unfold seenFrom
  rw [List.drop_zero]
  cases hist with
  | nil => rfl
  | cons e t => dsimp only; rw [if_neg (Nat.lt_irrefl 0)]

/-- The device after these calls, opened by the viewer, which has asked for the
amount. -/
def opened (sys : Sys) (tr : List (Op × Out)) (m : Nat) : DW := { sys, tr := tr ++ [(.getLogLen 0, .ret m)], os := [], env := [] }

/-- Where the viewer's reader stands on a log it has just opened: behind the `n` entries
that were dropped, of which it will be told. -/
theorem Logged.stands {name : Bytes} {k : Nat} {ops : List Op} {es : List Entry} (h : Logged name k ops es) (buf : Nat → UInt8) (hk : 14 ≤ k)
    (hname : name.length ≤ 89) (hgen : Genuine es) (hcount : es.length < 2147483648) :
    ∃ sys tr m n, Kernel.run (Kernel.init name k buf) (ops ++ [.openF 0 true false true, .getLogLen 0]) = .ok (sys, tr ++ [(.getLogLen 0, .ret m)]) ∧
      (0 < es.length → 0 < m) ∧ Stands name k 0 es { idx := n, all := true, ver := 2, dropped := n } (opened sys tr m) ∧
      n ≤ es.length ∧ LostOk (2 ^ k) es 0 n ∧ n = (arun (ainit name k) ops).1.log.head := by
  obtain ⟨sys, t0, m, g0, g2, g3, g4, g5, g6⟩ := h.asked buf hk hname hgen hcount
  have hh := h.hist
  have hinv := arun_inv (name := name) (k := k) hk ops.length ops rfl (by unfold obs; rw [hh]; exact hgen) (by unfold obs; rw [hh]; exact hcount)
  obtain ⟨hinv, hn, hsz⟩ := hinv
  have hbase : (obs name (arun (ainit name k) ops).2).base = 0 := h.base
  have hhist : (arun (ainit name k) ops).1.log.hist = es := hinv.hist.symm.trans hh
  have hhead := hinv.head
  rw [hbase, Nat.zero_add] at hhead
  have hsup : ∀ op ∈ ops ++ [Op.openF 0 true false true, .getLogLen 0], op.supported = true := by
    intro op hop
    rcases List.mem_append.1 hop with h' | h'
    · exact h.supported op h'
    · simp only [List.mem_cons, List.not_mem_nil, or_false] at h'
      rcases h' with rfl | rfl <;> rfl
  obtain ⟨G, s1, r1, hrel⟩ := run_refines (ops ++ [.openF 0 true false true, .getLogLen 0]) (init_rel buf hk hname) hsup
  rw [g2] at r1
  injection r1 with r1
  injection r1 with r1 r2
  subst r1
  have hopen : astep (arun (ainit name k) ops).1 (.openF 0 true false true) =
      ({ (arun (ainit name k) ops).1.setFile 0 (some { rd := true, wr := false, raw := false }) with
          log := { (arun (ainit name k) ops).1.log with
            readers := (arun (ainit name k) ops).1.log.readers ++
              [(0, { idx := (arun (ainit name k) ops).1.log.head, all := true, ver := 2, dropped := (arun (ainit name k) ops).1.log.dropped })] } }, .ok) := by
    simp only [astep, Op.fid, h.viewer, if_true]
  have hnone : (arun (ainit name k) ops).1.log.readers.lookup 0 = none := by
    have := hinv.rd 0
    rw [h.viewer] at this
    simpa using this
  rw [arun_append] at hrel
  simp only [arun, hopen] at hrel
  generalize (arun (ainit name k) ops).1 = a at *
  have hfind : (a.log.readers ++ [(0, ({ idx := a.log.head, all := true, ver := 2, dropped := a.log.dropped } : ARd))]).lookup 0 =
      some { idx := a.log.head, all := true, ver := 2, dropped := a.log.head } := by
    rw [List.lookup_append, hnone, hhead]
    rfl
  refine ⟨sys, t0, m, a.log.head, g2, g5, ⟨rfl, ?_, rfl, rfl⟩, by rw [← hhist]; exact hinv.headLe, ?_, rfl⟩
  · have hf : (a.setFile 0 (some { rd := true, wr := false, raw := false })).files 0 = some { rd := true, wr := false, raw := false } := by
      simp [ASys.setFile]
    have hlen : (astep { a.setFile 0 (some { rd := true, wr := false, raw := false }) with
        log := { a.log with readers := a.log.readers ++ [(0, { idx := a.log.head, all := true, ver := 2, dropped := a.log.dropped })] } } (.getLogLen 0)).1 =
        { a.setFile 0 (some { rd := true, wr := false, raw := false }) with
        log := { a.log with readers := a.log.readers ++ [(0, { idx := a.log.head, all := true, ver := 2, dropped := a.log.dropped })] } } := by
      simp only [astep, Op.fid, hf, astepFile, if_true, ALog.find, hfind]
    rw [hlen] at hrel
    exact ⟨G, _, _, hrel, hhist, hn, hf, rfl, hfind⟩
  · have := hinv.headLost
    rw [hbase, hsz, hhist] at this
    exact this

end Verif.Ulogcat
