import Verif.Ulogcat.CatchUp
import Verif.Ulogcat.PropsQueue

/-!
# Everything said is shown to a viewer that follows (C138)
-/
namespace Verif.Ulogcat
open Verif Verif.Kernel Verif.Libulog

theorem At.unique {name : Bytes} {fid p q : Nat} {tr : List (Op × Out)} (h : At name tr fid p) (h' : At name tr fid q) : p = q := by
  obtain ⟨r, h1, _, _, h2⟩ := h
  obtain ⟨r', g1, _, _, g2⟩ := h'
  rw [h1] at g1
  cases g1
  omega

/-! ## One device that others use -/

theorem DW.exec_env (w : DW) (op : Op) : (w.exec op).1.env = w.env := by
  unfold DW.exec
  split <;> rfl

theorem DW.others_env (fid : Nat) (w : DW) : (w.others fid).env = w.env.tail := by
  have all : ∀ (ops : List Op) (w : DW), (w.execAll ops).env = w.env := by
    intro ops
    induction ops with
    | nil => intro w; rfl
    | cons op ops ih => intro w; exact (ih _).trans (w.exec_env op)
  exact all _ _

theorem DW.others_fewer (fid : Nat) (w : DW) : (w.others fid).env.length = w.env.length - 1 := by
  rw [DW.others_env, List.length_tail]

theorem DW.sysRead_env (fid : Nat) (euid : UInt32) (count n : Nat) : ∀ w : DW, (w.sysRead fid euid count n).1.env.length ≤ w.env.length := by
  induction n with
  | zero => intro w; exact Nat.le_refl _
  | succ n ih =>
    intro w
    unfold DW.sysRead
    have h1 : ((w.others fid).exec (.check fid)).1.env.length ≤ w.env.length := by
      rw [DW.exec_env, DW.others_fewer]; omega
    generalize (w.others fid).exec (.check fid) = x at h1
    obtain ⟨w1, o⟩ := x
    dsimp only at h1 ⊢
    split
    · exact h1
    · have h2 : ((w1.others fid).exec (.read fid euid count count)).1.env.length ≤ w1.env.length := by
        rw [DW.exec_env, DW.others_fewer]; omega
      generalize (w1.others fid).exec (.read fid euid count count) = y at h2
      obtain ⟨w2, o2⟩ := y
      dsimp only at h2 ⊢
      split <;> first | exact Nat.le_trans h2 h1 | exact Nat.le_trans (ih w2) (Nat.le_trans h2 h1)
    · exact h1
    · exact h1

theorem DW.receive_env (fid : Nat) (euid : UInt32) (csv : Bool) (n : Nat) (w : DW) : (w.receive fid euid csv n).1.env.length ≤ w.env.length := by
  unfold DW.receive
  have h1 := w.sysRead_env fid euid frameSize n
  generalize w.sysRead fid euid frameSize n = x at h1
  obtain ⟨w1, r1⟩ := x
  cases r1 with
  | none => exact h1
  | some r1 =>
    dsimp only at h1 ⊢
    split
    · have h2 := w1.sysRead_env fid euid entryMax n
      generalize w1.sysRead fid euid entryMax n = y at h2
      obtain ⟨w2, r2⟩ := y
      cases r2 <;> (dsimp only at h2 ⊢; omega)
    · exact h1

/-- Others make what is left of the calls `A`; the viewer, file 0, is at entry `p`. -/
structure Live (name : Bytes) (k : Nat) (buf : Nat → UInt8) (A : List Op) (p : Nat) (w : DW) : Prop where
  doing : w.Doing name k buf 0 A
  calm : ∀ l ∈ w.env, ∀ op ∈ l, ∀ g, op ≠ .flush g
  pos : At name w.tr 0 p

/-- All these calls log `F` entries, and the logs can be followed. -/
def Bounds (name : Bytes) (k : Nat) (buf : Nat → UInt8) (A : List Op) (F : Nat) : Prop :=
  14 ≤ k ∧ name.length ≤ 89 ∧ ∀ w : DW, w.Doing name k buf 0 A →
    (∃ ops, Run name k buf ops w.sys w.tr) ∧ (obs name w.tr).hist.length ≤ F ∧ (w.env = [] → (obs name w.tr).hist.length = F)

variable {name : Bytes} {k : Nat} {buf : Nat → UInt8} {A : List Op} {F p : Nat} {w : DW}

/-- The same device if nobody else acted. -/
theorem Live.alone (h : Live name k buf A p w) (B : Bounds name k buf A F) : Alone name k buf 0 p { w with env := [] } :=
  ⟨rfl, (B.2.2 w h.doing).1, h.pos⟩

theorem DW.Since.grown {t0 : List (Op × Out)} (h : w.Since (fun op => ∀ g, op ≠ .flush g) t0) : ∃ t, w.tr = t0 ++ t ∧ NoFlush t := by
  obtain ⟨⟨t, h1, h2⟩, _⟩ := h
  exact ⟨t, h1, fun x hx g e => h2 x hx g (by rw [e])⟩

theorem Live.since (h : Live name k buf A p w) : w.Since (fun op => ∀ g, op ≠ .flush g) w.tr :=
  ⟨⟨[], by simp, nofun⟩, h.calm⟩

theorem grown_hist {name : Bytes} (tr t : List (Op × Out)) : (obs name tr).hist.length ≤ (obs name (tr ++ t)).hist.length := by
  unfold obs
  rw [List.foldl_append]
  exact (hist_mono name t _).length_le

theorem Live.others (h : Live name k buf A p w) (B : Bounds name k buf A F) :
    Live name k buf A p (w.others 0) ∧ (obs name w.tr).hist.length ≤ (obs name (w.others 0).tr).hist.length := by
  obtain ⟨u, hu, hnf⟩ := (h.since.others 0).grown
  obtain ⟨t, ht, e, _⟩ := DW.others_tr 0 w
  have : u = t := List.append_cancel_left (hu.symm.trans e)
  subst this
  refine ⟨⟨h.doing.others B.1 B.2.1, (h.since.others 0).2, ?_⟩, ?_⟩
  · rw [e]
    exact At.others ht hnf h.pos
  · rw [e]
    exact grown_hist _ _

theorem exec_step {w : DW} {op : Op} {s : Sys} {o : Out} (h : Kernel.step w.sys op = .ok (s, o)) :
    w.exec op = ({ w with sys := s, tr := w.tr ++ [(op, o)] }, some o) := by
  unfold DW.exec
  rw [h]

theorem exec_calm {w w' : DW} {op : Op} {o : Out} {env : List (List Op)} (h : ({ w with env } : DW).exec op = (w', some o)) :
    Kernel.step w.sys op = .ok (w'.sys, o) ∧ w'.tr = w.tr ++ [(op, o)] := by
  unfold DW.exec at h
  dsimp only at h
  split at h
  · rename_i s o' hs
    simp only [Prod.mk.injEq, Option.some.injEq] at h
    obtain ⟨rfl, rfl⟩ := h
    exact ⟨hs, rfl⟩
  · simp at h

/-- A call of the viewer that commits nothing and does not take anything. -/
theorem Live.quiet (h : Live name k buf A p w) (B : Bounds name k buf A F) {op : Op} (hsup : op.supported = true) (hf : op.fid = 0)
    (hw : Op.commits op = false) (hfl : ∀ g, op ≠ .flush g) {s : Sys} {o : Out} (hs : Kernel.step w.sys op = .ok (s, o))
    (hat : At name (w.tr ++ [(op, o)]) 0 p) : Live name k buf A p { w with sys := s, tr := w.tr ++ [(op, o)] } := by
  have h1 := h.doing.exec B.1 B.2.1 hsup hf hw
  rw [exec_step hs] at h1
  exact ⟨h1, h.calm, hat⟩

theorem Live.poll (h : Live name k buf A p w) (B : Bounds name k buf A F) (euid : UInt32) :
    ∃ w', w.exec (.poll 0 euid) = (w', some (.poll (decide (p < (obs name w.tr).hist.length)))) ∧ Live name k buf A p w' ∧
      (obs name w'.tr).hist = (obs name w.tr).hist ∧ w'.env = w.env := by
  obtain ⟨w0, e1, _⟩ := (h.alone B).poll euid
  obtain ⟨hs, ht⟩ := exec_calm e1
  refine ⟨_, exec_step hs, h.quiet B rfl rfl rfl (by simp) hs (h.pos.step (by simp) (.inr (.inr (.inr (.inl ⟨_, rfl⟩))))), ?_, rfl⟩
  dsimp only
  exact obs_quiet name w.tr _ _ (.inl ⟨_, _, rfl⟩)

theorem Live.check (h : Live name k buf A p w) (B : Bounds name k buf A F) (hp : p < (obs name w.tr).hist.length) :
    ∃ w', w.exec (.check 0) = (w', some .ready) ∧ Live name k buf A p w' ∧ p < (obs name w'.tr).hist.length := by
  obtain ⟨G, a, f, x, hrel, hf, hfr, hx, hall, hh, hi, hle⟩ := (h.alone B).reader
  have hi := hi.2 (by rw [hh]; exact hp)
  obtain ⟨G1, s1, hs1, _⟩ := step_refines hrel (.check 0) rfl
  have ho1 : astep a (.check 0) = (a, .ready) := by
    simp only [astep, Op.fid, hf, astepFile, hfr, if_true, hx]
    rw [if_neg (by omega)]
  rw [ho1] at hs1
  refine ⟨_, exec_step hs1, h.quiet B rfl rfl rfl (by simp) hs1 (h.pos.step (by simp) (.inr (.inl rfl))), ?_⟩
  dsimp only
  rw [obs_quiet name w.tr (.check 0) .ready (.inr (.inl ⟨_, rfl⟩))]
  exact hp

theorem Live.read (h : Live name k buf A p w) (B : Bounds name k buf A F) (hp : p < (obs name w.tr).hist.length) (euid : UInt32) (count : Nat) :
    ∃ w' o, w.exec (.read 0 euid count count) = (w', some o) ∧ (o = .err .einval ∨ ∃ bs, o = .data bs) := by
  obtain ⟨G, a, f, x, hrel, hf, hfr, hx, hall, hh, hi, hle⟩ := (h.alone B).reader
  have hi := hi.2 (by rw [hh]; exact hp)
  obtain ⟨G2, s2, hs2, _⟩ := step_refines hrel (.read 0 euid count count) rfl
  rw [astep_read hf hfr hx] at hs2
  have hen : a.log.hist[x.idx]? = some a.log.hist[x.idx] := List.getElem?_eq_getElem hi
  refine ⟨_, _, exec_step hs2, ?_⟩
  simp only [aread, askip_all hall, hen]
  generalize (if x.dropped > 0 then (summaryEntry a.log.name x.dropped a.log.hist[x.idx]).view x.ver
    else a.log.hist[x.idx].view x.ver) = v
  by_cases hc : count < v.length
  · rw [if_pos hc]; exact .inl rfl
  · rw [if_neg hc, if_neg hc]
    split <;> exact .inr ⟨_, rfl⟩

/-- A non-blocking `read` when something is left: nothing that others do takes it away. -/
theorem Live.sysRead (h : Live name k buf A p w) (B : Bounds name k buf A F) (hp : p < (obs name w.tr).hist.length) (euid : UInt32) (count n : Nat) :
    ∃ w' r t, w.sysRead 0 euid count (n + 1) = (w', some r) ∧ SysRead 0 euid count t r ∧ w'.tr = w.tr ++ t ∧
      ((r = .inval ∧ count < 4100 ∧ Live name k buf A p w') ∨ ∃ bs q, r = .data bs ∧ p < q ∧ Live name k buf A q w') ∧
      p < (obs name w'.tr).hist.length := by
  obtain ⟨l1, g1⟩ := h.others B
  obtain ⟨w1, c1, l2, g2⟩ := l1.check B (by omega)
  obtain ⟨l3, g3⟩ := l2.others B
  obtain ⟨w2, o, c2, g4⟩ := l3.read B (by omega) euid count
  have hres : ∃ r, w.sysRead 0 euid count (n + 1) = (w2, some r) := by
    unfold DW.sysRead
    rw [c1]
    dsimp only
    rw [c2]
    rcases g4 with rfl | ⟨bs, rfl⟩
    · exact ⟨_, rfl⟩
    · exact ⟨_, rfl⟩
  obtain ⟨r, hres⟩ := hres
  obtain ⟨t, ht, e1, _⟩ := DW.sysRead_tr _ _ _ _ hres
  have hd := h.doing.sysRead B.1 B.2.1 euid count (n + 1)
  have hsi := h.since.sysRead (fid := 0) (euid := euid) (by simp) (by simp) count (n + 1)
  rw [hres] at hd hsi
  dsimp only at hd hsi
  obtain ⟨u, hu, hnf⟩ := hsi.grown
  have : u = t := List.append_cancel_left (hu.symm.trans e1)
  subst this
  obtain ⟨⟨ops, hrun⟩, _⟩ := B.2.2 _ hd
  rw [e1] at hrun
  have hgr := grown_hist (name := name) w.tr u
  refine ⟨w2, r, u, hres, ht, e1, ?_, by rw [e1]; omega⟩
  rcases sysRead_next ht hrun hnf h.pos with ⟨_, _, h2⟩ | ⟨rfl, h1, h2⟩ | ⟨bs, e, q, rfl, h1, _, _, h2⟩
  · omega
  · exact .inl ⟨rfl, h2, hd, hsi.2, by rw [e1]; exact h1⟩
  · refine .inr ⟨bs, q, rfl, ?_, hd, hsi.2, by rw [e1]; exact h2⟩
    cases h1 <;> omega

/-- A call of `ulog_receive_entry` when something is left. -/
theorem Live.receive (h : Live name k buf A p w) (B : Bounds name k buf A F) (hp : p < (obs name w.tr).hist.length) (euid : UInt32) (csv : Bool)
    (n : Nat) : ∃ w' o q, w.receive 0 euid csv (n + 1) = (w', some o) ∧ 0 ≤ o.ret ∧ p < q ∧ Live name k buf A q w' := by
  obtain ⟨w1, r1, u1, e1, a1, a2, c1, hp1⟩ := h.sysRead B hp euid frameSize n
  have fresh : zeroFrame.fresh := ⟨rfl, by simp [zeroFrame]⟩
  rcases c1 with ⟨rfl, _, al1⟩ | ⟨bs, q, rfl, hq1, al1⟩
  · obtain ⟨w2, r2, u2, e2, b1, b2, c2, _⟩ := al1.sysRead B hp1 euid entryMax n
    rcases c2 with ⟨_, hc, _⟩ | ⟨bs, q, rfl, hq1, al2⟩
    · exact absurd hc (by decide)
    · obtain ⟨⟨ops, hrun⟩, _⟩ := B.2.2 _ al2.doing
      have heq : w2.tr = w.tr ++ u1 ++ u2 := by rw [b2, a2]
      rw [heq] at hrun
      obtain ⟨o, g1, g2, g3, _⟩ := C84_receive hrun h.pos.openWith fresh a1 true csv (fun _ => 0) (r2 := .data bs) (by simpa [retries, zeroFrame] using b1)
      refine ⟨w2, o, q, ?_, ?_, hq1, al2⟩
      · unfold DW.receive
        rw [e1]
        dsimp only
        rw [if_pos (by decide), e2]
        dsimp only
        rw [g1]
      · have hn : ¬ o.ret = -1 := fun hx => by simpa using g2.1 hx
        unfold Ulogcat.receive at g1
        rw [if_pos (by decide), if_pos rfl] at g1
        rcases afterRead_ret g1 with hx | hx
        · exact absurd hx hn
        · exact hx
  · obtain ⟨⟨ops, hrun⟩, _⟩ := B.2.2 _ al1.doing
    have heq : w1.tr = w.tr ++ u1 ++ [] := by rw [a2, List.append_nil]
    rw [heq] at hrun
    obtain ⟨o, g1, g2, g3, _⟩ := C84_receive hrun h.pos.openWith fresh a1 true csv (fun _ => 0) (r2 := .other) (by simp [retries])
    refine ⟨w1, o, q, ?_, ?_, hq1, al1⟩
    · unfold DW.receive
      rw [e1]
      dsimp only
      rw [if_neg (by simp [retries]), g1]
    · have hn : ¬ o.ret = -1 := fun hx => by simpa using g2.1 hx
      unfold Ulogcat.receive at g1
      rw [if_neg (by simp [retries])] at g1
      rcases afterRead_ret g1 with hx | hx
      · exact absurd hx hn
      · exact hx

/-! ## Several devices -/

/-- How much may still happen to the device: turns of others, and entries to be read of the `F`
there will be. -/
def DW.left (name : Bytes) (F : Nat) (w : DW) : Nat :=
  w.env.length + match (obs name w.tr).rds 0 with
    | some r => F - ((obs name w.tr).base + r.got + r.told)
    | none => 0

theorem At.left (h : At name w.tr 0 p) (F : Nat) : w.left name F = w.env.length + (F - p) := by
  obtain ⟨r, h1, _, _, h2⟩ := h
  unfold DW.left
  rw [h1]
  dsimp only
  rw [h2]

/-- The next entry is there. -/
def DW.ready (name : Bytes) (w : DW) : Prop := ∃ p, At name w.tr 0 p ∧ p < (obs name w.tr).hist.length

theorem fleet_drains {N : Nat} (euid : UInt32) (csv : Bool) (sh : Nat → RecvOut → Bool) (n : Nat) {name : Nat → Bytes} {k : Nat → Nat}
    {buf : Nat → Nat → UInt8} {A : Nat → List Op} {F : Nat → Nat} (B : ∀ d, d < N → Bounds (name d) (k d) (buf d) (A d) (F d)) :
    Drains (fleet N 0 euid csv sh (n + 1)) N (fun w => ∀ d, d < N → ∃ p, Live (name d) (k d) (buf d) (A d) p (w d))
      (fun w d => (w d).left (name d) (F d)) (fun w d => (w d).ready (name d)) := by
  have hask : ∀ {i : Nat} {w : DW}, i < N → (∃ p, Live (name i) (k i) (buf i) (A i) p w) →
      ∃ w' b, (w.others 0).exec (.poll 0 euid) = (w', some (.poll b)) ∧
        (∃ p, Live (name i) (k i) (buf i) (A i) p w') ∧ w'.left (name i) (F i) ≤ w.left (name i) (F i) ∧ (b = true → w'.ready (name i)) ∧
        (b = false → w.left (name i) (F i) = 0 ∨ w'.left (name i) (F i) < w.left (name i) (F i)) := by
    intro i w hi hp
    obtain ⟨p, hp⟩ := hp
    obtain ⟨h1, h2⟩ := hp.others (B i hi)
    obtain ⟨w', e1, e2, e3, e4⟩ := h1.poll (B i hi) euid
    have henv : w'.env.length = w.env.length - 1 := by rw [e4, DW.others_fewer]
    refine ⟨w', _, e1, ⟨p, e2⟩, ?_, ?_, ?_⟩
    · rw [e2.pos.left, hp.pos.left]; omega
    · intro hb
      refine ⟨p, e2.pos, ?_⟩
      rw [e3]
      simpa using hb
    · intro hb
      have hb : ¬ p < (obs (name i) (w.others 0).tr).hist.length := by simpa using hb
      rw [e2.pos.left, hp.pos.left, henv]
      by_cases hz : w.env.length = 0
      · left
        have := ((B i hi).2.2 w hp.doing).2.2 (List.length_eq_zero_iff.1 hz)
        omega
      · right; omega
  constructor
  · intro w hq a
    unfold fleet
    dsimp only
    split
    rotate_left
    · rename_i hn
      refine absurd (List.all_eq_true.2 fun i hi => ?_) hn
      obtain ⟨w', b, e1, _⟩ := hask (List.mem_range.1 hi) (hq i (List.mem_range.1 hi))
      rw [e1]
      simp
    refine ⟨_, _, rfl, ?_, ?_, ?_, ?_⟩
    · intro d hd
      split
      · obtain ⟨w', b, e1, e2, _⟩ := hask hd (hq d hd)
        rw [e1]; exact e2
      · exact hq d hd
    · intro d hd
      split
      · obtain ⟨w', b, e1, _, e3, _⟩ := hask hd (hq d hd)
        rw [e1]; exact e3
      · exact Nat.le_refl _
    · intro i hi ha
      obtain ⟨w', b, e1, _, _, e4, _⟩ := hask hi (hq i hi)
      rw [if_pos ⟨hi, ha⟩, e1]
      simpa [hi, ha] using e4
    · intro i hi ha
      obtain ⟨w', b, e1, _, _, _, e5⟩ := hask hi (hq i hi)
      rw [if_pos ⟨hi, ha⟩, e1]
      simpa [hi, ha] using e5
  · intro w hq i hi hl
    obtain ⟨p, hp⟩ := hq i hi
    obtain ⟨p', hp1, hp2⟩ := hl
    have := At.unique hp.pos hp1
    subst this
    obtain ⟨w', o, q, e1, e2, e3, e4⟩ := hp.receive (B i hi) hp2 euid csv n
    have henv := DW.receive_env 0 euid csv (n + 1) (w i)
    rw [e1] at henv
    dsimp only at henv
    unfold fleet
    dsimp only
    rw [if_pos hi, e1]
    refine ⟨_, _, rfl, ?_, ?_, ?_, ?_⟩
    · unfold RecvOut.toRecv
      rw [if_neg (by omega)]
      split <;> simp
    · intro d hd
      split
      · rename_i e
        subst e
        exact ⟨q, e4.doing, e4.calm, e4.pos⟩
      · exact hq d hd
    · rw [if_pos rfl]
      show w'.left (name i) (F i) < _
      have hle := ((B i hi).2.2 w' e4.doing).2.1
      have hle2 := ((B i hi).2.2 (w i) hp.doing).2.1
      rw [e4.pos.left, hp.pos.left]
      omega
    · intro j hj hne
      rw [if_neg hne]
      exact ⟨rfl, id⟩
  · intro w hq e
    exact ⟨w, rfl, hq, fun _ _ => rfl⟩

section
variable {N : Nat} {D : Nat → Bytes} {P : Nat → Nat → Prog} {ms : Nat → List Said} {junk : Nat → UInt8} {name : Nat → Bytes} {k : Nat → Nat}
  {buf : Nat → Nat → UInt8} {pre : Nat → List Op} {w : Nat → DW} {m : Nat → Nat}

/-- As long as programs say things, what they will say can be read. -/
theorem Scene.live (hN : 0 < N) (hP : ∀ i, i < N → ∀ p, (P i p).Plain (D i)) (hms : ∀ i, i < N → ∀ m ∈ ms i, m.Plain (P i))
    (hk : ∀ i, i < N → 14 ≤ k i) (hname : ∀ i, i < N → (name i).length ≤ 89) (hn0 : ∀ i, i < N → NoNul (name i))
    (hcount : ∀ i, i < N → (ms i).length < 2147483648) {L : Nat → Look} {csv : Bool} (hcsv : ∀ i, i < N → csv = decide ((L i).fmt = .csv))
    (hkd : ∀ i, i < N → (L i).kmsgd = false) (hs : Scene N P junk ms name k buf pre w m) {paths : Nat → Bytes}
    {ans : Scr (Nat → DW) → OutEv → List WrAns} (hans : ∀ s e, ∃ n, ans s e = [.took n] ∧ 5248 ≤ n) {marks : List Nat} (hlen : marks.length = N)
    {l : List (Nat × Int)} {buf0 : Bytes} (hb : buf0.length = 5248) {euid : UInt32} {n : Nat} {c1 : Ctx} {w1 : Nat → DW}
    (hc1 : calls (fleet N 0 euid csv (fun d => canRender (L d)) (n + 1)) false l (openCtx marks 0) w = .ok (c1, w1)) :
    (∀ d, d < N → Bounds (name d) (k d) (buf d) (pre d ++ (w d).env.flatten) ((ms d).filter (·.passes (P d))).length) ∧
    (∀ d, d < N → ∃ p, Live (name d) (k d) (buf d) (pre d ++ (w d).env.flatten) p (w1 d)) ∧ Inv 0 N c1 ∧ c1.outErr = false := by
  have hdo := fun {i} (hi : i < N) => hs.doing hP hms hk hname hcount hi
  have hL := fun {d} (hd : d < N) => sayAll_logged (hP d hd) (hs.says d hd) (name d) (k d)
  have hA := fun {d} (hd : d < N) => sayAll_ops _ (hs.says d hd)
  have B : ∀ d, d < N → Bounds (name d) (k d) (buf d) (pre d ++ (w d).env.flatten) ((ms d).filter (·.passes (P d))).length := by
    intro d hd
    refine ⟨hk d hd, hname d hd, fun x hx => ?_⟩
    obtain ⟨h1, j, h2, h3, h4⟩ := hx.messages (hms d hd) (hcount d hd) (hL hd) (hA hd) (hk d hd) (hname d hd)
    have hj : (obs (name d) x.tr).hist.length = j := by rw [h4, List.length_map, List.length_take]; omega
    exact ⟨h1, by omega, fun he => by rw [hj]; exact h3 he⟩
  -- the calls so far
  obtain ⟨_, _, _, _, _, _, hat⟩ := hs.shows hN hP hms hk hname hn0 hcount hcsv hkd paths hans hlen hb hc1
  have hq1 : ∀ d, d < N → ∃ p, Live (name d) (k d) (buf d) (pre d ++ (w d).env.flatten) p (w1 d) := by
    intro d hd
    obtain ⟨hr, _, _, q, _, _, _, _, _, h, _⟩ := hat d hd
    refine ⟨q, ?_, ?_, h⟩
    · exact (fleet_keeps N 0 euid csv (fun d => canRender (L d)) (n + 1) (d := d) (P := DW.Doing (name d) (k d) (buf d) 0 (pre d ++ (w d).env.flatten))
        (fun h => (h.others (hk d hd) (hname d hd)).exec (hk d hd) (hname d hd) rfl rfl rfl) (fun h => h.receive (hk d hd) (hname d hd) euid csv (n + 1))
        (fun h => h)).calls (hdo hd).2.2 hc1
    · exact ((fleet_keeps N 0 euid csv (fun d => canRender (L d)) (n + 1) (d := d) (P := DW.Since (fun op => ∀ g, op ≠ .flush g) (w d).tr)
        (fun h => (h.others 0).exec (by simp)) (fun h => h.receive (by simp) (by simp) csv (n + 1)) (fun h => h)).calls
        ⟨⟨[], by simp, nofun⟩, fun l hl op hop => (hA hd op (List.mem_append_right _ (List.mem_flatten.2 ⟨l, hl, hop⟩))).2⟩ hc1).2
  have I1 : Inv 0 N c1 := by
    obtain ⟨c2, s2, e1, e2⟩ := Queue.calls_inv (W := fleet N 0 euid csv (fun d => canRender (L d)) (n + 1)) (dump := false) (l := l) (s := w) (openCtx_inv marks 0)
    have e1 : calls (fleet N 0 euid csv (fun d => canRender (L d)) (n + 1)) false l (openCtx marks 0) w = .ok (c2, s2) := e1
    rw [hc1] at e1
    simp only [Except.ok.injEq, Prod.mk.injEq] at e1
    rw [e1.1, ← hlen]
    exact e2
  have ho1 : c1.outErr = false := calls_outErr (fun _ _ => rfl) hc1
  exact ⟨B, hq1, I1, ho1⟩

/-- C138. Whatever is said, by any interleaving, and whatever the viewer has done so far, a call
of `ulogcat3_process_logs` with enough turns sees the programs make all their calls and catches
up: then the screen shows of each device all messages that were let through, from the first to
the last, in order, each once, except that in the place of some there is a notice with their
number; and without exception if the ring has room for all of them and 8200 bytes. -/
theorem C138_all (hN : 0 < N) (hP : ∀ i, i < N → ∀ p, (P i p).Plain (D i)) (hms : ∀ i, i < N → ∀ m ∈ ms i, m.Plain (P i))
    (hk : ∀ i, i < N → 14 ≤ k i) (hname : ∀ i, i < N → (name i).length ≤ 89) (hn0 : ∀ i, i < N → NoNul (name i))
    (hcount : ∀ i, i < N → (ms i).length < 2147483648) {L : Nat → Look} {csv : Bool} (hcsv : ∀ i, i < N → csv = decide ((L i).fmt = .csv))
    (hkd : ∀ i, i < N → (L i).kmsgd = false) (hs : Scene N P junk ms name k buf pre w m) {paths : Nat → Bytes}
    {ans : Scr (Nat → DW) → OutEv → List WrAns} (hans : ∀ s e, ∃ n, ans s e = [.took n] ∧ 5248 ≤ n) {marks : List Nat} (hlen : marks.length = N)
    {l : List (Nat × Int)} {buf0 : Bytes} (hb : buf0.length = 5248) {euid : UInt32} {n : Nat} {c1 : Ctx} {w1 : Nat → DW}
    (hc1 : calls (fleet N 0 euid csv (fun d => canRender (L d)) (n + 1)) false l (openCtx marks 0) w = .ok (c1, w1)) :
    ∃ need, ∀ fuel, need ≤ fuel →
    ∃ c w' t, calls (fleet N 0 euid csv (fun d => canRender (L d)) (n + 1)) false (l ++ [(fuel, 0)]) (openCtx marks 0) w = .ok (c, w') ∧
      calls ((fleet N 0 euid csv (fun d => canRender (L d)) (n + 1)).onto .file paths (fleetEntries N L fun d => (w' d).os) ans) false (l ++ [(fuel, 0)])
          (openCtx marks 0) ⟨w, buf0, []⟩ = .ok (c, t) ∧ t.st = w' ∧
      ∃ v, t.bytes = screenOf paths (fun _ bs => bs) (decide (N > 1)) [] v ∧ (∀ x ∈ v, x.1 < N) ∧
      ∀ d, d < N → (w' d).env = [] ∧
        Watched (P d) (L d) (name d) (2 ^ k d) ((ms d).filter (·.passes (P d))) 0 (partOf d v) ((ms d).filter (·.passes (P d))).length ∧
        ((((ms d).filter (·.passes (P d))).map (·.size (P d))).sum + 8200 ≤ 2 ^ k d →
          partOf d v = ((ms d).filter (·.passes (P d))).flatMap (·.lines (P d) (L d))) := by
  have hshow := fun {l c w'} (hc : calls (fleet N 0 euid csv (fun d => canRender (L d)) (n + 1)) false l (openCtx marks 0) w = .ok (c, w')) =>
    hs.shows hN hP hms hk hname hn0 hcount hcsv hkd paths hans hlen hb hc
  obtain ⟨B, hq1, I1, ho1⟩ := hs.live hN hP hms hk hname hn0 hcount hcsv hkd (paths := paths) hans hlen hb hc1
  -- the last call
  refine ⟨toDo N (fun w d => (w d).left (name d) ((ms d).filter (·.passes (P d))).length) c1 w1, fun fuel hfuel => ?_⟩
  obtain ⟨c, w', f1, f2, f3, _, f4⟩ := (fleet_drains euid csv (fun d => canRender (L d)) n B).logs fuel 0 hq1 I1 ho1 (by omega) hfuel
  have hc : calls (fleet N 0 euid csv (fun d => canRender (L d)) (n + 1)) false (l ++ [(fuel, 0)]) (openCtx marks 0) w = .ok (c, w') := by
    rw [calls_append, hc1]
    show calls _ _ _ c1 w1 = _
    unfold calls
    rw [f1]
    rfl
  obtain ⟨t, h1, h2, v, h3, h4, h5⟩ := hshow hc
  refine ⟨c, w', t, hc, h1, h2, v, h3, h4, fun d hd => ?_⟩
  obtain ⟨_, j, r, q, g1, g2, g3, g4, g5, g6, g7, g8⟩ := h5 d hd
  unfold toDo at f4
  dsimp only at f4
  have hpend : c.pendQ = [] := List.length_eq_zero_iff.1 (by omega)
  have hleft := allLeft_zero.1 (show allLeft N (fun d => (w' d).left (name d) ((ms d).filter (·.passes (P d))).length) = 0 by omega) d hd
  rw [g6.left] at hleft
  have henv : (w' d).env = [] := List.length_eq_zero_iff.1 (by omega)
  have hj := g4 henv
  have hrq := g8 hpend
  have hr : r = ((ms d).filter (·.passes (P d))).length := by omega
  subst hr
  rw [hj, List.take_length] at g5
  refine ⟨henv, g5, fun hroom => ?_⟩
  have := (g5.all hroom).2
  rw [List.drop_zero, Nat.sub_zero, List.take_length] at this
  exact this

end

end Verif.Ulogcat
