import Verif.Kernel.TraceInv

/-!
# Reachable states

Helper lemmas tying a run of the driver model to the abstract machine and to
the observer's account.
-/
namespace Verif.Kernel
open Verif

theorem AInv.init (name : Bytes) {k : Nat} (hk : 14 ≤ k) : AInv (ainit name k) Obs.init := by
  have : 16384 ≤ 2 ^ k := Nat.pow_le_pow_right (n := 2) (i := 14) (by omega) hk
  refine ⟨rfl, ?_, this, ?_, Nat.le_refl _, Nat.le_refl _, rfl, ?_, ?_, ?_, ?_, ?_⟩ <;>
    simp [ainit, Obs.init, LostOk]

theorem obs_snoc (name : Bytes) (tr : List (Op × Out)) (p : Op × Out) :
    obs name (tr ++ [p]) = obsStep name (obs name tr) p := by
  simp [obs, List.foldl_append]

/-- One accounting step only appends to the committed entries and never lowers
the flush mark. -/
theorem obsStep_mono (name : Bytes) (o : Obs) (p : Op × Out) :
    o.hist <+: (obsStep name o p).hist ∧
      (o.base ≤ o.hist.length → o.base ≤ (obsStep name o p).base ∧
        (obsStep name o p).base ≤ (obsStep name o p).hist.length) := by
  unfold obsStep
  split
  case h_5 => exact ⟨List.prefix_refl _, fun h => ⟨h, Nat.le_refl _⟩⟩
  case h_6 =>
    split
    · split
      · exact ⟨List.prefix_refl _, fun h => ⟨Nat.le_refl _, h⟩⟩
      · exact ⟨List.prefix_append _ _, fun h => ⟨Nat.le_refl _, by simp; omega⟩⟩
    · exact ⟨List.prefix_append _ _, fun h => ⟨Nat.le_refl _, by simp; omega⟩⟩
  all_goals exact ⟨List.prefix_refl _, fun h => ⟨Nat.le_refl _, h⟩⟩

theorem obsFold_mono (name : Bytes) (tr : List (Op × Out)) : ∀ (o : Obs), o.base ≤ o.hist.length →
    o.hist <+: (tr.foldl (obsStep name) o).hist ∧ o.base ≤ (tr.foldl (obsStep name) o).base ∧
      (tr.foldl (obsStep name) o).base ≤ (tr.foldl (obsStep name) o).hist.length := by
  induction tr with
  | nil => intro o h; exact ⟨List.prefix_refl _, Nat.le_refl _, h⟩
  | cons p tr ih =>
    intro o h
    obtain ⟨m1, m2⟩ := obsStep_mono name o p
    obtain ⟨m3, m4⟩ := m2 h
    obtain ⟨i1, i2, i3⟩ := ih _ m4
    exact ⟨m1.trans i1, Nat.le_trans m3 i2, i3⟩

theorem obs_base_le (name : Bytes) (tr : List (Op × Out)) : (obs name tr).base ≤ (obs name tr).hist.length :=
  (obsFold_mono name tr Obs.init (Nat.le_refl _)).2.2

theorem obs_append_mono (name : Bytes) (tr tr' : List (Op × Out)) :
    (obs name tr).hist <+: (obs name (tr ++ tr')).hist ∧
      (obs name tr).base ≤ (obs name (tr ++ tr')).base := by
  have h := obsFold_mono name tr' (obs name tr) (obs_base_le name tr)
  have e : obs name (tr ++ tr') = tr'.foldl (obsStep name) (obs name tr) := by
    simp only [obs, List.foldl_append]
  rw [e]
  exact ⟨h.1, h.2.1⟩

theorem astep_name (a : ASys) (op : Op) :
    (astep a op).1.log.name = a.log.name ∧ (astep a op).1.log.size = a.log.size := by
  have hfile : ∀ fid f, (astepFile a fid f op).1.log.name = a.log.name ∧
      (astepFile a fid f op).1.log.size = a.log.size := by
    intro fid f
    unfold astepFile
    cases op with
    | write _ t it _ =>
      simp only
      split
      · rcases awrite_cases a.log f.raw t it with ⟨e, _⟩ | ⟨e, _⟩ | ⟨en, n, e, _⟩ | ⟨en, n, e, _⟩ <;>
          (rw [e]; exact ⟨by trivial, by trivial⟩)
      · exact ⟨rfl, rfl⟩
    | _ =>
      simp only
      repeat' split
      all_goals first | exact ⟨rfl, rfl⟩ | exact ⟨trivial, rfl⟩ | exact ⟨trivial, trivial⟩
  unfold astep
  split
  · split <;> exact ⟨rfl, rfl⟩
  · exact ⟨rfl, rfl⟩
  · exact hfile _ _

theorem arun_snoc (ops : List Op) : ∀ (a : ASys) (op : Op), arun a (ops ++ [op]) =
    ((astep (arun a ops).1 op).1, (arun a ops).2 ++ [(op, (astep (arun a ops).1 op).2)]) := by
  induction ops with
  | nil => intro a op; rfl
  | cons o ops ih =>
    intro a op
    simp only [List.cons_append, arun, ih]

theorem Genuine.prefix {h h' : List Entry} (hp : h <+: h') (hg : Genuine h') : Genuine h :=
  fun e he => hg e (hp.subset he)

/-- The abstract run and the account agree. -/
theorem arun_inv {name : Bytes} {k : Nat} (hk : 14 ≤ k) (n : Nat) : ∀ (ops : List Op), ops.length = n →
    Genuine (obs name (arun (ainit name k) ops).2).hist →
    (obs name (arun (ainit name k) ops).2).hist.length < 2147483648 →
    AInv (arun (ainit name k) ops).1 (obs name (arun (ainit name k) ops).2) ∧
      (arun (ainit name k) ops).1.log.name = name ∧
      (arun (ainit name k) ops).1.log.size = 2 ^ k := by
  induction n with
  | zero =>
    intro ops ho _ _
    rw [List.length_eq_zero_iff] at ho
    subst ho
    exact ⟨AInv.init name hk, rfl, rfl⟩
  | succ n ih =>
    intro ops ho
    have hne : ops ≠ [] := by intro h; rw [h] at ho; cases ho
    rw [← List.dropLast_concat_getLast hne, arun_snoc]
    simp only
    rw [obs_snoc]
    intro hg hl
    have hm := (obsStep_mono name (obs name (arun (ainit name k) ops.dropLast).2)
      (ops.getLast hne, (astep (arun (ainit name k) ops.dropLast).1 (ops.getLast hne)).2)).1
    obtain ⟨i1, i2, i3⟩ := ih ops.dropLast (by simp [ho]) (hg.prefix hm) (by have := hm.length_le; omega)
    have hs := i1.step (ops.getLast hne) (by rw [← i1.hist]; exact hg.prefix hm)
      (by rw [← i1.hist]; have := hm.length_le; omega)
    rw [i2] at hs
    have hnm := astep_name (arun (ainit name k) ops.dropLast).1 (ops.getLast hne)
    exact ⟨hs, hnm.1.trans i2, hnm.2.trans i3⟩

/-- What is required of a run: the device is one the driver would create, only
iterator kinds the driver handles are passed to the write method, no raw writer
forges a drop notice, and the committed entries can be counted in an `int`. -/
structure Run (name : Bytes) (k : Nat) (buf : Nat → UInt8) (ops : List Op) (s : Sys)
    (tr : List (Op × Out)) : Prop where
  pow : 14 ≤ k
  nameLen : name.length ≤ 89
  sup : ∀ op ∈ ops, op.supported = true
  run : run (init name k buf) ops = .ok (s, tr)
  genuine : Genuine (obs name tr).hist
  count : (obs name tr).hist.length < 2147483648

/-- Every state reached is related to an abstract one that agrees with the
account. -/
theorem Run.abs {name k buf ops s tr} (h : Run name k buf ops s tr) :
    ∃ G a, Rel k G s a ∧ AInv a (obs name tr) ∧ a.log.name = name ∧ a.log.size = 2 ^ k := by
  obtain ⟨G, c, e, hr⟩ := run_refines ops (init_rel buf h.pow h.nameLen) h.sup
  rw [h.run] at e
  injection e with e
  injection e with e1 e2
  have hg := h.genuine
  have hc := h.count
  rw [e2] at hg hc ⊢
  have := arun_inv (name := name) (k := k) h.pow ops.length ops rfl hg hc
  rw [e1]
  exact ⟨G, _, hr, this⟩

/-- One call from related states. -/
theorem Rel.step {k G : Nat} {s s' : Sys} {a : ASys} {op : Op} {o : Out} (h : Rel k G s a)
    (hop : op.supported = true) (hs : step s op = .ok (s', o)) :
    (astep a op).2 = o ∧ ∃ G', Rel k G' s' (astep a op).1 := by
  obtain ⟨G', c', e, hr⟩ := step_refines h op hop
  rw [hs] at e
  injection e with e
  injection e with e1 e2
  rw [e1, e2]
  exact ⟨rfl, G', hr⟩

/-- States related to the same abstract state cannot be told apart. -/
theorem Rel.same_trace {k G G' : Nat} {s s' : Sys} {a : ASys} (h : Rel k G s a) (h' : Rel k G' s' a)
    {later : List Op} (hl : ∀ op ∈ later, op.supported = true) :
    (Kernel.run s later).map (·.2) = (Kernel.run s' later).map (·.2) := by
  obtain ⟨_, _, e, _⟩ := run_refines later h hl
  obtain ⟨_, _, e', _⟩ := run_refines later h' hl
  rw [e, e']
  rfl

theorem run_snoc {ops : List Op} {op : Op} {s s' : Sys} {tr : List (Op × Out)} {o : Out}
    (hs : Kernel.step s op = .ok (s', o)) : ∀ {s0 : Sys}, Kernel.run s0 ops = .ok (s, tr) →
    Kernel.run s0 (ops ++ [op]) = .ok (s', tr ++ [(op, o)]) := by
  intro s0 hr
  induction ops generalizing s0 tr with
  | nil =>
    simp only [Kernel.run, Except.ok.injEq, Prod.mk.injEq] at hr
    obtain ⟨rfl, rfl⟩ := hr
    simp only [List.nil_append, Kernel.run, hs]
    rfl
  | cons x ops ih =>
    simp only [List.cons_append, Kernel.run] at hr ⊢
    cases hx : Kernel.step s0 x with
    | error e => rw [hx] at hr; cases hr
    | ok p =>
      obtain ⟨s1, o1⟩ := p
      rw [hx] at hr
      simp only [bind, Except.bind] at hr ⊢
      cases h2 : Kernel.run s1 ops with
      | error e => rw [h2] at hr; cases hr
      | ok p =>
        obtain ⟨s2, t2⟩ := p
        rw [h2] at hr
        simp only [pure, Except.pure, Except.ok.injEq, Prod.mk.injEq] at hr
        obtain ⟨rfl, rfl⟩ := hr
        rw [ih h2]
        rfl

/-- Extending a run. -/
theorem Run.snoc {name k buf ops s tr} (h : Run name k buf ops s tr) {op : Op} {o : Out} {s' : Sys}
    (hop : op.supported = true) (hs : Kernel.step s op = .ok (s', o))
    (hg : Genuine (obs name (tr ++ [(op, o)])).hist)
    (hc : (obs name (tr ++ [(op, o)])).hist.length < 2147483648) :
    Run name k buf (ops ++ [op]) s' (tr ++ [(op, o)]) := by
  refine ⟨h.pow, h.nameLen, ?_, ?_, hg, hc⟩
  · intro x hx
    rcases List.mem_append.mp hx with hx | hx
    · exact h.sup x hx
    · simp only [List.mem_singleton] at hx; rw [hx]; exact hop
  · exact run_snoc hs h.run

/-! ## Draining a reader -/

/-- Reading with a buffer of `count` bytes until nothing is left gives `l`. -/
inductive Drains (fid : Nat) (euid : UInt32) (count : Nat) : Sys → List Bytes → Prop
  | done {s s'} (h : step s (.read fid euid count count) = .ok (s', .block)) : Drains fid euid count s []
  | more {s s' bs l} (h : step s (.read fid euid count count) = .ok (s', .data bs))
      (hl : Drains fid euid count s' l) : Drains fid euid count s (bs :: l)

theorem Drains.unique {fid euid count s l l'} (h : Drains fid euid count s l) (h' : Drains fid euid count s l') :
    l = l' := by
  induction h generalizing l' with
  | done h =>
    cases h' with
    | done => rfl
    | more g => rw [h] at g; cases g
  | more h _ ih =>
    cases h' with
    | done g => rw [h] at g; cases g
    | more g gl =>
      rw [h] at g
      cases g
      rw [ih gl]

/-- The list a drain of abstract reader `x` gives. -/
def drainList (l : ALog) (x : ARd) : List Bytes :=
  (match l.hist[x.idx]? with
    | some e => if x.dropped > 0 then [(summaryEntry l.name x.dropped e).view x.ver] else []
    | none => []) ++
  (l.hist.drop x.idx).map fun e => e.view x.ver

theorem astep_read {a : ASys} {fid : Nat} {f : File} {x : ARd} (hf : a.files fid = some f) (hr : f.rd = true)
    (hx : a.log.find fid = some x) (euid : UInt32) (count uw : Nat) :
    astep a (.read fid euid count uw) =
      ({ a with log := a.log.set fid (aread a.log euid x count uw).1 }, (aread a.log euid x count uw).2) := by
  simp only [astep, hf, astepFile, hr, if_true, hx]

theorem find_set {l : ALog} {fid : Nat} {x y : ARd} (h : l.find fid = some x) :
    (l.set fid y).find fid = some y := by
  unfold ALog.find ALog.set at *
  rw [lookup_set, if_pos rfl, h]
  rfl

theorem view_le {e : Entry} (h : e.wf) (ver : Nat) : (e.view ver).length ≤ 4100 := by
  rw [view_length]
  have : e.payload.length ≤ 4076 := h
  have : userHdrLen ver ≤ 24 := by unfold userHdrLen; split <;> decide
  omega

theorem summary_le {name : Bytes} (h : name.length ≤ 89) (n : Nat) (e : Entry) (ver : Nat) :
    ((summaryEntry name n e).view ver).length ≤ 4100 := by
  rw [view_length]
  have h1 := summaryText_length name n
  have : userHdrLen ver ≤ 24 := by unfold userHdrLen; split <;> decide
  simp only [summaryEntry]
  omega

theorem drain_ok {k : Nat} {fid : Nat} {f : File} {euid : UInt32} {count : Nat} (hc : 4100 ≤ count) :
    ∀ (m : Nat) {G : Nat} {s : Sys} {a : ASys} {x : ARd}, Rel k G s a → a.files fid = some f → f.rd = true →
    a.log.find fid = some x → x.all = true → a.log.hist.length - x.idx = m →
    Drains fid euid count s (drainList a.log x) := by
  intro m
  induction m with
  | zero =>
    intro G s a x h hf hr hx hall hm
    obtain ⟨G', s', hs, _⟩ := step_refines h (.read fid euid count count) rfl
    have hn : a.log.hist[x.idx]? = none := List.getElem?_eq_none (by omega)
    rw [astep_read hf hr hx] at hs
    have : (aread a.log euid x count count).2 = .block := by
      simp only [aread, askip_all hall, hn]
    rw [this] at hs
    have hd : drainList a.log x = [] := by
      simp only [drainList, hn, List.drop_of_length_le (Nat.le_of_sub_eq_zero hm)]; rfl
    rw [hd]
    exact .done hs
  | succ m ih =>
    intro G s a x h hf hr hx hall hm
    have hlt : x.idx < a.log.hist.length := by omega
    have he : a.log.hist[x.idx]? = some a.log.hist[x.idx] := List.getElem?_eq_getElem hlt
    generalize a.log.hist[x.idx] = e at he
    have hwf : e.wf := h.log.wf e (List.mem_of_getElem? he)
    have hdrop : a.log.hist.drop x.idx = e :: a.log.hist.drop (x.idx + 1) := by
      rw [List.drop_eq_getElem_cons hlt]
      rw [List.getElem?_eq_getElem hlt] at he
      injection he with he
      rw [he]
    -- reading an ordinary entry, from any state with the same log and no loss pending
    have ord : ∀ {G : Nat} {s : Sys} {a' : ASys} {y : ARd}, Rel k G s a' → a'.files fid = some f →
        a'.log.find fid = some y → y.all = true → a'.log.hist = a.log.hist → y.idx = x.idx →
        y.dropped = 0 → y.ver = x.ver →
        Drains fid euid count s ((a.log.hist.drop x.idx).map fun e => e.view x.ver) := by
      intro G s a' y h hf hy hall hh hi hd hv
      obtain ⟨G', s', hs, hr'⟩ := step_refines h (.read fid euid count count) rfl
      rw [astep_read hf hr hy] at hs hr'
      have hv1 := view_le hwf x.ver
      have har : aread a'.log euid y count count = ({ y with idx := y.idx + 1 }, .data (e.view x.ver)) := by
        simp only [aread, askip_all hall, hh, hi, he, hd, Nat.lt_irrefl, gt_iff_lt, if_false, hv]
        rw [if_neg (by omega), if_neg (by omega)]
      rw [har] at hs hr'
      simp only at hs hr'
      have := ih (x := { y with idx := y.idx + 1 }) hr' hf hr (find_set hy) hall
        (by simp only [ALog.set, hh, hi]; omega)
      rw [hdrop, List.map_cons]
      refine .more hs ?_
      have hd2 : drainList (a'.log.set fid { y with idx := y.idx + 1 }) { y with idx := y.idx + 1 } =
          (a.log.hist.drop (x.idx + 1)).map fun e => e.view x.ver := by
        simp only [drainList, ALog.set, hh, hi, hd, hv, Nat.lt_irrefl, gt_iff_lt, if_false]
        split <;> rfl
      rw [hd2] at this
      exact this
    by_cases hd : x.dropped > 0
    · obtain ⟨G', s', hs, hr'⟩ := step_refines h (.read fid euid count count) rfl
      rw [astep_read hf hr hx] at hs hr'
      have hv1 := summary_le h.log.nameLen x.dropped e x.ver
      have har : aread a.log euid x count count =
          ({ x with dropped := 0 }, .data ((summaryEntry a.log.name x.dropped e).view x.ver)) := by
        simp only [aread, askip_all hall, he, hd, if_true]
        rw [if_neg (by omega), if_neg (by omega)]
      rw [har] at hs hr'
      simp only [drainList, he, hd, if_true, List.cons_append, List.nil_append]
      exact .more hs (ord hr' hf (find_set hx) hall rfl rfl rfl rfl)
    · have := ord h hf hx hall rfl rfl (by omega) rfl
      simp only [drainList, he, hd, if_false, List.nil_append]
      exact this

end Verif.Kernel
