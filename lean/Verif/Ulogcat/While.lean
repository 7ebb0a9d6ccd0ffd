import Verif.Ulogcat.PropsLost
import Verif.Ulogcat.PropsOrder

/-!
# What others do to a log while a viewer follows it

The entries committed to a log are those that the calls of others commit, whatever the
viewer does between them: a viewer neither commits entries nor changes what others'
calls commit.
-/
namespace Verif.Ulogcat
open Verif Verif.Kernel Verif.Libulog

/-- The call commits an entry. -/
def Op.commits : Op → Bool
  | .write .. => true
  | _ => false

/-- The files agree, except that numbered `f`. -/
def SameFiles (f : Nat) (a b : ASys) : Prop := ∀ i, i ≠ f → a.files i = b.files i

/-- The same is committed, and files are in the same mode, except that numbered `f`. -/
def SameLog (f : Nat) (o p : Obs) : Prop := o.hist = p.hist ∧ ∀ i, i ≠ f → o.raw i = p.raw i

/-- The call neither commits an entry nor changes the mode of a file. -/
def Op.mild : Op → Bool
  | .openF .. | .write .. | .setRaw .. => false
  | _ => true

theorem obsStep_mild {op : Op} (h : Op.mild op = true) (name : Bytes) (o : Obs) (out : Out) :
    (obsStep name o (op, out)).hist = o.hist ∧ (obsStep name o (op, out)).raw = o.raw := by
  cases op with
  | openF | write | setRaw => cases h
  | setVersion f v => cases v <;> cases out <;> exact ⟨rfl, rfl⟩
  | _ => cases out <;> exact ⟨rfl, rfl⟩

theorem awrite_out (l l' : ALog) (raw : Bool) (t : Task) (d : List (Option UInt8)) : (awrite l raw t d).2 = (awrite l' raw t d).2 := by
  unfold awrite
  repeat' split
  all_goals first | rfl | (dsimp only; split <;> simp_all)

theorem setFile_other (s : ASys) (f : Nat) (v : Option File) {i : Nat} (h : i ≠ f) : (s.setFile f v).files i = s.files i := by
  simp [ASys.setFile, h]

/-- The call is one that reads. -/
def Op.looks : Op → Bool
  | .check .. | .read .. | .poll .. | .getLogLen .. | .getNextLen .. | .getVersion .. | .setVersion .. => true
  | _ => false

theorem astepFile_keeps (s : ASys) (fl : File) {op : Op} (h : Op.looks op = true) : (astepFile s op.fid fl op).1.files = s.files := by
  cases op <;> first | cases h | skip
  all_goals
    simp only [astepFile]
    repeat' split
    all_goals rfl

/-- What a call does to the files depends on its own file only. -/
theorem astepFile_files (fl : File) (op : Op) (a b : ASys) (h : a.files op.fid = b.files op.fid) :
    (astepFile a op.fid fl op).1.files op.fid = (astepFile b op.fid fl op).1.files op.fid ∧
    (∀ i, i ≠ op.fid → (astepFile a op.fid fl op).1.files i = a.files i) ∧
    (Op.mild op = false → (astepFile a op.fid fl op).2 = (astepFile b op.fid fl op).2) := by
  by_cases hl : Op.looks op = true
  · refine ⟨by rw [astepFile_keeps a fl hl, astepFile_keeps b fl hl]; exact h, fun i _ => by rw [astepFile_keeps a fl hl], ?_⟩
    intro hm
    cases op <;> first | (cases hm; done) | (cases hl; done)
  cases op with
  | release f =>
    simp only [astepFile, Op.fid, Op.mild]
    cases fl.rd <;> simp +contextual [ASys.setFile]
  | write f t it j =>
    simp only [astepFile, Op.fid, Op.mild]
    cases fl.wr
    · simpa using h
    · refine ⟨h, fun _ _ => rfl, fun _ => awrite_out _ _ _ _ _⟩
  | setRaw f c v =>
    simp only [astepFile, Op.fid, Op.mild]
    cases fl.wr
    · simpa using h
    · cases c
      · simpa using h
      · cases v with
        | none => simpa using h
        | some v =>
          simp only [Bool.not_true, Bool.false_eq_true, if_false, if_true]
          split
          · simp +contextual [ASys.setFile]
          · simpa using h
  | flush f =>
    simp only [astepFile, Op.fid, Op.mild]
    cases fl.wr <;> simpa using h
  | openF f rd wr all => exact ⟨h, fun _ _ => rfl, fun _ => rfl⟩
  | getBufSize f => exact ⟨h, fun _ _ => rfl, nofun⟩
  | _ => exact absurd rfl hl

theorem astep_files {a b : ASys} {op : Op} (h : a.files op.fid = b.files op.fid) :
    (astep a op).1.files op.fid = (astep b op).1.files op.fid ∧
    (∀ i, i ≠ op.fid → (astep a op).1.files i = a.files i) ∧ (Op.mild op = false → (astep a op).2 = (astep b op).2) := by
  cases hb : b.files op.fid with
  | some fl =>
    have ha := h.trans hb
    have e1 : astep a op = astepFile a op.fid fl op := by unfold astep; rw [ha]; cases op <;> rfl
    have e2 : astep b op = astepFile b op.fid fl op := by unfold astep; rw [hb]; cases op <;> rfl
    rw [e1, e2]
    exact astepFile_files fl op a b h
  | none =>
    have ha := h.trans hb
    have e1 : ∀ s : ASys, s.files op.fid = none → (∀ f rd wr all, op ≠ .openF f rd wr all) → astep s op = (s, .err .ebadf) := by
      intro s hs hn
      unfold astep; rw [hs]
      cases op <;> first | rfl | exact absurd rfl (hn _ _ _ _)
    by_cases ho : ∃ f rd wr all, op = .openF f rd wr all
    · obtain ⟨f, rd, wr, all, rfl⟩ := ho
      simp only [Op.fid] at ha hb ⊢
      simp only [astep, Op.fid, ha, hb]
      cases rd <;> simp +contextual [ASys.setFile]
    · have hn : ∀ f rd wr all, op ≠ .openF f rd wr all := fun f rd wr all e => ho ⟨f, rd, wr, all, e⟩
      rw [e1 a ha hn, e1 b hb hn]
      exact ⟨h, fun _ _ => rfl, fun _ => rfl⟩

theorem SameFiles.other {f : Nat} {a b : ASys} (h : SameFiles f a b) {op : Op} (hop : op.fid ≠ f) (name : Bytes) :
    SameFiles f (astep a op).1 (astep b op).1 ∧
    ∀ {o p : Obs}, SameLog f o p → SameLog f (obsStep name o (op, (astep a op).2)) (obsStep name p (op, (astep b op).2)) := by
  obtain ⟨h1, h2, h3⟩ := astep_files (h op.fid hop)
  obtain ⟨_, h4, _⟩ := astep_files (h op.fid hop).symm
  refine ⟨fun i hi => ?_, fun {o p} ho => ?_⟩
  · by_cases e : i = op.fid
    · rw [e]; exact h1
    · rw [h2 i e, h4 i e]; exact h i hi
  · cases hm : Op.mild op with
    | true =>
      obtain ⟨g1, g2⟩ := obsStep_mild hm name o (astep a op).2
      obtain ⟨g3, g4⟩ := obsStep_mild hm name p (astep b op).2
      exact ⟨by rw [g1, g3]; exact ho.1, by rw [g2, g4]; exact ho.2⟩
    | false =>
      rw [h3 hm]
      generalize (astep b op).2 = out
      obtain ⟨ho1, ho2⟩ := ho
      cases op with
      | openF g rd wr all =>
        cases out <;> first | exact ⟨ho1, ho2⟩ | skip
        refine ⟨ho1, fun i hi => ?_⟩
        simp only [obsStep, upd]
        rw [ho2 i hi]
      | setRaw g c v =>
        cases v <;> cases out <;> first | exact ⟨ho1, ho2⟩ | skip
        refine ⟨ho1, fun i hi => ?_⟩
        simp only [obsStep, upd]
        rw [ho2 i hi]
      | write g t it j =>
        cases out <;> first | exact ⟨ho1, ho2⟩ | skip
        have hg := ho2 g hop
        simp only [obsStep, hg]
        split
        · split
          · exact ⟨ho1, ho2⟩
          · exact ⟨by dsimp only; rw [ho1], ho2⟩
        · exact ⟨by dsimp only; rw [ho1], ho2⟩
      | _ => cases hm

theorem SameFiles.own {f : Nat} {a b : ASys} (h : SameFiles f a b) {op : Op} (hop : op.fid = f) (hw : Op.commits op = false) (name : Bytes) :
    SameFiles f (astep a op).1 b ∧ ∀ {o p : Obs}, SameLog f o p → SameLog f (obsStep name o (op, (astep a op).2)) p := by
  obtain ⟨_, h2, _⟩ := astep_files (a := a) (b := a) (op := op) rfl
  refine ⟨fun i hi => ?_, fun {o p} ho => ?_⟩
  · rw [h2 i (by rw [hop]; exact hi)]; exact h i hi
  · cases hm : Op.mild op with
    | true =>
      obtain ⟨g1, g2⟩ := obsStep_mild hm name o (astep a op).2
      exact ⟨by rw [g1]; exact ho.1, by rw [g2]; exact ho.2⟩
    | false =>
      generalize (astep a op).2 = out
      obtain ⟨ho1, ho2⟩ := ho
      cases op with
      | openF g rd wr all =>
        cases out <;> first | exact ⟨ho1, ho2⟩ | skip
        refine ⟨ho1, fun i hi => ?_⟩
        simp only [obsStep, upd]
        rw [if_neg (by intro e; exact hi (e.trans hop)), ho2 i hi]
      | setRaw g c v =>
        cases v <;> cases out <;> first | exact ⟨ho1, ho2⟩ | skip
        refine ⟨ho1, fun i hi => ?_⟩
        simp only [obsStep, upd]
        rw [if_neg (by intro e; exact hi (e.trans hop)), ho2 i hi]
      | write g t it j => cases hw
      | _ => cases hm

/-- The entries committed are those that the others commit. -/
theorem others_log (f : Nat) (name : Bytes) (ops : List Op) : ∀ {a b : ASys} {o p : Obs}, SameFiles f a b → SameLog f o p →
    (∀ op ∈ ops, op.fid = f → Op.commits op = false) →
    SameLog f ((arun a ops).2.foldl (obsStep name) o) ((arun b (ops.filter fun op => decide (op.fid ≠ f))).2.foldl (obsStep name) p) := by
  induction ops with
  | nil => intro a b o p _ h _; exact h
  | cons op ops ih =>
    intro a b o p hf hl hc
    by_cases e : op.fid = f
    · rw [List.filter_cons_of_neg (by simp [e])]
      obtain ⟨h1, h2⟩ := hf.own e (hc op (by simp) e) name
      exact ih h1 (h2 hl) fun x hx => hc x (by simp [hx])
    · rw [List.filter_cons_of_pos (by simpa using e)]
      obtain ⟨h1, h2⟩ := hf.other e name
      exact ih h1 (h2 hl) fun x hx => hc x (by simp [hx])

/-- Committed entries stay. -/
theorem hist_mono (name : Bytes) (tr : List (Op × Out)) : ∀ o : Obs, o.hist <+: (tr.foldl (obsStep name) o).hist := by
  induction tr with
  | nil => intro o; exact List.prefix_refl _
  | cons x tr ih =>
    intro o
    refine List.IsPrefix.trans ?_ (ih (obsStep name o x))
    obtain ⟨op, out⟩ := x
    cases hm : Op.mild op with
    | true => rw [(obsStep_mild hm name o out).1]; exact List.prefix_refl _
    | false =>
      cases op with
      | openF g rd wr all => cases out <;> exact List.prefix_refl _
      | setRaw g c v => cases v <;> cases out <;> exact List.prefix_refl _
      | write g t it j =>
        cases out <;> first | exact List.prefix_refl _ | skip
        simp only [obsStep]
        split
        · split
          · exact List.prefix_refl _
          · exact List.prefix_append _ _
        · exact List.prefix_append _ _
      | _ => cases hm

/-! ## Who does what -/

theorem run_error (ops : List Op) {op : Op} : ∀ {s s' : Sys} {tr : List (Op × Out)} {e : Fault}, Kernel.run s ops = .ok (s', tr) →
    Kernel.step s' op = .error e → Kernel.run s (ops ++ [op]) = .error e := by
  induction ops with
  | nil => intro s s' tr e h he; cases h; simp [Kernel.run, he, bind, Except.bind]
  | cons x ops ih =>
    intro s s' tr e h he
    simp only [Kernel.run, bind, Except.bind, List.cons_append] at h ⊢
    split at h
    · cases h
    · rename_i y hy
      split at h
      · cases h
      · rename_i z hz
        cases h
        rw [ih hz he]

/-- The driver answers. -/
theorem DW.Real.answers {name k buf} {w : DW} (h : w.Real name k buf) (hk : 14 ≤ k) (hn : name.length ≤ 89) {op : Op} (hop : op.supported = true) :
    ∃ o, (w.exec op).2 = some o ∧ (w.exec op).1.tr = w.tr ++ [(op, o)] := by
  obtain ⟨⟨ops, h1, h2⟩, _⟩ := h
  unfold DW.exec
  cases hs : Kernel.step w.sys op with
  | ok x => exact ⟨x.2, rfl, rfl⟩
  | error e =>
    obtain ⟨_, _, r, _⟩ := run_refines (ops ++ [op]) (init_rel buf hk hn) (by
      intro x hx
      rcases List.mem_append.1 hx with hx | hx
      · exact h1 x hx
      · rw [List.mem_singleton.1 hx]; exact hop)
    rw [run_error ops h2 hs] at r
    cases r

/-- What others did and what they will do is `A`; file `f` commits nothing. -/
def DW.Doing (name : Bytes) (k : Nat) (buf : Nat → UInt8) (f : Nat) (A : List Op) (w : DW) : Prop :=
  w.Real name k buf ∧ ((w.tr.map Prod.fst) ++ w.env.flatten).filter (fun op => decide (op.fid ≠ f)) = A ∧
    ∀ p ∈ w.tr, p.1.fid = f → Op.commits p.1 = false

theorem DW.Doing.exec {name k buf f A} {w : DW} (h : w.Doing name k buf f A) (hk : 14 ≤ k) (hn : name.length ≤ 89) {op : Op}
    (hop : op.supported = true) (hf : op.fid = f) (hw : Op.commits op = false) : (w.exec op).1.Doing name k buf f A := by
  obtain ⟨h1, h2, h3⟩ := h
  obtain ⟨o, _, ht⟩ := h1.answers hk hn hop
  obtain ⟨hr, he⟩ := h1.exec hop
  refine ⟨hr, ?_, ?_⟩
  · rw [ht, he, ← h2]
    simp [List.filter_append, hf]
  · rw [ht]
    intro p hp
    rcases List.mem_append.1 hp with hp | hp
    · exact h3 p hp
    · rw [List.mem_singleton.1 hp]; intro _; exact hw

theorem DW.Real.execAll_ops {name k buf} (hk : 14 ≤ k) (hn : name.length ≤ 89) (ops : List Op) : ∀ {w : DW}, w.Real name k buf →
    (∀ op ∈ ops, op.supported = true) → (w.execAll ops).tr.map Prod.fst = w.tr.map Prod.fst ++ ops ∧ (w.execAll ops).env = w.env := by
  induction ops with
  | nil => intro w _ _; exact ⟨by simp [DW.execAll], rfl⟩
  | cons op ops ih =>
    intro w h hs
    obtain ⟨o, _, ht⟩ := h.answers hk hn (hs op (by simp))
    obtain ⟨hr, he⟩ := h.exec (hs op (by simp))
    obtain ⟨i1, i2⟩ := ih hr fun x hx => hs x (by simp [hx])
    unfold DW.execAll
    exact ⟨by rw [i1, ht]; simp, i2.trans he⟩

theorem DW.Doing.others {name k buf f A} {w : DW} (h : w.Doing name k buf f A) (hk : 14 ≤ k) (hn : name.length ≤ 89) :
    (w.others f).Doing name k buf f A := by
  obtain ⟨h1, h2, h3⟩ := h
  have hsup : ∀ op ∈ w.env.headD [], op.supported = true := by
    cases he : w.env with
    | nil => simp
    | cons l e => exact h1.2 l (by rw [he]; simp)
  have hr : ({ w with env := w.env.tail } : DW).Real name k buf := ⟨h1.1, fun l hl => h1.2 l (List.mem_of_mem_tail hl)⟩
  obtain ⟨g1, g2⟩ := hr.execAll_ops hk hn ((w.env.headD []).filter fun op => op.fid ≠ f) fun op hop => hsup op (List.mem_filter.1 hop).1
  refine ⟨h1.others f, ?_, ?_⟩
  · unfold DW.others
    rw [g1, g2, ← h2]
    dsimp only
    cases w.env with
    | nil => simp
    | cons l e => simp [List.filter_append]
  · intro p hp hf
    have hm : p.1 ∈ (w.others f).tr.map Prod.fst := List.mem_map_of_mem hp
    unfold DW.others at hm
    rw [g1] at hm
    rcases List.mem_append.1 hm with hm | hm
    · obtain ⟨x, hx, e⟩ := List.mem_map.1 hm
      rw [← e]
      exact h3 x hx (by rw [e]; exact hf)
    · have := (List.mem_filter.1 hm).2
      simp [hf] at this

theorem DW.Doing.sysRead {name k buf f A} (hk : 14 ≤ k) (hn : name.length ≤ 89) (euid : UInt32) (count n : Nat) :
    ∀ {w : DW}, w.Doing name k buf f A → (w.sysRead f euid count n).1.Doing name k buf f A := by
  induction n with
  | zero => intro w h; exact h
  | succ n ih =>
    intro w h
    unfold DW.sysRead
    have h1 := (h.others hk hn).exec hk hn (op := .check f) rfl rfl rfl
    generalize (w.others f).exec (.check f) = x at h1
    obtain ⟨w1, o1⟩ := x
    dsimp only at h1 ⊢
    have h2 := (h1.others hk hn).exec hk hn (op := .read f euid count count) rfl rfl rfl
    generalize (w1.others f).exec (.read f euid count count) = y at h2
    obtain ⟨w2, o2⟩ := y
    dsimp only at h2 ⊢
    split
    · exact h1
    · split
      · exact h2
      · exact h2
      · exact h2
      · exact ih h2
      · exact h2
    · exact h1
    · exact h1

theorem DW.Doing.receive {name k buf f A} (hk : 14 ≤ k) (hn : name.length ≤ 89) (euid : UInt32) (csv : Bool) (n : Nat)
    {w : DW} (h : w.Doing name k buf f A) : (w.receive f euid csv n).1.Doing name k buf f A := by
  unfold DW.receive
  have h1 := h.sysRead hk hn euid frameSize n
  generalize w.sysRead f euid frameSize n = x at h1
  obtain ⟨w1, r1⟩ := x
  cases r1 with
  | none => exact h1
  | some r1 =>
    dsimp only
    split
    · have h2 := DW.Doing.sysRead hk hn euid entryMax n (w := w1) h1
      generalize w1.sysRead f euid entryMax n = y at h2
      obtain ⟨w2, r2⟩ := y
      cases r2 <;> exact h2
    · exact h1

/-- What is committed is what the calls of others so far commit. -/
theorem DW.Doing.hist {name k buf f A} {w : DW} (h : w.Doing name k buf f A) (hk : 14 ≤ k) (hn : name.length ≤ 89) :
    ∃ B C, A = B ++ C ∧ (w.env = [] → C = []) ∧ (obs name w.tr).hist = (obs name (arun (ainit name k) B).2).hist := by
  obtain ⟨⟨⟨ops, h0, h1⟩, _⟩, h2, h3⟩ := h
  obtain ⟨_, _, r, _⟩ := run_refines ops (init_rel buf hk hn) h0
  rw [h1] at r
  have htr : w.tr = (arun (ainit name k) ops).2 := by
    simp only [Except.ok.injEq, Prod.mk.injEq] at r
    exact r.2
  have hops : w.tr.map Prod.fst = ops := by rw [htr, arun_fst]
  rw [hops, List.filter_append] at h2
  refine ⟨_, _, h2.symm, fun he => by rw [he]; rfl, ?_⟩
  rw [htr]
  refine (others_log f name ops (a := ainit name k) (b := ainit name k) (fun _ _ => rfl) ⟨rfl, fun _ _ => rfl⟩ ?_).1
  intro op hop hf
  rw [← hops] at hop
  obtain ⟨x, hx, e⟩ := List.mem_map.1 hop
  rw [← e]
  exact h3 x hx (by rw [e]; exact hf)

end Verif.Ulogcat
