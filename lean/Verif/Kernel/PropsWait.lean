import Verif.Kernel.Wait
import Verif.Kernel.PropsOwn

/-!
# No lost wake-ups (C14)
-/
namespace Verif.Kernel
open Verif

/-- The reader of `fid` has nothing left to read. -/
def ADone (a : ASys) (fid : Nat) : Prop := ∃ r, a.log.find fid = some r ∧ r.idx = a.log.hist.length

theorem askip_end {h : List Entry} {euid : UInt32} {r : ARd} (hr : r.idx = h.length) :
    (askip h euid r).idx = h.length := by
  unfold askip
  split
  · exact hr
  · simp [hr]

/-- A reader at the end stays there as long as nothing is committed. -/
theorem ADone.step {a : ASys} {fid : Nat} {op : Op} (h : ADone a fid) (hsz : 16384 ≤ a.log.size)
    (hrel : ∀ g, op = .release g → g ≠ fid) (hh : (astep a op).1.log.hist = a.log.hist) :
    ADone (astep a op).1 fid := by
  obtain ⟨r, h1, h2⟩ := h
  have same : ∀ a' : ASys, a'.log = a.log → ADone a' fid := fun a' e => ⟨r, by rw [e]; exact h1, by rw [e]; exact h2⟩
  have hset : ∀ (a' : ASys) (g : Nat) (y : ARd), a'.log = a.log.set g y → (g = fid → y.idx = a.log.hist.length) →
      ADone a' fid := by
    intro a' g y e hy
    by_cases hg : g = fid
    · subst hg
      exact ⟨y, by rw [e]; exact find_set h1, by rw [e]; exact hy rfl⟩
    · exact ⟨r, by rw [e, find_set_other (Ne.symm hg)]; exact h1, by rw [e]; exact h2⟩
  have hfind : ∀ {g x}, a.log.find g = some x → g = fid → x.idx = a.log.hist.length := by
    intro g x hx hg
    subst hg
    rw [h1] at hx
    injection hx with hx
    rw [← hx]; exact h2
  have hfile : ∀ g f, op.fid = g → (astepFile a g f op).1.log.hist = a.log.hist → ADone (astepFile a g f op).1 fid := by
    intro g f hg hh
    unfold astepFile at hh ⊢
    cases op with
    | openF => exact same _ rfl
    | release x =>
      simp only at hh ⊢
      split
      · refine ⟨r, ?_, h2⟩
        have hne : x ≠ fid := hrel x rfl
        show (a.log.readers.filter fun p => p.1 ≠ g).lookup fid = some r
        rw [lookup_filter_ne, if_neg]
        · exact h1
        · have : x = g := hg
          intro hx; exact hne (by omega)
      · exact same _ rfl
    | write x t it junk =>
      simp only at hh ⊢
      split
      · rename_i hw
        rw [if_pos hw] at hh
        rcases awrite_cases a.log f.raw t it with ⟨e, _⟩ | ⟨e, _⟩ | ⟨en, n, e, _⟩ | ⟨en, n, e, hwf, _⟩
        · rw [e]; exact same _ rfl
        · rw [e]; exact same _ rfl
        · rw [e] at hh
          have := congrArg List.length hh
          simp at this
        · rw [e]
          refine ⟨pushed a.log en.size r, find_push h1, ?_⟩
          show r.idx + apush a.log.size a.log.hist en.size r.idx = a.log.hist.length
          have : en.size ≤ 4100 := by have : en.payload.length ≤ 4076 := hwf; unfold Entry.size; omega
          have : apush a.log.size a.log.hist en.size r.idx = 0 := by
            unfold apush
            rw [if_neg]
            rw [h2, List.drop_length]
            simp; omega
          omega
      · exact same _ rfl
    | check x =>
      simp only
      (repeat' split) <;> exact same _ rfl
    | read x euid count uw =>
      simp only
      split
      · split
        · rename_i y hy
          refine hset _ g _ rfl ?_
          intro hx
          have hy' := hfind hy hx
          have hsk := askip_end (euid := euid) hy'
          unfold aread
          simp only
          rw [hsk, List.getElem?_eq_none (Nat.le_refl _)]
          exact hsk
        · exact same _ rfl
      · exact same _ rfl
    | poll x euid =>
      simp only
      split
      · split
        · rename_i y hy
          exact hset _ g _ rfl (fun hx => askip_end (hfind hy hx))
        · exact same _ rfl
      · exact same _ rfl
    | getBufSize x => exact same _ rfl
    | getLogLen x =>
      simp only
      (repeat' split) <;> exact same _ rfl
    | getNextLen x euid =>
      simp only
      split
      · split
        · rename_i y hy
          exact hset _ g _ rfl (fun hx => askip_end (hfind hy hx))
        · exact same _ rfl
      · exact same _ rfl
    | flush x =>
      simp only
      split
      · refine ⟨{ r with idx := a.log.hist.length, dropped := 0 }, ?_, rfl⟩
        refine (lookup_map_snd (fun q : ARd => ({ q with idx := a.log.hist.length, dropped := 0 } : ARd)) fid
          a.log.readers).trans ?_
        rw [show a.log.readers.lookup fid = some r from h1]
        rfl
      · exact same _ rfl
    | getVersion x =>
      simp only
      (repeat' split) <;> exact same _ rfl
    | setVersion x arg =>
      simp only
      split
      · split
        · rename_i y hy
          split
          · exact same _ rfl
          · split
            · refine hset _ g _ rfl (fun hx => ?_)
              have := hfind hy hx
              exact this
            · exact same _ rfl
        · exact same _ rfl
      · exact same _ rfl
    | setRaw x cap arg =>
      simp only
      (repeat' split) <;> exact same _ rfl
  unfold astep at hh ⊢
  split
  · split
    · refine ⟨r, ?_, h2⟩
      show (a.log.readers ++ _).lookup fid = some r
      rw [lookup_append, show a.log.readers.lookup fid = some r from h1]
      rfl
    · exact same _ rfl
  · exact same _ rfl
  · rename_i f hf
    simp only [hf] at hh
    exact hfile _ f rfl hh

theorem hist_same_file {a : ASys} {g : Nat} {f : File} {op : Op} (h : ∀ fid t it junk, op ≠ .write fid t it junk) :
    (astepFile a g f op).1.log.hist = a.log.hist := by
  unfold astepFile
  cases op with
  | write fid t it junk => exact absurd rfl (h fid t it junk)
  | openF => rfl
  | getBufSize => rfl
  | _ =>
    simp only
    (repeat' split) <;> rfl

theorem hist_same {a : ASys} {op : Op} (h : ∀ fid t it junk, op ≠ .write fid t it junk) :
    (astep a op).1.log.hist = a.log.hist := by
  unfold astep
  split
  · simp only
    split <;> rfl
  · rfl
  · exact hist_same_file h

/-- Only a write that goes on to wake readers commits anything. -/
theorem commit_wakes {a : ASys} {fid : Nat} {t : Task} {it : Iter} {junk : Nat → UInt8} (hit : it.supported = true)
    (hh : (astep a (.write fid t it junk)).1.log.hist ≠ a.log.hist) :
    ∃ f, a.files fid = some f ∧ reachesWake f.raw t it (astep a (.write fid t it junk)).2 = true := by
  cases hf : a.files fid with
  | none => simp [astep, hf] at hh
  | some f =>
    refine ⟨f, rfl, ?_⟩
    simp only [astep, hf, astepFile] at hh ⊢
    split at hh
    · rename_i hw
      rw [if_pos hw]
      rcases awrite_cases a.log f.raw t it with ⟨e, _⟩ | ⟨e, _⟩ | ⟨en, n, e, _, _, _, hr, _⟩ | ⟨en, n, e, hwf, _⟩
      · rw [e] at hh; exact absurd rfl hh
      · rw [e] at hh; exact absurd rfl hh
      · rw [e]
        have hlen := Iter.data_length hit
        have hn := names_length t
        have hm : maxPayload = 4076 := rfl
        have hz : hdrSize = 24 := rfl
        have hne : entryLen f.raw t it.count ≠ 0 := by
          unfold entryLen
          cases hraw : f.raw with
          | true =>
            have := hr hraw
            rw [hlen] at this
            rw [if_pos rfl]
            omega
          | false =>
            rw [if_neg (by simp)]
            omega
        unfold reachesWake
        simp [hne]
      · rw [e] at hh; exact absurd rfl hh
    · exact absurd rfl hh

/-- Places where the log mutex is held between steps. -/
def KPc.holds : KPc → Bool
  | .prep _ | .test _ => true
  | _ => false

/-- A thread that is about to sleep or sleeps on this file. -/
def KPc.waiting : KPc → Option Nat
  | .decide a | .sleep a => some a.fid
  | _ => none

structure KInv (k : Nat) (w : WSys) : Prop where
  rel : ∃ G a, Rel k G w.sys a ∧ ∀ t fid, (w.pc t).waiting = some fid → w.run t = false → ¬ ADone a fid →
    ∃ u, w.pc u = .wake
  mutex : ∀ t, (w.pc t).holds = true ↔ w.mutex = some t
  rdbl : ∀ t fid, (w.pc t).reading = some fid → w.sys.readable fid = true
  sup : ∀ t fid task it junk, w.pc t = .commit fid task it junk → it.supported = true
  queue : ∀ t fid, (w.pc t).waiting = some fid ∨ (∃ a, w.pc t = .test a) → w.run t = false → w.on t = true

theorem waiting_reading {p : KPc} {fid : Nat} (h : p.waiting = some fid) : p.reading = some fid := by
  cases p <;> first | exact h | cases h

/-- A step that changes neither the driver state nor the queue of others. -/
theorem KInv.move {k : Nat} {w w' : WSys} {t : Tid} (h : KInv k w) {p : KPc}
    (hsys : w'.sys = w.sys) (hpc : ∀ u, w'.pc u = if u = t then p else w.pc u) (hnw : w.pc t ≠ .wake)
    (hon : ∀ u, u ≠ t → w'.on u = w.on u) (hrun : ∀ u, u ≠ t → w'.run u = w.run u)
    (hm : ∀ u, u ≠ t → (w'.mutex = some u ↔ w.mutex = some u)) (hmt : p.holds = true ↔ w'.mutex = some t)
    (hr : ∀ fid, p.reading = some fid → w.sys.readable fid = true)
    (hp : ∀ fid task it junk, p = .commit fid task it junk → it.supported = true)
    (hq : ∀ fid, p.waiting = some fid ∨ (∃ a, p = .test a) → w'.run t = false → w'.on t = true)
    (hw : ∀ G a fid, Rel k G w.sys a → (∀ t fid, (w.pc t).waiting = some fid → w.run t = false → ¬ ADone a fid →
      ∃ u, w.pc u = .wake) → p.waiting = some fid → w'.run t = false → ¬ ADone a fid → ∃ u, w.pc u = .wake) :
    KInv k w' := by
  obtain ⟨⟨G, a, h1, h2⟩, h3, h4, h6, h5⟩ := h
  refine ⟨⟨G, a, by rw [hsys]; exact h1, ?_⟩, ?_, ?_, ?_, ?_⟩
  · intro u fid hu hx hd
    have key : ∃ v, w.pc v = .wake := by
      rw [hpc u] at hu
      by_cases hut : u = t
      · rw [if_pos hut] at hu
        rw [hut] at hx
        exact hw G a fid h1 h2 hu hx hd
      · rw [if_neg hut] at hu
        rw [hrun u hut] at hx
        exact h2 u fid hu hx hd
    obtain ⟨v, hv⟩ := key
    refine ⟨v, ?_⟩
    rw [hpc v, if_neg]
    · exact hv
    · intro e; rw [e] at hv; exact hnw hv
  · intro u
    rw [hpc u]
    by_cases hut : u = t
    · rw [if_pos hut, hut]; exact hmt
    · rw [if_neg hut, hm u hut]; exact h3 u
  · intro u fid hu
    rw [hpc u] at hu
    rw [hsys]
    by_cases hut : u = t
    · rw [if_pos hut] at hu; exact hr fid hu
    · rw [if_neg hut] at hu; exact h4 u fid hu
  · intro u fid task it junk hu
    rw [hpc u] at hu
    by_cases hut : u = t
    · rw [if_pos hut] at hu; exact hp fid task it junk hu
    · rw [if_neg hut] at hu; exact h6 u fid task it junk hu
  · intro u fid hu hx
    rw [hpc u] at hu
    by_cases hut : u = t
    · rw [if_pos hut] at hu; rw [hut] at hx ⊢; exact hq fid hu hx
    · rw [if_neg hut] at hu; rw [hrun u hut] at hx; rw [hon u hut]; exact h5 u fid hu hx

def ASys.readable (a : ASys) (fid : Nat) : Bool :=
  match a.files fid with
  | some f => f.rd
  | none => false

theorem readable_rel {k G : Nat} {s : Sys} {a : ASys} (h : Rel k G s a) (fid : Nat) :
    s.readable fid = a.readable fid := by
  unfold Sys.readable ASys.readable
  rw [h.files]
  cases a.files fid <;> rfl

theorem readable_astep {a : ASys} {op : Op} {fid : Nat} (hr : a.readable fid = true)
    (hrel : ∀ g, op = .release g → g ≠ fid) : (astep a op).1.readable fid = true := by
  have same : ∀ a' : ASys, a'.files fid = a.files fid → a'.readable fid = true := by
    intro a' e
    unfold ASys.readable at hr ⊢
    rw [e]; exact hr
  have hfile : ∀ g f, op.fid = g → a.files g = some f → (astepFile a g f op).1.readable fid = true := by
    intro g f hg hf
    unfold astepFile
    cases op with
    | release x =>
      have hne : x ≠ fid := hrel x rfl
      have hx : x = g := hg
      simp only
      split <;> exact same _ (if_neg (fun e => hne (by omega)))
    | setRaw x cap arg =>
      have hset : ∀ v, (a.setFile g (some { f with raw := v })).readable fid = true := by
        intro v
        by_cases hx : fid = g
        · unfold ASys.readable at hr ⊢
          rw [hx, hf] at hr
          simp only [ASys.setFile, if_pos hx]
          exact hr
        · exact same _ (if_neg hx)
      simp only
      (repeat' split) <;> first | exact same _ rfl | exact hset _
    | write x t it junk =>
      simp only
      split <;> exact same _ rfl
    | _ =>
      simp only
      (repeat' split) <;> exact same _ rfl
  unfold astep
  split
  · rename_i x rd wr all hx
    have hne : fid ≠ x := by
      intro e
      unfold ASys.readable at hr
      rw [e, show a.files x = none from hx] at hr
      cases hr
    split <;> exact same _ (if_neg hne)
  · exact same _ rfl
  · rename_i f hf
    exact hfile _ f rfl hf

theorem readable_step {k G : Nat} {s s' : Sys} {a : ASys} {op : Op} {o : Out} {fid : Nat} (h : Rel k G s a)
    (hop : op.supported = true) (hs : step s op = .ok (s', o)) (hr : s.readable fid = true)
    (hrel : ∀ g, op = .release g → g ≠ fid) : s'.readable fid = true := by
  obtain ⟨_, G', h'⟩ := h.step hop hs
  rw [readable_rel h']
  rw [readable_rel h] at hr
  exact readable_astep hr hrel

/-- A driver step by `t`, which then is at `p`. -/
theorem KInv.drive {k : Nat} {w : WSys} {t : Tid} (h : KInv k w) {p : KPc} {op : Op} {s' : Sys} {o : Out}
    (hop : op.supported = true) (hs : step w.sys op = .ok (s', o)) (hnw : w.pc t ≠ .wake)
    (hnh : (w.pc t).holds = false) (hph : p.holds = false) (hpw : p.waiting = none) (hpt : ∀ a, p ≠ .test a) (hpc' : ∀ fid task it junk, p ≠ .commit fid task it junk)
    (hpr : ∀ fid, p.reading = some fid → (w.pc t).reading = some fid)
    (hrel : ∀ g, op = .release g → ∀ u, (w.pc u).reading ≠ some g)
    (hc : ∀ fid task it junk, op = .write fid task it junk → p = .wake ∨
      reachesWake (w.sys.rawFile fid) task it o = false) :
    KInv k { w with sys := s', pc := fun u => if u = t then p else w.pc u } := by
  obtain ⟨⟨G, a, h1, h2⟩, h3, h4, h6, h5⟩ := h
  obtain ⟨e1, G', h1'⟩ := h1.step hop hs
  have hread : ∀ u fid, (w.pc u).reading = some fid → s'.readable fid = true := by
    intro u fid hu
    refine readable_step h1 hop hs (h4 u fid hu) ?_
    intro g hg hx
    subst hx
    exact hrel g hg u hu
  refine ⟨⟨G', (astep a op).1, h1', ?_⟩, ?_, ?_, ?_, ?_⟩
  · intro u fid hu hx hd
    have hut : u ≠ t := by
      intro e
      simp only [e, if_true] at hu
      rw [hpw] at hu; cases hu
    simp only [if_neg hut] at hu
    by_cases hh : (astep a op).1.log.hist = a.log.hist
    · have hd0 : ¬ ADone a fid := by
        intro hd0
        refine hd (hd0.step ?_ ?_ hh)
        · rw [h1.log.asize, ← h1.log.size]; exact h1.log.big
        · intro g hg e
          exact hrel g hg u (by rw [e]; exact waiting_reading hu)
      obtain ⟨v, hv⟩ := h2 u fid hu hx hd0
      refine ⟨v, ?_⟩
      show (if v = t then p else w.pc v) = .wake
      rw [if_neg]
      · exact hv
      · intro e; rw [e] at hv; exact hnw hv
    · -- something was committed: this thread goes on to wake readers
      refine ⟨t, ?_⟩
      show (if t = t then p else w.pc t) = .wake
      rw [if_pos rfl]
      cases op with
      | write g task it junk =>
        obtain ⟨f, hf, hw⟩ := commit_wakes (junk := junk) hop hh
        rw [e1] at hw
        have hraw : w.sys.rawFile g = f.raw := by
          unfold Sys.rawFile
          rw [h1.files, hf]
        rcases hc g task it junk rfl with hc | hc
        · exact hc
        · rw [hraw, hw] at hc; cases hc
      | _ => exact absurd (hist_same (fun _ _ _ _ e => by cases e)) hh
  · intro u
    show (if u = t then p else w.pc u).holds = true ↔ w.mutex = some u
    by_cases hut : u = t
    · rw [if_pos hut, hut, hph, ← h3 t, hnh]
    · rw [if_neg hut]; exact h3 u
  · intro u fid hu
    have hu' : (if u = t then p else w.pc u).reading = some fid := hu
    by_cases hut : u = t
    · rw [if_pos hut] at hu'; exact hread t fid (hpr fid hu')
    · rw [if_neg hut] at hu'; exact hread u fid hu'
  · intro u fid task it junk hu
    have hu' : (if u = t then p else w.pc u) = .commit fid task it junk := hu
    by_cases hut : u = t
    · rw [if_pos hut] at hu'; exact absurd hu' (hpc' fid task it junk)
    · rw [if_neg hut] at hu'; exact h6 u fid task it junk hu'
  · intro u fid hu hx
    have hu' : (if u = t then p else w.pc u).waiting = some fid ∨ ∃ a, (if u = t then p else w.pc u) = .test a := hu
    by_cases hut : u = t
    · rw [if_pos hut, hpw] at hu'
      rcases hu' with hu' | ⟨a, hu'⟩
      · cases hu'
      · exact absurd hu' (hpt a)
    · rw [if_neg hut] at hu'; exact h5 u fid hu' hx

theorem KInv.start {name : Bytes} {k : Nat} (buf : Nat → UInt8) (hk : 14 ≤ k) (hn : name.length ≤ 89) :
    KInv k (.start name k buf) := by
  refine ⟨⟨0, ainit name k, init_rel buf hk hn, ?_⟩, ?_, ?_, ?_, ?_⟩
  · intro t fid ht; cases ht
  · intro t; simp [WSys.start, KPc.holds]
  · intro t fid ht; cases ht
  · intro t fid task it junk ht; cases ht
  · intro t fid ht
    rcases ht with ht | ⟨a, ht⟩ <;> cases ht

/-- At the end of the log in the driver and in the account. -/
theorem done_iff {k G : Nat} {s : Sys} {a : ASys} {fid : Nat} {r : Reader} (h : Rel k G s a)
    (hr : findReader s.log fid = .ok r) : s.log.wOff = r.off ↔ ADone a fid := by
  unfold findReader at hr
  rw [h.log.readers, lookup_map_snd] at hr
  cases hx : a.log.readers.lookup fid with
  | none => rw [hx] at hr; cases hr
  | some x =>
    rw [hx] at hr
    simp only [Option.map_some, Except.ok.injEq] at hr
    have hl := h.log.live (fid, x) (lookup_mem hx)
    rw [← hr, h.log.w]
    show bytesLen a.log.hist % s.log.size = pos a.log.hist x.idx % s.log.size ↔ _
    rw [live_eof_iff hl h.log.hW]
    constructor
    · intro e; exact ⟨x, hx, e⟩
    · rintro ⟨y, hy, e⟩
      have hy' : a.log.readers.lookup fid = some y := hy
      rw [hx] at hy'
      injection hy' with hy'
      rw [hy']; exact e

theorem KInv.step {k : Nat} {w w' : WSys} {t : Tid} {ch : KChoice} (h : KInv k w) (hmay : mayCall w ch)
    (hs : kstep t ch w = some w') : KInv k w' := by
  have hmx := h.mutex t
  have hrd := h.rdbl t
  unfold kstep at hs
  cases hpc : w.pc t with
  | idle =>
    rw [hpc] at hs hmx hrd
    cases ch with
    | read a =>
      simp only at hs
      split at hs
      · rename_i hr
        injection hs with hs; subst hs
        refine h.move (t := t) (p := .lock a) rfl (fun _ => rfl) (by rw [hpc]; intro e; cases e) (fun _ _ => rfl)
          (fun _ _ => rfl) (fun _ _ => Iff.rfl) ?_ ?_ ?_ ?_ ?_
        · exact hmx
        · intro fid hf; injection hf with hf; rw [← hf]; exact hr
        · intro _ _ _ _ e; cases e
        · intro fid hf; rcases hf with hf | ⟨a, hf⟩ <;> cases hf
        · intro G a fid _ _ hf; cases hf
      · cases hs
    | write fid task it junk =>
      simp only at hs
      split at hs
      · rename_i hsup
        injection hs with hs; subst hs
        refine h.move (t := t) (p := .commit fid task it junk) rfl (fun _ => rfl) (by rw [hpc]; intro e; cases e)
          (fun _ _ => rfl) (fun _ _ => rfl) (fun _ _ => Iff.rfl) ?_ ?_ ?_ ?_ ?_
        · exact hmx
        · intro fid hf; cases hf
        · intro fid' task' it' junk' e; injection e with _ _ e _; subst e; exact hsup
        · intro fid hf; rcases hf with hf | ⟨a, hf⟩ <;> cases hf
        · intro G a fid _ _ hf; cases hf
      · cases hs
    | other op =>
      simp only at hs
      split at hs
      · rename_i hc
        split at hs
        · rename_i s' o hst
          injection hs with hs; subst hs
          have hsup : op.supported = true := by cases op <;> first | rfl | cases hc.1
          have := h.drive (t := t) (p := .idle) hsup hst (by rw [hpc]; intro e; cases e) (by rw [hpc]; rfl) rfl rfl
            (fun a e => by cases e) (fun _ _ _ _ e => by cases e) (fun fid hf => by cases hf) (fun g hg => by subst hg; exact hmay)
            (fun fid task it junk e => by subst e; cases hc.1)
          have e : (fun u => if u = t then KPc.idle else w.pc u) = w.pc := by
            funext u
            by_cases hut : u = t
            · rw [if_pos hut, hut, hpc]
            · rw [if_neg hut]
          rw [e] at this
          exact this
        · cases hs
      · cases hs
    | go => cases hs
    | signal => cases hs
  | lock a =>
    rw [hpc] at hs hrd
    cases ch with
    | go =>
      simp only at hs
      split at hs
      · rename_i hm
        injection hs with hs; subst hs
        refine h.move (t := t) (p := .prep a) rfl (fun _ => rfl) (by rw [hpc]; intro e; cases e) (fun _ _ => rfl)
          (fun _ _ => rfl) ?_ ?_ ?_ ?_ ?_ ?_
        · intro u hu; show some t = some u ↔ _; rw [hm]; simp [Ne.symm hu]
        · simp [WSys.at, KPc.holds]
        · intro fid hf; exact hrd fid hf
        · intro _ _ _ _ e; cases e
        · intro fid hf; rcases hf with hf | ⟨a, hf⟩ <;> cases hf
        · intro G a fid _ _ hf; cases hf
      · cases hs
    | _ => cases hs
  | prep a =>
    rw [hpc] at hs hmx hrd
    cases ch with
    | go =>
      injection hs with hs; subst hs
      refine h.move (t := t) (p := .test a) rfl (fun _ => rfl) (by rw [hpc]; intro e; cases e) (fun u hu => if_neg hu)
        (fun u hu => if_neg hu) (fun _ _ => Iff.rfl) ?_ ?_ ?_ ?_ ?_
      · exact hmx
      · intro fid hf; exact hrd fid hf
      · intro _ _ _ _ e; cases e
      · intro fid _ _; exact if_pos rfl
      · intro G a fid _ _ hf; cases hf
    | _ => cases hs
  | test a =>
    rw [hpc] at hs hmx hrd
    have hq := h.queue t a.fid (Or.inr ⟨a, hpc⟩)
    cases ch with
    | go =>
      simp only at hs
      split at hs
      · rename_i r hr
        injection hs with hs; subst hs
        have hm : w.mutex = some t := hmx.mp rfl
        by_cases hd : w.sys.log.wOff = r.off
        · rw [if_pos hd]
          refine h.move (t := t) (p := .decide a) rfl (fun _ => rfl) (by rw [hpc]; intro e; cases e) (fun _ _ => rfl)
            (fun _ _ => rfl) ?_ ?_ ?_ ?_ ?_ ?_
          · intro u hu; show none = some u ↔ _; rw [hm]; simp [Ne.symm hu]
          · simp [WSys.at, KPc.holds]
          · intro fid hf; exact hrd fid hf
          · intro _ _ _ _ e; cases e
          · intro fid _ hx; exact hq hx
          · intro G b fid hrel _ hf _ hn
            injection hf with hf
            rw [← hf] at hn
            exact absurd ((done_iff hrel hr).mp hd) hn
        · rw [if_neg hd]
          refine h.move (t := t) (p := .finish a) rfl (fun _ => rfl) (by rw [hpc]; intro e; cases e) (fun _ _ => rfl)
            (fun _ _ => rfl) ?_ ?_ ?_ ?_ ?_ ?_
          · intro u hu; show none = some u ↔ _; rw [hm]; simp [Ne.symm hu]
          · simp [WSys.at, KPc.holds]
          · intro fid hf; exact hrd fid hf
          · intro _ _ _ _ e; cases e
          · intro fid hf; rcases hf with hf | ⟨a, hf⟩ <;> cases hf
          · intro G a fid _ _ hf; cases hf
      · cases hs
    | _ => cases hs
  | decide a =>
    rw [hpc] at hs hmx hrd
    have hq := h.queue t a.fid (Or.inl (by rw [hpc]; rfl))
    have hfin : KInv k ((w.finish t).at t .idle) := by
      refine h.move (t := t) (p := .idle) rfl (fun _ => rfl) (by rw [hpc]; intro e; cases e) (fun u hu => if_neg hu)
        (fun u hu => if_neg hu) (fun _ _ => Iff.rfl) hmx ?_ ?_ ?_ ?_
      · intro fid hf; cases hf
      · intro _ _ _ _ e; cases e
      · intro fid hf; rcases hf with hf | ⟨a, hf⟩ <;> cases hf
      · intro G a fid _ _ hf; cases hf
    cases ch with
    | go =>
      injection hs with hs; subst hs
      split
      · exact hfin
      · refine h.move (t := t) (p := .sleep a) rfl (fun _ => rfl) (by rw [hpc]; intro e; cases e) (fun _ _ => rfl)
          (fun _ _ => rfl) (fun _ _ => Iff.rfl) hmx ?_ ?_ ?_ ?_
        · intro fid hf; exact hrd fid hf
        · intro _ _ _ _ e; cases e
        · intro fid _ hx; exact hq hx
        · intro G b fid _ hw hf hx hn
          exact hw t fid (by rw [hpc]; exact hf) hx hn
    | signal => injection hs with hs; subst hs; exact hfin
    | _ => cases hs
  | sleep a =>
    rw [hpc] at hs hmx hrd
    cases ch with
    | go =>
      simp only at hs
      split at hs
      · injection hs with hs; subst hs
        refine h.move (t := t) (p := .lock a) rfl (fun _ => rfl) (by rw [hpc]; intro e; cases e) (fun _ _ => rfl)
          (fun _ _ => rfl) (fun _ _ => Iff.rfl) hmx ?_ ?_ ?_ ?_
        · intro fid hf; exact hrd fid hf
        · intro _ _ _ _ e; cases e
        · intro fid hf; rcases hf with hf | ⟨a, hf⟩ <;> cases hf
        · intro G a fid _ _ hf; cases hf
      · cases hs
    | signal =>
      injection hs with hs; subst hs
      refine h.move (t := t) (p := .sleep a) rfl ?_ (by rw [hpc]; intro e; cases e) (fun _ _ => rfl)
        (fun u hu => if_neg hu) (fun _ _ => Iff.rfl) hmx ?_ ?_ ?_ ?_
      · intro u
        show w.pc u = _
        by_cases hut : u = t
        · rw [if_pos hut, hut, hpc]
        · rw [if_neg hut]
      · intro fid hf; exact hrd fid hf
      · intro _ _ _ _ e; cases e
      · intro fid _ hx
        have hx' : (if t = t then true else w.run t) = false := hx
        rw [if_pos rfl] at hx'; cases hx'
      · intro G b fid _ _ _ hx
        have hx' : (if t = t then true else w.run t) = false := hx
        rw [if_pos rfl] at hx'; cases hx'
    | _ => cases hs
  | finish a =>
    rw [hpc] at hs hmx hrd
    cases ch with
    | go =>
      injection hs with hs; subst hs
      refine h.move (t := t) (p := .second a) rfl (fun _ => rfl) (by rw [hpc]; intro e; cases e) (fun u hu => if_neg hu)
        (fun u hu => if_neg hu) (fun _ _ => Iff.rfl) hmx ?_ ?_ ?_ ?_
      · intro fid hf; exact hrd fid hf
      · intro _ _ _ _ e; cases e
      · intro fid hf; rcases hf with hf | ⟨a, hf⟩ <;> cases hf
      · intro G a fid _ _ hf; cases hf
    | _ => cases hs
  | second a =>
    rw [hpc] at hs
    cases ch with
    | go =>
      simp only at hs
      split at hs
      · split at hs
        · rename_i s' hst
          injection hs with hs; subst hs
          exact h.drive (t := t) (p := .lock a) rfl hst (by rw [hpc]; intro e; cases e) (by rw [hpc]; rfl) rfl rfl
            (fun a e => by cases e) (fun _ _ _ _ e => by cases e) (fun fid hf => by rw [hpc]; exact hf) (fun g hg => by cases hg)
            (fun fid task it junk e => by cases e)
        · rename_i s' o _ hst
          injection hs with hs; subst hs
          exact h.drive (t := t) (p := .idle) rfl hst (by rw [hpc]; intro e; cases e) (by rw [hpc]; rfl) rfl rfl
            (fun a e => by cases e) (fun _ _ _ _ e => by cases e) (fun fid hf => by cases hf) (fun g hg => by cases hg)
            (fun fid task it junk e => by cases e)
        · cases hs
      · cases hs
    | _ => cases hs
  | commit fid task it junk =>
    rw [hpc] at hs
    cases ch with
    | go =>
      simp only at hs
      split at hs
      · split at hs
        · rename_i s' o hst
          injection hs with hs; subst hs
          have hsup : it.supported = true := h.sup t fid task it junk hpc
          by_cases hw : reachesWake (w.sys.rawFile fid) task it o = true
          · rw [if_pos hw]
            exact h.drive (t := t) (p := .wake) (op := .write fid task it junk) hsup hst (by rw [hpc]; intro e; cases e) (by rw [hpc]; rfl) rfl rfl
              (fun a e => by cases e) (fun _ _ _ _ e => by cases e) (fun fid hf => by cases hf) (fun g hg => by cases hg)
              (fun _ _ _ _ _ => Or.inl rfl)
          · rw [if_neg hw]
            exact h.drive (t := t) (p := .idle) (op := .write fid task it junk) hsup hst (by rw [hpc]; intro e; cases e) (by rw [hpc]; rfl) rfl rfl
              (fun a e => by cases e) (fun _ _ _ _ e => by cases e) (fun fid hf => by cases hf) (fun g hg => by cases hg)
              (fun fid' task' it' junk' e => by
                injection e with e1 e2 e3 e4
                subst e1; subst e2; subst e3
                exact Or.inr (by simpa using hw))
        · cases hs
      · cases hs
    | _ => cases hs
  | wake =>
    rw [hpc] at hs hmx
    cases ch with
    | go =>
      injection hs with hs; subst hs
      obtain ⟨⟨G, a, h1, h2⟩, h3, h4, h6, h5⟩ := h
      have hall : ∀ u fid, (if u = t then KPc.idle else w.pc u).waiting = some fid ∨
          (∃ a, (if u = t then KPc.idle else w.pc u) = .test a) → (w.run u || w.on u) = true := by
        intro u fid hu
        by_cases hut : u = t
        · rw [if_pos hut] at hu
          rcases hu with hu | ⟨a, hu⟩ <;> cases hu
        · rw [if_neg hut] at hu
          cases hr : w.run u with
          | true => rfl
          | false => rw [h5 u fid hu hr]; rfl
      refine ⟨⟨G, a, h1, ?_⟩, ?_, ?_, ?_, ?_⟩
      · intro u fid hu hx
        have hx' : (w.run u || w.on u) = false := hx
        rw [hall u fid (Or.inl hu)] at hx'; cases hx'
      · intro u
        show (if u = t then KPc.idle else w.pc u).holds = true ↔ w.mutex = some u
        by_cases hut : u = t
        · rw [if_pos hut, hut]; exact hmx
        · rw [if_neg hut]; exact h3 u
      · intro u fid hu
        have hu' : (if u = t then KPc.idle else w.pc u).reading = some fid := hu
        by_cases hut : u = t
        · rw [if_pos hut] at hu'; cases hu'
        · rw [if_neg hut] at hu'; exact h4 u fid hu'
      · intro u fid task it junk hu
        have hu' : (if u = t then KPc.idle else w.pc u) = .commit fid task it junk := hu
        by_cases hut : u = t
        · rw [if_pos hut] at hu'; cases hu'
        · rw [if_neg hut] at hu'; exact h6 u fid task it junk hu'
      · intro u fid hu hx
        have hx' : (w.run u || w.on u) = false := hx
        rw [hall u fid hu] at hx'; cases hx'
    | _ => cases hs

theorem KReach.inv {name : Bytes} {k : Nat} {buf : Nat → UInt8} {w : WSys} (hk : 14 ≤ k) (hn : name.length ≤ 89)
    (h : KReach name k buf w) : KInv k w := by
  induction h with
  | start => exact KInv.start buf hk hn
  | step t ch _ hm hs ih => exact ih.step hm hs

/-- A thread inside a read has its reader in the list of the log. -/
theorem KInv.find {k : Nat} {w : WSys} (h : KInv k w) {t : Tid} {fid : Nat} (ht : (w.pc t).reading = some fid) :
    ∃ r, findReader w.sys.log fid = .ok r := by
  obtain ⟨G, a, h1, _⟩ := h.rel
  have hr := h.rdbl t fid ht
  rw [readable_rel h1] at hr
  unfold ASys.readable at hr
  cases hf : a.files fid with
  | none => rw [hf] at hr; cases hr
  | some f =>
    rw [hf] at hr
    obtain ⟨r, _, e, _⟩ := h1.find hf hr
    exact ⟨_, e⟩

/-- **C14.** A thread that is about to sleep, or sleeps, in a blocking read while
its position in the log differs from the write position is runnable already, or
some writer that committed is about to wake the readers. -/
theorem C14_no_lost_wakeup {name : Bytes} {k : Nat} {buf : Nat → UInt8} {w : WSys} (hk : 14 ≤ k)
    (hn : name.length ≤ 89) (h : KReach name k buf w) {t : Tid} {a : RdArgs}
    (ht : w.pc t = .decide a ∨ w.pc t = .sleep a) {r : Reader} (hr : findReader w.sys.log a.fid = .ok r)
    (hne : w.sys.log.wOff ≠ r.off) : w.run t = true ∨ ∃ u, w.pc u = .wake := by
  have hi := h.inv hk hn
  obtain ⟨G, b, h1, h2⟩ := hi.rel
  cases hx : w.run t with
  | true => exact Or.inl rfl
  | false =>
    refine Or.inr (h2 t a.fid ?_ hx ?_)
    · rcases ht with ht | ht <;> rw [ht] <;> rfl
    · intro hd
      exact hne ((done_iff h1 hr).mpr hd)

/-- **C14.** The wake-up of that writer makes every sleeping thread runnable. -/
theorem C14_wake {name : Bytes} {k : Nat} {buf : Nat → UInt8} {w : WSys} (hk : 14 ≤ k) (hn : name.length ≤ 89)
    (h : KReach name k buf w) {u : Tid} (hu : w.pc u = .wake) :
    ∃ w', kstep u .go w = some w' ∧ ∀ t a, w.pc t = .decide a ∨ w.pc t = .sleep a → w'.run t = true := by
  have hi := h.inv hk hn
  unfold kstep
  rw [hu]
  refine ⟨_, rfl, ?_⟩
  intro t a ht
  show (w.run t || w.on t) = true
  cases hx : w.run t with
  | true => rfl
  | false =>
    rw [hi.queue t a.fid (Or.inl ?_) hx]
    · rfl
    · rcases ht with ht | ht <;> rw [ht] <;> rfl

/-- **C14.** No call gets stuck other than a read that has nothing to read: a
thread inside a call can make a step, or the holder of the mutex can, or the
thread sleeps at the end of the log, or a writer is about to wake the readers. -/
theorem C14_progress {name : Bytes} {k : Nat} {buf : Nat → UInt8} {w : WSys} (hk : 14 ≤ k) (hn : name.length ≤ 89)
    (h : KReach name k buf w) {t : Tid} (ht : w.pc t ≠ .idle) :
    (∃ w', kstep t .go w = some w') ∨ (∃ u w', w.mutex = some u ∧ kstep u .go w = some w') ∨
      (∃ a r, w.pc t = .sleep a ∧ w.run t = false ∧ findReader w.sys.log a.fid = .ok r ∧ w.sys.log.wOff = r.off) ∨
      ∃ u, w.pc u = .wake := by
  have hi := h.inv hk hn
  obtain ⟨G, b, h1, h2⟩ := hi.rel
  have hold : ∀ u, (w.pc u).holds = true → ∃ w', kstep u .go w = some w' := by
    intro u hu
    unfold kstep
    cases hp : w.pc u with
    | prep a => exact ⟨_, rfl⟩
    | test a =>
      obtain ⟨r, hr⟩ := hi.find (t := u) (fid := a.fid) (by rw [hp]; rfl)
      simp only [hr]
      exact ⟨_, rfl⟩
    | _ => rw [hp] at hu; cases hu
  by_cases hm : w.mutex = none
  · cases hp : w.pc t with
    | idle => exact absurd hp ht
    | lock a => refine Or.inl ?_; unfold kstep; rw [hp]; exact ⟨_, if_pos hm⟩
    | prep a => exact Or.inl (hold t (by rw [hp]; rfl))
    | test a => exact Or.inl (hold t (by rw [hp]; rfl))
    | decide a => refine Or.inl ?_; unfold kstep; rw [hp]; exact ⟨_, rfl⟩
    | sleep a =>
      obtain ⟨r, hr⟩ := hi.find (t := t) (fid := a.fid) (by rw [hp]; rfl)
      cases hx : w.run t with
      | true => refine Or.inl ?_; unfold kstep; rw [hp]; exact ⟨_, if_pos hx⟩
      | false =>
        by_cases hd : w.sys.log.wOff = r.off
        · exact Or.inr (Or.inr (Or.inl ⟨a, r, rfl, rfl, hr, hd⟩))
        · refine Or.inr (Or.inr (Or.inr ?_))
          rcases C14_no_lost_wakeup hk hn h (Or.inr hp) hr hd with e | e
          · rw [hx] at e; cases e
          · exact e
    | finish a => refine Or.inl ?_; unfold kstep; rw [hp]; exact ⟨_, rfl⟩
    | second a =>
      obtain ⟨_, c', e, _⟩ := step_refines h1 (.read a.fid a.euid a.count a.uw) rfl
      refine Or.inl ?_
      unfold kstep
      rw [hp]
      simp only [if_pos hm, e]
      cases (astep b (.read a.fid a.euid a.count a.uw)).2 <;> exact ⟨_, rfl⟩
    | commit fid task it junk =>
      obtain ⟨_, c', e, _⟩ := step_refines h1 (.write fid task it junk) (hi.sup t fid task it junk hp)
      refine Or.inl ?_
      unfold kstep
      rw [hp]
      simp only [if_pos hm, e]
      exact ⟨_, rfl⟩
    | wake => exact Or.inr (Or.inr (Or.inr ⟨t, hp⟩))
  · obtain ⟨u, hu⟩ := Option.ne_none_iff_exists'.mp hm
    obtain ⟨w', hw⟩ := hold u ((hi.mutex u).mpr hu)
    exact Or.inr (Or.inl ⟨u, w', hu, hw⟩)

/-- C14. A write that fails, or that has nothing to write, wakes nobody: the writer is done
at once, and who waits and who may run stays as it is. -/
theorem C14_silent {t : Tid} {w w' : WSys} {fid : Nat} {task : Task} {it : Iter} {junk : Nat → UInt8} {s : Sys} {o : Out}
    (hpc : w.pc t = .commit fid task it junk) (hs : step w.sys (.write fid task it junk) = .ok (s, o))
    (ho : (∀ n, o ≠ .ret n) ∨ entryLen (w.sys.rawFile fid) task it.count = 0) (hst : kstep t .go w = some w') :
    w'.pc t = .idle ∧ w'.on = w.on ∧ w'.run = w.run := by
  have hr : reachesWake (w.sys.rawFile fid) task it o = false := by
    unfold reachesWake
    rcases ho with h | h
    · cases o with
      | ret n => exact absurd rfl (h n)
      | _ => rfl
    · cases o with
      | ret n => simp [h]
      | _ => rfl
  unfold kstep at hst
  rw [hpc] at hst
  dsimp only at hst
  split at hst
  · rw [hs] at hst
    dsimp only at hst
    rw [hr] at hst
    simp only [Option.some.injEq] at hst
    rw [← hst]
    simp [WSys.at]
  · cases hst

end Verif.Kernel
