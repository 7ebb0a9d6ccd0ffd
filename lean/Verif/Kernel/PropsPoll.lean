import Verif.Kernel.Poll
import Verif.Kernel.PropsWait

/-!
# Nothing is missed by poll (C128)
-/
namespace Verif.Kernel
open Verif

/-- The reader of the file is at the end of the log: nothing is left to read. -/
def AtEnd (s : Sys) (fid : Nat) : Prop := ∃ r, findReader s.log fid = .ok r ∧ s.log.wOff = r.off

theorem atEnd_iff {k G : Nat} {s : Sys} {a : ASys} {fid : Nat} (h : Rel k G s a) : AtEnd s fid ↔ ADone a fid := by
  constructor
  · rintro ⟨r, h1, h2⟩
    exact (done_iff h h1).mp h2
  · intro hd
    obtain ⟨x, hx, _⟩ := id hd
    have hr : ∃ r, findReader s.log fid = .ok r := by
      unfold findReader
      have hx' : a.log.readers.lookup fid = some x := hx
      rw [h.log.readers, lookup_map_snd, hx']
      exact ⟨_, rfl⟩
    obtain ⟨r, hr⟩ := hr
    exact ⟨r, hr, (done_iff h hr).mpr hd⟩

theorem rdOf_astep {a : ASys} {op : Op} {fid : Nat} {b : Bool} (hr : (a.files fid).map (·.rd) = some b)
    (hrel : ∀ g, op = .release g → g ≠ fid) : ((astep a op).1.files fid).map (·.rd) = some b := by
  have same : ∀ a' : ASys, a'.files fid = a.files fid → (a'.files fid).map (·.rd) = some b := by
    intro a' e
    rw [e]; exact hr
  have hfile : ∀ g f, g = op.fid → a.files g = some f → ((astepFile a g f op).1.files fid).map (·.rd) = some b := by
    intro g f hg hf
    unfold astepFile
    cases op with
    | release x =>
      have hne : x ≠ fid := hrel x rfl
      have hx : x = g := hg.symm
      simp only
      split <;> exact same _ (if_neg (fun e => hne (by omega)))
    | setRaw x cap arg =>
      have hset : ∀ v, ((a.setFile g (some { f with raw := v })).files fid).map (·.rd) = some b := by
        intro v
        by_cases hx : fid = g
        · rw [hx, hf] at hr
          simp only [ASys.setFile, if_pos hx]
          exact hr
        · exact same _ (if_neg hx)
      simp only
      (repeat' split) <;> first | exact same _ rfl | exact hset _
    | write x t it junk =>
      simp only
      split <;> exact same _ rfl
    | _ =>
      simp only
      (repeat' split) <;> exact same _ rfl
  unfold astep
  split
  · rename_i x rd wr all hx
    have hne : fid ≠ x := by
      intro e
      rw [e, show a.files x = none from hx] at hr
      cases hr
    split <;> exact same _ (if_neg hne)
  · exact same _ rfl
  · rename_i f hf
    exact hfile _ f rfl hf

theorem rdOf_step {k G : Nat} {s s' : Sys} {a : ASys} {op : Op} {o : Out} {fid : Nat} {b : Bool} (h : Rel k G s a)
    (hop : op.supported = true) (hs : step s op = .ok (s', o)) (hr : s.rdOf fid = some b)
    (hrel : ∀ g, op = .release g → g ≠ fid) : s'.rdOf fid = some b := by
  obtain ⟨_, G', h'⟩ := h.step hop hs
  unfold Sys.rdOf at hr ⊢
  rw [h'.files]
  rw [h.files] at hr
  exact rdOf_astep hr hrel

/-- A reader at the end stays there, unless a writer commits that will wake the readers. -/
theorem AtEnd.step {k G : Nat} {s s' : Sys} {a : ASys} {op : Op} {o : Out} {fid : Nat} (h : Rel k G s a)
    (hop : op.supported = true) (hs : step s op = .ok (s', o)) (he : AtEnd s fid)
    (hrel : ∀ g, op = .release g → g ≠ fid) :
    AtEnd s' fid ∨ ∃ g t it junk, op = .write g t it junk ∧ reachesWake (s.rawFile g) t it o = true := by
  obtain ⟨e1, G', h'⟩ := h.step hop hs
  rw [atEnd_iff h] at he
  by_cases hh : (astep a op).1.log.hist = a.log.hist
  · refine Or.inl ((atEnd_iff h').mpr (he.step ?_ hrel hh))
    rw [h.log.asize, ← h.log.size]; exact h.log.big
  · refine Or.inr ?_
    cases op with
    | write g t it junk =>
      obtain ⟨f, hf, hw⟩ := commit_wakes (junk := junk) hop hh
      rw [e1] at hw
      refine ⟨g, t, it, junk, rfl, ?_⟩
      have hraw : s.rawFile g = f.raw := by
        unfold Sys.rawFile
        rw [h.files, hf]
      rw [hraw]; exact hw
    | _ => exact absurd (hist_same (fun _ _ _ _ e => by cases e)) hh

/-- Files looked at in this round, with nothing found so far. -/
def PPc.Tested (q : Nat × Nat) : PPc → Prop
  | .wait a todo _ found => found = false ∧ q ∈ a.fds ∧ q ∉ todo
  | .test a p todo _ found => found = false ∧ q ∈ a.fds ∧ q ≠ p ∧ q ∉ todo
  | .sleep a => q ∈ a.fds
  | _ => False

/-- Files on whose queues the thread has entries. -/
def PPc.Queued (q : Nat × Nat) : PPc → Prop
  | .wait a todo first found | .test a _ todo first found =>
    q ∈ a.fds ∧ (first = true → found = false ∧ q ∉ todo)
  | .sleep a => q ∈ a.fds
  | _ => False

theorem PPc.Tested.polled {q : Nat × Nat} {p : PPc} (h : p.Tested q) : q ∈ p.polled := by
  cases p with
  | wait a todo first found => exact h.2.1
  | test a p todo first found => exact h.2.1
  | sleep a => exact h
  | _ => exact h.elim

theorem PPc.Tested.queued {q : Nat × Nat} {p : PPc} (h : p.Tested q) : p.Queued q := by
  cases p with
  | wait a todo first found => exact ⟨h.2.1, fun _ => ⟨h.1, h.2.2⟩⟩
  | test a p todo first found => exact ⟨h.2.1, fun _ => ⟨h.1, h.2.2.2⟩⟩
  | sleep a => exact h
  | _ => exact h.elim

theorem PPc.Queued.polled {q : Nat × Nat} {p : PPc} (h : p.Queued q) : q ∈ p.polled := by
  cases p with
  | wait a todo first found => exact h.1
  | test a p todo first found => exact h.1
  | sleep a => exact h
  | _ => exact h.elim

structure PInv (k : Nat → Nat) (w : PSys) : Prop where
  rel : ∀ d, ∃ G a, Rel (k d) G (w.dev d) a
  opn : ∀ t p, p ∈ (w.pc t).polled → ∃ b, (w.dev p.1).rdOf p.2 = some b
  tst : ∀ t a p todo first found, w.pc t = .test a p todo first found → (w.dev p.1).rdOf p.2 = some true ∧ p ∈ a.fds
  sub : ∀ t a todo first found, w.pc t = .wait a todo first found → ∀ p ∈ todo, p ∈ a.fds
  subt : ∀ t a p todo first found, w.pc t = .test a p todo first found → ∀ p ∈ todo, p ∈ a.fds
  sup : ∀ t d fid task it junk, w.pc t = .commit d fid task it junk → it.supported = true
  reg : ∀ t p, (w.pc t).Queued p → (w.dev p.1).rdOf p.2 = some true → p.1 ∈ w.reg t
  done : ∀ t p, (w.pc t).Tested p → w.trig t = false → (w.dev p.1).rdOf p.2 = some true →
    AtEnd (w.dev p.1) p.2 ∨ ∃ u, w.pc u = .wake p.1

theorem readable_rdOf {s : Sys} {fid : Nat} : s.readable fid = true ↔ s.rdOf fid = some true := by
  unfold Sys.readable Sys.rdOf
  cases s.files fid <;> simp

/-- A step of `t` to `p'` that keeps what others rely on. -/
theorem PInv.next {k : Nat → Nat} {w w' : PSys} {t : Tid} {p' : PPc} (h : PInv k w)
    (hrel : ∀ d, ∃ G a, Rel (k d) G (w'.dev d) a)
    (hpc : ∀ u, w'.pc u = if u = t then p' else w.pc u)
    (hreg : ∀ u, u ≠ t → w'.reg u = w.reg u) (htr : ∀ u, u ≠ t → w'.trig u = w.trig u)
    (hnw : ∀ d, w.pc t ≠ .wake d)
    (hopn : ∀ u p b, p ∈ (w.pc u).polled → (w.dev p.1).rdOf p.2 = some b → (w'.dev p.1).rdOf p.2 = some b)
    (hend : ∀ u p, p ∈ (w.pc u).polled → AtEnd (w.dev p.1) p.2 → AtEnd (w'.dev p.1) p.2 ∨ p' = .wake p.1)
    (h1 : ∀ p ∈ p'.polled, ∃ b, (w'.dev p.1).rdOf p.2 = some b)
    (h2 : ∀ a p todo first found, p' = .test a p todo first found →
      (w'.dev p.1).rdOf p.2 = some true ∧ p ∈ a.fds ∧ ∀ q ∈ todo, q ∈ a.fds)
    (h3 : ∀ a todo first found, p' = .wait a todo first found → ∀ p ∈ todo, p ∈ a.fds)
    (h4 : ∀ d fid task it junk, p' = .commit d fid task it junk → it.supported = true)
    (h5 : ∀ p, p'.Queued p → (w'.dev p.1).rdOf p.2 = some true → p.1 ∈ w'.reg t)
    (h6 : ∀ p, p'.Tested p → w'.trig t = false → (w'.dev p.1).rdOf p.2 = some true →
      AtEnd (w'.dev p.1) p.2 ∨ ∃ u, u ≠ t ∧ w.pc u = .wake p.1) : PInv k w' := by
  have back : ∀ u p, p ∈ (w.pc u).polled → (w'.dev p.1).rdOf p.2 = some true → (w.dev p.1).rdOf p.2 = some true := by
    intro u p hp hr
    obtain ⟨b, hb⟩ := h.opn u p hp
    have := hopn u p b hp hb
    rw [hr] at this
    injection this with this
    rw [this]; exact hb
  refine ⟨hrel, ?_, ?_, ?_, ?_, ?_, ?_, ?_⟩
  · intro u p hp
    rw [hpc u] at hp
    by_cases hut : u = t
    · rw [if_pos hut] at hp; exact h1 p hp
    · rw [if_neg hut] at hp
      obtain ⟨b, hb⟩ := h.opn u p hp
      exact ⟨b, hopn u p b hp hb⟩
  · intro u a p todo first found hp
    rw [hpc u] at hp
    by_cases hut : u = t
    · rw [if_pos hut] at hp
      have := h2 a p todo first found hp
      exact ⟨this.1, this.2.1⟩
    · rw [if_neg hut] at hp
      have := h.tst u a p todo first found hp
      exact ⟨hopn u p true (by rw [hp]; exact this.2) this.1, this.2⟩
  · intro u a todo first found hp
    rw [hpc u] at hp
    by_cases hut : u = t
    · rw [if_pos hut] at hp; exact h3 a todo first found hp
    · rw [if_neg hut] at hp; exact h.sub u a todo first found hp
  · intro u a p todo first found hp
    rw [hpc u] at hp
    by_cases hut : u = t
    · rw [if_pos hut] at hp; exact (h2 a p todo first found hp).2.2
    · rw [if_neg hut] at hp; exact h.subt u a p todo first found hp
  · intro u d fid task it junk hp
    rw [hpc u] at hp
    by_cases hut : u = t
    · rw [if_pos hut] at hp; exact h4 d fid task it junk hp
    · rw [if_neg hut] at hp; exact h.sup u d fid task it junk hp
  · intro u p hp hr
    rw [hpc u] at hp
    by_cases hut : u = t
    · rw [if_pos hut] at hp; rw [hut]; exact h5 p hp hr
    · rw [if_neg hut] at hp
      rw [hreg u hut]
      exact h.reg u p hp (back u p hp.polled hr)
  · intro u p hp hx hr
    rw [hpc u] at hp
    have other : ∀ v d, v ≠ t → w.pc v = .wake d → ∃ v, w'.pc v = .wake d := by
      intro v d hv e
      exact ⟨v, by rw [hpc v, if_neg hv]; exact e⟩
    by_cases hut : u = t
    · rw [if_pos hut] at hp
      rw [hut] at hx
      rcases h6 p hp hx hr with e | ⟨v, hv, e⟩
      · exact Or.inl e
      · exact Or.inr (other v _ hv e)
    · rw [if_neg hut] at hp
      rw [htr u hut] at hx
      rcases h.done u p hp hx (back u p hp.polled hr) with e | ⟨v, e⟩
      · rcases hend u p hp.polled e with e | e
        · exact Or.inl e
        · exact Or.inr ⟨t, by rw [hpc t, if_pos rfl]; exact e⟩
      · exact Or.inr (other v _ (fun hv => hnw _ (by rw [← hv]; exact e)) e)

theorem PInv.start {name : Nat → Bytes} {k : Nat → Nat} (buf : Nat → Nat → UInt8) (hk : ∀ d, 14 ≤ k d)
    (hn : ∀ d, (name d).length ≤ 89) : PInv k (.start name k buf) := by
  refine ⟨fun d => ⟨0, ainit (name d) (k d), init_rel (buf d) (hk d) (hn d)⟩, ?_, ?_, ?_, ?_, ?_, ?_, ?_⟩
  · intro t p hp; cases hp
  · intro _ _ _ _ _ _ hp; cases hp
  · intro _ _ _ _ _ hp; cases hp
  · intro _ _ _ _ _ _ hp; cases hp
  · intro _ _ _ _ _ _ hp; cases hp
  · intro t p hp; exact hp.elim
  · intro t p hp; exact hp.elim

/-- A device after a step. -/
theorem setDev_rel {k : Nat → Nat} {w : PSys} {d : Nat} {op : Op} {s : Sys} {o : Out} (h : PInv k w)
    (hop : op.supported = true) (hs : step (w.dev d) op = .ok (s, o)) :
    ∀ e, ∃ G a, Rel (k e) G ((w.setDev d s).dev e) a := by
  intro e
  show ∃ G a, Rel (k e) G (if e = d then s else w.dev e) a
  by_cases he : e = d
  · rw [if_pos he, he]
    obtain ⟨G, a, h1⟩ := h.rel d
    obtain ⟨_, G', h2⟩ := h1.step hop hs
    exact ⟨G', _, h2⟩
  · rw [if_neg he]; exact h.rel e

theorem setDev_opn {k : Nat → Nat} {w : PSys} {d : Nat} {op : Op} {s : Sys} {o : Out} (h : PInv k w)
    (hop : op.supported = true) (hs : step (w.dev d) op = .ok (s, o))
    (hrel : ∀ g, op = .release g → ∀ u, (d, g) ∉ (w.pc u).polled) {u : Tid} {p : Nat × Nat} {b : Bool}
    (hp : p ∈ (w.pc u).polled) (hb : (w.dev p.1).rdOf p.2 = some b) : ((w.setDev d s).dev p.1).rdOf p.2 = some b := by
  show (if p.1 = d then s else w.dev p.1).rdOf p.2 = some b
  by_cases he : p.1 = d
  · rw [if_pos he]
    obtain ⟨G, a, h1⟩ := h.rel d
    rw [he] at hb
    refine rdOf_step h1 hop hs hb ?_
    intro g hg hx
    refine hrel g hg u ?_
    rw [hx, ← he]; exact hp
  · rw [if_neg he]; exact hb

theorem setDev_end {k : Nat → Nat} {w : PSys} {d : Nat} {op : Op} {s : Sys} {o : Out} (h : PInv k w)
    (hop : op.supported = true) (hs : step (w.dev d) op = .ok (s, o))
    (hrel : ∀ g, op = .release g → ∀ u, (d, g) ∉ (w.pc u).polled) {u : Tid} {p : Nat × Nat}
    (hp : p ∈ (w.pc u).polled) (he : AtEnd (w.dev p.1) p.2) : AtEnd ((w.setDev d s).dev p.1) p.2 ∨
      (p.1 = d ∧ ∃ g t it junk, op = .write g t it junk ∧ reachesWake ((w.dev d).rawFile g) t it o = true) := by
  show AtEnd (if p.1 = d then s else w.dev p.1) p.2 ∨ _
  by_cases hd : p.1 = d
  · rw [if_pos hd]
    obtain ⟨G, a, h1⟩ := h.rel d
    rw [hd] at he
    rcases AtEnd.step h1 hop hs he (fun g hg hx => hrel g hg u (by rw [hx, ← hd]; exact hp)) with e | e
    · exact Or.inl e
    · exact Or.inr ⟨hd, e⟩
  · rw [if_neg hd]; exact Or.inl he

/-- What `ulogger_poll` finds under the mutex. -/
theorem poll_test {s s' : Sys} {fid : Nat} {euid : UInt32} {o : Out} (hr : s.rdOf fid = some true)
    (hs : step s (.poll fid euid) = .ok (s', o)) :
    ∃ r, findReader s'.log fid = .ok r ∧ o = .poll (decide (s'.log.wOff ≠ r.off)) := by
  unfold Sys.rdOf at hr
  obtain ⟨f, hf, hrd⟩ := Option.map_eq_some_iff.mp hr
  unfold step at hs
  simp only [Op.fid, hf, stepFile, hrd, if_true] at hs
  cases h1 : findReader s.log fid with
  | error e =>
    rw [h1] at hs
    have hs' : (Except.error e : Except Fault (Sys × Out)) = .ok (s', o) := hs
    cases hs'
  | ok r =>
    cases h2 : skipForeign s.log euid r with
    | error e =>
      have hs' : (do
          let r' ← skipForeign s.log euid r
          pure ({ s with log := setReader s.log fid r' }, Out.poll (decide (s.log.wOff ≠ r'.off))) :
          Except Fault (Sys × Out)) = .ok (s', o) := by rw [h1] at hs; exact hs
      rw [h2] at hs'
      have hs'' : (Except.error e : Except Fault (Sys × Out)) = .ok (s', o) := hs'
      cases hs''
    | ok r' =>
      have hs0 : (do
          let r' ← skipForeign s.log euid r
          pure ({ s with log := setReader s.log fid r' }, Out.poll (decide (s.log.wOff ≠ r'.off))) :
          Except Fault (Sys × Out)) = .ok (s', o) := by rw [h1] at hs; exact hs
      rw [h2] at hs0
      have hs' : (Except.ok ({ s with log := setReader s.log fid r' }, Out.poll (decide (s.log.wOff ≠ r'.off))) :
          Except Fault (Sys × Out)) = .ok (s', o) := hs0
      injection hs' with hs'
      injection hs' with hs1 hs2
      subst hs1 hs2
      refine ⟨r', ?_, rfl⟩
      unfold findReader at h1 ⊢
      show (match (setReader s.log fid r').readers.lookup fid with | some r => Except.ok r | none => Except.error Fault.oob) = _
      unfold setReader
      have key : ∀ l : List (Nat × Reader), (∃ x, l.lookup fid = some x) →
          (l.map fun p => if p.1 = fid then (p.1, r') else p).lookup fid = some r' := by
        intro l
        induction l with
        | nil => rintro ⟨x, hx⟩; cases hx
        | cons y l ih =>
          rintro ⟨x, hx⟩
          by_cases hy : y.1 = fid
          · simp [hy]
          · have hb : (fid == y.1) = false := by simp; exact fun e => hy e.symm
            simp only [List.lookup, hb] at hx
            simp only [List.map_cons, if_neg hy, List.lookup, hb]
            exact ih ⟨x, hx⟩
      cases h3 : s.log.readers.lookup fid with
      | none => rw [h3] at h1; cases h1
      | some x => rw [key _ ⟨x, h3⟩]

theorem PInv.step {k : Nat → Nat} {w w' : PSys} {t : Tid} {ch : PChoice} (h : PInv k w) (hmay : pmay w ch)
    (hs : pstep t ch w = some w') : PInv k w' := by
  unfold pstep at hs
  split at hs
  · -- poll is called
    rename_i a hpc
    split at hs
    · rename_i hall
      injection hs with hs; subst hs
      refine h.next (t := t) (p' := .wait a a.fds true false) h.rel (fun _ => rfl) (fun u hu => if_neg hu)
        (fun u hu => if_neg hu) (fun d e => by rw [hpc] at e; cases e) (fun _ _ _ _ e => e) (fun _ _ _ e => Or.inl e) ?_ ?_ ?_ ?_ ?_ ?_
      · intro p hp
        exact Option.isSome_iff_exists.mp (List.all_eq_true.mp hall p hp)
      · intro _ _ _ _ _ e; cases e
      · intro a' todo first found e p hp; cases e; exact hp
      · intro _ _ _ _ _ e; cases e
      · intro p hp; exact absurd hp.1 (hp.2 rfl).2
      · intro p hp; exact absurd hp.2.1 hp.2.2
    · cases hs
  · rename_i d fid task it junk hpc
    split at hs
    · rename_i hsup
      injection hs with hs; subst hs
      refine h.next (t := t) (p' := .commit d fid task it junk) h.rel (fun _ => rfl) (fun u hu => rfl)
        (fun u hu => rfl) (fun d e => by rw [hpc] at e; cases e) (fun _ _ _ _ e => e) (fun _ _ _ e => Or.inl e) ?_ ?_ ?_ ?_ ?_ ?_
      · intro p hp; cases hp
      · intro _ _ _ _ _ e; cases e
      · intro _ _ _ _ e; cases e
      · intro _ _ _ _ _ e; cases e; exact hsup
      · intro p hp; exact hp.elim
      · intro p hp; exact hp.elim
    · cases hs
  · rename_i d op hpc
    split at hs
    · cases hs
    · rename_i hw
      split at hs
      · rename_i s o hst
        injection hs with hs; subst hs
        have hsup : op.supported = true := by cases op <;> first | rfl | exact absurd rfl hw
        have hrel : ∀ g, op = .release g → ∀ u, (d, g) ∉ (w.pc u).polled := by intro g e; subst e; exact hmay
        refine h.next (t := t) (p' := .idle) (setDev_rel h hsup hst) ?_ (fun u hu => rfl)
          (fun u hu => rfl) (fun d e => by rw [hpc] at e; cases e) (fun _ _ _ hp e => setDev_opn h hsup hst hrel hp e) ?_ ?_ ?_ ?_ ?_ ?_ ?_
        · intro u
          by_cases hut : u = t
          · rw [if_pos hut, hut]; exact hpc
          · rw [if_neg hut]; rfl
        · intro u p hp he
          rcases setDev_end h hsup hst hrel hp he with e | ⟨_, g, t', it, junk, e, _⟩
          · exact Or.inl e
          · subst e; exact absurd rfl hw
        · intro p hp; cases hp
        · intro _ _ _ _ _ e; cases e
        · intro _ _ _ _ e; cases e
        · intro _ _ _ _ _ e; cases e
        · intro p hp; exact hp.elim
        · intro p hp; exact hp.elim
      · cases hs
  · -- the end of a round
    rename_i a first found hpc
    injection hs with hs; subst hs
    cases found with
    | true =>
      rw [if_pos rfl]
      refine h.next (t := t) (p' := .ret true) h.rel (fun _ => rfl) (fun u hu => if_neg hu)
        (fun u hu => rfl) (fun d e => by rw [hpc] at e; cases e) (fun _ _ _ _ e => e) (fun _ _ _ e => Or.inl e) ?_ ?_ ?_ ?_ ?_ ?_
      · intro p hp; cases hp
      · intro _ _ _ _ _ e; cases e
      · intro _ _ _ _ e; cases e
      · intro _ _ _ _ _ e; cases e
      · intro p hp; exact hp.elim
      · intro p hp; exact hp.elim
    | false =>
      rw [if_neg (by simp)]
      refine h.next (t := t) (p' := .sleep a) h.rel (fun _ => rfl) (fun u hu => rfl)
        (fun u hu => rfl) (fun d e => by rw [hpc] at e; cases e) (fun _ _ _ _ e => e) (fun _ _ _ e => Or.inl e) ?_ ?_ ?_ ?_ ?_ ?_
      · intro p hp; exact h.opn t p (by rw [hpc]; exact hp)
      · intro _ _ _ _ _ e; cases e
      · intro _ _ _ _ e; cases e
      · intro _ _ _ _ _ e; cases e
      · intro p hp hr
        exact h.reg t p (by rw [hpc]; exact ⟨hp, fun _ => ⟨rfl, by simp⟩⟩) hr
      · intro p hp hx hr
        rcases h.done t p (by rw [hpc]; exact ⟨rfl, hp, by simp⟩) hx hr with e | ⟨u, e⟩
        · exact Or.inl e
        · exact Or.inr ⟨u, (fun hu => by rw [hu, hpc] at e; cases e), e⟩
  · -- the next file
    rename_i a p todo first found hpc
    have hsub := h.sub t a (p :: todo) first found hpc
    split at hs
    · rename_i hrd
      injection hs with hs; subst hs
      have hr : (w.dev p.1).rdOf p.2 = some true := readable_rdOf.mp hrd
      refine h.next (t := t) (p' := .test a p todo first found) ?_ ?_ ?_ ?_ (fun d e => by rw [hpc] at e; cases e) ?_ ?_ ?_ ?_ ?_ ?_ ?_ ?_
      · split <;> exact h.rel
      · intro u; split <;> rfl
      · intro u hu; split
        · exact if_neg hu
        · rfl
      · intro u hu; split <;> rfl
      · intro u q b _ e; split <;> exact e
      · intro u q _ e; refine Or.inl ?_; split <;> exact e
      · intro q hq
        have := h.opn t q (by rw [hpc]; exact hq)
        split <;> exact this
      · intro a' p' todo' first' found' e
        cases e
        refine ⟨?_, hsub p List.mem_cons_self, fun q hq => hsub q (List.mem_cons_of_mem _ hq)⟩
        split <;> exact hr
      · intro _ _ _ _ e; cases e
      · intro _ _ _ _ _ e; cases e
      · intro q hq hqr
        have hqr' : (w.dev q.1).rdOf q.2 = some true := by
          revert hqr; split <;> exact id
        obtain ⟨hq1, hq2⟩ := hq
        have mono : q.1 ∈ w.reg t → q.1 ∈ ((if (first && !found) = true then w.setReg t (p.1 :: w.reg t) else w).at t
            (.test a p todo first found)).reg t := by
          intro e
          split
          · show q.1 ∈ (if t = t then p.1 :: w.reg t else w.reg t)
            rw [if_pos rfl]; exact List.mem_cons_of_mem _ e
          · exact e
        cases first with
        | false => exact mono (h.reg t q (by rw [hpc]; exact ⟨hq1, fun e => by cases e⟩) hqr')
        | true =>
          obtain ⟨hf, hnt⟩ := hq2 rfl
          by_cases hqp : q = p
          · subst hf
            subst hqp
            show q.1 ∈ (if t = t then q.1 :: w.reg t else w.reg t)
            rw [if_pos rfl]; exact List.mem_cons_self
          · have hnm : q ∉ p :: todo := by
              intro hm
              rcases List.mem_cons.mp hm with e | e
              · exact hqp e
              · exact hnt e
            exact mono (h.reg t q (by rw [hpc]; exact ⟨hq1, fun _ => ⟨hf, hnm⟩⟩) hqr')
      · intro q hq hx hqr
        have hqr' : (w.dev q.1).rdOf q.2 = some true := by
          revert hqr; split <;> exact id
        have hx' : w.trig t = false := by
          revert hx; split <;> exact id
        have ht : (w.pc t).Tested q := by
          rw [hpc]
          refine ⟨hq.1, hq.2.1, fun hm => ?_⟩
          rcases List.mem_cons.mp hm with e | e
          · exact hq.2.2.1 e
          · exact hq.2.2.2 e
        rcases h.done t q ht hx' hqr' with e | ⟨u, e⟩
        · refine Or.inl ?_
          split <;> exact e
        · exact Or.inr ⟨u, (fun hu => by rw [hu, hpc] at e; cases e), e⟩
    · rename_i hrd
      injection hs with hs; subst hs
      have hnr : (w.dev p.1).rdOf p.2 ≠ some true := fun e => hrd (readable_rdOf.mpr e)
      refine h.next (t := t) (p' := .wait a todo first found) h.rel (fun _ => rfl) (fun u hu => rfl)
        (fun u hu => rfl) (fun d e => by rw [hpc] at e; cases e) (fun _ _ _ _ e => e) (fun _ _ _ e => Or.inl e) ?_ ?_ ?_ ?_ ?_ ?_
      · intro q hq; exact h.opn t q (by rw [hpc]; exact hq)
      · intro _ _ _ _ _ e; cases e
      · intro _ _ _ _ e; cases e; exact fun q hq => hsub q (List.mem_cons_of_mem _ hq)
      · intro _ _ _ _ _ e; cases e
      · intro q hq hr
        refine h.reg t q ?_ hr
        rw [hpc]
        refine ⟨hq.1, fun e => ⟨(hq.2 e).1, fun hm => ?_⟩⟩
        rcases List.mem_cons.mp hm with e' | e'
        · subst e'; exact hnr hr
        · exact (hq.2 e).2 e'
      · intro q hq hx hr
        have ht : (w.pc t).Tested q := by
          rw [hpc]
          refine ⟨hq.1, hq.2.1, fun hm => ?_⟩
          rcases List.mem_cons.mp hm with e' | e'
          · subst e'; exact hnr hr
          · exact hq.2.2 e'
        rcases h.done t q ht hx hr with e | ⟨u, e⟩
        · exact Or.inl e
        · exact Or.inr ⟨u, (fun hu => by rw [hu, hpc] at e; cases e), e⟩
  · -- a look at one file
    rename_i a p todo first found hpc
    obtain ⟨hr, hpa⟩ := h.tst t a p todo first found hpc
    split at hs
    · rename_i s b hst
      injection hs with hs; subst hs
      have hrel : ∀ g, Op.poll p.2 a.euid = .release g → ∀ u, (p.1, g) ∉ (w.pc u).polled := by intro g e; cases e
      have hsup : (Op.poll p.2 a.euid).supported = true := rfl
      have hpol : ∀ q, q ∈ a.fds → q ∈ (w.pc t).polled := fun q hq => by rw [hpc]; exact hq
      have back : ∀ q, q ∈ a.fds → ((w.setDev p.1 s).dev q.1).rdOf q.2 = some true → (w.dev q.1).rdOf q.2 = some true := by
        intro q hq e
        obtain ⟨b, hb⟩ := h.opn t q (hpol q hq)
        have := setDev_opn h hsup hst hrel (hpol q hq) hb
        rw [e] at this
        injection this with this
        rw [this]; exact hb
      have hend : ∀ u q, q ∈ (w.pc u).polled → AtEnd (w.dev q.1) q.2 → AtEnd ((w.setDev p.1 s).dev q.1) q.2 := by
        intro u q hq he
        rcases setDev_end h hsup hst hrel hq he with e | ⟨_, g, t', it, junk, e, _⟩
        · exact e
        · cases e
      refine h.next (t := t) (p' := .wait a todo first (found || b)) (setDev_rel h hsup hst) (fun _ => rfl) (fun u hu => rfl)
          (fun u hu => rfl) (fun d e => by rw [hpc] at e; cases e) (fun _ _ _ hp e => setDev_opn h hsup hst hrel hp e)
          (fun u q hq he => Or.inl (hend u q hq he)) ?_ ?_ ?_ ?_ ?_ ?_
      · intro q hq
        obtain ⟨b, hb⟩ := h.opn t q (hpol q hq)
        exact ⟨b, setDev_opn h hsup hst hrel (hpol q hq) hb⟩
      · intro _ _ _ _ _ e; cases e
      · intro _ _ _ _ e; cases e; exact h.subt t a p _ _ _ hpc
      · intro _ _ _ _ _ e; cases e
      · intro q hq hqr
        refine h.reg t q ?_ (back q hq.1 hqr)
        rw [hpc]
        refine ⟨hq.1, fun e => ⟨?_, (hq.2 e).2⟩⟩
        have := (hq.2 e).1
        simp only [Bool.or_eq_false_iff] at this
        exact this.1
      · intro q hq hx hqr
        obtain ⟨hf, hq1, hq2⟩ := hq
        simp only [Bool.or_eq_false_iff] at hf
        by_cases hqp : q = p
        · subst hqp
          refine Or.inl ?_
          obtain ⟨r, h1, h2⟩ := poll_test hr hst
          show AtEnd (if q.1 = q.1 then s else w.dev q.1) q.2
          rw [if_pos rfl]
          refine ⟨r, h1, ?_⟩
          injection h2 with h2
          rw [hf.2] at h2
          exact Classical.byContradiction fun e => by simp [e] at h2
        · rcases h.done t q (by rw [hpc]; exact ⟨hf.1, hq1, hqp, hq2⟩) hx (back q hq1 hqr) with e | ⟨u, e⟩
          · exact Or.inl (hend t q (hpol q hq1) e)
          · exact Or.inr ⟨u, (fun hu => by rw [hu, hpc] at e; cases e), e⟩
    · cases hs
  · -- awake again
    rename_i a hpc
    split at hs
    · injection hs with hs; subst hs
      refine h.next (t := t) (p' := .wait a a.fds false false) h.rel (fun _ => rfl) (fun u hu => rfl)
        (fun u hu => if_neg hu) (fun d e => by rw [hpc] at e; cases e) (fun _ _ _ _ e => e) (fun _ _ _ e => Or.inl e) ?_ ?_ ?_ ?_ ?_ ?_
      · intro p hp; exact h.opn t p (by rw [hpc]; exact hp)
      · intro _ _ _ _ _ e; cases e
      · intro a' todo first found e p hp; cases e; exact hp
      · intro _ _ _ _ _ e; cases e
      · intro p hp hr
        exact h.reg t p (by rw [hpc]; exact hp.1) hr
      · intro p hp; exact absurd hp.2.1 hp.2.2
    · cases hs
  · rename_i a hpc
    injection hs with hs; subst hs
    refine h.next (t := t) (p' := .ret false) h.rel (fun _ => rfl) (fun u hu => if_neg hu)
      (fun u hu => rfl) (fun d e => by rw [hpc] at e; cases e) (fun _ _ _ _ e => e) (fun _ _ _ e => Or.inl e) ?_ ?_ ?_ ?_ ?_ ?_
    · intro p hp; cases hp
    · intro _ _ _ _ _ e; cases e
    · intro _ _ _ _ e; cases e
    · intro _ _ _ _ _ e; cases e
    · intro p hp; exact hp.elim
    · intro p hp; exact hp.elim
  · rename_i b hpc
    injection hs with hs; subst hs
    refine h.next (t := t) (p' := .idle) h.rel (fun _ => rfl) (fun u hu => rfl)
      (fun u hu => rfl) (fun d e => by rw [hpc] at e; cases e) (fun _ _ _ _ e => e) (fun _ _ _ e => Or.inl e) ?_ ?_ ?_ ?_ ?_ ?_
    · intro p hp; cases hp
    · intro _ _ _ _ _ e; cases e
    · intro _ _ _ _ e; cases e
    · intro _ _ _ _ _ e; cases e
    · intro p hp; exact hp.elim
    · intro p hp; exact hp.elim
  · -- a writer commits
    rename_i d fid task it junk hpc
    split at hs
    · rename_i s o hst
      injection hs with hs; subst hs
      have hsup : (Op.write fid task it junk).supported = true := h.sup t d fid task it junk hpc
      have hrel : ∀ g, Op.write fid task it junk = .release g → ∀ u, (d, g) ∉ (w.pc u).polled := by intro g e; cases e
      refine h.next (t := t) (p' := if reachesWake ((w.dev d).rawFile fid) task it o then .wake d else .idle)
          (setDev_rel h hsup hst) (fun _ => rfl) (fun u hu => rfl)
          (fun u hu => rfl) (fun d e => by rw [hpc] at e; cases e) (fun _ _ _ hp e => setDev_opn h hsup hst hrel hp e)
          ?_ ?_ ?_ ?_ ?_ ?_ ?_
      · intro u p hp he
        rcases setDev_end h hsup hst hrel hp he with e | ⟨hd, g, t', it', junk', e, hw⟩
        · exact Or.inl e
        · cases e
          refine Or.inr ?_
          rw [if_pos hw, hd]
      all_goals split
      all_goals first
        | (intro p hp; cases hp; done)
        | (intro p hp; exact hp.elim)
        | (intro _ _ _ _ _ e; cases e; done)
        | (intro _ _ _ _ e; cases e; done)
    · cases hs
  · -- the readers are woken
    rename_i d hpc
    injection hs with hs; subst hs
    have hpc' : ∀ u, u ≠ t → ({ w with trig := fun u => w.trig u || (w.reg u).contains d }.at t PPc.idle).pc u = w.pc u :=
      fun u hu => if_neg hu
    have hpt : ({ w with trig := fun u => w.trig u || (w.reg u).contains d }.at t PPc.idle).pc t = .idle := if_pos rfl
    have old : ∀ u, (({ w with trig := fun u => w.trig u || (w.reg u).contains d }.at t PPc.idle).pc u = w.pc u) ∨
        ({ w with trig := fun u => w.trig u || (w.reg u).contains d }.at t PPc.idle).pc u = .idle := by
      intro u
      by_cases hu : u = t
      · exact Or.inr (by rw [hu]; exact hpt)
      · exact Or.inl (hpc' u hu)
    refine ⟨h.rel, ?_, ?_, ?_, ?_, ?_, ?_, ?_⟩
    · intro u p hp
      rcases old u with e | e <;> rw [e] at hp
      · exact h.opn u p hp
      · cases hp
    · intro u a p todo first found hp
      rcases old u with e | e <;> rw [e] at hp
      · exact h.tst u a p todo first found hp
      · cases hp
    · intro u a todo first found hp
      rcases old u with e | e <;> rw [e] at hp
      · exact h.sub u a todo first found hp
      · cases hp
    · intro u a p todo first found hp
      rcases old u with e | e <;> rw [e] at hp
      · exact h.subt u a p todo first found hp
      · cases hp
    · intro u e fid task it junk hp
      rcases old u with e | e <;> rw [e] at hp
      · exact h.sup u _ fid task it junk hp
      · cases hp
    · intro u p hp hr
      rcases old u with e | e <;> rw [e] at hp
      · exact h.reg u p hp hr
      · exact hp.elim
    · intro u p hp hx hr
      rcases old u with e | e <;> rw [e] at hp
      · have hx' : (w.trig u || (w.reg u).contains d) = false := hx
        simp only [Bool.or_eq_false_iff] at hx'
        rcases h.done u p hp hx'.1 hr with e' | ⟨v, e'⟩
        · exact Or.inl e'
        · refine Or.inr ⟨v, ?_⟩
          rw [hpc' v]
          · exact e'
          · intro hv
            rw [hv, hpc] at e'
            injection e' with e'
            have := h.reg u p hp.queued hr
            rw [← e'] at this
            rw [List.contains_iff_mem.mpr this] at hx'
            cases hx'.2
      · exact hp.elim
  · cases hs

theorem PReach.inv {name : Nat → Bytes} {k : Nat → Nat} {buf : Nat → Nat → UInt8} {w : PSys} (hk : ∀ d, 14 ≤ k d)
    (hn : ∀ d, (name d).length ≤ 89) (h : PReach name k buf w) : PInv k w := by
  induction h with
  | start => exact PInv.start buf hk hn
  | step t ch _ hm hs ih => exact ih.step hm hs

/-- **C128.** A thread asleep in poll that has something to read in one of its files is
about to run, or a writer that committed to that device is about to wake the readers. -/
theorem C128_asleep {name : Nat → Bytes} {k : Nat → Nat} {buf : Nat → Nat → UInt8} {w : PSys} (hk : ∀ d, 14 ≤ k d)
    (hn : ∀ d, (name d).length ≤ 89) (h : PReach name k buf w) {t : Tid} {a : PArgs} (ht : w.pc t = .sleep a)
    {d fid : Nat} (hp : (d, fid) ∈ a.fds) (hrd : (w.dev d).readable fid = true) {r : Reader}
    (hr : findReader (w.dev d).log fid = .ok r) (hne : (w.dev d).log.wOff ≠ r.off) :
    w.trig t = true ∨ ∃ u, w.pc u = .wake d := by
  cases hx : w.trig t with
  | true => exact Or.inl rfl
  | false =>
    rcases (h.inv hk hn).done t (d, fid) (by rw [ht]; exact hp) hx (readable_rdOf.mp hrd) with ⟨r', h1, h2⟩ | e
    · rw [hr] at h1
      injection h1 with h1
      rw [← h1] at h2
      exact absurd h2 hne
    · exact Or.inr e

/-- **C128.** The wake-up of that writer reaches every thread asleep in a poll of a file of
the device. -/
theorem C128_wake {name : Nat → Bytes} {k : Nat → Nat} {buf : Nat → Nat → UInt8} {w : PSys} (hk : ∀ d, 14 ≤ k d)
    (hn : ∀ d, (name d).length ≤ 89) (h : PReach name k buf w) {u : Tid} {d : Nat} (hu : w.pc u = .wake d) :
    ∃ w', pstep u .go w = some w' ∧ ∀ t a fid, w.pc t = .sleep a → (d, fid) ∈ a.fds →
      (w.dev d).readable fid = true → w'.pc t = .sleep a ∧ w'.trig t = true := by
  unfold pstep
  rw [hu]
  refine ⟨_, rfl, ?_⟩
  intro t a fid ht hp hrd
  have htu : t ≠ u := by intro e; rw [e, hu] at ht; cases ht
  refine ⟨(if_neg htu).trans ht, ?_⟩
  show (w.trig t || (w.reg t).contains d) = true
  have := (h.inv hk hn).reg t (d, fid) (by rw [ht]; exact hp) (readable_rdOf.mp hrd)
  rw [List.contains_iff_mem.mpr this, Bool.or_true]

/-- Poll by `euid` would say that the file can be read (`C10_poll`). -/
def Ready (s : Sys) (fid : Nat) (euid : UInt32) : Prop := ∃ s', step s (.poll fid euid) = .ok (s', .poll true)

theorem ready_iff {k G : Nat} {s : Sys} {a : ASys} {fid : Nat} {euid : UInt32} (h : Rel k G s a) :
    Ready s fid euid ↔ (astep a (.poll fid euid)).2 = .poll true := by
  obtain ⟨_, c', e, _⟩ := step_refines h (.poll fid euid) rfl
  unfold Ready
  rw [e]
  constructor
  · rintro ⟨s', h'⟩
    injection h' with h'
    injection h'
  · intro h'
    rw [h']
    exact ⟨c', rfl⟩

theorem poll_out {a : ASys} {fid : Nat} {euid : UInt32} (h : (astep a (.poll fid euid)).2 = .poll true) :
    ∃ f x, a.files fid = some f ∧ f.rd = true ∧ a.log.find fid = some x ∧ (askip a.log.hist euid x).idx ≠ a.log.hist.length := by
  cases hf : a.files fid with
  | none => simp [astep, Op.fid, hf] at h
  | some f =>
    cases hr : f.rd with
    | false => simp [astep, Op.fid, hf, astepFile, hr] at h
    | true =>
      cases hx : a.log.find fid with
      | none => simp [astep, Op.fid, hf, astepFile, hr, hx] at h
      | some x =>
        simp [astep, Op.fid, hf, astepFile, hr, hx] at h
        exact ⟨f, x, rfl, hr, rfl, h⟩

theorem out_poll {a : ASys} {fid : Nat} {euid : UInt32} {f : File} {x : ARd} (hf : a.files fid = some f)
    (hr : f.rd = true) (hx : a.log.find fid = some x) (h : (askip a.log.hist euid x).idx ≠ a.log.hist.length) :
    (astep a (.poll fid euid)).2 = .poll true := by
  simp [astep, Op.fid, hf, astepFile, hr, hx, h]

theorem poll_keeps {a : ASys} {fid g : Nat} {euid : UInt32} (h : (astep a (.poll fid euid)).2 = .poll true) :
    (astep (astep a (.poll g euid)).1 (.poll fid euid)).2 = .poll true := by
  obtain ⟨f, x, hf, hr, hx, hi⟩ := poll_out h
  cases hg : a.files g with
  | none => simpa [astep, Op.fid, hg] using h
  | some f' =>
    cases hr' : f'.rd with
    | false =>
      have : (astep a (.poll g euid)).1 = a := by simp [astep, Op.fid, hg, astepFile, hr']
      rw [this]; exact h
    | true =>
      cases hy : a.log.find g with
      | none =>
        have : (astep a (.poll g euid)).1 = a := by simp [astep, Op.fid, hg, astepFile, hr', hy]
        rw [this]; exact h
      | some y =>
        have : (astep a (.poll g euid)).1 = { a with log := a.log.set g (askip a.log.hist euid y) } := by
          simp [astep, Op.fid, hg, astepFile, hr', hy]
        rw [this]
        by_cases hgf : fid = g
        · subst hgf
          rw [hx] at hy
          injection hy with hy
          subst hy
          refine out_poll (x := askip a.log.hist euid x) hf hr (find_set hx) ?_
          show (askip a.log.hist euid (askip a.log.hist euid x)).idx ≠ a.log.hist.length
          rw [askip_askip]; exact hi
        · exact out_poll (x := x) hf hr ((find_set_other hgf).trans hx) hi

theorem keeps_poll {a : ASys} {fid g : Nat} {euid : UInt32}
    (h : (astep (astep a (.poll g euid)).1 (.poll fid euid)).2 = .poll true) :
    (astep a (.poll fid euid)).2 = .poll true := by
  cases hg : a.files g with
  | none => simpa [astep, Op.fid, hg] using h
  | some f' =>
    cases hr' : f'.rd with
    | false =>
      have : (astep a (.poll g euid)).1 = a := by simp [astep, Op.fid, hg, astepFile, hr']
      rw [this] at h; exact h
    | true =>
      cases hy : a.log.find g with
      | none =>
        have : (astep a (.poll g euid)).1 = a := by simp [astep, Op.fid, hg, astepFile, hr', hy]
        rw [this] at h; exact h
      | some y =>
        have : (astep a (.poll g euid)).1 = { a with log := a.log.set g (askip a.log.hist euid y) } := by
          simp [astep, Op.fid, hg, astepFile, hr', hy]
        rw [this] at h
        obtain ⟨f, x, hf, hr, hx, hi⟩ := poll_out h
        by_cases hgf : fid = g
        · subst hgf
          rw [find_set hy] at hx
          injection hx with hx
          subst hx
          refine out_poll (x := y) hf hr hy ?_
          rw [← askip_askip]; exact hi
        · exact out_poll (x := x) hf hr ((find_set_other hgf).symm.trans hx) hi

/-- Steps of `t` alone. -/
def psolo (t : Tid) : Nat → PSys → Option PSys
  | 0, w => some w
  | n + 1, w => (pstep t .go w).bind (psolo t n)

theorem solo_round {k : Nat → Nat} {t : Tid} {a : PArgs} {d fid : Nat} {first : Bool} (todo : List (Nat × Nat)) :
    ∀ {w : PSys} {found : Bool}, PInv k w → w.pc t = .wait a todo first found →
      (found = true ∨ ((d, fid) ∈ todo ∧ Ready (w.dev d) fid a.euid)) →
      ∃ n w', n ≤ 2 * todo.length + 1 ∧ psolo t n w = some w' ∧ w'.pc t = .ret true := by
  induction todo with
  | nil =>
    intro w found hi hpc hf
    have hf : found = true := by
      rcases hf with hf | ⟨hf, _⟩
      · exact hf
      · cases hf
    subst hf
    refine ⟨1, (w.setReg t []).at t (.ret true), Nat.le_refl _, ?_, if_pos rfl⟩
    unfold psolo pstep
    rw [hpc]
    rfl
  | cons p todo ih =>
    intro w found hi hpc hf
    by_cases hrd : (w.dev p.1).readable p.2 = true
    · have h1 : pstep t .go w = some ((if first && !found then w.setReg t (p.1 :: w.reg t) else w).at t
          (.test a p todo first found)) := by
        unfold pstep
        rw [hpc]
        exact if_pos hrd
      generalize hw1 : ((if first && !found then w.setReg t (p.1 :: w.reg t) else w).at t
          (.test a p todo first found)) = w1 at h1
      have hi1 : PInv k w1 := hi.step (ch := .go) trivial h1
      have hpc1 : w1.pc t = .test a p todo first found := by rw [← hw1]; exact if_pos rfl
      have hdev : w1.dev = w.dev := by rw [← hw1]; split <;> rfl
      obtain ⟨G, b, hb⟩ := hi1.rel p.1
      obtain ⟨G', s, e, hs⟩ := step_refines hb (.poll p.2 a.euid) rfl
      obtain ⟨hr, _⟩ := hi1.tst t a p todo first found hpc1
      obtain ⟨r, _, ho⟩ := poll_test hr e
      have h2 : pstep t .go w1 = some ((w1.setDev p.1 s).at t
          (.wait a todo first (found || decide (s.log.wOff ≠ r.off)))) := by
        unfold pstep
        rw [hpc1]
        simp only [e, ho]
      have hi2 := hi1.step (ch := .go) trivial h2
      obtain ⟨n, w', hn, hsolo, hend⟩ := ih hi2 (if_pos rfl) (by
        rcases hf with hf | ⟨hm, hrdy⟩
        · exact Or.inl (by rw [hf]; rfl)
        · rw [← hdev] at hrdy
          rcases List.mem_cons.mp hm with hm | hm
          · refine Or.inl ?_
            subst hm
            rw [ready_iff hb, ho] at hrdy
            injection hrdy with hrdy
            rw [hrdy, Bool.or_true]
          · refine Or.inr ⟨hm, ?_⟩
            show Ready (if d = p.1 then s else w1.dev d) fid a.euid
            by_cases hd : d = p.1
            · rw [if_pos hd]
              rw [hd, ready_iff hb] at hrdy
              exact (ready_iff hs).mpr (poll_keeps hrdy)
            · rw [if_neg hd]; exact hrdy)
      refine ⟨n + 2, w', by simp only [List.length_cons]; omega, ?_, hend⟩
      show (pstep t .go w).bind (fun w => (pstep t .go w).bind (psolo t n)) = some w'
      rw [h1, Option.bind_some, h2, Option.bind_some]
      exact hsolo
    · have h1 : pstep t .go w = some (w.at t (.wait a todo first found)) := by
        unfold pstep
        rw [hpc]
        exact if_neg hrd
      have hi1 := hi.step (ch := .go) trivial h1
      obtain ⟨n, w', hn, hsolo, hend⟩ := ih hi1 (if_pos rfl) (by
        rcases hf with hf | ⟨hm, hrdy⟩
        · exact Or.inl hf
        · rcases List.mem_cons.mp hm with hm | hm
          · exfalso
            subst hm
            obtain ⟨G, b, hb⟩ := hi.rel d
            rw [ready_iff hb] at hrdy
            obtain ⟨f, x, hf, hr, _⟩ := poll_out hrdy
            apply hrd
            rw [readable_rdOf]
            show ((w.dev d).files fid).map (·.rd) = some true
            rw [hb.files, hf]
            exact congrArg some hr
          · exact Or.inr ⟨hm, hrdy⟩)
      refine ⟨n + 1, w', by simp only [List.length_cons]; omega, ?_, hend⟩
      show (pstep t .go w).bind (psolo t n) = some w'
      rw [h1, Option.bind_some]
      exact hsolo

theorem solo_nothing {k : Nat → Nat} {t : Tid} {a : PArgs} {first : Bool} (todo : List (Nat × Nat)) :
    ∀ {w : PSys}, PInv k w → w.pc t = .wait a todo first false →
      (∀ p ∈ todo, ¬ Ready (w.dev p.1) p.2 a.euid) →
      ∃ n w', n ≤ 2 * todo.length + 1 ∧ psolo t n w = some w' ∧ w'.pc t = .sleep a ∧ w'.trig t = w.trig t := by
  induction todo with
  | nil =>
    intro w hi hpc hf
    refine ⟨1, w.at t (.sleep a), Nat.le_refl _, ?_, if_pos rfl, rfl⟩
    unfold psolo pstep
    rw [hpc]
    rfl
  | cons p todo ih =>
    intro w hi hpc hf
    by_cases hrd : (w.dev p.1).readable p.2 = true
    · have h1 : pstep t .go w = some ((if first && !false then w.setReg t (p.1 :: w.reg t) else w).at t
          (.test a p todo first false)) := by
        unfold pstep
        rw [hpc]
        exact if_pos hrd
      generalize hw1 : ((if first && !false then w.setReg t (p.1 :: w.reg t) else w).at t
          (.test a p todo first false)) = w1 at h1
      have hi1 : PInv k w1 := hi.step (ch := .go) trivial h1
      have hpc1 : w1.pc t = .test a p todo first false := by rw [← hw1]; exact if_pos rfl
      have hdev : w1.dev = w.dev := by rw [← hw1]; split <;> rfl
      have htr : w1.trig = w.trig := by rw [← hw1]; split <;> rfl
      obtain ⟨G, b, hb⟩ := hi1.rel p.1
      obtain ⟨G', s, e, hs⟩ := step_refines hb (.poll p.2 a.euid) rfl
      obtain ⟨hr, _⟩ := hi1.tst t a p todo first false hpc1
      obtain ⟨r, _, ho⟩ := poll_test hr e
      have hno : decide (s.log.wOff ≠ r.off) = false := by
        have := hf p List.mem_cons_self
        rw [← hdev, ready_iff hb, ho] at this
        exact Bool.eq_false_iff.mpr fun e => this (congrArg Out.poll e)
      have h2 : pstep t .go w1 = some ((w1.setDev p.1 s).at t (.wait a todo first false)) := by
        unfold pstep
        rw [hpc1]
        simp only [e, ho, hno, Bool.or_false]
      have hi2 := hi1.step (ch := .go) trivial h2
      obtain ⟨n, w', hn, hsolo, hend, htr'⟩ := ih hi2 (if_pos rfl) (by
        intro q hq hrdy
        have hold := hf q (List.mem_cons_of_mem _ hq)
        rw [← hdev] at hold
        apply hold
        have hrdy' : Ready (if q.1 = p.1 then s else w1.dev q.1) q.2 a.euid := hrdy
        by_cases hd : q.1 = p.1
        · rw [if_pos hd, ready_iff hs] at hrdy'
          rw [hd, ready_iff hb]
          exact keeps_poll hrdy'
        · rw [if_neg hd] at hrdy'; exact hrdy')
      refine ⟨n + 2, w', by simp only [List.length_cons]; omega, ?_, hend, htr'.trans (congrFun htr t)⟩
      show (pstep t .go w).bind (fun w => (pstep t .go w).bind (psolo t n)) = some w'
      rw [h1, Option.bind_some, h2, Option.bind_some]
      exact hsolo
    · have h1 : pstep t .go w = some (w.at t (.wait a todo first false)) := by
        unfold pstep
        rw [hpc]
        exact if_neg hrd
      have hi1 := hi.step (ch := .go) trivial h1
      obtain ⟨n, w', hn, hsolo, hend, htr⟩ := ih hi1 (if_pos rfl) (fun q hq => hf q (List.mem_cons_of_mem _ hq))
      refine ⟨n + 1, w', by simp only [List.length_cons]; omega, ?_, hend, htr⟩
      show (pstep t .go w).bind (psolo t n) = some w'
      rw [h1, Option.bind_some]
      exact hsolo

/-- **C128.** A thread woken from its sleep in poll for nothing that it may read goes back
to sleep, until it is woken again or gets a signal. -/
theorem C128_back {name : Nat → Bytes} {k : Nat → Nat} {buf : Nat → Nat → UInt8} {w : PSys} (hk : ∀ d, 14 ≤ k d)
    (hn : ∀ d, (name d).length ≤ 89) (h : PReach name k buf w) {t : Tid} {a : PArgs} (ht : w.pc t = .sleep a)
    (hx : w.trig t = true) (hr : ∀ p ∈ a.fds, ¬ Ready (w.dev p.1) p.2 a.euid) :
    ∃ n w', n ≤ 2 * a.fds.length + 2 ∧ psolo t n w = some w' ∧ w'.pc t = .sleep a ∧ pstep t .go w' = none := by
  have h1 : pstep t .go w = some ((w.setTrig t false).at t (.wait a a.fds false false)) := by
    unfold pstep
    rw [ht]
    exact if_pos hx
  obtain ⟨n, w', hn', hs, he, htr⟩ := solo_nothing a.fds ((h.inv hk hn).step (ch := .go) trivial h1) (if_pos rfl) hr
  refine ⟨n + 1, w', by omega, ?_, he, ?_⟩
  · show (pstep t .go w).bind (psolo t n) = some w'
    rw [h1, Option.bind_some]
    exact hs
  · have : w'.trig t = false := htr.trans (if_pos rfl)
    unfold pstep
    rw [he]
    exact if_neg (by rw [this]; simp)

/-- **C128.** Likewise a thread that calls poll with nothing to read sleeps. -/
theorem C128_sleeps {name : Nat → Bytes} {k : Nat → Nat} {buf : Nat → Nat → UInt8} {w : PSys} (hk : ∀ d, 14 ≤ k d)
    (hn : ∀ d, (name d).length ≤ 89) (h : PReach name k buf w) {t : Tid} {a : PArgs} (ht : w.pc t = .idle)
    (ho : ∀ p ∈ a.fds, ∃ f, (w.dev p.1).files p.2 = some f) (hr : ∀ p ∈ a.fds, ¬ Ready (w.dev p.1) p.2 a.euid) :
    ∃ w1 n w', pstep t (.poll a) w = some w1 ∧ n ≤ 2 * a.fds.length + 1 ∧ psolo t n w1 = some w' ∧
      w'.pc t = .sleep a ∧ pstep t .go w' = none := by
  have h1 : pstep t (.poll a) w = some (((w.setReg t []).setTrig t false).at t (.wait a a.fds true false)) := by
    unfold pstep
    rw [ht]
    refine if_pos (List.all_eq_true.mpr ?_)
    intro p hp
    obtain ⟨f, hf⟩ := ho p hp
    show (((w.dev p.1).files p.2).map (·.rd)).isSome = true
    rw [hf]; rfl
  obtain ⟨n, w', hn', hs, he, htr⟩ := solo_nothing a.fds ((h.inv hk hn).step (ch := .poll a) trivial h1) (if_pos rfl) hr
  refine ⟨_, n, w', h1, hn', hs, he, ?_⟩
  have : w'.trig t = false := htr.trans (if_pos rfl)
  unfold pstep
  rw [he]
  exact if_neg (by rw [this]; simp)

/-- **C128.** A thread woken from its sleep in poll returns and reports data, if a file it
polls has an entry for it then and the other threads are idle meanwhile. -/
theorem C128_returns {name : Nat → Bytes} {k : Nat → Nat} {buf : Nat → Nat → UInt8} {w : PSys} (hk : ∀ d, 14 ≤ k d)
    (hn : ∀ d, (name d).length ≤ 89) (h : PReach name k buf w) {t : Tid} {a : PArgs} (ht : w.pc t = .sleep a)
    (hx : w.trig t = true) {d fid : Nat} (hp : (d, fid) ∈ a.fds) (hr : Ready (w.dev d) fid a.euid) :
    ∃ n w', n ≤ 2 * a.fds.length + 2 ∧ psolo t n w = some w' ∧ w'.pc t = .ret true := by
  have h1 : pstep t .go w = some ((w.setTrig t false).at t (.wait a a.fds false false)) := by
    unfold pstep
    rw [ht]
    exact if_pos hx
  obtain ⟨n, w', hn', hs, he⟩ := solo_round (d := d) (fid := fid) a.fds ((h.inv hk hn).step (ch := .go) trivial h1)
    (if_pos rfl) (Or.inr ⟨hp, hr⟩)
  refine ⟨n + 1, w', by omega, ?_, he⟩
  show (pstep t .go w).bind (psolo t n) = some w'
  rw [h1, Option.bind_some]
  exact hs

/-- **C128.** A thread that calls poll does not sleep if a file has an entry for it already
and the other threads are idle meanwhile. -/
theorem C128_at_once {name : Nat → Bytes} {k : Nat → Nat} {buf : Nat → Nat → UInt8} {w : PSys} (hk : ∀ d, 14 ≤ k d)
    (hn : ∀ d, (name d).length ≤ 89) (h : PReach name k buf w) {t : Tid} {a : PArgs} (ht : w.pc t = .idle)
    (ho : ∀ p ∈ a.fds, ∃ f, (w.dev p.1).files p.2 = some f) {d fid : Nat} (hp : (d, fid) ∈ a.fds)
    (hr : Ready (w.dev d) fid a.euid) :
    ∃ w1 n w', pstep t (.poll a) w = some w1 ∧ n ≤ 2 * a.fds.length + 1 ∧ psolo t n w1 = some w' ∧ w'.pc t = .ret true := by
  have h1 : pstep t (.poll a) w = some (((w.setReg t []).setTrig t false).at t (.wait a a.fds true false)) := by
    unfold pstep
    rw [ht]
    refine if_pos (List.all_eq_true.mpr ?_)
    intro p hp
    obtain ⟨f, hf⟩ := ho p hp
    show (((w.dev p.1).files p.2).map (·.rd)).isSome = true
    rw [hf]; rfl
  obtain ⟨n, w', hn', hs, he⟩ := solo_round (d := d) (fid := fid) a.fds ((h.inv hk hn).step (ch := .poll a) trivial h1)
    (if_pos rfl) (Or.inr ⟨hp, hr⟩)
  exact ⟨_, n, w', h1, hn', hs, he⟩

/-- **C128.** No call gets stuck: a thread inside a call can make a step, or it sleeps in
poll at the end of each log it can read, or a writer is about to wake readers of one of
them. -/
theorem C128_progress {name : Nat → Bytes} {k : Nat → Nat} {buf : Nat → Nat → UInt8} {w : PSys} (hk : ∀ d, 14 ≤ k d)
    (hn : ∀ d, (name d).length ≤ 89) (h : PReach name k buf w) {t : Tid} (ht : w.pc t ≠ .idle) :
    (∃ w', pstep t .go w = some w') ∨ ∃ a, w.pc t = .sleep a ∧ ∀ d fid, (d, fid) ∈ a.fds →
      (w.dev d).readable fid = true → AtEnd (w.dev d) fid ∨ ∃ u, w.pc u = .wake d := by
  have hi := h.inv hk hn
  unfold pstep
  cases hp : w.pc t with
  | idle => exact absurd hp ht
  | wait a todo first found =>
    refine Or.inl ?_
    cases todo with
    | nil => exact ⟨_, rfl⟩
    | cons p todo =>
      simp only
      split <;> exact ⟨_, rfl⟩
  | test a p todo first found =>
    obtain ⟨G, b, hb⟩ := hi.rel p.1
    obtain ⟨G', s, e, hs⟩ := step_refines hb (.poll p.2 a.euid) rfl
    obtain ⟨r, _, ho⟩ := poll_test (hi.tst t a p todo first found hp).1 e
    refine Or.inl ?_
    simp only [e, ho]
    exact ⟨_, rfl⟩
  | sleep a =>
    cases hx : w.trig t with
    | true => exact Or.inl ⟨_, if_pos rfl⟩
    | false =>
      refine Or.inr ⟨a, rfl, fun d fid hd hr => ?_⟩
      exact hi.done t (d, fid) (by rw [hp]; exact hd) hx (readable_rdOf.mp hr)
  | ret b => exact Or.inl ⟨_, rfl⟩
  | commit d fid task it junk =>
    obtain ⟨G, b, hb⟩ := hi.rel d
    obtain ⟨_, s, e, _⟩ := step_refines hb (.write fid task it junk) (hi.sup t d fid task it junk hp)
    refine Or.inl ?_
    simp only [e]
    exact ⟨_, rfl⟩
  | wake d => exact Or.inl ⟨_, rfl⟩

/-- From one state to another, thread `t` not leaving its call. -/
inductive Within (t : Tid) : PSys → PSys → Prop
  | refl (w : PSys) : Within t w w
  | step {w w' w'' : PSys} (u : Tid) (ch : PChoice) : Within t w w' → pmay w' ch → pstep u ch w' = some w'' →
    w''.pc t ≠ .idle → Within t w w''

/-- Something was found in this call of poll. -/
def PPc.Found : PPc → Prop
  | .wait _ _ _ found | .test _ _ _ _ found => found = true
  | .ret found => found = true
  | _ => False

theorem pstep_other {t u : Tid} {ch : PChoice} {w w' : PSys} (h : pstep u ch w = some w') (hut : t ≠ u) :
    w'.pc t = w.pc t := by
  unfold pstep at h
  repeat' split at h
  all_goals first | cases h; done | skip
  all_goals (injection h with h; subst h)
  all_goals first
    | exact if_neg hut
    | rfl
    | (split <;> exact if_neg hut)

/-- **C128.** Poll reports data only if during this call it saw, with the mutex held, an
entry for the caller in one of the files. -/
theorem C128_true {name : Nat → Bytes} {k : Nat → Nat} {buf : Nat → Nat → UInt8} {w : PSys}
    (h : PReach name k buf w) {t : Tid} (ht : w.pc t = .ret true) :
    ∃ w0 w1 a p todo first found, PReach name k buf w0 ∧ w0.pc t = .test a p todo first found ∧
      Ready (w0.dev p.1) p.2 a.euid ∧ pstep t .go w0 = some w1 ∧ Within t w1 w := by
  have key : (w.pc t).Found → ∃ w0 w1 a p todo first found, PReach name k buf w0 ∧ w0.pc t = .test a p todo first found ∧
      Ready (w0.dev p.1) p.2 a.euid ∧ pstep t .go w0 = some w1 ∧ Within t w1 w := by
    clear ht
    induction h with
    | start => intro h; exact h.elim
    | @step w w' u ch hw hm hs ih =>
      intro hf
      have hni : w'.pc t ≠ .idle := by intro e; rw [e] at hf; exact hf
      have carry : (w.pc t).Found → ∃ w0 w1 a p todo first found, PReach name k buf w0 ∧
          w0.pc t = .test a p todo first found ∧
          Ready (w0.dev p.1) p.2 a.euid ∧ pstep t .go w0 = some w1 ∧ Within t w1 w' := by
        intro e
        obtain ⟨w0, w1, a, p, todo, first, found, h1, h2, h3, h4, h5⟩ := ih e
        exact ⟨w0, w1, a, p, todo, first, found, h1, h2, h3, h4, .step u ch h5 hm hs hni⟩
      by_cases hut : t = u
      · subst hut
        have hs0 := hs
        unfold pstep at hs
        split at hs
        · split at hs
          · injection hs with hs; subst hs
            rw [show (((w.setReg t []).setTrig t false).at t _).pc t = _ from if_pos rfl] at hf
            cases hf
          · cases hs
        · split at hs
          · injection hs with hs; subst hs
            rw [show (w.at t _).pc t = _ from if_pos rfl] at hf; exact hf.elim
          · cases hs
        · split at hs
          · cases hs
          · split at hs
            · injection hs with hs; subst hs; exact carry hf
            · cases hs
        · rename_i a first found hpc
          injection hs with hs; subst hs
          refine carry ?_
          rw [hpc]
          cases found with
          | true => exact rfl
          | false => rw [if_neg (by simp), show (w.at t _).pc t = _ from if_pos rfl] at hf; exact hf.elim
        · rename_i a p todo first found hpc
          refine carry ?_
          rw [hpc]
          split at hs
          · injection hs with hs; subst hs
            have : ((if first && !found then w.setReg t (p.1 :: w.reg t) else w).at t
              (.test a p todo first found)).pc t = .test a p todo first found := if_pos rfl
            rw [this] at hf; exact hf
          · injection hs with hs; subst hs
            rw [show (w.at t _).pc t = _ from if_pos rfl] at hf; exact hf
        · rename_i a p todo first found hpc
          split at hs
          · rename_i s b hst
            injection hs with hs; subst hs
            have : ((w.setDev p.1 s).at t (.wait a todo first (found || b))).pc t = .wait a todo first (found || b) :=
              if_pos rfl
            rw [this] at hf
            have hf' : (found || b) = true := hf
            cases found with
            | true => exact carry (by rw [hpc]; exact rfl)
            | false =>
              have hb : b = true := hf'
              subst hb
              exact ⟨w, _, a, p, todo, first, false, hw, hpc, ⟨s, hst⟩, hs0, .refl _⟩
          · cases hs
        · split at hs
          · injection hs with hs; subst hs
            rw [show ((w.setTrig t false).at t _).pc t = _ from if_pos rfl] at hf; cases hf
          · cases hs
        · injection hs with hs; subst hs
          rw [show ((w.setReg t []).at t _).pc t = _ from if_pos rfl] at hf; cases hf
        · injection hs with hs; subst hs
          rw [show (w.at t _).pc t = _ from if_pos rfl] at hf; exact hf.elim
        · split at hs
          · injection hs with hs; subst hs
            rw [show ((w.setDev _ _).at t _).pc t = _ from if_pos rfl] at hf
            split at hf <;> exact hf.elim
          · cases hs
        · injection hs with hs; subst hs
          exact absurd (if_pos rfl) hni
        · cases hs
      · exact carry (by rw [← pstep_other hs hut]; exact hf)
  exact key (by rw [ht]; rfl)

/-- The thread is inside poll. -/
def PPc.inPoll : PPc → Bool
  | .wait .. | .test .. | .sleep .. => true
  | _ => false

theorem pstep_reg {t u : Tid} {ch : PChoice} {w w' : PSys} (h : pstep u ch w = some w') (hut : t ≠ u) :
    w'.reg t = w.reg t := by
  unfold pstep at h
  repeat' split at h
  all_goals first | cases h; done | skip
  all_goals (injection h with h; subst h)
  all_goals first
    | rfl
    | exact if_neg hut
    | (split <;> first | rfl | exact if_neg hut)

/-- **C128.** Outside of poll a thread is on no wait queue. -/
theorem C128_clean {name : Nat → Bytes} {k : Nat → Nat} {buf : Nat → Nat → UInt8} {w : PSys}
    (h : PReach name k buf w) {t : Tid} (ht : (w.pc t).inPoll = false) : w.reg t = [] := by
  induction h with
  | start => rfl
  | @step w w' u ch hw hm hs ih =>
    by_cases hut : t = u
    · subst hut
      unfold pstep at hs
      split at hs
      · split at hs
        · injection hs with hs; subst hs
          rw [show (((w.setReg t []).setTrig t false).at t _).pc t = _ from if_pos rfl] at ht; cases ht
        · cases hs
      · rename_i hpc
        split at hs
        · injection hs with hs; subst hs; exact ih (by rw [hpc]; rfl)
        · cases hs
      · rename_i hpc
        split at hs
        · cases hs
        · split at hs
          · injection hs with hs; subst hs; exact ih (by rw [hpc]; rfl)
          · cases hs
      · rename_i a first found hpc
        injection hs with hs; subst hs
        cases found with
        | true => exact if_pos rfl
        | false => rw [if_neg (by simp), show (w.at t _).pc t = _ from if_pos rfl] at ht; cases ht
      · rename_i a p todo first found hpc
        split at hs
        · injection hs with hs; subst hs
          have : ((if first && !found then w.setReg t (p.1 :: w.reg t) else w).at t
            (.test a p todo first found)).pc t = .test a p todo first found := if_pos rfl
          rw [this] at ht; cases ht
        · injection hs with hs; subst hs
          rw [show (w.at t _).pc t = _ from if_pos rfl] at ht; cases ht
      · split at hs
        · injection hs with hs; subst hs
          rw [show ((w.setDev _ _).at t _).pc t = _ from if_pos rfl] at ht; cases ht
        · cases hs
      · split at hs
        · injection hs with hs; subst hs
          rw [show ((w.setTrig t false).at t _).pc t = _ from if_pos rfl] at ht; cases ht
        · cases hs
      · injection hs with hs; subst hs
        exact if_pos rfl
      · rename_i hpc
        injection hs with hs; subst hs
        exact ih (by rw [hpc]; rfl)
      · rename_i hpc
        split at hs
        · injection hs with hs; subst hs
          exact ih (by rw [hpc]; rfl)
        · cases hs
      · rename_i hpc
        injection hs with hs; subst hs
        exact ih (by rw [hpc]; rfl)
      · cases hs
    · rw [pstep_reg hs hut]
      exact ih (by rw [← pstep_other hs hut]; exact ht)

end Verif.Kernel
