import Verif.Ulogcat.Driven
import Verif.Ulogcat.Sim
import Verif.Ulogcat.PropsReceive
import Verif.Ulogcat.PropsFollow

/-!
# What a viewer prints of a log device (C90, C91)
-/
namespace Verif.Ulogcat
open Verif Verif.Kernel Verif.Libulog

variable {σ : Type}

/-- The frames of the calls that delivered something, with the number of call `j` being `num j`. -/
def framesOf (d : Nat) (sh : RecvOut → Bool) (num : Nat → Nat) (os : List RecvOut) : List Frame :=
  os.zipIdx.filterMap fun p => if 0 < p.1.ret then some ⟨d, p.1.stamp, num p.2, sh p.1⟩ else none

/-- The entries of device `d` that were output. -/
def entriesOf (d : Nat) (out : List OutEv) : List Frame :=
  out.filterMap fun
    | .entry f => if f.dev = d then some f else none
    | .banner .. => none

theorem framesOf_snoc (d : Nat) (sh : RecvOut → Bool) (num : Nat → Nat) (os : List RecvOut) (o : RecvOut) :
    framesOf d sh num (os ++ [o]) = framesOf d sh num os ++ (o.toRecv sh (num os.length)).frames d := by
  unfold framesOf RecvOut.toRecv
  rw [List.zipIdx_append, List.filterMap_append]
  congr 1
  simp only [Nat.zero_add, List.zipIdx_cons, List.zipIdx_nil, List.filterMap_cons, List.filterMap_nil]
  by_cases h1 : o.ret < 0
  · rw [if_pos h1, if_neg (by omega)]; rfl
  · rw [if_neg h1]
    by_cases h2 : o.ret = 0
    · rw [if_pos h2, if_neg (by omega)]; rfl
    · rw [if_neg h2, if_pos (by omega)]; rfl

theorem entriesOf_annotate (d : Nat) (multi : Bool) (w : List Frame) : ∀ seen,
    entriesOf d (annotate multi seen w) = (w.filter fun f => f.dev == d).filter (·.shown) := by
  induction w with
  | nil => intro seen; rfl
  | cons f t ih =>
    intro seen
    have ih := ih (f.dev :: seen)
    have h1 : entriesOf d (if multi && !seen.contains f.dev then [.banner f.dev f.stamp] else []) = [] := by
      split <;> rfl
    unfold annotate
    unfold entriesOf at *
    rw [List.filterMap_append, h1, List.nil_append, List.filterMap_append, ih]
    by_cases hd : f.dev = d
    · have hd' : (f.dev == d) = true := by simp [hd]
      rw [List.filter_cons_of_pos (by simpa using hd)]
      by_cases hs : f.shown = true
      · rw [if_pos hs, List.filter_cons_of_pos hs]; simp [hd]
      · rw [if_neg hs, List.filter_cons_of_neg hs]; rfl
    · rw [List.filter_cons_of_neg (by simpa using hd)]
      by_cases hs : f.shown = true
      · rw [if_pos hs]; simp [hd]
      · rw [if_neg hs]; rfl

theorem Asks.viewing {fid euid csv} {t : List (Op × Out)} (h : Asks fid euid t) : Viewing fid euid csv t [] := by
  induction t with
  | nil => exact .nil
  | cons p t ih =>
    have ih := ih fun x hx => h x (by simp [hx])
    rcases h p (by simp) with hp | ⟨b, rfl⟩
    · exact .idle (t := [p]) (by intro x hx; rw [List.mem_singleton.mp hx]; exact hp) ih
    · exact .poll ih

theorem Others.viewing {fid euid csv} {t : List (Op × Out)} (h : Others fid t) : Viewing fid euid csv t [] := by
  have := Viewing.idle (euid := euid) (csv := csv) h .nil
  rwa [List.append_nil] at this

theorem Polled.viewing {fid euid asked d r csv} {t : List (Op × Out)} (h : Polled fid euid asked d r t) :
    Viewing fid euid csv t [] := by
  unfold Polled at h
  split at h
  · split at h
    · obtain ⟨t1, t2, h1, h2, rfl⟩ := h
      exact Viewing.append h1.viewing (.poll h2.viewing)
    · exact h.viewing
  · exact h.viewing

/-- A call never moves the mark. -/
theorem afterRead_taken {csv f r o} (h : afterRead csv f r = some o) : o.taken = 0 := by
  unfold afterRead at h
  split at h
  · cases h; rfl
  · cases h; rfl
  · cases h; rfl
  · cases h; rfl
  · split at h
    · cases h
    · dsimp only at h
      split at h
      · cases h; rfl
      · simp only [Option.bind_eq_bind, Option.pure_def, Option.bind_eq_some_iff] at h
        obtain ⟨raw, _, h⟩ := h
        split at h
        · cases h; rfl
        · simp only [Option.bind_eq_some_iff] at h
          obtain ⟨_, _, _, _, _, _, _, _, _, _, h⟩ := h
          cases h
          dsimp only
          split <;> rfl

theorem receive_taken {alloc csv fresh f r1 r2 o} (h : receive alloc csv fresh f r1 r2 = some o) : o.taken = 0 := by
  unfold receive at h
  split at h
  · split at h
    · exact afterRead_taken h
    · cases h; rfl
  · exact afterRead_taken h

variable {W : World σ} {d fid : Nat} {euid : UInt32} {csv : Bool} {sh : RecvOut → Bool} {num : Nat → Nat}
  {tr : σ → List (Op × Out)} {os : σ → List RecvOut}

/-- What stays true while the loop runs: since `t0` the device was viewed, the
frames received are those of the calls, and if the device was found not readable
this happened at some point in between. -/
def Good (d fid : Nat) (euid : UInt32) (csv : Bool) (sh : RecvOut → Bool) (num : Nat → Nat) (tr : σ → List (Op × Out))
    (os : σ → List RecvOut) (t0 : List (Op × Out)) (x : (σ × List Frame) × (Nat → Bool)) : Prop :=
  ∃ t, tr x.1.1 = t0 ++ t ∧ Viewing fid euid csv t (os x.1.1) ∧
    x.1.2.filter (fun f => f.dev == d) = framesOf d sh num (os x.1.1) ∧
    (x.2 d = true → ∃ ta tb oa ob, t = ta ++ (.poll fid euid, .poll false) :: tb ∧ os x.1.1 = oa ++ ob ∧
      Viewing fid euid csv ta oa ∧ Viewing fid euid csv tb ob)

theorem Good.more {t0 : List (Op × Out)} {s s' : σ} {l l' : List Frame} {seen : Nat → Bool}
    (h : Good d fid euid csv sh num tr os t0 ((s, l), seen)) {t : List (Op × Out)} {o : List RecvOut}
    (ht : tr s' = tr s ++ t) (ho : os s' = os s ++ o) (hv : Viewing fid euid csv t o)
    (hl : l'.filter (fun f => f.dev == d) = framesOf d sh num (os s ++ o)) :
    Good d fid euid csv sh num tr os t0 ((s', l'), seen) := by
  obtain ⟨t1, h1, h2, h3, h4⟩ := h
  refine ⟨t1 ++ t, ?_, ?_, ?_, ?_⟩
  · show tr s' = _
    rw [ht, show tr s = t0 ++ t1 from h1, List.append_assoc]
  · show Viewing _ _ _ _ (os s')
    rw [ho]; exact h2.append hv
  · show _ = framesOf d sh num (os s')
    rw [ho]; exact hl
  · intro hs
    obtain ⟨ta, tb, oa, ob, g1, g2, g3, g4⟩ := h4 hs
    refine ⟨ta, tb ++ t, oa, ob ++ o, by rw [g1]; simp, ?_, g3, g4.append hv⟩
    show os s' = _
    rw [ho, show os s = oa ++ ob from g2, List.append_assoc]

theorem Drives.keeps (D : Drives W d fid euid csv sh num tr os) (t0 : List (Op × Out)) :
    Keeps W.logged.watched (Good d fid euid csv sh num tr os t0) := by
  constructor
  · rintro ⟨⟨s, l⟩, seen⟩ h a
    obtain ⟨t, hp, ht, ho⟩ := D.poll s a
    have hl : l.filter (fun f => f.dev == d) = framesOf d sh num (os s) := h.choose_spec.2.2.1
    have hbase : Good d fid euid csv sh num tr os t0 (((W.poll s a).2, l), seen) :=
      h.more ht (by rw [List.append_nil]; exact ho) hp.viewing (by rw [List.append_nil]; exact hl)
    unfold World.watched World.logged
    dsimp only
    cases hr : (W.poll s a).1 with
    | intr => exact hbase
    | err => exact hbase
    | ok ready =>
      dsimp only
      by_cases hn : a d = true ∧ ready d = false
      · obtain ⟨ha, hrd⟩ := hn
        rw [hr] at hp
        unfold Polled at hp
        rw [if_pos ha] at hp
        obtain ⟨t1, t2, p1, p2, p3⟩ := hp
        rw [hrd] at p3
        obtain ⟨u, q1, q2, q3, _⟩ := h
        refine ⟨u ++ t, ?_, ?_, ?_, ?_⟩
        · show tr (W.poll s a).2 = _
          rw [ht, show tr s = t0 ++ u from q1, List.append_assoc]
        · show Viewing _ _ _ _ (os (W.poll s a).2)
          rw [ho, p3, ← List.append_nil (os s)]
          exact Viewing.append q2 ((p1.viewing (csv := csv)).append (.poll p2.viewing))
        · show l.filter _ = framesOf d sh num (os (W.poll s a).2)
          rw [ho]; exact hl
        · intro _
          refine ⟨u ++ t1, t2, os s, [], by rw [p3]; simp, ?_, ?_, p2.viewing⟩
          · show os (W.poll s a).2 = _
            rw [ho, List.append_nil]
          · rw [← List.append_nil (os s)]
            exact Viewing.append q2 p1.viewing
      · obtain ⟨u, q1, q2, q3, q4⟩ := hbase
        refine ⟨u, q1, q2, q3, fun hs => q4 ?_⟩
        simp only [Bool.or_eq_true, Bool.and_eq_true, Bool.not_eq_true'] at hs
        rcases hs with hs | hs
        · exact hs
        · exact absurd hs hn
  · rintro ⟨⟨s, l⟩, seen⟩ h i
    have hl : l.filter (fun f => f.dev == d) = framesOf d sh num (os s) := h.choose_spec.2.2.1
    show Good d fid euid csv sh num tr os t0 (((W.recv s i).2, l ++ (W.recv s i).1.frames i), seen)
    by_cases hi : i = d
    · subst hi
      rcases D.recv s with ⟨f, r1, r2, alloc, fresh, t1, t2, o, h1, h2, h3, h4, h5, h6, h7⟩ | ⟨t, h1, h2, h3, h4⟩
      · refine h.more h5 h6 ?_ ?_
        · have := Viewing.call h1 h2 h3 h4 .nil
          rwa [List.append_nil] at this
        · rw [List.filter_append, hl, framesOf_snoc, h7]
          congr 1
          cases o.toRecv sh (num (os s).length) <;> simp [Recv.frames]
      · rw [h4]
        exact h.more h2 (by rw [List.append_nil]; exact h3) h1.viewing
          (by simp only [Recv.frames, List.append_nil]; exact hl)
    · obtain ⟨t, h1, h2, h3⟩ := D.other s i hi
      refine h.more h2 (by rw [List.append_nil]; exact h3) h1.viewing ?_
      rw [List.append_nil, List.filter_append, hl]
      cases (W.recv s i).1 <;> simp [Recv.frames, hi]
  · rintro ⟨⟨s, l⟩, seen⟩ h e
    have hl : l.filter (fun f => f.dev == d) = framesOf d sh num (os s) := h.choose_spec.2.2.1
    obtain ⟨t, h1, h2, h3⟩ := D.output s e
    exact Good.more h h2 (by rw [List.append_nil]; exact h3) h1.viewing (by rw [List.append_nil]; exact hl)

/-- Keeping a list of the frames changes nothing. -/
theorem sim_logged (W : World σ) : Sim W W.logged fun s t => t.1 = s :=
  ⟨fun h a => by subst h; exact ⟨rfl, rfl⟩, fun h i => by subst h; exact ⟨rfl, rfl⟩,
   fun h e => by subst h; exact ⟨rfl, rfl⟩⟩

/-- Nor does noting which devices were not readable. -/
theorem sim_watched (W : World σ) : Sim W W.watched fun s t => t.1 = s := by
  refine ⟨fun h a => ?_, fun h i => by subst h; exact ⟨rfl, rfl⟩, fun h e => by subst h; exact ⟨rfl, rfl⟩⟩
  subst h
  unfold World.watched
  dsimp only
  generalize W.poll _ a = x
  obtain ⟨r, s⟩ := x
  cases r <;> exact ⟨rfl, rfl⟩

/-- C90. A viewer without a tail, any number of calls of `ulogcat3_process_logs`,
a log device nobody flushes meanwhile: the outcomes of `ulog_receive_entry` follow
the committed entries in order, with every loss counted in its place; what is
output of the device are exactly the entries received, in that order, apart from
at most one that waits for older entries of other devices, and apart from those
that cannot be rendered; if output fails it is the beginning of that. -/
theorem C90_printed (D : Drives W d fid euid csv sh num tr os) {marks : List Nat} {dump : Bool} {l : List (Nat × Int)}
    {s s' : σ} {c : Ctx} (hc : calls W dump l (openCtx marks 0) s = .ok (c, s')) (hos : os s = [])
    {name k buf ops sys} (hrun : Run name k buf ops sys (tr s')) {p : Nat} (ha : At name (tr s) fid p)
    (hnf : ∀ t, tr s' = tr s ++ t → NoFlush t) :
    (∃ q, At name (tr s') fid q ∧ q ≤ (obs name (tr s')).hist.length ∧
      Follows name (2 ^ k) (obs name (tr s')).hist csv p (os s') q) ∧
    ∃ done waiting, done ++ waiting = framesOf d sh num (os s') ∧ waiting.length ≤ 1 ∧
      entriesOf d c.out <+: done.filter (·.shown) ∧
      (c.outErr = false → entriesOf d c.out = done.filter (·.shown)) := by
  have hsim := (sim_logged W).calls dump l (openCtx marks 0) (s := s) (t := (s, [])) rfl
  obtain ⟨c1, s1, w, e1, f1, f2, f3, f4⟩ := C59_faithful W marks dump l s
  rw [hc, e1] at hsim
  obtain ⟨hc1, hs1⟩ := hsim
  have hc1 : c = c1 := hc1
  have hs1 : s1.1 = s' := hs1
  subst hc1
  have hsim2 := (sim_watched W.logged).calls dump l (openCtx marks 0) (s := (s, [])) (t := ((s, []), fun _ => false)) rfl
  rw [e1] at hsim2
  cases hx : calls W.logged.watched dump l (openCtx marks 0) ((s, []), fun _ => false) with
  | error e => rw [hx] at hsim2; exact hsim2.elim
  | ok x =>
    rw [hx] at hsim2
    obtain ⟨c2, ⟨s2, seen⟩⟩ := x
    obtain ⟨-, hs2⟩ := hsim2
    have hs2 : s2 = s1 := hs2
    subst hs2
    obtain ⟨t, g1, g2, g3, _⟩ := (D.keeps (tr s)).calls (s := ((s, []), fun _ => false))
      ⟨[], by simp, by rw [hos]; exact .nil, by rw [hos]; rfl, fun h => by cases h⟩ hx
    dsimp only at g1 g2 g3
    rw [hs1] at g1 g2 g3
    refine ⟨?_, w.filter (fun f => f.dev == d), c.pendQ.filter (fun f => f.dev == d), ?_, f2 d, ?_, ?_⟩
    · have hn := hnf t g1
      rw [g1] at hrun ⊢
      exact C85_session hrun ha hn g2
    · rw [f1 d, g3]
    · have := f3.filterMap (f := fun
        | .entry f => if f.dev = d then some f else none
        | .banner .. => none)
      exact (entriesOf_annotate d _ w []) ▸ this
    · intro he
      rw [f4 he, entriesOf_annotate]

theorem flushPendingQueue_empty (W : World σ) (n : Nat) : ∀ {c c' : Ctx} {s s' : σ},
    flushPendingQueue W n c s = .ok (c', s') → c'.pending ≤ 0 := by
  induction n with
  | zero =>
    intro c c' s s' h
    unfold flushPendingQueue at h
    split at h
    · cases h
    · simp only [Except.ok.injEq, Prod.mk.injEq] at h
      rw [← h.1]; omega
  | succ n ih =>
    intro c c' s s' h
    unfold flushPendingQueue at h
    split at h
    · cases hx : flushPendingFrame W false c s with
      | error e => rw [hx] at h; cases h
      | ok x => rw [hx] at h; exact ih h
    · simp only [Except.ok.injEq, Prod.mk.injEq] at h
      rw [← h.1]; omega

theorem processLogs_zero_empty (W : World σ) {max : Int} (hmax : 0 ≤ max) :
    ∀ (fuel : Nat) {c c' : Ctx} {s s' : σ} {fr : Int}, (max = 0 ∨ fr < max) →
      processLogs W true max fuel c s fr = .ok (c', s', some 0) → c'.pending ≤ 0 := by
  intro fuel
  induction fuel with
  | zero => intro c c' s s' fr _ h; simp [processLogs] at h
  | succ fuel ih =>
    intro c c' s s' fr hfr h
    unfold processLogs at h
    dsimp only [bind, Except.bind] at h
    cases hx : processDevices W c s with
    | error e => rw [hx] at h; cases h
    | ok x =>
      obtain ⟨c1, s1, r1⟩ := x
      rw [hx] at h
      dsimp only at h
      split at h
      · simp only [Except.ok.injEq, Prod.mk.injEq, Option.some.injEq] at h
        omega
      split at h
      · cases hy : flushPendingQueue W c1.pending.toNat c1 s1 with
        | error e => rw [hy] at h; cases h
        | ok y =>
          obtain ⟨y1, y2⟩ := y
          rw [hy] at h
          simp only [Except.ok.injEq, Prod.mk.injEq] at h
          rw [← h.1]
          exact flushPendingQueue_empty W _ hy
      split at h
      · simp only [Except.ok.injEq, Prod.mk.injEq, Option.some.injEq] at h
        omega
      split at h
      · exact ih (by omega) h
      · simp only [Except.ok.injEq, Prod.mk.injEq, Option.some.injEq] at h
        omega

/-- C91. A dump (`-d`) without a tail that ends with 0 and whose output worked has
printed, of each log device nobody flushed meanwhile, everything that was
committed when the amount readable was asked for at the opening: every entry in
order, or in its place the number of those lost (but for binary entries, which
are left out unless the format is CSV, and what cannot be rendered). -/
theorem C91_dump (D : Drives W d fid euid csv sh num tr os) {marks : List Nat} {max : Int} (hmax : 0 ≤ max) {fuel : Nat}
    {s s' : σ} {c : Ctx} (hc : processLogs W true max fuel (openCtx marks 0) s 0 = .ok (c, s', some 0))
    (hos : os s = []) {name k buf ops sys} (hrun : Run name k buf ops sys (tr s')) {m : Nat}
    (hm : marks[d]? = some m) {t0 t1 : List (Op × Out)} (h0 : tr s = t0 ++ (.getLogLen fid, .ret m) :: t1)
    (h1 : Others fid t1) {p : Nat} (ha : At name t0 fid p)
    (hnf : ∀ t, tr s' = t0 ++ t → NoFlush t) :
    (∃ q, (obs name t0).hist.length ≤ q ∧ q ≤ (obs name (tr s')).hist.length ∧
      Follows name (2 ^ k) (obs name (tr s')).hist csv p (os s') q) ∧
    (c.outErr = false → entriesOf d c.out = (framesOf d sh num (os s')).filter (·.shown)) := by
  have hsim := (sim_logged W).logs true max fuel (openCtx marks 0) 0 (s := s) (t := (s, [])) rfl
  obtain ⟨c1, s1, r1, w, e1, F⟩ := FInv.logs W true max fuel (c := openCtx marks 0) (s := (s, [])) (w := []) 0 (by
    refine ⟨openCtx_inv marks 0, rfl, ?_, by simp [openCtx], by simp⟩
    refine ⟨List.prefix_refl _, fun _ => ⟨rfl, ?_⟩⟩
    intro _ i hi
    simp [openCtx, Ctx.printedOf, hi])
  rw [hc, e1] at hsim
  obtain ⟨hc1, hs1, hr1⟩ := hsim
  have hc1 : c = c1 := hc1
  have hs1 : s1.1 = s' := hs1
  have hr1 : some 0 = r1 := hr1
  subst hc1
  subst hr1
  have hsim2 := (sim_watched W.logged).logs true max fuel (openCtx marks 0) 0 (s := (s, []))
    (t := ((s, []), fun _ => false)) rfl
  rw [e1] at hsim2
  cases hx : processLogs W.logged.watched true max fuel (openCtx marks 0) ((s, []), fun _ => false) 0 with
  | error e => rw [hx] at hsim2; exact hsim2.elim
  | ok x =>
    rw [hx] at hsim2
    obtain ⟨c2, ⟨s2, seen⟩, r2⟩ := x
    obtain ⟨hc2, hs2, hr2⟩ := hsim2
    have hc2 : c = c2 := hc2
    have hs2 : s2 = s1 := hs2
    have hr3 : r2 = some 0 := hr2.symm
    subst hc2
    subst hs2
    rw [hr3] at hx
    obtain ⟨t, g1, g2, g3, g4⟩ := (D.keeps (tr s)).logs (s := ((s, []), fun _ => false))
      ⟨[], by simp, by rw [hos]; exact .nil, by rw [hos]; rfl, fun h => by cases h⟩ hx
    dsimp only at g1 g2 g3 g4
    rw [hs1] at g1 g2 g3 g4
    have hpend : c.pendQ = [] := by
      have := processLogs_zero_empty W hmax fuel (by omega) hc
      have hp := F.inv.pc
      cases hq : c.pendQ with
      | nil => rfl
      | cons f q => rw [hq] at hp; simp only [List.length_cons] at hp; omega
    have heq : tr s' = t0 ++ ([(.getLogLen fid, .ret m)] ++ t1 ++ t) := by rw [g1, h0]; simp
    have hn := hnf _ heq
    have hrun0 := hrun
    rw [heq, ← List.append_assoc, ← List.append_assoc] at hrun
    have ha1 : At name (t0 ++ [(.getLogLen fid, .ret m)] ++ t1) fid p :=
      (ha.step (q := (.getLogLen fid, .ret m)) (by simp) (.inr (.inr (.inr (.inr rfl))))).others h1
        fun x hx => hn x (by simp [hx])
    have htr : t0 ++ [(.getLogLen fid, .ret m)] ++ t1 = tr s := by rw [h0]; simp
    rw [htr] at ha1 hrun
    have hnt : NoFlush t := fun x hx => hn x (by simp [hx])
    refine ⟨?_, ?_⟩
    · rcases Nat.eq_zero_or_pos m with hz | hz
      · subst hz
        obtain ⟨q, _, q1, q2⟩ := C85_session hrun ha1 hnt g2
        rw [← g1] at q1 q2
        refine ⟨q, ?_, q1, q2⟩
        have h2 := hrun0
        rw [heq, show t0 ++ ([(Op.getLogLen fid, Out.ret 0)] ++ t1 ++ t) =
          t0 ++ (Op.getLogLen fid, Out.ret 0) :: (t1 ++ t) by simp] at h2
        obtain ⟨s3, s4, hr3, hst⟩ := h2.cut_step
        have := at_end hr3 ha hst (.inr (.inr ⟨rfl, rfl⟩))
        have := q2.le
        omega
      · have hseen := C38_end W.logged marks 0 max hmax hx (i := d) hm hz (by
          rintro ⟨s, l⟩ stamp id shown dec hg
          have hg : (W.recv s d).1 = .got stamp id shown dec := hg
          rcases D.recv s with ⟨f, r1, r2, alloc, fresh, u1, u2, o, k1, k2, k3, k4, k5, k6, k7⟩ | ⟨u, _, _, _, k4⟩
          · rw [k7] at hg
            unfold RecvOut.toRecv at hg
            split at hg
            · cases hg
            · split at hg
              · cases hg
              · injection hg with _ _ _ hg
                rw [receive_taken k4] at hg
                exact hg.symm
          · rw [k4] at hg; cases hg)
        obtain ⟨ta, tb, oa, ob, j1, j2, j3, j4⟩ := g4 hseen
        have hr4 := hrun
        rw [j1, ← List.append_assoc] at hr4
        obtain ⟨s3, s4, hr3, hst⟩ := hr4.cut_step
        have hnta : NoFlush ta := fun x hx => hnt x (by rw [j1]; simp [hx])
        have hntb : NoFlush tb := fun x hx => hnt x (by rw [j1]; simp [hx])
        obtain ⟨q1, a1, b1⟩ := viewing_follows j3 hr3 hnta ha1
        have hq1 := at_end hr3 a1 hst (.inr (.inl ⟨_, rfl, rfl⟩))
        have hr5 := hrun
        rw [j1, show tr s ++ (ta ++ (Op.poll fid euid, Out.poll false) :: tb) =
          tr s ++ ta ++ [(.poll fid euid, .poll false)] ++ tb by simp] at hr5
        have a2 := a1.step (q := (.poll fid euid, .poll false)) (by simp) (.inr (.inr (.inr (.inl ⟨_, rfl⟩))))
        obtain ⟨q2, a3, b3⟩ := viewing_follows j4 hr5 hntb a2
        have heq2 : tr s ++ ta ++ [(Op.poll fid euid, Out.poll false)] ++ tb = tr s' := by rw [g1, j1]; simp
        rw [heq2] at b3 a3 hr5
        refine ⟨q2, ?_, ?_, ?_⟩
        · have m1 := (obs_append_mono name t0 ([(.getLogLen fid, .ret m)] ++ t1 ++ ta)).1.length_le
          rw [show t0 ++ ([(Op.getLogLen fid, Out.ret m)] ++ t1 ++ ta) = tr s ++ ta by rw [← htr]; simp] at m1
          have := b3.le
          omega
        · obtain ⟨r, hr, hall, hv, hp⟩ := a3
          obtain ⟨G, a, f, x, hrel, hinv, hname, hsz, hf, hfr, hx, k1, k2, k3, k4, k5, k6⟩ := hr5.reader hr
          rw [hinv.hist]
          omega
        · rw [j2]
          refine Follows.append (b1.mono ?_) b3
          have := (obs_append_mono name (tr s ++ ta) ([(.poll fid euid, .poll false)] ++ tb)).1
          rwa [← List.append_assoc, heq2] at this
    · intro he
      have hw := F.split d
      rw [hpend, List.filter_nil, List.append_nil, g3] at hw
      rw [(F.out.ok he).1, entriesOf_annotate, hw]

/-! ## The world made of the driver -/

theorem DW.exec_some {w w' : DW} {op : Op} {o : Out} (h : w.exec op = (w', some o)) :
    w'.tr = w.tr ++ [(op, o)] ∧ w'.os = w.os := by
  unfold DW.exec at h
  split at h
  · simp only [Prod.mk.injEq, Option.some.injEq] at h
    rw [← h.1, ← h.2]
    exact ⟨rfl, rfl⟩
  · simp at h

theorem DW.execAll_tr (fid : Nat) (ops : List Op) : ∀ (w : DW), (∀ op ∈ ops, op.fid ≠ fid) →
    ∃ t, Others fid t ∧ (w.execAll ops).tr = w.tr ++ t ∧ (w.execAll ops).os = w.os := by
  induction ops with
  | nil => intro w _; exact ⟨[], by simp [Others], by simp [DW.execAll], rfl⟩
  | cons op ops ih =>
    intro w h
    obtain ⟨t, h1, h2, h3⟩ := ih (w.exec op).1 fun x hx => h x (by simp [hx])
    unfold DW.execAll
    rw [h2, h3]
    have hop := h op (by simp)
    unfold DW.exec
    split
    · rename_i s o _
      refine ⟨(op, o) :: t, ?_, by simp, rfl⟩
      intro p hp
      rcases List.mem_cons.1 hp with rfl | hp
      · exact hop
      · exact h1 p hp
    · exact ⟨t, h1, rfl, rfl⟩

theorem DW.others_tr (fid : Nat) (w : DW) :
    ∃ t, Others fid t ∧ (w.others fid).tr = w.tr ++ t ∧ (w.others fid).os = w.os := by
  unfold DW.others
  exact DW.execAll_tr fid _ { w with env := w.env.tail } fun op hop => by simpa using (List.mem_filter.1 hop).2

theorem DW.sysRead_tr (fid : Nat) (euid : UInt32) (count : Nat) (n : Nat) : ∀ {w w' : DW} {r : RdRes},
    w.sysRead fid euid count n = (w', some r) →
    ∃ t, SysRead fid euid count t r ∧ w'.tr = w.tr ++ t ∧ w'.os = w.os := by
  induction n with
  | zero => intro w w' r h; simp [DW.sysRead] at h
  | succ n ih =>
    intro w w' r h
    unfold DW.sysRead at h
    obtain ⟨t1, a1, a2, a3⟩ := DW.others_tr fid w
    cases hx : (w.others fid).exec (.check fid) with
    | mk w1 o1 =>
    rw [hx] at h
    dsimp only at h
    cases o1 with
    | none => simp at h
    | some o1 =>
    obtain ⟨b1, b2⟩ := DW.exec_some hx
    rw [a2] at b1
    rw [a3] at b2
    cases o1 with
    | block =>
      simp only [Prod.mk.injEq, Option.some.injEq] at h
      obtain ⟨rfl, rfl⟩ := h
      exact ⟨_, .again a1, by rw [b1]; simp, b2⟩
    | err e =>
      simp only [Prod.mk.injEq, Option.some.injEq] at h
      obtain ⟨rfl, rfl⟩ := h
      exact ⟨_, .closed (e := e) a1, by rw [b1]; simp, b2⟩
    | ready =>
      dsimp only at h
      obtain ⟨t2, c1, c2, c3⟩ := DW.others_tr fid w1
      cases hy : (w1.others fid).exec (.read fid euid count count) with
      | mk w2 o2 =>
      rw [hy] at h
      dsimp only at h
      cases o2 with
      | none => simp at h
      | some o2 =>
      obtain ⟨d1, d2⟩ := DW.exec_some hy
      rw [c2, b1] at d1
      rw [c3, b2] at d2
      cases o2 with
      | data bs =>
        simp only [Prod.mk.injEq, Option.some.injEq] at h
        obtain ⟨rfl, rfl⟩ := h
        exact ⟨_, .data a1 c1, by rw [d1]; simp, d2⟩
      | block =>
        obtain ⟨t3, e1, e2, e3⟩ := ih h
        exact ⟨_, .start a1 c1 e1, by rw [e2, d1]; simp, e3.trans d2⟩
      | err e =>
        by_cases he : e = .einval
        · subst he
          simp only [Prod.mk.injEq, Option.some.injEq] at h
          obtain ⟨rfl, rfl⟩ := h
          exact ⟨_, .inval a1 c1, by rw [d1]; simp, d2⟩
        · have h' : (w2, some RdRes.other) = (w', some r) := by
            cases e <;> first | exact h | exact absurd rfl he
          simp only [Prod.mk.injEq, Option.some.injEq] at h'
          obtain ⟨rfl, rfl⟩ := h'
          exact ⟨_, .other a1 c1 he, by rw [d1]; simp, d2⟩
      | _ => simp at h
    | _ => simp at h

theorem DW.receive_tr {fid : Nat} {euid : UInt32} {csv : Bool} {n : Nat} {w w' : DW} {o : RecvOut}
    (h : w.receive fid euid csv n = (w', some o)) :
    ∃ r1 r2 t1 t2, SysRead fid euid frameSize t1 r1 ∧
      (if retries zeroFrame r1 && true then SysRead fid euid entryMax t2 r2 else t2 = []) ∧
      Ulogcat.receive true csv (fun _ => 0) zeroFrame r1 r2 = some o ∧
      w'.tr = w.tr ++ (t1 ++ t2) ∧ w'.os = w.os := by
  unfold DW.receive at h
  cases hx : w.sysRead fid euid frameSize n with
  | mk w1 r1 =>
  rw [hx] at h
  cases r1 with
  | none => simp at h
  | some r1 =>
  dsimp only at h
  obtain ⟨t1, a1, a2, a3⟩ := DW.sysRead_tr _ _ _ n hx
  by_cases hr : retries zeroFrame r1 = true
  · rw [if_pos hr] at h
    cases hy : w1.sysRead fid euid entryMax n with
    | mk w2 r2 =>
    rw [hy] at h
    cases r2 with
    | none => simp at h
    | some r2 =>
    dsimp only at h
    simp only [Prod.mk.injEq] at h
    obtain ⟨t2, b1, b2, b3⟩ := DW.sysRead_tr _ _ _ n hy
    refine ⟨r1, r2, t1, t2, a1, ?_, h.2, ?_, ?_⟩
    · rw [Bool.and_true, if_pos hr]; exact b1
    · rw [← h.1, b2, a2, List.append_assoc]
    · rw [← h.1, b3, a3]
  · rw [if_neg hr] at h
    simp only [Prod.mk.injEq] at h
    refine ⟨r1, .other, t1, [], a1, ?_, h.2, ?_, ?_⟩
    · rw [Bool.and_true, if_neg hr]
    · rw [← h.1, a2, List.append_nil]
    · rw [← h.1, a3]

/-- The world made of the driver is one `C90` and `C91` speak of, whatever others
do to the device. -/
theorem driverWorld_drives (fid : Nat) (euid : UInt32) (csv : Bool) (sh : RecvOut → Bool) (n : Nat) :
    Drives (driverWorld fid euid csv sh n) 0 fid euid csv sh id DW.tr DW.os := by
  have nil : Others fid [] := by simp [Others]
  constructor
  · intro w e
    exact DW.others_tr fid w
  · intro w i hi
    exact ⟨[], nil, by simp [driverWorld, hi], by simp [driverWorld, hi]⟩
  · intro w a
    unfold driverWorld
    dsimp only
    obtain ⟨t, h1, h2, h3⟩ := DW.others_tr fid w
    by_cases ha : a 0 = true
    · rw [if_pos ha, ha]
      cases hx : (w.others fid).exec (.poll fid euid) with
      | mk w1 o =>
      have bad : ∃ t, Polled fid euid true 0 .err t ∧ w.tr = w.tr ++ t ∧ w.os = w.os :=
        ⟨[], by simp [Polled, Asks], by simp, rfl⟩
      cases o with
      | none => exact bad
      | some o =>
        cases o with
        | poll b =>
          obtain ⟨g1, g2⟩ := DW.exec_some hx
          refine ⟨t ++ (.poll fid euid, .poll b) :: [], ?_, by rw [g1, h2]; simp, by rw [g2, h3]⟩
          unfold Polled
          rw [if_pos rfl]
          exact ⟨t, [], fun p hp => .inl (h1 p hp), nil, by simp⟩
        | _ => exact bad
    · rw [if_neg ha]
      refine ⟨t, ?_, h2, h3⟩
      unfold Polled
      rw [if_neg ha]
      exact h1
  · intro w
    unfold driverWorld
    dsimp only
    rw [if_pos rfl]
    cases hx : w.receive fid euid csv n with
    | mk w1 o =>
    cases o with
    | none => exact .inr ⟨[], nil, by simp, rfl, rfl⟩
    | some o =>
      obtain ⟨r1, r2, t1, t2, h1, h2, h3, h4, h5⟩ := DW.receive_tr hx
      exact .inl ⟨zeroFrame, r1, r2, true, _, t1, t2, o, ⟨rfl, by simp [zeroFrame]⟩, h1, h2, h3, h4, rfl, rfl⟩

/-- The state of the device is what the calls so far made of it. -/
def DW.Real (name : Bytes) (k : Nat) (buf : Nat → UInt8) (w : DW) : Prop :=
  (∃ ops, (∀ op ∈ ops, op.supported = true) ∧ Kernel.run (init name k buf) ops = .ok (w.sys, w.tr)) ∧
    ∀ l ∈ w.env, ∀ op ∈ l, op.supported = true

theorem DW.Real.exec {name k buf} {w : DW} (h : w.Real name k buf) {op : Op} (hop : op.supported = true) :
    (w.exec op).1.Real name k buf ∧ (w.exec op).1.env = w.env := by
  unfold DW.exec
  split
  · rename_i s o hs
    obtain ⟨⟨ops, h1, h2⟩, h3⟩ := h
    refine ⟨⟨⟨ops ++ [op], ?_, run_snoc hs h2⟩, h3⟩, rfl⟩
    intro x hx
    rcases List.mem_append.mp hx with hx | hx
    · exact h1 x hx
    · rw [List.mem_singleton.mp hx]; exact hop
  · exact ⟨h, rfl⟩

theorem DW.Real.execAll {name k buf} (ops : List Op) : ∀ {w : DW}, w.Real name k buf →
    (∀ op ∈ ops, op.supported = true) → (w.execAll ops).Real name k buf := by
  induction ops with
  | nil => intro w h _; exact h
  | cons op ops ih =>
    intro w h ho
    exact ih (h.exec (ho op (by simp))).1 fun x hx => ho x (by simp [hx])

theorem DW.Real.others {name k buf} {w : DW} (h : w.Real name k buf) (fid : Nat) : (w.others fid).Real name k buf := by
  unfold DW.others
  refine DW.Real.execAll _ (w := { w with env := w.env.tail }) ⟨h.1, fun l hl => h.2 l (List.mem_of_mem_tail hl)⟩ ?_
  intro op hop
  have hop := (List.mem_filter.1 hop).1
  have h2 := h.2
  cases he : w.env with
  | nil => rw [he] at hop; simp at hop
  | cons l e => rw [he] at hop h2; exact h2 l (by simp) op hop

theorem DW.Real.sysRead {name k buf} (fid : Nat) (euid : UInt32) (count : Nat) (n : Nat) : ∀ {w : DW},
    w.Real name k buf → (w.sysRead fid euid count n).1.Real name k buf := by
  induction n with
  | zero => intro w h; exact h
  | succ n ih =>
    intro w h
    unfold DW.sysRead
    have h1 := ((h.others fid).exec (op := .check fid) rfl).1
    generalize (w.others fid).exec (.check fid) = x at h1
    obtain ⟨w1, o1⟩ := x
    dsimp only at h1 ⊢
    have h2 := ((h1.others fid).exec (op := .read fid euid count count) rfl).1
    generalize (w1.others fid).exec (.read fid euid count count) = y at h2
    obtain ⟨w2, o2⟩ := y
    dsimp only at h2 ⊢
    split
    · exact h1
    · split
      · exact h2
      · exact h2
      · exact h2
      · exact ih h2
      · exact h2
    · exact h1
    · exact h1

theorem DW.Real.receive {name k buf} {w : DW} (h : w.Real name k buf) (fid : Nat) (euid : UInt32) (csv : Bool) (n : Nat) :
    (w.receive fid euid csv n).1.Real name k buf := by
  unfold DW.receive
  have h1 := h.sysRead fid euid frameSize n
  generalize w.sysRead fid euid frameSize n = x at h1
  obtain ⟨w1, r1⟩ := x
  cases r1 with
  | none => exact h1
  | some r1 =>
    dsimp only
    split
    · have h2 := DW.Real.sysRead fid euid entryMax n (w := w1) h1
      generalize w1.sysRead fid euid entryMax n = y at h2
      obtain ⟨w2, r2⟩ := y
      cases r2 <;> exact h2
    · exact h1

theorem driverWorld_real (fid : Nat) (euid : UInt32) (csv : Bool) (sh : RecvOut → Bool) (n : Nat)
    (name : Bytes) (k : Nat) (buf : Nat → UInt8) :
    Keeps (driverWorld fid euid csv sh n) (DW.Real name k buf) := by
  constructor
  · intro w h a
    unfold driverWorld
    dsimp only
    have h1 := ((h.others fid).exec (op := .poll fid euid) rfl).1
    split
    · generalize (w.others fid).exec (.poll fid euid) = x at h1
      split
      · exact h1
      · exact h
    · exact h.others fid
  · intro w h i
    unfold driverWorld
    dsimp only
    have h1 := h.receive fid euid csv n
    split
    · generalize w.receive fid euid csv n = x at h1
      split
      · exact h1
      · exact h
    · exact h
  · intro w h e
    exact h.others fid

/-- What happened to the device is a run of the driver. -/
theorem DW.Real.run {name k buf} {w : DW} (h : w.Real name k buf) (hk : 14 ≤ k) (hn : name.length ≤ 89)
    (hg : Genuine (obs name w.tr).hist) (hc : (obs name w.tr).hist.length < 2147483648) :
    ∃ ops, Run name k buf ops w.sys w.tr := by
  obtain ⟨⟨ops, h1, h2⟩, _⟩ := h
  exact ⟨ops, hk, hn, h1, h2, hg, hc⟩

end Verif.Ulogcat
