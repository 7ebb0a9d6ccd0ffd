import Verif.Ulogcat.PropsLive

/-!
# The order of entries while following several devices (C137)
-/
namespace Verif.Ulogcat
open Verif Verif.Kernel Verif.Libulog

variable {σ : Type}

/-! ## What is read in one turn -/

theorem readDevs_all (W : World σ) {n : Nat} (asked ready : Nat → Bool) (is : List Nat) (nd : is.Nodup) :
    ∀ {c : Ctx} {s : σ} {m : Int}, Inv 0 n c → (∀ i ∈ is, asked i = true → i < n ∧ c.isPending i = false) →
    ∀ {c' : Ctx} {s' : σ} {m' : Int}, readDevs W asked ready is c s m = (c', s', none, m') →
      (∀ i, c.isPending i = true → c'.isPending i = true) ∧
      ∀ i ∈ is, asked i = true → ready i = true → c'.isPending i = true := by
  induction is with
  | nil =>
    intro c s m I ha c' s' m' h
    simp only [readDevs, Prod.mk.injEq] at h
    obtain ⟨rfl, _⟩ := h
    exact ⟨fun _ h => h, by simp⟩
  | cons i is ih =>
    intro c s m I ha c' s' m' h
    have nd' := List.nodup_cons.1 nd
    rw [readDevs_cons] at h
    split at h
    · rename_i hne
      have hrest : ∀ j, j ∈ i :: is → asked j = true → ready j = true → j ∈ is := by
        intro j hj h1 h2
        rcases List.mem_cons.1 hj with rfl | hj
        · simp [h1, h2] at hne
        · exact hj
      split at h
      · obtain ⟨h1, h2⟩ := ih nd'.2 (I.unready i) (by
          intro j hj hja
          rw [isPending_unready]
          exact ha j (List.mem_cons_of_mem _ hj) hja) h
        exact ⟨fun j hj => h1 j (by rw [isPending_unready]; exact hj), fun j hj a b => h2 j (hrest j hj a b) a b⟩
      · obtain ⟨h1, h2⟩ := ih nd'.2 I (fun j hj hja => ha j (List.mem_cons_of_mem _ hj) hja) h
        exact ⟨h1, fun j hj a b => h2 j (hrest j hj a b) a b⟩
    · rename_i hne
      have hai : asked i = true := by
        cases h : asked i
        · simp [h] at hne
        · rfl
      have hi := ha i (by simp) hai
      have hroom := room I hi.1 hi.2
      rw [if_neg (by omega)] at h
      split at h
      · simp at h
      · simp at h
      · rename_i stamp id shown dec s1 hr
        obtain ⟨h1, h2⟩ := ih nd'.2 (I.got (Frame.mk i stamp id shown) dec hi.1 hi.2) (by
          intro j hj hja
          have hj2 := ha j (List.mem_cons_of_mem _ hj) hja
          refine ⟨hj2.1, ?_⟩
          rw [isPending_got _ _ _ (by rw [I.len]; exact hi.1), if_neg]
          · exact hj2.2
          · intro e
            have e : i = j := e
            exact nd'.1 (e ▸ hj)) h
        have hget : ∀ j, (c.got (Frame.mk i stamp id shown) dec).isPending j = if i = j then true else c.isPending j :=
          fun j => isPending_got _ _ _ (by rw [I.len]; exact hi.1) j
        refine ⟨fun j hj => h1 j ?_, fun j hj a b => ?_⟩
        · rw [hget]
          split
          · rfl
          · exact hj
        · rcases List.mem_cons.1 hj with rfl | hj
          · exact h1 _ (by rw [hget, if_pos rfl])
          · exact h2 j hj a b

/-- A frame of the calls, and those before it. -/
theorem framesOf_mid (d : Nat) (sh : RecvOut → Bool) (num : Nat → Nat) {A B : List Frame} {g : Frame} {os : List RecvOut}
    (h : framesOf d sh num os = A ++ g :: B) :
    ∃ oa o ob, os = oa ++ o :: ob ∧ framesOf d sh num oa = A ∧ 0 < o.ret ∧ o.stamp = g.stamp := by
  suffices H : ∀ (r : List RecvOut) (B : List Frame), framesOf d sh num r.reverse = A ++ g :: B →
      ∃ oa o ob, r.reverse = oa ++ o :: ob ∧ framesOf d sh num oa = A ∧ 0 < o.ret ∧ o.stamp = g.stamp by
    have := H os.reverse B
    rw [List.reverse_reverse] at this
    exact this h
  intro r
  induction r with
  | nil => intro B h; simp [framesOf] at h
  | cons o r ih =>
    intro B h
    rw [List.reverse_cons] at h ⊢
    rw [framesOf_snoc] at h
    by_cases ho : 0 < o.ret
    · have hf : (o.toRecv sh (num r.reverse.length)).frames d = [⟨d, o.stamp, num r.reverse.length, sh o⟩] := by
        unfold RecvOut.toRecv
        rw [if_neg (by omega), if_neg (by omega)]
        rfl
      rw [hf] at h
      by_cases hB : B = []
      · subst hB
        obtain ⟨h1, h2⟩ := List.append_inj' h rfl
        refine ⟨r.reverse, o, [], rfl, h1, ho, ?_⟩
        rw [List.cons.injEq] at h2
        rw [← h2.1]
      · rw [(List.dropLast_concat_getLast hB).symm, ← List.cons_append, ← List.append_assoc] at h
        obtain ⟨h1, _⟩ := List.append_inj' h rfl
        obtain ⟨oa, o1, ob, k1, k2⟩ := ih _ h1
        exact ⟨oa, o1, ob ++ [o], by rw [k1]; simp, k2⟩
    · have hf : (o.toRecv sh (num r.reverse.length)).frames d = [] := by
        unfold RecvOut.toRecv
        split
        · rfl
        · rw [if_pos (by omega)]
          rfl
      rw [hf, List.append_nil] at h
      obtain ⟨oa, o1, ob, h1, h2⟩ := ih B h
      exact ⟨oa, o1, ob ++ [o], by rw [h1]; simp, h2⟩

theorem framesOf_append_le (d : Nat) (sh : RecvOut → Bool) (num : Nat → Nat) (oa ob : List RecvOut) :
    (framesOf d sh num oa).length ≤ (framesOf d sh num (oa ++ ob)).length := by
  unfold framesOf
  rw [List.zipIdx_append, List.filterMap_append, List.length_append]
  omega

theorem framesOf_snoc_got (d : Nat) (sh : RecvOut → Bool) (num : Nat → Nat) (oa : List RecvOut) {o : RecvOut} (ho : 0 < o.ret) :
    (framesOf d sh num (oa ++ [o])).length = (framesOf d sh num oa).length + 1 := by
  rw [framesOf_snoc, List.length_append]
  unfold RecvOut.toRecv
  rw [if_neg (by omega), if_neg (by omega)]
  rfl

/-! ## The time that passes -/

section
variable {W : World σ} {d fid : Nat} {euid : UInt32} {csv : Bool} {sh : RecvOut → Bool} {num : Nat → Nat}
  {tr : σ → List (Op × Out)} {os : σ → List RecvOut}

/-- `s'` comes after `s`. -/
def Later (fid : Nat) (euid : UInt32) (csv : Bool) (tr : σ → List (Op × Out)) (os : σ → List RecvOut) (s s' : σ) : Prop :=
  ∃ t o, tr s' = tr s ++ t ∧ os s' = os s ++ o ∧ Viewing fid euid csv t o

theorem Later.refl (s : σ) : Later fid euid csv tr os s s := ⟨[], [], by simp, by simp, .nil⟩

theorem Later.trans {s s1 s2 : σ} (h : Later fid euid csv tr os s s1) (h' : Later fid euid csv tr os s1 s2) :
    Later fid euid csv tr os s s2 := by
  obtain ⟨t, o, h1, h2, h3⟩ := h
  obtain ⟨t', o', g1, g2, g3⟩ := h'
  exact ⟨t ++ t', o ++ o', by rw [g1, h1]; simp, by rw [g2, h2]; simp, h3.append g3⟩

/-- After `s0`, and the frames received are those of the calls. -/
def After (d fid : Nat) (euid : UInt32) (csv : Bool) (sh : RecvOut → Bool) (num : Nat → Nat) (tr : σ → List (Op × Out))
    (os : σ → List RecvOut) (s0 : σ) (x : σ × List Frame) : Prop :=
  Later fid euid csv tr os s0 x.1 ∧ x.2.filter (fun f => f.dev == d) = framesOf d sh num (os x.1)

theorem Drives.after (D : Drives W d fid euid csv sh num tr os) (s0 : σ) :
    Keeps W.logged (After d fid euid csv sh num tr os s0) := by
  constructor
  · rintro ⟨s, l⟩ ⟨h, hl⟩ a
    obtain ⟨t, hp, ht, ho⟩ := D.poll s a
    refine ⟨h.trans ⟨t, [], ht, by rw [List.append_nil]; exact ho, hp.viewing⟩, ?_⟩
    show l.filter _ = framesOf d sh num (os (W.poll s a).2)
    rw [ho]
    exact hl
  · rintro ⟨s, l⟩ ⟨h, hl⟩ i
    have hl : l.filter (fun f => f.dev == d) = framesOf d sh num (os s) := hl
    show Later _ _ _ _ _ _ (W.recv s i).2 ∧ (l ++ (W.recv s i).1.frames i).filter _ = framesOf d sh num (os (W.recv s i).2)
    by_cases hi : i = d
    · subst hi
      rcases D.recv s with ⟨f, r1, r2, alloc, fresh, t1, t2, o, h1, h2, h3, h4, h5, h6, h7⟩ | ⟨t, h1, h2, h3, h4⟩
      · refine ⟨h.trans ⟨_, _, h5, h6, ?_⟩, ?_⟩
        · have := Viewing.call h1 h2 h3 h4 .nil
          rwa [List.append_nil] at this
        · rw [List.filter_append, hl, h6, framesOf_snoc, h7]
          congr 1
          cases o.toRecv sh (num (os s).length) <;> simp [Recv.frames]
      · refine ⟨h.trans ⟨t, [], h2, by rw [List.append_nil]; exact h3, h1.viewing⟩, ?_⟩
        rw [h4, h3]
        simp only [Recv.frames, List.append_nil]
        exact hl
    · obtain ⟨t, h1, h2, h3⟩ := D.other s i hi
      refine ⟨h.trans ⟨t, [], h2, by rw [List.append_nil]; exact h3, h1.viewing⟩, ?_⟩
      rw [h3, List.filter_append, hl]
      cases (W.recv s i).1 <;> simp [Recv.frames, hi]
  · rintro ⟨s, l⟩ ⟨h, hl⟩ e
    obtain ⟨t, h1, h2, h3⟩ := D.output s e
    refine ⟨h.trans ⟨t, [], h2, by rw [List.append_nil]; exact h3, h1.viewing⟩, ?_⟩
    show l.filter _ = framesOf d sh num (os (W.output s e).2)
    rw [h3]
    exact hl

theorem Keeps.devs {V : World σ} {P : σ → Prop} (K : Keeps V P) (asked ready : Nat → Bool) (is : List Nat) (c : Ctx) (m : Int) {s : σ}
    (h : P s) : P (readDevs V asked ready is c s m).2.1 :=
  (K.sim.toO.devs asked ready is c m (s := s) (t := s) ⟨rfl, h⟩).2.1.2

theorem Keeps.pull {V : World σ} {P : σ → Prop} (K : Keeps V P) {c c' : Ctx} {s s' : σ} (h : P s) (he : pullFrame V c s = .ok (c', s')) : P s' := by
  have := K.sim.toO.pull c (s := s) (t := s) ⟨rfl, h⟩
  rw [he] at this
  exact this.2.2

/-! ## The invariant -/

/-- When `e` was handled, after the frames `x`: either the device had been found without
data, later than `tr1`, or a frame of it was waiting that is not older. -/
def Past (d fid : Nat) (euid : UInt32) (csv : Bool) (sh : RecvOut → Bool) (num : Nat → Nat) (tr : σ → List (Op × Out))
    (os : σ → List RecvOut) (t0 t1 : List (Op × Out)) (x : List Frame) (e : Frame) (s : σ) : Prop :=
  ∃ oa ob, os s = oa ++ ob ∧ x.filter (fun f => f.dev == d) = framesOf d sh num oa ∧
    ((∃ ta tb, tr s = t0 ++ (ta ++ (.poll fid euid, .poll false) :: tb) ∧ Viewing fid euid csv ta oa ∧
      Viewing fid euid csv tb ob ∧ t1 <+: t0 ++ ta) ∨
     ∃ g ob', ob = g :: ob' ∧ 0 < g.ret ∧ e.stamp ≤ g.stamp)

theorem Past.later {t0 t1 : List (Op × Out)} {x : List Frame} {e : Frame} {s s' : σ}
    (h : Past d fid euid csv sh num tr os t0 t1 x e s) (hl : Later fid euid csv tr os s s') :
    Past d fid euid csv sh num tr os t0 t1 x e s' := by
  obtain ⟨oa, ob, h1, h2, h3⟩ := h
  obtain ⟨t, o, g1, g2, g3⟩ := hl
  refine ⟨oa, ob ++ o, by rw [g2, h1]; simp, h2, ?_⟩
  rcases h3 with ⟨ta, tb, a1, a2, a4, a3⟩ | ⟨g, ob', rfl, b2, b3⟩
  · exact .inl ⟨ta, tb ++ t, by rw [g1, a1]; simp, a2, a4.append g3, a3⟩
  · exact .inr ⟨g, ob' ++ o, rfl, b2, b3⟩

/-- Everything that stays true of a device. -/
structure TurnInv (d fid : Nat) (euid : UInt32) (csv : Bool) (sh : RecvOut → Bool) (num : Nat → Nat) (tr : σ → List (Op × Out))
    (os : σ → List RecvOut) (s0 s1 : σ) (w1 : List Frame) (s : σ × List Frame) (w : List Frame) : Prop where
  since : After d fid euid csv sh num tr os s0 s
  later : Later fid euid csv tr os s1 s.1
  pre : w1 <+: w
  past : ∀ x e y, w = w1 ++ x ++ e :: y → Past d fid euid csv sh num tr os (tr s0) (tr s1) (w1 ++ x) e s.1

theorem TurnInv.move {s0 s1 : σ} {w1 : List Frame} {s s' : σ × List Frame} {w : List Frame}
    (O : TurnInv d fid euid csv sh num tr os s0 s1 w1 s w) (ha : After d fid euid csv sh num tr os s.1 s') :
    TurnInv d fid euid csv sh num tr os s0 s1 w1 s' w :=
  ⟨⟨O.since.1.trans ha.1, ha.2⟩, O.later.trans ha.1, O.pre, fun x e y h => (O.past x e y h).later ha.1⟩

/-- It stays true of all devices from `s` with `w` handled to `s'` with `w'` handled. -/
def Turns (W : World σ) (n : Nat) (s : σ × List Frame) (w : List Frame) (s' : σ × List Frame) (w' : List Frame) : Prop :=
  ∀ (d fid : Nat) (euid : UInt32) (csv : Bool) (sh : RecvOut → Bool) (num : Nat → Nat) (tr : σ → List (Op × Out)) (os : σ → List RecvOut)
    (s0 s1 : σ) (w1 : List Frame), Drives W d fid euid csv sh num tr os → d < n → os s0 = [] →
    TurnInv d fid euid csv sh num tr os s0 s1 w1 s w → TurnInv d fid euid csv sh num tr os s0 s1 w1 s' w'

theorem Turns.refl {n : Nat} (s : σ × List Frame) (w : List Frame) : Turns W n s w s w := fun _ _ _ _ _ _ _ _ _ _ _ _ _ _ O => O

theorem Turns.trans {n : Nat} {s s' s'' : σ × List Frame} {w w' w'' : List Frame} (h : Turns W n s w s' w') (h' : Turns W n s' w' s'' w'') :
    Turns W n s w s'' w'' :=
  fun d fid euid csv sh num tr os s0 s1 w1 D hd h0 O => h' d fid euid csv sh num tr os s0 s1 w1 D hd h0 (h d fid euid csv sh num tr os s0 s1 w1 D hd h0 O)

theorem turn_pass (W : World σ) {n : Nat} {c : Ctx} {s : σ × List Frame} {w : List Frame} (F : FInv n c s.2 w) :
    ∃ c' s' r w', processDevices W.logged c s = .ok (c', s', r) ∧ FInv n c' s'.2 w' ∧ Turns W n s w s' w' ∧ w <+: w' := by
  rw [processDevices_eq]
  have hs : (W.logged.poll s c.asked).2.2 = s.2 := rfl
  have hpoll : ∀ {d fid euid csv sh num tr os} {s0 s1 : σ} {w1}, Drives W d fid euid csv sh num tr os →
      TurnInv d fid euid csv sh num tr os s0 s1 w1 s w → After d fid euid csv sh num tr os s.1 (W.logged.poll s c.asked).2 :=
    fun D O => (D.after s.1).poll ⟨Later.refl _, O.since.2⟩ c.asked
  have hP : ∀ {d fid euid csv sh num tr os}, Drives W d fid euid csv sh num tr os →
    ∃ t, Polled fid euid (c.asked d) d (W.logged.poll s c.asked).1 t ∧ tr (W.logged.poll s c.asked).2.1 = tr s.1 ++ t ∧
    os (W.logged.poll s c.asked).2.1 = os s.1 := fun D => D.poll s.1 c.asked
  split
  · rename_i s2 h
    rw [h] at hs hpoll
    exact ⟨_, _, _, w, rfl, by rw [show s2.2 = s.2 from hs]; exact F, fun _ _ _ _ _ _ _ _ _ _ _ D _ _ O => O.move (hpoll D O),
      List.prefix_refl _⟩
  · rename_i s2 h
    rw [h] at hs hpoll
    exact ⟨_, _, _, w, rfl, by rw [show s2.2 = s.2 from hs]; exact F, fun _ _ _ _ _ _ _ _ _ _ _ D _ _ O => O.move (hpoll D O),
      List.prefix_refl _⟩
  · rename_i ready s2 h
    rw [h] at hs hpoll hP
    have hs : s2.2 = s.2 := hs
    have hask : ∀ i ∈ List.range c.devs.length, c.asked i = true → i < n ∧ c.isPending i = false := by
      intro i hi ha
      have := (asked_iff c i).1 ha
      rw [F.inv.len] at this
      exact this
    have F1 := FInv.read W c.asked ready (List.range c.devs.length) List.nodup_range (c := c) (s := s2) (w := w) 0 (by rw [hs]; exact F) hask
    have h2 : ∀ {d fid euid csv sh num tr os} {s0 s1 : σ} {w1}, Drives W d fid euid csv sh num tr os →
      TurnInv d fid euid csv sh num tr os s0 s1 w1 s w →
      After d fid euid csv sh num tr os s.1 (readDevs W.logged c.asked ready (List.range c.devs.length) c s2 0).2.1 ∧
      After d fid euid csv sh num tr os s2.1 (readDevs W.logged c.asked ready (List.range c.devs.length) c s2 0).2.1 :=
      fun D O => ⟨(D.after s.1).devs c.asked ready (List.range c.devs.length) c 0 (hpoll D O),
        (D.after s2.1).devs c.asked ready (List.range c.devs.length) c 0 ⟨Later.refl _, (hpoll D O).2⟩⟩
    split
    · rename_i c1 s3 r m he
      rw [he] at F1 h2
      exact ⟨_, _, _, w, rfl, F1, fun _ _ _ _ _ _ _ _ _ _ _ D _ _ O => O.move (h2 D O).1, List.prefix_refl _⟩
    · rename_i c1 s3 m he
      rw [he] at F1 h2
      have hall := readDevs_all W.logged c.asked ready (List.range c.devs.length) List.nodup_range F.inv hask he
      obtain ⟨c2, s4, w2, e1, F2, hw⟩ := F1.pulled W
      have F3 : FInv n (updateMark c2) s4.2 w2 := by
        unfold updateMark
        split
        · exact F2
        · split
          · exact F2
          · refine ⟨?_, F2.tl, F2.out.congr rfl rfl (fun _ => rfl), F2.split, F2.lt⟩
            have I := F2.inv
            exact { len := I.len, pc := I.pc, rc := I.rc, pool := I.pool, tT := I.tT, rt := I.rt, plt := I.plt, rlt := I.rlt, nd := I.nd, pf := I.pf, st := I.st }
      have htf : tailFlush W.logged (updateMark c2) s4 = .ok (updateMark c2, s4) := by
        unfold tailFlush
        rw [if_pos (Or.inl F3.tl)]
      refine ⟨updateMark c2, s4, m, w2, ?_, F3, ?_, by
        rcases hw with rfl | ⟨f, r, -, rfl⟩
        · exact List.prefix_refl _
        · exact List.prefix_append _ _⟩
      · unfold endPass
        rw [e1]
        dsimp only [bind, Except.bind]
        rw [htf]
        rfl
      · intro d fid euid csv sh num tr os s0 s1 w1 D hd h0 O
        obtain ⟨h2, K2⟩ := h2 D O
        have hP := hP D
        have O1 := O.move h2
        have h4 := (D.after s3.1).pull ⟨Later.refl _, h2.2⟩ e1
        rcases hw with rfl | ⟨f, r, hpop, rfl⟩
        · exact O1.move h4
        · refine ⟨⟨O1.since.1.trans h4.1, h4.2⟩, O1.later.trans h4.1, O1.pre.trans (List.prefix_append _ _), ?_⟩
          intro x e y hx
          by_cases hy : y = []
          · subst hy
            obtain ⟨hx1, hx2⟩ := List.append_inj' hx rfl
            rw [List.cons.injEq] at hx2
            obtain ⟨rfl, _⟩ := hx2
            rw [← hx1]
            refine Past.later ?_ h4.1
            by_cases hp : c1.isPending d = true
            · obtain ⟨g, g1, g2⟩ := List.mem_map.1 ((F1.inv.pf d).1 hp)
              obtain ⟨a, b, p1, p2, p3, p4⟩ := popOldest_some _ _ _ hpop
              have hle : f.stamp ≤ g.stamp := by
                rw [p1] at g1
                rcases List.mem_append.1 g1 with g1 | g1
                · exact Nat.le_of_lt (p3 g g1)
                · rcases List.mem_cons.1 g1 with rfl | g1
                  · exact Nat.le_refl _
                  · exact p4 g g1
              have hone : c1.pendQ.filter (fun f => f.dev == d) = [g] := by
                obtain ⟨l1, l2, hl⟩ := List.append_of_mem g1
                have hn := F1.inv.nd
                rw [hl] at hn ⊢
                rw [List.map_append, List.map_cons] at hn
                have hn := (List.nodup_cons.1 ((List.perm_middle.nodup_iff).1 hn)).1
                rw [List.mem_append, not_or] at hn
                rw [List.filter_append, List.filter_cons_of_pos (by simpa using g2)]
                have none : ∀ l : List Frame, g.dev ∉ l.map Frame.dev → l.filter (fun f => f.dev == d) = [] := by
                  intro l hl
                  rw [List.filter_eq_nil_iff]
                  intro z hz hzd
                  exact hl (List.mem_map.2 ⟨z, hz, by rw [g2]; simpa using hzd⟩)
                rw [none l1 hn.1, none l2 hn.2]
                rfl
              have hsp := F1.split d
              rw [hone] at hsp
              have hfr := h2.2
              dsimp only at hsp hfr
              rw [hfr] at hsp
              obtain ⟨oa, o, ob, q1, q2, q3, q4⟩ := framesOf_mid d sh num hsp.symm
              exact ⟨oa, o :: ob, q1, q2.symm, .inr ⟨o, ob, rfl, q3, by omega⟩⟩
            · have hcp : c.isPending d = false := by
                cases hc : c.isPending d
                · rfl
                · exact absurd (hall.1 d hc) hp
              have hda : c.asked d = true := (asked_iff c d).2 ⟨by rw [F.inv.len]; exact hd, hcp⟩
              have hrd : ready d = false := by
                cases hr : ready d
                · rfl
                · exact absurd (hall.2 d (List.mem_range.2 (by rw [F.inv.len]; exact hd)) hda hr) hp
              obtain ⟨t, p1, p2, p3⟩ := hP
              unfold Polled at p1
              rw [if_pos hda] at p1
              dsimp only at p1
              obtain ⟨t1, t2, q1, q2, q3⟩ := p1
              rw [hrd] at q3
              refine Past.later (s := s2.1) ?_ K2.1
              obtain ⟨u, v, u1, u2, u3⟩ := O.since.1
              obtain ⟨u', v', u1', -, -⟩ := O.later
              refine ⟨os s.1, [], by rw [List.append_nil]; exact p3, ?_, .inl ⟨u ++ t1, t2, ?_, ?_, q2.viewing, ?_⟩⟩
              · rw [← O.since.2, ← F.split d]
                have : c.pendQ.filter (fun f => f.dev == d) = [] := by
                  rw [List.filter_eq_nil_iff]
                  intro z hz hzd
                  have := (F.inv.pf d).2 (List.mem_map.2 ⟨z, hz, by simpa using hzd⟩)
                  rw [hcp] at this
                  cases this
                rw [this, List.append_nil]
              · rw [p2, q3, u1]; simp
              · rw [u2, h0, List.nil_append]
                have := u3.append (q1.viewing (csv := csv))
                rwa [List.append_nil] at this
              · rw [← List.append_assoc, ← u1, u1', List.append_assoc]
                exact List.prefix_append _ _
          · have hy' : y = y.dropLast ++ [y.getLast hy] := (List.dropLast_concat_getLast hy).symm
            rw [hy', ← List.cons_append, ← List.append_assoc] at hx
            obtain ⟨hx1, _⟩ := List.append_inj' hx rfl
            exact (O1.past x e _ hx1).later h4.1

theorem turn_logs (W : World σ) {n : Nat} (max : Int) (fuel : Nat) : ∀ (fr : Int) {c : Ctx} {s : σ × List Frame} {w : List Frame},
    FInv n c s.2 w →
    ∃ c' s' r w', processLogs W.logged false max fuel c s fr = .ok (c', s', r) ∧ FInv n c' s'.2 w' ∧ Turns W n s w s' w' ∧ w <+: w' := by
  induction fuel with
  | zero => intro fr c s w F; exact ⟨_, _, _, w, rfl, F, Turns.refl _ _, List.prefix_refl _⟩
  | succ fuel ih =>
    intro fr c s w F
    obtain ⟨c1, s2, r, w2, e1, F1, T1, P1⟩ := turn_pass W F
    unfold processLogs
    rw [e1]
    dsimp only [bind, Except.bind]
    split
    · exact ⟨_, _, _, w2, rfl, F1, T1, P1⟩
    · rw [if_neg (by simp)]
      split
      · exact ⟨_, _, _, w2, rfl, F1, T1, P1⟩
      · split
        · obtain ⟨c3, s3, r3, w3, e3, F3, T3, P3⟩ := ih (fr + r) F1
          exact ⟨c3, s3, r3, w3, e3, F3, T1.trans T3, P1.trans P3⟩
        · exact ⟨_, _, _, w2, rfl, F1, T1, P1⟩

theorem turn_calls (W : World σ) {n : Nat} (l : List (Nat × Int)) : ∀ {c : Ctx} {s : σ × List Frame} {w : List Frame}, FInv n c s.2 w →
    ∃ c' s' w', calls W.logged false l c s = .ok (c', s') ∧ FInv n c' s'.2 w' ∧ Turns W n s w s' w' ∧ w <+: w' := by
  induction l with
  | nil => intro c s w F; exact ⟨c, s, w, rfl, F, Turns.refl _ _, List.prefix_refl _⟩
  | cons x l ih =>
    intro c s w F
    obtain ⟨fuel, max⟩ := x
    obtain ⟨c1, s2, r, w2, e1, F1, T1, P1⟩ := turn_logs W max fuel 0 F
    obtain ⟨c2, s3, w3, e2, F2, T2, P2⟩ := ih F1
    refine ⟨c2, s3, w3, ?_, F2, T1.trans T2, P1.trans P2⟩
    unfold calls
    rw [e1]
    exact e2

/-! ## What was received and the log -/

theorem Follows.split {name size hist csv} (oa : List RecvOut) : ∀ {ob : List RecvOut} {p q : Nat},
    Follows name size hist csv p (oa ++ ob) q → ∃ r, Follows name size hist csv p oa r ∧ Follows name size hist csv r ob q := by
  induction oa with
  | nil => intro ob p q h; exact ⟨p, .nil, h⟩
  | cons o oa ih =>
    intro ob p q h
    cases h with
    | none h hf => obtain ⟨r, h1, h2⟩ := ih hf; exact ⟨r, .none h h1, h2⟩
    | entry h hr hf => obtain ⟨r, h1, h2⟩ := ih hf; exact ⟨r, .entry h hr h1, h2⟩
    | lost hn ho h hr hf => obtain ⟨r, h1, h2⟩ := ih hf; exact ⟨r, .lost hn ho h hr h1, h2⟩

/-- What the next call delivered, and where it stands in the log: `n` entries were
lost before. -/
theorem Follows.got {name size hist csv p q} {g : RecvOut} {ob : List RecvOut} (h : Follows name size hist csv p (g :: ob) q) (hg : 0 < g.ret) :
    ∃ n e r, (n = 0 ∨ Old size hist p n) ∧ hist[p + n]? = some e ∧ g.stamp = micros e.sec e.nsec ∧ p + n ≤ r ∧
      Follows name size hist csv r ob q := by
  cases h with
  | none h hf => omega
  | entry h hr hf => exact ⟨0, _, _, .inl rfl, h, hr.stamp, by omega, hf⟩
  | lost hn ho h hr hf => exact ⟨_, _, _, .inr ho, h, hr.stamp, Nat.le_refl _, hf⟩

theorem Follows.have {name size hist csv p q} {os : List RecvOut} (h : Follows name size hist csv p os q) {o : RecvOut} (ho : o ∈ os)
    (hr : 0 < o.ret) : ∃ i e, p ≤ i ∧ hist[i]? = some e ∧ o.stamp = micros e.sec e.nsec := by
  obtain ⟨oa, ob, rfl⟩ := List.append_of_mem ho
  obtain ⟨r, h1, h2⟩ := Follows.split oa h
  obtain ⟨n, e, _, _, g2, g3, _⟩ := h2.got hr
  exact ⟨r + n, e, by have := h1.le; omega, g2, g3⟩

/-- The times of the entries from `p` on do not go back. -/
def TimeSorted (hist : List Entry) (p : Nat) : Prop :=
  ∀ i j x y, p ≤ i → i ≤ j → hist[i]? = some x → hist[j]? = some y → micros x.sec x.nsec ≤ micros y.sec y.nsec

theorem timeSorted_of {hist : List Entry} (p : Nat) (h : (hist.map fun e => micros e.sec e.nsec).Pairwise (· ≤ ·)) : TimeSorted hist p := by
  intro i j x y _ hij hx hy
  rcases Nat.lt_or_eq_of_le hij with hlt | rfl
  · obtain ⟨h1, h2⟩ := List.getElem?_eq_some_iff.1 hx
    obtain ⟨h3, h4⟩ := List.getElem?_eq_some_iff.1 hy
    have := List.pairwise_iff_getElem.1 h i j (by simpa using h1) (by simpa using h3) hlt
    simpa [h2, h4] using this
  · rw [hx, Option.some.injEq] at hy
    rw [hy]
    exact Nat.le_refl _

/-! ## The property -/

/-- C137. A viewer of several devices that follows them (no `-d`, no tail), any calls up
to a first moment (`s1`) and any further calls. `w1` are the frames handled before that
moment and `w2` those after it; what is output are these frames with the banners. Take
any frame `e` of `w2` and any log device of the driver that nobody flushes: of the
entries committed to that device at the first moment, either all were dealt with before
`e`, or the next one that was delivered is not older than `e`. -/
theorem C137_next {W : World σ} {marks : List Nat} {dump : Bool} {l1 l2 : List (Nat × Int)} {s s1 s2 : σ} {c1 c2 : Ctx}
    (hc1 : calls W dump l1 (openCtx marks 0) s = .ok (c1, s1)) (hc2 : calls W false l2 c1 s1 = .ok (c2, s2)) :
    ∃ w1 w2 : List Frame, c1.out <+: annotate (decide (marks.length > 1)) [] w1 ∧ c2.out <+: annotate (decide (marks.length > 1)) [] (w1 ++ w2) ∧
      (c1.outErr = false → c1.out = annotate (decide (marks.length > 1)) [] w1) ∧
      (c2.outErr = false → c2.out = annotate (decide (marks.length > 1)) [] (w1 ++ w2)) ∧
      ∀ {d fid : Nat} {euid : UInt32} {csv : Bool} {sh : RecvOut → Bool} {num : Nat → Nat} {tr : σ → List (Op × Out)} {os : σ → List RecvOut},
      Drives W d fid euid csv sh num tr os → d < marks.length → os s = [] → ∀ {name k buf ops sys}, Run name k buf ops sys (tr s2) →
      ∀ {p : Nat}, At name (tr s) fid p → (∀ t, tr s2 = tr s ++ t → NoFlush t) →
      tr s1 <+: tr s2 ∧ (∃ pend, (w1 ++ w2).filter (fun f => f.dev == d) ++ pend = framesOf d sh num (os s2)) ∧
      ∀ x e y, w2 = x ++ e :: y → ∃ oa ob q Q, os s2 = oa ++ ob ∧ framesOf d sh num oa = (w1 ++ x).filter (fun f => f.dev == d) ∧
        Follows name (2 ^ k) (obs name (tr s2)).hist csv p oa q ∧ Follows name (2 ^ k) (obs name (tr s2)).hist csv q ob Q ∧
        ((obs name (tr s1)).hist.length ≤ q ∨ ∃ g ob', ob = g :: ob' ∧ 0 < g.ret ∧ e.stamp ≤ g.stamp) := by
  have hsim1 := (sim_logged W).calls dump l1 (openCtx marks 0) (s := s) (t := (s, [])) rfl
  obtain ⟨d1, t1, w1, e1, F⟩ := FInv.calls W dump l1 (s := (s, [])) (openCtx_finv marks)
  rw [hc1, e1] at hsim1
  obtain ⟨hx1, hx2⟩ := hsim1
  have hx1 : c1 = d1 := hx1
  have hx2 : t1.1 = s1 := hx2
  subst hx1
  obtain ⟨d2, t2, w, e2, F2, T, P⟩ := turn_calls W l2 F
  have hsim2 := (sim_logged W).calls false l2 c1 (s := s1) (t := t1) hx2
  rw [hc2, e2] at hsim2
  obtain ⟨hy1, hy2⟩ := hsim2
  have hy1 : c2 = d2 := hy1
  have hy2 : t2.1 = s2 := hy2
  subst hy1
  obtain ⟨w2, rfl⟩ := P
  refine ⟨w1, w2, F.out.pre, F2.out.pre, fun h => (F.out.ok h).1, fun h => (F2.out.ok h).1, ?_⟩
  intro d fid euid csv sh num tr os D hd hos name k buf ops sys hrun p ha hnf
  have hafter := (D.after s).calls (s := (s, [])) ⟨Later.refl _, by rw [hos]; rfl⟩ e1
  have O : TurnInv d fid euid csv sh num tr os s s1 w1 t1 w1 := by
    refine ⟨hafter, by rw [hx2]; exact Later.refl _, List.prefix_refl _, ?_⟩
    intro x e y h
    have := congrArg List.length h
    simp at this
  have O2 := T _ _ _ _ _ _ _ _ _ _ _ D hd hos O
  obtain ⟨u, v, u1, u2, u3⟩ := O2.since.1
  rw [hy2] at u1 u2
  rw [hos, List.nil_append] at u2
  have hn := hnf u u1
  rw [u1] at hrun
  obtain ⟨Q, _, _, hfol⟩ := C85_session hrun ha hn u3
  rw [← u1, ← u2] at hfol
  refine ⟨?_, ⟨c2.pendQ.filter (fun f => f.dev == d), ?_⟩, ?_⟩
  · obtain ⟨v', _, h, -, -⟩ := O2.later
    have h : tr t2.1 = tr s1 ++ v' := h
    rw [hy2] at h
    rw [h]
    exact List.prefix_append _ _
  · rw [F2.split d, O2.since.2, hy2]
  · intro x e y hw
    subst hw
    obtain ⟨oa, ob, g1, g2, g3⟩ := O2.past x e y (by simp)
    rw [hy2] at g1
    rw [g1] at hfol
    rcases g3 with ⟨ta, tb, a1, a2, a4, a3⟩ | ⟨g, ob', rfl, b2, b3⟩
    · rw [hy2, u1] at a1
      have a1 := List.append_cancel_left a1
      have hr4 := hrun
      rw [a1, ← List.append_assoc] at hr4
      obtain ⟨y3, y4, hr3, hst⟩ := hr4.cut_step
      obtain ⟨q1, z1, z2⟩ := viewing_follows a2 hr3 (fun x hx => hn x (by rw [a1]; simp [hx])) ha
      have hq1 := at_end hr3 z1 hst (.inr (.inl ⟨_, rfl, rfl⟩))
      have hmono := (obs_append_mono name (tr s ++ ta) ((.poll fid euid, .poll false) :: tb)).1
      rw [show tr s ++ ta ++ (Op.poll fid euid, Out.poll false) :: tb = tr s2 by rw [u1, a1]; simp] at hmono
      have hr5 := hrun
      rw [a1, show tr s ++ (ta ++ (Op.poll fid euid, Out.poll false) :: tb) =
        tr s ++ ta ++ [(.poll fid euid, .poll false)] ++ tb by simp] at hr5
      obtain ⟨q2, _, b3⟩ := viewing_follows a4 hr5 (fun x hx => hn x (by rw [a1]; simp [hx]))
        (z1.step (q := (.poll fid euid, .poll false)) (by simp) (.inr (.inr (.inr (.inl ⟨_, rfl⟩)))))
      rw [show tr s ++ ta ++ [(Op.poll fid euid, Out.poll false)] ++ tb = tr s2 by rw [u1, a1]; simp] at b3
      refine ⟨oa, ob, q1, q2, g1, g2.symm, z2.mono hmono, b3, .inl ?_⟩
      rw [hq1]
      obtain ⟨v', hv'⟩ := a3
      rw [← hv']
      exact (obs_append_mono name (tr s1) v').1.length_le
    · obtain ⟨q, f1, f2⟩ := Follows.split oa hfol
      exact ⟨oa, g :: ob', q, Q, g1, g2.symm, f1, f2, .inr ⟨g, ob', rfl, b2, b3⟩⟩

/-- C137, if the times in the log of the device do not go back: every entry committed to
the device at the first moment was dealt with before `e` (those before `q`: shown, or
lost, or not to be shown), or was lost (`n` of them), or is not older than `e`. -/
theorem C137_order {W : World σ} {marks : List Nat} {dump : Bool} {l1 l2 : List (Nat × Int)} {s s1 s2 : σ} {c1 c2 : Ctx}
    (hc1 : calls W dump l1 (openCtx marks 0) s = .ok (c1, s1)) (hc2 : calls W false l2 c1 s1 = .ok (c2, s2)) :
    ∃ w1 w2 : List Frame, (c1.outErr = false → c1.out = annotate (decide (marks.length > 1)) [] w1) ∧
      (c2.outErr = false → c2.out = annotate (decide (marks.length > 1)) [] (w1 ++ w2)) ∧
      ∀ {d fid : Nat} {euid : UInt32} {csv : Bool} {sh : RecvOut → Bool} {num : Nat → Nat} {tr : σ → List (Op × Out)} {os : σ → List RecvOut},
      Drives W d fid euid csv sh num tr os → d < marks.length → os s = [] → ∀ {name k buf ops sys}, Run name k buf ops sys (tr s2) →
      ∀ {p : Nat}, At name (tr s) fid p → (∀ t, tr s2 = tr s ++ t → NoFlush t) → TimeSorted (obs name (tr s2)).hist p →
      ∀ x e y, w2 = x ++ e :: y → ∃ oa q n, oa <+: os s2 ∧ framesOf d sh num oa = (w1 ++ x).filter (fun f => f.dev == d) ∧
        Follows name (2 ^ k) (obs name (tr s2)).hist csv p oa q ∧ (n = 0 ∨ Old (2 ^ k) (obs name (tr s2)).hist q n) ∧
        ∀ j ent, q + n ≤ j → (obs name (tr s1)).hist[j]? = some ent → e.stamp ≤ micros ent.sec ent.nsec := by
  obtain ⟨w1, w2, -, -, h1, h2, H⟩ := C137_next hc1 hc2
  refine ⟨w1, w2, h1, h2, ?_⟩
  intro d fid euid csv sh num tr os D hd hos name k buf ops sys hrun p ha hnf hsort x e y hw
  obtain ⟨⟨v, hv⟩, -, h3⟩ := H D hd hos hrun ha hnf
  obtain ⟨oa, ob, q, Q, g1, g2, g3, g4, g5⟩ := h3 x e y hw
  have hlater := (obs_append_mono name (tr s1) v).1
  rw [hv] at hlater
  rcases g5 with g5 | ⟨g, ob', rfl, g6, g7⟩
  · refine ⟨oa, q, 0, ⟨ob, g1.symm⟩, g2, g3, .inl rfl, fun j ent hj he => ?_⟩
    obtain ⟨hlt, -⟩ := List.getElem?_eq_some_iff.1 he
    omega
  · obtain ⟨n, ent0, r, k1, k2, k3, _, _⟩ := g4.got g6
    refine ⟨oa, q, n, ⟨_, g1.symm⟩, g2, g3, k1, fun j ent hj he => ?_⟩
    have := hsort (q + n) j ent0 ent (by have := g3.le; omega) hj k2 (prefix_get hlater he)
    omega

/-- C137, seen from an entry that is shown late: if a frame `f` of the device is handled
after a frame `e` that is not as old (and the times in the log of the device do not go back), its
entry was not yet committed at the first moment, whatever moment before the turn of `e`
that is. -/
theorem C137_overtaken {W : World σ} {marks : List Nat} {dump : Bool} {l1 l2 : List (Nat × Int)} {s s1 s2 : σ} {c1 c2 : Ctx}
    (hc1 : calls W dump l1 (openCtx marks 0) s = .ok (c1, s1)) (hc2 : calls W false l2 c1 s1 = .ok (c2, s2)) :
    ∃ w1 w2 : List Frame, (c1.outErr = false → c1.out = annotate (decide (marks.length > 1)) [] w1) ∧
      (c2.outErr = false → c2.out = annotate (decide (marks.length > 1)) [] (w1 ++ w2)) ∧
      ∀ {d fid : Nat} {euid : UInt32} {csv : Bool} {sh : RecvOut → Bool} {num : Nat → Nat} {tr : σ → List (Op × Out)} {os : σ → List RecvOut},
      Drives W d fid euid csv sh num tr os → d < marks.length → os s = [] → ∀ {name k buf ops sys}, Run name k buf ops sys (tr s2) →
      ∀ {p : Nat}, At name (tr s) fid p → (∀ t, tr s2 = tr s ++ t → NoFlush t) → TimeSorted (obs name (tr s2)).hist p →
      ∀ x e y f z, w2 = x ++ e :: (y ++ f :: z) → f.dev = d → f.stamp < e.stamp →
        ∃ oa o q, oa ++ [o] <+: os s2 ∧ framesOf d sh num oa = (w1 ++ x ++ e :: y).filter (fun f => f.dev == d) ∧ 0 < o.ret ∧ o.stamp = f.stamp ∧
          Follows name (2 ^ k) (obs name (tr s2)).hist csv p oa q ∧ (obs name (tr s1)).hist.length ≤ q := by
  obtain ⟨w1, w2, -, -, h1, h2, H⟩ := C137_next hc1 hc2
  refine ⟨w1, w2, h1, h2, ?_⟩
  intro d fid euid csv sh num tr os D hd hos name k buf ops sys hrun p ha hnf hsort x e y f z hw hf hlt
  obtain ⟨-, ⟨pend, hp⟩, h3⟩ := H D hd hos hrun ha hnf
  obtain ⟨oa, ob, q, Q, g1, g2, g3, g4, g5⟩ := h3 x e _ hw
  rw [hw, show w1 ++ (x ++ e :: (y ++ f :: z)) = (w1 ++ x ++ e :: y) ++ f :: z by simp, List.filter_append,
    List.filter_cons_of_pos (by simpa using hf), List.append_assoc, List.cons_append] at hp
  obtain ⟨oa', o, ob', k1, k2, k3, k4⟩ := framesOf_mid d sh num hp.symm
  obtain ⟨mid, hmid⟩ : oa <+: oa' := by
    rcases List.prefix_or_prefix_of_prefix (l₃ := os s2) ⟨ob, g1.symm⟩ ⟨o :: ob', k1.symm⟩ with h | ⟨u, hu⟩
    · exact h
    · cases u with
      | nil => rw [← hu, List.append_nil]; exact List.prefix_refl _
      | cons o1 u =>
        exfalso
        rw [g1, ← hu, List.append_assoc] at k1
        have k1 := List.append_cancel_left k1
        rw [List.cons_append, List.cons.injEq] at k1
        obtain ⟨rfl, _⟩ := k1
        have h1 := framesOf_append_le d sh num (oa' ++ [o1]) u
        rw [show oa' ++ [o1] ++ u = oa by rw [← hu]; simp, framesOf_snoc_got d sh num oa' k3, k2, g2, List.filter_append,
          List.length_append] at h1
        omega
  subst hmid
  rw [g1, List.append_assoc] at k1
  have k1' := List.append_cancel_left k1
  rw [k1'] at g4
  obtain ⟨q', f1, f2⟩ := Follows.split mid g4
  refine ⟨oa ++ mid, o, q', ⟨ob', by rw [g1, k1']; simp⟩, k2, k3, k4, g3.append f1, ?_⟩
  rcases g5 with g5 | ⟨g, ob1, g6, g7, g8⟩
  · have := f1.le
    omega
  · exfalso
    rw [k1'] at g6
    obtain ⟨n, ent, r, _, j2, j3, j4, j5⟩ := Follows.got (g6 ▸ g4) g7
    cases mid with
    | nil =>
      rw [List.nil_append, List.cons.injEq] at g6
      rw [g6.1] at k4
      omega
    | cons a mid =>
      rw [List.cons_append, List.cons.injEq] at g6
      rw [← g6.2] at j5
      obtain ⟨i, ent', i1, i2, i3⟩ := j5.have (o := o) (by simp) k3
      have := hsort (q + n) i ent ent' (by have := g3.le; omega) (by omega) j2 i2
      omega

end

/-! ## The world of several drivers -/

theorem calls_append (W : World σ) (dump : Bool) (l2 : List (Nat × Int)) (l1 : List (Nat × Int)) : ∀ (c : Ctx) (s : σ),
    calls W dump (l1 ++ l2) c s = (calls W dump l1 c s).bind fun x => calls W dump l2 x.1 x.2 := by
  induction l1 with
  | nil => intro c s; rfl
  | cons x l ih =>
    intro c s
    obtain ⟨fuel, max⟩ := x
    show (processLogs W dump max fuel c s 0).bind (fun x => calls W dump (l ++ l2) x.1 x.2.1) =
      ((processLogs W dump max fuel c s 0).bind fun x => calls W dump l x.1 x.2.1).bind fun x => calls W dump l2 x.1 x.2
    cases processLogs W dump max fuel c s 0 with
    | error e => rfl
    | ok y => exact ih y.1 y.2.1

/-- C137 for `N` devices of the driver, each in a state it can be in, with others using
them between any two operations of the viewer but not flushing them: any calls come to an
end, and if the logs are genuine and countable what they output are frames `w1` up to
the first moment `m` and then `w2`, and at the time of each frame `e` of `w2` every entry
committed to a device at the first moment (if the times in its log do not go back) was
dealt with, or lost, or is not older than `e`. -/
theorem C137_follow {N : Nat} {sh : Nat → RecvOut → Bool} {csv : Bool} {name : Nat → Bytes} {k : Nat → Nat} {buf : Nat → Nat → UInt8}
    (hk : ∀ d, d < N → 14 ≤ k d) (hname : ∀ d, d < N → (name d).length ≤ 89) {fid : Nat} {w : Nat → DW}
    (hreal : ∀ d, d < N → (w d).Real (name d) (k d) (buf d)) (hos : ∀ d, d < N → (w d).os = [])
    (henv : ∀ d, d < N → ∀ l ∈ (w d).env, ∀ g, .flush g ∉ l) {p : Nat → Nat} (ha : ∀ d, d < N → At (name d) (w d).tr fid (p d))
    {marks : List Nat} (hlen : marks.length = N) (l1 l2 : List (Nat × Int)) (euid : UInt32) (n : Nat) :
    ∃ c1 m c2 w', calls (fleet N fid euid csv sh n) false l1 (openCtx marks 0) w = .ok (c1, m) ∧
      calls (fleet N fid euid csv sh n) false l2 c1 m = .ok (c2, w') ∧
      ((∀ d, d < N → Genuine (obs (name d) (w' d).tr).hist ∧ (obs (name d) (w' d).tr).hist.length < 2147483648) →
      ∃ w1 w2, c1.out = annotate (decide (N > 1)) [] w1 ∧ c2.out = annotate (decide (N > 1)) [] (w1 ++ w2) ∧
        ∀ d, d < N → TimeSorted (obs (name d) (w' d).tr).hist (p d) →
        ∀ x e y, w2 = x ++ e :: y → ∃ oa q j, oa <+: (w' d).os ∧
          framesOf d (sh d) (callNum N d) oa = (w1 ++ x).filter (fun f => f.dev == d) ∧
          Follows (name d) (2 ^ k d) (obs (name d) (w' d).tr).hist csv (p d) oa q ∧
          (j = 0 ∨ Old (2 ^ k d) (obs (name d) (w' d).tr).hist q j) ∧
          ∀ i ent, q + j ≤ i → (obs (name d) (m d).tr).hist[i]? = some ent → e.stamp ≤ micros ent.sec ent.nsec) := by
  obtain ⟨c1, m, hc1, _⟩ := C35_frames (fleet N fid euid csv sh n) marks 0 false l1 w
  have hc1 : calls (fleet N fid euid csv sh n) false l1 (openCtx marks 0) w = .ok (c1, m) := hc1
  obtain ⟨c2, w', hc, _⟩ := C35_frames (fleet N fid euid csv sh n) marks 0 false (l1 ++ l2) w
  have hc : calls (fleet N fid euid csv sh n) false (l1 ++ l2) (openCtx marks 0) w = .ok (c2, w') := hc
  have hc2 : calls (fleet N fid euid csv sh n) false l2 c1 m = .ok (c2, w') := by
    rw [calls_append, hc1] at hc
    exact hc
  refine ⟨c1, m, c2, w', hc1, hc2, fun hg => ?_⟩
  obtain ⟨w1, w2, h1, h2, H⟩ := C137_order hc1 hc2
  rw [hlen] at h1 h2
  refine ⟨w1, w2, h1 (calls_outErr (fun _ _ => rfl) hc1), h2 (calls_outErr (fun _ _ => rfl) hc), fun d hd hsort => ?_⟩
  have hR := (fleet_keeps N fid euid csv sh n (d := d) (P := DW.Real (name d) (k d) (buf d))
    (fun h => ((h.others fid).exec rfl).1) (fun h => h.receive fid euid csv n) (fun h => h)).calls (hreal d hd) hc
  obtain ⟨ops, hrun⟩ := hR.run (hk d hd) (hname d hd) (hg d hd).1 (hg d hd).2
  refine H (C136_fleet N fid euid csv sh n hd) (by rw [hlen]; exact hd) (hos d hd) hrun (ha d hd) ?_ hsort
  intro t ht x hx g hg'
  have h1 := (fleet_keeps N fid euid csv sh n (d := d) (P := DW.Since (fun op => ∀ g, op ≠ .flush g) (w d).tr)
    (fun h => (h.others fid).exec (by simp)) (fun h => h.receive (by simp) (by simp) csv n) (fun h => h)).calls
    ⟨⟨[], by simp, nofun⟩, fun l hl op hop g e => henv d hd l hl g (e ▸ hop)⟩ hc
  obtain ⟨⟨u, h2, h3⟩, _⟩ := h1
  have : u = t := List.append_cancel_left (h2.symm.trans ht)
  subst this
  exact h3 x hx g (by rw [hg'])

/-! ## The order is not that of the times -/

/-- Two devices: the first has an entry of time 10 at once, the second an entry of time 5
that is committed after the first turn. -/
def lateWorld : World Nat where
  poll s a := (.ok fun i => a i && (i == 0 && s == 0 || i == 1 && s == 2), if s = 1 then 2 else s)
  recv _ i := if i = 0 then (.got 10 0 true 0, 1) else (.got 5 1 true 0, 3)
  output s _ := (true, s)

/-- That entries are shown in the order of their times while following is false. -/
theorem C137_neg_times : ∃ c s, calls lateWorld false [(3, 0)] (openCtx [0, 0] 0) 0 = .ok (c, s) ∧
    c.out = [.banner 0 10, .entry ⟨0, 10, 0, true⟩, .banner 1 5, .entry ⟨1, 5, 1, true⟩] := ⟨_, _, rfl, rfl⟩

end Verif.Ulogcat
