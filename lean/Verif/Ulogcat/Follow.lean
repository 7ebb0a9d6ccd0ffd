import Verif.Ulogcat.PropsCore

/-!
# What is printed is what was received (C59)

For every world, whatever arrives and when. The world is extended by a list of the
frames that `receive_entry` delivered.
-/
namespace Verif.Ulogcat

variable {σ : Type}

/-- The frames a receive result delivers for device `i`. -/
def Recv.frames (i : Nat) : Recv → List Frame
  | .got stamp id shown _ => [Frame.mk i stamp id shown]
  | _ => []

/-- The world together with the list of all frames received. -/
def World.logged (W : World σ) : World (σ × List Frame) where
  poll x a := ((W.poll x.1 a).1, (W.poll x.1 a).2, x.2)
  recv x i := ((W.recv x.1 i).1, (W.recv x.1 i).2, x.2 ++ (W.recv x.1 i).1.frames i)
  output x e := ((W.output x.1 e).1, (W.output x.1 e).2, x.2)

/-- What was output belongs to the frames `w`; it is all of it unless output failed. -/
structure OutG (n : Nat) (c : Ctx) (w : List Frame) : Prop where
  pre : c.out <+: annotate (decide (n > 1)) [] w
  ok : c.outErr = false → c.out = annotate (decide (n > 1)) [] w ∧
    (n > 1 → ∀ i, i < n → (c.printedOf i = true ↔ i ∈ w.map Frame.dev))

theorem OutG.congr {n : Nat} {c c' : Ctx} {w : List Frame} (O : OutG n c w) (h1 : c'.outErr = c.outErr)
    (h2 : c'.out = c.out) (h3 : ∀ i, c'.printedOf i = c.printedOf i) : OutG n c' w := by
  refine ⟨h2 ▸ O.pre, ?_⟩
  intro h
  rw [h1] at h
  refine ⟨h2.trans (O.ok h).1, ?_⟩
  intro hn i hi
  rw [h3]
  exact (O.ok h).2 hn i hi

theorem output_cases (W : World σ) (c : Ctx) (s : σ) (e : OutEv) :
    (c.outErr = true ∧ (output W c s e).1 = c) ∨
    (c.outErr = false ∧ ((output W c s e).1 = { c with out := c.out ++ [e] } ∨ (output W c s e).1 = { c with outErr := true })) := by
  unfold output
  cases h : c.outErr
  · right
    refine ⟨rfl, ?_⟩
    rw [if_neg (by simp)]
    split
    · left; rfl
    · right; rfl
  · left; simp

theorem flushBanner_out (W : World σ) {n : Nat} {c : Ctx} {w : List Frame} (s : σ) (f : Frame) (d : Dev) (O : OutG n c w)
    (hl : c.devs.length = n) (hf : f.dev < n) (hd : c.devs[f.dev]? = some d) :
    let B : List OutEv := if decide (n > 1) && !(w.map Frame.dev ++ []).contains f.dev then [.banner f.dev f.stamp] else []
    (flushBanner W c s f d).1.out <+: annotate (decide (n > 1)) [] w ++ B ∧
    ((flushBanner W c s f d).1.outErr = false →
      (flushBanner W c s f d).1.out = annotate (decide (n > 1)) [] w ++ B ∧
      (n > 1 → ∀ i, i < n → ((flushBanner W c s f d).1.printedOf i = true ↔ i ∈ (w ++ [f]).map Frame.dev))) := by
  intro B
  have hpd : c.printedOf f.dev = d.printed := by simp [Ctx.printedOf, hd]
  have hpre : c.out <+: annotate (decide (n > 1)) [] w ++ B := O.pre.trans (List.prefix_append _ _)
  unfold flushBanner
  by_cases hc : (!d.printed && decide (c.devs.length > 1)) = true
  · rw [if_pos hc]
    rw [hl] at hc
    simp only [Bool.and_eq_true, Bool.not_eq_true', decide_eq_true_eq] at hc
    dsimp only
    rcases output_cases W c s (.banner f.dev f.stamp) with ⟨h1, h2⟩ | ⟨h1, h2 | h2⟩
    · rw [h2]
      refine ⟨hpre, ?_⟩
      intro h
      have h : c.outErr = false := h
      rw [h1] at h; cases h
    · rw [h2]
      have hk := O.ok h1
      have hnp : ¬ f.dev ∈ w.map Frame.dev := by
        rw [← hk.2 hc.2 _ hf, hpd, hc.1]; simp
      have hB : B = [.banner f.dev f.stamp] := by
        have : (w.map Frame.dev ++ []).contains f.dev = false := by simpa using hnp
        show (if _ then _ else _) = _
        rw [this, if_pos (by simpa using hc.2)]
      have ho : c.out ++ [.banner f.dev f.stamp] = annotate (decide (n > 1)) [] w ++ B := by rw [hB, hk.1]
      refine ⟨?_, ?_⟩
      · show c.out ++ [.banner f.dev f.stamp] <+: _
        rw [ho]; exact List.prefix_refl _
      · intro _
        refine ⟨ho, ?_⟩
        intro hn i hi
        have hp := printedOf_setPrinted ({ c with out := c.out ++ [.banner f.dev f.stamp] } : Ctx) f.dev i (by show f.dev < c.devs.length; omega)
        rw [hp]
        by_cases hfi : f.dev = i
        · simp [hfi]
        · simp only [hfi, if_false]
          rw [show Ctx.printedOf ({ c with out := c.out ++ [.banner f.dev f.stamp] } : Ctx) i = c.printedOf i from rfl, hk.2 hn i hi]
          simp only [List.map_append, List.mem_append, List.map_cons, List.map_nil, List.mem_singleton]
          exact ⟨Or.inl, fun h => h.resolve_right fun e => hfi e.symm⟩
    · rw [h2]
      refine ⟨hpre, ?_⟩
      intro h
      have h : true = false := h
      cases h
  · rw [if_neg hc]
    refine ⟨hpre, ?_⟩
    intro h
    have hk := O.ok h
    rw [hl] at hc
    have hcond : n > 1 → f.dev ∈ w.map Frame.dev := by
      intro hn
      rw [← hk.2 hn _ hf, hpd]
      cases hp : d.printed
      · exact absurd (by simp [hp, hn]) hc
      · rfl
    have hB : B = [] := by
      show (if _ then _ else _) = _
      by_cases hn : n > 1
      · have : (w.map Frame.dev ++ []).contains f.dev = true := by simpa using hcond hn
        rw [this, if_neg (by simp)]
      · rw [if_neg (by simp [hn])]
    refine ⟨by rw [hB, List.append_nil]; exact hk.1, ?_⟩
    intro hn i hi
    show c.printedOf i = true ↔ _
    rw [hk.2 hn i hi]
    simp only [List.map_append, List.mem_append, List.map_cons, List.map_nil, List.mem_singleton]
    exact ⟨Or.inl, fun h => h.elim id fun e => e ▸ hcond hn⟩

theorem flushFrame_out (W : World σ) {n : Nat} {c : Ctx} {w : List Frame} (s : σ) (f : Frame) (O : OutG n c w)
    (hl : c.devs.length = n) (hf : f.dev < n) {c' : Ctx} {s' : σ} (h : flushFrame W c s f = .ok (c', s')) :
    OutG n c' (w ++ [f]) := by
  obtain ⟨d, hd⟩ : ∃ d, c.devs[f.dev]? = some d := ⟨c.devs[f.dev], by simp [hl, hf]⟩
  obtain ⟨b1, b2⟩ := flushBanner_out W s f d O hl hf hd
  unfold flushFrame at h
  rw [hd] at h
  simp only [Except.ok.injEq] at h
  have hc : c' = (flushEntry W (flushBanner W c s f d) f).1 := by rw [h]
  have hsn := annotate_snoc (decide (n > 1)) [] w f
  generalize (flushBanner W c s f d) = x at b1 b2 hc
  subst hc
  unfold flushEntry
  by_cases hs : f.shown = true
  · rw [if_pos hs]
    rw [if_pos hs, ← List.append_assoc] at hsn
    rcases output_cases W x.1 x.2 (.entry f) with ⟨h1, h2⟩ | ⟨h1, h2 | h2⟩
    · rw [h2]
      refine ⟨by rw [hsn]; exact b1.trans (List.prefix_append _ _), ?_⟩
      intro h; rw [h1] at h; cases h
    · rw [h2]
      obtain ⟨o1, o2⟩ := b2 h1
      have : x.1.out ++ [.entry f] = annotate (decide (n > 1)) [] (w ++ [f]) := by rw [hsn, o1]
      refine ⟨?_, fun _ => ⟨this, ?_⟩⟩
      · show x.1.out ++ [.entry f] <+: _
        rw [this]; exact List.prefix_refl _
      · exact o2
    · rw [h2]
      refine ⟨by rw [hsn]; exact b1.trans (List.prefix_append _ _), ?_⟩
      intro h
      have h : true = false := h
      cases h
  · rw [if_neg hs]
    rw [if_neg hs, List.append_nil] at hsn
    rw [← hsn] at b1 b2
    exact ⟨b1, b2⟩

/-! ## The invariant -/

structure FInv (n : Nat) (c : Ctx) (l w : List Frame) : Prop where
  inv : Inv 0 n c
  tl : c.tail = 0
  out : OutG n c w
  split : ∀ d, w.filter (fun f => f.dev == d) ++ c.pendQ.filter (fun f => f.dev == d) = l.filter (fun f => f.dev == d)
  lt : ∀ f ∈ l, f.dev < n

theorem pop_filter (l : List Frame) (f : Frame) (r : List Frame) (h : popOldest l = some (f, r))
    (nd : (l.map Frame.dev).Nodup) (w : List Frame) (d : Nat) :
    (w ++ [f]).filter (fun f => f.dev == d) ++ r.filter (fun f => f.dev == d) =
      w.filter (fun f => f.dev == d) ++ l.filter (fun f => f.dev == d) := by
  obtain ⟨a, b, hab, hr, -, -⟩ := popOldest_some _ _ _ h
  obtain ⟨-, -, -, -, p5⟩ := pop_dev _ _ _ h nd
  rw [List.filter_append, List.append_assoc]
  congr 1
  by_cases hd : f.dev = d
  · have hnd : ∀ g ∈ r, g.dev ≠ d := by
      intro g hg e
      exact ((p5 d).1 (List.mem_map.2 ⟨g, hg, e⟩)).2 hd.symm
    have h1 : r.filter (fun f => f.dev == d) = [] := by
      rw [List.filter_eq_nil_iff]
      intro g hg e
      exact hnd g hg (by simpa using e)
    rw [h1, hab]
    have h2 := h1
    rw [hr, List.filter_append] at h2
    obtain ⟨ha, hb⟩ := List.append_eq_nil_iff.1 h2
    simp [hd, ha, hb]
  · rw [hab, hr]
    simp [hd]

/-- Output does not touch the list of frames received. -/
theorem output_log (W : World σ) (c : Ctx) (s : σ × List Frame) (e : OutEv) : (output W.logged c s e).2.2 = s.2 := by
  unfold output
  split
  · rfl
  · split
    all_goals
      rename_i h
      have := congrArg (fun x => x.2.2) h
      exact this.symm

theorem flushFrame_log (W : World σ) (c : Ctx) (s : σ × List Frame) (f : Frame) {c' : Ctx} {s' : σ × List Frame}
    (h : flushFrame W.logged c s f = .ok (c', s')) : s'.2 = s.2 := by
  unfold flushFrame at h
  split at h
  · cases h
  · rename_i d hd
    simp only [Except.ok.injEq] at h
    have hb : (flushBanner W.logged c s f d).2.2 = s.2 := by
      unfold flushBanner
      split
      · exact output_log W c s _
      · rfl
    have : s' = (flushEntry W.logged (flushBanner W.logged c s f d) f).2 := by rw [h]
    rw [this, ← hb]
    unfold flushEntry
    split
    · exact output_log W _ _ _
    · rfl

theorem FInv.pulled (W : World σ) {n : Nat} {c : Ctx} {s : σ × List Frame} {w : List Frame} (F : FInv n c s.2 w) :
    ∃ c' s' w', pullFrame W.logged c s = .ok (c', s') ∧ FInv n c' s'.2 w' ∧
      (w' = w ∨ ∃ f r, popOldest c.pendQ = some (f, r) ∧ w' = w ++ [f]) := by
  obtain ⟨c', s', e1, I', e3⟩ := pullFrame_inv W.logged s F.inv
  have e1' := e1
  unfold pullFrame at e1
  cases hpop : popOldest c.pendQ with
  | none =>
    rw [hpop] at e1
    simp only [Except.ok.injEq, Prod.mk.injEq] at e1
    refine ⟨c', s', w, e1', ?_, .inl rfl⟩
    rw [← e1.1, ← e1.2]
    exact F
  | some fr =>
    obtain ⟨f, r⟩ := fr
    rw [hpop] at e1
    dsimp only at e1
    obtain ⟨p1, p2, p3, p4, p5⟩ := pop_dev _ _ _ hpop F.inv.nd
    rw [if_neg (show ¬ (c.upd f.dev fun d => { d with pending := false }).tail > 0 by
      show ¬ c.tail > 0
      rw [F.tl]; decide)] at e1
    obtain ⟨c2, s2, f1, f2⟩ := flushFrame_core W.logged
      ({ c.upd f.dev fun d => { d with pending := false } with pendQ := r, pending := c.pending - 1 } : Ctx) s f
      (by show f.dev < (c.upd f.dev _).devs.length; rw [upd_len, F.inv.len]; exact F.inv.plt f p3)
    rw [f1] at e1
    dsimp only [bind, Except.bind] at e1
    simp only [Except.ok.injEq, Prod.mk.injEq] at e1
    obtain ⟨e1, rfl⟩ := e1
    subst e1
    have hlog := flushFrame_log W _ _ _ f1
    have hO := flushFrame_out W.logged (n := n) (w := w) s f
      (F.out.congr (c' := { c.upd f.dev fun d => { d with pending := false } with pendQ := r, pending := c.pending - 1 }) rfl rfl
        (fun j => printedOf_upd c f.dev j _ (fun _ => rfl))) ((upd_len _ _ _).trans F.inv.len) (F.inv.plt f p3) f1
    simp only [Ctx.core, Ctx.mk.injEq, true_and] at f2
    obtain ⟨h1, h2, h3, h4, h5, h6, h7, h8, h9⟩ := f2
    refine ⟨_, s2, w ++ [f], e1', ⟨I', ?_, hO.congr rfl rfl (fun _ => rfl), ?_, ?_⟩, .inr ⟨f, r, rfl, rfl⟩⟩
    · exact h7.trans F.tl
    · intro d
      show _ ++ c2.pendQ.filter _ = _
      rw [h3, hlog]
      rw [← F.split d]
      exact pop_filter _ _ _ hpop F.inv.nd w d
    · rw [hlog]; exact F.lt

theorem FInv.pull (W : World σ) {n : Nat} {c : Ctx} {s : σ × List Frame} {w : List Frame} (F : FInv n c s.2 w) :
    ∃ c' s' w', pullFrame W.logged c s = .ok (c', s') ∧ FInv n c' s'.2 w' := by
  obtain ⟨c', s', w', h1, h2, _⟩ := F.pulled W
  exact ⟨c', s', w', h1, h2⟩

theorem FInv.flush (W : World σ) {n : Nat} {c : Ctx} {s : σ × List Frame} {w : List Frame} (F : FInv n c s.2 w)
    (hp : 0 < c.pending) :
    ∃ c' s' w', flushPendingFrame W.logged false c s = .ok (c', s') ∧ FInv n c' s'.2 w' ∧ c'.pending = c.pending - 1 := by
  obtain ⟨c', s', e1, I', e3, e4, -, -⟩ := flushPendingFrame_inv W.logged false s F.inv hp
  have e1' := e1
  unfold flushPendingFrame at e1
  rw [if_pos hp] at e1
  cases hpop : popOldest c.pendQ with
  | none =>
    have := F.inv.pc
    rw [popOldest_none] at hpop
    rw [hpop] at this
    simp at this
    omega
  | some fr =>
    obtain ⟨f, r⟩ := fr
    rw [hpop] at e1
    dsimp only at e1
    obtain ⟨p1, p2, p3, p4, p5⟩ := pop_dev _ _ _ hpop F.inv.nd
    obtain ⟨c2, s2, f1, f2⟩ := flushFrame_core W.logged c s f (by rw [F.inv.len]; exact F.inv.plt f p3)
    have hu : flushUnless W.logged false c s f = .ok (c2, s2) := f1
    rw [hu] at e1
    dsimp only [bind, Except.bind] at e1
    simp only [Except.ok.injEq, Prod.mk.injEq] at e1
    obtain ⟨e1, rfl⟩ := e1
    subst e1
    have hlog := flushFrame_log W _ _ _ f1
    have hO := flushFrame_out W.logged (n := n) (w := w) s f F.out F.inv.len (F.inv.plt f p3) f1
    refine ⟨_, s2, w ++ [f], e1', ⟨I', e3.trans F.tl, ?_, ?_, by rw [hlog]; exact F.lt⟩, e4⟩
    · exact hO.congr rfl rfl (fun j => printedOf_upd c2 f.dev j _ (fun _ => rfl))
    · intro d
      rw [hlog, ← F.split d]
      exact pop_filter _ _ _ hpop F.inv.nd w d

theorem FInv.flushQueue (W : World σ) {n : Nat} (k : Nat) {c : Ctx} {s : σ × List Frame} {w : List Frame} (F : FInv n c s.2 w)
    (hk : c.pending ≤ k) :
    ∃ c' s' w', flushPendingQueue W.logged k c s = .ok (c', s') ∧ FInv n c' s'.2 w' := by
  induction k generalizing c s w with
  | zero => exact ⟨c, s, w, by simp [flushPendingQueue, show ¬ c.pending > 0 by omega], F⟩
  | succ k ih =>
    by_cases hr : c.pending > 0
    · obtain ⟨c1, s1, w1, e1, F1, e2⟩ := F.flush W hr
      obtain ⟨c2, s2, w2, f1, F2⟩ := ih F1 (by omega)
      refine ⟨c2, s2, w2, ?_, F2⟩
      simp only [flushPendingQueue, hr, if_true, e1]
      exact f1
    · exact ⟨c, s, w, by simp [flushPendingQueue, hr], F⟩

theorem FInv.got {n : Nat} {c : Ctx} {l w : List Frame} (F : FInv n c l w) (f : Frame) (dec : Nat) (hf : f.dev < n)
    (hp : c.isPending f.dev = false) : FInv n (c.got f dec) (l ++ [f]) w := by
  refine ⟨F.inv.got f dec hf hp, F.tl, F.out.congr rfl rfl (fun j => printedOf_upd _ _ _ _ (fun _ => rfl)), ?_, ?_⟩
  · intro d
    show _ ++ (c.pendQ ++ [f]).filter _ = _
    rw [List.filter_append, List.filter_append, ← List.append_assoc, F.split d]
  · intro g hg
    rcases List.mem_append.1 hg with hg | hg
    · exact F.lt g hg
    · rw [List.mem_singleton.1 hg]; exact hf

theorem FInv.read (W : World σ) {n : Nat} (asked ready : Nat → Bool) (is : List Nat) (nd : is.Nodup)
    {c : Ctx} {s : σ × List Frame} {w : List Frame} (m : Int) (F : FInv n c s.2 w)
    (ha : ∀ i ∈ is, asked i = true → i < n ∧ c.isPending i = false) :
    FInv n (readDevs W.logged asked ready is c s m).1 (readDevs W.logged asked ready is c s m).2.1.2 w := by
  induction is generalizing c s m with
  | nil => exact F
  | cons i is ih =>
    have nd' := List.nodup_cons.1 nd
    rw [readDevs_cons]
    split
    · split
      · refine ih nd'.2 m ?_ ?_
        · exact ⟨F.inv.unready i, F.tl, F.out.congr rfl rfl (fun j => printedOf_upd _ _ _ _ unready_printed), F.split, F.lt⟩
        · intro j hj hja
          rw [isPending_unready]
          exact ha j (List.mem_cons_of_mem _ hj) hja
      · exact ih nd'.2 m F fun j hj hja => ha j (List.mem_cons_of_mem _ hj) hja
    · rename_i hne
      have hai : asked i = true := by
        cases h : asked i
        · simp [h] at hne
        · rfl
      have hi := ha i (by simp) hai
      have hroom := room F.inv hi.1 hi.2
      rw [if_neg (by omega)]
      split
      · rename_i s' h
        have hs : s'.2 = s.2 := by
          have h1 := congrArg (fun x => x.1) h
          have h2 := congrArg (fun x => x.2.2) h
          have h1 : (W.recv s.1 i).1 = .err := h1
          have h2 : s.2 ++ (W.recv s.1 i).1.frames i = s'.2 := h2
          rw [h1] at h2
          simpa [Recv.frames] using h2.symm
        show FInv n c s'.2 w
        rw [hs]; exact F
      · rename_i s' h
        have hs : s'.2 = s.2 := by
          have h1 := congrArg (fun x => x.1) h
          have h2 := congrArg (fun x => x.2.2) h
          have h1 : (W.recv s.1 i).1 = .again := h1
          have h2 : s.2 ++ (W.recv s.1 i).1.frames i = s'.2 := h2
          rw [h1] at h2
          simpa [Recv.frames] using h2.symm
        show FInv n c s'.2 w
        rw [hs]; exact F
      · rename_i stamp id shown dec s' h
        have hs : s'.2 = s.2 ++ [Frame.mk i stamp id shown] := by
          have h1 := congrArg (fun x => x.1) h
          have h2 := congrArg (fun x => x.2.2) h
          have h1 : (W.recv s.1 i).1 = .got stamp id shown dec := h1
          have h2 : s.2 ++ (W.recv s.1 i).1.frames i = s'.2 := h2
          rw [h1] at h2
          simpa [Recv.frames] using h2.symm
        refine ih nd'.2 _ (by rw [hs]; exact F.got (Frame.mk i stamp id shown) dec hi.1 hi.2) ?_
        intro j hj hja
        have hj2 := ha j (List.mem_cons_of_mem _ hj) hja
        refine ⟨hj2.1, ?_⟩
        rw [isPending_got _ _ _ (by rw [F.inv.len]; exact hi.1), if_neg]
        · exact hj2.2
        · intro e
          have e : i = j := e
          exact nd'.1 (e ▸ hj)

theorem FInv.pass (W : World σ) {n : Nat} {c : Ctx} {s : σ × List Frame} {w : List Frame} (F : FInv n c s.2 w) :
    ∃ c' s' r w', processDevices W.logged c s = .ok (c', s', r) ∧ FInv n c' s'.2 w' := by
  rw [processDevices_eq]
  have hs : (W.logged.poll s c.asked).2.2 = s.2 := rfl
  split
  · rename_i s1 h
    rw [h] at hs
    exact ⟨_, _, _, w, rfl, by rw [show s1.2 = s.2 from hs]; exact F⟩
  · rename_i s1 h
    rw [h] at hs
    exact ⟨_, _, _, w, rfl, by rw [show s1.2 = s.2 from hs]; exact F⟩
  · rename_i ready s1 h
    rw [h] at hs
    have hs : s1.2 = s.2 := hs
    have F1 := FInv.read W c.asked ready (List.range c.devs.length) List.nodup_range (c := c) (s := s1) (w := w) 0 (by rw [hs]; exact F) (by
      intro i hi ha
      have := (asked_iff c i).1 ha
      rw [F.inv.len] at this
      exact this)
    split
    · rename_i c1 s2 r m he
      rw [he] at F1
      exact ⟨_, _, _, w, rfl, F1⟩
    · rename_i c1 s2 m he
      rw [he] at F1
      obtain ⟨c2, s3, w2, e1, F2⟩ := F1.pull W
      have F3 : FInv n (updateMark c2) s3.2 w2 := by
        unfold updateMark
        split
        · exact F2
        · split
          · exact F2
          · refine ⟨?_, F2.tl, F2.out.congr rfl rfl (fun _ => rfl), F2.split, F2.lt⟩
            have I := F2.inv
            exact { len := I.len, pc := I.pc, rc := I.rc, pool := I.pool, tT := I.tT, rt := I.rt, plt := I.plt, rlt := I.rlt, nd := I.nd, pf := I.pf, st := I.st }
      have htf : tailFlush W.logged (updateMark c2) s3 = .ok (updateMark c2, s3) := by
        unfold tailFlush
        rw [if_pos (Or.inl F3.tl)]
      refine ⟨updateMark c2, s3, m, w2, ?_, F3⟩
      unfold endPass
      rw [e1]
      dsimp only [bind, Except.bind]
      rw [htf]
      rfl

theorem FInv.logs (W : World σ) {n : Nat} (dump : Bool) (max : Int) (fuel : Nat) {c : Ctx} {s : σ × List Frame} {w : List Frame}
    (fr : Int) (F : FInv n c s.2 w) :
    ∃ c' s' r w', processLogs W.logged dump max fuel c s fr = .ok (c', s', r) ∧ FInv n c' s'.2 w' := by
  induction fuel generalizing c s w fr with
  | zero => exact ⟨_, _, _, w, rfl, F⟩
  | succ fuel ih =>
    obtain ⟨c1, s1, r, w1, e1, F1⟩ := F.pass W
    unfold processLogs
    rw [e1]
    dsimp only [bind, Except.bind]
    split
    · exact ⟨_, _, _, w1, rfl, F1⟩
    · split
      · obtain ⟨c2, s2, w2, f1, F2⟩ := F1.flushQueue W c1.pending.toNat (by omega)
        rw [f1]
        exact ⟨_, _, _, w2, rfl, F2⟩
      · split
        · exact ⟨_, _, _, w1, rfl, F1⟩
        · split
          · exact ih _ F1
          · exact ⟨_, _, _, w1, rfl, F1⟩

theorem FInv.calls (W : World σ) {n : Nat} (dump : Bool) (l : List (Nat × Int)) : ∀ {c : Ctx} {s : σ × List Frame} {w : List Frame},
    FInv n c s.2 w → ∃ c' s' w', Ulogcat.calls W.logged dump l c s = .ok (c', s') ∧ FInv n c' s'.2 w' := by
  induction l with
  | nil => intro c s w F; exact ⟨c, s, w, rfl, F⟩
  | cons x l ih =>
    intro c s w F
    obtain ⟨fuel, max⟩ := x
    obtain ⟨c1, s1, r, w1, e1, F1⟩ := F.logs W dump max fuel 0
    obtain ⟨c2, s2, w2, e2, F2⟩ := ih F1
    refine ⟨c2, s2, w2, ?_, F2⟩
    unfold Ulogcat.calls
    rw [e1]
    exact e2

theorem openCtx_finv (marks : List Nat) : FInv marks.length (openCtx marks 0) [] [] := by
  refine ⟨openCtx_inv marks 0, rfl, ?_, by simp [openCtx], by simp⟩
  refine ⟨List.prefix_refl _, fun _ => ⟨rfl, ?_⟩⟩
  intro _ i hi
  simp [openCtx, Ctx.printedOf, hi]

/-- C59. Without a tail, after any calls, in every world: the frames handled so far are,
device by device, the frames received from it in the order they were received, apart
from at most one that is waiting. What was output are those frames (if they can be
shown), with a banner before the first of each device if there are several; unless
output failed, when it is the beginning of that. -/
theorem C59_faithful (W : World σ) (marks : List Nat) (dump : Bool) (l : List (Nat × Int)) (s : σ) :
    ∃ c s' w, calls W.logged dump l (openCtx marks 0) (s, []) = .ok (c, s') ∧
      (∀ d, w.filter (fun f => f.dev == d) ++ c.pendQ.filter (fun f => f.dev == d) = s'.2.filter (fun f => f.dev == d)) ∧
      (∀ d, (c.pendQ.filter (fun f => f.dev == d)).length ≤ 1) ∧
      c.out <+: annotate (decide (marks.length > 1)) [] w ∧
      (c.outErr = false → c.out = annotate (decide (marks.length > 1)) [] w) := by
  obtain ⟨c, s', w, h1, h2⟩ := FInv.calls W dump l (s := (s, [])) (openCtx_finv marks)
  refine ⟨c, s', w, h1, h2.split, ?_, h2.out.pre, fun h => (h2.out.ok h).1⟩
  intro d
  have hnd := h2.inv.nd
  have hsub : ((c.pendQ.filter (fun f => f.dev == d)).map Frame.dev).Nodup :=
    List.Nodup.sublist (List.Sublist.map _ List.filter_sublist) hnd
  cases hq : c.pendQ.filter (fun f => f.dev == d) with
  | nil => simp
  | cons a t =>
    cases t with
    | nil => simp
    | cons b t =>
      exfalso
      have ha : a ∈ c.pendQ.filter (fun f => f.dev == d) := by simp [hq]
      have hb : b ∈ c.pendQ.filter (fun f => f.dev == d) := by simp [hq]
      have ha := (List.mem_filter.1 ha).2
      have hb := (List.mem_filter.1 hb).2
      rw [hq] at hsub
      simp only [beq_iff_eq] at ha hb
      simp [ha, hb] at hsub

/-- Every frame handled comes from one of the devices. -/
theorem FInv.dev {n : Nat} {c : Ctx} {l w : List Frame} (F : FInv n c l w) {f : Frame} (hf : f ∈ w) : f.dev < n := by
  refine F.lt f ?_
  have : f ∈ w.filter (fun g => g.dev == f.dev) ++ c.pendQ.filter (fun g => g.dev == f.dev) := by simp [hf]
  rw [F.split] at this
  exact (List.mem_filter.1 this).1

end Verif.Ulogcat
