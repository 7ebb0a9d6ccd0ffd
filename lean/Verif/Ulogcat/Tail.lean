import Verif.Ulogcat.PropsLive

/-!
# The loop with a tail beside the loop without

Both in the same world, whose output always succeeds and changes nothing that is read. Up to
the moment the marks are reached they do the same, except that one keeps the last frames and
the other hands them out.
-/
namespace Verif.Ulogcat

variable {σ : Type}

/-- What is taken from the pending queue when it is emptied. -/
def pops : Nat → List Frame → List Frame
  | 0, _ => []
  | n + 1, l =>
    match popOldest l with
    | none => []
    | some (f, r) => f :: pops n r

/-- The last `T` of a list. -/
def lastFew {α : Type} (T : Nat) (v : List α) : List α := v.drop (v.length - T)

theorem lastFew_snoc {α : Type} {T : Nat} (hT : 0 < T) (v : List α) (x : α) :
    lastFew T (v ++ [x]) = if v.length < T then lastFew T v ++ [x] else (lastFew T v ++ [x]).drop 1 := by
  unfold lastFew
  simp only [List.length_append, List.length_singleton]
  split
  · rw [show v.length + 1 - T = 0 by omega, show v.length - T = 0 by omega]; rfl
  · rw [← List.drop_append_of_le_length (show v.length - T ≤ v.length by omega), List.drop_drop]
    congr 1
    omega

theorem lastFew_length {α : Type} (T : Nat) (v : List α) : (lastFew T v).length = min v.length T := by
  unfold lastFew
  rw [List.length_drop]
  omega

theorem lastFew_append {α : Type} (T : Nat) (v u : List α) : lastFew T (lastFew T v ++ u) = lastFew T (v ++ u) := by
  unfold lastFew
  rw [← List.drop_append_of_le_length (show v.length - T ≤ v.length by omega), List.drop_drop]
  congr 1
  simp only [List.length_drop, List.length_append]
  omega

/-! ## Devices without their banners -/

def SameDevs (c c0 : Ctx) : Prop := c.devs.map Dev.core = c0.devs.map Dev.core

theorem modify_same {g : Dev → Dev} (hg : ∀ d d' : Dev, d.core = d'.core → (g d).core = (g d').core) : ∀ (l l0 : List Dev) (i : Nat),
    l.map Dev.core = l0.map Dev.core → (l.modify i g).map Dev.core = (l0.modify i g).map Dev.core := by
  intro l
  induction l with
  | nil => intro l0 i h; cases l0 with
    | nil => rfl
    | cons => simp at h
  | cons d l ih =>
    intro l0 i h
    cases l0 with
    | nil => simp at h
    | cons d0 l0 =>
      simp only [List.map_cons, List.cons.injEq] at h
      cases i with
      | zero => simp [hg _ _ h.1, h.2]
      | succ i => simp [h.1, ih l0 i h.2]

theorem SameDevs.upd {c c0 : Ctx} (h : SameDevs c c0) (i : Nat) {g : Dev → Dev}
    (hg : ∀ d d' : Dev, d.core = d'.core → (g d).core = (g d').core) : SameDevs (c.upd i g) (c0.upd i g) :=
  modify_same hg _ _ _ h

theorem core_eq {d d' : Dev} (h : d.core = d'.core) : d.mark = d'.mark ∧ d.pending = d'.pending := by
  unfold Dev.core at h
  simp only [Dev.mk.injEq] at h
  exact ⟨h.1, h.2.1⟩

theorem SameDevs.get {c c0 : Ctx} (h : SameDevs c c0) (i : Nat) : (c.devs[i]?).map Dev.core = (c0.devs[i]?).map Dev.core := by
  rw [← List.getElem?_map, ← List.getElem?_map, h]

theorem SameDevs.asked {c c0 : Ctx} (h : SameDevs c c0) : c.asked = c0.asked := by
  funext i
  have := h.get i
  unfold Ctx.asked
  cases h1 : c.devs[i]? <;> cases h2 : c0.devs[i]? <;> rw [h1, h2] at this <;> simp only [Option.map_none, Option.map_some, reduceCtorEq, Option.some.injEq] at this
  dsimp only
  rw [(core_eq this).2]

theorem SameDevs.marks {c c0 : Ctx} (h : SameDevs c c0) : (c.devs.any fun d => decide (d.mark > 0)) = c0.devs.any fun d => decide (d.mark > 0) := by
  have e : ∀ c : Ctx, (c.devs.any fun d => decide (d.mark > 0)) = (c.devs.map Dev.core).any fun d => decide (d.mark > 0) := by
    intro c; rw [List.any_map]; rfl
  rw [e, e, h]

theorem unready_core {d d' : Dev} (h : d.core = d'.core) : d.unready.core = d'.unready.core := by
  obtain ⟨h1, h2⟩ := core_eq h
  unfold Dev.unready
  rw [h1]
  split <;> simp [Dev.core, h1, h2]

/-! ## Output that succeeds -/

section
variable {W : World σ} (hW : ∀ s e, W.output s e = (true, s))
include hW

theorem output_same {c : Ctx} (hok : c.outErr = false) (s : σ) (e : OutEv) : output W c s e = ({ c with out := c.out ++ [e] }, s) := by
  unfold output
  rw [if_neg (by simp [hok]), hW]

theorem flushFrame_same {n : Nat} {c : Ctx} {y : List Frame} (hok : c.outErr = false) (O : OutG n c y) (hl : c.devs.length = n) {f : Frame} (hf : f.dev < n)
    (s : σ) : ∃ c', flushFrame W c s f = .ok (c', s) ∧ c'.core = c.core ∧ c'.outErr = false ∧ OutG n c' (y ++ [f]) := by
  obtain ⟨c', s', e1, e2⟩ := flushFrame_core W c s f (by omega)
  have e3 := flushFrame_out W s f O hl hf e1
  have : s' = s ∧ c'.outErr = false := by
    unfold flushFrame at e1
    split at e1
    · cases e1
    · rename_i d hd
      simp only [Except.ok.injEq] at e1
      have hb : (flushBanner W c s f d).2 = s ∧ (flushBanner W c s f d).1.outErr = false := by
        unfold flushBanner
        split
        · rw [output_same hW hok]; exact ⟨rfl, hok⟩
        · exact ⟨rfl, hok⟩
      unfold flushEntry at e1
      split at e1
      · rw [output_same hW hb.2] at e1
        cases e1
        exact hb
      · rw [e1] at hb
        exact hb
  obtain ⟨rfl, h⟩ := this
  exact ⟨c', e1, e2, h, e3⟩

end

/-! ## Both loops -/

/-- `c` is the context with a tail, which handed out `y`, and `c0` that without, which handed out `w`. -/
structure Tailed (T n : Nat) (c c0 : Ctx) (w y : List Frame) : Prop where
  inv : Inv T n c
  inv0 : Inv 0 n c0
  devs : SameDevs c c0
  pend : c.pendQ = c0.pendQ
  mark : c.markReached = c0.markReached
  err : c.outErr = false
  err0 : c0.outErr = false
  tl0 : c0.tail = 0
  out : OutG n c y
  out0 : OutG n c0 w
  dev0 : ∀ f ∈ w, f.dev < n

variable {T n : Nat} {c c0 : Ctx} {w y : List Frame}

theorem Tailed.isPending (h : Tailed T n c c0 w y) (i : Nat) : c.isPending i = c0.isPending i := by
  have := h.devs.get i
  unfold Ctx.isPending
  cases h1 : c.devs[i]? <;> cases h2 : c0.devs[i]? <;> rw [h1, h2] at this <;> simp only [Option.map_none, Option.map_some, reduceCtorEq, Option.some.injEq] at this
  exact (core_eq this).2

theorem Tailed.unready (h : Tailed T n c c0 w y) (i : Nat) : Tailed T n (c.upd i Dev.unready) (c0.upd i Dev.unready) w y := by
  have hp : ∀ d : Dev, d.unready.printed = d.printed := fun d => by unfold Dev.unready; split <;> rfl
  exact ⟨h.inv.unready i, h.inv0.unready i, h.devs.upd i fun _ _ => unready_core, h.pend, h.mark, h.err, h.err0, h.tl0,
    h.out.congr rfl rfl (fun j => printedOf_upd c i j _ hp), h.out0.congr rfl rfl (fun j => printedOf_upd c0 i j _ hp), h.dev0⟩

theorem Tailed.got (h : Tailed T n c c0 w y) (f : Frame) (dec : Nat) (hf : f.dev < n) (hp : c.isPending f.dev = false) :
    Tailed T n (c.got f dec) (c0.got f dec) w y := by
  refine ⟨h.inv.got f dec hf hp, h.inv0.got f dec hf (by rw [← h.isPending]; exact hp), ?_, ?_, h.mark, h.err, h.err0, h.tl0,
    h.out.congr rfl rfl (fun j => printedOf_upd _ _ _ _ (fun _ => rfl)), h.out0.congr rfl rfl (fun j => printedOf_upd _ _ _ _ (fun _ => rfl)), h.dev0⟩
  · refine SameDevs.upd (c := { c with free := _, pendQ := _, pending := _ }) (c0 := { c0 with free := _, pendQ := _, pending := _ }) h.devs _ ?_
    intro d d' e
    obtain ⟨h1, h2⟩ := core_eq e
    simp [Dev.core, h1]
  · show c.pendQ ++ [f] = c0.pendQ ++ [f]
    rw [h.pend]

/-- What reading does not touch. -/
def Rest (c c' : Ctx) : Prop := c'.tail = c.tail ∧ c'.rendQ = c.rendQ ∧ c'.markReached = c.markReached

theorem Tailed.read (W : World σ) (asked ready : Nat → Bool) (is : List Nat) : ∀ (_ : is.Nodup) {c c0 : Ctx} (s : σ) (m : Int),
    Tailed T n c c0 w y → (∀ i ∈ is, asked i = true → i < n ∧ c.isPending i = false) →
    ∃ c1 c2 s1 r m1, readDevs W asked ready is c s m = (c1, s1, r, m1) ∧ readDevs W asked ready is c0 s m = (c2, s1, r, m1) ∧
      Tailed T n c1 c2 w y ∧ Rest c c1 ∧ m ≤ m1 := by
  induction is with
  | nil => intro _ c c0 s m h _; exact ⟨c, c0, s, none, m, rfl, rfl, h, ⟨rfl, rfl, rfl⟩, Int.le_refl _⟩
  | cons i is ih =>
    intro nd c c0 s m h ha
    have nd' := List.nodup_cons.1 nd
    rw [readDevs_cons, readDevs_cons]
    by_cases hr : (asked i && ready i) = false
    · rw [if_pos hr, if_pos hr]
      by_cases hi : asked i = true
      · rw [if_pos hi, if_pos hi]
        obtain ⟨c1, c2, s1, r, m1, e1, e2, e3, e4⟩ := ih nd'.2 s m (h.unready i) (by
          intro j hj hja
          rw [isPending_unready]
          exact ha j (List.mem_cons_of_mem _ hj) hja)
        exact ⟨c1, c2, s1, r, m1, e1, e2, e3, e4⟩
      · rw [if_neg hi, if_neg hi]
        exact ih nd'.2 s m h (fun j hj => ha j (List.mem_cons_of_mem _ hj))
    · rw [if_neg hr, if_neg hr]
      have hai : asked i = true := by
        cases h : asked i
        · simp [h] at hr
        · rfl
      have hi := ha i (by simp) hai
      have hroom := room h.inv hi.1 hi.2
      have hroom0 := room h.inv0 hi.1 (by rw [← h.isPending]; exact hi.2)
      rw [if_neg (by omega), if_neg (by omega)]
      cases hx : W.recv s i with
      | mk r s' =>
        cases r with
        | err => exact ⟨_, _, _, _, _, rfl, rfl, h, ⟨rfl, rfl, rfl⟩, Int.le_refl _⟩
        | again => exact ⟨_, _, _, _, _, rfl, rfl, h, ⟨rfl, rfl, rfl⟩, Int.le_refl _⟩
        | got stamp id shown dec =>
          obtain ⟨c1, c2, s1, r, m1, e1, e2, e3, e4⟩ := ih nd'.2 s' (m + 1) (h.got (Frame.mk i stamp id shown) dec hi.1 hi.2) (by
            intro j hj hja
            have hj2 := ha j (List.mem_cons_of_mem _ hj) hja
            refine ⟨hj2.1, ?_⟩
            rw [isPending_got _ _ _ (by rw [h.inv.len]; exact hi.1), if_neg]
            · exact hj2.2
            · intro e
              have e : i = j := e
              exact nd'.1 (e ▸ hj))
          exact ⟨c1, c2, s1, r, m1, e1, e2, e3, e4.1, by omega⟩

/-! ## Taking frames from the queues -/

theorem pops_cons {l : List Frame} {f : Frame} {r : List Frame} (h : popOldest l = some (f, r)) (hl : r.length + 1 = l.length) :
    pops l.length l = f :: pops r.length r := by
  rw [← hl]
  simp only [pops, h]

theorem pops_sub : ∀ (k : Nat) (l : List Frame), (l.map Frame.dev).Nodup → ∀ f ∈ pops k l, f ∈ l := by
  intro k
  induction k with
  | zero => intro l _ f hf; simp [pops] at hf
  | succ k ih =>
    intro l nd f hf
    cases h : popOldest l with
    | none => simp [pops, h] at hf
    | some x =>
      obtain ⟨g, r⟩ := x
      obtain ⟨p1, -, p3, p4, -⟩ := pop_dev _ _ _ h nd
      simp only [pops, h, List.mem_cons] at hf
      rcases hf with rfl | hf
      · exact p3
      · exact p4 f (ih r p1 f hf)

theorem pops_length : ∀ (k : Nat) (l : List Frame), l.length = k → (l.map Frame.dev).Nodup → (pops k l).length = k := by
  intro k
  induction k with
  | zero => intro l _ _; rfl
  | succ k ih =>
    intro l hl nd
    cases h : popOldest l with
    | none => rw [popOldest_none] at h; rw [h] at hl; simp at hl
    | some x =>
      obtain ⟨f, r⟩ := x
      obtain ⟨p1, p2, p3, p4, p5⟩ := pop_dev _ _ _ h nd
      simp only [pops, h, List.length_cons]
      rw [ih r (by omega) p1]

/-- What of a context is the same if the cores are. -/
theorem core_fields {c c' : Ctx} (h : c'.core = c.core) : SameDevs c' c ∧ c'.pendQ = c.pendQ ∧ c'.pending = c.pending ∧
    c'.rendQ = c.rendQ ∧ c'.render = c.render ∧ c'.tail = c.tail ∧ c'.markReached = c.markReached := by
  simp only [Ctx.core, Ctx.mk.injEq, true_and] at h
  obtain ⟨h1, h2, h3, h4, h5, h6, h7, h8, h9⟩ := h
  exact ⟨h1, h3, h4, h5, h6, h7, h8⟩

section
variable {W : World σ} (hW : ∀ s e, W.output s e = (true, s))
include hW

/-- Taking one from the front of the rendered frames. -/
theorem renderFrame_same {c : Ctx} (drop : Bool) (s : σ) (I : Inv T n c) (hok : c.outErr = false) (O : OutG n c y) {f : Frame} {t : List Frame}
    (hq : c.rendQ = f :: t) :
    ∃ c', flushRenderFrame W drop c s = .ok (c', s) ∧ Inv T n c' ∧ c'.outErr = false ∧ OutG n c' (y ++ if drop then [] else [f]) ∧
      c'.rendQ = t ∧ c'.pendQ = c.pendQ ∧ SameDevs c' c ∧ c'.tail = c.tail ∧ c'.markReached = c.markReached := by
  have hr : 0 < c.render := by rw [I.rc, hq]; simp
  obtain ⟨c1, s1, e1, I1, -⟩ := flushRenderFrame_inv W drop s I hr
  have e1' := e1
  unfold flushRenderFrame flushUnless at e1'
  rw [if_pos hr, hq] at e1'
  cases drop
  · obtain ⟨c2, f1, f2, f3, f4⟩ := flushFrame_same hW hok O I.len (I.rlt f (by simp [hq])) s
    simp only [Bool.false_eq_true, if_false, f1, bind, Except.bind, Except.ok.injEq, Prod.mk.injEq] at e1'
    obtain ⟨rfl, rfl⟩ := e1'
    obtain ⟨g1, g2, g3, g4, g5, g6, g7⟩ := core_fields f2
    exact ⟨_, e1, I1, f3, f4.congr rfl rfl (fun _ => rfl), rfl, g2, g1, g6, g7⟩
  · simp only [if_true, bind, Except.bind, Except.ok.injEq, Prod.mk.injEq] at e1'
    obtain ⟨rfl, rfl⟩ := e1'
    refine ⟨_, e1, I1, hok, ?_, rfl, rfl, rfl, rfl, rfl⟩
    simp only [if_true, List.append_nil]
    exact O.congr rfl rfl (fun _ => rfl)

/-- Taking the oldest of the pending frames. -/
theorem pendingFrame_same {c : Ctx} (drop : Bool) (s : σ) (I : Inv T n c) (hok : c.outErr = false) (O : OutG n c y) {f : Frame} {t : List Frame}
    (hq : popOldest c.pendQ = some (f, t)) :
    ∃ c', flushPendingFrame W drop c s = .ok (c', s) ∧ Inv T n c' ∧ c'.outErr = false ∧ OutG n c' (y ++ if drop then [] else [f]) ∧
      c'.pendQ = t ∧ c'.rendQ = c.rendQ ∧ c'.tail = c.tail ∧ c'.markReached = c.markReached := by
  obtain ⟨p1, p2, p3, p4, p5⟩ := pop_dev _ _ _ hq I.nd
  have hr : 0 < c.pending := by rw [I.pc]; omega
  obtain ⟨c1, s1, e1, I1, -⟩ := flushPendingFrame_inv W drop s I hr
  have e1' := e1
  unfold flushPendingFrame flushUnless at e1'
  rw [if_pos hr, hq] at e1'
  cases drop
  · obtain ⟨c2, f1, f2, f3, f4⟩ := flushFrame_same hW hok O I.len (I.plt f p3) s
    simp only [Bool.false_eq_true, if_false, f1, bind, Except.bind, Except.ok.injEq, Prod.mk.injEq] at e1'
    obtain ⟨rfl, rfl⟩ := e1'
    obtain ⟨g1, g2, g3, g4, g5, g6, g7⟩ := core_fields f2
    exact ⟨_, e1, I1, f3, f4.congr rfl rfl (fun j => printedOf_upd c2 _ j _ (fun _ => rfl)), rfl, g4, g6, g7⟩
  · simp only [if_true, bind, Except.bind, Except.ok.injEq, Prod.mk.injEq] at e1'
    obtain ⟨rfl, rfl⟩ := e1'
    refine ⟨_, e1, I1, hok, ?_, rfl, rfl, rfl, rfl⟩
    simp only [if_true, List.append_nil]
    exact O.congr rfl rfl (fun j => printedOf_upd c _ j _ (fun _ => rfl))

theorem renderQueue_same (k : Nat) : ∀ {c : Ctx} {y : List Frame} (s : σ), Inv T n c → c.outErr = false → OutG n c y → c.rendQ.length ≤ k →
    ∃ c', flushRenderQueue W k c s = .ok (c', s) ∧ Inv T n c' ∧ c'.outErr = false ∧ OutG n c' (y ++ c.rendQ) ∧ c'.rendQ = [] ∧
      c'.pendQ = c.pendQ ∧ SameDevs c' c ∧ c'.tail = c.tail ∧ c'.markReached = c.markReached := by
  induction k with
  | zero =>
    intro c y s I hok O hk
    have hq : c.rendQ = [] := List.eq_nil_of_length_eq_zero (by omega)
    have h0 : ¬ c.render > 0 := by rw [I.rc, hq]; simp
    exact ⟨c, by simp [flushRenderQueue, h0], I, hok, by rw [hq, List.append_nil]; exact O, hq, rfl, rfl, rfl, rfl⟩
  | succ k ih =>
    intro c y s I hok O hk
    cases hq : c.rendQ with
    | nil =>
      have h0 : ¬ c.render > 0 := by rw [I.rc, hq]; simp
      exact ⟨c, by simp [flushRenderQueue, h0], I, hok, by rw [List.append_nil]; exact O, hq, rfl, rfl, rfl, rfl⟩
    | cons f t =>
      have hr : c.render > 0 := by rw [I.rc, hq]; simp
      obtain ⟨c1, e1, I1, e2, e3, e4, e5, e6, e7, e8⟩ := renderFrame_same hW false s I hok O hq
      rw [hq] at hk
      obtain ⟨c2, f1, I2, f2, f3, f4, f5, f6, f7, f8⟩ := ih s I1 e2 e3 (by rw [e4]; simp at hk; omega)
      refine ⟨c2, ?_, I2, f2, ?_, f4, f5.trans e5, Eq.trans f6 e6, f7.trans e7, f8.trans e8⟩
      · simp only [flushRenderQueue, hr, if_true, e1]
        exact f1
      · rw [e4] at f3
        simpa using f3

theorem pendingQueue_same (k : Nat) : ∀ {c : Ctx} {y : List Frame} (s : σ), Inv T n c → c.outErr = false → OutG n c y → c.pendQ.length ≤ k →
    ∃ c', flushPendingQueue W k c s = .ok (c', s) ∧ Inv T n c' ∧ c'.outErr = false ∧ OutG n c' (y ++ pops c.pendQ.length c.pendQ) ∧
      c'.pendQ = [] ∧ c'.markReached = c.markReached := by
  induction k with
  | zero =>
    intro c y s I hok O hk
    have hq : c.pendQ = [] := List.eq_nil_of_length_eq_zero (by omega)
    have h0 : ¬ c.pending > 0 := by rw [I.pc, hq]; simp
    exact ⟨c, by simp [flushPendingQueue, h0], I, hok, by rw [hq]; simpa [pops] using O, hq, rfl⟩
  | succ k ih =>
    intro c y s I hok O hk
    cases hq : popOldest c.pendQ with
    | none =>
      rw [popOldest_none] at hq
      have h0 : ¬ c.pending > 0 := by rw [I.pc, hq]; simp
      exact ⟨c, by simp [flushPendingQueue, h0], I, hok, by rw [hq]; simpa [pops] using O, hq, rfl⟩
    | some x =>
      obtain ⟨f, t⟩ := x
      obtain ⟨p1, p2, p3, p4, p5⟩ := pop_dev _ _ _ hq I.nd
      have hr : c.pending > 0 := by rw [I.pc]; omega
      obtain ⟨c1, e1, I1, e2, e3, e4, e5, e6, e7⟩ := pendingFrame_same hW false s I hok O hq
      obtain ⟨c2, f1, I2, f2, f3, f4, f5⟩ := ih s I1 e2 e3 (by rw [e4]; omega)
      refine ⟨c2, ?_, I2, f2, ?_, f4, f5.trans e7⟩
      · simp only [flushPendingQueue, hr, if_true, e1]
        exact f1
      · rw [e4] at f3
        rw [pops_cons hq (by omega)]
        simpa using f3

/-- What is dropped: all but the last `c.tail` of what is kept and what is pending. -/
theorem dropExcess_same (k : Nat) : ∀ {c : Ctx} (s : σ), Inv T n c → c.outErr = false → OutG n c y → c.rendQ.length + c.pendQ.length ≤ k →
    ∃ c', dropExcess W k c s = .ok (c', s) ∧ Inv T n c' ∧ c'.outErr = false ∧ OutG n c' y ∧ c'.tail = c.tail ∧ c'.markReached = c.markReached ∧
      c'.rendQ ++ pops c'.pendQ.length c'.pendQ = lastFew c.tail.toNat (c.rendQ ++ pops c.pendQ.length c.pendQ) ∧
      ((c.pendQ.length : Int) ≤ c.tail → c'.pendQ = c.pendQ ∧ SameDevs c' c) := by
  induction k with
  | zero =>
    intro c s I hok O hk
    have h0 : 0 ≤ c.tail := Int.le_trans (Int.natCast_nonneg _) I.rt
    have h1 : ¬ c.render + c.pending > c.tail := by rw [I.rc, I.pc]; omega
    refine ⟨c, by simp [dropExcess, h1], I, hok, O, rfl, rfl, ?_, fun _ => ⟨rfl, rfl⟩⟩
    unfold lastFew
    rw [List.length_append, pops_length _ _ rfl I.nd, show c.rendQ.length + c.pendQ.length - c.tail.toNat = 0 by omega, List.drop_zero]
  | succ k ih =>
    intro c s I hok O hk
    have h0 : 0 ≤ c.tail := Int.le_trans (Int.natCast_nonneg _) I.rt
    have hpl := pops_length _ c.pendQ rfl I.nd
    by_cases h1 : c.render + c.pending > c.tail
    · have h1' : c.rendQ.length + c.pendQ.length > c.tail.toNat := by rw [I.rc, I.pc] at h1; omega
      cases hq : c.rendQ with
      | cons f t =>
        have hr : c.render > 0 := by rw [I.rc, hq]; simp
        obtain ⟨c1, e1, I1, e2, e3, e4, e5, e6, e7, e8⟩ := renderFrame_same hW true s I hok O hq
        rw [hq] at hk h1'
        simp only [List.length_cons] at hk h1'
        obtain ⟨c2, f1, I2, f2, f3, f4, f5, f6, f7⟩ := ih (c := c1) s I1 e2 (by simpa using e3) (by rw [e4, e5]; omega)
        refine ⟨c2, ?_, I2, f2, f3, f4.trans e7, f5.trans e8, ?_, ?_⟩
        · simp only [dropExcess, h1, hr, if_true, e1]
          exact f1
        · rw [f6, e4, e5, e7]
          unfold lastFew
          simp only [List.cons_append, List.length_cons, List.length_append, hpl]
          rw [show t.length + c.pendQ.length + 1 - c.tail.toNat = (t.length + c.pendQ.length - c.tail.toNat) + 1 by omega, List.drop_succ_cons]
        · intro hle
          have := f7 (by rw [e5, e7]; exact hle)
          exact ⟨this.1.trans e5, Eq.trans this.2 e6⟩
      | nil =>
        have hr : ¬ c.render > 0 := by rw [I.rc, hq]; simp
        rw [hq] at h1' hk
        simp only [List.length_nil, Nat.zero_add] at h1' hk
        have hp : c.pending > 0 := by rw [I.pc]; omega
        cases hx : popOldest c.pendQ with
        | none => rw [popOldest_none] at hx; rw [hx] at h1'; simp at h1'
        | some x =>
          obtain ⟨f, t⟩ := x
          obtain ⟨p1, p2, p3, p4, p5⟩ := pop_dev _ _ _ hx I.nd
          obtain ⟨c1, e1, I1, e2, e3, e4, e5, e6, e7⟩ := pendingFrame_same hW true s I hok O hx
          obtain ⟨c2, f1, I2, f2, f3, f4, f5, f6, f7⟩ := ih (c := c1) s I1 e2 (by simpa using e3) (by rw [e4, e5, hq]; simp; omega)
          refine ⟨c2, ?_, I2, f2, f3, f4.trans e6, f5.trans e7, ?_, ?_⟩
          · simp only [dropExcess, h1, hr, hp, if_true, if_false, e1]
            exact f1
          · have htl := pops_length _ t rfl p1
            rw [f6, e4, e5, e6, hq, pops_cons hx (by omega)]
            unfold lastFew
            simp only [List.nil_append, List.length_cons, htl]
            rw [show t.length + 1 - c.tail.toNat = (t.length - c.tail.toNat) + 1 by omega, List.drop_succ_cons]
          · intro hle; omega
    · refine ⟨c, by simp [dropExcess, h1], I, hok, O, rfl, rfl, ?_, fun _ => ⟨rfl, rfl⟩⟩
      rw [I.rc, I.pc] at h1
      unfold lastFew
      rw [List.length_append, hpl, show c.rendQ.length + c.pendQ.length - c.tail.toNat = 0 by omega, List.drop_zero]

end

/-! ## One turn of the loop -/

/-- Not yet at the marks: the last frames are kept and nothing was handed out. -/
structure Waiting (T n : Nat) (c c0 : Ctx) (w : List Frame) : Prop where
  both : Tailed T n c c0 w []
  tail : c.tail = T
  kept : c.rendQ = lastFew T w
  mark : c.markReached = false

/-- Frames that wait stay while devices are read. -/
theorem readDevs_more (W : World σ) (asked ready : Nat → Bool) (is : List Nat) : ∀ (c : Ctx) (s : σ) (m : Int),
    c.pendQ.length ≤ (readDevs W asked ready is c s m).1.pendQ.length := by
  induction is with
  | nil => intro c s m; exact Nat.le_refl _
  | cons i is ih =>
    intro c s m
    rw [readDevs_cons]
    split
    · refine Nat.le_trans ?_ (ih _ _ _)
      split <;> exact Nat.le_refl _
    · split
      · exact ih { c with starved := true } s m
      · split
        · exact Nat.le_refl _
        · exact Nat.le_refl _
        · refine Nat.le_trans ?_ (ih _ _ _)
          simp [Ctx.got, Ctx.upd]

/-- After the marks: the first `k` frames were dropped, all others are handed out as without a tail;
`T` at least, with those that wait, if there are as many. -/
structure Passed (T n k : Nat) (c c0 : Ctx) (w : List Frame) : Prop where
  both : Tailed T n c c0 w (w.drop k)
  tail : c.tail = 0
  rend : c.rendQ = []
  le : k ≤ w.length
  mark : c.markReached = true
  few : k ≤ w.length + c0.pendQ.length - T

theorem dev0_snoc {n : Nat} {w : List Frame} {f : Frame} (h : ∀ g ∈ w, g.dev < n) (hf : f.dev < n) : ∀ g ∈ w ++ [f], g.dev < n := by
  intro g hg
  rcases List.mem_append.1 hg with hg | hg
  · exact h g hg
  · rw [List.mem_singleton.1 hg]; exact hf

def unpend (d : Dev) : Dev := { d with pending := false }

theorem unpend_core {d d' : Dev} (h : d.core = d'.core) : (unpend d).core = (unpend d').core := by
  simp [unpend, Dev.core, (core_eq h).1]

theorem pull_none {W : World σ} {c : Ctx} (h : popOldest c.pendQ = none) (s : σ) : pullFrame W c s = .ok (c, s) := by
  unfold pullFrame
  rw [h]

section
variable {W : World σ} (hW : ∀ s e, W.output s e = (true, s))
include hW

/-- Without a tail the oldest frame is handed out. -/
theorem pull_now {c : Ctx} {y : List Frame} (s : σ) (I : Inv T n c) (hok : c.outErr = false) (O : OutG n c y) (ht : c.tail = 0) {f : Frame} {r : List Frame}
    (h : popOldest c.pendQ = some (f, r)) :
    ∃ c', pullFrame W c s = .ok (c', s) ∧ Inv T n c' ∧ c'.outErr = false ∧ OutG n c' (y ++ [f]) ∧ c'.pendQ = r ∧ SameDevs c' (c.upd f.dev unpend) ∧
      c'.tail = 0 ∧ c'.rendQ = c.rendQ ∧ c'.markReached = c.markReached := by
  obtain ⟨p1, p2, p3, p4, p5⟩ := pop_dev _ _ _ h I.nd
  obtain ⟨c1, s1, e1, I1, -⟩ := pullFrame_inv W s I
  have e1' := e1
  unfold pullFrame at e1'
  rw [h] at e1'
  dsimp only at e1'
  rw [if_neg (by show ¬ c.tail > 0; omega)] at e1'
  obtain ⟨c2, f1, f2, f3, f4⟩ := flushFrame_same hW (n := n) (y := y)
    (c := { c.upd f.dev (fun d => { d with pending := false }) with pendQ := r, pending := c.pending - 1 }) hok
    (O.congr rfl rfl (fun j => printedOf_upd c _ j _ (fun _ => rfl))) (by show (c.upd _ _).devs.length = n; rw [upd_len]; exact I.len) (I.plt f p3) s
  rw [f1] at e1'
  simp only [bind, Except.bind, Except.ok.injEq, Prod.mk.injEq] at e1'
  obtain ⟨rfl, rfl⟩ := e1'
  obtain ⟨g1, g2, g3, g4, g5, g6, g7⟩ := core_fields f2
  exact ⟨_, e1, I1, f3, f4.congr rfl rfl (fun _ => rfl), g2, g1, g6.trans ht, g4, g7⟩

omit hW in
/-- With a tail it is kept, and the oldest kept is dropped if there are too many. -/
theorem pull_keep {c : Ctx} {y : List Frame} (s : σ) (I : Inv T n c) (O : OutG n c y) (ht : 0 < c.tail) {f : Frame} {r : List Frame}
    (h : popOldest c.pendQ = some (f, r)) :
    ∃ c', pullFrame W c s = .ok (c', s) ∧ Inv T n c' ∧ c'.outErr = c.outErr ∧ OutG n c' y ∧ c'.pendQ = r ∧ SameDevs c' (c.upd f.dev unpend) ∧
      c'.tail = c.tail ∧ c'.rendQ = (if (c.rendQ.length : Int) < c.tail then c.rendQ ++ [f] else (c.rendQ ++ [f]).drop 1) ∧
      c'.markReached = c.markReached := by
  obtain ⟨c1, s1, e1, I1, -⟩ := pullFrame_inv W s I
  have e1' := e1
  unfold pullFrame at e1'
  rw [h] at e1'
  dsimp only at e1'
  rw [if_pos (show (c.upd f.dev fun d => { d with pending := false }).tail > 0 from ht)] at e1'
  simp only [Except.ok.injEq, Prod.mk.injEq] at e1'
  obtain ⟨rfl, rfl⟩ := e1'
  have hrc := I.rc
  rcases enqueueRender_cases ({ c.upd f.dev (fun d => { d with pending := false }) with pendQ := r, pending := c.pending - 1 } : Ctx) f with ⟨hr, he⟩ | ⟨hr, he⟩
  · have hr : c.render < c.tail := hr
    rw [he] at e1 I1
    refine ⟨_, e1, I1, rfl, O.congr rfl rfl (fun j => printedOf_upd c _ j _ (fun _ => rfl)), rfl, rfl, rfl, ?_, rfl⟩
    rw [if_pos (by omega)]
    rfl
  · have hr : ¬ c.render < c.tail := hr
    rw [he] at e1 I1
    refine ⟨_, e1, I1, rfl, O.congr rfl rfl (fun j => printedOf_upd c _ j _ (fun _ => rfl)), rfl, rfl, rfl, ?_, rfl⟩
    rw [if_neg (by omega)]
    rfl

theorem Waiting.pull {c c0 : Ctx} {w : List Frame} (hT : 0 < T) (h : Waiting T n c c0 w) (s : σ) :
    ∃ c1 c2 w', pullFrame W c s = .ok (c1, s) ∧ pullFrame W c0 s = .ok (c2, s) ∧ Waiting T n c1 c2 w' ∧ w <+: w' ∧
      (c1.pendQ = [] ∨ c1.pendQ.length < n) := by
  have B := h.both
  cases hp : popOldest c.pendQ with
  | none =>
    exact ⟨c, c0, w, pull_none hp s, pull_none (by rw [← B.pend]; exact hp) s, h, List.prefix_refl w, .inl ((popOldest_none _).1 hp)⟩
  | some x =>
    obtain ⟨f, r⟩ := x
    obtain ⟨c1, a1, a2, a3, a4, a5, a6, a7, a8, a9⟩ := pull_keep (W := W) s B.inv B.out (by rw [h.tail]; omega) hp
    obtain ⟨c2, b1, b2, b3, b4, b5, b6, b7, b8, b9⟩ := pull_now hW s B.inv0 B.err0 B.out0 B.tl0 (f := f) (r := r) (by rw [← B.pend]; exact hp)
    refine ⟨c1, c2, w ++ [f], a1, b1, ⟨⟨a2, b2, ?_, a5.trans b5.symm, ?_, a3.trans B.err, b3, b7, a4, b4, dev0_snoc B.dev0 (B.inv.plt f (pop_dev _ _ _ hp B.inv.nd).2.2.1)⟩, a7.trans h.tail, ?_, a9.trans h.mark⟩, List.prefix_append _ _, .inr ?_⟩
    · exact Eq.trans a6 (Eq.trans (B.devs.upd f.dev fun _ _ => unpend_core) (Eq.symm b6))
    · rw [a9, b9, B.mark]
    · rw [a8, h.kept, h.tail, lastFew_snoc hT, lastFew_length]
      by_cases hl : w.length < T
      · rw [if_pos (by omega), if_pos hl]
      · rw [if_neg (by omega), if_neg hl]
    · have hl : c.pendQ.length ≤ n := by
        have := nodup_length_le (c.pendQ.map Frame.dev) (List.range n) B.inv.nd (by
          intro x hx
          obtain ⟨g, hg, rfl⟩ := List.mem_map.1 hx
          exact List.mem_range.2 (B.inv.plt g hg))
        simpa using this
      have := (pop_dev _ _ _ hp B.inv.nd).2.1
      rw [a5]; omega

theorem Passed.pull {c c0 : Ctx} {w : List Frame} {k : Nat} (h : Passed T n k c c0 w) (s : σ) :
    ∃ c1 c2 w', pullFrame W c s = .ok (c1, s) ∧ pullFrame W c0 s = .ok (c2, s) ∧ Passed T n k c1 c2 w' ∧ w <+: w' := by
  have B := h.both
  cases hp : popOldest c.pendQ with
  | none => exact ⟨c, c0, w, pull_none hp s, pull_none (by rw [← B.pend]; exact hp) s, h, List.prefix_refl w⟩
  | some x =>
    obtain ⟨f, r⟩ := x
    obtain ⟨c1, a1, a2, a3, a4, a5, a6, a7, a8, a9⟩ := pull_now hW s B.inv B.err B.out h.tail hp
    obtain ⟨c2, b1, b2, b3, b4, b5, b6, b7, b8, b9⟩ := pull_now hW s B.inv0 B.err0 B.out0 B.tl0 (f := f) (r := r) (by rw [← B.pend]; exact hp)
    have hle := h.le
    refine ⟨c1, c2, w ++ [f], a1, b1, ⟨⟨a2, b2, ?_, a5.trans b5.symm, ?_, a3, b3, b7, ?_, b4, dev0_snoc B.dev0 (B.inv.plt f (pop_dev _ _ _ hp B.inv.nd).2.2.1)⟩, a7, a8.trans h.rend, by simp; omega, a9.trans h.mark, ?_⟩, List.prefix_append _ _⟩
    · exact Eq.trans a6 (Eq.trans (B.devs.upd f.dev fun _ _ => unpend_core) (Eq.symm b6))
    · rw [a9, b9, B.mark]
    · rw [List.drop_append_of_le_length hle]; exact a4
    · have h1 := (pop_dev _ _ _ hp B.inv.nd).2.1
      have h2 := h.few
      rw [← B.pend] at h2
      rw [b5, List.length_append, List.length_singleton]
      omega

end

/-! ## Reaching the marks -/

theorem updateMark_eq (c : Ctx) : updateMark c = { c with markReached := c.markReached || !(c.devs.any fun d => decide (d.mark > 0)) } := by
  unfold updateMark
  cases h : c.markReached
  · cases h2 : c.devs.any fun d => decide (d.mark > 0)
    · simp
    · simp [← h]
  · show c = { c with markReached := true }
    rw [← h]

theorem Tailed.updateMark {c c0 : Ctx} {w y : List Frame} (h : Tailed T n c c0 w y) : Tailed T n (updateMark c) (updateMark c0) w y := by
  have i1 := updateMark_inv h.inv
  have i2 := updateMark_inv h.inv0
  rw [updateMark_eq] at i1 i2 ⊢
  rw [updateMark_eq]
  refine ⟨i1, i2, h.devs, h.pend, ?_, h.err, h.err0, h.tl0, h.out.congr rfl rfl (fun _ => rfl), h.out0.congr rfl rfl (fun _ => rfl), h.dev0⟩
  show (c.markReached || _) = (c0.markReached || _)
  rw [h.mark, h.devs.marks]

/-- At the marks: what was handed out and what is pending are the last `T` of what it is without a tail. -/
structure Cut (T n : Nat) (c c0 : Ctx) (w y : List Frame) : Prop where
  inv : Inv T n c
  inv0 : Inv 0 n c0
  err : c.outErr = false
  err0 : c0.outErr = false
  out : OutG n c y
  out0 : OutG n c0 w
  mark : c.markReached = true
  mark0 : c0.markReached = true
  last : y ++ pops c.pendQ.length c.pendQ = lastFew T (w ++ pops c0.pendQ.length c0.pendQ)
  dev0 : ∀ f ∈ w, f.dev < n

section
variable {W : World σ} (hW : ∀ s e, W.output s e = (true, s))
include hW

theorem tailFlush_cut {c c0 : Ctx} {w : List Frame} (hT : 0 < T) (s : σ) (B : Tailed T n c c0 w []) (ht : c.tail = T) (hk : c.rendQ = lastFew T w)
    (hm : c.markReached = true) :
    ∃ c1 y, tailFlush W c s = .ok (c1, s) ∧ Cut T n c1 c0 w y ∧
      (c.pendQ.length ≤ T → Passed T n (w.length + c0.pendQ.length - T) c1 c0 w) := by
  have hrc := B.inv.rc
  have hpc := B.inv.pc
  obtain ⟨c1, e1, I1, e2, e3, e4, e5, e6, e7⟩ := dropExcess_same hW (c.render + c.pending).toNat s B.inv B.err B.out (by omega)
  have hrc1 := I1.rc
  obtain ⟨c2, f1, I2, f2, f3, f4, f5, f6, f7, f8⟩ := renderQueue_same hW c1.render.toNat s I1 e2 e3 (by omega)
  have I3 : Inv T n { c2 with tail := 0 } :=
    { len := I2.len, pc := I2.pc, rc := I2.rc, pool := I2.pool, tT := by dsimp only; omega, rt := by simp [f4]
      plt := I2.plt, rlt := I2.rlt, nd := I2.nd, pf := I2.pf, st := I2.st }
  have hrun : tailFlush W c s = .ok ({ c2 with tail := 0 }, s) := by
    unfold tailFlush
    rw [if_neg (by rw [ht, hm]; simp; omega), e1]
    dsimp only [bind, Except.bind]
    rw [f1]
  have hm2 : c2.markReached = true := f8.trans (e5.trans hm)
  have hlast : c1.rendQ ++ pops c1.pendQ.length c1.pendQ = lastFew T (w ++ pops c0.pendQ.length c0.pendQ) := by
    rw [e6, ht, hk, B.pend, Int.toNat_natCast, lastFew_append]
  rw [List.nil_append] at f3
  refine ⟨_, c1.rendQ, hrun, ⟨I3, B.inv0, f2, B.err0, f3.congr rfl rfl (fun _ => rfl), B.out0, hm2, by rw [← B.mark]; exact hm, ?_, B.dev0⟩, ?_⟩
  · show c1.rendQ ++ pops c2.pendQ.length c2.pendQ = _
    rw [f5]; exact hlast
  · intro hp
    obtain ⟨g1, g2⟩ := e7 (by rw [ht]; omega)
    have hpl := pops_length _ c0.pendQ rfl B.inv0.nd
    have hp0 : c0.pendQ.length ≤ T := by rw [← B.pend]; exact hp
    have hr : c1.rendQ = w.drop (w.length + c0.pendQ.length - T) := by
      rw [g1, B.pend] at hlast
      unfold lastFew at hlast
      rw [List.length_append, hpl, List.drop_append_of_le_length (by omega)] at hlast
      exact List.append_cancel_right hlast
    refine ⟨⟨I3, B.inv0, ?_, ?_, ?_, f2, B.err0, B.tl0, ?_, B.out0, B.dev0⟩, rfl, f4, by omega, hm2, Nat.le_refl _⟩
    · exact Eq.trans f6 (Eq.trans g2 B.devs)
    · exact f5.trans (g1.trans B.pend)
    · show c2.markReached = _
      rw [hm2, ← B.mark, hm]
    · rw [← hr]; exact f3.congr rfl rfl (fun _ => rfl)

omit hW in
/-- After the marks nothing more is dropped. -/
theorem tailFlush_none (c : Ctx) (s : σ) (h : c.tail = 0 ∨ c.markReached = false) : tailFlush W c s = .ok (c, s) := by
  unfold tailFlush
  rw [if_pos h]

/-- A turn before the marks. -/
theorem Waiting.turn {c c0 : Ctx} {w : List Frame} (hT : 0 < T) (h : Waiting T n c c0 w) (s : σ) :
    ∃ c1 c2 s1 r w', processDevices W c s = .ok (c1, s1, r) ∧ processDevices W c0 s = .ok (c2, s1, r) ∧ w <+: w' ∧
      (Waiting T n c1 c2 w' ∨ 0 ≤ r ∧ (∃ y, Cut T n c1 c2 w' y) ∧ (n ≤ T + 1 → Passed T n (w'.length + c2.pendQ.length - T) c1 c2 w')) := by
  have B := h.both
  rw [processDevices_eq, processDevices_eq, ← B.devs.asked, B.inv.len, B.inv0.len]
  cases hp : W.poll s c.asked with
  | mk p s1 =>
    cases p with
    | intr => exact ⟨c, c0, s1, 0, w, rfl, rfl, List.prefix_refl w, .inl h⟩
    | err => exact ⟨c, c0, s1, -1, w, rfl, rfl, List.prefix_refl w, .inl h⟩
    | ok ready =>
      obtain ⟨c1, c2, s2, r, m, e1, e2, B1, ⟨t1, t2, t3⟩, hm⟩ := B.read W c.asked ready (List.range n) List.nodup_range s1 0 (by
        intro i hi ha
        have := (asked_iff c i).1 ha
        rw [B.inv.len] at this
        exact this)
      have h1 : Waiting T n c1 c2 w := ⟨B1, t1.trans h.tail, t2.trans h.kept, t3.trans h.mark⟩
      dsimp only
      rw [e1, e2]
      cases r with
      | some r => exact ⟨c1, c2, s2, r, w, rfl, rfl, List.prefix_refl w, .inl h1⟩
      | none =>
        obtain ⟨c3, c4, w', g1, g2, h3, hw, hl⟩ := h1.pull hW hT s2
        have B4 := h3.both.updateMark
        have tl : (updateMark c3).tail = T := by rw [updateMark_eq]; exact h3.tail
        have kp : (updateMark c3).rendQ = lastFew T w' := by rw [updateMark_eq]; exact h3.kept
        have pq : (updateMark c3).pendQ = c3.pendQ := by rw [updateMark_eq]
        have n0 := tailFlush_none (W := W) (updateMark c4) s2 (.inl B4.tl0)
        dsimp only
        unfold endPass
        rw [g1, g2]
        dsimp only [bind, Except.bind]
        rw [n0]
        cases hmk : (updateMark c3).markReached
        · rw [tailFlush_none _ s2 (.inr hmk)]
          exact ⟨_, _, s2, m, w', rfl, rfl, hw, .inl ⟨B4, tl, kp, hmk⟩⟩
        · obtain ⟨c5, y, k1, k2, k3⟩ := tailFlush_cut hW hT s2 B4 tl kp hmk
          rw [k1]
          refine ⟨_, _, s2, m, w', rfl, rfl, hw, .inr ⟨hm, ⟨y, k2⟩, fun hn => k3 ?_⟩⟩
          rw [pq]
          rcases hl with hl | hl
          · rw [hl]; simp
          · omega

/-- A turn after the marks. -/
theorem Passed.turn {c c0 : Ctx} {w : List Frame} {k : Nat} (h : Passed T n k c c0 w) (s : σ) :
    ∃ c1 c2 s1 r w', processDevices W c s = .ok (c1, s1, r) ∧ processDevices W c0 s = .ok (c2, s1, r) ∧ w <+: w' ∧ Passed T n k c1 c2 w' := by
  have B := h.both
  rw [processDevices_eq, processDevices_eq, ← B.devs.asked, B.inv.len, B.inv0.len]
  cases hp : W.poll s c.asked with
  | mk p s1 =>
    cases p with
    | intr => exact ⟨c, c0, s1, 0, w, rfl, rfl, List.prefix_refl w, h⟩
    | err => exact ⟨c, c0, s1, -1, w, rfl, rfl, List.prefix_refl w, h⟩
    | ok ready =>
      obtain ⟨c1, c2, s2, r, m, e1, e2, B1, ⟨t1, t2, t3⟩, hm⟩ := B.read W c.asked ready (List.range n) List.nodup_range s1 0 (by
        intro i hi ha
        have := (asked_iff c i).1 ha
        rw [B.inv.len] at this
        exact this)
      have hmore := readDevs_more W c.asked ready (List.range n) c0 s1 0
      rw [e2] at hmore
      have hfew := h.few
      have h1 : Passed T n k c1 c2 w := ⟨B1, t1.trans h.tail, t2.trans h.rend, h.le, t3.trans h.mark, by dsimp only at hmore; omega⟩
      dsimp only
      rw [e1, e2]
      cases r with
      | some r => exact ⟨c1, c2, s2, r, w, rfl, rfl, List.prefix_refl w, h1⟩
      | none =>
        obtain ⟨c3, c4, w', g1, g2, h3, hw⟩ := h1.pull hW s2
        have B4 := h3.both.updateMark
        have tl : (updateMark c3).tail = 0 := by rw [updateMark_eq]; exact h3.tail
        dsimp only
        unfold endPass
        rw [g1, g2]
        dsimp only [bind, Except.bind]
        rw [tailFlush_none (updateMark c4) s2 (.inl B4.tl0), tailFlush_none (updateMark c3) s2 (.inl tl)]
        refine ⟨_, _, s2, m, w', rfl, rfl, hw, ⟨B4, tl, ?_, h3.le, ?_, ?_⟩⟩
        · rw [updateMark_eq]; exact h3.rend
        · rw [updateMark_eq]; simp [h3.mark]
        · rw [updateMark_eq]; exact h3.few

end

end Verif.Ulogcat
