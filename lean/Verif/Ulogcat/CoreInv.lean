import Verif.Ulogcat.Core

/-! # Invariant of the reading loop: where the frames are -/

namespace Verif.Ulogcat

variable {σ : Type}

theorem popOldest_none (l : List Frame) : popOldest l = none ↔ l = [] := by
  cases l with
  | nil => simp [popOldest]
  | cons f t =>
    simp only [popOldest]
    split
    · simp
    · split <;> simp

theorem popOldest_some (l : List Frame) (f : Frame) (r : List Frame) (h : popOldest l = some (f, r)) :
    ∃ a b, l = a ++ f :: b ∧ r = a ++ b ∧ (∀ g ∈ a, f.stamp < g.stamp) ∧ (∀ g ∈ b, f.stamp ≤ g.stamp) := by
  induction l generalizing f r with
  | nil => simp [popOldest] at h
  | cons x t ih =>
    simp only [popOldest] at h
    split at h
    · rename_i hn
      rw [popOldest_none] at hn
      subst hn
      simp only [Option.some.injEq, Prod.mk.injEq] at h
      exact ⟨[], [], by simp [h.1], by simp [← h.2], by simp, by simp⟩
    · rename_i g r' hs
      obtain ⟨a, b, e1, e2, e3, e4⟩ := ih g r' hs
      split at h
      · rename_i hlt
        simp only [Option.some.injEq, Prod.mk.injEq] at h
        obtain ⟨rfl, rfl⟩ := h
        refine ⟨x :: a, b, by simp [e1], by simp [e2], ?_, e4⟩
        intro y hy
        rcases List.mem_cons.1 hy with rfl | hy
        · exact hlt
        · exact e3 y hy
      · rename_i hlt
        simp only [Option.some.injEq, Prod.mk.injEq] at h
        obtain ⟨rfl, rfl⟩ := h
        refine ⟨[], t, rfl, rfl, by simp, ?_⟩
        intro y hy
        rw [e1] at hy
        rcases List.mem_append.1 hy with hy | hy
        · have := e3 y hy; omega
        · rcases List.mem_cons.1 hy with rfl | hy
          · omega
          · have := e4 y hy; omega

/-! ## What output does not touch -/

def Dev.core (d : Dev) : Dev := { d with printed := false }

/-- The context without output. -/
def Ctx.core (c : Ctx) : Ctx :=
  { c with devs := c.devs.map Dev.core, out := [], outErr := false }

theorem modify_core (l : List Dev) (i : Nat) (g : Dev → Dev) (h : ∀ d, (g d).core = d.core) :
    (l.modify i g).map Dev.core = l.map Dev.core := by
  induction l generalizing i with
  | nil => cases i <;> rfl
  | cons d l ih =>
    cases i with
    | zero => simp [h]
    | succ i => simp [ih]

theorem output_core (W : World σ) (c : Ctx) (s : σ) (e : OutEv) : (output W c s e).1.core = c.core := by
  unfold output
  split
  · rfl
  · split <;> rfl

theorem flushFrame_core (W : World σ) (c : Ctx) (s : σ) (f : Frame) (h : f.dev < c.devs.length) :
    ∃ c' s', flushFrame W c s f = .ok (c', s') ∧ c'.core = c.core := by
  obtain ⟨d, hd⟩ : ∃ d, c.devs[f.dev]? = some d := ⟨c.devs[f.dev], by simp [h]⟩
  unfold flushFrame
  rw [hd]
  dsimp only
  refine ⟨_, _, rfl, ?_⟩
  have hb : (flushBanner W c s f d).1.core = c.core := by
    unfold flushBanner
    split
    · have := output_core W c s (.banner f.dev f.stamp)
      rw [← this]
      simp only [Ctx.core, Ctx.upd, Ctx.mk.injEq, and_true]
      exact modify_core _ _ _ (fun _ => rfl)
    · rfl
  show (flushEntry W (flushBanner W c s f d) f).1.core = c.core
  unfold flushEntry
  split
  · rw [output_core, hb]
  · exact hb

theorem flushUnless_core (W : World σ) (drop : Bool) (c : Ctx) (s : σ) (f : Frame) (h : f.dev < c.devs.length) :
    ∃ c' s', flushUnless W drop c s f = .ok (c', s') ∧ c'.core = c.core := by
  cases drop
  · exact flushFrame_core W c s f h
  · exact ⟨c, s, rfl, rfl⟩

/-! ## The invariant -/

def Ctx.isPending (c : Ctx) (i : Nat) : Bool :=
  match c.devs[i]? with
  | some d => d.pending
  | none => false

structure Inv (T n : Nat) (c : Ctx) : Prop where
  len : c.devs.length = n
  pc : c.pending = c.pendQ.length
  rc : c.render = c.rendQ.length
  pool : c.free + c.pendQ.length + c.rendQ.length = T + n + 1
  tT : c.tail ≤ T
  rt : (c.rendQ.length : Int) ≤ c.tail
  plt : ∀ f ∈ c.pendQ, f.dev < n
  rlt : ∀ f ∈ c.rendQ, f.dev < n
  nd : (c.pendQ.map Frame.dev).Nodup
  pf : ∀ i, c.isPending i = true ↔ i ∈ c.pendQ.map Frame.dev
  st : c.starved = false

theorem isPending_core (c : Ctx) (i : Nat) : c.core.isPending i = c.isPending i := by
  unfold Ctx.isPending Ctx.core
  simp only [List.getElem?_map]
  cases c.devs[i]? <;> rfl

theorem isPending_congr {c c' : Ctx} (h : c'.core = c.core) (i : Nat) : c'.isPending i = c.isPending i := by
  rw [← isPending_core, h, isPending_core]

theorem Inv.congr {T n : Nat} {c c' : Ctx} (I : Inv T n c) (h : c'.core = c.core) : Inv T n c' := by
  have hp := isPending_congr h
  simp only [Ctx.core, Ctx.mk.injEq, true_and] at h
  obtain ⟨h1, h2, h3, h4, h5, h6, h7, h8, h9⟩ := h
  have hl : c'.devs.length = c.devs.length := by simpa using congrArg List.length h1
  exact { len := hl.trans I.len, pc := by rw [h4, h3]; exact I.pc, rc := by rw [h6, h5]; exact I.rc, pool := by rw [h2, h3, h5]; exact I.pool
          tT := by rw [h7]; exact I.tT, rt := by rw [h7, h5]; exact I.rt, plt := by rw [h3]; exact I.plt, rlt := by rw [h5]; exact I.rlt
          nd := by rw [h3]; exact I.nd, pf := by rw [h3]; intro i; rw [hp]; exact I.pf i, st := by rw [h9]; exact I.st }

/-! ## Changing one device -/

theorem isPending_upd (c : Ctx) (i j : Nat) (g : Dev → Dev) :
    (c.upd i g).isPending j = if i = j then (match c.devs[j]? with | some d => (g d).pending | none => false) else c.isPending j := by
  unfold Ctx.isPending Ctx.upd
  simp only [List.getElem?_modify]
  by_cases h : i = j
  · simp only [h, if_true]
    cases c.devs[j]? <;> rfl
  · simp only [h, if_false]
    cases c.devs[j]? <;> rfl

/-- Removing the first pending frame that has the smallest time stamp. -/
theorem pop_dev (l : List Frame) (f : Frame) (r : List Frame) (h : popOldest l = some (f, r))
    (nd : (l.map Frame.dev).Nodup) :
    (r.map Frame.dev).Nodup ∧ l.length = r.length + 1 ∧ f ∈ l ∧ (∀ g ∈ r, g ∈ l) ∧
      ∀ i, i ∈ r.map Frame.dev ↔ i ∈ l.map Frame.dev ∧ i ≠ f.dev := by
  obtain ⟨a, b, rfl, rfl, -, -⟩ := popOldest_some l f r h
  simp only [List.map_append, List.map_cons] at nd ⊢
  have nd' : (f.dev :: (a.map Frame.dev ++ b.map Frame.dev)).Nodup :=
    (List.perm_middle.nodup_iff).1 nd
  refine ⟨(List.nodup_cons.1 nd').2, by simp; omega, by simp, ?_, ?_⟩
  · intro g hg
    rcases List.mem_append.1 hg with hg | hg
    · exact List.mem_append_left _ hg
    · exact List.mem_append_right _ (List.mem_cons_of_mem _ hg)
  · intro i
    have hn := (List.nodup_cons.1 nd').1
    constructor
    · intro hi
      refine ⟨?_, fun he => hn (he ▸ hi)⟩
      rcases List.mem_append.1 hi with hi | hi
      · exact List.mem_append_left _ hi
      · exact List.mem_append_right _ (List.mem_cons_of_mem _ hi)
    · rintro ⟨hi, hne⟩
      rcases List.mem_append.1 hi with hi | hi
      · exact List.mem_append_left _ hi
      · rcases List.mem_cons.1 hi with hi | hi
        · exact absurd hi hne
        · exact List.mem_append_right _ hi

theorem isPending_mk (c c' : Ctx) (h : c'.devs = c.devs) (i : Nat) : c'.isPending i = c.isPending i := by
  unfold Ctx.isPending
  rw [h]

theorem upd_len (c : Ctx) (i : Nat) (g : Dev → Dev) : (c.upd i g).devs.length = c.devs.length := by
  simp [Ctx.upd]

/-- The pending set after a frame was taken off the pending queue. -/
theorem pf_pop {T n : Nat} {c : Ctx} (I : Inv T n c) {f : Frame} {r : List Frame}
    (h : popOldest c.pendQ = some (f, r)) (i : Nat) :
    (c.upd f.dev fun d => { d with pending := false }).isPending i = true ↔ i ∈ r.map Frame.dev := by
  obtain ⟨-, -, -, -, h5⟩ := pop_dev _ _ _ h I.nd
  rw [isPending_upd, h5, ← I.pf]
  by_cases hi : f.dev = i
  · simp only [hi, if_true]
    constructor
    · intro hx
      cases hd : c.devs[i]? with
      | none => simp [hd] at hx
      | some d => simp [hd] at hx
    · rintro ⟨-, hx⟩; exact absurd rfl hx
  · simp only [hi, if_false]
    exact ⟨fun hx => ⟨hx, fun e => hi e.symm⟩, fun hx => hx.1⟩

theorem enqueueRender_cases (c : Ctx) (f : Frame) :
    (c.render < c.tail ∧ enqueueRender c f = { c with rendQ := c.rendQ ++ [f], render := c.render + 1 }) ∨
    (¬ c.render < c.tail ∧ enqueueRender c f = { c with rendQ := (c.rendQ ++ [f]).drop 1, free := c.free + 1 }) := by
  unfold enqueueRender
  by_cases h : c.render < c.tail
  · exact Or.inl ⟨h, if_pos h⟩
  · exact Or.inr ⟨h, if_neg h⟩

theorem pullFrame_inv {T n : Nat} (W : World σ) {c : Ctx} (s : σ) (I : Inv T n c) :
    ∃ c' s', pullFrame W c s = .ok (c', s') ∧ Inv T n c' ∧ c'.tail = c.tail := by
  unfold pullFrame
  split
  · exact ⟨c, s, rfl, I, rfl⟩
  · rename_i f r h
    obtain ⟨p1, p2, p3, p4, p5⟩ := pop_dev _ _ _ h I.nd
    have pf := pf_pop I h
    dsimp only
    have hpool := I.pool
    have hrt := I.rt
    have hpc := I.pc
    have hrc := I.rc
    split
    · rename_i ht
      refine ⟨_, _, rfl, ?_, ?_⟩
      · rcases enqueueRender_cases ({ c.upd f.dev (fun d => { d with pending := false }) with pendQ := r, pending := c.pending - 1 } : Ctx) f with ⟨hr, he⟩ | ⟨hr, he⟩
        · rw [he]
          dsimp only [Ctx.upd] at *
          exact { len := by simp [I.len], pc := by dsimp only; omega, rc := by simp; omega, pool := by simp; omega
                  tT := I.tT, rt := by simp; omega, plt := fun g hg => I.plt g (p4 g hg)
                  rlt := fun g hg => by
                    rcases List.mem_append.1 hg with hg | hg
                    · exact I.rlt g hg
                    · rw [List.mem_singleton.1 hg]; exact I.plt f p3
                  nd := p1, pf := pf, st := I.st }
        · rw [he]
          dsimp only [Ctx.upd] at *
          exact { len := by simp [I.len], pc := by dsimp only; omega, rc := by simp; omega, pool := by simp; omega
                  tT := I.tT, rt := by simp; omega, plt := fun g hg => I.plt g (p4 g hg)
                  rlt := fun g hg => by
                    rcases List.mem_append.1 (List.mem_of_mem_drop hg) with hg | hg
                    · exact I.rlt g hg
                    · rw [List.mem_singleton.1 hg]; exact I.plt f p3
                  nd := p1, pf := pf, st := I.st }
      · unfold enqueueRender
        dsimp only
        split <;> rfl
    · rename_i ht
      dsimp only [Ctx.upd] at ht
      obtain ⟨c', s', e1, e2⟩ := flushFrame_core W
        { c.upd f.dev (fun d => { d with pending := false }) with pendQ := r, pending := c.pending - 1 } s f
        (by rw [show ({ c.upd f.dev (fun d => { d with pending := false }) with
          pendQ := r, pending := c.pending - 1 } : Ctx).devs.length = (c.upd f.dev fun d => { d with pending := false }).devs.length from rfl, upd_len, I.len]; exact I.plt f p3)
      rw [e1]
      refine ⟨_, _, rfl, ?_, ?_⟩
      · have I' : Inv (T) n { c.upd f.dev (fun d => { d with pending := false }) with
            pendQ := r, pending := c.pending - 1, free := c.free + 1 } := by
          dsimp only [Ctx.upd] at *
          exact { len := by simp [I.len], pc := by dsimp only; omega, rc := I.rc, pool := by dsimp only; omega
                  tT := I.tT, rt := I.rt, plt := fun g hg => I.plt g (p4 g hg), rlt := I.rlt
                  nd := p1, pf := pf, st := I.st }
        refine I'.congr ?_
        simp only [Ctx.core, Ctx.mk.injEq, true_and] at e2 ⊢
        obtain ⟨h1, h2, h3, h4, h5, h6, h7, h8, h9⟩ := e2
        exact ⟨h1, by rw [h2]; rfl, h3, h4, h5, h6, h7, h8, h9⟩
      · simp only [Ctx.core, Ctx.mk.injEq, true_and] at e2
        exact e2.2.2.2.2.2.2.1

theorem updateMark_inv {T n : Nat} {c : Ctx} (I : Inv T n c) : Inv T n (updateMark c) := by
  unfold updateMark
  split
  · exact I
  · split
    · exact I
    · exact { len := I.len, pc := I.pc, rc := I.rc, pool := I.pool, tT := I.tT, rt := I.rt, plt := I.plt, rlt := I.rlt, nd := I.nd, pf := I.pf, st := I.st }

theorem flushRenderFrame_inv {T n : Nat} (W : World σ) (drop : Bool) {c : Ctx} (s : σ) (I : Inv T n c)
    (hr : 0 < c.render) :
    ∃ c' s', flushRenderFrame W drop c s = .ok (c', s') ∧ Inv T n c' ∧ c'.tail = c.tail ∧
      c'.render = c.render - 1 ∧ c'.pending = c.pending ∧ c'.markReached = c.markReached := by
  unfold flushRenderFrame
  rw [if_pos hr]
  have hrc := I.rc
  split
  · rename_i hq
    rw [hq] at hrc
    simp at hrc
    omega
  · rename_i f t hq
    have hpool := I.pool
    have hrt := I.rt
    rw [hq] at hrc hpool hrt
    simp only [List.length_cons] at hrc hpool hrt
    obtain ⟨c1, s1, e1, e2⟩ := flushUnless_core W drop c s f (by rw [I.len]; exact I.rlt f (by simp [hq]))
    rw [e1]
    have I1 := I.congr e2
    simp only [Ctx.core, Ctx.mk.injEq, true_and] at e2
    obtain ⟨h1, h2, h3, h4, h5, h6, h7, h8, h9⟩ := e2
    refine ⟨_, _, rfl, ?_, h7, by dsimp only; omega, h4, h8⟩
    exact { len := I1.len, pc := I1.pc, rc := by dsimp only; omega, pool := by dsimp only; rw [h2, h3]; omega
            tT := I1.tT, rt := by dsimp only; rw [h7]; omega, plt := I1.plt
            rlt := fun g hg => I.rlt g (by rw [hq]; exact List.mem_cons_of_mem _ hg)
            nd := I1.nd, pf := I1.pf, st := I1.st }

theorem flushPendingFrame_inv {T n : Nat} (W : World σ) (drop : Bool) {c : Ctx} (s : σ) (I : Inv T n c)
    (hr : 0 < c.pending) :
    ∃ c' s', flushPendingFrame W drop c s = .ok (c', s') ∧ Inv T n c' ∧ c'.tail = c.tail ∧
      c'.pending = c.pending - 1 ∧ c'.render = c.render ∧ c'.markReached = c.markReached := by
  unfold flushPendingFrame
  rw [if_pos hr]
  have hpc := I.pc
  split
  · rename_i hq
    rw [popOldest_none] at hq
    rw [hq] at hpc
    simp at hpc
    omega
  · rename_i f t hq
    have hpool := I.pool
    obtain ⟨c1, s1, e1, e2⟩ := flushUnless_core W drop c s f (by rw [I.len]; exact I.plt f ((pop_dev _ _ _ hq I.nd).2.2.1))
    rw [e1]
    have I1 := I.congr e2
    simp only [Ctx.core, Ctx.mk.injEq, true_and] at e2
    obtain ⟨h1, h2, h3, h4, h5, h6, h7, h8, h9⟩ := e2
    have hq1 : popOldest c1.pendQ = some (f, t) := by rw [h3]; exact hq
    obtain ⟨p1, p2, p3, p4, p5⟩ := pop_dev _ _ _ hq1 I1.nd
    have pf := pf_pop I1 hq1
    have hpc1 := I1.pc
    have hpool1 := I1.pool
    refine ⟨_, _, rfl, ?_, h7, by dsimp only; omega, h6, h8⟩
    exact { len := by dsimp only; rw [upd_len]; exact I1.len, pc := by dsimp only; omega, rc := I1.rc, pool := by dsimp only [Ctx.upd]; omega
            tT := I1.tT, rt := I1.rt, plt := fun g hg => I1.plt g (p4 g hg), rlt := I1.rlt
            nd := p1, pf := pf, st := I1.st }

theorem flushRenderQueue_inv {T n : Nat} (W : World σ) (k : Nat) {c : Ctx} (s : σ) (I : Inv T n c)
    (hk : c.render ≤ k) :
    ∃ c' s', flushRenderQueue W k c s = .ok (c', s') ∧ Inv T n c' ∧ c'.rendQ = [] ∧ c'.tail = c.tail ∧
      c'.markReached = c.markReached := by
  induction k generalizing c s with
  | zero =>
    have h0 : ¬ c.render > 0 := by omega
    refine ⟨c, s, by simp [flushRenderQueue, h0], I, ?_, rfl, rfl⟩
    have := I.rc
    exact List.eq_nil_of_length_eq_zero (by omega)
  | succ k ih =>
    by_cases hr : c.render > 0
    · obtain ⟨c1, s1, e1, I1, e2, e3, e4, e5⟩ := flushRenderFrame_inv W false s I hr
      obtain ⟨c2, s2, f1, I2, f2, f3, f4⟩ := ih s1 I1 (by omega)
      refine ⟨c2, s2, ?_, I2, f2, f3.trans e2, f4.trans e5⟩
      simp only [flushRenderQueue, hr, if_true, e1]
      exact f1
    · refine ⟨c, s, by simp [flushRenderQueue, hr], I, ?_, rfl, rfl⟩
      have := I.rc
      exact List.eq_nil_of_length_eq_zero (by omega)

theorem flushPendingQueue_inv {T n : Nat} (W : World σ) (k : Nat) {c : Ctx} (s : σ) (I : Inv T n c)
    (hk : c.pending ≤ k) :
    ∃ c' s', flushPendingQueue W k c s = .ok (c', s') ∧ Inv T n c' ∧ c'.pendQ = [] := by
  induction k generalizing c s with
  | zero =>
    have h0 : ¬ c.pending > 0 := by omega
    refine ⟨c, s, by simp [flushPendingQueue, h0], I, ?_⟩
    have := I.pc
    exact List.eq_nil_of_length_eq_zero (by omega)
  | succ k ih =>
    by_cases hr : c.pending > 0
    · obtain ⟨c1, s1, e1, I1, e2, e3, e4, e5⟩ := flushPendingFrame_inv W false s I hr
      obtain ⟨c2, s2, f1, I2, f2⟩ := ih s1 I1 (by omega)
      refine ⟨c2, s2, ?_, I2, f2⟩
      simp only [flushPendingQueue, hr, if_true, e1]
      exact f1
    · refine ⟨c, s, by simp [flushPendingQueue, hr], I, ?_⟩
      have := I.pc
      exact List.eq_nil_of_length_eq_zero (by omega)

theorem dropExcess_inv {T n : Nat} (W : World σ) (k : Nat) {c : Ctx} (s : σ) (I : Inv T n c)
    (hk : c.render + c.pending ≤ k) :
    ∃ c' s', dropExcess W k c s = .ok (c', s') ∧ Inv T n c' ∧ c'.tail = c.tail ∧ c'.markReached = c.markReached := by
  have h0 : 0 ≤ c.tail := Int.le_trans (Int.natCast_nonneg _) I.rt
  induction k generalizing c s with
  | zero =>
    have h1 : ¬ c.render + c.pending > c.tail := by omega
    exact ⟨c, s, by simp [dropExcess, h1], I, rfl, rfl⟩
  | succ k ih =>
    by_cases h1 : c.render + c.pending > c.tail
    · by_cases hr : c.render > 0
      · obtain ⟨c1, s1, e1, I1, e2, e3, e4, e5⟩ := flushRenderFrame_inv W true s I hr
        obtain ⟨c2, s2, f1, I2, f2, f3⟩ := ih s1 I1 (by omega) (by omega)
        refine ⟨c2, s2, ?_, I2, f2.trans e2, f3.trans e5⟩
        simp only [dropExcess, h1, hr, if_true, e1]
        exact f1
      · have hp : c.pending > 0 := by omega
        obtain ⟨c1, s1, e1, I1, e2, e3, e4, e5⟩ := flushPendingFrame_inv W true s I hp
        obtain ⟨c2, s2, f1, I2, f2, f3⟩ := ih s1 I1 (by omega) (by omega)
        refine ⟨c2, s2, ?_, I2, f2.trans e2, f3.trans e5⟩
        simp only [dropExcess, h1, hr, hp, if_true, if_false, e1]
        exact f1
    · exact ⟨c, s, by simp [dropExcess, h1], I, rfl, rfl⟩

theorem tailFlush_inv {T n : Nat} (W : World σ) {c : Ctx} (s : σ) (I : Inv T n c) :
    ∃ c' s', tailFlush W c s = .ok (c', s') ∧ Inv T n c' ∧ c'.markReached = c.markReached := by
  unfold tailFlush
  split
  · exact ⟨c, s, rfl, I, rfl⟩
  · obtain ⟨c1, s1, e1, I1, e2, e3⟩ := dropExcess_inv W (c.render + c.pending).toNat s I (by omega)
    obtain ⟨c2, s2, f1, I2, f2, f3, f4⟩ := flushRenderQueue_inv W c1.render.toNat s1 I1 (by omega)
    rw [e1]
    dsimp only [Except.bind, bind]
    rw [f1]
    refine ⟨_, _, rfl, ?_, f4.trans e3⟩
    exact { len := I2.len, pc := I2.pc, rc := I2.rc, pool := I2.pool
            tT := by dsimp only; omega, rt := by simp [f2], plt := I2.plt, rlt := I2.rlt, nd := I2.nd, pf := I2.pf, st := I2.st }

/-! ## Reading the devices -/

theorem nodup_length_le (l m : List Nat) (nd : l.Nodup) (h : ∀ x ∈ l, x ∈ m) : l.length ≤ m.length := by
  induction l generalizing m with
  | nil => simp
  | cons a l ih =>
    have h1 := List.nodup_cons.1 nd
    have ha : a ∈ m := h a (by simp)
    have := ih (m.erase a) h1.2 (by
      intro x hx
      have hne : x ≠ a := fun e => h1.1 (e ▸ hx)
      exact (List.mem_erase_of_ne hne).2 (h x (List.mem_cons_of_mem _ hx)))
    rw [List.length_erase_of_mem ha] at this
    have : 0 < m.length := List.length_pos_of_mem ha
    simp only [List.length_cons]
    omega

/-- A device that is not pending leaves room in the pending queue. -/
theorem room {T n : Nat} {c : Ctx} (I : Inv T n c) {i : Nat} (hi : i < n) (hp : c.isPending i = false) :
    2 ≤ c.free := by
  have h1 : (i :: c.pendQ.map Frame.dev).length ≤ (List.range n).length := by
    refine nodup_length_le _ _ (List.nodup_cons.2 ⟨?_, I.nd⟩) ?_
    · intro hm
      rw [(I.pf i).2 hm] at hp
      cases hp
    · intro x hx
      rw [List.mem_range]
      rcases List.mem_cons.1 hx with rfl | hx
      · exact hi
      · obtain ⟨f, hf, rfl⟩ := List.mem_map.1 hx
        exact I.plt f hf
  have h2 := I.pool
  have h3 := I.rt
  have h4 := I.tT
  simp only [List.length_cons, List.length_map, List.length_range] at h1
  omega

theorem unready_pending (d : Dev) : d.unready.pending = d.pending := by
  unfold Dev.unready; split <;> rfl

theorem isPending_unready (c : Ctx) (i j : Nat) : (c.upd i Dev.unready).isPending j = c.isPending j := by
  rw [isPending_upd]
  unfold Ctx.isPending
  by_cases h : i = j
  · simp only [h, if_true]
    cases c.devs[j]? with
    | none => rfl
    | some d => exact unready_pending d
  · simp [h]

theorem Inv.unready {T n : Nat} {c : Ctx} (I : Inv T n c) (i : Nat) : Inv T n (c.upd i Dev.unready) :=
  { len := (upd_len _ _ _).trans I.len, pc := I.pc, rc := I.rc, pool := I.pool, tT := I.tT, rt := I.rt, plt := I.plt, rlt := I.rlt
    nd := I.nd, pf := fun j => by rw [isPending_unready]; exact I.pf j, st := I.st }

/-- The context after `receive_entry` delivered a frame. -/
def Ctx.got (c : Ctx) (f : Frame) (dec : Nat) : Ctx :=
  ({ c with free := c.free - 1, pendQ := c.pendQ ++ [f], pending := c.pending + 1 } : Ctx).upd f.dev
    fun d => { d with mark := d.mark - dec, pending := true }

theorem isPending_got (c : Ctx) (f : Frame) (dec : Nat) (h : f.dev < c.devs.length) (j : Nat) :
    (c.got f dec).isPending j = if f.dev = j then true else c.isPending j := by
  unfold Ctx.got
  rw [isPending_upd]
  by_cases hj : f.dev = j
  · subst hj
    simp [h]
  · simp only [hj, if_false]
    rfl

theorem Inv.got {T n : Nat} {c : Ctx} (I : Inv T n c) (f : Frame) (dec : Nat) (hf : f.dev < n)
    (hp : c.isPending f.dev = false) : Inv T n (c.got f dec) := by
  have hr := room I hf hp
  have hpc := I.pc
  have hpool := I.pool
  refine { len := (upd_len _ _ _).trans I.len, pc := by simp [Ctx.got, Ctx.upd]; omega, rc := I.rc
           pool := by simp [Ctx.got, Ctx.upd]; omega, tT := I.tT, rt := I.rt
           plt := ?_, rlt := I.rlt, nd := ?_, pf := ?_, st := I.st }
  · intro g hg
    rcases List.mem_append.1 hg with hg | hg
    · exact I.plt g hg
    · rw [List.mem_singleton.1 hg]; exact hf
  · show ((c.pendQ ++ [f]).map Frame.dev).Nodup
    rw [List.map_append, List.nodup_append]
    refine ⟨I.nd, by simp, ?_⟩
    intro a ha b hb e
    simp only [List.map_cons, List.map_nil, List.mem_singleton] at hb
    rw [hb] at e
    rw [e, ← I.pf, hp] at ha
    cases ha
  · intro j
    show _ ↔ j ∈ (c.pendQ ++ [f]).map Frame.dev
    rw [isPending_got _ _ _ (by rw [I.len]; exact hf)]
    by_cases hj : f.dev = j
    · simp [hj]
    · simp only [hj, if_false, I.pf, List.map_append, List.mem_append, List.map_cons, List.map_nil, List.mem_singleton]
      exact ⟨Or.inl, fun h => h.resolve_right fun e => hj e.symm⟩

theorem readDevs_cons (W : World σ) (asked ready : Nat → Bool) (i : Nat) (is : List Nat) (c : Ctx) (s : σ) (m : Int) :
    readDevs W asked ready (i :: is) c s m =
    if (asked i && ready i) = false then
      readDevs W asked ready is (if asked i then c.upd i Dev.unready else c) s m
    else if c.free = 0 then readDevs W asked ready is { c with starved := true } s m
    else
      match W.recv s i with
      | (.err, s) => (c, s, some (-1), m)
      | (.again, s) => (c, s, some 0, m)
      | (.got stamp id shown dec, s) => readDevs W asked ready is (c.got (Frame.mk i stamp id shown) dec) s (m + 1) := by
  rw [readDevs]
  rfl

theorem readDevs_inv {T n : Nat} (W : World σ) (asked ready : Nat → Bool) (is : List Nat) (nd : is.Nodup)
    {c : Ctx} (s : σ) (m : Int) (I : Inv T n c)
    (ha : ∀ i ∈ is, asked i = true → i < n ∧ c.isPending i = false) :
    Inv T n (readDevs W asked ready is c s m).1 := by
  induction is generalizing c s m with
  | nil => exact I
  | cons i is ih =>
    have nd' := List.nodup_cons.1 nd
    rw [readDevs_cons]
    split
    · refine ih nd'.2 s m ?_ ?_
      · split
        · exact I.unready i
        · exact I
      · intro j hj hja
        have := ha j (List.mem_cons_of_mem _ hj) hja
        refine ⟨this.1, ?_⟩
        split
        · rw [isPending_unready]; exact this.2
        · exact this.2
    · rename_i hne
      have hai : asked i = true := by
        cases h : asked i
        · simp [h] at hne
        · rfl
      have hi := ha i (by simp) hai
      have hroom := room I hi.1 hi.2
      rw [if_neg (by omega)]
      split
      · exact I
      · exact I
      · refine ih nd'.2 _ _ (I.got (Frame.mk i _ _ _) _ hi.1 hi.2) ?_
        intro j hj hja
        have hj2 := ha j (List.mem_cons_of_mem _ hj) hja
        refine ⟨hj2.1, ?_⟩
        rw [isPending_got _ _ _ (by rw [I.len]; exact hi.1)]
        rw [if_neg]
        · exact hj2.2
        · intro e
          have e : i = j := e
          exact nd'.1 (e ▸ hj)

/-- Which devices `poll` is asked about (libulogcat_core.c:285-288). -/
def Ctx.asked (c : Ctx) (i : Nat) : Bool :=
  match c.devs[i]? with
  | some d => !d.pending
  | none => false

theorem asked_iff (c : Ctx) (i : Nat) : c.asked i = true ↔ i < c.devs.length ∧ c.isPending i = false := by
  unfold Ctx.asked Ctx.isPending
  by_cases h : i < c.devs.length
  · simp [h]
  · simp [h]

theorem processDevices_eq (W : World σ) (c : Ctx) (s : σ) :
    processDevices W c s =
    match W.poll s c.asked with
    | (.intr, s) => .ok (c, s, 0)
    | (.err, s) => .ok (c, s, -1)
    | (.ok ready, s) =>
      match readDevs W c.asked ready (List.range c.devs.length) c s 0 with
      | (c, s, some r, _) => .ok (c, s, r)
      | (c, s, none, n) => (endPass W c s).map fun x => (x.1, x.2, n) := rfl

theorem processDevices_inv {T n : Nat} (W : World σ) {c : Ctx} (s : σ) (I : Inv T n c) :
    ∃ c' s' r, processDevices W c s = .ok (c', s', r) ∧ Inv T n c' := by
  rw [processDevices_eq]
  split
  · exact ⟨_, _, _, rfl, I⟩
  · exact ⟨_, _, _, rfl, I⟩
  · rename_i ready s1 hp
    have I1 := readDevs_inv W c.asked ready (List.range c.devs.length) List.nodup_range s1 0 I (by
      intro i hi ha
      have := (asked_iff c i).1 ha
      rw [I.len] at this
      exact this)
    split
    · rename_i c1 s2 r m he
      rw [he] at I1
      exact ⟨_, _, _, rfl, I1⟩
    · rename_i c1 s2 m he
      rw [he] at I1
      obtain ⟨c2, s3, e1, I2, e2⟩ := pullFrame_inv W s2 I1
      obtain ⟨c3, s4, f1, I3, f2⟩ := tailFlush_inv W s3 (updateMark_inv I2)
      unfold endPass
      rw [e1]
      dsimp only [bind, Except.bind]
      rw [f1]
      exact ⟨_, _, _, rfl, I3⟩

theorem processLogs_inv {T n : Nat} (W : World σ) (dump : Bool) (max : Int) (fuel : Nat) {c : Ctx} (s : σ) (fr : Int)
    (I : Inv T n c) : ∃ c' s' r, processLogs W dump max fuel c s fr = .ok (c', s', r) ∧ Inv T n c' := by
  induction fuel generalizing c s fr with
  | zero => exact ⟨_, _, _, rfl, I⟩
  | succ fuel ih =>
    obtain ⟨c1, s1, r, e1, I1⟩ := processDevices_inv W s I
    unfold processLogs
    rw [e1]
    dsimp only [bind, Except.bind]
    split
    · exact ⟨_, _, _, rfl, I1⟩
    · split
      · obtain ⟨c2, s2, f1, I2, f2⟩ := flushPendingQueue_inv W c1.pending.toNat s1 I1 (by omega)
        rw [f1]
        exact ⟨_, _, _, rfl, I2⟩
      · split
        · exact ⟨_, _, _, rfl, I1⟩
        · split
          · exact ih s1 _ I1
          · exact ⟨_, _, _, rfl, I1⟩

theorem openCtx_inv (marks : List Nat) (T : Nat) : Inv T marks.length (openCtx marks T) := by
  refine { len := by simp [openCtx], pc := rfl, rc := rfl, pool := by simp [openCtx]; omega, tT := Int.le_refl _
           rt := by simp [openCtx], plt := by simp [openCtx], rlt := by simp [openCtx], nd := by simp [openCtx]
           pf := ?_, st := rfl }
  intro i
  simp only [openCtx, Ctx.isPending, List.getElem?_map, List.map_nil, List.not_mem_nil, iff_false]
  cases marks[i]? <;> simp

end Verif.Ulogcat
