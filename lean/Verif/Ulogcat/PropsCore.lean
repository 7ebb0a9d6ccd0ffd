import Verif.Ulogcat.Quiet

/-! # Properties of the reading loop (C35-C38, C59, C60) -/

namespace Verif.Ulogcat

variable {σ : Type}

/-! ## C35 -/

/-- Calls of `ulogcat3_process_logs` one after the other: for each the most turns it
is watched for, and `max_entries`. -/
def calls (W : World σ) (dump : Bool) : List (Nat × Int) → Ctx → σ → Except CFault (Ctx × σ)
  | [], c, s => .ok (c, s)
  | (fuel, max) :: l, c, s =>
    (processLogs W dump max fuel c s 0).bind fun x => calls W dump l x.1 x.2.1

/-- C35. Whatever the devices deliver and whether or not the output works, no call
ever asks for a frame when there is none, uses a null frame or loops for ever, for
any number of devices and any tail of at least 0. -/
theorem C35_frames (W : World σ) (marks : List Nat) (tail : Nat) (dump : Bool) (l : List (Nat × Int)) (s : σ) :
    ∃ c s', calls W dump l (openCtx marks tail) s = .ok (c, s') ∧ c.starved = false ∧
      c.free + c.pendQ.length + c.rendQ.length = tail + marks.length + 1 := by
  suffices h : ∀ (c : Ctx) (s : σ), Inv tail marks.length c → ∃ c' s', calls W dump l c s = .ok (c', s') ∧ Inv tail marks.length c' by
    obtain ⟨c, s', h1, h2⟩ := h _ s (openCtx_inv marks tail)
    exact ⟨c, s', h1, h2.st, h2.pool⟩
  induction l with
  | nil => intro c s I; exact ⟨c, s, rfl, I⟩
  | cons x l ih =>
    intro c s I
    obtain ⟨fuel, max⟩ := x
    obtain ⟨c1, s1, r, e1, I1⟩ := processLogs_inv W dump max fuel s 0 I
    obtain ⟨c2, s2, e2, I2⟩ := ih c1 s1 I1
    refine ⟨c2, s2, ?_, I2⟩
    unfold calls
    rw [e1]
    exact e2

/-! ## C36 and C37 -/

theorem any_mark {n : Nat} {c : Ctx} (hl : c.devs.length = n) :
    (c.devs.any fun d => decide (d.mark > 0)) = false ↔ ∀ i, i < n → c.markOf i ≤ 0 := by
  rw [List.any_eq_false]
  constructor
  · intro h i hi
    have hd : c.devs[i]? = some c.devs[i] := by simp [hl, hi]
    have := h c.devs[i] (by simp)
    simp only [decide_eq_true_eq] at this
    unfold Ctx.markOf
    rw [hd]
    dsimp only
    omega
  · intro h d hd
    obtain ⟨i, hi, rfl⟩ := List.getElem_of_mem hd
    have := h i (by omega)
    unfold Ctx.markOf at this
    rw [show c.devs[i]? = some c.devs[i] by simp [hi]] at this
    simp only [decide_eq_true_eq]
    dsimp only at this
    omega

/-- Flushing the frames kept for a tail. -/
theorem flushRenderQueue_quiet {T n : Nat} (k : Nat) {c : Ctx} (s : Logs) {w : List Frame} (I : Inv T n c)
    (O : OutOK n c w) (hs : ∀ f ∈ c.rendQ, f.shown = true) (hk : c.render ≤ k) :
    ∃ c', flushRenderQueue quiet k c s = .ok (c', s) ∧ OutOK n c' (w ++ c.rendQ) ∧
      c'.pending = c.pending ∧ c'.markReached = c.markReached := by
  induction k generalizing c w with
  | zero =>
    have h0 : ¬ c.render > 0 := by omega
    have : c.rendQ = [] := List.eq_nil_of_length_eq_zero (by have := I.rc; omega)
    exact ⟨c, by simp [flushRenderQueue, h0], by simpa [this] using O, rfl, rfl⟩
  | succ k ih =>
    by_cases hr : c.render > 0
    · obtain ⟨c1, s1, e1, I1, e2, e3, e4, e5⟩ := flushRenderFrame_inv quiet false s I hr
      cases hq : c.rendQ with
      | nil => have := I.rc; rw [hq] at this; simp at this; omega
      | cons f t =>
        obtain ⟨c2, f1, f2, f3⟩ := flushFrame_quiet s f O I.len (I.rlt f (by simp [hq])) (hs f (by simp [hq]))
        have he : flushRenderFrame quiet false c s = .ok ({ c2 with rendQ := t, free := c2.free + 1, render := c2.render - 1 }, s) := by
          unfold flushRenderFrame
          rw [if_pos hr, hq]
          dsimp only [flushUnless]
          rw [if_neg (by simp), f1]
          rfl
        rw [he] at e1
        simp only [Except.ok.injEq, Prod.mk.injEq] at e1
        have ec := e1.1
        subst ec
        obtain ⟨c3, g1, g2, g3, g4⟩ := ih (c := { c2 with rendQ := t, free := c2.free + 1, render := c2.render - 1 }) (w := w ++ [f]) I1
          (f3.congr rfl rfl (fun _ => rfl)) (fun g hg => hs g (by rw [hq]; exact List.mem_cons_of_mem _ hg)) (by omega)
        refine ⟨c3, ?_, ?_, g3.trans e4, g4.trans e5⟩
        · simp only [flushRenderQueue, hr, if_true, he]
          exact g1
        · have : w ++ f :: t = w ++ [f] ++ t := by simp
          rw [this]
          exact g2
    · have : c.rendQ = [] := List.eq_nil_of_length_eq_zero (by have := I.rc; omega)
      exact ⟨c, by simp [flushRenderQueue, hr], by simpa [this] using O, rfl, rfl⟩

/-- All entries have been pulled. -/
structure Done (T n : Nat) (s0 : Logs) (c : Ctx) (v : List Frame) : Prop where
  reached : c.markReached = true
  pend : c.pending = 0
  out : OutOK n c (v.drop (if T = 0 then 0 else v.length - T))
  all : ∀ d, v.filter (fun f => f.dev == d) = texts d (s0 d)
  merged : ByTurns Frame.dev Frame.stamp n (fun d => texts d (s0 d)) v

/-- One turn: it returns early with 0 and takes something away, or it pulls a frame,
or everything is done. -/
theorem pass_quiet {T n : Nat} {s0 : Logs} {v : List Frame} {c : Ctx} {s : Logs} (Q : QInv T n s0 c s v) :
    ∃ c' s' r, processDevices quiet c s = .ok (c', s', r) ∧ 0 ≤ r ∧
      ((∃ v', QInv T n s0 c' s' v' ∧ weight n c' s' < weight n c s) ∨ ∃ v', Done T n s0 c' v' ∧ ∀ d, s' d = []) := by
  rw [processDevices_eq]
  have hpoll : quiet.poll s c.asked = (.ok fun i => !(s i).isEmpty, s) := rfl
  rw [hpoll]
  dsimp only
  obtain ⟨c1, s1, r, m, e1, Q1, hm, hcase⟩ := readDevs_quiet c.asked (fun i => !(s i).isEmpty) (List.range c.devs.length)
    List.pairwise_lt_range 0 Q (Int.le_refl _) (by intro i hi; rw [Q.inv.len] at hi; exact List.mem_range.1 hi)
    (by
      intro i hi
      have hi := List.mem_range.1 hi
      have := asked_iff c i
      cases h : c.isPending i
      · exact this.2 ⟨hi, h⟩
      · cases h2 : c.asked i
        · rfl
        · have := (this.1 h2).2; rw [h] at this; cases this)
    (fun _ _ => rfl)
    (by intro i hi hn; rw [Q.inv.len] at hn; exact absurd (List.mem_range.2 hi) hn)
  rw [e1]
  rcases hcase with ⟨rfl, hw⟩ | ⟨rfl, hw, hfull⟩
  · exact ⟨c1, s1, 0, rfl, Int.le_refl _, Or.inl ⟨v, Q1, hw⟩⟩
  · dsimp only
    -- the state after pulling, and what is left
    obtain ⟨c2, v2, p1, Q2, hlt⟩ : ∃ c2 v2, pullFrame quiet c1 s1 = .ok (c2, s1) ∧ QInv T n s0 c2 s1 v2 ∧
        (weight n c2 s1 < weight n c s ∨ c2.markOf = c1.markOf ∧ c1.pendQ = []) := by
      rcases Q1.pull hfull with ⟨h1, h2⟩ | ⟨c2, f, h1, h2, h3⟩
      · exact ⟨c1, v, h2, Q1, Or.inr ⟨rfl, h1⟩⟩
      · exact ⟨c2, _, h1, h2, Or.inl (by omega)⟩
    unfold endPass
    rw [p1]
    dsimp only [bind, Except.bind]
    -- is the mark reached?
    by_cases hmk : (c2.devs.any fun d => decide (d.mark > 0)) = true
    · -- no
      have hum : updateMark c2 = c2 := by
        unfold updateMark
        rw [if_neg (by rw [Q2.nr]; simp), if_pos hmk]
      have htf : tailFlush quiet (updateMark c2) s1 = .ok (c2, s1) := by
        rw [hum]
        unfold tailFlush
        rw [if_pos (Or.inr Q2.nr)]
      rw [htf]
      refine ⟨c2, s1, m, rfl, hm, Or.inl ⟨v2, Q2, ?_⟩⟩
      rcases hlt with h | ⟨h1, h2⟩
      · exact h
      · exfalso
        have : (c2.devs.any fun d => decide (d.mark > 0)) = false := by
          rw [any_mark Q2.inv.len]
          intro i hi
          rw [h1]
          rcases hfull i hi with h | h
          · rw [Q1.inv.pf, h2] at h
            simp at h
          · exact h.2
        rw [this] at hmk
        cases hmk
    · -- yes
      have hmk : (c2.devs.any fun d => decide (d.mark > 0)) = false := by simpa using hmk
      have hum : updateMark c2 = { c2 with markReached := true } := by
        unfold updateMark
        rw [if_neg (by rw [Q2.nr]; simp), if_neg (by rw [hmk]; simp)]
      have hall := (any_mark Q2.inv.len).1 hmk
      have hnil : c2.pendQ = [] := by
        cases h : c2.pendQ with
        | nil => rfl
        | cons f t =>
          have hf : f ∈ c2.pendQ := by simp [h]
          have h1 := (Q2.inv.pf f.dev).2 (List.mem_map.2 ⟨f, hf, rfl⟩)
          have h2 := Q2.marks f.dev (Q2.inv.plt f hf) (hall _ (Q2.inv.plt f hf))
          rw [h2.2] at h1
          cases h1
      have hp0 : c2.pending = 0 := by have := Q2.inv.pc; rw [hnil] at this; simpa using this
      have hdr : ∀ d, s1 d = [] := by
        intro d
        rcases Nat.lt_or_ge d n with h | h
        · exact (Q2.marks d h (hall d h)).1
        · exact Q2.beyond d h
      have hfil : ∀ d, v2.filter (fun f => f.dev == d) = texts d (s0 d) := by
        intro d
        have := Q2.split d
        rw [hnil, hdr d] at this
        simpa [texts] using this
      have hmg : ByTurns Frame.dev Frame.stamp n (fun d => texts d (s0 d)) v2 := by
        have h1 : vline n c2.isPending c2.pendQ s1 = [] := by
          unfold vline
          rw [hnil, flatMap_nil]
          · rfl
          · intro j _
            unfold vheads
            rw [hdr j]
            split <;> rfl
        have := Q2.mrg [] (by
          rw [h1]
          refine .nil _ fun d => ?_
          unfold vrest
          rw [hdr d]
          split <;> rfl)
        rwa [List.append_nil] at this
      rw [hum]
      by_cases hT : T = 0
      · have htl : c2.tail = 0 := by rw [Q2.tl, hT]; rfl
        have htf : tailFlush quiet { c2 with markReached := true } s1 = .ok ({ c2 with markReached := true }, s1) := by
          unfold tailFlush
          rw [if_pos (Or.inl htl)]
        rw [htf]
        refine ⟨_, _, m, rfl, hm, Or.inr ⟨v2, ⟨rfl, hp0, ?_, hfil, hmg⟩, hdr⟩⟩
        have := Q2.outOK
        rw [if_pos hT] at this
        rw [if_pos hT]
        exact this.congr rfl rfl (fun _ => rfl)
      · have htl : ¬ c2.tail = 0 := by rw [Q2.tl]; omega
        have hde : ∀ k, dropExcess quiet k { c2 with markReached := true } s1 = .ok ({ c2 with markReached := true }, s1) := by
          intro k
          have hr := Q2.inv.rt
          have hrc := Q2.inv.rc
          have : ¬ (c2.render + c2.pending > c2.tail) := by omega
          cases k <;> (unfold dropExcess; rw [if_neg this])
        have I2 : Inv T n { c2 with markReached := true } := by
          have := updateMark_inv Q2.inv
          rwa [hum] at this
        have O2 : OutOK n { c2 with markReached := true } [] := by
          have := Q2.outOK
          rw [if_neg hT] at this
          exact this.congr rfl rfl (fun _ => rfl)
        obtain ⟨c3, f1, f2, f3, f4⟩ := flushRenderQueue_quiet (c := { c2 with markReached := true }) c2.render.toNat s1 I2 O2 (by
          intro f hf
          have hf : f ∈ c2.rendQ := hf
          rw [Q2.rend] at hf
          exact (mem_texts (Q2.mem_v (List.mem_of_mem_drop hf))).2) (show c2.render ≤ _ by omega)
        have htf : tailFlush quiet { c2 with markReached := true } s1 = .ok ({ c3 with tail := 0 }, s1) := by
          unfold tailFlush
          rw [if_neg (by
            rintro (h | h)
            · exact htl h
            · cases h), hde]
          dsimp only [bind, Except.bind]
          rw [f1]
        rw [htf]
        refine ⟨_, _, m, rfl, hm, Or.inr ⟨v2, ⟨f4, f3.trans hp0, ?_, hfil, hmg⟩, hdr⟩⟩
        rw [if_neg hT, ← Q2.rend]
        rw [List.nil_append] at f2
        exact f2.congr rfl rfl (fun _ => rfl)

/-- A dump on quiet devices. -/
theorem dump_quiet {T n : Nat} {s0 : Logs} (k : Nat) {v : List Frame} {c : Ctx} {s : Logs} {fr : Int}
    (Q : QInv T n s0 c s v) (hk : weight n c s < k) :
    ∃ c' s' v', processLogs quiet true 0 k c s fr = .ok (c', s', some 0) ∧ Done T n s0 c' v' ∧ ∀ d, s' d = [] := by
  induction k generalizing v c s fr with
  | zero => omega
  | succ k ih =>
    obtain ⟨c1, s1, r, e1, hr, hcase⟩ := pass_quiet Q
    unfold processLogs
    rw [e1]
    dsimp only [bind, Except.bind]
    rw [if_neg (by omega)]
    rcases hcase with ⟨v', Q', hw⟩ | ⟨v', D, hdr⟩
    · have hO := Q'.outOK.noErr
      rw [if_neg (by rw [Q'.nr]; simp), if_neg (by rw [hO]; simp), if_pos (Or.inl rfl)]
      exact ih Q' (by omega)
    · rw [if_pos (by rw [D.reached]; rfl), D.pend]
      have : flushPendingQueue quiet (0 : Int).toNat c1 s1 = .ok (c1, s1) := by
        show flushPendingQueue quiet 0 c1 s1 = _
        unfold flushPendingQueue
        rw [if_neg (by rw [D.pend]; decide)]
      rw [this]
      exact ⟨_, _, v', rfl, D, hdr⟩

/-- The state after opening devices that hold `s0`: something is readable exactly in
those that hold something. -/
theorem open_quiet (marks : List Nat) (T : Nat) (s0 : Logs) (hm : ∀ i, marks[i]? = some 0 → s0 i = [])
    (hb : ∀ i, marks.length ≤ i → s0 i = []) : QInv T marks.length s0 (openCtx marks T) s0 [] := by
  refine { inv := openCtx_inv marks T, tl := rfl, nr := rfl, outOK := ?_, rend := by simp [openCtx], split := ?_, beyond := hb
           vlt := by simp, mrg := ?_, marks := ?_ }
  · rw [show (if T = 0 then ([] : List Frame) else []) = [] by split <;> rfl]
    refine ⟨rfl, rfl, ?_⟩
    intro _ i hi
    simp [openCtx, Ctx.printedOf, hi]
  · intro d
    simp [openCtx]
  · have hp : ∀ d, (openCtx marks T).isPending d = false := by
      intro d
      unfold Ctx.isPending openCtx
      simp only [List.getElem?_map]
      cases marks[d]? <;> rfl
    intro u hu
    have h1 : vline marks.length (openCtx marks T).isPending (openCtx marks T).pendQ s0 = firsts (fun d => texts d (s0 d)) marks.length := by
      show [] ++ _ = _
      rw [List.nil_append]
      unfold firsts
      refine flatMap_range_congr ?_
      intro j _
      unfold vheads
      rw [hp]
      rfl
    have h2 : vrest (openCtx marks T).isPending s0 = rests fun d => texts d (s0 d) := by
      funext d
      unfold vrest rests
      rw [hp]
      rfl
    rw [h1, h2] at hu
    exact hu
  · intro d hd h
    have hx : marks[d]? = some marks[d] := by simp [hd]
    have h1 : ((marks[d] : Nat) : Int) ≤ 0 := by
      simpa [openCtx, Ctx.markOf, List.getElem?_map, hx] using h
    have h2 : marks[d] = 0 := by omega
    refine ⟨hm d (by rw [hx, h2]), ?_⟩
    simp [openCtx, Ctx.isPending, List.getElem?_map, hx]

/-- The frames `v` are the entries of the devices: each device's, in its order, and
all together in the order of time. -/
structure MergeOf (s0 : Logs) (v : List Frame) : Prop where
  device : ∀ d, v.filter (fun f => f.dev == d) = texts d (s0 d)
  time : v.Pairwise fun a b => a.stamp ≤ b.stamp

theorem own_texts (s0 : Logs) : ∀ d, ∀ f ∈ (fun d => texts d (s0 d)) d, f.dev = d := fun _ _ hf => (mem_texts hf).1

/-- The merged line is such a list. -/
theorem ByTurns.mergeOf {s0 : Logs} {n : Nat} {v : List Frame} (h : ByTurns Frame.dev Frame.stamp n (fun d => texts d (s0 d)) v)
    (hb : ∀ i, n ≤ i → s0 i = []) (hsort : SortedLogs s0) : MergeOf s0 v := by
  have hb' : ∀ d, n ≤ d → (fun d => texts d (s0 d)) d = [] := fun d hd => by
    show texts d (s0 d) = []
    rw [hb d hd]; rfl
  exact ⟨h.device (own_texts s0) hb', h.sorted (own_texts s0) hb' hsort⟩

/-- The order of the entries of devices that hold `s0`, by turns. -/
abbrev TurnOf (n : Nat) (s0 : Logs) (v : List Frame) : Prop := ByTurns Frame.dev Frame.stamp n (fun d => texts d (s0 d)) v

theorem dump_all (marks : List Nat) (s0 : Logs) (hm : ∀ i, marks[i]? = some 0 → s0 i = [])
    (hb : ∀ i, marks.length ≤ i → s0 i = []) (T : Nat) :
    ∃ k, ∀ fuel, k ≤ fuel → ∃ c s v, processLogs quiet true 0 fuel (openCtx marks T) s0 0 = .ok (c, s, some 0) ∧
      TurnOf marks.length s0 v ∧ c.out = annotate (decide (marks.length > 1)) [] (if T = 0 then v else v.drop (v.length - T)) ∧
      ∀ d, s d = [] := by
  refine ⟨weight marks.length (openCtx marks T) s0 + 1, ?_⟩
  intro fuel hf
  obtain ⟨c, s, v, e, D, hdr⟩ := dump_quiet fuel (fr := 0) (open_quiet marks T s0 hm hb) (by
    show weight marks.length (openCtx marks T) s0 < fuel
    omega)
  refine ⟨c, s, v, e, D.merged, ?_, hdr⟩
  have := D.out.out
  by_cases hT : T = 0
  · rw [if_pos hT, List.drop_zero] at this
    rw [if_pos hT]
    exact this
  · rwa [if_neg hT] at this ⊢

/-- C130. A dump of devices that nobody writes to ends and returns 0, whatever the times of
the entries are. It prints the entries of all devices by turns, or with a tail of `T` the
last `T` of exactly these; with several devices before the first entry printed of each a
banner. `marks` are the amounts readable at opening, 0 only for empty devices. -/
theorem C130_dump (marks : List Nat) (s0 : Logs) (hm : ∀ i, marks[i]? = some 0 → s0 i = [])
    (hb : ∀ i, marks.length ≤ i → s0 i = []) :
    ∃ v, TurnOf marks.length s0 v ∧ ∀ T : Nat, ∃ k, ∀ fuel, k ≤ fuel →
      ∃ c s, processLogs quiet true 0 fuel (openCtx marks T) s0 0 = .ok (c, s, some 0) ∧
        c.out = annotate (decide (marks.length > 1)) [] (if T = 0 then v else v.drop (v.length - T)) := by
  obtain ⟨k, hk⟩ := dump_all marks s0 hm hb 0
  obtain ⟨_, _, v, _, hv, _, _⟩ := hk k (Nat.le_refl _)
  refine ⟨v, hv, fun T => ?_⟩
  obtain ⟨k, hk⟩ := dump_all marks s0 hm hb T
  refine ⟨k, fun fuel hf => ?_⟩
  obtain ⟨c, s, w, e, hw, ho, _⟩ := hk fuel hf
  rw [hw.unique hv] at ho
  exact ⟨c, s, e, ho⟩

theorem texts_beyond {s0 : Logs} {n : Nat} (hb : ∀ i, n ≤ i → s0 i = []) : ∀ d, n ≤ d → (fun d => texts d (s0 d)) d = [] := by
  intro d hd
  show texts d (s0 d) = []
  rw [hb d hd]; rfl

/-- C130. What the order is: there is one only; it has the entries of each device in their
order; and if an entry is printed after one with a later time, then an entry of its own
device, printed between them (or the first of the two itself), is as late. So a device in
the order of time is never to blame, and if all are the whole is in the order of time. -/
theorem C130_order {n : Nat} {s0 : Logs} (hb : ∀ i, n ≤ i → s0 i = []) {v : List Frame} (h : TurnOf n s0 v) :
    (∀ w, TurnOf n s0 w → w = v) ∧
    (∀ d, v.filter (fun f => f.dev == d) = texts d (s0 d)) ∧
    (∀ u x w y z, v = u ++ x :: (w ++ y :: z) → y.stamp < x.stamp → ∃ g ∈ x :: w, g.dev = y.dev ∧ x.stamp ≤ g.stamp) ∧
    (SortedLogs s0 → v.Pairwise fun a b => a.stamp ≤ b.stamp) :=
  ⟨fun _ hw => hw.unique h, h.device (own_texts s0) (texts_beyond hb), fun _ _ _ _ _ hv hlt => h.late (own_texts s0) (texts_beyond hb) hv hlt,
    h.sorted (own_texts s0) (texts_beyond hb)⟩

/-- C130 is false without the exception: an entry that comes after a later one on its own
device is printed after any number of entries of another device that are later than it. -/
theorem C130_false_time (m : Nat) : ∃ (s0 : Logs) (v u : List Frame) (x y : Frame), (∀ i, 2 ≤ i → s0 i = []) ∧ TurnOf 2 s0 v ∧
    v = u ++ [x, y] ∧ m ≤ u.length ∧ y.dev = 1 ∧ ∀ g ∈ u, g.dev = 0 ∧ y.stamp < g.stamp := by
  let d0 : Nat → Frame := fun j => ⟨0, 5, j, true⟩
  let x : Frame := ⟨1, 10, 0, true⟩
  let y : Frame := ⟨1, 1, 1, true⟩
  have key : ∀ (m i : Nat) (r : Nat → List Frame), r 0 = (List.range' (i + 1) m).map d0 → r 1 = [y] → (∀ d, 2 ≤ d → r d = []) →
      Picked Frame.dev Frame.stamp [x, d0 i] r ((List.range' i (m + 1)).map d0 ++ [x, y]) := by
    intro m
    induction m with
    | zero =>
      intro i r h0 h1 h2
      have e0 : behind (behind (behind r 0) 1) 1 = fun _ => [] := by
        funext e
        unfold behind
        match e with
        | 0 => simp [h0]
        | 1 => simp [h1]
        | e + 2 => simp [h2]
      refine .cons [x] (d0 i) [] r _ (by simp [x, d0]) (by simp) ?_
      show Picked _ _ ([x] ++ [] ++ (r 0).take 1) (behind r 0) [x, y]
      rw [h0]
      refine .cons [] x [] _ _ (by simp) (by simp) ?_
      show Picked _ _ ([] ++ [] ++ ((behind r 0) 1).take 1) (behind (behind r 0) 1) [y]
      have e1 : (behind r 0) 1 = [y] := by simp [behind, h1]
      rw [e1]
      refine .cons [] y [] _ _ (by simp) (by simp) ?_
      show Picked _ _ ([] ++ [] ++ ((behind (behind r 0) 1) 1).take 1) (behind (behind (behind r 0) 1) 1) []
      have e2 : (behind (behind r 0) 1) 1 = [] := by simp [behind, h1]
      rw [e2, e0]
      exact .nil _ fun _ => rfl
    | succ m ih =>
      intro i r h0 h1 h2
      rw [List.range'_succ, List.map_cons, List.cons_append]
      refine .cons [x] (d0 i) [] r _ (by simp [x, d0]) (by simp) ?_
      show Picked _ _ ([x] ++ [] ++ (r 0).take 1) (behind r 0) _
      rw [h0, List.range'_succ]
      refine ih (i + 1) _ ?_ ?_ ?_
      · simp [behind, h0, List.range'_succ]
      · simp [behind, h1]
      · intro d hd
        simp [behind, h2 d hd]
  let s0 : Logs := fun i => if i = 0 then (List.range' 0 (m + 2)).map (fun j => .text 5 j) else if i = 1 then [.text 10 0, .text 1 1] else []
  have htx : ∀ l : List Nat, texts 0 (l.map (fun j => Item.text 5 j)) = l.map d0 := by
    intro l
    induction l with
    | nil => rfl
    | cons a l ih =>
      rw [List.map_cons]
      show d0 a :: texts 0 _ = _
      rw [ih]; rfl
  have ht0 : texts 0 (s0 0) = (List.range' 0 (m + 2)).map d0 := htx _
  have ht1 : texts 1 (s0 1) = [x, y] := rfl
  have ht2 : ∀ d, 2 ≤ d → s0 d = [] := by
    intro d hd
    show (if d = 0 then _ else if d = 1 then _ else []) = _
    rw [if_neg (by omega), if_neg (by omega)]
  refine ⟨s0, (List.range' 0 (m + 2)).map d0 ++ [x, y], (List.range' 0 (m + 2)).map d0, x, y, ht2, ?_, rfl, by simp, rfl, ?_⟩
  · have hf : firsts (fun d => texts d (s0 d)) 2 = [d0 0, x] := by
      show (texts 0 (s0 0)).take 1 ++ ((texts 1 (s0 1)).take 1 ++ []) = _
      rw [ht0, ht1, List.range'_succ]
      rfl
    unfold TurnOf ByTurns
    rw [hf, List.range'_succ, List.map_cons, List.cons_append]
    refine .cons [] (d0 0) [x] _ _ (by simp) (by simp [x, d0]) ?_
    show Picked _ _ ([] ++ [x] ++ ((texts 0 (s0 0)).drop 1).take 1) _ _
    rw [ht0, List.range'_succ, List.range'_succ]
    refine key m 1 _ ?_ ?_ ?_
    · show behind _ 0 0 = _
      unfold behind rests
      rw [if_pos rfl]
      show ((texts 0 (s0 0)).drop 1).drop 1 = _
      rw [ht0, List.range'_succ, List.range'_succ]
      rfl
    · show behind _ 0 1 = _
      unfold behind rests
      rw [if_neg (by omega)]
      show (texts 1 (s0 1)).drop 1 = _
      rw [ht1]
      rfl
    · intro d hd
      show behind _ 0 d = _
      unfold behind rests
      rw [if_neg (by omega)]
      show (texts d (s0 d)).drop 1 = _
      rw [ht2 d hd]
      rfl
  · intro g hg
    obtain ⟨j, _, rfl⟩ := List.mem_map.1 hg
    exact ⟨rfl, show 1 < 5 by decide⟩

/-- C36. A dump of devices that nobody writes to, each in the order of time, ends and
returns 0; it prints the entries of all devices, each once, in the order of time and
of each device, and with several devices before the first entry of each a banner.
`marks` are the amounts readable at opening, 0 only for empty devices. -/
theorem C36_dump (marks : List Nat) (s0 : Logs) (hm : ∀ i, marks[i]? = some 0 → s0 i = [])
    (hb : ∀ i, marks.length ≤ i → s0 i = []) (hsort : SortedLogs s0) :
    ∃ k, ∀ fuel, k ≤ fuel → ∃ c s v, processLogs quiet true 0 fuel (openCtx marks 0) s0 0 = .ok (c, s, some 0) ∧
      MergeOf s0 v ∧ c.out = annotate (decide (marks.length > 1)) [] v := by
  obtain ⟨k, hk⟩ := dump_all marks s0 hm hb 0
  refine ⟨k, fun fuel hf => ?_⟩
  obtain ⟨c, s, v, e, hv, ho, _⟩ := hk fuel hf
  exact ⟨c, s, v, e, hv.mergeOf hb hsort, ho⟩

/-- C37. With a tail of `T` entries the dump prints the last `T` of such a merge, or
all if there are fewer. -/
theorem C37_tail (marks : List Nat) (s0 : Logs) (hm : ∀ i, marks[i]? = some 0 → s0 i = [])
    (hb : ∀ i, marks.length ≤ i → s0 i = []) (hsort : SortedLogs s0) (T : Nat) (hT : 0 < T) :
    ∃ k, ∀ fuel, k ≤ fuel → ∃ c s v, processLogs quiet true 0 fuel (openCtx marks T) s0 0 = .ok (c, s, some 0) ∧
      MergeOf s0 v ∧ c.out = annotate (decide (marks.length > 1)) [] (v.drop (v.length - T)) := by
  obtain ⟨k, hk⟩ := dump_all marks s0 hm hb T
  refine ⟨k, fun fuel hf => ?_⟩
  obtain ⟨c, s, v, e, hv, ho, _⟩ := hk fuel hf
  rw [if_neg (by omega)] at ho
  exact ⟨c, s, v, e, hv.mergeOf hb hsort, ho⟩

/-- C37. Whatever the times of the entries are, the dump with a tail prints exactly the last
entries of what the dump without a tail prints. -/
theorem C37_last (marks : List Nat) (s0 : Logs) (hm : ∀ i, marks[i]? = some 0 → s0 i = [])
    (hb : ∀ i, marks.length ≤ i → s0 i = []) :
    ∃ v, (∀ d, v.filter (fun f => f.dev == d) = texts d (s0 d)) ∧ (SortedLogs s0 → MergeOf s0 v) ∧ ∀ T, ∃ k, ∀ fuel, k ≤ fuel →
      ∃ c s, processLogs quiet true 0 fuel (openCtx marks (T : Nat)) s0 0 = .ok (c, s, some 0) ∧
        c.out = annotate (decide (marks.length > 1)) [] (if T = 0 then v else v.drop (v.length - T)) := by
  obtain ⟨v, hv, h⟩ := C130_dump marks s0 hm hb
  exact ⟨v, (C130_order hb hv).2.1, hv.mergeOf hb, h⟩

/-- C37 needs a tail of at least 0: the tool takes any number, and with -1 the call
never returns, as soon as the devices have been read. -/
theorem C37_neg_tail (s0 : Logs) (h : s0 0 = []) (dump : Bool) (max : Int) (fuel : Nat) (m : Nat) :
    processLogs quiet dump max (fuel + 1) (openCtx [m] (-1)) s0 0 = .error .hang := by
  unfold processLogs
  have : processDevices quiet (openCtx [m] (-1)) s0 = .error .hang := by
    rw [processDevices_eq]
    have hpoll : quiet.poll s0 (openCtx [m] (-1)).asked = (.ok fun i => !(s0 i).isEmpty, s0) := rfl
    rw [hpoll]
    have hr : List.range (openCtx [m] (-1)).devs.length = [0] := rfl
    have ha : (openCtx [m] (-1)).asked 0 = true := rfl
    dsimp only
    rw [hr, readDevs_cons, if_pos (by rw [ha, h]; rfl), if_pos ha]
    simp only [readDevs]
    have hu : updateMark ((openCtx [m] (-1)).upd 0 Dev.unready) =
        { (openCtx [m] (-1)).upd 0 Dev.unready with markReached := true } := by
      unfold updateMark
      rw [if_neg (by simp [openCtx, Ctx.upd]), if_neg]
      show ¬ (([Dev.unready { mark := (m : Int), pending := false, printed := false }].any fun d => decide (d.mark > 0)) = true)
      unfold Dev.unready
      by_cases hm : (m : Int) > 0
      · rw [if_pos hm]; simp
      · rw [if_neg hm]; simpa using hm
    unfold endPass
    rw [show pullFrame quiet ((openCtx [m] (-1)).upd 0 Dev.unready) s0 = .ok ((openCtx [m] (-1)).upd 0 Dev.unready, s0) from rfl]
    dsimp only [bind, Except.bind]
    rw [hu]
    rfl
  rw [this]
  rfl

/-! ## C38 -/

/-- One log device to which an entry is added whenever one was read. -/
def busy : World Nat where
  poll s _ := (.ok fun _ => true, s)
  recv s _ := (.got s s true 0, s + 1)
  output s _ := (true, s)

/-- C38 is false: with a writer that keeps up with the reader, a dump never stops, and
prints as many entries as one likes to wait for. -/
theorem C38_false (m : Nat) (hm : 0 < m) (k : Nat) :
    ∃ c, processLogs busy true 0 k (openCtx [m] 0) 0 0 = .ok (c, k, none) ∧
      c.out = (List.range k).map fun j => .entry ⟨0, j, j, true⟩ := by
  have step : ∀ (out : List OutEv) (s : Nat),
      processDevices busy { openCtx [m] 0 with out := out } s =
        .ok ({ openCtx [m] 0 with out := out ++ [.entry ⟨0, s, s, true⟩] }, s + 1, 1) := by
    intro out s
    have hmk : ∀ c : Ctx, c.markReached = false → c.devs = [⟨(m : Int), false, false⟩] → updateMark c = c := by
      intro c h1 h2
      unfold updateMark
      rw [if_neg (by rw [h1]; simp), if_pos]
      rw [h2]
      simpa using hm
    rw [processDevices_eq]
    have h1 : readDevs busy ({ openCtx [m] 0 with out := out } : Ctx).asked (fun _ => true) [0] { openCtx [m] 0 with out := out } s 0 =
        (({ openCtx [m] 0 with out := out } : Ctx).got ⟨0, s, s, true⟩ 0, s + 1, none, 1) := rfl
    rw [show busy.poll s ({ openCtx [m] 0 with out := out } : Ctx).asked = (.ok fun _ => true, s) from rfl]
    dsimp only
    rw [show List.range (openCtx [m] 0).devs.length = [0] from rfl, h1]
    dsimp only
    have h2 : pullFrame busy (({ openCtx [m] 0 with out := out } : Ctx).got ⟨0, s, s, true⟩ 0) (s + 1) =
        .ok ({ openCtx [m] 0 with out := out ++ [.entry ⟨0, s, s, true⟩], devs := [⟨(m : Int) - (0 : Nat), false, false⟩] }, s + 1) := rfl
    unfold endPass
    rw [h2]
    dsimp only [bind, Except.bind]
    rw [hmk _ rfl (by simp)]
    have htf : ∀ c : Ctx, c.tail = 0 → tailFlush busy c (s + 1) = .ok (c, s + 1) := by
      intro c hc
      unfold tailFlush
      rw [if_pos (Or.inl hc)]
    rw [htf _ rfl]
    simp [Except.map, openCtx]
  have run : ∀ (k : Nat) (out : List OutEv) (s : Nat) (fr : Int),
      processLogs busy true 0 k { openCtx [m] 0 with out := out } s fr =
        .ok ({ openCtx [m] 0 with out := out ++ (List.range k).map fun j => .entry ⟨0, s + j, s + j, true⟩ }, s + k, none) := by
    intro k
    induction k with
    | zero => intro out s fr; simp [processLogs]
    | succ k ih =>
      intro out s fr
      unfold processLogs
      rw [step]
      dsimp only [bind, Except.bind]
      rw [if_neg (by decide), if_neg (by simp [openCtx]), if_neg (by simp [openCtx]), if_pos (Or.inl rfl), ih]
      rw [List.range_succ_eq_map]
      simp only [List.map_cons, List.map_map, List.append_assoc, List.singleton_append, Nat.add_zero]
      congr 3
      · congr 3
        funext j
        simp [Nat.add_assoc, Nat.add_comm 1 j, Nat.succ_eq_add_one]
      · rw [Nat.add_assoc, Nat.add_comm 1 k]
  refine ⟨_, (run k [] 0 0).trans (by rw [Nat.zero_add]), ?_⟩
  simp

/-- C38: the dump ends with 0 as soon as nothing is pending and `poll` finds
no device readable, whatever has happened before. -/
theorem C38_stops (W : World σ) (marks : List Nat) (tail : Nat) (l : List (Nat × Int)) (s s1 s2 : σ) (c : Ctx)
    (h : calls W true l (openCtx marks tail) s = .ok (c, s1)) (hp : c.pendQ = []) {ready : Nat → Bool}
    (hpoll : W.poll s1 c.asked = (.ok ready, s2)) (hr : ∀ i, ready i = false) (max : Int) (fuel : Nat) (fr : Int) :
    ∃ c' s', processLogs W true max (fuel + 1) c s1 fr = .ok (c', s', some 0) := by
  have I : Inv tail marks.length c := by
    suffices hI : ∀ (c0 : Ctx) (s : σ), Inv tail marks.length c0 → calls W true l c0 s = .ok (c, s1) → Inv tail marks.length c from
      hI _ s (openCtx_inv marks tail) h
    clear h hp hpoll
    induction l with
    | nil =>
      intro c0 s I h
      simp only [calls, Except.ok.injEq, Prod.mk.injEq] at h
      rw [← h.1]; exact I
    | cons x l ih =>
      intro c0 s I h
      obtain ⟨fuel, max⟩ := x
      obtain ⟨c1, s3, r, e1, I1⟩ := processLogs_inv W true max fuel s 0 I
      unfold calls at h
      rw [e1] at h
      exact ih c1 s3 I1 h
  -- no device is read
  have hread : ∀ (is : List Nat) (c1 : Ctx), (∀ i ∈ is, c1.asked i = true) → ∀ asked : Nat → Bool, (∀ i ∈ is, asked i = true) →
      ∃ c2, readDevs W asked ready is c1 s2 0 = (c2, s2, none, 0) ∧ c2.pendQ = c1.pendQ ∧
        ∀ i, c2.markOf i = if i ∈ is ∧ c1.markOf i > 0 then 0 else c1.markOf i := by
    intro is
    induction is with
    | nil => intro c1 _ asked _; exact ⟨c1, rfl, rfl, by simp⟩
    | cons i is ih =>
      intro c1 h1 asked h2
      rw [readDevs_cons, if_pos (by rw [hr i]; simp), if_pos (h2 i (by simp))]
      obtain ⟨c2, e1, e2, e3⟩ := ih (c1.upd i Dev.unready) (by
        intro j hj
        have := (asked_iff _ _).1 (h1 j (List.mem_cons_of_mem _ hj))
        rw [asked_iff, isPending_unready, upd_len]
        exact this) asked (fun j hj => h2 j (List.mem_cons_of_mem _ hj))
      refine ⟨c2, e1, e2, ?_⟩
      intro j
      rw [e3, markOf_unready]
      by_cases hij : i = j
      · subst hij
        by_cases hm : c1.markOf i > 0 <;> simp [hm]
      · have : ¬ j = i := fun e => hij e.symm
        simp [hij, this]
  have hask : ∀ i ∈ List.range c.devs.length, c.asked i = true := by
    intro i hi
    rw [asked_iff]
    refine ⟨List.mem_range.1 hi, ?_⟩
    cases h : c.isPending i
    · rfl
    · rw [I.pf, hp] at h; simp at h
  obtain ⟨c1, e1, e2, e3⟩ := hread (List.range c.devs.length) c hask c.asked hask
  have I1 : Inv tail marks.length c1 := by
    have := readDevs_inv W c.asked ready (List.range c.devs.length) List.nodup_range s2 0 I (by
      intro i hi ha
      have := (asked_iff c i).1 ha
      rw [I.len] at this
      exact this)
    rwa [e1] at this
  have hpull : pullFrame W c1 s2 = .ok (c1, s2) := by
    unfold pullFrame
    rw [show popOldest c1.pendQ = none from (popOldest_none _).2 (e2.trans hp)]
  have hum : (updateMark c1).markReached = true := by
    unfold updateMark
    by_cases hc : c1.markReached = true
    · rw [if_pos hc]; exact hc
    · rw [if_neg hc, if_neg]
      rw [Bool.not_eq_true, any_mark I1.len]
      intro i hi
      rw [e3]
      split
      · exact Int.le_refl _
      · rename_i hn
        have : i ∈ List.range c.devs.length := List.mem_range.2 (by rw [I.len]; exact hi)
        have : ¬ c.markOf i > 0 := fun h => hn ⟨this, h⟩
        omega
  obtain ⟨c2, s3, f1, I2, f2⟩ := tailFlush_inv W s2 (updateMark_inv I1)
  have hpd : processDevices W c s1 = .ok (c2, s3, 0) := by
    rw [processDevices_eq, hpoll]
    dsimp only
    rw [e1]
    dsimp only
    unfold endPass
    rw [hpull]
    dsimp only [bind, Except.bind]
    rw [f1]
    rfl
  obtain ⟨c3, s4, g1, I3, g2⟩ := flushPendingQueue_inv W c2.pending.toNat s3 I2 (by omega)
  refine ⟨c3, s4, ?_⟩
  unfold processLogs
  rw [hpd]
  dsimp only [bind, Except.bind]
  rw [if_neg (by decide), if_pos (by rw [f2, hum]; rfl), g1]

end Verif.Ulogcat
