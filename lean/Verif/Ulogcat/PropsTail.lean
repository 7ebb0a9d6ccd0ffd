import Verif.Ulogcat.PropsOrder
import Verif.Ulogcat.Tail

/-!
# A tail while others write (C139)

The same world is read by `ulogcat3_process_logs` with a tail and without: the devices may
be written to meanwhile, time may go backwards, polling may be interrupted and reading may
fail. Only the output is supposed to succeed and not to change what is read.
-/
namespace Verif.Ulogcat

variable {σ : Type}

/-- Output succeeds and changes nothing that is read. -/
def Silent (W : World σ) : Prop := ∀ s e, W.output s e = (true, s)

theorem open_waiting (marks : List Nat) (T : Nat) : Waiting T marks.length (openCtx marks T) (openCtx marks 0) [] := by
  have O : ∀ t : Int, OutG marks.length (openCtx marks t) [] := by
    intro t
    refine ⟨List.prefix_refl _, fun _ => ⟨rfl, fun _ i _ => ?_⟩⟩
    simp only [openCtx, Ctx.printedOf, List.getElem?_map, List.map_nil, List.not_mem_nil, iff_false]
    cases marks[i]? <;> simp
  refine ⟨⟨openCtx_inv marks T, openCtx_inv marks 0, rfl, rfl, rfl, rfl, rfl, rfl, O T, O 0, by simp⟩, rfl, ?_, rfl⟩
  simp [openCtx, lastFew]

/-- Before or after the marks. -/
def Phase (T n : Nat) (c c0 : Ctx) (w : List Frame) : Prop := Waiting T n c c0 w ∨ ∃ k, Passed T n k c c0 w

section
variable {W : World σ} (hW : Silent W) {T n : Nat}
include hW

/-- One call of a dump. -/
theorem Waiting.dump {c c0 : Ctx} {w : List Frame} (hT : 0 < T) (max : Int) (fuel : Nat) (h : Waiting T n c c0 w) (s : σ) (fr : Int) :
    ∃ c1 c2 s1 r v, processLogs W true max fuel c s fr = .ok (c1, s1, r) ∧ processLogs W true max fuel c0 s fr = .ok (c2, s1, r) ∧
      c2.out = annotate (decide (n > 1)) [] v ∧
      c1.out = annotate (decide (n > 1)) [] (if c2.markReached then v.drop (v.length - T) else []) ∧ (c1.markReached = c2.markReached) ∧ ∀ f ∈ v, f.dev < n := by
  induction fuel generalizing c c0 w s fr with
  | zero =>
    refine ⟨c, c0, s, none, w, rfl, rfl, (h.both.out0.ok h.both.err0).1, ?_, h.both.mark, h.both.dev0⟩
    rw [← h.both.mark, h.mark]
    exact (h.both.out.ok h.both.err).1
  | succ fuel ih =>
    obtain ⟨c1, c2, s1, r, w', e1, e2, -, hx⟩ := h.turn hW hT s
    unfold processLogs
    rw [e1, e2]
    dsimp only [bind, Except.bind]
    rcases hx with hx | ⟨hr, ⟨y, hy⟩, -⟩
    · have m1 := hx.mark
      have m2 : c2.markReached = false := by rw [← hx.both.mark]; exact m1
      have done : ∀ q : Option Int, ∃ d1 d2 s2 r' v, (Except.ok (c1, s1, q) : Except CFault _) = .ok (d1, s2, r') ∧
          (Except.ok (c2, s1, q) : Except CFault _) = .ok (d2, s2, r') ∧ d2.out = annotate (decide (n > 1)) [] v ∧
          d1.out = annotate (decide (n > 1)) [] (if d2.markReached then v.drop (v.length - T) else []) ∧ d1.markReached = d2.markReached ∧
          ∀ f ∈ v, f.dev < n := by
        intro q
        refine ⟨c1, c2, s1, q, w', rfl, rfl, (hx.both.out0.ok hx.both.err0).1, ?_, hx.both.mark, hx.both.dev0⟩
        rw [m2]
        exact (hx.both.out.ok hx.both.err).1
      rw [m1, m2, hx.both.err, hx.both.err0]
      simp only [Bool.and_false, Bool.false_eq_true, if_false]
      split
      · exact done _
      · split
        · exact ih hx s1 _
        · exact done _
    · have hr' : ¬ r < 0 := by omega
      have p1 := hy.inv.pc
      have p2 := hy.inv0.pc
      obtain ⟨d1, f1, f2, f3, f4, f5, k1⟩ := pendingQueue_same hW c1.pending.toNat s1 hy.inv hy.err hy.out (by omega)
      obtain ⟨d2, g1, g2, g3, g4, g5, k2⟩ := pendingQueue_same hW c2.pending.toNat s1 hy.inv0 hy.err0 hy.out0 (by omega)
      rw [if_neg hr', if_neg hr', hy.mark, hy.mark0]
      simp only [Bool.and_self, if_true, f1, g1]
      refine ⟨d1, d2, s1, some 0, _, rfl, rfl, (g4.ok g3).1, ?_, by rw [k1, k2, hy.mark, hy.mark0], ?_⟩
      · rw [k2, hy.mark0, if_pos rfl, (f4.ok f3).1, hy.last]
        rfl
      · intro f hf
        rcases List.mem_append.1 hf with hf | hf
        · exact hy.dev0 f hf
        · exact hy.inv0.plt f (pops_sub _ _ hy.inv0.nd f hf)

theorem Passed.logs {c c0 : Ctx} {w : List Frame} {k : Nat} (max : Int) (fuel : Nat) (h : Passed T n k c c0 w) (s : σ) (fr : Int) :
    ∃ c1 c2 s1 r w', processLogs W false max fuel c s fr = .ok (c1, s1, r) ∧ processLogs W false max fuel c0 s fr = .ok (c2, s1, r) ∧
      w <+: w' ∧ Passed T n k c1 c2 w' := by
  induction fuel generalizing c c0 w s fr with
  | zero => exact ⟨c, c0, s, none, w, rfl, rfl, List.prefix_refl w, h⟩
  | succ fuel ih =>
    obtain ⟨c1, c2, s1, r, w', e1, e2, hw, hx⟩ := h.turn hW s
    unfold processLogs
    rw [e1, e2]
    dsimp only [bind, Except.bind]
    rw [hx.both.err, hx.both.err0]
    simp only [Bool.false_and, Bool.false_eq_true, if_false]
    split
    · exact ⟨c1, c2, s1, _, w', rfl, rfl, hw, hx⟩
    · split
      · obtain ⟨d1, d2, s2, r', v, f1, f2, f3, f4⟩ := ih hx s1 (fr + r)
        exact ⟨d1, d2, s2, r', v, f1, f2, hw.trans f3, f4⟩
      · exact ⟨c1, c2, s1, _, w', rfl, rfl, hw, hx⟩

theorem Waiting.logs {c c0 : Ctx} {w : List Frame} (hT : 0 < T) (hn : n ≤ T + 1) (max : Int) (fuel : Nat) (h : Waiting T n c c0 w) (s : σ) (fr : Int) :
    ∃ c1 c2 s1 r w', processLogs W false max fuel c s fr = .ok (c1, s1, r) ∧ processLogs W false max fuel c0 s fr = .ok (c2, s1, r) ∧
      w <+: w' ∧ Phase T n c1 c2 w' := by
  induction fuel generalizing c c0 w s fr with
  | zero => exact ⟨c, c0, s, none, w, rfl, rfl, List.prefix_refl w, .inl h⟩
  | succ fuel ih =>
    obtain ⟨c1, c2, s1, r, w', e1, e2, hw, hx⟩ := h.turn hW hT s
    unfold processLogs
    rw [e1, e2]
    dsimp only [bind, Except.bind]
    rcases hx with hx | ⟨-, -, hx⟩
    · rw [hx.both.err, hx.both.err0]
      simp only [Bool.false_and, Bool.false_eq_true, if_false]
      split
      · exact ⟨c1, c2, s1, _, w', rfl, rfl, hw, .inl hx⟩
      · split
        · obtain ⟨d1, d2, s2, r', v, f1, f2, f3, f4⟩ := ih hx s1 (fr + r)
          exact ⟨d1, d2, s2, r', v, f1, f2, hw.trans f3, f4⟩
        · exact ⟨c1, c2, s1, _, w', rfl, rfl, hw, .inl hx⟩
    · have hx := hx hn
      rw [hx.both.err, hx.both.err0]
      simp only [Bool.false_and, Bool.false_eq_true, if_false]
      split
      · exact ⟨c1, c2, s1, _, w', rfl, rfl, hw, .inr ⟨_, hx⟩⟩
      · split
        · obtain ⟨d1, d2, s2, r', v, f1, f2, f3, f4⟩ := hx.logs hW max fuel s1 (fr + r)
          exact ⟨d1, d2, s2, r', v, f1, f2, hw.trans f3, .inr ⟨_, f4⟩⟩
        · exact ⟨c1, c2, s1, _, w', rfl, rfl, hw, .inr ⟨_, hx⟩⟩

theorem Passed.calls (l : List (Nat × Int)) : ∀ {c c0 : Ctx} {w : List Frame} {k : Nat} (s : σ), Passed T n k c c0 w →
    ∃ c1 c2 s1 w', Ulogcat.calls W false l c s = .ok (c1, s1) ∧ Ulogcat.calls W false l c0 s = .ok (c2, s1) ∧ w <+: w' ∧ Passed T n k c1 c2 w' := by
  induction l with
  | nil => intro c c0 w k s h; exact ⟨c, c0, s, w, rfl, rfl, List.prefix_refl w, h⟩
  | cons x l ih =>
    intro c c0 w k s h
    obtain ⟨c1, c2, s1, r, w1, e1, e2, e3, e4⟩ := h.logs hW x.2 x.1 s 0
    obtain ⟨d1, d2, s2, w2, f1, f2, f3, f4⟩ := ih s1 e4
    refine ⟨d1, d2, s2, w2, ?_, ?_, e3.trans f3, f4⟩
    · simp only [Ulogcat.calls, e1, Except.bind]; exact f1
    · simp only [Ulogcat.calls, e2, Except.bind]; exact f2

theorem Phase.calls (hT : 0 < T) (hn : n ≤ T + 1) (l : List (Nat × Int)) : ∀ {c c0 : Ctx} {w : List Frame} (s : σ), Phase T n c c0 w →
    ∃ c1 c2 s1 w', Ulogcat.calls W false l c s = .ok (c1, s1) ∧ Ulogcat.calls W false l c0 s = .ok (c2, s1) ∧ w <+: w' ∧ Phase T n c1 c2 w' := by
  induction l with
  | nil => intro c c0 w s h; exact ⟨c, c0, s, w, rfl, rfl, List.prefix_refl w, h⟩
  | cons x l ih =>
    intro c c0 w s h
    rcases h with h | ⟨k, h⟩
    · obtain ⟨c1, c2, s1, r, w1, e1, e2, e3, e4⟩ := h.logs hW hT hn x.2 x.1 s 0
      obtain ⟨d1, d2, s2, w2, f1, f2, f3, f4⟩ := ih s1 e4
      refine ⟨d1, d2, s2, w2, ?_, ?_, e3.trans f3, f4⟩
      · simp only [Ulogcat.calls, e1, Except.bind]; exact f1
      · simp only [Ulogcat.calls, e2, Except.bind]; exact f2
    · obtain ⟨c1, c2, s1, w1, e1, e2, e3, e4⟩ := h.calls hW (x :: l) s
      exact ⟨c1, c2, s1, w1, e1, e2, e3, .inr ⟨k, e4⟩⟩

/-- C139, dumping. A dump with a tail of `T` lines and one without read the same and return the
same. If the second output the entries `v`, the first output the last `T` of them once the marks
were reached, and nothing before. -/
theorem C139_dump (marks : List Nat) (hT : 0 < T) (max : Int) (fuel : Nat) (s : σ) :
    ∃ c c0 s1 r v, processLogs W true max fuel (openCtx marks T) s 0 = .ok (c, s1, r) ∧
      processLogs W true max fuel (openCtx marks 0) s 0 = .ok (c0, s1, r) ∧
      c0.out = annotate (decide (marks.length > 1)) [] v ∧
      c.out = annotate (decide (marks.length > 1)) [] (if c0.markReached then v.drop (v.length - T) else []) ∧
      c.markReached = c0.markReached ∧ ∀ f ∈ v, f.dev < marks.length :=
  (open_waiting marks T).dump hW hT max fuel s 0

/-- C139, following. If there are at most `T + 1` devices, any calls with a tail and without read
the same. Nothing is output before the marks are reached; from then on it is what is output
without a tail but for the first `k` entries, with the same `k` after any further calls. -/
theorem C139_follow (marks : List Nat) (hT : 0 < T) (hn : marks.length ≤ T + 1) (l : List (Nat × Int)) (s : σ) :
    ∃ c c0 s1 w, calls W false l (openCtx marks T) s = .ok (c, s1) ∧ calls W false l (openCtx marks 0) s = .ok (c0, s1) ∧
      c0.out = annotate (decide (marks.length > 1)) [] w ∧ (∀ f ∈ w, f.dev < marks.length) ∧ c.pendQ = c0.pendQ ∧ c.markReached = c0.markReached ∧
      (c0.markReached = false → c.out = []) ∧
      (c0.markReached = true → ∃ k, k ≤ w.length ∧ k ≤ w.length + c0.pendQ.length - T ∧ c.out = annotate (decide (marks.length > 1)) [] (w.drop k) ∧
        ∀ l2, ∃ d d0 s2 v, calls W false l2 c s1 = .ok (d, s2) ∧ calls W false l2 c0 s1 = .ok (d0, s2) ∧ w <+: v ∧
          d0.out = annotate (decide (marks.length > 1)) [] v ∧ d.out = annotate (decide (marks.length > 1)) [] (v.drop k)) := by
  obtain ⟨c, c0, s1, w, e1, e2, -, h⟩ := Phase.calls hW hT hn l s (.inl (open_waiting marks T))
  rcases h with h | ⟨k, h⟩
  · have B := h.both
    have m0 : c0.markReached = false := by rw [← B.mark]; exact h.mark
    exact ⟨c, c0, s1, w, e1, e2, (B.out0.ok B.err0).1, B.dev0, B.pend, B.mark, fun _ => (B.out.ok B.err).1, fun x => by rw [m0] at x; cases x⟩
  · have B := h.both
    have m0 : c0.markReached = true := by rw [← B.mark]; exact h.mark
    refine ⟨c, c0, s1, w, e1, e2, (B.out0.ok B.err0).1, B.dev0, B.pend, B.mark, (fun x => by rw [m0] at x; cases x), fun _ => ⟨k, h.le, h.few, (B.out.ok B.err).1, ?_⟩⟩
    intro l2
    obtain ⟨d, d0, s2, v, f1, f2, f3, f4⟩ := h.calls hW l2 s1
    exact ⟨d, d0, s2, v, f1, f2, f3, (f4.both.out0.ok f4.both.err0).1, (f4.both.out.ok f4.both.err).1⟩

/-- C139. At the turn that reaches the marks, what is output and the entries still pending are
`T` entries, or all if there are fewer. -/
theorem C139_mark (marks : List Nat) (hT : 0 < T) (hn : marks.length ≤ T + 1) (l : List (Nat × Int)) (s : σ) {c c0 : Ctx} {s1 : σ}
    (h : calls W false l (openCtx marks T) s = .ok (c, s1)) (h0 : calls W false l (openCtx marks 0) s = .ok (c0, s1)) (hm : c.markReached = false)
    {c' c0' : Ctx} {s2 : σ} {r : Int} (ht : processDevices W c s1 = .ok (c', s2, r)) (ht0 : processDevices W c0 s1 = .ok (c0', s2, r))
    (hm' : c'.markReached = true) :
    ∃ w, c0'.out = annotate (decide (marks.length > 1)) [] w ∧
      c'.out = annotate (decide (marks.length > 1)) [] (w.drop (w.length + c0'.pendQ.length - T)) := by
  obtain ⟨d, d0, t1, w, e1, e2, -, hp⟩ := Phase.calls hW hT hn l s (.inl (open_waiting marks T))
  rw [h] at e1
  rw [h0] at e2
  cases e1
  cases e2
  rcases hp with hp | ⟨k, hp⟩
  · obtain ⟨a, b, t2, q, v, f1, f2, -, hx⟩ := hp.turn hW hT s1
    rw [ht] at f1
    rw [ht0] at f2
    cases f1
    cases f2
    rcases hx with hx | ⟨-, -, hx⟩
    · rw [hx.mark] at hm'; cases hm'
    · have hx := hx hn
      exact ⟨v, (hx.both.out0.ok hx.both.err0).1, (hx.both.out.ok hx.both.err).1⟩
  · rw [hp.mark] at hm; cases hm

end

/-! ## On a stream -/

section
variable {W : World σ} (hW : Silent W) {T : Nat} {paths : Nat → Bytes} {what : Nat → Shown} (hcan : ∀ id, CanShow (what id))
  {ans : Scr σ → OutEv → List WrAns} (hans : ∀ s e, ∃ n, ans s e = [.took n] ∧ 5248 ≤ n)
include hW hcan hans

/-- Calls in a silent world are those on a stream that takes everything, which gets the texts. -/
theorem onto_bytes {marks : List Nat} {tail : Int} {dump : Bool} {l : List (Nat × Int)} {c : Ctx} {s s' : σ}
    (hc : calls W dump l (openCtx marks tail) s = .ok (c, s')) {buf0 : Bytes} (hb : buf0.length = 5248) :
    ∃ t, calls (W.onto .file paths what ans) dump l (openCtx marks tail) ⟨s, buf0, []⟩ = .ok (c, t) ∧ t.st = s' ∧
      t.bytes = c.out.flatMap (textOf paths what) := by
  have hW' : ∀ s e, (W.output s e).1 = true := fun s e => by rw [hW s e]
  have hsim := (onto_sim (W := W) hcan (takes_all (paths := paths) hcan hans) hW').calls dump l (openCtx marks tail) (s := s) (t := ⟨s, buf0, []⟩) ⟨rfl, hb⟩
  rw [hc] at hsim
  cases hx : calls (W.onto .file paths what ans) dump l (openCtx marks tail) ⟨s, buf0, []⟩ with
  | error e => rw [hx] at hsim; exact hsim.elim
  | ok y =>
    obtain ⟨c', t⟩ := y
    rw [hx] at hsim
    obtain ⟨e1, e2, _⟩ := hsim
    dsimp only at e1 e2
    subst e1
    exact ⟨t, rfl, e2, (C96_file W hcan ans hb rfl hx).1 (calls_outErr hW' hc)⟩

/-- C139 on a stream, dumping. -/
theorem C139_dumped (marks : List Nat) (hT : 0 < T) (max : Int) (fuel : Nat) (s : σ) {buf0 : Bytes} (hb : buf0.length = 5248) :
    ∃ c c0 t t0 v, calls (W.onto .file paths what ans) true [(fuel, max)] (openCtx marks T) ⟨s, buf0, []⟩ = .ok (c, t) ∧
      calls (W.onto .file paths what ans) true [(fuel, max)] (openCtx marks 0) ⟨s, buf0, []⟩ = .ok (c0, t0) ∧ t.st = t0.st ∧
      t0.bytes = screenOf paths (fun _ bs => bs) (decide (marks.length > 1)) [] v ∧
      t.bytes = screenOf paths (fun _ bs => bs) (decide (marks.length > 1)) [] (if c0.markReached then v.drop (v.length - T) else []) := by
  obtain ⟨c, c0, s1, r, w, e1, e2, e3, e4, -⟩ := C139_dump hW marks hT max fuel s
  have h1 : calls W true [(fuel, max)] (openCtx marks T) s = .ok (c, s1) := by simp only [calls, e1, Except.bind]
  have h2 : calls W true [(fuel, max)] (openCtx marks 0) s = .ok (c0, s1) := by simp only [calls, e2, Except.bind]
  obtain ⟨t, f1, f2, f3⟩ := onto_bytes hW hcan hans (paths := paths) h1 hb
  obtain ⟨t0, g1, g2, g3⟩ := onto_bytes hW hcan hans (paths := paths) h2 hb
  refine ⟨c, c0, t, t0, w.map fun f => (f.dev, frameText what f), f1, g1, f2.trans g2.symm, by rw [g3, e3, annotate_screen], ?_⟩
  rw [f3, e4, annotate_screen]
  split
  · rw [List.map_drop, List.length_map]
  · rfl

/-- C139 on a stream, following. After any further calls the same `k` entries are missing. -/
theorem C139_followed (marks : List Nat) (hT : 0 < T) (hn : marks.length ≤ T + 1) (l : List (Nat × Int)) (s : σ) {buf0 : Bytes} (hb : buf0.length = 5248) :
    ∃ c c0 t t0, calls (W.onto .file paths what ans) false l (openCtx marks T) ⟨s, buf0, []⟩ = .ok (c, t) ∧
      calls (W.onto .file paths what ans) false l (openCtx marks 0) ⟨s, buf0, []⟩ = .ok (c0, t0) ∧ t.st = t0.st ∧
      (c0.markReached = false → t.bytes = []) ∧
      (c0.markReached = true → ∃ v k, k ≤ v.length ∧
        t0.bytes = screenOf paths (fun _ bs => bs) (decide (marks.length > 1)) [] v ∧
        t.bytes = screenOf paths (fun _ bs => bs) (decide (marks.length > 1)) [] (v.drop k) ∧
        ∀ l2, ∃ d d0 u u0 v2, calls (W.onto .file paths what ans) false (l ++ l2) (openCtx marks T) ⟨s, buf0, []⟩ = .ok (d, u) ∧
          calls (W.onto .file paths what ans) false (l ++ l2) (openCtx marks 0) ⟨s, buf0, []⟩ = .ok (d0, u0) ∧ u.st = u0.st ∧ v <+: v2 ∧
          u0.bytes = screenOf paths (fun _ bs => bs) (decide (marks.length > 1)) [] v2 ∧
          u.bytes = screenOf paths (fun _ bs => bs) (decide (marks.length > 1)) [] (v2.drop k)) := by
  obtain ⟨c, c0, s1, w, e1, e2, e3, -, -, -, e6, e7⟩ := C139_follow hW marks hT hn l s
  obtain ⟨t, f1, f2, f3⟩ := onto_bytes hW hcan hans (paths := paths) e1 hb
  obtain ⟨t0, g1, g2, g3⟩ := onto_bytes hW hcan hans (paths := paths) e2 hb
  refine ⟨c, c0, t, t0, f1, g1, f2.trans g2.symm, (fun hm => by rw [f3, e6 hm]; rfl), fun hm => ?_⟩
  obtain ⟨k, hk, -, e8, e9⟩ := e7 hm
  refine ⟨w.map fun f => (f.dev, frameText what f), k, by rw [List.length_map]; exact hk, by rw [g3, e3, annotate_screen],
    by rw [f3, e8, annotate_screen, List.map_drop], fun l2 => ?_⟩
  obtain ⟨d, d0, s2, v, a1, a2, a3, a4, a5⟩ := e9 l2
  have h1 : calls W false (l ++ l2) (openCtx marks T) s = .ok (d, s2) := by rw [calls_append, e1]; exact a1
  have h2 : calls W false (l ++ l2) (openCtx marks 0) s = .ok (d0, s2) := by rw [calls_append, e2]; exact a2
  obtain ⟨u, b1, b2, b3⟩ := onto_bytes hW hcan hans (paths := paths) h1 hb
  obtain ⟨u0, c1, c2, c3⟩ := onto_bytes hW hcan hans (paths := paths) h2 hb
  refine ⟨d, d0, u, u0, v.map fun f => (f.dev, frameText what f), b1, c1, b2.trans c2.symm, a3.map _, by rw [c3, a4, annotate_screen], ?_⟩
  rw [b3, a5, annotate_screen, List.map_drop]

end

/-! ## More devices than the tail -/

/-- As `quiet`, but before poll number `p` device `i` gets the entries `add p i`. -/
def growing (add : Nat → Nat → List Item) : World (Nat × Logs) where
  poll s a :=
    let l : Logs := fun i => s.2 i ++ add s.1 i
    ((quiet.poll l a).1, s.1 + 1, l)
  recv s i :=
    match s.2 i with
    | [] => (.again, s)
    | .bin :: _ => (.again, s.1, s.2.drop1 i)
    | .text stamp id :: _ => (.got stamp id true 1, s.1, s.2.drop1 i)
  output s _ := (true, s)

theorem growing_silent (add : Nat → Nat → List Item) : Silent (growing add) := fun _ _ => rfl

/-- The stamps that were output. -/
def stamps (c : Ctx) : List Nat := c.out.filterMap fun
  | .entry f => some f.stamp
  | .banner .. => none

/-- Three devices and a tail of one. -/
def tailThree : Logs := fun i => if i = 0 then [.text 10 0, .text 40 1] else if i = 1 then [.text 20 2] else if i = 2 then [.text 30 3] else []
def tailAgain (p i : Nat) : List Item := if p = 2 ∧ i = 1 then [.text 21 4] else []

/-- It is false that following with a tail shows a last part of what is shown without one, if there
are more than `T + 1` devices: pending entries are dropped too, their devices are read again
at once, and what is read late may be output after what is newer. -/
theorem C139_false_many : ∃ c c0 s1 r, processLogs (growing tailAgain) false 0 12 (openCtx [1, 1, 1] 1) (0, tailThree) 0 = .ok (c, s1, r) ∧
    (∃ s2, processLogs (growing tailAgain) false 0 12 (openCtx [1, 1, 1] 0) (0, tailThree) 0 = .ok (c0, s2, r)) ∧ ¬ stamps c <:+ stamps c0 := by
  obtain ⟨c, s1, r, e, -⟩ := processLogs_inv (growing tailAgain) false 0 12 (0, tailThree) 0 (openCtx_inv [1, 1, 1] 1)
  obtain ⟨c0, s2, r0, e0, -⟩ := processLogs_inv (growing tailAgain) false 0 12 (0, tailThree) 0 (openCtx_inv [1, 1, 1] 0)
  have h : (processLogs (growing tailAgain) false 0 12 (openCtx [1, 1, 1] 1) (0, tailThree) 0).toOption.map (fun x => (stamps x.1, x.2.2)) =
    some ([30, 21, 40], none) := by decide +kernel
  have h0 : (processLogs (growing tailAgain) false 0 12 (openCtx [1, 1, 1] 0) (0, tailThree) 0).toOption.map (fun x => (stamps x.1, x.2.2)) =
    some ([10, 20, 21, 30, 40], none) := by decide +kernel
  have e' : processLogs (growing tailAgain) false 0 12 (openCtx [1, 1, 1] 1) (0, tailThree) 0 = .ok (c, s1, r) := e
  have e0' : processLogs (growing tailAgain) false 0 12 (openCtx [1, 1, 1] 0) (0, tailThree) 0 = .ok (c0, s2, r0) := e0
  rw [e'] at h
  rw [e0'] at h0
  simp only [Except.toOption, Option.map_some, Option.some.injEq, Prod.mk.injEq] at h h0
  refine ⟨c, c0, s1, r, e', ⟨s2, ?_⟩, ?_⟩
  · rw [e0', h.2, h0.2]
  · rw [h.1, h0.1]; decide

end Verif.Ulogcat
