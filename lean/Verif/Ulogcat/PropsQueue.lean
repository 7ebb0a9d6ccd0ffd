import Verif.Ulogcat.QueueOpen
import Verif.Ulogcat.PropsCore

/-!
# The queues of libulogcat as linked nodes (C105)
-/
namespace Verif.Ulogcat.Queue
open Verif Verif.Ulogcat

variable {σ : Type}

/-- Calls of `ulogcat3_process_logs` one after the other, as in `calls`. -/
def pcalls (W : World σ) (ext : σ → Nat → Buf) (dump : Bool) : List (Nat × Int) → PCtx → σ → Except CFault (PCtx × σ)
  | [], p, s => .ok (p, s)
  | (fuel, max) :: l, p, s =>
    (pProcessLogs W ext dump max fuel p s 0).bind fun x => pcalls W ext dump l x.1 x.2.1

/-- The three queues are rings of frames: `F`, `R`, `P` in the order of the `next`
pointers, the `prev` pointers leading back. Each of the `n` frames is in one of them,
once. -/
structure Shape (h : Heap) (n : Nat) (F R P : List Nat) : Prop where
  free : Ring h freeQ F
  render : Ring h renderQ R
  pending : Ring h pendingQ P
  once : ∀ x, F.count x + R.count x + P.count x = if 4 ≤ x ∧ x < 4 + n then 1 else 0

theorem openP_sim (marks : List Nat) (tail : Nat) (junk : Nat → Nat) :
    ∃ p, openP marks tail junk = .ok p ∧ p.n = tail + marks.length + 1 ∧ p.c = openCtx marks tail ∧
      Sim (devAddrs (tail + marks.length + 1) marks.length) (tail + marks.length + 1) p (openCtx marks tail) := by
  have hn : ((tail : Int) + marks.length + 1).toNat = tail + marks.length + 1 := by omega
  obtain ⟨h, Q, e, L, q0, q1, q2, q3⟩ := openHeap_spec (tail + marks.length + 1) marks.length junk
  let p : PCtx := { c := openCtx marks tail, h, n := tail + marks.length + 1, mem := fun _ => ⟨0, 0, 0, false⟩
                    buf := fun _ => .own, bufs := 0, badFree := false }
  refine ⟨p, ?_, rfl, rfl, rfl, Q, q3, ⟨L, fun _ _ => rfl, ?_, rfl⟩, ?_⟩
  · unfold openP
    rw [hn]
    dsimp only
    rw [e, bind_ok]
  · show 0 = _
    rw [q1, q2]; rfl
  · unfold view withQ
    rw [q0, q1, q2]
    have : (openCtx marks tail).free = (frameAddrs (tail + marks.length + 1)).length := by
      show ((tail : Int) + marks.length + 1).toNat = _
      rw [hn]; simp [frameAddrs]
    rw [← this]
    rfl

theorem pcalls_sim {W : World σ} {ext : σ → Nat → Buf} {D : List Nat} {n : Nat} {dump : Bool} :
    ∀ {l : List (Nat × Int)} {p : PCtx} {c c' : Ctx} {s s' : σ}, Sim D n p c → calls W dump l c s = .ok (c', s') →
      ∃ p', pcalls W ext dump l p s = .ok (p', s') ∧ Sim D n p' c' := by
  intro l
  induction l with
  | nil =>
    intro p c c' s s' S e
    unfold calls at e
    injection e with e; injection e with ec es; subst ec es
    exact ⟨p, rfl, S⟩
  | cons x l ih =>
    intro p c c' s s' S e
    obtain ⟨fuel, max⟩ := x
    unfold calls at e
    cases h1 : processLogs W dump max fuel c s 0 with
    | error x => rw [h1] at e; cases e
    | ok x =>
      obtain ⟨c1, s1, r⟩ := x
      rw [h1] at e
      obtain ⟨p1, f1, S1⟩ := processLogs_sim (ext := ext) S h1
      obtain ⟨p2, f2, S2⟩ := ih S1 e
      exact ⟨p2, by unfold pcalls; rw [f1]; exact f2, S2⟩

theorem once_of {h : Heap} {n : Nat} {Q : Nat → List Nat} (L : Lists h n Q [])
    (hl : (Q 0).length + (Q 2).length + (Q 1).length = n) (x : Nat) :
    (Q 0).count x + (Q 1).count x + (Q 2).count x = if 4 ≤ x ∧ x < 4 + n then 1 else 0 := by
  have hu := L.uniq x
  have hf := L.frames x
  split
  · rename_i hx
    -- all frames are among the frames in the queues, which are as many
    have hm : x ∈ Q 0 ++ Q 1 ++ Q 2 := by
      apply Classical.byContradiction
      intro hc
      have nd : (x :: (Q 0 ++ Q 1 ++ Q 2)).Nodup := by
        refine List.nodup_cons.2 ⟨hc, ?_⟩
        rw [List.nodup_iff_count]
        intro y
        have := L.uniq y
        simp only [List.count_append]
        omega
      have sub : x :: (Q 0 ++ Q 1 ++ Q 2) ⊆ (List.range n).map (4 + ·) := by
        intro y hy
        have : 4 ≤ y ∧ y < 4 + n := by
          rcases List.mem_cons.1 hy with rfl | hy
          · exact hx
          · exact L.frames y (by simp only [List.mem_append] at hy; grind)
        exact List.mem_map.2 ⟨y - 4, List.mem_range.2 (by omega), by omega⟩
      have := nd.length_le_of_subset sub
      simp at this
      omega
    have := List.count_pos_iff.2 hm
    simp only [List.count_append] at this
    omega
  · rename_i hx
    have h0 : (Q 0).count x = 0 := List.count_eq_zero.2 fun h => hx (hf (.inl h))
    have h1 : (Q 1).count x = 0 := List.count_eq_zero.2 fun h => hx (hf (.inr (.inl h)))
    have h2 : (Q 2).count x = 0 := List.count_eq_zero.2 fun h => hx (hf (.inr (.inr (.inl h))))
    omega

theorem calls_inv {W : World σ} {dump : Bool} {T n : Nat} : ∀ {l : List (Nat × Int)} {c : Ctx} {s : σ}, Inv T n c →
    ∃ c' s', calls W dump l c s = .ok (c', s') ∧ Inv T n c' := by
  intro l
  induction l with
  | nil => intro c s I; exact ⟨c, s, rfl, I⟩
  | cons x l ih =>
    intro c s I
    obtain ⟨fuel, max⟩ := x
    obtain ⟨c1, s1, r, e1, I1⟩ := processLogs_inv W dump max fuel s 0 I
    obtain ⟨c2, s2, e2, I2⟩ := ih (s := s1) I1
    refine ⟨c2, s2, ?_, I2⟩
    unfold calls
    rw [e1]
    exact e2

theorem inv_free {T n : Nat} {c : Ctx} (I : Inv T n c) : 0 < c.free := by
  have h1 : (c.pendQ.map Frame.dev).length ≤ (List.range n).length := by
    apply I.nd.length_le_of_subset
    intro x hx
    obtain ⟨f, hf, rfl⟩ := List.mem_map.1 hx
    exact List.mem_range.2 (I.plt f hf)
  have h2 := I.pool
  have h3 := I.rt
  have h4 := I.tT
  rw [List.length_map, List.length_range] at h1
  omega

theorem calls_state (W : World σ) (ext : σ → Nat → Buf) (marks : List Nat) (tail : Nat) (dump : Bool) (l : List (Nat × Int)) (s : σ)
    (junk : Nat → Nat) : ∃ p0 p c s' Q, openP marks tail junk = .ok p0 ∧ pcalls W ext dump l p0 s = .ok (p, s') ∧
      calls W dump l (openCtx marks tail) s = .ok (c, s') ∧ Inv tail marks.length c ∧ p.n = tail + marks.length + 1 ∧
      Q 3 = devAddrs (tail + marks.length + 1) marks.length ∧ Rel p Q [] ∧ c = view p Q ∧
      (Q 0).length + (Q 2).length + (Q 1).length = tail + marks.length + 1 := by
  obtain ⟨p0, e0, n0, _, S0⟩ := openP_sim marks tail junk
  obtain ⟨c, s', e1, I⟩ := calls_inv (W := W) (dump := dump) (l := l) (s := s) (openCtx_inv marks tail)
  obtain ⟨p, e2, S⟩ := pcalls_sim (ext := ext) S0 e1
  have hp := I.pool
  obtain ⟨hn, Q, hD, R, rfl⟩ := S
  refine ⟨p0, p, _, s', Q, e0, e2, e1, I, hn, hD, R, rfl, ?_⟩
  simpa [view, withQ] using hp

/-- C105. For any devices, any tail of at least 0, whatever was in the memory of the
lists, and whatever happens: opening and any calls of `ulogcat3_process_logs` use no
memory that is not a node, and no walk goes on for ever. Afterwards every frame is in
one queue, once, each queue is a ring in both directions, and everything is as in the
model with lists of values (`Core`): `free_queue` has as many frames as it says, the
others hold its frames in its order, the output is the same. A frame in the free queue
has its own buffer; the extra buffers allocated and not freed are those of frames in
the other queues; no buffer was freed twice. -/
theorem C105_loop (W : World σ) (ext : σ → Nat → Buf) (marks : List Nat) (tail : Nat) (dump : Bool) (l : List (Nat × Int)) (s : σ)
    (junk : Nat → Nat) : ∃ p0 p c s' F R P, openP marks tail junk = .ok p0 ∧ pcalls W ext dump l p0 s = .ok (p, s') ∧
      calls W dump l (openCtx marks tail) s = .ok (c, s') ∧ Shape p.h (tail + marks.length + 1) F R P ∧
      c = { p.c with free := F.length, pendQ := P.map p.mem, rendQ := R.map p.mem } ∧
      (∀ x ∈ F, p.buf x = .own) ∧ p.bufs = ((R ++ P).countP fun x => decide (p.buf x = .extra)) ∧ p.badFree = false := by
  obtain ⟨p0, p, c, s', Q, e0, e1, e2, _, hn, hD, R, hc, hl⟩ := calls_state W ext marks tail dump l s junk
  refine ⟨p0, p, c, s', Q 0, Q 1, Q 2, e0, e1, e2, ⟨?_, ?_, ?_, ?_⟩, hc, R.own, ?_, R.ok⟩
  · exact R.lists.ring 0 (by omega)
  · exact R.lists.ring 1 (by omega)
  · exact R.lists.ring 2 (by omega)
  · intro x
    rw [← hn]
    exact once_of R.lists (by rw [hn]; exact hl) x
  · rw [R.bufs, List.append_nil]

/-- C105, results: in a state the calls lead to, a further call returns what it returns
in the model with values. -/
theorem C105_result (W : World σ) (ext : σ → Nat → Buf) (marks : List Nat) (tail : Nat) (dump : Bool) (l : List (Nat × Int)) (s : σ)
    (junk : Nat → Nat) (fuel : Nat) (max : Int) : ∃ p0 p c s' p' c' s'' r, openP marks tail junk = .ok p0 ∧
      pcalls W ext dump l p0 s = .ok (p, s') ∧ calls W dump l (openCtx marks tail) s = .ok (c, s') ∧
      processLogs W dump max fuel c s' 0 = .ok (c', s'', r) ∧ pProcessLogs W ext dump max fuel p s' 0 = .ok (p', s'', r) ∧
      p'.c.out = c'.out := by
  obtain ⟨p0, e0, n0, _, S0⟩ := openP_sim marks tail junk
  obtain ⟨c, s', e1, hs, hp⟩ := C35_frames W marks tail dump l s
  obtain ⟨p, e2, S⟩ := pcalls_sim (ext := ext) S0 e1
  obtain ⟨c2, s2, e3, _, _⟩ := C35_frames W marks tail dump (l ++ [(fuel, max)]) s
  have hap : ∀ (l m : List (Nat × Int)) (c : Ctx) (s : σ),
      calls W dump (l ++ m) c s = (calls W dump l c s).bind fun x => calls W dump m x.1 x.2 := by
    intro l m
    induction l with
    | nil => intro c s; rfl
    | cons x l ih =>
      intro c s
      obtain ⟨a, b⟩ := x
      show (processLogs W dump b a c s 0).bind _ = ((processLogs W dump b a c s 0).bind _).bind _
      cases processLogs W dump b a c s 0 with
      | error _ => rfl
      | ok x => exact ih x.1 x.2.1
  rw [hap, e1] at e3
  have e4 : (processLogs W dump max fuel c s' 0).bind (fun x => calls W dump [] x.1 x.2.1) = .ok (c2, s2) := e3
  cases h5 : processLogs W dump max fuel c s' 0 with
  | error x => rw [h5] at e4; cases e4
  | ok x =>
    obtain ⟨c', s'', r⟩ := x
    obtain ⟨p', f, S'⟩ := processLogs_sim (ext := ext) S h5
    exact ⟨p0, p, c, s', p', c', s'', r, e0, e2, e1, h5, f, S'.ctx.2.2.2.2.2.2.1.symm⟩

/-- C105, frames handed out: after any calls `alloc_frame` does not return NULL; it
returns the first frame of the free queue, which has its own small buffer, and takes it
out of the queue. -/
theorem C105_alloc (W : World σ) (ext : σ → Nat → Buf) (marks : List Nat) (tail : Nat) (dump : Bool) (l : List (Nat × Int)) (s : σ)
    (junk : Nat → Nat) : ∃ p0 p s' f F R P h', openP marks tail junk = .ok p0 ∧ pcalls W ext dump l p0 s = .ok (p, s') ∧
      Shape p.h (tail + marks.length + 1) (f :: F) R P ∧ allocFrame p = .ok (some f, { p with h := h' }) ∧ p.buf f = .own ∧
      Ring h' freeQ F ∧ Ring h' renderQ R ∧ Ring h' pendingQ P := by
  obtain ⟨p0, p, c, s', Q, e0, e1, e2, I, hn, hD, R, hc, hl⟩ := calls_state W ext marks tail dump l s junk
  have hf := inv_free I
  rw [hc] at hf
  have hf : 0 < (Q 0).length := hf
  cases hq : Q 0 with
  | nil => rw [hq] at hf; simp at hf
  | cons f F =>
    obtain ⟨h', a1, a2, a3⟩ := allocFrame_some R hq
    refine ⟨p0, p, s', f, F, Q 1, Q 2, h', e0, e1, ⟨?_, ?_, ?_, ?_⟩, a1, a3, ?_, ?_, ?_⟩
    · rw [← hq]; exact R.lists.ring 0 (by omega)
    · exact R.lists.ring 1 (by omega)
    · exact R.lists.ring 2 (by omega)
    · intro x
      rw [← hn, ← hq]
      exact once_of R.lists (by rw [hn]; exact hl) x
    · exact a2.lists.ring 0 (by omega)
    · exact a2.lists.ring 1 (by omega)
    · exact a2.lists.ring 2 (by omega)

theorem Lists.short1 {h : Heap} {n : Nat} {Q : Nat → List Nat} {H : List Nat} (L : Lists h n Q H) : (Q 1).length ≤ n := by
  have nd := (List.nodup_cons.1 (L.nodup (q := 1) (by omega))).2
  have sub : Q 1 ⊆ (List.range n).map (4 + ·) := by
    intro x hx
    have := L.frames x (by simp [hx])
    exact List.mem_map.2 ⟨x - 4, List.mem_range.2 (by omega), by omega⟩
  simpa using nd.length_le_of_subset sub

/-- C105, closing: after any calls `ulogcat3_close` uses no memory that is not there,
though it removes each device from the list twice. It frees each device once, in their
order, and no other node; all frames end up in the free queue with their own buffers,
so that no extra buffer is left over or freed twice. -/
theorem C105_close (W : World σ) (ext : σ → Nat → Buf) (marks : List Nat) (tail : Nat) (dump : Bool) (l : List (Nat × Int)) (s : σ)
    (junk : Nat → Nat) : ∃ p0 p s' p' F, openP marks tail junk = .ok p0 ∧ pcalls W ext dump l p0 s = .ok (p, s') ∧
      pClose p = .ok (p', (List.range marks.length).map fun i => 4 + (tail + marks.length + 1) + i) ∧
      (∀ x, p'.h.live x = (p.h.live x && decide (x < 4 + (tail + marks.length + 1) ∨
        4 + (tail + marks.length + 1) + marks.length ≤ x))) ∧
      Shape p'.h (tail + marks.length + 1) F [] [] ∧ Ring p'.h devsQ [] ∧ (∀ x ∈ F, p'.buf x = .own) ∧ p'.bufs = 0 ∧
      p'.badFree = false := by
  obtain ⟨p0, p, c, s', Q, e0, e1, e2, I, hn, hD, R, hc, hl⟩ := calls_state W ext marks tail dump l s junk
  have hlen : p.c.devs.length = marks.length := by
    have := I.len; rw [hc] at this; exact this
  have hDl : (devAddrs (tail + marks.length + 1) marks.length).length ≤ p.c.devs.length := by
    simp [devAddrs, hlen]
  obtain ⟨h1, f1, L1, v1⟩ := closeDevs_spec _ (fr := []) R.lists hD hDl
  have R1 : Rel { p with h := h1 } (upd Q 3 []) [] := ⟨L1, R.own, R.bufs, R.ok⟩
  obtain ⟨p2, Q2, f2, R2, n2, c2, a1, a2, a3, a4, a5⟩ := closeQueue_spec (q := 1) (by omega) (Q 1) (k := p.n) R1
    (by simp [upd]) R.lists.short1
  have hq2 : Q2 2 = Q 2 := by rw [show Q2 2 = Q2 (3 - 1) from rfl, a2]; simp [upd]
  obtain ⟨p3, Q3, f3, R3, n3, c3, b1, b2, b3, b4, b5⟩ := closeQueue_spec (q := 2) (by omega) (Q 2) (k := p2.n) R2
    hq2 (by rw [n2]; exact R.lists.short)
  have hq1 : Q3 1 = [] := by rw [show Q3 1 = Q3 (3 - 2) from rfl, b2]; exact a1
  have hq0 : (Q3 0).length = tail + marks.length + 1 := by
    rw [b4, a4]
    simp [upd]
    omega
  have hn3 : p3.n = tail + marks.length + 1 := by rw [n3, n2]; exact hn
  refine ⟨p0, p, s', p3, Q3 0, e0, e1, ?_, ?_, ⟨?_, ?_, ?_, ?_⟩, ?_, R3.own, ?_, R3.ok⟩
  · unfold pClose
    rw [f1, bind_ok]
    show (closeQueue 1 p.n { p with h := h1 } >>= _) = _
    rw [f2, bind_ok]
    show (closeQueue 2 p2.n p2 >>= _) = _
    rw [f3]
    rfl
  · intro x
    rw [b5, a5]
    show h1.live x = _
    rw [v1]
    congr 1
    have : x ∈ devAddrs (tail + marks.length + 1) marks.length ↔
        ¬ (x < 4 + (tail + marks.length + 1) ∨ 4 + (tail + marks.length + 1) + marks.length ≤ x) := by
      unfold devAddrs
      rw [List.mem_map]
      constructor
      · rintro ⟨i, hi, rfl⟩
        have := List.mem_range.1 hi
        omega
      · intro h
        exact ⟨x - (4 + (tail + marks.length + 1)), List.mem_range.2 (by omega), by omega⟩
    by_cases h : x < 4 + (tail + marks.length + 1) ∨ 4 + (tail + marks.length + 1) + marks.length ≤ x
    · rw [decide_eq_true h, decide_eq_false (fun h' => this.1 h' h)]; rfl
    · rw [decide_eq_false h, decide_eq_true (this.2 h)]; rfl
  · exact R3.lists.ring 0 (by omega)
  · have := R3.lists.ring 1 (by omega); rw [hq1] at this; exact this
  · have := R3.lists.ring 2 (by omega); rw [b1] at this; exact this
  · intro x
    have := once_of R3.lists (by rw [hq0, b1, hq1, hn3]; rfl) x
    rw [hq1, b1, hn3] at this
    exact this
  · have := R3.lists.ring 3 (by omega)
    rw [b3, a3] at this
    simpa [upd] using this
  · rw [R3.bufs, hq1, b1]; rfl

/-- C105, a device that could not be opened: taking it off the list and freeing it
(`log_device_destroy`) leaves the ring of the other devices and the queues. -/
theorem C105_destroy {h : Heap} {n : Nat} {Q : Nat → List Nat} (L : Lists h n Q []) {d : Nat} {l m : List Nat}
    (e : Q 3 = l ++ d :: m) : ∃ h1 h2, listRemove h d = .ok h1 ∧ freeDev h1 d = .ok h2 ∧ Ring h2 devsQ (l ++ m) ∧
      (∀ q, q < 3 → Ring h2 q (Q q)) ∧ ∀ x, h2.live x = (h.live x && decide (x ≠ d)) := by
  obtain ⟨h1, h2, e1, _, e2, L', v⟩ := lists_remove_dev L e
  refine ⟨h1, h2, e1, e2, ?_, ?_, ?_⟩
  · have := L'.ring 3 (by omega); rw [upd_same] at this; exact this
  · intro q hq
    have := L'.ring q (by omega)
    rw [upd_other _ _ (by omega)] at this
    exact this
  · intro x
    rw [v]
    by_cases hx : x = d
    · subst hx; simp
    · rw [upd_other _ _ hx]; simp [hx]

end Verif.Ulogcat.Queue
