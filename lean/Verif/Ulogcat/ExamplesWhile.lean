import Verif.Ulogcat.PropsCatchUp
import Verif.Ulogcat.ExamplesLost

/-!
# Programs and a viewer meeting the hypotheses of C138

The messages of `ExamplesLost`, of which the viewer sees the first ones before it is started,
and the calls made for the others one at a time.
-/
namespace Verif.Ulogcat.Examples.While
open Verif Verif.Kernel Verif.Kernel.Examples Verif.Libulog Verif.Ulogcat Verif.Ulogcat.Examples Verif.Ulogcat.Examples.Screen
  Verif.Ulogcat.Examples.Said Verif.Ulogcat.Examples.Fleet Verif.Ulogcat.Examples.Lost

def onStream : Scr (Nat → DW) → OutEv → List WrAns := fun _ _ => [.took 6000]

/-- `C138_scene`, `C138_follow` and `C138_all`: more is said than the buffer has room for, by
calls among the turns of the viewer, except for the first three; after the viewer has had five
turns and then as many as it needs, everything said to both devices is dealt with. -/
example : ∃ pre w m, Scene 2 (fun _ => progs) noJunk more (fun _ => dev) (fun _ => 14) (fun _ => noJunk) pre w m ∧
    (∀ i, i < 2 → ∃ ops, sayAll progs noJunk (fun _ => .start) (more i) = .ok ops ∧ (pre i) = ops.take 3 ∧ (w i).env = (ops.drop 3).map ([·])) ∧
    ∃ l c w' t all, calls ((fleet 2 0 0 false (fun _ => canRender look) 3).onto .file paths (fleetEntries 2 (fun _ => look) all) onStream) false ((5, 0) :: l)
        (openCtx [0, 0] 0) ⟨w, List.replicate 5248 170, []⟩ = .ok (c, t) ∧ t.st = w' ∧ (∀ i, i < 2 → (w' i).env = []) ∧
      ∃ v, t.bytes = screenOf paths (fun _ bs => bs) true [] v ∧
        Watched progs look dev (2 ^ 14) ((more 0).filter (·.passes progs)) 0 (partOf 0 v) ((more 0).filter (·.passes progs)).length ∧
        partOf 1 v = m4.lines progs look ++ m5.lines progs look := by
  have hlen : ∀ i, i < 2 → (more i).length < 2147483648 := two (by simp [more]) (by simp [more])
  obtain ⟨A, hA, h⟩ := C138_scene (N := 2) (D := fun _ => ascii "/dev/ulog_main") (P := fun _ => progs) (ms := more) (name := fun _ => dev) (k := fun _ => 14)
    (fun _ _ => progs_plain) more_plain noJunk (fun _ => noJunk) (fun _ _ => Nat.le_refl _) (fun _ _ => by decide) hlen
  obtain ⟨w, m, hs, henv⟩ := h (fun i => (A i).take 3) (fun i => ((A i).drop 3).map ([·])) (fun i _ => by
    have : ∀ l : List Op, (l.map ([·])).flatten = l := by intro l; induction l with | nil => rfl | cons a l ih => simp [ih]
    rw [this, List.take_append_drop])
  refine ⟨_, w, m, hs, fun i hi => ⟨A i, hA i hi, rfl, henv i hi⟩, ?_⟩
  obtain ⟨c1, w1, _, hc1, _⟩ := C138_follow (by omega) (fun _ _ => progs_plain) more_plain (fun _ _ => Nat.le_refl _) (fun _ _ => by decide)
    (fun _ _ => show NoNul dev by decide) hlen (L := fun _ => look) (csv := false) (fun _ _ => rfl) (fun _ _ => rfl) hs (paths := paths) (ans := onStream)
    (fun _ _ => ⟨6000, rfl, by omega⟩) (marks := [0, 0]) rfl false [(5, 0)] (buf0 := List.replicate 5248 170) List.length_replicate 0 3
  obtain ⟨need, h⟩ := C138_all (by omega) (fun _ _ => progs_plain) more_plain (fun _ _ => Nat.le_refl _) (fun _ _ => by decide)
    (fun _ _ => show NoNul dev by decide) hlen (L := fun _ => look) (csv := false) (fun _ _ => rfl) (fun _ _ => rfl) hs (paths := paths) (ans := onStream)
    (fun _ _ => ⟨6000, rfl, by omega⟩) (marks := [0, 0]) rfl (l := [(5, 0)]) (buf0 := List.replicate 5248 170) List.length_replicate (n := 2) hc1
  obtain ⟨c, w', t, _, e1, e2, v, e3, _, e4⟩ := h need (Nat.le_refl _)
  refine ⟨[(need, 0)], c, w', t, _, e1, e2, fun i hi => (e4 i hi).1, v, e3, (e4 0 (by omega)).2.1, ?_⟩
  have hp : (more 1).filter (·.passes progs) = [m4, m5] := by
    show [m4, m5].filter _ = _
    rw [List.filter_cons_of_pos (by decide +kernel), List.filter_cons_of_pos (by decide +kernel)]
    rfl
  have := (e4 1 (by omega)).2.2
  rw [hp] at this
  rw [this (by decide +kernel)]
  simp

/-! ## A dump -/

def opsOf (ms : List Said) : List Op :=
  match sayAll progs noJunk (fun _ => .start) ms with
  | .ok a => a
  | .error _ => []

theorem opsOf_ok (ms : List Said) : sayAll progs noJunk (fun _ => .start) ms = .ok (opsOf ms) := by
  obtain ⟨ops, h, _⟩ := said_logged progs_plain ms noJunk dev 14
  unfold opsOf
  rw [h]

def first (i : Nat) : List Said := (logs i).take 1
def pre (i : Nat) : List Op := opsOf (first i)
def env (i : Nat) : List (List Op) := ((opsOf (logs i)).drop (pre i).length).map ([·])

def opened (i : Nat) : DW × Nat :=
  match Kernel.run (Kernel.init dev 14 noJunk) (pre i ++ [.openF 0 true false true, .getLogLen 0]) with
  | .ok (sys, tr) => ({ sys, tr, os := [], env := env i }, match tr.getLast? with | some (_, .ret m) => m | _ => 0)
  | .error _ => ({ sys := Kernel.init dev 14 noJunk, tr := [], os := [], env := [] }, 0)

def F : World (Nat → DW) := fleet 2 0 0 false (fun _ => canRender look) 3

def dumped := processLogs F true 0 80 (openCtx ((List.range 2).map fun i => (opened i).2) 0) (fun i => (opened i).1) 0

def goodDump : Bool :=
  match dumped with
  | .ok (c, w, r) => r == some 0 && decide (3 ≤ c.out.length) && decide ((w 0).env.length < (env 0).length)
  | .error _ => false

theorem goodDump_ok : goodDump = true := by decide +kernel

theorem logs_short : ∀ i, i < 2 → (logs i).length < 2147483648 := two (by decide) (by decide)

/-- The devices as the viewer finds them. -/
theorem logs_scene : Scene 2 (fun _ => progs) noJunk logs (fun _ => dev) (fun _ => 14) (fun _ => noJunk) pre (fun i => (opened i).1)
    (fun i => (opened i).2) := by
  obtain ⟨A, hA, h⟩ := C138_scene (N := 2) (D := fun _ => ascii "/dev/ulog_main") (P := fun _ => progs) (ms := logs) (name := fun _ => dev) (k := fun _ => 14)
    (fun _ _ => progs_plain) logs_plain noJunk (fun _ => noJunk) (fun _ _ => Nat.le_refl _) (fun _ _ => by decide) logs_short
  obtain ⟨w, m, hs, henv⟩ := h pre env (fun i hi => by
    have : ∀ l : List Op, (l.map ([·])).flatten = l := by intro l; induction l with | nil => rfl | cons a l ih => simp [ih]
    have h1 := hA i hi
    obtain ⟨p, r, g1, g2⟩ := sayAll_prefix ((logs i).take 1) ((logs i).drop 1) (by rw [List.take_append_drop]; exact h1)
    have hpre : pre i = p := Except.ok.inj ((opsOf_ok (first i)).symm.trans g1)
    have hall : opsOf (logs i) = A i := Except.ok.inj ((opsOf_ok (logs i)).symm.trans h1)
    unfold env
    rw [this, hall, hpre, g2, List.drop_left])
  have hop : ∀ i, i < 2 → opened i = (w i, m i) := by
    intro i hi
    obtain ⟨tr, h1, h2⟩ := hs.opens i hi
    have h3 := hs.fresh i hi
    have h4 := henv i hi
    unfold opened
    rw [h2]
    dsimp only
    rw [h1, List.getLast?_concat]
    dsimp only
    rw [← h1, ← h4, ← h3]
  constructor
  · intro i hi; rw [hop i hi]; exact hs.says i hi
  · intro i hi; rw [hop i hi]; exact hs.opens i hi
  · intro i hi; rw [hop i hi]; exact hs.fresh i hi

/-- `C138_dump`: of each device the message that was there is shown, and at least one that was
said meanwhile. -/
example : ∃ c t all, processLogs (F.onto .file paths (fleetEntries 2 (fun _ => look) all) onStream) true 0 80
      (openCtx ((List.range 2).map fun i => (opened i).2) 0) ⟨fun i => (opened i).1, List.replicate 5248 170, []⟩ 0 = .ok (c, t, some 0) ∧
    3 ≤ c.out.length ∧ ∃ v, t.bytes = screenOf paths (fun _ bs => bs) true [] v ∧
    ∀ d, d < 2 → ∃ r, 1 ≤ r ∧ partOf d v = (((logs d).filter (·.passes progs)).take r).flatMap (·.lines progs look) := by
  have hg := goodDump_ok
  unfold goodDump at hg
  cases hf : dumped with
  | error e => rw [hf] at hg; cases hg
  | ok x =>
    obtain ⟨c, w', r⟩ := x
    rw [hf] at hg
    simp only [Bool.and_eq_true, beq_iff_eq, decide_eq_true_eq] at hg
    obtain ⟨⟨h1, h2⟩, _⟩ := hg
    subst h1
    obtain ⟨t, e1, _, v, e3, _, e4⟩ := C138_dump (by omega) (fun _ _ => progs_plain) logs_plain (fun _ _ => Nat.le_refl _) (fun _ _ => by decide)
      (fun _ _ => show NoNul dev by decide) logs_short (L := fun _ => look) (csv := false) (fun _ _ => rfl) (fun _ _ => rfl) logs_scene (ms0 := first)
      (fun i _ => opsOf_ok (first i)) (paths := paths) (ans := onStream) (fun _ _ => ⟨6000, rfl, by omega⟩) (Int.le_refl 0)
      (buf0 := List.replicate 5248 170) List.length_replicate hf
    refine ⟨c, t, _, e1, h2, v, e3, fun d hd => ?_⟩
    obtain ⟨j, r, g1, _, _, _, g2⟩ := e4 d hd
    have hr : ∀ d, d < 2 → ((((logs d).filter (·.passes progs)).map (·.size progs)).sum + 8200 ≤ 2 ^ 14) ∧
        1 ≤ ((first d).filter (·.passes progs)).length := two (by decide +kernel) (by decide +kernel)
    exact ⟨r, by have := (hr d hd).2; omega, g2 (hr d hd).1⟩

end Verif.Ulogcat.Examples.While
