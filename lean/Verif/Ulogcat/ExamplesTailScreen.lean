import Verif.Ulogcat.PropsTailScreen
import Verif.Ulogcat.ExamplesWhile

/-! # The programs and devices of `ExamplesWhile`, seen by a viewer with a tail (C139) -/
namespace Verif.Ulogcat.Examples.While
open Verif Verif.Kernel Verif.Kernel.Examples Verif.Libulog Verif.Ulogcat Verif.Ulogcat.Examples Verif.Ulogcat.Examples.Screen
  Verif.Ulogcat.Examples.Said Verif.Ulogcat.Examples.Fleet Verif.Ulogcat.Examples.Lost

def marks : List Nat := (List.range 2).map fun i => (opened i).2

/-- Following in two calls reaches the marks. -/
def goodFollow : Bool :=
  match calls F false [(2, 0), (78, 0)] (openCtx marks 0) (fun i => (opened i).1), calls F false [(2, 0), (78, 0)] (openCtx marks 1) (fun i => (opened i).1) with
  | .ok (c0, _), .ok (c, _) => c0.markReached && decide (c0.out.length = 6) && decide (c.out.length = 2)
  | _, _ => false

theorem goodFollow_ok : goodFollow = true := by decide +kernel

/-- `C139_programs`, and so `C139_screen`: a tail of one line on two devices. -/
example : ∃ c t v n all, calls (F.onto .file paths (fleetEntries 2 (fun _ => look) all) onStream) false [(2, 0), (78, 0)] (openCtx marks 1)
      ⟨fun i => (opened i).1, List.replicate 5248 170, []⟩ = .ok (c, t) ∧ n ≤ v.length ∧
    t.bytes = screenOf paths (fun _ bs => bs) true [] (v.drop n) ∧
    ∀ d, d < 2 → ∃ r, partOf d v = (((logs d).filter (·.passes progs)).take r).flatMap (·.lines progs look) := by
  obtain ⟨c, c0, w', t, t0, v, hc, h1, _, _, _, _, _, h7, _, h9⟩ := C139_programs (by omega) (fun _ _ => progs_plain) logs_plain (fun _ _ => Nat.le_refl _)
    (fun _ _ => by decide) (fun _ _ => show NoNul dev by decide) logs_short (L := fun _ => look) (csv := false) (fun _ _ => rfl) (fun _ _ => rfl) logs_scene
    (paths := paths) (ans := onStream) (fun _ _ => ⟨6000, rfl, by omega⟩) (marks := marks) (by rfl) (T := 1) (by omega) (by omega) [(2, 0), (78, 0)]
    (buf0 := List.replicate 5248 170) List.length_replicate 0 3
  have hg := goodFollow_ok
  unfold goodFollow at hg
  rw [show calls F false [(2, 0), (78, 0)] (openCtx marks 0) (fun i => (opened i).1) = .ok (c0, w') from hc] at hg
  have hm : c0.markReached = true := by
    cases hx : calls F false [(2, 0), (78, 0)] (openCtx marks 1) (fun i => (opened i).1) with
    | error e => rw [hx] at hg; cases hg
    | ok y => rw [hx] at hg; simp only [Bool.and_eq_true] at hg; exact hg.1.1
  obtain ⟨n, e1, -, e2⟩ := h7 hm
  refine ⟨c, t, v, n, _, h1, e1, e2, fun d hd => ?_⟩
  obtain ⟨j, r, _, _, _, _, g⟩ := h9 d hd
  have hr : ∀ d, d < 2 → (((logs d).filter (·.passes progs)).map (·.size progs)).sum + 8200 ≤ 2 ^ 14 := two (by decide +kernel) (by decide +kernel)
  exact ⟨r, g (hr d hd)⟩

/-- `C139_programsDump`, and so `C139_dumpScreen`: the last line. -/
example : ∃ c t v all, calls (F.onto .file paths (fleetEntries 2 (fun _ => look) all) onStream) true [(80, 0)] (openCtx marks 1)
      ⟨fun i => (opened i).1, List.replicate 5248 170, []⟩ = .ok (c, t) ∧
    t.bytes = screenOf paths (fun _ bs => bs) true [] (v.drop (v.length - 1)) ∧
    ∀ d, d < 2 → ∃ r, 1 ≤ r ∧ partOf d v = (((logs d).filter (·.passes progs)).take r).flatMap (·.lines progs look) := by
  have hg := goodDump_ok
  unfold goodDump at hg
  cases hf : dumped with
  | error e => rw [hf] at hg; cases hg
  | ok x =>
    obtain ⟨c0, w', r⟩ := x
    rw [hf] at hg
    simp only [Bool.and_eq_true, beq_iff_eq, decide_eq_true_eq] at hg
    obtain ⟨⟨h1, -⟩, _⟩ := hg
    subst h1
    obtain ⟨c, t, v, e1, _, e2, _, e4⟩ := C139_programsDump (by omega) (fun _ _ => progs_plain) logs_plain (fun _ _ => Nat.le_refl _) (fun _ _ => by decide)
      (fun _ _ => show NoNul dev by decide) logs_short (L := fun _ => look) (csv := false) (fun _ _ => rfl) (fun _ _ => rfl) logs_scene (ms0 := first)
      (fun i _ => opsOf_ok (first i)) (paths := paths) (ans := onStream) (fun _ _ => ⟨6000, rfl, by omega⟩) (Int.le_refl 0) (T := 1) (by omega)
      (buf0 := List.replicate 5248 170) List.length_replicate hf
    refine ⟨c, t, v, _, e1, e2, fun d hd => ?_⟩
    obtain ⟨j, r, g1, _, _, _, g2⟩ := e4 d hd
    have hr : ∀ d, d < 2 → ((((logs d).filter (·.passes progs)).map (·.size progs)).sum + 8200 ≤ 2 ^ 14) ∧
        1 ≤ ((first d).filter (·.passes progs)).length := two (by decide +kernel) (by decide +kernel)
    exact ⟨r, by have := (hr d hd).2; omega, g2 (hr d hd).1⟩

end Verif.Ulogcat.Examples.While
