import Verif.Tools.PropsWholeFollow
import Verif.Tools.ExamplesWhole

/-!
# A machine meeting the hypotheses of C140

That of `ExamplesWhole`; the first message of each log comes before the command opens the logs,
and every call of the driver for the others comes before another call of the command.
-/
namespace Verif.Tools.Examples.Whole
open Verif Verif.Kernel Verif.Kernel.Examples Verif.Libulog Verif.Ulogcat Verif.Ulogcat.Examples Verif.Ulogcat.Examples.Screen
  Verif.Ulogcat.Examples.Said Verif.Ulogcat.Examples.Fleet Verif.Tools Verif.Tools.Whole Verif.Tools.Examples.Cat

/-- `ulogcat -l -v short` and `ulogcat -l -t 1 -v short`. -/
def optsF : List CatOpt := [.label, .format (ascii "short")]
def optsFT : List CatOpt := [.label, .tail (ascii "1"), .format (ascii "short")]

def two1 : List RLog := [main1, flight1]

theorem one_each (l : List Op) : (l.map ([·])).flatten = l := by
  induction l with
  | nil => rfl
  | cons a l ih => simp [ih]

/-- `C140_scene`: the first message of each log before the logs are opened. -/
theorem two_logging : ∃ pre w m, Logging box two1 noJunk pre w m ∧
    (∀ i, i < 2 → sayAll (box.prog (nth two1 i)) noJunk (fun _ => .start) ((box.said (nth two1 i)).take 1) = .ok (pre i)) ∧
    ∀ i, i < 2 → ∀ l ∈ (w i).env, l.length = 1 := by
  obtain ⟨A, hA, h⟩ := C140_scene box_ok.toSound (chosen_both (os := optsF) (by decide +kernel)) noJunk
  have hsplit : ∀ i, i < 2 → ∃ p r, sayAll (box.prog (nth two1 i)) noJunk (fun _ => .start) ((box.said (nth two1 i)).take 1) = .ok p ∧ A i = p ++ r := by
    intro i hi
    exact sayAll_prefix ((box.said (nth two1 i)).take 1) ((box.said (nth two1 i)).drop 1) (by rw [List.take_append_drop]; exact hA i hi)
  obtain ⟨p0, r0, a0, b0⟩ := hsplit 0 (by omega)
  obtain ⟨p1, r1, a1, b1⟩ := hsplit 1 (by omega)
  obtain ⟨w, m, h1, h2⟩ := h (fun i => if i = 0 then p0 else p1) (fun i => (if i = 0 then r0 else r1).map ([·])) (two
    (by rw [one_each]; exact b0.symm) (by rw [one_each]; exact b1.symm))
  refine ⟨_, w, m, h1, two a0 a1, fun i hi l hl => ?_⟩
  rw [h2 i hi] at hl
  obtain ⟨x, _, rfl⟩ := List.mem_map.1 hl
  rfl

/-- The options meet the hypotheses of `C140_follow` and `C140_all`. -/
example : (∀ o ∈ optsFT, ¬ CatStops o) ∧ CatOpt.klog ∉ optsFT ∧ CatOpt.dump ∉ optsFT ∧ CatOpt.clear ∉ optsFT ∧
    Chosen box optsFT two1 ∧ tailOf optsFT = (1 : Nat) ∧ tailOf optsF = (0 : Nat) ∧ two1.length ≤ 1 + 1 :=
  ⟨not_stops (by decide +kernel), by decide, by decide, by decide, chosen_both (by decide +kernel), by decide +kernel, by decide +kernel, by decide⟩

/-- `C140_follow`: the command does not end. -/
example : ∃ w m, ∀ fuel, ∃ (w' : Nat → DW) (devs : List ODev) (c : Ctx) (t : Scr (Nat → DW)),
    catMain allMem (opening m) clearW ((fleet 2 0 0 (decide (fmtOf optsFT = .csv)) (fun _ => canRender (lookOf optsFT look.ansi look.clock)) 1).onto .file
        (fun i => pathOf (nth two1 i)) (fleetEntries 2 (fun _ => lookOf optsFT look.ansi look.clock) fun d => (w' d).os) fun _ _ => [.took 6000]) 1 fuel
        ⟨w, List.replicate 5248 170, []⟩ optsFT = .running devs c t ∧ devs.map ODev.path = [ascii "/dev/ulog_main", ascii "/dev/ulog_flight"] ∧
      (c.markReached = false → t.bytes = []) := by
  obtain ⟨pre, w, m, hl, _⟩ := two_logging
  refine ⟨w, m, fun fuel => ?_⟩
  obtain ⟨w', devs, c, t, v, e1, e2, _, e4, _⟩ := C140_follow box_ok.toSound (mem := allMem) (os := optsFT) (not_stops (by decide +kernel))
    (by decide) (by decide) (by decide) (fun _ _ => rfl) (chosen_both (by decide +kernel)) (T := 1) (by decide +kernel) (by decide) (.inr (by decide))
    look.ansi look.clock hl (opening_ok m) clearW 0 0 0 fuel (buf0 := List.replicate 5248 170) List.length_replicate
    (ans := fun _ _ => [.took 6000]) (fun _ _ => ⟨6000, rfl, by omega⟩)
  exact ⟨w', devs, c, t, e1, by rw [e2]; decide +kernel, e4 (by omega)⟩

/-- `C140_all`: the lines of all the messages of each log are shown. -/
example : ∃ w m need, ∀ fuel, need ≤ fuel → ∃ (w' : Nat → DW) (devs : List ODev) (c : Ctx) (t : Scr (Nat → DW)) (v : List (Nat × Bytes)),
    catMain allMem (opening m) clearW ((fleet 2 0 0 (decide (fmtOf optsF = .csv)) (fun _ => canRender (lookOf optsF look.ansi look.clock)) 1).onto .file
        (fun i => pathOf (nth two1 i)) (fleetEntries 2 (fun _ => lookOf optsF look.ansi look.clock) fun d => (w' d).os) fun _ _ => [.took 6000]) 1 fuel
        ⟨w, List.replicate 5248 170, []⟩ optsF = .running devs c t ∧
      t.bytes = screenOf (fun i => pathOf (nth two1 i)) (fun _ bs => bs) true [] v ∧
      ∀ i, i < 2 → partOf i v = ((box.said (nth two1 i)).filter (·.passes (box.prog (nth two1 i)))).flatMap
        (·.lines (box.prog (nth two1 i)) (lookOf optsF look.ansi look.clock)) := by
  obtain ⟨pre, w, m, hl, _⟩ := two_logging
  obtain ⟨need, h⟩ := C140_all box_ok.toSound (mem := allMem) (os := optsF) (not_stops (by decide +kernel))
    (by decide) (by decide) (by decide) (fun _ _ => rfl) (chosen_both (by decide +kernel)) (T := 0) (by decide +kernel) (by decide) (.inl rfl)
    look.ansi look.clock hl (opening_ok m) clearW 0 0 0 (buf0 := List.replicate 5248 170) List.length_replicate
    (ans := fun _ _ => [.took 6000]) (fun _ _ => ⟨6000, rfl, by omega⟩)
  refine ⟨w, m, need, fun fuel hf => ?_⟩
  obtain ⟨w', devs, c, t, v, k, e1, _, _, _, _, e6, e7, _, e9⟩ := h fuel hf
  rw [e6 rfl] at e7
  refine ⟨w', devs, c, t, v, e1, e7, fun i hi => (e9 i hi).2.2 ?_⟩
  have hr := box_ok.room
  exact hr _ (two (p := fun i => nth two1 i ∈ box.reg.devs) (by rw [box_devs]; decide +kernel) (by rw [box_devs]; decide +kernel) i hi)

/-- `C140_dump`: the first message of each log is among those shown. -/
example : ∃ w m need, ∀ fuel, need ≤ fuel → ∃ (w' : Nat → DW) (devs : List ODev) (c : Ctx) (t : Scr (Nat → DW)) (v : List (Nat × Bytes)) (evs : List OEv),
    catMain allMem (opening m) clearW ((fleet 2 0 0 (decide (fmtOf opts = .csv)) (fun _ => canRender (lookOf opts look.ansi look.clock)) 1).onto .file
        (fun i => pathOf (nth two1 i)) (fleetEntries 2 (fun _ => lookOf opts look.ansi look.clock) fun d => (w' d).os) fun _ _ => [.took 6000]) 1 fuel
        ⟨w, List.replicate 5248 170, []⟩ opts = .ended 0 devs c t evs ∧
      t.bytes = screenOf (fun i => pathOf (nth two1 i)) (fun _ bs => bs) true [] v ∧ held evs = some [] ∧
      ∀ i, i < 2 → ∃ r, 1 ≤ r ∧ partOf i v = (((box.said (nth two1 i)).filter (·.passes (box.prog (nth two1 i)))).take r).flatMap
        (·.lines (box.prog (nth two1 i)) (lookOf opts look.ansi look.clock)) := by
  obtain ⟨pre, w, m, hl, hpre, _⟩ := two_logging
  obtain ⟨need, h⟩ := C140_dump box_ok.toSound (mem := allMem) (os := opts) (not_stops (by decide +kernel))
    (by decide) (by decide) (by decide) (fun _ _ => rfl) (chosen_both (by decide +kernel)) (T := 0) (by decide +kernel) (by decide)
    look.ansi look.clock hl hpre (opening_ok m) clearW 0 0 0 (buf0 := List.replicate 5248 170) List.length_replicate
    (ans := fun _ _ => [.took 6000]) (fun _ _ => ⟨6000, rfl, by omega⟩)
  refine ⟨w, m, need, fun fuel hf => ?_⟩
  obtain ⟨w', devs, c, t, v, evs, e1, _, e3, _, e5, _, e7⟩ := h fuel hf
  refine ⟨w', devs, c, t, v, evs, e1, e5, e3, fun i hi => ?_⟩
  obtain ⟨j, r, g1, _, _, _, g2⟩ := e7 i hi
  have hone : ∀ i, i < 2 → 1 ≤ (((box.said (nth two1 i)).take 1).filter (·.passes (box.prog (nth two1 i)))).length :=
    two (by decide +kernel) (by decide +kernel)
  have := hone i hi
  refine ⟨r, Nat.le_trans this g1, g2 ?_⟩
  exact box_ok.room _ (two (p := fun i => nth two1 i ∈ box.reg.devs) (by rw [box_devs]; decide +kernel) (by rw [box_devs]; decide +kernel) i hi)

end Verif.Tools.Examples.Whole
