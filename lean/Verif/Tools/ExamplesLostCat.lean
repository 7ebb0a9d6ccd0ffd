import Verif.Tools.PropsLostCat
import Verif.Tools.ExamplesWhole
import Verif.Ulogcat.ExamplesLost

/-!
# A machine meeting the hypotheses of `C135_command`

That of `ExamplesWhole`, with twenty long messages to the second log.
-/
namespace Verif.Tools.Examples.LostCat
open Verif Verif.Kernel Verif.Kernel.Examples Verif.Libulog Verif.Ulogcat Verif.Ulogcat.Examples Verif.Ulogcat.Examples.Screen
  Verif.Ulogcat.Examples.Said Verif.Ulogcat.Examples.Fleet Verif.Ulogcat.Examples.Lost Verif.Tools Verif.Tools.Whole Verif.Tools.Examples.Cat
  Verif.Tools.Examples.Whole

def info (n : Nat) : Said := { long (UInt32.ofNat n) with prio := 6 }

def full : Box := { box with said := fun d => if isMain d then [m1, m2, m3] else (List.range 20).map info }

theorem info_plain (n : Nat) : (info n).Plain flightProgs := by
  refine ⟨show NoNul (ascii "net") by decide, fun b hb => ?_, show prioBinary 6 = false by decide, show prefixLen t1 + (4 + (ascii "net").length + 1) < 4076 by decide,
    show ¬ (t1.pid = 0xffffffff ∧ t1.tid = 0xffffffff) by decide⟩
  rw [(List.mem_replicate.1 hb).2]
  decide

theorem full_ok : full.Sound where
  reached := box_ok.reached
  page := box_ok.page
  prog := box_ok.prog
  said := both (box_ok.said main1 (by rw [box_devs]; simp)) (fun m hm => by
    obtain ⟨n, _, rfl⟩ := List.mem_map.1 (show m ∈ (List.range 20).map info from hm)
    exact info_plain n)
  count := both (box_ok.count main1 (by rw [box_devs]; simp)) (by show ((List.range 20).map info).length < _; simp)

/-- Five messages are lost in the second log. -/
theorem full_rows : rows flightProgs 65536 ((full.said flight1).filter (·.passes flightProgs)) =
    .notice 5 (info 5) :: ((List.range 15).map fun n => .line (info (5 + n))) := by
  have hp : ((List.range 20).map info).filter (·.passes flightProgs) = (List.range 20).map info := by
    rw [List.filter_eq_self]
    intro m hm
    obtain ⟨n, _, rfl⟩ := List.mem_map.1 hm
    show (info 0).passes flightProgs = true
    decide +kernel
  have hs : ∀ n, (info n).size flightProgs = (fun _ => 4100) n := by
    intro n
    show (info 0).size flightProgs = 4100
    decide +kernel
  have hr : ringHolds (fun _ => 4100) 65536 (List.range 20) = (List.range 15).map (5 + ·) := by decide +kernel
  show rows flightProgs 65536 (((List.range 20).map info).filter (·.passes flightProgs)) = _
  rw [hp]
  unfold rows
  rw [ringHolds_map (sa := fun _ => 4100) hs, hr]
  rfl

/-- `C135_command`. -/
example : ∃ (ops : Nat → List Op) (sys : Nat → Sys) (tr : Nat → List (Op × Out)) (mark : Nat → Nat), (∀ i, i < 2 →
        sayAll (full.prog (nth [main1, flight1] i)) noJunk (fun _ => .start) (full.said (nth [main1, flight1] i)) = .ok (ops i)) ∧
    ∃ need, ∀ fuel, need ≤ fuel → ∃ all devs c t evs v,
    catMain allMem (opening mark) clearW ((fleet 2 0 0 false (fun _ => canRender look) 1).onto .file
        (fun i => pathOf (nth [main1, flight1] i)) (fleetEntries 2 (fun _ => look) all) fun _ _ => [.took 6000]) 1 fuel
        ⟨fun i => opened (sys i) (tr i) (mark i), List.replicate 5248 170, []⟩ optsT = .ended 0 devs c t evs ∧
      v.filter (fun x => x.1 == 1) = (Row.notice 5 (info 5) :: ((List.range 15).map fun n => .line (info (5 + n)))).map (1, ·) ∧
      t.bytes = screenOf (fun i => pathOf (nth [main1, flight1] i)) (fun i r => r.text (full.prog (nth [main1, flight1] i)) look (nth [main1, flight1] i).name)
        true [] (Ulogcat.lastOf 3 v) := by
  have hb : Chosen box optsT [main1, flight1] := chosen_both (by decide +kernel)
  have hc : Chosen full optsT [main1, flight1] := ⟨hb.some, hb.named, hb.all⟩
  obtain ⟨ops, sys, tr, mark, h1, h2⟩ := C135_command full_ok noJunk (mem := allMem) (os := optsT) (not_stops (by decide +kernel))
    (by decide) (by decide) (by decide) (fun _ _ => rfl) hc (T := 3) (by decide +kernel) (by decide)
    look.ansi look.clock (fun h => absurd h (by decide +kernel))
  have ho := opening_ok mark
  obtain ⟨need, h3⟩ := h2 (w := opening mark) ⟨ho.fresh, ho.mem, ho.opens, ho.len, ho.logs⟩ clearW
  refine ⟨ops, sys, tr, mark, fun i hi => (h1 i hi).1, need, fun fuel hf => ?_⟩
  obtain ⟨all, devs, c, t, evs, v, e1, _, _, _, e5, e6⟩ := h3 0 0 0 fuel hf (buf0 := List.replicate 5248 170) List.length_replicate
    (ans := fun _ _ => [.took 6000]) (fun _ _ => ⟨6000, rfl, by omega⟩)
  rw [look_of] at e1 e6
  have hcsv : decide (fmtOf optsT = .csv) = false := by decide +kernel
  rw [hcsv] at e1
  refine ⟨all, devs, c, t, evs, v, e1, ?_, e6⟩
  rw [(C135_order e5).2.1 1]
  unfold toRow
  rw [if_pos (by decide)]
  have := congrArg (List.map (1, ·)) full_rows
  exact this

end Verif.Tools.Examples.LostCat
