import Verif.Ulogcat.PropsLive
import Verif.Ulogcat.ExamplesScreen
import Verif.Ulogcat.ExamplesFleet

/-!
# Two devices others write to, meeting the hypotheses of C136

The device of `ExamplesDriven` and another one; a third entry is written to each while
the viewer is reading.
-/
namespace Verif.Ulogcat.Examples.Live
open Verif Verif.Kernel Verif.Kernel.Examples Verif.Libulog Verif.Ulogcat Verif.Ulogcat.Examples Verif.Ulogcat.Examples.Driven
  Verif.Ulogcat.Examples.Screen

def envOf : Nat → List (List Op)
  | 0 => [[], [], [], [], [], [], [third]]
  | _ => [[third], [.openF 5 false true false], [], [third]]

def fresh (d : Nat) : DW := { sys := Kernel.init dev 14 noJunk, tr := [], os := [], env := envOf d }
def ready (d : Nat) : DW := (fresh d).execAll before
def sized (d : Nat) : DW := ((ready d).exec (.getLogLen 0)).1

def F : World (Nat → DW) := fleet 2 0 0 false (fun _ => canRender look) 3

/-- Two calls, of at most three turns and of at most three entries. -/
def followed := calls F false [(3, 0), (30, 3)] (openCtx [266, 266] 0) sized

def ofDev (d : Nat) (w : Nat → DW) : Bool :=
  (w d).tr.all (fun p => plainOp p.1) && decide (Genuine (obs dev (w d).tr).hist) && decide ((obs dev (w d).tr).hist.length < 10)

def good : Bool :=
  match followed with
  | .ok (c, w) => !c.outErr && decide (4 ≤ c.out.length) && ofDev 0 w && ofDev 1 w && decide ((obs dev (w 1).tr).hist.length = 4)
  | .error _ => false

theorem good_ok : good = true := by decide +kernel

theorem real_ready (d : Nat) : (ready d).Real dev 14 noJunk := by
  refine DW.Real.execAll before (w := fresh d) ⟨⟨[], by simp, rfl⟩, ?_⟩ (by decide)
  match d with
  | 0 => decide
  | d + 1 => show ∀ l ∈ [[third], [.openF 5 false true false], [], [third]], _; decide

theorem real_sized (d : Nat) : (sized d).Real dev 14 noJunk := ((real_ready d).exec (op := .getLogLen 0) rfl).1

theorem sized_tr : ∀ d, d < 2 → (sized d).tr = (ready d).tr ++ [(.getLogLen 0, .ret 266)] ∧ (sized d).os = [] := by
  have h : ∀ d, d < 2 → ((ready d).exec (.getLogLen 0)).2 = some (.ret 266) := Fleet.two (by decide +kernel) (by decide +kernel)
  intro d hd
  have := DW.exec_some (w := ready d) (w' := sized d) (op := .getLogLen 0) (o := .ret 266) (by unfold sized; rw [← h d hd])
  refine ⟨this.1, this.2.trans ?_⟩
  obtain ⟨_, _, _, h⟩ := DW.execAll_tr 77 before (fresh d) (by decide)
  exact h

theorem at_ready : ∀ d, d < 2 → At dev (ready d).tr 0 0 :=
  Fleet.two ⟨{ all := true, ver := 2, got := 0, told := 0 }, by decide +kernel, rfl, rfl, by decide +kernel⟩
    ⟨{ all := true, ver := 2, got := 0, told := 0 }, by decide +kernel, rfl, rfl, by decide +kernel⟩

theorem at_sized : ∀ d, d < 2 → At dev (sized d).tr 0 0 :=
  Fleet.two ⟨{ all := true, ver := 2, got := 0, told := 0 }, by decide +kernel, rfl, rfl, by decide +kernel⟩
    ⟨{ all := true, ver := 2, got := 0, told := 0 }, by decide +kernel, rfl, rfl, by decide +kernel⟩

def onStream : Scr (Nat → DW) → OutEv → List WrAns := fun _ _ => [.took 6000]

/-- `C136_follow`, and so `C136_run` and `C136_screen`. -/
example : ∃ all c t, calls (F.onto .file Fleet.paths (fleetEntries 2 (fun _ => look) all) onStream) false [(3, 0), (30, 3)]
      (openCtx [266, 266] 0) ⟨sized, List.replicate 5248 170, []⟩ = .ok (c, t) ∧ (∀ d, all d = (t.st d).os) ∧
    4 ≤ c.out.length ∧ (obs dev (t.st 1).tr).hist.length = 4 ∧
    ∃ v, t.bytes = screenOf Fleet.paths (fun _ bs => bs) true [] v ∧ (∀ x ∈ v, x.1 < 2) ∧
      ∀ d, d < 2 → ∃ q rest, q ≤ (obs dev (t.st d).tr).hist.length ∧
        OnScreen look dev (2 ^ 14) (obs dev (t.st d).tr).hist 0 (partOf d v ++ rest) q ∧ (rest = [] ∨ ∃ e, rest = entryText look e) := by
  obtain ⟨c, w', hc, h⟩ := C136_follow (N := 2) (by omega) (L := fun _ => look) (csv := false) (fun _ _ => rfl) (fun _ _ h => by cases h)
    (name := fun _ => dev) (k := fun _ => 14) (buf := fun _ => noJunk) (fun _ _ => Nat.le_refl _) (fun _ _ => by decide) (fid := 0) (w := sized)
    (fun d _ => real_sized d) (fun d hd => (sized_tr d hd).2) (by
      have hf : ∀ d, d < 2 → ∀ l ∈ (sized d).env, ∀ op ∈ l, plainOp op = true := Fleet.two (by decide +kernel) (by decide +kernel)
      intro d hd l hl g hg
      exact absurd (hf d hd l hl _ hg) (by simp [plainOp]))
    at_sized (paths := Fleet.paths) (ans := onStream) (fun _ _ => ⟨6000, rfl, by omega⟩) (marks := [266, 266]) rfl false [(3, 0), (30, 3)]
    (buf0 := List.replicate 5248 170) List.length_replicate 0 3
  have hg := good_ok
  unfold good at hg
  rw [show followed = .ok (c, w') from hc] at hg
  simp only [ofDev, Bool.and_eq_true, Bool.not_eq_true', decide_eq_true_eq] at hg
  obtain ⟨⟨⟨⟨h1, h2⟩, ⟨h3, h4⟩, h5⟩, ⟨h6, h7⟩, h8⟩, h9⟩ := hg
  obtain ⟨t, e1, e2, e3⟩ := h (Fleet.two ⟨h4, by omega⟩ ⟨h7, by omega⟩)
  subst e2
  exact ⟨_, c, t, e1, fun _ => rfl, h2, h9, e3⟩

def dumped := processLogs F true 0 40 (openCtx ((List.range 2).map fun _ => 266) 0) sized 0

def goodDump : Bool :=
  match dumped with
  | .ok (c, w, r) => r == some 0 && decide (6 ≤ c.out.length) && ofDev 0 w && ofDev 1 w
  | .error _ => false

theorem goodDump_ok : goodDump = true := by decide +kernel

/-- `C136_dumped`, and so `C136_dump`: the two entries that were there, at least, of both. -/
example : ∃ all c t, processLogs (F.onto .file Fleet.paths (fleetEntries 2 (fun _ => look) all) onStream) true 0 40
      (openCtx ((List.range 2).map fun _ => 266) 0) ⟨sized, List.replicate 5248 170, []⟩ 0 = .ok (c, t, some 0) ∧
    (∀ d, all d = (t.st d).os) ∧ 6 ≤ c.out.length ∧
    ∃ v, t.bytes = screenOf Fleet.paths (fun _ bs => bs) true [] v ∧ (∀ x ∈ v, x.1 < 2) ∧
      ∀ d, d < 2 → ∃ q, 2 ≤ q ∧ q ≤ (obs dev (t.st d).tr).hist.length ∧
        OnScreen look dev (2 ^ 14) (obs dev (t.st d).tr).hist 0 (partOf d v) q := by
  have hg := goodDump_ok
  unfold goodDump at hg
  cases hf : dumped with
  | error e => rw [hf] at hg; cases hg
  | ok x =>
    obtain ⟨c, w', r⟩ := x
    rw [hf] at hg
    simp only [ofDev, Bool.and_eq_true, beq_iff_eq, decide_eq_true_eq, List.all_eq_true] at hg
    obtain ⟨⟨⟨h1, h2⟩, ⟨h3, h4⟩, h5⟩, ⟨h6, h7⟩, h8⟩ := hg
    subst h1
    have hreal := fun d => (fleet_keeps 2 0 0 false (fun _ => canRender look) 3 (d := d) (P := DW.Real dev 14 noJunk)
        (fun h => ((h.others 0).exec rfl).1) (fun h => h.receive 0 0 false 3) (fun h => h)).logs (real_sized d) hf
    have hrun : ∀ d, ∃ ops, d < 2 → Run dev 14 noJunk ops (w' d).sys (w' d).tr := by
      intro d
      by_cases hd : d < 2
      · have : Genuine (obs dev (w' d).tr).hist ∧ (obs dev (w' d).tr).hist.length < 10 :=
          Fleet.two (p := fun d => Genuine (obs dev (w' d).tr).hist ∧ (obs dev (w' d).tr).hist.length < 10) ⟨h4, h5⟩ ⟨h7, h8⟩ d hd
        obtain ⟨ops, h⟩ := (hreal d).run (by omega) (by decide) this.1 (by omega)
        exact ⟨ops, fun _ => h⟩
      · exact ⟨[], fun h => absurd h hd⟩
    obtain ⟨t, e1, e2, v, e3, e4, e5⟩ := C136_dumped (N := 2) (by omega) (fid := fun _ => 0) (L := fun _ => look)
      (fun d hd => C136_fleet 2 0 0 false (fun _ => canRender look) 3 hd) (fun _ _ => rfl)
      (fun _ _ h => by cases h) (fun _ _ => rfl) (paths := Fleet.paths) (ans := onStream) (fun _ _ => ⟨6000, rfl, by omega⟩) (Int.le_refl 0) hf
      (fun d hd => (sized_tr d hd).2) (buf0 := List.replicate 5248 170) List.length_replicate (name := fun _ => dev) (k := fun _ => 14)
      (buf := fun _ => noJunk) (fun d hd => (hrun d).choose_spec hd) (t0 := fun d => (ready d).tr) (t1 := fun _ => [])
      (fun d hd => (sized_tr d hd).1) (fun _ _ x hx => by cases hx) (p := fun _ => 0) at_ready (by
        have hp : ∀ d, d < 2 → ∀ x ∈ (w' d).tr, plainOp x.1 = true := Fleet.two h3 h6
        intro d hd t ht x hx g hxg
        have := hp d hd x (by rw [ht]; simp [hx])
        rw [hxg] at this
        cases this)
    subst e2
    refine ⟨_, c, t, e1, fun _ => rfl, h2, v, e3, e4, fun d hd => ?_⟩
    obtain ⟨q, q1, q2, q3⟩ := e5 d hd
    have h0 : ∀ d, d < 2 → (obs dev (ready d).tr).hist.length = 2 := Fleet.two (by decide +kernel) (by decide +kernel)
    rw [h0 d hd] at q1
    exact ⟨q, q1, q2, q3⟩

end Verif.Ulogcat.Examples.Live
