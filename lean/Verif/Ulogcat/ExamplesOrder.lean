import Verif.Ulogcat.PropsOrder
import Verif.Ulogcat.ExamplesLive

/-!
# Two devices others write to, meeting the hypotheses of C137
-/
namespace Verif.Ulogcat.Examples.Order
open Verif Verif.Kernel Verif.Kernel.Examples Verif.Libulog Verif.Ulogcat Verif.Ulogcat.Examples Verif.Ulogcat.Examples.Driven
  Verif.Ulogcat.Examples.Screen
open Verif.Ulogcat.Examples.Live (F ofDev)

def late : Op := .write 1 { t2 with sec := 9 } (.ubuf ([4, 0, 0, 0, 116, 0, 104, 105, 0].map some)) noJunk

def envOf : Nat → List (List Op)
  | 0 => [[], [], [], [], [], [], [late]]
  | _ => [[late], [.openF 5 false true false], [], [late]]

def fresh (d : Nat) : DW := { sys := Kernel.init dev 14 noJunk, tr := [], os := [], env := envOf d }
def ready (d : Nat) : DW := (fresh d).execAll before
def sized (d : Nat) : DW := ((ready d).exec (.getLogLen 0)).1

theorem real_ready (d : Nat) : (ready d).Real dev 14 noJunk := by
  refine DW.Real.execAll before (w := fresh d) ⟨⟨[], by simp, rfl⟩, ?_⟩ (by decide)
  match d with
  | 0 => decide
  | d + 1 => show ∀ l ∈ [[late], [.openF 5 false true false], [], [late]], _; decide

theorem real_sized (d : Nat) : (sized d).Real dev 14 noJunk := ((real_ready d).exec (op := .getLogLen 0) rfl).1

theorem sized_tr : ∀ d, d < 2 → (sized d).tr = (ready d).tr ++ [(.getLogLen 0, .ret 266)] ∧ (sized d).os = [] := by
  have h : ∀ d, d < 2 → ((ready d).exec (.getLogLen 0)).2 = some (.ret 266) := Fleet.two (by decide +kernel) (by decide +kernel)
  intro d hd
  have := DW.exec_some (w := ready d) (w' := sized d) (op := .getLogLen 0) (o := .ret 266) (by unfold sized; rw [← h d hd])
  refine ⟨this.1, this.2.trans ?_⟩
  obtain ⟨_, _, _, h⟩ := DW.execAll_tr 77 before (fresh d) (by decide)
  exact h

theorem at_sized : ∀ d, d < 2 → At dev (sized d).tr 0 0 :=
  Fleet.two ⟨{ all := true, ver := 2, got := 0, told := 0 }, by decide +kernel, rfl, rfl, by decide +kernel⟩
    ⟨{ all := true, ver := 2, got := 0, told := 0 }, by decide +kernel, rfl, rfl, by decide +kernel⟩

def sortedDev (d : Nat) (w : Nat → DW) : Bool := decide (((obs dev (w d).tr).hist.map fun e => micros e.sec e.nsec).Pairwise (· ≤ ·))

/-- The first call handles something, the second too, and an entry is committed in between. -/
def goodOrder : Bool :=
  match calls F false [(2, 0)] (openCtx [266, 266] 0) sized with
  | .ok (c1, m) =>
    match calls F false [(30, 3)] c1 m with
    | .ok (c2, w) => ofDev 0 w && ofDev 1 w && sortedDev 0 w && sortedDev 1 w && decide (2 ≤ c1.out.length) &&
        decide (c1.out.length + 2 ≤ c2.out.length) && decide (3 ≤ (obs dev (m 1).tr).hist.length) &&
        decide ((obs dev (w 1).tr).hist.length = 4)
    | .error _ => false
  | .error _ => false

theorem goodOrder_ok : goodOrder = true := by decide +kernel

/-- `C137_follow`, and so `C137_order` and `C137_next`. -/
example : ∃ c1 m c2 w' w1 w2, calls F false [(2, 0)] (openCtx [266, 266] 0) sized = .ok (c1, m) ∧ calls F false [(30, 3)] c1 m = .ok (c2, w') ∧
    3 ≤ (obs dev (m 1).tr).hist.length ∧ w1 ≠ [] ∧ w2 ≠ [] ∧ c2.out = annotate true [] (w1 ++ w2) ∧
    ∀ d, d < 2 → ∀ x e y, w2 = x ++ e :: y → ∃ oa q j, oa <+: (w' d).os ∧
      framesOf d (canRender look) (callNum 2 d) oa = (w1 ++ x).filter (fun f => f.dev == d) ∧
      Follows dev (2 ^ 14) (obs dev (w' d).tr).hist false 0 oa q ∧
      (j = 0 ∨ Old (2 ^ 14) (obs dev (w' d).tr).hist q j) ∧
      ∀ i ent, q + j ≤ i → (obs dev (m d).tr).hist[i]? = some ent → e.stamp ≤ micros ent.sec ent.nsec := by
  obtain ⟨c1, m, c2, w', hc1, hc2, h⟩ := C137_follow (N := 2) (sh := fun _ => canRender look) (csv := false)
    (name := fun _ => dev) (k := fun _ => 14) (buf := fun _ => noJunk) (fun _ _ => Nat.le_refl _) (fun _ _ => by decide) (fid := 0) (w := sized)
    (fun d _ => real_sized d) (fun d hd => (sized_tr d hd).2) (by
      have hf : ∀ d, d < 2 → ∀ l ∈ (sized d).env, ∀ op ∈ l, plainOp op = true := Fleet.two (by decide +kernel) (by decide +kernel)
      intro d hd l hl g hg
      exact absurd (hf d hd l hl _ hg) (by simp [plainOp]))
    at_sized (marks := [266, 266]) rfl [(2, 0)] [(30, 3)] 0 3
  have hg := goodOrder_ok
  unfold goodOrder at hg
  rw [show calls F false [(2, 0)] (openCtx [266, 266] 0) sized = .ok (c1, m) from hc1] at hg
  dsimp only at hg
  rw [show calls F false [(30, 3)] c1 m = .ok (c2, w') from hc2] at hg
  simp only [ofDev, sortedDev, Bool.and_eq_true, decide_eq_true_eq] at hg
  obtain ⟨⟨⟨⟨⟨⟨⟨⟨⟨_, h1⟩, h2⟩, ⟨_, h3⟩, h4⟩, h5⟩, h6⟩, h7⟩, h8⟩, h9⟩, h10⟩ := hg
  obtain ⟨w1, w2, e1, e2, e3⟩ := h (Fleet.two ⟨h1, by omega⟩ ⟨h3, by omega⟩)
  have e1 : c1.out = annotate true [] w1 := e1
  have e2 : c2.out = annotate true [] (w1 ++ w2) := e2
  refine ⟨c1, m, c2, w', w1, w2, hc1, hc2, h9, ?_, ?_, e2, fun d hd => e3 d hd ?_⟩
  · rintro rfl
    rw [e1] at h7
    simp [annotate] at h7
  · rintro rfl
    rw [List.append_nil, ← e1] at e2
    rw [e2] at h8
    omega
  · rcases (show d = 0 ∨ d = 1 by omega) with rfl | rfl
    · exact timeSorted_of 0 h5
    · exact timeSorted_of 0 h6

end Verif.Ulogcat.Examples.Order
