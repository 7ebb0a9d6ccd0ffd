import Verif.Tools.PropsShApi
import Verif.Ulogcat.ExamplesSaid

/-! # Scripts meeting the hypotheses of C117 -/
namespace Verif.Tools.Examples.ShApi
open Verif Verif.Kernel Verif.Kernel.Examples Verif.Libulog Verif.Ulogcat Verif.Ulogcat.Examples Verif.Ulogcat.Examples.Screen Verif.Tools.ShApi
open Verif.Ulogcat.Examples.Said (progs progs_plain said said_plain)

theorem once : AtOnce onceShell := fun _ _ => rfl

/-- Process 7 is a script. -/
def script7 (p : Nat) : Bool := p = 7

def steps : List Step :=
  [.script 7 (.assign { stderr := none, noRedirect := none, tag := some (ascii "boot") }), .script 7 .source,
    .script 7 (Fn.ulogw.call scriptTask (ascii "low 5%"))] ++ said.map .said ++
  [.script 7 (.print scriptTask (ascii "hello\n")), .script 7 .source, .script 7 (Fn.uloge.call scriptTask (ascii "x"))]

def noVars : Nat → Scr := fun _ => { vars := { stderr := none, noRedirect := none, tag := none }, redirected := false }

theorem said_steps (sh : Nat → Shell) (isScr : Nat → Bool) (ms : List Said) (h : ∀ m ∈ ms, isScr m.prog = false ∧ m.Plain progs) (ys : List Step) :
    ∀ scr, allPlain progs sh isScr scr ys → allPlain progs sh isScr scr (ms.map .said ++ ys) := by
  induction ms with
  | nil => exact fun _ h => h
  | cons m ms ih =>
    intro scr hy
    exact ⟨(h m (by simp)).1, (h m (by simp)).2, ih (fun x hx => h x (by simp [hx])) scr hy⟩

theorem steps_plain : allPlain progs (fun _ => onceShell) script7 noVars steps := by
  refine ⟨rfl, trivial, rfl, trivial, rfl,
    C117_usual once (.inl (by decide)) rfl (by decide) (by decide) (by decide) (by decide) (by decide), ?_⟩
  refine said_steps _ _ said (fun m hm => ⟨?_, said_plain m hm⟩) _ _ ?_
  · revert m; decide
  · exact ⟨rfl, ⟨by decide, by decide⟩, rfl, trivial, rfl,
      C117_usual once (.inl (by decide)) rfl (by decide) (by decide) (by decide) (by decide) (by decide), trivial⟩

theorem steps_lines : allLines progs (fun _ => onceShell) look noVars steps =
    ascii "U W boot        : low 5%\n" ++
    ascii "U D net         : link up\nU E ui          : no\nU E ui          : screen\nU I             : bye\n" ++
    ascii "U I             : hello\nU E boot        : x\n" := by decide +kernel

/-- `C117_screen`: a script before and after the messages of two programs. -/
example : ∃ ops sys tr m, runSteps progs (fun _ => onceShell) noJunk (fun _ => .start) noVars steps = .ok ops ∧
      Kernel.run (Kernel.init dev 14 noJunk) (ops ++ [.openF 0 true false true, .getLogLen 0]) = .ok (sys, tr ++ [(.getLogLen 0, .ret m)]) ∧
      (∀ p ∈ tr, ∀ e, p.2 ≠ .err e) ∧
      Dumps look sys tr m (allCount progs (fun _ => onceShell) noVars steps) fun bs => bs =
        ascii "U W boot        : low 5%\n" ++
        ascii "U D net         : link up\nU E ui          : no\nU E ui          : screen\nU I             : bye\n" ++
        ascii "U I             : hello\nU E boot        : x\n" := by
  obtain ⟨ops, sys, tr, m, h1, h2, h3, h4⟩ := C117_screen progs_plain (fun _ => rfl) steps_plain noJunk (name := dev) (k := 14) noJunk (by omega) (by decide)
    (by decide +kernel) (by decide +kernel) (L := look) rfl
  exact ⟨ops, sys, tr, m, h1, h2, h3, by rw [steps_lines] at h4; exact h4⟩

/-- `C117_same`, `C117_once`: with a message of a program. -/
example : (gives onceShell plainScr (.log t1 3 (ascii "no\nscreen"))).map (·.lines look) =
    [({ prog := 0, task := t1, tag := 5, prio := 3, text := ascii "no\nscreen", whole := true } : Said).lines
      (fun _ => { progs 0 with nm := fun _ => ascii "boot" }) look] := by
  rw [C117_once once (.inl (by decide))]
  exact congrArg (fun x => [x]) (C117_same (P := fun _ => { progs 0 with nm := fun _ => ascii "boot" }) look
    (m := { prog := 0, task := t1, tag := 5, prio := 3, text := ascii "no\nscreen", whole := true }) rfl (by decide) rfl 10).1

/-- `C117_tag`: set twice, with messages between. -/
example : (calls onceShell (noVars 0) [.log t1 3 [65], .assign { stderr := none, noRedirect := none, tag := some [66] }, .source, .log t1 3 [65]]).vars.tag.getD
    (ascii "(shell script)") = [66] := by
  rw [C117_tag]
  · rfl
  · intro v hv
    simp at hv
    rw [hv]; decide

/-- `C117_copy`: a shell that meets the hypotheses. -/
example : ((call { pieces := fun b => [b], format := fun f => f.dropLast.dropLast ++ [10] }
    { vars := { stderr := some yes, noRedirect := some yes, tag := none }, redirected := false } (.log t1 3 (ascii "bad"))).2.flatMap fun e =>
      match e with | .con b => b | _ => []) = ascii "E bad\n" :=
  C117_copy (fun b => by simp) (fun w _ => by
    show (w ++ [92, 110]).dropLast.dropLast ++ [10] = _
    rw [show w ++ [92, 110] = (w ++ [92]) ++ [110] by simp, List.dropLast_concat, List.dropLast_concat]) rfl rfl t1 (by decide)

/-- The letter that switches. -/
example : (source { vars := { stderr := some [121], noRedirect := none, tag := none }, redirected := false }).2.length = 0 ∧
    (source { vars := { stderr := some [89], noRedirect := none, tag := none }, redirected := false }).2.length = 1 := by decide

end Verif.Tools.Examples.ShApi
