import Verif.Ulogcat.PropsReceive
import Verif.Kernel.ExamplesBase

/-!
# A concrete session meeting the hypotheses of C84 and C85

A viewer reads three entries: a short one, a long one for which it needs the
larger buffer, and one that another program writes between the two reads the long
one takes.
-/
namespace Verif.Ulogcat.Examples.Receive
open Verif Verif.Kernel Verif.Kernel.Examples Verif.Libulog Verif.Ulogcat

def before : List Op :=
  [.openF 0 true false true, .openF 1 false true false, .write 1 t1 (txt 50 65) noJunk, .write 1 t2 (txt 300 66) noJunk]

def smallRead : Op := .read 0 0 frameSize frameSize
def bigRead : Op := .read 0 0 entryMax entryMax
def third : Op := .write 1 t1 (.ubuf ([4, 0, 0, 0, 116, 0, 104, 105, 0].map some)) noJunk

def session : List Op :=
  [.check 0, smallRead, .check 0, smallRead, third, .check 0, bigRead, .check 0, smallRead]

def e1 : Entry := plainSpec t1 (List.replicate 50 65)
def e2 : Entry := plainSpec t2 (List.replicate 300 66)
def e3 : Entry := plainSpec t1 [4, 0, 0, 0, 116, 0, 104, 105, 0]

def sessionTr : List (Op × Out) :=
  [(.check 0, .ready), (smallRead, .data (e1.view 2)), (.check 0, .ready), (smallRead, .err .einval),
   (third, .ret 9), (.check 0, .ready), (bigRead, .data (e2.view 2)), (.check 0, .ready), (smallRead, .data (e3.view 2))]

theorem trOf_zip (ops : List Op) : trOf ops = ops.zip ((trOf ops).map (·.2)) := by
  unfold trOf
  generalize ainit dev 14 = a
  induction ops generalizing a with
  | nil => rfl
  | cons op ops ih =>
    simp only [arun, List.map_cons, List.zip_cons_cons]
    rw [← ih]

theorem outs_ok : (trOf (before ++ session ++ [.check 0])).map (·.2) =
    (trOf before).map (·.2) ++ sessionTr.map (·.2) ++ [.block] := by decide +kernel

theorem outs_len (ops : List Op) : (trOf ops).length = ops.length := by
  unfold trOf
  generalize ainit dev 14 = a
  induction ops generalizing a with
  | nil => rfl
  | cons op ops ih => simp only [arun, List.length_cons]; rw [ih]

theorem tr_ok : trOf (before ++ session ++ [.check 0]) = trOf before ++ (sessionTr ++ [(.check 0, .block)]) := by
  rw [trOf_zip, outs_ok, List.zip_append (by simp [outs_len, session, sessionTr]),
    List.zip_append (by simp [outs_len]), ← trOf_zip before, List.append_assoc]
  rfl

def blankFrame : RFrame := { big := false, mem := List.replicate frameSize 0 }

/-- The results of the three calls: text, text, text, all taken. -/
def outOf (r1 r2 : RdRes) : RecvOut :=
  (receive true false (fun _ => 0) blankFrame r1 r2).getD { ret := -1, frame := none, entry := none, stamp := 0, taken := 0 }

theorem outOf_eq {r1 r2 : RdRes} (h : (receive true false (fun _ => 0) blankFrame r1 r2).isSome = true) :
    receive true false (fun _ => 0) blankFrame r1 r2 = some (outOf r1 r2) := by
  unfold outOf
  cases hr : receive true false (fun _ => 0) blankFrame r1 r2 with
  | none => rw [hr] at h; exact absurd h (by simp)
  | some o => rfl

theorem view_session : Viewing 0 0 false sessionTr
    [outOf (.data (e1.view 2)) .other, outOf .inval (.data (e2.view 2)), outOf (.data (e3.view 2)) .other] := by
  have hf : blankFrame.fresh := ⟨rfl, by simp [blankFrame]⟩
  refine .call (t1 := [(.check 0, .ready), (smallRead, .data (e1.view 2))]) (t2 := []) (f := blankFrame)
    (alloc := true) (fresh := fun _ => 0) (r1 := .data (e1.view 2)) (r2 := .other) hf
    (.data (t := []) (u := []) (by simp [Others]) (by simp [Others])) (by simp [retries]) (outOf_eq (by decide +kernel)) ?_
  refine .call (t1 := [(.check 0, .ready), (smallRead, .err .einval)])
    (t2 := [(third, .ret 9), (.check 0, .ready), (bigRead, .data (e2.view 2))]) (f := blankFrame)
    (alloc := true) (fresh := fun _ => 0) (r1 := .inval) (r2 := .data (e2.view 2)) hf
    (.inval (t := []) (u := []) (by simp [Others]) (by simp [Others])) ?_ (outOf_eq (by decide +kernel)) ?_
  · have : (retries blankFrame .inval && true) = true := rfl
    rw [this, if_pos rfl]
    exact .data (t := [(third, .ret 9)]) (u := []) (by simp [Others, third]) (by simp [Others])
  refine .call (t1 := [(.check 0, .ready), (smallRead, .data (e3.view 2))]) (t2 := []) (f := blankFrame)
    (alloc := true) (fresh := fun _ => 0) (r1 := .data (e3.view 2)) (r2 := .other) hf
    (.data (t := []) (u := []) (by simp [Others]) (by simp [Others])) (by simp [retries]) (outOf_eq (by decide +kernel)) ?_
  exact .nil

/-- `C85_session` and `C85_complete`: three entries received, nothing left. -/
example : ∃ s, Run dev 14 noJunk (before ++ session ++ [.check 0]) s
      (trOf before ++ (sessionTr ++ [(.check 0, .block)])) ∧
    At dev (trOf before) 0 0 ∧ NoFlush (sessionTr ++ [(.check 0, .block)]) ∧
    SysRead 0 0 frameSize [(.check 0, .block)] .again ∧
    ∃ os, Viewing 0 0 false sessionTr os ∧ os.map (·.ret) = [1, 1, 1] ∧ os.map (·.stamp) = [5000000, 7000000, 5000000] := by
  obtain ⟨s, hs⟩ := Run.exists (name := dev) (k := 14) noJunk (ops := before ++ session ++ [.check 0]) (by omega)
    (by decide) (List.all_eq_true.mp (by decide +kernel)) (by decide +kernel) (by decide +kernel)
  have := tr_ok
  unfold trOf at this
  rw [this] at hs
  refine ⟨s, hs, ⟨{ all := true, ver := 2, got := 0, told := 0 }, by decide +kernel, rfl, rfl, by decide +kernel⟩, ?_, .again (t := []) (by simp [Others]), _,
    view_session, by decide +kernel, by decide +kernel⟩
  intro p hp g hg
  rw [hg] at hp
  simp [sessionTr, smallRead, bigRead, third] at hp

/-- `C84_receive`: the call in the middle, with the write of another program
between its two reads. -/
example : ∃ (s : Sys) (ops : List Op), Run dev 14 noJunk ops s
      ((trOf before ++ [(.check 0, .ready), (smallRead, .data (e1.view 2))]) ++
        [(.check 0, .ready), (smallRead, .err .einval)] ++
        [(third, .ret 9), (.check 0, .ready), (bigRead, .data (e2.view 2))]) ∧
    OpenWith dev (trOf before ++ [(.check 0, .ready), (smallRead, .data (e1.view 2))]) 0 true 2 ∧
    blankFrame.fresh ∧ retries blankFrame .inval = true ∧
    SysRead 0 0 frameSize [(.check 0, .ready), (smallRead, .err .einval)] .inval ∧
    SysRead 0 0 entryMax [(third, .ret 9), (.check 0, .ready), (bigRead, .data (e2.view 2))] (.data (e2.view 2)) := by
  obtain ⟨s, hs⟩ := Run.exists (name := dev) (k := 14) noJunk (ops := before ++ session ++ [.check 0]) (by omega)
    (by decide) (List.all_eq_true.mp (by decide +kernel)) (by decide +kernel) (by decide +kernel)
  have := tr_ok
  unfold trOf at this
  rw [this] at hs
  have eq : (arun (ainit dev 14) before).2 ++ (sessionTr ++ [(.check 0, .block)]) =
      ((trOf before ++ [(.check 0, .ready), (smallRead, .data (e1.view 2))]) ++
        [(.check 0, .ready), (smallRead, .err .einval)] ++
        [(third, .ret 9), (.check 0, .ready), (bigRead, .data (e2.view 2))]) ++
        [(.check 0, .ready), (smallRead, .data (e3.view 2)), (.check 0, .block)] := by
    simp [trOf, sessionTr]
  rw [eq] at hs
  obtain ⟨s1, h1, _⟩ := hs.cut
  refine ⟨s1, _, h1, ?_, ⟨rfl, by simp [blankFrame]⟩, rfl,
    .inval (t := []) (u := []) (by simp [Others]) (by simp [Others]),
    .data (t := [(third, .ret 9)]) (u := []) (by simp [Others, third]) (by simp [Others])⟩
  have h0 : OpenWith dev (trOf before) 0 true 2 :=
    ⟨{ all := true, ver := 2, got := 0, told := 0 }, by decide +kernel, rfl, rfl⟩
  rw [show trOf before ++ [(Op.check 0, Out.ready), (smallRead, .data (e1.view 2))] =
    trOf before ++ [(.check 0, .ready)] ++ [(smallRead, .data (e1.view 2))] by simp]
  exact (h0.step (.inr (.inr rfl))).step (.inr (.inl ⟨_, _, _, rfl⟩))

end Verif.Ulogcat.Examples.Receive
