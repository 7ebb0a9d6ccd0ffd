import Verif.Kernel.PropsIoctl
import Verif.Kernel.Examples

/-!
# Requests by number: examples (C126)
-/
namespace Verif.Kernel.Examples
open Verif Verif.Kernel

/-- The device of `Examples.lapped`: file 0 reads and writes, file 1 only reads. -/
def after : Sys := match run (init dev 14 noJunk) [.openF 0 true true true, .openF 1 true false false, .write 0 t1 (txt 3 70) noJunk] with
  | .ok (s, _) => s
  | .error _ => init dev 14 noJunk

def asked (fid : Nat) (cap : Bool) (cmd : Nat) (arg : Option Bytes) : Option Int := (ioctl after fid 0 cap cmd arg).toOption.map Prod.snd

/-- The numbers are those of the header: `_IO(0xAE, 21)` and so on. -/
example : requests.map Prod.fst = (List.range 7).map fun i => ioReq (21 + i) := by decide

/-- `C126_requests`: what is answered and what is refused. -/
example : asked 0 false 44565 none = some 16384 ∧ asked 1 false 44568 none = some (-9) ∧ asked 0 false 44571 (some [1, 0, 0, 0]) = some (-1) ∧
    asked 0 true 44571 (some [1, 0, 0, 0]) = some 0 ∧ asked 0 true 44571 (some [255, 255, 255, 255]) = some (-22) ∧ asked 0 true 44571 none = some (-14) ∧
    asked 1 false 44570 (some [3, 0, 0, 0]) = some (-22) ∧ asked 1 false 44570 (some [1, 0, 0, 0]) = some 0 ∧ asked 1 false 44569 none = some 2 ∧
    asked 0 false 21524 none = some (-22) ∧ asked 7 false 44565 none = some (-9) ∧ asked 0 false 44567 none = some 39 ∧ asked 0 false 44566 none = some 39 := by
  decide +kernel

/-- Its hypotheses hold after the calls in `lapped`. -/
example : ∃ s f, Run dev 14 noJunk lapped s (trOf lapped) ∧ s.files 0 = some f ∧ f.rd = true ∧ refusal f false 44566 none = none := by
  obtain ⟨s, s', h, hs⟩ := reach (buf := noJunk) (ops := lapped) (by decide) lapped_genuine lapped_count (.getBufSize 0) rfl
  cases hf : s.files 0 with
  | none =>
    rw [show next lapped (.getBufSize 0) = .ret 16384 by decide +kernel] at hs
    unfold step at hs
    simp [hf] at hs
  | some f =>
    refine ⟨s, f, h, hf, ?_⟩
    cases hr : f.rd with
    | true => exact ⟨rfl, by simp [refusal, requests, List.lookup, Need.met, hr]⟩
    | false =>
      obtain ⟨s1, s2, h1, h2⟩ := reach (buf := noJunk) (ops := lapped) (by decide) lapped_genuine lapped_count (.getVersion 0) rfl
      have he : s1 = s := by
        have a1 := h.run
        rw [h1.run] at a1
        cases a1
        rfl
      subst he
      rw [show next lapped (.getVersion 0) = .ret 2 by decide +kernel] at h2
      unfold step at h2
      simp [hf, stepFile, hr] at h2

/-- `C126_int` -/
example : intBytes (-2) = [254, 255, 255, 255] ∧ intAt (some [254, 255, 255, 255]) = some (-2) := by decide

/-- `C126_closed`, `C126_run` -/
example : after.files 7 = none ∧ (ioctl after 0 0 false 44568 none).isOk = true := by decide +kernel

end Verif.Kernel.Examples
