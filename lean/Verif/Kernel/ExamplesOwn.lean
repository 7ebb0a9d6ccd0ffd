import Verif.Kernel.PropsOwn
import Verif.Kernel.ExamplesBase

/-!
# A restricted reader at work
-/
namespace Verif.Kernel.Examples
open Verif Verif.Kernel

/-- Two users write in turn; descriptor 1 is restricted, used by user 1001, and
already received one entry. -/
def mixed : List Op :=
  [.openF 0 true true true, .openF 1 true false false,
   .write 0 t1 (txt 3 65) noJunk, .write 0 t2 (txt 4 66) noJunk, .write 0 t1 (txt 5 67) noJunk,
   .read 1 1001 100 100, .write 0 t1 (txt 6 68) noJunk, .write 0 t2 (txt 7 69) noJunk, .poll 1 1001]

/-- `C03_restricted`: the next read skips two foreign entries. -/
example : ∃ s s' bs r, Run dev 14 noJunk mixed s (trOf mixed) ∧ (obs dev (trOf mixed)).rds 1 = some r ∧
    r.all = false ∧ step s (.read 1 1001 100 100) = .ok (s', .data bs) ∧ isNotice bs = false ∧
    bs.length = 24 + 6 + 7 ∧ (track dev 1 (trOf mixed)).recv.length = 1 ∧
    (∀ v ∈ (track dev 1 (trOf mixed)).uids, v = 1001) ∧
    ownCount 1001 (obs dev (trOf mixed)).hist 0 4 = 1 := by
  obtain ⟨s, s', h, hs⟩ := reach (buf := noJunk) (ops := mixed) (by decide) (by decide +kernel) (by decide +kernel)
    (.read 1 1001 100 100) rfl
  obtain ⟨bs, h1, h2⟩ := outData (o := next mixed (.read 1 1001 100 100))
    (p := fun bs => !isNotice bs && decide (bs.length = 24 + 6 + 7)) (by decide +kernel)
  simp only [Bool.and_eq_true, decide_eq_true_eq, Bool.not_eq_true'] at h2
  rw [h1] at hs
  exact ⟨s, s', bs, { all := false, ver := 2, got := 1, told := 0 }, h, by decide +kernel, rfl, hs, h2.1, h2.2,
    by decide +kernel, by decide +kernel, by decide +kernel⟩

end Verif.Kernel.Examples
