import Verif.Kernel.Props

/-!
# Helpers to exhibit concrete runs of the driver
-/
namespace Verif.Kernel.Examples
open Verif Verif.Kernel

instance (h : List Entry) : Decidable (Genuine h) := by unfold Genuine; exact inferInstance

def dev : Bytes := ascii "ulog_main"

/-- Process 10, thread 11, user 1000. -/
def t1 : Task :=
  { pid := 10, tid := 11, sec := 5, nsec := 6, euid := 1000, pcomm := ascii "prog\x00", tcomm := ascii "worker\x00" }
/-- Another user. -/
def t2 : Task :=
  { pid := 20, tid := 20, sec := 7, nsec := 8, euid := 1001, pcomm := ascii "other\x00", tcomm := ascii "other\x00" }

def txt (n : Nat) (b : UInt8) : Iter := .ubuf (List.replicate n (some b))
/-- Two buffers, the second one cannot be read. -/
def bad : Iter := .iovec [List.replicate 30 (some 65), [some 1, none]]
def noJunk : Nat → UInt8 := fun _ => 7

/-- The result of one more call after `ops`, in the abstract machine. -/
def next (ops : List Op) (op : Op) : Out := (astep (arun (ainit dev 14) ops).1 op).2

def trOf (ops : List Op) : List (Op × Out) := (arun (ainit dev 14) ops).2

theorem reach {buf : Nat → UInt8} {ops : List Op} (h1 : ops.all Op.supported = true)
    (h2 : decide (Genuine (obs dev (trOf ops)).hist) = true)
    (h3 : decide ((obs dev (trOf ops)).hist.length < 2147483648) = true) (op : Op) (h4 : op.supported = true) :
    ∃ s s', Run dev 14 buf ops s (trOf ops) ∧ step s op = .ok (s', next ops op) := by
  have hs : ∀ op ∈ ops, op.supported = true := List.all_eq_true.mp h1
  have hn : dev.length ≤ 89 := by decide
  obtain ⟨G, s, e, hr⟩ := run_refines ops (init_rel (name := dev) (k := 14) buf (by omega) hn) hs
  obtain ⟨_, s', e', _⟩ := step_refines hr op h4
  exact ⟨s, s', ⟨by omega, hn, hs, e, of_decide_eq_true h2, of_decide_eq_true h3⟩, e'⟩

theorem outData {o : Out} {p : Bytes → Bool} (h : (match o with | .data bs => p bs | _ => false) = true) :
    ∃ bs, o = .data bs ∧ p bs = true := by
  cases o <;> first | exact ⟨_, rfl, h⟩ | cases h

end Verif.Kernel.Examples
