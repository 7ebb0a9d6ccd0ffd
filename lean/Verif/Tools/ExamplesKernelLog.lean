import Verif.Tools.PropsKernelLog
import Verif.Ulogcat.ExamplesSaid

/-!
# Kernel messages meeting the hypotheses of C110, and a binary entry that does not
-/
namespace Verif.Tools.Examples.KernelLog
open Verif Verif.Kernel Verif.Kernel.Examples Verif.Libulog Verif.Ulogcat Verif.Ulogcat.Examples Verif.Ulogcat.Examples.Screen
open Verif.Tools

def names : Cid → Bytes := fun c => if c = 1 then ascii "kmsgd" else if c = 2 then ascii "kernel_evt" else []

/-- kmsgd started with `ULOG_DEVICE=kmsgd`. -/
def daemon : Prog :=
  { env :=
      { getenv := fun n => if n = ascii "ULOG_DEVICE" then some (ascii "kmsgd") else none
        openDev := fun p => if p = ascii "/dev/ulog_kmsgd" then some 3 else none
        strdupOk := true }
    nm := names }

theorem daemon_ok : Daemon (ascii "/dev/ulog_kmsgd") daemon :=
  ⟨⟨rfl, by decide +kernel, by decide +kernel, 3, by decide +kernel⟩, by decide +kernel, by decide +kernel, by decide +kernel, by decide +kernel⟩

def msgs : List KMsg :=
  [{ prio := 30, sec := 5, usec := 690716, text := ascii "udevd[80]: starting" },
   { prio := 4, sec := 123456, usec := 42, text := ascii "---[ end trace 0c0bbabe3aa774d5 ]---" }]

theorem msgs_valid : ∀ k ∈ msgs, k.Valid := by
  have h : ∀ k ∈ msgs, k.prio < 2 ^ 32 ∧ k.sec < 2 ^ 63 ∧ k.usec < 1000000 ∧ NoNul k.text ∧ (∀ b ∈ k.text, b ≠ 10) ∧ k.text.length ≤ 3900 := by
    decide +kernel
  exact fun k hk => ⟨(h k hk).1, (h k hk).2.1, (h k hk).2.2.1, (h k hk).2.2.2.1, (h k hk).2.2.2.2.1, (h k hk).2.2.2.2.2⟩

example : msgs.map (·.line) =
    [ascii "<30>[    5.690716] udevd[80]: starting", ascii "<4>[123456.000042] ---[ end trace 0c0bbabe3aa774d5 ]---"] := by decide +kernel

/-- A viewer of the kernel device, with labels. -/
def kview : Look := { look with klog := true, kmsgd := true }

theorem kview_shown : msgs.flatMap (·.shown kview) =
    ascii "K I KERNEL      : udevd[80]: starting\nK W KERNEL      : ---[ end trace 0c0bbabe3aa774d5 ]---\n" ++
    ascii "K N KERNEL      : EVT:KANOMALY;type='kernel';id='0c0bbabe3aa774d5'\n" := by decide +kernel

/-- `C110_kernel`: two messages, the second of which announces an anomaly, read byte
by byte. -/
example : ∃ s' outs ops sys tr m,
      kmsgdRun (List.replicate 100 1) { buf := List.replicate 16384 7, offset := 0 } (msgs.flatMap fun k => k.line ++ [10]) = some (s', [], outs) ∧
      sayAll (fun _ => daemon) noJunk (fun _ => .start) (saidOf (fun _ => t1) outs) = .ok ops ∧
      Kernel.run (Kernel.init dev 14 noJunk) (ops ++ [.openF 0 true false true, .getLogLen 0]) = .ok (sys, tr ++ [(.getLogLen 0, .ret m)]) ∧
      ∃ all c t, processLogs ((driverWorld 0 0 false (canRender kview) 1).onto .file (fun _ => []) (entriesBy kview all) stream) true 0 5
          (openCtx [m] 0) ⟨{ sys, tr := tr ++ [(.getLogLen 0, .ret m)], os := [], env := [] }, List.replicate 5248 170, []⟩ 0 =
            .ok (c, t, some 0) ∧ t.st.os = all ∧
        t.bytes = ascii "K I KERNEL      : udevd[80]: starting\nK W KERNEL      : ---[ end trace 0c0bbabe3aa774d5 ]---\n" ++
          ascii "K N KERNEL      : EVT:KANOMALY;type='kernel';id='0c0bbabe3aa774d5'\n" := by
  obtain ⟨s', outs, ops, sys, tr, m, h1, h2, h3, h4⟩ := C110_kernel daemon_ok msgs_valid (by decide)
    (s := { buf := List.replicate 16384 7, offset := 0 }) List.length_replicate rfl (ns := List.replicate 100 1)
    (fun n hn => by rw [(List.mem_replicate.1 hn).2]; omega) (by rw [List.length_replicate]; decide +kernel)
    (tk := fun _ => t1) (fun _ => by decide) noJunk (name := dev) (k := 14) noJunk (by omega) (by decide) (by decide +kernel)
    (L := kview) (by decide) rfl ⟨fun _ => by show (4 : Nat) ≤ 31; decide, fun _ => by show (ascii "01-01 00:00:03").length ≤ 31; decide⟩
  obtain ⟨all, c, t, e1, e2, e3⟩ := h4 0 0 5 (by decide) (buf0 := List.replicate 5248 170) List.length_replicate (paths := fun _ => [])
    (ans := stream) (fun _ _ => ⟨6000, rfl, by omega⟩)
  exact ⟨s', outs, ops, sys, tr, m, h1, h2, h3, all, c, t, e1, e2, by rw [e3, kview_shown]⟩

end Verif.Tools.Examples.KernelLog
