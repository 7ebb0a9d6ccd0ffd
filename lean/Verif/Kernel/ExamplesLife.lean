import Verif.Kernel.PropsLife
import Verif.Kernel.ExamplesBase

/-!
# Runs from loading to unloading meeting the hypotheses of C124
-/
namespace Verif.Kernel.Examples.Life
open Verif Verif.Kernel Verif.Kernel.Examples Verif.Kernel.Life

/-- Whether an address is free, by calculation. -/
def isFree (s : K) (a : Nat) : Bool := a != 0 && (s.mem.obj a).isNone && a % 2 == 0

theorem isFree_ok {s : K} {a : Nat} (h : isFree s a = true) : Free s a := by
  unfold isFree at h
  simp at h
  exact ⟨h.1.1, h.1.2, h.2⟩

def isSane (s : K) : KOp → Bool
  | .load _ main nm buffer _ _ => isFree s main && isFree s nm && main != nm && (match buffer with | some (b, _) => isFree s b && b != main && b != nm | none => true)
  | .add _ g =>
    (match g.name with | some a => isFree s a && g.log != some a && g.buffer.map (·.1) != some a | none => true) &&
    (match g.log with | some a => isFree s a && g.buffer.map (·.1) != some a | none => true) &&
    (match g.buffer with | some (a, _) => isFree s a | none => true)
  | .opn _ _ _ _ _ reader => match reader with | some a => isFree s a | none => true
  | _ => true

theorem isSane_ok {s : K} {op : KOp} (h : isSane s op = true) : Sane s op := by
  cases op with
  | load k main nm b r a =>
    unfold isSane at h
    simp only [Bool.and_eq_true, bne_iff_ne] at h
    obtain ⟨⟨⟨h1, h2⟩, h3⟩, h4⟩ := h
    refine ⟨isFree_ok h1, isFree_ok h2, h3, fun x hx => ?_⟩
    cases b with
    | none => cases hx
    | some p =>
      simp at hx
      subst hx
      simp at h4
      exact ⟨isFree_ok h4.1.1, h4.1.2, h4.2⟩
  | add text g =>
    obtain ⟨gn, gl, gb, gr⟩ := g
    unfold isSane at h
    simp only [Bool.and_eq_true] at h
    obtain ⟨⟨h1, h2⟩, h3⟩ := h
    refine ⟨fun a ha => ?_, fun a ha => ?_, fun a ha => ?_⟩
    · dsimp only at ha
      subst ha
      simp only [Bool.and_eq_true, bne_iff_ne] at h1
      exact ⟨isFree_ok h1.1.1, h1.1.2, h1.2⟩
    · dsimp only at ha
      subst ha
      simp only [Bool.and_eq_true, bne_iff_ne] at h2
      exact ⟨isFree_ok h2.1, h2.2⟩
    · cases gb with
      | none => cases ha
      | some p =>
        simp at ha
        subst ha
        exact isFree_ok h3
  | opn nm fid rd wr all reader =>
    intro a ha
    subst ha
    exact isFree_ok h
  | list _ => trivial
  | call _ => trivial
  | unload => trivial

def isGiven : K → List KOp → Bool
  | _, [] => true
  | s, op :: ops => isSane s op && (match kstep s op with | .ok (s', _) => isGiven s' ops | .error _ => true)

theorem isGiven_ok : ∀ {ops : List KOp} {s : K}, isGiven s ops = true → Given s ops := by
  intro ops
  induction ops with
  | nil => intro s _; trivial
  | cons op ops ih =>
    intro s h
    unfold isGiven at h
    simp only [Bool.and_eq_true] at h
    refine ⟨isSane_ok h.1, fun s' o e => ih ?_⟩
    have := h.2
    rw [e] at this
    exact this

def isPlain : KOp → Bool
  | .load k _ _ b register attr => decide (¬ (14 ≤ k ∧ k ≤ 24)) || (b.isSome && register && attr) || (b.isNone && !register)
  | .add _ g => g.name.isSome
  | .call op => op.supported
  | _ => true

theorem isPlain_ok {op : KOp} (h : isPlain op = true) : op.plain := by
  cases op with
  | load k main nm b r a =>
    unfold isPlain at h
    simp only [Bool.or_eq_true, Bool.and_eq_true, decide_eq_true_eq] at h
    rcases h with (h | h) | h
    · exact .inl h
    · exact .inr (.inl ⟨h.1.1, h.1.2, h.2⟩)
    · refine .inr (.inr ⟨by simpa using h.1, by simpa using h.2⟩)
  | add _ _ => exact h
  | call _ => exact h
  | list _ => trivial
  | opn _ _ _ _ _ _ => trivial
  | unload => trivial

def junkAt (a : Nat) : Option (Nat × (Nat → UInt8)) := some (a, noJunk)

/-- A wrong size, no memory, a full life with a second device, three readers, one opening
without memory, one request without memory, an attempt to unload too early, and the
beginning of a second life at the same addresses. -/
def calls : List KOp :=
  [.load 30 2 4 (junkAt 6) true true, .load 18 2 4 none false true, .unload,
   .load 18 2 4 (junkAt 6) true true, .load 18 20 22 (junkAt 8) true true,
   .add (ascii "ulog_aux 14") { name := some 8, log := some 10, buffer := junkAt 12, register := true },
   .add (ascii "ulog_aux 15") { name := some 14, log := some 16, buffer := junkAt 18, register := true },
   .add (ascii "ulog_x 15") { name := some 14, log := none, buffer := junkAt 18, register := true },
   .opn (ascii "ulog_aux") 0 true true true (some 14), .opn (ascii "ulog_aux") 1 true false false (some 16),
   .opn (ascii "ulog_main") 2 false true false none, .opn (ascii "ulog_main") 3 true false true none,
   .opn (ascii "ulog_main") 3 true false true (some 18),
   .call (.write 0 t1 (txt 20 65) noJunk), .call (.write 2 t2 (txt 4 66) noJunk), .call (.getLogLen 1), .call (.poll 3 1001),
   .unload, .call (.release 0), .call (.getNextLen 3 1001), .list 4096]

def ending : List KOp := [.call (.release 2), .call (.release 1), .call (.release 3), .unload, .load 14 14 16 (junkAt 2) true true]

/-- `C124_safe`, `C124_driver`, `C124_memory`, `C124_results`, `C124_unload`. -/
theorem calls_run : ∃ s tr, KRun (calls ++ ending) s tr :=
  C124_safe (isGiven_ok (by decide +kernel)) fun op hop => isPlain_ok (List.all_eq_true.1 (by decide +kernel : (calls ++ ending).all isPlain = true) op hop)

/-- Results, by number. -/
def code : KOut → Nat
  | .loaded => 1
  | .failed => 2
  | .busy => 3
  | .unloaded => 4
  | .enomem => 5
  | .drv .noent => 6
  | .drv (.out .ok) => 7
  | .drv (.out (.ret n)) => 100 + n
  | .drv (.out (.data b)) => 200 + b.length
  | .drv (.out (.err _)) => 8
  | .drv (.text b) => 300 + b.length
  | .drv (.added (.done n)) => 400 + n
  | .drv (.added _) => 9
  | _ => 10

theorem calls_results : (krun K.none (calls ++ ending)).toOption.map (fun r => r.2.map fun x => code x.2) =
    some [2, 2, 6, 1, 3, 411, 9, 9, 7, 7, 7, 5, 7, 120, 104, 156, 10, 3, 7, 134, 325, 7, 7, 7, 4, 1] := by decide +kernel

/-- In the middle: two devices, two files open for reading; addresses in use. -/
theorem calls_memory : (krun K.none calls).toOption.map (fun r => (List.range 24).filter fun a => (r.1.mem.obj a).isSome) = some [2, 4, 6, 8, 10, 12, 16, 18] ∧
    (krun K.none calls).toOption.map (fun r => (now r.2).map fun L => ((List.range 5).filter fun f => reading L.calls f, L.calls.length)) = some (some ([1, 3], 14)) := by decide +kernel

end Verif.Kernel.Examples.Life
