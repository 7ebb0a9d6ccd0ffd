import Verif.Ulogcat.PropsKmsg

/-!
# A concrete kernel log meeting the hypotheses of C92

Three messages: one that fits into the small buffer, one that does not, one that
does again. A fourth is logged while the second is being read.
-/
namespace Verif.Ulogcat.Examples.Kernlog
open Verif Verif.Ulogcat

def rec (n : Nat) (c : UInt8) : KRec :=
  { prio := 30, usec := 5140900 + n, flags := [45], text := List.replicate n c, dict := [] }

def log0 : Kmsg := { recs := [rec 10 65, rec 250 66, rec 12 67], first := 0, pos := 0 }

def frame : RFrame := { big := false, mem := List.replicate 200 170 }

def one (skips : Bool) (more : List KRec) (k : Kmsg) : Kmsg × Option KOut :=
  klogEntry skips true (fun _ => 170) more 0 frame k

def after1 (skips : Bool) := one skips [] log0
def after2 (skips : Bool) := one skips [rec 14 68] (after1 skips).1
def after3 (skips : Bool) := one skips [] (after2 skips).1
def after4 (skips : Bool) := one skips [] (after3 skips).1

def shown (o : Option KOut) : Option (Int × Option Bytes) :=
  o.map fun o => (o.ret, do
    match ← klogParse (← o.entry) with
    | some (m, p, _) => strAt m p
    | none => none)

/-- A kernel that keeps the reader in place: all four messages. -/
theorem kept : [after1 false, after2 false, after3 false, after4 false].map (fun x => shown x.2) =
    [some (1, some (List.replicate 10 65)), some (1, some (List.replicate 250 66)),
     some (1, some (List.replicate 12 67)), some (1, some (List.replicate 14 68))] := by decide +kernel

/-- Linux: the second message is missing, and every call succeeds. -/
theorem lost : [after1 true, after2 true, after3 true].map (fun x => shown x.2) =
    [some (1, some (List.replicate 10 65)), some (1, some (List.replicate 12 67)), some (1, some (List.replicate 14 68))] ∧
    shown (after4 true).2 = some (0, none) := by decide +kernel

/-- The hypotheses of `C92_neg_long` after the first call. -/
theorem long : (after1 true).1.Long := by
  refine ⟨by decide +kernel, rec 250 66, by decide +kernel, by decide +kernel⟩

theorem fresh : frame.fresh := ⟨rfl, by decide +kernel⟩

/-- `C92_frame`: a call that finds nothing, and one to which memory is refused. -/
example : (after4 true).2.map (fun o => (o.entry, o.frame)) = some (none, some frame) ∧
    (klogEntry true false (fun _ => 170) [] 0 frame (after1 true).1).2.map (fun o => (o.entry, o.frame)) = some (none, none) := by
  decide +kernel

theorem ok (n : Nat) (c : UInt8) (hc : c ≠ 0) (hn : n < 1000) : (rec n c).Ok where
  flags := by intro b hb; simp [rec] at hb; subst hb; decide
  semi := by intro b hb; simp [rec] at hb; subst hb; decide
  text := by intro b hb; simp [rec] at hb; rw [hb.2]; exact hc
  prio := by show 30 < _; decide
  usec := by show 5140900 + n < _; omega

theorem sane : KSane [rec 10 65, rec 250 66, rec 12 67, rec 14 68] := by
  refine ⟨?_, ?_⟩
  · intro x hx
    simp only [List.mem_cons, List.not_mem_nil, or_false] at hx
    rcases hx with rfl | rfl | rfl | rfl <;> exact ok _ _ (by decide) (by decide)
  · intro i x hx
    rcases i with _ | _ | _ | _ | i
    · simp at hx; subst hx; decide +kernel
    · simp at hx; subst hx; decide +kernel
    · simp at hx; subst hx; decide +kernel
    · simp at hx; subst hx; decide +kernel
    · simp at hx

theorem call_some {skips : Bool} {more : List KRec} {k : Kmsg} {os : List KOut} {k' : Kmsg} {o : KOut}
    (h : (one skips more k).2 = some o) (hs : KSession skips (one skips more k).1 os k') : KSession skips k (o :: os) k' :=
  .call fresh (Prod.ext rfl h) hs

/-- A session for both kinds of kernel: `C92_order`, and `C92_complete` for the first. -/
theorem session (skips : Bool) : ∃ os, os.length = 4 ∧ KSession skips log0 os (after4 skips).1 := by
  have h : ∀ x : Option KOut, x.isSome = true → ∃ o, x = some o := fun x h => Option.isSome_iff_exists.1 h
  obtain ⟨o1, h1⟩ := h (after1 skips).2 (by cases skips <;> decide +kernel)
  obtain ⟨o2, h2⟩ := h (after2 skips).2 (by cases skips <;> decide +kernel)
  obtain ⟨o3, h3⟩ := h (after3 skips).2 (by cases skips <;> decide +kernel)
  obtain ⟨o4, h4⟩ := h (after4 skips).2 (by cases skips <;> decide +kernel)
  exact ⟨[o1, o2, o3, o4], rfl, call_some h1 (call_some h2 (call_some h3 (call_some h4 .nil)))⟩

theorem recs4 (skips : Bool) : (after4 skips).1.recs = [rec 10 65, rec 250 66, rec 12 67, rec 14 68] := by
  cases skips <;> decide +kernel

example : ∃ os, os.length = 4 ∧ KFollows (after4 true).1.recs 0 os (after4 true).1.pos := by
  obtain ⟨os, hl, hs⟩ := session true
  exact ⟨os, hl, C92_order hs (by rw [recs4]; exact sane)⟩

example : ∃ os : List KOut, os.length = 4 ∧ ∀ i < 4, ∃ r, ∃ o ∈ os, (after4 false).1.recs[i]? = some r ∧ GotRec r i o := by
  obtain ⟨os, hl, hs⟩ := session false
  refine ⟨os, hl, fun i hi => ?_⟩
  rcases C92_complete hs (by rw [recs4]; exact sane) (by decide) i (Nat.zero_le _)
    (by rw [show (after4 false).1.pos = 4 by decide +kernel]; exact hi) with h | h
  · rw [show (after4 false).1.first = 0 by decide +kernel] at h; omega
  · exact h

/-- The device is used, and reading begins with the second message if the first
was cleared. -/
example : openKmsg true true 1 1 [] 0 4096 log0 = some ({ log0 with pos := 1 }, 8192) := by decide +kernel

/-- `C92_big`: a frame whose (large) buffer is too small all the same. -/
example : ({ big := true, mem := List.replicate 260 170 } : RFrame).mem.length ≤ ((rec 250 66).bytes 1).length ∧
    klogEntry true true (fun _ => 170) [] 0 { big := true, mem := List.replicate 260 170 } (after1 true).1 =
      ({ (after1 true).1 with pos := 2 },
        some { ret := -1, frame := some { big := true, mem := List.replicate 260 170 }, entry := none, taken := 0 }) := by
  refine ⟨by decide +kernel, ?_⟩
  rw [C92_big rfl (by decide +kernel) (x := rec 250 66) (by decide +kernel) (by decide +kernel) (by decide)]
  rw [show (after1 true).1.pos = 1 by decide +kernel]
  rfl

end Verif.Ulogcat.Examples.Kernlog
