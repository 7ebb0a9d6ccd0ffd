import Verif.Tools.PropsCat
import Verif.Ulogcat.ExamplesOpen
import Verif.Ulogcat.ExamplesCore

/-!
# Concrete runs of the log viewer command
-/
namespace Verif.Tools.Examples.Cat
open Verif Verif.Ulogcat Verif.Ulogcat.Examples Verif.Tools

/-- Devices can be opened for writing unless their path contains an `f`; flushing
returns 0. -/
def clearW : ClearWorld where
  openW evs p := if 102 ∈ p then none else (held evs).map fun H => H.foldl (· + ·) 0 + H.length + 1
  flush _ _ := 0
  klog _ := -1

theorem clearW_fresh : FreshW clearW := by
  intro evs H p fd hH ho hm
  unfold clearW at ho
  dsimp only at ho
  split at ho
  · simp at ho
  · rw [hH] at ho
    have := (sum_ge H 0).1 fd hm
    have e : H.foldl (· + ·) 0 + H.length + 1 = fd := by simpa using ho
    omega

def allMem : Nat → Bool := fun _ => true

/-- C93: the last format and number of lines count; names in order. -/
example : (catOptions allMem [.format (ascii "csv"), .buffer (ascii "b"), .tail (ascii "7"), .format (ascii "long"),
      .buffer (ascii "a"), .tail (ascii " -2x")]).toOption.map (fun c => (c.tail, c.names, c.ulog)) =
    some (-2, some [ascii "b", ascii "a"], true) := by decide +kernel

/-- C93: a bad format ends the command even after `-c`; help in front of it gives 0. -/
example : (match catOptions allMem [.clear, .format (ascii "x"), .help] with | .error e => some e | .ok _ => none) = some (-1) := by
  decide +kernel
example : parseFormat (ascii "long") = formats.lookup (ascii "long") := by rfl
example : (match catOptions allMem [.help, .bad] with | .error e => some e | .ok _ => none) = some 0 := by decide +kernel

example : ∀ o ∈ [CatOpt.dump, .buffer (ascii "b"), .format (ascii "csv")], ¬ CatStops o := by
  intro o ho h
  simp only [List.mem_cons, List.not_mem_nil, or_false] at ho
  rcases ho with rfl | rfl | rfl <;> rcases h with h | h | ⟨a, h, h'⟩ <;> cases h
  revert h'; decide +kernel

/-- C93_false_fewer, C93_false_crash -/
example : (catOptions (fun _ => false) [.buffer (ascii "a"), .buffer (ascii "b")]).toOption.map Cat.names = some (some []) := by
  decide +kernel
example : (catOptions (fun i => i ≠ 0) [.buffer (ascii "a"), .buffer (ascii "b")]).toOption.map Cat.names = some (some [ascii "b"]) := by
  decide +kernel
example : (catOptions (fun i => i ≠ 1) [.buffer (ascii "a"), .buffer (ascii "b"), .buffer (ascii "c")]).toOption.map Cat.names =
    some none := by decide +kernel

/-- Two logs. -/
def catLogs : Logs := fun i => if i = 0 then [.text 10 1, .text 30 2] else if i = 1 then [.text 20 3, .bin] else []

def dumpOpts : List CatOpt := [.dump, .buffer (ascii "b"), .buffer (ascii "c"), .tail (ascii "2")]

def endOf (r : CatEnd Logs) : Option (Int × List OutEv × List OEv) :=
  match r with
  | .ended r _ x _ evs => some (r, x.out, evs)
  | _ => none

/-- C94_dump: the hypotheses hold and the last two entries are printed. -/
example : endOf (catMain allMem devWorld clearW quiet 1 20 catLogs dumpOpts) =
    some (0, [.banner 1 20, .entry ⟨1, 20, 3, true⟩, .banner 0 30, .entry ⟨0, 30, 2, true⟩],
      [.alloc, .alloc, .opened (ascii "/dev/ulog_b") (some 1), .alloc, .opened (ascii "/dev/ulog_c") (some 3),
       .alloc, .alloc, .alloc, .closed 1, .closed 3, .closeOut]) := by decide +kernel

theorem opened : ((ulogOpen devWorld true false [ascii "b", ascii "c"] []).toOption.map fun o => o.devs.map ODev.mark) =
    some [40, 40] := by decide +kernel

example : ∃ c o, catOptions allMem dumpOpts = .ok c ∧ c.dump = true ∧ c.clear = false ∧ c.tail = (2 : Nat) ∧
    ulogOpen devWorld c.ulog c.klog (dumpOpts.filterMap bufOpt) [] = .ok o ∧ 2 + o.devs.length + 1 ≤ 2147483647 ∧
    (∀ i d, o.devs[i]? = some d → d.mark = 0 → catLogs i = []) ∧ (∀ i, o.devs.length ≤ i → catLogs i = []) ∧ SortedLogs catLogs := by
  have h : (catOptions allMem dumpOpts).toOption.map (fun c => (c.dump, c.clear, c.tail, c.ulog, c.klog)) =
      some (true, false, 2, true, false) := by decide +kernel
  cases hc : catOptions allMem dumpOpts with
  | error e => rw [hc] at h; cases h
  | ok c =>
    rw [hc] at h
    simp only [Except.toOption, Option.map_some, Option.some.injEq, Prod.mk.injEq] at h
    obtain ⟨h1, h2, h3, h4, h5⟩ := h
    have hn : dumpOpts.filterMap bufOpt = [ascii "b", ascii "c"] := rfl
    have ho := opened
    cases hO : ulogOpen devWorld true false [ascii "b", ascii "c"] [] with
    | error e => rw [hO] at ho; cases ho
    | ok o =>
      rw [hO] at ho
      simp only [Except.toOption, Option.map_some, Option.some.injEq] at ho
      have hl : o.devs.length = 2 := by rw [← List.length_map (f := ODev.mark), ho]; rfl
      refine ⟨c, o, rfl, h1, h2, h3, by rw [h4, h5, hn]; exact hO, by omega, ?_, ?_, ?_⟩
      · intro i d hd h0
        have : (o.devs.map ODev.mark)[i]? = some 0 := by rw [List.getElem?_map, hd, ← h0]; rfl
        rw [ho] at this
        match i, this with
        | 0, h => cases h
        | 1, h => cases h
        | i + 2, h => cases h
      · intro i hi
        unfold catLogs
        rw [if_neg (by omega), if_neg (by omega)]
      · intro d
        unfold catLogs
        split
        · simp [texts]
        · split <;> simp [texts]

/-- C94: no context. -/
example : (catMain allMem devWorld clearW quiet 1 20 catLogs [.buffer (ascii "b"), .buffer (ascii "x")]).events =
    some [.alloc, .alloc, .opened (ascii "/dev/ulog_b") (some 1), .alloc, .opened (ascii "/dev/ulog_x") none, .closed 1, .closeOut] := by
  decide +kernel

/-- C94_false_tail, C94_false_overflow -/
example : (match catMain allMem devWorld clearW quiet 1 20 (fun _ => []) [.buffer (ascii "b"), .tail (ascii "-1")] with
    | .fault f => some f | _ => none) = some .hang := by decide +kernel
example : (match catMain allMem devWorld clearW quiet 1 20 catLogs [.buffer (ascii "b"), .tail (ascii "2147483647")] with
    | .crash => true | _ => false) = true := by decide +kernel

/-- C95: the first of three devices is cleared, the second cannot be, the third is
not tried. -/
example : (match catMain allMem devWorld clearW quiet 1 20 catLogs
      [.clear, .buffer (ascii "b"), .buffer (ascii "f"), .buffer (ascii "c")] with
    | .cleared r evs => some (r, evs.drop 10) | _ => none) =
    some (-1, [.opened (ascii "/dev/ulog_b") (some 15), .closed 15, .opened (ascii "/dev/ulog_f") none,
      .closed 1, .closed 3, .closed 7, .closeOut]) := by decide +kernel

/-- C95: all are cleared; for the copies of kernel messages the wrong file is. -/
example : (match catMain allMem devWorld clearW quiet 1 20 catLogs [.clear, .klog, .buffer (ascii "b")] with
    | .cleared r evs => some (r, evs.drop 7) | _ => none) =
    some (0, [.opened (ascii "/dev/ulog_kmsgd") (some 3), .alloc, .alloc, .alloc, .opened (ascii "/dev/ulog_b") (some 7), .closed 7,
      .opened (ascii "/proc/kmsg") (some 7), .closed 7, .closed 1, .closed 3, .closeOut]) := by decide +kernel

end Verif.Tools.Examples.Cat
