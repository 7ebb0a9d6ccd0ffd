import Verif.Ulogcat.PropsLost
import Verif.Tools.PropsWhole

/-!
# The output of the command ulogcat -d, with losses (C135)

C133 without room for everything.
-/
namespace Verif.Tools.Whole
open Verif Verif.Kernel Verif.Libulog Verif.Ulogcat

variable {B : Box}

theorem devName_noNul {n : Bytes} (h : DevName n) : NoNul n := by
  obtain ⟨l, rfl, hs, _⟩ := h
  have h5 : ∀ b ∈ ascii "ulog_", b ≠ 0 := by decide +kernel
  intro b hb
  rcases List.mem_append.1 hb with hb | hb
  · exact h5 b hb
  · have h := hs b hb
    unfold SmallLetter at h
    rintro rfl
    revert h
    decide

/-- C135. On a machine with logs registered by any requests, to which any processes have
logged through libulog, however much, `ulogcat -d` with any other options but `-k` and
`-c` ends with 0. It has opened exactly the logs to be shown and closed them, and what it
has written are the lines, in the format asked for, of the messages let through that the
logs still hold (`C135_held`), before those of each log one with the number of those
dropped, if any; all by turns (`C135_order`), or the last `T` with `-t T`, with a banner
before the first of each log if there are several. -/
theorem C135_command (hB : B.Sound) (junk : Nat → UInt8) {mem : Nat → Bool} {os : List CatOpt} (hs : ∀ o ∈ os, ¬ CatStops o)
    (hk : .klog ∉ os) (hd : .dump ∈ os) (hcl : .clear ∉ os) (hm : ∀ i, i < (os.filterMap bufOpt).length → mem i = true)
    {ds : List RLog} (hc : Chosen B os ds) {T : Nat} (hT : tailOf os = T) (hmax : T + ds.length + 1 ≤ 2147483647)
    (ansi : Nat → Bytes) (clock : Int → Bytes)
    (hlong : fmtOf os = .csv → ∀ d ∈ ds, ∀ r ∈ rows (B.prog d) d.size ((B.said d).filter (·.passes (B.prog d))),
      r.text (B.prog d) (lookOf os ansi clock) d.name ≠ []) :
    ∃ (ops : Nat → List Op) (sys : Nat → Sys) (tr : Nat → List (Op × Out)) (mark : Nat → Nat), (∀ i, i < ds.length →
        sayAll (B.prog (nth ds i)) junk (fun _ => .start) (B.said (nth ds i)) = .ok (ops i) ∧
        Kernel.run (Kernel.init (nth ds i).name (Nat.log2 (nth ds i).size) (B.buf (nth ds i))) (ops i ++ [.openF 0 true false true, .getLogLen 0]) =
          .ok (sys i, tr i ++ [(.getLogLen 0, .ret (mark i))])) ∧
      ∀ {w : OWorld}, Opens B ds mark w → ∀ (cw : ClearWorld), ∃ need, ∀ (euid : UInt32) (n calls fuel : Nat), need ≤ fuel →
        ∀ {buf0 : Bytes}, buf0.length = 5248 → ∀ {ans : Scr (Nat → DW) → OutEv → List WrAns}, (∀ s e, ∃ n, ans s e = [.took n] ∧ 5248 ≤ n) →
        ∃ all devs c t evs v,
          catMain mem w cw ((fleet ds.length 0 euid (decide (fmtOf os = .csv)) (fun _ => canRender (lookOf os ansi clock)) (n + 1)).onto .file
              (fun i => pathOf (nth ds i)) (fleetEntries ds.length (fun _ => lookOf os ansi clock) all) ans) (calls + 1) fuel
              ⟨fun i => opened (sys i) (tr i) (mark i), buf0, []⟩ os = .ended 0 devs c t evs ∧
          devs.map ODev.path = ds.map pathOf ∧ held evs = some [] ∧ (∀ i, all i = (t.st i).os) ∧
          ByTurns (·.1) Row.time ds.length (toRow ds.length (fun i => B.prog (nth ds i)) (fun i => (nth ds i).size) fun i => B.said (nth ds i)) v ∧
          t.bytes = screenOf (fun i => pathOf (nth ds i)) (fun i r => r.text (B.prog (nth ds i)) (lookOf os ansi clock) (nth ds i).name)
            (decide (ds.length > 1)) [] (Ulogcat.lastOf T v) := by
  obtain ⟨_, _, hr⟩ := hB.reached
  have hok := C15_devices hr
  have hN : 0 < ds.length := by
    cases hd : ds with
    | nil => exact absurd hd (chosen_ne hB hc)
    | cons _ _ => simp
  have hpow : ∀ d ∈ ds, 14 ≤ Nat.log2 d.size ∧ 2 ^ Nat.log2 d.size = d.size := by
    intro d hd
    obtain ⟨p, h1, _, h2⟩ := hok.size d (hc.some d hd)
    rw [h2, Nat.log2_two_pow]
    exact ⟨h1, rfl⟩
  obtain ⟨ops, sys, tr, m, g1, g2⟩ := C135_programs hN (D := fun i => pathOf (nth ds i)) (P := fun i => B.prog (nth ds i))
    (fun i hi p => hB.prog _ (hc.some _ (nth_mem hi)) p) (ms := fun i => B.said (nth ds i))
    (fun i hi => hB.said _ (hc.some _ (nth_mem hi))) junk (name := fun i => (nth ds i).name) (k := fun i => Nat.log2 (nth ds i).size)
    (fun i => B.buf (nth ds i)) (fun i hi => (hpow _ (nth_mem hi)).1)
    (fun i hi => by have := (hok.name _ (hc.some _ (nth_mem hi))).length; omega)
    (fun i hi => devName_noNul (hok.name _ (hc.some _ (nth_mem hi))))
    (fun i hi => hB.count _ (hc.some _ (nth_mem hi)))
    (L := fun _ => lookOf os ansi clock) (csv := decide (fmtOf os = .csv)) (fun _ _ => rfl) (fun _ _ => rfl)
    (fun h i hi => by rw [(hpow _ (nth_mem hi)).2]; exact hlong (by simpa using h) _ (nth_mem hi))
  refine ⟨ops, sys, tr, m, g1, fun {w} hw cw => ?_⟩
  obtain ⟨need, g3⟩ := whole_dump hB hs hk hd hcl hm hc hT hmax (g2 T _) hw cw
  refine ⟨need, fun euid n calls fuel hf buf0 hb ans ha => ?_⟩
  obtain ⟨all, devs, c, t, evs, e1, e2, e3, e4, v, e5, e6⟩ := g3 euid n calls fuel hf hb ha
  refine ⟨all, devs, c, t, evs, v, e1, e2, e3, e4, ?_, e6⟩
  have hsz : toRow ds.length (fun i => B.prog (nth ds i)) (fun i => (nth ds i).size) (fun i => B.said (nth ds i)) =
      toRow ds.length (fun i => B.prog (nth ds i)) (fun i => 2 ^ Nat.log2 (nth ds i).size) fun i => B.said (nth ds i) := by
    funext i
    unfold toRow
    split
    · rename_i hi
      dsimp only
      rw [(hpow _ (nth_mem hi)).2]
    · rfl
  rw [hsz]
  exact e5

end Verif.Tools.Whole
