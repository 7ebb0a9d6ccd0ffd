import Verif.Ulogcat.PropsFollow

/-! # Concrete runs of the reading loop -/

namespace Verif.Ulogcat.Examples

/-- Device 0 has entries at 10, 30 and 30, device 1 at 10 and 20 with binary ones between, device 2 none. -/
def threeLogs : Logs := fun i =>
  if i = 0 then [.text 10 1, .text 30 2, .text 30 3]
  else if i = 1 then [.bin, .text 10 4, .bin, .text 20 5]
  else []

/-- The hypotheses of C36 and C37 hold. -/
example : (∀ i, [90, 80, 0][i]? = some 0 → threeLogs i = []) ∧ (∀ i, [90, 80, 0].length ≤ i → threeLogs i = []) ∧ SortedLogs threeLogs := by
  refine ⟨?_, ?_, ?_⟩
  · intro i hi
    match i, hi with
    | 2, _ => rfl
    | 0, h => cases h
    | 1, h => cases h
  · intro i hi
    simp only [List.length_cons, List.length_nil] at hi
    unfold threeLogs
    rw [if_neg (by omega), if_neg (by omega)]
  · intro d
    unfold threeLogs
    split
    · simp [texts]
    · split <;> simp [texts]

def outOf {σ : Type} (r : Except CFault (Ctx × σ × Option Int)) : Option (List OutEv × Option Int) :=
  r.toOption.map fun x => (x.1.out, x.2.2)

example : outOf (processLogs quiet true 0 20 (openCtx [90, 80, 0] 0) threeLogs 0) =
    some ([.banner 0 10, .entry ⟨0, 10, 1, true⟩, .banner 1 10, .entry ⟨1, 10, 4, true⟩, .entry ⟨1, 20, 5, true⟩,
      .entry ⟨0, 30, 2, true⟩, .entry ⟨0, 30, 3, true⟩], some 0) := by decide +kernel

example : outOf (processLogs quiet true 0 20 (openCtx [90, 80, 0] 2) threeLogs 0) =
    some ([.banner 0 30, .entry ⟨0, 30, 2, true⟩, .entry ⟨0, 30, 3, true⟩], some 0) := by decide +kernel

example : outOf (processLogs quiet true 0 20 (openCtx [90, 80, 0] 9) threeLogs 0) =
    outOf (processLogs quiet true 0 20 (openCtx [90, 80, 0] 0) threeLogs 0) := by decide +kernel

/-- C130: the clock goes back on both devices, and there are equal times. Device 0 has 10, 3 and 20, device 1 has 10, 10 and 5. -/
def backLogs : Logs := fun i =>
  if i = 0 then [.text 10 1, .text 3 2, .text 20 3]
  else if i = 1 then [.text 10 4, .bin, .text 10 5, .text 5 6]
  else []

/-- 10 of device 0 goes first as it stands in front; then 3, which was behind it; then those of device 1. -/
example : outOf (processLogs quiet true 0 20 (openCtx [90, 80] 0) backLogs 0) =
    some ([.banner 0 10, .entry ⟨0, 10, 1, true⟩, .entry ⟨0, 3, 2, true⟩, .banner 1 10, .entry ⟨1, 10, 4, true⟩, .entry ⟨1, 10, 5, true⟩,
      .entry ⟨1, 5, 6, true⟩, .entry ⟨0, 20, 3, true⟩], some 0) := by decide +kernel

/-- The same with a tail (C37_last). -/
example : outOf (processLogs quiet true 0 20 (openCtx [90, 80] 2) backLogs 0) =
    some ([.banner 1 5, .entry ⟨1, 5, 6, true⟩, .banner 0 20, .entry ⟨0, 20, 3, true⟩], some 0) := by decide +kernel

/-- Equal times are printed one of each device in turn. -/
example : outOf (processLogs quiet true 0 20 (openCtx [90, 80] 0)
    (fun i => if i < 2 then [.text 7 (10 * i), .text 7 (10 * i + 1)] else []) 0) =
    some ([.banner 0 7, .entry ⟨0, 7, 0, true⟩, .banner 1 7, .entry ⟨1, 7, 10, true⟩, .entry ⟨0, 7, 1, true⟩, .entry ⟨1, 7, 11, true⟩], some 0) := by
  decide +kernel

/-- The hypotheses of `C130_dump`, `C130_order` and `C37_last`. -/
example : (∀ i, [90, 80][i]? = some 0 → backLogs i = []) ∧ (∀ i, [90, 80].length ≤ i → backLogs i = []) ∧ ¬ SortedLogs backLogs := by
  refine ⟨?_, ?_, ?_⟩
  · intro i hi
    match i, hi with
    | 0, h => cases h
    | 1, h => cases h
  · intro i hi
    simp only [List.length_cons, List.length_nil] at hi
    unfold backLogs
    rw [if_neg (by omega), if_neg (by omega)]
  · intro h
    have := h 0
    revert this
    decide

/-- Output that fails after two events. -/
def shortPipe : World (Logs × Nat) where
  poll s a := ((quiet.poll s.1 a).1, s)
  recv s i := ((quiet.recv s.1 i).1, (quiet.recv s.1 i).2, s.2)
  output s _ := (decide (s.2 < 2), s.1, s.2 + 1)

/-- C35 and C59 with failing output: the call ends with -1. -/
example : outOf (processLogs shortPipe true 0 20 (openCtx [90, 80, 0] 0) (threeLogs, 0) 0) =
    some ([.banner 0 10, .entry ⟨0, 10, 1, true⟩], some (-1)) := by decide +kernel

/-- C59: what was received, from two calls one after the other. -/
example : (calls quiet.logged false [(20, 2), (1, 1)] (openCtx [90, 80, 0] 0) (threeLogs, [])).toOption.map
    (fun x => (x.2.2, x.1.pendQ, x.1.out.length)) =
    some ([⟨0, 10, 1, true⟩, ⟨1, 10, 4, true⟩, ⟨0, 30, 2, true⟩], [⟨0, 30, 2, true⟩], 4) := by decide +kernel

/-- A world as C60 wants it. -/
example : Smooth busy fun i => i == 0 := ⟨fun s _ _ => ⟨s, s, 0, rfl⟩, fun _ _ => rfl⟩

example : Inv 0 1 (openCtx [5] 0) ∧ (openCtx [5] 0).asked 0 = true := ⟨openCtx_inv [5] 0, rfl⟩

/-- C38_stops: nothing pending after the entries have been read, nothing readable. -/
example : (calls quiet true [(8, 0)] (openCtx [90, 80, 0] 0) threeLogs).toOption.map
    (fun x => (x.1.pendQ, x.2 0, x.2 1, x.1.markReached)) = some ([], [], [], true) := by decide +kernel

/-- C38_end: a dump of two devices that hold entries and one that does not ends, and
all three were found not readable. -/
example : (processLogs quiet.watched true 0 20 (openCtx [90, 80, 0] 0) (threeLogs, fun _ => false) 0).toOption.map
    (fun x => (x.2.2, x.2.1.2 0, x.2.1.2 1)) = some (some 0, true, true) := by decide +kernel

/-- C60_skip: the second device of `flood` is asked, readable and has nothing to show. -/
example : Inv 0 2 (openCtx [5, 5] 0) ∧ (openCtx [5, 5] 0).asked 1 = true ∧
    (flood.poll true (openCtx [5, 5] 0).asked).2 = true ∧ ∀ s, (flood.recv s 1).1 = .again :=
  ⟨openCtx_inv [5, 5] 0, rfl, rfl, fun _ => rfl⟩

/-- C61_result: the entry read in a turn that a binary entry ends early is not counted
against the limit. -/
example : (processLogs quiet.counted false 1 5 (openCtx [90, 80, 0] 0) (threeLogs, 0) 0).toOption.map
    (fun x => (x.2.2, x.2.1.2)) = some (some 1, 2) := by decide +kernel

end Verif.Ulogcat.Examples
