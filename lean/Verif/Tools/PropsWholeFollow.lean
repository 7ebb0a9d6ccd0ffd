import Verif.Tools.PropsLostCat
import Verif.Ulogcat.PropsFollowTail

/-!
# The command `ulogcat` while programs log (C140)

`ulogcat` without `-d`, from the options to the screen, on logs to which programs log while it
runs: the calls of the driver that the programs make come in any order between those of the
command.
-/
namespace Verif.Tools.Whole
open Verif Verif.Kernel Verif.Libulog Verif.Ulogcat

variable {B : Box}

/-- The programs of the machine say things while the logs `ds` are read; `pre` are the calls of the
driver made before the logs were opened, `w` are the devices then, and those to come. -/
abbrev Logging (B : Box) (ds : List RLog) (junk : Nat → UInt8) (pre : Nat → List Op) (w : Nat → DW) (m : Nat → Nat) : Prop :=
  Scene ds.length (fun i => B.prog (nth ds i)) junk (fun i => B.said (nth ds i)) (fun i => (nth ds i).name) (fun i => Nat.log2 (nth ds i).size)
    (fun i => B.buf (nth ds i)) pre w m

theorem chosen_facts (hB : B.Sound) {os : List CatOpt} {ds : List RLog} (hc : Chosen B os ds) :
    0 < ds.length ∧ (∀ i, i < ds.length → 14 ≤ Nat.log2 (nth ds i).size ∧ 2 ^ Nat.log2 (nth ds i).size = (nth ds i).size) ∧
    (∀ i, i < ds.length → (nth ds i).name.length ≤ 89) ∧ ∀ i, i < ds.length → NoNul (nth ds i).name := by
  obtain ⟨_, _, hr⟩ := hB.reached
  have hok := C15_devices hr
  refine ⟨?_, fun i hi => ?_, fun i hi => ?_, fun i hi => devName_noNul (hok.name _ (hc.some _ (nth_mem hi)))⟩
  · cases hd : ds with
    | nil => exact absurd hd (chosen_ne hB hc)
    | cons _ _ => simp
  · obtain ⟨p, h1, _, h2⟩ := hok.size _ (hc.some _ (nth_mem hi))
    rw [h2, Nat.log2_two_pow]
    exact ⟨h1, rfl⟩
  · have := (hok.name _ (hc.some _ (nth_mem hi))).length
    omega

/-- C140. Whatever the programs say, and however their calls of the driver are divided among those
before the command opens the logs and those before each call that it makes, the devices can be as
`Logging` says. -/
theorem C140_scene (hB : B.Sound) {os : List CatOpt} {ds : List RLog} (hc : Chosen B os ds) (junk : Nat → UInt8) :
    ∃ A : Nat → List Op, (∀ i, i < ds.length → sayAll (B.prog (nth ds i)) junk (fun _ => .start) (B.said (nth ds i)) = .ok (A i)) ∧
      ∀ (pre : Nat → List Op) (env : Nat → List (List Op)), (∀ i, i < ds.length → pre i ++ (env i).flatten = A i) →
        ∃ w m, Logging B ds junk pre w m ∧ ∀ i, i < ds.length → (w i).env = env i := by
  obtain ⟨-, hpow, hname, -⟩ := chosen_facts hB hc
  exact C138_scene (D := fun i => pathOf (nth ds i)) (fun i hi p => hB.prog _ (hc.some _ (nth_mem hi)) p)
    (fun i hi => hB.said _ (hc.some _ (nth_mem hi))) junk _ (fun i hi => (hpow i hi).1) hname (fun i hi => hB.count _ (hc.some _ (nth_mem hi)))

/-- C140. On a machine with logs registered by any requests, `ulogcat` with any options but `-k`,
`-c` and `-d` does not end while programs log through libulog, by any interleaving and whatever the
number of turns. It has opened exactly the logs to be shown. With `-t T` and at most `T + 1` logs
it has written nothing until the marks are reached; after that, or without `-t`, it has written, in
the format asked for and with a banner whenever the log changes if there are several, what is in
`v` but for the first `n` entries, none without `-t`; `v` holds, of each log, the lines of the
messages let through from the first on, but for those that were overwritten before they were read
(`Watched`), and all of them if they fit the log. -/
theorem C140_follow (hB : B.Sound) {junk : Nat → UInt8} {mem : Nat → Bool} {os : List CatOpt} (hs : ∀ o ∈ os, ¬ CatStops o)
    (hk : .klog ∉ os) (hd : .dump ∉ os) (hcl : .clear ∉ os) (hm : ∀ i, i < (os.filterMap bufOpt).length → mem i = true)
    {ds : List RLog} (hc : Chosen B os ds) {T : Nat} (hT : tailOf os = T) (hmax : T + ds.length + 1 ≤ 2147483647) (hfew : T = 0 ∨ ds.length ≤ T + 1)
    (ansi : Nat → Bytes) (clock : Int → Bytes) {pre : Nat → List Op} {w : Nat → DW} {m : Nat → Nat} (hl : Logging B ds junk pre w m)
    {ow : OWorld} (hw : Opens B ds m ow) (cw : ClearWorld) (euid : UInt32) (n calls fuel : Nat) {buf0 : Bytes} (hb : buf0.length = 5248)
    {ans : Scr (Nat → DW) → OutEv → List WrAns} (hans : ∀ s e, ∃ n, ans s e = [.took n] ∧ 5248 ≤ n) :
    ∃ w' devs c t v,
      catMain mem ow cw ((fleet ds.length 0 euid (decide (fmtOf os = .csv)) (fun _ => canRender (lookOf os ansi clock)) (n + 1)).onto .file
          (fun i => pathOf (nth ds i)) (fleetEntries ds.length (fun _ => lookOf os ansi clock) fun d => (w' d).os) ans) (calls + 1) fuel
          ⟨w, buf0, []⟩ os = .running devs c t ∧
      devs.map ODev.path = ds.map pathOf ∧ t.st = w' ∧ (0 < T → c.markReached = false → t.bytes = []) ∧
      (T = 0 ∨ c.markReached = true → ∃ n, n ≤ v.length ∧ (T = 0 → n = 0) ∧
        t.bytes = screenOf (fun i => pathOf (nth ds i)) (fun _ bs => bs) (decide (ds.length > 1)) [] (v.drop n)) ∧ (∀ x ∈ v, x.1 < ds.length) ∧
      ∀ i, i < ds.length → ∃ j r, r ≤ j ∧ j ≤ ((B.said (nth ds i)).filter (·.passes (B.prog (nth ds i)))).length ∧
        ((w' i).env = [] → j = ((B.said (nth ds i)).filter (·.passes (B.prog (nth ds i)))).length) ∧
        Watched (B.prog (nth ds i)) (lookOf os ansi clock) (nth ds i).name (nth ds i).size
          (((B.said (nth ds i)).filter (·.passes (B.prog (nth ds i)))).take j) 0 (partOf i v) r ∧
        ((((B.said (nth ds i)).filter (·.passes (B.prog (nth ds i)))).map (·.size (B.prog (nth ds i)))).sum + 8200 ≤ (nth ds i).size →
          partOf i v = (((B.said (nth ds i)).filter (·.passes (B.prog (nth ds i)))).take r).flatMap (·.lines (B.prog (nth ds i)) (lookOf os ansi clock))) := by
  obtain ⟨hN, hpow, hname, hn0⟩ := chosen_facts hB hc
  obtain ⟨devs, evs, hpaths, -, hrun⟩ := whole_opened hB hs hk hcl hm hc hT hmax hw cw
  obtain ⟨c, w', t, v, h1, h2, h3, h4, h5, h6⟩ := C140_goes hN (D := fun i => pathOf (nth ds i)) (fun i hi p => hB.prog _ (hc.some _ (nth_mem hi)) p)
    (fun i hi => hB.said _ (hc.some _ (nth_mem hi))) (fun i hi => (hpow i hi).1) hname hn0 (fun i hi => hB.count _ (hc.some _ (nth_mem hi)))
    (L := fun _ => lookOf os ansi clock) (csv := decide (fmtOf os = .csv)) (fun _ _ => rfl) (fun _ _ => rfl) hl (fun i => pathOf (nth ds i)) hans
    (marks := (List.range ds.length).map m) (by simp) hfew fuel hb euid n
  refine ⟨w', devs, c, t, v, by rw [hrun, decide_eq_false hd, h1], hpaths, h2, h3, h4, h5, fun i hi => ?_⟩
  have := h6 i hi
  rw [(hpow i hi).2] at this
  exact this

/-- C140, all of it: with turns enough the marks are reached and all that the programs say has been
read. The screen shows all of it but the first `n` entries: none without `-t`, and with `-t T` the
last `T` entries at least are shown. -/
theorem C140_all (hB : B.Sound) {junk : Nat → UInt8} {mem : Nat → Bool} {os : List CatOpt} (hs : ∀ o ∈ os, ¬ CatStops o)
    (hk : .klog ∉ os) (hd : .dump ∉ os) (hcl : .clear ∉ os) (hm : ∀ i, i < (os.filterMap bufOpt).length → mem i = true)
    {ds : List RLog} (hc : Chosen B os ds) {T : Nat} (hT : tailOf os = T) (hmax : T + ds.length + 1 ≤ 2147483647) (hfew : T = 0 ∨ ds.length ≤ T + 1)
    (ansi : Nat → Bytes) (clock : Int → Bytes) {pre : Nat → List Op} {w : Nat → DW} {m : Nat → Nat} (hl : Logging B ds junk pre w m)
    {ow : OWorld} (hw : Opens B ds m ow) (cw : ClearWorld) (euid : UInt32) (n calls : Nat) {buf0 : Bytes} (hb : buf0.length = 5248)
    {ans : Scr (Nat → DW) → OutEv → List WrAns} (hans : ∀ s e, ∃ n, ans s e = [.took n] ∧ 5248 ≤ n) :
    ∃ need, ∀ fuel, need ≤ fuel → ∃ w' devs c t v k,
      catMain mem ow cw ((fleet ds.length 0 euid (decide (fmtOf os = .csv)) (fun _ => canRender (lookOf os ansi clock)) (n + 1)).onto .file
          (fun i => pathOf (nth ds i)) (fleetEntries ds.length (fun _ => lookOf os ansi clock) fun d => (w' d).os) ans) (calls + 1) fuel
          ⟨w, buf0, []⟩ os = .running devs c t ∧
      devs.map ODev.path = ds.map pathOf ∧ t.st = w' ∧ c.markReached = true ∧ k ≤ v.length - T ∧ (T = 0 → k = 0) ∧
      t.bytes = screenOf (fun i => pathOf (nth ds i)) (fun _ bs => bs) (decide (ds.length > 1)) [] (v.drop k) ∧ (∀ x ∈ v, x.1 < ds.length) ∧
      ∀ i, i < ds.length → (w' i).env = [] ∧
        Watched (B.prog (nth ds i)) (lookOf os ansi clock) (nth ds i).name (nth ds i).size
          ((B.said (nth ds i)).filter (·.passes (B.prog (nth ds i)))) 0 (partOf i v) ((B.said (nth ds i)).filter (·.passes (B.prog (nth ds i)))).length ∧
        ((((B.said (nth ds i)).filter (·.passes (B.prog (nth ds i)))).map (·.size (B.prog (nth ds i)))).sum + 8200 ≤ (nth ds i).size →
          partOf i v = ((B.said (nth ds i)).filter (·.passes (B.prog (nth ds i)))).flatMap (·.lines (B.prog (nth ds i)) (lookOf os ansi clock))) := by
  obtain ⟨hN, hpow, hname, hn0⟩ := chosen_facts hB hc
  obtain ⟨devs, evs, hpaths, -, hrun⟩ := whole_opened hB hs hk hcl hm hc hT hmax hw cw
  obtain ⟨need, h⟩ := C140_caught hN (D := fun i => pathOf (nth ds i)) (fun i hi p => hB.prog _ (hc.some _ (nth_mem hi)) p)
    (fun i hi => hB.said _ (hc.some _ (nth_mem hi))) (fun i hi => (hpow i hi).1) hname hn0 (fun i hi => hB.count _ (hc.some _ (nth_mem hi)))
    (L := fun _ => lookOf os ansi clock) (csv := decide (fmtOf os = .csv)) (fun _ _ => rfl) (fun _ _ => rfl) hl (fun i => pathOf (nth ds i)) hans
    (marks := (List.range ds.length).map m) (by simp) hfew hb euid n
  refine ⟨need, fun fuel hf => ?_⟩
  obtain ⟨c, w', t, v, k, h1, h2, h3, h4, h5, h6, h7, h8⟩ := h fuel hf
  refine ⟨w', devs, c, t, v, k, by rw [hrun, decide_eq_false hd, h1], hpaths, h2, h3, h4, h5, h6, h7, fun i hi => ?_⟩
  have := h8 i hi
  rw [(hpow i hi).2] at this
  exact this

/-- C140, dumping: `ulogcat -d` with any other options but `-k` and `-c`, while programs log, ends
with 0 if it has turns enough, with all descriptors closed. It shows at least all that was said
before the logs were opened (`said0`), or the last `T` entries with `-t T`. -/
theorem C140_dump (hB : B.Sound) {junk : Nat → UInt8} {mem : Nat → Bool} {os : List CatOpt} (hs : ∀ o ∈ os, ¬ CatStops o)
    (hk : .klog ∉ os) (hd : .dump ∈ os) (hcl : .clear ∉ os) (hm : ∀ i, i < (os.filterMap bufOpt).length → mem i = true)
    {ds : List RLog} (hc : Chosen B os ds) {T : Nat} (hT : tailOf os = T) (hmax : T + ds.length + 1 ≤ 2147483647)
    (ansi : Nat → Bytes) (clock : Int → Bytes) {pre : Nat → List Op} {w : Nat → DW} {m : Nat → Nat} (hl : Logging B ds junk pre w m)
    {said0 : Nat → List Said} (hpre : ∀ i, i < ds.length → sayAll (B.prog (nth ds i)) junk (fun _ => .start) (said0 i) = .ok (pre i))
    {ow : OWorld} (hw : Opens B ds m ow) (cw : ClearWorld) (euid : UInt32) (n calls : Nat) {buf0 : Bytes} (hb : buf0.length = 5248)
    {ans : Scr (Nat → DW) → OutEv → List WrAns} (hans : ∀ s e, ∃ n, ans s e = [.took n] ∧ 5248 ≤ n) :
    ∃ need, ∀ fuel, need ≤ fuel → ∃ w' devs c t v evs,
      catMain mem ow cw ((fleet ds.length 0 euid (decide (fmtOf os = .csv)) (fun _ => canRender (lookOf os ansi clock)) (n + 1)).onto .file
          (fun i => pathOf (nth ds i)) (fleetEntries ds.length (fun _ => lookOf os ansi clock) fun d => (w' d).os) ans) (calls + 1) fuel
          ⟨w, buf0, []⟩ os = .ended 0 devs c t evs ∧
      devs.map ODev.path = ds.map pathOf ∧ held evs = some [] ∧ t.st = w' ∧
      t.bytes = screenOf (fun i => pathOf (nth ds i)) (fun _ bs => bs) (decide (ds.length > 1)) [] (Ulogcat.lastOf T v) ∧ (∀ x ∈ v, x.1 < ds.length) ∧
      ∀ i, i < ds.length → ∃ j r, ((said0 i).filter (·.passes (B.prog (nth ds i)))).length ≤ r ∧ r ≤ j ∧
        j ≤ ((B.said (nth ds i)).filter (·.passes (B.prog (nth ds i)))).length ∧
        Watched (B.prog (nth ds i)) (lookOf os ansi clock) (nth ds i).name (nth ds i).size
          (((B.said (nth ds i)).filter (·.passes (B.prog (nth ds i)))).take j) 0 (partOf i v) r ∧
        ((((B.said (nth ds i)).filter (·.passes (B.prog (nth ds i)))).map (·.size (B.prog (nth ds i)))).sum + 8200 ≤ (nth ds i).size →
          partOf i v = (((B.said (nth ds i)).filter (·.passes (B.prog (nth ds i)))).take r).flatMap (·.lines (B.prog (nth ds i)) (lookOf os ansi clock))) := by
  obtain ⟨hN, hpow, hname, hn0⟩ := chosen_facts hB hc
  obtain ⟨devs, evs, hpaths, hheld, hrun⟩ := whole_opened hB hs hk hcl hm hc hT hmax hw cw
  obtain ⟨need, h⟩ := C140_dumped hN (D := fun i => pathOf (nth ds i)) (fun i hi p => hB.prog _ (hc.some _ (nth_mem hi)) p)
    (fun i hi => hB.said _ (hc.some _ (nth_mem hi))) (fun i hi => (hpow i hi).1) hname hn0 (fun i hi => hB.count _ (hc.some _ (nth_mem hi)))
    (L := fun _ => lookOf os ansi clock) (csv := decide (fmtOf os = .csv)) (fun _ _ => rfl) (fun _ _ => rfl) hl hpre (fun i => pathOf (nth ds i)) hans
    T hb euid n
  refine ⟨need, fun fuel hf => ?_⟩
  obtain ⟨c, w', t, v, h1, h2, h3, h4, h5⟩ := h fuel hf
  refine ⟨w', devs, c, t, v, evs, by rw [hrun, decide_eq_true hd, h1], hpaths, hheld, h2, h3, h4, fun i hi => ?_⟩
  have := h5 i hi
  rw [(hpow i hi).2] at this
  exact this

end Verif.Tools.Whole
