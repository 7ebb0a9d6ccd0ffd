import Verif.Ulogcat.PropsCatchUp
import Verif.Ulogcat.PropsTailScreen

/-!
# Following while programs log, with or without a tail (C140)

`ulogcat3_process_logs` called to follow, with no end, while programs say things: it does not
end, and with turns enough it has read all and reached the marks.
-/
namespace Verif.Ulogcat
open Verif Verif.Kernel Verif.Libulog

variable {N : Nat} {D : Nat → Bytes} {P : Nat → Nat → Prog} {ms : Nat → List Said} {junk : Nat → UInt8} {name : Nat → Bytes} {k : Nat → Nat}
  {buf : Nat → Nat → UInt8} {pre : Nat → List Op} {w : Nat → DW} {m : Nat → Nat}

/-- All that is received can be shown. -/
theorem Scene.can (hN : 0 < N) (hP : ∀ i, i < N → ∀ p, (P i p).Plain (D i)) (hms : ∀ i, i < N → ∀ m ∈ ms i, m.Plain (P i))
    (hk : ∀ i, i < N → 14 ≤ k i) (hname : ∀ i, i < N → (name i).length ≤ 89) (hn0 : ∀ i, i < N → NoNul (name i))
    (hcount : ∀ i, i < N → (ms i).length < 2147483648) {L : Nat → Look} {csv : Bool} (hcsv : ∀ i, i < N → csv = decide ((L i).fmt = .csv))
    (hkd : ∀ i, i < N → (L i).kmsgd = false) (hs : Scene N P junk ms name k buf pre w m) {marks : List Nat} {l : List (Nat × Int)} {euid : UInt32}
    {n : Nat} {c0 : Ctx} {w' : Nat → DW}
    (hc : calls (fleet N 0 euid csv (fun d => canRender (L d)) n) false l (openCtx marks 0) w = .ok (c0, w')) (i : Nat) :
    CanShow (fleetEntries N L (fun d => (w' d).os) i) := by
  obtain ⟨⟨ops, hrun⟩, hnf, hat, _⟩ := hs.facts hP hms hk hname hn0 hcount hkd hc
  have hd := Nat.mod_lt i hN
  obtain ⟨⟨q, _, _, hfo⟩, _⟩ := C90_printed (fid := 0) (C136_fleet N 0 euid csv (fun d => canRender (L d)) n hd) hc (hs.fresh _ hd) (hrun _ hd) (hat _ hd) (hnf _ hd)
  exact entriesBy_can (fun h => by rw [hkd _ hd] at h; cases h) (hcsv _ hd) hfo.received _

/-- All that a dump receives can be shown. -/
theorem Scene.canDump (hN : 0 < N) (hP : ∀ i, i < N → ∀ p, (P i p).Plain (D i)) (hms : ∀ i, i < N → ∀ m ∈ ms i, m.Plain (P i))
    (hk : ∀ i, i < N → 14 ≤ k i) (hname : ∀ i, i < N → (name i).length ≤ 89) (hn0 : ∀ i, i < N → NoNul (name i))
    (hcount : ∀ i, i < N → (ms i).length < 2147483648) {L : Nat → Look} {csv : Bool} (hcsv : ∀ i, i < N → csv = decide ((L i).fmt = .csv))
    (hkd : ∀ i, i < N → (L i).kmsgd = false) (hs : Scene N P junk ms name k buf pre w m) {ms0 : Nat → List Said}
    (hpre : ∀ i, i < N → sayAll (P i) junk (fun _ => .start) (ms0 i) = .ok (pre i)) {fuel : Nat} {euid : UInt32} {n : Nat} {c0 : Ctx} {w' : Nat → DW}
    (hc : processLogs (fleet N 0 euid csv (fun d => canRender (L d)) n) true 0 fuel (openCtx ((List.range N).map m) 0) w 0 = .ok (c0, w', some 0))
    (i : Nat) : CanShow (fleetEntries N L (fun d => (w' d).os) i) := by
  obtain ⟨ops, t0, hrun, ht0, hat, hnf, _⟩ := hs.dumpFacts hP hms hk hname hn0 hcount hkd hpre hc
  have hd := Nat.mod_lt i hN
  obtain ⟨⟨q, _, _, hfo⟩, _⟩ := C91_dump (fid := 0) (C136_fleet N 0 euid csv (fun d => canRender (L d)) n hd) (Int.le_refl 0) hc (hs.fresh _ hd) (hrun _ hd)
    (m := m (i % N)) (by simp [hd]) (ht0 _ hd) nofun (hat _ hd) (hnf _ hd)
  exact entriesBy_can (fun h => by rw [hkd _ hd] at h; cases h) (hcsv _ hd) hfo.received _

/-- What is on the screen of a viewer with or without a tail after any calls. -/
theorem Scene.views (hN : 0 < N) (hP : ∀ i, i < N → ∀ p, (P i p).Plain (D i)) (hms : ∀ i, i < N → ∀ m ∈ ms i, m.Plain (P i))
    (hk : ∀ i, i < N → 14 ≤ k i) (hname : ∀ i, i < N → (name i).length ≤ 89) (hn0 : ∀ i, i < N → NoNul (name i))
    (hcount : ∀ i, i < N → (ms i).length < 2147483648) {L : Nat → Look} {csv : Bool} (hcsv : ∀ i, i < N → csv = decide ((L i).fmt = .csv))
    (hkd : ∀ i, i < N → (L i).kmsgd = false) (hs : Scene N P junk ms name k buf pre w m) (paths : Nat → Bytes)
    {ans : Scr (Nat → DW) → OutEv → List WrAns} (hans : ∀ s e, ∃ n, ans s e = [.took n] ∧ 5248 ≤ n) {marks : List Nat} (hlen : marks.length = N)
    {T : Nat} (hT : T = 0 ∨ N ≤ T + 1) {l : List (Nat × Int)} {buf0 : Bytes} (hb : buf0.length = 5248) {euid : UInt32} {n : Nat} {c0 : Ctx} {w' : Nat → DW}
    (hc : calls (fleet N 0 euid csv (fun d => canRender (L d)) n) false l (openCtx marks 0) w = .ok (c0, w')) :
    ∃ c t v, calls ((fleet N 0 euid csv (fun d => canRender (L d)) n).onto .file paths (fleetEntries N L fun d => (w' d).os) ans) false l
          (openCtx marks T) ⟨w, buf0, []⟩ = .ok (c, t) ∧ t.st = w' ∧
      (0 < T → c0.markReached = false → t.bytes = []) ∧
      (T = 0 ∨ c0.markReached = true → ∃ n, n ≤ v.length ∧ (T = 0 → n = 0) ∧ n ≤ v.length + c0.pendQ.length - T ∧
        t.bytes = screenOf paths (fun _ bs => bs) (decide (N > 1)) [] (v.drop n)) ∧ (∀ x ∈ v, x.1 < N) ∧
      ∀ d, d < N → ∃ j r q, r ≤ q ∧ q ≤ j ∧
        j ≤ ((ms d).filter (·.passes (P d))).length ∧ ((w' d).env = [] → j = ((ms d).filter (·.passes (P d))).length) ∧
        Watched (P d) (L d) (name d) (2 ^ k d) (((ms d).filter (·.passes (P d))).take j) 0 (partOf d v) r ∧
        At (name d) (w' d).tr 0 q ∧ (obs (name d) (w' d).tr).hist.length = j ∧ (c0.pendQ = [] → r = q) := by
  by_cases h0 : T = 0
  · subst h0
    obtain ⟨t, h1, h2, v, h3, h4, h5⟩ := hs.shows hN hP hms hk hname hn0 hcount hcsv hkd paths hans hlen hb hc
    exact ⟨c0, t, v, h1, h2, fun h => absurd h (Nat.lt_irrefl 0), fun _ => ⟨0, Nat.zero_le _, fun _ => rfl, Nat.zero_le _, h3⟩, h4, fun d hd => (h5 d hd).2⟩
  · obtain ⟨⟨ops, hrun⟩, hnf, hat, hmess⟩ := hs.facts hP hms hk hname hn0 hcount hkd hc
    obtain ⟨c, t, t0, v, h1, h2, h3, h4, h5, h6, h7, h8, h9⟩ := C139_screen hN (fid := fun _ => 0) (fun d hd => C136_fleet N 0 euid csv _ n hd) hcsv
      (fun d hd h => by rw [hkd d hd] at h; cases h) (fun _ _ => rfl) (paths := paths) hans hlen (T := T) (by omega) (by omega) hc hs.fresh hb hrun
      (p := fun _ => 0) hat hnf
    refine ⟨c, t, v, h1, h3, fun _ => h6, fun h => ?_, h8, fun d hd => ?_⟩
    · obtain ⟨i, e1, e2, e3⟩ := h7 (h.resolve_left h0)
      exact ⟨i, e1, fun h => absurd h h0, e2, e3⟩
    · obtain ⟨r, q, rest, e1, e2, e3, _, e4, e5⟩ := h9 d hd
      obtain ⟨j, g1, g2, g3, g4, g5, g6⟩ := hmess d hd e1 e2 e3
      exact ⟨j, r, q, g1, g2, g3, g4, g5, e4, g6, e5⟩

/-- A call on a stream ends as without the stream. -/
theorem ends_on {σ : Type} {W : World σ} (hW : Silent W) {paths : Nat → Bytes} {what : Nat → Shown} {ans : Scr σ → OutEv → List WrAns}
    (hcan : ∀ i, CanShow (what i)) (hans : ∀ s e, ∃ n, ans s e = [.took n] ∧ 5248 ≤ n) {dump : Bool} {x : Ctx}
    {fuel : Nat} {s s' : σ} {c0 : Ctx} {r : Option Int} (h : processLogs W dump 0 fuel x s 0 = .ok (c0, s', r)) {buf0 : Bytes}
    (hb : buf0.length = 5248) {c : Ctx} {t : Scr σ} (hc : calls (W.onto .file paths what ans) dump [(fuel, 0)] x ⟨s, buf0, []⟩ = .ok (c, t)) :
    processLogs (W.onto .file paths what ans) dump 0 fuel x ⟨s, buf0, []⟩ 0 = .ok (c, t, r) ∧ c = c0 := by
  have hsim := (onto_sim (W := W) hcan (takes_all (paths := paths) hcan hans) (fun s e => by rw [hW s e])).logs dump 0 fuel x 0
    (s := s) (t := ⟨s, buf0, []⟩) ⟨rfl, hb⟩
  rw [h] at hsim
  unfold calls at hc
  cases hx : processLogs (W.onto .file paths what ans) dump 0 fuel x ⟨s, buf0, []⟩ 0 with
  | error e => rw [hx] at hsim; exact hsim.elim
  | ok y =>
    obtain ⟨c', t', r'⟩ := y
    rw [hx] at hsim hc
    obtain ⟨f1, _, f3⟩ := hsim
    dsimp only at f1 f3
    simp only [calls, Except.bind, Except.ok.injEq, Prod.mk.injEq] at hc
    obtain ⟨rfl, rfl⟩ := hc
    exact ⟨by rw [f3], f1.symm⟩

/-- A call to follow with a tail ends as without. -/
theorem follows_on {σ : Type} {W : World σ} (hW : Silent W) {paths : Nat → Bytes} {what : Nat → Shown} {ans : Scr σ → OutEv → List WrAns}
    (hcan : ∀ i, CanShow (what i)) (hans : ∀ s e, ∃ n, ans s e = [.took n] ∧ 5248 ≤ n) {marks : List Nat} {T : Nat} (hT : T = 0 ∨ marks.length ≤ T + 1)
    {fuel : Nat} {s s' : σ} {c0 : Ctx} {r : Option Int} (h : processLogs W false 0 fuel (openCtx marks 0) s 0 = .ok (c0, s', r)) {buf0 : Bytes}
    (hb : buf0.length = 5248) {c : Ctx} {t : Scr σ}
    (hc : calls (W.onto .file paths what ans) false [(fuel, 0)] (openCtx marks T) ⟨s, buf0, []⟩ = .ok (c, t)) :
    processLogs (W.onto .file paths what ans) false 0 fuel (openCtx marks T) ⟨s, buf0, []⟩ 0 = .ok (c, t, r) ∧ c.markReached = c0.markReached := by
  have key : ∃ c1, processLogs W false 0 fuel (openCtx marks T) s 0 = .ok (c1, s', r) ∧ c1.markReached = c0.markReached := by
    by_cases h0 : T = 0
    · subst h0; exact ⟨c0, h, rfl⟩
    · obtain ⟨c1, c2, s1, r', w', e1, e2, _, e4⟩ := (open_waiting marks T).logs hW (by omega) (by omega) 0 fuel s 0
      rw [h] at e2
      simp only [Except.ok.injEq, Prod.mk.injEq] at e2
      obtain ⟨rfl, rfl, rfl⟩ := e2
      refine ⟨c1, e1, ?_⟩
      rcases e4 with h | ⟨_, h⟩
      · exact h.both.mark
      · exact h.both.mark
  obtain ⟨c1, e1, e2⟩ := key
  obtain ⟨f1, rfl⟩ := ends_on hW hcan hans e1 hb hc
  exact ⟨f1, e2⟩

/-- C140, the call: a call to follow while programs log does not end, whatever the number of
turns, and the screen is as in C138 and C139. -/
theorem C140_goes (hN : 0 < N) (hP : ∀ i, i < N → ∀ p, (P i p).Plain (D i)) (hms : ∀ i, i < N → ∀ m ∈ ms i, m.Plain (P i))
    (hk : ∀ i, i < N → 14 ≤ k i) (hname : ∀ i, i < N → (name i).length ≤ 89) (hn0 : ∀ i, i < N → NoNul (name i))
    (hcount : ∀ i, i < N → (ms i).length < 2147483648) {L : Nat → Look} {csv : Bool} (hcsv : ∀ i, i < N → csv = decide ((L i).fmt = .csv))
    (hkd : ∀ i, i < N → (L i).kmsgd = false) (hs : Scene N P junk ms name k buf pre w m) (paths : Nat → Bytes)
    {ans : Scr (Nat → DW) → OutEv → List WrAns} (hans : ∀ s e, ∃ n, ans s e = [.took n] ∧ 5248 ≤ n) {marks : List Nat} (hlen : marks.length = N)
    {T : Nat} (hT : T = 0 ∨ N ≤ T + 1) (fuel : Nat) {buf0 : Bytes} (hb : buf0.length = 5248) (euid : UInt32) (n : Nat) :
    ∃ c w' t v, processLogs ((fleet N 0 euid csv (fun d => canRender (L d)) (n + 1)).onto .file paths (fleetEntries N L fun d => (w' d).os) ans)
          false 0 fuel (openCtx marks T) ⟨w, buf0, []⟩ 0 = .ok (c, t, none) ∧ t.st = w' ∧
      (0 < T → c.markReached = false → t.bytes = []) ∧
      (T = 0 ∨ c.markReached = true → ∃ n, n ≤ v.length ∧ (T = 0 → n = 0) ∧
        t.bytes = screenOf paths (fun _ bs => bs) (decide (N > 1)) [] (v.drop n)) ∧ (∀ x ∈ v, x.1 < N) ∧
      ∀ d, d < N → ∃ j r, r ≤ j ∧ j ≤ ((ms d).filter (·.passes (P d))).length ∧
        ((w' d).env = [] → j = ((ms d).filter (·.passes (P d))).length) ∧
        Watched (P d) (L d) (name d) (2 ^ k d) (((ms d).filter (·.passes (P d))).take j) 0 (partOf d v) r ∧
        ((((ms d).filter (·.passes (P d))).map (·.size (P d))).sum + 8200 ≤ 2 ^ k d →
          partOf d v = (((ms d).filter (·.passes (P d))).take r).flatMap (·.lines (P d) (L d))) := by
  obtain ⟨B, hq, I, ho⟩ := hs.live hN hP hms hk hname hn0 hcount hcsv hkd (paths := paths) hans hlen (l := []) hb (euid := euid) (n := n) rfl
  obtain ⟨c0, w', hp⟩ := (fleet_drains euid csv (fun d => canRender (L d)) n B).goes fuel 0 hq I ho (by omega)
  have hc : calls (fleet N 0 euid csv (fun d => canRender (L d)) (n + 1)) false [(fuel, 0)] (openCtx marks 0) w = .ok (c0, w') := by
    unfold calls
    rw [hp]
    rfl
  obtain ⟨c, t, v, h1, h2, h3, h4, h5, h6⟩ := hs.views hN hP hms hk hname hn0 hcount hcsv hkd paths hans hlen hT hb hc
  obtain ⟨g1, g2⟩ := follows_on (fun _ _ => rfl) (hs.can hN hP hms hk hname hn0 hcount hcsv hkd hc) hans (by rw [hlen]; exact hT) hp hb h1
  refine ⟨c, w', t, v, g1, h2, by rw [g2]; exact h3, fun h => ?_, h5, fun d hd => ?_⟩
  · rw [g2] at h
    obtain ⟨i, e1, e2, _, e4⟩ := h4 h
    exact ⟨i, e1, e2, e4⟩
  · obtain ⟨j, r, q, f1, f2, f3, f4, f5, _⟩ := h6 d hd
    exact ⟨j, r, by omega, f3, f4, f5, fun hroom => f5.part (by omega) hroom⟩

/-- C140, all of it: a call with turns enough has reached the marks and read all that is said, and
the screen shows all of it but `n` entries, with `T` at least left if there are as many. -/
theorem C140_caught (hN : 0 < N) (hP : ∀ i, i < N → ∀ p, (P i p).Plain (D i)) (hms : ∀ i, i < N → ∀ m ∈ ms i, m.Plain (P i))
    (hk : ∀ i, i < N → 14 ≤ k i) (hname : ∀ i, i < N → (name i).length ≤ 89) (hn0 : ∀ i, i < N → NoNul (name i))
    (hcount : ∀ i, i < N → (ms i).length < 2147483648) {L : Nat → Look} {csv : Bool} (hcsv : ∀ i, i < N → csv = decide ((L i).fmt = .csv))
    (hkd : ∀ i, i < N → (L i).kmsgd = false) (hs : Scene N P junk ms name k buf pre w m) (paths : Nat → Bytes)
    {ans : Scr (Nat → DW) → OutEv → List WrAns} (hans : ∀ s e, ∃ n, ans s e = [.took n] ∧ 5248 ≤ n) {marks : List Nat} (hlen : marks.length = N)
    {T : Nat} (hT : T = 0 ∨ N ≤ T + 1) {buf0 : Bytes} (hb : buf0.length = 5248) (euid : UInt32) (n : Nat) :
    ∃ need, ∀ fuel, need ≤ fuel →
    ∃ c w' t v i, processLogs ((fleet N 0 euid csv (fun d => canRender (L d)) (n + 1)).onto .file paths (fleetEntries N L fun d => (w' d).os) ans)
          false 0 fuel (openCtx marks T) ⟨w, buf0, []⟩ 0 = .ok (c, t, none) ∧ t.st = w' ∧ c.markReached = true ∧
      i ≤ v.length - T ∧ (T = 0 → i = 0) ∧ t.bytes = screenOf paths (fun _ bs => bs) (decide (N > 1)) [] (v.drop i) ∧ (∀ x ∈ v, x.1 < N) ∧
      ∀ d, d < N → (w' d).env = [] ∧
        Watched (P d) (L d) (name d) (2 ^ k d) ((ms d).filter (·.passes (P d))) 0 (partOf d v) ((ms d).filter (·.passes (P d))).length ∧
        ((((ms d).filter (·.passes (P d))).map (·.size (P d))).sum + 8200 ≤ 2 ^ k d →
          partOf d v = ((ms d).filter (·.passes (P d))).flatMap (·.lines (P d) (L d))) := by
  obtain ⟨B, hq, I, ho⟩ := hs.live hN hP hms hk hname hn0 hcount hcsv hkd (paths := paths) hans hlen (l := []) hb (euid := euid) (n := n) rfl
  have Dr := fleet_drains euid csv (fun d => canRender (L d)) n B
  refine ⟨toDo N (fun w d => (w d).left (name d) ((ms d).filter (·.passes (P d))).length) (openCtx marks 0) w + 1, fun fuel hfuel => ?_⟩
  obtain ⟨c0, w', hp, _, _, _, hz⟩ := Dr.logs fuel 0 hq I ho (by omega) (by omega)
  have hmark : c0.markReached = true := by
    obtain ⟨f, rfl⟩ : ∃ f, fuel = f + 1 := ⟨fuel - 1, by omega⟩
    exact Dr.marked f 0 hq I ho (by omega) (by omega) hp
  have hc : calls (fleet N 0 euid csv (fun d => canRender (L d)) (n + 1)) false [(fuel, 0)] (openCtx marks 0) w = .ok (c0, w') := by
    unfold calls
    rw [hp]
    rfl
  obtain ⟨c, t, v, h1, h2, h3, h4, h5, h6⟩ := hs.views hN hP hms hk hname hn0 hcount hcsv hkd paths hans hlen hT hb hc
  obtain ⟨g1, g2⟩ := follows_on (fun _ _ => rfl) (hs.can hN hP hms hk hname hn0 hcount hcsv hkd hc) hans (by rw [hlen]; exact hT) hp hb h1
  obtain ⟨i, e1, e2, e3, e4⟩ := h4 (.inr hmark)
  unfold toDo at hz
  dsimp only at hz
  have hpend : c0.pendQ = [] := List.length_eq_zero_iff.1 (by omega)
  rw [hpend, List.length_nil, Nat.add_zero] at e3
  refine ⟨c, w', t, v, i, g1, h2, g2.trans hmark, e3, e2, e4, h5, fun d hd => ?_⟩
  obtain ⟨j, r, q, f1, f2, f3, f4, f5, f6, f7, f8⟩ := h6 d hd
  have hleft := allLeft_zero.1 (show allLeft N (fun d => (w' d).left (name d) ((ms d).filter (·.passes (P d))).length) = 0 by omega) d hd
  rw [f6.left] at hleft
  have henv : (w' d).env = [] := List.length_eq_zero_iff.1 (by omega)
  have hj := f4 henv
  have hrq := f8 hpend
  have hr : r = ((ms d).filter (·.passes (P d))).length := by omega
  subst hr
  rw [hj, List.take_length] at f5
  refine ⟨henv, f5, fun hroom => ?_⟩
  have := (f5.all hroom).2
  rw [List.drop_zero, Nat.sub_zero, List.take_length] at this
  exact this

/-- C140, dumping: a dump while programs log ends with 0 if it has turns enough, and shows, by any
interleaving, at least all that was said before the devices were opened, or the last `T` entries of
what it would show without a tail. -/
theorem C140_dumped (hN : 0 < N) (hP : ∀ i, i < N → ∀ p, (P i p).Plain (D i)) (hms : ∀ i, i < N → ∀ m ∈ ms i, m.Plain (P i))
    (hk : ∀ i, i < N → 14 ≤ k i) (hname : ∀ i, i < N → (name i).length ≤ 89) (hn0 : ∀ i, i < N → NoNul (name i))
    (hcount : ∀ i, i < N → (ms i).length < 2147483648) {L : Nat → Look} {csv : Bool} (hcsv : ∀ i, i < N → csv = decide ((L i).fmt = .csv))
    (hkd : ∀ i, i < N → (L i).kmsgd = false) (hs : Scene N P junk ms name k buf pre w m) {ms0 : Nat → List Said}
    (hpre : ∀ i, i < N → sayAll (P i) junk (fun _ => .start) (ms0 i) = .ok (pre i)) (paths : Nat → Bytes)
    {ans : Scr (Nat → DW) → OutEv → List WrAns} (hans : ∀ s e, ∃ n, ans s e = [.took n] ∧ 5248 ≤ n)
    (T : Nat) {buf0 : Bytes} (hb : buf0.length = 5248) (euid : UInt32) (n : Nat) :
    ∃ need, ∀ fuel, need ≤ fuel →
    ∃ c w' t v, processLogs ((fleet N 0 euid csv (fun d => canRender (L d)) (n + 1)).onto .file paths (fleetEntries N L fun d => (w' d).os) ans)
          true 0 fuel (openCtx ((List.range N).map m) T) ⟨w, buf0, []⟩ 0 = .ok (c, t, some 0) ∧ t.st = w' ∧
      t.bytes = screenOf paths (fun _ bs => bs) (decide (N > 1)) [] (lastOf T v) ∧ (∀ x ∈ v, x.1 < N) ∧
      ∀ d, d < N → ∃ j r, ((ms0 d).filter (·.passes (P d))).length ≤ r ∧ r ≤ j ∧ j ≤ ((ms d).filter (·.passes (P d))).length ∧
        Watched (P d) (L d) (name d) (2 ^ k d) (((ms d).filter (·.passes (P d))).take j) 0 (partOf d v) r ∧
        ((((ms d).filter (·.passes (P d))).map (·.size (P d))).sum + 8200 ≤ 2 ^ k d →
          partOf d v = (((ms d).filter (·.passes (P d))).take r).flatMap (·.lines (P d) (L d))) := by
  have hlen : ((List.range N).map m).length = N := by simp
  obtain ⟨B, hq, I, ho⟩ := hs.live hN hP hms hk hname hn0 hcount hcsv hkd (paths := paths) hans hlen (l := []) hb (euid := euid) (n := n) rfl
  refine ⟨toDo N (fun w d => (w d).left (name d) ((ms d).filter (·.passes (P d))).length) (openCtx ((List.range N).map m) 0) w + 1, fun fuel hfuel => ?_⟩
  obtain ⟨f, rfl⟩ : ∃ f, fuel = f + 1 := ⟨fuel - 1, by omega⟩
  obtain ⟨c0, w', hp⟩ := (fleet_drains euid csv (fun d => canRender (L d)) n B).ends f 0 hq I ho (by omega) (by omega)
  by_cases h0 : T = 0
  · subst h0
    obtain ⟨t, h1, h2, v, h3, h4, h5⟩ := C138_dump hN hP hms hk hname hn0 hcount hcsv hkd hs hpre (paths := paths) hans (Int.le_refl 0) hb hp
    exact ⟨c0, w', t, v, h1, h2, h3, h4, h5⟩
  · obtain ⟨c, t, v, h1, h2, h3, h4, h5⟩ := C139_programsDump hN hP hms hk hname hn0 hcount hcsv hkd hs hpre (paths := paths) hans (Int.le_refl 0)
      (T := T) (by omega) hb hp
    obtain ⟨c1, c2, s1, r, _, e1, e2, _⟩ := C139_dump (W := fleet N 0 euid csv (fun d => canRender (L d)) (n + 1)) (fun _ _ => rfl) ((List.range N).map m)
      (T := T) (by omega) 0 (f + 1) w
    rw [hp] at e2
    simp only [Except.ok.injEq, Prod.mk.injEq] at e2
    obtain ⟨rfl, rfl, rfl⟩ := e2
    obtain ⟨g1, rfl⟩ := ends_on (fun _ _ => rfl) (hs.canDump hN hP hms hk hname hn0 hcount hcsv hkd hpre hp) hans e1 hb h1
    refine ⟨c, w', t, v, g1, h2, ?_, h4, h5⟩
    rw [h3, lastOf, if_neg h0]

end Verif.Ulogcat
