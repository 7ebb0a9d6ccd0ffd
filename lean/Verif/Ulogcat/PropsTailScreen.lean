import Verif.Ulogcat.PropsTail
import Verif.Ulogcat.PropsWhile

/-!
# A tail, from the devices to the screen (C139)

The comparison of `PropsTail` put on the devices of the driver: what is printed with a tail is
the end of what is printed without, and that is, of each device, the texts of its committed
entries (`OnScreen`, C136). Devices may be written to while they are read.
-/
namespace Verif.Ulogcat
open Verif Verif.Kernel Verif.Libulog

variable {σ : Type} {W : World σ} {N : Nat} {fid : Nat → Nat} {euid : UInt32} {csv : Bool} {L : Nat → Look}
  {tr : Nat → σ → List (Op × Out)} {os : Nat → σ → List RecvOut}

/-- C139, from the devices to the screen, following. -/
theorem C139_screen (hN : 0 < N) (D : ∀ d, d < N → Drives W d (fid d) euid csv (canRender (L d)) (callNum N d) (tr d) (os d))
    (hcsv : ∀ d, d < N → csv = decide ((L d).fmt = .csv)) (hfix : ∀ d, d < N → (L d).kmsgd = true → (L d).fmt ≠ .csv)
    (hW : Silent W) {paths : Nat → Bytes} {ans : Scr σ → OutEv → List WrAns}
    (hans : ∀ s e, ∃ n, ans s e = [.took n] ∧ 5248 ≤ n) {marks : List Nat} (hlen : marks.length = N) {l : List (Nat × Int)}
    {T : Nat} (hT : 0 < T) (hn : N ≤ T + 1)
    {c0 : Ctx} {s s' : σ} (hc : calls W false l (openCtx marks 0) s = .ok (c0, s')) (hos : ∀ d, d < N → os d s = []) {buf0 : Bytes}
    (hb : buf0.length = 5248) {name : Nat → Bytes} {k : Nat → Nat} {buf : Nat → Nat → UInt8} {ops : Nat → List Op} {sys : Nat → Sys}
    (hrun : ∀ d, d < N → Run (name d) (k d) (buf d) (ops d) (sys d) (tr d s')) {p : Nat → Nat}
    (ha : ∀ d, d < N → At (name d) (tr d s) (fid d) (p d)) (hnf : ∀ d, d < N → ∀ t, tr d s' = tr d s ++ t → NoFlush t) :
    ∃ c t t0 v, calls (W.onto .file paths (fleetEntries N L fun d => os d s') ans) false l (openCtx marks T) ⟨s, buf0, []⟩ = .ok (c, t) ∧
      calls (W.onto .file paths (fleetEntries N L fun d => os d s') ans) false l (openCtx marks 0) ⟨s, buf0, []⟩ = .ok (c0, t0) ∧
      t.st = s' ∧ t0.st = s' ∧
      t0.bytes = screenOf paths (fun _ bs => bs) (decide (N > 1)) [] v ∧
      (c0.markReached = false → t.bytes = []) ∧
      (c0.markReached = true → ∃ n, n ≤ v.length ∧ n ≤ v.length + c0.pendQ.length - T ∧ t.bytes = screenOf paths (fun _ bs => bs) (decide (N > 1)) [] (v.drop n)) ∧
      (∀ x ∈ v, x.1 < N) ∧
      ∀ d, d < N → ∃ r q rest, OnScreen (L d) (name d) (2 ^ k d) (obs (name d) (tr d s')).hist (p d) (partOf d v) r ∧
        OnScreen (L d) (name d) (2 ^ k d) (obs (name d) (tr d s')).hist r rest q ∧ q ≤ (obs (name d) (tr d s')).hist.length ∧
        (rest = [] ∧ q = r ∨ ∃ e, rest = entryText (L d) e) ∧ At (name d) (tr d s') (fid d) q ∧ (c0.pendQ = [] → r = q) := by
  have hcan : ∀ i, CanShow (fleetEntries N L (fun d => os d s') i) := by
    intro i
    have hd := Nat.mod_lt i hN
    obtain ⟨⟨q, _, _, hfo⟩, _⟩ := C90_printed (D _ hd) hc (hos _ hd) (hrun _ hd) (ha _ hd) (hnf _ hd)
    exact entriesBy_can (hfix _ hd) (hcsv _ hd) hfo.received _
  have hok := calls_outErr (fun s e => by rw [hW s e]) hc
  obtain ⟨c, c0', s1, w, e1, e2, e3, e4, -, -, e6, e7⟩ := C139_follow hW marks hT (by omega) l s
  rw [hc] at e2
  obtain ⟨rfl, rfl⟩ : c0 = c0' ∧ s' = s1 := by simpa using e2
  obtain ⟨t, f1, f2, f3⟩ := onto_bytes hW hcan hans (paths := paths) e1 hb
  obtain ⟨t0, g1, g2, g3⟩ := onto_bytes hW hcan hans (paths := paths) hc hb
  refine ⟨c, t, t0, w.map fun f => (f.dev, frameText (fleetEntries N L fun d => os d s') f), f1, g1, f2, g2,
    by rw [g3, e3, annotate_screen, hlen], fun hm => by rw [f3, e6 hm]; rfl, fun hm => ?_, fun x hx => ?_,
    fun d hd => exact_frames D hcsv hfix hc (fun _ _ => rfl) hos hok hrun ha hnf e3 hd⟩
  · obtain ⟨n, h1, h3, h2, -⟩ := e7 hm
    exact ⟨n, by rw [List.length_map]; exact h1, by rw [List.length_map]; exact h3, by rw [f3, h2, annotate_screen, hlen, List.map_drop]⟩
  · obtain ⟨f, hf, rfl⟩ := List.mem_map.1 hx
    rw [← hlen]
    exact e4 f hf

/-- C139, from the devices to the screen, dumping: the last `T` of the texts that a dump without a
tail prints, which are, of each device, those of all that was committed when it was opened. -/
theorem C139_dumpScreen (hN : 0 < N) (D : ∀ d, d < N → Drives W d (fid d) euid csv (canRender (L d)) (callNum N d) (tr d) (os d))
    (hcsv : ∀ d, d < N → csv = decide ((L d).fmt = .csv)) (hfix : ∀ d, d < N → (L d).kmsgd = true → (L d).fmt ≠ .csv)
    (hW : Silent W) {paths : Nat → Bytes} {ans : Scr σ → OutEv → List WrAns}
    (hans : ∀ s e, ∃ n, ans s e = [.took n] ∧ 5248 ≤ n) {m : Nat → Nat} {max : Int} (hmax : 0 ≤ max) {fuel : Nat} {T : Nat} (hT : 0 < T)
    {c0 : Ctx} {s s' : σ} (hc : processLogs W true max fuel (openCtx ((List.range N).map m) 0) s 0 = .ok (c0, s', some 0))
    (hos : ∀ d, d < N → os d s = []) {buf0 : Bytes}
    (hb : buf0.length = 5248) {name : Nat → Bytes} {k : Nat → Nat} {buf : Nat → Nat → UInt8} {ops : Nat → List Op} {sys : Nat → Sys}
    (hrun : ∀ d, d < N → Run (name d) (k d) (buf d) (ops d) (sys d) (tr d s')) {t0 t1 : Nat → List (Op × Out)}
    (hm : ∀ d, d < N → tr d s = t0 d ++ (.getLogLen (fid d), .ret (m d)) :: t1 d) (h1 : ∀ d, d < N → Others (fid d) (t1 d)) {p : Nat → Nat}
    (ha : ∀ d, d < N → At (name d) (t0 d) (fid d) (p d)) (hnf : ∀ d, d < N → ∀ t, tr d s' = t0 d ++ t → NoFlush t) :
    ∃ c u u0 v, calls (W.onto .file paths (fleetEntries N L fun d => os d s') ans) true [(fuel, max)] (openCtx ((List.range N).map m) T)
        ⟨s, buf0, []⟩ = .ok (c, u) ∧
      calls (W.onto .file paths (fleetEntries N L fun d => os d s') ans) true [(fuel, max)] (openCtx ((List.range N).map m) 0)
        ⟨s, buf0, []⟩ = .ok (c0, u0) ∧ u.st = s' ∧ u0.st = s' ∧
      u0.bytes = screenOf paths (fun _ bs => bs) (decide (N > 1)) [] v ∧
      u.bytes = screenOf paths (fun _ bs => bs) (decide (N > 1)) [] (v.drop (v.length - T)) ∧ (∀ x ∈ v, x.1 < N) ∧
      ∀ d, d < N → ∃ q, (obs (name d) (t0 d)).hist.length ≤ q ∧ q ≤ (obs (name d) (tr d s')).hist.length ∧
        OnScreen (L d) (name d) (2 ^ k d) (obs (name d) (tr d s')).hist (p d) (partOf d v) q := by
  have hfol := fun d (hd : d < N) => C91_dump (D d hd) hmax hc (hos d hd) (hrun d hd) (m := m d) (by simp [hd]) (hm d hd) (h1 d hd)
    (ha d hd) (hnf d hd)
  have hcan : ∀ i, CanShow (fleetEntries N L (fun d => os d s') i) := by
    intro i
    have hd := Nat.mod_lt i hN
    obtain ⟨⟨q, _, _, hfo⟩, _⟩ := hfol _ hd
    exact entriesBy_can (hfix _ hd) (hcsv _ hd) hfo.received _
  have hlen : ((List.range N).map m).length = N := by simp
  have hmark := processLogs_zero W hmax fuel (by omega) hc
  obtain ⟨c, c0', s1, r, w, e1, e2, e3, e4, -, e6⟩ := C139_dump hW ((List.range N).map m) hT max fuel s
  rw [hc] at e2
  obtain ⟨rfl, rfl, rfl⟩ : c0 = c0' ∧ s' = s1 ∧ some 0 = r := by simpa using e2
  have k1 : calls W true [(fuel, max)] (openCtx ((List.range N).map m) T) s = .ok (c, s') := by simp only [calls, e1, Except.bind]
  have k2 : calls W true [(fuel, max)] (openCtx ((List.range N).map m) 0) s = .ok (c0, s') := by simp only [calls, hc, Except.bind]
  have hok := calls_outErr (fun s e => by rw [hW s e]) k2
  obtain ⟨u, f1, f2, f3⟩ := onto_bytes hW hcan hans (paths := paths) k1 hb
  obtain ⟨u0, g1, g2, g3⟩ := onto_bytes hW hcan hans (paths := paths) k2 hb
  rw [hmark, if_pos rfl] at e4
  refine ⟨c, u, u0, w.map fun f => (f.dev, frameText (fleetEntries N L fun d => os d s') f), f1, g1, f2, g2,
    by rw [g3, e3, annotate_screen, hlen], by rw [f3, e4, annotate_screen, hlen, List.map_drop, List.length_map], fun x hx => ?_, fun d hd => ?_⟩
  · obtain ⟨f, hf, rfl⟩ := List.mem_map.1 hx
    rw [hlen] at e6
    exact e6 f hf
  · obtain ⟨⟨q, hq1, hq2, hfo⟩, he⟩ := hfol d hd
    have he := he hok
    rw [e3, entriesOf_annotate] at he
    have hw : ∀ j, fleetEntries N L (fun d => os d s') (callNum N d j) = entriesBy (L d) (os d s') j := fun j => fleetEntries_num hd ..
    refine ⟨q, hq1, hq2, ?_⟩
    rw [partOf_frames, flatMap_frameText, he, ← flatMap_frameText, framesOf_texts (L d) d (callNum N d) hw]
    exact hfo.screen (hfix d hd) (hcsv d hd)

/-! ## From the calls of programs -/

section
variable {D : Nat → Bytes} {P : Nat → Nat → Prog} {ms : Nat → List Said} {junk : Nat → UInt8} {name : Nat → Bytes} {k : Nat → Nat}
  {buf : Nat → Nat → UInt8} {pre : Nat → List Op} {w : Nat → DW} {m : Nat → Nat}

/-- C139 and C138. Programs say things while a viewer with a tail of `T` lines follows at most
`T + 1` devices, by any interleaving and in any calls. Once the marks are reached the screen
shows the end of `v`, with `n` entries less, and nothing before; with those
that wait they are `T` at least, if there are as many; `v` is what a viewer without a
tail shows at the same reads, and that is, of each device, the lines of the messages from the
first on as in C138. -/
theorem C139_programs (hN : 0 < N) (hP : ∀ i, i < N → ∀ p, (P i p).Plain (D i)) (hms : ∀ i, i < N → ∀ m ∈ ms i, m.Plain (P i))
    (hk : ∀ i, i < N → 14 ≤ k i) (hname : ∀ i, i < N → (name i).length ≤ 89) (hn0 : ∀ i, i < N → NoNul (name i))
    (hcount : ∀ i, i < N → (ms i).length < 2147483648) {L : Nat → Look} {csv : Bool} (hcsv : ∀ i, i < N → csv = decide ((L i).fmt = .csv))
    (hkd : ∀ i, i < N → (L i).kmsgd = false) (hs : Scene N P junk ms name k buf pre w m) {paths : Nat → Bytes}
    {ans : Scr (Nat → DW) → OutEv → List WrAns} (hans : ∀ s e, ∃ n, ans s e = [.took n] ∧ 5248 ≤ n) {marks : List Nat} (hlen : marks.length = N)
    {T : Nat} (hT : 0 < T) (hn : N ≤ T + 1) (l : List (Nat × Int)) {buf0 : Bytes} (hb : buf0.length = 5248) (euid : UInt32) (n : Nat) :
    ∃ c c0 w' t t0 v, calls (fleet N 0 euid csv (fun d => canRender (L d)) n) false l (openCtx marks 0) w = .ok (c0, w') ∧
      calls ((fleet N 0 euid csv (fun d => canRender (L d)) n).onto .file paths (fleetEntries N L fun d => (w' d).os) ans) false l
          (openCtx marks T) ⟨w, buf0, []⟩ = .ok (c, t) ∧
      calls ((fleet N 0 euid csv (fun d => canRender (L d)) n).onto .file paths (fleetEntries N L fun d => (w' d).os) ans) false l
          (openCtx marks 0) ⟨w, buf0, []⟩ = .ok (c0, t0) ∧ t.st = w' ∧ t0.st = w' ∧
      t0.bytes = screenOf paths (fun _ bs => bs) (decide (N > 1)) [] v ∧
      (c0.markReached = false → t.bytes = []) ∧
      (c0.markReached = true → ∃ n, n ≤ v.length ∧ n ≤ v.length + c0.pendQ.length - T ∧ t.bytes = screenOf paths (fun _ bs => bs) (decide (N > 1)) [] (v.drop n)) ∧
      (∀ x ∈ v, x.1 < N) ∧
      ∀ d, d < N → ∃ j r, r ≤ j ∧ j ≤ ((ms d).filter (·.passes (P d))).length ∧
        ((w' d).env = [] → j = ((ms d).filter (·.passes (P d))).length) ∧
        Watched (P d) (L d) (name d) (2 ^ k d) (((ms d).filter (·.passes (P d))).take j) 0 (partOf d v) r ∧
        ((((ms d).filter (·.passes (P d))).map (·.size (P d))).sum + 8200 ≤ 2 ^ k d →
          partOf d v = (((ms d).filter (·.passes (P d))).take r).flatMap (·.lines (P d) (L d))) := by
  obtain ⟨c0, w', hc, _⟩ := C35_frames (fleet N 0 euid csv (fun d => canRender (L d)) n) marks 0 false l w
  have hc : calls (fleet N 0 euid csv (fun d => canRender (L d)) n) false l (openCtx marks 0) w = .ok (c0, w') := hc
  obtain ⟨⟨ops, hrun⟩, hnf, hat, hmess⟩ := hs.facts hP hms hk hname hn0 hcount hkd hc
  obtain ⟨c, t, t0, v, h1, h2, h3, h4, h5, h6, h7, h8, h9⟩ := C139_screen hN (fid := fun _ => 0) (fun d hd => C136_fleet N 0 euid csv _ n hd) hcsv
    (fun d hd h => by rw [hkd d hd] at h; cases h) (fun _ _ => rfl) (paths := paths) hans hlen hT hn hc hs.fresh hb hrun (p := fun _ => 0) hat hnf
  refine ⟨c, c0, w', t, t0, v, hc, h1, h2, h3, h4, h5, h6, h7, h8, fun d hd => ?_⟩
  obtain ⟨r, q, rest, e1, e2, e3, _⟩ := h9 d hd
  obtain ⟨j, g1, g2, g3, g4, g5, _⟩ := hmess d hd e1 e2 e3
  exact ⟨j, r, by omega, g3, g4, g5, fun hroom => g5.part (by omega) hroom⟩

/-- C139 and C138, dumping (`-d -t T`): if the dump without a tail ends with 0, the dump with it
shows the last `T` of its entries, which are at least all that was said before the devices were
opened. -/
theorem C139_programsDump (hN : 0 < N) (hP : ∀ i, i < N → ∀ p, (P i p).Plain (D i)) (hms : ∀ i, i < N → ∀ m ∈ ms i, m.Plain (P i))
    (hk : ∀ i, i < N → 14 ≤ k i) (hname : ∀ i, i < N → (name i).length ≤ 89) (hn0 : ∀ i, i < N → NoNul (name i))
    (hcount : ∀ i, i < N → (ms i).length < 2147483648) {L : Nat → Look} {csv : Bool} (hcsv : ∀ i, i < N → csv = decide ((L i).fmt = .csv))
    (hkd : ∀ i, i < N → (L i).kmsgd = false) (hs : Scene N P junk ms name k buf pre w m) {ms0 : Nat → List Said}
    (hpre : ∀ i, i < N → sayAll (P i) junk (fun _ => .start) (ms0 i) = .ok (pre i)) {paths : Nat → Bytes}
    {ans : Scr (Nat → DW) → OutEv → List WrAns} (hans : ∀ s e, ∃ n, ans s e = [.took n] ∧ 5248 ≤ n) {max : Int} (hmax : 0 ≤ max) {fuel : Nat}
    {T : Nat} (hT : 0 < T) {buf0 : Bytes} (hb : buf0.length = 5248) {euid : UInt32} {n : Nat} {c0 : Ctx} {w' : Nat → DW}
    (hc : processLogs (fleet N 0 euid csv (fun d => canRender (L d)) n) true max fuel (openCtx ((List.range N).map m) 0) w 0 = .ok (c0, w', some 0)) :
    ∃ c t v, calls ((fleet N 0 euid csv (fun d => canRender (L d)) n).onto .file paths (fleetEntries N L fun d => (w' d).os) ans) true [(fuel, max)]
          (openCtx ((List.range N).map m) T) ⟨w, buf0, []⟩ = .ok (c, t) ∧ t.st = w' ∧
      t.bytes = screenOf paths (fun _ bs => bs) (decide (N > 1)) [] (v.drop (v.length - T)) ∧ (∀ x ∈ v, x.1 < N) ∧
      ∀ d, d < N → ∃ j r, ((ms0 d).filter (·.passes (P d))).length ≤ r ∧ r ≤ j ∧ j ≤ ((ms d).filter (·.passes (P d))).length ∧
        Watched (P d) (L d) (name d) (2 ^ k d) (((ms d).filter (·.passes (P d))).take j) 0 (partOf d v) r ∧
        ((((ms d).filter (·.passes (P d))).map (·.size (P d))).sum + 8200 ≤ 2 ^ k d →
          partOf d v = (((ms d).filter (·.passes (P d))).take r).flatMap (·.lines (P d) (L d))) := by
  obtain ⟨ops, t0, hrun, ht0, hat, hnf, hmess⟩ := hs.dumpFacts hP hms hk hname hn0 hcount hkd hpre hc
  obtain ⟨c, t, u0, v, h1, _, h3, _, _, h6, h7, h8⟩ := C139_dumpScreen hN (fid := fun _ => 0) (fun d hd => C136_fleet N 0 euid csv _ n hd) hcsv
    (fun d hd h => by rw [hkd d hd] at h; cases h) (fun _ _ => rfl) (paths := paths) hans hmax hT hc hs.fresh hb hrun (t1 := fun _ => []) ht0
    (fun _ _ => nofun) (p := fun _ => 0) hat hnf
  refine ⟨c, t, v, h1, h3, h6, h7, fun d hd => ?_⟩
  obtain ⟨r, e0, e3, e1⟩ := h8 d hd
  obtain ⟨j, g⟩ := hmess d hd e0 e3 e1
  exact ⟨j, r, g⟩

end

end Verif.Ulogcat
