import Verif.Ulogcat.PropsScreen
import Verif.Ulogcat.PropsFleet

/-!
# Following several devices while others write to them (C136)
-/
namespace Verif.Ulogcat
open Verif Verif.Kernel Verif.Libulog

/-! ## Specification -/

/-- What a list of texts, each with the number of its device, has of device `d`. -/
def partOf (d : Nat) (v : List (Nat × Bytes)) : Bytes := (v.filter fun x => x.1 == d).flatMap (·.2)

/-! ## Lists -/

variable {σ : Type}

/-- What is shown of a frame. -/
def frameText (what : Nat → Shown) (f : Frame) : Bytes := if f.shown then (what f.id).text else []

theorem annotate_screen (paths : Nat → Bytes) (what : Nat → Shown) (multi : Bool) (w : List Frame) : ∀ seen,
    (annotate multi seen w).flatMap (textOf paths what) =
      screenOf paths (fun _ bs => bs) multi seen (w.map fun f => (f.dev, frameText what f)) := by
  induction w with
  | nil => intro seen; rfl
  | cons f w ih =>
    intro seen
    have ih := ih (f.dev :: seen)
    unfold annotate
    rw [List.map_cons]
    unfold screenOf
    rw [List.flatMap_append, List.flatMap_append, ih, List.append_assoc]
    congr 1
    · cases (multi && !seen.contains f.dev) with
      | true => rw [if_pos rfl, if_pos rfl, List.flatMap_cons, List.flatMap_nil, List.append_nil]; rfl
      | false => rfl
    · congr 1
      unfold frameText
      cases f.shown with
      | true => rw [if_pos rfl, if_pos rfl, List.flatMap_cons, List.flatMap_nil, List.append_nil]; rfl
      | false => rfl

theorem flatMap_frameText (what : Nat → Shown) (w : List Frame) :
    w.flatMap (frameText what) = (w.filter (·.shown)).flatMap fun f => (what f.id).text := by
  induction w with
  | nil => rfl
  | cons f w ih =>
    rw [List.flatMap_cons, ih]
    by_cases hs : f.shown = true
    · rw [List.filter_cons_of_pos hs, List.flatMap_cons]
      unfold frameText
      rw [if_pos hs]
    · rw [List.filter_cons_of_neg hs]
      unfold frameText
      rw [if_neg hs, List.nil_append]

theorem partOf_frames (d : Nat) (what : Nat → Shown) (w : List Frame) :
    partOf d (w.map fun f => (f.dev, frameText what f)) = (w.filter fun f => f.dev == d).flatMap (frameText what) := by
  unfold partOf
  induction w with
  | nil => rfl
  | cons f w ih =>
    rw [List.map_cons]
    by_cases hd : (f.dev == d) = true
    · rw [List.filter_cons_of_pos (by exact hd), List.filter_cons_of_pos (by exact hd), List.flatMap_cons, List.flatMap_cons, ih]
    · rw [List.filter_cons_of_neg (by exact hd), List.filter_cons_of_neg (by exact hd), ih]

/-- The texts of the frames of a device are those of what was received from it. -/
theorem framesOf_texts (L : Look) (d : Nat) (num : Nat → Nat) {what : Nat → Shown} {os : List RecvOut}
    (hw : ∀ j, what (num j) = entriesBy L os j) :
    (framesOf d (canRender L) num os).flatMap (frameText what) = receivedText L os := by
  rw [← framesOf_text L d os, ← flatMap_frameText]
  unfold framesOf
  generalize os.zipIdx = l
  induction l with
  | nil => rfl
  | cons p l ih =>
    rw [List.filterMap_cons, List.filterMap_cons]
    by_cases h : 0 < p.1.ret
    · rw [if_pos h, if_pos h]
      dsimp only
      rw [List.flatMap_cons, List.flatMap_cons, ih]
      congr 1
      unfold frameText
      dsimp only [id_eq]
      rw [hw]
    · rw [if_neg h, if_neg h]
      exact ih

/-- The text of a frame of a device is that of an entry, or nothing. -/
theorem frame_text {L : Look} (hfix : L.kmsgd = true → L.fmt ≠ .csv) {csv : Bool} (hcsv : csv = decide (L.fmt = .csv)) {d : Nat}
    {num : Nat → Nat} {what : Nat → Shown} {os : List RecvOut} (hw : ∀ j, what (num j) = entriesBy L os j)
    (hrec : ∀ o ∈ os, o.ret ≤ 0 ∨ ∃ bs e, Received csv bs e o) {f : Frame} (hf : f ∈ framesOf d (canRender L) num os) :
    ∃ e, frameText what f = entryText L e := by
  unfold framesOf at hf
  obtain ⟨⟨o, i⟩, g1, g2⟩ := List.mem_filterMap.1 hf
  have g1 := List.mem_zipIdx_iff_getElem?.1 g1
  dsimp only at g1 g2
  split at g2
  · rename_i hr
    injection g2 with g2
    subst g2
    rcases hrec o (List.mem_of_getElem? g1) with h | ⟨bs, e, h⟩
    · omega
    · refine ⟨e, ?_⟩
      unfold frameText
      dsimp only
      rcases received_shown hfix hcsv h with ⟨_, h2, x, h3, _, _, h5⟩ | ⟨h5, h6⟩
      · rw [if_pos h2, hw]
        unfold entriesBy
        rw [g1]
        dsimp only
        rw [if_pos ⟨hr, h2⟩, h3]
        exact h5
      · rw [if_neg (fun h => h5 ⟨hr, h⟩), h6]
  · cases g2

/-! ## All devices at once -/

/-- The frames of all devices in the order in which they are handled, and those that
wait, one of each device at most. -/
theorem live_frames {W : World σ} {N : Nat} {fid : Nat → Nat} {euid : UInt32} {csv : Bool} {sh : Nat → RecvOut → Bool} {num : Nat → Nat → Nat}
    {tr : Nat → σ → List (Op × Out)} {os : Nat → σ → List RecvOut}
    (D : ∀ d, d < N → Drives W d (fid d) euid csv (sh d) (num d) (tr d) (os d)) {marks : List Nat} {dump : Bool} {l : List (Nat × Int)}
    {c : Ctx} {s s' : σ} (hc : calls W dump l (openCtx marks 0) s = .ok (c, s')) (hos : ∀ d, d < N → os d s = []) :
    ∃ w pend : List Frame, pend = c.pendQ ∧ c.out <+: annotate (decide (marks.length > 1)) [] w ∧
      (c.outErr = false → c.out = annotate (decide (marks.length > 1)) [] w) ∧ (∀ f ∈ w, f.dev < marks.length) ∧
      ∀ d, d < N → (w.filter fun f => f.dev == d) ++ (pend.filter fun f => f.dev == d) = framesOf d (sh d) (num d) (os d s') ∧
        (pend.filter fun f => f.dev == d).length ≤ 1 := by
  have hsim := (sim_logged W).calls dump l (openCtx marks 0) (s := s) (t := (s, [])) rfl
  obtain ⟨c1, s1, w, e1, F⟩ := FInv.calls W dump l (s := (s, [])) (openCtx_finv marks)
  obtain ⟨c3, s3, w3, e3, f1, f2, _⟩ := C59_faithful W marks dump l s
  rw [e1] at e3
  obtain ⟨rfl, rfl⟩ : c1 = c3 ∧ s1 = s3 := by simpa using e3
  rw [hc, e1] at hsim
  obtain ⟨hc1, hs1⟩ := hsim
  have hc1 : c = c1 := hc1
  have hs1 : s1.1 = s' := hs1
  subst hc1
  refine ⟨w, c.pendQ, rfl, F.out.pre, fun h => (F.out.ok h).1, fun f hf => F.dev hf, fun d hd => ⟨?_, f2 d⟩⟩
  have hsim2 := (sim_watched W.logged).calls dump l (openCtx marks 0) (s := (s, [])) (t := ((s, []), fun _ => false)) rfl
  rw [e1] at hsim2
  cases hx : calls W.logged.watched dump l (openCtx marks 0) ((s, []), fun _ => false) with
  | error e => rw [hx] at hsim2; exact hsim2.elim
  | ok x =>
    rw [hx] at hsim2
    obtain ⟨c2, ⟨s2, seen⟩⟩ := x
    obtain ⟨-, hs2⟩ := hsim2
    have hs2 : s2 = s1 := hs2
    subst hs2
    obtain ⟨t, g1, g2, g3, _⟩ := ((D d hd).keeps (tr d s)).calls (s := ((s, []), fun _ => false))
      ⟨[], by simp, by rw [hos d hd]; exact .nil, by rw [hos d hd]; rfl, fun h => by cases h⟩ hx
    dsimp only at g3
    rw [F.split d, g3, hs1]

/-- The number of call `j` on device `d` of `N`. -/
def callNum (N d j : Nat) : Nat := j * N + d

theorem fleetEntries_num {N d : Nat} (hd : d < N) (L : Nat → Look) (all : Nat → List RecvOut) (j : Nat) :
    fleetEntries N L all (callNum N d j) = entriesBy (L d) (all d) j := by
  unfold fleetEntries callNum
  have h1 : (j * N + d) % N = d := by rw [Nat.mul_comm, Nat.mul_add_mod]; exact Nat.mod_eq_of_lt hd
  have h2 : (j * N + d) / N = j := by
    rw [Nat.mul_comm, Nat.mul_add_div (by omega), Nat.div_eq_of_lt hd, Nat.add_zero]
  rw [h1, h2]

variable {W : World σ} {N : Nat} {fid : Nat → Nat} {euid : UInt32} {csv : Bool} {L : Nat → Look}
  {tr : Nat → σ → List (Op × Out)} {os : Nat → σ → List RecvOut}

/-- C136. A viewer of several log devices, without a tail, any number of calls of
`ulogcat3_process_logs`, whatever others do meanwhile with the devices except flushing
them, writing to a stream that takes everything: the bytes on the stream are texts of
the devices in turn, with a banner before the first of each device if there are several;
those of each device, together with at most one entry that was received and not yet
written, are the texts of its committed entries in order, from where the viewer was when
it started, with a notice in the place of those that were lost. -/
theorem C136_screen (hN : 0 < N) (D : ∀ d, d < N → Drives W d (fid d) euid csv (canRender (L d)) (callNum N d) (tr d) (os d))
    (hcsv : ∀ d, d < N → csv = decide ((L d).fmt = .csv)) (hfix : ∀ d, d < N → (L d).kmsgd = true → (L d).fmt ≠ .csv)
    {paths : Nat → Bytes} {ans : Scr σ → OutEv → List WrAns} {marks : List Nat} (hlen : marks.length = N) {dump : Bool} {l : List (Nat × Int)}
    {c : Ctx} {s s' : Scr σ} {all : Nat → List RecvOut}
    (hc : calls (W.onto .file paths (fleetEntries N L all) ans) dump l (openCtx marks 0) s = .ok (c, s'))
    (hall : ∀ d, d < N → all d = os d s'.st) (hos : ∀ d, d < N → os d s.st = []) (hb : s.buf.length = 5248) (h0 : s.bytes = [])
    (hok : c.outErr = false) {name : Nat → Bytes} {k : Nat → Nat} {buf : Nat → Nat → UInt8} {ops : Nat → List Op} {sys : Nat → Sys}
    (hrun : ∀ d, d < N → Run (name d) (k d) (buf d) (ops d) (sys d) (tr d s'.st)) {p : Nat → Nat}
    (ha : ∀ d, d < N → At (name d) (tr d s.st) (fid d) (p d)) (hnf : ∀ d, d < N → ∀ t, tr d s'.st = tr d s.st ++ t → NoFlush t) :
    ∃ v, s'.bytes = screenOf paths (fun _ bs => bs) (decide (N > 1)) [] v ∧ (∀ x ∈ v, x.1 < N) ∧
      ∀ d, d < N → ∃ q rest, q ≤ (obs (name d) (tr d s'.st)).hist.length ∧
        OnScreen (L d) (name d) (2 ^ k d) (obs (name d) (tr d s'.st)).hist (p d) (partOf d v ++ rest) q ∧
        (rest = [] ∨ ∃ e, rest = entryText (L d) e) := by
  have D' := fun d hd => (D d hd).onto .file paths (fleetEntries N L all) ans
  obtain ⟨w, pend, _, _, hout, hdev, hsplit⟩ := live_frames D' hc hos
  have hout := hout hok
  have hfol := fun d (hd : d < N) => (C90_printed (D' d hd) hc (hos d hd) (hrun d hd) (ha d hd) (hnf d hd)).1
  have hcan : ∀ i, CanShow (fleetEntries N L all i) := by
    intro i
    have hd := Nat.mod_lt i hN
    obtain ⟨q, _, _, hfo⟩ := hfol (i % N) hd
    exact entriesBy_can (hfix _ hd) (hcsv _ hd) (by rw [hall _ hd]; exact hfo.received) _
  have hbytes := (C96_file W hcan ans hb h0 hc).1 hok
  rw [hout, annotate_screen, hlen] at hbytes
  refine ⟨w.map fun f => (f.dev, frameText (fleetEntries N L all) f), hbytes, ?_, fun d hd => ?_⟩
  · intro x hx
    obtain ⟨f, hf, rfl⟩ := List.mem_map.1 hx
    rw [← hlen]
    exact hdev f hf
  · obtain ⟨q, _, hq, hfo⟩ := hfol d hd
    obtain ⟨h1, h2⟩ := hsplit d hd
    have hw : ∀ j, fleetEntries N L all (callNum N d j) = entriesBy (L d) (os d s'.st) j := by
      intro j
      rw [fleetEntries_num hd, hall d hd]
    refine ⟨q, (pend.filter fun f => f.dev == d).flatMap (frameText (fleetEntries N L all)), hq, ?_, ?_⟩
    · rw [partOf_frames, ← List.flatMap_append, h1, framesOf_texts (L d) d (callNum N d) hw]
      exact hfo.screen (hfix d hd) (hcsv d hd)
    · revert h1 h2
      generalize pend.filter (fun f => f.dev == d) = waiting
      intro h1 h2
      match waiting, h2 with
      | [], _ => exact .inl rfl
      | [f], _ =>
        right
        obtain ⟨e, he⟩ := frame_text (hfix d hd) (hcsv d hd) hw hfo.received (f := f) (by rw [← h1]; simp)
        exact ⟨e, by rw [List.flatMap_cons, List.flatMap_nil, List.append_nil, he]⟩
      | _ :: _ :: _, h => simp at h

/-- C136, dumps. A dump (`-d`) of several devices that ends with 0 has written, of each
device, the texts of all entries that were committed when its amount was asked for (and
perhaps of later ones), in order and with notices in the place of lost ones. -/
theorem C136_dump (hN : 0 < N) (D : ∀ d, d < N → Drives W d (fid d) euid csv (canRender (L d)) (callNum N d) (tr d) (os d))
    (hcsv : ∀ d, d < N → csv = decide ((L d).fmt = .csv)) (hfix : ∀ d, d < N → (L d).kmsgd = true → (L d).fmt ≠ .csv)
    {paths : Nat → Bytes} {ans : Scr σ → OutEv → List WrAns} {m : Nat → Nat} {max : Int} (hmax : 0 ≤ max) {fuel : Nat}
    {c : Ctx} {s s' : Scr σ} {all : Nat → List RecvOut}
    (hc : processLogs (W.onto .file paths (fleetEntries N L all) ans) true max fuel (openCtx ((List.range N).map m) 0) s 0 = .ok (c, s', some 0))
    (hall : ∀ d, d < N → all d = os d s'.st) (hos : ∀ d, d < N → os d s.st = []) (hb : s.buf.length = 5248) (h0 : s.bytes = [])
    (hok : c.outErr = false) {name : Nat → Bytes} {k : Nat → Nat} {buf : Nat → Nat → UInt8} {ops : Nat → List Op} {sys : Nat → Sys}
    (hrun : ∀ d, d < N → Run (name d) (k d) (buf d) (ops d) (sys d) (tr d s'.st)) {t0 t1 : Nat → List (Op × Out)}
    (hm : ∀ d, d < N → tr d s.st = t0 d ++ (.getLogLen (fid d), .ret (m d)) :: t1 d) (h1 : ∀ d, d < N → Others (fid d) (t1 d)) {p : Nat → Nat}
    (ha : ∀ d, d < N → At (name d) (t0 d) (fid d) (p d)) (hnf : ∀ d, d < N → ∀ t, tr d s'.st = t0 d ++ t → NoFlush t) :
    ∃ v, s'.bytes = screenOf paths (fun _ bs => bs) (decide (N > 1)) [] v ∧ (∀ x ∈ v, x.1 < N) ∧
      ∀ d, d < N → ∃ q, (obs (name d) (t0 d)).hist.length ≤ q ∧ q ≤ (obs (name d) (tr d s'.st)).hist.length ∧
        OnScreen (L d) (name d) (2 ^ k d) (obs (name d) (tr d s'.st)).hist (p d) (partOf d v) q := by
  have D' := fun d hd => (D d hd).onto .file paths (fleetEntries N L all) ans
  have hcalls : calls (W.onto .file paths (fleetEntries N L all) ans) true [(fuel, max)] (openCtx ((List.range N).map m) 0) s = .ok (c, s') := by
    unfold calls
    rw [hc]
    rfl
  obtain ⟨w, pend, _, _, hout, hdev, -⟩ := live_frames D' hcalls hos
  have hlen : ((List.range N).map m).length = N := by simp
  rw [hlen] at hout hdev
  have hout := hout hok
  have hfol := fun d (hd : d < N) => C91_dump (D' d hd) hmax hc (hos d hd) (hrun d hd) (m := m d) (by simp [hd]) (hm d hd) (h1 d hd)
    (ha d hd) (hnf d hd)
  have hcan : ∀ i, CanShow (fleetEntries N L all i) := by
    intro i
    have hd := Nat.mod_lt i hN
    obtain ⟨⟨q, _, _, hfo⟩, _⟩ := hfol (i % N) hd
    exact entriesBy_can (hfix _ hd) (hcsv _ hd) (by rw [hall _ hd]; exact hfo.received) _
  have hbytes := (C96_file W hcan ans hb h0 hcalls).1 hok
  rw [hout, annotate_screen] at hbytes
  refine ⟨w.map fun f => (f.dev, frameText (fleetEntries N L all) f), hbytes, ?_, fun d hd => ?_⟩
  · intro x hx
    obtain ⟨f, hf, rfl⟩ := List.mem_map.1 hx
    exact hdev f hf
  · obtain ⟨⟨q, hq1, hq2, hfo⟩, he⟩ := hfol d hd
    have he := he hok
    rw [hout, entriesOf_annotate] at he
    have hw : ∀ j, fleetEntries N L all (callNum N d j) = entriesBy (L d) (os d s'.st) j := by
      intro j
      rw [fleetEntries_num hd, hall d hd]
    refine ⟨q, hq1, hq2, ?_⟩
    rw [partOf_frames, flatMap_frameText, he, ← flatMap_frameText, framesOf_texts (L d) d (callNum N d) hw]
    exact hfo.screen (hfix d hd) (hcsv d hd)

/-! ## From a run of the loop -/

/-- If every output succeeds none has failed. -/
theorem calls_outErr {W : World σ} (hW : ∀ s e, (W.output s e).1 = true) {marks : List Nat} {tail : Int} {dump : Bool} {l : List (Nat × Int)}
    {c : Ctx} {s s' : σ} (h : calls W dump l (openCtx marks tail) s = .ok (c, s')) : c.outErr = false := by
  have S : SimO W W fun _ b s t => s = t ∧ b = false := by
    refine ⟨?_, ?_, ?_⟩
    · rintro o b s _ ⟨rfl, h⟩ a
      exact ⟨rfl, rfl, h⟩
    · rintro o b s _ ⟨rfl, h⟩ i
      exact ⟨rfl, rfl, h⟩
    · rintro o s _ ⟨rfl, _⟩ e
      refine ⟨rfl, fun _ => ⟨rfl, rfl⟩, fun h => ?_⟩
      rw [hW] at h
      cases h
  have := S.calls dump l (openCtx marks tail) (s := s) (t := s) ⟨rfl, rfl⟩
  rw [h] at this
  exact this.2.2

theorem takes_all {paths : Nat → Bytes} {what : Nat → Shown} {ans : Scr σ → OutEv → List WrAns} (hcan : ∀ i, CanShow (what i))
    (hans : ∀ s e, ∃ n, ans s e = [.took n] ∧ 5248 ≤ n) : Takes .file paths what ans := by
  intro s e
  obtain ⟨n, a1, a2⟩ := hans s e
  obtain ⟨b, k, _, b2, b3, hne⟩ := renderEv_text (paths := paths) hcan (buf := List.replicate 5248 0) List.length_replicate e
  have hl : (textOf paths what e).length ≤ n := by
    rw [← b3, List.length_take]; omega
  unfold outputRendered
  rw [a1]
  simp [hne, hl]

/-- C136, from calls in a world whose output always succeeds: with a stream that takes
everything the same happens, and the texts are written. (So the hypotheses of
`C136_screen` are met by all such calls, and by `C35_frames` calls always come to an end.) -/
theorem C136_run (hN : 0 < N) (D : ∀ d, d < N → Drives W d (fid d) euid csv (canRender (L d)) (callNum N d) (tr d) (os d))
    (hcsv : ∀ d, d < N → csv = decide ((L d).fmt = .csv)) (hfix : ∀ d, d < N → (L d).kmsgd = true → (L d).fmt ≠ .csv)
    (hW : ∀ s e, (W.output s e).1 = true) {paths : Nat → Bytes} {ans : Scr σ → OutEv → List WrAns}
    (hans : ∀ s e, ∃ n, ans s e = [.took n] ∧ 5248 ≤ n) {marks : List Nat} (hlen : marks.length = N) {dump : Bool} {l : List (Nat × Int)}
    {c : Ctx} {s s' : σ} (hc : calls W dump l (openCtx marks 0) s = .ok (c, s')) (hos : ∀ d, d < N → os d s = []) {buf0 : Bytes}
    (hb : buf0.length = 5248) {name : Nat → Bytes} {k : Nat → Nat} {buf : Nat → Nat → UInt8} {ops : Nat → List Op} {sys : Nat → Sys}
    (hrun : ∀ d, d < N → Run (name d) (k d) (buf d) (ops d) (sys d) (tr d s')) {p : Nat → Nat}
    (ha : ∀ d, d < N → At (name d) (tr d s) (fid d) (p d)) (hnf : ∀ d, d < N → ∀ t, tr d s' = tr d s ++ t → NoFlush t) :
    ∃ t, calls (W.onto .file paths (fleetEntries N L fun d => os d s') ans) dump l (openCtx marks 0) ⟨s, buf0, []⟩ = .ok (c, t) ∧ t.st = s' ∧
      ∃ v, t.bytes = screenOf paths (fun _ bs => bs) (decide (N > 1)) [] v ∧ (∀ x ∈ v, x.1 < N) ∧
      ∀ d, d < N → ∃ q rest, q ≤ (obs (name d) (tr d s')).hist.length ∧
        OnScreen (L d) (name d) (2 ^ k d) (obs (name d) (tr d s')).hist (p d) (partOf d v ++ rest) q ∧
        (rest = [] ∨ ∃ e, rest = entryText (L d) e) := by
  have hcan : ∀ i, CanShow (fleetEntries N L (fun d => os d s') i) := by
    intro i
    have hd := Nat.mod_lt i hN
    obtain ⟨⟨q, _, _, hfo⟩, _⟩ := C90_printed (D _ hd) hc (hos _ hd) (hrun _ hd) (ha _ hd) (hnf _ hd)
    exact entriesBy_can (hfix _ hd) (hcsv _ hd) hfo.received _
  have htake := takes_all (paths := paths) hcan hans
  have hsim := (onto_sim (W := W) hcan htake hW).calls dump l (openCtx marks 0) (s := s) (t := ⟨s, buf0, []⟩) ⟨rfl, hb⟩
  rw [hc] at hsim
  cases hx : calls (W.onto .file paths (fleetEntries N L fun d => os d s') ans) dump l (openCtx marks 0) ⟨s, buf0, []⟩ with
  | error e => rw [hx] at hsim; exact hsim.elim
  | ok y =>
    obtain ⟨c', t⟩ := y
    rw [hx] at hsim
    obtain ⟨e1, e2, _⟩ := hsim
    dsimp only at e1 e2
    subst e1
    refine ⟨t, rfl, e2, ?_⟩
    have := C136_screen hN D hcsv hfix hlen hx (by rw [e2]; exact fun _ _ => rfl) hos hb rfl (calls_outErr hW hc)
      (by rw [e2]; exact hrun) ha (by rw [e2]; exact hnf)
    rw [e2] at this
    exact this

/-- C136, dumps, from a run of the loop in a world whose output always succeeds. -/
theorem C136_dumped (hN : 0 < N) (D : ∀ d, d < N → Drives W d (fid d) euid csv (canRender (L d)) (callNum N d) (tr d) (os d))
    (hcsv : ∀ d, d < N → csv = decide ((L d).fmt = .csv)) (hfix : ∀ d, d < N → (L d).kmsgd = true → (L d).fmt ≠ .csv)
    (hW : ∀ s e, (W.output s e).1 = true) {paths : Nat → Bytes} {ans : Scr σ → OutEv → List WrAns}
    (hans : ∀ s e, ∃ n, ans s e = [.took n] ∧ 5248 ≤ n) {m : Nat → Nat} {max : Int} (hmax : 0 ≤ max) {fuel : Nat}
    {c : Ctx} {s s' : σ} (hc : processLogs W true max fuel (openCtx ((List.range N).map m) 0) s 0 = .ok (c, s', some 0))
    (hos : ∀ d, d < N → os d s = []) {buf0 : Bytes}
    (hb : buf0.length = 5248) {name : Nat → Bytes} {k : Nat → Nat} {buf : Nat → Nat → UInt8} {ops : Nat → List Op} {sys : Nat → Sys}
    (hrun : ∀ d, d < N → Run (name d) (k d) (buf d) (ops d) (sys d) (tr d s')) {t0 t1 : Nat → List (Op × Out)}
    (hm : ∀ d, d < N → tr d s = t0 d ++ (.getLogLen (fid d), .ret (m d)) :: t1 d) (h1 : ∀ d, d < N → Others (fid d) (t1 d)) {p : Nat → Nat}
    (ha : ∀ d, d < N → At (name d) (t0 d) (fid d) (p d)) (hnf : ∀ d, d < N → ∀ t, tr d s' = t0 d ++ t → NoFlush t) :
    ∃ t, processLogs (W.onto .file paths (fleetEntries N L fun d => os d s') ans) true max fuel (openCtx ((List.range N).map m) 0)
        ⟨s, buf0, []⟩ 0 = .ok (c, t, some 0) ∧ t.st = s' ∧
      ∃ v, t.bytes = screenOf paths (fun _ bs => bs) (decide (N > 1)) [] v ∧ (∀ x ∈ v, x.1 < N) ∧
      ∀ d, d < N → ∃ q, (obs (name d) (t0 d)).hist.length ≤ q ∧ q ≤ (obs (name d) (tr d s')).hist.length ∧
        OnScreen (L d) (name d) (2 ^ k d) (obs (name d) (tr d s')).hist (p d) (partOf d v) q := by
  have hcan : ∀ i, CanShow (fleetEntries N L (fun d => os d s') i) := by
    intro i
    have hd := Nat.mod_lt i hN
    obtain ⟨⟨q, _, _, hfo⟩, _⟩ := C91_dump (D _ hd) hmax hc (hos _ hd) (hrun _ hd) (m := m (i % N)) (by simp [hd]) (hm _ hd) (h1 _ hd)
      (ha _ hd) (hnf _ hd)
    exact entriesBy_can (hfix _ hd) (hcsv _ hd) hfo.received _
  have hcalls : calls W true [(fuel, max)] (openCtx ((List.range N).map m) 0) s = .ok (c, s') := by
    unfold calls
    rw [hc]
    rfl
  have hsim := (onto_sim (W := W) hcan (takes_all (paths := paths) hcan hans) hW).logs true max fuel (openCtx ((List.range N).map m) 0) 0
    (s := s) (t := ⟨s, buf0, []⟩) ⟨rfl, hb⟩
  rw [hc] at hsim
  cases hx : processLogs (W.onto .file paths (fleetEntries N L fun d => os d s') ans) true max fuel (openCtx ((List.range N).map m) 0)
      ⟨s, buf0, []⟩ 0 with
  | error e => rw [hx] at hsim; exact hsim.elim
  | ok y =>
    obtain ⟨c', t, r⟩ := y
    rw [hx] at hsim
    obtain ⟨e1, ⟨e2, _⟩, e3⟩ := hsim
    dsimp only at e1 e2 e3
    subst e1
    subst e3
    refine ⟨t, rfl, e2, ?_⟩
    have := C136_dump hN D hcsv hfix hmax hx (by rw [e2]; exact fun _ _ => rfl) hos hb rfl (calls_outErr hW hcalls)
      (by rw [e2]; exact hrun) hm h1 ha (by rw [e2]; exact hnf)
    rw [e2] at this
    exact this

/-! ## The world of several drivers -/

/-- The world of `C119`, with anybody using the devices, is one `C136` speaks of. -/
theorem C136_fleet (N fid : Nat) (euid : UInt32) (csv : Bool) (sh : Nat → RecvOut → Bool) (n : Nat) {d : Nat} (hd : d < N) :
    Drives (fleet N fid euid csv sh n) d fid euid csv (sh d) (callNum N d) (fun w => (w d).tr) (fun w => (w d).os) := by
  have nil : Others fid [] := by simp [Others]
  constructor
  · intro w e
    exact ⟨[], nil, by simp [fleet], rfl⟩
  · intro w i hi
    unfold fleet
    dsimp only
    split
    · cases hx : (w i).receive fid euid csv n with
      | mk w1 o =>
      cases o with
      | none => exact ⟨[], nil, by simp, rfl⟩
      | some o =>
        dsimp only
        rw [if_neg (fun h => hi h.symm)]
        exact ⟨[], nil, by simp, rfl⟩
    · exact ⟨[], nil, by simp, rfl⟩
  · intro w a
    unfold fleet
    dsimp only
    obtain ⟨t, h1, h2, h3⟩ := DW.others_tr fid (w d)
    split
    · rename_i hs
      have hs := List.all_eq_true.1 hs d (List.mem_range.2 hd)
      dsimp only
      by_cases ha : a d = true
      · rw [if_pos ⟨hd, ha⟩, ha]
        rw [ha] at hs
        cases hx : ((w d).others fid).exec (.poll fid euid) with
        | mk w1 o =>
        rw [hx] at hs
        dsimp only at hs ⊢
        cases o with
        | none => simp at hs
        | some o =>
          cases o with
          | poll b =>
            obtain ⟨g1, g2⟩ := DW.exec_some hx
            refine ⟨t ++ (.poll fid euid, .poll b) :: [], ?_, by rw [g1, h2]; simp, by rw [g2, h3]⟩
            unfold Polled
            rw [if_pos rfl]
            refine ⟨t, [], fun p hp => .inl (h1 p hp), nil, ?_⟩
            dsimp only
            rw [hx, ha, decide_eq_true hd]
            rfl
          | _ => simp at hs
      · rw [if_neg (fun h => ha h.2)]
        refine ⟨[], ?_, by simp, rfl⟩
        unfold Polled
        rw [if_neg ha]
        exact nil
    · refine ⟨[], ?_, by simp, rfl⟩
      unfold Polled
      split
      · intro p hp; cases hp
      · exact nil
  · intro w
    unfold fleet
    dsimp only
    rw [if_pos hd]
    cases hx : (w d).receive fid euid csv n with
    | mk w1 o =>
    cases o with
    | none => exact .inr ⟨[], nil, by simp, rfl, rfl⟩
    | some o =>
      obtain ⟨r1, r2, t1, t2, h1, h2, h3, h4, h5⟩ := DW.receive_tr hx
      refine .inl ⟨zeroFrame, r1, r2, true, _, t1, t2, o, ⟨rfl, by simp [zeroFrame]⟩, h1, h2, h3, ?_, ?_, rfl⟩
      · dsimp only; rw [if_pos rfl]; exact h4
      · dsimp only; rw [if_pos rfl]

theorem fleet_keeps (N fid : Nat) (euid : UInt32) (csv : Bool) (sh : Nat → RecvOut → Bool) (n : Nat) {d : Nat} {P : DW → Prop}
    (hp : ∀ {w}, P w → P ((w.others fid).exec (.poll fid euid)).1) (hr : ∀ {w}, P w → P (w.receive fid euid csv n).1)
    (ho : ∀ {w os}, P w → P { w with os }) : Keeps (fleet N fid euid csv sh n) fun w => P (w d) := by
  constructor
  · intro w h a
    unfold fleet
    dsimp only
    split
    · dsimp only
      split
      · exact hp h
      · exact h
    · exact h
  · intro w h i
    unfold fleet
    dsimp only
    split
    · have h1 := fun (e : d = i) => hr (w := w i) (by rw [← e]; exact h)
      generalize (w i).receive fid euid csv n = x at h1
      split
      · dsimp only
        split
        · rename_i e
          exact ho (h1 e)
        · exact h
      · exact h
    · exact h
  · intro w h e
    exact h

/-- All that happened to the device since `t0`, and what others will do, meets `Q`. -/
def DW.Since (Q : Op → Prop) (t0 : List (Op × Out)) (w : DW) : Prop :=
  (∃ t, w.tr = t0 ++ t ∧ ∀ p ∈ t, Q p.1) ∧ ∀ l ∈ w.env, ∀ op ∈ l, Q op

theorem DW.Since.exec {Q t0} {w : DW} (h : w.Since Q t0) {op : Op} (hop : Q op) : (w.exec op).1.Since Q t0 := by
  unfold DW.exec
  split
  · obtain ⟨⟨t, h1, h2⟩, h3⟩ := h
    refine ⟨⟨t ++ [_], by dsimp only; rw [h1, List.append_assoc], ?_⟩, h3⟩
    intro x hx
    rcases List.mem_append.mp hx with hx | hx
    · exact h2 x hx
    · rw [List.mem_singleton.mp hx]; exact hop
  · exact h

theorem DW.Since.others {Q t0} {w : DW} (h : w.Since Q t0) (fid : Nat) : (w.others fid).Since Q t0 := by
  have all : ∀ (ops : List Op) {w : DW}, w.Since Q t0 → (∀ op ∈ ops, Q op) → (w.execAll ops).Since Q t0 := by
    intro ops
    induction ops with
    | nil => intro w h _; exact h
    | cons op ops ih =>
      intro w h ho
      exact ih (h.exec (ho op (by simp))) fun x hx => ho x (by simp [hx])
  unfold DW.others
  refine all _ (w := { w with env := w.env.tail }) ⟨h.1, fun l hl => h.2 l (List.mem_of_mem_tail hl)⟩ ?_
  intro op hop
  have hop := (List.mem_filter.1 hop).1
  have h2 := h.2
  cases he : w.env with
  | nil => rw [he] at hop; simp at hop
  | cons l e => rw [he] at hop h2; exact h2 l (by simp) op hop

theorem DW.Since.sysRead {Q t0} {fid : Nat} {euid : UInt32} (hc : Q (.check fid)) (hr : ∀ c, Q (.read fid euid c c)) (count n : Nat) :
    ∀ {w : DW}, w.Since Q t0 → (w.sysRead fid euid count n).1.Since Q t0 := by
  induction n with
  | zero => intro w h; exact h
  | succ n ih =>
    intro w h
    unfold DW.sysRead
    have h1 := (h.others fid).exec hc
    generalize (w.others fid).exec (.check fid) = x at h1
    obtain ⟨w1, o1⟩ := x
    dsimp only at h1 ⊢
    have h2 := (h1.others fid).exec (hr count)
    generalize (w1.others fid).exec (.read fid euid count count) = y at h2
    obtain ⟨w2, o2⟩ := y
    dsimp only at h2 ⊢
    split
    · exact h1
    · split
      · exact h2
      · exact h2
      · exact h2
      · exact ih h2
      · exact h2
    · exact h1
    · exact h1

theorem DW.Since.receive {Q t0} {fid : Nat} {euid : UInt32} (hc : Q (.check fid)) (hr : ∀ c, Q (.read fid euid c c)) (csv : Bool) (n : Nat)
    {w : DW} (h : w.Since Q t0) : (w.receive fid euid csv n).1.Since Q t0 := by
  unfold DW.receive
  have h1 := h.sysRead hc hr frameSize n
  generalize w.sysRead fid euid frameSize n = x at h1
  obtain ⟨w1, r1⟩ := x
  cases r1 with
  | none => exact h1
  | some r1 =>
    dsimp only
    split
    · have h2 := DW.Since.sysRead hc hr entryMax n (w := w1) h1
      generalize w1.sysRead fid euid entryMax n = y at h2
      obtain ⟨w2, r2⟩ := y
      cases r2 <;> exact h2
    · exact h1

/-- C136 for `N` devices of the driver, each in a state it can be in, with the viewer's
reader at entry `p d`; `env` of each device is whatever others do to it before each
operation of the viewer, but they do not flush it. Any calls of `ulogcat3_process_logs`
come to an end, and if the logs are genuine and countable the bytes on the stream are
texts of the devices in turn, with banners, those of each device being the texts of its
committed entries. -/
theorem C136_follow {N : Nat} (hN : 0 < N) {L : Nat → Look} {csv : Bool} (hcsv : ∀ d, d < N → csv = decide ((L d).fmt = .csv))
    (hfix : ∀ d, d < N → (L d).kmsgd = true → (L d).fmt ≠ .csv) {name : Nat → Bytes} {k : Nat → Nat} {buf : Nat → Nat → UInt8}
    (hk : ∀ d, d < N → 14 ≤ k d) (hname : ∀ d, d < N → (name d).length ≤ 89) {fid : Nat} {w : Nat → DW}
    (hreal : ∀ d, d < N → (w d).Real (name d) (k d) (buf d)) (hos : ∀ d, d < N → (w d).os = [])
    (henv : ∀ d, d < N → ∀ l ∈ (w d).env, ∀ g, .flush g ∉ l) {p : Nat → Nat} (ha : ∀ d, d < N → At (name d) (w d).tr fid (p d))
    {paths : Nat → Bytes} {ans : Scr (Nat → DW) → OutEv → List WrAns} (hans : ∀ s e, ∃ n, ans s e = [.took n] ∧ 5248 ≤ n)
    {marks : List Nat} (hlen : marks.length = N) (dump : Bool) (l : List (Nat × Int)) {buf0 : Bytes} (hb : buf0.length = 5248)
    (euid : UInt32) (n : Nat) :
    ∃ c w', calls (fleet N fid euid csv (fun d => canRender (L d)) n) dump l (openCtx marks 0) w = .ok (c, w') ∧
      ((∀ d, d < N → Genuine (obs (name d) (w' d).tr).hist ∧ (obs (name d) (w' d).tr).hist.length < 2147483648) →
      ∃ t, calls ((fleet N fid euid csv (fun d => canRender (L d)) n).onto .file paths (fleetEntries N L fun d => (w' d).os) ans) dump l
          (openCtx marks 0) ⟨w, buf0, []⟩ = .ok (c, t) ∧ t.st = w' ∧
        ∃ v, t.bytes = screenOf paths (fun _ bs => bs) (decide (N > 1)) [] v ∧ (∀ x ∈ v, x.1 < N) ∧
        ∀ d, d < N → ∃ q rest, q ≤ (obs (name d) (w' d).tr).hist.length ∧
          OnScreen (L d) (name d) (2 ^ k d) (obs (name d) (w' d).tr).hist (p d) (partOf d v ++ rest) q ∧
          (rest = [] ∨ ∃ e, rest = entryText (L d) e)) := by
  obtain ⟨c, w', hc, _⟩ := C35_frames (fleet N fid euid csv (fun d => canRender (L d)) n) marks 0 dump l w
  have hc : calls (fleet N fid euid csv (fun d => canRender (L d)) n) dump l (openCtx marks 0) w = .ok (c, w') := hc
  refine ⟨c, w', hc, fun hg => ?_⟩
  have hrun : ∀ d, ∃ ops, d < N → Run (name d) (k d) (buf d) ops (w' d).sys (w' d).tr := by
    intro d
    by_cases hd : d < N
    · have h1 := (fleet_keeps N fid euid csv (fun d => canRender (L d)) n (d := d) (P := DW.Real (name d) (k d) (buf d))
        (fun h => ((h.others fid).exec rfl).1) (fun h => h.receive fid euid csv n) (fun h => h)).calls (hreal d hd) hc
      obtain ⟨ops, h⟩ := h1.run (hk d hd) (hname d hd) (hg d hd).1 (hg d hd).2
      exact ⟨ops, fun _ => h⟩
    · exact ⟨[], fun h => absurd h hd⟩
  refine C136_run hN (fid := fun _ => fid) (fun d hd => C136_fleet N fid euid csv _ n hd) hcsv hfix (fun _ _ => rfl) hans hlen hc hos hb
    (fun d hd => (hrun d).choose_spec hd) ha ?_
  intro d hd t ht x hx g hg'
  have h1 := (fleet_keeps N fid euid csv (fun d => canRender (L d)) n (d := d) (P := DW.Since (fun op => ∀ g, op ≠ .flush g) (w d).tr)
    (fun h => (h.others fid).exec (by simp)) (fun h => h.receive (by simp) (by simp) csv n) (fun h => h)).calls
    ⟨⟨[], by simp, nofun⟩, fun l hl op hop g e => henv d hd l hl g (e ▸ hop)⟩ hc
  obtain ⟨⟨u, h2, h3⟩, _⟩ := h1
  have : u = t := List.append_cancel_left (h2.symm.trans ht)
  subst this
  exact h3 x hx g (by rw [hg'])

end Verif.Ulogcat
