import Verif.Ulogcat.While

/-!
# From the calls of programs to the screen of a viewer that follows (C138)

Libulog in any number of processes (`wstep`), one driver for each log (`Kernel.run`), the
viewer's loop over all of them (`fleet`) and its output (`onto`), put together. The viewer
opens the logs when any part of the calls was made, and reads while the others are made:
before each operation of the viewer any further part is.
-/
namespace Verif.Ulogcat
open Verif Verif.Kernel Verif.Libulog

/-! ## Specification -/

/-- What is shown of the messages let through to a log (`ms`), from number `p` to number `q`:
the lines of each, or in their place a notice that some were lost, each of which was followed
by more than the ring holds less 8200 bytes. -/
inductive Watched (P : Nat → Prog) (L : Look) (name : Bytes) (size : Nat) (ms : List Said) : Nat → Bytes → Nat → Prop
  | nil {p} : Watched P L name size ms p [] p
  | said {p m bs q} (h : ms[p]? = some m) (ht : Watched P L name size ms (p + 1) bs q) :
      Watched P L name size ms p (m.lines P L ++ bs) q
  | lost {p n m bs q} (hn : 0 < n) (ho : ∀ i, p ≤ i → i < p + n → size < ((ms.drop i).map (·.size P)).sum + 8200) (h : ms[p + n]? = some m)
      (ht : Watched P L name size ms (p + n) bs q) :
      Watched P L name size ms p ((Row.notice n m).text P L name ++ bs) q

/-! ## What is shown, entry by entry -/

/-- The texts of the frames of the first calls. -/
theorem framesOf_first (L : Look) (d : Nat) (num : Nat → Nat) {what : Nat → Shown} (oa : List RecvOut) : ∀ (ob : List RecvOut),
    (∀ j, what (num j) = entriesBy L (oa ++ ob) j) → (framesOf d (canRender L) num oa).flatMap (frameText what) = receivedText L oa := by
  suffices H : ∀ (r ob : List RecvOut), (∀ j, what (num j) = entriesBy L (r.reverse ++ ob) j) →
      (framesOf d (canRender L) num r.reverse).flatMap (frameText what) = receivedText L r.reverse by
    have := H oa.reverse
    rw [List.reverse_reverse] at this
    exact this
  intro r
  induction r with
  | nil => intro ob _; rfl
  | cons o r ih =>
    intro ob hw
    rw [List.reverse_cons, List.append_assoc] at hw
    rw [List.reverse_cons, framesOf_snoc, List.flatMap_append, ih _ hw]
    unfold receivedText
    rw [List.flatMap_append]
    congr 1
    rw [List.flatMap_cons, List.flatMap_nil, List.append_nil]
    have hj := hw r.reverse.length
    unfold RecvOut.toRecv
    by_cases h1 : o.ret < 0
    · rw [if_pos h1, if_neg (by omega)]; rfl
    · rw [if_neg h1]
      by_cases h2 : o.ret = 0
      · rw [if_pos h2, if_neg (by omega)]; rfl
      · rw [if_neg h2]
        show [_].flatMap _ = _
        rw [List.flatMap_cons, List.flatMap_nil, List.append_nil]
        unfold frameText
        dsimp only
        by_cases h3 : canRender L o = true
        · rw [if_pos h3, if_pos ⟨by omega, h3⟩, hj]
          unfold entriesBy
          rw [List.getElem?_append_right (Nat.le_refl _), Nat.sub_self]
          show (if 0 < o.ret ∧ canRender L o = true then _ else _ : Shown).text = _
          rw [if_pos ⟨by omega, h3⟩]
        · rw [if_neg h3, if_neg (fun h => h3 h.2)]

variable {σ : Type} {W : World σ} {N : Nat} {fid : Nat → Nat} {euid : UInt32} {csv : Bool} {L : Nat → Look}
  {tr : Nat → σ → List (Op × Out)} {os : Nat → σ → List RecvOut}

/-- Of each device the same texts go to the screen whatever the frames are called that were handled. -/
theorem partOf_out {multi : Bool} {w w' : List Frame} (h : annotate multi [] w = annotate multi [] w') (what : Nat → Shown) (d : Nat) :
    partOf d (w.map fun f => (f.dev, frameText what f)) = partOf d (w'.map fun f => (f.dev, frameText what f)) := by
  rw [partOf_frames, partOf_frames, flatMap_frameText, flatMap_frameText, ← entriesOf_annotate d multi w [], h, entriesOf_annotate]

/-- The texts of each device in what was output, for any frames that account for it. -/
theorem exact_frames (D : ∀ d, d < N → Drives W d (fid d) euid csv (canRender (L d)) (callNum N d) (tr d) (os d))
    (hcsv : ∀ d, d < N → csv = decide ((L d).fmt = .csv)) (hfix : ∀ d, d < N → (L d).kmsgd = true → (L d).fmt ≠ .csv)
    {marks : List Nat} {dump : Bool} {l : List (Nat × Int)}
    {c : Ctx} {s s' : σ} {all : Nat → List RecvOut} (hc : calls W dump l (openCtx marks 0) s = .ok (c, s'))
    (hall : ∀ d, d < N → all d = os d s') (hos : ∀ d, d < N → os d s = [])
    (hok : c.outErr = false) {name : Nat → Bytes} {k : Nat → Nat} {buf : Nat → Nat → UInt8} {ops : Nat → List Op} {sys : Nat → Sys}
    (hrun : ∀ d, d < N → Run (name d) (k d) (buf d) (ops d) (sys d) (tr d s')) {p : Nat → Nat}
    (ha : ∀ d, d < N → At (name d) (tr d s) (fid d) (p d)) (hnf : ∀ d, d < N → ∀ t, tr d s' = tr d s ++ t → NoFlush t)
    {w0 : List Frame} (hw0 : c.out = annotate (decide (marks.length > 1)) [] w0) {d : Nat} (hd : d < N) :
    ∃ r q rest, OnScreen (L d) (name d) (2 ^ k d) (obs (name d) (tr d s')).hist (p d)
        (partOf d (w0.map fun f => (f.dev, frameText (fleetEntries N L all) f))) r ∧
      OnScreen (L d) (name d) (2 ^ k d) (obs (name d) (tr d s')).hist r rest q ∧ q ≤ (obs (name d) (tr d s')).hist.length ∧
      (rest = [] ∧ q = r ∨ ∃ e, rest = entryText (L d) e) ∧ At (name d) (tr d s') (fid d) q ∧ (c.pendQ = [] → r = q) := by
  obtain ⟨w, pend, hpq, _, hout, hdev, hsplit⟩ := live_frames D hc hos
  have hout := hout hok
  have hfol := fun d (hd : d < N) => (C90_printed (D d hd) hc (hos d hd) (hrun d hd) (ha d hd) (hnf d hd)).1
  obtain ⟨q, hqa, hq, hfo⟩ := hfol d hd
  obtain ⟨h1, h2⟩ := hsplit d hd
  have hw : ∀ j, fleetEntries N L all (callNum N d j) = entriesBy (L d) (os d s') j := by
    intro j
    rw [fleetEntries_num hd, hall d hd]
  rw [partOf_out (hw0.symm.trans hout), partOf_frames]
  have hpn : c.pendQ = [] → pend.filter (fun f => f.dev == d) = [] := fun h => by rw [hpq, h]; rfl
  revert h1 h2 hpn
  generalize pend.filter (fun f => f.dev == d) = waiting
  intro h1 h2 hpn
  match waiting, h2 with
  | [], _ =>
    rw [List.append_nil] at h1
    rw [h1, framesOf_texts (L d) d (callNum N d) hw]
    exact ⟨q, q, [], hfo.screen (hfix d hd) (hcsv d hd), .nil, hq, .inl ⟨rfl, rfl⟩, hqa, fun _ => rfl⟩
  | [f], _ =>
    obtain ⟨oa, o, ob, g1, g2, g3, _⟩ := framesOf_mid d _ _ h1.symm
    have hos' : os d s' = oa ++ o :: ob := g1
    have hfo : Follows (name d) (2 ^ k d) (obs (name d) (tr d s')).hist csv (p d) (os d s') q := hfo
    rw [hos'] at hfo
    obtain ⟨r, h3, h4⟩ := Follows.split oa hfo
    rw [← g2, framesOf_first (L d) d (callNum N d) oa (o :: ob) (by intro j; rw [hw, hos'])]
    refine ⟨r, q, receivedText (L d) (o :: ob), h3.screen (hfix d hd) (hcsv d hd), h4.screen (hfix d hd) (hcsv d hd), hq, .inr ?_, hqa, fun h => by have := hpn h; simp at this⟩
    have e1 := framesOf_texts (L d) d (callNum N d) hw
    obtain ⟨e, he⟩ := frame_text (hfix d hd) (hcsv d hd) hw (by rw [hos']; exact hfo.received) (f := f) (by
      have : framesOf d (canRender (L d)) (callNum N d) (os d s') = _ := h1.symm
      rw [this]; simp)
    refine ⟨e, ?_⟩
    have h1' : framesOf d (canRender (L d)) (callNum N d) (os d s') = _ := h1.symm
    rw [h1', ← g2, List.flatMap_append, framesOf_first (L d) d (callNum N d) oa (o :: ob) (by intro j; rw [hw, hos']), hos'] at e1
    have e2 : receivedText (L d) (oa ++ o :: ob) = receivedText (L d) oa ++ receivedText (L d) (o :: ob) := by
      unfold receivedText; rw [List.flatMap_append]
    rw [e2] at e1
    have := List.append_cancel_left e1
    rw [← this, List.flatMap_cons, List.flatMap_nil, List.append_nil, he]
  | _ :: _ :: _, h => simp at h

/-- C136, exactly: of each device the screen shows the texts of its committed entries from
where the viewer was to some entry, and at most one text is received and not yet shown. -/
theorem C136_exact (hN : 0 < N) (D : ∀ d, d < N → Drives W d (fid d) euid csv (canRender (L d)) (callNum N d) (tr d) (os d))
    (hcsv : ∀ d, d < N → csv = decide ((L d).fmt = .csv)) (hfix : ∀ d, d < N → (L d).kmsgd = true → (L d).fmt ≠ .csv)
    {paths : Nat → Bytes} {ans : Scr σ → OutEv → List WrAns} {marks : List Nat} (hlen : marks.length = N) {dump : Bool} {l : List (Nat × Int)}
    {c : Ctx} {s s' : Scr σ} {all : Nat → List RecvOut}
    (hc : calls (W.onto .file paths (fleetEntries N L all) ans) dump l (openCtx marks 0) s = .ok (c, s'))
    (hall : ∀ d, d < N → all d = os d s'.st) (hos : ∀ d, d < N → os d s.st = []) (hb : s.buf.length = 5248) (h0 : s.bytes = [])
    (hok : c.outErr = false) {name : Nat → Bytes} {k : Nat → Nat} {buf : Nat → Nat → UInt8} {ops : Nat → List Op} {sys : Nat → Sys}
    (hrun : ∀ d, d < N → Run (name d) (k d) (buf d) (ops d) (sys d) (tr d s'.st)) {p : Nat → Nat}
    (ha : ∀ d, d < N → At (name d) (tr d s.st) (fid d) (p d)) (hnf : ∀ d, d < N → ∀ t, tr d s'.st = tr d s.st ++ t → NoFlush t) :
    ∃ v, s'.bytes = screenOf paths (fun _ bs => bs) (decide (N > 1)) [] v ∧ (∀ x ∈ v, x.1 < N) ∧
      ∀ d, d < N → ∃ r q rest, OnScreen (L d) (name d) (2 ^ k d) (obs (name d) (tr d s'.st)).hist (p d) (partOf d v) r ∧
        OnScreen (L d) (name d) (2 ^ k d) (obs (name d) (tr d s'.st)).hist r rest q ∧ q ≤ (obs (name d) (tr d s'.st)).hist.length ∧
        (rest = [] ∧ q = r ∨ ∃ e, rest = entryText (L d) e) ∧ At (name d) (tr d s'.st) (fid d) q ∧ (c.pendQ = [] → r = q) := by
  have D' := fun d hd => (D d hd).onto .file paths (fleetEntries N L all) ans
  obtain ⟨w, pend, _, _, hout, hdev, -⟩ := live_frames D' hc hos
  have hout := hout hok
  have hfol := fun d (hd : d < N) => (C90_printed (D' d hd) hc (hos d hd) (hrun d hd) (ha d hd) (hnf d hd)).1
  have hcan : ∀ i, CanShow (fleetEntries N L all i) := by
    intro i
    have hd := Nat.mod_lt i hN
    obtain ⟨q, _, _, hfo⟩ := hfol (i % N) hd
    exact entriesBy_can (hfix _ hd) (hcsv _ hd) (by rw [hall _ hd]; exact hfo.received) _
  have hbytes := (C96_file W hcan ans hb h0 hc).1 hok
  rw [hout, annotate_screen, hlen] at hbytes
  refine ⟨w.map fun f => (f.dev, frameText (fleetEntries N L all) f), hbytes, ?_, fun d hd => ?_⟩
  · intro x hx
    obtain ⟨f, hf, rfl⟩ := List.mem_map.1 hx
    rw [← hlen]
    exact hdev f hf
  · exact exact_frames D' hcsv hfix hc hall hos hok hrun ha hnf hout hd

/-- The same, with the stream: any calls that end without a stream end with one that takes
everything, in the same way. -/
theorem C136_runs (hN : 0 < N) (D : ∀ d, d < N → Drives W d (fid d) euid csv (canRender (L d)) (callNum N d) (tr d) (os d))
    (hcsv : ∀ d, d < N → csv = decide ((L d).fmt = .csv)) (hfix : ∀ d, d < N → (L d).kmsgd = true → (L d).fmt ≠ .csv)
    (hW : ∀ s e, (W.output s e).1 = true) {paths : Nat → Bytes} {ans : Scr σ → OutEv → List WrAns}
    (hans : ∀ s e, ∃ n, ans s e = [.took n] ∧ 5248 ≤ n) {marks : List Nat} (hlen : marks.length = N) {dump : Bool} {l : List (Nat × Int)}
    {c : Ctx} {s s' : σ} (hc : calls W dump l (openCtx marks 0) s = .ok (c, s')) (hos : ∀ d, d < N → os d s = []) {buf0 : Bytes}
    (hb : buf0.length = 5248) {name : Nat → Bytes} {k : Nat → Nat} {buf : Nat → Nat → UInt8} {ops : Nat → List Op} {sys : Nat → Sys}
    (hrun : ∀ d, d < N → Run (name d) (k d) (buf d) (ops d) (sys d) (tr d s')) {p : Nat → Nat}
    (ha : ∀ d, d < N → At (name d) (tr d s) (fid d) (p d)) (hnf : ∀ d, d < N → ∀ t, tr d s' = tr d s ++ t → NoFlush t) :
    ∃ t, calls (W.onto .file paths (fleetEntries N L fun d => os d s') ans) dump l (openCtx marks 0) ⟨s, buf0, []⟩ = .ok (c, t) ∧ t.st = s' ∧
      ∃ v, t.bytes = screenOf paths (fun _ bs => bs) (decide (N > 1)) [] v ∧ (∀ x ∈ v, x.1 < N) ∧
      ∀ d, d < N → ∃ r q rest, OnScreen (L d) (name d) (2 ^ k d) (obs (name d) (tr d s')).hist (p d) (partOf d v) r ∧
        OnScreen (L d) (name d) (2 ^ k d) (obs (name d) (tr d s')).hist r rest q ∧ q ≤ (obs (name d) (tr d s')).hist.length ∧
        (rest = [] ∧ q = r ∨ ∃ e, rest = entryText (L d) e) ∧ At (name d) (tr d s') (fid d) q ∧ (c.pendQ = [] → r = q) := by
  have hcan : ∀ i, CanShow (fleetEntries N L (fun d => os d s') i) := by
    intro i
    have hd := Nat.mod_lt i hN
    obtain ⟨⟨q, _, _, hfo⟩, _⟩ := C90_printed (D _ hd) hc (hos _ hd) (hrun _ hd) (ha _ hd) (hnf _ hd)
    exact entriesBy_can (hfix _ hd) (hcsv _ hd) hfo.received _
  have htake := takes_all (paths := paths) hcan hans
  have hsim := (onto_sim (W := W) hcan htake hW).calls dump l (openCtx marks 0) (s := s) (t := ⟨s, buf0, []⟩) ⟨rfl, hb⟩
  rw [hc] at hsim
  cases hx : calls (W.onto .file paths (fleetEntries N L fun d => os d s') ans) dump l (openCtx marks 0) ⟨s, buf0, []⟩ with
  | error e => rw [hx] at hsim; exact hsim.elim
  | ok y =>
    obtain ⟨c', t⟩ := y
    rw [hx] at hsim
    obtain ⟨e1, e2, _⟩ := hsim
    dsimp only at e1 e2
    subst e1
    refine ⟨t, rfl, e2, ?_⟩
    have := C136_exact hN D hcsv hfix hlen hx (by rw [e2]; exact fun _ _ => rfl) hos hb rfl (calls_outErr hW hc)
      (by rw [e2]; exact hrun) ha (by rw [e2]; exact hnf)
    rw [e2] at this
    exact this

/-! ## Messages -/

theorem OnScreen.le {L : Look} {name : Bytes} {size : Nat} {hist : List Entry} {p q : Nat} {bs : Bytes}
    (h : OnScreen L name size hist p bs q) : p ≤ q := by
  induction h with
  | nil => exact Nat.le_refl _
  | entry _ _ ih => omega
  | lost _ _ _ _ ih => omega

theorem OnScreen.watched {P : Nat → Prog} {L : Look} (hkd : L.kmsgd = false) {name : Bytes} (hn0 : NoNul name) {size : Nat} {ms : List Said}
    (hms : ∀ m ∈ ms, m.Plain P) (hcount : ms.length < 2147483648) {p q : Nat} {bs : Bytes}
    (h : OnScreen L name size (ms.map (·.entry P)) p bs q) : Watched P L name size ms p bs q := by
  have hget : ∀ {i : Nat} {e : Entry}, (ms.map (·.entry P))[i]? = some e → ∃ m : Said, ms[i]? = some m ∧ m.entry P = e := by
    intro i e h
    rw [List.getElem?_map, Option.map_eq_some_iff] at h
    exact h
  induction h with
  | nil => exact .nil
  | entry h _ ih =>
    obtain ⟨m, h1, rfl⟩ := hget h
    rw [Said.entry_text (hms m (List.mem_of_getElem? h1)) hkd]
    exact .said h1 ih
  | lost hn ho h _ ih =>
    obtain ⟨m, h1, rfl⟩ := hget h
    have hlt := (List.getElem?_eq_some_iff.1 h1).1
    rw [C98_notice L hkd hn0 (by omega)]
    refine .lost hn (fun i g1 g2 => ?_) h1 ih
    have := ho i g1 g2
    rw [← List.map_drop, said_bytes] at this
    exact this

/-- If all that is logged leaves room nothing is lost. -/
theorem Watched.all {P : Nat → Prog} {L : Look} {name : Bytes} {size : Nat} {ms : List Said} {p q : Nat} {bs : Bytes}
    (h : Watched P L name size ms p bs q) (hroom : (ms.map (·.size P)).sum + 8200 ≤ size) :
    p ≤ q ∧ bs = ((ms.drop p).take (q - p)).flatMap (·.lines P L) := by
  induction h with
  | nil => simp
  | said h _ ih =>
    obtain ⟨h1, h2⟩ := ih
    refine ⟨by omega, ?_⟩
    rename_i p m bs q _
    obtain ⟨hlt, hm⟩ := List.getElem?_eq_some_iff.1 h
    rw [List.drop_eq_getElem_cons hlt, hm, show q - p = (q - (p + 1)) + 1 by omega, List.take_succ_cons, List.flatMap_cons, h2]
  | @lost p n _ _ _ hn ho _ _ _ =>
    have := ho p (by omega) (by omega)
    have hle : ((ms.drop p).map (·.size P)).sum ≤ (ms.map (·.size P)).sum := by
      have := congrArg (fun l => (l.map (·.size P)).sum) (List.take_append_drop p ms)
      simp only [List.map_append, List.sum_append] at this
      omega
    omega

/-! ## Calls of programs -/

theorem sayAll_ops {P : Nat → Prog} {junk : Nat → UInt8} (ms : List Said) : ∀ {libs : Nat → Lib} {ops : List Op}, sayAll P junk libs ms = .ok ops →
    ∀ op ∈ ops, op.fid ≠ 0 ∧ ∀ g, op ≠ .flush g := by
  induction ms with
  | nil => intro libs ops h; cases h; simp
  | cons m ms ih =>
    intro libs ops h
    unfold sayAll at h
    simp only [bind, Except.bind] at h
    split at h
    · cases h
    · rename_i x hx
      split at h
      · cases h
      · rename_i r hr
        cases h
        intro op hop
        rcases List.mem_append.1 hop with hop | hop
        · refine ⟨?_, driverOps_flush _ _ _ _ op hop⟩
          obtain ⟨ev, _, hev⟩ := List.mem_flatMap.1 hop
          unfold driverOps at hev
          split at hev <;> simp at hev <;> rw [hev] <;> simp [Op.fid]
        · exact ih hr op hop

theorem arun_file (f : Nat) (ops : List Op) : ∀ {a : ASys}, (∀ op ∈ ops, op.fid ≠ f) → (arun a ops).1.files f = a.files f := by
  induction ops with
  | nil => intro a _; rfl
  | cons op ops ih =>
    intro a h
    have := ih (a := (astep a op).1) fun x hx => h x (by simp [hx])
    have h2 := (astep_files (a := a) (b := a) (op := op) rfl).2.1 f (fun e => h op (by simp) e.symm)
    exact this.trans h2

theorem base_step (name : Bytes) (o : Obs) (x : Op × Out) (h : ∀ g, x.1 ≠ .flush g) : (obsStep name o x).base = o.base := by
  obtain ⟨op, out⟩ := x
  cases op with
  | flush g => exact absurd rfl (h g)
  | setVersion f v => cases v <;> cases out <;> rfl
  | setRaw f c v => cases v <;> cases out <;> rfl
  | write f t it j =>
    cases out <;> try rfl
    simp only [obsStep]
    repeat' split
    all_goals rfl
  | _ => cases out <;> rfl

theorem base_run (name : Bytes) (tr : List (Op × Out)) : ∀ {o : Obs}, (∀ x ∈ tr, ∀ g, x.1 ≠ .flush g) → (tr.foldl (obsStep name) o).base = o.base := by
  induction tr with
  | nil => intro o _; rfl
  | cons x tr ih =>
    intro o h
    rw [List.foldl_cons, ih fun y hy => h y (by simp [hy]), base_step name o x (h x (by simp))]

/-- Part of the calls that were made. -/
theorem Logged.first {name : Bytes} {k : Nat} {B C : List Op} {es : List Entry} (h : Logged name k (B ++ C) es)
    (hA : ∀ op ∈ B ++ C, op.fid ≠ 0 ∧ ∀ g, op ≠ .flush g) : ∃ j, j ≤ es.length ∧ (C = [] → j = es.length) ∧ Logged name k B (es.take j) := by
  have hB : ∀ op ∈ B, op.fid ≠ 0 ∧ ∀ g, op ≠ .flush g := fun op hop => hA op (List.mem_append_left _ hop)
  have hm : ((arun (ainit name k) B).2.foldl (obsStep name) Obs.init).hist <+: es := by
    have := h.hist
    rw [arun_append, List.foldl_append] at this
    rw [← this]
    exact hist_mono name _ _
  obtain ⟨t, ht⟩ := hm
  refine ⟨((arun (ainit name k) B).2.foldl (obsStep name) Obs.init).hist.length, by rw [← ht]; simp, ?_, ?_, ?_, ?_, ?_⟩
  · intro hc
    have := h.hist
    rw [hc, List.append_nil] at this
    rw [this]
  · exact fun op hop => h.supported op (List.mem_append_left _ hop)
  · rw [arun_file 0 B fun op hop => (hB op hop).1]; rfl
  · rw [base_run]
    · rfl
    · intro x hx
      have : x.1 ∈ (arun (ainit name k) B).2.map Prod.fst := List.mem_map_of_mem hx
      rw [arun_fst] at this
      exact (hB _ this).2
  · rw [← ht, List.take_left']
    rfl

/-- What others did or will do is part of these calls, so what is in the log is part of what
they log. -/
theorem DW.Doing.part {name : Bytes} {k : Nat} {buf : Nat → UInt8} {A : List Op} {es : List Entry} (hL : Logged name k A es)
    (hA : ∀ op ∈ A, op.fid ≠ 0 ∧ ∀ g, op ≠ .flush g) (hk : 14 ≤ k) (hn : name.length ≤ 89) {w : DW} (h : w.Doing name k buf 0 A) :
    ∃ j, j ≤ es.length ∧ (w.env = [] → j = es.length) ∧ (obs name w.tr).hist = es.take j := by
  obtain ⟨B, C, h1, h2, h3⟩ := h.hist hk hn
  subst h1
  obtain ⟨j, g1, g2, g3⟩ := hL.first hA
  exact ⟨j, g1, fun he => g2 (h2 he), h3.trans g3.hist⟩

/-- A viewer that opens the device in the middle of these calls. -/
theorem watching {name : Bytes} {k : Nat} {pre : List Op} {env : List (List Op)} {es : List Entry} (hL : Logged name k (pre ++ env.flatten) es)
    (hA : ∀ op ∈ pre ++ env.flatten, op.fid ≠ 0 ∧ ∀ g, op ≠ .flush g) (buf : Nat → UInt8) (hk : 14 ≤ k) (hname : name.length ≤ 89)
    (hgen : Genuine es) (hcount : es.length < 2147483648) :
    ∃ sys t0 m, Kernel.run (Kernel.init name k buf) (pre ++ [.openF 0 true false true, .getLogLen 0]) = .ok (sys, t0 ++ [(.getLogLen 0, .ret m)]) ∧
      At name t0 0 0 ∧ (obs name t0).hist = (obs name (arun (ainit name k) pre).2).hist ∧
      At name (t0 ++ [(.getLogLen 0, .ret m)]) 0 0 ∧
      DW.Doing name k buf 0 (pre ++ env.flatten) { sys, tr := t0 ++ [(.getLogLen 0, .ret m)], os := [], env } := by
  obtain ⟨j, g1, g2, g3⟩ := hL.first hA
  have hlen : (es.take j).length ≤ es.length := by rw [List.length_take]; omega
  obtain ⟨sys, t0, m, e1, e2, e3, e4, _, e5⟩ := g3.asked buf hk hname (fun e he => hgen e (List.mem_of_mem_take he)) (by omega)
  refine ⟨sys, t0, m, e2, e4, e3.trans g3.hist.symm, e5.pos, ⟨⟨_, ?_, e2⟩, ?_⟩, ?_, ?_⟩
  · intro op hop
    rcases List.mem_append.1 hop with h | h
    · exact g3.supported op h
    · rcases List.mem_cons.1 h with rfl | h
      · rfl
      · rw [List.mem_singleton.1 h]; rfl
  · intro l hl op hop
    exact hL.supported op (List.mem_append_right _ (List.mem_flatten.2 ⟨l, hl, hop⟩))
  · dsimp only
    have h1 : pre.filter (fun op => decide (op.fid ≠ 0)) = pre :=
      List.filter_eq_self.2 fun op hop => by simpa using (hA op (List.mem_append_left _ hop)).1
    have h2 : env.flatten.filter (fun op => decide (op.fid ≠ 0)) = env.flatten :=
      List.filter_eq_self.2 fun op hop => by simpa using (hA op (List.mem_append_right _ hop)).1
    rw [e1]
    simp only [List.map_append, List.map_cons, List.map_nil, arun_fst, List.filter_append, h1, h2]
    simp [Op.fid]
  · intro x hx hf
    dsimp only at hx
    rw [e1] at hx
    simp only [List.append_assoc, List.mem_append, List.mem_cons, List.not_mem_nil, or_false] at hx
    rcases hx with hx | hx
    · have : x.1 ∈ (arun (ainit name k) pre).2.map Prod.fst := List.mem_map_of_mem hx
      rw [arun_fst] at this
      exact absurd hf (hA _ (List.mem_append_left _ this)).1
    · rcases hx with rfl | rfl <;> rfl

/-- What holds of a log while the programs of C138 run. -/
theorem DW.Doing.messages {P : Nat → Prog} {ms : List Said} (hms : ∀ m ∈ ms, m.Plain P) (hcount : ms.length < 2147483648) {name : Bytes}
    {k : Nat} {buf : Nat → UInt8} {A : List Op} (hL : Logged name k A ((ms.filter (·.passes P)).map (·.entry P)))
    (hA : ∀ op ∈ A, op.fid ≠ 0 ∧ ∀ g, op ≠ .flush g) (hk : 14 ≤ k) (hn : name.length ≤ 89) {w : DW} (h : w.Doing name k buf 0 A) :
    (∃ ops, Run name k buf ops w.sys w.tr) ∧ ∃ j, j ≤ (ms.filter (·.passes P)).length ∧ (w.env = [] → j = (ms.filter (·.passes P)).length) ∧
      (obs name w.tr).hist = ((ms.filter (·.passes P)).take j).map (·.entry P) := by
  obtain ⟨j, g1, g2, g3⟩ := h.part hL hA hk hn
  rw [List.length_map] at g1 g2
  rw [← List.map_take] at g3
  have hle := List.length_filter_le (·.passes P) ms
  refine ⟨h.1.run hk hn ?_ ?_, j, g1, g2, g3⟩
  · rw [g3]
    intro e he
    obtain ⟨m, hm, rfl⟩ := List.mem_map.1 he
    exact (hms m (List.mem_filter.1 (List.mem_of_mem_take hm)).1).task
  · rw [g3, List.length_map, List.length_take]
    omega

/-- Programs say things, `N` devices taking them, while a viewer opens the devices and reads
them in any number of calls of `ulogcat3_process_logs`. -/
structure Scene (N : Nat) (P : Nat → Nat → Prog) (junk : Nat → UInt8) (ms : Nat → List Said) (name : Nat → Bytes) (k : Nat → Nat)
    (buf : Nat → Nat → UInt8) (pre : Nat → List Op) (w : Nat → DW) (m : Nat → Nat) : Prop where
  /-- The calls of the driver that the programs make are those made before the devices were
  opened and those to come. -/
  says : ∀ i, i < N → sayAll (P i) junk (fun _ => .start) (ms i) = .ok (pre i ++ (w i).env.flatten)
  /-- The devices were opened, which were asked for the amount. -/
  opens : ∀ i, i < N → ∃ tr, (w i).tr = tr ++ [(.getLogLen 0, .ret (m i))] ∧
    Kernel.run (Kernel.init (name i) (k i) (buf i)) (pre i ++ [.openF 0 true false true, .getLogLen 0]) = .ok ((w i).sys, (w i).tr)
  fresh : ∀ i, i < N → (w i).os = []

section
variable {N : Nat} {D : Nat → Bytes} {P : Nat → Nat → Prog} {ms : Nat → List Said} {junk : Nat → UInt8} {name : Nat → Bytes} {k : Nat → Nat}
  {buf : Nat → Nat → UInt8} {pre : Nat → List Op} {w : Nat → DW} {m : Nat → Nat}

/-- What was said first was done first. -/
theorem sayAll_prefix {P : Nat → Prog} {junk : Nat → UInt8} (a b : List Said) : ∀ {libs : Nat → Lib} {ops : List Op}, sayAll P junk libs (a ++ b) = .ok ops →
    ∃ pre rest, sayAll P junk libs a = .ok pre ∧ ops = pre ++ rest := by
  induction a with
  | nil => intro libs ops _; exact ⟨[], ops, rfl, rfl⟩
  | cons m a ih =>
    intro libs ops h
    unfold sayAll
    simp only [List.cons_append] at h
    unfold sayAll at h
    simp only [bind, Except.bind] at h ⊢
    split at h
    · cases h
    · rename_i x hx
      split at h
      · cases h
      · rename_i r hr
        cases h
        obtain ⟨pre, rest, h1, rfl⟩ := ih hr
        rw [h1]
        exact ⟨_, rest, rfl, by simp⟩

theorem sayAll_logged {D : Bytes} {P : Nat → Prog} (hP : ∀ p, (P p).Plain D) {ms : List Said} {junk : Nat → UInt8} {A : List Op}
    (h : sayAll P junk (fun _ => .start) ms = .ok A) (name : Bytes) (k : Nat) :
    Logged name k A ((ms.filter (·.passes P)).map (·.entry P)) := by
  obtain ⟨ops, h1, h2, _⟩ := said_logged hP ms junk name k
  rw [h] at h1
  cases h1
  exact h2

/-- C138. Whatever is said, and however the calls the programs make are divided among those
before the viewer opens the devices and those before each call of the viewer, there is such a
scene. -/
theorem C138_scene (hP : ∀ i, i < N → ∀ p, (P i p).Plain (D i)) (hms : ∀ i, i < N → ∀ m ∈ ms i, m.Plain (P i)) (junk : Nat → UInt8)
    (buf : Nat → Nat → UInt8) (hk : ∀ i, i < N → 14 ≤ k i) (hname : ∀ i, i < N → (name i).length ≤ 89)
    (hcount : ∀ i, i < N → (ms i).length < 2147483648) :
    ∃ A : Nat → List Op, (∀ i, i < N → sayAll (P i) junk (fun _ => .start) (ms i) = .ok (A i)) ∧
      ∀ (pre : Nat → List Op) (env : Nat → List (List Op)), (∀ i, i < N → pre i ++ (env i).flatten = A i) →
        ∃ w m, Scene N P junk ms name k buf pre w m ∧ ∀ i, i < N → (w i).env = env i := by
  have hex : ∀ i, ∃ A, i < N → sayAll (P i) junk (fun _ => .start) (ms i) = .ok A := by
    intro i
    by_cases hi : i < N
    · obtain ⟨A, h, _⟩ := said_logged (hP i hi) (ms i) junk [] 14
      exact ⟨A, fun _ => h⟩
    · exact ⟨[], fun h => absurd h hi⟩
  obtain ⟨A, hA⟩ := Classical.axiomOfChoice hex
  refine ⟨A, hA, fun pre env he => ?_⟩
  have hex : ∀ i, ∃ x : DW × Nat, i < N → (x.1.os = [] ∧ x.1.env = env i ∧ ∃ tr, x.1.tr = tr ++ [(.getLogLen 0, .ret x.2)] ∧
      Kernel.run (Kernel.init (name i) (k i) (buf i)) (pre i ++ [.openF 0 true false true, .getLogLen 0]) = .ok (x.1.sys, x.1.tr)) := by
    intro i
    by_cases hi : i < N
    · have hs := hA i hi
      rw [← he i hi] at hs
      have hL := sayAll_logged (hP i hi) hs (name i) (k i)
      have hle := List.length_filter_le (·.passes (P i)) (ms i)
      obtain ⟨sys, t0, m, h1, _⟩ := watching hL (sayAll_ops _ hs) (buf i) (hk i hi) (hname i hi)
        (fun e he => by
          obtain ⟨m, hm, rfl⟩ := List.mem_map.1 he
          exact (hms i hi m (List.mem_filter.1 hm).1).task)
        (by have := hcount i hi; rw [List.length_map]; omega)
      exact ⟨⟨{ sys, tr := t0 ++ [(.getLogLen 0, .ret m)], os := [], env := env i }, m⟩, fun _ => ⟨rfl, rfl, t0, rfl, h1⟩⟩
    · exact ⟨⟨{ sys := Kernel.init [] 14 fun _ => 0, tr := [], os := [], env := [] }, 0⟩, fun h => absurd h hi⟩
  obtain ⟨x, hx⟩ := Classical.axiomOfChoice hex
  refine ⟨fun i => (x i).1, fun i => (x i).2, ⟨fun i hi => ?_, fun i hi => (hx i hi).2.2, fun i hi => (hx i hi).1⟩, fun i hi => (hx i hi).2.1⟩
  rw [(hx i hi).2.1, he i hi]
  exact hA i hi

theorem Scene.doing (hs : Scene N P junk ms name k buf pre w m) (hP : ∀ i, i < N → ∀ p, (P i p).Plain (D i))
    (hms : ∀ i, i < N → ∀ m ∈ ms i, m.Plain (P i)) (hk : ∀ i, i < N → 14 ≤ k i) (hname : ∀ i, i < N → (name i).length ≤ 89)
    (hcount : ∀ i, i < N → (ms i).length < 2147483648) {i : Nat} (hi : i < N) :
    (∃ t0, (w i).tr = t0 ++ [(.getLogLen 0, .ret (m i))] ∧ At (name i) t0 0 0 ∧
      (obs (name i) t0).hist = (obs (name i) (arun (ainit (name i) (k i)) (pre i)).2).hist) ∧
    At (name i) (w i).tr 0 0 ∧ (w i).Doing (name i) (k i) (buf i) 0 (pre i ++ (w i).env.flatten) := by
  have hle := List.length_filter_le (·.passes (P i)) (ms i)
  obtain ⟨sys, t0, m', h1, h2, h3, h4, h5⟩ := watching (sayAll_logged (hP i hi) (hs.says i hi) (name i) (k i)) (sayAll_ops _ (hs.says i hi)) (buf i)
    (hk i hi) (hname i hi)
    (fun e he => by
      obtain ⟨m, hm, rfl⟩ := List.mem_map.1 he
      exact (hms i hi m (List.mem_filter.1 hm).1).task)
    (by have := hcount i hi; rw [List.length_map]; omega)
  obtain ⟨tr, g1, g2⟩ := hs.opens i hi
  rw [h1] at g2
  simp only [Except.ok.injEq, Prod.mk.injEq] at g2
  obtain ⟨e1, e2⟩ := g2
  have h6 := g1
  rw [← e2] at h6
  have h7 := (List.append_inj' h6 rfl)
  obtain ⟨rfl, h8⟩ := h7
  simp only [List.cons.injEq, Prod.mk.injEq, Out.ret.injEq, true_and, and_true] at h8
  have hw : w i = { sys, tr := t0 ++ [(.getLogLen 0, .ret m')], os := [], env := (w i).env } := by
    have := hs.fresh i hi
    generalize w i = x at *
    obtain ⟨a, b, c, d⟩ := x
    dsimp only at *
    rw [e1, e2, this]
  refine ⟨⟨t0, g1, h2, h3⟩, ?_, ?_⟩
  · rw [← e2]; exact h4
  · rw [hw]; exact h5

/-- What the programs have done to the devices after any calls, and what texts of entries are
texts of messages. -/
theorem Scene.facts (hP : ∀ i, i < N → ∀ p, (P i p).Plain (D i)) (hms : ∀ i, i < N → ∀ m ∈ ms i, m.Plain (P i))
    (hk : ∀ i, i < N → 14 ≤ k i) (hname : ∀ i, i < N → (name i).length ≤ 89) (hn0 : ∀ i, i < N → NoNul (name i))
    (hcount : ∀ i, i < N → (ms i).length < 2147483648) {L : Nat → Look} {csv : Bool}
    (hkd : ∀ i, i < N → (L i).kmsgd = false) (hs : Scene N P junk ms name k buf pre w m)
    {marks : List Nat} {dump : Bool} {l : List (Nat × Int)} {euid : UInt32} {n : Nat} {c : Ctx} {w' : Nat → DW}
    (hc : calls (fleet N 0 euid csv (fun d => canRender (L d)) n) dump l (openCtx marks 0) w = .ok (c, w')) :
    (∃ ops : Nat → List Op, ∀ d, d < N → Run (name d) (k d) (buf d) (ops d) (w' d).sys (w' d).tr) ∧
      (∀ d, d < N → ∀ t, (w' d).tr = (w d).tr ++ t → NoFlush t) ∧ (∀ d, d < N → At (name d) (w d).tr 0 0) ∧
      ∀ d, d < N → ∀ {bs rest : Bytes} {r q : Nat}, OnScreen (L d) (name d) (2 ^ k d) (obs (name d) (w' d).tr).hist 0 bs r →
        OnScreen (L d) (name d) (2 ^ k d) (obs (name d) (w' d).tr).hist r rest q → q ≤ (obs (name d) (w' d).tr).hist.length →
        ∃ j, r ≤ q ∧ q ≤ j ∧ j ≤ ((ms d).filter (·.passes (P d))).length ∧ ((w' d).env = [] → j = ((ms d).filter (·.passes (P d))).length) ∧
          Watched (P d) (L d) (name d) (2 ^ k d) (((ms d).filter (·.passes (P d))).take j) 0 bs r ∧
          (obs (name d) (w' d).tr).hist.length = j := by
  have hdo := fun {i} (hi : i < N) => hs.doing hP hms hk hname hcount hi
  have hafter : ∀ {d}, d < N → (w' d).Doing (name d) (k d) (buf d) 0 (pre d ++ (w d).env.flatten) := by
    intro d hd
    exact (fleet_keeps N 0 euid csv (fun d => canRender (L d)) n (d := d) (P := DW.Doing (name d) (k d) (buf d) 0 (pre d ++ (w d).env.flatten))
      (fun h => (h.others (hk d hd) (hname d hd)).exec (hk d hd) (hname d hd) rfl rfl rfl) (fun h => h.receive (hk d hd) (hname d hd) euid csv n)
      (fun h => h)).calls (hdo hd).2.2 hc
  have hmess := fun {d} (hd : d < N) => (hafter hd).messages (hms d hd) (hcount d hd) (sayAll_logged (hP d hd) (hs.says d hd) (name d) (k d))
    (sayAll_ops _ (hs.says d hd)) (hk d hd) (hname d hd)
  have hrun : ∀ d, ∃ ops, d < N → Run (name d) (k d) (buf d) ops (w' d).sys (w' d).tr := by
    intro d
    by_cases hd : d < N
    · obtain ⟨⟨ops, h⟩, _⟩ := hmess hd
      exact ⟨ops, fun _ => h⟩
    · exact ⟨[], fun h => absurd h hd⟩
  have hnf : ∀ d, d < N → ∀ t, (w' d).tr = (w d).tr ++ t → NoFlush t := by
    intro d hd t ht x hx g hg'
    have h1 := (fleet_keeps N 0 euid csv (fun d => canRender (L d)) n (d := d) (P := DW.Since (fun op => ∀ g, op ≠ .flush g) (w d).tr)
      (fun h => (h.others 0).exec (by simp)) (fun h => h.receive (by simp) (by simp) csv n) (fun h => h)).calls
      ⟨⟨[], by simp, nofun⟩, fun l hl op hop =>
        (sayAll_ops _ (hs.says d hd) op (List.mem_append_right _ (List.mem_flatten.2 ⟨l, hl, hop⟩))).2⟩ hc
    obtain ⟨⟨u, h2, h3⟩, _⟩ := h1
    have : u = t := List.append_cancel_left (h2.symm.trans ht)
    subst this
    exact h3 x hx g (by rw [hg'])
  refine ⟨⟨fun d => (hrun d).choose, fun d hd => (hrun d).choose_spec hd⟩, hnf, fun d hd => (hdo hd).2.1, fun d hd bs rest r q e1 e2 e3 => ?_⟩
  obtain ⟨_, j, g1, g2, g3⟩ := hmess hd
  have hle := List.length_filter_le (·.passes (P d)) (ms d)
  have hct := hcount d hd
  have hpl : ∀ m ∈ ((ms d).filter (·.passes (P d))).take j, m.Plain (P d) := fun m hm =>
    hms d hd m (List.mem_filter.1 (List.mem_of_mem_take hm)).1
  have hjl : (obs (name d) (w' d).tr).hist.length = j := by rw [g3, List.length_map, List.length_take]; omega
  rw [hjl] at e3
  refine ⟨j, e2.le, e3, g1, g2, ?_, hjl⟩
  rw [g3] at e1
  exact e1.watched (hkd d hd) (hn0 d hd) hpl (by rw [List.length_take]; omega)

/-- What any calls show of such a scene. -/
theorem Scene.shows (hN : 0 < N) (hP : ∀ i, i < N → ∀ p, (P i p).Plain (D i)) (hms : ∀ i, i < N → ∀ m ∈ ms i, m.Plain (P i))
    (hk : ∀ i, i < N → 14 ≤ k i) (hname : ∀ i, i < N → (name i).length ≤ 89) (hn0 : ∀ i, i < N → NoNul (name i))
    (hcount : ∀ i, i < N → (ms i).length < 2147483648) {L : Nat → Look} {csv : Bool} (hcsv : ∀ i, i < N → csv = decide ((L i).fmt = .csv))
    (hkd : ∀ i, i < N → (L i).kmsgd = false) (hs : Scene N P junk ms name k buf pre w m) (paths : Nat → Bytes)
    {ans : Scr (Nat → DW) → OutEv → List WrAns} (hans : ∀ s e, ∃ n, ans s e = [.took n] ∧ 5248 ≤ n) {marks : List Nat} (hlen : marks.length = N)
    {dump : Bool} {l : List (Nat × Int)} {buf0 : Bytes} (hb : buf0.length = 5248) {euid : UInt32} {n : Nat} {c : Ctx} {w' : Nat → DW}
    (hc : calls (fleet N 0 euid csv (fun d => canRender (L d)) n) dump l (openCtx marks 0) w = .ok (c, w')) :
    ∃ t, calls ((fleet N 0 euid csv (fun d => canRender (L d)) n).onto .file paths (fleetEntries N L fun d => (w' d).os) ans) dump l
          (openCtx marks 0) ⟨w, buf0, []⟩ = .ok (c, t) ∧ t.st = w' ∧
      ∃ v, t.bytes = screenOf paths (fun _ bs => bs) (decide (N > 1)) [] v ∧ (∀ x ∈ v, x.1 < N) ∧
      ∀ d, d < N → (∃ ops, Run (name d) (k d) (buf d) ops (w' d).sys (w' d).tr) ∧ ∃ j r q, r ≤ q ∧ q ≤ j ∧
        j ≤ ((ms d).filter (·.passes (P d))).length ∧ ((w' d).env = [] → j = ((ms d).filter (·.passes (P d))).length) ∧
        Watched (P d) (L d) (name d) (2 ^ k d) (((ms d).filter (·.passes (P d))).take j) 0 (partOf d v) r ∧
        At (name d) (w' d).tr 0 q ∧ (obs (name d) (w' d).tr).hist.length = j ∧ (c.pendQ = [] → r = q) := by
  obtain ⟨⟨ops, hrun⟩, hnf, hat, hmess⟩ := hs.facts hP hms hk hname hn0 hcount hkd hc
  obtain ⟨t, h1, h2, v, h3, h4, h5⟩ := C136_runs hN (fid := fun _ => 0) (fun d hd => C136_fleet N 0 euid csv _ n hd) hcsv
    (fun d hd h => by rw [hkd d hd] at h; cases h) (fun _ _ => rfl) hans hlen hc hs.fresh hb
    hrun (p := fun _ => 0) hat hnf
  refine ⟨t, h1, h2, v, h3, h4, fun d hd => ?_⟩
  obtain ⟨r, q, rest, e1, e2, e3, _, e4, e5⟩ := h5 d hd
  obtain ⟨j, g1, g2, g3, g4, g5, g6⟩ := hmess d hd e1 e2 e3
  exact ⟨⟨_, hrun d hd⟩, j, r, q, g1, g2, g3, g4, g5, e4, g6, e5⟩

/-- With room for all that is said nothing is lost of a part of it. -/
theorem Watched.part {P : Nat → Prog} {L : Look} {name : Bytes} {size : Nat} {ms : List Said} {j r : Nat} {bs : Bytes}
    (h : Watched P L name size (ms.take j) 0 bs r) (hr : r ≤ j) (hroom : (ms.map (·.size P)).sum + 8200 ≤ size) :
    bs = (ms.take r).flatMap (·.lines P L) := by
  have hsum : ((ms.take j).map (·.size P)).sum ≤ (ms.map (·.size P)).sum := by
    have := congrArg (fun l => (l.map (·.size P)).sum) (List.take_append_drop j ms)
    simp only [List.map_append, List.sum_append] at this
    omega
  have := (h.all (by omega)).2
  rw [List.drop_zero, Nat.sub_zero, List.take_take, Nat.min_eq_left (by omega)] at this
  exact this

/-- C138. While programs say things, by any interleaving of their calls with those of a viewer
that reads in any number of calls of `ulogcat3_process_logs`, no call faults, and at the end the
screen shows, of each device, the lines of the messages let through from the first to some
message `r`, in order, each once, except that in the place of some there is a notice with their
number, each of which was followed by more than the ring holds less 8200 bytes; if all that is
said leaves that room, nothing is lost. -/
theorem C138_follow (hN : 0 < N) (hP : ∀ i, i < N → ∀ p, (P i p).Plain (D i)) (hms : ∀ i, i < N → ∀ m ∈ ms i, m.Plain (P i))
    (hk : ∀ i, i < N → 14 ≤ k i) (hname : ∀ i, i < N → (name i).length ≤ 89) (hn0 : ∀ i, i < N → NoNul (name i))
    (hcount : ∀ i, i < N → (ms i).length < 2147483648) {L : Nat → Look} {csv : Bool} (hcsv : ∀ i, i < N → csv = decide ((L i).fmt = .csv))
    (hkd : ∀ i, i < N → (L i).kmsgd = false) (hs : Scene N P junk ms name k buf pre w m) {paths : Nat → Bytes}
    {ans : Scr (Nat → DW) → OutEv → List WrAns} (hans : ∀ s e, ∃ n, ans s e = [.took n] ∧ 5248 ≤ n) {marks : List Nat} (hlen : marks.length = N)
    (dump : Bool) (l : List (Nat × Int)) {buf0 : Bytes} (hb : buf0.length = 5248) (euid : UInt32) (n : Nat) :
    ∃ c w' t, calls (fleet N 0 euid csv (fun d => canRender (L d)) n) dump l (openCtx marks 0) w = .ok (c, w') ∧
      calls ((fleet N 0 euid csv (fun d => canRender (L d)) n).onto .file paths (fleetEntries N L fun d => (w' d).os) ans) dump l
          (openCtx marks 0) ⟨w, buf0, []⟩ = .ok (c, t) ∧ t.st = w' ∧
      ∃ v, t.bytes = screenOf paths (fun _ bs => bs) (decide (N > 1)) [] v ∧ (∀ x ∈ v, x.1 < N) ∧
      ∀ d, d < N → ∃ j r, r ≤ j ∧ j ≤ ((ms d).filter (·.passes (P d))).length ∧
        ((w' d).env = [] → j = ((ms d).filter (·.passes (P d))).length) ∧
        Watched (P d) (L d) (name d) (2 ^ k d) (((ms d).filter (·.passes (P d))).take j) 0 (partOf d v) r ∧
        ((((ms d).filter (·.passes (P d))).map (·.size (P d))).sum + 8200 ≤ 2 ^ k d →
          partOf d v = (((ms d).filter (·.passes (P d))).take r).flatMap (·.lines (P d) (L d))) := by
  obtain ⟨c, w', hc, _⟩ := C35_frames (fleet N 0 euid csv (fun d => canRender (L d)) n) marks 0 dump l w
  have hc : calls (fleet N 0 euid csv (fun d => canRender (L d)) n) dump l (openCtx marks 0) w = .ok (c, w') := hc
  obtain ⟨t, h1, h2, v, h3, h4, h5⟩ := hs.shows hN hP hms hk hname hn0 hcount hcsv hkd paths hans hlen hb hc
  refine ⟨c, w', t, hc, h1, h2, v, h3, h4, fun d hd => ?_⟩
  obtain ⟨_, j, r, q, g1, g2, g3, g4, g5, _⟩ := h5 d hd
  exact ⟨j, r, by omega, g3, g4, g5, fun hroom => g5.part (by omega) hroom⟩

/-- The same for a dump. -/
theorem Scene.dumpFacts (hP : ∀ i, i < N → ∀ p, (P i p).Plain (D i)) (hms : ∀ i, i < N → ∀ m ∈ ms i, m.Plain (P i))
    (hk : ∀ i, i < N → 14 ≤ k i) (hname : ∀ i, i < N → (name i).length ≤ 89) (hn0 : ∀ i, i < N → NoNul (name i))
    (hcount : ∀ i, i < N → (ms i).length < 2147483648) {L : Nat → Look} {csv : Bool}
    (hkd : ∀ i, i < N → (L i).kmsgd = false) (hs : Scene N P junk ms name k buf pre w m) {ms0 : Nat → List Said}
    (hpre : ∀ i, i < N → sayAll (P i) junk (fun _ => .start) (ms0 i) = .ok (pre i)) {max : Int} {fuel : Nat} {euid : UInt32} {n : Nat} {c : Ctx} {w' : Nat → DW}
    (hc : processLogs (fleet N 0 euid csv (fun d => canRender (L d)) n) true max fuel (openCtx ((List.range N).map m) 0) w 0 = .ok (c, w', some 0)) :
    ∃ (ops : Nat → List Op) (t0 : Nat → List (Op × Out)), (∀ d, d < N → Run (name d) (k d) (buf d) (ops d) (w' d).sys (w' d).tr) ∧
      (∀ d, d < N → (w d).tr = t0 d ++ [(.getLogLen 0, .ret (m d))]) ∧ (∀ d, d < N → At (name d) (t0 d) 0 0) ∧
      (∀ d, d < N → ∀ t, (w' d).tr = t0 d ++ t → NoFlush t) ∧
      ∀ d, d < N → ∀ {bs : Bytes} {r : Nat}, (obs (name d) (t0 d)).hist.length ≤ r → r ≤ (obs (name d) (w' d).tr).hist.length →
        OnScreen (L d) (name d) (2 ^ k d) (obs (name d) (w' d).tr).hist 0 bs r →
        ∃ j, ((ms0 d).filter (·.passes (P d))).length ≤ r ∧ r ≤ j ∧ j ≤ ((ms d).filter (·.passes (P d))).length ∧
          Watched (P d) (L d) (name d) (2 ^ k d) (((ms d).filter (·.passes (P d))).take j) 0 bs r ∧
          ((((ms d).filter (·.passes (P d))).map (·.size (P d))).sum + 8200 ≤ 2 ^ k d →
            bs = (((ms d).filter (·.passes (P d))).take r).flatMap (·.lines (P d) (L d))) := by
  have hdo := fun {i} (hi : i < N) => hs.doing hP hms hk hname hcount hi
  have hafter : ∀ {d}, d < N → (w' d).Doing (name d) (k d) (buf d) 0 (pre d ++ (w d).env.flatten) := by
    intro d hd
    exact (fleet_keeps N 0 euid csv (fun d => canRender (L d)) n (d := d) (P := DW.Doing (name d) (k d) (buf d) 0 (pre d ++ (w d).env.flatten))
      (fun h => (h.others (hk d hd) (hname d hd)).exec (hk d hd) (hname d hd) rfl rfl rfl) (fun h => h.receive (hk d hd) (hname d hd) euid csv n)
      (fun h => h)).logs (hdo hd).2.2 hc
  have hmess := fun {d} (hd : d < N) => (hafter hd).messages (hms d hd) (hcount d hd) (sayAll_logged (hP d hd) (hs.says d hd) (name d) (k d))
    (sayAll_ops _ (hs.says d hd)) (hk d hd) (hname d hd)
  have hrun : ∀ d, ∃ ops, d < N → Run (name d) (k d) (buf d) ops (w' d).sys (w' d).tr := by
    intro d
    by_cases hd : d < N
    · obtain ⟨⟨ops, h⟩, _⟩ := hmess hd
      exact ⟨ops, fun _ => h⟩
    · exact ⟨[], fun h => absurd h hd⟩
  have hex : ∀ d, ∃ t0, d < N → (w d).tr = t0 ++ [(.getLogLen 0, .ret (m d))] ∧ At (name d) t0 0 0 ∧
      (obs (name d) t0).hist = (obs (name d) (arun (ainit (name d) (k d)) (pre d)).2).hist := by
    intro d
    by_cases hd : d < N
    · obtain ⟨t0, h⟩ := (hdo hd).1
      exact ⟨t0, fun _ => h⟩
    · exact ⟨[], fun h => absurd h hd⟩
  obtain ⟨t0, ht0⟩ := Classical.axiomOfChoice hex
  have hnf : ∀ d, d < N → ∀ t, (w' d).tr = t0 d ++ t → NoFlush t := by
    intro d hd t ht x hx g hg'
    have h1 := (fleet_keeps N 0 euid csv (fun d => canRender (L d)) n (d := d) (P := DW.Since (fun op => ∀ g, op ≠ .flush g) (t0 d))
      (fun h => (h.others 0).exec (by simp)) (fun h => h.receive (by simp) (by simp) csv n) (fun h => h)).logs
      ⟨⟨[(.getLogLen 0, .ret (m d))], (ht0 d hd).1, by simp⟩, fun l hl op hop =>
        (sayAll_ops _ (hs.says d hd) op (List.mem_append_right _ (List.mem_flatten.2 ⟨l, hl, hop⟩))).2⟩ hc
    obtain ⟨⟨u, h2, h3⟩, _⟩ := h1
    have : u = t := List.append_cancel_left (h2.symm.trans ht)
    subst this
    exact h3 x hx g (by rw [hg'])
  refine ⟨fun d => (hrun d).choose, t0, fun d hd => (hrun d).choose_spec hd, fun d hd => (ht0 d hd).1, fun d hd => (ht0 d hd).2.1, hnf,
    fun d hd bs r e0 e3 e1 => ?_⟩
  obtain ⟨_, j, g1, _, g3⟩ := hmess hd
  rw [(ht0 d hd).2.2] at e0
  have e0' : ((ms0 d).filter (·.passes (P d))).length ≤ r := by
    have := (sayAll_logged (hP d hd) (hpre d hd) (name d) (k d)).hist
    have h : (obs (name d) (arun (ainit (name d) (k d)) (pre d)).2).hist = _ := this
    rw [h, List.length_map] at e0
    exact e0
  rw [g3] at e1 e3
  have hle := List.length_filter_le (·.passes (P d)) (ms d)
  have hct := hcount d hd
  have hpl : ∀ m ∈ ((ms d).filter (·.passes (P d))).take j, m.Plain (P d) := fun m hm =>
    hms d hd m (List.mem_filter.1 (List.mem_of_mem_take hm)).1
  have hjl : (((ms d).filter (·.passes (P d))).take j).length = j := by rw [List.length_take]; omega
  rw [List.length_map, hjl] at e3
  have hw := e1.watched (hkd d hd) (hn0 d hd) hpl (by omega)
  exact ⟨j, e0', e3, g1, hw, fun hroom => hw.part (by omega) hroom⟩

/-- C138. A dump, at the beginning of which the devices were asked for the amount, while
programs go on saying things, shows if it ends with 0 at least all that was said before the
devices were opened: the lines of each message or a notice that it was lost. -/
theorem C138_dump (hN : 0 < N) (hP : ∀ i, i < N → ∀ p, (P i p).Plain (D i)) (hms : ∀ i, i < N → ∀ m ∈ ms i, m.Plain (P i))
    (hk : ∀ i, i < N → 14 ≤ k i) (hname : ∀ i, i < N → (name i).length ≤ 89) (hn0 : ∀ i, i < N → NoNul (name i))
    (hcount : ∀ i, i < N → (ms i).length < 2147483648) {L : Nat → Look} {csv : Bool} (hcsv : ∀ i, i < N → csv = decide ((L i).fmt = .csv))
    (hkd : ∀ i, i < N → (L i).kmsgd = false) (hs : Scene N P junk ms name k buf pre w m) {ms0 : Nat → List Said}
    (hpre : ∀ i, i < N → sayAll (P i) junk (fun _ => .start) (ms0 i) = .ok (pre i)) {paths : Nat → Bytes}
    {ans : Scr (Nat → DW) → OutEv → List WrAns} (hans : ∀ s e, ∃ n, ans s e = [.took n] ∧ 5248 ≤ n) {max : Int} (hmax : 0 ≤ max) {fuel : Nat}
    {buf0 : Bytes} (hb : buf0.length = 5248) {euid : UInt32} {n : Nat} {c : Ctx} {w' : Nat → DW}
    (hc : processLogs (fleet N 0 euid csv (fun d => canRender (L d)) n) true max fuel (openCtx ((List.range N).map m) 0) w 0 = .ok (c, w', some 0)) :
    ∃ t, processLogs ((fleet N 0 euid csv (fun d => canRender (L d)) n).onto .file paths (fleetEntries N L fun d => (w' d).os) ans) true max fuel
          (openCtx ((List.range N).map m) 0) ⟨w, buf0, []⟩ 0 = .ok (c, t, some 0) ∧ t.st = w' ∧
      ∃ v, t.bytes = screenOf paths (fun _ bs => bs) (decide (N > 1)) [] v ∧ (∀ x ∈ v, x.1 < N) ∧
      ∀ d, d < N → ∃ j r, ((ms0 d).filter (·.passes (P d))).length ≤ r ∧ r ≤ j ∧ j ≤ ((ms d).filter (·.passes (P d))).length ∧
        Watched (P d) (L d) (name d) (2 ^ k d) (((ms d).filter (·.passes (P d))).take j) 0 (partOf d v) r ∧
        ((((ms d).filter (·.passes (P d))).map (·.size (P d))).sum + 8200 ≤ 2 ^ k d →
          partOf d v = (((ms d).filter (·.passes (P d))).take r).flatMap (·.lines (P d) (L d))) := by
  obtain ⟨ops, t0, hrun, ht0, hat, hnf, hmess⟩ := hs.dumpFacts hP hms hk hname hn0 hcount hkd hpre hc
  obtain ⟨t, h1, h2, v, h3, h4, h5⟩ := C136_dumped hN (fid := fun _ => 0) (fun d hd => C136_fleet N 0 euid csv _ n hd) hcsv
    (fun d hd h => by rw [hkd d hd] at h; cases h) (fun _ _ => rfl) hans hmax hc hs.fresh hb
    hrun (t1 := fun _ => []) ht0 (fun _ _ => nofun) (p := fun _ => 0)
    hat hnf
  refine ⟨t, h1, h2, v, h3, h4, fun d hd => ?_⟩
  obtain ⟨r, e0, e3, e1⟩ := h5 d hd
  obtain ⟨j, g⟩ := hmess d hd e0 e3 e1
  exact ⟨j, r, g⟩

end

end Verif.Ulogcat
