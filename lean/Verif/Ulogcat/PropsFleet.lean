import Verif.Ulogcat.Fleet

/-!
# Several devices on one screen (C119)
-/
namespace Verif.Ulogcat
open Verif Verif.Kernel Verif.Libulog

/-! ## Specification -/

/-- The entries of `N` devices, each with the number of its device, those left out of
which nothing is shown. -/
def toShow (N : Nat) (L : Nat → Look) (es : Nat → List Entry) (i : Nat) : List (Nat × Entry) :=
  if i < N then ((es i).filter fun e => !(entryText (L i) e).isEmpty).map (i, ·) else []

/-- The microsecond of an entry. -/
def entryTime (x : Nat × Entry) : Nat := micros x.2.sec x.2.nsec

/-- The bytes shown for a list of things of several devices: their texts, and before
the first of each device a banner with its path, if `multi`. -/
def screenOf {α : Type} (paths : Nat → Bytes) (text : Nat → α → Bytes) (multi : Bool) : List Nat → List (Nat × α) → Bytes
  | _, [] => []
  | seen, (i, e) :: t =>
    (if multi && !seen.contains i then List.replicate 39 45 ++ (ascii "------------- beginning of " ++ paths i).take 127 ++ [10] else []) ++ text i e ++
      screenOf paths text multi (i :: seen) t

/-- The last `T`, or all if `T` is 0. -/
def lastOf {α : Type} (T : Nat) (v : List α) : List α := if T = 0 then v else v.drop (v.length - T)

/-- What the calls of `ulog_receive_entry` left, by their numbers. -/
def fleetEntries (N : Nat) (L : Nat → Look) (all : Nat → List RecvOut) (id : Nat) : Shown :=
  entriesBy (L (id % N)) (all (id % N)) (id / N)

/-! ## Lists -/

theorem texts_items {csv : Bool} {N i : Nat} {es : List Entry} {l : List Entry} : ∀ {j : Nat}, (∀ x : Nat, l[x]? = es[j + x]?) →
    ∀ f ∈ texts i (items csv N i j l), ∃ x e, es[x]? = some e ∧ f = ⟨i, micros e.sec e.nsec, x * N + i, true⟩ ∧
      recvRet csv (decode (e.pid != e.tid) e.payload) ≠ 0 := by
  induction l with
  | nil => intro j _ f hf; cases hf
  | cons e l ih =>
    intro j hj f hf
    have h0 : es[j]? = some e := by have := hj 0; rw [List.getElem?_cons_zero] at this; exact this.symm
    have ih := ih (j := j + 1) (fun x => by have := hj (x + 1); rw [List.getElem?_cons_succ] at this; rw [this]; congr 1; omega)
    unfold items texts at hf
    rw [List.filterMap_cons] at hf
    by_cases hr : recvRet csv (decode (e.pid != e.tid) e.payload) = 0
    · rw [if_pos hr] at hf
      exact ih f hf
    · rw [if_neg hr] at hf
      rcases List.mem_cons.1 hf with rfl | hf
      · exact ⟨j, e, h0, rfl, hr⟩
      · exact ih f hf

theorem texts_back {csv : Bool} {N i : Nat} {es : List Entry} {g : Frame → Entry} {q : Entry → Bool}
    (hg : ∀ x e, es[x]? = some e → g ⟨i, micros e.sec e.nsec, x * N + i, true⟩ = e)
    (hq : ∀ e ∈ es, q e = true ↔ recvRet csv (decode (e.pid != e.tid) e.payload) ≠ 0) {l : List Entry} :
    ∀ {j : Nat}, (∀ x : Nat, l[x]? = es[j + x]?) → (texts i (items csv N i j l)).map g = l.filter q := by
  induction l with
  | nil => intro j _; rfl
  | cons e l ih =>
    intro j hj
    have h0 : es[j]? = some e := by have := hj 0; rw [List.getElem?_cons_zero] at this; exact this.symm
    have ih := ih (j := j + 1) (fun x => by have := hj (x + 1); rw [List.getElem?_cons_succ] at this; rw [this]; congr 1; omega)
    have hqe := hq e (List.mem_of_getElem? h0)
    unfold items
    unfold texts at ih ⊢
    rw [List.filterMap_cons]
    by_cases hr : recvRet csv (decode (e.pid != e.tid) e.payload) = 0
    · rw [if_pos hr, List.filter_cons_of_neg (fun h => hqe.1 h hr)]
      exact ih
    · rw [if_neg hr, List.filter_cons_of_pos (hqe.2 hr)]
      dsimp only
      rw [List.map_cons, ih, hg j e h0]

theorem screenOf_annotate {α : Type} {paths : Nat → Bytes} {what : Nat → Shown} {text : Nat → α → Bytes} {multi : Bool} {back : Frame → Nat × α} :
    ∀ {u : List Frame}, (∀ f ∈ u, f.shown = true ∧ (back f).1 = f.dev ∧ (what f.id).text = text f.dev (back f).2) → ∀ seen,
    (annotate multi seen u).flatMap (textOf paths what) = screenOf paths text multi seen (u.map back) := by
  intro u
  induction u with
  | nil => intro _ seen; rfl
  | cons f u ih =>
    intro h seen
    obtain ⟨h1, h2, h3⟩ := h f (by simp)
    have ih := ih (fun g hg => h g (by simp [hg])) (f.dev :: seen)
    have hb : back f = (f.dev, (back f).2) := by rw [← h2]
    unfold annotate
    rw [h1, if_pos rfl, List.map_cons, hb]
    unfold screenOf
    rw [List.flatMap_append, List.flatMap_append, List.flatMap_cons, List.flatMap_nil, List.append_nil, ih, ← List.append_assoc]
    have ht : textOf paths what (.entry f) = text f.dev (back f).2 := h3
    rw [ht]
    congr 2
    cases (multi && !seen.contains f.dev) with
    | true => rw [if_pos rfl, if_pos rfl, List.flatMap_cons, List.flatMap_nil, List.append_nil]; rfl
    | false => rfl

/-! ## The property -/

/-- A dump of `N` devices by `ulogcat` with option `-t T` (without it if `T` is 0), the
stream taking everything: it ends with status 0, and the bytes on the stream meet `B`.
(`all` is what was received from each device.) -/
def FleetDumps (N : Nat) (L : Nat → Look) (csv : Bool) (w : Nat → DW) (marks : List Nat) (T : Nat) (paths : Nat → Bytes) (B : Bytes → Prop) : Prop :=
  ∃ need, ∀ (euid : UInt32) (n fuel : Nat), need ≤ fuel → ∀ {buf0 : Bytes}, buf0.length = 5248 →
    ∀ {ans : Scr (Nat → DW) → OutEv → List WrAns}, (∀ s e, ∃ n, ans s e = [.took n] ∧ 5248 ≤ n) →
    ∃ all c t, processLogs ((fleet N 0 euid csv (fun i => canRender (L i)) (n + 1)).onto .file paths (fleetEntries N L all) ans) true 0 fuel
        (openCtx marks T) ⟨w, buf0, []⟩ 0 = .ok (c, t, some 0) ∧
      (∀ i, all i = (t.st i).os) ∧ B t.bytes

/-- A dump of several devices, the viewer alone with them, each with its reader in some
place: it ends with 0 and shows all that is left of all devices by turns, or the last
`T`, with a banner before the first of each device. -/
theorem fleet_dump {N : Nat} (hN : 0 < N) {name : Nat → Bytes} {k : Nat → Nat} {hist es : Nat → List Entry} {x : Nat → ARd} {w : Nat → DW}
    {m : Nat → Nat} (hst : ∀ i, i < N → Stands (name i) (k i) 0 (hist i) (x i) (w i))
    (hseen : ∀ i, i < N → seenFrom (name i) (x i) (hist i) = es i) (hos : ∀ i, i < N → (w i).os = [])
    (hm : ∀ i, i < N → 0 < (es i).length → 0 < m i) {L : Nat → Look} {csv : Bool} (hcsv : ∀ i, i < N → csv = decide ((L i).fmt = .csv))
    (hfix : ∀ i, i < N → (L i).kmsgd = true → (L i).fmt ≠ .csv) (hlong : csv = true → ∀ i, i < N → ∀ e ∈ es i, entryText (L i) e ≠ [])
    (T : Nat) (paths : Nat → Bytes) :
    FleetDumps N L csv w ((List.range N).map m) T paths fun bs =>
      ∃ v, ByTurns (·.1) entryTime N (toShow N L es) v ∧ bs = screenOf paths (fun i => entryText (L i)) (decide (N > 1)) [] (lastOf T v) := by
  have hshown : ∀ i, i < N → ∀ e ∈ es i, recvRet csv (decode (e.pid != e.tid) e.payload) ≠ 0 → entryText (L i) e ≠ [] := by
    intro i hi e he hr
    cases hc : csv with
    | true => exact hlong hc i hi e he
    | false =>
      rw [hc] at hr
      have := hcsv i hi
      rw [hc] at this
      exact entryText_ne (by simpa using this.symm) hr
  let F : Fleet := { N, name, k, hist, es, L, csv }
  have ok : F.Ok := ⟨hcsv, hfix, hshown⟩
  let s0 : Logs := fun i => if i < N then items csv N i 0 (es i) else []
  have hs0 : ∀ i, i < N → s0 i = items csv N i 0 (es i) := fun i hi => if_pos hi
  have hs1 : ∀ i, N ≤ i → s0 i = [] := fun i hi => if_neg (by omega)
  have R0 : F.Rel 0 w s0 := by
    refine ⟨fun i hi => ⟨0, ⟨x i, hst i hi, hseen i hi⟩, Nat.zero_le _, hs0 i hi, fun _ => ?_, fun j e hj => by omega, ?_⟩, hs1⟩
    · rw [hos i hi]; rfl
    · rw [hos i hi]; nofun
  have hmem : ∀ i f, f ∈ texts i (s0 i) → i < N ∧ ∃ x e, (es i)[x]? = some e ∧ f = ⟨i, micros e.sec e.nsec, x * N + i, true⟩ ∧
      recvRet csv (decode (e.pid != e.tid) e.payload) ≠ 0 := by
    intro i f hf
    by_cases hi : i < N
    · rw [hs0 i hi] at hf
      exact ⟨hi, texts_items (fun x => by rw [Nat.zero_add]) f hf⟩
    · rw [hs1 i (by omega)] at hf; cases hf
  have hmarks : ∀ i : Nat, ((List.range N).map m)[i]? = some 0 → s0 i = [] := by
    intro i hi
    rw [List.getElem?_map, Option.map_eq_some_iff] at hi
    obtain ⟨y, hx, hm'⟩ := hi
    obtain ⟨hl, he⟩ := List.getElem?_eq_some_iff.1 hx
    rw [List.getElem_range] at he
    rw [List.length_range] at hl
    subst he
    rw [hs0 i hl]
    have := hm i hl
    rcases Nat.eq_zero_or_pos (es i).length with h0 | h0
    · rw [List.length_eq_zero_iff.1 h0]; rfl
    · have := this h0; omega
  obtain ⟨need, hneed⟩ := dump_all ((List.range N).map m) s0 hmarks (fun i hi => hs1 i (by simpa using hi)) T
  refine ⟨need, fun euid n fuel hfuel buf0 hb ans hans => ?_⟩
  obtain ⟨c, s, v, e1, hv, hout, hdr⟩ := hneed fuel hfuel
  have hmn : ((List.range N).map m).length = N := by simp
  rw [hmn] at hv
  rw [← masked_logs] at e1
  have hsim := (Fleet.sim ok 0 euid n).logs true 0 fuel (openCtx ((List.range N).map m) T) 0 R0
  rw [e1] at hsim
  cases hp : processLogs (fleet N 0 euid csv (fun i => canRender (L i)) (n + 1)) true 0 fuel (openCtx ((List.range N).map m) T)
      w 0 with
  | error e =>
    have hp' : processLogs (fleet F.N 0 euid F.csv (fun i => canRender (F.L i)) (n + 1)) true 0 fuel (openCtx ((List.range N).map m) T)
      w 0 = .error e := hp
    rw [hp'] at hsim
    exact hsim.elim
  | ok y =>
    obtain ⟨c', w', r⟩ := y
    have hp' : processLogs (fleet F.N 0 euid F.csv (fun i => canRender (F.L i)) (n + 1)) true 0 fuel (openCtx ((List.range N).map m) T)
      w 0 = .ok (c', w', r) := hp
    rw [hp'] at hsim
    obtain ⟨q1, q2, q3⟩ := hsim
    dsimp only at q1 q2 q3
    subst q1 q3
    -- everything was received
    have hgot : ∀ i, i < N → (∀ (j : Nat) e, (es i)[j]? = some e → ∃ o, (w' i).os[j]? = some o ∧ Received csv (e.view 2) e o) ∧
        ∀ o ∈ (w' i).os, o.ret ≤ 0 ∨ ∃ bs e, Received csv bs e o := by
      intro i hi
      obtain ⟨p, D⟩ := q2.dev i hi
      have hl := D.left
      rw [hdr i] at hl
      have hd : ((es i).drop p).isEmpty = true := by
        rw [← items_empty csv N i p]
        have : items csv N i p ((es i).drop p) = [] := hl.symm
        rw [this]
        rfl
      have hd : (es i).length ≤ p := by simpa using hd
      refine ⟨fun j e he => D.got j e ?_ he, D.all⟩
      have := (List.getElem?_eq_some_iff.1 he).1
      omega
    have hcan : ∀ id, CanShow (fleetEntries N L (fun i => (w' i).os) id) := by
      intro id
      have hlt := Nat.mod_lt id hN
      exact entriesBy_can (hfix _ hlt) (hcsv _ hlt) (hgot _ hlt).2 _
    have htake : ∀ s e, outputRendered .file (textOf paths (fleetEntries N L (fun i => (w' i).os)) e) (ans s e) =
        (true, textOf paths (fleetEntries N L (fun i => (w' i).os)) e) := by
      intro s e
      obtain ⟨n, a1, a2⟩ := hans s e
      obtain ⟨b, k, _, b2, b3, hne⟩ := renderEv_text (paths := paths) hcan hb e
      have hl : (textOf paths (fleetEntries N L (fun i => (w' i).os)) e).length ≤ n := by
        rw [← b3, List.length_take]; omega
      unfold outputRendered
      rw [a1]
      dsimp only
      rw [List.take_of_length_le hl]
      simp [hne, hl]
    obtain ⟨t, t1, t2, t3⟩ := onto_logs (d := .file) (paths := paths) (ans := ans) hcan
      (fun s e => by rw [htake]) (fun _ _ => rfl) (textOf paths (fleetEntries N L (fun i => (w' i).os))) (fun s e => by rw [htake]) hb hp
    refine ⟨fun i => (w' i).os, c', t, t1, fun i => by rw [t3], ?_⟩
    let e0 : Entry := { pid := 0, tid := 0, sec := 0, nsec := 0, euid := 0, payload := [] }
    let back : Frame → Nat × Entry := fun f => (f.dev, ((es f.dev)[f.id / N]?).getD e0)
    have hback : ∀ i, i < N → ∀ (x : Nat) e, (es i)[x]? = some e → back ⟨i, micros e.sec e.nsec, x * N + i, true⟩ = (i, e) := by
      intro i hi x e he
      show (i, ((es i)[(x * N + i) / N]?).getD e0) = _
      have : (x * N + i) / N = x := by
        rw [Nat.mul_comm, Nat.mul_add_div hN, Nat.div_eq_of_lt hi, Nat.add_zero]
      rw [this, he]
      rfl
    have hfv : ∀ f ∈ v, f.dev < N ∧ ∃ x e, (es f.dev)[x]? = some e ∧ f = ⟨f.dev, micros e.sec e.nsec, x * N + f.dev, true⟩ ∧
        recvRet csv (decode (e.pid != e.tid) e.payload) ≠ 0 := by
      intro f hf
      refine hmem f.dev f ?_
      rw [← (C130_order hs1 hv).2.1]
      exact List.mem_filter.2 ⟨hf, by simp⟩
    have hshow : (fun i => (texts i (s0 i)).map back) = toShow N L es := by
      funext i
      unfold toShow
      by_cases hi : i < N
      · rw [if_pos hi, hs0 i hi]
        have h1 := texts_back (csv := csv) (N := N) (i := i) (es := es i) (g := (·.2) ∘ back) (q := fun e => !(entryText (L i) e).isEmpty)
          (fun x e he => by
            show (back _).2 = e
            rw [hback i hi x e he])
          (fun e he => by
            constructor
            · intro h1 h2
              have := hcsv i hi
              rw [this] at h2
              rw [entryText_none (hfix i hi) h2] at h1
              cases h1
            · intro h1
              have := hshown i hi e he h1
              simpa using this)
          (l := es i) (j := 0) (fun x => by rw [Nat.zero_add])
        rw [← h1, List.map_map]
        refine List.map_congr_left fun f hf => ?_
        have : f.dev = i := (mem_texts hf).1
        exact congrArg (fun d => (d, (back f).2)) this
      · rw [if_neg hi, hs1 i (by omega)]
        rfl
    have hturn : ByTurns (·.1) entryTime N (toShow N L es) (v.map back) := by
      rw [← hshow]
      refine hv.map back fun d f hf => ?_
      obtain ⟨hd, x, e, he, hfe, _⟩ := hmem d f hf
      rw [hfe, hback d hd x e he]
      exact ⟨rfl, rfl⟩
    refine ⟨v.map back, hturn, ?_⟩
    · rw [t2, hout]
      have hlen : decide (((List.range N).map m).length > 1) = decide (N > 1) := by simp
      have hlast : lastOf T (v.map back) = (if T = 0 then v else v.drop (v.length - T)).map back := by
        unfold lastOf
        split
        · rfl
        · rw [List.map_drop, List.length_map]
      rw [hlen, hlast]
      refine screenOf_annotate (fun f hf => ?_) []
      have hf : f ∈ v := by
        split at hf
        · exact hf
        · exact List.mem_of_mem_drop hf
      obtain ⟨hd, x, e, he, hfe, hr⟩ := hfv f hf
      have hbk : back f = (f.dev, e) := by
        conv => lhs; rw [hfe]
        exact hback _ hd x e he
      rw [hbk]
      refine ⟨by rw [hfe], rfl, ?_⟩
      have hid : f.id = x * N + f.dev := congrArg Frame.id hfe
      have hq : f.id / N = x := by
        rw [hid, Nat.mul_comm, Nat.mul_add_div hN, Nat.div_eq_of_lt hd, Nat.add_zero]
      have hm : f.id % N = f.dev := by
        rw [hid, Nat.mul_comm, Nat.mul_add_mod, Nat.mod_eq_of_lt hd]
      unfold fleetEntries
      rw [hq, hm]
      obtain ⟨o, o1, o2⟩ := (hgot f.dev hd).1 x e he
      have hne := hshown f.dev hd e (List.mem_of_getElem? he) hr
      rcases received_shown (hfix _ hd) (hcsv _ hd) o2 with ⟨r1, r2, y, r3, _, _, r4⟩ | ⟨_, r2⟩
      · unfold entriesBy
        rw [o1]
        dsimp only
        rw [if_pos ⟨r1, r2⟩, r3]
        exact r4
      · exact absurd r2 hne

/-- C119. A dump of several devices that were written to, whatever was written, each with
room for all its entries: it ends with 0 and shows all entries of all devices by turns
(`C119_order`), or the last `T`, with a banner before the first of each device. -/
theorem C119_dump {N : Nat} (hN : 0 < N) {name : Nat → Bytes} {k : Nat → Nat} {ops : Nat → List Op} {es : Nat → List Entry}
    (h : ∀ i, i < N → Logged (name i) (k i) (ops i) (es i)) (buf : Nat → Nat → UInt8) (hk : ∀ i, i < N → 14 ≤ k i)
    (hname : ∀ i, i < N → (name i).length ≤ 89) (hgen : ∀ i, i < N → Genuine (es i)) (hcount : ∀ i, i < N → (es i).length < 2147483648)
    (hroom : ∀ i, i < N → bytesLen (es i) + 8200 ≤ 2 ^ k i) {L : Nat → Look} {csv : Bool} (hcsv : ∀ i, i < N → csv = decide ((L i).fmt = .csv))
    (hfix : ∀ i, i < N → (L i).kmsgd = true → (L i).fmt ≠ .csv) (hlong : csv = true → ∀ i, i < N → ∀ e ∈ es i, entryText (L i) e ≠ []) :
    ∃ (sys : Nat → Sys) (tr : Nat → List (Op × Out)) (m : Nat → Nat), (∀ i, i < N → Kernel.run (Kernel.init (name i) (k i) (buf i)) (ops i ++ [.openF 0 true false true, .getLogLen 0]) =
        .ok (sys i, tr i ++ [(.getLogLen 0, .ret (m i))])) ∧
      ∀ T paths, FleetDumps N L csv (fun i => opened (sys i) (tr i) (m i)) ((List.range N).map m) T paths fun bs =>
        ∃ v, ByTurns (·.1) entryTime N (toShow N L es) v ∧ bs = screenOf paths (fun i => entryText (L i)) (decide (N > 1)) [] (lastOf T v) := by
  have hex : ∀ i, ∃ sys tr m, i < N → Kernel.run (Kernel.init (name i) (k i) (buf i)) (ops i ++ [.openF 0 true false true, .getLogLen 0]) =
        .ok (sys, tr ++ [(.getLogLen 0, .ret m)]) ∧ (0 < (es i).length → 0 < m) ∧
        Stands (name i) (k i) 0 (es i) { idx := 0, all := true, ver := 2, dropped := 0 } (opened sys tr m) := by
    intro i
    by_cases hi : i < N
    · obtain ⟨sys, tr, m, n, g1, g2, g3, g4, g5, _⟩ := (h i hi).stands (buf i) (hk i hi) (hname i hi) (hgen i hi) (hcount i hi)
      have h0 : n = 0 := by
        rcases Nat.eq_zero_or_pos n with h0 | h0
        · exact h0
        · have h1 := g5 0 (Nat.zero_le _) h0
          have h2 := hroom i hi
          rw [List.drop_zero] at h1
          omega
      subst h0
      exact ⟨sys, tr, m, fun _ => ⟨g1, g2, g3⟩⟩
    · exact ⟨Kernel.init [] 14 fun _ => 0, [], 0, fun hi' => absurd hi' hi⟩
  obtain ⟨sys, hex⟩ := Classical.axiomOfChoice hex
  obtain ⟨tr, hex⟩ := Classical.axiomOfChoice hex
  obtain ⟨m, hex⟩ := Classical.axiomOfChoice hex
  refine ⟨sys, tr, m, fun i hi => (hex i hi).1, fun T paths => ?_⟩
  exact fleet_dump hN (fun i hi => (hex i hi).2.2) (fun i hi => seenFrom_whole _ _) (fun i hi => rfl) (fun i hi => (hex i hi).2.1) hcsv hfix hlong T paths

theorem screenOf_map {α β : Type} {paths : Nat → Bytes} {ta : Nat → α → Bytes} {tb : Nat → β → Bytes} {multi : Bool} {g : Nat → α → β} :
    ∀ {u : List (Nat × α)}, (∀ x ∈ u, tb x.1 (g x.1 x.2) = ta x.1 x.2) → ∀ seen,
    screenOf paths tb multi seen (u.map fun x => (x.1, g x.1 x.2)) = screenOf paths ta multi seen u := by
  intro u
  induction u with
  | nil => intro _ seen; rfl
  | cons x u ih =>
    intro h seen
    obtain ⟨d, a⟩ := x
    rw [List.map_cons]
    unfold screenOf
    rw [ih (fun y hy => h y (by simp [hy])), h (d, a) (by simp)]

theorem Said.lines_ne {P : Nat → Prog} {L : Look} (hf : L.fmt ≠ .csv) (m : Said) : m.lines P L ≠ [] := by
  unfold Said.lines textShown
  rw [if_neg hf]
  refine cut_ne (shownLines_ne _) _ fun l h => ?_
  have := congrArg List.length h
  unfold lineText at this
  simp only [List.length_append, List.length_cons, List.length_nil] at this
  omega

/-- The messages let through to `N` devices, each with the number of its device. -/
def toSay (N : Nat) (P : Nat → Nat → Prog) (ms : Nat → List Said) (i : Nat) : List (Nat × Said) :=
  if i < N then ((ms i).filter (·.passes (P i))).map (i, ·) else []

/-- The microsecond of a message. -/
def saidTime (x : Nat × Said) : Nat := micros x.2.task.sec x.2.task.nsec

theorem toSay_own {N : Nat} {P : Nat → Nat → Prog} {ms : Nat → List Said} : ∀ d, ∀ f ∈ toSay N P ms d, f.1 = d := by
  intro d f hf
  unfold toSay at hf
  split at hf
  · obtain ⟨m, _, rfl⟩ := List.mem_map.1 hf
    rfl
  · cases hf

theorem toSay_beyond {N : Nat} {P : Nat → Nat → Prog} {ms : Nat → List Said} : ∀ d, N ≤ d → toSay N P ms d = [] := by
  intro d hd
  unfold toSay
  rw [if_neg (by omega)]

/-- C119. Processes log through libulog to several devices, one message after the other
on each; then a viewer dumps all of them, or the last `T` messages. If the messages let
through fit the buffers, no call faults, the dump ends with 0, and the screen shows
exactly the lines of the messages let through, or of the last `T`, by turns, with a
banner before the first of each device. -/
theorem C119_programs {N : Nat} (hN : 0 < N) {D : Nat → Bytes} {P : Nat → Nat → Prog} (hP : ∀ i, i < N → ∀ p, (P i p).Plain (D i))
    {ms : Nat → List Said} (hms : ∀ i, i < N → ∀ m ∈ ms i, m.Plain (P i)) (junk : Nat → UInt8) {name : Nat → Bytes} {k : Nat → Nat}
    (buf : Nat → Nat → UInt8) (hk : ∀ i, i < N → 14 ≤ k i) (hname : ∀ i, i < N → (name i).length ≤ 89)
    (hcount : ∀ i, i < N → (ms i).length < 2147483648)
    (hroom : ∀ i, i < N → (((ms i).filter (·.passes (P i))).map (·.size (P i))).sum + 8200 ≤ 2 ^ k i) {L : Nat → Look} {csv : Bool}
    (hcsv : ∀ i, i < N → csv = decide ((L i).fmt = .csv)) (hkd : ∀ i, i < N → (L i).kmsgd = false)
    (hlong : csv = true → ∀ i, i < N → ∀ m ∈ ms i, m.lines (P i) (L i) ≠ []) :
    ∃ (ops : Nat → List Op) (sys : Nat → Sys) (tr : Nat → List (Op × Out)) (m : Nat → Nat), (∀ i, i < N →
        sayAll (P i) junk (fun _ => .start) (ms i) = .ok (ops i) ∧
        Kernel.run (Kernel.init (name i) (k i) (buf i)) (ops i ++ [.openF 0 true false true, .getLogLen 0]) =
          .ok (sys i, tr i ++ [(.getLogLen 0, .ret (m i))])) ∧
      ∀ T paths, FleetDumps N L csv (fun i => opened (sys i) (tr i) (m i)) ((List.range N).map m) T paths fun bs =>
        ∃ v, ByTurns (·.1) saidTime N (toSay N P ms) v ∧ bs = screenOf paths (fun i m => m.lines (P i) (L i)) (decide (N > 1)) [] (lastOf T v) := by
  have hex : ∀ i, ∃ ops, i < N → sayAll (P i) junk (fun _ => .start) (ms i) = .ok ops ∧
      Logged (name i) (k i) ops (((ms i).filter (·.passes (P i))).map (·.entry (P i))) := by
    intro i
    by_cases hi : i < N
    · obtain ⟨ops, g1, g2, _⟩ := said_logged (hP i hi) (ms i) junk (name i) (k i)
      exact ⟨ops, fun _ => ⟨g1, g2⟩⟩
    · exact ⟨[], fun h => absurd h hi⟩
  obtain ⟨ops, hex⟩ := Classical.axiomOfChoice hex
  have hne : ∀ i, i < N → ∀ m ∈ ms i, m.lines (P i) (L i) ≠ [] := by
    intro i hi m hm
    cases hc : csv with
    | true => exact hlong hc i hi m hm
    | false =>
      have := hcsv i hi
      rw [hc] at this
      exact Said.lines_ne (by simpa using this.symm) m
  have htx : ∀ i, i < N → ∀ m ∈ ms i, entryText (L i) (m.entry (P i)) = m.lines (P i) (L i) :=
    fun i hi m hm => Said.entry_text (hms i hi m hm) (hkd i hi)
  have hle : ∀ i, ((ms i).filter (·.passes (P i))).length ≤ (ms i).length := fun i => List.length_filter_le _ _
  obtain ⟨sys, tr, m, g1, g2⟩ := C119_dump hN (fun i hi => (hex i hi).2) buf hk hname
    (fun i hi e he => by
      obtain ⟨m, hm, rfl⟩ := List.mem_map.1 he
      exact (hms i hi m (List.mem_filter.1 hm).1).task)
    (fun i hi => by have := hle i; have := hcount i hi; rw [List.length_map]; omega)
    (fun i hi => by rw [said_bytes]; exact hroom i hi) hcsv (fun i hi h => by rw [hkd i hi] at h; cases h)
    (fun hc i hi e he => by
      obtain ⟨m, hm, rfl⟩ := List.mem_map.1 he
      have hm := (List.mem_filter.1 hm).1
      rw [htx i hi m hm]
      exact hne i hi m hm)
  refine ⟨ops, sys, tr, m, fun i hi => ⟨(hex i hi).1, g1 i hi⟩, fun T paths => ?_⟩
  obtain ⟨need, g2⟩ := g2 T paths
  refine ⟨need, fun euid n fuel hfuel buf0 hb ans hans => ?_⟩
  obtain ⟨all, c, t, e1, e2, v, hv, e3⟩ := g2 euid n fuel hfuel hb hans
  refine ⟨all, c, t, e1, e2, ?_⟩
  have hsay : toShow N L (fun i => ((ms i).filter (·.passes (P i))).map (·.entry (P i))) = fun i => (toSay N P ms i).map fun x => (x.1, x.2.entry (P x.1)) := by
    funext i
    unfold toShow toSay
    by_cases hi : i < N
    · rw [if_pos hi, if_pos hi, List.map_map, List.filter_eq_self.2, List.map_map]
      · rfl
      · intro e he
        obtain ⟨m, hm, rfl⟩ := List.mem_map.1 he
        have hm := (List.mem_filter.1 hm).1
        rw [htx i hi m hm]
        have := hne i hi m hm
        simpa using this
    · rw [if_neg hi, if_neg hi]
      rfl
  rw [hsay] at hv
  obtain ⟨u, hu, hd⟩ := hv.unmap (num := (·.1)) (stamp := saidTime) (fun x : Nat × Said => (x.1, x.2.entry (P x.1))) (fun d f hf => ⟨rfl, rfl⟩)
  refine ⟨u, hd, ?_⟩
  · rw [e3, hu]
    have hlast : lastOf T (u.map fun x => (x.1, x.2.entry (P x.1))) = (lastOf T u).map fun x => (x.1, x.2.entry (P x.1)) := by
      unfold lastOf
      split
      · rfl
      · rw [List.map_drop, List.length_map]
    rw [hlast]
    refine screenOf_map (g := fun i (m : Said) => m.entry (P i)) (fun x hx => ?_) []
    have hx : x ∈ u := by
      unfold lastOf at hx
      split at hx
      · exact hx
      · exact List.mem_of_mem_drop hx
    have hmem : x ∈ u.filter fun y => y.1 == x.1 := List.mem_filter.2 ⟨hx, by simp⟩
    rw [hd.device toSay_own toSay_beyond] at hmem
    unfold toSay at hmem
    by_cases hi : x.1 < N
    · rw [if_pos hi] at hmem
      obtain ⟨m, hm, hmx⟩ := List.mem_map.1 hmem
      rw [← hmx]
      exact htx _ hi _ (List.mem_filter.1 hm).1
    · rw [if_neg hi] at hmem
      cases hmem

/-- C119. What the order is: there is one only, so the screen is determined; it has the
messages of each device in their order; if one is shown after a later one then one of its
own device, shown no sooner than the other, is as late; and if on each device the clock
did not go back, all are in the order of time. -/
theorem C119_order {N : Nat} {P : Nat → Nat → Prog} {ms : Nat → List Said} {v : List (Nat × Said)}
    (h : ByTurns (·.1) saidTime N (toSay N P ms) v) :
    (∀ w, ByTurns (·.1) saidTime N (toSay N P ms) w → w = v) ∧
    (∀ i, v.filter (fun x => x.1 == i) = toSay N P ms i) ∧
    (∀ u x w y z, v = u ++ x :: (w ++ y :: z) → saidTime y < saidTime x → ∃ g ∈ x :: w, g.1 = y.1 ∧ saidTime x ≤ saidTime g) ∧
    ((∀ i, i < N → ((ms i).filter (·.passes (P i))).Pairwise fun a b => micros a.task.sec a.task.nsec ≤ micros b.task.sec b.task.nsec) →
      v.Pairwise fun a b => saidTime a ≤ saidTime b) := by
  refine ⟨fun w hw => hw.unique h, h.device toSay_own toSay_beyond, fun _ _ _ _ _ hv hlt => h.late toSay_own toSay_beyond hv hlt, fun hs => ?_⟩
  refine h.sorted toSay_own toSay_beyond fun d => ?_
  unfold toSay
  split
  · rename_i hd
    rw [List.pairwise_map]
    exact hs d hd
  · exact .nil

end Verif.Ulogcat
