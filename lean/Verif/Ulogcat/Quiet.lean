import Verif.Ulogcat.CoreInv
import Verif.Ulogcat.Merge

/-!
# Devices that nobody writes to, and an output that works

The world in which C36 and C37 are stated: each log device holds a list of entries
and gives them out one after the other, nobody adds to it, and output succeeds.
Entries that `receive_entry` does not deliver (binary entries when the format is
not CSV, libulogcat_ulog.c:87-95) make it return 0.
-/
namespace Verif.Ulogcat

inductive Item
  | text (stamp id : Nat)
  | bin
  deriving DecidableEq, Repr

/-- What each device still holds. -/
abbrev Logs := Nat → List Item

def Logs.drop1 (s : Logs) (i : Nat) : Logs := fun j => if j = i then (s j).drop 1 else s j

/-- libulogcat_ulog.c:31-119 for a device whose unread entries are the list; nothing
is taken from `mark_readable` there, as `ret` is 0 when it is subtracted. -/
def quiet : World Logs where
  poll s _ := (.ok fun i => !(s i).isEmpty, s)
  recv s i :=
    match s i with
    | [] => (.again, s)
    | .bin :: _ => (.again, s.drop1 i)
    | .text stamp id :: _ => (.got stamp id true 0, s.drop1 i)
  output s _ := (true, s)

/-- The entries of device `d` that are to be shown. -/
def texts (d : Nat) (l : List Item) : List Frame :=
  l.filterMap fun
    | .text stamp id => some (Frame.mk d stamp id true)
    | .bin => none

/-- What is output for a list of entries: with several devices, before the first
entry of each device a banner; then the entry if it can be shown. -/
def annotate (multi : Bool) : List Nat → List Frame → List OutEv
  | _, [] => []
  | seen, f :: t =>
    (if multi && !seen.contains f.dev then [.banner f.dev f.stamp] else []) ++
      ((if f.shown then [.entry f] else []) ++ annotate multi (f.dev :: seen) t)

theorem contains_congr {a b : List Nat} (h : ∀ x, x ∈ a ↔ x ∈ b) (y : Nat) : a.contains y = b.contains y := by
  rw [Bool.eq_iff_iff]
  simp [h y]

theorem annotate_congr (multi : Bool) (l : List Frame) {a b : List Nat} (h : ∀ x, x ∈ a ↔ x ∈ b) :
    annotate multi a l = annotate multi b l := by
  induction l generalizing a b with
  | nil => rfl
  | cons f t ih =>
    simp only [annotate]
    rw [contains_congr h, ih (a := f.dev :: a) (b := f.dev :: b)]
    intro x
    simp [h x]

theorem annotate_snoc (multi : Bool) (seen : List Nat) (l : List Frame) (f : Frame) :
    annotate multi seen (l ++ [f]) = annotate multi seen l ++
      ((if multi && !(l.map Frame.dev ++ seen).contains f.dev then [.banner f.dev f.stamp] else []) ++
        if f.shown then [.entry f] else []) := by
  induction l generalizing seen with
  | nil => simp [annotate]
  | cons g t ih =>
    have hc : (t.map Frame.dev ++ g.dev :: seen).contains f.dev = (List.map Frame.dev (g :: t) ++ seen).contains f.dev := by
      apply contains_congr
      intro x
      simp only [List.mem_append, List.mem_cons, List.map_cons, List.cons_append]
      constructor
      · rintro (h | h | h)
        · exact Or.inr (Or.inl h)
        · exact Or.inl h
        · exact Or.inr (Or.inr h)
      · rintro (h | h | h)
        · exact Or.inr (Or.inl h)
        · exact Or.inl h
        · exact Or.inr (Or.inr h)
    simp only [List.cons_append, annotate, ih, hc, List.append_assoc, List.cons_append]

def Ctx.printedOf (c : Ctx) (i : Nat) : Bool :=
  match c.devs[i]? with
  | some d => d.printed
  | none => false

def Ctx.markOf (c : Ctx) (i : Nat) : Int :=
  match c.devs[i]? with
  | some d => d.mark
  | none => 0

theorem printedOf_upd (c : Ctx) (i j : Nat) (g : Dev → Dev) (hg : ∀ d, (g d).printed = d.printed) :
    (c.upd i g).printedOf j = c.printedOf j := by
  unfold Ctx.printedOf Ctx.upd
  simp only [List.getElem?_modify]
  by_cases h : i = j
  · simp only [h, if_true]
    cases c.devs[j]? with
    | none => rfl
    | some d => exact hg d
  · simp only [h, if_false]
    cases c.devs[j]? <;> rfl

theorem markOf_upd (c : Ctx) (i j : Nat) (g : Dev → Dev) (hg : ∀ d, (g d).mark = d.mark) :
    (c.upd i g).markOf j = c.markOf j := by
  unfold Ctx.markOf Ctx.upd
  simp only [List.getElem?_modify]
  by_cases h : i = j
  · simp only [h, if_true]
    cases c.devs[j]? with
    | none => rfl
    | some d => exact hg d
  · simp only [h, if_false]
    cases c.devs[j]? <;> rfl

theorem markOf_core (c : Ctx) (i : Nat) : c.core.markOf i = c.markOf i := by
  unfold Ctx.markOf Ctx.core
  simp only [List.getElem?_map]
  cases c.devs[i]? <;> rfl

/-- The output so far is what the frames `w` give. -/
structure OutOK (n : Nat) (c : Ctx) (w : List Frame) : Prop where
  noErr : c.outErr = false
  out : c.out = annotate (decide (n > 1)) [] w
  printed : n > 1 → ∀ i, i < n → (c.printedOf i = true ↔ i ∈ w.map Frame.dev)

theorem printedOf_setPrinted (c : Ctx) (i j : Nat) (h : i < c.devs.length) :
    (c.upd i fun d => { d with printed := true }).printedOf j = if i = j then true else c.printedOf j := by
  unfold Ctx.printedOf Ctx.upd
  simp only [List.getElem?_modify]
  by_cases hj : i = j
  · subst hj
    simp [h]
  · simp only [hj, if_false]
    cases c.devs[j]? <;> rfl

theorem flushFrame_quiet {n : Nat} {c : Ctx} {w : List Frame} (s : Logs) (f : Frame) (O : OutOK n c w)
    (hl : c.devs.length = n) (hf : f.dev < n) (hs : f.shown = true) :
    ∃ c', flushFrame quiet c s f = .ok (c', s) ∧ c'.core = c.core ∧ OutOK n c' (w ++ [f]) := by
  obtain ⟨d, hd⟩ : ∃ d, c.devs[f.dev]? = some d := ⟨c.devs[f.dev], by simp [hl, hf]⟩
  obtain ⟨c', s', e1, e2⟩ := flushFrame_core quiet c s f (by omega)
  have hpd : c.printedOf f.dev = d.printed := by simp [Ctx.printedOf, hd]
  have key : flushFrame quiet c s f = .ok (flushEntry quiet (flushBanner quiet c s f d) f) := by
    unfold flushFrame; rw [hd]
  have hb : flushBanner quiet c s f d =
      (if !d.printed && decide (n > 1) then
        ((({ c with out := c.out ++ [.banner f.dev f.stamp] } : Ctx).upd f.dev fun d => { d with printed := true }), s) else (c, s)) := by
    unfold flushBanner output
    simp only [hl, O.noErr, quiet]
    rfl
  have hfe : ∀ x : Ctx, x.outErr = false → flushEntry quiet (x, s) f = ({ x with out := x.out ++ [.entry f] }, s) := by
    intro x hx
    unfold flushEntry output
    simp only [hs, hx, quiet, if_true]
    rfl
  by_cases hc : (!d.printed && decide (n > 1)) = true
  · rw [if_pos hc] at hb
    rw [hb, hfe (({ c with out := c.out ++ [.banner f.dev f.stamp] } : Ctx).upd f.dev fun d => { d with printed := true }) O.noErr] at key
    rw [key] at e1
    simp only [Except.ok.injEq, Prod.mk.injEq] at e1
    refine ⟨c', by rw [key, ← e1.1], e2, ?_⟩
    obtain ⟨e1, -⟩ := e1
    subst e1
    simp only [Bool.and_eq_true, Bool.not_eq_true', decide_eq_true_eq] at hc
    have hnp : ¬ f.dev ∈ w.map Frame.dev := by
      rw [← O.printed hc.2 _ hf, hpd, hc.1]; simp
    refine ⟨O.noErr, ?_, ?_⟩
    · show c.out ++ [.banner f.dev f.stamp] ++ [.entry f] = _
      rw [annotate_snoc, O.out]
      have : (w.map Frame.dev ++ []).contains f.dev = false := by simpa using hnp
      rw [this]
      simp [hc.2, hs]
    · intro hn i hi
      have hp := printedOf_setPrinted ({ c with out := c.out ++ [.banner f.dev f.stamp] } : Ctx) f.dev i (by show f.dev < c.devs.length; omega)
      show Ctx.printedOf (Ctx.upd ({ c with out := c.out ++ [.banner f.dev f.stamp] } : Ctx) f.dev fun d => { d with printed := true }) i = true ↔ _
      rw [hp]
      by_cases hfi : f.dev = i
      · simp [hfi]
      · simp only [hfi, if_false]
        have := O.printed hn i hi
        rw [show Ctx.printedOf ({ c with out := c.out ++ [.banner f.dev f.stamp] } : Ctx) i = c.printedOf i from rfl, this]
        simp only [List.map_append, List.mem_append, List.map_cons, List.map_nil, List.mem_singleton]
        exact ⟨Or.inl, fun h => h.resolve_right fun e => hfi e.symm⟩
  · rw [if_neg hc] at hb
    rw [hb, hfe _ O.noErr] at key
    rw [key] at e1
    simp only [Except.ok.injEq, Prod.mk.injEq] at e1
    refine ⟨c', by rw [key, ← e1.1], e2, ?_⟩
    obtain ⟨e1, -⟩ := e1
    subst e1
    have hcond : n > 1 → f.dev ∈ w.map Frame.dev := by
      intro hn
      rw [← O.printed hn _ hf, hpd]
      cases hp : d.printed
      · exact absurd (by simp [hp, hn]) hc
      · rfl
    refine ⟨O.noErr, ?_, ?_⟩
    · show c.out ++ [.entry f] = _
      rw [annotate_snoc, O.out]
      by_cases hn : n > 1
      · have : (w.map Frame.dev ++ []).contains f.dev = true := by simpa using hcond hn
        rw [this]
        simp [hs]
      · simp [hn, hs]
    · intro hn i hi
      show c.printedOf i = true ↔ _
      rw [O.printed hn i hi]
      simp only [List.map_append, List.mem_append, List.map_cons, List.map_nil, List.mem_singleton]
      exact ⟨Or.inl, fun h => h.elim id fun e => e ▸ hcond hn⟩

/-- Fields the output bookkeeping depends on. -/
theorem OutOK.congr {n : Nat} {c c' : Ctx} {w : List Frame} (O : OutOK n c w) (h1 : c'.outErr = c.outErr)
    (h2 : c'.out = c.out) (h3 : ∀ i, c'.printedOf i = c.printedOf i) : OutOK n c' w :=
  ⟨h1.trans O.noErr, h2.trans O.out, fun hn i hi => by rw [h3]; exact O.printed hn i hi⟩

/-! ## The invariant of a dump -/

/-- The line of `Merge`: the pending frames, then the first entry of each device that has none
pending. -/
def vheads (p : Nat → Bool) (s : Logs) (i : Nat) : List Frame := if p i then [] else (texts i (s i)).take 1

def vline (n : Nat) (p : Nat → Bool) (q : List Frame) (s : Logs) : List Frame := q ++ (List.range n).flatMap (vheads p s)

/-- What is behind it on each device. -/
def vrest (p : Nat → Bool) (s : Logs) (d : Nat) : List Frame := if p d then texts d (s d) else (texts d (s d)).drop 1

/-- `v`: the frames pulled so far. -/
structure QInv (T n : Nat) (s0 : Logs) (c : Ctx) (s : Logs) (v : List Frame) : Prop where
  inv : Inv T n c
  tl : c.tail = T
  nr : c.markReached = false
  outOK : OutOK n c (if T = 0 then v else [])
  rend : c.rendQ = v.drop (v.length - T)
  split : ∀ d, v.filter (fun f => f.dev == d) ++ c.pendQ.filter (fun f => f.dev == d) ++ texts d (s d) = texts d (s0 d)
  beyond : ∀ d, n ≤ d → s d = []
  vlt : ∀ f ∈ v, f.dev < n
  mrg : ∀ u, Picked Frame.dev Frame.stamp (vline n c.isPending c.pendQ s) (vrest c.isPending s) u →
    ByTurns Frame.dev Frame.stamp n (fun d => texts d (s0 d)) (v ++ u)
  marks : ∀ d, d < n → c.markOf d ≤ 0 → s d = [] ∧ c.isPending d = false

theorem mem_texts {d : Nat} {l : List Item} {f : Frame} (h : f ∈ texts d l) : f.dev = d ∧ f.shown = true := by
  unfold texts at h
  obtain ⟨x, -, hx⟩ := List.mem_filterMap.1 h
  cases x with
  | bin => simp at hx
  | text a b =>
    simp only [Option.some.injEq] at hx
    rw [← hx]
    exact ⟨rfl, rfl⟩

theorem QInv.mem_pend {T n : Nat} {s0 : Logs} {c : Ctx} {s : Logs} {v : List Frame} (Q : QInv T n s0 c s v)
    {f : Frame} (h : f ∈ c.pendQ) : f ∈ texts f.dev (s0 f.dev) := by
  rw [← Q.split f.dev]
  refine List.mem_append_left _ (List.mem_append_right _ ?_)
  exact List.mem_filter.2 ⟨h, by simp⟩

theorem QInv.mem_v {T n : Nat} {s0 : Logs} {c : Ctx} {s : Logs} {v : List Frame} (Q : QInv T n s0 c s v)
    {f : Frame} (h : f ∈ v) : f ∈ texts f.dev (s0 f.dev) := by
  rw [← Q.split f.dev]
  refine List.mem_append_left _ (List.mem_append_left _ ?_)
  exact List.mem_filter.2 ⟨h, by simp⟩

/-- Time stamps do not decrease along each device. -/
def SortedLogs (s0 : Logs) : Prop := ∀ d, (texts d (s0 d)).Pairwise fun a b => a.stamp ≤ b.stamp

theorem flatMap_nil {n : Nat} {g : Nat → List Frame} (h : ∀ j, j < n → g j = []) : (List.range n).flatMap g = [] := by
  rw [List.flatMap_eq_nil_iff]
  exact fun j hj => h j (List.mem_range.1 hj)

theorem flatMap_range_congr {n : Nat} {g g' : Nat → List Frame} (h : ∀ j, j < n → g j = g' j) :
    (List.range n).flatMap g = (List.range n).flatMap g' := by
  rw [List.flatMap_def, List.flatMap_def, List.map_congr_left fun j hj => h j (List.mem_range.1 hj)]

/-- The first one that is not empty. -/
theorem flatMap_first {n i : Nat} (hi : i < n) {g g' : Nat → List Frame} {f : List Frame} (h1 : ∀ j, j < i → g j = [])
    (h2 : ∀ j, j < i → g' j = []) (h3 : g i = f) (h4 : g' i = []) (h5 : ∀ j, i < j → g j = g' j) :
    (List.range n).flatMap g = f ++ (List.range n).flatMap g' := by
  induction n with
  | zero => omega
  | succ n ih =>
    rw [List.range_succ, List.flatMap_append, List.flatMap_append]
    simp only [List.flatMap_cons, List.flatMap_nil, List.append_nil]
    by_cases h : i = n
    · subst h
      rw [flatMap_nil h1, flatMap_nil h2, h3, h4]
      simp
    · rw [ih (by omega), h5 n (by omega), List.append_assoc]

theorem markOf_unready (c : Ctx) (i j : Nat) :
    (c.upd i Dev.unready).markOf j = if i = j ∧ c.markOf j > 0 then 0 else c.markOf j := by
  unfold Ctx.markOf Ctx.upd
  simp only [List.getElem?_modify]
  by_cases h : i = j
  · simp only [h, if_true, true_and]
    cases c.devs[j]? with
    | none => simp
    | some d =>
      show (Dev.unready d).mark = _
      unfold Dev.unready
      dsimp only
      split <;> simp [*]
  · simp only [h, if_false, false_and]
    cases c.devs[j]? <;> rfl

theorem unready_printed (d : Dev) : d.unready.printed = d.printed := by
  unfold Dev.unready; split <;> rfl

theorem QInv.unready {T n : Nat} {s0 : Logs} {c : Ctx} {s : Logs} {v : List Frame} (Q : QInv T n s0 c s v)
    {i : Nat} (hp : c.isPending i = false) (he : s i = []) : QInv T n s0 (c.upd i Dev.unready) s v :=
  { inv := Q.inv.unready i, tl := Q.tl, nr := Q.nr
    outOK := Q.outOK.congr rfl rfl (fun j => printedOf_upd c i j _ unready_printed)
    rend := Q.rend, split := Q.split, beyond := Q.beyond, vlt := Q.vlt
    mrg := by
      rw [show (c.upd i Dev.unready).isPending = c.isPending from funext (isPending_unready c i)]
      exact Q.mrg
    marks := by
      intro d hd hm
      rw [isPending_unready]
      by_cases h : i = d
      · subst h; exact ⟨he, hp⟩
      · rw [markOf_unready] at hm
        simp only [h, false_and, if_false] at hm
        exact Q.marks d hd hm }

theorem drop1_same (s : Logs) (i : Nat) : s.drop1 i i = (s i).drop 1 := by simp [Logs.drop1]
theorem drop1_ne (s : Logs) {i j : Nat} (h : j ≠ i) : s.drop1 i j = s j := by simp [Logs.drop1, h]

theorem QInv.bin {T n : Nat} {s0 : Logs} {c : Ctx} {s : Logs} {v : List Frame} (Q : QInv T n s0 c s v)
    {i : Nat} {t : List Item} (he : s i = .bin :: t) : QInv T n s0 c (s.drop1 i) v := by
  have ht : ∀ d, texts d (s.drop1 i d) = texts d (s d) := by
    intro d
    by_cases h : d = i
    · subst h; rw [drop1_same, he]; rfl
    · rw [drop1_ne s h]
  refine { inv := Q.inv, tl := Q.tl, nr := Q.nr, outOK := Q.outOK, rend := Q.rend
           split := fun d => by rw [ht]; exact Q.split d, beyond := ?_, vlt := Q.vlt
           mrg := by
             have h1 : vline n c.isPending c.pendQ (s.drop1 i) = vline n c.isPending c.pendQ s := by
               unfold vline
               rw [show vheads c.isPending (s.drop1 i) = vheads c.isPending s from funext fun d => by unfold vheads; rw [ht]]
             have h2 : vrest c.isPending (s.drop1 i) = vrest c.isPending s := funext fun d => by unfold vrest; rw [ht]
             rw [h1, h2]
             exact Q.mrg
           marks := ?_ }
  · intro d hd
    have := Q.beyond d hd
    unfold Logs.drop1
    split <;> simp [this]
  · intro d hd hm
    have := Q.marks d hd hm
    refine ⟨?_, this.2⟩
    unfold Logs.drop1
    split <;> simp [this.1]

theorem markOf_got (c : Ctx) (f : Frame) (j : Nat) : (c.got f 0).markOf j = c.markOf j := by
  unfold Ctx.got
  rw [markOf_upd _ _ _ _ (by intro d; show d.mark - (0 : Nat) = _; simp)]
  rfl

theorem filter_dev_nil {n T : Nat} {c : Ctx} (I : Inv T n c) {i : Nat} (hp : c.isPending i = false) :
    c.pendQ.filter (fun f => f.dev == i) = [] := by
  rw [List.filter_eq_nil_iff]
  intro f hf hd
  have hd : f.dev = i := by simpa using hd
  have := (I.pf i).2 (List.mem_map.2 ⟨f, hf, hd⟩)
  rw [hp] at this
  cases this

theorem QInv.got {T n : Nat} {s0 : Logs} {c : Ctx} {s : Logs} {v : List Frame} (Q : QInv T n s0 c s v)
    {i stamp id : Nat} {t : List Item} (hi : i < n) (hp : c.isPending i = false) (he : s i = .text stamp id :: t)
    (hlow : ∀ j, j < i → c.isPending j = true ∨ s j = []) :
    QInv T n s0 (c.got (Frame.mk i stamp id true) 0) (s.drop1 i) v := by
  have hsplit : ∀ d, (c.pendQ ++ [Frame.mk i stamp id true]).filter (fun f => f.dev == d) ++ texts d (s.drop1 i d) =
      c.pendQ.filter (fun f => f.dev == d) ++ texts d (s d) := by
    intro d
    rw [List.filter_append]
    by_cases h : d = i
    · subst h
      rw [drop1_same, he, filter_dev_nil Q.inv hp]
      simp [texts]
    · rw [drop1_ne s h]
      have : ¬ i = d := fun e => h e.symm
      simp [this]
  refine { inv := Q.inv.got _ _ hi hp, tl := Q.tl, nr := Q.nr
           outOK := Q.outOK.congr rfl rfl (fun j => printedOf_upd _ _ _ _ (fun _ => rfl))
           rend := Q.rend, split := ?_, beyond := ?_, vlt := Q.vlt, mrg := ?_, marks := ?_ }
  · intro d
    show v.filter _ ++ (c.pendQ ++ [Frame.mk i stamp id true]).filter _ ++ _ = _
    rw [List.append_assoc, hsplit, ← List.append_assoc]
    exact Q.split d
  · intro d hd
    rw [drop1_ne s (by omega)]
    exact Q.beyond d hd
  · have hpg : ∀ j, (c.got (Frame.mk i stamp id true) 0).isPending j = if i = j then true else c.isPending j :=
      isPending_got _ _ _ (by rw [Q.inv.len]; exact hi)
    have h1 : vline n (c.got (Frame.mk i stamp id true) 0).isPending (c.got (Frame.mk i stamp id true) 0).pendQ (s.drop1 i) =
        vline n c.isPending c.pendQ s := by
      show (c.pendQ ++ [Frame.mk i stamp id true]) ++ _ = _
      unfold vline
      rw [List.append_assoc]
      congr 1
      symm
      refine flatMap_first hi ?_ ?_ ?_ ?_ ?_
      · intro j hj
        unfold vheads
        rcases hlow j hj with h | h
        · rw [h]; rfl
        · rw [h]; split <;> rfl
      · intro j hj
        unfold vheads
        rw [hpg, if_neg (show ¬ i = j by omega), drop1_ne s (by omega)]
        rcases hlow j hj with h | h
        · rw [h]; rfl
        · rw [h]; split <;> rfl
      · unfold vheads
        rw [hp, he]
        rfl
      · unfold vheads
        rw [hpg, if_pos rfl]
        rfl
      · intro j hj
        unfold vheads
        rw [hpg, if_neg (show ¬ i = j by omega), drop1_ne s (by omega)]
    have h2 : vrest (c.got (Frame.mk i stamp id true) 0).isPending (s.drop1 i) = vrest c.isPending s := by
      funext d
      unfold vrest
      rw [hpg]
      by_cases h : i = d
      · subst h
        rw [if_pos rfl, if_pos rfl, hp, drop1_same, he]
        rfl
      · rw [if_neg h, drop1_ne s (fun e => h e.symm)]
    rw [h1, h2]
    exact Q.mrg
  · intro d hd hm
    rw [markOf_got] at hm
    have := Q.marks d hd hm
    have hne : d ≠ i := by
      intro e
      subst e
      rw [this.1] at he
      cases he
    rw [drop1_ne s hne, isPending_got _ _ _ (by rw [Q.inv.len]; exact hi), if_neg (fun e => hne e.symm)]
    exact this

/-! ## Measure -/

/-- Number of entries of the first `n` devices. -/
def total (s : Logs) : Nat → Nat
  | 0 => 0
  | n + 1 => total s n + (s n).length

theorem total_drop1 (s : Logs) (n i : Nat) (hi : i < n) (he : s i ≠ []) :
    total (s.drop1 i) n + 1 = total s n := by
  have hge : ∀ m, m ≤ i → total (s.drop1 i) m = total s m := by
    intro m
    induction m with
    | zero => intro _; rfl
    | succ m ih =>
      intro h
      simp only [total]
      rw [ih (by omega), drop1_ne s (by omega)]
  induction n with
  | zero => omega
  | succ n ih =>
    simp only [total]
    by_cases h : i = n
    · subst h
      rw [hge i (Nat.le_refl _), drop1_same]
      have := List.length_pos_iff.2 he
      simp only [List.length_drop]
      omega
    · rw [drop1_ne s (fun e => h e.symm)]
      have := ih (by omega)
      omega

def weight (n : Nat) (c : Ctx) (s : Logs) : Nat := 2 * total s n + c.pendQ.length

/-- The loop over the devices: it keeps the invariant; either it stops early with 0
and takes away an entry, or afterwards every device has a pending frame or is empty. -/
theorem readDevs_quiet {T n : Nat} {s0 : Logs} {v : List Frame} (asked ready : Nat → Bool) (is : List Nat) (nd : is.Pairwise (· < ·))
    {c : Ctx} {s : Logs} (m : Int) (Q : QInv T n s0 c s v) (hm : 0 ≤ m)
    (hlt : ∀ i ∈ is, i < n)
    (ha : ∀ i ∈ is, asked i = !c.isPending i)
    (hr : ∀ i ∈ is, ready i = !(s i).isEmpty)
    (hdone : ∀ i, i < n → i ∉ is → c.isPending i = true ∨ (s i = [] ∧ c.markOf i ≤ 0)) :
    ∃ c' s' r m', readDevs quiet asked ready is c s m = (c', s', r, m') ∧ QInv T n s0 c' s' v ∧ 0 ≤ m' ∧
      ((r = some 0 ∧ weight n c' s' < weight n c s) ∨
       (r = none ∧ weight n c' s' ≤ weight n c s ∧ ∀ i, i < n → c'.isPending i = true ∨ (s' i = [] ∧ c'.markOf i ≤ 0))) := by
  induction is generalizing c s m with
  | nil => exact ⟨c, s, none, m, rfl, Q, hm, Or.inr ⟨rfl, Nat.le_refl _, fun i hi => hdone i hi (by simp)⟩⟩
  | cons i is ih =>
    have nd2 := List.pairwise_cons.1 nd
    have nd' : i ∉ is ∧ is.Pairwise (· < ·) := ⟨fun h => Nat.lt_irrefl _ (nd2.1 i h), nd2.2⟩
    have hi := hlt i (by simp)
    rw [readDevs_cons]
    by_cases hskip : (asked i && ready i) = false
    · rw [if_pos hskip]
      by_cases hai : asked i = true
      · -- asked and not ready
        have hp : c.isPending i = false := by
          have := ha i (by simp); rw [hai] at this
          cases h : c.isPending i
          · rfl
          · rw [h] at this; cases this
        have he : s i = [] := by
          have := hr i (by simp)
          rw [hai] at hskip
          simp only [Bool.true_and] at hskip
          rw [hskip] at this
          cases h : s i with
          | nil => rfl
          | cons a b => rw [h] at this; simp at this
        rw [if_pos hai]
        have := ih nd'.2 m (Q.unready hp he) hm (fun j hj => hlt j (List.mem_cons_of_mem _ hj))
          (fun j hj => by rw [isPending_unready]; exact ha j (List.mem_cons_of_mem _ hj))
          (fun j hj => hr j (List.mem_cons_of_mem _ hj))
          (by
            intro j hj hjn
            rw [isPending_unready, markOf_unready]
            by_cases hji : i = j
            · subst hji
              refine Or.inr ⟨he, ?_⟩
              simp only [true_and]
              split <;> omega
            · simp only [hji, false_and, if_false]
              exact hdone j hj (by simp only [List.mem_cons, not_or]; exact ⟨fun e => hji e.symm, hjn⟩))
        exact this
      · rw [if_neg hai]
        have hp : c.isPending i = true := by
          have := ha i (by simp)
          cases h : c.isPending i
          · rw [h] at this; exact absurd this hai
          · rfl
        exact ih nd'.2 m Q hm (fun j hj => hlt j (List.mem_cons_of_mem _ hj))
          (fun j hj => ha j (List.mem_cons_of_mem _ hj))
          (fun j hj => hr j (List.mem_cons_of_mem _ hj))
          (by
            intro j hj hjn
            by_cases hji : j = i
            · subst hji; exact Or.inl hp
            · exact hdone j hj (by simp only [List.mem_cons, not_or]; exact ⟨hji, hjn⟩))
    · rw [if_neg hskip]
      have hai : asked i = true := by
        cases h : asked i
        · simp [h] at hskip
        · rfl
      have hri : ready i = true := by
        cases h : ready i
        · simp [h] at hskip
        · rfl
      have hp : c.isPending i = false := by
        have := ha i (by simp); rw [hai] at this
        cases h : c.isPending i
        · rfl
        · rw [h] at this; cases this
      have hroom := room Q.inv hi hp
      rw [if_neg (by omega)]
      cases he : s i with
      | nil =>
        have := hr i (by simp)
        rw [hri, he] at this
        simp at this
      | cons x t =>
        have hne : s i ≠ [] := by rw [he]; simp
        have htot := total_drop1 s n i hi hne
        cases x with
        | bin =>
          have hrecv : quiet.recv s i = (.again, s.drop1 i) := by simp [quiet, he]
          rw [hrecv]
          refine ⟨c, _, _, _, rfl, Q.bin he, hm, Or.inl ⟨rfl, ?_⟩⟩
          unfold weight
          omega
        | text stamp id =>
          have hrecv : quiet.recv s i = (.got stamp id true 0, s.drop1 i) := by simp [quiet, he]
          rw [hrecv]
          dsimp only
          have hw : weight n (c.got (Frame.mk i stamp id true) 0) (s.drop1 i) < weight n c s := by
            unfold weight
            have : (c.got (Frame.mk i stamp id true) 0).pendQ.length = c.pendQ.length + 1 := by simp [Ctx.got, Ctx.upd]
            omega
          have hpg : ∀ j, (c.got (Frame.mk i stamp id true) 0).isPending j = if i = j then true else c.isPending j :=
            isPending_got _ _ _ (by rw [Q.inv.len]; exact hi)
          obtain ⟨c', s', r, m', e1, Q', hm', e2⟩ := ih nd'.2 (m + 1) (Q.got hi hp he (by
              intro j hj
              refine (hdone j (by omega) ?_).imp (fun h => h) And.left
              intro h
              rcases List.mem_cons.1 h with h | h
              · omega
              · exact absurd (nd2.1 j h) (by omega))) (by omega)
            (fun j hj => hlt j (List.mem_cons_of_mem _ hj))
            (fun j hj => by
              have hij : ¬ i = j := fun e => nd'.1 (e ▸ hj)
              rw [hpg, if_neg hij]
              exact ha j (List.mem_cons_of_mem _ hj))
            (fun j hj => by
              have hij : j ≠ i := fun e => nd'.1 (e ▸ hj)
              rw [drop1_ne s hij]
              exact hr j (List.mem_cons_of_mem _ hj))
            (by
              intro j hj hjn
              rw [hpg]
              by_cases hji : i = j
              · simp [hji]
              · simp only [hji, if_false]
                rw [drop1_ne s (fun e => hji e.symm), markOf_got]
                exact hdone j hj (by simp only [List.mem_cons, not_or]; exact ⟨fun e => hji e.symm, hjn⟩))
          refine ⟨c', s', r, m', e1, Q', hm', ?_⟩
          rcases e2 with ⟨h1, h2⟩ | ⟨h1, h2, h3⟩
          · exact Or.inl ⟨h1, by omega⟩
          · exact Or.inr ⟨h1, by omega, h3⟩

/-! ## Pulling the oldest frame -/

theorem lastN_snoc (v : List Frame) (f : Frame) (T : Nat) (hT : 0 < T) :
    (v ++ [f]).drop ((v ++ [f]).length - T) =
      if (v.drop (v.length - T)).length < T then v.drop (v.length - T) ++ [f] else (v.drop (v.length - T) ++ [f]).drop 1 := by
  simp only [List.length_append, List.length_cons, List.length_nil, List.length_drop]
  split
  · rename_i h
    have h1 : v.length < T := by omega
    have h2 : v.length + (0 + 1) - T = 0 := by omega
    have h3 : v.length - T = 0 := by omega
    rw [h2, h3]; simp
  · rename_i h
    have h1 : T ≤ v.length := by omega
    have h2 : v.length + (0 + 1) - T = (v.length - T) + 1 := by omega
    rw [h2, List.drop_append_of_le_length (by omega), ← List.drop_append_of_le_length (by omega),
      List.drop_drop.symm, List.drop_append_of_le_length (by omega)]

theorem QInv.pull {T n : Nat} {s0 : Logs} {c : Ctx} {s : Logs} {v : List Frame} (Q : QInv T n s0 c s v)
    (hfull : ∀ i, i < n → c.isPending i = true ∨ (s i = [] ∧ c.markOf i ≤ 0)) :
    (c.pendQ = [] ∧ pullFrame quiet c s = .ok (c, s)) ∨
    ∃ c' f, pullFrame quiet c s = .ok (c', s) ∧ QInv T n s0 c' s (v ++ [f]) ∧ weight n c' s < weight n c s := by
  unfold pullFrame
  cases hpop : popOldest c.pendQ with
  | none => exact Or.inl ⟨(popOldest_none _).1 hpop, rfl⟩
  | some fr =>
    obtain ⟨f, r⟩ := fr
    right
    have I := Q.inv
    obtain ⟨a, b, hab, hr, hlta, hleb⟩ := popOldest_some _ _ _ hpop
    obtain ⟨p1, p2, p3, p4, p5⟩ := pop_dev _ _ _ hpop I.nd
    obtain ⟨c', s', e1, I', e3⟩ := pullFrame_inv quiet s I
    have hfil : ∀ d, (v ++ [f]).filter (fun f => f.dev == d) ++ r.filter (fun f => f.dev == d) =
        v.filter (fun f => f.dev == d) ++ c.pendQ.filter (fun f => f.dev == d) := by
      intro d
      rw [List.filter_append, List.append_assoc]
      congr 1
      by_cases hd : f.dev = d
      · have hnd : ∀ g ∈ r, g.dev ≠ d := by
          intro g hg e
          exact ((p5 d).1 (List.mem_map.2 ⟨g, hg, e⟩)).2 hd.symm
        have h1 : r.filter (fun f => f.dev == d) = [] := by
          rw [List.filter_eq_nil_iff]
          intro g hg e
          exact hnd g hg (by simpa using e)
        rw [h1, hab]
        have h2 := h1
        rw [hr, List.filter_append] at h2
        obtain ⟨ha, hb⟩ := List.append_eq_nil_iff.1 h2
        simp [hd, ha, hb]
      · rw [hab, hr]
        simp [hd]
    -- the line before and after
    have hpu : ∀ d, d < n → (c.upd f.dev fun d => { d with pending := false }).isPending d = if d = f.dev then false else c.isPending d := by
      intro d hd
      rw [isPending_upd]
      by_cases h : f.dev = d
      · subst h
        rw [if_pos rfl, if_pos rfl]
        cases c.devs[f.dev]? <;> rfl
      · rw [if_neg h, if_neg (fun e => h e.symm)]
    have hfn : f.dev < n := I.plt f p3
    have hl0 : vline n c.isPending c.pendQ s = a ++ f :: b := by
      unfold vline
      rw [flatMap_nil, List.append_nil, hab]
      intro j hj
      unfold vheads
      rcases hfull j hj with h | h
      · rw [h]; rfl
      · rw [h.1]; split <;> rfl
    have hr0 : vrest c.isPending s = fun d => texts d (s d) := by
      funext d
      unfold vrest
      rcases Nat.lt_or_ge d n with hd | hd
      · rcases hfull d hd with h | h
        · rw [if_pos h]
        · rw [h.1]; split <;> rfl
      · rw [Q.beyond d hd]; split <;> rfl
    have hl1 : vline n (c.upd f.dev fun d => { d with pending := false }).isPending r s = a ++ b ++ (texts f.dev (s f.dev)).take 1 := by
      unfold vline
      rw [hr]
      congr 1
      have hz : ∀ j, j < n → j ≠ f.dev → vheads (c.upd f.dev fun d => { d with pending := false }).isPending s j = [] := by
        intro j hj hne
        unfold vheads
        rw [hpu j hj, if_neg hne]
        rcases hfull j hj with h | h
        · rw [h]; rfl
        · rw [h.1]; split <;> rfl
      have := flatMap_first (n := n) hfn (g := fun j => if j < n then vheads (c.upd f.dev fun d => { d with pending := false }).isPending s j else [])
        (g' := fun _ => []) (f := (texts f.dev (s f.dev)).take 1)
        (fun j hj => by rw [if_pos (by omega)]; exact hz j (by omega) (by omega)) (fun _ _ => rfl)
        (by rw [if_pos hfn]; unfold vheads; rw [hpu _ hfn, if_pos rfl]; rfl) rfl
        (fun j hj => by
          by_cases h : j < n
          · rw [if_pos h]; exact hz j h (by omega)
          · rw [if_neg h])
      rw [flatMap_nil (g := fun _ => []) (fun _ _ => rfl), List.append_nil] at this
      rw [← this]
      refine flatMap_range_congr ?_
      intro j hj
      rw [if_pos hj]
    have hr1 : vrest (c.upd f.dev fun d => { d with pending := false }).isPending s = behind (fun d => texts d (s d)) f.dev := by
      funext d
      unfold vrest behind
      dsimp only
      rcases Nat.lt_or_ge d n with hd | hd
      · rw [hpu d hd]
        by_cases h : d = f.dev
        · rw [if_pos h, if_pos h]; rfl
        · rw [if_neg h, if_neg h]
          rcases hfull d hd with h | h
          · rw [if_pos h]
          · rw [h.1]; split <;> rfl
      · rw [Q.beyond d hd]; split <;> split <;> rfl
    have hmrg : ∀ u, Picked Frame.dev Frame.stamp (vline n (c.upd f.dev fun d => { d with pending := false }).isPending r s)
        (vrest (c.upd f.dev fun d => { d with pending := false }).isPending s) u →
        ByTurns Frame.dev Frame.stamp n (fun d => texts d (s0 d)) (v ++ [f] ++ u) := by
      intro u hu
      rw [hl1, hr1] at hu
      have h1 : Picked Frame.dev Frame.stamp (a ++ f :: b) (fun d => texts d (s d)) (f :: u) := .cons a f b _ u hlta hleb hu
      rw [List.append_assoc]
      refine Q.mrg _ ?_
      rw [hl0, hr0]
      exact h1
    have hvlt : ∀ g ∈ v ++ [f], g.dev < n := by
      intro g hg
      rcases List.mem_append.1 hg with hg | hg
      · exact Q.vlt g hg
      · rw [List.mem_singleton.1 hg]; exact I.plt f p3
    have hmarks : ∀ d, d < n → c.markOf d ≤ 0 →
        s d = [] ∧ (c.upd f.dev fun d => { d with pending := false }).isPending d = false := by
      intro d hd hm
      have := Q.marks d hd hm
      refine ⟨this.1, ?_⟩
      cases h : (c.upd f.dev fun d => { d with pending := false }).isPending d
      · rfl
      · have h1 := ((p5 d).1 ((pf_pop I hpop d).1 h)).1
        rw [← I.pf, this.2] at h1
        cases h1
    have hsplit : ∀ d, (v ++ [f]).filter (fun f => f.dev == d) ++ r.filter (fun f => f.dev == d) ++ texts d (s d) = texts d (s0 d) := by
      intro d
      rw [hfil]
      exact Q.split d
    have hunf : pullFrame quiet c s =
        if c.tail > 0 then .ok (enqueueRender ({ c.upd f.dev fun d => { d with pending := false } with pendQ := r, pending := c.pending - 1 } : Ctx) f, s)
        else (flushFrame quiet ({ c.upd f.dev fun d => { d with pending := false } with pendQ := r, pending := c.pending - 1 } : Ctx) s f).bind
          fun x => .ok ({ x.1 with free := x.1.free + 1 }, x.2) := by
      unfold pullFrame
      rw [hpop]
      rfl
    have hunf' := hunf
    unfold pullFrame at hunf'
    rw [hpop] at hunf'
    rw [hunf']
    by_cases hT : c.tail > 0
    · rw [if_pos hT] at hunf ⊢
      rw [hunf] at e1
      simp only [Except.ok.injEq, Prod.mk.injEq] at e1
      refine ⟨c', f, by rw [e1.1], ?_, ?_⟩
      · have hT0 : ¬ T = 0 := by have := Q.tl; omega
        rcases enqueueRender_cases ({ c.upd f.dev fun d => { d with pending := false } with pendQ := r, pending := c.pending - 1 } : Ctx) f with ⟨h1, h2⟩ | ⟨h1, h2⟩
        · have e := e1.1
          rw [h2] at e
          subst e
          have h1 : c.render < c.tail := h1
          exact { inv := I', tl := Q.tl, nr := Q.nr
                  outOK := by
                    have := Q.outOK
                    rw [if_neg hT0] at this ⊢
                    exact this.congr rfl rfl (fun j => printedOf_upd c f.dev j _ (fun _ => rfl))
                  rend := by
                    show c.rendQ ++ [f] = _
                    rw [lastN_snoc v f T (by omega), ← Q.rend, if_pos]
                    have := I.rc; have := Q.tl; omega
                  split := hsplit, beyond := Q.beyond, vlt := hvlt, mrg := hmrg
                  marks := fun d hd hm => hmarks d hd (by rwa [← markOf_upd c f.dev d (fun d => { d with pending := false }) (fun _ => rfl)]) }
        · have e := e1.1
          rw [h2] at e
          subst e
          have h1 : ¬ c.render < c.tail := h1
          exact { inv := I', tl := Q.tl, nr := Q.nr
                  outOK := by
                    have := Q.outOK
                    rw [if_neg hT0] at this ⊢
                    exact this.congr rfl rfl (fun j => printedOf_upd c f.dev j _ (fun _ => rfl))
                  rend := by
                    show (c.rendQ ++ [f]).drop 1 = _
                    rw [lastN_snoc v f T (by omega), ← Q.rend, if_neg]
                    have := I.rc; have := Q.tl; omega
                  split := hsplit, beyond := Q.beyond, vlt := hvlt, mrg := hmrg
                  marks := fun d hd hm => hmarks d hd (by rwa [← markOf_upd c f.dev d (fun d => { d with pending := false }) (fun _ => rfl)]) }
      · have : c'.pendQ = r := by
          rw [← e1.1]
          rcases enqueueRender_cases ({ c.upd f.dev fun d => { d with pending := false } with pendQ := r, pending := c.pending - 1 } : Ctx) f with ⟨h1, h2⟩ | ⟨h1, h2⟩ <;> rw [h2]
        unfold weight
        rw [this]
        omega
    · rw [if_neg hT] at hunf ⊢
      have hT0 : T = 0 := by have := Q.tl; omega
      have hO : OutOK n ({ c.upd f.dev fun d => { d with pending := false } with pendQ := r, pending := c.pending - 1 } : Ctx) v := by
        have := Q.outOK
        rw [if_pos hT0] at this
        exact this.congr rfl rfl (fun j => printedOf_upd c f.dev j _ (fun _ => rfl))
      obtain ⟨c2, f1, f2, f3⟩ := flushFrame_quiet s f hO ((upd_len _ _ _).trans I.len) (I.plt f p3)
        (mem_texts (Q.mem_pend p3)).2
      rw [f1] at hunf ⊢
      simp only [Except.bind] at hunf ⊢
      rw [hunf] at e1
      simp only [Except.ok.injEq, Prod.mk.injEq] at e1
      refine ⟨c', f, by rw [e1.1], ?_, ?_⟩
      · have e := e1.1
        subst e
        have f2' := f2
        simp only [Ctx.core, Ctx.mk.injEq, true_and] at f2
        obtain ⟨h1, h2, h3, h4, h5, h6, h7, h8, h9⟩ := f2
        have hr2 : c2.rendQ = [] := by
          rw [h5]
          show c.rendQ = []
          rw [Q.rend, hT0]; simp
        refine { inv := I', tl := h7.trans Q.tl, nr := h8.trans Q.nr
                 outOK := by rw [if_pos hT0]; exact f3.congr rfl rfl (fun _ => rfl)
                 rend := by show c2.rendQ = _; rw [hr2, hT0]; simp
                 split := ?_, beyond := Q.beyond, vlt := hvlt, mrg := ?_, marks := ?_ }
        · intro d
          show _ ++ c2.pendQ.filter _ ++ _ = _
          rw [h3]
          exact hsplit d
        · have hip : Ctx.isPending ({ c2 with free := c2.free + 1 } : Ctx) = (c.upd f.dev fun d => { d with pending := false }).isPending := by
            funext d
            show c2.isPending d = _
            rw [← isPending_core, f2', isPending_core]
            rfl
          rw [hip]
          show ∀ u, Picked Frame.dev Frame.stamp (vline n _ c2.pendQ s) _ u → _
          rw [h3]
          exact hmrg
        · intro d hd hm
          have hm : c2.markOf d ≤ 0 := hm
          rw [← markOf_core, f2', markOf_core] at hm
          have hm : (c.upd f.dev fun d => { d with pending := false }).markOf d ≤ 0 := hm
          rw [markOf_upd c f.dev d _ (by intro _; rfl)] at hm
          have := hmarks d hd hm
          refine ⟨this.1, ?_⟩
          show c2.isPending d = false
          rw [← isPending_core, f2', isPending_core]
          exact this.2
      · have : c'.pendQ = r := by
          rw [← e1.1]
          simp only [Ctx.core, Ctx.mk.injEq, true_and] at f2
          exact f2.2.2.1
        unfold weight
        rw [this]
        omega

end Verif.Ulogcat
