import Verif.Tools.Redirect
import Verif.Tools.PropsSyslog

/-!
# Messages of GLib and libobus (C101)
-/
namespace Verif.Tools
open Verif Verif.Libulog

/-- The calls `ops` were made in a new process and led to `s`. No other part of the
process can name the tag on the stack of the handler. -/
structure RRun (nm : Cid → Bytes) (ops : List (World × ROp)) (s : Red) (tr : List (WRes × List Ev)) : Prop where
  run : redRun nm Red.start ops = .ok (s, tr)
  foreign : ∀ x ∈ ops, ∀ op, x.2 = .other op → op.tag ≠ some tmpTag

/-- The tag a call uses itself, given whether libobus is redirected: none for messages
of GLib. -/
def ROp.tag (obus : Bool) : ROp → Option Cid
  | .glibRedirect | .glibLevel _ => some glibTag
  | .obusLevel _ => some obusTag
  | .obus _ _ => if obus then some obusTag else none
  | .other op => op.tag
  | .glib _ _ _ | .obusRedirect => none

/-- The call redirects libobus. -/
def ROp.isObus : ROp → Bool
  | .obusRedirect => true
  | _ => false

/-- Tags in order of first use, last one first, given whether libobus is redirected. -/
def tagsOf : Bool → List Cid → List ROp → List Cid
  | _, u, [] => u
  | b, u, op :: l =>
    tagsOf (b || op.isObus)
      (match op.tag b with
      | some c => if c ∈ u then u else c :: u
      | none => u) l

structure RedInv (s : Red) (u : List Cid) : Prop where
  reg : RegInv s.lib u
  tmp : tmpTag ∉ u
  glib : s.glib = true → glibTag ∈ u

theorem glib_call {nm : Cid → Bytes} {w : World} {s : Lib} {u : List Cid} (h : RegInv s u) (ht : tmpTag ∉ u) {dom : Bytes}
    {l : Int} (hl : 0 ≤ l) {p : UInt32} {text : Bytes} {s' : Lib} {r : WRes} {e : List Ev}
    (hs : wstep (tmpNames nm dom) w (setTmp s l) (.str p tmpTag text) = .ok (s', r, e)) :
    RegInv (setTmp s' (-1)) u := by
  have he : ensureInit (tmpNames nm dom) w (setTmp s l) tmpTag = (setTmp s l, []) := by
    unfold ensureInit
    have : (setTmp s l).level tmpTag = l := by simp [setTmp]
    rw [if_neg (by omega)]
  have hsame : SameReg (setTmp s l) s' := by
    have hs' : logOn (tmpNames nm dom) w (setTmp s l) p tmpTag (some (text ++ [0])) = .ok (s', r, e) := hs
    unfold logOn at hs'
    rw [he] at hs'
    simp only [bind, Except.bind] at hs'
    split at hs'
    · cases hx : deliver (tmpNames nm dom) w (setTmp s l) p tmpTag (text ++ [0]) with
      | error z => rw [hx] at hs'; cases hs'
      | ok z =>
        rw [hx] at hs'
        simp only [Except.ok.injEq, Prod.mk.injEq] at hs'
        rw [← hs'.1]
        exact callWriter_same hx
    · simp only [Except.ok.injEq, Prod.mk.injEq] at hs'
      rw [← hs'.1]; exact .refl _
  have hneg : s.level tmpTag = -1 := h.neg _ (by have := mt (h.mem tmpTag).mpr ht; omega)
  have hlev : (setTmp s' (-1)).level = s.level := by
    funext c
    show (if c = tmpTag then -1 else s'.level c) = s.level c
    by_cases hc : c = tmpTag
    · rw [if_pos hc, hc, hneg]
    · rw [if_neg hc, hsame.level]
      show (if c = tmpTag then l else s.level c) = s.level c
      rw [if_neg hc]
  exact ⟨hsame.list.trans h.list, by rw [hlev]; exact h.mem, h.nodup, by rw [hlev]; exact h.neg,
    by rw [hlev]; exact h.le⟩

theorem red_call {nm : Cid → Bytes} {w : World} {s s' : Red} {op : WOp} {r : WRes} {e : List Ev}
    (h : s.call nm w op = .ok (s', r, e)) :
    wstep nm w s.lib op = .ok (s'.lib, r, e) ∧ s'.glib = s.glib ∧ s'.obus = s.obus := by
  unfold Red.call at h
  split at h
  · rename_i l r' e' hw
    simp only [Except.ok.injEq, Prod.mk.injEq] at h
    obtain ⟨rfl, rfl, rfl⟩ := h
    exact ⟨hw, rfl, rfl⟩
  · simp at h

/-- The tags after one call. -/
def stepTags (b : Bool) (u : List Cid) (op : ROp) : List Cid :=
  match op.tag b with
  | some c => if c ∈ u then u else c :: u
  | none => u

theorem redInv_step {nm : Cid → Bytes} {w : World} {s s' : Red} {u : List Cid} {op : ROp} {r : WRes} {e : List Ev}
    (h : RedInv s u) (hf : ∀ o, op = .other o → o.tag ≠ some tmpTag) (hs : redStep nm w s op = .ok (s', r, e)) :
    RedInv s' (stepTags s.obus u op) ∧
      s'.obus = (s.obus || op.isObus) := by
  have via : ∀ (o : WOp) (s1 : Red), s.call nm w o = .ok (s1, r, e) → o.tag ≠ some tmpTag →
      RedInv s1 (addTag u o) ∧ s1.obus = s.obus ∧ s1.glib = s.glib := by
    intro o s1 hc ht
    obtain ⟨h1, h2, h3⟩ := red_call hc
    refine ⟨⟨wstep_reg h.reg h1, ?_, fun hg => addTag_mono u o (h.glib (h2 ▸ hg))⟩, h3, h2⟩
    unfold addTag
    split
    · rename_i c hc'
      split
      · exact h.tmp
      · intro hm
        rcases List.mem_cons.mp hm with hm | hm
        · exact ht (by rw [hc', hm])
        · exact h.tmp hm
    · exact h.tmp
  cases op with
  | glibRedirect =>
    simp only [redStep] at hs
    cases hc : s.call nm w (.init glibTag) with
    | error f => rw [hc] at hs; cases hs
    | ok x =>
      obtain ⟨s1, r1, e1⟩ := x
      rw [hc] at hs
      simp only [Except.ok.injEq, Prod.mk.injEq] at hs
      obtain ⟨rfl, rfl, rfl⟩ := hs
      obtain ⟨v1, v2, _⟩ := via _ _ hc (by simp only [WOp.tag]; decide)
      refine ⟨⟨v1.reg, v1.tmp, fun _ => addTag_mem u (op := .init glibTag) rfl⟩, ?_⟩
      simp [v2, ROp.isObus]
  | glibLevel l =>
    obtain ⟨v1, v2, _⟩ := via (.setLevel glibTag l) _ hs (by simp only [WOp.tag]; decide)
    exact ⟨v1, by simp [v2, ROp.isObus]⟩
  | glib domain flags text =>
    simp only [redStep] at hs
    simp only [stepTags, ROp.tag]
    split at hs
    · unfold glogFunc at hs
      cases hl : glibLevel flags with
      | none =>
        rw [hl] at hs
        simp only [Except.ok.injEq, Prod.mk.injEq] at hs
        rw [← hs.1]; exact ⟨h, by simp [ROp.isObus]⟩
      | some l =>
        rw [hl] at hs
        dsimp only at hs
        by_cases hg : s.lib.level glibTag ≥ 0
        · rw [if_pos hg] at hs
          cases hx : wstep (tmpNames nm (domain.getD (ascii "APP"))) w (setTmp s.lib (s.lib.level glibTag))
              (.str (UInt32.ofNat l) tmpTag text) with
          | error f => rw [hx] at hs; cases hs
          | ok x =>
            obtain ⟨x1, x2, x3⟩ := x
            rw [hx] at hs
            simp only [Except.ok.injEq, Prod.mk.injEq] at hs
            rw [← hs.1]
            exact ⟨⟨glib_call h.reg h.tmp hg hx, h.tmp, h.glib⟩, by simp [ROp.isObus]⟩
        · rw [if_neg hg] at hs
          simp only [Except.ok.injEq, Prod.mk.injEq] at hs
          rw [← hs.1]; exact ⟨h, by simp [ROp.isObus]⟩
    · simp only [Except.ok.injEq, Prod.mk.injEq] at hs
      rw [← hs.1]; exact ⟨h, by simp [ROp.isObus]⟩
  | obusRedirect =>
    simp only [redStep, Except.ok.injEq, Prod.mk.injEq] at hs
    rw [← hs.1]
    exact ⟨⟨h.reg, h.tmp, h.glib⟩, by simp [ROp.isObus]⟩
  | obusLevel l =>
    obtain ⟨v1, v2, _⟩ := via (.setLevel obusTag l) _ hs (by simp only [WOp.tag]; decide)
    exact ⟨v1, by simp [v2, ROp.isObus]⟩
  | obus d text =>
    simp only [redStep] at hs
    simp only [stepTags, ROp.tag]
    split at hs
    · rename_i ho
      rw [if_pos ho]
      obtain ⟨v1, v2, _⟩ := via _ _ hs (by simp only [WOp.tag]; decide)
      exact ⟨v1, by simp [v2, ROp.isObus]⟩
    · rename_i ho
      rw [if_neg ho]
      simp only [Except.ok.injEq, Prod.mk.injEq] at hs
      rw [← hs.1]; exact ⟨h, by simp [ROp.isObus]⟩
  | other o =>
    obtain ⟨v1, v2, _⟩ := via o _ hs (hf o rfl)
    exact ⟨v1, by simp [v2, ROp.isObus]⟩

theorem redInv_run {nm : Cid → Bytes} : ∀ (ops : List (World × ROp)) {s s' : Red} {u : List Cid} {tr : List (WRes × List Ev)},
    RedInv s u → (∀ x ∈ ops, ∀ op, x.2 = .other op → op.tag ≠ some tmpTag) → redRun nm s ops = .ok (s', tr) →
    RedInv s' (tagsOf s.obus u (ops.map Prod.snd))
  | [], s, s', u, tr, h, _, hr => by
    simp only [redRun, Except.ok.injEq, Prod.mk.injEq] at hr
    rw [← hr.1]; exact h
  | (w, op) :: ops, s, s', u, tr, h, hf, hr => by
    simp only [redRun] at hr
    cases hx : redStep nm w s op with
    | error f => rw [hx] at hr; cases hr
    | ok x =>
      obtain ⟨s1, r, e⟩ := x
      rw [hx] at hr
      dsimp only at hr
      cases hy : redRun nm s1 ops with
      | error f => rw [hy] at hr; cases hr
      | ok y =>
        obtain ⟨s2, t⟩ := y
        rw [hy] at hr
        simp only [Except.ok.injEq, Prod.mk.injEq] at hr
        obtain ⟨rfl, _⟩ := hr
        obtain ⟨h1, h2⟩ := redInv_step h (fun o ho => hf (w, op) (by simp) o ho) hx
        have := redInv_run ops h1 (fun x hx => hf x (List.mem_cons_of_mem _ hx)) hy
        rw [h2] at this
        exact this

theorem RRun.inv {nm : Cid → Bytes} {ops : List (World × ROp)} {s : Red} {tr : List (WRes × List Ev)}
    (h : RRun nm ops s tr) : RedInv s (tagsOf false [] (ops.map Prod.snd)) :=
  redInv_run ops (s := Red.start)
    ⟨⟨rfl, by intro c; simp [Red.start, Lib.start], List.nodup_nil, by intro c _; rfl,
      by intro c; show (-1 : Int) ≤ 7; omega⟩, by simp, by intro h; cases h⟩ h.foreign h.run

/-- C101. Whatever was logged through GLib and libobus: the tags that `ulog_foreach`
visits and `ulog_get_tag_names` lists are those used by calls of libulog and by the
two redirections themselves, once each; the tag made on the stack for a message of
GLib is never among them. -/
theorem C101_tags {nm : Cid → Bytes} {ops : List (World × ROp)} {s : Red} {tr : List (WRes × List Ev)}
    (h : RRun nm ops s tr) (w : World) :
    redStep nm w s (.other .foreach) = .ok (s, .tags ((tagsOf false [] (ops.map Prod.snd)).filter (· != 0)), []) ∧
    (∀ max : Int, redStep nm w s (.other (.getNames max)) =
      .ok (s, .names (((tagsOf false [] (ops.map Prod.snd)).take max.toNat).map nm), [])) ∧
    tmpTag ∉ tagsOf false [] (ops.map Prod.snd) ∧ (tagsOf false [] (ops.map Prod.snd)).Nodup := by
  have hi := h.inv
  refine ⟨?_, ?_, hi.tmp, hi.reg.nodup⟩
  · simp only [redStep, Red.call, wstep, hi.reg.list]
  · intro max
    simp only [redStep, Red.call, wstep, hi.reg.list]

/-- What the level of a message of GLib means to ulog: the first of these bits that is
set counts. -/
def glibTable : List (Nat × Nat) := [(2, 2), (3, 3), (4, 4), (5, 6), (6, 6), (7, 7)]

theorem glibLevel_table (flags : Nat) :
    glibLevel flags = (glibTable.find? fun x => flags.testBit x.1).map Prod.snd := by
  unfold glibLevel glibTable
  simp only [List.find?_cons, List.find?_nil]
  cases flags.testBit 2 <;> cases flags.testBit 3 <;> cases flags.testBit 4 <;> cases flags.testBit 5 <;>
    cases flags.testBit 6 <;> cases flags.testBit 7 <;> rfl

/-- The same state but for the levels of tags. -/
def withLevels (s : Lib) (g : Cid → Int) : Lib := { s with level := g }

/-- The same event, for tag `c`. -/
def Ev.retag (c : Cid) : Ev → Ev
  | .custom n p _ d => .custom n p c d
  | e => e

theorem ctrlInit_levels (w : World) (s : Lib) (g : Cid → Int) :
    ctrlInit w (withLevels s g) = (withLevels (ctrlInit w s).1 g, (ctrlInit w s).2) := by
  have hd : devChoice w (withLevels s g) = devChoice w s := rfl
  unfold ctrlInit
  rw [hd]
  generalize w.openDev (devChoice w s) = fd
  dsimp only
  generalize (if fd.isSome then Wf.kernel else Wf.null) = base
  split <;> rfl

theorem ctrlInit_retag (w : World) (s : Lib) (c : Cid) : (ctrlInit w s).2.map (Ev.retag c) = (ctrlInit w s).2 := by
  have : (ctrlInit w s).2 = (w.openDev (devChoice w s)).toList.map Ev.opened := by
    unfold ctrlInit
    dsimp only
    generalize (if (w.openDev (devChoice w s)).isSome then Wf.kernel else Wf.null) = base
    split <;> rfl
  rw [this]
  cases w.openDev (devChoice w s) <;> rfl

/-- Writing a message depends on the tag by its name only, and not on levels. -/
theorem callWriter_retag {nm nm' : Cid → Bytes} {w : World} {p : UInt32} {c c' : Cid} (hn : nm' c' = nm c) {d : Bytes}
    (g : Cid → Int) : ∀ (fuel : Nat) (f : Wf) {s s' : Lib} {e : List Ev},
      callWriter nm w p c d fuel f s = .ok (s', e) →
        callWriter nm' w p c' d fuel f (withLevels s g) = .ok (withLevels s' g, e.map (Ev.retag c')) := by
  intro fuel
  induction fuel with
  | zero => intro f s s' e h; cases h
  | succ fuel ih =>
    intro f s s' e h
    cases f with
    | null =>
      simp only [callWriter, Except.ok.injEq, Prod.mk.injEq] at h ⊢
      rw [← h.1, ← h.2]; exact ⟨rfl, rfl⟩
    | custom n =>
      simp only [callWriter, Except.ok.injEq, Prod.mk.injEq] at h ⊢
      rw [← h.1, ← h.2]; exact ⟨rfl, rfl⟩
    | kernel =>
      simp only [callWriter, Except.ok.injEq, Prod.mk.injEq] at h ⊢
      rw [← h.1, ← h.2, hn]; exact ⟨rfl, rfl⟩
    | init =>
      simp only [callWriter] at h ⊢
      have hx : (if (withLevels s g).writer = .init then ctrlInit w (withLevels s g) else (withLevels s g, [])) =
          (withLevels (if s.writer = .init then ctrlInit w s else (s, [])).1 g,
            (if s.writer = .init then ctrlInit w s else (s, [])).2) := by
        show (if s.writer = .init then _ else _) = _
        by_cases hw : s.writer = .init
        · simp only [if_pos hw]; exact ctrlInit_levels w s g
        · simp only [if_neg hw]
      have ht : (if s.writer = .init then ctrlInit w s else (s, [])).2.map (Ev.retag c') =
          (if s.writer = .init then ctrlInit w s else (s, [])).2 := by
        split
        · exact ctrlInit_retag w s c'
        · rfl
      rw [hx]
      generalize (if s.writer = .init then ctrlInit w s else (s, [])) = x at h ht ⊢
      simp only [bind, Except.bind] at h ⊢
      cases hy : callWriter nm w p c d fuel x.1.writer x.1 with
      | error z => rw [hy] at h; cases h
      | ok z =>
        obtain ⟨z1, z2⟩ := z
        rw [hy] at h
        simp only [Except.ok.injEq, Prod.mk.injEq] at h
        have hz : callWriter nm' w p c' d fuel (withLevels x.1 g).writer (withLevels x.1 g) = _ := ih _ hy
        rw [hz]
        simp only [Except.ok.injEq, Prod.mk.injEq]
        rw [← h.1, ← h.2, List.map_append, ht]
        exact ⟨rfl, rfl⟩
    | wrap color =>
      simp only [callWriter] at h ⊢
      have h2 : (withLevels s g).writer2 = s.writer2 := rfl
      rw [h2]
      cases hg : s.writer2 with
      | none => rw [hg] at h; cases h
      | some k =>
        rw [hg] at h
        simp only [bind, Except.bind] at h ⊢
        cases hy : callWriter nm w p c d fuel k s with
        | error z => rw [hy] at h; cases h
        | ok z =>
          obtain ⟨z1, z2⟩ := z
          rw [hy] at h
          rw [ih _ hy]
          simp only at h ⊢
          split at h
          · rename_i hb
            rw [if_pos hb]
            simp only [Except.ok.injEq, Prod.mk.injEq] at h ⊢
            rw [← h.1, ← h.2]; exact ⟨rfl, rfl⟩
          · rename_i hb
            rw [if_neg hb]
            have hr : (withLevels z1 g).replay = z1.replay := rfl
            rw [hn, hr]
            cases hl : stderrLine z1.replay color p (nm c) d with
            | error y => rw [hl] at h; cases h
            | ok y =>
              rw [hl] at h
              simp only [Except.ok.injEq, Prod.mk.injEq] at h ⊢
              rw [← h.1, ← h.2, List.map_append]; exact ⟨rfl, rfl⟩

theorem setTmp_self {s : Lib} {u : List Cid} (h : RegInv s u) (ht : tmpTag ∉ u) {l : Int} :
    setTmp (setTmp s l) (-1) = s := by
  have hneg : s.level tmpTag = -1 := h.neg _ (by have := mt (h.mem tmpTag).mpr ht; omega)
  unfold setTmp
  cases s with
  | mk a b c d e f g lev =>
    congr 1
    funext x
    by_cases hx : x = tmpTag
    · rw [if_pos hx, hx]; exact hneg.symm
    · rw [if_neg hx]; exact if_neg hx

/-- The outcome of `glog_func` once the redirection is in force. -/
theorem glog_eq {nm : Cid → Bytes} {w : World} {s : Lib} {l : Int} (hl : s.level glibTag = l) (h0 : 0 ≤ l)
    (domain : Option Bytes) {flags p : Nat} (hp : glibLevel flags = some p) (text : Bytes) :
    glogFunc nm w s domain flags text =
      if ((p % 8 : Nat) : Int) ≤ l then
        match deliver (tmpNames nm (domain.getD (ascii "APP"))) w (setTmp s l) (UInt32.ofNat p) tmpTag (text ++ [0]) with
        | .ok (s', e) => .ok (setTmp s' (-1), e)
        | .error f => .error f
      else .ok (setTmp (setTmp s l) (-1), []) := by
  have hp8 : p < 8 := by
    have : (glibTable.find? fun x => flags.testBit x.1).map Prod.snd = some p := by rw [← glibLevel_table]; exact hp
    obtain ⟨x, hx, rfl⟩ := Option.map_eq_some_iff.mp this
    have := List.mem_of_find?_eq_some hx
    simp only [glibTable, List.mem_cons, List.not_mem_nil, or_false] at this
    rcases this with rfl | rfl | rfl | rfl | rfl | rfl <;> decide
  have hpt : (UInt32.ofNat p).toNat % 8 = p % 8 := by
    rw [UInt32.toNat_ofNat_of_lt' (by rw [UInt32.size]; omega)]
  have hlev : (setTmp s l).level tmpTag = l := by simp [setTmp]
  unfold glogFunc
  rw [hp]
  dsimp only
  rw [hl, if_pos h0]
  have he : ensureInit (tmpNames nm (domain.getD (ascii "APP"))) w (setTmp s l) tmpTag = (setTmp s l, []) := by
    unfold ensureInit
    rw [if_neg (by omega)]
  simp only [wstep, logOn, he, hpt, hlev]
  by_cases hc : ((p % 8 : Nat) : Int) ≤ l
  · rw [if_pos hc, if_pos hc]
    simp only [bind, Except.bind]
    cases deliver (tmpNames nm (domain.getD (ascii "APP"))) w (setTmp s l) (UInt32.ofNat p) tmpTag (text ++ [0]) with
    | error f => rfl
    | ok x => rfl
  · rw [if_neg hc, if_neg hc]

theorem glib_on {nm : Cid → Bytes} : ∀ (ops : List (World × ROp)) {s s' : Red} {tr : List (WRes × List Ev)},
    redRun nm s ops = .ok (s', tr) → (s.glib = true ∨ ROp.glibRedirect ∈ ops.map Prod.snd) → s'.glib = true
  | [], s, s', tr, hr, h => by
    simp only [redRun, Except.ok.injEq, Prod.mk.injEq] at hr
    rw [← hr.1]
    rcases h with h | h
    · exact h
    · simp at h
  | (w, op) :: ops, s, s', tr, hr, h => by
    simp only [redRun] at hr
    cases hx : redStep nm w s op with
    | error f => rw [hx] at hr; cases hr
    | ok x =>
      obtain ⟨s1, r, e⟩ := x
      rw [hx] at hr
      dsimp only at hr
      cases hy : redRun nm s1 ops with
      | error f => rw [hy] at hr; cases hr
      | ok y =>
        obtain ⟨s2, t⟩ := y
        rw [hy] at hr
        simp only [Except.ok.injEq, Prod.mk.injEq] at hr
        obtain ⟨rfl, _⟩ := hr
        have keep : s.glib = true → s1.glib = true := by
          intro hg
          cases op with
          | glibRedirect =>
            simp only [redStep] at hx
            split at hx <;> simp only [Except.ok.injEq, Prod.mk.injEq, reduceCtorEq] at hx
            rw [← hx.1]
          | glibLevel l => rw [(red_call (op := .setLevel glibTag l) hx).2.1]; exact hg
          | glib d f t =>
            simp only [redStep] at hx
            rw [if_pos hg] at hx
            split at hx <;> simp only [Except.ok.injEq, Prod.mk.injEq, reduceCtorEq] at hx
            rw [← hx.1]; exact hg
          | obusRedirect =>
            simp only [redStep, Except.ok.injEq, Prod.mk.injEq] at hx
            rw [← hx.1]; exact hg
          | obusLevel l => rw [(red_call (op := .setLevel obusTag l) hx).2.1]; exact hg
          | obus d t =>
            simp only [redStep] at hx
            split at hx
            · rw [(red_call hx).2.1]; exact hg
            · simp only [Except.ok.injEq, Prod.mk.injEq] at hx
              rw [← hx.1]; exact hg
          | other o => rw [(red_call (op := o) hx).2.1]; exact hg
        refine glib_on ops hy ?_
        rcases h with h | h
        · exact Or.inl (keep h)
        · simp only [List.map_cons, List.mem_cons] at h
          rcases h with h | h
          · subst h
            simp only [redStep] at hx
            split at hx <;> simp only [Except.ok.injEq, Prod.mk.injEq, reduceCtorEq] at hx
            left; rw [← hx.1]
          · exact Or.inr h

theorem level_after {nm : Cid → Bytes} {s : Lib} {u : List Cid} (h : RegInv s u) {c : Cid} (hc : c ∈ u) {w : World} {l : Int}
    (hl : LevelIs nm w s c l) : s.level c = l ∧ 0 ≤ l := by
  have h0 := (h.mem c).mp hc
  have := levelIs_iff.mp hl
  rw [(ensureInit_spec nm w h c).2.2.1, if_pos hc] at this
  omega

/-- C101. After `ulog_glib_redirect`, a foreign write function gets a message of GLib
exactly if the message has one of the levels of GLib and that, translated, is not above
the level of the tag `ulog_glib`; it gets the complete text and its NUL, once, and
nothing else happens to libulog. -/
theorem C101_filter {nm : Cid → Bytes} {ops : List (World × ROp)} {s : Red} {tr : List (WRes × List Ev)}
    (h : RRun nm ops s tr) (hg : ROp.glibRedirect ∈ ops.map Prod.snd) {w : World} {n : Nat}
    (hw : s.lib.writer = .custom n) {l : Int} (hl : LevelIs nm w s.lib glibTag l) (domain : Option Bytes) (flags : Nat)
    (text : Bytes) :
    redStep nm w s (.glib domain flags text) = .ok (s, .unit,
      match (glibTable.find? fun x => flags.testBit x.1) with
      | some (_, p) => if (p : Int) ≤ l then [.custom n (UInt32.ofNat p) tmpTag (text ++ [0])] else []
      | none => []) := by
  have hi := h.inv
  have hon := glib_on ops h.run (Or.inr hg)
  obtain ⟨hlv, h0⟩ := level_after hi.reg (hi.glib hon) hl
  simp only [redStep]
  rw [if_pos hon]
  have ht := glibLevel_table flags
  cases hf : (glibTable.find? fun x => flags.testBit x.1) with
  | none =>
    rw [hf] at ht
    unfold glogFunc
    rw [ht]
    rfl
  | some x =>
    obtain ⟨b, p⟩ := x
    have hp : p % 8 = p := by
      have := List.mem_of_find?_eq_some hf
      simp only [glibTable, List.mem_cons, List.not_mem_nil, or_false, Prod.mk.injEq] at this
      omega
    rw [hf] at ht
    rw [glog_eq hlv h0 domain ht text, hp]
    dsimp only
    by_cases hc : (p : Int) ≤ l
    · rw [if_pos hc, if_pos hc]
      have hd : deliver (tmpNames nm (domain.getD (ascii "APP"))) w (setTmp s.lib l) (UInt32.ofNat p) tmpTag (text ++ [0]) =
          .ok (setTmp s.lib l, [.custom n (UInt32.ofNat p) tmpTag (text ++ [0])]) := by
        unfold deliver
        have : (setTmp s.lib l).writer = .custom n := hw
        rw [this]
        rfl
      rw [hd]
      simp only [setTmp_self hi.reg hi.tmp]
    · rw [if_neg hc, if_neg hc]
      simp only [setTmp_self hi.reg hi.tmp]

/-- C101. Whatever the write function is, a message of GLib causes what `ulog_log_str`
causes for the same text on a tag in use that is called as the domain of the message,
`APP` without one, and has the level of `ulog_glib`: the same bytes go to the log device
and to stderr, and libulog ends in the same state. -/
theorem C101_same {nm : Cid → Bytes} {ops : List (World × ROp)} {s : Red} {tr : List (WRes × List Ev)}
    (h : RRun nm ops s tr) (hg : ROp.glibRedirect ∈ ops.map Prod.snd) {w : World} {l : Int}
    (hl : LevelIs nm w s.lib glibTag l) {domain : Option Bytes} {flags b p : Nat} {text : Bytes}
    (hp : (glibTable.find? fun x => flags.testBit x.1) = some (b, p)) {c : Cid}
    (hc : c ∈ tagsOf false [] (ops.map Prod.snd)) (hn : nm c = domain.getD (ascii "APP"))
    (hcl : LevelIs nm w s.lib c l) {s' : Red} {r : WRes} {e : List Ev}
    (hs : redStep nm w s (.other (.str (UInt32.ofNat p) c text)) = .ok (s', r, e)) :
    redStep nm w s (.glib domain flags text) = .ok (s', .unit, e.map (Ev.retag tmpTag)) := by
  have hi := h.inv
  have hon := glib_on ops h.run (Or.inr hg)
  obtain ⟨hlv, h0⟩ := level_after hi.reg (hi.glib hon) hl
  obtain ⟨hclv, _⟩ := level_after hi.reg hc hcl
  have hpm : p % 8 = p ∧ p < 8 := by
    have := List.mem_of_find?_eq_some hp
    simp only [glibTable, List.mem_cons, List.not_mem_nil, or_false, Prod.mk.injEq] at this
    omega
  have ht := glibLevel_table flags
  rw [hp] at ht
  have hpt : (UInt32.ofNat p).toNat % 8 = p := by
    rw [UInt32.toNat_ofNat_of_lt' (by rw [UInt32.size]; omega)]; exact hpm.1
  have he : ensureInit nm w s.lib c = (s.lib, []) := by
    unfold ensureInit
    rw [if_neg (by omega)]
  obtain ⟨hs1, hs2, hs3⟩ := red_call (op := .str (UInt32.ofNat p) c text) hs
  simp only [redStep]
  rw [if_pos hon, glog_eq hlv h0 domain ht text, hpm.1]
  simp only [wstep, logOn, he, hpt, hclv] at hs1
  have hred : ∀ x : Lib, x = s'.lib → ({ s with lib := x } : Red) = s' := by
    intro x hx
    subst hx
    cases s'; cases s
    simp only at hs2 hs3
    rw [hs2, hs3]
  by_cases hle : (p : Int) ≤ l
  · rw [if_pos hle] at hs1 ⊢
    simp only [bind, Except.bind] at hs1
    cases hd : deliver nm w s.lib (UInt32.ofNat p) c (text ++ [0]) with
    | error z => rw [hd] at hs1; cases hs1
    | ok z =>
      obtain ⟨z1, z2⟩ := z
      rw [hd] at hs1
      simp only [Except.ok.injEq, Prod.mk.injEq, List.nil_append] at hs1
      obtain ⟨rfl, _, rfl⟩ := hs1
      have hsame := callWriter_same hd
      have hx := callWriter_retag (nm := nm) (nm' := tmpNames nm (domain.getD (ascii "APP"))) (c' := tmpTag)
        (by rw [hn]; exact if_pos rfl) (setTmp s.lib l).level _ _ hd
      have hx' : deliver (tmpNames nm (domain.getD (ascii "APP"))) w (setTmp s.lib l) (UInt32.ofNat p) tmpTag (text ++ [0]) =
          .ok (setTmp s'.lib l, z2.map (Ev.retag tmpTag)) := by
        unfold deliver
        refine Eq.trans hx ?_
        congr 2
        unfold withLevels setTmp
        rw [hsame.level]
      rw [hx']
      dsimp only
      rw [setTmp_self (hi.reg.same hsame) hi.tmp, hred _ rfl]
  · rw [if_neg hle] at hs1 ⊢
    simp only [Except.ok.injEq, Prod.mk.injEq] at hs1
    dsimp only
    rw [setTmp_self hi.reg hi.tmp, hred _ hs1.1, ← hs1.2.2]
    rfl

/-- C101. Before `ulog_glib_redirect`, and for a message without a level of GLib,
nothing happens. -/
theorem C101_silent {nm : Cid → Bytes} {s : Red} {w : World} (domain : Option Bytes) {flags : Nat} (text : Bytes)
    (h : s.glib = false ∨ (glibTable.find? fun x => flags.testBit x.1) = none) :
    redStep nm w s (.glib domain flags text) = .ok (s, .unit, []) := by
  simp only [redStep]
  by_cases hg : s.glib = true
  · rw [if_pos hg]
    rcases h with h | h
    · rw [hg] at h; cases h
    · have ht := glibLevel_table flags
      rw [h] at ht
      unfold glogFunc
      rw [ht]
      rfl
  · rw [if_neg hg]

/-- C101. A message of libobus whose level is `k` steps below the critical one, `k`
any positive `int` (libobus uses 0 to 5), is a message of the tag `obus` whose level is `k` steps below `ULOG_CRIT`; its
text is cut after 255 bytes. -/
theorem C101_obus {nm : Cid → Bytes} {s : Red} {w : World} (ho : s.obus = true) {k : Nat} (hk : k < 2147483648) (text : Option Bytes) :
    redStep nm w s (.obus k text) = redStep nm w s (.other (.log (UInt32.ofNat (2 + k)) obusTag text)) := by
  have : obusPrio k = UInt32.ofNat (2 + k) := by
    unfold obusPrio
    congr 1
    omega
  simp only [redStep]
  rw [if_pos ho, this]

end Verif.Tools
