import Verif.Tools.CtlTool
import Verif.Tools.PropsCtl

/-!
# The command ulogctl (C104)
-/
namespace Verif.Tools
open Verif Verif.Libulog

/-! ## Options -/

/-- The level a word stands for: its first letter, in either case, in the order of the
levels from critical (2) on. -/
def levelOf (a : Bytes) : Option Int :=
  a.head?.bind fun b => ((ascii "cCeEwWnNiIdD").findIdx? (· == b)).map fun i => 2 + ((i / 2 : Nat) : Int)

/-- The status with which the option ends the command. -/
def TOpt.ends : TOpt → Option Int
  | .help => some 0
  | .bad => some (-1)
  | .tag _ none => some (-1)
  | .tag _ (some a) => if levelOf a = none then some (-1) else none
  | .all a => if levelOf a = none then some (-1) else none
  | _ => none

def TOpt.tagName : TOpt → Option Bytes
  | .tag n _ => some n
  | _ => none

def TOpt.levelIn : TOpt → Option Int
  | .tag _ (some a) => levelOf a
  | .all a => levelOf a
  | _ => none

def TOpt.procName : TOpt → Option Bytes
  | .proc n => some n
  | _ => none

/-- The request that options stand for: the last tag, the last level. -/
def wanted (opts : List TOpt) : Option Req :=
  match opts.reverse.findSome? TOpt.tagName, opts.reverse.findSome? TOpt.levelIn with
  | some t, some l => some (.setTag t l)
  | none, some l => some (.setAll l)
  | _, none => if TOpt.list ∈ opts then some .list else none

theorem char_all : ∀ n < 256,
    char2level (UInt8.ofNat n) =
      (((ascii "cCeEwWnNiIdD").findIdx? (· == UInt8.ofNat n)).map fun i => 2 + ((i / 2 : Nat) : Int)).getD (-1) := by
  decide +kernel

theorem char_level (a : Bytes) : char2level (firstByte a) = (levelOf a).getD (-1) := by
  cases a with
  | nil => rfl
  | cons b a =>
    have := char_all b.toNat b.toNat_lt
    rw [UInt8.ofNat_toNat] at this
    exact this

theorem levelOf_range {a : Bytes} {l : Int} (h : levelOf a = some l) : 2 ≤ l ∧ l ≤ 7 := by
  unfold levelOf at h
  cases ha : a.head? with
  | none => rw [ha] at h; cases h
  | some b =>
    rw [ha] at h
    simp only [Option.bind_some, Option.map_eq_some_iff] at h
    obtain ⟨i, hi, rfl⟩ := h
    have := (List.findIdx?_eq_some_iff_findIdx_eq.mp hi).1
    have hl : (ascii "cCeEwWnNiIdD").length = 12 := by decide
    omega

theorem dash_level {a : Bytes} (h : firstByte a = 45) : levelOf a = none := by
  cases a with
  | nil => rfl
  | cons b a => rw [show b = 45 from h]; rfl

/-- What the options add up to. -/
structure Adds (opts : List TOpt) (o o' : TOpts) : Prop where
  list : o'.list = (o.list || decide (TOpt.list ∈ opts))
  color : o'.color = (o.color || decide (TOpt.color ∈ opts))
  setTag : o'.setTag = (o.setTag || (opts.reverse.findSome? TOpt.tagName).isSome)
  setAll : (o'.setTag || o'.setAll) = (o.setTag || o.setAll || (opts.reverse.findSome? TOpt.levelIn).isSome)
  tag : o'.tag = (opts.reverse.findSome? TOpt.tagName).getD o.tag
  level : o'.level = (opts.reverse.findSome? TOpt.levelIn).getD o.level
  proc : o'.proc = (opts.reverse.findSome? TOpt.procName).or o.proc

theorem options_add : ∀ (opts : List TOpt) (o : TOpts), opts.findSome? TOpt.ends = none →
    ∃ o', toolOptions opts o = .ok o' ∧ Adds opts o o' := by
  intro opts
  induction opts with
  | nil => exact fun o _ => ⟨o, rfl, by constructor <;> simp⟩
  | cons x opts ih =>
    intro o h
    rw [List.findSome?_cons] at h
    cases hx : x.ends with
    | some st => rw [hx] at h; cases h
    | none =>
      rw [hx] at h
      dsimp only at h
      have key : ∀ (o1 o' : TOpts), Adds opts o1 o' → Adds [x] o o1 → Adds (x :: opts) o o' := by
        intro o1 o' h1 h2
        have hr : ∀ {β : Type} (f : TOpt → Option β),
            (x :: opts).reverse.findSome? f = (opts.reverse.findSome? f).or ([x].reverse.findSome? f) := by
          intro β f; rw [List.reverse_cons, List.findSome?_append]; rfl
        constructor
        · rw [h1.list, h2.list]; simp [Bool.or_assoc, List.mem_cons]
        · rw [h1.color, h2.color]; simp [Bool.or_assoc, List.mem_cons]
        · rw [h1.setTag, h2.setTag, hr, Option.isSome_or, Bool.or_assoc]
          congr 1; exact Bool.or_comm _ _
        · rw [h1.setAll, h2.setAll, hr, Option.isSome_or, Bool.or_assoc (o.setTag || o.setAll)]
          congr 1; exact Bool.or_comm _ _
        · rw [h1.tag, h2.tag, hr, Option.getD_or]
        · rw [h1.level, h2.level, hr, Option.getD_or]
        · rw [h1.proc, h2.proc, hr, Option.or_assoc]
      have hlev : ∀ a : Bytes, levelOf a ≠ none → ∃ l, levelOf a = some l ∧ char2level (firstByte a) = l ∧ ¬ l < 0 ∧ firstByte a ≠ 45 := by
        intro a ha
        cases hl : levelOf a with
        | none => exact absurd hl ha
        | some l =>
          have := levelOf_range hl
          refine ⟨l, rfl, by rw [char_level, hl]; rfl, by omega, fun hd => ?_⟩
          rw [dash_level hd] at hl; cases hl
      cases x with
      | help => cases hx
      | bad => cases hx
      | list =>
        obtain ⟨o', h1, h2⟩ := ih { o with list := true } h
        exact ⟨o', h1, key _ _ h2 (by constructor <;> simp [TOpt.tagName, TOpt.levelIn, TOpt.procName])⟩
      | color =>
        obtain ⟨o', h1, h2⟩ := ih { o with color := true } h
        exact ⟨o', h1, key _ _ h2 (by constructor <;> simp [TOpt.tagName, TOpt.levelIn, TOpt.procName])⟩
      | proc n =>
        obtain ⟨o', h1, h2⟩ := ih { o with proc := some n } h
        exact ⟨o', h1, key _ _ h2 (by constructor <;> simp [TOpt.tagName, TOpt.levelIn, TOpt.procName])⟩
      | all a =>
        have ha : levelOf a ≠ none := by
          intro e; rw [TOpt.ends, if_pos e] at hx; cases hx
        obtain ⟨l, e1, e2, e3, _⟩ := hlev a ha
        obtain ⟨o', h1, h2⟩ := ih { o with level := l, setAll := true } h
        refine ⟨o', ?_, key _ _ h2 (by constructor <;> simp [TOpt.tagName, TOpt.levelIn, TOpt.procName, e1])⟩
        rw [toolOptions, e2, if_neg e3, h1]
      | tag n next =>
        cases next with
        | none => cases hx
        | some a =>
          have ha : levelOf a ≠ none := by
            intro e; rw [TOpt.ends, if_pos e] at hx; cases hx
          obtain ⟨l, e1, e2, e3, e4⟩ := hlev a ha
          obtain ⟨o', h1, h2⟩ := ih { o with tag := n, setTag := true, level := l } h
          refine ⟨o', ?_, key _ _ h2 (by constructor <;> simp [TOpt.tagName, TOpt.levelIn, TOpt.procName, e1])⟩
          rw [toolOptions, if_neg e4, e2, if_neg e3, h1]

theorem options_end : ∀ (opts : List TOpt) (o : TOpts) (st : Int), opts.findSome? TOpt.ends = some st →
    toolOptions opts o = .error st := by
  intro opts
  induction opts with
  | nil => intro o st h; cases h
  | cons x opts ih =>
    intro o st h
    rw [List.findSome?_cons] at h
    have hbad : ∀ a : Bytes, levelOf a = none → char2level (firstByte a) < 0 := by
      intro a ha; rw [char_level, ha]; decide
    cases x with
    | help => injection h with h; subst h; rfl
    | bad => injection h with h; subst h; rfl
    | list => exact ih _ _ h
    | color => exact ih _ _ h
    | proc n => exact ih _ _ h
    | all a =>
      rw [toolOptions]
      by_cases ha : levelOf a = none
      · rw [TOpt.ends, if_pos ha] at h
        injection h with h; subst h
        rw [if_pos (hbad a ha)]
      · rw [TOpt.ends, if_neg ha] at h
        have : ¬ char2level (firstByte a) < 0 := by
          cases hl : levelOf a with
          | none => exact absurd hl ha
          | some l => have := levelOf_range hl; rw [char_level, hl]; show ¬ l < 0; omega
        rw [if_neg this]
        exact ih _ _ h
    | tag n next =>
      cases next with
      | none => injection h with h; subst h; rfl
      | some a =>
        rw [toolOptions]
        by_cases ha : levelOf a = none
        · rw [TOpt.ends, if_pos ha] at h
          injection h with h; subst h
          rw [if_pos (hbad a ha)]
          exact ite_self _
        · rw [TOpt.ends, if_neg ha] at h
          have : ¬ char2level (firstByte a) < 0 := by
            cases hl : levelOf a with
            | none => exact absurd hl ha
            | some l => have := levelOf_range hl; rw [char_level, hl]; show ¬ l < 0; omega
          rw [if_neg (fun e => ha (dash_level e)), if_neg this]
          exact ih _ _ h

/-- C104, options. The first option that cannot be used, or the first request for help,
ends the command. Otherwise the options stand for the request `wanted`, and the last
process named counts. -/
theorem C104_options (opts : List TOpt) :
    (∀ st, opts.findSome? TOpt.ends = some st → toolOptions opts TOpts.none = .error st) ∧
    (opts.findSome? TOpt.ends = none → ∃ o, toolOptions opts TOpts.none = .ok o ∧ o.request = wanted opts ∧
      o.color = decide (TOpt.color ∈ opts) ∧ o.proc = opts.reverse.findSome? TOpt.procName) := by
  refine ⟨fun st h => options_end _ _ _ h, fun h => ?_⟩
  obtain ⟨o, h1, h2⟩ := options_add opts TOpts.none h
  refine ⟨o, h1, ?_, by rw [h2.color]; rfl, by rw [h2.proc]; exact Option.or_none⟩
  have a1 := h2.setTag
  have a2 := h2.setAll
  have a3 := h2.tag
  have a4 := h2.level
  have a5 := h2.list
  have hb : (opts.reverse.findSome? TOpt.tagName).isSome = true → (opts.reverse.findSome? TOpt.levelIn).isSome = true := by
    intro ht
    rw [List.findSome?_isSome_iff] at ht ⊢
    obtain ⟨x, hx, hn⟩ := ht
    refine ⟨x, hx, ?_⟩
    have he := List.findSome?_eq_none_iff.mp h x (List.mem_reverse.mp hx)
    cases x with
    | tag n next =>
      cases next with
      | none => cases he
      | some a =>
        rw [TOpt.ends] at he
        rw [TOpt.levelIn]
        cases hl : levelOf a with
        | none => rw [if_pos hl] at he; cases he
        | some l => rfl
    | _ => cases hn
  unfold TOpts.request wanted
  simp only [TOpts.none, Bool.false_or] at a1 a2 a3 a4 a5
  rw [a1, a3, a4, a5]
  cases ht : opts.reverse.findSome? TOpt.tagName with
  | some t =>
    rw [ht] at hb
    cases hl : opts.reverse.findSome? TOpt.levelIn with
    | none => rw [hl] at hb; exact absurd (hb rfl) (by simp)
    | some l => rfl
  | none =>
    rw [a1, ht] at a2
    simp only [Option.isSome_none, Bool.false_or] at a2
    rw [a2]
    cases hl : opts.reverse.findSome? TOpt.levelIn with
    | some l => rfl
    | none =>
      simp only [Option.isSome_none, Bool.false_eq_true, if_false, decide_eq_true_eq]

/-- C104: a level for a tag and a level for all do not go together: only the tag is set,
to the level given last. -/
theorem C104_false_both (t : Bytes) : ∃ o, toolOptions [.tag t (some (ascii "D")), .all (ascii "E")] TOpts.none = .ok o ∧
    o.request = some (.setTag t 3) := ⟨_, rfl, rfl⟩

/-! ## How it ends -/

/-- C104, the status is -1 exactly if the options cannot be used or neither an address
nor a process is given; then nothing was done. In all other cases in which the command
ends, the status is 0, whether or not the request succeeded. -/
theorem C104_status {qs : List (Bytes × Int) → List (Bytes × Int)} {w : ToolWorld} {opts : List TOpt} {args : List Bytes}
    {evs : List TEv} {st : Int} {out : List COut} {text : Bytes} (h : toolMain qs w opts args evs = .exits st out text) :
    (st = -1 ↔ opts.findSome? TOpt.ends = some (-1) ∨
      opts.findSome? TOpt.ends = none ∧ args = [] ∧ opts.reverse.findSome? TOpt.procName = none) ∧
    (st = -1 → out = [] ∧ text = []) ∧ (st = -1 ∨ st = 0) := by
  have hrun : ∀ o, toolRun qs w o evs = .exits st out text → st = 0 := by
    intro o ho
    unfold toolRun at ho
    dsimp only at ho
    split at ho
    · injection ho with ho; exact ho.symm
    · split at ho
      · injection ho with ho; exact ho.symm
      · cases ho
  have hends : ∀ x : TOpt, ∀ s, x.ends = some s → s = 0 ∨ s = -1 := by
    intro x s hx
    cases x with
    | help => injection hx with hx; exact Or.inl hx.symm
    | bad => injection hx with hx; exact Or.inr hx.symm
    | all a => rw [TOpt.ends] at hx; split at hx <;> first | (injection hx with hx; exact Or.inr hx.symm) | cases hx
    | tag n next =>
      cases next with
      | none => injection hx with hx; exact Or.inr hx.symm
      | some a => rw [TOpt.ends] at hx; split at hx <;> first | (injection hx with hx; exact Or.inr hx.symm) | cases hx
    | _ => cases hx
  unfold toolMain at h
  cases he : opts.findSome? TOpt.ends with
  | some s =>
    rw [(C104_options opts).1 s he] at h
    injection h with h1 h2 h3
    subst h1 h2 h3
    obtain ⟨x, _, hx⟩ := List.exists_of_findSome?_eq_some he
    refine ⟨⟨fun e => by rw [e]; exact Or.inl rfl, fun e => ?_⟩, fun _ => ⟨rfl, rfl⟩, (hends x s hx).symm⟩
    rcases e with e | ⟨e, _⟩
    · injection e
    · cases e
  | none =>
    obtain ⟨o, e1, _, _, e4⟩ := (C104_options opts).2 he
    rw [e1] at h
    dsimp only at h
    have hzero : st = 0 → ¬ (args = [] ∧ opts.reverse.findSome? TOpt.procName = none) →
        (st = -1 ↔ (none : Option Int) = some (-1) ∨ (none : Option Int) = none ∧ args = [] ∧
          opts.reverse.findSome? TOpt.procName = none) ∧ (st = -1 → out = [] ∧ text = []) ∧ (st = -1 ∨ st = 0) := by
      intro hs hn
      subst hs
      refine ⟨⟨fun e => (by cases e), fun e => ?_⟩, fun e => (by cases e), Or.inr rfl⟩
      rcases e with e | ⟨_, e⟩
      · cases e
      · exact absurd e hn
    cases args with
    | nil =>
      dsimp only at h
      split at h
      · rename_i hp
        injection h with h1 h2 h3
        subst h1 h2 h3
        refine ⟨⟨fun _ => Or.inr ⟨rfl, rfl, ?_⟩, fun _ => rfl⟩, fun _ => ⟨rfl, rfl⟩, Or.inl rfl⟩
        rw [← e4]; exact Option.isNone_iff_eq_none.mp hp
      · rename_i hp
        refine hzero ?_ (fun e => hp (by rw [e4, e.2]; rfl))
        split at h
        · injection h with h; exact h.symm
        · split at h
          · cases h
          · exact hrun _ h
    | cons a l =>
      dsimp only at h
      refine hzero ?_ (fun e => by cases e.1)
      split at h
      · injection h with h; exact h.symm
      · split at h
        · injection h with h; exact h.symm
        · split at h
          · cases h
          · exact hrun _ h

/-- What libpomp calls. -/
def CEv.pomp : CEv → Bool
  | .connected _ => true
  | .disconnected => true
  | .sendCb _ => true
  | .reply _ => true
  | _ => false

/-- The client has nothing to answer. -/
def Cli.Quiet (c : Cli) : Prop := c.msg = none ∧ c.stack = []

theorem handle_of {qs : List (Bytes × Int) → List (Bytes × Int)} {c c' : Cli} {e : CEv} {o : List COut}
    (h : cstep qs c e = (c', o)) (hk : c'.stack = []) : handle qs c e = (c', o) := by
  unfold handle
  rw [h]
  dsimp only
  have : ∀ n, drain qs n c' = (c', []) := by
    intro n; cases n with
    | zero => rfl
    | succ n => rw [drain, if_pos hk]
  rw [this, List.append_nil]

theorem anyStatus_append (a b : List COut) : anyStatus (a ++ b) = (anyStatus a || anyStatus b) := List.any_append

theorem quiet_handle (qs : List (Bytes × Int) → List (Bytes × Int)) {c : Cli} (hq : c.Quiet) {e : CEv} (he : e.pomp = true)
    (hl : e ≠ .reply .listEnd) : (handle qs c e).1.Quiet ∧ anyStatus (handle qs c e).2 = false := by
  obtain ⟨st, msg, tags, stack⟩ := c
  obtain ⟨h1, h2⟩ := hq
  dsimp only at h1 h2
  subst h1 h2
  cases e with
  | connected ok =>
    by_cases hs : st = .connecting
    · subst hs
      rw [handle_of (c' := ⟨.connected, none, tags, []⟩) (o := []) rfl rfl]; exact ⟨⟨rfl, rfl⟩, rfl⟩
    · rw [handle_of (c' := ⟨st, none, tags, []⟩) (o := []) (by rw [cstep]; exact if_neg hs) rfl]; exact ⟨⟨rfl, rfl⟩, rfl⟩
  | disconnected =>
    by_cases hs : st = .idle
    · rw [handle_of (c' := ⟨st, none, tags, []⟩) (o := []) (by rw [cstep, Cli.stop]; exact if_pos hs) rfl]; exact ⟨⟨rfl, rfl⟩, rfl⟩
    · rw [handle_of (c' := ⟨.idle, none, tags, []⟩) (o := [.hangup]) (by rw [cstep, Cli.stop]; exact if_neg hs) rfl]; exact ⟨⟨rfl, rfl⟩, rfl⟩
  | sendCb ab => rw [handle_of (c' := ⟨st, none, tags, []⟩) (o := []) rfl rfl]; exact ⟨⟨rfl, rfl⟩, rfl⟩
  | reply m =>
    cases m with
    | listEnd => exact absurd rfl hl
    | info n l => rw [handle_of (c' := ⟨st, none, tags ++ [(n, l)], []⟩) (o := []) rfl rfl]; exact ⟨⟨rfl, rfl⟩, rfl⟩
  | _ => cases he

theorem quiet_all (qs : List (Bytes × Int) → List (Bytes × Int)) : ∀ (l : List CEv) {c : Cli}, c.Quiet →
    (∀ e ∈ l, e.pomp = true ∧ e ≠ .reply .listEnd) → (handleAll qs c l).1.Quiet ∧ anyStatus (handleAll qs c l).2 = false := by
  intro l
  induction l with
  | nil => exact fun hq _ => ⟨hq, rfl⟩
  | cons e l ih =>
    intro c hq h
    obtain ⟨a1, a2⟩ := quiet_handle qs hq (h e (by simp)).1 (h e (by simp)).2
    obtain ⟨b1, b2⟩ := ih a1 (fun x hx => h x (by simp [hx]))
    exact ⟨b1, by rw [handleAll]; dsimp only; rw [anyStatus_append, a2, b2]; rfl⟩

theorem quiet_loop (qs : List (Bytes × Int) → List (Bytes × Int)) : ∀ (gs : List (List CEv)) {c : Cli}, c.Quiet →
    (∀ g ∈ gs, ∀ e ∈ g, e.pomp = true ∧ e ≠ .reply .listEnd) → (toolLoop qs c (gs.map .group)).2.2 = false := by
  intro gs
  induction gs with
  | nil => exact fun _ _ => rfl
  | cons g gs ih =>
    intro c hq h
    obtain ⟨a1, a2⟩ := quiet_all qs g hq (h g (by simp))
    rw [List.map_cons, toolLoop]
    dsimp only
    rw [a2, if_neg (by simp)]
    exact ih a1 (fun x hx => h x (by simp [hx]))

/-- C104: without an operation, or if the message cannot be made, the command waits for
ever: nothing that libpomp reports ends it, except the end of a list that another client
asked for. -/
theorem C104_false_wait (qs : List (Bytes × Int) → List (Bytes × Int)) {w : ToolWorld} (hc : w.connectOk = true) {o : TOpts}
    (ho : o.request = none ∨ w.newOk = false ∨ w.encOk = false) {gs : List (List CEv)}
    (hg : ∀ g ∈ gs, ∀ e ∈ g, e.pomp = true ∧ e ≠ .reply .listEnd) : ∃ out text, toolRun qs w o (gs.map .group) = .waits out text := by
  unfold toolRun
  dsimp only
  rw [hc, if_neg (by simp)]
  have hs : cstep qs Cli.new (.start true) = (⟨.connecting, none, [], []⟩, [.dial]) := rfl
  rw [hs]
  dsimp only
  have hq : ∃ c2 o2, toolAsk qs w o ⟨.connecting, none, [], []⟩ = (c2, o2) ∧ c2.Quiet := by
    unfold toolAsk
    cases hr : o.request with
    | none => exact ⟨_, _, rfl, rfl, rfl⟩
    | some r =>
      dsimp only
      rcases ho with ho | ho | ho
      · rw [hr] at ho; cases ho
      · rw [ho]; exact ⟨_, _, rfl, rfl, rfl⟩
      · rw [ho]
        cases w.newOk with
        | false => exact ⟨_, _, rfl, rfl, rfl⟩
        | true => cases r <;> exact ⟨_, _, rfl, rfl, rfl⟩
  obtain ⟨c2, o2, e1, e2⟩ := hq
  rw [e1]
  dsimp only
  rw [quiet_loop qs gs e2 hg, if_neg (by simp)]
  exact ⟨_, _, rfl⟩

/-! ## A request and its answer -/

theorem handleAll_append (qs : List (Bytes × Int) → List (Bytes × Int)) : ∀ (a b : List CEv) (c : Cli),
    handleAll qs c (a ++ b) =
      ((handleAll qs (handleAll qs c a).1 b).1, (handleAll qs c a).2 ++ (handleAll qs (handleAll qs c a).1 b).2) := by
  intro a
  induction a with
  | nil => intro b c; rfl
  | cons e a ih =>
    intro b c
    rw [List.cons_append, handleAll, handleAll]
    dsimp only
    rw [ih, List.append_assoc]

/-- The loop does not depend on how events are grouped, if the first one that leads to a
status is the last one. -/
theorem loop_groups (qs : List (Bytes × Int) → List (Bytes × Int)) : ∀ (gs : List (List CEv)) (c : Cli) (pre : List CEv) (e : CEv) (more : List TEv),
    gs.flatten = pre ++ [e] → anyStatus (handleAll qs c pre).2 = false →
    anyStatus (handle qs (handleAll qs c pre).1 e).2 = true →
    toolLoop qs c (gs.map .group ++ more) =
      ((handleAll qs c (pre ++ [e])).1, (handleAll qs c (pre ++ [e])).2, true) := by
  intro gs
  induction gs with
  | nil => intro c pre e more h; simp at h
  | cons g gs ih =>
    intro c pre e more h h1 h2
    have step : ∀ a, pre = g ++ a → gs.flatten = a ++ [e] → toolLoop qs c ((g :: gs).map .group ++ more) =
        ((handleAll qs c (pre ++ [e])).1, (handleAll qs c (pre ++ [e])).2, true) := by
      intro a ha hf
      subst ha
      rw [handleAll_append] at h1 h2
      dsimp only at h1 h2
      rw [anyStatus_append, Bool.or_eq_false_iff] at h1
      have := ih (handleAll qs c g).1 a e more hf h1.2 h2
      rw [List.map_cons, List.cons_append, toolLoop]
      dsimp only
      rw [h1.1, if_neg (by simp), this, List.append_assoc, handleAll_append qs g]
    rw [List.flatten_cons] at h
    rcases List.append_eq_append_iff.mp h with ⟨a, ha, hf⟩ | ⟨b, hb, hf⟩
    · exact step a ha hf
    · cases b with
      | nil => exact step [] (by rw [hb]; simp) hf.symm
      | cons x b =>
        rw [List.cons_append] at hf
        injection hf with hx hf
        have hb0 : b = [] := by
          cases b with
          | nil => rfl
          | cons y b => cases hf
        subst hx hb0
        have hg : handleAll qs c g = handleAll qs c (pre ++ [e]) := by rw [hb]
        rw [List.map_cons, List.cons_append, toolLoop]
        dsimp only
        rw [hg]
        have hs : anyStatus (handleAll qs c (pre ++ [e])).2 = true := by
          rw [handleAll_append]
          dsimp only
          rw [anyStatus_append]
          have : (handleAll qs (handleAll qs c pre).1 [e]).2 = (handle qs (handleAll qs c pre).1 e).2 := by
            rw [handleAll, handleAll]; dsimp only; rw [List.append_nil]
          rw [this, h2, Bool.or_true]
        rw [if_pos hs]

/-- The client after the command asked for `r`. -/
theorem run_unfold (qs : List (Bytes × Int) → List (Bytes × Int)) {w : ToolWorld} (hc : w.connectOk = true) (hn : w.newOk = true)
    (he : w.encOk = true) {o : TOpts} {r : Req} (ho : o.request = some r) {evs : List TEv} {c : Cli} {l : List COut}
    (hl : toolLoop qs ⟨.connecting, some r, [], []⟩ evs = (c, l, true)) :
    toolRun qs w o evs = .exits 0 (.dial :: .accepted r :: l ++ (handle qs c .stop).2)
      ((.dial :: .accepted r :: l ++ (handle qs c .stop).2).flatMap (printOut o.color)) := by
  unfold toolRun
  dsimp only
  have hs : cstep qs Cli.new (.start true) = (⟨.connecting, none, [], []⟩, [.dial]) := rfl
  have hr : cstep qs ⟨.connecting, none, [], []⟩ (.request r true true true) = (⟨.connecting, some r, [], []⟩, [.accepted r]) := by
    cases r <;> rfl
  have ha : toolAsk qs w o ⟨.connecting, none, [], []⟩ = (⟨.connecting, some r, [], []⟩, [.accepted r]) := by
    unfold toolAsk; rw [ho, hn, he]; exact hr
  rw [hc, if_neg (by simp), hs]
  dsimp only
  rw [ha]
  dsimp only
  rw [hl]
  dsimp only
  rw [if_pos rfl]
  rfl

/-- C104, setting levels. Once connected and the message handed over, however libpomp
groups the events, the command ends with 0 and prints nothing; exactly the request was
sent, once. That the message was lost is not noticed (`aborted`). -/
theorem C104_set (qs : List (Bytes × Int) → List (Bytes × Int)) {w : ToolWorld} (hc : w.connectOk = true) (hn : w.newOk = true)
    (he : w.encOk = true) {o : TOpts} {r : Req} (ho : o.request = some r) (hr : r ≠ .list) (aborted : Bool)
    {gs : List (List CEv)} (hg : gs.flatten = [.connected true, .sendCb aborted]) (more : List TEv) :
    toolRun qs w o (gs.map .group ++ more) = .exits 0 [.dial, .accepted r, .send r, .status true, .hangup] [] := by
  have h1 : handle qs ⟨.connecting, some r, [], []⟩ (.connected true) = (⟨.connected, some r, [], []⟩, [.send r]) :=
    handle_of rfl rfl
  have h2 : handle qs ⟨.connected, some r, [], []⟩ (.sendCb aborted) = (⟨.connected, none, [], []⟩, [.status true]) := by
    cases r with
    | list => exact absurd rfl hr
    | _ => rfl
  have h1' : handleAll qs ⟨.connecting, some r, [], []⟩ [.connected true] = (⟨.connected, some r, [], []⟩, [.send r]) := by
    rw [handleAll, handleAll]; dsimp only; rw [h1]; rfl
  have hl := loop_groups qs gs ⟨.connecting, some r, [], []⟩ [.connected true] (.sendCb aborted) more hg
    (by rw [h1']; rfl) (by rw [h1', h2]; rfl)
  have h3 : handleAll qs ⟨.connecting, some r, [], []⟩ ([.connected true] ++ [.sendCb aborted]) =
      (⟨.connected, none, [], []⟩, [.send r, .status true]) := by
    rw [handleAll_append, h1']; dsimp only; rw [handleAll, handleAll]; dsimp only; rw [h2]; rfl
  rw [h3] at hl
  rw [run_unfold qs hc hn he ho hl]
  have h4 : handle qs ⟨.connected, none, [], []⟩ .stop = (⟨.idle, none, [], []⟩, [.hangup]) := handle_of rfl rfl
  rw [h4]
  rfl

/-- C104, errors. If the connection ends before the answer, or a signal arrives, the
command prints that an error occurred - and ends with 0. -/
theorem C104_error (qs : List (Bytes × Int) → List (Bytes × Int)) {w : ToolWorld} (hc : w.connectOk = true) (hn : w.newOk = true)
    (he : w.encOk = true) {o : TOpts} {r : Req} (ho : o.request = some r) {gs : List (List CEv)} (more : List TEv) :
    (gs.flatten = [.connected true, .disconnected] →
      toolRun qs w o (gs.map .group ++ more) = .exits 0 [.dial, .accepted r, .send r, .status false, .hangup] (ascii "Error occurred.\n")) ∧
    toolRun qs w o (.signal :: more) = .exits 0 [.dial, .accepted r, .status false, .hangup] (ascii "Error occurred.\n") := by
  constructor
  · intro hg
    have h1 : handle qs ⟨.connecting, some r, [], []⟩ (.connected true) = (⟨.connected, some r, [], []⟩, [.send r]) :=
      handle_of rfl rfl
    have h2 : handle qs ⟨.connected, some r, [], []⟩ .disconnected = (⟨.idle, none, [], []⟩, [.status false, .hangup]) := rfl
    have h1' : handleAll qs ⟨.connecting, some r, [], []⟩ [.connected true] = (⟨.connected, some r, [], []⟩, [.send r]) := by
      rw [handleAll, handleAll]; dsimp only; rw [h1]; rfl
    have hl := loop_groups qs gs ⟨.connecting, some r, [], []⟩ [.connected true] .disconnected more hg
      (by rw [h1']; rfl) (by rw [h1', h2]; rfl)
    have h3 : handleAll qs ⟨.connecting, some r, [], []⟩ ([.connected true] ++ [.disconnected]) =
        (⟨.idle, none, [], []⟩, [.send r, .status false, .hangup]) := by
      rw [handleAll_append, h1']; dsimp only; rw [handleAll, handleAll]; dsimp only; rw [h2]; rfl
    rw [h3] at hl
    rw [run_unfold qs hc hn he ho hl]
    have h4 : handle qs ⟨.idle, none, [], []⟩ .stop = (⟨.idle, none, [], []⟩, []) := handle_of rfl rfl
    rw [h4]
    rfl
  · rw [run_unfold qs hc hn he ho (evs := .signal :: more) rfl]
    have h4 : handle qs ⟨.connecting, some r, [], []⟩ .stop = (⟨.idle, none, [], []⟩, [.status false, .hangup]) := rfl
    rw [h4]
    rfl

/-! ## Listing -/

/-- A line of the list. -/
def listLine (t : Bytes × Int) : Bytes :=
  ascii "[" ++ [if 2 ≤ t.2 ∧ t.2 ≤ 7 then (ascii "CEWNID").getD (t.2 - 2).toNat 0 else 63] ++ ascii "] " ++ t.1 ++ ascii "\n"

theorem line_plain (n : Bytes) (l : Int) : tagLine false n l = listLine (n, l) := by
  have hc : level2char l = if 2 ≤ l ∧ l ≤ 7 then (ascii "CEWNID").getD (l - 2).toNat 0 else 63 := by
    by_cases h : 2 ≤ l ∧ l ≤ 7
    · have : l = 2 ∨ l = 3 ∨ l = 4 ∨ l = 5 ∨ l = 6 ∨ l = 7 := by omega
      rcases this with rfl | rfl | rfl | rfl | rfl | rfl <;> rfl
    · rw [if_neg h]
      unfold level2char
      repeat rw [if_neg (by omega)]
  unfold tagLine listLine
  dsimp only
  rw [hc]
  have h1 : ascii "[" = [91] := by decide
  have h2 : ascii "] " = [93, 32] := by decide
  have h3 : ascii "\n" = [10] := by decide
  rw [h1, h2, h3]
  simp

/-- The colours of the levels from 2: red for critical and error, yellow, green, blue,
magenta. -/
def levelColours : List Nat := [91, 91, 93, 92, 94, 95]

/-- C104. With `-c`, the line of a tag begins with the colour of its level, ends with the
default colour, and is otherwise the line without `-c`. -/
theorem C104_colour (n : Bytes) (l : Int) (h2 : 2 ≤ l) (h7 : l ≤ 7) :
    ∃ c line, levelColours[(l - 2).toNat]? = some c ∧ listLine (n, l) = line ++ [10] ∧
      tagLine true n l = 27 :: ascii "[00;" ++ decNat c ++ ascii "m" ++ line ++ 27 :: ascii "[0m" ++ [10] := by
  have key : ∀ c, levelColor l = 27 :: ascii "[00;" ++ decNat c ++ ascii "m" → tagLine true n l =
      27 :: ascii "[00;" ++ decNat c ++ ascii "m" ++ ([91, level2char l, 93, 32] ++ n) ++ 27 :: ascii "[0m" ++ [10] := by
    intro c hc
    unfold tagLine
    rw [if_pos rfl, if_pos rfl, hc]
    simp only [List.append_assoc]
  have line : listLine (n, l) = ([91, level2char l, 93, 32] ++ n) ++ [10] := by
    rw [← line_plain]; simp [tagLine]
  have : l = 2 ∨ l = 3 ∨ l = 4 ∨ l = 5 ∨ l = 6 ∨ l = 7 := by omega
  rcases this with rfl | rfl | rfl | rfl | rfl | rfl <;>
    exact ⟨_, _, rfl, line, key _ (by decide +kernel)⟩

/-- C104. A level that is none of these has the default colour. -/
theorem C104_other (n : Bytes) (l : Int) (h : l < 2 ∨ 7 < l) :
    ∃ line, listLine (n, l) = line ++ [10] ∧ tagLine true n l = 27 :: ascii "[0m" ++ line ++ 27 :: ascii "[0m" ++ [10] := by
  refine ⟨[91, level2char l, 93, 32] ++ n, by rw [← line_plain]; simp [tagLine], ?_⟩
  have : levelColor l = 27 :: ascii "[0m" := by
    unfold levelColor
    rw [if_neg (by omega), if_neg (by omega), if_neg (by omega), if_neg (by omega), if_neg (by omega), if_neg (by omega)]
  unfold tagLine
  rw [if_pos rfl, if_pos rfl, this]
  simp only [List.append_assoc]

example : tagLine true [97] 9 = 27 :: ascii "[0m[?] a" ++ 27 :: ascii "[0m\n" := by decide +kernel

example : tagLine true [97] 4 = 27 :: ascii "[00;93m[W] a" ++ 27 :: ascii "[0m\n" := by decide +kernel

/-- What a terminal shows: control sequences, from ESC to `m`, are left out. -/
def onTerm : Bool → Bytes → Bytes
  | _, [] => []
  | false, b :: l => if b = 27 then onTerm true l else b :: onTerm false l
  | true, b :: l => if b = 109 then onTerm false l else onTerm true l

theorem onTerm_plain : ∀ (a l : Bytes), (27 : UInt8) ∉ a → onTerm false (a ++ l) = a ++ onTerm false l := by
  intro a
  induction a with
  | nil => intro l _; rfl
  | cons b a ih =>
    intro l h
    rw [List.mem_cons, not_or] at h
    rw [List.cons_append, onTerm, if_neg (fun e => h.1 e.symm), ih l h.2]
    rfl

theorem onTerm_color (n : Bytes) (l : Int) (hn : (27 : UInt8) ∉ n) (rest : Bytes) :
    onTerm false (tagLine true n l ++ rest) = listLine (n, l) ++ onTerm false rest := by
  rw [← line_plain]
  unfold tagLine
  simp only [if_true, Bool.false_eq_true, if_false, List.nil_append, List.append_nil, List.append_assoc]
  have hcol : ∀ x : Bytes, onTerm false (levelColor l ++ x) = onTerm false x := by
    intro x
    unfold levelColor
    repeat' split
    all_goals rfl
  rw [hcol]
  have hlev : (27 : UInt8) ∉ [91, level2char l, 93, 32] := by
    have : level2char l ≠ 27 := by
      unfold level2char
      repeat' split
      all_goals decide
    simp [this.symm]
  rw [onTerm_plain _ _ hlev, onTerm_plain _ _ hn]
  have : onTerm false (27 :: ascii "[0m" ++ ([10] ++ rest)) = onTerm false ([10] ++ rest) := rfl
  rw [this, onTerm_plain [10] rest (by decide)]

theorem drain_infos (qs : List (Bytes × Int) → List (Bytes × Int)) : ∀ (k n : Nat) (c : Cli) (i : Nat), c.stack = [.infos i] →
    c.tags.length ≤ i + k → k + 1 ≤ n →
    drain qs n c = ({ c with stack := [] }, (c.tags.drop i).map fun t => .info t.1 t.2) := by
  intro k
  induction k with
  | zero =>
    intro n c i hs hl hn
    obtain ⟨n, rfl⟩ : ∃ m, n = m + 1 := ⟨n - 1, by omega⟩
    have hnone : c.tags[i]? = none := List.getElem?_eq_none (by omega)
    have hstep : cstep qs c .ret = ({ c with stack := [] }, []) := by
      simp only [cstep, hs, Cli.infos, hnone]
    rw [drain, if_neg (by rw [hs]; simp)]
    dsimp only
    rw [hstep]
    dsimp only
    rw [List.drop_eq_nil_of_le (by omega)]
    cases n with
    | zero => rfl
    | succ n => rw [drain, if_pos rfl]; rfl
  | succ k ih =>
    intro n c i hs hl hn
    obtain ⟨n, rfl⟩ : ∃ m, n = m + 1 := ⟨n - 1, by omega⟩
    rw [drain, if_neg (by rw [hs]; simp)]
    dsimp only
    by_cases hi : i < c.tags.length
    · have hstep : cstep qs c .ret = ({ c with stack := [.infos (i + 1)] }, [.info c.tags[i].1 c.tags[i].2]) := by
        simp only [cstep, hs, Cli.infos, List.getElem?_eq_getElem hi]
      rw [hstep]
      dsimp only
      rw [ih n { c with stack := [.infos (i + 1)] } (i + 1) rfl (by dsimp only; omega) (by omega), List.drop_eq_getElem_cons hi]
      rfl
    · have hnone : c.tags[i]? = none := List.getElem?_eq_none (by omega)
      have hstep : cstep qs c .ret = ({ c with stack := [] }, []) := by
        simp only [cstep, hs, Cli.infos, hnone]
      rw [hstep]
      dsimp only
      rw [List.drop_eq_nil_of_le (by omega)]
      cases n with
      | zero => rfl
      | succ n => rw [drain, if_pos rfl]; rfl

theorem handle_end (qs : List (Bytes × Int) → List (Bytes × Int)) (st : CState) (m : Option Req) (tags : List (Bytes × Int)) :
    handle qs ⟨st, m, tags, []⟩ (.reply .listEnd) =
      (⟨st, none, qs tags, []⟩, .status true :: (qs tags).map fun t => .info t.1 t.2) := by
  unfold handle
  have h1 : cstep qs ⟨st, m, tags, []⟩ (.reply .listEnd) = (⟨st, m, tags, [.listEnd]⟩, [.status true]) := rfl
  rw [h1]
  dsimp only
  rw [drain, if_neg (by simp)]
  dsimp only
  have h2 : cstep qs ⟨st, m, tags, [.listEnd]⟩ .ret = (⟨st, none, qs tags, []⟩ : Cli).infos 0 := rfl
  rw [h2]
  cases hq : qs tags with
  | nil =>
    have : (⟨st, none, [], []⟩ : Cli).infos 0 = (⟨st, none, [], []⟩, []) := rfl
    rw [this]
    dsimp only
    rw [drain, if_pos rfl]
    rfl
  | cons t l =>
    have : (⟨st, none, t :: l, []⟩ : Cli).infos 0 = (⟨st, none, t :: l, [.infos 1]⟩, [.info t.1 t.2]) := rfl
    rw [this]
    dsimp only
    rw [drain_infos qs l.length _ ⟨st, none, t :: l, [.infos 1]⟩ 1 rfl (by simp; omega) (by simp; omega)]
    rfl

/-- The answers among events. -/
def answersIn : List CEv → List (Bytes × Int)
  | [] => []
  | .reply (.info n l) :: es => (n, l) :: answersIn es
  | _ :: es => answersIn es

/-- Events while the list is on its way: answers, and messages handed over. -/
def CEv.onWay : CEv → Bool
  | .sendCb _ => true
  | .reply (.info _ _) => true
  | _ => false

example : ∀ e ∈ [CEv.sendCb false, .reply (.info [97] 4), .reply (.info [98] 6)], e.onWay = true := by decide

theorem handle_onWay (qs : List (Bytes × Int) → List (Bytes × Int)) : ∀ (es : List CEv) (st : CState) (tags : List (Bytes × Int)),
    (∀ e ∈ es, e.onWay = true) →
    handleAll qs ⟨st, some .list, tags, []⟩ es = (⟨st, some .list, tags ++ answersIn es, []⟩, []) := by
  intro es
  induction es with
  | nil => intro st tags _; rw [answersIn, List.append_nil]; rfl
  | cons e es ih =>
    intro st tags h
    have he := h e (by simp)
    have ht := fun tags => ih st tags (fun x hx => h x (by simp [hx]))
    rw [handleAll]
    cases e with
    | sendCb ab =>
      have : handle qs ⟨st, some .list, tags, []⟩ (.sendCb ab) = (⟨st, some .list, tags, []⟩, []) := handle_of rfl rfl
      rw [this]
      dsimp only
      rw [ht]
      rfl
    | reply m =>
      cases m with
      | listEnd => cases he
      | info n l =>
        have : handle qs ⟨st, some .list, tags, []⟩ (.reply (.info n l)) = (⟨st, some .list, tags ++ [(n, l)], []⟩, []) := handle_of rfl rfl
        rw [this]
        dsimp only
        rw [ht, List.append_assoc]
        rfl
    | _ => cases he

/-- C104, listing. The server's answers and the end of the list, however grouped and with
whatever else libpomp reports meanwhile: the command prints one line for every tag of the
server's process that was ever used, but the default one, with the letter of its level,
sorted by name, and ends with 0. In colours a terminal shows the same. -/
theorem C104_list {nm : Cid → Bytes} {ops : List (World × WOp)} {s : Lib} {tr : List (WRes × List Ev)} (h : WRun nm ops s tr)
    {qs : List (Bytes × Int) → List (Bytes × Int)} (hqs : Sorts qs) (lw : World) {w : ToolWorld} (hc : w.connectOk = true)
    (hn : w.newOk = true) (he : w.encOk = true) {o : TOpts} (ho : o.request = some .list) {gs : List (List CEv)} {es : List CEv}
    (hg : gs.flatten = .connected true :: es ++ [.reply .listEnd]) (hes : ∀ e ∈ es, e.onWay = true)
    (ha : (answersIn es).map (fun t => Reply.info t.1 t.2) = (serve nm lw s .list).2.1) (more : List TEv) :
    ∃ (out : List COut) (text : Bytes) (l : List (Bytes × Int)), toolRun qs w o (gs.map .group ++ more) = .exits 0 out text ∧
      out = [.dial, .accepted .list, .send .list, .status true] ++ l.map (fun t => .info t.1 t.2) ++ [.hangup] ∧
      l.Pairwise (fun a b => bytesLe a.1 b.1 = true) ∧
      (∀ lv : Cid → Int, (∀ d ∈ used (ops.map Prod.snd), LevelIs nm lw s d (lv d)) →
        l.Perm (((used (ops.map Prod.snd)).filter fun d => decide (d ≠ 0)).map fun d => (nm d, lv d))) ∧
      (o.color = false → text = l.flatMap listLine) ∧
      (o.color = true → (∀ t ∈ l, (27 : UInt8) ∉ t.1) → onTerm false text = l.flatMap listLine) := by
  have h1 : handle qs ⟨.connecting, some .list, [], []⟩ (.connected true) = (⟨.connected, some .list, [], []⟩, [.send .list]) :=
    handle_of rfl rfl
  have h1' : handleAll qs ⟨.connecting, some .list, [], []⟩ (.connected true :: es) =
      (⟨.connected, some .list, answersIn es, []⟩, [.send .list]) := by
    rw [handleAll, h1]; dsimp only; rw [handle_onWay qs es _ _ hes]; rfl
  have h2 := handle_end qs .connected (some .list) (answersIn es)
  have hl := loop_groups qs gs ⟨.connecting, some .list, [], []⟩ (.connected true :: es) (.reply .listEnd) more hg
    (by rw [h1']; rfl) (by rw [h1', h2]; rfl)
  have h3 : handleAll qs ⟨.connecting, some .list, [], []⟩ ((.connected true :: es) ++ [.reply .listEnd]) =
      (⟨.connected, none, qs (answersIn es), []⟩, .send .list :: .status true :: (qs (answersIn es)).map fun t => .info t.1 t.2) := by
    rw [handleAll_append, h1']; dsimp only; rw [handleAll, handleAll]; dsimp only; rw [h2]; dsimp only
    rw [List.append_nil]; rfl
  rw [h3] at hl
  have h4 : handle qs ⟨.connected, none, qs (answersIn es), []⟩ .stop = (⟨.idle, none, qs (answersIn es), []⟩, [.hangup]) :=
    handle_of rfl rfl
  refine ⟨_, _, qs (answersIn es), run_unfold qs hc hn he ho hl, by rw [h4]; rfl, (hqs _).2, fun lv hlv => ?_, ?_, ?_⟩
  · refine (hqs _).1.trans ?_
    have hr := h.reg
    have hans : answersIn es = (s.list.filter (· != 0)).map fun d => (nm d, s.level d) := by
      have h5 : (serve nm lw s .list).2.1 = (s.list.filter (· != 0)).map (fun c => Reply.info (nm c) (s.level c)) := rfl
      rw [h5] at ha
      have h6 : ∀ (a : List (Bytes × Int)) (b : List Cid), a.map (fun t => Reply.info t.1 t.2) = b.map (fun c => Reply.info (nm c) (s.level c)) →
          a = b.map fun d => (nm d, s.level d) := by
        intro a
        induction a with
        | nil => intro b hb; cases b with
          | nil => rfl
          | cons x b => cases hb
        | cons t a ih => intro b hb; cases b with
          | nil => cases hb
          | cons x b =>
            rw [List.map_cons, List.map_cons] at hb
            injection hb with e1 e2
            injection e1 with e3 e4
            rw [List.map_cons, ← ih b e2, ← e3, ← e4]
      exact h6 _ _ ha
    rw [hans, hr.list]
    have hf : (fun d : Cid => d != 0) = fun d => decide (d ≠ 0) := by
      funext d; by_cases hd : d = 0 <;> simp [hd]
    rw [hf]
    apply List.Perm.of_eq
    apply List.map_congr_left
    intro d hd
    have hd' := (List.mem_filter.mp hd).1
    have := hlv d hd'
    rw [levelIs_iff, (ensureInit_spec nm lw hr d).2.2.1, if_pos hd'] at this
    rw [this]
  · intro hcol
    rw [h4, hcol]
    generalize qs (answersIn es) = l
    show [] ++ ([] ++ ([] ++ ([] ++ ((l.map (fun t : Bytes × Int => COut.info t.1 t.2)) ++ [COut.hangup]).flatMap (printOut false)))) = _
    simp only [List.nil_append, List.flatMap_append, List.flatMap_map]
    have : (fun t : Bytes × Int => printOut false (.info t.1 t.2)) = listLine := by
      funext t; exact line_plain t.1 t.2
    rw [this]
    show _ ++ ([] ++ []) = _
    rw [List.append_nil, List.append_nil]
  · intro hcol
    rw [h4, hcol]
    generalize qs (answersIn es) = l
    intro hn
    have hx : ∀ l : List (Bytes × Int), (∀ t ∈ l, (27 : UInt8) ∉ t.1) →
        onTerm false (l.flatMap fun t => tagLine true t.1 t.2) = l.flatMap listLine := by
      intro l
      induction l with
      | nil => intro _; rfl
      | cons t l ih =>
        intro hn
        rw [List.flatMap_cons, List.flatMap_cons, onTerm_color t.1 t.2 (hn t (by simp)), ih (fun x hx => hn x (by simp [hx]))]
    rw [← hx l hn]
    congr 1
    show [] ++ ([] ++ ([] ++ ([] ++ ((l.map (fun t : Bytes × Int => COut.info t.1 t.2)) ++ [COut.hangup]).flatMap (printOut true)))) = _
    simp only [List.nil_append, List.flatMap_append, List.flatMap_map]
    show _ ++ ([] ++ []) = _
    rw [List.append_nil, List.append_nil]
    rfl

/-! ## Addresses -/

/-- C104, the address. With a process its socket, whatever else is given: the one of the
server of that process. `unix:` and a path of at most 108 bytes is the address of the
server of that socket. The copy leaves the storage exactly for more than 126 bytes. -/
theorem C104_addr (w : ToolWorld) (o : TOpts) (args : List Bytes) :
    (∀ p, o.proc = some p → p.length ≤ 16 → ∃ a, toolAddr w o args = some (some a) ∧ srvProcAddr p = some a) ∧
    (∀ sock rest, o.proc = none → args = (ascii "unix:" ++ sock) :: rest →
      (sock.length ≤ 108 → ∃ a, toolAddr w o args = some (some a) ∧ srvAddr sock = some a) ∧
      (toolAddr w o args = some none ↔ 126 < sock.length)) := by
  constructor
  · intro p hp hl
    obtain ⟨a, h1, h2⟩ := C46_agree hl
    exact ⟨a, by unfold toolAddr; rw [hp]; dsimp only; rw [h2], h1⟩
  · intro sock rest hp hargs
    subst hargs
    have hu : (ascii "unix:").length = 5 := by decide
    have hpa : parseAddr w.pomp (ascii "unix:" ++ sock) =
        some (pad storage (afUnix ++ (if sock.head? = some 64 then (pad sunPath (sock.take (sunPath - 1))).set 0 0
          else pad sunPath (sock.take (sunPath - 1)))), sunOff + sock.length) := by
      unfold parseAddr
      rw [List.take_left' hu, if_pos rfl, List.drop_left' hu]
    have hl1 : (pad sunPath (sock.take (sunPath - 1))).length = 108 :=
      pad_length (by rw [List.length_take]; unfold sunPath; omega)
    have hhead : (pad sunPath (sock.take (sunPath - 1))).head? = some 64 ↔ sock.head? = some 64 := by
      cases sock with
      | nil => decide
      | cons b l => unfold pad sunPath; simp
    unfold toolAddr
    rw [hp]
    dsimp only
    rw [hpa]
    have hsrv : srvAddr sock = copyAddr (afUnix ++ (if sock.head? = some 64 then (pad sunPath (sock.take (sunPath - 1))).set 0 0
          else pad sunPath (sock.take (sunPath - 1)))) (sunOff + sock.length) := by
      unfold srvAddr
      dsimp only
      by_cases h64 : sock.head? = some 64
      · rw [if_pos h64, if_pos (hhead.mpr h64)]
      · rw [if_neg h64, if_neg (fun e => h64 (hhead.mp e))]
    rw [hsrv]
    have hpl : (if sock.head? = some 64 then (pad sunPath (sock.take (sunPath - 1))).set 0 0
          else pad sunPath (sock.take (sunPath - 1))).length = 108 := by
      split
      · rw [List.length_set, hl1]
      · exact hl1
    generalize (if sock.head? = some 64 then (pad sunPath (sock.take (sunPath - 1))).set 0 0
          else pad sunPath (sock.take (sunPath - 1))) = path at hpl
    have hal : (afUnix ++ path).length = 110 := by rw [List.length_append, hpl]; rfl
    have hst : (pad storage (afUnix ++ path)).length = 128 := pad_length (by rw [hal]; decide)
    simp only [Option.map_some]
    unfold copyAddr
    rw [hst, hal]
    have e2 : sunOff = 2 := rfl
    have e3 : storage = 128 := rfl
    constructor
    · intro hs
      rw [if_pos (by omega), if_pos (by omega)]
      refine ⟨_, rfl, ?_⟩
      congr 1
      unfold pad
      rw [List.take_append_of_le_length (l₁ := afUnix ++ path) (by rw [hal]; omega)]
    · by_cases hs : 126 < sock.length
      · rw [if_neg (by omega)]; simp [hs]
      · rw [if_pos (by omega)]; simp [hs]

/-- C104: with options that can be used and a process, or `unix:` and a path, that fit,
the command makes the request the options stand for. -/
theorem C104_main (qs : List (Bytes × Int) → List (Bytes × Int)) {w : ToolWorld} (hm : w.made = true) {opts : List TOpt}
    (ho : opts.findSome? TOpt.ends = none) {args : List Bytes}
    (ha : (∃ p, opts.reverse.findSome? TOpt.procName = some p ∧ p.length ≤ 99 ∧ args = []) ∨
      (∃ sock rest, opts.reverse.findSome? TOpt.procName = none ∧ args = (ascii "unix:" ++ sock) :: rest ∧ sock.length ≤ 126))
    (evs : List TEv) :
    ∃ o, toolMain qs w opts args evs = toolRun qs w o evs ∧ o.request = wanted opts ∧ o.color = decide (TOpt.color ∈ opts) := by
  obtain ⟨o, e1, e2, e3, e4⟩ := (C104_options opts).2 ho
  refine ⟨o, ?_, e2, e3⟩
  unfold toolMain
  rw [e1]
  dsimp only
  rcases ha with ⟨p, h1, h2, rfl⟩ | ⟨sock, rest, h1, rfl, h2⟩
  · rw [h1] at e4
    dsimp only
    have : toolAddr w o [] ≠ some none := by
      unfold toolAddr
      rw [e4]
      dsimp only
      have := (C46_bounds p []).1.mpr h2
      intro e
      rw [Option.some.inj e] at this
      cases this
    rw [e4, hm, if_neg (by simp), if_neg (by simp), if_neg this]
  · rw [h1] at e4
    dsimp only
    have hn : (parseAddr w.pomp (ascii "unix:" ++ sock)).isNone = false := by
      unfold parseAddr
      rw [List.take_left' (by decide), if_pos rfl]
      rfl
    have : toolAddr w o ((ascii "unix:" ++ sock) :: rest) ≠ some none := by
      intro e
      have := ((C104_addr w o _).2 sock rest e4 rfl).2.mp e
      omega
    rw [hn, hm, if_neg (by simp), if_neg (by simp), if_neg this]

/-- C104 is false of longer paths: different sockets have the same address. -/
theorem C104_false_addr (w : ToolWorld) (o : TOpts) (hp : o.proc = none) : ∃ s1 s2 : Bytes, s1 ≠ s2 ∧ s1.length = 109 ∧
    NoNul s1 ∧ NoNul s2 ∧ toolAddr w o [ascii "unix:" ++ s1] = toolAddr w o [ascii "unix:" ++ s2] ∧
    toolAddr w o [ascii "unix:" ++ s1] ≠ some none := by
  refine ⟨List.replicate 107 97 ++ [97, 97], List.replicate 107 97 ++ [98, 98], by decide +kernel, by decide +kernel, ?_, ?_, ?_, ?_⟩
  · intro b hb e; subst e; revert hb; decide +kernel
  · intro b hb e; subst e; revert hb; decide +kernel
  · have hx : ∀ s : Bytes, s.take 5 = ascii "unix:" → parseAddr w.pomp s = parseAddr (fun _ => none) s := by
      intro s hs; unfold parseAddr; rw [if_pos hs, if_pos hs]
    unfold toolAddr
    rw [hp]
    dsimp only
    rw [hx _ (by decide +kernel), hx _ (by decide +kernel)]
    decide +kernel
  · intro h
    have := ((C104_addr w o [ascii "unix:" ++ (List.replicate 107 97 ++ [97, 97])]).2 _ [] hp rfl).2.mp h
    revert this
    decide +kernel

end Verif.Tools
