import Verif.Libulog.ConcStep

/-!
# Tags shared by threads (C22, C54, C55)

A trace `l ++ e :: old` (newest first): `old` is what had happened when `e` did.
-/
namespace Verif.Libulog
open Verif

variable {nm : Cid → Bytes} {s : CState}

/-! ## Runs given by a schedule -/

def crun (nm : Cid → Bytes) : List (Tid × Choice) → CState → Option CState
  | [], s => some s
  | (t, ch) :: r, s => match cstep nm t ch s with
    | none => none
    | some s' => crun nm r s'

theorem crun_reach : ∀ {sched : List (Tid × Choice)} {s s' : CState}, CReach nm s → crun nm sched s = some s' →
    CReach nm s' := by
  intro sched
  induction sched with
  | nil => intro s s' h hr; injection hr with hr; subst hr; exact h
  | cons a r ih =>
    intro s s' h hr
    obtain ⟨t, ch⟩ := a
    unfold crun at hr
    split at hr
    · cases hr
    · rename_i s1 h1
      exact ih (.step t ch h h1) hr

/-! ## C22 -/

theorem CGood.nodup : ∀ {tr : List CEv}, CGood nm tr → (regs tr).Nodup := by
  intro tr
  induction tr with
  | nil => intro _; exact List.nodup_nil
  | cons e tr ih =>
    intro h
    cases e with
    | reg t c => exact List.nodup_cons.mpr ⟨h.1.1, ih h.2⟩
    | _ => exact ih h.2

/-- C22. At any moment of any interleaving the tag list is finite, without
duplicates, and holds every tag on which some call has returned. -/
theorem C22_list (h : CReach nm s) :
    ∃ l : List Cid, Chain s.next s.head l ∧ l.Nodup ∧ (∀ t c, CEv.ret t c ∈ s.tr → c ∈ l) ∧
      (∀ t c, CEv.reg t c ∈ s.tr → c ∈ l) := by
  have hi := h.inv
  refine ⟨regs s.tr, hi.chain, hi.good.nodup, ?_, ?_⟩
  · have : ∀ tr : List CEv, CGood nm tr → ∀ t c, CEv.ret t c ∈ tr → c ∈ regs tr := by
      intro tr
      induction tr with
      | nil => intro _ t c hm; cases hm
      | cons e tr ih =>
        intro hg t c hm
        rcases List.mem_cons.mp hm with he | hm
        · subst he; exact hg.1
        · have := ih hg.2 t c hm
          cases e with
          | reg u d => exact List.mem_cons_of_mem _ this
          | _ => exact this
    exact this s.tr hi.good
  · have : ∀ tr : List CEv, ∀ t c, CEv.reg t c ∈ tr → c ∈ regs tr := by
      intro tr
      induction tr with
      | nil => intro t c hm; cases hm
      | cons e tr ih =>
        intro t c hm
        rcases List.mem_cons.mp hm with he | hm
        · subst he; exact List.mem_cons_self
        · have := ih t c hm
          cases e with
          | reg u d => exact List.mem_cons_of_mem _ this
          | _ => exact this
    exact this s.tr

/-- C22. No tag is registered twice. -/
theorem C22_once (h : CReach nm s) {l old : List CEv} {t u : Tid} {c : Cid} (htr : s.tr = l ++ .reg t c :: old) :
    CEv.reg u c ∉ l ∧ CEv.reg u c ∉ old := by
  have hreg : ∀ {tr : List CEv} {u : Tid}, CEv.reg u c ∈ tr → c ∈ regs tr := by
    intro tr
    induction tr with
    | nil => intro u hm; cases hm
    | cons e tr ih =>
      intro u hm
      rcases List.mem_cons.mp hm with he | hm
      · subst he; exact List.mem_cons_self
      · have := ih hm
        cases e with
        | reg _ d => exact List.mem_cons_of_mem _ this
        | _ => exact this
  constructor
  · intro hm
    obtain ⟨l1, l2, hl⟩ := List.append_of_mem hm
    have := (h.inv.good.at (l := l1) (e := .reg u c) (old := l2 ++ .reg t c :: old) (by rw [htr, hl]; simp)).1.1
    exact this (hreg (u := t) (by simp))
  · intro hm
    exact (h.inv.good.at htr).1.1 (hreg hm)

theorem hook_le_one : ∀ {tr : List CEv}, CGood nm tr → ∀ c, (hookEvs c tr).length ≤ 1 := by
  intro tr
  induction tr with
  | nil => intro _ c; exact Nat.zero_le _
  | cons e tr ih =>
    intro h c
    cases e with
    | hook t x d =>
      unfold hookEvs
      by_cases hd : d = c
      · subst hd; rw [if_pos rfl, h.1.1]; exact Nat.le_refl _
      · rw [if_neg hd]; exact ih h.2 c
    | _ => exact ih h.2 c

/-- C22. The hook is called at most once for a tag. Once no call is in progress,
it has been called exactly for the tags registered while a hook was installed:
once, and with that hook. -/
theorem C22_hook (h : CReach nm s) (c : Cid) :
    (hookEvs c s.tr).length ≤ 1 ∧
    ∀ t old l, s.tr = l ++ .reg t c :: old → (∀ u, s.pc u = .idle) → hookEvs c s.tr = (lastHook old).toList := by
  refine ⟨hook_le_one h.inv.good c, ?_⟩
  intro t old l htr hidle
  have hw : ∃ w, winner c s.tr = some w := winner_iff.mp (by
    obtain ⟨l', _, _, _, _⟩ := C22_list h
    rw [htr]
    clear htr
    induction l with
    | nil => exact List.mem_cons_self
    | cons e l ih => cases e <;> first | exact List.mem_cons_of_mem _ ih | exact ih)
  obtain ⟨w, hw⟩ := hw
  have hs := h.inv.hooks c w hw
  unfold HookSt at hs
  rw [hidle w] at hs
  simp only [pend] at hs
  rw [hs]
  congr 1
  have hn := h.inv.good
  have hone := fun u => (C22_once h (u := u) htr).1
  rw [htr]
  clear htr hn
  induction l with
  | nil => show hookAt c (.reg t c :: old) = _; rw [hookAt, if_pos rfl]
  | cons e l ih =>
    have := ih (fun u hu => hone u (List.mem_cons_of_mem _ hu))
    cases e with
    | reg u d =>
      show hookAt c (.reg u d :: (l ++ .reg t c :: old)) = _
      rw [hookAt, if_neg]
      · exact this
      · intro hx; subst hx; exact hone u List.mem_cons_self
    | _ => exact this

/-- The level of `c` at the end of a trace: what was written last, by either
`ulog_set_level` or the initialisation. -/
def lastLevel (c : Cid) (tr : List CEv) : Option Int :=
  (tr.filterMap fun
    | .first d l => if d = c then some l else none
    | .set _ d l => if d = c then some l else none
    | _ => none).head?

theorem levelAt_last (c : Cid) : ∀ tr : List CEv, levelAt c tr = lastLevel c tr := by
  intro tr
  induction tr with
  | nil => rfl
  | cons e tr ih =>
    cases e with
    | first d l =>
      unfold levelAt
      by_cases hd : d = c
      · rw [if_pos hd]; simp [lastLevel, hd]
      · rw [if_neg hd, ih]; simp [lastLevel, hd]
    | set t d l =>
      unfold levelAt
      by_cases hd : d = c
      · rw [if_pos hd]; simp [lastLevel, hd]
      · rw [if_neg hd, ih]; simp [lastLevel, hd]
    | _ => exact ih

/-- C22. A level set explicitly is never replaced by an initialisation, whatever
was in progress when it was set; and a tag is initialised at most once. -/
theorem C22_level_kept (h : CReach nm s) {l old : List CEv} {e : CEv} (htr : s.tr = l ++ e :: old) {c : Cid}
    (he : (∃ t x, e = .set t c x) ∨ ∃ x, e = .first c x) (y : Int) : CEv.first c y ∉ l := by
  intro hm
  obtain ⟨l1, l2, hl⟩ := List.append_of_mem hm
  have := (h.inv.good.at (l := l1) (e := .first c y) (old := l2 ++ e :: old) (by rw [htr, hl]; simp)).1.1
  have hne : ∀ m : List CEv, levelAt c (m ++ e :: old) ≠ none := by
    intro m
    induction m with
    | nil =>
      rcases he with ⟨t, x, rfl⟩ | ⟨x, rfl⟩ <;> (show levelAt c (_ :: old) ≠ none; rw [levelAt, if_pos rfl]; simp)
    | cons a m ih =>
      cases a with
      | first d x => show levelAt c (_ :: (m ++ e :: old)) ≠ none; rw [levelAt]; split <;> simp [ih]
      | set u d x => show levelAt c (_ :: (m ++ e :: old)) ≠ none; rw [levelAt]; split <;> simp [ih]
      | _ => exact ih
  exact hne l2 this

/-- C22. `ulog_get_level` and the filter of a message use the level written last,
and there is one. -/
theorem C22_level_read (h : CReach nm s) {l old : List CEv} {t : Tid} {c : Cid} :
    (∀ x, s.tr = l ++ .got t c x :: old → lastLevel c old = some x) ∧
    (∀ prio b, s.tr = l ++ .msg t c prio b :: old →
      ∃ x, lastLevel c old = some x ∧ (b = true ↔ ((prio.toNat % 8 : Nat) : Int) ≤ x)) ∧
    ∀ x, s.tr = l ++ .set t c x :: old → 0 ≤ x ∧ x ≤ 7 := by
  refine ⟨?_, ?_, ?_⟩
  · intro x htr
    rw [← levelAt_last]
    exact (h.inv.good.at htr).1
  · intro prio b htr
    obtain ⟨x, h1, h2⟩ := (h.inv.good.at htr).1
    refine ⟨x, by rw [← levelAt_last]; exact h1, by rw [h2]; simp⟩
  · intro x htr
    exact (h.inv.good.at htr).1.2

/-- The level a call has found for the tag that it initialises. -/
def Pc.found : Pc → Option Int
  | .lock _ x _ | .check _ x _ | .link _ x _ | .publish _ x _ | .store _ x _ => some x
  | _ => none

theorem cstep_found {t : Tid} {ch : Choice} {s' : CState} (hs : cstep nm t ch s = some s') :
    (∀ u, u ≠ t → s'.pc u = s.pc u) ∧
    (∃ es, s'.tr = es ++ s.tr ∧ ∀ c x, CEv.first c x ∈ es → (s.pc t).found = some x ∧ es = [.first c x]) ∧
    ∀ x, (s'.pc t).found = some x → (s.pc t).found = some x ∨ (∃ v : Fin 8, ch = .env (some v) ∧ x = (v.val : Nat)) ∨
      (x = 6 ∧ s.level 0 < 0) ∨ (s.level 0 = x ∧ 0 ≤ x) := by
  have e0 : ∃ es : List CEv, s.tr = es ++ s.tr ∧ ∀ c x, CEv.first c x ∈ es → (s.pc t).found = some x ∧ es = [.first c x] := ⟨[], by simp⟩
  have e1 : ∀ e : CEv, (∀ c x, e ≠ .first c x) →
      ∃ es, e :: s.tr = es ++ s.tr ∧ ∀ c x, CEv.first c x ∈ es → (s.pc t).found = some x ∧ es = [.first c x] :=
    fun e he => ⟨[e], rfl, fun c x hx => absurd (List.mem_singleton.1 hx).symm (he c x)⟩
  have e2 : ∀ e f : CEv, (∀ c x, e ≠ .first c x) → (∀ c x, f ≠ .first c x) →
      ∃ es, e :: f :: s.tr = es ++ s.tr ∧ ∀ c x, CEv.first c x ∈ es → (s.pc t).found = some x ∧ es = [.first c x] := by
    intro e f he hf
    refine ⟨[e, f], rfl, fun c x hx => ?_⟩
    rcases List.mem_cons.1 hx with h | h
    · exact absurd h.symm (he c x)
    · exact absurd (List.mem_singleton.1 h).symm (hf c x)
  unfold cstep at hs
  split at hs
  case h_15 hpc =>
    simp only [Option.some.injEq] at hs
    subst hs
    refine ⟨fun u hu => by simp [CState.at, CState.ev, hu], ?_, fun x hx => by simp [CState.at, CState.ev, Pc.found] at hx⟩
    rename_i c lvl k
    refine ⟨[.first c lvl], rfl, fun d x hx => ?_⟩
    simp only [List.mem_singleton, CEv.first.injEq] at hx
    obtain ⟨rfl, rfl⟩ := hx
    exact ⟨by rw [hpc]; rfl, rfl⟩
  all_goals
    rename_i hpc
    try simp only [Option.ite_none_right_eq_some] at hs
    try (obtain ⟨_, hs⟩ := hs)
    try split at hs
    all_goals
      first
      | (cases hs; done)
      | skip
      try simp only [Option.some.injEq] at hs
      try subst hs
      refine ⟨fun u hu => by simp [CState.at, CState.ev, hu], ?_, fun x hx => ?_⟩
      · first
        | exact e0
        | exact e1 _ (by simp)
        | exact e2 _ _ (by simp) (by simp)
      · simp only [CState.at, CState.ev, if_true] at hx
        rw [hpc]
        first
        | (cases hx; done)
        | (exact .inl hx)
        | skip
        try split at hx
        all_goals
          first
          | (cases hx; done)
          | (exact .inl hx)
          | (simp only [Pc.found, Option.some.injEq] at hx; grind)
          | grind [Pc.found]

/-- Why a tag starts with level `x`, after the events `b` and before those after `tr`. -/
def FirstOk (E : Int → Prop) (b tr : List CEv) (x : Int) : Prop :=
  E x ∨ (x = 6 ∧ ∃ m, b <:+ m ∧ m <:+ tr ∧ lastLevel 0 m = none) ∨ ∃ m, b <:+ m ∧ m <:+ tr ∧ lastLevel 0 m = some x

/-- C22. The level that a tag starts with comes from the environment, or is one that the
default tag had at some moment since no thread was in a call, or is Info if the default tag
had none at such a moment. -/
theorem C22_first {E : Int → Prop} {s1 s' : CState} {sched : List (Tid × Choice)} (h1 : CReach nm s1) (hidle : ∀ t, s1.pc t = .idle)
    (hE : ∀ t v, (t, Choice.env (some v)) ∈ sched → E (v.val : Nat)) (hr : crun nm sched s1 = some s') {l old : List CEv} {c : Cid} {x : Int}
    (htr : s'.tr = l ++ .first c x :: old) (hb : s1.tr <:+ old) :
    E x ∨ (x = 6 ∧ ∃ m, s1.tr <:+ m ∧ m <:+ old ∧ lastLevel 0 m = none) ∨ ∃ m, s1.tr <:+ m ∧ m <:+ old ∧ lastLevel 0 m = some x := by
  have key : ∀ (b : List CEv) (sched : List (Tid × Choice)) (s s' : CState), CReach nm s → b <:+ s.tr →
      (∀ t v, (t, Choice.env (some v)) ∈ sched → E (v.val : Nat)) →
      (∀ t x, (s.pc t).found = some x → FirstOk E b s.tr x) →
      (∀ l old c x, s.tr = l ++ CEv.first c x :: old → b <:+ old → FirstOk E b old x) →
      crun nm sched s = some s' →
      ∀ l old c x, s'.tr = l ++ CEv.first c x :: old → b <:+ old → FirstOk E b old x := by
    intro b sched
    induction sched with
    | nil =>
      intro s s' _ _ _ _ htr hr
      injection hr with hr
      subst hr
      exact htr
    | cons a r ih =>
      intro s s' hre hbs hE hpc htr hr
      obtain ⟨t, ch⟩ := a
      unfold crun at hr
      split at hr
      · cases hr
      · rename_i s1 h1
        obtain ⟨g1, ⟨es, g2, g3⟩, g4⟩ := cstep_found h1
        have hsuf : s.tr <:+ s1.tr := ⟨es, g2.symm⟩
        have up : ∀ x, FirstOk E b s.tr x → FirstOk E b s1.tr x := by
          rintro x (h | ⟨h, m, hb, hm, h'⟩ | ⟨m, hb, hm, h⟩)
          · exact .inl h
          · exact .inr (.inl ⟨h, m, hb, hm.trans hsuf, h'⟩)
          · exact .inr (.inr ⟨m, hb, hm.trans hsuf, h⟩)
        refine ih s1 s' (.step t ch hre h1) (hbs.trans hsuf) (fun u v h => hE u v (by simp [h])) ?_ ?_ hr
        · intro u x hx
          by_cases hu : u = t
          · subst hu
            rcases g4 x hx with h | ⟨v, rfl, rfl⟩ | ⟨rfl, h⟩ | ⟨h, h'⟩
            · exact up x (hpc u x h)
            · exact .inl (hE u v (by simp))
            · refine up 6 (.inr (.inl ⟨rfl, s.tr, hbs, List.suffix_refl _, ?_⟩))
              rw [← levelAt_last]
              exact level_none hre.inv h
            · refine up x (.inr (.inr ⟨s.tr, hbs, List.suffix_refl _, ?_⟩))
              rw [← levelAt_last, ← h]
              exact level_some hre.inv (by omega)
          · rw [g1 u hu] at hx
            exact up x (hpc u x hx)
        · intro l old c x htr1
          rw [g2] at htr1
          by_cases hmem : ∃ d y, CEv.first d y ∈ es
          · obtain ⟨d, y, hd⟩ := hmem
            obtain ⟨h1, h2⟩ := g3 d y hd
            rw [h2] at htr1
            cases l with
            | nil =>
              simp only [List.cons_append, List.nil_append, List.cons.injEq, CEv.first.injEq] at htr1
              obtain ⟨⟨rfl, rfl⟩, rfl⟩ := htr1
              exact fun _ => hpc t _ h1
            | cons e l =>
              simp only [List.cons_append, List.nil_append, List.cons.injEq] at htr1
              exact htr l old c x htr1.2
          · rcases List.append_eq_append_iff.1 htr1 with ⟨a', ha, hb⟩ | ⟨a', ha, hb⟩
            · exact htr a' old c x hb
            · cases a' with
              | nil => exact htr [] old c x (by simpa using hb.symm)
              | cons e a' =>
                simp only [List.cons_append, List.cons.injEq] at hb
                exact absurd ⟨c, x, by rw [ha, ← hb.1]; simp⟩ hmem
  refine key s1.tr sched s1 s' h1 (List.suffix_refl _) hE (fun t x h => ?_) (fun l old c x h hb => ?_) hr l old c x htr hb
  · rw [hidle t] at h; cases h
  · have := hb.length_le
    rw [h] at this
    simp at this
    omega

/-- C22. So once the default tag has a level, it is never Info by default. -/
theorem C22_default {E : Int → Prop} {s1 s' : CState} {sched : List (Tid × Choice)} (h1 : CReach nm s1) (hidle : ∀ t, s1.pc t = .idle)
    (hE : ∀ t v, (t, Choice.env (some v)) ∈ sched → E (v.val : Nat)) (hr : crun nm sched s1 = some s') {l old : List CEv} {c : Cid} {x : Int}
    (htr : s'.tr = l ++ .first c x :: old) (hb : s1.tr <:+ old) (hd : lastLevel 0 s1.tr ≠ none) :
    E x ∨ ∃ m, s1.tr <:+ m ∧ m <:+ old ∧ lastLevel 0 m = some x := by
  rcases C22_first h1 hidle hE hr htr hb with h | ⟨_, m, ⟨k, rfl⟩, _, h⟩ | h
  · exact .inl h
  · refine absurd ?_ hd
    unfold lastLevel at h ⊢
    rw [List.head?_eq_none_iff, List.filterMap_append, List.append_eq_nil_iff] at h
    rw [h.2]; rfl
  · exact .inr h

/-- C22. `ulog_get_tag_names` gives the first tags of the list as it is while it
runs; `ulog_set_tag_level` ignores a name only if no registered tag has it. -/
theorem C22_names (h : CReach nm s) {l old : List CEv} {t : Tid} :
    (∀ max x, s.tr = l ++ .names t max x :: old → x = (regs old).take max) ∧
    ∀ name, s.tr = l ++ .notFound t name :: old → ∀ u c, CEv.reg u c ∈ old → nm c ≠ name := by
  refine ⟨fun max x htr => (h.inv.good.at htr).1, ?_⟩
  intro name htr u c hm
  refine (h.inv.good.at htr).1 c ?_
  clear htr
  induction old with
  | nil => cases hm
  | cons e old ih =>
    rcases List.mem_cons.mp hm with he | hm
    · subst he; exact List.mem_cons_self
    · have := ih hm
      cases e with
      | reg _ d => exact List.mem_cons_of_mem _ this
      | _ => exact this

/-! ## C55 -/

/-- C55. `ulog_foreach` calls its callback once for each tag that was registered
when it read the head of the list, in the order of the list, except for the
default tag, whatever is registered meanwhile. -/
theorem C55_foreach (h : CReach nm s) {l m old : List CEv} {t : Tid} {x : List Cid}
    (htr : s.tr = l ++ .feDone t x :: (m ++ .feStart t :: old)) (hm : .feStart t ∉ m) :
    x = (regs old).filter (fun c => decide (c ≠ 0)) ∧ x.Nodup ∧ ∀ u c, CEv.reg u c ∈ old → c ≠ 0 → c ∈ x := by
  have h1 := (h.inv.good.at htr).1
  have h2 : atHead t (m ++ .feStart t :: old) = regs old := by
    clear htr h1
    induction m with
    | nil => show atHead t (.feStart t :: old) = _; rw [atHead, if_pos rfl]
    | cons e m ih =>
      have := ih (fun hx => hm (List.mem_cons_of_mem _ hx))
      cases e with
      | feStart u =>
        show atHead t (.feStart u :: (m ++ .feStart t :: old)) = _
        rw [atHead, if_neg]
        · exact this
        · intro hx; subst hx; exact hm List.mem_cons_self
      | _ => exact this
  have h3 : x = (regs old).filter (fun c => decide (c ≠ 0)) := by rw [← h2]; exact h1
  have h4 : CGood nm old :=
    (h.inv.good.at (l := l ++ .feDone t x :: m) (e := .feStart t) (old := old) (by rw [htr]; simp)).2
  refine ⟨h3, ?_, ?_⟩
  · rw [h3]; exact h4.nodup.filter _
  · intro u c hc hc0
    rw [h3, List.mem_filter]
    refine ⟨?_, by simpa using hc0⟩
    clear htr h1 h2 h3 h4 hm
    induction old with
    | nil => cases hc
    | cons e old ih =>
      rcases List.mem_cons.mp hc with he | hc
      · subst he; exact List.mem_cons_self
      · have := ih hc
        cases e with
        | reg _ d => exact List.mem_cons_of_mem _ this
        | _ => exact this

/-! ## C54 -/

/-- A thread waiting for the lock. -/
def Pc.waits : Pc → Bool
  | .lock .. | .findLock .. | .namesLock .. | .feLock | .hookLock .. => true
  | _ => false

theorem can_step {t : Tid} (h1 : s.pc t ≠ .idle) (h2 : (s.pc t).waits = false ∨ s.lock = none) :
    ∃ ch s', cstep nm t ch s = some s' := by
  have hgo : (∀ c k, s.pc t ≠ .env c k) → ∃ ch s', cstep nm t ch s = some s' := by
    intro he
    refine ⟨.go, ?_⟩
    unfold cstep
    cases hpc : s.pc t with
    | idle => exact absurd hpc h1
    | env c k => exact absurd hpc (he c k)
    | lock c l k => rw [hpc] at h2; exact ⟨_, if_pos (h2.resolve_left (fun hx => by cases hx))⟩
    | findLock c l => rw [hpc] at h2; exact ⟨_, if_pos (h2.resolve_left (fun hx => by cases hx))⟩
    | namesLock c => rw [hpc] at h2; exact ⟨_, if_pos (h2.resolve_left (fun hx => by cases hx))⟩
    | feLock => rw [hpc] at h2; exact ⟨_, if_pos (h2.resolve_left (fun hx => by cases hx))⟩
    | hookLock x => rw [hpc] at h2; exact ⟨_, if_pos (h2.resolve_left (fun hx => by cases hx))⟩
    | callHook c x k => cases x <;> exact ⟨_, rfl⟩
    | fin c k => cases k <;> exact ⟨_, rfl⟩
    | findWalk a b p => cases p <;> exact ⟨_, rfl⟩
    | namesWalk a p b => cases p <;> exact ⟨_, rfl⟩
    | feWalk p a => cases p <;> exact ⟨_, rfl⟩
    | _ => exact ⟨_, rfl⟩
  by_cases he : ∃ c k, s.pc t = .env c k
  · obtain ⟨c, k, he⟩ := he
    refine ⟨.env none, ?_⟩
    unfold cstep
    rw [he]
    exact ⟨_, rfl⟩
  · exact hgo (fun c k hx => he ⟨c, k, hx⟩)

/-- C54. No deadlock: a thread inside a call can take a step, or waits for the
lock while the thread that holds it can take a step. -/
theorem C54_progress (h : CReach nm s) {t : Tid} (ht : s.pc t ≠ .idle) :
    (∃ ch s', cstep nm t ch s = some s') ∨
    ∃ u ch s', u ≠ t ∧ s.lock = some u ∧ cstep nm u ch s = some s' := by
  by_cases hw : (s.pc t).waits = true
  · cases hl : s.lock with
    | none => exact Or.inl (can_step ht (Or.inr hl))
    | some u =>
      have hu := (h.inv.lockPc u).mpr hl
      have hn : (s.pc u).waits = false := by
        generalize s.pc u = q at hu
        cases q <;> first | rfl | cases hu
      have hi : s.pc u ≠ .idle := by intro hx; rw [hx] at hu; cases hu
      obtain ⟨ch, s', hs⟩ := can_step (nm := nm) hi (Or.inl hn)
      refine Or.inr ⟨u, ch, s', ?_, rfl, hs⟩
      intro hx; subst hx; rw [hn] at hw; cases hw
  · exact Or.inl (can_step ht (Or.inl (by simpa using hw)))

/-- Tags from `p` on. -/
def rest (l : List Cid) : Option Cid → Nat
  | none => 0
  | some c => (l.dropWhile fun d => decide (d ≠ c)).length

theorem rest_suffix {next : Cid → Option Cid} {l pre suf : List Cid} {p : Option Cid} (hn : l.Nodup)
    (hl : l = pre ++ suf) (hc : Chain next p suf) : rest l p = suf.length := by
  cases suf with
  | nil => rw [show p = none from hc]; rfl
  | cons c suf =>
    rw [show p = some c from hc.1]
    subst hl
    unfold rest
    dsimp only
    have hnot : ∀ d ∈ pre, d ≠ c := by
      intro d hd hx
      subst hx
      exact (List.nodup_append.mp hn).2.2 d hd d List.mem_cons_self rfl
    rw [List.dropWhile_append_of_pos (by intro d hd; simpa using hnot d hd)]
    simp

/-- How far a call is from its return. -/
def rank (l : List Cid) : Pc → Nat × Nat
  | .idle => (0, 0)
  | .fin .. => (1, 0)
  | .callHook .. => (2, 0)
  | .unlock .. => (3, 0)
  | .readHook .. => (4, 0)
  | .store .. => (5, 0)
  | .publish .. => (6, 0)
  | .link .. => (7, 0)
  | .check .. => (8, 0)
  | .lock .. => (9, 0)
  | .def2 .. => (10, 0)
  | .def1 .. => (11, 0)
  | .env .. => (12, 0)
  | .test .. => (13, 0)
  | .findUnlock .. => (14, 0)
  | .findWalk _ _ p => (15, rest l p)
  | .findHead .. => (16, 0)
  | .findLock .. => (17, 0)
  | .namesUnlock .. => (1, 0)
  | .namesWalk _ p _ => (2, rest l p)
  | .namesHead .. => (3, 0)
  | .namesLock .. => (4, 0)
  | .feWalk p _ => (1, 2 * rest l p)
  | .feNext c _ => (1, 2 * rest l (some c) - 1)
  | .feUnlock .. => (2, 0)
  | .feHead => (3, 0)
  | .feLock => (4, 0)
  | .hookUnlock .. => (1, 0)
  | .hookStore .. => (2, 0)
  | .hookLock .. => (3, 0)

abbrev lexLt : Nat × Nat → Nat × Nat → Prop := Prod.Lex (· < ·) (· < ·)

theorem lexLt_wf : WellFounded lexLt := (Prod.lex Nat.lt_wfRel Nat.lt_wfRel).wf

theorem cstep_frame {t : Tid} {ch : Choice} {s' : CState} (hs : cstep nm t ch s = some s') :
    (∃ es, s'.tr = es ++ s.tr) ∧ ∀ u, u ≠ t → s'.pc u = s.pc u := by
  unfold cstep at hs
  split at hs
  case h_11 => split at hs; · (injection hs with hs; subst hs; exact ⟨⟨[], rfl⟩, fun u hu => if_neg hu⟩)
               · cases hs
  all_goals first
    | (injection hs with hs; subst hs; exact ⟨⟨[], rfl⟩, fun u hu => if_neg hu⟩)
    | (injection hs with hs; subst hs; exact ⟨⟨[_], rfl⟩, fun u hu => if_neg hu⟩)
    | (split at hs <;> first
        | (injection hs with hs; subst hs; exact ⟨⟨[], rfl⟩, fun u hu => if_neg hu⟩)
        | (injection hs with hs; subst hs; exact ⟨⟨[_], rfl⟩, fun u hu => if_neg hu⟩)
        | (injection hs with hs; subst hs; exact ⟨⟨[_, _], rfl⟩, fun u hu => if_neg hu⟩)
        | cases hs)
    | cases hs

theorem regs_append (a b : List CEv) : regs (a ++ b) = regs a ++ regs b := by
  induction a with
  | nil => rfl
  | cons e a ih => cases e <;> first | exact ih | (show _ :: regs (a ++ b) = _ :: (regs a ++ regs b); rw [ih])

theorem rest_stable {l pre : List Cid} {next : Cid → Option Cid} {p : Option Cid} (hn : (pre ++ l).Nodup)
    (h : ∃ a suf, l = a ++ suf ∧ Chain next p suf) : rest (pre ++ l) p = rest l p := by
  obtain ⟨a, suf, h1, h2⟩ := h
  rw [rest_suffix (List.nodup_append.mp hn).2.1 h1 h2,
    rest_suffix hn (pre := pre ++ a) (suf := suf) (by rw [h1, List.append_assoc]) h2]

/-- Steps of other threads do not make a call longer. -/
theorem rank_other (h : CReach nm s) {t u : Tid} {ch : Choice} {s' : CState} (hs : cstep nm u ch s = some s')
    (hu : u ≠ t) : rank (regs s'.tr) (s'.pc t) = rank (regs s.tr) (s.pc t) := by
  obtain ⟨⟨es, he⟩, hpc⟩ := cstep_frame hs
  have hn := (CReach.step u ch h hs).inv.good.nodup
  rw [hpc t (Ne.symm hu)]
  rw [he, regs_append] at hn ⊢
  have hp := h.inv.pcs t
  generalize s.pc t = p at hp ⊢
  cases p with
  | findWalk a b p =>
    obtain ⟨_, pre, suf, h1, h2, _⟩ := hp
    unfold rank; dsimp only; rw [rest_stable hn ⟨pre, suf, h1, h2⟩]
  | namesWalk a p b =>
    obtain ⟨suf, h1, h2, _⟩ := hp
    unfold rank; dsimp only; rw [rest_stable hn ⟨b, suf, h1, h2⟩]
  | feWalk p b =>
    obtain ⟨pre, suf, h1, h2, _⟩ := hp
    unfold rank; dsimp only; rw [rest_stable hn ⟨pre, suf, h1, h2⟩]
  | feNext p b =>
    obtain ⟨pre, suf, h1, h2, _⟩ := hp
    unfold rank; dsimp only; rw [rest_stable hn ⟨pre, _, h1, h2⟩]
  | _ => rfl

theorem lt1 {a b c d : Nat} (h : a < c) : lexLt (a, b) (c, d) := Prod.Lex.left _ _ h
theorem lt2 {a b d : Nat} (h : b < d) : lexLt (a, b) (a, d) := Prod.Lex.right _ h

/-- Each step inside a call brings it closer to its return. -/
theorem rank_own (h : CReach nm s) {t : Tid} {ch : Choice} {s' : CState} (hs : cstep nm t ch s = some s')
    (ht : s.pc t ≠ .idle) : lexLt (rank (regs s'.tr) (s'.pc t)) (rank (regs s.tr) (s.pc t)) := by
  have hp := h.inv.pcs t
  have hn := h.inv.good.nodup
  unfold cstep at hs
  cases hpc : s.pc t with
  | idle => exact absurd hpc ht
  | env c k =>
    rw [hpc] at hs
    cases ch with
    | env l => cases l <;> (injection hs with hs; subst hs; simp only [CState.at, if_pos]; exact lt1 (by decide))
    | go => cases hs
    | call op => cases hs
  | findWalk a b p =>
    rw [hpc] at hs hp
    cases ch with
    | go =>
      obtain ⟨_, pre, suf, h1, h2, _⟩ := hp
      cases p with
      | none => injection hs with hs; subst hs; simp only [CState.at, CState.ev, if_pos]; exact lt1 (by decide)
      | some c =>
        injection hs with hs; subst hs; simp only [CState.at, if_pos]
        obtain ⟨suf', e1, e2⟩ := h2.some_cons
        by_cases hx : nm c = a
        · rw [if_pos hx]; exact lt1 (by decide)
        · rw [if_neg hx]
          refine lt2 ?_
          rw [rest_suffix hn h1 h2, rest_suffix hn (pre := pre ++ [c]) (suf := suf') (by rw [h1, e1]; simp) e2, e1]
          simp
    | env l => cases hs
    | call op => cases hs
  | namesWalk a p b =>
    rw [hpc] at hs hp
    cases ch with
    | go =>
      obtain ⟨suf, h1, h2, _⟩ := hp
      cases p with
      | none => injection hs with hs; subst hs; simp only [CState.at, if_pos]; exact lt1 (by decide)
      | some c =>
        injection hs with hs; subst hs; simp only [CState.at, if_pos]
        obtain ⟨suf', e1, e2⟩ := h2.some_cons
        by_cases hx : b.length < a
        · rw [if_pos hx]
          refine lt2 ?_
          rw [rest_suffix hn h1 h2, rest_suffix hn (pre := b ++ [c]) (suf := suf') (by rw [h1, e1]; simp) e2, e1]
          simp
        · rw [if_neg hx]; exact lt1 (by decide)
    | env l => cases hs
    | call op => cases hs
  | feWalk p b =>
    rw [hpc] at hs hp
    cases ch with
    | go =>
      obtain ⟨pre, suf, h1, h2, _⟩ := hp
      cases p with
      | none => injection hs with hs; subst hs; simp only [CState.at, CState.ev, if_pos]; exact lt1 (by decide)
      | some c =>
        injection hs with hs; subst hs; simp only [CState.at, if_pos]
        obtain ⟨suf', e1, e2⟩ := h2.some_cons
        refine lt2 ?_
        rw [rest_suffix hn h1 h2, e1]
        simp; try omega
    | env l => cases hs
    | call op => cases hs
  | feNext c b =>
    rw [hpc] at hs hp
    cases ch with
    | go =>
      obtain ⟨pre, suf, h1, h2, _⟩ := hp
      injection hs with hs; subst hs; simp only [CState.at, if_pos]
      refine lt2 ?_
      rw [rest_suffix hn h1 h2, rest_suffix hn (pre := pre ++ [c]) (suf := suf) (by rw [h1]; simp) h2.2]
      simp; omega
    | env l => cases hs
    | call op => cases hs
  | test c k =>
    rw [hpc] at hs
    cases ch with
    | go => injection hs with hs; subst hs; simp only [CState.at, if_pos]; split <;> exact lt1 (by decide)
    | env l => cases hs
    | call op => cases hs
  | def1 c k =>
    rw [hpc] at hs
    cases ch with
    | go => injection hs with hs; subst hs; simp only [CState.at, if_pos]; split <;> exact lt1 (by decide)
    | env l => cases hs
    | call op => cases hs
  | check c l k =>
    rw [hpc] at hs
    cases ch with
    | go => injection hs with hs; subst hs; simp only [CState.at, if_pos]; split <;> exact lt1 (by decide)
    | env l => cases hs
    | call op => cases hs
  | fin c k =>
    rw [hpc] at hs
    cases ch with
    | go =>
      cases k <;> (injection hs with hs; subst hs; simp only [CState.at, CState.ev, if_pos]; exact lt1 (by decide))
    | env l => cases hs
    | call op => cases hs
  | callHook c x k =>
    rw [hpc] at hs
    cases ch with
    | go =>
      cases x <;> (injection hs with hs; subst hs; simp only [CState.at, CState.ev, if_pos]; exact lt1 (by decide))
    | env l => cases hs
    | call op => cases hs
  | findUnlock r l =>
    rw [hpc] at hs
    cases ch with
    | go => cases r <;> (injection hs with hs; subst hs; simp only [CState.at, if_pos]; exact lt1 (by decide))
    | env l => cases hs
    | call op => cases hs
  | lock c l k | findLock c l | namesLock c | feLock | hookLock c =>
    rw [hpc] at hs
    cases ch with
    | go =>
      simp only at hs
      split at hs
      · injection hs with hs; subst hs; simp only [CState.at, if_pos]; exact lt1 (by decide)
      · cases hs
    | env l => cases hs
    | call op => cases hs
  | _ =>
    rw [hpc] at hs
    cases ch with
    | go => injection hs with hs; subst hs; simp only [CState.at, CState.ev, if_pos]; exact lt1 (by decide)
    | env l => cases hs
    | call op => cases hs

/-- C54. No call runs for ever: in any infinite run of any threads, a thread that
stays inside a call takes only finitely many steps. -/
theorem C54_finite (f : Nat → CState) (who : Nat → Tid) (ch : Nat → Choice) (h0 : CReach nm (f 0))
    (hstep : ∀ n, cstep nm (who n) (ch n) (f n) = some (f (n + 1))) {t : Tid} {N : Nat}
    (hin : ∀ n, N ≤ n → (f n).pc t ≠ .idle) : ∃ M, ∀ n, M ≤ n → who n ≠ t := by
  have hreach : ∀ n, CReach nm (f n) := by
    intro n
    induction n with
    | zero => exact h0
    | succ n ih => exact .step _ _ ih (hstep n)
  have key : ∀ r : Nat × Nat, ∀ n, N ≤ n → rank (regs (f n).tr) ((f n).pc t) = r → ∃ M, ∀ n, M ≤ n → who n ≠ t := by
    intro r
    induction r using lexLt_wf.induction with
    | _ r ih =>
      intro n hn hr
      by_cases hex : ∃ k, who (n + k) = t
      · -- the first step of `t` from `n` on
        have : ∀ k, (∀ j, j < k → who (n + j) ≠ t) → rank (regs (f (n + k)).tr) ((f (n + k)).pc t) = r := by
          intro k
          induction k with
          | zero => intro _; exact hr
          | succ k ih' =>
            intro hj
            have e1 := ih' (fun j hjk => hj j (by omega))
            rw [← e1]
            exact rank_other (hreach (n + k)) (hstep (n + k)) (hj k (by omega))
        obtain ⟨k, hk, hmin⟩ : ∃ k, who (n + k) = t ∧ ∀ j, j < k → who (n + j) ≠ t := by
          obtain ⟨k, hk⟩ := hex
          induction k using Nat.strongRecOn with
          | _ k ihk =>
            by_cases hlt : ∃ j, j < k ∧ who (n + j) = t
            · obtain ⟨j, hj1, hj2⟩ := hlt
              exact ihk j hj1 hj2
            · exact ⟨k, hk, fun j hj hx => hlt ⟨j, hj, hx⟩⟩
        have hs := hstep (n + k)
        rw [hk] at hs
        have hlt := rank_own (hreach (n + k)) hs (hin (n + k) (by omega))
        rw [this k hmin] at hlt
        exact ih _ hlt (n + k + 1) (by omega) rfl
      · refine ⟨n, fun m hm hx => hex ⟨m - n, ?_⟩⟩
        rw [show n + (m - n) = m by omega]; exact hx
  exact key _ N (Nat.le_refl N) rfl

end Verif.Libulog
