import Verif.Tools.ShdMain
import Verif.Tools.PropsShdlogd

/-!
# C132: the program shdlogd
-/
namespace Verif.Tools.ShdMain
open Verif Verif.Ulogcat Verif.Libulog Verif.Tools Verif.Tools.Shdd

/-! ## What is held, and what was asked for -/

def isSect : Res → Bool
  | .sect _ => true
  | _ => false

/-- What is held after an event; `none`: something held is obtained again, something not held is
released, or samples are looked for in a section that is not the one held. -/
def heldStep (H : Option (List Res)) (e : MEv) : Option (List Res) :=
  match H, e with
  | none, _ => none
  | some H, .got r => if r ∈ H then none else some (r :: H)
  | some H, .freed r => if r ∈ H then some (H.erase r) else none
  | some H, .select (some c) => if .sect c ∈ H then some H else none
  | some H, .select none => if H.any isSect then none else some H
  | some H, _ => some H

def heldRes (evs : List MEv) : Option (List Res) := evs.foldl heldStep (some [])

/-- The last one, if any. -/
def lastOr {α : Type} (d : α) (l : List α) : α := l.getLast?.getD d

def periods : MOpt → Option Bytes
  | .period a => some a
  | _ => none

def sects : MOpt → Option Bytes
  | .sect a => some a
  | _ => none

def devices : MOpt → Option Bytes
  | .device a => some a
  | _ => none

def pnames : MOpt → Option Bytes
  | .pname a => some a
  | _ => none

/-- The period for an argument of `-p`. -/
def millis (a : Bytes) : Nat := ((atoi a).emod 4294967296).toNat

/-- The readings, one after the other (see C112). -/
def turns (fd : Int) : List Answers → Shdlogd → Option (Shdlogd × List DEv)
  | [], d => some (d, [])
  | a :: as, d =>
    match turn fd a d with
    | none => none
    | some (d, e) => (turns fd as d).map fun x => (x.1, e ++ x.2)

def ofDmn : MEv → Option DEv
  | .dmn e => some e
  | _ => none

/-- Nothing fails before the first reading. -/
structure Sys.Ok (w : Sys) : Prop where
  loop : w.loop = true
  timer : w.timer = true
  timerSet : 0 ≤ w.timerSet
  raw : 0 ≤ w.raw
  mem1 : w.mem1 = true
  mem2 : w.mem2 = true

/-! ## Options -/

theorem parse_all (os : List MOpt) : ∀ c : Conf,
    (parseOpts c os).2 = os.count .other ∧
    (parseOpts c os).1.period = lastOr c.period ((os.filterMap periods).map millis) ∧
    (parseOpts c os).1.sect = lastOr c.sect (os.filterMap sects) ∧
    (parseOpts c os).1.device = lastOr c.device ((os.filterMap devices).map some) ∧
    (parseOpts c os).1.pname = lastOr c.pname (os.filterMap pnames) := by
  induction os with
  | nil => intro c; exact ⟨rfl, rfl, rfl, rfl, rfl⟩
  | cons o os ih =>
    intro c
    have last : ∀ {α : Type} (d x : α) (l : List α), lastOr d (x :: l) = lastOr x l := by
      intro α d x l
      unfold lastOr
      rw [List.getLast?_cons]
      rfl
    cases o with
    | period a =>
      obtain ⟨h1, h2, h3, h4, h5⟩ := ih { c with period := millis a }
      refine ⟨h1.trans ?_, h2.trans ?_, h3, h4, h5⟩
      · simp
      · rw [show (MOpt.period a :: os).filterMap periods = a :: os.filterMap periods from rfl, List.map_cons, last]
    | sect a =>
      obtain ⟨h1, h2, h3, h4, h5⟩ := ih { c with sect := a }
      refine ⟨h1.trans ?_, h2, h3.trans ?_, h4, h5⟩
      · simp
      · rw [show (MOpt.sect a :: os).filterMap sects = a :: os.filterMap sects from rfl, last]
    | device a =>
      obtain ⟨h1, h2, h3, h4, h5⟩ := ih { c with device := some a }
      refine ⟨h1.trans ?_, h2, h3, h4.trans ?_, h5⟩
      · simp
      · rw [show (MOpt.device a :: os).filterMap devices = a :: os.filterMap devices from rfl, List.map_cons, last]
    | pname a =>
      obtain ⟨h1, h2, h3, h4, h5⟩ := ih { c with pname := a }
      refine ⟨h1.trans ?_, h2, h3, h4, h5.trans ?_⟩
      · simp
      · rw [show (MOpt.pname a :: os).filterMap pnames = a :: os.filterMap pnames from rfl, last]
    | other =>
      obtain ⟨h1, h2, h3, h4, h5⟩ := ih c
      refine ⟨?_, h2, h3, h4, h5⟩
      show (parseOpts c os).2 + 1 = _
      rw [h1]
      simp

/-- C132. Help or a bad option among the arguments: usage is printed once for each, nothing else is done,
the status is 0. -/
theorem C132_usage (w : Sys) {os : List MOpt} (h : .other ∈ os) (fs : List First) (ls : List Later) :
    main w os fs ls = some { evs := List.replicate (os.count .other) .usage, status := some 0 } := by
  have e := (parse_all os {}).1
  unfold main
  dsimp only
  rw [e, if_pos (by have := List.count_pos_iff.2 h; omega)]

/-! ## What stays true in the loops -/

theorem heldRes_append (a b : List MEv) : heldRes (a ++ b) = b.foldl heldStep (heldRes a) := List.foldl_append ..

theorem held_dmn (es : List DEv) (H : List Res) : (es.map MEv.dmn).foldl heldStep (some H) = some H := by
  induction es with
  | nil => rfl
  | cons e es ih => exact ih

/-- What is held during the readings. -/
def Holding (fd : Nat) (s : MSt) : Prop :=
  match s.ctx with
  | some c => heldRes s.evs = some [.stamps, .blobs, .sect c, .raw fd, .timer, .loop] ∨
      heldRes s.evs = some [.sect c, .stamps, .blobs, .raw fd, .timer, .loop]
  | none => heldRes s.evs = some [.stamps, .blobs, .raw fd, .timer, .loop]

theorem readOne_holding {cf : Conf} {w : Sys} {fd : Nat} {a : Answers} {s s' : MSt} {r : Option Nat} (h : Holding fd s)
    (e : readOne cf w fd a s = some (s', r)) : Holding fd s' := by
  unfold readOne at e
  split at e
  · cases e
  · rename_i d es r' _
    dsimp only at e
    have mid : ∀ H, heldRes s.evs = some H → heldStep (some H) (.select s.ctx) = some H →
        heldRes (s.evs ++ .select s.ctx :: es.map .dmn) = some H := by
      intro H h1 h2
      rw [heldRes_append, h1, List.foldl_cons, h2, held_dmn]
    split at e
    · cases e
      unfold Holding at h ⊢
      dsimp only
      cases hc : s.ctx with
      | none =>
        rw [hc] at h mid
        have h := mid _ h (by simp [heldStep, isSect])
        generalize hg : w.shd _ = x
        cases x with
        | none => rw [List.append_assoc, heldRes_append, h]; simp [heldStep, closed, opened]
        | some c => 
          refine .inr ?_
          rw [List.append_assoc, heldRes_append, h]; simp [heldStep, closed, opened]
      | some c =>
        rw [hc] at h mid
        have h : heldRes (s.evs ++ .select (some c) :: es.map .dmn) = some [.stamps, .blobs, .sect c, .raw fd, .timer, .loop] ∨
            heldRes (s.evs ++ .select (some c) :: es.map .dmn) = some [.sect c, .stamps, .blobs, .raw fd, .timer, .loop] := by
          rcases h with h | h
          · exact .inl (mid _ h (by simp [heldStep]))
          · exact .inr (mid _ h (by simp [heldStep]))
        generalize hg : w.shd _ = x
        cases x with
        | none =>
          rw [List.append_assoc, heldRes_append]
          rcases h with h | h <;> rw [h] <;> simp [heldStep, closed, opened]
        | some c' =>
          refine .inr ?_
          rw [List.append_assoc, heldRes_append]
          rcases h with h | h <;> rw [h] <;> simp [heldStep, closed, opened]
    · cases e
      unfold Holding at h ⊢
      dsimp only
      cases hc : s.ctx with
      | none => rw [hc] at h mid; exact mid _ h (by simp [heldStep, isSect])
      | some c =>
        rw [hc] at h mid
        rcases h with h | h
        · exact .inl (mid _ h (by simp [heldStep]))
        · exact .inr (mid _ h (by simp [heldStep]))

/-- A property of the state that the loops keep. -/
structure Kept (cf : Conf) (w : Sys) (fd : Nat) (P : MSt → Prop) : Prop where
  read : ∀ a s s' r, P s → readOne cf w fd a s = some (s', r) → P s'
  misc : ∀ s sig d e, P s → (e = [] ∨ e = [.failed] ∨ e = [.slept]) → (d = s.d ∨ d = { s.d with search := .firstAfter }) →
    P { s with sig, d, evs := s.evs ++ e }

def Phase.st : Phase → MSt
  | .running s => s
  | .ended s _ => s

theorem Kept.phase2 {cf : Conf} {w : Sys} {fd : Nat} {P : MSt → Prop} (K : Kept cf w fd P) (ls : List Later) :
    ∀ {s : MSt} {ok : Bool} {p : Phase}, P s → phase2 cf w fd ls s ok = some p → P p.st := by
  induction ls with
  | nil =>
    intro s ok p hs e
    unfold ShdMain.phase2 at e
    split at e <;> (cases e; exact hs)
  | cons l ls ih =>
    intro s ok p hs e
    unfold ShdMain.phase2 at e
    split at e
    · cases e; exact hs
    · split at e
      · cases e
      · rename_i s' he
        have : P s' := by
          cases hl : l.a with
          | none => rw [hl] at he; cases he; exact hs
          | some a =>
            rw [hl] at he
            dsimp only at he
            cases hr : readOne cf w fd a s with
            | none => rw [hr] at he; cases he
            | some x => rw [hr] at he; cases he; exact K.read _ _ _ x.2 hs hr
        refine ih ?_ e
        refine K.misc s' l.sig s'.d _ this ?_ (.inl rfl)
        split <;> simp

theorem Kept.phase1 {cf : Conf} {w : Sys} {fd : Nat} {P : MSt → Prop} (K : Kept cf w fd P) (ls : List Later) (fs : List First) :
    ∀ {s : MSt} {p : Phase}, P s → phase1 cf w fd ls fs s = some p → P p.st := by
  induction fs with
  | nil => intro s p hs e; cases e; exact hs
  | cons f fs ih =>
    intro s p hs e
    unfold ShdMain.phase1 at e
    split at e
    · cases e
    · rename_i s' r he
      have := K.read _ _ _ _ hs he
      split at e
      · cases e; exact this
      · have h2 := K.misc s' f.sig2 s'.d [.slept] this (by simp) (.inl rfl)
        cases r with
        | some _ => exact ih h2 e
        | none =>
          refine K.phase2 ls ?_ e
          exact K.misc s' f.sig2 { s'.d with search := .firstAfter } [.slept] this (by simp) (.inr rfl)

theorem kept_holding (cf : Conf) (w : Sys) (fd : Nat) : Kept cf w fd (Holding fd) where
  read _ _ _ _ h e := readOne_holding h e
  misc s sig d e h he _ := by
    have : ∀ H, heldRes s.evs = some H → heldRes (s.evs ++ e) = some H := by
      intro H h
      rw [heldRes_append, h]
      rcases he with rfl | rfl | rfl <;> rfl
    unfold Holding at h ⊢
    dsimp only
    cases hc : s.ctx with
    | none => rw [hc] at h; exact this _ h
    | some c =>
      rw [hc] at h
      rcases h with h | h
      · exact .inl (this _ h)
      · exact .inr (this _ h)

/-- The events before the first reading. -/
def before (cf : Conf) (fd c : Nat) : List MEv :=
  [.starting cf.period, .got .loop, .got .timer, .timerSet cf.period, .rawOpen cf.device, .got (.raw fd), .shdOpen cf.sect, .got (.sect c),
    .got .blobs, .got .stamps]

/-- All ways in which the program can go. -/
theorem main_cases {w : Sys} {os : List MOpt} {fs : List First} {ls : List Later} {out : Out} (h : main w os fs ls = some out) :
    (.other ∈ os ∧ out = { evs := List.replicate (os.count .other) .usage, status := some 0 }) ∨
    (.other ∉ os ∧ ∃ hv pre n fd c, out = { evs := finish hv (pre ++ [.failed]), status := some 1 } ∧
      pre = (before (parseOpts {} os).1 fd c).take n ∧ heldRes (finish hv (pre ++ [.failed])) = some [] ∧ n < 10) ∨
    (.other ∉ os ∧ ∃ c p, phase1 (parseOpts {} os).1 w w.raw.toNat ls fs
        { d := Shdlogd.start (parseOpts {} os).1.pname w.blobs w.stamps, ctx := some c, evs := before (parseOpts {} os).1 w.raw.toNat c, sig := false } =
          some p ∧
      ((∃ s, p = .running s ∧ out = { evs := s.evs, status := none, d := some s.d }) ∨
       (∃ s ok, p = .ended s ok ∧ out = { evs := finish { loop := true, timer := true, raw := some w.raw.toNat, ctx := s.ctx, blobs := true, stamps := true } s.evs, status := some (if ok then 0 else 1), d := some s.d }))) := by
  by_cases ho : .other ∈ os
  · rw [C132_usage w ho] at h
    cases h
    exact .inl ⟨ho, rfl⟩
  refine .inr ?_
  have e := (parse_all os {}).1
  rw [List.count_eq_zero.2 ho] at e
  unfold main at h
  dsimp only at h
  rw [e, if_neg (by simp)] at h
  split at h
  · cases h; exact .inl ⟨ho, _, [.starting _], 1, 0, 0, rfl, rfl, rfl, by omega⟩
  split at h
  · cases h; exact .inl ⟨ho, _, [.starting _, .got .loop], 2, 0, 0, rfl, rfl, rfl, by omega⟩
  split at h
  · cases h; exact .inl ⟨ho, _, [.starting _, .got .loop, .got .timer, .timerSet _], 4, 0, 0, rfl, rfl, rfl, by omega⟩
  split at h
  · cases h; exact .inl ⟨ho, _, [.starting _, .got .loop, .got .timer, .timerSet _, .rawOpen _], 5, 0, 0, rfl, rfl, rfl, by omega⟩
  split at h
  · cases h
    exact .inl ⟨ho, _, [.starting _, .got .loop, .got .timer, .timerSet _, .rawOpen _, .got (.raw w.raw.toNat), .shdOpen _], 7, w.raw.toNat, 0,
      rfl, rfl, by simp [heldRes, heldStep, finish], by omega⟩
  · rename_i c hc
    split at h
    · cases h
      exact .inl ⟨ho, _, [.starting _, .got .loop, .got .timer, .timerSet _, .rawOpen _, .got (.raw w.raw.toNat), .shdOpen _, .got (.sect c)], 8,
        w.raw.toNat, c, rfl, rfl, by simp [heldRes, heldStep, finish], by omega⟩
    split at h
    · cases h
      exact .inl ⟨ho, _, [.starting _, .got .loop, .got .timer, .timerSet _, .rawOpen _, .got (.raw w.raw.toNat), .shdOpen _, .got (.sect c),
        .got .blobs], 9, w.raw.toNat, c, rfl, rfl, by simp [heldRes, heldStep, finish], by omega⟩
    · split at h
      · cases h
      · rename_i s hs
        cases h
        exact .inr ⟨ho, c, _, hs, .inl ⟨s, rfl, rfl⟩⟩
      · rename_i s ok hs
        cases h
        exact .inr ⟨ho, c, _, hs, .inr ⟨s, ok, rfl, rfl⟩⟩

/-! ## The properties -/

/-- C132. However it ends, everything obtained has been released, nothing twice, and samples were looked
for only in the section open at that time. -/
theorem C132_released {w : Sys} {os : List MOpt} {fs : List First} {ls : List Later} {out : Out} (h : main w os fs ls = some out)
    {st : Nat} (hs : out.status = some st) : heldRes out.evs = some [] := by
  rcases main_cases h with ⟨_, rfl⟩ | ⟨_, hv, pre, n, fd, c, rfl, _, hh, _⟩ | ⟨_, c, p, hp, ⟨s, rfl, rfl⟩ | ⟨s, ok, rfl, rfl⟩⟩
  · dsimp only
    generalize os.count .other = n
    clear h hs
    induction n with
    | zero => rfl
    | succ n ih => exact ih
  · exact hh
  · cases hs
  · have hold : Holding w.raw.toNat s := (kept_holding _ w w.raw.toNat).phase1 ls fs (by
      unfold Holding
      dsimp only
      left
      simp [before, heldRes, heldStep]) hp
    unfold Holding at hold
    unfold finish
    dsimp only
    cases hc : s.ctx with
    | none =>
      rw [hc] at hold
      simp only [List.append_assoc, heldRes_append, hold]
      simp [heldStep]
    | some c =>
      rw [hc] at hold
      rcases hold with hold | hold <;> simp only [List.append_assoc, heldRes_append, hold] <;> simp [heldStep]

/-- C132. Something that fails before the first reading is reported and ends the program with status 1; no
sample is looked for. -/
theorem C132_setup {w : Sys} {os : List MOpt} (ho : .other ∉ os) {fs : List First} {ls : List Later}
    (hw : ¬ w.Ok ∨ ∀ evs, w.shd evs = none) :
    ∃ evs, main w os fs ls = some { evs, status := some 1 } ∧ MEv.failed ∈ evs ∧ ∀ c, .select c ∉ evs := by
  have e := (parse_all os {}).1
  rw [List.count_eq_zero.2 ho] at e
  unfold main
  dsimp only
  rw [e, if_neg (by simp)]
  have key : ∀ (hv : Have) (pre : List MEv), (∀ c, .select c ∉ pre) →
      MEv.failed ∈ finish hv (pre ++ [.failed]) ∧ ∀ c, .select c ∉ finish hv (pre ++ [.failed]) := by
    intro hv pre hp
    unfold finish
    refine ⟨by simp, fun c hc => ?_⟩
    simp only [List.mem_append, List.mem_singleton] at hc
    rcases hc with (((((hc | hc) | hc) | hc) | hc) | hc) | hc
    all_goals first
      | (rcases hc with hc | hc
         · exact hp c hc
         · cases hc)
      | (split at hc <;> simp at hc)
  split
  · exact ⟨_, rfl, key _ _ (by simp)⟩
  split
  · exact ⟨_, rfl, key _ _ (by simp)⟩
  split
  · exact ⟨_, rfl, key _ _ (by simp)⟩
  split
  · exact ⟨_, rfl, key _ _ (by simp)⟩
  split
  · exact ⟨_, rfl, key _ _ (by simp)⟩
  rename_i c hc
  split
  · exact ⟨_, rfl, key _ _ (by simp)⟩
  split
  · exact ⟨_, rfl, key _ _ (by simp)⟩
  exfalso
  rcases hw with hw | hw
  · exact hw ⟨by simpa using ‹¬ (!w.loop) = true›, by simpa using ‹¬ (!w.timer) = true›, by omega, by omega,
      by simpa using ‹¬ (!w.mem1) = true›, by simpa using ‹¬ (!w.mem2) = true›⟩
  · rw [hw] at hc; cases hc

/-- What an event says of the options. -/
def Agrees (os : List MOpt) : MEv → Prop
  | .starting p => p = lastOr 50 ((os.filterMap periods).map millis)
  | .timerSet p => p = lastOr 50 ((os.filterMap periods).map millis)
  | .rawOpen d => d = (os.filterMap devices).getLast?
  | .shdOpen n => n = lastOr (ascii "ulog") (os.filterMap sects)
  | .usage => .other ∈ os
  | _ => True

theorem kept_agrees (os : List MOpt) (w : Sys) (fd : Nat) :
    Kept (parseOpts {} os).1 w fd fun s => ∀ e ∈ s.evs, Agrees os e where
  read a s s' r h e := by
    unfold readOne at e
    split at e
    · cases e
    · rename_i d es r' _
      dsimp only at e
      have mid : ∀ e ∈ s.evs ++ .select s.ctx :: es.map MEv.dmn, Agrees os e := by
        intro e he
        simp only [List.mem_append, List.mem_cons, List.mem_map] at he
        rcases he with he | rfl | ⟨x, _, rfl⟩
        · exact h e he
        · trivial
        · trivial
      split at e
      · cases e
        intro e he
        dsimp only at he
        generalize hx : w.shd _ = x at he
        rcases List.mem_append.1 he with he | he
        · rcases List.mem_append.1 he with he | he
          · exact mid e he
          · simp only [List.mem_cons, List.not_mem_nil, or_false] at he
            rcases he with rfl | rfl
            · unfold closed; split <;> trivial
            · exact (parse_all os {}).2.2.1
        · cases x with
          | none => cases he
          | some c =>
            simp only [opened, List.mem_singleton] at he
            subst he
            trivial
      · cases e; exact mid
  misc s sig d e h he _ := by
    intro x hx
    dsimp only at hx
    rcases List.mem_append.1 hx with hx | hx
    · exact h x hx
    · rcases he with rfl | rfl | rfl
      · cases hx
      · simp only [List.mem_singleton] at hx; subst hx; trivial
      · simp only [List.mem_singleton] at hx; subst hx; trivial

/-- C132. The last of the arguments given for the period, the section and the device counts; without one
they are 50 ms, "ulog" and the default device. The section is opened again under the same name. -/
theorem C132_options {w : Sys} {os : List MOpt} {fs : List First} {ls : List Later} {out : Out} (h : main w os fs ls = some out) :
    ∀ e ∈ out.evs, Agrees os e := by
  obtain ⟨_, h2, h3, h4, _⟩ := parse_all os {}
  have dev : lastOr none ((os.filterMap devices).map some) = (os.filterMap devices).getLast? := by
    unfold lastOr
    rw [List.getLast?_map]
    cases (os.filterMap devices).getLast? <;> rfl
  have bef : ∀ fd c, ∀ e ∈ before (parseOpts {} os).1 fd c, Agrees os e := by
    intro fd c e he
    simp only [before, List.mem_cons, List.not_mem_nil, or_false] at he
    rcases he with rfl | rfl | rfl | rfl | rfl | rfl | rfl | rfl | rfl | rfl <;> first | trivial | exact h2 | exact h3 | exact h4.trans dev
  have fin : ∀ hv evs, (∀ e ∈ evs, Agrees os e) → ∀ e ∈ finish hv evs, Agrees os e := by
    intro hv evs h e he
    unfold finish at he
    simp only [List.mem_append] at he
    rcases he with (((((he | he) | he) | he) | he) | he) | he
    · exact h e he
    all_goals
      split at he
      · first | (simp only [List.mem_singleton] at he; subst he; trivial) | cases he
      · cases he
  rcases main_cases h with ⟨ho, rfl⟩ | ⟨_, hv, pre, n, fd, c, rfl, hp, _⟩ | ⟨_, c, p, hp, hq⟩
  · intro e he
    rw [(List.mem_replicate.1 he).2]
    exact ho
  · refine fin hv _ ?_
    intro e he
    rcases List.mem_append.1 he with he | he
    · exact bef fd c e (by rw [hp] at he; exact List.mem_of_mem_take he)
    · simp only [List.mem_singleton] at he
      subst he
      trivial
  · have := (kept_agrees os w w.raw.toNat).phase1 ls fs (bef _ c) hp
    rcases hq with ⟨s, rfl, rfl⟩ | ⟨s, ok, rfl, rfl⟩
    · exact this
    · exact fin _ _ this

/-! ## The readings -/

theorem turns_snoc {fd : Int} {as : List Answers} {d0 d1 d2 : Shdlogd} {e1 e2 : List DEv} {a : Answers} (h1 : turns fd as d0 = some (d1, e1))
    (h2 : turn fd a d1 = some (d2, e2)) : turns fd (as ++ [a]) d0 = some (d2, e1 ++ e2) := by
  induction as generalizing d0 e1 with
  | nil => cases h1; simp [turns, h2]
  | cons x as ih =>
    rw [List.cons_append]
    unfold turns at h1 ⊢
    cases hx : turn fd x d0 with
    | none => rw [hx] at h1; cases h1
    | some y =>
      rw [hx] at h1
      dsimp only at h1 ⊢
      cases hy : turns fd as y.1 with
      | none => rw [hy] at h1; cases h1
      | some z =>
        rw [hy] at h1
        simp only [Option.map_some, Option.some.injEq, Prod.mk.injEq] at h1
        rw [ih (d0 := y.1) (e1 := z.2) (by rw [hy, ← h1.1])]
        simp [← h1.2]

theorem forwardAll_stop {fd : Int} {pad : UInt8} {l : List (Blob × Nat)} {d d' : Shdlogd} {e : List DEv} (h : forwardAll fd pad d l = some (d', e)) :
    d'.stop = d.stop ∧ d'.search = d.search := by
  induction l generalizing d e with
  | nil => cases h; exact ⟨rfl, rfl⟩
  | cons x l ih =>
    unfold forwardAll at h
    unfold forwardOne at h
    split at h
    · cases h
    · rename_i d1 e1 h1
      split at h1
      · cases h1
      · cases h1
        split at h
        · cases h
        · rename_i d2 e2 h2
          cases h
          have := ih h2
          exact this

theorem readSamples_stop {fd : Int} {a : Answers} {d d' : Shdlogd} {es : List DEv} {r : Option Nat} (hd : d.stop = false)
    (h : readSamples fd a d = some (d', es, r)) :
    (r = none → d'.stop = false) ∧ (d'.stop = true → a.fin = some 19) ∧ d'.search = d.search := by
  unfold readSamples at h
  split at h
  · cases h
    refine ⟨fun _ => hd, ?_, rfl⟩
    intro h
    rw [hd] at h
    cases h
  · split at h
    · cases h
    · dsimp only at h
      split at h
      · rename_i e he
        cases h
        refine ⟨nofun, fun h => ?_, rfl⟩
        rw [hd] at h
        simp only [Bool.false_or, decide_eq_true_eq] at h
        rw [← h]
        exact he
      · split at h
        · cases h
        · split at h
          · cases h
          · rename_i d2 e2 h2
            obtain ⟨k1, k2⟩ := forwardAll_stop h2
            dsimp only at k1 k2
            split at h
            · cases h
            · cases h
              refine ⟨fun _ => k1.trans hd, ?_, k2⟩
              intro h
              have h : d2.stop = true := h
              rw [k1, hd] at h
              cases h

theorem readOne_turn {cf : Conf} {w : Sys} {fd : Int} {a : Answers} {s s' : MSt} {r : Option Nat} (hd : s.d.stop = false)
    (e : readOne cf w fd a s = some (s', r)) :
    ∃ es, turn fd a s.d = some (if r = none then { s'.d with search := .firstAfter } else s'.d, es) ∧
      s'.evs.filterMap ofDmn = s.evs.filterMap ofDmn ++ es ∧ s'.sig = s.sig ∧ (r = none → s'.d.stop = false) ∧
      (s'.d.stop = true → a.fin = some 19) ∧ s'.d.search = s.d.search := by
  have ofd : ∀ es : List DEv, (es.map MEv.dmn).filterMap ofDmn = es := by
    intro es
    induction es with
    | nil => rfl
    | cons e es ih => rw [List.map_cons, List.filterMap_cons, ih]; rfl
  unfold readOne at e
  unfold turn
  rw [hd, if_neg (by simp)]
  cases hr : readSamples fd a s.d with
  | none => rw [hr] at e; cases e
  | some x =>
    obtain ⟨d, es, r'⟩ := x
    rw [hr] at e
    dsimp only at e
    have stops : (r' = none → d.stop = false) ∧ (d.stop = true → a.fin = some 19) ∧ d.search = s.d.search := by
      exact readSamples_stop hd hr
    have evs : ∀ c : List MEv, (∀ x ∈ c, ofDmn x = none) →
        (s.evs ++ MEv.select s.ctx :: es.map MEv.dmn ++ c).filterMap ofDmn = s.evs.filterMap ofDmn ++ es := by
      intro c hc
      rw [List.filterMap_append, List.filterMap_append, List.filterMap_eq_nil_iff.2 hc, List.append_nil, List.filterMap_cons]
      show _ ++ (es.map MEv.dmn).filterMap ofDmn = _
      rw [ofd]
    have res : (match some (d, es, r') with
        | none => none
        | some (d', e, none) => some ({ d' with search := .firstAfter }, e)
        | some (d', e, some _) => some (d', e)) = some (if r' = none then { d with search := .firstAfter } else d, es) := by
      cases r' <;> rfl
    split at e
    · cases e
      refine ⟨es, res, ?_, rfl, stops⟩
      dsimp only
      rw [List.append_assoc]
      refine evs _ ?_
      intro x hx
      rcases List.mem_append.1 hx with hx | hx
      · simp only [List.mem_cons, List.not_mem_nil, or_false] at hx
        rcases hx with rfl | rfl
        · unfold closed; split <;> rfl
        · rfl
      · generalize w.shd _ = y at hx
        cases y with
        | none => cases hx
        | some c => simp only [opened, List.mem_singleton] at hx; subst hx; rfl
    · cases e
      refine ⟨es, res, ?_, rfl, stops⟩
      have := evs [] (by simp)
      rw [List.append_nil] at this
      exact this

theorem phase2_turns {cf : Conf} {w : Sys} {fd : Int} (d0 : Shdlogd) (ls : List Later) : ∀ {s : MSt} {ok : Bool} {p : Phase} {as : List Answers},
    turns fd as d0 = some (s.d, s.evs.filterMap ofDmn) → s.d.search = .firstAfter → phase2 cf w fd ls s ok = some p →
    ∃ j d, turns fd (as ++ (ls.filterMap Later.a).take j) d0 = some (d, p.st.evs.filterMap ofDmn) := by
  induction ls with
  | nil =>
    intro s ok p as h _ e
    unfold phase2 at e
    split at e <;> (cases e; exact ⟨0, s.d, by simpa [Phase.st] using h⟩)
  | cons l ls ih =>
    intro s ok p as h hf e
    unfold phase2 at e
    split at e
    · cases e; exact ⟨0, s.d, by simpa [Phase.st] using h⟩
    · rename_i hst
      have hd : s.d.stop = false := by
        cases hx : s.d.stop with
        | false => rfl
        | true => rw [hx] at hst; simp at hst
      have none_of : ∀ e : List MEv, (e = [] ∨ e = [.failed]) → e.filterMap ofDmn = [] := by
        rintro e (rfl | rfl) <;> rfl
      have hf' : ∀ r : Int, (if r < 0 then [MEv.failed] else []).filterMap ofDmn = [] := by
        intro r; split <;> rfl
      split at e
      · cases e
      · rename_i s' he
        cases hl : l.a with
        | none =>
          rw [hl] at he
          cases he
          obtain ⟨j, d, hj⟩ := ih (s := { s with sig := l.sig, evs := s.evs ++ if l.ret < 0 then [.failed] else [] }) (as := as) (by
            dsimp only
            rw [List.filterMap_append, hf', List.append_nil]
            exact h) hf e
          exact ⟨j, d, by rw [List.filterMap_cons, hl]; exact hj⟩
        | some a =>
          rw [hl] at he
          dsimp only at he
          cases hr : readOne cf w fd a s with
          | none => rw [hr] at he; cases he
          | some x =>
            rw [hr] at he
            cases he
            obtain ⟨es, t1, t2, _, _, _, t6⟩ := readOne_turn hd (r := x.2) hr
            have hs : x.1.d.search = .firstAfter := t6.trans hf
            have hx : (if x.2 = none then { x.1.d with search := .firstAfter } else x.1.d) = x.1.d := by
              split
              · rw [← hs]
              · rfl
            rw [hx] at t1
            obtain ⟨j, d, hj⟩ := ih (s := { x.1 with sig := l.sig, evs := x.1.evs ++ if l.ret < 0 then [.failed] else [] }) (as := as ++ [a]) (by
              dsimp only
              rw [List.filterMap_append, hf', List.append_nil, t2]
              exact turns_snoc h t1) hs e
            refine ⟨j + 1, d, ?_⟩
            rw [List.filterMap_cons, hl]
            simpa using hj

theorem phase1_turns {cf : Conf} {w : Sys} {fd : Int} (d0 : Shdlogd) (ls : List Later) (fs : List First) : ∀ {s : MSt} {p : Phase} {as : List Answers},
    turns fd as d0 = some (s.d, s.evs.filterMap ofDmn) → s.d.stop = false → phase1 cf w fd ls fs s = some p →
    ∃ k j d, turns fd (as ++ (fs.map First.a).take k ++ (ls.filterMap Later.a).take j) d0 = some (d, p.st.evs.filterMap ofDmn) := by
  induction fs with
  | nil => intro s p as h _ e; cases e; exact ⟨0, 0, s.d, by simpa [Phase.st] using h⟩
  | cons f fs ih =>
    intro s p as h hd e
    unfold phase1 at e
    split at e
    · cases e
    · rename_i s' r he
      obtain ⟨es, t1, t2, _, _, _, t6⟩ := readOne_turn hd he
      have hsn := turns_snoc h t1
      rw [← t2] at hsn
      split at e
      · cases e
        exact ⟨1, 0, _, by simpa [Phase.st] using hsn⟩
      · rename_i hst
        have hd' : s'.d.stop = false := by
          cases hx : s'.d.stop with
          | false => rfl
          | true => rw [hx] at hst; simp at hst
        have hev : (s'.evs ++ [MEv.slept]).filterMap ofDmn = s'.evs.filterMap ofDmn := by
          rw [List.filterMap_append]
          exact List.append_nil _
        cases r with
        | some x =>
          rw [if_neg (by simp)] at hsn
          obtain ⟨k, j, d, hj⟩ := ih (s := { s' with sig := f.sig2, evs := s'.evs ++ [.slept] }) (as := as ++ [f.a]) (by dsimp only; rw [hev]; exact hsn) hd' e
          exact ⟨k + 1, j, d, by simpa using hj⟩
        | none =>
          rw [if_pos rfl] at hsn
          obtain ⟨j, d, hj⟩ := phase2_turns d0 ls
            (s := { s' with sig := f.sig2, evs := s'.evs ++ [.slept], d := { s'.d with search := .firstAfter } }) (as := as ++ [f.a])
            (by dsimp only; rw [hev]; exact hsn) rfl e
          exact ⟨1, j, d, by simpa using hj⟩

theorem finish_dmn (hv : Have) (evs : List MEv) : (finish hv evs).filterMap ofDmn = evs.filterMap ofDmn := by
  unfold finish
  simp only [List.filterMap_append]
  have h1 : ∀ (b : Bool) (r : Res), (if b then [MEv.freed r] else []).filterMap ofDmn = [] := by intro b r; cases b <;> rfl
  rw [h1, h1, h1, h1]
  cases hv.ctx <;> cases hv.raw <;> simp [ofDmn]

/-- C132. What the program writes to the log and announces is what the readings of C112 do, one after the
other, beginning with the oldest sample and the process name of the last `-n` or "rtos". -/
theorem C132_daemon {w : Sys} {os : List MOpt} {fs : List First} {ls : List Later} {out : Out} (h : main w os fs ls = some out) :
    ∃ k j d, turns w.raw.toNat ((fs.map First.a).take k ++ (ls.filterMap Later.a).take j)
      (Shdlogd.start (lastOr (ascii "rtos") (os.filterMap pnames)) w.blobs w.stamps) = some (d, out.evs.filterMap ofDmn) := by
  have hpn := (parse_all os {}).2.2.2.2
  have nil : ∀ l : List MEv, (∀ e ∈ l, ofDmn e = none) → l.filterMap ofDmn = [] := fun l h => List.filterMap_eq_nil_iff.2 h
  rcases main_cases h with ⟨ho, rfl⟩ | ⟨_, hv, pre, n, fd, c, rfl, hp, _⟩ | ⟨_, c, p, hp, hq⟩
  · refine ⟨0, 0, Shdlogd.start (lastOr (ascii "rtos") (os.filterMap pnames)) w.blobs w.stamps, ?_⟩
    dsimp only
    rw [nil _ (fun e he => by rw [(List.mem_replicate.1 he).2]; rfl)]
    simp [turns]
  · refine ⟨0, 0, Shdlogd.start (lastOr (ascii "rtos") (os.filterMap pnames)) w.blobs w.stamps, ?_⟩
    dsimp only
    rw [finish_dmn, nil]
    · simp [turns]
    · intro e he
      rcases List.mem_append.1 he with he | he
      · have := List.mem_of_mem_take (hp ▸ he)
        simp only [before, List.mem_cons, List.not_mem_nil, or_false] at this
        rcases this with rfl | rfl | rfl | rfl | rfl | rfl | rfl | rfl | rfl | rfl <;> rfl
      · simp only [List.mem_singleton] at he
        subst he
        rfl
  · obtain ⟨k, j, d, hj⟩ := phase1_turns (Shdlogd.start (parseOpts {} os).1.pname w.blobs w.stamps) ls fs (as := []) rfl rfl hp
    rw [hpn] at hj
    refine ⟨k, j, d, ?_⟩
    rw [List.nil_append] at hj
    rcases hq with ⟨s, rfl, rfl⟩ | ⟨s, ok, rfl, rfl⟩
    · exact hj
    · dsimp only
      rw [finish_dmn]
      exact hj

/-! ## How it ends -/

theorem stop_false {s : MSt} {b : Bool} (h : ¬ (s.sig || b || s.d.stop) = true) : s.sig = false ∧ b = false ∧ s.d.stop = false := by
  cases h1 : s.sig <;> cases h2 : b <;> cases h3 : s.d.stop <;> simp_all

theorem phase2_ended {cf : Conf} {w : Sys} {fd : Int} (ls : List Later) : ∀ {s s' : MSt} {ok ok' : Bool}, s.sig = false → s.d.stop = false →
    phase2 cf w fd ls s ok = some (.ended s' ok') → ∃ l ∈ ls, (l.sig = true ∨ ∃ a, l.a = some a ∧ a.fin = some 19) ∧ ok' = decide (l.ret = 0) := by
  induction ls with
  | nil => intro s s' ok ok' h1 h2 e; simp [phase2, h1, h2] at e
  | cons l ls ih =>
    intro s s' ok ok' h1 h2 e
    unfold phase2 at e
    rw [h1, h2, if_neg (by simp)] at e
    split at e
    · cases e
    · rename_i s1 he
      have hs1 : s1.d.stop = true → ∃ a, l.a = some a ∧ a.fin = some 19 := by
        intro hs
        cases hl : l.a with
        | none => rw [hl] at he; cases he; rw [h2] at hs; cases hs
        | some a =>
          rw [hl] at he
          dsimp only at he
          cases hr : readOne cf w fd a s with
          | none => rw [hr] at he; cases he
          | some x =>
            rw [hr] at he
            cases he
            obtain ⟨_, _, _, _, _, t5, _⟩ := readOne_turn h2 (r := x.2) hr
            exact ⟨a, rfl, t5 hs⟩
      by_cases hx : l.sig = true ∨ s1.d.stop = true
      · have e2 : phase2 cf w fd ls { s1 with sig := l.sig, evs := s1.evs ++ if l.ret < 0 then [.failed] else [] } (decide (l.ret = 0)) =
            some (.ended { s1 with sig := l.sig, evs := s1.evs ++ if l.ret < 0 then [.failed] else [] } (decide (l.ret = 0))) := by
          have hb : (l.sig || s1.d.stop) = true := by simpa using hx
          cases ls with
          | nil => unfold phase2; rw [if_pos hb]
          | cons _ _ => unfold phase2; rw [if_pos hb]
        rw [e2] at e
        cases e
        refine ⟨l, by simp, ?_, rfl⟩
        rcases hx with hx | hx
        · exact .inl hx
        · exact .inr (hs1 hx)
      · have h3 : l.sig = false := by cases hq : l.sig <;> simp_all
        have h4 : s1.d.stop = false := by cases hq : s1.d.stop <;> simp_all
        obtain ⟨l', hm, hp⟩ := ih (s := { s1 with sig := l.sig, evs := s1.evs ++ if l.ret < 0 then [.failed] else [] }) h3 h4 e
        exact ⟨l', List.mem_cons_of_mem _ hm, hp⟩

/-- No samples found, or the reading ended with an error. -/
def _root_.Verif.Tools.Shdd.Answers.Fails (a : Answers) : Prop := ¬ ((∃ ts, a.sel = .found ts) ∧ a.fin = none)

theorem readOne_fails {cf : Conf} {w : Sys} {fd : Int} {a : Answers} {s s' : MSt} {x : Nat} (e : readOne cf w fd a s = some (s', some x)) :
    a.Fails := by
  rintro ⟨⟨ts, h1⟩, h2⟩
  have key : ∀ d es r, readSamples fd a s.d = some (d, es, r) → r = none := by
    intro d es r h
    unfold readSamples at h
    rw [h1, h2] at h
    dsimp only at h
    split at h
    · cases h
    · split at h
      · cases h
      · split at h
        · cases h
        · split at h <;> cases h
          rfl
  unfold readOne at e
  split at e
  · cases e
  · rename_i d es r hr
    have := key _ _ _ hr
    subst this
    dsimp only at e
    split at e <;> cases e

theorem phase1_ended {cf : Conf} {w : Sys} {fd : Int} (ls : List Later) (fs : List First) : ∀ {s s' : MSt} {ok : Bool}, s.d.stop = false →
    phase1 cf w fd ls fs s = some (.ended s' ok) →
    (s.sig = true ∨ ∃ f ∈ fs, f.sig = true ∨ (f.sig2 = true ∧ (ok = true ∨ f.a.Fails)) ∨ f.a.fin = some 19) ∨
      ∃ l ∈ ls, (l.sig = true ∨ ∃ a, l.a = some a ∧ a.fin = some 19) ∧ ok = decide (l.ret = 0) := by
  induction fs with
  | nil => intro s s' ok _ e; cases e
  | cons f fs ih =>
    intro s s' ok hd e
    unfold phase1 at e
    split at e
    · cases e
    · rename_i s1 r he
      obtain ⟨_, _, _, t3, _, t5, _⟩ := readOne_turn hd he
      split at e
      · rename_i hst
        simp only [Bool.or_eq_true] at hst
        left
        rcases hst with (h | h) | h
        · exact .inl (t3 ▸ h)
        · exact .inr ⟨f, by simp, .inl h⟩
        · exact .inr ⟨f, by simp, .inr (.inr (t5 h))⟩
      · rename_i hst
        obtain ⟨_, _, h3⟩ := stop_false hst
        cases r with
        | some x =>
          have := ih (s := { s1 with sig := f.sig2, evs := s1.evs ++ [.slept] }) h3 e
          rcases this with (h | ⟨f', hm, h⟩) | h
          · exact .inl (.inr ⟨f, by simp, .inr (.inl ⟨h, .inr (readOne_fails he)⟩)⟩)
          · exact .inl (.inr ⟨f', List.mem_cons_of_mem _ hm, h⟩)
          · exact .inr h
        | none =>
          by_cases hs : f.sig2 = true
          · refine .inl (.inr ⟨f, by simp, .inr (.inl ⟨hs, .inl ?_⟩)⟩)
            dsimp only at e
            have hb : (f.sig2 || s1.d.stop) = true := by simp [hs]
            cases ls with
            | nil => unfold phase2 at e; rw [if_pos hb] at e; cases e; rfl
            | cons _ _ => unfold phase2 at e; rw [if_pos hb] at e; cases e; rfl
          · exact .inr (phase2_ended ls (s := { s1 with sig := f.sig2, evs := s1.evs ++ [.slept], d := { s1.d with search := .firstAfter } })
              (by simpa using hs) h3 e)

/-- C132. Once it reads, the program ends only after a signal or after `ENODEV` at the end of a reading; errors
of anything else, the loop and the section opened again included, do not end it. -/
theorem C132_goes_on {w : Sys} {os : List MOpt} {fs : List First} {ls : List Later} {out : Out} (h : main w os fs ls = some out)
    {d : Shdlogd} (hd : out.d = some d) {st : Nat} (hs : out.status = some st) :
    (∃ f ∈ fs, f.sig = true ∨ f.sig2 = true ∨ f.a.fin = some 19) ∨ ∃ l ∈ ls, l.sig = true ∨ ∃ a, l.a = some a ∧ a.fin = some 19 := by
  rcases main_cases h with ⟨ho, rfl⟩ | ⟨_, hv, pre, n, fd, c, rfl, hp, _⟩ | ⟨_, c, p, hp, ⟨s, rfl, rfl⟩ | ⟨s, ok, rfl, rfl⟩⟩
  · cases hd
  · cases hd
  · cases hs
  · rcases phase1_ended ls fs rfl hp with (h | h) | ⟨l, hl, h, _⟩
    · cases h
    · obtain ⟨f, hm, h⟩ := h
      refine .inl ⟨f, hm, ?_⟩
      rcases h with h | h | h
      · exact .inl h
      · exact .inr (.inl h.1)
      · exact .inr (.inr h)
    · exact .inr ⟨l, hl, h⟩

/-- C132. The status is 0 if it is stopped after the first success, be it at once, and every wait of the loop
succeeds. -/
theorem C132_status {w : Sys} {os : List MOpt} {fs : List First} {ls : List Later} {out : Out} (h : main w os fs ls = some out)
    {d : Shdlogd} (hd : out.d = some d) {st : Nat} (hs : out.status = some st)
    (hf : ∀ f ∈ fs, f.sig = false ∧ (f.sig2 = true → (∃ ts, f.a.sel = .found ts) ∧ f.a.fin = none) ∧ f.a.fin ≠ some 19) (hl : ∀ l ∈ ls, l.ret = 0) : st = 0 := by
  rcases main_cases h with ⟨ho, rfl⟩ | ⟨_, hv, pre, n, fd, c, rfl, hp, _⟩ | ⟨_, c, p, hp, ⟨s, rfl, rfl⟩ | ⟨s, ok, rfl, rfl⟩⟩
  · cases hd
  · cases hd
  · cases hs
  · rcases phase1_ended ls fs rfl hp with (h | ⟨f, hm, h⟩) | ⟨l, hm, _, h⟩
    · cases h
    · obtain ⟨h1, h2, h3⟩ := hf f hm
      rcases h with h | h | h
      · rw [h1] at h; cases h
      · rcases h with ⟨g, h | h⟩
        · simp only [Option.some.injEq] at hs
          rw [← hs, h]
          rfl
        · exact absurd (h2 g) h
      · exact absurd h h3
    · rw [hl l hm] at h
      simp only [Option.some.injEq] at hs
      rw [← hs, h]
      rfl

theorem phase2_signal {cf : Conf} {w : Sys} {fd : Int} (ls : List Later) : ∀ {s s' : MSt} {ok : Bool}, (∃ l ∈ ls, l.sig = true) →
    phase2 cf w fd ls s ok ≠ some (.running s') := by
  induction ls with
  | nil => rintro _ _ _ ⟨_, h, _⟩; cases h
  | cons l ls ih =>
    intro s s' ok ⟨m, hm, hs⟩ e
    unfold phase2 at e
    split at e
    · cases e
    · split at e
      · cases e
      · rename_i s1 _
        by_cases hl : l.sig = true
        · cases ls with
          | nil => unfold phase2 at e; simp [hl] at e
          | cons _ _ => unfold phase2 at e; simp [hl] at e
        · rcases List.mem_cons.1 hm with rfl | hm
          · exact hl hs
          · exact ih ⟨m, hm, hs⟩ e

theorem phase1_signal {cf : Conf} {w : Sys} {fd : Int} (ls : List Later) (fs : List First) : ∀ {s s' : MSt}, (∃ f ∈ fs, f.sig = true) →
    (∃ l ∈ ls, l.sig = true) → phase1 cf w fd ls fs s ≠ some (.running s') := by
  induction fs with
  | nil => rintro _ _ ⟨_, h, _⟩; cases h
  | cons f fs ih =>
    intro s s' ⟨m, hm, hs⟩ hl e
    unfold phase1 at e
    split at e
    · cases e
    · rename_i s1 r _
      split at e
      · cases e
      · rename_i hst
        obtain ⟨_, h2, _⟩ := stop_false hst
        rcases List.mem_cons.1 hm with rfl | hm
        · rw [h2] at hs; cases hs
        · cases r with
          | some _ => exact ih ⟨m, hm, hs⟩ hl e
          | none => exact phase2_signal ls hl e

/-- C132. A signal, whether before or after the first success, ends it. -/
theorem C132_signal {w : Sys} {os : List MOpt} {fs : List First} {ls : List Later} {out : Out} (h : main w os fs ls = some out)
    (hf : ∃ f ∈ fs, f.sig = true) (hl : ∃ l ∈ ls, l.sig = true) : out.status.isSome = true := by
  rcases main_cases h with ⟨ho, rfl⟩ | ⟨_, hv, pre, n, fd, c, rfl, hp, _⟩ | ⟨_, c, p, hp, ⟨s, rfl, rfl⟩ | ⟨s, ok, rfl, rfl⟩⟩
  · rfl
  · rfl
  · exact absurd hp (phase1_signal ls fs hf hl)
  · rfl

/-- C132. If the section can always be opened again, the null pointer is not used as one. -/
theorem C132_context {w : Sys} (hw : ∀ evs, (w.shd evs).isSome = true) {os : List MOpt} {fs : List First} {ls : List Later} {out : Out}
    (h : main w os fs ls = some out) : .select none ∉ out.evs ∧ .closedNull ∉ out.evs := by
  let P : MSt → Prop := fun s => s.ctx.isSome = true ∧ .select none ∉ s.evs ∧ .closedNull ∉ s.evs
  have K : Kept (parseOpts {} os).1 w w.raw.toNat P := by
    constructor
    · rintro a s s' r ⟨h1, h2, h3⟩ e
      obtain ⟨c, hc⟩ := Option.isSome_iff_exists.1 h1
      unfold readOne at e
      split at e
      · cases e
      · rename_i d es r' _
        dsimp only at e
        split at e
        · cases e
          refine ⟨hw _, ?_, ?_⟩ <;> dsimp only <;> rw [hc]
          · obtain ⟨c', hx⟩ := Option.isSome_iff_exists.1 (hw (s.evs ++ MEv.select (some c) :: List.map MEv.dmn es ++ [closed (some c), MEv.shdOpen (parseOpts {} os).1.sect]))
            rw [hx]
            simp [opened, closed, h2]
          · obtain ⟨c', hx⟩ := Option.isSome_iff_exists.1 (hw (s.evs ++ MEv.select (some c) :: List.map MEv.dmn es ++ [closed (some c), MEv.shdOpen (parseOpts {} os).1.sect]))
            rw [hx]
            simp [opened, closed, h3]
        · cases e
          refine ⟨h1, ?_, ?_⟩ <;> dsimp only <;> rw [hc]
          · simp [h2]
          · simp [h3]
    · rintro s sig d e ⟨h1, h2, h3⟩ he _
      refine ⟨h1, ?_, ?_⟩ <;> dsimp only <;> rcases he with rfl | rfl | rfl <;> simp [h2, h3]
  have fin : ∀ hv (evs : List MEv), .select none ∉ evs ∧ .closedNull ∉ evs → .select none ∉ finish hv evs ∧ .closedNull ∉ finish hv evs := by
    rintro hv evs ⟨h1, h2⟩
    unfold finish
    cases hv.stamps <;> cases hv.blobs <;> cases hv.ctx <;> cases hv.raw <;> cases hv.timer <;> cases hv.loop <;> simp [h1, h2]
  have bef : ∀ cf fd c n, .select none ∉ (before cf fd c).take n ∧ .closedNull ∉ (before cf fd c).take n := by
    intro cf fd c n
    refine ⟨fun h => ?_, fun h => ?_⟩ <;> (have := List.mem_of_mem_take h; simp [before] at this)
  rcases main_cases h with ⟨ho, rfl⟩ | ⟨_, hv, pre, n, fd, c, rfl, hp, _⟩ | ⟨_, c, p, hp, hq⟩
  · simp
  · refine fin hv _ ?_
    rw [hp]
    have := bef (parseOpts {} os).1 fd c n
    simp [this]
  · have := K.phase1 ls fs (s := { d := Shdlogd.start (parseOpts {} os).1.pname w.blobs w.stamps, ctx := some c, evs := before (parseOpts {} os).1 w.raw.toNat c, sig := false })
      ⟨rfl, by simp [before], by simp [before]⟩ hp
    rcases hq with ⟨s, rfl, rfl⟩ | ⟨s, ok, rfl, rfl⟩
    · exact this.2
    · exact fin _ _ this.2

/-! ## Where it goes wrong -/

theorem main_ok {w : Sys} (hw : w.Ok) {os : List MOpt} (ho : .other ∉ os) {c : Nat}
    (hc : ∀ evs, .dmn .reopen ∉ evs → w.shd evs = some c) (fs : List First) (ls : List Later) :
    main w os fs ls = match phase1 (parseOpts {} os).1 w w.raw.toNat ls fs
        { d := Shdlogd.start (parseOpts {} os).1.pname w.blobs w.stamps, ctx := some c, evs := before (parseOpts {} os).1 w.raw.toNat c, sig := false } with
      | none => none
      | some (.running s) => some { evs := s.evs, status := none, d := some s.d }
      | some (.ended s ok) => some { evs := finish { loop := true, timer := true, raw := some w.raw.toNat, ctx := s.ctx, blobs := true, stamps := true } s.evs, status := some (if ok then 0 else 1), d := some s.d } := by
  have e := (parse_all os {}).1
  rw [List.count_eq_zero.2 ho] at e
  unfold main
  dsimp only
  rw [e, if_neg (by simp), hw.loop, hw.timer, hw.mem1, hw.mem2]
  have h1 := hw.timerSet
  have h2 := hw.raw
  rw [if_neg (by simp), if_neg (by simp), if_neg (by omega), if_neg (by omega), hc _ (by simp)]
  dsimp only
  rw [if_neg (by simp), if_neg (by simp)]
  rfl

/-- C132 is false of the status: stopped by a signal while there is no message yet, it ends with 1. -/
theorem C132_false_early {w : Sys} (hw : w.Ok) {os : List MOpt} (ho : .other ∉ os) {c : Nat}
    (hc : ∀ evs, .dmn .reopen ∉ evs → w.shd evs = some c) {f : First} (hf : f.a.sel = .fail 2) (hs : f.sig = true) (fs : List First) (ls : List Later) :
    ∃ out, main w os (f :: fs) ls = some out ∧ out.status = some 1 := by
  rw [main_ok hw ho hc]
  unfold phase1 readOne readSamples
  rw [hf]
  dsimp only
  rw [if_neg (by simp), hs]
  exact ⟨_, rfl, rfl⟩

theorem readOne_gone {cf : Conf} {w : Sys} {fd : Int} {a : Answers} {s : MSt} (ha : a.sel = .fail 19)
    (hn : ∀ evs, .dmn .reopen ∈ evs → w.shd evs = none) :
    readOne cf w fd a s = some ({ s with ctx := none, evs := s.evs ++ .select s.ctx :: [.dmn .failed, .dmn .reopen, closed s.ctx, .shdOpen cf.sect] }, some 19) := by
  unfold readOne readSamples
  rw [ha]
  dsimp only
  rw [if_pos rfl, if_pos rfl, hn _ (by simp)]
  simp [opened]

/-- C132 is false of a section that cannot be opened again: the null pointer is given to `shd_select_samples`,
and to `shd_close` if the answer is `ENODEV` again. -/
theorem C132_false_null {w : Sys} (hw : w.Ok) {os : List MOpt} (ho : .other ∉ os) {c : Nat}
    (hc : ∀ evs, .dmn .reopen ∉ evs → w.shd evs = some c) (hn : ∀ evs, .dmn .reopen ∈ evs → w.shd evs = none) {f g : First}
    (hf : f.a.sel = .fail 19) (hs : f.sig = false) (hg : g.a.sel = .fail 19) (ls : List Later) :
    ∃ out, main w os [f, g] ls = some out ∧ .select none ∈ out.evs ∧ .closedNull ∈ out.evs := by
  rw [main_ok hw ho hc]
  unfold phase1
  rw [readOne_gone hf hn, hs]
  simp only [Shdlogd.start, Bool.or_self, Bool.false_eq_true, if_false]
  unfold phase1
  rw [readOne_gone hg hn]
  dsimp only
  cases hx : f.sig2 <;> cases hy : g.sig <;> simp [phase1, closed, finish]

/-- C132 is false of the status: if the wait that a signal interrupts returns an error, it ends with 1. -/
theorem C132_false_interrupted {w : Sys} {os : List MOpt} {fs : List First} {ls : List Later} {out : Out}
    (h : main w os fs ls = some out) {d : Shdlogd} (hd : out.d = some d) {st : Nat} (hs : out.status = some st)
    (hf : ∀ f ∈ fs, f.sig = false ∧ f.sig2 = false ∧ f.a.fin ≠ some 19) (hl : ∀ l ∈ ls, l.sig = true → l.ret ≠ 0)
    (hn : ∀ l ∈ ls, ∀ a, l.a = some a → a.fin ≠ some 19) : st = 1 := by
  rcases main_cases h with ⟨ho, rfl⟩ | ⟨_, hv, pre, n, fd, c, rfl, hp, _⟩ | ⟨_, c, p, hp, ⟨s, rfl, rfl⟩ | ⟨s, ok, rfl, rfl⟩⟩
  · cases hd
  · cases hd
  · cases hs
  · rcases phase1_ended ls fs rfl hp with (h | ⟨f, hm, h⟩) | ⟨l, hm, h1, h⟩
    · cases h
    · obtain ⟨h1, h2, h3⟩ := hf f hm
      rcases h with h | h | h
      · rw [h1] at h; cases h
      · rw [h2] at h; cases h.1
      · exact absurd h h3
    · rcases h1 with h1 | ⟨a, ha, h1⟩
      · have := hl l hm h1
        simp only [Option.some.injEq] at hs
        rw [← hs, h]
        simp [this]
      · exact absurd h1 (hn l hm a ha)

end Verif.Tools.ShdMain
