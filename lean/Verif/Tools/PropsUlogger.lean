import Verif.Tools.Ulogger
import Verif.Libulog.PropsEnd
import Verif.Ulogcat.PropsKlog

/-! # The shell command (C86-C89) -/
namespace Verif.Tools
open Verif Verif.Kernel Verif.Libulog Verif.Ulogcat

/-! ## Specification -/

/-- A message to log: seconds, nanoseconds, text. -/
abbrev LgMsg := UInt32 × UInt32 × Bytes

/-- Who logs and how: pid, name, tag, level, copy on standard error. -/
structure Who where
  pid : UInt32
  name : Bytes
  tag : Bytes
  level : Nat
  copy : Bool

/-- The bytes of an entry in raw mode: header without its first two fields, name,
priority, tag and text. -/
def vecOf (w : Who) (m : LgMsg) : List Bytes :=
  [le32 w.pid ++ le32 w.pid ++ le32 m.1 ++ le32 m.2.1 ++ le32 0, w.name ++ [0], le32 (UInt32.ofNat w.level), w.tag ++ [0],
    m.2.2 ++ [0]]

/-- The copy: level, tag, and the text as one line. -/
def copyOf (w : Who) (text : Bytes) : Bytes :=
  [(ascii "01CEWNID").getD w.level 0] ++ ascii " " ++ w.tag ++ ascii ": " ++ text ++
    (if text.getLast? = some 10 then [] else [10])

def shown (w : Who) (text : Bytes) : List LgEv := if w.copy then [.err (copyOf w text)] else []

/-- All messages are written one after the other, the program then ends with 0;
or a write fails and the program ends there with the error. `i` is the number of
writes already done. -/
def Outcome (env : LgEnv) (w : Who) (i : Nat) (ms : List LgMsg) (out : List LgEv × Nat) : Prop :=
  ((∀ j, j < ms.length → env.write (i + j) = none) ∧
    out = (ms.flatMap fun m => .write (vecOf w m) :: shown w m.2.2, 0)) ∨
  ∃ pre m post e, ms = pre ++ m :: post ∧ (∀ j, j < pre.length → env.write (i + j) = none) ∧
    env.write (i + pre.length) = some e ∧
    out = ((pre.flatMap fun m => .write (vecOf w m) :: shown w m.2.2) ++ [.write (vecOf w m)], e)

/-- The value of the last option of a kind. -/
def lastOf {α} (f : LgOpt → Option α) (d : α) (opts : List LgOpt) : α := (opts.filterMap f).getLastD d

/-- What `isspace` accepts in the C locale: tab, newline, vertical tab, form feed, return, blank. -/
def blanks : Bytes := [9, 10, 11, 12, 13, 32]

/-- A decimal number: blanks, a sign, digits. -/
def Numeral (s : Bytes) (v : Int) : Prop :=
  ∃ sp sg ds, s = sp ++ (sg ++ ds) ∧ (∀ b ∈ sp, b ∈ blanks) ∧ (sg = [] ∨ sg = [43] ∨ sg = [45]) ∧
    ds ≠ [] ∧ (∀ b ∈ ds, isDigit b = true) ∧
    v = if sg = [45] then max (-(parseDec ds : Int)) (-2 ^ 63) else min (parseDec ds : Int) (2 ^ 63 - 1)

/-- A string that begins with no number. -/
def NoNumber (s : Bytes) : Prop := ∀ a r v, s = a ++ r → ¬ Numeral a v

def pidOpt : LgOpt → Option UInt32
  | .pid a => parseInt32 a
  | _ => none
def nameOpt : LgOpt → Option Bytes
  | .name a => some a
  | _ => none
def tagOpt : LgOpt → Option Bytes
  | .tag a => some a
  | _ => none
def prioOpt : LgOpt → Option Nat
  | .prio a => some (parseLevel (a.headD 0))
  | _ => none

/-- Who logs, from the options. -/
def whoOf (self : Bytes) (pid : UInt32) (opts : List LgOpt) : Who :=
  { pid := lastOf pidOpt pid opts, name := lastOf nameOpt self opts, tag := lastOf tagOpt (ascii "ulogger") opts
    level := lastOf prioOpt 6 opts, copy := decide (LgOpt.stderr ∈ opts) }

/-- No option stops the program. -/
def Usual (opts : List LgOpt) : Prop := LgOpt.help ∉ opts ∧ LgOpt.bad ∉ opts

/-! ## Numbers and levels -/

theorem isSpace_iff (b : UInt8) : isSpace b = true ↔ b ∈ blanks := by
  unfold isSpace blanks
  simp only [decide_eq_true_eq, List.mem_cons, List.not_mem_nil, or_false, UInt8.le_iff_toNat_le, ← UInt8.toNat_inj]
  have e1 : (9 : UInt8).toNat = 9 := rfl
  have e2 : (10 : UInt8).toNat = 10 := rfl
  have e3 : (11 : UInt8).toNat = 11 := rfl
  have e4 : (12 : UInt8).toNat = 12 := rfl
  have e5 : (13 : UInt8).toNat = 13 := rfl
  have e6 : (32 : UInt8).toNat = 32 := rfl
  rw [e1, e2, e3, e4, e5, e6]; omega

theorem strtoParts_num (sp sg ds r : Bytes) (hs : ∀ b ∈ sp, isSpace b = true) (hsg : sg = [] ∨ sg = [43] ∨ sg = [45])
    (hd : ∀ b ∈ ds, isDigit b = true) (hne : ds ≠ []) (hr : ∀ b, r.head? = some b → isDigit b = false) :
    strtoParts (sp ++ (sg ++ (ds ++ r))) = (decide (sg = [45]), ds, sp.length + sg.length + ds.length) := by
  rcases hsg with h | h
  · subst h
    rw [List.nil_append, strtoParts_digits sp ds r hs hd hne hr]
    simp
  · obtain ⟨c, hc, hc'⟩ : ∃ c : UInt8, sg = [c] ∧ (c = 43 ∨ c = 45) := by
      rcases h with h | h
      · exact ⟨43, h, .inl rfl⟩
      · exact ⟨45, h, .inr rfl⟩
    subst hc
    have hns : isSpace c = false := by rcases hc' with rfl | rfl <;> decide
    have hw : (sp ++ ([c] ++ (ds ++ r))).takeWhile isSpace = sp :=
      dropWhile_length rfl hs (fun b hb => by simp at hb; rw [← hb]; exact hns)
    unfold strtoParts
    rw [hw]
    dsimp only
    rw [List.drop_left]
    have hh : ([c] ++ (ds ++ r)).head? = some c := rfl
    rw [hh]
    have hyes : some c = some (45 : UInt8) ∨ some c = some 43 := by rcases hc' with rfl | rfl <;> simp
    rw [if_pos hyes, List.singleton_append, List.drop_succ_cons, List.drop_zero, dropWhile_length (a := ds) rfl hd hr,
      if_neg hne]
    rcases hc' with rfl | rfl <;> simp

theorem strtolEnd_num {s : Bytes} {v : Int} (h : Numeral s v) (r : Bytes) (hr : ∀ b, r.head? = some b → isDigit b = false) :
    strtolEnd (s ++ r) = (v, s.length) := by
  obtain ⟨sp, sg, ds, rfl, hs, hsg, hne, hd, hv⟩ := h
  have hp := strtoParts_num sp sg ds r (fun b hb => (isSpace_iff b).2 (hs b hb)) hsg hd hne hr
  rw [show sp ++ (sg ++ ds) ++ r = sp ++ (sg ++ (ds ++ r)) by simp]
  unfold strtolEnd strtol
  rw [hp]
  dsimp only
  simp only [List.length_append, Prod.mk.injEq]
  refine ⟨?_, by omega⟩
  rw [hv]
  by_cases hg : sg = [45]
  · simp only [hg, decide_true, if_true]
    split <;> omega
  · simp only [hg, decide_false, if_false, Bool.false_eq_true]
    split <;> omega

theorem takeWhile_length_split (f : UInt8 → Bool) (s : Bytes) :
    s = s.takeWhile f ++ s.drop (s.takeWhile f).length ∧
      ∀ b, (s.drop (s.takeWhile f).length).head? = some b → f b = false := by
  have h := List.takeWhile_append_dropWhile (p := f) (l := s)
  have hd : s.drop (s.takeWhile f).length = s.dropWhile f := by
    conv => lhs; arg 2; rw [← h]
    rw [List.drop_left]
  rw [hd]
  refine ⟨h.symm, fun b hb => ?_⟩
  have := List.head?_dropWhile_not f s
  rw [hb] at this
  exact this

/-- A string begins with a number or not. -/
theorem num_cases (s : Bytes) : (strtoParts s = (false, [], 0) ∧ NoNumber s) ∨
    ∃ a r v, s = a ++ r ∧ Numeral a v ∧ ∀ b, r.head? = some b → isDigit b = false := by
  obtain ⟨e1, h1⟩ := takeWhile_length_split isSpace s
  generalize hr : s.drop (s.takeWhile isSpace).length = r at e1 h1
  obtain ⟨sg, hsg, hsg'⟩ : ∃ sg : Bytes, (sg = [] ∨ sg = [43] ∨ sg = [45]) ∧ ∃ q, r = sg ++ q ∧
      (if r.head? = some 45 ∨ r.head? = some 43 then 1 else 0) = sg.length ∧ q = r.drop sg.length := by
    cases r with
    | nil => exact ⟨[], .inl rfl, [], rfl, by simp, rfl⟩
    | cons c q =>
      by_cases h : c = 45
      · exact ⟨[45], .inr (.inr rfl), q, by simp [h], by simp [h], rfl⟩
      · by_cases h' : c = 43
        · exact ⟨[43], .inr (.inl rfl), q, by simp [h'], by simp [h'], rfl⟩
        · exact ⟨[], .inl rfl, c :: q, rfl, by simp [h, h'], rfl⟩
  obtain ⟨q, hq, hlen, hqd⟩ := hsg'
  obtain ⟨e2, h2⟩ := takeWhile_length_split isDigit q
  generalize hds : q.takeWhile isDigit = ds at e2 h2
  by_cases hne : ds = []
  · have hp : strtoParts s = (false, [], 0) := by
      unfold strtoParts
      dsimp only
      rw [hr, hlen, ← hqd, hds, if_pos hne]
    refine .inl ⟨hp, ?_⟩
    intro a r' v he hn
    obtain ⟨sp, sg', ds', rfl, k1, k2, k3, k4, k5⟩ := hn
    obtain ⟨d2, m2⟩ := takeWhile_length_split isDigit r'
    have all : ∀ b ∈ ds' ++ r'.takeWhile isDigit, isDigit b = true := by
      intro b hb
      rcases List.mem_append.mp hb with hb | hb
      · exact k4 b hb
      · exact List.all_eq_true.mp (List.all_takeWhile) b hb
    have := strtoParts_num sp sg' (ds' ++ r'.takeWhile isDigit) (r'.drop (r'.takeWhile isDigit).length) (fun b hb => (isSpace_iff b).2 (k1 b hb)) k2 all
      (by simp [k3]) m2
    rw [show sp ++ (sg' ++ (ds' ++ r'.takeWhile isDigit ++ r'.drop (r'.takeWhile isDigit).length)) = s by
      rw [List.append_assoc, ← d2, he]; simp] at this
    rw [this] at hp
    simp only [Prod.mk.injEq] at hp
    simp [k3] at hp
  · refine .inr ⟨s.takeWhile isSpace ++ (sg ++ ds), q.drop ds.length, _, ?_, ⟨_, sg, ds, rfl, ?_, hsg, hne, ?_, rfl⟩, h2⟩
    · conv => lhs; rw [e1, hq, e2]
      simp
    · exact fun b hb => (isSpace_iff b).1 (List.all_eq_true.mp (List.all_takeWhile) b hb)
    · rw [← hds]; exact fun b hb => List.all_eq_true.mp (List.all_takeWhile) b hb

theorem parts_none {s : Bytes} (h : NoNumber s) : strtoParts s = (false, [], 0) := by
  rcases num_cases s with ⟨h', _⟩ | ⟨a, r, v, he, hn, _⟩
  · exact h'
  · exact absurd hn (h a r v he)

theorem strtolEnd_none {s : Bytes} (h : NoNumber s) : strtolEnd s = (0, 0) := by
  unfold strtolEnd strtol
  rw [parts_none h]
  rfl

/-- C40, numbers. Numbers of a kernel record read as `Numeral` says, whatever follows
that is no digit; text that begins with no number reads as 0. A priority is the number
modulo 8, a time that is not negative is microseconds. -/
theorem C40_number (s : Bytes) :
    ((∃ a r v, s = a ++ r ∧ Numeral a v ∧ (∀ b, r.head? = some b → ¬ (48 ≤ b.toNat ∧ b.toNat ≤ 57)) ∧ strtol s = v) ∨ NoNumber s ∧ strtol s = 0) ∧
    (and7 (strtol s) : Int) = strtol s % 8 ∧
    (0 ≤ strtol s → secOf (strtol s) = strtol s / 1000000 ∧ nsecOf (strtol s) = strtol s % 1000000 * 1000 ∧ toU64 (strtol s) = strtol s) := by
  have hmax : strtol s ≤ 9223372036854775807 := by
    unfold strtol
    dsimp only
    split <;> split <;> omega
  refine ⟨?_, ?_, fun h0 => ?_⟩
  · rcases num_cases s with ⟨_, hn⟩ | ⟨a, r, v, he, hn, hr⟩
    · refine .inr ⟨hn, ?_⟩
      have := strtolEnd_none hn
      unfold strtolEnd at this
      exact congrArg Prod.fst this
    · refine .inl ⟨a, r, v, he, hn, fun b hb => ?_, ?_⟩
      · have := hr b hb
        unfold isDigit at this
        simp only [decide_eq_false_iff_not, UInt8.le_iff_toNat_le] at this
        simp at this
        omega
      · have := strtolEnd_num hn r hr
        rw [← he] at this
        unfold strtolEnd at this
        exact congrArg Prod.fst this
  · unfold and7
    generalize strtol s = v
    show ((v.emod 8).toNat : Int) = v.emod 8
    have := Int.emod_nonneg v (show (8 : Int) ≠ 0 by decide)
    exact Int.toNat_of_nonneg this
  · generalize strtol s = v at *
    have ht : toU64 v = v := Int.emod_eq_of_lt h0 (by omega)
    have hs : secOf v = v / 1000000 := by unfold secOf; rw [ht]
    refine ⟨hs, ?_, ht⟩
    have hm : v - v / 1000000 * 1000000 = v % 1000000 := by omega
    unfold nsecOf
    rw [hs, hm]
    unfold toU64
    have h1 : (v % 1000000).emod 18446744073709551616 = v % 1000000 := Int.emod_eq_of_lt (by omega) (by omega)
    rw [h1]
    exact Int.emod_eq_of_lt (by omega) (by omega)

/-- C86, numbers. What the options accept as a number. -/
theorem C86_number (s : Bytes) (x : UInt32) : parseInt32 s = some x ↔ ∃ v, Numeral s v ∧ x = low32 v := by
  unfold parseInt32
  constructor
  · intro h
    split at h
    · cases h
    rename_i hne
    rcases num_cases s with ⟨_, hn⟩ | ⟨a, r, v, he, hn, hr⟩
    · rw [strtolEnd_none hn] at h
      simp [hne] at h
    · rw [he, strtolEnd_num hn r hr] at h
      simp only [List.drop_left] at h
      split at h
      · rename_i hr0
        subst hr0
        rw [List.append_nil] at he
        injection h with h
        exact ⟨v, by rw [he]; exact hn, h.symm⟩
      · cases h
  · rintro ⟨v, hn, hx⟩
    have hne : s ≠ [] := by
      obtain ⟨sp, sg, ds, rfl, _, _, h, _⟩ := hn
      simp [h]
    have := strtolEnd_num hn [] (by simp)
    rw [List.append_nil] at this
    rw [if_neg hne, this]
    simp [hx]

/-- C86, levels. A letter of `CEWNID` stands for 2 to 7 and a digit for itself, at
most 7; anything else, and nothing, for 6. -/
theorem C86_level (c : UInt8) :
    parseLevel c = match (ascii "CEWNID").idxOf? c with
      | some i => i + 2
      | none => match (ascii "01234567").idxOf? c with
        | some i => i
        | none => if c = 56 ∨ c = 57 then 7 else 6 := by
  revert c
  have : ∀ n : Fin 256, (fun c : UInt8 => decide (parseLevel c = match (ascii "CEWNID").idxOf? c with
      | some i => i + 2
      | none => match (ascii "01234567").idxOf? c with
        | some i => i
        | none => if c = 56 ∨ c = 57 then 7 else 6)) (UInt8.ofNat n) = true := by decide +kernel
  intro c
  have h := this ⟨c.toNat, c.toNat_lt⟩
  simpa using h

/-! ## Options -/

theorem lastOf_cons {α} (f : LgOpt → Option α) (d : α) (o : LgOpt) (os : List LgOpt) :
    lastOf f d (o :: os) = lastOf f ((f o).getD d) os := by
  unfold lastOf
  rw [List.filterMap_cons]
  cases f o with
  | none => rfl
  | some x =>
    dsimp only [Option.getD]
    cases hl : List.filterMap f os with
    | nil => rfl
    | cons y l => simp [List.getLastD]

/-- The state the options leave. -/
def after (st : Lg) (opts : List LgOpt) : Lg :=
  { st with
    pid := lastOf pidOpt st.pid opts, pname := lastOf nameOpt st.pname opts, tag := lastOf tagOpt st.tag opts
    prio := lastOf prioOpt st.prio opts, hasTime := st.hasTime || decide (LgOpt.time ∈ opts)
    copyErr := st.copyErr || decide (LgOpt.stderr ∈ opts) }

theorem opts_after (opts : List LgOpt) : ∀ st, Usual opts → lgOpts st opts = .inl (after st opts) := by
  induction opts with
  | nil => intro st _; simp [lgOpts, after, lastOf]
  | cons o os ih =>
    intro st hu
    have hu' : Usual os := ⟨fun h => hu.1 (by simp [h]), fun h => hu.2 (by simp [h])⟩
    cases o with
    | pid a =>
      unfold lgOpts
      cases hp : parseInt32 a with
      | none => dsimp only; rw [ih _ hu']; simp [after, lastOf_cons, pidOpt, nameOpt, tagOpt, prioOpt, hp]
      | some p => dsimp only; rw [ih _ hu']; simp [after, lastOf_cons, pidOpt, nameOpt, tagOpt, prioOpt, hp]
    | help => exact absurd (by simp) hu.1
    | bad => exact absurd (by simp) hu.2
    | time => unfold lgOpts; rw [ih _ hu']; simp [after, lastOf_cons, pidOpt, nameOpt, tagOpt, prioOpt]
    | name a => unfold lgOpts; rw [ih _ hu']; simp [after, lastOf_cons, pidOpt, nameOpt, tagOpt, prioOpt]
    | prio a => unfold lgOpts; rw [ih _ hu']; simp [after, lastOf_cons, pidOpt, nameOpt, tagOpt, prioOpt]
    | stderr => unfold lgOpts; rw [ih _ hu']; simp [after, lastOf_cons, pidOpt, nameOpt, tagOpt, prioOpt]
    | tag a => unfold lgOpts; rw [ih _ hu']; simp [after, lastOf_cons, pidOpt, nameOpt, tagOpt, prioOpt]

/-- C86, options that stop the program: nothing is logged, whatever comes with
them, and the status is that of the first. -/
theorem C86_stop (env : LgEnv) (self : Bytes) (pid : UInt32) (pre post : List LgOpt) (o : LgOpt) (args : List Bytes)
    (input : Bytes) (hu : Usual pre) (ho : o = .help ∨ o = .bad) :
    ulogger env self pid (pre ++ o :: post) args input = ([], if o = .help then 0 else 1) := by
  have : ∀ st, lgOpts st (pre ++ o :: post) = .inr (if o = .help then 0 else 1) := by
    induction pre with
    | nil => intro st; rcases ho with rfl | rfl <;> simp [lgOpts]
    | cons p ps ih =>
      intro st
      have hu' : Usual ps := ⟨fun h => hu.1 (by simp [h]), fun h => hu.2 (by simp [h])⟩
      have := ih hu'
      cases p with
      | pid a => rw [List.cons_append]; unfold lgOpts; split <;> exact this _
      | help => exact absurd (by simp) hu.1
      | bad => exact absurd (by simp) hu.2
      | time => exact this _
      | name a => exact this _
      | prio a => exact this _
      | stderr => exact this _
      | tag a => exact this _
  unfold ulogger
  rw [this]

/-! ## The messages -/

def Lg.who (st : Lg) : Who := { pid := st.pid, name := st.pname, tag := st.tag, level := st.prio, copy := st.copyErr }

/-- The message as it is given to `ulogger_log`. -/
def keyOf (m : Lg × Bytes) : LgMsg := (m.1.sec, m.1.nsec, m.2)

/-- Logging a list of messages. -/
def emit (env : LgEnv) : Nat → List (Lg × Bytes) → List LgEv × Nat
  | _, [] => ([], 0)
  | i, m :: ms =>
    match lgLog env i m.1 m.2 with
    | (ev, some e) => (ev, e)
    | (ev, none) => (ev ++ (emit env (i + 1) ms).1, (emit env (i + 1) ms).2)

def argMsgs (env : LgEnv) : Nat → Nat → Lg → List Bytes → List (Lg × Bytes)
  | 0, _, _, _ => []
  | _, _, _, [] => []
  | fuel + 1, i, st, a :: rest =>
    ((lgArg env i st a rest).1, (lgArg env i st a rest).2.1) ::
      argMsgs env fuel (i + 1) (lgArg env i st a rest).1 (lgArg env i st a rest).2.2

def lineMsgs (env : LgEnv) : Nat → Lg → List Bytes → List (Lg × Bytes)
  | _, _, [] => []
  | i, st, c :: cs => lgLine env i st (cstr c) :: lineMsgs env (i + 1) (lgLine env i st (cstr c)).1 cs

def chunksOf : Nat → Bytes → List Bytes
  | 0, _ => []
  | fuel + 1, input => if input = [] then [] else (fgets input).1 :: chunksOf fuel (fgets input).2

theorem args_emit (env : LgEnv) : ∀ fuel i st args,
    lgArgs env fuel i st args = emit env i (argMsgs env fuel i st args) := by
  intro fuel
  induction fuel with
  | zero => intros; rfl
  | succ fuel ih =>
    intro i st args
    cases args with
    | nil => rfl
    | cons a rest =>
      unfold lgArgs argMsgs emit
      dsimp only
      generalize lgArg env i st a rest = q
      obtain ⟨st', text, rest'⟩ := q
      dsimp only
      generalize lgLog env i st' text = o
      obtain ⟨ev, e⟩ := o
      cases e with
      | some e => rfl
      | none => dsimp only; rw [ih]

theorem lines_emit (env : LgEnv) : ∀ fuel i st input,
    lgLines env fuel i st input = emit env i (lineMsgs env i st (chunksOf fuel input)) := by
  intro fuel
  induction fuel with
  | zero => intros; rfl
  | succ fuel ih =>
    intro i st input
    unfold lgLines chunksOf
    by_cases h : input = []
    · rw [if_pos h, if_pos h]; rfl
    rw [if_neg h, if_neg h]
    unfold lineMsgs emit
    generalize hf : fgets input = q
    obtain ⟨buf, left⟩ := q
    dsimp only
    generalize lgLine env i st (cstr buf) = l
    obtain ⟨st', text⟩ := l
    dsimp only
    generalize lgLog env i st' text = o
    obtain ⟨ev, e⟩ := o
    cases e with
    | some e => rfl
    | none => dsimp only; rw [ih]

theorem lgArg_who (env : LgEnv) (i : Nat) (st : Lg) (a : Bytes) (rest : List Bytes) :
    (lgArg env i st a rest).1.who = st.who ∧ (lgArg env i st a rest).1.hasTime = st.hasTime := by
  unfold lgArg
  split
  · exact ⟨rfl, rfl⟩
  split
  · exact ⟨rfl, rfl⟩
  split
  · exact ⟨rfl, rfl⟩
  dsimp only
  split
  · exact ⟨rfl, rfl⟩
  split <;> exact ⟨rfl, rfl⟩

theorem lgLine_who (env : LgEnv) (i : Nat) (st : Lg) (line : Bytes) :
    (lgLine env i st line).1.who = st.who ∧ (lgLine env i st line).1.hasTime = st.hasTime := by
  unfold lgLine
  split
  · exact ⟨rfl, rfl⟩
  dsimp only
  split <;> exact ⟨rfl, rfl⟩

theorem argMsgs_who (env : LgEnv) : ∀ fuel i st args, ∀ m ∈ argMsgs env fuel i st args, m.1.who = st.who := by
  intro fuel
  induction fuel with
  | zero => intro i st args m hm; simp [argMsgs] at hm
  | succ fuel ih =>
    intro i st args m hm
    cases args with
    | nil => simp [argMsgs] at hm
    | cons a rest =>
      unfold argMsgs at hm
      rcases List.mem_cons.mp hm with rfl | hm
      · exact (lgArg_who env i st a rest).1
      · rw [ih _ _ _ _ hm, (lgArg_who env i st a rest).1]

theorem lineMsgs_who (env : LgEnv) : ∀ cs i st, ∀ m ∈ lineMsgs env i st cs, m.1.who = st.who := by
  intro cs
  induction cs with
  | nil => intro i st m hm; simp [lineMsgs] at hm
  | cons c cs ih =>
    intro i st m hm
    unfold lineMsgs at hm
    rcases List.mem_cons.mp hm with rfl | hm
    · exact (lgLine_who env i st _).1
    · rw [ih _ _ _ hm, (lgLine_who env i st _).1]

theorem errCopy_shown (st : Lg) (text : Bytes) : errCopy st text = shown st.who text := by
  have : (text = [] ∨ text.getLast? ≠ some 10) ↔ ¬ text.getLast? = some 10 := by
    constructor
    · rintro (h | h)
      · rw [h]; simp
      · exact h
    · exact .inr
  unfold errCopy shown copyOf Lg.who
  dsimp only
  by_cases h : text.getLast? = some 10
  · have hn : ¬ (text = [] ∨ text.getLast? ≠ some 10) := by rw [this]; simp [h]
    rw [if_pos h, if_neg hn]; rfl
  · rw [if_neg h, if_pos (this.mpr h)]; rfl

theorem lgLog_some {env : LgEnv} {fd : Nat} (hd : env.dev = some fd) (i : Nat) (st : Lg) (text : Bytes)
    (hp : st.pid ≠ 0xffffffff) :
    lgLog env i st text = match env.write i with
      | some e => ([.write (vecOf st.who (st.sec, st.nsec, text))], some e)
      | none => (.write (vecOf st.who (st.sec, st.nsec, text)) :: shown st.who text, none) := by
  have : rawLog fd (some (rawOf st text)) = some (vecOf st.who (st.sec, st.nsec, text)) := by
    unfold rawLog rawLogv rawOf vecOf Lg.who
    dsimp only
    rw [if_neg (by simp), if_neg (by simp [hp])]
    simp
  unfold lgLog
  rw [hd]
  dsimp only
  rw [this]
  dsimp only
  rw [errCopy_shown]
  cases env.write i <;> rfl

theorem emit_some {env : LgEnv} {fd : Nat} (hd : env.dev = some fd) {w : Who} (hp : w.pid ≠ 0xffffffff) :
    ∀ (ms : List (Lg × Bytes)) (i : Nat), (∀ m ∈ ms, m.1.who = w) → Outcome env w i (ms.map keyOf) (emit env i ms) := by
  intro ms
  induction ms with
  | nil => intro i _; exact .inl ⟨by simp, rfl⟩
  | cons m ms ih =>
    intro i hw
    have hm : m.1.who = w := hw m (by simp)
    have hl := lgLog_some hd i m.1 m.2 (by have := congrArg Who.pid hm; exact fun h => hp (by rw [← this]; exact h))
    rw [hm] at hl
    unfold emit
    rw [hl]
    cases hwr : env.write i with
    | some e =>
      dsimp only
      refine .inr ⟨[], keyOf m, ms.map keyOf, e, rfl, by simp, by simpa using hwr, rfl⟩
    | none =>
      dsimp only
      rcases ih (i + 1) (fun x hx => hw x (by simp [hx])) with ⟨k1, k2⟩ | ⟨pre, x, post, e, k1, k2, k3, k4⟩
      · refine .inl ⟨?_, ?_⟩
        · intro j hj
          cases j with
          | zero => exact hwr
          | succ j => rw [show i + (j + 1) = i + 1 + j by omega]; exact k1 j (by simpa using hj)
        · rw [k2]; rfl
      · refine .inr ⟨keyOf m :: pre, x, post, e, by rw [List.map_cons, k1]; rfl, ?_, ?_, ?_⟩
        · intro j hj
          cases j with
          | zero => exact hwr
          | succ j => rw [show i + (j + 1) = i + 1 + j by omega]; exact k2 j (by simpa using hj)
        · rw [List.length_cons, show i + (pre.length + 1) = i + 1 + pre.length by omega]; exact k3
        · rw [k4]; simp [keyOf]

theorem emit_none {env : LgEnv} (hd : env.dev = none) {w : Who} :
    ∀ (ms : List (Lg × Bytes)) (i : Nat), (∀ m ∈ ms, m.1.who = w) →
    emit env i ms = ((ms.map keyOf).flatMap fun m => .str w.level (ascii "ulogger") m.2.2 :: shown w m.2.2, 0) := by
  intro ms
  induction ms with
  | nil => intro i _; rfl
  | cons m ms ih =>
    intro i hw
    have hm : m.1.who = w := hw m (by simp)
    have hl : lgLog env i m.1 m.2 = (.str w.level (ascii "ulogger") m.2 :: shown w m.2, none) := by
      unfold lgLog
      rw [hd]
      dsimp only
      rw [errCopy_shown, hm, ← hm]
      rfl
    unfold emit
    rw [hl]
    dsimp only
    rw [ih (i + 1) (fun x hx => hw x (by simp [hx]))]
    simp [keyOf]

theorem emit_refuse {env : LgEnv} {fd : Nat} (hd : env.dev = some fd) {ms : List (Lg × Bytes)} (hne : ms ≠ [])
    (hw : ∀ m ∈ ms, m.1.pid = 0xffffffff) (i : Nat) : emit env i ms = ([], 22) := by
  cases ms with
  | nil => exact absurd rfl hne
  | cons m ms =>
    have : lgLog env i m.1 m.2 = ([], some 22) := by
      unfold lgLog
      rw [hd]
      dsimp only
      have : rawLog fd (some (rawOf m.1 m.2)) = none := by
        unfold rawLog rawLogv rawOf
        dsimp only
        rw [if_neg (by simp), if_pos (by simp [hw m (by simp)])]
      rw [this]
    unfold emit
    rw [this]

/-- The state after the options. -/
def start (self : Bytes) (pid : UInt32) (opts : List LgOpt) : Lg := after { pid, pname := self } opts

theorem start_who (self : Bytes) (pid : UInt32) (opts : List LgOpt) : (start self pid opts).who = whoOf self pid opts := by
  simp [start, after, Lg.who, whoOf]

/-- The messages of a run. -/
def msgsOf (env : LgEnv) (st : Lg) (args : List Bytes) (input : Bytes) : List (Lg × Bytes) :=
  if args ≠ [] then argMsgs env args.length 0 st args else lineMsgs env 0 st (chunksOf input.length input)

theorem ulogger_emit (env : LgEnv) (self : Bytes) (pid : UInt32) {opts : List LgOpt} (hu : Usual opts) (args : List Bytes)
    (input : Bytes) : ulogger env self pid opts args input = emit env 0 (msgsOf env (start self pid opts) args input) := by
  unfold ulogger msgsOf
  rw [opts_after opts _ hu]
  dsimp only
  by_cases h : args ≠ []
  · rw [if_pos h, if_pos h, args_emit]; rfl
  · rw [if_neg h, if_neg h, lines_emit]; rfl

theorem msgsOf_who (env : LgEnv) (st : Lg) (args : List Bytes) (input : Bytes) :
    ∀ m ∈ msgsOf env st args input, m.1.who = st.who := by
  unfold msgsOf
  split
  · exact argMsgs_who env _ _ _ _
  · exact lineMsgs_who env _ _ _

/-! ## C86: messages on the command line -/

theorem argMsgs_clock (env : LgEnv) (c : Nat → UInt32 × UInt32) : ∀ fuel i st args, st.hasTime = false →
    args.length ≤ fuel → (∀ j, j < args.length → env.clock (i + j) = some (c (i + j))) →
    (argMsgs env fuel i st args).map keyOf = (args.zipIdx i).map fun p => ((c p.2).1, (c p.2).2, p.1) := by
  intro fuel
  induction fuel with
  | zero => intro i st args _ hl _; cases args <;> simp_all [argMsgs]
  | succ fuel ih =>
    intro i st args ht hl hc
    cases args with
    | nil => rfl
    | cons a rest =>
      have h0 := hc 0 (by simp)
      have ha : lgArg env i st a rest = ({ st with sec := (c i).1, nsec := (c i).2 }, a, rest) := by
        unfold lgArg clockOf
        rw [ht, if_neg (by simp)]
        rw [Nat.add_zero] at h0
        rw [h0]
      unfold argMsgs
      rw [ha, List.map_cons, List.zipIdx_cons, List.map_cons]
      dsimp only
      rw [ih (i + 1) _ rest (by exact ht) (by simpa using hl) (fun j hj => by
        rw [show i + 1 + j = i + (j + 1) by omega]; exact hc (j + 1) (by simpa using hj))]
      rfl

theorem start_time {self : Bytes} {pid : UInt32} {opts : List LgOpt} : (start self pid opts).hasTime = decide (LgOpt.time ∈ opts) := by
  simp [start, after]

/-- C86, arguments. Without `-m`, each argument is one entry, in order, with the
time of the clock and what the options say. -/
theorem C86_args (env : LgEnv) {fd : Nat} (hd : env.dev = some fd) (self : Bytes) (pid : UInt32) {opts : List LgOpt}
    (hu : Usual opts) (ht : LgOpt.time ∉ opts) {args : List Bytes} (hne : args ≠ []) (c : Nat → UInt32 × UInt32)
    (hc : ∀ j, j < args.length → env.clock j = some (c j)) (hp : (whoOf self pid opts).pid ≠ 0xffffffff) (input : Bytes) :
    Outcome env (whoOf self pid opts) 0 (args.zipIdx.map fun p => ((c p.2).1, (c p.2).2, p.1))
      (ulogger env self pid opts args input) := by
  rw [ulogger_emit env self pid hu, ← argMsgs_clock env c args.length 0 (start self pid opts) args
    (by rw [start_time]; simpa using ht) (Nat.le_refl _) (by simpa using hc)]
  have : msgsOf env (start self pid opts) args input = argMsgs env args.length 0 (start self pid opts) args := by
    unfold msgsOf; rw [if_pos hne]
  rw [this]
  refine emit_some hd hp _ _ ?_
  intro m hm
  rw [argMsgs_who env _ _ _ _ m hm, start_who]

/-- C86. With the number -1 nothing is logged and the program ends with EINVAL. -/
theorem C86_refused (env : LgEnv) {fd : Nat} (hd : env.dev = some fd) (self : Bytes) (pid : UInt32) {opts : List LgOpt}
    (hu : Usual opts) {args : List Bytes} {input : Bytes} (hne : args ≠ [] ∨ input ≠ [])
    (hp : (whoOf self pid opts).pid = 0xffffffff) : ulogger env self pid opts args input = ([], 22) := by
  rw [ulogger_emit env self pid hu]
  refine emit_refuse hd ?_ ?_ _
  · unfold msgsOf
    split
    · rename_i h
      cases args with
      | nil => exact absurd rfl h
      | cons a rest => simp [argMsgs]
    · rename_i h
      cases input with
      | nil => rcases hne with h' | h' <;> simp_all
      | cons a rest => simp [chunksOf, lineMsgs]
  · intro m hm
    have := msgsOf_who env (start self pid opts) args input m hm
    rw [start_who] at this
    exact (congrArg Who.pid this).trans hp

theorem parseLevel_lt (c : UInt8) : parseLevel c < 8 := by
  unfold parseLevel
  repeat' split
  all_goals omega

theorem whoOf_level (self : Bytes) (pid : UInt32) (opts : List LgOpt) : (whoOf self pid opts).level < 8 := by
  unfold whoOf lastOf
  dsimp only
  rcases List.eq_nil_or_concat (opts.filterMap prioOpt) with h | ⟨l, x, h⟩
  · rw [h]; decide
  · rw [h]
    have hx : x ∈ opts.filterMap prioOpt := by rw [h]; simp
    obtain ⟨o, _, ho⟩ := List.mem_filterMap.mp hx
    simp only [List.concat_eq_append, List.getLastD_concat]
    cases o <;> simp only [prioOpt, reduceCtorEq, Option.some.injEq] at ho
    rw [← ho]; exact parseLevel_lt _

/-- C86, readers. What the program writes, once stored by the driver, is decoded by
every reader as an entry of that process, time, name, tag, level and text. -/
theorem C86_decoded {name k buf ops s tr} (h : Run name k buf ops s tr) {fid : Nat} {t : Task} {junk : Nat → UInt8}
    {s' : Sys} {n : Nat} {w : Who} {m : LgMsg} (hp : w.pid ≠ 0xffffffff) (hlv : w.level < 8)
    (n1 : NoNul w.name) (n2 : NoNul w.tag) (n3 : NoNul m.2.2)
    (hfit : w.name.length + w.tag.length + m.2.2.length ≤ 4069)
    (hs : step s (.write fid t (userVec (vecOf w m)) junk) = .ok (s', .ret n))
    (hraw : (obs name tr).raw fid = true)
    {fid' : Nat} {euid : UInt32} {count : Nat} {x : RObs} {l : List Bytes}
    (hr : (obs name tr).rds fid' = some x) (hall : x.all = true) (hver : x.ver = 2) (hc : 4100 ≤ count)
    (hd : Drains fid' euid count s' l) :
    ∃ l' bs, l = l' ++ [bs] ∧ ReadsAs bs w.pid w.pid m.1 m.2.1
      { pname := w.name, tname := w.name, tag := w.tag, level := w.level, color := 0, msg := .text m.2.2 } := by
  have hv : rawLog (0 : Int) (some { pid := w.pid, tid := w.pid, sec := m.1, nsec := m.2.1, euid := 0
                                     prio := UInt32.ofNat w.level, pname := w.name ++ [0], tname := [] ++ [0]
                                     tag := w.tag ++ [0], message := some (m.2.2 ++ [0]) }) = some (vecOf w m) := by
    unfold rawLog rawLogv vecOf
    dsimp only
    rw [if_neg (by simp), if_neg (by simp [hp])]
    simp
  have hlt : (UInt32.ofNat w.level).toNat = w.level := by
    rw [UInt32.toNat_ofNat']; exact Nat.mod_eq_of_lt (by omega)
  obtain ⟨l', bs, h1, h2⟩ := C32_raw_text h hv rfl rfl rfl rfl n1 (by intro b hb; simp at hb) n2 n3
    (by unfold prioBinary; dsimp only; rw [hlt]; simp; omega) (by dsimp only; rw [if_pos rfl]; omega) hs hraw hr hall hver hc hd
  refine ⟨l', bs, h1, ?_⟩
  dsimp only at h2
  rw [if_pos rfl, hlt, Nat.mod_eq_of_lt hlv, Nat.div_eq_of_lt (by omega)] at h2
  exact h2

/-! ## C87: times given by the caller -/

/-- The arguments after `-m`: seconds and nanoseconds before a message, seconds
only, or none; a last argument is always a message. Without nanoseconds those of
the previous message are kept, without time both. -/
inductive TimedArgs : UInt32 → UInt32 → List Bytes → List LgMsg → Prop
  | nil {q p} : TimedArgs q p [] []
  | full {q p s n text v w args ms} (hs : Numeral s v) (hn : Numeral n w) (h : TimedArgs (low32 v) (low32 w) args ms) :
      TimedArgs q p (s :: n :: text :: args) ((low32 v, low32 w, text) :: ms)
  | sec {q p s text v args ms} (hs : Numeral s v) (ht : args = [] ∨ ∀ w, ¬ Numeral text w)
      (h : TimedArgs (low32 v) p args ms) : TimedArgs q p (s :: text :: args) ((low32 v, p, text) :: ms)
  | plain {q p text args ms} (ht : args = [] ∨ ∀ w, ¬ Numeral text w) (h : TimedArgs q p args ms) :
      TimedArgs q p (text :: args) ((q, p, text) :: ms)

theorem parseInt32_none {s : Bytes} (h : ∀ w, ¬ Numeral s w) : parseInt32 s = none := by
  cases hp : parseInt32 s with
  | none => rfl
  | some x =>
    obtain ⟨v, hv, _⟩ := (C86_number s x).mp hp
    exact absurd hv (h v)

theorem parseInt32_num {s : Bytes} {v : Int} (h : Numeral s v) : parseInt32 s = some (low32 v) :=
  (C86_number s _).mpr ⟨v, h, rfl⟩

theorem argMsgs_timed (env : LgEnv) {q p : UInt32} {args : List Bytes} {ms : List LgMsg} (h : TimedArgs q p args ms) :
    ∀ fuel i (st : Lg), st.hasTime = true → st.sec = q → st.nsec = p → args.length ≤ fuel →
    (argMsgs env fuel i st args).map keyOf = ms := by
  induction h with
  | nil => intro fuel i st _ _ _ _; cases fuel <;> rfl
  | @full q p s n text v w args ms hs hn h ih =>
    intro fuel i st ht hq hp hl
    cases fuel with
    | zero => simp at hl
    | succ fuel =>
      have ha : lgArg env i st s (n :: text :: args) = ({ st with sec := low32 v, nsec := low32 w }, text, args) := by
        unfold lgArg clockOf
        rw [ht, if_pos rfl, parseInt32_num hs]
        dsimp only
        rw [parseInt32_num hn]
      unfold argMsgs
      rw [ha, List.map_cons]
      dsimp only
      rw [ih fuel _ _ (by exact ht) rfl rfl (by simp at hl; omega)]
      rfl
  | @sec q p s text v args ms hs hn h ih =>
    intro fuel i st ht hq hp hl
    cases fuel with
    | zero => simp at hl
    | succ fuel =>
      have ha : lgArg env i st s (text :: args) = ({ st with sec := low32 v }, text, args) := by
        unfold lgArg clockOf
        rw [ht, if_pos rfl, parseInt32_num hs]
        dsimp only
        cases args with
        | nil => rfl
        | cons c r =>
          dsimp only
          rw [parseInt32_none (by rcases hn with h | h; · cases h
                                  · exact h)]
      unfold argMsgs
      rw [ha, List.map_cons]
      dsimp only
      rw [ih fuel _ _ (by exact ht) rfl (by exact hp) (by simp at hl; omega)]
      simp [keyOf, hp]
  | @plain q p text args ms hn h ih =>
    intro fuel i st ht hq hp hl
    cases fuel with
    | zero => simp at hl
    | succ fuel =>
      have ha : lgArg env i st text args = (st, text, args) := by
        unfold lgArg clockOf
        rw [ht, if_pos rfl]
        dsimp only
        cases args with
        | nil => rfl
        | cons c r =>
          dsimp only
          rw [parseInt32_none (by rcases hn with h | h; · cases h
                                  · exact h)]
      unfold argMsgs
      rw [ha, List.map_cons]
      dsimp only
      rw [ih fuel _ _ ht hq hp (by simp at hl; omega)]
      simp [keyOf, hp, hq]

/-- C87, arguments. With `-m`: what is logged for each list of arguments. -/
theorem C87_args (env : LgEnv) {fd : Nat} (hd : env.dev = some fd) (self : Bytes) (pid : UInt32) {opts : List LgOpt}
    (hu : Usual opts) (ht : LgOpt.time ∈ opts) {args : List Bytes} (hne : args ≠ []) {ms : List LgMsg}
    (hm : TimedArgs 0 0 args ms) (hp : (whoOf self pid opts).pid ≠ 0xffffffff) (input : Bytes) :
    Outcome env (whoOf self pid opts) 0 ms (ulogger env self pid opts args input) := by
  rw [ulogger_emit env self pid hu, ← argMsgs_timed env hm args.length 0 (start self pid opts)
    (by rw [start_time]; simpa using ht) rfl rfl (Nat.le_refl _)]
  have : msgsOf env (start self pid opts) args input = argMsgs env args.length 0 (start self pid opts) args := by
    unfold msgsOf; rw [if_pos hne]
  rw [this]
  refine emit_some hd hp _ _ ?_
  intro m hm
  rw [argMsgs_who env _ _ _ _ m hm, start_who]

/-- Every list of arguments has one reading. -/
theorem C87_args_total : ∀ (n : Nat) (args : List Bytes) (q p : UInt32), args.length ≤ n → ∃ ms, TimedArgs q p args ms := by
  intro n
  induction n with
  | zero => intro args q p h; cases args with
    | nil => exact ⟨[], .nil⟩
    | cons a r => simp at h
  | succ n ih =>
    intro args q p h
    cases args with
    | nil => exact ⟨[], .nil⟩
    | cons a r =>
      simp only [List.length_cons] at h
      by_cases ha : ∃ v, Numeral a v
      · obtain ⟨v, hv⟩ := ha
        cases r with
        | nil => exact ⟨_, .plain (.inl rfl) .nil⟩
        | cons b r =>
          simp only [List.length_cons] at h
          cases r with
          | nil => exact ⟨_, .sec hv (.inl rfl) .nil⟩
          | cons c r =>
            simp only [List.length_cons] at h
            by_cases hb : ∃ w, Numeral b w
            · obtain ⟨w, hw⟩ := hb
              obtain ⟨ms, hm⟩ := ih r (low32 v) (low32 w) (by omega)
              exact ⟨_, .full hv hw hm⟩
            · obtain ⟨ms, hm⟩ := ih (c :: r) (low32 v) p (by simp; omega)
              exact ⟨_, .sec hv (.inr fun w hw => hb ⟨w, hw⟩) hm⟩
      · obtain ⟨ms, hm⟩ := ih r q p (by omega)
        exact ⟨_, .plain (.inr fun w hw => ha ⟨w, hw⟩) hm⟩

/-- C87, false of the documentation ("optionally followed by the number of
nanoseconds"): without nanoseconds, those of the previous message are kept. Here
`ulogger -m S N first T second`, for any numbers and any texts, the last being no
number. -/
theorem C87_false_nanoseconds (env : LgEnv) {fd : Nat} (hd : env.dev = some fd) (hw : ∀ i, env.write i = none) (self : Bytes)
    (pid : UInt32) (hp : pid ≠ 0xffffffff) {s n t : Bytes} {v w u : Int} (hs : Numeral s v) (hn : Numeral n w)
    (ht : Numeral t u) (first second : Bytes) (input : Bytes) :
    ulogger env self pid [.time] [s, n, first, t, second] input =
      ([.write (vecOf (whoOf self pid []) (low32 v, low32 w, first)),
        .write (vecOf (whoOf self pid []) (low32 u, low32 w, second))], 0) := by
  have hwho : whoOf self pid [LgOpt.time] = whoOf self pid [] := by
    simp [whoOf, lastOf, pidOpt, nameOpt, tagOpt, prioOpt]
  have := C87_args env hd self pid (opts := [.time]) ⟨by simp, by simp⟩ (by simp) (args := [s, n, first, t, second])
    (by simp) (.full hs hn (.sec ht (.inl rfl) .nil)) (by rw [hwho]; simpa [whoOf, lastOf] using hp) input
  rw [hwho] at this
  rcases this with ⟨_, h⟩ | ⟨pre, m, post, e, _, _, h, _⟩
  · rw [h]; simp [shown, whoOf]
  · rw [hw] at h; cases h

/-- One line read after `-m`: seconds, a space, nanoseconds; or seconds and a
space; or no time, in which case the time of the line before is kept. -/
inductive TimedLine (q p : UInt32) : Bytes → LgMsg → Prop
  | full {s n rest v w} (hs : Numeral s v) (h0 : s.head? ≠ some 32) (hn : Numeral n w)
      (hr : ∀ b, rest.head? = some b → isDigit b = false) :
      TimedLine q p (s ++ 32 :: (n ++ rest)) (low32 v, low32 w, rest.dropWhile (· == 32))
  | sec {s rest v} (hs : Numeral s v) (h0 : s.head? ≠ some 32) (hn : NoNumber rest) :
      TimedLine q p (s ++ 32 :: rest) (low32 v, 0, rest.dropWhile (· == 32))
  /-- a number without a space after it is lost -/
  | glued {s rest v} (hs : Numeral s v) (h0 : s.head? ≠ some 32) (hr : ∀ b, rest.head? = some b → isDigit b = false ∧ b ≠ 32) :
      TimedLine q p (s ++ rest) (q, p, rest)
  | plain {line} (h : line.head? = some 32 ∨ NoNumber line) : TimedLine q p line (q, p, line.dropWhile (· == 32))

/-- The lines read, each starting from the time of the one before. -/
inductive TimedLines : UInt32 → UInt32 → List Bytes → List LgMsg → Prop
  | nil {q p} : TimedLines q p [] []
  | cons {q p c cs m ms} (h : TimedLine q p (cstr c) m) (hs : TimedLines m.1 m.2.1 cs ms) : TimedLines q p (c :: cs) (m :: ms)

/-- How the input is cut: into lines, with their newline, and long lines into
pieces of 255 bytes. -/
def Chunks (input : Bytes) (cs : List Bytes) : Prop :=
  cs.flatten = input ∧ (∀ c ∈ cs, c ≠ [] ∧ c.length ≤ 255 ∧ 10 ∉ c.dropLast) ∧
    ∀ pre c d post, cs = pre ++ c :: d :: post → c.getLast? = some 10 ∨ c.length = 255

theorem numeral_ne_nil {s : Bytes} {v : Int} (h : Numeral s v) : s ≠ [] := by
  obtain ⟨sp, sg, ds, rfl, _, _, h, _⟩ := h
  simp [h]

theorem head_append {s r : Bytes} (h : s ≠ []) : (s ++ r).head? = s.head? := by
  cases s with
  | nil => exact absurd rfl h
  | cons a s => rfl

theorem digit_not_space {r : Bytes} : ∀ b, (32 :: r : Bytes).head? = some b → isDigit b = false := by
  intro b hb
  simp at hb
  rw [← hb]; decide

theorem lgLine_timed (env : LgEnv) (i : Nat) {st : Lg} (ht : st.hasTime = true) {line : Bytes} {m : LgMsg}
    (h : TimedLine st.sec st.nsec line m) : keyOf (lgLine env i st line) = m := by
  have hk : lgLine env i st line =
      ((match (parseTime line).1 with
        | some (s, n) => { st with sec := s, nsec := n }
        | none => st), spaceSkip (line.drop (parseTime line).2)) := by
    have hc : clockOf env i st = none := by unfold clockOf; rw [ht, if_pos rfl]
    unfold lgLine
    rw [hc]
    rfl
  rw [hk]
  cases h with
  | @full s n rest v w hs h0 hn hr =>
    have hne : ¬ (s ++ 32 :: (n ++ rest) = [] ∨ (s ++ 32 :: (n ++ rest)).head? = some 32) := by
      rw [head_append (numeral_ne_nil hs)]; simp [h0]
    have hp : parseTime (s ++ 32 :: (n ++ rest)) = (some (low32 v, low32 w), s.length + 1 + n.length) := by
      unfold parseTime
      rw [if_neg hne, strtolEnd_num hs _ digit_not_space]
      dsimp only
      rw [List.drop_left, if_pos List.head?_cons, show s ++ 32 :: (n ++ rest) = (s ++ [32]) ++ (n ++ rest) by simp,
        show s.length + 1 = (s ++ [32]).length by simp, List.drop_left, strtolEnd_num hn _ hr]
      dsimp only
      rw [if_pos (by have := numeral_ne_nil hn; simpa using this)]
    rw [hp]
    dsimp only
    rw [show s ++ 32 :: (n ++ rest) = (s ++ 32 :: n) ++ rest by simp,
      show s.length + 1 + n.length = (s ++ 32 :: n).length by simp; omega, List.drop_left]
    rfl
  | @sec s rest v hs h0 hn =>
    have hne : ¬ (s ++ 32 :: rest = [] ∨ (s ++ 32 :: rest).head? = some 32) := by
      rw [head_append (numeral_ne_nil hs)]; simp [h0]
    have hp : parseTime (s ++ 32 :: rest) = (some (low32 v, 0), s.length + 1) := by
      unfold parseTime
      rw [if_neg hne, strtolEnd_num hs _ digit_not_space]
      dsimp only
      rw [List.drop_left, if_pos List.head?_cons, show s ++ 32 :: rest = (s ++ [32]) ++ rest by simp,
        show s.length + 1 = (s ++ [32]).length by simp, List.drop_left, strtolEnd_none hn]
      rfl
    rw [hp]
    dsimp only
    rw [show s ++ 32 :: rest = (s ++ [32]) ++ rest by simp, show s.length + 1 = (s ++ [32]).length by simp, List.drop_left]
    rfl
  | @glued s rest v hs h0 hr =>
    have hne : ¬ (s ++ rest = [] ∨ (s ++ rest).head? = some 32) := by
      rw [head_append (numeral_ne_nil hs)]; simp [h0, numeral_ne_nil hs]
    have hp : parseTime (s ++ rest) = (none, s.length) := by
      unfold parseTime
      rw [if_neg hne, strtolEnd_num hs _ (fun b hb => (hr b hb).1)]
      dsimp only
      rw [List.drop_left, if_neg (fun h => (hr _ h).2 rfl)]
    rw [hp]
    dsimp only
    rw [List.drop_left]
    have : spaceSkip rest = rest := by
      unfold spaceSkip
      cases rest with
      | nil => rfl
      | cons b r => rw [List.dropWhile_cons, if_neg (by simpa using (hr b rfl).2)]
    rw [this]
    rfl
  | plain h =>
    have hp : parseTime line = (none, 0) := by
      unfold parseTime
      by_cases h0 : line = [] ∨ line.head? = some 32
      · rw [if_pos h0]
      rw [if_neg h0]
      have hn : NoNumber line := by
        rcases h with h | h
        · exact absurd (.inr h) h0
        · exact h
      rw [strtolEnd_none hn]
      dsimp only
      rw [List.drop_zero, if_neg (fun h => h0 (.inr h))]
    rw [hp]
    rfl

theorem lineMsgs_timed (env : LgEnv) {q p : UInt32} {cs : List Bytes} {ms : List LgMsg} (h : TimedLines q p cs ms) :
    ∀ i (st : Lg), st.hasTime = true → st.sec = q → st.nsec = p → (lineMsgs env i st cs).map keyOf = ms := by
  induction h with
  | nil => intro i st _ _ _; rfl
  | @cons q p c cs m ms h hs ih =>
    intro i st ht hq hp
    subst hq hp
    have hl := lgLine_timed env i ht h
    unfold lineMsgs
    rw [List.map_cons, hl, ih _ _ (by rw [(lgLine_who env i st _).2]; exact ht) (by rw [← hl]; rfl) (by rw [← hl]; rfl)]

theorem lineMsgs_clock (env : LgEnv) (c : Nat → UInt32 × UInt32) : ∀ (cs : List Bytes) i (st : Lg), st.hasTime = false →
    (∀ j, j < cs.length → env.clock (i + j) = some (c (i + j))) →
    (lineMsgs env i st cs).map keyOf = (cs.zipIdx i).map fun p => ((c p.2).1, (c p.2).2, cstr p.1) := by
  intro cs
  induction cs with
  | nil => intros; rfl
  | cons l cs ih =>
    intro i st ht hc
    have h0 := hc 0 (by simp)
    have ha : lgLine env i st (cstr l) = ({ st with sec := (c i).1, nsec := (c i).2 }, cstr l) := by
      unfold lgLine clockOf
      rw [ht, if_neg (by simp)]
      rw [Nat.add_zero] at h0
      rw [h0]
    unfold lineMsgs
    rw [ha, List.map_cons, List.zipIdx_cons, List.map_cons]
    dsimp only
    rw [ih (i + 1) _ (by exact ht) (fun j hj => by
      rw [show i + 1 + j = i + (j + 1) by omega]; exact hc (j + 1) (by simpa using hj))]
    rfl

theorem fgets_spec {s : Bytes} (h : s ≠ []) :
    s = (fgets s).1 ++ (fgets s).2 ∧ (fgets s).1 ≠ [] ∧ (fgets s).1.length ≤ 255 ∧ 10 ∉ (fgets s).1.dropLast ∧
      ((fgets s).2 ≠ [] → (fgets s).1.getLast? = some 10 ∨ (fgets s).1.length = 255) := by
  obtain ⟨e1, h1⟩ := takeWhile_length_split (· != 10) s
  generalize ht : s.takeWhile (· != 10) = a at e1 h1
  generalize hr : s.drop a.length = r at e1 h1
  have ha : 10 ∉ a := by
    intro hm
    have := List.all_eq_true.mp (List.all_takeWhile (p := (· != 10)) (l := s)) 10 (by rw [ht]; exact hm)
    simp at this
  have hf : fgets s = (s.take (min 255 (if a.length < s.length then a.length + 1 else a.length)),
      s.drop (min 255 (if a.length < s.length then a.length + 1 else a.length))) := by
    unfold fgets; rw [ht]
  have hpos : 0 < s.length := List.length_pos_iff.mpr h
  rw [hf]
  dsimp only
  cases r with
  | nil =>
    rw [List.append_nil] at e1
    have hsl : a.length = s.length := by rw [e1]
    rw [if_neg (by omega)]
    refine ⟨(List.take_append_drop _ _).symm, ?_, ?_, ?_, ?_⟩
    · intro hc; have := congrArg List.length hc; rw [List.length_take, List.length_nil] at this; omega
    · simp; omega
    · intro hm
      have := List.mem_of_mem_take ((List.dropLast_subset _ hm))
      rw [e1] at this; exact ha this
    · intro hd
      refine .inr ?_
      have : ¬ s.length ≤ min 255 a.length := fun hle => hd (List.drop_eq_nil_of_le hle)
      simp
      omega
  | cons b r =>
    have hb : b = 10 := by simpa using h1 b rfl
    subst hb
    have hsl : s.length = a.length + 1 + r.length := by rw [e1]; simp; omega
    rw [if_pos (by omega)]
    have hpre : s.take (a.length + 1) = a ++ [10] := by
      rw [e1, show a ++ 10 :: r = (a ++ [10]) ++ r by simp, show a.length + 1 = (a ++ [10]).length by simp, List.take_left]
    refine ⟨(List.take_append_drop _ _).symm, ?_, ?_, ?_, ?_⟩
    · intro hc; have := congrArg List.length hc; rw [List.length_take, List.length_nil] at this; omega
    · simp; omega
    · intro hm
      by_cases hle : a.length + 1 ≤ 255
      · rw [Nat.min_eq_right hle, hpre, List.dropLast_concat] at hm
        exact ha hm
      · rw [Nat.min_eq_left (by omega)] at hm
        have := (List.dropLast_subset _ hm)
        rw [e1, List.take_append_of_le_length (by omega)] at this
        exact ha (List.mem_of_mem_take this)
    · intro _
      by_cases hle : a.length + 1 ≤ 255
      · left
        rw [Nat.min_eq_right hle, hpre]
        simp
      · right
        simp; omega

theorem chunksOf_spec : ∀ (fuel : Nat) (input : Bytes), input.length ≤ fuel → Chunks input (chunksOf fuel input) := by
  intro fuel
  induction fuel with
  | zero =>
    intro input h
    have : input = [] := List.length_eq_zero_iff.mp (by omega)
    subst this
    exact ⟨rfl, by simp [chunksOf], by simp [chunksOf]⟩
  | succ fuel ih =>
    intro input h
    unfold chunksOf
    by_cases h0 : input = []
    · rw [if_pos h0]; subst h0; exact ⟨rfl, by simp, by simp⟩
    rw [if_neg h0]
    obtain ⟨k1, k2, k3, k4, k5⟩ := fgets_spec h0
    have hl : (fgets input).2.length ≤ fuel := by
      have := congrArg List.length k1
      have hp : 0 < (fgets input).1.length := List.length_pos_iff.mpr k2
      rw [List.length_append] at this
      omega
    obtain ⟨j1, j2, j3⟩ := ih _ hl
    refine ⟨?_, ?_, ?_⟩
    · rw [List.flatten_cons, j1]; exact k1.symm
    · intro c hc
      rcases List.mem_cons.mp hc with rfl | hc
      · exact ⟨k2, k3, k4⟩
      · exact j2 c hc
    · intro pre c d post he
      cases pre with
      | nil =>
        simp only [List.nil_append, List.cons.injEq] at he
        obtain ⟨rfl, he⟩ := he
        refine k5 ?_
        intro hn
        rw [hn] at he
        have : chunksOf fuel [] = [] := by cases fuel <;> rfl
        rw [this] at he
        cases he
      | cons x pre =>
        simp only [List.cons_append, List.cons.injEq] at he
        exact j3 pre c d post he.2

/-- There is one way to cut. -/
theorem chunks_unique : ∀ {cs ds : List Bytes} {input : Bytes}, Chunks input cs → Chunks input ds → cs = ds := by
  intro cs
  induction cs with
  | nil =>
    intro ds input h1 h2
    cases ds with
    | nil => rfl
    | cons d ds =>
      have e := h1.1.trans h2.1.symm
      have := (h2.2.1 d (by simp)).1
      simp at e
      exact absurd e.1 this
  | cons c cs ih =>
    intro ds input h1 h2
    cases ds with
    | nil =>
      have e := h1.1.trans h2.1.symm
      have := (h1.2.1 c (by simp)).1
      simp at e
      exact absurd e.1 this
    | cons d ds =>
      -- the shorter of the first pieces ends in a newline, has 255 bytes, or is all there is
      have key : ∀ {c d : Bytes} {cs ds : List Bytes}, Chunks input (c :: cs) → Chunks input (d :: ds) →
          c.length < d.length → False := by
        intro c d cs ds h1 h2 hlt
        have e : c ++ cs.flatten = d ++ ds.flatten := by
          have := h1.1.trans h2.1.symm; simpa using this
        have hpre : c <+: d := List.prefix_of_prefix_length_le ⟨cs.flatten, rfl⟩ ⟨ds.flatten, e.symm⟩ (by omega)
        obtain ⟨x, hx⟩ := hpre
        have hxne : x ≠ [] := by rintro rfl; rw [List.append_nil] at hx; rw [hx] at hlt; omega
        cases cs with
        | nil =>
          have := congrArg List.length e
          simp at this
          omega
        | cons c2 cs2 =>
          rcases h1.2.2 [] c c2 cs2 rfl with hl | hl
          · have hmem : (10 : UInt8) ∈ c := List.mem_of_getLast? hl
            refine (h2.2.1 d (by simp)).2.2 ?_
            rw [← hx, List.dropLast_append_of_ne_nil hxne]
            simp [hmem]
          · have := (h2.2.1 d (by simp)).2.1
            omega
      have hlen : c.length = d.length := by
        rcases Nat.lt_trichotomy c.length d.length with h | h | h
        · exact (key h1 h2 h).elim
        · exact h
        · exact (key h2 h1 h).elim
      have e : c ++ cs.flatten = d ++ ds.flatten := by
        have := h1.1.trans h2.1.symm; simpa using this
      obtain ⟨e1, e2⟩ := List.append_inj e hlen
      subst e1
      have tail : ∀ {l : List Bytes}, Chunks input (c :: l) → Chunks l.flatten l := by
        intro l h
        refine ⟨rfl, fun x hx => h.2.1 x (by simp [hx]), ?_⟩
        intro pre a b post he
        exact h.2.2 (c :: pre) a b post (by rw [he]; rfl)
      have := tail h2
      rw [← e2] at this
      rw [ih (tail h1) this]

/-- C88, lines. Without message argument and without `-m`, each piece of the input
is one entry, in order, with the time of the clock and what the options say. -/
theorem C88_lines (env : LgEnv) {fd : Nat} (hd : env.dev = some fd) (self : Bytes) (pid : UInt32) {opts : List LgOpt}
    (hu : Usual opts) (ht : LgOpt.time ∉ opts) (c : Nat → UInt32 × UInt32) {input : Bytes} {cs : List Bytes}
    (hcs : Chunks input cs) (hc : ∀ j, j < cs.length → env.clock j = some (c j))
    (hp : (whoOf self pid opts).pid ≠ 0xffffffff) :
    Outcome env (whoOf self pid opts) 0 (cs.zipIdx.map fun p => ((c p.2).1, (c p.2).2, cstr p.1))
      (ulogger env self pid opts [] input) := by
  have hce := chunks_unique hcs (chunksOf_spec input.length input (Nat.le_refl _))
  rw [ulogger_emit env self pid hu, ← lineMsgs_clock env c cs 0 (start self pid opts)
    (by rw [start_time]; simpa using ht) (by simpa using hc)]
  have : msgsOf env (start self pid opts) [] input = lineMsgs env 0 (start self pid opts) cs := by
    unfold msgsOf; rw [if_neg (by simp), hce]
  rw [this]
  refine emit_some hd hp _ _ ?_
  intro m hm
  rw [lineMsgs_who env _ _ _ m hm, start_who]

/-- C88. Every input can be cut. -/
theorem C88_chunks (input : Bytes) : ∃ cs, Chunks input cs := ⟨_, chunksOf_spec input.length input (Nat.le_refl _)⟩

/-- C87, lines. With `-m`: what is logged for each input. -/
theorem C87_lines (env : LgEnv) {fd : Nat} (hd : env.dev = some fd) (self : Bytes) (pid : UInt32) {opts : List LgOpt}
    (hu : Usual opts) (ht : LgOpt.time ∈ opts) {input : Bytes} {cs : List Bytes} (hcs : Chunks input cs) {ms : List LgMsg}
    (hm : TimedLines 0 0 cs ms) (hp : (whoOf self pid opts).pid ≠ 0xffffffff) :
    Outcome env (whoOf self pid opts) 0 ms (ulogger env self pid opts [] input) := by
  have hce := chunks_unique hcs (chunksOf_spec input.length input (Nat.le_refl _))
  rw [ulogger_emit env self pid hu, ← lineMsgs_timed env hm 0 (start self pid opts)
    (by rw [start_time]; simpa using ht) rfl rfl]
  have : msgsOf env (start self pid opts) [] input = lineMsgs env 0 (start self pid opts) cs := by
    unfold msgsOf; rw [if_neg (by simp), hce]
  rw [this]
  refine emit_some hd hp _ _ ?_
  intro m hm
  rw [lineMsgs_who env _ _ _ m hm, start_who]

/-- Every line has a reading. -/
theorem timedLine_total (q p : UInt32) (line : Bytes) : ∃ m, TimedLine q p line m := by
  by_cases h0 : line.head? = some 32
  · exact ⟨_, .plain (.inl h0)⟩
  rcases num_cases line with ⟨_, h⟩ | ⟨a, r, v, he, hn, hr⟩
  · exact ⟨_, .plain (.inr h)⟩
  have ha : a.head? ≠ some 32 := by rw [he, head_append (numeral_ne_nil hn)] at h0; exact h0
  rw [he]
  by_cases hs : r.head? = some 32
  · obtain ⟨r', rfl⟩ : ∃ r', r = 32 :: r' := by
      cases r with
      | nil => cases hs
      | cons b r' => simp at hs; exact ⟨r', by rw [hs]⟩
    rcases num_cases r' with ⟨_, h⟩ | ⟨b, r2, w, he2, hn2, hr2⟩
    · exact ⟨_, .sec hn ha h⟩
    · rw [he2]; exact ⟨_, .full hn ha hn2 hr2⟩
  · exact ⟨_, .glued hn ha (fun b hb => ⟨hr b hb, fun h => hs (by rw [hb, h])⟩)⟩

theorem C87_lines_total : ∀ (cs : List Bytes) (q p : UInt32), ∃ ms, TimedLines q p cs ms := by
  intro cs
  induction cs with
  | nil => intro q p; exact ⟨[], .nil⟩
  | cons c cs ih =>
    intro q p
    obtain ⟨m, hm⟩ := timedLine_total q p (cstr c)
    obtain ⟨ms, hms⟩ := ih m.1 m.2.1
    exact ⟨_, .cons hm hms⟩

/-- C87, false of the documentation: a line after `-m` that begins with a number
without a space after it loses that number, though it gives no time. -/
theorem C87_false_text (env : LgEnv) {fd : Nat} (hd : env.dev = some fd) (hw : ∀ i, env.write i = none) (self : Bytes)
    (pid : UInt32) (hp : pid ≠ 0xffffffff) {s rest : Bytes} {v : Int} (hs : Numeral s v) (h0 : s.head? ≠ some 32)
    (hnl : 10 ∉ s ++ rest) (hnul : NoNul (s ++ rest)) (hlen : (s ++ rest).length < 255)
    (hr : ∀ b, rest.head? = some b → isDigit b = false ∧ b ≠ 32) :
    ulogger env self pid [.time] [] (s ++ rest ++ [10]) =
      ([.write (vecOf (whoOf self pid []) (0, 0, rest ++ [10]))], 0) := by
  have hwho : whoOf self pid [LgOpt.time] = whoOf self pid [] := by
    simp [whoOf, lastOf, pidOpt, nameOpt, tagOpt, prioOpt]
  have hcs : Chunks (s ++ rest ++ [10]) [s ++ rest ++ [10]] := by
    refine ⟨by simp, ?_, ?_⟩
    · intro c hc
      simp only [List.mem_singleton] at hc
      subst hc
      refine ⟨by simp, by simp only [List.length_append, List.length_singleton] at hlen ⊢; omega, ?_⟩
      rw [List.dropLast_concat]; exact hnl
    · intro pre c d post he
      have := congrArg List.length he
      simp at this
      omega
  have hcstr : cstr (s ++ rest ++ [10]) = s ++ (rest ++ [10]) := by
    rw [List.append_assoc]
    have hall : ∀ b ∈ s ++ (rest ++ [10]), (b != 0) = true := by
      intro b hb
      rw [← List.append_assoc] at hb
      rcases List.mem_append.mp hb with hb | hb
      · simpa using hnul b hb
      · simp at hb; subst hb; decide
    unfold cstr
    have := takeWhile_append_all (r := []) hall (by simp)
    rwa [List.append_nil] at this
  have := C87_lines env hd self pid (opts := [.time]) ⟨by simp, by simp⟩ (by simp) hcs
    (.cons (by rw [hcstr]; exact .glued hs h0 (by
      intro b hb
      cases rest with
      | nil => simp at hb; subst hb; decide
      | cons x r => exact hr b hb)) .nil) (by rw [hwho]; simpa [whoOf, lastOf] using hp)
  rw [hwho] at this
  rcases this with ⟨_, h⟩ | ⟨pre, m, post, e, _, _, h, _⟩
  · rw [h]; simp [shown, whoOf]
  · rw [hw] at h; cases h

/-! ## C89: without the device -/

/-- C89. If the device cannot be opened, the same messages with the same level go
through the library, but always with the tag `ulogger`, and without the process,
name and time asked for; the copies on standard error are the same. -/
theorem C89_fallback (env : LgEnv) (hd : env.dev = none) (self : Bytes) (pid : UInt32) {opts : List LgOpt} (hu : Usual opts)
    (args : List Bytes) (input : Bytes) (hp : (whoOf self pid opts).pid ≠ 0xffffffff) (fd : Nat) :
    ∃ ms, Outcome { env with dev := some fd } (whoOf self pid opts) 0 ms
        (ulogger { env with dev := some fd } self pid opts args input) ∧
      ulogger env self pid opts args input =
        (ms.flatMap fun m => .str (whoOf self pid opts).level (ascii "ulogger") m.2.2 :: shown (whoOf self pid opts) m.2.2, 0) := by
  refine ⟨(msgsOf env (start self pid opts) args input).map keyOf, ?_, ?_⟩
  · rw [ulogger_emit _ self pid hu]
    have : msgsOf { env with dev := some fd } (start self pid opts) args input = msgsOf env (start self pid opts) args input := by
      have ha : ∀ fuel i st args, argMsgs { env with dev := some fd } fuel i st args = argMsgs env fuel i st args := by
        intro fuel
        induction fuel with
        | zero => intros; rfl
        | succ fuel ih =>
          intro i st args
          cases args with
          | nil => rfl
          | cons a r => unfold argMsgs; rw [ih]; rfl
      have hl : ∀ cs i st, lineMsgs { env with dev := some fd } i st cs = lineMsgs env i st cs := by
        intro cs
        induction cs with
        | nil => intros; rfl
        | cons c cs ih => intro i st; unfold lineMsgs; rw [ih]; rfl
      unfold msgsOf
      rw [ha, hl]
    rw [this]
    refine emit_some (env := { env with dev := some fd }) rfl hp _ _ ?_
    intro m hm
    rw [msgsOf_who env _ _ _ m hm, start_who]
  · rw [ulogger_emit _ self pid hu]
    refine emit_none hd _ _ ?_
    intro m hm
    rw [msgsOf_who env _ _ _ m hm, start_who]

/-- C89, false: the tag asked for is not used. -/
theorem C89_false_tag (env : LgEnv) (hd : env.dev = none) (self tag text : Bytes) (pid : UInt32) (input : Bytes) :
    ulogger env self pid [.tag tag] [text] input = ([.str 6 (ascii "ulogger") text], 0) := by
  rw [ulogger_emit env self pid ⟨by simp, by simp⟩]
  have h := emit_none hd (msgsOf env (start self pid [.tag tag]) [text] input) 0 (fun m hm => by
    rw [msgsOf_who env _ _ _ m hm])
  rw [h]
  have hm : msgsOf env (start self pid [.tag tag]) [text] input =
      [((lgArg env 0 (start self pid [.tag tag]) text []).1, (lgArg env 0 (start self pid [.tag tag]) text []).2.1)] := by
    unfold msgsOf
    rw [if_pos (by simp)]
    simp only [List.length_singleton, argMsgs]
  have ht : (lgArg env 0 (start self pid [.tag tag]) text []).2.1 = text := by
    unfold lgArg
    split <;> rfl
  rw [hm, ht]
  simp [keyOf, Lg.who, start, after, lastOf, prioOpt, shown]

end Verif.Tools
