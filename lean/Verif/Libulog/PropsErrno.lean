import Verif.Libulog.MacrosErrno
import Verif.Libulog.EndToEnd

/-!
# The errno and event macros (C107)
-/
namespace Verif.Libulog
open Verif Verif.Kernel

/-! ## Splitting texts -/

theorem split_first {x : UInt8} : ∀ {a a' b b' : Bytes}, a ++ x :: b = a' ++ x :: b' → x ∉ a → x ∉ a' → a = a' ∧ b = b'
  | [], [], _, _, h, _, _ => by simpa using h
  | [], y :: a', _, _, h, _, h2 => by
    simp only [List.nil_append, List.cons_append, List.cons.injEq] at h
    exact absurd (by rw [h.1]; exact List.mem_cons_self) h2
  | y :: a, [], _, _, h, h1, _ => by
    simp only [List.nil_append, List.cons_append, List.cons.injEq] at h
    exact absurd (by rw [← h.1]; exact List.mem_cons_self) h1
  | y :: a, z :: a', _, _, h, h1, h2 => by
    simp only [List.cons_append, List.cons.injEq] at h
    obtain ⟨i1, i2⟩ := split_first h.2 (fun hx => h1 (List.mem_cons_of_mem _ hx)) (fun hx => h2 (List.mem_cons_of_mem _ hx))
    exact ⟨by rw [h.1, i1], i2⟩

theorem split_last {x : UInt8} {a a' b b' : Bytes} (h : a ++ x :: b = a' ++ x :: b') (h1 : x ∉ b) (h2 : x ∉ b') : a = a' ∧ b = b' := by
  have hr := congrArg List.reverse h
  simp only [List.reverse_append, List.reverse_cons, List.append_assoc, List.singleton_append] at hr
  obtain ⟨i1, i2⟩ := split_first hr (by simpa using h1) (by simpa using h2)
  exact ⟨List.reverse_inj.1 i2, List.reverse_inj.1 i1⟩

theorem decNat_inj {n m : Nat} (h : decNat n = decNat m) : n = m := by
  rw [← parseDec_decNat n, h, parseDec_decNat]

theorem decNat_no {n : Nat} {x : UInt8} (hx : isDigit x = false) : x ∉ decNat n := fun h => by
  rw [decNat_digits n x h] at hx
  cases hx

theorem decInt_no {n : Int} {x : UInt8} (hx : isDigit x = false) (h45 : x ≠ 45) : x ∉ decInt n := by
  cases n with
  | ofNat n => exact decNat_no hx
  | negSucc n => simp [decInt, h45, decNat_no hx]

theorem decInt_inj {n m : Int} (h : decInt n = decInt m) : n = m := by
  cases n with
  | ofNat n =>
    cases m with
    | ofNat m => rw [decNat_inj h]
    | negSucc m =>
      have : (45 : UInt8) ∈ decNat n := by
        have h' : decNat n = 45 :: decNat (m + 1) := h
        rw [h']; exact List.mem_cons_self
      exact absurd this (decNat_no (by decide))
  | negSucc n =>
    cases m with
    | ofNat m =>
      have : (45 : UInt8) ∈ decNat m := by
        have h' : 45 :: decNat (n + 1) = decNat m := h
        rw [← h']; exact List.mem_cons_self
      exact absurd this (decNat_no (by decide))
    | negSucc m =>
      have h' : (45 : UInt8) :: decNat (n + 1) = 45 :: decNat (m + 1) := h
      have := decNat_inj (List.cons.inj h').2
      rw [show n = m by omega]

/-! ## The property -/

variable {μ α : Type} {S : Site μ} {c : Cid} {func : Bytes} {line : Nat}

/-- C107, text. The place, the message and the error can be told from the text of a
message: function names have no colon, error texts no opening bracket. -/
theorem C107_text {func func' : Bytes} {line line' : Nat} {msg msg' : Bytes} {err err' : Int} {str str' : Bytes}
    (hf : (58 : UInt8) ∉ func) (hf' : (58 : UInt8) ∉ func') (hs : (40 : UInt8) ∉ str) (hs' : (40 : UInt8) ∉ str')
    (h : errnoText func line msg err str = errnoText func' line' msg' err' str') :
    func = func' ∧ line = line' ∧ msg = msg' ∧ err = err' ∧ str = str' := by
  have e : ∀ (func : Bytes) line msg err (str : Bytes), errnoText func line msg err str =
      ((func ++ 58 :: (decNat line ++ 58 :: (32 :: msg))) ++ [32, 101, 114, 114] ++ 61 :: decInt err) ++ 40 :: (str ++ [41]) := by
    intros
    unfold errnoText
    simp [show ascii ":" = [58] from by decide, show ascii ": " = [58, 32] from by decide,
      show ascii " err=" = [32, 101, 114, 114, 61] from by decide, show ascii "(" = [40] from by decide, show ascii ")" = [41] from by decide]
  rw [e, e] at h
  obtain ⟨h1, h2⟩ := split_last h (by simp [hs]) (by simp [hs'])
  obtain ⟨h3, h4⟩ := split_last h1 (decInt_no (by decide) (by decide)) (decInt_no (by decide) (by decide))
  have h5 := List.append_cancel_right h3
  obtain ⟨h6, h7⟩ := split_first h5 hf hf'
  obtain ⟨h8, h9⟩ := split_first h7 (decNat_no (by decide)) (decNat_no (by decide))
  exact ⟨h6, decNat_inj h8, (List.cons.inj h9).2, decInt_inj h4, List.append_cancel_right h2⟩

/-- `ulog_log` with a text that costs nothing to make, as a call of the library. -/
theorem ulogLog_pure {p : UInt32} {t : Bytes} {s s' : CSt μ}
    (h : ulogLog S (fun s => (p, s)) c (fun s => (some t, s)) s = .ok s') :
    ∃ e, wstep S.nm S.world s.lib (.log p c (some t)) = .ok (s'.lib, .unit, e) ∧ s'.evs = s.evs ++ e ∧ s'.mem = s.mem := by
  simp only [ulogLog, formatted, bind, Except.bind] at h
  simp only [wstep, logOn, formatted, bind, Except.bind]
  by_cases hl : ((p.toNat % 8 : Nat) : Int) ≤ (ensureInit S.nm S.world s.lib c).1.level c
  · rw [if_pos hl] at h ⊢
    cases hd : deliver S.nm S.world (ensureInit S.nm S.world s.lib c).1 p c (t.take 255 ++ [0]) with
    | error e => rw [hd] at h; cases h
    | ok x =>
      rw [hd] at h
      cases h
      exact ⟨_, rfl, by simp, rfl⟩
  · rw [if_neg hl] at h ⊢
    cases h
    exact ⟨_, rfl, rfl, rfl⟩

theorem ulogLog_after {p : UInt32} {t : Bytes} {s s' : CSt μ}
    (h : ulogLog S (fun s => (p, s)) c (fun s => (some t, s)) s = .ok s')
    (hl : ((p.toNat % 8 : Nat) : Int) ≤ (ensureInit S.nm S.world s.lib c).1.level c) :
    ∃ s1 : CSt μ, s1.errno = s.errno ∧ s1.mem = s.mem ∧ s'.errno = S.after s1 := by
  simp only [ulogLog, formatted, bind, Except.bind] at h
  rw [if_pos hl] at h
  cases hd : deliver S.nm S.world (ensureInit S.nm S.world s.lib c).1 p c (t.take 255 ++ [0]) with
  | error e => rw [hd] at h; cases h
  | ok x =>
    rw [hd] at h
    cases h
    exact ⟨{ s with lib := (ensureInit S.nm S.world s.lib c).1, evs := s.evs ++ (ensureInit S.nm S.world s.lib c).2 }, rfl, rfl, rfl⟩

/-- C107, filtering. The arguments of a message that the level of its tag forbids are
not evaluated: whatever they are, the result is the same. -/
theorem C107_filtered {prio : Ex μ UInt32} {s : CSt μ} {text text' : Ex μ (Option Bytes)}
    (h : (ensureInit S.nm S.world (prio s).2.lib c).1.level c < (((prio s).1.toNat % 8 : Nat) : Int)) :
    ulogLog S prio c text s = ulogLog S prio c text' s := by
  unfold ulogLog
  dsimp only
  rw [if_neg (by omega), if_neg (by omega)]

/-- C107, arguments. Arguments are evaluated with the `errno` of before the call, also
if the call initialises the tag: arguments that agree there give the same result. -/
theorem C107_errno {p : UInt32} {s : CSt μ} {text text' : Ex μ (Option Bytes)}
    (h : ∀ s' : CSt μ, s'.errno = s.errno → s'.mem = s.mem → text s' = text' s') :
    ulogLog S (fun s => (p, s)) c text s = ulogLog S (fun s => (p, s)) c text' s := by
  have := h { s with lib := (ensureInit S.nm S.world s.lib c).1, evs := s.evs ++ (ensureInit S.nm S.world s.lib c).2 } rfl rfl
  unfold ulogLog
  dsimp only
  rw [this]

/-- The text logged by the macros that return. -/
def siteText (S : Site μ) (func : Bytes) (line : Nat) (e : Int) : Bytes := errnoText func line [] e (S.strerror e)

theorem uloge_pure {e : Int} {s s' : CSt μ} (h : ulogeErrno S c func line (fun s => (e, s)) s = .ok s') :
    ∃ ev, wstep S.nm S.world s.lib (.log 3 c (some (siteText S func line e))) = .ok (s'.lib, .unit, ev) ∧
      s'.evs = s.evs ++ ev ∧ s'.mem = s.mem := ulogLog_pure h

theorem uloge_split (err : Ex μ Int) (s : CSt μ) :
    ulogeErrno S c func line err s = ulogeErrno S c func line (fun t => ((err s).1, t)) (err s).2 := rfl

/-- C107, `ULOG_ERRNO_RETURN_ERR_IF`. The condition is evaluated once; if it is false
nothing else is done. Otherwise the error is evaluated once, right after it; the
message with its number and text is logged; and the function returns its negation,
whatever logging does to `errno`. (The least `int` has no negation.) -/
theorem C107_err {cond : Ex μ Bool} {err : Ex μ Int} {s s1 s2 s' : CSt μ} {b : Bool} {e : Int} (hc : cond s = (b, s1)) (he : err s1 = (e, s2))
    {r : Option (Option Int)} (h : returnErrIf S c func line cond err s = .ok (r, s')) :
    (b = false ∧ r = none ∧ s' = s1) ∨
    (b = true ∧ r = some (if e = -2147483648 then none else some (-e)) ∧
      ∃ ev, wstep S.nm S.world s2.lib (.log 3 c (some (siteText S func line e))) = .ok (s'.lib, .unit, ev) ∧
        s'.evs = s2.evs ++ ev ∧ s'.mem = s2.mem) := by
  unfold returnErrIf at h
  rw [hc] at h
  dsimp only at h
  cases b with
  | false => cases h; exact .inl ⟨rfl, rfl, rfl⟩
  | true =>
    rw [he] at h
    simp only [if_true, bind, Except.bind] at h
    cases hu : ulogeErrno S c func line (fun s => (e, s)) s2 with
    | error x => rw [hu] at h; cases h
    | ok s3 =>
      rw [hu] at h
      cases h
      exact .inr ⟨rfl, rfl, uloge_pure hu⟩

/-- C107, `ULOG_ERRNO_RETURN_IF`. -/
theorem C107_return {cond : Ex μ Bool} {err : Ex μ Int} {s s1 s2 s' : CSt μ} {b : Bool} {e : Int} (hc : cond s = (b, s1)) (he : err s1 = (e, s2))
    {r : Option Unit} (h : returnIf S c func line cond err s = .ok (r, s')) :
    (b = false ∧ r = none ∧ s' = s1) ∨
    (b = true ∧ r = some () ∧
      ∃ ev, wstep S.nm S.world s2.lib (.log 3 c (some (siteText S func line e))) = .ok (s'.lib, .unit, ev) ∧
        s'.evs = s2.evs ++ ev ∧ s'.mem = s2.mem) := by
  unfold returnIf at h
  rw [hc] at h
  dsimp only at h
  cases b with
  | false => cases h; exact .inl ⟨rfl, rfl, rfl⟩
  | true =>
    simp only [if_true, bind, Except.bind] at h
    rw [uloge_split, he] at h
    cases hu : ulogeErrno S c func line (fun s => (e, s)) s2 with
    | error x => rw [hu] at h; cases h
    | ok s3 =>
      rw [hu] at h
      cases h
      exact .inr ⟨rfl, rfl, uloge_pure hu⟩

/-- C107, `ULOG_ERRNO_RETURN_VAL_IF`. As before, but the value returned is evaluated
after the message was logged. -/
theorem C107_val {cond : Ex μ Bool} {err : Ex μ Int} {val : Ex μ α} {s s1 s2 s' : CSt μ} {b : Bool} {e : Int} (hc : cond s = (b, s1))
    (he : err s1 = (e, s2)) {r : Option α} (h : returnValIf S c func line cond err val s = .ok (r, s')) :
    (b = false ∧ r = none ∧ s' = s1) ∨
    (b = true ∧ ∃ s3 ev, wstep S.nm S.world s2.lib (.log 3 c (some (siteText S func line e))) = .ok (s3.lib, .unit, ev) ∧
        s3.evs = s2.evs ++ ev ∧ s3.mem = s2.mem ∧ some (val s3).1 = r ∧ s' = (val s3).2) := by
  unfold returnValIf at h
  rw [hc] at h
  dsimp only at h
  cases b with
  | false => cases h; exact .inl ⟨rfl, rfl, rfl⟩
  | true =>
    simp only [if_true, bind, Except.bind] at h
    rw [uloge_split, he] at h
    cases hu : ulogeErrno S c func line (fun s => (e, s)) s2 with
    | error x => rw [hu] at h; cases h
    | ok s3 =>
      rw [hu] at h
      cases h
      obtain ⟨ev, h1, h2, h3⟩ := uloge_pure hu
      exact .inr ⟨rfl, s3, ev, h1, h2, h3, rfl, rfl⟩

/-- The C expressions `errno` and `-errno`. -/
def errnoEx : Ex μ Int := fun s => (s.errno, s)
def negErrno : Ex μ Int := fun s => (-s.errno, s)

/-- C107, false for values: after a failed call, `ULOG_ERRNO_RETURN_VAL_IF(1, errno,
-errno)` returns whatever `errno` is after logging, if the message is let through and
the writer does not fault. -/
theorem C107_val_false {s : CSt μ} {r : Option Int} {s' : CSt μ} (h : returnValIf S c func line (fun s => (true, s)) errnoEx negErrno s = .ok (r, s'))
    (hl : 3 ≤ (ensureInit S.nm S.world s.lib c).1.level c) :
    ∃ s1 : CSt μ, s1.errno = s.errno ∧ s1.mem = s.mem ∧ r = some (-(S.after s1)) := by
  unfold returnValIf at h
  simp only [if_true, bind, Except.bind] at h
  rw [uloge_split] at h
  cases hu : ulogeErrno S c func line (fun t => ((errnoEx s).1, t)) (errnoEx s).2 with
  | error x => rw [hu] at h; cases h
  | ok s3 =>
    rw [hu] at h
    cases h
    obtain ⟨s1, h1, h2, h3⟩ := ulogLog_after (t := siteText S func line s.errno) hu hl
    exact ⟨s1, h1, h2, by rw [← h3]; rfl⟩

/-- … so a call site may return something else than the error it logged. -/
theorem C107_val_neg : ∃ (S : Site Unit) (s s' : CSt Unit), s.errno = 2 ∧
    returnValIf S 1 (ascii "f") 7 (fun s => (true, s)) errnoEx negErrno s = .ok (some (-11), s') :=
  ⟨{ nm := fun _ => ascii "t", world := { getenv := fun _ => none, openDev := fun _ => some 5, strdupOk := true }, after := fun _ => 11
     strerror := fun _ => ascii "No such file or directory" },
   { lib := .start, errno := 2, mem := (), evs := [] }, _, rfl, rfl⟩

/-- What an event is logged as. -/
def evtText (secret : Bool) (type args : Bytes) : Bytes := ascii (if secret then "EVTS:" else "EVT:") ++ type ++ ascii ";" ++ args

/-- C107, events. Kind, type and parameters of an event can be told from its text; the
type has no semicolon. -/
theorem C107_evt {k k' : Bool} {t t' a a' : Bytes} (ht : (59 : UInt8) ∉ t) (ht' : (59 : UInt8) ∉ t') (h : evtText k t a = evtText k' t' a') :
    k = k' ∧ t = t' ∧ a = a' := by
  have e : ∀ (k : Bool) (t a : Bytes), evtText k t a = (if k then [69, 86, 84, 83] else [69, 86, 84]) ++ 58 :: (t ++ 59 :: a) := by
    intro k t a
    unfold evtText
    cases k
    · simp [show ascii "EVT:" = [69, 86, 84, 58] from by decide, show ascii ";" = [59] from by decide]
    · simp [show ascii "EVTS:" = [69, 86, 84, 83, 58] from by decide, show ascii ";" = [59] from by decide]
  rw [e, e] at h
  obtain ⟨h1, h2⟩ := split_first h (by split <;> decide) (by split <;> decide)
  obtain ⟨h3, h4⟩ := split_first h2 ht ht'
  refine ⟨?_, h3, h4⟩
  cases k <;> cases k' <;> simp at h1 ⊢

/-- C107, events are notices with that text. -/
theorem C107_evt_log {k : Bool} {t a : Bytes} {s s' : CSt μ} (h : ulogEvt S c k t (fun s => (some a, s)) s = .ok s') :
    ∃ ev, wstep S.nm S.world s.lib (.log 5 c (some (evtText k t a))) = .ok (s'.lib, .unit, ev) ∧ s'.evs = s.evs ++ ev ∧ s'.mem = s.mem :=
  ulogLog_pure h

/-- C107, binary messages: level and colour are kept, the binary flag is set. -/
theorem C107_bin (prio : UInt32) (c : Cid) (data : Bytes) :
    ∃ p, ulogBin prio c data = .buf p c data ∧ prioBinary p = true ∧ p.toNat % 128 = prio.toNat % 128 ∧ p.toNat / 256 = prio.toNat / 256 := by
  refine ⟨_, rfl, ?_, ?_, ?_⟩
  · unfold prioBinary
    have := Nat.testBit_or prio.toNat 128 7
    rw [show Nat.testBit 128 7 = true by decide, Bool.or_true, Nat.testBit_eq_decide_div_mod_eq] at this
    simpa using this
  · rw [UInt32.toNat_or]
    apply Nat.eq_of_testBit_eq
    intro i
    rw [show (128 : Nat) = 2 ^ 7 from rfl, Nat.testBit_mod_two_pow, Nat.testBit_mod_two_pow]
    by_cases h : i < 7
    · have : Nat.testBit (128 : UInt32).toNat i = false := by
        rw [show (128 : UInt32).toNat = 2 ^ 7 from rfl, Nat.testBit_two_pow]; simp; omega
      rw [Nat.testBit_or, this, Bool.or_false]
    · simp [h]
  · rw [UInt32.toNat_or]
    apply Nat.eq_of_testBit_eq
    intro i
    rw [show (256 : Nat) = 2 ^ 8 from rfl, Nat.testBit_div_two_pow, Nat.testBit_div_two_pow, Nat.testBit_or]
    have : Nat.testBit (128 : UInt32).toNat (i + 8) = false := by
      rw [show (128 : UInt32).toNat = 2 ^ 7 from rfl, Nat.testBit_two_pow]; simp
    rw [this, Bool.or_false]

/-! ## Examples -/

namespace ErrnoExamples

/-- A site in a program with one tag, whose writer leaves 11 in `errno`. -/
def site : Site Nat :=
  { nm := fun _ => ascii "t", world := { getenv := fun _ => none, openDev := fun _ => some 5, strdupOk := true }, after := fun _ => 11
    strerror := fun e => if e = 2 then ascii "No such file or directory" else ascii "Other" }

/-- `open` failed. -/
def failed : CSt Nat := { lib := .start, errno := 2, mem := 0, evs := [] }

/-- A condition that counts how often it is evaluated. -/
def cond : Ex Nat Bool := fun s => (true, { s with mem := s.mem + 1 })

def logged (s : CSt Nat) : List Bytes := s.evs.flatMap fun
  | .writev _ v => [v.flatten]
  | _ => []

/-- `C107_err`: the error that was logged is returned although logging changed `errno`. -/
example : (returnErrIf site 1 (ascii "load") 42 cond errnoEx failed).toOption.map (fun x => (x.1, x.2.errno, x.2.mem, logged x.2)) =
    some (some (some (-2)), 11, 1, [[3, 0, 0, 0] ++ ascii "t" ++ [0] ++ ascii "load:42:  err=2(No such file or directory)" ++ [0]]) := by
  decide +kernel

/-- `C107_val`, `C107_val_false`: here it is not. -/
example : (returnValIf site 1 (ascii "load") 42 cond errnoEx negErrno failed).toOption.map (fun x => (x.1, x.2.mem)) =
    some (some (-11), 1) := by decide +kernel

/-- `C107_return`. -/
example : (returnIf site 1 (ascii "load") 42 cond errnoEx failed).toOption.map (fun x => (x.1, logged x.2)) =
    some (some (), [[3, 0, 0, 0] ++ ascii "t" ++ [0] ++ ascii "load:42:  err=2(No such file or directory)" ++ [0]]) := by decide +kernel

/-- `C107_text`. -/
example : (58 : UInt8) ∉ ascii "load" ∧ (40 : UInt8) ∉ site.strerror 2 := by decide

/-- `C107_filtered`: debug messages of the tag are not let through. -/
example : (ensureInit site.nm site.world failed.lib 1).1.level 1 < (((7 : UInt32).toNat % 8 : Nat) : Int) := by decide +kernel

/-- `C107_evt_log`. -/
example : (ulogEvt site 1 false (ascii "TAKEOFF") (fun s => (some (ascii "alt=3"), s)) failed).toOption.map logged =
    some [[5, 0, 0, 0] ++ ascii "t" ++ [0] ++ ascii "EVT:TAKEOFF;alt=3" ++ [0]] := by decide +kernel

/-- `C107_evt`. -/
example : (59 : UInt8) ∉ ascii "TAKEOFF" := by decide

end ErrnoExamples

end Verif.Libulog
