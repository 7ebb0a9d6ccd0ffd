import Verif.Libulog.Macros

/-!
# Throttled and on-change logging (C27, C28)

The statements speak of the calls made and of which of them were passed on.
-/
namespace Verif.Libulog
open Verif

/-! ## C27 -/

/-- Calls and what became of them, newest first. -/
abbrev History := List (Nat × Option WOp)

/-- Time of the last call passed on. -/
def lastPassed : History → Option Nat
  | [] => none
  | (t, some _) :: _ => some t
  | (_, none) :: h => lastPassed h

/-- Calls held back since then. -/
def heldBack : History → Nat
  | (_, none) :: h => heldBack h + 1
  | _ => 0

/-- Outcome of a run, newest call first. -/
def history (calls : List (Nat × Option Bytes)) (os : List (Option WOp)) : History :=
  ((calls.map Prod.fst).zip os).reverse

theorem throttleRun_append (ms : Nat) (prio : UInt32) (c : Cid) (l2 : List (Nat × Option Bytes)) :
    ∀ (l1 : List (Nat × Option Bytes)) {t t2 : Throttle} {os : List (Option WOp)},
    throttleRun ms prio c t (l1 ++ l2) = .ok (t2, os) ↔
      ∃ t1 o1 o2, throttleRun ms prio c t l1 = .ok (t1, o1) ∧ throttleRun ms prio c t1 l2 = .ok (t2, o2) ∧
        os = o1 ++ o2 := by
  intro l1
  induction l1 with
  | nil =>
    intro t t2 os
    constructor
    · intro h; exact ⟨t, [], os, rfl, h, rfl⟩
    · rintro ⟨t1, o1, o2, h1, h2, h3⟩
      simp only [throttleRun, Except.ok.injEq, Prod.mk.injEq] at h1
      rw [h3, ← h1.2, h1.1]; exact h2
  | cons x l1 ih =>
    intro t t2 os
    obtain ⟨now, text⟩ := x
    simp only [List.cons_append, throttleRun, bind, Except.bind]
    cases hx : throttle ms prio c t now text with
    | error z => simp
    | ok z =>
      obtain ⟨z1, z2⟩ := z
      simp only
      cases hy : throttleRun ms prio c z1 (l1 ++ l2) with
      | error y =>
        simp only [reduceCtorEq, false_iff]
        rintro ⟨t1, o1, o2, h1, h2, h3⟩
        cases hz : throttleRun ms prio c z1 l1 with
        | error _ => rw [hz] at h1; cases h1
        | ok v =>
          obtain ⟨v1, v2⟩ := v
          rw [hz] at h1
          simp only [Except.ok.injEq, Prod.mk.injEq] at h1
          have := (ih (t := z1) (t2 := t2) (os := v2 ++ o2)).mpr ⟨v1, v2, o2, hz, by rw [h1.1]; exact h2, rfl⟩
          rw [hy] at this; cases this
      | ok y =>
        obtain ⟨y1, y2⟩ := y
        obtain ⟨t1, o1, o2, i1, i2, i3⟩ := ih.mp hy
        simp only [i1]
        constructor
        · intro h
          simp only [Except.ok.injEq, Prod.mk.injEq] at h
          refine ⟨t1, z2 :: o1, o2, rfl, by rw [i2, h.1], ?_⟩
          rw [← h.2, i3]; rfl
        · rintro ⟨t1', o1', o2', h1, h2, h3⟩
          simp only [Except.ok.injEq, Prod.mk.injEq] at h1
          rw [← h1.1, i2] at h2
          simp only [Except.ok.injEq, Prod.mk.injEq] at h2
          rw [h3, ← h1.2, ← h2.2, h2.1, i3]; rfl

theorem throttleRun_length (ms : Nat) (prio : UInt32) (c : Cid) :
    ∀ (l : List (Nat × Option Bytes)) {t t2 : Throttle} {os : List (Option WOp)},
    throttleRun ms prio c t l = .ok (t2, os) → os.length = l.length := by
  intro l
  induction l with
  | nil =>
    intro t t2 os h
    simp only [throttleRun, Except.ok.injEq, Prod.mk.injEq] at h
    rw [← h.2]; rfl
  | cons x l ih =>
    intro t t2 os h
    obtain ⟨now, text⟩ := x
    simp only [throttleRun, bind, Except.bind] at h
    cases hx : throttle ms prio c t now text with
    | error z => rw [hx] at h; cases h
    | ok z =>
      rw [hx] at h
      simp only at h
      cases hy : throttleRun ms prio c z.1 l with
      | error y => rw [hy] at h; cases h
      | ok y =>
        rw [hy] at h
        simp only [Except.ok.injEq, Prod.mk.injEq] at h
        rw [← h.2, List.length_cons, List.length_cons, ih hy]

/-- What the two static variables mean. -/
def ThrottleInv (t : Throttle) (h : History) (n : Nat) : Prop :=
  t.last = (lastPassed h).getD 0 ∧ t.masked = heldBack h ∧ heldBack h ≤ n

theorem throttle_step {ms : Nat} {prio : UInt32} {c : Cid} {t t' : Throttle} {now n : Nat} {text : Option Bytes}
    {o : Option WOp} {h : History} (hi : ThrottleInv t h n) (hn : n + 1 < 2 ^ 32) (hlast : t.last + ms < 2 ^ 64)
    (hs : throttle ms prio c t now text = .ok (t', o)) : ThrottleInv t' ((now, o) :: h) (n + 1) := by
  obtain ⟨h1, h2, h3⟩ := hi
  unfold throttle at hs
  rw [Nat.mod_eq_of_lt hlast] at hs
  split at hs
  · split at hs
    · cases text with
      | none => cases hs
      | some x =>
        simp only [Except.ok.injEq, Prod.mk.injEq] at hs
        rw [← hs.1, ← hs.2]
        exact ⟨rfl, rfl, Nat.zero_le _⟩
    · rename_i hm
      simp only [Except.ok.injEq, Prod.mk.injEq] at hs
      rw [← hs.1, ← hs.2]
      refine ⟨rfl, ?_, Nat.zero_le _⟩
      show t.masked = 0
      omega
  · simp only [Except.ok.injEq, Prod.mk.injEq] at hs
    rw [← hs.1, ← hs.2]
    refine ⟨h1, ?_, ?_⟩
    · show (t.masked + 1) % 2 ^ 32 = heldBack h + 1
      rw [Nat.mod_eq_of_lt (by omega), h2]
    · show heldBack h + 1 ≤ n + 1
      omega

theorem throttle_inv {ms : Nat} {prio : UInt32} {c : Cid} : ∀ (calls : List (Nat × Option Bytes)) {t : Throttle}
    {os : List (Option WOp)}, throttleRun ms prio c .start calls = .ok (t, os) →
    calls.length < 2 ^ 32 → (∀ x ∈ calls, x.1 + ms < 2 ^ 64) → ms < 2 ^ 64 →
    ThrottleInv t (history calls os) calls.length ∧ t.last + ms < 2 ^ 64 := by
  intro calls
  induction hk : calls.length generalizing calls with
  | zero =>
    intro t os h _ _ hms
    have : calls = [] := List.length_eq_zero_iff.mp hk
    subst this
    simp only [throttleRun, Except.ok.injEq, Prod.mk.injEq] at h
    rw [← h.1, ← h.2]
    exact ⟨⟨rfl, rfl, Nat.le_refl _⟩, by simpa [Throttle.start] using hms⟩
  | succ k ih =>
    intro t os h hlen ht hms
    have hne : calls ≠ [] := by intro hx; rw [hx] at hk; cases hk
    rw [← List.dropLast_concat_getLast hne] at h ht ⊢
    generalize hl : calls.dropLast = l at *
    generalize calls.getLast hne = x at *
    obtain ⟨now, text⟩ := x
    have hkl : l.length = k := by rw [← hl, List.length_dropLast, hk]; rfl
    obtain ⟨t1, o1, o2, h1, h2, h3⟩ := (throttleRun_append ms prio c [(now, text)] l).mp h
    obtain ⟨i1, i2⟩ := ih l hkl h1 (by omega) (fun x hx => ht x (List.mem_append_left _ hx)) hms
    simp only [throttleRun, bind, Except.bind] at h2
    cases hx : throttle ms prio c t1 now text with
    | error z => rw [hx] at h2; cases h2
    | ok z =>
      obtain ⟨z1, z2⟩ := z
      rw [hx] at h2
      simp only [Except.ok.injEq, Prod.mk.injEq] at h2
      have hh : history (l ++ [(now, text)]) os = (now, z2) :: history l o1 := by
        unfold history
        rw [h3, ← h2.2, List.map_append, List.zip_append (by rw [List.length_map, throttleRun_length ms prio c l h1])]
        simp
      rw [hh, ← h2.1]
      have := throttle_step i1 (by omega) i2 hx
      refine ⟨this, ?_⟩
      unfold throttle at hx
      have hnow := ht (now, text) (by simp)
      dsimp only at hnow
      split at hx
      · split at hx
        · cases text with
          | none => cases hx
          | some x => simp only [Except.ok.injEq, Prod.mk.injEq] at hx; rw [← hx.1]; exact hnow
        · simp only [Except.ok.injEq, Prod.mk.injEq] at hx; rw [← hx.1]; exact hnow
      · simp only [Except.ok.injEq, Prod.mk.injEq] at hx; rw [← hx.1]; exact i2

/-- C27. After any calls at a site, the next one (whose text can be formatted) is
held back exactly when less than a period has passed since the last call passed
on; otherwise it is passed on, preceded by the number of calls held back since
then in brackets if there are any, cut like every message at 255 characters (and at a NUL). The
time before the first call passed on counts from 0. Times and period do not
exceed the 64 bits of the clock, and there are fewer than 2^32 calls. -/
theorem C27_throttle {ms : Nat} {prio : UInt32} {c : Cid} {calls : List (Nat × Option Bytes)} {t : Throttle}
    {os : List (Option WOp)} (h : throttleRun ms prio c .start calls = .ok (t, os)) {now : Nat} {text : Bytes}
    (hms : ms < 2 ^ 64) (ht : ∀ x ∈ calls, x.1 + ms < 2 ^ 64) (hlen : calls.length < 2 ^ 32) :
    ∃ t' o, throttle ms prio c t now (some text) = .ok (t', o) ∧
      o = if now < (lastPassed (history calls os)).getD 0 + ms then none
        else if heldBack (history calls os) = 0 then some (.log prio c (some text))
        else some (.str prio c (cstr ((ascii "[" ++ decNat (heldBack (history calls os)) ++ ascii "] " ++ text).take 255))) := by
  obtain ⟨⟨h1, h2, h3⟩, h4⟩ := throttle_inv calls h hlen ht hms
  unfold throttle
  rw [Nat.mod_eq_of_lt h4]
  by_cases hn : now < t.last + ms
  · rw [if_neg (by omega), ← h1, if_pos hn]
    exact ⟨_, _, rfl, rfl⟩
  · rw [if_pos (by omega), ← h1, if_neg hn, ← h2]
    by_cases hm : t.masked = 0
    · rw [if_neg (by omega), if_pos hm]; exact ⟨_, _, rfl, rfl⟩
    · rw [if_pos hm, if_neg hm]; exact ⟨_, _, rfl, rfl⟩

/-- C27. Any two calls passed on are a period apart. -/
theorem C27_spacing {ms : Nat} {prio : UInt32} {c : Cid} {calls : List (Nat × Option Bytes)} {t : Throttle}
    {os : List (Option WOp)} (h : throttleRun ms prio c .start calls = .ok (t, os))
    (hms : ms < 2 ^ 64) (ht : ∀ x ∈ calls, x.1 + ms < 2 ^ 64) (hlen : calls.length < 2 ^ 32)
    (hmono : calls.Pairwise fun a b => a.1 ≤ b.1) :
    ((history calls os).filter fun x => x.2.isSome).Pairwise fun late early => early.1 + ms ≤ late.1 := by
  -- newest first; the times are bounded by the newest
  have key : ∀ (n : Nat) (calls : List (Nat × Option Bytes)) (t : Throttle) (os : List (Option WOp)),
      calls.length = n → throttleRun ms prio c .start calls = .ok (t, os) → (∀ x ∈ calls, x.1 + ms < 2 ^ 64) →
      n < 2 ^ 32 → (calls.Pairwise fun a b => a.1 ≤ b.1) →
      (((history calls os).filter fun x => x.2.isSome).Pairwise fun late early => early.1 + ms ≤ late.1) ∧
      (∀ x ∈ (history calls os), x.2.isSome = true → x.1 ≤ (lastPassed (history calls os)).getD 0) ∧
      ∀ x ∈ (history calls os), ∃ y ∈ calls, y.1 = x.1 := by
    intro n
    induction n with
    | zero =>
      intro calls t os hk h _ _ _
      have : calls = [] := List.length_eq_zero_iff.mp hk
      subst this
      simp [history]
    | succ k ih =>
      intro calls t os hk h ht hlen hmono
      have hne : calls ≠ [] := by intro hx; rw [hx] at hk; cases hk
      rw [← List.dropLast_concat_getLast hne] at h ht hmono ⊢
      generalize hl : calls.dropLast = l at *
      generalize calls.getLast hne = x at *
      obtain ⟨now, text⟩ := x
      have hkl : l.length = k := by rw [← hl, List.length_dropLast, hk]; rfl
      obtain ⟨t1, o1, o2, h1, h2, h3⟩ := (throttleRun_append ms prio c [(now, text)] l).mp h
      have ht' : ∀ x ∈ l, x.1 + ms < 2 ^ 64 := fun x hx => ht x (List.mem_append_left _ hx)
      rw [List.pairwise_append] at hmono
      obtain ⟨i1, i2, i3⟩ := ih l t1 o1 hkl h1 ht' (by omega) hmono.1
      obtain ⟨⟨j1, j2, j3⟩, j4⟩ := throttle_inv l h1 (by omega) ht' hms
      simp only [throttleRun, bind, Except.bind] at h2
      cases hx : throttle ms prio c t1 now text with
      | error z => rw [hx] at h2; cases h2
      | ok z =>
        obtain ⟨z1, z2⟩ := z
        rw [hx] at h2
        simp only [Except.ok.injEq, Prod.mk.injEq] at h2
        have hh : history (l ++ [(now, text)]) os = (now, z2) :: history l o1 := by
          unfold history
          rw [h3, ← h2.2, List.map_append, List.zip_append (by rw [List.length_map, throttleRun_length ms prio c l h1])]
          simp
        rw [hh]
        have hsub : ∀ x ∈ (now, z2) :: history l o1, ∃ y ∈ l ++ [(now, text)], y.1 = x.1 := by
          intro x hx
          rcases List.mem_cons.mp hx with rfl | hx
          · exact ⟨(now, text), by simp, rfl⟩
          · obtain ⟨y, hy, hy'⟩ := i3 x hx
            exact ⟨y, List.mem_append_left _ hy, hy'⟩
        cases z2 with
        | none =>
          refine ⟨by simpa using i1, ?_, hsub⟩
          intro x hx hs
          rcases List.mem_cons.mp hx with rfl | hx
          · cases hs
          · exact i2 x hx hs
        | some o =>
          have hge : t1.last + ms ≤ now := by
            unfold throttle at hx
            rw [Nat.mod_eq_of_lt j4] at hx
            split at hx
            · rename_i hg; exact hg
            · simp only [Except.ok.injEq, Prod.mk.injEq, reduceCtorEq, and_false] at hx
          refine ⟨?_, ?_, hsub⟩
          · rw [List.filter_cons_of_pos rfl, List.pairwise_cons]
            refine ⟨?_, i1⟩
            intro x hx
            rw [List.mem_filter] at hx
            have := i2 x hx.1 hx.2
            rw [← j1] at this
            show x.1 + ms ≤ now
            omega
          · intro x hx hs
            show x.1 ≤ now
            rcases List.mem_cons.mp hx with rfl | hx
            · exact Nat.le_refl _
            · have := i2 x hx hs
              rw [← j1] at this
              omega
  exact (key _ calls t os rfl h ht hlen hmono).1

/-- C27, limit of the code. A failed formatting after calls were held back
passes on an uninitialised buffer. -/
theorem C27_uninit : ∃ calls, throttleRun 100 3 1 .start calls = .error .uninit ∧
    calls = [(500, some (ascii "a")), (550, some (ascii "b")), (650, none)] :=
  ⟨_, by simp [throttleRun, throttle, Throttle.start, bind, Except.bind], rfl⟩

/-- C27, limit of the code. A call before the first period of the clock has
passed is held back though no message was logged before. -/
theorem C27_first : ∃ t, throttle 1000 3 1 .start 999 (some (ascii "a")) = .ok (t, none) :=
  ⟨⟨1, 0⟩, by simp [throttle, Throttle.start]⟩

/-- The text handed over, for inspection. -/
def WOp.textOf : WOp → Bytes
  | .str _ _ t => t
  | .log _ _ (some t) => t
  | _ => []

example : (throttleRun 100 3 1 .start [(500, some (ascii "a")), (550, some (ascii "b")), (599, some (ascii "c")),
      (600, some (ascii "d")), (701, some (ascii "e"))]).toOption.map (fun x => x.2.map fun o => o.map WOp.textOf) =
    some [some (ascii "a"), none, none, some (ascii "[2] d"), some (ascii "e")] := by decide +kernel

/-! ## C28 -/

/-- C28. A call is passed on exactly when it is the first one or its value
differs from that of the call before it; whatever the variable holding the last
value contains at the start. -/
theorem C28_change {prio : UInt32} {c : Cid} (v0 : UInt64) (calls : List (UInt64 × Option Bytes)) (v : UInt64)
    (text : Option Bytes) :
    (change prio c (changeRun prio c ⟨false, v0⟩ calls).1 v text).2 =
      if (calls.map Prod.fst).getLast? = some v then none else some (.log prio c text) := by
  have key : ∀ (calls : List (UInt64 × Option Bytes)) (s : Change),
      (changeRun prio c s calls).1 = match (calls.map Prod.fst).getLast? with
        | none => s
        | some x => ⟨true, x⟩ := by
    intro calls
    induction calls with
    | nil => intro s; rfl
    | cons x calls ih =>
      intro s
      obtain ⟨x, tx⟩ := x
      simp only [changeRun]
      rw [ih]
      cases calls with
      | nil =>
        simp only [List.map_nil, List.getLast?_nil, List.map_cons, List.getLast?_singleton]
        unfold change
        split
        · rfl
        · rename_i h
          have h1 : x = s.last := Classical.byContradiction fun hx => h (Or.inl hx)
          have h2 : s.init = true := by
            cases hi : s.init with
            | true => rfl
            | false => exact absurd (Or.inr hi) h
          cases s
          simp only at h1 h2
          rw [h1, h2]
      | cons y calls =>
        simp [List.getLast?_cons]
  rw [key]
  cases hl : (calls.map Prod.fst).getLast? with
  | none => simp [change]
  | some x =>
    simp only [change, Option.some.injEq]
    by_cases hv : x = v
    · simp [hv]
    · rw [if_pos (Or.inl (fun hx => hv hx.symm)), if_neg hv]

example : (changeRun 3 1 ⟨false, 0⟩ [(0, none), (0, none), (5, none), (5, none), (0, none)]).2.map Option.isSome =
    [true, false, true, false, true] := by decide +kernel

end Verif.Libulog
