import Verif.Tools.PyLog
import Verif.Mem

/-!
# Python records and loggers (C75, C76, C77, C78)
-/
namespace Verif.Tools
open Verif Verif.Libulog

def isNl (b : UInt8) : Bool := b == 10 || b == 13

/-- `ls` are the lines of a text: each ends with LF, CR or CR LF, except that the last
may end with the text (it is not empty then); CR LF is one end. -/
inductive IsLines : Bytes → List Bytes → Prop
  | nil : IsLines [] []
  | last {l : Bytes} : l ≠ [] → (∀ b ∈ l, isNl b = false) → IsLines l [l]
  | line {l term t : Bytes} {ls : List Bytes} : (∀ b ∈ l, isNl b = false) → term = [10] ∨ term = [13] ∨ term = [13, 10] →
      (term = [13] → t.head? ≠ some 10) → IsLines t ls → IsLines (l ++ term ++ t) (l :: ls)

theorem splitLines_nl {cur : Option Bytes} {b : UInt8} {t : Bytes} (h : b = 10 ∨ b = 13) (h' : b = 13 → t.head? ≠ some 10) :
    splitLines cur (b :: t) = (cur.getD []).reverse :: splitLines none t := by
  rw [splitLines]
  · rw [if_pos h]
  · rintro t' rfl rfl; exact h' rfl rfl

theorem splitLines_text {cur : Option Bytes} {b : UInt8} {t : Bytes} (h : ¬ (b = 10 ∨ b = 13)) :
    splitLines cur (b :: t) = splitLines (some (b :: cur.getD [])) t := by
  rw [splitLines]
  · rw [if_neg h]
  · rintro t' rfl rfl; exact h (Or.inr rfl)

theorem splitLines_spec : ∀ (n : Nat) (t : Bytes) (cur : Option Bytes), t.length = n → (∀ b ∈ cur.getD [], isNl b = false) →
    (∀ c, cur = some c → c ≠ []) → IsLines ((cur.getD []).reverse ++ t) (splitLines cur t) := by
  intro n
  induction n using Nat.strongRecOn with
  | _ n ih =>
    intro t cur hn hc hne
    have hrev : ∀ b ∈ (cur.getD []).reverse, isNl b = false := fun b hb => hc b (List.mem_reverse.mp hb)
    cases t with
    | nil =>
      cases cur with
      | none => exact IsLines.nil
      | some c =>
        rw [splitLines, List.append_nil]
        exact IsLines.last (by simpa using hne c rfl) hrev
    | cons b t =>
      rw [List.length_cons] at hn
      by_cases hb : b = 10 ∨ b = 13
      · by_cases hcr : b = 13 ∧ t.head? = some 10
        · obtain ⟨rfl, ht⟩ := hcr
          cases t with
          | nil => cases ht
          | cons c t =>
            simp only [List.head?_cons, Option.some.injEq] at ht
            subst ht
            rw [splitLines]
            rw [List.length_cons] at hn
            have := ih t.length (by omega) t none rfl (by simp) (by simp)
            have h2 := IsLines.line (term := [13, 10]) hrev (by simp) (by simp) this
            simpa using h2
        · rw [splitLines_nl hb (fun h1 h2 => hcr ⟨h1, h2⟩)]
          have := ih t.length (by omega) t none rfl (by simp) (by simp)
          have h2 := IsLines.line (term := [b]) hrev (by rcases hb with rfl | rfl <;> simp)
            (fun h1 => by injection h1 with h1; exact fun h2 => hcr ⟨h1, h2⟩) this
          simpa using h2
      · rw [splitLines_text hb]
        have hb' : isNl b = false := by
          unfold isNl
          simp only [not_or] at hb
          simp [hb.1, hb.2]
        have := ih t.length (by omega) t (some (b :: cur.getD [])) rfl (by
          intro x hx
          rcases List.mem_cons.mp hx with rfl | hx
          · exact hb'
          · exact hc x hx) (by simp)
        simpa using this

theorem IsLines.unique {t : Bytes} {a b : List Bytes} (ha : IsLines t a) (hb : IsLines t b) : a = b := by
  -- the lines of a text that begins with a line and its end
  have key : ∀ {l l' term term' t t' : Bytes}, (∀ b ∈ l, isNl b = false) → (∀ b ∈ l', isNl b = false) →
      (term = [10] ∨ term = [13] ∨ term = [13, 10]) → (term' = [10] ∨ term' = [13] ∨ term' = [13, 10]) →
      (term = [13] → t.head? ≠ some 10) → (term' = [13] → t'.head? ≠ some 10) →
      l ++ term ++ t = l' ++ term' ++ t' → l = l' ∧ t = t' := by
    intro l
    induction l with
    | nil =>
      intro l' term term' t t' _ h' ht ht' hh hh' heq
      cases l' with
      | cons x l' =>
        exfalso
        have := h' x List.mem_cons_self
        rcases ht with rfl | rfl | rfl <;>
        · simp only [List.nil_append, List.cons_append, List.cons.injEq] at heq
          rw [← heq.1] at this
          cases this
      | nil =>
        refine ⟨rfl, ?_⟩
        rcases ht with rfl | rfl | rfl <;> rcases ht' with rfl | rfl | rfl <;> simp only [List.nil_append, List.cons_append, List.cons.injEq] at heq
        · exact heq.2
        · exact absurd heq.1 (by decide)
        · exact absurd heq.1 (by decide)
        · exact absurd heq.1 (by decide)
        · exact heq.2
        · exact absurd (by rw [heq.2]; rfl) (hh rfl)
        · exact absurd heq.1 (by decide)
        · exact absurd (by rw [← heq.2]; rfl) (hh' rfl)
        · exact heq.2.2
    | cons x l ih =>
      intro l' term term' t t' h h' ht ht' hh hh' heq
      cases l' with
      | nil =>
        exfalso
        have := h x List.mem_cons_self
        rcases ht' with rfl | rfl | rfl <;>
        · simp only [List.nil_append, List.cons_append, List.cons.injEq] at heq
          rw [heq.1] at this
          cases this
      | cons y l' =>
        simp only [List.cons_append, List.cons.injEq] at heq
        obtain ⟨h1, h2⟩ := ih (fun b hb => h b (List.mem_cons_of_mem _ hb)) (fun b hb => h' b (List.mem_cons_of_mem _ hb)) ht ht' hh hh' heq.2
        exact ⟨by rw [heq.1, h1], h2⟩
  have noEnd : ∀ {l term t l' : Bytes}, (term = [10] ∨ term = [13] ∨ term = [13, 10]) → (∀ b ∈ l', isNl b = false) → l ++ term ++ t ≠ l' := by
    intro l term t l' ht hl heq
    rcases ht with rfl | rfl | rfl <;>
    · have := hl _ (by rw [← heq]; simp; exact Or.inr (Or.inl rfl))
      cases this
  induction ha generalizing b with
  | nil =>
    generalize he : ([] : Bytes) = t at hb
    cases hb with
    | nil => rfl
    | last h1 => exact absurd he.symm h1
    | line h1 h2 => exact absurd he.symm (noEnd h2 (by simp))
  | @last l h1 h2 =>
    generalize he : l = t at hb
    cases hb with
    | nil => exact absurd he h1
    | last => rfl
    | line h3 h4 => exact absurd he.symm (noEnd h4 h2)
  | @line l term t ls h1 h2 h3 _ ih =>
    generalize he : l ++ term ++ t = t0 at hb
    cases hb with
    | nil => exact absurd he (noEnd h2 (by simp))
    | last h4 h5 => exact absurd he (noEnd h2 h5)
    | line h4 h5 h6 h7 =>
      obtain ⟨rfl, rfl⟩ := key h1 h4 h2 h5 h3 h6 he
      rw [ih h7]

/-- **C75:** the native messages of a Python record are its lines, in order and without
their ends, cut at a NUL, each with the priority of the level (5 for an event). -/
theorem C75_lines {level : Nat} {msg : Bytes} {ls : List Bytes} (hl : IsLines msg ls) :
    pyEmit level msg = (pyPrio level).map fun p => ls.map fun l => (if (ascii "EVT:").isPrefixOf msg then 5 else p, cstr l) := by
  have hs : IsLines msg (splitLines none msg) := by simpa using splitLines_spec _ msg none rfl (by simp) (by simp)
  unfold pyEmit
  rw [hs.unique hl]
  cases pyPrio level <;> rfl

/-- **C75:** every text has lines. -/
theorem C75_exists (msg : Bytes) : ∃ ls, IsLines msg ls :=
  ⟨_, by simpa using splitLines_spec _ msg none rfl (by simp) (by simp)⟩

/-- **C75:** a Python level survives the way to libulog and back; a priority does not
become less severe on the way to Python and back. -/
theorem C75_levels {l : Nat} {q : UInt32} (h : pyPrio l = some q) :
    pyLevel q.toNat = some l ∧ q.toNat < 8 ∧ ∀ q', pyLevel q' = some l → q.toNat ≤ q' := by
  unfold pyPrio at h
  repeat' split at h
  all_goals first | (cases h; done) | skip
  all_goals
    rename_i hl
    injection h with h
    subst h
    subst hl
    refine ⟨by decide, by decide, fun q' hq' => ?_⟩
    unfold pyLevel at hq'
    repeat' split at hq'
    all_goals first | (cases hq'; done) | skip
    all_goals simp at hq'
    all_goals simp
    all_goals omega

/-! ## Loops -/

theorem foldl_none (f : UInt32 × Bytes → Option Nat) (l : List (UInt32 × Bytes)) :
    l.foldl (fun acc x => acc.bind fun n => (f x).map (n + ·)) none = none := by
  induction l with
  | nil => rfl
  | cons x l ih => simpa using ih

theorem foldl_bad {f : UInt32 × Bytes → Option Nat} {x : UInt32 × Bytes} {l : List (UInt32 × Bytes)} (hx : f x = none) (n : Option Nat) :
    (x :: l).foldl (fun acc x => acc.bind fun n => (f x).map (n + ·)) n = none := by
  rw [List.foldl_cons, hx]
  have : (n.bind fun n => Option.map (fun x => n + x) none) = none := by cases n <;> rfl
  rw [this]; exact foldl_none f l

theorem stripNl_head {t : Bytes} (h : stripNl t ≠ []) : ∃ b r, stripNl t = b :: r ∧ isNl b = false ∧ b ∈ t := by
  unfold stripNl at *
  dsimp only at *
  generalize hd : t.dropWhile (fun b : UInt8 => b == 10 || b == 13) = d at *
  cases d with
  | nil => simp at h
  | cons b r =>
    have hb : isNl b = false := by
      have := List.head?_dropWhile_not (fun b : UInt8 => b == 10 || b == 13) t
      rw [hd] at this
      simpa [isNl] using this
    have hmem : b ∈ t := (List.dropWhile_suffix _).subset (by rw [hd]; exact List.mem_cons_self)
    have key : ∃ r', ((b :: r).reverse.dropWhile (fun b : UInt8 => b == 10 || b == 13)).reverse = b :: r' := by
      rw [List.reverse_cons]
      have : ∀ l : Bytes, ∃ k, (l ++ [b]).dropWhile (fun b : UInt8 => b == 10 || b == 13) = k ++ [b] := by
        intro l
        induction l with
        | nil =>
          refine ⟨[], ?_⟩
          unfold isNl at hb
          simp [List.dropWhile, hb]
        | cons x l ih =>
          rw [List.cons_append, List.dropWhile_cons]
          split
          · exact ih
          · exact ⟨x :: l, rfl⟩
      obtain ⟨k, hk⟩ := this r.reverse
      rw [hk]
      exact ⟨k.reverse, by simp⟩
    obtain ⟨r', hr'⟩ := key
    exact ⟨b, r', hr', hb, hmem⟩

/-- C76 is false of the code: if a logger that gets native messages also sends its
records to libulog (as the root logger does after `setup_logging`), a native text message
comes back to the bridge without end, at any depth. -/
theorem C76_false (fuel : Nat) {q : UInt32} (hq : q.toNat < 8) {t : Bytes} (h0 : 0 ∉ t) (ht : stripNl t ≠ []) :
    pyEcho 7 (fun _ => true) fuel (q, t) = none := by
  induction fuel generalizing q t with
  | zero => rfl
  | succ fuel ih =>
    obtain ⟨b, r, hb, hnl, hmem⟩ := stripNl_head ht
    have hlev : ∃ l p, pyLevel q.toNat = some l ∧ pyPrio l = some p := by
      unfold pyLevel
      repeat' split
      all_goals first | omega | exact ⟨_, _, rfl, rfl⟩
    obtain ⟨l, p, hl, hp⟩ := hlev
    have hp8 := (C75_levels hp).2.1
    have hs : IsLines (stripNl t) (splitLines none (stripNl t)) := by simpa using splitLines_spec _ (stripNl t) none rfl (by simp) (by simp)
    -- the first line begins with the first byte
    have hsub : ∀ x ∈ stripNl t, x ∈ t := by
      intro x hx
      unfold stripNl at hx
      dsimp only at hx
      have h1 := (List.dropWhile_suffix _).subset (List.mem_reverse.mp hx)
      exact (List.dropWhile_suffix _).subset (List.mem_reverse.mp h1)
    have hfirst : ∃ x ls, splitLines none (stripNl t) = (b :: x) :: ls ∧ (∀ y ∈ b :: x, isNl y = false ∧ y ∈ stripNl t) := by
      generalize hL : splitLines none (stripNl t) = L at hs
      generalize hT : stripNl t = T at hs hb
      cases hs with
      | nil => cases hb
      | last h1 h2 => exact ⟨r, [], by rw [hb], fun y hy => ⟨h2 y (by rw [hb]; exact hy), by rw [hb]; exact hy⟩⟩
      | @line l' term t' ls' h1 h2 h3 h4 =>
        cases l' with
        | nil =>
          exfalso
          rcases h2 with rfl | rfl | rfl <;>
          · simp only [List.nil_append, List.cons_append, List.cons.injEq] at hb
            rw [← hb.1] at hnl; cases hnl
        | cons y l' =>
          simp only [List.cons_append, List.cons.injEq] at hb
          obtain ⟨rfl, hb⟩ := hb
          exact ⟨l', ls', rfl, fun z hz => ⟨h1 z hz, by
            rcases List.mem_cons.mp hz with rfl | hz
            · simp
            · simp [hz]⟩⟩
    obtain ⟨x, ls, hfl, hfx⟩ := hfirst
    have hz : 0 ∉ b :: x := fun h => h0 (hsub 0 (hfx 0 h).2)
    have hcs : cstr (b :: x) = b :: x := cstr_of_noNul_all fun y hy h => hz (h ▸ hy)
    have hstrip : stripNl (b :: x) ≠ [] := by
      have hid : ∀ {l : Bytes}, (∀ y ∈ l, isNl y = false) → l.dropWhile (fun b : UInt8 => b == 10 || b == 13) = l := by
        intro l hl
        cases l with
        | nil => rfl
        | cons a l => rw [List.dropWhile_cons, if_neg]; have := hl a List.mem_cons_self; unfold isNl at this; simp [this]
      unfold stripNl
      dsimp only
      rw [hid (fun y hy => (hfx y hy).1), hid (fun y hy => (hfx y (List.mem_reverse.mp hy)).1)]
      simp
    rw [pyEcho, hl]
    dsimp only
    rw [if_neg (by simp)]
    unfold pyEmit
    rw [hp, hfl]
    dsimp only
    have hq5 : ((if (ascii "EVT:").isPrefixOf (stripNl t) = true then (5 : UInt32) else p)).toNat < 8 := by
      split
      · decide
      · exact hp8
    generalize (if (ascii "EVT:").isPrefixOf (stripNl t) = true then (5 : UInt32) else p) = q' at *
    rw [List.map_cons, hcs]
    unfold pyPassed
    rw [List.filter_cons, if_pos (by simp only [decide_eq_true_eq]; omega)]
    exact foldl_bad (f := pyEcho 7 (fun _ => true) fuel) (ih hq5 hz hstrip) _

/-- C76. Otherwise one call is all there is: if the level of the message has no counterpart,
its logger is not enabled for it, or the level of the master tag forbids what the handler
sends. -/
theorem C76_once (fuel : Nat) (master : Int) (en : Nat → Bool) {q : UInt32} {t : Bytes}
    (h : ∀ l ls, pyLevel q.toNat = some l → en l = true → pyEmit l (stripNl t) = some ls → ∀ x ∈ ls, master < ((x.1.toNat % 8 : Nat) : Int)) :
    pyEcho master en (fuel + 1) (q, t) = some 1 := by
  unfold pyEcho
  cases hl : pyLevel q.toNat with
  | none => rfl
  | some l =>
    dsimp only
    cases he : en l with
    | false => rfl
    | true =>
      rw [if_neg (by simp)]
      cases hm : pyEmit l (stripNl t) with
      | none => rfl
      | some ls =>
        dsimp only
        have : pyPassed master ls = [] := by
          unfold pyPassed
          rw [List.filter_eq_nil_iff]
          intro x hx
          have := h l ls hl he hm x hx
          simp only [decide_eq_true_eq]
          omega
        rw [this]
        rfl

/-! ## Thinning out -/

/-- No `*_change` call uses the key of the throttled text. -/
def NoClash (t : Bytes) (ops : List PlusOp) : Prop := ∀ l v, PlusOp.change l v (t ++ ascii "_throttled") ∉ ops

def PlusOp.time? : PlusOp → Option Nat
  | .throttle _ _ now _ => some now
  | _ => none

/-- The clock does not go back. -/
def Monotone (ops : List PlusOp) : Prop := (ops.filterMap PlusOp.time?).Pairwise (· ≤ ·)

/-- The times at which the text was logged by a `*_throttle` call. -/
def loggedAt (t : Bytes) (tr : List (PlusOp × PlusOut)) : List Nat :=
  tr.filterMap fun x => match x with
    | (.throttle _ _ now t', .logged ..) => if t' = t then some now else none
    | _ => none

/-- Number of `*_throttle` calls with the text. -/
def callsOf (t : Bytes) (ops : List PlusOp) : Nat :=
  ops.countP fun op => match op with
    | .throttle _ _ _ t' => t' == t
    | _ => false

/-- Number of messages accounted for in the log: those logged and those shown as masked. -/
def accounted (t : Bytes) (tr : List (PlusOp × PlusOut)) : Nat :=
  (tr.map fun x => match x with
    | (.throttle _ _ _ t', .logged _ n _) => if t' = t then n + 1 else 0
    | _ => 0).sum

theorem throttleKey_inj {a b : Bytes} (h : throttleKey a = throttleKey b) : a = b := List.append_cancel_right h

theorem plusRun_snoc (s : Bytes → Option Saved) (ops : List PlusOp) (op : PlusOp) :
    plusRun s (ops ++ [op]) = ((plusStep (plusRun s ops).1 op).1, (plusRun s ops).2 ++ [(op, (plusStep (plusRun s ops).1 op).2)]) := by
  induction ops generalizing s with
  | nil => rfl
  | cons x ops ih => rw [List.cons_append, plusRun, ih, plusRun]; rfl

/-- The value that the last `*_change` call with the text had. -/
def lastValue (m : Bytes) (ops : List PlusOp) : Option Nat :=
  ops.foldl (fun acc op => match op with
    | .change _ v m' => if m' = m then some v else acc
    | _ => acc) none

theorem lastValue_snoc (m : Bytes) (ops : List PlusOp) (op : PlusOp) : lastValue m (ops ++ [op]) = (match op with
    | .change _ v m' => if m' = m then some v else lastValue m ops
    | .throttle .. => lastValue m ops) := by
  unfold lastValue; rw [List.foldl_append]; cases op <;> rfl

theorem loggedAt_snoc (t : Bytes) (tr : List (PlusOp × PlusOut)) (x : PlusOp × PlusOut) :
    loggedAt t (tr ++ [x]) = loggedAt t tr ++ loggedAt t [x] := by unfold loggedAt; rw [List.filterMap_append]

theorem callsOf_snoc (t : Bytes) (ops : List PlusOp) (x : PlusOp) : callsOf t (ops ++ [x]) = callsOf t ops + callsOf t [x] := by
  unfold callsOf; rw [List.countP_append]

theorem accounted_snoc (t : Bytes) (tr : List (PlusOp × PlusOut)) (x : PlusOp × PlusOut) :
    accounted t (tr ++ [x]) = accounted t tr + accounted t [x] := by
  unfold accounted; rw [List.map_append, List.sum_append]

/-- State of a throttled text. -/
def ThrInv (t : Bytes) (s : Bytes → Option Saved) (ops : List PlusOp) (tr : List (PlusOp × PlusOut)) : Prop :=
  (s (throttleKey t) = none ∧ callsOf t ops = 0 ∧ loggedAt t tr = [] ∧ accounted t tr = 0) ∨
  ∃ last n, s (throttleKey t) = some (.throttle last n) ∧ (loggedAt t tr).getLast? = some last ∧ callsOf t ops = accounted t tr + n

theorem setKey_ne {s : Bytes → Option Saved} {k k' : Bytes} (h : k' ≠ k) (v : Saved) : setKey s k v k' = s k' := if_neg h

theorem setKey_eq (s : Bytes → Option Saved) (k : Bytes) (v : Saved) : setKey s k v k = some v := if_pos rfl

theorem plusStep_other {s : Bytes → Option Saved} {op : PlusOp} {k : Bytes} (h1 : ∀ l d n t, op = .throttle l d n t → k ≠ throttleKey t)
    (h2 : ∀ l v, op ≠ .change l v k) : (plusStep s op).1 k = s k := by
  cases op with
  | throttle l d n t =>
    have := h1 l d n t rfl
    simp only [plusStep]
    (repeat' split) <;> first | rfl | exact setKey_ne this _
  | change l v m =>
    have : k ≠ m := fun h => h2 l v (by rw [h])
    simp only [plusStep]
    (repeat' split) <;> first | rfl | exact setKey_ne this _

theorem snoc_rec {P : List PlusOp → Prop} (h0 : P []) (h1 : ∀ xs op, P xs → P (xs ++ [op])) (ops : List PlusOp) : P ops := by
  generalize hn : ops.length = n
  induction n generalizing ops with
  | zero => cases ops with
    | nil => exact h0
    | cons => cases hn
  | succ n ih =>
    have hne : ops ≠ [] := by rintro rfl; cases hn
    have he := List.dropLast_concat_getLast hne
    rw [← he]
    exact h1 _ _ (ih _ (by rw [List.length_dropLast]; omega))

theorem callsOf_thr (t : Bytes) (l d n : Nat) (t' : Bytes) : callsOf t [.throttle l d n t'] = if t' = t then 1 else 0 := by
  by_cases h : t' = t <;> simp [callsOf, h]

theorem accounted_logged (t : Bytes) (l d n : Nat) (t' : Bytes) (a k : Nat) (u : Bytes) :
    accounted t [(.throttle l d n t', .logged a k u)] = if t' = t then k + 1 else 0 := by
  by_cases h : t' = t <;> simp [accounted, h]

theorem accounted_silent (t : Bytes) (l d n : Nat) (t' : Bytes) : accounted t [(.throttle l d n t', .silent)] = 0 := rfl

theorem thrInv {t : Bytes} (ops : List PlusOp) (h : NoClash t ops) :
    ThrInv t (plusRun (fun _ => none) ops).1 ops (plusRun (fun _ => none) ops).2 := by
  induction ops using snoc_rec with
  | h0 => exact Or.inl ⟨rfl, rfl, rfl, rfl⟩
  | h1 xs op ih =>
    have hih := ih (fun l v hm => h l v (List.mem_append_left _ hm))
    clear ih
    have hop : ∀ l v, op ≠ .change l v (throttleKey t) := fun l v he => h l v (by rw [he]; exact List.mem_append_right _ List.mem_cons_self)
    rw [plusRun_snoc]
    generalize (plusRun (fun _ => none) xs).1 = s at *
    generalize (plusRun (fun _ => none) xs).2 = tr at *
    unfold ThrInv at *
    dsimp only
    rw [loggedAt_snoc, callsOf_snoc, accounted_snoc]
    by_cases hk : ∃ l d n, op = .throttle l d n t
    · obtain ⟨l, d, now, rfl⟩ := hk
      rcases hih with ⟨a, b, c, e⟩ | ⟨last, m, a, b, c⟩
      · refine Or.inr ⟨now, 0, ?_, ?_, ?_⟩
        · simp only [plusStep, a]; exact setKey_eq _ _ _
        · simp [plusStep, a, loggedAt]
        · simp only [plusStep, a, callsOf_thr, accounted_logged, if_pos]; omega
      · by_cases hd : now > last + d
        · refine Or.inr ⟨now, 0, ?_, ?_, ?_⟩
          · simp only [plusStep, a, if_pos hd]; exact setKey_eq _ _ _
          · simp [plusStep, a, if_pos hd, loggedAt]
          · simp only [plusStep, a, if_pos hd, callsOf_thr, accounted_logged, if_pos]; omega
        · refine Or.inr ⟨last, m + 1, ?_, ?_, ?_⟩
          · simp only [plusStep, a, if_neg hd]; exact setKey_eq _ _ _
          · simp [plusStep, a, if_neg hd, loggedAt] at b ⊢; exact b
          · simp only [plusStep, a, if_neg hd, callsOf_thr, accounted_silent, if_pos]; omega
    · have h0 : (plusStep s op).1 (throttleKey t) = s (throttleKey t) := by
        refine plusStep_other (fun l d n t' he hkk => hk ⟨l, d, n, ?_⟩) hop
        rw [he, throttleKey_inj hkk]
      have h1 : callsOf t [op] = 0 := by
        cases op with
        | change => rfl
        | throttle l d n t' =>
          have : t' ≠ t := fun he => hk ⟨l, d, n, by rw [he]⟩
          simp [callsOf, this]
      have h2 : loggedAt t [(op, (plusStep s op).2)] = [] := by
        cases op with
        | change => rfl
        | throttle l d n t' =>
          have : t' ≠ t := fun he => hk ⟨l, d, n, by rw [he]⟩
          generalize (plusStep s (.throttle l d n t')).2 = o
          cases o <;> simp [loggedAt, this]
      have h3 : accounted t [(op, (plusStep s op).2)] = 0 := by
        cases op with
        | change => rfl
        | throttle l d n t' =>
          have : t' ≠ t := fun he => hk ⟨l, d, n, by rw [he]⟩
          generalize (plusStep s (.throttle l d n t')).2 = o
          cases o <;> simp [accounted, this]
      rw [h0, h1, h2, h3]
      simpa using hih

theorem loggedAt_le {t : Bytes} (s : Bytes → Option Saved) (ops : List PlusOp) :
    (loggedAt t (plusRun s ops).2).Sublist (ops.filterMap PlusOp.time?) := by
  induction ops generalizing s with
  | nil => exact List.Sublist.refl _
  | cons op ops ih =>
    rw [plusRun]
    have := ih (plusStep s op).1
    cases op with
    | change l v m =>
      rw [List.filterMap_cons_none (show PlusOp.time? (.change l v m) = none from rfl)]
      simpa [loggedAt] using this
    | throttle l d n t' =>
      rw [show ∀ x l, loggedAt t (x :: l) = loggedAt t [x] ++ loggedAt t l from fun x l => by
        rw [show x :: l = [x] ++ l from rfl]; unfold loggedAt; rw [List.filterMap_append]]
      rw [List.filterMap_cons_some (show PlusOp.time? (.throttle l d n t') = some n from rfl)]
      rw [show n :: ops.filterMap PlusOp.time? = [n] ++ ops.filterMap PlusOp.time? from rfl]
      refine List.Sublist.append ?_ this
      generalize (plusStep s (.throttle l d n t')).2 = o
      cases o <;> simp only [loggedAt, List.filterMap_cons, List.filterMap_nil]
      case logged => by_cases ht : t' = t <;> simp [ht]
      all_goals exact List.nil_sublist _

theorem le_getLast {l : List Nat} (h : l.Pairwise (· ≤ ·)) {b : Nat} (hb : l.getLast? = some b) : ∀ a ∈ l, a ≤ b := by
  intro a ha
  obtain ⟨ys, rfl⟩ := List.getLast?_eq_some_iff.mp hb
  rw [List.pairwise_append] at h
  rcases List.mem_append.mp ha with h1 | h1
  · exact h.2.2 a h1 b (by simp)
  · simp at h1; omega

/-- **C77:** a throttled call logs its text, at its level, if and only if every earlier
time this text was logged is more than the delay ago; otherwise it is silent. -/
theorem C77_when {ops : List PlusOp} (hm : Monotone ops) {t : Bytes} (hc : NoClash t ops) (level delay now : Nat) :
    let out := (plusStep (plusRun (fun _ => none) ops).1 (.throttle level delay now t)).2
    ((∀ x ∈ loggedAt t (plusRun (fun _ => none) ops).2, x + delay < now) → ∃ n, out = .logged level n t) ∧
    (¬ (∀ x ∈ loggedAt t (plusRun (fun _ => none) ops).2, x + delay < now) → out = .silent) := by
  dsimp only
  rcases thrInv ops hc with ⟨a, b, c, e⟩ | ⟨last, m, a, b, c⟩
  · rw [c]
    refine ⟨fun _ => ⟨0, by simp [plusStep, a]⟩, fun h => absurd (by simp) h⟩
  · have hl := le_getLast ((List.Pairwise.sublist (loggedAt_le _ ops) hm)) b
    have hmem := List.mem_of_getLast? b
    constructor
    · intro h
      have := h last hmem
      exact ⟨m, by simp only [plusStep, a]; rw [if_pos (by omega)]⟩
    · intro h
      simp only [plusStep, a]
      rw [if_neg]
      intro hgt
      exact h fun x hx => by have := hl x hx; omega

/-- **C77:** the log accounts for every call: when a call logs the text, the numbers
shown with the text so far add up, with the logged ones, to the number of calls. -/
theorem C77_count {ops : List PlusOp} {t : Bytes} (hc : NoClash t ops) {level delay now n : Nat} {u : Bytes}
    (h : (plusStep (plusRun (fun _ => none) ops).1 (.throttle level delay now t)).2 = .logged level n u) :
    accounted t (plusRun (fun _ => none) (ops ++ [.throttle level delay now t])).2 = callsOf t ops + 1 := by
  rw [plusRun_snoc, accounted_snoc, h]
  have h1 : accounted t [(PlusOp.throttle level delay now t, PlusOut.logged level n u)] = n + 1 := by simp [accounted]
  rw [h1]
  rcases thrInv ops hc with ⟨a, b, c, e⟩ | ⟨last, m, a, b, c⟩
  · simp only [plusStep, a] at h
    cases h; omega
  · simp only [plusStep, a] at h
    split at h
    · cases h; omega
    · cases h

/-- C77 is false of the code in one respect: the level is not looked at.  An error is
hidden by an information with the same text. -/
theorem C77_false_level (t : Bytes) (now : Nat) (delay : Nat) :
    (plusRun (fun _ => none) [.throttle 20 delay now t, .throttle 40 delay now t]).2 =
      [(.throttle 20 delay now t, .logged 20 0 t), (.throttle 40 delay now t, .silent)] := by
  have : ¬ now > now + delay := by omega
  simp [plusRun, plusStep, setKey_eq, this]

theorem chgInv {m : Bytes} (ops : List PlusOp) (h : ∀ l d n t, PlusOp.throttle l d n t ∈ ops → m ≠ throttleKey t) :
    (plusRun (fun _ => none) ops).1 m = (lastValue m ops).map Saved.value := by
  induction ops using snoc_rec with
  | h0 => rfl
  | h1 xs op ih =>
    have hih := ih (fun l d n t hm => h l d n t (List.mem_append_left _ hm))
    clear ih
    rw [plusRun_snoc, lastValue_snoc]
    cases op with
    | throttle l d n t =>
      dsimp only
      rw [← hih]
      exact plusStep_other (fun l' d' n' t' he => h l' d' n' t' (by simp [he])) (by intros; simp)
    | change l v m' =>
      dsimp only
      split
      · rename_i he
        subst he
        simp only [plusStep]
        split
        · assumption
        · exact setKey_eq _ _ _
      · rename_i he
        rw [← hih]
        exact plusStep_other (by simp) (by intro l v hx; cases hx; exact he rfl)

/-- **C78:** a `*_change` call logs its text, at its level, if and only if it is the first
with this text or the last one with this text had another value. -/
theorem C78_change {ops : List PlusOp} {m : Bytes} (hc : ∀ l d n t, PlusOp.throttle l d n t ∈ ops → m ≠ t ++ ascii "_throttled") (level value : Nat) :
    (plusStep (plusRun (fun _ => none) ops).1 (.change level value m)).2 =
      if lastValue m ops = some value then .silent else .logged level 0 m := by
  have h := chgInv ops hc
  unfold plusStep
  dsimp only
  rw [h]
  cases lastValue m ops with
  | none => rfl
  | some v =>
    by_cases hv : v = value
    · simp [hv]
    · simp [hv]

/-- C78 is false of the code if a throttled text plus the suffix is the text of a change:
the throttled call raises an exception and logs nothing. -/
theorem C78_false_clash (t : Bytes) (l v l' d now : Nat) :
    (plusRun (fun _ => none) [.change l v (t ++ ascii "_throttled"), .throttle l' d now t]).2 =
      [(.change l v (t ++ ascii "_throttled"), .logged l 0 (t ++ ascii "_throttled")), (.throttle l' d now t, .typeError)] := by
  simp [plusRun, plusStep, setKey_eq, throttleKey]

end Verif.Tools
