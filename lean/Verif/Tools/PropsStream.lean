import Verif.Tools.Stream

/-!
# C++ streams (C34, C73)
-/
namespace Verif.Tools
open Verif Verif.Libulog

/-- What thread `t` inserted since its last flush. -/
def pendText (t : Nat) (evs : List (Nat × StOp)) : Bytes :=
  evs.foldl (fun acc e => if e.1 = t then match e.2 with
    | .insert _ s => acc ++ s
    | .flush _ => []
    | _ => acc else acc) []

/-- The tag that thread `t` set last. -/
def lastTag (t : Nat) (evs : List (Nat × StOp)) : Option Cid :=
  evs.foldl (fun acc e => if e.1 = t then match e.2 with
    | .setTag c => some c
    | _ => acc else acc) none

/-- Single characters put in stream `k` since it was flushed. -/
def putCount (k : Nat) (evs : List (Nat × StOp)) : Nat :=
  evs.foldl (fun acc e => match e.2 with
    | .put j _ => if j = k then acc + 1 else acc
    | .flush j => if j = k then 0 else acc
    | _ => acc) 0

/-- No stream ever got more than 512 single characters between two flushes. -/
def Calm (evs : List (Nat × StOp)) : Prop := ∀ a b, evs = a ++ b → ∀ k, putCount k a ≤ 512

theorem Calm.init {evs : List (Nat × StOp)} {e : Nat × StOp} (h : Calm (evs ++ [e])) : Calm evs :=
  fun a b hab k => h a (b ++ [e]) (by rw [hab, List.append_assoc]) k

theorem stRun_snoc (level : Nat → UInt32) (sentry : Bool) (s : Streams) (evs : List (Nat × StOp)) (e : Nat × StOp) :
    (stRun level sentry s (evs ++ [e])).1 = (stStep level sentry (stRun level sentry s evs).1 e.1 e.2).1 ∧
      (stRun level sentry s (evs ++ [e])).2 = (stRun level sentry s evs).2 ++ (stStep level sentry (stRun level sentry s evs).1 e.1 e.2).2 := by
  induction evs generalizing s with
  | nil => obtain ⟨t, op⟩ := e; simp [stRun]
  | cons x evs ih =>
    obtain ⟨t, op⟩ := x
    simp only [List.cons_append, stRun]
    have := ih (stStep level sentry s t op).1
    exact ⟨this.1, by rw [this.2, List.append_assoc]⟩

structure StInv (s : Streams) (evs : List (Nat × StOp)) : Prop where
  text : ∀ t, (s.buf t).getD [] = (pendText t evs).take 512
  tag : ∀ t, s.tag t = lastTag t evs
  fake : ∀ k, s.fake k = putCount k evs
  bad : ∀ k, s.bad k = false

theorem take_more (a x : Bytes) : a.take 512 ++ x.take (512 - (a.take 512).length) = (a ++ x).take 512 := by
  rw [List.take_append]
  congr 1
  rw [List.length_take]
  rcases Nat.lt_or_ge a.length 512 with h | h
  · rw [Nat.min_eq_right (by omega)]
  · rw [Nat.min_eq_left h, show 512 - a.length = 0 by omega]

theorem pendText_snoc (evs : List (Nat × StOp)) (t : Nat) (op : StOp) (u : Nat) :
    pendText u (evs ++ [(t, op)]) = if t = u then (match op with
      | .insert _ s => pendText u evs ++ s
      | .flush _ => []
      | _ => pendText u evs) else pendText u evs := by
  unfold pendText; rw [List.foldl_append]; rfl

theorem lastTag_snoc (evs : List (Nat × StOp)) (t : Nat) (op : StOp) (u : Nat) :
    lastTag u (evs ++ [(t, op)]) = if t = u then (match op with
      | .setTag c => some c
      | _ => lastTag u evs) else lastTag u evs := by
  unfold lastTag; rw [List.foldl_append]; rfl

theorem putCount_snoc (evs : List (Nat × StOp)) (t : Nat) (op : StOp) (k : Nat) :
    putCount k (evs ++ [(t, op)]) = (match op with
      | .put j _ => if j = k then putCount k evs + 1 else putCount k evs
      | .flush j => if j = k then 0 else putCount k evs
      | _ => putCount k evs) := by
  unfold putCount; rw [List.foldl_append]; rfl

theorem stInv_step {level : Nat → UInt32} {sentry : Bool} {s : Streams} {evs : List (Nat × StOp)} (h : StInv s evs) (e : Nat × StOp)
    (hc : Calm (evs ++ [e])) : StInv (stStep level sentry s e.1 e.2).1 (evs ++ [e]) := by
  obtain ⟨t, op⟩ := e
  have hp := pendText_snoc evs t op
  have ht := lastTag_snoc evs t op
  have hn := putCount_snoc evs t op
  cases op with
  | insert k x =>
    have htext : ∀ y, (y = (pendText t evs ++ x).take 512) → ∀ u, ((upd s.buf t (some y)) u).getD [] = (pendText u (evs ++ [(t, .insert k x)])).take 512 := by
      intro y hy u
      rw [hp]
      unfold upd
      by_cases hu : u = t
      · subst hu; simp [hy]
      · rw [if_neg hu, if_neg (Ne.symm hu)]; exact h.text u
    have hrest : ∀ y, (y = (pendText t evs ++ x).take 512) → StInv { s with buf := upd s.buf t (some y) } (evs ++ [(t, .insert k x)]) := fun y hy =>
      ⟨htext y hy, fun u => by rw [ht]; simp [h.tag u], fun j => by rw [hn]; exact h.fake j, h.bad⟩
    simp only [stStep, h.bad k]
    have hb := h.text t
    split
    · contradiction
    · split
      · rename_i hnone
        rw [hnone] at hb
        refine hrest _ ?_
        have h0 : pendText t evs = [] := by
          cases hx : pendText t evs with
          | nil => rfl
          | cons a l => rw [hx] at hb; simp at hb
        rw [h0, List.nil_append]
      · rename_i y hsome
        rw [hsome] at hb
        refine hrest _ ?_
        simp only [Option.getD_some] at hb
        rw [hb, take_more]
  | put k b =>
    have hle := hc (evs ++ [(t, .put k b)]) [] (by simp) k
    rw [hn] at hle
    simp only [if_true] at hle
    have hroom : s.fake k < 512 := by rw [h.fake]; omega
    rw [show (stStep level sentry s (t, StOp.put k b).1 (t, StOp.put k b).2).1 = { s with fake := upd s.fake k (s.fake k + 1) } by
      simp [stStep, h.bad k, hroom]]
    refine ⟨fun u => by rw [hp]; simpa using h.text u, fun u => by rw [ht]; simpa using h.tag u, fun j => ?_, h.bad⟩
    rw [hn]
    unfold upd
    dsimp only
    by_cases hj : j = k
    · subst hj; simp [h.fake]
    · rw [if_neg hj, if_neg (Ne.symm hj)]; exact h.fake j
  | flush k =>
    have hf : ∀ j, upd s.fake k 0 j = putCount j (evs ++ [(t, .flush k)]) := by
      intro j
      rw [hn]
      unfold upd
      dsimp only
      by_cases hj : j = k
      · subst hj; simp
      · rw [if_neg hj, if_neg (Ne.symm hj)]; exact h.fake j
    have htag : ∀ u, s.tag u = lastTag u (evs ++ [(t, .flush k)]) := fun u => by rw [ht]; simpa using h.tag u
    have hoth : ∀ u, u ≠ t → (s.buf u).getD [] = (pendText u (evs ++ [(t, .flush k)])).take 512 := by
      intro u hu; rw [hp, if_neg (Ne.symm hu)]; exact h.text u
    simp only [stStep, h.bad k]
    split
    · rename_i hx; simp at hx
    · split
      · rename_i hnone
        refine ⟨fun u => ?_, htag, hf, h.bad⟩
        by_cases hu : u = t
        · subst hu; rw [hp]; simp [hnone]
        · exact hoth u hu
      · rename_i y hsome
        split
        · rename_i hy
          refine ⟨fun u => ?_, htag, hf, h.bad⟩
          by_cases hu : u = t
          · subst hu; rw [hp]; simp [hsome, hy]
          · exact hoth u hu
        · refine ⟨fun u => ?_, htag, hf, h.bad⟩
          dsimp only
          unfold upd
          by_cases hu : u = t
          · subst hu; rw [hp]; simp
          · rw [if_neg hu]; exact hoth u hu
  | setTag c =>
    refine ⟨fun u => by rw [hp]; simpa [stStep] using h.text u, fun u => ?_, fun j => by rw [hn]; exact h.fake j, h.bad⟩
    rw [ht]
    simp only [stStep]
    unfold upd
    by_cases hu : u = t
    · subst hu; simp
    · rw [if_neg hu, if_neg (Ne.symm hu)]; exact h.tag u

theorem stRun_inv {level : Nat → UInt32} {sentry : Bool} (evs : List (Nat × StOp)) (hc : Calm evs) :
    StInv (stRun level sentry Streams.start evs).1 evs := by
  have key : ∀ n, ∀ evs : List (Nat × StOp), evs.length = n → Calm evs → StInv (stRun level sentry Streams.start evs).1 evs := by
    intro n
    induction n with
    | zero =>
      intro evs hl _
      rw [List.eq_nil_of_length_eq_zero hl]
      exact ⟨fun _ => rfl, fun _ => rfl, fun _ => rfl, fun _ => rfl⟩
    | succ n ih =>
      intro evs hl hc
      have hne : evs ≠ [] := by intro h; rw [h] at hl; simp at hl
      have he := List.dropLast_concat_getLast hne
      rw [← he] at hc ⊢
      rw [(stRun_snoc level sentry _ _ _).1]
      exact stInv_step (ih _ (by rw [List.length_dropLast, hl]; rfl) hc.init) _ hc
  exact key _ evs rfl hc

/-- **C34:** a flush of stream `k` by a thread logs, at the level of that stream and with
the tag that the thread set last, the first 512 bytes of what the thread inserted in any
of the streams since its last flush, as a C string; nothing if that is empty. No other
call logs anything. -/
theorem C34_flush (level : Nat → UInt32) (sentry : Bool) {evs : List (Nat × StOp)} (hc : Calm evs) (t : Nat) (op : StOp) :
    (stStep level sentry (stRun level sentry Streams.start evs).1 t op).2 =
      match op with
      | .flush k => if pendText t evs = [] then [] else
          [.str (level k) ((lastTag t evs).getD 0) (cstr ((pendText t evs).take 512))]
      | _ => [] := by
  have hi := stRun_inv (level := level) (sentry := sentry) evs hc
  generalize (stRun level sentry Streams.start evs).1 = s at *
  cases op with
  | insert k x => simp only [stStep]; (repeat' split) <;> rfl
  | put k b => simp only [stStep]; (repeat' split) <;> rfl
  | setTag c => rfl
  | flush k =>
    simp only [stStep, hi.bad k]
    have hb := hi.text t
    have h0 : (pendText t evs).take 512 = [] ↔ pendText t evs = [] := by simp [List.take_eq_nil_iff]
    rw [if_neg (by simp)]
    cases hs : s.buf t with
    | none =>
      rw [hs] at hb
      rw [if_pos (h0.mp hb.symm)]
    | some y =>
      rw [hs] at hb
      simp only [Option.getD_some] at hb
      dsimp only
      by_cases hy : y = []
      · rw [if_pos hy, if_pos (h0.mp (by rw [← hb, hy]))]
      · rw [if_neg hy, if_neg (fun hx => hy (by rw [hb]; exact h0.mpr hx)), hi.tag t, hb]

/-- C34 is false of single characters (`put`, `endl`): they are never logged. -/
theorem C34_false_put (level : Nat → UInt32) (sentry : Bool) (t k : Nat) (b : UInt8) :
    (stRun level sentry Streams.start [(t, .put k b), (t, .flush k)]).2 = [] := by
  simp [stRun, stStep, Streams.start]

theorem bad_forever (level : Nat → UInt32) (sentry : Bool) {s : Streams} {k : Nat} (h : s.bad k = true) (t : Nat) (op : StOp) :
    (stStep level sentry s t op).1.bad k = true := by
  cases op with
  | insert j x => simp only [stStep]; (repeat' split) <;> exact h
  | put j b =>
    simp only [stStep]
    split
    · exact h
    · split
      · exact h
      · dsimp only; unfold upd; split
        · rfl
        · exact h
  | flush j =>
    simp only [stStep]
    split
    · exact h
    · split
      · exact h
      · split <;> exact h
  | setTag c => exact h

theorem put_room (level : Nat → UInt32) (sentry : Bool) {s : Streams} {k : Nat} (t : Nat) (b : UInt8) (hb : s.bad k = false)
    (h : s.fake k < 512) : stStep level sentry s t (.put k b) = ({ s with fake := upd s.fake k (s.fake k + 1) }, []) := by
  simp [stStep, hb, h]

theorem put_full (level : Nat → UInt32) (sentry : Bool) {s : Streams} {k : Nat} (t : Nat) (b : UInt8) (hb : s.bad k = false)
    (h : ¬ s.fake k < 512) : stStep level sentry s t (.put k b) = ({ s with bad := upd s.bad k true }, []) := by
  simp [stStep, hb, h]

theorem puts_fake (level : Nat → UInt32) (sentry : Bool) (t k : Nat) (b : UInt8) (n : Nat) (s : Streams) (h : s.fake k + n ≤ 512) (hb : s.bad k = false) :
    (stRun level sentry s (List.replicate n (t, .put k b))) = ({ s with fake := upd s.fake k (s.fake k + n) }, []) := by
  induction n generalizing s with
  | zero =>
    have : upd s.fake k (s.fake k + 0) = s.fake := by funext j; unfold upd; split <;> simp_all
    rw [this]; rfl
  | succ n ih =>
    rw [List.replicate_succ, stRun, put_room level sentry t b hb (by omega)]
    dsimp only
    rw [ih { s with fake := upd s.fake k (s.fake k + 1) } (by simp only [upd, if_true]; omega) hb]
    simp only [List.append_nil, Prod.mk.injEq, Streams.mk.injEq, true_and, and_true]
    funext j
    unfold upd
    split
    · simp only [if_true]; omega
    · rfl

/-- C73 is false of the code: after 513 single characters without a flush a stream logs
nothing any more, whatever is inserted, put, flushed and tagged by that thread on it. -/
theorem C73_false (level : Nat → UInt32) (sentry : Bool) (t k : Nat) (b : UInt8) {evs : List (Nat × StOp)}
    (he : ∀ e ∈ evs, e.1 = t ∧ (e.2 = .flush k ∨ (∃ s, e.2 = .insert k s) ∨ (∃ c, e.2 = .put k c) ∨ ∃ c, e.2 = .setTag c)) :
    (stRun level sentry Streams.start (List.replicate 513 (t, .put k b) ++ evs)).2 = [] := by
  have h1 : stRun level sentry Streams.start (List.replicate 512 (t, .put k b) ++ [(t, .put k b)]) =
      ({ Streams.start with fake := upd Streams.start.fake k (0 + 512), bad := upd Streams.start.bad k true }, []) := by
    have h0 := puts_fake level sentry t k b 512 Streams.start (by simp [Streams.start]) rfl
    obtain ⟨a1, a2⟩ := stRun_snoc level sentry Streams.start (List.replicate 512 (t, .put k b)) (t, .put k b)
    rw [h0] at a1 a2
    dsimp only at a1 a2
    rw [put_full level sentry t b rfl (by simp [upd, Streams.start])] at a1 a2
    exact Prod.ext a1 a2
  have happ : ∀ (a c : List (Nat × StOp)) (s : Streams), (stRun level sentry s (a ++ c)).2 =
      (stRun level sentry s a).2 ++ (stRun level sentry (stRun level sentry s a).1 c).2 := by
    intro a c
    induction a with
    | nil => intro s; simp [stRun]
    | cons x a ih => intro s; obtain ⟨u, op⟩ := x; simp only [List.cons_append, stRun]; rw [ih, List.append_assoc]
  rw [show (513 : Nat) = 512 + 1 from rfl, ← List.replicate_append_replicate]
  rw [show List.replicate 1 (t, StOp.put k b) = [(t, .put k b)] from rfl, happ, h1]
  dsimp only
  rw [List.nil_append]
  have key : ∀ (evs : List (Nat × StOp)) (s : Streams), (∀ e ∈ evs, e.1 = t ∧ (e.2 = .flush k ∨ (∃ s, e.2 = .insert k s) ∨ (∃ c, e.2 = .put k c) ∨ ∃ c, e.2 = .setTag c)) →
      s.bad k = true → s.buf t = none → (stRun level sentry s evs).2 = [] := by
    intro evs
    induction evs with
    | nil => intro s _ _ _; rfl
    | cons x evs ih =>
      intro s he hb hn
      obtain ⟨u, op⟩ := x
      obtain ⟨hu, ho⟩ := he _ List.mem_cons_self
      dsimp only at hu ho
      subst hu
      have hbad := bad_forever level sentry hb u op
      have hout : (stStep level sentry s u op).2 = [] ∧ (stStep level sentry s u op).1.buf u = none := by
        rcases ho with rfl | ⟨x, rfl⟩ | ⟨c, rfl⟩ | ⟨c, rfl⟩
        · simp only [stStep]
          split
          · exact ⟨rfl, hn⟩
          · rw [hn]; exact ⟨rfl, hn⟩
        · simp only [stStep, hb, if_true]; exact ⟨trivial, hn⟩
        · simp only [stStep, hb, if_true]; exact ⟨trivial, hn⟩
        · exact ⟨rfl, hn⟩
      simp only [stRun]
      rw [hout.1, ih _ (fun e hx => he e (List.mem_cons_of_mem _ hx)) hbad hout.2]
      rfl
  exact key evs _ he (by simp [upd]) rfl

end Verif.Tools
