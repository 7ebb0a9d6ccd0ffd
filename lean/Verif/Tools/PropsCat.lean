import Verif.Tools.Cat
import Verif.Ulogcat.PropsOpen
import Verif.Ulogcat.PropsCore
import Verif.Ulogcat.PropsReceive
import Verif.Ulogcat.PropsFollow
import Verif.Tools.PropsUlogger

/-!
# The log viewer command (C93, C94) and clearing logs (C95)
-/
namespace Verif.Tools
open Verif Verif.Ulogcat

/-! ## Specification of the options -/

def formats : List (Bytes × Fmt) :=
  [(ascii "short", .short), (ascii "aligned", .aligned), (ascii "process", .process), (ascii "long", .long), (ascii "csv", .csv)]

/-- Options that end the command. -/
def CatStops (o : CatOpt) : Prop := o = .help ∨ o = .bad ∨ ∃ a, o = .format a ∧ formats.lookup a = none

def fmtOpt : CatOpt → Option Fmt
  | .format a => formats.lookup a
  | _ => none
def bufOpt : CatOpt → Option Bytes
  | .buffer a => some a
  | _ => none
def tailOpt : CatOpt → Option Int
  | .tail a => some (atoi a)
  | _ => none

theorem parseFormat_eq (a : Bytes) : parseFormat a = formats.lookup a := by
  unfold parseFormat formats
  simp only [List.lookup]
  split
  · rename_i h; subst h; rfl
  · rename_i h; rw [beq_eq_false_iff_ne.2 h]
    split
    · rename_i h; subst h; rfl
    · rename_i h; rw [beq_eq_false_iff_ne.2 h]
      split
      · rename_i h; subst h; rfl
      · rename_i h; rw [beq_eq_false_iff_ne.2 h]
        split
        · rename_i h; subst h; rfl
        · rename_i h; rw [beq_eq_false_iff_ne.2 h]
          split
          · rename_i h; subst h; rfl
          · rename_i h; rw [beq_eq_false_iff_ne.2 h]

/-- The array of names after the calls of `realloc` for `args`. -/
def buffers (mem : Nat → Bool) : Nat → List Bytes → Cat → Cat
  | _, [], c => c
  | k, a :: as, c => buffers mem (k + 1) as (addBuffer (mem k) a c)

theorem addBuffer_other (m : Bool) (a : Bytes) (c : Cat) :
    (addBuffer m a c).fmt = c.fmt ∧ (addBuffer m a c).dump = c.dump ∧ (addBuffer m a c).color = c.color ∧
    (addBuffer m a c).klog = c.klog ∧ (addBuffer m a c).label = c.label ∧ (addBuffer m a c).tail = c.tail ∧
    (addBuffer m a c).clear = c.clear ∧ (addBuffer m a c).ulog = true := by
  unfold addBuffer
  dsimp only
  split <;> exact ⟨rfl, rfl, rfl, rfl, rfl, rfl, rfl, rfl⟩

theorem addBuffer_devs (m : Bool) (a : Bytes) {c d : Cat} (h : c.devs = d.devs ∧ c.n = d.n) :
    (addBuffer m a c).devs = (addBuffer m a d).devs ∧ (addBuffer m a c).n = (addBuffer m a d).n := by
  unfold addBuffer
  dsimp only
  rw [h.1, h.2]
  split <;> exact ⟨rfl, rfl⟩

theorem buffers_devs (mem : Nat → Bool) (as : List Bytes) : ∀ k {c d : Cat}, c.devs = d.devs ∧ c.n = d.n →
    (buffers mem k as c).devs = (buffers mem k as d).devs ∧ (buffers mem k as c).n = (buffers mem k as d).n := by
  induction as with
  | nil => intro k c d h; exact h
  | cons a as ih => intro k c d h; exact ih _ (addBuffer_devs _ _ h)

/-- What the loop leaves, from any start. -/
structure Options (mem : Nat → Bool) (k : Nat) (os : List CatOpt) (c c' : Cat) : Prop where
  fmt : c'.fmt = ((os.filterMap fmtOpt).getLast?).getD c.fmt
  dump : c'.dump = (c.dump || decide (.dump ∈ os))
  color : c'.color = (c.color || decide (.color ∈ os))
  klog : c'.klog = (c.klog || decide (.klog ∈ os))
  label : c'.label = (c.label || decide (.label ∈ os))
  clear : c'.clear = (c.clear || decide (.clear ∈ os))
  tail : c'.tail = ((os.filterMap tailOpt).getLast?).getD c.tail
  ulog : c'.ulog = true ↔ c.ulog = true ∨ .ulog ∈ os ∨ os.filterMap bufOpt ≠ []
  devs : c'.devs = (buffers mem k (os.filterMap bufOpt) c).devs ∧ c'.n = (buffers mem k (os.filterMap bufOpt) c).n

theorem getLast?_getD_cons {α : Type} (x : α) (l : List α) (d : α) : ((x :: l).getLast?).getD d = (l.getLast?).getD x := by
  cases l with
  | nil => rfl
  | cons y l => rw [List.getLast?_cons_cons]; cases h : (y :: l).getLast? with
    | none => simp at h
    | some z => rfl

theorem loop_cases (mem : Nat → Bool) (os : List CatOpt) : ∀ (k : Nat) (c : Cat),
    (∃ pre o post, os = pre ++ o :: post ∧ (∀ x ∈ pre, ¬ CatStops x) ∧ CatStops o ∧
      catLoopOpts mem k c os = .error (if o = .help then 0 else -1)) ∨
    ((∀ x ∈ os, ¬ CatStops x) ∧ ∃ c', catLoopOpts mem k c os = .ok c' ∧ Options mem k os c c') := by
  induction os with
  | nil =>
    intro k c
    exact .inr ⟨by simp, c, rfl, by simp, by simp, by simp, by simp, by simp, by simp, by simp, by simp, rfl, rfl⟩
  | cons o os ih =>
    intro k c
    -- the option goes on with state `d` and counter `j`
    have go : ∀ (j : Nat) (d : Cat), ¬ CatStops o → catLoopOpts mem k c (o :: os) = catLoopOpts mem j d os →
        (∀ c', Options mem j os d c' → Options mem k (o :: os) c c') →
        (∃ pre o' post, o :: os = pre ++ o' :: post ∧ (∀ x ∈ pre, ¬ CatStops x) ∧ CatStops o' ∧
          catLoopOpts mem k c (o :: os) = .error (if o' = .help then 0 else -1)) ∨
        ((∀ x ∈ o :: os, ¬ CatStops x) ∧ ∃ c', catLoopOpts mem k c (o :: os) = .ok c' ∧ Options mem k (o :: os) c c') := by
      intro j d hn he hO
      rcases ih j d with ⟨pre, o', post, h1, h2, h3, h4⟩ | ⟨h1, c', h2, h3⟩
      · refine .inl ⟨o :: pre, o', post, by rw [h1]; rfl, ?_, h3, by rw [he, h4]⟩
        intro x hx
        rcases List.mem_cons.1 hx with rfl | hx
        · exact hn
        · exact h2 x hx
      · refine .inr ⟨?_, c', by rw [he, h2], hO c' h3⟩
        intro x hx
        rcases List.mem_cons.1 hx with rfl | hx
        · exact hn
        · exact h1 x hx
    have stop : ∀ st, CatStops o → catLoopOpts mem k c (o :: os) = .error st → st = (if o = .help then 0 else -1) →
        (∃ pre o' post, o :: os = pre ++ o' :: post ∧ (∀ x ∈ pre, ¬ CatStops x) ∧ CatStops o' ∧
          catLoopOpts mem k c (o :: os) = .error (if o' = .help then 0 else -1)) := by
      intro st h1 h2 h3
      exact ⟨[], o, os, rfl, by simp, h1, by rw [h2, h3]⟩
    have keep : ∀ {d c' : Cat}, (c'.devs = (buffers mem k (os.filterMap bufOpt) d).devs ∧
        c'.n = (buffers mem k (os.filterMap bufOpt) d).n) → d.devs = c.devs ∧ d.n = c.n →
        (c'.devs = (buffers mem k (os.filterMap bufOpt) c).devs ∧ c'.n = (buffers mem k (os.filterMap bufOpt) c).n) :=
      fun h h' => ⟨h.1.trans (buffers_devs mem _ k h').1, h.2.trans (buffers_devs mem _ k h').2⟩
    cases o with
    | help => exact .inl (stop 0 (.inl rfl) rfl rfl)
    | bad => exact .inl (stop (-1) (.inr (.inl rfl)) rfl rfl)
    | format a =>
      cases hf : formats.lookup a with
      | none =>
        refine .inl (stop (-1) (.inr (.inr ⟨a, rfl, hf⟩)) ?_ rfl)
        unfold catLoopOpts
        dsimp only
        rw [parseFormat_eq, hf]
      | some f =>
        refine go k { c with fmt := f } ?_ ?_ ?_
        · rintro (h | h | ⟨b, h, hb⟩)
          · cases h
          · cases h
          · cases h; rw [hf] at hb; cases hb
        · rw [catLoopOpts, parseFormat_eq, hf]
        · intro c' O
          have e : fmtOpt (.format a) = some f := hf
          refine ⟨?_, by simpa using O.dump, by simpa using O.color, by simpa using O.klog, by simpa using O.label,
            by simpa using O.clear, by simpa [List.filterMap_cons, tailOpt] using O.tail,
            by simpa [List.filterMap_cons, bufOpt] using O.ulog, ?_⟩
          · rw [List.filterMap_cons, e]
            dsimp only
            rw [getLast?_getD_cons]; exact O.fmt
          · rw [show (CatOpt.format a :: os).filterMap bufOpt = os.filterMap bufOpt from rfl]
            exact keep O.devs ⟨rfl, rfl⟩
    | tail a =>
      refine go k { c with tail := atoi a } (by rintro (h | h | ⟨b, h, hb⟩) <;> cases h) rfl ?_
      intro c' O
      refine ⟨by simpa [List.filterMap_cons, fmtOpt] using O.fmt, by simpa using O.dump, by simpa using O.color,
        by simpa using O.klog, by simpa using O.label,
        by simpa using O.clear, ?_, by simpa [List.filterMap_cons, bufOpt] using O.ulog, ?_⟩
      · rw [show (CatOpt.tail a :: os).filterMap tailOpt = atoi a :: os.filterMap tailOpt from rfl, getLast?_getD_cons]
        exact O.tail
      · rw [show (CatOpt.tail a :: os).filterMap bufOpt = os.filterMap bufOpt from rfl]
        exact keep O.devs ⟨rfl, rfl⟩
    | buffer a =>
      refine go (k + 1) (addBuffer (mem k) a c) (by rintro (h | h | ⟨b, h, hb⟩) <;> cases h) rfl ?_
      intro c' O
      obtain ⟨a1, a2, a3, a4, a5, a6, a7, a8⟩ := addBuffer_other (mem k) a c
      refine ⟨by simpa [List.filterMap_cons, fmtOpt, a1] using O.fmt, by simpa [a2] using O.dump,
        by simpa [a3] using O.color, by simpa [a4] using O.klog, by simpa [a5] using O.label, by simpa [a7] using O.clear,
        by simpa [List.filterMap_cons, tailOpt, a6] using O.tail, ?_, ?_⟩
      · constructor
        · intro _; exact .inr (.inr (by rw [show (CatOpt.buffer a :: os).filterMap bufOpt = a :: os.filterMap bufOpt from rfl]; simp))
        · intro _; exact O.ulog.2 (.inl a8)
      · exact O.devs
    | clear | dump | color | klog | label =>
      refine go k _ (by rintro (h | h | ⟨b, h, hb⟩) <;> cases h) rfl ?_
      intro c' O
      refine ⟨by simpa [List.filterMap_cons, fmtOpt] using O.fmt, by simpa using O.dump, by simpa using O.color,
        by simpa using O.klog, by simpa using O.label, by simpa using O.clear,
        by simpa [List.filterMap_cons, tailOpt] using O.tail, by simpa [List.filterMap_cons, bufOpt] using O.ulog, ?_⟩
      exact keep O.devs ⟨rfl, rfl⟩
    | ulog =>
      refine go k _ (by rintro (h | h | ⟨b, h, hb⟩) <;> cases h) rfl ?_
      intro c' O
      refine ⟨by simpa [List.filterMap_cons, fmtOpt] using O.fmt, by simpa using O.dump, by simpa using O.color,
        by simpa using O.klog, by simpa using O.label, by simpa using O.clear,
        by simpa [List.filterMap_cons, tailOpt] using O.tail, ?_, ?_⟩
      · constructor
        · intro _; exact .inr (.inl (by simp))
        · intro _; exact O.ulog.2 (.inl rfl)
      · exact keep O.devs ⟨rfl, rfl⟩

/-- C93, stopping. The first option that is `-h`, unknown, or a format that does not
exist ends the command, with status 0 for `-h` and -1 otherwise. -/
theorem C93_stop (mem : Nat → Bool) (os : List CatOpt) (st : Int) :
    catOptions mem os = .error st ↔ ∃ pre o post, os = pre ++ o :: post ∧ (∀ x ∈ pre, ¬ CatStops x) ∧ CatStops o ∧
      st = if o = .help then 0 else -1 := by
  unfold catOptions
  rcases loop_cases mem os 0 {} with ⟨pre, o, post, h1, h2, h3, h4⟩ | ⟨h1, c', h2, h3⟩
  · rw [h4]
    constructor
    · intro h
      simp only [bind, Except.bind, Except.error.injEq] at h
      exact ⟨pre, o, post, h1, h2, h3, h.symm⟩
    · rintro ⟨pre', o', post', g1, g2, g3, rfl⟩
      have : o = o' := by
        rw [h1] at g1
        rcases List.append_eq_append_iff.1 g1 with ⟨t, e1, e2⟩ | ⟨t, e1, e2⟩
        · cases t with
          | nil => simp at e2; exact e2.1
          | cons x t =>
            simp only [List.cons_append, List.cons.injEq] at e2
            rw [← e2.1] at e1
            exact absurd h3 (g2 o (by rw [e1]; simp))
        · cases t with
          | nil => simp at e2; exact e2.1.symm
          | cons x t =>
            simp only [List.cons_append, List.cons.injEq] at e2
            rw [← e2.1] at e1
            exact absurd g3 (h2 o' (by rw [e1]; simp))
      rw [this]; rfl
  · rw [h2]
    constructor
    · intro h; simp [bind, Except.bind, pure, Except.pure] at h
    · rintro ⟨pre', o', post', g1, g2, g3, rfl⟩
      exact absurd g3 (h1 o' (by rw [g1]; simp))

/-- C93, meaning of the options, if none of them ends the command: flags are set if
they occur, the last format and the last tail count, and log devices are shown
unless only `-k` was given. -/
theorem C93_options (mem : Nat → Bool) (os : List CatOpt) (h : ∀ o ∈ os, ¬ CatStops o) :
    ∃ c, catOptions mem os = .ok c ∧ c.fmt = ((os.filterMap fmtOpt).getLast?).getD .aligned ∧
      (c.dump = true ↔ .dump ∈ os) ∧ (c.color = true ↔ .color ∈ os) ∧ (c.klog = true ↔ .klog ∈ os) ∧
      (c.label = true ↔ .label ∈ os) ∧ (c.clear = true ↔ .clear ∈ os) ∧
      c.tail = ((os.filterMap tailOpt).getLast?).getD 0 ∧
      (c.ulog = true ↔ .ulog ∈ os ∨ os.filterMap bufOpt ≠ [] ∨ .klog ∉ os) := by
  unfold catOptions
  rcases loop_cases mem os 0 {} with ⟨pre, o, post, h1, h2, h3, h4⟩ | ⟨h1, c', h2, h3⟩
  · exact absurd h3 (h o (by rw [h1]; simp))
  · rw [h2]
    have hk := h3.klog
    have hu := h3.ulog
    simp only [Bool.false_or, Bool.false_eq_true, false_or] at hk hu
    refine ⟨_, rfl, ?_⟩
    by_cases hc : (c'.ulog || c'.klog) = true
    · rw [if_pos hc]
      refine ⟨h3.fmt, by rw [h3.dump]; simp, by rw [h3.color]; simp, by rw [hk]; simp, by rw [h3.label]; simp,
        by rw [h3.clear]; simp, h3.tail, ?_⟩
      rw [hu]
      constructor
      · rintro (g | g)
        · exact .inl g
        · exact .inr (.inl g)
      · rintro (g | g | g)
        · exact .inl g
        · exact .inr g
        · rw [Bool.or_eq_true, hu, hk] at hc
          rcases hc with hc | hc
          · exact hc
          · simp at hc; exact absurd hc g
    · rw [if_neg hc]
      rw [Bool.or_eq_true, hk, decide_eq_true_iff] at hc
      refine ⟨h3.fmt, by rw [h3.dump]; simp, by rw [h3.color]; simp, by rw [hk]; simp, by rw [h3.label]; simp,
        by rw [h3.clear]; simp, h3.tail, ?_⟩
      constructor
      · intro _; exact .inr (.inr fun g => hc (.inr g))
      · intro _; rfl

/-! ## The names, when memory is refused -/

/-- Nothing stored; or these names stored; or the array is not that of the count. -/
inductive Stored (c : Cat) : Option (List Bytes) → Prop
  | empty (h : c.devs = none ∧ c.n = 0) : Stored c (some [])
  | names {l} (h : c.devs = some (l.map some) ∧ c.n = l.length) (hl : l ≠ []) : Stored c (some l)
  | broken (h : 0 < c.n) (hd : c.devs = none ∨ ∃ t, c.devs = some (none :: t)) : Stored c none

theorem Stored.eq {c : Cat} {r : Option (List Bytes)} (h : Stored c r) : c.names = r := by
  have hm : ∀ l : List Bytes, (l.map some).mapM (m := Option) id = some l := by
    intro l
    induction l with
    | nil => rfl
    | cons a l ih => simp only [List.map_cons, List.mapM_cons, id, ih]; rfl
  unfold Cat.names
  cases h with
  | empty h => rw [if_pos h.2]
  | names h hl =>
    rename_i l
    rw [if_neg (by rw [h.2]; cases l <;> simp at hl ⊢), h.1]
    show (List.take c.n (l.map some)).mapM id = _
    rw [h.2, show l.length = (l.map some).length by simp, List.take_length, hm]
  | broken h hd =>
    rw [if_neg (by omega)]
    rcases hd with hd | ⟨t, hd⟩
    · rw [hd]; rfl
    · rw [hd]
      cases hn : c.n with
      | zero => omega
      | succ n => rfl

theorem Stored.ok {c : Cat} {l : List Bytes} (h : Stored c (some l)) (a : Bytes) :
    Stored (addBuffer true a c) (some (l ++ [a])) := by
  cases h with
  | empty h => exact .names (by unfold addBuffer; dsimp only; rw [if_pos rfl, h.1, h.2]; exact ⟨rfl, rfl⟩) (by simp)
  | names h hl =>
    refine .names ?_ (by simp)
    unfold addBuffer; dsimp only; rw [if_pos rfl, h.1, h.2]
    exact ⟨by simp, by simp⟩

theorem Stored.none {c : Cat} (h : Stored c none) (m : Bool) (a : Bytes) : Stored (addBuffer m a c) none := by
  cases h with
  | broken h hd =>
    cases m with
    | false => exact .broken h (.inl rfl)
    | true =>
      refine .broken (Nat.succ_pos _) (.inr ?_)
      unfold addBuffer; dsimp only; rw [if_pos rfl]
      rcases hd with hd | ⟨t, hd⟩
      · rw [hd]
        cases hn : c.n with
        | zero => omega
        | succ n => exact ⟨_, rfl⟩
      · rw [hd]; exact ⟨_, rfl⟩

theorem Stored.refused {c : Cat} {l : List Bytes} (h : Stored c (some l)) (a : Bytes) :
    Stored (addBuffer false a c) (if l = [] then some [] else Option.none) := by
  cases h with
  | empty h => rw [if_pos rfl]; exact .empty ⟨rfl, h.2⟩
  | names h hl =>
    rw [if_neg hl]
    refine .broken ?_ (.inl rfl)
    show 0 < c.n
    rw [h.2]; cases l <;> simp at hl ⊢

theorem stored_all (mem : Nat → Bool) (as : List Bytes) : ∀ k {c : Cat} {l : List Bytes}, Stored c (some l) →
    (∀ i, i < as.length → mem (k + i) = true) → Stored (buffers mem k as c) (some (l ++ as)) := by
  induction as with
  | nil => intro k c l h _; rw [List.append_nil]; exact h
  | cons a as ih =>
    intro k c l h hm
    have h0 := hm 0 (by simp)
    rw [buffers, show mem k = true from h0, show l ++ a :: as = (l ++ [a]) ++ as by simp]
    exact ih (k + 1) (h.ok a) fun i hi => by
      have := hm (i + 1) (by simp; omega)
      rwa [show k + 1 + i = k + (i + 1) by omega]

theorem stored_none (mem : Nat → Bool) (as : List Bytes) : ∀ k {c : Cat}, Stored c none → Stored (buffers mem k as c) none := by
  induction as with
  | nil => intro k c h; exact h
  | cons a as ih => intro k c h; exact ih _ (h.none _ _)

theorem stored_skip (mem : Nat → Bool) (as : List Bytes) : ∀ k k0 {c : Cat}, Stored c (some []) → k0 ≤ as.length →
    (∀ i, i < k0 → mem (k + i) = false) → (∀ i, k0 ≤ i → i < as.length → mem (k + i) = true) →
    Stored (buffers mem k as c) (some (as.drop k0)) := by
  induction as with
  | nil => intro k k0 c h _ _ _; rw [List.drop_nil]; exact h
  | cons a as ih =>
    intro k k0 c h hk hf ht
    cases k0 with
    | zero => exact stored_all mem (a :: as) k h fun i hi => ht i (Nat.zero_le _) hi
    | succ k0 =>
      have h0 := hf 0 (by omega)
      rw [buffers, show mem k = false from h0]
      refine ih (k + 1) k0 (h.refused a) (by simpa using hk) ?_ ?_
      · intro i hi
        have := hf (i + 1) (by omega)
        rwa [show k + 1 + i = k + (i + 1) by omega]
      · intro i h1 h2
        have := ht (i + 1) (by omega) (by simp; omega)
        rwa [show k + 1 + i = k + (i + 1) by omega]

theorem stored_broken (mem : Nat → Bool) (as : List Bytes) : ∀ k i j {c : Cat} {l : List Bytes}, Stored c (some l) →
    j < as.length → mem (k + j) = false → (l ≠ [] ∨ (i < j ∧ mem (k + i) = true)) → Stored (buffers mem k as c) none := by
  induction as with
  | nil => intro k i j c l _ hj; simp at hj
  | cons a as ih =>
    intro k i j c l h hj hf ht
    rw [buffers]
    cases hm : mem k with
    | false =>
      by_cases hl : l = []
      · have hr := h.refused a
        rw [if_pos hl] at hr
        rcases ht with ht | ⟨ht1, ht2⟩
        · exact absurd hl ht
        · cases i with
          | zero => rw [Nat.add_zero, hm] at ht2; cases ht2
          | succ i =>
            cases j with
            | zero => omega
            | succ j =>
              refine ih (k + 1) i j hr (by simpa using hj) ?_ (.inr ⟨by omega, ?_⟩)
              · rwa [show k + 1 + j = k + (j + 1) by omega]
              · rwa [show k + 1 + i = k + (i + 1) by omega]
      · have hr := h.refused a
        rw [if_neg hl] at hr
        exact stored_none mem as _ hr
    | true =>
      cases j with
      | zero => rw [Nat.add_zero, hm] at hf; cases hf
      | succ j =>
        refine ih (k + 1) i j (h.ok a) (by simpa using hj) ?_ (.inl (by simp))
        rwa [show k + 1 + j = k + (j + 1) by omega]

theorem options_names {mem : Nat → Bool} {os : List CatOpt} {c : Cat} (h : catOptions mem os = .ok c) {r : Option (List Bytes)}
    (hs : Stored (buffers mem 0 (os.filterMap bufOpt) {}) r) : c.names = r := by
  rw [← hs.eq]
  unfold catOptions at h
  rcases loop_cases mem os 0 {} with ⟨pre, o, post, h1, h2, h3, h4⟩ | ⟨h1, c', h2, h3⟩
  · rw [h4] at h; simp [bind, Except.bind] at h
  · rw [h2] at h
    simp only [bind, Except.bind, pure, Except.pure, Except.ok.injEq] at h
    have : c.devs = c'.devs ∧ c.n = c'.n := by rw [← h]; split <;> exact ⟨rfl, rfl⟩
    unfold Cat.names
    rw [this.1, this.2, h3.devs.1, h3.devs.2]

/-- C93, names: those of the `-b` options in order, as long as memory is not refused. -/
theorem C93_names {mem : Nat → Bool} {os : List CatOpt} {c : Cat} (h : catOptions mem os = .ok c)
    (hm : ∀ i, i < (os.filterMap bufOpt).length → mem i = true) : c.names = some (os.filterMap bufOpt) :=
  options_names h (by
    have := stored_all mem (os.filterMap bufOpt) 0 (c := {}) (.empty ⟨rfl, rfl⟩) (fun i hi => by rw [Nat.zero_add]; exact hm i hi)
    exact this)

/-- C93 is false if memory is refused: names before the first success are left out,
so that refusing all of them means showing all devices. -/
theorem C93_false_fewer {mem : Nat → Bool} {os : List CatOpt} {c : Cat} (h : catOptions mem os = .ok c) (k : Nat)
    (hk : k ≤ (os.filterMap bufOpt).length) (hf : ∀ i, i < k → mem i = false)
    (ht : ∀ i, k ≤ i → i < (os.filterMap bufOpt).length → mem i = true) : c.names = some ((os.filterMap bufOpt).drop k) :=
  options_names h (stored_skip mem _ 0 k (.empty ⟨rfl, rfl⟩) hk (fun i hi => by rw [Nat.zero_add]; exact hf i hi)
    (fun i h1 h2 => by rw [Nat.zero_add]; exact ht i h1 h2))

/-- C93 is false if memory is refused: after a success, a refusal leaves a null
pointer or entries never written, which are then used as names. -/
theorem C93_false_crash {mem : Nat → Bool} {os : List CatOpt} {c : Cat} (h : catOptions mem os = .ok c) {i j : Nat}
    (hij : i < j) (hj : j < (os.filterMap bufOpt).length) (hi : mem i = true) (hm : mem j = false) : c.names = none :=
  options_names h (stored_broken mem _ 0 i j (.empty ⟨rfl, rfl⟩) hj (by rw [Nat.zero_add]; exact hm)
    (.inr ⟨hij, by rw [Nat.zero_add]; exact hi⟩))

/-! ## How the command ends -/

theorem readDevs_ret {σ : Type} (W : World σ) (asked ready : Nat → Bool) (is : List Nat) : ∀ (c : Ctx) (s : σ) (n : Int), 0 ≤ n →
    (∀ r, (readDevs W asked ready is c s n).2.2.1 = some r → r = -1 ∨ r = 0) ∧ 0 ≤ (readDevs W asked ready is c s n).2.2.2 := by
  induction is with
  | nil => intro c s n hn; exact ⟨fun r h => (by cases h), hn⟩
  | cons i is ih =>
    intro c s n hn
    unfold readDevs
    by_cases h1 : (asked i && ready i) = false
    · rw [if_pos h1]; exact ih _ _ _ hn
    · rw [if_neg h1]
      by_cases h2 : c.free = 0
      · rw [if_pos h2]; exact ih _ _ _ hn
      · rw [if_neg h2]
        cases h3 : W.recv s i with
        | mk r s' =>
        cases r with
        | err => exact ⟨fun r h => (by cases h; exact .inl rfl), hn⟩
        | again => exact ⟨fun r h => (by cases h; exact .inr rfl), hn⟩
        | got stamp id shown dec => exact ih _ _ _ (by omega)

theorem processDevices_ret {σ : Type} (W : World σ) {c c' : Ctx} {s s' : σ} {r : Int}
    (h : processDevices W c s = .ok (c', s', r)) : r = -1 ∨ 0 ≤ r := by
  rw [processDevices_eq] at h
  split at h
  · cases h; exact .inr (Int.le_refl _)
  · cases h; exact .inl rfl
  · rename_i ready s1 _
    have hr := readDevs_ret W c.asked ready (List.range c.devs.length) c s1 0 (Int.le_refl _)
    split at h
    · rename_i he
      rw [he] at hr
      cases h
      rcases hr.1 r rfl with g | g
      · exact .inl g
      · exact .inr (by omega)
    · rename_i c2 s2 n he
      rw [he] at hr
      cases hE : endPass W c2 s2 with
      | error e => rw [hE] at h; cases h
      | ok x =>
        rw [hE] at h
        simp only [Except.map, Except.ok.injEq, Prod.mk.injEq] at h
        rw [← h.2.2]
        exact .inr hr.2

theorem processLogs_ret {σ : Type} (W : World σ) (dump : Bool) : ∀ (fuel : Nat) {c c' : Ctx} {s s' : σ} {fr r : Int},
    processLogs W dump 0 fuel c s fr = .ok (c', s', some r) → r = -1 ∨ (r = 0 ∧ dump = true) := by
  intro fuel
  induction fuel with
  | zero => intro c c' s s' fr r h; simp [processLogs] at h
  | succ fuel ih =>
    intro c c' s s' fr r h
    unfold processLogs at h
    cases hp : processDevices W c s with
    | error e => rw [hp] at h; cases h
    | ok x =>
      obtain ⟨c1, s1, r1⟩ := x
      rw [hp] at h
      simp only [bind, Except.bind] at h
      have hr := processDevices_ret W hp
      by_cases h1 : r1 < 0
      · rw [if_pos h1] at h
        cases h
        exact .inl (by omega)
      · rw [if_neg h1] at h
        by_cases h2 : (dump && c1.markReached) = true
        · rw [if_pos h2] at h
          cases hf : flushPendingQueue W c1.pending.toNat c1 s1 with
          | error e => rw [hf] at h; cases h
          | ok y =>
            rw [hf] at h
            cases h
            exact .inr ⟨rfl, by simp at h2; exact h2.1⟩
        · rw [if_neg h2] at h
          by_cases h3 : c1.outErr = true
          · rw [if_pos h3] at h; cases h; exact .inl rfl
          · rw [if_neg h3, if_pos (by simp)] at h
            exact ih h

/-- One call of `ulogcat3_process_logs` is all there is. -/
theorem catLoop_once {σ : Type} (W : World σ) (dump : Bool) (fuel n : Nat) (c : Ctx) (s : σ) :
    catLoop W dump fuel (n + 1) c s = processLogs W dump 0 fuel c s 0 := by
  unfold catLoop
  cases hp : processLogs W dump 0 fuel c s 0 with
  | error e => rfl
  | ok x =>
    obtain ⟨c1, s1, r⟩ := x
    simp only [bind, Except.bind]
    cases r with
    | none => rfl
    | some r =>
      have := processLogs_ret W dump fuel hp
      dsimp only
      rw [if_neg (by omega)]

/-- `open` for writing never gives a descriptor that is open. -/
def FreshW (w : ClearWorld) : Prop := ∀ evs H p fd, held evs = some H → w.openW evs p = some fd → fd ∉ H

theorem clearDev_held {w : ClearWorld} (hw : FreshW w) (d : ODev) {evs : List OEv} {H : List Nat} (h : held evs = some H) :
    held (clearDev w d evs).2 = some H ∧ outClosed (clearDev w d evs).2 = outClosed evs := by
  unfold clearDev
  split
  · exact ⟨h, rfl⟩
  · split
    · refine ⟨by rw [held_append, h]; rfl, by rw [outClosed_append]; rfl⟩
    · rename_i fd hfd
      have hn := hw _ _ _ _ h hfd
      refine ⟨?_, by rw [outClosed_append, outClosed_append]; rfl⟩
      rw [held_append, held_append, h]
      simp only [heldStep]
      simp [hn, erase_new hn]

theorem clearDevs_held {w : ClearWorld} (hw : FreshW w) (ds : List ODev) : ∀ (r : Int) {evs : List OEv} {H : List Nat},
    held evs = some H → held (clearDevs w ds r evs).2 = some H ∧ outClosed (clearDevs w ds r evs).2 = outClosed evs := by
  induction ds with
  | nil => intro r evs H h; exact ⟨h, rfl⟩
  | cons d ds ih =>
    intro r evs H h
    have hd := clearDev_held hw d h
    unfold clearDevs
    split
    · exact hd
    · obtain ⟨a, b⟩ := ih (clearDev w d evs).1 hd.1
      exact ⟨a, b.trans hd.2⟩

/-- All events of a command that has ended. -/
def CatEnd.events {σ : Type} : CatEnd σ → Option (List OEv)
  | .failed _ evs => some evs
  | .cleared _ evs => some evs
  | .ended _ _ _ _ evs => some evs
  | _ => none

theorem main_cases {σ : Type} (mem : Nat → Bool) (w : OWorld) (cw : ClearWorld) (W : World σ) (calls fuel : Nat) (s : σ)
    (os : List CatOpt) {c : Cat} (hc : catOptions mem os = .ok c) {names : List Bytes} (hn : c.names = some names) :
    catMain mem w cw W calls fuel s os =
      match ulogOpen w c.ulog c.klog names [] with
      | .error evs => .failed (-1) evs
      | .ok o =>
        if c.tail + o.count + 1 > 2147483647 then .crash
        else if c.tail + o.count + 1 < 0 then .failed (-1) (ulogClose o)
        else if c.clear then .cleared (clearDevs cw o.devs 0 o.evs).1 (ulogClose { o with evs := (clearDevs cw o.devs 0 o.evs).2 })
        else
          match catLoop W c.dump fuel calls (openCtx (o.devs.map fun d => d.mark.toNat) c.tail) s with
          | .error f => .fault f
          | .ok (x, s, none) => .running o.devs x s
          | .ok (x, s, some r) => .ended r o.devs x s (ulogClose o) := by
  unfold catMain
  rw [hc]
  dsimp only
  rw [hn]
  rfl

/-- C94, resources. However the command ends after its options, every descriptor of
a device that it opened is closed, none twice, and the output is closed once (not at
all if there was no memory for the context). -/
theorem C94_closed {σ : Type} {mem : Nat → Bool} {w : OWorld} (hw : Fresh w) {cw : ClearWorld} (hcw : FreshW cw) {W : World σ}
    {calls fuel : Nat} {s : σ} {os : List CatOpt} {evs : List OEv}
    (h : (catMain mem w cw W calls fuel s os).events = some evs) :
    held evs = some [] ∧ outClosed evs = if w.noMem [.alloc] then 0 else 1 := by
  cases hc : catOptions mem os with
  | error st => unfold catMain at h; rw [hc] at h; cases h
  | ok c =>
  cases hn : c.names with
  | none => unfold catMain at h; rw [hc] at h; dsimp only at h; rw [hn] at h; cases h
  | some names =>
  rw [main_cases mem w cw W calls fuel s os hc hn] at h
  have ho := C66_open hw c.ulog c.klog names (evs := []) (H := []) rfl List.nodup_nil
  cases hO : ulogOpen w c.ulog c.klog names [] with
  | error e =>
    rw [hO] at h ho
    cases h
    obtain ⟨a, b⟩ := ho
    refine ⟨a, ?_⟩
    rw [b]
    show 0 + _ = _
    rw [Nat.zero_add]; rfl
  | ok o =>
    have hm : w.noMem [.alloc] = false := by
      cases hm : w.noMem [.alloc] with
      | false => rfl
      | true => unfold ulogOpen at hO; rw [List.nil_append, if_pos hm] at hO; cases hO
    rw [hO] at h ho
    obtain ⟨h1, h2, h3, h4, h5, h6, h7, h8⟩ := ho
    rw [hm]
    have hclose : ∀ e : List OEv, held e = held o.evs → outClosed e = 0 →
        held (ulogClose { o with evs := e }) = some [] ∧ outClosed (ulogClose { o with evs := e }) = 1 := by
      intro e e1 e2
      have I : OInv [] 0 { o with evs := e } := ⟨e1.trans h1, h2, h3, h4, e2, h6⟩
      exact ulogClose_spec I
    have hbase := hclose o.evs rfl h7
    dsimp only at h
    split at h
    · cases h
    · split at h
      · cases h; exact hbase
      · split at h
        · cases h
          obtain ⟨g1, g2⟩ := clearDevs_held hcw o.devs 0 (evs := o.evs) h1
          exact hclose _ (g1.trans h1.symm) (g2.trans h7)
        · split at h
          · cases h
          · cases h
          · cases h; exact hbase

/-- C94, status. The reading loop ends with 0 only for a dump that reached its end, and
with -1 otherwise; without `-d` the command never ends with 0. -/
theorem C94_status {σ : Type} {mem : Nat → Bool} {w : OWorld} {cw : ClearWorld} {W : World σ} {calls fuel : Nat} {s : σ}
    {os : List CatOpt} {r : Int} {ds : List ODev} {x : Ctx} {s' : σ} {evs : List OEv}
    (h : catMain mem w cw W calls fuel s os = .ended r ds x s' evs) :
    r = -1 ∨ (r = 0 ∧ .dump ∈ os ∧ x.markReached = true) := by
  cases hc : catOptions mem os with
  | error st => unfold catMain at h; rw [hc] at h; cases h
  | ok c =>
  cases hn : c.names with
  | none => unfold catMain at h; rw [hc] at h; dsimp only at h; rw [hn] at h; cases h
  | some names =>
  rw [main_cases mem w cw W calls fuel s os hc hn] at h
  have hstop : ∀ o ∈ os, ¬ CatStops o := by
    unfold catOptions at hc
    rcases loop_cases mem os 0 {} with ⟨pre, o, post, h1, h2, h3, h4⟩ | ⟨h1, c', h2, h3⟩
    · rw [h4] at hc; simp [bind, Except.bind] at hc
    · exact h1
  obtain ⟨c', hc', _, hd, _⟩ := C93_options mem os hstop
  rw [hc] at hc'
  cases hc'
  cases hO : ulogOpen w c.ulog c.klog names [] with
  | error e => rw [hO] at h; cases h
  | ok o =>
    rw [hO] at h
    dsimp only at h
    split at h
    · cases h
    · split at h
      · cases h
      · split at h
        · cases h
        · cases calls with
          | zero => simp [catLoop] at h
          | succ n =>
            rw [catLoop_once] at h
            cases hp : processLogs W c.dump 0 fuel (openCtx (o.devs.map fun d => d.mark.toNat) c.tail) s 0 with
            | error e => rw [hp] at h; cases h
            | ok y =>
              obtain ⟨y1, y2, y3⟩ := y
              rw [hp] at h
              cases y3 with
              | none => cases h
              | some r' =>
                cases h
                rcases processLogs_ret W c.dump fuel hp with g | ⟨g1, g2⟩
                · exact .inl g
                · refine .inr ⟨g1, hd.1 g2, ?_⟩
                  rw [g1, g2] at hp
                  exact processLogs_zero W (Int.le_refl _) fuel (.inl rfl) hp

/-- C94, dump. `ulogcat -d` (with any of `-b`, `-u`, `-k`, `-t N`) of devices that can
be opened and that nobody writes to: it ends with 0, having printed all entries by turns
(see `C130_order`), or the last N of them. -/
theorem C94_dump {mem : Nat → Bool} {w : OWorld} (hw : Fresh w) {cw : ClearWorld} {os : List CatOpt} {c : Cat}
    (hc : catOptions mem os = .ok c) (hm : ∀ i, i < (os.filterMap bufOpt).length → mem i = true)
    (hdump : c.dump = true) (hclear : c.clear = false) {T : Nat} (hT : c.tail = T) {o : OSt}
    (hO : ulogOpen w c.ulog c.klog (os.filterMap bufOpt) [] = .ok o) (hmax : T + o.devs.length + 1 ≤ 2147483647) (s0 : Logs)
    (hmark : ∀ i d, o.devs[i]? = some d → d.mark = 0 → s0 i = []) (hb : ∀ i, o.devs.length ≤ i → s0 i = []) :
    ∃ k, ∀ fuel, k ≤ fuel → ∀ calls, ∃ x s v, catMain mem w cw quiet (calls + 1) fuel s0 os = .ended 0 o.devs x s (ulogClose o) ∧
      TurnOf o.devs.length s0 v ∧ x.out = annotate (decide (o.devs.length > 1)) [] (if T = 0 then v else v.drop (v.length - T)) := by
  have ho := C66_open hw c.ulog c.klog (os.filterMap bufOpt) (evs := []) (H := []) rfl List.nodup_nil
  rw [hO] at ho
  obtain ⟨_, _, _, h4, _, h6, _⟩ := ho
  have hlen : (o.devs.map fun d => d.mark.toNat).length = o.devs.length := List.length_map _
  have hm' : ∀ i, (o.devs.map fun d => d.mark.toNat)[i]? = some 0 → s0 i = [] := by
    intro i hi
    rw [List.getElem?_map] at hi
    cases hd : o.devs[i]? with
    | none => rw [hd] at hi; cases hi
    | some d =>
      rw [hd] at hi
      simp only [Option.map_some, Option.some.injEq] at hi
      have := (h6 d (List.mem_of_getElem? hd)).1
      exact hmark i d hd (by omega)
  have key : ∀ fuel calls x s, processLogs quiet true 0 fuel (openCtx (o.devs.map fun d => d.mark.toNat) T) s0 0 = .ok (x, s, some 0) →
      catMain mem w cw quiet (calls + 1) fuel s0 os = .ended 0 o.devs x s (ulogClose o) := by
    intro fuel calls x s hp
    rw [main_cases mem w cw quiet _ fuel s0 os hc (C93_names hc hm), hO]
    dsimp only
    rw [hT, h4, if_neg (by omega), if_neg (by omega), hclear, if_neg (by simp), catLoop_once, hdump, hp]
  obtain ⟨k, hk⟩ := dump_all _ s0 hm' (by rw [hlen]; exact hb) T
  refine ⟨k, fun fuel hf calls => ?_⟩
  obtain ⟨x, s, v, e1, e2, e3, _⟩ := hk fuel hf
  rw [hlen] at e2 e3
  exact ⟨x, s, v, key fuel calls x s e1, e2, e3⟩

/-- C94 is false of negative numbers of lines: with one empty log and `-t -1` the command never
ends. -/
theorem C94_false_tail {mem : Nat → Bool} {w : OWorld} (hw : Fresh w) {cw : ClearWorld} {os : List CatOpt} {c : Cat}
    (hc : catOptions mem os = .ok c) (hm : ∀ i, i < (os.filterMap bufOpt).length → mem i = true) (hclear : c.clear = false)
    (hT : c.tail = -1) {o : OSt} (hO : ulogOpen w c.ulog c.klog (os.filterMap bufOpt) [] = .ok o) (h1 : o.devs.length = 1)
    (s0 : Logs) (h0 : s0 0 = []) (calls fuel : Nat) :
    catMain mem w cw quiet (calls + 1) (fuel + 1) s0 os = .fault .hang := by
  have ho := C66_open hw c.ulog c.klog (os.filterMap bufOpt) (evs := []) (H := []) rfl List.nodup_nil
  rw [hO] at ho
  obtain ⟨_, _, _, h4, _⟩ := ho
  rw [main_cases mem w cw quiet _ _ s0 os hc (C93_names hc hm), hO]
  dsimp only
  match hd : o.devs, h1 with
  | [d], _ =>
    rw [hT, h4, h1, if_neg (by decide), if_neg (by decide), hclear, if_neg (by simp), catLoop_once, List.map_cons, List.map_nil,
      C37_neg_tail s0 h0]

/-- C94 is false of large numbers of lines: the number of frames overflows. -/
theorem C94_false_overflow {mem : Nat → Bool} {w : OWorld} (hw : Fresh w) {cw : ClearWorld} {σ : Type} {W : World σ}
    {os : List CatOpt} {c : Cat} (hc : catOptions mem os = .ok c)
    (hm : ∀ i, i < (os.filterMap bufOpt).length → mem i = true) (hT : c.tail = 2147483647) {o : OSt}
    (hO : ulogOpen w c.ulog c.klog (os.filterMap bufOpt) [] = .ok o) (calls fuel : Nat) (s : σ) :
    catMain mem w cw W calls fuel s os = .crash := by
  have ho := C66_open hw c.ulog c.klog (os.filterMap bufOpt) (evs := []) (H := []) rfl List.nodup_nil
  rw [hO] at ho
  obtain ⟨_, _, _, h4, _⟩ := ho
  rw [main_cases mem w cw W _ _ s os hc (C93_names hc hm), hO]
  dsimp only
  rw [hT, h4, if_pos (by omega)]

/-! ## Clearing -/

/-- The device was cleared when these events had happened. -/
def Cleared (w : ClearWorld) (d : ODev) (evs : List OEv) : Prop :=
  if d.path = ascii "/dev/kmsg" then 0 ≤ w.klog evs
  else ∃ fd, w.openW evs d.path = some fd ∧ 0 ≤ w.flush (evs ++ [.opened d.path (some fd)]) fd

/-- All these devices were cleared one after the other, between these events. -/
inductive ClearedAll (w : ClearWorld) : List ODev → List OEv → List OEv → Prop
  | nil {evs} : ClearedAll w [] evs evs
  | klog {d ds evs evs'} (hp : d.path = ascii "/dev/kmsg") (h : 0 ≤ w.klog evs) (ht : ClearedAll w ds evs evs') :
      ClearedAll w (d :: ds) evs evs'
  | ulog {d ds evs evs' fd} (hp : d.path ≠ ascii "/dev/kmsg") (ho : w.openW evs d.path = some fd)
      (h : 0 ≤ w.flush (evs ++ [.opened d.path (some fd)]) fd)
      (ht : ClearedAll w ds (evs ++ [.opened d.path (some fd)] ++ [.closed fd]) evs') : ClearedAll w (d :: ds) evs evs'

/-- C95. If clearing succeeds, every device was cleared, once, in order. If it fails,
the devices before some device were, that one was not, and those behind it were not
tried; the result is that of the call that failed, -1 if the device cannot be opened. -/
theorem C95_clear (w : ClearWorld) (ds : List ODev) : ∀ (r : Int) (evs : List OEv), 0 ≤ r →
    (0 ≤ (clearDevs w ds r evs).1 ∧ ClearedAll w ds evs (clearDevs w ds r evs).2) ∨
    ((clearDevs w ds r evs).1 < 0 ∧ ∃ pre d post evs1, ds = pre ++ d :: post ∧ ClearedAll w pre evs evs1 ∧
      ¬ Cleared w d evs1 ∧
      (clearDevs w ds r evs).1 = (if d.path = ascii "/dev/kmsg" then w.klog evs1 else
        ((w.openW evs1 d.path).map fun fd => w.flush (evs1 ++ [.opened d.path (some fd)]) fd).getD (-1)) ∧
      ∃ t, (clearDevs w ds r evs).2 = evs1 ++ t ∧ ∀ e ∈ t, ∀ p fd, e = .opened p fd → p = d.path) := by
  induction ds with
  | nil => intro r evs hr; exact .inl ⟨hr, .nil⟩
  | cons d ds ih =>
    intro r evs _
    unfold clearDevs
    by_cases hneg : (clearDev w d evs).1 < 0
    · rw [if_pos hneg]
      refine .inr ⟨hneg, [], d, ds, evs, rfl, .nil, ?_, ?_, ?_⟩
      rotate_left
      · unfold clearDev
        split
        · rfl
        · split
          · rename_i h; rw [h]; rfl
          · rename_i h; rw [h]; rfl
      rotate_left
      · unfold clearDev at hneg
        unfold Cleared
        split
        · rename_i hp; rw [if_pos hp] at hneg; simp only at hneg; omega
        · rename_i hp
          rw [if_neg hp] at hneg
          rintro ⟨fd, e1, e2⟩
          rw [e1] at hneg
          simp only at hneg
          omega
      · unfold clearDev
        split
        · exact ⟨[], by simp, by simp⟩
        · split
          · exact ⟨_, rfl, by intro e he p fd h; rw [h] at he; simp at he; exact he.1⟩
          · exact ⟨_, List.append_assoc .., by intro e he p fd h; rw [h] at he; simp at he; exact he.1⟩
    · rw [if_neg hneg]
      have hone : ∀ {ds' evs'}, ClearedAll w ds' (clearDev w d evs).2 evs' → ClearedAll w (d :: ds') evs evs' := by
        intro ds' evs' ht
        unfold clearDev at ht hneg
        by_cases hp : d.path = ascii "/dev/kmsg"
        · rw [if_pos hp] at ht hneg
          exact .klog hp (by simp only at hneg; omega) ht
        · rw [if_neg hp] at ht hneg
          cases ho : w.openW evs d.path with
          | none => rw [ho] at hneg; simp at hneg
          | some fd =>
            rw [ho] at ht hneg
            exact .ulog hp ho (by simp only at hneg; omega) ht
      rcases ih (clearDev w d evs).1 (clearDev w d evs).2 (by omega) with ⟨h1, h2⟩ | ⟨h1, pre, d', post, evs1, e1, e2, e3, e4⟩
      · exact .inl ⟨h1, hone h2⟩
      · exact .inr ⟨h1, d :: pre, d', post, evs1, by rw [e1]; rfl, hone e2, e3, e4⟩

/-- C95 is false of the copies of kernel messages made by kmsgd: to clear that device
(`-k -c` where /dev/kmsg cannot be read) /proc/kmsg is opened, never the device. -/
theorem C95_false_kmsgd (w : ClearWorld) (d : ODev) (hd : d.path = devPath (ascii "kmsgd")) (evs : List OEv) :
    ∃ t, (clearDev w d evs).2 = evs ++ t ∧ ∀ p fd, OEv.opened p fd ∈ t → p = ascii "/proc/kmsg" := by
  have hp : d.path = ascii "/proc/kmsg" := hd
  unfold clearDev
  rw [if_neg (by rw [hp]; decide), hp]
  split
  · exact ⟨_, rfl, by intro p fd h; simp at h; exact h.1⟩
  · exact ⟨_, List.append_assoc .., by intro p fd h; simp at h; exact h.1⟩

/-! ## The number of lines -/

/-- C93. The argument of `-t` (and of shdlogd's `-p`) counts as the number that it begins with, modulo 2^32 as an int. -/
theorem C93_number {a r : Bytes} {v : Int} (hn : Numeral a v) (hr : ∀ b, r.head? = some b → Kernel.isDigit b = false) :
    -2 ^ 31 ≤ atoi (a ++ r) ∧ atoi (a ++ r) < 2 ^ 31 ∧ (2 ^ 32 : Int) ∣ atoi (a ++ r) - v := by
  have hv : strtol (a ++ r) = v := by
    obtain ⟨sp, sg, ds, rfl, k1, k2, k3, k4, k5⟩ := hn
    have hp := strtoParts_num sp sg ds r (fun b hb => (isSpace_iff b).2 (k1 b hb)) k2 k4 k3 hr
    unfold strtol
    rw [show sp ++ (sg ++ ds) ++ r = sp ++ (sg ++ (ds ++ r)) by simp, hp, k5]
    dsimp only
    by_cases h : sg = [45]
    · simp only [h, decide_true, if_true]; split <;> omega
    · simp only [h, decide_false, Bool.false_eq_true, if_false]; split <;> omega
  unfold atoi
  rw [hv]
  have := Int.emod_add_mul_ediv (v + 2147483648) 4294967296
  have h1 := Int.emod_nonneg (v + 2147483648) (show (4294967296 : Int) ≠ 0 by decide)
  have h2 := Int.emod_lt_of_pos (v + 2147483648) (show (0 : Int) < 4294967296 by decide)
  change _ ≤ (v + 2147483648) % 4294967296 - 2147483648 ∧ (v + 2147483648) % 4294967296 - 2147483648 < _ ∧
    _ ∣ (v + 2147483648) % 4294967296 - 2147483648 - v
  refine ⟨by omega, by omega, ⟨-((v + 2147483648) / 4294967296), by omega⟩⟩

/-- C93. A number that an int holds is that number. -/
theorem C93_exact {a r : Bytes} {v : Int} (hn : Numeral a v) (hr : ∀ b, r.head? = some b → Kernel.isDigit b = false)
    (h1 : -2 ^ 31 ≤ v) (h2 : v < 2 ^ 31) : atoi (a ++ r) = v := by
  obtain ⟨k1, k2, k, hk⟩ := C93_number hn hr
  omega

/-- C93. Without a number it counts as 0. -/
theorem C93_none {s : Bytes} (h : NoNumber s) : atoi s = 0 := by
  unfold atoi strtol
  rw [parts_none h]
  rfl

example : Numeral (ascii " -12") (-12) ∧ atoi (ascii " -12x") = -12 ∧ atoi (ascii "4294967297") = 1 :=
  ⟨⟨ascii " ", ascii "-", ascii "12", by decide +kernel, by decide +kernel, .inr (.inr (by decide +kernel)), by decide +kernel, by decide +kernel,
    by decide +kernel⟩, by decide +kernel, by decide +kernel⟩

end Verif.Tools

namespace Verif.Kernel
open Verif.Ulogcat (Others)

theorem stepFile_files {s s' : Sys} {fid : Nat} {f : File} {op : Op} {o : Out} (h : stepFile s fid f op = .ok (s', o)) (g : Nat)
    (hg : g ≠ fid) : s'.files g = s.files g := by
  cases op <;> simp only [stepFile, bind, Except.bind, pure, Except.pure] at h <;>
    (repeat' (split at h)) <;>
    first
    | (cases h; first | rfl | (simp only [Sys.setFile]; rw [if_neg hg]))
    | cases h

theorem step_files {s s' : Sys} {op : Op} {o : Out} (h : step s op = .ok (s', o)) (g : Nat) (hg : op.fid ≠ g) :
    s'.files g = s.files g := by
  unfold step at h
  split at h
  · split at h <;> cases h <;> simp only [Sys.setFile] <;> rw [if_neg (Ne.symm hg)]
  · cases h; rfl
  · exact stepFile_files h g (Ne.symm hg)

theorem run_cons {s s' : Sys} {op : Op} {o : Out} {ops : List Op} {t : List (Op × Out)}
    (h : run s (op :: ops) = .ok (s', (op, o) :: t)) : ∃ s1, step s op = .ok (s1, o) ∧ run s1 ops = .ok (s', t) := by
  simp only [run, bind, Except.bind] at h
  cases h3 : step s op with
  | error e => rw [h3] at h; cases h
  | ok p =>
    rw [h3] at h
    dsimp only at h
    cases h4 : run p.1 ops with
    | error e => rw [h4] at h; cases h
    | ok q =>
      rw [h4] at h
      simp only [pure, Except.pure, Except.ok.injEq, Prod.mk.injEq, List.cons.injEq] at h
      obtain ⟨a, ⟨_, b⟩, c⟩ := h
      exact ⟨p.1, by rw [← b], by rw [h4, ← a, ← c]⟩

theorem run_flush {g : Nat} {f : File} (hf : f.wr = true) {o : Out} {t2 : List (Op × Out)} {s' : Sys} (t1 : List (Op × Out)) :
    Others g t1 → ∀ {s : Sys}, s.files g = some f →
    run s ((t1 ++ (.flush g, o) :: t2).map (·.1)) = .ok (s', t1 ++ (.flush g, o) :: t2) → o = .ok := by
  induction t1 with
  | nil =>
    intro _ s hs h
    obtain ⟨s1, h1, _⟩ := run_cons h
    unfold step at h1
    simp only [hs, stepFile, hf, if_true, Except.ok.injEq, Prod.mk.injEq] at h1
    exact h1.2.symm
  | cons p t1 ih =>
    intro ht s hs h
    obtain ⟨op, out⟩ := p
    obtain ⟨s1, h1, h2⟩ := run_cons h
    exact ih (fun q hq => ht q (List.mem_cons_of_mem _ hq)) ((step_files h1 g (ht _ (List.mem_cons_self ..))).trans hs) h2

/-- C95, with the driver. The file on which clearing calls `FLUSH_LOG` was opened for
writing only; whatever other programs do meanwhile, the call succeeds. What follows
of it for all readers is C07. -/
theorem C95_flush {name k buf ops s tr t1 t2} {g : Nat} {all : Bool} {o : Out}
    (h : Run name k buf ops s (tr ++ (.openF g false true all, .ok) :: (t1 ++ (.flush g, o) :: t2))) (ht : Others g t1) :
    o = .ok := by
  obtain ⟨s1, _, h2⟩ := Run.cut h
  obtain ⟨s2, h3, h4⟩ := run_cons h2
  refine run_flush (f := { rd := false, wr := true, raw := false }) rfl t1 ht ?_ h4
  unfold step at h3
  split at h3
  · rename_i heq _
    cases heq
    simp only [Bool.false_eq_true, if_false, Except.ok.injEq, Prod.mk.injEq] at h3
    rw [← h3.1]
    simp [Sys.setFile]
  · rename_i hx; exact absurd rfl (hx g false true all)
  · cases h3

end Verif.Kernel
