import Verif.Tools.Stream

/-!
# `std::cerr` redirected (C108)
-/
namespace Verif.Tools
open Verif Verif.Libulog

/-- Output operations of one kind or the other, by threads. -/
inductive AnyOp
  | cerr (o : CerrOp)
  /-- a call of another stream, or the choice of a tag -/
  | other (o : StOp)

def AnyOp.ops (k t : Nat) : AnyOp → List (Nat × StOp)
  | .cerr o => cerrOps k (t, o)
  | .other o => [(t, o)]

/-- The other streams are not the one of `std::cerr`. -/
def AnyOp.elsewhere (k : Nat) : AnyOp → Prop
  | .cerr _ => True
  | .other (.insert j _) => j ≠ k
  | .other (.put j _) => j ≠ k
  | .other (.flush j) => j ≠ k
  | .other (.setTag _) => True

theorem stRun_append (level : Nat → UInt32) (sentry : Bool) (l r : List (Nat × StOp)) : ∀ s,
    stRun level sentry s (l ++ r) = ((stRun level sentry (stRun level sentry s l).1 r).1,
      (stRun level sentry s l).2 ++ (stRun level sentry (stRun level sentry s l).1 r).2) := by
  induction l with
  | nil => intro s; rfl
  | cons x l ih => intro s; simp only [List.cons_append, stRun, ih, List.append_assoc]

/-- Ready for the next operation. -/
def Fit (k : Nat) (s : Streams) : Prop := s.bad k = false ∧ s.fake k = 0

/-- What a thread has inserted and not flushed yet. -/
def Streams.pending (s : Streams) (t : Nat) : Bytes := (s.buf t).getD []

theorem flush_step (level : Nat → UInt32) (sentry : Bool) {k : Nat} {s : Streams} (hb : s.bad k = false) (t : Nat) :
    ∃ s', stStep level sentry s t (.flush k) =
        (s', if s.pending t = [] then [] else [.str (level k) ((s.tag t).getD 0) (cstr (s.pending t))]) ∧
      Fit k s' ∧ s'.pending t = [] ∧ (∀ u, u ≠ t → s'.pending u = s.pending u) ∧ s'.tag = s.tag := by
  unfold Streams.pending
  simp only [stStep, hb, Bool.false_eq_true, and_false, if_false]
  cases hbuf : s.buf t with
  | none =>
    dsimp only [Option.getD_none]
    rw [if_pos rfl]
    exact ⟨_, rfl, ⟨hb, by simp [upd]⟩, by simp [hbuf], fun _ _ => rfl, rfl⟩
  | some y =>
    dsimp only [Option.getD_some]
    by_cases hy : y = []
    · rw [if_pos hy, if_pos hy]
      exact ⟨_, rfl, ⟨hb, by simp [upd]⟩, by simp [hbuf, hy], fun _ _ => rfl, rfl⟩
    · rw [if_neg hy, if_neg hy]
      exact ⟨_, rfl, ⟨hb, by simp [upd]⟩, by simp [upd], fun u hu => by simp [upd, hu], rfl⟩

/-- What the operation adds to what is pending. -/
def CerrOp.adds (pending : Bytes) : CerrOp → Bytes
  | .text x => x.take (512 - pending.length)
  | .char _ => []

/-- One operation on `std::cerr`. -/
theorem cerr_step (level : Nat → UInt32) (sentry : Bool) {k : Nat} {s : Streams} (h : Fit k s) (t : Nat) (o : CerrOp) :
    ∃ s', stRun level sentry s (cerrOps k (t, o)) = (s',
        if s.pending t ++ o.adds (s.pending t) = [] then []
        else [.str (level k) ((s.tag t).getD 0) (cstr (s.pending t ++ o.adds (s.pending t)))]) ∧
      Fit k s' ∧ s'.pending t = [] ∧ (∀ u, u ≠ t → s'.pending u = s.pending u) ∧ s'.tag = s.tag := by
  obtain ⟨hb, hf⟩ := h
  have hfirst : ∃ s1 op, cerrOps k (t, o) = [(t, op), (t, .flush k)] ∧ stStep level sentry s t op = (s1, []) ∧ s1.bad k = false ∧
      s1.pending t = s.pending t ++ o.adds (s.pending t) ∧ (∀ u, u ≠ t → s1.pending u = s.pending u) ∧ s1.tag = s.tag := by
    cases o with
    | char b =>
      refine ⟨{ s with fake := upd s.fake k (s.fake k + 1) }, .put k b, rfl, ?_, hb, by simp [CerrOp.adds, Streams.pending], fun _ _ => rfl, rfl⟩
      simp [stStep, hb, hf]
    | text x =>
      cases hbuf : s.buf t with
      | none =>
        refine ⟨{ s with buf := upd s.buf t (some (x.take 512)) }, .insert k x, rfl, ?_, hb, ?_, ?_, rfl⟩
        · simp [stStep, hb, hbuf]
        · simp [CerrOp.adds, Streams.pending, upd, hbuf]
        · intro u hu
          simp [Streams.pending, upd, hu]
      | some y =>
        refine ⟨{ s with buf := upd s.buf t (some (y ++ x.take (512 - y.length))) }, .insert k x, rfl, ?_, hb, ?_, ?_, rfl⟩
        · simp [stStep, hb, hbuf]
        · simp [CerrOp.adds, Streams.pending, upd, hbuf]
        · intro u hu
          simp [Streams.pending, upd, hu]
  obtain ⟨s1, op, h1, h2, h3, h4, h5, h6⟩ := hfirst
  obtain ⟨s', g1, g2, g3, g4, g5⟩ := flush_step level sentry h3 t
  rw [h1]
  simp only [stRun, h2, g1, List.nil_append, List.append_nil]
  rw [h4, h6]
  exact ⟨s', rfl, g2, g3, fun u hu => (g4 u hu).trans (h5 u hu), g5.trans h6⟩

/-- Other streams do not disturb it. -/
theorem other_step (level : Nat → UInt32) (sentry : Bool) {k : Nat} {s : Streams} (h : Fit k s) (t : Nat) (o : StOp)
    (ho : (AnyOp.other o).elsewhere k) : Fit k (stStep level sentry s t o).1 := by
  obtain ⟨hb, hf⟩ := h
  cases o with
  | insert j x =>
    simp only [stStep]
    repeat' split
    all_goals exact ⟨hb, hf⟩
  | put j b =>
    have : j ≠ k := ho
    simp only [stStep]
    repeat' split
    · exact ⟨hb, hf⟩
    · exact ⟨hb, by simp only [upd]; rw [if_neg (Ne.symm this)]; exact hf⟩
    · exact ⟨by simp only [upd]; rw [if_neg (Ne.symm this)]; exact hb, hf⟩
  | flush j =>
    have : j ≠ k := ho
    have hf' : upd s.fake j 0 k = 0 := by simp only [upd]; rw [if_neg (Ne.symm this)]; exact hf
    simp only [stStep]
    repeat' split
    all_goals first | exact ⟨hb, hf⟩ | exact ⟨hb, hf'⟩
  | setTag c => exact ⟨hb, hf⟩

theorem fit_run (level : Nat → UInt32) (sentry : Bool) {k : Nat} (l : List (Nat × AnyOp)) : ∀ {s : Streams}, Fit k s →
    (∀ x ∈ l, x.2.elsewhere k) → Fit k (stRun level sentry s (l.flatMap fun x => x.2.ops k x.1)).1 := by
  induction l with
  | nil => intro s h _; exact h
  | cons x l ih =>
    intro s h hl
    rw [List.flatMap_cons, stRun_append]
    refine ih ?_ fun y hy => hl y (List.mem_cons_of_mem _ hy)
    obtain ⟨t, o⟩ := x
    cases o with
    | cerr o =>
      obtain ⟨s', e, h', _⟩ := cerr_step level sentry h t o
      show Fit k (stRun level sentry s (cerrOps k (t, o))).1
      rw [e]
      exact h'
    | other o => exact other_step level sentry h t o (hl _ List.mem_cons_self)

/-- C108, any use. Whatever threads put into `std::cerr`, into other streams and tags
before, the next output operation on `std::cerr` by thread `t` logs one message at the
level of the stream and with the thread's tag: what the thread has inserted into any
stream and not flushed, and then the text, 512 bytes at most; it logs nothing if both
are empty. Nothing of the thread is pending then; other threads are left alone. In
particular the stream never turns bad. -/
theorem C108_any (level : Nat → UInt32) (sentry : Bool) (k : Nat) (l : List (Nat × AnyOp)) (hl : ∀ x ∈ l, x.2.elsewhere k) {s : Streams}
    (hs : (stRun level sentry .start (l.flatMap fun x => x.2.ops k x.1)).1 = s) (t : Nat) (o : CerrOp) :
    ∃ s', stRun level sentry s (cerrOps k (t, o)) = (s',
        if s.pending t ++ o.adds (s.pending t) = [] then []
        else [.str (level k) ((s.tag t).getD 0) (cstr (s.pending t ++ o.adds (s.pending t)))]) ∧
      s'.bad k = false ∧ s'.pending t = [] ∧ ∀ u, u ≠ t → s'.pending u = s.pending u := by
  have hfit : Fit k s := by rw [← hs]; exact fit_run level sentry l ⟨rfl, rfl⟩ hl
  obtain ⟨s', h1, h2, h3, h4, _⟩ := cerr_step level sentry hfit t o
  exact ⟨s', h1, h2.1, h3, h4⟩

/-- C108, `std::cerr` alone. Each insertion that is not empty is a message of its own:
the pieces of an expression `std::cerr << a << b` are logged one by one, cut to 512
bytes and at a NUL; single characters, and so the ends of lines by `std::endl`, are not
logged. -/
theorem C108_alone (level : Nat → UInt32) (sentry : Bool) (k : Nat) (l : List (Nat × CerrOp)) :
    (stRun level sentry .start (l.flatMap (cerrOps k))).2 = l.flatMap fun
      | (_, .text x) => if x = [] then [] else [.str (level k) 0 (cstr (x.take 512))]
      | (_, .char _) => [] := by
  have key : ∀ (l : List (Nat × CerrOp)) {s : Streams}, Fit k s → (∀ t, s.pending t = []) → (∀ t, s.tag t = none) →
      (stRun level sentry s (l.flatMap (cerrOps k))).2 = l.flatMap fun
        | (_, .text x) => if x = [] then [] else [.str (level k) 0 (cstr (x.take 512))]
        | (_, .char _) => [] := by
    intro l
    induction l with
    | nil => intro s _ _ _; rfl
    | cons x l ih =>
      intro s h hp ht
      obtain ⟨t, o⟩ := x
      obtain ⟨s', e, h1, h2, h3, h4⟩ := cerr_step level sentry h t o
      rw [List.flatMap_cons, List.flatMap_cons, stRun_append, e]
      dsimp only
      rw [ih h1 (fun u => if hu : u = t then by rw [hu]; exact h2 else by rw [h3 u hu]; exact hp u) (by rw [h4]; exact ht), hp, ht]
      congr 1
      cases o with
      | text x => cases x <;> simp [CerrOp.adds]
      | char b => rfl
  exact key l ⟨rfl, rfl⟩ (fun _ => rfl) (fun _ => rfl)

/-- C108, false in general: text of another level, not flushed yet, is logged by
`std::cerr` at its level, even by a single character. Stream 1 (errors) has half a
message; stream 0 is that of `std::cerr`. -/
theorem C108_mixed : (stRun (fun k => if k = 0 then 6 else 3) true .start
      ([(7, AnyOp.other (.insert 1 (ascii "fail"))), (7, .cerr (.char 10))].flatMap fun x => x.2.ops 0 x.1)).2 =
    [.str 6 0 (ascii "fail")] := by
  simp [AnyOp.ops, cerrOps, stRun, stStep, Streams.start, upd, cstr, ascii]

/-- `C108_any` and `C108_alone`: two threads, pieces, a line end. -/
example : (stRun (fun _ => 6) false .start ([(1, CerrOp.text (ascii "x=")), (2, .text (ascii "y")), (1, .text (ascii "5")), (1, .char 10)].flatMap
      (cerrOps 0))).2 = [.str 6 0 (ascii "x="), .str 6 0 (ascii "y"), .str 6 0 (ascii "5")] := by
  rw [C108_alone]
  simp [cstr, ascii]

example : ∀ x ∈ [(7, AnyOp.other (.insert 1 (ascii "fail"))), (7, .other (.setTag 3)), (7, .cerr (.char 10))], x.2.elsewhere 0 := by
  simp [AnyOp.elsewhere]

end Verif.Tools
