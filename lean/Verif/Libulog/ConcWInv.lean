import Verif.Libulog.ConcW

/-! # Invariants of the writer under several threads -/
namespace Verif.Libulog.ConcW
open Verif Verif.Libulog

variable {E : Envir} {own : Nat → Option Nat} {s s' : State} {t : Tid} {ch : Choice}

/-- The thread has the lock. -/
def Pc.holds : Pc → Bool
  | .iCheck .. | .iOpen _ | .iW2 .. | .iW .. | .iUnlock .. => true
  | .dStore _ | .dTest | .dFd | .dClose _ | .dMinus | .dInit | .dUnlock => true
  | .sW2 _ | .sW _ | .sUnlock | .gCheck | .gRead | .gUnlock _ => true
  | _ => false

/-- The device that was opened last, unless another was set since. -/
def cur : List Ev → Option Bytes
  | [] => none
  | .opened p _ :: _ => some p
  | .device (some _) :: _ => none
  | _ :: r => cur r

/-- `ctrl.fd` is the device that was opened last, and no other was set since. -/
def State.FdOk (s : State) : Prop := ∃ n p, s.fd = some n ∧ s.files n = some (.dev p) ∧ cur s.tr = some p

/-- A base function: what the wrapper may call. -/
def baseWf : Wf → Bool
  | .null | .kernel | .custom _ => true
  | _ => false

/-- A function that is not the initial one can do its work. -/
def State.Ready (s : State) : Wf → Prop
  | .init => True
  | .kernel => s.FdOk
  | .wrap _ => ∃ g, s.writer2 = some g ∧ (g = .kernel → s.FdOk)
  | _ => True

/-- `__ctrl_init` runs before any copy is due. -/
def For.Ok : For → Prop
  | .msg _ n => n = 0
  | .get => True

/-- What holds when thread `t` is at a place. -/
def State.AtPc (s : State) (t : Tid) : Pc → Prop
  | .run f _ n => (n ≠ 0 → baseWf f = true) ∧ (∀ c, f = .wrap c → s.writer2 ≠ none) ∧
      (s.dirty t = false → f ≠ .init → s.writer ≠ .init ∧ s.Ready f)
  | .write fd _ _ => s.dirty t = false → s.writer ≠ .init ∧ fd = s.fd ∧ s.FdOk
  | .iOpen k => k.Ok ∧ s.writer = .init ∧ (s.fd = none ∨ s.fd = some 0)
  | .iW2 base k => k.Ok ∧ s.writer = .init ∧ baseWf base = true ∧ (base = .kernel → s.FdOk)
  | .iW f k => k.Ok ∧ s.writer = .init ∧ f ≠ .init ∧ s.Ready f
  | .iLock _ n | .iCheck _ n | .iUnlock _ n | .again _ n => n = 0
  | .sW g => g ≠ .init ∧ ((∃ f, g = .custom f) ∨ (∃ c f, g = .wrap c ∧ s.writer2 = some (.custom f)))
  | .dFd => s.writer ≠ .init
  | .dClose n => n ≠ 0 ∧ s.fd = some n ∧ s.writer ≠ .init
  | .dMinus => s.writer ≠ .init
  | .gRead => s.writer ≠ .init
  | .dInit => s.writer ≠ .init ∧ (s.fd = none ∨ s.fd = some 0)
  | .crash => False
  | _ => True

/-- What holds of a thread. -/
def State.Thread (s : State) (t : Tid) : Prop := s.AtPc t (s.pc t)

/-- What the thread that has the lock is doing to the descriptor. -/
def Pc.shuts : Pc → Bool
  | .dTest | .dFd | .dClose _ | .dMinus | .dInit => true
  | _ => false

/-- In a call with a message. -/
def Pc.logs : Pc → Bool
  | .start _ | .run .. | .write .. | .after .. | .iLock .. | .again .. => true
  | _ => false

def Pc.opens : Pc → Bool
  | .iW2 .. | .iW .. => true
  | _ => false

/-- Where the thread is that has the lock. -/
def State.holder (s : State) : Pc :=
  match s.lock with
  | none => .idle
  | some u => s.pc u

structure Inv (s : State) : Prop where
  lock : ∀ t, (s.pc t).holds = true ↔ s.lock = some t
  thread : ∀ t, s.Thread t
  w2 : ∀ g, s.writer2 = some g → baseWf g = true
  ready : s.holder.shuts = false → s.Ready s.writer
  shut : s.writer = .init → s.holder.opens = false → s.fd = none ∨ s.fd = some 0
  wrap : ∀ c, s.writer = .wrap c → s.writer2 ≠ none
  dirty : s.holder.changing = true → ∀ u, (s.pc u).logs = true → s.dirty u = true

theorem inv_start : Inv (.start own) := by
  refine ⟨?_, ?_, ?_, ?_, ?_, ?_, ?_⟩ <;> simp [State.start, Pc.holds, State.Thread, State.AtPc, State.Ready, Pc.changing, State.holder]

/-- What `Thread` says of a place, by the fields it depends on. -/
theorem thread_congr {a b : State} {u : Tid} (hp : a.pc u = b.pc u) (hd : a.dirty u = b.dirty u ∨ (b.dirty u = true)) (hw : a.writer = b.writer)
    (hw2 : a.writer2 = b.writer2) (hf : a.fd = b.fd) (hx : a.files = b.files) (hcu : cur a.tr = cur b.tr) (h : a.Thread u) : b.Thread u := by
  unfold State.Thread State.AtPc State.Ready State.FdOk at h ⊢
  rw [← hp, ← hw, ← hw2, ← hf, ← hx, ← hcu]
  rcases hd with hd | hd
  · rw [← hd]; exact h
  · rw [hd]
    cases hq : a.pc u <;> rw [hq] at h <;> dsimp only at h ⊢
    all_goals first
      | exact h
      | exact fun h => absurd h (by simp)
      | exact ⟨h.1, h.2.1, fun h => absurd h (by simp)⟩

/-- A step that changes neither the lock nor the fields. -/
theorem Inv.move (h : Inv s) {b : State} (p : Pc) (hb : b.pc = fun u => if u = t then p else s.pc u) (hl : b.lock = s.lock) (hw : b.writer = s.writer)
    (hw2 : b.writer2 = s.writer2) (hf : b.fd = s.fd) (hx : b.files = s.files) (hcu : cur b.tr = cur s.tr) (hd : ∀ u, u ≠ t → b.dirty u = s.dirty u)
    (hh : p.holds = (s.pc t).holds) (hsh : p.shuts = (s.pc t).shuts) (hop : p.opens = (s.pc t).opens) (hch : p.changing = (s.pc t).changing)
    (hlg : p.logs = true → ((s.pc t).logs = true ∧ b.dirty t = s.dirty t) ∨ (s.holder.changing = true → b.dirty t = true))
    (hth : b.Thread t) : Inv b := by
  obtain ⟨h1, h2, h3, h4, h5, h6, h7⟩ := h
  have hpt : b.pc t = p := by rw [hb]; simp
  have hpu : ∀ u, u ≠ t → b.pc u = s.pc u := fun u hu => by rw [hb]; simp [hu]
  have hho : (b.holder.shuts = s.holder.shuts) ∧ (b.holder.opens = s.holder.opens) ∧ (b.holder.changing = s.holder.changing) := by
    unfold State.holder
    rw [hl]
    cases hk : s.lock with
    | none => simp
    | some v =>
      dsimp only
      by_cases hv : v = t
      · subst hv; rw [hpt]; exact ⟨hsh, hop, hch⟩
      · rw [hpu v hv]; simp
  obtain ⟨k1, k2, k3⟩ := hho
  refine ⟨?_, ?_, ?_, ?_, ?_, ?_, ?_⟩
  · intro u
    by_cases hu : u = t
    · subst hu; rw [hpt, hh, hl]; exact h1 u
    · rw [hpu u hu, hl]; exact h1 u
  · intro u
    by_cases hu : u = t
    · subst hu; exact hth
    · exact thread_congr (hpu u hu).symm (.inl (hd u hu).symm) hw.symm hw2.symm hf.symm hx.symm hcu.symm (h2 u)
  · rw [hw2]; exact h3
  · rw [k1, hw]
    intro hk
    have := h4 hk
    unfold State.Ready State.FdOk at this ⊢
    rw [hw2, hf, hx, hcu]; exact this
  · rw [k2, hw, hf]; exact h5
  · rw [hw, hw2]; exact h6
  · rw [k3]
    intro hk u hu
    by_cases hut : u = t
    · subst hut
      rw [hpt] at hu
      rcases hlg hu with ⟨a, b⟩ | a
      · rw [b]; exact h7 hk u a
      · exact a hk
    · rw [hpu u hut] at hu
      rw [hd u hut]; exact h7 hk u hu

/-- The thread takes the lock. -/
theorem Inv.acquire (h : Inv s) {b : State} (p : Pc) (hb : b.pc = fun u => if u = t then p else s.pc u) (hfree : s.lock = none) (hl : b.lock = some t)
    (hw : b.writer = s.writer) (hw2 : b.writer2 = s.writer2) (hf : b.fd = s.fd) (hx : b.files = s.files) (hcu : cur b.tr = cur s.tr)
    (hd : ∀ u, u ≠ t → b.dirty u = s.dirty u ∨ b.dirty u = true) (hh : p.holds = true) (hlg : p.logs = false)
    (hch : p.changing = true → ∀ u, u ≠ t → b.dirty u = true) (hth : b.Thread t) : Inv b := by
  obtain ⟨h1, h2, h3, h4, h5, h6, h7⟩ := h
  have hpt : b.pc t = p := by rw [hb]; simp
  have hpu : ∀ u, u ≠ t → b.pc u = s.pc u := fun u hu => by rw [hb]; simp [hu]
  have hbh : b.holder = p := by unfold State.holder; rw [hl]; exact hpt
  have hsh0 : s.holder = .idle := by unfold State.holder; rw [hfree]
  rw [hsh0] at h4 h5
  refine ⟨?_, ?_, ?_, ?_, ?_, ?_, ?_⟩
  · intro u
    by_cases hu : u = t
    · subst hu; rw [hpt, hh, hl]; simp
    · rw [hpu u hu, hl]
      have := h1 u
      rw [hfree] at this
      simp only [reduceCtorEq, iff_false] at this
      simp [this, Ne.symm hu]
  · intro u
    by_cases hu : u = t
    · subst hu; exact hth
    · exact thread_congr (hpu u hu).symm ((hd u hu).imp Eq.symm id) hw.symm hw2.symm hf.symm hx.symm hcu.symm (h2 u)
  · rw [hw2]; exact h3
  · intro _
    have := h4 rfl
    rw [hw]
    unfold State.Ready State.FdOk at this ⊢
    rw [hw2, hf, hx, hcu]; exact this
  · intro hk _
    rw [hf]; exact h5 (hw ▸ hk) rfl
  · rw [hw, hw2]; exact h6
  · rw [hbh]
    intro hk u hu
    by_cases hut : u = t
    · subst hut; rw [hpt, hlg] at hu; cases hu
    · exact hch hk u hut

/-- The thread gives the lock back. -/
theorem Inv.giveBack (h : Inv s) {b : State} (p : Pc) (hb : b.pc = fun u => if u = t then p else s.pc u) (hold : (s.pc t).holds = true) (hl : b.lock = none)
    (hw : b.writer = s.writer) (hw2 : b.writer2 = s.writer2) (hf : b.fd = s.fd) (hx : b.files = s.files) (hcu : cur b.tr = cur s.tr) (hd : b.dirty = s.dirty)
    (hh : p.holds = false) (hsh : (s.pc t).shuts = false) (hop : (s.pc t).opens = false) (hth : b.Thread t) : Inv b := by
  obtain ⟨h1, h2, h3, h4, h5, h6, h7⟩ := h
  have hpt : b.pc t = p := by rw [hb]; simp
  have hpu : ∀ u, u ≠ t → b.pc u = s.pc u := fun u hu => by rw [hb]; simp [hu]
  have hlk := (h1 t).1 hold
  have hsh0 : s.holder = s.pc t := by unfold State.holder; rw [hlk]
  have hbh : b.holder = .idle := by unfold State.holder; rw [hl]
  rw [hsh0] at h4 h5
  refine ⟨?_, ?_, ?_, ?_, ?_, ?_, ?_⟩
  · intro u
    by_cases hu : u = t
    · subst hu; rw [hpt, hh, hl]; simp
    · rw [hpu u hu, hl]
      have := h1 u
      rw [hlk] at this
      simp only [Option.some.injEq, Ne.symm hu, iff_false] at this
      simp [this]
  · intro u
    by_cases hu : u = t
    · subst hu; exact hth
    · exact thread_congr (hpu u hu).symm (.inl (by rw [hd])) hw.symm hw2.symm hf.symm hx.symm hcu.symm (h2 u)
  · rw [hw2]; exact h3
  · intro _
    have := h4 hsh
    rw [hw]
    unfold State.Ready State.FdOk at this ⊢
    rw [hw2, hf, hx, hcu]; exact this
  · intro hk _
    rw [hf]; exact h5 (hw ▸ hk) hop
  · rw [hw, hw2]; exact h6
  · rw [hbh]; intro hk; cases hk

/-- The thread that has the lock changes fields. -/
theorem Inv.change (h : Inv s) {b : State} (p : Pc) (hb : b.pc = fun u => if u = t then p else s.pc u) (hold : (s.pc t).holds = true) (hl : b.lock = s.lock)
    (hd : b.dirty = s.dirty) (hh : p.holds = true) (hlg : p.logs = false) (hch : p.changing = (s.pc t).changing)
    (hoth : ∀ u, u ≠ t → (s.pc u).holds = false → s.Thread u → ((s.pc t).changing = true → (s.pc u).logs = true → s.dirty u = true) → b.Thread u)
    (hw2 : ∀ g, b.writer2 = some g → baseWf g = true) (hready : p.shuts = false → b.Ready b.writer)
    (hshut : b.writer = .init → p.opens = false → b.fd = none ∨ b.fd = some 0) (hwrap : ∀ c, b.writer = .wrap c → b.writer2 ≠ none) (hth : b.Thread t) : Inv b := by
  obtain ⟨h1, h2, h3, h4, h5, h6, h7⟩ := h
  have hpt : b.pc t = p := by rw [hb]; simp
  have hpu : ∀ u, u ≠ t → b.pc u = s.pc u := fun u hu => by rw [hb]; simp [hu]
  have hlk := (h1 t).1 hold
  have hsh0 : s.holder = s.pc t := by unfold State.holder; rw [hlk]
  have hbh : b.holder = p := by unfold State.holder; rw [hl, hlk]; exact hpt
  rw [hsh0] at h7
  refine ⟨?_, ?_, hw2, by rw [hbh]; exact hready, by rw [hbh]; exact hshut, hwrap, ?_⟩
  · intro u
    by_cases hu : u = t
    · subst hu; rw [hpt, hh, hl, hlk]; simp
    · rw [hpu u hu, hl]; exact h1 u
  · intro u
    by_cases hu : u = t
    · subst hu; exact hth
    · refine hoth u hu ?_ (h2 u) fun hc hx => h7 hc u hx
      have := h1 u
      rw [hlk] at this
      simp only [Option.some.injEq, Ne.symm hu, iff_false] at this
      simpa using this
  · rw [hbh, hch, hd]
    intro hk u hu
    by_cases hut : u = t
    · subst hut; rw [hpt, hlg] at hu; cases hu
    · rw [hpu u hut] at hu
      exact h7 hk u hu

/-- The rest of the program changes a descriptor that is not a device. -/
theorem Inv.foreign (h : Inv s) (n : Nat) (x : Option Target) (h0 : ∀ p, s.files n ≠ some (.dev p)) : Inv (s.setFile n x) := by
  have hfd : s.FdOk → (s.setFile n x).FdOk := by
    rintro ⟨m, p, a, b, c⟩
    refine ⟨m, p, a, ?_, c⟩
    show (if m = n then x else s.files m) = _
    rw [if_neg]
    · exact b
    · rintro rfl; exact h0 p b
  have hr : ∀ f, s.Ready f → (s.setFile n x).Ready f := by
    intro f
    cases f with
    | kernel => exact hfd
    | wrap c => exact fun ⟨g, a, b⟩ => ⟨g, a, fun e => hfd (b e)⟩
    | _ => exact id
  obtain ⟨h1, h2, h3, h4, h5, h6, h7⟩ := h
  refine ⟨h1, ?_, h3, fun a => hr _ (h4 a), h5, h6, h7⟩
  intro u
  have := h2 u
  unfold State.Thread State.AtPc at this ⊢
  rw [show (s.setFile n x).pc u = s.pc u from rfl]
  cases hq : s.pc u <;> rw [hq] at this <;> dsimp only at this ⊢ <;> try exact this
  · exact ⟨this.1, this.2.1, fun a b => ⟨(this.2.2 a b).1, hr _ (this.2.2 a b).2⟩⟩
  · exact fun a => ⟨(this a).1, (this a).2.1, hfd (this a).2.2⟩
  · exact ⟨this.1, this.2.1, this.2.2.1, fun a => hfd (this.2.2.2 a)⟩
  · exact ⟨this.1, this.2.1, this.2.2.1, hr _ this.2.2.2⟩

/-- A thread without the lock, if the writer stays what it is or was the initial one, and
what the thread needs is still there. -/
theorem thread_kept {b : State} {u : Tid} (hp : b.pc u = s.pc u) (hd : b.dirty u = s.dirty u) (hh : (s.pc u).holds = false) (h : s.Thread u)
    (hw2 : s.writer2 ≠ none → b.writer2 ≠ none)
    (hk : s.dirty u = false → (s.pc u).logs = true → s.writer ≠ .init → b.writer ≠ .init ∧ b.fd = s.fd ∧ b.files = s.files ∧ cur b.tr = cur s.tr ∧ (b.writer2 = s.writer2 ∨ ∃ f, b.writer2 = some (.custom f))) :
    b.Thread u := by
  unfold State.Thread State.AtPc at h ⊢
  rw [hp, hd]
  cases hq : s.pc u <;> rw [hq] at h hh hk <;> dsimp only at h ⊢ <;> try exact h
  · refine ⟨h.1, fun c e => hw2 (h.2.1 c e), fun a e => ?_⟩
    obtain ⟨k1, k2⟩ := h.2.2 a e
    obtain ⟨l1, l2, l3, l5, l4⟩ := hk a rfl k1
    refine ⟨l1, ?_⟩
    have hfd : s.FdOk → b.FdOk := by unfold State.FdOk; rw [l2, l3, l5]; exact id
    rename_i f _ _
    cases f with
    | kernel => exact hfd k2
    | wrap c =>
      obtain ⟨g, g1, g2⟩ := k2
      rcases l4 with l4 | ⟨f, l4⟩
      · exact ⟨g, by rw [l4]; exact g1, fun e => hfd (g2 e)⟩
      · exact ⟨_, l4, by simp⟩
    | _ => trivial
  · intro a
    obtain ⟨k1, k2, k3⟩ := h a
    obtain ⟨l1, l2, l3, l5, l4⟩ := hk a rfl k1
    refine ⟨l1, by rw [l2]; exact k2, ?_⟩
    unfold State.FdOk; rw [l2, l3, l5]; exact k3
  all_goals cases hh

theorem holder_of_lock (h : s.lock = none) : s.holder = .idle := by unfold State.holder; rw [h]

theorem changing_holder : s.changing = s.holder.changing := by
  unfold State.changing State.holder
  cases s.lock <;> rfl

/-- Only the place changes; what holds at the new one is `th`. -/
macro "mv" h:ident hp:ident " : " th:term : tactic => `(tactic|
  refine Inv.move $h _ rfl rfl rfl rfl rfl rfl rfl (fun _ _ => rfl) (by rw [$hp:ident]; rfl) (by rw [$hp:ident]; rfl) (by rw [$hp:ident]; rfl) (by rw [$hp:ident]; rfl)
      (fun hx => by first | (cases hx; done) | exact .inl ⟨by rw [$hp:ident]; rfl, rfl⟩) $th)

macro "acq" h:ident hf:ident " : " th:term : tactic => `(tactic|
  refine Inv.acquire $h _ rfl $hf rfl rfl rfl rfl rfl rfl (fun _ _ => .inl rfl) rfl rfl (fun hx => by cases hx; done) $th)

macro "give" h:ident hp:ident " : " th:term : tactic => `(tactic|
  refine Inv.giveBack $h _ rfl (by rw [$hp:ident]; rfl) rfl rfl rfl rfl rfl rfl rfl rfl (by rw [$hp:ident]; rfl) (by rw [$hp:ident]; rfl) $th)

/-- What holds at the new place of a thread. -/
theorem thread_at {b : State} {p : Pc} (hb : b.pc t = p) (h : b.AtPc t p) : b.Thread t := by
  unfold State.Thread
  rw [hb]; exact h

/-- The place of the thread that moved. -/
theorem at_self {p : Pc} : (s.at t p).pc t = p := by simp [State.at]

macro "here" x:term : term => `(thread_at (if_pos rfl) $x)

theorem Inv.holder_eq (h : Inv s) (hh : (s.pc t).holds = true) : s.holder = s.pc t := by
  unfold State.holder; rw [(h.lock t).1 hh]

/-- `ctrl.writer` is read. -/
theorem Inv.readWriter (h : Inv s) (hl : (s.pc t).logs = true) (hd : s.dirty t = false) : s.Ready s.writer := by
  refine h.ready ?_
  cases hq : s.holder.shuts with
  | false => rfl
  | true =>
    have := h.dirty (by cases hh : s.holder <;> rw [hh] at hq <;> first | (cases hq; done) | rfl) t hl
    rw [this] at hd; cases hd

macro "chg" h:ident hp:ident : tactic => `(tactic|
  refine Inv.change $h _ rfl (by rw [$hp:ident]; rfl) rfl rfl rfl rfl (by rw [$hp:ident]; rfl) ?_ ?_ ?_ ?_ ?_ ?_)

theorem inv_step (h : Inv s) (hs : step E t ch s = some s') : Inv s' := by
  have hT := h.thread t
  unfold State.Thread at hT
  unfold step at hs
  cases hp : s.pc t with
  | idle =>
    rw [hp] at hT hs
    cases ch <;> simp only [reduceCtorEq, Option.some.injEq] at hs
    · subst hs
      refine Inv.move h _ rfl rfl rfl rfl rfl rfl rfl (fun u hu => if_neg hu) (by rw [hp]; rfl) (by rw [hp]; rfl) (by rw [hp]; rfl) (by rw [hp]; rfl)
        (fun _ => .inr fun hc => ?_) (here trivial)
      show (if t = t then s.changing else _) = true
      rw [if_pos rfl, changing_holder]; exact hc
    · split at hs
      · simp only [Option.some.injEq] at hs; subst hs; mv h hp : here trivial
      · cases hs
    · subst hs; mv h hp : here trivial
    · subst hs; mv h hp : here trivial
    · split at hs
      · rename_i hn
        simp only [Option.some.injEq] at hs; subst hs
        exact h.foreign _ _ (by rw [hn]; simp)
      · cases hs
    · split at hs
      · rename_i hn
        simp only [Option.some.injEq] at hs; subst hs
        exact h.foreign _ _ (by rw [hn]; simp)
      · cases hs
  | start m =>
    rw [hp] at hT hs
    cases ch <;> simp only [reduceCtorEq, Option.some.injEq] at hs
    subst hs
    mv h hp : here ⟨fun e => absurd rfl e, h.wrap, fun hd hi => ⟨hi, Inv.readWriter (s := s) h (t := t) (by rw [hp]; rfl) hd⟩⟩
  | again m n =>
    rw [hp] at hT hs
    have hn : n = 0 := hT
    subst hn
    cases ch <;> simp only [reduceCtorEq, Option.some.injEq] at hs
    subst hs
    mv h hp : here ⟨fun e => absurd rfl e, h.wrap, fun hd hi => ⟨hi, Inv.readWriter (s := s) h (t := t) (by rw [hp]; rfl) hd⟩⟩
  | run f m n =>
    rw [hp] at hT hs
    obtain ⟨t1, t2, t3⟩ := hT
    cases ch <;> try (cases f <;> cases hs; done)
    cases f with
    | init =>
      simp only [Option.some.injEq] at hs; subst hs
      mv h hp : here ?_
      cases n with
      | zero => rfl
      | succ n => exact absurd (t1 (by simp)) (by simp [baseWf])
    | null => simp only [Option.some.injEq] at hs; subst hs; mv h hp : here trivial
    | custom f => simp only [Option.some.injEq] at hs; subst hs; mv h hp : here trivial
    | kernel =>
      simp only [Option.some.injEq] at hs; subst hs
      mv h hp : here fun hd => ⟨(t3 hd (by simp)).1, rfl, (t3 hd (by simp)).2⟩
    | wrap c =>
      cases hw : s.writer2 with
      | none => exact absurd hw (t2 c rfl)
      | some g =>
        simp only [hw, Option.some.injEq] at hs; subst hs
        mv h hp : here ⟨fun _ => h.w2 g hw, fun c e => t2 _ rfl, fun hd hi => ⟨(t3 hd (by simp)).1, ?_⟩⟩
        obtain ⟨g', a, b⟩ := (t3 hd (by simp)).2
        rw [hw] at a
        cases a
        have := h.w2 g hw
        cases g with
        | kernel => exact b rfl
        | wrap c => cases this
        | _ => trivial
  | write fd m n =>
    rw [hp] at hT hs
    cases ch <;> simp only [reduceCtorEq, Option.some.injEq] at hs
    · subst hs; mv h hp : here trivial
    · subst hs
      mv h hp : here ⟨fun _ => rfl, fun c e => (by cases e), fun hd _ => ⟨(hT hd).1, (hT hd).2.2⟩⟩
  | after m n =>
    rw [hp] at hT hs
    cases ch <;> cases n <;> simp only [reduceCtorEq, Option.some.injEq] at hs
    · subst hs; mv h hp : here trivial
    · subst hs
      split
      · mv h hp : here trivial
      · mv h hp : here trivial
  | iLock m n =>
    rw [hp] at hT hs
    cases ch <;> simp only [reduceCtorEq] at hs
    split at hs
    · rename_i hf
      simp only [Option.some.injEq] at hs; subst hs; acq h hf : here hT
    · cases hs
  | iCheck m n =>
    have hk := h.holder_eq (t := t) (by rw [hp]; rfl)
    rw [hp] at hT hs hk
    cases ch <;> simp only [reduceCtorEq, Option.some.injEq] at hs
    subst hs
    by_cases hi : s.writer = .init
    · rw [if_pos hi]
      mv h hp : here ⟨hT, hi, h.shut hi (by rw [hk]; rfl)⟩
    · rw [if_neg hi]
      mv h hp : here hT
  | iOpen k =>
    rw [hp] at hT hs
    obtain ⟨hk, hi, hf⟩ := hT
    cases ch <;> try (cases hs; done)
    rename_i o
    cases o with
    | none =>
      simp only [Option.some.injEq] at hs; subst hs
      chg h hp
      · exact fun u hu hh hTu _ => thread_kept (s := s) (if_neg hu) rfl hh hTu id fun _ _ e => absurd hi e
      · exact h.w2
      · exact fun _ => by show State.Ready _ s.writer; rw [hi]; trivial
      · exact fun _ _ => .inl rfl
      · exact h.wrap
      · exact here ⟨hk, hi, rfl, fun e => by cases e⟩
    | some n =>
      simp only at hs
      split at hs
      · rename_i hn
        simp only [Option.some.injEq] at hs; subst hs
        have hfd : State.FdOk ((({ s with fd := some n } : State).setFile n (some (.dev (E.path s.device)))).ev (.opened (E.path s.device) n)) :=
          ⟨n, _, rfl, if_pos rfl, rfl⟩
        cases hE : E.stderr
        · rw [if_neg (by simp)]
          chg h hp
          · exact fun u hu hh hTu _ => thread_kept (s := s) (if_neg hu) rfl hh hTu id fun _ _ e => absurd hi e
          · exact h.w2
          · exact fun _ => by show State.Ready _ s.writer; rw [hi]; trivial
          · exact fun _ e => by cases e
          · exact h.wrap
          · exact here ⟨hk, hi, by simp, hfd⟩
        · rw [if_pos rfl]
          chg h hp
          · exact fun u hu hh hTu _ => thread_kept (s := s) (if_neg hu) rfl hh hTu id fun _ _ e => absurd hi e
          · exact h.w2
          · exact fun _ => by show State.Ready _ s.writer; rw [hi]; trivial
          · exact fun _ e => by cases e
          · exact h.wrap
          · exact here ⟨hk, hi, rfl, fun _ => hfd⟩
      · cases hs
  | iW2 base k =>
    rw [hp] at hT hs
    obtain ⟨hk, hi, hb, hf⟩ := hT
    cases ch <;> simp only [reduceCtorEq, Option.some.injEq] at hs
    subst hs
    chg h hp
    · exact fun u hu hh hTu _ => thread_kept (s := s) (if_neg hu) rfl hh hTu (fun _ => by simp [State.at]) fun _ _ e => absurd hi e
    · intro g e
      cases e; exact hb
    · exact fun _ => by show State.Ready _ s.writer; rw [hi]; trivial
    · exact fun _ e => by cases e
    · exact fun _ _ => by simp [State.at]
    · exact here ⟨hk, hi, by simp, _, rfl, hf⟩
  | iW f k =>
    rw [hp] at hT hs
    obtain ⟨hk, hi, hb, hf⟩ := hT
    cases ch <;> simp only [reduceCtorEq, Option.some.injEq] at hs
    subst hs
    cases k with
    | msg m n =>
      chg h hp
      · exact fun u hu hh hTu _ => thread_kept (s := s) (if_neg hu) rfl hh hTu id fun _ _ e => absurd hi e
      · exact h.w2
      · exact fun _ => hf
      · exact fun e _ => absurd e hb
      · intro c e
        have e : f = .wrap c := e
        subst e
        obtain ⟨g, a, _⟩ := hf
        show s.writer2 ≠ none
        rw [a]; simp
      · exact here hk
    | get =>
      chg h hp
      · exact fun u hu hh hTu _ => thread_kept (s := s) (if_neg hu) rfl hh hTu id fun _ _ e => absurd hi e
      · exact h.w2
      · exact fun _ => hf
      · exact fun e _ => absurd e hb
      · intro c e
        have e : f = .wrap c := e
        subst e
        obtain ⟨g, a, _⟩ := hf
        show s.writer2 ≠ none
        rw [a]; simp
      · exact here hb
  | iUnlock m n =>
    rw [hp] at hT hs
    cases ch <;> simp only [reduceCtorEq, Option.some.injEq] at hs
    subst hs; give h hp : here hT
  | dLock d =>
    rw [hp] at hT hs
    cases ch <;> simp only [reduceCtorEq] at hs
    split at hs
    · rename_i hf
      simp only [Option.some.injEq] at hs; subst hs
      exact Inv.acquire h _ rfl hf rfl rfl rfl rfl rfl rfl (fun _ _ => .inr rfl) rfl rfl (fun _ _ _ => rfl) (here trivial)
    · cases hs
  | dStore d =>
    rw [hp] at hT hs
    cases ch <;> try (cases hs; done)
    have hk := h.holder_eq (t := t) (by rw [hp]; rfl)
    rw [hp] at hk
    rename_i o
    cases o <;> simp only [Option.some.injEq] at hs <;> subst hs
    · mv h hp : here trivial
    · chg h hp
      · refine fun u hu hh hTu hc => thread_kept (s := s) (if_neg hu) rfl hh hTu id fun hd hl _ => ?_
        rw [hc (by rw [hp]; rfl) hl] at hd; cases hd
      · exact h.w2
      · exact fun e => by cases e
      · exact fun e _ => h.shut e (by rw [hk]; rfl)
      · exact h.wrap
      · exact here trivial
  | dTest =>
    have hk := h.holder_eq (t := t) (by rw [hp]; rfl)
    rw [hp] at hT hs hk
    cases ch <;> simp only [reduceCtorEq, Option.some.injEq] at hs
    subst hs
    by_cases hi : s.writer = .init
    · rw [if_pos hi]
      chg h hp
      · refine fun u hu hh hTu hc => thread_kept (s := s) (if_neg hu) rfl hh hTu id fun hd hl _ => ?_
        rw [hc (by rw [hp]; rfl) hl] at hd; cases hd
      · exact h.w2
      · exact fun _ => by show State.Ready _ s.writer; rw [hi]; trivial
      · exact fun e _ => h.shut e (by rw [hk]; rfl)
      · exact h.wrap
      · exact here trivial
    · rw [if_neg hi]
      mv h hp : here hi
  | dFd =>
    rw [hp] at hT hs
    have hi : s.writer ≠ .init := hT
    cases ch <;> try (cases hs; done)
    cases hf : s.fd with
    | none => simp only [hf, Option.some.injEq] at hs; subst hs; mv h hp : here ⟨hi, .inl hf⟩
    | some n =>
      cases n with
      | zero => simp only [hf, Option.some.injEq] at hs; subst hs; mv h hp : here ⟨hi, .inr hf⟩
      | succ n =>
        simp only [hf, Option.some.injEq] at hs; subst hs
        mv h hp : here ⟨by simp, hf, hi⟩
  | dClose n =>
    rw [hp] at hT hs
    obtain ⟨hn, hf, hi⟩ := hT
    cases ch <;> simp only [reduceCtorEq, Option.some.injEq] at hs
    subst hs
    chg h hp
    · refine fun u hu hh hTu hc => thread_kept (s := s) (if_neg hu) rfl hh hTu id fun hd hl _ => ?_
      rw [hc (by rw [hp]; rfl) hl] at hd; cases hd
    · exact h.w2
    · exact fun e => by cases e
    · exact fun e => absurd e hi
    · exact h.wrap
    · exact here hi
  | dMinus =>
    rw [hp] at hT hs
    cases ch <;> simp only [reduceCtorEq, Option.some.injEq] at hs
    subst hs
    chg h hp
    · refine fun u hu hh hTu hc => thread_kept (s := s) (if_neg hu) rfl hh hTu id fun hd hl _ => ?_
      rw [hc (by rw [hp]; rfl) hl] at hd; cases hd
    · exact h.w2
    · exact fun e => by cases e
    · exact fun e => absurd e hT
    · exact h.wrap
    · exact here ⟨hT, .inl rfl⟩
  | dInit =>
    rw [hp] at hT hs
    cases ch <;> simp only [reduceCtorEq, Option.some.injEq] at hs
    subst hs
    chg h hp
    · refine fun u hu hh hTu hc => thread_kept (s := s) (if_neg hu) rfl hh hTu id fun hd hl _ => ?_
      rw [hc (by rw [hp]; rfl) hl] at hd; cases hd
    · exact h.w2
    · exact fun _ => trivial
    · exact fun _ _ => hT.2
    · exact fun c e => by cases e
    · exact here trivial
  | dUnlock =>
    rw [hp] at hT hs
    cases ch <;> simp only [reduceCtorEq, Option.some.injEq] at hs
    subst hs; give h hp : here trivial
  | sLock f =>
    rw [hp] at hT hs
    cases ch <;> simp only [reduceCtorEq] at hs
    split at hs
    · rename_i hf
      simp only [Option.some.injEq] at hs; subst hs
      cases hE : E.stderr
      · rw [if_neg (by simp)]
        acq h hf : here ⟨by simp, .inl ⟨f, rfl⟩⟩
      · rw [if_pos rfl]
        acq h hf : here trivial
    · cases hs
  | sW2 f =>
    have hk := h.holder_eq (t := t) (by rw [hp]; rfl)
    rw [hp] at hT hs hk
    cases ch <;> simp only [reduceCtorEq, Option.some.injEq] at hs
    subst hs
    chg h hp
    · exact fun u hu hh hTu _ => thread_kept (s := s) (if_neg hu) rfl hh hTu (fun _ => by simp [State.at, State.ev]) fun _ _ e => ⟨e, rfl, rfl, rfl, .inr ⟨f, rfl⟩⟩
    · intro g e
      cases e; rfl
    · intro _
      have := h.ready (by rw [hk]; rfl)
      show State.Ready _ s.writer
      cases hw : s.writer with
      | kernel => rw [hw] at this; exact this
      | wrap c => exact ⟨.custom f, rfl, by simp⟩
      | _ => trivial
    · exact fun e _ => h.shut e (by rw [hk]; rfl)
    · exact fun _ _ => by simp [State.at, State.ev]
    · exact here ⟨by simp, .inr ⟨_, _, rfl, rfl⟩⟩
  | sW g =>
    rw [hp] at hT hs
    obtain ⟨hg, ho⟩ := hT
    cases ch <;> simp only [reduceCtorEq, Option.some.injEq] at hs
    subst hs
    chg h hp
    · exact fun u hu hh hTu _ => thread_kept (s := s) (if_neg hu) rfl hh hTu id fun _ _ e => ⟨hg, rfl, rfl, rfl, .inl rfl⟩
    · exact h.w2
    · intro _
      rcases ho with ⟨f, rfl⟩ | ⟨c, f, rfl, e⟩
      · trivial
      · exact ⟨_, e, by simp⟩
    · exact fun e => absurd e hg
    · intro c e
      rcases ho with ⟨f, rfl⟩ | ⟨c, f, rfl, e'⟩
      · cases e
      · show s.writer2 ≠ none
        rw [e']; simp
    · exact here trivial
  | sUnlock =>
    rw [hp] at hT hs
    cases ch <;> simp only [reduceCtorEq, Option.some.injEq] at hs
    subst hs; give h hp : here trivial
  | gLock =>
    rw [hp] at hT hs
    cases ch <;> simp only [reduceCtorEq] at hs
    split at hs
    · rename_i hf
      simp only [Option.some.injEq] at hs; subst hs; acq h hf : here trivial
    · cases hs
  | gCheck =>
    have hk := h.holder_eq (t := t) (by rw [hp]; rfl)
    rw [hp] at hT hs hk
    cases ch <;> simp only [reduceCtorEq, Option.some.injEq] at hs
    subst hs
    by_cases hi : s.writer = .init
    · rw [if_pos hi]
      mv h hp : here ⟨trivial, hi, h.shut hi (by rw [hk]; rfl)⟩
    · rw [if_neg hi]
      mv h hp : here hi
  | gRead =>
    rw [hp] at hT hs
    cases ch <;> simp only [reduceCtorEq, Option.some.injEq] at hs
    subst hs; mv h hp : here trivial
  | gUnlock f =>
    rw [hp] at hT hs
    cases ch <;> simp only [reduceCtorEq, Option.some.injEq] at hs
    subst hs; give h hp : here trivial
  | crash => rw [hp] at hT; exact hT.elim

theorem Reach.inv (h : Reach E own s) : Inv s := by
  induction h with
  | start => exact inv_start
  | step t ch _ hs ih => exact inv_step ih hs

end Verif.Libulog.ConcW
