import Verif.Libulog.Builds
import Verif.Libulog.PropsWriter

/-!
# Where messages go on Android and Windows (C121)
-/
namespace Verif.Libulog
open Verif

/-! ## The Linux build -/

theorem ctrlInitOn_linux (w : World) (s : Lib) : ctrlInitOn .linux w s = ctrlInit w s := by
  unfold ctrlInitOn ctrlInit
  simp

/-- A result of the Linux build among those of all builds. -/
def asPEv (x : Lib × List Ev) : Lib × List PEv := (x.1, x.2.map .ev)

theorem callWriterOn_linux (nm : Cid → Bytes) (w : World) (prio : UInt32) (c : Cid) (data : Bytes) :
    ∀ (fuel : Nat) (f : Wf) (s : Lib),
      callWriterOn .linux nm w prio c data fuel f s = (callWriter nm w prio c data fuel f s).map asPEv := by
  intro fuel
  induction fuel with
  | zero => intro f s; rfl
  | succ n ih =>
    intro f s
    cases f with
    | null => rfl
    | custom k => rfl
    | kernel => rfl
    | init =>
      simp only [callWriterOn, callWriter, ctrlInitOn_linux, bind, Except.bind]
      generalize (if s.writer = .init then ctrlInit w s else (s, [])) = x
      rw [ih]
      cases callWriter nm w prio c data n x.1.writer x.1 with
      | error e => rfl
      | ok y => simp [Except.map, asPEv]
    | wrap color =>
      simp only [callWriterOn, callWriter, bind, Except.bind]
      cases s.writer2 with
      | none => rfl
      | some g =>
        simp only []
        rw [ih]
        cases callWriter nm w prio c data n g s with
        | error e => rfl
        | ok y =>
          simp only [Except.map, asPEv]
          by_cases hb : prio.toNat.testBit 7 = true
          · simp [hb]
          · simp only [hb, Bool.false_eq_true, if_false]
            cases stderrLine y.1.replay color prio (nm c) data with
            | error e => rfl
            | ok l => simp

theorem logOnP_linux (nm : Cid → Bytes) (w : World) (s : Lib) (prio : UInt32) (c : Cid) (d : Option Bytes) :
    logOnP .linux nm w s prio c d = (logOn nm w s prio c d).map fun x => (x.1, x.2.1, x.2.2.map .ev) := by
  simp only [logOnP, logOn, deliver, callWriterOn_linux, bind, Except.bind]
  split
  · cases d with
    | none => rfl
    | some d =>
      simp only []
      cases callWriter nm w prio c d 4 (ensureInit nm w s c).1.writer (ensureInit nm w s c).1 with
      | error e => rfl
      | ok y => simp [Except.map, asPEv]
  · rfl

/-- C121, Linux. The build for Linux is the one of all other properties of the library. -/
theorem C121_linux (nm : Cid → Bytes) (w : World) (s : Lib) (op : WOp) :
    stepOn .linux nm w s op = (wstep nm w s op).map fun x => (x.1, x.2.1, x.2.2.map .ev) := by
  cases op with
  | log p c t => exact logOnP_linux nm w s p c (formatted t)
  | str p c t => exact logOnP_linux nm w s p c (some (t ++ [0]))
  | buf p c t => exact logOnP_linux nm w s p c (some t)
  | getWriter =>
    simp only [stepOn, wstep, ctrlInitOn_linux]
    split <;> rfl
  | _ =>
    simp only [stepOn, bind, Except.bind]
    generalize wstep nm w s _ = x
    cases x <;> rfl

/-! ## No device -/

/-- The program runs with the environment `g`, nothing under /dev is a device, and it does not
install a write function. -/
def NoDevice (g : Bytes → Option Bytes) (ops : List (World × WOp)) : Prop :=
  ∀ x ∈ ops, x.1.getenv = g ∧ (∀ path, x.1.openDev path = none) ∧ ∀ f, x.2 ≠ .setWriter f

/-- A copy goes to stderr: always, but on Android only if asked for. -/
def copies (p : Platform) (g : Bytes → Option Bytes) : Prop := p = .android → (g (ascii "ULOG_STDERR")).isSome = true

instance (p : Platform) (g : Bytes → Option Bytes) : Decidable (copies p g) := inferInstanceAs (Decidable (_ → _))

/-- States of the writer without a device. -/
def Deviceless (p : Platform) (g : Bytes → Option Bytes) (s : Lib) : Prop :=
  s.fd = none ∧ (s.writer = .init ∨ (¬ copies p g ∧ s.writer = .null) ∨
    (copies p g ∧ s.writer = .wrap (g (ascii "ULOG_STDERR_COLOR")).isSome ∧ s.writer2 = some .null))

theorem Deviceless.congr {p : Platform} {g : Bytes → Option Bytes} {s s' : Lib} (h : Deviceless p g s)
    (h1 : s'.fd = s.fd) (h2 : s'.writer = s.writer) (h3 : s'.writer2 = s.writer2) : Deviceless p g s' := by
  unfold Deviceless at *
  rw [h1, h2, h3]; exact h

theorem ctrlInitOn_same (p : Platform) (w : World) (s : Lib) : SameReg s (ctrlInitOn p w s).1 := by
  unfold ctrlInitOn
  dsimp only
  generalize (if p = Platform.windows then s.fd else w.openDev (devChoice w s)) = fd
  generalize (if p ≠ Platform.windows ∧ fd.isSome then Wf.kernel else Wf.null) = base
  by_cases h : (w.getenv (ascii "ULOG_STDERR")).isSome = true ∨ (base = .null ∧ p ≠ .android)
  · rw [if_pos h]; exact ⟨rfl, rfl, rfl, rfl, rfl⟩
  · rw [if_neg h]; exact ⟨rfl, rfl, rfl, rfl, rfl⟩

/-- What initialisation makes of the writer when there is no device. -/
theorem ctrlInitOn_none {p : Platform} {w : World} {s : Lib} (hfd : s.fd = none)
    (ho : ∀ path, w.openDev path = none) :
    (ctrlInitOn p w s).2 = [] ∧ (ctrlInitOn p w s).1.fd = none ∧
    ((¬ copies p w.getenv ∧ (ctrlInitOn p w s).1.writer = .null) ∨
      (copies p w.getenv ∧ (ctrlInitOn p w s).1.writer = .wrap (w.getenv (ascii "ULOG_STDERR_COLOR")).isSome ∧
        (ctrlInitOn p w s).1.writer2 = some .null)) := by
  unfold ctrlInitOn copies
  generalize w.getenv (ascii "ULOG_STDERR") = a
  generalize (w.getenv (ascii "ULOG_STDERR_COLOR")).isSome = b
  cases p <;> cases a <;> simp [ho, hfd]

/-- What a message that gets to the writer becomes. -/
def shown (p : Platform) (g : Bytes → Option Bytes) (replay : Option (Nat × Nat)) (prio : UInt32) (tag data : Bytes) :
    Except WFault (List PEv) :=
  if prio.toNat.testBit 7 then .ok []
  else if 0 ∈ data then
    .ok ((if p = .android then [.alog (droidPrio (prio.toNat % 8)) tag (cstr data)] else []) ++
      if copies p g then
        (match stderrLine replay (g (ascii "ULOG_STDERR_COLOR")).isSome prio tag data with
        | .ok l => [.ev (.stderr l)]
        | .error _ => [])
      else [])
  else .error .oob

/-- What becomes of a message that may be refused. -/
def passed (p : Platform) (g : Bytes → Option Bytes) (replay : Option (Nat × Nat)) (prio : UInt32) (tag : Bytes) :
    Option Bytes → Except WFault (List PEv)
  | none => .ok []
  | some d => shown p g replay prio tag d

theorem stderrLine_ok {replay : Option (Nat × Nat)} {color : Bool} {prio : UInt32} {tag data : Bytes} (h : (0 : UInt8) ∈ data) :
    ∃ l, stderrLine replay color prio tag data = .ok l := by
  unfold stderrLine
  rw [if_pos h]
  exact ⟨_, rfl⟩

theorem stderrLine_err {replay : Option (Nat × Nat)} {color : Bool} {prio : UInt32} {tag data : Bytes}
    (h : (0 : UInt8) ∉ data) : stderrLine replay color prio tag data = .error .oob := by
  unfold stderrLine
  rw [if_neg h]

/-- The write functions used without a device. -/
theorem writer_none {p : Platform} {nm : Cid → Bytes} {w : World} {prio : UInt32} {c : Cid} {data : Bytes}
    (f : Nat) {s : Lib}
    (hw : (¬ copies p w.getenv ∧ s.writer = .null) ∨
      (copies p w.getenv ∧ s.writer = .wrap (w.getenv (ascii "ULOG_STDERR_COLOR")).isSome ∧ s.writer2 = some .null)) :
    callWriterOn p nm w prio c data (f + 2) s.writer s =
      (shown p w.getenv s.replay prio (nm c) data).map fun e => (s, e) := by
  have hn : p ≠ .android → copies p w.getenv := fun h h' => absurd h' h
  rcases hw with ⟨hc, hw⟩ | ⟨hc, hw, hw2⟩
  · have hp : p = .android := Classical.byContradiction fun h => hc (hn h)
    subst hp
    rw [hw]
    simp only [callWriterOn, writerAndroid, shown, bind, Except.bind]
    by_cases hb : prio.toNat.testBit 7 = true
    · simp [hb, Except.map]
    · by_cases h0 : (0 : UInt8) ∈ data
      · simp [hb, h0, Except.map, hc]
      · simp [hb, h0, Except.map]
  · rw [hw]
    simp only [callWriterOn, hw2, shown, bind, Except.bind]
    by_cases hb : prio.toNat.testBit 7 = true
    · cases p <;> simp [hb, Except.map, writerAndroid]
    · by_cases h0 : (0 : UInt8) ∈ data
      · obtain ⟨l, hl⟩ := stderrLine_ok (replay := s.replay) (color := (w.getenv (ascii "ULOG_STDERR_COLOR")).isSome)
          (prio := prio) (tag := nm c) h0
        cases p <;> simp [hb, h0, Except.map, writerAndroid, hc, hl]
      · have hl := stderrLine_err (replay := s.replay) (color := (w.getenv (ascii "ULOG_STDERR_COLOR")).isSome)
          (prio := prio) (tag := nm c) h0
        cases p <;> simp [hb, h0, Except.map, writerAndroid, hl]

/-- The current writer without a device, initialised or not. -/
theorem deliver_none {p : Platform} {nm : Cid → Bytes} {w : World} {prio : UInt32} {c : Cid} {data : Bytes}
    {s : Lib} (h : Deviceless p w.getenv s) (ho : ∀ path, w.openDev path = none) :
    ∃ s', SameReg s s' ∧ Deviceless p w.getenv s' ∧
      callWriterOn p nm w prio c data 4 s.writer s =
        (shown p w.getenv s.replay prio (nm c) data).map fun e => (s', e) := by
  obtain ⟨hfd, hw | hw⟩ := h
  · obtain ⟨i1, i2, i3⟩ := ctrlInitOn_none (p := p) (w := w) hfd ho
    have hs := ctrlInitOn_same p w s
    refine ⟨(ctrlInitOn p w s).1, hs, ⟨i2, .inr i3⟩, ?_⟩
    rw [hw]
    simp only [callWriterOn, hw, if_true, bind, Except.bind, i1]
    rw [writer_none 1 i3, hs.replay]
    cases shown p w.getenv s.replay prio (nm c) data with
    | error e => rfl
    | ok e => simp [Except.map]
  · exact ⟨s, SameReg.refl s, ⟨hfd, .inr hw⟩, writer_none 2 hw⟩

theorem msg_logOnP {p : Platform} {nm : Cid → Bytes} {w : World} {s : Lib} {op : WOp} {pr : UInt32} {c : Cid} {d : Option Bytes}
    (h : op.msg = some (pr, c, d)) : stepOn p nm w s op = logOnP p nm w s pr c d := by
  cases op with
  | log p' c' t =>
    cases t <;>
    · simp only [WOp.msg, Option.some.injEq, Prod.mk.injEq] at h
      obtain ⟨rfl, rfl, rfl⟩ := h
      rfl
  | str p' c' t =>
    simp only [WOp.msg, Option.some.injEq, Prod.mk.injEq] at h
    obtain ⟨rfl, rfl, rfl⟩ := h
    rfl
  | buf p' c' t =>
    simp only [WOp.msg, Option.some.injEq, Prod.mk.injEq] at h
    obtain ⟨rfl, rfl, rfl⟩ := h
    rfl
  | _ => simp [WOp.msg] at h

theorem logOnP_none {p : Platform} {nm : Cid → Bytes} {w : World} {s : Lib} {u : List Cid} (hr : RegInv s u)
    (h : Deviceless p w.getenv s) (ho : ∀ path, w.openDev path = none) (pr : UInt32) (c : Cid) (d : Option Bytes) :
    ∃ s', SameReg (ensureInit nm w s c).1 s' ∧ Deviceless p w.getenv s' ∧
      logOnP p nm w s pr c d =
        (passed p w.getenv s.replay pr (nm c)
          (if ((pr.toNat % 8 : Nat) : Int) ≤ (ensureInit nm w s c).1.level c then d else none)).map
          fun e => (s', WRes.unit, (ensureInit nm w s c).2.map PEv.ev ++ e) := by
  obtain ⟨i1, i2, i3, i4, i5, i6, i7, i8, i9, i10⟩ := ensureInit_spec nm w hr c
  have h' : Deviceless p w.getenv (ensureInit nm w s c).1 := h.congr i7 i5 i6
  unfold logOnP
  simp only [bind, Except.bind]
  by_cases hl : ((pr.toNat % 8 : Nat) : Int) ≤ (ensureInit nm w s c).1.level c
  · rw [if_pos hl, if_pos hl]
    cases d with
    | none => exact ⟨_, SameReg.refl _, h', by simp [Except.map, passed]⟩
    | some d =>
      obtain ⟨s', j1, j2, j3⟩ := deliver_none (nm := nm) (prio := pr) (c := c) (data := d) h' ho
      refine ⟨s', j1, j2, ?_⟩
      simp only [j3, passed]
      rw [i9]
      cases shown p w.getenv s.replay pr (nm c) d with
      | error e => rfl
      | ok e => simp [Except.map]
  · rw [if_neg hl, if_neg hl]
    exact ⟨_, SameReg.refl _, h', by simp [Except.map, passed]⟩

/-- The events that are not calls of the registration hook. -/
def told (e : List PEv) : List PEv := e.filter fun x => match x with
  | .ev y => !y.isHook
  | .alog .. => true

theorem told_hooks {e : List Ev} (h : ∀ x ∈ e, x.isHook = true) (r : List PEv) : told (e.map .ev ++ r) = told r := by
  unfold told
  rw [List.filter_append]
  have : List.filter (fun x => match x with
    | PEv.ev y => !y.isHook
    | .alog .. => true) (e.map .ev) = [] := by
    rw [List.filter_eq_nil_iff]
    intro x hx
    obtain ⟨y, hy, rfl⟩ := List.mem_map.1 hx
    simp [h y hy]
  rw [this]; rfl

/-! ## Runs -/

/-- The time stamp in force after one more call. -/
def stampStep (r : Option (Nat × Nat)) : WOp → Option (Nat × Nat)
  | .replay a b => some (a, b)
  | _ => r

/-- The time stamp given by the last `writer_update_replay_timestamp`. -/
def stampOf (ops : List (World × WOp)) : Option (Nat × Nat) := ops.foldl (fun r x => stampStep r x.2) none

/-- What becomes of the message of a call, if it has one. -/
def outcome (p : Platform) (g : Bytes → Option Bytes) (nm : Cid → Bytes) (w : World) (s : Lib)
    (stamp : Option (Nat × Nat)) (op : WOp) : Except WFault (List PEv) :=
  match op.msg with
  | none => .ok []
  | some (pr, c, d) => passed p g stamp pr (nm c)
      (if ((pr.toNat % 8 : Nat) : Int) ≤ (ensureInit nm w s c).1.level c then d else none)

/-- The buffer is binary or holds the end of a C string. -/
def Terminated (op : WOp) : Prop :=
  ∀ pr c d, op.msg = some (pr, c, some d) → pr.toNat.testBit 7 = true ∨ (0 : UInt8) ∈ d

theorem terminated_text {op : WOp} (h : ∀ pr c d, op ≠ .buf pr c d) : Terminated op := by
  intro pr c d hm
  cases op with
  | log p' c' t =>
    cases t with
    | none => simp [WOp.msg] at hm
    | some t =>
      simp only [WOp.msg, Option.some.injEq, Prod.mk.injEq] at hm
      rw [← hm.2.2]; exact .inr (by simp)
  | str p' c' t =>
    simp only [WOp.msg, Option.some.injEq, Prod.mk.injEq] at hm
    rw [← hm.2.2]; exact .inr (by simp)
  | buf p' c' t => exact absurd rfl (h _ _ _)
  | _ => simp [WOp.msg] at hm

/-- A step without device that is no message: of the state only what the statement names. -/
theorem wstep_none {p : Platform} {g : Bytes → Option Bytes} {nm : Cid → Bytes} {w : World} {s : Lib} {u : List Cid}
    (hr : RegInv s u) (h : Deviceless p g s) {op : WOp} (hf : ∀ f, op ≠ .setWriter f)
    (hg : op ≠ .getWriter) (hm : op.msg = none) :
    ∃ (s' : Lib) (r : WRes) (e : List Ev), wstep nm w s op = .ok (s', r, e) ∧ (∀ x ∈ e, x.isHook = true) ∧
      Deviceless p g s' ∧ s'.replay = stampStep s.replay op := by
  have hens : ∀ c, Deviceless p g (ensureInit nm w s c).1 ∧ (ensureInit nm w s c).1.replay = s.replay := fun c => by
    obtain ⟨i1, i2, i3, i4, i5, i6, i7, i8, i9, i10⟩ := ensureInit_spec nm w hr c
    exact ⟨h.congr i7 i5 i6, i9⟩
  cases op with
  | init c => exact ⟨_, _, _, rfl, ensureInit_hooks hr c, (hens c).1, (hens c).2⟩
  | log p' c t => cases t <;> simp [WOp.msg] at hm
  | str p' c t => simp [WOp.msg] at hm
  | buf p' c t => simp [WOp.msg] at hm
  | setLevel c l =>
    exact ⟨_, _, _, rfl, ensureInit_hooks hr c, (hens c).1.congr rfl rfl rfl, (hens c).2⟩
  | getLevel c => exact ⟨_, _, _, rfl, ensureInit_hooks hr c, (hens c).1, (hens c).2⟩
  | setTagLevel name l =>
    simp only [wstep]
    cases s.list.find? fun c => nm c == name with
    | none => exact ⟨_, _, _, rfl, by simp, h, rfl⟩
    | some c => exact ⟨_, _, _, rfl, ensureInit_hooks hr c, (hens c).1.congr rfl rfl rfl, (hens c).2⟩
  | getNames m => exact ⟨_, _, _, rfl, by simp, h, rfl⟩
  | foreach => exact ⟨_, _, _, rfl, by simp, h, rfl⟩
  | setWriter f => exact absurd rfl (hf f)
  | getWriter => exact absurd rfl hg
  | setHook k => cases k <;> exact ⟨_, _, _, rfl, by simp, h.congr rfl rfl rfl, rfl⟩
  | setDevice name =>
    cases name with
    | none => exact ⟨_, _, _, rfl, by simp, h, rfl⟩
    | some name =>
      simp only [wstep]
      split
      · exact ⟨_, _, _, rfl, by simp, h, rfl⟩
      split
      · exact ⟨_, _, _, rfl, by simp, h.congr rfl rfl rfl, rfl⟩
      split
      · exact ⟨_, _, _, rfl, by simp, h.congr rfl rfl rfl, rfl⟩
      · have hfd := h.1
        rw [hfd]
        exact ⟨_, _, _, rfl, by simp, ⟨rfl, .inl rfl⟩, rfl⟩
  | replay a b => exact ⟨_, _, _, rfl, by simp, h.congr rfl rfl rfl, rfl⟩

theorem other_none {p : Platform} {nm : Cid → Bytes} {w : World} {s : Lib} {u : List Cid} (hr : RegInv s u)
    (h : Deviceless p w.getenv s) (ho : ∀ path, w.openDev path = none) {op : WOp} (hf : ∀ f, op ≠ .setWriter f)
    (hm : op.msg = none) :
    ∃ (s' : Lib) (r : WRes) (e : List Ev), stepOn p nm w s op = .ok (s', r, e.map .ev) ∧
      (∀ x ∈ e, x.isHook = true) ∧ RegInv s' (addTag u op) ∧
      Deviceless p w.getenv s' ∧ s'.replay = stampStep s.replay op := by
  by_cases hg : op = .getWriter
  · subst hg
    simp only [stepOn]
    by_cases hw : s.writer = .init
    · rw [if_pos hw]
      obtain ⟨i1, i2, i3⟩ := ctrlInitOn_none (p := p) (w := w) h.1 ho
      have hs := ctrlInitOn_same p w s
      rw [i1]
      split <;> exact ⟨_, _, [], rfl, by simp, hr.same hs, ⟨i2, .inr i3⟩, hs.replay⟩
    · rw [if_neg hw]
      split <;> exact ⟨_, _, [], rfl, by simp, hr, h, rfl⟩
  · obtain ⟨s', r, e, h1, h2, h3, h4⟩ := wstep_none (nm := nm) (w := w) hr h hf hg hm
    refine ⟨s', r, e, ?_, h2, wstep_reg hr h1, h3, h4⟩
    have : stepOn p nm w s op = (wstep nm w s op).map fun x => (x.1, x.2.1, x.2.2.map .ev) := by
      cases op with
      | log p' c t => cases t <;> simp [WOp.msg] at hm
      | str p' c t => simp [WOp.msg] at hm
      | buf p' c t => simp [WOp.msg] at hm
      | getWriter => exact absurd rfl hg
      | _ =>
        simp only [stepOn, bind, Except.bind]
        generalize wstep nm w s _ = x
        cases x <;> rfl
    rw [this, h1]; rfl

theorem msg_tag {op : WOp} {pr : UInt32} {c : Cid} {d : Option Bytes} (h : op.msg = some (pr, c, d)) :
    op.tag = some c ∧ ∀ a b, op ≠ .replay a b := by
  refine ⟨(msg_logOn (nm := fun _ => []) (w := ⟨fun _ => none, fun _ => none, true⟩) (s := Lib.start) h).2, ?_⟩
  rintro a b rfl
  simp [WOp.msg] at h

/-- The state after any calls without a device. -/
structure PInv (p : Platform) (g : Bytes → Option Bytes) (ops : List (World × WOp)) (s : Lib) : Prop where
  reg : RegInv s (used (ops.map Prod.snd))
  dev : Deviceless p g s
  stamp : s.replay = stampOf ops

/-- One call without device. -/
theorem step_none {p : Platform} {g : Bytes → Option Bytes} {nm : Cid → Bytes} {ops : List (World × WOp)} {s : Lib}
    (hi : PInv p g ops s) {w : World} {op : WOp} (hn : NoDevice g [(w, op)]) :
    ∃ (s' : Lib) (r : WRes) (e1 : List Ev), PInv p g (ops ++ [(w, op)]) s' ∧ (∀ x ∈ e1, x.isHook = true) ∧
      stepOn p nm w s op = (outcome p g nm w s (stampOf ops) op).map fun e2 => (s', r, e1.map .ev ++ e2) := by
  obtain ⟨hg, ho, hf⟩ := hn (w, op) (by simp)
  simp only at hg ho hf
  subst hg
  unfold outcome
  cases hm : op.msg with
  | none =>
    obtain ⟨s', r, e, h1, h2, h3, h4, h5⟩ := other_none (nm := nm) hi.reg hi.dev ho hf hm
    refine ⟨s', r, e, ⟨?_, h4, ?_⟩, h2, ?_⟩
    · rw [List.map_append, List.map_singleton, used_snoc]; exact h3
    · rw [h5, stampOf, List.foldl_append, ← stampOf, ← hi.stamp]; rfl
    · rw [h1]; simp [Except.map]
  | some x =>
    obtain ⟨pr, c, d⟩ := x
    obtain ⟨s', h1, h2, h3⟩ := logOnP_none (nm := nm) hi.reg hi.dev ho pr c d
    have ht := msg_tag hm
    have hr := ensureInit_spec nm w hi.reg c
    refine ⟨s', .unit, (ensureInit nm w s c).2, ⟨?_, h2, ?_⟩, ensureInit_hooks hi.reg c, ?_⟩
    · rw [List.map_append, List.map_singleton, used_snoc]
      unfold addTag
      rw [ht.1]
      exact hr.1.same h1
    · rw [h1.replay, hr.2.2.2.2.2.2.2.2.1, hi.stamp, stampOf, stampOf, List.foldl_append]
      cases op <;> first | rfl | exact absurd rfl (ht.2 _ _)
    · rw [msg_logOnP hm, h3, hi.stamp]

theorem pinv_start (p : Platform) (g : Bytes → Option Bytes) : PInv p g [] Lib.start :=
  ⟨start_reg, ⟨rfl, .inl rfl⟩, rfl⟩

theorem runOn_cons {p : Platform} {nm : Cid → Bytes} {s s2 : Lib} {w : World} {op : WOp} {l : List (World × WOp)}
    {tr : List (WRes × List PEv)} (h : runOn p nm s ((w, op) :: l) = .ok (s2, tr)) :
    ∃ s1 r e tr', stepOn p nm w s op = .ok (s1, r, e) ∧ runOn p nm s1 l = .ok (s2, tr') ∧ tr = (r, e) :: tr' := by
  simp only [runOn, bind, Except.bind] at h
  cases hx : stepOn p nm w s op with
  | error z => rw [hx] at h; cases h
  | ok z =>
    obtain ⟨s1, r, e⟩ := z
    rw [hx] at h
    simp only at h
    cases hy : runOn p nm s1 l with
    | error z => rw [hy] at h; cases h
    | ok z =>
      obtain ⟨s2', tr'⟩ := z
      rw [hy] at h
      simp only [Except.ok.injEq, Prod.mk.injEq] at h
      exact ⟨s1, r, e, tr', rfl, by rw [hy, h.1], h.2.symm⟩

theorem run_none {p : Platform} {g : Bytes → Option Bytes} {nm : Cid → Bytes} : ∀ (l pre : List (World × WOp)) {s s2 : Lib}
    {tr : List (WRes × List PEv)}, PInv p g pre s → NoDevice g l → runOn p nm s l = .ok (s2, tr) → PInv p g (pre ++ l) s2 := by
  intro l
  induction l with
  | nil =>
    intro pre s s2 tr hi _ hr
    simp only [runOn, Except.ok.injEq, Prod.mk.injEq] at hr
    rw [← hr.1]; simpa using hi
  | cons x l ih =>
    intro pre s s2 tr hi hn hr
    obtain ⟨w, op⟩ := x
    obtain ⟨s1, r, e, tr', h1, h2, _⟩ := runOn_cons hr
    obtain ⟨s', r', e1, h3, _, h4⟩ := step_none (nm := nm) (w := w) (op := op) hi (fun y hy => hn y (by simp at hy; simp [hy]))
    have : s' = s1 := by
      rw [h1] at h4
      generalize outcome p g nm w s (stampOf pre) op = y at h4
      cases y with
      | error e => cases h4
      | ok y => simp only [Except.map, Except.ok.injEq, Prod.mk.injEq] at h4; exact h4.1.symm
    subst this
    have := ih (pre ++ [(w, op)]) h3 (fun y hy => hn y (by simp [hy])) h2
    simpa using this

/-! ## C121 -/

/-- A copied line: stamp, letter, tag, text, and a newline unless the text ends with one. -/
def copyLine (stamp : Option (Nat × Nat)) (colour : Bool) (level : Nat) (tag text : Bytes) : Bytes :=
  replayed stamp ++ (if colour then colouredLetter level else letterOf level) ++ [32] ++ tag ++ [58, 32] ++ text ++
    if text.getLast? = some 10 then [] else [10]

theorem stderrLine_copy {text : Bytes} (ht : NoNul text) (stamp : Option (Nat × Nat)) (colour : Bool) (p : UInt32) (tag : Bytes) :
    stderrLine stamp colour p tag (text ++ [0]) = .ok (copyLine stamp colour (p.toNat % 8) tag text) := by
  have hc : cstr (text ++ [0]) = text := cstr_of_noNul ht []
  have hif : (if 2 ≤ (text ++ [0]).length ∧ (text ++ [0])[(text ++ [0]).length - 2]? = some 10 then ([] : Bytes)
      else [10]) = if text.getLast? = some 10 then [] else [10] := by
    by_cases h : text.getLast? = some 10
    · rw [if_pos h, if_pos ((last_two text).mpr h)]
    · rw [if_neg h, if_neg (mt (last_two text).mp h)]
  have hpt : prioTab colour (p.toNat % 8) = if colour then colouredLetter (p.toNat % 8) else letterOf (p.toNat % 8) := by
    cases colour
    · exact prioTab_plain _ (by omega)
    · exact prioTab_coloured _ (by omega)
  unfold stderrLine copyLine
  rw [if_pos (by simp), hc, hpt, hif]
  unfold replayed
  cases stamp <;> rfl

/-- Priorities of the log of Android (unknown 0, debug 3, info 4, warn 5, error 6, fatal 7) for
critical, error, warning, notice, information and debug messages. -/
def droidOf (level : Nat) : Nat :=
  (([(2, 7), (3, 6), (4, 5), (5, 4), (6, 4), (7, 3)] : List (Nat × Nat)).lookup level).getD 0

theorem droidPrio_eq : ∀ n < 8, droidPrio n = droidOf n := by decide

/-- Where a text message goes when there is no device. -/
def textGoes (p : Platform) (g : Bytes → Option Bytes) (stamp : Option (Nat × Nat)) (level : Nat) (tag text : Bytes) :
    List PEv :=
  (if p = .android then [.alog (droidOf level) tag text] else []) ++
    if p = .android ∧ g (ascii "ULOG_STDERR") = none then []
    else [.ev (.stderr (copyLine stamp (g (ascii "ULOG_STDERR_COLOR")).isSome level tag text))]

theorem told_stderr (p : Platform) (g : Bytes → Option Bytes) (stamp : Option (Nat × Nat)) (level : Nat) (tag text : Bytes) :
    told (textGoes p g stamp level tag text) = textGoes p g stamp level tag text := by
  unfold textGoes told
  cases p <;> cases g (ascii "ULOG_STDERR") <;> simp [Ev.isHook]

theorem shown_text {p : Platform} {g : Bytes → Option Bytes} {stamp : Option (Nat × Nat)} {pr : UInt32} {tag text : Bytes}
    (ht : NoNul text) : shown p g stamp pr tag (text ++ [0]) =
      .ok (if pr.toNat.testBit 7 then [] else textGoes p g stamp (pr.toNat % 8) tag text) := by
  have hc : cstr (text ++ [0]) = text := cstr_of_noNul ht []
  unfold shown textGoes
  rw [stderrLine_copy ht, hc, droidPrio_eq _ (by omega)]
  by_cases hb : pr.toNat.testBit 7 = true
  · simp [hb]
  · simp only [hb, Bool.false_eq_true, if_false, List.mem_append, List.mem_singleton, or_true, if_true]
    have hcp : copies p g ↔ ¬ (p = .android ∧ g (ascii "ULOG_STDERR") = none) := by
      unfold copies
      cases g (ascii "ULOG_STDERR") <;> simp
    by_cases hx : p = .android ∧ g (ascii "ULOG_STDERR") = none
    · rw [if_neg (fun h => hcp.1 h hx), if_pos hx]
    · rw [if_pos (hcp.2 hx), if_neg hx]

/-- C121. Without a device and without a write function of the program, after any calls: a text
message at a level not above that of its tag goes, on Android, to the log of Android, once, with
the tag, the whole text and the priority of its level; and a copy goes to stderr, on Android only
if `ULOG_STDERR` is set. A refused or binary message goes nowhere. -/
theorem C121_text {p : Platform} {g : Bytes → Option Bytes} {nm : Cid → Bytes} {ops : List (World × WOp)} {s : Lib}
    {tr : List (WRes × List PEv)} (h : runOn p nm Lib.start ops = .ok (s, tr)) {w : World} {op : WOp}
    (hn : NoDevice g (ops ++ [(w, op)])) {pr : UInt32} {c : Cid} {text : Bytes}
    (hm : op.msg = some (pr, c, some (text ++ [0]))) (ht : NoNul text) {l : Int} (hl : LevelIs nm w s c l) :
    ∃ (s' : Lib) (e : List PEv), stepOn p nm w s op = .ok (s', .unit, e) ∧
      told e = if l < (pr.toNat % 8 : Nat) ∨ pr.toNat.testBit 7 then []
        else textGoes p g (stampOf ops) (pr.toNat % 8) (nm c) text := by
  have hi := run_none ops [] (pinv_start p g) (fun x hx => hn x (by simp [hx])) h
  obtain ⟨hg, ho, hf⟩ := hn (w, op) (by simp)
  simp only at hg ho
  subst hg
  obtain ⟨s', h1, h2, h3⟩ := logOnP_none (nm := nm) hi.reg hi.dev ho pr c (some (text ++ [0]))
  rw [levelIs_iff] at hl
  rw [← hl] at h3
  rw [msg_logOnP hm, h3]
  have hs := hi.stamp
  simp only [List.nil_append] at hs
  by_cases hp : ((pr.toNat % 8 : Nat) : Int) ≤ l
  · rw [if_pos hp]
    simp only [passed]
    rw [shown_text ht, hs]
    refine ⟨s', _, rfl, ?_⟩
    rw [told_hooks (ensureInit_hooks hi.reg c)]
    by_cases hb : pr.toNat.testBit 7 = true
    · rw [if_pos hb, if_pos (.inr hb)]; rfl
    · rw [if_neg hb, if_neg (by rintro (h | h); omega; exact hb h), told_stderr]
  · rw [if_neg hp, if_pos (.inl (by omega))]
    refine ⟨s', _, rfl, ?_⟩
    rw [told_hooks (ensureInit_hooks hi.reg c)]; rfl

/-- C121. A call that logs nothing sends nothing anywhere and opens nothing; nor does a message
whose formatting fails. -/
theorem C121_quiet {p : Platform} {g : Bytes → Option Bytes} {nm : Cid → Bytes} {ops : List (World × WOp)} {s : Lib}
    {tr : List (WRes × List PEv)} (h : runOn p nm Lib.start ops = .ok (s, tr)) {w : World} {op : WOp}
    (hn : NoDevice g (ops ++ [(w, op)])) (hm : ∀ pr c d, op.msg ≠ some (pr, c, some d)) :
    ∃ (s' : Lib) (r : WRes) (e : List PEv), stepOn p nm w s op = .ok (s', r, e) ∧ told e = [] := by
  have hi := run_none ops [] (pinv_start p g) (fun x hx => hn x (by simp [hx])) h
  obtain ⟨s', r, e1, _, h2, h3⟩ := step_none (nm := nm) (w := w) (op := op) hi (fun y hy => hn y (by simp at hy; simp [hy]))
  have : outcome p g nm w s (stampOf ([] ++ ops)) op = .ok [] := by
    unfold outcome
    cases hx : op.msg with
    | none => rfl
    | some x =>
      obtain ⟨pr, c, d⟩ := x
      cases d with
      | none => simp [passed]
      | some d => exact absurd hx (hm pr c d)
  rw [this] at h3
  exact ⟨s', r, _, h3, told_hooks h2 []⟩

/-- C121. Calls whose text buffers all hold the end of a C string never go wrong. -/
theorem C121_total {p : Platform} {g : Bytes → Option Bytes} (nm : Cid → Bytes) {ops : List (World × WOp)}
    (hn : NoDevice g ops) (ht : ∀ x ∈ ops, Terminated x.2) : ∃ s tr, runOn p nm Lib.start ops = .ok (s, tr) := by
  suffices H : ∀ (l pre : List (World × WOp)) (s : Lib), PInv p g pre s → NoDevice g l → (∀ x ∈ l, Terminated x.2) →
      ∃ s' tr, runOn p nm s l = .ok (s', tr) from H ops [] Lib.start (pinv_start p g) hn ht
  intro l
  induction l with
  | nil => intro pre s _ _ _; exact ⟨s, [], rfl⟩
  | cons x l ih =>
    intro pre s hi hn ht
    obtain ⟨w, op⟩ := x
    obtain ⟨s', r, e1, h1, h2, h3⟩ := step_none (nm := nm) (w := w) (op := op) hi (fun y hy => hn y (by simp at hy; simp [hy]))
    have : ∃ e, outcome p g nm w s (stampOf pre) op = .ok e := by
      unfold outcome
      cases hx : op.msg with
      | none => exact ⟨_, rfl⟩
      | some x =>
        obtain ⟨pr, c, d⟩ := x
        simp only []
        split
        · cases d with
          | none => exact ⟨_, rfl⟩
          | some d =>
            simp only [passed, shown]
            rcases ht (w, op) (by simp) pr c d hx with hb | h0
            · exact ⟨[], by rw [if_pos hb]⟩
            · by_cases hb : pr.toNat.testBit 7 = true
              · exact ⟨[], by rw [if_pos hb]⟩
              · exact ⟨_, by rw [if_neg hb, if_pos h0]⟩
        · exact ⟨_, rfl⟩
    obtain ⟨e, he⟩ := this
    rw [he] at h3
    obtain ⟨s2, tr, h4⟩ := ih (pre ++ [(w, op)]) s' h1 (fun y hy => hn y (by simp [hy])) (fun y hy => ht y (by simp [hy]))
    refine ⟨s2, (r, e1.map .ev ++ e) :: tr, ?_⟩
    simp only [runOn, bind, Except.bind, h3, Except.map, h4]

/-- C121, order. From critical to debug, a more severe message never gets a lower priority. -/
theorem C121_severity {a b : Nat} (ha : 2 ≤ a) (hab : a ≤ b) (hb : b ≤ 7) : droidOf b ≤ droidOf a ∧ 3 ≤ droidOf b := by
  have : ∀ a < 8, ∀ b < 8, 2 ≤ a → a ≤ b → droidOf b ≤ droidOf a ∧ 3 ≤ droidOf b := by decide
  exact this a (by omega) b (by omega) ha hab

/-- C121 is false for the levels 0 and 1 (emergency, alert): such a message is accepted by every
tag and gets the priority 0, below that of a debug message. -/
theorem C121_false_low (level : Nat) (h : level < 2) : droidOf level < droidOf 7 := by
  have : ∀ l < 2, droidOf l < droidOf 7 := by decide
  exact this level h

/-- C121 is false for `ulog_log_buf` with a text that has no NUL: the buffer is read past its end,
for any such text at a level that gets through. -/
theorem C121_false_buf {p : Platform} {g : Bytes → Option Bytes} {nm : Cid → Bytes} {ops : List (World × WOp)} {s : Lib}
    {tr : List (WRes × List PEv)} (h : runOn p nm Lib.start ops = .ok (s, tr)) {w : World} {pr : UInt32} {c : Cid}
    {data : Bytes} (hn : NoDevice g (ops ++ [(w, .buf pr c data)])) {l : Int} (hl : LevelIs nm w s c l)
    (hp : (pr.toNat % 8 : Nat) ≤ l) (hb : pr.toNat.testBit 7 = false) (h0 : (0 : UInt8) ∉ data) :
    stepOn p nm w s (.buf pr c data) = .error .oob := by
  have hi := run_none ops [] (pinv_start p g) (fun x hx => hn x (by simp [hx])) h
  obtain ⟨hg, ho, hf⟩ := hn (w, .buf pr c data) (by simp)
  simp only at hg ho
  subst hg
  obtain ⟨s', h1, h2, h3⟩ := logOnP_none (nm := nm) hi.reg hi.dev ho pr c (some data)
  rw [levelIs_iff] at hl
  rw [← hl, if_pos hp] at h3
  rw [msg_logOnP (d := some data) rfl, h3]
  simp [passed, shown, hb, h0, Except.map]

end Verif.Libulog
