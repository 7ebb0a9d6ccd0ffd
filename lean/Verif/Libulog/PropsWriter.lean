import Verif.Libulog.PropsWrite

/-!
# Where messages go: stderr copy, device, descriptors, recursion (C50 - C53)
-/
namespace Verif.Libulog
open Verif

/-! ## C50 -/

/-- Level letters of the stderr copy. -/
def letterOf (level : Nat) : Bytes :=
  match ([(2, "C"), (3, "E"), (4, "W"), (5, "N"), (6, "I"), (7, "D")] : List (Nat × String)).lookup level with
  | some x => ascii x
  | none => ascii " "

/-- The text of a copied line after its time stamp, without colours. -/
def copyOf (level : Nat) (tag text : Bytes) : Bytes :=
  letterOf level ++ ascii " " ++ tag ++ ascii ": " ++ text ++ (if text.getLast? = some 10 then [] else [10])

theorem prioTab_plain : ∀ n < 8, prioTab false n = letterOf n := by decide

theorem last_two (text : Bytes) :
    (2 ≤ (text ++ [0]).length ∧ (text ++ [0])[(text ++ [0]).length - 2]? = some 10) ↔ text.getLast? = some 10 := by
  cases hl : text.length with
  | zero =>
    have : text = [] := List.length_eq_zero_iff.mp hl
    subst this; simp
  | succ n =>
    rw [List.getLast?_eq_getElem?, List.length_append, List.length_singleton, hl,
      List.getElem?_append_left (by omega)]
    simp

/-- The milliseconds of a replay time stamp are three decimal digits. -/
theorem dec3_digits : ∀ n < 1000,
    dec3 n = [UInt8.ofNat (48 + n / 100), UInt8.ofNat (48 + n / 10 % 10), UInt8.ofNat (48 + n % 10)] := by
  decide +kernel

/-- The line copied to stderr for a C string. -/
theorem stderrLine_text {text : Bytes} (ht : NoNul text) (p : UInt32) (tag : Bytes) :
    stderrLine none false p tag (text ++ [0]) = .ok (copyOf (p.toNat % 8) tag text) ∧
    ∀ sec ms rest, ms < 1000 → rest < 1000000 →
      stderrLine (some (sec, ms * 1000000 + rest)) false p tag (text ++ [0]) =
        .ok (decNat sec ++ ascii "." ++ dec3 ms ++ ascii " " ++ copyOf (p.toNat % 8) tag text) := by
  have hc : cstr (text ++ [0]) = text := cstr_of_noNul ht []
  have hp := prioTab_plain (p.toNat % 8) (by omega)
  have hif : (if 2 ≤ (text ++ [0]).length ∧ (text ++ [0])[(text ++ [0]).length - 2]? = some 10 then ([] : Bytes)
      else [10]) = if text.getLast? = some 10 then [] else [10] := by
    by_cases h : text.getLast? = some 10
    · rw [if_pos h, if_pos ((last_two text).mpr h)]
    · rw [if_neg h, if_neg (mt (last_two text).mp h)]
  constructor
  · unfold stderrLine
    rw [if_pos (by simp), hc, hp, hif]
    simp [copyOf]
  · intro sec ms rest h1 h2
    unfold stderrLine
    rw [if_pos (by simp), hc, hp, hif]
    simp only [copyOf]
    rw [show (ms * 1000000 + rest) / 1000000 = ms by omega]
    simp only [List.append_assoc]

/-- C50. With the copy to stderr in place (no colours, no replay time stamp), an
accepted text message goes to the function behind it and then appears on stderr
as one write: level letter, tag, text and a newline unless the text ends with
one. A binary message is not copied. -/
theorem C50_copy {nm : Cid → Bytes} {ops : List (World × WOp)} {s : Lib} {tr : List (WRes × List Ev)}
    (h : WRun nm ops s tr) {w : World} (hw : s.writer = .wrap false) {n : Nat} (hw2 : s.writer2 = some (.custom n))
    (hrep : s.replay = none) {p : UInt32} {c : Cid} {l : Int} (hl : LevelIs nm w s c l)
    (hp : (p.toNat % 8 : Nat) ≤ l) {text : Bytes} (ht : NoNul text) :
    ∃ s' e1, (∀ x ∈ e1, x.isHook = true) ∧ wstep nm w s (.str p c text) = .ok (s', .unit,
      e1 ++ [.custom n p c (text ++ [0])] ++
        if p.toNat.testBit 7 then [] else [.stderr (copyOf (p.toNat % 8) (nm c) text)]) := by
  have hr := h.reg
  obtain ⟨i1, i2, i3, i4, i5, i6, i7, i8, i9, i10⟩ := ensureInit_spec nm w hr c
  rw [levelIs_iff] at hl
  refine ⟨(ensureInit nm w s c).1, _, ensureInit_hooks (nm := nm) (w := w) hr c, ?_⟩
  simp only [wstep, logOn]
  rw [if_pos (by omega)]
  unfold deliver
  rw [i5, hw]
  simp only [callWriter, i6, hw2, i9, hrep, bind, Except.bind, (stderrLine_text ht p (nm c)).1]
  by_cases hb : p.toNat.testBit 7 = true
  · simp [hb]
  · simp [hb]

/-- The letter with its colour: an escape sequence with the numbers of ECMA-48 before the
letter (7 inverse, 1 bold, 31 to 36 colours) and one that ends it. -/
def colouredLetter (level : Nat) : Bytes :=
  match ([(2, 7, 31), (3, 1, 31), (4, 1, 33), (5, 1, 32), (6, 1, 35), (7, 1, 36)] : List (Nat × Nat × Nat)).lookup level with
  | some (a, b) => [27, 91] ++ decNat a ++ [59] ++ decNat b ++ [109] ++ letterOf level ++ [27, 91, 48, 109]
  | none => letterOf level

theorem prioTab_coloured : ∀ n < 8, prioTab true n = colouredLetter n := by decide +kernel

/-- What precedes a copied line while messages are replayed: seconds and milliseconds. -/
def replayed : Option (Nat × Nat) → Bytes
  | none => []
  | some (sec, nsec) => decNat sec ++ ascii "." ++ dec3 (nsec / 1000000) ++ ascii " "

/-- C50. The same with colours and a replay time stamp: the copied line is the stamp, the
letter, coloured or not, the tag, the text and a newline unless the text ends with one. -/
theorem C50_coloured {nm : Cid → Bytes} {ops : List (World × WOp)} {s : Lib} {tr : List (WRes × List Ev)}
    (h : WRun nm ops s tr) {w : World} {color : Bool} (hw : s.writer = .wrap color) {n : Nat} (hw2 : s.writer2 = some (.custom n))
    {p : UInt32} {c : Cid} {l : Int} (hl : LevelIs nm w s c l)
    (hp : (p.toNat % 8 : Nat) ≤ l) {text : Bytes} (ht : NoNul text) :
    ∃ s' e1, (∀ x ∈ e1, x.isHook = true) ∧ wstep nm w s (.str p c text) = .ok (s', .unit,
      e1 ++ [.custom n p c (text ++ [0])] ++
        if p.toNat.testBit 7 then [] else
          [.stderr (replayed s.replay ++ (if color then colouredLetter (p.toNat % 8) else letterOf (p.toNat % 8)) ++ [32] ++ nm c ++ [58, 32] ++ text ++
            if text.getLast? = some 10 then [] else [10])]) := by
  have hr := h.reg
  obtain ⟨i1, i2, i3, i4, i5, i6, i7, i8, i9, i10⟩ := ensureInit_spec nm w hr c
  rw [levelIs_iff] at hl
  have hline : stderrLine s.replay color p (nm c) (text ++ [0]) =
      .ok (replayed s.replay ++ (if color then colouredLetter (p.toNat % 8) else letterOf (p.toNat % 8)) ++ [32] ++ nm c ++ [58, 32] ++ text ++
        if text.getLast? = some 10 then [] else [10]) := by
    have hc : cstr (text ++ [0]) = text := cstr_of_noNul ht []
    have hif : (if 2 ≤ (text ++ [0]).length ∧ (text ++ [0])[(text ++ [0]).length - 2]? = some 10 then ([] : Bytes)
        else [10]) = if text.getLast? = some 10 then [] else [10] := by
      by_cases h : text.getLast? = some 10
      · rw [if_pos h, if_pos ((last_two text).mpr h)]
      · rw [if_neg h, if_neg (mt (last_two text).mp h)]
    have hpt : prioTab color (p.toNat % 8) = if color then colouredLetter (p.toNat % 8) else letterOf (p.toNat % 8) := by
      cases color
      · exact prioTab_plain _ (by omega)
      · exact prioTab_coloured _ (by omega)
    unfold stderrLine
    rw [if_pos (by simp), hc, hpt, hif]
    unfold replayed
    cases s.replay <;> rfl
  refine ⟨(ensureInit nm w s c).1, _, ensureInit_hooks (nm := nm) (w := w) hr c, ?_⟩
  simp only [wstep, logOn]
  rw [if_pos (by omega)]
  unfold deliver
  rw [i5, hw]
  simp only [callWriter, i6, hw2, i9, bind, Except.bind, hline]
  by_cases hb : p.toNat.testBit 7 = true
  · simp [hb]
  · simp [hb]

example : (stderrLine (some (12, 34567890)) true 3 (ascii "tag") (ascii "x\n\x00")).toOption =
    some (ascii "12.034 \x1b[1;31mE\x1b[0m tag: x\n") := by decide +kernel

example : (stderrLine none false 0x104 (ascii "tag") (ascii "hello\x00")).toOption = some (ascii "W tag: hello\n") ∧
    (stderrLine (some (12, 34567890)) false 3 (ascii "tag") (ascii "x\n\x00")).toOption =
      some (ascii "12.034 E tag: x\n") := by decide +kernel

/-! ## C51 -/

/-- The device asked for by the last successful `ulog_set_log_device`. -/
def devStep (d : Option Bytes) (x : World × WOp) : Option Bytes :=
  match x.2 with
  | .setDevice (some name) => if name.length ≥ 21 then d else if x.1.strdupOk then some name else none
  | _ => d

@[inherit_doc devStep]
def lastDevice (ops : List (World × WOp)) : Option Bytes := ops.foldl devStep none

theorem wstep_device {nm : Cid → Bytes} {w : World} {s s' : Lib} {u : List Cid} (h : RegInv s u) {op : WOp}
    {r : WRes} {e : List Ev} (hs : wstep nm w s op = .ok (s', r, e)) :
    s'.device = devStep s.device (w, op) := by
  cases op with
  | init c =>
    simp only [wstep, Except.ok.injEq, Prod.mk.injEq] at hs
    rw [← hs.1]; exact (ensureInit_spec nm w h c).2.2.2.2.2.2.2.2.2
  | log p c t =>
    rw [(logOn_reg (prio := p) (d := formatted t) h hs).device]
    exact (ensureInit_spec nm w h c).2.2.2.2.2.2.2.2.2
  | str p c t =>
    rw [(logOn_reg (prio := p) (d := some (t ++ [0])) h hs).device]
    exact (ensureInit_spec nm w h c).2.2.2.2.2.2.2.2.2
  | buf p c t =>
    rw [(logOn_reg (prio := p) (d := some t) h hs).device]
    exact (ensureInit_spec nm w h c).2.2.2.2.2.2.2.2.2
  | setLevel c l =>
    simp only [wstep, Except.ok.injEq, Prod.mk.injEq] at hs
    rw [← hs.1]; exact (setLevel_spec nm w h c l).2.2.2.2.2.2.2.2.2
  | getLevel c =>
    simp only [wstep, Except.ok.injEq, Prod.mk.injEq] at hs
    rw [← hs.1]; exact (ensureInit_spec nm w h c).2.2.2.2.2.2.2.2.2
  | setTagLevel name l =>
    simp only [wstep] at hs
    split at hs
    · simp only [Except.ok.injEq, Prod.mk.injEq] at hs
      rw [← hs.1]; exact (setLevel_spec nm w h _ l).2.2.2.2.2.2.2.2.2
    · simp only [Except.ok.injEq, Prod.mk.injEq] at hs
      rw [← hs.1]; rfl
  | getNames m => simp only [wstep, Except.ok.injEq, Prod.mk.injEq] at hs; rw [← hs.1]; rfl
  | foreach => simp only [wstep, Except.ok.injEq, Prod.mk.injEq] at hs; rw [← hs.1]; rfl
  | setWriter f =>
    cases f with
    | none => simp only [wstep, Except.ok.injEq, Prod.mk.injEq] at hs; rw [← hs.1]; rfl
    | some f =>
      simp only [wstep] at hs
      split at hs <;>
      · simp only [Except.ok.injEq, Prod.mk.injEq] at hs; rw [← hs.1]; rfl
  | getWriter =>
    simp only [wstep] at hs
    have hx : SameReg s (if s.writer = .init then ctrlInit w s else (s, [])).1 := by
      split
      · exact ctrlInit_same w s
      · exact .refl _
    generalize (if s.writer = .init then ctrlInit w s else (s, [])) = x at hs hx
    split at hs <;>
    · simp only [Except.ok.injEq, Prod.mk.injEq] at hs; rw [← hs.1, hx.device]; rfl
  | setHook f =>
    cases f <;>
    · simp only [wstep, Except.ok.injEq, Prod.mk.injEq] at hs; rw [← hs.1]; rfl
  | setDevice f =>
    cases f with
    | none => simp only [wstep, Except.ok.injEq, Prod.mk.injEq] at hs; rw [← hs.1]; rfl
    | some f =>
      simp only [wstep] at hs
      simp only [devStep]
      split at hs
      · rename_i h1
        simp only [Except.ok.injEq, Prod.mk.injEq] at hs; rw [← hs.1, if_pos h1]
      rename_i h1
      rw [if_neg h1]
      split at hs
      · rename_i h2
        simp only [Except.ok.injEq, Prod.mk.injEq] at hs; rw [← hs.1, if_neg (by simp [h2])]
      rename_i h2
      rw [if_pos (by simpa using h2)]
      split at hs
      · simp only [Except.ok.injEq, Prod.mk.injEq] at hs; rw [← hs.1]
      split at hs <;>
      · simp only [Except.ok.injEq, Prod.mk.injEq] at hs; rw [← hs.1]
  | replay a b => simp only [wstep, Except.ok.injEq, Prod.mk.injEq] at hs; rw [← hs.1]; rfl

theorem wrun_device {nm : Cid → Bytes} : ∀ (l : List (World × WOp)) {s s2 : Lib} {u : List Cid}
    {tr : List (WRes × List Ev)}, RegInv s u → wrun nm s l = .ok (s2, tr) →
    s2.device = l.foldl devStep s.device := by
  intro l
  induction l with
  | nil =>
    intro s s2 u tr h hr
    simp only [wrun, Except.ok.injEq, Prod.mk.injEq] at hr
    rw [← hr.1]; rfl
  | cons x l ih =>
    intro s s2 u tr h hr
    obtain ⟨w, op⟩ := x
    obtain ⟨s1, r, e, tr', h1, h2, _⟩ := wrun_cons hr
    rw [ih (wstep_reg h h1) h2, List.foldl_cons, wstep_device h h1]

theorem WRun.dev {nm : Cid → Bytes} {ops : List (World × WOp)} {s : Lib} {tr : List (WRes × List Ev)}
    (h : WRun nm ops s tr) : s.device = lastDevice ops := wrun_device ops start_reg h

theorem lastDevice_short {ops : List (World × WOp)} {name : Bytes} (h : lastDevice ops = some name) :
    name.length ≤ 20 := by
  have : ∀ (l : List (World × WOp)) (d : Option Bytes), (∀ n, d = some n → n.length ≤ 20) →
      ∀ n, l.foldl devStep d = some n → n.length ≤ 20 := by
    intro l
    induction l with
    | nil => intro d hd n hn; exact hd n hn
    | cons x l ih =>
      intro d hd n hn
      rw [List.foldl_cons] at hn
      refine ih _ ?_ n hn
      intro m hm
      unfold devStep at hm
      split at hm
      · split at hm
        · exact hd m hm
        · split at hm
          · injection hm with hm; subst hm; omega
          · cases hm
      · exact hd m hm
  exact this ops none (fun n hn => by cases hn) name h

/-- The device node messages go to; of `ULOG_DEVICE` the first 21 characters
count. -/
def nodeOf (ops : List (World × WOp)) (w : World) : Bytes :=
  match lastDevice ops with
  | some d => ascii "/dev/ulog_" ++ d
  | none =>
    match w.getenv (ascii "ULOG_DEVICE") with
    | some p => ascii "/dev/ulog_" ++ p.take 21
    | none => ascii "/dev/ulog_main"

theorem devPath_short {name : Bytes} (h : name.length ≤ 21) : devPath name = ascii "/dev/ulog_" ++ name := by
  unfold devPath
  rw [List.take_of_length_le]
  have : (ascii "/dev/ulog_").length = 10 := rfl
  rw [List.length_append, this]
  omega

theorem devPath_cut (name : Bytes) : devPath name = ascii "/dev/ulog_" ++ name.take 21 := by
  unfold devPath
  have : (ascii "/dev/ulog_").length = 10 := rfl
  rw [List.take_append, this, List.take_of_length_le (by rw [this]; omega)]

theorem devChoice_eq {nm : Cid → Bytes} {ops : List (World × WOp)} {s : Lib} {tr : List (WRes × List Ev)}
    (h : WRun nm ops s tr) {w : World} : devChoice w s = nodeOf ops w := by
  unfold devChoice nodeOf
  rw [h.dev]
  cases hd : lastDevice ops with
  | some d => exact devPath_short (by have := lastDevice_short hd; omega)
  | none =>
    cases hp : w.getenv (ascii "ULOG_DEVICE") with
    | none => rfl
    | some p => exact devPath_cut p

/-- Runs after whose last accepted device change, or start, no message was
accepted and no write function installed or queried. -/
inductive FreshRun (nm : Cid → Bytes) : List (World × WOp) → Lib → List (WRes × List Ev) → Prop
  | start : FreshRun nm [] Lib.start []
  | device {ops : List (World × WOp)} {s s1 : Lib} {tr : List (WRes × List Ev)} {w : World} {name : Bytes} {e : List Ev} :
      WRun nm ops s tr → wstep nm w s (.setDevice (some name)) = .ok (s1, .int 0, e) →
      FreshRun nm (ops ++ [(w, .setDevice (some name))]) s1 (tr ++ [(.int 0, e)])
  | quiet {ops : List (World × WOp)} {s s1 : Lib} {tr : List (WRes × List Ev)} {w : World} {op : WOp} {r : WRes}
      {e : List Ev} : FreshRun nm ops s tr → op.msg = none → op ≠ .getWriter → (∀ f, op ≠ .setWriter (some f)) →
      wstep nm w s op = .ok (s1, r, e) → FreshRun nm (ops ++ [(w, op)]) s1 (tr ++ [(r, e)])
  | refused {ops : List (World × WOp)} {s s1 : Lib} {tr : List (WRes × List Ev)} {w : World} {op : WOp} {r : WRes}
      {e : List Ev} {p : UInt32} {c : Cid} {d : Option Bytes} {l : Int} : FreshRun nm ops s tr →
      op.msg = some (p, c, d) → LevelIs nm w s c l → l < (p.toNat % 8 : Nat) →
      wstep nm w s op = .ok (s1, r, e) → FreshRun nm (ops ++ [(w, op)]) s1 (tr ++ [(r, e)])

theorem wrun_snoc {nm : Cid → Bytes} {w : World} {op : WOp} {r : WRes} {e : List Ev} :
    ∀ {ops : List (World × WOp)} {s0 s s1 : Lib} {tr : List (WRes × List Ev)}, wrun nm s0 ops = .ok (s, tr) →
      wstep nm w s op = .ok (s1, r, e) → wrun nm s0 (ops ++ [(w, op)]) = .ok (s1, tr ++ [(r, e)]) := by
  intro ops
  induction ops with
  | nil =>
    intro s0 s s1 tr h hs
    simp only [wrun, Except.ok.injEq, Prod.mk.injEq] at h
    obtain ⟨rfl, rfl⟩ := h
    simp only [List.nil_append, wrun, hs, bind, Except.bind]
  | cons x ops ih =>
    intro s0 s s1 tr h hs
    obtain ⟨w', op'⟩ := x
    obtain ⟨s', r', e', tr', h1, h2, h3⟩ := wrun_cons h
    have := ih h2 hs
    simp only [List.cons_append, wrun, h1, this, bind, Except.bind, h3]

theorem setDevice_fresh {nm : Cid → Bytes} {w : World} {s s1 : Lib} {name : Bytes} {e : List Ev}
    (h : wstep nm w s (.setDevice (some name)) = .ok (s1, .int 0, e)) : s1.writer = .init := by
  simp only [wstep] at h
  split at h
  · simp only [Except.ok.injEq, Prod.mk.injEq, WRes.int.injEq] at h
    exact absurd h.2.1 (by decide)
  split at h
  · simp only [Except.ok.injEq, Prod.mk.injEq, WRes.int.injEq] at h
    exact absurd h.2.1 (by decide)
  split at h
  · rename_i hx
    simp only [Except.ok.injEq, Prod.mk.injEq] at h
    rw [← h.1]; exact hx
  split at h <;>
  · simp only [Except.ok.injEq, Prod.mk.injEq] at h
    rw [← h.1]

theorem FreshRun.inv {nm : Cid → Bytes} {ops : List (World × WOp)} {s : Lib} {tr : List (WRes × List Ev)}
    (h : FreshRun nm ops s tr) : WRun nm ops s tr ∧ s.writer = .init := by
  induction h with
  | start => exact ⟨rfl, rfl⟩
  | device h hs => exact ⟨wrun_snoc h hs, setDevice_fresh hs⟩
  | refused _ hm hl hp hs ih =>
    obtain ⟨h, hw⟩ := ih
    refine ⟨wrun_snoc h hs, ?_⟩
    rw [levelIs_iff] at hl
    rw [(msg_logOn hm).1] at hs
    unfold logOn at hs
    dsimp only at hs
    rw [if_neg (by omega)] at hs
    simp only [Except.ok.injEq, Prod.mk.injEq] at hs
    rw [← hs.1, (ensureInit_spec nm _ h.reg _).2.2.2.2.1]; exact hw
  | @quiet ops s s1 tr w op r e _ hm hg hf hs ih =>
    obtain ⟨h, hw⟩ := ih
    refine ⟨wrun_snoc h hs, ?_⟩
    have hens : ∀ c, (ensureInit nm w s c).1.writer = .init := fun c => by
      rw [(ensureInit_spec nm w h.reg c).2.2.2.2.1]; exact hw
    have hset : ∀ c x, (setLevel nm w s c x).1.writer = .init := fun c x => by
      rw [(setLevel_spec nm w h.reg c x).2.2.2.2.1]; exact hw
    cases op with
    | init d => simp only [wstep, Except.ok.injEq, Prod.mk.injEq] at hs; rw [← hs.1]; exact hens d
    | getLevel d => simp only [wstep, Except.ok.injEq, Prod.mk.injEq] at hs; rw [← hs.1]; exact hens d
    | log p d t => cases t <;> cases hm
    | str p d t => cases hm
    | buf p d t => cases hm
    | setLevel d x => simp only [wstep, Except.ok.injEq, Prod.mk.injEq] at hs; rw [← hs.1]; exact hset d x
    | setTagLevel name x =>
      simp only [wstep] at hs
      split at hs
      · simp only [Except.ok.injEq, Prod.mk.injEq] at hs; rw [← hs.1]; exact hset _ x
      · simp only [Except.ok.injEq, Prod.mk.injEq] at hs; rw [← hs.1]; exact hw
    | getNames m => simp only [wstep, Except.ok.injEq, Prod.mk.injEq] at hs; rw [← hs.1]; exact hw
    | foreach => simp only [wstep, Except.ok.injEq, Prod.mk.injEq] at hs; rw [← hs.1]; exact hw
    | setWriter f =>
      cases f with
      | none => simp only [wstep, Except.ok.injEq, Prod.mk.injEq] at hs; rw [← hs.1]; exact hw
      | some f => exact absurd rfl (hf f)
    | getWriter => exact absurd rfl hg
    | setHook f =>
      cases f <;>
      · simp only [wstep, Except.ok.injEq, Prod.mk.injEq] at hs; rw [← hs.1]; exact hw
    | setDevice f =>
      cases f with
      | none => simp only [wstep, Except.ok.injEq, Prod.mk.injEq] at hs; rw [← hs.1]; exact hw
      | some f =>
        simp only [wstep] at hs
        split at hs
        · simp only [Except.ok.injEq, Prod.mk.injEq] at hs; rw [← hs.1]; exact hw
        split at hs
        · simp only [Except.ok.injEq, Prod.mk.injEq] at hs; rw [← hs.1]; exact hw
        · simp only [Except.ok.injEq, Prod.mk.injEq] at hs; rw [← hs.1]; exact hw
    | replay a b => simp only [wstep, Except.ok.injEq, Prod.mk.injEq] at hs; rw [← hs.1]; exact hw

/-- C51. The first accepted message after the start or after a device change,
when the node can be opened and no copy on stderr is asked for, opens the node of
the device set by call, else named by `ULOG_DEVICE` (its first 21 characters),
else `ulog_main`, and writes priority, tag and bytes to it. -/
theorem C51_device {nm : Cid → Bytes} {ops : List (World × WOp)} {s : Lib} {tr : List (WRes × List Ev)}
    (hx : FreshRun nm ops s tr) {w : World} (hst : w.stderr = false)
    {fd : Nat} (hfd : w.openDev (nodeOf ops w) = some fd)
    {op : WOp} {p : UInt32} {c : Cid} {d : Bytes} (hm : op.msg = some (p, c, some d)) {l : Int}
    (hl : LevelIs nm w s c l) (hp : (p.toNat % 8 : Nat) ≤ l) :
    ∃ s' e1, (∀ x ∈ e1, x.isHook = true) ∧ wstep nm w s op = .ok (s', .unit,
      e1 ++ [.opened fd, .writev (some fd) [le32 p, nm c ++ [0], d]]) := by
  obtain ⟨h, hw⟩ := hx.inv
  have hr := h.reg
  obtain ⟨i1, i2, i3, i4, i5, i6, i7, i8, i9, i10⟩ := ensureInit_spec nm w hr c
  rw [levelIs_iff] at hl
  have hch : devChoice w (ensureInit nm w s c).1 = nodeOf ops w := by
    have := devChoice_eq h (w := w)
    unfold devChoice at this ⊢
    rw [i10]; exact this
  have hci : ctrlInit w (ensureInit nm w s c).1 =
      ({ (ensureInit nm w s c).1 with fd := some fd, writer := .kernel }, [.opened fd]) := by
    unfold World.stderr at hst
    simp only [ctrlInit, hch, hfd, Option.isSome_some, if_true, hst]
    rw [if_neg (by simp)]
    rfl
  rw [(msg_logOn hm).1]
  refine ⟨{ (ensureInit nm w s c).1 with fd := some fd, writer := .kernel }, _, ensureInit_hooks (nm := nm) (w := w) hr c, ?_⟩
  simp only [logOn]
  rw [if_pos (by omega)]
  unfold deliver
  rw [i5, hw]
  simp only [callWriter, i5, hw, if_true, hci, bind, Except.bind, writerKernel]
  rfl

/-- C51. When that node cannot be opened, the message is printed on stderr only
(unless it is binary). -/
theorem C51_no_device {nm : Cid → Bytes} {ops : List (World × WOp)} {s : Lib} {tr : List (WRes × List Ev)}
    (hx : FreshRun nm ops s tr) {w : World} (hfd : w.openDev (nodeOf ops w) = none)
    {p : UInt32} {c : Cid} {l : Int} (hl : LevelIs nm w s c l) (hp : (p.toNat % 8 : Nat) ≤ l)
    {text : Bytes} (ht : NoNul text) (hrep : s.replay = none) (hcol : w.getenv (ascii "ULOG_STDERR_COLOR") = none) :
    ∃ s' e1, (∀ x ∈ e1, x.isHook = true) ∧ wstep nm w s (.str p c text) = .ok (s', .unit,
      e1 ++ if p.toNat.testBit 7 then [] else [.stderr (copyOf (p.toNat % 8) (nm c) text)]) := by
  obtain ⟨h, hw⟩ := hx.inv
  have hr := h.reg
  obtain ⟨i1, i2, i3, i4, i5, i6, i7, i8, i9, i10⟩ := ensureInit_spec nm w hr c
  rw [levelIs_iff] at hl
  have hch : devChoice w (ensureInit nm w s c).1 = nodeOf ops w := by
    have := devChoice_eq h (w := w)
    unfold devChoice at this ⊢
    rw [i10]; exact this
  have hci : ctrlInit w (ensureInit nm w s c).1 =
      ({ (ensureInit nm w s c).1 with fd := none, writer2 := some .null, writer := .wrap false }, []) := by
    simp only [ctrlInit, hch, hfd, hcol, Option.isSome_none, Bool.false_eq_true, if_false, or_true, if_true]
    rfl
  refine ⟨{ (ensureInit nm w s c).1 with fd := none, writer2 := some .null, writer := .wrap false }, _,
    ensureInit_hooks (nm := nm) (w := w) hr c, ?_⟩
  simp only [wstep, logOn]
  rw [if_pos (by omega)]
  unfold deliver
  rw [i5, hw]
  simp only [callWriter, i5, hw, if_true, hci, bind, Except.bind, i9, hrep, (stderrLine_text ht p (nm c)).1]
  by_cases hb : p.toNat.testBit 7 = true
  · simp [hb]
  · simp [hb]

/-- C51. Calls without a function, hook or name are refused with EINVAL (22) and names of 21
bytes and more with 7; nothing changes. Without memory (12) only the device set by call is
forgotten: the same device stays open. -/
theorem C51_refused (nm : Cid → Bytes) (w : World) (s : Lib) (name : Bytes) :
    (∀ op ∈ [WOp.setWriter none, .setHook none, .setDevice none], wstep nm w s op = .ok (s, .int (-22), [])) ∧
    (21 ≤ name.length → wstep nm w s (.setDevice (some name)) = .ok (s, .int (-7), [])) ∧
    (name.length < 21 → w.strdupOk = false →
      wstep nm w s (.setDevice (some name)) = .ok ({ s with device := none }, .int (-12), [])) := by
  refine ⟨by simp [wstep], fun h => ?_, fun h hm => ?_⟩
  · simp only [wstep]; rw [if_pos h]
  · simp only [wstep]; rw [if_neg (by omega), if_pos hm]

example : 21 ≤ (ascii "abcdefghijklmnopqrstu").length ∧ (ascii "bar").length < 21 ∧
    (⟨fun _ => none, fun _ => none, false⟩ : World).strdupOk = false := by decide

/-- C51: that longer values of `ULOG_DEVICE` name their device is false: the name is cut and another
device is opened. -/
theorem C51_false : ∃ (w : World) (s : Lib) (tr : List (WRes × List Ev)),
    w.getenv (ascii "ULOG_DEVICE") = some (ascii "abcdefghijklmnopqrstuvwxyz") ∧
    w.openDev (ascii "/dev/ulog_abcdefghijklmnopqrstuvwxyz") = some 4 ∧
    w.openDev (ascii "/dev/ulog_abcdefghijklmnopqrstu") = some 5 ∧
    WRun exNames [(w, .str 3 1 (ascii "a"))] s tr ∧
    tr = [(.unit, [.opened 5, .writev (some 5) [le32 3, ascii "foo\x00", ascii "a\x00"]])] := by
  refine ⟨⟨fun v => if v = ascii "ULOG_DEVICE" then some (ascii "abcdefghijklmnopqrstuvwxyz") else none,
    fun v => if v = ascii "/dev/ulog_abcdefghijklmnopqrstuvwxyz" then some 4 else
      if v = ascii "/dev/ulog_abcdefghijklmnopqrstu" then some 5 else none, true⟩, _, _, rfl, rfl, rfl, rfl, rfl⟩

example : ∃ (w : World) (s : Lib) (tr : List (WRes × List Ev)),
    FreshRun exNames [(w, .setDevice (some (ascii "bar")))] s tr ∧ w.stderr = false ∧
    nodeOf [(w, .setDevice (some (ascii "bar")))] w = ascii "/dev/ulog_bar" ∧
    w.openDev (ascii "/dev/ulog_bar") = some 7 ∧ LevelIs exNames w s 1 6 := by
  refine ⟨⟨fun _ => none, fun v => if v = ascii "/dev/ulog_bar" then some 7 else none, true⟩, _, _,
    .device (ops := []) (tr := []) rfl rfl, rfl, rfl, rfl, _, _, rfl⟩

/-! ## C52 -/

/-- Descriptors opened and not closed. -/
def openFds (tr : List (WRes × List Ev)) : List Nat :=
  (tr.flatMap Prod.snd).foldl (fun l e => match e with
    | .opened n => n :: l
    | .closed n => l.erase n
    | _ => l) []

def fdStep (l : List Nat) (e : Ev) : List Nat :=
  match e with
  | .opened n => n :: l
  | .closed n => l.erase n
  | _ => l

/-- Calls of a program: it never passes the library's own initial function. -/
def Foreign (ops : List (World × WOp)) : Prop := ∀ x ∈ ops, x.2 ≠ .setWriter (some .init)

/-- Descriptors other than 0. -/
def others (l : List Nat) : List Nat := l.filter (· ≠ 0)

/-- Descriptors in use, 0 apart, agree with the state; before initialisation
there is none. -/
def FdInv (s : Lib) (l : List Nat) : Prop :=
  others l = others s.fd.toList ∧ (s.writer = .init → s.fd = none ∨ s.fd = some 0) ∧ s.writer2 ≠ some .init

theorem others_erase (n : Nat) (l : List Nat) : others (l.erase (n + 1)) = (others l).erase (n + 1) := by
  unfold others
  induction l with
  | nil => rfl
  | cons a l ih =>
    by_cases ha : a = n + 1
    · subst ha
      rw [List.erase_cons_head, List.filter_cons_of_pos (by simp), List.erase_cons_head]
    · rw [List.erase_cons_tail (by simpa using ha)]
      by_cases h0 : a = 0
      · rw [List.filter_cons_of_neg (by simpa using h0), List.filter_cons_of_neg (by simpa using h0), ih]
      · rw [List.filter_cons_of_pos (by simpa using h0), List.filter_cons_of_pos (by simpa using h0),
          List.erase_cons_tail (by simpa using ha), ih]

theorem hooks_fd {e : List Ev} (h : ∀ x ∈ e, x.isHook = true) (l : List Nat) : e.foldl fdStep l = l := by
  induction e generalizing l with
  | nil => rfl
  | cons a e ih =>
    have ha := h a List.mem_cons_self
    rw [List.foldl_cons]
    have : fdStep l a = l := by cases a <;> first | rfl | cases ha
    rw [this]
    exact ih (fun x hx => h x (List.mem_cons_of_mem _ hx)) l

theorem ctrlInit_fd {w : World} {s : Lib} {l : List Nat} (h : FdInv s l) (hi : s.writer = .init) :
    FdInv (ctrlInit w s).1 ((ctrlInit w s).2.foldl fdStep l) ∧ (ctrlInit w s).1.writer ≠ .init ∧
      (ctrlInit w s).1.writer2 ≠ some .init := by
  obtain ⟨h1, h3, h4⟩ := h
  have h5 : others l = [] := by
    rw [h1]
    rcases h3 hi with hx | hx <;> rw [hx] <;> rfl
  unfold ctrlInit
  generalize devChoice w s = path at *
  generalize hfd : w.openDev path = fd at *
  cases fd with
  | none =>
    simp only [Option.isSome_none, Bool.false_eq_true, if_false, or_true, if_true]
    exact ⟨⟨h5, fun _ => Or.inl rfl, by simp⟩, by simp, by simp⟩
  | some n =>
    have h6 : others (n :: l) = others [n] := by
      have h5' : l.filter (fun x => decide (x ≠ 0)) = [] := h5
      unfold others
      rw [List.filter_cons, List.filter_cons, h5']
      rfl
    simp only [Option.isSome_some, if_true]
    split
    · exact ⟨⟨h6, (fun hx => by cases hx), by simp⟩, by simp, by simp⟩
    · exact ⟨⟨h6, (fun hx => by cases hx), h4⟩, by simp, h4⟩

theorem callWriter_fd {nm : Cid → Bytes} {w : World} {p : UInt32} {c : Cid}
    {d : Bytes} : ∀ {fuel : Nat} {f : Wf} {s s' : Lib} {e : List Ev} {l : List Nat}, FdInv s l →
    callWriter nm w p c d fuel f s = .ok (s', e) → FdInv s' (e.foldl fdStep l) := by
  intro fuel
  induction fuel with
  | zero => intro f s s' e l _ h; cases h
  | succ fuel ih =>
    intro f s s' e l hi h
    cases f with
    | null => simp only [callWriter, Except.ok.injEq, Prod.mk.injEq] at h; rw [← h.1, ← h.2]; exact hi
    | custom n => simp only [callWriter, Except.ok.injEq, Prod.mk.injEq] at h; rw [← h.1, ← h.2]; exact hi
    | kernel => simp only [callWriter, Except.ok.injEq, Prod.mk.injEq] at h; rw [← h.1, ← h.2]; exact hi
    | init =>
      simp only [callWriter] at h
      have hs : FdInv (if s.writer = .init then ctrlInit w s else (s, [])).1
          ((if s.writer = .init then ctrlInit w s else (s, [])).2.foldl fdStep l) := by
        split
        · rename_i hw; exact (ctrlInit_fd hi hw).1
        · exact hi
      generalize (if s.writer = .init then ctrlInit w s else (s, [])) = x at h hs
      simp only [bind, Except.bind] at h
      cases hx : callWriter nm w p c d fuel x.1.writer x.1 with
      | error z => rw [hx] at h; cases h
      | ok z =>
        obtain ⟨z1, z2⟩ := z
        rw [hx] at h
        simp only [Except.ok.injEq, Prod.mk.injEq] at h
        rw [← h.1, ← h.2, List.foldl_append]
        exact ih hs hx
    | wrap color =>
      simp only [callWriter] at h
      cases hg : s.writer2 with
      | none => rw [hg] at h; cases h
      | some g =>
        rw [hg] at h
        simp only [bind, Except.bind] at h
        cases hx : callWriter nm w p c d fuel g s with
        | error z => rw [hx] at h; cases h
        | ok z =>
          obtain ⟨z1, z2⟩ := z
          rw [hx] at h
          simp only at h
          split at h
          · simp only [Except.ok.injEq, Prod.mk.injEq] at h; rw [← h.1, ← h.2]; exact ih hi hx
          · cases hl : stderrLine z1.replay color p (nm c) d with
            | error y => rw [hl] at h; cases h
            | ok y =>
              rw [hl] at h
              simp only [Except.ok.injEq, Prod.mk.injEq] at h
              rw [← h.1, ← h.2, List.foldl_append]
              have := ih hi hx
              exact this

theorem FdInv.congr {s s' : Lib} {l : List Nat} (h : FdInv s l) (h1 : s'.fd = s.fd) (h2 : s'.writer = s.writer)
    (h3 : s'.writer2 = s.writer2) : FdInv s' l := by
  unfold FdInv at *
  rw [h1, h2, h3]; exact h

theorem wstep_fd {nm : Cid → Bytes} {w : World} {s s' : Lib} {u : List Cid} (hr : RegInv s u) {l : List Nat}
    (h : FdInv s l) {op : WOp} (hf : op ≠ .setWriter (some .init))
    {r : WRes} {e : List Ev} (hs : wstep nm w s op = .ok (s', r, e)) : FdInv s' (e.foldl fdStep l) := by
  have hens : ∀ c, FdInv (ensureInit nm w s c).1 ((ensureInit nm w s c).2.foldl fdStep l) := by
    intro c
    obtain ⟨i1, i2, i3, i4, i5, i6, i7, i8, i9, i10⟩ := ensureInit_spec nm w hr c
    rw [hooks_fd (ensureInit_hooks hr c)]
    exact h.congr i7 i5 i6
  have hset : ∀ c x, FdInv (setLevel nm w s c x).1 ((setLevel nm w s c x).2.foldl fdStep l) := by
    intro c x
    obtain ⟨i1, i2, i3, i4, i5, i6, i7, i8, i9, i10⟩ := setLevel_spec nm w hr c x
    rw [i4, hooks_fd (ensureInit_hooks hr c)]
    exact h.congr i7 i5 i6
  have hlog : ∀ p d x, logOn nm w s p d x = .ok (s', r, e) → FdInv s' (e.foldl fdStep l) := by
    intro p d x hx
    unfold logOn at hx
    dsimp only at hx
    split at hx
    · cases x with
      | none => simp only [Except.ok.injEq, Prod.mk.injEq] at hx; rw [← hx.1, ← hx.2.2]; exact hens d
      | some x =>
        simp only [bind, Except.bind] at hx
        cases hy : deliver nm w (ensureInit nm w s d).1 p d x with
        | error z => rw [hy] at hx; cases hx
        | ok z =>
          rw [hy] at hx
          simp only [Except.ok.injEq, Prod.mk.injEq] at hx
          rw [← hx.1, ← hx.2.2, List.foldl_append]
          exact callWriter_fd (hens d) hy
    · simp only [Except.ok.injEq, Prod.mk.injEq] at hx; rw [← hx.1, ← hx.2.2]; exact hens d
  cases op with
  | init d => simp only [wstep, Except.ok.injEq, Prod.mk.injEq] at hs; rw [← hs.1, ← hs.2.2]; exact hens d
  | getLevel d => simp only [wstep, Except.ok.injEq, Prod.mk.injEq] at hs; rw [← hs.1, ← hs.2.2]; exact hens d
  | log p d t => exact hlog _ _ _ hs
  | str p d t => exact hlog p d (some (t ++ [0])) hs
  | buf p d t => exact hlog p d (some t) hs
  | setLevel d x => simp only [wstep, Except.ok.injEq, Prod.mk.injEq] at hs; rw [← hs.1, ← hs.2.2]; exact hset d x
  | setTagLevel name x =>
    simp only [wstep] at hs
    split at hs
    · simp only [Except.ok.injEq, Prod.mk.injEq] at hs; rw [← hs.1, ← hs.2.2]; exact hset _ x
    · simp only [Except.ok.injEq, Prod.mk.injEq] at hs; rw [← hs.1, ← hs.2.2]; exact h
  | getNames m => simp only [wstep, Except.ok.injEq, Prod.mk.injEq] at hs; rw [← hs.1, ← hs.2.2]; exact h
  | foreach => simp only [wstep, Except.ok.injEq, Prod.mk.injEq] at hs; rw [← hs.1, ← hs.2.2]; exact h
  | setWriter f =>
    cases f with
    | none => simp only [wstep, Except.ok.injEq, Prod.mk.injEq] at hs; rw [← hs.1, ← hs.2.2]; exact h
    | some f =>
      have hfi : f ≠ .init := fun hx => hf (by rw [hx])
      obtain ⟨h1, h3, h4⟩ := h
      simp only [wstep] at hs
      split at hs
      · simp only [Except.ok.injEq, Prod.mk.injEq] at hs
        rw [← hs.1, ← hs.2.2]
        exact ⟨h1, (fun hx => by cases hx), by simpa using hfi⟩
      · simp only [Except.ok.injEq, Prod.mk.injEq] at hs
        rw [← hs.1, ← hs.2.2]
        exact ⟨h1, fun hx => absurd hx hfi, h4⟩
  | getWriter =>
    simp only [wstep] at hs
    have hx : FdInv (if s.writer = .init then ctrlInit w s else (s, [])).1
        ((if s.writer = .init then ctrlInit w s else (s, [])).2.foldl fdStep l) := by
      split
      · rename_i hw; exact (ctrlInit_fd h hw).1
      · exact h
    generalize (if s.writer = .init then ctrlInit w s else (s, [])) = x at hs hx
    split at hs <;>
    · simp only [Except.ok.injEq, Prod.mk.injEq] at hs; rw [← hs.1, ← hs.2.2]; exact hx
  | setHook f =>
    cases f <;>
    · simp only [wstep, Except.ok.injEq, Prod.mk.injEq] at hs; rw [← hs.1, ← hs.2.2]; exact h.congr rfl rfl rfl
  | setDevice f =>
    cases f with
    | none => simp only [wstep, Except.ok.injEq, Prod.mk.injEq] at hs; rw [← hs.1, ← hs.2.2]; exact h
    | some f =>
      simp only [wstep] at hs
      split at hs
      · simp only [Except.ok.injEq, Prod.mk.injEq] at hs; rw [← hs.1, ← hs.2.2]; exact h
      split at hs
      · simp only [Except.ok.injEq, Prod.mk.injEq] at hs; rw [← hs.1, ← hs.2.2]; exact h.congr rfl rfl rfl
      split at hs
      · simp only [Except.ok.injEq, Prod.mk.injEq] at hs; rw [← hs.1, ← hs.2.2]; exact h.congr rfl rfl rfl
      obtain ⟨h1, h3, h4⟩ := h
      split at hs
      · rename_i n hn
        simp only [Except.ok.injEq, Prod.mk.injEq] at hs
        rw [← hs.1, ← hs.2.2]
        refine ⟨?_, fun _ => Or.inl rfl, h4⟩
        show others (l.erase (n + 1)) = _
        rw [others_erase, h1, hn]
        simp [others]
      · rename_i hn
        simp only [Except.ok.injEq, Prod.mk.injEq] at hs
        rw [← hs.1, ← hs.2.2]
        refine ⟨h1, fun _ => ?_, h4⟩
        show s.fd = none ∨ s.fd = some 0
        cases hfd : s.fd with
        | none => exact Or.inl rfl
        | some n =>
          cases n with
          | zero => exact Or.inr rfl
          | succ n => exact absurd hfd (hn n)
  | replay a b =>
    simp only [wstep, Except.ok.injEq, Prod.mk.injEq] at hs; rw [← hs.1, ← hs.2.2]; exact h.congr rfl rfl rfl

theorem wrun_fd {nm : Cid → Bytes} : ∀ (ops : List (World × WOp)) {s s2 : Lib} {u : List Cid} {l : List Nat}
    {tr : List (WRes × List Ev)}, RegInv s u → FdInv s l → Foreign ops → wrun nm s ops = .ok (s2, tr) →
    FdInv s2 ((tr.flatMap Prod.snd).foldl fdStep l) := by
  intro ops
  induction ops with
  | nil =>
    intro s s2 u l tr _ h _ hr
    simp only [wrun, Except.ok.injEq, Prod.mk.injEq] at hr
    rw [← hr.1, ← hr.2]; exact h
  | cons x ops ih =>
    intro s s2 u l tr hreg h hf hr
    obtain ⟨w, op⟩ := x
    obtain ⟨s1, r, e, tr', h1, h2, h3⟩ := wrun_cons hr
    have hx := hf (w, op) List.mem_cons_self
    rw [h3, List.flatMap_cons, List.foldl_append]
    exact ih (wstep_reg hreg h1) (wstep_fd hreg h hx h1) (fun y hy => hf y (List.mem_cons_of_mem _ hy)) h2

/-- Events no call has in the environment `w`. -/
structure Absent (w : World) (bad : Ev) : Prop where
  hook : bad.isHook = false
  writev : ∀ a b, bad ≠ .writev a b
  custom : ∀ a b c d, bad ≠ .custom a b c d
  stderr : ∀ a, bad ≠ .stderr a
  closed : ∀ n, bad ≠ .closed (n + 1)
  opened : ∀ path, ∀ n, w.openDev path = some n → bad ≠ .opened n

theorem ctrlInit_evs (w : World) (s : Lib) : (ctrlInit w s).2 = (w.openDev (devChoice w s)).toList.map Ev.opened := by
  unfold ctrlInit
  dsimp only
  rw [apply_ite Prod.snd, ite_self]

theorem wstep_absent {nm : Cid → Bytes} {w : World} {bad : Ev} (hq : Absent w bad) {s s' : Lib} {u : List Cid}
    (hr : RegInv s u) {op : WOp}
    {r : WRes} {e : List Ev} (hs : wstep nm w s op = .ok (s', r, e)) : bad ∉ e := by
  have hk : ∀ x : List Ev, (∀ y ∈ x, y.isHook = true) → bad ∉ x := by
    intro x hx h
    have := hx _ h
    rw [hq.hook] at this
    cases this
  have hens : ∀ c, bad ∉ (ensureInit nm w s c).2 := fun c => hk _ (ensureInit_hooks hr c)
  have hset : ∀ c x, bad ∉ (setLevel nm w s c x).2 := fun c x => by
    rw [(setLevel_spec nm w hr c x).2.2.2.1]; exact hens c
  have hci : ∀ x : Lib, bad ∉ (ctrlInit w x).2 := by
    intro x
    rw [ctrlInit_evs]
    have ho := hq.opened (devChoice w x)
    cases hx : w.openDev (devChoice w x) with
    | none => simp
    | some n => simp [ho n hx]
  have hif : ∀ x : Lib, bad ∉ (if x.writer = .init then ctrlInit w x else (x, [])).2 := by
    intro x
    split
    · exact hci x
    · simp
  have hcall : ∀ (fuel : Nat) (f : Wf) (p : UInt32) (c : Cid) (d : Bytes) (x x' : Lib) (e : List Ev),
      callWriter nm w p c d fuel f x = .ok (x', e) → bad ∉ e := by
    intro fuel
    induction fuel with
    | zero => intro f p c d x x' e h; cases h
    | succ fuel ih =>
      intro f p c d x x' e h
      cases f with
      | null => simp only [callWriter, Except.ok.injEq, Prod.mk.injEq] at h; rw [← h.2]; simp
      | custom n => simp only [callWriter, Except.ok.injEq, Prod.mk.injEq] at h; rw [← h.2]; simp [hq.custom]
      | kernel => simp only [callWriter, Except.ok.injEq, Prod.mk.injEq] at h; rw [← h.2]; simp [hq.writev]
      | init =>
        simp only [callWriter] at h
        have h1 := hif x
        generalize (if x.writer = .init then ctrlInit w x else (x, [])) = y at h h1
        simp only [bind, Except.bind] at h
        cases hx : callWriter nm w p c d fuel y.1.writer y.1 with
        | error z => rw [hx] at h; cases h
        | ok z =>
          obtain ⟨z1, z2⟩ := z
          rw [hx] at h
          simp only [Except.ok.injEq, Prod.mk.injEq] at h
          rw [← h.2]
          intro hm
          rcases List.mem_append.mp hm with hm | hm
          · exact h1 hm
          · exact ih _ _ _ _ _ _ _ hx hm
      | wrap color =>
        simp only [callWriter] at h
        cases hg : x.writer2 with
        | none => rw [hg] at h; cases h
        | some g =>
          rw [hg] at h
          simp only [bind, Except.bind] at h
          cases hx : callWriter nm w p c d fuel g x with
          | error z => rw [hx] at h; cases h
          | ok z =>
            obtain ⟨z1, z2⟩ := z
            rw [hx] at h
            simp only at h
            split at h
            · simp only [Except.ok.injEq, Prod.mk.injEq] at h; rw [← h.2]; exact ih _ _ _ _ _ _ _ hx
            · cases hl : stderrLine z1.replay color p (nm c) d with
              | error y => rw [hl] at h; cases h
              | ok y =>
                rw [hl] at h
                simp only [Except.ok.injEq, Prod.mk.injEq] at h
                rw [← h.2]
                have := ih _ _ _ _ _ _ _ hx
                simp [hq.stderr, this]
  have hlog : ∀ p d x, logOn nm w s p d x = .ok (s', r, e) → bad ∉ e := by
    intro p d x hx
    unfold logOn at hx
    dsimp only at hx
    split at hx
    · cases x with
      | none => simp only [Except.ok.injEq, Prod.mk.injEq] at hx; rw [← hx.2.2]; exact hens d
      | some x =>
        simp only [bind, Except.bind] at hx
        cases hy : deliver nm w (ensureInit nm w s d).1 p d x with
        | error z => rw [hy] at hx; cases hx
        | ok z =>
          rw [hy] at hx
          simp only [Except.ok.injEq, Prod.mk.injEq] at hx
          rw [← hx.2.2]
          intro hm
          rcases List.mem_append.mp hm with hm | hm
          · exact hens d hm
          · exact hcall _ _ _ _ _ _ _ _ hy hm
    · simp only [Except.ok.injEq, Prod.mk.injEq] at hx; rw [← hx.2.2]; exact hens d
  cases op with
  | init d => simp only [wstep, Except.ok.injEq, Prod.mk.injEq] at hs; rw [← hs.2.2]; exact hens d
  | getLevel d => simp only [wstep, Except.ok.injEq, Prod.mk.injEq] at hs; rw [← hs.2.2]; exact hens d
  | log p d t => exact hlog _ _ _ hs
  | str p d t => exact hlog p d (some (t ++ [0])) hs
  | buf p d t => exact hlog p d (some t) hs
  | setLevel d x => simp only [wstep, Except.ok.injEq, Prod.mk.injEq] at hs; rw [← hs.2.2]; exact hset d x
  | setTagLevel name x =>
    simp only [wstep] at hs
    split at hs
    · simp only [Except.ok.injEq, Prod.mk.injEq] at hs; rw [← hs.2.2]; exact hset _ x
    · simp only [Except.ok.injEq, Prod.mk.injEq] at hs; rw [← hs.2.2]; simp
  | getNames m => simp only [wstep, Except.ok.injEq, Prod.mk.injEq] at hs; rw [← hs.2.2]; simp
  | foreach => simp only [wstep, Except.ok.injEq, Prod.mk.injEq] at hs; rw [← hs.2.2]; simp
  | setWriter f =>
    cases f with
    | none => simp only [wstep, Except.ok.injEq, Prod.mk.injEq] at hs; rw [← hs.2.2]; simp
    | some f =>
      simp only [wstep] at hs
      split at hs <;>
      · simp only [Except.ok.injEq, Prod.mk.injEq] at hs; rw [← hs.2.2]; simp
  | getWriter =>
    simp only [wstep] at hs
    have h1 := hif s
    generalize (if s.writer = .init then ctrlInit w s else (s, [])) = x at hs h1
    split at hs <;>
    · simp only [Except.ok.injEq, Prod.mk.injEq] at hs; rw [← hs.2.2]; exact h1
  | setHook f =>
    cases f <;>
    · simp only [wstep, Except.ok.injEq, Prod.mk.injEq] at hs; rw [← hs.2.2]; simp
  | setDevice f =>
    cases f with
    | none => simp only [wstep, Except.ok.injEq, Prod.mk.injEq] at hs; rw [← hs.2.2]; simp
    | some f =>
      simp only [wstep] at hs
      split at hs
      · simp only [Except.ok.injEq, Prod.mk.injEq] at hs; rw [← hs.2.2]; simp
      split at hs
      · simp only [Except.ok.injEq, Prod.mk.injEq] at hs; rw [← hs.2.2]; simp
      split at hs
      · simp only [Except.ok.injEq, Prod.mk.injEq] at hs; rw [← hs.2.2]; simp
      split at hs <;>
      · simp only [Except.ok.injEq, Prod.mk.injEq] at hs; rw [← hs.2.2]; simp [hq.closed]
  | replay a b => simp only [wstep, Except.ok.injEq, Prod.mk.injEq] at hs; rw [← hs.2.2]; simp

theorem wrun_absent {nm : Cid → Bytes} {bad : Ev} : ∀ (ops : List (World × WOp)) {s s2 : Lib} {u : List Cid}
    {tr : List (WRes × List Ev)}, (∀ x ∈ ops, Absent x.1 bad) → RegInv s u → wrun nm s ops = .ok (s2, tr) →
    bad ∉ tr.flatMap Prod.snd := by
  intro ops
  induction ops with
  | nil =>
    intro s s2 u tr _ _ hr
    simp only [wrun, Except.ok.injEq, Prod.mk.injEq] at hr
    rw [← hr.2]; simp
  | cons x ops ih =>
    intro s s2 u tr hq hreg hr
    obtain ⟨w, op⟩ := x
    obtain ⟨s1, r, e, tr', h1, h2, h3⟩ := wrun_cons hr
    rw [h3, List.flatMap_cons]
    intro hm
    rcases List.mem_append.mp hm with hm | hm
    · exact wstep_absent (hq _ List.mem_cons_self) hreg h1 hm
    · exact ih (fun y hy => hq y (List.mem_cons_of_mem _ hy)) (wstep_reg hreg h1) h2 hm

/-- C52. At any time the library has at most one descriptor other than 0 open;
descriptor 0, whenever `open` returned it, stays open for ever. So at most one
descriptor is open if `open` never returned 0, as when standard input is open. -/
theorem C52_descriptors {nm : Cid → Bytes} {ops : List (World × WOp)} {s : Lib} {tr : List (WRes × List Ev)}
    (h : WRun nm ops s tr) (hf : Foreign ops) :
    (others (openFds tr)).length ≤ 1 ∧ (openFds tr).count 0 = (tr.flatMap Prod.snd).count (.opened 0) ∧
    ((∀ x ∈ ops, ∀ path, x.1.openDev path ≠ some 0) → (openFds tr).length ≤ 1) := by
  have h0 : FdInv Lib.start [] := ⟨rfl, fun _ => Or.inl rfl, by simp [Lib.start]⟩
  have h1 := (wrun_fd ops start_reg h0 hf h).1
  have heq : openFds tr = (tr.flatMap Prod.snd).foldl fdStep [] := rfl
  rw [← heq] at h1
  have h2 : (others (openFds tr)).length ≤ 1 := by
    rw [h1]
    unfold others
    refine Nat.le_trans (List.length_filter_le _ _) ?_
    cases s.fd <;> simp
  have key : ∀ (es : List Ev) (l : List Nat), Ev.closed 0 ∉ es →
      (es.foldl fdStep l).count 0 = l.count 0 + es.count (.opened 0) := by
    intro es
    induction es with
    | nil => intro l _; rfl
    | cons x es ih =>
      intro l hx
      have hx' : Ev.closed 0 ∉ es := fun hm => hx (List.mem_cons_of_mem _ hm)
      rw [List.foldl_cons, ih _ hx']
      cases x with
      | opened n =>
        show (n :: l).count 0 + _ = _
        rw [List.count_cons, List.count_cons]
        by_cases hn : n = 0
        · subst hn; simp; omega
        · simp [hn]
      | closed n =>
        have hn : n ≠ 0 := fun hn => hx (by rw [hn]; exact List.mem_cons_self)
        show (l.erase n).count 0 + _ = _
        rw [List.count_erase_of_ne (by omega), List.count_cons]; simp
      | writev a b => rw [List.count_cons]; simp [fdStep]
      | custom a b c d => rw [List.count_cons]; simp [fdStep]
      | stderr a => rw [List.count_cons]; simp [fdStep]
      | hook a b => rw [List.count_cons]; simp [fdStep]
  have h3 : (openFds tr).count 0 = (tr.flatMap Prod.snd).count (.opened 0) := by
    rw [heq, key _ _ (wrun_absent ops (fun x _ => ⟨rfl, by simp, by simp, by simp, by simp, by simp⟩) start_reg h)]; simp
  refine ⟨h2, h3, fun hz => ?_⟩
  have h4 : Ev.opened 0 ∉ tr.flatMap Prod.snd := by
    refine wrun_absent ops (fun x hx => ⟨rfl, by simp, by simp, by simp, by simp, ?_⟩) start_reg h
    rintro path n hn e
    injection e with e
    subst e
    exact hz x hx path hn
  have h5 : 0 ∉ openFds tr := by
    rw [← List.count_eq_zero, h3, List.count_eq_zero]; exact h4
  have h6 : others (openFds tr) = openFds tr := by
    unfold others
    rw [List.filter_eq_self]
    intro a ha
    have : a ≠ 0 := fun e => h5 (e ▸ ha)
    simpa using this
  rw [← h6]; exact h2

/-- C52 is false when `open` returns descriptor 0: it stays open after a device
change. -/
theorem C52_false : ∃ (w w' : World) (s : Lib) (tr : List (WRes × List Ev)),
    WRun exNames [(w, .str 3 1 (ascii "a")), (w, .setDevice (some (ascii "bar"))), (w', .str 3 1 (ascii "b"))] s tr ∧
    openFds tr = [3, 0] :=
  ⟨⟨fun _ => none, fun _ => some 0, true⟩, ⟨fun _ => none, fun _ => some 3, true⟩, _, _, rfl, rfl⟩

example : ∃ (w : World) (s : Lib) (tr : List (WRes × List Ev)),
    WRun exNames [(w, .str 3 1 (ascii "a")), (w, .setDevice (some (ascii "bar"))), (w, .str 3 1 (ascii "b"))] s tr ∧
    Foreign [(w, .str 3 1 (ascii "a")), (w, .setDevice (some (ascii "bar"))), (w, .str 3 1 (ascii "b"))] ∧
    openFds tr = [3] :=
  ⟨⟨fun _ => none, fun _ => some 3, true⟩, _, _, rfl, by
    intro x hx
    simp at hx
    rcases hx with rfl | rfl | rfl <;> simp, rfl⟩

/-! ## C53 -/

/-- Write functions handed out so far. -/
def gotStep (r : WRes) (got : List Wf) : List Wf :=
  match r with
  | .wf (some f) => f :: got
  | _ => got

/-- Runs in an environment where `ULOG_STDERR` stays set or stays unset, by a
program that installs only functions of its own or functions it got from
`ulog_get_write_func` earlier; `got` are those. -/
inductive HonestRun (nm : Cid → Bytes) (b : Bool) : Lib → List Wf → Prop
  | start : HonestRun nm b Lib.start []
  | step {s s' : Lib} {got : List Wf} {w : World} {op : WOp} {r : WRes} {e : List Ev} : HonestRun nm b s got →
      w.stderr = b → (∀ f, op = .setWriter (some f) → (∃ n, f = .custom n) ∨ f ∈ got) →
      wstep nm w s op = .ok (s', r, e) →
      HonestRun nm b s' (gotStep r got)

/-- A function that calls no other. -/
def Wf.base : Wf → Bool
  | .null | .kernel | .custom _ => true
  | _ => false

/-- State of the write functions in an honest run. -/
def ChainOk (b : Bool) (s : Lib) (got : List Wf) : Prop :=
  if b then
    (s.writer = .init ∨ ∃ color g, s.writer = .wrap color ∧ s.writer2 = some g) ∧
    (∀ g, s.writer2 = some g → g.base = true) ∧ ∀ f ∈ got, f.base = true
  else
    (s.writer2 = none ∨ s.writer2 = some .null) ∧
    (∀ color, s.writer = .wrap color → s.writer2 = some .null) ∧
    (∀ f ∈ got, f ≠ .init ∧ ∀ color, f = .wrap color → s.writer2 = some .null)

theorem ChainOk.congr {b : Bool} {s s' : Lib} {got : List Wf} (h : ChainOk b s got) (h1 : s'.writer = s.writer)
    (h2 : s'.writer2 = s.writer2) : ChainOk b s' got := by
  unfold ChainOk at *
  rw [h1, h2]; exact h

theorem ctrlInit_chain {b : Bool} {w : World} (hb : w.stderr = b) {s : Lib} {got : List Wf} (h : ChainOk b s got) :
    ChainOk b (ctrlInit w s).1 got ∧ (ctrlInit w s).1.writer ≠ .init ∧
      (b = true → ∃ g, (ctrlInit w s).1.writer2 = some g) := by
  unfold World.stderr at hb
  unfold ctrlInit
  rw [hb]
  generalize w.openDev (devChoice w s) = fd
  dsimp only
  cases b with
  | true =>
    simp only [true_or, if_true]
    unfold ChainOk at h ⊢
    rw [if_pos rfl] at h ⊢
    refine ⟨⟨Or.inr ⟨_, _, rfl, rfl⟩, ?_, h.2.2⟩, by simp, fun _ => ⟨_, rfl⟩⟩
    intro g hg
    injection hg with hg
    rw [← hg]
    split <;> rfl
  | false =>
    unfold ChainOk at h ⊢
    rw [if_neg (by simp)] at h ⊢
    cases fd with
    | none =>
      rw [if_pos (by simp)]
      exact ⟨⟨Or.inr rfl, fun _ _ => rfl, fun f hf => ⟨(h.2.2 f hf).1, fun _ _ => rfl⟩⟩, by simp, (fun hx => by cases hx)⟩
    | some n =>
      simp only [Option.isSome_some, if_true]
      rw [if_neg (by simp)]
      exact ⟨⟨h.1, (fun _ hx => by cases hx), h.2.2⟩, by simp, (fun hx => by cases hx)⟩

theorem callWriter_base {nm : Cid → Bytes} {w : World} {p : UInt32} {c : Cid} {d : Bytes} {g : Wf} {s : Lib}
    (hg : g.base = true) (fuel : Nat) : ∃ e, callWriter nm w p c d (fuel + 1) g s = .ok (s, e) := by
  cases g with
  | null => exact ⟨_, rfl⟩
  | kernel => exact ⟨_, rfl⟩
  | custom n => exact ⟨_, rfl⟩
  | init => cases hg
  | wrap c => cases hg

theorem callWriter_wrap {nm : Cid → Bytes} {w : World} {p : UInt32} {c : Cid} {d : Bytes} {color : Bool} {g : Wf}
    {s : Lib} (h2 : s.writer2 = some g) (hg : g.base = true) (hd : 0 ∈ d) (fuel : Nat) :
    ∃ e, callWriter nm w p c d (fuel + 2) (.wrap color) s = .ok (s, e) := by
  obtain ⟨e, he⟩ := callWriter_base (nm := nm) (w := w) (p := p) (c := c) (d := d) (s := s) hg fuel
  simp only [callWriter, h2, he, bind, Except.bind]
  split
  · exact ⟨_, rfl⟩
  · unfold stderrLine
    rw [if_pos hd]
    exact ⟨_, rfl⟩

/-- Delivery in an honest state neither recurses nor calls NULL. -/
theorem deliver_chain {nm : Cid → Bytes} {b : Bool} {w : World} (hb : w.stderr = b) {s : Lib} {got : List Wf}
    (h : ChainOk b s got) (p : UInt32) (c : Cid) {d : Bytes} (hd : 0 ∈ d) :
    ∃ s' e, deliver nm w s p c d = .ok (s', e) ∧ ChainOk b s' got := by
  have main : ∀ {s : Lib}, ChainOk b s got → s.writer ≠ .init → ∀ fuel,
      ∃ e, callWriter nm w p c d (fuel + 2) s.writer s = .ok (s, e) := by
    intro s h hi fuel
    unfold ChainOk at h
    cases b with
    | true =>
      rw [if_pos rfl] at h
      rcases h.1 with hx | ⟨color, g, hw, h2⟩
      · exact absurd hx hi
      · rw [hw]; exact callWriter_wrap h2 (h.2.1 g h2) hd fuel
    | false =>
      rw [if_neg (by simp)] at h
      cases hw : s.writer with
      | init => exact absurd hw hi
      | wrap color => exact callWriter_wrap (h.2.1 color hw) rfl hd fuel
      | null => exact callWriter_base rfl _
      | kernel => exact callWriter_base rfl _
      | custom n => exact callWriter_base rfl _
  unfold deliver
  by_cases hi : s.writer = .init
  · obtain ⟨hc, hc', _⟩ := ctrlInit_chain hb h
    obtain ⟨e, he⟩ := main hc hc' 1
    rw [hi]
    simp only [callWriter, hi, if_true, bind, Except.bind]
    rw [show (3 : Nat) = 1 + 2 from rfl, he]
    exact ⟨_, _, rfl, hc⟩
  · obtain ⟨e, he⟩ := main h hi 2
    exact ⟨s, e, he, h⟩

theorem deliver_chain' {nm : Cid → Bytes} {b : Bool} {w : World} (hb : w.stderr = b) {s s' : Lib} {got : List Wf}
    (h : ChainOk b s got) {p : UInt32} {c : Cid} {d : Bytes} {e : List Ev}
    (hs : deliver nm w s p c d = .ok (s', e)) : ChainOk b s' got := by
  -- the state after a delivery is that after the initialisation
  have key : ∀ {fuel : Nat} {f : Wf} {s s' : Lib} {e : List Ev}, ChainOk b s got →
      callWriter nm w p c d fuel f s = .ok (s', e) → ChainOk b s' got := by
    intro fuel
    induction fuel with
    | zero => intro f s s' e _ h; cases h
    | succ fuel ih =>
      intro f s s' e hc h
      cases f with
      | null => simp only [callWriter, Except.ok.injEq, Prod.mk.injEq] at h; rw [← h.1]; exact hc
      | custom n => simp only [callWriter, Except.ok.injEq, Prod.mk.injEq] at h; rw [← h.1]; exact hc
      | kernel => simp only [callWriter, Except.ok.injEq, Prod.mk.injEq] at h; rw [← h.1]; exact hc
      | init =>
        simp only [callWriter] at h
        have hs : ChainOk b (if s.writer = .init then ctrlInit w s else (s, [])).1 got := by
          split
          · exact (ctrlInit_chain hb hc).1
          · exact hc
        generalize (if s.writer = .init then ctrlInit w s else (s, [])) = x at h hs
        simp only [bind, Except.bind] at h
        cases hx : callWriter nm w p c d fuel x.1.writer x.1 with
        | error z => rw [hx] at h; cases h
        | ok z =>
          obtain ⟨z1, z2⟩ := z
          rw [hx] at h
          simp only [Except.ok.injEq, Prod.mk.injEq] at h
          rw [← h.1]
          exact ih hs hx
      | wrap color =>
        simp only [callWriter] at h
        cases hg : s.writer2 with
        | none => rw [hg] at h; cases h
        | some g =>
          rw [hg] at h
          simp only [bind, Except.bind] at h
          cases hx : callWriter nm w p c d fuel g s with
          | error z => rw [hx] at h; cases h
          | ok z =>
            obtain ⟨z1, z2⟩ := z
            rw [hx] at h
            simp only at h
            split at h
            · simp only [Except.ok.injEq, Prod.mk.injEq] at h; rw [← h.1]; exact ih hc hx
            · cases hl : stderrLine z1.replay color p (nm c) d with
              | error y => rw [hl] at h; cases h
              | ok y =>
                rw [hl] at h
                simp only [Except.ok.injEq, Prod.mk.injEq] at h; rw [← h.1]; exact ih hc hx
  exact key h hs

theorem wstep_chain {nm : Cid → Bytes} {b : Bool} {w : World} (hb : w.stderr = b) {s s' : Lib} {u : List Cid}
    (hr : RegInv s u) {got : List Wf} (h : ChainOk b s got) {op : WOp}
    (hf : ∀ f, op = .setWriter (some f) → (∃ n, f = .custom n) ∨ f ∈ got) {r : WRes} {e : List Ev}
    (hs : wstep nm w s op = .ok (s', r, e)) : ChainOk b s' (gotStep r got) := by
  have hens : ∀ c, ChainOk b (ensureInit nm w s c).1 got := fun c =>
    h.congr (ensureInit_spec nm w hr c).2.2.2.2.1 (ensureInit_spec nm w hr c).2.2.2.2.2.1
  have hset : ∀ c x, ChainOk b (setLevel nm w s c x).1 got := fun c x =>
    h.congr (setLevel_spec nm w hr c x).2.2.2.2.1 (setLevel_spec nm w hr c x).2.2.2.2.2.1
  have hlog : ∀ p d x, logOn nm w s p d x = .ok (s', r, e) → r = .unit ∧ ChainOk b s' got := by
    intro p d x hx
    unfold logOn at hx
    dsimp only at hx
    split at hx
    · cases x with
      | none => simp only [Except.ok.injEq, Prod.mk.injEq] at hx; rw [← hx.1]; exact ⟨hx.2.1.symm, hens d⟩
      | some x =>
        simp only [bind, Except.bind] at hx
        cases hy : deliver nm w (ensureInit nm w s d).1 p d x with
        | error z => rw [hy] at hx; cases hx
        | ok z =>
          rw [hy] at hx
          simp only [Except.ok.injEq, Prod.mk.injEq] at hx
          rw [← hx.1]
          exact ⟨hx.2.1.symm, deliver_chain' hb (hens d) hy⟩
    · simp only [Except.ok.injEq, Prod.mk.injEq] at hx; rw [← hx.1]; exact ⟨hx.2.1.symm, hens d⟩
  cases op with
  | init d => simp only [wstep, Except.ok.injEq, Prod.mk.injEq] at hs; rw [← hs.1, ← hs.2.1]; exact hens d
  | getLevel d => simp only [wstep, Except.ok.injEq, Prod.mk.injEq] at hs; rw [← hs.1, ← hs.2.1]; exact hens d
  | log p d t => obtain ⟨h1, h2⟩ := hlog _ _ _ hs; rw [h1]; exact h2
  | str p d t => obtain ⟨h1, h2⟩ := hlog p d (some (t ++ [0])) hs; rw [h1]; exact h2
  | buf p d t => obtain ⟨h1, h2⟩ := hlog p d (some t) hs; rw [h1]; exact h2
  | setLevel d x => simp only [wstep, Except.ok.injEq, Prod.mk.injEq] at hs; rw [← hs.1, ← hs.2.1]; exact hset d x
  | setTagLevel name x =>
    simp only [wstep] at hs
    split at hs
    · simp only [Except.ok.injEq, Prod.mk.injEq] at hs; rw [← hs.1, ← hs.2.1]; exact hset _ x
    · simp only [Except.ok.injEq, Prod.mk.injEq] at hs; rw [← hs.1, ← hs.2.1]; exact h
  | getNames m => simp only [wstep, Except.ok.injEq, Prod.mk.injEq] at hs; rw [← hs.1, ← hs.2.1]; exact h
  | foreach => simp only [wstep, Except.ok.injEq, Prod.mk.injEq] at hs; rw [← hs.1, ← hs.2.1]; exact h
  | setWriter f =>
    cases f with
    | none => simp only [wstep, Except.ok.injEq, Prod.mk.injEq] at hs; rw [← hs.1, ← hs.2.1]; exact h
    | some f =>
      have hf' := hf f rfl
      have hb' : (w.getenv (ascii "ULOG_STDERR")).isSome = b := hb
      simp only [wstep, hb'] at hs
      unfold ChainOk at h
      cases b with
      | true =>
        rw [if_pos rfl] at hs h
        simp only [Except.ok.injEq, Prod.mk.injEq] at hs
        rw [← hs.1, ← hs.2.1]
        unfold ChainOk
        rw [if_pos rfl]
        refine ⟨Or.inr ⟨_, _, rfl, rfl⟩, ?_, h.2.2⟩
        intro g hg
        injection hg with hg
        subst hg
        rcases hf' with ⟨n, rfl⟩ | hf'
        · rfl
        · exact h.2.2 _ hf'
      | false =>
        rw [if_neg (by simp)] at hs h
        simp only [Except.ok.injEq, Prod.mk.injEq] at hs
        rw [← hs.1, ← hs.2.1]
        unfold ChainOk
        rw [if_neg (by simp)]
        refine ⟨h.1, ?_, h.2.2⟩
        intro color hc
        dsimp only at hc
        rcases hf' with ⟨n, rfl⟩ | hf'
        · cases hc
        · exact (h.2.2 f hf').2 color hc
  | getWriter =>
    have hb' : (w.getenv (ascii "ULOG_STDERR")).isSome = b := hb
    simp only [wstep, hb'] at hs
    have hx : ChainOk b (if s.writer = .init then ctrlInit w s else (s, [])).1 got ∧
        (if s.writer = .init then ctrlInit w s else (s, [])).1.writer ≠ .init := by
      split
      · exact ⟨(ctrlInit_chain hb h).1, (ctrlInit_chain hb h).2.1⟩
      · rename_i hw; exact ⟨h, hw⟩
    generalize (if s.writer = .init then ctrlInit w s else (s, [])) = x at hs hx
    obtain ⟨hx, hxi⟩ := hx
    cases b with
    | true =>
      rw [if_pos rfl] at hs
      simp only [Except.ok.injEq, Prod.mk.injEq] at hs
      rw [← hs.1, ← hs.2.1]
      cases h2 : x.1.writer2 with
      | none => exact hx
      | some g =>
        unfold ChainOk at hx ⊢
        rw [if_pos rfl] at hx ⊢
        refine ⟨hx.1, hx.2.1, ?_⟩
        intro f hf
        rcases List.mem_cons.mp hf with rfl | hf
        · exact hx.2.1 f h2
        · exact hx.2.2 f hf
    | false =>
      rw [if_neg (by simp)] at hs
      simp only [Except.ok.injEq, Prod.mk.injEq] at hs
      rw [← hs.1, ← hs.2.1]
      unfold ChainOk at hx ⊢
      rw [if_neg (by simp)] at hx ⊢
      refine ⟨hx.1, hx.2.1, ?_⟩
      intro f hf
      rcases List.mem_cons.mp hf with rfl | hf
      · exact ⟨hxi, hx.2.1⟩
      · exact hx.2.2 f hf
  | setHook f =>
    cases f <;>
    · simp only [wstep, Except.ok.injEq, Prod.mk.injEq] at hs; rw [← hs.1, ← hs.2.1]; exact h.congr rfl rfl
  | setDevice f =>
    have hinit : ∀ s'' : Lib, s''.writer = .init → s''.writer2 = s.writer2 → ChainOk b s'' got := by
      intro s'' h1 h2
      unfold ChainOk at h ⊢
      rw [h1, h2]
      cases b with
      | true => rw [if_pos rfl] at h ⊢; exact ⟨Or.inl rfl, h.2⟩
      | false => rw [if_neg (by simp)] at h ⊢; exact ⟨h.1, (fun _ hx => by cases hx), h.2.2⟩
    cases f with
    | none => simp only [wstep, Except.ok.injEq, Prod.mk.injEq] at hs; rw [← hs.1, ← hs.2.1]; exact h
    | some f =>
      simp only [wstep] at hs
      split at hs
      · simp only [Except.ok.injEq, Prod.mk.injEq] at hs; rw [← hs.1, ← hs.2.1]; exact h
      split at hs
      · simp only [Except.ok.injEq, Prod.mk.injEq] at hs; rw [← hs.1, ← hs.2.1]; exact h.congr rfl rfl
      split at hs
      · simp only [Except.ok.injEq, Prod.mk.injEq] at hs; rw [← hs.1, ← hs.2.1]; exact h.congr rfl rfl
      split at hs <;>
      · simp only [Except.ok.injEq, Prod.mk.injEq] at hs; rw [← hs.1, ← hs.2.1]; exact hinit _ rfl rfl
  | replay a b => simp only [wstep, Except.ok.injEq, Prod.mk.injEq] at hs; rw [← hs.1, ← hs.2.1]; exact h.congr rfl rfl

theorem HonestRun.inv {nm : Cid → Bytes} {b : Bool} {s : Lib} {got : List Wf} (h : HonestRun nm b s got) :
    ChainOk b s got ∧ ∃ u, RegInv s u := by
  induction h with
  | start =>
    refine ⟨?_, _, start_reg⟩
    unfold ChainOk
    cases b with
    | true => rw [if_pos rfl]; exact ⟨Or.inl rfl, by simp [Lib.start], by simp⟩
    | false => rw [if_neg (by simp)]; exact ⟨Or.inl rfl, by simp [Lib.start], by simp⟩
  | step _ hb hf hs ih =>
    obtain ⟨h1, u, h2⟩ := ih
    exact ⟨wstep_chain hb h2 h1 hf hs, _, wstep_reg h2 hs⟩

/-- C53, stable environment: for a program that installs its
own functions or functions it queried, logging a C string always returns: no
endless recursion, no call of NULL. For changing environments see
`C53_careful`. -/
theorem C53_stable {nm : Cid → Bytes} {b : Bool} {s : Lib} {got : List Wf} (h : HonestRun nm b s got)
    {w : World} (hb : w.stderr = b) {op : WOp} {p : UInt32} {c : Cid} {d : Option Bytes}
    (hm : op.msg = some (p, c, d)) (hd : ∀ x, d = some x → 0 ∈ x) :
    ∃ s' e, wstep nm w s op = .ok (s', .unit, e) := by
  obtain ⟨hc, u, hr⟩ := h.inv
  rw [(msg_logOn hm).1]
  unfold logOn
  dsimp only
  split
  · cases d with
    | none => exact ⟨_, _, rfl⟩
    | some d =>
      obtain ⟨s', e, he, _⟩ := deliver_chain (nm := nm) hb (hc.congr (ensureInit_spec nm w hr c).2.2.2.2.1
        (ensureInit_spec nm w hr c).2.2.2.2.2.1) p c (hd d rfl)
      simp only [bind, Except.bind, he]
      exact ⟨_, _, rfl⟩
  · exact ⟨_, _, rfl⟩

/-- C53. The library never hands out its internal initial function, and with
`ULOG_STDERR` set never its stderr copy. -/
theorem C53_query {nm : Cid → Bytes} {b : Bool} {s : Lib} {got : List Wf} (h : HonestRun nm b s got) :
    ∀ f ∈ got, f ≠ .init ∧ (b = true → ∀ color, f ≠ .wrap color) := by
  intro f hf
  have hc := h.inv.1
  unfold ChainOk at hc
  cases b with
  | true =>
    rw [if_pos rfl] at hc
    have := hc.2.2 f hf
    exact ⟨(fun hx => by subst hx; cases this), fun _ _ hx => by subst hx; cases this⟩
  | false =>
    rw [if_neg (by simp)] at hc
    exact ⟨(hc.2.2 f hf).1, (fun hx => by cases hx)⟩

/-! ### Changing environments -/

/-- Runs in any environments, by a program that installs only functions of its
own or functions it got from `ulog_get_write_func` earlier, except for the
stderr copy while `ULOG_STDERR` is set. -/
inductive CarefulRun (nm : Cid → Bytes) : Lib → List Wf → Prop
  | start : CarefulRun nm Lib.start []
  | step {s s' : Lib} {got : List Wf} {w : World} {op : WOp} {r : WRes} {e : List Ev} : CarefulRun nm s got →
      (∀ f, op = .setWriter (some f) →
        (∃ n, f = .custom n) ∨ f ∈ got ∧ (w.stderr = true → ∀ color, f ≠ .wrap color)) →
      wstep nm w s op = .ok (s', r, e) →
      CarefulRun nm s' (gotStep r got)

/-- State of the write functions in a careful run. -/
structure CareOk (s : Lib) (got : List Wf) : Prop where
  wrap : ∀ color, s.writer = .wrap color → s.writer2 ≠ none
  base : ∀ g, s.writer2 = some g → g.base = true
  got : ∀ f ∈ got, f ≠ .init ∧ ∀ color, f = .wrap color → s.writer2 ≠ none

theorem CareOk.congr {s s' : Lib} {got : List Wf} (h : CareOk s got) (h1 : s'.writer = s.writer)
    (h2 : s'.writer2 = s.writer2) : CareOk s' got :=
  ⟨by rw [h1, h2]; exact h.wrap, by rw [h2]; exact h.base, by rw [h2]; exact h.got⟩

theorem ctrlInit_care {w : World} {s : Lib} {got : List Wf} (h : CareOk s got) :
    CareOk (ctrlInit w s).1 got ∧ (ctrlInit w s).1.writer ≠ .init := by
  unfold ctrlInit
  generalize w.openDev (devChoice w s) = fd
  dsimp only
  have hb : (if fd.isSome = true then Wf.kernel else Wf.null).base = true := by split <;> rfl
  generalize hg : (if fd.isSome = true then Wf.kernel else Wf.null) = g at hb ⊢
  split
  · refine ⟨⟨fun _ _ => by simp, ?_, fun f hf => ⟨(h.got f hf).1, fun _ _ => by simp⟩⟩, by simp⟩
    intro g' hg'
    injection hg' with hg'
    rw [← hg']; exact hb
  · refine ⟨⟨?_, h.base, h.got⟩, ?_⟩
    · intro color hc
      dsimp only at hc
      rw [hc] at hb; cases hb
    · intro hc
      dsimp only at hc
      rw [hc] at hb; cases hb

theorem ctrlIf_care {w : World} {s : Lib} {got : List Wf} (h : CareOk s got) :
    CareOk (if s.writer = .init then ctrlInit w s else (s, [])).1 got ∧
      (if s.writer = .init then ctrlInit w s else (s, [])).1.writer ≠ .init := by
  split
  · exact ctrlInit_care h
  · rename_i hw; exact ⟨h, hw⟩

/-- Delivery in a careful state neither recurses nor calls NULL. -/
theorem deliver_care {nm : Cid → Bytes} {w : World} {s : Lib} {got : List Wf}
    (h : CareOk s got) (p : UInt32) (c : Cid) {d : Bytes} (hd : 0 ∈ d) :
    ∃ s' e, deliver nm w s p c d = .ok (s', e) ∧ CareOk s' got := by
  have main : ∀ {s : Lib}, CareOk s got → s.writer ≠ .init → ∀ fuel,
      ∃ e, callWriter nm w p c d (fuel + 2) s.writer s = .ok (s, e) := by
    intro s h hi fuel
    cases hw : s.writer with
    | init => exact absurd hw hi
    | wrap color =>
      cases h2 : s.writer2 with
      | none => exact absurd h2 (h.wrap color hw)
      | some g => exact callWriter_wrap h2 (h.base g h2) hd fuel
    | null => exact callWriter_base rfl _
    | kernel => exact callWriter_base rfl _
    | custom n => exact callWriter_base rfl _
  unfold deliver
  by_cases hi : s.writer = .init
  · obtain ⟨hc, hc'⟩ := ctrlInit_care (w := w) h
    obtain ⟨e, he⟩ := main hc hc' 1
    rw [hi]
    simp only [callWriter, hi, if_true, bind, Except.bind]
    rw [show (3 : Nat) = 1 + 2 from rfl, he]
    exact ⟨_, _, rfl, hc⟩
  · obtain ⟨e, he⟩ := main h hi 2
    exact ⟨s, e, he, h⟩

theorem callWriter_care {nm : Cid → Bytes} {w : World} {got : List Wf} {p : UInt32} {c : Cid} {d : Bytes} :
    ∀ {fuel : Nat} {f : Wf} {s s' : Lib} {e : List Ev}, CareOk s got →
      callWriter nm w p c d fuel f s = .ok (s', e) → CareOk s' got := by
  intro fuel
  induction fuel with
  | zero => intro f s s' e _ h; cases h
  | succ fuel ih =>
    intro f s s' e hc h
    cases f with
    | null => simp only [callWriter, Except.ok.injEq, Prod.mk.injEq] at h; rw [← h.1]; exact hc
    | custom n => simp only [callWriter, Except.ok.injEq, Prod.mk.injEq] at h; rw [← h.1]; exact hc
    | kernel => simp only [callWriter, Except.ok.injEq, Prod.mk.injEq] at h; rw [← h.1]; exact hc
    | init =>
      simp only [callWriter] at h
      have hs := (ctrlIf_care (w := w) hc).1
      generalize (if s.writer = .init then ctrlInit w s else (s, [])) = x at h hs
      simp only [bind, Except.bind] at h
      cases hx : callWriter nm w p c d fuel x.1.writer x.1 with
      | error z => rw [hx] at h; cases h
      | ok z =>
        obtain ⟨z1, z2⟩ := z
        rw [hx] at h
        simp only [Except.ok.injEq, Prod.mk.injEq] at h
        rw [← h.1]
        exact ih hs hx
    | wrap color =>
      simp only [callWriter] at h
      cases hg : s.writer2 with
      | none => rw [hg] at h; cases h
      | some g =>
        rw [hg] at h
        simp only [bind, Except.bind] at h
        cases hx : callWriter nm w p c d fuel g s with
        | error z => rw [hx] at h; cases h
        | ok z =>
          obtain ⟨z1, z2⟩ := z
          rw [hx] at h
          simp only at h
          split at h
          · simp only [Except.ok.injEq, Prod.mk.injEq] at h; rw [← h.1]; exact ih hc hx
          · cases hl : stderrLine z1.replay color p (nm c) d with
            | error y => rw [hl] at h; cases h
            | ok y =>
              rw [hl] at h
              simp only [Except.ok.injEq, Prod.mk.injEq] at h; rw [← h.1]; exact ih hc hx

theorem wstep_care {nm : Cid → Bytes} {w : World} {s s' : Lib} {u : List Cid}
    (hr : RegInv s u) {got : List Wf} (h : CareOk s got) {op : WOp}
    (hf : ∀ f, op = .setWriter (some f) →
      (∃ n, f = .custom n) ∨ f ∈ got ∧ (w.stderr = true → ∀ color, f ≠ .wrap color)) {r : WRes} {e : List Ev}
    (hs : wstep nm w s op = .ok (s', r, e)) : CareOk s' (gotStep r got) := by
  have hens : ∀ c, CareOk (ensureInit nm w s c).1 got := fun c =>
    h.congr (ensureInit_spec nm w hr c).2.2.2.2.1 (ensureInit_spec nm w hr c).2.2.2.2.2.1
  have hset : ∀ c x, CareOk (setLevel nm w s c x).1 got := fun c x =>
    h.congr (setLevel_spec nm w hr c x).2.2.2.2.1 (setLevel_spec nm w hr c x).2.2.2.2.2.1
  have hlog : ∀ p d x, logOn nm w s p d x = .ok (s', r, e) → r = .unit ∧ CareOk s' got := by
    intro p d x hx
    unfold logOn at hx
    dsimp only at hx
    split at hx
    · cases x with
      | none => simp only [Except.ok.injEq, Prod.mk.injEq] at hx; rw [← hx.1]; exact ⟨hx.2.1.symm, hens d⟩
      | some x =>
        simp only [bind, Except.bind] at hx
        cases hy : deliver nm w (ensureInit nm w s d).1 p d x with
        | error z => rw [hy] at hx; cases hx
        | ok z =>
          rw [hy] at hx
          simp only [Except.ok.injEq, Prod.mk.injEq] at hx
          rw [← hx.1]
          exact ⟨hx.2.1.symm, callWriter_care (hens d) hy⟩
    · simp only [Except.ok.injEq, Prod.mk.injEq] at hx; rw [← hx.1]; exact ⟨hx.2.1.symm, hens d⟩
  cases op with
  | init d => simp only [wstep, Except.ok.injEq, Prod.mk.injEq] at hs; rw [← hs.1, ← hs.2.1]; exact hens d
  | getLevel d => simp only [wstep, Except.ok.injEq, Prod.mk.injEq] at hs; rw [← hs.1, ← hs.2.1]; exact hens d
  | log p d t => obtain ⟨h1, h2⟩ := hlog _ _ _ hs; rw [h1]; exact h2
  | str p d t => obtain ⟨h1, h2⟩ := hlog p d (some (t ++ [0])) hs; rw [h1]; exact h2
  | buf p d t => obtain ⟨h1, h2⟩ := hlog p d (some t) hs; rw [h1]; exact h2
  | setLevel d x => simp only [wstep, Except.ok.injEq, Prod.mk.injEq] at hs; rw [← hs.1, ← hs.2.1]; exact hset d x
  | setTagLevel name x =>
    simp only [wstep] at hs
    split at hs
    · simp only [Except.ok.injEq, Prod.mk.injEq] at hs; rw [← hs.1, ← hs.2.1]; exact hset _ x
    · simp only [Except.ok.injEq, Prod.mk.injEq] at hs; rw [← hs.1, ← hs.2.1]; exact h
  | getNames m => simp only [wstep, Except.ok.injEq, Prod.mk.injEq] at hs; rw [← hs.1, ← hs.2.1]; exact h
  | foreach => simp only [wstep, Except.ok.injEq, Prod.mk.injEq] at hs; rw [← hs.1, ← hs.2.1]; exact h
  | setWriter f =>
    cases f with
    | none => simp only [wstep, Except.ok.injEq, Prod.mk.injEq] at hs; rw [← hs.1, ← hs.2.1]; exact h
    | some f =>
      have hf' := hf f rfl
      simp only [wstep] at hs
      split at hs
      · rename_i hst
        simp only [Except.ok.injEq, Prod.mk.injEq] at hs
        rw [← hs.1, ← hs.2.1]
        refine ⟨fun _ _ => by simp, ?_, fun g hg => ⟨(h.got g hg).1, fun _ _ => by simp⟩⟩
        intro g hg
        injection hg with hg
        subst hg
        rcases hf' with ⟨n, rfl⟩ | ⟨hg, hw⟩
        · rfl
        · cases f with
          | init => exact absurd rfl (h.got _ hg).1
          | wrap color => exact absurd rfl (hw hst color)
          | null => rfl
          | kernel => rfl
          | custom n => rfl
      · simp only [Except.ok.injEq, Prod.mk.injEq] at hs
        rw [← hs.1, ← hs.2.1]
        refine ⟨?_, h.base, h.got⟩
        intro color hc
        dsimp only at hc
        rcases hf' with ⟨n, rfl⟩ | ⟨hg, _⟩
        · cases hc
        · exact (h.got f hg).2 color hc
  | getWriter =>
    simp only [wstep] at hs
    obtain ⟨hx, hxi⟩ := ctrlIf_care (w := w) h
    generalize (if s.writer = .init then ctrlInit w s else (s, [])) = x at hs hx hxi
    split at hs
    · simp only [Except.ok.injEq, Prod.mk.injEq] at hs
      rw [← hs.1, ← hs.2.1]
      cases h2 : x.1.writer2 with
      | none => exact hx
      | some g =>
        refine ⟨hx.wrap, hx.base, ?_⟩
        intro f hf
        rcases List.mem_cons.mp hf with rfl | hf
        · have := hx.base _ h2
          exact ⟨(fun e => by subst e; cases this), (fun _ e => by subst e; cases this)⟩
        · exact hx.got f hf
    · simp only [Except.ok.injEq, Prod.mk.injEq] at hs
      rw [← hs.1, ← hs.2.1]
      refine ⟨hx.wrap, hx.base, ?_⟩
      intro f hf
      rcases List.mem_cons.mp hf with rfl | hf
      · exact ⟨hxi, hx.wrap⟩
      · exact hx.got f hf
  | setHook f =>
    cases f <;>
    · simp only [wstep, Except.ok.injEq, Prod.mk.injEq] at hs; rw [← hs.1, ← hs.2.1]; exact h.congr rfl rfl
  | setDevice f =>
    have hinit : ∀ s'' : Lib, s''.writer = .init → s''.writer2 = s.writer2 → CareOk s'' got := by
      intro s'' h1 h2
      exact ⟨(fun color hx => by rw [h1] at hx; cases hx), by rw [h2]; exact h.base, by rw [h2]; exact h.got⟩
    cases f with
    | none => simp only [wstep, Except.ok.injEq, Prod.mk.injEq] at hs; rw [← hs.1, ← hs.2.1]; exact h
    | some f =>
      simp only [wstep] at hs
      split at hs
      · simp only [Except.ok.injEq, Prod.mk.injEq] at hs; rw [← hs.1, ← hs.2.1]; exact h
      split at hs
      · simp only [Except.ok.injEq, Prod.mk.injEq] at hs; rw [← hs.1, ← hs.2.1]; exact h.congr rfl rfl
      split at hs
      · simp only [Except.ok.injEq, Prod.mk.injEq] at hs; rw [← hs.1, ← hs.2.1]; exact h.congr rfl rfl
      split at hs <;>
      · simp only [Except.ok.injEq, Prod.mk.injEq] at hs; rw [← hs.1, ← hs.2.1]; exact hinit _ rfl rfl
  | replay a b => simp only [wstep, Except.ok.injEq, Prod.mk.injEq] at hs; rw [← hs.1, ← hs.2.1]; exact h.congr rfl rfl

theorem CarefulRun.inv {nm : Cid → Bytes} {s : Lib} {got : List Wf} (h : CarefulRun nm s got) :
    CareOk s got ∧ ∃ u, RegInv s u := by
  induction h with
  | start => exact ⟨⟨by simp [Lib.start], by simp [Lib.start], by simp⟩, _, start_reg⟩
  | step _ hf hs ih =>
    obtain ⟨h1, u, h2⟩ := ih
    exact ⟨wstep_care h2 h1 hf hs, _, wstep_reg h2 hs⟩

/-- C53. Whatever the environments, for a program that installs its own
functions or functions it queried, but not the stderr copy while `ULOG_STDERR`
is set, logging a C string always returns: no endless recursion, no call of
NULL. -/
theorem C53_careful {nm : Cid → Bytes} {s : Lib} {got : List Wf} (h : CarefulRun nm s got)
    (w : World) {op : WOp} {p : UInt32} {c : Cid} {d : Option Bytes}
    (hm : op.msg = some (p, c, d)) (hd : ∀ x, d = some x → 0 ∈ x) :
    ∃ s' e, wstep nm w s op = .ok (s', .unit, e) := by
  obtain ⟨hc, u, hr⟩ := h.inv
  rw [(msg_logOn hm).1]
  unfold logOn
  dsimp only
  split
  · cases d with
    | none => exact ⟨_, _, rfl⟩
    | some d =>
      obtain ⟨s', e, he, _⟩ := deliver_care (nm := nm) (w := w) (hc.congr (ensureInit_spec nm w hr c).2.2.2.2.1
        (ensureInit_spec nm w hr c).2.2.2.2.2.1) p c (hd d rfl)
      simp only [bind, Except.bind, he]
      exact ⟨_, _, rfl⟩
  · exact ⟨_, _, rfl⟩

/-- C53. The condition is needed: after the stderr copy was installed while
`ULOG_STDERR` is set, every accepted message recurses without end. -/
theorem C53_recursion (nm : Cid → Bytes) {ops : List (World × WOp)} {s s1 : Lib} {tr : List (WRes × List Ev)}
    (h : WRun nm ops s tr) {w w' : World} (hst : w.stderr = true) {color : Bool} {r : WRes} {e : List Ev}
    (hi : wstep nm w s (.setWriter (some (.wrap color))) = .ok (s1, r, e))
    {p : UInt32} {c : Cid} {d : Bytes} :
    (∀ fuel, callWriter nm w' p c d fuel s1.writer s1 = .error .recursion) ∧
    ∀ (op : WOp) (l : Int), op.msg = some (p, c, some d) → LevelIs nm w' s1 c l → (p.toNat % 8 : Nat) ≤ l →
      wstep nm w' s1 op = .error .recursion := by
  have hr1 := wstep_reg h.reg hi
  unfold World.stderr at hst
  simp only [wstep, hst, if_true, Except.ok.injEq, Prod.mk.injEq] at hi
  have h1 : s1.writer = .wrap (w.getenv (ascii "ULOG_STDERR_COLOR")).isSome := by rw [← hi.1]
  have h2 : s1.writer2 = some (.wrap color) := by rw [← hi.1]
  have key : ∀ (fuel : Nat) (col : Bool) (x : Lib), x.writer2 = some (.wrap color) →
      callWriter nm w' p c d fuel (.wrap col) x = .error .recursion := by
    intro fuel
    induction fuel with
    | zero => intro col x _; rfl
    | succ n ih =>
      intro col x hx
      simp only [callWriter, hx, ih color x hx]
      rfl
  refine ⟨fun fuel => by rw [h1]; exact key fuel _ _ h2, ?_⟩
  intro op l hm hl hp
  rw [levelIs_iff] at hl
  obtain ⟨i1, i2, i3, i4, i5, i6, i7, i8, i9, i10⟩ := ensureInit_spec nm w' hr1 c
  rw [(msg_logOn hm).1]
  unfold logOn
  dsimp only
  rw [if_pos (by omega)]
  unfold deliver
  rw [i5, h1]
  simp only [key 4 _ (ensureInit nm w' s1 c).1 (by rw [i6]; exact h2), bind, Except.bind]

/-- `ULOG_STDERR` is set, no device. -/
def stderrWorld : World :=
  { getenv := fun v => if v = ascii "ULOG_STDERR" then some (ascii "y") else none, openDev := fun _ => none
    strdupOk := true }

/-- C53 is false when `ULOG_STDERR` appears between querying and reinstalling:
the stderr copy then calls itself for ever. -/
theorem C53_false : ∃ s tr s',
    WRun exNames [(bareWorld, .getWriter)] s tr ∧ tr = [(.wf (some (.wrap false)), [])] ∧
    wstep exNames stderrWorld s (.setWriter (some (.wrap false))) = .ok (s', .int 0, []) ∧
    ∀ fuel, callWriter exNames stderrWorld 3 1 (ascii "a\x00") fuel s'.writer s' = .error .recursion := by
  refine ⟨_, _, _, rfl, rfl, rfl, ?_⟩
  intro fuel
  dsimp only
  have : ∀ (fuel : Nat) (color : Bool) (s : Lib), s.writer2 = some (.wrap false) →
      callWriter exNames stderrWorld 3 1 (ascii "a\x00") fuel (.wrap color) s = .error .recursion := by
    intro fuel
    induction fuel with
    | zero => intro color s _; rfl
    | succ n ih =>
      intro color s hs
      simp only [callWriter, hs, ih false s hs]
      rfl
  exact this fuel _ _ rfl

/-- A careful program whose environment changes: it starts without `ULOG_STDERR`,
queries the function (the stderr copy), installs its own one, and restores the
old one while the variable is still unset; then the variable appears. -/
example : ∃ s, CarefulRun exNames s [.wrap false] ∧ s.writer = .wrap false ∧ stderrWorld.stderr = true := by
  have h1 := CarefulRun.step (nm := exNames) (w := bareWorld) (op := .getWriter) .start (fun f hf => by cases hf) rfl
  have h2 := CarefulRun.step (w := bareWorld) (op := .setWriter (some (.custom 1))) h1
    (fun f hf => by injection hf with hf; injection hf with hf; exact Or.inl ⟨1, hf.symm⟩) rfl
  have h3 := CarefulRun.step (w := bareWorld) (op := .setWriter (some (.wrap false))) h2
    (fun f hf => by
      injection hf with hf; injection hf with hf; subst hf
      exact Or.inr ⟨List.mem_singleton.mpr rfl, (fun hx => by revert hx; decide)⟩) rfl
  exact ⟨_, h3, rfl, by decide⟩

/-- An honest program: it queries the function, installs its own one and then
the old one again. -/
example : ∃ s, HonestRun exNames true s [.null] ∧ s.writer = .wrap false ∧ s.writer2 = some .null := by
  have h1 := HonestRun.step (nm := exNames) (b := true) (w := stderrWorld) (op := .getWriter) .start (by decide)
    (fun f hf => by cases hf) rfl
  have h2 := HonestRun.step (w := stderrWorld) (op := .setWriter (some (.custom 1))) h1 (by decide)
    (fun f hf => by injection hf with hf; injection hf with hf; exact Or.inl ⟨1, hf.symm⟩) rfl
  have h3 := HonestRun.step (w := stderrWorld) (op := .setWriter (some .null)) h2 (by decide)
    (fun f hf => by injection hf with hf; injection hf with hf; subst hf; exact Or.inr (List.mem_singleton.mpr rfl)) rfl
  exact ⟨_, h3, rfl, rfl⟩

/-! ## C25: device changes -/

/-- No foreign function is called by a message. -/
def NoForeign (s : Lib) : Prop :=
  (∀ n, s.writer ≠ .custom n) ∧
  ∀ color, s.writer = .wrap color → s.writer2 = some .null ∨ s.writer2 = some .kernel

theorem NoForeign.congr {s s' : Lib} (h : NoForeign s) (h1 : s'.writer = s.writer) (h2 : s'.writer2 = s.writer2) :
    NoForeign s' := by
  unfold NoForeign at *
  rw [h1, h2]; exact h

theorem ctrlInit_noForeign (w : World) (s : Lib) :
    NoForeign (ctrlInit w s).1 ∧ (ctrlInit w s).1.writer ≠ .init := by
  unfold ctrlInit
  generalize w.openDev (devChoice w s) = fd
  dsimp only
  cases fd with
  | none =>
    simp only [Option.isSome_none, Bool.false_eq_true, if_false, or_true, if_true]
    exact ⟨⟨by simp, fun _ _ => Or.inl rfl⟩, by simp⟩
  | some n =>
    simp only [Option.isSome_some, if_true]
    split
    · exact ⟨⟨by simp, fun _ _ => Or.inr rfl⟩, by simp⟩
    · exact ⟨⟨by simp, (fun _ hx => by cases hx)⟩, by simp⟩

/-- Is the event a call of a foreign function? -/
def Ev.isForeign : Ev → Bool
  | .custom .. => true
  | _ => false

theorem deliver_noForeign {nm : Cid → Bytes} {w : World} {s s' : Lib} (h : NoForeign s) {p : UInt32} {c : Cid}
    {d : Bytes} {e : List Ev} (hs : deliver nm w s p c d = .ok (s', e)) :
    NoForeign s' ∧ ∀ x ∈ e, x.isForeign = false := by
  have main : ∀ {s s' : Lib} {e : List Ev}, NoForeign s → s.writer ≠ .init → ∀ fuel,
      callWriter nm w p c d (fuel + 2) s.writer s = .ok (s', e) → s' = s ∧ ∀ x ∈ e, x.isForeign = false := by
    intro s s' e h hi fuel hc
    have base : ∀ (g : Wf) (k : Nat) (x' : Lib) (e : List Ev), g = .null ∨ g = .kernel →
        callWriter nm w p c d (k + 1) g s = .ok (x', e) → x' = s ∧ ∀ x ∈ e, x.isForeign = false := by
      intro g k x' e hg hc
      rcases hg with rfl | rfl <;>
      · simp only [callWriter, Except.ok.injEq, Prod.mk.injEq] at hc
        rw [← hc.1, ← hc.2]; simp [Ev.isForeign]
    cases hw : s.writer with
    | init => exact absurd hw hi
    | custom n => exact absurd hw (h.1 n)
    | null => rw [hw] at hc; exact base _ _ _ _ (Or.inl rfl) hc
    | kernel => rw [hw] at hc; exact base _ _ _ _ (Or.inr rfl) hc
    | wrap color =>
      rw [hw] at hc
      have h2 : ∃ g, s.writer2 = some g ∧ (g = .null ∨ g = .kernel) := by
        rcases h.2 color hw with h2 | h2
        · exact ⟨_, h2, Or.inl rfl⟩
        · exact ⟨_, h2, Or.inr rfl⟩
      obtain ⟨g, h2, hg⟩ := h2
      simp only [callWriter, h2, bind, Except.bind] at hc
      cases hx : callWriter nm w p c d (fuel + 1) g s with
      | error z => rw [hx] at hc; cases hc
      | ok z =>
        obtain ⟨z1, z2⟩ := z
        obtain ⟨hz1, hz2⟩ := base _ _ _ _ hg hx
        rw [hx] at hc
        simp only at hc
        split at hc
        · simp only [Except.ok.injEq, Prod.mk.injEq] at hc
          rw [← hc.1, ← hc.2]; exact ⟨hz1, hz2⟩
        · cases hl : stderrLine z1.replay color p (nm c) d with
          | error y => rw [hl] at hc; cases hc
          | ok y =>
            rw [hl] at hc
            simp only [Except.ok.injEq, Prod.mk.injEq] at hc
            rw [← hc.1, ← hc.2]
            refine ⟨hz1, ?_⟩
            intro x hx
            rcases List.mem_append.mp hx with hx | hx
            · exact hz2 x hx
            · rw [List.mem_singleton.mp hx]; rfl
  unfold deliver at hs
  by_cases hi : s.writer = .init
  · rw [hi] at hs
    obtain ⟨hn, hn'⟩ := ctrlInit_noForeign w s
    simp only [callWriter, hi, if_true, bind, Except.bind] at hs
    cases hx : callWriter nm w p c d 3 (ctrlInit w s).1.writer (ctrlInit w s).1 with
    | error z => rw [hx] at hs; cases hs
    | ok z =>
      obtain ⟨z1, z2⟩ := z
      rw [hx] at hs
      simp only [Except.ok.injEq, Prod.mk.injEq] at hs
      obtain ⟨h1, h2⟩ := main hn hn' 1 hx
      rw [← hs.1, ← hs.2, h1]
      refine ⟨hn, ?_⟩
      intro x hx
      rcases List.mem_append.mp hx with hx | hx
      · rw [ctrlInit_evs] at hx
        obtain ⟨n, _, rfl⟩ := List.mem_map.mp hx
        rfl
      · exact h2 x hx
  · obtain ⟨h1, h2⟩ := main h hi 2 hs
    rw [h1]; exact ⟨h, h2⟩

theorem wstep_noForeign {nm : Cid → Bytes} {w : World} {s s' : Lib} {u : List Cid} (hr : RegInv s u)
    (h : NoForeign s) {op : WOp} (hf : ∀ f, op ≠ .setWriter (some f)) {r : WRes} {e : List Ev}
    (hs : wstep nm w s op = .ok (s', r, e)) : NoForeign s' ∧ ∀ x ∈ e, x.isForeign = false := by
  have hk : ∀ l : List Ev, (∀ y ∈ l, y.isHook = true) → ∀ x ∈ l, x.isForeign = false := by
    intro l hl x hx
    have := hl x hx
    cases x <;> first | rfl | cases this
  have hens : ∀ c, NoForeign (ensureInit nm w s c).1 ∧ ∀ x ∈ (ensureInit nm w s c).2, x.isForeign = false := fun c =>
    ⟨h.congr (ensureInit_spec nm w hr c).2.2.2.2.1 (ensureInit_spec nm w hr c).2.2.2.2.2.1,
      hk _ (ensureInit_hooks hr c)⟩
  have hset : ∀ c x, NoForeign (setLevel nm w s c x).1 ∧ ∀ y ∈ (setLevel nm w s c x).2, y.isForeign = false := fun c x =>
    ⟨h.congr (setLevel_spec nm w hr c x).2.2.2.2.1 (setLevel_spec nm w hr c x).2.2.2.2.2.1, by
      rw [(setLevel_spec nm w hr c x).2.2.2.1]; exact (hens c).2⟩
  have hlog : ∀ p d x, logOn nm w s p d x = .ok (s', r, e) → NoForeign s' ∧ ∀ y ∈ e, y.isForeign = false := by
    intro p d x hx
    unfold logOn at hx
    dsimp only at hx
    split at hx
    · cases x with
      | none => simp only [Except.ok.injEq, Prod.mk.injEq] at hx; rw [← hx.1, ← hx.2.2]; exact hens d
      | some x =>
        simp only [bind, Except.bind] at hx
        cases hy : deliver nm w (ensureInit nm w s d).1 p d x with
        | error z => rw [hy] at hx; cases hx
        | ok z =>
          obtain ⟨z1, z2⟩ := z
          rw [hy] at hx
          simp only [Except.ok.injEq, Prod.mk.injEq] at hx
          obtain ⟨h1, h2⟩ := deliver_noForeign (hens d).1 hy
          rw [← hx.1, ← hx.2.2]
          refine ⟨h1, ?_⟩
          intro y hy
          rcases List.mem_append.mp hy with hy | hy
          · exact (hens d).2 y hy
          · exact h2 y hy
    · simp only [Except.ok.injEq, Prod.mk.injEq] at hx; rw [← hx.1, ← hx.2.2]; exact hens d
  have hnil : NoForeign s ∧ ∀ x ∈ ([] : List Ev), x.isForeign = false := ⟨h, by simp⟩
  cases op with
  | init d => simp only [wstep, Except.ok.injEq, Prod.mk.injEq] at hs; rw [← hs.1, ← hs.2.2]; exact hens d
  | getLevel d => simp only [wstep, Except.ok.injEq, Prod.mk.injEq] at hs; rw [← hs.1, ← hs.2.2]; exact hens d
  | log p d t => exact hlog _ _ _ hs
  | str p d t => exact hlog p d (some (t ++ [0])) hs
  | buf p d t => exact hlog p d (some t) hs
  | setLevel d x => simp only [wstep, Except.ok.injEq, Prod.mk.injEq] at hs; rw [← hs.1, ← hs.2.2]; exact hset d x
  | setTagLevel name x =>
    simp only [wstep] at hs
    split at hs
    · simp only [Except.ok.injEq, Prod.mk.injEq] at hs; rw [← hs.1, ← hs.2.2]; exact hset _ x
    · simp only [Except.ok.injEq, Prod.mk.injEq] at hs; rw [← hs.1, ← hs.2.2]; exact hnil
  | getNames m => simp only [wstep, Except.ok.injEq, Prod.mk.injEq] at hs; rw [← hs.1, ← hs.2.2]; exact hnil
  | foreach => simp only [wstep, Except.ok.injEq, Prod.mk.injEq] at hs; rw [← hs.1, ← hs.2.2]; exact hnil
  | setWriter f =>
    cases f with
    | none => simp only [wstep, Except.ok.injEq, Prod.mk.injEq] at hs; rw [← hs.1, ← hs.2.2]; exact hnil
    | some f => exact absurd rfl (hf f)
  | getWriter =>
    simp only [wstep] at hs
    have hx : NoForeign (if s.writer = .init then ctrlInit w s else (s, [])).1 ∧
        ∀ y ∈ (if s.writer = .init then ctrlInit w s else (s, [])).2, y.isForeign = false := by
      split
      · refine ⟨(ctrlInit_noForeign w s).1, ?_⟩
        intro y hy
        rw [ctrlInit_evs] at hy
        obtain ⟨n, _, rfl⟩ := List.mem_map.mp hy
        rfl
      · exact hnil
    generalize (if s.writer = .init then ctrlInit w s else (s, [])) = x at hs hx
    split at hs <;>
    · simp only [Except.ok.injEq, Prod.mk.injEq] at hs; rw [← hs.1, ← hs.2.2]; exact hx
  | setHook f =>
    cases f <;>
    · simp only [wstep, Except.ok.injEq, Prod.mk.injEq] at hs; rw [← hs.1, ← hs.2.2]
      exact ⟨h.congr rfl rfl, by simp⟩
  | setDevice f =>
    cases f with
    | none => simp only [wstep, Except.ok.injEq, Prod.mk.injEq] at hs; rw [← hs.1, ← hs.2.2]; exact hnil
    | some f =>
      have hi : ∀ x : Lib, x.writer = .init → NoForeign x := fun x hx =>
        ⟨(fun n e => by rw [hx] at e; cases e), (fun c e => by rw [hx] at e; cases e)⟩
      simp only [wstep] at hs
      split at hs
      · simp only [Except.ok.injEq, Prod.mk.injEq] at hs; rw [← hs.1, ← hs.2.2]; exact hnil
      split at hs
      · simp only [Except.ok.injEq, Prod.mk.injEq] at hs; rw [← hs.1, ← hs.2.2]; exact ⟨h.congr rfl rfl, by simp⟩
      split at hs
      · simp only [Except.ok.injEq, Prod.mk.injEq] at hs; rw [← hs.1, ← hs.2.2]; exact ⟨h.congr rfl rfl, by simp⟩
      split at hs <;>
      · simp only [Except.ok.injEq, Prod.mk.injEq] at hs; rw [← hs.1, ← hs.2.2]
        exact ⟨hi _ rfl, by simp [Ev.isForeign]⟩
  | replay a b =>
    simp only [wstep, Except.ok.injEq, Prod.mk.injEq] at hs; rw [← hs.1, ← hs.2.2]; exact ⟨h.congr rfl rfl, by simp⟩

theorem wrun_noForeign {nm : Cid → Bytes} : ∀ (l : List (World × WOp)) {s s2 : Lib} {u : List Cid}
    {tr : List (WRes × List Ev)}, RegInv s u → NoForeign s → (∀ x ∈ l, ∀ f, x.2 ≠ .setWriter (some f)) →
    wrun nm s l = .ok (s2, tr) → ∀ x ∈ tr.flatMap Prod.snd, x.isForeign = false := by
  intro l
  induction l with
  | nil =>
    intro s s2 u tr _ _ _ hr
    simp only [wrun, Except.ok.injEq, Prod.mk.injEq] at hr
    rw [← hr.2]; simp
  | cons x l ih =>
    intro s s2 u tr hreg h hf hr
    obtain ⟨w, op⟩ := x
    obtain ⟨s1, r, e, tr', h1, h2, h3⟩ := wrun_cons hr
    obtain ⟨h4, h5⟩ := wstep_noForeign hreg h (hf _ List.mem_cons_self) h1
    rw [h3, List.flatMap_cons]
    intro y hy
    rcases List.mem_append.mp hy with hy | hy
    · exact h5 y hy
    · exact ih (wstep_reg hreg h1) h4 (fun z hz => hf z (List.mem_cons_of_mem _ hz)) h2 y hy

/-- C25. A device change that succeeds discards whatever function was installed:
after it, as from the start, no foreign function gets any message until one is
installed. Together with `C25_custom`, a foreign function gets the messages
exactly until another function is installed or the device is changed. -/
theorem C25_device {nm : Cid → Bytes} {ops l : List (World × WOp)} {s s1 s2 : Lib}
    {tr tr' : List (WRes × List Ev)} (h : WRun nm ops s tr) {w0 : World} {name : Bytes} {e : List Ev}
    (hi : (ops = [] ∧ s1 = s) ∨ wstep nm w0 s (.setDevice (some name)) = .ok (s1, .int 0, e))
    (hk : ∀ x ∈ l, ∀ f, x.2 ≠ .setWriter (some f)) (hl : wrun nm s1 l = .ok (s2, tr')) :
    ∀ x ∈ tr'.flatMap Prod.snd, x.isForeign = false := by
  have hw : s1.writer = .init ∧ ∃ u, RegInv s1 u := by
    rcases hi with ⟨h0, h1⟩ | hi
    · subst h0 h1
      have h2 : Lib.start = s1 := by
        have h3 : (Except.ok (Lib.start, []) : Except WFault (Lib × List (WRes × List Ev))) = .ok (s1, tr) := h
        injection h3 with h3
        injection h3 with h3 _
      exact ⟨by rw [← h2]; rfl, _, by rw [← h2]; exact start_reg⟩
    · exact ⟨setDevice_fresh hi, _, wstep_reg h.reg hi⟩
  obtain ⟨hw, u, hr⟩ := hw
  exact wrun_noForeign l hr
    ⟨(fun n e => by rw [hw] at e; cases e), (fun c e => by rw [hw] at e; cases e)⟩ hk hl

/-- The calls of `C25_false` are an example: the second message is not passed on. -/
example : ∃ s s1 e, WRun exNames [(bareWorld, .setWriter (some (.custom 5)))] s [(.int 0, [])] ∧
    wstep exNames bareWorld s (.setDevice (some (ascii "bar"))) = .ok (s1, .int 0, e) ∧ s.writer = .custom 5 :=
  ⟨_, _, _, rfl, rfl, rfl⟩

end Verif.Libulog
