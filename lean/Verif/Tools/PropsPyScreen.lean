import Verif.Tools.PropsPyDev

/-!
# Python records from the logging call to the screen (C122)

Python programs' records go through `ULogDeviceHandler` to a device to which processes
log with libulog as well, in any order; then the viewer dumps it.
-/
namespace Verif.Tools.PyDev
open Verif Verif.Kernel Verif.Libulog Verif.Ulogcat
open Verif.Tools.Shdd (foldl_raw driverOps_fid prefixLen_le said_ent_size said_ent_text)

/-! ## The handler and the processes on one device -/

/-- A handler that is made: the device is there and can be opened for writing. -/
structure Hdl where
  env : DevEnv
  path : Bytes
  rawMode : Bool
  opens : env.files.openRes path = .inl 0
  chr : env.files.isChr 0 = true

def Hdl.raw (h : Hdl) : Bool :=
  match (openHandler h.env h.path h.rawMode).1 with
  | .handler _ raw _ => raw
  | .raised _ => false

/-- What the handler's opening and closing is to the driver (file 0 is free while no
viewer runs). -/
def devOps : Libulog.OEv → List Op
  | .opened _ _ => [.openF 0 false true false]
  | .closed _ => [.release 0]
  | .raw _ => [.setRaw 0 true (some 1)]

/-- What happens on the device. -/
inductive In
  | opened
  | closed
  | put (t : Task) (v : List Bytes)
  | said (m : Said)

def In.ops (junk : Nat → UInt8) (h : Hdl) : In → List Op
  | .opened => (openHandler h.env h.path h.rawMode).2.flatMap devOps
  | .closed => (closeHandler 0 h.raw).flatMap devOps
  | .put t v => [.write 0 t (userVec v) junk]
  | .said _ => []

def inAll (P : Nat → Prog) (junk : Nat → UInt8) (h : Hdl) : (Nat → Lib) → List In → Except WFault (List Op)
  | _, [] => .ok []
  | libs, .said m :: l => do
    let (s, _, e) ← wstep (P m.prog).nm (P m.prog).env (libs m.prog) m.op
    let ops ← inAll P junk h (fun p => if p = m.prog then s else libs p) l
    .ok (e.flatMap (driverOps (m.prog + 1) m.task junk) ++ ops)
  | libs, x :: l => do
    let ops ← inAll P junk h libs l
    .ok (x.ops junk h ++ ops)

def In.put? : In → Option (Task × List Bytes)
  | .put t v => some (t, v)
  | _ => none

/-- Not the opening or closing of the device. -/
def In.inner : In → Bool
  | .opened => false
  | .closed => false
  | _ => true

/-! ## Specification -/

/-- The severities of Python's levels. -/
def severity (level : Nat) : Option Nat := [(50, 0), (40, 3), (30, 4), (20, 6), (10, 7)].lookup level

/-- The name of the thread. -/
def PyRec.tname (r : PyRec) : Bytes := if r.tset ≠ [] then r.tset else utf8 r.tcur

/-- A line of a record, with its severity and number. -/
structure Line where
  of : PyRec
  sev : Nat
  text : Bytes
  num : Nat

/-- The bytes of an entry before the text. -/
def Line.head (raw : Bool) (x : Line) : Nat :=
  (if raw then x.of.pname.length + 1 + (if x.of.pid = x.of.tid then 0 else x.of.tname.length + 1) else prefixLen (x.of.task x.num)) +
    (4 + x.of.tag.length + 1)

/-- What the line takes in the log: entries are limited to 4100 bytes. -/
def Line.size (raw : Bool) (x : Line) : Nat := 24 + min 4076 (x.head raw + (x.text.length + 1))

/-- What is shown: in raw mode the numbers, names and time that the handler gives, else
those of the writing task. -/
def Line.shown (raw : Bool) (L : Look) (x : Line) : Bytes :=
  textShown L
    (if raw then
      { sec := int32 (x.of.clock x.num).1, nsec := int32 (x.of.clock x.num).2, priority := x.sev, pid := int32 x.of.pid, pname := x.of.pname
        tid := int32 x.of.tid, tname := if x.of.pid = x.of.tid then x.of.pname else x.of.tname, tag := x.of.tag, isBinary := false, color := 0 }
    else taskInfo (x.of.task x.num) (UInt32.ofNat x.sev) x.of.tag false)
    (x.text.take (4075 - x.head raw))

/-- An ordinary record: text, names that fit an entry, and thread names in ASCII unless
set by the program. -/
structure PyRec.Plain (raw : Bool) (r : PyRec) : Prop where
  tag : NoNul r.tag
  text : NoNul r.msg
  ids : raw = true → ¬ (r.pid = 0xffffffff ∧ r.tid = 0xffffffff)
  task : raw = false → ∀ i, ¬ ((r.task i).pid = 0xffffffff ∧ (r.task i).tid = 0xffffffff)
  pname : raw = true → NoNul r.pname
  tname : raw = true → r.pid ≠ r.tid → NoNul r.tname ∧ (r.tset = [] → ∀ c ∈ r.tcur, c.toNat < 128)
  fits : ∀ sev text num, (Line.mk r sev text num).head raw < 4076

/-- The lines of a record (none if its level has no severity). -/
def recLines (r : PyRec) (ls : List Bytes) : List Line :=
  match severity r.level with
  | none => []
  | some sev => ls.zipIdx.map fun l => { of := r, sev, text := l.1, num := l.2 }

inductive Item
  | line (x : Line)
  | said (m : Said)

def Item.line? : Item → Option Line
  | .line x => some x
  | .said _ => none

def Item.lines (P : Nat → Prog) (raw : Bool) (L : Look) : Item → Bytes
  | .line x => x.shown raw L
  | .said m => if m.passes P then m.lines P L else []

def Item.size (P : Nat → Prog) (raw : Bool) : Item → Nat
  | .line x => x.size raw
  | .said m => if m.passes P then m.size P else 0

/-! ## One line -/

theorem severity_eq (level : Nat) : pyPrio level = (severity level).map UInt32.ofNat ∧ ∀ s, severity level = some s → s < 8 := by
  unfold pyPrio severity
  simp only [List.lookup]
  by_cases h1 : level = 50
  · subst h1; exact ⟨rfl, fun s h => by cases h; decide⟩
  by_cases h2 : level = 40
  · subst h2; exact ⟨rfl, fun s h => by cases h; decide⟩
  by_cases h3 : level = 30
  · subst h3; exact ⟨rfl, fun s h => by cases h; decide⟩
  by_cases h4 : level = 20
  · subst h4; exact ⟨rfl, fun s h => by cases h; decide⟩
  by_cases h5 : level = 10
  · subst h5; exact ⟨rfl, fun s h => by cases h; decide⟩
  have e : ∀ n : Nat, level ≠ n → (level == n) = false := fun n h => by simp [h]
  rw [if_neg h1, if_neg h2, if_neg h3, if_neg h4, if_neg h5, e _ h1, e _ h2, e _ h3, e _ h4, e _ h5]
  exact ⟨rfl, fun s h => by cases h⟩

theorem char_length (c : Char) : 1 ≤ (String.utf8EncodeChar c).length ∧ ((String.utf8EncodeChar c).length = 1 ↔ c.toNat < 128) := by
  have hv : c.toNat = c.val.toNat := rfl
  rw [hv]
  unfold String.utf8EncodeChar
  dsimp only
  (repeat' split) <;> simp <;> omega

theorem utf8_length (s : List Char) : s.length ≤ (utf8 s).length ∧ ((utf8 s).length = s.length ↔ ∀ c ∈ s, c.toNat < 128) := by
  induction s with
  | nil => simp [utf8]
  | cons c s ih =>
    obtain ⟨h1, h2⟩ := char_length c
    have : (utf8 (c :: s)).length = (String.utf8EncodeChar c).length + (utf8 s).length := by simp [utf8]
    rw [this, List.length_cons]
    obtain ⟨i1, i2⟩ := ih
    refine ⟨by omega, ⟨fun h => ?_, fun h => ?_⟩⟩
    · intro x hx
      rcases List.mem_cons.1 hx with rfl | hx
      · exact h2.1 (by omega)
      · exact i2.1 (by omega) x hx
    · have := h2.2 (h c (by simp))
      have := i2.2 fun x hx => h x (by simp [hx])
      omega

theorem tfield_eq {r : PyRec} (h : r.tset = [] → ∀ c ∈ r.tcur, c.toNat < 128) : r.tfield = r.tname ++ [0] := by
  unfold PyRec.tfield PyRec.tname
  by_cases ht : r.tset = []
  · rw [if_neg (by simp [ht]), if_neg (by simp [ht]), List.take_of_length_le]
    rw [List.length_append, (utf8_length r.tcur).2.2 (h ht)]
    simp
  · rw [if_pos ht, if_pos ht]

/-- What is written for a line. -/
def Line.vec (raw : Bool) (x : Line) : List Bytes :=
  (if raw then
    [le32 x.of.pid ++ le32 x.of.tid ++ le32 (x.of.clock x.num).1 ++ le32 (x.of.clock x.num).2 ++ le32 0, x.of.pname ++ [0]] ++
      (if x.of.pid = x.of.tid then [] else [x.of.tname ++ [0]])
  else []) ++ [le32 (UInt32.ofNat x.sev), x.of.tag ++ [0], x.text ++ [0]]

theorem lines_noNul {t : Bytes} {ls : List Bytes} (h : IsLines t ls) (ht : NoNul t) : ∀ l ∈ ls, NoNul l := by
  induction h with
  | nil => intro l hl; cases hl
  | last _ _ => intro l hl; rw [List.mem_singleton.1 hl]; exact ht
  | line _ _ _ _ ih =>
    intro l hl
    rcases List.mem_cons.1 hl with rfl | hl
    · exact fun b hb => ht b (by simp [hb])
    · exact ih (fun b hb => ht b (by simp [hb])) l hl

/-- **C122:** a record is written line by line, in order, each with the severity of its
level; a record of another level is an exception, and nothing is written. -/
theorem C122_emit (fd : Nat) {raw : Bool} {r : PyRec} (hp : r.Plain raw) {ls : List Bytes} (hl : IsLines r.msg ls) :
    emit fd raw r = if severity r.level = none then none else some ((recLines r ls).map fun x => some (x.vec raw)) := by
  have hs : IsLines r.msg (splitLines none r.msg) := by simpa using splitLines_spec _ r.msg none rfl (by simp) (by simp)
  have hs : splitLines none r.msg = ls := hs.unique hl
  unfold emit recLines
  rw [(severity_eq r.level).1, hs]
  cases severity r.level with
  | none => rfl
  | some sev =>
    simp only [Option.map_some, reduceCtorEq, if_false, List.map_map]
    congr 1
    refine List.map_congr_left fun l _ => ?_
    cases raw with
    | false => rfl
    | true =>
      have h1 := hp.ids rfl
      simp only [if_true, Function.comp_def, rawLog, rawLogv, rawOf, Option.isSome_none, Bool.false_eq_true, or_false, Line.vec]
      rw [if_neg (by omega)]
      refine (if_neg h1).trans ?_
      congr 1
      by_cases h : r.pid = r.tid
      · simp [h]
      · rw [if_neg h, tfield_eq (hp.tname rfl h).2]
        simp [h]

theorem writes_eq {raw : Bool} {r : PyRec} (hp : r.Plain raw) {ls : List Bytes} (hl : IsLines r.msg ls) :
    writes 0 raw r = (recLines r ls).map fun x => (x.of.task x.num, x.vec raw) := by
  unfold writes
  rw [C122_emit 0 hp hl]
  unfold recLines
  cases severity r.level with
  | none => rfl
  | some sev =>
    simp only [reduceCtorEq, if_false, Option.getD_some, List.map_map]
    have : ∀ (ls : List Bytes) (k : Nat), (((ls.zipIdx k).map fun l => some (Line.vec raw { of := r, sev, text := l.1, num := l.2 })).zipIdx k).filterMap
        (fun x => x.1.map fun v => (r.task x.2, v)) = (ls.zipIdx k).map fun l => (r.task l.2, Line.vec raw { of := r, sev, text := l.1, num := l.2 }) := by
      intro ls
      induction ls with
      | nil => intro k; rfl
      | cons l ls ih => intro k; simp only [List.zipIdx_cons, List.map_cons, List.filterMap_cons, Option.map_some, ih]
    exact this ls 0

def Line.entry (raw : Bool) (x : Line) : Entry :=
  if raw then rawSpec (x.vec true).flatten else plainSpec (x.of.task x.num) (x.vec false).flatten

/-- The line comes from a record like these. -/
structure Line.Plain (raw : Bool) (x : Line) : Prop where
  of : x.of.Plain raw
  sev : x.sev < 8
  text : NoNul x.text

theorem recLines_plain {raw : Bool} {r : PyRec} (hp : r.Plain raw) {ls : List Bytes} (hl : IsLines r.msg ls) : ∀ x ∈ recLines r ls, x.Plain raw := by
  intro x hx
  unfold recLines at hx
  split at hx
  · cases hx
  · rename_i sev hs
    obtain ⟨⟨l, i⟩, hli, rfl⟩ := List.mem_map.1 hx
    exact ⟨hp, (severity_eq _).2 _ hs, lines_noNul hl hp.text l (List.fst_mem_of_mem_zipIdx hli)⟩

theorem Line.entry_raw (x : Line) : x.entry true =
    { pid := x.of.pid, tid := x.of.tid, sec := (x.of.clock x.num).1, nsec := (x.of.clock x.num).2, euid := 0
      payload := (x.of.pname ++ 0 :: ((if x.of.pid = x.of.tid then [] else x.of.tname ++ [0]) ++
        (le32 (UInt32.ofNat x.sev) ++ x.of.tag ++ 0 :: (x.text ++ [0])))).take 4076 } := by
  unfold Line.entry
  rw [if_pos rfl]
  have : (x.vec true).flatten = le32 x.of.pid ++ le32 x.of.tid ++ le32 (x.of.clock x.num).1 ++ le32 (x.of.clock x.num).2 ++ le32 0 ++
      (x.of.pname ++ 0 :: ((if x.of.pid = x.of.tid then [] else x.of.tname ++ [0]) ++
        (le32 (UInt32.ofNat x.sev) ++ x.of.tag ++ 0 :: (x.text ++ [0])))) := by
    unfold Line.vec
    by_cases h : x.of.pid = x.of.tid <;> simp [h]
  rw [this, rawSpec_header]

theorem Line.flat_plain (x : Line) : (x.vec false).flatten = le32 (UInt32.ofNat x.sev) ++ x.of.tag ++ 0 :: (x.text ++ [0]) := by
  simp [Line.vec]

theorem prefixLen_eq (t : Task) : prefixLen t = (taskName t.pcomm ++ [0] ++ (if t.pid = t.tid then [] else taskName t.tcomm ++ [0])).length := by
  unfold prefixLen
  split <;> simp <;> omega

theorem Line.entry_size (raw : Bool) (x : Line) : (x.entry raw).size = x.size raw := by
  cases raw with
  | true =>
    rw [Line.entry_raw]
    unfold Entry.size Line.size Line.head
    dsimp only
    rw [List.length_take]
    by_cases h : x.of.pid = x.of.tid
    · simp only [h, if_true, List.length_append, List.length_cons, le32_length, List.length_nil]; omega
    · simp only [h, if_true, if_false, List.length_append, List.length_cons, le32_length, List.length_nil]; omega
  | false =>
    unfold Line.entry Entry.size Line.size Line.head plainSpec specPayload
    simp only [Bool.false_eq_true, if_false]
    rw [List.length_take, List.length_append, Line.flat_plain, ← prefixLen_eq]
    simp only [List.length_append, List.length_cons, le32_length, List.length_nil]
    omega

theorem Line.entry_text {raw : Bool} {x : Line} (h : x.Plain raw) {L : Look} (hk : L.kmsgd = false) : entryText L (x.entry raw) = x.shown raw L := by
  have hfit := h.of.fits x.sev x.text x.num
  have hlt : (UInt32.ofNat x.sev).toNat = x.sev := by
    rw [UInt32.toNat_ofNat']; exact Nat.mod_eq_of_lt (by have := h.sev; omega)
  have hbin : prioBinary (UInt32.ofNat x.sev) = false := by
    unfold prioBinary
    rw [hlt]
    have := h.sev
    simp
    omega
  have hcol : prioColor (UInt32.ofNat x.sev) = 0 := by
    unfold prioColor
    rw [hlt]
    exact Nat.div_eq_of_lt (by have := h.sev; omega)
  have hlev : prioLevel (UInt32.ofNat x.sev) = x.sev := by
    unfold prioLevel
    rw [hlt]
    exact Nat.mod_eq_of_lt h.sev
  cases raw with
  | false =>
    unfold Line.entry Line.shown
    simp only [Bool.false_eq_true, if_false]
    have hf : prefixLen (x.of.task x.num) + (4 + x.of.tag.length + 1) < 4076 := hfit
    rw [Line.flat_plain, entryText_plain L hk _ h.of.tag h.text hbin hf]
    have : 4075 - x.head false = 4076 - prefixLen (x.of.task x.num) - (4 + x.of.tag.length + 1) - 1 := by
      unfold Line.head
      simp only [Bool.false_eq_true, if_false]
      omega
    rw [this]
  | true =>
    have hcut : ∀ (a b : Bytes) (n : Nat), a.length ≤ n → (a ++ b).take n = a ++ b.take (n - a.length) := by
      intro a b n h
      rw [List.take_append, List.take_of_length_le h]
    have hpn := h.of.pname rfl
    obtain ⟨h1, h2⟩ := clip_take h.text (n := 4076 - x.head true) (by have : x.head true < 4076 := hfit; omega)
    have hd : decode ((x.entry true).pid != (x.entry true).tid) (x.entry true).payload =
        { pname := x.of.pname, tname := if x.of.pid = x.of.tid then x.of.pname else x.of.tname, tag := x.of.tag, level := x.sev, color := 0
          msg := .text (x.text.take (4075 - x.head true)) } := by
      rw [Line.entry_raw]
      dsimp only
      rw [show 4076 - x.head true - 1 = 4075 - x.head true by omega] at h2
      have hf : x.head true < 4076 := hfit
      by_cases ht : x.of.pid = x.of.tid
      · have hh : x.head true = x.of.pname.length + 1 + (4 + x.of.tag.length + 1) := by unfold Line.head; simp [ht]
        have hp : (x.of.pname ++ 0 :: ((if x.of.pid = x.of.tid then [] else x.of.tname ++ [0]) ++
            (le32 (UInt32.ofNat x.sev) ++ x.of.tag ++ 0 :: (x.text ++ [0])))).take 4076 =
            x.of.pname ++ 0 :: (le32 (UInt32.ofNat x.sev) ++ x.of.tag ++ 0 :: (x.text ++ [0]).take (4076 - x.head true)) := by
          have e : x.of.pname ++ 0 :: ((if x.of.pid = x.of.tid then [] else x.of.tname ++ [0]) ++
              (le32 (UInt32.ofNat x.sev) ++ x.of.tag ++ 0 :: (x.text ++ [0]))) =
              (x.of.pname ++ 0 :: (le32 (UInt32.ofNat x.sev) ++ x.of.tag ++ [0])) ++ (x.text ++ [0]) := by simp [ht]
          have hl : (x.of.pname ++ 0 :: (le32 (UInt32.ofNat x.sev) ++ x.of.tag ++ [0])).length = x.head true := by
            rw [hh]
            simp only [List.length_append, List.length_cons, le32_length, List.length_nil]; omega
          rw [e, hcut _ _ _ (by rw [hl]; omega), hl]
          simp
        rw [hp, show (x.of.pid != x.of.tid) = false by simp [ht], decode_one hpn, decodeBody_prio h.of.tag, if_neg (by rw [hbin]; simp), if_neg h1, h2,
          hlev, hcol, if_pos ht]
      · obtain ⟨htn, _⟩ := h.of.tname rfl ht
        have hh : x.head true = x.of.pname.length + 1 + (x.of.tname.length + 1) + (4 + x.of.tag.length + 1) := by unfold Line.head; simp [ht]
        have hp : (x.of.pname ++ 0 :: ((if x.of.pid = x.of.tid then [] else x.of.tname ++ [0]) ++
            (le32 (UInt32.ofNat x.sev) ++ x.of.tag ++ 0 :: (x.text ++ [0])))).take 4076 =
            x.of.pname ++ 0 :: (x.of.tname ++ 0 :: (le32 (UInt32.ofNat x.sev) ++ x.of.tag ++ 0 :: (x.text ++ [0]).take (4076 - x.head true))) := by
          have e : x.of.pname ++ 0 :: ((if x.of.pid = x.of.tid then [] else x.of.tname ++ [0]) ++
              (le32 (UInt32.ofNat x.sev) ++ x.of.tag ++ 0 :: (x.text ++ [0]))) =
              (x.of.pname ++ 0 :: (x.of.tname ++ 0 :: (le32 (UInt32.ofNat x.sev) ++ x.of.tag ++ [0]))) ++ (x.text ++ [0]) := by simp [ht]
          have hl : (x.of.pname ++ 0 :: (x.of.tname ++ 0 :: (le32 (UInt32.ofNat x.sev) ++ x.of.tag ++ [0]))).length = x.head true := by
            rw [hh]
            simp only [List.length_append, List.length_cons, le32_length, List.length_nil]; omega
          rw [e, hcut _ _ _ (by rw [hl]; omega), hl]
          simp
        rw [hp, show (x.of.pid != x.of.tid) = true by simp [ht], decode_two hpn htn, decodeBody_prio h.of.tag, if_neg (by rw [hbin]; simp), if_neg h1, h2,
          hlev, hcol, if_neg ht]
    have := entryText_of L hk hd
    rw [this, Line.entry_raw]
    rfl

/-! ## The driver -/

def hdlFile (raw : Bool) : File := { rd := false, wr := true, raw }

def Item.entries (P : Nat → Prog) (raw : Bool) : Item → List Entry
  | .line x => [x.entry raw]
  | .said m => if m.passes P then [m.entry P] else []

def Item.input (raw : Bool) : Item → In
  | .line x => .put (x.of.task x.num) (x.vec raw)
  | .said m => .said m

theorem put_step {a : ASys} {raw : Bool} (hf : a.files 0 = some (hdlFile raw)) {o : Obs} (ho : o.raw 0 = raw) (name : Bytes) (junk : Nat → UInt8) (x : Line) :
    ∃ l n, astep a (.write 0 (x.of.task x.num) (userVec (x.vec raw)) junk) = ({ a with log := l }, .ret n) ∧
      obsStep name o (.write 0 (x.of.task x.num) (userVec (x.vec raw)) junk, .ret n) = { o with hist := o.hist ++ [x.entry raw] } := by
  cases raw with
  | true =>
    obtain ⟨l, n, h1, h2⟩ := astep_rawWrite hf (x.of.task x.num) (v := x.vec true) junk (by
      simp only [Line.vec, List.flatten_append, List.length_append, List.flatten_cons, le32_length, List.length_cons, List.length_nil, List.flatten_nil, if_true]
      omega)
    refine ⟨l, n, h1, ?_⟩
    simp only [obsStep, ho, if_true, if_neg h2, userVec_bytes]
    rfl
  | false =>
    obtain ⟨l, n, h1⟩ := astep_write hf (x.of.task x.num) (x.vec false) junk
    refine ⟨l, n, h1, ?_⟩
    simp only [obsStep, ho, Bool.false_eq_true, if_false, userVec_bytes]
    rfl

/-- Part of what happens, while the handler has the device open or has nothing to do. -/
theorem items_run {D : Bytes} {P : Nat → Prog} (hP : ∀ p, (P p).Plain D) (h : Hdl) (name : Bytes) (junk : Nat → UInt8) (raw : Bool) (xs : List Item) :
    ∀ {libs : Nat → Lib} {a : ASys} {o : Obs} {v : Option File}, (∀ p, LibOk (P p) (libs p)) → FilesOk libs a v → ObsOk o →
    ((∀ x ∈ xs, x.line? = none) ∨ (v = some (hdlFile raw) ∧ o.raw 0 = raw)) →
    ∃ libs' ops, (∀ rest, inAll P junk h libs (xs.map (·.input raw) ++ rest) = (inAll P junk h libs' rest).map (ops ++ ·)) ∧
      (∀ op ∈ ops, op.supported = true) ∧ (∀ p, LibOk (P p) (libs' p)) ∧ FilesOk libs' (arun a ops).1 v ∧
      ObsOk ((arun a ops).2.foldl (obsStep name) o) ∧
      ((arun a ops).2.foldl (obsStep name) o).raw 0 = o.raw 0 ∧
      ((arun a ops).2.foldl (obsStep name) o).hist = o.hist ++ xs.flatMap (·.entries P raw) ∧
      ∀ p ∈ (arun a ops).2, ∀ e, p.2 ≠ .err e := by
  induction xs with
  | nil =>
    intro libs a o v hL hF hO _
    refine ⟨libs, [], fun rest => ?_, by simp, hL, hF, hO, rfl, by simp [arun], by simp [arun]⟩
    rw [List.map_nil, List.nil_append]
    cases inAll P junk h libs rest <;> rfl
  | cons x xs ih =>
    intro libs a o v hL hF hO hv
    have hv' : ∀ {o' : Obs}, o'.raw 0 = o.raw 0 → (∀ x ∈ xs, x.line? = none) ∨ (v = some (hdlFile raw) ∧ o'.raw 0 = raw) := by
      intro o' h
      rw [h]
      exact hv.imp (fun h y hy => h y (by simp [hy])) id
    cases x with
    | said m =>
      obtain ⟨s', e, e1, g1, g2, g3, g4, g5, g6⟩ := say_one hP name junk m hL hF hO
      have g7 := foldl_raw name (i := 0) (e.flatMap (driverOps (m.prog + 1) m.task junk)) a o
        (fun op hop => by rw [driverOps_fid _ _ _ _ op hop]; omega)
      obtain ⟨libs', ops, i1, i2, i3, i4, i5, i6, i7, i8⟩ := ih g1 g3 g4 (hv' g7)
      refine ⟨libs', e.flatMap (driverOps (m.prog + 1) m.task junk) ++ ops, fun rest => ?_, ?_, i3, ?_, ?_, ?_, ?_, ?_⟩
      · rw [List.map_cons, List.cons_append]
        show inAll P junk h libs (.said m :: _) = _
        rw [inAll]
        simp only [bind, Except.bind]
        rw [e1]
        dsimp only
        rw [i1 rest]
        cases inAll P junk h libs' rest with
        | error f => rfl
        | ok l => simp [Except.map]
      · exact fun op hop => (List.mem_append.1 hop).elim (g2 op) (i2 op)
      · rw [arun_append]; exact i4
      · rw [arun_append, List.foldl_append]; exact i5
      · rw [arun_append, List.foldl_append, i6, g7]
      · rw [arun_append, List.foldl_append, i7, g5, List.append_assoc, List.flatMap_cons]
        rfl
      · rw [arun_append]
        exact fun p hp => (List.mem_append.1 hp).elim (g6 p) (i8 p)
    | line x =>
      rcases hv with hv | ⟨hv, hr⟩
      · exact absurd (hv (.line x) (by simp)) (by simp [Item.line?])
      subst hv
      obtain ⟨l, n, h1, hstep⟩ := put_step hF.viewer hr name junk x
      have hFl : FilesOk libs { a with log := l } (some (hdlFile raw)) := ⟨hF.viewer, hF.fresh, hF.opened⟩
      obtain ⟨libs', ops, i1, i2, i3, i4, i5, i6, i7, i8⟩ := ih (o := { o with hist := o.hist ++ [x.entry raw] }) hL hFl ⟨hO.raw, hO.base⟩ (.inr ⟨rfl, hr⟩)
      refine ⟨libs', .write 0 (x.of.task x.num) (userVec (x.vec raw)) junk :: ops, fun rest => ?_, ?_, i3, ?_, ?_, ?_, ?_, ?_⟩
      · rw [List.map_cons, List.cons_append]
        show inAll P junk h libs (.put (x.of.task x.num) (x.vec raw) :: _) = _
        rw [inAll]
        · simp only [bind, Except.bind]
          rw [i1 rest]
          cases inAll P junk h libs' rest with
          | error f => rfl
          | ok l => rfl
        · intro m hm; cases hm
      · intro op hop
        rcases List.mem_cons.1 hop with rfl | hop
        · rfl
        · exact i2 op hop
      · simp only [arun, h1]; exact i4
      · simp only [arun, h1, List.foldl_cons, hstep]; exact i5
      · simp only [arun, h1, List.foldl_cons, hstep]; exact i6
      · simp only [arun, h1, List.foldl_cons, hstep]
        rw [i7, List.flatMap_cons, ← List.append_assoc]
        rfl
      · intro p hp
        simp only [arun, h1] at hp
        rcases List.mem_cons.1 hp with rfl | hp
        · simp
        · exact i8 p hp

/-- What the handler does when it opens the device. -/
theorem Hdl.opening (h : Hdl) (junk : Nat → UInt8) : In.ops junk h .opened = (if h.raw then [.openF 0 false true false, .setRaw 0 true (some 1)]
    else if h.rawMode = true ∧ h.env.comm ≠ none then [.openF 0 false true false, .release 0, .openF 0 false true false] else [.openF 0 false true false]) ∧
    In.ops junk h .closed = [.release 0] ∧
    (h.raw = true ↔ h.rawMode = true ∧ h.env.comm ≠ none ∧ h.env.files.rawOk 0 = true) := by
  have hpath : openPath h.env.files.getenv (ascii "ULOG_DEVICE") (ascii "/dev/ulog_main") (some h.path) = h.path := rfl
  have hp : ∀ c, openPlain h.env h.path c = (.handler 0 false c, [.opened h.path 0]) := by intro c; unfold openPlain; rw [h.opens]
  have hr : rawOpen h.env.files (some h.path) = if h.env.files.rawOk 0 = false then (-38, [.opened h.path 0, .closed 0])
      else (0, [.opened h.path 0, .raw 0]) := by
    unfold rawOpen
    rw [hpath]
    dsimp only
    rw [h.opens]
    exact if_neg (by rw [h.chr]; simp)
  have hc : ∀ raw, (closeHandler 0 raw).flatMap devOps = [.release 0] := by intro raw; cases raw <;> rfl
  refine ⟨?_, hc _, ?_⟩
  all_goals
    unfold Hdl.raw
    try simp only [In.ops]
    unfold openHandler
    simp only [hp, hr]
    cases h.rawMode <;> cases h.env.comm <;> cases h.env.files.rawOk 0 <;> simp [devOps]

/-- After opening, file 0 is the handler's. -/
theorem open_run (h : Hdl) (name : Bytes) (junk : Nat → UInt8) {libs : Nat → Lib} {a : ASys} {o : Obs} (hF : FilesOk libs a) (hO : ObsOk o) :
    (∀ op ∈ In.ops junk h .opened, op.supported = true) ∧ FilesOk libs (arun a (In.ops junk h .opened)).1 (some (hdlFile h.raw)) ∧
      ObsOk ((arun a (In.ops junk h .opened)).2.foldl (obsStep name) o) ∧
      ((arun a (In.ops junk h .opened)).2.foldl (obsStep name) o).raw 0 = h.raw ∧
      ((arun a (In.ops junk h .opened)).2.foldl (obsStep name) o).hist = o.hist ∧
      ∀ p ∈ (arun a (In.ops junk h .opened)).2, ∀ e, p.2 ≠ .err e := by
  have s1 : ∀ {a : ASys}, a.files 0 = none → astep a (.openF 0 false true false) = (a.setFile 0 (some (hdlFile false)), .ok) := by
    intro a ha
    simp only [astep, Op.fid, ha]
    rfl
  have s2 : ∀ {a : ASys}, a.files 0 = some (hdlFile false) → astep a (.setRaw 0 true (some 1)) = (a.setFile 0 (some (hdlFile true)), .ok) := by
    intro a ha
    simp only [astep, Op.fid, ha, astepFile]
    rfl
  have s3 : ∀ {a : ASys}, a.files 0 = some (hdlFile false) → astep a (.release 0) = (a.setFile 0 none, .ok) := by
    intro a ha
    simp only [astep, Op.fid, ha, astepFile]
    rfl
  have hset : ∀ (a : ASys) (v : Option File), (a.setFile 0 v).files 0 = v ∧ ∀ p, (a.setFile 0 v).files (p + 1) = a.files (p + 1) := by
    intro a v
    simp [ASys.setFile]
  have hFs : ∀ {b : ASys} {v w : Option File}, FilesOk libs b w → FilesOk libs (b.setFile 0 v) v := by
    intro b v w hb
    obtain ⟨e1, e2⟩ := hset b v
    exact ⟨e1, fun p hp => (e2 p).trans (hb.fresh p hp), fun p hp => (e2 p).trans (hb.opened p hp)⟩
  have o1 : ∀ {o : Obs}, ObsOk o → ObsOk (obsStep name o (.openF 0 false true false, .ok)) := by
    intro o ho
    refine ⟨fun p => ?_, ho.base⟩
    have := ho.raw p
    simpa [obsStep, upd] using this
  rw [(h.opening junk).1]
  cases h.raw with
  | true =>
    simp only [if_true]
    refine ⟨by simp [Op.supported], ?_, ?_, ?_, ?_, ?_⟩
    all_goals simp only [arun, s1 hF.viewer, s2 (hset a _).1, List.foldl_cons, List.foldl_nil]
    · exact hFs (hFs hF)
    · refine ⟨fun p => ?_, hO.base⟩
      have := hO.raw p
      simpa [obsStep, upd] using this
    · simp [obsStep, upd]
    · simp [obsStep]
    · simp
  | false =>
    simp only [Bool.false_eq_true, if_false]
    split
    · refine ⟨by simp [Op.supported], ?_, ?_, ?_, ?_, ?_⟩
      all_goals simp only [arun, s1 hF.viewer, s3 (hset a _).1, s1 (hset (a.setFile 0 (some (hdlFile false))) none).1, List.foldl_cons, List.foldl_nil]
      · exact hFs (hFs (hFs hF))
      · exact o1 ⟨(o1 hO).raw, (o1 hO).base⟩
      · simp [obsStep, upd]
      · simp [obsStep]
      · simp
    · refine ⟨by simp [Op.supported], ?_, ?_, ?_, ?_, ?_⟩
      all_goals simp only [arun, s1 hF.viewer, List.foldl_cons, List.foldl_nil]
      · exact hFs hF
      · exact o1 hO
      · simp [obsStep, upd]
      · simp [obsStep]
      · simp

/-- Everything: processes log, the handler opens the device, writes records, and closes
it. -/
def inputs (pre mid post : List In) : List In := pre ++ (.opened :: (mid ++ (.closed :: post)))

theorem inputs_run {D : Bytes} {P : Nat → Prog} (hP : ∀ p, (P p).Plain D) (h : Hdl) (name : Bytes) (k : Nat) (junk : Nat → UInt8) {pre mid post : List Item}
    (hpre : ∀ x ∈ pre, x.line? = none) (hpost : ∀ x ∈ post, x.line? = none) :
    ∃ ops, inAll P junk h (fun _ => .start) (inputs (pre.map (·.input h.raw)) (mid.map (·.input h.raw)) (post.map (·.input h.raw))) = .ok ops ∧
      Logged name k ops ((pre ++ mid ++ post).flatMap (·.entries P h.raw)) ∧ ∀ p ∈ (arun (ainit name k) ops).2, ∀ e, p.2 ≠ .err e := by
  obtain ⟨libs1, ops1, a1, a2, a3, a4, a5, _, a7, a8⟩ := items_run hP h name junk h.raw pre (libs := fun _ => .start) (a := ainit name k) (o := Obs.init)
    (fun p => ⟨rfl, rfl, fun c => .inl (by show (-1 : Int) < 0; decide), .inl rfl⟩) ⟨rfl, fun _ _ => rfl, fun _ h => absurd rfl h⟩ ⟨fun _ => rfl, rfl⟩
    (.inl hpre)
  generalize hA : (arun (ainit name k) ops1).1 = A at a4
  generalize hO1 : (arun (ainit name k) ops1).2.foldl (obsStep name) Obs.init = o1 at a5 a7
  obtain ⟨p1, p2, p3, p4, p5, p6⟩ := open_run h name junk a4 a5
  obtain ⟨_, hcl, _⟩ := h.opening junk
  generalize hop : In.ops junk h .opened = opn at p1 p2 p3 p4 p5 p6
  generalize hB : (arun A opn).1 = B at p2
  generalize hOB : (arun A opn).2.foldl (obsStep name) o1 = oB at p3 p4 p5
  obtain ⟨libs2, ops2, b1, b2, b3, b4, b5, _, b7, b8⟩ := items_run hP h name junk h.raw mid a3 p2 p3 (.inr ⟨rfl, p4⟩)
  generalize hC : (arun B ops2).1 = C at b4
  generalize hO2 : (arun B ops2).2.foldl (obsStep name) oB = o2 at b5 b7
  have s4 : astep C (.release 0) = (C.setFile 0 none, .ok) := by
    simp only [astep, Op.fid, b4.viewer, astepFile]
    rfl
  have hFC : FilesOk libs2 (C.setFile 0 none) := by
    refine ⟨by simp [ASys.setFile], fun p hp => ?_, fun p hp => ?_⟩
    · have := b4.fresh p hp
      simpa [ASys.setFile] using this
    · have := b4.opened p hp
      simpa [ASys.setFile] using this
  have hOC : ObsOk (obsStep name o2 (.release 0, .ok)) := ⟨b5.raw, b5.base⟩
  obtain ⟨libs3, ops3, c1, c2, _, c4, c5, _, c7, c8⟩ := items_run hP h name junk h.raw post b3 hFC hOC (.inl hpost)
  have har : arun (ainit name k) (ops1 ++ (opn ++ (ops2 ++ ([.release 0] ++ ops3)))) =
      ((arun (C.setFile 0 none) ops3).1, (arun (ainit name k) ops1).2 ++ ((arun A opn).2 ++
        ((arun B ops2).2 ++ ((.release 0, .ok) :: (arun (C.setFile 0 none) ops3).2)))) := by
    rw [arun_append, hA, arun_append, hB, arun_append, hC]
    simp only [List.cons_append, List.nil_append, arun, s4]
  refine ⟨ops1 ++ (opn ++ (ops2 ++ ([.release 0] ++ ops3))), ?_, ?_, ?_⟩
  · have c1 := c1 []
    rw [List.append_nil] at c1
    have q1 : ∀ libs l, inAll P junk h libs (.opened :: l) = (do let ops ← inAll P junk h libs l; .ok (In.ops junk h .opened ++ ops)) := fun _ _ => rfl
    have q2 : ∀ libs l, inAll P junk h libs (.closed :: l) = (do let ops ← inAll P junk h libs l; .ok (In.ops junk h .closed ++ ops)) := fun _ _ => rfl
    unfold inputs
    rw [a1, q1, b1, q2, c1, inAll, hop, hcl]
    simp [Except.map, bind, Except.bind]
  · have hob : (arun (ainit name k) (ops1 ++ (opn ++ (ops2 ++ ([.release 0] ++ ops3))))).2.foldl
        (obsStep name) Obs.init = (arun (C.setFile 0 none) ops3).2.foldl (obsStep name) (obsStep name o2 (.release 0, .ok)) := by
      rw [har]
      dsimp only
      rw [List.foldl_append, hO1, List.foldl_append, hOB, List.foldl_append, hO2, List.foldl_cons]
    refine ⟨?_, ?_, ?_, ?_⟩
    · intro op hop
      simp only [List.mem_append, List.mem_cons, List.not_mem_nil, or_false] at hop
      rcases hop with h | h | h | rfl | h
      · exact a2 op h
      · exact p1 op h
      · exact b2 op h
      · rfl
      · exact c2 op h
    · rw [har]; exact c4.viewer
    · rw [hob]; exact c5.base
    · rw [hob, c7]
      show o2.hist ++ _ = _
      rw [b7, p5, a7, List.flatMap_append, List.flatMap_append]
      rfl
  · rw [har]
    intro p hp e
    simp only [List.mem_append, List.mem_cons] at hp
    rcases hp with h | h | h | rfl | h
    · exact a8 p h e
    · exact p6 p h e
    · exact b8 p h e
    · simp
    · exact c8 p h e

/-! ## The property -/

def Item.Plain (P : Nat → Prog) (raw : Bool) : Item → Prop
  | .line x => x.Plain raw
  | .said m => m.Plain P

theorem Item.entries_size {P : Nat → Prog} {raw : Bool} (x : Item) : bytesLen (x.entries P raw) = x.size P raw := by
  cases x with
  | line x => simp [Item.entries, Item.size, bytesLen, Line.entry_size]
  | said m => exact said_ent_size P m

theorem Item.entries_text {P : Nat → Prog} {raw : Bool} {x : Item} (h : x.Plain P raw) {L : Look} (hk : L.kmsgd = false) :
    (x.entries P raw).flatMap (entryText L) = x.lines P raw L := by
  cases x with
  | line x =>
    show [x.entry raw].flatMap (entryText L) = x.shown raw L
    rw [List.flatMap_cons, List.flatMap_nil, List.append_nil, Line.entry_text h hk]
  | said m => exact said_ent_text h hk

theorem Item.entries_genuine {P : Nat → Prog} {raw : Bool} {x : Item} (h : x.Plain P raw) : Genuine (x.entries P raw) := by
  cases x with
  | line x =>
    intro e he
    rw [List.mem_singleton.1 he]
    cases raw with
    | true => rw [Line.entry_raw]; exact h.of.ids rfl
    | false => exact h.of.task rfl x.num
  | said m =>
    intro e he
    unfold Item.entries at he
    dsimp only at he
    split at he
    · rw [List.mem_singleton.1 he]; exact Said.Plain.task h
    · cases he

theorem items_bytes (P : Nat → Prog) (raw : Bool) (xs : List Item) : bytesLen (xs.flatMap (·.entries P raw)) = (xs.map (·.size P raw)).sum := by
  induction xs with
  | nil => rfl
  | cons x xs ih =>
    rw [List.flatMap_cons, List.map_cons, List.sum_cons, ← ih, ← Item.entries_size]
    simp [bytesLen]

theorem items_length (P : Nat → Prog) (raw : Bool) (xs : List Item) : (xs.flatMap (·.entries P raw)).length ≤ xs.length := by
  induction xs with
  | nil => simp
  | cons x xs ih =>
    have : (x.entries P raw).length ≤ 1 := by
      cases x with
      | line x => simp [Item.entries]
      | said m => simp only [Item.entries]; split <;> simp
    rw [List.flatMap_cons, List.length_append, List.length_cons]
    omega

/-- However the writes of the handler come among the messages of the processes, they are
those of the lines. -/
theorem items_of (raw : Bool) {l : List In} (hl : ∀ x ∈ l, x.inner = true) : ∀ {ys : List Line},
    l.filterMap In.put? = ys.map (fun x => (x.of.task x.num, x.vec raw)) → ∃ xs : List Item, xs.map (·.input raw) = l ∧ xs.filterMap Item.line? = ys := by
  induction l with
  | nil =>
    intro ys h
    cases ys with
    | nil => exact ⟨[], rfl, rfl⟩
    | cons y ys => simp at h
  | cons x l ih =>
    intro ys h
    have hl' : ∀ x ∈ l, x.inner = true := fun y hy => hl y (by simp [hy])
    cases x with
    | opened => exact absurd (hl .opened (by simp)) (by simp [In.inner])
    | closed => exact absurd (hl .closed (by simp)) (by simp [In.inner])
    | said m =>
      obtain ⟨xs, h1, h2⟩ := ih hl' h
      exact ⟨.said m :: xs, by rw [List.map_cons, h1]; rfl, h2⟩
    | put t v =>
      cases ys with
      | nil => simp [In.put?] at h
      | cons y ys =>
        rw [List.filterMap_cons, List.map_cons] at h
        simp only [In.put?, List.cons.injEq, Prod.mk.injEq] at h
        obtain ⟨xs, h1, h2⟩ := ih hl' h.2
        exact ⟨.line y :: xs, by rw [List.map_cons, h1, Item.input, h.1.1, h.1.2], by rw [List.filterMap_cons]; simp only [Item.line?, h2]⟩

/-- **C122.** Python records go through the handler to the device, processes log before,
meanwhile and after; then the viewer dumps the device. `mid` is any order of the writes
of the records among the messages of the processes; `lines` gives the lines of each
record. -/
theorem C122_screen {D : Bytes} {P : Nat → Prog} (hP : ∀ p, (P p).Plain D) (h : Hdl) {recs : List PyRec} {lines : PyRec → List Bytes}
    (hrec : ∀ r ∈ recs, r.Plain h.raw ∧ IsLines r.msg (lines r)) {pre post : List Said} {mid : List In}
    (hpre : ∀ m ∈ pre, m.Plain P) (hpost : ∀ m ∈ post, m.Plain P) (hin : ∀ x ∈ mid, x.inner = true) (hmid : ∀ m, .said m ∈ mid → m.Plain P)
    (hput : mid.filterMap In.put? = recs.flatMap (writes 0 h.raw)) :
    ∃ xs : List Item, xs.map (·.input h.raw) = mid ∧ xs.filterMap Item.line? = recs.flatMap (fun r => recLines r (lines r)) ∧
      ∀ (junk : Nat → UInt8) {name : Bytes} {k : Nat} (buf : Nat → UInt8), 14 ≤ k → name.length ≤ 89 →
        (pre.map Item.said ++ xs ++ post.map Item.said).length < 2147483648 →
        ((pre.map Item.said ++ xs ++ post.map Item.said).map (·.size P h.raw)).sum + 8200 ≤ 2 ^ k → ∀ {L : Look}, L.kmsgd = false →
        ∃ ops sys tr m, inAll P junk h (fun _ => .start) (pre.map In.said ++ (.opened :: (mid ++ (.closed :: post.map In.said)))) = .ok ops ∧
          Kernel.run (Kernel.init name k buf) (ops ++ [.openF 0 true false true, .getLogLen 0]) = .ok (sys, tr ++ [(.getLogLen 0, .ret m)]) ∧
          (∀ p ∈ tr, ∀ e, p.2 ≠ .err e) ∧
          Dumps L sys tr m (pre.map Item.said ++ xs ++ post.map Item.said).length fun bs =>
            bs = (pre.map Item.said ++ xs ++ post.map Item.said).flatMap (·.lines P h.raw L) := by
  have hw : recs.flatMap (writes 0 h.raw) = (recs.flatMap fun r => recLines r (lines r)).map fun x => (x.of.task x.num, x.vec h.raw) := by
    rw [List.map_flatMap]
    exact flatMap_congr' fun r hr => writes_eq (hrec r hr).1 (hrec r hr).2
  obtain ⟨xs, x1, x2⟩ := items_of h.raw hin (hput.trans hw)
  refine ⟨xs, x1, x2, fun junk name k buf hk hname hcount hroom L hkd => ?_⟩
  have hpl : ∀ x ∈ pre.map Item.said ++ xs ++ post.map Item.said, x.Plain P h.raw := by
    intro x hx
    rcases List.mem_append.1 hx with hx | hx
    · rcases List.mem_append.1 hx with hx | hx
      · obtain ⟨m, hm, rfl⟩ := List.mem_map.1 hx
        exact hpre m hm
      · cases x with
        | line x =>
          have hm : x ∈ recs.flatMap fun r => recLines r (lines r) := by
            rw [← x2]
            exact List.mem_filterMap.2 ⟨_, hx, rfl⟩
          obtain ⟨r, hr, hxr⟩ := List.mem_flatMap.1 hm
          exact recLines_plain (hrec r hr).1 (hrec r hr).2 x hxr
        | said m =>
          refine hmid m ?_
          rw [← x1]
          exact List.mem_map.2 ⟨_, hx, rfl⟩
    · obtain ⟨m, hm, rfl⟩ := List.mem_map.1 hx
      exact hpost m hm
  obtain ⟨ops, h1, hlog, h6⟩ := inputs_run hP h name k junk (pre := pre.map Item.said) (mid := xs) (post := post.map Item.said)
    (fun x hx => by obtain ⟨m, _, rfl⟩ := List.mem_map.1 hx; rfl) (fun x hx => by obtain ⟨m, _, rfl⟩ := List.mem_map.1 hx; rfl)
  have hi : inputs ((pre.map Item.said).map (·.input h.raw)) (xs.map (·.input h.raw)) ((post.map Item.said).map (·.input h.raw)) =
      pre.map In.said ++ (.opened :: (mid ++ (.closed :: post.map In.said))) := by
    unfold inputs
    rw [x1, List.map_map, List.map_map]
    rfl
  rw [hi] at h1
  generalize pre.map Item.said ++ xs ++ post.map Item.said = ys at *
  have hgen : Genuine (ys.flatMap (·.entries P h.raw)) := by
    intro e he
    obtain ⟨x, hx, he⟩ := List.mem_flatMap.1 he
    exact Item.entries_genuine (hpl x hx) e he
  have hle := items_length P h.raw ys
  obtain ⟨sys, tr, m, g0, g1, g2⟩ := hlog.screen buf hk hname hgen (by omega) (L := L) (by simp [hkd])
  refine ⟨ops, sys, tr, m, h1, g1, ?_, fun euid n fuel hfuel buf0 hb paths ans hans => ?_⟩
  · rw [g0]
    intro p hp e
    rcases List.mem_append.1 hp with hp | hp
    · exact h6 p hp e
    · rw [List.mem_singleton.1 hp]; simp
  · obtain ⟨all, c, t, e1, e2, _, e3⟩ := g2 euid n fuel (by omega) hb (paths := paths) hans
    refine ⟨all, c, t, e1, e2, (e3 (by rw [items_bytes]; exact hroom)).trans ?_⟩
    rw [List.flatMap_assoc]
    exact flatMap_congr' fun x hx => Item.entries_text (hpl x hx) hkd

/-! ## What is false -/

/-- **C122 is false:** a process and thread number of -1: nothing is written, and nobody
is told. -/
theorem C122_false_ids (fd : Nat) {r : PyRec} (hid : r.pid = 0xffffffff ∧ r.tid = 0xffffffff) : writes fd true r = [] := by
  unfold writes emit
  cases pyPrio r.level with
  | none => rfl
  | some p =>
    have h : ∀ (l : Bytes) (i : Nat), rawLog fd (some (rawOf r p l i)) = none := by
      intro l i
      simp only [rawLog, rawLogv, rawOf, Option.isSome_none, Bool.false_eq_true, or_false]
      rw [if_neg (by omega)]
      exact if_pos hid
    simp only [if_true, h, Option.getD_some]
    have : ∀ (ls : List (Bytes × Nat)) (k : Nat), ((ls.map fun _ => (none : Option (List Bytes))).zipIdx k).filterMap
        (fun x => x.1.map fun v => (r.task x.2, v)) = [] := by
      intro ls
      induction ls with
      | nil => intro k; rfl
      | cons a ls ih => intro k; simp only [List.map_cons, List.zipIdx_cons, List.filterMap_cons, Option.map_none, ih]
    exact this _ 0

theorem le32_tag (a b : UInt8) : ∃ q : UInt32, le32 q = [0, 0, a, b] ∧ q.toNat = a.toNat * 65536 + b.toNat * 16777216 := by
  have ha := a.toNat_lt
  have hb := b.toNat_lt
  have hq : (UInt32.ofNat (a.toNat * 65536 + b.toNat * 16777216)).toNat = a.toNat * 65536 + b.toNat * 16777216 := by
    rw [UInt32.toNat_ofNat']; exact Nat.mod_eq_of_lt (by omega)
  refine ⟨_, ?_, hq⟩
  unfold le32
  rw [hq]
  have e : ∀ (n : Nat) (c : UInt8), n % 256 = c.toNat → UInt8.ofNat n = c := by
    intro n c h
    apply UInt8.toNat_inj.1
    rw [UInt8.toNat_ofNat']
    exact h
  rw [e _ 0 (by simp; omega), e _ 0 (by simp; omega), e _ a (by omega), e _ b (by omega)]

/-- **C122 is false:** the name of the current thread is not all ASCII. Its field then
lacks its end: the severity becomes the last byte of the name, the first two letters of
the tag the colour, and the line is shown as critical. -/
theorem C122_false_thread (fd : Nat) {r : PyRec} {p : UInt32} (hp : pyPrio r.level = some p) (hp0 : p ≠ 0) {line : Bytes} (i : Nat)
    (hset : r.tset = []) (hasc : ∃ c ∈ r.tcur, 128 ≤ c.toNat) (hne : r.pid ≠ r.tid) (hpn : NoNul r.pname) (htn : NoNul (utf8 r.tcur))
    {a b : UInt8} {tag : Bytes} (htag : r.tag = a :: b :: tag) (hnt : NoNul tag) (hl : NoNul line)
    (hfit : r.pname.length + r.tcur.length + r.tag.length + line.length + 9 ≤ 4076) :
    ∃ v, rawLog fd (some (rawOf r p line i)) = some v ∧
      decode true (rawSpec v.flatten).payload =
        { pname := r.pname, tname := (utf8 r.tcur).take (r.tcur.length + 1) ++ [UInt8.ofNat p.toNat], tag, level := 0
          color := a.toNat * 256 + b.toNat * 65536, msg := .text line } := by
  have hlen : r.tcur.length + 1 ≤ (utf8 r.tcur).length := by
    obtain ⟨h1, h2⟩ := utf8_length r.tcur
    obtain ⟨c, hc, h128⟩ := hasc
    have : (utf8 r.tcur).length ≠ r.tcur.length := fun h => by have := h2.1 h c hc; omega
    omega
  have htf : r.tfield = (utf8 r.tcur).take (r.tcur.length + 1) := by
    unfold PyRec.tfield
    rw [if_neg (by simp [hset]), List.take_append_of_le_length hlen]
  have hp8 : p.toNat < 8 := (C75_levels hp).2.1
  have hpz : p.toNat ≠ 0 := fun h => hp0 (UInt32.toNat_inj.1 h)
  have hid : ¬ (r.pid = 0xffffffff ∧ r.tid = 0xffffffff) := fun h => hne (h.1.trans h.2.symm)
  have hle : le32 p = [UInt8.ofNat p.toNat, 0, 0, 0] := by
    unfold le32
    rw [show p.toNat / 256 = 0 by omega, show p.toNat / 65536 = 0 by omega, show p.toNat / 16777216 = 0 by omega]
    rfl
  have hpb : UInt8.ofNat p.toNat ≠ 0 := by
    intro h
    have := congrArg UInt8.toNat h
    rw [UInt8.toNat_ofNat'] at this
    simp at this
    omega
  obtain ⟨v, hv1, hv2⟩ : ∃ v, rawLog fd (some (rawOf r p line i)) = some v ∧
      v = [le32 r.pid ++ le32 r.tid ++ le32 (r.clock i).1 ++ le32 (r.clock i).2 ++ le32 0, r.pname ++ [0]] ++
        [r.tfield] ++ [le32 p, r.tag ++ [0]] ++ [(some (line ++ [0])).getD []] := by
    simp only [rawLog, rawLogv, rawOf, Option.isSome_none, Bool.false_eq_true, or_false]
    rw [if_neg (by omega)]
    exact ⟨_, if_neg hid, by simp [hne]⟩
  refine ⟨v, hv1, ?_⟩
  · have hv : (rawSpec v.flatten).payload = r.pname ++ 0 :: ((r.tfield ++ [UInt8.ofNat p.toNat]) ++ 0 :: ([0, 0, a, b] ++ tag ++ 0 :: (line ++ [0]))) := by
      rw [hv2]
      have : ([le32 r.pid ++ le32 r.tid ++ le32 (r.clock i).1 ++ le32 (r.clock i).2 ++ le32 0, r.pname ++ [0]] ++
          [r.tfield] ++ [le32 p, r.tag ++ [0]] ++ [(some (line ++ [0])).getD []]).flatten =
          le32 r.pid ++ le32 r.tid ++ le32 (r.clock i).1 ++ le32 (r.clock i).2 ++ le32 0 ++
            (r.pname ++ 0 :: ((r.tfield ++ [UInt8.ofNat p.toNat]) ++ 0 :: ([0, 0, a, b] ++ tag ++ 0 :: (line ++ [0])))) := by
        rw [hle, htag]
        simp
      rw [this, rawSpec_header]
      dsimp only
      refine List.take_of_length_le ?_
      have h1 : r.tfield.length = r.tcur.length + 1 := by rw [htf, List.length_take]; omega
      have h2 : r.tag.length = tag.length + 2 := by rw [htag]; rfl
      simp only [List.length_append, List.length_cons, List.length_nil, h1]
      omega
    rw [hv, htf]
    have hn : NoNul ((utf8 r.tcur).take (r.tcur.length + 1) ++ [UInt8.ofNat p.toNat]) := by
      intro c hc
      rcases List.mem_append.1 hc with hc | hc
      · exact htn c (List.mem_of_mem_take hc)
      · rw [List.mem_singleton.1 hc]; exact hpb
    obtain ⟨q, q1, q2⟩ := le32_tag a b
    rw [decode_two hpn hn, ← q1, decodeBody_prio hnt]
    have hb : prioBinary q = false := by unfold prioBinary; rw [q2]; simp; omega
    have hc : prioColor q = a.toNat * 256 + b.toNat * 65536 := by unfold prioColor; rw [q2]; omega
    have hlv : prioLevel q = 0 := by unfold prioLevel; rw [q2]; omega
    rw [hb, if_neg (by simp), if_neg (by simp), hc, hlv, clip_terminated hl []]

end Verif.Tools.PyDev
