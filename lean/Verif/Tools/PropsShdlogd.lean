import Verif.Tools.Shdlogd
import Verif.Tools.PropsShd

/-!
# What the daemon forwards from the shared memory (C112)
-/
namespace Verif.Tools.Shdd
open Verif Verif.Ulogcat Verif.Libulog Verif.Tools

/-! ## What should be forwarded -/

/-- A message of the writer: how many were logged before it, when, and itself. -/
structure Rec where
  pos : Nat
  ns : Nat
  msg : ShdMsg
  deriving DecidableEq

/-- All messages logged, how many of the oldest are gone from the memory, and those
forwarded. -/
structure Fwd where
  recs : List Rec
  lo : Nat
  out : List Rec

/-- What a reading finds: what is still there and later than all that was forwarded. -/
def Fwd.fresh (f : Fwd) : List Rec :=
  (f.recs.drop f.lo).filter fun x => match f.out.getLast? with | none => true | some r => decide (r.ns < x.ns)

def Fwd.step (f : Fwd) : SOp → Fwd
  | .log (.mk _ m ns _) => { f with recs := f.recs ++ [{ pos := f.recs.length, ns, msg := m }] }
  | .lose n => { f with lo := min f.recs.length (f.lo + n) }
  | .poll _ => { f with out := f.out ++ f.fresh.take 2048 }

def Fwd.run (f : Fwd) (ops : List SOp) : Fwd := ops.foldl Fwd.step f

def Fwd.start : Fwd := { recs := [], lo := 0, out := [] }

/-- The thread name and the text as stored. -/
def ShdMsg.thread (m : ShdMsg) : Bytes := cstr (m.comm.take 15)

def ShdMsg.stored (m : ShdMsg) : Bytes := cutMsg (256 - (m.thread.length + 1) - (m.tag.length + 1)) (m.text ++ [0])

/-- What is written to the log for a message: the header, the names, the priority and
the text, whose colour goes to the priority. -/
def shmVec (pname : Bytes) (r : Rec) : List Bytes :=
  let x := r.msg.stored
  let level := r.msg.prio.toNat % 8
  [le32 0 ++ le32 r.msg.tid ++ le32 (UInt32.ofNat (r.ns / 1000000000)) ++ le32 (UInt32.ofNat (r.ns % 1000000000)) ++ le32 0, pname ++ [0]] ++
    (if r.msg.tid = 0 then [] else [r.msg.thread ++ [0]]) ++
    [le32 (UInt32.ofNat (if Colored x then level + shdColor[(x[5]?.getD 0).toNat % 8]?.getD 0 * 256 else level)),
      r.msg.tag ++ [0], if Colored x then x.drop 7 else x]

/-- What is said if `n` messages are missing. -/
def lossSaid (n : Nat) : List DEv := if n = 0 then [] else if n < 32768 then [.lost n] else [.many]

/-- The events for the messages forwarded, of which `n` should be the number of the
first. -/
def fwdEvents (pname : Bytes) : Nat → List Rec → List DEv
  | _, [] => []
  | n, r :: l => .write (shmVec pname r) :: (lossSaid ((r.pos - n) % 65536) ++ fwdEvents pname (r.pos + 1) l)

/-- Calls with a record of the right size and a tag that fits; calls made meanwhile
may be any. -/
def GoodOp : SOp → Prop
  | .log (.mk old m _ _) => old.length = 256 ∧ m.thread.length + 1 + (m.tag.length + 1) < 256
  | _ => True

/-- Time does not go backwards. -/
def Mono (l : List Rec) : Prop := l.Pairwise fun a b => a.ns ≤ b.ns

/-! ## The writer -/

theorem calls_disabled (c : ShdCtrl) (h : c.enabled = false) : ∀ l, shdCalls c l = some (c, [])
  | [] => by rw [shdCalls]
  | .mk old m ns inner :: l => by
    rw [shdCalls, shdCall, h]
    simp only [Bool.false_eq_true, if_false]
    rw [calls_disabled c h l]
    rfl

/-- **C112, the writer:** a call writes one record with the next number, whatever is
logged while it is written; the calls made meanwhile write nothing. -/
theorem C112_writer {c : ShdCtrl} (h : c.enabled = true) (old : Bytes) (ho : old.length = 256) (m : ShdMsg) (ns : Nat) (inner : List ShdCall) :
    ∃ b, shdPack old m.prio (some m.comm) m.tid (m.tag ++ [0]) (m.text ++ [0]) c.index = some b ∧ b.index = c.index ∧
      shdCall c (.mk old m ns inner) = some ({ enabled := true, index := (c.index + 1) % 65536 }, [{ ns, blob := b }]) := by
  obtain ⟨b, h1, _, _, _, _, _, _, _, _, h2⟩ := C42_record ho m.prio m.tid m.comm (m.tag ++ [0]) (m.text ++ [0]) c.index
  refine ⟨b, h1, h2, ?_⟩
  rw [shdCall, h]
  simp only [if_true]
  rw [h1]
  dsimp only
  rw [calls_disabled _ rfl]

/-- **C112, before ulog_shd_init:** nothing is written and no number is used. -/
theorem C112_before (l : List ShdCall) : shdCalls ShdCtrl.start l = some (ShdCtrl.start, []) ∧
    ShdCtrl.start.init = { enabled := true, index := 1 } := ⟨calls_disabled _ rfl l, rfl⟩

/-! ## One record -/

/-- A sample that holds a message. -/
def Holds (r : Rec) (x : Sample) : Prop :=
  x.ns = r.ns ∧ r.msg.thread.length + 1 + (r.msg.tag.length + 1) < 256 ∧
    ∃ old : Bytes, old.length = 256 ∧
      shdPack old r.msg.prio (some r.msg.comm) r.msg.tid (r.msg.tag ++ [0]) (r.msg.text ++ [0]) (idx (r.pos + 1)) = some x.blob

/-- What stays the same in the entry of the daemon. -/
def Conf (pname : Bytes) (r : RawEntry) : Prop := r.pid = 0 ∧ r.euid = 0 ∧ r.pname = pname ++ [0]

theorem lossOf_mod {a b : Nat} (h : a ≤ b) : lossOf (idx a) (idx (b + 1)) = lossSpec ((b - a) % 65536) := by
  have : (idx (b + 1) + 65536 - idx a + 65535) % 65536 = (b - a) % 65536 := by unfold idx; omega
  unfold lossOf lossSpec
  rw [this]

theorem lossEv_said (n : Nat) : lossEv (lossSpec n) = lossSaid n := by
  unfold lossSpec lossSaid
  split
  · rfl
  · split <;> rfl

theorem forward_any {fd : Int} (hfd : 0 ≤ fd) {pad : UInt8} {pname : Bytes} {d : Shdlogd} {r : Rec} {x : Sample}
    (hc : Conf pname d.raw) (hx : Holds r x) :
    ∃ raw, forwardOne fd pad d x.blob x.ns = some ({ d with raw, index := idx (r.pos + 1) },
      .write (shmVec pname r) :: lossEv (lossOf d.index (idx (r.pos + 1)))) ∧ Conf pname raw := by
  obtain ⟨hns, hfit, old, ho, hb⟩ := hx
  obtain ⟨e1, e2, e3, e4, e5, e6, e7, e8, e9⟩ := record_parts ho hb (by simpa [ShdMsg.thread] using hfit)
  obtain ⟨b', h1, _, _, _, _, _, _, _, _, hidx⟩ := C42_record ho r.msg.prio r.msg.tid r.msg.comm (r.msg.tag ++ [0]) (r.msg.text ++ [0]) (idx (r.pos + 1))
  rw [hb] at h1; cases h1
  have hst : win x.blob.buf (x.blob.thn + x.blob.tag) x.blob.log = r.msg.stored := by
    rw [e9, e4, e5]; simp [ShdMsg.stored, ShdMsg.thread]
  have hp8 : x.blob.prio.toUInt32 = UInt32.ofNat (r.msg.prio.toNat % 8) := by
    rw [← e2]
    apply UInt32.toNat_inj.mp
    rw [UInt32.toNat_ofNat', UInt8.toNat_toUInt32]
    have := x.blob.prio.toNat_lt
    omega
  have hf := fillRaw_spec (raw := d.raw) (pad := pad) (sec := UInt32.ofNat (x.ns / 1000000000)) (nsec := UInt32.ofNat (x.ns % 1000000000))
    e1 (by omega) e6 (by omega)
  rw [hst, e7, e8, e2, hp8, e3] at hf
  unfold forwardOne
  cases hq : fillRaw d.raw pad x.blob (UInt32.ofNat (x.ns / 1000000000)) (UInt32.ofNat (x.ns % 1000000000)) with
  | none => rw [hq] at hf; cases hf
  | some R =>
    rw [hq] at hf
    have hR := Option.some.inj hf
    dsimp only
    obtain ⟨c1, c2, c3⟩ := hc
    have hw : rawLog fd (some R) = some (shmVec pname r) := by
      rw [hR]
      unfold rawLog rawLogv
      dsimp only
      rw [if_neg (by simp; omega), if_neg (by rw [c1]; intro h; exact absurd h.1 (by decide))]
      rw [c1, c2, c3]
      unfold shmVec
      dsimp only
      rw [hns]
      by_cases ht : r.msg.tid = 0
      · rw [if_neg (by rw [ht]; decide), if_pos ht]
        by_cases hcol : Colored r.msg.stored
        · simp only [hcol, if_true, Option.getD_some]; rfl
        · simp only [hcol, if_false, Option.getD_some]; rfl
      · rw [if_pos (fun h => ht h.symm), if_neg ht]
        by_cases hcol : Colored r.msg.stored
        · simp only [hcol, if_true, Option.getD_some]; rfl
        · simp only [hcol, if_false, Option.getD_some]; rfl
    rw [hw, hidx]
    exact ⟨R, rfl, by rw [hR]; exact c1, by rw [hR]; exact c2, by rw [hR]; exact c3⟩

theorem forward_one {fd : Int} (hfd : 0 ≤ fd) {pad : UInt8} {pname : Bytes} {d : Shdlogd} {r : Rec} {x : Sample} {n : Nat}
    (hc : Conf pname d.raw) (hx : Holds r x) (hi : d.index = idx n) (hn : n ≤ r.pos) :
    ∃ raw, forwardOne fd pad d x.blob x.ns = some ({ d with raw, index := idx (r.pos + 1) },
      .write (shmVec pname r) :: lossSaid ((r.pos - n) % 65536)) ∧ Conf pname raw := by
  have := forward_any hfd (pad := pad) hc hx
  rw [hi, lossOf_mod hn, lossEv_said] at this
  exact this

/-! ## A batch -/

/-- Samples that hold these messages. -/
def HoldAll : List Rec → List Sample → Prop
  | [], [] => True
  | r :: l, x :: xs => Holds r x ∧ HoldAll l xs
  | _, _ => False

theorem HoldAll.length {l : List Rec} {xs : List Sample} (h : HoldAll l xs) : xs.length = l.length := by
  induction l generalizing xs with
  | nil => cases xs with
    | nil => rfl
    | cons => exact h.elim
  | cons r l ih => cases xs with
    | nil => exact h.elim
    | cons x xs => simp [ih h.2]

theorem HoldAll.append {l l' : List Rec} {xs xs' : List Sample} (h : HoldAll l xs) (h' : HoldAll l' xs') : HoldAll (l ++ l') (xs ++ xs') := by
  induction l generalizing xs with
  | nil => cases xs with
    | nil => exact h'
    | cons => exact h.elim
  | cons r l ih => cases xs with
    | nil => exact h.elim
    | cons x xs => exact ⟨h.1, ih h.2⟩

theorem HoldAll.drop {l : List Rec} {xs : List Sample} (h : HoldAll l xs) (n : Nat) : HoldAll (l.drop n) (xs.drop n) := by
  induction n generalizing l xs with
  | zero => exact h
  | succ n ih =>
    cases l <;> cases xs
    · trivial
    · exact h.elim
    · exact h.elim
    · exact ih h.2

theorem HoldAll.take {l : List Rec} {xs : List Sample} (h : HoldAll l xs) (n : Nat) : HoldAll (l.take n) (xs.take n) := by
  induction n generalizing l xs with
  | zero => trivial
  | succ n ih =>
    cases l <;> cases xs
    · trivial
    · exact h.elim
    · exact h.elim
    · exact ⟨h.1, ih h.2⟩

theorem HoldAll.map {l : List Rec} {xs : List Sample} (h : HoldAll l xs) : xs.map (·.ns) = l.map (·.ns) := by
  induction l generalizing xs with
  | nil => cases xs with
    | nil => rfl
    | cons => exact h.elim
  | cons r l ih => cases xs with
    | nil => exact h.elim
    | cons x xs => rw [List.map_cons, List.map_cons, h.1.1, ih h.2]

/-- Skipping the samples before a date. -/
theorem HoldAll.skip {l : List Rec} {xs : List Sample} (h : HoldAll l xs) (hm : Mono l) (t : Nat) :
    HoldAll (l.filter fun r => decide (t < r.ns)) (xs.drop (xs.takeWhile fun x => decide (x.ns < t + 1)).length) := by
  induction l generalizing xs with
  | nil => cases xs with
    | nil => trivial
    | cons => exact h.elim
  | cons r l ih => cases xs with
    | nil => exact h.elim
    | cons x xs =>
      have hm' := List.pairwise_cons.mp hm
      by_cases ht : t < r.ns
      · have e : (r :: l).filter (fun r => decide (t < r.ns)) = r :: l := by
          rw [List.filter_eq_self]
          intro a ha
          rcases List.mem_cons.mp ha with rfl | ha
          · simpa using ht
          · have := hm'.1 a ha
            simp; omega
        rw [e, List.takeWhile_cons_of_neg (by have := h.1.1; simp; omega)]
        exact h
      · rw [List.filter_cons_of_neg (by simpa using ht), List.takeWhile_cons_of_pos (by have := h.1.1; simp; omega)]
        exact ih h.2 hm'.2

/-- The number of the record expected after these. -/
def expected (n : Nat) (l : List Rec) : Nat := match l.getLast? with | none => n | some r => r.pos + 1

/-- Positions that increase, from `n` on. -/
def Incr : Nat → List Rec → Prop
  | _, [] => True
  | n, r :: l => n ≤ r.pos ∧ Incr (r.pos + 1) l

theorem expected_cons (n : Nat) (r : Rec) (l : List Rec) : expected n (r :: l) = expected (r.pos + 1) l := by
  unfold expected
  cases l with
  | nil => rfl
  | cons a l => rw [List.getLast?_cons_cons]; cases h : (a :: l).getLast? with
    | none => simp at h
    | some => rfl

theorem forward_all {fd : Int} (hfd : 0 ≤ fd) {pad : UInt8} {pname : Bytes} {l : List Rec} {xs : List Sample} (h : HoldAll l xs)
    {d : Shdlogd} {n : Nat} (hc : Conf pname d.raw) (hi : d.index = idx n) (hl : Incr n l) :
    ∃ raw, forwardAll fd pad d (xs.map fun x => (x.blob, x.ns)) = some ({ d with raw, index := idx (expected n l) }, fwdEvents pname n l) ∧
      Conf pname raw := by
  induction l generalizing xs d n with
  | nil => cases xs with
    | nil => exact ⟨d.raw, by rw [List.map_nil, forwardAll, fwdEvents]; rw [show expected n [] = n from rfl, ← hi], hc⟩
    | cons => exact h.elim
  | cons r l ih => cases xs with
    | nil => exact h.elim
    | cons x xs =>
      obtain ⟨raw, e1, c1⟩ := forward_one hfd (pad := pad) hc h.1 hi hl.1
      obtain ⟨raw', e2, c2⟩ := ih h.2 (d := { d with raw, index := idx (r.pos + 1) }) c1 rfl hl.2
      refine ⟨raw', ?_, c2⟩
      rw [List.map_cons, forwardAll, e1]
      dsimp only
      rw [e2]
      dsimp only
      rw [expected_cons, fwdEvents]
      rfl

theorem fwdEvents_append (pname : Bytes) (n : Nat) (l l' : List Rec) :
    fwdEvents pname n (l ++ l') = fwdEvents pname n l ++ fwdEvents pname (expected n l) l' := by
  induction l generalizing n with
  | nil => rfl
  | cons r l ih => rw [List.cons_append, fwdEvents, fwdEvents, ih, expected_cons]; simp

theorem expected_append (n : Nat) (l l' : List Rec) : expected n (l ++ l') = expected (expected n l) l' := by
  induction l generalizing n with
  | nil => rfl
  | cons r l ih => rw [List.cons_append, expected_cons, ih, expected_cons]

/-! ## Whole runs -/

/-- Messages numbered one after the other. -/
def Numbered (l : List Rec) : Prop := ∀ (i : Nat) (r : Rec), l[i]? = some r → r.pos = i

structure Rel (pname : Bytes) (s : Shm) (f : Fwd) : Prop where
  ctrl : s.ctrl = { enabled := true, index := idx (f.recs.length + 1) }
  hist : HoldAll f.recs s.sect.hist
  lo : s.sect.lo = f.lo
  num : Numbered f.recs
  sub : ∀ r ∈ f.out, r ∈ f.recs
  conf : Conf pname s.dmn.raw
  index : s.dmn.index = idx (expected 0 f.out)
  blobs : s.dmn.blobs.length = 2048
  stamps : s.dmn.stamps.length = 2048
  stop : s.dmn.stop = false
  search : match f.out.getLast? with
    | none => s.dmn.search = .oldest
    | some r => s.dmn.search = .firstAfter ∧ s.dmn.date = r.ns + 1

theorem Numbered.incr {n : Nat} {l : List Rec} (h : ∀ (i : Nat) (r : Rec), l[i]? = some r → r.pos = n + i) : Incr n l := by
  induction l generalizing n with
  | nil => trivial
  | cons a l ih =>
    have h0 := h 0 a rfl
    refine ⟨by omega, ih ?_⟩
    intro i r hr
    have := h (i + 1) r hr
    omega

theorem Incr.mono {n m : Nat} {l : List Rec} (h : Incr m l) (hn : n ≤ m) : Incr n l := by
  cases l with
  | nil => trivial
  | cons a l => exact ⟨Nat.le_trans hn h.1, h.2⟩

theorem Incr.take {n : Nat} {l : List Rec} (h : Incr n l) (k : Nat) : Incr n (l.take k) := by
  induction k generalizing n l with
  | zero => trivial
  | succ k ih => cases l with
    | nil => trivial
    | cons a l => exact ⟨h.1, ih h.2⟩

/-- A part chosen by a condition that all its records have beyond `m`. -/
theorem Incr.filter {n m : Nat} {l : List Rec} (h : Incr n l) (p : Rec → Bool) (hp : ∀ r ∈ l, p r = true → m ≤ r.pos) : Incr m (l.filter p) := by
  induction l generalizing n m with
  | nil => trivial
  | cons a l ih =>
    have hge : ∀ r ∈ l, a.pos + 1 ≤ r.pos := by
      have : ∀ {k : Nat} {l : List Rec}, Incr k l → ∀ r ∈ l, k ≤ r.pos := by
        intro k l
        induction l generalizing k with
        | nil => intro _ r hr; cases hr
        | cons b l ih =>
          intro h r hr
          rcases List.mem_cons.mp hr with rfl | hr
          · exact h.1
          · exact Nat.le_trans (by have := h.1; omega) (ih h.2 r hr)
      exact this h.2
    by_cases ha : p a = true
    · rw [List.filter_cons_of_pos ha]
      exact ⟨hp a (by simp) ha, ih h.2 fun r hr _ => hge r hr⟩
    · rw [List.filter_cons_of_neg ha]
      exact ih h.2 fun r hr => hp r (by simp [hr])

/-- Later in time is later in number. -/
theorem pos_of_ns {l : List Rec} (hn : Numbered l) (hm : Mono l) {a b : Rec} (ha : a ∈ l) (hb : b ∈ l) (h : a.ns < b.ns) : a.pos < b.pos := by
  obtain ⟨i, hi⟩ := List.getElem?_of_mem ha
  obtain ⟨j, hj⟩ := List.getElem?_of_mem hb
  rw [hn i a hi, hn j b hj]
  rcases Nat.lt_trichotomy i j with h' | h' | h'
  · exact h'
  · subst h'; rw [hi] at hj; cases hj; omega
  · obtain ⟨hi', ei⟩ := List.getElem?_eq_some_iff.mp hi
    obtain ⟨hj', ej⟩ := List.getElem?_eq_some_iff.mp hj
    have := List.pairwise_iff_getElem.mp hm j i hj' hi' h'
    rw [ei, ej] at this
    omega

/-- What is found has higher numbers than what was forwarded. -/
theorem fresh_incr {f : Fwd} (hn : Numbered f.recs) (hm : Mono f.recs) (hs : ∀ r ∈ f.out, r ∈ f.recs) :
    Incr (expected 0 f.out) f.fresh := by
  unfold Fwd.fresh
  have h0 : Incr f.lo (f.recs.drop f.lo) := Numbered.incr (n := f.lo) fun i r hr => by
    rw [List.getElem?_drop] at hr
    exact hn _ _ hr
  refine h0.filter _ ?_
  intro r hr hp
  unfold expected
  cases hl : f.out.getLast? with
  | none => exact Nat.zero_le _
  | some q =>
    rw [hl] at hp
    exact pos_of_ns hn hm (hs q (List.mem_of_getLast? hl)) (List.mem_of_mem_drop hr) (by simpa using hp)

theorem step_rel {fd : Int} (hfd : 0 ≤ fd) {pname : Bytes} {s : Shm} {f : Fwd} (h : Rel pname s f) {op : SOp} (hg : GoodOp op)
    (hm : Mono f.recs) :
    ∃ s' e, s.step fd op = some (s', e) ∧ Rel pname s' (f.step op) ∧
      fwdEvents pname 0 (f.step op).out = fwdEvents pname 0 f.out ++ e := by
  cases op with
  | lose n =>
    refine ⟨_, [], rfl, ?_, by rw [List.append_nil]; rfl⟩
    exact { h with lo := by show min _ _ = min _ _; rw [h.hist.length, h.lo] }
  | log c =>
    obtain ⟨old, m, ns, inner⟩ := c
    obtain ⟨b, h1, _, h3⟩ := C112_writer (c := s.ctrl) (by rw [h.ctrl]) old hg.1 m ns inner
    unfold Shm.step
    dsimp only
    rw [h3]
    dsimp only
    refine ⟨_, [], rfl, ?_, by rw [List.append_nil]; rfl⟩
    refine { h with ctrl := ?_, hist := ?_, num := ?_, sub := ?_ }
    · dsimp only [Fwd.step]
      rw [h.ctrl]
      simp only [List.length_append, List.length_singleton, ShdCtrl.mk.injEq, true_and]
      unfold idx; omega
    · refine h.hist.append ⟨⟨rfl, hg.2, old, hg.1, ?_⟩, trivial⟩
      rw [h.ctrl] at h1
      exact h1
    · intro i r hr
      dsimp only [Fwd.step] at hr
      rcases Nat.lt_or_ge i f.recs.length with hi | hi
      · rw [List.getElem?_append_left hi] at hr; exact h.num i r hr
      · rw [List.getElem?_append_right hi] at hr
        obtain ⟨h', e⟩ := List.getElem?_eq_some_iff.mp hr
        simp only [List.length_singleton] at h'
        simp only [List.getElem_singleton] at e
        rw [← e]; dsimp only; omega
    · intro r hr
      exact List.mem_append_left _ (h.sub r hr)
  | poll pad =>
    have hw : HoldAll f.fresh (s.sect.hist.drop (s.sect.begin s.dmn.search s.dmn.date)) := by
      have hd := h.hist.drop f.lo
      have hmd : Mono (f.recs.drop f.lo) := List.Pairwise.sublist (List.drop_sublist _ _) hm
      have hs := h.search
      unfold Fwd.fresh
      cases hl : f.out.getLast? with
      | none =>
        rw [hl] at hs
        rw [hs, Sect.begin, h.lo, List.filter_eq_self.mpr (fun _ _ => rfl)]
        exact hd
      | some r =>
        rw [hl] at hs
        rw [hs.1, hs.2, Sect.begin, h.lo, ← List.drop_drop]
        exact hd.skip hmd r.ns
    have hw' := hw.take 2048
    have hinc := (fresh_incr h.num hm h.sub).take 2048
    unfold Shm.step turn
    dsimp only
    rw [h.stop]
    simp only [Bool.false_eq_true, if_false]
    unfold Sect.answers
    dsimp only [Fwd.step]
    generalize hA : (s.sect.hist.drop (s.sect.begin s.dmn.search s.dmn.date)).take 2048 = A at *
    generalize hB : f.fresh.take 2048 = B at *
    have hlen : A.length ≤ 2048 := by rw [← hA, List.length_take]; omega
    by_cases hne : A = []
    · have hB0 : B = [] := by
        have := hw'.length
        rw [hne] at this
        exact List.eq_nil_of_length_eq_zero this.symm
      rw [if_pos hne, hB0]
      unfold readSamples
      refine ⟨_, [], rfl, ?_, by simp⟩
      simp only [List.append_nil]
      exact h
    · rw [if_neg hne]
      unfold readSamples
      dsimp only
      rw [if_neg (by rw [h.stamps, List.length_map]; omega), if_neg (by simp)]
      have hz : ((A.map (·.blob) ++ s.dmn.blobs.drop A.length).take (A.map (·.ns)).length).zip
          ((A.map (·.ns) ++ s.dmn.stamps.drop (A.map (·.ns)).length).take (A.map (·.ns)).length) = A.map fun x => (x.blob, x.ns) := by
        rw [List.take_left, show (A.map (·.ns)).length = (A.map (·.blob)).length by simp, List.take_left, List.zip_map']
      rw [hz]
      obtain ⟨raw, e1, c1⟩ := forward_all hfd (pad := pad) hw' (d := { s.dmn with
        stamps := A.map (·.ns) ++ s.dmn.stamps.drop (A.map (·.ns)).length, blobs := A.map (·.blob) ++ s.dmn.blobs.drop A.length })
        h.conf h.index hinc
      rw [e1]
      dsimp only
      have hBne : B ≠ [] := by
        intro hb
        have := hw'.length
        rw [hb] at this
        exact hne (List.eq_nil_of_length_eq_zero this)
      obtain ⟨q, hq⟩ : ∃ q, B.getLast? = some q := ⟨B.getLast hBne, List.getLast?_eq_some_getLast hBne⟩
      have hlast : (A.map (·.ns)).getLast? = some q.ns := by rw [hw'.map, List.getLast?_map, hq]; rfl
      rw [hlast]
      dsimp only
      refine ⟨_, _, rfl, ?_, by rw [fwdEvents_append]; simp⟩
      refine { h with sub := ?_, conf := c1, index := ?_, blobs := ?_, stamps := ?_, search := ?_ }
      · intro r hr
        rcases List.mem_append.mp hr with hr | hr
        · exact h.sub r hr
        · rw [← hB] at hr
          exact List.mem_of_mem_drop (List.mem_filter.mp (List.mem_of_mem_take hr)).1
      · dsimp only; rw [expected_append]
      · dsimp only; rw [List.length_append, List.length_map, List.length_drop, h.blobs]; omega
      · dsimp only; rw [List.length_append, List.length_drop, List.length_map, h.stamps]; omega
      · rw [List.getLast?_append, hq]; exact ⟨rfl, rfl⟩

theorem step_prefix (f : Fwd) (op : SOp) : f.recs <+: (f.step op).recs := by
  cases op with
  | log c => obtain ⟨old, m, ns, inner⟩ := c; exact List.prefix_append _ _
  | lose n => exact List.prefix_rfl
  | poll p => exact List.prefix_rfl

theorem run_prefix (f : Fwd) (ops : List SOp) : f.recs <+: (f.run ops).recs := by
  induction ops generalizing f with
  | nil => exact List.prefix_rfl
  | cons op ops ih => exact (step_prefix f op).trans (ih (f.step op))

theorem run_rel {fd : Int} (hfd : 0 ≤ fd) {pname : Bytes} {ops : List SOp} (hg : ∀ op ∈ ops, GoodOp op) {s : Shm} {f : Fwd}
    (h : Rel pname s f) (hm : Mono (f.run ops).recs) :
    ∃ s' e, s.run fd ops = some (s', e) ∧ Rel pname s' (f.run ops) ∧
      fwdEvents pname 0 (f.run ops).out = fwdEvents pname 0 f.out ++ e := by
  induction ops generalizing s f with
  | nil => exact ⟨s, [], rfl, h, by rw [List.append_nil]; rfl⟩
  | cons op ops ih =>
    obtain ⟨s1, e1, h1, h2, h3⟩ := step_rel hfd h (hg op (by simp)) (List.Pairwise.sublist (run_prefix f (op :: ops)).sublist hm)
    obtain ⟨s2, e2, h4, h5, h6⟩ := ih (fun o ho => hg o (by simp [ho])) h2 hm
    refine ⟨s2, e1 ++ e2, ?_, h5, ?_⟩
    · rw [Shm.run, h1]; dsimp only; rw [h4]
    · show fwdEvents pname 0 ((f.step op).run ops).out = _
      rw [h6, h3, List.append_assoc]

/-- Writer initialised, nothing written yet, and a daemon just started. -/
def Shm.start (pname : Bytes) (blobs : List Blob) (stamps : List Nat) : Shm :=
  { ctrl := ShdCtrl.start.init, sect := { hist := [], lo := 0 }, dmn := Shdlogd.start pname blobs stamps }

theorem start_rel {pname : Bytes} {blobs : List Blob} {stamps : List Nat} (hb : blobs.length = 2048) (hs : stamps.length = 2048) :
    Rel pname (Shm.start pname blobs stamps) Fwd.start where
  ctrl := rfl
  hist := trivial
  lo := rfl
  num := fun i r hr => by simp [Fwd.start] at hr
  sub := fun r hr => by cases hr
  conf := ⟨rfl, rfl, rfl⟩
  index := rfl
  blobs := hb
  stamps := hs
  stop := rfl
  search := rfl

/-- **C112.** For any messages logged, any readings by the daemon and any samples
overwritten in between, in any order: no undefined behaviour; the daemon writes to the
log exactly the messages it should, with the announcements of losses. -/
theorem C112_forward {fd : Int} (hfd : 0 ≤ fd) {pname : Bytes} {blobs : List Blob} {stamps : List Nat} (hb : blobs.length = 2048)
    (hs : stamps.length = 2048) {ops : List SOp} (hg : ∀ op ∈ ops, GoodOp op) (hm : Mono (Fwd.start.run ops).recs) :
    ∃ s', (Shm.start pname blobs stamps).run fd ops = some (s', fwdEvents pname 0 (Fwd.start.run ops).out) := by
  obtain ⟨s', e, h1, _, h3⟩ := run_rel hfd hg (start_rel (pname := pname) hb hs) hm
  exact ⟨s', by rw [h1, h3]; rfl⟩

/-! ## What that means -/

/-- What a spec state has after any run. -/
structure Fwd.Ok (f : Fwd) : Prop where
  num : Numbered f.recs
  sub : ∀ r ∈ f.out, r ∈ f.recs
  incr : Incr 0 f.out
  /-- what was passed over was gone, or has the time of one forwarded before -/
  miss : ∀ r ∈ f.recs, r.pos < expected 0 f.out → r ∉ f.out → r.pos < f.lo ∨ ∃ q ∈ f.out, q.pos < r.pos ∧ q.ns = r.ns

theorem Incr.append {n : Nat} {l l' : List Rec} (h : Incr n l) (h' : Incr (expected n l) l') : Incr n (l ++ l') := by
  induction l generalizing n with
  | nil => exact h'
  | cons a l ih => exact ⟨h.1, ih h.2 (by rw [← expected_cons n a l]; exact h')⟩

theorem Incr.lt_expected {n : Nat} {l : List Rec} (h : Incr n l) : n ≤ expected n l ∧ ∀ r ∈ l, r.pos < expected n l := by
  induction l generalizing n with
  | nil => exact ⟨Nat.le_refl _, fun r hr => by cases hr⟩
  | cons a l ih =>
    obtain ⟨h1, h2⟩ := ih h.2
    rw [expected_cons]
    refine ⟨by have := h.1; omega, fun r hr => ?_⟩
    rcases List.mem_cons.mp hr with rfl | hr
    · omega
    · exact h2 r hr

theorem Incr.pairwise {n : Nat} {l : List Rec} (h : Incr n l) : l.Pairwise (fun a b => a.pos < b.pos) ∧ ∀ r ∈ l, n ≤ r.pos := by
  induction l generalizing n with
  | nil => exact ⟨List.Pairwise.nil, fun r hr => by cases hr⟩
  | cons a l ih =>
    obtain ⟨h1, h2⟩ := ih h.2
    refine ⟨List.pairwise_cons.mpr ⟨fun b hb => h2 b hb, h1⟩, fun r hr => ?_⟩
    rcases List.mem_cons.mp hr with rfl | hr
    · exact h.1
    · have := h2 r hr
      have := h.1
      omega

theorem step_ok {f : Fwd} (h : f.Ok) (hm : Mono f.recs) (op : SOp) : (f.step op).Ok := by
  cases op with
  | lose n =>
    refine ⟨h.num, h.sub, h.incr, fun r hr hp hn => ?_⟩
    rcases h.miss r hr hp hn with h' | h'
    · left
      obtain ⟨i, hi⟩ := List.getElem?_of_mem hr
      have := h.num i r hi
      obtain ⟨hi', _⟩ := List.getElem?_eq_some_iff.mp hi
      show r.pos < min f.recs.length (f.lo + n)
      have : i < f.recs.length := hi'
      omega
    · exact .inr h'
  | log c =>
    obtain ⟨old, m, ns, inner⟩ := c
    have hlt : ∀ r ∈ f.recs, r.pos < f.recs.length := fun r hr => by
      obtain ⟨i, hi⟩ := List.getElem?_of_mem hr
      rw [h.num i r hi]
      exact (List.getElem?_eq_some_iff.mp hi).1
    refine ⟨?_, fun r hr => List.mem_append_left _ (h.sub r hr), h.incr, fun r hr hp hn => ?_⟩
    · intro i r hr
      dsimp only [Fwd.step] at hr
      rcases Nat.lt_or_ge i f.recs.length with hi | hi
      · rw [List.getElem?_append_left hi] at hr; exact h.num i r hr
      · rw [List.getElem?_append_right hi] at hr
        obtain ⟨h', e⟩ := List.getElem?_eq_some_iff.mp hr
        simp only [List.length_singleton] at h'
        simp only [List.getElem_singleton] at e
        rw [← e]; dsimp only; omega
    · rcases List.mem_append.mp hr with hr | hr
      · exact h.miss r hr hp hn
      · exfalso
        have hr := List.mem_singleton.mp hr
        have hle : expected 0 f.out ≤ f.recs.length := by
          unfold expected
          cases hl : f.out.getLast? with
          | none => exact Nat.zero_le _
          | some q => exact hlt q (h.sub q (List.mem_of_getLast? hl))
        rw [hr] at hp
        exact Nat.lt_irrefl _ (Nat.lt_of_lt_of_le hp hle)
  | poll pad =>
    have hinc := fresh_incr h.num hm h.sub
    refine ⟨h.num, ?_, h.incr.append (hinc.take 2048), ?_⟩
    · intro r hr
      rcases List.mem_append.mp hr with hr | hr
      · exact h.sub r hr
      · exact List.mem_of_mem_drop (List.mem_filter.mp (List.mem_of_mem_take hr)).1
    · intro r hr hp hn
      dsimp only [Fwd.step] at hp hn ⊢
      rw [expected_append] at hp
      have hn' : r ∉ f.out := fun h' => hn (List.mem_append_left _ h')
      by_cases hlo : r.pos < f.lo
      · exact .inl hlo
      right
      by_cases hb : r.pos < expected 0 f.out
      · rcases h.miss r hr hb hn' with h' | ⟨q, hq, h1, h2⟩
        · exact absurd h' hlo
        · exact ⟨q, List.mem_append_left _ hq, h1, h2⟩
      -- above what was forwarded before: a record that the filter left out
      have hrd : r ∈ f.recs.drop f.lo := by
        obtain ⟨i, hi⟩ := List.getElem?_of_mem hr
        have hri := h.num i r hi
        refine List.mem_of_getElem? (i := i - f.lo) ?_
        rw [List.getElem?_drop, show f.lo + (i - f.lo) = i by omega]
        exact hi
      by_cases hf : r ∈ f.fresh
      · exfalso
        -- it is among the first 2048 as a later one is
        obtain ⟨i, hi⟩ := List.getElem?_of_mem hf
        rcases Nat.lt_or_ge i 2048 with h' | h'
        · exact hn (List.mem_append_right _ (List.mem_of_getElem? (i := i) (by rw [List.getElem?_take, if_pos h']; exact hi)))
        · obtain ⟨q, hq⟩ : ∃ q, (f.fresh.take 2048).getLast? = some q := by
            cases hc : (f.fresh.take 2048).getLast? with
            | some q => exact ⟨q, rfl⟩
            | none =>
              have hi' := (List.getElem?_eq_some_iff.mp hi).1
              have := List.getLast?_eq_none_iff.mp hc
              have := congrArg List.length this
              rw [List.length_take, List.length_nil] at this
              omega
          have hle : expected (expected 0 f.out) (f.fresh.take 2048) = q.pos + 1 := by
            rw [expected, hq]
          rw [hle] at hp
          have hqm := List.mem_of_getLast? hq
          obtain ⟨j, hj⟩ := List.getElem?_of_mem hqm
          rw [List.getElem?_take] at hj
          split at hj
          · next hj' =>
            obtain ⟨a1, a2⟩ := List.getElem?_eq_some_iff.mp hi
            obtain ⟨b1, b2⟩ := List.getElem?_eq_some_iff.mp hj
            have := List.pairwise_iff_getElem.mp hinc.pairwise.1 j i b1 a1 (by omega)
            rw [a2, b2] at this
            omega
          · cases hj
      · unfold Fwd.fresh at hf
        rw [List.mem_filter] at hf
        cases hl : f.out.getLast? with
        | none => rw [hl] at hf; exact absurd ⟨hrd, rfl⟩ hf
        | some q =>
          rw [hl] at hf
          have hns : ¬ q.ns < r.ns := fun h' => hf ⟨hrd, by simpa using h'⟩
          have hex : expected 0 f.out = q.pos + 1 := by rw [expected, hl]
          have hqm := List.mem_of_getLast? hl
          refine ⟨q, List.mem_append_left _ hqm, by omega, ?_⟩
          rcases Nat.lt_or_ge r.ns q.ns with h' | h'
          · have := pos_of_ns h.num hm hr (h.sub q hqm) h'
            omega
          · omega

theorem run_ok {f : Fwd} (h : f.Ok) {ops : List SOp} (hm : Mono (f.run ops).recs) : (f.run ops).Ok := by
  induction ops generalizing f with
  | nil => exact h
  | cons op ops ih => exact ih (step_ok h (List.Pairwise.sublist (run_prefix f (op :: ops)).sublist hm) op) hm

theorem start_ok : Fwd.start.Ok where
  num := fun i r hr => by simp [Fwd.start] at hr
  sub := fun r hr => by cases hr
  incr := trivial
  miss := fun r hr => by cases hr

/-- **C112, order:** what is forwarded are messages that were logged, in their order,
none twice. -/
theorem C112_order {ops : List SOp} (hm : Mono (Fwd.start.run ops).recs) :
    (Fwd.start.run ops).out.Sublist (Fwd.start.run ops).recs := by
  have h := run_ok start_ok hm
  have key : ∀ {n : Nat} {l out : List Rec}, (∀ (i : Nat) (r : Rec), l[i]? = some r → r.pos = n + i) → Incr n out → (∀ r ∈ out, r ∈ l) →
      out.Sublist l := by
    intro n l
    induction l generalizing n with
    | nil =>
      intro out _ _ hs
      cases out with
      | nil => exact List.Sublist.refl _
      | cons a out => exact absurd (hs a (by simp)) (by simp)
    | cons b l ih =>
      intro out hn hi hs
      have hl : ∀ (i : Nat) (r : Rec), l[i]? = some r → r.pos = n + 1 + i := fun i r hr => by
        have := hn (i + 1) r hr
        omega
      have hb := hn 0 b rfl
      cases out with
      | nil => exact List.nil_sublist _
      | cons a out =>
        have htail : ∀ r ∈ out, n + 1 ≤ r.pos := fun r hr => by
          have := hi.2.pairwise.2 r hr
          have := hi.1
          omega
        rcases List.mem_cons.mp (hs a (by simp)) with rfl | ha
        · refine List.Sublist.cons_cons _ (ih hl (hi.2.mono (by omega)) fun r hr => ?_)
          rcases List.mem_cons.mp (hs r (by simp [hr])) with rfl | hr'
          · have := htail r hr
            omega
          · exact hr'
        · have hap : n + 1 ≤ a.pos := by
            obtain ⟨i, hi'⟩ := List.getElem?_of_mem ha
            rw [hl i a hi']; omega
          refine List.Sublist.cons _ (ih hl ⟨hap, hi.2⟩ fun r hr => ?_)
          rcases List.mem_cons.mp hr with rfl | hr
          · exact ha
          · rcases List.mem_cons.mp (hs r (by simp [hr])) with rfl | hr'
            · have := htail r hr
              omega
            · exact hr'
  exact key (n := 0) (fun i r hr => by have := h.num i r hr; omega) h.incr h.sub

/-- **C112, what is missing:** a message that was not forwarded though a later one was
is gone from the memory, or has the same time as an earlier one that was forwarded. -/
theorem C112_missing {ops : List SOp} (hm : Mono (Fwd.start.run ops).recs) {r q : Rec} (hr : r ∈ (Fwd.start.run ops).recs)
    (hq : q ∈ (Fwd.start.run ops).out) (hlt : r.pos < q.pos) (hn : r ∉ (Fwd.start.run ops).out) :
    r.pos < (Fwd.start.run ops).lo ∨ ∃ p ∈ (Fwd.start.run ops).out, p.pos < r.pos ∧ p.ns = r.ns := by
  have h := run_ok start_ok hm
  exact h.miss r hr (Nat.lt_trans hlt (h.incr.lt_expected.2 q hq)) hn

/-- Time goes on between messages. -/
def Strict (l : List Rec) : Prop := l.Pairwise fun a b => a.ns < b.ns

theorem Strict.mono {l : List Rec} (h : Strict l) : Mono l := List.Pairwise.imp (fun h => Nat.le_of_lt h) h

theorem filter_later {l : List Rec} (h : Strict l) {k : Nat} {r : Rec} (hr : l[k]? = some r) :
    l.filter (fun x => decide (r.ns < x.ns)) = l.drop (k + 1) := by
  induction l generalizing k with
  | nil => simp at hr
  | cons a l ih =>
    have h' := List.pairwise_cons.mp h
    cases k with
    | zero =>
      have hr : a = r := by simpa using hr
      subst hr
      rw [List.filter_cons_of_neg (by simp), List.filter_eq_self.mpr (fun x hx => by simpa using h'.1 x hx)]
      rfl
    | succ k =>
      have hr : l[k]? = some r := by simpa using hr
      have := h'.1 r (List.mem_of_getElem? hr)
      rw [List.filter_cons_of_neg (by simp; omega), ih h'.2 hr]
      rfl

/-- Nothing is overwritten. -/
def Kept (ops : List SOp) : Prop := ∀ op ∈ ops, ∀ n, op ≠ .lose n

/-- A part of the messages from the first on was forwarded. -/
structure Fwd.Front (f : Fwd) : Prop where
  lo : f.lo = 0
  out : f.out = f.recs.take f.out.length

theorem front_fresh {f : Fwd} (h : f.Front) (hs : Strict f.recs) : f.fresh = f.recs.drop f.out.length := by
  unfold Fwd.fresh
  rw [h.lo, List.drop_zero]
  cases hl : f.out.getLast? with
  | none =>
    rw [List.getLast?_eq_none_iff] at hl
    rw [hl, List.filter_eq_self.mpr (fun _ _ => rfl)]
    rfl
  | some q =>
    have hlen : 0 < f.out.length := by
      rcases Nat.eq_zero_or_pos f.out.length with h0 | h0
      · rw [List.eq_nil_of_length_eq_zero h0] at hl; cases hl
      · exact h0
    have hq : f.recs[f.out.length - 1]? = some q := by
      rw [List.getLast?_eq_getElem?, h.out, List.getElem?_take] at hl
      rw [← h.out] at hl
      rw [if_pos (by omega)] at hl
      exact hl
    show f.recs.filter (fun x => decide (q.ns < x.ns)) = _
    rw [filter_later hs hq, show f.out.length - 1 + 1 = f.out.length by omega]

theorem front_step {f : Fwd} (h : f.Front) (hs : Strict f.recs) {op : SOp} (hk : ∀ n, op ≠ .lose n) : (f.step op).Front := by
  cases op with
  | lose n => exact absurd rfl (hk n)
  | log c =>
    obtain ⟨old, m, ns, inner⟩ := c
    refine ⟨h.lo, ?_⟩
    dsimp only [Fwd.step]
    have : f.out.length ≤ f.recs.length := by
      have := congrArg List.length h.out
      rw [List.length_take] at this
      omega
    rw [List.take_append_of_le_length this]
    exact h.out
  | poll pad =>
    refine ⟨h.lo, ?_⟩
    dsimp only [Fwd.step]
    rw [front_fresh h hs, List.length_append, List.length_take, List.length_drop, List.take_add]
    rw [← h.out]
    congr 1
    rcases Nat.le_total 2048 (f.recs.length - f.out.length) with h' | h'
    · rw [Nat.min_eq_left h']
    · rw [Nat.min_eq_right h', List.take_of_length_le (by rw [List.length_drop]; omega), List.take_of_length_le (by rw [List.length_drop]; omega)]

theorem front_run {f : Fwd} (h : f.Front) {ops : List SOp} (hs : Strict (f.run ops).recs) (hk : Kept ops) : (f.run ops).Front := by
  induction ops generalizing f with
  | nil => exact h
  | cons op ops ih =>
    exact ih (front_step h (List.Pairwise.sublist (run_prefix f (op :: ops)).sublist hs) (hk op (by simp))) hs
      (fun o ho => hk o (by simp [ho]))

theorem fwdEvents_front {pname : Bytes} {n : Nat} {l : List Rec} (h : ∀ (i : Nat) (r : Rec), l[i]? = some r → r.pos = n + i) :
    fwdEvents pname n l = l.map fun r => .write (shmVec pname r) := by
  induction l generalizing n with
  | nil => rfl
  | cons a l ih =>
    have ha := h 0 a rfl
    have hl := ih (n := a.pos + 1) fun i r hr => by
      have := h (i + 1) r hr
      omega
    rw [fwdEvents, hl, show a.pos - n = 0 by omega]
    rfl

/-- **C112, nothing lost:** if no sample is overwritten and all messages have times of
their own, the daemon writes all messages from the first on in their order and announces
no loss; each reading takes all that are left, 2048 at most. -/
theorem C112_all {fd : Int} (hfd : 0 ≤ fd) {pname : Bytes} {blobs : List Blob} {stamps : List Nat} (hb : blobs.length = 2048)
    (hs : stamps.length = 2048) {ops : List SOp} (hg : ∀ op ∈ ops, GoodOp op) (hst : Strict (Fwd.start.run ops).recs) (hk : Kept ops) :
    (∃ s' k, k = (Fwd.start.run ops).out.length ∧ (Shm.start pname blobs stamps).run fd ops =
        some (s', ((Fwd.start.run ops).recs.take k).map fun r => .write (shmVec pname r))) ∧
      ∀ pad, (Fwd.start.run (ops ++ [.poll pad])).out.length =
        min (Fwd.start.run ops).recs.length ((Fwd.start.run ops).out.length + 2048) := by
  have hf : (Fwd.start.run ops).Front := front_run ⟨rfl, rfl⟩ hst hk
  have hok := run_ok start_ok hst.mono
  obtain ⟨s', h⟩ := C112_forward hfd (pname := pname) hb hs hg hst.mono
  have hlen : (Fwd.start.run ops).out.length ≤ (Fwd.start.run ops).recs.length := by
    have := congrArg List.length hf.out
    rw [List.length_take] at this
    omega
  refine ⟨⟨s', _, rfl, ?_⟩, fun pad => ?_⟩
  · rw [h, ← hf.out, fwdEvents_front]
    intro i r hr
    rw [hf.out, List.getElem?_take] at hr
    split at hr
    · rw [hok.num i r hr]; omega
    · cases hr
  · unfold Fwd.run at *
    rw [List.foldl_append, List.foldl_cons, List.foldl_nil]
    show (List.append _ _).length = _
    rw [List.append_eq, List.length_append, front_fresh hf hst, List.length_take, List.length_drop]
    omega

/-- The messages logged, with their times. -/
def loggedOps : List SOp → List (Nat × ShdMsg)
  | [] => []
  | .log (.mk _ m ns _) :: ops => (ns, m) :: loggedOps ops
  | _ :: ops => loggedOps ops

/-- C112: the records of the specification are the messages logged. -/
theorem C112_recs (ops : List SOp) : (Fwd.start.run ops).recs.map (fun r => (r.ns, r.msg)) = loggedOps ops := by
  have : ∀ (f : Fwd) (ops : List SOp), (f.run ops).recs.map (fun r => (r.ns, r.msg)) = f.recs.map (fun r => (r.ns, r.msg)) ++ loggedOps ops := by
    intro f ops
    induction ops generalizing f with
    | nil => simp [Fwd.run, loggedOps]
    | cons op ops ih =>
      show ((f.step op).run ops).recs.map _ = _
      rw [ih]
      cases op with
      | log c => obtain ⟨old, m, ns, inner⟩ := c; simp [Fwd.step, loggedOps]
      | lose n => rfl
      | poll p => rfl
  exact this Fwd.start ops

/-- C112 is false for messages with the same time, if the daemon reads between them: the
second is not forwarded, though it is never overwritten, whatever comes later. -/
theorem C112_false_same {old : Bytes} {m m' : ShdMsg} {ns : Nat} {pad : UInt8} (later : List SOp)
    (hm : Mono (Fwd.start.run ([.log (.mk old m ns []), .poll pad, .log (.mk old m' ns [])] ++ later)).recs) :
    let f := Fwd.start.run ([.log (.mk old m ns []), .poll pad, .log (.mk old m' ns [])] ++ later)
    ({ pos := 1, ns, msg := m' } : Rec) ∈ f.recs ∧ ({ pos := 1, ns, msg := m' } : Rec) ∉ f.out := by
  intro f
  have hf : f = ({ recs := [{ pos := 0, ns, msg := m }, { pos := 1, ns, msg := m' }], lo := 0, out := [{ pos := 0, ns, msg := m }] } : Fwd).run later := rfl
  have hm : Mono f.recs := hm
  rw [hf] at hm ⊢
  have key : ∀ (g : Fwd) (l : List SOp), (∃ q, g.out.getLast? = some q ∧ ns ≤ q.ns) → (∀ r ∈ g.out, r.pos ≠ 1 ∨ r.ns ≠ ns) →
      ∀ r ∈ (g.run l).out, r.pos ≠ 1 ∨ r.ns ≠ ns := by
    intro g l
    induction l generalizing g with
    | nil => intro _ h; exact h
    | cons op l ih =>
      intro ⟨q, hq, hns⟩ h
      refine ih (g.step op) ?_ ?_
      · cases op with
        | log c => obtain ⟨o, a, b, i⟩ := c; exact ⟨q, hq, hns⟩
        | lose n => exact ⟨q, hq, hns⟩
        | poll p =>
          dsimp only [Fwd.step]
          rw [List.getLast?_append]
          cases hl : (g.fresh.take 2048).getLast? with
          | none => exact ⟨q, by rw [hq]; rfl, hns⟩
          | some x =>
            refine ⟨x, rfl, ?_⟩
            have := (List.mem_filter.mp (List.mem_of_mem_take (List.mem_of_getLast? hl))).2
            rw [hq] at this
            have : q.ns < x.ns := by simpa using this
            omega
      · cases op with
        | log c => obtain ⟨o, a, b, i⟩ := c; exact h
        | lose n => exact h
        | poll p =>
          intro r hr
          rcases List.mem_append.mp hr with hr | hr
          · exact h r hr
          · have := (List.mem_filter.mp (List.mem_of_mem_take hr)).2
            rw [hq] at this
            have : q.ns < r.ns := by simpa using this
            right; omega
  refine ⟨(run_prefix _ later).subset (by simp), fun hin => ?_⟩
  have := key _ later ⟨_, rfl, Nat.le_refl _⟩ (by simp) _ hin
  simp at this

/-- C112. If libshdata finds no samples, nothing is written and the daemon goes on from the
same place at the next turn; all errors but ENOENT (2, nothing there) and EAGAIN (11) are
reported, and ENODEV (19, the section was made anew) makes it open the section again. -/
theorem C112_nothing {fd : Int} {d : Shdlogd} (hd : d.stop = false) (e : Nat) (left : List Blob) (read : Bool) (fin : Option Nat) (pad : UInt8) :
    ∃ evs, turn fd { sel := .fail e, left, read, fin, pad } d = some (d, evs) ∧ (∀ v, .write v ∉ evs) ∧
      (.reopen ∈ evs ↔ e = 19) ∧ (.failed ∈ evs ↔ e ≠ 2 ∧ e ≠ 11) := by
  unfold turn readSamples
  simp only [hd, Bool.false_eq_true, if_false]
  refine ⟨_, rfl, ?_, ?_, ?_⟩ <;> (repeat' split) <;> simp_all <;> omega

/-- C112 is false if the samples cannot be read: the failure is reported, but what the
memory holds from the last time, here one record, is written again with the time of the
new one, and a loss is announced. -/
theorem C112_false_read {fd : Int} (hfd : 0 ≤ fd) {pname : Bytes} {d : Shdlogd} (hd : d.stop = false) (hs : d.stamps.length = 2048)
    (hc : Conf pname d.raw) {r : Rec} {x : Sample} {rest : List Blob} (hx : Holds r x) (hb : d.blobs = x.blob :: rest)
    (hi : d.index = idx (r.pos + 1)) {pad : UInt8} (t : Nat) :
    ∃ d', turn fd { sel := .found [t], left := d.blobs, read := false, fin := none, pad } d =
      some (d', [.failed, .write (shmVec pname { r with ns := t }), .many]) := by
  have hx' : Holds { r with ns := t } { x with ns := t } := ⟨rfl, hx.2⟩
  obtain ⟨raw, h, _⟩ := forward_any hfd (pad := pad) (d := { d with stamps := [t] ++ d.stamps.drop 1 }) hc hx'
  have hl : lossOf (idx (r.pos + 1)) (idx (r.pos + 1)) = .many := by
    have : (idx (r.pos + 1) + 65536 - idx (r.pos + 1) + 65535) % 65536 = 65535 := by unfold idx; omega
    unfold lossOf
    rw [this]; rfl
  dsimp only at h
  rw [hi, hl] at h
  unfold turn readSamples
  simp only [hd, Bool.false_eq_true, if_false]
  rw [if_neg (by rw [hs]; simp), if_neg (by rw [hb]; simp), hb]
  rw [hb, hd] at h
  simp only [List.length_singleton, List.take_succ_cons, List.take_zero, List.zip_cons_cons, List.zip_nil_left, forwardAll,
    List.singleton_append, hi] at h ⊢
  rw [h]
  exact ⟨_, rfl⟩

end Verif.Tools.Shdd
