import Verif.Kernel.Variants
import Verif.Kernel.Props

/-!
# The drivers for all kernels do the same (C99)

A write of 3.x, 4.x or 6.x with a whole vector or buffer is the write of the model with
segments that make up the same bytes. So each run of one of these drivers is a run of
the model, and the properties of C01-C13 hold for it.

With an iterator that has a position, 4.x and 6.x before Linux 6.4 write what is left of
a vector; 6.x since Linux 6.4 writes the beginning of the segment instead.
-/
namespace Verif.Kernel
open Verif

/-- Segments up to `n` bytes, without empty ones. -/
def cutTo : Nat → List Seg → List Seg
  | _, [] => []
  | n, s :: ss => if n = 0 then [] else if s = [] then cutTo n ss else s.take n :: cutTo (n - s.length) ss

theorem cutTo_flatten : ∀ (ss : List Seg) (n : Nat), (cutTo n ss).flatten = ss.flatten.take n
  | [], n => by simp [cutTo]
  | s :: ss, n => by
    unfold cutTo
    split
    · subst n; simp
    · split
      · subst s; rw [cutTo_flatten ss n]; simp
      · rw [List.flatten_cons, List.flatten_cons, cutTo_flatten ss, List.take_append]

/-- The segments the loop writes. -/
def leftSegs (segs : List Seg) (off count : Nat) : List Seg :=
  match segs with
  | [] => []
  | s :: ss => if count = 0 then [] else (s.drop off).take count :: cutTo (count - (s.length - off)) ss

theorem leftSegs_flatten {segs : List Seg} {off count : Nat} (h : ∀ s, segs.head? = some s → off ≤ s.length) :
    (leftSegs segs off count).flatten = (segs.flatten.drop off).take count := by
  unfold leftSegs
  cases segs with
  | nil => simp
  | cons s ss =>
    dsimp only
    split
    · subst count; simp
    · have := h s rfl
      rw [List.flatten_cons, List.flatten_cons, cutTo_flatten, List.drop_append, Nat.sub_eq_zero_of_le this, List.drop_zero,
        List.take_append, List.length_drop]

/-- Behind empty segments nothing changes. -/
theorem cutTo_skip : ∀ (ss : List Seg) (n : Nat), cutTo n (skipSegs ss 0).1 = cutTo n ss
  | [], _ => rfl
  | s :: ss, n => by
    unfold skipSegs
    split
    · rfl
    · rename_i h
      have : s = [] := List.length_eq_zero_iff.1 (by omega)
      subst this
      rw [show (0 - ([] : Seg).length) = 0 from rfl, cutTo_skip ss n]
      rw [show cutTo n ([] :: ss) = if n = 0 then [] else if ([] : Seg) = [] then cutTo n ss else _ from rfl]
      split
      · subst n; cases ss <;> simp [cutTo]
      · simp

theorem skip_zero : ∀ ss : List Seg, (skipSegs ss 0).2 = 0
  | [] => rfl
  | s :: ss => by
    unfold skipSegs
    split
    · rfl
    · rename_i h
      rw [show 0 - s.length = 0 by omega]
      exact skip_zero ss

theorem skip_len : ∀ (ss : List Seg) (n : Nat), (skipSegs ss n).1.length ≤ ss.length
  | [], _ => by simp [skipSegs]
  | s :: ss, n => by
    unfold skipSegs
    split
    · exact Nat.le_refl _
    · have := skip_len ss (n - s.length)
      simp only [List.length_cons]; omega

theorem skip_head : ∀ (ss : List Seg) (s : Seg), (skipSegs ss 0).1.head? = some s → s ≠ []
  | [], s, h => by simp [skipSegs] at h
  | x :: ss, s, h => by
    unfold skipSegs at h
    split at h
    · rename_i hx
      simp only [List.head?_cons, Option.some.injEq] at h
      subst h
      exact List.length_pos_iff.1 hx
    · rename_i hx
      rw [show 0 - x.length = 0 by omega] at h
      exact skip_head ss s h

theorem skip_sum : ∀ ss : List Seg, (skipSegs ss 0).1.flatten.length = ss.flatten.length
  | [] => rfl
  | s :: ss => by
    unfold skipSegs
    split
    · rfl
    · rename_i h
      rw [show 0 - s.length = 0 by omega, skip_sum ss]
      rw [List.flatten_cons, List.length_append]
      omega

theorem walk_zero (junk : Nat → UInt8) (whole : Bool) (room fuel : Nat) (ss : List Seg) (off : Nat) (l : Log) (ret : Nat) :
    walk junk whole room (fuel + 1) ss off 0 l ret = .ok (l, some ret) := by
  unfold walk
  rw [if_pos rfl]

/-- The loop from the beginning of a segment that is not empty. -/
theorem walk_cut (junk : Nat → UInt8) (whole : Bool) (room : Nat) : ∀ (fuel : Nat) (ss : List Seg) (n : Nat) (l : Log) (ret : Nat),
    ss.length < fuel → (∀ s, ss.head? = some s → s ≠ []) → n ≤ ss.flatten.length → (whole = true → n = ss.flatten.length) →
    walk junk whole room fuel ss 0 n l ret = writeSegs junk room (cutTo n ss) l ret := by
  intro fuel
  induction fuel with
  | zero => intro ss n l ret h; omega
  | succ fuel ih =>
    intro ss n l ret hf hne hn hw
    unfold walk
    by_cases hz : n = 0
    · rw [if_pos hz]
      subst hz
      cases ss <;> simp [cutTo, writeSegs]
    rw [if_neg hz]
    cases ss with
    | nil => simp at hn; omega
    | cons s ss =>
      have hs := hne s rfl
      dsimp only
      rw [if_neg (by omega)]
      rw [List.flatten_cons, List.length_append] at hn hw
      have hseg : (if whole = true then s else (s.drop 0).take n) = s.take n := by
        split
        · rw [List.take_of_length_le]
          have := hw (by assumption)
          omega
        · simp
      rw [hseg]
      rw [show cutTo n (s :: ss) = s.take n :: cutTo (n - s.length) ss by
        rw [cutTo, if_neg hz, if_neg hs]]
      rw [writeSegs]
      dsimp only
      cases hd : doWriteLogFromUser l ((s.take n).take (min (s.take n).length (room - ret))) junk with
      | error e => rfl
      | ok x =>
        obtain ⟨l', ok⟩ := x
        cases ok with
        | false => rfl
        | true =>
          simp only [Bool.not_true, Bool.false_eq_true, if_false, bind, Except.bind]
          have hlen : (s.take n).length = min n s.length := List.length_take
          unfold advance
          dsimp only
          rw [if_neg hz, hlen, show min (min n s.length) n = min n s.length by omega, Nat.add_zero]
          by_cases hle : s.length ≤ n
          · rw [show min n s.length = s.length by omega]
            rw [show skipSegs (s :: ss) s.length = skipSegs ss 0 by
              rw [skipSegs, if_neg (by omega), Nat.sub_self]]
            rw [skip_zero]
            dsimp only
            rw [ih _ _ _ _ (by have := skip_len ss 0; simp only [List.length_cons] at hf; omega) (skip_head ss)
              (by rw [skip_sum]; omega) (by intro h; rw [skip_sum]; have := hw h; omega), cutTo_skip]
          · rw [show min n s.length = n by omega, Nat.sub_self]
            have : n - s.length = 0 := by omega
            rw [this]
            have hf' : ∃ f, fuel = f + 1 := ⟨fuel - 1, by simp only [List.length_cons] at hf; omega⟩
            obtain ⟨f, rfl⟩ := hf'
            dsimp only
            rw [walk_zero]
            cases ss <;> simp [cutTo, writeSegs]

/-- A whole vector, or with `iov_iter_iovec` any part of one. -/
theorem walk_left (junk : Nat → UInt8) (whole : Bool) (room : Nat) {segs : List Seg} {off count : Nat} (l : Log)
    (ho : ∀ s, segs.head? = some s → off ≤ s.length) (hn : off + count ≤ segs.flatten.length)
    (hw : whole = true → off = 0 ∧ count = segs.flatten.length) :
    walk junk whole room (segs.length + 1) segs off count l 0 = writeSegs junk room (leftSegs segs off count) l 0 := by
  unfold walk leftSegs
  by_cases hz : count = 0
  · rw [if_pos hz]
    cases segs <;> simp [hz, writeSegs]
  rw [if_neg hz]
  cases segs with
  | nil => simp at hn; omega
  | cons s ss =>
    have hs := ho s rfl
    dsimp only
    rw [if_neg (by omega), if_neg hz]
    rw [List.flatten_cons, List.length_append] at hn hw
    have hseg : (if whole = true then s else (s.drop off).take count) = (s.drop off).take count := by
      split
      · obtain ⟨h1, h2⟩ := hw (by assumption)
        rw [h1, List.drop_zero, List.take_of_length_le (by omega)]
      · rfl
    rw [hseg, writeSegs]
    dsimp only
    cases hd : doWriteLogFromUser l (((s.drop off).take count).take (min ((s.drop off).take count).length (room - 0))) junk with
    | error e => rfl
    | ok x =>
      obtain ⟨l', ok⟩ := x
      cases ok with
      | false => rfl
      | true =>
        simp only [Bool.not_true, Bool.false_eq_true, if_false, bind, Except.bind]
        have hlen : ((s.drop off).take count).length = min count (s.length - off) := by rw [List.length_take, List.length_drop]
        unfold advance
        dsimp only
        rw [if_neg hz, hlen, show min (min count (s.length - off)) count = min count (s.length - off) by omega]
        by_cases hle : s.length - off ≤ count
        · rw [show min count (s.length - off) = s.length - off by omega, show s.length - off + off = s.length by omega]
          rw [show skipSegs (s :: ss) s.length = skipSegs ss 0 by
            rw [skipSegs, if_neg (by omega), Nat.sub_self]]
          rw [skip_zero]
          dsimp only
          rw [walk_cut _ _ _ _ _ _ _ _ (by have := skip_len ss 0; simp only [List.length_cons]; omega) (skip_head ss)
            (by rw [skip_sum]; omega) (by intro h; rw [skip_sum]; have := hw h; omega), cutTo_skip]
        · rw [show min count (s.length - off) = count by omega, Nat.sub_self]
          have : count - (s.length - off) = 0 := by omega
          rw [this]
          dsimp only
          rw [show (s :: ss).length = ss.length + 1 from rfl, walk_zero]
          cases ss <;> simp [cutTo, writeSegs]

theorem walk3_eq (junk : Nat → UInt8) (room : Nat) : ∀ (segs : List Seg) (l : Log) (ret : Nat),
    walk3 junk room segs l ret = writeSegs junk room segs l ret
  | [], _, _ => rfl
  | s :: ss, l, ret => by
    rw [walk3, writeSegs]
    dsimp only
    cases doWriteLogFromUser l (s.take (min s.length (room - ret))) junk with
    | error e => rfl
    | ok x =>
      obtain ⟨l', ok⟩ := x
      cases ok with
      | false => rfl
      | true => exact walk3_eq junk room ss l' _

/-! ## The property -/

/-- What kernels of `k` pass to a write method for `write`, `writev` and others. 3.x knows
vectors only; user buffers came with 6.0. -/
def Passed : Kern → From → Prop
  | .k3, .iovec .. => True
  | .k3, _ => False
  | .k4, .ubuf .. => False
  | _, _ => True

/-- A fresh iterator: all of the vector or buffer. -/
def Fresh : From → Prop
  | .iovec segs off count => off = 0 ∧ count = segs.flatten.length
  | .ubuf seg off count => off = 0 ∧ count = seg.length
  | _ => True

/-- `it` of the model has the same data as what the kernel passes: the user's bytes in
order. Pages have none the driver reads, and of kernel vectors only 4.x reads, in
vain. -/
def SameData (k : Kern) : From → Iter → Prop
  | .iovec segs off count, .iovec segs' => segs'.flatten = (segs.flatten.drop off).take count
  | .ubuf seg off count, .ubuf seg' => seg' = (seg.drop off).take count
  | .kvec n, .iovec segs => k = .k4 ∧ segs.flatten = List.replicate n none
  | .kvec n, .other m => k ≠ .k4 ∧ m = n
  | .pages n, .other m => m = n
  | _, _ => False

theorem sum_flatten (segs : List Seg) : (segs.map List.length).sum = segs.flatten.length := List.length_flatten.symm

theorem entryK_congr {k : Kern} {it : From} {it' : Iter} {junk : Nat → UInt8} (hc : it.count = it'.count)
    (h : ∀ l room, writeFrom k junk l it room = writeIter junk l it' room) (l : Log) (raw : Bool) (t : Task) :
    writeEntryK k l raw t it junk = writeEntry l raw t it' junk := by
  unfold writeEntryK writeEntry
  simp only [hc, h]
  rfl

/-- C99, one write: with a fresh iterator, the write method of each driver does what that
of the model does with the same data. -/
theorem C99_write {k : Kern} {it : From} (hp : Passed k it) (hf : Fresh it) : ∃ it', SameData k it it' ∧
    ∀ l raw t junk, writeEntryK k l raw t it junk = writeEntry l raw t it' junk := by
  have hwalk : ∀ (junk : Nat → UInt8) (w : Bool) (segs : List Seg) (l : Log) (room : Nat),
      walk junk w room (segs.length + 1) segs 0 segs.flatten.length l 0 =
        writeSegs junk room (leftSegs segs 0 segs.flatten.length) l 0 := fun junk w segs l room =>
    walk_left junk w room l (fun _ _ => Nat.zero_le _) (by omega) (fun _ => ⟨rfl, rfl⟩)
  have hflat : ∀ segs : List Seg, (leftSegs segs 0 segs.flatten.length).flatten = segs.flatten := fun segs => by
    rw [leftSegs_flatten (fun _ _ => Nat.zero_le _), List.drop_zero, List.take_length]
  cases it with
  | iovec segs off count =>
    obtain ⟨rfl, rfl⟩ := hf
    cases k with
    | k3 =>
      refine ⟨.iovec segs, by show _ = List.take _ _; rw [List.drop_zero, List.take_length], fun l raw t junk =>
        entryK_congr (by show _ = (List.map _ _).sum; rw [sum_flatten]; rfl) (fun l room => ?_) l raw t⟩
      exact walk3_eq junk room segs l 0
    | k4 | k60 | k64 =>
      refine ⟨.iovec (leftSegs segs 0 segs.flatten.length), by show _ = List.take _ _; rw [hflat, List.drop_zero, List.take_length], fun l raw t junk =>
        entryK_congr (by show _ = (List.map _ _).sum; rw [sum_flatten, hflat]; rfl) (fun l room => ?_) l raw t⟩
      exact hwalk junk _ segs l room
  | ubuf seg off count =>
    obtain ⟨rfl, rfl⟩ := hf
    have hu : ∀ (junk : Nat → UInt8) (l : Log) (room : Nat), writeFrom .k60 junk l (.ubuf seg 0 seg.length) room =
        writeIter junk l (.ubuf seg) room := by
      intro junk l room
      unfold writeFrom writeIter
      dsimp only
      cases doWriteLogFromUser l (seg.take (min room seg.length)) junk with
      | error e => rfl
      | ok x => rfl
    cases k with
    | k3 | k4 => exact hp.elim
    | k60 | k64 =>
      exact ⟨.ubuf seg, by simp [SameData], fun l raw t junk => entryK_congr rfl (fun l room => hu junk l room) l raw t⟩
  | kvec n =>
    cases k with
    | k3 => exact hp.elim
    | k4 =>
      have hl : ([List.replicate n (none : Option UInt8)] : List Seg).flatten.length = n := by simp
      refine ⟨.iovec (leftSegs [List.replicate n none] 0 n), ⟨rfl, ?_⟩, fun l raw t junk => entryK_congr ?_ (fun l room => ?_) l raw t⟩
      · have := hflat [List.replicate n none]
        rw [hl] at this
        rw [this]; simp
      · show n = (List.map _ _).sum
        have := hflat [List.replicate n none]
        rw [hl] at this
        rw [sum_flatten, this]; simp
      · have := hwalk junk false [List.replicate n none] l room
        rw [hl] at this
        exact this
    | k60 | k64 => exact ⟨.other n, ⟨by simp, rfl⟩, fun l raw t junk => entryK_congr rfl (fun l room => rfl) l raw t⟩
  | pages n =>
    cases k with
    | k3 => exact hp.elim
    | k4 | k60 | k64 => exact ⟨.other n, rfl, fun l raw t junk => entryK_congr rfl (fun l room => rfl) l raw t⟩

/-- The same call. -/
def SameOp (k : Kern) : OpK → Op → Prop
  | .write fid t it junk, .write fid' t' it' junk' => fid' = fid ∧ t' = t ∧ junk' = junk ∧ SameData k it it'
  | .other op, op' => op' = op
  | _, _ => False

/-- The same calls. -/
inductive SameOps (k : Kern) : List OpK → List Op → Prop
  | nil : SameOps k [] []
  | cons {op op' ops ops'} (h : SameOp k op op') (hs : SameOps k ops ops') : SameOps k (op :: ops) (op' :: ops')

/-- What kernels of `k` do: writes with fresh iterators of their kinds. -/
def Proper (k : Kern) : OpK → Prop
  | .write _ _ it _ => Passed k it ∧ Fresh it
  | .other _ => True

theorem stepK_eq {k : Kern} {op : OpK} (h : Proper k op) : ∃ op', SameOp k op op' ∧ ∀ s, stepK k s op = step s op' := by
  cases op with
  | other op => exact ⟨op, rfl, fun _ => rfl⟩
  | write fid t it junk =>
    obtain ⟨it', h1, h2⟩ := C99_write h.1 h.2
    refine ⟨.write fid t it' junk, ⟨rfl, rfl, rfl, h1⟩, fun s => ?_⟩
    cases hs : s.files fid with
    | none => simp only [stepK, step, Op.fid, hs]
    | some f => simp only [stepK, step, Op.fid, hs, stepFile, h2]

/-- C99: every run of the driver of a kernel is a run of the model with the same calls and
the same answers. -/
theorem C99_run {k : Kern} : ∀ {ops : List OpK} (_ : ∀ op ∈ ops, Proper k op), ∃ ops', SameOps k ops ops' ∧
    ∀ s, runK k s ops = (run s ops').map fun r => (r.1, r.2.map (·.2))
  | [], _ => ⟨[], .nil, fun _ => rfl⟩
  | op :: ops, h => by
    obtain ⟨op', h1, h2⟩ := stepK_eq (h op (by simp))
    obtain ⟨ops', h3, h4⟩ := C99_run (ops := ops) (fun o ho => h o (by simp [ho]))
    refine ⟨op' :: ops', .cons h1 h3, fun s => ?_⟩
    unfold runK run
    rw [h2]
    cases step s op' with
    | error e => rfl
    | ok x =>
      obtain ⟨s', o⟩ := x
      simp only [bind, Except.bind, h4]
      cases run s' ops' with
      | error e => rfl
      | ok y => rfl

/-- C99, iterators with a position: 4.x and 6.x before Linux 6.4 write what is left of a
vector. -/
theorem C99_left {k : Kern} (hk : k = .k4 ∨ k = .k60) {segs : List Seg} {off count : Nat}
    (ho : ∀ s, segs.head? = some s → off ≤ s.length) (hn : off + count ≤ segs.flatten.length) :
    ∃ segs', segs'.flatten = (segs.flatten.drop off).take count ∧
      ∀ l raw t junk, writeEntryK k l raw t (.iovec segs off count) junk = writeEntry l raw t (.iovec segs') junk := by
  refine ⟨leftSegs segs off count, leftSegs_flatten ho, fun l raw t junk => entryK_congr ?_ (fun l room => ?_) l raw t⟩
  · show count = (List.map _ _).sum
    rw [sum_flatten, leftSegs_flatten ho, List.length_take, List.length_drop]
    omega
  · rcases hk with rfl | rfl
    · exact walk_left junk false room l ho hn (by simp)
    · exact walk_left junk false room l ho hn (by simp)

/-- A write from user memory; with 4.x also from a kernel vector, which fails. -/
def FromUser (k : Kern) : OpK → Prop
  | .write _ _ (.pages _) _ => False
  | .write _ _ (.kvec _) _ => k = .k4
  | .write .. => True
  | .other (.write ..) => False
  | .other _ => True

/-- C99 with C02: no driver leaves the ring or hangs, whatever is called, as long as the
writes are from user memory. -/
theorem C99_safe (k : Kern) {name : Bytes} {n : Nat} (buf : Nat → UInt8) (hn : 14 ≤ n) (hname : name.length ≤ 89)
    (ops : List OpK) (hp : ∀ op ∈ ops, Proper k op) (hu : ∀ op ∈ ops, FromUser k op) :
    ∃ s os, runK k (init name n buf) ops = .ok (s, os) := by
  obtain ⟨ops', h1, h2⟩ := C99_run hp
  have hs : ∀ op ∈ ops', op.supported = true := by
    clear h2 hp
    induction h1 with
    | nil => intro op h; cases h
    | cons h hs ih =>
      rename_i op op' ops ops'
      intro o ho
      rcases List.mem_cons.1 ho with rfl | ho
      · have hf := hu op (by simp)
        cases op with
        | other p =>
          have : o = p := h
          subst this
          cases o <;> first | rfl | exact hf.elim
        | write fid t it junk =>
          cases o with
          | write fid' t' it' junk' =>
            obtain ⟨_, _, _, hd⟩ := h
            cases it' with
            | iovec _ | ubuf _ => rfl
            | other m =>
              cases it with
              | iovec _ _ _ | ubuf _ _ _ => exact hd.elim
              | kvec n => exact absurd hf hd.1
              | pages n => exact hf.elim
          | _ => exact h.elim
      · exact ih (fun o ho => hu o (by simp [ho])) o ho
  obtain ⟨s, tr, e⟩ := C02_safe buf hn hname ops' hs
  exact ⟨s, _, by rw [h2, e]; rfl⟩

/-- The room left for user bytes is at most their number. -/
theorem room_le {l l' : Log} {raw : Bool} {t : Task} {n room : Nat} (hr : raw = true → 20 ≤ n)
    (h : writePrefix l raw t (entryLen raw t n) = .ok (l', room)) : room ≤ n := by
  unfold writePrefix at h
  dsimp only at h
  split at h
  · rename_i hraw
    cases hd : doWriteLog l (le16 (entryLen raw t n) ++ le16 hdrSize) with
    | error e => rw [hd] at h; cases h
    | ok x =>
      rw [hd] at h
      simp only [bind, Except.bind, pure, Except.pure, Except.ok.injEq, Prod.mk.injEq] at h
      rw [← h.2, entryLen, if_pos hraw]
      have := hr hraw
      simp only [hdrSize, maxPayload]
      omega
  · rename_i hraw
    simp only [bind, Except.bind, pure, Except.pure] at h
    split at h
    · cases h
    split at h
    · cases h
    have : room = hdrSize + entryLen raw t n - hdrSize - (names t).1.length - (names t).2.length := by
      split at h
      · split at h
        · cases h
        · simp only [Except.ok.injEq, Prod.mk.injEq] at h
          exact h.2.symm
      · simp only [Except.ok.injEq, Prod.mk.injEq] at h
        exact h.2.symm
    rw [this, entryLen, if_neg hraw]
    simp only [hdrSize, maxPayload]
    omega

theorem entryK_room {k : Kern} {it : From} {it' : Iter} {junk : Nat → UInt8} (hc : it.count = it'.count)
    (h : ∀ l room, room ≤ it.count → writeFrom k junk l it room = writeIter junk l it' room) (l : Log) (raw : Bool) (t : Task) :
    writeEntryK k l raw t it junk = writeEntry l raw t it' junk := by
  unfold writeEntryK writeEntry
  dsimp only
  rw [hc]
  by_cases hraw : (raw && decide (it'.count < hdrSize - 4)) = true
  · rw [if_pos hraw, if_pos hraw]
  rw [if_neg hraw, if_neg hraw]
  by_cases hz : entryLen raw t it'.count = 0
  · rw [if_pos hz, if_pos hz]
  rw [if_neg hz, if_neg hz]
  cases fixUpReaders l (hdrSize + entryLen raw t it'.count) with
  | error e => rfl
  | ok l1 =>
    simp only [bind, Except.bind]
    cases hw : writePrefix l1 raw t (entryLen raw t it'.count) with
    | error e => rfl
    | ok x =>
      obtain ⟨l2, room⟩ := x
      have hroom := room_le (by
        intro h
        simp only [h, Bool.true_and, decide_eq_true_eq] at hraw
        simp only [hdrSize] at hraw
        omega) hw
      dsimp only
      rw [h l2 room (by omega)]
      rfl

/-- C99, false for a position: since Linux 6.4, what is left of a segment from `off` on is
written as that many bytes from its beginning. -/
theorem C99_neg_offset (s : Seg) (off : Nat) (ho : off < s.length) (l : Log) (raw : Bool) (t : Task) (junk : Nat → UInt8) :
    writeEntryK .k64 l raw t (.iovec [s] off (s.length - off)) junk = writeEntry l raw t (.iovec [s.take (s.length - off)]) junk := by
  refine entryK_room (by show _ = (List.map _ _).sum; simp [From.count]) (fun l2 room hroom => ?_) l raw t
  simp only [From.count] at hroom
  unfold writeFrom writeIter
  dsimp only
  rw [writeSegs]
  dsimp only
  rw [show [s].length + 1 = 1 + 1 from rfl, walk, if_neg (by omega)]
  dsimp only
  rw [if_neg (by omega), if_pos (by simp)]
  rw [List.length_take, List.take_take, show min (min (min (s.length - off) s.length) (room - 0)) (s.length - off) = room by omega,
    show min s.length (room - 0) = room by omega, show min (min (s.length - off) s.length) (room - 0) = room by omega]
  cases doWriteLogFromUser l2 (s.take room) junk with
  | error e => rfl
  | ok y =>
    obtain ⟨l3, ok⟩ := y
    cases ok with
    | false => rfl
    | true =>
      simp only [Bool.not_true, Bool.false_eq_true, if_false, bind, Except.bind]
      unfold advance
      dsimp only
      rw [if_neg (by omega), show s.length - off - min s.length (s.length - off) = 0 by omega]
      dsimp only
      rw [walk_zero]
      rfl

/-- C99, false for a position: 6.x writes a buffer from its beginning. -/
theorem C99_neg_ubuf {k : Kern} (hk : k = .k60 ∨ k = .k64) (s : Seg) (off : Nat) (ho : off < s.length) (l : Log) (raw : Bool)
    (t : Task) (junk : Nat → UInt8) :
    writeEntryK k l raw t (.ubuf s off (s.length - off)) junk = writeEntry l raw t (.ubuf (s.take (s.length - off))) junk := by
  refine entryK_room (by show _ = List.length _; simp [From.count]) (fun l2 room hroom => ?_) l raw t
  simp only [From.count] at hroom
  have : writeFrom .k60 junk l2 (.ubuf s off (s.length - off)) room =
      writeIter junk l2 (.ubuf (s.take (s.length - off))) room := by
    unfold writeFrom writeIter
    dsimp only
    rw [List.length_take, List.take_take, show min room (min (s.length - off) s.length) = min room (s.length - off) by omega,
      show min (min room (s.length - off)) (s.length - off) = min room (s.length - off) by omega]
    cases doWriteLogFromUser l2 (s.take (min room (s.length - off))) junk with
    | error e => rfl
    | ok y => rfl
  rcases hk with rfl | rfl
  · exact this
  · exact this

end Verif.Kernel
