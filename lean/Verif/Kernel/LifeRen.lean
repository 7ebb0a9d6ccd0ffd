import Verif.Kernel.Life
import Verif.Kernel.PropsDriver

/-!
# What a call does to a log does not depend on the names of the readers
-/
namespace Verif.Kernel.Life
open Verif Verif.Kernel

/-- The same log with other names for the readers. -/
def ren (ρ : Nat → Nat) (l : Log) : Log := { l with readers := l.readers.map fun p => (ρ p.1, p.2) }

variable {ρ : Nat → Nat}

theorem bok {ε α β : Type} (a : α) (f : α → Except ε β) : (Except.ok a >>= f) = f a := rfl
theorem berr {ε α β : Type} (e : ε) (f : α → Except ε β) : (Except.error e >>= f) = .error e := rfl

theorem ren_header (l : Log) (off : Nat) : getEntryHeader (ren ρ l) off = getEntryHeader l off := rfl

theorem ren_msgLen (l : Log) (off : Nat) : getEntryMsgLen (ren ρ l) off = getEntryMsgLen l off := rfl

theorem ren_byUid (l : Log) (euid : UInt32) (fuel : Nat) : ∀ off, getNextEntryByUid (ren ρ l) euid fuel off = getNextEntryByUid l euid fuel off := by
  induction fuel with
  | zero => intro off; unfold getNextEntryByUid; rfl
  | succ n ih =>
    intro off
    unfold getNextEntryByUid
    simp only [ih]
    rfl

theorem ren_skip (l : Log) (euid : UInt32) (r : Reader) : skipForeign (ren ρ l) euid r = skipForeign l euid r := by
  unfold skipForeign
  rw [show (ren ρ l).size = l.size from rfl]
  simp only [ren_byUid]

theorem ren_section (l : Log) (euid : UInt32) (r : Reader) (count uw : Nat) :
    readSection (ren ρ l) euid r count uw = readSection l euid r count uw := by
  unfold readSection
  rw [ren_skip]
  rfl

theorem ren_nextEntry (l : Log) (fuel : Nat) : ∀ off need, getNextEntry (ren ρ l) fuel off need = getNextEntry l fuel off need := by
  induction fuel with
  | zero => intro off need; rfl
  | succ n ih =>
    intro off need
    unfold getNextEntry
    simp only [ih]
    rfl

theorem ren_fixReader (l : Log) (old new len : Nat) (r : Reader) : fixReader (ren ρ l) old new len r = fixReader l old new len r := by
  unfold fixReader
  simp only [ren_nextEntry]

theorem ren_fixReaders (l : Log) (old new len : Nat) (rs : List (Nat × Reader)) :
    fixReaders (ren ρ l) old new len (rs.map fun p => (ρ p.1, p.2)) =
      (fixReaders l old new len rs).map fun rs => rs.map fun p => (ρ p.1, p.2) := by
  induction rs with
  | nil => rfl
  | cons p rs ih =>
    obtain ⟨f, r⟩ := p
    rw [List.map_cons]
    unfold fixReaders
    rw [ren_fixReader, ih]
    cases fixReader l old new len r with
    | error e => rfl
    | ok r' =>
      rw [bok, bok]
      cases fixReaders l old new len rs with
      | error e => rfl
      | ok rs' => rfl

theorem ren_fixHead (l : Log) (old new len : Nat) : fixHead (ren ρ l) old new len = (fixHead l old new len).map (ren ρ) := by
  unfold fixHead
  rw [show (ren ρ l).head = l.head from rfl]
  simp only [ren_nextEntry]
  split
  · cases getNextEntry l len l.head len with
    | error e => rfl
    | ok x => rfl
  · rfl

theorem ren_fixUp (l : Log) (len : Nat) : fixUpReaders (ren ρ l) len = (fixUpReaders l len).map (ren ρ) := by
  unfold fixUpReaders
  dsimp only
  rw [show (ren ρ l).size = l.size from rfl, show (ren ρ l).wOff = l.wOff from rfl, ren_fixHead]
  cases fixHead l l.wOff (offset l.size (l.wOff + len)) len with
  | error e => rfl
  | ok l1 =>
    show (fixReaders (ren ρ l1) _ _ _ (l1.readers.map fun p => (ρ p.1, p.2)) >>= _) = _
    rw [ren_fixReaders, bok]
    cases fixReaders l1 l.wOff (offset l.size (l.wOff + len)) len l1.readers with
    | error e => rfl
    | ok rs => rfl

theorem ren_doWrite (l : Log) (bs : Bytes) : doWriteLog (ren ρ l) bs = (doWriteLog l bs).map (ren ρ) := by
  unfold doWriteLog
  dsimp only
  rw [show (ren ρ l).size = l.size from rfl, show (ren ρ l).wOff = l.wOff from rfl, show (ren ρ l).buf = l.buf from rfl]
  cases store l.size l.buf l.wOff (bs.take (min bs.length (l.size - l.wOff))) with
  | error e => rfl
  | ok b1 =>
    rw [bok, bok]
    split
    · cases store l.size b1 0 (bs.drop (min bs.length (l.size - l.wOff))) with
      | error e => rfl
      | ok b2 => rfl
    · rfl

theorem ren_fromUser (l : Log) (s : Seg) (junk : Nat → UInt8) :
    doWriteLogFromUser (ren ρ l) s junk = (doWriteLogFromUser l s junk).map fun x => (ren ρ x.1, x.2) := by
  unfold doWriteLogFromUser
  dsimp only
  rw [show (ren ρ l).size = l.size from rfl, show (ren ρ l).wOff = l.wOff from rfl, show (ren ρ l).buf = l.buf from rfl]
  have h2 : ∀ (n : Nat) (b1 : Nat → UInt8), (if s.length ≠ n then do
        let x ← copyFromUser l.size b1 0 (s.drop n) junk
        if (!x.2) = true then pure (({ ren ρ l with buf := x.1 } : Log), false)
        else pure (({ ren ρ l with buf := x.1, wOff := offset l.size (l.wOff + s.length) } : Log), true)
      else do
        let x ← (pure (b1, true) : Except Fault _)
        if (!x.2) = true then pure (({ ren ρ l with buf := x.1 } : Log), false)
        else pure (({ ren ρ l with buf := x.1, wOff := offset l.size (l.wOff + s.length) } : Log), true)) =
      (if s.length ≠ n then do
        let x ← copyFromUser l.size b1 0 (s.drop n) junk
        if (!x.2) = true then pure (({ l with buf := x.1 } : Log), false)
        else pure (({ l with buf := x.1, wOff := offset l.size (l.wOff + s.length) } : Log), true)
      else do
        let x ← (pure (b1, true) : Except Fault _)
        if (!x.2) = true then pure (({ l with buf := x.1 } : Log), false)
        else pure (({ l with buf := x.1, wOff := offset l.size (l.wOff + s.length) } : Log), true)).map fun x : Log × Bool => (ren ρ x.1, x.2) := by
    intro n b1
    by_cases hn : s.length ≠ n
    · rw [if_pos hn, if_pos hn]
      cases copyFromUser l.size b1 0 (s.drop n) junk with
      | error e => rfl
      | ok x =>
        obtain ⟨b2, ok2⟩ := x
        cases ok2 <;> rfl
    · rw [if_neg hn, if_neg hn]
      rfl
  by_cases h0 : min s.length (l.size - l.wOff) ≠ 0
  · rw [if_pos h0, if_pos h0]
    cases copyFromUser l.size l.buf l.wOff (s.take (min s.length (l.size - l.wOff))) junk with
    | error e => rfl
    | ok x =>
      obtain ⟨b1, ok1⟩ := x
      cases ok1 with
      | false => rfl
      | true => exact h2 _ b1
  · rw [if_neg h0, if_neg h0]
    by_cases h1 : l.wOff ≤ l.size
    · rw [if_pos h1, if_pos h1]
      exact h2 _ l.buf
    · rw [if_neg h1, if_neg h1]
      rfl

theorem ren_segs (junk : Nat → UInt8) (room : Nat) (ss : List Seg) : ∀ (l : Log) (ret : Nat),
    writeSegs junk room ss (ren ρ l) ret = (writeSegs junk room ss l ret).map fun x => (ren ρ x.1, x.2) := by
  induction ss with
  | nil => intro l ret; rfl
  | cons s ss ih =>
    intro l ret
    unfold writeSegs
    dsimp only
    rw [ren_fromUser]
    cases doWriteLogFromUser l (s.take (min s.length (room - ret))) junk with
    | error e => rfl
    | ok x =>
      obtain ⟨l', ok⟩ := x
      cases ok with
      | false => rfl
      | true => exact ih l' _

theorem ren_iter (junk : Nat → UInt8) (l : Log) (it : Iter) (room : Nat) :
    writeIter junk (ren ρ l) it room = (writeIter junk l it room).map fun x => (ren ρ x.1, x.2) := by
  cases it with
  | iovec segs => exact ren_segs junk room segs l 0
  | ubuf seg =>
    unfold writeIter
    dsimp only
    rw [ren_fromUser]
    cases doWriteLogFromUser l (seg.take (min room seg.length)) junk with
    | error e => rfl
    | ok x => rfl
  | other n => rfl

theorem ren_prefix (l : Log) (raw : Bool) (t : Task) (hlen : Nat) :
    writePrefix (ren ρ l) raw t hlen = (writePrefix l raw t hlen).map fun x => (ren ρ x.1, x.2) := by
  unfold writePrefix
  dsimp only
  split
  · rw [ren_doWrite]
    cases doWriteLog l (le16 hlen ++ le16 hdrSize) with
    | error e => rfl
    | ok l' => rfl
  · rw [ren_doWrite]
    cases doWriteLog l (mkHeader t hlen) with
    | error e => rfl
    | ok l1 =>
      show (doWriteLog (ren ρ l1) (names t).1 >>= _) = _
      rw [ren_doWrite, bok]
      cases doWriteLog l1 (names t).1 with
      | error e => rfl
      | ok l2 =>
        rw [show Except.map (ren ρ) (Except.ok l2) = Except.ok (ε := Fault) (ren ρ l2) from rfl, bok, bok]
        by_cases h0 : (names t).2.length ≠ 0
        · rw [if_pos h0, if_pos h0, ren_doWrite]
          cases doWriteLog l2 (names t).2 with
          | error e => rfl
          | ok l3 => rfl
        · rw [if_neg h0, if_neg h0]
          rfl

theorem ren_write (l : Log) (raw : Bool) (t : Task) (it : Iter) (junk : Nat → UInt8) :
    writeEntry (ren ρ l) raw t it junk = (writeEntry l raw t it junk).map fun x => (ren ρ x.1, x.2) := by
  unfold writeEntry
  dsimp only
  split
  · rfl
  · split
    · rfl
    · rw [show (ren ρ l).wOff = l.wOff from rfl, ren_fixUp]
      cases fixUpReaders l (hdrSize + entryLen raw t it.count) with
      | error e => rfl
      | ok l1 =>
        show (writePrefix (ren ρ l1) raw t _ >>= _) = _
        rw [ren_prefix, bok]
        cases writePrefix l1 raw t (entryLen raw t it.count) with
        | error e => rfl
        | ok x =>
          obtain ⟨l2, room⟩ := x
          show (writeIter junk (ren ρ l2) it room >>= _) = _
          rw [ren_iter, bok]
          cases writeIter junk l2 it room with
          | error e => rfl
          | ok y =>
            obtain ⟨l3, r⟩ := y
            cases r <;> rfl

/-! ## Which names there are -/

def keys (l : Log) : List Nat := l.readers.map (·.1)

theorem keys_fixReaders {l : Log} {old new len : Nat} {rs rs' : List (Nat × Reader)} (h : fixReaders l old new len rs = .ok rs') :
    rs'.map (·.1) = rs.map (·.1) := by
  induction rs generalizing rs' with
  | nil => injection h with h; rw [← h]
  | cons p rs ih =>
    obtain ⟨f, r⟩ := p
    unfold fixReaders at h
    cases hr : fixReader l old new len r with
    | error e => rw [hr, berr] at h; cases h
    | ok r' =>
      rw [hr, bok] at h
      cases hrs : fixReaders l old new len rs with
      | error e => rw [hrs, berr] at h; cases h
      | ok rs2 =>
        rw [hrs, bok] at h
        injection h with h
        rw [← h]
        show f :: _ = f :: _
        rw [ih hrs]

theorem keys_fixUp {l l' : Log} {len : Nat} (h : fixUpReaders l len = .ok l') : keys l' = keys l := by
  unfold fixUpReaders at h
  dsimp only at h
  have hh : ∀ l1, fixHead l l.wOff (offset l.size (l.wOff + len)) len = .ok l1 → l1.readers = l.readers := by
    intro l1 h1
    unfold fixHead at h1
    split at h1
    · cases hn : getNextEntry l len l.head len with
      | error e => rw [hn, berr] at h1; cases h1
      | ok x => rw [hn, bok] at h1; injection h1 with h1; rw [← h1]
    · injection h1 with h1; rw [← h1]
  cases hf : fixHead l l.wOff (offset l.size (l.wOff + len)) len with
  | error e => rw [hf, berr] at h; cases h
  | ok l1 =>
    rw [hf, bok] at h
    cases hr : fixReaders l1 l.wOff (offset l.size (l.wOff + len)) len l1.readers with
    | error e => rw [hr, berr] at h; cases h
    | ok rs =>
      rw [hr, bok] at h
      injection h with h
      rw [← h]
      show rs.map (·.1) = l.readers.map (·.1)
      rw [keys_fixReaders hr, hh l1 hf]

theorem keys_doWrite {l l' : Log} {bs : Bytes} (h : doWriteLog l bs = .ok l') : l'.readers = l.readers := by
  unfold doWriteLog at h
  dsimp only at h
  generalize store l.size l.buf l.wOff (bs.take (min bs.length (l.size - l.wOff))) = X at h
  cases X with
  | error e => cases h
  | ok b1 =>
    rw [bok] at h
    by_cases hn : bs.length ≠ min bs.length (l.size - l.wOff)
    · rw [if_pos hn] at h
      generalize store l.size b1 0 (bs.drop (min bs.length (l.size - l.wOff))) = Y at h
      cases Y with
      | error e => cases h
      | ok b2 => injection h with h; rw [← h]
    · rw [if_neg hn] at h
      injection h with h; rw [← h]

theorem keys_fromUser {l : Log} {s : Seg} {junk : Nat → UInt8} {x : Log × Bool} (h : doWriteLogFromUser l s junk = .ok x) :
    x.1.readers = l.readers := by
  unfold doWriteLogFromUser at h
  dsimp only at h
  have h2 : ∀ (n : Nat) (b1 : Nat → UInt8), (if s.length ≠ n then do
        let x ← copyFromUser l.size b1 0 (s.drop n) junk
        if (!x.2) = true then pure (({ l with buf := x.1 } : Log), false)
        else pure (({ l with buf := x.1, wOff := offset l.size (l.wOff + s.length) } : Log), true)
      else do
        let x ← (pure (b1, true) : Except Fault _)
        if (!x.2) = true then pure (({ l with buf := x.1 } : Log), false)
        else pure (({ l with buf := x.1, wOff := offset l.size (l.wOff + s.length) } : Log), true)) = .ok x → x.1.readers = l.readers := by
    intro n b1 h
    by_cases hn : s.length ≠ n
    · rw [if_pos hn] at h
      generalize copyFromUser l.size b1 0 (s.drop n) junk = Y at h
      cases Y with
      | error e => cases h
      | ok y =>
        obtain ⟨b2, ok2⟩ := y
        cases ok2 <;> (injection h with h; rw [← h])
    · rw [if_neg hn] at h
      injection h with h; rw [← h]
  by_cases h0 : min s.length (l.size - l.wOff) ≠ 0
  · rw [if_pos h0] at h
    generalize copyFromUser l.size l.buf l.wOff (s.take (min s.length (l.size - l.wOff))) junk = Y at h
    cases Y with
    | error e => cases h
    | ok y =>
      obtain ⟨b1, ok1⟩ := y
      cases ok1 with
      | false => injection h with h; rw [← h]
      | true => exact h2 _ b1 h
  · rw [if_neg h0] at h
    by_cases h1 : l.wOff ≤ l.size
    · rw [if_pos h1] at h
      exact h2 _ l.buf h
    · rw [if_neg h1] at h
      cases h

theorem keys_segs {junk : Nat → UInt8} {room : Nat} {ss : List Seg} : ∀ {l : Log} {ret : Nat} {x : Log × Option Nat},
    writeSegs junk room ss l ret = .ok x → x.1.readers = l.readers := by
  induction ss with
  | nil => intro l ret x h; injection h with h; rw [← h]
  | cons s ss ih =>
    intro l ret x h
    unfold writeSegs at h
    dsimp only at h
    cases hu : doWriteLogFromUser l (s.take (min s.length (room - ret))) junk with
    | error e => rw [hu, berr] at h; cases h
    | ok y =>
      obtain ⟨l', ok⟩ := y
      rw [hu, bok] at h
      have := keys_fromUser hu
      cases ok with
      | false => injection h with h; rw [← h]; exact this
      | true => exact (ih h).trans this

theorem keys_iter {junk : Nat → UInt8} {l : Log} {it : Iter} {room : Nat} {x : Log × Option Nat} (h : writeIter junk l it room = .ok x) :
    x.1.readers = l.readers := by
  cases it with
  | iovec segs => exact keys_segs h
  | ubuf seg =>
    unfold writeIter at h
    dsimp only at h
    cases hu : doWriteLogFromUser l (seg.take (min room seg.length)) junk with
    | error e => rw [hu, berr] at h; cases h
    | ok y =>
      rw [hu, bok] at h
      have := keys_fromUser hu
      injection h with h
      rw [← h]
      exact this
  | other n => injection h with h; rw [← h]

theorem keys_prefix {l : Log} {raw : Bool} {t : Task} {hlen : Nat} {x : Log × Nat} (h : writePrefix l raw t hlen = .ok x) :
    x.1.readers = l.readers := by
  unfold writePrefix at h
  dsimp only at h
  split at h
  · cases h1 : doWriteLog l (le16 hlen ++ le16 hdrSize) with
    | error e => rw [h1, berr] at h; cases h
    | ok l' =>
      rw [h1, bok] at h
      injection h with h
      rw [← h]
      exact keys_doWrite h1
  · cases h1 : doWriteLog l (mkHeader t hlen) with
    | error e => rw [h1, berr] at h; cases h
    | ok l1 =>
      rw [h1, bok] at h
      cases h2 : doWriteLog l1 (names t).1 with
      | error e => rw [h2, berr] at h; cases h
      | ok l2 =>
        rw [h2, bok] at h
        have e2 := (keys_doWrite h2).trans (keys_doWrite h1)
        by_cases h0 : (names t).2.length ≠ 0
        · rw [if_pos h0] at h
          cases h3 : doWriteLog l2 (names t).2 with
          | error e => rw [h3, berr] at h; cases h
          | ok l3 =>
            rw [h3, bok] at h
            injection h with h
            rw [← h]
            exact (keys_doWrite h3).trans e2
        · rw [if_neg h0] at h
          injection h with h
          rw [← h]
          exact e2

theorem keys_write {l : Log} {raw : Bool} {t : Task} {it : Iter} {junk : Nat → UInt8} {x : Log × Out} (h : writeEntry l raw t it junk = .ok x) :
    keys x.1 = keys l := by
  unfold writeEntry at h
  dsimp only at h
  split at h
  · injection h with h; rw [← h]
  · split at h
    · injection h with h; rw [← h]
    · cases h1 : fixUpReaders l (hdrSize + entryLen raw t it.count) with
      | error e => rw [h1, berr] at h; cases h
      | ok l1 =>
        rw [h1, bok] at h
        cases h2 : writePrefix l1 raw t (entryLen raw t it.count) with
        | error e => rw [h2, berr] at h; cases h
        | ok y =>
          rw [h2, bok] at h
          cases h3 : writeIter junk y.1 it y.2 with
          | error e => rw [h3, berr] at h; cases h
          | ok z =>
            rw [h3, bok] at h
            have e : keys z.1 = keys l := by
              unfold keys
              rw [keys_iter h3, keys_prefix h2]
              exact keys_fixUp h1
            obtain ⟨l3, r⟩ := z
            cases r <;> (injection h with h; rw [← h]; exact e)

theorem keys_set (l : Log) (fid : Nat) (r : Reader) : keys (setReader l fid r) = keys l := by
  unfold keys setReader
  dsimp only
  rw [List.map_map]
  refine List.map_congr_left fun p _ => ?_
  show (if p.1 = fid then (p.1, r) else p).1 = p.1
  split <;> rfl

/-! ## One call -/

/-- Different readers stay different, as far as one of them is concerned. -/
def Apart (ρ : Nat → Nat) (l : Log) (fid : Nat) : Prop := ∀ p ∈ l.readers, ρ p.1 = ρ fid → p.1 = fid

theorem ren_find {l : Log} {fid : Nat} (h : Apart ρ l fid) : findReader (ren ρ l) (ρ fid) = findReader l fid := by
  unfold findReader
  have : (ren ρ l).readers.lookup (ρ fid) = l.readers.lookup fid := by
    unfold ren
    dsimp only
    unfold Apart at h
    revert h
    generalize l.readers = rs
    induction rs with
    | nil => intro _; rfl
    | cons p rs ih =>
      intro h
      obtain ⟨f, r⟩ := p
      rw [List.map_cons, List.lookup_cons, List.lookup_cons]
      have ih := ih fun q hq => h q (List.mem_cons_of_mem _ hq)
      by_cases e : fid = f
      · subst e; simp
      · have : ρ fid ≠ ρ f := fun e' => e (h (f, r) (List.mem_cons_self ..) e'.symm).symm
        rw [beq_eq_false_iff_ne.2 this, beq_eq_false_iff_ne.2 e]
        exact ih
  rw [this]

theorem ren_setReader {l : Log} {fid : Nat} (h : Apart ρ l fid) (r : Reader) : setReader (ren ρ l) (ρ fid) r = ren ρ (setReader l fid r) := by
  unfold setReader ren
  dsimp only
  congr 1
  rw [List.map_map, List.map_map]
  refine List.map_congr_left fun p hp => ?_
  show (if ρ p.1 = ρ fid then (ρ p.1, r) else (ρ p.1, p.2)) = (ρ (if p.1 = fid then (p.1, r) else p).1, (if p.1 = fid then (p.1, r) else p).2)
  by_cases e : p.1 = fid
  · rw [if_pos e, if_pos (by rw [e])]
  · rw [if_neg e, if_neg fun e' => e (h p hp e')]

/-- A call other than the closing one, under other names. -/
theorem ren_call {l : Log} {fid key : Nat} {F : File} {op : Op} {files files' : Nat → Option File}
    (hf : files' key = files fid) (hk : F.rd = true → key = ρ fid ∧ Apart ρ l fid) (hop : op.releases = false) :
    stepFile { log := ren ρ l, files := files' } key F op =
      (stepFile { log := l, files } fid F op).map fun x =>
        ({ log := ren ρ x.1.log, files := fun i => if i = key then x.1.files fid else files' i }, x.2) := by
  have same : files' = fun i => if i = key then files fid else files' i := by
    funext i
    by_cases h : i = key
    · rw [if_pos h, h, hf]
    · rw [if_neg h]
  have quiet : ∀ (l' : Log) (o : Out), (Except.ok ({ log := ren ρ l', files := files' }, o) : Except Fault (Sys × Out)) =
      (Except.ok (({ log := l', files } : Sys), o) : Except Fault (Sys × Out)).map fun x =>
        ({ log := ren ρ x.1.log, files := fun i => if i = key then x.1.files fid else files' i }, x.2) := by
    intro l' o
    show _ = Except.ok (({ log := ren ρ l', files := fun i => if i = key then files fid else files' i } : Sys), o)
    rw [← same]
  by_cases hr : F.rd = true
  · obtain ⟨hk, ha⟩ := hk hr
    subst hk
    cases op with
    | openF a b c d => exact quiet l _
    | release a => cases hop
    | write a tk it junk =>
      unfold stepFile
      dsimp only
      by_cases hw : F.wr = true
      · rw [if_pos hw, if_pos hw, ren_write]
        cases writeEntry l F.raw tk it junk with
        | error e => rfl
        | ok x => exact quiet x.1 x.2
      · rw [if_neg hw, if_neg hw]
        exact quiet l _
    | flush a =>
      unfold stepFile
      dsimp only
      by_cases hw : F.wr = true
      · rw [if_pos hw, if_pos hw]
        refine Eq.trans ?_ (quiet _ _)
        unfold ren
        dsimp only
        rw [List.map_map, List.map_map]
        rfl
      · rw [if_neg hw, if_neg hw]
        exact quiet l _
    | setRaw a cap arg =>
      unfold stepFile
      dsimp only
      by_cases hw : F.wr = true
      · rw [if_pos hw, if_pos hw]
        cases cap with
        | false => exact quiet l _
        | true =>
          cases arg with
          | none => exact quiet l _
          | some v =>
            dsimp only
            by_cases hv : v ≠ 0 ∧ v ≠ 1
            · rw [if_pos hv, if_pos hv]; exact quiet l _
            · rw [if_neg hv, if_neg hv]
              show Except.ok _ = Except.ok _
              unfold Sys.setFile
              dsimp only
              rw [if_pos rfl]
      · rw [if_neg hw, if_neg hw]
        exact quiet l _
    | getBufSize a => exact quiet l _
    | check a =>
      unfold stepFile
      dsimp only
      rw [if_pos hr, if_pos hr, ren_find ha]
      cases findReader l fid with
      | error e => rfl
      | ok r => exact quiet l _
    | read a euid count uw =>
      unfold stepFile
      dsimp only
      rw [if_pos hr, if_pos hr, ren_find ha]
      cases findReader l fid with
      | error e => rfl
      | ok r =>
        rw [bok, bok, ren_section]
        cases readSection l euid r count uw with
        | error e => rfl
        | ok x =>
          rw [bok, bok, ren_setReader ha]
          exact quiet _ _
    | poll a euid =>
      unfold stepFile
      dsimp only
      rw [if_pos hr, if_pos hr, ren_find ha]
      cases findReader l fid with
      | error e => rfl
      | ok r =>
        rw [bok, bok, ren_skip]
        cases skipForeign l euid r with
        | error e => rfl
        | ok x =>
          rw [bok, bok, ren_setReader ha]
          exact quiet _ _
    | getLogLen a =>
      unfold stepFile
      dsimp only
      rw [if_pos hr, if_pos hr, ren_find ha]
      cases findReader l fid with
      | error e => rfl
      | ok r => exact quiet l _
    | getNextLen a euid =>
      unfold stepFile
      dsimp only
      rw [if_pos hr, if_pos hr, ren_find ha]
      cases findReader l fid with
      | error e => rfl
      | ok r =>
        rw [bok, bok, ren_skip]
        cases skipForeign l euid r with
        | error e => rfl
        | ok x =>
          rw [bok, bok, ren_setReader ha, show (ren ρ l).wOff = l.wOff from rfl, ren_msgLen]
          by_cases hw : l.wOff ≠ x.off
          · rw [if_pos hw, if_pos hw]
            cases getEntryMsgLen l x.off with
            | error e => rfl
            | ok n => exact quiet _ _
          · rw [if_neg hw, if_neg hw]
            exact quiet _ _
    | getVersion a =>
      unfold stepFile
      dsimp only
      rw [if_pos hr, if_pos hr, ren_find ha]
      cases findReader l fid with
      | error e => rfl
      | ok r => exact quiet l _
    | setVersion a arg =>
      unfold stepFile
      dsimp only
      rw [if_pos hr, if_pos hr, ren_find ha]
      cases findReader l fid with
      | error e => rfl
      | ok r =>
        rw [bok, bok]
        cases arg with
        | none => exact quiet l _
        | some v =>
          dsimp only
          by_cases hv : v < 1 ∨ v > 2
          · rw [if_pos hv, if_pos hv]; exact quiet l _
          · rw [if_neg hv, if_neg hv, ren_setReader ha]
            exact quiet _ _
  · cases op with
    | openF a b c d => exact quiet l _
    | release a => cases hop
    | write a tk it junk =>
      unfold stepFile
      dsimp only
      by_cases hw : F.wr = true
      · rw [if_pos hw, if_pos hw, ren_write]
        cases writeEntry l F.raw tk it junk with
        | error e => rfl
        | ok x => exact quiet x.1 x.2
      · rw [if_neg hw, if_neg hw]
        exact quiet l _
    | flush a =>
      unfold stepFile
      dsimp only
      by_cases hw : F.wr = true
      · rw [if_pos hw, if_pos hw]
        refine Eq.trans ?_ (quiet _ _)
        unfold ren
        dsimp only
        rw [List.map_map, List.map_map]
        rfl
      · rw [if_neg hw, if_neg hw]
        exact quiet l _
    | setRaw a cap arg =>
      unfold stepFile
      dsimp only
      by_cases hw : F.wr = true
      · rw [if_pos hw, if_pos hw]
        cases cap with
        | false => exact quiet l _
        | true =>
          cases arg with
          | none => exact quiet l _
          | some v =>
            dsimp only
            by_cases hv : v ≠ 0 ∧ v ≠ 1
            · rw [if_pos hv, if_pos hv]; exact quiet l _
            · rw [if_neg hv, if_neg hv]
              show Except.ok _ = Except.ok _
              unfold Sys.setFile
              dsimp only
              rw [if_pos rfl]
      · rw [if_neg hw, if_neg hw]
        exact quiet l _
    | getBufSize a => exact quiet l _
    | _ =>
      unfold stepFile
      dsimp only
      rw [if_neg hr, if_neg hr]
      exact quiet l _

/-- What a call other than the closing one leaves. -/
theorem call_keeps {l : Log} {fid : Nat} {F : File} {op : Op} {files : Nat → Option File} {t : Sys} {o : Out}
    (hf : files fid = some F) (hop : op.releases = false) (hs : stepFile { log := l, files } fid F op = .ok (t, o)) :
    keys t.log = keys l ∧ ∃ raw, t.files fid = some { F with raw } := by
  have quiet : ∀ {l' : Log} {o' : Out}, keys l' = keys l → (Except.ok (({ log := l', files } : Sys), o') : Except Fault (Sys × Out)) = .ok (t, o) →
      keys t.log = keys l ∧ ∃ raw, t.files fid = some { F with raw } := by
    intro l' o' hk h
    injection h with h
    injection h with h1 h2
    subst h1
    exact ⟨hk, F.raw, hf⟩
  have rd : ∀ {g : Reader → Except Fault (Sys × Out)}, (∀ r, findReader l fid = .ok r → g r = .ok (t, o) →
      keys t.log = keys l ∧ ∃ raw, t.files fid = some { F with raw }) →
      (if F.rd = true then findReader l fid >>= g else .ok ({ log := l, files }, .err .ebadf)) = .ok (t, o) →
      keys t.log = keys l ∧ ∃ raw, t.files fid = some { F with raw } := by
    intro g hg h
    by_cases hr : F.rd = true
    · rw [if_pos hr] at h
      cases hfr : findReader l fid with
      | error e => rw [hfr, berr] at h; cases h
      | ok r => rw [hfr, bok] at h; exact hg r hfr h
    · rw [if_neg hr] at h
      exact quiet rfl h
  cases op with
  | openF a b c d => exact quiet rfl hs
  | release a => cases hop
  | write a tk it junk =>
    unfold stepFile at hs
    dsimp only at hs
    by_cases hw : F.wr = true
    · rw [if_pos hw] at hs
      cases he : writeEntry l F.raw tk it junk with
      | error e => rw [he, berr] at hs; cases hs
      | ok x =>
        rw [he, bok] at hs
        exact quiet (keys_write he) hs
    · rw [if_neg hw] at hs
      exact quiet rfl hs
  | flush a =>
    unfold stepFile at hs
    dsimp only at hs
    by_cases hw : F.wr = true
    · rw [if_pos hw] at hs
      exact quiet (by unfold keys; dsimp only; rw [List.map_map]; rfl) hs
    · rw [if_neg hw] at hs
      exact quiet rfl hs
  | setRaw a cap arg =>
    unfold stepFile at hs
    dsimp only at hs
    by_cases hw : F.wr = true
    · rw [if_pos hw] at hs
      cases cap with
      | false => exact quiet rfl hs
      | true =>
        cases arg with
        | none => exact quiet rfl hs
        | some v =>
          dsimp only at hs
          by_cases hv : v ≠ 0 ∧ v ≠ 1
          · rw [if_pos hv] at hs; exact quiet rfl hs
          · rw [if_neg hv] at hs
            have hs : (Except.ok _ : Except Fault (Sys × Out)) = _ := hs
            injection hs with hs
            injection hs with h1 h2
            subst h1
            refine ⟨rfl, decide (v = 1), ?_⟩
            unfold Sys.setFile
            dsimp only
            rw [if_pos rfl]
    · rw [if_neg hw] at hs
      exact quiet rfl hs
  | getBufSize a => exact quiet rfl hs
  | check a => exact rd (fun r _ h => quiet rfl h) hs
  | getLogLen a => exact rd (fun r _ h => quiet rfl h) hs
  | getVersion a => exact rd (fun r _ h => quiet rfl h) hs
  | read a euid count uw =>
    refine rd (fun r _ h => ?_) hs
    cases he : readSection l euid r count uw with
    | error e => rw [he, berr] at h; cases h
    | ok x =>
      rw [he, bok] at h
      exact quiet (keys_set ..) h
  | poll a euid =>
    unfold stepFile at hs
    dsimp only at hs
    by_cases hr : F.rd = true
    · rw [if_pos hr] at hs
      cases hfr : findReader l fid with
      | error e => rw [hfr, berr] at hs; cases hs
      | ok r =>
        rw [hfr, bok] at hs
        cases he : skipForeign l euid r with
        | error e => rw [he, berr] at hs; cases hs
        | ok x =>
          rw [he, bok] at hs
          exact quiet (keys_set ..) hs
    · rw [if_neg hr] at hs
      exact quiet rfl hs
  | getNextLen a euid =>
    refine rd (fun r _ h => ?_) hs
    cases he : skipForeign l euid r with
    | error e => rw [he, berr] at h; cases h
    | ok x =>
      rw [he, bok] at h
      by_cases hw : l.wOff ≠ x.off
      · rw [if_pos hw] at h
        cases hm : getEntryMsgLen l x.off with
        | error e => rw [hm, berr] at h; cases h
        | ok n =>
          rw [hm, bok] at h
          exact quiet (keys_set ..) h
      · rw [if_neg hw] at h
        exact quiet (keys_set ..) h
  | setVersion a arg =>
    refine rd (fun r _ h => ?_) hs
    cases arg with
    | none => exact quiet rfl h
    | some v =>
      dsimp only at h
      by_cases hv : v < 1 ∨ v > 2
      · rw [if_pos hv] at h; exact quiet rfl h
      · rw [if_neg hv] at h
        exact quiet (keys_set ..) h

end Verif.Kernel.Life
