import Verif.Kernel.StepRefine

/-!
# What an observer can say about a run

Specification side of the driver properties.  `Obs` is an account kept from
the calls and their results alone (no driver state): which entries have been
committed, how many were committed before the last flush, and for every open
reader how many ordinary entries it received and how many losses it was told
of since the later of its opening and the last flush.
-/
namespace Verif.Kernel
open Verif

/-- The task name held in a 16-byte `comm` array. -/
def taskName (comm : Bytes) : Bytes := (comm.take 16).takeWhile (· != 0)

/-- Payload of the entry an ordinary write of `data` stands for. -/
def specPayload (t : Task) (data : Bytes) : Bytes :=
  (taskName t.pcomm ++ [0] ++ (if t.pid = t.tid then [] else taskName t.tcomm ++ [0]) ++ data).take 4076

/-- The entry an ordinary write of `data` by `t` stands for. -/
def plainSpec (t : Task) (data : Bytes) : Entry :=
  { pid := t.pid, tid := t.tid, sec := t.sec, nsec := t.nsec, euid := t.euid
    payload := specPayload t data }

/-- The entry a raw write of `data` stands for. -/
def rawSpec (data : Bytes) : Entry :=
  { pid := word data 0, tid := word data 4, sec := word data 8, nsec := word data 12
    euid := word data 16, payload := (data.drop 20).take 4076 }

/-- User bytes of a write (unreadable ones shown as 0). -/
def Iter.bytes (it : Iter) : Bytes := it.data.map fun o => o.getD 0

/-- A read result is a drop notice: process id and thread id are both -1. -/
def isNotice (bs : Bytes) : Bool := (bs.drop 4).take 8 = List.replicate 8 0xff

def isDigit (b : UInt8) : Bool := 48 ≤ b ∧ b ≤ 57

/-- Value of a string of decimal digits. -/
def parseDec (bs : Bytes) : Nat := bs.foldl (fun n b => 10 * n + (b.toNat - 48)) 0

/-- The number announced by a drop notice of a device with name `name`, read
with header version `ver`. -/
def noticeCount (name : Bytes) (ver : Nat) (bs : Bytes) : Nat :=
  parseDec ((bs.drop ((if ver < 2 then 20 else 24) + 5 + name.length + 1)).takeWhile isDigit)

structure RObs where
  all : Bool
  ver : Nat
  got : Nat
  told : Nat
  deriving DecidableEq, Repr

structure Obs where
  hist : List Entry
  base : Nat
  raw : Nat → Bool
  rds : Nat → Option RObs

def Obs.init : Obs := { hist := [], base := 0, raw := fun _ => false, rds := fun _ => none }

def upd {α} (f : Nat → α) (i : Nat) (v : α) : Nat → α := fun j => if j = i then v else f j

/-- Accounting of one call and its result. -/
def obsStep (name : Bytes) (o : Obs) : Op × Out → Obs
  | (.openF fid rd _ all, .ok) =>
    { o with raw := upd o.raw fid false
             rds := upd o.rds fid (if rd then some { all, ver := 2, got := 0, told := 0 } else none) }
  | (.release fid, .ok) => { o with rds := upd o.rds fid none }
  | (.setRaw fid _ (some v), .ok) => { o with raw := upd o.raw fid (v = 1) }
  | (.setVersion fid (some v), .ok) =>
    { o with rds := upd o.rds fid ((o.rds fid).map fun r => { r with ver := v.toNat }) }
  | (.flush _, .ok) =>
    { o with base := o.hist.length
             rds := fun i => (o.rds i).map fun r => { r with got := 0, told := 0 } }
  | (.write fid t it _, .ret n) =>
    if o.raw fid then
      if n = 0 then o else { o with hist := o.hist ++ [rawSpec it.bytes] }
    else { o with hist := o.hist ++ [plainSpec t it.bytes] }
  | (.read fid _ _ _, .data bs) =>
    { o with rds := upd o.rds fid ((o.rds fid).map fun r =>
        if isNotice bs then { r with told := r.told + noticeCount name r.ver bs }
        else { r with got := r.got + 1 }) }
  | _ => o

def obs (name : Bytes) (tr : List (Op × Out)) : Obs := tr.foldl (obsStep name) Obs.init

/-- No committed entry claims to come from process -1, thread -1. Task ids are
never -1; a raw writer could forge such an entry. -/
def Genuine (h : List Entry) : Prop := ∀ e ∈ h, ¬ (e.pid = 0xffffffff ∧ e.tid = 0xffffffff)

/-! ## Notices -/

theorem parseDec_snoc (bs : Bytes) (b : UInt8) :
    parseDec (bs ++ [b]) = 10 * parseDec bs + (b.toNat - 48) := by
  simp [parseDec, List.foldl_append]

theorem digit_toNat {n : Nat} (h : n < 10) : (UInt8.ofNat (48 + n)).toNat = 48 + n := by
  rw [UInt8.toNat_ofNat']; omega

theorem parseDec_decNat (n : Nat) : parseDec (decNat n) = n := by
  induction n using Nat.strongRecOn with
  | ind n ih =>
    unfold decNat
    split
    · rename_i h
      simp only [parseDec, List.foldl_cons, List.foldl_nil]
      rw [digit_toNat h]; omega
    · rw [parseDec_snoc, ih (n / 10) (by omega), digit_toNat (by omega)]
      omega

theorem isDigit_digit {n : Nat} (h : n < 10) : isDigit (UInt8.ofNat (48 + n)) = true := by
  have := digit_toNat h
  simp only [isDigit, UInt8.le_iff_toNat_le, decide_eq_true_eq]
  rw [this]
  simp
  omega

theorem decNat_digits (n : Nat) : ∀ b ∈ decNat n, isDigit b = true := by
  induction n using Nat.strongRecOn with
  | ind n ih =>
    intro b hb
    unfold decNat at hb
    split at hb
    · rename_i h
      simp only [List.mem_singleton] at hb
      rw [hb]; exact isDigit_digit h
    · rcases List.mem_append.mp hb with hb | hb
      · exact ih (n / 10) (by omega) b hb
      · simp only [List.mem_singleton] at hb
        rw [hb]; exact isDigit_digit (by omega)

theorem takeWhile_append_all {α} {p : α → Bool} {l r : List α} (hl : ∀ x ∈ l, p x = true)
    (hr : ∀ x, r.head? = some x → p x = false) : (l ++ r).takeWhile p = l := by
  induction l with
  | nil =>
    cases r with
    | nil => rfl
    | cons a r => simp [hr a rfl]
  | cons a l ih =>
    have := ih (fun x hx => hl x (by simp [hx]))
    simp [hl a (by simp), this]

theorem toInt32_small {n : Nat} (h : n < 2147483648) : toInt32 n = (n : Int) := by
  unfold toInt32
  rw [Nat.mod_eq_of_lt (by omega)]
  simp [h]

theorem isNotice_view_iff (e : Entry) (ver : Nat) :
    isNotice (e.view ver) = true ↔ (e.pid = 0xffffffff ∧ e.tid = 0xffffffff) := by
  have hv : ((e.view ver).drop 4).take 8 = le32 e.pid ++ le32 e.tid := by
    unfold Entry.view
    split <;> rfl
  have hinj : ∀ x : UInt32, le32 x = [0xff, 0xff, 0xff, 0xff] ↔ x = 0xffffffff := by
    intro x
    constructor
    · intro h
      have h2 := unle32_le32 x
      unfold le32 at h
      simp only [List.cons.injEq, and_true] at h
      obtain ⟨h0, h1, h2', h3⟩ := h
      rw [h0, h1, h2', h3] at h2
      rw [← h2]
      decide
    · rintro rfl; decide
  unfold isNotice
  rw [hv, decide_eq_true_eq, ← hinj, ← hinj]
  rw [show List.replicate 8 (0xff : UInt8) = [0xff, 0xff, 0xff, 0xff] ++ [0xff, 0xff, 0xff, 0xff] from rfl]
  constructor
  · intro h; exact List.append_inj h rfl
  · rintro ⟨h1, h2⟩; rw [h1, h2]

theorem noticeCount_view {name : Bytes} {n : Nat} {e : Entry} {ver : Nat} (h : n < 2147483648) :
    noticeCount name ver ((summaryEntry name n e).view ver) = n := by
  have hpay : ∃ r, (summaryEntry name n e).payload = [0, 4, 0, 0, 0] ++ name ++ [0] ++ (decNat n ++ 32 :: r) := by
    refine ⟨ascii "log entries dropped\n" ++ [0], ?_⟩
    have h1 : ascii " log entries dropped\n" = 32 :: ascii "log entries dropped\n" := by decide
    simp only [summaryEntry, summaryText, toInt32_small h, h1]
    simp [decInt]
  obtain ⟨r, hpay⟩ := hpay
  have hv : (summaryEntry name n e).view ver =
      userHeader ver (summaryEntry name n e).header ++ (summaryEntry name n e).payload := view_eq ver
  have hl := userHeader_length (e := summaryEntry name n e) ver
  have hu : (if ver < 2 then 20 else 24) = userHdrLen ver := rfl
  unfold noticeCount
  rw [hv, hpay, hu, ← List.append_assoc,
    List.drop_append_of_le_length (by simp [hl]; omega),
    List.drop_of_length_le (by simp [hl]; omega), List.nil_append,
    takeWhile_append_all (decNat_digits n) (by intro x hx; simp at hx; subst hx; decide), parseDec_decNat]

/-! ## The abstract machine keeps the account -/

/-- Everything in `[lo, hi)` was overwritten only after many newer bytes. -/
def LostOk (size : Nat) (h : List Entry) (lo hi : Nat) : Prop :=
  ∀ q, lo ≤ q → q < hi → size < bytesLen (h.drop q) + 8200

structure AInv (a : ASys) (o : Obs) : Prop where
  hist : o.hist = a.log.hist
  wf : ∀ e ∈ a.log.hist, e.wf
  size : 16384 ≤ a.log.size
  raw : ∀ fid f, a.files fid = some f → f.raw = o.raw fid
  base : o.base ≤ a.log.hist.length
  headLe : a.log.head ≤ a.log.hist.length
  head : a.log.head = o.base + a.log.dropped
  headLost : LostOk a.log.size a.log.hist o.base a.log.head
  nodup : (a.log.readers.map Prod.fst).Nodup
  rd : ∀ fid, (a.log.readers.lookup fid).isSome =
    match a.files fid with | some f => f.rd | none => false
  rds : ∀ fid, (o.rds fid).isSome = (a.log.readers.lookup fid).isSome
  rdo : ∀ p ∈ a.log.readers, ∃ r, o.rds p.1 = some r ∧ r.all = p.2.all ∧ r.ver = p.2.ver ∧
    (p.2.ver = 1 ∨ p.2.ver = 2) ∧
    p.2.idx ≤ a.log.hist.length ∧ o.base + r.got + r.told + p.2.dropped ≤ p.2.idx ∧
    (p.2.all = true → p.2.idx = o.base + r.got + r.told + p.2.dropped ∧
      LostOk a.log.size a.log.hist (p.2.idx - p.2.dropped) p.2.idx)

theorem apush_le {size len i : Nat} {h : List Entry} (h0 : 0 < len) (h2 : 2 * len ≤ size)
    (hi : i ≤ h.length) : i + apush size h len i ≤ h.length := by
  unfold apush
  split
  · have := (adv_spec (h.drop i) len h0 (by omega)).2.1
    rw [List.length_drop] at this
    omega
  · omega

theorem apush_lost {size len i : Nat} {h : List Entry} (h0 : 0 < len) (h1 : len ≤ 4100)
    (h2 : 2 * len ≤ size) : LostOk size h i (i + apush size h len i) := by
  intro q hq hq'
  unfold apush at hq'
  split at hq'
  · rename_i hc
    obtain ⟨a0, a1, a2, a3⟩ := adv_spec (h.drop i) len h0 (by omega)
    have e1 := pos_add_drop h i
    have e2 := pos_add_drop h q
    have e3 := pos_add_take h i (adv (h.drop i) len - 1)
    have e4 := pos_mono (h := h) (i := q) (j := i + (adv (h.drop i) len - 1)) (by omega)
    omega
  · omega

theorem LostOk.snoc {size lo hi : Nat} {h : List Entry} (hl : LostOk size h lo hi) (g : List Entry) :
    LostOk size (h ++ g) lo hi := by
  intro q h1 h2
  have := hl q h1 h2
  have e1 := pos_add_drop h q
  have e2 := pos_add_drop (h ++ g) q
  have : pos (h ++ g) q ≤ pos h q + bytesLen (g.take (q - h.length)) := by
    rw [pos, pos, List.take_append, bytesLen_append]
    omega
  have e3 : bytesLen (g.take (q - h.length)) ≤ bytesLen g := pos_le g _
  rw [bytesLen_append] at e2
  omega

theorem LostOk.join {size a b c : Nat} {h : List Entry} (h1 : LostOk size h a b) (h2 : LostOk size h b c) :
    LostOk size h a c := by
  intro q hq hq'
  rcases Nat.lt_or_ge q b with hb | hb
  · exact h1 q hq hb
  · exact h2 q hb hq'

theorem plainEntry_eq_spec (t : Task) (data : Bytes) :
    plainEntry t (data.take (4076 - ((names t).1.length + (names t).2.length))) = plainSpec t data := by
  have hn := (names_length t).2
  have h1 : (names t).1 ++ (names t).2 = taskName t.pcomm ++ [0] ++
      (if t.pid = t.tid then [] else taskName t.tcomm ++ [0]) := by
    simp only [names, commStr, taskName, cstr, commLen]
    congr 1
    by_cases h : t.pid = t.tid <;> simp [h]
  unfold plainSpec specPayload plainEntry
  rw [← h1]
  congr 1
  rw [List.take_append, List.take_append (l₂ := data), List.length_append, List.take_take, Nat.min_self]

/-- The possible outcomes of an abstract write. -/
theorem awrite_cases (l : ALog) (raw : Bool) (t : Task) (it : Iter) :
    (awrite l raw t it.data = (l, .err .einval) ∧ raw = true ∧ it.data.length < 20) ∨
    (awrite l raw t it.data = (l, .ret 0) ∧ raw = true ∧ it.data.length = 20) ∨
    (∃ e n, awrite l raw t it.data = ({ l.pushAll e.size with hist := l.hist ++ [e] }, .ret n) ∧
      e = (if raw then rawSpec it.bytes else plainSpec t it.bytes) ∧ e.wf ∧
      n = min it.data.length (if raw then 4096 else 4076 - ((names t).1.length + (names t).2.length)) ∧
      (raw = true → 20 < it.data.length) ∧
      (it.data.take n).all Option.isSome = true) ∨
    (∃ e n, awrite l raw t it.data = (l.pushAll e.size, .err .efault) ∧ e.wf ∧
      e = (if raw then rawSpec it.bytes else plainSpec t it.bytes) ∧
      n = min it.data.length (if raw then 4096 else 4076 - ((names t).1.length + (names t).2.length)) ∧
      (raw = true → 20 < it.data.length) ∧
      (it.data.take n).all Option.isSome = false) := by
  unfold awrite
  by_cases h1 : (raw && decide (it.data.length < 20)) = true
  · left
    rw [if_pos h1]
    simp only [Bool.and_eq_true, decide_eq_true_eq] at h1
    exact ⟨rfl, h1⟩
  rw [if_neg h1]
  by_cases h2 : (raw && decide (it.data.length = 20)) = true
  · right; left
    rw [if_pos h2]
    simp only [Bool.and_eq_true, decide_eq_true_eq] at h2
    exact ⟨rfl, h2⟩
  rw [if_neg h2]
  right; right
  have hraw : raw = true → 20 < it.data.length := by
    intro hr
    simp only [hr, Bool.true_and, decide_eq_true_eq] at h1 h2
    omega
  have hkl : keepLen raw t = (if raw then 4096 else 4076 - ((names t).1.length + (names t).2.length)) := rfl
  have hbs : ((it.data.take (keepLen raw t)).map fun o => o.getD 0) = it.bytes.take (keepLen raw t) := by
    rw [Iter.bytes, List.map_take]
  have hent : (if raw then rawEntry ((it.data.take (keepLen raw t)).map fun o => o.getD 0)
      else plainEntry t ((it.data.take (keepLen raw t)).map fun o => o.getD 0)) =
      (if raw then rawSpec it.bytes else plainSpec t it.bytes) := by
    rw [hbs]
    cases raw with
    | true =>
      simp only [if_true, keepLen]
      have hw : ∀ i, i + 3 < 4096 → word (it.bytes.take (20 + 4076)) i = word it.bytes i := by
        intro i hi
        have : ∀ j, j < 4096 → (it.bytes.take (20 + 4076)).getD j 0 = it.bytes.getD j 0 := by
          intro j hj
          rw [List.getD_eq_getElem?_getD, List.getD_eq_getElem?_getD, List.getElem?_take_of_lt hj]
        unfold word
        rw [this i (by omega), this (i + 1) (by omega), this (i + 2) (by omega), this (i + 3) (by omega)]
      unfold rawEntry rawSpec
      rw [hw 0 (by omega), hw 4 (by omega), hw 8 (by omega), hw 12 (by omega), hw 16 (by omega)]
      congr 1
      rw [List.drop_take, List.take_take]
      rfl
    | false =>
      simp only [Bool.false_eq_true, if_false, keepLen]
      exact plainEntry_eq_spec t it.bytes
  have hwf : (if raw then rawSpec it.bytes else plainSpec t it.bytes).wf := by
    cases raw with
    | true => simp only [if_true, Entry.wf, rawSpec, List.length_take]; omega
    | false =>
      simp only [Bool.false_eq_true, if_false, Entry.wf, plainSpec, specPayload, List.length_take]; omega
  simp only [hent]
  have hlen : (it.data.take (keepLen raw t)).length =
      min it.data.length (if raw then 4096 else 4076 - ((names t).1.length + (names t).2.length)) := by
    rw [List.length_take, Nat.min_comm, hkl]
  have htk : it.data.take (min it.data.length (if raw then 4096 else 4076 - ((names t).1.length + (names t).2.length)))
      = it.data.take (keepLen raw t) := by rw [take_min_length, hkl]
  cases hall : (it.data.take (keepLen raw t)).all Option.isSome with
  | true =>
    left
    refine ⟨_, _, ?_, rfl, hwf, rfl, hraw, by rw [htk, hall]⟩
    simp only [if_true, hlen]
    rfl
  | false =>
    right
    refine ⟨_, _, ?_, hwf, rfl, rfl, hraw, by rw [htk, hall]⟩
    simp only [Bool.false_eq_true, if_false]
    rfl

theorem askip_all {h : List Entry} {euid : UInt32} {r : ARd} (hr : r.all = true) : askip h euid r = r := by
  simp [askip, hr]

theorem askip_fields (h : List Entry) (euid : UInt32) (r : ARd) :
    (askip h euid r).all = r.all ∧ (askip h euid r).ver = r.ver ∧ (askip h euid r).dropped = r.dropped ∧
      r.idx ≤ (askip h euid r).idx ∧ (r.idx ≤ h.length → (askip h euid r).idx ≤ h.length) := by
  unfold askip
  split
  · simp
  · have := List.findIdx_le_length (p := fun e : Entry => e.euid == euid) (xs := h.drop r.idx)
    rw [List.length_drop] at this
    simp
    omega

/-- What the observer sees of one abstract read. -/
theorem aread_obs {l : ALog} {euid : UInt32} {r : ARd} {count uw : Nat} (hg : Genuine l.hist)
    (hd : r.dropped < 2147483648) :
    (∃ bs, aread l euid r count uw = ({ askip l.hist euid r with dropped := 0 }, .data bs) ∧
      isNotice bs = true ∧ noticeCount l.name r.ver bs = r.dropped ∧ 0 < r.dropped) ∨
    (∃ bs, aread l euid r count uw =
        ({ askip l.hist euid r with idx := (askip l.hist euid r).idx + 1 }, .data bs) ∧
      isNotice bs = false ∧ r.dropped = 0 ∧
      ∃ e, l.hist[(askip l.hist euid r).idx]? = some e ∧ bs = e.view r.ver ∧ count ≥ bs.length ∧
        uw ≥ bs.length) ∨
    ((aread l euid r count uw).1 = askip l.hist euid r ∧
      ∀ bs, (aread l euid r count uw).2 ≠ .data bs) := by
  have hf := askip_fields l.hist euid r
  unfold aread
  simp only
  cases he : l.hist[(askip l.hist euid r).idx]? with
  | none => right; right; exact ⟨rfl, by simp⟩
  | some e =>
    simp only
    rw [hf.2.1, hf.2.2.1]
    by_cases h0 : r.dropped > 0
    · simp only [h0, if_true]
      by_cases h1 : count < ((summaryEntry l.name r.dropped e).view r.ver).length
      · right; right; simp [h1]
      by_cases h2 : uw < ((summaryEntry l.name r.dropped e).view r.ver).length
      · right; right; simp [h1, h2]
      left
      refine ⟨_, by rw [if_neg h1, if_neg h2], ?_, noticeCount_view hd, trivial⟩
      rw [isNotice_view_iff]
      exact ⟨rfl, rfl⟩
    · simp only [h0, if_false]
      by_cases h1 : count < (e.view r.ver).length
      · right; right; simp [h1]
      by_cases h2 : uw < (e.view r.ver).length
      · right; right; simp [h1, h2]
      right; left
      refine ⟨_, by rw [if_neg h1, if_neg h2], ?_, by omega, e, rfl, rfl, by omega, by omega⟩
      cases hn : isNotice (e.view r.ver) with
      | false => rfl
      | true => exact absurd ((isNotice_view_iff e r.ver).mp hn) (hg e (List.mem_of_getElem? he))

end Verif.Kernel
