import Verif.Kernel.Ioctl
import Verif.Kernel.Props

/-!
# Requests by number (C126)
-/
namespace Verif.Kernel
open Verif

/-! ## Specification -/

inductive Need
  | nothing | reading | writing
  deriving DecidableEq, Repr

/-- A request: the mode of the file it needs, whether it needs a privilege, the values it
takes. -/
structure Req where
  need : Need
  priv : Bool
  takes : Option (List Int)

/-- The requests there are. -/
def requests : List (Nat × Req) :=
  [(44565, ⟨.nothing, false, none⟩), (44566, ⟨.reading, false, none⟩), (44567, ⟨.reading, false, none⟩), (44568, ⟨.writing, false, none⟩),
   (44569, ⟨.reading, false, none⟩), (44570, ⟨.reading, false, some [1, 2]⟩), (44571, ⟨.writing, true, some [0, 1]⟩)]

def Need.met (n : Need) (f : File) : Bool :=
  match n with | .nothing => true | .reading => f.rd | .writing => f.wr

/-- The error a request is refused with, if it is: the number, the mode, the privilege, the
memory, the value, in this order. -/
def refusal (f : File) (cap : Bool) (cmd : Nat) (arg : Option Int) : Option Nat :=
  match requests.lookup cmd with
  | none => some 22
  | some r =>
    if r.need.met f = false then some 9
    else if r.priv && !cap then some 1
    else match r.takes, arg with
      | none, _ => none
      | some _, none => some 14
      | some l, some v => if v ∈ l then none else some 22

/-- What a request that is not refused may return on a device of `2 ^ k` bytes. -/
def Answers (k cmd : Nat) (r : Int) : Prop :=
  if cmd = 44565 then r = ((2 ^ k : Nat) : Int)
  else if cmd = 44566 then 0 ≤ r ∧ r < ((2 ^ k : Nat) : Int)
  else if cmd = 44567 then 0 ≤ r ∧ r ≤ 4100
  else if cmd = 44569 then r = 1 ∨ r = 2
  else r = 0

/-- The four bytes of an `int`, lowest first. -/
def intBytes (v : Int) : Bytes := (List.range 4).map fun i => UInt8.ofNat ((v % 4294967296).toNat / 256 ^ i)

/-! ## Proof -/

/-- Any `int` arrives as it is. -/
theorem C126_int {v : Int} (h : -2147483648 ≤ v ∧ v < 2147483648) : intAt (some (intBytes v)) = some v := by
  unfold intAt intBytes
  simp only [List.range, List.range.loop, List.map_cons, List.map_nil, Option.map_some, List.foldr_cons, List.foldr_nil, UInt8.toNat_ofNat']
  unfold toInt32
  dsimp only
  congr 1
  split <;> omega

theorem request_other {fid : Nat} {euid : UInt32} {cap : Bool} {arg : Option Bytes} {cmd : Nat} (h : requests.lookup cmd = none) : request fid euid cap arg cmd = none := by
  simp only [requests, List.lookup_cons, List.lookup_nil] at h
  unfold request ioReq
  repeat' split at h
  all_goals first | (cases h; done) | skip
  simp only [beq_eq_false_iff_ne, ne_eq] at *
  simp [*]

theorem next_le {k G : Nat} {c : Sys} {a : ASys} (h : Rel k G c a) (r : ARd) : (match a.log.hist[r.idx]? with | some e => (e.view r.ver).length | none => 0) ≤ 4100 := by
  cases he : a.log.hist[r.idx]? with
  | none => exact Nat.zero_le _
  | some e => exact view_le (h.log.wf e (List.mem_of_getElem? he)) _

theorem len_le {k G : Nat} {c : Sys} {a : ASys} (h : Rel k G c a) {fid : Nat} {r : ARd} (hr : a.log.find fid = some r) : bytesLen (a.log.hist.drop r.idx) < 2 ^ k := by
  have h1 := h.log.live (fid, r) (lookup_mem hr)
  have h2 := h.log.hW
  have h3 := pos_add_drop a.log.hist r.idx
  have h4 : G < pos a.log.hist r.idx + c.log.size := h1.2
  rw [h.log.size] at h4
  omega

/-- A request on an open file: refused with the error of the table, and then nothing has
changed; otherwise the result is one of those above. -/
theorem C126_requests {name k buf ops s tr} (h : Run name k buf ops s tr) {fid : Nat} {f : File} (hf : s.files fid = some f)
    (euid : UInt32) (cap : Bool) (cmd : Nat) (arg : Option Bytes) :
    ∃ s' r, ioctl s fid euid cap cmd arg = .ok (s', r) ∧
      match refusal f cap cmd (intAt arg) with
      | some e => r = -(e : Int) ∧ s' = s
      | none => Answers k cmd r := by
  obtain ⟨G, a, hrel, hinv, -, hsz⟩ := h.abs
  have hfa : a.files fid = some f := by rw [← hrel.files]; exact hf
  have hio : ∀ op : Op, request fid euid cap arg cmd = some op → ioctl s fid euid cap cmd arg = (step s op).map fun x => (x.1, retval x.2) := by
    intro op ho
    unfold ioctl
    rw [hf, ho]
  have hstep : ∀ op : Op, op.fid = fid → (∀ a b c d, op ≠ .openF a b c d) → step s op = stepFile s fid f op := by
    intro op ho hne
    unfold step
    subst ho
    rw [hf]
    cases op with
    | openF a b c d => exact absurd rfl (hne a b c d)
    | _ => rfl
  have hastep : ∀ op : Op, op.fid = fid → (∀ a b c d, op ≠ .openF a b c d) → astep a op = astepFile a fid f op := by
    intro op ho hne
    unfold astep
    subst ho
    rw [hfa]
    cases op with
    | openF a b c d => exact absurd rfl (hne a b c d)
    | _ => rfl
  have hok : ∀ op : Op, request fid euid cap arg cmd = some op → op.supported = true → Answers k cmd (retval (astep a op).2) →
      ∃ s' r, ioctl s fid euid cap cmd arg = .ok (s', r) ∧ Answers k cmd r := by
    intro op ho hs h1
    obtain ⟨G', c', hc, _⟩ := step_refines hrel op hs
    exact ⟨c', _, by rw [hio op ho, hc]; rfl, h1⟩
  have hbad : ∀ (op : Op) (e : Errno) (n : Nat), request fid euid cap arg cmd = some op → step s op = .ok (s, .err e) → errnoNum e = n →
      ∃ s' r, ioctl s fid euid cap cmd arg = .ok (s', r) ∧ r = -(n : Int) ∧ s' = s := by
    intro op e n ho hc hn
    exact ⟨s, _, by rw [hio op ho, hc]; rfl, by rw [← hn]; rfl, rfl⟩
  by_cases h44565 : cmd = 44565
  · have hq : request fid euid cap arg cmd = some (.getBufSize fid) := by rw [h44565]; rfl
    have hr : refusal f cap cmd (intAt arg) = none := by rw [h44565]; rfl
    rw [hr]
    refine hok _ hq rfl ?_
    rw [hastep (.getBufSize fid) rfl (by simp)]
    simp only [astepFile, retval, Answers, h44565, if_true, hsz]
  by_cases h44566 : cmd = 44566
  · have hq : request fid euid cap arg cmd = some (.getLogLen fid) := by rw [h44566]; rfl
    cases hm : f.rd with
    | false =>
      have hr : refusal f cap cmd (intAt arg) = some 9 := by rw [h44566]; simp [refusal, requests, List.lookup, Need.met, hm]
      rw [hr]
      refine hbad _ .ebadf 9 hq ?_ rfl
      rw [hstep (.getLogLen fid) rfl (by simp)]
      simp [stepFile, hm]
    | true =>
      have hr : refusal f cap cmd (intAt arg) = none := by rw [h44566]; simp [refusal, requests, List.lookup, Need.met, hm]
      rw [hr]
      refine hok _ hq rfl ?_
      rw [hastep (.getLogLen fid) rfl (by simp)]
      obtain ⟨r, hr1, _, _⟩ := hrel.find hfa hm
      have hlen := len_le hrel hr1
      simp only [astepFile, hm, if_true, hr1, retval, Answers, h44566]
      simp only [if_neg (show ¬ (44566 = 44565) by decide)]
      omega
  by_cases h44567 : cmd = 44567
  · have hq : request fid euid cap arg cmd = some (.getNextLen fid euid) := by rw [h44567]; rfl
    cases hm : f.rd with
    | false =>
      have hr : refusal f cap cmd (intAt arg) = some 9 := by rw [h44567]; simp [refusal, requests, List.lookup, Need.met, hm]
      rw [hr]
      refine hbad _ .ebadf 9 hq ?_ rfl
      rw [hstep (.getNextLen fid euid) rfl (by simp)]
      simp [stepFile, hm]
    | true =>
      have hr : refusal f cap cmd (intAt arg) = none := by rw [h44567]; simp [refusal, requests, List.lookup, Need.met, hm]
      rw [hr]
      refine hok _ hq rfl ?_
      rw [hastep (.getNextLen fid euid) rfl (by simp)]
      obtain ⟨r, hr1, _, _⟩ := hrel.find hfa hm
      have hlen := next_le hrel (askip a.log.hist euid r)
      simp only [astepFile, hm, if_true, hr1, retval, Answers, h44567]
      simp only [if_neg (show ¬ (44567 = 44565) by decide), if_neg (show ¬ (44567 = 44566) by decide)]
      exact ⟨Int.natCast_nonneg _, Int.ofNat_le.2 hlen⟩
  by_cases h44568 : cmd = 44568
  · have hq : request fid euid cap arg cmd = some (.flush fid) := by rw [h44568]; rfl
    cases hm : f.wr with
    | false =>
      have hr : refusal f cap cmd (intAt arg) = some 9 := by rw [h44568]; simp [refusal, requests, List.lookup, Need.met, hm]
      rw [hr]
      refine hbad _ .ebadf 9 hq ?_ rfl
      rw [hstep (.flush fid) rfl (by simp)]
      simp [stepFile, hm]
    | true =>
      have hr : refusal f cap cmd (intAt arg) = none := by rw [h44568]; simp [refusal, requests, List.lookup, Need.met, hm]
      rw [hr]
      refine hok _ hq rfl ?_
      rw [hastep (.flush fid) rfl (by simp)]
      simp [astepFile, hm, retval, Answers, h44568]
  by_cases h44569 : cmd = 44569
  · have hq : request fid euid cap arg cmd = some (.getVersion fid) := by rw [h44569]; rfl
    cases hm : f.rd with
    | false =>
      have hr : refusal f cap cmd (intAt arg) = some 9 := by rw [h44569]; simp [refusal, requests, List.lookup, Need.met, hm]
      rw [hr]
      refine hbad _ .ebadf 9 hq ?_ rfl
      rw [hstep (.getVersion fid) rfl (by simp)]
      simp [stepFile, hm]
    | true =>
      have hr : refusal f cap cmd (intAt arg) = none := by rw [h44569]; simp [refusal, requests, List.lookup, Need.met, hm]
      rw [hr]
      refine hok _ hq rfl ?_
      rw [hastep (.getVersion fid) rfl (by simp)]
      obtain ⟨r, hr1, _, _⟩ := hrel.find hfa hm
      obtain ⟨_, _, _, _, hver, _⟩ := hinv.ok hr1
      simp only [astepFile, hm, if_true, hr1, retval, Answers, h44569]
      simp
      omega
  by_cases h44570 : cmd = 44570
  · have hq : request fid euid cap arg cmd = some (.setVersion fid (intAt arg)) := by rw [h44570]; rfl
    cases hm : f.rd with
    | false =>
      have hr : refusal f cap cmd (intAt arg) = some 9 := by rw [h44570]; simp [refusal, requests, List.lookup, Need.met, hm]
      rw [hr]
      refine hbad _ .ebadf 9 hq ?_ rfl
      rw [hstep (.setVersion fid (intAt arg)) rfl (by simp)]
      simp [stepFile, hm]
    | true =>
      obtain ⟨r, hr1, hr2, _⟩ := hrel.find hfa hm
      cases hv : intAt arg with
      | none =>
        have hr : refusal f cap cmd none = some 14 := by rw [h44570]; simp [refusal, requests, List.lookup, Need.met, hm]
        rw [hr]
        refine hbad _ .efault 14 hq ?_ rfl
        rw [hstep (.setVersion fid (intAt arg)) rfl (by simp)]
        simp [stepFile, hm, hv, hr2, bind, Except.bind, pure, Except.pure]
      | some v =>
        by_cases hin : v = 1 ∨ v = 2
        · have hr : refusal f cap cmd (some v) = none := by rw [h44570]; simp [refusal, requests, List.lookup, Need.met, hm, hin]
          rw [hr]
          refine hok _ hq rfl ?_
          rw [hastep (.setVersion fid (intAt arg)) rfl (by simp)]
          simp [astepFile, hm, hv, hr1, hin, retval, Answers, h44570]
        · have hr : refusal f cap cmd (some v) = some 22 := by rw [h44570]; simp [refusal, requests, List.lookup, Need.met, hm]; omega
          rw [hr]
          refine hbad _ .einval 22 hq ?_ rfl
          rw [hstep (.setVersion fid (intAt arg)) rfl (by simp)]
          have hin' : v < 1 ∨ v > 2 := by omega
          simp [stepFile, hm, hv, hr2, bind, Except.bind, pure, Except.pure]
          omega
  by_cases h44571 : cmd = 44571
  · have hq : request fid euid cap arg cmd = some (.setRaw fid cap (intAt arg)) := by rw [h44571]; rfl
    cases hm : f.wr with
    | false =>
      have hr : refusal f cap cmd (intAt arg) = some 9 := by rw [h44571]; simp [refusal, requests, List.lookup, Need.met, hm]
      rw [hr]
      refine hbad _ .ebadf 9 hq ?_ rfl
      rw [hstep (.setRaw fid cap (intAt arg)) rfl (by simp)]
      simp [stepFile, hm]
    | true =>
      cases hcap : cap with
      | false =>
        subst hcap
        have hr : refusal f false cmd (intAt arg) = some 1 := by rw [h44571]; simp [refusal, requests, List.lookup, Need.met, hm]
        rw [hr]
        refine hbad _ .eperm 1 hq ?_ rfl
        rw [hstep (.setRaw fid false (intAt arg)) rfl (by simp)]
        simp [stepFile, hm]
      | true =>
        subst hcap
        cases hv : intAt arg with
        | none =>
          have hr : refusal f true cmd none = some 14 := by rw [h44571]; simp [refusal, requests, List.lookup, Need.met, hm]
          rw [hr]
          refine hbad _ .efault 14 hq ?_ rfl
          rw [hstep (.setRaw fid true (intAt arg)) rfl (by simp)]
          simp [stepFile, hm, hv]
        | some v =>
          by_cases hin : v = 0 ∨ v = 1
          · have hr : refusal f true cmd (some v) = none := by rw [h44571]; simp [refusal, requests, List.lookup, Need.met, hm, hin]
            rw [hr]
            refine hok _ hq rfl ?_
            rw [hastep (.setRaw fid true (intAt arg)) rfl (by simp)]
            simp [astepFile, hm, hv, hin, retval, Answers, h44571]
          · have hr : refusal f true cmd (some v) = some 22 := by rw [h44571]; simp [refusal, requests, List.lookup, Need.met, hm]; omega
            rw [hr]
            refine hbad _ .einval 22 hq ?_ rfl
            rw [hstep (.setRaw fid true (intAt arg)) rfl (by simp)]
            have hin' : v ≠ 0 ∧ v ≠ 1 := by omega
            simp [stepFile, hm, hv]
            omega
  have hl : requests.lookup cmd = none := by
    simp only [requests, List.lookup, beq_eq_false_iff_ne.2 h44565, beq_eq_false_iff_ne.2 h44566, beq_eq_false_iff_ne.2 h44567, beq_eq_false_iff_ne.2 h44568,
      beq_eq_false_iff_ne.2 h44569, beq_eq_false_iff_ne.2 h44570, beq_eq_false_iff_ne.2 h44571]
  have hr : refusal f cap cmd (intAt arg) = some 22 := by unfold refusal; rw [hl]
  rw [hr]
  refine ⟨s, -22, ?_, rfl, rfl⟩
  unfold ioctl
  rw [hf, request_other hl]

/-- A file that is not open is refused. -/
theorem C126_closed {s : Sys} {fid : Nat} (hf : s.files fid = none) (euid : UInt32) (cap : Bool) (cmd : Nat) (arg : Option Bytes) :
    ioctl s fid euid cap cmd arg = .ok (s, -9) := by
  unfold ioctl
  rw [hf]

/-- No request adds a message, and what follows it is a run as any other. -/
theorem C126_run {name k buf ops s tr} (h : Run name k buf ops s tr) {fid : Nat} {euid : UInt32} {cap : Bool} {cmd : Nat} {arg : Option Bytes} {s' : Sys} {r : Int}
    (hs : ioctl s fid euid cap cmd arg = .ok (s', r)) :
    ∃ ops' tr', Run name k buf (ops ++ ops') s' (tr ++ tr') ∧ (obs name (tr ++ tr')).hist = (obs name tr).hist := by
  have hsame : s' = s → ∃ ops' tr', Run name k buf (ops ++ ops') s' (tr ++ tr') ∧ (obs name (tr ++ tr')).hist = (obs name tr).hist := by
    rintro rfl
    exact ⟨[], [], by simpa using h, by rw [List.append_nil]⟩
  unfold ioctl at hs
  split at hs
  · cases hs; exact hsame rfl
  · cases hs; exact hsame rfl
  · rename_i f op hf hq
    cases hc : step s op with
    | error e => rw [hc] at hs; cases hs
    | ok x =>
      obtain ⟨s1, o⟩ := x
      rw [hc] at hs
      cases hs
      have hh : op.supported = true ∧ (obs name (tr ++ [(op, o)])).hist = (obs name tr).hist := by
        unfold obs
        rw [List.foldl_append, List.foldl_cons, List.foldl_nil]
        unfold request at hq
        repeat' split at hq
        all_goals cases hq
        all_goals refine ⟨rfl, ?_⟩
        all_goals unfold obsStep
        all_goals split <;> first | rfl | (rename_i h1; cases h1; done)
      exact ⟨[op], [(op, o)], h.snoc hh.1 hc (by rw [hh.2]; exact h.genuine) (by rw [hh.2]; exact h.count), hh.2⟩

end Verif.Kernel
