import Verif.Libulog.OpenDev
import Verif.Kernel.PropsRegistry
import Verif.Libulog.EndToEnd

/-!
# Opening a log device for raw and binary messages (C102)
-/
namespace Verif.Libulog
open Verif Verif.Kernel

/-- The descriptors open after an event. -/
def heldStep (l : List Nat) : OEv → List Nat
  | .opened _ fd => fd :: l
  | .closed fd => l.filter (· ≠ fd)
  | .raw _ => l

/-- The descriptors open after events. -/
def held (l : List Nat) (evs : List OEv) : List Nat := evs.foldl heldStep l

/-- Open gives a descriptor that was not open, or an error. -/
def OpenEnv.Fresh (e : OpenEnv) (l : List Nat) : Prop :=
  (∀ p fd, e.openRes p = .inl fd → fd ∉ l) ∧ ∀ p err, e.openRes p = .inr err → 0 < err

theorem held_back {l : List Nat} {p : Bytes} {fd : Nat} (h : fd ∉ l) : held l [.opened p fd, .closed fd] = l := by
  show (fd :: l).filter (· ≠ fd) = l
  rw [List.filter_cons_of_neg (by simp), List.filter_eq_self]
  intro x hx
  simp only [ne_eq, decide_not, Bool.not_eq_eq_eq_not, Bool.not_true, decide_eq_false_iff_not]
  intro e; subst e; exact h hx

/-- C102, raw. The call returns a descriptor exactly if the device can be opened, is a
character device and takes the raw mode: then just this descriptor is open in addition
and was put into raw mode while it was. Otherwise the result is an error and nothing stays open. Only the
one path is opened. -/
theorem C102_raw {e : OpenEnv} {l : List Nat} (hf : e.Fresh l) (dev : Option Bytes) :
    (∃ fd : Nat, e.openRes (openPath e.getenv (ascii "ULOG_DEVICE") (ascii "/dev/ulog_main") dev) = .inl fd ∧
        e.isChr fd = true ∧ e.rawOk fd = true ∧ (rawOpen e dev).1 = fd ∧ held l (rawOpen e dev).2 = fd :: l ∧
        ∃ a b, (rawOpen e dev).2 = a ++ OEv.raw fd :: b ∧ held l a = fd :: l) ∨
      ((∀ fd, e.openRes (openPath e.getenv (ascii "ULOG_DEVICE") (ascii "/dev/ulog_main") dev) = .inl fd →
          (rawOpen e dev).1 = if e.isChr fd then -38 else -22) ∧
        (∀ err, e.openRes (openPath e.getenv (ascii "ULOG_DEVICE") (ascii "/dev/ulog_main") dev) = .inr err →
          (rawOpen e dev).1 = -(err : Int)) ∧
        (rawOpen e dev).1 < 0 ∧ held l (rawOpen e dev).2 = l) := by
  unfold rawOpen
  generalize openPath e.getenv (ascii "ULOG_DEVICE") (ascii "/dev/ulog_main") dev = path
  dsimp only
  cases hr : e.openRes path with
  | inr err =>
    have := hf.2 _ _ hr
    refine Or.inr ⟨(fun _ h => by cases h), (fun _ h => ?_), ?_, rfl⟩
    · cases h; rfl
    · show -(err : Int) < 0
      omega
  | inl fd =>
    have hn := hf.1 _ _ hr
    dsimp only
    by_cases h1 : e.isChr fd = false
    · rw [if_pos h1]
      refine Or.inr ⟨fun x h => ?_, (fun _ h => by cases h), by simp, held_back hn⟩
      cases h; rw [h1]; rfl
    · rw [if_neg h1]
      rw [Bool.not_eq_false] at h1
      by_cases h2 : e.rawOk fd = false
      · rw [if_pos h2]
        refine Or.inr ⟨fun x h => ?_, (fun _ h => by cases h), by simp, held_back hn⟩
        cases h; rw [h1]; rfl
      · rw [if_neg h2]
        rw [Bool.not_eq_false] at h2
        exact Or.inl ⟨fd, rfl, h1, h2, rfl, rfl, [.opened path fd], [], rfl, rfl⟩

/-- C102, binary: the same without the raw mode. -/
theorem C102_bin {e : OpenEnv} {l : List Nat} (hf : e.Fresh l) (dev : Option Bytes) :
    (∃ fd : Nat, e.openRes (openPath e.getenv (ascii "ULOG_DEVICE_BIN") (ascii "/dev/ulog_mainbin") dev) = .inl fd ∧
        e.isChr fd = true ∧ (binOpen e dev).1 = fd ∧ held l (binOpen e dev).2 = fd :: l ∧
        ∀ x, OEv.raw x ∉ (binOpen e dev).2) ∨
      ((∀ fd, e.openRes (openPath e.getenv (ascii "ULOG_DEVICE_BIN") (ascii "/dev/ulog_mainbin") dev) = .inl fd →
          (binOpen e dev).1 = -22) ∧
        (∀ err, e.openRes (openPath e.getenv (ascii "ULOG_DEVICE_BIN") (ascii "/dev/ulog_mainbin") dev) = .inr err →
          (binOpen e dev).1 = -(err : Int)) ∧
        (binOpen e dev).1 < 0 ∧ held l (binOpen e dev).2 = l) := by
  unfold binOpen
  generalize openPath e.getenv (ascii "ULOG_DEVICE_BIN") (ascii "/dev/ulog_mainbin") dev = path
  dsimp only
  cases hr : e.openRes path with
  | inr err =>
    have := hf.2 _ _ hr
    refine Or.inr ⟨(fun _ h => by cases h), (fun _ h => ?_), ?_, rfl⟩
    · cases h; rfl
    · show -(err : Int) < 0
      omega
  | inl fd =>
    have hn := hf.1 _ _ hr
    dsimp only
    by_cases h1 : e.isChr fd = false
    · rw [if_pos h1]
      refine Or.inr ⟨fun x h => rfl, (fun _ h => by cases h), by simp, held_back hn⟩
    · rw [if_neg h1]
      rw [Bool.not_eq_false] at h1
      exact Or.inl ⟨fd, rfl, h1, rfl, rfl, by simp⟩

/-- The descriptors that calls have returned and that were not closed, last one first. -/
def returned (l : List Nat) : List (HOp × Int) → List Nat
  | [] => l
  | (.close fd, _) :: c => returned (l.filter (fun x => (x : Int) ≠ fd)) c
  | (_, r) :: c => returned (if r ≥ 0 then r.toNat :: l else l) c

/-- Calls, each in an environment that knows which descriptors are open. -/
inductive HRun : List Nat → List (HOp × Int) → List OEv → Prop
  | nil {l : List Nat} : HRun l [] []
  | cons {l : List Nat} {e : OpenEnv} {op : HOp} {c : List (HOp × Int)} {evs : List OEv} (hf : e.Fresh l)
      (h : HRun (held l (hstep e op).2) c evs) : HRun l ((op, (hstep e op).1) :: c) ((hstep e op).2 ++ evs)

/-- C102, no leaks: after any calls, successful or not, the descriptors open are those
that were returned and not closed by the caller. -/
theorem C102_held {l : List Nat} {c : List (HOp × Int)} {evs : List OEv} (h : HRun l c evs) : held l evs = returned l c := by
  induction h with
  | nil => rfl
  | @cons l e op c evs hf h ih =>
    have hsplit : held l ((hstep e op).2 ++ evs) = held (held l (hstep e op).2) evs := by
      unfold held; rw [List.foldl_append]
    rw [hsplit, ih]
    cases op with
    | rawOpen dev =>
      show returned (held l (rawOpen e dev).2) c = returned (if (rawOpen e dev).1 ≥ 0 then (rawOpen e dev).1.toNat :: l else l) c
      rcases C102_raw hf dev with ⟨fd, _, _, _, h4, h5, _⟩ | ⟨_, _, h3, h4⟩
      · rw [h4, h5, if_pos (by omega)]; rfl
      · rw [h4, if_neg (by omega)]
    | binOpen dev =>
      show returned (held l (binOpen e dev).2) c = returned (if (binOpen e dev).1 ≥ 0 then (binOpen e dev).1.toNat :: l else l) c
      rcases C102_bin hf dev with ⟨fd, _, _, h4, h5, _⟩ | ⟨_, _, h3, h4⟩
      · rw [h4, h5, if_pos (by omega)]; rfl
      · rw [h4, if_neg (by omega)]
    | close fd =>
      show returned (held l (rawClose fd)) c = returned (l.filter (fun x => (x : Int) ≠ fd)) c
      congr 1
      unfold rawClose
      by_cases h0 : fd ≥ 0
      · rw [if_pos h0]
        show l.filter (· ≠ fd.toNat) = _
        refine List.filter_congr fun x _ => ?_
        simp only [ne_eq, decide_not, Bool.not_eq_eq_eq_not]
        have : (x = fd.toNat) ↔ ((x : Int) = fd) := by omega
        simp [this]
      · rw [if_neg h0]
        show l = _
        symm
        rw [List.filter_eq_self]
        intro x _
        simp only [ne_eq, decide_not, Bool.not_eq_eq_eq_not, Bool.not_true, decide_eq_false_iff_not]
        omega

/-- C102, the path: the one given; the device named by the variable; the default. A
device of the driver, named by the variable without its `ulog_`, is found by its path:
nothing of the name is cut. Of other names 21 bytes are kept. -/
theorem C102_path (getenv : Bytes → Option Bytes) (var dflt : Bytes) :
    (∀ dev, openPath getenv var dflt (some dev) = dev) ∧
    (getenv var = none → openPath getenv var dflt none = dflt) ∧
    (∀ x, getenv var = some x → openPath getenv var dflt none = ascii "/dev/ulog_" ++ x.take 21) ∧
    ∀ (mainSize : Int) (got : Bool) (r : Reg), RegReach mainSize got r → ∀ d ∈ r.devs,
      ∃ x, d.name = ascii "ulog_" ++ x ∧
        (getenv var = some x → openPath getenv var dflt none = ascii "/dev/" ++ d.name) := by
  refine ⟨fun _ => rfl, fun h => by unfold openPath; rw [h], fun x hx => ?_, fun mainSize got r h d hd => ?_⟩
  · unfold openPath
    rw [hx]
    dsimp only
    rw [List.take_append]
    rfl
  obtain ⟨x, h1, _, h3⟩ := (C15_devices h).name d hd
  refine ⟨x, h1, fun hx => ?_⟩
  unfold openPath
  rw [hx]
  dsimp only
  have : (ascii "/dev/ulog_").length = 10 := rfl
  rw [List.take_of_length_le (by rw [List.length_append]; omega), h1, ← List.append_assoc]
  rfl

/-- C102, interrupted writes are repeated until one is not: the first answer other than
EINTR decides. -/
theorem C102_retry (bin : Bool) (errno : Nat) (l : List WvRes) (k : Nat) (h1 : ∀ i < k, l[i]? = some (.inr 4)) :
    (∀ n, l[k]? = some (.inl n) → bin = false ∨ 0 < n → writevLoop bin errno l = some (0, k + 1)) ∧
    (∀ err, l[k]? = some (.inr err) → err ≠ 4 → writevLoop bin errno l = some (-(err : Int), k + 1)) ∧
    (l[k]? = some (.inl 0) → bin = true →
      writevLoop bin errno l = some (-((if k = 0 then errno else 4 : Nat) : Int), k + 1)) := by
  induction k generalizing l errno with
  | zero =>
    cases l with
    | nil => simp
    | cons x l =>
      simp only [List.getElem?_cons_zero, Option.some.injEq]
      refine ⟨fun n h hb => ?_, fun err h hne => ?_, fun h hb => ?_⟩
      · rw [h]
        show some (if bin && decide (n = 0) then _ else _, 1) = _
        rw [if_neg]
        rcases hb with hb | hb
        · simp [hb]
        · simp; omega
      · rw [h]
        show (if err = 4 then _ else _) = _
        rw [if_neg hne]
      · rw [h, hb]; rfl
  | succ k ih =>
    have h0 := h1 0 (by omega)
    cases l with
    | nil => simp at h0
    | cons x l =>
      simp only [List.getElem?_cons_zero, Option.some.injEq] at h0
      have := ih 4 l (fun i hi => by have := h1 (i + 1) (by omega); simpa using this)
      subst h0
      simp only [List.getElem?_cons_succ]
      have hl : writevLoop bin errno (.inr 4 :: l) = (writevLoop bin 4 l).map fun r => (r.1, r.2 + 1) := rfl
      rw [hl]
      refine ⟨fun n hn hb => by rw [this.1 n hn hb]; rfl, fun err he hne => by rw [this.2.1 err he hne]; rfl,
        fun hn hb => ?_⟩
      rw [this.2.2 hn hb, ite_self, if_neg (Nat.succ_ne_zero k)]
      rfl

/-- C102, false case: a binary write answered with zero bytes returns the error of some
earlier call (here ENOENT) although none occurred. -/
theorem C102_zero_false : writevLoop true 2 [.inl 0] = some (-2, 1) := rfl

/-- C102: the driver never answers a binary write with zero bytes. -/
theorem C102_nonzero {name k buf ops s tr} (h : Run name k buf ops s tr) {fid : Nat} {t : Task}
    {junk : Nat → UInt8} {s' : Sys} {n : Nat} {tag : Bytes} {iov : List Bytes}
    (hs : step s (.write fid t (userVec (binWritev tag iov)) junk) = .ok (s', .ret n))
    (hraw : (obs name tr).raw fid = false) : 0 < n := by
  have hpl : prefixLen t ≤ 34 := by rw [← prefixLen_names]; exact (names_length t).2
  have h1 := (C05_write h (userVec_supported _) hs hraw).1
  have h2 : 4 ≤ (userVec (binWritev tag iov)).bytes.length := by
    rw [userVec_bytes]
    simp [binWritev, le32]
  omega

end Verif.Libulog
