import Verif.Tools.PyDev
import Verif.Tools.PropsPyLog
import Verif.Tools.PropsShm
import Verif.Kernel.PropsRegistry

/-!
# Python records on a log device of their own (C122)
-/
namespace Verif.Tools.PyDev
open Verif Verif.Kernel Verif.Libulog Verif.Ulogcat
open Verif.Tools.Shdd (foldl_raw driverOps_fid rawFile prefixLen_le said_ent_size said_ent_text)

/-! ## The device -/

/-- **C122:** the argument is the device's name, with or without `/dev/ulog_`. -/
theorem C122_names (n : Bytes) : names (ascii "/dev/ulog_" ++ n) = { name := n, path := ascii "/dev/ulog_" ++ n } ∧
    (¬ ascii "/dev/ulog_" <+: n → names n = { name := n, path := ascii "/dev/ulog_" ++ n }) := by
  constructor
  · unfold names
    rw [if_pos (List.isPrefixOf_iff_prefix.2 (List.prefix_append _ _))]
    rfl
  · intro h
    unfold names
    rw [if_neg (fun h' => h (List.isPrefixOf_iff_prefix.1 h'))]

theorem names_path (arg : Bytes) : (names arg).path = ascii "/dev/ulog_" ++ (names arg).name := by
  unfold names
  split
  · rename_i h
    obtain ⟨t, rfl⟩ := List.isPrefixOf_iff_prefix.1 h
    rfl
  · rfl

/-- **C122:** a device that is there is used as it is. -/
theorem C122_kept {e : DevEnv} {r : Reg} {n : Names} (h : e.others n.path = true ∨ ∃ d ∈ r.devs, ascii "/dev/" ++ d.name = n.path) :
    ensure e r n = .ready r := by
  unfold ensure there
  rw [if_pos]
  rw [Bool.or_eq_true, List.any_eq_true]
  exact h.imp id fun ⟨d, hd, he⟩ => ⟨d, hd, by rw [he]; exact beq_self_eq_true _⟩

/-- **C122:** a device that is not there is made, of 128 KiB, if its name is up to ten
small letters and the driver has room. -/
theorem C122_made {mainSize : Int} {got : Bool} {r : Reg} (hr : RegReach mainSize got r) {e : DevEnv} {n : Bytes}
    (hn : ∀ b ∈ n, SmallLetter b) (hlen : n.length ≤ 10) (hnew : ∀ d ∈ r.devs, d.name ≠ ascii "ulog_" ++ n)
    (hoth : e.others (ascii "/dev/ulog_" ++ n) = false) (hlogs : e.logs = none)
    (hroom : r.devs.length < 16) (hg : e.grant.name = true ∧ e.grant.log = true ∧ e.grant.buffer = true ∧ e.grant.register = true) :
    ∃ r', ensure e r { name := n, path := ascii "/dev/ulog_" ++ n } = .ready r' ∧
      r'.devs = r.devs ++ [{ name := ascii "ulog_" ++ n, size := 131072, buf := true }] := by
  have hdev : DevName (ascii "ulog_" ++ n) := ⟨n, rfl, hn, hlen⟩
  have h17 : ascii "ulog_" ++ n ++ ascii " 17" = ascii "ulog_" ++ n ++ [32] ++ decNat 17 ++ [] := by
    rw [List.append_nil, List.append_assoc _ [32], show [32] ++ decNat 17 = ascii " 17" by decide +kernel]
  have hgr := C15_granted hr hdev (p := 17) (by omega) (by omega) (rest := []) (by simp) hnew hroom hg
  rw [← h17] at hgr
  have hsame : ∀ m : Bytes, ascii "/dev/" ++ m = ascii "/dev/ulog_" ++ n → m = ascii "ulog_" ++ n := by
    intro m h
    have : ascii "/dev/ulog_" ++ n = ascii "/dev/" ++ (ascii "ulog_" ++ n) := rfl
    rw [this] at h
    exact List.append_cancel_left h
  unfold ensure
  have h0 : there e r (ascii "/dev/ulog_" ++ n) = false := by
    unfold there
    rw [hoth, Bool.false_or, List.any_eq_false]
    intro d hd h
    exact hnew d hd (hsame _ (eq_of_beq h))
  rw [if_neg (by rw [h0]; simp), hlogs]
  dsimp only
  have hdone : (addLog r (ascii "ulog_" ++ n ++ ascii " 17") e.grant).2 = .done (ascii "ulog_" ++ n ++ ascii " 17").length := by
    by_cases hd : (addLog r (ascii "ulog_" ++ n ++ ascii " 17") e.grant).2 = .done (ascii "ulog_" ++ n ++ ascii " 17").length
    · exact hd
    · have := (C15_request hr _ e.grant).1 hd
      rw [this] at hgr
      have := congrArg List.length hgr
      rw [List.length_append] at this
      simp at this
  generalize addLog r (ascii "ulog_" ++ n ++ ascii " 17") e.grant = x at hgr hdone
  obtain ⟨r', res⟩ := x
  dsimp only at hgr hdone
  subst hdone
  dsimp only
  have h1 : there e r' (ascii "/dev/ulog_" ++ n) = true := by
    unfold there
    rw [hgr, Bool.or_eq_true, List.any_eq_true]
    exact .inr ⟨_, List.mem_append_right _ (List.mem_singleton.2 rfl), beq_self_eq_true _⟩
  rw [if_pos h1]
  exact ⟨r', rfl, by rw [hgr]⟩

/-- **C122:** whatever the name, devices that are there stay as they are, at most one is
added, and the handler goes on only if its path is there. -/
theorem C122_ensure {mainSize : Int} {got : Bool} {r : Reg} (hr : RegReach mainSize got r) (e : DevEnv) (n : Names) :
    match ensure e r n with
    | .ready r' => (r' = r ∨ ∃ d, r'.devs = r.devs ++ [d]) ∧ RegReach mainSize got r' ∧ there e r' n.path = true
    | .raised r' _ => (r' = r ∨ ∃ d, r'.devs = r.devs ++ [d]) ∧ RegReach mainSize got r' ∧ there e r' n.path = false
    | .oops => e.grant.name = false := by
  unfold ensure
  by_cases h0 : there e r n.path = true
  · rw [if_pos h0]
    exact ⟨.inl rfl, hr, h0⟩
  have h0 : there e r n.path = false := by simpa using h0
  rw [if_neg (by rw [h0]; simp)]
  cases e.logs with
  | some err => exact ⟨.inl rfl, hr, h0⟩
  | none =>
    dsimp only
    have hq := C15_request hr (ascii "ulog_" ++ n.name ++ ascii " 17") e.grant
    have hadd := RegReach.add (ascii "ulog_" ++ n.name ++ ascii " 17") e.grant hr
    generalize hx : addLog r (ascii "ulog_" ++ n.name ++ ascii " 17") e.grant = x at hq hadd
    obtain ⟨r', res⟩ := x
    dsimp only at hq hadd
    cases res with
    | done m =>
      dsimp only
      have hm : m = (ascii "ulog_" ++ n.name ++ ascii " 17").length := by
        obtain ⟨_, _, h, _⟩ := C56_text hr (buf := ascii "ulog_" ++ n.name ++ ascii " 17") (g := e.grant) (n := m) (by rw [hx])
        exact h
      obtain ⟨d, hd, _⟩ := hq.2 (by rw [hm])
      by_cases h1 : there e r' n.path = true
      · rw [if_pos h1]
        exact ⟨.inr ⟨d, hd⟩, hadd (by simp), h1⟩
      · rw [if_neg h1]
        exact ⟨.inr ⟨d, hd⟩, hadd (by simp), by simpa using h1⟩
    | einval =>
      dsimp only
      have : r' = r := hq.1 (by simp)
      subst this
      exact ⟨.inl rfl, hr, h0⟩
    | enomem =>
      dsimp only
      have : r' = r := hq.1 (by simp)
      subst this
      exact ⟨.inl rfl, hr, h0⟩
    | fault =>
      dsimp only
      unfold addLog at hx
      (repeat' split at hx) <;> simp_all

/-- **C122 is false:** a name with a space makes another device, of another size, and
then the handler cannot be made. -/
theorem C122_false_other {e : DevEnv} (hoth : ∀ p, e.others p = false) (hlogs : e.logs = none)
    (hg : e.grant.name = true ∧ e.grant.log = true ∧ e.grant.buffer = true ∧ e.grant.register = true) :
    ∃ r r', RegReach 18 true r ∧ ensure e r (names (ascii "cam 20")) = .raised r' 2 ∧
      r'.devs = r.devs ++ [{ name := ascii "ulog_cam", size := 1048576, buf := true }] := by
  have hgr : e.grant = { name := true, log := true, buffer := true, register := true } := by
    obtain ⟨h1, h2, h3, h4⟩ := hg
    cases hx : e.grant
    rw [hx] at h1 h2 h3 h4
    simp_all
  let r0 : Reg := { slots := some { name := ascii "ulog_main", size := 262144, buf := true } :: List.replicate 15 none }
  refine ⟨r0, (addLog r0 (ascii "ulog_cam 20 17") { name := true, log := true, buffer := true, register := true }).1, .init true rfl, ?_, ?_⟩
  · have hx : addLog r0 (ascii "ulog_" ++ (names (ascii "cam 20")).name ++ ascii " 17") { name := true, log := true, buffer := true, register := true } =
        ((addLog r0 (ascii "ulog_cam 20 17") { name := true, log := true, buffer := true, register := true }).1, .done 14) := rfl
    have ht : ∀ r : Reg, there e r (names (ascii "cam 20")).path = r.devs.any fun d => ascii "/dev/" ++ d.name == ascii "/dev/ulog_cam 20" := by
      intro r
      unfold there
      rw [hoth, Bool.false_or]
      rfl
    unfold ensure
    rw [ht, if_neg (by decide +kernel), hlogs]
    dsimp only
    rw [hgr, hx]
    dsimp only
    rw [ht, if_neg (by decide +kernel)]
  · decide +kernel

/-- **C122:** why a handler whose device is not there cannot be made: the attribute cannot
be opened, the driver refuses the name, has no memory, or has made another device. -/
theorem C122_errno {mainSize : Int} {got : Bool} {r : Reg} (hr : RegReach mainSize got r) (e : DevEnv) (n : Names) {r' : Reg} {err : Nat}
    (h : ensure e r n = .raised r' err) :
    e.logs = some err ∨
    (e.logs = none ∧ r' = r ∧ err = 22 ∧ (addLog r (ascii "ulog_" ++ n.name ++ ascii " 17") e.grant).2 = .einval) ∨
    (e.logs = none ∧ r' = r ∧ err = 12 ∧ (e.grant.log = false ∨ e.grant.buffer = false)) ∨
    (e.logs = none ∧ err = 2 ∧ ∃ d, r'.devs = r.devs ++ [d]) := by
  unfold ensure at h
  split at h
  · cases h
  · cases hl : e.logs with
    | some x => rw [hl] at h; injection h with h1 h2; exact .inl (by rw [h2])
    | none =>
      rw [hl] at h
      dsimp only at h
      have hq := C15_request hr (ascii "ulog_" ++ n.name ++ ascii " 17") e.grant
      generalize hx : addLog r (ascii "ulog_" ++ n.name ++ ascii " 17") e.grant = x at hq h
      obtain ⟨r1, res⟩ := x
      dsimp only at hq h
      cases res with
      | done m =>
        dsimp only at h
        split at h
        · cases h
        · injection h with h1 h2
          have hm : m = (ascii "ulog_" ++ n.name ++ ascii " 17").length := by
            obtain ⟨_, _, h, _⟩ := C56_text hr (buf := ascii "ulog_" ++ n.name ++ ascii " 17") (g := e.grant) (n := m) (by rw [hx])
            exact h
          obtain ⟨d, hd, _⟩ := hq.2 (by rw [hm])
          exact .inr (.inr (.inr ⟨rfl, h2.symm, d, by rw [← h1]; exact hd⟩))
      | einval =>
        injection h with h1 h2
        exact .inr (.inl ⟨rfl, by rw [← h1]; exact hq.1 (by simp), h2.symm, rfl⟩)
      | enomem =>
        injection h with h1 h2
        refine .inr (.inr (.inl ⟨rfl, by rw [← h1]; exact hq.1 (by simp), h2.symm, ?_⟩))
        unfold addLog at hx
        (repeat' split at hx) <;> simp_all
        cases hg : e.grant.log <;> simp_all
      | fault => cases h

/-! ## The descriptor -/

/-- What `bytes.strip` takes away: tab, newline, vertical tab, form feed, return, space. -/
def blanks : List UInt8 := [9, 10, 11, 12, 13, 32]

theorem dropWhile_split {f : UInt8 → Bool} (b : Bytes) : ∃ pre, b = pre ++ b.dropWhile f ∧ (∀ x ∈ pre, f x = true) ∧ ∀ x, (b.dropWhile f).head? = some x → f x = false := by
  induction b with
  | nil => exact ⟨[], rfl, by simp, by simp⟩
  | cons a b ih =>
    rw [List.dropWhile_cons]
    by_cases h : f a = true
    · rw [if_pos h]
      obtain ⟨pre, h1, h2, h3⟩ := ih
      refine ⟨a :: pre, by rw [List.cons_append, ← h1], ?_, h3⟩
      intro x hx
      rcases List.mem_cons.1 hx with rfl | hx
      · exact h
      · exact h2 x hx
    · rw [if_neg h]
      refine ⟨[], rfl, by simp, fun x hx => ?_⟩
      simp at hx
      rw [← hx]
      simpa using h

/-- **C122:** the name of the process is that of procfs without blanks around it. -/
theorem C122_strip (c : Bytes) : ∃ pre post, c = pre ++ pyStrip c ++ post ∧ (∀ b ∈ pre, b ∈ blanks) ∧ (∀ b ∈ post, b ∈ blanks) ∧
    (∀ b, (pyStrip c).head? = some b → b ∉ blanks) ∧ ∀ b, (pyStrip c).getLast? = some b → b ∉ blanks := by
  have hf : ∀ b : UInt8, (b == 32 || (9 ≤ b && b ≤ 13)) = true ↔ b ∈ blanks := by
    intro b
    unfold blanks
    simp only [List.mem_cons, List.not_mem_nil, or_false, Bool.or_eq_true, Bool.and_eq_true, beq_iff_eq, decide_eq_true_eq, UInt8.le_iff_toNat_le, ← UInt8.toNat_inj]
    simp
    omega
  have hn : ∀ b : UInt8, (b == 32 || (9 ≤ b && b ≤ 13)) = false → b ∉ blanks := by
    intro b hb hm
    rw [(hf b).2 hm] at hb
    cases hb
  let f := fun b : UInt8 => b == 32 || (9 ≤ b && b ≤ 13)
  obtain ⟨pre, h1, h2, h3⟩ := dropWhile_split (f := f) c
  obtain ⟨post, k1, k2, k3⟩ := dropWhile_split (f := f) (c.dropWhile f).reverse
  have hs : pyStrip c = ((c.dropWhile f).reverse.dropWhile f).reverse := rfl
  have e : c.dropWhile f = pyStrip c ++ post.reverse := by
    rw [hs, ← List.reverse_append, ← k1, List.reverse_reverse]
  refine ⟨pre, post.reverse, by rw [List.append_assoc, ← e]; exact h1, fun b hb => (hf b).1 (h2 b hb), fun b hb => (hf b).1 (k2 b (by simpa using hb)), ?_, ?_⟩
  · intro b hb
    refine hn b (h3 b ?_)
    rw [e, List.head?_append, hb]
    rfl
  · intro b hb
    refine hn b (k3 b ?_)
    rw [hs, List.getLast?_reverse] at hb
    exact hb

/-- **C122:** the handler writes raw entries exactly if that was asked for and is
possible, plain ones if only opening is possible, and else cannot be made. Of the
descriptors opened only its own stays open. -/
theorem C122_open (e : DevEnv) (herr : ∀ p err, e.files.openRes p = .inr err → err ≠ 0) (path : Bytes) (rawMode : Bool) :
    (∀ err, (openHandler e path rawMode).1 = .raised err ↔ e.files.openRes path = .inr err) ∧
    (∀ fd, e.files.openRes path = .inl fd → ∃ raw pname, (openHandler e path rawMode).1 = .handler fd raw pname ∧
      (raw = true ↔ rawMode = true ∧ e.comm ≠ none ∧ e.files.isChr fd = true ∧ e.files.rawOk fd = true) ∧
      (raw = true → ∃ c, e.comm = some c ∧ pname = some (pyStrip c)) ∧
      ∃ pre, (openHandler e path rawMode).2 = pre ++ .opened path fd :: (if raw then [.raw fd] else []) ∧
        (pre = [] ∨ pre = [.opened path fd, .closed fd]) ∧
        (pre ≠ [] → rawMode = true ∧ raw = false)) := by
  have hpath : openPath e.files.getenv (ascii "ULOG_DEVICE") (ascii "/dev/ulog_main") (some path) = path := rfl
  unfold openHandler
  cases rawMode with
  | false =>
    simp only [Bool.false_eq_true, if_false]
    unfold openPlain
    cases h : e.files.openRes path with
    | inr err => exact ⟨fun x => by simp, fun fd h => by cases h⟩
    | inl fd =>
      refine ⟨fun x => by simp, fun fd' h' => ?_⟩
      cases h'
      exact ⟨false, none, rfl, by simp, by simp, [], by simp, .inl rfl, by simp⟩
  | true =>
    simp only [if_true]
    cases hc : e.comm with
    | none =>
      dsimp only
      unfold openPlain
      cases h : e.files.openRes path with
      | inr err => exact ⟨fun x => by simp, fun fd h => by cases h⟩
      | inl fd =>
        refine ⟨fun x => by simp, fun fd' h' => ?_⟩
        cases h'
        exact ⟨false, none, rfl, by simp, by simp, [], by simp, .inl rfl, by simp⟩
    | some c =>
      dsimp only
      cases h : e.files.openRes path with
      | inr err =>
        have h0 := herr path err h
        have hr : rawOpen e.files (some path) = (-(err : Int), []) := by
          unfold rawOpen
          rw [hpath]
          dsimp only
          rw [h]
        have hp : ∀ c, openPlain e path c = (.raised err, []) := by intro c; unfold openPlain; rw [h]
        rw [hr, hp]
        dsimp only
        rw [if_pos (by omega)]
        exact ⟨fun x => by simp, fun fd h => by cases h⟩
      | inl fd =>
        have hp : ∀ c, openPlain e path c = (.handler fd false c, [.opened path fd]) := by intro c; unfold openPlain; rw [h]
        rw [hp]
        by_cases h1 : e.files.isChr fd = false
        · have hr : rawOpen e.files (some path) = (-22, [.opened path fd, .closed fd]) := by
            unfold rawOpen
            rw [hpath]
            dsimp only
            rw [h]
            exact if_pos h1
          rw [hr]
          dsimp only
          rw [if_pos (by decide)]
          refine ⟨fun x => by simp, fun fd' h' => ?_⟩
          cases h'
          exact ⟨false, _, rfl, by simp [h1], by simp, [.opened path fd, .closed fd], by simp, .inr rfl, by simp⟩
        · by_cases h2 : e.files.rawOk fd = false
          · have hr : rawOpen e.files (some path) = (-38, [.opened path fd, .closed fd]) := by
              unfold rawOpen
              rw [hpath]
              dsimp only
              rw [h]
              exact (if_neg h1).trans (if_pos h2)
            rw [hr]
            dsimp only
            rw [if_pos (by decide)]
            refine ⟨fun x => by simp, fun fd' h' => ?_⟩
            cases h'
            exact ⟨false, _, rfl, by simp [h2], by simp, [.opened path fd, .closed fd], by simp, .inr rfl, by simp⟩
          · have hr : rawOpen e.files (some path) = ((fd : Int), [.opened path fd, .raw fd]) := by
              unfold rawOpen
              rw [hpath]
              dsimp only
              rw [h]
              exact (if_neg h1).trans (if_neg h2)
            rw [hr]
            dsimp only
            rw [if_neg (by omega)]
            refine ⟨fun x => by simp, fun fd' h' => ?_⟩
            cases h'
            have h1 : e.files.isChr fd = true := by simpa using h1
            have h2 : e.files.rawOk fd = true := by simpa using h2
            exact ⟨true, _, rfl, by simp [h1, h2], by simp, [], by simp, .inl rfl, by simp⟩

end Verif.Tools.PyDev
