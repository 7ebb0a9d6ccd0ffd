import Verif.Ulogcat.Open
import Verif.Kernel.PropsRegistry

/-!
# What an open context holds (C66, C67)
-/
namespace Verif.Ulogcat
open Verif Verif.Kernel

/-- The descriptors of devices that are open after these events; `none` if one was
closed that was not open. -/
def heldStep (H : Option (List Nat)) : OEv → Option (List Nat)
  | .opened _ (some fd) => H.map (· ++ [fd])
  | .closed fd => H.bind fun l => if fd ∈ l then some (l.erase fd) else none
  | _ => H

def held (evs : List OEv) : Option (List Nat) := evs.foldl heldStep (some [])

/-- How often the output was closed. -/
def outClosed (evs : List OEv) : Nat := evs.countP (· = .closeOut)

/-- `open` never gives a descriptor that is open. -/
def Fresh (w : OWorld) : Prop :=
  ∀ evs H p fd, held evs = some H → w.openAt evs p = some fd → fd ∉ H

/-- The path of a device that was asked for by name. -/
def devPath (name : Bytes) : Bytes :=
  if name = ascii "kmsgd" then ascii "/proc/kmsg" else (ascii "/dev/ulog_" ++ name).take 63

/-- The label printed for a device: `K` for the two kernel logs, `U` for others. -/
def labelOf (path : Bytes) : UInt8 := if path = ascii "/proc/kmsg" ∨ path = ascii "/dev/kmsg" then 75 else 85

theorem labelOf_dev (name : Bytes) : labelOf (devPath name) = if name = ascii "kmsgd" then 75 else 85 := by
  unfold devPath labelOf
  by_cases h : name = ascii "kmsgd"
  · rw [if_pos h, if_pos h, if_pos (Or.inl rfl)]
  · rw [if_neg h, if_neg h, if_neg]
    have h5 : ((ascii "/dev/ulog_" ++ name).take 63)[5]? = some 117 := by
      rw [List.getElem?_take_of_lt (by omega)]; rfl
    rintro (h | h)
    · rw [h] at h5; revert h5; decide
    · rw [h] at h5; revert h5; decide

structure OInv (H : List Nat) (k : Nat) (s : OSt) : Prop where
  fds : held s.evs = some (H ++ s.devs.map ODev.fd)
  nodup : (H ++ s.devs.map ODev.fd).Nodup
  idx : s.devs.map ODev.idx = (List.range s.devs.length).map Int.ofNat
  count : s.count = s.devs.length
  out : outClosed s.evs = k
  mark : ∀ d ∈ s.devs, 0 ≤ d.mark ∧ d.label = labelOf d.path

theorem held_append (evs : List OEv) (e : OEv) : held (evs ++ [e]) = heldStep (held evs) e := by
  unfold held; rw [List.foldl_append]; rfl

theorem outClosed_append (a b : List OEv) : outClosed (a ++ b) = outClosed a + outClosed b := by
  unfold outClosed; rw [List.countP_append]

theorem OInv.note {H : List Nat} {k : Nat} {s : OSt} (I : OInv H k s) {e : OEv} (h : heldStep (held s.evs) e = held s.evs)
    (h' : e ≠ .closeOut) : OInv H k (s.note e) := by
  refine ⟨?_, I.nodup, I.idx, I.count, ?_, I.mark⟩
  · show held (s.evs ++ [e]) = _
    rw [held_append, h]; exact I.fds
  · show outClosed (s.evs ++ [e]) = _
    rw [outClosed_append, I.out]; simp [outClosed, h']

theorem erase_new {H : List Nat} {fd : Nat} (h : fd ∉ H) : (H ++ [fd]).erase fd = H := by
  rw [List.erase_append_right _ h]; simp

theorem idx_push {ds : List ODev} {c : Int} (h : ds.map ODev.idx = (List.range ds.length).map Int.ofNat) (hc : c = ds.length)
    (d : ODev) (hd : d.idx = c) : (ds ++ [d]).map ODev.idx = (List.range (ds ++ [d]).length).map Int.ofNat := by
  rw [List.map_append, h, List.length_append, List.length_singleton, List.range_succ, List.map_append]
  simp [hd, hc]

/-- C66: which lines of the list of logs name a device: those of more than five
bytes with a space. -/
theorem C66_line (chunk : Bytes) : (logName chunk).isSome = true ↔ 32 ∈ cstr chunk ∧ 5 < (cstr chunk).length := by
  have h : ∀ l : Bytes, (l.takeWhile (· ≠ 32)).length < l.length ↔ 32 ∈ l := by
    intro l
    induction l with
    | nil => simp
    | cons b l ih =>
      by_cases hb : b = 32
      · subst hb; simp
      · have hb' : ¬ 32 = b := fun e => hb e.symm
        rw [List.takeWhile_cons, if_pos (by simpa using hb)]
        simp only [List.length_cons, List.mem_cons, hb', false_or]
        rw [← ih]; omega
  unfold logName
  dsimp only
  rw [← h (cstr chunk)]
  split
  · rename_i hc; exact ⟨fun _ => hc, fun _ => rfl⟩
  · rename_i hc; exact ⟨fun e => absurd e (by simp), fun e => absurd e hc⟩

/-- Adding one device. -/
theorem addUlog_spec {w : OWorld} (hw : Fresh w) {H : List Nat} {k : Nat} {s : OSt} (I : OInv H k s) (name : Bytes) :
    OInv H k (addUlog w name s).2 ∧
    ((addUlog w name s).1 = true → ∃ d, (addUlog w name s).2.devs = s.devs ++ [d] ∧ d.path = devPath name ∧
      (addUlog w name s).2.ulogs = if name = ascii "kmsgd" then s.ulogs else s.ulogs + 1) ∧
    ((addUlog w name s).1 = false → (addUlog w name s).2.devs = s.devs) := by
  have I1 : OInv H k (s.note .alloc) := I.note rfl (by decide)
  generalize hs1 : s.note .alloc = s1 at I1
  have hd1 : s1.devs = s.devs := by rw [← hs1]; rfl
  have hu1 : s1.ulogs = s.ulogs := by rw [← hs1]; rfl
  unfold addUlog devCreate
  rw [hs1]
  dsimp only
  by_cases hm : w.noMem s1.evs
  · rw [if_pos hm]
    exact ⟨I1, by simp, fun _ => hd1⟩
  rw [if_neg hm]
  dsimp only
  unfold devOpen
  dsimp only
  generalize hpath : (ascii "/dev/ulog_" ++ name).take 63 = path
  cases ho : w.openAt s1.evs path with
  | none =>
    dsimp only
    refine ⟨?_, by simp, fun _ => hd1⟩
    have I2 : OInv H k (s1.note (.opened path none)) := I1.note rfl (by simp)
    refine ⟨I2.fds, I2.nodup, I2.idx, ?_, I2.out, I2.mark⟩
    show s1.count + 1 - 1 = _
    rw [I1.count]
    show _ = (s1.devs.length : Int)
    omega
  | some fd =>
    dsimp only
    have hf : fd ∉ H ++ s1.devs.map ODev.fd := hw _ _ _ _ I1.fds ho
    have hheld : held (s1.evs ++ [.opened path (some fd)]) = some (H ++ s1.devs.map ODev.fd ++ [fd]) := by
      rw [held_append, I1.fds]; rfl
    have hout : outClosed (s1.evs ++ [.opened path (some fd)]) = k := by
      rw [outClosed_append, I1.out]; simp [outClosed]
    have hclose : held (s1.evs ++ [.opened path (some fd)] ++ [.closed fd]) = some (H ++ s1.devs.map ODev.fd) := by
      rw [held_append, hheld]
      show (if fd ∈ H ++ s1.devs.map ODev.fd ++ [fd] then _ else _) = _
      rw [if_pos (by simp), erase_new hf]
    have hout2 : outClosed (s1.evs ++ [.opened path (some fd)] ++ [.closed fd]) = k := by
      rw [outClosed_append, hout]; simp [outClosed]
    have hnd : (H ++ (s1.devs.map ODev.fd ++ [fd])).Nodup := by
      rw [← List.append_assoc]
      exact List.nodup_append.mpr ⟨I1.nodup, by simp, by intro a ha b hb; simp at hb; rintro rfl; exact hf (hb ▸ ha)⟩
    split
    · dsimp only [OSt.note]
      refine ⟨⟨hclose, I1.nodup, I1.idx, ?_, hout2, I1.mark⟩, by simp, fun _ => hd1⟩
      show s1.count + 1 - 1 = _
      have := I1.count
      show _ = (s1.devs.length : Int)
      omega
    · rename_i hlen
      dsimp only [OSt.note] at hlen ⊢
      refine ⟨⟨?_, ?_, idx_push I1.idx I1.count _ rfl, ?_, hout, ?_⟩, fun _ => ⟨_, by rw [← hd1], ?_, ?_⟩, by simp⟩
      · rw [hheld]; simp
      · simpa using hnd
      · have := I1.count
        simp only [List.length_append, List.length_singleton]; omega
      · intro d hd
        rcases List.mem_append.mp hd with h | h
        · exact I1.mark d h
        · rw [List.mem_singleton.mp h]
          refine ⟨by show 0 ≤ w.logLen _; omega, ?_⟩
          have h1 := labelOf_dev name
          unfold devPath at h1
          rw [hpath] at h1
          exact h1.symm
      · unfold devPath; rw [hpath]; rfl
      · rw [← hu1]
        show (if name = ascii "kmsgd" then _ else _) = _
        split <;> omega

/-- Adding the kernel device. -/
theorem addKlog_spec {w : OWorld} (hw : Fresh w) {H : List Nat} {k : Nat} {s : OSt} (I : OInv H k s) :
    OInv H k (addKlog w s).2 ∧
    ((addKlog w s).1 = true → ∃ d, (addKlog w s).2.devs = s.devs ++ [d] ∧ d.path = ascii "/dev/kmsg") ∧
    ((addKlog w s).1 = false → (addKlog w s).2.devs = s.devs) := by
  have I1 : OInv H k (s.note .alloc) := I.note rfl (by decide)
  generalize hs1 : s.note .alloc = s1 at I1
  have hd1 : s1.devs = s.devs := by rw [← hs1]; rfl
  unfold addKlog devCreate
  rw [hs1]
  dsimp only
  by_cases hm : w.noMem s1.evs
  · rw [if_pos hm]
    exact ⟨I1, by simp, fun _ => hd1⟩
  rw [if_neg hm]
  dsimp only
  unfold devOpen
  dsimp only
  generalize hpath : ascii "/dev/kmsg" = path
  cases ho : w.openAt s1.evs path with
  | none =>
    dsimp only
    refine ⟨?_, by simp, fun _ => hd1⟩
    have I2 : OInv H k (s1.note (.opened path none)) := I1.note rfl (by simp)
    refine ⟨I2.fds, I2.nodup, I2.idx, ?_, I2.out, I2.mark⟩
    show s1.count + 1 - 1 = _
    rw [I1.count]
    show _ = (s1.devs.length : Int)
    omega
  | some fd =>
    dsimp only
    have hf : fd ∉ H ++ s1.devs.map ODev.fd := hw _ _ _ _ I1.fds ho
    have hheld : held (s1.evs ++ [.opened path (some fd)]) = some (H ++ s1.devs.map ODev.fd ++ [fd]) := by
      rw [held_append, I1.fds]; rfl
    have hout : outClosed (s1.evs ++ [.opened path (some fd)]) = k := by
      rw [outClosed_append, I1.out]; simp [outClosed]
    have hclose : held (s1.evs ++ [.opened path (some fd)] ++ [.closed fd]) = some (H ++ s1.devs.map ODev.fd) := by
      rw [held_append, hheld]
      show (if fd ∈ H ++ s1.devs.map ODev.fd ++ [fd] then _ else _) = _
      rw [if_pos (by simp), erase_new hf]
    have hout2 : outClosed (s1.evs ++ [.opened path (some fd)] ++ [.closed fd]) = k := by
      rw [outClosed_append, hout]; simp [outClosed]
    have hnd : (H ++ (s1.devs.map ODev.fd ++ [fd])).Nodup := by
      rw [← List.append_assoc]
      exact List.nodup_append.mpr ⟨I1.nodup, by simp, by intro a ha b hb; simp at hb; rintro rfl; exact hf (hb ▸ ha)⟩
    have hbad : OInv H k (devDestroy (some fd) { s1.note (.opened path (some fd)) with count := s1.count + 1 }) := by
      refine ⟨hclose, I1.nodup, I1.idx, ?_, hout2, I1.mark⟩
      show s1.count + 1 - 1 = _
      have := I1.count
      show _ = (s1.devs.length : Int)
      omega
    split
    · exact ⟨hbad, by simp, fun _ => hd1⟩
    · split
      · exact ⟨hbad, by simp, fun _ => hd1⟩
      · rename_i hlen
        dsimp only [OSt.note] at hlen ⊢
        refine ⟨⟨?_, ?_, idx_push I1.idx I1.count _ rfl, ?_, hout, ?_⟩, fun _ => ⟨_, by rw [← hd1], rfl⟩, by simp⟩
        · rw [hheld]; simp
        · simpa using hnd
        · have := I1.count
          simp only [List.length_append, List.length_singleton]; omega
        · intro d hd
          rcases List.mem_append.mp hd with h | h
          · exact I1.mark d h
          · rw [List.mem_singleton.mp h]
            refine ⟨by show 0 ≤ 2 * w.klogSize _; omega, ?_⟩
            rw [← hpath]; rfl

theorem addNames_spec {w : OWorld} (hw : Fresh w) {H : List Nat} {k : Nat} (names : List Bytes) : ∀ {s : OSt}, OInv H k s →
    OInv H k (addNames w names s).2 ∧
    ((addNames w names s).1 = true →
      (addNames w names s).2.devs.map ODev.path = s.devs.map ODev.path ++ (names.filter (· ≠ ascii "kmsgd")).map devPath ∧
      (addNames w names s).2.ulogs = s.ulogs + (names.filter (· ≠ ascii "kmsgd")).length) := by
  induction names with
  | nil => intro s I; exact ⟨I, fun _ => by simp [addNames]⟩
  | cons n ns ih =>
    intro s I
    unfold addNames
    by_cases hn : n = ascii "kmsgd"
    · rw [if_pos (show n = kmsgdName from hn), List.filter_cons_of_neg (by simp [hn])]
      exact ih I
    · rw [if_neg (show ¬ n = kmsgdName from hn), List.filter_cons_of_pos (by simp [hn])]
      obtain ⟨I1, h1, h2⟩ := addUlog_spec hw I n
      by_cases hr : (addUlog w n s).1 = true
      · rw [if_pos hr]
        obtain ⟨I2, h3⟩ := ih I1
        refine ⟨I2, fun ht => ?_⟩
        obtain ⟨h4, h5⟩ := h3 ht
        obtain ⟨d, e1, e2, e3⟩ := h1 hr
        rw [if_neg hn] at e3
        refine ⟨?_, ?_⟩
        · rw [h4, e1]; simp [e2]
        · rw [h5, e3, List.length_cons]; omega
      · rw [if_neg hr]
        exact ⟨I1, fun h => absurd h hr⟩

theorem addLines_inv {w : OWorld} (hw : Fresh w) {H : List Nat} {k : Nat} (n : Nat) : ∀ {s : OSt} (file : Bytes), OInv H k s →
    OInv H k (addLines w n file s).2 := by
  induction n with
  | zero => intro s file I; exact I
  | succ n ih =>
    intro s file I
    unfold addLines
    split
    · exact I
    · dsimp only
      split
      · exact ih _ I
      · split
        · exact ih _ I
        · split
          · exact ih _ (addUlog_spec hw I _).1
          · exact (addUlog_spec hw I _).1

theorem fgets_line (a r : Bytes) (h : ∀ b ∈ a, b ≠ 10) : ∀ n, a.length < n → fgets n (a ++ 10 :: r) = (a ++ [10], r) := by
  induction a with
  | nil => intro n hn; cases n with | zero => simp at hn | succ n => simp [fgets]
  | cons b a ih =>
    intro n hn
    cases n with
    | zero => simp at hn
    | succ n =>
      rw [List.cons_append, fgets, if_neg (h b (by simp)), ih (fun c hc => h c (by simp [hc])) n (by simpa using hn)]
      rfl

theorem takeWhile_stop {p : UInt8 → Bool} {a r : Bytes} {c : UInt8} (h : ∀ b ∈ a, p b = true) (hc : p c = false) :
    (a ++ c :: r).takeWhile p = a := by
  induction a with
  | nil => simp [hc]
  | cons b a ih => rw [List.cons_append, List.takeWhile_cons_of_pos (h b (by simp)), ih (fun x hx => h x (by simp [hx]))]

theorem takeWhile_whole {p : UInt8 → Bool} {a : Bytes} (h : ∀ b ∈ a, p b = true) : a.takeWhile p = a := by
  induction a with
  | nil => rfl
  | cons b a ih => rw [List.takeWhile_cons_of_pos (h b (by simp)), ih (fun x hx => h x (by simp [hx]))]

theorem logName_line (l t : Bytes) (h : ∀ b ∈ l, b ≠ 0 ∧ b ≠ 32) (ht : NoNul t) :
    logName (ascii "ulog_" ++ l ++ [32] ++ t ++ [10]) = some l := by
  have h5 : ∀ b ∈ ascii "ulog_", b ≠ 0 ∧ b ≠ 32 := by decide +kernel
  have hl5 : (ascii "ulog_").length = 5 := by decide +kernel
  have hc : cstr (ascii "ulog_" ++ l ++ [32] ++ t ++ [10]) = ascii "ulog_" ++ l ++ [32] ++ t ++ [10] := by
    unfold cstr
    apply takeWhile_whole
    intro b hb
    have : b ≠ 0 := by
      simp only [List.mem_append, List.mem_singleton] at hb
      rcases hb with (((h1 | h1) | h1) | h1) | h1
      · exact (h5 b h1).1
      · exact (h b h1).1
      · rw [h1]; decide
      · exact ht b h1
      · rw [h1]; decide
    simpa using this
  have htw : (ascii "ulog_" ++ l ++ [32] ++ t ++ [10]).takeWhile (· ≠ 32) = ascii "ulog_" ++ l := by
    rw [show ascii "ulog_" ++ l ++ [32] ++ t ++ [10] = (ascii "ulog_" ++ l) ++ 32 :: (t ++ [10]) by simp]
    apply takeWhile_stop
    · intro b hb
      rcases List.mem_append.mp hb with h1 | h1
      · simpa using (h5 b h1).2
      · simpa using (h b h1).2
    · decide
  unfold logName
  dsimp only
  rw [hc, htw, if_pos (by simp [hl5]; omega)]
  rw [show ascii "ulog_" ++ l ++ [32] ++ t ++ [10] = (ascii "ulog_" ++ l) ++ 32 :: (t ++ [10]) by simp,
    List.set_append_right _ _ (Nat.le_refl _), Nat.sub_self, List.set_cons_zero, List.append_assoc,
    show 5 = (ascii "ulog_").length from hl5.symm, List.drop_left]
  congr 1
  unfold cstr
  apply takeWhile_stop
  · intro b hb; simpa using (h b hb).1
  · decide

/-- The last part of the name of a device. -/
def shortName (d : RLog) : Bytes := d.name.drop 5

theorem addLines_spec {w : OWorld} (hw : Fresh w) {H : List Nat} {k : Nat} {line : RLog → Bytes} (ds : List RLog)
    (hd : ∀ d ∈ ds, DevName d.name ∧ ∃ p, p < 100 ∧ line d = d.name ++ [32] ++ decNat p ++ [10]) : ∀ {s : OSt} (n : Nat),
    OInv H k s → ds.length < n → (addLines w n (ds.flatMap line) s).1 = true →
    (addLines w n (ds.flatMap line) s).2.devs.map ODev.path = s.devs.map ODev.path ++
      ((ds.map shortName).filter (· ≠ ascii "kmsgd")).map devPath := by
  induction ds with
  | nil =>
    intro s n I hn ht
    cases n with
    | zero => simp at hn
    | succ n => simp [addLines]
  | cons d ds ih =>
    intro s n I hn ht
    obtain ⟨⟨l, hl, hs, hlen⟩, p, hp, hline⟩ := hd d (by simp)
    have ih' := fun {s : OSt} => ih (fun e he => hd e (by simp [he])) (s := s)
    have hsn : shortName d = l := by
      unfold shortName; rw [hl, show 5 = (ascii "ulog_").length by decide +kernel, List.drop_left]
    have hsm : ∀ b ∈ l, b ≠ 0 ∧ b ≠ 32 ∧ b ≠ 10 := by
      intro b hb
      have h := hs b hb
      unfold SmallLetter at h
      refine ⟨?_, ?_, ?_⟩ <;> (rintro rfl; revert h; decide)
    have hdg : ∀ b ∈ decNat p, b ≠ 0 ∧ b ≠ 10 := by
      intro b hb
      have h := decNat_digits p b hb
      refine ⟨?_, ?_⟩ <;> (rintro rfl; revert h; decide)
    have hdl : (decNat p).length ≤ 2 := by
      unfold decNat
      split
      · simp
      · unfold decNat; rw [dif_pos (by omega)]; simp
    have hfile : (d :: ds).flatMap line = (ascii "ulog_" ++ l ++ [32] ++ decNat p) ++ 10 :: ds.flatMap line := by
      rw [List.flatMap_cons, hline, hl]; simp
    have hfg : fgets 31 ((d :: ds).flatMap line) = (ascii "ulog_" ++ l ++ [32] ++ decNat p ++ [10], ds.flatMap line) := by
      rw [hfile]
      apply fgets_line
      · intro b hb
        have h5 : ∀ b ∈ ascii "ulog_", b ≠ 10 := by decide +kernel
        simp only [List.mem_append, List.mem_singleton] at hb
        rcases hb with ((h1 | h1) | h1) | h1
        · exact h5 b h1
        · exact (hsm b h1).2.2
        · rw [h1]; decide
        · exact (hdg b h1).2
      · simp only [List.length_append, List.length_singleton, show (ascii "ulog_").length = 5 by decide +kernel]
        omega
    have hln := logName_line l (decNat p) (fun b hb => ⟨(hsm b hb).1, (hsm b hb).2.1⟩) (fun b hb => (hdg b hb).1)
    have hne : (d :: ds).flatMap line ≠ [] := by rw [hfile]; simp
    cases n with
    | zero => simp at hn
    | succ n =>
      have hn' : ds.length < n := by simpa using hn
      rw [addLines, if_neg hne, hfg] at ht ⊢
      dsimp only at ht ⊢
      rw [hln] at ht ⊢
      dsimp only at ht ⊢
      rw [List.map_cons, hsn]
      by_cases hk : l = ascii "kmsgd"
      · have hk' : l = kmsgdName := hk
        rw [if_pos hk'] at ht ⊢
        rw [List.filter_cons_of_neg (by simp [hk])]
        exact ih' n I hn' ht
      · have hk' : l ≠ kmsgdName := hk
        rw [if_neg hk'] at ht ⊢
        rw [List.filter_cons_of_pos (by simp [hk])]
        obtain ⟨I1, h1, _⟩ := addUlog_spec hw I l
        by_cases hr : (addUlog w l s).1 = true
        · rw [if_pos hr] at ht ⊢
          obtain ⟨e, e1, e2, _⟩ := h1 hr
          rw [ih' n I1 hn' ht, e1]; simp [e2]
        · rw [if_neg hr] at ht
          exact absurd ht hr

theorem openKlog_spec {w : OWorld} (hw : Fresh w) {H : List Nat} {k : Nat} {s : OSt} (I : OInv H k s) (klog : Bool) :
    OInv H k (openKlog w klog s).2 ∧
    ((openKlog w klog s).1 = true → ∃ ps, (openKlog w klog s).2.devs.map ODev.path = s.devs.map ODev.path ++ ps ∧
      if klog then ps = [ascii "/dev/kmsg"] ∨ ps = [ascii "/proc/kmsg"] else ps = []) := by
  unfold openKlog
  cases klog with
  | false => exact ⟨I, fun _ => ⟨[], by simp⟩⟩
  | true =>
    simp only [if_true]
    obtain ⟨I1, h1, h2⟩ := addKlog_spec hw I
    by_cases hr : (addKlog w s).1 = true
    · rw [if_pos hr]
      obtain ⟨d, e1, e2⟩ := h1 hr
      exact ⟨I1, fun _ => ⟨[ascii "/dev/kmsg"], by rw [e1]; simp [e2], Or.inl rfl⟩⟩
    · rw [if_neg hr]
      obtain ⟨I2, h3, _⟩ := addUlog_spec hw I1 kmsgdName
      refine ⟨I2, fun ht => ?_⟩
      obtain ⟨d, e1, e2, _⟩ := h3 ht
      refine ⟨[ascii "/proc/kmsg"], ?_, Or.inr rfl⟩
      rw [e1, h2 (by simpa using hr), List.map_append, List.map_singleton, e2]
      rfl

theorem addAll_inv {w : OWorld} (hw : Fresh w) {H : List Nat} {k : Nat} {s : OSt} (I : OInv H k s) : OInv H k (addAll w s).2 := by
  unfold addAll
  split
  · exact addLines_inv hw _ _ I
  · exact (addUlog_spec hw I _).1

theorem openAll_inv {w : OWorld} (hw : Fresh w) {H : List Nat} {k : Nat} {s : OSt} (I : OInv H k s) (ulog : Bool) :
    OInv H k (openAll w ulog s).2 := by
  unfold openAll
  split
  · exact addAll_inv hw I
  · exact I

theorem openDevs_inv {w : OWorld} (hw : Fresh w) {H : List Nat} {k : Nat} {s : OSt} (I : OInv H k s) (ulog klog : Bool)
    (names : List Bytes) : OInv H k (openDevs w ulog klog names s).2 := by
  unfold openDevs
  have I1 := (addNames_spec hw names I).1
  split
  · split
    · exact (openKlog_spec hw (openAll_inv hw I1 ulog) klog).1
    · exact openAll_inv hw I1 ulog
  · exact I1

theorem openMem_inv {w : OWorld} {H : List Nat} {k : Nat} (n : Nat) : ∀ {s : OSt}, OInv H k s → OInv H k (openMem w n s).2 ∧
    (openMem w n s).2.devs = s.devs := by
  induction n with
  | zero => intro s I; exact ⟨I, rfl⟩
  | succ n ih =>
    intro s I
    unfold openMem
    split
    · exact ⟨I.note rfl (by decide), rfl⟩
    · obtain ⟨h1, h2⟩ := ih (I.note (e := .alloc) rfl (by decide))
      exact ⟨h1, h2⟩

theorem held_close_all {H : List Nat} (fds : List Nat) : ∀ {evs : List OEv}, (H ++ fds).Nodup → held evs = some (H ++ fds) →
    held (evs ++ fds.map .closed) = some H := by
  induction fds with
  | nil => intro evs _ h; simpa using h
  | cons f fs ih =>
    intro evs hn h
    have hf : f ∉ H := by
      intro hf; exact (List.nodup_append.mp hn).2.2 f hf f (by simp) rfl
    have he : (H ++ f :: fs).erase f = H ++ fs := by rw [List.erase_append_right _ hf]; simp
    rw [List.map_cons, show evs ++ .closed f :: fs.map .closed = (evs ++ [.closed f]) ++ fs.map .closed by simp]
    apply ih
    · rw [← he]; exact hn.erase f
    · rw [held_append, h]
      show (if f ∈ H ++ f :: fs then _ else _) = _
      rw [if_pos (by simp), he]

/-- Closing gives back all descriptors, each closed once. -/
theorem ulogClose_spec {H : List Nat} {k : Nat} {s : OSt} (I : OInv H k s) :
    held (ulogClose s) = some H ∧ outClosed (ulogClose s) = k + 1 := by
  unfold ulogClose
  have e : s.devs.map (fun d => OEv.closed d.fd) = (s.devs.map ODev.fd).map .closed := by simp
  rw [e]
  refine ⟨?_, ?_⟩
  · rw [held_append, held_close_all _ I.nodup I.fds]; rfl
  · rw [outClosed_append, outClosed_append, I.out]
    have : outClosed ((s.devs.map ODev.fd).map .closed) = 0 := by
      unfold outClosed; rw [List.countP_eq_zero]; intro a ha; obtain ⟨b, _, rfl⟩ := List.mem_map.mp ha; simp
    rw [this]; simp [outClosed]

/-- **C66.** Whatever fails on the way: a context that is returned has at least one
device, devices are numbered from 0 in order and counted, their descriptors and no
others have been opened and are still open, and the output is not closed. If no
context is returned, every descriptor of a device has been closed, none twice, and the
output was closed once, unless there was no memory for the context. -/
theorem C66_open {w : OWorld} (hw : Fresh w) (ulog klog : Bool) (names : List Bytes) {evs : List OEv} {H : List Nat}
    (hH : held evs = some H) (hn : H.Nodup) :
    match ulogOpen w ulog klog names evs with
    | .ok s => held s.evs = some (H ++ s.devs.map ODev.fd) ∧ (H ++ s.devs.map ODev.fd).Nodup ∧
        s.devs.map ODev.idx = (List.range s.devs.length).map Int.ofNat ∧ s.count = s.devs.length ∧ s.devs ≠ [] ∧
        (∀ d ∈ s.devs, 0 ≤ d.mark ∧ d.label = labelOf d.path) ∧ outClosed s.evs = outClosed evs ∧ held (ulogClose s) = some H
    | .error evs' => held evs' = some H ∧ outClosed evs' = outClosed evs + (if w.noMem (evs ++ [.alloc]) then 0 else 1) := by
  have I : OInv H (outClosed evs) { evs := evs ++ [.alloc], devs := [], count := 0, ulogs := 0 } := by
    refine ⟨?_, by simpa using hn, rfl, rfl, ?_, by simp⟩
    · rw [held_append, hH]; simp [heldStep]
    · rw [outClosed_append]; simp [outClosed]
  have h0 : held (evs ++ [.alloc]) = some H := by rw [held_append, hH]; rfl
  have h0' : outClosed (evs ++ [.alloc]) = outClosed evs := by rw [outClosed_append]; simp [outClosed]
  unfold ulogOpen
  by_cases hm : w.noMem (evs ++ [.alloc]) = true
  · rw [if_pos hm]
    exact ⟨h0, by rw [if_pos hm]; omega⟩
  · rw [if_neg hm]
    dsimp only
    have I1 := openDevs_inv hw I ulog klog names
    generalize openDevs w ulog klog names { evs := evs ++ [.alloc], devs := [], count := 0, ulogs := 0 } = r at I1
    obtain ⟨I2, hd⟩ := openMem_inv (w := w) 3 I1
    by_cases h1 : r.1 = false
    · rw [if_pos h1]
      have := ulogClose_spec I1
      exact ⟨this.1, by rw [if_neg hm]; omega⟩
    · rw [if_neg h1]
      by_cases h2 : r.2.count = 0
      · rw [if_pos h2]
        have := ulogClose_spec I1
        exact ⟨this.1, by rw [if_neg hm]; omega⟩
      · rw [if_neg h2]
        by_cases h3 : (openMem w 3 r.2).1 = true
        · rw [if_pos h3]
          refine ⟨I2.fds, I2.nodup, I2.idx, I2.count, ?_, I2.mark, I2.out, (ulogClose_spec I2).1⟩
          intro e
          have := I1.count
          rw [← hd, e] at this
          exact h2 (by simpa using this)
        · rw [if_neg h3]
          have := ulogClose_spec I2
          exact ⟨this.1, by rw [if_neg hm]; omega⟩

/-- What a successful `ulogcat3_open` has done. -/
theorem ulogOpen_ok {w : OWorld} {ulog klog : Bool} {names : List Bytes} {evs : List OEv} {s : OSt}
    (h : ulogOpen w ulog klog names evs = .ok s) :
    (openDevs w ulog klog names { evs := evs ++ [.alloc], devs := [], count := 0, ulogs := 0 }).1 = true ∧
    s.devs = (openDevs w ulog klog names { evs := evs ++ [.alloc], devs := [], count := 0, ulogs := 0 }).2.devs := by
  have hmem : ∀ n (s : OSt), (openMem w n s).2.devs = s.devs := by
    intro n
    induction n with
    | zero => intro s; rfl
    | succ n ih =>
      intro s
      unfold openMem
      split
      · rfl
      · rw [ih]; rfl
  unfold ulogOpen at h
  split at h
  · simp at h
  · dsimp only at h
    generalize openDevs w ulog klog names { evs := evs ++ [.alloc], devs := [], count := 0, ulogs := 0 } = r at h
    by_cases h1 : r.1 = false
    · rw [if_pos h1] at h; simp at h
    · rw [if_neg h1] at h
      by_cases h2 : r.2.count = 0
      · rw [if_pos h2] at h; simp at h
      · rw [if_neg h2] at h
        split at h
        · rw [← Except.ok.inj h]
          exact ⟨by simpa using h1, hmem _ _⟩
        · simp at h

/-- The kernel device, where one was asked for: the record device or the copy made
by kmsgd. -/
def KernelPart (klog : Bool) (ps : List Bytes) : Prop :=
  if klog then ps = [ascii "/dev/kmsg"] ∨ ps = [ascii "/proc/kmsg"] else ps = []

/-- **C66, devices asked for by name:** exactly those, in order, without kmsgd. -/
theorem C66_names {w : OWorld} (hw : Fresh w) {ulog klog : Bool} {names : List Bytes} {evs : List OEv} {H : List Nat}
    (hH : held evs = some H) (hn : H.Nodup) {s : OSt} (h : ulogOpen w ulog klog names evs = .ok s)
    (hne : ∃ n ∈ names, n ≠ ascii "kmsgd") :
    ∃ ps, KernelPart klog ps ∧
      s.devs.map ODev.path = (names.filter (· ≠ ascii "kmsgd")).map (fun n => (ascii "/dev/ulog_" ++ n).take 63) ++ ps := by
  obtain ⟨h1, h2⟩ := ulogOpen_ok h
  rw [h2]
  have I : OInv H (outClosed evs) { evs := evs ++ [.alloc], devs := [], count := 0, ulogs := 0 } := by
    refine ⟨?_, by simpa using hn, rfl, rfl, ?_, by simp⟩
    · rw [held_append, hH]; simp [heldStep]
    · rw [outClosed_append]; simp [outClosed]
  obtain ⟨I1, h3⟩ := addNames_spec hw names I
  generalize hs0 : ({ evs := evs ++ [.alloc], devs := [], count := 0, ulogs := 0 } : OSt) = s0 at *
  have hdev0 : s0.devs = [] := by rw [← hs0]
  have hul0 : s0.ulogs = 0 := by rw [← hs0]
  have hmap : (names.filter (· ≠ ascii "kmsgd")).map devPath =
      (names.filter (· ≠ ascii "kmsgd")).map (fun n => (ascii "/dev/ulog_" ++ n).take 63) := by
    apply List.map_congr_left
    intro n hn
    have : n ≠ ascii "kmsgd" := by simpa using (List.mem_filter.mp hn).2
    unfold devPath; rw [if_neg this]
  unfold openDevs at h1 ⊢
  by_cases ha : (addNames w names s0).1 = true
  · rw [if_pos ha] at h1 ⊢
    obtain ⟨h4, h5⟩ := h3 ha
    have hpos : 0 < (names.filter (· ≠ ascii "kmsgd")).length := by
      obtain ⟨n, hn1, hn2⟩ := hne
      exact List.length_pos_of_mem (List.mem_filter.mpr ⟨hn1, by simpa using hn2⟩)
    have hall : openAll w ulog (addNames w names s0).2 = (true, (addNames w names s0).2) := by
      unfold openAll; rw [if_neg (by rintro ⟨e, _⟩; omega)]
    rw [hall] at h1 ⊢
    simp only [if_true] at h1 ⊢
    obtain ⟨ps, h6, h7⟩ := (openKlog_spec hw I1 klog).2 h1
    exact ⟨ps, h7, by rw [h6, h4, hdev0, hmap]; rfl⟩
  · rw [if_neg ha] at h1
    exact absurd h1 ha

/-- **C66, no device asked for:** exactly the devices of the driver, in the order of
registration, without the one of kmsgd. -/
theorem C66_all {w : OWorld} (hw : Fresh w) {klog : Bool} {names : List Bytes} {evs : List OEv} {H : List Nat}
    (hH : held evs = some H) (hn : H.Nodup) {s : OSt} (h : ulogOpen w true klog names evs = .ok s)
    (hne : ∀ n ∈ names, n = ascii "kmsgd")
    {mainSize : Int} {got : Bool} {r : Reg} (hr : RegReach mainSize got r) {page : Nat} (hp : 4096 ≤ page)
    (hl : w.logs = some (showLogs page r)) :
    ∃ ps, KernelPart klog ps ∧
      s.devs.map ODev.path = (r.devs.filter (·.name ≠ ascii "ulog_kmsgd")).map (fun d => ascii "/dev/" ++ d.name) ++ ps := by
  obtain ⟨h1, h2⟩ := ulogOpen_ok h
  rw [h2]
  have I : OInv H (outClosed evs) { evs := evs ++ [.alloc], devs := [], count := 0, ulogs := 0 } := by
    refine ⟨?_, by simpa using hn, rfl, rfl, ?_, by simp⟩
    · rw [held_append, hH]; simp [heldStep]
    · rw [outClosed_append]; simp [outClosed]
  obtain ⟨I1, h3⟩ := addNames_spec hw names I
  generalize hs0 : ({ evs := evs ++ [.alloc], devs := [], count := 0, ulogs := 0 } : OSt) = s0 at *
  have hdev0 : s0.devs = [] := by rw [← hs0]
  have hul0 : s0.ulogs = 0 := by rw [← hs0]
  have hfil : names.filter (· ≠ ascii "kmsgd") = [] := by
    rw [List.filter_eq_nil_iff]; intro n hn; simp [hne n hn]
  rw [hfil] at h3
  obtain ⟨line, hsl, _, hlines⟩ := C58_show hr hp
  have hok := C15_devices hr
  unfold openDevs at h1 ⊢
  by_cases ha : (addNames w names s0).1 = true
  · rw [if_pos ha] at h1 ⊢
    obtain ⟨h4, h5⟩ := h3 ha
    have hall : openAll w true (addNames w names s0).2 =
        addLines w ((r.devs.flatMap line).length + 1) (r.devs.flatMap line) (addNames w names s0).2 := by
      unfold openAll addAll; rw [if_pos ⟨by rw [h5, hul0]; rfl, rfl⟩, hl, hsl]
    have I2 := openAll_inv hw I1 true
    have hlen : r.devs.length < (r.devs.flatMap line).length + 1 := by
      have : ∀ ds : List RLog, (∀ d ∈ ds, d ∈ r.devs) → ds.length ≤ (ds.flatMap line).length := by
        intro ds
        induction ds with
        | nil => intro _; simp
        | cons d ds ih =>
          intro hd
          obtain ⟨p, _, hline, _⟩ := hlines d (hd d (by simp))
          have := ih (fun e he => hd e (by simp [he]))
          rw [List.flatMap_cons, hline]
          simp only [List.length_append, List.length_cons, List.length_nil]; omega
      have := this r.devs (fun _ h => h)
      omega
    have hds : ∀ d ∈ r.devs, DevName d.name ∧ ∃ p, p < 100 ∧ line d = d.name ++ [32] ++ decNat p ++ [10] := by
      intro d hd
      obtain ⟨p, e, hline, _⟩ := hlines d hd
      obtain ⟨q, _, hq, e'⟩ := hok.size d hd
      refine ⟨hok.name d hd, p, ?_, hline⟩
      have : (2 : Nat) ^ p = 2 ^ q := by rw [← e, ← e']
      have := (Nat.pow_right_inj (by omega)).mp this
      omega
    by_cases hb : (openAll w true (addNames w names s0).2).1 = true
    · rw [if_pos hb] at h1 ⊢
      obtain ⟨ps, h6, h7⟩ := (openKlog_spec hw I2 klog).2 h1
      refine ⟨ps, h7, ?_⟩
      rw [hall] at hb
      rw [h6, hall, addLines_spec hw r.devs hds _ I1 hlen hb, h4, hdev0]
      congr 1
      simp only [List.map_nil, List.append_nil, List.nil_append]
      have : ∀ ds : List RLog, (∀ d ∈ ds, DevName d.name) →
          ((ds.map shortName).filter (· ≠ ascii "kmsgd")).map devPath =
          (ds.filter (·.name ≠ ascii "ulog_kmsgd")).map (fun d => ascii "/dev/" ++ d.name) := by
        intro ds
        induction ds with
        | nil => intro _; rfl
        | cons d ds ih =>
          intro hd
          have ih' := ih (fun e he => hd e (by simp [he]))
          obtain ⟨l, e1, _, e3⟩ := hd d (by simp)
          have es : shortName d = l := by
            unfold shortName; rw [e1, show 5 = (ascii "ulog_").length by decide +kernel, List.drop_left]
          rw [List.map_cons, es]
          have hk : ascii "ulog_kmsgd" = ascii "ulog_" ++ ascii "kmsgd" := by decide +kernel
          by_cases hl : l = ascii "kmsgd"
          · rw [List.filter_cons_of_neg (by simp [hl]), List.filter_cons_of_neg (by simp [e1, hl, hk]), ih']
          · have hne : d.name ≠ ascii "ulog_kmsgd" := by
              rw [e1, hk]; intro h; exact hl (List.append_cancel_left h)
            rw [List.filter_cons_of_pos (by simp [hl]), List.filter_cons_of_pos (by simp [hne]), List.map_cons, List.map_cons, ih']
            congr 1
            unfold devPath
            have hdv : ascii "/dev/ulog_" = ascii "/dev/" ++ ascii "ulog_" := by decide +kernel
            have hdl : (ascii "/dev/ulog_").length = 10 := by decide +kernel
            rw [if_neg hl, List.take_of_length_le (by rw [List.length_append]; omega), e1, hdv, List.append_assoc]
      exact this r.devs (fun d hd => hok.name d hd)
    · rw [if_neg hb] at h1
      exact absurd h1 hb
  · rw [if_neg ha] at h1
    exact absurd h1 ha

/-- A world in which nothing fails. -/
structure Willing (w : OWorld) : Prop where
  mem : ∀ evs, w.noMem evs = false
  opens : ∀ evs p, (w.openAt evs p).isSome = true
  len : ∀ evs, 0 ≤ w.logLen evs
  kmsg : ∀ evs, w.kmsgReads evs = true
  size : ∀ evs, 0 ≤ w.klogSize evs

theorem addUlog_ready {w : OWorld} (hw : Willing w) (name : Bytes) (s : OSt) : (addUlog w name s).1 = true := by
  unfold addUlog devCreate
  dsimp only
  rw [if_neg (by rw [hw.mem]; simp)]
  dsimp only
  unfold devOpen
  dsimp only
  have h := hw.opens (s.note .alloc).evs ((ascii "/dev/ulog_" ++ name).take 63)
  cases ho : w.openAt (s.note .alloc).evs ((ascii "/dev/ulog_" ++ name).take 63) with
  | none => rw [ho] at h; simp at h
  | some fd =>
    dsimp only
    rw [if_neg (Int.not_lt.mpr (hw.len _))]

theorem addKlog_ready {w : OWorld} (hw : Willing w) (s : OSt) : (addKlog w s).1 = true := by
  unfold addKlog devCreate
  dsimp only
  rw [if_neg (by rw [hw.mem]; simp)]
  dsimp only
  unfold devOpen
  dsimp only
  have h := hw.opens (s.note .alloc).evs (ascii "/dev/kmsg")
  cases ho : w.openAt (s.note .alloc).evs (ascii "/dev/kmsg") with
  | none => rw [ho] at h; simp at h
  | some fd =>
    dsimp only
    rw [if_neg (by rw [hw.kmsg]; simp), if_neg (Int.not_lt.mpr (Int.mul_nonneg (by omega) (hw.size _)))]

theorem addNames_ready {w : OWorld} (hw : Willing w) (names : List Bytes) : ∀ s, (addNames w names s).1 = true := by
  induction names with
  | nil => intro s; rfl
  | cons n ns ih =>
    intro s
    unfold addNames
    split
    · exact ih s
    · rw [if_pos (addUlog_ready hw n s)]; exact ih _

theorem addLines_ready {w : OWorld} (hw : Willing w) (n : Nat) : ∀ file s, (addLines w n file s).1 = true := by
  induction n with
  | zero => intro file s; rfl
  | succ n ih =>
    intro file s
    unfold addLines
    split
    · rfl
    · dsimp only
      split
      · exact ih _ _
      · split
        · exact ih _ _
        · rw [if_pos (addUlog_ready hw _ s)]; exact ih _ _

theorem openDevs_ready {w : OWorld} (hw : Willing w) (ulog klog : Bool) (names : List Bytes) (s : OSt) :
    (openDevs w ulog klog names s).1 = true := by
  unfold openDevs
  rw [if_pos (addNames_ready hw names s)]
  have h : (openAll w ulog (addNames w names s).2).1 = true := by
    unfold openAll
    split
    · unfold addAll
      split
      · exact addLines_ready hw _ _ _
      · exact addUlog_ready hw _ _
    · rfl
  rw [if_pos h]
  unfold openKlog
  cases klog with
  | false => rfl
  | true => simp only [if_true]; rw [if_pos (addKlog_ready hw _)]; exact addKlog_ready hw _

/-- **C66:** if nothing fails, a context is returned as soon as there is a device to open. -/
theorem C66_ready {w : OWorld} (hf : Fresh w) (hw : Willing w) (ulog klog : Bool) (names : List Bytes) {evs : List OEv} {H : List Nat}
    (hH : held evs = some H) (hn : H.Nodup)
    (h : (∃ n ∈ names, n ≠ ascii "kmsgd") ∨ klog = true ∨ (ulog = true ∧ w.logs = none)) :
    ∃ s, ulogOpen w ulog klog names evs = .ok s := by
  have I : OInv H (outClosed evs) { evs := evs ++ [.alloc], devs := [], count := 0, ulogs := 0 } := by
    refine ⟨?_, by simpa using hn, rfl, rfl, ?_, by simp⟩
    · rw [held_append, hH]; simp [heldStep]
    · rw [outClosed_append]; simp [outClosed]
  unfold ulogOpen
  rw [if_neg (by rw [hw.mem]; simp)]
  dsimp only
  generalize hs0 : ({ evs := evs ++ [.alloc], devs := [], count := 0, ulogs := 0 } : OSt) = s0 at *
  have hul0 : s0.ulogs = 0 := by rw [← hs0]
  have hr := openDevs_ready hw ulog klog names s0
  rw [if_neg (by rw [hr]; simp)]
  have hmem : ∀ n s, (openMem w n s).1 = true := by
    intro n
    induction n with
    | zero => intro s; rfl
    | succ n ih => intro s; unfold openMem; rw [if_neg (by rw [hw.mem]; simp)]; exact ih _
  have hc : (openDevs w ulog klog names s0).2.count ≠ 0 := by
    have I1 := openDevs_inv hf I ulog klog names
    rw [I1.count]
    intro he
    have hnil : (openDevs w ulog klog names s0).2.devs.map ODev.path = [] := by
      have : (openDevs w ulog klog names s0).2.devs = [] := List.eq_nil_of_length_eq_zero (by simpa using he)
      rw [this]; rfl
    unfold openDevs at hnil
    have ha := addNames_ready hw names s0
    obtain ⟨I2, h3⟩ := addNames_spec hf names I
    obtain ⟨h4, h5⟩ := h3 ha
    have I3 := openAll_inv hf I2 ulog
    have hb : (openAll w ulog (addNames w names s0).2).1 = true := by
      unfold openAll
      split
      · unfold addAll
        split
        · exact addLines_ready hw _ _ _
        · exact addUlog_ready hw _ _
      · rfl
    rw [if_pos ha, if_pos hb] at hnil
    have hk : (openKlog w klog (openAll w ulog (addNames w names s0).2).2).1 = true := by
      unfold openKlog
      cases klog with
      | false => rfl
      | true => simp only [if_true]; rw [if_pos (addKlog_ready hw _)]; exact addKlog_ready hw _
    obtain ⟨ps, h6, h7⟩ := (openKlog_spec hf I3 klog).2 hk
    rw [h6] at hnil
    obtain ⟨hn1, hn2⟩ := List.append_eq_nil_iff.mp hnil
    rcases h with ⟨n, hn, hne⟩ | h | ⟨h, hl⟩
    · have hpos : 0 < (names.filter (· ≠ ascii "kmsgd")).length :=
        List.length_pos_of_mem (List.mem_filter.mpr ⟨hn, by simpa using hne⟩)
      unfold openAll at hn1
      rw [if_neg (by rintro ⟨e, _⟩; omega), h4] at hn1
      have := congrArg List.length hn1
      simp only [List.length_append, List.length_map, List.length_nil] at this
      omega
    · rw [if_pos h] at h7
      rcases h7 with h7 | h7 <;> rw [h7] at hn2 <;> simp at hn2
    · unfold openAll at hn1
      by_cases hz : (addNames w names s0).2.ulogs = 0
      · rw [if_pos ⟨hz, h⟩] at hn1
        unfold addAll at hn1
        rw [hl] at hn1
        dsimp only at hn1
        obtain ⟨d, e1, _⟩ := (addUlog_spec hf I2 (ascii "main")).2.1 (addUlog_ready hw _ _)
        rw [e1] at hn1; simp at hn1
      · rw [if_neg (fun x => hz x.1), h4] at hn1
        have := congrArg List.length hn1
        simp only [List.length_append, List.length_map, List.length_nil] at this
        omega
  rw [if_neg hc, if_pos (hmem _ _)]
  exact ⟨_, rfl⟩

/-- **C67.** With the first version of the interface the output is closed once if
the devices can be opened when logs are processed first. -/
theorem C67_once {w : OWorld} (hw : Fresh w) {v : V1} (hv : v.ctx = none) {evs : List OEv} {H : List Nat}
    (hH : held evs = some H) (hn : H.Nodup) (h : (v1Process w v evs).1 = true) :
    let r := v1Process w v evs
    (∀ evs', v1Process w r.2.1 evs' = (true, r.2.1, r.2.2)) ∧
    outClosed (v1Destroy r.2.1 r.2.2) = outClosed evs + 1 ∧ held (v1Destroy r.2.1 r.2.2) = some H := by
  dsimp only
  unfold v1Process at h ⊢
  rw [hv] at h ⊢
  dsimp only at h ⊢
  have h1 := C66_open hw true false v.names hH hn
  cases ho : ulogOpen w true false v.names evs with
  | error e => rw [ho] at h; simp at h
  | ok s =>
    rw [ho] at h1
    dsimp only at h1 ⊢
    obtain ⟨_, _, _, _, _, _, h2, h3⟩ := h1
    refine ⟨fun _ => rfl, ?_, h3⟩
    unfold v1Destroy ulogClose
    dsimp only
    rw [outClosed_append, outClosed_append, h2]
    have : outClosed (s.devs.map fun d => .closed d.fd) = 0 := by
      unfold outClosed; rw [List.countP_eq_zero]; intro a ha; obtain ⟨b, _, rfl⟩ := List.mem_map.mp ha; simp
    rw [this]; simp [outClosed]

/-- C67 is false if the devices cannot be opened: every call of
`ulogcat_process_logs` closes the output of the caller again, though the
descriptor may belong to another file by then. -/
theorem C67_false (w : OWorld) (hm : ∀ evs, w.noMem evs = false) (ho : ∀ evs p, w.openAt evs p = none)
    (hl : w.logs = none) (evs : List OEv) :
    let v : V1 := { ctx := none, names := [] }
    let r1 := v1Process w v evs
    let r2 := v1Process w r1.2.1 r1.2.2
    r1.1 = false ∧ r2.1 = false ∧ outClosed r2.2.2 = outClosed evs + 2 := by
  have key : ∀ evs, v1Process w { ctx := none, names := [] } evs = (false, { ctx := none, names := [] },
      evs ++ [.alloc, .alloc, .opened (devPath (ascii "main")) none, .closeOut]) := by
    intro evs
    have hp : (ascii "/dev/ulog_" ++ ascii "main").take 63 = devPath (ascii "main") := by decide +kernel
    simp only [v1Process, ulogOpen, hm, openDevs, addNames, openAll, addAll, hl, addUlog, devCreate, OSt.note, devOpen, ho,
      devDestroy, ulogClose, hp]
    simp
  dsimp only
  rw [key]
  dsimp only
  rw [key]
  refine ⟨rfl, rfl, ?_⟩
  dsimp only
  rw [outClosed_append, outClosed_append]
  rfl

/-- `n` calls of `ulogcat_process_logs`: how many of them failed with memory for a context. -/
def v1Calls (w : OWorld) : Nat → V1 → List OEv → Nat × V1 × List OEv
  | 0, v, evs => (0, v, evs)
  | n + 1, v, evs =>
    let r := v1Process w v evs
    let q := v1Calls w n r.2.1 r.2.2
    ((if r.1 = false ∧ w.noMem (evs ++ [.alloc]) = false then 1 else 0) + q.1, q.2)

theorem v1Calls_opened {w : OWorld} {v : V1} {s : OSt} (hs : v.ctx = some s) (n : Nat) :
    v1Calls w n v s.evs = (0, v, s.evs) := by
  induction n with
  | zero => rfl
  | succ n ih =>
    unfold v1Calls
    have : v1Process w v s.evs = (true, v, s.evs) := by unfold v1Process; rw [hs]
    rw [this]
    simp [ih]

/-- **C67:** after any number of calls of `ulogcat_process_logs` and `ulogcat_destroy`, the
output has been closed once for each of the calls that failed (with memory for a
context), and once more if one of them succeeded. All descriptors of devices are closed. -/
theorem C67_count {w : OWorld} (hw : Fresh w) (n : Nat) {v : V1} (hv : v.ctx = none) {evs : List OEv} {H : List Nat}
    (hH : held evs = some H) (hn : H.Nodup) :
    let r := v1Calls w n v evs
    outClosed (v1Destroy r.2.1 r.2.2) = outClosed evs + r.1 + (if r.2.1.ctx.isSome then 1 else 0) ∧
      held (v1Destroy r.2.1 r.2.2) = some H := by
  induction n generalizing evs with
  | zero =>
    unfold v1Calls v1Destroy
    simp [hv, hH]
  | succ n ih =>
    dsimp only
    have h1 := C66_open hw true false v.names hH hn
    cases ho : ulogOpen w true false v.names evs with
    | error e =>
      rw [ho] at h1
      dsimp only at h1
      have hp : v1Process w v evs = (false, v, e) := by unfold v1Process; rw [hv]; dsimp only; rw [ho]
      have := ih h1.1
      dsimp only at this
      unfold v1Calls
      rw [hp]
      dsimp only
      refine ⟨?_, this.2⟩
      rw [this.1, h1.2]
      cases w.noMem (evs ++ [.alloc]) <;> simp <;> omega
    | ok s =>
      have hp : v1Process w v evs = (true, { v with ctx := some s }, s.evs) := by unfold v1Process; rw [hv]; dsimp only; rw [ho]
      have h2 := C67_once hw hv hH hn (by rw [hp])
      dsimp only at h2
      rw [hp] at h2
      have hc : v1Calls w (n + 1) v evs = (0, { v with ctx := some s }, s.evs) := by
        show (_ + _, _) = _
        rw [hp]
        dsimp only
        rw [v1Calls_opened (v := { v with ctx := some s }) (s := s) rfl n]
        simp
      rw [hc]
      dsimp only at h2 ⊢
      refine ⟨?_, h2.2.2⟩
      rw [h2.2.1]
      simp

end Verif.Ulogcat
