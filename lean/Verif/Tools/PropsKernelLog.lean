import Verif.Ulogcat.PropsSaid
import Verif.Ulogcat.PropsColors
import Verif.Tools.PropsKmsgd
import Verif.Libulog.PropsErrno

/-!
# From the kernel's messages through kmsgd to the screen (C110)

The kernel's log as `klogctl` gives it, kmsgd (`kmsgdRun`), libulog in it (`wstep`),
the driver (`Kernel.run`), and a viewer of the device of kmsgd
(`ulog_parse_kmsgd_entry`), put together. kmsgd logs before the viewer opens the
device.
-/
namespace Verif.Tools
open Verif Verif.Kernel Verif.Libulog Verif.Ulogcat

/-! ## What kmsgd asks of libulog -/

/-- kmsgd.c:63 (`ULOG_STR`, tag `kmsgd`) and kmsgd_evt.c:53 (`ULOG_EVT`, tag
`kernel_evt`), by task `t`. -/
def KOut.said (t : Task) : KOut → Said
  | .line l => { prog := 0, task := t, tag := 1, prio := 6, text := l, whole := true }
  | .anomaly id =>
    { prog := 0, task := t, tag := 2, prio := 5
      text := ascii "EVT:KANOMALY;type='kernel';id='" ++ id ++ ascii "'", whole := false }

/-- The calls of libulog, with the task (and time) of each. -/
def saidOf (tk : Nat → Task) (outs : List KOut) : List Said := outs.mapIdx fun i o => o.said (tk i)

/-! ## Specification -/

/-- A message of the kernel. -/
structure KMsg where
  prio : Nat
  sec : Nat
  usec : Nat
  text : Bytes

/-- As `klogctl` gives it (Linux, `print_prefix`): `<P>[ SSSSS.UUUUUU] text`. -/
def KMsg.line (k : KMsg) : Bytes :=
  [60] ++ decNat k.prio ++ [62] ++ [91] ++ List.replicate (5 - (decNat k.sec).length) 32 ++ decNat k.sec ++ [46] ++
    (List.replicate (6 - (decNat k.usec).length) 48 ++ decNat k.usec) ++ [93, 32] ++ k.text

structure KMsg.Valid (k : KMsg) : Prop where
  prio : k.prio < 2 ^ 32
  sec : k.sec < 2 ^ 63
  usec : k.usec < 1000000
  nul : NoNul k.text
  nl : ∀ b ∈ k.text, b ≠ 10
  short : k.text.length ≤ 3900

/-- What is shown besides the text. -/
def kernelMeta (sec nsec : Int) (level : Nat) : Meta :=
  { sec, nsec, priority := level, pid := 0, pname := [], tid := 0, tname := [], tag := ascii "KERNEL", isBinary := false, color := 0 }

/-- The lines on the screen for a message: its own, with its level and its time, and
one for the anomaly that it announces. -/
def KMsg.shown (L : Look) (k : KMsg) : Bytes :=
  lineText L (kernelMeta k.sec (k.usec * 1000 : Nat) (k.prio % 8)) k.text ++
    (anomalyOf k.line).flatMap fun
      | .anomaly id => lineText L (kernelMeta 0 0 5) ((ascii "EVT:KANOMALY;type='kernel';id='" ++ id ++ ascii "'").take 255)
      | .line _ => []

/-! ## Lines -/

theorem zeros_dec (n : Nat) (s : Bytes) : parseDec (List.replicate n 48 ++ s) = parseDec s := by
  induction n with
  | zero => rfl
  | succ n ih => rw [List.replicate_succ, List.cons_append, ← ih]; rfl

theorem digits_of (n m : Nat) : ∀ b ∈ List.replicate m 48 ++ decNat n, isDigit b = true := by
  intro b hb
  rcases List.mem_append.1 hb with h | h
  · rw [(List.mem_replicate.1 h).2]; decide
  · exact decNat_digits n b h

theorem decNat_plain (n : Nat) : ∀ b ∈ decNat n, b ≠ 0 ∧ b ≠ 10 := by
  intro b hb
  have := decNat_digits n b hb
  constructor <;> (intro e; rw [e] at this; revert this; decide)

/-- kmsgd's device gives a message its level and its time back. -/
theorem fix_line {k : KMsg} (h : k.Valid) (level : Nat) :
    kmsgdFix { text := k.line, len := k.line.length + 1, priority := level, sec := 0, nsec := 0 } =
      { text := k.text, len := k.text.length + 1, priority := k.prio % 8, sec := k.sec, nsec := k.usec * 1000 } := by
  have h1 := h.prio; have h2 := h.sec; have h3 := h.usec
  have e := C65_fix (decNat k.prio) (List.replicate (5 - (decNat k.sec).length) 32) (decNat k.sec)
    (List.replicate (6 - (decNat k.usec).length) 48 ++ decNat k.usec) k.text
    { text := k.line, len := k.line.length + 1, priority := level, sec := 0, nsec := 0 }
    (decNat_digits _) (decNat_ne_nil' _) (by rw [parseDec_decNat]; omega) (fun b hb => (List.mem_replicate.1 hb).2)
    (decNat_digits _) (decNat_ne_nil' _) (by rw [parseDec_decNat]; omega) (digits_of _ _)
    (by intro e; exact decNat_ne_nil' _ (List.append_eq_nil_iff.1 e).2) (by rw [zeros_dec, parseDec_decNat]; exact h3) rfl rfl
  rw [zeros_dec, parseDec_decNat, parseDec_decNat, parseDec_decNat] at e
  exact e

theorem kline_plain {k : KMsg} (h : k.Valid) : ∀ b ∈ k.line, b ≠ 0 ∧ b ≠ 10 := by
  intro b hb
  unfold KMsg.line at hb
  simp only [List.mem_append, List.mem_cons, List.not_mem_nil, or_false, or_assoc] at hb
  rcases hb with rfl | hb | rfl | rfl | hb | hb | rfl | hb | hb | rfl | rfl | hb
  · decide
  · exact decNat_plain _ b hb
  · decide
  · decide
  · rw [(List.mem_replicate.1 hb).2]; decide
  · exact decNat_plain _ b hb
  · decide
  · rw [(List.mem_replicate.1 hb).2]; decide
  · exact decNat_plain _ b hb
  · decide
  · decide
  · exact ⟨h.nul b hb, h.nl b hb⟩

theorem decNat_len (n k : Nat) (hk : 0 < k) (h : n < 10 ^ k) : (decNat n).length ≤ k := by
  induction k generalizing n with
  | zero => omega
  | succ k ih =>
    unfold decNat
    split
    · simp
    · rename_i h10
      rw [List.length_append, List.length_singleton]
      cases k with
      | zero => omega
      | succ k =>
        have := ih (n / 10) (by omega) (by rw [Nat.pow_succ] at h; omega)
        omega

theorem line_length {k : KMsg} (h : k.Valid) : k.line.length ≤ k.text.length + 60 := by
  have h1 : (decNat k.prio).length ≤ 10 := decNat_len _ 10 (by omega) (by have := h.prio; omega)
  have h2 : (decNat k.sec).length ≤ 19 := decNat_len _ 19 (by omega) (by have := h.sec; omega)
  have h3 : (decNat k.usec).length ≤ 6 := decNat_len _ 6 (by omega) (by have := h.usec; omega)
  unfold KMsg.line
  simp only [List.length_append, List.length_cons, List.length_nil, List.length_replicate]
  omega

theorem linesOf_bytes (ks : List KMsg) (h : ∀ k ∈ ks, k.Valid) :
    linesOf (ks.flatMap fun k => k.line ++ [10]) = (ks.map (·.line), []) := by
  induction ks with
  | nil => rfl
  | cons k ks ih =>
    rw [List.flatMap_cons, List.append_assoc, show [10] ++ (ks.flatMap fun k => k.line ++ [10]) = 10 :: (ks.flatMap fun k => k.line ++ [10]) from rfl,
      linesOf_nl (fun b hb => (kline_plain (h k (by simp)) b hb).2), ih fun x hx => h x (by simp [hx])]
    rfl

/-! ## What is shown -/

/-- The text of the entry of a message that kmsgd logs. -/
theorem entryText_kernel (L : Look) (hk : L.kmsgd = true) (t : Task) {prio : UInt32} {tag text : Bytes} (ht : NoNul tag) (hx : NoNul text)
    (hb : prioBinary prio = false) (hfit : prefixLen t + (4 + (tag.length + 1) + (text.length + 1)) ≤ 4076) :
    entryText L (plainSpec t (le32 prio ++ tag ++ 0 :: (text ++ [0]))) = kernelText L text (prio.toNat % 8) := by
  have hd := decode_plain (t := t) (prio := prio) (tag := tag) (msg := text ++ [0]) (by omega)
  rw [List.take_of_length_le (by simp; omega), decodeBody_prio ht, hb, if_neg (by simp), if_neg (by simp),
    show text ++ [0] = text ++ 0 :: [] from rfl, clip_terminated hx] at hd
  unfold entryText
  simp only [plainSpec]
  rw [if_pos hk, hd]
  rfl

theorem prefixLen_le (t : Task) : prefixLen t ≤ 34 := by
  have h : ∀ c : Bytes, (taskName c).length ≤ 16 := by
    intro c
    unfold taskName
    have := (List.takeWhile_prefix (· != 0) (l := c.take 16)).length_le
    rw [List.length_take] at this
    omega
  have h1 := h t.pcomm
  have h2 := h t.tcomm
  unfold prefixLen
  split <;> omega

/-- Conversion to `long` keeps the number modulo 2^64. -/
theorem C98_int64 (n : Nat) : -2 ^ 63 ≤ int64 n ∧ int64 n < 2 ^ 63 ∧ int64 n % 2 ^ 64 = n % 2 ^ 64 := by
  unfold int64
  split <;> omega

theorem int64_small {n : Nat} (h : n < 2 ^ 63) : int64 n = n := by
  unfold int64
  rw [Nat.mod_eq_of_lt (by omega), if_pos (by omega)]
  omega

/-- The viewer's colours and dates fit their arrays. -/
structure Fits (L : Look) : Prop where
  ansi : ∀ p, (L.ansi p).length ≤ 31
  clock : ∀ t, (L.clock t).length ≤ 31

theorem one_line {L : Look} (hL : Fits L) {sec nsec : Int} (hn : 0 ≤ nsec ∧ nsec < 1000000000) {level : Nat} (hl : level < 8)
    {t : Bytes} (ht : ∀ b ∈ t, b ≠ 10) (hlen : t.length ≤ 4000) :
    cut 5248 ((shownLines t).map (lineText L (kernelMeta sec nsec level))).flatten = lineText L (kernelMeta sec nsec level) t := by
  have hs : Sane L (kernelMeta sec nsec level) :=
    ⟨hL.ansi, hL.clock, ⟨by show _ ≤ nsec; omega, by show nsec < _; omega⟩, hl, by show (ascii "KERNEL").length + 0 + 0 ≤ 4076; decide⟩
  have := lineText_length hs t
  have h6 : (kernelMeta sec nsec level).tag.length = 6 := rfl
  have h7 : (kernelMeta sec nsec level).pname.length = 0 := rfl
  have h8 : (kernelMeta sec nsec level).tname.length = 0 := rfl
  rw [shownLines_one ht]
  simp only [List.map_cons, List.map_nil, List.flatten_cons, List.flatten_nil, List.append_nil]
  unfold cut
  rw [if_pos (by omega)]

theorem anomaly_mem {l : Bytes} {o : KOut} (h : o ∈ anomalyOf l) : ∃ id, o = .anomaly id ∧ ∀ b ∈ id, b ∈ l := by
  unfold anomalyOf at h
  split at h
  · cases h
  · split at h
    · rw [List.mem_singleton] at h
      refine ⟨_, h, fun b hb => ?_⟩
      exact List.mem_of_mem_drop ((List.takeWhile_prefix _).subset hb)
    · cases h

theorem anomaly_count (l : Bytes) : (anomalyOf l).length ≤ 1 := by
  unfold anomalyOf
  split
  · simp
  · split <;> simp

/-- What the viewer makes of an output of kmsgd. -/
def KOut.text (L : Look) : KOut → Bytes
  | .line l => kernelText L l 6
  | .anomaly id => kernelText L ((ascii "EVT:KANOMALY;type='kernel';id='" ++ id ++ ascii "'").take 255) 5

theorem kernelText_event {L : Look} (hL : Fits L) {t : Bytes} (ht : ∀ b ∈ t, b ≠ 10) (h1 : t.head? = some 69) (hl : t.length ≤ 4000) :
    kernelText L t 5 = lineText L (kernelMeta 0 0 5) t := by
  have e : kmsgdFix { text := t, len := t.length + 1, priority := 5, sec := 0, nsec := 0 } =
      { text := t, len := t.length + 1, priority := 5, sec := 0, nsec := 0 } := by
    unfold kmsgdFix parsePrefix
    rw [if_pos (.inl (by dsimp only; rw [h1]; decide))]
    unfold parseTimestamp
    dsimp only
    rw [if_pos (by rw [h1]; decide)]
  unfold kernelText
  rw [e]
  exact one_line hL (sec := 0) (nsec := 0) ⟨by decide, by decide⟩ (level := 5) (by decide) ht hl

theorem event_plain {k : KMsg} (h : k.Valid) {id : Bytes} (hid : ∀ b ∈ id, b ∈ k.line) :
    ∀ b ∈ ascii "EVT:KANOMALY;type='kernel';id='" ++ id ++ ascii "'", b ≠ 0 ∧ b ≠ 10 := by
  intro b hb
  rcases List.mem_append.1 hb with hb | hb
  · rcases List.mem_append.1 hb with hb | hb
    · exact (show ∀ b ∈ ascii "EVT:KANOMALY;type='kernel';id='", b ≠ 0 ∧ b ≠ 10 by decide) b hb
    · exact kline_plain h b (hid b hb)
  · exact (show ∀ b ∈ ascii "'", b ≠ 0 ∧ b ≠ 10 by decide) b hb

theorem lineOut_text {L : Look} (hL : Fits L) {k : KMsg} (h : k.Valid) : (lineOut k.line).flatMap (·.text L) = k.shown L := by
  have h1 : KOut.text L (.line k.line) = lineText L (kernelMeta k.sec (k.usec * 1000 : Nat) (k.prio % 8)) k.text := by
    show kernelText L k.line 6 = _
    have hu := h.usec
    unfold kernelText
    rw [fix_line h 6]
    unfold kernelInfo
    dsimp only
    rw [int64_small h.sec, int64_small (by omega : k.usec * 1000 < 2 ^ 63)]
    exact one_line hL ⟨by omega, by omega⟩ (by omega) h.nl (by have := h.short; omega)
  unfold lineOut KMsg.shown
  rw [List.flatMap_cons, h1]
  refine congrArg (lineText L (kernelMeta k.sec (k.usec * 1000 : Nat) (k.prio % 8)) k.text ++ ·) ?_
  refine flatMap_congr' fun o ho => ?_
  obtain ⟨id, rfl, hid⟩ := anomaly_mem ho
  show kernelText L ((ascii "EVT:KANOMALY;type='kernel';id='" ++ id ++ ascii "'").take 255) 5 =
    lineText L (kernelMeta 0 0 5) ((ascii "EVT:KANOMALY;type='kernel';id='" ++ id ++ ascii "'").take 255)
  have hh : ((ascii "EVT:KANOMALY;type='kernel';id='" ++ id ++ ascii "'").take 255).head? = some 69 := by
    rw [show ascii "EVT:KANOMALY;type='kernel';id='" = 69 :: ascii "VT:KANOMALY;type='kernel';id='" by decide]
    rw [List.cons_append, List.cons_append, List.take_succ_cons]
    rfl
  have hn := event_plain h hid
  generalize ascii "EVT:KANOMALY;type='kernel';id='" ++ id ++ ascii "'" = T at hh hn
  exact kernelText_event hL (fun b hb => (hn b (List.mem_of_mem_take hb)).2) hh (by rw [List.length_take]; omega)

/-! ## The calls of libulog -/

/-- The daemon as a process: the names of its two tags, and levels that let its
messages through. -/
structure Daemon (D : Bytes) (G : Prog) : Prop where
  plain : G.Plain D
  tag1 : G.nm 1 = ascii "kmsgd"
  tag2 : G.nm 2 = ascii "kernel_evt"
  level1 : 6 ≤ envLevel G 1
  level2 : 5 ≤ envLevel G 2

theorem said_ok {D : Bytes} {G : Prog} (hG : Daemon D G) {k : KMsg} (h : k.Valid) {t : Task} (ht : ¬ (t.pid = 0xffffffff ∧ t.tid = 0xffffffff))
    {o : KOut} (ho : o ∈ lineOut k.line) :
    (o.said t).Plain (fun _ => G) ∧ (o.said t).passes (fun _ => G) = true ∧
      ∀ L : Look, L.kmsgd = true → entryText L ((o.said t).entry fun _ => G) = o.text L := by
  have hp := prefixLen_le t
  have hl := line_length h
  have hs := h.short
  rcases List.mem_cons.1 ho with rfl | ho
  · have hpl : (KOut.said t (.line k.line)).Plain (fun _ => G) := by
      refine ⟨?_, fun b hb => (kline_plain h b hb).1, (by decide : prioBinary 6 = false), ?_, ht⟩
      · show NoNul (G.nm 1); rw [hG.tag1]; decide
      · show prefixLen t + (4 + (G.nm 1).length + 1) < 4076
        rw [hG.tag1, show (ascii "kmsgd").length = 5 from rfl]
        omega
    refine ⟨hpl, decide_eq_true ?_, fun L hL => ?_⟩
    · show ((6 : Nat) : Int) ≤ envLevel G 1
      have := hG.level1; omega
    · unfold Said.entry
      rw [Said.vec_flat]
      refine entryText_kernel L hL t hpl.tag (fun b hb => (kline_plain h b hb).1) hpl.bin ?_
      show prefixLen t + (4 + ((G.nm 1).length + 1) + (k.line.length + 1)) ≤ 4076
      rw [hG.tag1, show (ascii "kmsgd").length = 5 from rfl]
      omega
  · obtain ⟨id, rfl, hid⟩ := anomaly_mem ho
    have hev := event_plain h hid
    have hk : (KOut.said t (.anomaly id)).kept.length ≤ 255 := by
      show ((ascii "EVT:KANOMALY;type='kernel';id='" ++ id ++ ascii "'").take 255).length ≤ 255
      rw [List.length_take]; omega
    have hpl : (KOut.said t (.anomaly id)).Plain (fun _ => G) := by
      refine ⟨?_, fun b hb => (hev b hb).1, (by decide : prioBinary 5 = false), ?_, ht⟩
      · show NoNul (G.nm 2); rw [hG.tag2]; decide
      · show prefixLen t + (4 + (G.nm 2).length + 1) < 4076
        rw [hG.tag2, show (ascii "kernel_evt").length = 10 from rfl]
        omega
    refine ⟨hpl, decide_eq_true ?_, fun L hL => ?_⟩
    · show ((5 : Nat) : Int) ≤ envLevel G 2
      have := hG.level2; omega
    · unfold Said.entry
      rw [Said.vec_flat]
      refine entryText_kernel L hL t hpl.tag (fun b hb => (hev b (List.mem_of_mem_take hb)).1) hpl.bin ?_
      show prefixLen t + (4 + ((G.nm 2).length + 1) + ((KOut.said t (.anomaly id)).kept.length + 1)) ≤ 4076
      rw [hG.tag2, show (ascii "kernel_evt").length = 10 from rfl]
      omega

/-- What a call takes in the log. -/
theorem said_size {D : Bytes} {G : Prog} (hG : Daemon D G) {k : KMsg} (t : Task) {o : KOut} (ho : o ∈ lineOut k.line) :
    (o.said t).size (fun _ => G) ≤ match o with | .line _ => k.line.length + 69 | .anomaly _ => 330 := by
  have hp := prefixLen_le t
  rcases List.mem_cons.1 ho with rfl | ho
  · show 24 + min 4076 (prefixLen t + (4 + ((G.nm 1).length + 1) + (k.line.length + 1))) ≤ _
    rw [hG.tag1, show (ascii "kmsgd").length = 5 from rfl]
    dsimp only
    omega
  · obtain ⟨id, rfl, hid⟩ := anomaly_mem ho
    have hk : (KOut.said t (.anomaly id)).kept.length ≤ 255 := by
      show ((ascii "EVT:KANOMALY;type='kernel';id='" ++ id ++ ascii "'").take 255).length ≤ 255
      rw [List.length_take]; omega
    show 24 + min 4076 (prefixLen t + (4 + ((G.nm 2).length + 1) + ((KOut.said t (.anomaly id)).kept.length + 1))) ≤ _
    rw [hG.tag2, show (ascii "kernel_evt").length = 10 from rfl]
    dsimp only
    omega

theorem mem_saidOf {tk : Nat → Task} {outs : List KOut} {m : Said} (h : m ∈ saidOf tk outs) : ∃ i o, o ∈ outs ∧ m = o.said (tk i) := by
  unfold saidOf at h
  obtain ⟨i, hi, rfl⟩ := List.mem_mapIdx.1 h
  exact ⟨i, outs[i], List.getElem_mem hi, rfl⟩

theorem saidOf_flatMap {γ} {g : Said → List γ} {h : KOut → List γ} (outs : List KOut) : ∀ (tk : Nat → Task),
    (∀ o ∈ outs, ∀ i, g (o.said (tk i)) = h o) → (saidOf tk outs).flatMap g = outs.flatMap h := by
  induction outs with
  | nil => intro _ _; rfl
  | cons o outs ih =>
    intro tk hg
    unfold saidOf at ih ⊢
    rw [List.mapIdx_cons, List.flatMap_cons, List.flatMap_cons, hg o (by simp) 0]
    congr 1
    exact ih (fun i => tk (i + 1)) fun x hx i => hg x (by simp [hx]) (i + 1)

theorem saidOf_sum {f : Said → Nat} {h : KOut → Nat} (outs : List KOut) : ∀ (tk : Nat → Task),
    (∀ o ∈ outs, ∀ i, f (o.said (tk i)) ≤ h o) → ((saidOf tk outs).map f).sum ≤ (outs.map h).sum := by
  induction outs with
  | nil => intro _ _; simp [saidOf]
  | cons o outs ih =>
    intro tk hg
    unfold saidOf at ih ⊢
    rw [List.mapIdx_cons, List.map_cons, List.map_cons, List.sum_cons, List.sum_cons]
    have := ih (fun i => tk (i + 1)) fun x hx i => hg x (by simp [hx]) (i + 1)
    have := hg o (by simp) 0
    omega

def outSize : KOut → Nat
  | .line l => l.length + 69
  | .anomaly _ => 330

theorem lineOut_sum (l : Bytes) : ((lineOut l).map outSize).sum ≤ l.length + 400 := by
  unfold lineOut anomalyOf
  split
  · simp [outSize]
  · split <;> simp [outSize]

theorem lineOut_length (l : Bytes) : (lineOut l).length ≤ 2 := by
  have := anomaly_count l
  unfold lineOut
  rw [List.length_cons]
  omega

/-! ## The property -/

/-- C110. The kernel logs messages; kmsgd reads them in pieces of any sizes and logs
what it finds in them; then a viewer dumps kmsgd's device in a text format. If they
fit the buffer, nothing faults, the dump ends, and the screen shows exactly the
messages, in order, each with its own level and time, and after a message that
announces an anomaly a line for its event. -/
theorem C110_kernel {D : Bytes} {G : Prog} (hG : Daemon D G) {ks : List KMsg} (hks : ∀ k ∈ ks, k.Valid) (hcount : ks.length < 1073741824)
    {s : KState} (hs : s.buf.length = 16384) (ho : s.offset = 0) {ns : List Nat} (hns : ∀ n ∈ ns, 0 < n)
    (hlen : (ks.flatMap fun k => k.line ++ [10]).length ≤ ns.length)
    {tk : Nat → Task} (htk : ∀ i, ¬ ((tk i).pid = 0xffffffff ∧ (tk i).tid = 0xffffffff)) (junk : Nat → UInt8)
    {name : Bytes} {k : Nat} (buf : Nat → UInt8) (hk : 14 ≤ k) (hname : name.length ≤ 89)
    (hroom : (ks.map fun k => k.line.length + 400).sum + 8200 ≤ 2 ^ k)
    {L : Look} (hL : L.fmt ≠ .csv) (hkd : L.kmsgd = true) (hfit : Fits L) :
    ∃ s' outs ops sys tr m, kmsgdRun ns s (ks.flatMap fun k => k.line ++ [10]) = some (s', [], outs) ∧
      sayAll (fun _ => G) junk (fun _ => .start) (saidOf tk outs) = .ok ops ∧
      Kernel.run (Kernel.init name k buf) (ops ++ [.openF 0 true false true, .getLogLen 0]) = .ok (sys, tr ++ [(.getLogLen 0, .ret m)]) ∧
      Dumps L sys tr m (2 * ks.length) fun bs => bs = ks.flatMap (·.shown L) := by
  have hlines := linesOf_bytes ks hks
  have h0 : NoNul (ks.flatMap fun k => k.line ++ [10]) := by
    intro b hb
    obtain ⟨x, hx, hb⟩ := List.mem_flatMap.1 hb
    rcases List.mem_append.1 hb with hb | hb
    · exact (kline_plain (hks x hx) b hb).1
    · rw [List.mem_singleton.1 hb]; decide
  obtain ⟨s', e1⟩ := C41_all (by omega : 2 ≤ 16384) hs ho ns _ h0 (by
    unfold Short
    rw [hlines]
    refine ⟨fun l hl => ?_, by simp⟩
    obtain ⟨x, hx, rfl⟩ := List.mem_map.1 hl
    have := line_length (hks x hx)
    have := (hks x hx).short
    omega) hns hlen
  rw [hlines] at e1
  dsimp only at e1
  rw [flatMap_map] at e1
  have hmem : ∀ m ∈ saidOf tk (ks.flatMap fun x => lineOut x.line), ∃ i o x, x ∈ ks ∧ o ∈ lineOut x.line ∧ m = o.said (tk i) := by
    intro m hm
    obtain ⟨i, o, ho, rfl⟩ := mem_saidOf hm
    obtain ⟨x, hx, ho⟩ := List.mem_flatMap.1 ho
    exact ⟨i, o, x, hx, ho, rfl⟩
  have hfil : (saidOf tk (ks.flatMap fun x => lineOut x.line)).filter (·.passes fun _ => G) = saidOf tk (ks.flatMap fun x => lineOut x.line) := by
    rw [List.filter_eq_self]
    intro m hm
    obtain ⟨i, o, x, hx, ho, rfl⟩ := hmem m hm
    exact (said_ok hG (hks x hx) (htk i) ho).2.1
  have hl2 : (saidOf tk (ks.flatMap fun x => lineOut x.line)).length ≤ 2 * ks.length := by
    unfold saidOf
    rw [List.length_mapIdx]
    clear e1 hmem hfil hroom hlen hlines h0 hcount hks
    induction ks with
    | nil => simp
    | cons x ks ih =>
      rw [List.flatMap_cons, List.length_append, List.length_cons]
      have := lineOut_length x.line
      omega
  have hsum : ((saidOf tk (ks.flatMap fun x => lineOut x.line)).map (·.size fun _ => G)).sum ≤ (ks.map fun k => k.line.length + 400).sum := by
    refine Nat.le_trans (saidOf_sum (h := outSize) _ tk ?_) ?_
    · intro o ho i
      obtain ⟨x, hx, ho⟩ := List.mem_flatMap.1 ho
      have hsz := said_size hG (tk i) ho
      rcases List.mem_cons.1 ho with rfl | ho
      · exact hsz
      · obtain ⟨id, rfl, _⟩ := anomaly_mem ho
        exact hsz
    · clear e1 hmem hfil hroom hlen hlines h0 hcount hks hl2
      induction ks with
      | nil => simp
      | cons x ks ih =>
        rw [List.flatMap_cons, List.map_append, List.sum_append, List.map_cons, List.sum_cons]
        have := lineOut_sum x.line
        omega
  obtain ⟨ops, sys, tr, m, g1, g2, g3⟩ := said_screen (P := fun _ => G) (fun _ => hG.plain)
    (ms := saidOf tk (ks.flatMap fun x => lineOut x.line)) (by
      intro m hm
      obtain ⟨i, o, x, hx, ho, rfl⟩ := hmem m hm
      exact (said_ok hG (hks x hx) (htk i) ho).1.task) junk buf hk hname (by omega) (L := L) (fun _ => hL)
  refine ⟨s', _, ops, sys, tr, m, e1, g1, g2, fun euid n fuel hf buf0 hb paths ans hans => ?_⟩
  obtain ⟨all, c, t, f1, f2, _, f3⟩ := g3 euid n fuel (by omega) hb (paths := paths) hans
  refine ⟨all, c, t, f1, f2, (f3 (by rw [hfil]; omega)).trans ?_⟩
  rw [hfil, saidOf_flatMap (h := (·.text L)) _ tk, List.flatMap_assoc]
  · exact flatMap_congr' fun x hx => lineOut_text hfit (hks x hx)
  · intro o ho i
    obtain ⟨x, hx, ho⟩ := List.mem_flatMap.1 ho
    exact (said_ok hG (hks x hx) (htk i) ho).2.2 L hkd

/-! ## A binary entry in CSV format -/

/-- A task that writes a binary entry of 164 letters. -/
def binTask : Task := { pid := 20, tid := 20, sec := 7, nsec := 8, euid := 0, pcomm := ascii "other\x00", tcomm := ascii "other\x00" }

def binEntry : Entry := plainSpec binTask (writerKernel 0x86 (ascii "b") (List.replicate 164 65)).flatten

def binOut : RecvOut :=
  (afterRead true { big := false, mem := binEntry.view 2 } (.data (binEntry.view 2))).getD
    { ret := -1, frame := none, entry := none, stamp := 0, taken := 0 }

theorem binOut_eq : afterRead true { big := false, mem := binEntry.view 2 } (.data (binEntry.view 2)) = some binOut := by decide +kernel

theorem binOut_ptr : binOut.ret = 1 ∧ binOut.frame.isSome = true ∧ binOut.entry.isSome = true ∧
    (∀ f ∈ binOut.frame, ∀ x ∈ binOut.entry, x.isBinary = true ∧ ptrStr f.mem x.message = none) := by decide +kernel

/-- C110 does not extend to CSV: any program may write a binary entry to kmsgd's
device; in CSV format it is received like text (it fills the frame), is taken for
text by `kmsgd_fix_entry`, and looking for its end leaves the frame buffer, whatever
was there before. -/
theorem C110_false_csv : ∃ e : Entry, (∃ t prio tag data, e = plainSpec t (writerKernel prio tag data).flatten) ∧
    ∀ (alloc : Bool) (fresh : Nat → UInt8) (f : RFrame) (r2 : RdRes), f.fresh →
    ∃ o, receive alloc true fresh f (.data (e.view 2)) r2 = some o ∧ o.ret = 1 ∧ ∀ L : Look, L.kmsgd = true → o.shown L = none := by
  refine ⟨binEntry, ⟨_, _, _, _, rfl⟩, fun alloc fresh f r2 hf => ⟨binOut, ?_, binOut_ptr.1, fun L hL => ?_⟩⟩
  · have hl : (binEntry.view 2).length = 200 := by decide +kernel
    obtain ⟨hb, hlen⟩ := hf
    have hlen : f.mem.length = 200 := hlen
    have hr : retries f (.data (binEntry.view 2)) = false := by simp [retries]
    unfold receive
    rw [if_neg (by rw [hr]; simp), ← binOut_eq]
    have hd : f.mem.drop (binEntry.view 2).length = [] := List.drop_of_length_le (by omega)
    have hd2 : (binEntry.view 2).drop (binEntry.view 2).length = [] := List.drop_length
    obtain ⟨big, mem⟩ := f
    dsimp only at hb hlen hd
    subst hb
    generalize binEntry.view 2 = bs at *
    unfold afterRead
    dsimp only
    rw [hd, hd2, if_neg (by omega : ¬ mem.length < bs.length), if_neg (by omega : ¬ bs.length = 0), if_neg (by omega : ¬ bs.length < bs.length)]
  · obtain ⟨_, h2, h3, h4⟩ := binOut_ptr
    unfold RecvOut.shown
    cases hf : binOut.frame with
    | none => rfl
    | some f =>
      cases hx : binOut.entry with
      | none => rfl
      | some x =>
        have := (h4 f hf x hx).2
        dsimp only
        unfold shownOf kernelOf
        rw [if_pos hL, this]
        rfl

end Verif.Tools
