import Verif.Tools.PropsUlogger
import Verif.Ulogcat.PropsSaid

/-!
# From the shell command to the screen (C111)

Programs that log through libulog (C106) and runs of the command `ulogger` (C86-C88),
one after the other in any order, on one device; then the viewer dumps it.
-/
namespace Verif.Tools
open Verif Verif.Kernel Verif.Libulog Verif.Ulogcat

/-- A run of the command: what the clock gives, its name and process number, its
options and arguments, its input, and the task that does the writes. -/
structure Cmd where
  clock : Nat → UInt32 × UInt32
  self : Bytes
  pid : UInt32
  opts : List LgOpt
  args : List Bytes
  input : Bytes
  task : Task

inductive Act
  | said (m : Said)
  | cmd (c : Cmd)

/-- The device is there, the clock works, and no write fails (which the theorem shows
to be so). -/
def Cmd.env (c : Cmd) : LgEnv := { dev := some 0, clock := fun i => some (c.clock i), write := fun _ => none }

/-- What the events of the command are to the driver. -/
def lgOps (t : Task) (junk : Nat → UInt8) : LgEv → List Op
  | .write v => [.write 0 t (userVec v) junk]
  | _ => []

/-- The driver's view of a run: `ulog_raw_open` (libulog/ulog_write_raw.c:32-63), the
writes, and the end of the program. File 0 is free while no viewer runs. -/
def Cmd.ops (junk : Nat → UInt8) (c : Cmd) : List Op :=
  [.openF 0 false true false, .setRaw 0 true (some 1)] ++
    ((ulogger c.env c.self c.pid c.opts c.args c.input).1.flatMap (lgOps c.task junk) ++ [.release 0])

/-- Programs and commands, one after the other. -/
def actAll (P : Nat → Prog) (junk : Nat → UInt8) : (Nat → Lib) → List Act → Except WFault (List Op)
  | _, [] => .ok []
  | libs, .said m :: as => do
    let (s, _, e) ← wstep (P m.prog).nm (P m.prog).env (libs m.prog) m.op
    let ops ← actAll P junk (fun p => if p = m.prog then s else libs p) as
    .ok (e.flatMap (driverOps (m.prog + 1) m.task junk) ++ ops)
  | libs, .cmd c :: as => do
    let ops ← actAll P junk libs as
    .ok (c.ops junk ++ ops)

/-! ## Specification -/

def Cmd.who (c : Cmd) : Who := whoOf c.self c.pid c.opts

/-- The messages that the command line and the input stand for (see C86-C88). -/
inductive Cmd.Says (c : Cmd) : List LgMsg → Prop
  | args (ht : LgOpt.time ∉ c.opts) (hne : c.args ≠ []) :
      c.Says (c.args.zipIdx.map fun p => ((c.clock p.2).1, (c.clock p.2).2, p.1))
  | timedArgs {ms} (ht : LgOpt.time ∈ c.opts) (hne : c.args ≠ []) (h : TimedArgs 0 0 c.args ms) : c.Says ms
  | lines {cs} (ht : LgOpt.time ∉ c.opts) (hn : c.args = []) (hc : Chunks c.input cs) :
      c.Says (cs.zipIdx.map fun p => ((c.clock p.2).1, (c.clock p.2).2, cstr p.1))
  | timedLines {cs ms} (ht : LgOpt.time ∈ c.opts) (hn : c.args = []) (hc : Chunks c.input cs) (h : TimedLines 0 0 cs ms) : c.Says ms

/-- What the message takes in the log. -/
def cmdSize (w : Who) (m : LgMsg) : Nat := 24 + min 4076 (w.name.length + 1 + (4 + (w.tag.length + 1) + (m.2.2.length + 1)))

/-- What is shown of the message. -/
def cmdLines (L : Look) (w : Who) (m : LgMsg) : Bytes :=
  textShown L { sec := int32 m.1, nsec := int32 m.2.1, priority := w.level, pid := int32 w.pid, pname := w.name, tid := int32 w.pid
                tname := w.name, tag := w.tag, isBinary := false, color := 0 } (m.2.2.take (4069 - w.name.length - w.tag.length))

/-- A run that logs: the options do not end it, names are strings that fit an entry. -/
structure Cmd.Plain (c : Cmd) : Prop where
  usual : Usual c.opts
  pid : c.who.pid ≠ 0xffffffff
  name : NoNul c.who.name
  tag : NoNul c.who.tag
  fits : c.who.name.length + c.who.tag.length < 4070
  args : ∀ a ∈ c.args, NoNul a

/-- What one act adds to the screen, and to the log. `says` gives the messages of each
command. -/
def Act.lines (P : Nat → Prog) (says : Cmd → List LgMsg) (L : Look) : Act → Bytes
  | .said m => if m.passes P then m.lines P L else []
  | .cmd c => (says c).flatMap (cmdLines L c.who)

def Act.size (P : Nat → Prog) (says : Cmd → List LgMsg) : Act → Nat
  | .said m => if m.passes P then m.size P else 0
  | .cmd c => ((says c).map (cmdSize c.who)).sum

def Act.count (says : Cmd → List LgMsg) : Act → Nat
  | .said _ => 1
  | .cmd c => (says c).length

def Act.Plain (P : Nat → Prog) (says : Cmd → List LgMsg) : Act → Prop
  | .said m => m.Plain P
  | .cmd c => c.Plain ∧ c.Says (says c)

/-! ## The command -/

theorem Outcome.ok {env : LgEnv} {w : Who} {i : Nat} {ms : List LgMsg} {out : List LgEv × Nat} (h : Outcome env w i ms out)
    (hw : ∀ i, env.write i = none) : out = (ms.flatMap fun m => .write (vecOf w m) :: shown w m.2.2, 0) := by
  rcases h with ⟨_, h⟩ | ⟨pre, m, post, e, _, _, h, _⟩
  · exact h
  · rw [hw] at h; cases h

theorem Cmd.Says.out {c : Cmd} (hp : c.Plain) {ms : List LgMsg} (h : c.Says ms) :
    ulogger c.env c.self c.pid c.opts c.args c.input = (ms.flatMap fun m => .write (vecOf c.who m) :: shown c.who m.2.2, 0) := by
  have hw : ∀ i, c.env.write i = none := fun _ => rfl
  cases h with
  | args ht hne => exact (C86_args c.env (fd := 0) rfl c.self c.pid hp.usual ht hne c.clock (fun _ _ => rfl) hp.pid c.input).ok hw
  | timedArgs ht hne h => exact (C87_args c.env (fd := 0) rfl c.self c.pid hp.usual ht hne h hp.pid c.input).ok hw
  | lines ht hn hc => rw [hn]; exact (C88_lines c.env (fd := 0) rfl c.self c.pid hp.usual ht c.clock hc (fun _ _ => rfl) hp.pid).ok hw
  | timedLines ht hn hc h => rw [hn]; exact (C87_lines c.env (fd := 0) rfl c.self c.pid hp.usual ht hc h hp.pid).ok hw

/-- Every command line and input stands for messages. -/
theorem C111_says (c : Cmd) : ∃ ms, c.Says ms := by
  by_cases hn : c.args = []
  · obtain ⟨cs, hcs⟩ := C88_chunks c.input
    by_cases ht : LgOpt.time ∈ c.opts
    · obtain ⟨ms, h⟩ := C87_lines_total cs 0 0
      exact ⟨ms, .timedLines ht hn hcs h⟩
    · exact ⟨_, .lines ht hn hcs⟩
  · by_cases ht : LgOpt.time ∈ c.opts
    · obtain ⟨ms, h⟩ := C87_args_total c.args.length c.args 0 0 (Nat.le_refl _)
      exact ⟨ms, .timedArgs ht hn h⟩
    · exact ⟨_, .args ht hn⟩

theorem timedArgs_mem {q p : UInt32} {args : List Bytes} {ms : List LgMsg} (h : TimedArgs q p args ms) : ∀ m ∈ ms, m.2.2 ∈ args := by
  induction h <;> grind

theorem timedLine_sub {q p : UInt32} {line : Bytes} {m : LgMsg} (h : TimedLine q p line m) : ∀ b ∈ m.2.2, b ∈ line := by
  have hd : ∀ (l : Bytes), ∀ b ∈ l.dropWhile (· == 32), b ∈ l := fun l b hb => (List.dropWhile_sublist _).subset hb
  cases h with
  | full _ _ _ _ => intro b hb; have := hd _ b hb; simp [this]
  | sec _ _ _ => intro b hb; have := hd _ b hb; simp [this]
  | glued _ _ _ => intro b hb; simp at hb; simp [hb]
  | plain _ => intro b hb; exact hd _ b hb

theorem timedLines_noNul {q p : UInt32} {cs : List Bytes} {ms : List LgMsg} (h : TimedLines q p cs ms) : ∀ m ∈ ms, NoNul m.2.2 := by
  induction h with
  | nil => simp
  | @cons q p c cs m ms h _ ih =>
    intro x hx
    rcases List.mem_cons.1 hx with rfl | hx
    · exact fun b hb => cstr_noNul c b (timedLine_sub h b hb)
    · exact ih x hx

theorem Cmd.Says.noNul {c : Cmd} (hp : c.Plain) {ms : List LgMsg} (h : c.Says ms) : ∀ m ∈ ms, NoNul m.2.2 := by
  cases h with
  | args ht hne =>
    intro m hm
    obtain ⟨⟨a, i⟩, ha, rfl⟩ := List.mem_map.1 hm
    exact hp.args a (List.fst_mem_of_mem_zipIdx ha)
  | timedArgs ht hne h => exact fun m hm => hp.args _ (timedArgs_mem h m hm)
  | lines ht hn hc =>
    intro m hm
    obtain ⟨⟨a, i⟩, ha, rfl⟩ := List.mem_map.1 hm
    exact cstr_noNul a
  | timedLines ht hn hc h => exact timedLines_noNul h

/-! ## The driver -/

/-- The entry of a message. -/
def cmdEntry (w : Who) (m : LgMsg) : Entry := rawSpec (vecOf w m).flatten

theorem cmdEntry_eq (w : Who) (m : LgMsg) : cmdEntry w m =
    { pid := w.pid, tid := w.pid, sec := m.1, nsec := m.2.1, euid := 0
      payload := (w.name ++ 0 :: (le32 (UInt32.ofNat w.level) ++ w.tag ++ 0 :: (m.2.2 ++ [0]))).take 4076 } := by
  unfold cmdEntry
  have : (vecOf w m).flatten = le32 w.pid ++ le32 w.pid ++ le32 m.1 ++ le32 m.2.1 ++ le32 0 ++
      (w.name ++ 0 :: (le32 (UInt32.ofNat w.level) ++ w.tag ++ 0 :: (m.2.2 ++ [0]))) := by simp [vecOf]
  rw [this, rawSpec_header]

theorem cmdEntry_size (w : Who) (m : LgMsg) : (cmdEntry w m).size = cmdSize w m := by
  rw [cmdEntry_eq]
  unfold Entry.size cmdSize
  dsimp only
  rw [List.length_take]
  simp only [List.length_append, List.length_cons, le32_length, List.length_nil]
  omega

theorem cmdEntry_text {w : Who} {m : LgMsg} (hn : NoNul w.name) (ht : NoNul w.tag) (hx : NoNul m.2.2) (hlv : w.level < 8)
    (hfit : w.name.length + w.tag.length < 4070) {L : Look} (hk : L.kmsgd = false) : entryText L (cmdEntry w m) = cmdLines L w m := by
  have hcut : ∀ (a b : Bytes) (n : Nat), a.length ≤ n → (a ++ b).take n = a ++ b.take (n - a.length) := by
    intro a b n h
    rw [List.take_append, List.take_of_length_le h]
  have hlt : (UInt32.ofNat w.level).toNat = w.level := by
    rw [UInt32.toNat_ofNat']; exact Nat.mod_eq_of_lt (by omega)
  have hp : (w.name ++ 0 :: (le32 (UInt32.ofNat w.level) ++ w.tag ++ 0 :: (m.2.2 ++ [0]))).take 4076 =
      w.name ++ 0 :: (le32 (UInt32.ofNat w.level) ++ w.tag ++ 0 :: (m.2.2 ++ [0]).take (4070 - w.name.length - w.tag.length)) := by
    have : w.name ++ 0 :: (le32 (UInt32.ofNat w.level) ++ w.tag ++ 0 :: (m.2.2 ++ [0])) =
        (w.name ++ 0 :: (le32 (UInt32.ofNat w.level) ++ w.tag ++ [0])) ++ (m.2.2 ++ [0]) := by simp
    rw [this, hcut _ _ _ (by simp only [List.length_append, List.length_cons, le32_length, List.length_nil]; omega)]
    have hl : 4076 - (w.name ++ 0 :: (le32 (UInt32.ofNat w.level) ++ w.tag ++ [0])).length = 4070 - w.name.length - w.tag.length := by
      simp only [List.length_append, List.length_cons, le32_length, List.length_nil]; omega
    rw [hl]
    simp
  obtain ⟨h1, h2⟩ := clip_take hx (n := 4070 - w.name.length - w.tag.length) (by omega)
  have hd : decode ((cmdEntry w m).pid != (cmdEntry w m).tid) (cmdEntry w m).payload =
      { pname := w.name, tname := w.name, tag := w.tag, level := w.level, color := 0
        msg := .text (m.2.2.take (4069 - w.name.length - w.tag.length)) } := by
    rw [cmdEntry_eq, hp]
    dsimp only
    rw [show (w.pid != w.pid) = false by simp, decode_one hn, decodeBody_prio ht, if_neg (by unfold prioBinary; rw [hlt]; simp; omega),
      if_neg h1, h2]
    simp only [prioLevel, prioColor, hlt]
    rw [Nat.mod_eq_of_lt hlv, Nat.div_eq_of_lt (by omega), show 4070 - w.name.length - w.tag.length - 1 = 4069 - w.name.length - w.tag.length by omega]
  have := entryText_of L hk hd
  rw [this, cmdEntry_eq]
  rfl

theorem astep_rawWrite {a : ASys} (h : a.files 0 = some { rd := false, wr := true, raw := true }) (t : Task) {v : List Bytes}
    (junk : Nat → UInt8) (hv : 20 < v.flatten.length) : ∃ l n, astep a (.write 0 t (userVec v) junk) = ({ a with log := l }, .ret n) ∧ n ≠ 0 := by
  simp only [astep, Op.fid, h, astepFile, if_true]
  have hlen : (userVec v).data.length = v.flatten.length := by
    have := congrArg List.length (userVec_bytes v)
    rw [Iter.bytes, List.length_map] at this
    exact this
  rcases awrite_cases a.log true t (userVec v) with ⟨_, _, h2⟩ | ⟨_, _, h2⟩ | ⟨e, n, h1, _, _, h4, _⟩ | ⟨e, n, _, _, _, _, _, h1⟩
  · omega
  · omega
  · rw [h1]
    refine ⟨_, n, rfl, ?_⟩
    rw [h4, if_pos rfl]
    omega
  · exfalso
    have : ∀ b ∈ (userVec v).data, b.isSome = true := by
      intro b hb
      simp only [userVec, Iter.data, List.mem_flatten, List.mem_map] at hb
      obtain ⟨l, ⟨x, _, rfl⟩, hb⟩ := hb
      obtain ⟨y, _, rfl⟩ := List.mem_map.1 hb
      rfl
    rw [List.all_eq_false] at h1
    obtain ⟨b, hb, hn⟩ := h1
    exact hn (this b (List.mem_of_mem_take hb))

/-- Files other than file 0 and the account of them do not change, all writes are taken. -/
theorem cmd_writes (name : Bytes) (t : Task) (junk : Nat → UInt8) (w : Who) : ∀ (ms : List LgMsg) (a : ASys) (o : Obs),
    a.files 0 = some { rd := false, wr := true, raw := true } → o.raw 0 = true →
    ∃ l, (arun a (ms.map fun m => .write 0 t (userVec (vecOf w m)) junk)).1 = { a with log := l } ∧
      (∀ p ∈ (arun a (ms.map fun m => .write 0 t (userVec (vecOf w m)) junk)).2, ∃ n, p.2 = .ret n) ∧
      (arun a (ms.map fun m => .write 0 t (userVec (vecOf w m)) junk)).2.foldl (obsStep name) o =
        { o with hist := o.hist ++ ms.map (cmdEntry w) } := by
  intro ms
  induction ms with
  | nil => intro a o _ _; exact ⟨a.log, rfl, by simp [arun], by simp [arun]⟩
  | cons m ms ih =>
    intro a o hf hr
    obtain ⟨l, n, h1, h2⟩ := astep_rawWrite hf t (v := vecOf w m) junk (by simp [vecOf, le32]; omega)
    obtain ⟨l', i1, i2, i3⟩ := ih { a with log := l } { o with hist := o.hist ++ [cmdEntry w m] } hf hr
    simp only [List.map_cons, arun, h1]
    refine ⟨l', i1, ?_, ?_⟩
    · intro p hp
      rcases List.mem_cons.1 hp with rfl | hp
      · exact ⟨n, rfl⟩
      · exact i2 p hp
    · rw [List.foldl_cons]
      have : obsStep name o (.write 0 t (userVec (vecOf w m)) junk, .ret n) = { o with hist := o.hist ++ [cmdEntry w m] } := by
        simp only [obsStep, hr, if_true, if_neg h2, userVec_bytes]
        rfl
      rw [this, i3]
      simp

/-- A run of the command. -/
theorem cmd_run (name : Bytes) (junk : Nat → UInt8) {c : Cmd} (hp : c.Plain) {ms : List LgMsg} (h : c.Says ms) {libs : Nat → Lib} {a : ASys} {o : Obs}
    (hF : FilesOk libs a) (hO : ObsOk o) :
    (∀ op ∈ c.ops junk, op.supported = true) ∧ FilesOk libs (arun a (c.ops junk)).1 ∧ ObsOk ((arun a (c.ops junk)).2.foldl (obsStep name) o) ∧
      ((arun a (c.ops junk)).2.foldl (obsStep name) o).hist = o.hist ++ ms.map (cmdEntry c.who) ∧
      ∀ p ∈ (arun a (c.ops junk)).2, ∀ e, p.2 ≠ .err e := by
  have hev : (ulogger c.env c.self c.pid c.opts c.args c.input).1.flatMap (lgOps c.task junk) =
      ms.map fun m => .write 0 c.task (userVec (vecOf c.who m)) junk := by
    rw [h.out hp]
    dsimp only
    clear h
    induction ms with
    | nil => rfl
    | cons m ms ih =>
      rw [List.flatMap_cons, List.flatMap_append, ih, List.map_cons, List.flatMap_cons]
      have : (shown c.who m.2.2).flatMap (lgOps c.task junk) = [] := by unfold shown; split <;> rfl
      rw [this]
      rfl
  have hops : c.ops junk = [.openF 0 false true false, .setRaw 0 true (some 1)] ++
      ((ms.map fun m => .write 0 c.task (userVec (vecOf c.who m)) junk) ++ [.release 0]) := by unfold Cmd.ops; rw [hev]
  have s1 : astep a (.openF 0 false true false) = (a.setFile 0 (some { rd := false, wr := true, raw := false }), .ok) := by
    simp only [astep, Op.fid, hF.viewer]
    rfl
  have s2 : astep (a.setFile 0 (some { rd := false, wr := true, raw := false })) (.setRaw 0 true (some 1)) =
      ((a.setFile 0 (some { rd := false, wr := true, raw := false })).setFile 0 (some { rd := false, wr := true, raw := true }), .ok) := by
    simp only [astep, Op.fid, ASys.setFile, if_true, astepFile]
    rfl
  generalize hb : (a.setFile 0 (some { rd := false, wr := true, raw := false })).setFile 0 (some { rd := false, wr := true, raw := true }) = b at s2
  have hb0 : b.files 0 = some { rd := false, wr := true, raw := true } := by rw [← hb]; simp [ASys.setFile]
  have hbn : ∀ p, b.files (p + 1) = a.files (p + 1) := by intro p; rw [← hb]; simp [ASys.setFile]
  obtain ⟨l, w1, w2, w3⟩ := cmd_writes name c.task junk c.who ms b { o with raw := upd o.raw 0 true, rds := upd o.rds 0 none } hb0 (by simp [upd])
  have s4 : astep { b with log := l } (.release 0) = (({ b with log := l } : ASys).setFile 0 none, .ok) := by
    simp only [astep, Op.fid, hb0, astepFile]
    rfl
  have har : arun a (c.ops junk) = (({ b with log := l } : ASys).setFile 0 none,
      (.openF 0 false true false, .ok) :: (.setRaw 0 true (some 1), .ok) ::
        ((arun b (ms.map fun m => .write 0 c.task (userVec (vecOf c.who m)) junk)).2 ++ [(.release 0, .ok)])) := by
    rw [hops]
    simp only [List.cons_append, List.nil_append, arun, s1, s2, arun_append, w1, s4]
  have hobs : (arun a (c.ops junk)).2.foldl (obsStep name) o =
      { o with raw := upd o.raw 0 true, hist := o.hist ++ ms.map (cmdEntry c.who), rds := upd o.rds 0 none } := by
    rw [har]
    simp only [List.foldl_cons, List.foldl_append, List.foldl_nil]
    have : obsStep name (obsStep name o (.openF 0 false true false, .ok)) (.setRaw 0 true (some 1), .ok) =
        { o with raw := upd o.raw 0 true, rds := upd o.rds 0 none } := by
      simp only [obsStep, Bool.false_eq_true, if_false]
      congr 1
      funext i
      simp only [upd]
      split <;> simp
    rw [this, w3]
    simp only [obsStep]
    congr 1
    funext i
    simp only [upd]
    split <;> rfl
  refine ⟨?_, ?_, ?_, ?_, ?_⟩
  · intro op hop
    rw [hops] at hop
    simp only [List.cons_append, List.nil_append, List.mem_cons, List.mem_append, List.not_mem_nil, or_false, List.mem_map] at hop
    rcases hop with rfl | rfl | ⟨m, _, rfl⟩ | rfl
    · rfl
    · rfl
    · rfl
    · rfl
  · rw [har]
    refine ⟨by simp [ASys.setFile], fun p hi => ?_, fun p hi => ?_⟩
    · have := hF.fresh p hi
      simp only [ASys.setFile, Nat.add_eq_zero_iff, Nat.one_ne_zero, and_false, if_false]
      rw [hbn]; exact this
    · have := hF.opened p hi
      simp only [ASys.setFile, Nat.add_eq_zero_iff, Nat.one_ne_zero, and_false, if_false]
      rw [hbn]; exact this
  · rw [hobs]
    refine ⟨fun p => ?_, hO.base⟩
    have := hO.raw p
    simpa [upd] using this
  · rw [hobs]
  · intro p hp' e
    rw [har] at hp'
    simp only [List.mem_cons, List.mem_append, List.not_mem_nil, or_false] at hp'
    rcases hp' with rfl | rfl | hp' | rfl
    · simp
    · simp
    · obtain ⟨n, hn⟩ := w2 p hp'
      rw [hn]; simp
    · simp

/-! ## The property -/

def Act.entries (P : Nat → Prog) (says : Cmd → List LgMsg) : Act → List Entry
  | .said m => if m.passes P then [m.entry P] else []
  | .cmd c => (says c).map (cmdEntry c.who)

theorem act_all {D : Bytes} {P : Nat → Prog} (hP : ∀ p, (P p).Plain D) (says : Cmd → List LgMsg) (name : Bytes) (junk : Nat → UInt8) (as : List Act)
    (has : ∀ x ∈ as, x.Plain P says) : ∀ {libs : Nat → Lib} {a : ASys} {o : Obs}, (∀ p, LibOk (P p) (libs p)) → FilesOk libs a → ObsOk o →
    ∃ ops, actAll P junk libs as = .ok ops ∧ (∀ op ∈ ops, op.supported = true) ∧ (arun a ops).1.files 0 = none ∧
      ObsOk ((arun a ops).2.foldl (obsStep name) o) ∧
      ((arun a ops).2.foldl (obsStep name) o).hist = o.hist ++ as.flatMap (·.entries P says) ∧
      ∀ p ∈ (arun a ops).2, ∀ e, p.2 ≠ .err e := by
  induction as with
  | nil =>
    intro libs a o _ hF hO
    exact ⟨[], rfl, by simp, hF.viewer, hO, by simp [arun], by simp [arun]⟩
  | cons x as ih =>
    intro libs a o hL hF hO
    have has' : ∀ x ∈ as, x.Plain P says := fun y hy => has y (by simp [hy])
    cases x with
    | said m =>
      obtain ⟨s', e, e1, g1, g2, g3, g4, g5, g6⟩ := say_one hP name junk m hL hF hO
      obtain ⟨ops, i1, i2, i3, i4, i5, i6⟩ := ih has' g1 g3 g4
      refine ⟨e.flatMap (driverOps (m.prog + 1) m.task junk) ++ ops, ?_, ?_, ?_, ?_, ?_, ?_⟩
      rotate_left
      · exact fun op hop => (List.mem_append.1 hop).elim (g2 op) (i2 op)
      · rw [arun_append]; exact i3
      · rw [arun_append, List.foldl_append]; exact i4
      · rw [arun_append, List.foldl_append, i5, g5, List.append_assoc]
        rfl
      · rw [arun_append]
        exact fun p hp => (List.mem_append.1 hp).elim (g6 p) (i6 p)
      · unfold actAll
        rw [e1]
        simp only [bind, Except.bind]
        rw [i1]
    | cmd c =>
      obtain ⟨hc, hs⟩ := has (.cmd c) (by simp)
      obtain ⟨g2, g3, g4, g5, g6⟩ := cmd_run name junk hc hs hF hO
      obtain ⟨ops, i1, i2, i3, i4, i5, i6⟩ := ih has' hL g3 g4
      refine ⟨c.ops junk ++ ops, ?_, ?_, ?_, ?_, ?_, ?_⟩
      rotate_left
      · exact fun op hop => (List.mem_append.1 hop).elim (g2 op) (i2 op)
      · rw [arun_append]; exact i3
      · rw [arun_append, List.foldl_append]; exact i4
      · rw [arun_append, List.foldl_append, i5, g5, List.append_assoc]
        rfl
      · rw [arun_append]
        exact fun p hp => (List.mem_append.1 hp).elim (g6 p) (i6 p)
      · unfold actAll
        simp only [bind, Except.bind]
        rw [i1]

theorem Act.entries_size (P : Nat → Prog) (says : Cmd → List LgMsg) (x : Act) : bytesLen (x.entries P says) = x.size P says := by
  cases x with
  | said m =>
    unfold Act.entries Act.size
    dsimp only
    split
    · simp [bytesLen, Said.entry_size]
    · rfl
  | cmd c =>
    unfold Act.entries Act.size bytesLen
    dsimp only
    rw [List.map_map]
    congr 1
    exact List.map_congr_left fun m _ => cmdEntry_size c.who m

theorem acts_bytes (P : Nat → Prog) (says : Cmd → List LgMsg) (as : List Act) :
    bytesLen (as.flatMap (·.entries P says)) = (as.map (·.size P says)).sum := by
  induction as with
  | nil => rfl
  | cons x as ih =>
    rw [List.flatMap_cons, List.map_cons, List.sum_cons, ← ih, ← Act.entries_size]
    simp [bytesLen]

theorem Act.entries_text {P : Nat → Prog} {says : Cmd → List LgMsg} {x : Act} (h : x.Plain P says) {L : Look} (hk : L.kmsgd = false) :
    (x.entries P says).flatMap (entryText L) = x.lines P says L := by
  cases x with
  | said m =>
    unfold Act.entries Act.lines
    dsimp only
    split
    · rw [List.flatMap_cons, List.flatMap_nil, List.append_nil, Said.entry_text h hk]
    · rfl
  | cmd c =>
    unfold Act.entries Act.lines
    dsimp only
    rw [Ulogcat.flatMap_map]
    obtain ⟨hc, hs⟩ := h
    exact flatMap_congr' fun m hm => cmdEntry_text hc.name hc.tag (hs.noNul hc m hm) (whoOf_level ..) hc.fits hk

/-- C111. Programs and commands log, then the viewer dumps the device. -/
theorem C111_shell {D : Bytes} {P : Nat → Prog} (hP : ∀ p, (P p).Plain D) {says : Cmd → List LgMsg} {as : List Act}
    (has : ∀ x ∈ as, x.Plain P says) (junk : Nat → UInt8) {name : Bytes} {k : Nat} (buf : Nat → UInt8) (hk : 14 ≤ k) (hname : name.length ≤ 89)
    (hcount : (as.map (·.count says)).sum < 2147483648) (hroom : (as.map (·.size P says)).sum + 8200 ≤ 2 ^ k) {L : Look} (hkd : L.kmsgd = false) :
    ∃ ops sys tr m, actAll P junk (fun _ => .start) as = .ok ops ∧
      Kernel.run (Kernel.init name k buf) (ops ++ [.openF 0 true false true, .getLogLen 0]) = .ok (sys, tr ++ [(.getLogLen 0, .ret m)]) ∧
      (∀ p ∈ tr, ∀ e, p.2 ≠ .err e) ∧
      Dumps L sys tr m (as.map (·.count says)).sum fun bs => bs = as.flatMap (·.lines P says L) := by
  obtain ⟨ops, h1, h2, h3, h4, h5, h6⟩ := act_all hP says name junk as has (libs := fun _ => .start) (a := ainit name k) (o := Obs.init)
    (fun p => ⟨rfl, rfl, fun c => .inl (by show (-1 : Int) < 0; decide), .inl rfl⟩) ⟨rfl, fun _ _ => rfl, fun _ h => absurd rfl h⟩ ⟨fun _ => rfl, rfl⟩
  have hlog : Logged name k ops (as.flatMap (·.entries P says)) := ⟨h2, h3, h4.base, h5⟩
  have hgen : Genuine (as.flatMap (·.entries P says)) := by
    intro e he
    obtain ⟨x, hx, he⟩ := List.mem_flatMap.1 he
    have hpl := has x hx
    cases x with
    | said m =>
      unfold Act.entries at he
      dsimp only at he
      split at he
      · rw [List.mem_singleton.1 he]
        exact hpl.task
      · simp at he
    | cmd c =>
      obtain ⟨m, _, rfl⟩ := List.mem_map.1 he
      rw [cmdEntry_eq]
      exact fun h => hpl.1.pid h.1
  have hle : ∀ as : List Act, (as.flatMap (·.entries P says)).length ≤ (as.map (·.count says)).sum := by
    intro as
    induction as with
    | nil => simp
    | cons x as ih =>
      rw [List.flatMap_cons, List.length_append, List.map_cons, List.sum_cons]
      have : (x.entries P says).length ≤ x.count says := by
        cases x with
        | said m => unfold Act.entries Act.count; dsimp only; split <;> simp
        | cmd c => simp [Act.entries, Act.count]
      omega
  have hle := hle as
  obtain ⟨sys, tr, m, g0, g1, g2⟩ := hlog.screen buf hk hname hgen (by omega) (L := L) (by simp [hkd])
  refine ⟨ops, sys, tr, m, h1, g1, ?_, fun euid n fuel hfuel buf0 hb paths ans hans => ?_⟩
  · rw [g0]
    intro p hp e
    rcases List.mem_append.1 hp with hp | hp
    · exact h6 p hp e
    · rw [List.mem_singleton.1 hp]; simp
  · obtain ⟨all, c, t, e1, e2, _, e3⟩ := g2 euid n fuel (by omega) hb (paths := paths) hans
    refine ⟨all, c, t, e1, e2, (e3 (by rw [acts_bytes]; exact hroom)).trans ?_⟩
    rw [List.flatMap_assoc]
    exact flatMap_congr' fun x hx => Act.entries_text (has x hx) hkd

end Verif.Tools
