import Verif.Ulogcat.Alone
import Verif.Libulog.PropsWrite

/-!
# From the logging calls of programs to the screen (C106)

Libulog in any number of processes (`wstep`), the driver (`Kernel.run`), the viewer's
loop over the driver (`driverWorld`) and its output (`onto`), put together. The
processes log one call at a time, before the viewer opens the device.
-/
namespace Verif.Ulogcat
open Verif Verif.Kernel Verif.Libulog

/-! ## Programs that log -/

/-- A process: its environment and the names of its tags. -/
structure Prog where
  env : Libulog.World
  nm : Cid → Bytes

/-- A call of `ulog_log_str` (`whole`) or `ulog_log` by a thread of process `prog`. -/
structure Said where
  prog : Nat
  task : Task
  tag : Cid
  prio : UInt32
  text : Bytes
  whole : Bool

def Said.op (m : Said) : WOp := if m.whole then .str m.prio m.tag m.text else .log m.prio m.tag (some m.text)

/-- What the library's events are to the driver; `fid` is the process' descriptor
(libulog/ulog_write.c:187, 101). -/
def driverOps (fid : Nat) (t : Task) (junk : Nat → UInt8) : Ev → List Op
  | .opened _ => [.openF fid false true false]
  | .writev (some _) v => [.write fid t (userVec v) junk]
  | _ => []

/-- The processes log one message after the other; each has its own copy of the
library. Process `p` uses file `p + 1`. -/
def sayAll (P : Nat → Prog) (junk : Nat → UInt8) : (Nat → Lib) → List Said → Except WFault (List Op)
  | _, [] => .ok []
  | libs, m :: ms => do
    let (s, _, e) ← wstep (P m.prog).nm (P m.prog).env (libs m.prog) m.op
    let ops ← sayAll P junk (fun p => if p = m.prog then s else libs p) ms
    .ok (e.flatMap (driverOps (m.prog + 1) m.task junk) ++ ops)

/-! ## Specification -/

/-- The level of a tag in an environment. -/
def envLevel (P : Prog) (c : Cid) : Int :=
  match (if P.nm c = [] then none else P.env.getenv (ascii "ULOG_LEVEL_" ++ (P.nm c).take 68)), P.env.getenv (ascii "ULOG_LEVEL") with
  | some v, _ => levelOf (v.headD 0)
  | none, some v => levelOf (v.headD 0)
  | none, none => 6

/-- The message is let through. -/
def Said.passes (P : Nat → Prog) (m : Said) : Bool := decide (((m.prio.toNat % 8 : Nat) : Int) ≤ envLevel (P m.prog) m.tag)

/-- The text that is logged. -/
def Said.kept (m : Said) : Bytes := if m.whole then m.text else m.text.take 255

def Said.name (P : Nat → Prog) (m : Said) : Bytes := (P m.prog).nm m.tag

/-- What the message takes in the log: entries are limited to 4100 bytes. -/
def Said.size (P : Nat → Prog) (m : Said) : Nat :=
  24 + min 4076 (prefixLen m.task + (4 + ((m.name P).length + 1) + (m.kept.length + 1)))

/-- What is shown of the message; a text longer than an entry is cut. -/
def Said.lines (P : Nat → Prog) (L : Look) (m : Said) : Bytes :=
  textShown L (taskInfo m.task m.prio (m.name P) false) (m.kept.take (4070 - prefixLen m.task - (m.name P).length))

/-- The device that the environment asks for. -/
def Prog.device (P : Prog) : Bytes :=
  match P.env.getenv (ascii "ULOG_DEVICE") with
  | none => ascii "/dev/ulog_main"
  | some d => (ascii "/dev/ulog_" ++ d).take 31

/-- An ordinary process that logs to device `D`: the device is there, and the
environment asks for nothing else but levels. -/
structure Prog.Plain (D : Bytes) (P : Prog) : Prop where
  default : P.nm 0 = []
  stderr : P.env.getenv (ascii "ULOG_STDERR") = none
  device : P.device = D
  opens : ∃ n, P.env.openDev D = some n

/-- An ordinary message: text, with a tag that fits an entry. -/
structure Said.Plain (P : Nat → Prog) (m : Said) : Prop where
  tag : NoNul (m.name P)
  text : NoNul m.text
  bin : prioBinary m.prio = false
  fits : prefixLen m.task + (4 + (m.name P).length + 1) < 4076
  task : ¬ (m.task.pid = 0xffffffff ∧ m.task.tid = 0xffffffff)

/-! ## The library -/

def Said.vec (P : Nat → Prog) (m : Said) : List Bytes := writerKernel m.prio (m.name P) (m.kept ++ [0])

/-- The library of a process between two messages. -/
structure LibOk (P : Prog) (s : Lib) : Prop where
  hook : s.hook = none
  device : s.device = none
  level : ∀ c, s.level c < 0 ∨ s.level c = envLevel P c
  writer : s.writer = .init ∨ (s.writer = .kernel ∧ ∃ n, s.fd = some n)

theorem levelOf_nonneg (b : UInt8) : 0 ≤ levelOf b := by rw [← parseLevel_eq]; omega

theorem envLevel_nonneg (P : Prog) (c : Cid) : 0 ≤ envLevel P c := by
  unfold envLevel
  split
  · exact levelOf_nonneg _
  · exact levelOf_nonneg _
  · decide

theorem firstLevel_env {D : Bytes} {P : Prog} (hP : P.Plain D) {s : Lib} (h : LibOk P s) (c : Cid) : firstLevel P.nm P.env s c = envLevel P c := by
  have htake : (ascii "ULOG_LEVEL_" ++ P.nm c).take 79 = ascii "ULOG_LEVEL_" ++ (P.nm c).take 68 := by
    rw [List.take_append]
    rfl
  have hnn : ∀ b, ¬ levelOf b < 0 := fun b => by have := levelOf_nonneg b; omega
  have h0 : P.env.getenv (ascii "ULOG_LEVEL") = none → s.level 0 ≥ 0 → s.level 0 = 6 := by
    intro hn hz
    rcases h.level 0 with hl | hl
    · omega
    · rw [hl]
      unfold envLevel
      rw [if_pos hP.default, hn]
  unfold firstLevel firstByte envLevel
  simp only [htake, parseLevel_eq]
  by_cases hn : P.nm c = []
  · simp only [hn, ne_eq, not_true_eq_false, if_false, if_true]
    rw [if_pos (by omega : (-1 : Int) < 0)]
    cases hu : P.env.getenv (ascii "ULOG_LEVEL") with
    | none =>
      have h0 := h0 hu
      simp only
      (repeat' split) <;> omega
    | some v =>
      have := hnn (v.headD 0)
      simp only
      rw [if_neg (by omega), if_neg (by omega)]
  · simp only [hn, ne_eq, not_false_eq_true, if_false, if_true]
    cases P.env.getenv (ascii "ULOG_LEVEL_" ++ (P.nm c).take 68) with
    | some v =>
      have := hnn (v.headD 0)
      simp only
      rw [if_neg this, if_neg (by omega), if_neg (by omega)]
    | none =>
      simp only
      rw [if_pos (by omega : (-1 : Int) < 0)]
      cases hu : P.env.getenv (ascii "ULOG_LEVEL") with
      | none =>
        have h0 := h0 hu
        simp only
        (repeat' split) <;> omega
      | some v =>
        have := hnn (v.headD 0)
        simp only
        rw [if_neg (by omega), if_neg (by omega)]

/-- One message in one process. -/
theorem say_step {D : Bytes} {P : Nat → Prog} {m : Said} (hP : (P m.prog).Plain D) {s : Lib} (h : LibOk (P m.prog) s) :
    ∃ s' e, wstep (P m.prog).nm (P m.prog).env s m.op = .ok (s', .unit, e) ∧ LibOk (P m.prog) s' ∧
      ((m.passes P = false ∧ s'.writer = s.writer ∧ e = []) ∨
       (m.passes P = true ∧ s'.writer = .kernel ∧ ∃ n, e = (if s.writer = .init then [.opened n] else []) ++ [.writev (some n) (m.vec P)])) := by
  have hop : wstep (P m.prog).nm (P m.prog).env s m.op =
      logOn (P m.prog).nm (P m.prog).env s m.prio m.tag (some (m.kept ++ [0])) := by
    unfold Said.op Said.kept
    cases m.whole <;> rfl
  have hens : ∃ s1, ensureInit (P m.prog).nm (P m.prog).env s m.tag = (s1, []) ∧ LibOk (P m.prog) s1 ∧
      s1.level m.tag = envLevel (P m.prog) m.tag ∧ s1.writer = s.writer ∧ s1.fd = s.fd := by
    unfold ensureInit
    by_cases hl : s.level m.tag < 0
    · rw [if_pos hl]
      unfold initCookie
      dsimp only
      rw [if_pos hl, show hookEv s m.tag = [] by unfold hookEv; rw [h.hook]; rfl]
      refine ⟨_, rfl, ⟨h.hook, h.device, ?_, h.writer⟩, ?_, rfl, rfl⟩
      · intro c
        dsimp only
        by_cases hc : c = m.tag
        · rw [if_pos hc, hc]; exact .inr (firstLevel_env hP h m.tag)
        · rw [if_neg hc]; exact h.level c
      · dsimp only
        rw [if_pos rfl]
        exact firstLevel_env hP h m.tag
    · rw [if_neg hl]
      refine ⟨s, rfl, h, ?_, rfl, rfl⟩
      rcases h.level m.tag with h1 | h1
      · exact absurd h1 hl
      · exact h1
  obtain ⟨s1, e1, h1, l1, w1, f1⟩ := hens
  rw [hop]
  unfold logOn
  rw [e1]
  dsimp only
  rw [l1]
  by_cases hp : ((m.prio.toNat % 8 : Nat) : Int) ≤ envLevel (P m.prog) m.tag
  · rw [if_pos hp]
    have hpass : m.passes P = true := decide_eq_true hp
    rcases h.writer with hw | ⟨hw, n, hn⟩
    · obtain ⟨n, hn⟩ := hP.opens
      have hch : devChoice (P m.prog).env s1 = D := by
        rw [← hP.device]
        unfold devChoice Prog.device Libulog.devPath
        rw [h1.device]
        cases (P m.prog).env.getenv (ascii "ULOG_DEVICE") <;> rfl
      refine ⟨{ s1 with fd := some n, writer := .kernel }, [.opened n, .writev (some n) (m.vec P)], ?_,
        ⟨h1.hook, h1.device, h1.level, .inr ⟨rfl, n, rfl⟩⟩, .inr ⟨hpass, rfl, n, by rw [if_pos hw]; rfl⟩⟩
      unfold deliver
      rw [w1, hw]
      simp only [callWriter, w1, hw, if_true, ctrlInit, hch, hn, hP.stderr, Option.isSome_some, Option.isSome_none, Bool.false_eq_true,
        false_or, reduceCtorEq, if_false, bind, Except.bind, Option.toList_some, List.map_cons, List.map_nil]
      rfl
    · refine ⟨s1, [.writev (some n) (m.vec P)], ?_, h1, .inr ⟨hpass, w1.trans hw, n, ?_⟩⟩
      · unfold deliver
        rw [w1, hw]
        simp only [callWriter, bind, Except.bind, f1, hn]
        rfl
      · rw [if_neg (by rw [hw]; simp)]; rfl
  · rw [if_neg hp]
    exact ⟨s1, [], rfl, h1, .inl ⟨decide_eq_false hp, w1, rfl⟩⟩

/-! ## The driver -/

def Said.entry (P : Nat → Prog) (m : Said) : Entry := plainSpec m.task (m.vec P).flatten

/-- Each process has the device open once its library has opened it; the viewer has not
(or file 0 is as `v` says). -/
structure FilesOk (libs : Nat → Lib) (a : ASys) (v : Option File := none) : Prop where
  viewer : a.files 0 = v
  fresh : ∀ p, (libs p).writer = .init → a.files (p + 1) = none
  opened : ∀ p, (libs p).writer ≠ .init → a.files (p + 1) = some { rd := false, wr := true, raw := false }

theorem astep_write {a : ASys} {fid : Nat} (h : a.files fid = some { rd := false, wr := true, raw := false }) (t : Task) (v : List Bytes)
    (junk : Nat → UInt8) : ∃ l n, astep a (.write fid t (userVec v) junk) = ({ a with log := l }, .ret n) := by
  simp only [astep, Op.fid, h, astepFile, if_true]
  rcases awrite_cases a.log false t (userVec v) with ⟨_, h1, _⟩ | ⟨_, h1, _⟩ | ⟨e, n, h1, _⟩ | ⟨e, n, _, _, _, _, _, h1⟩
  · cases h1
  · cases h1
  · rw [h1]; exact ⟨_, n, rfl⟩
  · exfalso
    have : ∀ b ∈ (userVec v).data, b.isSome = true := by
      intro b hb
      simp only [userVec, Iter.data, List.mem_flatten, List.mem_map] at hb
      obtain ⟨l, ⟨x, _, rfl⟩, hb⟩ := hb
      obtain ⟨y, _, rfl⟩ := List.mem_map.1 hb
      rfl
    rw [List.all_eq_false] at h1
    obtain ⟨b, hb, hn⟩ := h1
    exact hn (this b (List.mem_of_mem_take hb))

theorem arun_append (l r : List Op) : ∀ a : ASys, arun a (l ++ r) =
    ((arun (arun a l).1 r).1, (arun a l).2 ++ (arun (arun a l).1 r).2) := by
  induction l with
  | nil => intro a; rfl
  | cons o l ih => intro a; simp only [List.cons_append, arun, ih]

/-- What the account has of the processes: no file in raw mode, nobody reads, nothing
was flushed. -/
structure ObsOk (o : Obs) : Prop where
  raw : ∀ p, o.raw (p + 1) = false
  base : o.base = 0

/-- What a process does with a message reaches the driver: the message is committed if
it is let through (`pass`). -/
theorem write_one {P : Nat → Prog} (name : Bytes) (junk : Nat → UInt8) (m : Said)
    {libs : Nat → Lib} {a : ASys} {o : Obs} {v : Option File} (hF : FilesOk libs a v) (hO : ObsOk o) {pass : Bool} {s' : Lib} {e : List Ev}
    (hcase : (pass = false ∧ s'.writer = (libs m.prog).writer ∧ e = []) ∨
       (pass = true ∧ s'.writer = .kernel ∧ ∃ n, e = (if (libs m.prog).writer = .init then [.opened n] else []) ++ [.writev (some n) (m.vec P)])) :
    (∀ op ∈ e.flatMap (driverOps (m.prog + 1) m.task junk), op.supported = true) ∧
      FilesOk (fun p => if p = m.prog then s' else libs p) (arun a (e.flatMap (driverOps (m.prog + 1) m.task junk))).1 v ∧
      ObsOk ((arun a (e.flatMap (driverOps (m.prog + 1) m.task junk))).2.foldl (obsStep name) o) ∧
      ((arun a (e.flatMap (driverOps (m.prog + 1) m.task junk))).2.foldl (obsStep name) o).hist =
        (o.hist ++ if pass then [m.entry P] else []) ∧
      ∀ p ∈ (arun a (e.flatMap (driverOps (m.prog + 1) m.task junk))).2, ∀ x, p.2 ≠ .err x := by
  rcases hcase with ⟨hp, hw, rfl⟩ | ⟨hp, hw, n, he⟩
  · refine ⟨by simp, ⟨hF.viewer, ?_, ?_⟩, hO, by rw [if_neg (by rw [hp]; simp), List.append_nil]; rfl, by simp [arun]⟩
    · intro p
      by_cases hx : p = m.prog
      · subst hx; rw [if_pos rfl, hw]; exact hF.fresh _
      · rw [if_neg hx]; exact hF.fresh p
    · intro p
      by_cases hx : p = m.prog
      · subst hx; rw [if_pos rfl, hw]; exact hF.opened _
      · rw [if_neg hx]; exact hF.opened p
  · rw [if_pos hp]
    have hbytes : (userVec (m.vec P)).bytes = (m.vec P).flatten := userVec_bytes _
    have hFn : ∀ (b : ASys), b.files 0 = v → (∀ p, p ≠ m.prog → b.files (p + 1) = a.files (p + 1)) →
        b.files (m.prog + 1) = some { rd := false, wr := true, raw := false } →
        FilesOk (fun p => if p = m.prog then s' else libs p) b v := by
      intro b b1 b2 b3
      refine ⟨b1, fun p => ?_, fun p => ?_⟩
      · by_cases hx : p = m.prog
        · rw [if_pos hx, hw]; intro h; cases h
        · rw [if_neg hx, b2 p hx]; exact hF.fresh p
      · by_cases hx : p = m.prog
        · rw [if_pos hx, hx]; intro _; exact b3
        · rw [if_neg hx, b2 p hx]; exact hF.opened p
    by_cases hi : (libs m.prog).writer = .init
    · rw [if_pos hi] at he
      have hf0 := hF.fresh _ hi
      have hopen : astep a (.openF (m.prog + 1) false true false) =
          (a.setFile (m.prog + 1) (some { rd := false, wr := true, raw := false }), .ok) := by
        simp only [astep, Op.fid, hf0]
        rfl
      have hset : (a.setFile (m.prog + 1) (some { rd := false, wr := true, raw := false })).files (m.prog + 1) =
          some { rd := false, wr := true, raw := false } := by simp [ASys.setFile]
      obtain ⟨l, r, hwr⟩ := astep_write hset m.task (m.vec P) junk
      have hops : e.flatMap (driverOps (m.prog + 1) m.task junk) =
          [.openF (m.prog + 1) false true false, .write (m.prog + 1) m.task (userVec (m.vec P)) junk] := by rw [he]; rfl
      have har : arun a (e.flatMap (driverOps (m.prog + 1) m.task junk)) =
          ({ a.setFile (m.prog + 1) (some { rd := false, wr := true, raw := false }) with log := l },
            [(.openF (m.prog + 1) false true false, .ok), (.write (m.prog + 1) m.task (userVec (m.vec P)) junk, .ret r)]) := by
        rw [hops]
        simp only [arun, hopen, hwr]
      refine ⟨?_, ?_, ?_, ?_, by rw [har]; simp⟩
      rotate_left
      · rw [har]
        refine hFn _ ?_ ?_ hset
        · simp [ASys.setFile, hF.viewer]
        · intro p hx
          simp [ASys.setFile, hx]
      · rw [har]
        refine ⟨fun p => ?_, ?_⟩
        · simp only [List.foldl_cons, List.foldl_nil, obsStep, upd, if_true, Bool.false_eq_true, if_false]
          have := hO.raw p
          by_cases hx : p + 1 = m.prog + 1
          · rw [if_pos hx]
          · rw [if_neg hx]; exact this
        · simp only [List.foldl_cons, List.foldl_nil, obsStep, upd, if_true, Bool.false_eq_true, if_false]
          exact hO.base
      · rw [har]
        simp only [List.foldl_cons, List.foldl_nil, obsStep, upd, if_true, Bool.false_eq_true, if_false, hbytes]
        rfl
      · rw [hops]
        intro op hop
        simp only [List.mem_cons, List.not_mem_nil, or_false] at hop
        rcases hop with rfl | rfl <;> rfl
    · rw [if_neg hi] at he
      have hf0 := hF.opened _ hi
      obtain ⟨l, r, hwr⟩ := astep_write hf0 m.task (m.vec P) junk
      have hops : e.flatMap (driverOps (m.prog + 1) m.task junk) =
          [.write (m.prog + 1) m.task (userVec (m.vec P)) junk] := by rw [he]; rfl
      have har : arun a (e.flatMap (driverOps (m.prog + 1) m.task junk)) =
          ({ a with log := l }, [(.write (m.prog + 1) m.task (userVec (m.vec P)) junk, .ret r)]) := by
        rw [hops]
        simp only [arun, hwr]
      refine ⟨?_, ?_, ?_, ?_, by rw [har]; simp⟩
      rotate_left
      · rw [har]; exact hFn _ hF.viewer (fun _ _ => rfl) hf0
      · rw [har]
        refine ⟨fun p => ?_, ?_⟩
        · simp only [List.foldl_cons, List.foldl_nil, obsStep, hO.raw, Bool.false_eq_true, if_false]
        · simp only [List.foldl_cons, List.foldl_nil, obsStep, hO.raw, Bool.false_eq_true, if_false]
          exact hO.base
      · rw [har]
        simp only [List.foldl_cons, List.foldl_nil, obsStep, hO.raw, Bool.false_eq_true, if_false, hbytes]
        rfl
      · rw [hops]
        intro op hop
        rw [List.mem_singleton.1 hop]
        rfl

/-- One message: the processes go on, and the message is committed if it is let
through. -/
theorem say_one {D : Bytes} {P : Nat → Prog} (hP : ∀ p, (P p).Plain D) (name : Bytes) (junk : Nat → UInt8) (m : Said)
    {libs : Nat → Lib} {a : ASys} {o : Obs} {v : Option File} (hL : ∀ p, LibOk (P p) (libs p)) (hF : FilesOk libs a v) (hO : ObsOk o) :
    ∃ s' e, wstep (P m.prog).nm (P m.prog).env (libs m.prog) m.op = .ok (s', .unit, e) ∧
      (∀ p, LibOk (P p) (if p = m.prog then s' else libs p)) ∧
      (∀ op ∈ e.flatMap (driverOps (m.prog + 1) m.task junk), op.supported = true) ∧
      FilesOk (fun p => if p = m.prog then s' else libs p) (arun a (e.flatMap (driverOps (m.prog + 1) m.task junk))).1 v ∧
      ObsOk ((arun a (e.flatMap (driverOps (m.prog + 1) m.task junk))).2.foldl (obsStep name) o) ∧
      ((arun a (e.flatMap (driverOps (m.prog + 1) m.task junk))).2.foldl (obsStep name) o).hist =
        (o.hist ++ if m.passes P then [m.entry P] else []) ∧
      ∀ p ∈ (arun a (e.flatMap (driverOps (m.prog + 1) m.task junk))).2, ∀ x, p.2 ≠ .err x := by
  obtain ⟨s', e, e1, hs', hcase⟩ := say_step (m := m) (hP m.prog) (hL m.prog)
  have hL' : ∀ p, LibOk (P p) (if p = m.prog then s' else libs p) := by
    intro p
    by_cases hp : p = m.prog
    · rw [if_pos hp, hp]; exact hs'
    · rw [if_neg hp]; exact hL p
  refine ⟨s', e, e1, hL', ?_⟩
  exact write_one name junk m hF hO hcase

/-- Nobody flushed the log, and no write failed halfway. -/
def Clean (tr : List (Op × Out)) : Prop :=
  ∀ p ∈ tr, (∀ f, p.1 ≠ .flush f) ∧ ∀ f t it j, p.1 = .write f t it j → p.2 ≠ .err .efault

theorem arun_fst (ops : List Op) : ∀ a : ASys, (arun a ops).2.map Prod.fst = ops := by
  induction ops with
  | nil => intro a; rfl
  | cons o ops ih => intro a; simp only [arun, List.map_cons, ih]

theorem driverOps_flush (fid : Nat) (t : Task) (junk : Nat → UInt8) (e : List Ev) : ∀ op ∈ e.flatMap (driverOps fid t junk), ∀ f, op ≠ .flush f := by
  intro op hop f h
  subst h
  obtain ⟨ev, _, h⟩ := List.mem_flatMap.1 hop
  unfold driverOps at h
  split at h <;> simp at h

/-- The messages let through become the committed entries, in order. -/
theorem say_all {D : Bytes} {P : Nat → Prog} (hP : ∀ p, (P p).Plain D) (name : Bytes) (junk : Nat → UInt8) (ms : List Said) :
    ∀ {libs : Nat → Lib} {a : ASys} {o : Obs}, (∀ p, LibOk (P p) (libs p)) → FilesOk libs a → ObsOk o →
    ∃ ops, sayAll P junk libs ms = .ok ops ∧ (∀ op ∈ ops, op.supported = true) ∧ (arun a ops).1.files 0 = none ∧
      ObsOk ((arun a ops).2.foldl (obsStep name) o) ∧
      ((arun a ops).2.foldl (obsStep name) o).hist = o.hist ++ (ms.filter (·.passes P)).map (·.entry P) ∧ Clean (arun a ops).2 := by
  induction ms with
  | nil =>
    intro libs a o _ hF hO
    exact ⟨[], rfl, by simp, hF.viewer, hO, by simp [arun], by intro p hp; cases hp⟩
  | cons m ms ih =>
    intro libs a o hL hF hO
    obtain ⟨s', e, e1, g1, g2, g3, g4, g5, g6⟩ := say_one hP name junk m hL hF hO
    obtain ⟨ops, i1, i2, i3, i4, i5, i6⟩ := ih g1 g3 g4
    refine ⟨e.flatMap (driverOps (m.prog + 1) m.task junk) ++ ops, ?_, ?_, ?_, ?_, ?_, ?_⟩
    rotate_left
    · exact fun op hop => (List.mem_append.1 hop).elim (g2 op) (i2 op)
    · rw [arun_append]; exact i3
    · rw [arun_append, List.foldl_append]; exact i4
    · rw [arun_append, List.foldl_append, i5, g5, List.append_assoc]
      refine congrArg (o.hist ++ ·) ?_
      cases hp : m.passes P with
      | true => rw [List.filter_cons_of_pos hp]; rfl
      | false => rw [List.filter_cons_of_neg (by rw [hp]; simp)]; rfl
    · rw [arun_append]
      intro p hp
      rcases List.mem_append.1 hp with hp | hp
      · refine ⟨driverOps_flush (m.prog + 1) m.task junk e _ ?_, fun _ _ _ _ _ => g6 p hp _⟩
        have := List.mem_map_of_mem (f := Prod.fst) hp
        rw [arun_fst] at this
        exact this
      · exact i6 p hp
    · unfold sayAll
      rw [e1]
      simp only [bind, Except.bind]
      rw [i1]

theorem Said.vec_flat (P : Nat → Prog) (m : Said) : (m.vec P).flatten = le32 m.prio ++ m.name P ++ 0 :: (m.kept ++ [0]) := by
  simp [Said.vec, writerKernel]

theorem Said.entry_size (P : Nat → Prog) (m : Said) : (m.entry P).size = m.size P := by
  have hp : prefixLen m.task = (taskName m.task.pcomm ++ [0] ++ (if m.task.pid = m.task.tid then [] else taskName m.task.tcomm ++ [0])).length := by
    unfold prefixLen
    split <;> simp <;> omega
  have hv : (m.vec P).flatten.length = 4 + ((m.name P).length + 1) + (m.kept.length + 1) := by
    rw [Said.vec_flat]
    simp [le32]
    omega
  unfold Said.entry Said.size Entry.size plainSpec specPayload
  dsimp only
  rw [List.length_take, List.length_append, hv, ← hp]

theorem Said.entry_text {P : Nat → Prog} {m : Said} (h : m.Plain P) {L : Look} (hk : L.kmsgd = false) : entryText L (m.entry P) = m.lines P L := by
  unfold Said.entry Said.lines
  rw [Said.vec_flat, entryText_plain L hk m.task h.tag ?_ h.bin h.fits]
  · congr 2
    omega
  · unfold Said.kept
    split
    · exact h.text
    · exact fun b hb => h.text b (List.mem_of_mem_take hb)

/-! ## The property -/

theorem flatMap_map {α β γ} (f : α → β) (g : β → List γ) (l : List α) : (l.map f).flatMap g = l.flatMap fun x => g (f x) := by
  induction l with
  | nil => rfl
  | cons x l ih => simp [List.flatMap_cons, ih]

theorem flatMap_congr' {α γ} {f g : α → List γ} {l : List α} (h : ∀ x ∈ l, f x = g x) : l.flatMap f = l.flatMap g := by
  induction l with
  | nil => rfl
  | cons x l ih =>
    rw [List.flatMap_cons, List.flatMap_cons, h x (by simp), ih fun y hy => h y (by simp [hy])]

/-- After these calls, nobody having flushed the log, it holds these entries, and the
viewer has not opened it. -/
structure Logged (name : Bytes) (k : Nat) (ops : List Op) (es : List Entry) : Prop where
  supported : ∀ op ∈ ops, op.supported = true
  viewer : (arun (ainit name k) ops).1.files 0 = none
  base : ((arun (ainit name k) ops).2.foldl (obsStep name) Obs.init).base = 0
  hist : ((arun (ainit name k) ops).2.foldl (obsStep name) Obs.init).hist = es

/-- The viewer has opened the device and asked for the amount. -/
theorem Logged.asked {name : Bytes} {k : Nat} {ops : List Op} {es : List Entry} (h : Logged name k ops es) (buf : Nat → UInt8) (hk : 14 ≤ k)
    (hname : name.length ≤ 89) (hgen : Genuine es) (hcount : es.length < 2147483648) :
    ∃ sys t0 m, t0 = (arun (ainit name k) ops).2 ++ [(.openF 0 true false true, .ok)] ∧
      Kernel.run (Kernel.init name k buf) (ops ++ [.openF 0 true false true, .getLogLen 0]) = .ok (sys, t0 ++ [(.getLogLen 0, .ret m)]) ∧
      (obs name t0).hist = es ∧ At name t0 0 0 ∧ (0 < es.length → 0 < m) ∧
      Alone name k buf 0 0 { sys, tr := t0 ++ [(.getLogLen 0, .ret m)], os := [], env := [] } := by
  obtain ⟨g2, g3, g4, g5⟩ := h
  have hsup : ∀ op ∈ ops ++ [Op.openF 0 true false true], op.supported = true := by
    intro op hop
    rcases List.mem_append.1 hop with h | h
    · exact g2 op h
    · rw [List.mem_singleton.1 h]; rfl
  obtain ⟨G, s1, r1, hrel⟩ := run_refines (ops ++ [.openF 0 true false true]) (init_rel buf hk hname) hsup
  have hopen : (astep (arun (ainit name k) ops).1 (.openF 0 true false true)).2 = .ok := by
    simp only [astep, Op.fid, g3]
    rfl
  have htr : (arun (ainit name k) (ops ++ [.openF 0 true false true])).2 =
      (arun (ainit name k) ops).2 ++ [(.openF 0 true false true, .ok)] := by
    rw [arun_append]
    simp only [arun]
    rw [hopen]
  rw [htr] at r1
  have hobs : obs name ((arun (ainit name k) ops).2 ++ [(.openF 0 true false true, .ok)]) =
      obsStep name ((arun (ainit name k) ops).2.foldl (obsStep name) Obs.init) (.openF 0 true false true, .ok) := obs_snoc _ _ _
  have hhist : (obs name ((arun (ainit name k) ops).2 ++ [(.openF 0 true false true, .ok)])).hist = es := by
    rw [hobs]
    exact g5
  have hat : At name ((arun (ainit name k) ops).2 ++ [(.openF 0 true false true, .ok)]) 0 0 := by
    refine ⟨{ all := true, ver := 2, got := 0, told := 0 }, ?_, rfl, rfl, ?_⟩
    · rw [hobs]; simp [obsStep, upd]
    · rw [hobs]; simp only [obsStep]; rw [g4]
  have hrun : Run name k buf (ops ++ [.openF 0 true false true]) s1 ((arun (ainit name k) ops).2 ++ [(.openF 0 true false true, .ok)]) :=
    ⟨hk, hname, hsup, r1, by rw [hhist]; exact hgen, by rw [hhist]; exact hcount⟩
  have hal : Alone name k buf 0 0 { sys := s1, tr := (arun (ainit name k) ops).2 ++ [(.openF 0 true false true, .ok)], os := [], env := [] } :=
    ⟨rfl, ⟨_, hrun⟩, hat⟩
  obtain ⟨w', m, e1, e2, e3, e4, e5, e6⟩ := hal.logLen
  have hs : Kernel.step s1 (.getLogLen 0) = .ok (w'.sys, .ret m) ∧ w'.os = [] ∧ w'.env = [] := by
    unfold DW.exec at e1
    split at e1
    · rename_i s o hs
      simp only [Prod.mk.injEq, Option.some.injEq] at e1
      rw [← e1.1, ← e1.2]
      exact ⟨hs, rfl, rfl⟩
    · simp at e1
  obtain ⟨sys, tr, os, env⟩ := w'
  obtain ⟨hs, ho, he⟩ := hs
  dsimp only at hs ho he e6
  subst ho he e6
  refine ⟨sys, _, m, rfl, ?_, hhist, hat, ?_, e3⟩
  · have := run_snoc hs r1
    rw [List.append_assoc] at this
    exact this
  · intro h
    apply e2
    show 0 < (obs name _).hist.length
    rw [hhist]
    exact h

/-- A dump of the device by `ulogcat` after these calls, the stream taking everything:
it ends with status 0, and the bytes on the stream meet `B`. (`all` is what was
received; the messages shown are looked up in it.) -/
def Dumps (L : Look) (sys : Sys) (tr : List (Op × Out)) (m need : Nat) (B : Bytes → Prop) : Prop :=
  ∀ (euid : UInt32) (n fuel : Nat), need < fuel → ∀ {buf0 : Bytes}, buf0.length = 5248 →
    ∀ {paths : Nat → Bytes} {ans : Scr DW → OutEv → List WrAns}, (∀ s e, ∃ n, ans s e = [.took n] ∧ 5248 ≤ n) →
    ∃ all c t, processLogs ((driverWorld 0 euid (decide (L.fmt = .csv)) (canRender L) (n + 1)).onto .file paths (entriesBy L all) ans) true 0 fuel
        (openCtx [m] 0) ⟨{ sys, tr := tr ++ [(.getLogLen 0, .ret m)], os := [], env := [] }, buf0, []⟩ 0 = .ok (c, t, some 0) ∧
      t.st.os = all ∧ B t.bytes

/-- What the viewer shows of a log, whatever was written: the texts of the entries, or
notices in place of old ones; without notices if they leave room in the buffer. -/
theorem Logged.screen {name : Bytes} {k : Nat} {ops : List Op} {es : List Entry} (h : Logged name k ops es) (buf : Nat → UInt8) (hk : 14 ≤ k)
    (hname : name.length ≤ 89) (hgen : Genuine es) (hcount : es.length < 2147483648) {L : Look} (hfix : L.kmsgd = true → L.fmt ≠ .csv) :
    ∃ sys tr m, tr = (arun (ainit name k) ops).2 ++ [(.openF 0 true false true, .ok)] ∧
      Kernel.run (Kernel.init name k buf) (ops ++ [.openF 0 true false true, .getLogLen 0]) = .ok (sys, tr ++ [(.getLogLen 0, .ret m)]) ∧
      Dumps L sys tr m es.length fun bs => OnScreen L name (2 ^ k) es 0 bs es.length ∧
        (bytesLen es + 8200 ≤ 2 ^ k → bs = es.flatMap (entryText L)) := by
  obtain ⟨sys, t0, m, g0, g2, g3, g4, g5, g6⟩ := h.asked buf hk hname hgen hcount
  refine ⟨sys, t0, m, g0, g2, fun euid n fuel hfuel buf0 hb paths ans hans => ?_⟩
  have hsame : (obs name (t0 ++ [(.getLogLen 0, .ret m)])).hist = (obs name t0).hist :=
    obs_quiet name t0 _ _ (.inr (.inr (.inl ⟨_, rfl⟩)))
  obtain ⟨c, w', e1, e2, e3, ⟨t, ht, hnf⟩, ops', hrun⟩ := g6.dump (m := m) (euid := euid) (csv := decide (L.fmt = .csv)) (sh := canRender L) (n := n)
    (out := []) es.length 0 (by unfold DW.hist; dsimp only; rw [hsame, g3]; omega)
    (by unfold DW.hist; dsimp only; rw [hsame, g3]; exact g5) fuel hfuel
  have hw : (obs name w'.tr).hist = (obs name t0).hist := Eq.trans e3 hsame
  obtain ⟨t', f1, f2, q, f3, f4, f5⟩ := C98_run (driverWorld_drives 0 euid (decide (L.fmt = .csv)) (canRender L) (n + 1)) rfl hfix
    (fun _ _ => rfl) hans (Int.le_refl 0) e1 rfl hb e2 hrun (t0 := t0) (t1 := []) rfl (by simp [Others]) g4
    (fun u hu => by
      have hu' : u = [(.getLogLen 0, .ret m)] ++ t := by
        apply List.append_cancel_left (as := t0)
        rw [← hu, ht, List.append_assoc]
      rw [hu']
      refine noFlush_append ?_ hnf
      intro x hx g hg
      rw [List.mem_singleton.1 hx] at hg
      cases hg)
  rw [hw, g3] at f4 f5
  rw [g3] at f3
  have hq : q = es.length := Nat.le_antisymm f4 f3
  subst hq
  refine ⟨w'.os, c, t', f1, by rw [f2], f5, fun hroom => ?_⟩
  obtain ⟨_, hbs⟩ := f5.lossless (by rw [List.drop_zero]; exact hroom)
  rw [hbs, List.drop_zero, Nat.sub_zero, List.take_length]

/-- The calls of the processes. -/
theorem said_logged {D : Bytes} {P : Nat → Prog} (hP : ∀ p, (P p).Plain D) (ms : List Said) (junk : Nat → UInt8) (name : Bytes) (k : Nat) :
    ∃ ops, sayAll P junk (fun _ => .start) ms = .ok ops ∧ Logged name k ops ((ms.filter (·.passes P)).map (·.entry P)) ∧
      Clean (arun (ainit name k) ops).2 := by
  have hL : ∀ p, LibOk (P p) Lib.start := fun p => ⟨rfl, rfl, fun c => .inl (by simp [Lib.start]), .inl rfl⟩
  obtain ⟨ops, g1, g2, g3, g4, g5, g6⟩ := say_all hP name junk ms (libs := fun _ => .start) (a := ainit name k) (o := Obs.init) hL
    ⟨rfl, fun _ _ => rfl, fun _ h => absurd rfl h⟩ ⟨fun _ => rfl, rfl⟩
  exact ⟨ops, g1, ⟨g2, g3, g4.base, g5⟩, g6⟩

theorem said_bytes {P : Nat → Prog} (ms : List Said) : bytesLen (ms.map (·.entry P)) = (ms.map (·.size P)).sum := by
  unfold bytesLen
  rw [List.map_map]
  congr 1
  exact List.map_congr_left fun x _ => Said.entry_size P x

/-- C106, whatever the device and the amount logged: the screen shows the texts of the
entries that the messages let through make, or notices. -/
theorem said_screen {D : Bytes} {P : Nat → Prog} (hP : ∀ p, (P p).Plain D) {ms : List Said}
    (hms : ∀ m ∈ ms, ¬ (m.task.pid = 0xffffffff ∧ m.task.tid = 0xffffffff)) (junk : Nat → UInt8)
    {name : Bytes} {k : Nat} (buf : Nat → UInt8) (hk : 14 ≤ k) (hname : name.length ≤ 89) (hcount : ms.length < 2147483648)
    {L : Look} (hfix : L.kmsgd = true → L.fmt ≠ .csv) :
    ∃ ops sys tr m, sayAll P junk (fun _ => .start) ms = .ok ops ∧
      Kernel.run (Kernel.init name k buf) (ops ++ [.openF 0 true false true, .getLogLen 0]) = .ok (sys, tr ++ [(.getLogLen 0, .ret m)]) ∧
      Dumps L sys tr m ms.length fun bs =>
        OnScreen L name (2 ^ k) ((ms.filter (·.passes P)).map (·.entry P)) 0 bs (ms.filter (·.passes P)).length ∧
        (((ms.filter (·.passes P)).map (·.size P)).sum + 8200 ≤ 2 ^ k →
          bs = (ms.filter (·.passes P)).flatMap fun m => entryText L (m.entry P)) := by
  obtain ⟨ops, g1, g2, _⟩ := said_logged hP ms junk name k
  have hle : (ms.filter (·.passes P)).length ≤ ms.length := List.length_filter_le _ _
  obtain ⟨sys, tr, m, _, e1, e2⟩ := g2.screen buf hk hname (by
    intro e he
    obtain ⟨m, hm, rfl⟩ := List.mem_map.1 he
    exact hms m (List.mem_filter.1 hm).1) (by rw [List.length_map]; omega) hfix
  refine ⟨ops, sys, tr, m, g1, e1, fun euid n fuel hf buf0 hb paths ans hans => ?_⟩
  obtain ⟨all, c, t, f1, f2, f3, f4⟩ := e2 euid n fuel (by rw [List.length_map]; omega) hb (paths := paths) hans
  rw [List.length_map] at f3
  refine ⟨all, c, t, f1, f2, f3, fun hroom => ?_⟩
  rw [f4 (by rw [said_bytes]; exact hroom), flatMap_map]

/-- C106. Processes log through libulog, one message after the other; then a viewer
dumps the device. If the messages let through fit the buffer, no call faults, the dump
ends, and the screen shows exactly the lines of the messages let through, in the order
of the calls. -/
theorem C106_programs {D : Bytes} {P : Nat → Prog} (hP : ∀ p, (P p).Plain D) {ms : List Said} (hms : ∀ m ∈ ms, m.Plain P) (junk : Nat → UInt8)
    {name : Bytes} {k : Nat} (buf : Nat → UInt8) (hk : 14 ≤ k) (hname : name.length ≤ 89) (hcount : ms.length < 2147483648)
    (hroom : ((ms.filter (·.passes P)).map (·.size P)).sum + 8200 ≤ 2 ^ k) {L : Look} (hkd : L.kmsgd = false) :
    ∃ ops sys tr m, sayAll P junk (fun _ => .start) ms = .ok ops ∧
      Kernel.run (Kernel.init name k buf) (ops ++ [.openF 0 true false true, .getLogLen 0]) = .ok (sys, tr ++ [(.getLogLen 0, .ret m)]) ∧
      Dumps L sys tr m ms.length fun bs => bs = (ms.filter (·.passes P)).flatMap (·.lines P L) := by
  obtain ⟨ops, sys, tr, m, g1, g2, g3⟩ := said_screen hP (fun m hm => (hms m hm).task) junk buf hk hname hcount (L := L) (by simp [hkd])
  refine ⟨ops, sys, tr, m, g1, g2, fun euid n fuel hfuel buf0 hb paths ans hans => ?_⟩
  obtain ⟨all, c, t, e1, e2, _, e3⟩ := g3 euid n fuel hfuel hb (paths := paths) hans
  refine ⟨all, c, t, e1, e2, (e3 hroom).trans ?_⟩
  exact flatMap_congr' fun x hx => Said.entry_text (hms x (List.mem_filter.1 hx).1) hkd

/-- What is shown of messages `ms`: their lines, or in place of some a notice with
their number, at the time of the next one. Each message left out is followed by more
bytes than the size of the buffer less 8200. -/
inductive Partly (P : Nat → Prog) (L : Look) (name : Bytes) (size : Nat) : List Said → Bytes → Prop
  | nil : Partly P L name size [] []
  | shown {m ms bs} (h : Partly P L name size ms bs) : Partly P L name size (m :: ms) (m.lines P L ++ bs)
  | lost {xs m ms bs} (hne : xs ≠ []) (hold : ∀ ys, ys ≠ [] → ys <:+ xs → size < ((ys ++ m :: ms).map (·.size P)).sum + 8200)
      (h : Partly P L name size (m :: ms) bs) :
      Partly P L name size (xs ++ m :: ms)
        (textShown L (noticeInfo name (m.entry P)) (decNat xs.length ++ ascii " log entries dropped" ++ [10]) ++ bs)

theorem OnScreen.partly {P : Nat → Prog} {L : Look} (hk : L.kmsgd = false) {name : Bytes} (hname : NoNul name) {size : Nat} {ms : List Said}
    (hms : ∀ m ∈ ms, m.Plain P) (hcount : ms.length < 2147483648) {p q : Nat} {bs : Bytes}
    (h : OnScreen L name size (ms.map (·.entry P)) p bs q) (hq : q = ms.length) : Partly P L name size (ms.drop p) bs := by
  induction h with
  | nil => rw [hq, List.drop_length]; exact .nil
  | @entry p e bs q h _ ih =>
    rw [List.getElem?_map, Option.map_eq_some_iff] at h
    obtain ⟨m, hm, rfl⟩ := h
    obtain ⟨hl, he⟩ := List.getElem?_eq_some_iff.1 hm
    rw [List.drop_eq_getElem_cons hl, he, Said.entry_text (hms m (List.mem_of_getElem? hm)) hk]
    exact .shown (ih hq)
  | @lost p n e bs q hn ho h _ ih =>
    rw [List.getElem?_map, Option.map_eq_some_iff] at h
    obtain ⟨m, hm, rfl⟩ := h
    obtain ⟨hl, he⟩ := List.getElem?_eq_some_iff.1 hm
    have hd : ms.drop (p + n) = m :: ms.drop (p + n + 1) := by rw [List.drop_eq_getElem_cons hl, he]
    have hsplit : ms.drop p = (ms.drop p).take n ++ m :: ms.drop (p + n + 1) := by
      rw [← hd, ← List.drop_drop, List.take_append_drop]
    have hlen : ((ms.drop p).take n).length = n := by rw [List.length_take, List.length_drop]; omega
    have hi := ih hq
    rw [hd] at hi
    rw [hsplit, C98_notice L hk hname (by omega)]
    have hfin : ∀ hold, _ := fun hold => Partly.lost (P := P) (L := L) (name := name) (size := size) (xs := (ms.drop p).take n)
      (by intro h0; rw [h0] at hlen; simp at hlen; omega) hold hi
    rw [hlen] at hfin
    refine hfin fun ys hne hs => ?_
    obtain ⟨xs, hx⟩ := hs
    have hxl : xs.length + ys.length = n := by rw [← List.length_append, hx, hlen]
    have hyl : 0 < ys.length := List.length_pos_iff.2 hne
    have := ho (p + xs.length) (by omega) (by omega)
    have hdr : ms.drop (p + xs.length) = ys ++ m :: ms.drop (p + n + 1) := by
      rw [← List.drop_drop, hsplit, ← hx, List.append_assoc, List.drop_left]
    rw [← List.map_drop, said_bytes, hdr] at this
    exact this

/-- C106, when the messages do not fit the buffer: what is shown are the lines of the
messages let through, in order, or in place of some a notice with their number. Lost
messages are followed by more bytes of messages than the size of the buffer less 8200,
so that the last ones are always shown. -/
theorem C106_overflow {D : Bytes} {P : Nat → Prog} (hP : ∀ p, (P p).Plain D) {ms : List Said} (hms : ∀ m ∈ ms, m.Plain P) (junk : Nat → UInt8)
    {name : Bytes} {k : Nat} (buf : Nat → UInt8) (hk : 14 ≤ k) (hname : name.length ≤ 89) (hn0 : NoNul name) (hcount : ms.length < 2147483648)
    {L : Look} (hkd : L.kmsgd = false) :
    ∃ ops sys tr m, sayAll P junk (fun _ => .start) ms = .ok ops ∧
      Kernel.run (Kernel.init name k buf) (ops ++ [.openF 0 true false true, .getLogLen 0]) = .ok (sys, tr ++ [(.getLogLen 0, .ret m)]) ∧
      Dumps L sys tr m ms.length fun bs => Partly P L name (2 ^ k) (ms.filter (·.passes P)) bs := by
  obtain ⟨ops, sys, tr, m, g1, g2, g3⟩ := said_screen hP (fun m hm => (hms m hm).task) junk buf hk hname hcount (L := L) (by simp [hkd])
  refine ⟨ops, sys, tr, m, g1, g2, fun euid n fuel hfuel buf0 hb paths ans hans => ?_⟩
  obtain ⟨all, c, t, e1, e2, e3, _⟩ := g3 euid n fuel hfuel hb (paths := paths) hans
  have hle : (ms.filter (·.passes P)).length ≤ ms.length := List.length_filter_le _ _
  have := e3.partly hkd hn0 (fun x hx => hms x (List.mem_filter.1 hx).1) (by omega) rfl
  rw [List.drop_zero] at this
  exact ⟨all, c, t, e1, e2, this⟩

end Verif.Ulogcat
