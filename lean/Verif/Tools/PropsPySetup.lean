import Verif.Tools.PySetup
import Verif.Tools.PropsPyScreen

/-!
# Python programs set up for libulog, up to the screen (C123)

Any number of processes log to one device, from Python set up by `setup_logging`, from C
or both, one call at a time; then the viewer dumps it.
-/
namespace Verif.Tools.PySet
open Verif Verif.Kernel Verif.Libulog Verif.Ulogcat
open Verif.Tools.PyDev (severity severity_eq lines_noNul)
open Verif.Tools.Shdd (prefixLen_le)

/-! ## All processes -/

/-- Process `p` logs from C, or a thread of its interpreter does something. -/
inductive In
  | said (m : Said)
  | py (p : Nat) (a : Act)

/-- The processes, whose numbers are `pid`, with the driver calls they make and what
becomes of the actions in Python. -/
def inAll (P : Nat → Prog) (pid : Nat → UInt32) (junk : Nat → UInt8) : (Nat → Lib) → (Nat → Interp) → List In → Except WFault (List Op × List PyRes)
  | _, _, [] => .ok ([], [])
  | libs, ints, .said m :: l => do
    let (s, _, e) ← wstep (P m.prog).nm (P m.prog).env (libs m.prog) m.op
    let (ops, rs) ← inAll P pid junk (fun p => if p = m.prog then s else libs p) ints l
    .ok (e.flatMap (driverOps (m.prog + 1) m.task junk) ++ ops, rs)
  | libs, ints, .py p a :: l => do
    let x := act (P p).env.getenv (pid p) (ints p) a
    let (s, es) ← callAll (P p).nm (P p).env (newHandler (P p).nm (P p).env (libs p) x.2.1) x.2.2.1
    let (ops, rs) ← inAll P pid junk (fun q => if q = p then s else libs q) (fun q => if q = p then x.1 else ints q) l
    .ok (es.flatMap (fun y => y.2.flatMap (driverOps (p + 1) y.1 junk)) ++ ops, x.2.2.2 :: rs)

/-! ## Specification -/

/-- A line that is logged. -/
structure PyLine where
  task : Task
  tag : Bytes
  sev : Nat
  text : Bytes

def PyLine.size (x : PyLine) : Nat := 24 + min 4076 (prefixLen x.task + (4 + (x.tag.length + 1) + (x.text.length + 1)))

/-- What is shown of the line. -/
def PyLine.shown (L : Look) (x : PyLine) : Bytes :=
  textShown L (taskInfo x.task (UInt32.ofNat x.sev) x.tag false) (x.text.take (4070 - prefixLen x.task - x.tag.length))

/-- The level for all of Python. -/
def pyMax (getenv : Bytes → Option Bytes) : Int :=
  match getenv (ascii "ULOG_LEVEL_ulog_py"), getenv (ascii "ULOG_LEVEL") with
  | some v, _ => levelOf (v.headD 0)
  | none, some v => levelOf (v.headD 0)
  | none, none => 6

/-- The least level of records that loggers without a level of their own take. -/
def pyMin (getenv : Bytes → Option Bytes) : Nat := if getenv (ascii "ULOG_LEVEL") = some (ascii "D") then 10 else 20

/-- How often `setup_logging` was called in process `p`; the last input comes first. -/
def setups (p : Nat) : List In → Nat
  | [] => 0
  | .py q ⟨_, .setup _, _, _⟩ :: l => (if q = p then 1 else 0) + setups p l
  | _ :: l => setups p l

/-- The name of thread `t` of process `p`: that of the last `setup_logging` it called, or
of the thread that started it. -/
def nameOf (start : Nat → UInt32 → Bytes) (p : Nat) : List In → UInt32 → Bytes
  | [], t => start p t
  | .py q ⟨t', .setup n, _, _⟩ :: l, t => if q = p ∧ t' = t ∧ n ≠ [] then n.take 15 else nameOf start p l t
  | .py q ⟨t', .start c, _, _⟩ :: l, t => if q = p ∧ c = t then nameOf start p l t' else nameOf start p l t
  | _ :: l, t => nameOf start p l t

/-- The lines of a record, once for each `setup_logging`. -/
def recordLines (lines : Bytes → List Bytes) (pid : UInt32) (name : UInt32 → Bytes) (a : Act) (n level : Nat) (tag msg : Bytes) : List PyLine :=
  match severity level with
  | none => []
  | some sev => (List.range n).flatMap fun h => (lines msg).zipIdx.map fun l =>
      { task := { pid, tid := a.tid, sec := (a.clock h l.2).1, nsec := (a.clock h l.2).2, euid := a.euid, pcomm := name pid, tcomm := name a.tid }
        tag, sev := if ascii "EVT:" <+: msg then 5 else sev, text := l.1 }

/-- What an action in Python logs, and what becomes of it. -/
def logs (lines : Bytes → List Bytes) (getenv : Bytes → Option Bytes) (pid : UInt32) (start : Nat → UInt32 → Bytes) (past : List In) (p : Nat) (a : Act) :
    List PyLine × PyRes :=
  match a.op with
  | .setup name =>
    (if 15 < name.length then
      recordLines lines pid (nameOf start p (.py p a :: past)) a (setups p past + 1) 30 (ascii "root")
        (ascii "Truncating process name b'" ++ name ++ ascii "' -> b'" ++ name.take 15 ++ ascii "'")
     else [], .done)
  | .record own level tag msg =>
    if setups p past = 0 ∨ level < own.getD (pyMin getenv) then ([], .done)
    else (recordLines lines pid (nameOf start p past) a (setups p past) level tag msg, if severity level = none then .keyError else .done)
  | .uncaught place keyboard trace =>
    if setups p past = 0 ∨ keyboard = true ∨ place = .thread then ([], .traceback)
    else (recordLines lines pid (nameOf start p past) a (setups p past) 40 (ascii "root") (ascii "Uncaught exception" ++ [10] ++ trace),
      if place = .main then .exit 1 else .done)
  | .start _ => ([], .done)

structure World where
  P : Nat → Prog
  pid : Nat → UInt32
  start : Nat → UInt32 → Bytes
  lines : Bytes → List Bytes

def World.logs (W : World) (past : List In) (p : Nat) (a : Act) : List PyLine × PyRes :=
  PySet.logs W.lines (W.P p).env.getenv (W.pid p) W.start past p a

/-- The lines that the library lets through. -/
def World.let_ (W : World) (past : List In) (p : Nat) (a : Act) : List PyLine :=
  (W.logs past p a).1.filter fun x => decide ((x.sev : Int) ≤ pyMax (W.P p).env.getenv)

/-- What the screen shows, after `past`. -/
def World.screen (W : World) (L : Look) : List In → List In → Bytes
  | _, [] => []
  | past, .said m :: l => (if m.passes W.P then m.lines W.P L else []) ++ W.screen L (.said m :: past) l
  | past, .py p a :: l => (W.let_ past p a).flatMap (·.shown L) ++ W.screen L (.py p a :: past) l

def World.room (W : World) : List In → List In → Nat
  | _, [] => 0
  | past, .said m :: l => (if m.passes W.P then m.size W.P else 0) + W.room (.said m :: past) l
  | past, .py p a :: l => ((W.let_ past p a).map (·.size)).sum + W.room (.py p a :: past) l

def World.count (W : World) : List In → List In → Nat
  | _, [] => 0
  | past, .said m :: l => 1 + W.count (.said m :: past) l
  | past, .py p a :: l => (W.let_ past p a).length + W.count (.py p a :: past) l

/-- What becomes of the actions in Python. -/
def World.results (W : World) : List In → List In → List PyRes
  | _, [] => []
  | past, .said m :: l => W.results (.said m :: past) l
  | past, .py p a :: l => (W.logs past p a).2 :: W.results (.py p a :: past) l

/-- An ordinary action: text, tags that fit an entry, and process names of printable
characters other than quote and backslash. -/
def PyOp.Plain : PyOp → Prop
  | .setup name => ∀ b ∈ name, 32 ≤ b.toNat ∧ b.toNat < 127 ∧ b ≠ 39 ∧ b ≠ 92
  | .record _ _ tag msg => NoNul tag ∧ tag.length ≤ 4000 ∧ NoNul msg
  | .uncaught _ _ trace => NoNul trace
  | .start _ => True

/-! ## One call -/

/-- The processes with the temporary tag for one call. -/
def Call.progs (P : Nat → Prog) (p : Nat) (c : Call) : Nat → Prog :=
  fun _ => { P p with nm := fun x => if x = tmpTag then c.tag else (P p).nm x }

def Call.said (p : Nat) (c : Call) : Said := { prog := p, task := c.task, tag := tmpTag, prio := c.prio, text := c.text, whole := true }

theorem Call.said_vec (P : Nat → Prog) (p : Nat) (c : Call) : (c.said p).vec (c.progs P p) = writerKernel c.prio c.tag (c.text ++ [0]) := by
  simp [Said.vec, Call.said, Call.progs, Said.name, Said.kept]

theorem call_step {D : Bytes} {P : Nat → Prog} {p : Nat} (hP : (P p).Plain D) {s : Lib} (h : LibOk (P p) s) (c : Call) {lvl : Int}
    (hl : s.level (master c.handler) = lvl) (h0 : 0 ≤ lvl) :
    ∃ s' e, callLib (P p).nm (P p).env s c = .ok (s', e) ∧ LibOk (P p) s' ∧ (∀ x, s'.level x = s.level x) ∧
      ((decide (((c.prio.toNat % 8 : Nat) : Int) ≤ lvl) = false ∧ s'.writer = s.writer ∧ e = []) ∨
       (decide (((c.prio.toNat % 8 : Nat) : Int) ≤ lvl) = true ∧ s'.writer = .kernel ∧
        ∃ n, e = (if s.writer = .init then [.opened n] else []) ++ [.writev (some n) ((c.said p).vec (c.progs P p))])) := by
  have hlv : ∀ s' : Lib, s'.level = (fun x => if x = tmpTag then s.level (master c.handler) else s.level x) →
      ∀ x, (if x = tmpTag then s.level tmpTag else s'.level x) = s.level x := by
    intro s' hs x
    by_cases hx : x = tmpTag
    · rw [if_pos hx, hx]
    · rw [if_neg hx, hs]; exact if_neg hx
  have hok : ∀ s' : Lib, s'.hook = none → s'.device = none → (s'.writer = .init ∨ (s'.writer = .kernel ∧ ∃ n, s'.fd = some n)) →
      s'.level = (fun x => if x = tmpTag then s.level (master c.handler) else s.level x) →
      LibOk (P p) { s' with level := fun x => if x = tmpTag then s.level tmpTag else s'.level x } := by
    intro s' h1 h2 h3 h4
    refine ⟨h1, h2, fun x => ?_, h3⟩
    dsimp only
    rw [hlv s' h4 x]
    exact h.level x
  rw [Call.said_vec]
  obtain ⟨s0, hs0⟩ : ∃ s0 : Lib, s0 = { s with level := fun x => if x = tmpTag then s.level (master c.handler) else s.level x } := ⟨_, rfl⟩
  obtain ⟨nm', hnm⟩ : ∃ nm' : Cid → Bytes, nm' = fun x => if x = tmpTag then c.tag else (P p).nm x := ⟨_, rfl⟩
  have hlev : s0.level tmpTag = lvl := by rw [hs0]; dsimp only; rw [if_pos rfl]; exact hl
  have hnt : nm' tmpTag = c.tag := by rw [hnm]; exact if_pos rfl
  have hw0 : s0.writer = s.writer := by rw [hs0]
  have hf0 : s0.fd = s.fd := by rw [hs0]
  have hd0 : s0.device = none := by rw [hs0]; exact h.device
  have hh0 : s0.hook = none := by rw [hs0]; exact h.hook
  have hl0 : s0.level = fun x => if x = tmpTag then s.level (master c.handler) else s.level x := by rw [hs0]
  have hens : ensureInit nm' (P p).env s0 tmpTag = (s0, []) := by
    unfold ensureInit
    exact if_neg (by omega)
  unfold callLib
  rw [← hs0, ← hnm]
  have hstep : ∀ s' e, (((c.prio.toNat % 8 : Nat) : Int) ≤ lvl → deliver nm' (P p).env s0 c.prio tmpTag (c.text ++ [0]) = .ok (s', e)) →
      (¬ ((c.prio.toNat % 8 : Nat) : Int) ≤ lvl → s' = s0 ∧ e = []) →
      wstep nm' (P p).env s0 (.str c.prio tmpTag c.text) = .ok (s', .unit, e) := by
    intro s' e h1 h2
    show logOn nm' (P p).env s0 c.prio tmpTag (some (c.text ++ [0])) = _
    unfold logOn
    rw [hens]
    dsimp only
    rw [hlev]
    by_cases hp : ((c.prio.toNat % 8 : Nat) : Int) ≤ lvl
    · rw [if_pos hp, h1 hp]; rfl
    · rw [if_neg hp, (h2 hp).1, (h2 hp).2]
  by_cases hp : ((c.prio.toNat % 8 : Nat) : Int) ≤ lvl
  · rcases h.writer with hw | ⟨hw, n, hn⟩
    · obtain ⟨n, hn⟩ := hP.opens
      have hch : devChoice (P p).env s0 = D := by
        rw [← hP.device]
        unfold devChoice Prog.device Libulog.devPath
        rw [hd0]
        cases (P p).env.getenv (ascii "ULOG_DEVICE") <;> rfl
      rw [hstep { s0 with fd := some n, writer := .kernel } [.opened n, .writev (some n) (writerKernel c.prio c.tag (c.text ++ [0]))] ?_ (fun hn => absurd hp hn)]
      · refine ⟨_, _, rfl, hok { s0 with fd := some n, writer := .kernel } hh0 hd0 (.inr ⟨rfl, n, rfl⟩) hl0,
          hlv { s0 with fd := some n, writer := .kernel } hl0, .inr ⟨decide_eq_true hp, rfl, n, ?_⟩⟩
        rw [if_pos hw]; rfl
      · intro _
        unfold deliver
        rw [hw0, hw]
        simp only [callWriter, hw0, hw, if_true, ctrlInit, hch, hn, hP.stderr, Option.isSome_some, Option.isSome_none, Bool.false_eq_true,
          false_or, reduceCtorEq, if_false, bind, Except.bind, Option.toList_some, List.map_cons, List.map_nil, hnt]
        rfl
    · rw [hstep s0 [.writev (some n) (writerKernel c.prio c.tag (c.text ++ [0]))] ?_ (fun hn => absurd hp hn)]
      · refine ⟨_, _, rfl, hok s0 hh0 hd0 (.inr ⟨hw0.trans hw, n, hf0.trans hn⟩) hl0, hlv s0 hl0, .inr ⟨decide_eq_true hp, hw0.trans hw, n, ?_⟩⟩
        rw [if_neg (by rw [hw]; simp)]; rfl
      · intro _
        unfold deliver
        rw [hw0, hw]
        simp only [callWriter, hf0, hn, hnt]
  · rw [hstep s0 [] (fun h => absurd h hp) (fun _ => ⟨rfl, rfl⟩)]
    refine ⟨_, _, rfl, hok s0 hh0 hd0 (by rw [hw0, hf0]; exact h.writer) hl0, hlv s0 hl0, .inl ⟨decide_eq_false hp, hw0, rfl⟩⟩

def Call.passes (P : Nat → Prog) (p : Nat) (c : Call) : Bool := decide (((c.prio.toNat % 8 : Nat) : Int) ≤ pyMax (P p).env.getenv)

def Call.entry (P : Nat → Prog) (p : Nat) (c : Call) : Entry := (c.said p).entry (c.progs P p)

/-- The driver calls of some library calls. -/
def opsOf (p : Nat) (junk : Nat → UInt8) (es : List (Task × List Ev)) : List Op := es.flatMap fun y => y.2.flatMap (driverOps (p + 1) y.1 junk)

/-- The handlers have their tags. -/
def Masters (P : Nat → Prog) : Prop := ∀ p i, (P p).nm (master i) = ascii "ulog_py"

theorem master_level {P : Nat → Prog} (hm : Masters P) (p i : Nat) : envLevel (P p) (master i) = pyMax (P p).env.getenv := by
  unfold envLevel pyMax
  rw [hm p i, if_neg (by decide)]
  rfl

theorem calls_run {D : Bytes} {P : Nat → Prog} (hP : ∀ p, (P p).Plain D) (hm : Masters P) (name : Bytes) (junk : Nat → UInt8) (p n : Nat) (cs : List Call)
    (hh : ∀ c ∈ cs, c.handler < n) : ∀ {libs : Nat → Lib} {a : ASys} {o : Obs}, (∀ q, LibOk (P q) (libs q)) → FilesOk libs a → ObsOk o →
    (∀ i, i < n → 0 ≤ (libs p).level (master i)) →
    ∃ s' es, callAll (P p).nm (P p).env (libs p) cs = .ok (s', es) ∧ (∀ q, LibOk (P q) (if q = p then s' else libs q)) ∧
      (∀ x, s'.level x = (libs p).level x) ∧ (∀ op ∈ opsOf p junk es, op.supported = true) ∧
      FilesOk (fun q => if q = p then s' else libs q) (arun a (opsOf p junk es)).1 ∧ ObsOk ((arun a (opsOf p junk es)).2.foldl (obsStep name) o) ∧
      ((arun a (opsOf p junk es)).2.foldl (obsStep name) o).hist = o.hist ++ (cs.filter (·.passes P p)).map (·.entry P p) ∧
      ∀ x ∈ (arun a (opsOf p junk es)).2, ∀ e, x.2 ≠ .err e := by
  induction cs with
  | nil =>
    intro libs a o hL hF hO _
    have hid : (fun q => if q = p then libs p else libs q) = libs := by
      funext q
      by_cases hq : q = p
      · rw [if_pos hq, hq]
      · rw [if_neg hq]
    refine ⟨libs p, [], rfl, fun q => ?_, fun _ => rfl, by simp [opsOf], ?_, hO, by simp [opsOf, arun], by simp [opsOf, arun]⟩
    · rw [show (if q = p then libs p else libs q) = libs q from congrFun hid q]; exact hL q
    · rw [hid]; exact hF
  | cons c cs ih =>
    intro libs a o hL hF hO hlev
    have hlv : (libs p).level (master c.handler) = pyMax (P p).env.getenv := by
      rcases (hL p).level (master c.handler) with h | h
      · have := hlev _ (hh c (by simp)); omega
      · rw [h, master_level hm]
    obtain ⟨s1, e, e1, e2, e3, e4⟩ := call_step (hP p) (hL p) c hlv (by rw [← hlv]; exact hlev _ (hh c (by simp)))
    obtain ⟨w1, w2, w3, w4, w5⟩ := write_one (P := c.progs P p) name junk (c.said p) hF hO (pass := c.passes P p) e4
    have hL1 : ∀ q, LibOk (P q) (if q = p then s1 else libs q) := by
      intro q
      by_cases hq : q = p
      · rw [if_pos hq, hq]; exact e2
      · rw [if_neg hq]; exact hL q
    obtain ⟨s2, es, i1, i2, i3, i4, i5, i6, i7, i8⟩ := ih (fun x hx => hh x (by simp [hx])) (libs := fun q => if q = p then s1 else libs q) hL1 w2 w3
      (fun i hi => by rw [if_pos rfl, e3]; exact hlev i hi)
    rw [if_pos rfl] at i1 i3
    have hff : (fun q => if q = p then s2 else if q = p then s1 else libs q) = fun q => if q = p then s2 else libs q := by
      funext q
      by_cases hq : q = p
      · rw [if_pos hq, if_pos hq]
      · rw [if_neg hq, if_neg hq, if_neg hq]
    have hop : opsOf p junk ((c.task, e) :: es) = e.flatMap (driverOps ((c.said p).prog + 1) (c.said p).task junk) ++ opsOf p junk es := rfl
    refine ⟨s2, (c.task, e) :: es, ?_, fun q => ?_, fun x => (i3 x).trans (e3 x), ?_, ?_, ?_, ?_, ?_⟩
    · unfold callAll
      rw [e1]
      simp only [bind, Except.bind]
      rw [i1]
    · have := i2 q
      rw [show (if q = p then s2 else if q = p then s1 else libs q) = (if q = p then s2 else libs q) from congrFun hff q] at this
      exact this
    · rw [hop]
      exact fun op h => (List.mem_append.1 h).elim (w1 op) (i4 op)
    · rw [hop, arun_append, ← hff]; exact i5
    · rw [hop, arun_append, List.foldl_append]; exact i6
    · rw [hop, arun_append, List.foldl_append, i7, w4, List.append_assoc]
      refine congrArg (o.hist ++ ·) ?_
      cases hp : c.passes P p with
      | true => rw [List.filter_cons_of_pos hp]; rfl
      | false => rw [List.filter_cons_of_neg (by rw [hp]; simp)]; rfl
    · rw [hop, arun_append]
      intro x hx
      rcases List.mem_append.1 hx with hx | hx
      · exact w5 x hx
      · exact i8 x hx

/-! ## A handler is made; messages from C -/

theorem handler_made {D : Bytes} {P : Prog} (hP : P.Plain D) {s : Lib} (h : LibOk P s) (o : Option Nat) :
    LibOk P (newHandler P.nm P.env s o) ∧ (newHandler P.nm P.env s o).writer = s.writer ∧
      (∀ c, 0 ≤ s.level c → 0 ≤ (newHandler P.nm P.env s o).level c) ∧ ∀ i, o = some i → 0 ≤ (newHandler P.nm P.env s o).level (master i) := by
  cases o with
  | none => exact ⟨h, rfl, fun _ h => h, fun i h => by cases h⟩
  | some i =>
    show LibOk P (initCookie P.nm P.env s (master i)).1 ∧ (initCookie P.nm P.env s (master i)).1.writer = s.writer ∧
      (∀ c, 0 ≤ s.level c → 0 ≤ (initCookie P.nm P.env s (master i)).1.level c) ∧
      ∀ j, some i = some j → 0 ≤ (initCookie P.nm P.env s (master i)).1.level (master j)
    unfold initCookie
    dsimp only
    have hf := firstLevel_env hP h (master i)
    have hn := envLevel_nonneg P (master i)
    by_cases hl : s.level (master i) < 0
    · rw [if_pos hl]
      refine ⟨⟨h.hook, h.device, fun c => ?_, h.writer⟩, rfl, fun c hc => ?_, fun j hj => ?_⟩
      · dsimp only
        by_cases hc : c = master i
        · rw [if_pos hc, hc]; exact .inr hf
        · rw [if_neg hc]; exact h.level c
      · dsimp only
        by_cases hcm : c = master i
        · rw [if_pos hcm, hf]; exact hn
        · rw [if_neg hcm]; exact hc
      · cases hj
        dsimp only
        rw [if_pos rfl, hf]
        exact hn
    · rw [if_neg hl]
      refine ⟨h, rfl, fun c hc => hc, fun j hj => ?_⟩
      cases hj
      dsimp only
      omega

theorem said_level {nm : Cid → Bytes} {w : Libulog.World} {s s' : Lib} {m : Said} {r : WRes} {e : List Ev} (h : wstep nm w s m.op = .ok (s', r, e)) {c : Cid}
    (hc : 0 ≤ s.level c) : 0 ≤ s'.level c := by
  have hlog : ∀ d, logOn nm w s m.prio m.tag d = .ok (s', r, e) → 0 ≤ s'.level c := by
    intro d h
    unfold logOn at h
    have hens : 0 ≤ (ensureInit nm w s m.tag).1.level c := by
      unfold ensureInit
      by_cases hl : s.level m.tag < 0
      · rw [if_pos hl]
        unfold initCookie
        dsimp only
        rw [if_pos hl]
        dsimp only
        rw [if_neg (fun hx => by rw [hx] at hc; omega)]
        exact hc
      · rw [if_neg hl]; exact hc
    generalize ensureInit nm w s m.tag = x at h hens
    obtain ⟨s1, e1⟩ := x
    dsimp only at h hens
    split at h
    · cases d with
      | none => simp only [Except.ok.injEq, Prod.mk.injEq] at h; rw [← h.1]; exact hens
      | some d =>
        cases hd : deliver nm w s1 m.prio m.tag d with
        | error f => simp only [hd, bind, Except.bind] at h; cases h
        | ok y =>
          simp only [hd, bind, Except.bind, Except.ok.injEq, Prod.mk.injEq] at h
          rw [← h.1, (callWriter_same hd).level]
          exact hens
    · simp only [Except.ok.injEq, Prod.mk.injEq] at h; rw [← h.1]; exact hens
  unfold Said.op at h
  cases hw : m.whole with
  | true => rw [hw, if_pos rfl] at h; exact hlog (some (m.text ++ [0])) h
  | false => rw [hw, if_neg (by simp)] at h; exact hlog (formatted (some m.text)) h

/-! ## An action against the specification -/

def Call.line (c : Call) : PyLine := { task := c.task, tag := c.tag, sev := c.prio.toNat, text := c.text }

/-- The value of a hexadecimal digit. -/
def digitValue (d : UInt8) : Nat := (ascii "0123456789abcdef").findIdx (· == d)

/-- Within an escape. -/
inductive Esc
  | plain
  | slash
  | hex
  | digit (n : Nat)

/-- What a text with escapes stands for. -/
def unescape : Esc → Bytes → Bytes
  | _, [] => []
  | .plain, c :: r => if c = 92 then unescape .slash r else c :: unescape .plain r
  | .slash, c :: r =>
    if c = 120 then unescape .hex r
    else (if c = 116 then 9 else if c = 110 then 10 else if c = 114 then 13 else c) :: unescape .plain r
  | .hex, c :: r => unescape (.digit (digitValue c)) r
  | .digit n, c :: r => UInt8.ofNat (16 * n + digitValue c) :: unescape .plain r

theorem unescape_byte {q : UInt8} (hq : q = 39 ∨ q = 34) (b : UInt8) (r : Bytes) : unescape .plain (reprByte q b ++ r) = b :: unescape .plain r := by
  unfold reprByte
  by_cases h1 : b = q ∨ b = 92
  · rw [if_pos h1]
    rcases h1 with rfl | rfl
    · rcases hq with rfl | rfl <;> rfl
    · rfl
  rw [if_neg h1]
  by_cases h2 : b = 9
  · rw [if_pos h2, h2]
    rfl
  rw [if_neg h2]
  by_cases h3 : b = 10
  · rw [if_pos h3, h3]
    rfl
  rw [if_neg h3]
  by_cases h4 : b = 13
  · rw [if_pos h4, h4]
    rfl
  rw [if_neg h4]
  by_cases h5 : b < 32 ∨ 127 ≤ b
  · rw [if_pos h5]
    show UInt8.ofNat (16 * digitValue (hexDigit (b.toNat / 16)) + digitValue (hexDigit (b.toNat % 16))) :: unescape .plain r = _
    have hd : ∀ n < 16, digitValue (hexDigit n) = n := by decide +kernel
    have hb : b.toNat < 256 := UInt8.toNat_lt b
    rw [hd _ (by omega), hd _ (by omega), show 16 * (b.toNat / 16) + b.toNat % 16 = b.toNat by omega, UInt8.ofNat_toNat]
  · rw [if_neg h5]
    exact if_neg fun h => h1 (.inr h)

/-- **C123:** `repr` shows a name between quotes, in printable characters, from which it can
be read back. -/
theorem C123_repr (s : Bytes) : ∃ q t, (q = 39 ∨ q = 34) ∧ pyRepr s = 98 :: q :: t ++ [q] ∧ unescape .plain t = s ∧ ∀ b ∈ t, 32 ≤ b.toNat ∧ b.toNat < 127 := by
  unfold pyRepr
  dsimp only
  generalize hqe : (if 39 ∈ s ∧ 34 ∉ s then (34 : UInt8) else 39) = q
  have hq : q = 39 ∨ q = 34 := by
    rw [← hqe]
    split
    · exact .inr rfl
    · exact .inl rfl
  refine ⟨q, s.flatMap (reprByte q), hq, rfl, ?_, ?_⟩
  · clear hqe
    induction s with
    | nil => rfl
    | cons b s ih => rw [List.flatMap_cons, unescape_byte hq, ih]
  · intro b hb
    obtain ⟨a, _, ha⟩ := List.mem_flatMap.1 hb
    unfold reprByte at ha
    have hlit : ∀ l ∈ [ascii "\\t", ascii "\\n", ascii "\\r", ascii "\\x"], ∀ b ∈ l, 32 ≤ b.toNat ∧ b.toNat < 127 := by decide +kernel
    have hd : ∀ n < 16, 32 ≤ (hexDigit n).toNat ∧ (hexDigit n).toNat < 127 := by decide +kernel
    have hlt := UInt8.toNat_lt a
    split at ha
    · rename_i h
      simp at ha
      rcases ha with rfl | rfl
      · decide
      · rcases h with rfl | rfl
        · rcases hq with rfl | rfl <;> decide
        · decide
    · split at ha
      · exact hlit _ (by simp) b ha
      · split at ha
        · exact hlit _ (by simp) b ha
        · split at ha
          · exact hlit _ (by simp) b ha
          · split at ha
            · rw [List.mem_append] at ha
              rcases ha with ha | ha
              · exact hlit _ (by simp) b ha
              · simp at ha
                rcases ha with rfl | rfl
                · exact hd _ (by omega)
                · exact hd _ (by omega)
            · rename_i h
              simp at ha
              subst ha
              simp only [UInt8.lt_iff_toNat_lt, UInt8.le_iff_toNat_le, not_or] at h
              simp at h
              omega

theorem pyRepr_plain {s : Bytes} (h : ∀ b ∈ s, 32 ≤ b.toNat ∧ b.toNat < 127 ∧ b ≠ 39 ∧ b ≠ 92) : pyRepr s = ascii "b'" ++ s ++ ascii "'" := by
  have hq : ¬ (39 ∈ s ∧ 34 ∉ s) := fun hx => (h 39 hx.1).2.2.1 rfl
  have hb : ∀ l : Bytes, (∀ b ∈ l, 32 ≤ b.toNat ∧ b.toNat < 127 ∧ b ≠ 39 ∧ b ≠ 92) → l.flatMap (reprByte 39) = l := by
    intro l
    induction l with
    | nil => intro _; rfl
    | cons b l ih =>
      intro hl
      obtain ⟨h1, h2, h3, h4⟩ := hl b (by simp)
      have hne : ∀ n : UInt8, n.toNat < 32 → b ≠ n := fun n hn hx => by rw [hx] at h1; omega
      rw [List.flatMap_cons, ih fun x hx => hl x (by simp [hx])]
      unfold reprByte
      rw [if_neg (by simp [h3, h4]), if_neg (hne 9 (by decide)), if_neg (hne 10 (by decide)), if_neg (hne 13 (by decide)), if_neg ?_]
      · rfl
      · rw [UInt8.lt_iff_toNat_lt, UInt8.le_iff_toNat_le]
        show ¬ (b.toNat < 32 ∨ 127 ≤ b.toNat)
        omega
  unfold pyRepr
  dsimp only
  rw [if_neg hq, hb s h]
  rfl

theorem cstr_self {l : Bytes} (h : NoNul l) : cstr l = l := by
  induction l with
  | nil => rfl
  | cons b l ih => rw [cstr_cons, if_neg (h b (by simp)), ih fun x hx => h x (by simp [hx])]

theorem prefix_iff (t : Bytes) : (ascii "EVT:").isPrefixOf t = true ↔ ascii "EVT:" <+: t := List.isPrefixOf_iff_prefix

/-- What the handlers do with a record, against the specification. -/
theorem emitAll_eq {lines : Bytes → List Bytes} (hl : ∀ t, IsLines t (lines t)) (pid : UInt32) (p : Interp) (a : Act) (level : Nat) (tag : Bytes) {msg : Bytes}
    (hmsg : NoNul msg) (h0 : p.handlers ≠ 0) :
    ((emitAll pid p a level tag msg).1.map Call.line = recordLines lines pid p.comm a p.handlers level tag msg ∧
      (emitAll pid p a level tag msg).2 = if severity level = none then .keyError else .done) ∧
    ∀ c ∈ (emitAll pid p a level tag msg).1, c.handler < p.handlers ∧ c.prio.toNat < 8 ∧ prioBinary c.prio = false ∧ c.tag = tag ∧ NoNul c.text ∧
      c.task.pid = pid := by
  unfold emitAll pyEmit recordLines
  rw [if_neg h0]
  obtain ⟨h1, h2⟩ := severity_eq level
  rw [h1]
  cases hs : severity level with
  | none => exact ⟨⟨rfl, rfl⟩, by simp⟩
  | some sev =>
    have hsev := h2 sev hs
    have hlines : splitLines none msg = lines msg := (splitLines_spec _ msg none rfl (by simp) (by simp)).unique (hl msg)
    have hnul : ∀ l ∈ lines msg, cstr l = l ∧ NoNul l := fun l hx => by
      have := lines_noNul (hl msg) hmsg l hx
      exact ⟨cstr_self this, this⟩
    have hmap : ∀ q : UInt32, (lines msg).map (fun l => (q, cstr l)) = (lines msg).map fun l => (q, l) := fun q =>
      List.map_congr_left fun l hx => by rw [(hnul l hx).1]
    obtain ⟨q, hq⟩ : ∃ q : UInt32, q = if (ascii "EVT:").isPrefixOf msg then 5 else UInt32.ofNat sev := ⟨_, rfl⟩
    have hqs : q.toNat = if ascii "EVT:" <+: msg then 5 else sev := by
      rw [hq]
      by_cases he : ascii "EVT:" <+: msg
      · rw [if_pos he, if_pos ((prefix_iff msg).2 he)]; rfl
      · rw [if_neg he, if_neg (fun h => he ((prefix_iff msg).1 h)), UInt32.toNat_ofNat']
        exact Nat.mod_eq_of_lt (by omega)
    have hq8 : q.toNat < 8 := by rw [hqs]; split <;> omega
    simp only [Option.map_some, hlines]
    rw [← hq, hmap, List.zipIdx_map]
    refine ⟨⟨?_, by simp⟩, ?_⟩
    · rw [List.map_flatMap]
      refine flatMap_congr' fun h _ => ?_
      rw [List.map_map, List.map_map]
      refine List.map_congr_left fun l _ => ?_
      simp only [Function.comp, Call.line, taskOf, Prod.map]
      rw [hqs]
      rfl
    · intro c hc
      obtain ⟨h, hh, hc⟩ := List.mem_flatMap.1 hc
      rw [List.map_map] at hc
      obtain ⟨l, hl1, rfl⟩ := List.mem_map.1 hc
      refine ⟨List.mem_range.1 hh, hq8, ?_, rfl, ?_, rfl⟩
      · show prioBinary q = false
        unfold prioBinary
        rw [show q.toNat / 128 = 0 by omega]
        rfl
      · exact (hnul l.1 (List.fst_mem_of_mem_zipIdx hl1)).2

/-- What the interpreter of process `p` knows after `past`. -/
structure Knows (W : World) (past : List In) (p : Nat) (i : Interp) : Prop where
  handlers : i.handlers = setups p past
  root : i.handlers ≠ 0 → i.root = pyMin (W.P p).env.getenv
  comm : i.comm = nameOf W.start p past

/-- A call that makes an entry that can be read. -/
structure Call.Good (pid : UInt32) (n : Nat) (c : Call) : Prop where
  handler : c.handler < n
  prio : c.prio.toNat < 8
  tag : NoNul c.tag
  short : c.tag.length ≤ 4000
  text : NoNul c.text
  task : c.task.pid = pid

theorem logRecord_eq {W : World} (hl : ∀ t, IsLines t (W.lines t)) {p : Nat} {i : Interp} (h0 : i.handlers ≠ 0) (hr : i.root = pyMin (W.P p).env.getenv)
    (a : Act) (own : Option Nat) (level : Nat) {tag msg : Bytes} (htag : NoNul tag) (hshort : tag.length ≤ 4000) (hmsg : NoNul msg) :
    (logRecord (W.pid p) i a own level tag msg).1.map Call.line =
      (if level < own.getD (pyMin (W.P p).env.getenv) then [] else recordLines W.lines (W.pid p) i.comm a i.handlers level tag msg) ∧
    (logRecord (W.pid p) i a own level tag msg).2 =
      (if level < own.getD (pyMin (W.P p).env.getenv) then .done else if severity level = none then .keyError else .done) ∧
    ∀ c ∈ (logRecord (W.pid p) i a own level tag msg).1, c.Good (W.pid p) i.handlers := by
  unfold logRecord
  rw [hr]
  by_cases hlt : level < own.getD (pyMin (W.P p).env.getenv)
  · rw [if_pos hlt, if_pos hlt, if_pos hlt]
    exact ⟨rfl, rfl, by simp⟩
  · rw [if_neg hlt, if_neg hlt, if_neg hlt]
    obtain ⟨⟨h1, h2⟩, h3⟩ := emitAll_eq hl (W.pid p) i a level tag hmsg h0
    refine ⟨h1, h2, fun c hc => ?_⟩
    obtain ⟨c1, c2, _, c4, c5, c6⟩ := h3 c hc
    exact ⟨c1, c2, by rw [c4]; exact htag, by rw [c4]; exact hshort, c5, c6⟩

theorem pyMin_le (g : Bytes → Option Bytes) : pyMin g ≤ 20 := by unfold pyMin; split <;> omega

/-- A record of the root logger. -/
theorem logRecord_root {W : World} (hl : ∀ t, IsLines t (W.lines t)) {p : Nat} {i : Interp} (h0 : i.handlers ≠ 0) (hr : i.root = pyMin (W.P p).env.getenv)
    (a : Act) {level : Nat} (hlv : level = 30 ∨ level = 40) {msg : Bytes} (hmsg : NoNul msg) :
    (logRecord (W.pid p) i a none level (ascii "root") msg).1.map Call.line =
      recordLines W.lines (W.pid p) i.comm a i.handlers level (ascii "root") msg ∧
    (logRecord (W.pid p) i a none level (ascii "root") msg).2 = .done ∧
    ∀ c ∈ (logRecord (W.pid p) i a none level (ascii "root") msg).1, c.Good (W.pid p) i.handlers := by
  obtain ⟨g1, g2, g3⟩ := logRecord_eq hl h0 hr a none level (tag := ascii "root") (by decide) (by decide) hmsg
  have hle : ¬ level < (none : Option Nat).getD (pyMin (W.P p).env.getenv) := by
    have := pyMin_le (W.P p).env.getenv
    show ¬ level < pyMin (W.P p).env.getenv
    omega
  rw [if_neg hle] at g1 g2
  refine ⟨g1, g2.trans (if_neg ?_), g3⟩
  rcases hlv with rfl | rfl <;> decide

theorem noNul_append {a b : Bytes} (ha : NoNul a) (hb : NoNul b) : NoNul (a ++ b) := fun x hx => (List.mem_append.1 hx).elim (ha x) (hb x)

theorem Knows.quiet {W : World} {past : List In} {p : Nat} {i : Interp} (hk : Knows W past p i) {x : In} (h1 : setups p (x :: past) = setups p past)
    (h2 : ∀ t, nameOf W.start p (x :: past) t = nameOf W.start p past t) : Knows W (x :: past) p i :=
  ⟨by rw [h1]; exact hk.handlers, hk.root, by rw [hk.comm]; funext t; exact (h2 t).symm⟩

theorem act_eq {W : World} (hl : ∀ t, IsLines t (W.lines t)) {past : List In} {p : Nat} {i : Interp} (hk : Knows W past p i) {a : Act} (ha : a.op.Plain)
    {i' : Interp} {h : Option Nat} {cs : List Call} {r : PyRes} (he : act (W.P p).env.getenv (W.pid p) i a = (i', h, cs, r)) :
    cs.map Call.line = (W.logs past p a).1 ∧ r = (W.logs past p a).2 ∧ Knows W (.py p a :: past) p i' ∧
      ((h = none ∧ i'.handlers = i.handlers) ∨ (h = some i.handlers ∧ i'.handlers = i.handlers + 1)) ∧ ∀ c ∈ cs, c.Good (W.pid p) i'.handlers := by
  obtain ⟨tid, op, euid, clock⟩ := a
  unfold act at he
  unfold World.logs logs
  cases op with
  | setup name =>
    dsimp only at he ha ⊢
    have hs : setups p (.py p ⟨tid, .setup name, euid, clock⟩ :: past) = setups p past + 1 := by
      show (if p = p then 1 else 0) + setups p past = _
      rw [if_pos rfl]; omega
    have hnn : NoNul name := fun b hb => by
      intro h0
      have := (ha b hb).1
      rw [h0] at this
      simp at this
    have hname : ∀ t, nameOf W.start p (.py p ⟨tid, .setup name, euid, clock⟩ :: past) t =
        if p = p ∧ tid = t ∧ name ≠ [] then name.take 15 else nameOf W.start p past t := fun _ => rfl
    by_cases hn : name = []
    · rw [if_pos hn] at he
      simp only [Prod.mk.injEq] at he
      obtain ⟨rfl, rfl, rfl, rfl⟩ := he
      rw [if_neg (by rw [hn]; simp)]
      refine ⟨rfl, rfl, ⟨by rw [hs, ← hk.handlers], fun _ => rfl, ?_⟩, .inr ⟨rfl, rfl⟩, by simp⟩
      show i.comm = _
      rw [hk.comm]
      funext t
      rw [hname, if_neg (fun h => h.2.2 hn)]
    · rw [if_neg hn] at he
      have hcomm : (fun t => if t = tid then setName name else i.comm t) = nameOf W.start p (.py p ⟨tid, .setup name, euid, clock⟩ :: past) := by
        funext t
        rw [hname]
        by_cases ht : t = tid
        · rw [if_pos ht, if_pos ⟨rfl, ht.symm, hn⟩]
          unfold setName
          rw [cstr_self hnn]
        · rw [if_neg ht, if_neg (fun h => ht h.2.1.symm), hk.comm]
      by_cases h15 : 15 < name.length
      · rw [if_pos h15] at he
        rw [if_pos h15]
        have htxt : ascii "Truncating process name " ++ pyRepr name ++ ascii " -> " ++ pyRepr (name.take 15) =
            ascii "Truncating process name b'" ++ name ++ ascii "' -> b'" ++ name.take 15 ++ ascii "'" := by
          rw [pyRepr_plain ha, pyRepr_plain fun b hb => ha b (List.mem_of_mem_take hb),
            show ascii "Truncating process name b'" = ascii "Truncating process name " ++ ascii "b'" by decide +kernel,
            show ascii "' -> b'" = ascii "'" ++ ascii " -> " ++ ascii "b'" by decide +kernel]
          simp only [List.append_assoc]
        have hnul : NoNul (ascii "Truncating process name b'" ++ name ++ ascii "' -> b'" ++ name.take 15 ++ ascii "'") :=
          noNul_append (noNul_append (noNul_append (noNul_append (by decide +kernel) hnn) (by decide +kernel)) fun b hb => hnn b (List.mem_of_mem_take hb)) (by decide +kernel)
        rw [htxt] at he
        obtain ⟨g1, g2, g3⟩ := logRecord_root (W := W) hl (p := p)
          (i := { handlers := i.handlers + 1, root := if (W.P p).env.getenv (ascii "ULOG_LEVEL") = some (ascii "D") then 10 else 20
                  comm := fun t => if t = tid then setName name else i.comm t })
          (Nat.succ_ne_zero _) rfl ⟨tid, .setup name, euid, clock⟩ (level := 30) (.inl rfl) hnul
        simp only [Prod.mk.injEq] at he
        obtain ⟨rfl, rfl, rfl, rfl⟩ := he
        refine ⟨?_, g2, ⟨by rw [hs, ← hk.handlers], fun _ => rfl, hcomm⟩, .inr ⟨rfl, rfl⟩, g3⟩
        rw [g1]
        dsimp only
        rw [hcomm, hk.handlers]
      · rw [if_neg h15] at he
        simp only [Prod.mk.injEq] at he
        obtain ⟨rfl, rfl, rfl, rfl⟩ := he
        rw [if_neg h15]
        exact ⟨rfl, rfl, ⟨by rw [hs, ← hk.handlers], fun _ => rfl, hcomm⟩, .inr ⟨rfl, rfl⟩, by simp⟩
  | record own level tag msg =>
    dsimp only at he ha ⊢
    simp only [Prod.mk.injEq] at he
    obtain ⟨rfl, rfl, rfl, rfl⟩ := he
    have hq : Knows W (.py p ⟨tid, .record own level tag msg, euid, clock⟩ :: past) p i := hk.quiet rfl fun _ => rfl
    rw [← hk.handlers, ← hk.comm]
    by_cases h0 : i.handlers = 0
    · rw [if_pos (.inl h0)]
      have : logRecord (W.pid p) i ⟨tid, .record own level tag msg, euid, clock⟩ own level tag msg = ([], .done) := by
        unfold logRecord emitAll
        rw [if_pos h0, ite_self]
      rw [this]
      exact ⟨rfl, rfl, hq, .inl ⟨rfl, rfl⟩, by simp⟩
    · obtain ⟨g1, g2, g3⟩ := logRecord_eq hl h0 (hk.root h0) ⟨tid, .record own level tag msg, euid, clock⟩ own level ha.1 ha.2.1 ha.2.2
      by_cases hlt : level < own.getD (pyMin (W.P p).env.getenv)
      · rw [if_pos hlt] at g1 g2
        rw [if_pos (.inr hlt)]
        exact ⟨g1, g2, hq, .inl ⟨rfl, rfl⟩, g3⟩
      · rw [if_neg hlt] at g1 g2
        rw [if_neg (by simp [h0, hlt])]
        exact ⟨g1, g2, hq, .inl ⟨rfl, rfl⟩, g3⟩
  | uncaught place keyboard trace =>
    dsimp only at he ha ⊢
    have hq : Knows W (.py p ⟨tid, .uncaught place keyboard trace, euid, clock⟩ :: past) p i := hk.quiet rfl fun _ => rfl
    rw [← hk.handlers, ← hk.comm]
    by_cases h0 : i.handlers = 0
    · rw [if_pos h0] at he
      simp only [Prod.mk.injEq] at he
      obtain ⟨rfl, rfl, rfl, rfl⟩ := he
      rw [if_pos (.inl h0)]
      exact ⟨rfl, rfl, hq, .inl ⟨rfl, rfl⟩, by simp⟩
    · rw [if_neg h0] at he
      have hmsg : NoNul (ascii "Uncaught exception" ++ [10] ++ trace) := noNul_append (by decide +kernel) ha
      obtain ⟨g1, g2, g3⟩ := logRecord_root hl h0 (hk.root h0) ⟨tid, .uncaught place keyboard trace, euid, clock⟩ (level := 40) (.inr rfl) hmsg
      have hex : ∀ st, handleException (W.pid p) i ⟨tid, .uncaught place keyboard trace, euid, clock⟩ keyboard trace st =
          if keyboard = true then ([], .traceback)
          else ((logRecord (W.pid p) i ⟨tid, .uncaught place keyboard trace, euid, clock⟩ none 40 (ascii "root")
            (ascii "Uncaught exception" ++ [10] ++ trace)).1, st) := by
        intro st
        unfold handleException
        split
        · rfl
        · generalize logRecord (W.pid p) i ⟨tid, .uncaught place keyboard trace, euid, clock⟩ none 40 (ascii "root")
            (ascii "Uncaught exception" ++ [10] ++ trace) = y at g2 ⊢
          obtain ⟨y1, y2⟩ := y
          dsimp only at g2 ⊢
          subst g2
          rfl
      cases place with
      | thread =>
        simp only [Prod.mk.injEq] at he
        obtain ⟨rfl, rfl, rfl, rfl⟩ := he
        rw [if_pos (.inr (.inr rfl))]
        exact ⟨rfl, rfl, hq, .inl ⟨rfl, rfl⟩, by simp⟩
      | main =>
        dsimp only at he
        rw [hex] at he
        cases keyboard with
        | true =>
          simp only [Prod.mk.injEq, if_true] at he
          obtain ⟨rfl, rfl, rfl, rfl⟩ := he
          rw [if_pos (.inr (.inl rfl))]
          exact ⟨rfl, rfl, hq, .inl ⟨rfl, rfl⟩, by simp⟩
        | false =>
          simp only [Prod.mk.injEq, Bool.false_eq_true, if_false] at he
          obtain ⟨rfl, rfl, rfl, rfl⟩ := he
          rw [if_neg (by simp [h0])]
          exact ⟨g1, rfl, hq, .inl ⟨rfl, rfl⟩, g3⟩
      | unraisable =>
        dsimp only at he
        rw [hex] at he
        cases keyboard with
        | true =>
          simp only [Prod.mk.injEq, if_true] at he
          obtain ⟨rfl, rfl, rfl, rfl⟩ := he
          rw [if_pos (.inr (.inl rfl))]
          exact ⟨rfl, rfl, hq, .inl ⟨rfl, rfl⟩, by simp⟩
        | false =>
          simp only [Prod.mk.injEq, Bool.false_eq_true, if_false] at he
          obtain ⟨rfl, rfl, rfl, rfl⟩ := he
          rw [if_neg (by simp [h0])]
          exact ⟨g1, rfl, hq, .inl ⟨rfl, rfl⟩, g3⟩
  | start child =>
    dsimp only at he ⊢
    simp only [Prod.mk.injEq] at he
    obtain ⟨rfl, rfl, rfl, rfl⟩ := he
    refine ⟨rfl, rfl, ⟨hk.handlers, hk.root, ?_⟩, .inl ⟨rfl, rfl⟩, by simp⟩
    funext t
    show (if t = child then i.comm tid else i.comm t) = (if p = p ∧ child = t then nameOf W.start p past tid else nameOf W.start p past t)
    rw [hk.comm]
    by_cases ht : t = child
    · rw [if_pos ht, if_pos ⟨rfl, ht.symm⟩]
    · rw [if_neg ht, if_neg fun h => ht h.2.symm]

/-! ## All inputs -/

def PyLine.entry (x : PyLine) : Entry := plainSpec x.task (writerKernel (UInt32.ofNat x.sev) x.tag (x.text ++ [0])).flatten

theorem Call.entry_line (P : Nat → Prog) (p : Nat) (c : Call) : c.entry P p = c.line.entry := by
  unfold Call.entry Said.entry PyLine.entry Call.line
  rw [Call.said_vec, UInt32.ofNat_toNat]
  rfl

def World.entries (W : World) : List In → List In → List Entry
  | _, [] => []
  | past, .said m :: l => (if m.passes W.P then [m.entry W.P] else []) ++ W.entries (.said m :: past) l
  | past, .py p a :: l => (W.let_ past p a).map (·.entry) ++ W.entries (.py p a :: past) l

/-- Ordinary inputs. -/
def In.Plain (W : World) : In → Prop
  | .said m => m.Plain W.P
  | .py p a => W.pid p ≠ 0xffffffff ∧ a.op.Plain

theorem Knows.other {W : World} {past : List In} {p q : Nat} {i : Interp} (hk : Knows W past q i) (hne : p ≠ q) (a : Act) : Knows W (.py p a :: past) q i := by
  obtain ⟨tid, op, euid, clock⟩ := a
  cases op with
  | setup name =>
    refine hk.quiet ?_ fun t => ?_
    · show (if p = q then 1 else 0) + setups q past = _
      rw [if_neg hne, Nat.zero_add]
    · show (if p = q ∧ tid = t ∧ name ≠ [] then name.take 15 else nameOf W.start q past t) = _
      rw [if_neg fun h => hne h.1]
  | record own level tag msg => exact hk.quiet rfl fun _ => rfl
  | uncaught place keyboard trace => exact hk.quiet rfl fun _ => rfl
  | start child =>
    refine hk.quiet rfl fun t => ?_
    show (if p = q ∧ child = t then nameOf W.start q past tid else nameOf W.start q past t) = _
    rw [if_neg fun h => hne h.1]

theorem filter_calls {P : Nat → Prog} {p n : Nat} {pid : UInt32} {cs : List Call} (h : ∀ c ∈ cs, c.Good pid n) :
    (cs.filter (·.passes P p)).map (·.entry P p) =
      ((cs.map Call.line).filter fun x => decide ((x.sev : Int) ≤ pyMax (P p).env.getenv)).map (·.entry) := by
  induction cs with
  | nil => rfl
  | cons c cs ih =>
    have hc : c.passes P p = decide ((c.line.sev : Int) ≤ pyMax (P p).env.getenv) := by
      unfold Call.passes
      rw [Nat.mod_eq_of_lt (h c (by simp)).prio]
      rfl
    rw [List.map_cons, List.filter_cons, List.filter_cons, hc]
    split
    · rw [List.map_cons, List.map_cons, ih fun x hx => h x (by simp [hx]), Call.entry_line]
    · exact ih fun x hx => h x (by simp [hx])

theorem inputs_run {D : Bytes} {W : World} (hP : ∀ p, (W.P p).Plain D) (hm : Masters W.P) (hl : ∀ t, IsLines t (W.lines t)) (name : Bytes)
    (junk : Nat → UInt8) (l : List In) : ∀ {past : List In} {libs : Nat → Lib} {ints : Nat → Interp} {a : ASys} {o : Obs}, (∀ x ∈ l, x.Plain W) →
    (∀ q, LibOk (W.P q) (libs q)) → FilesOk libs a → ObsOk o → (∀ q, Knows W past q (ints q)) →
    (∀ q i, i < (ints q).handlers → 0 ≤ (libs q).level (master i)) →
    ∃ ops, inAll W.P W.pid junk libs ints l = .ok (ops, W.results past l) ∧ (∀ op ∈ ops, op.supported = true) ∧ (arun a ops).1.files 0 = none ∧
      ObsOk ((arun a ops).2.foldl (obsStep name) o) ∧ ((arun a ops).2.foldl (obsStep name) o).hist = o.hist ++ W.entries past l ∧
      ∀ x ∈ (arun a ops).2, ∀ e, x.2 ≠ .err e := by
  induction l with
  | nil =>
    intro past libs ints a o _ hL hF hO _ _
    exact ⟨[], rfl, by simp, hF.viewer, hO, by simp [arun, World.entries], by simp [arun]⟩
  | cons x l ih =>
    intro past libs ints a o hpl hL hF hO hK hV
    cases x with
    | said m =>
      obtain ⟨s', e, e1, g1, g2, g3, g4, g5, g6⟩ := say_one hP name junk m hL hF hO
      obtain ⟨ops, i1, i2, i3, i4, i5, i6⟩ := ih (past := .said m :: past) (ints := ints) (fun x hx => hpl x (by simp [hx])) g1 g3 g4
        (fun q => (hK q).quiet rfl fun _ => rfl) (fun q i hi => by
          by_cases hq : q = m.prog
          · rw [if_pos hq]; exact said_level e1 (by rw [← hq]; exact hV q i hi)
          · rw [if_neg hq]; exact hV q i hi)
      refine ⟨e.flatMap (driverOps (m.prog + 1) m.task junk) ++ ops, ?_, ?_, ?_, ?_, ?_, ?_⟩
      · unfold inAll
        rw [e1]
        simp only [bind, Except.bind]
        rw [i1]
        rfl
      · exact fun op hop => (List.mem_append.1 hop).elim (g2 op) (i2 op)
      · rw [arun_append]; exact i3
      · rw [arun_append, List.foldl_append]; exact i4
      · rw [arun_append, List.foldl_append, i5, g5, List.append_assoc]; rfl
      · rw [arun_append]
        exact fun x hx => (List.mem_append.1 hx).elim (g6 x) (i6 x)
    | py p act' =>
      obtain ⟨i', hd, cs, r, hact⟩ : ∃ i' hd cs r, act (W.P p).env.getenv (W.pid p) (ints p) act' = (i', hd, cs, r) := ⟨_, _, _, _, rfl⟩
      obtain ⟨a1, a2, a3, a4, a5⟩ := act_eq hl (hK p) (hpl (.py p act') (by simp)).2 hact
      obtain ⟨m1, m2, m3, m4⟩ := handler_made (hP p) (hL p) hd
      obtain ⟨s1, hs1⟩ : ∃ s1, s1 = newHandler (W.P p).nm (W.P p).env (libs p) hd := ⟨_, rfl⟩
      rw [← hs1] at m1 m2 m3 m4
      have hL1 : ∀ q, LibOk (W.P q) (if q = p then s1 else libs q) := by
        intro q
        by_cases hq : q = p
        · rw [if_pos hq, hq]; exact m1
        · rw [if_neg hq]; exact hL q
      have hF1 : FilesOk (fun q => if q = p then s1 else libs q) a := by
        refine ⟨hF.viewer, fun q => ?_, fun q => ?_⟩
        · by_cases hq : q = p
          · rw [if_pos hq, m2, hq]; exact hF.fresh p
          · rw [if_neg hq]; exact hF.fresh q
        · by_cases hq : q = p
          · rw [if_pos hq, m2, hq]; exact hF.opened p
          · rw [if_neg hq]; exact hF.opened q
      have hlev : ∀ i, i < i'.handlers → 0 ≤ s1.level (master i) := by
        intro i hi
        rcases a4 with ⟨_, h2⟩ | ⟨h1, h2⟩
        · exact m3 _ (hV p i (by omega))
        · by_cases hx : i = (ints p).handlers
          · rw [hx]; exact m4 _ h1
          · exact m3 _ (hV p i (by omega))
      obtain ⟨s2, es, g1, g2, g3, g4, g5, g6, g7, g8⟩ := calls_run hP hm name junk p i'.handlers cs (fun c hc => (a5 c hc).handler)
        (libs := fun q => if q = p then s1 else libs q) hL1 hF1 hO (fun i hi => by rw [if_pos rfl]; exact hlev i hi)
      rw [if_pos rfl] at g1 g3
      have hff : (fun q => if q = p then s2 else if q = p then s1 else libs q) = fun q => if q = p then s2 else libs q := by
        funext q
        by_cases hq : q = p
        · rw [if_pos hq, if_pos hq]
        · rw [if_neg hq, if_neg hq, if_neg hq]
      rw [hff] at g5
      obtain ⟨ops, i1, i2, i3, i4, i5, i6⟩ := ih (past := .py p act' :: past) (libs := fun q => if q = p then s2 else libs q)
        (ints := fun q => if q = p then i' else ints q) (fun x hx => hpl x (by simp [hx]))
        (fun q => by have := g2 q; rw [show (if q = p then s2 else if q = p then s1 else libs q) = (if q = p then s2 else libs q) from congrFun hff q] at this; exact this)
        g5 g6
        (fun q => by
          by_cases hq : q = p
          · rw [if_pos hq, hq]; exact a3
          · rw [if_neg hq]; exact (hK q).other (Ne.symm hq) act')
        (fun q i hi => by
          by_cases hq : q = p
          · rw [if_pos hq] at hi ⊢; rw [g3]; exact hlev i hi
          · rw [if_neg hq] at hi ⊢; exact hV q i hi)
      refine ⟨opsOf p junk es ++ ops, ?_, ?_, ?_, ?_, ?_, ?_⟩
      · unfold inAll
        dsimp only
        rw [hact]
        dsimp only
        rw [← hs1, g1]
        simp only [bind, Except.bind]
        rw [i1]
        dsimp only
        rw [a2]
        rfl
      · exact fun op hop => (List.mem_append.1 hop).elim (g4 op) (i2 op)
      · rw [arun_append]; exact i3
      · rw [arun_append, List.foldl_append]; exact i4
      · rw [arun_append, List.foldl_append, i5, g7, List.append_assoc, filter_calls a5, a1]; rfl
      · rw [arun_append]
        exact fun x hx => (List.mem_append.1 hx).elim (g8 x) (i6 x)

/-! ## The screen -/

/-- A line that can be read. -/
structure PyLine.Good (x : PyLine) : Prop where
  sev : x.sev < 8
  tag : NoNul x.tag
  short : x.tag.length ≤ 4000
  text : NoNul x.text
  task : x.task.pid ≠ 0xffffffff

theorem recordLines_good {lines : Bytes → List Bytes} (hl : ∀ t, IsLines t (lines t)) {pid : UInt32} (hpid : pid ≠ 0xffffffff) (name : UInt32 → Bytes) (a : Act)
    (n level : Nat) {tag msg : Bytes} (htag : NoNul tag) (hs : tag.length ≤ 4000) (hmsg : NoNul msg) :
    ∀ x ∈ recordLines lines pid name a n level tag msg, x.Good := by
  intro x hx
  unfold recordLines at hx
  cases hsev : severity level with
  | none => rw [hsev] at hx; cases hx
  | some sev =>
    rw [hsev] at hx
    obtain ⟨h, _, hx⟩ := List.mem_flatMap.1 hx
    obtain ⟨l, hl1, rfl⟩ := List.mem_map.1 hx
    refine ⟨?_, htag, hs, lines_noNul (hl msg) hmsg _ (List.fst_mem_of_mem_zipIdx hl1), hpid⟩
    have := (severity_eq level).2 sev hsev
    dsimp only
    split <;> omega

theorem logs_good {W : World} (hl : ∀ t, IsLines t (W.lines t)) {p : Nat} (hpid : W.pid p ≠ 0xffffffff) (past : List In) {a : Act} (ha : a.op.Plain) :
    ∀ x ∈ W.let_ past p a, x.Good := by
  intro x hx
  have hx := (List.mem_filter.1 hx).1
  obtain ⟨tid, op, euid, clock⟩ := a
  unfold World.logs logs at hx
  cases op with
  | setup name =>
    dsimp only at hx ha
    have hnn : NoNul name := fun b hb => by
      intro h0
      have := (ha b hb).1
      rw [h0] at this
      simp at this
    by_cases h15 : 15 < name.length
    · rw [if_pos h15] at hx
      exact recordLines_good hl hpid _ _ _ _ (by decide) (by decide)
        (noNul_append (noNul_append (noNul_append (noNul_append (by decide +kernel) hnn) (by decide +kernel)) fun b hb => hnn b (List.mem_of_mem_take hb)) (by decide +kernel)) x hx
    · rw [if_neg h15] at hx; cases hx
  | record own level tag msg =>
    dsimp only at hx ha
    by_cases h0 : setups p past = 0 ∨ level < own.getD (pyMin (W.P p).env.getenv)
    · rw [if_pos h0] at hx; cases hx
    · rw [if_neg h0] at hx
      exact recordLines_good hl hpid _ _ _ _ ha.1 ha.2.1 ha.2.2 x hx
  | uncaught place keyboard trace =>
    dsimp only at hx ha
    by_cases h0 : setups p past = 0 ∨ keyboard = true ∨ place = .thread
    · rw [if_pos h0] at hx; cases hx
    · rw [if_neg h0] at hx
      dsimp only at hx
      exact recordLines_good hl hpid _ _ _ _ (tag := ascii "root") (msg := ascii "Uncaught exception" ++ [10] ++ trace) (by decide) (by decide)
        (noNul_append (by decide +kernel) ha) x hx
  | start child => cases hx

theorem PyLine.entry_said (P : Nat → Prog) (x : PyLine) :
    ∃ (Q : Nat → Prog) (m : Said), x.entry = m.entry Q ∧ m.size Q = x.size ∧ (∀ L, m.lines Q L = x.shown L) ∧ (x.Good → m.Plain Q) := by
  obtain ⟨c, hc⟩ : ∃ c : Call, c = { handler := 0, tag := x.tag, prio := UInt32.ofNat x.sev, text := x.text, task := x.task } := ⟨_, rfl⟩
  have hn : (c.said 0).name (c.progs P 0) = x.tag := by rw [hc]; simp [Said.name, Call.said, Call.progs]
  refine ⟨c.progs P 0, c.said 0, ?_, ?_, fun L => ?_, fun h => ⟨by rw [hn]; exact h.tag, by rw [hc]; exact h.text, ?_, ?_, ?_⟩⟩
  · unfold Said.entry PyLine.entry
    rw [Call.said_vec, hc]
    rfl
  · unfold Said.size PyLine.size
    rw [hn, hc]
    rfl
  · unfold Said.lines PyLine.shown
    rw [hn, hc]
    rfl
  · rw [hc]
    show prioBinary (UInt32.ofNat x.sev) = false
    have := h.sev
    unfold prioBinary
    rw [UInt32.toNat_ofNat']
    exact decide_eq_false (by omega)
  · rw [hn, hc]
    have := h.short
    have := prefixLen_le x.task
    show prefixLen x.task + (4 + x.tag.length + 1) < 4076
    omega
  · rw [hc]
    exact fun hx => h.task hx.1

theorem entries_size {W : World} (l : List In) : ∀ past, bytesLen (W.entries past l) = W.room past l := by
  have happ : ∀ a b : List Entry, bytesLen (a ++ b) = bytesLen a + bytesLen b := fun a b => by simp [bytesLen]
  have hlines : ∀ xs : List PyLine, bytesLen (xs.map (·.entry)) = (xs.map (·.size)).sum := by
    intro xs
    induction xs with
    | nil => rfl
    | cons x xs ih =>
      obtain ⟨Q, m, h1, h2, _⟩ := PyLine.entry_said W.P x
      simp only [List.map_cons, bytesLen, List.sum_cons] at ih ⊢
      rw [ih, h1, Said.entry_size, h2]
  induction l with
  | nil => intro _; rfl
  | cons x l ih =>
    intro past
    cases x with
    | said m =>
      unfold World.entries World.room
      rw [happ, ih]
      cases m.passes W.P with
      | true => simp [bytesLen, Said.entry_size]
      | false => simp [bytesLen]
    | py p a =>
      unfold World.entries World.room
      rw [happ, ih, hlines]

theorem entries_count {W : World} (l : List In) : ∀ past, (W.entries past l).length ≤ W.count past l := by
  induction l with
  | nil => intro _; exact Nat.le_refl _
  | cons x l ih =>
    intro past
    cases x with
    | said m =>
      unfold World.entries World.count
      rw [List.length_append]
      have := ih (.said m :: past)
      split <;> simp only [List.length_cons, List.length_nil] <;> omega
    | py p a =>
      unfold World.entries World.count
      rw [List.length_append, List.length_map]
      have := ih (.py p a :: past)
      omega

theorem entries_text {W : World} (hl : ∀ t, IsLines t (W.lines t)) {L : Look} (hk : L.kmsgd = false) (l : List In) : ∀ past, (∀ x ∈ l, x.Plain W) →
    (W.entries past l).flatMap (entryText L) = W.screen L past l ∧ Genuine (W.entries past l) := by
  induction l with
  | nil => intro _ _; exact ⟨rfl, by intro e he; cases he⟩
  | cons x l ih =>
    intro past hpl
    have hrest := fun past => ih past fun x hx => hpl x (by simp [hx])
    cases x with
    | said m =>
      have hm : m.Plain W.P := hpl (.said m) (by simp)
      unfold World.entries World.screen
      rw [List.flatMap_append, (hrest _).1]
      cases m.passes W.P with
      | true =>
        refine ⟨?_, ?_⟩
        · simp only [if_true, List.flatMap_cons, List.flatMap_nil, List.append_nil]
          rw [Said.entry_text hm hk]
        · intro e he
          rcases List.mem_append.1 he with he | he
          · rw [if_pos rfl, List.mem_singleton] at he
            rw [he]
            exact hm.task
          · exact (hrest _).2 e he
      | false => exact ⟨rfl, fun e he => (hrest _).2 e (by simpa using he)⟩
    | py p a =>
      have hp : W.pid p ≠ 0xffffffff ∧ a.op.Plain := hpl (.py p a) (by simp)
      have hg := logs_good hl hp.1 past hp.2
      unfold World.entries World.screen
      rw [List.flatMap_append, (hrest _).1, flatMap_map]
      refine ⟨congrArg (· ++ _) (flatMap_congr' fun x hx => ?_), ?_⟩
      · obtain ⟨Q, m, h1, _, h3, h4⟩ := PyLine.entry_said W.P x
        rw [h1, Said.entry_text (h4 (hg x hx)) hk, h3]
      · intro e he
        rcases List.mem_append.1 he with he | he
        · obtain ⟨x, hx, rfl⟩ := List.mem_map.1 he
          obtain ⟨Q, m, h1, _, _, h4⟩ := PyLine.entry_said W.P x
          rw [h1]
          exact (h4 (hg x hx)).task
        · exact (hrest _).2 e he

/-- A new interpreter. -/
def fresh (start : UInt32 → Bytes) : Interp := { handlers := 0, root := 30, comm := start }

/-- **C123:** programs log to one device from Python set up by `setup_logging`, and from
C; then the viewer dumps it. No call faults, the screen shows exactly the lines of the
records, of the exceptions and of the messages that are let through, in the order of the
calls, each record as often as `setup_logging` was called before, and each action ends as
it should. -/
theorem C123_screen {D : Bytes} {W : World} (hP : ∀ p, (W.P p).Plain D) (hm : Masters W.P) (hl : ∀ t, IsLines t (W.lines t)) {l : List In}
    (hpl : ∀ x ∈ l, x.Plain W) (junk : Nat → UInt8) {name : Bytes} {k : Nat} (buf : Nat → UInt8) (hk : 14 ≤ k) (hname : name.length ≤ 89)
    (hcount : W.count [] l < 2147483648) (hroom : W.room [] l + 8200 ≤ 2 ^ k) {L : Look} (hkd : L.kmsgd = false) :
    ∃ ops sys tr m, inAll W.P W.pid junk (fun _ => .start) (fun p => fresh (W.start p)) l = .ok (ops, W.results [] l) ∧
      Kernel.run (Kernel.init name k buf) (ops ++ [.openF 0 true false true, .getLogLen 0]) = .ok (sys, tr ++ [(.getLogLen 0, .ret m)]) ∧
      (∀ p ∈ tr, ∀ e, p.2 ≠ .err e) ∧ Dumps L sys tr m (W.count [] l) fun bs => bs = W.screen L [] l := by
  obtain ⟨ops, g1, g2, g3, g4, g5, g6⟩ := inputs_run hP hm hl name junk l (past := []) (libs := fun _ => .start) (ints := fun p => fresh (W.start p))
    (a := ainit name k) (o := Obs.init) hpl (fun p => ⟨rfl, rfl, fun c => .inl (by simp [Lib.start]), .inl rfl⟩)
    ⟨rfl, fun _ _ => rfl, fun _ h => absurd rfl h⟩ ⟨fun _ => rfl, rfl⟩ (fun p => ⟨rfl, fun h => absurd rfl h, rfl⟩) (fun p i hi => absurd hi (Nat.not_lt_zero i))
  have hlog : Logged name k ops (W.entries [] l) := ⟨g2, g3, g4.base, g5⟩
  obtain ⟨htext, hgen⟩ := entries_text hl hkd l [] hpl
  have hle := entries_count (W := W) l []
  obtain ⟨sys, tr, m, h0, h1, h2⟩ := hlog.screen buf hk hname hgen (by omega) (L := L) (by simp [hkd])
  refine ⟨ops, sys, tr, m, g1, h1, ?_, fun euid n fuel hfuel buf0 hb paths ans hans => ?_⟩
  · rw [h0]
    intro p hp e
    rcases List.mem_append.1 hp with hp | hp
    · exact g6 p hp e
    · rw [List.mem_singleton.1 hp]; simp
  · obtain ⟨all, c, t, e1, e2, _, e3⟩ := h2 euid n fuel (by omega) hb (paths := paths) hans
    exact ⟨all, c, t, e1, e2, (e3 (by rw [entries_size]; exact hroom)).trans htext⟩

/-! ## What is false -/

/-- **C123 is false:** an exception that nobody catches in a thread other than the main
one is not logged, and the program goes on. -/
theorem C123_false_thread (getenv : Bytes → Option Bytes) (pid : UInt32) (p : Interp) (a : Act) {keyboard : Bool} {trace : Bytes}
    (ha : a.op = .uncaught .thread keyboard trace) : act getenv pid p a = (p, none, [], .traceback) := by
  unfold act
  rw [ha]
  dsimp only
  split <;> rfl

/-- **C123 is false:** after an exception in a callback the program goes on, though the
hook calls `sys.exit`. -/
theorem C123_false_callback {W : World} (hl : ∀ t, IsLines t (W.lines t)) {past : List In} {p : Nat} {i : Interp} (hk : Knows W past p i)
    (h0 : setups p past ≠ 0) {a : Act} {trace : Bytes} (ha : a.op = .uncaught .unraisable false trace) (ht : NoNul trace) :
    (act (W.P p).env.getenv (W.pid p) i a).2.2.2 = .done := by
  obtain ⟨i', h, cs, r, he⟩ : ∃ i' h cs r, act (W.P p).env.getenv (W.pid p) i a = (i', h, cs, r) := ⟨_, _, _, _, rfl⟩
  rw [he]
  show r = .done
  rw [(act_eq hl hk (by rw [ha]; exact ht) he).2.1]
  unfold World.logs logs
  rw [ha]
  dsimp only
  rw [if_neg (by simp [h0])]
  rfl

/-- **C123 is false:** `ULOG_LEVEL=7` lets debug messages of C through, but no debug
record of a Python logger; only the letter does. -/
theorem C123_false_debug {getenv : Bytes → Option Bytes} (h7 : getenv (ascii "ULOG_LEVEL") = some (ascii "7")) (pid : UInt32) (p : Interp) (a b : Act)
    {name tag msg : Bytes} (ha : a.op = .setup name) (hb : b.op = .record none 10 tag msg) :
    (act getenv pid (act getenv pid p a).1 b).2.2.1 = [] ∧ levelOf ((ascii "7").headD 0) = 7 := by
  have hroot : (act getenv pid p a).1.root = 20 := by
    unfold act
    rw [ha]
    dsimp only
    have h : (if getenv (ascii "ULOG_LEVEL") = some (ascii "D") then 10 else 20) = 20 := if_neg (by rw [h7]; decide)
    split
    · exact h
    · split <;> exact h
  refine ⟨?_, by decide⟩
  obtain ⟨q, hq⟩ : ∃ q, q = (act getenv pid p a).1 := ⟨_, rfl⟩
  rw [← hq] at hroot ⊢
  unfold act
  rw [hb]
  dsimp only
  unfold logRecord
  rw [hroot, if_pos (by decide)]

/-- **C123 is false:** `setup_logging` called by another thread than the main one gives the
name to that thread, not to the process. -/
theorem C123_false_name (getenv : Bytes → Option Bytes) (pid : UInt32) (p : Interp) (a : Act) {name : Bytes} (ha : a.op = .setup name) (ht : a.tid ≠ pid) :
    (act getenv pid p a).1.comm pid = p.comm pid ∧ (name ≠ [] → (act getenv pid p a).1.comm a.tid = (cstr name).take 15) := by
  unfold act
  rw [ha]
  dsimp only
  by_cases hn : name = []
  · rw [if_pos hn]
    exact ⟨rfl, fun h => absurd hn h⟩
  · rw [if_neg hn]
    split <;> exact ⟨if_neg (Ne.symm ht), fun _ => if_pos rfl⟩

end Verif.Tools.PySet
