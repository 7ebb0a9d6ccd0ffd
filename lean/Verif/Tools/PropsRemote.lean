import Verif.Tools.PropsCtl
import Verif.Libulog.PropsErrno
import Verif.Ulogcat.PropsSaid
import Verif.Tools.PropsKernelLog

/-!
# From the remote control to the screen (C114)

Processes log and set levels, themselves or on request of a client of libulogctl; then
the viewer dumps the device. What a client sends and what the server makes of it is
C44-C46 and C70; here the requests arrive.
-/
namespace Verif.Tools.Remote
open Verif Verif.Kernel Verif.Libulog Verif.Ulogcat Verif.Tools

/-! ## The calls -/

/-- A call in process `p`, or an event of the server that runs in it; `t` is the thread
of the server. -/
inductive Do
  | say (m : Said)
  /-- `ulog_init` or `ulog_get_level` -/
  | touch (p : Nat) (c : Cid)
  | set (p : Nat) (c : Cid) (l : Int)
  | setTag (p : Nat) (name : Bytes) (l : Int)
  /-- a client connects or disconnects -/
  | conn (p : Nat) (t : Task) (on : Bool)
  | req (p : Nat) (t : Task) (r : Req)

def Do.prog : Do → Nat
  | .say m => m.prog
  | .touch p _ => p
  | .set p _ _ => p
  | .setTag p _ _ => p
  | .conn p _ _ => p
  | .req p _ _ => p

/-- libulogctl/src/ulogctl_srv.c:255-260; `ctl` is the tag of libulogctl. -/
def connMsg (ctl : Cid) (p : Nat) (t : Task) (on : Bool) : Said :=
  { prog := p, task := t, tag := ctl, prio := 7, whole := false
    text := if on then ascii "POMP_EVENT_CONNECTED ..." else ascii "POMP_EVENT_DISCONNECTED ..." }

/-- libulogctl/src/ulogctl_srv.c:68-72; the result is -1, which is EPERM. -/
def failMsg (ctl : Cid) (p : Nat) (t : Task) (name : Bytes) (l : Int) : Said :=
  { prog := p, task := t, tag := ctl, prio := 3, whole := false
    text := ascii "Failed to set the tag \"" ++ name ++ ascii "\" to the level (" ++ decInt l ++ ascii ") err=1(Operation not permitted)" }

/-- One call of libulog and what it does to the driver. -/
def libCall (P : Prog) (junk : Nat → UInt8) (p : Nat) (t : Task) (s : Lib) (op : WOp) : Except WFault (Lib × WRes × List Op) := do
  let (s, r, e) ← wstep P.nm P.env s op
  .ok (s, r, e.flatMap (driverOps (p + 1) t junk))

/-- The requests: `decode_set_tag_level_msg`, `decode_set_all_level_msg`,
`decode_list_msg` (ulogctl_srv.c:52-106, 193-219; see `serve`). -/
def doReq (P : Prog) (ctl : Cid) (junk : Nat → UInt8) (p : Nat) (t : Task) (s : Lib) : Req → Except WFault (Lib × List Op)
  | .setTag name l => do
    let (s, r, ops) ← libCall P junk p t s (.setTagLevel name l)
    if r = .int 0 then .ok (s, ops)
    else do
      let (s, _, ops') ← libCall P junk p t s (failMsg ctl p t name l).op
      .ok (s, ops ++ ops')
  | .setAll l => .ok ((serve P.nm P.env s (.setAll l)).1, [])
  | .list => .ok ((serve P.nm P.env s .list).1, [])

def doStep (P : Prog) (ctl : Cid) (junk : Nat → UInt8) (s : Lib) : Do → Except WFault (Lib × List Op)
  | .say m => do
    let (s, _, ops) ← libCall P junk m.prog m.task s m.op
    .ok (s, ops)
  | .touch _ c => do
    let (s, _, _) ← wstep P.nm P.env s (.init c)
    .ok (s, [])
  | .set _ c l => do
    let (s, _, _) ← wstep P.nm P.env s (.setLevel c l)
    .ok (s, [])
  | .setTag _ name l => do
    let (s, _, _) ← wstep P.nm P.env s (.setTagLevel name l)
    .ok (s, [])
  | .conn p t on => do
    let (s, _, ops) ← libCall P junk p t s (connMsg ctl p t on).op
    .ok (s, ops)
  | .req p t r => doReq P ctl junk p t s r

def doAll (P : Nat → Prog) (ctl : Nat → Cid) (junk : Nat → UInt8) : (Nat → Lib) → List Do → Except WFault (List Op)
  | _, [] => .ok []
  | libs, d :: ds => do
    let (s, ops) ← doStep (P d.prog) (ctl d.prog) junk (libs d.prog) d
    let rest ← doAll P ctl junk (fun p => if p = d.prog then s else libs p) ds
    .ok (ops ++ rest)

/-! ## Specification -/

/-- The tags a process has used, the latest first, with their levels. -/
abbrev Regs := List (Cid × Int)

def Regs.level (r : Regs) (c : Cid) : Option Int := (r.find? fun x => x.1 == c).map (·.2)

def clampTo (l : Int) : Int := max 0 (min 7 l)

/-- The level of a tag at its first use: that of the environment, or that of the default
tag. -/
def Regs.first (P : Prog) (r : Regs) (c : Cid) : Int :=
  match (if P.nm c = [] then none else P.env.getenv (ascii "ULOG_LEVEL_" ++ (P.nm c).take 68)), P.env.getenv (ascii "ULOG_LEVEL") with
  | some v, _ => levelOf (v.headD 0)
  | none, some v => levelOf (v.headD 0)
  | none, none => (r.level 0).getD 6

def Regs.use (P : Prog) (r : Regs) (c : Cid) : Regs := if (r.level c).isSome then r else (c, r.first P c) :: r

def Regs.set (r : Regs) (c : Cid) (l : Int) : Regs := r.map fun x => if x.1 = c then (c, clampTo l) else x

/-- The latest tag of a name. -/
def Regs.named (P : Prog) (r : Regs) (name : Bytes) : Option Cid := (r.find? fun x => P.nm x.1 == name).map (·.1)

/-- A message, if it is let through. -/
def Regs.says (P : Prog) (r : Regs) (m : Said) : Regs × List Said :=
  (r.use P m.tag, if ((m.prio.toNat % 8 : Nat) : Int) ≤ ((r.use P m.tag).level m.tag).getD (-1) then [m] else [])

/-- The tags after a call, and the messages it gives to the log. -/
def Regs.step (P : Prog) (ctl : Cid) (r : Regs) : Do → Regs × List Said
  | .say m => r.says P m
  | .touch _ c => (r.use P c, [])
  | .set _ c l => ((r.use P c).set c l, [])
  | .setTag _ name l =>
    match r.named P name with
    | some c => (r.set c l, [])
    | none => (r, [])
  | .conn p t on => r.says P (connMsg ctl p t on)
  | .req p t (.setTag name l) =>
    match r.named P name with
    | some c => (r.set c l, [])
    | none => r.says P (failMsg ctl p t name l)
  | .req _ _ (.setAll l) => (r.map fun x => if x.1 = 0 then x else (x.1, clampTo l), [])
  | .req _ _ .list => (r, [])

/-- The messages that get to the log. -/
def letThrough (P : Nat → Prog) (ctl : Nat → Cid) : (Nat → Regs) → List Do → List Said
  | _, [] => []
  | rs, d :: ds =>
    ((rs d.prog).step (P d.prog) (ctl d.prog) d).2 ++
      letThrough P ctl (fun p => if p = d.prog then ((rs d.prog).step (P d.prog) (ctl d.prog) d).1 else rs p) ds

/-- The tags of the processes after calls. -/
def regsAfter (P : Nat → Prog) (ctl : Nat → Cid) (rs : Nat → Regs) (ds : List Do) : Nat → Regs :=
  ds.foldl (fun rs d p => if p = d.prog then ((rs d.prog).step (P d.prog) (ctl d.prog) d).1 else rs p) rs

/-! ## The library -/

structure Rel (s : Lib) (r : Regs) : Prop where
  hook : s.hook = none
  device : s.device = none
  writer : s.writer = .init ∨ (s.writer = .kernel ∧ ∃ n, s.fd = some n)
  list : s.list = r.map (·.1)
  level : ∀ c, s.level c = (r.level c).getD (-1)
  nonneg : ∀ x ∈ r, 0 ≤ x.2

theorem Regs.level_nonneg {r : Regs} (h : ∀ x ∈ r, 0 ≤ x.2) {c : Cid} {l : Int} (hl : r.level c = some l) : 0 ≤ l := by
  unfold Regs.level at hl
  cases hf : r.find? (fun x => x.1 == c) with
  | none => rw [hf] at hl; cases hl
  | some x =>
    rw [hf] at hl
    cases hl
    exact h x (List.mem_of_find?_eq_some hf)

theorem Rel.neg {s : Lib} {r : Regs} (h : Rel s r) (c : Cid) : s.level c < 0 ↔ r.level c = none := by
  rw [h.level c]
  cases hl : r.level c with
  | none => simp
  | some l =>
    have := Regs.level_nonneg h.nonneg hl
    simp
    omega

theorem firstLevel_eq {P : Prog} {s : Lib} {r : Regs} (h : Rel s r) (c : Cid) :
    firstLevel P.nm P.env s c = r.first P c := by
  have htake : (ascii "ULOG_LEVEL_" ++ P.nm c).take 79 = ascii "ULOG_LEVEL_" ++ (P.nm c).take 68 := by
    rw [List.take_append]
    rfl
  have hnn : ∀ b, ¬ levelOf b < 0 := fun b => by have := levelOf_nonneg b; omega
  have h0 : (if (if (-1 : Int) < 0 ∧ s.level 0 ≥ 0 then s.level 0 else -1) < 0 then 6 else
      (if (-1 : Int) < 0 ∧ s.level 0 ≥ 0 then s.level 0 else -1)) = (r.level 0).getD 6 := by
    rw [h.level 0]
    cases hl : r.level 0 with
    | none => simp
    | some l =>
      have := Regs.level_nonneg h.nonneg hl
      simp only [Option.getD_some]
      split <;> split at * <;> omega
  unfold firstLevel firstByte Regs.first
  simp only [htake, parseLevel_eq]
  by_cases hn : P.nm c = []
  · simp only [hn, ne_eq, not_true_eq_false, if_false, if_true]
    rw [if_pos (by omega : (-1 : Int) < 0)]
    cases hu : P.env.getenv (ascii "ULOG_LEVEL") with
    | none => exact h0
    | some v =>
      have := hnn (v.headD 0)
      simp only
      rw [if_neg (by omega), if_neg (by omega)]
  · simp only [hn, ne_eq, not_false_eq_true, if_false, if_true]
    cases P.env.getenv (ascii "ULOG_LEVEL_" ++ (P.nm c).take 68) with
    | some v =>
      have := hnn (v.headD 0)
      simp only
      rw [if_neg this, if_neg (by omega), if_neg (by omega)]
    | none =>
      simp only
      rw [if_pos (by omega : (-1 : Int) < 0)]
      cases hu : P.env.getenv (ascii "ULOG_LEVEL") with
      | none => exact h0
      | some v =>
        have := hnn (v.headD 0)
        simp only
        rw [if_neg (by omega), if_neg (by omega)]

theorem Regs.first_nonneg (P : Prog) {r : Regs} (h : ∀ x ∈ r, 0 ≤ x.2) (c : Cid) : 0 ≤ r.first P c := by
  unfold Regs.first
  split
  · exact levelOf_nonneg _
  · exact levelOf_nonneg _
  · cases hl : r.level 0 with
    | none => decide
    | some l => exact Regs.level_nonneg h hl

theorem Regs.level_cons (x : Cid × Int) (r : Regs) (c : Cid) : Regs.level (x :: r) c = if x.1 = c then some x.2 else r.level c := by
  unfold Regs.level
  rw [List.find?_cons]
  by_cases h : x.1 = c
  · simp [h]
  · simp [h, beq_false_of_ne h]

theorem ensure_rel {P : Prog} {s : Lib} {r : Regs} (h : Rel s r) (c : Cid) :
    ∃ s1, ensureInit P.nm P.env s c = (s1, []) ∧ Rel s1 (r.use P c) ∧ s1.writer = s.writer ∧ s1.fd = s.fd := by
  unfold ensureInit Regs.use
  by_cases hl : s.level c < 0
  · have hn := (h.neg c).1 hl
    rw [if_pos hl, if_neg (by rw [hn]; simp)]
    unfold initCookie
    dsimp only
    rw [if_pos hl, show hookEv s c = [] by unfold hookEv; rw [h.hook]; rfl, firstLevel_eq h]
    refine ⟨_, rfl, ⟨h.hook, h.device, h.writer, by rw [List.map_cons, ← h.list], fun d => ?_, fun x hx => ?_⟩, rfl, rfl⟩
    · dsimp only
      rw [Regs.level_cons]
      by_cases hd : d = c
      · rw [if_pos hd, if_pos hd.symm]; rfl
      · rw [if_neg hd, if_neg (fun h => hd h.symm)]; exact h.level d
    · rcases List.mem_cons.1 hx with rfl | hx
      · exact Regs.first_nonneg P h.nonneg c
      · exact h.nonneg x hx
  · rw [if_neg hl, if_pos (by
      cases hn : r.level c with
      | none => exact absurd ((h.neg c).2 hn) hl
      | some l => rfl)]
    exact ⟨s, rfl, h, rfl, rfl⟩

theorem Regs.use_level (P : Prog) (r : Regs) (c : Cid) : ((r.use P c).level c).isSome = true := by
  unfold Regs.use
  split
  · assumption
  · rw [Regs.level_cons, if_pos rfl]; rfl

theorem clamp_eq (l : Int) : clampLevel l = clampTo l := by
  unfold clampLevel clampTo
  dsimp only
  split <;> split <;> omega

theorem Regs.level_set (r : Regs) (c : Cid) (l : Int) (d : Cid) :
    (r.set c l).level d = if d = c ∧ (r.level c).isSome then some (clampTo l) else r.level d := by
  induction r with
  | nil => simp [Regs.set, Regs.level]
  | cons x r ih =>
    have hs : Regs.set (x :: r) c l = (if x.1 = c then (c, clampTo l) else x) :: Regs.set r c l := rfl
    rw [hs, Regs.level_cons, ih, Regs.level_cons, Regs.level_cons]
    by_cases h1 : x.1 = c
    · by_cases h2 : d = c
      · simp [h1, h2]
      · have : ¬ c = d := fun h => h2 h.symm
        simp [h1, h2, this]
    · by_cases h2 : d = c
      · subst h2
        simp [h1]
      · simp [h1, h2]

theorem Rel.set {s : Lib} {r : Regs} (h : Rel s r) {c : Cid} (hc : (r.level c).isSome = true) (l : Int) :
    Rel { s with level := fun d => if d = c then clampLevel l else s.level d } (r.set c l) where
  hook := h.hook
  device := h.device
  writer := h.writer
  list := by
    show s.list = _
    rw [h.list]
    unfold Regs.set
    rw [List.map_map]
    refine List.map_congr_left fun x _ => ?_
    dsimp only [Function.comp]
    split
    · assumption
    · rfl
  level := fun d => by
    dsimp only
    rw [Regs.level_set]
    by_cases hd : d = c
    · rw [if_pos hd, if_pos ⟨hd, hc⟩, clamp_eq]; rfl
    · rw [if_neg hd, if_neg (fun h => hd h.1)]; exact h.level d
  nonneg := fun x hx => by
    obtain ⟨y, hy, rfl⟩ := List.mem_map.1 hx
    split
    · unfold clampTo; omega
    · exact h.nonneg y hy

theorem Rel.setLevel {P : Prog} {s : Lib} {r : Regs} (h : Rel s r) (c : Cid) (l : Int) :
    ∃ s1, setLevel P.nm P.env s c l = (s1, []) ∧ Rel s1 ((r.use P c).set c l) ∧ s1.writer = s.writer := by
  obtain ⟨s1, h1, h2, h3, _⟩ := ensure_rel (P := P) h c
  unfold Libulog.setLevel
  rw [h1]
  exact ⟨_, rfl, h2.set (Regs.use_level P r c) l, h3⟩

theorem Regs.named_list (P : Prog) {s : Lib} {r : Regs} (h : Rel s r) (name : Bytes) :
    (s.list.find? fun c => P.nm c == name) = r.named P name := by
  rw [h.list, List.find?_map]
  rfl

theorem Regs.named_level {P : Prog} {r : Regs} {name : Bytes} {c : Cid} (h : r.named P name = some c) : (r.level c).isSome = true := by
  unfold Regs.named at h
  cases hf : r.find? (fun x => P.nm x.1 == name) with
  | none => rw [hf] at h; cases h
  | some x =>
    rw [hf] at h
    cases h
    have hx := List.mem_of_find?_eq_some hf
    unfold Regs.level
    rw [Option.isSome_map, List.find?_isSome]
    exact ⟨x, hx, by simp⟩

theorem Rel.setTag {P : Prog} {s : Lib} {r : Regs} (h : Rel s r) (name : Bytes) (l : Int) :
    (∃ c s1, r.named P name = some c ∧ wstep P.nm P.env s (.setTagLevel name l) = .ok (s1, .int 0, []) ∧ Rel s1 (r.set c l) ∧ s1.writer = s.writer) ∨
    (r.named P name = none ∧ wstep P.nm P.env s (.setTagLevel name l) = .ok (s, .int (-1), [])) := by
  cases hn : r.named P name with
  | none =>
    refine .inr ⟨rfl, ?_⟩
    simp only [wstep, Regs.named_list P h, hn]
  | some c =>
    have hc := Regs.named_level hn
    obtain ⟨s1, h1, h2, h3⟩ := h.setLevel (P := P) c l
    refine .inl ⟨c, s1, rfl, ?_, ?_, h3⟩
    · simp only [wstep, Regs.named_list P h, hn, h1]
    · have : r.use P c = r := by unfold Regs.use; rw [if_pos hc]
      rw [this] at h2
      exact h2

theorem setLevels_rel {P : Prog} (l : Int) : ∀ (cs : List Cid) {s : Lib} {r : Regs}, Rel s r → (∀ c ∈ cs, (r.level c).isSome = true) →
    Rel (setLevels P.nm P.env s l cs) (r.map fun x => if x.1 ∈ cs then (x.1, clampTo l) else x) ∧ (setLevels P.nm P.env s l cs).writer = s.writer := by
  intro cs
  induction cs with
  | nil => intro s r h _; simpa [setLevels] using h
  | cons c cs ih =>
    intro s r h hc
    obtain ⟨s1, h1, h2, h3⟩ := h.setLevel (P := P) c l
    have hu : r.use P c = r := by unfold Regs.use; rw [if_pos (hc c (by simp))]
    rw [hu] at h2
    have hc' : ∀ d ∈ cs, ((r.set c l).level d).isSome = true := by
      intro d hd
      rw [Regs.level_set]
      split
      · rfl
      · exact hc d (by simp [hd])
    obtain ⟨i1, i2⟩ := ih h2 hc'
    rw [setLevels, h1]
    refine ⟨?_, i2.trans h3⟩
    have hm : (Regs.set r c l).map (fun x => if x.1 ∈ cs then (x.1, clampTo l) else x) =
        r.map (fun x => if x.1 ∈ c :: cs then (x.1, clampTo l) else x) := by
      unfold Regs.set
      rw [List.map_map]
      refine List.map_congr_left fun x _ => ?_
      dsimp only [Function.comp]
      by_cases hx : x.1 = c
      · simp [hx]
      · simp [hx]
    rw [hm] at i1
    exact i1

theorem Rel.setAll {P : Prog} {s : Lib} {r : Regs} (h : Rel s r) (l : Int) :
    Rel (serve P.nm P.env s (.setAll l)).1 (r.map fun x => if x.1 = 0 then x else (x.1, clampTo l)) ∧
      (serve P.nm P.env s (.setAll l)).1.writer = s.writer := by
  have hmem : ∀ c, c ∈ s.list ↔ ∃ x ∈ r, x.1 = c := by
    intro c; rw [h.list, List.mem_map]
  obtain ⟨h1, h2⟩ := setLevels_rel (P := P) l (s.list.filter (· != 0)) h (by
    intro c hc
    obtain ⟨x, hx, hxc⟩ := (hmem c).1 (List.mem_filter.1 hc).1
    unfold Regs.level
    rw [Option.isSome_map, List.find?_isSome]
    exact ⟨x, hx, by simp [hxc]⟩)
  refine ⟨?_, h2⟩
  have hm : r.map (fun x => if x.1 ∈ s.list.filter (· != 0) then (x.1, clampTo l) else x) =
      r.map (fun x => if x.1 = 0 then x else (x.1, clampTo l)) := by
    refine List.map_congr_left fun x hx => ?_
    have : x.1 ∈ s.list := (hmem x.1).2 ⟨x, hx, rfl⟩
    by_cases h0 : x.1 = 0
    · rw [if_pos h0, if_neg (by rw [List.mem_filter]; simp [h0])]
    · rw [if_neg h0, if_pos (by rw [List.mem_filter]; simp [h0, this])]
  rw [hm] at h1
  exact h1

/-- One message in one process. -/
theorem say_rel {D : Bytes} {P : Nat → Prog} (m : Said) (hP : (P m.prog).Plain D) {s : Lib} {r : Regs} (h : Rel s r) :
    ∃ (s' : Lib) (e : List Ev) (pass : Bool), wstep (P m.prog).nm (P m.prog).env s m.op = .ok (s', .unit, e) ∧ Rel s' (r.says (P m.prog) m).1 ∧
      (r.says (P m.prog) m).2 = (if pass then [m] else []) ∧
      ((pass = false ∧ s'.writer = s.writer ∧ e = []) ∨
       (pass = true ∧ s'.writer = .kernel ∧ ∃ n, e = (if s.writer = .init then [.opened n] else []) ++ [.writev (some n) (m.vec P)])) := by
  have hop : wstep (P m.prog).nm (P m.prog).env s m.op =
      logOn (P m.prog).nm (P m.prog).env s m.prio m.tag (some (m.kept ++ [0])) := by
    unfold Said.op Said.kept
    cases m.whole <;> rfl
  obtain ⟨s1, e1, h1, w1, f1⟩ := ensure_rel (P := P m.prog) h m.tag
  rw [hop]
  unfold logOn Regs.says
  rw [e1]
  dsimp only
  rw [h1.level]
  by_cases hp : ((m.prio.toNat % 8 : Nat) : Int) ≤ ((r.use (P m.prog) m.tag).level m.tag).getD (-1)
  · rw [if_pos hp, if_pos hp]
    rcases h.writer with hw | ⟨hw, n, hn⟩
    · obtain ⟨n, hn⟩ := hP.opens
      have hch : devChoice (P m.prog).env s1 = D := by
        rw [← hP.device]
        unfold devChoice Prog.device Libulog.devPath
        rw [h1.device]
        cases (P m.prog).env.getenv (ascii "ULOG_DEVICE") <;> rfl
      refine ⟨{ s1 with fd := some n, writer := .kernel }, [.opened n, .writev (some n) (m.vec P)], true, ?_,
        ⟨h1.hook, h1.device, .inr ⟨rfl, n, rfl⟩, h1.list, h1.level, h1.nonneg⟩, rfl, .inr ⟨rfl, rfl, n, by rw [if_pos hw]; rfl⟩⟩
      unfold deliver
      rw [w1, hw]
      simp only [callWriter, w1, hw, if_true, ctrlInit, hch, hn, hP.stderr, Option.isSome_some, Option.isSome_none, Bool.false_eq_true,
        false_or, reduceCtorEq, if_false, bind, Except.bind, Option.toList_some, List.map_cons, List.map_nil]
      rfl
    · refine ⟨s1, [.writev (some n) (m.vec P)], true, ?_, h1, rfl, .inr ⟨rfl, w1.trans hw, n, ?_⟩⟩
      · unfold deliver
        rw [w1, hw]
        simp only [callWriter, bind, Except.bind, f1, hn]
        rfl
      · rw [if_neg (by rw [hw]; simp)]; rfl
  · rw [if_neg hp, if_neg hp]
    exact ⟨s1, [], false, rfl, h1, rfl, .inl ⟨rfl, w1, rfl⟩⟩

/-! ## The calls and the driver -/

/-- A message of process `d.prog`, called from `d`. -/
theorem call_one {D : Bytes} {P : Nat → Prog} (hP : ∀ p, (P p).Plain D) (name : Bytes) (junk : Nat → UInt8) (m : Said)
    {libs : Nat → Lib} {r : Regs} {a : ASys} {o : Obs} (hL : Rel (libs m.prog) r) (hF : FilesOk libs a) (hO : ObsOk o) :
    ∃ s' ops, libCall (P m.prog) junk m.prog m.task (libs m.prog) m.op = .ok (s', .unit, ops) ∧ Rel s' (r.says (P m.prog) m).1 ∧
      (∀ op ∈ ops, op.supported = true) ∧ FilesOk (fun p => if p = m.prog then s' else libs p) (arun a ops).1 ∧
      ObsOk ((arun a ops).2.foldl (obsStep name) o) ∧
      ((arun a ops).2.foldl (obsStep name) o).hist = o.hist ++ (r.says (P m.prog) m).2.map (·.entry P) ∧
      ∀ p ∈ (arun a ops).2, ∀ x, p.2 ≠ .err x := by
  obtain ⟨s', e, pass, e1, h1, h2, h3⟩ := say_rel m (hP m.prog) hL
  obtain ⟨g1, g2, g3, g4, g5⟩ := write_one name junk m hF hO h3
  refine ⟨s', e.flatMap (driverOps (m.prog + 1) m.task junk), ?_, h1, g1, g2, g3, ?_, g5⟩
  · unfold libCall
    rw [e1]
    rfl
  · rw [g4, h2]
    cases pass <;> rfl

/-- A call that leaves the driver alone. -/
theorem quiet_one {libs : Nat → Lib} {a : ASys} (hF : FilesOk libs a) {p : Nat} {s' : Lib} (hw : s'.writer = (libs p).writer) :
    FilesOk (fun q => if q = p then s' else libs q) a := by
  refine ⟨hF.viewer, fun q => ?_, fun q => ?_⟩
  · by_cases hx : q = p
    · subst hx; rw [if_pos rfl, hw]; exact hF.fresh _
    · rw [if_neg hx]; exact hF.fresh q
  · by_cases hx : q = p
    · subst hx; rw [if_pos rfl, hw]; exact hF.opened _
    · rw [if_neg hx]; exact hF.opened q

theorem do_one {D : Bytes} {P : Nat → Prog} (hP : ∀ p, (P p).Plain D) (ctl : Nat → Cid) (name : Bytes) (junk : Nat → UInt8) (d : Do)
    {libs : Nat → Lib} {r : Regs} {a : ASys} {o : Obs} (hL : Rel (libs d.prog) r) (hF : FilesOk libs a) (hO : ObsOk o) :
    ∃ s' ops, doStep (P d.prog) (ctl d.prog) junk (libs d.prog) d = .ok (s', ops) ∧ Rel s' (r.step (P d.prog) (ctl d.prog) d).1 ∧
      (∀ op ∈ ops, op.supported = true) ∧ FilesOk (fun p => if p = d.prog then s' else libs p) (arun a ops).1 ∧
      ObsOk ((arun a ops).2.foldl (obsStep name) o) ∧
      ((arun a ops).2.foldl (obsStep name) o).hist = o.hist ++ (r.step (P d.prog) (ctl d.prog) d).2.map (·.entry P) ∧
      ∀ p ∈ (arun a ops).2, ∀ x, p.2 ≠ .err x := by
  cases d with
  | say m =>
    obtain ⟨s', ops, h1, h2⟩ := call_one hP name junk m hL hF hO
    refine ⟨s', ops, ?_, h2⟩
    simp only [doStep, Do.prog, bind, Except.bind]
    rw [h1]
  | conn p t on =>
    obtain ⟨s', ops, h1, h2⟩ := call_one hP name junk (connMsg (ctl p) p t on) hL hF hO
    refine ⟨s', ops, ?_, h2⟩
    simp only [doStep, Do.prog, bind, Except.bind]
    rw [show libCall (P p) junk p t (libs p) (connMsg (ctl p) p t on).op = _ from h1]
  | touch p c =>
    obtain ⟨s', h1, h2, h3, _⟩ := ensure_rel (P := P p) hL c
    refine ⟨s', [], ?_, h2, by simp, quiet_one hF h3, hO, by simp [arun, Regs.step], by simp [arun]⟩
    simp only [doStep, Do.prog, bind, Except.bind, wstep] at h1 ⊢
    rw [h1]
  | set p c l =>
    obtain ⟨s', h1, h2, h3⟩ := hL.setLevel (P := P p) c l
    refine ⟨s', [], ?_, h2, by simp, quiet_one hF h3, hO, by simp [arun, Regs.step], by simp [arun]⟩
    simp only [doStep, Do.prog, bind, Except.bind, wstep] at h1 ⊢
    rw [h1]
  | setTag p nm l =>
    rcases hL.setTag (P := P p) nm l with ⟨c, s1, h1, h2, h3, h4⟩ | ⟨h1, h2⟩
    · refine ⟨s1, [], ?_, ?_, by simp, quiet_one hF h4, hO, ?_, by simp [arun]⟩
      · simp only [doStep, Do.prog, bind, Except.bind] at h2 ⊢
        rw [h2]
      · simp only [Regs.step, Do.prog, h1]; exact h3
      · simp [arun, Regs.step, Do.prog, h1]
    · refine ⟨libs p, [], ?_, ?_, by simp, quiet_one hF rfl, hO, ?_, by simp [arun]⟩
      · simp only [doStep, Do.prog, bind, Except.bind] at h2 ⊢
        rw [h2]
      · simp only [Regs.step, Do.prog, h1]; exact hL
      · simp [arun, Regs.step, Do.prog, h1]
  | req p t q =>
    cases q with
    | setTag nm l =>
      rcases hL.setTag (P := P p) nm l with ⟨c, s1, h1, h2, h3, h4⟩ | ⟨h1, h2⟩
      · refine ⟨s1, [], ?_, ?_, by simp, quiet_one hF h4, hO, ?_, by simp [arun]⟩
        · simp only [doStep, doReq, libCall, Do.prog, bind, Except.bind] at h2 ⊢
          rw [h2]
          rfl
        · simp only [Regs.step, Do.prog, h1]; exact h3
        · simp [arun, Regs.step, Do.prog, h1]
      · obtain ⟨s', ops, g1, g2, g3⟩ := call_one hP name junk (failMsg (ctl p) p t nm l) hL hF hO
        have hs : r.step (P p) (ctl p) (.req p t (.setTag nm l)) = r.says (P p) (failMsg (ctl p) p t nm l) := by
          simp only [Regs.step, h1]
        refine ⟨s', ops, ?_, ?_⟩
        · show doReq (P p) (ctl p) junk p t (libs p) (.setTag nm l) = _
          have hc : libCall (P p) junk p t (libs p) (.setTagLevel nm l) = .ok (libs p, .int (-1), []) := by
            unfold libCall
            simp only [Do.prog] at h2
            rw [h2]
            rfl
          simp only [doReq, bind, Except.bind]
          rw [hc]
          dsimp only
          rw [if_neg (by simp), show libCall (P p) junk p t (libs p) (failMsg (ctl p) p t nm l).op = _ from g1]
          rfl
        · show Rel s' (r.step (P p) (ctl p) (.req p t (.setTag nm l))).1 ∧ _
          rw [show (Do.req p t (.setTag nm l)).prog = p from rfl, hs]
          exact ⟨g2, g3⟩
    | setAll l =>
      obtain ⟨h1, h2⟩ := hL.setAll (P := P p) l
      exact ⟨_, [], rfl, h1, by simp, quiet_one hF h2, hO, by simp [arun, Regs.step], by simp [arun]⟩
    | list => exact ⟨_, [], rfl, hL, by simp, quiet_one hF rfl, hO, by simp [arun, Regs.step], by simp [arun]⟩

theorem do_all {D : Bytes} {P : Nat → Prog} (hP : ∀ p, (P p).Plain D) (ctl : Nat → Cid) (name : Bytes) (junk : Nat → UInt8) (ds : List Do) :
    ∀ {libs : Nat → Lib} {rs : Nat → Regs} {a : ASys} {o : Obs}, (∀ p, Rel (libs p) (rs p)) → FilesOk libs a → ObsOk o →
    ∃ ops, doAll P ctl junk libs ds = .ok ops ∧ (∀ op ∈ ops, op.supported = true) ∧ (arun a ops).1.files 0 = none ∧
      ObsOk ((arun a ops).2.foldl (obsStep name) o) ∧
      ((arun a ops).2.foldl (obsStep name) o).hist = o.hist ++ (letThrough P ctl rs ds).map (·.entry P) ∧
      ∀ p ∈ (arun a ops).2, ∀ x, p.2 ≠ .err x := by
  induction ds with
  | nil =>
    intro libs rs a o _ hF hO
    exact ⟨[], rfl, by simp, hF.viewer, hO, by simp [arun, letThrough], by simp [arun]⟩
  | cons d ds ih =>
    intro libs rs a o hL hF hO
    obtain ⟨s', ops1, g0, g1, g2, g3, g4, g5, g6⟩ := do_one hP ctl name junk d (hL d.prog) hF hO
    have hL' : ∀ p, Rel (if p = d.prog then s' else libs p)
        (if p = d.prog then ((rs d.prog).step (P d.prog) (ctl d.prog) d).1 else rs p) := by
      intro p
      by_cases hp : p = d.prog
      · rw [if_pos hp, if_pos hp]; exact g1
      · rw [if_neg hp, if_neg hp]; exact hL p
    obtain ⟨ops, i1, i2, i3, i4, i5, i6⟩ := ih hL' g3 g4
    refine ⟨ops1 ++ ops, ?_, ?_, ?_, ?_, ?_, ?_⟩
    · unfold doAll
      rw [g0]
      simp only [bind, Except.bind]
      rw [i1]
    · exact fun op hop => (List.mem_append.1 hop).elim (g2 op) (i2 op)
    · rw [arun_append]; exact i3
    · rw [arun_append, List.foldl_append]; exact i4
    · rw [arun_append, List.foldl_append, i5, g5, List.append_assoc]
      rw [show letThrough P ctl rs (d :: ds) = _ ++ _ from rfl, List.map_append]
    · rw [arun_append]
      exact fun p hp => (List.mem_append.1 hp).elim (g6 p) (i6 p)

theorem letThrough_length (P : Nat → Prog) (ctl : Nat → Cid) (ds : List Do) : ∀ rs, (letThrough P ctl rs ds).length ≤ ds.length := by
  induction ds with
  | nil => intro rs; simp [letThrough]
  | cons d ds ih =>
    intro rs
    have hs : ∀ (Q : Prog) (r : Regs) (m : Said), (r.says Q m).2.length ≤ 1 := by
      intro Q r m; unfold Regs.says; dsimp only; split <;> simp
    have : ((rs d.prog).step (P d.prog) (ctl d.prog) d).2.length ≤ 1 := by
      cases d with
      | say m => exact hs _ _ _
      | conn p t on => exact hs _ _ _
      | touch p c => simp [Regs.step]
      | set p c l => simp [Regs.step]
      | setTag p nm l => simp only [Regs.step]; split <;> simp
      | req p t q =>
        cases q with
        | setTag nm l =>
          simp only [Regs.step]
          split
          · simp
          · exact hs _ _ _
        | setAll l => simp [Regs.step]
        | list => simp [Regs.step]
    unfold letThrough
    rw [List.length_append, List.length_cons]
    have := ih (fun p => if p = d.prog then ((rs d.prog).step (P d.prog) (ctl d.prog) d).1 else rs p)
    omega

/-- The messages of the calls are ordinary ones. -/
def Do.Plain (P : Nat → Prog) (ctl : Nat → Cid) : Do → Prop
  | .say m => m.Plain P
  | .conn p t _ => (P p).nm (ctl p) = ascii "ulogctl" ∧ ¬ (t.pid = 0xffffffff ∧ t.tid = 0xffffffff)
  | .req p t (.setTag name _) => (P p).nm (ctl p) = ascii "ulogctl" ∧ ¬ (t.pid = 0xffffffff ∧ t.tid = 0xffffffff) ∧ NoNul name
  | _ => True

theorem letThrough_plain {P : Nat → Prog} {ctl : Nat → Cid} (ds : List Do) (h : ∀ d ∈ ds, d.Plain P ctl) : ∀ rs, ∀ m ∈ letThrough P ctl rs ds, m.Plain P := by
  induction ds with
  | nil => intro rs m hm; cases hm
  | cons d ds ih =>
    intro rs m hm
    unfold letThrough at hm
    rcases List.mem_append.1 hm with hm | hm
    rotate_left
    · exact ih (fun x hx => h x (by simp [hx])) _ m hm
    have hd := h d (by simp)
    have hs : ∀ {Q : Prog} {r : Regs} {x : Said}, x.Plain P → m ∈ (r.says Q x).2 → m.Plain P := by
      intro Q r x hx hm
      unfold Regs.says at hm
      dsimp only at hm
      split at hm
      · rw [List.mem_singleton.1 hm]; exact hx
      · cases hm
    cases d with
    | say x => exact hs hd hm
    | conn p t on =>
      refine hs ⟨?_, ?_, show prioBinary 7 = false by decide, ?_, hd.2⟩ hm
      · unfold Said.name
        show NoNul ((P p).nm (ctl p))
        rw [hd.1]; decide
      · cases on
        · show NoNul (ascii "POMP_EVENT_DISCONNECTED ..."); decide
        · show NoNul (ascii "POMP_EVENT_CONNECTED ..."); decide
      · have hp := prefixLen_le t
        have hn : ((connMsg (ctl p) p t on).name P) = ascii "ulogctl" := hd.1
        show prefixLen t + (4 + ((connMsg (ctl p) p t on).name P).length + 1) < 4076
        rw [hn, show (ascii "ulogctl").length = 7 from by decide]
        omega
    | touch p c => cases hm
    | set p c l => cases hm
    | setTag p nm l =>
      simp only [Regs.step, Do.prog] at hm
      split at hm <;> cases hm
    | req p t q =>
      cases q with
      | setTag nm l =>
        simp only [Regs.step, Do.prog] at hm
        split at hm
        · cases hm
        refine hs ⟨?_, ?_, show prioBinary 3 = false by decide, ?_, hd.2.1⟩ hm
        · show NoNul ((P p).nm (ctl p))
          rw [hd.1]; decide
        · show NoNul (ascii "Failed to set the tag \"" ++ nm ++ ascii "\" to the level (" ++ decInt l ++ ascii ") err=1(Operation not permitted)")
          have h0 : NoNul (decInt l) := fun b hb h => decInt_no (n := l) (x := 0) (by decide) (by decide) (h ▸ hb)
          have h1 : NoNul nm := hd.2.2
          have h2 : NoNul (ascii "Failed to set the tag \"") := by decide
          have h3 : NoNul (ascii "\" to the level (") := by decide
          have h4 : NoNul (ascii ") err=1(Operation not permitted)") := by decide
          intro b hb
          simp only [List.mem_append] at hb
          rcases hb with (((hb | hb) | hb) | hb) | hb
          · exact h2 b hb
          · exact h1 b hb
          · exact h3 b hb
          · exact h0 b hb
          · exact h4 b hb
        · have hp := prefixLen_le t
          have hn : ((failMsg (ctl p) p t nm l).name P) = ascii "ulogctl" := hd.1
          rw [hn, show (ascii "ulogctl").length = 7 from by decide, show (failMsg (ctl p) p t nm l).task = t from rfl]
          omega
      | setAll l => cases hm
      | list => cases hm

/-- C114, whatever the amount logged. -/
theorem C114_overflow {D : Bytes} {P : Nat → Prog} (hP : ∀ p, (P p).Plain D) {ctl : Nat → Cid} {ds : List Do} (hds : ∀ d ∈ ds, d.Plain P ctl)
    (junk : Nat → UInt8) {name : Bytes} {k : Nat} (buf : Nat → UInt8) (hk : 14 ≤ k) (hname : name.length ≤ 89) (hn0 : NoNul name)
    (hcount : ds.length < 2147483648) {L : Look} (hkd : L.kmsgd = false) :
    ∃ ops sys tr m, doAll P ctl junk (fun _ => .start) ds = .ok ops ∧
      Kernel.run (Kernel.init name k buf) (ops ++ [.openF 0 true false true, .getLogLen 0]) = .ok (sys, tr ++ [(.getLogLen 0, .ret m)]) ∧
      (∀ p ∈ tr, ∀ e, p.2 ≠ .err e) ∧
      Dumps L sys tr m ds.length fun bs => Partly P L name (2 ^ k) (letThrough P ctl (fun _ => []) ds) bs ∧
        (((letThrough P ctl (fun _ => []) ds).map (·.size P)).sum + 8200 ≤ 2 ^ k → bs = (letThrough P ctl (fun _ => []) ds).flatMap (·.lines P L)) := by
  have hL : ∀ p : Nat, Rel ((fun _ => Lib.start : Nat → Lib) p) ((fun _ => [] : Nat → Regs) p) :=
    fun p => ⟨rfl, rfl, .inl rfl, rfl, fun c => rfl, by simp⟩
  obtain ⟨ops, h1, h2, h3, h4, h5, h6⟩ := do_all hP ctl name junk ds (libs := fun _ => .start) (rs := fun _ => []) (a := ainit name k)
    (o := Obs.init) hL ⟨rfl, fun _ _ => rfl, fun _ h => absurd rfl h⟩ ⟨fun _ => rfl, rfl⟩
  have hlog : Logged name k ops ((letThrough P ctl (fun _ => []) ds).map (·.entry P)) := ⟨h2, h3, h4.base, h5⟩
  have hpl := letThrough_plain ds hds (fun _ => [])
  have hle := letThrough_length P ctl ds (fun _ => [])
  obtain ⟨sys, tr, m, g0, g1, g2⟩ := hlog.screen buf hk hname (by
    intro e he
    obtain ⟨m, hm, rfl⟩ := List.mem_map.1 he
    exact (hpl m hm).task) (by rw [List.length_map]; omega) (L := L) (by simp [hkd])
  refine ⟨ops, sys, tr, m, h1, g1, ?_, fun euid n fuel hfuel buf0 hb paths ans hans => ?_⟩
  · rw [g0]
    intro p hp e
    rcases List.mem_append.1 hp with hp | hp
    · exact h6 p hp e
    · rw [List.mem_singleton.1 hp]; simp
  · obtain ⟨all, c, t, e1, e2, e3, e4⟩ := g2 euid n fuel (by rw [List.length_map]; omega) hb (paths := paths) hans
    rw [List.length_map] at e3
    have := e3.partly hkd hn0 hpl (by omega) rfl
    rw [List.drop_zero] at this
    refine ⟨all, c, t, e1, e2, this, fun hroom => (e4 (by rw [said_bytes]; exact hroom)).trans ?_⟩
    rw [flatMap_map]
    exact flatMap_congr' fun x hx => Said.entry_text (hpl x hx) hkd

/-- **C114.** Processes log and set levels, themselves or on request of clients; then the
viewer dumps the device. If the messages let through fit the buffer, no call fails, and
the screen shows exactly their lines, in the order of the calls. -/
theorem C114_screen {D : Bytes} {P : Nat → Prog} (hP : ∀ p, (P p).Plain D) {ctl : Nat → Cid} {ds : List Do} (hds : ∀ d ∈ ds, d.Plain P ctl)
    (junk : Nat → UInt8) {name : Bytes} {k : Nat} (buf : Nat → UInt8) (hk : 14 ≤ k) (hname : name.length ≤ 89) (hn0 : NoNul name)
    (hcount : ds.length < 2147483648)
    (hroom : ((letThrough P ctl (fun _ => []) ds).map (·.size P)).sum + 8200 ≤ 2 ^ k) {L : Look} (hkd : L.kmsgd = false) :
    ∃ ops sys tr m, doAll P ctl junk (fun _ => .start) ds = .ok ops ∧
      Kernel.run (Kernel.init name k buf) (ops ++ [.openF 0 true false true, .getLogLen 0]) = .ok (sys, tr ++ [(.getLogLen 0, .ret m)]) ∧
      (∀ p ∈ tr, ∀ e, p.2 ≠ .err e) ∧
      Dumps L sys tr m ds.length fun bs => bs = (letThrough P ctl (fun _ => []) ds).flatMap (·.lines P L) := by
  obtain ⟨ops, sys, tr, m, g1, g2, g3, g4⟩ := C114_overflow hP hds junk buf hk hname hn0 hcount hkd
  refine ⟨ops, sys, tr, m, g1, g2, g3, fun euid n fuel hfuel buf0 hb paths ans hans => ?_⟩
  obtain ⟨all, c, t, e1, e2, _, e3⟩ := g4 euid n fuel hfuel hb (paths := paths) hans
  exact ⟨all, c, t, e1, e2, e3 hroom⟩

/-! ## What the levels are -/

theorem letThrough_append (P : Nat → Prog) (ctl : Nat → Cid) (xs ys : List Do) :
    ∀ rs, letThrough P ctl rs (xs ++ ys) = letThrough P ctl rs xs ++ letThrough P ctl (regsAfter P ctl rs xs) ys := by
  induction xs with
  | nil => intro rs; rfl
  | cons x xs ih =>
    intro rs
    rw [List.cons_append, letThrough, letThrough, ih, List.append_assoc]
    rfl

theorem regsAfter_append (P : Nat → Prog) (ctl : Nat → Cid) (rs : Nat → Regs) (xs ys : List Do) :
    regsAfter P ctl rs (xs ++ ys) = regsAfter P ctl (regsAfter P ctl rs xs) ys := List.foldl_append ..

/-- The call gives tag `c` of process `p` level `l`, if `r` are the tags of the process. -/
def Gives (P : Prog) (r : Regs) (p : Nat) (c : Cid) (l : Int) : Do → Prop
  | .set q d k => q = p ∧ d = c ∧ k = l
  | .setTag q name k => q = p ∧ r.named P name = some c ∧ k = l
  | .req q _ (.setTag name k) => q = p ∧ r.named P name = some c ∧ k = l
  | .req q _ (.setAll k) => q = p ∧ c ≠ 0 ∧ (r.level c).isSome = true ∧ k = l
  | _ => False

/-- The call sets no level of tag `c` in process `p`. -/
def Leaves (P : Prog) (p : Nat) (c : Cid) : Do → Prop
  | .set q d _ => q = p → d ≠ c
  | .setTag q name _ => q = p → name ≠ P.nm c
  | .req q _ (.setTag name _) => q = p → name ≠ P.nm c
  | .req q _ (.setAll _) => q = p → c = 0
  | _ => True

theorem Regs.level_use {P : Prog} {r : Regs} {c : Cid} {l : Int} (h : r.level c = some l) (d : Cid) : (r.use P d).level c = some l := by
  unfold Regs.use
  split
  · exact h
  · rename_i hd
    rw [Regs.level_cons, if_neg, h]
    rintro rfl
    exact hd (by rw [h]; rfl)

theorem Regs.named_nm {P : Prog} {r : Regs} {name : Bytes} {c : Cid} (h : r.named P name = some c) : P.nm c = name := by
  unfold Regs.named at h
  cases hf : r.find? (fun x => P.nm x.1 == name) with
  | none => rw [hf] at h; cases h
  | some x =>
    rw [hf] at h
    cases h
    exact eq_of_beq (List.find?_some (p := fun x : Cid × Int => P.nm x.1 == name) hf)

theorem Regs.level_all {r : Regs} {c : Cid} (l : Int) :
    Regs.level (r.map fun x => if x.1 = 0 then x else (x.1, clampTo l)) c =
      if c ≠ 0 ∧ (r.level c).isSome then some (clampTo l) else r.level c := by
  induction r with
  | nil => simp [Regs.level]
  | cons x r ih =>
    rw [List.map_cons, Regs.level_cons, ih, Regs.level_cons]
    by_cases h0 : x.1 = 0
    · by_cases h1 : c = 0
      · simp [h0, h1]
      · have : ¬ 0 = c := fun h => h1 h.symm
        simp [h0, this]
    · by_cases h1 : x.1 = c
      · have : c ≠ 0 := fun h => h0 (h1.trans h)
        simp [h1, this]
      · simp [h0, h1]

theorem Regs.level_step {P : Prog} {ctl : Cid} {r : Regs} {p : Nat} {c : Cid} {l : Int} (h : r.level c = some l) {d : Do} (hd : d.prog = p)
    (hl : Leaves P p c d) : (r.step P ctl d).1.level c = some l := by
  cases d with
  | say m => exact Regs.level_use h m.tag
  | conn q t on => exact Regs.level_use h ctl
  | touch q d => exact Regs.level_use h d
  | set q d k =>
    show ((r.use P d).set d k).level c = some l
    rw [Regs.level_set, if_neg (fun hc => hl hd hc.1.symm)]
    exact Regs.level_use h d
  | setTag q name k =>
    simp only [Regs.step]
    split
    · rename_i e he
      show (r.set e k).level c = some l
      rw [Regs.level_set, if_neg (fun hc => hl hd (by rw [hc.1, Regs.named_nm he])), h]
    · exact h
  | req q t x =>
    cases x with
    | setTag name k =>
      simp only [Regs.step]
      split
      · rename_i e he
        show (r.set e k).level c = some l
        rw [Regs.level_set, if_neg (fun hc => hl hd (by rw [hc.1, Regs.named_nm he])), h]
      · exact Regs.level_use h ctl
    | setAll k =>
      show Regs.level (r.map fun x => if x.1 = 0 then x else (x.1, clampTo k)) c = some l
      rw [Regs.level_all, if_neg (fun hc => hc.1 (hl hd)), h]
    | list => exact h

theorem level_kept {P : Nat → Prog} {ctl : Nat → Cid} {p : Nat} {c : Cid} {l : Int} (ds : List Do) (hd : ∀ d ∈ ds, Leaves (P p) p c d) :
    ∀ {rs : Nat → Regs}, (rs p).level c = some l → (regsAfter P ctl rs ds p).level c = some l := by
  induction ds with
  | nil => intro rs h; exact h
  | cons d ds ih =>
    intro rs h
    refine ih (fun x hx => hd x (by simp [hx])) (rs := fun q => if q = d.prog then _ else rs q) ?_
    by_cases hp : p = d.prog
    · rw [if_pos hp]
      subst hp
      exact Regs.level_step h rfl (hd d (by simp))
    · rw [if_neg hp]; exact h

theorem level_given {P : Nat → Prog} {ctl : Nat → Cid} {rs : Nat → Regs} {p : Nat} {c : Cid} {l : Int} {x : Do} (h : Gives (P p) (rs p) p c l x) :
    (regsAfter P ctl rs [x] p).level c = some (clampTo l) := by
  have hp : x.prog = p := by
    cases x with
    | set q d k => exact h.1
    | setTag q name k => exact h.1
    | req q t y => cases y <;> first | exact h.1 | exact h.elim
    | say m => exact h.elim
    | touch q d => exact h.elim
    | conn q t on => exact h.elim
  show ((if p = x.prog then ((rs x.prog).step (P x.prog) (ctl x.prog) x).1 else rs p) : Regs).level c = _
  rw [if_pos hp.symm, hp]
  cases x with
  | set q d k =>
    obtain ⟨_, rfl, rfl⟩ := h
    show (((rs p).use (P p) d).set d k).level d = _
    rw [Regs.level_set, if_pos ⟨rfl, Regs.use_level _ _ _⟩]
  | setTag q name k =>
    obtain ⟨_, hn, rfl⟩ := h
    simp only [Regs.step, hn]
    rw [Regs.level_set, if_pos ⟨rfl, Regs.named_level hn⟩]
  | req q t y =>
    cases y with
    | setTag name k =>
      obtain ⟨_, hn, rfl⟩ := h
      simp only [Regs.step, hn]
      rw [Regs.level_set, if_pos ⟨rfl, Regs.named_level hn⟩]
    | setAll k =>
      obtain ⟨_, h0, hs, rfl⟩ := h
      simp only [Regs.step]
      rw [Regs.level_all, if_pos ⟨h0, hs⟩]
    | list => exact h.elim
  | say m => exact h.elim
  | touch q d => exact h.elim
  | conn q t on => exact h.elim

/-- C114. After a call or request that gives a tag a level, and until the next one, the
messages of the tag are let through up to that level, clamped to 0..7. -/
theorem C114_until {P : Nat → Prog} {ctl : Nat → Cid} {rs : Nat → Regs} {pre rest : List Do} {x : Do} {m : Said} {l : Int}
    (hx : Gives (P m.prog) (regsAfter P ctl rs pre m.prog) m.prog m.tag l x) (hrest : ∀ d ∈ rest, Leaves (P m.prog) m.prog m.tag d) :
    letThrough P ctl rs (pre ++ x :: rest ++ [.say m]) =
      letThrough P ctl rs (pre ++ x :: rest) ++ if ((m.prio.toNat % 8 : Nat) : Int) ≤ max 0 (min 7 l) then [m] else [] := by
  have h : (regsAfter P ctl rs (pre ++ x :: rest) m.prog).level m.tag = some (clampTo l) := by
    rw [show pre ++ x :: rest = pre ++ ([x] ++ rest) from rfl, regsAfter_append, regsAfter_append]
    exact level_kept rest hrest (level_given hx)
  rw [letThrough_append]
  refine congrArg (_ ++ ·) ?_
  show ((regsAfter P ctl rs (pre ++ x :: rest) m.prog).says (P m.prog) m).2 ++ [] = _
  rw [List.append_nil]
  unfold Regs.says
  dsimp only
  rw [Regs.level_use h, Option.getD_some]
  rfl

/-- C114. Without calls that set levels this is C106. -/
theorem C114_unset {D : Bytes} {P : Nat → Prog} (hP : ∀ p, (P p).Plain D) (ctl : Nat → Cid) (ms : List Said) :
    letThrough P ctl (fun _ => []) (ms.map .say) = ms.filter (·.passes P) := by
  have key : ∀ (ms : List Said) (rs : Nat → Regs), (∀ p c l, (rs p).level c = some l → l = envLevel (P p) c) →
      letThrough P ctl rs (ms.map .say) = ms.filter (·.passes P) := by
    intro ms
    induction ms with
    | nil => intro rs _; rfl
    | cons m ms ih =>
      intro rs h
      have hf : (rs m.prog).first (P m.prog) m.tag = envLevel (P m.prog) m.tag := by
        have h0 : (P m.prog).env.getenv (ascii "ULOG_LEVEL") = none → ((rs m.prog).level 0).getD 6 = 6 := by
          intro hn
          cases hl : (rs m.prog).level 0 with
          | none => rfl
          | some l =>
            rw [Option.getD_some, h _ _ _ hl]
            unfold envLevel
            rw [if_pos (hP m.prog).default, hn]
        unfold Regs.first envLevel
        split
        · rename_i h1; simp only [h1]
        · rename_i h1 h2; simp only [h1, h2]
        · rename_i h1 h2; simp only [h1, h2]; exact h0 h2
      have hu : ∀ c l, ((rs m.prog).use (P m.prog) m.tag).level c = some l → l = envLevel (P m.prog) c := by
        intro c l hl
        unfold Regs.use at hl
        split at hl
        · exact h _ _ _ hl
        · rw [Regs.level_cons] at hl
          split at hl
          · rename_i hc
            cases hl
            rw [← hc]; exact hf
          · exact h _ _ _ hl
      rw [List.map_cons, letThrough, ih _ (fun p c l hl => by
        split at hl
        · rename_i hp
          rw [hp]
          exact hu c l hl
        · exact h _ _ _ hl)]
      show ((rs m.prog).says (P m.prog) m).2 ++ _ = _
      unfold Regs.says
      dsimp only
      have hl : (((rs m.prog).use (P m.prog) m.tag).level m.tag).getD (-1) = envLevel (P m.prog) m.tag := by
        have := Regs.use_level (P m.prog) (rs m.prog) m.tag
        cases hx : ((rs m.prog).use (P m.prog) m.tag).level m.tag with
        | none => rw [hx] at this; cases this
        | some l => exact hu _ _ hx
      rw [hl]
      by_cases hp : ((m.prio.toNat % 8 : Nat) : Int) ≤ envLevel (P m.prog) m.tag
      · rw [if_pos hp, List.filter_cons_of_pos (by unfold Said.passes; exact decide_eq_true hp)]; rfl
      · rw [if_neg hp, List.filter_cons_of_neg (by unfold Said.passes; rw [decide_eq_false hp]; simp)]; rfl
  exact key ms _ (fun p c l h => by cases h)

/-! ## What does not hold -/

def plainProg : Prog :=
  { env := { getenv := fun _ => none, openDev := fun _ => some 5, strdupOk := true }, nm := fun c => if c = 0 then [] else ascii "net" }

theorem plainProg_plain : plainProg.Plain (ascii "/dev/ulog_main") := ⟨rfl, rfl, by decide +kernel, 5, rfl⟩

def someTask : Task := { pid := 1, tid := 1, pcomm := ascii "app", tcomm := ascii "app", sec := 0, nsec := 0, euid := 0 }

/-- C114. A request to set the levels of all tags does not reach a tag that is first
used afterwards, nor the default tag. -/
theorem C114_false_all :
    ∃ (P : Nat → Prog) (ctl : Nat → Cid) (t : Task) (m : Said), (∀ p, (P p).Plain (ascii "/dev/ulog_main")) ∧ m.prio = 7 ∧
      letThrough P ctl (fun _ => []) [.touch 0 0, .req 0 t (.setAll 7), .say { m with tag := 0 }] = [] ∧
      letThrough P ctl (fun _ => []) [.req 0 t (.setAll 7), .say m] = [] ∧
      letThrough P ctl (fun _ => []) [.touch 0 m.tag, .req 0 t (.setAll 7), .say m] = [m] :=
  ⟨fun _ => plainProg, fun _ => 9, someTask, ⟨0, someTask, 1, 7, ascii "x", false⟩, fun _ => plainProg_plain, rfl, rfl, rfl, rfl⟩

/-- C114. A request that names a tag reaches only the latest one of that name. -/
theorem C114_false_name :
    ∃ (P : Nat → Prog) (ctl : Nat → Cid) (t : Task) (m m' : Said), (∀ p, (P p).Plain (ascii "/dev/ulog_main")) ∧
      m.name P = ascii "net" ∧ m'.name P = ascii "net" ∧ m.prog = 0 ∧ m'.prog = 0 ∧ m.prio = m'.prio ∧
      letThrough P ctl (fun _ => []) [.touch 0 m.tag, .touch 0 m'.tag, .req 0 t (.setTag (ascii "net") 3), .say m, .say m'] = [m] :=
  ⟨fun _ => plainProg, fun _ => 9, someTask, ⟨0, someTask, 1, 6, ascii "x", false⟩, ⟨0, someTask, 2, 6, ascii "y", false⟩,
    fun _ => plainProg_plain, rfl, rfl, rfl, rfl, rfl, rfl⟩

/-- **C114:** a request that names no tag is reported as a formatted message of priority 3, cut
as those are (C26), and a connection as one of priority 7. -/
theorem C114_reports (ctl : Cid) (p : Nat) (t : Task) (name : Bytes) (l : Int) (on : Bool) :
    (failMsg ctl p t name l).op = .log 3 ctl (some (ascii "Failed to set the tag \"" ++ name ++ ascii "\" to the level (" ++ decInt l ++
      ascii ") err=1(Operation not permitted)")) ∧
    (connMsg ctl p t on).op = .log 7 ctl (some (if on then ascii "POMP_EVENT_CONNECTED ..." else ascii "POMP_EVENT_DISCONNECTED ...")) :=
  ⟨rfl, rfl⟩

end Verif.Tools.Remote
