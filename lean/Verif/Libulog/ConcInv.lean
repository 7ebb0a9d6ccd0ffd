import Verif.Libulog.Conc

/-! # Invariant of the threads of libulog -/
namespace Verif.Libulog
open Verif

/-! ## What a trace says -/

/-- Tags in the order of the list. -/
def regs : List CEv → List Cid
  | [] => []
  | .reg _ c :: old => c :: regs old
  | _ :: old => regs old

/-- The thread that registered `c`. -/
def winner (c : Cid) : List CEv → Option Tid
  | [] => none
  | .reg t d :: old => if d = c then some t else winner c old
  | _ :: old => winner c old

/-- Last level written for `c`. -/
def levelAt (c : Cid) : List CEv → Option Int
  | [] => none
  | .first d l :: old => if d = c then some l else levelAt c old
  | .set _ d l :: old => if d = c then some l else levelAt c old
  | _ :: old => levelAt c old

/-- Last hook installed. -/
def lastHook : List CEv → Option Nat
  | [] => none
  | .setHook h :: _ => some h
  | _ :: old => lastHook old

/-- The hook installed when `c` was registered. -/
def hookAt (c : Cid) : List CEv → Option Nat
  | [] => none
  | .reg _ d :: old => if d = c then lastHook old else hookAt c old
  | _ :: old => hookAt c old

/-- Hooks called for `c`. -/
def hookEvs (c : Cid) : List CEv → List Nat
  | [] => []
  | .hook _ h d :: old => if d = c then h :: hookEvs c old else hookEvs c old
  | _ :: old => hookEvs c old

/-- The tags registered when thread `t` last started an enumeration. -/
def atHead (t : Tid) : List CEv → List Cid
  | [] => []
  | .feStart u :: old => if u = t then regs old else atHead t old
  | _ :: old => atHead t old

/-- What holds of an event when the trace before it is `old`. -/
def EvOk (nm : Cid → Bytes) (old : List CEv) : CEv → Prop
  | .reg _ c => c ∉ regs old ∧ levelAt c old = none
  | .first c l => levelAt c old = none ∧ c ∈ regs old ∧ 0 ≤ l
  | .set _ c l => (∃ x, levelAt c old = some x) ∧ 0 ≤ l ∧ l ≤ 7
  | .got _ c l => levelAt c old = some l
  | .msg _ c p b => ∃ l, levelAt c old = some l ∧ b = decide (((p.toNat % 8 : Nat) : Int) ≤ l)
  | .setHook _ => True
  | .hook t h c => hookEvs c old = [] ∧ hookAt c old = some h ∧ winner c old = some t
  | .ret _ c => c ∈ regs old
  | .notFound _ name => ∀ c ∈ regs old, nm c ≠ name
  | .names _ max l => l = (regs old).take max
  | .feStart _ => True
  | .feDone t l => l = (atHead t old).filter fun c => decide (c ≠ 0)

def CGood (nm : Cid → Bytes) : List CEv → Prop
  | [] => True
  | e :: old => EvOk nm old e ∧ CGood nm old

theorem CGood.at {nm : Cid → Bytes} : ∀ {tr : List CEv}, CGood nm tr → ∀ {l : List CEv} {e : CEv} {old : List CEv},
    tr = l ++ e :: old → EvOk nm old e ∧ CGood nm old := by
  intro tr
  induction tr with
  | nil => intro _ l e old h; cases l <;> cases h
  | cons a tr ih =>
    intro hg l e old h
    cases l with
    | nil => injection h with h1 h2; subst h1; subst h2; exact hg
    | cons b l => injection h with _ h2; exact ih hg.2 h2

/-- Events that say nothing of the shared state. -/
def CEv.quiet : CEv → Bool
  | .got .. | .msg .. | .ret .. | .notFound .. | .names .. | .feDone .. => true
  | _ => false

theorem quiet_same {e : CEv} (h : e.quiet = true) (tr : List CEv) :
    regs (e :: tr) = regs tr ∧ (∀ c, winner c (e :: tr) = winner c tr) ∧ (∀ c, levelAt c (e :: tr) = levelAt c tr) ∧
    lastHook (e :: tr) = lastHook tr ∧ (∀ c, hookAt c (e :: tr) = hookAt c tr) ∧
    (∀ c, hookEvs c (e :: tr) = hookEvs c tr) ∧ ∀ t, atHead t (e :: tr) = atHead t tr := by
  cases e <;> first | exact ⟨rfl, fun _ => rfl, fun _ => rfl, rfl, fun _ => rfl, fun _ => rfl, fun _ => rfl⟩ | cases h

theorem quiets_same : ∀ {es : List CEv}, (∀ e ∈ es, e.quiet = true) → ∀ tr : List CEv,
    regs (es ++ tr) = regs tr ∧ (∀ c, winner c (es ++ tr) = winner c tr) ∧ (∀ c, levelAt c (es ++ tr) = levelAt c tr) ∧
    lastHook (es ++ tr) = lastHook tr ∧ (∀ c, hookAt c (es ++ tr) = hookAt c tr) ∧
    (∀ c, hookEvs c (es ++ tr) = hookEvs c tr) ∧ ∀ t, atHead t (es ++ tr) = atHead t tr := by
  intro es
  induction es with
  | nil => intro _ tr; exact ⟨rfl, fun _ => rfl, fun _ => rfl, rfl, fun _ => rfl, fun _ => rfl, fun _ => rfl⟩
  | cons e es ih =>
    intro h tr
    obtain ⟨a1, a2, a3, a4, a5, a6, a7⟩ := quiet_same (h e List.mem_cons_self) (es ++ tr)
    obtain ⟨b1, b2, b3, b4, b5, b6, b7⟩ := ih (fun x hx => h x (List.mem_cons_of_mem _ hx)) tr
    rw [List.cons_append]
    exact ⟨a1.trans b1, fun c => (a2 c).trans (b2 c), fun c => (a3 c).trans (b3 c), a4.trans b4,
      fun c => (a5 c).trans (b5 c), fun c => (a6 c).trans (b6 c), fun c => (a7 c).trans (b7 c)⟩

theorem winner_iff {c : Cid} : ∀ {tr : List CEv}, c ∈ regs tr ↔ ∃ t, winner c tr = some t := by
  intro tr
  induction tr with
  | nil => simp [regs, winner]
  | cons e tr ih =>
    cases e with
    | reg t d =>
      simp only [regs, winner, List.mem_cons]
      by_cases h : d = c
      · rw [if_pos h]; exact ⟨fun _ => ⟨t, rfl⟩, fun _ => Or.inl h.symm⟩
      · rw [if_neg h, ← ih]
        exact ⟨fun hx => hx.resolve_left (fun h' => h h'.symm), Or.inr⟩
    | _ => exact ih

/-! ## The list -/

def Chain (next : Cid → Option Cid) : Option Cid → List Cid → Prop
  | p, [] => p = none
  | p, c :: l => p = some c ∧ Chain next (next c) l

theorem Chain.congr {next next' : Cid → Option Cid} : ∀ {l : List Cid} {p : Option Cid},
    Chain next p l → (∀ c ∈ l, next' c = next c) → Chain next' p l := by
  intro l
  induction l with
  | nil => intro p h _; exact h
  | cons c l ih =>
    intro p h hn
    refine ⟨h.1, ?_⟩
    rw [hn c List.mem_cons_self]
    exact ih h.2 (fun d hd => hn d (List.mem_cons_of_mem _ hd))

theorem Chain.none_nil {next : Cid → Option Cid} {l : List Cid} (h : Chain next none l) : l = [] := by
  cases l with
  | nil => rfl
  | cons c l => cases h.1

theorem Chain.some_cons {next : Cid → Option Cid} {l : List Cid} {c : Cid} (h : Chain next (some c) l) :
    ∃ l', l = c :: l' ∧ Chain next (next c) l' := by
  cases l with
  | nil => cases h
  | cons d l =>
    have := h.1
    injection this with this
    subst this
    exact ⟨l, rfl, h.2⟩

/-! ## Threads -/

/-- Places where the lock is held. -/
def Pc.holds : Pc → Bool
  | .check .. | .link .. | .publish .. | .store .. | .readHook .. | .unlock .. => true
  | .findHead .. | .findWalk .. | .findUnlock .. => true
  | .namesHead .. | .namesWalk .. | .namesUnlock .. => true
  | .feHead | .feUnlock .. => true
  | .hookStore .. | .hookUnlock .. => true
  | _ => false

inductive Pend
  | no
  | early
  | late (h : Nat)

/-- Is the hook of `c` still to be called from here? -/
def pend (c : Cid) : Pc → Pend
  | .store d _ _ => if d = c then .early else .no
  | .readHook d _ => if d = c then .early else .no
  | .unlock d (some h) _ => if d = c then .late h else .no
  | .callHook d (some h) _ => if d = c then .late h else .no
  | _ => .no

def Then.ok : Then → Prop
  | .set l => 0 ≤ l ∧ l ≤ 7
  | _ => True

/-- What holds at each place. -/
def PcInv (nm : Cid → Bytes) (s : CState) (t : Tid) : Pc → Prop
  | .idle => True
  | .test _ k | .env _ k | .def1 _ k => k.ok
  | .def2 _ k => k.ok
  | .lock _ lvl k | .check _ lvl k => 0 ≤ lvl ∧ k.ok
  | .link c lvl k => 0 ≤ lvl ∧ k.ok ∧ s.level c < 0 ∧ c ∉ regs s.tr
  | .publish c lvl k => 0 ≤ lvl ∧ k.ok ∧ s.level c < 0 ∧ c ∉ regs s.tr ∧ s.next c = s.head
  | .store c lvl k => 0 ≤ lvl ∧ k.ok ∧ s.level c < 0 ∧ winner c s.tr = some t
  | .readHook c k => k.ok ∧ 0 ≤ s.level c ∧ winner c s.tr = some t
  | .unlock c h k | .callHook c h k => k.ok ∧ 0 ≤ s.level c ∧ (∀ x, h = some x → winner c s.tr = some t)
  | .fin c k => k.ok ∧ 0 ≤ s.level c
  | .findLock _ l | .findHead _ l => 0 ≤ l ∧ l ≤ 7
  | .findWalk name l p => (0 ≤ l ∧ l ≤ 7) ∧ ∃ pre suf, regs s.tr = pre ++ suf ∧ Chain s.next p suf ∧ ∀ d ∈ pre, nm d ≠ name
  | .findUnlock _ l => 0 ≤ l ∧ l ≤ 7
  | .namesLock _ | .namesHead _ => True
  | .namesWalk max p acc => ∃ suf, regs s.tr = acc ++ suf ∧ Chain s.next p suf ∧ acc.length ≤ max
  | .namesUnlock max acc => acc = (regs s.tr).take max
  | .feLock | .feHead => True
  | .feUnlock p => Chain s.next p (atHead t s.tr) ∧ atHead t s.tr = regs s.tr
  | .feWalk p acc => ∃ pre suf, regs s.tr = pre ++ suf ∧ Chain s.next p suf ∧
      acc ++ suf.filter (fun c => decide (c ≠ 0)) = (atHead t s.tr).filter fun c => decide (c ≠ 0)
  | .feNext c acc => ∃ pre suf, regs s.tr = pre ++ c :: suf ∧ Chain s.next (some c) (c :: suf) ∧
      acc ++ suf.filter (fun c => decide (c ≠ 0)) = (atHead t s.tr).filter fun c => decide (c ≠ 0)
  | .hookLock _ | .hookStore _ | .hookUnlock _ => True

/-- State of the hook call of a registered tag. -/
def HookSt (s : CState) (c : Cid) (w : Tid) : Prop :=
  match pend c (s.pc w) with
  | .no => hookEvs c s.tr = (hookAt c s.tr).toList
  | .early => hookEvs c s.tr = [] ∧ hookAt c s.tr = s.hook
  | .late h => hookEvs c s.tr = [] ∧ hookAt c s.tr = some h

structure CInv (nm : Cid → Bytes) (s : CState) : Prop where
  chain : Chain s.next s.head (regs s.tr)
  lockPc : ∀ t, (s.pc t).holds = true ↔ s.lock = some t
  lev : ∀ c, s.level c = (levelAt c s.tr).getD (-1)
  levNN : ∀ c l, levelAt c s.tr = some l → 0 ≤ l
  reg1 : ∀ c, 0 ≤ s.level c → c ∈ regs s.tr
  reg2 : ∀ c ∈ regs s.tr, s.level c < 0 → ∃ t lvl k, s.pc t = .store c lvl k
  pcs : ∀ t, PcInv nm s t (s.pc t)
  hookv : s.hook = lastHook s.tr
  hooks : ∀ c w, winner c s.tr = some w → HookSt s c w
  good : CGood nm s.tr

/-- How a step of `t` may change what other threads rely on. -/
structure Frame (t : Tid) (s s' : CState) : Prop where
  pcs : ∀ u, u ≠ t → s'.pc u = s.pc u
  regs : ∃ pre, regs s'.tr = pre ++ regs s.tr
  next : ∀ c ∈ Libulog.regs s.tr, s'.next c = s.next c
  level : ∀ c, 0 ≤ s.level c → 0 ≤ s'.level c
  win : ∀ c w, winner c s.tr = some w → winner c s'.tr = some w
  head : ∀ u, u ≠ t → atHead u s'.tr = atHead u s.tr
  other : ∀ u, u ≠ t → s.lock = some u → Libulog.regs s'.tr = Libulog.regs s.tr ∧ s'.next = s.next ∧
    s'.head = s.head ∧ ∀ c, s.level c < 0 → s'.level c < 0

theorem frame_pc {nm : Cid → Bytes} {t u : Tid} {s s' : CState} (h : CInv nm s) (hf : Frame t s s') (hu : u ≠ t) :
    PcInv nm s' u (s'.pc u) := by
  have hp := h.pcs u
  have hl := h.lockPc u
  rw [hf.pcs u hu]
  have hsub : ∀ suf, (∃ pre, regs s.tr = pre ++ suf) → ∀ c ∈ suf, s'.next c = s.next c := by
    rintro suf ⟨pre, he⟩ c hc
    exact hf.next c (by rw [he]; exact List.mem_append_right _ hc)
  generalize s.pc u = p at hp hl ⊢
  cases p with
  | idle => trivial
  | test c k => exact hp
  | env c k => exact hp
  | def1 c k => exact hp
  | def2 c k => exact hp
  | lock c lvl k => exact hp
  | check c lvl k => exact hp
  | link c lvl k =>
    obtain ⟨h1, h2, h3, h4⟩ := hf.other u hu (hl.mp rfl)
    exact ⟨hp.1, hp.2.1, h4 c hp.2.2.1, by rw [h1]; exact hp.2.2.2⟩
  | publish c lvl k =>
    obtain ⟨h1, h2, h3, h4⟩ := hf.other u hu (hl.mp rfl)
    exact ⟨hp.1, hp.2.1, h4 c hp.2.2.1, by rw [h1]; exact hp.2.2.2.1, by rw [h2, h3]; exact hp.2.2.2.2⟩
  | store c lvl k =>
    obtain ⟨h1, h2, h3, h4⟩ := hf.other u hu (hl.mp rfl)
    exact ⟨hp.1, hp.2.1, h4 c hp.2.2.1, hf.win c u hp.2.2.2⟩
  | readHook c k => exact ⟨hp.1, hf.level c hp.2.1, hf.win c u hp.2.2⟩
  | unlock c x k => exact ⟨hp.1, hf.level c hp.2.1, fun y hy => hf.win c u (hp.2.2 y hy)⟩
  | callHook c x k => exact ⟨hp.1, hf.level c hp.2.1, fun y hy => hf.win c u (hp.2.2 y hy)⟩
  | fin c k => exact ⟨hp.1, hf.level c hp.2⟩
  | findLock name l => exact hp
  | findHead name l => exact hp
  | findWalk name l p =>
    obtain ⟨h1, h2, h3, h4⟩ := hf.other u hu (hl.mp rfl)
    unfold PcInv at hp ⊢
    rw [h1, h2]; exact hp
  | findUnlock r l => exact hp
  | namesLock m => trivial
  | namesHead m => trivial
  | namesWalk m p acc =>
    obtain ⟨h1, h2, h3, h4⟩ := hf.other u hu (hl.mp rfl)
    unfold PcInv at hp ⊢
    rw [h1, h2]; exact hp
  | namesUnlock m acc =>
    obtain ⟨h1, h2, h3, h4⟩ := hf.other u hu (hl.mp rfl)
    unfold PcInv at hp ⊢
    rw [h1]; exact hp
  | feLock => trivial
  | feHead => trivial
  | feUnlock p =>
    obtain ⟨h1, h2, h3, h4⟩ := hf.other u hu (hl.mp rfl)
    unfold PcInv at hp ⊢
    rw [h1, h2, hf.head u hu]; exact hp
  | feWalk p acc =>
    obtain ⟨pre, suf, h1, h2, h3⟩ := hp
    obtain ⟨pre', hr⟩ := hf.regs
    refine ⟨pre' ++ pre, suf, by rw [hr, h1, List.append_assoc], h2.congr (hsub suf ⟨pre, h1⟩), ?_⟩
    rw [hf.head u hu]; exact h3
  | feNext c acc =>
    obtain ⟨pre, suf, h1, h2, h3⟩ := hp
    obtain ⟨pre', hr⟩ := hf.regs
    refine ⟨pre' ++ pre, suf, by rw [hr, h1, List.append_assoc], h2.congr (hsub (c :: suf) ⟨pre, h1⟩), ?_⟩
    rw [hf.head u hu]; exact h3
  | hookLock x => trivial
  | hookStore x => trivial
  | hookUnlock x => trivial

/-- A place where no registration is under way. -/
def Pc.calm : Pc → Bool
  | .store .. | .readHook .. | .unlock _ (some _) _ | .callHook _ (some _) _ => false
  | _ => true

theorem calm_pend {p : Pc} (h : p.calm = true) (c : Cid) : pend c p = .no := by
  cases p with
  | unlock d x k => cases x <;> first | rfl | cases h
  | callHook d x k => cases x <;> first | rfl | cases h
  | _ => first | rfl | cases h

/-- Steps that touch nothing but the lock and the place of the thread. -/
theorem move {nm : Cid → Bytes} {s : CState} {t : Tid} (h : CInv nm s) {p : Pc} {lk : Option Tid} {es : List CEv}
    (hes : ∀ e ∈ es, e.quiet = true) (hlk : ∀ u, u ≠ t → (lk = some u ↔ s.lock = some u))
    (hh : p.holds = true ↔ lk = some t)
    (hst : ∀ c lvl k, s.pc t ≠ .store c lvl k)
    (hpd : ∀ c w, winner c s.tr = some w → (w = t → HookSt { s with pc := fun u => if u = t then p else s.pc u } c t))
    (hp : PcInv nm { s with lock := lk, pc := fun u => if u = t then p else s.pc u, tr := es ++ s.tr } t p)
    (hg : CGood nm (es ++ s.tr)) :
    CInv nm { s with lock := lk, pc := fun u => if u = t then p else s.pc u, tr := es ++ s.tr } := by
  obtain ⟨a1, a2, a3, a4, a5, a6, a7⟩ := quiets_same hes s.tr
  have hf : Frame t s { s with lock := lk, pc := fun u => if u = t then p else s.pc u, tr := es ++ s.tr } := by
    refine ⟨fun u hu => if_neg hu, ⟨[], a1⟩, fun _ _ => rfl, fun _ hx => hx, ?_, fun u _ => a7 u, ?_⟩
    · intro c w hw; rw [← hw]; exact a2 c
    · intro u hu hl
      exact ⟨a1, rfl, rfl, fun _ hx => hx⟩
  refine ⟨?_, ?_, ?_, ?_, ?_, ?_, ?_, ?_, ?_, hg⟩
  · show Chain s.next s.head (regs (es ++ s.tr))
    rw [a1]; exact h.chain
  · intro u
    show (if u = t then p else s.pc u).holds = true ↔ lk = some u
    by_cases hu : u = t
    · rw [if_pos hu, hu]; exact hh
    · rw [if_neg hu, h.lockPc u]; exact (hlk u hu).symm
  · intro c
    show s.level c = (levelAt c (es ++ s.tr)).getD (-1)
    rw [a3]; exact h.lev c
  · intro c l hl
    have hl' : levelAt c (es ++ s.tr) = some l := hl
    rw [a3] at hl'
    exact h.levNN c l hl'
  · intro c hc
    show c ∈ regs (es ++ s.tr)
    rw [a1]; exact h.reg1 c hc
  · intro c hc hl
    have hc' : c ∈ regs (es ++ s.tr) := hc
    rw [a1] at hc'
    obtain ⟨u, lvl, k, hu⟩ := h.reg2 c hc' hl
    refine ⟨u, lvl, k, ?_⟩
    show (if u = t then p else s.pc u) = _
    by_cases hut : u = t
    · subst hut; exact absurd hu (hst c lvl k)
    · rw [if_neg hut]; exact hu
  · intro u
    by_cases hu : u = t
    · show PcInv nm _ u (if u = t then p else s.pc u)
      rw [if_pos hu, hu]; exact hp
    · exact frame_pc h hf hu
  · show s.hook = lastHook (es ++ s.tr)
    rw [a4]; exact h.hookv
  · intro c w hw
    have hw' : winner c (es ++ s.tr) = some w := hw
    rw [a2] at hw'
    have hold := h.hooks c w hw'
    show HookSt _ c w
    unfold HookSt
    show match pend c (if w = t then p else s.pc w) with
      | .no => hookEvs c (es ++ s.tr) = (hookAt c (es ++ s.tr)).toList
      | .early => hookEvs c (es ++ s.tr) = [] ∧ hookAt c (es ++ s.tr) = s.hook
      | .late h => hookEvs c (es ++ s.tr) = [] ∧ hookAt c (es ++ s.tr) = some h
    rw [a5, a6]
    by_cases hwt : w = t
    · have := hpd c w hw' hwt
      unfold HookSt at this
      rw [if_pos hwt]
      simpa using this
    · rw [if_neg hwt]; exact hold

/-- The same, from and to calm places. -/
theorem move_calm {nm : Cid → Bytes} {s : CState} {t : Tid} (h : CInv nm s) {p : Pc} {lk : Option Tid} {es : List CEv}
    (hes : ∀ e ∈ es, e.quiet = true) (hlk : ∀ u, u ≠ t → (lk = some u ↔ s.lock = some u))
    (hh : p.holds = true ↔ lk = some t) (hc : (s.pc t).calm = true) (hc' : p.calm = true)
    (hp : PcInv nm { s with lock := lk, pc := fun u => if u = t then p else s.pc u, tr := es ++ s.tr } t p)
    (hg : CGood nm (es ++ s.tr)) :
    CInv nm { s with lock := lk, pc := fun u => if u = t then p else s.pc u, tr := es ++ s.tr } := by
  refine move h hes hlk hh ?_ ?_ hp hg
  · intro c lvl k hx; rw [hx] at hc; cases hc
  · intro c w hw hwt
    have hold := h.hooks c w hw
    subst hwt
    unfold HookSt at hold ⊢
    rw [calm_pend hc] at hold
    show match pend c (if w = w then p else s.pc w) with
      | .no => _
      | .early => _
      | .late h => _
    rw [if_pos rfl, calm_pend hc']
    exact hold

/-- Steps of a thread that keep the lock as it is. -/
theorem move_local {nm : Cid → Bytes} {s : CState} {t : Tid} (h : CInv nm s) {p : Pc} {es : List CEv}
    (hes : ∀ e ∈ es, e.quiet = true) (hh : p.holds = (s.pc t).holds) (hc : (s.pc t).calm = true) (hc' : p.calm = true)
    (hp : PcInv nm { s with pc := fun u => if u = t then p else s.pc u, tr := es ++ s.tr } t p)
    (hg : CGood nm (es ++ s.tr)) :
    CInv nm { s with pc := fun u => if u = t then p else s.pc u, tr := es ++ s.tr } :=
  move_calm (lk := s.lock) h hes (fun _ _ => Iff.rfl) (by rw [hh]; exact h.lockPc t) hc hc' hp hg

end Verif.Libulog
