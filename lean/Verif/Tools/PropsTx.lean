import Verif.Tools.Tx
import Verif.Tools.PropsShd

/-!
# The port for ThreadX (C79, C80, C81, C82, C83)
-/
namespace Verif.Tools
open Verif Verif.Libulog Verif.Ulogcat

/-- What is true of the registered tags. -/
structure TxOk (s : Tx) : Prop where
  nodup : s.list.Nodup
  listed : ∀ c, c ∈ s.list ↔ 0 ≤ s.level c
  le : ∀ c, s.level c ≤ 7
  ge : ∀ c, -1 ≤ s.level c
  dflt : 0 ∈ s.list

/-- What is true of a thread in a call. -/
def PcOk (s : Tx) : TxPc → Prop
  | .idle => True
  | .init _ lv next => s.ready = true ∧ 0 ≤ lv ∧ lv ≤ 7 ∧ ∀ l, next = some l → 0 ≤ l ∧ l ≤ 7
  | .store c l => s.ready = true ∧ c ∈ s.list ∧ 0 ≤ l ∧ l ≤ 7
  | .find .. => s.ready = true

theorem txClamp_range (l : Int) : 0 ≤ txClamp l ∧ txClamp l ≤ 7 := by
  unfold txClamp
  (repeat' split) <;> omega

theorem txDefault_range {s : Tx} (h : TxOk s) : 0 ≤ txDefault s ∧ txDefault s ≤ 7 := by
  have := h.le 0
  unfold txDefault
  split <;> omega

theorem TxOk.start : TxOk Tx.start := by
  refine ⟨by simp [Tx.start], fun c => ?_, fun c => ?_, fun c => ?_, by simp [Tx.start]⟩
  all_goals
    simp only [Tx.start, List.mem_singleton]
    by_cases h : c = 0 <;> simp [h]

theorem PcOk.mono {s s' : Tx} (hr : s.ready = true → s'.ready = true) (hl : ∀ c ∈ s.list, c ∈ s'.list) {p : TxPc} (h : PcOk s p) : PcOk s' p := by
  cases p with
  | idle => trivial
  | init => exact ⟨hr h.1, h.2⟩
  | store => exact ⟨hr h.1, hl _ h.2.1, h.2.2⟩
  | find => exact hr h

theorem txSet_ok {s : Tx} (h : TxOk s) (c : Cid) (l : Int) : PcOk s (txSet s c l) := by
  unfold txSet
  split
  · trivial
  · rename_i hr
    simp only [Bool.not_eq_false] at hr
    split
    · refine ⟨hr, (txDefault_range h).1, (txDefault_range h).2, fun l' e => ?_⟩
      cases e; exact txClamp_range l
    · exact ⟨hr, (h.listed c).mpr (by omega), txClamp_range l⟩

theorem txCall_ok {s : Tx} (h : TxOk s) (x : TxCall) :
    TxOk (txCall s x).1 ∧ PcOk (txCall s x).1 (txCall s x).2 ∧ (s.ready = true → (txCall s x).1.ready = true) ∧
      (txCall s x).1.list = s.list ∧ (txCall s x).1.level = s.level := by
  cases x with
  | early ok => exact ⟨⟨h.nodup, h.listed, h.le, h.ge, h.dflt⟩, trivial, fun hr => by simp [txCall, hr], rfl, rfl⟩
  | touch c =>
    unfold txCall
    dsimp only
    split
    · rename_i hc
      exact ⟨h, ⟨hc.1, (txDefault_range h).1, (txDefault_range h).2, by simp⟩, fun hr => hr, rfl, rfl⟩
    · exact ⟨h, trivial, fun hr => hr, rfl, rfl⟩
  | setLevel c l => exact ⟨h, txSet_ok h c l, fun hr => hr, rfl, rfl⟩
  | setTag name l =>
    unfold txCall
    dsimp only
    split
    · exact ⟨h, by assumption, fun hr => hr, rfl, rfl⟩
    · exact ⟨h, trivial, fun hr => hr, rfl, rfl⟩

theorem TxOk.setLevel {s : Tx} (h : TxOk s) {c : Cid} (hc : c ∈ s.list) {l : Int} (h0 : 0 ≤ l) (h7 : l ≤ 7) :
    TxOk { s with level := setLv s.level c l } := by
  refine ⟨h.nodup, fun c' => ?_, fun c' => ?_, fun c' => ?_, h.dflt⟩ <;> unfold setLv <;> dsimp only <;> split
  · rename_i e; subst e; simp [hc, h0]
  · exact h.listed c'
  · exact h7
  · exact h.le c'
  · omega
  · exact h.ge c'

theorem TxOk.insert {s : Tx} (h : TxOk s) {c : Cid} (hc : s.level c < 0) {l : Int} (h0 : 0 ≤ l) (h7 : l ≤ 7) :
    TxOk { s with list := c :: s.list, level := setLv s.level c l } := by
  have hn : c ∉ s.list := fun hm => by have := (h.listed c).mp hm; omega
  refine ⟨List.nodup_cons.mpr ⟨hn, h.nodup⟩, fun c' => ?_, fun c' => ?_, fun c' => ?_, List.mem_cons_of_mem _ h.dflt⟩ <;>
    unfold setLv <;> dsimp only <;> split
  · rename_i e; subst e; simp [h0]
  · rename_i e; simp [e, h.listed c']
  · exact h7
  · exact h.le c'
  · omega
  · exact h.ge c'

theorem txGo_ok {nm : Cid → Bytes} {s : Tx} (h : TxOk s) {p : TxPc} (hp : PcOk s p) :
    TxOk (txGo nm s true p).1 ∧ PcOk (txGo nm s true p).1 (txGo nm s true p).2 ∧ (txGo nm s true p).1.ready = s.ready ∧
      ∃ new, (txGo nm s true p).1.list = new ++ s.list := by
  cases p with
  | idle => exact ⟨h, trivial, rfl, [], rfl⟩
  | init c lv next =>
    obtain ⟨hr, h0, h7, hn⟩ := hp
    simp only [txGo]
    by_cases hc : s.level c < 0
    · rw [if_pos ⟨trivial, hc⟩]
      refine ⟨h.insert hc h0 h7, ?_, rfl, [c], rfl⟩
      cases next with
      | none => trivial
      | some l => exact ⟨hr, List.mem_cons_self, hn l rfl⟩
    · rw [if_neg (fun h => hc h.2)]
      refine ⟨h, ?_, rfl, [], rfl⟩
      cases next with
      | none => trivial
      | some l => exact ⟨hr, (h.listed c).mpr (by omega), hn l rfl⟩
  | store c l => exact ⟨h.setLevel hp.2.1 hp.2.2.1 hp.2.2.2, trivial, rfl, [], rfl⟩
  | find name l =>
    simp only [txGo]
    rw [if_neg (by simp)]
    split
    · exact ⟨h, txSet_ok h _ l, rfl, [], rfl⟩
    · exact ⟨h, trivial, rfl, [], rfl⟩

structure TxInv (s : TxSys) : Prop where
  ok : TxOk s.tx
  pcs : ∀ t, PcOk s.tx (s.pc t)

def TxEv.mutexOk : TxEv → Bool
  | .go m => m
  | .call _ => true

theorem txStep_inv {nm : Cid → Bytes} {s : TxSys} (h : TxInv s) (t : Nat) {e : TxEv} (he : e.mutexOk = true) :
    TxInv (txStep nm s t e) ∧ ∃ new, (txStep nm s t e).tx.list = new ++ s.tx.list := by
  cases e with
  | call x =>
    unfold txStep
    dsimp only
    split
    · obtain ⟨a, b, c, d, _⟩ := txCall_ok h.ok x
      refine ⟨⟨a, fun t' => ?_⟩, [], d⟩
      unfold setPc
      dsimp only
      split
      · exact b
      · exact (h.pcs t').mono c (fun c' hc' => by rw [d]; exact hc')
    · exact ⟨h, [], rfl⟩
  | go m =>
    have hm : m = true := he
    subst hm
    obtain ⟨a, b, c, new, d⟩ := txGo_ok (nm := nm) h.ok (h.pcs t)
    refine ⟨⟨a, fun t' => ?_⟩, new, d⟩
    unfold txStep setPc
    dsimp only
    split
    · exact b
    · exact (h.pcs t').mono (fun hr => by rw [c]; exact hr) (fun c' hc' => by rw [d]; exact List.mem_append_right _ hc')

theorem txRun_inv {nm : Cid → Bytes} {s : TxSys} (h : TxInv s) {l : List (Nat × TxEv)} (hl : ∀ x ∈ l, x.2.mutexOk = true) :
    TxInv (txRun nm s l) ∧ ∃ new, (txRun nm s l).tx.list = new ++ s.tx.list := by
  induction l generalizing s with
  | nil => exact ⟨h, [], rfl⟩
  | cons x l ih =>
    obtain ⟨h1, n1, e1⟩ := txStep_inv (nm := nm) h x.1 (hl x List.mem_cons_self)
    obtain ⟨h2, n2, e2⟩ := ih h1 (fun y hy => hl y (List.mem_cons_of_mem _ hy))
    exact ⟨h2, n2 ++ n1, by show (txRun nm (txStep nm s x.1 x.2) l).tx.list = _; rw [e2, e1, List.append_assoc]⟩

theorem count_le_one {l : List Cid} (h : l.Nodup) (c : Cid) : l.count c ≤ 1 := by
  induction l with
  | nil => simp
  | cons a l ih =>
    rw [List.nodup_cons] at h
    by_cases he : a = c
    · subst he
      rw [List.count_cons_self, List.count_eq_zero.mpr h.1]; omega
    · rw [List.count_cons_of_ne he]; exact ih h.2

theorem TxInv.start : TxInv TxSys.start := ⟨TxOk.start, fun _ => trivial⟩

/-- **C79:** however the threads take turns, each tag is registered at most once, a tag is
registered exactly if it has a level, and every level is between 0 and 7. -/
theorem C79_registered (nm : Cid → Bytes) {l : List (Nat × TxEv)} (hl : ∀ x ∈ l, x.2.mutexOk = true) (c : Cid) :
    let s := (txRun nm .start l).tx
    s.list.count c ≤ 1 ∧ (c ∈ s.list ↔ s.level c ≠ -1) ∧ (c ∈ s.list → 0 ≤ s.level c ∧ s.level c ≤ 7) := by
  dsimp only
  obtain ⟨h, -⟩ := txRun_inv (nm := nm) TxInv.start hl
  have h1 := h.ok.listed c
  have h2 := h.ok.le c
  have h3 := h.ok.ge c
  refine ⟨count_le_one h.ok.nodup c, ?_, fun hm => ⟨h1.mp hm, h2⟩⟩
  rw [h1]; omega

/-- **C79:** a registered tag stays registered; the list only grows at its front. -/
theorem C79_stays (nm : Cid → Bytes) {l l' : List (Nat × TxEv)} (hl : ∀ x ∈ l ++ l', x.2.mutexOk = true) :
    ∃ new, (txRun nm .start (l ++ l')).tx.list = new ++ (txRun nm .start l).tx.list := by
  obtain ⟨h, -⟩ := txRun_inv (nm := nm) TxInv.start (l := l) (fun x hx => hl x (List.mem_append_left _ hx))
  obtain ⟨-, new, e⟩ := txRun_inv (nm := nm) h (l := l') (fun x hx => hl x (List.mem_append_right _ hx))
  refine ⟨new, ?_⟩
  unfold txRun at *
  rw [List.foldl_append]
  exact e

/-- **C79:** until the library is initialised nothing happens. -/
theorem C79_before (nm : Cid → Bytes) {l : List (Nat × TxEv)} (hl : ∀ x ∈ l, x.2 ≠ .call (.early true)) :
    txRun nm .start l = .start := by
  induction l with
  | nil => rfl
  | cons x l ih =>
    obtain ⟨t, e⟩ := x
    have hx : e ≠ .call (.early true) := hl (t, e) List.mem_cons_self
    have h1 : txStep nm .start t e = .start := by
      cases e with
      | go m =>
        have : setPc TxSys.start.pc t .idle = TxSys.start.pc := by funext t'; unfold setPc; split <;> rfl
        simp only [txStep, txGo, show TxSys.start.pc t = .idle from rfl, this]
      | call x =>
        have hp : setPc TxSys.start.pc t .idle = TxSys.start.pc := by funext t'; unfold setPc; split <;> rfl
        have hr : TxSys.start.tx.ready = false := rfl
        have h2 : txCall TxSys.start.tx x = (TxSys.start.tx, .idle) := by
          cases x with
          | early ok =>
            cases ok with
            | true => exact absurd rfl hx
            | false => rfl
          | touch c => simp [txCall, hr]
          | setLevel c l => simp [txCall, txSet, hr]
          | setTag n l => simp [txCall, hr]
        simp only [txStep]
        rw [if_pos (show TxSys.start.pc t = .idle from rfl), h2]
        dsimp only
        rw [hp]
    show txRun nm (txStep nm .start t e) l = _
    rw [h1]
    exact ih fun y hy => hl y (List.mem_cons_of_mem _ hy)

/-- A tag with a level that is not in the list. -/
structure Lost (c : Cid) (s : TxSys) : Prop where
  ready : s.tx.ready = true
  lv : 0 ≤ s.tx.level c
  out : c ∉ s.tx.list
  pos : ∀ t, (∀ l, s.pc t = .store c l → 0 ≤ l) ∧ ∀ lv next, s.pc t = .init c lv next → ∀ l, next = some l → 0 ≤ l

theorem txSet_pos (s : Tx) (c' c : Cid) (l' : Int) : (∀ l, txSet s c' l' = .store c l → 0 ≤ l) ∧
    ∀ lv next, txSet s c' l' = .init c lv next → ∀ l, next = some l → 0 ≤ l := by
  have := txClamp_range l'
  unfold txSet
  refine ⟨fun l h => ?_, fun lv next h l hl => ?_⟩ <;> (repeat' split at h) <;> cases h
  · exact this.1
  · cases hl; exact this.1

theorem Lost.step {nm : Cid → Bytes} {c : Cid} {s : TxSys} (h : Lost c s) (t : Nat) (e : TxEv) : Lost c (txStep nm s t e) := by
  cases e with
  | call x =>
    unfold txStep
    dsimp only
    split
    · have h1 : (txCall s.tx x).1.list = s.tx.list ∧ (txCall s.tx x).1.level = s.tx.level ∧ (txCall s.tx x).1.ready = true := by
        cases x <;> simp only [txCall, h.ready] <;> (repeat' split) <;> simp [h.ready]
      refine ⟨h1.2.2, by rw [h1.2.1]; exact h.lv, by rw [h1.1]; exact h.out, fun t' => ?_⟩
      unfold setPc
      dsimp only
      by_cases ht : t' = t
      · rw [if_pos ht]
        cases x with
        | early => exact ⟨fun l h => (by cases h), fun lv n h => by cases h⟩
        | setLevel c' l' => exact txSet_pos s.tx c' c l'
        | touch c' =>
          simp only [txCall]
          split
          · exact ⟨fun l h => (by cases h), fun lv n h l hl => by cases h; cases hl⟩
          · exact ⟨fun l h => (by cases h), fun lv n h => by cases h⟩
        | setTag n l' =>
          simp only [txCall]
          split
          · exact ⟨fun l h => (by cases h), fun lv n h => by cases h⟩
          · exact ⟨fun l h => (by cases h), fun lv n h => by cases h⟩
      · rw [if_neg ht]; exact h.pos t'
    · exact h
  | go m =>
    have hpt := h.pos t
    have key : (txGo nm s.tx m (s.pc t)).1.ready = true ∧ 0 ≤ (txGo nm s.tx m (s.pc t)).1.level c ∧ c ∉ (txGo nm s.tx m (s.pc t)).1.list ∧
        ((∀ l, (txGo nm s.tx m (s.pc t)).2 = .store c l → 0 ≤ l) ∧
          ∀ lv next, (txGo nm s.tx m (s.pc t)).2 = .init c lv next → ∀ l, next = some l → 0 ≤ l) := by
      generalize s.pc t = p at *
      cases p with
      | idle => exact ⟨h.ready, h.lv, h.out, fun l h => (by cases h), fun lv n h => by cases h⟩
      | init c' lv next =>
        simp only [txGo]
        have hne : s.tx.level c' < 0 → c ≠ c' := fun hn he => by subst he; have := h.lv; omega
        have hpc : (∀ l, (match next with | some l => TxPc.store c' l | none => .idle) = .store c l → 0 ≤ l) := by
          intro l hl
          cases next with
          | none => cases hl
          | some l' => cases hl; exact hpt.2 lv (some l) rfl l rfl
        have hpc2 : ∀ lv n, (match next with | some l => TxPc.store c' l | none => .idle) = .init c lv n → ∀ l, n = some l → 0 ≤ l := by
          intro lv n hl
          cases next <;> cases hl
        by_cases hc : m = true ∧ s.tx.level c' < 0
        · rw [if_pos hc]
          refine ⟨h.ready, ?_, ?_, hpc, hpc2⟩
          · show 0 ≤ setLv s.tx.level c' lv c
            unfold setLv; rw [if_neg (hne hc.2)]; exact h.lv
          · simp only [List.mem_cons, not_or]; exact ⟨hne hc.2, h.out⟩
        · rw [if_neg hc]
          exact ⟨h.ready, h.lv, h.out, hpc, hpc2⟩
      | store c' l' =>
        refine ⟨h.ready, ?_, h.out, fun l h => (by cases h), fun lv n h => by cases h⟩
        show 0 ≤ setLv s.tx.level c' l' c
        unfold setLv
        split
        · rename_i e; subst e; exact hpt.1 l' rfl
        · exact h.lv
      | find name l =>
        simp only [txGo]
        (repeat' split)
        · exact ⟨h.ready, h.lv, h.out, fun l h => (by cases h), fun lv n h => by cases h⟩
        · exact ⟨h.ready, h.lv, h.out, txSet_pos s.tx _ c l⟩
        · exact ⟨h.ready, h.lv, h.out, fun l h => (by cases h), fun lv n h => by cases h⟩
    refine ⟨key.1, key.2.1, key.2.2.1, fun t' => ?_⟩
    unfold txStep setPc
    dsimp only
    split
    · exact key.2.2.2
    · exact h.pos t'

/-- C79 is false of the code if the mutex cannot be taken once: a tag whose level is set
at that time has a level but is not registered, and never will be. -/
theorem C79_false_mutex (nm : Cid → Bytes) {c : Cid} (hc : c ≠ 0) (v : Int) (l : List (Nat × TxEv)) :
    let s := (txRun nm .start ([(0, .call (.early true)), (0, .call (.setLevel c v)), (0, .go false), (0, .go true)] ++ l)).tx
    0 ≤ s.level c ∧ c ∉ s.list := by
  dsimp only
  have h0 : txRun nm .start [(0, .call (.early true)), (0, .call (.setLevel c v)), (0, .go false), (0, .go true)] =
      { tx := { ready := true, list := [0], level := setLv Tx.start.level c (txClamp v) }, pc := fun _ => .idle } := by
    have hlv : Tx.start.level c = -1 := by simp [Tx.start, hc]
    have hp : ∀ p q r x : TxPc, setPc (setPc (setPc (setPc (fun _ => TxPc.idle) 0 p) 0 q) 0 r) 0 .idle = fun _ => .idle := by
      intro p q r x; funext t; unfold setPc; by_cases h : t = 0 <;> simp [h]
    have hl0 : Tx.start.ready = false := rfl
    simp only [txRun, List.foldl_cons, List.foldl_nil, txStep, TxSys.start, txCall, txSet, txGo]
    simp [setPc, hlv, Tx.start, txGo, hc]
    exact hp _ _ _ .idle
  have hL : Lost c (txRun nm .start [(0, .call (.early true)), (0, .call (.setLevel c v)), (0, .go false), (0, .go true)]) := by
    rw [h0]
    refine ⟨rfl, ?_, by simp [hc], fun t => ⟨fun l h => (by cases h), fun lv n h => by cases h⟩⟩
    show 0 ≤ setLv Tx.start.level c (txClamp v) c
    unfold setLv; rw [if_pos rfl]; exact (txClamp_range v).1
  have hrun : ∀ (l : List (Nat × TxEv)) (s : TxSys), Lost c s → Lost c (txRun nm s l) := by
    intro l
    induction l with
    | nil => exact fun s h => h
    | cons x l ih => exact fun s h => ih _ (h.step x.1 x.2)
  have := hrun l _ hL
  unfold txRun at this ⊢
  rw [List.foldl_append]
  exact ⟨this.lv, this.out⟩

/-! ## Setting and getting levels -/

/-- The state after some history in which the library was initialised. -/
def TxReach (nm : Cid → Bytes) (s : Tx) : Prop :=
  s.ready = true ∧ ∃ l : List (Nat × TxEv), (∀ x ∈ l, x.2.mutexOk = true) ∧ (txRun nm .start l).tx = s

theorem TxReach.ok {nm : Cid → Bytes} {s : Tx} (h : TxReach nm s) : TxOk s := by
  obtain ⟨_, l, hl, rfl⟩ := h
  exact (txRun_inv TxInv.start hl).1.ok

/-- **C80:** a call that sets the level of a tag gives it this level (brought into 0..7)
and registers it; all others keep theirs. -/
theorem C80_set {nm : Cid → Bytes} {s : Tx} (h : TxReach nm s) (c : Cid) (l : Int) :
    let s' := txWhole nm s (.setLevel c l)
    c ∈ s'.list ∧ (0 ≤ l → l ≤ 7 → s'.level c = l) ∧ (l < 0 → s'.level c = 0) ∧ (7 < l → s'.level c = 7) ∧
      ∀ c', c' ≠ c → s'.level c' = s.level c' ∧ (c' ∈ s'.list ↔ c' ∈ s.list) := by
  have ho := h.ok
  have hr := h.1
  have hcl : (0 ≤ l → l ≤ 7 → txClamp l = l) ∧ (l < 0 → txClamp l = 0) ∧ (7 < l → txClamp l = 7) := by
    unfold txClamp
    refine ⟨fun a b => ?_, fun a => ?_, fun a => ?_⟩ <;> (repeat' split) <;> omega
  dsimp only
  by_cases hc : s.level c < 0
  · have e : txWhole nm s (.setLevel c l) =
        { s with list := c :: s.list, level := setLv (setLv s.level c (txDefault s)) c (txClamp l) } := by
      simp [txWhole, txCall, txSet, hr, hc, txGo]
    rw [e]
    dsimp only
    have hv : setLv (setLv s.level c (txDefault s)) c (txClamp l) c = txClamp l := by simp [setLv]
    rw [hv]
    refine ⟨List.mem_cons_self, hcl.1, hcl.2.1, hcl.2.2, fun c' hne => ⟨by simp [setLv, hne], by simp [hne]⟩⟩
  · have e : txWhole nm s (.setLevel c l) = { s with level := setLv s.level c (txClamp l) } := by
      simp [txWhole, txCall, txSet, hr, hc, txGo]
    rw [e]
    dsimp only
    have hv : setLv s.level c (txClamp l) c = txClamp l := by simp [setLv]
    rw [hv]
    exact ⟨(ho.listed c).mpr (by omega), hcl.1, hcl.2.1, hcl.2.2, fun c' hne => ⟨by simp [setLv, hne], Iff.rfl⟩⟩

/-- **C80:** a tag that is used for the first time gets the level that the default tag has
at that time. -/
theorem C80_first {nm : Cid → Bytes} {s : Tx} (h : TxReach nm s) {c : Cid} (hc : c ∉ s.list) :
    let s' := txWhole nm s (.touch c)
    s'.list = c :: s.list ∧ s'.level c = s.level 0 ∧ ∀ c', c' ≠ c → s'.level c' = s.level c' := by
  have ho := h.ok
  have hr := h.1
  have hn : s.level c < 0 := by
    rcases Int.lt_or_le (s.level c) 0 with h | h
    · exact h
    · exact absurd ((ho.listed c).mpr h) hc
  have hd : txDefault s = s.level 0 := by unfold txDefault; rw [if_pos ((ho.listed 0).mp ho.dflt)]
  have e : txWhole nm s (.touch c) = { s with list := c :: s.list, level := setLv s.level c (s.level 0) } := by
    simp [txWhole, txCall, hr, hn, txGo, hd]
  dsimp only
  rw [e]
  exact ⟨rfl, by simp [setLv], fun c' hne => by simp [setLv, hne]⟩

/-- **C80:** setting the level by name succeeds exactly if a registered tag has the name,
and then changes that of the one registered last; asking by name gives that level. -/
theorem C80_name {nm : Cid → Bytes} {s : Tx} (h : TxReach nm s) (name : Bytes) (l : Int) :
    (txSetTagRes nm s true name = 0 ∧ (∃ new c old, s.list = new ++ c :: old ∧ nm c = name ∧ (∀ c' ∈ new, nm c' ≠ name) ∧
      (txWhole nm s (.setTag name l)).level = setLv s.level c (txClamp l) ∧ (txWhole nm s (.setTag name l)).list = s.list ∧
      txGetTag nm s true name = s.level c ∧ txGetTag nm (txWhole nm s (.setTag name l)) true name = txClamp l)) ∨
    (txSetTagRes nm s true name = -1 ∧ (∀ c ∈ s.list, nm c ≠ name) ∧ txWhole nm s (.setTag name l) = s ∧ txGetTag nm s true name = -1) := by
  have ho := h.ok
  have hr := h.1
  cases hf : s.list.find? (fun c => nm c == name) with
  | none =>
    refine Or.inr ⟨?_, ?_, ?_, ?_⟩
    · simp [txSetTagRes, hr, hf]
    · intro c hc
      have := List.find?_eq_none.mp hf c hc
      simpa using this
    · simp [txWhole, txCall, hr, txGo, hf]
    · simp [txGetTag, hr, hf]
  | some c =>
    obtain ⟨hn, new, old, he, hb⟩ := List.find?_eq_some_iff_append.mp hf
    have hc : c ∈ s.list := by rw [he]; simp
    have hlv := (ho.listed c).mp hc
    have e : txWhole nm s (.setTag name l) = { s with level := setLv s.level c (txClamp l) } := by
      simp [txWhole, txCall, txSet, hr, txGo, hf, show ¬ s.level c < 0 by omega]
    refine Or.inl ⟨by simp [txSetTagRes, hr, hf], new, c, old, he, by simpa using hn, fun c' hc' => by simpa using hb c' hc', ?_, ?_, ?_, ?_⟩
    · rw [e]
    · rw [e]
    · simp [txGetTag, hr, hf]
    · rw [e]; simp [txGetTag, hr, hf, setLv]

/-- **C80:** the names of the tags, the one registered last first, at most as many as asked
for; none before the library is ready or if the mutex cannot be had, when setting and asking
fail, too. -/
theorem C80_names {nm : Cid → Bytes} (s : Tx) (max : Int) :
    (s.ready = true → txNames nm s true max = (s.list.map nm).take max.toNat) ∧
    (∀ mutex name, s.ready = false ∨ mutex = false → txNames nm s mutex max = [] ∧ txSetTagRes nm s mutex name = -1 ∧ txGetTag nm s mutex name = -1) := by
  refine ⟨fun h => by simp [txNames, h, List.map_take], ?_⟩
  rintro mutex name (h | h) <;> simp [txNames, txSetTagRes, txGetTag, h]

/-- **C80:** `ulog_foreach` goes through the registered tags, each once, the one
registered last first; otherwise it goes through none and says why. -/
theorem C80_foreach {nm : Cid → Bytes} {s : Tx} (h : TxReach nm s) :
    (txForeach s true true).1 = 0 ∧ (txForeach s true true).2.Nodup ∧ (∀ c, c ∈ (txForeach s true true).2 ↔ s.level c ≠ -1) ∧
    (∀ max, ((txForeach s true true).2.map nm).take max = txNames nm s true max) ∧
    (∀ mutex, txForeach s mutex false = (-22, [])) ∧ txForeach s false true = (-1, []) ∧
    ∀ s' mutex cb, s'.ready = false → txForeach s' mutex cb = (-1, []) := by
  have ho := h.ok
  have e : txForeach s true true = (0, s.list) := by simp [txForeach, h.1]
  rw [e]
  refine ⟨rfl, ho.nodup, fun c => ?_, fun max => ?_, fun mutex => by simp [txForeach, h.1], by simp [txForeach, h.1], fun s' mutex cb hr => by simp [txForeach, hr]⟩
  · have h1 := ho.listed c
    have h3 := ho.ge c
    rw [h1]; omega
  · rw [(C80_names (nm := nm) s max).1 h.1]
    simp

/-! ## Letters -/

/-- The letters of the levels 2 to 7. -/
def levelLetters : List UInt8 := ascii "CEWNID"

/-- **C80:** digits and letters name levels; printing the letter of a level and reading it
again gives the level, from 2 on. -/
theorem C80_letters : (∀ i : Nat, 2 ≤ i → i ≤ 7 → txChar (i : Int) = levelLetters[i - 2]?.getD 0 ∧ txParse (txChar (i : Int)).toNat = i) ∧
    (∀ d : Nat, d ≤ 9 → txParse (48 + d) = min d 7) ∧ ∀ c : Nat, 0 ≤ txParse c ∧ txParse c ≤ 7 := by
  refine ⟨?_, ?_, fun c => ?_⟩
  · intro i h2 h7
    have : i = 2 ∨ i = 3 ∨ i = 4 ∨ i = 5 ∨ i = 6 ∨ i = 7 := by omega
    rcases this with rfl | rfl | rfl | rfl | rfl | rfl <;> decide +kernel
  · intro d hd
    have : (if 48 ≤ 48 + d ∧ 48 + d ≤ 57 then ((48 + d : Nat) : Int) - 48 else if 65 ≤ 48 + d ∧ 48 + d ≤ 90 then txTab (48 + d - 65) else 0) = d := by
      rw [if_pos (by omega)]; omega
    unfold txParse
    rw [this]
    dsimp only
    split <;> omega
  · unfold txParse txTab
    dsimp only
    (repeat' split) <;> omega

/-! ## Output -/

/-- **C81:** with the library initialised, a formatted message with a plain priority is
printed exactly if its level is within that of the tag; then with its letter, its tag and
the first 255 bytes of the text. -/
theorem C81_printed {nm : Cid → Bytes} {s : Tx} (h : TxReach nm s) {prio : UInt32} (hp : prio.toNat < 8) (c : Cid) (t : Bytes) :
    let lv := if c ∈ s.list then s.level c else s.level 0
    txLog nm s (.fmt prio c (some t)) =
      if (prio.toNat : Int) ≤ lv then some (some (if prio.toNat < 2 then 0 else levelLetters[prio.toNat - 2]?.getD 0, nm c, t.take 255))
      else some none := by
  have ho := h.ok
  have hr := h.1
  have hd : txDefault s = s.level 0 := by unfold txDefault; rw [if_pos ((ho.listed 0).mp ho.dflt)]
  have hlv : (if s.level c < 0 ∧ s.ready = true then txDefault s else s.level c) = if c ∈ s.list then s.level c else s.level 0 := by
    by_cases hc : c ∈ s.list
    · have := (ho.listed c).mp hc
      rw [if_neg (by omega), if_pos hc]
    · have : s.level c < 0 := by
        rcases Int.lt_or_le (s.level c) 0 with h | h
        · exact h
        · exact absurd ((ho.listed c).mpr h) hc
      rw [if_pos ⟨this, hr⟩, if_neg hc, hd]
  dsimp only [txLog]
  rw [hlv, show prio.toNat % 8 = prio.toNat by omega, if_neg (show ¬ s.ready = false by rw [hr]; simp)]
  have hm : txMarker prio.toNat = some (if prio.toNat < 2 then 0 else levelLetters[prio.toNat - 2]?.getD 0) := by
    generalize prio.toNat = n at *
    have : n = 0 ∨ n = 1 ∨ n = 2 ∨ n = 3 ∨ n = 4 ∨ n = 5 ∨ n = 6 ∨ n = 7 := by omega
    rcases this with rfl | rfl | rfl | rfl | rfl | rfl | rfl | rfl <;> decide +kernel
  rw [hm]
  rfl

/-- **C81:** of the levels with a letter just information is printed without a colour, and
no two of the others have the same. -/
theorem C81_colour (p q : Nat) (hp : 2 ≤ p ∧ p ≤ 7) (hq : 2 ≤ q ∧ q ≤ 7) :
    (txColour p = some none ↔ txChar p = 73) ∧ (txColour p = txColour q ↔ p = q) ∧ (txColour p = some (some .red) ↔ txChar p = 69) := by
  have h1 : p = 2 ∨ p = 3 ∨ p = 4 ∨ p = 5 ∨ p = 6 ∨ p = 7 := by omega
  have h2 : q = 2 ∨ q = 3 ∨ q = 4 ∨ q = 5 ∨ q = 6 ∨ q = 7 := by omega
  rcases h1 with rfl | rfl | rfl | rfl | rfl | rfl <;> rcases h2 with rfl | rfl | rfl | rfl | rfl | rfl <;> decide

/-- **C80:** other levels are printed as a space, and other characters read as 0. -/
theorem C80_table : (∀ p : Int, p < 2 ∨ 7 < p → txChar p = 32) ∧
    ∀ c : Nat, ¬ (48 ≤ c ∧ c ≤ 57) → (∀ b ∈ levelLetters, b.toNat ≠ c) → txParse c = 0 := by
  constructor
  · intro p h
    unfold txChar
    split
    · rfl
    · have : p = 0 ∨ p = 1 := by omega
      rcases this with rfl | rfl <;> rfl
  · intro c h1 h2
    have hl : levelLetters = [67, 69, 87, 78, 73, 68] := by decide
    rw [hl] at h2
    simp only [List.mem_cons, List.not_mem_nil, or_false, forall_eq_or_imp, forall_eq] at h2
    obtain ⟨a1, a2, a3, a4, a5, a6⟩ := h2
    have b1 : c ≠ 67 := fun e => a1 e.symm
    have b2 : c ≠ 69 := fun e => a2 e.symm
    have b3 : c ≠ 87 := fun e => a3 e.symm
    have b4 : c ≠ 78 := fun e => a4 e.symm
    have b5 : c ≠ 73 := fun e => a5 e.symm
    have b6 : c ≠ 68 := fun e => a6 e.symm
    have : (if 48 ≤ c ∧ c ≤ 57 then (c : Int) - 48 else if 65 ≤ c ∧ c ≤ 90 then txTab (c - 65) else 0) = 0 := by
      rw [if_neg h1]
      split
      · unfold txTab
        repeat' split
        all_goals first | rfl | omega
      · rfl
    unfold txParse
    rw [this]
    rfl

/-- **C81:** the table of colours is left exactly by a priority of 8 or more, and the colours of 0
and 1, which have no letter, are none of the others. -/
theorem C81_table (p : Nat) : (txColour p = none ↔ 8 ≤ p) ∧ (txColour p = some (some .zero) ↔ p ≤ 1) := by
  unfold txColour
  constructor
  · constructor
    · intro h
      split at h
      · assumption
      · repeat' split at h
        all_goals cases h
    · intro h; rw [if_pos h]
  · constructor
    · intro h
      repeat' split at h
      all_goals first | (cases h; done) | omega
    · intro h
      have : p = 0 ∨ p = 1 := by omega
      rcases this with rfl | rfl <;> rfl

/-- C81 is false of the code for priorities with more than a level (binary, coloured): the
table is read outside its bounds. -/
theorem C81_false_prio {nm : Cid → Bytes} {s : Tx} (h : TxReach nm s) {prio : UInt32} (hp : 8 ≤ prio.toNat) {c : Cid} (hc : c ∈ s.list)
    (hl : ((prio.toNat % 8 : Nat) : Int) ≤ s.level c) (t : Bytes) : txLog nm s (.fmt prio c (some t)) = none := by
  have := (h.ok.listed c).mp hc
  dsimp only [txLog]
  rw [if_neg (show ¬ (s.level c < 0 ∧ s.ready = true) by omega), if_pos hl, if_neg (by rw [h.1]; simp)]
  unfold txMarker
  rw [if_pos (by omega)]
  rfl

/-- C81 is false of the code for messages logged as a string or a buffer: nothing is
printed, whatever the level. -/
theorem C81_false_str (nm : Cid → Bytes) (s : Tx) (prio : UInt32) (c : Cid) (t : Bytes) :
    txLog nm s (.str prio c t) = some none ∧ txLog nm s (.buf prio c t) = some none := ⟨rfl, rfl⟩

/-! ## Records in shared memory -/

theorem txThread_spec {m : Bytes} (hm : m.length = 256) (th : Option Bytes) :
    ∃ m' A, txThread m th = some (m', A.length, if th.isSome then 1 else 0) ∧ m'.length = 256 ∧ m'.take A.length = A ∧ A.length ≤ 256 ∧
      (th = none → A = []) ∧ ∀ t, th = some t → A = if t.length < 256 then t ++ [0] else t.take 255 ++ [0] := by
  cases th with
  | none => exact ⟨m, [], rfl, hm, by simp, by simp, fun _ => rfl, fun t h => by cases h⟩
  | some t =>
    have hp : 0 + (t.take 255 ++ [0]).length ≤ m.length := by rw [List.length_append, List.length_take]; simp; omega
    have e : txThread m (some t) = some (m.take 0 ++ (t.take 255 ++ [0]) ++ m.drop (0 + (t.take 255 ++ [0]).length),
        if t.length ≥ 256 then 256 else t.length + 1, 1) := by
      unfold txThread snprint bufSize
      dsimp only
      rw [if_neg (by decide : ¬ (256 : Nat) = 0), poke_some hp, Option.map_some]
    refine ⟨_, t.take 255 ++ [0], ?_, by rw [poke_length (poke_some hp)]; exact hm, ?_, ?_, fun h => (by cases h), fun t' h => ?_⟩
    · rw [e, List.length_append, List.length_take, List.length_singleton]
      congr 3
      split <;> omega
    · rw [List.take_zero, List.nil_append, List.take_left]
    · rw [List.length_append, List.length_take]; simp; omega
    · cases h
      split
      · rw [List.take_of_length_le (by omega)]
      · rfl

/-- What a record holds for the thread. -/
def threadArea (th : Option Bytes) : Bytes :=
  match th with
  | some t => t ++ [0]
  | none => []

theorem pack_rest {m1 A : Bytes} (l1 : m1.length = 256) (t1 : m1.take A.length = A) (hA : A.length ≤ 256) (name msg : Bytes) :
    ∃ m2 m3 m, packPart m1 A.length name = some (m2, min name.length (256 - A.length)) ∧
      packPart m2 (A.length + min name.length (256 - A.length)) msg = some (m3, min msg.length (256 - A.length - min name.length (256 - A.length))) ∧
      (if A.length + min name.length (256 - A.length) + min msg.length (256 - A.length - min name.length (256 - A.length)) = bufSize
        then wr m3 (bufSize - 1) 0 else some m3) = some m ∧ m.length = 256 ∧
      m.take (A.length + min name.length (256 - A.length) + min msg.length (256 - A.length - min name.length (256 - A.length))) =
        areaText A name msg := by
  obtain ⟨m2, e2, l2, t2⟩ := packPart_spec l1 t1 hA name
  have hB : A.length + min name.length (256 - A.length) = (A ++ name.take (256 - A.length)).length := by
    rw [List.length_append, List.length_take]; omega
  have hBl : (A ++ name.take (256 - A.length)).length ≤ 256 := by rw [List.length_append, List.length_take]; omega
  have hlog : min msg.length (256 - A.length - min name.length (256 - A.length)) = min msg.length (256 - (A ++ name.take (256 - A.length)).length) := by
    rw [← hB]; omega
  rw [hlog]
  rw [hB] at t2 ⊢
  generalize hB' : A ++ name.take (256 - A.length) = B at *
  obtain ⟨m3, e3, l3, t3⟩ := packPart_spec l2 t2 hBl msg
  have hC : B.length + min msg.length (256 - B.length) = (B ++ msg.take (256 - B.length)).length := by
    rw [List.length_append, List.length_take]; omega
  rw [hC] at t3 ⊢
  have htext : B ++ msg.take (256 - B.length) = (A ++ name ++ msg).take 256 := by
    rw [← hB', List.take_append, List.take_append, List.take_of_length_le (l := A) (by omega)]
    congr 1
    congr 1
    rw [List.length_append, List.length_take, List.length_append]; omega
  have hCl : (B ++ msg.take (256 - B.length)).length ≤ 256 := by rw [List.length_append, List.length_take]; omega
  refine ⟨m2, m3, ?_⟩
  rw [e2, e3]
  generalize hC' : B ++ msg.take (256 - B.length) = C at *
  unfold bufSize
  by_cases hfull : C.length = 256
  · rw [if_pos hfull, wr_eq (by omega)]
    refine ⟨_, rfl, rfl, rfl, by simp [l3], ?_⟩
    have hTl : 256 ≤ (A ++ name ++ msg).length := by
      rw [htext, List.length_take] at hfull; omega
    unfold areaText
    dsimp only
    rw [if_neg (by omega), hfull, List.take_of_length_le (by simp; omega)]
    rw [hfull, List.take_of_length_le (by omega)] at t3
    rw [t3, htext]
    apply List.ext_getElem?
    intro i
    rw [List.getElem?_set]
    by_cases hi : 256 - 1 = i
    · rw [if_pos hi, if_pos (by rw [List.length_take]; omega), List.getElem?_append_right (by rw [List.length_take]; omega)]
      rw [List.length_take, show i - min 255 (A ++ name ++ msg).length = 0 by omega]; rfl
    · rw [if_neg hi]
      rcases Nat.lt_or_ge i 255 with h | h
      · rw [List.getElem?_append_left (by rw [List.length_take]; omega), List.getElem?_take, List.getElem?_take, if_pos (by omega), if_pos h]
      · rw [List.getElem?_eq_none (by rw [List.length_take]; omega), List.getElem?_eq_none (by simp; omega)]
  · rw [if_neg hfull]
    refine ⟨_, rfl, rfl, rfl, l3, ?_⟩
    rw [t3, htext]
    have hTl : (A ++ name ++ msg).length < 256 := by
      rw [htext, List.length_take] at hfull; omega
    unfold areaText
    dsimp only
    rw [if_pos hTl, List.take_of_length_le (by omega)]

/-- A text in red, as the console function of the SDK begins it. -/
def RedText (msg : Bytes) : Prop := ∃ c1 c2 c3 c4 r, msg = 27 :: c1 :: c2 :: c3 :: c4 :: 49 :: r

theorem txPrio_spec (prio : Nat) (msg : Bytes) : (prio ≠ 0 → (UInt8.ofNat (txPrio prio msg)).toNat = prio % 8) ∧
    (prio = 0 → RedText msg → (UInt8.ofNat (txPrio prio msg)).toNat = 3) ∧
    (prio = 0 → ¬ RedText msg → (UInt8.ofNat (txPrio prio msg)).toNat = 6) := by
  have hlt : txPrio prio msg < 256 := by unfold txPrio; (repeat' split) <;> omega
  have hiff : (msg.length ≥ 6 ∧ msg[0]? = some 27 ∧ msg[5]? = some 49) ↔ RedText msg := by
    constructor
    · rintro ⟨h1, h2, h3⟩
      match msg, h1, h2, h3 with
      | c0 :: c1 :: c2 :: c3 :: c4 :: c5 :: r, _, h2, h3 =>
        simp only [List.getElem?_cons_zero, Option.some.injEq, List.getElem?_cons_succ] at h2 h3
        subst h2 h3
        exact ⟨c1, c2, c3, c4, r, rfl⟩
    · rintro ⟨c1, c2, c3, c4, r, rfl⟩
      simp
  rw [UInt8.toNat_ofNat_of_lt' hlt]
  unfold txPrio
  refine ⟨fun h => by rw [if_pos h], fun h hr => ?_, fun h hr => ?_⟩
  · rw [if_neg (by omega), if_pos (hiff.mpr hr)]
  · rw [if_neg (by omega), if_neg (fun h => hr (hiff.mp h))]

theorem areaText_thread {th : Option Bytes} {A : Bytes} (hA0 : th = none → A = [])
    (hA1 : ∀ t, th = some t → A = if t.length < 256 then t ++ [0] else t.take 255 ++ [0]) (name msg : Bytes) :
    areaText A name msg = areaText (threadArea th) name msg ∧ A.length = min (threadArea th).length 256 := by
  cases th with
  | none => rw [hA0 rfl]; exact ⟨rfl, by simp [threadArea]⟩
  | some t =>
    have h := hA1 t rfl
    show _ = areaText (t ++ [0]) name msg ∧ _ = min (t ++ [0]).length 256
    by_cases hl : t.length < 256
    · rw [if_pos hl] at h; rw [h]; exact ⟨rfl, by simp; omega⟩
    · rw [if_neg hl] at h
      have hlen : A.length = 256 := by rw [h, List.length_append, List.length_take]; simp; omega
      refine ⟨?_, by rw [hlen]; simp; omega⟩
      unfold areaText
      dsimp only
      rw [if_neg (by simp; omega), if_neg (by simp; omega)]
      congr 1
      rw [List.append_assoc, List.take_append_of_le_length (by omega), h, List.take_append_of_le_length (by rw [List.length_take]; omega),
        List.take_take, List.append_assoc, List.append_assoc, List.take_append_of_le_length (by omega)]
      rfl

/-- **C82:** a record is built inside its 256 bytes: thread name, tag and message one after
the other, what does not fit is cut, and a full area ends with a NUL. The level is that of
the message, or for messages without priority error if the text is red and information
otherwise. -/
theorem C82_record {old : Bytes} (ho : old.length = 256) (prio : Nat) (th : Option Bytes) (name msg : Bytes) (index : Nat) :
    ∃ b, txPack old prio th name msg index = some b ∧ b.buf.length = 256 ∧ b.index = index ∧
      b.thn + b.tag + b.log ≤ 256 ∧ b.buf.take (b.thn + b.tag + b.log) = areaText (threadArea th) name msg ∧
      b.thn = min (threadArea th).length 256 ∧ b.tag = min name.length (256 - b.thn) ∧ b.log = min msg.length (256 - b.thn - b.tag) ∧
      (b.tid = 0 ↔ th = none) ∧ (prio ≠ 0 → b.prio.toNat = prio % 8) ∧ (prio = 0 → RedText msg → b.prio.toNat = 3) ∧
      (prio = 0 → ¬ RedText msg → b.prio.toNat = 6) := by
  obtain ⟨m1, A, e1, l1, t1, hA, hA0, hA1⟩ := txThread_spec ho th
  obtain ⟨m2, m3, m, e2, e3, e4, l4, t4⟩ := pack_rest l1 t1 hA name msg
  obtain ⟨ha1, ha2⟩ := areaText_thread hA0 hA1 name msg
  have hp := txPrio_spec prio msg
  have htid : ((if th.isSome then 1 else 0 : UInt32) = 0 ↔ th = none) := by cases th <;> simp
  unfold txPack
  rw [e1]
  simp only [Option.bind_some]
  rw [e2]
  simp only [Option.bind_some]
  rw [e3]
  simp only [Option.bind_some]
  rw [e4, Option.map_some]
  exact ⟨_, rfl, l4, rfl, (by dsimp only; omega), by rw [← ha1]; exact t4, ha2, rfl, rfl, htid, hp⟩

theorem tx_parts {old : Bytes} (ho : old.length = 256) {prio : Nat} {th : Option Bytes} {name msg : Bytes} {index : Nat} {b : Blob}
    (hb : txPack old prio th name msg index = some b) (hfit : (threadArea th).length + name.length < 256) :
    b.buf.length = 256 ∧ b.prio.toNat < 8 ∧ b.thn = (threadArea th).length ∧ b.tag = name.length ∧
      b.thn + b.tag + b.log ≤ 256 ∧ win b.buf 0 b.thn = threadArea th ∧ win b.buf b.thn b.tag = name ∧
      win b.buf (b.thn + b.tag) b.log = cutMsg (256 - b.thn - b.tag) msg := by
  obtain ⟨b', e1, e2, -, e4, e5, e3, e6, e7, -, p1, p2, p3⟩ := C82_record ho prio th name msg index
  rw [hb] at e1; cases e1
  have hthn : b.thn = (threadArea th).length := by omega
  have htag : b.tag = name.length := by omega
  rw [areaText_cut (by omega), ← hthn, ← htag] at e5
  have hC := cutMsg_length (room := 256 - b.thn - b.tag) (by omega) msg
  have hp8 : b.prio.toNat < 8 := by
    by_cases h0 : prio = 0
    · by_cases hr : RedText msg
      · rw [p2 h0 hr]; omega
      · rw [p3 h0 hr]; omega
    · rw [p1 h0]; omega
  refine ⟨e2, hp8, hthn, htag, e4, ?_, ?_, ?_⟩
  · rw [win_of_take (t := b.thn + b.tag + b.log) (by omega), e5]
    unfold win
    rw [List.drop_zero, List.append_assoc, hthn, List.take_left]
  · rw [win_of_take (t := b.thn + b.tag + b.log) (by omega), e5]
    unfold win
    rw [hthn, htag, List.append_assoc, List.drop_left, List.take_left]
  · rw [win_of_take (t := b.thn + b.tag + b.log) (by omega), e5]
    unfold win
    have : b.thn + b.tag = (threadArea th ++ name).length := by rw [List.length_append]; omega
    rw [this, List.drop_left, List.take_of_length_le (by rw [hC]; omega)]

/-- **C82:** the daemon gives the record the thread, tag and text of the message if the
text has no colour. -/
theorem C82_forward {old : Bytes} (ho : old.length = 256) {prio : Nat} {t name msg : Bytes} {index : Nat} {b : Blob}
    (hb : txPack old prio (some t) name msg index = some b) (hfit : t.length + 1 + name.length < 256)
    (hesc : msg.head? ≠ some 27) (raw : RawEntry) (pad : UInt8) (sec nsec : UInt32) :
    ∃ r, fillRaw raw pad b sec nsec = some r ∧ r.tid = b.tid ∧ r.sec = sec ∧ r.nsec = nsec ∧ r.pid = raw.pid ∧ r.pname = raw.pname ∧
      r.prio.toNat = b.prio.toNat ∧ r.tname = t ++ [0] ∧ r.tag = name ∧
      r.message = some (cutMsg (256 - (t.length + 1) - name.length) msg) := by
  obtain ⟨e1, e2, e3, e4, e5, e6, e7, e8⟩ := tx_parts ho hb (by simp [threadArea]; omega)
  have hthn : b.thn = t.length + 1 := by rw [e3]; simp [threadArea]
  have hcol : ¬ Colored (win b.buf (b.thn + b.tag) b.log) := by
    rw [e8]
    intro ⟨h1, h2⟩
    rw [cutMsg_length (by omega)] at h2
    unfold cutMsg at h1
    split at h1
    · exact hesc h1
    · cases msg with
      | nil => simp at h2
      | cons c msg =>
        obtain ⟨k, hk⟩ : ∃ k, 256 - b.thn - b.tag - 1 = k + 1 := ⟨256 - b.thn - b.tag - 2, by omega⟩
        rw [hk] at h1
        exact hesc (by simpa using h1)
  rw [fillRaw_spec e1 e2 e5 (by omega), if_neg hcol, if_neg hcol]
  refine ⟨_, rfl, rfl, rfl, rfl, rfl, rfl, by simp, by rw [e6]; rfl, e7, ?_⟩
  dsimp only
  rw [e8, hthn, e4]

/-! ## Numbers of records -/

/-- Messages one after the other, each by some thread. -/
def oneByOne (l : List (Nat × Nat)) : List ShdEv := l.flatMap fun x => [.put x.1 x.2, .begin x.1, .finish x.1]

theorem updN_self {α : Type} (f : Nat → Option α) (t : Nat) (x : Option α) : updN f t x t = x := by simp [updN]

theorem updN_back {α : Type} {f : Nat → Option α} {t : Nat} (h : f t = none) (x : Option α) : updN (updN f t x) t none = f := by
  funext t'
  unfold updN
  split
  · rename_i e; rw [e, h]
  · rfl

theorem shd_one {s : TxShd} (he : s.enabled = true) (hb : ∀ t, s.building t = none) (hw : ∀ t, s.writing t = none) (t m : Nat) :
    shdRun s [.put t m, .begin t, .finish t] = { s with index := (s.index + 1) % 65536, stored := s.stored ++ [(m, s.index)] } := by
  simp [shdRun, shdStep, he, updN_self, updN_back (hb t), updN_back (hw t)]

theorem shd_all {s : TxShd} (he : s.enabled = true) (hb : ∀ t, s.building t = none) (hw : ∀ t, s.writing t = none) {k : Nat} (hk : s.index = idx k)
    (l : List (Nat × Nat)) :
    (shdRun s (oneByOne l)).stored = s.stored ++ (l.map Prod.snd).zip ((List.range l.length).map fun i => idx (k + i)) := by
  induction l generalizing s k with
  | nil => simp [oneByOne, shdRun]
  | cons x l ih =>
    have e : shdRun s (oneByOne (x :: l)) = shdRun { s with index := (s.index + 1) % 65536, stored := s.stored ++ [(x.2, s.index)] } (oneByOne l) := by
      rw [← shd_one he hb hw x.1 x.2]
      unfold oneByOne shdRun
      rw [List.flatMap_cons, List.foldl_append]
    rw [e, ih (k := k + 1) (by exact he) (by exact hb) (by exact hw) (by dsimp only; rw [hk]; unfold idx; omega)]
    rw [List.length_cons, List.range_succ_eq_map, List.map_cons, List.map_cons, List.zip_cons_cons, Nat.add_zero, hk, List.append_assoc]
    rw [List.map_map]
    have hf : ((fun i => idx (k + i)) ∘ Nat.succ) = fun i => idx (k + 1 + i) := by
      funext i
      simp only [Function.comp, Nat.succ_eq_add_one]
      congr 1
      omega
    rw [hf]
    rfl

/-- **C83:** messages that are logged one after the other are all stored, in order, and no
loss is announced for them, however many there are. -/
theorem C83_stored (l : List (Nat × Nat)) :
    (shdRun .start (oneByOne l)).stored.map Prod.fst = l.map Prod.snd ∧
    losses 0 ((shdRun .start (oneByOne l)).stored.map Prod.snd) = List.replicate l.length .none := by
  have h := shd_all (s := .start) rfl (fun _ => rfl) (fun _ => rfl) (k := 1) rfl l
  rw [h]
  have hlen : (l.map Prod.snd).length = ((List.range l.length).map fun i => idx (1 + i)).length := by simp
  refine ⟨?_, ?_⟩
  · show (([] : List (Nat × Nat)) ++ _).map Prod.fst = _
    rw [List.nil_append, List.map_fst_zip (by omega)]
  · show losses 0 ((([] : List (Nat × Nat)) ++ _).map Prod.snd) = _
    rw [List.nil_append, List.map_snd_zip (by omega)]
    exact C43_quiet 0 l.length

/-- **C83:** until there is a section nothing is stored, and all is stored once there is,
as in `C83_stored`; a message goes either to the section or to the console. -/
theorem C83_init (l : List ShdEv) :
    shdRun .off l = .off ∧ txShdInit false (shdRun .off l) = (.off, false, true) ∧ txShdInit true (shdRun .off l) = (.start, true, false) := by
  have h : shdRun .off l = .off := by
    induction l with
    | nil => rfl
    | cons e l ih =>
      have : shdStep .off e = .off := by cases e <;> rfl
      show shdRun (shdStep .off e) l = _
      rw [this, ih]
  exact ⟨h, by rw [h]; rfl, by rw [h]; rfl⟩

/-- C83 is false of the code if another thread logs while a record is being written: its
message is lost, and the numbers show no loss. -/
theorem C83_false_lost (l : List (Nat × Nat)) {a b : Nat} (x y z : Nat) (hb : a ≠ b) :
    let s := shdRun .start (oneByOne l ++ [.put a x, .begin a, .put b y, .begin b, .finish a, .finish b, .put a z, .begin a, .finish a])
    s.stored.map Prod.fst = l.map Prod.snd ++ [x, z] ∧ losses 0 (s.stored.map Prod.snd) = List.replicate (l.length + 2) .none := by
  have h1 := C83_stored (l ++ [(a, x), (a, z)])
  have key : shdRun .start (oneByOne l ++ [.put a x, .begin a, .put b y, .begin b, .finish a, .finish b, .put a z, .begin a, .finish a]) =
      shdRun .start (oneByOne (l ++ [(a, x), (a, z)])) := by
    have hq : ∀ (l : List (Nat × Nat)) (s : TxShd), s.enabled = true → (∀ t, s.building t = none) → (∀ t, s.writing t = none) →
        (shdRun s (oneByOne l)).enabled = true ∧ (∀ t, (shdRun s (oneByOne l)).building t = none) ∧ ∀ t, (shdRun s (oneByOne l)).writing t = none := by
      intro l
      induction l with
      | nil => exact fun s h1 h2 h3 => ⟨h1, h2, h3⟩
      | cons x l ih =>
        intro s h1 h2 h3
        have e : shdRun s (oneByOne (x :: l)) = shdRun { s with index := (s.index + 1) % 65536, stored := s.stored ++ [(x.2, s.index)] } (oneByOne l) := by
          rw [← shd_one h1 h2 h3 x.1 x.2]
          unfold oneByOne shdRun
          rw [List.flatMap_cons, List.foldl_append]
        rw [e]
        exact ih _ h1 h2 h3
    obtain ⟨q1, q2, q3⟩ := hq l .start rfl (fun _ => rfl) (fun _ => rfl)
    have e1 : oneByOne (l ++ [(a, x), (a, z)]) = oneByOne l ++ ([.put a x, .begin a, .finish a] ++ [.put a z, .begin a, .finish a]) := by
      simp [oneByOne]
    rw [e1]
    unfold shdRun at *
    rw [List.foldl_append, List.foldl_append, List.foldl_append]
    generalize (oneByOne l).foldl shdStep .start = s at *
    have e2 : [ShdEv.put a x, .begin a, .put b y, .begin b, .finish a, .finish b, .put a z, .begin a, .finish a].foldl shdStep s =
        [ShdEv.put a z, .begin a, .finish a].foldl shdStep ([ShdEv.put a x, .begin a, .finish a].foldl shdStep s) := by
      have hb' : b ≠ a := fun h => hb h.symm
      simp [shdStep, q1, q2, q3, updN, hb']
    rw [e2]
  dsimp only
  rw [key]
  refine ⟨by rw [h1.1]; simp, by rw [h1.2]; simp⟩

/-- C83 is false of the code if two threads write at the same time: a loss is announced
though nothing was lost. -/
theorem C83_false_order {a b : Nat} (h : a ≠ b) (x y : Nat) :
    let s := shdRun .start [.put a x, .put b y, .begin a, .begin b, .finish b, .finish a]
    s.stored.map Prod.fst = [y, x] ∧ losses 0 (s.stored.map Prod.snd) = [.lost 1, .many] := by
  have h' : b ≠ a := fun e => h e.symm
  simp [shdRun, shdStep, TxShd.start, updN, h, h', losses, lossOf]

end Verif.Tools
