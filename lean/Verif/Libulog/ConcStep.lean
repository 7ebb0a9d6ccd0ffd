import Verif.Libulog.ConcInv

/-! # Every step keeps the invariant -/
namespace Verif.Libulog
open Verif

variable {nm : Cid → Bytes} {s : CState} {t : Tid}

theorem mv (h : CInv nm s) {p q : Pc} (hpc : s.pc t = q) (hh : p.holds = q.holds) (hc : q.calm = true)
    (hc' : p.calm = true) (hp : PcInv nm (s.at t p) t p) : CInv nm (s.at t p) :=
  move_local (es := []) h (fun e he => by cases he) (by rw [hpc]; exact hh) (by rw [hpc]; exact hc) hc' hp h.good

theorem acq (h : CInv nm s) {p q : Pc} (hpc : s.pc t = q) (hl : s.lock = none) (hh : p.holds = true)
    (hc : q.calm = true) (hc' : p.calm = true) (hp : PcInv nm ({ s with lock := some t }.at t p) t p) :
    CInv nm ({ s with lock := some t }.at t p) :=
  move_calm (es := []) (lk := some t) h (fun e he => by cases he)
    (fun u hu => by rw [hl]; simp [Ne.symm hu]) (by simp [hh]) (by rw [hpc]; exact hc) hc' hp h.good

theorem rel (h : CInv nm s) {p q : Pc} {es : List CEv} (hes : ∀ e ∈ es, e.quiet = true) (hpc : s.pc t = q)
    (hq : q.holds = true) (hh : p.holds = false) (hc : q.calm = true) (hc' : p.calm = true)
    (hp : PcInv nm { s with lock := none, pc := fun u => if u = t then p else s.pc u, tr := es ++ s.tr } t p)
    (hg : CGood nm (es ++ s.tr)) :
    CInv nm { s with lock := none, pc := fun u => if u = t then p else s.pc u, tr := es ++ s.tr } := by
  have hl : s.lock = some t := (h.lockPc t).mp (by rw [hpc]; exact hq)
  exact move_calm (lk := none) h hes (fun u hu => by rw [hl]; simp [Ne.symm hu]) (by simp [hh]) (by rw [hpc]; exact hc)
    hc' hp hg

theorem clamp_ok (k : Then) : k.clamp.ok := by
  cases k with
  | set l => unfold Then.clamp Then.ok clampLevel; dsimp only; (repeat' split) <;> omega
  | _ => trivial

theorem clampLevel_nn (l : Int) : 0 ≤ clampLevel l ∧ clampLevel l ≤ 7 := by
  unfold clampLevel; dsimp only; (repeat' split) <;> omega

/-- A registered tag has a level or the lock is held at the place that writes it. -/
theorem not_reg (h : CInv nm s) {c : Cid} (hl : s.level c < 0) (hpc : (s.pc t).holds = true)
    (hst : ∀ lvl k, s.pc t ≠ .store c lvl k) : c ∉ regs s.tr := by
  intro hc
  obtain ⟨u, lvl, k, hu⟩ := h.reg2 c hc hl
  have h1 := (h.lockPc t).mp hpc
  have h2 := (h.lockPc u).mp (by rw [hu]; rfl)
  rw [h1] at h2
  injection h2 with h2
  subst h2
  exact hst lvl k hu

theorem level_some (h : CInv nm s) {c : Cid} (hl : 0 ≤ s.level c) : levelAt c s.tr = some (s.level c) := by
  have := h.lev c
  cases hx : levelAt c s.tr with
  | none => rw [hx] at this; simp at this; omega
  | some l => rw [hx] at this; simp at this; rw [this]

theorem level_none (h : CInv nm s) {c : Cid} (hl : s.level c < 0) : levelAt c s.tr = none := by
  cases hx : levelAt c s.tr with
  | none => rfl
  | some l =>
    have h1 := h.lev c
    have h2 := h.levNN c l hx
    rw [hx] at h1; simp at h1; omega

/-! ## The steps that change shared memory -/

theorem step_link (h : CInv nm s) {c : Cid} {lvl : Int} {k : Then} (hpc : s.pc t = .link c lvl k) :
    CInv nm ({ s with next := fun d => if d = c then s.head else s.next d }.at t (.publish c lvl k)) := by
  have hp := h.pcs t
  rw [hpc] at hp
  obtain ⟨h1, h2, h3, h4⟩ := hp
  have hlk : s.lock = some t := (h.lockPc t).mp (by rw [hpc]; rfl)
  have hne : ∀ d ∈ regs s.tr, (if d = c then s.head else s.next d) = s.next d := by
    intro d hd
    rw [if_neg]
    intro hx; subst hx; exact h4 hd
  have hf : Frame t s ({ s with next := fun d => if d = c then s.head else s.next d }.at t (.publish c lvl k)) :=
    ⟨fun u hu => if_neg hu, ⟨[], rfl⟩, hne, fun _ hx => hx, fun _ _ hw => hw, fun _ _ => rfl, fun u hu hl => by
      rw [hlk] at hl; injection hl with hl; exact absurd hl.symm hu⟩
  refine ⟨h.chain.congr hne, ?_, h.lev, h.levNN, h.reg1, ?_, ?_, h.hookv, ?_, h.good⟩
  · intro u
    show (if u = t then Pc.publish c lvl k else s.pc u).holds = true ↔ s.lock = some u
    by_cases hu : u = t
    · rw [if_pos hu, hu, hlk]; simp [Pc.holds]
    · rw [if_neg hu]; exact h.lockPc u
  · intro d hd hl
    obtain ⟨u, lvl', k', hu⟩ := h.reg2 d hd hl
    refine ⟨u, lvl', k', ?_⟩
    show (if u = t then Pc.publish c lvl k else s.pc u) = _
    rw [if_neg]; · exact hu
    intro hx; rw [hx, hpc] at hu; cases hu
  · intro u
    by_cases hu : u = t
    · show PcInv nm _ u (if u = t then Pc.publish c lvl k else s.pc u)
      rw [if_pos hu]
      exact ⟨h1, h2, h3, h4, if_pos rfl⟩
    · exact frame_pc h hf hu
  · intro d w hw
    have := h.hooks d w hw
    unfold HookSt at this ⊢
    show match pend d (if w = t then Pc.publish c lvl k else s.pc w) with
      | .no => _
      | .early => _
      | .late h => _
    by_cases hwt : w = t
    · subst hwt; rw [if_pos rfl]; rw [hpc] at this; exact this
    · rw [if_neg hwt]; exact this

theorem step_publish (h : CInv nm s) {c : Cid} {lvl : Int} {k : Then} (hpc : s.pc t = .publish c lvl k) :
    CInv nm (({ s with head := some c }.at t (.store c lvl k)).ev (.reg t c)) := by
  have hp := h.pcs t
  rw [hpc] at hp
  obtain ⟨h1, h2, h3, h4, h5⟩ := hp
  have hlk : s.lock = some t := (h.lockPc t).mp (by rw [hpc]; rfl)
  have hwn : winner c s.tr = none := by
    cases hx : winner c s.tr with
    | none => rfl
    | some w => exact absurd (winner_iff.mpr ⟨w, hx⟩) h4
  have hwin : ∀ d w, winner d s.tr = some w → winner d (.reg t c :: s.tr) = some w ∧ d ≠ c := by
    intro d w hw
    have hdc : c ≠ d := by intro hx; subst hx; rw [hwn] at hw; cases hw
    exact ⟨by rw [winner, if_neg hdc]; exact hw, hdc.symm⟩
  have hf : Frame t s (({ s with head := some c }.at t (.store c lvl k)).ev (.reg t c)) :=
    ⟨fun u hu => if_neg hu, ⟨[c], rfl⟩, fun _ _ => rfl, fun _ hx => hx, fun d w hw => (hwin d w hw).1, fun _ _ => rfl,
      fun u hu hl => by rw [hlk] at hl; injection hl with hl; exact absurd hl.symm hu⟩
  refine ⟨⟨rfl, by show Chain s.next (s.next c) (regs s.tr); rw [h5]; exact h.chain⟩, ?_, h.lev, h.levNN, ?_, ?_, ?_,
    h.hookv, ?_, ⟨⟨h4, level_none h h3⟩, h.good⟩⟩
  · intro u
    show (if u = t then Pc.store c lvl k else s.pc u).holds = true ↔ s.lock = some u
    by_cases hu : u = t
    · rw [if_pos hu, hu, hlk]; simp [Pc.holds]
    · rw [if_neg hu]; exact h.lockPc u
  · intro d hd
    exact List.mem_cons_of_mem _ (h.reg1 d hd)
  · intro d hd hl
    by_cases hdc : d = c
    · subst hdc
      exact ⟨t, lvl, k, if_pos rfl⟩
    · have hd' : d ∈ regs s.tr := (List.mem_cons.mp hd).resolve_left hdc
      obtain ⟨u, lvl', k', hu⟩ := h.reg2 d hd' hl
      refine ⟨u, lvl', k', ?_⟩
      show (if u = t then Pc.store c lvl k else s.pc u) = _
      rw [if_neg]; · exact hu
      intro hx; rw [hx, hpc] at hu; cases hu
  · intro u
    by_cases hu : u = t
    · show PcInv nm _ u (if u = t then Pc.store c lvl k else s.pc u)
      rw [if_pos hu]
      refine ⟨h1, h2, h3, ?_⟩
      show winner c (.reg t c :: s.tr) = some u
      rw [winner, if_pos rfl, hu]
    · exact frame_pc h hf hu
  · intro d w hw
    have hw' : winner d (.reg t c :: s.tr) = some w := hw
    unfold HookSt
    show match pend d (if w = t then Pc.store c lvl k else s.pc w) with
      | .no => hookEvs d s.tr = (hookAt d (.reg t c :: s.tr)).toList
      | .early => hookEvs d s.tr = [] ∧ hookAt d (.reg t c :: s.tr) = s.hook
      | .late h => hookEvs d s.tr = [] ∧ hookAt d (.reg t c :: s.tr) = some h
    rw [winner] at hw'
    rw [hookAt]
    by_cases hdc : c = d
    · subst hdc
      rw [if_pos rfl] at hw' ⊢
      injection hw' with hw'
      subst hw'
      rw [if_pos rfl]
      simp only [pend, if_true]
      refine ⟨?_, h.hookv.symm⟩
      -- no hook was called for an unregistered tag
      have : ∀ tr : List CEv, CGood nm tr → c ∉ regs tr → hookEvs c tr = [] := by
        intro tr
        induction tr with
        | nil => intro _ _; rfl
        | cons e tr ih =>
          intro hg hn
          cases e with
          | reg u d => exact ih hg.2 (fun hx => hn (List.mem_cons_of_mem _ hx))
          | hook u x d =>
            by_cases hd : d = c
            · subst hd
              exact absurd (winner_iff.mpr ⟨u, hg.1.2.2⟩) hn
            · rw [hookEvs, if_neg hd]; exact ih hg.2 hn
          | _ => exact ih hg.2 hn
      exact this s.tr h.good h4
    · rw [if_neg hdc] at hw' ⊢
      have := h.hooks d w hw'
      unfold HookSt at this
      by_cases hwt : w = t
      · subst hwt
        rw [if_pos rfl]
        rw [hpc] at this
        simp only [pend, if_neg hdc]
        exact this
      · rw [if_neg hwt]; exact this

theorem step_store (h : CInv nm s) {c : Cid} {lvl : Int} {k : Then} (hpc : s.pc t = .store c lvl k) :
    CInv nm (({ s with level := fun d => if d = c then lvl else s.level d }.at t (.readHook c k)).ev (.first c lvl)) := by
  have hp := h.pcs t
  rw [hpc] at hp
  obtain ⟨h1, h2, h3, h4⟩ := hp
  have hlk : s.lock = some t := (h.lockPc t).mp (by rw [hpc]; rfl)
  have hc : c ∈ regs s.tr := winner_iff.mpr ⟨t, h4⟩
  have hmono : ∀ d, 0 ≤ s.level d → 0 ≤ (if d = c then lvl else s.level d) := by
    intro d hd; split <;> assumption
  have hf : Frame t s
      (({ s with level := fun d => if d = c then lvl else s.level d }.at t (.readHook c k)).ev (.first c lvl)) :=
    ⟨fun u hu => if_neg hu, ⟨[], rfl⟩, fun _ _ => rfl, hmono, fun _ _ hw => hw, fun _ _ => rfl,
      fun u hu hl => by rw [hlk] at hl; injection hl with hl; exact absurd hl.symm hu⟩
  refine ⟨h.chain, ?_, ?_, ?_, ?_, ?_, ?_, h.hookv, ?_, ⟨⟨level_none h h3, hc, h1⟩, h.good⟩⟩
  · intro u
    show (if u = t then Pc.readHook c k else s.pc u).holds = true ↔ s.lock = some u
    by_cases hu : u = t
    · rw [if_pos hu, hu, hlk]; simp [Pc.holds]
    · rw [if_neg hu]; exact h.lockPc u
  · intro d
    show (if d = c then lvl else s.level d) = (levelAt d (.first c lvl :: s.tr)).getD (-1)
    rw [levelAt]
    by_cases hd : d = c
    · rw [if_pos hd, if_pos hd.symm]; rfl
    · rw [if_neg hd, if_neg (fun hx => hd hx.symm)]; exact h.lev d
  · intro d l hl
    have hl' : levelAt d (.first c lvl :: s.tr) = some l := hl
    rw [levelAt] at hl'
    split at hl'
    · injection hl' with hl'; omega
    · exact h.levNN d l hl'
  · intro d hd
    have hd' : 0 ≤ (if d = c then lvl else s.level d) := hd
    show d ∈ regs s.tr
    split at hd'
    · rename_i hx; rw [hx]; exact hc
    · exact h.reg1 d hd'
  · intro d hd hl
    have hl' : (if d = c then lvl else s.level d) < 0 := hl
    split at hl'
    · omega
    rename_i hdc
    obtain ⟨u, lvl', k', hu⟩ := h.reg2 d hd hl'
    refine ⟨u, lvl', k', ?_⟩
    show (if u = t then Pc.readHook c k else s.pc u) = _
    rw [if_neg]; · exact hu
    intro hx; rw [hx, hpc] at hu; injection hu with hu; exact hdc hu.symm
  · intro u
    by_cases hu : u = t
    · show PcInv nm _ u (if u = t then Pc.readHook c k else s.pc u)
      rw [if_pos hu, hu]
      refine ⟨h2, ?_, h4⟩
      show 0 ≤ (if c = c then lvl else s.level c)
      rw [if_pos rfl]; exact h1
    · exact frame_pc h hf hu
  · intro d w hw
    have := h.hooks d w hw
    unfold HookSt at this ⊢
    show match pend d (if w = t then Pc.readHook c k else s.pc w) with
      | .no => _
      | .early => _
      | .late h => _
    by_cases hwt : w = t
    · subst hwt
      rw [if_pos rfl]
      rw [hpc] at this
      exact this
    · rw [if_neg hwt]; exact this

/-- No other thread is before or at the call of the hook of `c`. -/
theorem step_callHook (h : CInv nm s) {c : Cid} {x : Nat} {k : Then} (hpc : s.pc t = .callHook c (some x) k) :
    CInv nm ((s.at t (.fin c k)).ev (.hook t x c)) := by
  have hp := h.pcs t
  rw [hpc] at hp
  obtain ⟨h1, h2, h3⟩ := hp
  have hw := h3 x rfl
  have hk := h.hooks c t hw
  unfold HookSt at hk
  rw [hpc] at hk
  simp only [pend, if_true] at hk
  have hf : Frame t s ((s.at t (.fin c k)).ev (.hook t x c)) :=
    ⟨fun u hu => if_neg hu, ⟨[], rfl⟩, fun _ _ => rfl, fun _ hx => hx, fun _ _ hw => hw, fun _ _ => rfl,
      fun u hu hl => ⟨rfl, rfl, rfl, fun _ hx => hx⟩⟩
  refine ⟨h.chain, ?_, h.lev, h.levNN, h.reg1, ?_, ?_, h.hookv, ?_, ⟨⟨hk.1, hk.2, hw⟩, h.good⟩⟩
  · intro u
    show (if u = t then Pc.fin c k else s.pc u).holds = true ↔ s.lock = some u
    by_cases hu : u = t
    · rw [if_pos hu, hu, ← h.lockPc t, hpc]; rfl
    · rw [if_neg hu]; exact h.lockPc u
  · intro d hd hl
    obtain ⟨u, lvl', k', hu⟩ := h.reg2 d hd hl
    refine ⟨u, lvl', k', ?_⟩
    show (if u = t then Pc.fin c k else s.pc u) = _
    rw [if_neg]; · exact hu
    intro hx; rw [hx, hpc] at hu; cases hu
  · intro u
    by_cases hu : u = t
    · show PcInv nm _ u (if u = t then Pc.fin c k else s.pc u)
      rw [if_pos hu]
      exact ⟨h1, h2⟩
    · exact frame_pc h hf hu
  · intro d w hwd
    have hwd' : winner d s.tr = some w := hwd
    have := h.hooks d w hwd'
    unfold HookSt at this ⊢
    show match pend d (if w = t then Pc.fin c k else s.pc w) with
      | .no => hookEvs d (.hook t x c :: s.tr) = (hookAt d s.tr).toList
      | .early => hookEvs d (.hook t x c :: s.tr) = [] ∧ hookAt d s.tr = s.hook
      | .late h => hookEvs d (.hook t x c :: s.tr) = [] ∧ hookAt d s.tr = some h
    rw [hookEvs]
    by_cases hdc : c = d
    · subst hdc
      rw [hw] at hwd'
      injection hwd' with hwd'
      subst hwd'
      rw [if_pos rfl, if_pos rfl]
      show x :: hookEvs c s.tr = (hookAt c s.tr).toList
      rw [hk.1, hk.2]; rfl
    · rw [if_neg hdc]
      by_cases hwt : w = t
      · subst hwt
        rw [if_pos rfl]
        rw [hpc] at this
        simp only [pend, if_neg hdc] at this
        exact this
      · rw [if_neg hwt]; exact this

theorem step_set (h : CInv nm s) {c : Cid} {l : Int} (hpc : s.pc t = .fin c (.set l)) :
    CInv nm ((({ s with level := fun d => if d = c then l else s.level d }.at t .idle).ev (.set t c l)).ev (.ret t c)) := by
  have hp := h.pcs t
  rw [hpc] at hp
  obtain ⟨⟨h1, h1'⟩, h2⟩ := hp
  have hc := h.reg1 c h2
  have hf : Frame t s
      ((({ s with level := fun d => if d = c then l else s.level d }.at t .idle).ev (.set t c l)).ev (.ret t c)) := by
    refine ⟨fun u hu => if_neg hu, ⟨[], rfl⟩, fun _ _ => rfl, ?_, fun _ _ hw => hw, fun _ _ => rfl,
      fun u hu hl => ⟨rfl, rfl, rfl, ?_⟩⟩
    · intro d hd
      show 0 ≤ (if d = c then l else s.level d)
      split <;> assumption
    · intro d hd
      show (if d = c then l else s.level d) < 0
      rw [if_neg]; · exact hd
      intro hx; subst hx; omega
  refine ⟨h.chain, ?_, ?_, ?_, ?_, ?_, ?_, h.hookv, ?_, ⟨hc, ⟨⟨_, level_some h h2⟩, h1, h1'⟩, h.good⟩⟩
  · intro u
    show (if u = t then Pc.idle else s.pc u).holds = true ↔ s.lock = some u
    by_cases hu : u = t
    · rw [if_pos hu, hu, ← h.lockPc t, hpc]; rfl
    · rw [if_neg hu]; exact h.lockPc u
  · intro d
    show (if d = c then l else s.level d) = (levelAt d (.set t c l :: s.tr)).getD (-1)
    rw [levelAt]
    by_cases hd : d = c
    · rw [if_pos hd, if_pos hd.symm]; rfl
    · rw [if_neg hd, if_neg (fun hx => hd hx.symm)]; exact h.lev d
  · intro d x hx
    have hl' : levelAt d (.set t c l :: s.tr) = some x := hx
    rw [levelAt] at hl'
    split at hl'
    · injection hl' with hl'; omega
    · exact h.levNN d x hl'
  · intro d hd
    have hd' : 0 ≤ (if d = c then l else s.level d) := hd
    show d ∈ regs s.tr
    split at hd'
    · rename_i hx; rw [hx]; exact hc
    · exact h.reg1 d hd'
  · intro d hd hl
    have hl' : (if d = c then l else s.level d) < 0 := hl
    split at hl'
    · omega
    obtain ⟨u, lvl', k', hu⟩ := h.reg2 d hd hl'
    refine ⟨u, lvl', k', ?_⟩
    show (if u = t then Pc.idle else s.pc u) = _
    rw [if_neg]; · exact hu
    intro hx; rw [hx, hpc] at hu; cases hu
  · intro u
    by_cases hu : u = t
    · show PcInv nm _ u (if u = t then Pc.idle else s.pc u)
      rw [if_pos hu]; trivial
    · exact frame_pc h hf hu
  · intro d w hw
    have := h.hooks d w hw
    unfold HookSt at this ⊢
    show match pend d (if w = t then Pc.idle else s.pc w) with
      | .no => _
      | .early => _
      | .late h => _
    by_cases hwt : w = t
    · subst hwt
      rw [if_pos rfl]
      rw [hpc] at this
      exact this
    · rw [if_neg hwt]; exact this

theorem step_hookStore (h : CInv nm s) {x : Nat} (hpc : s.pc t = .hookStore x) :
    CInv nm (({ s with hook := some x }.at t (.hookUnlock x)).ev (.setHook x)) := by
  have hlk : s.lock = some t := (h.lockPc t).mp (by rw [hpc]; rfl)
  have hf : Frame t s (({ s with hook := some x }.at t (.hookUnlock x)).ev (.setHook x)) :=
    ⟨fun u hu => if_neg hu, ⟨[], rfl⟩, fun _ _ => rfl, fun _ hx => hx, fun _ _ hw => hw, fun _ _ => rfl,
      fun u hu hl => ⟨rfl, rfl, rfl, fun _ hx => hx⟩⟩
  refine ⟨h.chain, ?_, h.lev, h.levNN, h.reg1, ?_, ?_, rfl, ?_, ⟨trivial, h.good⟩⟩
  · intro u
    show (if u = t then Pc.hookUnlock x else s.pc u).holds = true ↔ s.lock = some u
    by_cases hu : u = t
    · rw [if_pos hu, hu, hlk]; simp [Pc.holds]
    · rw [if_neg hu]; exact h.lockPc u
  · intro d hd hl
    obtain ⟨u, lvl', k', hu⟩ := h.reg2 d hd hl
    refine ⟨u, lvl', k', ?_⟩
    show (if u = t then Pc.hookUnlock x else s.pc u) = _
    rw [if_neg]; · exact hu
    intro hx; rw [hx, hpc] at hu; cases hu
  · intro u
    by_cases hu : u = t
    · show PcInv nm _ u (if u = t then Pc.hookUnlock x else s.pc u)
      rw [if_pos hu]; trivial
    · exact frame_pc h hf hu
  · intro d w hw
    have := h.hooks d w hw
    unfold HookSt at this ⊢
    show match pend d (if w = t then Pc.hookUnlock x else s.pc w) with
      | .no => hookEvs d s.tr = (hookAt d s.tr).toList
      | .early => hookEvs d s.tr = [] ∧ hookAt d s.tr = some x
      | .late h => hookEvs d s.tr = [] ∧ hookAt d s.tr = some h
    by_cases hwt : w = t
    · subst hwt
      rw [if_pos rfl]
      rw [hpc] at this
      exact this
    · rw [if_neg hwt]
      cases hpd : pend d (s.pc w) with
      | no => rw [hpd] at this; exact this
      | late y => rw [hpd] at this; exact this
      | early =>
        -- that thread would hold the lock
        exfalso
        have hh : (s.pc w).holds = true := by
          generalize s.pc w = q at hpd
          unfold pend at hpd
          split at hpd <;> first | rfl | (split at hpd <;> cases hpd) | cases hpd
        have := (h.lockPc w).mp hh
        rw [hlk] at this
        injection this with this
        exact hwt this.symm

theorem step_feHead (h : CInv nm s) (hpc : s.pc t = .feHead) :
    CInv nm ((s.at t (.feUnlock s.head)).ev (.feStart t)) := by
  have hlk : s.lock = some t := (h.lockPc t).mp (by rw [hpc]; rfl)
  have hf : Frame t s ((s.at t (.feUnlock s.head)).ev (.feStart t)) := by
    refine ⟨fun u hu => if_neg hu, ⟨[], rfl⟩, fun _ _ => rfl, fun _ hx => hx, fun _ _ hw => hw, ?_,
      fun u hu hl => ⟨rfl, rfl, rfl, fun _ hx => hx⟩⟩
    intro u hu
    show atHead u (.feStart t :: s.tr) = atHead u s.tr
    rw [atHead, if_neg (Ne.symm hu)]
  refine ⟨h.chain, ?_, h.lev, h.levNN, h.reg1, ?_, ?_, h.hookv, ?_, ⟨trivial, h.good⟩⟩
  · intro u
    show (if u = t then Pc.feUnlock s.head else s.pc u).holds = true ↔ s.lock = some u
    by_cases hu : u = t
    · rw [if_pos hu, hu, hlk]; simp [Pc.holds]
    · rw [if_neg hu]; exact h.lockPc u
  · intro d hd hl
    obtain ⟨u, lvl', k', hu⟩ := h.reg2 d hd hl
    refine ⟨u, lvl', k', ?_⟩
    show (if u = t then Pc.feUnlock s.head else s.pc u) = _
    rw [if_neg]; · exact hu
    intro hx; rw [hx, hpc] at hu; cases hu
  · intro u
    by_cases hu : u = t
    · show PcInv nm _ u (if u = t then Pc.feUnlock s.head else s.pc u)
      rw [if_pos hu]
      show Chain s.next s.head (atHead u (.feStart t :: s.tr)) ∧ atHead u (.feStart t :: s.tr) = regs s.tr
      rw [atHead, if_pos hu.symm]
      exact ⟨h.chain, rfl⟩
    · exact frame_pc h hf hu
  · intro d w hw
    have := h.hooks d w hw
    unfold HookSt at this ⊢
    show match pend d (if w = t then Pc.feUnlock s.head else s.pc w) with
      | .no => _
      | .early => _
      | .late h => _
    by_cases hwt : w = t
    · subst hwt
      rw [if_pos rfl]
      rw [hpc] at this
      exact this
    · rw [if_neg hwt]; exact this

/-! ## All steps -/

theorem cinv_step {s' : CState} {ch : Choice} (h : CInv nm s) (hs : cstep nm t ch s = some s') : CInv nm s' := by
  have hp := h.pcs t
  unfold cstep at hs
  cases hpc : s.pc t with
  | idle =>
    rw [hpc] at hs hp
    cases ch with
    | call op =>
      cases op with
      | use c k => simp only [Option.some.injEq] at hs; subst hs; exact mv h hpc rfl rfl rfl (clamp_ok k)
      | setTag n l => simp only [Option.some.injEq] at hs; subst hs; exact mv h hpc rfl rfl rfl (clampLevel_nn l)
      | names m => simp only [Option.some.injEq] at hs; subst hs; exact mv h hpc rfl rfl rfl trivial
      | foreach => simp only [Option.some.injEq] at hs; subst hs; exact mv h hpc rfl rfl rfl trivial
      | setHook x => simp only [Option.some.injEq] at hs; subst hs; exact mv h hpc rfl rfl rfl trivial
    | go => cases hs
    | env l => cases hs
  | test c k =>
    rw [hpc] at hs hp
    cases ch with
    | go =>
      simp only [Option.some.injEq] at hs; subst hs
      by_cases hl : s.level c < 0
      · rw [if_pos hl]; exact mv h hpc rfl rfl rfl hp
      · rw [if_neg hl]; exact mv h hpc rfl rfl rfl ⟨hp, by show 0 ≤ s.level c; omega⟩
    | call op => cases hs
    | env l => cases hs
  | env c k =>
    rw [hpc] at hs hp
    cases ch with
    | env l =>
      cases l with
      | none => simp only [Option.some.injEq] at hs; subst hs; exact mv h hpc rfl rfl rfl hp
      | some l =>
        simp only [Option.some.injEq] at hs; subst hs
        exact mv h hpc rfl rfl rfl ⟨by show (0 : Int) ≤ ((l.val : Nat) : Int); omega, hp⟩
    | go => cases hs
    | call op => cases hs
  | def1 c k =>
    rw [hpc] at hs hp
    cases ch with
    | go =>
      simp only [Option.some.injEq] at hs; subst hs
      by_cases hl : s.level 0 ≥ 0
      · rw [if_pos hl]; exact mv h hpc rfl rfl rfl hp
      · rw [if_neg hl]; exact mv h hpc rfl rfl rfl ⟨by decide, hp⟩
    | call op => cases hs
    | env l => cases hs
  | def2 c k =>
    rw [hpc] at hs hp
    cases ch with
    | go =>
      simp only [Option.some.injEq] at hs; subst hs
      refine mv h hpc rfl rfl rfl ⟨?_, hp⟩
      split <;> omega
    | call op => cases hs
    | env l => cases hs
  | lock c lvl k =>
    rw [hpc] at hs hp
    cases ch with
    | go =>
      simp only at hs
      split at hs
      · rename_i hl
        simp only [Option.some.injEq] at hs; subst hs
        exact acq h hpc hl rfl rfl rfl hp
      · cases hs
    | call op => cases hs
    | env l => cases hs
  | check c lvl k =>
    rw [hpc] at hs hp
    cases ch with
    | go =>
      simp only [Option.some.injEq] at hs; subst hs
      by_cases hl : s.level c < 0
      · rw [if_pos hl]
        refine mv h hpc rfl rfl rfl ⟨hp.1, hp.2, hl, ?_⟩
        exact not_reg (t := t) h hl (by rw [hpc]; rfl) (fun a b hx => by rw [hpc] at hx; cases hx)
      · rw [if_neg hl]
        exact mv h hpc rfl rfl rfl ⟨hp.2, by show 0 ≤ s.level c; omega, fun x hx => by cases hx⟩
    | call op => cases hs
    | env l => cases hs
  | link c lvl k =>
    rw [hpc] at hs
    cases ch with
    | go => simp only [Option.some.injEq] at hs; subst hs; exact step_link h hpc
    | call op => cases hs
    | env l => cases hs
  | publish c lvl k =>
    rw [hpc] at hs
    cases ch with
    | go => simp only [Option.some.injEq] at hs; subst hs; exact step_publish h hpc
    | call op => cases hs
    | env l => cases hs
  | store c lvl k =>
    rw [hpc] at hs
    cases ch with
    | go => simp only [Option.some.injEq] at hs; subst hs; exact step_store h hpc
    | call op => cases hs
    | env l => cases hs
  | readHook c k =>
    rw [hpc] at hs hp
    cases ch with
    | go =>
      simp only [Option.some.injEq] at hs; subst hs
      refine move (es := []) (lk := s.lock) h (fun e he => by cases he) (fun _ _ => Iff.rfl) ?_ ?_ ?_ ?_ h.good
      · rw [← h.lockPc t, hpc]; simp [Pc.holds]
      · intro a b e hx; rw [hpc] at hx; cases hx
      · intro d w hw hwt
        have := h.hooks d w hw
        subst hwt
        unfold HookSt at this ⊢
        rw [hpc] at this
        show match pend d (if w = w then Pc.unlock c s.hook k else s.pc w) with
          | .no => hookEvs d s.tr = (hookAt d s.tr).toList
          | .early => hookEvs d s.tr = [] ∧ hookAt d s.tr = s.hook
          | .late h => hookEvs d s.tr = [] ∧ hookAt d s.tr = some h
        rw [if_pos rfl]
        cases hh : s.hook with
        | none =>
          simp only [pend] at this ⊢
          by_cases hcd : c = d
          · rw [if_pos hcd] at this
            simp only at this
            rw [this.1, this.2, hh]; rfl
          · rw [if_neg hcd] at this; exact this
        | some x =>
          simp only [pend] at this ⊢
          by_cases hcd : c = d
          · rw [if_pos hcd] at this ⊢
            simp only at this ⊢
            rw [← hh]; exact this
          · rw [if_neg hcd] at this ⊢; exact this
      · exact ⟨hp.1, hp.2.1, fun _ _ => hp.2.2⟩
    | call op => cases hs
    | env l => cases hs
  | unlock c x k =>
    rw [hpc] at hs hp
    cases ch with
    | go =>
      simp only [Option.some.injEq] at hs; subst hs
      have hlk : s.lock = some t := (h.lockPc t).mp (by rw [hpc]; rfl)
      refine move (es := []) (lk := none) h (fun e he => by cases he) (fun u hu => by rw [hlk]; simp [Ne.symm hu])
        (by simp [Pc.holds]) ?_ ?_ ?_ h.good
      · intro a b e hx; rw [hpc] at hx; cases hx
      · intro d w hw hwt
        have := h.hooks d w hw
        subst hwt
        unfold HookSt at this ⊢
        rw [hpc] at this
        show match pend d (if w = w then Pc.callHook c x k else s.pc w) with
          | .no => hookEvs d s.tr = (hookAt d s.tr).toList
          | .early => hookEvs d s.tr = [] ∧ hookAt d s.tr = s.hook
          | .late h => hookEvs d s.tr = [] ∧ hookAt d s.tr = some h
        rw [if_pos rfl]
        cases x with
        | none => exact this
        | some x => exact this
      · exact hp
    | call op => cases hs
    | env l => cases hs
  | callHook c x k =>
    rw [hpc] at hs hp
    cases ch with
    | go =>
      cases x with
      | none =>
        simp only [Option.some.injEq] at hs; subst hs
        exact mv h hpc rfl rfl rfl ⟨hp.1, hp.2.1⟩
      | some x => simp only [Option.some.injEq] at hs; subst hs; exact step_callHook h hpc
    | call op => cases hs
    | env l => cases hs
  | fin c k =>
    rw [hpc] at hs hp
    have hc := h.reg1 c hp.2
    have hl := level_some h hp.2
    cases ch with
    | go =>
      cases k with
      | done =>
        simp only [Option.some.injEq] at hs; subst hs
        exact move_local (es := [.ret t c]) h (by simp [CEv.quiet]) (by rw [hpc]; rfl) (by rw [hpc]; rfl) rfl trivial
          ⟨hc, h.good⟩
      | log prio =>
        simp only [Option.some.injEq] at hs; subst hs
        exact move_local (es := [.ret t c, .msg t c prio (decide (((prio.toNat % 8 : Nat) : Int) ≤ s.level c))]) h
          (by simp [CEv.quiet]) (by rw [hpc]; rfl) (by rw [hpc]; rfl) rfl trivial ⟨hc, ⟨_, hl, rfl⟩, h.good⟩
      | set l => simp only [Option.some.injEq] at hs; subst hs; exact step_set h hpc
      | get =>
        simp only [Option.some.injEq] at hs; subst hs
        exact move_local (es := [.ret t c, .got t c (s.level c)]) h (by simp [CEv.quiet]) (by rw [hpc]; rfl)
          (by rw [hpc]; rfl) rfl trivial ⟨hc, hl, h.good⟩
    | call op => cases hs
    | env l => cases hs
  | findLock name l =>
    rw [hpc] at hs hp
    cases ch with
    | go =>
      simp only at hs
      split at hs
      · rename_i hl
        simp only [Option.some.injEq] at hs; subst hs
        exact acq h hpc hl rfl rfl rfl hp
      · cases hs
    | call op => cases hs
    | env l => cases hs
  | findHead name l =>
    rw [hpc] at hs hp
    cases ch with
    | go =>
      simp only [Option.some.injEq] at hs; subst hs
      exact mv h hpc rfl rfl rfl ⟨hp, [], regs s.tr, rfl, h.chain, fun d hd => by cases hd⟩
    | call op => cases hs
    | env l => cases hs
  | findWalk name l p =>
    rw [hpc] at hs hp
    cases ch with
    | go =>
      obtain ⟨h1, pre, suf, h2, h3, h4⟩ := hp
      cases p with
      | none =>
        simp only [Option.some.injEq] at hs; subst hs
        have hsuf := h3.none_nil
        subst hsuf
        refine move_local (es := [.notFound t name]) h (by simp [CEv.quiet]) (by rw [hpc]; rfl) (by rw [hpc]; rfl) rfl
          h1 ⟨?_, h.good⟩
        show ∀ c ∈ regs s.tr, nm c ≠ name
        rw [h2, List.append_nil]; exact h4
      | some c =>
        simp only [Option.some.injEq] at hs; subst hs
        obtain ⟨suf', e1, e2⟩ := h3.some_cons
        subst e1
        by_cases hn : nm c = name
        · rw [if_pos hn]; exact mv h hpc rfl rfl rfl h1
        · rw [if_neg hn]
          refine mv h hpc rfl rfl rfl ⟨h1, pre ++ [c], suf', ?_, e2, ?_⟩
          · show regs s.tr = _
            rw [h2]; simp
          · intro d hd
            rcases List.mem_append.mp hd with hd | hd
            · exact h4 d hd
            · rw [List.mem_singleton.mp hd]; exact hn
    | call op => cases hs
    | env l => cases hs
  | findUnlock r l =>
    rw [hpc] at hs hp
    cases ch with
    | go =>
      cases r with
      | none =>
        simp only [Option.some.injEq] at hs; subst hs
        exact rel (es := []) h (fun e he => by cases he) hpc rfl rfl rfl rfl trivial h.good
      | some c =>
        simp only [Option.some.injEq] at hs; subst hs
        exact rel (es := []) (p := .test c (.set l)) h (fun e he => by cases he) hpc rfl rfl rfl rfl hp h.good
    | call op => cases hs
    | env l => cases hs
  | namesLock m =>
    rw [hpc] at hs hp
    cases ch with
    | go =>
      simp only at hs
      split at hs
      · rename_i hl
        simp only [Option.some.injEq] at hs; subst hs
        exact acq h hpc hl rfl rfl rfl trivial
      · cases hs
    | call op => cases hs
    | env l => cases hs
  | namesHead m =>
    rw [hpc] at hs hp
    cases ch with
    | go =>
      simp only [Option.some.injEq] at hs; subst hs
      exact mv h hpc rfl rfl rfl ⟨regs s.tr, rfl, h.chain, Nat.zero_le _⟩
    | call op => cases hs
    | env l => cases hs
  | namesWalk m p acc =>
    rw [hpc] at hs hp
    cases ch with
    | go =>
      obtain ⟨suf, h2, h3, h4⟩ := hp
      cases p with
      | none =>
        simp only [Option.some.injEq] at hs; subst hs
        have hsuf := h3.none_nil
        subst hsuf
        refine mv h hpc rfl rfl rfl ?_
        show acc = (regs s.tr).take m
        rw [h2, List.append_nil, List.take_of_length_le h4]
      | some c =>
        simp only [Option.some.injEq] at hs; subst hs
        obtain ⟨suf', e1, e2⟩ := h3.some_cons
        subst e1
        by_cases hm : acc.length < m
        · rw [if_pos hm]
          refine mv h hpc rfl rfl rfl ⟨suf', ?_, e2, by simp; omega⟩
          show regs s.tr = _
          rw [h2]; simp
        · rw [if_neg hm]
          refine mv h hpc rfl rfl rfl ?_
          show acc = (regs s.tr).take m
          have : m = acc.length := by omega
          rw [h2, this, List.take_left]
    | call op => cases hs
    | env l => cases hs
  | namesUnlock m acc =>
    rw [hpc] at hs hp
    cases ch with
    | go =>
      simp only [Option.some.injEq] at hs; subst hs
      exact rel (es := [.names t m acc]) h (by simp [CEv.quiet]) hpc rfl rfl rfl rfl trivial ⟨hp, h.good⟩
    | call op => cases hs
    | env l => cases hs
  | feLock =>
    rw [hpc] at hs hp
    cases ch with
    | go =>
      simp only at hs
      split at hs
      · rename_i hl
        simp only [Option.some.injEq] at hs; subst hs
        exact acq h hpc hl rfl rfl rfl trivial
      · cases hs
    | call op => cases hs
    | env l => cases hs
  | feHead =>
    rw [hpc] at hs
    cases ch with
    | go => simp only [Option.some.injEq] at hs; subst hs; exact step_feHead h hpc
    | call op => cases hs
    | env l => cases hs
  | feUnlock p =>
    rw [hpc] at hs hp
    cases ch with
    | go =>
      simp only [Option.some.injEq] at hs; subst hs
      refine rel (es := []) (p := .feWalk p []) h (fun e he => by cases he) hpc rfl rfl rfl rfl ?_ h.good
      exact ⟨[], atHead t s.tr, hp.2.symm, hp.1, rfl⟩
    | call op => cases hs
    | env l => cases hs
  | feWalk p acc =>
    rw [hpc] at hs hp
    cases ch with
    | go =>
      obtain ⟨pre, suf, h2, h3, h4⟩ := hp
      cases p with
      | none =>
        simp only [Option.some.injEq] at hs; subst hs
        have hsuf := h3.none_nil
        subst hsuf
        refine move_local (es := [.feDone t acc]) h (by simp [CEv.quiet]) (by rw [hpc]; rfl) (by rw [hpc]; rfl) rfl
          trivial ⟨?_, h.good⟩
        show acc = (atHead t s.tr).filter _
        rw [← h4]; simp
      | some c =>
        simp only [Option.some.injEq] at hs; subst hs
        obtain ⟨suf', e1, e2⟩ := h3.some_cons
        subst e1
        refine mv h hpc rfl rfl rfl ⟨pre, suf', h2, h3, ?_⟩
        show _ = (atHead t s.tr).filter _
        rw [← h4]
        by_cases hc : c ≠ 0
        · rw [if_pos hc, List.filter_cons_of_pos (by simpa using hc), List.append_assoc]; rfl
        · rw [if_neg hc, List.filter_cons_of_neg (by simpa using hc)]
    | call op => cases hs
    | env l => cases hs
  | feNext c acc =>
    rw [hpc] at hs hp
    cases ch with
    | go =>
      simp only [Option.some.injEq] at hs; subst hs
      obtain ⟨pre, suf, h2, h3, h4⟩ := hp
      refine mv h hpc rfl rfl rfl ⟨pre ++ [c], suf, ?_, h3.2, h4⟩
      show regs s.tr = _
      rw [h2]; simp
    | call op => cases hs
    | env l => cases hs
  | hookLock x =>
    rw [hpc] at hs hp
    cases ch with
    | go =>
      simp only at hs
      split at hs
      · rename_i hl
        simp only [Option.some.injEq] at hs; subst hs
        exact acq h hpc hl rfl rfl rfl trivial
      · cases hs
    | call op => cases hs
    | env l => cases hs
  | hookStore x =>
    rw [hpc] at hs
    cases ch with
    | go => simp only [Option.some.injEq] at hs; subst hs; exact step_hookStore h hpc
    | call op => cases hs
    | env l => cases hs
  | hookUnlock x =>
    rw [hpc] at hs
    cases ch with
    | go =>
      simp only [Option.some.injEq] at hs; subst hs
      exact rel (es := []) h (fun e he => by cases he) hpc rfl rfl rfl rfl trivial h.good
    | call op => cases hs
    | env l => cases hs

theorem cinv_start : CInv nm .start := by
  refine ⟨rfl, ?_, ?_, ?_, ?_, ?_, ?_, rfl, ?_, trivial⟩
  · intro t; simp [CState.start, Pc.holds]
  · intro c; rfl
  · intro c l hl; cases hl
  · intro c hc; exact absurd hc (by show ¬ (0 : Int) ≤ -1; omega)
  · intro c hc; cases hc
  · intro t; trivial
  · intro c w hw; cases hw

theorem CReach.inv (h : CReach nm s) : CInv nm s := by
  induction h with
  | start => exact cinv_start
  | step t ch _ hs ih => exact cinv_step ih hs

end Verif.Libulog
