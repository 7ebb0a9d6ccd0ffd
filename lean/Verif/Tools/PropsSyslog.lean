import Verif.Tools.Syslog
import Verif.Libulog.PropsWrite

/-!
# Syslog calls (C47, C71)
-/
namespace Verif.Tools
open Verif Verif.Libulog

/-- The calls `ops` were made in a new process and led to `s`. -/
def SRun (nm : Cid → Bytes) (ops : List (World × SOp)) (s : Sys) (tr : List (WRes × List Ev)) : Prop :=
  sysRun nm Sys.start ops = .ok (s, tr)

/-- The identifier that the wrapper uses: the one of its first call. -/
def firstIdent : List SOp → Option Bytes
  | [] => none
  | .openlog ident _ :: _ => some (ident.getD [])
  | .syslog _ _ :: _ => some []
  | .setlogmask _ :: _ => some []
  | .closelog :: l => firstIdent l
  | .other _ :: l => firstIdent l

/-- Calls of the wrapper after which its tag has a level. -/
def SOp.logs : SOp → Bool
  | .openlog _ true => true
  | .syslog _ (some _) => true
  | .setlogmask _ => true
  | _ => false

theorem sysRun_append {nm : Cid → Bytes} {s : Sys} {a b : List (World × SOp)} {s' : Sys} {tr : List (WRes × List Ev)}
    (h : sysRun nm s (a ++ b) = .ok (s', tr)) :
    ∃ s1 t1 t2, sysRun nm s a = .ok (s1, t1) ∧ sysRun nm s1 b = .ok (s', t2) ∧ tr = t1 ++ t2 := by
  induction a generalizing s tr with
  | nil => exact ⟨s, [], tr, rfl, h, rfl⟩
  | cons x a ih =>
    obtain ⟨w, op⟩ := x
    simp only [List.cons_append, sysRun] at h ⊢
    cases h1 : sysStep nm w s op with
    | error f => rw [h1] at h; simp at h
    | ok y =>
      obtain ⟨s1, r, e⟩ := y
      rw [h1] at h
      dsimp only at h ⊢
      cases h2 : sysRun nm s1 (a ++ b) with
      | error f => rw [h2] at h; simp at h
      | ok z =>
        obtain ⟨s2, t⟩ := z
        rw [h2] at h
        simp only [Except.ok.injEq, Prod.mk.injEq] at h
        obtain ⟨rfl, rfl⟩ := h
        obtain ⟨s3, t1, t2, h3, h4, rfl⟩ := ih h2
        exact ⟨s3, (r, e) :: t1, t2, by rw [h3], h4, rfl⟩

theorem call_ok {nm : Cid → Bytes} {w : World} {s s' : Sys} {op : WOp} {r : WRes} {e : List Ev}
    (h : s.call nm w op = .ok (s', r, e)) :
    wstep (s.nm nm) w s.lib op = .ok (s'.lib, r, e) ∧ s' = { s with lib := s'.lib } := by
  unfold Sys.call at h
  split at h
  · rename_i l r' e' hw
    simp only [Except.ok.injEq, Prod.mk.injEq] at h
    obtain ⟨rfl, rfl, rfl⟩ := h
    exact ⟨hw, rfl⟩
  · simp at h

theorem init_spec (w : World) (s : Sys) (i : Option Bytes) :
    (s.init w i).lib = s.lib ∧ (s.init w i).done = true ∧ (s.done = true → s.init w i = s) ∧
      (s.done = false → (s.init w i).name = i.getD s.name) := by
  unfold Sys.init
  cases hd : s.done <;> simp [hd]

structure SysInv (s : Sys) (ops : List SOp) (u : List Cid) : Prop where
  reg : RegInv s.lib u
  touched : ∀ op ∈ ops, op.logs = true → sysTag ∈ u
  ident : match firstIdent ops with
    | some i => s.done = true ∧ s.name = i
    | none => s.done = false ∧ s.name = []

theorem firstIdent_append (a b : List SOp) : firstIdent (a ++ b) = (firstIdent a).or (firstIdent b) := by
  induction a with
  | nil => simp [firstIdent]
  | cons x a ih => cases x <;> simp [firstIdent, ih]

theorem addTag_mono (u : List Cid) (op : WOp) {c : Cid} (h : c ∈ u) : c ∈ addTag u op := by
  unfold addTag
  split
  · split
    · exact h
    · simp [h]
  · exact h

theorem addTag_mem (u : List Cid) {op : WOp} {c : Cid} (h : op.tag = some c) : c ∈ addTag u op := by
  unfold addTag
  rw [h]
  dsimp only
  split
  · assumption
  · simp

theorem sysInv_step {nm : Cid → Bytes} {w : World} {s s' : Sys} {ops : List SOp} {u : List Cid} {op : SOp} {r : WRes} {e : List Ev}
    (h : SysInv s ops u) (hs : sysStep nm w s op = .ok (s', r, e)) : ∃ u', SysInv s' (ops ++ [op]) u' := by
  have id1 : ∀ s1 : Sys, s1.done = true → (s.done = true → s1.name = s.name) → (s.done = false → firstIdent [op] = some s1.name) →
      match firstIdent (ops ++ [op]) with
      | some i => s1.done = true ∧ s1.name = i
      | none => s1.done = false ∧ s1.name = [] := by
    intro s1 hd hk hn
    rw [firstIdent_append]
    have hid := h.ident
    cases hf : firstIdent ops with
    | some i => rw [hf] at hid; exact ⟨hd, by rw [hk hid.1]; exact hid.2⟩
    | none => rw [hf] at hid; simp only [Option.none_or, hn hid.1]; exact ⟨hd, trivial⟩
  have id0 : ∀ s1 : Sys, s1.done = s.done → s1.name = s.name → firstIdent [op] = none →
      match firstIdent (ops ++ [op]) with
      | some i => s1.done = true ∧ s1.name = i
      | none => s1.done = false ∧ s1.name = [] := by
    intro s1 h1 h2 h3
    rw [firstIdent_append, h3, Option.or_none, h1, h2]; exact h.ident
  have viaCall : ∀ (s0 : Sys) (o : WOp) (r : WRes) (s' : Sys), s0.lib = s.lib → s0.call nm w o = .ok (s', r, e) →
      (op.logs = true → o.tag = some sysTag) →
      (match firstIdent (ops ++ [op]) with
      | some i => s0.done = true ∧ s0.name = i
      | none => s0.done = false ∧ s0.name = []) → ∃ u', SysInv s' (ops ++ [op]) u' := by
    intro s0 o r s' hl hc ht hid
    obtain ⟨h1, h2⟩ := call_ok hc
    rw [hl] at h1
    refine ⟨addTag u o, wstep_reg h.reg h1, ?_, ?_⟩
    · intro x hx hlog
      rcases List.mem_append.mp hx with hx | hx
      · exact addTag_mono u o (h.touched x hx hlog)
      · rw [List.mem_singleton] at hx; subst hx
        exact addTag_mem u (ht hlog)
    · rw [h2]; exact hid
  have stay : ∀ s1 : Sys, s1.lib = s.lib → op.logs = false →
      (match firstIdent (ops ++ [op]) with
      | some i => s1.done = true ∧ s1.name = i
      | none => s1.done = false ∧ s1.name = []) → ∃ u', SysInv s1 (ops ++ [op]) u' := by
    intro s1 hl ht hid
    refine ⟨u, by rw [hl]; exact h.reg, ?_, hid⟩
    intro x hx hlog
    rcases List.mem_append.mp hx with hx | hx
    · exact h.touched x hx hlog
    · rw [List.mem_singleton] at hx; subst hx; rw [ht] at hlog; simp at hlog
  have hname : s.done = false → s.name = [] := by
    intro hd
    have := h.ident
    split at this
    · rw [hd] at this; simp at this
    · exact this.2
  cases op with
  | openlog i nd =>
    obtain ⟨i1, i2, i3, i4⟩ := init_spec w s i
    have hid := id1 (s.init w i) i2 (fun hd => by rw [i3 hd]) (fun hd => by rw [i4 hd, hname hd]; rfl)
    simp only [sysStep] at hs
    split at hs
    · exact viaCall _ _ _ _ i1 hs (fun _ => rfl) hid
    · rename_i hnd
      simp only [Except.ok.injEq, Prod.mk.injEq] at hs
      rw [← hs.1]
      refine stay _ i1 ?_ hid
      cases nd <;> simp_all [SOp.logs]
  | syslog p t =>
    obtain ⟨i1, i2, i3, i4⟩ := init_spec w s none
    have hid := id1 (s.init w none) i2 (fun hd => by rw [i3 hd]) (fun hd => by rw [i4 hd, hname hd]; rfl)
    simp only [sysStep] at hs
    cases t with
    | none =>
      simp only [Except.ok.injEq, Prod.mk.injEq] at hs
      rw [← hs.1]
      exact stay _ i1 rfl hid
    | some t =>
      dsimp only at hs
      split at hs
      · exact viaCall _ _ _ _ i1 hs (fun _ => rfl) hid
      · split at hs
        · exact viaCall _ _ _ _ i1 hs (fun _ => rfl) hid
        · simp at hs
  | setlogmask m =>
    obtain ⟨i1, i2, i3, i4⟩ := init_spec w s none
    have hid := id1 (s.init w none) i2 (fun hd => by rw [i3 hd]) (fun hd => by rw [i4 hd, hname hd]; rfl)
    simp only [sysStep] at hs
    split at hs
    · rename_i s1 r1 e1 hc
      simp only [Except.ok.injEq, Prod.mk.injEq] at hs
      obtain ⟨rfl, -, rfl⟩ := hs
      exact viaCall _ _ _ _ i1 hc (fun _ => rfl) hid
    · simp at hs
  | closelog =>
    simp only [sysStep, Except.ok.injEq, Prod.mk.injEq] at hs
    rw [← hs.1]
    exact stay s rfl rfl (id0 s rfl rfl rfl)
  | other o =>
    exact viaCall s o r s' rfl hs (fun hx => by simp [SOp.logs] at hx) (id0 s rfl rfl rfl)

theorem sysRun_inv {nm : Cid → Bytes} {a : List (World × SOp)} {s s' : Sys} {ops : List SOp} {u : List Cid} {tr : List (WRes × List Ev)}
    (h : SysInv s ops u) (hr : sysRun nm s a = .ok (s', tr)) : ∃ u', SysInv s' (ops ++ a.map Prod.snd) u' := by
  induction a generalizing s ops u tr with
  | nil =>
    simp only [sysRun, Except.ok.injEq, Prod.mk.injEq] at hr
    rw [← hr.1]; exact ⟨u, by simpa using h⟩
  | cons x a ih =>
    obtain ⟨w, op⟩ := x
    simp only [sysRun] at hr
    split at hr
    · simp at hr
    · rename_i s1 r e h1
      split at hr
      · simp at hr
      · rename_i s2 t h2
        simp only [Except.ok.injEq, Prod.mk.injEq] at hr
        obtain ⟨rfl, -⟩ := hr
        obtain ⟨u1, hi⟩ := sysInv_step h h1
        obtain ⟨u2, hi⟩ := ih hi h2
        exact ⟨u2, by simpa using hi⟩

theorem SRun.inv {nm : Cid → Bytes} {ops : List (World × SOp)} {s : Sys} {tr : List (WRes × List Ev)} (h : SRun nm ops s tr) :
    ∃ u, SysInv s (ops.map Prod.snd) u := by
  have h0 : SysInv Sys.start [] [] :=
    ⟨⟨rfl, by intro c; simp [Sys.start, Lib.start], by simp, by intro c _; rfl, by intro c; simp [Sys.start, Lib.start]⟩, by simp, ⟨rfl, rfl⟩⟩
  simpa using sysRun_inv h0 h

/-- `k` is the place of the highest bit of `m`, -1 if there is none. -/
def HighBit (m : Nat) (k : Int) : Prop := (m = 0 ∧ k = -1) ∨ (0 ≤ k ∧ 2 ^ k.toNat ≤ m ∧ m < 2 ^ (k.toNat + 1))

theorem topBit_spec (m : Nat) : HighBit m (topBit m) := by
  induction m using Nat.strongRecOn with
  | _ m ih =>
    rw [topBit]
    split
    · exact Or.inl ⟨by assumption, rfl⟩
    · rename_i h0
      right
      rcases ih (m / 2) (by omega) with ⟨h1, h2⟩ | ⟨h1, h2, h3⟩
      · rw [h2]; simp; omega
      · have e : (topBit (m / 2) + 1).toNat = (topBit (m / 2)).toNat + 1 := by omega
        rw [e]
        simp only [Nat.pow_succ] at h3 ⊢
        generalize (2 : Nat) ^ (topBit (m / 2)).toNat = q at *
        omega

theorem highBit_unique {m : Nat} {a b : Int} (ha : HighBit m a) (hb : HighBit m b) : a = b := by
  have key : ∀ x y : Nat, 2 ^ x ≤ m → m < 2 ^ (y + 1) → x ≤ y := by
    intro x y h1 h2
    have h3 : 2 ^ x < 2 ^ (y + 1) := by omega
    have := (Nat.pow_lt_pow_iff_right (a := 2) (by omega)).mp h3
    omega
  rcases ha with ⟨h1, h2⟩ | ⟨h1, h2, h3⟩ <;> rcases hb with ⟨k1, k2⟩ | ⟨k1, k2, k3⟩
  · omega
  · subst h1; have := Nat.pow_pos (n := b.toNat) (show 0 < 2 by omega); omega
  · subst k1; have := Nat.pow_pos (n := a.toNat) (show 0 < 2 by omega); omega
  · have e1 := key _ _ h2 k3
    have e2 := key _ _ k2 h3
    omega

theorem sanitize_eq (l : Int) : sanitize l = max 2 (min 7 l) := by
  unfold sanitize; split
  · omega
  · split <;> omega

theorem level_of_reg {nm : Cid → Bytes} {w : World} {s : Lib} {u : List Cid} (h : RegInv s u) {c : Cid} (hc : c ∈ u) {l : Int} :
    LevelIs nm w s c l ↔ l = s.level c := by
  rw [levelIs_iff, (ensureInit_spec nm w h c).2.2.1, if_pos hc]

theorem setlogmask_step {nm : Cid → Bytes} {ops : List (World × SOp)} {s : Sys} {tr : List (WRes × List Ev)} (h : SRun nm ops s tr)
    (w : World) (m : UInt32) {k : Int} (hk : HighBit m.toNat k) :
    ∃ s' e, sysStep nm w s (.setlogmask m) = .ok (s', .int (2 ^ (s.lib.level sysTag + 1).toNat - 1), e) ∧
      s'.done = true ∧ s'.lib.level sysTag = max 2 (min 7 k) ∧ (∀ c, c ≠ sysTag → s'.lib.level c = s.lib.level c) ∧
      ∃ u, RegInv s'.lib u ∧ sysTag ∈ u := by
  obtain ⟨u, hi⟩ := h.inv
  obtain ⟨i1, i2, i3, i4⟩ := init_spec w s none
  simp only [sysStep, Sys.call, wstep, i1]
  obtain ⟨s1, s2, s3, -⟩ := setLevel_spec ((s.init w none).nm nm) w hi.reg sysTag (sanitize (topBit m.toNat))
  refine ⟨_, _, rfl, i2, ?_, s2, _, s1, by split <;> simp_all⟩
  show (setLevel _ w s.lib sysTag _).1.level sysTag = _
  rw [s3, sanitize_eq, highBit_unique (topBit_spec _) hk]
  omega

/-- **C47, the new level:** whatever the mask, the tag of the wrapper gets the level of
the highest bit of the mask, brought into the range 2..7; no other tag changes. -/
theorem C47_level {nm : Cid → Bytes} {ops : List (World × SOp)} {s : Sys} {tr : List (WRes × List Ev)} (h : SRun nm ops s tr)
    (w : World) (m : UInt32) {k : Int} (hk : HighBit m.toNat k) :
    ∃ s' r e, sysStep nm w s (.setlogmask m) = .ok (s', .int r, e) ∧
      (∀ w', LevelIs (s'.nm nm) w' s'.lib sysTag (max 2 (min 7 k))) ∧
      ∀ c, c ≠ sysTag → s'.lib.level c = s.lib.level c := by
  obtain ⟨s', e, h1, h2, h3, h4, u, h5, h6⟩ := setlogmask_step h w m hk
  exact ⟨s', _, e, h1, fun w' => (level_of_reg h5 h6).mpr h3.symm, h4⟩

/-- **C47, the returned mask:** once the wrapper has logged something or set a mask, the
mask returned is "up to" the previous level. -/
theorem C47_old {nm : Cid → Bytes} {ops : List (World × SOp)} {s : Sys} {tr : List (WRes × List Ev)} (h : SRun nm ops s tr)
    (hl : ∃ op ∈ ops.map Prod.snd, op.logs = true) (w : World) (m : UInt32) {l : Int} (hlv : LevelIs (s.nm nm) w s.lib sysTag l) :
    0 ≤ l ∧ l ≤ 7 ∧ ∃ s' e, sysStep nm w s (.setlogmask m) = .ok (s', .int (2 ^ (l.toNat + 1) - 1), e) := by
  obtain ⟨u, hi⟩ := h.inv
  obtain ⟨op, ho, hop⟩ := hl
  have hu := hi.touched op ho hop
  rw [level_of_reg hi.reg hu] at hlv
  have h0 := (hi.reg.mem _).mp hu
  have h7 := hi.reg.le sysTag
  obtain ⟨s', e, h1, -⟩ := setlogmask_step h w m (topBit_spec _)
  refine ⟨by omega, by omega, s', e, ?_⟩
  rw [h1, hlv, show (s.lib.level sysTag + 1).toNat = (s.lib.level sysTag).toNat + 1 by omega]

theorem highBit_upto {l : Nat} : HighBit (2 ^ (l + 1) - 1) l := by
  right
  have := Nat.pow_pos (n := l) (show 0 < 2 by omega)
  rw [Nat.pow_succ]
  refine ⟨by omega, ?_, ?_⟩
  · show 2 ^ l ≤ _; omega
  · show _ < 2 ^ (l + 1); rw [Nat.pow_succ]; omega

theorem and7 (p : UInt32) : (p &&& 7).toNat = p.toNat % 8 := by
  rw [UInt32.toNat_and]
  exact Nat.and_two_pow_sub_one_eq_mod _ 3

/-- What a syslog call leads to at a foreign write function. -/
theorem syslog_step {nm : Cid → Bytes} {s : Sys} {u : List Cid} (hr : RegInv s.lib u) {w : World} {n : Nat} (hw : s.lib.writer = .custom n)
    (p : UInt32) (t : Bytes) (hlong : t.length < 256 ∨ (s.init w none).long = false) {l : Int}
    (hl : LevelIs ((s.init w none).nm nm) w s.lib sysTag l) :
    ∃ s' e, sysStep nm w s (.syslog p (some t)) = .ok (s', .unit, e) ∧ s'.name = (s.init w none).name ∧
      e.filter (fun x => !x.isHook) = if (p.toNat % 8 : Nat) ≤ l then [.custom n (p &&& 7) sysTag (t.take 255 ++ [0])] else [] := by
  obtain ⟨i1, i2, i3, i4⟩ := init_spec w s none
  obtain ⟨s', e, h1, h2⟩ := filter_reg hr hw (op := .buf (p &&& 7) sysTag (t.take 255 ++ [0])) (p := p &&& 7) rfl hl
  rw [and7] at h2
  rw [show p.toNat % 8 % 8 = p.toNat % 8 by omega] at h2
  have hc : (s.init w none).call nm w (.buf (p &&& 7) sysTag (t.take 255 ++ [0])) = .ok ({ s.init w none with lib := s' }, .unit, e) := by
    unfold Sys.call; rw [i1, h1]
  refine ⟨{ s.init w none with lib := s' }, e, ?_, rfl, h2⟩
  simp only [sysStep]
  split
  · rename_i hlt; rw [List.take_of_length_le (by omega)] at hc; exact hc
  · rw [if_pos (by rcases hlong with h | h; contradiction; exact h)]; exact hc

/-- **C47, the filter:** after the mask "up to level `l`", `2 ≤ l ≤ 7`, exactly the
messages of level at most `l` get to the write function. -/
theorem C47_filter {nm : Cid → Bytes} {ops : List (World × SOp)} {s : Sys} {tr : List (WRes × List Ev)} (h : SRun nm ops s tr)
    (w : World) {m : UInt32} {l : Nat} (hm : m.toNat = 2 ^ (l + 1) - 1) (h2 : 2 ≤ l) (h7 : l ≤ 7) :
    ∃ s' r e, sysStep nm w s (.setlogmask m) = .ok (s', .int r, e) ∧
      ∀ w' n, s'.lib.writer = .custom n → ∀ (p : UInt32) (t : Bytes), t.length < 256 →
        ∃ s'' e', sysStep nm w' s' (.syslog p (some t)) = .ok (s'', .unit, e') ∧
          e'.filter (fun x => !x.isHook) = if p.toNat % 8 ≤ l then [.custom n (p &&& 7) sysTag (t ++ [0])] else [] := by
  obtain ⟨s', e, h1, hd, h3, h4, u, h5, h6⟩ := setlogmask_step h w m (k := l) (by rw [hm]; exact highBit_upto)
  refine ⟨s', _, e, h1, ?_⟩
  intro w' n hw p t ht
  obtain ⟨s'', e', a1, -, a2⟩ := syslog_step (nm := nm) (w := w') h5 hw p t (Or.inl ht) (l := l)
    ((level_of_reg h5 h6).mpr (by rw [h3]; omega))
  refine ⟨s'', e', a1, ?_⟩
  rw [a2, List.take_of_length_le (by omega)]
  simp only [Int.ofNat_le]

/-- **C47, restoring:** setting the returned mask gives back the previous level, if that
was in the range 2..7 (and the wrapper was in use). -/
theorem C47_restore {nm : Cid → Bytes} {ops : List (World × SOp)} {s : Sys} {tr : List (WRes × List Ev)} (h : SRun nm ops s tr)
    (hl : ∃ op ∈ ops.map Prod.snd, op.logs = true) (w w1 w2 : World) (m m' : UInt32) {l : Int} (hlv : LevelIs (s.nm nm) w s.lib sysTag l)
    (h2 : 2 ≤ l) {s1 : Sys} {r : Int} {e : List Ev} (hs : sysStep nm w s (.setlogmask m) = .ok (s1, .int r, e)) (hm' : (m'.toNat : Int) = r) :
    ∃ s2 r2 e2, sysStep nm w1 s1 (.setlogmask m') = .ok (s2, .int r2, e2) ∧ LevelIs (s2.nm nm) w2 s2.lib sysTag l := by
  obtain ⟨h0, h7, s', e', hs'⟩ := C47_old h hl w m hlv
  rw [hs'] at hs
  simp only [Except.ok.injEq, Prod.mk.injEq, WRes.int.injEq] at hs
  obtain ⟨rfl, hr, rfl⟩ := hs
  have hrun : SRun nm (ops ++ [(w, .setlogmask m)]) s' (tr ++ [(.int (2 ^ (l.toNat + 1) - 1), e')]) := by
    unfold SRun at h ⊢
    clear hlv hl
    generalize Sys.start = s0 at h
    induction ops generalizing s0 tr with
    | nil =>
      simp only [sysRun, Except.ok.injEq, Prod.mk.injEq] at h
      obtain ⟨rfl, rfl⟩ := h
      simp only [List.nil_append, sysRun, hs']
    | cons x a ih =>
      obtain ⟨wx, op⟩ := x
      simp only [List.cons_append, sysRun] at h ⊢
      split at h
      · simp at h
      · rename_i s1 r1 e1 h1
        split at h
        · simp at h
        · rename_i s3 t3 h3
          simp only [Except.ok.injEq, Prod.mk.injEq] at h
          obtain ⟨rfl, rfl⟩ := h
          have := ih s1 h3
          rw [this]; rfl
  have hmn : m'.toNat = 2 ^ (l.toNat + 1) - 1 := by
    have := Nat.pow_pos (n := l.toNat + 1) (show 0 < 2 by omega)
    have e : ((2 ^ (l.toNat + 1) - 1 : Nat) : Int) = (2 : Int) ^ (l.toNat + 1) - 1 := by
      rw [Int.ofNat_sub (by omega)]; simp
    omega
  obtain ⟨s2, r2, e2, q1, q2, -⟩ := C47_level hrun w1 m' (k := l.toNat) (by rw [hmn]; exact highBit_upto)
  refine ⟨s2, r2, e2, q1, ?_⟩
  have := q2 w2
  rw [show max 2 (min 7 ((l.toNat : Nat) : Int)) = l by omega] at this
  exact this

/-- C47 is false of the first call: the returned mask is 0, although messages up to
level 6 would be logged. -/
theorem C47_false_first (nm : Cid → Bytes) (m : UInt32) :
    (∃ s' e, sysStep nm bareWorld Sys.start (.setlogmask m) = .ok (s', .int 0, e)) ∧
      LevelIs (Sys.start.nm nm) bareWorld Sys.start.lib sysTag 6 := by
  constructor
  · exact ⟨_, _, rfl⟩
  · rw [levelIs_iff]; rfl

/-- A mask of 0 should leave the mask alone (POSIX); here it sets level 2. -/
theorem C47_false_query {nm : Cid → Bytes} {ops : List (World × SOp)} {s : Sys} {tr : List (WRes × List Ev)} (h : SRun nm ops s tr)
    (w : World) : ∃ s' r e, sysStep nm w s (.setlogmask 0) = .ok (s', .int r, e) ∧ ∀ w', LevelIs (s'.nm nm) w' s'.lib sysTag 2 := by
  obtain ⟨s', r, e, h1, h2, -⟩ := C47_level h w 0 (k := -1) (Or.inl ⟨rfl, rfl⟩)
  exact ⟨s', r, e, h1, h2⟩

theorem sysStep_long {nm : Cid → Bytes} {w : World} {s s' : Sys} {op : SOp} {r : WRes} {e : List Ev}
    (hs : sysStep nm w s op = .ok (s', r, e)) (hw : w.getenv (ascii "ULOGWRAPPER_LONG_LOGS") = none) (hl : s.long = false) :
    s'.long = false := by
  have hin : ∀ i, (s.init w i).long = false := by intro i; unfold Sys.init; split <;> simp [hl, hw]
  have hc : ∀ (s0 : Sys) (o : WOp) (r : WRes) (s' : Sys), s0.long = false → s0.call nm w o = .ok (s', r, e) → s'.long = false := by
    intro s0 o r s' h0 hc; rw [(call_ok hc).2]; exact h0
  cases op with
  | openlog i nd =>
    simp only [sysStep] at hs
    split at hs
    · exact hc _ _ _ _ (hin i) hs
    · simp only [Except.ok.injEq, Prod.mk.injEq] at hs; rw [← hs.1]; exact hin i
  | syslog p t =>
    simp only [sysStep] at hs
    cases t with
    | none => simp only [Except.ok.injEq, Prod.mk.injEq] at hs; rw [← hs.1]; exact hin none
    | some t =>
      dsimp only at hs
      split at hs
      · exact hc _ _ _ _ (hin none) hs
      · split at hs
        · exact hc _ _ _ _ (hin none) hs
        · simp at hs
  | setlogmask m =>
    simp only [sysStep] at hs
    split at hs
    · rename_i s1 r1 e1 h1
      simp only [Except.ok.injEq, Prod.mk.injEq] at hs
      obtain ⟨rfl, -, rfl⟩ := hs
      exact hc _ _ _ _ (hin none) h1
    · simp at hs
  | closelog => simp only [sysStep, Except.ok.injEq, Prod.mk.injEq] at hs; rw [← hs.1]; exact hl
  | other o => exact hc s o r s' hl hs

theorem sysRun_long {nm : Cid → Bytes} {a : List (World × SOp)} {s s' : Sys} {tr : List (WRes × List Ev)}
    (hr : sysRun nm s a = .ok (s', tr)) (hw : ∀ x ∈ a, x.1.getenv (ascii "ULOGWRAPPER_LONG_LOGS") = none) (hl : s.long = false) :
    s'.long = false := by
  induction a generalizing s tr with
  | nil => simp only [sysRun, Except.ok.injEq, Prod.mk.injEq] at hr; rw [← hr.1]; exact hl
  | cons x a ih =>
    obtain ⟨w, op⟩ := x
    simp only [sysRun] at hr
    split at hr
    · simp at hr
    · rename_i s1 r e h1
      split at hr
      · simp at hr
      · rename_i s2 t h2
        simp only [Except.ok.injEq, Prod.mk.injEq] at hr
        obtain ⟨rfl, -⟩ := hr
        exact ih h2 (fun x hx => hw x (List.mem_cons_of_mem _ hx)) (sysStep_long h1 (hw _ List.mem_cons_self) hl)

/-- **C71:** a syslog call passes one message to the write function if its level is not
above that of the tag, and none otherwise: the level without the facility, the
identifier of the first call of the wrapper (or none, if that was not `openlog`), the
text cut to 255 bytes and a NUL. -/
theorem C71_text {nm : Cid → Bytes} {ops : List (World × SOp)} {s : Sys} {tr : List (WRes × List Ev)} (h : SRun nm ops s tr)
    {w : World} {n : Nat} (hw : s.lib.writer = .custom n) (p : UInt32) (t : Bytes)
    (hlong : t.length < 256 ∨ ∀ x ∈ ops ++ [(w, SOp.syslog p (some t))], x.1.getenv (ascii "ULOGWRAPPER_LONG_LOGS") = none) :
    ∃ s' e l, sysStep nm w s (.syslog p (some t)) = .ok (s', .unit, e) ∧
      s'.nm nm sysTag = (firstIdent (ops.map Prod.snd)).getD [] ∧
      LevelIs (s'.nm nm) w s.lib sysTag l ∧
      e.filter (fun x => !x.isHook) = if (p.toNat % 8 : Nat) ≤ l then [.custom n (p &&& 7) sysTag (t.take 255 ++ [0])] else [] := by
  obtain ⟨u, hi⟩ := h.inv
  have hlong' : t.length < 256 ∨ (s.init w none).long = false := by
    rcases hlong with hlong | hlong
    · exact Or.inl hlong
    · right
      have h1 := sysRun_long h (fun x hx => hlong x (by simp [hx])) rfl
      have h2 : w.getenv (ascii "ULOGWRAPPER_LONG_LOGS") = none := hlong (w, SOp.syslog p (some t)) (by simp)
      unfold Sys.init; split <;> simp [h1, h2]
  obtain ⟨s', e, h1, h2, h3⟩ := syslog_step (nm := nm) hi.reg hw p t hlong' (levelIs_iff.mpr rfl)
  have hnm : s'.nm nm = (s.init w none).nm nm := by unfold Sys.nm; rw [h2]
  refine ⟨s', e, _, h1, ?_, by rw [hnm]; exact levelIs_iff.mpr rfl, h3⟩
  rw [hnm]
  unfold Sys.nm
  rw [if_pos rfl]
  have hid := hi.ident
  obtain ⟨-, -, i3, i4⟩ := init_spec w s none
  split at hid
  · rename_i i hf; rw [hf, i3 hid.1, hid.2]; rfl
  · rename_i hf; rw [hf, i4 hid.1, hid.2]

/-- C71: `openlog` says so at level 6 if it is told not to delay, and is silent otherwise. -/
theorem C71_open {nm : Cid → Bytes} {ops : List (World × SOp)} {s : Sys} {tr : List (WRes × List Ev)} (h : SRun nm ops s tr)
    {w : World} {n : Nat} (hw : s.lib.writer = .custom n) (ident : Option Bytes) (ndelay : Bool) :
    ∃ s' e l, sysStep nm w s (.openlog ident ndelay) = .ok (s', .unit, e) ∧ LevelIs (s'.nm nm) w s.lib sysTag l ∧
      e.filter (fun x => !x.isHook) =
        if ndelay = true ∧ 6 ≤ l then [.custom n 6 sysTag (ascii "redirecting syslog to ulog" ++ [0])] else [] := by
  obtain ⟨u, hi⟩ := h.inv
  obtain ⟨i1, i2, i3, i4⟩ := init_spec w s ident
  cases ndelay with
  | false => exact ⟨s.init w ident, [], _, rfl, levelIs_iff.mpr rfl, rfl⟩
  | true =>
    obtain ⟨s', e, h1, h2⟩ := filter_reg hi.reg hw (op := .log 6 sysTag (some (ascii "redirecting syslog to ulog"))) (p := 6) rfl
      (levelIs_iff.mpr rfl : LevelIs ((s.init w ident).nm nm) w s.lib sysTag _)
    refine ⟨{ s.init w ident with lib := s' }, e, _, ?_, levelIs_iff.mpr rfl, ?_⟩
    · show (s.init w ident).call nm w _ = _
      unfold Sys.call; rw [i1, h1]
    · have ht : List.take 255 (ascii "redirecting syslog to ulog") = ascii "redirecting syslog to ulog" := by decide +kernel
      rw [h2, ht]
      simp only [true_and]
      rfl

/-- C71 fails for long texts if long logs are asked for: the arguments are used a second
time after `vsnprintf` has consumed them. -/
theorem C71_false_long (nm : Cid → Bytes) {w : World} (hw : (w.getenv (ascii "ULOGWRAPPER_LONG_LOGS")).isSome) (p : UInt32) {t : Bytes}
    (ht : 256 ≤ t.length) : sysStep nm w Sys.start (.syslog p (some t)) = .error .vaReuse := by
  simp only [sysStep]
  rw [if_neg (by omega)]
  simp [Sys.init, Sys.start, hw]

/-- An identifier given after the first message is not used. -/
theorem C71_false_ident (nm : Cid → Bytes) (i t : Bytes) (p : UInt32) (b : Bool) {w : World} {s : Sys} {tr : List (WRes × List Ev)}
    (h : SRun nm [(w, .syslog p (some t)), (w, .openlog (some i) b)] s tr) : s.nm nm sysTag = [] := by
  obtain ⟨u, hi⟩ := h.inv
  have := hi.ident
  simp only [List.map_cons, firstIdent] at this
  unfold Sys.nm
  rw [if_pos rfl, this.2]

end Verif.Tools
