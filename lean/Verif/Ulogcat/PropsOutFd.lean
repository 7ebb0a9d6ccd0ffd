import Verif.Ulogcat.OutFd
import Verif.Ulogcat.PropsOpen

/-!
# What becomes of the output of the caller (C67)
-/
namespace Verif.Ulogcat
open Verif

/-! ## Specification -/

/-- The descriptors and the streams of a process. -/
structure Files where
  fds : List Nat
  fps : List Nat
  deriving DecidableEq, Repr

/-- What an event does to them, `no` being the descriptor of a stream; `none` if a descriptor
or a stream is used that is not open. -/
def filesStep (no : Nat → Nat) (F : Files) : FEv → Option Files
  | .ev (.opened _ (some fd)) => some { F with fds := F.fds ++ [fd] }
  | .ev (.closed fd) => if fd ∈ F.fds then some { F with fds := F.fds.erase fd } else none
  | .ev _ => some F
  | .linebuf fp => if fp ∈ F.fps then some F else none
  | .close fd => if fd ∈ F.fds then some { F with fds := F.fds.erase fd } else none
  | .fclose fp => if fp ∈ F.fps ∧ no fp ∈ F.fds then some { fds := F.fds.erase (no fp), fps := F.fps.erase fp } else none

def filesAfter (no : Nat → Nat) : List FEv → Files → Option Files
  | [], F => some F
  | e :: l, F => (filesStep no F e).bind (filesAfter no l)

/-- The descriptor that goes with an output is closed, if there is one. -/
def dropFd (fd : Int) (l : List Nat) : List Nat := if fd < 0 then l else l.erase fd.toNat

/-! ## Proof -/

theorem filesAfter_append (no : Nat → Nat) (a b : List FEv) (F : Files) : filesAfter no (a ++ b) F = (filesAfter no a F).bind (filesAfter no b) := by
  induction a generalizing F with
  | nil => rfl
  | cons e a ih =>
    show (filesStep no F e).bind _ = ((filesStep no F e).bind _).bind _
    cases filesStep no F e with
    | none => rfl
    | some F' => exact ih F'

theorem held_fold_none (l : List OEv) : l.foldl heldStep none = none := by
  induction l with
  | nil => rfl
  | cons e l ih =>
    have : heldStep none e = none := by unfold heldStep; split <;> rfl
    rw [List.foldl_cons, this]; exact ih

theorem filesAfter_held (no : Nat → Nat) (o : OutReq) {l : List OEv} (hl : .closeOut ∉ l) {F : Files} {H : List Nat} (h : l.foldl heldStep (some F.fds) = some H) :
    filesAfter no (l.flatMap (outEv o)) F = some { F with fds := H } := by
  induction l generalizing F with
  | nil => cases h; rfl
  | cons e l ih =>
    have hl' : OEv.closeOut ∉ l := fun hm => hl (List.mem_cons_of_mem _ hm)
    rw [List.foldl_cons] at h
    rw [List.flatMap_cons, filesAfter_append]
    have hstep : ∀ X, heldStep (some F.fds) e = some X → filesAfter no (outEv o e) F = some { F with fds := X } := by
      intro X hX
      cases e with
      | alloc => cases hX; rfl
      | opened p fd =>
        cases fd with
        | none => cases hX; rfl
        | some fd => cases hX; rfl
      | closed fd =>
        simp only [heldStep, Option.bind_some] at hX
        split at hX
        · rename_i hm
          cases hX
          simp [outEv, filesAfter, filesStep, hm]
        · cases hX
      | closeOut => exact absurd (List.mem_cons_self ..) hl
    cases hX : heldStep (some F.fds) e with
    | none => rw [hX, held_fold_none] at h; cases h
    | some X =>
      rw [hstep X hX]
      rw [hX] at h
      exact ih hl' (F := { F with fds := X }) h

theorem addUlog_pre (w : OWorld) (n : Bytes) (s : OSt) : s.evs <+: (addUlog w n s).2.evs := by
  have h : ∀ l, s.evs <+: s.evs ++ l := fun l => List.prefix_append ..
  unfold addUlog devCreate devOpen devDestroy OSt.note
  dsimp only
  repeat' split
  all_goals try simp_all
  all_goals grind

theorem addKlog_pre (w : OWorld) (s : OSt) : s.evs <+: (addKlog w s).2.evs := by
  have h : ∀ l, s.evs <+: s.evs ++ l := fun l => List.prefix_append ..
  unfold addKlog devCreate devOpen devDestroy OSt.note
  dsimp only
  repeat' split
  all_goals try simp_all
  all_goals grind

theorem addLines_pre (w : OWorld) (n : Nat) (f : Bytes) (s : OSt) : s.evs <+: (addLines w n f s).2.evs := by
  induction n generalizing f s with
  | zero => exact List.prefix_refl _
  | succ n ih =>
    unfold addLines
    dsimp only
    split
    · exact List.prefix_refl _
    · split
      · exact ih _ _
      · split
        · exact ih _ _
        · split
          · exact (addUlog_pre w _ s).trans (ih _ _)
          · exact addUlog_pre w _ s

theorem addNames_pre (w : OWorld) (ns : List Bytes) (s : OSt) : s.evs <+: (addNames w ns s).2.evs := by
  induction ns generalizing s with
  | nil => exact List.prefix_refl _
  | cons n ns ih =>
    unfold addNames
    split
    · exact ih _
    · split
      · exact (addUlog_pre w _ s).trans (ih _)
      · exact addUlog_pre w _ s

theorem openAll_pre (w : OWorld) (u : Bool) (s : OSt) : s.evs <+: (openAll w u s).2.evs := by
  unfold openAll addAll
  split
  · split
    · exact addLines_pre ..
    · exact addUlog_pre ..
  · exact List.prefix_refl _

theorem openKlog_pre (w : OWorld) (k : Bool) (s : OSt) : s.evs <+: (openKlog w k s).2.evs := by
  unfold openKlog
  split
  · split
    · exact addKlog_pre ..
    · exact (addKlog_pre w s).trans (addUlog_pre ..)
  · exact List.prefix_refl _

theorem openDevs_pre (w : OWorld) (u k : Bool) (ns : List Bytes) (s : OSt) : s.evs <+: (openDevs w u k ns s).2.evs := by
  unfold openDevs
  split
  · split
    · exact ((addNames_pre w ns s).trans (openAll_pre ..)).trans (openKlog_pre ..)
    · exact (addNames_pre w ns s).trans (openAll_pre ..)
  · exact addNames_pre ..

theorem openMem_pre (w : OWorld) (n : Nat) (s : OSt) : s.evs <+: (openMem w n s).2.evs := by
  induction n generalizing s with
  | zero => exact List.prefix_refl _
  | succ n ih =>
    unfold openMem
    split
    · exact List.prefix_append ..
    · exact List.IsPrefix.trans (List.prefix_append s.evs [OEv.alloc]) (ih (s.note .alloc))

/-- The events of a use, up to its end. -/
theorem use_shape {w : OWorld} (hw : Fresh w) (ulog klog : Bool) (names : List Bytes) {evs : List OEv} {H : List Nat}
    (hH : held evs = some H) (hn : H.Nodup) (hm : w.noMem (evs ++ [.alloc]) = false) :
    ∃ l, allEvs w ulog klog names evs = evs ++ [.alloc] ++ l ++ [.closeOut] ∧
      .closeOut ∉ l ∧ l.foldl heldStep (some H) = some H := by
  have h1 := C66_open hw ulog klog names hH hn
  have hpre : ∃ s : OSt, allEvs w ulog klog names evs = ulogClose s ∧ evs ++ [.alloc] <+: s.evs := by
    unfold allEvs ulogOpen
    rw [if_neg (by rw [hm]; simp)]
    dsimp only
    have hp := openDevs_pre w ulog klog names { evs := evs ++ [.alloc], devs := [], count := 0, ulogs := 0 }
    split
    · rename_i s hs
      split at hs
      · cases hs
      · split at hs
        · cases hs
        · split at hs
          · cases hs; exact ⟨_, rfl, hp.trans (openMem_pre ..)⟩
          · cases hs
    · rename_i e hs
      split at hs
      · cases hs; exact ⟨_, rfl, hp⟩
      · split at hs
        · cases hs; exact ⟨_, rfl, hp⟩
        · split at hs
          · cases hs
          · cases hs; exact ⟨_, rfl, hp.trans (openMem_pre ..)⟩
  obtain ⟨s, hs, m, hpre⟩ := hpre
  have hall : held (allEvs w ulog klog names evs) = some H ∧ outClosed (allEvs w ulog klog names evs) = outClosed evs + 1 := by
    unfold allEvs
    cases ho : ulogOpen w ulog klog names evs with
    | error e => rw [ho] at h1; dsimp only at h1 ⊢; rw [hm] at h1; exact h1
    | ok s =>
      rw [ho] at h1
      obtain ⟨_, _, _, _, _, _, h2, h3⟩ := h1
      refine ⟨h3, ?_⟩
      dsimp only
      unfold ulogClose
      rw [outClosed_append, outClosed_append, h2]
      have : outClosed (s.devs.map fun d => .closed d.fd) = 0 := by
        unfold outClosed; rw [List.countP_eq_zero]; intro a ha; obtain ⟨b, _, rfl⟩ := List.mem_map.mp ha; simp
      rw [this]; simp [outClosed]
  have he : allEvs w ulog klog names evs = evs ++ [.alloc] ++ (m ++ s.devs.map fun d => .closed d.fd) ++ [.closeOut] := by
    rw [hs]; unfold ulogClose; rw [← hpre]; simp
  refine ⟨_, he, ?_, ?_⟩
  · have h2 := hall.2
    rw [he, outClosed_append, outClosed_append, outClosed_append] at h2
    have h3 : outClosed ([.closeOut] : List OEv) = 1 := by decide
    have h4 : outClosed (m ++ s.devs.map fun d => .closed d.fd) = 0 := by omega
    intro hc
    unfold outClosed at h4
    rw [List.countP_eq_zero] at h4
    exact h4 _ hc (by simp)
  · have h2 := hall.1
    have h3 : held (evs ++ [.alloc]) = some H := by rw [held_append, hH]; rfl
    rw [he, held_append] at h2
    unfold held at h2 h3
    rw [List.foldl_append, h3] at h2
    exact h2

/-- A context that is opened and closed leaves the descriptors and streams of the process as
they were, but for the output of the caller: its descriptor and its stream are closed, both
if both are given, standard output if none is. -/
theorem C67_output {w : OWorld} (hw : Fresh w) (o : OutReq) (ulog klog : Bool) (names : List Bytes) {evs : List OEv} {F : Files} {no : Nat → Nat}
    (hH : held evs = some F.fds) (hn : F.fds.Nodup) (hm : w.noMem (evs ++ [.alloc]) = false)
    (hfd : 0 ≤ o.fd → o.fd.toNat ∈ F.fds) (hfp : ∀ fp, o.fp = some fp → fp ∈ F.fps ∧ no fp ∈ F.fds ∧ (no fp : Int) ≠ o.fd)
    (hstd : o.fd < 0 → o.fp = none → 0 ∈ F.fps ∧ no 0 ∈ F.fds) :
    filesAfter no (useCtx w o ulog klog names evs) F = some
      (match o.fp with
        | some fp => { fds := (dropFd o.fd F.fds).erase (no fp), fps := F.fps.erase fp }
        | none => if o.fd < 0 then { fds := F.fds.erase (no 0), fps := F.fps.erase 0 } else { F with fds := F.fds.erase o.fd.toNat }) := by
  obtain ⟨l, hl, hc, hf⟩ := use_shape hw ulog klog names hH hn hm
  unfold useCtx
  rw [hm, hl]
  have hd : (evs ++ [OEv.alloc] ++ l ++ [OEv.closeOut]).drop (evs.length + 1) = l ++ [OEv.closeOut] := by
    rw [List.append_assoc, List.drop_append_of_le_length (by simp), List.drop_of_length_le (by simp), List.nil_append]
  rw [hd, List.flatMap_append]
  simp only [Bool.false_eq_true, if_false, List.flatMap_cons, List.flatMap_nil, List.append_nil, List.cons_append]
  show filesAfter no (outBegin o ++ _) F = _
  have hb : filesAfter no (outBegin o) F = some F := by
    unfold outBegin outOf3
    split
    · rename_i h1
      simp [filesAfter, filesStep, (hstd h1.1 h1.2).1]
    · cases hp : o.fp with
      | none => rfl
      | some fp => simp [filesAfter, filesStep, (hfp fp hp).1]
  rw [filesAfter_append, hb, Option.bind_some, filesAfter_append, filesAfter_held no o hc hf, Option.bind_some]
  show filesAfter no (outEnd o) F = _
  unfold outEnd outOf3 dropFd
  cases hp : o.fp with
  | none =>
    by_cases hneg : o.fd < 0
    · have h0 : ¬ (0 ≤ o.fd) := by omega
      simp [hneg, h0, filesAfter, filesStep, hstd hneg hp]
    · have h0 : 0 ≤ o.fd := by omega
      simp [hneg, h0, hp, filesAfter, filesStep, hfd h0]
  | some fp =>
    obtain ⟨h1, h2, h3⟩ := hfp fp hp
    by_cases hneg : o.fd < 0
    · have h0 : ¬ (0 ≤ o.fd) := by omega
      simp [hneg, h0, hp, filesAfter, filesStep, h1, h2]
    · have h0 : 0 ≤ o.fd := by omega
      have h4 : no fp ∈ F.fds.erase o.fd.toNat := by
        refine (List.mem_erase_of_ne ?_).2 h2
        omega
      simp [hneg, h0, hp, filesAfter, filesStep, h1, h4, hfd h0]

/-- Without memory for the context nothing is closed. -/
theorem C67_nomem {w : OWorld} (o : OutReq) (ulog klog : Bool) (names : List Bytes) {evs : List OEv} (F : Files) (no : Nat → Nat)
    (hm : w.noMem (evs ++ [.alloc]) = true) : filesAfter no (useCtx w o ulog klog names evs) F = some F := by
  unfold useCtx
  rw [hm]
  rfl

/-- So `ulogcat` closes its standard input. -/
theorem C67_stdin {w : OWorld} (hw : Fresh w) (ulog klog : Bool) (names : List Bytes) {evs : List OEv} {no : Nat → Nat}
    (hH : held evs = some [0, 1, 2]) (hm : w.noMem (evs ++ [.alloc]) = false) (hno : no 0 = 1) :
    filesAfter no (useCtx w mainOut ulog klog names evs) { fds := [0, 1, 2], fps := [0] } = some { fds := [2], fps := [] } := by
  rw [C67_output hw mainOut ulog klog names hH (by simp) hm (by simp [mainOut]) (by simp [mainOut, hno]) (by simp [mainOut])]
  simp [mainOut, dropFd, hno]

/-- Using standard output once more is not possible: another context made with the defaults uses the
stream after it was closed. -/
theorem C67_false_stdout {w : OWorld} (hw : Fresh w) (ulog klog ulog' klog' : Bool) (names names' : List Bytes) {evs evs' : List OEv} {F : Files} {no : Nat → Nat}
    (hH : held evs = some F.fds) (hn : F.fds.Nodup) (hm : w.noMem (evs ++ [.alloc]) = false) (hm' : w.noMem (evs' ++ [.alloc]) = false)
    (h0 : F.fps.Nodup) (hs : 0 ∈ F.fps) (hf : no 0 ∈ F.fds) :
    filesAfter no (useCtx w (v1Out (-1)) ulog klog names evs ++ useCtx w (v1Out (-1)) ulog' klog' names' evs') F = none := by
  rw [filesAfter_append, C67_output hw (v1Out (-1)) ulog klog names hH hn hm (by simp [v1Out]) (by simp [v1Out]) (fun _ _ => ⟨hs, hf⟩), Option.bind_some]
  have : 0 ∉ F.fps.erase 0 := by rw [h0.mem_erase_iff]; simp
  unfold useCtx
  rw [hm']
  simp [v1Out, outBegin, outOf3, filesAfter, filesStep, this]

/-- Nor may the stream be one of the descriptor given: the descriptor is closed twice. -/
theorem C67_false_same {w : OWorld} (hw : Fresh w) (ulog klog : Bool) (names : List Bytes) {evs : List OEv} {F : Files} {no : Nat → Nat} {fp : Nat}
    (hH : held evs = some F.fds) (hn : F.fds.Nodup) (hm : w.noMem (evs ++ [.alloc]) = false) :
    filesAfter no (useCtx w { fd := no fp, fp := some fp } ulog klog names evs) F = none := by
  obtain ⟨l, hl, hc, hf⟩ := use_shape hw ulog klog names hH hn hm
  unfold useCtx
  rw [hm, hl]
  have hd : (evs ++ [OEv.alloc] ++ l ++ [OEv.closeOut]).drop (evs.length + 1) = l ++ [OEv.closeOut] := by
    rw [List.append_assoc, List.drop_append_of_le_length (by simp), List.drop_of_length_le (by simp), List.nil_append]
  rw [hd, List.flatMap_append]
  have h0 : ¬ ((no fp : Int) < 0) := by omega
  have h1 : no fp ∉ F.fds.erase (no fp) := by rw [hn.mem_erase_iff]; simp
  simp only [Bool.false_eq_true, if_false, List.flatMap_cons, List.flatMap_nil, List.append_nil, List.cons_append]
  show filesAfter no (outBegin _ ++ _) F = _
  by_cases hp : fp ∈ F.fps
  · have hb : filesAfter no (outBegin { fd := no fp, fp := some fp }) F = some F := by simp [outBegin, outOf3, filesAfter, filesStep, hp]
    rw [filesAfter_append, hb, Option.bind_some, filesAfter_append, filesAfter_held no _ hc hf, Option.bind_some]
    by_cases hq : no fp ∈ F.fds
    · simp [outEv, outEnd, outOf3, filesAfter, filesStep, h1, hq]
    · simp [outEv, outEnd, outOf3, filesAfter, filesStep, hq]
  · simp [outBegin, outOf3, filesAfter, filesStep, hp]

end Verif.Ulogcat
