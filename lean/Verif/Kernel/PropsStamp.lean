import Verif.Kernel.Stamp
import Verif.Kernel.PropsPoll

/-!
# Writers side by side: order and time stamps (C129)
-/
namespace Verif.Kernel
open Verif

/-- The same device with another raw flag on a file. -/
theorem rel_raw {k G : Nat} {s : Sys} {a : ASys} (h : Rel k G s a) {fid : Nat} {f : File} (hf : s.files fid = some f)
    (raw : Bool) : Rel k G (s.setFile fid (some { f with raw := raw })) (a.setFile fid (some { f with raw := raw })) := by
  refine ⟨h.log, ?_, ?_⟩
  · show (fun i => if i = fid then _ else s.files i) = fun i => if i = fid then _ else a.files i
    rw [h.files]
  · intro g
    show (a.log.readers.lookup g).isSome = match (if g = fid then some { f with raw := raw } else a.files g) with
      | some f => f.rd | none => false
    rw [h.rd g]
    by_cases hg : g = fid
    · rw [if_pos hg, hg, ← h.files, hf]
    · rw [if_neg hg]
      cases a.files g <;> rfl

theorem step_write {s : Sys} {fid : Nat} {f : File} (hf : s.files fid = some f) (hw : f.wr = true) (task : Task) (it : Iter)
    (junk : Nat → UInt8) :
    step s (.write fid task it junk) = (writeEntry s.log f.raw task it junk).map fun p => ({ s with log := p.1 }, p.2) := by
  unfold step
  simp only [Op.fid, hf, stepFile, hw, if_true]
  cases writeEntry s.log f.raw task it junk <;> rfl

/-- A write with the flag read before: it works, and the device stays as it should be. -/
theorem write_ok {k G : Nat} {s : Sys} {a : ASys} (h : Rel k G s a) {fid : Nat} {f : File} (hf : s.files fid = some f)
    (hw : f.wr = true) (raw : Bool) {task : Task} {it : Iter} {junk : Nat → UInt8} (hit : it.supported = true) :
    ∃ l o, writeEntry s.log raw task it junk = .ok (l, o) ∧ ∃ G' a', Rel k G' { s with log := l } a' := by
  obtain ⟨G', c, e, hr⟩ := step_refines (rel_raw h hf raw) (.write fid task it junk) hit
  have hff : (s.setFile fid (some { f with raw := raw })).files fid = some { f with raw := raw } := if_pos rfl
  rw [step_write hff hw] at e
  cases hx : writeEntry s.log raw task it junk with
  | error x =>
    have e' : (writeEntry s.log raw task it junk).map (fun p => ({ s.setFile fid (some { f with raw := raw }) with log := p.1 }, p.2)) =
      .ok (c, (astep (a.setFile fid (some { f with raw := raw })) (.write fid task it junk)).2) := e
    rw [hx] at e'
    cases e'
  | ok p =>
    obtain ⟨l, o⟩ := p
    have e' : (writeEntry s.log raw task it junk).map (fun p => ({ s.setFile fid (some { f with raw := raw }) with log := p.1 }, p.2)) =
      .ok (c, (astep (a.setFile fid (some { f with raw := raw })) (.write fid task it junk)).2) := e
    rw [hx] at e'
    have e' : (Except.ok ({ s.setFile fid (some { f with raw := raw }) with log := l }, o) : Except Fault (Sys × Out)) =
      .ok (c, _) := e'
    injection e' with e'
    injection e' with e1 e2
    refine ⟨l, o, rfl, G', ?_⟩
    have hc : c.files fid = some { f with raw := raw } := by rw [← e1]; exact hff
    have := rel_raw hr hc f.raw
    have hs : (c.setFile fid (some { f with raw := f.raw })) = { s with log := l } := by
      rw [← e1]
      unfold Sys.setFile
      simp only [Sys.mk.injEq, true_and]
      funext i
      by_cases hi : i = fid
      · rw [if_pos hi, hi, hf]
      · rw [if_neg hi, if_neg hi]
    rw [hs] at this
    exact ⟨_, this⟩

/-- If the flag is still the same, it is the write call of the device. -/
theorem write_step {s : Sys} {fid : Nat} {f : File} (hf : s.files fid = some f) (hw : f.wr = true) {task : Task} {it : Iter}
    {junk : Nat → UInt8} {l : Log} {o : Out} (h : writeEntry s.log f.raw task it junk = .ok (l, o)) :
    step s (.write fid task it junk) = .ok ({ s with log := l }, o) := by
  rw [step_write hf hw, h]
  rfl

theorem wr_astep {a : ASys} {op : Op} {fid : Nat} {f : File} (hr : a.files fid = some f)
    (hrel : ∀ g, op = .release g → g ≠ fid) :
    ∃ f', (astep a op).1.files fid = some f' ∧ f'.wr = f.wr ∧ ((∀ c v, op ≠ .setRaw fid c v) → f'.raw = f.raw) := by
  have same : ∀ a' : ASys, a'.files fid = a.files fid →
      ∃ f', a'.files fid = some f' ∧ f'.wr = f.wr ∧ ((∀ c v, op ≠ .setRaw fid c v) → f'.raw = f.raw) := by
    intro a' e
    exact ⟨f, by rw [e]; exact hr, rfl, fun _ => rfl⟩
  have hfile : ∀ g f0, g = op.fid → a.files g = some f0 →
      ∃ f', (astepFile a g f0 op).1.files fid = some f' ∧ f'.wr = f.wr ∧ ((∀ c v, op ≠ .setRaw fid c v) → f'.raw = f.raw) := by
    intro g f0 hg hf
    unfold astepFile
    cases op with
    | release x =>
      have hne : x ≠ fid := hrel x rfl
      have hx : x = g := hg.symm
      simp only
      split <;> exact same _ (if_neg (fun e => hne (by omega)))
    | setRaw x cap arg =>
      have hset : ∀ v, ∃ f', (a.setFile g (some { f0 with raw := v })).files fid = some f' ∧ f'.wr = f.wr ∧
          ((∀ c v', Op.setRaw x cap arg ≠ .setRaw fid c v') → f'.raw = f.raw) := by
        intro v
        by_cases hx : fid = g
        · refine ⟨{ f0 with raw := v }, if_pos hx, ?_, ?_⟩
          · rw [← hx, hr] at hf; injection hf with hf; rw [hf]
          · intro hne
            have hgx : g = x := hg
            exact absurd (by rw [hx, hgx]) (hne cap arg)
        · exact same _ (if_neg hx)
      simp only
      (repeat' split) <;> first | exact same _ rfl | exact hset _
    | write x t it junk =>
      simp only
      split <;> exact same _ rfl
    | _ =>
      simp only
      (repeat' split) <;> exact same _ rfl
  unfold astep
  split
  · rename_i x rd wr all hx
    have hne : fid ≠ x := by
      intro e
      rw [e, show a.files x = none from hx] at hr
      cases hr
    split <;> exact same _ (if_neg hne)
  · exact same _ rfl
  · rename_i f0 hf
    exact hfile _ f0 rfl hf

theorem wr_step {k G : Nat} {s s' : Sys} {a : ASys} {op : Op} {o : Out} {fid : Nat} {f : File} (h : Rel k G s a)
    (hop : op.supported = true) (hs : step s op = .ok (s', o)) (hr : s.files fid = some f)
    (hrel : ∀ g, op = .release g → g ≠ fid) :
    ∃ f', s'.files fid = some f' ∧ f'.wr = f.wr ∧ ((∀ c v, op ≠ .setRaw fid c v) → f'.raw = f.raw) := by
  obtain ⟨_, G', h'⟩ := h.step hop hs
  rw [h'.files]
  rw [h.files] at hr
  exact wr_astep hr hrel

/-- How two writes are related, the first having had the mutex before the second. -/
def Before (c d : Call) : Prop :=
  c.ended < d.ended ∧ (c.ended < d.begun → c.stamp ≤ d.stamp) ∧ (c.tid = d.tid → c.ended < d.begun)

structure SInv (q : Bool) (name : Bytes) (k : Nat) (buf : Nat → UInt8) (w : SSys) : Prop where
  rel : ∃ G a, Rel k G w.sys a
  wr : ∀ t fid raw task it junk begun stamp, w.pc t = .ready fid raw task it junk begun stamp →
    it.supported = true ∧ ∃ f, w.sys.files fid = some f ∧ f.wr = true ∧ (q = true → f.raw = raw)
  run : q = true → Kernel.run (init name k buf) (w.tr.map Prod.fst) = .ok (w.sys, w.tr)
  sup : ∀ p ∈ w.tr, p.1.supported = true
  pend : ∀ t fid raw task it junk begun stamp, w.pc t = .ready fid raw task it junk begun stamp →
    begun < w.n ∧ stamp ≤ w.now ∧ (∃ t0, task = stamped t0 stamp) ∧
      ∀ c ∈ w.calls, (c.ended < begun → c.stamp ≤ stamp) ∧ (c.tid = t → c.ended < begun)
  call : ∀ c ∈ w.calls, c.begun < c.ended ∧ c.ended < w.n ∧ c.stamp ≤ w.now ∧ ∃ t0, c.task = stamped t0 c.stamp
  order : w.calls.Pairwise Before

theorem SInv.start {q : Bool} {name : Bytes} {k : Nat} (buf : Nat → UInt8) (hk : 14 ≤ k) (hn : name.length ≤ 89) :
    SInv q name k buf (.start name k buf) := by
  refine ⟨⟨0, ainit name k, init_rel buf hk hn⟩, ?_, fun _ => rfl, ?_, ?_, ?_, .nil⟩
  · intro _ _ _ _ _ _ _ _ h; cases h
  · intro p hp; cases hp
  · intro _ _ _ _ _ _ _ _ h; cases h
  · intro p hp; cases hp

theorem SInv.step {q : Bool} {name : Bytes} {k : Nat} {buf : Nat → UInt8} {w w' : SSys} {t : Tid} {ch : SChoice}
    (h : SInv q name k buf w) (hmay : smay w ch) (hq : q = true → squiet w ch) (hs : sstep t ch w = some w') :
    SInv q name k buf w' := by
  unfold sstep at hs
  split at hs
  · injection hs with hs; subst hs
    refine ⟨h.rel, h.wr, h.run, h.sup, ?_, ?_, h.order⟩
    · intro u fid raw task it junk begun stamp hp
      obtain ⟨h1, h2, h3, h4⟩ := h.pend u fid raw task it junk begun stamp hp
      exact ⟨Nat.lt_succ_of_lt h1, Nat.le_trans h2 (Nat.le_add_right _ _), h3, h4⟩
    · intro c hc
      obtain ⟨h1, h2, h3, h4⟩ := h.call c hc
      exact ⟨h1, Nat.lt_succ_of_lt h2, Nat.le_trans h3 (Nat.le_add_right _ _), h4⟩
  · -- a write is stamped
    rename_i fid task it junk hpc
    split at hs
    · rename_i hc
      simp only [Bool.and_eq_true] at hc
      injection hs with hs; subst hs
      refine ⟨h.rel, ?_, h.run, h.sup, ?_, ?_, h.order⟩
      · intro u fid' raw' task' it' junk' begun' stamp' hp
        have hp' : (if u = t then SPc.ready fid (w.sys.rawFile fid) (stamped task w.now) it junk w.n w.now else w.pc u) =
          .ready fid' raw' task' it' junk' begun' stamp' := hp
        by_cases hut : u = t
        · rw [if_pos hut] at hp'
          cases hp'
          have hw := hc.2
          unfold Sys.writable at hw
          unfold Sys.rawFile
          cases hf : w.sys.files fid with
          | none => rw [hf] at hw; cases hw
          | some f => rw [hf] at hw; exact ⟨hc.1, f, rfl, hw, fun _ => rfl⟩
        · rw [if_neg hut] at hp'
          exact h.wr u fid' raw' task' it' junk' begun' stamp' hp'
      · intro u fid' raw' task' it' junk' begun' stamp' hp
        have hp' : (if u = t then SPc.ready fid (w.sys.rawFile fid) (stamped task w.now) it junk w.n w.now else w.pc u) =
          .ready fid' raw' task' it' junk' begun' stamp' := hp
        by_cases hut : u = t
        · rw [if_pos hut] at hp'
          cases hp'
          refine ⟨Nat.lt_succ_self _, Nat.le_refl _, ⟨task, rfl⟩, ?_⟩
          intro c hc
          exact ⟨fun _ => (h.call c hc).2.2.1, fun _ => (h.call c hc).2.1⟩
        · rw [if_neg hut] at hp'
          obtain ⟨h1, h2, h3, h4⟩ := h.pend u fid' raw' task' it' junk' begun' stamp' hp'
          exact ⟨Nat.lt_succ_of_lt h1, h2, h3, h4⟩
      · intro c hc
        obtain ⟨h1, h2, h3, h4⟩ := h.call c hc
        exact ⟨h1, Nat.lt_succ_of_lt h2, h3, h4⟩
    · cases hs
  · -- it gets the mutex
    rename_i fid raw task it junk begun stamp hpc
    obtain ⟨hit, f, hf, hw, hraw⟩ := h.wr t fid raw task it junk begun stamp hpc
    obtain ⟨hb, hst, htask, hcs⟩ := h.pend t fid raw task it junk begun stamp hpc
    obtain ⟨G, a, hrel⟩ := h.rel
    split at hs
    · rename_i l o hwe
      injection hs with hs; subst hs
      have hpc' : ∀ u p, (if u = t then SPc.idle else w.pc u) = p → p ≠ .idle → u ≠ t ∧ w.pc u = p := by
        intro u p e hp
        by_cases hut : u = t
        · rw [if_pos hut] at e; exact absurd e.symm hp
        · rw [if_neg hut] at e; exact ⟨hut, e⟩
      refine ⟨?_, ?_, ?_, ?_, ?_, ?_, ?_⟩
      · obtain ⟨l', o', e, hx⟩ := write_ok hrel hf hw raw (task := task) (junk := junk) hit
        rw [hwe] at e
        injection e with e
        injection e with e1 e2
        rw [e1]; exact hx
      · intro u fid' raw' task' it' junk' begun' stamp' hp
        obtain ⟨hut, hp'⟩ := hpc' u _ hp (by simp)
        exact h.wr u fid' raw' task' it' junk' begun' stamp' hp'
      · intro e
        have := hraw e
        subst this
        show Kernel.run (init name k buf) ((w.tr ++ [_]).map Prod.fst) = _
        rw [List.map_append]
        exact run_snoc (write_step hf hw hwe) (h.run e)
      · intro p hp
        rcases List.mem_append.mp hp with hp | hp
        · exact h.sup p hp
        · rw [List.mem_singleton.mp hp]; exact hit
      · intro u fid' raw' task' it' junk' begun' stamp' hp
        obtain ⟨hut, hp'⟩ := hpc' u _ hp (by simp)
        obtain ⟨h1, h2, h3, h4⟩ := h.pend u fid' raw' task' it' junk' begun' stamp' hp'
        refine ⟨Nat.lt_succ_of_lt h1, h2, h3, ?_⟩
        intro c hc
        rcases List.mem_append.mp hc with hc | hc
        · exact h4 c hc
        · rw [List.mem_singleton.mp hc]
          exact ⟨fun e => absurd h1 (Nat.lt_asymm e), fun e => absurd e.symm hut⟩
      · intro c hc
        rcases List.mem_append.mp hc with hc | hc
        · obtain ⟨h1, h2, h3, h4⟩ := h.call c hc
          exact ⟨h1, Nat.lt_succ_of_lt h2, h3, h4⟩
        · rw [List.mem_singleton.mp hc]
          exact ⟨hb, Nat.lt_succ_self _, hst, htask⟩
      · show (w.calls ++ [_]).Pairwise Before
        refine List.pairwise_append.mpr ⟨h.order, List.pairwise_singleton _ _, ?_⟩
        intro c hc d hd
        rw [List.mem_singleton.mp hd]
        exact ⟨(h.call c hc).2.1, (hcs c hc).1, (hcs c hc).2⟩
    · cases hs
  · -- another call
    rename_i op hpc
    split at hs
    · cases hs
    · rename_i hnw
      split at hs
      · rename_i s o hst
        injection hs with hs; subst hs
        have hsup : op.supported = true := by cases op <;> first | rfl | exact absurd rfl hnw
        obtain ⟨G, a, hrel⟩ := h.rel
        refine ⟨?_, ?_, ?_, ?_, ?_, ?_, h.order⟩
        · obtain ⟨_, G', h2⟩ := hrel.step hsup hst
          exact ⟨G', _, h2⟩
        · intro u fid raw task it junk begun stamp hp
          obtain ⟨h1, f, hf, hw, hr⟩ := h.wr u fid raw task it junk begun stamp hp
          have hwr : (w.pc u).writing = some fid := by
            have hp' : w.pc u = _ := hp
            rw [hp']; rfl
          obtain ⟨f', hf', hw', hr'⟩ := wr_step hrel hsup hst hf (by
            intro g e hg
            subst e hg
            exact hmay u hwr)
          refine ⟨h1, f', hf', hw'.trans hw, fun e => (hr' ?_).trans (hr e)⟩
          intro c v e'
          subst e'
          exact hq e u hwr
        · intro e
          show Kernel.run (init name k buf) ((w.tr ++ [_]).map Prod.fst) = _
          rw [List.map_append]
          exact run_snoc hst (h.run e)
        · intro p hp
          rcases List.mem_append.mp hp with hp | hp
          · exact h.sup p hp
          · rw [List.mem_singleton.mp hp]; exact hsup
        · intro u fid' raw' task' it' junk' begun' stamp' hp
          obtain ⟨h1, h2, h3, h4⟩ := h.pend u fid' raw' task' it' junk' begun' stamp' hp
          exact ⟨Nat.lt_succ_of_lt h1, h2, h3, h4⟩
        · intro c hc
          obtain ⟨h1, h2, h3, h4⟩ := h.call c hc
          exact ⟨h1, Nat.lt_succ_of_lt h2, h3, h4⟩
      · cases hs
  · cases hs

theorem SReach.inv {q : Bool} {name : Bytes} {k : Nat} {buf : Nat → UInt8} {w : SSys} (hk : 14 ≤ k)
    (hn : name.length ≤ 89) (h : SReach q name k buf w) : SInv q name k buf w := by
  induction h with
  | start => exact SInv.start buf hk hn
  | step t ch _ hm hq hs ih => exact ih.step hm hq hs

/-- **C129.** A write that is under way always gets done: no access outside of the buffers,
even if the raw mode was set meanwhile. -/
theorem C129_safe {q : Bool} {name : Bytes} {k : Nat} {buf : Nat → UInt8} {w : SSys} (hk : 14 ≤ k)
    (hn : name.length ≤ 89) (h : SReach q name k buf w) {t : Tid} (ht : w.pc t ≠ .idle) :
    ∃ w', sstep t .go w = some w' := by
  have hi := h.inv hk hn
  cases hpc : w.pc t with
  | idle => exact absurd hpc ht
  | ready fid raw task it junk begun stamp =>
    obtain ⟨G, a, hrel⟩ := hi.rel
    obtain ⟨hit, f, hf, hw, _⟩ := hi.wr t fid raw task it junk begun stamp hpc
    obtain ⟨l, o, e, _⟩ := write_ok hrel hf hw raw (task := task) (junk := junk) hit
    unfold sstep
    rw [hpc]
    simp only [e]
    exact ⟨_, rfl⟩

/-- **C129.** Unless the raw mode of a file is set while it is written to, whatever threads do
at the same time is what the same calls do one after the other, in the order in which they
had the mutex, with the same results. -/
theorem C129_linear {name : Bytes} {k : Nat} {buf : Nat → UInt8} {w : SSys} (hk : 14 ≤ k)
    (hn : name.length ≤ 89) (h : SReach true name k buf w) :
    run (init name k buf) (w.tr.map Prod.fst) = .ok (w.sys, w.tr) ∧ ∀ p ∈ w.tr, p.1.supported = true :=
  ⟨(h.inv hk hn).run rfl, (h.inv hk hn).sup⟩

/-- **C129.** The writes in `calls`, in the order of the log: the clock was read and the mutex
was held during the call, and the entry has that time. If the first had returned when the
second was called its time is not greater; of two writes by one thread the first had. -/
theorem C129_order {q : Bool} {name : Bytes} {k : Nat} {buf : Nat → UInt8} {w : SSys} (hk : 14 ≤ k)
    (hn : name.length ≤ 89) (h : SReach q name k buf w) :
    (∀ c ∈ w.calls, c.begun < c.ended ∧ c.ended < w.n ∧ c.stamp ≤ w.now ∧
      c.task.sec = UInt32.ofNat (c.stamp / 1000000000) ∧ c.task.nsec = UInt32.ofNat (c.stamp % 1000000000)) ∧
    w.calls.Pairwise fun c d => c.ended < d.ended ∧ (c.ended < d.begun → c.stamp ≤ d.stamp) ∧
      (c.tid = d.tid → c.ended < d.begun ∧ c.stamp ≤ d.stamp) := by
  have hi := h.inv hk hn
  constructor
  · intro c hc
    obtain ⟨h1, h2, h3, t0, h4⟩ := hi.call c hc
    rw [h4]
    exact ⟨h1, h2, h3, rfl, rfl⟩
  · exact hi.order.imp fun h => ⟨h.1, h.2.1, fun e => ⟨h.2.2 e, h.2.1 (h.2.2 e)⟩⟩

/-- The entry a write has put into the log. -/
def Call.entry (c : Call) : Option Entry :=
  match c.out with
  | .ret n => if c.raw then (if n = 0 then none else some (rawSpec c.it.bytes)) else some (plainSpec c.task c.it.bytes)
  | _ => none

theorem obs_other {name : Bytes} {o : Obs} {op : Op} {out : Out} (h : isWriteOp op = false) :
    (obsStep name o (op, out)).hist = o.hist := by
  cases op with
  | write => cases h
  | _ => unfold obsStep; split <;> rename_i e <;> first | rfl | (cases e; done)

/-- **C129.** The entries of the log are those of the writes, in this order. -/
theorem C129_entries {name : Bytes} {k : Nat} {buf : Nat → UInt8} {w : SSys} (hk : 14 ≤ k)
    (hn : name.length ≤ 89) (h : SReach true name k buf w) (hg : Genuine (obs name w.tr).hist)
    (hc : (obs name w.tr).hist.length < 2147483648) :
    Run name k buf (w.tr.map Prod.fst) w.sys w.tr ∧ (obs name w.tr).hist = w.calls.filterMap Call.entry := by
  have hi := h.inv hk hn
  refine ⟨⟨hk, hn, ?_, hi.run rfl, hg, hc⟩, ?_⟩
  · intro op hop
    obtain ⟨p, hp, rfl⟩ := List.mem_map.mp hop
    exact hi.sup p hp
  clear hi
  induction h with
  | start => rfl
  | @step w w' t ch hw hm hq hs ih =>
    have hi := hw.inv hk hn
    have key : ∀ p : Op × Out, w'.tr = w.tr ++ [p] → (obs name w.tr).hist <+: (obs name w'.tr).hist := by
      intro p e
      rw [e]; exact (obs_append_mono name w.tr [p]).1
    unfold sstep at hs
    split at hs
    · injection hs with hs; subst hs; exact ih hg hc
    · split at hs
      · injection hs with hs; subst hs; exact ih hg hc
      · cases hs
    · rename_i fid raw task it junk begun stamp hpc
      split at hs
      · rename_i l o hwe
        injection hs with hs; subst hs
        have hp := key _ rfl
        have hg0 := Genuine.prefix hp hg
        have hc0 := Nat.lt_of_le_of_lt hp.length_le hc
        have hrun : Run name k buf (w.tr.map Prod.fst) w.sys w.tr := by
          refine ⟨hk, hn, ?_, hi.run rfl, hg0, hc0⟩
          intro op hop
          obtain ⟨p, hp, rfl⟩ := List.mem_map.mp hop
          exact hi.sup p hp
        obtain ⟨G, a, hrel, hinv, _⟩ := hrun.abs
        obtain ⟨_, f, hf, _, hraw⟩ := hi.wr t fid raw task it junk begun stamp hpc
        have hr : (obs name w.tr).raw fid = raw := by
          rw [← hraw rfl, hinv.raw fid f (by rw [← hrel.files]; exact hf)]
        show (obs name (w.tr ++ [_])).hist = (w.calls ++ [_]).filterMap Call.entry
        rw [obs_snoc, List.filterMap_append, ← ih hg0 hc0]
        cases o with
        | ret m =>
          unfold obsStep
          simp only [hr, List.filterMap_cons, List.filterMap_nil, Call.entry]
          cases raw with
          | false => simp
          | true =>
            by_cases hm : m = 0
            · simp [hm]
            · simp [hm]
        | _ => simp [obsStep, Call.entry]
      · cases hs
    · rename_i op hpc
      split at hs
      · cases hs
      · rename_i hnw
        split at hs
        · rename_i s o hst
          injection hs with hs; subst hs
          have hsame : (obs name (w.tr ++ [(op, o)])).hist = (obs name w.tr).hist := by
            rw [obs_snoc, obs_other (Bool.eq_false_iff.mpr hnw)]
          have hg' : Genuine (obs name (w.tr ++ [(op, o)])).hist := hg
          have hc' : (obs name (w.tr ++ [(op, o)])).hist.length < 2147483648 := hc
          rw [hsame] at hg' hc'
          exact hsame.trans (ih hg' hc')
        · cases hs
    · cases hs

/-! ## What does not hold -/

def someTask : Task := { pid := 1, tid := 2, sec := 0, nsec := 0, euid := 0, pcomm := [112, 0], tcomm := [116, 0] }

def oneByte : Iter := .ubuf [some 65]

def zeros : Nat → UInt8 := fun _ => 0

theorem write_one {k G : Nat} {s : Sys} {a : ASys} (h : Rel k G s a) {fid : Nat} {f : File} (hf : s.files fid = some f)
    (hw : f.wr = true) (hraw : f.raw = false) (task : Task) :
    ∃ l n, writeEntry s.log false task oneByte zeros = .ok (l, .ret n) := by
  obtain ⟨_, c, e, _⟩ := step_refines h (.write fid task oneByte zeros) rfl
  have hout : ∃ n, (astep a (.write fid task oneByte zeros)).2 = .ret n := by
    have hf' : a.files fid = some f := by rw [← h.files]; exact hf
    unfold astep
    simp only [Op.fid, hf', astepFile, hw, if_true, hraw, awrite, Bool.false_and, Bool.false_eq_true, if_false]
    have hall : ((oneByte.data).take (keepLen false task)).all Option.isSome = true := by
      rw [List.all_eq_true]
      intro x hx
      have := List.mem_of_mem_take hx
      rw [show oneByte.data = [some 65] from rfl] at this
      rw [List.mem_singleton.mp this]; rfl
    rw [if_pos hall]
    exact ⟨_, rfl⟩
  obtain ⟨n, hout⟩ := hout
  rw [step_write hf hw, hout, hraw] at e
  cases hx : writeEntry s.log false task oneByte zeros with
  | error x => rw [hx] at e; cases e
  | ok p =>
    rw [hx] at e
    have e' : (Except.ok ({ s with log := p.1 }, p.2) : Except Fault (Sys × Out)) = .ok (c, .ret n) := e
    injection e' with e'
    injection e' with e1 e2
    exact ⟨p.1, n, by rw [← e2]⟩

/-- One more write by thread 2, thread 1 waiting for the mutex. -/
theorem late_step {name : Bytes} {k : Nat} {buf : Nat → UInt8} (hk : 14 ≤ k) (hn : name.length ≤ 89) {w : SSys}
    (h : SReach true name k buf w) (h2 : w.pc 2 = .idle) (hno : w.now = 1) {f : File} (hf : w.sys.files 0 = some f)
    (hw : f.wr = true) (hraw : f.raw = false) :
    ∃ w' c, SReach true name k buf w' ∧ w'.pc 2 = .idle ∧ w'.now = 1 ∧ w'.sys.files 0 = some f ∧
      (∀ u, u ≠ 2 → w'.pc u = w.pc u) ∧ w'.calls = w.calls ++ [c] ∧ c.stamp = 1 ∧ c.entry.isSome := by
  have hwr : w.sys.writable 0 = true := by unfold Sys.writable; rw [hf]; exact hw
  have hrf : w.sys.rawFile 0 = false := by unfold Sys.rawFile; rw [hf]; exact hraw
  have h1 : sstep 2 (.write 0 someTask oneByte zeros) w = some { w with n := w.n + 1, pc := fun u => if u = 2 then (SPc.ready 0 (w.sys.rawFile 0) (stamped someTask w.now) oneByte zeros w.n w.now) else w.pc u } := by
    unfold sstep
    rw [h2]
    refine if_pos ?_
    rw [hwr]; rfl
  have hr1 := SReach.step 2 (.write 0 someTask oneByte zeros) h (q := true) trivial (fun _ => trivial) h1
  obtain ⟨G, a, hrel⟩ := (h.inv hk hn).rel
  obtain ⟨l, n, e⟩ := write_one hrel hf hw hraw (stamped someTask w.now)
  have h3 : sstep 2 .go { w with n := w.n + 1, pc := fun u => if u = 2 then (SPc.ready 0 (w.sys.rawFile 0) (stamped someTask w.now) oneByte zeros w.n w.now) else w.pc u } = some
      { w with sys := { w.sys with log := l }, n := w.n + 1 + 1
               pc := fun u => if u = 2 then .idle else if u = 2 then (SPc.ready 0 (w.sys.rawFile 0) (stamped someTask w.now) oneByte zeros w.n w.now) else w.pc u
               tr := w.tr ++ [(.write 0 (stamped someTask w.now) oneByte zeros, .ret n)]
               calls := w.calls ++ [{ tid := 2, fid := 0, begun := w.n, stamp := w.now, ended := w.n + 1, task := stamped someTask w.now, it := oneByte, raw := w.sys.rawFile 0, out := .ret n }] } := by
    unfold sstep
    simp only [if_true, hrf, e]
  exact ⟨_, _, SReach.step 2 .go hr1 (q := true) trivial (fun _ => trivial) h3, rfl, hno, hf,
    fun u hu => (if_neg hu).trans (if_neg hu), rfl, hno, by simp [Call.entry, hrf]⟩

/-- C129, false: the entries of a log are in the order of their time stamps. An entry can come
after any number of entries that were stamped later. -/
theorem C129_false_order (m : Nat) {name : Bytes} {k : Nat} (buf : Nat → UInt8) (hk : 14 ≤ k) (hn : name.length ≤ 89) :
    ∃ w cs c, SReach true name k buf w ∧ w.calls = cs ++ [c] ∧ cs.length = m ∧ c.entry.isSome ∧
      ∀ d ∈ cs, d.entry.isSome ∧ c.stamp < d.stamp := by
  have h0 : SReach true name k buf (.start name k buf) := .start
  let f : File := { rd := false, wr := true, raw := false }
  have ho : step (init name k buf) (.openF 0 false true false) = .ok ((init name k buf).setFile 0 (some f), .ok) := rfl
  have s1 : sstep 1 (.other (.openF 0 false true false)) (.start name k buf) = some
      { sys := (init name k buf).setFile 0 (some f), now := 0, n := 1, pc := fun _ => .idle, tr := [(.openF 0 false true false, .ok)], calls := [] } := rfl
  have r1 := SReach.step 1 (.other (.openF 0 false true false)) h0 (q := true) trivial (fun _ => trivial) s1
  have s2 : sstep 1 (.write 0 someTask oneByte zeros) { sys := (init name k buf).setFile 0 (some f), now := 0, n := 1, pc := fun _ => .idle, tr := [(.openF 0 false true false, .ok)], calls := [] } = some
      { sys := (init name k buf).setFile 0 (some f), now := 0, n := 2, pc := fun u => if u = 1 then .ready 0 false (stamped someTask 0) oneByte zeros 1 0 else .idle, tr := [(.openF 0 false true false, .ok)], calls := [] } := rfl
  have r2 := SReach.step 1 (.write 0 someTask oneByte zeros) r1 (q := true) trivial (fun _ => trivial) s2
  have r3 := SReach.step 1 (.tick 1) r2 (q := true) trivial (fun _ => trivial) rfl
  have key : ∀ m, ∃ w, SReach true name k buf w ∧ w.pc 2 = .idle ∧ w.now = 1 ∧ w.sys.files 0 = some f ∧
      w.pc 1 = .ready 0 false (stamped someTask 0) oneByte zeros 1 0 ∧ w.calls.length = m ∧
      ∀ d ∈ w.calls, d.entry.isSome ∧ 0 < d.stamp := by
    intro m
    induction m with
    | zero => exact ⟨_, r3, rfl, rfl, rfl, rfl, rfl, fun d hd => by cases hd⟩
    | succ m ih =>
      obtain ⟨w, a1, a2, a3, a4, a5, a6, a7⟩ := ih
      obtain ⟨w', c, b1, b2, b3, b4, b5, b6, b7, b8⟩ := late_step hk hn a1 a2 a3 a4 rfl rfl
      refine ⟨w', b1, b2, b3, b4, (b5 1 (by decide)).trans a5, by rw [b6]; simp [a6], ?_⟩
      intro d hd
      rw [b6] at hd
      rcases List.mem_append.mp hd with hd | hd
      · exact a7 d hd
      · rw [List.mem_singleton.mp hd]
        exact ⟨b8, by rw [b7]; decide⟩
  obtain ⟨w, a1, a2, a3, a4, a5, a6, a7⟩ := key m
  obtain ⟨G, a, hrel⟩ := (a1.inv hk hn).rel
  obtain ⟨l, n, e⟩ := write_one hrel a4 rfl rfl (stamped someTask 0)
  have h3 : sstep 1 .go w = some { w with
      sys := { w.sys with log := l }, n := w.n + 1
      pc := fun u => if u = 1 then .idle else w.pc u
      tr := w.tr ++ [(.write 0 (stamped someTask 0) oneByte zeros, .ret n)]
      calls := w.calls ++ [{ tid := 1, fid := 0, begun := 1, stamp := 0, ended := w.n, task := stamped someTask 0, it := oneByte, raw := false, out := .ret n }] } := by
    unfold sstep
    rw [a5]
    simp only [e]
  exact ⟨_, w.calls, _, SReach.step 1 .go a1 (q := true) trivial (fun _ => trivial) h3, rfl, a6, rfl, a7⟩

def rdTwo : List Op := [.read 0 0 5000 5000, .read 0 0 5000 5000]

/-- A plain write by thread 1, then setting raw mode and a raw write of 21 bytes by thread 2. -/
def plainW : Op := .write 0 (stamped someTask 0) oneByte zeros
def rawOn : Op := .setRaw 0 true (some 1)
def rawIt : Iter := .ubuf (List.replicate 21 (some 66))
def rawW : Op := .write 0 (stamped someTask 0) rawIt zeros

def rawSched : List (Tid × SChoice) :=
  [(1, .other (.openF 0 true true true)), (1, .write 0 someTask oneByte zeros), (2, .other rawOn),
   (2, .write 0 someTask rawIt zeros), (2, .go), (1, .go)]

def srun : List (Tid × SChoice) → SSys → Option SSys
  | [], w => some w
  | (t, ch) :: l, w => (sstep t ch w).bind (srun l)

def outs (x : Except Fault (Sys × List (Op × Out))) : Option (List Out) :=
  match x with
  | .ok (_, tr) => some (tr.map Prod.snd)
  | .error _ => none

/-- C129, false: any calls at the same time are like the same calls in some order. A write may
still be a plain one after another thread has set raw mode and has written: no order of the
three calls gives a log that reads the same. -/
theorem C129_false_raw : ∃ w, SReach false [97] 14 zeros w ∧ ∀ ops,
    ops ∈ [[plainW, rawOn, rawW], [plainW, rawW, rawOn], [rawOn, plainW, rawW], [rawOn, rawW, plainW], [rawW, plainW, rawOn],
      [rawW, rawOn, plainW]] →
    (outs (run (init [97] 14 zeros) (.openF 0 true true true :: ops ++ rdTwo))).map (List.drop 4) ≠ outs (run w.sys rdTwo) := by
  have key : ∀ (l : List (Tid × SChoice)) (w w' : SSys), (∀ p ∈ l, ∀ f, p.2 ≠ .other (.release f)) →
      SReach false [97] 14 zeros w → srun l w = some w' → SReach false [97] 14 zeros w' := by
    intro l
    induction l with
    | nil => intro w w' _ h e; injection e with e; subst e; exact h
    | cons p l ih =>
      intro w w' hl h e
      obtain ⟨w1, h1, h2⟩ := Option.bind_eq_some_iff.mp e
      refine ih w1 w' (fun q hq => hl q (List.mem_cons_of_mem _ hq)) (.step p.1 p.2 h ?_ (fun e => by cases e) h1) h2
      unfold smay
      split
      · rename_i f e'
        exact absurd e' (hl p List.mem_cons_self f)
      · trivial
  have hd : ((srun rawSched (.start [97] 14 zeros)).map fun w =>
      [[plainW, rawOn, rawW], [plainW, rawW, rawOn], [rawOn, plainW, rawW], [rawOn, rawW, plainW], [rawW, plainW, rawOn],
        [rawW, rawOn, plainW]].all fun ops =>
      decide ((outs (run (init [97] 14 zeros) (.openF 0 true true true :: ops ++ rdTwo))).map (List.drop 4) ≠
        outs (run w.sys rdTwo))) = some true := by decide +kernel
  cases hr : srun rawSched (.start [97] 14 zeros) with
  | none => rw [hr] at hd; cases hd
  | some w =>
    rw [hr, Option.map_some, Option.some.injEq, List.all_eq_true] at hd
    refine ⟨w, key _ _ _ ?_ .start hr, fun ops ho => of_decide_eq_true (hd ops ho)⟩
    intro p hp f e
    simp only [rawSched, List.mem_cons, List.not_mem_nil, or_false] at hp
    rcases hp with rfl | rfl | rfl | rfl | rfl | rfl <;> first | cases e | (unfold rawOn at e; cases e)

end Verif.Kernel
