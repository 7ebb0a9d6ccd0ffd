import Verif.Kernel.LifeRun

/-!
# The driver in memory, from loading to unloading (C124)
-/
namespace Verif.Kernel.Life
open Verif Verif.Kernel
open Verif.Ulogcat.Queue (upd_same upd_other)

/-! ## Specification -/

/-- One life of the module: the size it was loaded with, what was in the memory of
`ulog_main`, and the calls since with their results. -/
structure Lived where
  k : Int
  mem : Nat → UInt8
  calls : List (DOp × DOut)

/-- A call as a call of the driver of C120. -/
def KOp.drv : KOp → Option DOp
  | .add text g => some (.add text { name := g.name.isSome, log := g.log.isSome, buffer := g.buffer.isSome, register := g.register } (junk g.buffer))
  | .list page => some (.list page)
  | .opn nm fid rd wr all _ => some (.opn nm fid rd wr all)
  | .call op => some (.call op)
  | .load .. => none
  | .unload => none

/-- The present life, from the calls and results so far. -/
def life : Option Lived → KOp × KOut → Option Lived
  | _, (.load k _ _ b _ _, .loaded) => some { k, mem := junk b, calls := [] }
  | _, (.unload, .unloaded) => none
  | some L, (op, .drv o) => some (match op.drv with | some x => { L with calls := L.calls ++ [(x, o)] } | none => L)
  | L, _ => L

def now (tr : List (KOp × KOut)) : Option Lived := tr.foldl life none

/-- Which numbers are files open for reading. -/
def reads (w : Nat → Bool) : DOp × DOut → Nat → Bool
  | (.opn _ fid rd _ _, .out .ok) => fun f => if f = fid then rd else w f
  | (.call (.release fid), _) => fun f => if f = fid then false else w f
  | _ => w

def reading (tr : List (DOp × DOut)) : Nat → Bool := tr.foldl reads fun _ => false

/-- No trace of the driver: no memory, no device, no attribute, no file. -/
structure Gone (s : K) : Prop where
  mem : ∀ a, s.mem.obj a = none
  misc : s.misc = []
  attr : s.attr = false
  files : ∀ f, s.files f = none

/-- What the driver holds: three pieces of memory for each device and one for each file
open for reading. -/
def Holds (s : K) (n : Nat) (rds : Nat → Bool) : Prop :=
  ∃ as rs : List Nat, as.Nodup ∧ rs.Nodup ∧ (∀ a, a ∈ as ↔ s.mem.obj a ≠ none) ∧ (∀ f, f ∈ rs ↔ rds f = true) ∧ as.length = 3 * n + rs.length

/-- What loading, unloading and opening answer. -/
def Right : Option Lived → KOp → KOut → Prop
  | none, .load k _ _ b _ _, o => o = if 14 ≤ k ∧ k ≤ 24 ∧ b.isSome then .loaded else .failed
  | some _, .load .., o => o = .busy
  | none, .unload, o => o = .drv .noent
  | some L, .unload, o => ((∀ f, owner L.calls f = none) ∧ o = .unloaded) ∨ ((∃ f, owner L.calls f ≠ none) ∧ o = .busy)
  | none, .call _, o => o = .drv (.out (.err .ebadf))
  | none, _, o => o = .drv .noent
  | some _, .opn _ _ rd _ _ reader, o => (∃ x, o = .drv x) ∨ (o = .enomem ∧ rd = true ∧ reader = none)
  | some _, _, o => ∃ x, o = .drv x

/-- Memory for names is granted; loading is granted all or fails before it holds anything;
the iterators are supported. -/
def KOp.plain : KOp → Prop
  | .load k _ _ b register attr => ¬ (14 ≤ k ∧ k ≤ 24) ∨ (b.isSome = true ∧ register = true ∧ attr = true) ∨ (b = none ∧ register = false)
  | .add _ g => g.name.isSome = true
  | .call op => op.supported = true
  | _ => True

/-! ## The invariant -/

theorem drun_snoc {d0 d d' : Drv} {ops : List DOp} {tr : List (DOp × DOut)} {x : DOp} {o : DOut} (h : drun d0 ops = .ok (d, tr)) (hx : dstep d x = .ok (d', o)) :
    drun d0 (ops ++ [x]) = .ok (d', tr ++ [(x, o)]) := by
  induction ops generalizing d0 tr with
  | nil =>
    unfold drun at h
    injection h with h
    injection h with h1 h2
    subst h1 h2
    rw [List.nil_append]
    unfold drun
    rw [hx]
    rfl
  | cons y ops ih =>
    unfold drun at h
    rw [List.cons_append]
    unfold drun
    cases hy : dstep d0 y with
    | error e => rw [hy] at h; cases h
    | ok p =>
      obtain ⟨d1, o1⟩ := p
      rw [hy] at h
      cases hz : drun d1 ops with
      | error e =>
        have h : (drun d1 ops >>= fun x : Drv × List (DOp × DOut) => (Except.ok (x.1, (y, o1) :: x.2) : Except Fault _)) = .ok (d, tr) := h
        rw [hz] at h
        cases h
      | ok q =>
        obtain ⟨d2, tr2⟩ := q
        have h : (drun d1 ops >>= fun x : Drv × List (DOp × DOut) => (Except.ok (x.1, (y, o1) :: x.2) : Except Fault _)) = .ok (d, tr) := h
        rw [hz] at h
        injection h with h
        injection h with h1 h2
        subst h1 h2
        show (drun d1 (ops ++ [x]) >>= fun x : Drv × List (DOp × DOut) => (Except.ok (x.1, (y, o1) :: x.2) : Except Fault _)) = _
        rw [ih hz]
        rfl

theorem packed_inj {ls ls' : List Log} (h : ls.map some ++ List.replicate (16 - ls.length) none = ls'.map some ++ List.replicate (16 - ls'.length) none) : ls = ls' := by
  have key : ∀ ls : List Log, (ls.map some ++ List.replicate (16 - ls.length) none).filterMap id = ls := by
    intro ls
    rw [List.filterMap_append]
    have h1 : (List.replicate (16 - ls.length) (none : Option Log)).filterMap id = [] := by
      refine List.filterMap_eq_nil_iff.2 fun x hx => ?_
      rw [(List.mem_replicate.1 hx).2]
      rfl
    rw [h1, List.append_nil, List.filterMap_map]
    exact List.filterMap_some
  rw [← key ls, h, key]

/-- The state of a loaded module. -/
structure On (s : K) (L : Lived) (d : Drv) (ls : List Log) (loc : Role → Nat) (fs : List Nat) : Prop where
  inv : DInv L.k d ls L.calls
  rel : KRel s d ls loc fs
  run : DRun L.k L.mem (L.calls.map (·.1)) d L.calls
  rds : ∀ f, reading L.calls f = true ↔ ∃ i F, d.files f = some (i, F) ∧ F.rd = true

def KInv (s : K) : Option Lived → Prop
  | none => Off s
  | some L => ∃ d ls loc fs, On s L d ls loc fs

theorem reading_snoc (tr : List (DOp × DOut)) (x : DOp × DOut) : reading (tr ++ [x]) = reads (reading tr) x := by
  unfold reading
  rw [List.foldl_append]
  rfl

/-- A call of the driver was made. -/
theorem On.next {s s' : K} {L : Lived} {d d' : Drv} {ls ls' : List Log} {loc loc' : Role → Nat} {fs fs' : List Nat} (h : On s L d ls loc fs) {x : DOp} {o : DOut}
    (hp : x.plain = true) (hd : dstep d x = .ok (d', o)) (hr : KRel s' d' ls' loc' fs')
    (hrd : ∀ f, reads (reading L.calls) (x, o) f = true ↔ ∃ i F, d'.files f = some (i, F) ∧ F.rd = true) :
    On s' { L with calls := L.calls ++ [(x, o)] } d' ls' loc' fs' := by
  obtain ⟨d1, o1, ls1, e1, I1, _⟩ := dinv_step h.inv hp
  rw [hd] at e1
  injection e1 with e1
  injection e1 with e1 e2
  subst e1 e2
  have : ls1 = ls' := packed_inj (by rw [← I1.slots, hr.drv])
  subst this
  obtain ⟨reg, d0, h0, hrun⟩ := h.run.run
  refine ⟨I1, hr, ⟨?_, reg, d0, h0, ?_⟩, ?_⟩
  · intro y hy
    dsimp only at hy
    rw [List.map_append, List.mem_append] at hy
    rcases hy with hy | hy
    · exact h.run.plain y hy
    · simp at hy; rw [hy]; exact hp
  · dsimp only
    rw [List.map_append]
    exact drun_snoc hrun hd
  · intro f
    dsimp only
    rw [reading_snoc]
    exact hrd f

/-- A call that leaves the driver as it is. -/
theorem On.still {s : K} {L : Lived} {d : Drv} {ls : List Log} {loc : Role → Nat} {fs : List Nat} (h : On s L d ls loc fs) {x : DOp} {o : DOut}
    (hp : x.plain = true) (hd : dstep d x = .ok (d, o)) (hq : ∀ f, reads (reading L.calls) (x, o) f = reading L.calls f) :
    On s { L with calls := L.calls ++ [(x, o)] } d ls loc fs :=
  h.next hp hd h.rel fun f => by rw [hq]; exact h.rds f

theorem reg_names {ls : List Log} {i : Nat} {l l' : Log} {d : Drv} (hs : d.slots = ls.map some ++ List.replicate (16 - ls.length) none) (hl : ls[i]? = some l)
    {d' : Drv} (hd : d'.slots = d.slots.set i (some l')) (h : d'.reg = d.reg) : l'.name = l.name ∧ l'.size = l.size := by
  have h1 : d'.reg.slots[i]? = d.reg.slots[i]? := by rw [h]
  have h2 : d.slots[i]? = some (some l) := by rw [hs]; exact get_packed.2 hl
  unfold Drv.reg at h1
  dsimp only at h1
  rw [List.getElem?_map, List.getElem?_map, hd, List.getElem?_set_self (List.getElem?_eq_some_iff.1 h2).1, h2] at h1
  simp [regLog] at h1
  exact h1

theorem on_after {d : Drv} {ls : List Log} {i : Nat} {l : Log} {op : Op} {t : Sys} {o : Out} (hs : d.slots = ls.map some ++ List.replicate (16 - ls.length) none)
    (hl : ls[i]? = some l) (ht : step (d.view i l) op = .ok (t, o)) : d.on i op = .ok (after d i op t, .out o) := by
  unfold Drv.on
  rw [show d.slots[i]? = some (some l) by rw [hs]; exact get_packed.2 hl]
  dsimp only
  rw [ht]
  rfl

/-- One call. -/
theorem kinv_step {s : K} {L : Option Lived} (h : KInv s L) {op : KOp} (hsane : Sane s op) (hp : op.plain) :
    ∃ s' o, kstep s op = .ok (s', o) ∧ KInv s' (life L (op, o)) ∧ Right L op o := by
  cases L with
  | none =>
    have h : Off s := h
    cases op with
    | load k main nm b register attr =>
      have hchk : checkBufSize k = true ↔ 14 ≤ k ∧ k ≤ 24 := by unfold checkBufSize; simp
      by_cases hk : 14 ≤ k ∧ k ≤ 24
      · rcases hp with hp | ⟨hp1, rfl, rfl⟩ | ⟨rfl, rfl⟩
        · exact absurd hk hp
        · obtain ⟨p, rfl⟩ := Option.isSome_iff_exists.1 hp1
          obtain ⟨ba, g⟩ := p
          obtain ⟨s', d, loc, ls, e1, e2, R⟩ := sim_load h (hchk.2 hk) hsane
          obtain ⟨ls', I⟩ := dinv_init e2
          have : ls' = ls := packed_inj (by rw [← I.slots, R.drv])
          subst this
          have hdf : ∀ f, d.files f = none := by
            unfold dinit at e2
            rw [Option.map_eq_some_iff] at e2
            obtain ⟨r, _, rfl⟩ := e2
            exact fun _ => rfl
          refine ⟨s', .loaded, e1, ⟨d, ls', loc, [], I, R, ⟨nofun, true, d, e2, rfl⟩, fun f => ?_⟩, ?_⟩
          · constructor
            · intro hf; cases hf
            · rintro ⟨i, F, hF, _⟩; rw [hdf] at hF; cases hF
          · show KOut.loaded = if _ then _ else _
            rw [if_pos ⟨hk.1, hk.2, rfl⟩]
        · obtain ⟨s', e, O⟩ := sim_load_fail h hsane (.inr ⟨rfl, rfl⟩)
          refine ⟨s', .failed, e, O, ?_⟩
          show KOut.failed = if _ then _ else _
          rw [if_neg (by simp)]
      · obtain ⟨s', e, O⟩ := sim_load_fail h hsane (.inl (by cases hc : checkBufSize k with | false => rfl | true => exact absurd (hchk.1 hc) hk))
        refine ⟨s', .failed, e, O, ?_⟩
        show KOut.failed = if _ then _ else _
        rw [if_neg (fun hc => hk ⟨hc.1, hc.2.1⟩)]
    | add text g =>
      refine ⟨s, .drv .noent, ?_, h, rfl⟩
      unfold kstep
      dsimp only
      rw [h.attr]
      rfl
    | list page =>
      refine ⟨s, .drv .noent, ?_, h, rfl⟩
      unfold kstep
      dsimp only
      rw [h.attr]
      rfl
    | opn nm fid rd wr all reader =>
      refine ⟨s, .drv .noent, ?_, h, rfl⟩
      unfold kstep
      dsimp only
      rw [h.files]
      dsimp only
      unfold kopen
      rw [h.misc]
      rfl
    | call op =>
      refine ⟨s, .drv (.out (.err .ebadf)), ?_, h, rfl⟩
      unfold kstep
      dsimp only
      rw [h.files]
    | unload =>
      refine ⟨s, .drv .noent, ?_, h, rfl⟩
      unfold kstep
      dsimp only
      rw [h.mod]
  | some L =>
    obtain ⟨d, ls, loc, fs, hon⟩ := h
    have hrel := hon.rel
    have hinv := hon.inv
    cases op with
    | load k main nm b register attr =>
      refine ⟨s, .busy, ?_, ⟨d, ls, loc, fs, hon⟩, rfl⟩
      unfold kstep
      dsimp only
      rw [hrel.mod]
    | add text g =>
      obtain ⟨s', d', ls', loc', o, e1, e2, R⟩ := sim_add hrel hsane hp
      refine ⟨s', .drv o, e1, ⟨d', ls', loc', fs, hon.next (x := .add text g.bools (junk g.buffer)) hp e2 R fun f => ?_⟩, ⟨o, rfl⟩⟩
      have hdf : d'.files = d.files := by
        rw [dstep_add hrel.drv] at e2
        split at e2
        · injection e2 with e2; injection e2 with e2 _; rw [← e2]
        · split at e2
          · split at e2
            · split at e2
              · split at e2 <;> (injection e2 with e2; injection e2 with e2 _; rw [← e2])
              · cases e2
            · injection e2 with e2; injection e2 with e2 _; rw [← e2]
          · injection e2 with e2; injection e2 with e2 _; rw [← e2]
      rw [hdf]
      exact hon.rds f
    | list page =>
      refine ⟨s, _, sim_list hrel page, ⟨d, ls, loc, fs, hon.still (x := .list page) rfl rfl fun _ => rfl⟩, ⟨_, rfl⟩⟩
    | opn nm fid rd wr all reader =>
      cases hf : d.files fid with
      | some p =>
        refine ⟨s, .drv (.out (.err .ebadf)), ?_, ⟨d, ls, loc, fs, hon.still (x := .opn nm fid rd wr all) rfl ?_ fun _ => rfl⟩, .inl ⟨_, rfl⟩⟩
        · unfold kstep
          dsimp only
          rw [hrel.files, hf]
          rfl
        · unfold dstep
          dsimp only
          rw [hf]
      | none =>
        cases hs : slotOf nm d.slots with
        | none =>
          refine ⟨s, .drv .noent, ?_, ⟨d, ls, loc, fs, hon.still (x := .opn nm fid rd wr all) rfl ?_ fun _ => rfl⟩, .inl ⟨_, rfl⟩⟩
          · unfold kstep
            dsimp only
            rw [hrel.files, hf]
            show kopen s nm fid rd wr all reader = _
            unfold kopen
            rw [hrel.misc, entries_lookup loc nm (16 - ls.length) ls 0, ← hrel.drv, hs]
            rfl
          · unfold dstep
            dsimp only
            rw [hf]
            dsimp only
            rw [hs]
        | some i =>
          have hs' := hs
          rw [hrel.drv] at hs'
          obtain ⟨l, hl, hn⟩ := slotOf_some hs'
          obtain ⟨t, o, _, e1, _⟩ := dinv_on hinv hl (op := .openF fid rd wr all) rfl (x := .opn nm fid rd wr all) (.inl hf)
          have hv : (d.view i l).files fid = none := by
            unfold Drv.view
            dsimp only
            rw [hf]
          have ho : o = .ok := by
            rw [step_open hv] at e1
            injection e1 with e1
            injection e1 with _ e1
            exact e1.symm
          have htf : t.files fid = some { rd, wr, raw := false } := by
            rw [step_open hv] at e1
            injection e1 with e1
            injection e1 with e1 _
            rw [← e1]
            exact if_pos rfl
          subst ho
          rcases sim_open hrel hsane hf hl hs e1 with ⟨h1, h2, h3⟩ | ⟨_, s', loc', h3, R⟩
          · exact ⟨s, .enomem, h3, ⟨d, ls, loc, fs, hon⟩, .inr ⟨rfl, h1, h2⟩⟩
          · refine ⟨s', _, h3, ⟨_, _, loc', _, hon.next (x := .opn nm fid rd wr all) rfl ?_ R fun f => ?_⟩, .inl ⟨_, rfl⟩⟩
            · unfold dstep
              dsimp only
              rw [hf]
              dsimp only
              rw [hs]
              exact on_after hrel.drv hl e1
            · show (if f = fid then rd else reading L.calls f) = true ↔ ∃ j F, (if f = fid then (t.files f).map fun F => (i, F) else d.files f) = some (j, F) ∧ F.rd = true
              by_cases hfe : f = fid
              · rw [if_pos hfe, if_pos hfe, hfe, htf]
                constructor
                · intro hr; exact ⟨i, _, rfl, hr⟩
                · rintro ⟨j, F, e, hr⟩
                  injection e with e
                  injection e with _ e
                  rw [← e] at hr
                  exact hr
              · rw [if_neg hfe, if_neg hfe]
                exact hon.rds f
    | call op =>
      have hop : op.supported = true := hp
      cases hf : d.files op.fid with
      | none =>
        refine ⟨s, .drv (.out (.err .ebadf)), ?_, ⟨d, ls, loc, fs, hon.still (x := .call op) hop ?_ fun f => ?_⟩, ⟨_, rfl⟩⟩
        · unfold kstep
          dsimp only
          rw [hrel.files, hf]
          rfl
        · unfold dstep
          dsimp only
          rw [hf]
        · cases op with
          | release fid =>
            show (if f = fid then false else reading L.calls f) = reading L.calls f
            by_cases hfe : f = fid
            · rw [if_pos hfe]
              cases hr : reading L.calls f with
              | false => rfl
              | true =>
                obtain ⟨i, F, hF, _⟩ := (hon.rds f).1 hr
                have hf : d.files fid = none := hf
                rw [hfe, hf] at hF
                cases hF
            · rw [if_neg hfe]
          | _ => rfl
      | some p =>
        obtain ⟨i, F⟩ := p
        obtain ⟨l, hl⟩ := get_of_lt (hrel.dev _ i F hf)
        obtain ⟨t, o, d', e1, e2, e3, _⟩ := dinv_on hinv hl hop (x := .call op) (.inr ⟨F, hf⟩)
        have e2' := on_after hrel.drv hl e1
        rw [e2] at e2'
        injection e2' with e2'
        injection e2' with e2' _
        subst e2'
        obtain ⟨hn, hz⟩ := reg_names hrel.drv hl (d' := after d i op t) rfl e3
        have hd : dstep d (.call op) = .ok (after d i op t, .out o) := by
          unfold dstep
          dsimp only
          rw [hf]
          exact e2
        by_cases hr : op.releases = true
        · cases op with
          | release fid =>
            have hf : d.files fid = some (i, F) := hf
            obtain ⟨s', h3, R⟩ := sim_release hrel hf hl e1
            have htf : t.files fid = none := by
              rw [step_release (view_file hf)] at e1
              injection e1 with e1
              injection e1 with e1 _
              rw [← e1]
              exact if_pos rfl
            refine ⟨s', _, h3, ⟨_, _, loc, _, hon.next (x := .call (.release fid)) hop hd R fun f => ?_⟩, ⟨_, rfl⟩⟩
            show (if f = fid then false else reading L.calls f) = true ↔ ∃ j F, (if f = fid then (t.files f).map fun F => (i, F) else d.files f) = some (j, F) ∧ F.rd = true
            by_cases hfe : f = fid
            · rw [if_pos hfe, if_pos hfe, hfe, htf]
              constructor
              · intro hr; cases hr
              · rintro ⟨j, F, e, _⟩; cases e
            · rw [if_neg hfe, if_neg hfe]
              exact hon.rds f
          | _ => cases hr
        · have hr : op.releases = false := by simpa using hr
          obtain ⟨s', h3, R⟩ := sim_call hrel hf hl e1 hn hz hr
          have hv : (d.view i l).files op.fid = some F := view_file hf
          have hs' : stepFile (d.view i l) op.fid F op = .ok (t, o) := by
            rw [← e1]
            unfold step
            rw [hv]
            cases op <;> rfl
          obtain ⟨_, raw, htf⟩ := call_keeps hv hr hs'
          refine ⟨s', _, h3, ⟨_, _, loc, _, hon.next (x := .call op) hop hd R fun f => ?_⟩, ⟨_, rfl⟩⟩
          have hq : reads (reading L.calls) (.call op, .out o) f = reading L.calls f := by
            cases op <;> first | rfl | cases hr
          rw [hq, hon.rds f]
          show _ ↔ ∃ j G, (if f = op.fid then (t.files f).map fun F => (i, F) else d.files f) = some (j, G) ∧ G.rd = true
          by_cases hfe : f = op.fid
          · rw [if_pos hfe, hfe, htf, hf]
            constructor
            · rintro ⟨j, G, e, hG⟩
              injection e with e
              injection e with _ e
              rw [← e] at hG
              exact ⟨i, _, rfl, hG⟩
            · rintro ⟨j, G, e, hG⟩
              injection e with e
              injection e with _ e
              rw [← e] at hG
              exact ⟨i, F, rfl, hG⟩
          · rw [if_neg hfe]
    | unload =>
      have hown : ∀ f, owner L.calls f = none ↔ d.files f = none := by
        intro f
        rw [hinv.owner]
        cases hf : d.files f with
        | none => simp
        | some p =>
          obtain ⟨i, F⟩ := p
          obtain ⟨l, hl⟩ := get_of_lt (hrel.dev f i F hf)
          dsimp only
          rw [hl]
          simp
      cases fs with
      | nil =>
        obtain ⟨s', e, O⟩ := sim_unload hrel
        refine ⟨s', .unloaded, e, O, .inl ⟨fun f => (hown f).2 ?_, rfl⟩⟩
        cases hf : d.files f with
        | none => rfl
        | some p => exact absurd ((hrel.opened f).2 (by rw [hf]; nofun)) (by simp)
      | cons f fs =>
        refine ⟨s, .busy, ?_, ⟨d, ls, loc, _, hon⟩, .inr ⟨⟨f, fun hn => (hrel.opened f).1 (by simp) ((hown f).1 hn)⟩, rfl⟩⟩
        unfold kstep
        dsimp only
        rw [hrel.mod]
        dsimp only
        rw [if_neg (by rw [hrel.refs]; nofun)]

theorem kinv_run : ∀ {ops : List KOp} {s : K} {L : Option Lived}, KInv s L → Given s ops → (∀ op ∈ ops, op.plain) →
    ∃ s' tr, krun s ops = .ok (s', tr) ∧ tr.map (·.1) = ops ∧ KInv s' (tr.foldl life L) ∧
      ∀ pre x post, tr = pre ++ x :: post → Right (pre.foldl life L) x.1 x.2 := by
  intro ops
  induction ops with
  | nil => intro s L h _ _; exact ⟨s, [], rfl, rfl, h, fun pre x post e => by simp at e⟩
  | cons op ops ih =>
    intro s L h hg hp
    obtain ⟨s1, o, e1, I1, R1⟩ := kinv_step h hg.1 (hp op (by simp))
    obtain ⟨s2, tr, e2, m2, I2, R2⟩ := ih I1 (hg.2 s1 o e1) fun x hx => hp x (by simp [hx])
    refine ⟨s2, (op, o) :: tr, ?_, by rw [List.map_cons, m2], I2, fun pre x post e => ?_⟩
    · unfold krun
      rw [e1, bok]
      dsimp only
      rw [e2]
      rfl
    · cases pre with
      | nil =>
        simp at e
        rw [← e.1]
        exact R1
      | cons y pre =>
        simp at e
        rw [← e.1]
        exact R2 pre x post e.2

theorem off_none : Off K.none := ⟨fun _ => rfl, rfl, rfl, rfl, fun _ => rfl, rfl⟩

/-! ## The property -/

/-- The calls of the module: what the kernel gives is free memory, and the calls are plain. -/
structure KRun (ops : List KOp) (s : K) (tr : List (KOp × KOut)) : Prop where
  given : Given K.none ops
  plain : ∀ op ∈ ops, op.plain
  run : krun K.none ops = .ok (s, tr)

/-- **C124:** whatever the calls, nothing is touched that is not there, nothing is freed
twice, and the lists of readers stay lists. -/
theorem C124_safe {ops : List KOp} (hg : Given K.none ops) (hp : ∀ op ∈ ops, op.plain) : ∃ s tr, KRun ops s tr := by
  obtain ⟨s, tr, e, _⟩ := kinv_run (L := none) off_none hg hp
  exact ⟨s, tr, hg, hp, e⟩

theorem KRun.inv {ops : List KOp} {s : K} {tr : List (KOp × KOut)} (h : KRun ops s tr) : KInv s (now tr) ∧
    ∀ pre x post, tr = pre ++ x :: post → Right (now pre) x.1 x.2 := by
  obtain ⟨s', tr', e, _, I, R⟩ := kinv_run (L := none) off_none h.given h.plain
  rw [h.run] at e
  injection e with e
  injection e with e1 e2
  subst e1 e2
  exact ⟨I, R⟩

/-- **C124:** in each of its lives the module is the driver of C120: the calls since loading
have the results they have there. -/
theorem C124_driver {ops : List KOp} {s : K} {tr : List (KOp × KOut)} (h : KRun ops s tr) {L : Lived} (hL : now tr = some L) :
    ∃ d, DRun L.k L.mem (L.calls.map (·.1)) d L.calls := by
  have := h.inv.1
  rw [hL] at this
  obtain ⟨d, _, _, _, hon⟩ := this
  exact ⟨d, hon.run⟩

theorem role_list (ls : List Log) (rs : List Nat) : ∃ R : List Role, R.length = 3 * ls.length + rs.length ∧ (rs.Nodup → R.Nodup) ∧
    ∀ x, x ∈ R ↔ (∃ i, i < ls.length ∧ (x = .log i ∨ x = .name i ∨ x = .buf i)) ∨ ∃ f ∈ rs, x = .rdr f := by
  refine ⟨(List.range ls.length).map .log ++ (List.range ls.length).map .name ++ (List.range ls.length).map .buf ++ rs.map .rdr, ?_, ?_, ?_⟩
  · simp; omega
  · intro nd
    have nr : ∀ c : Nat → Role, (∀ a b, c a = c b → a = b) → ((List.range ls.length).map c).Nodup := fun c hc =>
      nodup_map_on (fun a _ b _ e => hc a b e) List.nodup_range
    refine List.nodup_append.2 ⟨List.nodup_append.2 ⟨List.nodup_append.2 ⟨nr _ (fun a b e => by injection e), nr _ (fun a b e => by injection e), ?_⟩,
      nr _ (fun a b e => by injection e), ?_⟩, nodup_map_on (fun a _ b _ e => by injection e) nd, ?_⟩
    · intro a ha b hb e
      obtain ⟨i, _, rfl⟩ := List.mem_map.1 ha
      obtain ⟨j, _, rfl⟩ := List.mem_map.1 hb
      cases e
    · intro a ha b hb e
      obtain ⟨j, _, rfl⟩ := List.mem_map.1 hb
      rcases List.mem_append.1 ha with ha | ha <;> (obtain ⟨i, _, rfl⟩ := List.mem_map.1 ha; cases e)
    · intro a ha b hb e
      obtain ⟨j, _, rfl⟩ := List.mem_map.1 hb
      rcases List.mem_append.1 ha with ha | ha
      · rcases List.mem_append.1 ha with ha | ha <;> (obtain ⟨i, _, rfl⟩ := List.mem_map.1 ha; cases e)
      · obtain ⟨i, _, rfl⟩ := List.mem_map.1 ha; cases e
  · intro x
    simp only [List.mem_append, List.mem_map, List.mem_range]
    constructor
    · rintro (((⟨i, hi, rfl⟩ | ⟨i, hi, rfl⟩) | ⟨i, hi, rfl⟩) | ⟨f, hf, rfl⟩)
      · exact .inl ⟨i, hi, .inl rfl⟩
      · exact .inl ⟨i, hi, .inr (.inl rfl)⟩
      · exact .inl ⟨i, hi, .inr (.inr rfl)⟩
      · exact .inr ⟨f, hf, rfl⟩
    · rintro (⟨i, hi, rfl | rfl | rfl⟩ | ⟨f, hf, rfl⟩)
      · exact .inl (.inl (.inl ⟨i, hi, rfl⟩))
      · exact .inl (.inl (.inr ⟨i, hi, rfl⟩))
      · exact .inl (.inr ⟨i, hi, rfl⟩)
      · exact .inr ⟨f, hf, rfl⟩

/-- **C124:** the memory of the driver is exactly log, name and buffer of each device and a
reader for each file open for reading; nothing leaks. -/
theorem C124_memory {ops : List KOp} {s : K} {tr : List (KOp × KOut)} (h : KRun ops s tr) :
    match now tr with
    | none => Gone s
    | some L => ∀ d, DRun L.k L.mem (L.calls.map (·.1)) d L.calls → Holds s d.names.length (reading L.calls) := by
  have hi := h.inv.1
  cases hL : now tr with
  | none =>
    rw [hL] at hi
    have hi : Off s := hi
    exact ⟨hi.mem, hi.misc, hi.attr, hi.files⟩
  | some L =>
    rw [hL] at hi
    obtain ⟨d, ls, loc, fs, hon⟩ := hi
    intro d' hd'
    have hnames : d'.names.length = ls.length := by
      have e : d' = d := by
        obtain ⟨r1, d1, i1, e1⟩ := hd'.run
        obtain ⟨r2, d2, i2, e2⟩ := hon.run.run
        have : d1 = d2 := by
          have hreg : ∀ r x, dinit L.k r L.mem = some x → dinit L.k true L.mem = some x := by
            intro r x hx
            cases r with
            | true => exact hx
            | false =>
              unfold dinit regInit at hx
              simp at hx
          have := (hreg r1 d1 i1).symm.trans (hreg r2 d2 i2)
          injection this
        subst this
        rw [e1] at e2
        injection e2 with e2
        injection e2
      subst e
      unfold Drv.names
      rw [hon.inv.devs]
      simp
    have hrel := hon.rel
    have hM := hrel.mem
    let rs := fs.filter fun f => reading L.calls f
    have hrs : ∀ f, f ∈ rs ↔ reading L.calls f = true := by
      intro f
      rw [List.mem_filter]
      constructor
      · exact fun hx => hx.2
      · intro hx
        refine ⟨?_, hx⟩
        obtain ⟨i, F, hF, _⟩ := (hon.rds f).1 hx
        rw [hrel.opened, hF]
        nofun
    have hndr : rs.Nodup := hrel.fnodup.filter _
    obtain ⟨R, r1, r2, r3⟩ := role_list ls rs
    have hhas : ∀ x, x ∈ R ↔ Has ls x := by
      intro x
      rw [r3]
      cases x with
      | rdr f =>
        constructor
        · rintro (⟨i, _, e | e | e⟩ | ⟨g, hg, e⟩)
          · cases e
          · cases e
          · cases e
          · injection e with e
            subst e
            obtain ⟨i, F, hF, hr⟩ := (hon.rds f).1 ((hrs f).1 hg)
            obtain ⟨l, hl⟩ := get_of_lt (hrel.dev f i F hF)
            exact ⟨i, l, hl, (hrel.readers i l f hl).2 ⟨F, hF, hr⟩⟩
        · rintro ⟨i, l, hl, hf⟩
          obtain ⟨F, hF, hr⟩ := (hrel.readers i l f hl).1 hf
          exact .inr ⟨f, (hrs f).2 ((hon.rds f).2 ⟨i, F, hF, hr⟩), rfl⟩
      | log i => simp [Has]
      | name i => simp [Has]
      | buf i => simp [Has]
    refine ⟨R.map loc, rs, nodup_map_on (fun x hx y hy e => hM.inj x y ((hhas x).1 hx) ((hhas y).1 hy) e) (r2 hndr), hndr, fun a => ?_, hrs, ?_⟩
    · rw [List.mem_map]
      constructor
      · rintro ⟨x, hx, rfl⟩; exact hM.live ((hhas x).1 hx)
      · intro ha
        obtain ⟨x, hx, e⟩ := hM.only a ha
        exact ⟨x, (hhas x).2 hx, e⟩
    · rw [List.length_map, r1, hnames]

/-- **C124:** loading answers by the size and the memory, unloading by whether a file is
open, and between them only opening can fail for want of memory. -/
theorem C124_results {ops : List KOp} {s : K} {tr : List (KOp × KOut)} (h : KRun ops s tr) {pre post : List (KOp × KOut)} {x : KOp × KOut}
    (e : tr = pre ++ x :: post) : Right (now pre) x.1 x.2 := h.inv.2 pre x post e

/-- **C124:** the module can be unloaded exactly while no file is open; then everything it
had is given back, and it can be loaded again. -/
theorem C124_unload {ops : List KOp} {s : K} {tr : List (KOp × KOut)} (h : KRun ops s tr) {L : Lived} (hL : now tr = some L) :
    ((∃ f, owner L.calls f ≠ none) ∧ kstep s .unload = .ok (s, .busy)) ∨
    ((∀ f, owner L.calls f = none) ∧ ∃ s', kstep s .unload = .ok (s', .unloaded) ∧ Gone s' ∧
      ∀ k main nm b, 14 ≤ k → k ≤ 24 → Sane s' (.load k main nm (some b) true true) → ∃ s'', kstep s' (.load k main nm (some b) true true) = .ok (s'', .loaded)) := by
  have hi := h.inv.1
  rw [hL] at hi
  obtain ⟨d, ls, loc, fs, hon⟩ := hi
  obtain ⟨s', o, e, I, R⟩ := kinv_step (L := some L) (op := .unload) ⟨d, ls, loc, fs, hon⟩ trivial trivial
  rcases R with ⟨R1, rfl⟩ | ⟨R1, rfl⟩
  · refine .inr ⟨R1, s', e, ?_, ?_⟩
    · have I : Off s' := I
      exact ⟨I.mem, I.misc, I.attr, I.files⟩
    · intro k main nm b k1 k2 hs
      obtain ⟨s'', o, e, _, R⟩ := kinv_step (L := none) (s := s') I (op := .load k main nm (some b) true true) hs (.inr (.inl ⟨rfl, rfl, rfl⟩))
      have R : o = if 14 ≤ k ∧ k ≤ 24 ∧ (some b).isSome then .loaded else .failed := R
      rw [if_pos ⟨k1, k2, rfl⟩] at R
      subst R
      exact ⟨s'', e⟩
  · refine .inl ⟨R1, ?_⟩
    have : kstep s .unload = .ok (s, .busy) := by
      unfold kstep
      dsimp only
      rw [hon.rel.mod]
      dsimp only
      refine if_neg fun hz => ?_
      obtain ⟨f, hf⟩ := R1
      rw [hon.inv.owner] at hf
      cases hd : d.files f with
      | none => rw [hd] at hf; exact hf rfl
      | some p =>
        have hm := (hon.rel.opened f).2 (by rw [hd]; nofun)
        have := hon.rel.refs
        rw [hz] at this
        rw [List.length_eq_zero_iff.1 this.symm] at hm
        cases hm
    exact this

/-! ## What does not hold -/

/-- A module loaded with the buffer of `ulog_main` at 6. -/
def startOf (k : Int) (buffer : Option (Nat × (Nat → UInt8))) (register attr : Bool) : KOp := .load k 2 4 buffer register attr

def errOf : Except Fault (K × List (KOp × KOut)) → Option Fault
  | .error e => some e
  | .ok _ => none

/-- **C124, negation:** if `misc_register` fails, loading fails and the buffer of
`ulog_main` is never given back (1115-1117). -/
theorem C124_false_leak : ∃ s, krun K.none [startOf 14 (some (6, fun _ => 0)) false true] = .ok (s, [(startOf 14 (some (6, fun _ => 0)) false true, .failed)]) ∧
    s.mod = none ∧ s.mem.obj 6 ≠ none :=
  ⟨_, rfl, rfl, nofun⟩

/-- **C124, negation:** if `device_create_file` fails, loading fails but `ulog_main` stays
registered, and opening it touches memory of the module that is gone (1120). -/
theorem C124_false_attr : ∀ rd wr all : Bool,
    errOf (krun K.none [startOf 14 (some (6, fun _ => 0)) true false, .opn (ascii "ulog_main") 0 rd wr all (some 8)]) = some .oob := by decide +kernel

/-- **C124, negation:** without memory for the name of a device the null pointer is read
(1045 looks at the other two only). -/
theorem C124_false_name : errOf (krun K.none [startOf 14 (some (6, fun _ => 0)) true true,
    .add (ascii "ulog_x 14") { name := none, log := some 8, buffer := some (10, fun _ => 0), register := true }]) = some .oob := by decide +kernel

/-- **C124, negation:** without memory for the buffer of `ulog_main` loading succeeds and the
first message written is an access through the null pointer (1112 does not check). -/
theorem C124_false_buffer : errOf (krun K.none [startOf 14 none true true, .opn (ascii "ulog_main") 0 false true true none]) = none ∧
    errOf (krun K.none [startOf 14 none true true, .opn (ascii "ulog_main") 0 false true true none,
      .call (.write 0 { pid := 1, tid := 1, sec := 0, nsec := 0, euid := 0, pcomm := [97, 0], tcomm := [97, 0] } (.ubuf [some 65, some 66]) fun _ => 0)]) = some .oob := by decide +kernel

end Verif.Kernel.Life
