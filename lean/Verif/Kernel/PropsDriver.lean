import Verif.Kernel.Driver

/-!
# The devices of the driver do not act on each other (C120)
-/
namespace Verif.Kernel
open Verif

/-! ## Specification -/

/-- Which device each file is of, from the calls and their results. -/
def owners (who : Nat → Option Bytes) : DOp × DOut → Nat → Option Bytes
  | (.opn nm fid _ _ _, .out .ok) => fun f => if f = fid then some nm else who f
  | (.call (.release fid), _) => fun f => if f = fid then none else who f
  | _ => who

/-- What a call is to the device `nm`. -/
def newCall (nm : Bytes) (who : Nat → Option Bytes) : DOp × DOut → List (Op × Out)
  | (.opn n fid rd wr all, .out .ok) => if n = nm then [(.openF fid rd wr all, .ok)] else []
  | (.call op, .out o) => if who op.fid = some nm then [(op, o)] else []
  | _ => []

def owner (tr : List (DOp × DOut)) : Nat → Option Bytes := tr.foldl owners fun _ => none

/-- The calls on files of the device `nm`, in their order, with the results. -/
def callsOn (nm : Bytes) (tr : List (DOp × DOut)) : List (Op × Out) :=
  (tr.foldl (fun a x => (owners a.1 x, a.2 ++ newCall nm a.1 x)) ((fun _ => none : Nat → Option Bytes), ([] : List (Op × Out)))).2

/-- The names of the devices. -/
def Drv.names (d : Drv) : List Bytes := d.reg.devs.map (·.name)

/-- Supported iterators, and memory for the names of new devices. -/
def DOp.plain : DOp → Bool
  | .add _ g _ => g.name
  | .call op => op.supported
  | _ => true

/-! ## Lists -/

theorem owner_snoc (tr : List (DOp × DOut)) (x : DOp × DOut) : owner (tr ++ [x]) = owners (owner tr) x := by
  unfold owner
  rw [List.foldl_append]
  rfl

theorem callsOn_fst (nm : Bytes) (tr : List (DOp × DOut)) :
    (tr.foldl (fun a x => (owners a.1 x, a.2 ++ newCall nm a.1 x)) ((fun _ => none : Nat → Option Bytes), ([] : List (Op × Out)))).1 = owner tr := by
  unfold owner
  generalize (fun _ => none : Nat → Option Bytes) = w
  generalize ([] : List (Op × Out)) = l
  induction tr generalizing w l with
  | nil => rfl
  | cons x tr ih => exact ih _ _

theorem callsOn_snoc (nm : Bytes) (tr : List (DOp × DOut)) (x : DOp × DOut) :
    callsOn nm (tr ++ [x]) = callsOn nm tr ++ newCall nm (owner tr) x := by
  rw [← callsOn_fst nm]
  unfold callsOn
  rw [List.foldl_append]
  rfl

theorem slotOf_some {nm : Bytes} : ∀ {ls : List Log} {m i : Nat}, slotOf nm (ls.map some ++ List.replicate m none) = some i →
    ∃ l, ls[i]? = some l ∧ l.name = nm := by
  intro ls
  induction ls with
  | nil =>
    intro m
    induction m with
    | zero => intro i h; cases h
    | succ m ih =>
      intro i h
      rw [List.map_nil, List.nil_append, List.replicate_succ] at h
      unfold slotOf at h
      rw [Option.map_eq_some_iff] at h
      obtain ⟨j, hj, _⟩ := h
      obtain ⟨l, hl, _⟩ := ih (i := j) hj
      cases hl
  | cons l ls ih =>
    intro m i h
    rw [List.map_cons, List.cons_append] at h
    unfold slotOf at h
    split at h
    · rename_i hn
      injection h with h
      subst h
      exact ⟨l, rfl, hn⟩
    · rw [Option.map_eq_some_iff] at h
      obtain ⟨j, hj, rfl⟩ := h
      exact ih hj

theorem slotOf_none {nm : Bytes} : ∀ {ls : List Log} {m : Nat}, slotOf nm (ls.map some ++ List.replicate m none) = none →
    ∀ l ∈ ls, l.name ≠ nm := by
  intro ls
  induction ls with
  | nil => intro m _ l hl; cases hl
  | cons l ls ih =>
    intro m h
    rw [List.map_cons, List.cons_append] at h
    unfold slotOf at h
    split at h
    · cases h
    · rename_i hn
      rw [Option.map_eq_none_iff] at h
      intro l' hl'
      rcases List.mem_cons.1 hl' with rfl | hl'
      · exact hn
      · exact ih h l' hl'

theorem fill_new {mem : Nat → UInt8} {x : RLog} {m m' : Nat} (hm : m = m' + 1) : ∀ (ls : List Log),
    fillSlots mem ((ls.map regLog ++ [x]).map some ++ List.replicate m' none) (ls.map some ++ List.replicate m none) =
      (ls ++ [freshLog mem x]).map some ++ List.replicate m' none := by
  intro ls
  induction ls with
  | nil =>
    subst hm
    have hz : ∀ n : Nat, fillSlots mem (List.replicate n none) (List.replicate n none) = List.replicate n none := by
      intro n
      induction n with
      | zero => rfl
      | succ n ih =>
        rw [List.replicate_succ, List.replicate_succ]
        unfold fillSlots
        rw [ih]
        rfl
    show fillSlots mem (some x :: List.replicate m' none) (List.replicate (m' + 1) none) = _
    rw [List.replicate_succ]
    unfold fillSlots
    rw [hz]
    rfl
  | cons l ls ih =>
    show fillSlots mem (some (regLog l) :: ((ls.map regLog ++ [x]).map some ++ List.replicate m' none))
      (some l :: (ls.map some ++ List.replicate m none)) = _
    unfold fillSlots
    rw [ih]
    rfl

theorem get_packed {ls : List Log} {m i : Nat} {l : Log} : (ls.map some ++ List.replicate m none)[i]? = some (some l) ↔ ls[i]? = some l := by
  by_cases h : i < ls.length
  · rw [List.getElem?_append_left (by simpa using h), List.getElem?_map]
    cases ls[i]? <;> simp
  · rw [List.getElem?_append_right (by simp; omega), List.getElem?_eq_none (by omega : ls.length ≤ i)]
    constructor
    · intro h2
      have := List.mem_of_getElem? h2
      have := (List.mem_replicate.1 this).2
      cases this
    · intro h2; cases h2

theorem set_packed {ls : List Log} {m i : Nat} {l : Log} (h : i < ls.length) :
    (ls.map some ++ List.replicate m none).set i (some l) = (ls.set i l).map some ++ List.replicate m none := by
  rw [List.set_append_left _ _ (by simpa using h), List.map_set]

/-! ## One call -/

def Op.releases : Op → Bool
  | .release _ => true
  | _ => false

theorem astep_keeps (a : ASys) (op : Op) : (astep a op).1.log.name = a.log.name ∧
    (∀ f, f ≠ op.fid → (astep a op).1.files f = a.files f) ∧
    (∀ F, a.files op.fid = some F → ((astep a op).1.files op.fid).isSome = !op.releases) := by
  have hw : ∀ l raw t it, (awrite l raw t it).1.name = l.name := by
    intro l raw t it
    unfold awrite
    split
    · rfl
    · split
      · rfl
      · dsimp only
        split <;> split <;> rfl
  cases hF : a.files op.fid with
  | none =>
    cases op
    case openF fid rd wr all =>
      have hF : a.files fid = none := hF
      unfold astep
      dsimp only
      rw [hF]
      dsimp only
      refine ⟨by split <;> rfl, fun f hf => ?_, fun F hF => by cases hF⟩
      have hf : f ≠ fid := hf
      split <;> simp [ASys.setFile, hf]
    all_goals
      unfold astep
      dsimp only at hF ⊢
      rw [hF]
      exact ⟨rfl, fun _ _ => rfl, fun F hF => by cases hF⟩
  | some F0 =>
    have : astep a op = astepFile a op.fid F0 op := by
      unfold astep
      rw [hF]
      cases op <;> rfl
    rw [this]
    unfold astepFile
    cases op <;> dsimp only at hF ⊢ <;> (repeat' split) <;>
      simp [ASys.setFile, ALog.set, hF, hw, Op.releases] <;> (intro f hf h; exact absurd h hf)

theorem rel_keeps {k G : Nat} {s s' : Sys} {a : ASys} {op : Op} {o : Out} (h : Rel k G s a) (hop : op.supported = true)
    (hs : step s op = .ok (s', o)) : s'.log.name = s.log.name ∧ s'.log.size = s.log.size ∧ (∀ f, f ≠ op.fid → s'.files f = s.files f) ∧
    (∀ F, s.files op.fid = some F → (s'.files op.fid).isSome = !op.releases) := by
  obtain ⟨_, G', h'⟩ := h.step hop hs
  obtain ⟨k1, k2, k3⟩ := astep_keeps a op
  refine ⟨by rw [h'.log.name, k1, h.log.name], by rw [h'.log.size, h.log.size], ?_, ?_⟩
  · rw [h'.files, h.files]; exact k2
  · rw [h'.files, h.files]; exact k3

/-! ## The invariant -/

structure DInv (k : Int) (d : Drv) (ls : List Log) (tr : List (DOp × DOut)) : Prop where
  reach : RegReach k true d.reg
  few : ls.length ≤ 16
  slots : d.slots = ls.map some ++ List.replicate (16 - ls.length) none
  owner : ∀ f, owner tr f = match d.files f with | some (i, _) => (ls[i]?).map (·.name) | none => none
  files : ∀ f i F, d.files f = some (i, F) → i < ls.length
  dev : ∀ (i : Nat) l, ls[i]? = some l → ∃ p mem, 14 ≤ p ∧ p ≤ 24 ∧ l.size = 2 ^ p ∧ l.name.length ≤ 15 ∧
    (∀ op ∈ (callsOn l.name tr).map (·.1), op.supported = true) ∧
    run (init l.name p mem) ((callsOn l.name tr).map (·.1)) = .ok (d.view i l, callsOn l.name tr)
  absent : ∀ nm, (∀ l ∈ ls, l.name ≠ nm) → callsOn nm tr = []

theorem DInv.devs {k : Int} {d : Drv} {ls : List Log} {tr : List (DOp × DOut)} (h : DInv k d ls tr) : d.reg.devs = ls.map regLog := by
  have : d.reg.slots = (ls.map regLog).map some ++ List.replicate (16 - ls.length) none := by
    unfold Drv.reg
    rw [h.slots, List.map_append, List.map_map, List.map_map, List.map_replicate]
    rfl
  unfold Reg.devs
  rw [this]
  exact slots_filterMap _ _

theorem DInv.unique {k : Int} {d : Drv} {ls : List Log} {tr : List (DOp × DOut)} (h : DInv k d ls tr) {i j : Nat} {l l' : Log}
    (hi : ls[i]? = some l) (hj : ls[j]? = some l') (hn : l.name = l'.name) : i = j := by
  have hd := (C15_devices h.reach).distinct
  rw [h.devs, List.map_map] at hd
  obtain ⟨i1, i2⟩ := List.getElem?_eq_some_iff.1 hi
  obtain ⟨j1, j2⟩ := List.getElem?_eq_some_iff.1 hj
  refine (List.getElem_inj (h₀ := by simpa using i1) (h₁ := by simpa using j1) hd).1 ?_
  rw [List.getElem_map, List.getElem_map, i2, j2]
  exact hn

/-- A call that reaches a log. -/
theorem dinv_on {k : Int} {d : Drv} {ls : List Log} {tr : List (DOp × DOut)} (h : DInv k d ls tr) {i : Nat} {l : Log} (hi : ls[i]? = some l)
    {op : Op} (hop : op.supported = true) {x : DOp} (hf : d.files op.fid = none ∨ ∃ F, d.files op.fid = some (i, F)) :
    ∃ s o d', step (d.view i l) op = .ok (s, o) ∧ d.on i op = .ok (d', .out o) ∧ d'.reg = d.reg ∧
      ((∀ nm, newCall nm (owner tr) (x, .out o) = if l.name = nm then [(op, o)] else []) →
       (owners (owner tr) (x, .out o) = fun f => if f = op.fid then (s.files f).map (fun _ => l.name) else owner tr f) →
        DInv k d' (ls.set i s.log) (tr ++ [(x, .out o)])) := by
  obtain ⟨p, mem, p1, p2, p3, p4, p5, p6⟩ := h.dev i l hi
  obtain ⟨hil, hie⟩ := List.getElem?_eq_some_iff.1 hi
  obtain ⟨G, c, e, hr⟩ := run_refines _ (init_rel (name := l.name) mem p1 (by omega)) p5
  rw [p6] at e
  injection e with e
  injection e with e1 e2
  rw [← e1] at hr
  obtain ⟨G', s, e3, hr'⟩ := step_refines hr op hop
  obtain ⟨n1, n2, k3, k4⟩ := rel_keeps hr hop e3
  have k1 : s.log.name = l.name := by rw [n1]; rfl
  have k2 : s.log.size = l.size := by rw [n2]; rfl
  clear n1 n2
  have hslot : d.slots[i]? = some (some l) := by rw [h.slots]; exact get_packed.2 hi
  generalize (astep (arun (ainit l.name p) ((callsOn l.name tr).map (·.1))).1 op).2 = o at e3
  have hreg : ({ slots := d.slots.set i (some s.log), files := fun f => if f = op.fid then (s.files f).map fun F => (i, F) else d.files f } : Drv).reg = d.reg := by
    unfold Drv.reg
    dsimp only
    rw [List.map_set]
    congr 1
    refine List.ext_getElem? fun j => ?_
    by_cases hj : j = i
    · subst hj
      rw [List.getElem?_set_self (by rw [List.length_map]; exact (List.getElem?_eq_some_iff.1 hslot).1), List.getElem?_map, hslot]
      simp [regLog, k1, k2]
    · rw [List.getElem?_set_ne (by omega)]
  refine ⟨s, o, { slots := d.slots.set i (some s.log), files := fun f => if f = op.fid then (s.files f).map fun F => (i, F) else d.files f },
    e3, ?_, hreg, ?_⟩
  · unfold Drv.on
    rw [hslot]
    dsimp only
    rw [e3]
  · intro hnew hown
    have hset : ∀ j : Nat, (ls.set i s.log)[j]? = if j = i then some s.log else ls[j]? := by
      intro j
      by_cases hj : j = i
      · subst hj; rw [List.getElem?_set_self hil, if_pos rfl]
      · rw [List.getElem?_set_ne (by omega), if_neg hj]
    have hname : ∀ j : Nat, ((ls.set i s.log)[j]?).map (·.name) = (ls[j]?).map (·.name) := by
      intro j
      rw [hset]
      split
      · rename_i hj; subst hj; rw [hi]; simp [k1]
      · rfl
    constructor
    · rw [hreg]
      exact h.reach
    · rw [List.length_set]; exact h.few
    · dsimp only
      rw [h.slots, set_packed hil, List.length_set]
    · intro f
      rw [owner_snoc, hown]
      dsimp only
      by_cases hfe : f = op.fid
      · rw [if_pos hfe, if_pos hfe]
        cases s.files f with
        | none => rfl
        | some F =>
          show some l.name = ((ls.set i s.log)[i]?).map (·.name)
          rw [hname, hi]
          rfl
      · rw [if_neg hfe, if_neg hfe, h.owner]
        cases d.files f with
        | none => rfl
        | some y => exact (hname y.1).symm
    · intro f j F hF
      rw [List.length_set]
      dsimp only at hF
      by_cases hfe : f = op.fid
      · rw [if_pos hfe, Option.map_eq_some_iff] at hF
        obtain ⟨F', _, hF⟩ := hF
        injection hF with hF _
        omega
      · rw [if_neg hfe] at hF
        exact h.files f j F hF
    · intro j lj hj
      rw [hset] at hj
      rw [callsOn_snoc, hnew]
      by_cases hji : j = i
      · subst hji
        rw [if_pos rfl] at hj
        injection hj with hj
        subst hj
        rw [k1, if_pos rfl, k2]
        refine ⟨p, mem, p1, p2, p3, p4, ?_, ?_⟩
        · intro op' ho
          rw [List.map_append, List.mem_append] at ho
          rcases ho with ho | ho
          · exact p5 _ ho
          · simp at ho; rw [ho]; exact hop
        · rw [List.map_append]
          have := run_snoc (op := op) e3 p6
          rw [show List.map (·.1) [(op, o)] = [op] from rfl, this]
          congr 2
          show s = Sys.mk s.log _
          have : s.files = fun f => match (if f = op.fid then (s.files f).map fun F => (j, F) else d.files f) with
              | some (j', F) => if j' = j then some F else none | none => none := by
            funext f
            by_cases hfe : f = op.fid
            · rw [if_pos hfe]
              cases s.files f with
              | none => rfl
              | some F => simp
            · rw [if_neg hfe, k3 f hfe]
              rfl
          show s = Sys.mk s.log (fun f => match (if f = op.fid then (s.files f).map fun F => (j, F) else d.files f) with
              | some (j', F) => if j' = j then some F else none | none => none)
          rw [← this]
      · rw [if_neg hji] at hj
        have hne : l.name ≠ lj.name := fun hn => hji (h.unique hi hj hn).symm
        rw [if_neg hne, List.append_nil]
        obtain ⟨q, mem', q1, q2, q3, q4, q5, q6⟩ := h.dev j lj hj
        refine ⟨q, mem', q1, q2, q3, q4, q5, ?_⟩
        rw [q6]
        congr 2
        unfold Drv.view
        congr 1
        funext f
        dsimp only
        by_cases hfe : f = op.fid
        · rw [if_pos hfe, hfe]
          rcases hf with hf | ⟨F, hf⟩
          · rw [hf]
            cases s.files op.fid with
            | none => rfl
            | some F => simp [Ne.symm hji]
          · rw [hf]
            cases s.files op.fid with
            | none => simp [Ne.symm hji]
            | some F => simp [Ne.symm hji]
        · rw [if_neg hfe]
    · intro nm hnm
      have hl : l.name ≠ nm := by
        rw [← k1]
        exact hnm _ (List.mem_of_getElem? (i := i) (by rw [hset, if_pos rfl]))
      rw [callsOn_snoc, hnew, if_neg hl, List.append_nil]
      refine h.absent nm fun l' hl' => ?_
      obtain ⟨j, hj⟩ := List.getElem?_of_mem hl'
      by_cases hji : j = i
      · subst hji
        rw [hi] at hj
        injection hj with hj
        rw [← hj]
        exact hl
      · exact hnm _ (List.mem_of_getElem? (i := j) (by rw [hset, if_neg hji]; exact hj))

theorem view_file {d : Drv} {i : Nat} {l : Log} {f : Nat} {F : File} (h : d.files f = some (i, F)) : (d.view i l).files f = some F := by
  unfold Drv.view
  dsimp only
  rw [h]
  simp

/-- What a call that is no call of a log does to the account. -/
theorem DInv.quiet {k : Int} {d : Drv} {ls : List Log} {tr : List (DOp × DOut)} (h : DInv k d ls tr) {x : DOp × DOut}
    (h1 : owners (Kernel.owner tr) x = Kernel.owner tr) (h2 : ∀ nm, newCall nm (Kernel.owner tr) x = []) : DInv k d ls (tr ++ [x]) := by
  have hc : ∀ nm, callsOn nm (tr ++ [x]) = callsOn nm tr := fun nm => by rw [callsOn_snoc, h2, List.append_nil]
  refine ⟨h.reach, h.few, h.slots, ?_, h.files, ?_, ?_⟩
  · intro f; rw [owner_snoc, h1]; exact h.owner f
  · intro i l hl
    rw [hc]
    exact h.dev i l hl
  · intro nm hn
    rw [hc]
    exact h.absent nm hn

/-- One call of the driver. -/
theorem dinv_step {k : Int} {d : Drv} {ls : List Log} {tr : List (DOp × DOut)} (h : DInv k d ls tr) {x : DOp} (hx : x.plain = true) :
    ∃ d' o ls', dstep d x = .ok (d', o) ∧ DInv k d' ls' (tr ++ [(x, o)]) ∧ d.reg.devs <+: d'.reg.devs := by
  cases x with
  | add text g mem =>
    have hnf : (addLog d.reg text g).2 ≠ .fault := by
      intro hf
      have := (C57_fault d.reg text g).1 hf
      simp only [DOp.plain] at hx
      rw [hx] at this
      simp at this
    rcases addLog_cases h.reach.packed text g with ⟨e1, e2⟩ | ⟨word, size, e1, e2, e3, e4, e5, e6, e7, e8, e9, e10, e11⟩
    · refine ⟨d, .added (addLog d.reg text g).2, ls, ?_, h.quiet rfl (fun _ => rfl), List.prefix_refl _⟩
      unfold dstep
      cases hr : addLog d.reg text g with
      | mk r e =>
        rw [hr] at e1 e2 hnf
        dsimp only at e1 e2 hnf ⊢
        cases e with
        | done n => exact absurd rfl (e2 n)
        | fault => exact absurd rfl hnf
        | einval => simp only [hr]
        | enomem => simp only [hr]
    · obtain ⟨hl, hs⟩ := e10.eq
      rw [e11, h.devs] at hs hl
      simp only [List.length_append, List.length_map, List.length_cons, List.length_nil] at hs hl
      have hlen : ls.length < 16 := by rw [h.devs, List.length_map] at e8; exact e8
      let new : Log := freshLog mem { name := word, size := 2 ^ size, buf := true }
      let d' : Drv := { d with slots := fillSlots mem (addLog d.reg text g).1.slots d.slots }
      have hstep : dstep d (.add text g mem) = .ok (d', .added (.done text.length)) := by
        unfold dstep
        cases hr : addLog d.reg text g with
        | mk r e =>
          rw [hr] at e9
          dsimp only at e9
          subst e9
          simp only [hr, d']
      have hslots : d'.slots = (ls ++ [new]).map some ++ List.replicate (16 - (ls ++ [new]).length) none := by
        show fillSlots mem (addLog d.reg text g).1.slots d.slots = _
        rw [hs, h.slots, fill_new (by omega), List.length_append]
        rfl
      have hreg : d'.reg = (addLog d.reg text g).1 := by
        have hsl : d'.reg.slots = (addLog d.reg text g).1.slots := by
          show d'.slots.map (·.map regLog) = _
          rw [hslots, hs, List.map_append, List.map_map, List.map_replicate, List.map_append, List.map_append, List.map_map]
          simp only [List.length_append, List.length_cons, List.length_nil]
          rfl
        calc d'.reg = Reg.mk d'.reg.slots := rfl
          _ = Reg.mk (addLog d.reg text g).1.slots := by rw [hsl]
      have hget : ∀ (i : Nat) l, (ls ++ [new])[i]? = some l → ls[i]? = some l ∨ (i = ls.length ∧ l = new) := by
        intro i l hi
        by_cases hil : i < ls.length
        · rw [List.getElem?_append_left hil] at hi
          exact .inl hi
        · rw [List.getElem?_append_right (by omega)] at hi
          have : i - ls.length = 0 := by
            by_cases h0 : i - ls.length = 0
            · exact h0
            · rw [List.getElem?_eq_none (by simp; omega)] at hi
              cases hi
          rw [this] at hi
          simp at hi
          exact .inr ⟨by omega, hi.symm⟩
      have hfresh : ∀ l ∈ ls, l.name ≠ word := by
        intro l hl hw
        apply e7
        rw [h.devs, List.map_map]
        exact List.mem_map.2 ⟨l, hl, hw⟩
      have hnone : callsOn word tr = [] := h.absent word hfresh
      have hc : ∀ nm, callsOn nm (tr ++ [(.add text g mem, .added (.done text.length))]) = callsOn nm tr := by
        intro nm
        rw [callsOn_snoc]
        exact List.append_nil _
      have hreach : RegReach k true d'.reg := by rw [hreg]; exact .add text g h.reach hnf
      refine ⟨d', _, ls ++ [new], hstep, ⟨hreach, by simp; omega, hslots, ?_, ?_, ?_, ?_⟩, ?_⟩
      · intro f
        rw [owner_snoc]
        show Kernel.owner tr f = match d.files f with | some (i, _) => ((ls ++ [new])[i]?).map (·.name) | none => none
        rw [h.owner]
        cases hf : d.files f with
        | none => rfl
        | some y =>
          obtain ⟨i, F⟩ := y
          have := h.files f i F hf
          show (ls[i]?).map (·.name) = ((ls ++ [new])[i]?).map (·.name)
          rw [List.getElem?_append_left this]
      · intro f i F hf
        have := h.files f i F hf
        rw [List.length_append]
        omega
      · intro i l hi
        rw [hc]
        rcases hget i l hi with hi | ⟨rfl, rfl⟩
        · obtain ⟨p, mem', q⟩ := h.dev i l hi
          exact ⟨p, mem', q⟩
        · have hd := C15_devices hreach
          rw [hreg, e11] at hd
          have hm : ({ name := word, size := 2 ^ size, buf := true } : RLog) ∈ d.reg.devs ++ [{ name := word, size := 2 ^ size, buf := true }] := by simp
          obtain ⟨p, p1, p2, p3⟩ := hd.size _ hm
          have hn := (hd.name _ hm).length
          have hn2 : callsOn new.name tr = [] := hnone
          rw [hn2]
          refine ⟨p, mem, p1, p2, p3, hn.2, nofun, ?_⟩
          show Except.ok (init word p mem, []) = Except.ok (d'.view ls.length new, [])
          congr 2
          unfold init Drv.view
          congr 1
          · show ({ name := word, size := 2 ^ p, buf := mem, wOff := 0, head := 0, dropped := 0, readers := [] } : Log) =
              { name := word, size := 2 ^ size, buf := mem, wOff := 0, head := 0, dropped := 0, readers := [] }
            have p3 : 2 ^ size = 2 ^ p := p3
            rw [p3]
          · funext f
            show none = match d.files f with | some (j, F) => if j = ls.length then some F else none | none => none
            cases hf : d.files f with
            | none => rfl
            | some y =>
              obtain ⟨j, F⟩ := y
              have := h.files f j F hf
              show none = if j = ls.length then some F else none
              rw [if_neg (by omega)]
      · intro nm hn
        rw [hc]
        exact h.absent nm fun l hl => hn l (by simp [hl])
      · rw [hreg, e11]
        exact List.prefix_append _ _
  | list page => exact ⟨d, _, ls, rfl, h.quiet rfl (fun _ => rfl), List.prefix_refl _⟩
  | opn nm fid rd wr all =>
    cases hf : d.files fid with
    | some y =>
      refine ⟨d, .out (.err .ebadf), ls, ?_, h.quiet rfl (fun _ => rfl), List.prefix_refl _⟩
      unfold dstep
      dsimp only
      rw [hf]
    | none =>
      cases hs : slotOf nm d.slots with
      | none =>
        refine ⟨d, .noent, ls, ?_, h.quiet rfl (fun _ => rfl), List.prefix_refl _⟩
        unfold dstep
        dsimp only
        rw [hf]
        dsimp only
        rw [hs]
      | some i =>
        rw [h.slots] at hs
        obtain ⟨l, hl, hn⟩ := slotOf_some hs
        obtain ⟨s, o, d', e1, e2, e3, e4⟩ := dinv_on h hl (op := .openF fid rd wr all) rfl (x := .opn nm fid rd wr all) (.inl hf)
        have hv : (d.view i l).files fid = none := by
          unfold Drv.view
          dsimp only
          rw [hf]
        have ho : o = .ok ∧ s.files fid = some { rd, wr, raw := false } := by
          unfold step at e1
          dsimp only at e1
          rw [hv] at e1
          dsimp only at e1
          split at e1 <;> (injection e1 with e1; injection e1 with e1 e1'; subst e1 e1'; exact ⟨rfl, by simp [Sys.setFile]⟩)
        obtain ⟨rfl, hsf⟩ := ho
        refine ⟨d', _, _, ?_, e4 (fun nm' => ?_) ?_, by rw [e3]; exact List.prefix_refl _⟩
        · unfold dstep
          dsimp only
          rw [hf]
          dsimp only
          rw [h.slots, hs]
          exact e2
        · rw [hn]
          rfl
        · funext f
          show (if f = fid then some nm else Kernel.owner tr f) = if f = fid then (s.files f).map (fun _ => l.name) else Kernel.owner tr f
          by_cases hff : f = fid
          · rw [if_pos hff, if_pos hff, hff, hsf, hn]
            rfl
          · rw [if_neg hff, if_neg hff]
  | call op =>
    have hop : op.supported = true := hx
    cases hf : d.files op.fid with
    | none =>
      have hw : Kernel.owner tr op.fid = none := by rw [h.owner, hf]
      refine ⟨d, .out (.err .ebadf), ls, ?_, h.quiet ?_ (fun nm => ?_), List.prefix_refl _⟩
      · unfold dstep
        dsimp only
        rw [hf]
      · cases op with
        | release fid =>
          funext f
          show (if f = fid then none else Kernel.owner tr f) = Kernel.owner tr f
          split
          · rename_i hff
            rw [hff]
            exact hw.symm
          · rfl
        | _ => rfl
      · show (if Kernel.owner tr op.fid = some nm then _ else _) = _
        rw [hw, if_neg nofun]
    | some y =>
      obtain ⟨i, F⟩ := y
      have hil := h.files _ i F hf
      have hl : ls[i]? = some ls[i] := List.getElem?_eq_getElem hil
      obtain ⟨s, o, d', e1, e2, e3, e4⟩ := dinv_on h hl hop (x := .call op) (.inr ⟨F, hf⟩)
      have hw : Kernel.owner tr op.fid = some ls[i].name := by rw [h.owner, hf]; dsimp only; rw [hl]; rfl
      have hsome : (s.files op.fid).isSome = !op.releases := by
        obtain ⟨p, mem, p1, p2, p3, p4, p5, p6⟩ := h.dev i ls[i] hl
        obtain ⟨G, c, e, hr⟩ := run_refines _ (init_rel (name := ls[i].name) mem p1 (by omega)) p5
        rw [p6] at e
        injection e with e
        injection e with q1 q2
        rw [← q1] at hr
        exact (rel_keeps hr hop e1).2.2.2 F (view_file hf)
      refine ⟨d', _, _, ?_, e4 (fun nm' => ?_) ?_, by rw [e3]; exact List.prefix_refl _⟩
      · unfold dstep
        dsimp only
        rw [hf]
        exact e2
      · show (if Kernel.owner tr op.fid = some nm' then _ else _) = _
        rw [hw]
        simp only [Option.some.injEq]
      · funext f
        have hkeep : op.releases = false → Kernel.owner tr f = if f = op.fid then (s.files f).map (fun _ => ls[i].name) else Kernel.owner tr f := by
          intro hrel
          by_cases hff : f = op.fid
          · rw [if_pos hff, hff, hw]
            rw [hrel] at hsome
            obtain ⟨F', hF'⟩ := Option.isSome_iff_exists.1 hsome
            rw [hF']
            rfl
          · rw [if_neg hff]
        cases op with
        | release fid =>
          show (if f = fid then none else Kernel.owner tr f) = if f = fid then (s.files f).map (fun _ => ls[i].name) else Kernel.owner tr f
          by_cases hff : f = fid
          · rw [if_pos hff, if_pos hff, hff]
            have : s.files fid = none := by
              have : (s.files fid).isSome = false := hsome
              simpa using this
            rw [this]
            rfl
          · rw [if_neg hff, if_neg hff]
        | _ => exact hkeep rfl

theorem dinv_init {k : Int} {register : Bool} {mem : Nat → UInt8} {d : Drv} (h : dinit k register mem = some d) : ∃ ls, DInv k d ls [] := by
  unfold dinit at h
  rw [Option.map_eq_some_iff] at h
  obtain ⟨r, hr, rfl⟩ := h
  have hreach : RegReach k true r := .init register hr
  have hd := C15_devices hreach
  unfold regInit at hr
  split at hr
  · rename_i hc
    injection hr with hr
    subst hr
    let x : RLog := { name := ascii "ulog_main", size := 2 ^ k.toNat, buf := true }
    have hm : x ∈ Reg.devs { slots := some x :: List.replicate (maxLogs - 1) none } := List.mem_cons_self
    obtain ⟨p, p1, p2, p3⟩ := hd.size _ hm
    have hn := (hd.name _ hm).length
    refine ⟨[freshLog mem x], ?_, by simp, rfl, fun _ => rfl, (fun f i F hF => by cases hF), ?_, fun _ _ => rfl⟩
    · exact hreach
    · intro i l hi
      have : i = 0 := by
        by_cases h0 : i = 0
        · exact h0
        · rw [List.getElem?_eq_none (by simp; omega)] at hi; cases hi
      subst this
      simp at hi
      subst hi
      refine ⟨p, mem, p1, p2, p3, hn.2, nofun, ?_⟩
      show Except.ok (init (ascii "ulog_main") p mem, []) = Except.ok (_, [])
      have p3 : 2 ^ k.toNat = 2 ^ p := p3
      congr 2
      unfold init Drv.view freshLog
      dsimp only [x]
      rw [p3]
  · cases hr

theorem dinv_run {k : Int} : ∀ {ops : List DOp} {d : Drv} {ls : List Log} {tr : List (DOp × DOut)}, DInv k d ls tr → (∀ x ∈ ops, x.plain = true) →
    ∃ d' tr' ls', drun d ops = .ok (d', tr') ∧ DInv k d' ls' (tr ++ tr') ∧ d.reg.devs <+: d'.reg.devs ∧ tr'.map (·.1) = ops := by
  intro ops
  induction ops with
  | nil =>
    intro d ls tr h _
    exact ⟨d, [], ls, rfl, by rw [List.append_nil]; exact h, List.prefix_refl _, rfl⟩
  | cons x ops ih =>
    intro d ls tr h hx
    obtain ⟨d1, o, ls1, e1, h1, p1⟩ := dinv_step h (hx x (by simp))
    obtain ⟨d2, tr2, ls2, e2, h2, p2, m2⟩ := ih h1 fun y hy => hx y (by simp [hy])
    refine ⟨d2, (x, o) :: tr2, ls2, ?_, ?_, p1.trans p2, by rw [List.map_cons, m2]⟩
    · unfold drun
      rw [e1]
      simp only [bind, Except.bind, pure, Except.pure]
      rw [e2]
    · rw [List.append_assoc] at h2
      exact h2

/-! ## The property -/

/-- The driver was loaded, and these are all calls and their results since. -/
structure DRun (k : Int) (mem : Nat → UInt8) (ops : List DOp) (d : Drv) (tr : List (DOp × DOut)) : Prop where
  plain : ∀ x ∈ ops, x.plain = true
  run : ∃ register d0, dinit k register mem = some d0 ∧ drun d0 ops = .ok (d, tr)

theorem DRun.inv {k : Int} {mem : Nat → UInt8} {ops : List DOp} {d : Drv} {tr : List (DOp × DOut)} (h : DRun k mem ops d tr) :
    ∃ ls, DInv k d ls tr ∧ tr.map (·.1) = ops := by
  obtain ⟨register, d0, h0, hr⟩ := h.run
  obtain ⟨ls, hi⟩ := dinv_init h0
  obtain ⟨d', tr', ls', e, hi', _, hm⟩ := dinv_run hi h.plain
  rw [hr] at e
  injection e with e
  injection e with e1 e2
  subst e1 e2
  exact ⟨ls', hi', hm⟩

/-- **C120:** no call of the driver faults or hangs, on whatever devices and files. -/
theorem C120_safe {k : Int} {register : Bool} {mem : Nat → UInt8} {d0 : Drv} (h : dinit k register mem = some d0) {ops : List DOp}
    (hx : ∀ x ∈ ops, x.plain = true) : ∃ d tr, DRun k mem ops d tr := by
  obtain ⟨ls, hi⟩ := dinv_init h
  obtain ⟨d', tr', ls', e, _⟩ := dinv_run hi hx
  exact ⟨d', tr', hx, register, d0, h, e⟩

/-- **C120:** each device of the driver is a device alone: the calls on its files, with their
results, are a run of one device of its name and size. -/
theorem C120_device {k : Int} {mem : Nat → UInt8} {ops : List DOp} {d : Drv} {tr : List (DOp × DOut)} (h : DRun k mem ops d tr) {x : RLog}
    (hx : x ∈ d.reg.devs) : ∃ p mem' s, 14 ≤ p ∧ p ≤ 24 ∧ x.size = 2 ^ p ∧
      Kernel.run (init x.name p mem') ((callsOn x.name tr).map (·.1)) = .ok (s, callsOn x.name tr) ∧
      (Genuine (obs x.name (callsOn x.name tr)).hist → (obs x.name (callsOn x.name tr)).hist.length < 2147483648 →
        Run x.name p mem' ((callsOn x.name tr).map (·.1)) s (callsOn x.name tr)) := by
  obtain ⟨ls, hi, _⟩ := h.inv
  rw [hi.devs] at hx
  obtain ⟨l, hl, rfl⟩ := List.mem_map.1 hx
  obtain ⟨i, hil⟩ := List.getElem?_of_mem hl
  obtain ⟨p, mem', p1, p2, p3, p4, p5, p6⟩ := hi.dev i l hil
  exact ⟨p, mem', _, p1, p2, p3, p6, fun g c => ⟨p1, by show l.name.length ≤ 89; omega, p5, p6, g, c⟩⟩

/-- C120: a name that is no device has no calls. -/
theorem C120_absent {k : Int} {mem : Nat → UInt8} {ops : List DOp} {d : Drv} {tr : List (DOp × DOut)} (h : DRun k mem ops d tr) {nm : Bytes}
    (hn : nm ∉ d.names) : callsOn nm tr = [] := by
  obtain ⟨ls, hi, _⟩ := h.inv
  refine hi.absent nm fun l hl hnm => hn ?_
  unfold Drv.names
  rw [hi.devs, List.map_map]
  exact List.mem_map.2 ⟨l, hl, hnm⟩

/-- C120: every call on an open file is a call on the one device that the file was
opened on; other calls on files are refused. -/
theorem C120_files {k : Int} {mem : Nat → UInt8} {ops : List DOp} {d : Drv} {tr : List (DOp × DOut)} (h : DRun k mem ops d tr) {op : Op}
    (hop : op.supported = true) :
    match owner tr op.fid with
    | some nm => nm ∈ d.names ∧ ∃ d' o, dstep d (.call op) = .ok (d', .out o) ∧
        callsOn nm (tr ++ [(.call op, .out o)]) = callsOn nm tr ++ [(op, o)] ∧
        ∀ nm', nm' ≠ nm → callsOn nm' (tr ++ [(.call op, .out o)]) = callsOn nm' tr
    | none => dstep d (.call op) = .ok (d, .out (.err .ebadf)) := by
  obtain ⟨ls, hi, _⟩ := h.inv
  rw [hi.owner]
  cases hf : d.files op.fid with
  | none =>
    dsimp only
    unfold dstep
    dsimp only
    rw [hf]
  | some y =>
    obtain ⟨i, F⟩ := y
    have hil := hi.files _ i F hf
    have hl : ls[i]? = some ls[i] := List.getElem?_eq_getElem hil
    obtain ⟨s, o, d', e1, e2, e3, _⟩ := dinv_on hi hl hop (x := .call op) (.inr ⟨F, hf⟩)
    have hw : owner tr op.fid = some ls[i].name := by rw [hi.owner, hf]; dsimp only; rw [hl]; rfl
    dsimp only
    rw [hl]
    refine ⟨?_, d', o, ?_, ?_, fun nm' hn => ?_⟩
    · unfold Drv.names
      rw [hi.devs, List.map_map]
      exact List.mem_map.2 ⟨_, List.getElem_mem hil, rfl⟩
    · unfold dstep
      dsimp only
      rw [hf]
      exact e2
    · rw [callsOn_snoc]
      show _ ++ (if owner tr op.fid = _ then _ else _) = _
      rw [if_pos hw]
    · rw [callsOn_snoc]
      show _ ++ (if owner tr op.fid = _ then _ else _) = _
      rw [if_neg (by rw [hw]; exact fun e => hn (Option.some.inj e).symm), List.append_nil]

/-- **C120:** what is answered on a device does not depend on the others: two runs of drivers
with the same calls on a device of the same size have the same results there, whatever
else was called. -/
theorem C120_same {k k' : Int} {mem mem' : Nat → UInt8} {ops ops' : List DOp} {d d' : Drv} {tr tr' : List (DOp × DOut)} (h : DRun k mem ops d tr)
    (h' : DRun k' mem' ops' d' tr') {x : RLog} (hx : x ∈ d.reg.devs) (hx' : x ∈ d'.reg.devs)
    (hc : (callsOn x.name tr).map (·.1) = (callsOn x.name tr').map (·.1)) : callsOn x.name tr = callsOn x.name tr' := by
  have key : ∀ {k : Int} {mem : Nat → UInt8} {ops : List DOp} {d : Drv} {tr : List (DOp × DOut)}, DRun k mem ops d tr → x ∈ d.reg.devs →
      ∃ p, x.size = 2 ^ p ∧ callsOn x.name tr = (arun (ainit x.name p) ((callsOn x.name tr).map (·.1))).2 := by
    intro k mem ops d tr h hx
    obtain ⟨ls, hi, _⟩ := h.inv
    rw [hi.devs] at hx
    obtain ⟨l, hl, rfl⟩ := List.mem_map.1 hx
    obtain ⟨i, hil⟩ := List.getElem?_of_mem hl
    obtain ⟨p, mem', p1, p2, p3, p4, p5, p6⟩ := hi.dev i l hil
    obtain ⟨G, c, e, hr⟩ := run_refines _ (init_rel (name := l.name) mem' p1 (by omega)) p5
    rw [p6] at e
    injection e with e
    injection e with q1 q2
    exact ⟨p, p3, q2⟩
  obtain ⟨p, s1, e1⟩ := key h hx
  obtain ⟨p', s2, e2⟩ := key h' hx'
  have hp : p = p' := by
    rw [s1] at s2
    exact (Nat.pow_right_inj (by omega)).1 s2
  subst hp
  rw [e1, e2, hc]

/-- C120: devices stay, with their sizes and in their order, whatever is called later. -/
theorem C120_kept {k : Int} {mem : Nat → UInt8} {ops : List DOp} {d : Drv} {tr : List (DOp × DOut)} (h : DRun k mem ops d tr)
    {later : List DOp} (hl : ∀ x ∈ later, x.plain = true) :
    ∃ d' tr', drun d later = .ok (d', tr') ∧ d.reg.devs <+: d'.reg.devs := by
  obtain ⟨ls, hi, _⟩ := h.inv
  obtain ⟨d', tr', _, e, _, hp, _⟩ := dinv_run hi hl
  exact ⟨d', tr', e, hp⟩

/-- C120: opening by name finds the first slot that holds a device of this name, whatever the
slots before it hold, and nothing exactly if there is none. -/
theorem C120_slot (nm : Bytes) : ∀ l : List (Option Log),
    (slotOf nm l = none ↔ ∀ x, some x ∈ l → x.name ≠ nm) ∧
    ∀ i, slotOf nm l = some i ↔ (∃ x, l[i]? = some (some x) ∧ x.name = nm) ∧ ∀ j x, j < i → l[j]? = some (some x) → x.name ≠ nm := by
  intro l
  induction l with
  | nil => simp [slotOf]
  | cons a t ih =>
    obtain ⟨ih1, ih2⟩ := ih
    have hrest : (∀ x, a = some x → x.name ≠ nm) → slotOf nm (a :: t) = (slotOf nm t).map (· + 1) := by
      intro h
      cases a with
      | none => rfl
      | some x => simp [slotOf, h x rfl]
    by_cases hx : ∃ x, a = some x ∧ x.name = nm
    · obtain ⟨x, rfl, hn⟩ := hx
      have e : slotOf nm (some x :: t) = some 0 := by simp [slotOf, hn]
      rw [e]
      refine ⟨⟨by simp, fun h => absurd hn (h x (by simp))⟩, fun i => ⟨?_, ?_⟩⟩
      · intro h; cases h; exact ⟨⟨x, by simp, hn⟩, by simp⟩
      · rintro ⟨_, h⟩
        cases i with
        | zero => rfl
        | succ i => exact absurd hn (h 0 x (by omega) (by simp))
    · have hx : ∀ x, a = some x → x.name ≠ nm := fun x h1 h2 => hx ⟨x, h1, h2⟩
      rw [hrest hx]
      refine ⟨?_, fun i => ?_⟩
      · simp only [Option.map_eq_none_iff, ih1, List.mem_cons]
        constructor
        · rintro h x (h1 | h1)
          · exact hx x h1.symm
          · exact h x h1
        · intro h x h1; exact h x (.inr h1)
      · cases i with
        | zero =>
          simp only [Option.map_eq_some_iff, List.getElem?_cons_zero]
          constructor
          · rintro ⟨_, _, h⟩; omega
          · rintro ⟨⟨x, h1, h2⟩, _⟩; exact absurd h2 (hx x (by simpa using h1))
        | succ i =>
          have : (slotOf nm t).map (· + 1) = some (i + 1) ↔ slotOf nm t = some i := by cases slotOf nm t <;> simp
          rw [this, ih2]
          simp only [List.getElem?_cons_succ]
          refine and_congr_right fun _ => ⟨fun h j x hj hl => ?_, fun h j x hj hl => ?_⟩
          · cases j with
            | zero => exact hx x (by simpa using hl)
            | succ j => exact h j x (by omega) (by simpa using hl)
          · exact h (j + 1) x (by omega) (by simpa using hl)

end Verif.Kernel
