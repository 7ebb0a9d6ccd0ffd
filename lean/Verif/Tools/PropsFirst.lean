import Verif.Tools.First
import Verif.Tools.PropsCat

/-!
# C131: the first version of the viewer's interface
-/
namespace Verif.Tools.First
open Verif Verif.Ulogcat Verif.Tools

/-! ## What was asked for -/

/-- The names given, in order. -/
def added (cs : List Call) : List Nat := cs.filterMap fun
  | .add p _ => some p
  | _ => none

/-- Which of the calls of `ulogcat_add_device` got memory. -/
def mems (cs : List Call) : List Bool := cs.filterMap fun
  | .add _ m => some m
  | _ => none

/-- No call of `ulogcat_add_device` was refused memory. -/
def Granted (cs : List Call) : Prop := ∀ m ∈ mems cs, m = true

/-- How often a refusal comes right after a success. -/
def turnsBad : List Bool → Nat
  | true :: false :: l => turnsBad (false :: l) + 1
  | _ :: l => turnsBad l
  | [] => 0

theorem added_snoc (cs : List Call) (c : Call) : added (cs ++ [c]) = added cs ++ added [c] := by
  unfold added; rw [List.filterMap_append]

theorem mems_snoc (cs : List Call) (c : Call) : mems (cs ++ [c]) = mems cs ++ mems [c] := by
  unfold mems; rw [List.filterMap_append]

theorem turnsBad_snoc (l : List Bool) (b : Bool) :
    turnsBad (l ++ [b]) = turnsBad l + if l.getLast? = some true ∧ b = false then 1 else 0 := by
  induction l with
  | nil => cases b <;> rfl
  | cons a l ih =>
    cases l with
    | nil => cases a <;> cases b <;> rfl
    | cons c l =>
      have e : (a :: c :: l).getLast? = (c :: l).getLast? := by simp
      rw [e]
      have step : ∀ t : List Bool, turnsBad (a :: c :: t) = turnsBad (c :: t) + if a = true ∧ c = false then 1 else 0 := by
        intro t
        cases a <;> cases c <;> rfl
      rw [show a :: c :: l ++ [b] = a :: c :: (l ++ [b]) from rfl, step, step]
      have := ih
      rw [show c :: l ++ [b] = c :: (l ++ [b]) from rfl] at this
      omega

variable {σ : Type}

/-! ## What a call leaves alone -/

theorem go_keeps {E : Env σ} {calls fuel : Nat} {o : OSt} {x : Ctx} {h h' : Handle σ} {r : Option Int}
    (e : go E calls fuel o x h = .ok (h', r)) :
    h'.arr = h.arr ∧ h'.n = h.n ∧ h'.opts = h.opts ∧ h'.arrays = h.arrays ∧ ∃ x', h'.ctx = some (o, x') := by
  unfold go at e
  split at e
  · simp only [Except.ok.injEq, Prod.mk.injEq] at e
    rw [← e.1]
    exact ⟨rfl, rfl, rfl, rfl, x, rfl⟩
  · split at e
    · cases e
    · rename_i x' s' r' _
      simp only [Except.ok.injEq, Prod.mk.injEq] at e
      rw [← e.1]
      exact ⟨rfl, rfl, rfl, rfl, x', rfl⟩

theorem process_keeps {E : Env σ} {text : Nat → Option Bytes} {calls fuel : Nat} {h h' : Handle σ} {r : Option Int}
    (e : process E text calls fuel h = .ok (h', r)) :
    h'.arr = h.arr ∧ h'.n = h.n ∧ h'.opts = h.opts ∧ h'.arrays = h.arrays ∧
      ∀ o x, h.ctx = some (o, x) → ∃ x', h'.ctx = some (o, x') := by
  unfold process at e
  split at e
  · rename_i o x hc
    obtain ⟨a, b, c, d, x', f⟩ := go_keeps e
    refine ⟨a, b, c, d, fun o' y hy => ?_⟩
    rw [hc] at hy
    cases hy
    exact ⟨x', f⟩
  · rename_i hc
    have no : ∀ o x, h.ctx = some (o, x) → ∃ x', h'.ctx = some (o, x') := fun o x hx => by rw [hc] at hx; cases hx
    split at e
    · cases e
    · simp only [Except.ok.injEq, Prod.mk.injEq] at e
      rw [← e.1]
      exact ⟨rfl, rfl, rfl, rfl, fun o x hx => ⟨x, hx⟩⟩
    · split at e
      · cases e
      · split at e
        · simp only [Except.ok.injEq, Prod.mk.injEq] at e
          rw [← e.1]
          exact ⟨rfl, rfl, rfl, rfl, fun o x hx => ⟨x, hx⟩⟩
        · obtain ⟨a, b, c, d, _⟩ := go_keeps e
          exact ⟨a, b, c, d, no⟩

/-- The array holds the names given. -/
structure Stored (cs : List Call) (h : Handle σ) : Prop where
  n : h.n = (added cs).length
  arr : h.arr = if added cs = [] then none else some ((added cs).map some)

theorem Ran.stored {E : Env σ} {h0 h : Handle σ} {cs : List Call} {rs : List Int} (H : Ran E h0 cs h rs)
    (h1 : h0.arr = none) (h2 : h0.n = 0) (hg : Granted cs) : Stored cs h := by
  induction H with
  | nil => exact ⟨h2, h1⟩
  | snoc a b ih =>
    rename_i cs h rs c h' r
    have ih := ih (fun m hm => hg m (by rw [mems_snoc]; simp [hm]))
    cases c with
    | add p m =>
      have hm : m = true := hg m (by rw [mems_snoc]; simp [mems])
      subst hm
      simp only [step, Except.ok.injEq, Prod.mk.injEq] at b
      rw [← b.1]
      have e : added (cs ++ [Call.add p true]) = added cs ++ [p] := by rw [added_snoc]; rfl
      unfold addDevice
      rw [if_pos rfl, ih.arr]
      by_cases hn : added cs = []
      · rw [if_pos hn]
        refine ⟨by rw [e]; simp [ih.n], ?_⟩
        rw [e, hn, if_neg (by simp)]
        show some (List.replicate h.n none ++ [some p]) = _
        rw [ih.n, hn]
        rfl
      · rw [if_neg hn]
        refine ⟨by rw [e]; simp [ih.n], ?_⟩
        rw [e, if_neg (by simp)]
        simp
    | process t c f =>
      have e : added (cs ++ [Call.process t c f]) = added cs := by rw [added_snoc]; simp [added]
      obtain ⟨k1, k2, _⟩ := process_keeps b
      exact ⟨by rw [k2, e]; exact ih.n, by rw [k1, e]; exact ih.arr⟩

/-! ## Opening -/

theorem seen_ok {w : OWorld} {text : Nat → Option Bytes} {name : Nat → Bytes} (ps : List Nat)
    (ht : ∀ p ∈ ps, text p = some (name p)) : ∀ s, ∃ names, seen w text (ps.map some) s = .ok names ∧
      addNames w names s = addNames w (ps.map name) s := by
  induction ps with
  | nil => intro s; exact ⟨[], rfl, rfl⟩
  | cons p ps ih =>
    intro s
    have ih := ih fun q hq => ht q (List.mem_cons_of_mem _ hq)
    rw [List.map_cons, seen, ht p List.mem_cons_self]
    dsimp only
    rw [List.map_cons]
    by_cases hk : name p = kmsgdName
    · rw [if_pos hk]
      obtain ⟨names, e1, e2⟩ := ih s
      refine ⟨name p :: names, by rw [e1]; rfl, ?_⟩
      rw [addNames, addNames, if_pos hk, if_pos hk, e2]
    · rw [if_neg hk]
      by_cases ha : (addUlog w (name p) s).1 = true
      · rw [if_pos ha]
        obtain ⟨names, e1, e2⟩ := ih (addUlog w (name p) s).2
        refine ⟨name p :: names, by rw [e1]; rfl, ?_⟩
        rw [addNames, addNames, if_neg hk, if_neg hk, if_pos ha, if_pos ha, e2]
      · rw [if_neg ha]
        refine ⟨[name p], rfl, ?_⟩
        simp only [addNames, if_neg hk, if_neg ha]

theorem ulogOpen_congr {w : OWorld} {ulog klog : Bool} {a b : List Bytes} {evs : List OEv}
    (h : addNames w a { evs := evs ++ [.alloc], devs := [], count := 0, ulogs := 0 } =
      addNames w b { evs := evs ++ [.alloc], devs := [], count := 0, ulogs := 0 }) :
    ulogOpen w ulog klog a evs = ulogOpen w ulog klog b evs := by
  unfold ulogOpen openDevs
  dsimp only
  rw [h]

theorem openFrom_stored {w : OWorld} {text : Nat → Option Bytes} {name : Nat → Bytes} {cs : List Call} {h : Handle σ}
    (S : Stored cs h) (ht : ∀ p ∈ added cs, text p = some (name p)) :
    openFrom w text h = .ok (ulogOpen w true false ((added cs).map name) h.evs) := by
  unfold openFrom
  by_cases hm : w.noMem (h.evs ++ [.alloc]) = true
  · rw [if_pos (Or.inl hm)]
    unfold ulogOpen
    rw [if_pos hm, if_pos hm]
  · by_cases hn : added cs = []
    · rw [if_pos (Or.inr (by rw [S.n, hn]; rfl)), hn]
      rfl
    · rw [if_neg (by
        rintro (h | h)
        · exact hm h
        · rw [S.n] at h; exact hn (List.length_eq_zero_iff.1 h)), S.arr, if_neg hn]
      dsimp only
      rw [S.n, List.take_of_length_le (by simp)]
      obtain ⟨names, e1, e2⟩ := seen_ok (w := w) (added cs) ht { evs := h.evs ++ [.alloc], devs := [], count := 0, ulogs := 0 }
      rw [e1]
      show Except.ok (ulogOpen w true false names h.evs) = _
      rw [ulogOpen_congr e2]

theorem openFrom_some {w : OWorld} {text : Nat → Option Bytes} {h : Handle σ} {R : Except (List OEv) OSt}
    (e : openFrom w text h = .ok R) : ∃ names, R = ulogOpen w true false names h.evs := by
  unfold openFrom at e
  split at e
  · cases e; exact ⟨_, rfl⟩
  · split at e
    · cases e
    · cases hs : seen w text (_) _ with
      | error f => rw [hs] at e; cases e
      | ok names => rw [hs] at e; cases e; exact ⟨names, rfl⟩

/-! ## The properties -/

/-- C131. `ulogcat_create` gives a handle unless one of the three options that are no longer
supported is set, or memory is refused. -/
theorem C131_create (o : Opts) (mem : Bool) (evs : List OEv) (s : σ) :
    (create o mem evs s).isSome = true ↔ mem = true ∧ o.binary = false ∧ o.getsize = false ∧ o.rotate = false := by
  unfold create
  cases o.binary <;> cases o.getsize <;> cases o.rotate <;> cases mem <;> simp

/-- A handle made, and then used. -/
def Used (E : Env σ) (o : Opts) (evs : List OEv) (s : σ) (cs : List Call) (h : Handle σ) (rs : List Int) : Prop :=
  ∃ h0, create o true evs s = some h0 ∧ Ran E h0 cs h rs

theorem create_start {o : Opts} {evs : List OEv} {s : σ} {h0 : Handle σ} (h : create o true evs s = some h0) :
    h0 = { opts := o, arr := none, n := 0, ctx := none, evs, s, arrays := 0 } := by
  unfold create at h
  split at h
  · cases h
  · simpa using h.symm

theorem Ran.opts {E : Env σ} {h0 h : Handle σ} {cs : List Call} {rs : List Int} (H : Ran E h0 cs h rs) : h.opts = h0.opts := by
  induction H with
  | nil => rfl
  | snoc a b ih =>
    rename_i cs h rs c h' r
    cases c with
    | add p m =>
      simp only [step, Except.ok.injEq, Prod.mk.injEq] at b
      rw [← b.1, ← ih]
      unfold addDevice
      split
      · split <;> rfl
      · rfl
    | process t c f => rw [(process_keeps b).2.2.1, ih]

theorem Used.stored {E : Env σ} {o : Opts} {evs : List OEv} {s : σ} {cs : List Call} {h : Handle σ} {rs : List Int}
    (H : Used E o evs s cs h rs) (hg : Granted cs) : Stored cs h := by
  obtain ⟨h0, hc, hr⟩ := H
  have := create_start hc
  exact hr.stored (by rw [this]) (by rw [this]) hg

/-- C131. If no memory was refused to `ulogcat_add_device` and the names are still there, processing
follows no bad pointer. -/
theorem C131_safe {E : Env σ} {o : Opts} {evs : List OEv} {s : σ} {cs : List Call} {h : Handle σ} {rs : List Int}
    (H : Used E o evs s cs h rs) (hg : Granted cs) {text : Nat → Option Bytes} (ht : ∀ p ∈ added cs, (text p).isSome = true)
    {calls fuel : Nat} {f : Fault} (e : step E h (.process text calls fuel) = .error f) : f = .overflow ∨ ∃ g, f = .core g := by
  have S := H.stored hg
  have hgo : ∀ o x (h : Handle σ), go E calls fuel o x h = .error f → ∃ g, f = .core g := by
    intro o x h e
    unfold go at e
    split at e
    · cases e
    · split at e
      · cases e; exact ⟨_, rfl⟩
      · cases e
  simp only [step] at e
  unfold process at e
  split at e
  · exact .inr (hgo _ _ _ e)
  · rw [openFrom_stored S (name := fun p => (text p).getD []) (fun p hp => by
      have := ht p hp
      cases hx : text p with
      | none => rw [hx] at this; cases this
      | some y => rfl)] at e
    split at e
    · rename_i heq; cases heq
    · cases e
    · split at e
      · cases e; exact .inl rfl
      · split at e
        · cases e
        · exact .inr (hgo _ _ _ e)

theorem process_opens {E : Env σ} {text : Nat → Option Bytes} {name : Nat → Bytes} {cs : List Call} {h h' : Handle σ}
    (S : Stored cs h) (ht : ∀ p ∈ added cs, text p = some (name p)) (hc : h.ctx = none) {calls fuel : Nat} {r : Option Int}
    (e : step E h (.process text calls fuel) = .ok (h', r)) {o : OSt} {x : Ctx} (hx : h'.ctx = some (o, x)) :
    ulogOpen E.w true false ((added cs).map name) h.evs = .ok o := by
  simp only [step] at e
  unfold process at e
  rw [hc] at e
  dsimp only at e
  rw [openFrom_stored S ht] at e
  split at e
  · cases e
  · simp only [Except.ok.injEq, Prod.mk.injEq] at e
    rw [← e.1] at hx
    dsimp only at hx
    cases hx
  · rename_i o' heq
    split at e
    · cases e
    · split at e
      · simp only [Except.ok.injEq, Prod.mk.injEq] at e
        rw [← e.1] at hx
        dsimp only at hx
        cases hx
      · obtain ⟨_, _, _, _, x', f⟩ := go_keeps e
        rw [hx] at f
        cases f
        simpa using heq

/-- What the handle holds: nothing, or a context whose devices are open. -/
def Holds (H : List Nat) (k : Nat) (h : Handle σ) : Prop :=
  match h.ctx with
  | none => held h.evs = some H ∧ outClosed h.evs = k
  | some (o, _) => OInv H k { o with evs := h.evs }

theorem go_holds {E : Env σ} (hcw : FreshW E.cw) {calls fuel : Nat} {o : OSt} {x : Ctx} {h h' : Handle σ} {r : Option Int}
    {H : List Nat} {k : Nat} (I : OInv H k { o with evs := h.evs }) (e : go E calls fuel o x h = .ok (h', r)) : Holds H k h' := by
  unfold go at e
  split at e
  · simp only [Except.ok.injEq, Prod.mk.injEq] at e
    rw [← e.1]
    obtain ⟨a, b⟩ := clearDevs_held hcw o.devs 0 I.fds
    exact ⟨a, I.nodup, I.idx, I.count, b.trans I.out, I.mark⟩
  · split at e
    · cases e
    · simp only [Except.ok.injEq, Prod.mk.injEq] at e
      rw [← e.1]
      exact I

theorem Ran.holds {E : Env σ} (hw : Fresh E.w) (hcw : FreshW E.cw) {h0 h : Handle σ} {cs : List Call} {rs : List Int}
    {H : List Nat} (hn : H.Nodup) (hr : Ran E h0 cs h rs) (h1 : h0.ctx = none) (h2 : held h0.evs = some H) :
    ∃ k, k ≤ rs.count (-1) ∧ Holds H (outClosed h0.evs + k) h := by
  induction hr with
  | nil => exact ⟨0, Nat.zero_le _, by unfold Holds; rw [h1]; exact ⟨h2, rfl⟩⟩
  | snoc a b ih =>
    rename_i cs h rs c h' r
    obtain ⟨k, hk, ih⟩ := ih
    have hk' : k ≤ (rs ++ [r]).count (-1) := by rw [List.count_append]; omega
    cases c with
    | add p m =>
      simp only [step, Except.ok.injEq, Prod.mk.injEq] at b
      refine ⟨k, hk', ?_⟩
      rw [← b.1]
      unfold addDevice
      split
      · split <;> exact ih
      · exact ih
    | process t c f =>
      simp only [step] at b
      unfold process at b
      split at b
      · rename_i o x hc
        unfold Holds at ih
        rw [hc] at ih
        exact ⟨k, hk', go_holds hcw ih b⟩
      · rename_i hc
        unfold Holds at ih
        rw [hc] at ih
        dsimp only at ih
        cases ho : openFrom E.w t h with
        | error f => rw [ho] at b; cases b
        | ok R =>
          rw [ho] at b
          obtain ⟨names, hR⟩ := openFrom_some ho
          have O := C66_open hw true false names ih.1 hn
          rw [← hR] at O
          cases R with
          | error evs' =>
            simp only [Except.ok.injEq, Prod.mk.injEq, Option.some.injEq] at b
            dsimp only at O
            obtain ⟨b1, b2⟩ := b
            subst b2
            refine ⟨k + if E.w.noMem (h.evs ++ [.alloc]) then 0 else 1, ?_, ?_⟩
            · rw [List.count_append]
              have : List.count (-1 : Int) [-1] = 1 := rfl
              rw [this]
              split <;> omega
            · rw [← b1]
              unfold Holds
              rw [hc]
              refine ⟨O.1, ?_⟩
              rw [O.2, ih.2]
              split <;> omega
          | ok o =>
            dsimp only at O b
            obtain ⟨o1, o2, o3, o4, o5, o6, o7, o8⟩ := O
            have I : OInv H (outClosed h0.evs + k) o := ⟨o1, o2, o3, o4, o7.trans ih.2, o6⟩
            split at b
            · cases b
            · split at b
              · simp only [Except.ok.injEq, Prod.mk.injEq, Option.some.injEq] at b
                obtain ⟨b1, b2⟩ := b
                subst b2
                obtain ⟨c1, c2⟩ := ulogClose_spec I
                refine ⟨k + 1, ?_, ?_⟩
                · rw [List.count_append]
                  have : List.count (-1 : Int) [-1] = 1 := rfl
                  omega
                · rw [← b1]
                  unfold Holds
                  rw [hc]
                  exact ⟨c1, c2⟩
              · exact ⟨k, hk', go_holds hcw I b⟩

/-- C131. However a handle was used, `ulogcat_destroy` leaves the descriptors as they were before;
the output has been closed once if there was a context, and once more at most for each call that
returned -1. -/
theorem C131_closed {E : Env σ} (hw : Fresh E.w) (hcw : FreshW E.cw) {o : Opts} {evs : List OEv} {s : σ} {cs : List Call}
    {h : Handle σ} {rs : List Int} (U : Used E o evs s cs h rs) {H : List Nat} (hn : H.Nodup) (hH : held evs = some H) :
    held (destroy h).1 = some H ∧ ∃ k, k ≤ rs.count (-1) ∧
      outClosed (destroy h).1 = outClosed evs + k + (if h.ctx.isSome then 1 else 0) := by
  obtain ⟨h0, hc, hr⟩ := U
  have e0 := create_start hc
  obtain ⟨k, hk, I⟩ := hr.holds hw hcw hn (by rw [e0]) (by rw [e0]; exact hH)
  have e1 : h0.evs = evs := by rw [e0]
  rw [e1] at I
  unfold Holds at I
  unfold destroy
  split at I
  · rename_i hx
    rw [hx]
    exact ⟨I.1, k, hk, by simpa using I.2⟩
  · rename_i o' x hx
    rw [hx]
    obtain ⟨a, b⟩ := ulogClose_spec I
    exact ⟨a, k, hk, by simpa using b⟩

/-- C131. The devices of the context are those given, in the order in which they were given, each as
often as it was given, without `kmsgd`; names are looked at when logs are processed, not before. -/
theorem C131_devices {E : Env σ} (hw : Fresh E.w) (hcw : FreshW E.cw) {o : Opts} {evs : List OEv} {s : σ} {cs : List Call}
    {h h' : Handle σ} {rs : List Int} (U : Used E o evs s cs h rs) (hg : Granted cs) {H : List Nat} (hn : H.Nodup)
    (hH : held evs = some H) (hc : h.ctx = none) {text : Nat → Option Bytes} {name : Nat → Bytes}
    (ht : ∀ p ∈ added cs, text p = some (name p)) {calls fuel : Nat} {r : Option Int}
    (e : step E h (.process text calls fuel) = .ok (h', r)) {c : OSt} {x : Ctx} (hx : h'.ctx = some (c, x))
    (hne : ∃ p ∈ added cs, name p ≠ ascii "kmsgd") :
    c.devs.map ODev.path =
      (((added cs).map name).filter (· ≠ ascii "kmsgd")).map fun n => (ascii "/dev/ulog_" ++ n).take 63 := by
  have ho := process_opens (U.stored hg) ht hc e hx
  obtain ⟨h0, hc0, hr⟩ := U
  have e0 := create_start hc0
  obtain ⟨k, _, I⟩ := hr.holds hw hcw hn (by rw [e0]) (by rw [e0]; exact hH)
  unfold Holds at I
  rw [hc] at I
  obtain ⟨p, hp, hq⟩ := hne
  obtain ⟨ps, h1, h2⟩ := C66_names hw I.1 hn ho ⟨name p, List.mem_map_of_mem hp, hq⟩
  have : ps = [] := by simpa [KernelPart] using h1
  rw [h2, this, List.append_nil]

/-- C131. If none is given, or none but `kmsgd`, the context has the devices registered in the driver, in
order of registration, without `kmsgd`. -/
theorem C131_all {E : Env σ} (hw : Fresh E.w) (hcw : FreshW E.cw) {o : Opts} {evs : List OEv} {s : σ} {cs : List Call}
    {h h' : Handle σ} {rs : List Int} (U : Used E o evs s cs h rs) (hg : Granted cs) {H : List Nat} (hn : H.Nodup)
    (hH : held evs = some H) (hc : h.ctx = none) {text : Nat → Option Bytes} {name : Nat → Bytes}
    (ht : ∀ p ∈ added cs, text p = some (name p)) {calls fuel : Nat} {r : Option Int}
    (e : step E h (.process text calls fuel) = .ok (h', r)) {c : OSt} {x : Ctx} (hx : h'.ctx = some (c, x))
    (hne : ∀ p ∈ added cs, name p = ascii "kmsgd")
    {mainSize : Int} {got : Bool} {R : Kernel.Reg} (hr : Kernel.RegReach mainSize got R) {page : Nat} (hp : 4096 ≤ page)
    (hl : E.w.logs = some (Kernel.showLogs page R)) :
    c.devs.map ODev.path = (R.devs.filter (·.name ≠ ascii "ulog_kmsgd")).map (fun d => ascii "/dev/" ++ d.name) := by
  have ho := process_opens (U.stored hg) ht hc e hx
  obtain ⟨h0, hc0, hr0⟩ := U
  have e0 := create_start hc0
  obtain ⟨k, _, I⟩ := hr0.holds hw hcw hn (by rw [e0]) (by rw [e0]; exact hH)
  unfold Holds at I
  rw [hc] at I
  obtain ⟨ps, h1, h2⟩ := C66_all hw I.1 hn ho (by
    intro n hm
    obtain ⟨p, hp, rfl⟩ := List.mem_map.1 hm
    exact hne p hp) hr hp hl
  have : ps = [] := by simpa [KernelPart] using h1
  rw [h2, this, List.append_nil]

/-- C131: `ulogcat_add_device` returns 0 if there was memory and then the array ends with the
device; else it returns -1. The number of devices grows by one exactly with 0. -/
theorem C131_add {E : Env σ} {h h' : Handle σ} {p : Nat} {mem : Bool} {r : Int} (hs : step E h (.add p mem) = .ok (h', some r)) :
    r = (if mem then 0 else -1) ∧ (h'.n = if r = 0 then h.n + 1 else h.n) ∧ (r = 0 → ∃ l, h'.arr = some (l ++ [some p])) ∧
      h'.evs = h.evs ∧ h'.ctx = h.ctx := by
  unfold step addDevice at hs
  cases mem
  · simp at hs
    obtain ⟨rfl, rfl⟩ := hs
    simp
  · cases ha : h.arr with
    | none => simp [ha] at hs; obtain ⟨rfl, rfl⟩ := hs; simp
    | some l => simp [ha] at hs; obtain ⟨rfl, rfl⟩ := hs; simp

/-- C131: how far the tail may go. With `n` devices opened, a tail of more than 2147483646 - n
overflows, one below -(n + 1) makes the call return -1 with all given back, and any other,
negative or not, keeps the context. -/
theorem C131_tail {E : Env σ} {text : Nat → Option Bytes} {calls fuel : Nat} {h : Handle σ} (hc : h.ctx = none) {c : OSt}
    (ho : openFrom E.w text h = .ok (.ok c)) :
    (process E text calls fuel h = .error .overflow ↔ 2147483646 - (c.count : Int) < h.opts.tail) ∧
    ∀ h' r, process E text calls fuel h = .ok (h', r) →
      (h'.ctx = none ↔ h.opts.tail < -((c.count : Int) + 1)) ∧ (h'.ctx = none → r = some (-1) ∧ h'.s = h.s) := by
  have hgo : ∀ o x (h : Handle σ), go E calls fuel o x h ≠ .error .overflow := by
    intro o x h e
    unfold go at e
    repeat' split at e
    all_goals simp at e
  have hctx : ∀ o x (h h' : Handle σ) r, go E calls fuel o x h = .ok (h', r) → h'.ctx ≠ none := by
    intro o x h h' r e
    unfold go at e
    repeat' split at e
    all_goals first | (cases e; simp) | simp at e
  have e : process E text calls fuel h = if h.opts.tail + c.count + 1 > 2147483647 then .error .overflow
      else if h.opts.tail + c.count + 1 < 0 then .ok ({ h with evs := ulogClose c }, some (-1))
      else go E calls fuel c (openCtx (c.devs.map fun d => d.mark.toNat) h.opts.tail) { h with evs := c.evs } := by
    unfold process
    rw [hc]
    simp only [ho]
  rw [e]
  constructor
  · split
    · simp; omega
    · split
      · simp; omega
      · constructor
        · intro h; exact absurd h (hgo _ _ _)
        · omega
  · intro h' r e'
    split at e'
    · simp at e'
    · split at e'
      · cases e'
        exact ⟨⟨fun _ => by omega, fun _ => hc⟩, fun _ => ⟨rfl, rfl⟩⟩
      · have := hctx _ _ _ _ _ e'
        exact ⟨⟨fun h => absurd h this, fun _ => by omega⟩, fun h => absurd h this⟩

/-- C131. A device that is given after the context was made is not shown, though the call succeeds. -/
theorem C131_late {E : Env σ} {h0 h : Handle σ} {cs : List Call} {rs : List Int} (H : Ran E h0 cs h rs) {o : OSt} {x : Ctx}
    (hx : h0.ctx = some (o, x)) : ∃ x', h.ctx = some (o, x') := by
  induction H with
  | nil => exact ⟨x, hx⟩
  | snoc a b ih =>
    rename_i cs h rs c h' r
    obtain ⟨y, ih⟩ := ih
    cases c with
    | add p m =>
      simp only [step, Except.ok.injEq, Prod.mk.injEq] at b
      refine ⟨y, ?_⟩
      rw [← b.1]
      unfold addDevice
      split
      · split <;> exact ih
      · exact ih
    | process t c f => exact (process_keeps b).2.2.2.2 o y ih

/-- C131. After `ulogcat_destroy`, one array is lost for each refusal of memory that followed a
success. -/
theorem C131_leak {E : Env σ} {o : Opts} {evs : List OEv} {s : σ} {cs : List Call} {h : Handle σ} {rs : List Int}
    (U : Used E o evs s cs h rs) : (destroy h).2 = turnsBad (mems cs) := by
  obtain ⟨h0, hc, hr⟩ := U
  have e0 := create_start hc
  have key : (h.arr.isSome = true ↔ (mems cs).getLast? = some true) ∧
      h.arrays = turnsBad (mems cs) + (if h.arr.isSome then 1 else 0) := by
    clear hc
    induction hr with
    | nil => subst e0; exact ⟨by simp [mems], rfl⟩
    | snoc a b ih =>
      rename_i cs h rs c h' r
      obtain ⟨i1, i2⟩ := ih
      cases c with
      | add p m =>
        simp only [step, Except.ok.injEq, Prod.mk.injEq] at b
        rw [← b.1, mems_snoc, show mems [Call.add p m] = [m] from rfl, turnsBad_snoc]
        unfold addDevice
        cases m with
        | true =>
          rw [if_pos rfl]
          cases ha : h.arr with
          | none => rw [ha] at i2; simpa using i2
          | some l => rw [ha] at i2; simpa using i2
        | false =>
          rw [if_neg (by simp)]
          cases ha : h.arr with
          | none =>
            rw [ha] at i1 i2
            have : ¬ (mems cs).getLast? = some true := fun h => by simpa using i1.2 h
            simp [this]
            simpa using i2
          | some l =>
            rw [ha] at i1 i2
            have : (mems cs).getLast? = some true := i1.1 rfl
            simp [this]
            simpa using i2
      | process t c f =>
        obtain ⟨k1, _, _, k4, _⟩ := process_keeps b
        rw [k1, k4, mems_snoc, show mems [Call.process t c f] = [] from rfl, List.append_nil]
        exact ⟨i1, i2⟩
  unfold destroy
  dsimp only
  rw [key.2]
  split <;> simp_all

/-- C131. With the option to dump, the first call of `ulogcat_process_logs` that finds the devices shows
what is in them, by turns (see `C130_order`), or the last entries of that, and returns 0. -/
theorem C131_dump {w : OWorld} {cw : ClearWorld} {o : Opts} {evs : List OEv} {s0 : Logs} {cs : List Call}
    {h : Handle Logs} {rs : List Int} (hw : Fresh w) (hcw : FreshW cw) (U : Used ⟨w, cw, quiet⟩ o evs s0 cs h rs) (hg : Granted cs)
    {H : List Nat} (hn : H.Nodup) (hH : held evs = some H) (hc : h.ctx = none)
    {text : Nat → Option Bytes} {name : Nat → Bytes} (ht : ∀ p ∈ added cs, text p = some (name p))
    (hd : o.dump = true) (hcl : o.clear = false) {T : Nat} (hT : o.tail = T) {c : OSt}
    (hO : ulogOpen w true false ((added cs).map name) h.evs = .ok c) (hmax : T + c.devs.length + 1 ≤ 2147483647)
    (hmark : ∀ i d, c.devs[i]? = some d → d.mark = 0 → h.s i = []) (hb : ∀ i, c.devs.length ≤ i → h.s i = []) :
    ∃ k, ∀ fuel, k ≤ fuel → ∀ calls, ∃ h' x v, step ⟨w, cw, quiet⟩ h (.process text (calls + 1) fuel) = .ok (h', some 0) ∧
      h'.ctx = some (c, x) ∧ TurnOf c.devs.length h.s v ∧
      x.out = annotate (decide (c.devs.length > 1)) [] (if T = 0 then v else v.drop (v.length - T)) := by
  have S := U.stored hg
  obtain ⟨h0, hc0, hr⟩ := U
  have e0 := create_start hc0
  have hopts : h.opts = o := by rw [hr.opts, e0]
  obtain ⟨_, _, I⟩ := hr.holds hw hcw hn (by rw [e0]) (by rw [e0]; exact hH)
  unfold Holds at I
  rw [hc] at I
  have ho := C66_open hw true false ((added cs).map name) I.1 hn
  rw [hO] at ho
  obtain ⟨_, _, _, h4, _, h6, _⟩ := ho
  have hlen : (c.devs.map fun d => d.mark.toNat).length = c.devs.length := List.length_map _
  have hm' : ∀ i, (c.devs.map fun d => d.mark.toNat)[i]? = some 0 → h.s i = [] := by
    intro i hi
    rw [List.getElem?_map] at hi
    cases hd : c.devs[i]? with
    | none => rw [hd] at hi; cases hi
    | some d =>
      rw [hd] at hi
      simp only [Option.map_some, Option.some.injEq] at hi
      have := (h6 d (List.mem_of_getElem? hd)).1
      exact hmark i d hd (by omega)
  obtain ⟨k, hk⟩ := dump_all _ h.s hm' (by rw [hlen]; exact hb) T
  refine ⟨k, fun fuel hf calls => ?_⟩
  obtain ⟨x, s, v, e1, e2, e3, _⟩ := hk fuel hf
  rw [hlen] at e2 e3
  refine ⟨{ h with evs := c.evs, ctx := some (c, x), s }, x, v, ?_, rfl, e2, e3⟩
  simp only [step]
  unfold process
  rw [hc]
  dsimp only
  rw [openFrom_stored S ht, hO]
  dsimp only
  rw [hopts, hT, h4, if_neg (by omega), if_neg (by omega)]
  unfold go
  dsimp only
  rw [hcl, if_neg (by simp), hd, catLoop_once, e1]

/-- C131. With the option to clear, nothing is shown: the devices of the context are cleared in order
until that fails, at each call. -/
theorem C131_clear {E : Env σ} {h : Handle σ} (hcl : h.opts.clear = true) {o : OSt} {x : Ctx} (hx : h.ctx = some (o, x))
    (text : Nat → Option Bytes) (calls fuel : Nat) :
    step E h (.process text calls fuel) =
      .ok ({ h with evs := (clearDevs E.cw o.devs 0 h.evs).2 }, some (clearDevs E.cw o.devs 0 h.evs).1) := by
  simp only [step]
  unfold process
  rw [hx]
  dsimp only
  unfold go
  rw [if_pos hcl]

/-- C131. A call that does not clear returns -1, or 0 if the option to dump is set and every device was
read to where it ended when opened; without that option it goes on for ever or returns -1. -/
theorem C131_ends {E : Env σ} {h h' : Handle σ} (hcl : h.opts.clear = false) {text : Nat → Option Bytes} {calls fuel : Nat} {r : Int}
    (e : step E h (.process text calls fuel) = .ok (h', some r)) :
    r = -1 ∨ (r = 0 ∧ h.opts.dump = true ∧ ∃ o x, h'.ctx = some (o, x) ∧ x.markReached = true) := by
  have hgo : ∀ o x (g : Handle σ), g.opts = h.opts → go E calls fuel o x g = .ok (h', some r) →
      r = -1 ∨ (r = 0 ∧ h.opts.dump = true ∧ ∃ o x, h'.ctx = some (o, x) ∧ x.markReached = true) := by
    intro o x g hg e
    unfold go at e
    rw [hg, hcl, if_neg (by simp)] at e
    cases calls with
    | zero => simp [catLoop] at e
    | succ n =>
      rw [catLoop_once] at e
      cases hp : processLogs E.W h.opts.dump 0 fuel x g.s 0 with
      | error f => rw [hp] at e; cases e
      | ok y =>
        obtain ⟨y1, y2, y3⟩ := y
        rw [hp] at e
        cases y3 with
        | none => cases e
        | some r' =>
          cases e
          rcases processLogs_ret E.W h.opts.dump fuel hp with a | ⟨a, b⟩
          · exact .inl a
          · refine .inr ⟨a, b, o, y1, rfl, ?_⟩
            rw [a, b] at hp
            exact processLogs_zero E.W (Int.le_refl _) fuel (.inl rfl) hp
  simp only [step] at e
  unfold process at e
  split at e
  · exact hgo _ _ _ rfl e
  · split at e
    · cases e
    · cases e; exact .inl rfl
    · split at e
      · cases e
      · split at e
        · cases e; exact .inl rfl
        · refine hgo _ _ _ ?_ e; rfl

/-! ## Where it goes wrong -/

theorem openFrom_array {w : OWorld} {text : Nat → Option Bytes} {h : Handle σ} (hm : w.noMem (h.evs ++ [.alloc]) = false) (hn : h.n ≠ 0) :
    openFrom w text h = match h.arr with
      | none => .error .null
      | some l => (seen w text (l.take h.n) { evs := h.evs ++ [.alloc], devs := [], count := 0, ulogs := 0 }).map fun names =>
          ulogOpen w true false names h.evs := by
  unfold openFrom
  rw [if_neg (by rintro (h | h); rw [hm] at h; cases h; exact hn h)]
  cases h.arr <;> rfl

/-- C131 is false if memory is refused after a success: the null pointer is used as an array of names. -/
theorem C131_false_null {E : Env σ} {o : Opts} {evs : List OEv} {s : σ} {cs : List Call} {h : Handle σ} {rs : List Int}
    (U : Used E o evs s cs h rs) (hg : Granted cs) (ha : added cs ≠ []) (hc : h.ctx = none)
    (hm : E.w.noMem (h.evs ++ [.alloc]) = false) (p : Nat) (text : Nat → Option Bytes) (calls fuel : Nat) :
    ∃ h', step E h (.add p false) = .ok (h', some (-1)) ∧ step E h' (.process text calls fuel) = .error .null := by
  have S := U.stored hg
  refine ⟨_, rfl, ?_⟩
  have hn : h.n ≠ 0 := by rw [S.n]; exact fun e => ha (List.length_eq_zero_iff.1 e)
  show process E text calls fuel { h with arr := none } = _
  unfold process
  dsimp only
  rw [hc]
  dsimp only
  rw [openFrom_array (h := { h with arr := none, ctx := none }) hm hn]

/-- C131 is false if memory is refused between two successes: names that were never written are used. -/
theorem C131_false_unwritten {E : Env σ} {o : Opts} {evs : List OEv} {s : σ} {cs : List Call} {h : Handle σ} {rs : List Int}
    (U : Used E o evs s cs h rs) (hg : Granted cs) (ha : added cs ≠ []) (hc : h.ctx = none)
    (hm : E.w.noMem (h.evs ++ [.alloc]) = false) (p q : Nat) (text : Nat → Option Bytes) (calls fuel : Nat) :
    ∃ h' h'', step E h (.add p false) = .ok (h', some (-1)) ∧ step E h' (.add q true) = .ok (h'', some 0) ∧
      step E h'' (.process text calls fuel) = .error .unwritten := by
  have S := U.stored hg
  refine ⟨_, _, rfl, rfl, ?_⟩
  obtain ⟨m, hn⟩ : ∃ m, h.n = m + 1 := by
    cases hx : h.n with
    | zero => rw [S.n] at hx; exact absurd (List.length_eq_zero_iff.1 hx) ha
    | succ m => exact ⟨m, rfl⟩
  show process E text calls fuel { h with arr := some (List.replicate h.n none ++ [some q]), n := h.n + 1, arrays := h.arrays + 1 } = _
  unfold process
  dsimp only
  rw [hc]
  dsimp only
  rw [openFrom_array (h := { h with arr := some (List.replicate h.n none ++ [some q]), n := h.n + 1, arrays := h.arrays + 1, ctx := none }) hm (by simp)]
  dsimp only
  rw [hn]
  rfl

/-- C131 is false of names that the caller does not keep: the first one is read when logs are processed. -/
theorem C131_false_gone {E : Env σ} {o : Opts} {evs : List OEv} {s : σ} {cs : List Call} {h : Handle σ} {rs : List Int}
    (U : Used E o evs s cs h rs) (hg : Granted cs) (hc : h.ctx = none) (hm : E.w.noMem (h.evs ++ [.alloc]) = false)
    {p : Nat} {ps : List Nat} (ha : added cs = p :: ps) {text : Nat → Option Bytes} (ht : text p = none) (calls fuel : Nat) :
    step E h (.process text calls fuel) = .error .gone := by
  have S := U.stored hg
  simp only [step]
  unfold process
  rw [hc]
  dsimp only
  rw [openFrom_array hm (by rw [S.n, ha]; simp), S.arr, ha, if_neg (by simp)]
  dsimp only
  rw [S.n, ha, List.take_of_length_le (by simp), List.map_cons, seen, ht]
  rfl

/-- C131 is false of the output: a call that makes no context closes it, although the handle can be used
again and a later call can succeed. -/
theorem C131_false_output {E : Env σ} (hw : Fresh E.w) (hcw : FreshW E.cw) {o : Opts} {evs : List OEv} {s : σ} {cs : List Call}
    {h h' : Handle σ} {rs : List Int} (U : Used E o evs s cs h rs) {H : List Nat} (hn : H.Nodup)
    (hH : held evs = some H) (hc : h.ctx = none) (hm : E.w.noMem (h.evs ++ [.alloc]) = false)
    {text : Nat → Option Bytes} {calls fuel : Nat} {r : Option Int}
    (e : step E h (.process text calls fuel) = .ok (h', r)) (hx : h'.ctx = none) :
    r = some (-1) ∧ outClosed h'.evs = outClosed h.evs + 1 := by
  obtain ⟨h0, hc0, hr⟩ := U
  have e0 := create_start hc0
  obtain ⟨k, _, I⟩ := hr.holds hw hcw hn (by rw [e0]) (by rw [e0]; exact hH)
  unfold Holds at I
  rw [hc] at I
  simp only [step] at e
  unfold process at e
  rw [hc] at e
  dsimp only at e
  cases ho : openFrom E.w text h with
  | error f => rw [ho] at e; cases e
  | ok R =>
    rw [ho] at e
    obtain ⟨names, hR⟩ := openFrom_some ho
    have O := C66_open hw true false names I.1 hn
    rw [← hR] at O
    cases R with
    | error evs' =>
      simp only [Except.ok.injEq, Prod.mk.injEq] at e
      dsimp only at O
      rw [← e.1, ← e.2]
      refine ⟨rfl, ?_⟩
      rw [hm, if_neg (by simp)] at O
      exact O.2
    | ok o =>
      dsimp only at O e
      obtain ⟨o1, o2, o3, o4, o5, o6, o7, o8⟩ := O
      have J : OInv H (outClosed h.evs) o := ⟨o1, o2, o3, o4, o7, o6⟩
      split at e
      · cases e
      · split at e
        · simp only [Except.ok.injEq, Prod.mk.injEq] at e
          rw [← e.1, ← e.2]
          exact ⟨rfl, (ulogClose_spec J).2⟩
        · obtain ⟨_, _, _, _, y, hy⟩ := go_keeps e
          rw [hx] at hy
          cases hy

end Verif.Tools.First
