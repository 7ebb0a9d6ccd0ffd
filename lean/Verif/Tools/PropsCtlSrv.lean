import Verif.Tools.CtlSrv

/-!
# The life of a control server (C116)
-/
namespace Verif.Tools.CtlSrv
open Verif Verif.Kernel Verif.Libulog Verif.Ulogcat Verif.Tools Verif.Tools.Remote

/-! ## Specification -/

/-- Whether the server was last told to listen, with success, or to stop. -/
def toldTo (l : List PEv) : Bool :=
  l.foldl (fun b e => match e with | .listen r => b || decide (0 ≤ r) | .ctxStop _ => false | _ => b) false

/-- Whether the context listens, if a stop that failed left it as it was. -/
def listens (l : List PEv) : Bool :=
  l.foldl (fun b e => match e with | .listen r => b || decide (0 ≤ r) | .ctxStop r => b && decide (r < 0) | _ => b) false

/-- What a call returns, if the server was (not) listening before. -/
def answer (b : Bool) : SCall → Int
  | .start r => if b then -16 else min r 0
  | .stop r => if b then r else 0

/-- Whether it is listening after the call. -/
def next (b : Bool) : SCall → Bool
  | .start r => b || decide (0 ≤ r)
  | .stop _ => false

/-- The results one after the other. -/
def answers (b : Bool) : List SCall → List Int
  | [] => []
  | c :: cs => answer b c :: answers (next b c) cs

/-- What exists. -/
structure Alive where
  loop : Bool
  timer : Bool
  mem : Bool
  ctx : Bool
  air : Bool
  deriving DecidableEq, Repr

def Alive.nothing : Alive := ⟨false, false, false, false, false⟩

/-- A call uses only what exists, makes nothing twice, and takes nothing away that
something else still needs; none if not. A call that fails changes nothing. -/
def Alive.use (a : Alive) : PEv → Option Alive
  | .loopNew ok => if a.loop then none else some { a with loop := ok }
  | .timerNew ok => if a.timer || (ok && !a.loop) then none else some { a with timer := ok }
  | .alloc ok => if a.mem then none else some { a with mem := ok }
  | .ctxNew ok => if a.ctx || !a.mem || !a.loop then none else some { a with ctx := ok }
  | .listen r => if !a.ctx || a.air then none else some { a with air := decide (0 ≤ r) }
  | .ctxStop r => if !a.ctx || !a.air then none else some { a with air := decide (r < 0) }
  | .ctxDestroy true r => if !a.ctx then none else if r < 0 then some a else if a.air then none else some { a with ctx := false }
  | .ctxDestroy false _ => some a
  | .free => if !a.mem || a.ctx then none else some { a with mem := false }
  | .periodic r => if 0 ≤ r ∧ a.timer = false then none else some a
  | .tick => if !a.timer || !a.air then none else some a
  | .timerClear _ => if !a.timer then none else some a
  | .timerDestroy r => if !a.timer || !a.loop then none else some { a with timer := decide (r < 0) }
  | .loopDestroy r => if !a.loop || a.timer || a.ctx then none else some { a with loop := decide (r < 0) }

def Alive.uses (a : Alive) (l : List PEv) : Option Alive := l.foldlM Alive.use a

/-! ## The server -/

theorem toldTo_append (l m : List PEv) : toldTo (l ++ m) = m.foldl (fun b e => match e with | .listen r => b || decide (0 ≤ r) | .ctxStop _ => false | _ => b) (toldTo l) :=
  List.foldl_append ..

theorem listens_append (l m : List PEv) : listens (l ++ m) = m.foldl (fun b e => match e with | .listen r => b || decide (0 ≤ r) | .ctxStop r => b && decide (r < 0) | _ => b) (listens l) :=
  List.foldl_append ..

/-- One call: the result, the flag, and at most one call of libpomp, in its turn. -/
theorem srvCall_one (s : Srv) (c : SCall) (l : List PEv) (h : s.started = toldTo l) :
    ∃ s' e, srvCall (some s) c = (answer (toldTo l) c, some s', e) ∧ s'.started = toldTo (l ++ e) ∧ toldTo (l ++ e) = next (toldTo l) c ∧
      (e = [] ∨ (∃ r, c = .start r ∧ e = [.listen r] ∧ toldTo l = false) ∨ ∃ r, c = .stop r ∧ e = [.ctxStop r] ∧ toldTo l = true) := by
  cases c with
  | start r =>
    cases hb : toldTo l with
    | true =>
      refine ⟨s, [], ?_, by rw [List.append_nil, h], by rw [List.append_nil, hb]; rfl, .inl rfl⟩
      simp [srvCall, srvStart, answer, h, hb]
    | false =>
      have hn : toldTo (l ++ [.listen r]) = next false (.start r) := by rw [toldTo_append, hb]; rfl
      by_cases hr : r < 0
      · refine ⟨s, [.listen r], ?_, ?_, hn, .inr (.inl ⟨r, rfl, rfl, rfl⟩)⟩
        · simp [srvCall, srvStart, answer, h, hb, hr]; omega
        · rw [hn, h, hb]; simp [next]; omega
      · refine ⟨{ s with started := true }, [.listen r], ?_, ?_, hn, .inr (.inl ⟨r, rfl, rfl, rfl⟩)⟩
        · simp [srvCall, srvStart, answer, h, hb, hr]; omega
        · rw [hn]; simp [next]; omega
  | stop r =>
    cases hb : toldTo l with
    | false =>
      refine ⟨s, [], ?_, by rw [List.append_nil, h], by rw [List.append_nil, hb]; rfl, .inl rfl⟩
      simp [srvCall, srvStop, answer, h, hb]
    | true =>
      have hn : toldTo (l ++ [.ctxStop r]) = next true (.stop r) := by rw [toldTo_append]; rfl
      refine ⟨{ s with started := false }, [.ctxStop r], ?_, by rw [hn]; rfl, hn, .inr (.inr ⟨r, rfl, rfl, rfl⟩)⟩
      simp [srvCall, srvStop, answer, h, hb]

theorem srvCalls_run (cs : List SCall) : ∀ (s : Srv) (l : List PEv), s.started = toldTo l →
    ∃ s' e, srvCalls (some s) cs = (answers (toldTo l) cs, some s', e) ∧ s'.started = toldTo (l ++ e) ∧
      ∀ pre x post, e = pre ++ x :: post →
        (∃ r, SCall.start r ∈ cs ∧ x = .listen r ∧ toldTo (l ++ pre) = false) ∨ ∃ r, SCall.stop r ∈ cs ∧ x = .ctxStop r ∧ toldTo (l ++ pre) = true := by
  induction cs with
  | nil => exact fun s l h => ⟨s, [], rfl, by rw [List.append_nil, h], fun pre x post he => by cases pre <;> cases he⟩
  | cons c cs ih =>
    intro s l h
    obtain ⟨s1, e1, h1, hs1, hn, he1⟩ := srvCall_one s c l h
    obtain ⟨s2, e2, h2, hs2, he2⟩ := ih s1 (l ++ e1) hs1
    refine ⟨s2, e1 ++ e2, ?_, by rw [← List.append_assoc]; exact hs2, ?_⟩
    · simp only [srvCalls, h1, h2, answers, hn]
    · intro pre x post he
      rcases he1 with rfl | ⟨r, rfl, rfl, hb⟩ | ⟨r, rfl, rfl, hb⟩
      · rw [List.append_nil] at he2
        rcases he2 pre x post he with ⟨r, a, b⟩ | ⟨r, a, b⟩
        · exact .inl ⟨r, List.mem_cons_of_mem _ a, b⟩
        · exact .inr ⟨r, List.mem_cons_of_mem _ a, b⟩
      all_goals
        cases pre with
        | nil =>
          cases he
          first
            | exact .inl ⟨r, List.mem_cons_self .., rfl, by rw [List.append_nil]; exact hb⟩
            | exact .inr ⟨r, List.mem_cons_self .., rfl, by rw [List.append_nil]; exact hb⟩
        | cons y pre =>
          injection he with hy he
          subst hy
          rcases he2 pre x post he with ⟨r', a, b, d⟩ | ⟨r', a, b, d⟩
          · exact .inl ⟨r', List.mem_cons_of_mem _ a, b, by rw [List.append_assoc] at d; exact d⟩
          · exact .inr ⟨r', List.mem_cons_of_mem _ a, b, by rw [List.append_assoc] at d; exact d⟩

/-- C116. Whatever libpomp answers to any starts and stops of a new server: the results
are those of a machine with two states, and libpomp is asked to listen only when the server
is stopped and to stop only when it was started, in turns. -/
theorem C116_calls (cs : List SCall) :
    ∃ s e, srvCalls (srvNew true true true 0).2.1 cs = (answers false cs, some s, e) ∧ s.started = toldTo e ∧
      ∀ pre x post, e = pre ++ x :: post →
        (∃ r, SCall.start r ∈ cs ∧ x = .listen r ∧ toldTo pre = false) ∨ ∃ r, SCall.stop r ∈ cs ∧ x = .ctxStop r ∧ toldTo pre = true := by
  obtain ⟨s, e, h1, h2, h3⟩ := srvCalls_run cs { started := false } [] rfl
  exact ⟨s, e, h1, h2, h3⟩

theorem listens_eq (e : List PEv) : (∀ r, PEv.ctxStop r ∈ e → 0 ≤ r) → listens e = toldTo e := by
  have key : ∀ (e : List PEv) (b : Bool), (∀ r, PEv.ctxStop r ∈ e → 0 ≤ r) →
      e.foldl (fun b e => match e with | .listen r => b || decide (0 ≤ r) | .ctxStop r => b && decide (r < 0) | _ => b) b =
      e.foldl (fun b e => match e with | .listen r => b || decide (0 ≤ r) | .ctxStop _ => false | _ => b) b := by
    intro e
    induction e with
    | nil => intro b _; rfl
    | cons x e ih =>
      intro b h
      have h' : ∀ r, PEv.ctxStop r ∈ e → 0 ≤ r := fun r hr => h r (List.mem_cons_of_mem _ hr)
      rw [List.foldl_cons, List.foldl_cons, ih _ h']
      cases x with
      | ctxStop r =>
        have : ¬ r < 0 := by have := h r (List.mem_cons_self ..); omega
        simp [this]
      | _ => rfl
  exact key e false

/-- C116. If no stop of a context fails, a server counts as started just when its context
listens. -/
theorem C116_listens {cs : List SCall} (h : ∀ r, SCall.stop r ∈ cs → 0 ≤ r) :
    ∃ s rs e, srvCalls (srvNew true true true 0).2.1 cs = (rs, some s, e) ∧ s.started = listens e := by
  obtain ⟨s, e, h1, h2, h3⟩ := C116_calls cs
  refine ⟨s, _, e, h1, ?_⟩
  rw [h2, listens_eq]
  intro r hr
  obtain ⟨pre, post, he⟩ := List.append_of_mem hr
  rcases h3 pre _ post he with ⟨r', _, hx, _⟩ | ⟨r', hm, hx, _⟩
  · cases hx
  · cases hx; exact h r hm

/-- C116. Not so if one fails: the server counts as stopped, and the next start asks a
context to listen that does. -/
theorem C116_false_stop :
    ∃ e, srvCalls (srvNew true true true 0).2.1 [.start 0, .stop (-5), .start 0] = ([0, -5, 0], some { started := true }, e ++ [.listen 0]) ∧
      listens e = true := ⟨[.listen 0, .ctxStop (-5)], by decide⟩

/-- C116. `ulogctl_srv_new` reports success without a server when libpomp gives no
context; a start of what it hands out is refused. -/
theorem C116_false_new (d : Int) :
    (srvNew true true false d).1 = 0 ∧ (srvNew true true false d).2.1 = none ∧ ∀ r, (srvStart r (srvNew true true false d).2.1).1 = -22 :=
  ⟨rfl, rfl, fun _ => rfl⟩

/-- C116. When it hands out a server the result is 0, and a result below 0 comes without
one: EINVAL without a loop, ENOMEM without memory. What was allocated is handed out or freed. -/
theorem C116_new (loop allocOk ctxOk : Bool) (d : Int) :
    ((srvNew loop allocOk ctxOk d).2.1.isSome = true ↔ loop = true ∧ allocOk = true ∧ ctxOk = true) ∧
    ((srvNew loop allocOk ctxOk d).2.1.isSome = true → (srvNew loop allocOk ctxOk d).1 = 0) ∧
    ((srvNew loop allocOk ctxOk d).1 < 0 ↔ loop = false ∨ allocOk = false) ∧
    (loop = false → (srvNew loop allocOk ctxOk d).1 = -22) ∧ (loop = true → allocOk = false → (srvNew loop allocOk ctxOk d).1 = -12) ∧
    Alive.uses ⟨loop, false, false, false, false⟩ (srvNew loop allocOk ctxOk d).2.2 =
      some ⟨loop, false, (srvNew loop allocOk ctxOk d).2.1.isSome, (srvNew loop allocOk ctxOk d).2.1.isSome, false⟩ := by
  cases loop <;> cases allocOk <;> cases ctxOk <;> simp [srvNew, Alive.uses, Alive.use]

/-- C116. `ulogctl_srv_destroy` refuses the null pointer; otherwise it returns 0 and frees the server, also when libpomp does not
destroy the context, which keeps the pointer to it. -/
theorem C116_destroy (s : Srv) (r : Int) :
    srvDestroy r none = (-22, []) ∧ srvDestroy r (some s) = (0, [.ctxDestroy true r, .free]) ∧
    ∀ b, (Alive.uses ⟨true, b, true, true, false⟩ (srvDestroy r (some s)).2 = if r < 0 then none else some ⟨true, b, false, false, false⟩) := by
  refine ⟨rfl, rfl, fun b => ?_⟩
  by_cases hr : r < 0 <;> simp [srvDestroy, Alive.uses, Alive.use, hr]

/-! ## The example -/

/-- The option that ends the program, if there is one. -/
def EOpt.ends : EOpt → Option Int
  | .help => some 0
  | .bad => some (-1)
  | _ => none

theorem exOptions_eq (l : List EOpt) : ∀ o, exOptions l o =
    match l.findSome? EOpt.ends with
    | some e => .error e
    | none => .ok (l.foldl (fun o x => match x with | .inet p => { o with port := p } | .unix s => { o with sock := some s } | .process => { o with process := true } | _ => o) o) := by
  induction l with
  | nil => exact fun o => rfl
  | cons x l ih =>
    intro o
    cases x with
    | help => rfl
    | bad => rfl
    | inet p => exact ih _
    | unix p => exact ih _
    | process => exact ih _

/-- C116. The exit status of the example is 0, or -1 if an option it does not know comes
before any request for help; a server that cannot be made or started does not change it. -/
theorem C116_status (w : EWorld) (l : List EOpt) : (exRun w l).1 = (l.findSome? EOpt.ends).getD 0 := by
  unfold exRun
  rw [exOptions_eq]
  cases l.findSome? EOpt.ends <;> rfl

/-- The last socket given; else the last port, unless that is -1; else that of the
process. -/
def wanted (l : List EOpt) : Option Kind :=
  match l.reverse.findSome? (fun x => match x with | .unix s => some s | _ => none),
    (l.reverse.findSome? (fun x => match x with | .inet p => some p | _ => none)).getD (-1) with
  | some s, _ => some (.unix s)
  | none, p => if p ≠ -1 then some (.inet p) else if EOpt.process ∈ l then some .process else none

/-- C116. Which server the example makes. -/
theorem C116_kind (l : List EOpt) (h : l.findSome? EOpt.ends = none) :
    ∃ o, (∀ w, exRun w l = exMain w o) ∧ o.kind = wanted l := by
  refine ⟨_, fun w => by unfold exRun; rw [exOptions_eq, h], ?_⟩
  have key : ∀ (l : List EOpt) (o : EOpts),
      l.foldl (fun o x => match x with | .inet p => { o with port := p } | .unix s => { o with sock := some s } | .process => { o with process := true } | _ => o) o =
        { port := (l.reverse.findSome? (fun x => match x with | .inet p => some p | _ => none)).getD o.port
          sock := (l.reverse.findSome? (fun x => match x with | .unix s => some s | _ => none)).or o.sock
          process := decide (EOpt.process ∈ l) || o.process } := by
    intro l
    induction l with
    | nil => intro o; simp
    | cons x l ih =>
      intro o
      rw [List.foldl_cons, ih, List.reverse_cons, List.findSome?_append, List.findSome?_append]
      cases x <;> simp <;> (cases (l.reverse.findSome? _) <;> rfl)
  rw [key]
  unfold EOpts.kind wanted
  simp only [Option.or_none, Bool.or_false]
  cases l.reverse.findSome? (fun x => match x with | .unix s => some s | _ => none) with
  | some s => rfl
  | none => by_cases hp : EOpt.process ∈ l <;> simp [hp]

theorem uses_append (a : Alive) (l m : List PEv) : a.uses (l ++ m) = (a.uses l).bind (·.uses m) := by
  unfold Alive.uses; rw [List.foldlM_append]; rfl

theorem uses_ticks (a : Alive) (ht : a.timer = true) (ha : a.air = true) (n : Nat) : a.uses (List.replicate n .tick) = some a := by
  induction n with
  | zero => rfl
  | succ n ih =>
    rw [List.replicate_succ]
    show (Alive.use a .tick).bind (fun b => b.uses (List.replicate n .tick)) = _
    simp only [Alive.use, ht, ha]
    exact ih

/-- libpomp gives no timer without a loop, and starts none that is not there. -/
structure EWorld.Sane (w : EWorld) : Prop where
  timer : w.timer = true → w.loop = true
  periodic : w.timer = false → w.periodic < 0

/-- What takes away succeeds. -/
structure EWorld.Tidy (w : EWorld) : Prop where
  stop : 0 ≤ w.ctxStop
  destroy : 0 ≤ w.ctxDestroy
  timer : 0 ≤ w.timerDestroy
  loop : 0 ≤ w.loopDestroy

/-- The server is made and listens, and the timer runs. -/
def EWorld.serves (w : EWorld) : Option Kind → Bool
  | none => false
  | some k => w.loop && w.alloc && w.ctx && decide (0 ≤ w.listen) && decide (0 ≤ w.periodic) && (decide (k ≠ .process) || w.name.isNone)

theorem newKind_eq (w : EWorld) (k : Kind) : newKind w k =
    if k = .process ∧ w.name.isSome = true then (-((w.name.getD 0 : Nat) : Int), none, []) else srvNew w.loop w.alloc w.ctx w.destroyNull := by
  cases k <;> cases hx : w.name <;> simp [newKind, hx]

/-- What the example does before it cleans up. -/
theorem exBody_eq (w : EWorld) (o : EOpts) : exBody w o =
    match o.kind with
    | none => (none, [])
    | some k =>
      if k = .process ∧ w.name.isSome = true then (none, [])
      else if w.loop = false then (none, [])
      else if w.alloc = false then (none, [.alloc false])
      else if w.ctx = false then (none, [.alloc true, .ctxNew false, .ctxDestroy false w.destroyNull, .free])
      else if w.listen < 0 then (some ⟨false⟩, [.alloc true, .ctxNew true, .listen w.listen])
      else if w.periodic < 0 then (some ⟨true⟩, [.alloc true, .ctxNew true, .listen w.listen, .periodic w.periodic])
      else (some ⟨true⟩, [.alloc true, .ctxNew true, .listen w.listen, .periodic w.periodic] ++ List.replicate w.ticks .tick) := by
  unfold exBody
  cases o.kind with
  | none => rfl
  | some k =>
    simp only [newKind_eq]
    by_cases hp : k = .process ∧ w.name.isSome = true
    · simp [hp, srvStart]
    · simp only [if_neg hp]
      cases hl : w.loop with
      | false => simp [srvNew]
      | true =>
        cases ha : w.alloc with
        | false => simp [srvNew]
        | true =>
          cases hc : w.ctx with
          | false => simp [srvNew, srvStart]
          | true =>
            by_cases h1 : w.listen < 0
            · simp [srvNew, srvStart, h1]
            · by_cases h2 : w.periodic < 0 <;> simp [srvNew, srvStart, h1, h2]

theorem body_uses {w : EWorld} (hs : w.Sane) (o : EOpts) :
    Alive.uses ⟨w.loop, w.timer, false, false, false⟩ (exBody w o).2 =
      some ⟨w.loop, w.timer, (exBody w o).1.isSome, (exBody w o).1.isSome, ((exBody w o).1.map Srv.started).getD false⟩ := by
  obtain ⟨h1, h2⟩ := hs
  rw [exBody_eq]
  cases o.kind with
  | none => rfl
  | some k =>
    dsimp only
    by_cases hp : k = .process ∧ w.name.isSome = true
    · rw [if_pos hp]; rfl
    · rw [if_neg hp]
      cases hl : w.loop with
      | false => rfl
      | true =>
        cases ha : w.alloc with
        | false => rfl
        | true =>
          cases hc : w.ctx with
          | false => simp [Alive.uses, Alive.use]
          | true =>
            by_cases hx : w.listen < 0
            · simp [hx, Alive.uses, Alive.use]
            · have hx' : 0 ≤ w.listen := by omega
              by_cases hy : w.periodic < 0
              · have hy' : ¬ 0 ≤ w.periodic := by omega
                simp [hx, hy, hx', hy', Alive.uses, Alive.use]
              · have ht : w.timer = true := by
                  cases h : w.timer with
                  | true => rfl
                  | false => exact absurd (h2 h) hy
                have : Alive.uses ⟨true, true, false, false, false⟩ [.alloc true, .ctxNew true, .listen w.listen, .periodic w.periodic] = some ⟨true, true, true, true, true⟩ := by
                  simp [hx', Alive.uses, Alive.use]
                simp only [hx, hy, ht, if_false, Bool.true_eq_false]
                rw [uses_append, this]
                exact uses_ticks _ rfl rfl _

/-- C116. If what takes away succeeds, the example uses nothing that does not exist, leaves
nothing behind, and takes things away in an order in which nothing is missed, wherever it
fails before. -/
theorem C116_tidy {w : EWorld} (hs : w.Sane) (ht : w.Tidy) (o : EOpts) : Alive.nothing.uses (exMain w o).2 = some .nothing := by
  obtain ⟨t1, t2, t3, t4⟩ := ht
  have hb := body_uses hs o
  have n1 : ¬ w.ctxStop < 0 := by omega
  have n2 : ¬ w.ctxDestroy < 0 := by omega
  have n3 : ¬ w.timerDestroy < 0 := by omega
  have n4 : ¬ w.loopDestroy < 0 := by omega
  have h0 : Alive.nothing.uses [.loopNew w.loop, .timerNew w.timer] = some ⟨w.loop, w.timer, false, false, false⟩ := by
    have := hs.timer
    cases h1 : w.loop <;> cases h2 : w.timer <;> simp_all [Alive.uses, Alive.use, Alive.nothing]
  unfold exMain
  dsimp only
  rw [List.append_assoc, List.append_assoc, List.append_assoc, List.append_assoc, uses_append, h0]
  show Alive.uses ⟨w.loop, w.timer, false, false, false⟩ _ = _
  rw [uses_append, hb]
  have hsome : (exBody w o).1.isSome = true → w.loop = true := by
    rw [exBody_eq]
    cases o.kind with
    | none => intro h; cases h
    | some k =>
      dsimp only
      split
      · intro h; cases h
      · split
        · intro h; cases h
        · rename_i h; intro _; simpa using h
  have htl := hs.timer
  clear hb h0
  have fin : ∀ (lp tm : Bool) (b : Option Srv), (tm = true → lp = true) → (b.isSome = true → lp = true) →
      Alive.uses ⟨lp, tm, b.isSome, b.isSome, (b.map Srv.started).getD false⟩ ((if tm then [.timerClear w.timerClear] else []) ++
        (exClean w b ++ ((if tm then [.timerDestroy w.timerDestroy] else []) ++ (if lp then [.loopDestroy w.loopDestroy] else [])))) = some .nothing := by
    intro lp tm b x y
    rcases b with _ | ⟨_ | _⟩ <;> cases lp <;> cases tm <;>
      first
      | (cases x rfl; done)
      | (cases y rfl; done)
      | simp [Alive.uses, Alive.use, Alive.nothing, srvStop, srvDestroy, exClean, n1, n2, n3, n4]
  exact fin _ _ _ htl hsome

/-- C116. The timer fires only while the server listens, and if everything was made. -/
theorem C116_ticks (w : EWorld) (o : EOpts) : (exMain w o).2.count .tick = if w.serves o.kind then w.ticks else 0 := by
  have h : (exBody w o).2.count .tick = if w.serves o.kind then w.ticks else 0 := by
    rw [exBody_eq]
    unfold EWorld.serves
    cases o.kind with
    | none => rfl
    | some k =>
      dsimp only
      by_cases hp : k = .process ∧ w.name.isSome = true
      · rw [if_pos hp]
        obtain ⟨rfl, hn⟩ := hp
        cases hx : w.name with
        | none => rw [hx] at hn; cases hn
        | some e => simp
      · have hq : (decide (k ≠ .process) || w.name.isNone) = true := by
          cases hx : w.name <;> by_cases hk : k = .process <;> simp_all
        rw [if_neg hp]
        simp only [hq]
        cases w.loop <;> cases w.alloc <;> cases w.ctx <;> try rfl
        by_cases hx : w.listen < 0
        · have : ¬ 0 ≤ w.listen := by omega
          simp [hx, this]
        · have hx' : 0 ≤ w.listen := by omega
          by_cases hy : w.periodic < 0
          · have : ¬ 0 ≤ w.periodic := by omega
            simp [hx, hy, this]
          · have : 0 ≤ w.periodic := by omega
            simp [hx, hy, this, hx']
  unfold exMain
  dsimp only
  simp only [List.count_append, h]
  have hsrv : ∀ s : Option Srv, List.count PEv.tick (exClean w s) = 0 := by
    intro s; rcases s with _ | ⟨_ | _⟩ <;> simp [srvStop, srvDestroy, exClean]
  rw [hsrv]
  cases w.timer <;> cases w.loop <;> simp

/-- C116. If the context cannot be stopped, or destroyed, the server is freed under it. -/
theorem C116_false_tidy : ∃ w : EWorld, w.Sane ∧ (∀ o, (exMain w o).1 = 0) ∧ ∃ o, Alive.nothing.uses (exMain w o).2 = none :=
  ⟨{ loop := true, timer := true, name := none, alloc := true, ctx := true, destroyNull := -22, listen := 0, periodic := 0, ticks := 2
     timerClear := 0, ctxStop := -5, ctxDestroy := -16, timerDestroy := 0, loopDestroy := 0 },
    ⟨fun _ => rfl, by intro h; cases h⟩, fun _ => rfl, { port := 7, sock := none, process := false }, by decide⟩

/-! ## Its messages -/

/-- C116. While its tag has level `l`, each firing of the timer gives the messages whose
number is at most `l`, with the count of the firings so far. -/
theorem C116_messages {P : Nat → Prog} {ctl : Nat → Cid} {rs : Nat → Regs} {p : Nat} {t : Task} {c : Cid} {l : Int}
    (h : (rs p).level c = some l) (n k : Nat) :
    letThrough P ctl rs ((ticksSay p t c n k).map .say) =
      (List.range k).flatMap fun i =>
        ([(7, "log debug "), (6, "log info "), (5, "log normal "), (4, "log warning "), (3, "log error "), (2, "log critical ")].filter
          (fun x => decide (((x.1 : Nat) : Int) ≤ l))).map fun x =>
            { prog := p, task := t, tag := c, prio := UInt32.ofNat x.1, text := ascii x.2 ++ decNat (n + i), whole := false } := by
  have key : ∀ (ms : List Said) (rs : Nat → Regs), (rs p).level c = some l → (∀ m ∈ ms, m.prog = p ∧ m.tag = c) →
      letThrough P ctl rs (ms.map .say) = ms.filter fun m => decide (((m.prio.toNat % 8 : Nat) : Int) ≤ l) := by
    intro ms
    induction ms with
    | nil => intro rs _ _; rfl
    | cons m ms ih =>
      intro rs h hm
      obtain ⟨rfl, rfl⟩ := hm m (List.mem_cons_self ..)
      have hu := Regs.level_use (P := P m.prog) h m.tag
      rw [List.map_cons, letThrough, ih _ (by
        show ((if m.prog = m.prog then ((rs m.prog).use (P m.prog) m.tag) else rs m.prog) : Regs).level m.tag = _
        rw [if_pos rfl, hu]) (fun x hx => hm x (List.mem_cons_of_mem _ hx)), List.filter_cons]
      show ((rs m.prog).says (P m.prog) m).2 ++ _ = _
      unfold Regs.says
      dsimp only
      rw [hu, Option.getD_some]
      by_cases hx : ((m.prio.toNat % 8 : Nat) : Int) ≤ l
      · rw [if_pos hx, if_pos (decide_eq_true hx)]; rfl
      · rw [if_neg hx, if_neg (by rw [decide_eq_false hx]; simp)]; rfl
  have hmem : ∀ (k n : Nat), ∀ m ∈ ticksSay p t c n k, m.prog = p ∧ m.tag = c := by
    intro k
    induction k with
    | zero => intro n m hm; cases hm
    | succ k ih =>
      intro n m hm
      rcases List.mem_append.1 hm with hm | hm
      · obtain ⟨x, _, rfl⟩ := List.mem_map.1 hm
        exact ⟨rfl, rfl⟩
      · exact ih _ m hm
  rw [key _ _ h (hmem k n)]
  clear key hmem h
  induction k generalizing n with
  | zero => rfl
  | succ k ih =>
    rw [List.range_succ_eq_map, List.flatMap_cons, List.flatMap_map]
    show ((tickSays p t c n ++ ticksSay p t c (n + 1) k).filter _) = _
    rw [List.filter_append, ih (n + 1)]
    refine congr (congrArg _ ?_) ?_
    · unfold tickSays
      simp only [List.map_cons, List.map_nil, List.filter_cons, List.filter_nil]
      simp only [show ((7 : UInt32).toNat % 8) = 7 from rfl, show ((6 : UInt32).toNat % 8) = 6 from rfl, show ((5 : UInt32).toNat % 8) = 5 from rfl,
        show ((4 : UInt32).toNat % 8) = 4 from rfl, show ((3 : UInt32).toNat % 8) = 3 from rfl, show ((2 : UInt32).toNat % 8) = 2 from rfl, Nat.add_zero]
      repeat' split
      all_goals first | rfl | (simp_all; done)
    · refine congrArg (fun f => List.flatMap f (List.range k)) (funext fun i => ?_)
      rw [Nat.add_assoc, Nat.add_comm 1 i]

/-! ## Examples -/

namespace ExCtlSrv

def goodWorld : EWorld :=
  { loop := true, timer := true, name := none, alloc := true, ctx := true, destroyNull := -22, listen := 0, periodic := 0, ticks := 2
    timerClear := 0, ctxStop := 0, ctxDestroy := 0, timerDestroy := 0, loopDestroy := 0 }

example : srvCalls (srvNew true true true 0).2.1 [.stop 0, .start (-98), .start 0, .start 0, .stop 0, .start 0] =
    ([0, -98, 0, -16, 0, 0], some ⟨true⟩, [.listen (-98), .listen 0, .ctxStop 0, .listen 0]) := by decide

example : ∀ r, SCall.stop r ∈ [SCall.start 0, .stop 0, .start (-98)] → 0 ≤ r := by
  intro r h; simp at h; omega

example : goodWorld.Sane ∧ goodWorld.Tidy := ⟨⟨fun _ => rfl, by intro h; cases h⟩, by decide, by decide, by decide, by decide⟩

example : exMain goodWorld { port := 4242, sock := none, process := true } =
    (0, [.loopNew true, .timerNew true, .alloc true, .ctxNew true, .listen 0, .periodic 0, .tick, .tick, .timerClear 0, .ctxStop 0,
      .ctxDestroy true 0, .free, .timerDestroy 0, .loopDestroy 0]) := by decide

/-- The port is in use. -/
example : exMain { goodWorld with listen := -98 } { port := 4242, sock := none, process := false } =
    (0, [.loopNew true, .timerNew true, .alloc true, .ctxNew true, .listen (-98), .timerClear 0, .ctxDestroy true 0, .free, .timerDestroy 0,
      .loopDestroy 0]) := by decide

example : wanted [.process, .inet 1, .inet 2] = some (.inet 2) := by decide

example : wanted [.unix [64], .inet 2] = some (.unix [64]) := by decide

example : Regs.level [(5, 4), (0, 6)] 5 = some 4 := rfl

/-- Two firings at level 3. -/
example : (letThrough (fun _ => plainProg) (fun _ => 9) (fun _ => [(5, 3)]) ((ticksSay 1 someTask 5 8 2).map .say)).map (·.text) =
    [ascii "log error 8", ascii "log critical 8", ascii "log error 9", ascii "log critical 9"] := by decide +kernel

end ExCtlSrv

end Verif.Tools.CtlSrv
