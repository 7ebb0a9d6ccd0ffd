import Verif.Tools.PropsCtl

/-!
# One client, one connection (C44)

When only one client ever connects to the server, once, the end of a list reaches it
only as the answer to its own request: C44 holds without the assumption made on the
server in `C44_once`.
-/
namespace Verif.Tools
open Verif Verif.Libulog

/-- Fairness in the system: the client's loop does not run inside a callback, the user
does not stop the client in a status callback, a message waiting for the connection can
be sent; there is one client, and one connection. -/
def FairNet (n : Net) (m : Mon) : NEv → Prop
  | .client i e => i = 0 ∧ FairEv m e ∧ (∀ b, e ≠ .connected b) ∧ ∀ x, e ≠ .reply x
  | .connect i b => i = 0 ∧ FairEv m (.connected b) ∧ (n.cli 0).st = .connecting ∧ n.conns = []
  | .serve _ => True
  | .deliver _ => m.cbs = []

/-- What the observer of client 0 sees of one step of the system. -/
def Mon.net (m : Mon) (e : NEv) (o : List (Nat × COut)) : Mon :=
  match e with
  | .client _ e => m.step e (outsOf 0 o)
  | _ => (outsOf 0 o).foldl Mon.out m

inductive SoloRun (qs : List (Bytes × Int) → List (Bytes × Int)) (nm : Cid → Bytes) : Lib → Net → Mon → Prop
  | nil (lib : Lib) : SoloRun qs nm lib (netNew lib) Mon.new
  | step {lib n m w e} : SoloRun qs nm lib n m → FairNet n m e →
      SoloRun qs nm lib (nstep qs nm w n e).1 (m.net e (nstep qs nm w n e).2)

/-- Answers to lists under way, in both directions. -/
def Conn.lists (k : Conn) : Nat := k.up.count .list + k.down.count .listEnd

def connOut (k : Conn) : COut → Conn
  | .send r => if k.live then { k with up := k.up ++ [r] } else k
  | .hangup => { k with live := false }
  | _ => k

theorem netOut_one {k : Conn} (hk : k.owner = 0) (o : List COut) :
    o.foldl (netOut 0) [k] = [o.foldl connOut k] ∧ (o.foldl connOut k).owner = 0 := by
  induction o generalizing k with
  | nil => exact ⟨rfl, hk⟩
  | cons x o ih =>
    simp only [List.foldl_cons]
    have h1 : netOut 0 [k] x = [connOut k x] ∧ (connOut k x).owner = 0 := by
      cases x <;> simp [netOut, connOut, hk]
      split <;> simp [hk]
    rw [h1.1]
    exact ih h1.2

theorem netOut_nil (i : Nat) (o : List COut) : o.foldl (netOut i) [] = [] := by
  induction o with
  | nil => rfl
  | cons x o ih => rw [List.foldl_cons]; cases x <;> exact ih

/-- The link of the client's state with its connection. -/
def LinkOk (c : Cli) (m : Mon) (k : Conn) : Prop :=
  k.live = true →
    (true ∉ m.cbs → c.st = .connected ∧ k.lists = if m.pend = some .list then 1 else 0) ∧
    (true ∈ m.cbs → c.stack.head? = some .stopped ∨ (c.st = .connected ∧ k.lists = 0))

theorem outsOf_map (o : List COut) : outsOf 0 (o.map (0, ·)) = o := by
  unfold outsOf
  induction o with
  | nil => rfl
  | cons x o ih => simpa using ih

theorem lists_send (k : Conn) (r : Req) : (connOut k (.send r)).lists = k.lists + if k.live = true ∧ r = .list then 1 else 0 := by
  unfold connOut Conn.lists
  cases hl : k.live
  · simp
  · by_cases hr : r = .list
    · subst hr; simp [List.count_append]; omega
    · simp [List.count_append, hr]

theorem connOut_live (k : Conn) (r : Req) : (connOut k (.send r)).live = k.live := by
  simp only [connOut]; split <;> rfl

theorem link_stop {c : Cli} {m : Mon} {k : Conn} (h : LinkOk c m k) :
    LinkOk c.stop.1 (c.stop.2.foldl Mon.out m) (c.stop.2.foldl connOut k) := by
  unfold Cli.stop
  split
  · exact h
  · split
    · intro hl
      exact ⟨fun hx => by simp [Mon.out] at hx, fun _ => Or.inl rfl⟩
    · intro hl
      simp [connOut] at hl

theorem link_infos {c : Cli} {m : Mon} {k : Conn} (h : LinkOk c m k) (hq : true ∉ m.cbs) (i : Nat) :
    LinkOk (c.infos i).1 ((c.infos i).2.foldl Mon.out m) ((c.infos i).2.foldl connOut k) := by
  unfold Cli.infos
  split
  · exact h
  · intro hl
    exact ⟨fun _ => (h hl).1 hq, fun hx => by simp [Mon.out] at hx; exact absurd hx hq⟩

theorem link_request {c : Cli} {m : Mon} {k : Conn} (hi : CtlInv c m) (h : LinkOk c m k) (r : Req) (a b d : Bool) :
    LinkOk (c.request r a b d).1 ((c.request r a b d).2.foldl Mon.out m) ((c.request r a b d).2.foldl connOut k) := by
  unfold Cli.request
  split
  · exact h
  · rename_i hst
    split
    · exact h
    · rename_i hmsg
      have hnone : c.msg = none := by cases hx : c.msg with
        | none => rfl
        | some r => simp [hx] at hmsg
      have hq : true ∉ m.cbs := by
        rcases hi.shape with ⟨h1, _⟩ | ⟨l, _, _, _, h4⟩
        · exact h1
        · rw [hnone] at h4; simp at h4
      have hp : m.pend = none := by rw [(hi.quiet hq).1, hnone]
      split
      · exact h
      · have key : ∀ c' : Cli, c'.st = c.st → c'.stack = c.stack →
            LinkOk (if b = false then (c', [COut.refused]) else if c'.st = .connected then
              (if d then ({ c' with msg := some r }, [.send r, .accepted r]) else (c', [.refused]))
              else ({ c' with msg := some r }, [.accepted r])).1
              ((if b = false then (c', [COut.refused]) else if c'.st = .connected then
              (if d then ({ c' with msg := some r }, [.send r, .accepted r]) else (c', [.refused]))
              else ({ c' with msg := some r }, [.accepted r])).2.foldl Mon.out m)
              ((if b = false then (c', [COut.refused]) else if c'.st = .connected then
              (if d then ({ c' with msg := some r }, [.send r, .accepted r]) else (c', [.refused]))
              else ({ c' with msg := some r }, [.accepted r])).2.foldl connOut k) := by
          intro c' e1 e2
          have h' : LinkOk c' m k := fun hl => by rw [e1, e2]; exact h hl
          split
          · exact h'
          · split
            · rename_i hcon
              split
              · intro hl
                have hl' : k.live = true := by
                  have := connOut_live k r
                  simp only [List.foldl_cons, List.foldl_nil] at hl
                  change (connOut k (.send r)).live = true at hl
                  rw [this] at hl; exact hl
                refine ⟨fun _ => ⟨hcon, ?_⟩, fun hx => absurd hx hq⟩
                have h0 := ((h hl').1 hq).2
                rw [hp] at h0
                simp at h0
                change (connOut k (.send r)).lists = _
                rw [lists_send, h0]
                by_cases hr : r = .list <;> simp [Mon.out, hr, hl']
              · exact h'
            · rename_i hcon
              intro hl
              exact absurd (e1 ▸ ((h hl).1 hq).1) hcon
        split
        · exact key _ rfl rfl
        · exact key _ rfl rfl

theorem link_ret (qs : List (Bytes × Int) → List (Bytes × Int)) {c : Cli} {m : Mon} {k : Conn} (hi : CtlInv c m) (h : LinkOk c m k) :
    LinkOk (cstep qs c .ret).1 (m.step .ret (cstep qs c .ret).2) ((cstep qs c .ret).2.foldl connOut k) := by
  simp only [cstep, Mon.step, Mon.ev]
  have hcb := hi.cbs
  have hsh := hi.shape
  have haft : true ∉ m.cbs.tail := by
    rcases hsh with ⟨h1, _⟩ | ⟨l, h1, h2, _⟩
    · exact fun hx => h1 (List.mem_of_mem_tail hx)
    · rw [h1]; exact h2
  have hstat : ∀ x xs, c.stack = x :: xs → x.isStatus = true → x ≠ .stopped → k.live = true →
      m.pend = none ∧ c.st = .connected ∧ k.lists = 0 := by
    intro x xs hx hs hne hl
    have hmem : true ∈ m.cbs := by rw [hcb, hx, List.map_cons, hs]; simp
    have hp : m.pend = none := by
      rcases hsh with ⟨h1, _⟩ | ⟨l, _, _, h3, _⟩
      · exact absurd hmem h1
      · exact h3
    rcases (h hl).2 hmem with h1 | h1
    · rw [hx] at h1; simp at h1; exact absurd h1 hne
    · exact ⟨hp, h1⟩
  split
  · rename_i hst
    have : m.cbs = [] := by rw [hcb, hst]; rfl
    intro hl
    have := h hl
    simp_all
  · rename_i ks hst
    refine link_infos (c := { c with msg := none, tags := qs c.tags, stack := ks }) (m := { m with cbs := m.cbs.tail }) ?_ haft 0
    intro hl
    obtain ⟨h1, h2, h3⟩ := hstat _ _ hst rfl (by simp) hl
    exact ⟨fun _ => ⟨h2, by simp [h1, h3]⟩, fun hx => absurd hx haft⟩
  · rename_i ks hst
    intro hl
    obtain ⟨h1, h2, h3⟩ := hstat _ _ hst rfl (by simp) hl
    exact ⟨fun _ => ⟨h2, by simp [h1]; exact h3⟩, fun hx => absurd hx haft⟩
  · intro hl
    simp [connOut] at hl
  · rename_i i ks hst
    refine link_infos (c := { c with stack := ks }) (m := { m with cbs := m.cbs.tail }) ?_ haft i
    intro hl
    have hn : true ∉ m.cbs := by
      rcases hsh with ⟨h1, _⟩ | ⟨l, h1, _⟩
      · exact h1
      · rw [hcb, hst] at h1; simp [Cont.isStatus] at h1
    exact ⟨fun _ => (h hl).1 hn, fun hx => absurd hx haft⟩

/-- The invariant of the system. -/
structure SoloInv (n : Net) (m : Mon) : Prop where
  inv : CtlInv (n.cli 0) m
  conns : n.conns = [] ∨ ∃ k, n.conns = [k] ∧ k.owner = 0 ∧ LinkOk (n.cli 0) m k

theorem count_info (l : List Cid) (nm : Cid → Bytes) (lv : Cid → Int) : (l.map fun c => Reply.info (nm c) (lv c)).count .listEnd = 0 := by
  rw [List.count_eq_zero]; simp

theorem solo_step {qs : List (Bytes × Int) → List (Bytes × Int)} {nm : Cid → Bytes} {w : World} {n : Net} {m : Mon} (h : SoloInv n m) {e : NEv}
    (hf : FairNet n m e) : SoloInv (nstep qs nm w n e).1 (m.net e (nstep qs nm w n e).2) := by
  cases e with
  | client i e =>
    obtain ⟨rfl, hf, hnc, hnr⟩ := hf
    simp only [nstep, Mon.net, outsOf_map]
    refine ⟨by simpa [setCli] using inv_step qs h.inv hf, ?_⟩
    rcases h.conns with hc | ⟨k, hc, ho, hl⟩
    · left; rw [hc]; exact netOut_nil _ _
    · right
      dsimp only
      rw [hc, (netOut_one ho _).1]
      refine ⟨_, rfl, (netOut_one ho _).2, ?_⟩
      simp only [setCli, if_true]
      cases e with
      | start ok =>
        simp only [cstep, Mon.step, Mon.ev]
        split
        · exact hl
        · rename_i hst
          have hst' : (n.cli 0).st = .idle := Classical.byContradiction hst
          have : LinkOk { n.cli 0 with st := .connecting } m k := by
            intro hlive
            refine ⟨fun hq => ?_, fun hq => ?_⟩
            · have := ((hl hlive).1 hq).1; rw [hst'] at this; cases this
            · rcases (hl hlive).2 hq with h1 | h1
              · exact Or.inl h1
              · rw [hst'] at h1; cases h1.1
          cases ok <;> exact this
      | stop => exact link_stop hl
      | request r a b d => exact link_request h.inv hl r a b d
      | connected b => exact absurd rfl (hnc b)
      | disconnected => exact link_stop (m := m) hl
      | sendCb ab =>
        have h1 : m.cbs = [] := hf
        have hq : true ∉ m.cbs := by rw [h1]; simp
        have hp := (h.inv.quiet hq).1
        simp only [cstep, Mon.step, Mon.ev]
        split
        · exact hl
        · exact hl
        · rename_i r hnl hm
          intro hlive
          obtain ⟨e1, e2⟩ := (hl hlive).1 hq
          refine ⟨fun hx => by simp [Mon.out] at hx, fun _ => Or.inr ⟨e1, ?_⟩⟩
          rw [hp, hm] at e2
          rw [if_neg (by intro hx; exact hnl (Option.some.inj hx))] at e2
          exact e2
      | reply x => exact absurd rfl (hnr x)
      | ret => exact link_ret qs h.inv hl
  | connect i b =>
    obtain ⟨rfl, hf, hst, hc⟩ := hf
    have hi := inv_step qs h.inv hf
    obtain ⟨h1, h2⟩ := hf
    have hp := (h.inv.quiet (by rw [h1]; simp)).1
    simp only [nstep, Mon.net, outsOf_map]
    refine ⟨by simpa [setCli, Mon.step, Mon.ev] using hi, Or.inr ?_⟩
    dsimp only
    rw [hc, List.nil_append, (netOut_one rfl _).1]
    refine ⟨_, rfl, (netOut_one rfl _).2, ?_⟩
    simp only [setCli, if_true, cstep, hst]
    split
    · rename_i hm
      intro _
      exact ⟨fun _ => ⟨rfl, by simp [hp, show (n.cli 0).msg = none from hm, Conn.lists]⟩, fun hx => by simp [h1] at hx⟩
    · rename_i r hm
      have hm' : (n.cli 0).msg = some r := hm
      rw [if_pos (h2 (by rw [hp, hm']; rfl))]
      intro _
      refine ⟨fun _ => ⟨rfl, ?_⟩, fun hx => by simp [h1, Mon.out] at hx⟩
      dsimp only [List.foldl_cons, List.foldl_nil]
      rw [lists_send]
      simp [Mon.out, hp, hm', Conn.lists]
  | serve j =>
    simp only [nstep]
    rcases h.conns with hc | ⟨k, hc, ho, hl⟩
    · rw [hc]; exact ⟨h.inv, Or.inl hc⟩
    · rw [hc]
      cases j with
      | succ j => exact ⟨h.inv, Or.inr ⟨k, hc, ho, hl⟩⟩
      | zero =>
        obtain ⟨owner, live, up, down⟩ := k
        cases up with
        | nil => exact ⟨h.inv, Or.inr ⟨_, hc, ho, hl⟩⟩
        | cons r up =>
          simp only [List.getElem?_cons_zero]
          refine ⟨h.inv, Or.inr ?_⟩
          cases r with
          | setTag name l =>
            refine ⟨{ owner, live, up, down }, ?_, ho, ?_⟩
            · have hsv : ∃ L, serve nm w n.lib (.setTag name l) = (L, [], false) := by
                simp only [serve]; split
                · exact ⟨_, rfl⟩
                · exact ⟨_, rfl⟩
              obtain ⟨L, hsv⟩ := hsv
              rw [hsv]; simp
            · intro hlive
              have := hl hlive
              simpa [Conn.lists, Mon.net, outsOf] using this
          | setAll l =>
            refine ⟨{ owner, live, up, down }, by simp [serve], ho, ?_⟩
            intro hlive
            have := hl hlive
            simpa [Conn.lists, Mon.net, outsOf] using this
          | list =>
            refine ⟨{ owner, live, up, down := down ++ (n.lib.list.filter (· != 0)).map (fun c => .info (nm c) (n.lib.level c)) ++ [.listEnd] },
              by simp [serve], ho, ?_⟩
            intro hlive
            have := hl hlive
            have hcount : Conn.lists { owner, live, up, down := down ++ (n.lib.list.filter (· != 0)).map (fun c => .info (nm c) (n.lib.level c)) ++ [.listEnd] } =
                Conn.lists { owner, live, up := .list :: up, down } := by
              simp only [Conn.lists, List.count_append, count_info, List.count_cons_self, List.count_nil]
              omega
            rw [hcount]
            exact this
  | deliver j =>
    have hcb : m.cbs = [] := hf
    have hq : true ∉ m.cbs := by rw [hcb]; simp
    simp only [nstep]
    rcases h.conns with hc | ⟨k, hc, ho, hl⟩
    · rw [hc]; exact ⟨h.inv, Or.inl hc⟩
    · rw [hc]
      cases j with
      | succ j => exact ⟨h.inv, Or.inr ⟨k, hc, ho, hl⟩⟩
      | zero =>
        obtain ⟨owner, live, up, down⟩ := k
        have ho' : owner = 0 := ho
        subst ho'
        cases live with
        | false => exact ⟨h.inv, Or.inr ⟨_, hc, rfl, hl⟩⟩
        | true =>
          cases down with
          | nil => exact ⟨h.inv, Or.inr ⟨_, hc, rfl, hl⟩⟩
          | cons x down =>
            simp only [List.getElem?_cons_zero, Mon.net, outsOf_map]
            obtain ⟨e1, e2⟩ := (hl rfl).1 hq
            have hfair : FairEv m (.reply x) := by
              cases x with
              | info a b => exact hcb
              | listEnd =>
                refine ⟨hcb, ?_⟩
                simp only [Conn.lists, List.count_cons_self] at e2
                split at e2
                · assumption
                · omega
            have hi := inv_step qs h.inv hfair
            refine ⟨by simpa [setCli, Mon.step, Mon.ev] using hi, Or.inr ?_⟩
            dsimp only
            rw [List.set_cons_zero, (netOut_one rfl _).1]
            refine ⟨_, rfl, (netOut_one rfl _).2, ?_⟩
            simp only [setCli, if_true]
            cases x with
            | info a b =>
              intro _
              refine ⟨fun _ => ⟨e1, ?_⟩, fun hx => absurd hx hq⟩
              have h0 : Reply.info a b ≠ .listEnd := by simp
              simp only [Conn.lists, List.count_cons_of_ne h0] at e2
              simp only [cstep, List.foldl_nil, Conn.lists]
              exact e2
            | listEnd =>
              intro _
              refine ⟨fun hx => by simp [cstep, Mon.out] at hx, fun _ => Or.inr ⟨e1, ?_⟩⟩
              simp only [Conn.lists, List.count_cons_self] at e2
              simp only [cstep, List.foldl_cons, List.foldl_nil, connOut, Conn.lists]
              split at e2 <;> omega

/-- **C44 for one client and one connection,** with the server of the library: never a
status callback without a pending request. -/
theorem C44_single {qs : List (Bytes × Int) → List (Bytes × Int)} {nm : Cid → Bytes} {lib : Lib} {n : Net} {m : Mon}
    (h : SoloRun qs nm lib n m) : m.bad = false := by
  have : SoloInv n m := by
    induction h with
    | nil => exact ⟨⟨rfl, rfl, Or.inl ⟨by simp [Mon.new], rfl, fun _ => rfl⟩⟩, Or.inl rfl⟩
    | step _ hf ih => exact solo_step ih hf
  exact this.inv.bad

end Verif.Tools
