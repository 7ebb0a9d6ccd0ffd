import Verif.Tools.Ctl
import Verif.Libulog.PropsWrite

/-!
# Remote control of levels (C44, C45, C46, C70)
-/
namespace Verif.Tools
open Verif Verif.Libulog

/-- What an observer of calls and callbacks knows: the accepted request without an
answer, the callbacks under way (`true`: of a status), and whether a request was
answered twice, or accepted over another one. -/
structure Mon where
  pend : Option Req
  cbs : List Bool
  bad : Bool
  deriving DecidableEq, Repr

def Mon.new : Mon := { pend := none, cbs := [], bad := false }

def Mon.out (m : Mon) : COut → Mon
  | .accepted r => { m with pend := some r, bad := m.bad || m.pend.isSome }
  | .status _ => { m with pend := none, cbs := true :: m.cbs, bad := m.bad || m.pend.isNone }
  | .info _ _ => { m with cbs := false :: m.cbs }
  | _ => m

def Mon.ev (m : Mon) : CEv → Mon
  | .ret => { m with cbs := m.cbs.tail }
  | _ => m

def Mon.step (m : Mon) (e : CEv) (o : List COut) : Mon := o.foldl Mon.out (m.ev e)

/-- How the environment must behave for C44: the loop does not run inside a callback;
the end of a list comes only to a client that asked for a list; a message waiting for
the connection can be sent; the user does not stop the client inside a status callback. -/
def FairEv (m : Mon) : CEv → Prop
  | .stop => true ∉ m.cbs
  | .connected sendOk => m.cbs = [] ∧ (m.pend.isSome → sendOk = true)
  | .disconnected => m.cbs = []
  | .sendCb _ => m.cbs = []
  | .reply .listEnd => m.cbs = [] ∧ m.pend = some .list
  | .reply _ => m.cbs = []
  | _ => True

/-- The observer after a run, if the environment was fair all along. -/
inductive FairRun (qs : List (Bytes × Int) → List (Bytes × Int)) : List CEv → Cli → Mon → List COut → Prop
  | nil : FairRun qs [] Cli.new Mon.new []
  | step {es c m o e} : FairRun qs es c m o → FairEv m e →
      FairRun qs (es ++ [e]) (cstep qs c e).1 (m.step e (cstep qs c e).2) (o ++ (cstep qs c e).2)

def Cont.isStatus : Cont → Bool
  | .infos _ => false
  | _ => true

structure CtlInv (c : Cli) (m : Mon) : Prop where
  bad : m.bad = false
  cbs : m.cbs = c.stack.map Cont.isStatus
  shape : (true ∉ m.cbs ∧ m.pend = c.msg ∧ (c.st = .idle → c.msg = none)) ∨
    (∃ l, m.cbs = true :: l ∧ true ∉ l ∧ m.pend = none ∧ c.msg.isSome)

theorem CtlInv.quiet {c : Cli} {m : Mon} (h : CtlInv c m) (hq : true ∉ m.cbs) : m.pend = c.msg ∧ (c.st = .idle → c.msg = none) := by
  rcases h.shape with ⟨_, h2⟩ | ⟨l, h1, _⟩
  · exact h2
  · rw [h1] at hq; simp at hq

theorem inv_stop {c : Cli} {m : Mon} (h : CtlInv c m) (hq : true ∉ m.cbs) : CtlInv c.stop.1 (c.stop.2.foldl Mon.out m) := by
  obtain ⟨hp, hi⟩ := h.quiet hq
  unfold Cli.stop
  split
  · exact h
  · split
    · rename_i hm
      refine ⟨?_, ?_, Or.inr ⟨m.cbs, rfl, hq, rfl, hm⟩⟩
      · cases hx : c.msg with
        | none => rw [hx] at hm; simp at hm
        | some r => simp [Mon.out, h.bad, hp, hx]
      · simp [Mon.out, h.cbs, Cont.isStatus]
    · rename_i hm
      refine ⟨h.bad, h.cbs, Or.inl ⟨hq, hp, fun _ => ?_⟩⟩
      cases hx : c.msg with
      | none => rfl
      | some r => simp [hx] at hm

theorem inv_infos {c : Cli} {m : Mon} (h : CtlInv c m) (hq : true ∉ m.cbs) (i : Nat) :
    CtlInv (c.infos i).1 ((c.infos i).2.foldl Mon.out m) := by
  obtain ⟨hp, hi⟩ := h.quiet hq
  unfold Cli.infos
  split
  · exact h
  · exact ⟨h.bad, by simp [Mon.out, h.cbs, Cont.isStatus], Or.inl ⟨by simpa [Mon.out] using hq, hp, hi⟩⟩

theorem inv_request {c : Cli} {m : Mon} (h : CtlInv c m) (r : Req) (a b d : Bool) :
    CtlInv (c.request r a b d).1 ((c.request r a b d).2.foldl Mon.out m) := by
  unfold Cli.request
  split
  · exact h
  · rename_i hst
    split
    · exact h
    · rename_i hmsg
      have hnone : c.msg = none := by cases hx : c.msg with
        | none => rfl
        | some r => simp [hx] at hmsg
      have hq : true ∉ m.cbs := by
        rcases h.shape with ⟨h1, _⟩ | ⟨l, _, _, _, h4⟩
        · exact h1
        · rw [hnone] at h4; simp at h4
      obtain ⟨hp, hi⟩ := h.quiet hq
      have hp' : m.pend = none := by rw [hp, hnone]
      split
      · exact h
      · have key : ∀ c' : Cli, c'.st = c.st → c'.msg = c.msg → c'.stack = c.stack →
            CtlInv (if b = false then (c', [COut.refused]) else if c'.st = .connected then
              (if d then ({ c' with msg := some r }, [.send r, .accepted r]) else (c', [.refused]))
              else ({ c' with msg := some r }, [.accepted r])).1
              ((if b = false then (c', [COut.refused]) else if c'.st = .connected then
              (if d then ({ c' with msg := some r }, [.send r, .accepted r]) else (c', [.refused]))
              else ({ c' with msg := some r }, [.accepted r])).2.foldl Mon.out m) := by
          intro c' e1 e2 e3
          have h' : CtlInv c' m := ⟨h.bad, by rw [e3]; exact h.cbs, Or.inl ⟨hq, by rw [e2]; exact hp, by rw [e1, e2]; exact hi⟩⟩
          have hacc : CtlInv { c' with msg := some r } (m.out (.accepted r)) :=
            ⟨by simp [Mon.out, h.bad, hp'], by simp only [Mon.out]; rw [e3]; exact h.cbs,
              Or.inl ⟨hq, rfl, fun hs => absurd (e1 ▸ hs) hst⟩⟩
          split
          · exact h'
          · split
            · split
              · exact hacc
              · exact h'
            · exact hacc
        split
        · exact key _ rfl rfl rfl
        · exact key _ rfl rfl rfl

theorem inv_step (qs : List (Bytes × Int) → List (Bytes × Int)) {c : Cli} {m : Mon} (h : CtlInv c m) {e : CEv} (hf : FairEv m e) :
    CtlInv (cstep qs c e).1 (m.step e (cstep qs c e).2) := by
  cases e with
  | start ok =>
    simp only [cstep, Mon.step, Mon.ev]
    split
    · exact h
    · rename_i hst
      have : CtlInv { c with st := .connecting } m := ⟨h.bad, h.cbs, by
        rcases h.shape with ⟨h1, h2, _⟩ | h1
        · exact Or.inl ⟨h1, h2, by simp⟩
        · exact Or.inr h1⟩
      cases ok <;> exact this
  | stop => exact inv_stop h hf
  | request r a b d => exact inv_request h r a b d
  | connected sendOk =>
    obtain ⟨h1, h2⟩ := hf
    obtain ⟨hp, hi⟩ := h.quiet (by rw [h1]; simp)
    simp only [cstep, Mon.step, Mon.ev]
    split
    · have : CtlInv { c with st := .connected } m := ⟨h.bad, h.cbs, Or.inl ⟨by rw [h1]; simp, hp, by simp⟩⟩
      split
      · exact this
      · rename_i r hm
        rw [if_pos (h2 (by rw [hp, show c.msg = some r from hm]; rfl))]
        exact this
    · exact h
  | disconnected => exact inv_stop (m := m) h (by rw [show m.cbs = [] from hf]; simp)
  | sendCb ab =>
    have h1 : m.cbs = [] := hf
    obtain ⟨hp, hi⟩ := h.quiet (by rw [h1]; simp)
    simp only [cstep, Mon.step, Mon.ev]
    split
    · exact h
    · exact h
    · rename_i r _ hm
      refine ⟨by simp [Mon.out, h.bad, hp, hm], by simp [Mon.out, h.cbs, Cont.isStatus], Or.inr ⟨m.cbs, rfl, by simp [h1], rfl, by simp [hm]⟩⟩
  | reply x =>
    cases x with
    | info n l => exact ⟨h.bad, h.cbs, h.shape⟩
    | listEnd =>
      obtain ⟨h1, h2⟩ := hf
      obtain ⟨hp, hi⟩ := h.quiet (by rw [h1]; simp)
      refine ⟨by simp [cstep, Mon.step, Mon.ev, Mon.out, h.bad, h2], by simp [cstep, Mon.step, Mon.ev, Mon.out, h.cbs, Cont.isStatus],
        Or.inr ⟨m.cbs, rfl, by simp [h1], rfl, by simp [cstep, ← hp, h2]⟩⟩
  | ret =>
    simp only [cstep, Mon.step, Mon.ev]
    have hsh := h.shape
    have hcb := h.cbs
    have haft : ∀ k ks, c.stack = k :: ks → true ∉ m.cbs.tail := by
      intro k ks hk
      rcases hsh with ⟨h1, _⟩ | ⟨l, h1, h2, _⟩
      · exact fun hx => h1 (List.mem_of_mem_tail hx)
      · rw [h1]; exact h2
    have hdone : ∀ k ks, c.stack = k :: ks → k.isStatus = true → m.pend = none := by
      intro k ks hk hs
      rcases hsh with ⟨h1, _⟩ | ⟨l, _, _, h3, _⟩
      · rw [hcb, hk, List.map_cons, hs] at h1; simp at h1
      · exact h3
    split
    · rename_i hst
      have : m.cbs = [] := by rw [hcb, hst]; rfl
      refine ⟨h.bad, by simp [this, hst], ?_⟩
      rcases hsh with ⟨h1, h2⟩ | ⟨l, h1, _⟩
      · exact Or.inl ⟨by simp [this], h2⟩
      · rw [this] at h1; simp at h1
    · rename_i k hst
      have hq := haft _ _ hst
      exact inv_infos (c := { c with msg := none, tags := qs c.tags, stack := k }) (m := { m with cbs := m.cbs.tail })
        ⟨h.bad, by rw [hcb, hst]; rfl, Or.inl ⟨hq, hdone _ _ hst rfl, by simp⟩⟩ hq 0
    · rename_i k hst
      exact ⟨h.bad, by simp [hcb, hst], Or.inl ⟨haft _ _ hst, hdone _ _ hst rfl, by simp⟩⟩
    · rename_i k hst
      exact ⟨h.bad, by simp [hcb, hst, Mon.out], Or.inl ⟨haft _ _ hst, hdone _ _ hst rfl, by simp⟩⟩
    · rename_i i k hst
      have hq := haft _ _ hst
      have hn : true ∉ m.cbs := by
        rcases hsh with ⟨h1, _⟩ | ⟨l, h1, _⟩
        · exact h1
        · rw [hcb, hst] at h1; simp [Cont.isStatus] at h1
      obtain ⟨hp, hi⟩ := h.quiet hn
      exact inv_infos (c := { c with stack := k }) (m := { m with cbs := m.cbs.tail })
        ⟨h.bad, by rw [hcb, hst]; rfl, Or.inl ⟨hq, hp, hi⟩⟩ hq i

theorem fair_inv {qs : List (Bytes × Int) → List (Bytes × Int)} {es : List CEv} {c : Cli} {m : Mon} {o : List COut}
    (h : FairRun qs es c m o) : CtlInv c m := by
  induction h with
  | nil => exact ⟨rfl, rfl, Or.inl ⟨by simp [Mon.new], rfl, fun _ => rfl⟩⟩
  | step _ hf ih => exact inv_step qs ih hf

/-- **C44, at most once:** with a fair environment there is never a status callback
without a pending request, nor a request accepted while one is pending. -/
theorem C44_once {qs : List (Bytes × Int) → List (Bytes × Int)} {es : List CEv} {c : Cli} {m : Mon} {o : List COut}
    (h : FairRun qs es c m o) : m.bad = false := (fair_inv h).bad

/-- **C44, at least once:** when the client is stopped or the connection lost, the
pending request, if there is one, gets a status callback with an error, at once. -/
theorem C44_stop {qs : List (Bytes × Int) → List (Bytes × Int)} {es : List CEv} {c : Cli} {m : Mon} {o : List COut}
    (h : FairRun qs es c m o) (hq : true ∉ m.cbs) :
    (m.step .stop (cstep qs c .stop).2).pend = none ∧ (m.step .disconnected (cstep qs c .disconnected).2).pend = none ∧
      ∀ r, m.pend = some r → (cstep qs c .stop).2 = [.status false] ∧ (cstep qs c .disconnected).2 = [.status false] := by
  obtain ⟨hp, hi⟩ := (fair_inv h).quiet hq
  simp only [cstep, Mon.step, Mon.ev, Cli.stop]
  refine ⟨?_, ?_, ?_⟩
  · split
    · rename_i h1; simp [hp, hi h1]
    · split
      · rfl
      · rename_i hm; simp [Mon.out, hp]; simpa using hm
  · split
    · rename_i h1; simp [hp, hi h1]
    · split
      · rfl
      · rename_i hm; simp [Mon.out, hp]; simpa using hm
  · intro r hr
    rw [hp] at hr
    have : c.st ≠ .idle := fun h1 => by rw [hi h1] at hr; simp at hr
    simp [this, hr]

/-- **C44, at least once:** a request to set a level is answered when its message has
been sent, a request for a list when the end of the list arrives. -/
theorem C44_done {qs : List (Bytes × Int) → List (Bytes × Int)} {es : List CEv} {c : Cli} {m : Mon} {o : List COut}
    (h : FairRun qs es c m o) (hq : m.cbs = []) :
    (∀ r, m.pend = some r → r ≠ .list → (cstep qs c (.sendCb false)).2 = [.status true]) ∧
      (m.pend = some .list → (cstep qs c (.reply .listEnd)).2 = [.status true]) := by
  obtain ⟨hp, hi⟩ := (fair_inv h).quiet (by rw [hq]; simp)
  refine ⟨?_, fun _ => rfl⟩
  intro r hr hl
  rw [hp] at hr
  simp only [cstep, hr]

/-- C44 is false when the message waiting for the connection cannot be sent: it is
forgotten, and even stopping the client does not answer the request. -/
theorem C44_false_send (qs : List (Bytes × Int) → List (Bytes × Int)) (r : Req) :
    (crun qs Cli.new [.start true, .request r true true true, .connected false, .stop]).2 = [.dial, .accepted r, .hangup] := by
  cases r <;> rfl

/-- C44 is false when the user stops the client in the status callback: a second
callback, with an error, follows the first. -/
theorem C44_false_stop (qs : List (Bytes × Int) → List (Bytes × Int)) (n : Bytes) (l : Int) :
    (crun qs Cli.new [.start true, .connected true, .request (.setTag n l) true true true, .sendCb false, .stop, .ret, .ret]).2 =
      [.dial, .send (.setTag n l), .accepted (.setTag n l), .status true, .status false, .hangup] := rfl

/-- The outputs of a client in a run of the system. -/
def outsOf (i : Nat) (l : List (Nat × COut)) : List COut := (l.filter (·.1 = i)).map (·.2)

def netNew (lib : Lib) : Net := { lib, cli := fun _ => Cli.new, conns := [] }

/-- C44 is false with two clients: the end of the list that client 1 asked for is
answered to client 0 as well, which never asked for anything. -/
theorem C44_false_broadcast (qs : List (Bytes × Int) → List (Bytes × Int)) (nm : Cid → Bytes) (w : World) (lib : Lib) :
    outsOf 0 (nrun qs nm w (netNew lib) [.client 0 (.start true), .connect 0 true, .client 1 (.start true), .connect 1 true,
      .client 1 (.request .list true true true), .serve 1, .deliver 0]).2 = [.dial, .status true] := by
  simp [nrun, nstep, cstep, outsOf, netNew, netOut, setCli, Cli.new, Cli.request, Cli.stop, serve]

/-- C44 is false even with one client, if it is started again while its request for a
list is under way: the new connection gets the end of the list of the old one. -/
theorem C44_false_restart (qs : List (Bytes × Int) → List (Bytes × Int)) (nm : Cid → Bytes) (w : World) (lib : Lib) :
    outsOf 0 (nrun qs nm w (netNew lib) [.client 0 (.start true), .connect 0 true, .client 0 (.request .list true true true),
      .client 0 .stop, .client 0 .ret, .client 0 (.start true), .connect 0 true, .serve 0, .deliver 1]).2 =
      [.dial, .send .list, .accepted .list, .status false, .hangup, .dial, .status true] := by
  simp [nrun, nstep, cstep, outsOf, netNew, netOut, setCli, Cli.new, Cli.request, Cli.stop, serve]

/-- C70 is false: a request whose message was not sent is reported as done. -/
theorem C70_false (qs : List (Bytes × Int) → List (Bytes × Int)) (n : Bytes) (l : Int) :
    (crun qs Cli.new [.start true, .connected true, .request (.setTag n l) true true true, .sendCb true]).2 =
      [.dial, .send (.setTag n l), .accepted (.setTag n l), .status true] := rfl

/-- The request `r` was given to libpomp, and nothing was answered since. -/
def SentSince (o : List COut) (r : Req) : Prop := ∃ o1 o2, o = o1 ++ .send r :: o2 ∧ ∀ d, COut.status d ∉ o2

theorem SentSince.more {o : List COut} {r : Req} (h : SentSince o r) {x : List COut} (hx : ∀ d, COut.status d ∉ x) : SentSince (o ++ x) r := by
  obtain ⟨o1, o2, rfl, h2⟩ := h
  exact ⟨o1, o2 ++ x, by simp, fun d => by simp [h2 d, hx d]⟩

theorem sent_infos (c : Cli) (m : Mon) (i : Nat) :
    (c.infos i).1.st = c.st ∧ ((c.infos i).2.foldl Mon.out m).pend = m.pend ∧ ∀ d, COut.status d ∉ (c.infos i).2 := by
  unfold Cli.infos
  split
  · simp
  · simp [Mon.out]

/-- **C70:** with a fair environment a request that is pending on an
open connection has been given to libpomp since the last answer. So a request reported
as done (C44_done) was given to libpomp; that it was sent is false (C70_false). -/
theorem C70_given {qs : List (Bytes × Int) → List (Bytes × Int)} {es : List CEv} {c : Cli} {m : Mon} {o : List COut}
    (h : FairRun qs es c m o) (hs : c.st = .connected) {r : Req} (hp : m.pend = some r) : SentSince o r := by
  induction h with
  | nil => simp [Mon.new] at hp
  | @step es c m o e h hf ih =>
    have hi := fair_inv h
    cases e with
    | start ok =>
      simp only [cstep] at hs ⊢
      split at hs
      · rename_i hc; rw [if_pos hc]
        exact (ih hs (by simpa [cstep, hc, Mon.step, Mon.ev, Mon.out] using hp)).more (by simp)
      · simp at hs
    | stop =>
      simp only [cstep, Cli.stop] at hs
      split at hs
      · rename_i h1; rw [h1] at hs; simp at hs
      · split at hs <;> simp at hs
    | disconnected =>
      simp only [cstep, Cli.stop] at hs
      split at hs
      · rename_i h1; rw [h1] at hs; simp at hs
      · split at hs <;> simp at hs
    | request q a b d =>
      simp only [cstep] at hs hp ⊢
      unfold Cli.request at hs hp ⊢
      split at hs
      · rename_i h1; rw [h1] at hs; simp at hs
      · rename_i h1
        rw [if_neg h1] at hp ⊢
        split at hs
        · rename_i h2; rw [if_pos h2] at hp ⊢
          exact (ih hs hp).more (by simp)
        · rename_i h2; rw [if_neg h2] at hp ⊢
          split at hs
          · rename_i h3; rw [if_pos h3] at hp ⊢
            exact (ih hs hp).more (by simp)
          · rename_i h3; rw [if_neg h3] at hp ⊢
            have key : ∀ c' : Cli, c'.st = c.st →
                (if b = false then (c', [COut.refused]) else if c'.st = .connected then
                  (if d then ({ c' with msg := some q }, [.send q, .accepted q]) else (c', [.refused]))
                  else ({ c' with msg := some q }, [.accepted q])).1.st = .connected →
                (m.step (.request q a b d) (if b = false then (c', [COut.refused]) else if c'.st = .connected then
                  (if d then ({ c' with msg := some q }, [.send q, .accepted q]) else (c', [.refused]))
                  else ({ c' with msg := some q }, [.accepted q])).2).pend = some r →
                SentSince (o ++ (if b = false then (c', [COut.refused]) else if c'.st = .connected then
                  (if d then ({ c' with msg := some q }, [.send q, .accepted q]) else (c', [.refused]))
                  else ({ c' with msg := some q }, [.accepted q])).2) r := by
              intro c' e1 hs hp
              by_cases hb : b = false
              · rw [if_pos hb] at hs hp ⊢
                exact (ih (e1 ▸ hs) hp).more (by simp)
              · rw [if_neg hb] at hs hp ⊢
                by_cases hc : c'.st = .connected
                · rw [if_pos hc] at hs hp ⊢
                  by_cases hd : d
                  · rw [if_pos hd] at hs hp ⊢
                    simp only [Mon.step, Mon.ev, Mon.out, List.foldl_cons, List.foldl_nil] at hp
                    cases hp
                    exact ⟨o, _, rfl, by simp⟩
                  · rw [if_neg hd] at hs hp ⊢
                    exact (ih (e1 ▸ hs) hp).more (by simp)
                · rw [if_neg hc] at hs; exact absurd hs hc
            by_cases hl : q = .list
            · simp only [if_pos hl] at hs hp ⊢; exact key { c with tags := [] } rfl hs hp
            · simp only [if_neg hl] at hs hp ⊢; exact key c rfl hs hp
    | connected sendOk =>
      obtain ⟨h1, h2⟩ := hf
      obtain ⟨hpm, _⟩ := hi.quiet (by rw [h1]; simp)
      simp only [cstep] at hs hp ⊢
      by_cases hc : c.st = .connecting
      · rw [if_pos hc] at hs hp ⊢
        cases hm : c.msg with
        | none => rw [hm] at hp hpm; simp [Mon.step, Mon.ev, hpm] at hp
        | some q =>
          rw [hm] at hp hpm
          have hok := h2 (by rw [hpm]; rfl)
          simp only [hok, if_true, Mon.step, Mon.ev, Mon.out, List.foldl_cons, List.foldl_nil] at hp ⊢
          rw [hpm] at hp; cases hp
          exact ⟨o, [], rfl, by simp⟩
      · rw [if_neg hc] at hs hp ⊢
        exact (ih hs hp).more (by simp)
    | sendCb ab =>
      simp only [cstep] at hs hp ⊢
      split at hp
      · rename_i hm; rw [hm] at hs; exact (ih hs hp).more (by simp)
      · rename_i hm; rw [hm] at hs; exact (ih hs hp).more (by simp)
      · simp [Mon.step, Mon.ev, Mon.out] at hp
    | reply x =>
      cases x with
      | info n l => exact (ih hs hp).more (by simp [cstep])
      | listEnd => simp [cstep, Mon.step, Mon.ev, Mon.out] at hp
    | ret =>
      simp only [cstep, Mon.step] at hs hp ⊢
      have hev : (m.ev .ret).pend = m.pend := rfl
      split at hp
      · rename_i hk; rw [hk] at hs; exact (ih hs (hev ▸ hp)).more (by simp)
      · rename_i k hk; rw [hk] at hs
        obtain ⟨a1, a2, a3⟩ := sent_infos { c with msg := none, tags := qs c.tags, stack := k } (m.ev .ret) 0
        exact (ih (by rw [a1] at hs; exact hs) (by rw [a2, hev] at hp; exact hp)).more a3
      · rename_i hk; rw [hk] at hs; exact (ih hs (hev ▸ hp)).more (by simp)
      · rename_i hk; rw [hk] at hs; exact (ih hs (hev ▸ hp)).more (by simp)
      · rename_i i k hk; rw [hk] at hs
        obtain ⟨a1, a2, a3⟩ := sent_infos { c with stack := k } (m.ev .ret) i
        exact (ih (by rw [a1] at hs; exact hs) (by rw [a2, hev] at hp; exact hp)).more a3

/-! ## Listing and setting levels -/

/-- Order of C strings (`strcmp`). -/
def bytesLe : Bytes → Bytes → Bool
  | [], _ => true
  | _ :: _, [] => false
  | a :: x, b :: y => if a = b then bytesLe x y else a < b

/-- A function that sorts by name, as `qsort` does; nothing is said of the order of
tags with the same name. -/
def Sorts (qs : List (Bytes × Int) → List (Bytes × Int)) : Prop :=
  ∀ l, (qs l).Perm l ∧ (qs l).Pairwise fun a b => bytesLe a.1 b.1 = true

theorem crun_append (qs : List (Bytes × Int) → List (Bytes × Int)) (c : Cli) (a b : List CEv) :
    crun qs c (a ++ b) = ((crun qs (crun qs c a).1 b).1, (crun qs c a).2 ++ (crun qs (crun qs c a).1 b).2) := by
  induction a generalizing c with
  | nil => rfl
  | cons e a ih => simp only [List.cons_append, crun, ih, List.append_assoc]

theorem crun_infos (qs : List (Bytes × Int) → List (Bytes × Int)) (l : List (Bytes × Int)) : ∀ c : Cli,
    crun qs c (l.map fun t => .reply (.info t.1 t.2)) = ({ c with tags := c.tags ++ l }, []) := by
  induction l with
  | nil => intro c; simp [crun]
  | cons t l ih => intro c; simp [crun, cstep, ih]

theorem crun_rets (qs : List (Bytes × Int) → List (Bytes × Int)) : ∀ (n : Nat) (c : Cli) (i : Nat) (k : List Cont),
    c.stack = .infos i :: k → c.tags.length = i + n →
    crun qs c (List.replicate (n + 1) .ret) =
      ({ c with stack := k }, (c.tags.drop i).map fun t => .info t.1 t.2) ∨ k ≠ [] := by
  intro n
  induction n with
  | zero =>
    intro c i k hk hl
    left
    have hn : c.tags[i]? = none := List.getElem?_eq_none (by omega)
    simp only [List.replicate, crun, cstep, hk, Cli.infos, hn]
    rw [List.drop_eq_nil_of_le (by omega)]
    simp
  | succ n ih =>
    intro c i k hk hl
    have hi : i < c.tags.length := by omega
    rcases ih { c with stack := .infos (i + 1) :: k } (i + 1) k rfl (by dsimp only; omega) with h | h
    · left
      rw [List.replicate_succ, crun]
      have hs : cstep qs c .ret = ({ c with stack := .infos (i + 1) :: k }, [.info c.tags[i].1 c.tags[i].2]) := by
        simp only [cstep, hk, Cli.infos, List.getElem?_eq_getElem hi]
      rw [hs, h, List.drop_eq_getElem_cons hi]
      rfl
    · exact Or.inr h

/-- **C45, listing:** a connected client that asks for the list is told, after the
status, of every tag of the server's process that was ever used, except the default
one, exactly once, with its current level, sorted by name. -/
theorem C45_list {nm : Cid → Bytes} {ops : List (World × WOp)} {s : Lib} {tr : List (WRes × List Ev)} (h : WRun nm ops s tr)
    {qs : List (Bytes × Int) → List (Bytes × Int)} (hqs : Sorts qs) {c : Cli} (hst : c.st = .connected) (hm : c.msg = none)
    (hk : c.stack = []) (w : World) :
    ∃ (answers : List Reply) (c' : Cli) (l : List (Bytes × Int)), serve nm w s .list = (s, answers, true) ∧
      crun qs c (.request .list true true true :: answers.map .reply ++ [.reply .listEnd] ++ List.replicate (answers.length + 1) .ret) =
        (c', [.send .list, .accepted .list, .status true] ++ l.map fun t => .info t.1 t.2) ∧
      c'.st = .connected ∧ c'.msg = none ∧ c'.stack = [] ∧
      l.Pairwise (fun a b => bytesLe a.1 b.1 = true) ∧
      ∀ lv : Cid → Int, (∀ d ∈ used (ops.map Prod.snd), LevelIs nm w s d (lv d)) →
        l.Perm (((used (ops.map Prod.snd)).filter fun d => decide (d ≠ 0)).map fun d => (nm d, lv d)) := by
  have hr := h.reg
  let tl := (s.list.filter (· != 0)).map fun d => (nm d, s.level d)
  have hans : serve nm w s .list = (s, tl.map (fun t => .info t.1 t.2), true) := by
    simp only [serve, tl, List.map_map]; rfl
  have hlen : (tl.map (fun t => Reply.info t.1 t.2)).length = tl.length := by simp
  have h1 : cstep qs c (.request .list true true true) = ({ c with msg := some .list, tags := [] }, [.send .list, .accepted .list]) := by
    simp [cstep, Cli.request, hst, hm]
  have h2 := crun_infos qs tl { c with msg := some .list, tags := [] }
  have hmap : (tl.map (fun t => Reply.info t.1 t.2)).map CEv.reply = tl.map fun t => CEv.reply (.info t.1 t.2) := by simp
  have hsl : (qs tl).length = tl.length := (hqs tl).1.length_eq
  refine ⟨_, { c with msg := none, tags := qs tl, stack := [] }, qs tl, hans, ?_, hst, rfl, rfl, (hqs tl).2, ?_⟩
  · rw [hlen, hmap, List.cons_append, List.cons_append, crun, h1, crun_append, crun_append, h2]
    simp only [List.nil_append, List.append_nil, crun, cstep]
    rw [List.replicate_succ, crun]
    simp only [cstep]
    cases hq : qs tl with
    | nil =>
      have : tl.length = 0 := by rw [← hsl, hq]; rfl
      rw [this]
      simp [Cli.infos, crun, hk]
    | cons t l =>
      have ht : tl.length = l.length + 1 := by rw [← hsl, hq]; rfl
      rw [ht]
      have hx := crun_rets qs l.length { st := c.st, msg := none, tags := t :: l, stack := [.infos 1] } 1 [] rfl (by simp; omega)
      simp only [Cli.infos, List.getElem?_cons_zero, hk]
      rcases hx with hx | hx
      · rw [hx]; simp
      · exact absurd rfl hx
  · intro lv hlv
    refine (hqs tl).1.trans ?_
    have : tl = ((used (ops.map Prod.snd)).filter fun d => decide (d ≠ 0)).map fun d => (nm d, lv d) := by
      simp only [tl, hr.list]
      have hf : (fun d : Cid => d != 0) = fun d => decide (d ≠ 0) := by
        funext d; by_cases hd : d = 0 <;> simp [hd]
      rw [hf]
      apply List.map_congr_left
      intro d hd
      have hd' := (List.mem_filter.mp hd).1
      have := hlv d hd'
      rw [levelIs_iff, (ensureInit_spec nm w hr d).2.2.1, if_pos hd'] at this
      rw [this]
    rw [this]

theorem setLevels_spec (nm : Cid → Bytes) (w : World) (l : Int) : ∀ (cs : List Cid) {s : Lib} {u : List Cid}, RegInv s u →
    (∀ c ∈ cs, c ∈ u) → RegInv (setLevels nm w s l cs) u ∧
      ∀ d, (setLevels nm w s l cs).level d = if d ∈ cs then max 0 (min 7 l) else s.level d := by
  intro cs
  induction cs with
  | nil => intro s u h _; exact ⟨h, fun d => by simp [setLevels]⟩
  | cons c cs ih =>
    intro s u h hm
    obtain ⟨h1, h2, h3, _⟩ := setLevel_spec nm w h c l
    rw [if_pos (hm c (by simp))] at h1
    obtain ⟨i1, i2⟩ := ih h1 (fun d hd => hm d (by simp [hd]))
    refine ⟨i1, fun d => ?_⟩
    rw [setLevels, i2]
    by_cases hd : d ∈ cs
    · simp [hd]
    · rw [if_neg hd]
      by_cases hc : d = c
      · rw [hc, h3, if_pos (by simp)]
      · rw [h2 d hc, if_neg (by simp [hd, hc])]

/-- **C45, all levels:** afterwards every used tag but the default one has the clamped
level, and the others the level they had. -/
theorem C45_set_all {nm : Cid → Bytes} {ops : List (World × WOp)} {s : Lib} {tr : List (WRes × List Ev)} (h : WRun nm ops s tr)
    (w : World) (l : Int) :
    ∃ s', serve nm w s (.setAll l) = (s', [], false) ∧
      (∀ c ∈ used (ops.map Prod.snd), c ≠ 0 → ∀ w', LevelIs nm w' s' c (max 0 (min 7 l))) ∧
      (0 ∈ used (ops.map Prod.snd) → ∀ w1 w2 l1, LevelIs nm w1 s 0 l1 → LevelIs nm w2 s' 0 l1) ∧ s'.list = s.list := by
  have hr := h.reg
  obtain ⟨h1, h2⟩ := setLevels_spec nm w l (s.list.filter (· != 0)) hr
    (fun c hc => by rw [hr.list] at hc; exact (List.mem_filter.mp hc).1)
  refine ⟨_, rfl, ?_, ?_, by rw [h1.list, hr.list]⟩
  · intro c hc h0 w'
    rw [levelIs_iff, (ensureInit_spec nm w' h1 c).2.2.1, if_pos hc, h2, if_pos]
    rw [hr.list]; simp [hc, h0]
  · intro h0 w1 w2 l1 hl
    rw [levelIs_iff, (ensureInit_spec nm w1 hr 0).2.2.1, if_pos h0] at hl
    rw [levelIs_iff, (ensureInit_spec nm w2 h1 0).2.2.1, if_pos h0, h2, if_neg (by simp), hl]

/-- **C45, one level:** a request for a name that exactly one used tag has makes that
tag report the clamped level and changes no other; for an unknown name nothing changes. -/
theorem C45_set_tag {nm : Cid → Bytes} {ops : List (World × WOp)} {s : Lib} {tr : List (WRes × List Ev)} (h : WRun nm ops s tr)
    (w : World) (name : Bytes) (l : Int) :
    ∃ s', serve nm w s (.setTag name l) = (s', [], false) ∧
      (∀ c ∈ used (ops.map Prod.snd), (∀ d ∈ used (ops.map Prod.snd), nm d = name ↔ d = c) → ∀ w', LevelIs nm w' s' c (max 0 (min 7 l))) ∧
      (∀ d ∈ used (ops.map Prod.snd), nm d ≠ name → ∀ w1 w2 l1, LevelIs nm w1 s d l1 → LevelIs nm w2 s' d l1) ∧
      ((∀ d ∈ used (ops.map Prod.snd), nm d ≠ name) → s' = s) := by
  have hr := h.reg
  unfold serve
  cases hf : s.list.find? fun c => nm c == name with
  | none =>
    rw [hr.list] at hf
    have hno : ∀ c ∈ used (ops.map Prod.snd), nm c ≠ name := fun c hc hx => by
      have := List.find?_eq_none.mp hf c hc; simp [hx] at this
    refine ⟨s, by dsimp only; rw [hr.list, hf], ?_, ?_, fun _ => rfl⟩
    · intro c hc hx
      exact absurd ((hx c hc).mpr rfl) (hno c hc)
    · intro d hd _ w1 w2 l1 hl
      rw [levelIs_iff, (ensureInit_spec nm w1 hr d).2.2.1, if_pos hd] at hl
      rw [levelIs_iff, (ensureInit_spec nm w2 hr d).2.2.1, if_pos hd, hl]
  | some c =>
    rw [hr.list] at hf
    have hc := List.mem_of_find?_eq_some hf
    have hname : nm c = name := by have := List.find?_some hf; simpa using this
    obtain ⟨h1, h2, h3, h4, _⟩ := setLevel_spec nm w hr c l
    rw [if_pos hc] at h1
    refine ⟨(setLevel nm w s c l).1, by dsimp only; rw [hr.list, hf], ?_, ?_, fun hno => absurd hname (hno c hc)⟩
    · intro c' hc' hx w'
      have : c = c' := (hx c hc).mp hname
      subst this
      rw [levelIs_iff, (ensureInit_spec nm w' h1 c).2.2.1, if_pos hc, h3]
    · intro d hd hne w1 w2 l1 hl
      rw [levelIs_iff, (ensureInit_spec nm w1 hr d).2.2.1, if_pos hd] at hl
      rw [levelIs_iff, (ensureInit_spec nm w2 h1 d).2.2.1, if_pos hd, hl, h2 d (fun hx => hne (hx ▸ hname))]

/-- C45 is false for a name that two used tags have: only the one used first last
changes. -/
theorem C45_false_twin {nm : Cid → Bytes} {ops : List (World × WOp)} {s : Lib} {tr : List (WRes × List Ev)} (h : WRun nm ops s tr)
    (w : World) (name : Bytes) (l : Int) {newer older : List Cid} {c d : Cid} (hu : used (ops.map Prod.snd) = newer ++ c :: older)
    (hn : ∀ e ∈ newer, nm e ≠ name) (hc : nm c = name) (hd : d ∈ older) :
    ∀ w1 w2 l1, LevelIs nm w1 s d l1 → LevelIs nm w2 (serve nm w s (.setTag name l)).1 d l1 := by
  have hr := h.reg
  have hf : (s.list.find? fun c => nm c == name) = some c := by
    rw [hr.list, hu]
    exact List.find?_eq_some_iff_append.mpr ⟨by simp [hc], newer, older, rfl, fun e he => by simpa using hn e he⟩
  have hcm : c ∈ used (ops.map Prod.snd) := by rw [hu]; simp
  have hdm : d ∈ used (ops.map Prod.snd) := by rw [hu]; simp [hd]
  have hne : d ≠ c := by
    intro hx
    have := hr.nodup
    rw [hu, List.nodup_append] at this
    exact (List.nodup_cons.mp this.2.1).1 (hx ▸ hd)
  obtain ⟨h1, h2, _⟩ := setLevel_spec nm w hr c l
  rw [if_pos hcm] at h1
  intro w1 w2 l1 hl
  simp only [serve, hf]
  rw [levelIs_iff, (ensureInit_spec nm w1 hr d).2.2.1, if_pos hdm] at hl
  rw [levelIs_iff, (ensureInit_spec nm w2 h1 d).2.2.1, if_pos hdm, hl, h2 d hne]

/-! ## Addresses -/

theorem pad_length {n : Nat} {b : Bytes} (h : b.length ≤ n) : (pad n b).length = n := by
  unfold pad; simp; omega

/-- **C46:** for every process name of at most 16 bytes, client and server use the
same address. -/
theorem C46_agree {proc : Bytes} (h : proc.length ≤ 16) : ∃ a, srvProcAddr proc = some a ∧ cliAddr proc = some a := by
  have hp : (ascii "@ulogctl_").length = 9 := by decide
  have hh : (ascii "@ulogctl_" ++ proc).head? = some 64 := by rfl
  unfold srvProcAddr cliAddr srvAddr
  dsimp only
  rw [List.take_of_length_le h, List.take_of_length_le (i := 49) (by rw [List.length_append]; omega)]
  generalize hf : ascii "@ulogctl_" ++ proc = full at *
  have hl : full.length ≤ 25 := by rw [← hf, List.length_append]; omega
  unfold sunPath sunOff
  rw [List.take_of_length_le (by omega)]
  have hhead : (pad 108 full).head? = some 64 := by
    unfold pad; cases full with
    | nil => simp at hh
    | cons b f => simpa using hh
  rw [if_pos hhead, Nat.add_comm full.length 2]
  have : ∃ a, copyAddr (afUnix ++ (pad 108 full).set 0 0) (2 + full.length) = some a := by
    unfold copyAddr storage
    rw [if_pos ⟨by rw [List.length_append, List.length_set, pad_length (by omega)]; simp [afUnix]; omega, by omega⟩]
    exact ⟨_, rfl⟩
  obtain ⟨a, ha⟩ := this
  exact ⟨a, ha, ha⟩

theorem iff_of_if {c q : Prop} [Decidable c] {a : Bytes} (h : c ↔ q) : (if c then some a else none).isSome = true ↔ q := by
  rw [← h]; split <;> simp_all

/-- C46: the copy of the address is inside both objects exactly for names of at most
99 bytes (client) and sockets of at most 108 bytes (server). -/
theorem C46_bounds (proc sock : Bytes) : ((cliAddr proc).isSome ↔ proc.length ≤ 99) ∧ ((srvAddr sock).isSome ↔ sock.length ≤ 108) := by
  have hp : (ascii "@ulogctl_").length = 9 := by decide
  have hl1 : ∀ x : Bytes, (pad sunPath (x.take (sunPath - 1))).length = 108 := fun x =>
    pad_length (by rw [List.length_take]; unfold sunPath; omega)
  constructor
  · unfold cliAddr copyAddr
    dsimp only
    rw [List.length_append, List.length_append, List.length_set, hl1]
    unfold sunOff storage
    simp only [afUnix, List.length_cons, List.length_nil]
    refine iff_of_if (by omega)
  · unfold srvAddr copyAddr
    dsimp only
    have : ∀ p : Bytes, p.length = 108 → (if p.head? = some 64 then p.set 0 0 else p).length = 108 := by
      intro p h; split <;> simp [h]
    rw [List.length_append, this _ (hl1 _)]
    unfold sunOff storage
    simp only [afUnix, List.length_cons, List.length_nil]
    refine iff_of_if (by omega)

/-- The name of a socket: `@` at the start stands for NUL. -/
def sunName : Bytes → Bytes
  | 64 :: r => 0 :: r
  | s => s

theorem pad_take_all {s : Bytes} (h : s.length ≤ 108) : (pad 108 (s.take 107)).take s.length = if s.length ≤ 107 then s else s.take 107 ++ [0] := by
  unfold pad
  split
  · rw [List.take_of_length_le (l := s) (by omega), List.take_left' rfl]
  · have : (s.take 107).length = 107 := by rw [List.length_take]; omega
    rw [this, List.take_of_length_le (by rw [List.length_append, this]; simp; omega)]
    rfl

/-- C46: the address is AF_UNIX and the name of the socket, of 108 bytes the last one NUL. -/
theorem C46_address {sock : Bytes} (h : sock.length ≤ 108) :
    srvAddr sock = some ([1, 0] ++ sunName (if sock.length ≤ 107 then sock else sock.take 107 ++ [0])) := by
  have hl : (pad 108 (sock.take 107)).length = 108 := pad_length (by rw [List.length_take]; omega)
  have hs := pad_take_all h
  unfold srvAddr copyAddr
  dsimp only
  unfold sunPath sunOff storage
  have hl' : (if (pad 108 (sock.take (108 - 1))).head? = some 64 then (pad 108 (sock.take (108 - 1))).set 0 0 else pad 108 (sock.take (108 - 1))).length = 108 := by
    split
    · rw [List.length_set]; exact hl
    · exact hl
  rw [if_pos ⟨by rw [List.length_append, hl']; simp [afUnix]; omega, by omega⟩]
  congr 1
  rw [List.take_append, show afUnix.length = 2 from rfl, List.take_of_length_le (by simp [afUnix]), Nat.add_sub_cancel_left]
  congr 1
  rw [← hs]
  show List.take sock.length (if (pad 108 (sock.take 107)).head? = some 64 then (pad 108 (sock.take 107)).set 0 0 else pad 108 (sock.take 107)) = _
  cases sock with
  | nil => rfl
  | cons b r =>
    have hp : ∃ q, pad 108 ((b :: r).take 107) = b :: q := ⟨_, rfl⟩
    obtain ⟨q, hq⟩ := hp
    rw [hq, List.length_cons, List.take_succ_cons]
    by_cases hb : b = 64
    · subst hb
      rw [if_pos (by rfl)]
      rfl
    · rw [if_neg (by simpa using hb), List.take_succ_cons]
      unfold sunName
      split
      · rename_i heq; exact absurd (List.cons.inj heq).1 hb
      · rfl

/-- C46: the client's address of a process. -/
theorem C46_client {proc : Bytes} (h : proc.length ≤ 98) : cliAddr proc = some ([1, 0, 0] ++ ascii "ulogctl_" ++ proc) := by
  have hp : (ascii "@ulogctl_").length = 9 := by decide
  have := C46_address (sock := ascii "@ulogctl_" ++ proc) (by rw [List.length_append]; omega)
  rw [if_pos (by rw [List.length_append]; omega)] at this
  have hs : ([1, 0] ++ sunName (ascii "@ulogctl_" ++ proc) : Bytes) = [1, 0, 0] ++ ascii "ulogctl_" ++ proc := rfl
  rw [hs] at this
  rw [← this]
  unfold cliAddr srvAddr
  dsimp only
  rw [if_pos (by rfl), Nat.add_comm]

example : srvAddr (ascii "@ulogctl_foo") = some ([1, 0, 0] ++ ascii "ulogctl_foo") ∧ srvAddr (ascii "/tmp/s") = some ([1, 0] ++ ascii "/tmp/s") :=
  ⟨C46_address (by decide), C46_address (by decide)⟩

/-- C46 is false for long names: the client reads past its address structure. -/
theorem C46_false : ∃ proc : Bytes, NoNul proc ∧ cliAddr proc = none := by
  refine ⟨List.replicate 100 65, ?_, ?_⟩
  · intro b hb; rw [List.eq_of_mem_replicate hb]; decide
  · have := (C46_bounds (List.replicate 100 65) []).1
    simp at this
    exact this

/-- **C70:** a send callback on an open connection, whatever status it is given, reports a
request as done exactly if a set request is pending; and this request was given to libpomp
since the last answer. -/
theorem C70_done {qs : List (Bytes × Int) → List (Bytes × Int)} {es : List CEv} {c : Cli} {m : Mon} {o : List COut}
    (h : FairRun qs es c m o) (hs : c.st = .connected) (hq : m.cbs = []) (aborted : Bool) :
    ((cstep qs c (.sendCb aborted)).2 = [.status true] ↔ ∃ r, m.pend = some r ∧ r ≠ .list) ∧
    ((cstep qs c (.sendCb aborted)).2 ≠ [.status true] → (cstep qs c (.sendCb aborted)).2 = []) ∧
    ∀ r, m.pend = some r → SentSince o r := by
  obtain ⟨hp, hi⟩ := (fair_inv h).quiet (by rw [hq]; simp)
  refine ⟨?_, ?_, fun r hr => C70_given h hs hr⟩
  · rw [hp]
    simp only [cstep]
    cases hm : c.msg with
    | none => simp
    | some r => cases r <;> simp
  · simp only [cstep]
    cases hm : c.msg with
    | none => simp
    | some r => cases r <;> simp

end Verif.Tools
