import Verif.Ulogcat.Stands

/-!
# A viewer alone with several devices

The world of `C119`: each device has its own driver state, and nobody but the viewer
uses them. Helper lemmas.
-/
namespace Verif.Ulogcat
open Verif Verif.Kernel Verif.Libulog

/-- Several devices, numbered from 0, each as in `driverWorld`; the viewer has opened
each as its file `fid`. The system call `poll` asks the drivers of the devices it is
asked about, one after the other. The call number `j` of `ulog_receive_entry` on
device `i` has the number `j * N + i`. -/
def fleet (N fid : Nat) (euid : UInt32) (csv : Bool) (sh : Nat → RecvOut → Bool) (n : Nat) : World (Nat → DW) where
  poll w a :=
    let asks := fun i => ((w i).others fid).exec (.poll fid euid)
    let answer := fun i => match (asks i).2 with
      | some (.poll b) => some b
      | _ => none
    if (List.range N).all fun i => !a i || (answer i).isSome then
      (.ok fun i => decide (i < N) && a i && (answer i).getD false, fun i => if i < N ∧ a i then (asks i).1 else w i)
    else (.err, w)
  recv w i :=
    if i < N then
      match (w i).receive fid euid csv n with
      | (w', some o) => (o.toRecv (sh i) ((w i).os.length * N + i), fun j => if j = i then { w' with os := (w i).os ++ [o] } else w j)
      | (_, none) => (.err, w)
    else (.again, w)
  output w _ := (true, w)

/-! ## What is not asked for does not matter -/

variable {σ : Type}

/-- The world, with answers only for the devices asked for. -/
def World.masked (W : World σ) : World σ :=
  { W with
    poll := fun s a =>
      match W.poll s a with
      | (.ok r, s) => (.ok fun i => a i && r i, s)
      | x => x }

theorem masked_devs (W : World σ) (asked ready : Nat → Bool) (is : List Nat) : ∀ (c : Ctx) (s : σ) (n : Int),
    readDevs W.masked asked (fun i => asked i && ready i) is c s n = readDevs W asked ready is c s n := by
  induction is with
  | nil => intro c s n; rfl
  | cons i is ih =>
    intro c s n
    have hr : ∀ s i, W.masked.recv s i = W.recv s i := fun _ _ => rfl
    unfold readDevs
    simp only [hr, ih]
    cases asked i <;> cases ready i <;> rfl

theorem masked_renderFrame (W : World σ) (drop : Bool) : flushRenderFrame W.masked drop = flushRenderFrame W drop := rfl

theorem masked_pendingFrame (W : World σ) (drop : Bool) : flushPendingFrame W.masked drop = flushPendingFrame W drop := rfl

theorem masked_renderQueue (W : World σ) (n : Nat) : flushRenderQueue W.masked n = flushRenderQueue W n := by
  induction n with
  | zero => rfl
  | succ n ih =>
    funext c s
    unfold flushRenderQueue
    rw [masked_renderFrame, ih]

theorem masked_pendingQueue (W : World σ) (n : Nat) : flushPendingQueue W.masked n = flushPendingQueue W n := by
  induction n with
  | zero => rfl
  | succ n ih =>
    funext c s
    unfold flushPendingQueue
    rw [masked_pendingFrame, ih]

theorem masked_dropExcess (W : World σ) (n : Nat) : dropExcess W.masked n = dropExcess W n := by
  induction n with
  | zero => rfl
  | succ n ih =>
    funext c s
    unfold dropExcess
    rw [masked_pendingFrame, masked_renderFrame, ih]

theorem masked_endPass (W : World σ) (c : Ctx) (s : σ) : endPass W.masked c s = endPass W c s := by
  have hp : pullFrame W.masked = pullFrame W := rfl
  have ht : tailFlush W.masked = tailFlush W := by
    funext c s
    unfold tailFlush
    simp only [masked_dropExcess, masked_renderQueue]
  unfold endPass
  rw [hp, ht]

theorem masked_devices (W : World σ) (c : Ctx) (s : σ) : processDevices W.masked c s = processDevices W c s := by
  unfold processDevices
  dsimp only
  have hp : ∀ a, W.masked.poll s a = match W.poll s a with
      | (.ok r, s) => (.ok fun i => a i && r i, s)
      | x => x := fun _ => rfl
  rw [hp]
  generalize W.poll s _ = x
  obtain ⟨r, s'⟩ := x
  cases r with
  | ok ready =>
    dsimp only
    rw [masked_devs]
    simp only [masked_endPass]
  | intr => rfl
  | err => rfl

theorem masked_logs (W : World σ) (dump : Bool) (max : Int) (fuel : Nat) : ∀ (c : Ctx) (s : σ) (fr : Int),
    processLogs W.masked dump max fuel c s fr = processLogs W dump max fuel c s fr := by
  induction fuel with
  | zero => intro c s fr; rfl
  | succ fuel ih =>
    intro c s fr
    unfold processLogs
    rw [masked_devices]
    simp only [ih, masked_pendingQueue]

/-! ## What is shown of an entry -/

theorem shownLines_ne (s : Bytes) : shownLines s ≠ [] := by
  unfold shownLines
  generalize (if s.getLast? = some 10 then s.dropLast else s) = u
  cases u with
  | nil => simp [splitNl]
  | cons b u =>
    unfold splitNl
    split
    · simp
    · split <;> simp

theorem cut_ne {α : Type} {l : List α} (h : l ≠ []) (f : α → Bytes) (hf : ∀ x, f x ≠ []) : cut 5248 (l.map f).flatten ≠ [] := by
  intro hc
  have hl := congrArg List.length hc
  rw [cut_length] at hl
  obtain ⟨x, xs, rfl⟩ := List.exists_cons_of_ne_nil h
  have := List.length_pos_iff.2 (hf x)
  rw [List.map_cons, List.flatten_cons, List.length_append, List.length_nil] at hl
  omega

/-- In the text formats nothing is shown only of binary entries. -/
theorem entryText_ne {L : Look} (hf : L.fmt ≠ .csv) {e : Entry} (h : recvRet false (decode (e.pid != e.tid) e.payload) ≠ 0) :
    entryText L e ≠ [] := by
  have hl : ∀ i l, lineText L i l ≠ [] := by
    intro i l h
    have := congrArg List.length h
    unfold lineText at this
    simp only [List.length_append, List.length_cons, List.length_nil] at this
    omega
  unfold recvRet at h
  unfold entryText
  dsimp only
  split at h
  · rename_i s hd
    rw [hd]
    split
    · unfold kernelText
      exact cut_ne (shownLines_ne _) _ (hl _)
    · exact cut_ne (shownLines_ne _) _ (hl _)
  · simp at h

/-- What `ulog_receive_entry` does not deliver is not shown. -/
theorem entryText_none {L : Look} (hfix : L.kmsgd = true → L.fmt ≠ .csv) {e : Entry}
    (h : recvRet (decide (L.fmt = .csv)) (decode (e.pid != e.tid) e.payload) = 0) : entryText L e = [] := by
  unfold recvRet at h
  unfold entryText
  dsimp only
  split at h
  · cases h
  · rename_i s hd
    have hf : ¬ L.fmt = .csv := by
      intro hf
      rw [if_pos (decide_eq_true hf)] at h
      cases h
    rw [hd]
    split
    · rfl
    · rfl

/-! ## The devices as lists -/

/-- The entries of device `i` from number `j` on, as `quiet` has them. -/
def items (csv : Bool) (N i : Nat) : Nat → List Entry → List Item
  | _, [] => []
  | j, e :: es =>
    (if recvRet csv (decode (e.pid != e.tid) e.payload) = 0 then .bin else .text (micros e.sec e.nsec) (j * N + i)) ::
      items csv N i (j + 1) es

/-- The devices: their entries, and what the viewer will receive of them. -/
structure Fleet where
  N : Nat
  name : Nat → Bytes
  k : Nat → Nat
  hist : Nat → List Entry
  es : Nat → List Entry
  L : Nat → Look
  csv : Bool

/-- What will be received can be shown. -/
structure Fleet.Ok (F : Fleet) : Prop where
  csv : ∀ i, i < F.N → F.csv = decide ((F.L i).fmt = .csv)
  fix : ∀ i, i < F.N → (F.L i).kmsgd = true → (F.L i).fmt ≠ .csv
  shown : ∀ i, i < F.N → ∀ e ∈ F.es i, recvRet F.csv (decode (e.pid != e.tid) e.payload) ≠ 0 → entryText (F.L i) e ≠ []

/-- Device `i` after the first `p` records were received. -/
structure Fleet.Dev (F : Fleet) (fid i p : Nat) (w : DW) (l : List Item) : Prop where
  pos : ∃ x, Stands (F.name i) (F.k i) fid (F.hist i) x w ∧ seenFrom (F.name i) x (F.hist i) = (F.es i).drop p
  le : p ≤ (F.es i).length
  left : l = items F.csv F.N i p ((F.es i).drop p)
  count : p < (F.es i).length → w.os.length = p
  got : ∀ j e, j < p → (F.es i)[j]? = some e → ∃ o, w.os[j]? = some o ∧ Received F.csv (e.view 2) e o
  all : ∀ o ∈ w.os, o.ret ≤ 0 ∨ ∃ bs e, Received F.csv bs e o

structure Fleet.Rel (F : Fleet) (fid : Nat) (w : Nat → DW) (s : Logs) : Prop where
  dev : ∀ i, i < F.N → ∃ p, F.Dev fid i p (w i) (s i)
  none : ∀ i, F.N ≤ i → s i = []

theorem items_empty (csv : Bool) (N i j : Nat) (l : List Entry) : (items csv N i j l).isEmpty = l.isEmpty := by
  cases l <;> rfl

theorem Fleet.Dev.poll {F : Fleet} {fid i p : Nat} {w : DW} {l : List Item} (D : F.Dev fid i p w l) (euid : UInt32) :
    ∃ w', (w.others fid).exec (.poll fid euid) = (w', some (.poll (!l.isEmpty))) ∧ F.Dev fid i p w' l := by
  obtain ⟨x, hs, hx⟩ := D.pos
  obtain ⟨w', e, al, h2⟩ := hs.poll euid
  rw [hx, ← items_empty F.csv F.N i p, ← D.left] at e
  refine ⟨w', by rw [others_alone hs.env]; exact e, ⟨x, al, hx⟩, D.le, D.left, ?_, ?_, ?_⟩
  · rw [h2]; exact D.count
  · rw [h2]; exact D.got
  · rw [h2]; exact D.all

theorem Fleet.Dev.recv {F : Fleet} (ok : F.Ok) {fid i p : Nat} {w : DW} {l : List Item} (hi : i < F.N) (D : F.Dev fid i p w l) (euid : UInt32) (n : Nat) :
    ∃ w' o, w.receive fid euid F.csv (n + 1) = (w', some o) ∧
      ((l = [] ∧ o.toRecv (canRender (F.L i)) (w.os.length * F.N + i) = .again ∧ F.Dev fid i p { w' with os := w.os ++ [o] } l) ∨
       (∃ t, l = .bin :: t ∧ o.toRecv (canRender (F.L i)) (w.os.length * F.N + i) = .again ∧
          F.Dev fid i (p + 1) { w' with os := w.os ++ [o] } t) ∨
       (∃ stamp id t, l = .text stamp id :: t ∧ o.toRecv (canRender (F.L i)) (w.os.length * F.N + i) = .got stamp id true 0 ∧
          F.Dev fid i (p + 1) { w' with os := w.os ++ [o] } t)) := by
  rcases Nat.lt_or_ge p (F.es i).length with hp | hp
  · obtain ⟨x, hs, hx⟩ := D.pos
    rw [List.drop_eq_getElem_cons hp] at hx
    obtain ⟨w', o, x', e1, hr, h2, al, hx'⟩ := hs.next hx euid F.csv n
    have hcount := D.count hp
    have hleft := D.left
    rw [List.drop_eq_getElem_cons hp, items] at hleft
    have D' : F.Dev fid i (p + 1) { w' with os := w.os ++ [o] } (items F.csv F.N i (p + 1) ((F.es i).drop (p + 1))) := by
      refine ⟨⟨x', al.withOs, hx'⟩, hp, rfl, ?_, ?_, ?_⟩
      · intro _
        dsimp only
        rw [List.length_append, hcount]
        rfl
      · intro j e hj hej
        rcases Nat.lt_or_ge j p with hjp | hjp
        · obtain ⟨o', g1, g2⟩ := D.got j e hjp hej
          refine ⟨o', ?_, g2⟩
          dsimp only
          rw [List.getElem?_append_left (by omega)]
          exact g1
        · have : j = p := by omega
          subst this
          rw [List.getElem?_eq_getElem hp] at hej
          cases hej
          refine ⟨o, ?_, hr⟩
          dsimp only
          rw [List.getElem?_append_right (by omega), hcount, Nat.sub_self]
          rfl
      · intro o' ho'
        rcases List.mem_append.1 ho' with ho' | ho'
        · exact D.all o' ho'
        · rw [List.mem_singleton.1 ho']
          exact .inr ⟨_, _, hr⟩
    refine ⟨w', o, e1, .inr ?_⟩
    by_cases h0 : recvRet F.csv (decode ((F.es i)[p].pid != (F.es i)[p].tid) (F.es i)[p].payload) = 0
    · rw [if_pos h0] at hleft
      refine .inl ⟨_, hleft, ?_, D'⟩
      unfold RecvOut.toRecv
      rw [hr.ret, h0]
      rfl
    · rw [if_neg h0] at hleft
      refine .inr ⟨_, _, _, hleft, ?_, D'⟩
      have hsh := ok.shown i hi _ (List.getElem_mem hp) h0
      rcases received_shown (ok.fix i hi) (ok.csv i hi) hr with ⟨r1, r2, _⟩ | ⟨_, r2⟩
      · unfold RecvOut.toRecv
        rw [if_neg (by omega), if_neg (by omega), r2, hr.stamp, hr.taken, hcount]
        rfl
      · exact absurd r2 hsh
  · obtain ⟨x, hs, hx⟩ := D.pos
    obtain ⟨w', o, e1, hr, h2, al⟩ := hs.none_left (by rw [hx]; exact List.drop_of_length_le hp) euid F.csv n
    refine ⟨w', o, e1, .inl ⟨?_, ?_, ⟨x, al.withOs, hx⟩, D.le, D.left, fun h => by omega, ?_, ?_⟩⟩
    · rw [D.left, List.drop_of_length_le hp]; rfl
    · unfold RecvOut.toRecv
      rw [hr]
      rfl
    · intro j e hj hej
      obtain ⟨o', g1, g2⟩ := D.got j e hj hej
      have := (List.getElem?_eq_some_iff.1 g1).1
      refine ⟨o', ?_, g2⟩
      dsimp only
      rw [List.getElem?_append_left this]
      exact g1
    · intro o' ho'
      rcases List.mem_append.1 ho' with ho' | ho'
      · exact D.all o' ho'
      · rw [List.mem_singleton.1 ho']
        exact .inl (by omega)

/-- To the viewer the devices are lists of entries. -/
theorem Fleet.sim {F : Fleet} (ok : F.Ok) (fid : Nat) (euid : UInt32) (n : Nat) :
    Sim (fleet F.N fid euid F.csv (fun i => canRender (F.L i)) (n + 1)) quiet.masked (F.Rel fid) := by
  refine ⟨?_, ?_, ?_⟩
  · intro w s R a
    have hans : ∀ i, i < F.N → (((w i).others fid).exec (.poll fid euid)).2 = some (.poll (!(s i).isEmpty)) := by
      intro i hi
      obtain ⟨p, D⟩ := R.dev i hi
      obtain ⟨w', e, _⟩ := D.poll euid
      rw [e]
    have hall : ((List.range F.N).all fun i => !a i || (match (((w i).others fid).exec (.poll fid euid)).2 with
        | some (.poll b) => some b
        | _ => none).isSome) = true := by
      rw [List.all_eq_true]
      intro i hi
      rw [hans i (List.mem_range.1 hi)]
      simp
    have hpoll : (fleet F.N fid euid F.csv (fun i => canRender (F.L i)) (n + 1)).poll w a =
        (.ok fun i => decide (i < F.N) && a i && (match (((w i).others fid).exec (.poll fid euid)).2 with
            | some (.poll b) => some b
            | _ => none).getD false,
          fun i => if i < F.N ∧ a i then (((w i).others fid).exec (.poll fid euid)).1 else w i) := by
      unfold fleet
      dsimp only
      rw [if_pos hall]
    rw [hpoll]
    refine ⟨?_, ?_, ?_⟩
    · show Poll.ok _ = Poll.ok fun i => a i && !(s i).isEmpty
      congr 1
      funext i
      by_cases hi : i < F.N
      · rw [hans i hi]
        simp [hi]
      · rw [R.none i (by omega)]
        simp [hi]
    · intro i hi
      obtain ⟨p, D⟩ := R.dev i hi
      obtain ⟨w', e, D'⟩ := D.poll euid
      show ∃ p, F.Dev fid i p (if i < F.N ∧ a i then (((w i).others fid).exec (.poll fid euid)).1 else w i) (s i)
      split
      · rw [e]; exact ⟨p, D'⟩
      · exact ⟨p, D⟩
    · exact R.none
  · intro w s R i
    by_cases hi : i < F.N
    · obtain ⟨p, D⟩ := R.dev i hi
      obtain ⟨w', o, e, h⟩ := D.recv ok hi euid n
      have hrecv : (fleet F.N fid euid F.csv (fun i => canRender (F.L i)) (n + 1)).recv w i =
          (o.toRecv (canRender (F.L i)) ((w i).os.length * F.N + i), fun j => if j = i then { w' with os := (w i).os ++ [o] } else w j) := by
        unfold fleet
        dsimp only
        rw [if_pos hi, e]
      have hset : ∀ q t, F.Dev fid i q { w' with os := (w i).os ++ [o] } t →
          ∀ s' : Logs, s' i = t → (∀ j, j ≠ i → s' j = s j) → F.Rel fid (fun j => if j = i then { w' with os := (w i).os ++ [o] } else w j) s' := by
        intro q t D' s' h1 h2
        refine ⟨fun j hj => ?_, fun j hj => ?_⟩
        · by_cases hji : j = i
          · subst hji
            rw [if_pos rfl, h1]
            exact ⟨q, D'⟩
          · rw [if_neg hji, h2 j hji]
            exact R.dev j hj
        · rw [h2 j (by omega)]
          exact R.none j hj
      rw [hrecv]
      rcases h with ⟨h1, h2, D'⟩ | ⟨t, h1, h2, D'⟩ | ⟨stamp, id, t, h1, h2, D'⟩
      · have hq : quiet.masked.recv s i = (.again, s) := by
          show (match s i with
            | [] => (Recv.again, s)
            | .bin :: _ => (.again, s.drop1 i)
            | .text stamp id :: _ => (.got stamp id true 0, s.drop1 i)) = _
          rw [h1]
        rw [hq]
        exact ⟨h2, hset _ _ D' s rfl fun _ _ => rfl⟩
      · have hq : quiet.masked.recv s i = (.again, s.drop1 i) := by
          show (match s i with
            | [] => (Recv.again, s)
            | .bin :: _ => (.again, s.drop1 i)
            | .text stamp id :: _ => (.got stamp id true 0, s.drop1 i)) = _
          rw [h1]
        rw [hq]
        exact ⟨h2, hset _ _ D' _ (by simp [Logs.drop1, h1]) fun j hj => by simp [Logs.drop1, hj]⟩
      · have hq : quiet.masked.recv s i = (.got stamp id true 0, s.drop1 i) := by
          show (match s i with
            | [] => (Recv.again, s)
            | .bin :: _ => (.again, s.drop1 i)
            | .text stamp id :: _ => (.got stamp id true 0, s.drop1 i)) = _
          rw [h1]
        rw [hq]
        exact ⟨h2, hset _ _ D' _ (by simp [Logs.drop1, h1]) fun j hj => by simp [Logs.drop1, hj]⟩
    · have hrecv : (fleet F.N fid euid F.csv (fun i => canRender (F.L i)) (n + 1)).recv w i = (.again, w) := by
        unfold fleet
        dsimp only
        rw [if_neg hi]
      have hq : quiet.masked.recv s i = (.again, s) := by
        show (match s i with
          | [] => (Recv.again, s)
          | .bin :: _ => (.again, s.drop1 i)
          | .text stamp id :: _ => (.got stamp id true 0, s.drop1 i)) = _
        rw [R.none i (by omega)]
      rw [hrecv, hq]
      exact ⟨rfl, R⟩
  · intro w s R e
    exact ⟨rfl, R⟩

end Verif.Ulogcat
