import Verif.Ulogcat.PropsFleet

/-!
# Several devices on one screen, with losses (C135)

C119 without room for everything: what the ring of each device still holds is shown,
after a notice with the number of the entries it dropped.
-/
namespace Verif.Ulogcat
open Verif Verif.Kernel Verif.Libulog

/-! ## Specification -/

variable {α : Type}

/-- The oldest are given up until `need` bytes are free. -/
def giveUp (sz : α → Nat) : List α → Nat → List α
  | [], _ => []
  | x :: l, need => if sz x < need then giveUp sz l (need - sz x) else l

/-- A ring of `size` bytes with `l` in it, after `x` was added. It is never full. -/
def ringAdd (sz : α → Nat) (size : Nat) (l : List α) (x : α) : List α :=
  (if (l.map sz).sum + sz x < size then l else giveUp sz l (sz x)) ++ [x]

/-- What a ring of `size` bytes still holds of what was added to it. -/
def ringHolds (sz : α → Nat) (size : Nat) (l : List α) : List α := l.foldl (ringAdd sz size) []

/-- What is shown of a device: the entry of a message, or a notice that `n` were
dropped, with the time of the message after it. -/
inductive Row where
  | line (m : Said)
  | notice (n : Nat) (m : Said)

def Row.time : Nat × Row → Nat
  | (_, .line m) | (_, .notice _ m) => micros m.task.sec m.task.nsec

def Row.text (P : Nat → Prog) (L : Look) (name : Bytes) : Row → Bytes
  | .line m => m.lines P L
  | .notice n m => textShown L (noticeInfo name (m.entry P)) (decNat n ++ ascii " log entries dropped" ++ [10])

/-- What is shown of a device with a ring of `size` bytes after these messages. -/
def rows (P : Nat → Prog) (size : Nat) (ms : List Said) : List Row :=
  match ringHolds (·.size P) size ms with
  | [] => []
  | m :: t => (if t.length + 1 < ms.length then [.notice (ms.length - (t.length + 1)) m] else []) ++ (m :: t).map .line

/-- The same of any entries. -/
def seenOf (name : Bytes) (size : Nat) (es : List Entry) : List Entry :=
  match ringHolds Entry.size size es with
  | [] => []
  | e :: t => (if t.length + 1 < es.length then [summaryEntry name (es.length - (t.length + 1)) e] else []) ++ e :: t

/-! ## The ring -/

theorem giveUp_adv (l : List Entry) : ∀ need, giveUp Entry.size l need = l.drop (adv l need) := by
  induction l with
  | nil => intro need; simp [giveUp, adv]
  | cons e l ih =>
    intro need
    unfold giveUp adv
    split
    · rw [ih, List.drop_succ_cons]
    · rfl

theorem giveUp_map {β : Type} {f : α → β} {sa : α → Nat} {sb : β → Nat} (h : ∀ x, sb (f x) = sa x) (l : List α) :
    ∀ need, giveUp sb (l.map f) need = (giveUp sa l need).map f := by
  induction l with
  | nil => intro need; rfl
  | cons x l ih =>
    intro need
    rw [List.map_cons]
    unfold giveUp
    rw [h]
    split
    · exact ih _
    · rfl

theorem ringHolds_map {β : Type} {f : α → β} {sa : α → Nat} {sb : β → Nat} (h : ∀ x, sb (f x) = sa x) (size : Nat) (l : List α) :
    ringHolds sb size (l.map f) = (ringHolds sa size l).map f := by
  have hs : ∀ l : List α, (l.map f).map sb = l.map sa := by
    intro l
    rw [List.map_map]
    exact List.map_congr_left fun x _ => h x
  have : ∀ (l s : List α), (l.map f).foldl (ringAdd sb size) (s.map f) = (l.foldl (ringAdd sa size) s).map f := by
    intro l
    induction l with
    | nil => intro s; rfl
    | cons x l ih =>
      intro s
      rw [List.map_cons, List.foldl_cons, List.foldl_cons, ← ih]
      congr 1
      unfold ringAdd
      rw [hs, h, List.map_append, giveUp_map h]
      split <;> rfl
  exact this l []

theorem ringHolds_snoc (sz : α → Nat) (size : Nat) (l : List α) (x : α) :
    ringHolds sz size (l ++ [x]) = ringAdd sz size (ringHolds sz size l) x := by
  unfold ringHolds
  rw [List.foldl_append]
  rfl

/-- The ring holds what the head of the log says. -/
structure RingOk (a : ASys) : Prop where
  size : 16384 ≤ a.log.size
  wf : ∀ e ∈ a.log.hist, e.wf
  le : a.log.head ≤ a.log.hist.length
  ring : a.log.hist.drop a.log.head = ringHolds Entry.size a.log.size a.log.hist

theorem RingOk.step {a : ASys} (h : RingOk a) (op : Op) (hf : ∀ f, op ≠ .flush f)
    (hw : ∀ f t it j, op = .write f t it j → (astep a op).2 ≠ .err .efault) : RingOk (astep a op).1 := by
  have same : ∀ b : ASys, b.log.size = a.log.size → b.log.hist = a.log.hist → b.log.head = a.log.head → RingOk b := by
    intro b b1 b2 b3
    refine ⟨by rw [b1]; exact h.size, by rw [b2]; exact h.wf, by rw [b2, b3]; exact h.le, by rw [b1, b2, b3]; exact h.ring⟩
  cases hfile : a.files op.fid with
  | none =>
    cases op with
    | openF fid rd wr all =>
      simp only [astep, hfile]
      split <;> exact same _ rfl rfl rfl
    | _ => simp only [astep, hfile]; exact h
  | some f =>
    cases op with
    | write fid t it j =>
      have hw := hw fid t it j rfl
      simp only [astep, hfile, astepFile] at hw ⊢
      split
      · rename_i hwr
        rw [if_pos hwr] at hw
        rcases awrite_cases a.log f.raw t it with ⟨e1, _⟩ | ⟨e1, _⟩ | ⟨e, n, e1, _, e3, _⟩ | ⟨e, n, e1, _⟩
        · rw [e1]; exact h
        · rw [e1]; exact h
        · rw [e1]
          have hp : e.payload.length ≤ 4076 := e3
          have h0 : 0 < e.size := by unfold Entry.size; omega
          have h2 : 2 * e.size ≤ a.log.size := by have := h.size; unfold Entry.size; omega
          have hle := apush_le (size := a.log.size) h0 h2 h.le
          refine ⟨h.size, ?_, ?_, ?_⟩
          · intro x hx
            rcases List.mem_append.1 hx with hx | hx
            · exact h.wf x hx
            · rw [List.mem_singleton.1 hx]; exact e3
          · show a.log.head + apush a.log.size a.log.hist e.size a.log.head ≤ (a.log.hist ++ [e]).length
            rw [List.length_append]
            omega
          · show (a.log.hist ++ [e]).drop (a.log.head + apush a.log.size a.log.hist e.size a.log.head) =
              ringHolds Entry.size a.log.size (a.log.hist ++ [e])
            rw [ringHolds_snoc, ← h.ring, List.drop_append_of_le_length hle, ← List.drop_drop]
            unfold ringAdd apush
            congr 1
            have hb : ((a.log.hist.drop a.log.head).map Entry.size).sum = bytesLen (a.log.hist.drop a.log.head) := rfl
            rw [hb]
            by_cases hc : a.log.size ≤ bytesLen (a.log.hist.drop a.log.head) + e.size
            · rw [if_pos hc, if_neg (by omega), giveUp_adv]
            · rw [if_neg hc, if_pos (by omega), List.drop_zero]
        · rw [e1] at hw; exact absurd rfl hw
      · exact h
    | flush fid => exact absurd rfl (hf fid)
    | openF fid rd wr all => simp only [astep, hfile, astepFile]; exact h
    | release fid => simp only [astep, hfile, astepFile]; split <;> exact same _ rfl rfl rfl
    | setRaw fid cap arg =>
      simp only [astep, hfile, astepFile]
      split
      · split
        · exact h
        · split
          · exact h
          · split
            · exact same _ rfl rfl rfl
            · exact h
      · exact h
    | setVersion fid arg =>
      simp only [astep, hfile, astepFile]
      split
      · split
        · split
          · exact h
          · split
            · exact same _ rfl rfl rfl
            · exact h
        · exact h
      · exact h
    | _ =>
      simp only [astep, hfile, astepFile]
      repeat' split
      all_goals first
        | exact h
        | exact same _ rfl rfl rfl

theorem holds_run (ops : List Op) : ∀ {a : ASys}, RingOk a → Clean (arun a ops).2 → RingOk (arun a ops).1 := by
  induction ops with
  | nil => intro a h _; exact h
  | cons o ops ih =>
    intro a h hc
    simp only [arun] at hc ⊢
    have h0 := hc _ (List.mem_cons_self ..)
    exact ih (h.step o h0.1 fun f t it j e => h0.2 f t it j e) fun p hp => hc p (List.mem_cons_of_mem _ hp)

theorem holds_init (name : Bytes) {k : Nat} (hk : 14 ≤ k) : RingOk (ainit name k) :=
  ⟨Nat.pow_le_pow_right (n := 2) (by omega) hk, (by intro e he; cases he), Nat.le_refl _, rfl⟩

/-- What the reader of a log just opened has to receive. -/
theorem seenFrom_ring {name : Bytes} {size n : Nat} {es : List Entry} (hle : n ≤ es.length) (h : es.drop n = ringHolds Entry.size size es) :
    seenFrom name { idx := n, all := true, ver := 2, dropped := n } es = seenOf name size es := by
  unfold seenFrom seenOf
  dsimp only
  rw [← h]
  have hl := List.length_drop (i := n) (l := es)
  revert hl
  cases es.drop n with
  | nil => intro _; rfl
  | cons e t =>
    intro hl
    rw [List.length_cons] at hl
    dsimp only
    by_cases h0 : n > 0
    · rw [if_pos h0, if_pos (by omega), show es.length - (t.length + 1) = n by omega]
      rfl
    · rw [if_neg h0, if_neg (by omega)]
      rfl

theorem giveUp_suffix (sz : α → Nat) (l : List α) : ∀ n, giveUp sz l n <:+ l := by
  induction l with
  | nil => intro n; exact List.suffix_refl _
  | cons y l ih =>
    intro n
    unfold giveUp
    split
    · exact (ih _).trans (List.suffix_cons y l)
    · exact List.suffix_cons y l

theorem ringAdd_suffix (sz : α → Nat) (size : Nat) {l k : List α} (x : α) (h : k <:+ l) : ringAdd sz size k x <:+ l ++ [x] := by
  unfold ringAdd
  split
  · obtain ⟨t, ht⟩ := h
    exact ⟨t, by rw [← List.append_assoc, ht]⟩
  · obtain ⟨t, ht⟩ := (giveUp_suffix sz k (sz x)).trans h
    exact ⟨t, by rw [← List.append_assoc, ht]⟩

theorem ringHolds_suffix (sz : α → Nat) (size : Nat) (l : List α) : ringHolds sz size l <:+ l := by
  have : ∀ (l k d : List α), k <:+ d → l.foldl (ringAdd sz size) k <:+ d ++ l := by
    intro l
    induction l with
    | nil => intro k d h; rw [List.append_nil]; exact h
    | cons x l ih =>
      intro k d h
      rw [List.foldl_cons, show d ++ x :: l = (d ++ [x]) ++ l by simp]
      exact ih _ _ (ringAdd_suffix sz size x h)
  exact this l [] [] (List.suffix_refl _)

theorem giveUp_sum {sz : α → Nat} (l : List α) : ∀ need, 0 < need → need ≤ (l.map sz).sum → (∀ x ∈ l, sz x ≤ 4100) →
    ((giveUp sz l need).map sz).sum + need ≤ (l.map sz).sum ∧ (l.map sz).sum ≤ ((giveUp sz l need).map sz).sum + need + 4100 := by
  induction l with
  | nil => intro need h0 h _; simp at h; omega
  | cons x l ih =>
    intro need h0 h hm
    have hx := hm x (by simp)
    rw [List.map_cons, List.sum_cons] at h ⊢
    unfold giveUp
    split
    · have := ih (need - sz x) (by omega) (by omega) (fun y hy => hm y (by simp [hy]))
      omega
    · omega

theorem sum_suffix {sz : α → Nat} {g t : List α} (h0 : ∀ x ∈ t, 0 < sz x) (h : g <:+ t) (hs : (t.map sz).sum ≤ (g.map sz).sum) : t = g := by
  obtain ⟨u, rfl⟩ := h
  cases u with
  | nil => rfl
  | cons x u =>
    have := h0 x (by simp)
    rw [List.cons_append, List.map_cons, List.sum_cons, List.map_append, List.sum_append] at hs
    omega

theorem ring_held {sz : α → Nat} {size : Nat} (hs : 8200 ≤ size) (l : List α) : (∀ x ∈ l, 0 < sz x) → (∀ x ∈ l, sz x ≤ 4100) →
    ((ringHolds sz size l).map sz).sum < size ∧ ((l.map sz).sum < size → ringHolds sz size l = l) ∧
      ∀ t, t <:+ l → (t.map sz).sum + 8200 ≤ size → t <:+ ringHolds sz size l := by
  generalize hn : l.length = n
  induction n generalizing l with
  | zero =>
    intro _ _
    rw [List.length_eq_zero_iff.1 hn]
    refine ⟨by show 0 < size; omega, fun _ => rfl, fun t ht _ => ?_⟩
    rw [List.suffix_nil.1 ht]
    exact List.nil_suffix
  | succ n ih =>
    intro h0 h1
    rcases List.eq_nil_or_concat l with rfl | ⟨l, x, rfl⟩
    · simp at hn
    rw [List.concat_eq_append] at *
    have hx0 := h0 x (by simp)
    have hx1 := h1 x (by simp)
    obtain ⟨i1, i2, i3⟩ := ih l (by simpa using hn) (fun y hy => h0 y (by simp [hy])) (fun y hy => h1 y (by simp [hy]))
    have hsub := (ringHolds_suffix sz size l).subset
    rw [ringHolds_snoc]
    generalize ringHolds sz size l = k at i1 i2 i3 hsub
    have hg : (k.map sz).sum + sz x < size ∨ ¬ (k.map sz).sum + sz x < size := Decidable.em _
    have hsuf : ∀ t, t <:+ l ++ [x] → t = [] ∨ ∃ u, u <:+ l ∧ t = u ++ [x] := by
      intro t ht
      rcases List.eq_nil_or_concat t with rfl | ⟨u, y, rfl⟩
      · exact .inl rfl
      · right
        rw [List.concat_eq_append] at *
        obtain ⟨p, hp⟩ := ht
        rw [← List.append_assoc] at hp
        obtain ⟨e1, e2⟩ := List.append_inj' hp rfl
        cases e2
        exact ⟨u, ⟨p, e1⟩, rfl⟩
    unfold ringAdd
    rcases hg with hc | hc
    · rw [if_pos hc]
      refine ⟨by rw [List.map_append, List.sum_append]; simpa using hc, fun hl => ?_, fun t ht hts => ?_⟩
      · rw [List.map_append, List.sum_append] at hl
        rw [i2 (by omega)]
      · rcases hsuf t ht with rfl | ⟨u, hu, rfl⟩
        · exact List.nil_suffix
        · rw [List.map_append, List.sum_append] at hts
          obtain ⟨p, hp⟩ := i3 u hu (by omega)
          exact ⟨p, by rw [← List.append_assoc, hp]⟩
    · rw [if_neg hc]
      obtain ⟨s1, s2⟩ := giveUp_sum k (sz x) hx0 (by omega) (fun y hy => h1 y (by simp [hsub hy]))
      refine ⟨?_, fun hl => ?_, fun t ht hts => ?_⟩
      · rw [List.map_append, List.sum_append]
        simp only [List.map_cons, List.map_nil, List.sum_cons, List.sum_nil]
        omega
      · rw [List.map_append, List.sum_append] at hl
        simp only [List.map_cons, List.map_nil, List.sum_cons, List.sum_nil] at hl
        rw [i2 (by omega)] at hc
        omega
      · rcases hsuf t ht with rfl | ⟨u, hu, rfl⟩
        · exact List.nil_suffix
        · rw [List.map_append, List.sum_append] at hts
          simp only [List.map_cons, List.map_nil, List.sum_cons, List.sum_nil] at hts
          have hk := i3 u hu (by omega)
          have hgk : giveUp sz k (sz x) <:+ k := giveUp_suffix sz k _
          have : u <:+ giveUp sz k (sz x) := by
            rcases List.suffix_or_suffix_of_suffix hk hgk with h | h
            · exact h
            · rw [sum_suffix (fun y hy => h0 y (by simp [hu.subset hy])) h (by omega)]
              exact List.suffix_refl _
          obtain ⟨p, hp⟩ := this
          exact ⟨p, by rw [← List.append_assoc, hp]⟩

theorem Said.size_pos (P : Nat → Prog) (m : Said) : 0 < m.size P := by
  rw [← Said.entry_size]
  unfold Entry.size
  omega

theorem Said.size_le (P : Nat → Prog) (m : Said) : m.size P ≤ 4100 := by
  unfold Said.size
  omega

/-! ## The property -/

/-- C135. A dump of several devices that were written to, whatever was written, also if
writes failed halfway: of each device some number of entries was lost, each followed by
more bytes of entries than the size of the ring less 8200; the dump ends with 0 and
shows, by turns, of each device a notice with that number, if it is not 0, and all the
others. -/
theorem C135_any {N : Nat} (hN : 0 < N) {name : Nat → Bytes} {k : Nat → Nat} {ops : Nat → List Op} {es : Nat → List Entry}
    (h : ∀ i, i < N → Logged (name i) (k i) (ops i) (es i)) (buf : Nat → Nat → UInt8) (hk : ∀ i, i < N → 14 ≤ k i)
    (hname : ∀ i, i < N → (name i).length ≤ 89) (hgen : ∀ i, i < N → Genuine (es i)) (hcount : ∀ i, i < N → (es i).length < 2147483648)
    {L : Nat → Look} {csv : Bool} (hcsv : ∀ i, i < N → csv = decide ((L i).fmt = .csv)) (hfix : ∀ i, i < N → (L i).kmsgd = true → (L i).fmt ≠ .csv) :
    ∃ (sys : Nat → Sys) (tr : Nat → List (Op × Out)) (m lost : Nat → Nat), (∀ i, i < N →
        Kernel.run (Kernel.init (name i) (k i) (buf i)) (ops i ++ [.openF 0 true false true, .getLogLen 0]) =
          .ok (sys i, tr i ++ [(.getLogLen 0, .ret (m i))]) ∧
        lost i ≤ (es i).length ∧ (∀ q, q < lost i → 2 ^ k i < bytesLen ((es i).drop q) + 8200) ∧
        (Clean (arun (ainit (name i) (k i)) (ops i)).2 → (es i).drop (lost i) = ringHolds Entry.size (2 ^ k i) (es i))) ∧
      ((csv = true → ∀ i, i < N → ∀ e ∈ seenFrom (name i) { idx := lost i, all := true, ver := 2, dropped := lost i } (es i), entryText (L i) e ≠ []) →
        ∀ T paths, FleetDumps N L csv (fun i => opened (sys i) (tr i) (m i)) ((List.range N).map m) T paths fun bs =>
          ∃ v, ByTurns (·.1) entryTime N (toShow N L fun i => seenFrom (name i) { idx := lost i, all := true, ver := 2, dropped := lost i } (es i)) v ∧
            bs = screenOf paths (fun i => entryText (L i)) (decide (N > 1)) [] (lastOf T v)) := by
  have hex : ∀ i, ∃ sys tr m n, i < N → Kernel.run (Kernel.init (name i) (k i) (buf i)) (ops i ++ [.openF 0 true false true, .getLogLen 0]) =
        .ok (sys, tr ++ [(.getLogLen 0, .ret m)]) ∧ (0 < (es i).length → 0 < m) ∧
        Stands (name i) (k i) 0 (es i) { idx := n, all := true, ver := 2, dropped := n } (opened sys tr m) ∧ n ≤ (es i).length ∧
        LostOk (2 ^ k i) (es i) 0 n ∧ n = (arun (ainit (name i) (k i)) (ops i)).1.log.head := by
    intro i
    by_cases hi : i < N
    · obtain ⟨sys, tr, m, n, g⟩ := (h i hi).stands (buf i) (hk i hi) (hname i hi) (hgen i hi) (hcount i hi)
      exact ⟨sys, tr, m, n, fun _ => g⟩
    · exact ⟨Kernel.init [] 14 fun _ => 0, [], 0, 0, fun hi' => absurd hi' hi⟩
  obtain ⟨sys, hex⟩ := Classical.axiomOfChoice hex
  obtain ⟨tr, hex⟩ := Classical.axiomOfChoice hex
  obtain ⟨m, hex⟩ := Classical.axiomOfChoice hex
  obtain ⟨n, hex⟩ := Classical.axiomOfChoice hex
  refine ⟨sys, tr, m, n, fun i hi => ?_, fun hlong T paths => ?_⟩
  · obtain ⟨g1, _, _, g4, g5, g6⟩ := hex i hi
    refine ⟨g1, g4, fun q hq => g5 q (Nat.zero_le _) hq, fun hcl => ?_⟩
    have hh := holds_run (ops i) (holds_init (name i) (hk i hi)) hcl
    have hinv := arun_inv (name := name i) (k := k i) (hk i hi) (ops i).length (ops i) rfl
      (by have := (h i hi).hist; unfold obs; rw [this]; exact hgen i hi) (by have := (h i hi).hist; unfold obs; rw [this]; exact hcount i hi)
    have h1 := hh.ring
    rw [hinv.2.2, ← hinv.1.hist, ← g6] at h1
    have h2 : (obs (name i) (arun (ainit (name i) (k i)) (ops i)).2).hist = es i := (h i hi).hist
    rw [h2] at h1
    exact h1
  · refine fleet_dump hN (fun i hi => (hex i hi).2.2.1) (fun i hi => rfl) (fun i hi => rfl) (fun i hi h0 => ?_) hcsv hfix hlong T paths
    refine (hex i hi).2.1 ?_
    rcases Nat.eq_zero_or_pos (es i).length with h1 | h1
    · have h2 := List.length_eq_zero_iff.1 h1
      rw [h2] at h0
      unfold seenFrom at h0
      rw [List.drop_nil] at h0
      cases h0
    · exact h1

/-- C135. As before, if no write failed halfway: what is lost is known. -/
theorem C135_dump {N : Nat} (hN : 0 < N) {name : Nat → Bytes} {k : Nat → Nat} {ops : Nat → List Op} {es : Nat → List Entry}
    (h : ∀ i, i < N → Logged (name i) (k i) (ops i) (es i)) (hcl : ∀ i, i < N → Clean (arun (ainit (name i) (k i)) (ops i)).2)
    (buf : Nat → Nat → UInt8) (hk : ∀ i, i < N → 14 ≤ k i)
    (hname : ∀ i, i < N → (name i).length ≤ 89) (hgen : ∀ i, i < N → Genuine (es i)) (hcount : ∀ i, i < N → (es i).length < 2147483648)
    {L : Nat → Look} {csv : Bool} (hcsv : ∀ i, i < N → csv = decide ((L i).fmt = .csv)) (hfix : ∀ i, i < N → (L i).kmsgd = true → (L i).fmt ≠ .csv)
    (hlong : csv = true → ∀ i, i < N → ∀ e ∈ seenOf (name i) (2 ^ k i) (es i), entryText (L i) e ≠ []) :
    ∃ (sys : Nat → Sys) (tr : Nat → List (Op × Out)) (m : Nat → Nat), (∀ i, i < N →
        Kernel.run (Kernel.init (name i) (k i) (buf i)) (ops i ++ [.openF 0 true false true, .getLogLen 0]) =
          .ok (sys i, tr i ++ [(.getLogLen 0, .ret (m i))])) ∧
      ∀ T paths, FleetDumps N L csv (fun i => opened (sys i) (tr i) (m i)) ((List.range N).map m) T paths fun bs =>
        ∃ v, ByTurns (·.1) entryTime N (toShow N L fun i => seenOf (name i) (2 ^ k i) (es i)) v ∧
          bs = screenOf paths (fun i => entryText (L i)) (decide (N > 1)) [] (lastOf T v) := by
  obtain ⟨sys, tr, m, n, g1, g2⟩ := C135_any hN h buf hk hname hgen hcount hcsv hfix
  have hs : ∀ i, i < N → seenFrom (name i) { idx := n i, all := true, ver := 2, dropped := n i } (es i) = seenOf (name i) (2 ^ k i) (es i) :=
    fun i hi => seenFrom_ring (g1 i hi).2.1 ((g1 i hi).2.2.2 (hcl i hi))
  refine ⟨sys, tr, m, fun i hi => (g1 i hi).1, fun T paths => ?_⟩
  have hshow : (toShow N L fun i => seenFrom (name i) { idx := n i, all := true, ver := 2, dropped := n i } (es i)) =
      toShow N L fun i => seenOf (name i) (2 ^ k i) (es i) := by
    funext i
    unfold toShow
    split
    · rename_i hi; dsimp only; rw [hs i hi]
    · rfl
  rw [← hshow]
  exact g2 (fun hc i hi => by rw [hs i hi]; exact hlong hc i hi) T paths

def Row.entry (P : Nat → Prog) (name : Bytes) : Row → Entry
  | .line m => m.entry P
  | .notice n m => summaryEntry name n (m.entry P)

theorem rows_entry (P : Nat → Prog) (name : Bytes) (size : Nat) (ms : List Said) :
    seenOf name size (ms.map (·.entry P)) = (rows P size ms).map (Row.entry P name) := by
  unfold seenOf rows
  rw [ringHolds_map (sa := (·.size P)) (fun m => Said.entry_size P m)]
  cases ringHolds (·.size P) size ms with
  | nil => rfl
  | cons m t =>
    rw [List.map_cons]
    dsimp only
    rw [List.length_map, List.length_map, List.map_append, List.map_map]
    split <;> rfl

theorem rows_mem {P : Nat → Prog} {size : Nat} {ms : List Said} {r : Row} (h : r ∈ rows P size ms) :
    (∃ m ∈ ms, r = .line m) ∨ ∃ m ∈ ms, ∃ n, n ≤ ms.length ∧ r = .notice n m := by
  have hsuf := (ringHolds_suffix (·.size P) size ms).subset
  unfold rows at h
  split at h
  · cases h
  · rename_i m t hr
    rw [hr] at hsuf
    rcases List.mem_append.1 h with h | h
    · right
      split at h
      · rw [List.mem_singleton] at h
        exact ⟨m, hsuf (by simp), _, Nat.sub_le _ _, h⟩
      · cases h
    · left
      obtain ⟨x, hx, rfl⟩ := List.mem_map.1 h
      exact ⟨x, hsuf hx, rfl⟩

/-- What is shown of `N` devices, each with the number of its device; `size` tells the
size of each ring. -/
def toRow (N : Nat) (P : Nat → Nat → Prog) (size : Nat → Nat) (ms : Nat → List Said) (i : Nat) : List (Nat × Row) :=
  if i < N then (rows (P i) (size i) ((ms i).filter (·.passes (P i)))).map (i, ·) else []

theorem toRow_own {N : Nat} {P : Nat → Nat → Prog} {size : Nat → Nat} {ms : Nat → List Said} : ∀ d, ∀ f ∈ toRow N P size ms d, f.1 = d := by
  intro d f hf
  unfold toRow at hf
  split at hf
  · obtain ⟨m, _, rfl⟩ := List.mem_map.1 hf
    rfl
  · cases hf

theorem toRow_beyond {N : Nat} {P : Nat → Nat → Prog} {size : Nat → Nat} {ms : Nat → List Said} : ∀ d, N ≤ d → toRow N P size ms d = [] := by
  intro d hd
  unfold toRow
  rw [if_neg (by omega)]

/-- C135. Processes log through libulog to several devices, one message after the other
on each; then a viewer dumps all of them, or the last `T` records. However much was
logged, no call faults, the dump ends with 0, and the screen shows exactly the lines of
the messages the rings still hold, before those of each device a notice with the number
of those dropped, if any; all by turns, with a banner before the first of each device. -/
theorem C135_programs {N : Nat} (hN : 0 < N) {D : Nat → Bytes} {P : Nat → Nat → Prog} (hP : ∀ i, i < N → ∀ p, (P i p).Plain (D i))
    {ms : Nat → List Said} (hms : ∀ i, i < N → ∀ m ∈ ms i, m.Plain (P i)) (junk : Nat → UInt8) {name : Nat → Bytes} {k : Nat → Nat}
    (buf : Nat → Nat → UInt8) (hk : ∀ i, i < N → 14 ≤ k i) (hname : ∀ i, i < N → (name i).length ≤ 89) (hn0 : ∀ i, i < N → NoNul (name i))
    (hcount : ∀ i, i < N → (ms i).length < 2147483648) {L : Nat → Look} {csv : Bool}
    (hcsv : ∀ i, i < N → csv = decide ((L i).fmt = .csv)) (hkd : ∀ i, i < N → (L i).kmsgd = false)
    (hlong : csv = true → ∀ i, i < N → ∀ r ∈ rows (P i) (2 ^ k i) ((ms i).filter (·.passes (P i))), r.text (P i) (L i) (name i) ≠ []) :
    ∃ (ops : Nat → List Op) (sys : Nat → Sys) (tr : Nat → List (Op × Out)) (m : Nat → Nat), (∀ i, i < N →
        sayAll (P i) junk (fun _ => .start) (ms i) = .ok (ops i) ∧
        Kernel.run (Kernel.init (name i) (k i) (buf i)) (ops i ++ [.openF 0 true false true, .getLogLen 0]) =
          .ok (sys i, tr i ++ [(.getLogLen 0, .ret (m i))])) ∧
      ∀ T paths, FleetDumps N L csv (fun i => opened (sys i) (tr i) (m i)) ((List.range N).map m) T paths fun bs =>
        ∃ v, ByTurns (·.1) Row.time N (toRow N P (fun i => 2 ^ k i) ms) v ∧
          bs = screenOf paths (fun i r => r.text (P i) (L i) (name i)) (decide (N > 1)) [] (lastOf T v) := by
  have hex : ∀ i, ∃ ops, i < N → sayAll (P i) junk (fun _ => .start) (ms i) = .ok ops ∧
      Logged (name i) (k i) ops (((ms i).filter (·.passes (P i))).map (·.entry (P i))) ∧ Clean (arun (ainit (name i) (k i)) ops).2 := by
    intro i
    by_cases hi : i < N
    · obtain ⟨ops, g⟩ := said_logged (hP i hi) (ms i) junk (name i) (k i)
      exact ⟨ops, fun _ => g⟩
    · exact ⟨[], fun h => absurd h hi⟩
  obtain ⟨ops, hex⟩ := Classical.axiomOfChoice hex
  have hle : ∀ i, ((ms i).filter (·.passes (P i))).length ≤ (ms i).length := fun i => List.length_filter_le _ _
  have htx : ∀ i, i < N → ∀ r ∈ rows (P i) (2 ^ k i) ((ms i).filter (·.passes (P i))), entryText (L i) (r.entry (P i) (name i)) = r.text (P i) (L i) (name i) := by
    intro i hi r hr
    rcases rows_mem hr with ⟨m, hm, rfl⟩ | ⟨m, hm, n, hn, rfl⟩
    · exact Said.entry_text (hms i hi m (List.mem_filter.1 hm).1) (hkd i hi)
    · have := hle i
      have := hcount i hi
      exact C98_notice (L i) (hkd i hi) (hn0 i hi) (by omega) _
  have hne : ∀ i, i < N → ∀ r ∈ rows (P i) (2 ^ k i) ((ms i).filter (·.passes (P i))), r.text (P i) (L i) (name i) ≠ [] := by
    intro i hi r hr
    cases hc : csv with
    | true => exact hlong hc i hi r hr
    | false =>
      have hf : (L i).fmt ≠ .csv := by
        have := hcsv i hi
        rw [hc] at this
        simpa using this.symm
      rcases rows_mem hr with ⟨m, hm, rfl⟩ | ⟨m, hm, n, hn, rfl⟩
      · exact Said.lines_ne hf m
      · show textShown _ _ _ ≠ []
        unfold textShown
        rw [if_neg hf]
        refine cut_ne (shownLines_ne _) _ fun l h => ?_
        have := congrArg List.length h
        unfold lineText at this
        simp only [List.length_append, List.length_cons, List.length_nil] at this
        omega
  obtain ⟨sys, tr, m, g1, g2⟩ := C135_dump hN (fun i hi => (hex i hi).2.1) (fun i hi => (hex i hi).2.2) buf hk hname
    (fun i hi e he => by
      obtain ⟨m, hm, rfl⟩ := List.mem_map.1 he
      exact (hms i hi m (List.mem_filter.1 hm).1).task)
    (fun i hi => by have := hle i; have := hcount i hi; rw [List.length_map]; omega)
    hcsv (fun i hi h => by rw [hkd i hi] at h; cases h)
    (fun hc i hi e he => by
      rw [rows_entry] at he
      obtain ⟨r, hr, rfl⟩ := List.mem_map.1 he
      rw [htx i hi r hr]
      exact hne i hi r hr)
  refine ⟨ops, sys, tr, m, fun i hi => ⟨(hex i hi).1, g1 i hi⟩, fun T paths => ?_⟩
  obtain ⟨need, g2⟩ := g2 T paths
  refine ⟨need, fun euid n fuel hfuel buf0 hb ans hans => ?_⟩
  obtain ⟨all, c, t, e1, e2, v, hv, e3⟩ := g2 euid n fuel hfuel hb hans
  refine ⟨all, c, t, e1, e2, ?_⟩
  have hsay : (toShow N L fun i => seenOf (name i) (2 ^ k i) (((ms i).filter (·.passes (P i))).map (·.entry (P i)))) =
      fun i => (toRow N P (fun i => 2 ^ k i) ms i).map fun x => (x.1, x.2.entry (P x.1) (name x.1)) := by
    funext i
    unfold toShow toRow
    by_cases hi : i < N
    · rw [if_pos hi, if_pos hi, List.map_map]
      dsimp only
      rw [rows_entry, List.filter_eq_self.2, List.map_map]
      · rfl
      · intro e he
        obtain ⟨r, hr, rfl⟩ := List.mem_map.1 he
        rw [htx i hi r hr]
        have := hne i hi r hr
        simpa using this
    · rw [if_neg hi, if_neg hi]
      rfl
  rw [hsay] at hv
  obtain ⟨u, hu, hd⟩ := hv.unmap (num := (·.1)) (stamp := Row.time) (fun x : Nat × Row => (x.1, x.2.entry (P x.1) (name x.1)))
    (fun d f hf => by
      obtain ⟨j, r⟩ := f
      cases r <;> exact ⟨rfl, rfl⟩)
  refine ⟨u, hd, ?_⟩
  rw [e3, hu]
  have hlast : lastOf T (u.map fun x => (x.1, x.2.entry (P x.1) (name x.1))) = (lastOf T u).map fun x => (x.1, x.2.entry (P x.1) (name x.1)) := by
    unfold lastOf
    split
    · rfl
    · rw [List.map_drop, List.length_map]
  rw [hlast]
  refine screenOf_map (g := fun i (r : Row) => r.entry (P i) (name i)) (fun x hx => ?_) []
  have hx : x ∈ u := by
    unfold lastOf at hx
    split at hx
    · exact hx
    · exact List.mem_of_mem_drop hx
  have hmem : x ∈ u.filter fun y => y.1 == x.1 := List.mem_filter.2 ⟨hx, by simp⟩
  rw [hd.device toRow_own toRow_beyond] at hmem
  unfold toRow at hmem
  by_cases hi : x.1 < N
  · rw [if_pos hi] at hmem
    obtain ⟨r, hr, hmx⟩ := List.mem_map.1 hmem
    rw [← hmx]
    exact htx _ hi _ hr
  · rw [if_neg hi] at hmem
    cases hmem

/-- C135. What the order is: there is one only, so the screen is determined; it has the
records of each device in their order; and one shown after a later one has a record of
its own device, shown no sooner than the other, that is as late. -/
theorem C135_order {N : Nat} {P : Nat → Nat → Prog} {size : Nat → Nat} {ms : Nat → List Said} {v : List (Nat × Row)}
    (h : ByTurns (·.1) Row.time N (toRow N P size ms) v) :
    (∀ w, ByTurns (·.1) Row.time N (toRow N P size ms) w → w = v) ∧
    (∀ i, v.filter (fun x => x.1 == i) = toRow N P size ms i) ∧
    (∀ u x w y z, v = u ++ x :: (w ++ y :: z) → Row.time y < Row.time x → ∃ g ∈ x :: w, g.1 = y.1 ∧ Row.time x ≤ Row.time g) :=
  ⟨fun _ hw => hw.unique h, h.device toRow_own toRow_beyond, fun _ _ _ _ _ hv hlt => h.late toRow_own toRow_beyond hv hlt⟩

/-- C135. What a ring holds: the last of what was added, less than its size, all of it
if that is less, and in any case the newest that add up to the size less 8200. -/
theorem C135_held (P : Nat → Prog) {size : Nat} (hs : 8200 ≤ size) (ms : List Said) :
    ringHolds (·.size P) size ms <:+ ms ∧ ((ringHolds (·.size P) size ms).map (·.size P)).sum < size ∧
      ((ms.map (·.size P)).sum < size → ringHolds (·.size P) size ms = ms) ∧
      ∀ t, t <:+ ms → (t.map (·.size P)).sum + 8200 ≤ size → t <:+ ringHolds (·.size P) size ms :=
  ⟨ringHolds_suffix _ _ _, ring_held hs ms (fun m _ => m.size_pos P) (fun m _ => m.size_le P)⟩

end Verif.Ulogcat
