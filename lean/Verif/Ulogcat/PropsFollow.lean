import Verif.Ulogcat.Follow
import Verif.Ulogcat.Calm

/-! # Progress and results of `ulogcat3_process_logs` (C60, C61) -/

namespace Verif.Ulogcat

variable {σ : Type}

/-! ## C60 -/

/-- Two devices: the first holds one text entry (as long as the state is true), the
second is never without a binary entry. -/
def flood : World Bool where
  poll s _ := (.ok fun i => if i = 0 then s else true, s)
  recv s i := if i = 0 then (.got 5 7 true 0, false) else (.again, s)
  output s _ := (true, s)

/-- C60 is false: an entry is read and not printed as long as another device has binary
entries to skip, because each of them ends the turn early. -/
theorem C60_false (dump : Bool) (m1 m2 : Nat) (k : Nat) :
    ∃ c, processLogs flood dump 0 (k + 1) (openCtx [m1, m2] 0) true 0 = .ok (c, false, none) ∧
      c.pendQ = [⟨0, 5, 7, true⟩] ∧ c.out = [] := by
  let c1 := (openCtx [m1, m2] 0).got ⟨0, 5, 7, true⟩ 0
  have h1 : processDevices flood (openCtx [m1, m2] 0) true = .ok (c1, false, 0) := rfl
  have h2 : processDevices flood c1 false = .ok (c1, false, 0) := rfl
  have run : ∀ k fr, processLogs flood dump 0 k c1 false fr = .ok (c1, false, none) := by
    intro k
    induction k with
    | zero => intro fr; rfl
    | succ k ih =>
      intro fr
      unfold processLogs
      rw [h2]
      dsimp only [bind, Except.bind]
      rw [if_neg (by decide), if_neg (by simp [c1, Ctx.got, Ctx.upd, openCtx]), if_neg (by simp [c1, Ctx.got, Ctx.upd, openCtx]),
        if_pos (Or.inl rfl)]
      exact ih _
  refine ⟨c1, ?_, rfl, rfl⟩
  unfold processLogs
  rw [h1]
  dsimp only [bind, Except.bind]
  rw [if_neg (by decide), if_neg (by simp [c1, Ctx.got, Ctx.upd, openCtx]), if_neg (by simp [c1, Ctx.got, Ctx.upd, openCtx]),
    if_pos (Or.inl rfl)]
  exact run k _

/-- Every entry that the devices `on` deliver is text, no read from them fails,
and output works. -/
structure Smooth (W : World σ) (on : Nat → Bool) : Prop where
  recv : ∀ s i, on i = true → ∃ stamp id dec, (W.recv s i).1 = .got stamp id true dec
  output : ∀ s e, (W.output s e).1 = true

theorem readDevs_smooth (W : World σ) {n : Nat} (asked ready : Nat → Bool)
    (S : Smooth W fun i => asked i && ready i) (is : List Nat) (nd : is.Nodup)
    {c : Ctx} (s : σ) (m : Int) (I : Inv 0 n c) (ha : ∀ i ∈ is, asked i = true → i < n ∧ c.isPending i = false)
    (hsh : ∀ f ∈ c.pendQ, f.shown = true) :
    ∃ c' s' m' q, readDevs W asked ready is c s m = (c', s', none, m') ∧ c'.pendQ = c.pendQ ++ q ∧
      (∀ f ∈ q, f.shown = true) ∧ (∀ i ∈ is, asked i = true → ready i = true → q ≠ []) ∧
      c'.out = c.out ∧ c'.outErr = c.outErr ∧ c'.tail = c.tail := by
  induction is generalizing c s m with
  | nil => exact ⟨c, s, m, [], rfl, by simp, by simp, by simp, rfl, rfl, rfl⟩
  | cons i is ih =>
    have nd' := List.nodup_cons.1 nd
    rw [readDevs_cons]
    by_cases hskip : (asked i && ready i) = false
    · rw [if_pos hskip]
      have hx : ∀ c1 : Ctx, c1 = c ∨ c1 = c.upd i Dev.unready → Inv 0 n c1 ∧ (∀ j, c1.isPending j = c.isPending j) ∧
          c1.pendQ = c.pendQ ∧ c1.out = c.out ∧ c1.outErr = c.outErr ∧ c1.tail = c.tail := by
        rintro c1 (rfl | rfl)
        · exact ⟨I, fun _ => rfl, rfl, rfl, rfl, rfl⟩
        · exact ⟨I.unready i, fun j => isPending_unready c i j, rfl, rfl, rfl, rfl⟩
      obtain ⟨I1, h1, h2, h3, h4, h5⟩ := hx (if asked i = true then c.upd i Dev.unready else c) (by split <;> simp)
      obtain ⟨c', s', m', q, e1, e2, e3, e4, e5, e6, e7⟩ := ih nd'.2 s m I1
        (fun j hj hja => by rw [h1]; exact ha j (List.mem_cons_of_mem _ hj) hja) (by rw [h2]; exact hsh)
      refine ⟨c', s', m', q, e1, by rw [e2, h2], e3, ?_, e5.trans h3, e6.trans h4, e7.trans h5⟩
      intro j hj hja hjr
      rcases List.mem_cons.1 hj with rfl | hj
      · rw [hja, hjr] at hskip; cases hskip
      · exact e4 j hj hja hjr
    · rw [if_neg hskip]
      have hai : asked i = true := by
        cases h : asked i
        · simp [h] at hskip
        · rfl
      have hi := ha i (by simp) hai
      have hroom := room I hi.1 hi.2
      rw [if_neg (by omega)]
      obtain ⟨stamp, id, dec, hr⟩ := S.recv s i (by simpa using hskip)
      have hr2 : W.recv s i = (.got stamp id true dec, (W.recv s i).2) := Prod.ext hr rfl
      rw [hr2]
      dsimp only
      obtain ⟨c', s', m', q, e1, e2, e3, e4, e5, e6, e7⟩ := ih nd'.2 (W.recv s i).2 (m + 1)
        (I.got (Frame.mk i stamp id true) dec hi.1 hi.2)
        (fun j hj hja => by
          have hj2 := ha j (List.mem_cons_of_mem _ hj) hja
          refine ⟨hj2.1, ?_⟩
          rw [isPending_got _ _ _ (by rw [I.len]; exact hi.1), if_neg]
          · exact hj2.2
          · intro e
            have e : i = j := e
            exact nd'.1 (e ▸ hj))
        (by
          intro f hf
          rcases List.mem_append.1 hf with hf | hf
          · exact hsh f hf
          · rw [List.mem_singleton.1 hf])
      refine ⟨c', s', m', Frame.mk i stamp id true :: q, e1, ?_, ?_, ?_, e5, e6, e7⟩
      · rw [e2]
        show c.pendQ ++ [_] ++ q = _
        simp
      · intro f hf
        rcases List.mem_cons.1 hf with rfl | hf
        · rfl
        · exact e3 f hf
      · intro j _ _ _; simp

/-- C60. Each turn in which a frame is waiting or a device that is asked has
something prints something, if every device read in that turn delivers text and
the output works. -/
theorem C60_progress (W : World σ) (marks : List Nat) (c : Ctx) (s s1 : σ)
    (I : Inv 0 marks.length c) (ht : c.tail = 0) (he : c.outErr = false) (hsh : ∀ f ∈ c.pendQ, f.shown = true) {ready : Nat → Bool}
    (hpoll : W.poll s c.asked = (.ok ready, s1)) (S : Smooth W fun i => c.asked i && ready i)
    (hsome : c.pendQ ≠ [] ∨ ∃ i, i < marks.length ∧ c.asked i = true ∧ ready i = true) :
    ∃ c' s' r, processDevices W c s = .ok (c', s', r) ∧ c.out.length < c'.out.length ∧
      c'.outErr = false ∧ c'.tail = 0 ∧ Inv 0 marks.length c' ∧ ∀ f ∈ c'.pendQ, f.shown = true := by
  have hask : ∀ i ∈ List.range c.devs.length, c.asked i = true → i < marks.length ∧ c.isPending i = false := by
    intro i _ ha
    have := (asked_iff c i).1 ha
    rw [I.len] at this
    exact this
  obtain ⟨c1, s2, m, q, e1, e2, e3, e4, e5, e6, e7⟩ := readDevs_smooth W c.asked ready S (List.range c.devs.length) List.nodup_range s1 0 I
    hask hsh
  have I1 := readDevs_inv W c.asked ready (List.range c.devs.length) List.nodup_range s1 0 I hask
  rw [e1] at I1
  have I1 : Inv 0 marks.length c1 := I1
  have hne : c1.pendQ ≠ [] := by
    rw [e2]
    rcases hsome with h | ⟨i, h1, h2, h3⟩
    · simp [h]
    · have := e4 i (List.mem_range.2 (by rw [I.len]; exact h1)) h2 h3
      simp [this]
  have hsh1 : ∀ f ∈ c1.pendQ, f.shown = true := by
    intro f hf
    rw [e2] at hf
    rcases List.mem_append.1 hf with hf | hf
    · exact hsh f hf
    · exact e3 f hf
  obtain ⟨c2, s3, p1, I2, p2⟩ := pullFrame_inv W s2 I1
  have hgrow : c1.out.length < c2.out.length ∧ c2.outErr = false ∧ ∀ f ∈ c2.pendQ, f.shown = true := by
    cases hpop : popOldest c1.pendQ with
    | none => exact absurd ((popOldest_none _).1 hpop) hne
    | some fr =>
      obtain ⟨f, r⟩ := fr
      obtain ⟨-, -, q3, q4, -⟩ := pop_dev _ _ _ hpop I1.nd
      unfold pullFrame at p1
      rw [hpop] at p1
      dsimp only at p1
      rw [if_neg (show ¬ (c1.upd f.dev fun d => { d with pending := false }).tail > 0 by
        show ¬ c1.tail > 0
        rw [e7, ht]; decide)] at p1
      obtain ⟨c3, s4, f1, f2⟩ := flushFrame_core W
        ({ c1.upd f.dev fun d => { d with pending := false } with pendQ := r, pending := c1.pending - 1 } : Ctx) s2 f
        (by show f.dev < (c1.upd f.dev _).devs.length; rw [upd_len, I1.len]; exact I1.plt f q3)
      rw [f1] at p1
      dsimp only [bind, Except.bind] at p1
      simp only [Except.ok.injEq, Prod.mk.injEq] at p1
      obtain ⟨p1, -⟩ := p1
      subst p1
      have hpq : c3.pendQ = r := by
        simp only [Ctx.core, Ctx.mk.injEq, true_and] at f2
        exact f2.2.2.1
      have hout : ∀ (x : Ctx) (y : σ) (e : OutEv), x.outErr = false →
          (output W x y e).1.out = x.out ++ [e] ∧ (output W x y e).1.outErr = false := by
        intro x y e hx
        have hw : W.output y e = (true, (W.output y e).2) := Prod.ext (S.output y e) rfl
        unfold output
        rw [if_neg (by rw [hx]; simp), hw]
        exact ⟨rfl, hx⟩
      unfold flushFrame at f1
      split at f1
      · cases f1
      · rename_i d hd
        simp only [Except.ok.injEq] at f1
        generalize hx0 : ({ c1.upd f.dev fun d => { d with pending := false } with pendQ := r, pending := c1.pending - 1 } : Ctx) = x0 at f1
        have hx0e : x0.outErr = false := by rw [← hx0]; exact e6.trans he
        have hx0o : x0.out = c1.out := by rw [← hx0]; rfl
        have hb : (flushBanner W x0 s2 f d).1.outErr = false ∧ c1.out.length ≤ (flushBanner W x0 s2 f d).1.out.length := by
          unfold flushBanner
          split
          · have := hout x0 s2 (.banner f.dev f.stamp) hx0e
            refine ⟨this.2, ?_⟩
            show _ ≤ (output W x0 s2 (.banner f.dev f.stamp)).1.out.length
            rw [this.1, hx0o]; simp
          · exact ⟨hx0e, by rw [hx0o]; exact Nat.le_refl _⟩
        have hee : flushEntry W (flushBanner W x0 s2 f d) f = output W (flushBanner W x0 s2 f d).1 (flushBanner W x0 s2 f d).2 (.entry f) := by
          unfold flushEntry
          rw [if_pos (hsh1 f q3)]
        have h3 := hout (flushBanner W x0 s2 f d).1 (flushBanner W x0 s2 f d).2 (.entry f) hb.1
        rw [← hee, f1] at h3
        refine ⟨?_, h3.2, ?_⟩
        · show _ < c3.out.length
          rw [h3.1, List.length_append]
          have := hb.2
          simp only [List.length_cons, List.length_nil]
          omega
        · intro g hg
          have hg : g ∈ c3.pendQ := hg
          rw [hpq] at hg
          exact hsh1 g (q4 g hg)
  have hum : (updateMark c2).out = c2.out ∧ (updateMark c2).outErr = c2.outErr ∧ (updateMark c2).tail = c2.tail ∧
      (updateMark c2).pendQ = c2.pendQ := by
    unfold updateMark
    split
    · exact ⟨rfl, rfl, rfl, rfl⟩
    · split <;> exact ⟨rfl, rfl, rfl, rfl⟩
  have ht2 : c2.tail = 0 := by rw [p2, e7, ht]
  have htf : tailFlush W (updateMark c2) s3 = .ok (updateMark c2, s3) := by
    unfold tailFlush
    rw [if_pos (Or.inl (hum.2.2.1.trans ht2))]
  refine ⟨updateMark c2, s3, m, ?_, ?_, hum.2.1.trans hgrow.2.1, hum.2.2.1.trans ht2, updateMark_inv I2, ?_⟩
  · rw [processDevices_eq, hpoll]
    dsimp only
    rw [e1]
    dsimp only
    unfold endPass
    rw [p1]
    dsimp only [bind, Except.bind]
    rw [htf]
    rfl
  · rw [hum.1, ← e5]; exact hgrow.1
  · rw [hum.2.2.2]; exact hgrow.2.2

/-- Reading prints nothing and keeps what waits. -/
theorem readDevs_keeps (W : World σ) (asked ready : Nat → Bool) (is : List Nat) (c : Ctx) (s : σ) (m : Int) :
    (readDevs W asked ready is c s m).1.out = c.out ∧
      ∃ q, (readDevs W asked ready is c s m).1.pendQ = c.pendQ ++ q := by
  induction is generalizing c s m with
  | nil => exact ⟨rfl, [], by simp [readDevs]⟩
  | cons i is ih =>
    rw [readDevs_cons]
    split
    · obtain ⟨h1, q, h2⟩ := ih (if asked i = true then c.upd i Dev.unready else c) s m
      have h3 : (if asked i = true then c.upd i Dev.unready else c).out = c.out ∧
          (if asked i = true then c.upd i Dev.unready else c).pendQ = c.pendQ := by split <;> exact ⟨rfl, rfl⟩
      exact ⟨h1.trans h3.1, q, by rw [h2, h3.2]⟩
    · split
      · exact ih { c with starved := true } s m
      · split
        · exact ⟨rfl, [], by simp⟩
        · exact ⟨rfl, [], by simp⟩
        · rename_i stamp id shown dec s' _
          obtain ⟨h1, q, h2⟩ := ih (c.got (Frame.mk i stamp id shown) dec) s' (m + 1)
          refine ⟨h1, Frame.mk i stamp id shown :: q, ?_⟩
          rw [h2]
          show c.pendQ ++ [_] ++ q = _
          simp

/-- The loop over the devices ends early if it gets to one that is ready and
delivers nothing. -/
theorem readDevs_early {n T : Nat} (W : World σ) (asked ready : Nat → Bool) (is : List Nat) (nd : is.Nodup) {c : Ctx}
    (s : σ) (m : Int) (I : Inv T n c) (ha : ∀ i ∈ is, asked i = true → i < n ∧ c.isPending i = false)
    (hbad : ∃ i ∈ is, (asked i && ready i) = true ∧ ∀ s, (W.recv s i).1 = .again ∨ (W.recv s i).1 = .err) :
    ∃ r, (readDevs W asked ready is c s m).2.2.1 = some r ∧ r ≤ 0 := by
  induction is generalizing c s m with
  | nil => obtain ⟨i, hi, _⟩ := hbad; cases hi
  | cons i is ih =>
    have nd' := List.nodup_cons.1 nd
    rw [readDevs_cons]
    by_cases hskip : (asked i && ready i) = false
    · rw [if_pos hskip]
      have hx : ∀ c1 : Ctx, c1 = c ∨ c1 = c.upd i Dev.unready → Inv T n c1 ∧ ∀ j, c1.isPending j = c.isPending j := by
        rintro c1 (rfl | rfl)
        · exact ⟨I, fun _ => rfl⟩
        · exact ⟨I.unready i, fun j => isPending_unready c i j⟩
      obtain ⟨I1, h1⟩ := hx (if asked i = true then c.upd i Dev.unready else c) (by split <;> simp)
      refine ih nd'.2 s m I1 (fun j hj hja => by rw [h1]; exact ha j (List.mem_cons_of_mem _ hj) hja) ?_
      obtain ⟨j, hj, hj1, hj2⟩ := hbad
      rcases List.mem_cons.1 hj with rfl | hj
      · rw [hj1] at hskip; cases hskip
      · exact ⟨j, hj, hj1, hj2⟩
    · rw [if_neg hskip]
      have hai : asked i = true := by
        cases h : asked i
        · simp [h] at hskip
        · rfl
      have hi := ha i (by simp) hai
      have hroom := room I hi.1 hi.2
      rw [if_neg (by omega)]
      cases hr : W.recv s i with
      | mk rr s' =>
        cases rr with
        | err => exact ⟨_, rfl, by decide⟩
        | again => exact ⟨_, rfl, by decide⟩
        | got stamp id shown dec =>
          dsimp only
          obtain ⟨j, hj, hj1, hj2⟩ := hbad
          rcases List.mem_cons.1 hj with rfl | hj
          · have := hj2 s
            rw [hr] at this
            rcases this with h | h <;> cases h
          refine ih nd'.2 s' (m + 1) (I.got (Frame.mk i stamp id shown) dec hi.1 hi.2) ?_ ⟨j, hj, hj1, hj2⟩
          intro j hj hja
          have hj2 := ha j (List.mem_cons_of_mem _ hj) hja
          refine ⟨hj2.1, ?_⟩
          rw [isPending_got _ _ _ (by rw [I.len]; exact hi.1), if_neg]
          · exact hj2.2
          · intro e
            have e : i = j := e
            exact nd'.1 (e ▸ hj)

/-- C60. A turn in which a device that is read has a binary entry to skip, or
fails, prints nothing, whatever waits; nothing that waits is lost. -/
theorem C60_skip (W : World σ) {T n : Nat} (c : Ctx) (s s1 : σ) (I : Inv T n c) {ready : Nat → Bool}
    (hpoll : W.poll s c.asked = (.ok ready, s1))
    (hbad : ∃ i, c.asked i = true ∧ ready i = true ∧ ∀ s, (W.recv s i).1 = .again ∨ (W.recv s i).1 = .err) :
    ∃ c' s' r q, processDevices W c s = .ok (c', s', r) ∧ c'.out = c.out ∧ c'.pendQ = c.pendQ ++ q ∧ r ≤ 0 := by
  have hask : ∀ i ∈ List.range c.devs.length, c.asked i = true → i < n ∧ c.isPending i = false := by
    intro i _ ha
    have := (asked_iff c i).1 ha
    rw [I.len] at this
    exact this
  obtain ⟨i, h1, h2, h3⟩ := hbad
  obtain ⟨r, e1, e2⟩ := readDevs_early W c.asked ready (List.range c.devs.length) List.nodup_range s1 0 I hask
    ⟨i, List.mem_range.2 ((asked_iff c i).1 h1).1, by rw [h1, h2]; rfl, h3⟩
  obtain ⟨k1, q, k2⟩ := readDevs_keeps W c.asked ready (List.range c.devs.length) c s1 0
  refine ⟨(readDevs W c.asked ready (List.range c.devs.length) c s1 0).1, (readDevs W c.asked ready (List.range c.devs.length) c s1 0).2.1,
    r, q, ?_, k1, k2, e2⟩
  rw [processDevices_eq, hpoll]
  dsimp only
  generalize readDevs W c.asked ready (List.range c.devs.length) c s1 0 = x at e1
  obtain ⟨x1, x2, x3, x4⟩ := x
  dsimp only at e1
  subst e1
  rfl

/-! ## C61 -/

theorem readDevs_count (W : World σ) (asked ready : Nat → Bool) (is : List Nat) (c : Ctx) (s : σ) (m : Int) :
    ((readDevs W asked ready is c s m).2.2.1 = none ∧ (readDevs W asked ready is c s m).2.2.2 ≤ m + is.length ∧
      m ≤ (readDevs W asked ready is c s m).2.2.2) ∨
    (readDevs W asked ready is c s m).2.2.1 = some 0 ∨ (readDevs W asked ready is c s m).2.2.1 = some (-1) := by
  induction is generalizing c s m with
  | nil => left; simp [readDevs]
  | cons i is ih =>
    rw [readDevs_cons]
    have hlen : ((i :: is).length : Int) = is.length + 1 := by simp
    split
    · rcases ih (if asked i = true then c.upd i Dev.unready else c) s m with ⟨h1, h2, h3⟩ | h
      · exact Or.inl ⟨h1, by omega, h3⟩
      · exact Or.inr h
    · split
      · rcases ih { c with starved := true } s m with ⟨h1, h2, h3⟩ | h
        · exact Or.inl ⟨h1, by omega, h3⟩
        · exact Or.inr h
      · split
        · exact Or.inr (Or.inr rfl)
        · exact Or.inr (Or.inl rfl)
        · rename_i stamp id shown dec s' _
          rcases ih (c.got (Frame.mk i stamp id shown) dec) s' (m + 1) with ⟨h1, h2, h3⟩ | h
          · exact Or.inl ⟨h1, by omega, by omega⟩
          · exact Or.inr h

theorem processDevices_result (W : World σ) {c c' : Ctx} {s s' : σ} {r : Int} (h : processDevices W c s = .ok (c', s', r)) :
    r = -1 ∨ (0 ≤ r ∧ r ≤ c.devs.length) := by
  rw [processDevices_eq] at h
  split at h
  · simp only [Except.ok.injEq, Prod.mk.injEq] at h
    right; omega
  · simp only [Except.ok.injEq, Prod.mk.injEq] at h
    left; omega
  · rename_i ready s1 hp
    have hcnt := readDevs_count W c.asked ready (List.range c.devs.length) c s1 0
    split at h
    · rename_i c1 s2 r1 m he
      rw [he] at hcnt
      simp only [Except.ok.injEq, Prod.mk.injEq] at h
      rcases hcnt with ⟨h1, -⟩ | h1 | h1
      · cases h1
      · simp only [Option.some.injEq] at h1; right; omega
      · simp only [Option.some.injEq] at h1; left; omega
    · rename_i c1 s2 m he
      rw [he] at hcnt
      rcases hcnt with ⟨-, h1, h2⟩ | h1 | h1
      · cases hx : endPass W c1 s2 with
        | error e => rw [hx] at h; cases h
        | ok x =>
          rw [hx] at h
          simp only [Except.map, Except.ok.injEq, Prod.mk.injEq] at h
          simp only [List.length_range] at h1
          dsimp only at h1 h2
          right; omega
      · cases h1
      · cases h1

/-- A world that counts the entries read. -/
def World.counted (W : World σ) : World (σ × Nat) where
  poll s a := ((W.poll s.1 a).1, (W.poll s.1 a).2, s.2)
  recv s i := ((W.recv s.1 i).1, (W.recv s.1 i).2, match (W.recv s.1 i).1 with
    | .got .. => s.2 + 1
    | _ => s.2)
  output s e := ((W.output s.1 e).1, (W.output s.1 e).2, s.2)

theorem readDevs_counted (W : World σ) (asked ready : Nat → Bool) (is : List Nat) (c : Ctx) (s : σ × Nat) (m : Int) :
    s.2 ≤ (readDevs W.counted asked ready is c s m).2.1.2 ∧
    (readDevs W.counted asked ready is c s m).2.2.2 - m = (readDevs W.counted asked ready is c s m).2.1.2 - s.2 := by
  induction is generalizing c s m with
  | nil => simp [readDevs]
  | cons i is ih =>
    rw [readDevs_cons]
    split
    · exact ih _ s m
    · split
      · exact ih _ s m
      · cases hr : (W.recv s.1 i).1 with
        | err =>
          have e : W.counted.recv s i = (.err, (W.recv s.1 i).2, s.2) := by simp only [World.counted, hr]
          rw [e]; exact ⟨Nat.le_refl _, by simp⟩
        | again =>
          have e : W.counted.recv s i = (.again, (W.recv s.1 i).2, s.2) := by simp only [World.counted, hr]
          rw [e]; exact ⟨Nat.le_refl _, by simp⟩
        | got stamp id shown dec =>
          have e : W.counted.recv s i = (.got stamp id shown dec, (W.recv s.1 i).2, s.2 + 1) := by
            simp only [World.counted, hr]
          rw [e]
          dsimp only
          have := ih (c.got (Frame.mk i stamp id shown) dec) ((W.recv s.1 i).2, s.2 + 1) (m + 1)
          dsimp only at this
          omega

theorem processDevices_counted (W : World σ) {c c' : Ctx} {s s' : σ × Nat} {r : Int}
    (h : processDevices W.counted c s = .ok (c', s', r)) : s.2 ≤ s'.2 ∧ r ≤ s'.2 - s.2 ∧
      (0 < r → r = s'.2 - s.2) := by
  rw [processDevices_eq] at h
  have hp0 : (W.counted.poll s c.asked).2.2 = s.2 := rfl
  split at h
  · rename_i s1 hp
    rw [hp] at hp0
    simp only [Except.ok.injEq, Prod.mk.injEq] at h
    rw [← h.2.1]; dsimp only at hp0; omega
  · rename_i s1 hp
    rw [hp] at hp0
    simp only [Except.ok.injEq, Prod.mk.injEq] at h
    rw [← h.2.1]; dsimp only at hp0; omega
  · rename_i ready s1 hp
    rw [hp] at hp0
    dsimp only at hp0
    have hcnt := readDevs_counted W c.asked ready (List.range c.devs.length) c s1 0
    have hcnt2 := readDevs_count W.counted c.asked ready (List.range c.devs.length) c s1 0
    split at h
    · rename_i c1 s2 r1 m he
      rw [he] at hcnt hcnt2
      simp only [Except.ok.injEq, Prod.mk.injEq] at h
      dsimp only at hcnt hcnt2
      rw [← h.2.1]
      rcases hcnt2 with ⟨h1, -⟩ | h1 | h1
      · cases h1
      · simp only [Option.some.injEq] at h1; omega
      · simp only [Option.some.injEq] at h1; omega
    · rename_i c1 s2 m he
      rw [he] at hcnt
      dsimp only at hcnt
      cases hx : endPass W.counted c1 s2 with
      | error e => rw [hx] at h; cases h
      | ok x =>
        obtain ⟨x1, x2⟩ := x
        rw [hx] at h
        simp only [Except.map, Except.ok.injEq, Prod.mk.injEq] at h
        have := (endPass_calm W.counted (fun s => s.2) (fun _ _ => rfl) hx).1
        rw [← h.2.1]
        omega

/-- C61. A call with a limit that ends returns -1; or 0, and then it is a dump
that reached the end; or the number of entries read in its last turn, a positive
number not above the number of devices, and then at least as many entries were
read as the limit says. -/
theorem C61_result (W : World σ) (dump : Bool) (max : Int) (hmax : 0 < max) (marks : List Nat) (tail : Nat) {c c' : Ctx}
    (I : Inv tail marks.length c) {s s' : σ} {n : Nat} {fuel : Nat} {r : Int}
    (h : processLogs W.counted dump max fuel c (s, 0) 0 = .ok (c', (s', n), some r)) :
    r = -1 ∨ (dump = true ∧ c'.markReached = true ∧ r = 0) ∨
    (1 ≤ r ∧ r ≤ marks.length ∧ max ≤ n ∧ ∃ c1 s1, processDevices W.counted c1 (s1, n - r.toNat) = .ok (c', (s', n), r)) := by
  suffices hg : ∀ (fuel : Nat) (c : Ctx) (s : σ × Nat) (fr : Int), Inv tail marks.length c → fr < max → fr ≤ s.2 →
      processLogs W.counted dump max fuel c s fr = .ok (c', (s', n), some r) →
      r = -1 ∨ (dump = true ∧ c'.markReached = true ∧ r = 0) ∨
      (1 ≤ r ∧ r ≤ marks.length ∧ max ≤ n ∧
        ∃ c1 s1, processDevices W.counted c1 (s1, n - r.toNat) = .ok (c', (s', n), r)) from
    hg fuel c (s, 0) 0 I hmax (by simp) h
  clear h I
  intro fuel
  induction fuel with
  | zero => intro c s fr I hfr _ h; simp [processLogs] at h
  | succ fuel ih =>
    intro c s fr I hfr hle h
    obtain ⟨c1, s1, r1, e1, I1⟩ := processDevices_inv W.counted s I
    have hres := processDevices_result W.counted e1
    have hcnt := processDevices_counted W e1
    rw [I.len] at hres
    unfold processLogs at h
    rw [e1] at h
    dsimp only [bind, Except.bind] at h
    by_cases hneg : r1 < 0
    · rw [if_pos hneg] at h
      simp only [Except.ok.injEq, Prod.mk.injEq, Option.some.injEq] at h
      left; omega
    · rw [if_neg hneg] at h
      by_cases hd : (dump && c1.markReached) = true
      · rw [if_pos hd] at h
        obtain ⟨c2, s2, g1, I2, g2⟩ := flushPendingQueue_inv W.counted c1.pending.toNat s1 I1 (by omega)
        rw [g1] at h
        simp only [Except.ok.injEq, Prod.mk.injEq, Option.some.injEq] at h
        right; left
        simp only [Bool.and_eq_true] at hd
        exact ⟨hd.1, by rw [← h.1, (flushPendingQueue_calm W.counted (fun _ => ()) (fun _ _ => rfl) _ g1).reached]; exact hd.2, by omega⟩
      · rw [if_neg hd] at h
        by_cases ho : c1.outErr = true
        · rw [if_pos ho] at h
          simp only [Except.ok.injEq, Prod.mk.injEq, Option.some.injEq] at h
          left; omega
        · rw [if_neg ho] at h
          by_cases hm : max = 0 ∨ fr + r1 < max
          · rw [if_pos hm] at h
            exact ih c1 s1 (fr + r1) I1 (by omega) (by omega) h
          · rw [if_neg hm] at h
            simp only [Except.ok.injEq, Prod.mk.injEq, Option.some.injEq] at h
            obtain ⟨hc, hs, hr⟩ := h
            right; right
            subst hr
            subst hc
            obtain ⟨s0, k⟩ := s
            rw [hs] at hcnt e1
            dsimp only at hcnt hle
            refine ⟨by omega, by omega, by omega, c, s0, ?_⟩
            have : n - r1.toNat = k := by omega
            rw [this]; exact e1

/-- Counting does not change what happens. -/
theorem counted_fst (W : World σ) (s : σ × Nat) :
    (∀ a, (W.counted.poll s a).1 = (W.poll s.1 a).1 ∧ (W.counted.poll s a).2.1 = (W.poll s.1 a).2) ∧
    (∀ i, (W.counted.recv s i).1 = (W.recv s.1 i).1 ∧ (W.counted.recv s i).2.1 = (W.recv s.1 i).2) ∧
    (∀ e, (W.counted.output s e).1 = (W.output s.1 e).1 ∧ (W.counted.output s e).2.1 = (W.output s.1 e).2) :=
  ⟨fun _ => ⟨rfl, rfl⟩, fun _ => ⟨rfl, rfl⟩, fun _ => ⟨rfl, rfl⟩⟩

/-! ## C38 -/

/-- A world that notes which devices were ever asked and found not readable. -/
def World.watched (W : World σ) : World (σ × (Nat → Bool)) where
  poll s a := match W.poll s.1 a with
    | (.ok ready, t) => (.ok ready, t, fun i => s.2 i || (a i && !ready i))
    | (.intr, t) => (.intr, t, s.2)
    | (.err, t) => (.err, t, s.2)
  recv s i := ((W.recv s.1 i).1, (W.recv s.1 i).2, s.2)
  output s e := ((W.output s.1 e).1, (W.output s.1 e).2, s.2)

/-- Reading takes nothing off the amount of device `i` (the log devices: see
`Recv`), so only finding it not readable clears it. -/
theorem readDevs_watched (W : World σ) (asked ready : Nat → Bool) (is : List Nat) (c : Ctx) (s : σ × (Nat → Bool)) (m : Int)
    {i : Nat} (h0 : ∀ s stamp id shown dec, (W.recv s i).1 = .got stamp id shown dec → dec = 0)
    (hs : asked i = true → ready i = false → s.2 i = true) (hc : c.markOf i > 0 ∨ s.2 i = true) :
    (readDevs W.watched asked ready is c s m).2.1.2 = s.2 ∧
    ((readDevs W.watched asked ready is c s m).1.markOf i > 0 ∨ s.2 i = true) := by
  induction is generalizing c s m with
  | nil => exact ⟨rfl, hc⟩
  | cons j is ih =>
    rw [readDevs_cons]
    split
    · rename_i hskip
      refine ih _ s m hs ?_
      by_cases ha : asked j = true
      · rw [if_pos ha, markOf_unready]
        by_cases hj : j = i
        · subst hj
          refine Or.inr (hs ha ?_)
          rw [ha] at hskip
          simpa using hskip
        · rw [if_neg (fun h => hj h.1)]; exact hc
      · rw [if_neg ha]; exact hc
    · split
      · exact ih { c with starved := true } s m hs hc
      · cases hr : (W.recv s.1 j).1 with
        | err =>
          have e : W.watched.recv s j = (.err, (W.recv s.1 j).2, s.2) := by simp only [World.watched, hr]
          rw [e]; exact ⟨rfl, hc⟩
        | again =>
          have e : W.watched.recv s j = (.again, (W.recv s.1 j).2, s.2) := by simp only [World.watched, hr]
          rw [e]; exact ⟨rfl, hc⟩
        | got stamp id shown dec =>
          have e : W.watched.recv s j = (.got stamp id shown dec, (W.recv s.1 j).2, s.2) := by
            simp only [World.watched, hr]
          rw [e]
          dsimp only
          refine ih (c.got (Frame.mk j stamp id shown) dec) ((W.recv s.1 j).2, s.2) (m + 1) hs ?_
          by_cases hj : j = i
          · subst hj
            have hd := h0 _ _ _ _ _ hr
            subst hd
            rw [markOf_got]; exact hc
          · have : (c.got (Frame.mk j stamp id shown) dec).markOf i = c.markOf i := by
              unfold Ctx.got Ctx.upd Ctx.markOf
              simp only [List.getElem?_modify]
              cases c.devs[i]? <;> simp [hj]
            rw [this]; exact hc

/-- One turn. -/
theorem processDevices_watched (W : World σ) {c c' : Ctx} {s s' : σ × (Nat → Bool)} {r : Int}
    (h : processDevices W.watched c s = .ok (c', s', r)) {i : Nat}
    (h0 : ∀ s stamp id shown dec, (W.recv s i).1 = .got stamp id shown dec → dec = 0)
    (hc : c.markOf i > 0 ∨ s.2 i = true) : c'.markOf i > 0 ∨ s'.2 i = true := by
  rw [processDevices_eq] at h
  cases hp : W.poll s.1 c.asked with
  | mk pr t =>
    cases pr with
    | intr =>
      have e : W.watched.poll s c.asked = (.intr, t, s.2) := by simp only [World.watched, hp]
      rw [e] at h
      simp only [Except.ok.injEq, Prod.mk.injEq] at h
      rw [← h.1, ← h.2.1]; exact hc
    | err =>
      have e : W.watched.poll s c.asked = (.err, t, s.2) := by simp only [World.watched, hp]
      rw [e] at h
      simp only [Except.ok.injEq, Prod.mk.injEq] at h
      rw [← h.1, ← h.2.1]; exact hc
    | ok ready =>
      have e : W.watched.poll s c.asked = (.ok ready, t, fun i => s.2 i || (c.asked i && !ready i)) := by
        simp only [World.watched, hp]
      rw [e] at h
      dsimp only at h
      have hw := readDevs_watched W c.asked ready (List.range c.devs.length) c
        (t, fun i => s.2 i || (c.asked i && !ready i)) 0 h0
        (fun ha hr => by dsimp only; rw [ha, hr]; simp)
        (by rcases hc with hc | hc
            · exact Or.inl hc
            · right; dsimp only; rw [hc]; rfl)
      split at h
      · rename_i c1 s2 r1 m he
        rw [he] at hw
        simp only [Except.ok.injEq, Prod.mk.injEq] at h
        rw [← h.1, ← h.2.1]
        dsimp only at hw
        rw [hw.1]; exact hw.2
      · rename_i c1 s2 m he
        rw [he] at hw
        dsimp only at hw
        cases hx : endPass W.watched c1 s2 with
        | error e => rw [hx] at h; cases h
        | ok x =>
          obtain ⟨x1, x2⟩ := x
          rw [hx] at h
          simp only [Except.map, Except.ok.injEq, Prod.mk.injEq] at h
          have := endPass_calm W.watched (fun s => s.2) (fun _ _ => rfl) hx
          rw [← h.1, ← h.2.1, this.2.1, this.1, hw.1]
          exact hw.2

/-- All calls of a session keep it. -/
theorem processLogs_watched (W : World σ) {dump : Bool} {max : Int} {i : Nat}
    (h0 : ∀ s stamp id shown dec, (W.recv s i).1 = .got stamp id shown dec → dec = 0) :
    ∀ (fuel : Nat) {c c' : Ctx} {s s' : σ × (Nat → Bool)} {fr : Int} {r : Option Int},
      processLogs W.watched dump max fuel c s fr = .ok (c', s', r) →
      (c.markOf i > 0 ∨ s.2 i = true) → c'.markOf i > 0 ∨ s'.2 i = true := by
  intro fuel
  induction fuel with
  | zero =>
    intro c c' s s' fr r h hc
    simp only [processLogs, Except.ok.injEq, Prod.mk.injEq] at h
    rw [← h.1, ← h.2.1]; exact hc
  | succ fuel ih =>
    intro c c' s s' fr r h hc
    unfold processLogs at h
    dsimp only [bind, Except.bind] at h
    cases hx : processDevices W.watched c s with
    | error e => rw [hx] at h; cases h
    | ok x =>
      obtain ⟨c1, s1, r1⟩ := x
      rw [hx] at h
      dsimp only at h
      have h1 := processDevices_watched W hx h0 hc
      split at h
      · simp only [Except.ok.injEq, Prod.mk.injEq] at h
        rw [← h.1, ← h.2.1]; exact h1
      split at h
      · cases hy : flushPendingQueue W.watched c1.pending.toNat c1 s1 with
        | error e => rw [hy] at h; cases h
        | ok y =>
          obtain ⟨y1, y2⟩ := y
          rw [hy] at h
          simp only [Except.ok.injEq, Prod.mk.injEq] at h
          have := flushPendingQueue_calm W.watched (fun s => s.2) (fun _ _ => rfl) _ hy
          rw [← h.1, ← h.2.1, this.marks, this.world]; exact h1
      split at h
      · simp only [Except.ok.injEq, Prod.mk.injEq] at h
        rw [← h.1, ← h.2.1]; exact h1
      split at h
      · exact ih h h1
      · simp only [Except.ok.injEq, Prod.mk.injEq] at h
        rw [← h.1, ← h.2.1]; exact h1

/-- Marks never grow while reading. -/
theorem readDevs_marks (W : World σ) (asked ready : Nat → Bool) (is : List Nat) (c : Ctx) (s : σ) (m : Int) :
    (readDevs W asked ready is c s m).1.markReached = c.markReached ∧
    ∀ i, c.markOf i ≤ 0 → (readDevs W asked ready is c s m).1.markOf i ≤ 0 := by
  induction is generalizing c s m with
  | nil => exact ⟨rfl, fun _ h => h⟩
  | cons j is ih =>
    rw [readDevs_cons]
    split
    · obtain ⟨h1, h2⟩ := ih (if asked j = true then c.upd j Dev.unready else c) s m
      refine ⟨h1.trans (by split <;> rfl), fun i hi => h2 i ?_⟩
      split
      · rw [markOf_unready]
        split
        · exact Int.le_refl _
        · exact hi
      · exact hi
    · split
      · exact ih { c with starved := true } s m
      · split
        · exact ⟨rfl, fun _ h => h⟩
        · exact ⟨rfl, fun _ h => h⟩
        · rename_i stamp id shown dec s' _
          obtain ⟨h1, h2⟩ := ih (c.got (Frame.mk j stamp id shown) dec) s' (m + 1)
          refine ⟨h1, fun i hi => h2 i ?_⟩
          unfold Ctx.got Ctx.upd
          unfold Ctx.markOf at hi ⊢
          simp only [List.getElem?_modify]
          cases hd : c.devs[i]? with
          | none => simp
          | some d =>
            rw [hd] at hi
            dsimp only at hi
            by_cases hj : j = i
            · simp [hj]; omega
            · simp [hj]; exact hi

theorem processDevices_end (W : World σ) {c c' : Ctx} {s s' : σ} {r : Int}
    (hc : c.markReached = true → ∀ i, c.markOf i ≤ 0) (h : processDevices W c s = .ok (c', s', r)) :
    c'.markReached = true → ∀ i, c'.markOf i ≤ 0 := by
  rw [processDevices_eq] at h
  split at h
  · simp only [Except.ok.injEq, Prod.mk.injEq] at h
    rw [← h.1]; exact hc
  · simp only [Except.ok.injEq, Prod.mk.injEq] at h
    rw [← h.1]; exact hc
  · rename_i ready s1 _
    have hr := readDevs_marks W c.asked ready (List.range c.devs.length) c s1 0
    split at h
    · rename_i c1 s2 r1 m he
      rw [he] at hr
      simp only [Except.ok.injEq, Prod.mk.injEq] at h
      rw [← h.1]
      intro hm i
      exact hr.2 i (hc (hr.1.symm.trans hm) i)
    · rename_i c1 s2 m he
      rw [he] at hr
      dsimp only at hr
      cases hx : endPass W c1 s2 with
      | error e => rw [hx] at h; cases h
      | ok x =>
        obtain ⟨x1, x2⟩ := x
        rw [hx] at h
        simp only [Except.map, Except.ok.injEq, Prod.mk.injEq] at h
        obtain ⟨-, e2, e3⟩ := endPass_calm W (fun _ => ()) (fun _ _ => rfl) hx
        rw [← h.1]
        intro hm i
        rcases e3 hm with hm | hm
        · rw [e2]; exact hr.2 i (hc (hr.1.symm.trans hm) i)
        · unfold Ctx.markOf
          cases hd : x1.devs[i]? with
          | none => exact Int.le_refl _
          | some d =>
            dsimp only
            rw [Bool.eq_false_iff] at hm
            refine Int.not_lt.mp (fun hlt => hm ?_)
            rw [List.any_eq_true]
            exact ⟨d, List.mem_of_getElem? hd, by rw [decide_eq_true_eq]; exact hlt⟩

/-- After a call the mark counts as reached only if no amount is left; a dump that
returns 0 has reached it. -/
theorem processLogs_end (W : World σ) {dump : Bool} {max : Int} :
    ∀ (fuel : Nat) {c c' : Ctx} {s s' : σ} {fr : Int} {r : Option Int},
      (c.markReached = true → ∀ i, c.markOf i ≤ 0) →
      processLogs W dump max fuel c s fr = .ok (c', s', r) →
      c'.markReached = true → ∀ i, c'.markOf i ≤ 0 := by
  intro fuel
  induction fuel with
  | zero =>
    intro c c' s s' fr r hc h
    simp only [processLogs, Except.ok.injEq, Prod.mk.injEq] at h
    rw [← h.1]; exact hc
  | succ fuel ih =>
    intro c c' s s' fr r hc h
    unfold processLogs at h
    dsimp only [bind, Except.bind] at h
    cases hx : processDevices W c s with
    | error e => rw [hx] at h; cases h
    | ok x =>
      obtain ⟨c1, s1, r1⟩ := x
      rw [hx] at h
      dsimp only at h
      have h1 := processDevices_end W hc hx
      split at h
      · simp only [Except.ok.injEq, Prod.mk.injEq] at h
        rw [← h.1]; exact h1
      split at h
      · cases hy : flushPendingQueue W c1.pending.toNat c1 s1 with
        | error e => rw [hy] at h; cases h
        | ok y =>
          obtain ⟨y1, y2⟩ := y
          rw [hy] at h
          simp only [Except.ok.injEq, Prod.mk.injEq] at h
          have := flushPendingQueue_calm W (fun _ => ()) (fun _ _ => rfl) _ hy
          rw [← h.1]
          intro hm i
          rw [this.marks]
          exact h1 (this.reached.symm.trans hm) i
      split at h
      · simp only [Except.ok.injEq, Prod.mk.injEq] at h
        rw [← h.1]; exact h1
      split at h
      · exact ih h1 h
      · simp only [Except.ok.injEq, Prod.mk.injEq] at h
        rw [← h.1]; exact h1

theorem processLogs_zero (W : World σ) {max : Int} (hmax : 0 ≤ max) :
    ∀ (fuel : Nat) {c c' : Ctx} {s s' : σ} {fr : Int}, (max = 0 ∨ fr < max) →
      processLogs W true max fuel c s fr = .ok (c', s', some 0) → c'.markReached = true := by
  intro fuel
  induction fuel with
  | zero => intro c c' s s' fr _ h; simp [processLogs] at h
  | succ fuel ih =>
    intro c c' s s' fr hfr h
    unfold processLogs at h
    dsimp only [bind, Except.bind] at h
    cases hx : processDevices W c s with
    | error e => rw [hx] at h; cases h
    | ok x =>
      obtain ⟨c1, s1, r1⟩ := x
      rw [hx] at h
      dsimp only at h
      split at h
      · simp only [Except.ok.injEq, Prod.mk.injEq, Option.some.injEq] at h
        omega
      split at h
      · rename_i hm
        cases hy : flushPendingQueue W c1.pending.toNat c1 s1 with
        | error e => rw [hy] at h; cases h
        | ok y =>
          obtain ⟨y1, y2⟩ := y
          rw [hy] at h
          simp only [Except.ok.injEq, Prod.mk.injEq] at h
          have := flushPendingQueue_calm W (fun _ => ()) (fun _ _ => rfl) _ hy
          rw [← h.1, this.reached]
          simpa using hm
      split at h
      · simp only [Except.ok.injEq, Prod.mk.injEq, Option.some.injEq] at h
        omega
      split at h
      · exact ih (by omega) h
      · simp only [Except.ok.injEq, Prod.mk.injEq, Option.some.injEq] at h
        omega

/-- C38. A dump ends with 0 only after each device that held something when it
was opened, and whose amount is not counted down while reading (the log devices),
was asked and found not readable: entries that arrive before that are printed too. -/
theorem C38_end (W : World σ) (marks : List Nat) (tail : Int) (max : Int) (hmax : 0 ≤ max) {fuel : Nat} {c : Ctx} {s s' : σ}
    {seen : Nat → Bool}
    (h : processLogs W.watched true max fuel (openCtx marks tail) (s, fun _ => false) 0 = .ok (c, (s', seen), some 0))
    {i m : Nat} (hi : marks[i]? = some m) (hm : 0 < m)
    (h0 : ∀ s stamp id shown dec, (W.recv s i).1 = .got stamp id shown dec → dec = 0) : seen i = true := by
  have h1 := processLogs_zero W.watched hmax fuel (by omega) h
  have h2 := processLogs_end W.watched fuel (c := openCtx marks tail) (fun hx => by cases hx) h h1 i
  rcases processLogs_watched W h0 fuel h (Or.inl (by
    unfold Ctx.markOf openCtx
    simp only [List.getElem?_map, hi, Option.map_some]
    omega)) with h3 | h3
  · omega
  · exact h3

/-- Two devices with one entry each. -/
def twoLogs : Logs := fun i => if i < 2 then [.text (10 + i) i] else []

/-- The documented result for "more work" is 1, but here it is 2; the tool compares with 1. -/
theorem C61_neg_one : ∃ c s, processLogs quiet false 1 1 (openCtx [30, 30] 0) twoLogs 0 = .ok (c, s, some 2) :=
  ⟨_, _, rfl⟩

end Verif.Ulogcat
