import Verif.Ulogcat.Kmsg

/-!
# What a viewer receives of the kernel's messages (C92)
-/
namespace Verif.Ulogcat
open Verif

/-- A record as the kernel makes them. -/
structure KRec.Ok (r : KRec) : Prop where
  flags : NoNul r.flags
  semi : ∀ b ∈ r.flags, b ≠ 59
  text : NoNul r.text
  prio : r.prio < 9223372036854775808
  usec : r.usec < 9223372036854775808

/-- The call delivered record number `seq`: level, time and the text that will be
displayed are those the kernel logged. -/
structure GotRec (r : KRec) (seq : Nat) (o : KOut) : Prop where
  ret : o.ret = 1
  taken : o.taken = (r.bytes seq).length
  entry : ∃ f m p, o.entry = some f ∧ f.priority = r.prio % 8 ∧ f.stamp = r.usec ∧ f.sec = r.usec / 1000000 ∧
    f.nsec = r.usec % 1000000 * 1000 ∧ klogParse f = some (some (m, p, r.text.length + 1)) ∧ strAt m p = some r.text

/-- A call that gets the next record if there is one. -/
inductive Took : Kmsg → KOut → Kmsg → Prop
  /-- some were overwritten; the next call begins with the oldest left -/
  | overwritten {k o} (h : k.pos < k.first) (ho : o.ret = 0 ∧ o.entry = none) : Took k o { k with pos := k.first }
  | empty {k o} (h : k.first ≤ k.pos) (he : k.recs[k.pos]? = none) (ho : o.ret = 0 ∧ o.entry = none) : Took k o k
  | record {k o r} (h : k.first ≤ k.pos) (he : k.recs[k.pos]? = some r) (ho : GotRec r k.pos o) :
      Took k o { k with pos := k.pos + 1 }

theorem kmsgRecord_ne (r : KRec) (seq : Nat) : (r.bytes seq).length ≠ 0 := by
  unfold KRec.bytes kmsgRecord
  simp

theorem afterKRead_data {r : KRec} {seq : Nat} {f : RFrame} (hr : r.Ok) (hl : (r.bytes seq).length + 1 ≤ f.mem.length) :
    ∃ o, afterKRead f (.data (r.bytes seq)) = some o ∧ GotRec r seq o := by
  obtain ⟨e, m, p, h1, h2, h3, h4, h5, h6, h7⟩ := C64_kmsg r.prio seq r.usec r.flags r.text r.dict
    (f.mem.drop ((r.bytes seq).length + 1)) hr.flags hr.semi hr.text hr.prio hr.usec
  have h1 : klogReceive (r.bytes seq ++ 0 :: f.mem.drop ((r.bytes seq).length + 1)) = some (some e) := h1
  refine ⟨{ ret := 1, frame := some { f with mem := e.buf }, entry := some e, taken := (r.bytes seq).length }, ?_,
    rfl, rfl, e, m, p, rfl, h2, h3, h4, h5, h6, h7⟩
  unfold afterKRead
  dsimp only
  rw [if_neg (by omega), if_neg (kmsgRecord_ne r seq), h1]
  rfl

theorem afterKRead_took {skips : Bool} {k k' : Kmsg} {count : Nat} {r : KRes} {f : RFrame}
    (h : k.read skips count = (k', r)) (hr : r ≠ .inval) (hk : ∀ x ∈ k.recs, KRec.Ok x) (hf : count + 1 = f.mem.length) :
    ∃ o, afterKRead f r = some o ∧ Took k o k' := by
  unfold Kmsg.read at h
  by_cases h1 : k.pos < k.first
  · rw [if_pos h1] at h
    simp only [Prod.mk.injEq] at h
    rw [← h.1, ← h.2]
    exact ⟨_, rfl, .overwritten h1 ⟨rfl, rfl⟩⟩
  · rw [if_neg h1] at h
    cases hx : k.recs[k.pos]? with
    | none =>
      rw [hx] at h
      simp only [Prod.mk.injEq] at h
      rw [← h.1, ← h.2]
      exact ⟨_, rfl, .empty (by omega) hx ⟨rfl, rfl⟩⟩
    | some x =>
      rw [hx] at h
      dsimp only at h
      by_cases hl : (x.bytes k.pos).length > count
      · rw [if_pos hl] at h
        simp only [Prod.mk.injEq] at h
        exact absurd h.2.symm hr
      · rw [if_neg hl] at h
        simp only [Prod.mk.injEq] at h
        rw [← h.1, ← h.2]
        obtain ⟨o, e1, e2⟩ := afterKRead_data (seq := k.pos) (f := f) (hk x (List.mem_of_getElem? hx)) (by omega)
        exact ⟨o, e1, .record (by omega) hx e2⟩

theorem read_inval {skips : Bool} {k k' : Kmsg} {count : Nat} (h : k.read skips count = (k', .inval)) :
    ∃ r, k.first ≤ k.pos ∧ k.recs[k.pos]? = some r ∧ count < (r.bytes k.pos).length ∧
      k' = if skips then { k with pos := k.pos + 1 } else k := by
  unfold Kmsg.read at h
  by_cases h1 : k.pos < k.first
  · rw [if_pos h1] at h; simp at h
  · rw [if_neg h1] at h
    cases hx : k.recs[k.pos]? with
    | none => rw [hx] at h; simp at h
    | some x =>
      rw [hx] at h
      dsimp only at h
      by_cases hl : (x.bytes k.pos).length > count
      · rw [if_pos hl] at h
        simp only [Prod.mk.injEq, and_true] at h
        exact ⟨x, by omega, rfl, hl, h.symm⟩
      · rw [if_neg hl] at h; simp at h

/-- The next record does not fit into the small buffer. -/
def Kmsg.Long (k : Kmsg) : Prop := k.first ≤ k.pos ∧ ∃ r, k.recs[k.pos]? = some r ∧ 199 < (r.bytes k.pos).length

/-- Records the viewer can hold. -/
def KSane (recs : List KRec) : Prop :=
  (∀ x ∈ recs, KRec.Ok x) ∧ ∀ (i : Nat) (x : KRec), recs[i]? = some x → (x.bytes i).length ≤ 8191

theorem KSane.of_prefix {a b : List KRec} (h : KSane b) (hp : a <+: b) : KSane a := by
  obtain ⟨t, rfl⟩ := hp
  refine ⟨fun x hx => h.1 x (by simp [hx]), fun i x hx => h.2 i x ?_⟩
  obtain ⟨hi, hx⟩ := List.getElem?_eq_some_iff.1 hx
  rw [List.getElem?_append_left hi, List.getElem?_eq_getElem hi, hx]

theorem klogEntry_other {skips alloc : Bool} {fresh : Nat → UInt8} {more : List KRec} {drop : Nat} {f : RFrame} {k k1 : Kmsg}
    {r : KRes} (h : k.read skips (f.mem.length - 1) = (k1, r)) (hr : r ≠ .inval) :
    klogEntry skips alloc fresh more drop f k = (k1, afterKRead f r) := by
  unfold klogEntry
  rw [h]
  cases r <;> first | rfl | exact absurd rfl hr

theorem not_long {skips : Bool} {f : RFrame} {k k1 : Kmsg} {r : KRes} (hm : f.mem.length = 200)
    (h : k.read skips (f.mem.length - 1) = (k1, r)) (hr : r ≠ .inval) : ¬ k.Long := by
  rintro ⟨l1, x, l2, l3⟩
  unfold Kmsg.read at h
  rw [if_neg (by omega), l2] at h
  dsimp only at h
  rw [if_pos (by omega)] at h
  simp only [Prod.mk.injEq] at h
  exact hr h.2.symm

/-- C92, one call of `klog_receive_entry`, frame as handed out, records of up to
8191 bytes: all accesses are inside the buffer; if the next record fits into the
small buffer (199 bytes) it is delivered exactly; if not, the call fails when
memory is refused, and otherwise delivers what comes next after the first read:
the same record if the kernel kept the reader in place. -/
theorem C92_call {skips alloc : Bool} {fresh : Nat → UInt8} {more : List KRec} {drop : Nat} {f : RFrame} {k : Kmsg}
    (hf : f.fresh) (hk : KSane k.recs) (hk2 : k.Long → alloc = true → KSane (k.recs ++ more)) :
    ∃ k' o, klogEntry skips alloc fresh more drop f k = (k', some o) ∧
      (¬ k.Long → Took k o k') ∧
      (k.Long → alloc = false → o.ret = -1 ∧ o.entry = none ∧ o.frame = none ∧
        k' = if skips then { k with pos := k.pos + 1 } else k) ∧
      (k.Long → alloc = true → Took ((if skips then { k with pos := k.pos + 1 } else k).log more drop) o k') := by
  obtain ⟨hb, hm⟩ := hf
  have hm : f.mem.length = 200 := hm
  cases hr : k.read skips (f.mem.length - 1) with
  | mk k1 r =>
  by_cases hi : r = .inval
  · subst hi
    obtain ⟨x, g1, g2, g3, g4⟩ := read_inval hr
    have hlong : k.Long := ⟨g1, x, g2, by omega⟩
    unfold klogEntry
    rw [hr]
    dsimp only
    rw [hb, if_neg (by simp)]
    cases alloc with
    | false => exact ⟨k1, _, rfl, fun h => absurd hlong h, fun _ _ => ⟨rfl, rfl, rfl, g4⟩, fun _ h => by cases h⟩
    | true =>
      rw [if_pos rfl]
      have hs := hk2 hlong rfl
      have hrecs : (k1.log more drop).recs = k.recs ++ more := by
        rw [g4]; cases skips <;> rfl
      cases hr2 : (k1.log more drop).read skips (bufsiz - 1) with
      | mk k2 r2 =>
      dsimp only
      have hn : r2 ≠ .inval := by
        rintro rfl
        obtain ⟨y, j1, j2, j3, _⟩ := read_inval hr2
        rw [hrecs] at j2
        have := hs.2 _ _ j2
        have : bufsiz - 1 < _ := j3
        rw [show bufsiz - 1 = 8191 from rfl] at this
        omega
      obtain ⟨o, e1, e2⟩ := afterKRead_took (f := { big := true, mem := (List.range bufsiz).map fresh }) hr2 hn
        (by rw [hrecs]; exact hs.1) (by simp)
      rw [e1]
      refine ⟨k2, o, rfl, fun h => absurd hlong h, fun _ h => (by cases h), fun _ _ => ?_⟩
      rw [← g4]; exact e2
  · rw [klogEntry_other hr hi]
    obtain ⟨o, e1, e2⟩ := afterKRead_took hr hi hk.1 (f := f) (by omega)
    rw [e1]
    have hns := not_long hm hr hi
    exact ⟨k1, o, rfl, fun _ => e2, fun h => absurd h hns, fun h => absurd h hns⟩

/-- C92: a call that delivers no message leaves the frame as it was, or with the larger
buffer as `malloc` gave it; only if memory is refused is it left with none. -/
theorem C92_frame {skips alloc : Bool} {fresh : Nat → UInt8} {more : List KRec} {drop : Nat} {f : RFrame} {k : Kmsg}
    (hf : f.fresh) (hk : KSane k.recs) (hk2 : k.Long → alloc = true → KSane (k.recs ++ more)) {k' : Kmsg} {o : KOut}
    (h : klogEntry skips alloc fresh more drop f k = (k', some o)) (hn : o.entry = none) :
    (¬ k.Long → o.frame = some f) ∧
    (k.Long → o.frame = if alloc then some { big := true, mem := (List.range 8192).map fresh } else none) := by
  have keep : ∀ {g : RFrame} {r : KRes} {o : KOut} {k k' : Kmsg} {count : Nat}, k.read skips count = (k', r) →
      count + 1 = g.mem.length → KSane k.recs → r ≠ .inval → afterKRead g r = some o → o.entry = none → o.frame = some g := by
    intro g r o k k' count hr hc hk hi ho hn
    cases r with
    | inval => exact absurd rfl hi
    | again => cases ho; rfl
    | pipe => cases ho; rfl
    | data bs =>
      unfold Kmsg.read at hr
      split at hr
      · simp at hr
      · split at hr
        · simp at hr
        · rename_i x hx
          split at hr
          · simp at hr
          · rename_i hlt
            simp only [Prod.mk.injEq, KRes.data.injEq] at hr
            obtain ⟨o', e1, e2⟩ := afterKRead_data (seq := k.pos) (f := g) (hk.1 x (List.mem_of_getElem? hx)) (by omega)
            rw [hr.2, ho] at e1
            cases e1
            obtain ⟨_, _, _, e, _⟩ := e2.entry
            rw [hn] at e
            cases e
  obtain ⟨hb, hm⟩ := hf
  have hm : f.mem.length = 200 := hm
  cases hr : k.read skips (f.mem.length - 1) with
  | mk k1 r =>
  by_cases hi : r = .inval
  · subst hi
    obtain ⟨x, g1, g2, g3, g4⟩ := read_inval hr
    have hlong : k.Long := ⟨g1, x, g2, by omega⟩
    refine ⟨fun h => absurd hlong h, fun _ => ?_⟩
    unfold klogEntry at h
    rw [hr] at h
    dsimp only at h
    rw [hb, if_neg (by simp)] at h
    cases alloc with
    | false => simp at h; rw [← h.2]; rfl
    | true =>
      rw [if_pos rfl] at h
      have hs := hk2 hlong rfl
      have hrecs : (k1.log more drop).recs = k.recs ++ more := by
        rw [g4]; cases skips <;> rfl
      cases hr2 : (k1.log more drop).read skips (bufsiz - 1) with
      | mk k2 r2 =>
      rw [hr2] at h
      simp only [Prod.mk.injEq] at h
      have hi2 : r2 ≠ .inval := by
        rintro rfl
        obtain ⟨y, j1, j2, j3, _⟩ := read_inval hr2
        rw [hrecs] at j2
        have := hs.2 _ _ j2
        have : bufsiz - 1 < _ := j3
        rw [show bufsiz - 1 = 8191 from rfl] at this
        omega
      rw [if_pos rfl]
      exact keep hr2 (by simp) (by rw [hrecs]; exact hs) hi2 h.2 hn
  · rw [klogEntry_other hr hi] at h
    have hns := not_long hm hr hi
    simp only [Prod.mk.injEq] at h
    exact ⟨fun _ => keep hr (by omega) hk hi h.2 hn, fun h => absurd h hns⟩

/-- C92, a frame that already has the large buffer: a record that does not fit is not
tried again; the call fails and leaves the frame alone. -/
theorem C92_big {skips alloc : Bool} {fresh : Nat → UInt8} {more : List KRec} {drop : Nat} {f : RFrame} {k : Kmsg} {x : KRec}
    (hf : f.big = true) (h1 : k.first ≤ k.pos) (hx : k.recs[k.pos]? = some x) (hl : f.mem.length ≤ (x.bytes k.pos).length)
    (hm : f.mem ≠ []) :
    klogEntry skips alloc fresh more drop f k =
      (if skips then { k with pos := k.pos + 1 } else k, some { ret := -1, frame := some f, entry := none, taken := 0 }) := by
  have hm : 0 < f.mem.length := List.length_pos_iff.2 hm
  unfold klogEntry Kmsg.read
  rw [if_neg (by omega), hx]
  dsimp only
  rw [if_pos (by omega)]
  dsimp only
  rw [if_pos hf]
  rfl

/-- The kernel logs, and the viewer calls `klog_receive_entry` with frames from the
pool, in any order. -/
inductive KSession (skips : Bool) : Kmsg → List KOut → Kmsg → Prop
  | nil {k} : KSession skips k [] k
  | logs {k more drop os k'} (h : KSession skips (k.log more drop) os k') : KSession skips k os k'
  | call {k alloc fresh more drop f o k1 os k'} (hf : RFrame.fresh f)
      (h : klogEntry skips alloc fresh more drop f k = (k1, some o)) (hs : KSession skips k1 os k') :
      KSession skips k (o :: os) k'

/-- Records delivered in their order, each at most once, between positions. -/
inductive KFollows (recs : List KRec) : Nat → List KOut → Nat → Prop
  | nil {p q} (h : p ≤ q) : KFollows recs p [] q
  | none {p o os q} (h : o.entry = none) (hf : KFollows recs p os q) : KFollows recs p (o :: os) q
  | record {p i r o os q} (h : p ≤ i) (hr : recs[i]? = some r) (ho : GotRec r i o) (hf : KFollows recs (i + 1) os q) :
      KFollows recs p (o :: os) q

theorem KFollows.le {recs p os q} (h : KFollows recs p os q) : p ≤ q := by
  induction h with
  | nil h => exact h
  | none _ _ ih => exact ih
  | record h _ _ _ ih => omega

theorem KFollows.less {recs p p' os q} (h : KFollows recs p os q) (hp : p' ≤ p) : KFollows recs p' os q := by
  induction h generalizing p' with
  | nil h => exact .nil (by omega)
  | none h _ ih => exact .none h (ih hp)
  | record h hr ho hf ih => exact .record (by omega) hr ho hf

/-- Records only come on top, and the oldest only moves on. -/
theorem klogEntry_grows {skips alloc : Bool} {fresh : Nat → UInt8} {more : List KRec} {drop : Nat} {f : RFrame} {k k' : Kmsg}
    {o : Option KOut} (hf : f.fresh) (h : klogEntry skips alloc fresh more drop f k = (k', o)) :
    (¬ (k.Long ∧ alloc = true) ∧ k'.recs = k.recs ∧ k'.first = k.first) ∨
      (k'.recs = k.recs ++ more ∧ k'.first = min (max k.first drop) (k.recs ++ more).length) := by
  have hread : ∀ (k : Kmsg) (count : Nat), (k.read skips count).1.recs = k.recs ∧ (k.read skips count).1.first = k.first := by
    intro k count
    unfold Kmsg.read
    split
    · exact ⟨rfl, rfl⟩
    · split
      · exact ⟨rfl, rfl⟩
      · split
        · cases skips <;> exact ⟨rfl, rfl⟩
        · exact ⟨rfl, rfl⟩
  obtain ⟨hb, hm⟩ := hf
  have h0 := hread k (f.mem.length - 1)
  cases hr : k.read skips (f.mem.length - 1) with
  | mk k1 r =>
  rw [hr] at h0
  dsimp only at h0
  by_cases hi : r = .inval
  · subst hi
    unfold klogEntry at h
    rw [hr] at h
    dsimp only at h
    rw [hb, if_neg (by simp)] at h
    by_cases ha : alloc = true
    · rw [if_pos ha] at h
      have h1 := hread (k1.log more drop) (bufsiz - 1)
      simp only [Prod.mk.injEq] at h
      rw [← h.1]
      refine .inr ⟨?_, ?_⟩
      · rw [h1.1]; show k1.recs ++ more = _; rw [h0.1]
      · rw [h1.2]; show min (max k1.first drop) (k1.recs ++ more).length = _; rw [h0.1, h0.2]
    · rw [if_neg ha] at h
      simp only [Prod.mk.injEq] at h
      rw [← h.1]
      exact .inl ⟨fun h => ha h.2, h0⟩
  · rw [klogEntry_other hr hi] at h
    simp only [Prod.mk.injEq] at h
    rw [← h.1]
    exact .inl ⟨fun h => not_long hm hr hi h.1, h0⟩

theorem KSession.grows {skips k os k'} (h : KSession skips k os k') :
    k.recs <+: k'.recs ∧ (k.first ≤ k.recs.length → k.first ≤ k'.first ∧ k'.first ≤ k'.recs.length) := by
  induction h with
  | nil => exact ⟨List.prefix_refl _, fun h => ⟨Nat.le_refl _, h⟩⟩
  | logs h ih =>
    rename_i k more drop os k'
    obtain ⟨i1, i2⟩ := ih
    refine ⟨(List.prefix_append _ _).trans i1, fun hf => ?_⟩
    have hl : (k.log more drop).first = min (max k.first drop) (k.recs ++ more).length := rfl
    have hl2 : (k.log more drop).recs.length = (k.recs ++ more).length := rfl
    have h3 : (k.recs ++ more).length = k.recs.length + more.length := List.length_append
    obtain ⟨a, b⟩ := i2 (by omega)
    exact ⟨by omega, b⟩
  | call hf h hs ih =>
    rename_i k alloc fresh more drop f o k1 os k'
    obtain ⟨i1, i2⟩ := ih
    rcases klogEntry_grows hf h with ⟨_, g1, g2⟩ | ⟨g1, g2⟩
    · rw [g1, g2] at i2
      rw [g1] at i1
      exact ⟨i1, i2⟩
    · rw [g1, g2] at i2
      rw [g1] at i1
      refine ⟨(List.prefix_append _ _).trans i1, fun hf => ?_⟩
      have h3 : (k.recs ++ more).length = k.recs.length + more.length := List.length_append
      obtain ⟨a, b⟩ := i2 (by omega)
      exact ⟨by omega, b⟩

/-- The call as in `C92_call`, when the session goes on to `k'`. -/
theorem call_cases {skips alloc : Bool} {fresh : Nat → UInt8} {more : List KRec} {drop : Nat} {f : RFrame} {k k1 k' : Kmsg}
    {o : KOut} {os : List KOut} (hf : f.fresh) (h : klogEntry skips alloc fresh more drop f k = (k1, some o))
    (hs : KSession skips k1 os k') (hsane : KSane k'.recs) :
    (¬ k.Long ∧ Took k o k1) ∨
    (k.Long ∧ o.ret = -1 ∧ o.entry = none ∧ k1 = if skips then { k with pos := k.pos + 1 } else k) ∨
    (k.Long ∧ Took ((if skips then { k with pos := k.pos + 1 } else k).log more drop) o k1) := by
  have hp := hs.grows.1
  have hk : KSane k.recs := by
    rcases klogEntry_grows hf h with ⟨_, g, _⟩ | ⟨g, _⟩
    · rw [g] at hp; exact hsane.of_prefix hp
    · rw [g] at hp; exact hsane.of_prefix ((List.prefix_append _ _).trans hp)
  have hk2 : k.Long → alloc = true → KSane (k.recs ++ more) := by
    intro hl ha
    rcases klogEntry_grows hf h with ⟨g, _⟩ | ⟨g, _⟩
    · exact absurd ⟨hl, ha⟩ g
    · rw [g] at hp; exact hsane.of_prefix hp
  obtain ⟨k2, o2, e, h1, h2, h3⟩ := C92_call (skips := skips) (fresh := fresh) (drop := drop) hf hk hk2
  rw [h] at e
  simp only [Prod.mk.injEq, Option.some.injEq] at e
  obtain ⟨rfl, rfl⟩ := e
  by_cases hl : k.Long
  · cases alloc with
    | false => obtain ⟨a, b, _, c⟩ := h2 hl rfl; exact .inr (.inl ⟨hl, a, b, c⟩)
    | true => exact .inr (.inr ⟨hl, h3 hl rfl⟩)
  · exact .inl ⟨hl, h1 hl⟩

theorem Took.follows {k o k1 recs os q} (h : Took k o k1) (hp : k1.recs <+: recs) (hf : KFollows recs k1.pos os q) :
    KFollows recs k.pos (o :: os) q := by
  cases h with
  | overwritten h ho => exact .none ho.2 (hf.less (Nat.le_of_lt h))
  | empty h he ho => exact .none ho.2 hf
  | record h he ho =>
    obtain ⟨t, rfl⟩ := hp
    obtain ⟨hi, hx⟩ := List.getElem?_eq_some_iff.1 he
    exact .record (Nat.le_refl _) (by rw [List.getElem?_append_left hi, he]) ho hf

/-- C92, order. Whatever the kernel logs and overwrites meanwhile, and whether or
not it keeps the reader in place: the calls deliver records in the order the
kernel logged them, each at most once and unchanged. -/
theorem C92_order {skips k os k'} (h : KSession skips k os k') (hs : KSane k'.recs) :
    KFollows k'.recs k.pos os k'.pos := by
  induction h with
  | nil => exact .nil (Nat.le_refl _)
  | logs h ih => exact ih hs
  | call hf h hses ih =>
    have ih := ih hs
    have hp := hses.grows.1
    rcases call_cases hf h hses hs with ⟨_, ht⟩ | ⟨_, _, he, hk⟩ | ⟨_, ht⟩
    · exact ht.follows hp ih
    · refine .none he (ih.less ?_)
      rw [hk]; split
      · exact Nat.le_succ _
      · exact Nat.le_refl _
    · refine (ht.follows hp ih).less ?_
      show _ ≤ (if _ then _ else _ : Kmsg).pos
      split
      · exact Nat.le_succ _
      · exact Nat.le_refl _

theorem Took.all {k o k1} (h : Took k o k1) (i : Nat) (h1 : k.pos ≤ i) (h2 : i < k1.pos) :
    i < k1.first ∨ ∃ r, k1.recs[i]? = some r ∧ GotRec r i o := by
  cases h with
  | overwritten h ho => exact .inl h2
  | empty h he ho => omega
  | record h he ho =>
    have : i < k.pos + 1 := h2
    have hi : i = k.pos := by omega
    subst hi
    exact .inr ⟨_, he, ho⟩

theorem get_prefix {recs recs' : List KRec} (hp : recs <+: recs') {i : Nat} {r : KRec} (h : recs[i]? = some r) :
    recs'[i]? = some r := by
  obtain ⟨t, rfl⟩ := hp
  obtain ⟨hi, hx⟩ := List.getElem?_eq_some_iff.1 h
  rw [List.getElem?_append_left hi, h]

/-- C92, completeness, if the kernel kept the reader in place when a record does
not fit: every record the reader has passed was delivered or overwritten. -/
theorem C92_complete {k os k'} (h : KSession false k os k') (hs : KSane k'.recs) (hk : k.first ≤ k.recs.length) (i : Nat)
    (h1 : k.pos ≤ i) (h2 : i < k'.pos) :
    i < k'.first ∨ ∃ r, ∃ o ∈ os, k'.recs[i]? = some r ∧ GotRec r i o := by
  induction h with
  | nil => omega
  | logs h ih =>
    rename_i k more drop os k'
    refine ih hs ?_ h1 h2
    have hl : (k.log more drop).first = min (max k.first drop) (k.recs ++ more).length := rfl
    have hl2 : (k.log more drop).recs.length = (k.recs ++ more).length := rfl
    omega
  | call hf h hses ih =>
    rename_i k alloc fresh more drop f o k1 os k'
    have hp := hses.grows
    have hk1 : k1.first ≤ k1.recs.length := by
      rcases klogEntry_grows hf h with ⟨_, a, b⟩ | ⟨a, b⟩
      · rw [a, b]; exact hk
      · rw [a, b]; omega
    have hrest : k1.pos ≤ i → i < k'.first ∨ ∃ r, ∃ o' ∈ o :: os, k'.recs[i]? = some r ∧ GotRec r i o' := by
      intro hi
      rcases ih hs hk1 hi h2 with g | ⟨r, o', g1, g2, g3⟩
      · exact .inl g
      · exact .inr ⟨r, o', by simp [g1], g2, g3⟩
    have hfirst := (hp.2 hk1).1
    have hold : i < k1.pos → Took k o k1 ∨ Took (k.log more drop) o k1 →
        i < k'.first ∨ ∃ r, ∃ o' ∈ o :: os, k'.recs[i]? = some r ∧ GotRec r i o' := by
      intro hi ht
      have : i < k1.first ∨ ∃ r, k1.recs[i]? = some r ∧ GotRec r i o := by
        rcases ht with ht | ht
        · exact ht.all i h1 hi
        · exact ht.all i h1 hi
      rcases this with g | ⟨r, g1, g2⟩
      · exact .inl (by omega)
      · exact .inr ⟨r, o, by simp, get_prefix hp.1 g1, g2⟩
    rcases Nat.lt_or_ge i k1.pos with hi | hi
    · rcases call_cases hf h hses hs with ⟨_, ht⟩ | ⟨_, _, he, hk⟩ | ⟨_, ht⟩
      · exact hold hi (.inl ht)
      · rw [hk] at hi
        have : i < k.pos := hi
        omega
      · exact hold hi (.inr ht)
    · exact hrest hi

/-- C92 is false of Linux, where the reader is past a record that did not fit: a
record of more than 199 bytes that is next when `klog_receive_entry` is called is
not delivered, then or later, though it was not overwritten, and nothing tells of
it; what is delivered comes after it. -/
theorem C92_neg_long {alloc : Bool} {fresh : Nat → UInt8} {more : List KRec} {drop : Nat} {f : RFrame} {k k1 k' : Kmsg}
    {o : KOut} {os : List KOut} (hf : f.fresh) (h : klogEntry true alloc fresh more drop f k = (k1, some o))
    (hses : KSession true k1 os k') (hs : KSane k'.recs) (hl : k.Long) :
    KFollows k'.recs (k.pos + 1) (o :: os) k'.pos := by
  have ih := C92_order hses hs
  rcases call_cases hf h hses hs with ⟨hn, _⟩ | ⟨_, _, he, hk⟩ | ⟨_, ht⟩
  · exact absurd hl hn
  · rw [hk] at ih
    exact .none he ih
  · exact ht.follows hses.grows.1 ih

/-- C92, opening. With records of up to 8191 bytes the device is used unless it
cannot be opened or the size of the log cannot be told; whatever the test read
returned, reading then begins with the first record since the last clear. -/
theorem C92_open {skips opens : Bool} {cleared cleared' : Nat} {more : List KRec} {drop : Nat} {size : Int} {k : Kmsg}
    (hs : KSane k.recs) :
    openKmsg skips opens cleared cleared' more drop size k =
      if opens = true ∧ 0 ≤ size then some ({ k.log more drop with pos := cleared' }, 2 * size) else none := by
  unfold openKmsg
  cases opens with
  | false => simp
  | true =>
    rw [if_neg (by simp)]
    cases hr : Kmsg.read skips { k with pos := cleared } bufsiz with
    | mk k1 r =>
    have hn : r ≠ .inval := by
      rintro rfl
      obtain ⟨x, _, g2, g3, _⟩ := read_inval hr
      have := hs.2 _ _ g2
      have g3 : bufsiz < (x.bytes cleared).length := g3
      rw [show bufsiz = 8192 from rfl] at g3
      have h2 : (x.bytes cleared).length ≤ 8191 := this
      omega
    have hk : { k1.log more drop with pos := cleared' } = { k.log more drop with pos := cleared' } := by
      have : k1.recs = k.recs ∧ k1.first = k.first := by
        unfold Kmsg.read at hr
        split at hr
        · simp only [Prod.mk.injEq] at hr; rw [← hr.1]; exact ⟨rfl, rfl⟩
        · split at hr
          · simp only [Prod.mk.injEq] at hr; rw [← hr.1]; exact ⟨rfl, rfl⟩
          · split at hr
            · simp only [Prod.mk.injEq] at hr; exact absurd hr.2.symm hn
            · simp only [Prod.mk.injEq] at hr; rw [← hr.1]; exact ⟨rfl, rfl⟩
      unfold Kmsg.log
      rw [this.1, this.2]
    cases r with
    | inval => exact absurd rfl hn
    | data _ | again | pipe =>
      dsimp only
      rw [hk]
      by_cases h0 : 2 * size < 0
      · rw [if_pos h0, if_neg (by omega)]
      · rw [if_neg h0, if_pos ⟨rfl, by omega⟩]

end Verif.Ulogcat
