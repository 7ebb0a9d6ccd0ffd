import Verif.Kernel.Props

/-!
# Restricted readers (C03)

`Track` is the account of one descriptor kept from calls and results alone.
-/
namespace Verif.Kernel
open Verif

/-- What descriptor `fid` received since the later of its opening and the last
flush: for each ordinary entry the calling user, the header version and the
bytes; the losses announced; and the users that read or polled through it. -/
structure Track where
  ver : Nat
  recv : List (UInt32 × Nat × Bytes)
  told : Nat
  uids : List UInt32

def trackStep (name : Bytes) (fid : Nat) (t : Track) : Op × Out → Track
  | (.openF f _ _ _, .ok) => if f = fid then { ver := 2, recv := [], told := 0, uids := [] } else t
  | (.flush _, .ok) => { t with recv := [], told := 0, uids := [] }
  | (.setVersion f (some v), .ok) => if f = fid then { t with ver := v.toNat } else t
  | (.read f u _ _, o) =>
    if f = fid then
      match o with
      | .data bs =>
        if isNotice bs then { t with told := t.told + noticeCount name t.ver bs, uids := t.uids ++ [u] }
        else { t with recv := t.recv ++ [(u, t.ver, bs)], uids := t.uids ++ [u] }
      | _ => { t with uids := t.uids ++ [u] }
    else t
  | (.poll f u, _) => if f = fid then { t with uids := t.uids ++ [u] } else t
  | (.getNextLen f u, _) => if f = fid then { t with uids := t.uids ++ [u] } else t
  | _ => t

def track (name : Bytes) (fid : Nat) (tr : List (Op × Out)) : Track :=
  tr.foldl (trackStep name fid) { ver := 2, recv := [], told := 0, uids := [] }

/-- Number of entries of user `u` at positions `lo ≤ i < hi`. -/
def ownCount (u : UInt32) (h : List Entry) (lo hi : Nat) : Nat :=
  ((h.take hi).drop lo).countP fun e => e.euid == u

/-- Entry number `i` is the one received as `q`, and belongs to the caller. -/
def Got (h : List Entry) (i : Nat) (q : UInt32 × Nat × Bytes) : Prop :=
  ∃ e, h[i]? = some e ∧ e.euid = q.1 ∧ q.2.2 = e.view q.2.1

/-- The received entries are those at the increasing positions `is`. -/
inductive Matches (h : List Entry) : List Nat → List (UInt32 × Nat × Bytes) → Prop
  | nil : Matches h [] []
  | snoc {is qs i q} (hm : Matches h is qs) (hlt : ∀ j ∈ is, j < i) (hg : Got h i q) :
      Matches h (is ++ [i]) (qs ++ [q])

theorem Got.mono {h : List Entry} {i q} (hg : Got h i q) (g : List Entry) : Got (h ++ g) i q := by
  obtain ⟨e, h1, h2⟩ := hg
  refine ⟨e, ?_, h2⟩
  have : i < h.length := by
    rcases Nat.lt_or_ge i h.length with hl | hl
    · exact hl
    · rw [List.getElem?_eq_none hl] at h1; cases h1
  rw [List.getElem?_append_left this, h1]

theorem Matches.mono {h : List Entry} {is qs} (hm : Matches h is qs) (g : List Entry) : Matches (h ++ g) is qs := by
  induction hm with
  | nil => exact .nil
  | snoc _ hlt hg ih => exact .snoc ih hlt (hg.mono g)

theorem ownCount_add (u : UInt32) (h : List Entry) (lo i d : Nat) :
    ownCount u h lo (i + d) ≤ ownCount u h lo i + d := by
  unfold ownCount
  rw [List.take_add, List.drop_append, List.countP_append]
  have h1 := List.countP_le_length (p := fun e : Entry => e.euid == u)
    (l := ((h.drop i).take d).drop (lo - (h.take i).length))
  have h2 : ((h.drop i).take d).length ≤ d := by rw [List.length_take]; omega
  rw [List.length_drop] at h1
  generalize (h.take i).length = m at *
  omega

theorem ownCount_append (u : UInt32) {h : List Entry} {lo i : Nat} (hi : i ≤ h.length) (g : List Entry) :
    ownCount u (h ++ g) lo i = ownCount u h lo i := by
  unfold ownCount
  rw [List.take_append_of_le_length hi]

theorem ownCount_le (u : UInt32) (h : List Entry) (lo hi : Nat) : ownCount u h lo hi ≤ hi - lo := by
  unfold ownCount
  have h1 := List.countP_le_length (p := fun e : Entry => e.euid == u) (l := (h.take hi).drop lo)
  rw [List.length_drop, List.length_take] at h1
  omega

theorem take_findIdx_none (u : UInt32) (h : List Entry) :
    (h.take (h.findIdx fun e => e.euid == u)).countP (fun e => e.euid == u) = 0 := by
  induction h with
  | nil => rfl
  | cons e h ih =>
    by_cases he : (e.euid == u) = true
    · simp [List.findIdx_cons, he]
    · simp only [List.findIdx_cons, he, cond_false, List.take_succ_cons, List.countP_cons, Bool.false_eq_true, if_false,
        Nat.add_zero]
      exact ih

theorem ownCount_skip (u : UInt32) (h : List Entry) (lo : Nat) (x : ARd) (hx : x.all = false) :
    ownCount u h lo (askip h u x).idx = ownCount u h lo x.idx := by
  unfold askip ownCount
  simp only [hx, Bool.false_eq_true, if_false]
  rw [List.take_add, List.drop_append, List.countP_append]
  have h1 := take_findIdx_none u (h.drop x.idx)
  have h2 := List.Sublist.countP_le (p := fun e : Entry => e.euid == u)
    (List.drop_sublist (lo - (h.take x.idx).length) ((h.drop x.idx).take ((h.drop x.idx).findIdx fun e => e.euid == u)))
  omega

/-- Invariant of a restricted reader `x` and its account. -/
structure TrOk (h : List Entry) (base : Nat) (t : Track) (x : ARd) : Prop where
  ver : t.ver = x.ver
  own : x.all = false → (∃ is, Matches h is t.recv ∧ ∀ i ∈ is, base ≤ i ∧ i < x.idx) ∧
    ∀ u, (∀ v ∈ t.uids, v = u) → ownCount u h base x.idx ≤ t.recv.length + t.told + x.dropped

/-- The invariant at the level of the machine. -/
def TInv (a : ASys) (o : Obs) (t : Track) (fid : Nat) : Prop :=
  ∀ x, a.log.find fid = some x → TrOk a.log.hist o.base t x

/-- The cursor moved over `d` entries counted as lost, entries were appended. -/
theorem TrOk.push {h : List Entry} {base : Nat} {t : Track} {x : ARd} (hk : TrOk h base t x) (d : Nat)
    (g : List Entry) (hle : x.idx + d ≤ h.length) :
    TrOk (h ++ g) base t { x with idx := x.idx + d, dropped := x.dropped + d } := by
  refine ⟨hk.ver, fun ha => ?_⟩
  obtain ⟨⟨is, h1, h2⟩, h3⟩ := hk.own ha
  refine ⟨⟨is, h1.mono g, fun i hi => ⟨(h2 i hi).1, by have := (h2 i hi).2; simp only; omega⟩⟩, ?_⟩
  intro u hu
  have e1 := h3 u hu
  have e2 := ownCount_add u h base x.idx d
  simp only
  rw [ownCount_append u hle]
  omega

/-- The cursor moved over foreign entries. -/
theorem TrOk.skip {h : List Entry} {base : Nat} {t : Track} {x : ARd} (hk : TrOk h base t x) (u : UInt32) :
    TrOk h base { t with uids := t.uids ++ [u] } (askip h u x) := by
  have hf := askip_fields h u x
  refine ⟨by rw [hf.2.1]; exact hk.ver, fun ha => ?_⟩
  have ha' : x.all = false := by rw [← hf.1]; exact ha
  obtain ⟨⟨is, h1, h2⟩, h3⟩ := hk.own ha'
  refine ⟨⟨is, h1, fun i hi => ⟨(h2 i hi).1, by have := (h2 i hi).2; have := hf.2.2.2.1; omega⟩⟩, ?_⟩
  intro v hv
  have hvu : u = v := hv u (by simp)
  subst hvu
  rw [ownCount_skip u h base x ha', hf.2.2.1]
  exact h3 u (fun w hw => hv w (by simp [hw]))

theorem find_set_other {l : ALog} {fid g : Nat} {y : ARd} (h : g ≠ fid) : (l.set fid y).find g = l.find g := by
  unfold ALog.find ALog.set
  rw [lookup_set, if_neg h]

/-- Updating the reader of `g`. -/
theorem TInv.set {a : ASys} {o : Obs} {t t' : Track} {fid g : Nat} {y : ARd} (h : TInv a o t fid)
    (h1 : g ≠ fid → t' = t) (h2 : g = fid → ∀ x, a.log.find fid = some x → TrOk a.log.hist o.base t' y)
    {o' : Obs} (hb : o'.base = o.base) :
    TInv { a with log := a.log.set g y } o' t' fid := by
  intro x hx
  by_cases hg : g = fid
  · subst hg
    cases hf : a.log.find g with
    | none =>
      unfold ALog.find ALog.set at hx
      unfold ALog.find at hf
      rw [lookup_set, if_pos rfl, hf] at hx
      cases hx
    | some z =>
      rw [find_set hf] at hx
      injection hx with hx
      subst hx
      rw [hb]
      exact h2 rfl z hf
  · simp only at hx
    rw [find_set_other (Ne.symm hg)] at hx
    rw [h1 hg, hb]
    exact h x hx

theorem TInv.init (name : Bytes) (k fid : Nat) :
    TInv (ainit name k) Obs.init { ver := 2, recv := [], told := 0, uids := [] } fid := by
  intro x hx
  simp [ainit, ALog.find] at hx

/-- Nothing of interest changed. -/
theorem TInv.same {a a' : ASys} {o o' : Obs} {t : Track} {fid : Nat} (h : TInv a o t fid)
    (hf : ∀ x, a'.log.find fid = some x → a.log.find fid = some x) (hh : a'.log.hist = a.log.hist)
    (hb : o'.base = o.base) : TInv a' o' t fid := by
  intro x hx
  rw [hh, hb]
  exact h x (hf x hx)

theorem TInv.push {a : ASys} {o o' : Obs} {t : Track} {fid : Nat} (h : TInv a o t fid) (hi : AInv a o)
    (len : Nat) (h0 : 0 < len) (h1 : len ≤ 4100) (g : List Entry) (hb : o'.base = o.base) :
    TInv { a with log := { a.log.pushAll len with hist := a.log.hist ++ g } } o' t fid := by
  intro x hx
  have hx' : (a.log.pushAll len).find fid = some x := hx
  cases hf : a.log.find fid with
  | none =>
    unfold ALog.find at hf hx'
    have := lookup_map_isSome (fun p : Nat × ARd => ({ p.2 with
      idx := p.2.idx + apush a.log.size a.log.hist len p.2.idx
      dropped := p.2.dropped + apush a.log.size a.log.hist len p.2.idx } : ARd)) fid a.log.readers
    rw [hf] at this
    have hx2 : List.lookup fid (a.log.readers.map fun p => (p.1, ({ p.2 with
      idx := p.2.idx + apush a.log.size a.log.hist len p.2.idx
      dropped := p.2.dropped + apush a.log.size a.log.hist len p.2.idx } : ARd))) = some x := hx'
    rw [hx2] at this
    cases this
  | some y =>
    rw [find_push hf] at hx'
    injection hx' with hx'
    subst hx'
    rw [hb]
    obtain ⟨r, hr, hok⟩ := hi.ok hf
    have hs := hi.size
    exact (h y hf).push _ g (apush_le h0 (by omega) hok.2.2.2.1)

theorem TInv.step {a : ASys} {o : Obs} {t : Track} {fid : Nat} (h : TInv a o t fid) (hi : AInv a o) (op : Op)
    (hg : Genuine a.log.hist) (hlen : a.log.hist.length < 2147483648) :
    TInv (astep a op).1 (obsStep a.log.name o (op, (astep a op).2)) (trackStep a.log.name fid t (op, (astep a op).2))
      fid := by
  have hnop : ∀ out : Out, (∀ f u c w, op ≠ .read f u c w) → (∀ f u, op ≠ .poll f u) →
      (∀ f u, op ≠ .getNextLen f u) → out ≠ .ok →
      trackStep a.log.name fid t (op, out) = t := by
    intro out hr hp hn ho
    cases op <;> first
      | rfl
      | (cases out <;> first | rfl | exact absurd rfl ho)
      | exact absurd rfl (hr _ _ _ _)
      | exact absurd rfl (hp _ _)
      | exact absurd rfl (hn _ _)
      | (rename_i arg; cases arg <;> cases out <;> first | rfl | exact absurd rfl ho)
  have hcase := hi.step op hg hlen
  unfold astep at *
  cases hfile : a.files op.fid with
  | none =>
    rw [hfile] at hcase
    cases op with
    | openF f rd wr all =>
      cases rd with
      | false =>
        simp only [Bool.false_eq_true, if_false, trackStep]
        intro x hx
        have hx' : a.log.find fid = some x := hx
        by_cases hf : f = fid
        · have := hi.rd f
          simp only [Op.fid] at hfile
          rw [hfile, hf] at this
          unfold ALog.find at hx'
          rw [hx'] at this
          cases this
        · rw [if_neg hf]; exact h x hx'
      | true =>
        simp only [if_true, trackStep]
        intro x hx
        unfold ALog.find at hx
        simp only at hx
        rw [lookup_append] at hx
        by_cases hf : f = fid
        · subst hf
          have := hi.rd f
          simp only [Op.fid] at hfile
          rw [hfile] at this
          have hno : a.log.readers.lookup f = none := by simpa using this
          rw [hno] at hx
          simp only [List.lookup_cons, beq_self_eq_true, Option.none_or, Option.some.injEq] at hx
          subst hx
          rw [if_pos rfl]
          refine ⟨rfl, fun _ => ⟨⟨[], .nil, by simp⟩, ?_⟩⟩
          intro u _
          have h1 := ownCount_le u a.log.hist o.base a.log.head
          have h2 := hi.head
          simp only [List.length_nil]
          show ownCount u a.log.hist o.base a.log.head ≤ _
          omega
        · have hb : (fid == f) = false := by simpa using Ne.symm hf
          simp only [List.lookup_cons, hb, List.lookup_nil, Option.or_none] at hx
          rw [if_neg hf]
          exact h x hx
    | read f u c w =>
      simp only [trackStep]
      by_cases hf : f = fid
      · intro x hx
        have := hi.rd f
        simp only [Op.fid] at hfile
        rw [hfile, hf] at this
        unfold ALog.find at hx
        simp only [hx] at this
        cases this
      · rw [if_neg hf]; exact h
    | poll f u =>
      simp only [trackStep]
      by_cases hf : f = fid
      · intro x hx
        have := hi.rd f
        simp only [Op.fid] at hfile
        rw [hfile, hf] at this
        unfold ALog.find at hx
        simp only [hx] at this
        cases this
      · rw [if_neg hf]; exact h
    | getNextLen f u =>
      simp only [trackStep]
      by_cases hf : f = fid
      · intro x hx
        have := hi.rd f
        simp only [Op.fid] at hfile
        rw [hfile, hf] at this
        unfold ALog.find at hx
        simp only [hx] at this
        cases this
      · rw [if_neg hf]; exact h
    | setVersion f arg => cases arg <;> exact h
    | setRaw f c arg => cases arg <;> exact h
    | _ => exact h
  | some f0 =>
    rw [hfile] at hcase
    cases op with
    | openF f rd wr all => exact h
    | release f =>
      simp only [astepFile]
      have hsub : ∀ x, List.lookup fid (a.log.readers.filter fun p => p.1 ≠ f) = some x →
          a.log.readers.lookup fid = some x := by
        intro x hx
        rw [lookup_filter_ne] at hx
        by_cases hff : fid = f
        · rw [if_pos hff] at hx; cases hx
        · rwa [if_neg hff] at hx
      cases f0.rd with
      | true => exact h.same (fun x hx => hsub x hx) rfl rfl
      | false => exact h.same (fun x hx => hx) rfl rfl
    | write f tk it junk =>
      simp only [astepFile]
      have htr : ∀ out, trackStep a.log.name fid t (.write f tk it junk, out) = t := by
        intro out; cases out <;> rfl
      rw [htr]
      have hbase : ∀ out, (obsStep a.log.name o (.write f tk it junk, out)).base = o.base := by
        intro out
        cases out with
        | ret n =>
          simp only [obsStep]
          by_cases h1 : o.raw f = true
          · by_cases h2 : n = 0 <;> simp [h1, h2]
          · simp [h1]
        | _ => rfl
      cases f0.wr with
      | false => exact h
      | true =>
        simp only [if_true]
        rcases awrite_cases a.log f0.raw tk it with ⟨e, _⟩ | ⟨e, _⟩ | ⟨en, n, e, _, hwf, _⟩ | ⟨en, n, e, hwf, _⟩
        · rw [e]; exact h
        · rw [e]; exact h.same (fun x hx => hx) rfl (hbase _)
        · rw [e]
          exact h.push hi en.size (by have := Entry.size_ge en; omega)
            (by have : en.payload.length ≤ 4076 := hwf; unfold Entry.size; omega) [en] (hbase _)
        · rw [e]
          have := h.push hi en.size (by have := Entry.size_ge en; omega)
            (by have : en.payload.length ≤ 4076 := hwf; unfold Entry.size; omega) [] (o' := o) rfl
          rw [List.append_nil] at this
          exact this
    | check f =>
      simp only [astepFile]
      cases f0.rd with
      | false => exact h
      | true =>
        simp only [if_true]
        split
        · split <;> exact h
        · exact h
    | read f u c w =>
      simp only [Op.fid] at hfile
      simp only [astepFile]
      cases hrd : f0.rd with
      | false =>
        simp only [Bool.false_eq_true, if_false, trackStep]
        by_cases hf : f = fid
        · intro x hx
          have := hi.rd f
          rw [hfile, hf] at this
          unfold ALog.find at hx
          simp only [hx, hrd] at this
          cases this
        · rw [if_neg hf]; exact h
      | true =>
        simp only [if_true]
        cases hx : a.log.find f with
        | none =>
          have := hi.rd f
          unfold ALog.find at hx
          rw [hfile, hx] at this
          simp [hrd] at this
        | some x =>
          obtain ⟨r, hr, hok⟩ := hi.ok hx
          have hbase : ∀ out, (obsStep a.log.name o (.read f u c w, out)).base = o.base := by
            intro out; cases out <;> rfl
          refine h.set (fun hne => by simp only [trackStep, if_neg hne]) ?_ (hbase _)
          intro hff z hz
          subst hff
          rw [hx] at hz
          injection hz with hz
          subst hz
          have hk := h x hx
          have hsk := hk.skip u
          have hf := askip_fields a.log.hist u x
          have hd : x.dropped < 2147483648 := by have := hok.2.2.2; omega
          simp only [trackStep, if_true]
          rcases aread_obs (euid := u) (count := c) (uw := w) hg hd with
            ⟨bs, e, hn, hc, h0⟩ | ⟨bs, e, hn, h0, en, hen, hbs, _⟩ | ⟨e1, e2⟩
          · rw [e]
            simp only [hn, if_true]
            refine ⟨hsk.ver, fun ha => ?_⟩
            obtain ⟨h1, h2⟩ := hsk.own ha
            refine ⟨h1, fun v hv => ?_⟩
            have := h2 v hv
            have hv' : noticeCount a.log.name t.ver bs = x.dropped := by rw [hk.ver]; exact hc
            rw [hv']
            simp only [hf.2.2.1] at this
            simp only
            omega
          · rw [e]
            simp only [hn, Bool.false_eq_true, if_false]
            refine ⟨hsk.ver, fun ha => ?_⟩
            obtain ⟨⟨is, h1, h2⟩, h3⟩ := hsk.own ha
            have ha' : x.all = false := by rw [← hf.1]; exact ha
            have heu : en.euid = u := by
              have hidx : (askip a.log.hist u x).idx = x.idx +
                (a.log.hist.drop x.idx).findIdx (fun e => e.euid == u) := by
                unfold askip; rw [ha']; rfl
              rw [hidx, ← List.getElem?_drop] at hen
              have hlt : (a.log.hist.drop x.idx).findIdx (fun e => e.euid == u) < (a.log.hist.drop x.idx).length := by
                rcases Nat.lt_or_ge ((a.log.hist.drop x.idx).findIdx (fun e => e.euid == u))
                  (a.log.hist.drop x.idx).length with hl | hl
                · exact hl
                · rw [List.getElem?_eq_none hl] at hen; cases hen
              have := List.findIdx_getElem (p := fun e : Entry => e.euid == u) (w := hlt)
              rw [List.getElem?_eq_getElem hlt] at hen
              injection hen with hen
              rw [hen] at this
              simpa using this
            refine ⟨⟨is ++ [(askip a.log.hist u x).idx], ?_, ?_⟩, fun v hv => ?_⟩
            · refine .snoc h1 (fun j hj => (h2 j hj).2) ⟨en, hen, heu, ?_⟩
              simp only [hk.ver]; exact hbs
            · intro i hi'
              rcases List.mem_append.mp hi' with hi' | hi'
              · have := h2 i hi'; exact ⟨this.1, by simp only; omega⟩
              · simp only [List.mem_singleton] at hi'
                subst hi'
                have := hok.2.2.2.2.1
                have := hf.2.2.2.1
                exact ⟨by omega, by simp only; omega⟩
            · have := h3 v hv
              have := ownCount_add v a.log.hist o.base (askip a.log.hist u x).idx 1
              simp only [List.length_append, List.length_cons, List.length_nil] at *
              omega
          · rw [e1]
            cases ho : (aread a.log u x c w).2 with
            | data bs => exact absurd ho (e2 bs)
            | _ => exact hsk
    | poll f u =>
      simp only [Op.fid] at hfile
      simp only [astepFile]
      cases hrd : f0.rd with
      | false =>
        simp only [Bool.false_eq_true, if_false, trackStep]
        by_cases hf : f = fid
        · intro x hx
          have := hi.rd f
          rw [hfile, hf] at this
          unfold ALog.find at hx
          simp only [hx, hrd] at this
          cases this
        · rw [if_neg hf]; exact h
      | true =>
        simp only [if_true]
        cases hx : a.log.find f with
        | none =>
          have := hi.rd f
          unfold ALog.find at hx
          rw [hfile, hx] at this
          simp [hrd] at this
        | some x =>
          refine h.set (fun hne => by simp only [trackStep, if_neg hne]) ?_ rfl
          intro hff z hz
          subst hff
          simp only [trackStep, if_true]
          exact (h x hx).skip u
    | getBufSize f => exact h
    | getLogLen f =>
      simp only [astepFile]
      cases f0.rd with
      | false => exact h
      | true =>
        simp only [if_true]
        split <;> exact h
    | getNextLen f u =>
      simp only [Op.fid] at hfile
      simp only [astepFile]
      cases hrd : f0.rd with
      | false =>
        simp only [Bool.false_eq_true, if_false, trackStep]
        by_cases hf : f = fid
        · intro x hx
          have := hi.rd f
          rw [hfile, hf] at this
          unfold ALog.find at hx
          simp only [hx, hrd] at this
          cases this
        · rw [if_neg hf]; exact h
      | true =>
        simp only [if_true]
        cases hx : a.log.find f with
        | none =>
          have := hi.rd f
          unfold ALog.find at hx
          rw [hfile, hx] at this
          simp [hrd] at this
        | some x =>
          refine h.set (fun hne => by simp only [trackStep, if_neg hne]) ?_ rfl
          intro hff z hz
          subst hff
          simp only [trackStep, if_true]
          exact (h x hx).skip u
    | flush f =>
      simp only [astepFile]
      cases f0.wr with
      | false => exact h
      | true =>
        simp only [if_true, trackStep, obsStep]
        intro x hx
        unfold ALog.find at hx
        simp only at hx
        have hm := lookup_map_snd (fun y : ARd => ({ y with idx := a.log.hist.length, dropped := 0 } : ARd)) fid
          a.log.readers
        have hx := hm.symm.trans hx
        cases hf : a.log.readers.lookup fid with
        | none => rw [hf] at hx; cases hx
        | some y =>
          rw [hf] at hx
          simp only [Option.map_some, Option.some.injEq] at hx
          subst hx
          refine ⟨(h y hf).ver, fun _ => ⟨⟨[], .nil, by simp⟩, fun u _ => ?_⟩⟩
          have := ownCount_le u a.log.hist o.hist.length a.log.hist.length
          rw [hi.hist] at this ⊢
          simp only [List.length_nil]
          omega
    | getVersion f =>
      simp only [astepFile]
      cases f0.rd with
      | false => exact h
      | true =>
        simp only [if_true]
        split <;> exact h
    | setVersion f arg =>
      simp only [astepFile]
      cases hrd : f0.rd with
      | false => cases arg <;> exact h
      | true =>
        simp only [if_true]
        cases hx : a.log.find f with
        | none => cases arg <;> exact h
        | some x =>
          cases arg with
          | none => exact h
          | some v =>
            simp only
            by_cases hv : v = 1 ∨ v = 2
            · rw [if_pos hv]
              refine h.set (fun hne => by simp only [trackStep, if_neg hne]) ?_ rfl
              intro hff z hz
              subst hff
              simp only [trackStep, if_true]
              have hk := h x hx
              exact ⟨rfl, hk.own⟩
            · rw [if_neg hv]; exact h
    | setRaw f c arg =>
      simp only [astepFile]
      cases f0.wr with
      | false => cases arg <;> exact h
      | true =>
        simp only [if_true]
        cases c with
        | false => cases arg <;> exact h
        | true =>
          simp only [Bool.not_true, Bool.false_eq_true, if_false]
          cases arg with
          | none => exact h
          | some v =>
            simp only
            by_cases hv : v = 0 ∨ v = 1
            · rw [if_pos hv]; exact h
            · rw [if_neg hv]; exact h

/-- The account and the machine agree along a run. -/
theorem arun_tinv {name : Bytes} {k : Nat} (hk : 14 ≤ k) (fid n : Nat) : ∀ (ops : List Op), ops.length = n →
    Genuine (obs name (arun (ainit name k) ops).2).hist →
    (obs name (arun (ainit name k) ops).2).hist.length < 2147483648 →
    TInv (arun (ainit name k) ops).1 (obs name (arun (ainit name k) ops).2)
      (track name fid (arun (ainit name k) ops).2) fid := by
  induction n with
  | zero =>
    intro ops ho _ _
    rw [List.length_eq_zero_iff] at ho
    subst ho
    exact TInv.init name k fid
  | succ n ih =>
    intro ops ho
    have hne : ops ≠ [] := by intro h; rw [h] at ho; cases ho
    rw [← List.dropLast_concat_getLast hne, arun_snoc]
    simp only
    rw [obs_snoc]
    intro hg hl
    have hm := (obsStep_mono name (obs name (arun (ainit name k) ops.dropLast).2)
      (ops.getLast hne, (astep (arun (ainit name k) ops.dropLast).1 (ops.getLast hne)).2)).1
    have hg' := hg.prefix hm
    have hl' : (obs name (arun (ainit name k) ops.dropLast).2).hist.length < 2147483648 := by
      have := hm.length_le; omega
    obtain ⟨i1, i2, i3⟩ := arun_inv hk ops.dropLast.length ops.dropLast rfl hg' hl'
    have hs := (ih ops.dropLast (by simp [ho]) hg' hl').step i1 (ops.getLast hne) (by rw [← i1.hist]; exact hg')
      (by rw [← i1.hist]; exact hl')
    rw [i2] at hs
    have ht : track name fid ((arun (ainit name k) ops.dropLast).2 ++
        [(ops.getLast hne, (astep (arun (ainit name k) ops.dropLast).1 (ops.getLast hne)).2)]) =
        trackStep name fid (track name fid (arun (ainit name k) ops.dropLast).2)
          (ops.getLast hne, (astep (arun (ainit name k) ops.dropLast).1 (ops.getLast hne)).2) := by
      unfold track
      rw [List.foldl_append]
      rfl
    rw [ht]
    exact hs

theorem Run.tabs {name k buf ops s tr} (h : Run name k buf ops s tr) (fid : Nat) :
    ∃ G a, Rel k G s a ∧ AInv a (obs name tr) ∧ TInv a (obs name tr) (track name fid tr) fid ∧
      a.log.name = name := by
  obtain ⟨G, c, e, hr⟩ := run_refines ops (init_rel buf h.pow h.nameLen) h.sup
  rw [h.run] at e
  injection e with e
  injection e with e1 e2
  have hg := h.genuine
  have hc := h.count
  rw [e2] at hg hc ⊢
  have h1 := arun_inv (name := name) (k := k) h.pow ops.length ops rfl hg hc
  have h2 := arun_tinv (name := name) (k := k) h.pow fid ops.length ops rfl hg hc
  rw [e1]
  exact ⟨G, _, hr, h1.1, h2, h1.2.1⟩

/-- Where the cursor of a restricted reader stops, the entry is its user's. -/
theorem askip_own {h : List Entry} {u : UInt32} {x : ARd} {e : Entry} (ha : x.all = false)
    (he : h[(askip h u x).idx]? = some e) : e.euid = u := by
  have hidx : (askip h u x).idx = x.idx + (h.drop x.idx).findIdx (fun e => e.euid == u) := by
    unfold askip; rw [ha]; rfl
  rw [hidx, ← List.getElem?_drop] at he
  have hlt : (h.drop x.idx).findIdx (fun e => e.euid == u) < (h.drop x.idx).length := by
    rcases Nat.lt_or_ge ((h.drop x.idx).findIdx (fun e => e.euid == u)) (h.drop x.idx).length with hl | hl
    · exact hl
    · rw [List.getElem?_eq_none hl] at he; cases he
  have := List.findIdx_getElem (p := fun e : Entry => e.euid == u) (w := hlt)
  rw [List.getElem?_eq_getElem hlt] at he
  injection he with he
  rw [he] at this
  simpa using this

/-! ## C03 -/

/-- C03. An ordinary entry delivered to a restricted descriptor is a committed
entry, not flushed, of the calling user; it comes after all those delivered
before (which are themselves, in order, committed entries of their callers);
and, if the descriptor was only ever used by this user since its opening or the
last flush, the user's own entries committed before it are all accounted for:
received, or covered by the losses announced. -/
theorem C03_restricted {name k buf ops s tr} (h : Run name k buf ops s tr) {fid : Nat} {euid : UInt32}
    {count uw : Nat} {bs : Bytes} {s' : Sys} {r : RObs}
    (hr : (obs name tr).rds fid = some r) (hall : r.all = false)
    (hs : step s (.read fid euid count uw) = .ok (s', .data bs)) (hn : isNotice bs = false) :
    ∃ (is : List Nat) (i : Nat) (e : Entry),
      (obs name tr).hist[i]? = some e ∧ e.euid = euid ∧ bs = e.view r.ver ∧ (obs name tr).base ≤ i ∧
      Matches (obs name tr).hist is (track name fid tr).recv ∧
      (∀ j ∈ is, (obs name tr).base ≤ j ∧ j < i) ∧
      ((∀ v ∈ (track name fid tr).uids, v = euid) →
        ownCount euid (obs name tr).hist (obs name tr).base i ≤
          (track name fid tr).recv.length + (track name fid tr).told) := by
  obtain ⟨G, a, hrel, hinv, htinv, hname⟩ := h.tabs fid
  obtain ⟨f, x, hf, hfr, hx, hok⟩ := hinv.reader hr
  obtain ⟨ho, _⟩ := hrel.step rfl hs
  rw [astep_read hf hfr hx] at ho
  simp only at ho
  have hg : Genuine a.log.hist := by rw [← hinv.hist]; exact h.genuine
  have hl : a.log.hist.length < 2147483648 := by rw [← hinv.hist]; exact h.count
  have hsk := (htinv x hx).skip euid
  have hfl := askip_fields a.log.hist euid x
  obtain ⟨k1, k2, k3, k4, k5, k6⟩ := hok
  rcases aread_obs (euid := euid) (count := count) (uw := uw) (r := x) hg (by omega) with
    ⟨bs', e, h1, _⟩ | ⟨bs', e, h1, h2, en, h3, h4, _⟩ | ⟨_, e⟩
  · rw [e] at ho; simp only [Out.data.injEq] at ho; rw [ho, hn] at h1; cases h1
  · rw [e] at ho
    simp only [Out.data.injEq] at ho
    have hxall : x.all = false := by rw [← k1]; exact hall
    have hown := askip_own hxall h3
    obtain ⟨⟨is, m1, m2⟩, m3⟩ := hsk.own (by rw [hfl.1]; exact hxall)
    rw [hinv.hist]
    refine ⟨is, (askip a.log.hist euid x).idx, en, h3, hown, by rw [← ho, h4, k2], ?_, m1, m2, fun hu => ?_⟩
    · have := hfl.2.2.2.1; omega
    · have hu' : ∀ v ∈ (track name fid tr).uids ++ [euid], v = euid := by
        intro v hv
        rcases List.mem_append.mp hv with hv | hv
        · exact hu v hv
        · simpa using hv
      have := m3 euid hu'
      rw [hfl.2.2.1, h2] at this
      exact this
  · exact absurd ho (e bs)

end Verif.Kernel
