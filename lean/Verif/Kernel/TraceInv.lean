import Verif.Kernel.Trace

/-!
# The account kept by the observer matches the abstract machine

Helper lemmas: the invariant `AInv` holds along every run.
-/
namespace Verif.Kernel
open Verif

/-- Relation of one reader and its account. -/
def RdOk (l : ALog) (base : Nat) (r : RObs) (x : ARd) : Prop :=
  r.all = x.all ∧ r.ver = x.ver ∧ (x.ver = 1 ∨ x.ver = 2) ∧ x.idx ≤ l.hist.length ∧
    base + r.got + r.told + x.dropped ≤ x.idx ∧
    (x.all = true → x.idx = base + r.got + r.told + x.dropped ∧
      LostOk l.size l.hist (x.idx - x.dropped) x.idx)

theorem AInv.ok {a : ASys} {o : Obs} (h : AInv a o) {fid : Nat} {x : ARd}
    (hx : a.log.find fid = some x) : ∃ r, o.rds fid = some r ∧ RdOk a.log o.base r x := by
  obtain ⟨r, h1, h2⟩ := h.rdo (fid, x) (lookup_mem hx)
  exact ⟨r, h1, h2⟩

theorem set_keys (l : ALog) (fid : Nat) (x : ARd) :
    (l.set fid x).readers.map Prod.fst = l.readers.map Prod.fst := by
  simp only [ALog.set, List.map_map]
  apply List.map_congr_left
  intro p _
  simp only [Function.comp]
  split <;> rfl

/-- Changing one reader together with its account. -/
theorem AInv.setReader {a : ASys} {o : Obs} (h : AInv a o) {fid : Nat} {x' : ARd} {r r' : RObs}
    (hr : o.rds fid = some r) (hok : RdOk a.log o.base r' x') :
    AInv { a with log := a.log.set fid x' } { o with rds := upd o.rds fid (some r') } := by
  refine ⟨h.hist, h.wf, h.size, h.raw, h.base, h.headLe, h.head, h.headLost, ?_, ?_, ?_, ?_⟩
  · simp only [set_keys]; exact h.nodup
  · intro g
    simp only [ALog.set]
    rw [lookup_set]
    have := h.rd g
    split
    · rw [Option.isSome_map]; exact this
    · exact this
  · intro g
    simp only [ALog.set, upd]
    rw [lookup_set]
    have := h.rds g
    by_cases hg : g = fid
    · subst hg; rw [hr] at this; simp [← this]
    · simpa [hg] using this
  · intro p hp
    simp only [ALog.set, List.mem_map] at hp
    obtain ⟨q, hq, rfl⟩ := hp
    by_cases hqf : q.1 = fid
    · simp only [hqf, if_true, upd]
      exact ⟨r', rfl, hok⟩
    · simp only [hqf, if_false, upd]
      exact h.rdo q hq

/-- The account of a reader that is merely moved without being given anything. -/
theorem AInv.setSame {a : ASys} {o : Obs} (h : AInv a o) {fid : Nat} {x' : ARd} {r : RObs}
    (hr : o.rds fid = some r) (hok : RdOk a.log o.base r x') :
    AInv { a with log := a.log.set fid x' } o := by
  have := h.setReader hr hok
  have hu : upd o.rds fid (some r) = o.rds := by
    funext i; simp only [upd]; split
    · rename_i hi; rw [hi, hr]
    · rfl
  rwa [hu] at this

theorem RdOk.skip {l : ALog} {base : Nat} {r : RObs} {x : ARd} (h : RdOk l base r x) (euid : UInt32) :
    RdOk l base r (askip l.hist euid x) := by
  by_cases ha : x.all = true
  · rw [askip_all ha]; exact h
  · have hf := askip_fields l.hist euid x
    obtain ⟨h1, h2, h3, h4, h5, h6⟩ := h
    refine ⟨by rw [hf.1, h1], by rw [hf.2.1, h2], by rw [hf.2.1]; exact h3, hf.2.2.2.2 h4, ?_, ?_⟩
    · rw [hf.2.2.1]; omega
    · rw [hf.1]; intro hc; exact absurd hc ha

/-- The effect of `pushAll` followed by a possible commit. -/
theorem AInv.push {a : ASys} {o : Obs} (h : AInv a o) (len : Nat) (g : List Entry) (h0 : 0 < len)
    (h1 : len ≤ 4100) (hg : ∀ e ∈ g, e.wf) :
    AInv { a with log := { a.log.pushAll len with hist := a.log.hist ++ g } }
      { o with hist := o.hist ++ g } := by
  have hsz := h.size
  have hb : a.log.hist.length ≤ (a.log.hist ++ g).length := by simp
  have hap : ∀ i, i ≤ a.log.hist.length →
      i + apush a.log.size a.log.hist len i ≤ a.log.hist.length :=
    fun i hi => apush_le h0 (by omega) hi
  refine ⟨?_, ?_, h.size, h.raw, ?_, ?_, ?_, ?_, ?_, ?_, ?_, ?_⟩
  · simp only [h.hist]
  · intro e he
    rcases List.mem_append.mp he with he | he
    · exact h.wf e he
    · exact hg e he
  · have := h.base; simp only [List.length_append]; omega
  · have := hap _ h.headLe
    simp only [ALog.pushAll, List.length_append]
    omega
  · have := h.head
    simp only [ALog.pushAll]
    omega
  · simp only [ALog.pushAll]
    exact (h.headLost.join (apush_lost h0 h1 (by omega))).snoc g
  · simp only [ALog.pushAll, List.map_map]
    exact h.nodup
  · intro fid
    simp only [ALog.pushAll]
    exact (lookup_map_isSome _ _ _).trans (h.rd fid)
  · intro fid
    simp only [ALog.pushAll]
    exact (h.rds fid).trans (lookup_map_isSome _ _ _).symm
  · intro p hp
    simp only [ALog.pushAll, List.mem_map] at hp
    obtain ⟨q, hq, rfl⟩ := hp
    obtain ⟨r, hr, e1, e2, e2', e3, e4, e5⟩ := h.rdo q hq
    refine ⟨r, hr, e1, e2, e2', ?_, ?_, ?_⟩
    · have := hap _ e3; simp only [List.length_append]; omega
    · simp only; omega
    · intro hall
      obtain ⟨f1, f2⟩ := e5 hall
      refine ⟨by simp only; omega, ?_⟩
      simp only
      have hs : q.2.idx + apush a.log.size a.log.hist len q.2.idx -
          (q.2.dropped + apush a.log.size a.log.hist len q.2.idx) = q.2.idx - q.2.dropped := by omega
      rw [hs]
      exact (f2.join (apush_lost h0 h1 (by omega))).snoc g

/-- One call. -/
theorem AInv.step {a : ASys} {o : Obs} (h : AInv a o) (op : Op) (hg : Genuine a.log.hist)
    (hlen : a.log.hist.length < 2147483648) :
    AInv (astep a op).1 (obsStep a.log.name o (op, (astep a op).2)) := by
  unfold astep
  cases hfile : a.files op.fid with
  | none =>
    cases op with
    | openF fid rd wr all =>
      simp only [Op.fid] at hfile
      have hno : a.log.readers.lookup fid = none := by
        have := h.rd fid
        rw [hfile] at this
        simpa using this
      have hnm : ∀ p ∈ a.log.readers, p.1 ≠ fid := by
        intro p hp hc
        have : a.log.readers.lookup fid ≠ none := by
          intro hn
          clear hno
          have hm : fid ∈ a.log.readers.map Prod.fst := by
            rw [← hc]; exact List.mem_map_of_mem hp
          rw [List.lookup_eq_none_iff] at hn
          have := hn p hp
          simp [hc] at this
        exact this hno
      cases rd with
      | false =>
        simp only [Bool.false_eq_true, if_false, obsStep, ASys.setFile]
        refine ⟨h.hist, h.wf, h.size, ?_, h.base, h.headLe, h.head, h.headLost, h.nodup, ?_, ?_, ?_⟩
        · intro g f hf
          simp only [upd]
          by_cases hgf : g = fid
          · simp only [hgf, if_true, Option.some.injEq] at hf ⊢; rw [← hf]
          · simp only [hgf, if_false] at hf ⊢; exact h.raw g f hf
        · intro g
          by_cases hgf : g = fid
          · simp [hgf, hno]
          · simp only [hgf, if_false]; exact h.rd g
        · intro g
          simp only [upd]
          by_cases hgf : g = fid
          · simp [hgf, hno]
          · simp only [hgf, if_false]; exact h.rds g
        · intro p hp
          simp only [upd, hnm p hp, if_false]
          exact h.rdo p hp
      | true =>
        simp only [if_true, obsStep, ASys.setFile]
        refine ⟨h.hist, h.wf, h.size, ?_, h.base, h.headLe, h.head, h.headLost, ?_, ?_, ?_, ?_⟩
        · intro g f hf
          simp only [upd]
          by_cases hgf : g = fid
          · simp only [hgf, if_true, Option.some.injEq] at hf ⊢; rw [← hf]
          · simp only [hgf, if_false] at hf ⊢; exact h.raw g f hf
        · simp only [List.map_append, List.map_cons, List.map_nil]
          rw [List.nodup_append]
          refine ⟨h.nodup, by simp, ?_⟩
          intro x hx y hy
          simp only [List.mem_singleton] at hy
          obtain ⟨p, hp, rfl⟩ := List.mem_map.mp hx
          rw [hy]; exact hnm p hp
        · intro g
          rw [lookup_append]
          by_cases hgf : g = fid
          · simp [hgf, List.lookup_cons]
          · have hb : (g == fid) = false := by simpa using hgf
            simp only [List.lookup_cons, hb, List.lookup_nil, Option.or_none, hgf, if_false]
            exact h.rd g
        · intro g
          rw [lookup_append]
          simp only [upd]
          by_cases hgf : g = fid
          · simp [hgf, List.lookup_cons]
          · have hb : (g == fid) = false := by simpa using hgf
            simp only [List.lookup_cons, hb, List.lookup_nil, Option.or_none, hgf, if_false]
            exact h.rds g
        · intro p hp
          rcases List.mem_append.mp hp with hp | hp
          · simp only [upd, hnm p hp, if_false]
            exact h.rdo p hp
          · simp only [List.mem_singleton] at hp
            subst hp
            simp only [upd, if_true]
            have := h.head
            refine ⟨_, rfl, rfl, rfl, Or.inr (by trivial), h.headLe, by simp only; omega, fun _ => ⟨by simp only; omega, ?_⟩⟩
            have hb : a.log.head - a.log.dropped = o.base := by omega
            simp only [hb]
            exact h.headLost
    | setVersion fid arg => cases arg <;> exact h
    | setRaw fid cap arg => cases arg <;> exact h
    | _ => exact h
  | some f =>
    cases op with
    | openF fid rd wr all => exact h
    | release fid =>
      simp only [Op.fid] at hfile
      simp only [astepFile]
      have hkeep : AInv { (a.setFile fid none) with
          log := { a.log with readers := a.log.readers.filter fun p => p.1 ≠ fid } }
          { o with rds := upd o.rds fid none } := by
        refine ⟨h.hist, h.wf, h.size, ?_, h.base, h.headLe, h.head, h.headLost, ?_, ?_, ?_, ?_⟩
        · intro g f' hf'
          simp only [ASys.setFile] at hf'
          by_cases hgf : g = fid
          · simp [hgf] at hf'
          · simp only [hgf, if_false] at hf'; exact h.raw g f' hf'
        · exact List.Sublist.nodup (List.Sublist.map _ List.filter_sublist) h.nodup
        · intro g
          simp only [ASys.setFile]
          rw [lookup_filter_ne]
          by_cases hgf : g = fid
          · simp [hgf]
          · simp only [hgf, if_false]; exact h.rd g
        · intro g
          simp only [upd]
          rw [lookup_filter_ne]
          by_cases hgf : g = fid
          · simp [hgf]
          · simp only [hgf, if_false]; exact h.rds g
        · intro p hp
          rw [List.mem_filter] at hp
          have : p.1 ≠ fid := by simpa using hp.2
          simp only [upd, this, if_false]
          exact h.rdo p hp.1
      cases hrd : f.rd with
      | true => simp only [if_true, obsStep]; exact hkeep
      | false =>
        simp only [Bool.false_eq_true, if_false, obsStep]
        have hno : a.log.readers.lookup fid = none := by
          have := h.rd fid
          rw [hfile] at this
          simpa [hrd] using this
        have hflt : (a.log.readers.filter fun p => p.1 ≠ fid) = a.log.readers := by
          apply List.filter_eq_self.mpr
          intro p hp
          rw [List.lookup_eq_none_iff] at hno
          have := hno p hp
          simp only [bne_iff_ne, ne_eq, beq_eq_false_iff_ne] at this
          simp only [ne_eq, decide_not, Bool.not_eq_eq_eq_not, Bool.not_true, decide_eq_false_iff_not]
          exact fun hc => this hc.symm
        simp only [hflt] at hkeep
        exact hkeep
    | write fid t it junk =>
      simp only [Op.fid] at hfile
      simp only [astepFile]
      cases hwr : f.wr with
      | false => exact h
      | true =>
        have hraw := h.raw fid f hfile
        simp only [if_true]
        rcases awrite_cases a.log f.raw t it with ⟨e, _⟩ | ⟨e, hr, hl⟩ | ⟨en, n, e, he, hwf, hn, hrl, _⟩ |
            ⟨en, n, e, hwf, _⟩
        · rw [e]; exact h
        · rw [e]
          simp only [obsStep, ← hraw, hr, if_true]
          exact h
        · rw [e]
          have hn0 : f.raw = true → n ≠ 0 := by
            intro hr; have := hrl hr; rw [hn, hr, if_pos rfl]; omega
          have hp := h.push en.size [en] (by have := Entry.size_ge en; omega)
            (by have : en.payload.length ≤ 4076 := hwf; unfold Entry.size; omega) (by simpa using hwf)
          simp only [obsStep, ← hraw]
          cases hr : f.raw with
          | true =>
            rw [hr] at he
            simp only [if_true] at he
            simp only [if_true, hn0 hr, if_false, ← he]
            exact hp
          | false =>
            rw [hr] at he
            simp only [Bool.false_eq_true, if_false] at he
            simp only [Bool.false_eq_true, if_false, ← he]
            exact hp
        · rw [e]
          simp only [obsStep]
          have hp := h.push en.size [] (by have := Entry.size_ge en; omega)
            (by have : en.payload.length ≤ 4076 := hwf; unfold Entry.size; omega) (by simp)
          simp only [List.append_nil] at hp
          exact hp
    | check fid =>
      have hsame : ∀ b : Bool, AInv a (obsStep a.log.name o (.check fid, if b then .block else .ready)) := by
        intro b; cases b <;> exact h
      simp only [astepFile]
      cases f.rd with
      | false => exact h
      | true =>
        simp only [if_true]
        split
        · split <;> exact h
        · exact h
    | read fid euid count uw =>
      simp only [Op.fid] at hfile
      simp only [astepFile]
      cases hrd : f.rd with
      | false => exact h
      | true =>
        simp only [if_true]
        cases hx : a.log.find fid with
        | none => exact h
        | some x =>
          obtain ⟨r, hr, hok⟩ := h.ok hx
          have hd : x.dropped < 2147483648 := by have := hok.2.2.2; omega
          simp only
          have hsk := hok.skip euid
          have hf := askip_fields a.log.hist euid x
          rcases aread_obs (euid := euid) (count := count) (uw := uw) hg hd with
            ⟨bs, e, hn, hc, h0⟩ | ⟨bs, e, hn, h0, en, hen, _⟩ | ⟨e1, e2⟩
          · rw [e]
            simp only [obsStep, hr, Option.map_some, hn, if_true]
            refine h.setReader hr ?_
            obtain ⟨k1, k2, k3, k4, k5, k6⟩ := hsk
            have hv : noticeCount a.log.name r.ver bs = x.dropped := by rw [hok.2.1]; exact hc
            rw [hv]
            rw [hf.2.2.1] at k5
            refine ⟨k1, k2, k3, k4, by simp only; omega, ?_⟩
            intro hall
            obtain ⟨f1, f2⟩ := k6 hall
            rw [hf.2.2.1] at f1
            refine ⟨by simp only; omega, ?_⟩
            intro q hq hq'
            simp only at hq hq'
            omega
          · rw [e]
            simp only [obsStep, hr, Option.map_some, hn, Bool.false_eq_true, if_false]
            refine h.setReader hr ?_
            obtain ⟨k1, k2, k3, k4, k5, k6⟩ := hsk
            have hlt : (askip a.log.hist euid x).idx < a.log.hist.length := by
              rcases Nat.lt_or_ge (askip a.log.hist euid x).idx a.log.hist.length with hl | hl
              · exact hl
              · rw [List.getElem?_eq_none hl] at hen; cases hen
            have hdd : (askip a.log.hist euid x).dropped = 0 := by rw [hf.2.2.1, h0]
            refine ⟨k1, k2, k3, hlt, by simp only; omega, ?_⟩
            intro hall
            obtain ⟨f1, f2⟩ := k6 hall
            refine ⟨by simp only; omega, ?_⟩
            intro q hq hq'
            simp only [hdd] at hq hq'
            omega
          · have : obsStep a.log.name o (Op.read fid euid count uw, (aread a.log euid x count uw).2) = o := by
              cases ho : (aread a.log euid x count uw).2 with
              | data bs => exact absurd ho (e2 bs)
              | _ => rfl
            rw [this, e1]
            exact h.setSame hr hsk
    | poll fid euid =>
      simp only [Op.fid] at hfile
      simp only [astepFile]
      cases hrd : f.rd with
      | false => exact h
      | true =>
        simp only [if_true]
        cases hx : a.log.find fid with
        | none => exact h
        | some x =>
          obtain ⟨r, hr, hok⟩ := h.ok hx
          exact h.setSame hr (hok.skip euid)
    | getBufSize fid => exact h
    | getLogLen fid =>
      simp only [astepFile]
      cases f.rd with
      | false => exact h
      | true =>
        simp only [if_true]
        split <;> exact h
    | getNextLen fid euid =>
      simp only [Op.fid] at hfile
      simp only [astepFile]
      cases hrd : f.rd with
      | false => exact h
      | true =>
        simp only [if_true]
        cases hx : a.log.find fid with
        | none => exact h
        | some x =>
          obtain ⟨r, hr, hok⟩ := h.ok hx
          exact h.setSame hr (hok.skip euid)
    | flush fid =>
      simp only [astepFile]
      cases f.wr with
      | false => exact h
      | true =>
        simp only [if_true, obsStep]
        have hempty : ∀ n, LostOk a.log.size a.log.hist n n := by intro n q h1 h2; omega
        refine ⟨h.hist, h.wf, h.size, h.raw, ?_, Nat.le_refl _, ?_, ?_, ?_, ?_, ?_, ?_⟩
        · simp only [h.hist]; exact Nat.le_refl _
        · simp only [h.hist]; rfl
        · simp only [h.hist]; exact hempty _
        · simp only [List.map_map]; exact h.nodup
        · intro g; exact (lookup_map_isSome _ _ _).trans (h.rd g)
        · intro g
          simp only [Option.isSome_map]
          exact (h.rds g).trans (lookup_map_isSome _ _ _).symm
        · intro p hp
          simp only [List.mem_map] at hp
          obtain ⟨q, hq, rfl⟩ := hp
          obtain ⟨r, hr, e1, e2, e2', _⟩ := h.rdo q hq
          simp only [hr, Option.map_some]
          refine ⟨_, rfl, e1, e2, e2', Nat.le_refl _, ?_, ?_⟩
          · simp only [h.hist]; omega
          · intro _
            simp only [h.hist]
            exact ⟨by omega, hempty _⟩
    | getVersion fid =>
      simp only [astepFile]
      cases f.rd with
      | false => exact h
      | true =>
        simp only [if_true]
        split <;> exact h
    | setVersion fid arg =>
      simp only [Op.fid] at hfile
      simp only [astepFile]
      cases hrd : f.rd with
      | false => cases arg <;> exact h
      | true =>
        simp only [if_true]
        cases hx : a.log.find fid with
        | none =>
          cases arg <;> exact h
        | some x =>
          obtain ⟨r, hr, hok⟩ := h.ok hx
          cases arg with
          | none => exact h
          | some v =>
            simp only
            by_cases hv : v = 1 ∨ v = 2
            · rw [if_pos hv]
              simp only [obsStep, hr, Option.map_some]
              refine h.setReader hr ?_
              obtain ⟨k1, k2, k3, k4, k5, k6⟩ := hok
              exact ⟨k1, rfl, by simp only; omega, k4, k5, k6⟩
            · rw [if_neg hv]; exact h
    | setRaw fid cap arg =>
      simp only [Op.fid] at hfile
      simp only [astepFile]
      cases f.wr with
      | false => cases arg <;> exact h
      | true =>
        simp only [if_true]
        cases cap with
        | false => cases arg <;> exact h
        | true =>
          simp only [Bool.not_true, Bool.false_eq_true, if_false]
          cases arg with
          | none => exact h
          | some v =>
            simp only
            by_cases hv : v = 0 ∨ v = 1
            · rw [if_pos hv]
              simp only [obsStep]
              refine ⟨h.hist, h.wf, h.size, ?_, h.base, h.headLe, h.head, h.headLost, h.nodup, ?_, h.rds, h.rdo⟩
              · intro g f' hf'
                simp only [ASys.setFile] at hf'
                simp only [upd]
                by_cases hgf : g = fid
                · simp only [hgf, if_true, Option.some.injEq] at hf' ⊢; rw [← hf']
                · simp only [hgf, if_false] at hf' ⊢; exact h.raw g f' hf'
              · intro g
                simp only [ASys.setFile]
                by_cases hgf : g = fid
                · have := h.rd g
                  rw [hgf, hfile] at this
                  simpa [hgf] using this
                · simp only [hgf, if_false]; exact h.rd g
            · rw [if_neg hv]; exact h

end Verif.Kernel
