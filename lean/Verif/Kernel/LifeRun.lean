import Verif.Kernel.LifeSim

/-!
# Loading, adding devices, unloading
-/
namespace Verif.Kernel.Life
open Verif Verif.Kernel
open Verif.Ulogcat.Queue (Heap Ring Path upd_same upd_other path_congr)

variable {s : K} {d : Drv} {ls : List Log} {loc : Role → Nat} {fs : List Nat}

/-! ## Adding -/

def KGrant.bools (g : KGrant) : Grant := { name := g.name.isSome, log := g.log.isSome, buffer := g.buffer.isSome, register := g.register }

/-- What is in the memory of `vmalloc`. -/
def junk (b : Option (Nat × (Nat → UInt8))) : Nat → UInt8 := (b.map (·.2)).getD fun _ => 0

theorem dstep_add (hs : d.slots = ls.map some ++ List.replicate (16 - ls.length) none) (text : Bytes) (g : Grant) (mem : Nat → UInt8) :
    dstep d (.add text g mem) =
      match scanSpec text with
      | none => .ok (d, .added .einval)
      | some (word, size) =>
        if specOk word size then
          if g.log && g.buffer then
            if g.name then
              if word ∉ ls.map (·.name) ∧ 16 - ls.length ≠ 0 ∧ g.register = true then
                .ok ({ d with slots := (ls ++ [freshLog mem { name := word, size := 2 ^ size, buf := true }]).map some ++ List.replicate (16 - ls.length - 1) none },
                  .added (.done text.length))
              else .ok (d, .added .einval)
            else .error .oob
          else .ok (d, .added .enomem)
        else .ok (d, .added .einval) := by
  have hreg : d.reg.slots = (ls.map regLog).map some ++ List.replicate (16 - ls.length) none := by
    unfold Drv.reg
    rw [hs, List.map_append, List.map_map, List.map_map, List.map_replicate]
    rfl
  unfold dstep addLog
  dsimp only
  cases hsc : scanSpec text with
  | none => rfl
  | some p =>
    obtain ⟨word, size⟩ := p
    dsimp only
    by_cases h1 : specOk word size = true
    · rw [if_pos h1, if_pos h1]
      by_cases h2 : (g.log && g.buffer) = true
      · rw [if_pos h2, if_pos h2]
        by_cases h3 : g.name = true
        · rw [if_pos h3, if_pos h3, hreg, place_map]
          rw [show (ls.map regLog).map RLog.name = ls.map (·.name) by rw [List.map_map]; rfl]
          by_cases h4 : word ∉ ls.map (·.name) ∧ 16 - ls.length ≠ 0 ∧ g.register = true
          · rw [if_pos h4, if_pos h4]
            dsimp only
            rw [hs, fill_new (by omega)]
          · rw [if_neg h4, if_neg h4]
        · rw [if_neg h3, if_neg h3]
      · rw [if_neg h2, if_neg h2]
    · rw [if_neg h1, if_neg h1]

/-- Memory may change where there is nothing. -/
theorem KRel.congr (h : KRel s d ls loc fs) {m' : Mem} (ho : ∀ a, m'.obj a = s.mem.obj a)
    (hl : ∀ a, s.mem.obj a ≠ none → m'.nx a = s.mem.nx a ∧ m'.pv a = s.mem.pv a) : KRel { s with mem := m' } d ls loc fs :=
  ⟨h.mem.congr ho hl, h.pos, h.few, h.drv, h.mod, h.slots, h.misc, h.attr, h.files, h.dev, h.readers, h.fnodup, h.opened, h.refs⟩

theorem kfree_some {m : Mem} {a : Nat} {o : Obj} (h0 : a ≠ 0) (h : m.obj a = some o) (hb : ∀ g, o ≠ .buf g) :
    m.kfree a = .ok { m with obj := Ulogcat.Queue.upd m.obj a none } := by
  unfold Mem.kfree
  rw [if_neg h0, h]
  cases o with
  | buf g => exact absurd rfl (hb g)
  | _ => rfl

theorem vfree_some {m : Mem} {a : Nat} {g : Nat → UInt8} (h0 : a ≠ 0) (h : m.obj a = some (.buf g)) :
    m.vfree a = .ok { m with obj := Ulogcat.Queue.upd m.obj a none } := by
  unfold Mem.vfree
  rw [if_neg h0, h]

theorem kfree_null (m : Mem) : m.kfree 0 = .ok m := rfl
theorem vfree_null (m : Mem) : m.vfree 0 = .ok m := rfl

/-- Everything is freed on failure. -/
theorem addFail_spec {m : Mem} {na la ba : Nat} (hn : na ≠ 0 → ∃ b, m.obj na = some (.name b)) (hl : la ≠ 0 → ∃ o, m.obj la = some (.log o))
    (hb : ba ≠ 0 → ∃ g, m.obj ba = some (.buf g)) : ∃ m', addFail m na la ba = .ok m' ∧ m'.nx = m.nx ∧ m'.pv = m.pv ∧
      ∀ a, m'.obj a = if a ≠ 0 ∧ (a = na ∨ a = la ∨ a = ba) then none else m.obj a := by
  have step1 : ∃ m1, m.kfree na = .ok m1 ∧ m1.nx = m.nx ∧ m1.pv = m.pv ∧ ∀ a, m1.obj a = if a ≠ 0 ∧ a = na then none else m.obj a := by
    by_cases h0 : na = 0
    · subst h0
      exact ⟨m, rfl, rfl, rfl, fun a => by rw [if_neg (by omega)]⟩
    · obtain ⟨b, e⟩ := hn h0
      refine ⟨_, kfree_some h0 e nofun, rfl, rfl, fun a => ?_⟩
      dsimp only
      unfold Ulogcat.Queue.upd
      by_cases ha : a = na
      · rw [if_pos ha, if_pos ⟨by omega, ha⟩]
      · rw [if_neg ha, if_neg (by omega)]
  obtain ⟨m1, e1, a1, b1, c1⟩ := step1
  have step2 : ∃ m2, m1.kfree la = .ok m2 ∧ m2.nx = m1.nx ∧ m2.pv = m1.pv ∧ ∀ a, m2.obj a = if a ≠ 0 ∧ a = la then none else m1.obj a := by
    by_cases h0 : la = 0
    · subst h0
      exact ⟨m1, rfl, rfl, rfl, fun a => by rw [if_neg (by omega)]⟩
    · obtain ⟨o, e⟩ := hl h0
      have hne : ¬ (la ≠ 0 ∧ la = na) := by
        rintro ⟨_, rfl⟩
        obtain ⟨b, e'⟩ := hn h0
        rw [e] at e'
        cases e'
      have e' : m1.obj la = some (.log o) := by rw [c1, if_neg hne, e]
      refine ⟨_, kfree_some h0 e' nofun, rfl, rfl, fun a => ?_⟩
      dsimp only
      unfold Ulogcat.Queue.upd
      by_cases ha : a = la
      · rw [if_pos ha, if_pos ⟨by omega, ha⟩]
      · rw [if_neg ha, if_neg (by omega)]
  obtain ⟨m2, e2, a2, b2, c2⟩ := step2
  have step3 : ∃ m3, m2.vfree ba = .ok m3 ∧ m3.nx = m2.nx ∧ m3.pv = m2.pv ∧ ∀ a, m3.obj a = if a ≠ 0 ∧ a = ba then none else m2.obj a := by
    by_cases h0 : ba = 0
    · subst h0
      exact ⟨m2, rfl, rfl, rfl, fun a => by rw [if_neg (by omega)]⟩
    · obtain ⟨g, e⟩ := hb h0
      have hne : ¬ (ba ≠ 0 ∧ ba = na) := by
        rintro ⟨_, rfl⟩
        obtain ⟨b, e'⟩ := hn h0
        rw [e] at e'
        cases e'
      have hne2 : ¬ (ba ≠ 0 ∧ ba = la) := by
        rintro ⟨_, rfl⟩
        obtain ⟨b, e'⟩ := hl h0
        rw [e] at e'
        cases e'
      have e' : m2.obj ba = some (.buf g) := by rw [c2, if_neg hne2, c1, if_neg hne, e]
      refine ⟨_, vfree_some h0 e', rfl, rfl, fun a => ?_⟩
      dsimp only
      unfold Ulogcat.Queue.upd
      by_cases ha : a = ba
      · rw [if_pos ha, if_pos ⟨by omega, ha⟩]
      · rw [if_neg ha, if_neg (by omega)]
  obtain ⟨m3, e3, a3, b3, c3⟩ := step3
  refine ⟨m3, ?_, by rw [a3, a2, a1], by rw [b3, b2, b1], fun a => ?_⟩
  · unfold addFail
    rw [e1, bok, e2, bok, e3]
  · rw [c3, c2, c1]
    clear c1 c2 c3 hn hl hb
    grind

theorem sim_add (h : KRel s d ls loc fs) {text : Bytes} {g : KGrant} (hsane : Sane s (.add text g)) (hg : g.name.isSome = true) :
    ∃ s' d' ls' loc' o, kstep s (.add text g) = .ok (s', .drv o) ∧ dstep d (.add text g.bools (junk g.buffer)) = .ok (d', o) ∧ KRel s' d' ls' loc' fs := by
  have hd := dstep_add h.drv text g.bools (junk g.buffer)
  have hk0 : kstep s (.add text g) = kadd s text g := by
    unfold kstep
    dsimp only
    rw [h.attr]
    rfl
  rw [hk0]
  unfold kadd
  cases hscan : scanSpec text with
  | none =>
    rw [hscan] at hd
    exact ⟨s, d, ls, loc, _, rfl, hd, h⟩
  | some p =>
    obtain ⟨word, size⟩ := p
    rw [hscan] at hd
    dsimp only at hd ⊢
    by_cases hok : specOk word size = false
    · rw [if_pos hok]
      rw [if_neg (by rw [hok]; nofun)] at hd
      exact ⟨s, d, ls, loc, _, rfl, hd, h⟩
    · rw [if_neg hok]
      rw [if_pos (by simpa using hok)] at hd
      obtain ⟨na, hna⟩ := Option.isSome_iff_exists.1 hg
      obtain ⟨s1, s2, s3⟩ := hsane
      obtain ⟨fn, d1, d2⟩ := s1 na hna
      rw [hna]
      rw [show alloc s.mem (.name word) (some na) = (s.mem.set na (.name word), na) from rfl]
      dsimp only
      -- the addresses, 0 for none
      have hlog : ∃ la m1, alloc (s.mem.set na (.name word)) (.log { name := 0, size := 0, buffer := 0, wOff := 0, head := 0, dropped := 0 }) g.log = (m1, la) ∧
          (g.log = none ∧ la = 0 ∧ m1 = s.mem.set na (.name word) ∨ g.log = some la ∧ Free s la ∧ la ≠ na ∧ (g.buffer.map (·.1) ≠ some la) ∧
            m1 = (s.mem.set na (.name word)).set la (.log { name := 0, size := 0, buffer := 0, wOff := 0, head := 0, dropped := 0 })) := by
        cases hl : g.log with
        | none => exact ⟨0, _, rfl, .inl ⟨rfl, rfl, rfl⟩⟩
        | some la =>
          obtain ⟨fl, dl⟩ := s2 la hl
          exact ⟨la, _, rfl, .inr ⟨rfl, fl, fun e => d1 (by rw [hl, e]), dl, rfl⟩⟩
      obtain ⟨la, m1, el, hla⟩ := hlog
      rw [el]
      dsimp only
      have hbuf : ∃ ba m2, alloc m1 (.buf ((g.buffer.map (·.2)).getD fun _ => 0)) (g.buffer.map (·.1)) = (m2, ba) ∧
          (g.buffer = none ∧ ba = 0 ∧ m2 = m1 ∨ g.buffer.isSome = true ∧ g.buffer.map (·.1) = some ba ∧ Free s ba ∧ ba ≠ na ∧ m2 = m1.set ba (.buf (junk g.buffer))) := by
        cases hb : g.buffer with
        | none => exact ⟨0, _, rfl, .inl ⟨rfl, rfl, rfl⟩⟩
        | some b =>
          obtain ⟨ba, q⟩ := b
          have hbe : g.buffer.map (·.1) = some ba := by rw [hb]; rfl
          exact ⟨ba, _, rfl, .inr ⟨rfl, rfl, s3 ba hbe, fun e => d2 (by rw [hbe, e]), rfl⟩⟩
      obtain ⟨ba, m2, eb, hba⟩ := hbuf
      rw [eb]
      dsimp only
      have o2n : m2.obj na = some (.name word) := by
        have : m1.obj na = some (.name word) := by
          rcases hla with ⟨_, _, rfl⟩ | ⟨_, _, hne, _, rfl⟩
          · exact upd_same _ _ _
          · exact (upd_other _ _ (Ne.symm hne)).trans (upd_same _ _ _)
        rcases hba with ⟨_, _, rfl⟩ | ⟨_, _, _, hne, rfl⟩
        · exact this
        · exact (upd_other _ _ (Ne.symm hne)).trans this
      have hlb : la ≠ 0 → ba ≠ 0 → la ≠ ba := by
        intro h1 h2 e
        rcases hla with ⟨_, hz, _⟩ | ⟨_, _, _, hne, _⟩
        · exact h1 hz
        · rcases hba with ⟨_, hz, _⟩ | ⟨_, hb, _⟩
          · exact h2 hz
          · rw [e] at hne; exact hne hb
      have o2l : la ≠ 0 → m2.obj la = some (.log { name := 0, size := 0, buffer := 0, wOff := 0, head := 0, dropped := 0 }) := by
        intro h0
        have : m1.obj la = some (.log { name := 0, size := 0, buffer := 0, wOff := 0, head := 0, dropped := 0 }) := by
          rcases hla with ⟨_, hz, _⟩ | ⟨_, _, hne, _, rfl⟩
          · exact absurd hz h0
          · exact upd_same _ _ _
        rcases hba with ⟨_, _, rfl⟩ | ⟨_, _, fb, _, rfl⟩
        · exact this
        · exact (upd_other _ _ (hlb h0 fb.pos)).trans this
      have o2b : ba ≠ 0 → m2.obj ba = some (.buf (junk g.buffer)) := by
        intro h0
        rcases hba with ⟨_, hz, _⟩ | ⟨_, _, _, _, rfl⟩
        · exact absurd hz h0
        · exact upd_same _ _ _
      have links : m2.nx = s.mem.nx ∧ m2.pv = s.mem.pv := by
        rcases hba with ⟨_, _, rfl⟩ | ⟨_, _, _, _, rfl⟩ <;> rcases hla with ⟨_, _, rfl⟩ | ⟨_, _, _, _, rfl⟩ <;> exact ⟨rfl, rfl⟩
      have o2o : ∀ a, a ≠ na → a ≠ la → a ≠ ba → m2.obj a = s.mem.obj a := by
        intro a a1 a2 a3
        have : m1.obj a = s.mem.obj a := by
          rcases hla with ⟨_, _, rfl⟩ | ⟨_, _, _, _, rfl⟩
          · exact upd_other _ _ a1
          · exact (upd_other _ _ a2).trans (upd_other _ _ a1)
        rcases hba with ⟨_, _, rfl⟩ | ⟨_, _, _, _, rfl⟩
        · exact this
        · exact (upd_other _ _ a3).trans this
      -- whatever was freed was free before
      have was : ∀ a, a ≠ 0 ∧ (a = na ∨ a = la ∨ a = ba) → s.mem.obj a = none := by
        rintro a ⟨h0, rfl | rfl | rfl⟩
        · exact fn.empty
        · rcases hla with ⟨_, hz, _⟩ | ⟨_, fl, _⟩
          · exact absurd hz h0
          · exact fl.empty
        · rcases hba with ⟨_, hz, _⟩ | ⟨_, _, fb, _⟩
          · exact absurd hz h0
          · exact fb.empty
      have zero : s.mem.obj 0 = none := by
        cases hz : s.mem.obj 0 with
        | none => rfl
        | some o =>
          obtain ⟨x, hx, e⟩ := h.mem.only 0 (by rw [hz]; nofun)
          exact absurd e (h.mem.even x hx).2
      have back : ∀ (m m' : Mem), (∀ a, a ≠ na → a ≠ la → a ≠ ba → m.obj a = s.mem.obj a) →
          (∀ a, m'.obj a = if a ≠ 0 ∧ (a = na ∨ a = la ∨ a = ba) then none else m.obj a) → m.obj 0 = none → ∀ a, m'.obj a = s.mem.obj a := by
        intro m m' h1 h2 h3 a
        rw [h2]
        by_cases hc : a ≠ 0 ∧ (a = na ∨ a = la ∨ a = ba)
        · rw [if_pos hc, was a hc]
        · rw [if_neg hc]
          by_cases h0 : a = 0
          · rw [h0, h3, zero]
          · exact h1 a (fun e => hc ⟨h0, .inl e⟩) (fun e => hc ⟨h0, .inr (.inl e)⟩) (fun e => hc ⟨h0, .inr (.inr e)⟩)
      have m20 : m2.obj 0 = none := by
        have : m1.obj 0 = none := by
          have h0 : (s.mem.set na (.name word)).obj 0 = none := (upd_other _ _ (Ne.symm fn.pos)).trans zero
          rcases hla with ⟨_, _, rfl⟩ | ⟨_, fl, _, _, rfl⟩
          · exact h0
          · exact (upd_other _ _ (Ne.symm fl.pos)).trans h0
        rcases hba with ⟨_, _, rfl⟩ | ⟨_, _, fb, _, rfl⟩
        · exact this
        · exact (upd_other _ _ (Ne.symm fb.pos)).trans this
      by_cases hz : la = 0 ∨ ba = 0
      · rw [if_pos hz]
        have hgl : (g.bools.log && g.bools.buffer) = false := by
          unfold KGrant.bools
          dsimp only
          rcases hz with hz | hz
          · rcases hla with ⟨e, _⟩ | ⟨_, fl, _⟩
            · rw [e]; rfl
            · exact absurd hz fl.pos
          · rcases hba with ⟨e, _⟩ | ⟨_, _, fb, _⟩
            · rw [e]; simp
            · exact absurd hz fb.pos
        rw [hgl, if_neg (by nofun)] at hd
        obtain ⟨m3, e3, a3, b3, c3⟩ := addFail_spec (m := m2) (na := na) (la := la) (ba := ba) (fun _ => ⟨_, o2n⟩) (fun h0 => ⟨_, o2l h0⟩) (fun h0 => ⟨_, o2b h0⟩)
        rw [e3, bok]
        refine ⟨_, d, ls, loc, _, rfl, hd, h.congr (back m2 m3 o2o c3 m20) fun a _ => ?_⟩
        rw [a3, b3, links.1, links.2]
        exact ⟨rfl, rfl⟩
      · rw [if_neg hz]
        have hla0 : la ≠ 0 := fun e => hz (.inl e)
        have hba0 : ba ≠ 0 := fun e => hz (.inr e)
        have hgl : (g.bools.log && g.bools.buffer) = true := by
          unfold KGrant.bools
          dsimp only
          rcases hla with ⟨_, e, _⟩ | ⟨e, _⟩
          · exact absurd e hla0
          · rcases hba with ⟨_, e', _⟩ | ⟨e', _⟩
            · exact absurd e' hba0
            · rw [e, e']; rfl
        rw [if_pos hgl, if_pos (show g.bools.name = true from hg)] at hd
        have fl : Free s la ∧ la ≠ na := by
          rcases hla with ⟨_, e, _⟩ | ⟨_, fl, hne, _⟩
          · exact absurd e hla0
          · exact ⟨fl, hne⟩
        have fb : Free s ba ∧ ba ≠ na := by
          rcases hba with ⟨_, e, _⟩ | ⟨_, _, fb, hne, _⟩
          · exact absurd e hba0
          · exact ⟨fb, hne⟩
        let lo : LObj := { name := na, size := 2 ^ size, buffer := ba, wOff := 0, head := 0, dropped := 0 }
        let m3 : Mem := m2.set la (.log lo)
        let m4 : Mem := { m3 with nx := Ulogcat.Queue.upd m3.nx la la, pv := Ulogcat.Queue.upd m3.pv la la }
        have o4l : m4.obj la = some (.log lo) := upd_same _ _ _
        have o4n : m4.obj na = some (.name word) := (upd_other _ _ (Ne.symm fl.2)).trans o2n
        have o4b : m4.obj ba = some (.buf (junk g.buffer)) := (upd_other _ _ (Ne.symm (hlb hla0 hba0))).trans (o2b hba0)
        have o4o : ∀ a, a ≠ na → a ≠ la → a ≠ ba → m4.obj a = s.mem.obj a := fun a a1 a2 a3 => (upd_other _ _ a2).trans (o2o a a1 a2 a3)
        have n3 : m3.node la = true := by
          unfold Mem.node
          rw [show m3.obj la = some (.log lo) from o4l]
        have hinit : initList m3 la = .ok m4 := initList_spec n3
        have l4 : ∀ a, s.mem.obj a ≠ none → m4.nx a = s.mem.nx a ∧ m4.pv a = s.mem.pv a := by
          intro a ha
          have hne : a ≠ la := fun e => ha (by rw [e]; exact fl.1.empty)
          constructor
          · exact (upd_other _ _ hne).trans (by rw [show m3.nx = m2.nx from rfl, links.1])
          · exact (upd_other _ _ hne).trans (by rw [show m3.pv = m2.pv from rfl, links.2])
        have hthere : There m4 loc 0 ls := by
          intro j l hj
          obtain ⟨t1, t2, t3⟩ := h.mem.there j l hj
          rw [Nat.zero_add] at t1 t2 t3 ⊢
          have hold : ∀ x, Has ls x → m4.obj (loc x) = s.mem.obj (loc x) := fun x hx =>
            o4o _ (fun e => h.mem.live hx (by rw [e]; exact fn.empty)) (fun e => h.mem.live hx (by rw [e]; exact fl.1.empty))
              (fun e => h.mem.live hx (by rw [e]; exact fb.1.empty))
          refine ⟨?_, ?_, t3⟩
          · unfold Mem.log; rw [hold (.log j) (lt_of_get hj)]; exact t1
          · unfold Mem.name; rw [hold (.name j) (lt_of_get hj)]; exact t2
        have hnm : m4.name na = .ok word := by unfold Mem.name; rw [o4n]
        have hfind := findSlot_spec (16 - ls.length) word g.register ls 0 hthere
        rw [← h.slots] at hfind
        show ∃ s' d' ls' loc' o, ((initList m3 la >>= fun m => m.name na >>= fun nm => findSlot m nm g.register s.slots >>= fun slot => _) = _) ∧ _
        rw [hinit, bok, hnm, bok, hfind, bok]
        by_cases hc : word ∉ ls.map (·.name) ∧ 16 - ls.length ≠ 0 ∧ g.register = true
        · rw [if_pos hc]
          rw [if_pos (show word ∉ ls.map (·.name) ∧ 16 - ls.length ≠ 0 ∧ g.bools.register = true from hc)] at hd
          dsimp only
          let new : Log := freshLog (junk g.buffer) { name := word, size := 2 ^ size, buf := true }
          have M := h.mem.addDevice (m' := m4) (new := new) rfl ⟨fn.empty, fn.even, fn.pos⟩ ⟨fl.1.empty, fl.1.even, fl.1.pos⟩ ⟨fb.1.empty, fb.1.even, fb.1.pos⟩
            (Ne.symm fl.2) (Ne.symm fb.2) (hlb hla0 hba0) o4n o4l o4b o4o l4 ⟨upd_same _ _ _, upd_same _ _ _⟩
          have lold : ∀ j, j < ls.length → newLoc loc ls.length na la ba (.log j) = loc (.log j) := fun j hj => newLoc_old rfl (show Has ls (.log j) from hj)
          have hlen : (ls ++ [new]).length = ls.length + 1 := by rw [List.length_append]; rfl
          refine ⟨_, _, ls ++ [new], newLoc loc ls.length na la ba, _, rfl, hd, ⟨M, by omega, by omega, ?_, ?_, ?_, ?_, h.attr, ?_, ?_, ?_, h.fnodup, h.opened, h.refs⟩⟩
          · show (ls ++ [new]).map some ++ List.replicate (16 - ls.length - 1) none = _
            rw [hlen, Nat.sub_sub]
          · show s.mod = _
            rw [lold 0 h.pos, newLoc_old rfl (show Has ls (.name 0) from h.pos)]
            exact h.mod
          · show s.slots.set ls.length (some la) = _
            rw [hlen, ptrs_snoc, Nat.zero_add, newLoc_log, ptrs_congr ls.length 0 (fun j _ hj => lold j (by omega)), h.slots]
            have : List.replicate (16 - ls.length) (none : Option Nat) = none :: List.replicate (16 - (ls.length + 1)) none := by
              rw [← List.replicate_succ]
              congr 1
              omega
            rw [this, List.set_append_right _ _ (by rw [ptrs_length]; exact Nat.le_refl _), ptrs_length, Nat.sub_self, List.append_assoc]
            rfl
          · show s.misc ++ [(word, la)] = _
            rw [List.map_append, List.map_cons, List.map_nil, entries_snoc, List.length_map, Nat.zero_add, newLoc_log, h.misc,
              entries_congr _ 0 (fun j _ hj => lold j (by rw [List.length_map] at hj; omega))]
            rfl
          · intro f
            show s.files f = Option.map (kfile (newLoc loc ls.length na la ba) f) (d.files f)
            rw [h.files]
            cases hf : d.files f with
            | none => rfl
            | some p =>
              obtain ⟨i, F⟩ := p
              show some _ = some _
              unfold kfile
              rw [newLoc_rdr, lold i (h.dev f i F hf)]
          · intro f i F hf
            have := h.dev f i F hf
            omega
          · intro i l f hi
            rcases get_snoc hi with hi | ⟨rfl, rfl⟩
            · exact h.readers i l f hi
            · constructor
              · intro hm; cases hm
              · rintro ⟨F, hF, _⟩
                have := h.dev f _ F hF
                omega
        · rw [if_neg hc]
          rw [if_neg (show ¬ (word ∉ ls.map (·.name) ∧ 16 - ls.length ≠ 0 ∧ g.bools.register = true) from hc)] at hd
          dsimp only
          obtain ⟨m5, e5, a5, b5, c5⟩ := addFail_spec (m := m4) (na := na) (la := la) (ba := ba) (fun _ => ⟨_, o4n⟩) (fun _ => ⟨_, o4l⟩) (fun _ => ⟨_, o4b⟩)
          rw [e5, bok]
          refine ⟨_, d, ls, loc, _, rfl, hd, h.congr (back m4 m5 o4o c5 ((upd_other _ _ (Ne.symm hla0)).trans m20)) fun a ha => ?_⟩
          rw [a5, b5]
          exact l4 a ha

/-! ## Showing -/

theorem sim_list (h : KRel s d ls loc fs) (page : Nat) : kstep s (.list page) = .ok (s, .drv (.text (showLogs page d.reg))) := by
  unfold kstep
  dsimp only
  rw [h.attr, h.slots, if_pos rfl, slotNames_spec _ _ _ h.mem.there, bok]
  have : d.reg = { slots := ls.map (fun l => some (regLog l)) ++ List.replicate (16 - ls.length) none } := by
    unfold Drv.reg
    rw [h.drv, List.map_append, List.map_map, List.map_replicate]
    rfl
  rw [this]

/-! ## Loading and unloading -/

/-- Nothing of the driver is there. -/
structure Off (s : K) : Prop where
  mem : ∀ a, s.mem.obj a = none
  mod : s.mod = none
  misc : s.misc = []
  attr : s.attr = false
  files : ∀ f, s.files f = none
  refs : s.refs = 0

theorem sim_load (h : Off s) {k : Int} {main nm ba : Nat} {g : Nat → UInt8} (hk : checkBufSize k = true) (hsane : Sane s (.load k main nm (some (ba, g)) true true)) :
    ∃ s' d loc ls, kstep s (.load k main nm (some (ba, g)) true true) = .ok (s', .loaded) ∧ dinit k true g = some d ∧ KRel s' d ls loc [] := by
  obtain ⟨f1, f2, hne, f3⟩ := hsane
  obtain ⟨f3, n1, n2⟩ := f3 ba rfl
  let new : Log := freshLog g { name := ascii "ulog_main", size := 2 ^ k.toNat, buf := true }
  let m1 := s.mem.set nm (.name (ascii "ulog_main"))
  let m2 := m1.set main (.log { name := nm, size := 0, buffer := 0, wOff := 0, head := 0, dropped := 0 })
  let m3 : Mem := { m2 with nx := Ulogcat.Queue.upd m2.nx main main, pv := Ulogcat.Queue.upd m2.pv main main }
  let m4 := m3.set ba (.buf g)
  let m5 := m4.set main (.log { name := nm, size := 2 ^ k.toNat, buffer := ba, wOff := 0, head := 0, dropped := 0 })
  have M := (mrel_nil (fun _ => 0) h.mem).addDevice (m' := m5) (new := new) rfl ⟨f2.empty, f2.even, f2.pos⟩ ⟨f1.empty, f1.even, f1.pos⟩
    ⟨f3.empty, f3.even, f3.pos⟩ (Ne.symm hne) (Ne.symm n2) (Ne.symm n1)
    ((upd_other _ _ (Ne.symm hne)).trans ((upd_other _ _ (Ne.symm n2)).trans ((upd_other _ _ (Ne.symm hne)).trans (upd_same _ _ _))))
    (upd_same _ _ _)
    ((upd_other _ _ n1).trans (upd_same _ _ _))
    (fun a a1 a2 a3 => (upd_other _ _ a2).trans ((upd_other _ _ a3).trans ((upd_other _ _ a2).trans (upd_other _ _ a1))))
    (fun a ha => absurd (h.mem a) ha) ⟨upd_same _ _ _, upd_same _ _ _⟩
  have hdr : dinit k true g = some { slots := [some new] ++ List.replicate 15 none, files := fun _ => none } := by
    unfold dinit regInit
    rw [hk]
    rfl
  have hl0 : newLoc (fun _ => 0) ([] : List Log).length nm main ba (.log 0) = main := newLoc_log
  have hn0 : newLoc (fun _ => 0) ([] : List Log).length nm main ba (.name 0) = nm := newLoc_name
  refine ⟨{ s with mem := m5, mod := some (main, nm), misc := s.misc ++ [(ascii "ulog_main", main)], attr := true, slots := some main :: List.replicate 15 none },
    _, newLoc (fun _ => 0) ([] : List Log).length nm main ba, [new], ?_, hdr, ⟨M, Nat.zero_lt_one, by simp, rfl, ?_, ?_, ?_, rfl, h.files, nofun, ?_, List.nodup_nil, ?_, h.refs⟩⟩
  · unfold kstep
    dsimp only
    rw [h.mod]
    dsimp only
    unfold kload
    rw [hk]
    rfl
  · rw [hl0, hn0]
  · show some main :: List.replicate 15 none = some (newLoc (fun _ => 0) ([] : List Log).length nm main ba (.log 0)) :: List.replicate 15 none
    rw [hl0]
  · show s.misc ++ _ = [(ascii "ulog_main", newLoc (fun _ => 0) ([] : List Log).length nm main ba (.log 0))]
    rw [hl0, h.misc]
    rfl
  · intro i l f hi
    rcases get_snoc (ls := []) hi with hi | ⟨_, rfl⟩
    · cases hi
    · constructor
      · intro hm; cases hm
      · rintro ⟨F, hF, _⟩; cases hF
  · intro f
    simp

/-- Loading with a size that is not taken, or without memory and registration. -/
theorem sim_load_fail (h : Off s) {k : Int} {main nm : Nat} {buffer : Option (Nat × (Nat → UInt8))} {register attr : Bool}
    (hsane : Sane s (.load k main nm buffer register attr)) (hk : checkBufSize k = false ∨ (buffer = none ∧ register = false)) :
    ∃ s', kstep s (.load k main nm buffer register attr) = .ok (s', .failed) ∧ Off s' := by
  obtain ⟨f1, f2, hne, _⟩ := hsane
  have hstep : kstep s (.load k main nm buffer register attr) = kload s k main nm buffer register attr := by
    unfold kstep
    dsimp only
    rw [h.mod]
  have key : ∀ m' : Mem, (∀ a, a ≠ nm → a ≠ main → m'.obj a = s.mem.obj a) → Off { s with mem := dropModule m' main nm } := by
    intro m' hm
    refine ⟨fun a => ?_, h.mod, h.misc, h.attr, h.files, h.refs⟩
    show Ulogcat.Queue.upd (Ulogcat.Queue.upd m'.obj main none) nm none a = none
    by_cases h1 : a = nm
    · rw [h1, upd_same]
    · rw [upd_other _ _ h1]
      by_cases h2 : a = main
      · rw [h2, upd_same]
      · rw [upd_other _ _ h2, hm a h1 h2, h.mem]
  rw [hstep]
  by_cases hc : checkBufSize k = false
  · refine ⟨_, if_pos hc, key _ fun a h1 h2 => ?_⟩
    exact (upd_other _ _ h2).trans (upd_other _ _ h1)
  · rcases hk with hk | ⟨rfl, rfl⟩
    · exact absurd hk hc
    · refine ⟨_, (if_neg hc).trans rfl, key _ fun a h1 h2 => ?_⟩
      exact (upd_other _ _ h2).trans ((upd_other _ _ h2).trans (upd_other _ _ h1))

theorem sim_unload (h : KRel s d ls loc []) : ∃ s', kstep s .unload = .ok (s', .unloaded) ∧ Off s' := by
  have hnofile : ∀ f, d.files f = none := by
    intro f
    cases hf : d.files f with
    | none => rfl
    | some p => exact absurd ((h.opened f).2 (by rw [hf]; nofun)) (by simp)
  have hkeys : ∀ (i : Nat) l, ls[i]? = some l → ∀ f, f ∉ keys l := by
    intro i l hl f hm
    obtain ⟨F, hF, _⟩ := (h.readers i l f hl).1 hm
    rw [hnofile] at hF
    cases hF
  obtain ⟨l0, hl0⟩ := get_of_lt h.pos
  have o1 := h.mem.log 0 l0 hl0
  have o3 := h.mem.buf 0 l0 hl0
  have nz : ∀ x, Has ls x → loc x ≠ 0 := fun x hx => (h.mem.even x hx).2
  have ne : ∀ {x y : Role}, Has ls x → Has ls y → x ≠ y → loc x ≠ loc y := fun hx hy hxy e => hxy (h.mem.inj _ _ hx hy e)
  have hlog : s.mem.log (loc (.log 0)) = .ok (lobj loc 0 l0) := by unfold Mem.log; rw [o1]
  obtain ⟨n, hn⟩ : ∃ n, ls.length = n + 1 := ⟨ls.length - 1, by have := h.pos; omega⟩
  have hdrop : ls = l0 :: ls.drop 1 := by
    cases ls with
    | nil => cases hl0
    | cons x t =>
      simp at hl0
      rw [hl0]
      rfl
  have hmisc : ({ s with attr := false } : K).misc = entries loc 0 (l0.name :: (ls.drop 1).map (·.name)) := by
    show s.misc = _
    rw [h.misc]
    conv => lhs; rw [hdrop]
    rfl
  have hdl : ((ls.drop 1).map (·.name)).length = n := by simp; omega
  have hder := deregister_spec (loc := loc) (s := { s with attr := false }) hlog hmisc
    (fun j h1 h2 => ne (x := .log j) (y := .log 0) (show j < ls.length by omega) h.pos (fun e => by injection e; omega))
  let m1 : Mem := { s.mem with obj := Ulogcat.Queue.upd s.mem.obj (loc (.buf 0)) none }
  have hv : s.mem.vfree (loc (.buf 0)) = .ok m1 := vfree_some (nz (.buf 0) h.pos) o3
  have L1 : Left m1 ls loc 1 := by
    refine ⟨fun i l hi h1 => ?_, fun a ha => ?_⟩
    · have hil := lt_of_get hi
      refine ⟨(upd_other _ _ (ne (x := .log i) (y := .buf 0) hil h.pos nofun)).trans (h.mem.log i l hi),
        (upd_other _ _ (ne (x := .name i) (y := .buf 0) hil h.pos nofun)).trans (h.mem.name i l hi),
        (upd_other _ _ (ne (x := .buf i) (y := .buf 0) hil h.pos (fun e => by injection e; omega))).trans (h.mem.buf i l hi)⟩
    · have ha : Ulogcat.Queue.upd s.mem.obj (loc (.buf 0)) none a ≠ none := ha
      have hne : a ≠ loc (.buf 0) := by rintro rfl; exact ha (upd_same _ _ _)
      rw [upd_other _ _ hne] at ha
      obtain ⟨x, hx, e⟩ := h.mem.only a ha
      cases x with
      | rdr f => obtain ⟨i, l, hi, hf⟩ := hx; exact absurd hf (hkeys i l hi f)
      | log i =>
        by_cases h0 : i = 0
        · subst h0; exact .inl e.symm
        · exact .inr (.inr ⟨i, by omega, hx, .inl e.symm⟩)
      | name i =>
        by_cases h0 : i = 0
        · subst h0; exact .inr (.inl e.symm)
        · exact .inr (.inr ⟨i, by omega, hx, .inr (.inl e.symm)⟩)
      | buf i =>
        by_cases h0 : i = 0
        · subst h0; exact absurd e.symm hne
        · exact .inr (.inr ⟨i, by omega, hx, .inr (.inr e.symm)⟩)
  obtain ⟨m2, e2, L2⟩ := deleteLogs_spec h.mem.inj nz (16 - ls.length) n 1
    { s with attr := false, mem := m1, misc := entries loc (0 + 1) ((ls.drop 1).map (·.name)) } (by omega) (by omega) L1 rfl
  refine ⟨{ s with attr := false, mem := dropModule m2 (loc (.log 0)) (loc (.name 0)), misc := [], mod := none, slots := [] }, ?_, ?_⟩
  · unfold kstep
    dsimp only
    rw [h.mod]
    dsimp only
    rw [if_pos (by rw [h.refs]; rfl)]
    unfold kunload
    show (deregister { s with attr := false } (loc (.log 0)) >>= _) = _
    rw [hder, bok]
    dsimp only
    rw [hlog, bok]
    show (s.mem.vfree (loc (.buf 0)) >>= _) = _
    rw [hv, bok]
    have : s.slots = some (loc (.log 0)) :: (ptrs loc 1 n ++ List.replicate (16 - ls.length) none) := by
      rw [h.slots]
      conv => lhs; rw [hn]
      rw [hn]
      rfl
    have e3 : ∀ S : K, deleteLogs (loc (.log 0)) s.slots S = deleteLogs (loc (.log 0)) (ptrs loc 1 n ++ List.replicate (16 - ls.length) none) S := by
      intro S
      rw [this]
      exact if_pos rfl
    rw [e3, e2, bok]
  · refine ⟨fun a => ?_, rfl, rfl, rfl, fun f => ?_, by rw [h.refs]; rfl⟩
    · show Ulogcat.Queue.upd (Ulogcat.Queue.upd m2.obj (loc (.log 0)) none) (loc (.name 0)) none a = none
      by_cases h1 : a = loc (.name 0)
      · rw [h1, upd_same]
      · rw [upd_other _ _ h1]
        by_cases h2 : a = loc (.log 0)
        · rw [h2, upd_same]
        · rw [upd_other _ _ h2]
          cases hm : m2.obj a with
          | none => rfl
          | some o =>
            rcases L2.only a (by rw [hm]; nofun) with e | e | ⟨i, i1, i2, _⟩
            · exact absurd e h2
            · exact absurd e h1
            · omega
    · show s.files f = none
      rw [h.files, hnofile]
      rfl

end Verif.Kernel.Life
