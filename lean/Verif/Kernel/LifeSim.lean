import Verif.Kernel.LifeAdd

/-!
# The driver in memory does what the driver of `Driver` does
-/
namespace Verif.Kernel.Life
open Verif Verif.Kernel
open Verif.Ulogcat.Queue (Heap Ring Path upd_same upd_other path_congr)

/-- `private_data` of a file of device `i`. -/
def kfile (loc : Role → Nat) (f : Nat) (p : Nat × File) : KFile :=
  { word := tagged (if p.2.rd then loc (.rdr f) else loc (.log p.1)) p.2.raw, rd := p.2.rd, wr := p.2.wr }

structure KRel (s : K) (d : Drv) (ls : List Log) (loc : Role → Nat) (fs : List Nat) : Prop where
  mem : MRel s.mem ls loc
  pos : 0 < ls.length
  few : ls.length ≤ 16
  drv : d.slots = ls.map some ++ List.replicate (16 - ls.length) none
  mod : s.mod = some (loc (.log 0), loc (.name 0))
  slots : s.slots = ptrs loc 0 ls.length ++ List.replicate (16 - ls.length) none
  misc : s.misc = entries loc 0 (ls.map (·.name))
  attr : s.attr = true
  files : ∀ f, s.files f = (d.files f).map (kfile loc f)
  dev : ∀ f i F, d.files f = some (i, F) → i < ls.length
  readers : ∀ (i : Nat) l f, ls[i]? = some l → (f ∈ keys l ↔ ∃ F, d.files f = some (i, F) ∧ F.rd = true)
  fnodup : fs.Nodup
  opened : ∀ f, f ∈ fs ↔ d.files f ≠ none
  refs : s.refs = fs.length

theorem tagged_eq {p : Nat} (h : p % 2 = 0) (b : Bool) : tagged p b = p + if b then 1 else 0 := by
  unfold tagged
  have hp : p = 2 ^ 1 * (p / 2) := by omega
  cases b with
  | false => simp
  | true =>
    have := Nat.two_pow_add_eq_or_of_lt (i := 1) (b := 1) (by decide) (p / 2)
    rw [← hp] at this
    exact this.symm

theorem kfile_ptr {loc : Role → Nat} {f : Nat} {p : Nat × File} (h : (if p.2.rd then loc (.rdr f) else loc (.log p.1)) % 2 = 0) :
    (kfile loc f p).ptr = (if p.2.rd then loc (.rdr f) else loc (.log p.1)) ∧ (kfile loc f p).flag = p.2.raw := by
  unfold KFile.ptr KFile.flag kfile
  dsimp only
  rw [tagged_eq h]
  generalize (if p.2.rd then loc (.rdr f) else loc (.log p.1)) = q at h
  cases p.2.raw
  · simp; omega
  · simp; omega

theorem nodup_sub_length {α : Type} [DecidableEq α] : ∀ {l k : List α}, l.Nodup → (∀ x ∈ l, x ∈ k) → l.length ≤ k.length := by
  intro l
  induction l with
  | nil => intro k _ _; exact Nat.zero_le _
  | cons a l ih =>
    intro k nd h
    obtain ⟨n1, n2⟩ := List.nodup_cons.1 nd
    have ha := h a (by simp)
    have := ih (k := k.erase a) n2 fun x hx => by
      have hne : x ≠ a := by rintro rfl; exact n1 hx
      exact (List.mem_erase_of_ne hne).2 (h x (by simp [hx]))
    rw [List.length_erase_of_mem ha] at this
    have : 0 < k.length := List.length_pos_of_mem ha
    simp only [List.length_cons]
    omega

variable {s : K} {d : Drv} {ls : List Log} {loc : Role → Nat} {fs : List Nat}

theorem KRel.fits (h : KRel s d ls loc fs) {i : Nat} {l : Log} (hl : ls[i]? = some l) : (keys l).length ≤ s.refs := by
  rw [h.refs]
  refine nodup_sub_length (h.mem.nodup i l hl) fun f hf => ?_
  obtain ⟨F, hF, _⟩ := (h.readers i l f hl).1 hf
  rw [h.opened, hF]
  nofun

/-- The driver after a call on a file. -/
def after (d : Drv) (i : Nat) (op : Op) (t : Sys) : Drv :=
  { slots := d.slots.set i (some t.log), files := fun f => if f = op.fid then (t.files f).map fun F => (i, F) else d.files f }

theorem KRel.even (h : KRel s d ls loc fs) {f i : Nat} {F : File} (hf : d.files f = some (i, F)) :
    (if F.rd then loc (.rdr f) else loc (.log i)) % 2 = 0 := by
  have hi := h.dev f i F hf
  obtain ⟨l, hl⟩ := get_of_lt hi
  by_cases hr : F.rd = true
  · rw [if_pos hr]
    exact (h.mem.even (.rdr f) ⟨i, l, hl, (h.readers i l f hl).2 ⟨F, hf, hr⟩⟩).1
  · rw [if_neg hr]
    exact (h.mem.even (.log i) hi).1

theorem names_set {ls : List Log} {i : Nat} {l l' : Log} (hl : ls[i]? = some l) (hn : l'.name = l.name) : (ls.set i l').map (·.name) = ls.map (·.name) := by
  refine List.ext_getElem? fun j => ?_
  rw [List.getElem?_map, List.getElem?_map, get_set (lt_of_get hl)]
  split
  · rename_i hj
    subst hj
    rw [hl]
    simp [hn]
  · rfl

/-- Calls on an open file. -/
theorem sim_call (h : KRel s d ls loc fs) {op : Op} {i : Nat} {F : File} (hf : d.files op.fid = some (i, F)) {l : Log} (hl : ls[i]? = some l)
    {t : Sys} {o : Out} (hs : step (d.view i l) op = .ok (t, o)) (hn : t.log.name = l.name) (hz : t.log.size = l.size) (hr : op.releases = false) :
    ∃ s', kstep s (.call op) = .ok (s', .drv (.out o)) ∧ KRel s' (after d i op t) (ls.set i t.log) loc fs := by
  have hil := lt_of_get hl
  have hv : (d.view i l).files op.fid = some F := view_file hf
  have hs' : stepFile (d.view i l) op.fid F op = .ok (t, o) := by
    rw [← hs]
    unfold step
    rw [hv]
    cases op <;> rfl
  obtain ⟨hk, raw, ht⟩ := call_keeps hv hr hs'
  have hk : keys t.log = keys l := hk
  obtain ⟨q1, q2⟩ := kfile_ptr (loc := loc) (f := op.fid) (p := (i, F)) (h.even hf)
  have hfile : s.files op.fid = some (kfile loc op.fid (i, F)) := by rw [h.files, hf]; rfl
  have hrdk : F.rd = true → op.fid ∈ keys l := fun hrd => (h.readers i l op.fid hl).2 ⟨F, hf, hrd⟩
  have hlog : fileLog s.mem (kfile loc op.fid (i, F)) = .ok (loc (.log i)) := by
    unfold fileLog
    rw [q1]
    by_cases hrd : F.rd = true
    · rw [if_pos (show (kfile loc op.fid (i, F)).rd = true from hrd)]
      dsimp only
      rw [if_pos hrd]
      obtain ⟨p, hp, hpe⟩ := List.mem_map.1 (hrdk hrd)
      have := h.mem.rdr i l p hl hp
      rw [hpe] at this
      unfold Mem.reader
      rw [this]
      rfl
    · rw [if_neg (show ¬ (kfile loc op.fid (i, F)).rd = true from hrd)]
      dsimp only
      rw [if_neg hrd]
  have hF : ({ rd := (kfile loc op.fid (i, F)).rd, wr := (kfile loc op.fid (i, F)).wr, raw := (kfile loc op.fid (i, F)).flag } : File) = F := by
    rw [q2]
    rfl
  have hcall := ren_call (ρ := fun f => loc (.rdr f)) (l := l) (fid := op.fid) (key := (kfile loc op.fid (i, F)).ptr) (F := F) (op := op)
    (files := (d.view i l).files) (files' := fun x => if x = (kfile loc op.fid (i, F)).ptr then some F else none) (by rw [if_pos rfl, hv])
    (by
      intro hrd
      refine ⟨by rw [q1]; exact if_pos hrd, fun p hp e => ?_⟩
      have := h.mem.inj (.rdr p.1) (.rdr op.fid) ⟨i, l, hl, mem_keys hp⟩ ⟨i, l, hl, hrdk hrd⟩ e
      injection this) hr
  rw [show stepFile { log := l, files := (d.view i l).files } op.fid F op = .ok (t, o) from hs'] at hcall
  have hcall : stepFile { log := ren (fun f => loc (.rdr f)) l, files := fun x => if x = (kfile loc op.fid (i, F)).ptr then some F else none }
      (kfile loc op.fid (i, F)).ptr F op = .ok
        ({ log := ren (fun f => loc (.rdr f)) t.log, files := fun x => if x = (kfile loc op.fid (i, F)).ptr then t.files op.fid else if x = (kfile loc op.fid (i, F)).ptr then some F else none }, o) := hcall
  obtain ⟨m', e', M'⟩ := h.mem.putLog hl hk hn hz
  let s' : K := { s with mem := m', files := Ulogcat.Queue.upd s.files op.fid (some { kfile loc op.fid (i, F) with word := tagged (kfile loc op.fid (i, F)).ptr raw }) }
  refine ⟨s', ?_, ?_⟩
  · have : kstep s (.call op) = kcall s op.fid (kfile loc op.fid (i, F)) op := by
      unfold kstep
      dsimp only
      rw [hfile]
      cases op <;> first | rfl | cases hr
    rw [this]
    unfold kcall
    rw [hlog, bok, h.mem.logAt hl (h.fits hl), bok]
    dsimp only
    rw [hF, hcall, bok]
    dsimp only
    rw [e', bok, if_pos rfl, ht]
  · refine ⟨M', by rw [List.length_set]; exact h.pos, by rw [List.length_set]; exact h.few, ?_, h.mod, ?_, ?_, h.attr, ?_, ?_, ?_, h.fnodup, ?_, h.refs⟩
    · show d.slots.set i (some t.log) = _
      rw [h.drv, set_packed hil, List.length_set]
    · rw [List.length_set]; exact h.slots
    · rw [names_set hl hn]; exact h.misc
    · intro f
      show Ulogcat.Queue.upd s.files op.fid _ f = Option.map (kfile loc f) (if f = op.fid then (t.files f).map fun F => (i, F) else d.files f)
      by_cases hfe : f = op.fid
      · subst hfe
        rw [upd_same, if_pos rfl, ht, q1]
        rfl
      · rw [upd_other _ _ hfe, if_neg hfe]
        exact h.files f
    · intro f j G hG
      rw [List.length_set]
      have hG : (if f = op.fid then (t.files f).map fun F => (i, F) else d.files f) = some (j, G) := hG
      split at hG
      · rw [Option.map_eq_some_iff] at hG
        obtain ⟨_, _, hG⟩ := hG
        injection hG with hG _
        omega
      · exact h.dev f j G hG
    · intro j k f hj
      have hkk : ∃ k0, ls[j]? = some k0 ∧ keys k = keys k0 := by
        rw [get_set hil] at hj
        split at hj
        · rename_i hji
          injection hj with hj
          exact ⟨l, by rw [hji]; exact hl, by rw [← hj]; exact hk⟩
        · exact ⟨k, hj, rfl⟩
      obtain ⟨k0, hk0, hke⟩ := hkk
      rw [hke, h.readers j k0 f hk0]
      show _ ↔ ∃ G, (if f = op.fid then (t.files f).map fun F => (i, F) else d.files f) = some (j, G) ∧ G.rd = true
      by_cases hfe : f = op.fid
      · rw [if_pos hfe, hfe, ht, hf]
        constructor
        · rintro ⟨G, e, hG⟩
          injection e with e
          injection e with e1 e2
          subst e2
          exact ⟨{ F with raw }, by rw [e1]; rfl, hG⟩
        · rintro ⟨G, e, hG⟩
          injection e with e
          injection e with e1 e2
          refine ⟨F, by rw [e1], ?_⟩
          rw [← e2] at hG
          exact hG
      · rw [if_neg hfe]
    · intro f
      rw [h.opened]
      show _ ↔ (if f = op.fid then (t.files f).map fun F => (i, F) else d.files f) ≠ none
      by_cases hfe : f = op.fid
      · rw [if_pos hfe, hfe, ht, hf]
        simp
      · rw [if_neg hfe]

theorem step_release {v : Sys} {fid : Nat} {F : File} (hv : v.files fid = some F) : step v (.release fid) =
    .ok ({ log := if F.rd then { v.log with readers := v.log.readers.filter fun p => p.1 ≠ fid } else v.log, files := fun f => if f = fid then none else v.files f }, .ok) := by
  unfold step
  dsimp only
  rw [hv]
  dsimp only
  unfold stepFile
  dsimp only
  by_cases hr : F.rd = true
  · rw [if_pos hr, if_pos hr]; rfl
  · rw [if_neg hr, if_neg hr]; rfl

/-- Closing a file. -/
theorem sim_release (h : KRel s d ls loc fs) {fid i : Nat} {F : File} (hf : d.files fid = some (i, F)) {l : Log} (hl : ls[i]? = some l)
    {t : Sys} {o : Out} (hs : step (d.view i l) (.release fid) = .ok (t, o)) :
    ∃ s', kstep s (.call (.release fid)) = .ok (s', .drv (.out o)) ∧ KRel s' (after d i (.release fid) t) (ls.set i t.log) loc (fs.erase fid) := by
  have hil := lt_of_get hl
  have hv : (d.view i l).files fid = some F := view_file hf
  rw [step_release hv] at hs
  injection hs with hs
  injection hs with ht ho
  obtain ⟨q1, q2⟩ := kfile_ptr (loc := loc) (f := fid) (p := (i, F)) (h.even hf)
  dsimp only at q1 q2
  have hfile : s.files fid = some (kfile loc fid (i, F)) := by rw [h.files, hf]; rfl
  have htf : t.files = fun f => if f = fid then none else (d.view i l).files f := by rw [← ht]
  have htl : t.log = if F.rd then { l with readers := l.readers.filter fun p => p.1 ≠ fid } else l := by rw [← ht]; rfl
  have hmem : fid ∈ fs := by rw [h.opened, hf]; nofun
  have hmem' : ∃ m', (if (kfile loc fid (i, F)).rd then (do
        let r ← s.mem.reader (kfile loc fid (i, F)).ptr
        let _ ← s.mem.log r.log
        let m ← listDel s.mem (kfile loc fid (i, F)).ptr
        m.kfree (kfile loc fid (i, F)).ptr)
      else .ok s.mem) = .ok m' ∧ MRel m' (ls.set i t.log) loc := by
    by_cases hrd : F.rd = true
    · rw [if_pos (show (kfile loc fid (i, F)).rd = true from hrd), q1, if_pos hrd]
      have hkl := (h.readers i l fid hl).2 ⟨F, hf, hrd⟩
      obtain ⟨p, hp, hpe⟩ := List.mem_map.1 hkl
      have := h.mem.rdr i l p hl hp
      rw [hpe] at this
      obtain ⟨m', e, M⟩ := h.mem.delReader hl hkl
      refine ⟨m', ?_, by rw [htl, if_pos hrd]; exact M⟩
      have r1 : s.mem.reader (loc (.rdr fid)) = .ok { log := loc (.log i), rd := p.2 } := by unfold Mem.reader; rw [this]
      have r2 : s.mem.log (loc (.log i)) = .ok (lobj loc i l) := by unfold Mem.log; rw [h.mem.log i l hl]
      rw [r1, bok]
      dsimp only
      rw [r2, bok]
      exact e
    · rw [if_neg (show ¬ (kfile loc fid (i, F)).rd = true from hrd)]
      refine ⟨s.mem, rfl, ?_⟩
      rw [htl, if_neg hrd]
      have : ls.set i l = ls := by
        refine List.ext_getElem? fun j => ?_
        rw [get_set hil]
        split
        · rename_i hj; rw [hj, hl]
        · rfl
      rw [this]
      exact h.mem
  obtain ⟨m', e', M'⟩ := hmem'
  have hnm : t.log.name = l.name := by rw [htl]; split <;> rfl
  refine ⟨{ s with mem := m', refs := s.refs - 1, files := Ulogcat.Queue.upd s.files fid none }, ?_, ?_⟩
  · unfold kstep
    dsimp only
    rw [hfile]
    dsimp only
    unfold krelease
    have e2 := congrArg (fun z : Except Fault Mem => z >>= fun m : Mem =>
      (Except.ok (({ s with mem := m, refs := s.refs - 1, files := Ulogcat.Queue.upd s.files fid none } : K), KOut.drv (.out .ok)) : Except Fault (K × KOut))) e'
    rw [← ho]
    refine Eq.trans ?_ e2
    by_cases hrd : (kfile loc fid (i, F)).rd = true
    · rw [if_pos hrd, if_pos hrd]
      simp only [bind_assoc]
    · rw [if_neg hrd, if_neg hrd]
  · have hd' : ∀ f, (after d i (.release fid) t).files f = if f = fid then none else d.files f := by
      intro f
      show (if f = fid then (t.files f).map fun F => (i, F) else d.files f) = _
      by_cases hfe : f = fid
      · rw [if_pos hfe, if_pos hfe, htf]
        simp [hfe]
      · rw [if_neg hfe, if_neg hfe]
    refine ⟨M', by rw [List.length_set]; exact h.pos, by rw [List.length_set]; exact h.few, ?_, h.mod, ?_, ?_, h.attr, ?_, ?_, ?_, h.fnodup.erase fid, ?_, ?_⟩
    · show d.slots.set i (some t.log) = _
      rw [h.drv, set_packed hil, List.length_set]
    · rw [List.length_set]; exact h.slots
    · rw [names_set hl hnm]; exact h.misc
    · intro f
      rw [hd']
      show Ulogcat.Queue.upd s.files fid _ f = _
      by_cases hfe : f = fid
      · subst hfe
        rw [upd_same, if_pos rfl]
        rfl
      · rw [upd_other _ _ hfe, if_neg hfe]
        exact h.files f
    · intro f j G hG
      rw [List.length_set]
      rw [hd'] at hG
      split at hG
      · cases hG
      · exact h.dev f j G hG
    · intro j k f hj
      rw [hd']
      have hold := fun k0 (hk0 : ls[j]? = some k0) => h.readers j k0 f hk0
      have hfe' : f = fid → (¬ f ∈ keys k) := by
        rintro rfl hm
        rw [get_set hil] at hj
        split at hj
        · injection hj with hj
          rw [← hj, htl] at hm
          by_cases hrd : F.rd = true
          · rw [if_pos hrd] at hm
            obtain ⟨p, hp, hpe⟩ := List.mem_map.1 hm
            have := (List.mem_filter.1 hp).2
            simp [hpe] at this
          · rw [if_neg hrd] at hm
            obtain ⟨G, hG, hGr⟩ := (h.readers i l f hl).1 hm
            rw [hf] at hG
            injection hG with hG
            injection hG with _ hG
            rw [hG] at hrd
            exact hrd hGr
        · rename_i hji
          obtain ⟨G, hG, _⟩ := (h.readers j k f hj).1 hm
          rw [hf] at hG
          injection hG with hG
          injection hG with hG _
          exact hji hG.symm
      by_cases hfe : f = fid
      · rw [if_pos hfe]
        refine ⟨fun hm => absurd hm (hfe' hfe), ?_⟩
        rintro ⟨G, hG, _⟩
        cases hG
      · rw [if_neg hfe]
        rw [get_set hil] at hj
        split at hj
        · rename_i hji
          injection hj with hj
          rw [← hj, htl, hji, ← h.readers i l f hl]
          by_cases hrd : F.rd = true
          · rw [if_pos hrd]
            unfold keys
            dsimp only
            rw [List.mem_map, List.mem_map]
            constructor
            · rintro ⟨p, hp, hpe⟩; exact ⟨p, (List.mem_filter.1 hp).1, hpe⟩
            · rintro ⟨p, hp, hpe⟩; exact ⟨p, List.mem_filter.2 ⟨hp, by simpa [hpe] using hfe⟩, hpe⟩
          · rw [if_neg hrd]
        · exact h.readers j k f hj
    · intro f
      rw [hd', List.Nodup.mem_erase_iff h.fnodup, h.opened]
      by_cases hfe : f = fid
      · rw [if_pos hfe]; simp [hfe]
      · rw [if_neg hfe]; simp [hfe]
    · show s.refs - 1 = _
      rw [List.length_erase_of_mem hmem, h.refs]

theorem step_open {v : Sys} {fid : Nat} {rd wr all : Bool} (hv : v.files fid = none) : step v (.openF fid rd wr all) =
    .ok ({ log := if rd then { v.log with readers := v.log.readers ++ [(fid, { off := v.log.head, all, ver := 2, dropped := v.log.dropped })] } else v.log,
           files := fun f => if f = fid then some { rd, wr, raw := false } else v.files f }, .ok) := by
  unfold step
  dsimp only
  rw [hv]
  dsimp only
  by_cases hr : rd = true
  · rw [if_pos hr, if_pos hr]; rfl
  · rw [if_neg hr, if_neg hr]; rfl

/-- Opening a device. -/
theorem sim_open (h : KRel s d ls loc fs) {nm : Bytes} {fid i : Nat} {rd wr all : Bool} {reader : Option Nat} (hsane : ∀ a, reader = some a → Free s a)
    (hf : d.files fid = none) {l : Log} (hl : ls[i]? = some l) (hi : slotOf nm d.slots = some i)
    {t : Sys} {o : Out} (hs : step (d.view i l) (.openF fid rd wr all) = .ok (t, o)) :
    (rd = true ∧ reader = none ∧ kstep s (.opn nm fid rd wr all reader) = .ok (s, .enomem)) ∨
    ((rd = true → reader ≠ none) ∧ ∃ s' loc', kstep s (.opn nm fid rd wr all reader) = .ok (s', .drv (.out o)) ∧
      KRel s' (after d i (.openF fid rd wr all) t) (ls.set i t.log) loc' (fid :: fs)) := by
  have hil := lt_of_get hl
  have hv : (d.view i l).files fid = none := by
    unfold Drv.view
    dsimp only
    rw [hf]
  rw [step_open hv] at hs
  injection hs with hs
  injection hs with ht ho
  have hfile : s.files fid = none := by rw [h.files, hf]; rfl
  have hlook : s.misc.lookup nm = some (loc (.log i)) := by
    rw [h.misc, entries_lookup loc nm (16 - ls.length) ls 0, ← h.drv, hi]
    simp
  have hev := h.mem.even (.log i) hil
  have hptr : ∀ rd wr, (KFile.mk (loc (.log i)) rd wr).ptr = loc (.log i) := by
    intro rd wr
    unfold KFile.ptr
    dsimp only
    omega
  have hlog : s.mem.log (loc (.log i)) = .ok (lobj loc i l) := by unfold Mem.log; rw [h.mem.log i l hl]
  have hk0 : kstep s (.opn nm fid rd wr all reader) = kopen s nm fid rd wr all reader := by
    unfold kstep
    dsimp only
    rw [hfile]
  have hnot : fid ∉ fs := fun hm => (h.opened fid).1 hm hf
  have htf : t.files = fun f => if f = fid then some { rd, wr, raw := false } else (d.view i l).files f := by rw [← ht]
  have htl : t.log = if rd then { l with readers := l.readers ++ [(fid, { off := l.head, all, ver := 2, dropped := l.dropped })] } else l := by rw [← ht]; rfl
  have hnm : t.log.name = l.name := by rw [htl]; split <;> rfl
  have hnk : ∀ (j : Nat) k, ls[j]? = some k → fid ∉ keys k := by
    intro j k hj hm
    obtain ⟨G, hG, _⟩ := (h.readers j k fid hj).1 hm
    rw [hf] at hG
    cases hG
  have hd' : ∀ f, (after d i (.openF fid rd wr all) t).files f = if f = fid then some (i, { rd, wr, raw := false }) else d.files f := by
    intro f
    show (if f = fid then (t.files f).map fun F => (i, F) else d.files f) = _
    by_cases hfe : f = fid
    · rw [if_pos hfe, if_pos hfe, htf]
      simp [hfe]
    · rw [if_neg hfe, if_neg hfe]
  -- what does not depend on where the reader is
  have fin : ∀ (m' : Mem) (loc' : Role → Nat) (w : Nat), MRel m' (ls.set i t.log) loc' → (∀ j, loc' (.log j) = loc (.log j)) → (∀ j, loc' (.name j) = loc (.name j)) →
      (∀ f, f ≠ fid → loc' (.rdr f) = loc (.rdr f)) → w = tagged (if rd then loc' (.rdr fid) else loc' (.log i)) false →
      KRel { s with mem := m', refs := s.refs + 1, files := Ulogcat.Queue.upd s.files fid (some { word := w, rd, wr }) }
        (after d i (.openF fid rd wr all) t) (ls.set i t.log) loc' (fid :: fs) := by
    intro m' loc' w M hlg hnmm hrd hw
    refine ⟨M, by rw [List.length_set]; exact h.pos, by rw [List.length_set]; exact h.few, ?_, ?_, ?_, ?_, h.attr, ?_, ?_, ?_,
      List.nodup_cons.2 ⟨hnot, h.fnodup⟩, ?_, ?_⟩
    · show d.slots.set i (some t.log) = _
      rw [h.drv, set_packed hil, List.length_set]
    · show s.mod = _
      rw [hlg, hnmm]
      exact h.mod
    · rw [List.length_set, ptrs_congr _ _ fun j _ _ => hlg j]; exact h.slots
    · rw [names_set hl hnm, entries_congr _ _ fun j _ _ => hlg j]; exact h.misc
    · intro f
      rw [hd']
      show Ulogcat.Queue.upd s.files fid _ f = _
      by_cases hfe : f = fid
      · subst hfe
        rw [upd_same, if_pos rfl, hw]
        rfl
      · rw [upd_other _ _ hfe, if_neg hfe, h.files f]
        congr 1
        funext p
        unfold kfile
        rw [hrd f hfe, hlg]
    · intro f j G hG
      rw [List.length_set]
      rw [hd'] at hG
      split at hG
      · injection hG with hG
        injection hG with hG _
        omega
      · exact h.dev f j G hG
    · intro j k f hj
      rw [hd']
      have hkk : ∃ k0, ls[j]? = some k0 ∧ (f ∈ keys k ↔ f ∈ keys k0 ∨ (f = fid ∧ j = i ∧ rd = true)) := by
        rw [get_set hil] at hj
        split at hj
        · rename_i hji
          injection hj with hj
          refine ⟨l, by rw [hji]; exact hl, ?_⟩
          rw [← hj, htl]
          by_cases hr : rd = true
          · rw [if_pos hr]
            unfold keys
            simp [hr, hji]
          · rw [if_neg hr]
            simp [hr]
        · rename_i hji
          exact ⟨k, hj, by simp [hji]⟩
      obtain ⟨k0, hk0, hke⟩ := hkk
      rw [hke, h.readers j k0 f hk0]
      by_cases hfe : f = fid
      · rw [if_pos hfe, hfe, hf]
        constructor
        · rintro (⟨G, hG, _⟩ | ⟨_, rfl, hr⟩)
          · cases hG
          · exact ⟨_, rfl, hr⟩
        · rintro ⟨G, hG, hr⟩
          injection hG with hG
          injection hG with e1 e2
          refine .inr ⟨rfl, e1.symm, ?_⟩
          rw [← e2] at hr
          exact hr
      · rw [if_neg hfe]
        simp [hfe]
    · intro f
      rw [hd', List.mem_cons, h.opened]
      by_cases hfe : f = fid
      · rw [if_pos hfe]; simp [hfe]
      · rw [if_neg hfe]; simp [hfe]
    · show s.refs + 1 = _
      rw [h.refs]
      rfl
  by_cases hr : rd = true
  · cases reader with
    | none =>
      refine .inl ⟨hr, rfl, ?_⟩
      rw [hk0]
      unfold kopen
      rw [hlook]
      dsimp only
      rw [hptr, hlog, bok, if_pos hr]
    | some a =>
      refine .inr ⟨fun _ => nofun, ?_⟩
      have hfree := hsane a rfl
      obtain ⟨m', e', M'⟩ := h.mem.addReader hl hnk hfree.empty hfree.pos hfree.even { off := l.head, all, ver := 2, dropped := l.dropped }
      rw [if_pos hr] at htl
      rw [← htl] at M'
      refine ⟨_, put loc (.rdr fid) a, ?_, fin m' _ (tagged a false) M' (fun j => put_other a nofun) (fun j => put_other a nofun)
        (fun f hfe => put_other a (by simpa using hfe)) (by rw [if_pos hr, put_self])⟩
      rw [hk0]
      unfold kopen
      rw [hlook]
      dsimp only
      rw [hptr, hlog, bok, if_pos hr, ← ho]
      have e2 := congrArg (fun z : Except Fault Mem => z >>= fun m : Mem =>
        (Except.ok (({ s with mem := m, refs := s.refs + 1, files := Ulogcat.Queue.upd s.files fid (some { word := tagged a false, rd, wr }) } : K), KOut.drv (.out .ok)) : Except Fault (K × KOut))) e'
      refine Eq.trans ?_ e2
      show (initList (s.mem.set a (.reader { log := loc (.log i), rd := { off := l.head, all, ver := 2, dropped := l.dropped } })) a >>= _) = _
      generalize initList (s.mem.set a (.reader { log := loc (.log i), rd := { off := l.head, all, ver := 2, dropped := l.dropped } })) a = z
      cases z with
      | error e => rfl
      | ok z => rfl
  · refine .inr ⟨fun hr' => absurd hr' hr, ?_⟩
    rw [if_neg hr] at htl
    have hset : ls.set i t.log = ls := by
      refine List.ext_getElem? fun j => ?_
      rw [get_set hil]
      split
      · rename_i hj; rw [hj, hl, htl]
      · rfl
    refine ⟨_, loc, ?_, fin s.mem loc (tagged (loc (.log i)) false) (by rw [hset]; exact h.mem) (fun _ => rfl) (fun _ => rfl) (fun _ _ => rfl)
      (by rw [if_neg hr])⟩
    rw [hk0]
    unfold kopen
    rw [hlook]
    dsimp only
    rw [hptr, hlog, bok, if_neg hr, ← ho]

end Verif.Kernel.Life
