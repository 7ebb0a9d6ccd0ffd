import Verif.Ulogcat.Receive

/-!
# Taking entries from a log device (C84, C85)
-/
namespace Verif.Ulogcat
open Verif Verif.Kernel Verif.Libulog

/-! ## Parts of a run -/

theorem run_split (A : List (Op × Out)) : ∀ {B : List (Op × Out)} {ops : List Op} {s0 s : Sys},
    Kernel.run s0 ops = .ok (s, A ++ B) →
    ops = A.map (·.1) ++ B.map (·.1) ∧
      ∃ s1, Kernel.run s0 (A.map (·.1)) = .ok (s1, A) ∧ Kernel.run s1 (B.map (·.1)) = .ok (s, B) := by
  induction A with
  | nil =>
    intro B
    induction B with
    | nil =>
      intro ops s0 s h
      cases ops with
      | nil =>
        simp only [Kernel.run, Except.ok.injEq, Prod.mk.injEq] at h
        obtain ⟨rfl, _⟩ := h
        exact ⟨rfl, _, rfl, rfl⟩
      | cons op ops =>
        simp only [Kernel.run] at h
        cases h1 : Kernel.step s0 op with
        | error e => rw [h1] at h; cases h
        | ok p =>
          rw [h1] at h
          simp only [bind, Except.bind] at h
          cases h2 : Kernel.run p.1 ops with
          | error e => rw [h2] at h; cases h
          | ok q => rw [h2] at h; cases h
    | cons b B ih =>
      intro ops s0 s h
      cases ops with
      | nil => simp only [Kernel.run] at h; cases h
      | cons op ops =>
        have h0 := h
        simp only [Kernel.run] at h
        cases h1 : Kernel.step s0 op with
        | error e => rw [h1] at h; cases h
        | ok p =>
          rw [h1] at h
          simp only [bind, Except.bind] at h
          cases h2 : Kernel.run p.1 ops with
          | error e => rw [h2] at h; cases h
          | ok q =>
            rw [h2] at h
            simp only [pure, Except.pure, Except.ok.injEq, Prod.mk.injEq, List.nil_append, List.cons.injEq] at h
            obtain ⟨hs, hb, hq⟩ := h
            have := ih (ops := ops) (s0 := p.1) (s := s) (by rw [h2, ← hs]; simp [← hq])
            obtain ⟨e1, _⟩ := this
            simp only [List.map_nil, List.nil_append] at e1
            subst hb
            refine ⟨by simp [e1], s0, rfl, ?_⟩
            simp only [List.map_cons]
            rw [← e1]
            exact h0
  | cons a A ih =>
    intro B ops s0 s h
    cases ops with
    | nil => simp only [Kernel.run] at h; cases h
    | cons op ops =>
      simp only [Kernel.run] at h
      cases h1 : Kernel.step s0 op with
      | error e => rw [h1] at h; cases h
      | ok p =>
        rw [h1] at h
        simp only [bind, Except.bind] at h
        cases h2 : Kernel.run p.1 ops with
        | error e => rw [h2] at h; cases h
        | ok q =>
          rw [h2] at h
          simp only [pure, Except.pure, Except.ok.injEq, Prod.mk.injEq, List.cons_append, List.cons.injEq] at h
          obtain ⟨hs, hb, hq⟩ := h
          obtain ⟨e1, s1, e2, e3⟩ := ih (ops := ops) (s0 := p.1) (s := s) (by rw [h2, ← hs, ← hq])
          subst hb
          refine ⟨by simp [e1], s1, ?_, e3⟩
          simp only [List.map_cons, Kernel.run, h1, bind, Except.bind, e2]
          rfl

/-- The beginning of a run is a run; the rest starts where it ends. -/
theorem _root_.Verif.Kernel.Run.cut {name k buf ops s A B} (h : Run name k buf ops s (A ++ B)) :
    ∃ s1, Run name k buf (A.map (·.1)) s1 A ∧ Kernel.run s1 (B.map (·.1)) = .ok (s, B) := by
  obtain ⟨e, s1, h1, h2⟩ := run_split A h.run
  have hm := (obs_append_mono name A B).1
  refine ⟨s1, ⟨h.pow, h.nameLen, ?_, h1, h.genuine.prefix hm, Nat.lt_of_le_of_lt hm.length_le h.count⟩, h2⟩
  intro op hop
  exact h.sup op (by rw [e]; exact List.mem_append_left _ hop)

/-- The call right after the beginning of a run. -/
theorem _root_.Verif.Kernel.Run.cut_step {name k buf ops s A op o B} (h : Run name k buf ops s (A ++ (op, o) :: B)) :
    ∃ s1 s2, Run name k buf (A.map (·.1)) s1 A ∧ Kernel.step s1 op = .ok (s2, o) := by
  obtain ⟨s1, h1, h2⟩ := Run.cut h
  simp only [List.map_cons, Kernel.run] at h2
  cases h3 : Kernel.step s1 op with
  | error e => rw [h3] at h2; cases h2
  | ok p =>
    rw [h3] at h2
    simp only [bind, Except.bind] at h2
    cases h4 : Kernel.run p.1 (B.map (·.1)) with
    | error e => rw [h4] at h2; cases h2
    | ok q =>
      rw [h4] at h2
      simp only [pure, Except.pure, Except.ok.injEq, Prod.mk.injEq, List.cons.injEq] at h2
      obtain ⟨_, ⟨_, ho⟩, _⟩ := h2
      exact ⟨s1, p.1, h1, by rw [← ho]; exact h3⟩

/-! ## The account of one reader -/

/-- The reader exists, with this header version. -/
def OpenWith (name : Bytes) (tr : List (Op × Out)) (fid : Nat) (all : Bool) (ver : Nat) : Prop :=
  ∃ r, (obs name tr).rds fid = some r ∧ r.all = all ∧ r.ver = ver

theorem OpenWith.step {name tr fid all ver} (h : OpenWith name tr fid all ver) {p : Op × Out}
    (hp : p.1.fid ≠ fid ∨ (∃ e c u, p.1 = .read fid e c u) ∨ p.1 = .check fid) :
    OpenWith name (tr ++ [p]) fid all ver := by
  obtain ⟨r, h1, h2, h3⟩ := h
  unfold OpenWith
  rw [obs_snoc]
  generalize obs name tr = o at h1
  obtain ⟨op, out⟩ := p
  simp only at hp
  unfold obsStep
  split <;> rename_i heq <;> simp only [Prod.mk.injEq] at heq
  case h_1 =>
    rcases hp with hp | ⟨_, _, _, hp⟩ | hp
    · rw [heq.1] at hp
      exact ⟨r, by simp only [upd]; rw [if_neg (Ne.symm hp)]; exact h1, h2, h3⟩
    · rw [heq.1] at hp; cases hp
    · rw [heq.1] at hp; cases hp
  case h_2 =>
    rcases hp with hp | ⟨_, _, _, hp⟩ | hp
    · rw [heq.1] at hp
      exact ⟨r, by simp only [upd]; rw [if_neg (Ne.symm hp)]; exact h1, h2, h3⟩
    · rw [heq.1] at hp; cases hp
    · rw [heq.1] at hp; cases hp
  case h_3 => exact ⟨r, h1, h2, h3⟩
  case h_4 =>
    rcases hp with hp | ⟨_, _, _, hp⟩ | hp
    · rw [heq.1] at hp
      exact ⟨r, by simp only [upd]; rw [if_neg (Ne.symm hp)]; exact h1, h2, h3⟩
    · rw [heq.1] at hp; cases hp
    · rw [heq.1] at hp; cases hp
  case h_5 => exact ⟨{ r with got := 0, told := 0 }, by simp only [h1, Option.map_some], h2, h3⟩
  case h_6 =>
    split
    · split <;> exact ⟨r, h1, h2, h3⟩
    · exact ⟨r, h1, h2, h3⟩
  case h_7 g _ _ _ bs =>
    by_cases hg : fid = g
    · subst hg
      simp only [upd, if_true, h1, Option.map_some]
      by_cases hn : isNotice bs
      · rw [if_pos hn]; exact ⟨_, rfl, h2, h3⟩
      · rw [if_neg hn]; exact ⟨_, rfl, h2, h3⟩
    · exact ⟨r, by simp only [upd]; rw [if_neg hg]; exact h1, h2, h3⟩
  case h_8 => exact ⟨r, h1, h2, h3⟩

theorem OpenWith.others {name fid all ver} {t : List (Op × Out)} (ht : Others fid t) :
    ∀ {tr}, OpenWith name tr fid all ver → OpenWith name (tr ++ t) fid all ver := by
  induction t with
  | nil => intro tr h; rw [List.append_nil]; exact h
  | cons p t ih =>
    intro tr h
    rw [show tr ++ p :: t = (tr ++ [p]) ++ t by simp]
    exact ih (fun q hq => ht q (by simp [hq])) (h.step (.inl (ht p (by simp))))

/-! ## What `read` can return -/

/-- The bytes stand for an entry `e` that a program committed, or for the notice
that `n` entries were lost before `e`. -/
inductive Delivered (name : Bytes) (hist : List Entry) : Bytes → Entry → Prop
  | ordinary {e} (h : e ∈ hist) : Delivered name hist (e.view 2) e
  | notice {e} (h : e ∈ hist) {n : Nat} (hn : 0 < n) :
      Delivered name hist ((summaryEntry name n e).view 2) (summaryEntry name n e)

theorem Delivered.mono {name hist hist' bs e} (h : Delivered name hist bs e) (hp : hist <+: hist') :
    Delivered name hist' bs e := by
  cases h with
  | ordinary h => exact .ordinary (hp.subset h)
  | notice h hn => exact .notice (hp.subset h) hn

theorem read_result {name k buf ops s tr} (h : Run name k buf ops s tr) {fid : Nat} {all : Bool}
    (ho : OpenWith name tr fid all 2) {euid : UInt32} {count : Nat} {s' : Sys} {o : Out}
    (hs : Kernel.step s (.read fid euid count count) = .ok (s', o)) :
    o = .block ∨ (o = .err .einval ∧ count < 4100) ∨
      ∃ bs e, o = .data bs ∧ Delivered name (obs name tr).hist bs e ∧ bs.length ≤ count ∧ e.payload.length ≤ 4076 ∧
        bs = e.view 2 := by
  obtain ⟨r, hr, _, hv⟩ := ho
  obtain ⟨G, a, f, x, hrel, hinv, hname, hsz, hf, hfr, hx, hok⟩ := h.reader hr
  obtain ⟨hout, _⟩ := hrel.step rfl hs
  rw [astep_read hf hfr hx] at hout
  simp only at hout
  have hfl := askip_fields a.log.hist euid x
  obtain ⟨k1, k2, _⟩ := hok
  unfold aread at hout
  simp only at hout
  cases hen : a.log.hist[(askip a.log.hist euid x).idx]? with
  | none => rw [hen] at hout; exact .inl hout.symm
  | some e =>
    rw [hen] at hout
    simp only at hout
    have hmem : e ∈ a.log.hist := List.mem_of_getElem? hen
    have hwf : e.payload.length ≤ 4076 := hrel.log.wf e hmem
    rw [hfl.2.1, hfl.2.2.1, ← k2, hv, hname] at hout
    have hs2 := summary_le h.nameLen x.dropped e 2
    have hv2 := view_le (hrel.log.wf e hmem) 2
    by_cases hd : x.dropped > 0
    · simp only [hd, if_true] at hout
      by_cases hc : count < ((summaryEntry name x.dropped e).view 2).length
      · rw [if_pos hc] at hout
        exact .inr (.inl ⟨hout.symm, by omega⟩)
      · rw [if_neg hc, if_neg hc] at hout
        refine .inr (.inr ⟨_, _, hout.symm, .notice (by rw [hinv.hist]; exact hmem) hd, by omega, ?_, rfl⟩)
        have h1 := summaryText_length name x.dropped
        have := h.nameLen
        simp only [summaryEntry]
        omega
    · simp only [hd, if_false] at hout
      by_cases hc : count < (e.view 2).length
      · rw [if_pos hc] at hout
        exact .inr (.inl ⟨hout.symm, by omega⟩)
      · rw [if_neg hc, if_neg hc] at hout
        exact .inr (.inr ⟨_, _, hout.symm, .ordinary (by rw [hinv.hist]; exact hmem), by omega, hwf, rfl⟩)

theorem check_result {name k buf ops s tr} (h : Run name k buf ops s tr) {fid : Nat} {all : Bool}
    (ho : OpenWith name tr fid all 2) {s' : Sys} {o : Out}
    (hs : Kernel.step s (.check fid) = .ok (s', o)) (e : Errno) : o ≠ .err e := by
  obtain ⟨r, hr, _, hv⟩ := ho
  obtain ⟨G, a, f, x, hrel, hinv, hname, hsz, hf, hfr, hx, hok⟩ := h.reader hr
  obtain ⟨hout, _⟩ := hrel.step rfl hs
  simp only [astep, hf, astepFile, hfr, if_true, hx] at hout
  intro hc
  rw [hc] at hout
  split at hout <;> cases hout

/-- What a non-blocking `read` on a reader with version 2 headers returns. -/
theorem sysRead_result {name k buf fid euid count} {t : List (Op × Out)} {r : RdRes}
    (hr : SysRead fid euid count t r) : ∀ {tr ops s all}, Run name k buf ops s (tr ++ t) →
    OpenWith name tr fid all 2 →
    OpenWith name (tr ++ t) fid all 2 ∧
    (r = .again ∨ (r = .inval ∧ count < 4100) ∨
      ∃ bs e, r = .data bs ∧ Delivered name (obs name (tr ++ t)).hist bs e ∧ bs.length ≤ count ∧
        e.payload.length ≤ 4076 ∧ bs = e.view 2) := by
  have rd : ∀ {tr t u v : List (Op × Out)} {ops s all} {o : Out}, Others fid t → Others fid u →
      Run name k buf ops s (tr ++ (t ++ (.check fid, .ready) :: u ++ [(.read fid euid count count, o)] ++ v)) →
      OpenWith name tr fid all 2 →
      OpenWith name (tr ++ (t ++ (.check fid, .ready) :: u ++ [(.read fid euid count count, o)])) fid all 2 ∧
      (o = .block ∨ (o = .err .einval ∧ count < 4100) ∨
      ∃ bs e, o = .data bs ∧ Delivered name (obs name (tr ++ (t ++ (.check fid, .ready) :: u ++
        [(.read fid euid count count, o)]))).hist bs e ∧ bs.length ≤ count ∧
        e.payload.length ≤ 4076 ∧ bs = e.view 2) := by
    intro tr t u v ops s all o ht hu h ho
    have h1 := (ho.others ht).step (p := (.check fid, .ready)) (.inr (.inr rfl))
    have h2 := h1.others hu
    have eq : tr ++ (t ++ (.check fid, .ready) :: u ++ [(.read fid euid count count, o)] ++ v) =
        (tr ++ t ++ [(.check fid, .ready)] ++ u) ++ (.read fid euid count count, o) :: v := by simp
    have eq2 : tr ++ (t ++ (.check fid, .ready) :: u ++ [(.read fid euid count count, o)]) =
        (tr ++ t ++ [(.check fid, .ready)] ++ u) ++ [(.read fid euid count count, o)] := by simp
    rw [eq] at h
    obtain ⟨s1, s2, hA, hB⟩ := h.cut_step
    rw [eq2]
    refine ⟨h2.step (.inr (.inl ⟨_, _, _, rfl⟩)), ?_⟩
    rcases read_result hA h2 hB with hc | hc | ⟨bs, e, c1, c2, c3⟩
    · exact .inl hc
    · exact .inr (.inl hc)
    · exact .inr (.inr ⟨bs, e, c1, c2.mono (obs_append_mono name _ _).1, c3⟩)
  have ck : ∀ {tr t : List (Op × Out)} {ops s all} {o : Out}, Others fid t →
      Run name k buf ops s (tr ++ (t ++ [(.check fid, o)])) →
      OpenWith name tr fid all 2 → OpenWith name (tr ++ (t ++ [(.check fid, o)])) fid all 2 ∧ ∀ e, o ≠ .err e := by
    intro tr t ops s all o ht h ho
    rw [← List.append_assoc] at h ⊢
    obtain ⟨s1, s2, hA, hB⟩ := h.cut_step
    exact ⟨(ho.others ht).step (.inr (.inr rfl)), check_result hA (ho.others ht) hB⟩
  induction hr with
  | again h => intro tr ops s all hrun ho; exact ⟨(ck h hrun ho).1, .inl rfl⟩
  | data h h' =>
    intro tr ops s all hrun ho
    obtain ⟨r1, r2⟩ := rd (v := []) h h' (by rw [List.append_nil]; exact hrun) ho
    refine ⟨r1, ?_⟩
    rcases r2 with hc | ⟨hc, _⟩ | ⟨bs, e, c1, c2⟩
    · cases hc
    · cases hc
    · injection c1 with c1
      subst c1
      exact .inr (.inr ⟨_, e, rfl, c2⟩)
  | inval h h' =>
    intro tr ops s all hrun ho
    obtain ⟨r1, r2⟩ := rd (v := []) h h' (by rw [List.append_nil]; exact hrun) ho
    refine ⟨r1, ?_⟩
    rcases r2 with hc | ⟨_, hc⟩ | ⟨bs, e, c1, c2⟩
    · cases hc
    · exact .inr (.inl ⟨rfl, hc⟩)
    · cases c1
  | other h h' he =>
    intro tr ops s all hrun ho
    obtain ⟨r1, r2⟩ := rd (v := []) h h' (by rw [List.append_nil]; exact hrun) ho
    rcases r2 with hc | ⟨hc, _⟩ | ⟨bs, e, c1, c2⟩
    · cases hc
    · injection hc with hc; exact absurd hc he
    · cases c1
  | closed h =>
    intro tr ops s all hrun ho
    exact absurd rfl ((ck h hrun ho).2 _)
  | start h h' hv ih =>
    rename_i t u v r
    intro tr ops s all hrun ho
    obtain ⟨r1, _⟩ := rd (v := v) h h' hrun ho
    rw [← List.append_assoc] at hrun ⊢
    exact ih hrun r1

/-! ## The frame -/

/-- How a decoded entry is received: binary entries are passed over unless the
output is CSV. -/
def recvRet (csv : Bool) (d : Decoded) : Int :=
  match d.msg with
  | .text _ => 1
  | .bin _ => if csv then 1 else 0

theorem afterRead_view {e : Entry} (hl : e.payload.length ≤ 4076) {f : RFrame} (csv : Bool)
    (hfit : (e.view 2).length ≤ f.mem.length) :
    ∃ x m', afterRead csv f (.data (e.view 2)) =
        some { ret := recvRet csv (decode (e.pid != e.tid) e.payload), frame := some { f with mem := m' }
               entry := some x, stamp := stampOf e.sec e.nsec, taken := 0 } ∧
      m'.length = f.mem.length ∧
      Shows m' 24 (e.view 2).length x (decode (e.pid != e.tid) e.payload) ∧
      x.pid = e.pid ∧ x.tid = e.tid ∧ x.sec = e.sec ∧ x.nsec = e.nsec := by
  have hvl : (e.view 2).length = 24 + e.payload.length := by
    simp only [Entry.view, Entry.encode, Entry.header]; simp; omega
  obtain ⟨m', x, h1, h2, h3, h4, h5, h6, h7⟩ :=
    parse_view (e := e) (by omega) (f.mem.drop (e.view 2).length)
  have hml : (e.view 2 ++ f.mem.drop (e.view 2).length).length = f.mem.length := by
    rw [List.length_append, List.length_drop]; omega
  generalize hbuf : e.view 2 ++ f.mem.drop (e.view 2).length = b at *
  have hv : b = le16 e.payload.length ++ le16 24 ++ le32 e.pid ++ le32 e.tid ++ le32 e.sec ++
      le32 e.nsec ++ le32 e.euid ++ (e.payload ++ f.mem.drop (e.view 2).length) := by
    rw [← hbuf]; simp [Entry.view, Entry.encode, Entry.header]
  have f0 : field16 b 0 = e.payload.length := by rw [hv]; exact unle16_le16 (by omega)
  have f2 : field16 b 2 = 24 := by rw [hv]; rfl
  obtain ⟨m2, x2, g1, g2⟩ := C17_parse b (by omega) (by rw [f0, f2]; omega)
  rw [g1] at h1
  injection h1 with h1
  injection h1 with e1 e2
  subst e1 e2
  have hout : ∀ i, i + 4 ≤ 24 → field32 m2 i = field32 b i := by
    intro i hi
    have ho : ∀ j, j < 24 → m2.getD j 0 = b.getD j 0 := by
      intro j hj
      rw [List.getD_eq_getElem?_getD, List.getD_eq_getElem?_getD, g2.outside j (.inl (by rw [f2]; exact hj))]
    unfold field32
    rw [ho i (by omega), ho (i + 1) (by omega), ho (i + 2) (by omega), ho (i + 3) (by omega)]
  refine ⟨x2, m2, ?_, by omega, by rw [hvl]; exact h3, h4, h5, h6, h7⟩
  unfold afterRead
  dsimp only
  rw [if_neg (by omega)]
  simp only [hbuf]
  rw [if_neg (by omega), rd16_eq (by omega), f0]
  simp only [Option.bind_eq_bind, Option.bind_some]
  rw [if_neg (by omega), g1]
  simp only [Option.bind_some]
  rw [rd32_eq (by omega), rd32_eq (by omega), rd32_eq (by omega), rd32_eq (by omega)]
  simp only [Option.bind_some, ite_self]
  rw [hout 12 (by omega), hout 16 (by omega), ← g2.sec, ← g2.nsec, h6, h7]
  have hret : (if (x2.isBinary && !csv) = true then (0 : Int) else 1) =
      recvRet csv (decode (e.pid != e.tid) e.payload) := by
    have := h3.msg
    unfold recvRet
    cases hm : (decode (e.pid != e.tid) e.payload).msg with
    | text s => rw [hm] at this; rw [this.1]; rfl
    | bin s => rw [hm] at this; rw [this.1]; cases csv <;> rfl
  rw [hret]
  rfl

/-! ## C84 -/

/-- The time of an entry in microseconds, as 64 bits: seconds are signed, and a
negative number of nanoseconds counts as a large one. -/
def micros (sec nsec : UInt32) : Nat :=
  let s : Int := if sec.toNat < 2 ^ 31 then sec.toNat else (sec.toNat : Int) - 2 ^ 32
  let n : Int := if nsec.toNat < 2 ^ 31 then nsec.toNat else (nsec.toNat : Int) - 2 ^ 32 + 2 ^ 64
  ((s * 1000000 + n / 1000).emod (2 ^ 64)).toNat

theorem stampOf_eq (sec nsec : UInt32) : stampOf sec nsec = micros sec nsec := by
  unfold stampOf micros sext64
  have h1 := sec.toNat_lt
  have h2 := nsec.toNat_lt
  dsimp only
  rw [show (2 : Nat) ^ 64 = 18446744073709551616 from rfl, show (2 : Nat) ^ 32 = 4294967296 from rfl,
    show (2 : Nat) ^ 31 = 2147483648 from rfl, show (2 : Int) ^ 64 = 18446744073709551616 from rfl,
    show (2 : Int) ^ 32 = 4294967296 from rfl] at *
  change _ = ((_ : Int) % 18446744073709551616).toNat
  split <;> split <;> omega

/-- The viewer received entry `e`, which it has as bytes `bs`, with result `o`. -/
structure Received (csv : Bool) (bs : Bytes) (e : Entry) (o : RecvOut) : Prop where
  ret : o.ret = recvRet csv (decode (e.pid != e.tid) e.payload)
  stamp : o.stamp = micros e.sec e.nsec
  /-- the mark is not moved, whatever was read -/
  taken : o.taken = 0
  frame : ∃ fr x, o.frame = some fr ∧ o.entry = some x ∧ bs.length ≤ fr.mem.length ∧
    Shows fr.mem 24 bs.length x (decode (e.pid != e.tid) e.payload) ∧
    x.pid = e.pid ∧ x.tid = e.tid ∧ x.sec = e.sec ∧ x.nsec = e.nsec

/-- C84. `ulog_receive_entry` with a frame as it is handed out, on an open
reader, whatever others do with the device meanwhile: every access is inside the
frame buffer; it fails only when memory for a larger buffer is refused; it
returns 0 with nothing decoded only when nothing was there to read; otherwise it
has decoded a committed entry or a loss notice. -/
theorem C84_receive {name k buf ops s} {tr t1 t2 : List (Op × Out)} {fid : Nat} {all : Bool} {euid : UInt32}
    {f : RFrame} {r1 r2 : RdRes}
    (hrun : Run name k buf ops s (tr ++ t1 ++ t2)) (ho : OpenWith name tr fid all 2) (hf : f.fresh)
    (h1 : SysRead fid euid frameSize t1 r1)
    (alloc csv : Bool) (fresh : Nat → UInt8)
    (h2 : if retries f r1 && alloc then SysRead fid euid entryMax t2 r2 else t2 = []) :
    ∃ o, receive alloc csv fresh f r1 r2 = some o ∧
      (o.ret = -1 ↔ retries f r1 = true ∧ alloc = false) ∧
      o.taken = 0 ∧
      (o.entry = none → o.ret = 0 → r1 = .again ∨ r2 = .again) ∧
      (o.entry ≠ none → ∃ bs e, Delivered name (obs name (tr ++ t1 ++ t2)).hist bs e ∧ Received csv bs e o ∧
        (r1 = .data bs ∨ (retries f r1 = true ∧ r2 = .data bs))) := by
  obtain ⟨hfb, hfl⟩ := hf
  have nneg : ∀ d, recvRet csv d ≠ -1 := by
    intro d; unfold recvRet; split
    · decide
    · split <;> decide
  obtain ⟨s1, hrun1, _⟩ := hrun.cut
  obtain ⟨ho1, hr1⟩ := sysRead_result h1 hrun1 ho
  have hm := (obs_append_mono name (tr ++ t1) t2).1
  rcases hr1 with hr1 | ⟨hr1, _⟩ | ⟨bs, e, hr1, hd, hlen, hpl, hbs⟩
  · -- nothing to read
    subst hr1
    have hre : retries f .again = false := by simp [retries]
    refine ⟨_, by unfold receive; rw [hre]; rfl, ?_, rfl, fun _ _ => .inl rfl, fun h => absurd rfl h⟩
    simp [hre]
  · -- too small
    subst hr1
    have hre : retries f .inval = true := by simp [retries, hfb]
    rw [hre] at h2 ⊢
    cases alloc with
    | false =>
      refine ⟨_, by unfold receive; rw [hre]; rfl, by simp, rfl, ?_, fun h => absurd rfl h⟩
      intro _ h; simp at h
    | true =>
      simp only [Bool.and_self, if_true] at h2
      obtain ⟨_, hr2⟩ := sysRead_result h2 hrun ho1
      rcases hr2 with hr2 | ⟨hr2, hc⟩ | ⟨bs, e, hr2, hd, hlen, hpl, hbs⟩
      · subst hr2
        refine ⟨_, by unfold receive; rw [hre]; rfl, by simp, rfl, fun _ _ => .inr rfl, fun h => absurd rfl h⟩
      · exact absurd hc (by decide)
      · subst hr2
        obtain ⟨x, m', ha, hml, hb, hc⟩ := afterRead_view hpl (f := { big := true, mem := (List.range entryMax).map fresh })
          csv (by rw [← hbs]; simpa using hlen)
        rw [← hbs] at ha
        refine ⟨_, by unfold receive; rw [hre]; exact ha, ?_, rfl, fun h => by simp at h, fun _ => ?_⟩
        · simp [nneg]
        · refine ⟨bs, e, hd, ⟨rfl, stampOf_eq _ _, rfl, _, x, rfl, rfl, by dsimp only; rw [hml]; simpa using hlen, ?_, hc⟩, .inr ⟨rfl, rfl⟩⟩
          rw [hbs]; exact hb
  · subst hr1
    have hre : retries f (.data bs) = false := by simp [retries]
    obtain ⟨x, m', ha, hml, hb, hc⟩ := afterRead_view hpl (f := f) csv (by rw [← hbs]; omega)
    rw [← hbs] at ha
    refine ⟨_, by unfold receive; rw [hre]; exact ha, ?_, rfl, fun h => by simp at h, fun _ => ?_⟩
    · simp [nneg, hre]
    · refine ⟨bs, e, hd.mono hm, ⟨rfl, stampOf_eq _ _, rfl, _, x, rfl, rfl, by dsimp only; omega, ?_, hc⟩, .inl rfl⟩
      rw [hbs]; exact hb

/-! ## C85 -/

/-- The reader sees everything, with version 2 headers, and has accounted for
the first `p` committed entries (by a flush, by receiving them or by a notice). -/
def At (name : Bytes) (tr : List (Op × Out)) (fid p : Nat) : Prop :=
  ∃ r, (obs name tr).rds fid = some r ∧ r.all = true ∧ r.ver = 2 ∧ (obs name tr).base + r.got + r.told = p

/-- Nobody flushes. -/
def NoFlush (t : List (Op × Out)) : Prop := ∀ p ∈ t, ∀ g, p ≠ (.flush g, .ok)

theorem At.openWith {name tr fid p} (h : At name tr fid p) : OpenWith name tr fid true 2 := by
  obtain ⟨r, h1, h2, h3, _⟩ := h
  exact ⟨r, h1, h2, h3⟩

theorem At.step {name tr fid p} (h : At name tr fid p) {q : Op × Out} (hf : ∀ g, q ≠ (.flush g, .ok))
    (hq : q.1.fid ≠ fid ∨ q.1 = .check fid ∨ ((∃ e c u, q.1 = .read fid e c u) ∧ ∀ bs, q.2 ≠ .data bs) ∨
      (∃ e, q.1 = .poll fid e) ∨ q.1 = .getLogLen fid) :
    At name (tr ++ [q]) fid p := by
  obtain ⟨r, h1, h2, h3, h4⟩ := h
  unfold At
  rw [obs_snoc]
  generalize obs name tr = o at h1 h4
  obtain ⟨op, out⟩ := q
  simp only at hq
  have own : ∀ {X : Op}, op = X → X.fid = fid → X ≠ .check fid → (∀ e c u, X ≠ .read fid e c u) →
      (∀ e, X ≠ .poll fid e) → X ≠ .getLogLen fid → False := by
    intro X e1 e2 e3 e4 e5 e6
    subst e1
    rcases hq with hq | hq | ⟨⟨_, _, _, hq⟩, _⟩ | ⟨_, hq⟩ | hq
    · exact hq e2
    · exact e3 hq
    · exact e4 _ _ _ hq
    · exact e5 _ hq
    · exact e6 hq
  unfold obsStep
  split <;> rename_i heq <;> simp only [Prod.mk.injEq] at heq
  case h_1 g _ _ _ =>
    by_cases hg : fid = g
    · exact (own heq.1 hg.symm (by simp) (by simp) (by simp) (by simp)).elim
    · exact ⟨r, by simp only [upd]; rw [if_neg hg]; exact h1, h2, h3, h4⟩
  case h_2 g =>
    by_cases hg : fid = g
    · exact (own heq.1 hg.symm (by simp) (by simp) (by simp) (by simp)).elim
    · exact ⟨r, by simp only [upd]; rw [if_neg hg]; exact h1, h2, h3, h4⟩
  case h_3 => exact ⟨r, h1, h2, h3, h4⟩
  case h_4 g _ =>
    by_cases hg : fid = g
    · exact (own heq.1 hg.symm (by simp) (by simp) (by simp) (by simp)).elim
    · exact ⟨r, by simp only [upd]; rw [if_neg hg]; exact h1, h2, h3, h4⟩
  case h_5 g => exact absurd (by rw [heq.1, heq.2]) (hf g)
  case h_6 =>
    split
    · split <;> exact ⟨r, h1, h2, h3, h4⟩
    · exact ⟨r, h1, h2, h3, h4⟩
  case h_7 g _ _ _ bs =>
    by_cases hg : fid = g
    · rcases hq with hq | hq | ⟨_, hq⟩ | ⟨_, hq⟩ | hq
      · rw [heq.1] at hq; exact absurd hg.symm hq
      · rw [heq.1] at hq; cases hq
      · exact absurd heq.2 (hq bs)
      · rw [heq.1] at hq; cases hq
      · rw [heq.1] at hq; cases hq
    · exact ⟨r, by simp only [upd]; rw [if_neg hg]; exact h1, h2, h3, h4⟩
  case h_8 => exact ⟨r, h1, h2, h3, h4⟩

theorem At.others {name fid p} {t : List (Op × Out)} (ht : Others fid t) (hf : NoFlush t) :
    ∀ {tr}, At name tr fid p → At name (tr ++ t) fid p := by
  induction t with
  | nil => intro tr h; rw [List.append_nil]; exact h
  | cons q t ih =>
    intro tr h
    rw [show tr ++ q :: t = (tr ++ [q]) ++ t by simp]
    exact ih (fun x hx => ht x (by simp [hx])) (fun x hx => hf x (by simp [hx]))
      (h.step (hf q (by simp)) (.inl (ht q (by simp))))

/-- Each of the `n` entries from number `p` on has been followed (itself included) by more
than `size` - 8200 bytes. -/
def Old (size : Nat) (hist : List Entry) (p n : Nat) : Prop :=
  ∀ q, p ≤ q → q < p + n → size < bytesLen (hist.drop q) + 8200

theorem Old.mono {size hist hist' p n} (h : Old size hist p n) (hp : hist <+: hist') : Old size hist' p n := by
  intro q h1 h2
  obtain ⟨r, rfl⟩ := hp
  have := h q h1 h2
  rw [List.drop_append, bytesLen_append]
  omega

/-- What entry or notice comes next, and where the reader stands afterwards; a notice
only for entries that are old. -/
inductive Next (name : Bytes) (size : Nat) (hist : List Entry) : Nat → Bytes → Entry → Nat → Prop
  | entry {p e} (h : hist[p]? = some e) : Next name size hist p (e.view 2) e (p + 1)
  | lost {p n e} (hn : 0 < n) (ho : Old size hist p n) (h : hist[p + n]? = some e) :
      Next name size hist p ((summaryEntry name n e).view 2) (summaryEntry name n e) (p + n)

theorem prefix_get {α} {l l' : List α} (hp : l <+: l') {i : Nat} {x : α} (h : l[i]? = some x) : l'[i]? = some x := by
  obtain ⟨r, rfl⟩ := hp
  rw [List.getElem?_append_left (List.getElem?_eq_some_iff.mp h).1]
  exact h

theorem Next.mono {name hist hist' p bs e q} (h : Next name size hist p bs e q) (hp : hist <+: hist') :
    Next name size hist' p bs e q := by
  cases h with
  | entry h => exact .entry (prefix_get hp h)
  | lost hn ho h => exact .lost hn (ho.mono hp) (prefix_get hp h)

theorem read_next {name k buf ops s tr} (h : Run name k buf ops s tr) {fid p : Nat} (ha : At name tr fid p)
    {euid : UInt32} {count : Nat} {s' : Sys} {bs : Bytes}
    (hs : Kernel.step s (.read fid euid count count) = .ok (s', .data bs)) :
    ∃ e q, Next name (2 ^ k) (obs name tr).hist p bs e q ∧ e.payload.length ≤ 4076 ∧ bs.length ≤ count ∧
      At name (tr ++ [(.read fid euid count count, .data bs)]) fid q := by
  have hop := ha.openWith
  obtain ⟨r, hr, hall, hv, hp⟩ := ha
  obtain ⟨G, a, f, x, hrel, hinv, hname, hsz, hf, hfr, hx, hok⟩ := h.reader hr
  obtain ⟨hout, _⟩ := hrel.step rfl hs
  rw [astep_read hf hfr hx] at hout
  simp only at hout
  obtain ⟨k1, k2, k3, k4, k5, k6⟩ := hok
  have hxall : x.all = true := by rw [← k1]; exact hall
  have hk := (k6 hxall).1
  have hcnt := h.count
  rw [hinv.hist] at hcnt
  unfold aread at hout
  simp only [askip_all hxall] at hout
  cases hen : a.log.hist[x.idx]? with
  | none => rw [hen] at hout; cases hout
  | some e =>
    rw [hen] at hout
    simp only at hout
    have hmem : e ∈ a.log.hist := List.mem_of_getElem? hen
    rw [← k2, hv, hname] at hout
    by_cases hd : x.dropped > 0
    · simp only [hd, if_true] at hout
      by_cases hc : count < ((summaryEntry name x.dropped e).view 2).length
      · rw [if_pos hc] at hout; cases hout
      · rw [if_neg hc, if_neg hc] at hout
        injection hout with hout
        subst hout
        refine ⟨_, p + x.dropped, .lost hd ?_ ?_, ?_, by omega, ?_⟩
        · intro q hq1 hq2
          have := (k6 hxall).2 q (by omega) (by omega)
          rw [hsz] at this
          rw [hinv.hist]; exact this
        · rw [hinv.hist, ← hp, ← hk]; exact hen
        · have h1 := summaryText_length name x.dropped
          have := h.nameLen
          simp only [summaryEntry]
          omega
        · unfold At
          rw [obs_snoc]
          have hnot : isNotice ((summaryEntry name x.dropped e).view 2) = true :=
            (isNotice_view_iff _ _).mpr ⟨rfl, rfl⟩
          have hnc : noticeCount name 2 ((summaryEntry name x.dropped e).view 2) = x.dropped :=
            noticeCount_view (by omega)
          simp only [obsStep, upd, if_true, hr, Option.map_some, hnot]
          exact ⟨_, rfl, hall, hv, by simp only [hv, hnc]; omega⟩
    · simp only [hd, if_false] at hout
      by_cases hc : count < (e.view 2).length
      · rw [if_pos hc] at hout; cases hout
      · rw [if_neg hc, if_neg hc] at hout
        injection hout with hout
        subst hout
        refine ⟨_, p + 1, .entry ?_, hrel.log.wf e hmem, by omega, ?_⟩
        · rw [hinv.hist, ← hp]
          have : (obs name tr).base + r.got + r.told = x.idx := by omega
          rw [this]; exact hen
        · unfold At
          rw [obs_snoc]
          have hnot : isNotice (e.view 2) = false := by
            cases hn : isNotice (e.view 2) with
            | false => rfl
            | true =>
              exact absurd ((isNotice_view_iff e 2).mp hn) (h.genuine e (by rw [hinv.hist]; exact hmem))
          simp only [obsStep, upd, if_true, hr, Option.map_some, hnot, Bool.false_eq_true, if_false]
          exact ⟨_, rfl, hall, hv, by dsimp only; omega⟩

/-- A reader that stands at the end of the log missed nothing it was not told of. -/
theorem at_end {name k buf ops s tr} (h : Run name k buf ops s tr) {fid p : Nat} (ha : At name tr fid p)
    {op : Op} {s' : Sys} {o : Out} (hs : Kernel.step s op = .ok (s', o))
    (ho : op = .check fid ∧ o = .block ∨ (∃ euid, op = .poll fid euid ∧ o = .poll false) ∨
      op = .getLogLen fid ∧ o = .ret 0) : p = (obs name tr).hist.length := by
  obtain ⟨r, hr, hall, hv, hp⟩ := ha
  obtain ⟨G, a, f, x, hrel, hinv, hname, hsz, hf, hfr, hx, hok⟩ := h.reader hr
  obtain ⟨k1, k2, k3, k4, k5, k6⟩ := hok
  obtain ⟨hk, hlost⟩ := k6 (by rw [← k1]; exact hall)
  have hi : x.idx = a.log.hist.length := by
    rcases ho with ⟨rfl, rfl⟩ | ⟨euid, rfl, rfl⟩ | ⟨rfl, rfl⟩
    · obtain ⟨hout, _⟩ := hrel.step rfl hs
      simp only [astep, hf, astepFile, hfr, if_true, hx] at hout
      by_cases hi : x.idx = a.log.hist.length
      · exact hi
      · rw [if_neg hi] at hout; cases hout
    · obtain ⟨hout, _⟩ := hrel.step rfl hs
      simp only [astep, hf, astepFile, hfr, if_true, hx, Out.poll.injEq] at hout
      rw [askip_all (by rw [← k1]; exact hall)] at hout
      simpa using hout
    · obtain ⟨hout, _⟩ := hrel.step rfl hs
      simp only [astep, hf, astepFile, hfr, if_true, hx, Out.ret.injEq] at hout
      rcases Nat.lt_or_ge x.idx a.log.hist.length with hl | hl
      · rw [List.drop_eq_getElem_cons hl] at hout
        simp only [bytesLen, List.map_cons, List.sum_cons, Entry.size] at hout
        omega
      · omega
  rw [hinv.hist]
  by_cases hd : x.dropped = 0
  · omega
  · have hlen : x.idx ≠ 0 := by omega
    have := hlost (x.idx - 1) (by omega) (by omega)
    have hb : bytesLen (a.log.hist.drop (x.idx - 1)) ≤ 4100 := by
      rw [List.drop_eq_getElem_cons (by omega), List.drop_of_length_le (by omega)]
      have hw : (a.log.hist[x.idx - 1]'(by omega)).payload.length ≤ 4076 := hrel.log.wf _ (List.getElem_mem _)
      simp only [bytesLen, List.map_cons, List.map_nil, List.sum_cons, List.sum_nil, Entry.size]
      omega
    have := hinv.size
    omega

/-- When a read finds nothing, everything committed is accounted for. -/
theorem check_end {name k buf ops s tr} (h : Run name k buf ops s tr) {fid p : Nat} (ha : At name tr fid p)
    {s' : Sys} (hs : Kernel.step s (.check fid) = .ok (s', .block)) : p = (obs name tr).hist.length :=
  at_end h ha hs (.inl ⟨rfl, rfl⟩)

/-- A non-blocking read in terms of positions. -/
theorem sysRead_next {name k buf fid euid count} {t : List (Op × Out)} {r : RdRes}
    (hr : SysRead fid euid count t r) : ∀ {tr ops s p}, Run name k buf ops s (tr ++ t) → NoFlush t →
    At name tr fid p →
    (r = .again ∧ At name (tr ++ t) fid p ∧ p = (obs name (tr ++ t)).hist.length) ∨
    (r = .inval ∧ At name (tr ++ t) fid p ∧ count < 4100) ∨
    ∃ bs e q, r = .data bs ∧ Next name (2 ^ k) (obs name (tr ++ t)).hist p bs e q ∧ bs.length ≤ count ∧
        e.payload.length ≤ 4076 ∧ At name (tr ++ t) fid q := by
  induction hr with
  | again h =>
    rename_i t
    intro tr ops s p hrun hf ha
    have hft : NoFlush t := fun x hx => hf x (by simp [hx])
    rw [← List.append_assoc] at hrun ⊢
    obtain ⟨s1, s2, hA, hB⟩ := hrun.cut_step
    have h1 := ha.others h hft
    refine .inl ⟨rfl, h1.step (by simp) (.inr (.inl rfl)), ?_⟩
    rw [check_end hA h1 hB, obs_snoc]
    rfl
  | data h h' =>
    rename_i t u bs
    intro tr ops s p hrun hf ha
    have hft : NoFlush t := fun x hx => hf x (by simp [hx])
    have hfu : NoFlush u := fun x hx => hf x (by simp [hx])
    have eq : tr ++ (t ++ (.check fid, .ready) :: u ++ [(.read fid euid count count, .data bs)]) =
        (tr ++ t ++ [(.check fid, .ready)] ++ u) ++ [(.read fid euid count count, .data bs)] := by simp
    rw [eq] at hrun ⊢
    obtain ⟨s1, s2, hA, hB⟩ := hrun.cut_step
    have h1 := ((ha.others h hft).step (q := (.check fid, .ready)) (by simp) (.inr (.inl rfl))).others h' hfu
    obtain ⟨e, q, n1, n2, n3, n4⟩ := read_next hA h1 hB
    exact .inr (.inr ⟨bs, e, q, rfl, n1.mono (obs_append_mono name _ _).1, n3, n2, n4⟩)
  | inval h h' =>
    rename_i t u
    intro tr ops s p hrun hf ha
    have hft : NoFlush t := fun x hx => hf x (by simp [hx])
    have hfu : NoFlush u := fun x hx => hf x (by simp [hx])
    have hr2 := (sysRead_result (SysRead.inval h h') hrun ha.openWith).2
    have eq : tr ++ (t ++ (.check fid, .ready) :: u ++ [(.read fid euid count count, .err .einval)]) =
        (tr ++ t ++ [(.check fid, .ready)] ++ u) ++ [(.read fid euid count count, .err .einval)] := by simp
    rw [eq]
    have h1 := ((ha.others h hft).step (q := (.check fid, .ready)) (by simp) (.inr (.inl rfl))).others h' hfu
    refine .inr (.inl ⟨rfl, h1.step (by simp) (.inr (.inr (.inl ⟨⟨_, _, _, rfl⟩, by simp⟩))), ?_⟩)
    rcases hr2 with hc | ⟨_, hc⟩ | ⟨_, _, hc, _⟩
    · cases hc
    · exact hc
    · cases hc
  | other h h' he =>
    intro tr ops s p hrun hf ha
    rcases (sysRead_result (SysRead.other h h' he) hrun ha.openWith).2 with hc | ⟨hc, _⟩ | ⟨_, _, hc, _⟩ <;> cases hc
  | closed h =>
    intro tr ops s p hrun hf ha
    rcases (sysRead_result (SysRead.closed (euid := euid) (count := count) h) hrun ha.openWith).2 with hc | ⟨hc, _⟩ | ⟨_, _, hc, _⟩ <;> cases hc
  | start h h' hv ih =>
    rename_i t u v r
    intro tr ops s p hrun hf ha
    have hft : NoFlush t := fun x hx => hf x (by simp [hx])
    have hfu : NoFlush u := fun x hx => hf x (by simp [hx])
    have hfv : NoFlush v := fun x hx => hf x (by simp [hx])
    have eq : tr ++ (t ++ (.check fid, .ready) :: u ++ [(.read fid euid count count, .block)] ++ v) =
        (tr ++ t ++ [(.check fid, .ready)] ++ u ++ [(.read fid euid count count, .block)]) ++ v := by simp
    rw [eq] at hrun ⊢
    have h1 := ((ha.others h hft).step (q := (.check fid, .ready)) (by simp) (.inr (.inl rfl))).others h' hfu
    exact ih hrun hfv (h1.step (q := (.read fid euid count count, .block)) (by simp)
      (.inr (.inr (.inl ⟨⟨_, _, _, rfl⟩, by simp⟩))))

/-- What a viewer does with one device: it calls `ulog_receive_entry` again and
again, each time with a frame from the pool, and may poll the device in between,
while others use it. The
trace, and the outcomes of the calls. -/
inductive Viewing (fid : Nat) (euid : UInt32) (csv : Bool) : List (Op × Out) → List RecvOut → Prop
  | nil : Viewing fid euid csv [] []
  | idle {t v os} (h : Others fid t) (hv : Viewing fid euid csv v os) : Viewing fid euid csv (t ++ v) os
  /-- it asks whether the device is readable -/
  | poll {b v os} (hv : Viewing fid euid csv v os) : Viewing fid euid csv ((.poll fid euid, .poll b) :: v) os
  | call {t1 t2 v f r1 r2 alloc fresh o os} (hf : f.fresh) (h1 : SysRead fid euid frameSize t1 r1)
      (h2 : if retries f r1 && alloc then SysRead fid euid entryMax t2 r2 else t2 = [])
      (ho : receive alloc csv fresh f r1 r2 = some o) (hv : Viewing fid euid csv v os) :
      Viewing fid euid csv (t1 ++ t2 ++ v) (o :: os)

/-- From position `p` to position `q` of the committed entries: every entry was
received in its place, or a notice tells how many were lost there, all of them old. -/
inductive Follows (name : Bytes) (size : Nat) (hist : List Entry) (csv : Bool) : Nat → List RecvOut → Nat → Prop
  | nil {p} : Follows name size hist csv p [] p
  /-- a call that got nothing -/
  | none {p o os q} (h : o.entry = Option.none ∧ o.ret ≤ 0) (hf : Follows name size hist csv p os q) : Follows name size hist csv p (o :: os) q
  | entry {p e o os q} (h : hist[p]? = some e) (hr : Received csv (e.view 2) e o)
      (hf : Follows name size hist csv (p + 1) os q) : Follows name size hist csv p (o :: os) q
  | lost {p n e o os q} (hn : 0 < n) (ho : Old size hist p n) (h : hist[p + n]? = some e)
      (hr : Received csv ((summaryEntry name n e).view 2) (summaryEntry name n e) o)
      (hf : Follows name size hist csv (p + n) os q) : Follows name size hist csv p (o :: os) q

theorem follows_next {name size hist csv p bs e q o os q'} (hn : Next name size hist p bs e q) (hr : Received csv bs e o)
    (hf : Follows name size hist csv q os q') : Follows name size hist csv p (o :: os) q' := by
  cases hn with
  | entry h => exact .entry h hr hf
  | lost h0 ho h => exact .lost h0 ho h hr hf

theorem Follows.mono {name size hist hist' csv p os q} (hf : Follows name size hist csv p os q) (hm : hist <+: hist') :
    Follows name size hist' csv p os q := by
  induction hf with
  | nil => exact .nil
  | none h _ ih => exact .none h ih
  | entry h hr _ ih => exact .entry (prefix_get hm h) hr ih
  | lost hn ho h hr _ ih => exact .lost hn (ho.mono hm) (prefix_get hm h) hr ih

theorem Follows.append {name size hist csv p os q os' q'} (h : Follows name size hist csv p os q)
    (h' : Follows name size hist csv q os' q') : Follows name size hist csv p (os ++ os') q' := by
  induction h with
  | nil => exact h'
  | none h _ ih => exact .none h (ih h')
  | entry h hr _ ih => exact .entry h hr (ih h')
  | lost hn ho h hr _ ih => exact .lost hn ho h hr (ih h')

theorem Follows.le {name size hist csv p os q} (h : Follows name size hist csv p os q) : p ≤ q := by
  induction h with
  | nil => omega
  | none h _ ih => omega
  | entry h hr _ ih => omega
  | lost hn ho h hr _ ih => omega

theorem Viewing.append {fid euid csv t os t' os'} (h : Viewing fid euid csv t os) (h' : Viewing fid euid csv t' os') :
    Viewing fid euid csv (t ++ t') (os ++ os') := by
  induction h with
  | nil => exact h'
  | idle h hv ih => rw [List.append_assoc]; exact .idle h ih
  | poll hv ih => exact .poll ih
  | call hf h1 h2 ho hv ih => rw [List.append_assoc, List.cons_append]; exact .call hf h1 h2 ho ih

theorem viewing_follows {name k buf fid euid csv} {t : List (Op × Out)} {os : List RecvOut}
    (hv : Viewing fid euid csv t os) : ∀ {tr ops s p}, Run name k buf ops s (tr ++ t) → NoFlush t →
    At name tr fid p →
    ∃ q, At name (tr ++ t) fid q ∧ Follows name (2 ^ k) (obs name (tr ++ t)).hist csv p os q := by
  induction hv with
  | nil => intro tr ops s p _ _ ha; rw [List.append_nil]; exact ⟨p, ha, .nil⟩
  | idle h hv ih =>
    rename_i t v os
    intro tr ops s p hrun hf ha
    rw [← List.append_assoc] at hrun ⊢
    exact ih hrun (fun x hx => hf x (by simp [hx])) (ha.others h fun x hx => hf x (by simp [hx]))
  | poll hv ih =>
    rename_i b v os
    intro tr ops s p hrun hf ha
    rw [show tr ++ (Op.poll fid euid, Out.poll b) :: v = tr ++ [(.poll fid euid, .poll b)] ++ v by simp] at hrun ⊢
    exact ih hrun (fun x hx => hf x (by simp [hx]))
      (ha.step (by simp) (.inr (.inr (.inr (.inl ⟨_, rfl⟩)))))
  | call hfr h1 h2 ho hv ih =>
    rename_i t1 t2 v f r1 r2 alloc fresh o os
    intro tr ops s p hrun hf ha
    have hf1 : NoFlush t1 := fun x hx => hf x (by simp [hx])
    have hf2 : NoFlush t2 := fun x hx => hf x (by simp [hx])
    have hfv : NoFlush v := fun x hx => hf x (by simp [hx])
    have eq : tr ++ (t1 ++ t2 ++ v) = tr ++ t1 ++ t2 ++ v := by simp
    rw [eq] at hrun ⊢
    obtain ⟨s2, hrun2, _⟩ := hrun.cut
    obtain ⟨s1, hrun1, _⟩ := hrun2.cut
    obtain ⟨hfb, hfl⟩ := hfr
    have hm2 := (obs_append_mono name (tr ++ t1 ++ t2) v).1
    have hm1 := (obs_append_mono name (tr ++ t1) t2).1.trans hm2
    rcases sysRead_next h1 hrun1 hf1 ha with ⟨hr1, ha1, _⟩ | ⟨hr1, ha1, _⟩ | ⟨bs, e, q, hr1, hn, hlen, hpl, ha1⟩
    · subst hr1
      have hre : retries f .again = false := by simp [retries]
      simp only [hre, Bool.false_and, Bool.false_eq_true, if_false] at h2
      subst h2
      rw [List.append_nil] at hrun ⊢
      obtain ⟨q, g1, g2⟩ := ih hrun hfv ha1
      refine ⟨q, g1, .none ?_ g2⟩
      simp only [receive, hre, Bool.false_eq_true, if_false, afterRead, Option.some.injEq] at ho
      rw [← ho]
      exact ⟨rfl, by dsimp only; decide⟩
    · subst hr1
      have hre : retries f .inval = true := by simp [retries, hfb]
      cases alloc with
      | false =>
        simp only [Bool.and_false, Bool.false_eq_true, if_false] at h2
        subst h2
        rw [List.append_nil] at hrun ⊢
        obtain ⟨q, g1, g2⟩ := ih hrun hfv ha1
        refine ⟨q, g1, .none ?_ g2⟩
        simp only [receive, hre, if_true, Bool.false_eq_true, if_false, Option.some.injEq] at ho
        rw [← ho]
        exact ⟨rfl, by dsimp only; decide⟩
      | true =>
        simp only [hre, Bool.and_self, if_true] at h2
        simp only [receive, hre, if_true] at ho
        rcases sysRead_next h2 hrun2 hf2 ha1 with ⟨hr2, ha2, _⟩ | ⟨_, _, hc⟩ | ⟨bs, e, q, hr2, hn, hlen, hpl, ha2⟩
        · subst hr2
          obtain ⟨q, g1, g2⟩ := ih hrun hfv ha2
          refine ⟨q, g1, .none ?_ g2⟩
          simp only [afterRead, Option.some.injEq] at ho
          rw [← ho]
          exact ⟨rfl, by dsimp only; decide⟩
        · exact absurd hc (by decide)
        · subst hr2
          have hbs : bs = e.view 2 := by cases hn <;> rfl
          obtain ⟨x, m', e1, hml, e3, e4⟩ := afterRead_view hpl
            (f := { big := true, mem := (List.range entryMax).map fresh }) csv (by rw [← hbs]; simpa using hlen)
          rw [← hbs, ho] at e1
          injection e1 with e1
          obtain ⟨q', g1, g2⟩ := ih hrun hfv ha2
          refine ⟨q', g1, follows_next (hn.mono hm2) ?_ g2⟩
          rw [e1]
          exact ⟨rfl, stampOf_eq _ _, rfl, _, x, rfl, rfl, by dsimp only; rw [hml]; simpa using hlen, by rw [hbs]; exact e3, e4⟩
    · subst hr1
      have hre : retries f (.data bs) = false := by simp [retries]
      simp only [hre, Bool.false_and, Bool.false_eq_true, if_false] at h2
      subst h2
      rw [List.append_nil] at hrun ⊢
      have hbs : bs = e.view 2 := by cases hn <;> rfl
      obtain ⟨x, m', e1, hml, e3, e4⟩ := afterRead_view hpl (f := f) csv (by rw [← hbs]; omega)
      simp only [receive, hre, Bool.false_eq_true, if_false] at ho
      rw [← hbs, ho] at e1
      injection e1 with e1
      obtain ⟨q', g1, g2⟩ := ih hrun hfv ha1
      rw [List.append_nil] at hm2
      refine ⟨q', g1, follows_next (hn.mono hm2) ?_ g2⟩
      rw [e1]
      exact ⟨rfl, stampOf_eq _ _, rfl, _, x, rfl, rfl, by dsimp only; omega, by rw [hbs]; exact e3, e4⟩

/-- C85. Between flushes, a viewer that may see everything and calls
`ulog_receive_entry` on a device, whatever others do with the device in between,
receives the committed entries in order, and for those it misses a notice with
their exact number in their place; it misses only entries followed by more than the size of
the ring less 8200 bytes. -/
theorem C85_session {name k buf ops s} {tr t : List (Op × Out)} {fid p : Nat} {euid : UInt32} {csv : Bool}
    {os : List RecvOut} (hrun : Run name k buf ops s (tr ++ t)) (ha : At name tr fid p) (hnf : NoFlush t)
    (hv : Viewing fid euid csv t os) :
    ∃ q, At name (tr ++ t) fid q ∧ q ≤ (obs name (tr ++ t)).hist.length ∧
      Follows name (2 ^ k) (obs name (tr ++ t)).hist csv p os q := by
  obtain ⟨q, h1, h2⟩ := viewing_follows hv hrun hnf ha
  refine ⟨q, h1, ?_, h2⟩
  obtain ⟨r, hr, hall, hv, hp⟩ := h1
  obtain ⟨G, a, f, x, hrel, hinv, hname, hsz, hf, hfr, hx, k1, k2, k3, k4, k5, k6⟩ := hrun.reader hr
  rw [hinv.hist]
  omega

/-- C85, end. When a last call finds nothing to read, every entry committed so
far has been received or counted as lost. -/
theorem C85_complete {name k buf ops s} {tr t u : List (Op × Out)} {fid p : Nat} {euid : UInt32} {csv : Bool}
    {os : List RecvOut} {count : Nat} (hrun : Run name k buf ops s (tr ++ (t ++ u))) (ha : At name tr fid p)
    (hnf : NoFlush (t ++ u)) (hv : Viewing fid euid csv t os) (hu : SysRead fid euid count u .again) :
    Follows name (2 ^ k) (obs name (tr ++ (t ++ u))).hist csv p os (obs name (tr ++ (t ++ u))).hist.length := by
  rw [← List.append_assoc] at hrun ⊢
  obtain ⟨s1, hrun1, _⟩ := hrun.cut
  obtain ⟨q, h1, h2⟩ := viewing_follows hv hrun1 (fun x hx => hnf x (by simp [hx])) ha
  have hm := (obs_append_mono name (tr ++ t) u).1
  rcases sysRead_next hu hrun (fun x hx => hnf x (by simp [hx])) h1 with ⟨_, _, hq⟩ | ⟨hc, _⟩ | ⟨_, _, _, hc, _⟩
  · rw [← hq]; exact h2.mono hm
  · cases hc
  · cases hc

/-- C84: the frame stays with the caller, who gives it back, whatever `read` answers; it is
lost only with the memory for a larger one. An error has no entry and no time stamp. -/
theorem C84_frame {alloc csv : Bool} {fresh : Nat → UInt8} {f : RFrame} {r1 r2 : RdRes} {o : RecvOut} (h : receive alloc csv fresh f r1 r2 = some o) :
    (o.frame = none ↔ r1 = .inval ∧ f.big = false ∧ alloc = false) ∧ (o.ret = -1 → o.entry = none ∧ o.stamp = 0) := by
  have key : ∀ {f : RFrame} {r : RdRes}, afterRead csv f r = some o → o.frame ≠ none ∧ (o.ret = -1 → o.entry = none ∧ o.stamp = 0) := by
    intro f r h
    unfold afterRead at h
    split at h
    · cases h; simp
    · cases h; simp
    · cases h; simp
    · cases h; simp
    · split at h
      · cases h
      · split at h
        · cases h; simp
        · simp only [Option.bind_eq_bind, Option.bind_eq_some_iff] at h
          obtain ⟨n, _, h⟩ := h
          split at h
          · cases h; simp
          · simp only [Option.bind_eq_some_iff] at h
            obtain ⟨p, _, h⟩ := h
            obtain ⟨a1, _, h⟩ := h
            obtain ⟨a2, _, h⟩ := h
            obtain ⟨a3, _, h⟩ := h
            obtain ⟨a4, _, h⟩ := h
            cases h
            refine ⟨by simp, fun hr => ?_⟩
            simp only at hr
            split at hr <;> simp at hr
  unfold receive retries at h
  split at h
  · rename_i hr
    simp only [Bool.and_eq_true, decide_eq_true_eq, Bool.not_eq_true'] at hr
    split at h
    · rename_i ha
      have := key h
      exact ⟨by simp [this.1, ha], this.2⟩
    · rename_i ha
      cases h
      simp [hr, ha]
  · rename_i hr
    have := key h
    refine ⟨⟨fun hf => absurd hf this.1, fun hf => ?_⟩, this.2⟩
    exact absurd (by simp [hf.1, hf.2.1]) hr

end Verif.Ulogcat
