import Verif.Ulogcat.PropsFleet
import Verif.Tools.PropsCat

/-!
# From the calls of programs to the output of the command ulogcat -d (C133)

The registry of the driver (`Reg`), libulog in any number of processes (`sayAll`), the
driver of each log (`Kernel.run`), the command with its options (`catMain`), which finds
and opens the logs (`ulogOpen`) and runs the viewer's loop over the drivers (`fleet`) and
its output (`onto`), put together. The processes log before the command is started.

Simplification, of `fleet`: a log asked for twice is to the viewer two logs with the same
contents; the driver keeps a position for each open file, and nobody writes.
-/
namespace Verif.Tools.Whole
open Verif Verif.Kernel Verif.Libulog Verif.Ulogcat

/-! ## Specification -/

/-- A machine: the logs registered, and of each log the memory of its buffer, the
processes that log to it and their messages, in the order of the calls. `page` is the
kernel's `PAGE_SIZE`. -/
structure Box where
  reg : Reg
  page : Nat
  buf : RLog → Nat → UInt8
  prog : RLog → Nat → Prog
  said : RLog → List Said

def pathOf (d : RLog) : Bytes := ascii "/dev/" ++ d.name

/-- The logs were registered by any requests; the processes and messages are ordinary
ones. -/
structure Box.Sound (B : Box) : Prop where
  reached : ∃ size got, RegReach size got B.reg
  page : 4096 ≤ B.page
  prog : ∀ d ∈ B.reg.devs, ∀ p, (B.prog d p).Plain (pathOf d)
  said : ∀ d ∈ B.reg.devs, ∀ m ∈ B.said d, m.Plain (B.prog d)
  count : ∀ d ∈ B.reg.devs, (B.said d).length < 2147483648

/-- What is let through fits the logs. -/
structure Box.Ok (B : Box) : Prop extends B.Sound where
  room : ∀ d ∈ B.reg.devs, (((B.said d).filter (·.passes (B.prog d))).map (·.size (B.prog d))).sum + 8200 ≤ d.size

/-- The names asked for with `-b`; `kmsgd` is ignored. -/
def asked (os : List CatOpt) : List Bytes := (os.filterMap bufOpt).filter (· ≠ ascii "kmsgd")

/-- The logs to be shown: those asked for, or all but that of kmsgd. -/
structure Chosen (B : Box) (os : List CatOpt) (ds : List RLog) : Prop where
  some : ∀ d ∈ ds, d ∈ B.reg.devs
  named : asked os ≠ [] → ds.map RLog.name = (asked os).map (ascii "ulog_" ++ ·)
  all : asked os = [] → ds = B.reg.devs.filter (·.name ≠ ascii "ulog_kmsgd")

/-- The value of `-v`, of `-t`, and what the options say about the lines. -/
def fmtOf (os : List CatOpt) : Fmt := ((os.filterMap fmtOpt).getLast?).getD .aligned
def tailOf (os : List CatOpt) : Int := ((os.filterMap tailOpt).getLast?).getD 0
def lookOf (os : List CatOpt) (ansi : Nat → Bytes) (clock : Int → Bytes) : Look :=
  { fmt := fmtOf os, color := decide (.color ∈ os), showLabel := decide (.label ∈ os), ansi, klog := false, clock }

def nth (ds : List RLog) (i : Nat) : RLog := (ds[i]?).getD ⟨[], 0, false⟩

/-- The system calls of opening: descriptors are new, there is memory, the logs
registered can be opened and listed, and `mark i` is what `ULOGGER_GET_LOG_LEN` answers on
a file just opened on the log number `i` of `ds`. -/
structure Opens (B : Box) (ds : List RLog) (mark : Nat → Nat) (w : OWorld) : Prop where
  fresh : Fresh w
  mem : ∀ evs, w.noMem evs = false
  opens : ∀ d ∈ B.reg.devs, ∀ evs, ∃ fd, w.openAt evs (pathOf d) = some fd
  len : ∀ i, i < ds.length → ∀ evs fd, w.logLen (evs ++ [.opened (pathOf (nth ds i)) (some fd)]) = mark i
  logs : w.logs = some (showLogs B.page B.reg)

/-! ## Opening -/

theorem short_name {n : Bytes} {d : RLog} (hd : DevName d.name) (h : d.name = ascii "ulog_" ++ n) :
    (ascii "/dev/ulog_" ++ n).take 63 = pathOf d := by
  obtain ⟨_, hl⟩ := hd.length
  have h5 : (ascii "ulog_").length = 5 := by decide +kernel
  rw [h, List.length_append] at hl
  have hdv : ascii "/dev/ulog_" = ascii "/dev/" ++ ascii "ulog_" := by decide +kernel
  have hdl : (ascii "/dev/ulog_").length = 10 := by decide +kernel
  rw [List.take_of_length_le (by rw [List.length_append]; omega), hdv, List.append_assoc, ← h]
  rfl

/-- `Opens`, with the amounts by log. -/
structure OpensD (B : Box) (ds : List RLog) (mark : RLog → Nat) (w : OWorld) : Prop where
  fresh : Fresh w
  mem : ∀ evs, w.noMem evs = false
  opens : ∀ d ∈ B.reg.devs, ∀ evs, ∃ fd, w.openAt evs (pathOf d) = some fd
  len : ∀ d ∈ ds, ∀ evs fd, w.logLen (evs ++ [.opened (pathOf d) (some fd)]) = mark d
  logs : w.logs = some (showLogs B.page B.reg)

def seen (o : ODev) : Bytes × Int := (o.path, o.mark)
def shown (mark : RLog → Nat) (d : RLog) : Bytes × Int := (pathOf d, mark d)

variable {B : Box} {ds : List RLog} {mark : RLog → Nat} {w : OWorld}

theorem addUlog_got (h : OpensD B ds mark w) {d : RLog} (hd : d ∈ B.reg.devs) (hds : d ∈ ds) (hn : DevName d.name) {n : Bytes}
    (e : d.name = ascii "ulog_" ++ n) (hk : n ≠ kmsgdName) (s : OSt) :
    (addUlog w n s).1 = true ∧ (addUlog w n s).2.devs.map seen = s.devs.map seen ++ [shown mark d] ∧
      (addUlog w n s).2.ulogs = s.ulogs + 1 := by
  unfold addUlog devCreate
  dsimp only
  rw [if_neg (by rw [h.mem]; simp)]
  dsimp only
  unfold devOpen
  dsimp only
  rw [short_name hn e]
  obtain ⟨fd, ho⟩ := h.opens d hd (s.note .alloc).evs
  have ho' : w.openAt ({ s.note .alloc with count := (s.note .alloc).count + 1 } : OSt).evs (pathOf d) = some fd := ho
  rw [ho']
  dsimp only [OSt.note]
  rw [h.len d hds, if_neg (by omega), if_neg hk, if_neg hk]
  refine ⟨rfl, ?_, if_neg hk⟩
  dsimp only
  rw [List.map_append]
  rfl

theorem addNames_got (h : OpensD B ds mark w) (hok : DevsOk B.reg.devs) (names : List Bytes) : ∀ (es : List RLog) (s : OSt),
    (∀ d ∈ es, d ∈ B.reg.devs ∧ d ∈ ds) → es.map RLog.name = (names.filter (· ≠ ascii "kmsgd")).map (ascii "ulog_" ++ ·) →
    (addNames w names s).1 = true ∧ (addNames w names s).2.devs.map seen = s.devs.map seen ++ es.map (shown mark) ∧
      (addNames w names s).2.ulogs = s.ulogs + es.length := by
  induction names with
  | nil =>
    intro es s _ e
    have : es = [] := List.map_eq_nil_iff.1 e
    subst this
    exact ⟨rfl, by simp [addNames], by simp [addNames]⟩
  | cons n ns ih =>
    intro es s hd e
    unfold addNames
    by_cases hk : n = kmsgdName
    · rw [if_pos hk]
      rw [List.filter_cons_of_neg (by simpa using (show n = ascii "kmsgd" from hk))] at e
      exact ih es s hd e
    · rw [if_neg hk]
      rw [List.filter_cons_of_pos (by simpa using (show ¬ n = ascii "kmsgd" from hk)), List.map_cons] at e
      cases es with
      | nil => cases e
      | cons d es =>
        injection e with e1 e2
        have hd0 := hd d (by simp)
        obtain ⟨g1, g2, g3⟩ := addUlog_got h hd0.1 hd0.2 (hok.name d hd0.1) e1 hk s
        rw [if_pos g1]
        obtain ⟨f1, f2, f3⟩ := ih es (addUlog w n s).2 (fun x hx => hd x (by simp [hx])) e2
        refine ⟨f1, ?_, ?_⟩
        · rw [f2, g2]; simp
        · rw [f3, g3, List.length_cons]; omega

/-- The lines of the list of logs are read as names. -/
theorem addLines_names {line : RLog → Bytes} (ds : List RLog)
    (hd : ∀ d ∈ ds, DevName d.name ∧ ∃ p, p < 100 ∧ line d = d.name ++ [32] ++ decNat p ++ [10]) : ∀ (s : OSt) (n : Nat),
    ds.length < n → addLines w n (ds.flatMap line) s = addNames w (ds.map shortName) s := by
  induction ds with
  | nil =>
    intro s n hn
    cases n with
    | zero => simp at hn
    | succ n => simp [addLines, addNames]
  | cons d ds ih =>
    intro s n hn
    obtain ⟨⟨l, hl, hs, hlen⟩, p, hp, hline⟩ := hd d (by simp)
    have ih' := ih (fun e he => hd e (by simp [he]))
    have hsn : shortName d = l := by
      unfold shortName; rw [hl, show 5 = (ascii "ulog_").length by decide +kernel, List.drop_left]
    have hsm : ∀ b ∈ l, b ≠ 0 ∧ b ≠ 32 ∧ b ≠ 10 := by
      intro b hb
      have h := hs b hb
      unfold SmallLetter at h
      refine ⟨?_, ?_, ?_⟩ <;> (rintro rfl; revert h; decide)
    have hdg : ∀ b ∈ decNat p, b ≠ 0 ∧ b ≠ 10 := by
      intro b hb
      have h := decNat_digits p b hb
      refine ⟨?_, ?_⟩ <;> (rintro rfl; revert h; decide)
    have hdl : (decNat p).length ≤ 2 := by
      unfold decNat
      split
      · simp
      · unfold decNat; rw [dif_pos (by omega)]; simp
    have hfile : (d :: ds).flatMap line = (ascii "ulog_" ++ l ++ [32] ++ decNat p) ++ 10 :: ds.flatMap line := by
      rw [List.flatMap_cons, hline, hl]; simp
    have hfg : Ulogcat.fgets 31 ((d :: ds).flatMap line) = (ascii "ulog_" ++ l ++ [32] ++ decNat p ++ [10], ds.flatMap line) := by
      rw [hfile]
      apply fgets_line
      · intro b hb
        have h5 : ∀ b ∈ ascii "ulog_", b ≠ 10 := by decide +kernel
        simp only [List.mem_append, List.mem_singleton] at hb
        rcases hb with ((h1 | h1) | h1) | h1
        · exact h5 b h1
        · exact (hsm b h1).2.2
        · rw [h1]; decide
        · exact (hdg b h1).2
      · simp only [List.length_append, List.length_singleton, show (ascii "ulog_").length = 5 by decide +kernel]
        omega
    have hln := logName_line l (decNat p) (fun b hb => ⟨(hsm b hb).1, (hsm b hb).2.1⟩) (fun b hb => (hdg b hb).1)
    have hne : (d :: ds).flatMap line ≠ [] := by rw [hfile]; simp
    cases n with
    | zero => simp at hn
    | succ n =>
      have hn' : ds.length < n := by simpa using hn
      rw [addLines, if_neg hne, hfg]
      dsimp only
      rw [hln]
      dsimp only
      rw [List.map_cons, hsn, addNames, ih' _ n hn', ih' _ n hn']

theorem show_lines {r : Reg} {mainSize : Int} {got : Bool} (hr : RegReach mainSize got r) {page : Nat} (hp : 4096 ≤ page) (s : OSt)
    (hl : w.logs = some (showLogs page r)) : addAll w s = addNames w (r.devs.map shortName) s := by
  obtain ⟨line, hsl, _, hlines⟩ := C58_show hr hp
  have hok := C15_devices hr
  unfold addAll
  rw [hl, hsl]
  dsimp only
  have hlen : r.devs.length < (r.devs.flatMap line).length + 1 := by
    have : ∀ ds : List RLog, (∀ d ∈ ds, d ∈ r.devs) → ds.length ≤ (ds.flatMap line).length := by
      intro ds
      induction ds with
      | nil => intro _; simp
      | cons d ds ih =>
        intro hd
        obtain ⟨p, _, hline, _⟩ := hlines d (hd d (by simp))
        have := ih (fun e he => hd e (by simp [he]))
        rw [List.flatMap_cons, hline]
        simp only [List.length_append, List.length_cons, List.length_nil]; omega
    have := this r.devs (fun _ h => h)
    omega
  refine addLines_names r.devs (fun d hd => ?_) s _ hlen
  obtain ⟨p, e, hline, _⟩ := hlines d hd
  obtain ⟨q, _, hq, e'⟩ := hok.size d hd
  refine ⟨hok.name d hd, p, ?_, hline⟩
  have : (2 : Nat) ^ p = 2 ^ q := by rw [← e, ← e']
  have := (Nat.pow_right_inj (by omega)).mp this
  omega

theorem names_short {ds : List RLog} (hd : ∀ d ∈ ds, DevName d.name) :
    (ds.filter (·.name ≠ ascii "ulog_kmsgd")).map RLog.name = ((ds.map shortName).filter (· ≠ ascii "kmsgd")).map (ascii "ulog_" ++ ·) := by
  induction ds with
  | nil => rfl
  | cons d ds ih =>
    have ih' := ih (fun e he => hd e (by simp [he]))
    obtain ⟨l, e1, _, e3⟩ := hd d (by simp)
    have es : shortName d = l := by
      unfold shortName; rw [e1, show 5 = (ascii "ulog_").length by decide +kernel, List.drop_left]
    rw [List.map_cons, es]
    have hk : ascii "ulog_kmsgd" = ascii "ulog_" ++ ascii "kmsgd" := by decide +kernel
    by_cases hl : l = ascii "kmsgd"
    · rw [List.filter_cons_of_neg (by simp [e1, hl, hk]), List.filter_cons_of_neg (by simp [hl]), ih']
    · have hne : d.name ≠ ascii "ulog_kmsgd" := by
        rw [e1, hk]; intro h; exact hl (List.append_cancel_left h)
      rw [List.filter_cons_of_pos (by simp [hne]), List.filter_cons_of_pos (by simp [hl]), List.map_cons, List.map_cons, ih', e1]

theorem chosen_ne (hB : B.Sound) {os : List CatOpt} {ds : List RLog} (hc : Chosen B os ds) : ds ≠ [] := by
  intro h0
  by_cases ha : asked os = []
  · obtain ⟨_, _, hr⟩ := hB.reached
    have hf := (C15_devices hr).first
    have h := hc.all ha
    rw [h0] at h
    cases hd : B.reg.devs with
    | nil => rw [hd] at hf; cases hf
    | cons d t =>
      rw [hd] at hf h
      have hm : d.name = ascii "ulog_main" := by simpa using hf
      rw [List.filter_cons_of_pos (by rw [hm]; decide +kernel)] at h
      cases h
  · have h := hc.named ha
    rw [h0] at h
    exact ha (List.map_eq_nil_iff.1 h.symm)

/-- The command opens exactly the logs to be shown, and learns how much they hold. -/
theorem opens_chosen (hB : B.Sound) (h : OpensD B ds mark w) {os : List CatOpt} (hc : Chosen B os ds) :
    ∃ o, ulogOpen w true false (os.filterMap bufOpt) [] = .ok o ∧ o.devs.map seen = ds.map (shown mark) := by
  obtain ⟨_, _, hr⟩ := hB.reached
  have hok := C15_devices hr
  generalize hs0 : ({ evs := [] ++ [.alloc], devs := [], count := 0, ulogs := 0 } : OSt) = s0
  have hdev0 : s0.devs = [] := by rw [← hs0]
  have hul0 : s0.ulogs = 0 := by rw [← hs0]
  have key : ∃ r, openDevs w true false (os.filterMap bufOpt) s0 = (true, r) ∧ r.devs.map seen = ds.map (shown mark) := by
    have hk : ∀ s, openKlog w false s = (true, s) := fun _ => rfl
    by_cases ha : asked os = []
    · obtain ⟨g1, g2, g3⟩ := addNames_got h hok (os.filterMap bufOpt) [] s0 nofun (by
        have ha' : List.filter (· ≠ ascii "kmsgd") (os.filterMap bufOpt) = [] := ha
        rw [ha']; rfl)
      have hds := hc.all ha
      obtain ⟨f1, f2, f3⟩ := addNames_got h hok (B.reg.devs.map shortName) ds (addNames w (os.filterMap bufOpt) s0).2 (fun d hd => ⟨hc.some d hd, hd⟩)
        (by rw [hds]; exact names_short hok.name)
      have hall : openAll w true (addNames w (os.filterMap bufOpt) s0).2 =
          addNames w (B.reg.devs.map shortName) (addNames w (os.filterMap bufOpt) s0).2 := by
        unfold openAll
        rw [if_pos ⟨by rw [g3, hul0]; rfl, rfl⟩, show_lines hr hB.page _ h.logs]
      unfold openDevs
      rw [if_pos g1, hall, if_pos f1, hk]
      exact ⟨_, rfl, by rw [f2, g2, hdev0]; rfl⟩
    · obtain ⟨g1, g2, g3⟩ := addNames_got h hok (os.filterMap bufOpt) ds s0 (fun d hd => ⟨hc.some d hd, hd⟩) (hc.named ha)
      have hpos : 0 < ds.length := by
        cases hd : ds with
        | nil => exact absurd hd (chosen_ne hB hc)
        | cons _ _ => simp
      have hall : openAll w true (addNames w (os.filterMap bufOpt) s0).2 = (true, (addNames w (os.filterMap bufOpt) s0).2) := by
        unfold openAll
        refine if_neg fun hh => ?_
        have := hh.1
        omega
      unfold openDevs
      rw [if_pos g1, hall, if_pos rfl, hk]
      exact ⟨_, rfl, by rw [g2, hdev0]; rfl⟩
  obtain ⟨r, e1, e2⟩ := key
  have I : OInv [] (outClosed []) s0 := by
    rw [← hs0]
    exact ⟨rfl, by simp, rfl, rfl, rfl, by simp⟩
  have I1 := openDevs_inv h.fresh I true false (os.filterMap bufOpt)
  rw [e1] at I1
  have hcount : r.count ≠ 0 := by
    rw [I1.count]
    intro he
    have : r.devs = [] := List.eq_nil_of_length_eq_zero (by simpa using he)
    rw [this] at e2
    exact chosen_ne hB hc (List.map_eq_nil_iff.1 e2.symm)
  have hmem : ∀ n s, (openMem w n s).1 = true ∧ (openMem w n s).2.devs = s.devs := by
    intro n
    induction n with
    | zero => intro s; exact ⟨rfl, rfl⟩
    | succ n ih => intro s; unfold openMem; rw [if_neg (by rw [h.mem]; simp)]; exact ih _
  refine ⟨(openMem w 3 r).2, ?_, by rw [(hmem 3 r).2]; exact e2⟩
  unfold ulogOpen
  rw [if_neg (by rw [h.mem]; simp)]
  dsimp only
  rw [hs0, e1]
  dsimp only
  rw [if_neg (by simp), if_neg hcount, if_pos (hmem 3 r).1]

/-! ## The property -/

theorem nth_mem {ds : List RLog} {i : Nat} (h : i < ds.length) : nth ds i ∈ ds := by
  unfold nth
  rw [List.getElem?_eq_getElem h]
  exact List.getElem_mem h

theorem map_nth {α : Type} (ds : List RLog) (f : RLog → α) : (List.range ds.length).map (fun i => f (nth ds i)) = ds.map f := by
  apply List.ext_getElem
  · simp
  · intro i h1 h2
    have : i < ds.length := by simpa using h1
    simp [nth, List.getElem?_eq_getElem this]

/-- What `catOptions` makes of these options. -/
theorem options_read (mem : Nat → Bool) {os : List CatOpt} (hs : ∀ o ∈ os, ¬ CatStops o) (hk : .klog ∉ os) (hcl : .clear ∉ os) :
    ∃ c, catOptions mem os = .ok c ∧ c.fmt = fmtOf os ∧ c.dump = decide (.dump ∈ os) ∧ c.klog = false ∧ c.clear = false ∧ c.tail = tailOf os ∧ c.ulog = true := by
  obtain ⟨c, h0, h1, h2, _, h4, _, h6, h7, h8⟩ := C93_options mem os hs
  refine ⟨c, h0, h1, ?_, ?_, ?_, h7, h8.2 (.inr (.inr hk))⟩
  · cases hc : c.dump with
    | false => exact (decide_eq_false fun h => by rw [h2.2 h] at hc; cases hc).symm
    | true => exact (decide_eq_true (h2.1 hc)).symm
  · cases hc : c.klog with
    | false => rfl
    | true => exact absurd (h4.1 hc) hk
  · cases hc : c.clear with
    | false => rfl
    | true => exact absurd (h6.1 hc) hcl

/-- The command opens the logs to be shown and reads them. -/
theorem whole_opened (hB : B.Sound) {mem : Nat → Bool} {os : List CatOpt} (hs : ∀ o ∈ os, ¬ CatStops o)
    (hk : .klog ∉ os) (hcl : .clear ∉ os) (hm : ∀ i, i < (os.filterMap bufOpt).length → mem i = true)
    {ds : List RLog} (hc : Chosen B os ds) {T : Nat} (hT : tailOf os = T) (hmax : T + ds.length + 1 ≤ 2147483647) {m : Nat → Nat}
    {w : OWorld} (hw : Opens B ds m w) (cw : ClearWorld) :
    ∃ devs evs, devs.map ODev.path = ds.map pathOf ∧ held evs = some [] ∧ ∀ {σ : Type} (W : World σ) (calls fuel : Nat) (s : σ),
      catMain mem w cw W (calls + 1) fuel s os =
        match processLogs W (decide (.dump ∈ os)) 0 fuel (openCtx ((List.range ds.length).map m) T) s 0 with
        | .error f => .fault f
        | .ok (x, s, none) => .running devs x s
        | .ok (x, s, some r) => .ended r devs x s evs := by
  have hidx : ∀ d ∈ ds, ds.idxOf d < ds.length ∧ nth ds (ds.idxOf d) = d := by
    intro d hd
    have hl := List.idxOf_lt_length_iff.2 hd
    refine ⟨hl, ?_⟩
    unfold nth
    rw [List.getElem?_eq_getElem hl, List.getElem_idxOf]
    rfl
  have hD : OpensD B ds (fun d => m (ds.idxOf d)) w := by
    refine ⟨hw.fresh, hw.mem, hw.opens, fun d hd evs fd => ?_, hw.logs⟩
    have := hw.len _ (hidx d hd).1 evs fd
    rw [(hidx d hd).2] at this
    exact this
  have hmark : ∀ i, i < ds.length → m (ds.idxOf (nth ds i)) = m i := by
    intro i hi
    have h1 := hw.len i hi [] 0
    have h2 := hD.len _ (nth_mem hi) [] 0
    rw [h1] at h2
    exact (Int.ofNat.inj h2).symm
  obtain ⟨o, ho, hdevs⟩ := opens_chosen hB hD hc
  obtain ⟨c, hc0, hc1, hc2, hc3, hc4, hc5, hc6⟩ := options_read mem hs hk hcl
  have hop := C66_open hw.fresh true false (os.filterMap bufOpt) (evs := []) (H := []) rfl List.nodup_nil
  rw [ho] at hop
  obtain ⟨_, _, _, h4, _, _, _, h8⟩ := hop
  have hlen : o.devs.length = ds.length := by
    have := congrArg List.length hdevs
    simpa using this
  have hpaths : o.devs.map ODev.path = ds.map pathOf := by
    have := congrArg (List.map Prod.fst) hdevs
    rw [List.map_map, List.map_map] at this
    exact this
  have hmarks : o.devs.map (fun d => d.mark.toNat) = (List.range ds.length).map m := by
    have := congrArg (List.map fun x : Bytes × Int => x.2.toNat) hdevs
    rw [List.map_map, List.map_map] at this
    refine this.trans ?_
    refine (map_nth ds (fun d => m (ds.idxOf d))).symm.trans ?_
    apply List.map_congr_left
    intro i hi
    exact hmark i (List.mem_range.1 hi)
  refine ⟨o.devs, ulogClose o, hpaths, h8, fun W calls fuel s => ?_⟩
  rw [main_cases mem w cw _ _ fuel _ os hc0 (C93_names hc0 hm), hc6, hc3, ho]
  dsimp only
  rw [hc5, hT, h4, hlen, if_neg (by omega), if_neg (by omega), hc4, if_neg (by simp), catLoop_once, hc2, hmarks]
  rfl

/-- The command shows what a dump of the logs to be shown does. -/
theorem whole_dump (hB : B.Sound) {mem : Nat → Bool} {os : List CatOpt} (hs : ∀ o ∈ os, ¬ CatStops o)
    (hk : .klog ∉ os) (hd : .dump ∈ os) (hcl : .clear ∉ os) (hm : ∀ i, i < (os.filterMap bufOpt).length → mem i = true)
    {ds : List RLog} (hc : Chosen B os ds) {T : Nat} (hT : tailOf os = T) (hmax : T + ds.length + 1 ≤ 2147483647)
    {ansi : Nat → Bytes} {clock : Int → Bytes} {sys : Nat → Sys} {tr : Nat → List (Op × Out)} {m : Nat → Nat} {Q : Bytes → Prop}
    (g2 : FleetDumps ds.length (fun _ => lookOf os ansi clock) (decide (fmtOf os = .csv)) (fun i => opened (sys i) (tr i) (m i))
      ((List.range ds.length).map m) T (fun i => pathOf (nth ds i)) Q) {w : OWorld} (hw : Opens B ds m w) (cw : ClearWorld) :
    ∃ need, ∀ (euid : UInt32) (n calls fuel : Nat), need ≤ fuel →
        ∀ {buf0 : Bytes}, buf0.length = 5248 → ∀ {ans : Scr (Nat → DW) → OutEv → List WrAns}, (∀ s e, ∃ n, ans s e = [.took n] ∧ 5248 ≤ n) →
        ∃ all devs c t evs,
          catMain mem w cw ((fleet ds.length 0 euid (decide (fmtOf os = .csv)) (fun _ => canRender (lookOf os ansi clock)) (n + 1)).onto .file
              (fun i => pathOf (nth ds i)) (fleetEntries ds.length (fun _ => lookOf os ansi clock) all) ans) (calls + 1) fuel
              ⟨fun i => opened (sys i) (tr i) (m i), buf0, []⟩ os = .ended 0 devs c t evs ∧
          devs.map ODev.path = ds.map pathOf ∧ held evs = some [] ∧ (∀ i, all i = (t.st i).os) ∧ Q t.bytes := by
  obtain ⟨devs, evs, hpaths, hheld, hrun⟩ := whole_opened hB hs hk hcl hm hc hT hmax hw cw
  obtain ⟨need, g3⟩ := g2
  refine ⟨need, fun euid n calls fuel hf buf0 hb ans ha => ?_⟩
  obtain ⟨all, x, t, e1, e2, e3⟩ := g3 euid n fuel hf hb ha
  refine ⟨all, devs, x, t, evs, ?_, hpaths, hheld, e2, e3⟩
  rw [hrun, decide_eq_true hd, e1]

/-- C133. On a machine with logs registered by any requests, to which any processes have
logged through libulog, `ulogcat -d` with any other options but `-k` and `-c` ends with
0. It has opened exactly the logs to be shown and closed them, and what it has written
are the lines, in the format asked for, of the messages let through, by turns
(`C119_order`), or of the last `T` with `-t T`, with a banner before the first of each
log if there are several. -/
theorem C133_dump (hB : B.Ok) (junk : Nat → UInt8) {mem : Nat → Bool} {os : List CatOpt} (hs : ∀ o ∈ os, ¬ CatStops o)
    (hk : .klog ∉ os) (hd : .dump ∈ os) (hcl : .clear ∉ os) (hm : ∀ i, i < (os.filterMap bufOpt).length → mem i = true)
    {ds : List RLog} (hc : Chosen B os ds) {T : Nat} (hT : tailOf os = T) (hmax : T + ds.length + 1 ≤ 2147483647)
    (ansi : Nat → Bytes) (clock : Int → Bytes)
    (hlong : fmtOf os = .csv → ∀ d ∈ ds, ∀ m ∈ B.said d, m.lines (B.prog d) (lookOf os ansi clock) ≠ []) :
    ∃ (ops : Nat → List Op) (sys : Nat → Sys) (tr : Nat → List (Op × Out)) (mark : Nat → Nat), (∀ i, i < ds.length →
        sayAll (B.prog (nth ds i)) junk (fun _ => .start) (B.said (nth ds i)) = .ok (ops i) ∧
        Kernel.run (Kernel.init (nth ds i).name (Nat.log2 (nth ds i).size) (B.buf (nth ds i))) (ops i ++ [.openF 0 true false true, .getLogLen 0]) =
          .ok (sys i, tr i ++ [(.getLogLen 0, .ret (mark i))])) ∧
      ∀ {w : OWorld}, Opens B ds mark w → ∀ (cw : ClearWorld), ∃ need, ∀ (euid : UInt32) (n calls fuel : Nat), need ≤ fuel →
        ∀ {buf0 : Bytes}, buf0.length = 5248 → ∀ {ans : Scr (Nat → DW) → OutEv → List WrAns}, (∀ s e, ∃ n, ans s e = [.took n] ∧ 5248 ≤ n) →
        ∃ all devs c t evs v,
          catMain mem w cw ((fleet ds.length 0 euid (decide (fmtOf os = .csv)) (fun _ => canRender (lookOf os ansi clock)) (n + 1)).onto .file
              (fun i => pathOf (nth ds i)) (fleetEntries ds.length (fun _ => lookOf os ansi clock) all) ans) (calls + 1) fuel
              ⟨fun i => opened (sys i) (tr i) (mark i), buf0, []⟩ os = .ended 0 devs c t evs ∧
          devs.map ODev.path = ds.map pathOf ∧ held evs = some [] ∧ (∀ i, all i = (t.st i).os) ∧
          ByTurns (·.1) saidTime ds.length (toSay ds.length (fun i => B.prog (nth ds i)) fun i => B.said (nth ds i)) v ∧
          t.bytes = screenOf (fun i => pathOf (nth ds i)) (fun i m => m.lines (B.prog (nth ds i)) (lookOf os ansi clock))
            (decide (ds.length > 1)) [] (Ulogcat.lastOf T v) := by
  obtain ⟨_, _, hr⟩ := hB.reached
  have hok := C15_devices hr
  have hN : 0 < ds.length := by
    cases hd : ds with
    | nil => exact absurd hd (chosen_ne hB.toSound hc)
    | cons _ _ => simp
  have hpow : ∀ d ∈ ds, 14 ≤ Nat.log2 d.size ∧ 2 ^ Nat.log2 d.size = d.size := by
    intro d hd
    obtain ⟨p, h1, _, h2⟩ := hok.size d (hc.some d hd)
    rw [h2, Nat.log2_two_pow]
    exact ⟨h1, rfl⟩
  obtain ⟨ops, sys, tr, m, g1, g2⟩ := C119_programs hN (D := fun i => pathOf (nth ds i)) (P := fun i => B.prog (nth ds i))
    (fun i hi p => hB.prog _ (hc.some _ (nth_mem hi)) p) (ms := fun i => B.said (nth ds i))
    (fun i hi => hB.said _ (hc.some _ (nth_mem hi))) junk (name := fun i => (nth ds i).name) (k := fun i => Nat.log2 (nth ds i).size)
    (fun i => B.buf (nth ds i)) (fun i hi => (hpow _ (nth_mem hi)).1)
    (fun i hi => by have := (hok.name _ (hc.some _ (nth_mem hi))).length; omega)
    (fun i hi => hB.count _ (hc.some _ (nth_mem hi)))
    (fun i hi => by rw [(hpow _ (nth_mem hi)).2]; exact hB.room _ (hc.some _ (nth_mem hi)))
    (L := fun _ => lookOf os ansi clock) (csv := decide (fmtOf os = .csv)) (fun _ _ => rfl) (fun _ _ => rfl)
    (fun h i hi => hlong (by simpa using h) _ (nth_mem hi))
  refine ⟨ops, sys, tr, m, g1, fun {w} hw cw => ?_⟩
  obtain ⟨need, g3⟩ := whole_dump hB.toSound hs hk hd hcl hm hc hT hmax (g2 T _) hw cw
  refine ⟨need, fun euid n calls fuel hf buf0 hb ans ha => ?_⟩
  obtain ⟨all, devs, c, t, evs, e1, e2, e3, e4, v, e5, e6⟩ := g3 euid n calls fuel hf hb ha
  exact ⟨all, devs, c, t, evs, v, e1, e2, e3, e4, e5, e6⟩

/-- C133, a log that is not there. If a log is asked for that cannot be opened, the
command ends with -1 before it shows anything, and what it had opened is closed. -/
theorem C133_missing {σ : Type} {w : OWorld} (hw : Fresh w) {mem : Nat → Bool} {os : List CatOpt} (hs : ∀ o ∈ os, ¬ CatStops o)
    (hm : ∀ i, i < (os.filterMap bufOpt).length → mem i = true) {n : Bytes} (hn : n ∈ asked os)
    (hno : ∀ evs, w.openAt evs ((ascii "/dev/ulog_" ++ n).take 63) = none) (cw : ClearWorld) (W : World σ) (calls fuel : Nat) (s : σ) :
    ∃ evs, catMain mem w cw W calls fuel s os = .failed (-1) evs ∧ held evs = some [] := by
  obtain ⟨c, hc, _⟩ := C93_options mem os hs
  have hadd : ∀ (names : List Bytes) (s : OSt), n ∈ names → n ≠ kmsgdName → (addNames w names s).1 = false := by
    intro names
    induction names with
    | nil => intro s h; cases h
    | cons a as ih =>
      intro s h hk
      unfold addNames
      by_cases ha : a = kmsgdName
      · rw [if_pos ha]
        rcases List.mem_cons.1 h with h | h
        · exact absurd (h.trans ha) hk
        · exact ih s h hk
      · rw [if_neg ha]
        by_cases hr : (addUlog w a s).1 = true
        · rw [if_pos hr]
          rcases List.mem_cons.1 h with h | h
          · exfalso
            subst h
            unfold addUlog devCreate at hr
            dsimp only at hr
            split at hr
            · cases hr
            · rename_i heq
              split at heq
              · cases heq
              · injection heq with _ heq
                subst heq
                unfold devOpen at hr
                dsimp only at hr
                rw [hno] at hr
                cases hr
          · exact ih _ h hk
        · rw [if_neg hr]
          simpa using hr
  have hf : ∃ evs, ulogOpen w c.ulog c.klog (os.filterMap bufOpt) [] = .error evs := by
    have hk : n ≠ kmsgdName := by
      have := (List.mem_filter.1 hn).2
      exact fun h => (by simpa using this : ¬ n = ascii "kmsgd") h
    cases ho : ulogOpen w c.ulog c.klog (os.filterMap bufOpt) [] with
    | error evs => exact ⟨evs, rfl⟩
    | ok o =>
      exfalso
      have h1 := (ulogOpen_ok ho).1
      unfold openDevs at h1
      rw [if_neg (by rw [hadd _ _ (List.mem_filter.1 hn).1 hk]; simp)] at h1
      rw [hadd _ _ (List.mem_filter.1 hn).1 hk] at h1
      cases h1
  obtain ⟨evs, hf⟩ := hf
  have hop := C66_open hw c.ulog c.klog (os.filterMap bufOpt) (evs := []) (H := []) rfl List.nodup_nil
  rw [hf] at hop
  refine ⟨evs, ?_, hop.1⟩
  rw [main_cases mem w cw _ _ fuel _ os hc (C93_names hc hm), hf]

end Verif.Tools.Whole
