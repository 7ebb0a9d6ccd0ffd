import Verif.Tools.PropsWhole
import Verif.Tools.PropsShell
import Verif.Tools.PropsGetopt

/-!
# C143: a session on the shell, from the words typed to the screen

Programs log through libulog and commands `ulogger` are typed, one after the other on each log
(C111); then the command `ulogcat -d` is typed, with any other words (C133, C141), on a machine
with any number of logs.
-/
namespace Verif.Tools.Whole
open Verif Verif.Kernel Verif.Libulog Verif.Ulogcat Verif.Tools Verif.Tools.Getopt

/-! ## Specification -/

/-- Something that is in a log: a message of a program, or of a command. -/
inductive Voice
  | prog (m : Said)
  | cmd (c : Cmd) (m : LgMsg)

/-- What an act puts into the log. -/
def Act.voices (P : Nat → Prog) (says : Cmd → List LgMsg) : Act → List Voice
  | .said m => if m.passes P then [.prog m] else []
  | .cmd c => (says c).map (.cmd c)

def Voice.lines (P : Nat → Prog) (L : Look) : Voice → Bytes
  | .prog m => m.lines P L
  | .cmd c m => cmdLines L c.who m

/-- The microsecond. -/
def voiceTime : Nat × Voice → Nat
  | (_, .prog m) => micros m.task.sec m.task.nsec
  | (_, .cmd _ m) => micros m.1 m.2.1

/-- What is in `N` logs, with the numbers of the logs. -/
def voicesOf (N : Nat) (P : Nat → Nat → Prog) (says : Cmd → List LgMsg) (as : Nat → List Act) (i : Nat) : List (Nat × Voice) :=
  if i < N then ((as i).flatMap (Act.voices (P i) says)).map (i, ·) else []

/-! ## Several logs -/

/-- `C119_dump` for things that stand for entries. -/
theorem dump_items {α : Type} {N : Nat} (hN : 0 < N) {name : Nat → Bytes} {k : Nat → Nat} {ops : Nat → List Op} {items : Nat → List α}
    {entry : Nat → α → Entry} {text : Nat → α → Bytes} {time : Nat × α → Nat}
    (h : ∀ i, i < N → Logged (name i) (k i) (ops i) ((items i).map (entry i))) (buf : Nat → Nat → UInt8) (hk : ∀ i, i < N → 14 ≤ k i)
    (hname : ∀ i, i < N → (name i).length ≤ 89) (hgen : ∀ i, i < N → Genuine ((items i).map (entry i)))
    (hcount : ∀ i, i < N → (items i).length < 2147483648)
    (hroom : ∀ i, i < N → bytesLen ((items i).map (entry i)) + 8200 ≤ 2 ^ k i) {L : Nat → Look} {csv : Bool}
    (hcsv : ∀ i, i < N → csv = decide ((L i).fmt = .csv)) (hfix : ∀ i, i < N → (L i).kmsgd = true → (L i).fmt ≠ .csv)
    (htext : ∀ i, i < N → ∀ a ∈ items i, entryText (L i) (entry i a) = text i a) (hne : ∀ i, i < N → ∀ a ∈ items i, text i a ≠ [])
    (htime : ∀ i a, time (i, a) = entryTime (i, entry i a)) :
    ∃ (sys : Nat → Sys) (tr : Nat → List (Op × Out)) (m : Nat → Nat), (∀ i, i < N → Kernel.run (Kernel.init (name i) (k i) (buf i)) (ops i ++ [.openF 0 true false true, .getLogLen 0]) =
        .ok (sys i, tr i ++ [(.getLogLen 0, .ret (m i))])) ∧
      ∀ T paths, FleetDumps N L csv (fun i => opened (sys i) (tr i) (m i)) ((List.range N).map m) T paths fun bs =>
        ∃ v, ByTurns (·.1) time N (fun i => if i < N then (items i).map (i, ·) else []) v ∧
          bs = screenOf paths text (decide (N > 1)) [] (Ulogcat.lastOf T v) := by
  obtain ⟨sys, tr, m, g1, g2⟩ := C119_dump hN h buf hk hname hgen (fun i hi => by rw [List.length_map]; exact hcount i hi) hroom hcsv hfix
    (fun _ i hi e he => by
      obtain ⟨a, ha, rfl⟩ := List.mem_map.1 he
      rw [htext i hi a ha]
      exact hne i hi a ha)
  refine ⟨sys, tr, m, g1, fun T paths => ?_⟩
  obtain ⟨need, g2⟩ := g2 T paths
  refine ⟨need, fun euid n fuel hfuel buf0 hb ans hans => ?_⟩
  obtain ⟨all, c, t, e1, e2, v, hv, e3⟩ := g2 euid n fuel hfuel hb hans
  refine ⟨all, c, t, e1, e2, ?_⟩
  have hsay : toShow N L (fun i => (items i).map (entry i)) =
      fun i => ((if i < N then (items i).map (i, ·) else []) : List (Nat × α)).map fun x => (x.1, entry x.1 x.2) := by
    funext i
    unfold toShow
    by_cases hi : i < N
    · rw [if_pos hi, if_pos hi, List.map_map, List.filter_eq_self.2, List.map_map]
      · rfl
      · intro e he
        obtain ⟨a, ha, rfl⟩ := List.mem_map.1 he
        rw [htext i hi a ha]
        have := hne i hi a ha
        simpa using this
    · rw [if_neg hi, if_neg hi]
      rfl
  rw [hsay] at hv
  obtain ⟨u, hu, hd⟩ := hv.unmap (num := (·.1)) (stamp := time) (fun x : Nat × α => (x.1, entry x.1 x.2))
    (fun d f hf => ⟨rfl, (htime f.1 f.2).symm⟩)
  refine ⟨u, hd, ?_⟩
  rw [e3, hu]
  have hlast : Ulogcat.lastOf T (u.map fun x => (x.1, entry x.1 x.2)) = (Ulogcat.lastOf T u).map fun x => (x.1, entry x.1 x.2) := by
    unfold Ulogcat.lastOf
    split
    · rfl
    · rw [List.map_drop, List.length_map]
  rw [hlast]
  refine screenOf_map (g := entry) (fun x hx => ?_) []
  have hx : x ∈ u := by
    unfold Ulogcat.lastOf at hx
    split at hx
    · exact hx
    · exact List.mem_of_mem_drop hx
  have hmem : x ∈ u.filter fun y => y.1 == x.1 := List.mem_filter.2 ⟨hx, by simp⟩
  rw [hd.device (fun d f hf => by
      split at hf
      · obtain ⟨m, _, rfl⟩ := List.mem_map.1 hf
        rfl
      · cases hf) (fun d hd => if_neg (by omega))] at hmem
  by_cases hi : x.1 < N
  · rw [if_pos hi] at hmem
    obtain ⟨a, ha, hax⟩ := List.mem_map.1 hmem
    rw [← hax]
    exact htext _ hi _ ha
  · rw [if_neg hi] at hmem
    cases hmem

def Voice.entry (P : Nat → Prog) : Voice → Entry
  | .prog m => m.entry P
  | .cmd c m => cmdEntry c.who m

theorem voices_entries (P : Nat → Prog) (says : Cmd → List LgMsg) (as : List Act) :
    (as.flatMap (Act.voices P says)).map (Voice.entry P) = as.flatMap (·.entries P says) := by
  rw [List.map_flatMap]
  refine flatMap_congr' fun x _ => ?_
  cases x with
  | said m => unfold Act.voices Act.entries; dsimp only; split <;> rfl
  | cmd c =>
    unfold Act.voices Act.entries
    dsimp only
    rw [List.map_map]
    rfl

theorem voices_of {P : Nat → Prog} {says : Cmd → List LgMsg} {as : List Act} (has : ∀ x ∈ as, x.Plain P says) {v : Voice}
    (hv : v ∈ as.flatMap (Act.voices P says)) :
    (∃ m, v = .prog m ∧ m.Plain P) ∨ ∃ c m, v = .cmd c m ∧ c.Plain ∧ c.Says (says c) ∧ m ∈ says c := by
  obtain ⟨x, hx, hv⟩ := List.mem_flatMap.1 hv
  have hpl := has x hx
  cases x with
  | said m =>
    unfold Act.voices at hv
    dsimp only at hv
    split at hv
    · exact .inl ⟨m, List.mem_singleton.1 hv, hpl⟩
    · cases hv
  | cmd c =>
    obtain ⟨m, hm, rfl⟩ := List.mem_map.1 hv
    exact .inr ⟨c, m, rfl, hpl.1, hpl.2, hm⟩

theorem cmdLines_ne {L : Look} (hf : L.fmt ≠ .csv) (w : Who) (m : LgMsg) : cmdLines L w m ≠ [] := by
  unfold cmdLines textShown
  rw [if_neg hf]
  refine cut_ne (shownLines_ne _) _ fun l h => ?_
  have := congrArg List.length h
  unfold lineText at this
  simp only [List.length_append, List.length_cons, List.length_nil] at this
  omega

/-- C143. Programs and commands log to several logs, then a viewer dumps them, or the last `T`
messages of all. -/
theorem C143_fleet {N : Nat} (hN : 0 < N) {D : Nat → Bytes} {P : Nat → Nat → Prog} (hP : ∀ i, i < N → ∀ p, (P i p).Plain (D i))
    {says : Cmd → List LgMsg} {as : Nat → List Act} (has : ∀ i, i < N → ∀ x ∈ as i, x.Plain (P i) says) (junk : Nat → UInt8)
    {name : Nat → Bytes} {k : Nat → Nat} (buf : Nat → Nat → UInt8) (hk : ∀ i, i < N → 14 ≤ k i) (hname : ∀ i, i < N → (name i).length ≤ 89)
    (hcount : ∀ i, i < N → ((as i).map (·.count says)).sum < 2147483648)
    (hroom : ∀ i, i < N → ((as i).map (·.size (P i) says)).sum + 8200 ≤ 2 ^ k i) {L : Nat → Look} {csv : Bool}
    (hcsv : ∀ i, i < N → csv = decide ((L i).fmt = .csv)) (hkd : ∀ i, i < N → (L i).kmsgd = false)
    (hlong : csv = true → ∀ i, i < N → ∀ v ∈ (as i).flatMap (Act.voices (P i) says), v.lines (P i) (L i) ≠ []) :
    ∃ (ops : Nat → List Op) (sys : Nat → Sys) (tr : Nat → List (Op × Out)) (m : Nat → Nat), (∀ i, i < N →
        actAll (P i) junk (fun _ => .start) (as i) = .ok (ops i) ∧
        Kernel.run (Kernel.init (name i) (k i) (buf i)) (ops i ++ [.openF 0 true false true, .getLogLen 0]) =
          .ok (sys i, tr i ++ [(.getLogLen 0, .ret (m i))])) ∧
      ∀ T paths, FleetDumps N L csv (fun i => opened (sys i) (tr i) (m i)) ((List.range N).map m) T paths fun bs =>
        ∃ v, ByTurns (·.1) voiceTime N (voicesOf N P says as) v ∧
          bs = screenOf paths (fun i v => v.lines (P i) (L i)) (decide (N > 1)) [] (Ulogcat.lastOf T v) := by
  have hex : ∀ i, ∃ ops, i < N → actAll (P i) junk (fun _ => .start) (as i) = .ok ops ∧
      Logged (name i) (k i) ops (((as i).flatMap (Act.voices (P i) says)).map (Voice.entry (P i))) := by
    intro i
    by_cases hi : i < N
    · obtain ⟨ops, h1, h2, h3, h4, h5, _⟩ := act_all (hP i hi) says (name i) junk (as i) (has i hi) (libs := fun _ => .start) (a := ainit (name i) (k i)) (o := Obs.init)
        (fun p => ⟨rfl, rfl, fun c => .inl (by show (-1 : Int) < 0; decide), .inl rfl⟩) ⟨rfl, fun _ _ => rfl, fun _ h => absurd rfl h⟩ ⟨fun _ => rfl, rfl⟩
      exact ⟨ops, fun _ => ⟨h1, by rw [voices_entries]; exact ⟨h2, h3, h4.base, h5⟩⟩⟩
    · exact ⟨[], fun h => absurd h hi⟩
  obtain ⟨ops, hex⟩ := Classical.axiomOfChoice hex
  have hcsv' : ∀ i, i < N → csv = false → (L i).fmt ≠ .csv := by
    intro i hi hc
    have := hcsv i hi
    rw [hc] at this
    simpa using this.symm
  obtain ⟨sys, tr, m, g1, g2⟩ := dump_items hN (text := fun i v => v.lines (P i) (L i)) (time := voiceTime) (fun i hi => (hex i hi).2) buf hk hname
    (fun i hi e he => by
      obtain ⟨v, hv, rfl⟩ := List.mem_map.1 he
      rcases voices_of (has i hi) hv with ⟨m, rfl, hm⟩ | ⟨c, m, rfl, hc, _, _⟩
      · exact hm.task
      · show ¬ ((cmdEntry c.who m).pid = _ ∧ (cmdEntry c.who m).tid = _)
        rw [cmdEntry_eq]
        exact fun h => hc.pid h.1)
    (fun i hi => by
      have hle : ∀ as : List Act, (as.flatMap (Act.voices (P i) says)).length ≤ (as.map (·.count says)).sum := by
        intro as
        induction as with
        | nil => simp
        | cons x as ih =>
          rw [List.flatMap_cons, List.length_append, List.map_cons, List.sum_cons]
          have : (Act.voices (P i) says x).length ≤ x.count says := by
            cases x with
            | said m => unfold Act.voices Act.count; dsimp only; split <;> simp
            | cmd c => simp [Act.voices, Act.count]
          omega
      have := hle (as i)
      have := hcount i hi
      omega)
    (fun i hi => by rw [voices_entries, acts_bytes]; exact hroom i hi) hcsv (fun i hi h => by rw [hkd i hi] at h; cases h)
    (fun i hi v hv => by
      rcases voices_of (has i hi) hv with ⟨m, rfl, hm⟩ | ⟨c, m, rfl, hc, hs, hm⟩
      · exact Said.entry_text hm (hkd i hi)
      · exact cmdEntry_text hc.name hc.tag (hs.noNul hc m hm) (whoOf_level ..) hc.fits (hkd i hi))
    (fun i hi v hv => by
      cases hc : csv with
      | true => exact hlong hc i hi v hv
      | false =>
        cases v with
        | prog m => exact Said.lines_ne (hcsv' i hi hc) m
        | cmd c m => exact cmdLines_ne (hcsv' i hi hc) c.who m)
    (fun i v => by
      cases v with
      | prog m => rfl
      | cmd c m => show _ = entryTime (i, cmdEntry c.who m); rw [cmdEntry_eq]; rfl)
  exact ⟨ops, sys, tr, m, fun i hi => ⟨(hex i hi).1, g1 i hi⟩, g2⟩

theorem voicesOf_own {N : Nat} {P : Nat → Nat → Prog} {says : Cmd → List LgMsg} {as : Nat → List Act} :
    ∀ d, ∀ f ∈ voicesOf N P says as d, f.1 = d := by
  intro d f hf
  unfold voicesOf at hf
  split at hf
  · obtain ⟨m, _, rfl⟩ := List.mem_map.1 hf
    rfl
  · cases hf

theorem voicesOf_beyond {N : Nat} {P : Nat → Nat → Prog} {says : Cmd → List LgMsg} {as : Nat → List Act} :
    ∀ d, N ≤ d → voicesOf N P says as d = [] := fun _ hd => if_neg (by omega)

/-- C143. There is one order by turns; each log is in its own order; what is shown before something
earlier is held up by something of the same log as the earlier one. -/
theorem C143_order {N : Nat} {P : Nat → Nat → Prog} {says : Cmd → List LgMsg} {as : Nat → List Act} {v : List (Nat × Voice)}
    (h : ByTurns (·.1) voiceTime N (voicesOf N P says as) v) :
    (∀ w, ByTurns (·.1) voiceTime N (voicesOf N P says as) w → w = v) ∧
    (∀ i, v.filter (fun x => x.1 == i) = voicesOf N P says as i) ∧
    (∀ u x w y z, v = u ++ x :: (w ++ y :: z) → voiceTime y < voiceTime x → ∃ g ∈ x :: w, g.1 = y.1 ∧ voiceTime x ≤ voiceTime g) ∧
    ((∀ i, (voicesOf N P says as i).Pairwise fun a b => voiceTime a ≤ voiceTime b) → v.Pairwise fun a b => voiceTime a ≤ voiceTime b) :=
  ⟨fun _ hw => hw.unique h, h.device voicesOf_own voicesOf_beyond, fun _ _ _ _ _ hv hlt => h.late voicesOf_own voicesOf_beyond hv hlt,
    fun hs => h.sorted voicesOf_own voicesOf_beyond hs⟩

/-! ## The commands, typed -/

/-- A command `ulogger` typed: the words after its name, and what a run is given beside them. -/
structure Typed where
  words : List Bytes
  clock : Nat → UInt32 × UInt32
  self : Bytes
  pid : UInt32
  input : Bytes
  task : Task

/-- What happens on a log: a call in a program, or a command typed. -/
inductive Step
  | said (m : Said)
  | typed (t : Typed)

def Typed.with (t : Typed) (opts : List LgOpt) (args : List Bytes) : Cmd :=
  { clock := t.clock, self := t.self, pid := t.pid, opts, args, input := t.input, task := t.task }

/-- The run: the words are read by `getopt_long`. -/
def Step.act (perm : Bool) : Step → Act
  | .said m => .said m
  | .typed t => .cmd (t.with (logArgs perm t.words).1 (logArgs perm t.words).2)

/-- A run that is given neither words nor input. -/
def Typed.silent (t : Typed) : Cmd :=
  { clock := t.clock, self := t.self, pid := t.pid, opts := [], args := [], input := [], task := t.task }

/-- What the words mean, by the grammar of C141. Words that the grammar does not explain, and a
request for help, count as a run that is given nothing. -/
inductive Step.Means (perm : Bool) : Step → Act → Prop
  | said (m : Said) : Means perm (.said m) (.said m)
  | typed {t : Typed} {opts : List LgOpt} {args : List Bytes} (h : LgLine perm opts args t.words) (hh : .help ∉ opts) :
      Means perm (.typed t) (.cmd (t.with opts args))
  | help {t : Typed} {opts : List LgOpt} {args : List Bytes} (h : LgLine perm opts args t.words) (hh : .help ∈ opts) :
      Means perm (.typed t) (.cmd t.silent)
  | refused {t : Typed} (h : ¬ ∃ opts args, LgLine perm opts args t.words) : Means perm (.typed t) (.cmd t.silent)

/-- The acts that steps mean, one each. -/
inductive Meant (perm : Bool) : List Step → List Act → Prop
  | nil : Meant perm [] []
  | cons {x : Step} {a : Act} {xs : List Step} {as : List Act} (h : x.Means perm a) (hs : Meant perm xs as) : Meant perm (x :: xs) (a :: as)

theorem silent_ops (t : Typed) (junk : Nat → UInt8) {opts : List LgOpt} {args : List Bytes} {st : Nat}
    (h : ulogger (t.with opts args).env t.self t.pid opts args t.input = ([], st)) : (t.with opts args).ops junk = t.silent.ops junk := by
  unfold Cmd.ops
  show _ ++ ((ulogger (t.with opts args).env t.self t.pid opts args t.input).1.flatMap _ ++ _) = _
  rw [h]
  rfl

theorem help_stops {os : List LgOpt} (h : .help ∈ os) : ∃ pre o post, os = pre ++ o :: post ∧ Usual pre ∧ (o = .help ∨ o = .bad) := by
  induction os with
  | nil => cases h
  | cons x xs ih =>
    by_cases hx : x = .help ∨ x = .bad
    · exact ⟨[], x, xs, rfl, by simp [Usual], hx⟩
    · simp only [not_or] at hx
      obtain ⟨pre, o, post, h1, h2, h3⟩ := ih ((List.mem_cons.1 h).resolve_left (Ne.symm hx.1))
      exact ⟨x :: pre, o, post, by simp [h1], by simpa [Usual, Ne.symm hx.1, Ne.symm hx.2] using h2, h3⟩

/-- The driver is called as if what is meant were done. -/
theorem Meant.acts {perm : Bool} {P : Nat → Prog} {junk : Nat → UInt8} {xs : List Step} {as : List Act} (h : Meant perm xs as) :
    ∀ libs, actAll P junk libs (xs.map (Step.act perm)) = actAll P junk libs as := by
  induction h with
  | nil => exact fun _ => rfl
  | cons h _ ih =>
    intro libs
    rw [List.map_cons]
    cases h with
    | said m =>
      show actAll P junk libs (.said m :: _) = _
      unfold actAll
      simp only [ih]
    | @typed t opts args h hh =>
      show actAll P junk libs (.cmd (t.with (logArgs perm t.words).1 (logArgs perm t.words).2) :: _) = _
      unfold actAll
      rw [C141_logger h, ih]
    | @help t opts args h hh =>
      show actAll P junk libs (.cmd (t.with (logArgs perm t.words).1 (logArgs perm t.words).2) :: _) = _
      unfold actAll
      obtain ⟨pre, o, post, h1, h2, h3⟩ := help_stops hh
      rw [C141_logger h, ih]
      dsimp only
      rw [silent_ops t junk (by rw [h1]; exact C86_stop _ t.self t.pid pre post o _ t.input h2 h3)]
    | @refused t h =>
      show actAll P junk libs (.cmd (t.with (logArgs perm t.words).1 (logArgs perm t.words).2) :: _) = _
      unfold actAll
      obtain ⟨st, _, hst⟩ := C141_logger_refused h (t.with (logArgs perm t.words).1 (logArgs perm t.words).2).env t.self t.pid t.input
      rw [ih, silent_ops t junk hst]

/-- C143. A run that is given nothing adds nothing to a log. -/
theorem C143_silent (P : Nat → Prog) {says : Cmd → List LgMsg} {t : Typed} (h : t.silent.Says (says t.silent)) :
    Act.voices P says (.cmd t.silent) = [] := by
  have : says t.silent = [] := by
    generalize says t.silent = ms at h
    have hc : ∀ cs, Chunks [] cs → cs = [] := by
      rintro cs ⟨h1, h2, _⟩
      cases cs with
      | nil => rfl
      | cons c cs =>
        have hne := (h2 c (by simp)).1
        exact absurd (List.append_eq_nil_iff.1 h1).1 hne
    cases h with
    | args ht hne => exact absurd rfl hne
    | timedArgs ht hne h => exact absurd rfl hne
    | lines ht hn hcs => rw [hc _ hcs]; rfl
    | timedLines ht hn hcs h => cases ht
  unfold Act.voices
  dsimp only
  rw [this]
  rfl

/-- C143. All words mean something. -/
theorem C143_means (perm : Bool) (x : Step) : ∃ a, x.Means perm a := by
  cases x with
  | said m => exact ⟨_, .said m⟩
  | typed t =>
    by_cases h : ∃ opts args, LgLine perm opts args t.words
    · obtain ⟨opts, args, h⟩ := h
      by_cases hh : .help ∈ opts
      · exact ⟨_, .help h hh⟩
      · exact ⟨_, .typed h hh⟩
    · exact ⟨_, .refused h⟩

/-- C143. On a machine with logs registered by any requests, programs have logged and commands
`ulogger` were typed, with any words; then `ulogcat` is typed, with any words that mean options with `-d` and
without `-k` and `-c`. It ends with 0, has opened exactly the logs to be shown and closed them, and
has written the lines of what is in them, or of the last `T`, by turns, with a banner before the
first of each log if there are several. (`B.said` is not used: `steps` says what happened.) -/
theorem C143_session {B : Box} (hB : B.Sound) (junk : Nat → UInt8) {perm : Bool} {steps : RLog → List Step} {as : RLog → List Act}
    (hmean : ∀ d ∈ B.reg.devs, Meant perm (steps d) (as d)) {says : Cmd → List LgMsg}
    (has : ∀ d ∈ B.reg.devs, ∀ x ∈ as d, x.Plain (B.prog d) says)
    (hcount : ∀ d ∈ B.reg.devs, ((as d).map (·.count says)).sum < 2147483648)
    (hroom : ∀ d ∈ B.reg.devs, ((as d).map (·.size (B.prog d) says)).sum + 8200 ≤ d.size)
    {words rest : List Bytes} {os : List CatOpt} (hline : CatLine perm os rest words) {mem : Nat → Bool} (hs : ∀ o ∈ os, ¬ CatStops o)
    (hk : .klog ∉ os) (hd : .dump ∈ os) (hcl : .clear ∉ os) (hm : ∀ i, i < (os.filterMap bufOpt).length → mem i = true)
    {ds : List RLog} (hc : Chosen B os ds) {T : Nat} (hT : tailOf os = T) (hmax : T + ds.length + 1 ≤ 2147483647)
    (ansi : Nat → Bytes) (clock : Int → Bytes)
    (hlong : fmtOf os = .csv → ∀ d ∈ ds, ∀ v ∈ (as d).flatMap (Act.voices (B.prog d) says), v.lines (B.prog d) (lookOf os ansi clock) ≠ []) :
    ∃ (ops : Nat → List Op) (sys : Nat → Sys) (tr : Nat → List (Op × Out)) (mark : Nat → Nat), (∀ i, i < ds.length →
        actAll (B.prog (nth ds i)) junk (fun _ => .start) ((steps (nth ds i)).map (Step.act perm)) = .ok (ops i) ∧
        Kernel.run (Kernel.init (nth ds i).name (Nat.log2 (nth ds i).size) (B.buf (nth ds i))) (ops i ++ [.openF 0 true false true, .getLogLen 0]) =
          .ok (sys i, tr i ++ [(.getLogLen 0, .ret (mark i))])) ∧
      ∀ {w : OWorld}, Opens B ds mark w → ∀ (cw : ClearWorld), ∃ need, ∀ (euid : UInt32) (n calls fuel : Nat), need ≤ fuel →
        ∀ {buf0 : Bytes}, buf0.length = 5248 → ∀ {ans : Scr (Nat → DW) → OutEv → List WrAns}, (∀ s e, ∃ n, ans s e = [.took n] ∧ 5248 ≤ n) →
        ∃ all devs c t evs v,
          catMain mem w cw ((fleet ds.length 0 euid (decide (fmtOf os = .csv)) (fun _ => canRender (lookOf os ansi clock)) (n + 1)).onto .file
              (fun i => pathOf (nth ds i)) (fleetEntries ds.length (fun _ => lookOf os ansi clock) all) ans) (calls + 1) fuel
              ⟨fun i => opened (sys i) (tr i) (mark i), buf0, []⟩ (catArgs perm words) = .ended 0 devs c t evs ∧
          devs.map ODev.path = ds.map pathOf ∧ held evs = some [] ∧ (∀ i, all i = (t.st i).os) ∧
          ByTurns (·.1) voiceTime ds.length (voicesOf ds.length (fun i => B.prog (nth ds i)) says fun i => as (nth ds i)) v ∧
          t.bytes = screenOf (fun i => pathOf (nth ds i)) (fun i v => v.lines (B.prog (nth ds i)) (lookOf os ansi clock))
            (decide (ds.length > 1)) [] (Ulogcat.lastOf T v) := by
  obtain ⟨_, _, hr⟩ := hB.reached
  have hok := C15_devices hr
  have hN : 0 < ds.length := by
    cases hd : ds with
    | nil => exact absurd hd (chosen_ne hB hc)
    | cons _ _ => simp
  have hpow : ∀ d ∈ ds, 14 ≤ Nat.log2 d.size ∧ 2 ^ Nat.log2 d.size = d.size := by
    intro d hd
    obtain ⟨p, h1, _, h2⟩ := hok.size d (hc.some d hd)
    rw [h2, Nat.log2_two_pow]
    exact ⟨h1, rfl⟩
  obtain ⟨ops, sys, tr, m, g1, g2⟩ := C143_fleet hN (D := fun i => pathOf (nth ds i)) (P := fun i => B.prog (nth ds i))
    (fun i hi p => hB.prog _ (hc.some _ (nth_mem hi)) p) (as := fun i => as (nth ds i))
    (fun i hi => has _ (hc.some _ (nth_mem hi))) junk (name := fun i => (nth ds i).name) (k := fun i => Nat.log2 (nth ds i).size)
    (fun i => B.buf (nth ds i)) (fun i hi => (hpow _ (nth_mem hi)).1)
    (fun i hi => by have := (hok.name _ (hc.some _ (nth_mem hi))).length; omega)
    (fun i hi => hcount _ (hc.some _ (nth_mem hi)))
    (fun i hi => by rw [(hpow _ (nth_mem hi)).2]; exact hroom _ (hc.some _ (nth_mem hi)))
    (L := fun _ => lookOf os ansi clock) (csv := decide (fmtOf os = .csv)) (fun _ _ => rfl) (fun _ _ => rfl)
    (fun h i hi => hlong (by simpa using h) _ (nth_mem hi))
  refine ⟨ops, sys, tr, m, fun i hi => ?_, fun {w} hw cw => ?_⟩
  · rw [(hmean _ (hc.some _ (nth_mem hi))).acts]
    exact g1 i hi
  · obtain ⟨need, g3⟩ := whole_dump hB hs hk hd hcl hm hc hT hmax (g2 T _) hw cw
    refine ⟨need, fun euid n calls fuel hf buf0 hb ans ha => ?_⟩
    obtain ⟨all, devs, c, t, evs, e1, e2, e3, e4, v, e5, e6⟩ := g3 euid n calls fuel hf hb ha
    rw [C141_cat hline]
    exact ⟨all, devs, c, t, evs, v, e1, e2, e3, e4, e5, e6⟩

end Verif.Tools.Whole
