import Verif.Tools.ShApi

/-!
# From shell scripts to the screen (C117)

Scripts that use the functions of `ulog_api.sh`, and programs that log through libulog
(C106), on one device; then the viewer dumps it.
-/
namespace Verif.Tools.ShApi
open Verif Verif.Kernel Verif.Libulog Verif.Ulogcat

/-! ## Specification -/

/-- What appears: a message with level and tag, written with one more byte (a newline, as a
rule) that is not shown; or text without. -/
inductive Shown
  | tagged (t : Task) (level : Nat) (tag msg : Bytes) (last : UInt8)
  | loose (t : Task) (bs : Bytes)

/-- Without level and tag: level Info, no tag, no names; the last byte is lost, which should
be a newline. -/
def looseInfo (t : Task) : Meta :=
  { sec := int32 t.sec, nsec := int32 t.nsec, priority := 6, pid := int32 t.pid, pname := [], tid := int32 t.tid, tname := [], tag := []
    isBinary := false, color := 0 }

def Shown.lines (L : Look) : Shown → Bytes
  | .tagged t level tag text _ => textShown L (taskInfo t (UInt32.ofNat (level % 8)) tag false) (text.take (4070 - prefixLen t - tag.length))
  | .loose t bs => textShown L (looseInfo t) (if bs = [] then ascii "<<zero-length>>" else (bs.take (4076 - prefixLen t)).dropLast)

/-- What it takes in the log. -/
def Shown.size : Shown → Nat
  | .tagged t _ tag text _ => 24 + min 4076 (prefixLen t + (4 + (tag.length + 1) + (text.length + 1)))
  | .loose t bs => 24 + min 4076 (prefixLen t + bs.length)

/-- What a call of a script gives to the device. -/
def gives (sh : Shell) (s : Scr) : Call → List Shown
  | .print t bs => if s.redirected then [.loose t bs] else []
  | .log t level message =>
    let tag := s.vars.tag.getD (ascii "(shell script)")
    (if s.vars.stderr = some yes ∧ s.redirected = true then
      (sh.pieces (sh.format (letter level ++ [32] ++ message ++ ascii "\\n"))).map (.loose t) else []) ++
    match sh.pieces (head level tag ++ message ++ [10]) with
    | [] => []
    | w :: ws =>
      .tagged t level tag (w.drop (head level tag).length).dropLast ((w.drop (head level tag).length).getLastD 10) :: ws.map (.loose t)
  | _ => []

/-- A usual call: strings without NUL, a level of one digit, a tag that fits an entry, and
the shell gives out its output in order, the tag and more in the first write. -/
def Call.Plain (sh : Shell) (s : Scr) : Call → Prop
  | .print t bs => NoNul bs ∧ ¬ (t.pid = 0xffffffff ∧ t.tid = 0xffffffff)
  | .log t level message =>
    let tag := s.vars.tag.getD (ascii "(shell script)")
    level < 10 ∧ NoNul tag ∧ NoNul message ∧ prefixLen t + (4 + tag.length + 1) < 4076 ∧ ¬ (t.pid = 0xffffffff ∧ t.tid = 0xffffffff) ∧
      (∃ m ws, m ≠ [] ∧ sh.pieces (head level tag ++ message ++ [10]) = (head level tag ++ m) :: ws ∧ m ++ ws.flatten = message ++ [10]) ∧
      (s.vars.stderr = some yes → s.redirected = true →
        ∀ w ∈ sh.pieces (sh.format (letter level ++ [32] ++ message ++ ascii "\\n")), NoNul w)
  | _ => True

def allPlain (P : Nat → Prog) (sh : Nat → Shell) (isScr : Nat → Bool) : (Nat → Scr) → List Step → Prop
  | _, [] => True
  | scr, .said m :: xs => isScr m.prog = false ∧ m.Plain P ∧ allPlain P sh isScr scr xs
  | scr, .script s c :: xs =>
    isScr s = true ∧ c.Plain (sh s) (scr s) ∧ allPlain P sh isScr (fun q => if q = s then (call (sh s) (scr s) c).1 else scr q) xs

/-- What appears for all steps: bytes on the screen, bytes in the log, number. -/
def allLines (P : Nat → Prog) (sh : Nat → Shell) (L : Look) : (Nat → Scr) → List Step → Bytes
  | _, [] => []
  | scr, .said m :: xs => (if m.passes P then m.lines P L else []) ++ allLines P sh L scr xs
  | scr, .script s c :: xs =>
    (gives (sh s) (scr s) c).flatMap (·.lines L) ++ allLines P sh L (fun q => if q = s then (call (sh s) (scr s) c).1 else scr q) xs

def allSize (P : Nat → Prog) (sh : Nat → Shell) : (Nat → Scr) → List Step → Nat
  | _, [] => 0
  | scr, .said m :: xs => (if m.passes P then m.size P else 0) + allSize P sh scr xs
  | scr, .script s c :: xs =>
    ((gives (sh s) (scr s) c).map Shown.size).sum + allSize P sh (fun q => if q = s then (call (sh s) (scr s) c).1 else scr q) xs

def allCount (P : Nat → Prog) (sh : Nat → Shell) : (Nat → Scr) → List Step → Nat
  | _, [] => 0
  | scr, .said m :: xs => (if m.passes P then 1 else 0) + allCount P sh scr xs
  | scr, .script s c :: xs =>
    (gives (sh s) (scr s) c).length + allCount P sh (fun q => if q = s then (call (sh s) (scr s) c).1 else scr q) xs

/-! ## Entries -/

def Shown.entry : Shown → Entry
  | .tagged t level tag text last => plainSpec t (head level tag ++ (text ++ [last]))
  | .loose t bs => plainSpec t bs

def Shown.task : Shown → Task
  | .tagged t .. => t
  | .loose t _ => t

/-- What can be shown as said. -/
def Shown.Ok : Shown → Prop
  | .tagged t level tag text last => level < 10 ∧ NoNul tag ∧ NoNul text ∧ last ≠ 0 ∧ prefixLen t + (4 + tag.length + 1) < 4076
  | .loose _ bs => NoNul bs

theorem sh_prefixLen_le (t : Task) : prefixLen t ≤ 34 := by
  have h : ∀ c : Bytes, (taskName c).length ≤ 16 := fun c =>
    Nat.le_trans (List.takeWhile_sublist _).length_le (by rw [List.length_take]; omega)
  have h1 := h t.pcomm
  have h2 := h t.tcomm
  unfold prefixLen
  split <;> omega

theorem specPayload_eq (t : Task) (data : Bytes) :
    specPayload t data = taskName t.pcomm ++ [0] ++ (if t.pid = t.tid then [] else taskName t.tcomm ++ [0]) ++ data.take (4076 - prefixLen t) := by
  have hp : prefixLen t = (taskName t.pcomm ++ [0] ++ (if t.pid = t.tid then [] else taskName t.tcomm ++ [0])).length := by
    unfold prefixLen
    split <;> simp <;> omega
  have := sh_prefixLen_le t
  unfold specPayload
  rw [List.take_append, List.take_of_length_le (by omega), hp]

theorem plainSpec_size (t : Task) (data : Bytes) : (plainSpec t data).size = 24 + min 4076 (prefixLen t + data.length) := by
  have hp : prefixLen t = (taskName t.pcomm ++ [0] ++ (if t.pid = t.tid then [] else taskName t.tcomm ++ [0])).length := by
    unfold prefixLen
    split <;> simp <;> omega
  unfold Entry.size plainSpec specPayload
  dsimp only
  rw [List.length_take, List.length_append, ← hp]

theorem taskName_noNul (c : Bytes) : NoNul (taskName c) := by
  intro b hb
  have := (List.all_takeWhile (p := (· != 0)) (l := c.take 16))
  rw [List.all_eq_true] at this
  simpa using this b hb

theorem decode_data (t : Task) (data : Bytes) :
    decode (t.pid != t.tid) (specPayload t data) =
      decodeBody (taskName t.pcomm) (if t.pid = t.tid then taskName t.pcomm else taskName t.tcomm) (data.take (4076 - prefixLen t)) := by
  rw [specPayload_eq]
  by_cases h : t.pid = t.tid
  · rw [if_pos h, if_pos h, show (t.pid != t.tid) = false by simp [h]]
    rw [show taskName t.pcomm ++ [0] ++ [] ++ data.take (4076 - prefixLen t) = taskName t.pcomm ++ 0 :: data.take (4076 - prefixLen t) by simp]
    exact decode_one (taskName_noNul _) _
  · rw [if_neg h, if_neg h, show (t.pid != t.tid) = true by simp [h]]
    rw [show taskName t.pcomm ++ [0] ++ (taskName t.tcomm ++ [0]) ++ data.take (4076 - prefixLen t) =
      taskName t.pcomm ++ 0 :: (taskName t.tcomm ++ 0 :: data.take (4076 - prefixLen t)) by simp]
    exact decode_two (taskName_noNul _) (taskName_noNul _) _

theorem token_noNul {r : Bytes} (h : NoNul r) : token r = none := by
  unfold token
  rw [if_neg fun h0 => h 0 h0 rfl]

theorem decodeBody_noNul {pn tn bs : Bytes} (h : NoNul bs) : decodeBody pn tn bs = unformatted bs := by
  unfold decodeBody
  split
  · rename_i b0 b1 b2 b3 r
    rw [token_noNul (fun b hb => h b (by simp [hb]))]
  · rfl

theorem clip_noNul {bs : Bytes} (h : NoNul bs) : clip bs = bs.dropLast := by
  unfold clip
  rw [if_neg fun h0 => h 0 h0 rfl]

theorem Shown.entry_size {x : Shown} (h : x.Ok) : x.entry.size = x.size := by
  cases x with
  | loose t bs => exact plainSpec_size t bs
  | tagged t level tag text last =>
    obtain ⟨hl, _⟩ := h
    show (plainSpec t _).size = _
    rw [plainSpec_size]
    unfold head Shown.size
    have : (decNat level).length = 1 := by unfold decNat; rw [dif_pos hl]; rfl
    simp only [List.length_append, List.length_cons, List.length_nil, this]
    omega

theorem Shown.entry_text {x : Shown} (h : x.Ok) {L : Look} (hk : L.kmsgd = false) : entryText L x.entry = x.lines L := by
  cases x with
  | loose t bs =>
    have hx : NoNul bs := h
    have hx' : NoNul (bs.take (4076 - prefixLen t)) := fun b hb => hx b (List.mem_of_mem_take hb)
    have hp := sh_prefixLen_le t
    have hd : decode ((plainSpec t bs).pid != (plainSpec t bs).tid) (plainSpec t bs).payload =
        { pname := [], tname := [], tag := [], level := 6, color := 0
          msg := .text (if bs = [] then ascii "<<zero-length>>" else (bs.take (4076 - prefixLen t)).dropLast) } := by
      show decode (t.pid != t.tid) (specPayload t bs) = _
      rw [decode_data, decodeBody_noNul hx']
      unfold unformatted
      rw [clip_noNul hx', cstr_of_noNul_all hx']
      by_cases hb : bs = []
      · subst hb; rw [List.take_nil]
      · rw [if_neg hb, if_neg]
        intro h0
        have h1 := congrArg List.length h0
        rw [List.length_take, List.length_nil] at h1
        have : 0 < bs.length := List.length_pos_iff.2 hb
        omega
    exact entryText_of L hk hd
  | tagged t level tag text last =>
    obtain ⟨hl, ht, hx, hlast, hfit⟩ := h
    have hdig : decNat level = [UInt8.ofNat (48 + level)] := by unfold decNat; rw [dif_pos hl]
    have hw : head level tag ++ (text ++ [last]) = le32 (UInt32.ofNat (48 + level)) ++ tag ++ 0 :: (text ++ [last]) := by
      have : le32 (UInt32.ofNat (48 + level)) = [UInt8.ofNat (48 + level), 0, 0, 0] := by
        have : ∀ l < 10, le32 (UInt32.ofNat (48 + l)) = [UInt8.ofNat (48 + l), 0, 0, 0] := by decide +kernel
        exact this level hl
      unfold head
      rw [hdig, this]
      simp
    have hd := decode_plain (t := t) (prio := UInt32.ofNat (48 + level)) (tag := tag) (msg := text ++ [last]) (by omega)
    have hb : prioBinary (UInt32.ofNat (48 + level)) = false ∧ prioLevel (UInt32.ofNat (48 + level)) = level % 8 ∧
        prioColor (UInt32.ofNat (48 + level)) = 0 ∧ (UInt32.ofNat (level % 8)).toNat = level % 8 := by
      have : ∀ l < 10, prioBinary (UInt32.ofNat (48 + l)) = false ∧ prioLevel (UInt32.ofNat (48 + l)) = l % 8 ∧
        prioColor (UInt32.ofNat (48 + l)) = 0 ∧ (UInt32.ofNat (l % 8)).toNat = l % 8 := by decide +kernel
      exact this level hl
    have hx' : NoNul (text ++ [last]) := by
      intro b hb
      rcases List.mem_append.1 hb with hb | hb
      · exact hx b hb
      · rw [List.mem_singleton.1 hb]; exact hlast
    generalize hn : 4076 - prefixLen t - (4 + tag.length + 1) = n at hd
    have hcl : clip ((text ++ [last]).take n) = text.take (4070 - prefixLen t - tag.length) := by
      rw [clip_noNul fun b hb => hx' b (List.mem_of_mem_take hb), List.dropLast_eq_take, List.take_take, List.length_take]
      simp only [List.length_append, List.length_cons, List.length_nil]
      rw [List.take_append_of_le_length (by omega)]
      by_cases hc : text.length + 1 ≤ n
      · rw [List.take_of_length_le (by omega), List.take_of_length_le (by omega)]
      · congr 1; omega
    have hne : (text ++ [last]).take n ≠ [] := by
      intro h
      have := congrArg List.length h
      rw [List.length_take] at this
      simp at this
      omega
    rw [decodeBody_prio ht, hb.1, if_neg (by simp), if_neg hne, hcl, hb.2.1, hb.2.2.1, ← hw] at hd
    have := entryText_of L hk (e := plainSpec t (head level tag ++ (text ++ [last]))) hd
    show entryText L (plainSpec t (head level tag ++ (text ++ [last]))) = _
    rw [this]
    unfold Shown.lines taskInfo threadName
    dsimp only
    rw [hb.2.2.2, Nat.mod_mod, Nat.div_eq_of_lt (by omega)]
    rfl

/-! ## The driver -/

/-- Ordinary writes to an open file are taken. -/
theorem plain_writes (name : Bytes) (fid : Nat) (t : Task) (junk : Nat → UInt8) : ∀ (ws : List Bytes) (a : ASys) (o : Obs),
    a.files fid = some { rd := false, wr := true, raw := false } → o.raw fid = false →
    ∃ l, (arun a (ws.map fun w => .write fid t (userVec [w]) junk)).1 = { a with log := l } ∧
      (∀ p ∈ (arun a (ws.map fun w => .write fid t (userVec [w]) junk)).2, ∃ n, p.2 = .ret n) ∧
      (arun a (ws.map fun w => .write fid t (userVec [w]) junk)).2.foldl (obsStep name) o = { o with hist := o.hist ++ ws.map (plainSpec t) } := by
  intro ws
  induction ws with
  | nil => intro a o _ _; exact ⟨a.log, rfl, by simp [arun], by simp [arun]⟩
  | cons w ws ih =>
    intro a o hf hr
    obtain ⟨l, n, h1⟩ := astep_write hf t [w] junk
    obtain ⟨l', i1, i2, i3⟩ := ih { a with log := l } { o with hist := o.hist ++ [plainSpec t w] } hf hr
    simp only [List.map_cons, arun, h1]
    refine ⟨l', i1, ?_, ?_⟩
    · intro p hp
      rcases List.mem_cons.1 hp with rfl | hp
      · exact ⟨n, rfl⟩
      · exact i2 p hp
    · rw [List.foldl_cons]
      have : obsStep name o (.write fid t (userVec [w]) junk, .ret n) = { o with hist := o.hist ++ [plainSpec t w] } := by
        simp only [obsStep, hr, userVec_bytes]
        simp
      rw [this, i3]
      simp

/-- The library of a process that has the device open. -/
def openLib : Lib := { Lib.start with writer := .kernel, fd := some 0 }

/-- Whether an effect reopens standard output. -/
def Eff.redirects : Eff → Bool
  | .exec _ => true
  | _ => false

/-- What an effect commits. -/
def Eff.entries : Eff → List Entry
  | .dev t ws => ws.map (plainSpec t)
  | .out t bs => [plainSpec t bs]
  | _ => []

/-- One effect; `libs` stands for who has the device open, scripts included. -/
theorem eff_one (name : Bytes) (junk : Nat → UInt8) (s : Nat) (e : Eff) {libs : Nat → Lib} {a : ASys} {o : Obs} (hF : FilesOk libs a) (hO : ObsOk o)
    (hopen : (∃ t bs, e = .out t bs) ∨ e = .exec true → (libs s).writer ≠ .init) (hfresh : e = .exec false → (libs s).writer = .init) :
    (∀ op ∈ effOps s junk e, op.supported = true) ∧
      FilesOk (fun p => if p = s ∧ e.redirects = true then openLib else libs p) (arun a (effOps s junk e)).1 ∧
      ObsOk ((arun a (effOps s junk e)).2.foldl (obsStep name) o) ∧
      ((arun a (effOps s junk e)).2.foldl (obsStep name) o).hist = o.hist ++ e.entries ∧
      ∀ p ∈ (arun a (effOps s junk e)).2, ∀ x, p.2 ≠ .err x := by
  have hsame : ∀ b : ASys, b.files = a.files → e.redirects ≠ true → FilesOk (fun p => if p = s ∧ e.redirects = true then openLib else libs p) b := by
    intro b hb hn
    have : (fun p => if p = s ∧ e.redirects = true then openLib else libs p) = libs := by
      funext p
      rw [if_neg fun h => hn h.2]
    rw [this]
    exact ⟨by rw [hb]; exact hF.viewer, fun p => by rw [hb]; exact hF.fresh p, fun p => by rw [hb]; exact hF.opened p⟩
  cases e with
  | con bs => exact ⟨by simp [effOps], hsame a rfl (by simp [Eff.redirects]), hO, by simp [effOps, arun, Eff.entries], by simp [effOps, arun]⟩
  | out t bs =>
    have hf := hF.opened s (hopen (.inl ⟨t, bs, rfl⟩))
    obtain ⟨l, h1, h2, h3⟩ := plain_writes name (s + 1) t junk [bs] a o hf (hO.raw s)
    refine ⟨by simp [effOps, Op.supported, userVec_supported], ?_, ?_, ?_, ?_⟩
    · show FilesOk _ (arun a ([bs].map fun w => .write (s + 1) t (userVec [w]) junk)).1
      rw [h1]; exact hsame _ rfl (by simp [Eff.redirects])
    · show ObsOk ((arun a ([bs].map fun w => .write (s + 1) t (userVec [w]) junk)).2.foldl (obsStep name) o)
      rw [h3]; exact ⟨hO.raw, hO.base⟩
    · show ((arun a ([bs].map fun w => .write (s + 1) t (userVec [w]) junk)).2.foldl (obsStep name) o).hist = _
      rw [h3]; rfl
    · intro p hp x
      obtain ⟨n, hn⟩ := h2 p hp
      rw [hn]; simp
  | dev t ws =>
    have s1 : astep a (.openF 0 false true false) = (a.setFile 0 (some { rd := false, wr := true, raw := false }), .ok) := by
      simp only [astep, Op.fid, hF.viewer]
      rfl
    generalize hb : a.setFile 0 (some { rd := false, wr := true, raw := false }) = b at s1
    have hb0 : b.files 0 = some { rd := false, wr := true, raw := false } := by rw [← hb]; simp [ASys.setFile]
    obtain ⟨l, w1, w2, w3⟩ := plain_writes name 0 t junk ws b { o with raw := upd o.raw 0 false, rds := upd o.rds 0 none } hb0 (by simp [upd])
    have s4 : astep { b with log := l } (.release 0) = (({ b with log := l } : ASys).setFile 0 none, .ok) := by
      simp only [astep, Op.fid, hb0, astepFile]
      rfl
    have har : arun a (effOps s junk (.dev t ws)) = (({ b with log := l } : ASys).setFile 0 none,
        (.openF 0 false true false, .ok) :: ((arun b (ws.map fun w => .write 0 t (userVec [w]) junk)).2 ++ [(.release 0, .ok)])) := by
      unfold effOps
      simp only [arun, s1, arun_append, w1, s4]
    have hobs : (arun a (effOps s junk (.dev t ws))).2.foldl (obsStep name) o =
        { o with raw := upd o.raw 0 false, hist := o.hist ++ ws.map (plainSpec t), rds := upd (upd o.rds 0 none) 0 none } := by
      rw [har]
      simp only [List.foldl_cons, List.foldl_append, List.foldl_nil]
      have : obsStep name o (.openF 0 false true false, .ok) = { o with raw := upd o.raw 0 false, rds := upd o.rds 0 none } := by
        simp [obsStep]
      rw [this, w3]
      rfl
    refine ⟨?_, ?_, ?_, ?_, ?_⟩
    · intro op hop
      simp only [effOps, List.mem_cons, List.mem_append, List.mem_map, List.not_mem_nil, or_false] at hop
      rcases hop with rfl | ⟨w, _, rfl⟩ | rfl <;> rfl
    · rw [har]
      refine hsame _ ?_ (by simp [Eff.redirects])
      rw [← hb]
      funext i
      simp only [ASys.setFile]
      by_cases hi : i = 0
      · rw [if_pos hi, hi]; exact hF.viewer.symm
      · rw [if_neg hi, if_neg hi]
    · rw [hobs]
      refine ⟨fun p => ?_, hO.base⟩
      have := hO.raw p
      simpa [upd] using this
    · rw [hobs]; rfl
    · intro p hp x
      rw [har] at hp
      simp only [List.mem_cons, List.mem_append, List.not_mem_nil, or_false] at hp
      rcases hp with rfl | hp | rfl
      · simp
      · obtain ⟨n, hn⟩ := w2 p hp
        rw [hn]; simp
      · simp
  | exec again =>
    have hnew : ∀ b : ASys, (∀ i, i ≠ s + 1 → b.files i = a.files i) → b.files (s + 1) = some { rd := false, wr := true, raw := false } →
        FilesOk (fun p => if p = s ∧ (Eff.exec again).redirects = true then openLib else libs p) b := by
      intro b hb1 hb2
      have hx : ∀ p, (if p = s ∧ (Eff.exec again).redirects = true then openLib else libs p) = if p = s then openLib else libs p := by
        intro p; simp [Eff.redirects]
      refine ⟨by rw [hb1 0 (by omega)]; exact hF.viewer, fun p => ?_, fun p => ?_⟩
      · rw [hx]
        by_cases hp : p = s
        · rw [if_pos hp]; intro h; cases h
        · rw [if_neg hp, hb1 _ (by omega)]; exact hF.fresh p
      · rw [hx]
        by_cases hp : p = s
        · intro _; rw [hp]; exact hb2
        · rw [if_neg hp, hb1 _ (by omega)]; exact hF.opened p
    have hopenF : ∀ b : ASys, b.files (s + 1) = none → astep b (.openF (s + 1) false true false) =
        (b.setFile (s + 1) (some { rd := false, wr := true, raw := false }), .ok) := by
      intro b hb
      simp only [astep, Op.fid, hb]
      rfl
    have hobsR : ∀ (o : Obs), (∀ p, o.raw (p + 1) = false) → ∀ p, upd o.raw (s + 1) false (p + 1) = false := by
      intro o h p
      simp only [upd]
      split
      · rfl
      · exact h p
    cases again with
    | false =>
      have har : arun a (effOps s junk (.exec false)) = (a.setFile (s + 1) (some { rd := false, wr := true, raw := false }),
          [(.openF (s + 1) false true false, .ok)]) := by
        simp only [effOps, Bool.false_eq_true, if_false, List.nil_append, arun, hopenF a (hF.fresh s (hfresh rfl))]
      refine ⟨by simp [effOps, Op.supported], ?_, ?_, ?_, ?_⟩
      · rw [har]
        exact hnew _ (fun i hi => by simp [ASys.setFile, hi]) (by simp [ASys.setFile])
      · rw [har]
        exact ⟨hobsR o hO.raw, hO.base⟩
      · rw [har]; exact (List.append_nil _).symm
      · rw [har]; simp
    | true =>
      have hf := hF.opened s (hopen (.inr rfl))
      have s0 : astep a (.release (s + 1)) = (a.setFile (s + 1) none, .ok) := by
        simp only [astep, Op.fid, hf, astepFile]
        rfl
      have har : arun a (effOps s junk (.exec true)) = ((a.setFile (s + 1) none).setFile (s + 1) (some { rd := false, wr := true, raw := false }),
          [(.release (s + 1), .ok), (.openF (s + 1) false true false, .ok)]) := by
        simp only [effOps, if_true, List.cons_append, List.nil_append, arun, s0, hopenF (a.setFile (s + 1) none) (by simp [ASys.setFile])]
      refine ⟨by simp [effOps, Op.supported], ?_, ?_, ?_, ?_⟩
      · rw [har]
        exact hnew _ (fun i hi => by simp [ASys.setFile, hi]) (by simp [ASys.setFile])
      · rw [har]
        exact ⟨hobsR o hO.raw, hO.base⟩
      · rw [har]; exact (List.append_nil _).symm
      · rw [har]; simp

/-- Several, none of which redirects. -/
theorem eff_all (name : Bytes) (junk : Nat → UInt8) (s : Nat) (es : List Eff) (hes : ∀ e ∈ es, e.redirects ≠ true) :
    ∀ {libs : Nat → Lib} {a : ASys} {o : Obs}, FilesOk libs a → ObsOk o → ((∃ t bs, Eff.out t bs ∈ es) → (libs s).writer ≠ .init) →
    (∀ op ∈ es.flatMap (effOps s junk), op.supported = true) ∧ FilesOk libs (arun a (es.flatMap (effOps s junk))).1 ∧
      ObsOk ((arun a (es.flatMap (effOps s junk))).2.foldl (obsStep name) o) ∧
      ((arun a (es.flatMap (effOps s junk))).2.foldl (obsStep name) o).hist = o.hist ++ es.flatMap Eff.entries ∧
      ∀ p ∈ (arun a (es.flatMap (effOps s junk))).2, ∀ x, p.2 ≠ .err x := by
  induction es with
  | nil => intro libs a o hF hO _; exact ⟨by simp, hF, hO, by simp [arun], by simp [arun]⟩
  | cons e es ih =>
    intro libs a o hF hO hout
    have hne := hes e (by simp)
    obtain ⟨g1, g2, g3, g4, g5⟩ := eff_one name junk s e hF hO
      (by rintro (⟨t, bs, rfl⟩ | h)
          · exact hout ⟨t, bs, by simp⟩
          · exact absurd (by rw [h]; rfl) hne) (fun h => absurd (by rw [h]; rfl) hne)
    have hl : (fun p => if p = s ∧ e.redirects = true then openLib else libs p) = libs := by
      funext p
      rw [if_neg fun h => hne h.2]
    rw [hl] at g2
    obtain ⟨i1, i2, i3, i4, i5⟩ := ih (fun x hx => hes x (by simp [hx])) g2 g3 (fun ⟨t, bs, h⟩ => hout ⟨t, bs, by simp [h]⟩)
    rw [List.flatMap_cons, arun_append, List.foldl_append]
    refine ⟨fun op hop => (List.mem_append.1 hop).elim (g1 op) (i1 op), i2, i3, ?_, fun p hp => (List.mem_append.1 hp).elim (g5 p) (i5 p)⟩
    rw [i4, g4, List.append_assoc, List.flatMap_cons]

/-! ## Calls -/

/-- Who has the device open, scripts included. -/
def holders (isScr : Nat → Bool) (scr : Nat → Scr) (libs : Nat → Lib) (p : Nat) : Lib :=
  if isScr p then (if (scr p).redirected then openLib else .start) else libs p

theorem print_entries (s : Scr) (t : Task) (ws : List Bytes) :
    (ws.map (print s t)).flatMap Eff.entries = if s.redirected = true then ws.map (plainSpec t) else [] := by
  rw [Ulogcat.flatMap_map]
  unfold print
  cases h : s.redirected
  · simp only [Bool.false_eq_true, if_false]
    induction ws with
    | nil => rfl
    | cons w ws ih => rw [List.flatMap_cons, ih]; rfl
  · simp only [if_true]
    induction ws with
    | nil => rfl
    | cons w ws ih => rw [List.flatMap_cons, ih]; rfl

theorem loose_entries (t : Task) (ws : List Bytes) : (ws.map (Shown.loose t)).map Shown.entry = ws.map (plainSpec t) := by
  rw [List.map_map]
  rfl

theorem dropLast_getLastD {m : Bytes} (h : m ≠ []) : m.dropLast ++ [m.getLastD 10] = m := by
  rw [List.getLastD_eq_getLast?, List.getLast?_eq_some_getLast h]
  exact List.dropLast_concat_getLast h

theorem call_entries {sh : Shell} {s : Scr} {c : Call} (h : c.Plain sh s) :
    (call sh s c).2.flatMap Eff.entries = (gives sh s c).map Shown.entry ∧ ∀ x ∈ gives sh s c, x.Ok ∧ ¬ (x.task.pid = 0xffffffff ∧ x.task.tid = 0xffffffff) := by
  cases c with
  | assign v => exact ⟨rfl, by simp [gives]⟩
  | source =>
    refine ⟨?_, by simp [gives]⟩
    show (source s).2.flatMap Eff.entries = []
    unfold source
    dsimp only
    generalize (if s.vars.stderr = some yes then ({ s.vars with noRedirect := some yes } : Vars) else s.vars) = v
    by_cases hv : v.noRedirect ≠ some yes
    · rw [if_pos hv]; rfl
    · rw [if_neg hv]; rfl
  | print t bs =>
    have h1 : (call sh s (.print t bs)).2.flatMap Eff.entries = _ := print_entries s t [bs]
    rw [h1]
    unfold gives
    dsimp only
    split
    · refine ⟨rfl, fun x hx => ?_⟩
      rw [List.mem_singleton.1 hx]
      exact h
    · exact ⟨rfl, by simp⟩
  | log t level message =>
    obtain ⟨hl, ht, hm, hfit, htask, ⟨m, ws, hne, hp, hcat⟩, herr⟩ := h
    unfold gives call log
    dsimp only
    generalize s.vars.tag.getD (ascii "(shell script)") = tag at *
    rw [hp]
    have hmn : NoNul m := by
      intro b hb
      have : b ∈ message ++ [10] := by rw [← hcat]; simp [hb]
      rcases List.mem_append.1 this with h | h
      · exact hm b h
      · rw [List.mem_singleton.1 h]; decide
    have hwn : ∀ w ∈ ws, NoNul w := by
      intro w hw b hb
      have : b ∈ message ++ [10] := by
        rw [← hcat]
        exact List.mem_append_right _ (List.mem_flatten.2 ⟨w, hw, hb⟩)
      rcases List.mem_append.1 this with h | h
      · exact hm b h
      · rw [List.mem_singleton.1 h]; decide
    dsimp only
    rw [List.drop_left]
    constructor
    · rw [List.flatMap_append, List.map_append]
      have h2 : List.flatMap Eff.entries [Eff.dev t ((head level tag ++ m) :: ws)] =
          List.map Shown.entry (.tagged t level tag m.dropLast (m.getLastD 10) :: ws.map (.loose t)) := by
        rw [List.map_cons, loose_entries]
        simp only [Shown.entry, dropLast_getLastD hne]
        simp [Eff.entries]
      rw [h2]
      refine congrArg (· ++ _) ?_
      by_cases hs : s.vars.stderr = some yes
      · rw [if_pos hs, print_entries]
        by_cases hr : s.redirected = true
        · rw [if_pos hr, if_pos ⟨hs, hr⟩, loose_entries]
        · rw [if_neg hr, if_neg fun h => hr h.2]; rfl
      · rw [if_neg hs, if_neg fun h => hs h.1]; rfl
    · intro x hx
      rcases List.mem_append.1 hx with hx | hx
      · split at hx
        · rename_i hc
          obtain ⟨w, hw, rfl⟩ := List.mem_map.1 hx
          exact ⟨herr hc.1 hc.2 w hw, htask⟩
        · simp at hx
      · rcases List.mem_cons.1 hx with rfl | hx
        · refine ⟨⟨hl, ht, fun b hb => hmn b ((List.dropLast_sublist m).subset hb), ?_, hfit⟩, htask⟩
          refine hmn _ ?_
          have := dropLast_getLastD hne
          exact this ▸ List.mem_append_right _ (by rw [this]; exact List.mem_singleton.2 rfl)
        · obtain ⟨w, hw, rfl⟩ := List.mem_map.1 hx
          exact ⟨hwn w hw, htask⟩

theorem call_noExec (sh : Shell) (s : Scr) (c : Call) (hc : c ≠ .source) :
    (∀ e ∈ (call sh s c).2, e.redirects ≠ true) ∧ ((∃ t bs, Eff.out t bs ∈ (call sh s c).2) → s.redirected = true) ∧ (call sh s c).1.redirected = s.redirected := by
  have hpr : ∀ t bs, (print s t bs).redirects ≠ true := by
    intro t bs
    unfold print
    split <;> simp [Eff.redirects]
  have hpo : ∀ t bs t' bs', Eff.out t bs = print s t' bs' → s.redirected = true := by
    intro t bs t' bs' h
    unfold print at h
    split at h
    · assumption
    · cases h
  cases c with
  | source => exact absurd rfl hc
  | assign v => exact ⟨by simp [call], by simp [call], rfl⟩
  | print t bs =>
    refine ⟨?_, ?_, rfl⟩
    · intro e he
      rw [List.mem_singleton.1 he]
      exact hpr t bs
    · rintro ⟨t', bs', h⟩
      exact hpo _ _ _ _ (List.mem_singleton.1 h)
  | log t level message =>
    refine ⟨?_, ?_, rfl⟩
    · intro e he
      unfold call log at he
      dsimp only at he
      rcases List.mem_append.1 he with he | he
      · split at he
        · obtain ⟨w, _, rfl⟩ := List.mem_map.1 he
          exact hpr t w
        · simp at he
      · rw [List.mem_singleton.1 he]; simp [Eff.redirects]
    · rintro ⟨t', bs', he⟩
      unfold call log at he
      dsimp only at he
      rcases List.mem_append.1 he with he | he
      · split at he
        · obtain ⟨w, _, h⟩ := List.mem_map.1 he
          exact hpo _ _ _ _ h.symm
        · simp at he
      · cases List.mem_singleton.1 he

/-- One call of a script. -/
theorem call_run (name : Bytes) (junk : Nat → UInt8) {sh : Shell} {isScr : Nat → Bool} {scr : Nat → Scr} {libs : Nat → Lib} {s : Nat} (hs : isScr s = true) (c : Call)
    {a : ASys} {o : Obs} (hF : FilesOk (holders isScr scr libs) a) (hO : ObsOk o) :
    (∀ op ∈ (call sh (scr s) c).2.flatMap (effOps s junk), op.supported = true) ∧
      FilesOk (holders isScr (fun q => if q = s then (call sh (scr s) c).1 else scr q) libs) (arun a ((call sh (scr s) c).2.flatMap (effOps s junk))).1 ∧
      ObsOk ((arun a ((call sh (scr s) c).2.flatMap (effOps s junk))).2.foldl (obsStep name) o) ∧
      ((arun a ((call sh (scr s) c).2.flatMap (effOps s junk))).2.foldl (obsStep name) o).hist = o.hist ++ (call sh (scr s) c).2.flatMap Eff.entries ∧
      ∀ p ∈ (arun a ((call sh (scr s) c).2.flatMap (effOps s junk))).2, ∀ x, p.2 ≠ .err x := by
  have hhold : (holders isScr scr libs s).writer = if (scr s).redirected = true then .kernel else .init := by
    unfold holders
    rw [if_pos hs]
    split <;> rfl
  by_cases hc : c = .source
  · subst hc
    show (∀ op ∈ (source (scr s)).2.flatMap (effOps s junk), op.supported = true) ∧
      FilesOk (holders isScr (fun q => if q = s then (source (scr s)).1 else scr q) libs) (arun a ((source (scr s)).2.flatMap (effOps s junk))).1 ∧
      ObsOk ((arun a ((source (scr s)).2.flatMap (effOps s junk))).2.foldl (obsStep name) o) ∧
      ((arun a ((source (scr s)).2.flatMap (effOps s junk))).2.foldl (obsStep name) o).hist = o.hist ++ (source (scr s)).2.flatMap Eff.entries ∧
      ∀ p ∈ (arun a ((source (scr s)).2.flatMap (effOps s junk))).2, ∀ x, p.2 ≠ .err x
    unfold source
    dsimp only
    generalize (if (scr s).vars.stderr = some yes then ({ (scr s).vars with noRedirect := some yes } : Vars) else (scr s).vars) = v
    by_cases hv : v.noRedirect ≠ some yes
    · rw [if_pos hv]
      obtain ⟨g1, g2, g3, g4, g5⟩ := eff_one name junk s (.exec (scr s).redirected) hF hO
        (by rintro (⟨t, bs, h⟩ | h)
            · cases h
            · rw [hhold, if_pos (Eff.exec.inj h)]; simp)
        (fun h => by rw [hhold, if_neg (by rw [Eff.exec.inj h]; simp)])
      simp only [List.flatMap_cons, List.flatMap_nil, List.append_nil]
      refine ⟨g1, ?_, g3, g4, g5⟩
      have : (fun p => if p = s ∧ (Eff.exec (scr s).redirected).redirects = true then openLib else holders isScr scr libs p) =
          holders isScr (fun q => if q = s then { vars := v, redirected := true } else scr q) libs := by
        funext p
        unfold holders
        by_cases hp : p = s
        · subst hp
          simp [Eff.redirects, hs]
        · simp [hp]
      rw [← this]
      exact g2
    · rw [if_neg hv]
      refine ⟨by simp, ?_, by simpa [arun] using hO, by simp [arun], by simp [arun]⟩
      have : holders isScr (fun q => if q = s then { scr s with vars := v } else scr q) libs = holders isScr scr libs := by
        funext p
        unfold holders
        by_cases hp : p = s
        · subst hp; simp
        · simp [hp]
      rw [this]
      exact hF
  · obtain ⟨h1, h2, h3⟩ := call_noExec sh (scr s) c hc
    have h := eff_all name junk s (call sh (scr s) c).2 h1 hF hO (fun hx => by rw [hhold, if_pos (h2 hx)]; simp)
    have : holders isScr (fun q => if q = s then (call sh (scr s) c).1 else scr q) libs = holders isScr scr libs := by
      funext p
      unfold holders
      by_cases hp : p = s
      · subst hp; simp [h3]
      · simp [hp]
    rw [this]
    exact h

/-! ## All steps -/

def allEntries (P : Nat → Prog) (sh : Nat → Shell) : (Nat → Scr) → List Step → List Entry
  | _, [] => []
  | scr, .said m :: xs => (if m.passes P then [m.entry P] else []) ++ allEntries P sh scr xs
  | scr, .script s c :: xs =>
    (gives (sh s) (scr s) c).map Shown.entry ++ allEntries P sh (fun q => if q = s then (call (sh s) (scr s) c).1 else scr q) xs

theorem holdersOk {P : Nat → Prog} {isScr : Nat → Bool} {scr : Nat → Scr} {libs : Nat → Lib} (h : ∀ p, LibOk (P p) (libs p)) (p : Nat) :
    LibOk (P p) (holders isScr scr libs p) := by
  have h0 : LibOk (P p) Lib.start := ⟨rfl, rfl, fun c => .inl (by show (-1 : Int) < 0; decide), .inl rfl⟩
  have h1 : LibOk (P p) openLib := ⟨rfl, rfl, fun c => .inl (by show (-1 : Int) < 0; decide), .inr ⟨rfl, 0, rfl⟩⟩
  unfold holders
  split
  · split
    · exact h1
    · exact h0
  · exact h p

theorem steps_all {D : Bytes} {P : Nat → Prog} (hP : ∀ p, (P p).Plain D) (sh : Nat → Shell) (isScr : Nat → Bool) (name : Bytes) (junk : Nat → UInt8)
    (xs : List Step) : ∀ {libs : Nat → Lib} {scr : Nat → Scr} {a : ASys} {o : Obs}, allPlain P sh isScr scr xs → (∀ p, LibOk (P p) (libs p)) →
    FilesOk (holders isScr scr libs) a → ObsOk o →
    ∃ ops, runSteps P sh junk libs scr xs = .ok ops ∧ (∀ op ∈ ops, op.supported = true) ∧ (arun a ops).1.files 0 = none ∧
      ObsOk ((arun a ops).2.foldl (obsStep name) o) ∧
      ((arun a ops).2.foldl (obsStep name) o).hist = o.hist ++ allEntries P sh scr xs ∧
      ∀ p ∈ (arun a ops).2, ∀ e, p.2 ≠ .err e := by
  induction xs with
  | nil =>
    intro libs scr a o _ _ hF hO
    exact ⟨[], rfl, by simp, hF.viewer, hO, by simp [arun, allEntries], by simp [arun]⟩
  | cons x xs ih =>
    intro libs scr a o hpl hL hF hO
    cases x with
    | said m =>
      obtain ⟨hs, hm, hrest⟩ := hpl
      have hl : holders isScr scr libs m.prog = libs m.prog := by unfold holders; rw [hs]; rfl
      obtain ⟨s', e, e1, g1, g2, g3, g4, g5, g6⟩ := say_one hP name junk m (holdersOk (isScr := isScr) (scr := scr) hL) hF hO
      rw [hl] at e1
      have hh : (fun p => if p = m.prog then s' else holders isScr scr libs p) = holders isScr scr (fun p => if p = m.prog then s' else libs p) := by
        funext p
        unfold holders
        by_cases hp : p = m.prog
        · subst hp; simp [hs]
        · simp [hp]
      have g1' : ∀ p, LibOk (P p) (if p = m.prog then s' else libs p) := by
        intro p
        by_cases hp : p = m.prog
        · have := g1 p
          rw [if_pos hp] at this ⊢
          exact this
        · rw [if_neg hp]; exact hL p
      rw [hh] at g3
      obtain ⟨ops, i1, i2, i3, i4, i5, i6⟩ := ih hrest g1' g3 g4
      refine ⟨e.flatMap (driverOps (m.prog + 1) m.task junk) ++ ops, ?_, ?_, ?_, ?_, ?_, ?_⟩
      rotate_left
      · exact fun op hop => (List.mem_append.1 hop).elim (g2 op) (i2 op)
      · rw [arun_append]; exact i3
      · rw [arun_append, List.foldl_append]; exact i4
      · rw [arun_append, List.foldl_append, i5, g5, List.append_assoc]
        rfl
      · rw [arun_append]
        exact fun p hp => (List.mem_append.1 hp).elim (g6 p) (i6 p)
      · unfold runSteps
        rw [e1]
        simp only [bind, Except.bind]
        rw [i1]
    | script s c =>
      obtain ⟨hs, hm, hrest⟩ := hpl
      obtain ⟨g2, g3, g4, g5, g6⟩ := call_run name junk (sh := sh s) hs c hF hO
      obtain ⟨ops, i1, i2, i3, i4, i5, i6⟩ := ih hrest hL g3 g4
      refine ⟨(call (sh s) (scr s) c).2.flatMap (effOps s junk) ++ ops, ?_, ?_, ?_, ?_, ?_, ?_⟩
      rotate_left
      · exact fun op hop => (List.mem_append.1 hop).elim (g2 op) (i2 op)
      · rw [arun_append]; exact i3
      · rw [arun_append, List.foldl_append]; exact i4
      · rw [arun_append, List.foldl_append, i5, g5, List.append_assoc, (call_entries hm).1]
        rfl
      · rw [arun_append]
        exact fun p hp => (List.mem_append.1 hp).elim (g6 p) (i6 p)
      · unfold runSteps
        simp only [bind, Except.bind]
        rw [i1]

theorem all_genuine {P : Nat → Prog} {sh : Nat → Shell} {isScr : Nat → Bool} (xs : List Step) : ∀ {scr : Nat → Scr}, allPlain P sh isScr scr xs →
    Genuine (allEntries P sh scr xs) ∧ (allEntries P sh scr xs).length = allCount P sh scr xs ∧ bytesLen (allEntries P sh scr xs) = allSize P sh scr xs ∧
      ∀ {L : Look}, L.kmsgd = false → (allEntries P sh scr xs).flatMap (entryText L) = allLines P sh L scr xs := by
  induction xs with
  | nil => intro scr _; exact ⟨by simp [Genuine, allEntries], rfl, rfl, fun _ => rfl⟩
  | cons x xs ih =>
    intro scr h
    cases x with
    | said m =>
      obtain ⟨_, hm, hrest⟩ := h
      obtain ⟨i1, i2, i3, i4⟩ := ih hrest
      unfold allEntries allCount allSize allLines
      by_cases hp : m.passes P = true
      · simp only [hp, if_true]
        refine ⟨?_, ?_, ?_, fun hk => ?_⟩
        · intro e he
          rcases List.mem_cons.1 he with rfl | he
          · exact hm.task
          · exact i1 e he
        · rw [List.singleton_append, List.length_cons, i2]; omega
        · rw [← i3, ← Said.entry_size]; simp [bytesLen]
        · rw [List.singleton_append, List.flatMap_cons, i4 hk, Said.entry_text hm hk]
      · rw [if_neg hp, if_neg hp, if_neg hp, List.nil_append, Nat.zero_add, Nat.zero_add]
        simp only [if_neg hp, List.nil_append]
        exact ⟨i1, i2, i3, i4⟩
    | script s c =>
      obtain ⟨_, hm, hrest⟩ := h
      obtain ⟨i1, i2, i3, i4⟩ := ih hrest
      have hok := (call_entries hm).2
      unfold allEntries allCount allSize allLines
      refine ⟨?_, ?_, ?_, fun hk => ?_⟩
      · intro e he
        rcases List.mem_append.1 he with he | he
        · obtain ⟨x, hx, rfl⟩ := List.mem_map.1 he
          have := (hok x hx).2
          cases x <;> exact this
        · exact i1 e he
      · rw [List.length_append, List.length_map, i2]
      · rw [← i3]
        have : ∀ l : List Shown, (∀ x ∈ l, x.Ok) → bytesLen (l.map Shown.entry) = (l.map Shown.size).sum := by
          intro l hl
          unfold bytesLen
          rw [List.map_map]
          congr 1
          exact List.map_congr_left fun x hx => Shown.entry_size (hl x hx)
        rw [← this _ fun x hx => (hok x hx).1]
        simp [bytesLen]
      · rw [List.flatMap_append, i4 hk, Ulogcat.flatMap_map]
        refine congrArg (· ++ _) ?_
        exact flatMap_congr' fun x hx => Shown.entry_text (hok x hx).1 hk

/-- C117. Programs and scripts log, then the viewer dumps the device. -/
theorem C117_screen {D : Bytes} {P : Nat → Prog} (hP : ∀ p, (P p).Plain D) {sh : Nat → Shell} {isScr : Nat → Bool} {scr : Nat → Scr}
    (hnew : ∀ s, (scr s).redirected = false) {xs : List Step} (hxs : allPlain P sh isScr scr xs) (junk : Nat → UInt8) {name : Bytes} {k : Nat}
    (buf : Nat → UInt8) (hk : 14 ≤ k) (hname : name.length ≤ 89) (hcount : allCount P sh scr xs < 2147483648)
    (hroom : allSize P sh scr xs + 8200 ≤ 2 ^ k) {L : Look} (hkd : L.kmsgd = false) :
    ∃ ops sys tr m, runSteps P sh junk (fun _ => .start) scr xs = .ok ops ∧
      Kernel.run (Kernel.init name k buf) (ops ++ [.openF 0 true false true, .getLogLen 0]) = .ok (sys, tr ++ [(.getLogLen 0, .ret m)]) ∧
      (∀ p ∈ tr, ∀ e, p.2 ≠ .err e) ∧
      Dumps L sys tr m (allCount P sh scr xs) fun bs => bs = allLines P sh L scr xs := by
  have hh : ∀ p, (holders isScr scr (fun _ => Lib.start) p).writer = .init := by
    intro p
    unfold holders
    rw [hnew p]
    split <;> rfl
  obtain ⟨ops, h1, h2, h3, h4, h5, h6⟩ := steps_all hP sh isScr name junk xs (libs := fun _ => .start) (scr := scr) (a := ainit name k) (o := Obs.init) hxs
    (fun p => ⟨rfl, rfl, fun c => .inl (by show (-1 : Int) < 0; decide), .inl rfl⟩) ⟨rfl, fun _ _ => rfl, fun p h => absurd (hh p) h⟩ ⟨fun _ => rfl, rfl⟩
  have hlog : Logged name k ops (allEntries P sh scr xs) := ⟨h2, h3, h4.base, h5⟩
  obtain ⟨hgen, hlen, hsize, htext⟩ := all_genuine xs hxs
  obtain ⟨sys, tr, m, g0, g1, g2⟩ := hlog.screen buf hk hname hgen (by omega) (L := L) (by simp [hkd])
  refine ⟨ops, sys, tr, m, h1, g1, ?_, fun euid n fuel hfuel buf0 hb paths ans hans => ?_⟩
  · rw [g0]
    intro p hp e
    rcases List.mem_append.1 hp with hp | hp
    · exact h6 p hp e
    · rw [List.mem_singleton.1 hp]; simp
  · obtain ⟨all, c, t, e1, e2, _, e3⟩ := g2 euid n fuel (by omega) hb (paths := paths) hans
    exact ⟨all, c, t, e1, e2, (e3 (by rw [hsize]; exact hroom)).trans (htext hkd)⟩

/-! ## What that means -/

/-- A shell that gives out the output of `printf` in one write. -/
def AtOnce (sh : Shell) : Prop := ∀ b, b ≠ [] → sh.pieces b = [b]

/-- C117. The first write of the output is shown with level and tag, the others without. -/
theorem C117_writes {sh : Shell} {s : Scr} (hs : s.vars.stderr ≠ some yes ∨ s.redirected = false) (t : Task) {level : Nat} {tag message m : Bytes}
    {ws : List Bytes} (htag : s.vars.tag.getD (ascii "(shell script)") = tag) (hp : sh.pieces (head level tag ++ message ++ [10]) = (head level tag ++ m) :: ws)
    (hne : m ≠ []) :
    ∃ text last, m = text ++ [last] ∧ gives sh s (.log t level message) = .tagged t level tag text last :: ws.map (.loose t) := by
  have hc : ¬ (s.vars.stderr = some yes ∧ s.redirected = true) := by
    rintro ⟨h1, h2⟩
    rcases hs with h | h
    · exact h h1
    · rw [h] at h2; cases h2
  refine ⟨m.dropLast, m.getLastD 10, (dropLast_getLastD hne).symm, ?_⟩
  unfold gives
  dsimp only
  rw [htag, if_neg hc, hp]
  dsimp only
  rw [List.drop_left]
  rfl

/-- C117. A script that logs by a shell that writes all at once is shown with level, tag and
message. -/
theorem C117_once {sh : Shell} (hsh : AtOnce sh) {s : Scr} (hs : s.vars.stderr ≠ some yes ∨ s.redirected = false) (t : Task) (level : Nat) (message : Bytes) :
    gives sh s (.log t level message) = [.tagged t level (s.vars.tag.getD (ascii "(shell script)")) message 10] := by
  obtain ⟨text, last, h1, h2⟩ := C117_writes hs t (message := message) (level := level) rfl (ws := []) (m := message ++ [10])
    (by rw [hsh _ (by simp), List.append_assoc]) (by simp)
  obtain ⟨rfl, h3⟩ := List.append_inj' h1 rfl
  rw [h2, ← (List.cons.inj h3).1]
  rfl

/-- The call is usual if its strings are. -/
theorem C117_usual {sh : Shell} (hsh : AtOnce sh) {s : Scr} (hs : s.vars.stderr ≠ some yes ∨ s.redirected = false) {t : Task} {level : Nat} {tag message : Bytes}
    (htag : s.vars.tag.getD (ascii "(shell script)") = tag) (hl : level < 10) (hx : NoNul tag) (hm : NoNul message) (hf : prefixLen t + tag.length < 4071)
    (ht : t.pid ≠ 0xffffffff) : (Call.log t level message).Plain sh s := by
  unfold Call.Plain
  dsimp only
  rw [htag]
  refine ⟨hl, hx, hm, by omega, fun h => ht h.1, ⟨message ++ [10], [], by simp, ?_, by simp⟩, fun h1 h2 => ?_⟩
  · rw [hsh _ (by simp), List.append_assoc]
  · rcases hs with h | h
    · exact absurd h1 h
    · rw [h] at h2; cases h2

/-- C117. It is shown as if a C program had given the same message to `ulog_log_str`. -/
theorem C117_same {P : Nat → Prog} (L : Look) {m : Said} (hw : m.whole = true) {level : Nat} (hl : level < 8) (hp : m.prio = UInt32.ofNat level) (last : UInt8) :
    (Shown.tagged m.task level (m.name P) m.text last).lines L = m.lines P L ∧ (Shown.tagged m.task level (m.name P) m.text last).size = m.size P := by
  have hk : m.kept = m.text := by unfold Said.kept; rw [if_pos hw]
  unfold Shown.lines Said.lines Shown.size Said.size
  dsimp only
  rw [hk, hp, Nat.mod_eq_of_lt hl]
  exact ⟨rfl, rfl⟩

/-- C117. The levels of the functions, and the letters on the console. -/
theorem C117_level (f : Fn) (t : Task) (message : Bytes) : ∃ level, f.call t message = .log t level message ∧ level < 8 ∧
    (f, level, letter level) ∈ [(Fn.ulogc, 2, ascii "C"), (.uloge, 3, ascii "E"), (.ulogw, 4, ascii "W"), (.ulogn, 5, ascii "N"), (.ulogi, 6, ascii "I"),
      (.ulogd, 7, ascii "D")] := by
  cases f <;> exact ⟨_, rfl, by decide, by decide⟩

/-- A script's calls, one after the other. -/
def calls (sh : Shell) (s : Scr) (cs : List Call) : Scr := cs.foldl (fun s c => (call sh s c).1) s

/-- The tag that was assigned last, if any was. -/
def lastTag : Option Bytes → List Call → Option Bytes
  | t, [] => t
  | _, .assign v :: cs => lastTag v.tag cs
  | t, _ :: cs => lastTag t cs

/-- C117. The tag is the one assigned last, or `(shell script)` (assignments do not unset
it). -/
theorem C117_tag (sh : Shell) : ∀ (cs : List Call) (s : Scr), (∀ v, Call.assign v ∈ cs → v.tag ≠ none) →
    (calls sh s cs).vars.tag.getD (ascii "(shell script)") = (lastTag s.vars.tag cs).getD (ascii "(shell script)") := by
  have key : ∀ (cs : List Call) (s : Scr) (u : Option Bytes), (∀ v, Call.assign v ∈ cs → v.tag ≠ none) →
      s.vars.tag.getD (ascii "(shell script)") = u.getD (ascii "(shell script)") →
      (calls sh s cs).vars.tag.getD (ascii "(shell script)") = (lastTag u cs).getD (ascii "(shell script)") := by
    intro cs
    induction cs with
    | nil => intro s u _ h; exact h
    | cons c cs ih =>
      intro s u hv h
      have hv' : ∀ v, Call.assign v ∈ cs → v.tag ≠ none := fun v hx => hv v (by simp [hx])
      show (calls sh (call sh s c).1 cs).vars.tag.getD _ = _
      cases c with
      | source =>
        refine ih _ _ hv' ?_
        show (source s).1.vars.tag.getD _ = _
        rw [← h]
        unfold source
        dsimp only
        by_cases h1 : s.vars.stderr = some yes
        · rw [if_pos h1]; simp
        · rw [if_neg h1]
          by_cases h2 : s.vars.noRedirect ≠ some yes
          · rw [if_pos h2]
          · rw [if_neg h2]
      | assign v => exact ih _ _ hv' rfl
      | log t level message =>
        refine ih _ _ hv' ?_
        rw [← h]
        rfl
      | print t bs => exact ih _ _ hv' h
  exact fun cs s hv => key cs s _ hv rfl

/-- C117. Sourcing the file sends standard output and error to the device unless one of the
variables says no. -/
theorem C117_redirect (s : Scr) :
    ((source s).1.redirected = true ↔ s.redirected = true ∨ (s.vars.stderr ≠ some yes ∧ s.vars.noRedirect ≠ some yes)) ∧
      (s.redirected = false → (source s).1.vars.stderr = some yes → (source s).1.redirected = false) := by
  unfold source
  dsimp only
  by_cases h1 : s.vars.stderr = some yes
  · rw [if_pos h1]
    simp [h1]
  · rw [if_neg h1]
    by_cases h2 : s.vars.noRedirect = some yes
    · simp [h1, h2]
    · simp [h1, h2]

/-- C117. With `ULOG_STDERR=y` before the file is sourced, each message is also on the
console, after the letter of its level, if the shell writes out what `printf` prints and
takes a format without `%` and `\` as it is. -/
theorem C117_copy {sh : Shell} (hp : ∀ b, (sh.pieces b).flatten = b)
    (hf : ∀ w : Bytes, (∀ b ∈ w, b ≠ 37 ∧ b ≠ 92) → sh.format (w ++ ascii "\\n") = w ++ [10]) {s : Scr} (hs : s.vars.stderr = some yes)
    (hr : s.redirected = false) (t : Task) {level : Nat} {message : Bytes} (hm : ∀ b ∈ message, b ≠ 37 ∧ b ≠ 92) :
    ((call sh s (.log t level message)).2.flatMap fun e => match e with | .con b => b | _ => []) = letter level ++ [32] ++ message ++ [10] := by
  have hpr : ∀ b, print s t b = .con b := by intro b; unfold print; rw [hr]; rfl
  unfold call log
  dsimp only
  rw [if_pos hs, hf, List.flatMap_append]
  · have : ∀ ws : List Bytes, ((ws.map (print s t)).flatMap fun e => match e with | .con b => b | _ => ([] : Bytes)) = ws.flatten := by
      intro ws
      induction ws with
      | nil => rfl
      | cons w ws ih => rw [List.map_cons, List.flatMap_cons, ih, hpr]; rfl
    rw [this, hp]
    simp
  · intro b hb
    simp only [List.mem_append, List.mem_singleton] at hb
    rcases hb with (hb | hb) | hb
    · have : ∀ b ∈ letters, b ≠ 37 ∧ b ≠ 92 := by decide
      exact this b (List.mem_of_mem_drop (List.mem_of_mem_take hb))
    · rw [hb]; decide
    · exact hm b hb

/-- What a script with these calls writes elsewhere, one write after the other. -/
def aside (sh : Shell) : Scr → List Call → List Bytes
  | _, [] => []
  | s, c :: cs =>
    (match c with
      | .source => []
      | .assign _ => []
      | .log _ level message => if s.vars.stderr = some yes ∧ s.redirected = false then sh.pieces (sh.format (letter level ++ [32] ++ message ++ ascii "\\n")) else []
      | .print _ bs => if s.redirected then [] else [bs]) ++ aside sh (call sh s c).1 cs

/-- The calls of one script. -/
def callsOf (s : Nat) (xs : List Step) : List Call :=
  xs.filterMap fun x => match x with | .script q c => if q = s then some c else none | .said _ => none

theorem con_of {sh : Shell} {s : Scr} {c : Call} :
    ((call sh s c).2.filterMap fun e => match e with | .con b => some b | _ => none) =
      (match c with
      | .source => []
      | .assign _ => []
      | .log _ level message => if s.vars.stderr = some yes ∧ s.redirected = false then sh.pieces (sh.format (letter level ++ [32] ++ message ++ ascii "\\n")) else []
      | .print _ bs => if s.redirected then [] else [bs]) := by
  cases c with
  | source => unfold call source; dsimp only; split <;> split <;> rfl
  | assign v => rfl
  | log t level message =>
    unfold call log
    dsimp only
    rw [List.filterMap_append]
    have hpr : ∀ ws : List Bytes, ((ws.map (print s t)).filterMap fun e => match e with | .con b => some b | _ => none) = if s.redirected then [] else ws := by
      intro ws
      induction ws with
      | nil => cases s.redirected <;> rfl
      | cons w ws ih =>
        rw [List.map_cons, List.filterMap_cons]
        unfold print at ih ⊢
        cases h : s.redirected <;> simp [h] at ih ⊢ <;> exact ih
    by_cases h1 : s.vars.stderr = some yes
    · rw [if_pos h1, hpr]
      cases h2 : s.redirected <;> simp [h1]
    · rw [if_neg h1, if_neg fun h => h1 h.1]
      rfl
  | print t bs => unfold call print; dsimp only; cases s.redirected <;> rfl

/-- C117. What a script writes elsewhere are its own messages and prints as far as they do
not go to the log, in its order, whatever the others do. -/
theorem C117_consoles (sh : Nat → Shell) (s : Nat) : ∀ (xs : List Step) (scr : Nat → Scr),
    (consoles sh scr xs).filterMap (fun p => if p.1 = s then some p.2 else none) = aside (sh s) (scr s) (callsOf s xs) := by
  intro xs
  induction xs with
  | nil => intro scr; rfl
  | cons x xs ih =>
    intro scr
    cases x with
    | said m => exact ih scr
    | script q c =>
      unfold consoles
      rw [List.filterMap_append, ih, List.filterMap_filterMap]
      by_cases hq : q = s
      · subst hq
        have h1 : callsOf q (.script q c :: xs) = c :: callsOf q xs := by
          unfold callsOf
          rw [List.filterMap_cons]
          simp
        rw [h1, if_pos rfl]
        show _ = _ ++ aside (sh q) (call (sh q) (scr q) c).1 (callsOf q xs)
        rw [← con_of]
        refine congrArg (· ++ _) ?_
        refine congrArg (fun f => List.filterMap f _) (funext fun e => ?_)
        cases e <;> simp
      · have h1 : callsOf s (.script q c :: xs) = callsOf s xs := by
          unfold callsOf
          rw [List.filterMap_cons]
          simp [hq]
        rw [h1, if_neg fun h => hq h.symm]
        have h2 : ((call (sh q) (scr q) c).2.filterMap fun e => ((match e with | .con b => some (q, b) | _ => none : Option (Nat × Bytes)).bind fun p => if p.1 = s then some p.2 else none)) = [] := by
          refine List.filterMap_eq_nil_iff.2 fun e _ => ?_
          cases e <;> simp [hq]
        exact (congrArg (· ++ _) h2).trans (List.nil_append _)

/-! ## False cases -/

/-- A shell that writes line by line, as one does whose standard output is line buffered. -/
def byLine : Bytes → List Bytes
  | [] => []
  | b :: bs =>
    if b = 10 then [b] :: byLine bs
    else match byLine bs with
      | [] => [[b]]
      | w :: ws => (b :: w) :: ws

def lineShell : Shell := { pieces := byLine, format := id }

/-- A shell that writes all at once and formats as it should what these examples use. -/
def onceShell : Shell := { pieces := fun b => [b], format := fun f => if f = ascii "C 100%d\\n" then ascii "C 1000\n" else f.dropLast.dropLast ++ [10] }

def scriptTask : Task := { pid := 20, tid := 20, pcomm := ascii "sh", tcomm := ascii "sh", sec := 1, nsec := 2, euid := 0 }

def plainScr : Scr := { vars := { stderr := none, noRedirect := none, tag := some (ascii "boot") }, redirected := false }

/-- C117, false: a message of two lines is not shown whole with its level and tag by every
shell. Written line by line, the second line is text without either. -/
theorem C117_false_lines :
    (Call.log scriptTask 3 (ascii "a\nb")).Plain lineShell plainScr ∧
      gives lineShell plainScr (.log scriptTask 3 (ascii "a\nb")) = [.tagged scriptTask 3 (ascii "boot") (ascii "a") 10, .loose scriptTask (ascii "b\n")] := by
  have hp : lineShell.pieces (head 3 (ascii "boot") ++ ascii "a\nb" ++ [10]) = (head 3 (ascii "boot") ++ ascii "a\n") :: [ascii "b\n"] := by decide +kernel
  refine ⟨⟨by decide, by decide, by decide, by decide, by decide, ⟨ascii "a\n", [ascii "b\n"], by decide, hp, by decide⟩, by decide⟩, ?_⟩
  obtain ⟨text, last, h1, h2⟩ := C117_writes (sh := lineShell) (s := plainScr) (.inl (by decide)) scriptTask rfl hp (by decide)
  obtain ⟨rfl, h3⟩ := List.append_inj' (t₁ := [10]) (s₁ := ascii "a") h1 rfl
  rw [h2, ← (List.cons.inj h3).1]
  rfl

/-- C117, false: a level of two digits is not refused; the entry then has no level that
the viewer can read, and is shown as text without tag. -/
theorem C117_false_level : (decode false (plainSpec scriptTask (head 12 (ascii "boot") ++ ascii "up\n")).payload).tag ≠ ascii "boot" := by decide +kernel

/-- C117, false: levels 8 and 9 are shown as 0 and 1. -/
theorem C117_false_eight (L : Look) (t : Task) (tag msg : Bytes) (last : UInt8) :
    (Shown.tagged t 8 tag msg last).lines L = (Shown.tagged t 0 tag msg last).lines L ∧
      (Shown.tagged t 9 tag msg last).lines L = (Shown.tagged t 1 tag msg last).lines L := ⟨rfl, rfl⟩

/-- C117, false: output without a newline at its end loses its last byte. -/
theorem C117_false_newline (L : Look) (t : Task) : (Shown.loose t (ascii "done")).lines L = (Shown.loose t (ascii "don\n")).lines L := by
  have hp := sh_prefixLen_le t
  unfold Shown.lines
  dsimp only
  rw [if_neg (by decide), if_neg (by decide), List.take_of_length_le (by show 4 ≤ _; omega), List.take_of_length_le (by show 4 ≤ _; omega)]
  rfl

/-- C117, false: a message with `%` is not on the console as it is in the log. -/
theorem C117_false_format : (∀ b, (onceShell.pieces b).flatten = b) ∧
    (call onceShell { plainScr with vars := { plainScr.vars with stderr := some yes } } (.log scriptTask 2 (ascii "100%d"))).2.map
      (fun e => match e with | .con b => b | .dev _ ws => ws.flatten | _ => []) = [ascii "C 1000\n", head 2 (ascii "boot") ++ ascii "100%d\n"] :=
  ⟨by simp [onceShell], by decide +kernel⟩

end Verif.Tools.ShApi
