import Verif.Ulogcat.PropsScreen

/-!
# What a line of the viewer tells (C115)

A reader of printed lines, written without looking at how they are printed, gets back
the fields; and the messages of short names begin in the same column.
-/
namespace Verif.Ulogcat
open Verif Verif.Kernel

/-! ## Specification -/

/-- What can be told from a line. -/
structure Told where
  label : Option UInt8
  /-- date and milliseconds -/
  time : Option (Bytes × Nat)
  letter : UInt8
  tag : Bytes
  /-- name, and number in the long format -/
  proc : Option (Bytes × Option Nat)
  thread : Option (Bytes × Option Nat)
  text : Bytes
  deriving DecidableEq

/-- The text without its first byte, which is `c`. -/
def eat (c : UInt8) : Bytes → Option Bytes
  | b :: s => if b = c then some s else none
  | [] => none

/-- The text before and after the first `c`. -/
def cutAt (c : UInt8) : Bytes → Option (Bytes × Bytes)
  | [] => none
  | b :: s => if b = c then some ([], s) else (cutAt c s).map fun x => (b :: x.1, x.2)

/-- The text before and after the last `c`. -/
def cutLast (c : UInt8) (s : Bytes) : Option (Bytes × Bytes) := (cutAt c s.reverse).map fun x => (x.2.reverse, x.1.reverse)

/-- The text without the spaces at its end. -/
def rtrim (s : Bytes) : Bytes := (s.reverse.dropWhile (· == 32)).reverse

/-- `name` or, in the long format, `name-number`. -/
def readName (long : Bool) (s : Bytes) : Option (Bytes × Option Nat) :=
  if long then (cutLast 45 s).map fun x => (x.1, some (parseDec x.2)) else some (s, none)

/-- `tag   : text` -/
def readTag (s : Bytes) : Option (Bytes × Bytes) := do
  let (tag, s) ← cutAt 58 s
  let s ← eat 32 s
  some (rtrim tag, s)

/-- `process/thread` or `process`. -/
def readNames (long : Bool) (s : Bytes) : Option ((Bytes × Option Nat) × Option (Bytes × Option Nat)) :=
  match cutAt 47 s with
  | none => (readName long s).map fun p => (p, none)
  | some (a, b) => do
    let p ← readName long a
    let t ← readName long b
    some (p, some t)

/-- `tag   (names)   : text` -/
def readWho (long : Bool) (s : Bytes) : Option (Bytes × ((Bytes × Option Nat) × Option (Bytes × Option Nat)) × Bytes) := do
  let (tag, s) ← cutAt 40 s
  let (names, s) ← cutAt 41 s
  let who ← readNames long names
  let s ← eat 58 (s.dropWhile (· == 32))
  let s ← eat 32 s
  some (rtrim tag, who, s)

/-- The label, if there are labels. -/
def readLabel (label : Bool) (s : Bytes) : Option (Option UInt8 × Bytes) :=
  if label then do
    let (l, s) ← cutAt 32 s
    match l with
    | [b] => some (some b, s)
    | _ => none
  else some (none, s)

/-- The time, in the long format. -/
def readTime (long : Bool) (s : Bytes) : Option (Option (Bytes × Nat) × Bytes) :=
  if long then do
    let (date, s) ← cutAt 46 s
    let (ms, s) ← cutAt 32 s
    if ms.length = 3 ∧ ms.all isDigit then some (some (date, parseDec ms), s) else none
  else some (none, s)

/-- A line without colours: with labels or not, of a kernel or another device. -/
def readLine (fmt : Fmt) (label kern : Bool) (s : Bytes) : Option Told := do
  let (s, e) ← cutLast 10 s
  if e = [] then do
    let (label, s) ← readLabel label s
    let (time, s) ← readTime (decide (fmt = .long)) s
    match s with
    | letter :: s => do
      let s ← eat 32 s
      if kern ∨ fmt = .short then do
        let (tag, text) ← readTag s
        some { label, time, letter, tag, proc := none, thread := none, text }
      else do
        let (tag, (proc, thread), text) ← readWho (decide (fmt = .long)) s
        some { label, time, letter, tag, proc := some proc, thread, text }
    | [] => none
  else none

/-- Fields that a line can tell: no separators in the names, which are short enough. -/
structure Tells (L : Look) (e : Meta) : Prop where
  trim : e.tag.getLast? ≠ some 32
  colon : L.klog = true ∨ L.fmt = .short → (58 : UInt8) ∉ e.tag
  paren : L.klog = false ∧ L.fmt ≠ .short → (40 : UInt8) ∉ e.tag ∧ (41 : UInt8) ∉ e.pname ∧ (41 : UInt8) ∉ e.tname ∧
    (47 : UInt8) ∉ e.pname ∧ (47 : UInt8) ∉ e.tname
  fits : (L.fmt = .aligned → max 12 e.tag.length + e.pname.length + e.tname.length ≤ 124) ∧
    (L.fmt = .long → max 12 e.tag.length + e.pname.length + e.tname.length ≤ 102)
  pid : 0 ≤ e.pid ∧ e.pid < 2147483648
  tid : 0 ≤ e.tid ∧ e.tid < 2147483648
  nsec : 0 ≤ e.nsec ∧ e.nsec < 1000000000
  prio : e.priority < 8
  clock : (46 : UInt8) ∉ L.clock e.sec

/-- What the line of an entry tells. -/
def told (L : Look) (e : Meta) (text : Bytes) : Told :=
  { label := if L.showLabel then some (if L.klog then 75 else 85) else none
    time := if L.fmt = .long then some (L.clock e.sec, (e.nsec / 1000000).toNat) else none
    letter := (ascii "  CEWNID").getD e.priority 0
    tag := e.tag
    proc := if L.klog ∨ L.fmt = .short then none else some (e.pname, if L.fmt = .long then some e.pid.toNat else none)
    thread := if L.klog ∨ L.fmt = .short ∨ e.pid = e.tid then none else some (e.tname, if L.fmt = .long then some e.tid.toNat else none)
    text }

/-! ## Reading -/

theorem eat_cons (c : UInt8) (s : Bytes) : eat c (c :: s) = some s := if_pos rfl

theorem cutAt_append {c : UInt8} : ∀ {a : Bytes} (s : Bytes), c ∉ a → cutAt c (a ++ c :: s) = some (a, s)
  | [], s, _ => if_pos rfl
  | b :: a, s, h => by
    rw [List.cons_append, cutAt, if_neg (fun hb => h (by rw [hb]; simp)), cutAt_append s (fun hc => h (by simp [hc]))]
    rfl

theorem cutAt_none {c : UInt8} : ∀ {a : Bytes}, c ∉ a → cutAt c a = none
  | [], _ => rfl
  | b :: a, h => by
    rw [cutAt, if_neg (fun hb => h (by rw [hb]; simp)), cutAt_none (fun hc => h (by simp [hc]))]
    rfl

theorem cutLast_append {c : UInt8} (a : Bytes) {s : Bytes} (h : c ∉ s) : cutLast c (a ++ c :: s) = some (a, s) := by
  unfold cutLast
  rw [List.reverse_append, List.reverse_cons, List.append_assoc, List.singleton_append, cutAt_append _ (by simpa using h)]
  simp

theorem rtrim_pad {s : Bytes} (h : s.getLast? ≠ some 32) (n : Nat) : rtrim (s ++ List.replicate n 32) = s := by
  have hd : ∀ (n : Nat) (l : Bytes), (List.replicate n 32 ++ l).dropWhile (· == 32) = l.dropWhile (· == 32) := by
    intro n l
    induction n with
    | zero => rfl
    | succ n ih => rw [List.replicate_succ, List.cons_append, List.dropWhile_cons_of_pos (by rfl), ih]
  unfold rtrim
  rw [List.reverse_append, List.reverse_replicate, hd]
  cases hr : s.reverse with
  | nil => simpa using hr
  | cons b r =>
    have hs : s = r.reverse ++ [b] := by
      have := congrArg List.reverse hr
      simpa using this
    have hb : b ≠ 32 := by
      intro hb
      apply h
      rw [hs, hb]
      simp
    rw [List.dropWhile_cons_of_neg (by simpa using hb), ← hr, List.reverse_reverse]

theorem readTag_pad {tag : Bytes} (h1 : tag.getLast? ≠ some 32) (h2 : (58 : UInt8) ∉ tag) (n : Nat) (s : Bytes) :
    readTag (padTo n tag ++ 58 :: 32 :: s) = some (tag, s) := by
  unfold readTag padTo
  rw [cutAt_append _ (by
    intro h
    rcases List.mem_append.1 h with h | h
    · exact h2 h
    · have := List.eq_of_mem_replicate h
      exact absurd this (by decide))]
  simp only [bind, Option.bind, eat_cons, rtrim_pad h1]

theorem decInt_nat {i : Int} (h : 0 ≤ i) : decInt i = decNat i.toNat := by
  obtain ⟨n, rfl⟩ := Int.eq_ofNat_of_zero_le h
  rfl

theorem digits_no {n : Nat} {x : UInt8} (hx : isDigit x = false) : x ∉ decNat n := fun h => by
  rw [decNat_digits n x h] at hx
  cases hx

/-- A name as it is printed. -/
def nameText (long : Bool) (name : Bytes) (i : Int) : Bytes := name ++ if long then 45 :: decInt i else []

theorem readName_text (long : Bool) (name : Bytes) {i : Int} (h : 0 ≤ i) :
    readName long (nameText long name i) = some (name, if long then some i.toNat else none) := by
  unfold readName nameText
  cases long with
  | false => simp
  | true =>
    simp only [if_true]
    rw [decInt_nat h, cutLast_append _ (digits_no (by decide)), Option.map_some, parseDec_decNat]

theorem nameText_no {c : UInt8} (hc : isDigit c = false) (hc' : c ≠ 45) {long : Bool} {name : Bytes} (hn : c ∉ name) {i : Int} (h : 0 ≤ i) :
    c ∉ nameText long name i := by
  unfold nameText
  rw [decInt_nat h]
  cases long with
  | false => simpa using hn
  | true =>
    simp only [if_true, List.mem_append, List.mem_cons, not_or]
    exact ⟨hn, hc', digits_no hc⟩

/-- The names as they are printed. -/
def namesText (long : Bool) (e : Meta) : Bytes :=
  nameText long e.pname e.pid ++ if e.pid ≠ e.tid then 47 :: nameText long e.tname e.tid else []

theorem readNames_text (long : Bool) {e : Meta} (hp : (47 : UInt8) ∉ e.pname) (h1 : 0 ≤ e.pid) (h2 : 0 ≤ e.tid) :
    readNames long (namesText long e) = some ((e.pname, if long then some e.pid.toNat else none),
      if e.pid = e.tid then none else some (e.tname, if long then some e.tid.toNat else none)) := by
  have hn := nameText_no (c := 47) (by decide) (by decide) (long := long) hp h1
  unfold readNames namesText
  by_cases h : e.pid = e.tid
  · rw [if_neg (by simp [h]), List.append_nil, cutAt_none hn]
    dsimp only
    rw [readName_text long _ h1, if_pos h]
    rfl
  · rw [if_pos h, cutAt_append _ hn]
    simp only [bind, Option.bind]
    rw [readName_text long _ h1, readName_text long _ h2, if_neg h]

theorem padTo_no {c : UInt8} (hc : c ≠ 32) {s : Bytes} (h : c ∉ s) (n : Nat) : c ∉ padTo n s := by
  unfold padTo
  intro hm
  rcases List.mem_append.1 hm with hm | hm
  · exact h hm
  · exact hc (List.eq_of_mem_replicate hm)

theorem readWho_text (long : Bool) {e : Meta} (ht : e.tag.getLast? ≠ some 32) (h40 : (40 : UInt8) ∉ e.tag) (h41 : (41 : UInt8) ∉ e.pname)
    (h41' : (41 : UInt8) ∉ e.tname) (hp : (47 : UInt8) ∉ e.pname) (h1 : 0 ≤ e.pid) (h2 : 0 ≤ e.tid) (n : Nat) (s : Bytes) :
    readWho long (padTo n (padTo 12 e.tag ++ 40 :: (namesText long e ++ [41])) ++ 58 :: 32 :: s) =
      some (e.tag, ((e.pname, if long then some e.pid.toNat else none),
        if e.pid = e.tid then none else some (e.tname, if long then some e.tid.toNat else none)), s) := by
  have hnm : (41 : UInt8) ∉ namesText long e := by
    unfold namesText
    intro hm
    rcases List.mem_append.1 hm with hm | hm
    · exact nameText_no (by decide) (by decide) h41 h1 hm
    · split at hm
      · rcases List.mem_cons.1 hm with hm | hm
        · exact absurd hm (by decide)
        · exact nameText_no (by decide) (by decide) h41' h2 hm
      · cases hm
  have hs : ∃ k, padTo n (padTo 12 e.tag ++ 40 :: (namesText long e ++ [41])) ++ 58 :: 32 :: s =
      padTo 12 e.tag ++ 40 :: (namesText long e ++ 41 :: (List.replicate k 32 ++ 58 :: 32 :: s)) :=
    ⟨n - (padTo 12 e.tag ++ 40 :: (namesText long e ++ [41])).length, by rw [padTo]; simp only [List.append_assoc, List.cons_append, List.nil_append]⟩
  obtain ⟨k, hs⟩ := hs
  have hd : ∀ k, (List.replicate k 32 ++ 58 :: 32 :: s).dropWhile (· == (32 : UInt8)) = 58 :: 32 :: s := by
    intro k
    clear hs
    induction k with
    | zero => rfl
    | succ k ih => rw [List.replicate_succ, List.cons_append, List.dropWhile_cons_of_pos (by rfl), ih]
  rw [hs]
  unfold readWho
  rw [cutAt_append _ (padTo_no (by decide) h40 12)]
  simp only [bind, Option.bind]
  rw [cutAt_append _ hnm]
  dsimp only
  rw [readNames_text long hp h1 h2]
  dsimp only
  rw [hd, eat_cons]
  dsimp only
  rw [eat_cons]
  dsimp only
  unfold padTo
  rw [rtrim_pad ht]

theorem dec3_read {n : Int} (h : 0 ≤ n ∧ n < 1000) : (dec3 n).length = 3 ∧ (dec3 n).all isDigit = true ∧ parseDec (dec3 n) = n.toNat := by
  obtain ⟨m, rfl⟩ := Int.eq_ofNat_of_zero_le h.1
  have hm : m < 1000 := by omega
  have key : ∀ m < 1000, (dec3 (Int.ofNat m)).length = 3 ∧ (dec3 (Int.ofNat m)).all isDigit = true ∧ parseDec (dec3 (Int.ofNat m)) = m := by
    decide +kernel
  exact key m hm

theorem letter_eq {p : Nat} (h : p < 8) : prioChar p = (ascii "  CEWNID").getD p 0 := by
  have : ∀ p < 8, prioChar p = (ascii "  CEWNID").getD p 0 := by decide +kernel
  exact this p h

theorem readLabel_text (L : Look) (s : Bytes) :
    readLabel L.showLabel (clabel L ++ s) = some (if L.showLabel then some (if L.klog then 75 else 85) else none, s) := by
  unfold readLabel clabel
  cases L.showLabel <;> cases L.klog <;> rfl

theorem readTime_text {L : Look} {e : Meta} (h : Tells L e) (s : Bytes) :
    readTime true (L.clock e.sec ++ 46 :: (dec3 (e.nsec.tdiv 1000000) ++ 32 :: s)) =
      some (some (L.clock e.sec, (e.nsec / 1000000).toNat), s) := by
  have hn := h.nsec
  have hd : e.nsec.tdiv 1000000 = e.nsec / 1000000 := Int.tdiv_eq_ediv_of_nonneg hn.1
  obtain ⟨d1, d2, d3⟩ := dec3_read (n := e.nsec / 1000000) (by omega)
  unfold readTime
  rw [if_pos rfl, cutAt_append _ h.clock]
  simp only [bind, Option.bind]
  rw [hd, cutAt_append _ (by
    intro hm
    have := List.all_eq_true.1 d2 32 hm
    exact absurd this (by decide))]
  dsimp only
  rw [if_pos ⟨d1, d2⟩, d3]

theorem whoAligned_text {e : Meta} (h : max 12 e.tag.length + e.pname.length + e.tname.length ≤ 124) :
    whoAligned e = padTo 12 e.tag ++ 40 :: (namesText false e ++ [41]) := by
  have hp := padTo_length 12 e.tag
  unfold whoAligned threadPart namesText nameText
  by_cases hc : e.pid ≠ e.tid
  · simp only [if_pos hc, Bool.false_eq_true, if_false, List.append_nil]
    rw [List.take_of_length_le (by simp; omega)]
    simp
  · simp only [if_neg hc, Bool.false_eq_true, if_false, List.append_nil]
    rw [List.take_of_length_le (by simp; omega)]
    simp

theorem decInt_short {i : Int} (h : 0 ≤ i ∧ i < 2147483648) : (decInt i).length ≤ 10 := by
  have := decInt_length 9 i (by omega)
  rw [decInt_nat h.1] at this ⊢
  have h9 : ∀ (k n : Nat), n < 10 ^ (k + 1) → (decNat n).length ≤ k + 1 := fun k n hn => decNat_length k n hn
  exact h9 9 i.toNat (by omega)

theorem whoLong_text {e : Meta} (h : max 12 e.tag.length + e.pname.length + e.tname.length ≤ 102) (h1 : 0 ≤ e.pid ∧ e.pid < 2147483648)
    (h2 : 0 ≤ e.tid ∧ e.tid < 2147483648) : whoLong e = padTo 12 e.tag ++ 40 :: (namesText true e ++ [41]) := by
  have hp := padTo_length 12 e.tag
  have d1 := decInt_short h1
  have d2 := decInt_short h2
  unfold whoLong namesText nameText
  by_cases hc : e.pid ≠ e.tid
  · simp only [if_pos hc, if_true]
    rw [List.take_of_length_le (by simp; omega)]
    simp
  · simp only [if_neg hc, if_true]
    rw [List.take_of_length_le (by simp; omega)]
    simp

/-- Names of a line, between the letter and the text. -/
def nameField (L : Look) (e : Meta) : Bytes :=
  if L.klog ∨ L.fmt = .short then padTo (if L.fmt = .short ∨ L.fmt = .process then 12 else 45) e.tag
  else padTo (if L.fmt = .process then 0 else 45) (padTo 12 e.tag ++ 40 :: (namesText (decide (L.fmt = .long)) e ++ [41]))

theorem padTo_zero (s : Bytes) : padTo 0 s = s := by simp [padTo]

theorem line_form {L : Look} (hc : L.color = false) (hcsv : L.fmt ≠ .csv) {e : Meta} (h : Tells L e) (text : Bytes) :
    lineText L e text = clabel L ++ ((if L.fmt = Fmt.long then L.clock e.sec ++ 46 :: (dec3 (e.nsec.tdiv 1000000) ++ [32]) else []) ++
      prioChar e.priority :: 32 :: (nameField L e ++ 58 :: 32 :: text)) ++ [10] := by
  have hs : cstart L e = [] := by unfold cstart; rw [hc]; rfl
  have he : cend L = [] := by unfold cend; rw [hc]; rfl
  unfold lineText
  rw [he]
  cases hk : L.klog with
  | true =>
    simp only [if_true]
    unfold headK nameField
    rw [hk, hs]
    cases hf : L.fmt with
    | csv => exact absurd hf hcsv
    | short => simp
    | aligned => simp
    | process => simp
    | long => simp
  | false =>
    simp only [Bool.false_eq_true, if_false]
    unfold headU nameField
    rw [hk, hs]
    cases hf : L.fmt with
    | csv => exact absurd hf hcsv
    | short => simp
    | aligned => simp [whoAligned_text (h.fits.1 hf)]
    | process =>
      simp [padTo_zero, namesText, nameText, threadPart]
    | long => simp [whoLong_text (h.fits.2 hf) h.pid h.tid]

/-- C115. A line without colours can be read back. -/
theorem C115_read {L : Look} (hc : L.color = false) (hcsv : L.fmt ≠ .csv) {e : Meta} (h : Tells L e) (text : Bytes) :
    readLine L.fmt L.showLabel L.klog (lineText L e text) = some (told L e text) := by
  have hrest : (if L.klog = true ∨ L.fmt = .short then (do
        let (tag, s) ← readTag (nameField L e ++ 58 :: 32 :: text)
        some ({ label := (told L e text).label, time := (told L e text).time, letter := prioChar e.priority, tag, proc := none, thread := none, text := s } : Told))
      else do
        let (tag, (proc, thread), s) ← readWho (decide (L.fmt = .long)) (nameField L e ++ 58 :: 32 :: text)
        some { label := (told L e text).label, time := (told L e text).time, letter := prioChar e.priority, tag, proc := some proc, thread, text := s }) =
      some (told L e text) := by
    unfold nameField
    by_cases hk : L.klog = true ∨ L.fmt = .short
    · simp only [if_pos hk, readTag_pad h.trim (h.colon hk), bind, Option.bind, letter_eq h.prio]
      have : L.klog = true ∨ L.fmt = .short ∨ e.pid = e.tid := hk.elim .inl (fun h => .inr (.inl h))
      unfold told
      dsimp only
      rw [if_pos hk, if_pos this]
    · have hk' : L.klog = false ∧ L.fmt ≠ .short := by
        rw [not_or] at hk
        exact ⟨by simpa using hk.1, hk.2⟩
      obtain ⟨p1, p2, p3, p4, _⟩ := h.paren hk'
      simp only [if_neg hk, readWho_text (decide (L.fmt = .long)) h.trim p1 p2 p3 p4 h.pid.1 h.tid.1, bind, Option.bind, letter_eq h.prio]
      unfold told
      rw [if_neg hk]
      have : (L.klog = true ∨ L.fmt = .short ∨ e.pid = e.tid) ↔ e.pid = e.tid := by simp [hk'.1, hk'.2]
      simp only [this, decide_eq_true_eq]
  rw [line_form hc hcsv h]
  unfold readLine
  rw [cutLast_append _ (by simp)]
  simp only [bind, Option.bind, if_true]
  rw [readLabel_text]
  dsimp only
  have ht : readTime (decide (L.fmt = .long)) ((if L.fmt = Fmt.long then L.clock e.sec ++ 46 :: (dec3 (e.nsec.tdiv 1000000) ++ [32]) else []) ++
      prioChar e.priority :: 32 :: (nameField L e ++ 58 :: 32 :: text)) =
      some ((told L e text).time, prioChar e.priority :: 32 :: (nameField L e ++ 58 :: 32 :: text)) := by
    by_cases hl : L.fmt = .long
    · rw [if_pos hl, decide_eq_true hl]
      have := readTime_text h (prioChar e.priority :: 32 :: (nameField L e ++ 58 :: 32 :: text))
      unfold told
      dsimp only
      rw [if_pos hl, ← this]
      simp
    · rw [if_neg hl, decide_eq_false hl]
      unfold readTime told
      dsimp only
      rw [if_neg hl]
      rfl
  rw [ht]
  dsimp only
  rw [eat_cons]
  exact hrest

/-- Bytes of the names in parentheses. -/
def namesLength (L : Look) (e : Meta) : Nat :=
  if L.fmt = .long then
    e.pname.length + 1 + (decInt e.pid).length + (if e.pid = e.tid then 0 else 1 + e.tname.length + 1 + (decInt e.tid).length)
  else e.pname.length + (if e.pid = e.tid then 0 else 1 + e.tname.length)

/-- Where texts begin when names are short. -/
def textColumn (L : Look) (e : Meta) : Nat :=
  (if L.showLabel then 2 else 0) +
  match L.fmt with
  | .short => 16
  | .process => if L.klog then 16 else 18 + namesLength L e
  | .long => (L.clock e.sec).length + 54
  | _ => 49

theorem namesText_length (L : Look) (e : Meta) : (namesText (decide (L.fmt = .long)) e).length = namesLength L e := by
  unfold namesText nameText namesLength
  by_cases hl : L.fmt = .long <;> by_cases hp : e.pid = e.tid
  all_goals simp [hl, hp]
  all_goals omega

/-- C115. With short names the texts of all lines begin in the same column, in the
process format right after the names. -/
theorem C115_column {L : Look} (hc : L.color = false) (hcsv : L.fmt ≠ .csv) {e : Meta} (h : Tells L e) (ht : e.tag.length ≤ 12)
    (hn : L.klog = false → L.fmt = .aligned ∨ L.fmt = .long → namesLength L e ≤ 31) (text : Bytes) :
    (lineText L e text).drop (textColumn L e) = text ++ [10] := by
  have hlab : (clabel L).length = if L.showLabel then 2 else 0 := by
    unfold clabel
    cases L.showLabel <;> cases L.klog <;> rfl
  have htime : (if L.fmt = Fmt.long then L.clock e.sec ++ 46 :: (dec3 (e.nsec.tdiv 1000000) ++ [32]) else []).length =
      if L.fmt = .long then (L.clock e.sec).length + 5 else 0 := by
    have hd : e.nsec.tdiv 1000000 = e.nsec / 1000000 := Int.tdiv_eq_ediv_of_nonneg h.nsec.1
    have hns := h.nsec
    have := (dec3_read (n := e.nsec / 1000000) (by omega)).1
    by_cases hl : L.fmt = .long
    · rw [if_pos hl, if_pos hl, hd]
      simp [this]
    · rw [if_neg hl, if_neg hl]; rfl
  have hname : (nameField L e).length = (match L.fmt with
      | .short => 12
      | .process => if L.klog then 12 else 14 + namesLength L e
      | _ => 45) := by
    unfold nameField
    by_cases hk : L.klog = true ∨ L.fmt = .short
    · rw [if_pos hk, padTo_length]
      rcases hk with hk | hk
      · rw [hk]
        cases hf : L.fmt <;> simp <;> omega
      · rw [hk]; simp; omega
    · have hk1 : L.klog = false := by
        rw [not_or] at hk
        simpa using hk.1
      have hk2 : L.fmt ≠ .short := fun h => hk (.inr h)
      rw [if_neg hk, padTo_length, List.length_append, padTo_length, List.length_cons, List.length_append, namesText_length, hk1]
      cases hf : L.fmt with
      | csv => exact absurd hf hcsv
      | short => exact absurd hf hk2
      | aligned => have := hn hk1 (.inl hf); simp; omega
      | process => simp; omega
      | long => have := hn hk1 (.inr hf); simp; omega
  have hcol : textColumn L e = (clabel L ++ ((if L.fmt = Fmt.long then L.clock e.sec ++ 46 :: (dec3 (e.nsec.tdiv 1000000) ++ [32]) else []) ++
      prioChar e.priority :: 32 :: (nameField L e ++ [58, 32]))).length := by
    rw [List.length_append, List.length_append, List.length_cons, List.length_cons, List.length_append, hlab, htime, hname]
    unfold textColumn
    cases hf : L.fmt <;> cases L.klog <;> simp <;> omega
  rw [line_form hc hcsv h, hcol]
  have : clabel L ++ ((if L.fmt = Fmt.long then L.clock e.sec ++ 46 :: (dec3 (e.nsec.tdiv 1000000) ++ [32]) else []) ++
      prioChar e.priority :: 32 :: (nameField L e ++ 58 :: 32 :: text)) ++ [10] =
      (clabel L ++ ((if L.fmt = Fmt.long then L.clock e.sec ++ 46 :: (dec3 (e.nsec.tdiv 1000000) ++ [32]) else []) ++
      prioChar e.priority :: 32 :: (nameField L e ++ [58, 32]))) ++ (text ++ [10]) := by simp
  rw [this, List.drop_left]

/-- C115. Lines of entries in the same format tell apart what `told` has. -/
theorem C115_differ {L : Look} (hc : L.color = false) (hcsv : L.fmt ≠ .csv) {e e' : Meta} (h : Tells L e) (h' : Tells L e') {text text' : Bytes}
    (he : lineText L e text = lineText L e' text') : told L e text = told L e' text' := by
  have h1 := C115_read hc hcsv h text
  rw [he, C115_read hc hcsv h' text'] at h1
  exact (Option.some.inj h1).symm

/-! ## What does not hold -/

/-- A viewer without colours and labels. -/
def lookAs (f : Fmt) : Look := { fmt := f, color := false, showLabel := false, ansi := fun _ => [], klog := false, clock := fun _ => ascii "01-01 00:00:00" }

/-- C115. A process whose name has a slash looks like a thread of another one; the two
highest levels look the same; a long name pushes the end of the names and the last
parenthesis out. -/
theorem C115_false :
    (∃ e e' : Meta, e.pid = e.tid ∧ e'.pid ≠ e'.tid ∧ e.pname ≠ e'.pname ∧ lineText (lookAs .aligned) e [] = lineText (lookAs .aligned) e' []) ∧
    (∃ e : Meta, e.priority = 0 ∧ lineText (lookAs .short) e [] = lineText (lookAs .short) { e with priority := 1 } []) ∧
    (∃ e e' : Meta, e.pname ≠ e'.pname ∧ lineText (lookAs .aligned) e [] = lineText (lookAs .aligned) e' []) := by
  refine ⟨?_, ?_, ?_⟩
  · exact ⟨{ sec := 0, nsec := 0, priority := 6, pid := 5, pname := ascii "a/b", tid := 5, tname := ascii "a/b", tag := ascii "t", isBinary := false, color := 0 },
      { sec := 0, nsec := 0, priority := 6, pid := 5, pname := ascii "a", tid := 6, tname := ascii "b", tag := ascii "t", isBinary := false, color := 0 },
      by decide, by decide, by decide, by decide +kernel⟩
  · exact ⟨{ sec := 0, nsec := 0, priority := 0, pid := 5, pname := [], tid := 5, tname := [], tag := ascii "t", isBinary := false, color := 0 },
      rfl, by decide +kernel⟩
  · exact ⟨{ sec := 0, nsec := 0, priority := 6, pid := 5, pname := ascii "a", tid := 5, tname := [], tag := List.replicate 127 116, isBinary := false, color := 0 },
      { sec := 0, nsec := 0, priority := 6, pid := 5, pname := ascii "b", tid := 5, tname := [], tag := List.replicate 127 116, isBinary := false, color := 0 },
      by decide, by decide +kernel⟩

namespace ExLine

def entry : Meta :=
  { sec := 7, nsec := 42999999, priority := 4, pid := 12, pname := ascii "nav-d", tid := 13, tname := ascii "gps", tag := ascii "net", isBinary := false, color := 0 }

theorem tells (f : Fmt) (lab k : Bool) : Tells { lookAs f with showLabel := lab, klog := k } entry :=
  ⟨by decide, fun _ => by decide, fun _ => by decide, ⟨fun _ => by decide, fun _ => by decide⟩, by decide, by decide, by decide, by decide,
    show (46 : UInt8) ∉ ascii "01-01 00:00:00" by decide⟩

example : lineText { lookAs .long with showLabel := true } entry (ascii "up: 1") =
    ascii "U 01-01 00:00:00.042 W net         (nav-d-12/gps-13)                : up: 1\n" := by decide +kernel

example : readLine .long true false (ascii "U 01-01 00:00:00.042 W net         (nav-d-12/gps-13)                : up: 1\n") =
    some { label := some 85, time := some (ascii "01-01 00:00:00", 42), letter := 87, tag := ascii "net", proc := some (ascii "nav-d", some 12)
           thread := some (ascii "gps", some 13), text := ascii "up: 1" } := by decide +kernel

example : readLine .long true false (lineText { lookAs .long with showLabel := true } entry (ascii "up: 1")) =
    some (told { lookAs .long with showLabel := true } entry (ascii "up: 1")) := C115_read rfl (by decide) (tells .long true false) _

example : readLine .process false true (lineText { lookAs .process with klog := true } entry (ascii "up: 1")) =
    some (told { lookAs .process with klog := true } entry (ascii "up: 1")) := C115_read rfl (by decide) (tells .process false true) _

example : (lineText { lookAs .aligned with showLabel := true } entry (ascii "up")).drop 51 = ascii "up\n" :=
  C115_column rfl (by decide) (tells .aligned true false) (by decide) (fun _ _ => by decide) _

end ExLine

end Verif.Ulogcat
