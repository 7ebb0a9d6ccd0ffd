import Verif.Tools.Getopt
import Verif.Tools.PropsCat
import Verif.Tools.PropsUlogger
import Verif.Tools.PropsShdMain

/-!
# C141: what the arguments of the commands say

A line of arguments is described by a grammar, from the manual pages: letters alone, several
letters after one dash, an argument glued to its letter or in the next word, long names in full or
shortened, with the argument after `=` or in the next word, operands, and `--`.
-/
namespace Verif.Tools.Getopt
open Verif Verif.Ulogcat Verif.Tools

/-! ## The grammar -/

/-- One option: its letter and its argument. -/
abbrev Item := UInt8 × Option Bytes

/-- The options of a command. -/
structure Gram where
  flags : Bytes
  args : Bytes
  longs : List Long

/-- `n` is the name of `l`, or begins the name of `l` and of no other. -/
def Names (G : Gram) (n : Bytes) (l : Long) : Prop :=
  l ∈ G.longs ∧ 61 ∉ n ∧ (n = l.name ∨ (n <+: l.name ∧ ∀ l' ∈ G.longs, n <+: l'.name → l' = l))

/-- Letters written together, the options they say, and the option that wants the next word. -/
inductive Letters (G : Gram) : List Item → Option UInt8 → Bytes → Prop
  | done : Letters G [] none []
  | flag {ws : List Item} {q : Option UInt8} {cs : Bytes} {c : UInt8} (hc : c ∈ G.flags) (h : Letters G ws q cs) :
      Letters G ((c, none) :: ws) q (c :: cs)
  | glued {o : UInt8} {a : Bytes} (ho : o ∈ G.args) (ha : a ≠ []) : Letters G [(o, some a)] none (o :: a)
  | wants {o : UInt8} (ho : o ∈ G.args) : Letters G [] (some o) [o]

/-- One word that begins with a dash, the options it says, and the option that wants the next word. -/
inductive Word (G : Gram) : List Item → Option UInt8 → Bytes → Prop
  | letters {ws : List Item} {q : Option UInt8} {cs : Bytes} (hn : cs ≠ []) (h : Letters G ws q cs) : Word G ws q (45 :: cs)
  | long {n : Bytes} {l : Long} (hn : n ≠ []) (h : Names G n l) (ha : l.arg = false) : Word G [(l.val, none)] none (45 :: 45 :: n)
  | longIs {n : Bytes} {l : Long} {v : Bytes} (h : Names G n l) (ha : l.arg = true) :
      Word G [(l.val, some v)] none (45 :: 45 :: (n ++ 61 :: v))
  | longWants {n : Bytes} {l : Long} (hn : n ≠ []) (h : Names G n l) (ha : l.arg = true) :
      Word G [] (some l.val) (45 :: 45 :: n)

/-- A word that is no option: it does not begin with a dash, or is one dash. -/
def Operand (a : Bytes) : Prop := a.head? ≠ some 45 ∨ a = [45]

/-- A line, its options in their order and its operands in their order. -/
inductive Line (G : Gram) : Bool → List Item → List Bytes → List Bytes → Prop
  | done {p : Bool} : Line G p [] [] []
  | stop {p : Bool} (ops : List Bytes) : Line G p [] ops (ascii "--" :: ops)
  | operand {os : List Item} {ops as : List Bytes} {a : Bytes} (ha : Operand a) (h : Line G true os ops as) :
      Line G true os (a :: ops) (a :: as)
  | first {a : Bytes} (ha : Operand a) (as : List Bytes) : Line G false [] (a :: as) (a :: as)
  | word {p : Bool} {ws os : List Item} {ops as : List Bytes} {a : Bytes} (hw : Word G ws none a) (h : Line G p os ops as) :
      Line G p (ws ++ os) ops (a :: as)
  | pair {p : Bool} {ws os : List Item} {o : UInt8} {ops as : List Bytes} {a x : Bytes} (hw : Word G ws (some o) a)
      (h : Line G p os ops as) : Line G p (ws ++ (o, some x) :: os) ops (a :: x :: as)

/-- The string and the table of a command are those of a grammar. -/
structure Table (S : Syn) (G : Gram) : Prop where
  flag : ∀ c, look S.short c = some false ↔ c ∈ G.flags
  arg : ∀ c, look S.short c = some true ↔ c ∈ G.args
  dash : (45 : UInt8) ∉ G.flags ∧ (45 : UInt8) ∉ G.args
  longs : (S.longs = none ∧ G.longs = []) ∨ S.longs = some G.longs
  vals : ∀ l ∈ G.longs, ∀ l' ∈ G.longs, l.val = l'.val → l = l'
  names : ∀ l ∈ G.longs, ∀ l' ∈ G.longs, l.name = l'.name → l = l'

/-! ## Names -/

theorem find_names {G : Gram} {S : Syn} (T : Table S G) {n : Bytes} (hn : 61 ∉ n) (l : Long) :
    findLong G.longs n = some l ↔ Names G n l := by
  unfold findLong
  cases hf : G.longs.find? (fun l => l.name = n) with
  | some l' =>
    have h1 := List.mem_of_find?_eq_some hf
    have h2 : l'.name = n := by simpa using List.find?_some hf
    constructor
    · intro h; cases h; exact ⟨h1, hn, .inl h2.symm⟩
    · rintro ⟨h3, -, h4 | ⟨-, h4⟩⟩
      · exact congrArg some (T.names l' h1 l h3 (h2.trans h4))
      · exact congrArg some (h4 l' h1 (by rw [h2]; exact List.prefix_refl n))
  | none =>
    have hno : ∀ x ∈ G.longs, x.name ≠ n := by simpa using hf
    have hmem : ∀ x, x ∈ G.longs.filter (fun l => n.isPrefixOf l.name) ↔ x ∈ G.longs ∧ n <+: x.name := by
      intro x; simp
    cases hF : G.longs.filter (fun l => n.isPrefixOf l.name) with
    | nil =>
      rw [hF] at hmem
      constructor
      · intro h; cases h
      · rintro ⟨h3, -, h4 | ⟨h4, -⟩⟩
        · exact absurd h4.symm (hno l h3)
        · exact absurd ((hmem l).2 ⟨h3, h4⟩) (by simp)
    | cons x more =>
      rw [hF] at hmem
      have hx := (hmem x).1 (by simp)
      show (if _ then _ else _) = _ ↔ _
      split
      · rename_i hall
        have hall : ∀ y ∈ more, y.arg = x.arg ∧ y.val = x.val := by simpa using hall
        have huniq : ∀ y ∈ G.longs, n <+: y.name → y = x := by
          intro y hy hp
          rcases List.mem_cons.1 ((hmem y).2 ⟨hy, hp⟩) with h | h
          · exact h
          · exact T.vals y hy x hx.1 (hall y h).2
        constructor
        · intro h; cases h; exact ⟨hx.1, hn, .inr ⟨hx.2, huniq⟩⟩
        · rintro ⟨h3, -, h4 | ⟨h4, -⟩⟩
          · exact absurd h4.symm (hno l h3)
          · exact congrArg some (huniq l h3 h4).symm
      · rename_i hall
        constructor
        · intro h; cases h
        · rintro ⟨h3, -, h4 | ⟨h4, h5⟩⟩
          · exact absurd h4.symm (hno l h3)
          · refine absurd ?_ hall
            simp only [List.all_eq_true, decide_eq_true_eq]
            intro y hy
            have hy' := (hmem y).1 (by simp [hy])
            rw [h5 y hy'.1 hy'.2, h5 x hx.1 hx.2]
            exact ⟨rfl, rfl⟩

/-! ## Words -/

def ev (i : Item) : GEv := .opt i.1 i.2

theorem cluster_letters {S : Syn} {G : Gram} (T : Table S G) {ws : List Item} {q : Option UInt8} {cs : Bytes}
    (h : Letters G ws q cs) : cluster S.short cs = (ws.map ev, q) := by
  induction h with
  | done => rfl
  | flag hc h ih => rw [cluster, (T.flag _).2 hc]; simp [ih, ev]
  | glued ho ha => rw [cluster, (T.arg _).2 ho]; simp [ha, ev]
  | wants ho => rw [cluster, (T.arg _).2 ho]; rfl

theorem cluster_covers {S : Syn} {G : Gram} (T : Table S G) : ∀ cs : Bytes,
    .wrong ∈ (cluster S.short cs).1 ∨ ∃ ws q, Letters G ws q cs
  | [] => .inr ⟨[], none, .done⟩
  | c :: cs => by
    cases hl : look S.short c with
    | none => exact .inl (by rw [cluster, hl]; simp)
    | some b =>
      cases b with
      | false =>
        have hc := (T.flag c).1 hl
        rcases cluster_covers T cs with h | ⟨ws, q, h⟩
        · exact .inl (by rw [cluster, hl]; simp [h])
        · exact .inr ⟨_, _, .flag hc h⟩
      | true =>
        have hc := (T.arg c).1 hl
        by_cases hcs : cs = []
        · subst hcs; exact .inr ⟨_, _, .wants hc⟩
        · exact .inr ⟨_, _, .glued hc hcs⟩

theorem letters_dash {S : Syn} {G : Gram} (T : Table S G) {ws : List Item} {q : Option UInt8} {cs : Bytes}
    (h : Letters G ws q cs) : cs.head? ≠ some 45 := by
  have := T.dash
  cases h with
  | done => simp
  | flag hc _ => intro h; injection h with h; subst h; exact this.1 hc
  | glued ho _ => intro h; injection h with h; subst h; exact this.2 ho
  | wants ho => intro h; injection h with h; subst h; exact this.2 ho

theorem split_none {n : Bytes} (h : 61 ∉ n) : n.takeWhile (· ≠ 61) = n ∧ n.dropWhile (· ≠ 61) = [] := by
  induction n with
  | nil => exact ⟨rfl, rfl⟩
  | cons c n ih =>
    have hc : c ≠ 61 := fun e => h (by simp [e])
    have := ih (fun e => h (by simp [e]))
    constructor
    · rw [List.takeWhile_cons, if_pos (by simpa using hc), this.1]
    · rw [List.dropWhile_cons, if_pos (by simpa using hc), this.2]

theorem split_some {n : Bytes} (h : 61 ∉ n) (v : Bytes) :
    (n ++ 61 :: v).takeWhile (· ≠ 61) = n ∧ (n ++ 61 :: v).dropWhile (· ≠ 61) = 61 :: v := by
  induction n with
  | nil => constructor <;> simp
  | cons c n ih =>
    have hc : c ≠ 61 := fun e => h (by simp [e])
    have := ih (fun e => h (by simp [e]))
    constructor
    · rw [List.cons_append, List.takeWhile_cons, if_pos (by simpa using hc), this.1]
    · rw [List.cons_append, List.dropWhile_cons, if_pos (by simpa using hc), this.2]

theorem split_any (b : Bytes) : 61 ∉ b ∨ ∃ n v, 61 ∉ n ∧ b = n ++ 61 :: v := by
  induction b with
  | nil => exact .inl (by simp)
  | cons c b ih =>
    by_cases hc : c = 61
    · exact .inr ⟨[], b, by simp, by simp [hc]⟩
    · rcases ih with h | ⟨n, v, h1, h2⟩
      · exact .inl (by simp [h, Ne.symm hc])
      · exact .inr ⟨c :: n, v, by simp [h1, Ne.symm hc], by simp [h2]⟩

theorem longs_some {S : Syn} {G : Gram} (T : Table S G) {n : Bytes} {l : Long} (h : Names G n l) : S.longs = some G.longs := by
  rcases T.longs with ⟨-, e⟩ | e
  · have := h.1; rw [e] at this; simp at this
  · exact e

theorem word_letters {S : Syn} {cs : Bytes} (h : cs.head? ≠ some 45) : word S cs = cluster S.short cs := by
  unfold word
  split
  · simp at h
  · rfl

theorem word_written {S : Syn} {G : Gram} (T : Table S G) {ws : List Item} {q : Option UInt8} {a : Bytes} (h : Word G ws q a) :
    ∃ c cs, a = 45 :: c :: cs ∧ ¬ (c = 45 ∧ cs = []) ∧ word S (c :: cs) = (ws.map ev, q) := by
  cases h with
  | @letters _ _ cs hn h =>
    have hd := letters_dash T h
    cases cs with
    | nil => exact absurd rfl hn
    | cons c cs =>
      refine ⟨c, cs, rfl, fun e => hd (by simp [e.1]), ?_⟩
      rw [word_letters hd, cluster_letters T h]
  | @long n l hn h ha =>
    refine ⟨45, n, rfl, fun e => hn e.2, ?_⟩
    have e := longs_some T h
    simp only [word, e, longWord, split_none h.2.1, (find_names T h.2.1 l).2 h, ha]
    rfl
  | @longIs n l v h ha =>
    refine ⟨45, _, rfl, by simp, ?_⟩
    have e := longs_some T h
    simp only [word, e, longWord, split_some h.2.1, (find_names T h.2.1 l).2 h, ha]
    rfl
  | @longWants n l hn h ha =>
    refine ⟨45, n, rfl, fun e => hn e.2, ?_⟩
    have e := longs_some T h
    simp only [word, e, longWord, split_none h.2.1, (find_names T h.2.1 l).2 h, ha]
    rfl

theorem word_covers {S : Syn} {G : Gram} (T : Table S G) {c : UInt8} {cs : Bytes} (hs : ¬ (c = 45 ∧ cs = [])) :
    .wrong ∈ (word S (c :: cs)).1 ∨ ∃ ws q, Word G ws q (45 :: c :: cs) := by
  have hl : word S (c :: cs) = cluster S.short (c :: cs) →
      .wrong ∈ (word S (c :: cs)).1 ∨ ∃ ws q, Word G ws q (45 :: c :: cs) := by
    intro e
    rw [e]
    rcases cluster_covers T (c :: cs) with h | ⟨ws, q, h⟩
    · exact .inl h
    · exact .inr ⟨ws, q, .letters (by simp) h⟩
  by_cases hc : c = 45
  · subst hc
    rcases T.longs with ⟨e, -⟩ | e
    · exact hl (by simp only [word, e])
    · have hcs : cs ≠ [] := fun e => hs ⟨rfl, e⟩
      have ew : word S (45 :: cs) = longWord G.longs cs := by simp only [word, e]
      rw [ew]
      rcases split_any cs with h | ⟨n, v, h, rfl⟩
      · cases hf : findLong G.longs cs with
        | none => exact .inl (by simp only [longWord, split_none h, hf]; simp)
        | some l =>
          have hN := (find_names T h l).1 hf
          cases ha : l.arg with
          | false => exact .inr ⟨_, _, .long hcs hN ha⟩
          | true => exact .inr ⟨_, _, .longWants hcs hN ha⟩
      · cases hf : findLong G.longs n with
        | none => exact .inl (by simp only [longWord, split_some h, hf]; simp)
        | some l =>
          have hN := (find_names T h l).1 hf
          cases ha : l.arg with
          | false => exact .inl (by simp only [longWord, split_some h, hf, ha]; simp)
          | true => exact .inr ⟨_, _, .longIs hN ha⟩
  · exact hl (word_letters (by simpa using hc))

/-! ## Lines -/

theorem getopt_operand {perm : Bool} {S : Syn} {a : Bytes} (h : Operand a) (as : List Bytes) :
    getopt perm S (a :: as) =
      if perm then ((getopt perm S as).1, a :: (getopt perm S as).2) else ([], a :: as) := by
  rw [getopt]
  rintro c cs rfl
  rcases h with h | h
  · simp at h
  · cases h

/-- C141. A line that the grammar explains is read as it says. -/
theorem C141_line {perm : Bool} {S : Syn} {G : Gram} (T : Table S G) {os : List Item} {ops args : List Bytes}
    (h : Line G perm os ops args) : getopt perm S args = (os.map ev, ops) := by
  induction h with
  | done => rfl
  | stop ops =>
    show getopt _ S ([45, 45] :: ops) = _
    rw [getopt, if_pos ⟨rfl, rfl⟩]; rfl
  | operand ha h ih => rw [getopt_operand ha, ih]; rfl
  | first ha as => rw [getopt_operand ha]; rfl
  | word hw h ih =>
    obtain ⟨c, cs, rfl, h1, h2⟩ := word_written T hw
    rw [getopt]
    simp only [if_neg h1, h2, ih, List.map_append]
  | pair hw h ih =>
    obtain ⟨c, cs, rfl, h1, h2⟩ := word_written T hw
    rw [getopt]
    simp only [if_neg h1, h2, ih, List.map_append, List.map_cons]
    rfl

theorem getopt_covers {perm : Bool} {S : Syn} {G : Gram} (T : Table S G) : ∀ args : List Bytes,
    .wrong ∈ (getopt perm S args).1 ∨ ∃ os ops, Line G perm os ops args
  | [] => .inr ⟨[], [], .done⟩
  | a :: as => by
    by_cases ho : Operand a
    · rw [getopt_operand ho]
      cases perm with
      | false => exact .inr ⟨_, _, .first ho as⟩
      | true =>
        rcases getopt_covers (perm := true) T as with h | ⟨os, ops, h⟩
        · exact .inl h
        · exact .inr ⟨_, _, .operand ho h⟩
    · obtain ⟨c, cs, rfl⟩ : ∃ c cs, a = 45 :: c :: cs := by
        unfold Operand at ho
        cases a with
        | nil => simp at ho
        | cons x xs =>
          cases xs with
          | nil =>
            by_cases hx : x = 45
            · simp [hx] at ho
            · simp [hx] at ho
          | cons y ys =>
            by_cases hx : x = 45
            · exact ⟨y, ys, by rw [hx]⟩
            · simp [hx] at ho
      by_cases hs : c = 45 ∧ cs = []
      · obtain ⟨rfl, rfl⟩ := hs
        exact .inr ⟨_, _, .stop as⟩
      · rcases word_covers T hs with h | ⟨ws, q, hw⟩
        · refine .inl ?_
          rw [getopt]
          simp only [if_neg hs]
          split
          · rename_i e; rw [e] at h; exact List.mem_append_left _ h
          · rename_i e; rw [e] at h
            split
            · exact List.mem_append_left _ h
            · exact List.mem_append_left _ h
        · obtain ⟨c', cs', e, -, h2⟩ := word_written T hw
          cases e
          cases q with
          | none =>
            rcases getopt_covers (perm := perm) T as with h | ⟨os, ops, h⟩
            · refine .inl ?_
              rw [getopt]
              simp only [if_neg hs, h2]
              exact List.mem_append_right _ h
            · exact .inr ⟨_, _, .word hw h⟩
          | some o =>
            cases as with
            | nil =>
              refine .inl ?_
              rw [getopt]
              simp only [if_neg hs, h2]
              simp
            | cons x as =>
              rcases getopt_covers (perm := perm) T as with h | ⟨os, ops, h⟩
              · refine .inl ?_
                rw [getopt]
                simp only [if_neg hs, h2]
                simp [h]
              · exact .inr ⟨_, _, .pair hw h⟩

/-- C141. A line is refused exactly if the grammar does not explain it. -/
theorem C141_refused {perm : Bool} {S : Syn} {G : Gram} (T : Table S G) (args : List Bytes) :
    .wrong ∈ (getopt perm S args).1 ↔ ¬ ∃ os ops, Line G perm os ops args := by
  constructor
  · rintro h ⟨os, ops, hl⟩
    rw [C141_line T hl] at h
    simp [ev] at h
  · intro h
    exact (getopt_covers T args).resolve_right h

/-- C141. A line without operands is read the same by both libraries. -/
theorem C141_same {G : Gram} {os : List Item} {args : List Bytes} (h : Line G false os [] args) : Line G true os [] args := by
  have : ∀ {p os ops args}, Line G p os ops args → p = false → ops = [] → Line G true os ops args := by
    intro p os ops args h
    induction h with
    | done => intro _ _; exact .done
    | stop ops => intro _ _; exact .stop ops
    | operand _ _ _ => intro _ h; cases h
    | first _ _ => intro _ h; cases h
    | word hw _ ih => intro h1 h2; exact .word hw (ih h1 h2)
    | pair hw _ ih => intro h1 h2; exact .pair hw (ih h1 h2)
  exact this h rfl rfl

/-! ## From letters to the options of a command -/

/-- An option that the grammar has. -/
def Gram.Has (G : Gram) (i : Item) : Prop := (i.1 ∈ G.flags ∧ i.2 = none) ∨ (i.1 ∈ G.args ∧ i.2.isSome)

/-- Each long option has the letter of a short one. -/
def Gram.Closed (G : Gram) : Prop := ∀ l ∈ G.longs, if l.arg then l.val ∈ G.args else l.val ∈ G.flags

theorem letters_has {G : Gram} {ws : List Item} {q : Option UInt8} {cs : Bytes} (h : Letters G ws q cs) :
    (∀ i ∈ ws, G.Has i) ∧ ∀ o, q = some o → o ∈ G.args := by
  induction h with
  | done => exact ⟨by simp, by simp⟩
  | flag hc h ih => exact ⟨by simpa using ⟨.inl ⟨hc, rfl⟩, fun a b hab => ih.1 _ hab⟩, ih.2⟩
  | glued ho ha => exact ⟨by simpa using .inr ⟨ho, rfl⟩, by simp⟩
  | wants ho => exact ⟨by simp, by rintro o h; cases h; exact ho⟩

theorem word_has {G : Gram} (hG : G.Closed) {ws : List Item} {q : Option UInt8} {a : Bytes} (h : Word G ws q a) :
    (∀ i ∈ ws, G.Has i) ∧ ∀ o, q = some o → o ∈ G.args := by
  cases h with
  | letters _ h => exact letters_has h
  | long _ h ha =>
    have := hG _ h.1
    rw [ha] at this
    exact ⟨by simpa using .inl ⟨by simpa using this, rfl⟩, by simp⟩
  | longIs h ha =>
    have := hG _ h.1
    rw [ha] at this
    exact ⟨by simpa using .inr ⟨by simpa using this, rfl⟩, by simp⟩
  | longWants _ h ha =>
    have := hG _ h.1
    rw [ha] at this
    exact ⟨by simp, by rintro o h; cases h; simpa using this⟩

theorem line_has {G : Gram} (hG : G.Closed) {p : Bool} {os : List Item} {ops args : List Bytes} (h : Line G p os ops args) :
    ∀ i ∈ os, G.Has i := by
  induction h with
  | done => simp
  | stop _ => simp
  | operand _ _ ih => exact ih
  | first _ _ => simp
  | word hw _ ih =>
    intro i hi
    rcases List.mem_append.1 hi with h | h
    · exact (word_has hG hw).1 i h
    · exact ih i h
  | pair hw _ ih =>
    intro i hi
    rcases List.mem_append.1 hi with h | h
    · exact (word_has hG hw).1 i h
    · rcases List.mem_cons.1 h with h | h
      · subst h; exact .inr ⟨(word_has hG hw).2 _ rfl, rfl⟩
      · exact ih i h

/-- How a command turns results into its options: `bad` is what it makes of a refused word,
`spell` the manual's name of an option. -/
structure Reads {O : Type} (S : Syn) (G : Gram) (bad : O) (spell : O → Item) (read : GEv → O) : Prop where
  table : Table S G
  closed : G.Closed
  wrong : read .wrong = bad
  back : ∀ o, o ≠ bad → read (ev (spell o)) = o
  has : ∀ i, G.Has i → ∃ o, o ≠ bad ∧ spell o = i

theorem reads_line {O : Type} {S : Syn} {G : Gram} {bad : O} {spell : O → Item} {read : GEv → O} (R : Reads S G bad spell read)
    {perm : Bool} {opts : List O} {ops args : List Bytes} (hb : bad ∉ opts) (h : Line G perm (opts.map spell) ops args) :
    (getopt perm S args).1.map read = opts ∧ (getopt perm S args).2 = ops := by
  rw [C141_line R.table h]
  refine ⟨?_, rfl⟩
  rw [List.map_map, List.map_map]
  clear h
  induction opts with
  | nil => rfl
  | cons o os ih =>
    simp only [List.mem_cons, not_or] at hb
    rw [List.map_cons, ih hb.2]
    exact congrArg (· :: os) (R.back o (Ne.symm hb.1))

theorem spelled {O : Type} {bad : O} {spell : O → Item} (os : List Item) (h : ∀ i ∈ os, ∃ o, o ≠ bad ∧ spell o = i) :
    ∃ opts : List O, bad ∉ opts ∧ opts.map spell = os := by
  induction os with
  | nil => exact ⟨[], by simp, rfl⟩
  | cons i os ih =>
    obtain ⟨opts, h1, h2⟩ := ih (fun j hj => h j (by simp [hj]))
    obtain ⟨o, h3, h4⟩ := h i (by simp)
    exact ⟨o :: opts, by simp [h1, Ne.symm h3], by simp [h2, h4]⟩

theorem reads_refused {O : Type} {S : Syn} {G : Gram} {bad : O} {spell : O → Item} {read : GEv → O}
    (R : Reads S G bad spell read) {perm : Bool} (args : List Bytes) :
    bad ∈ (getopt perm S args).1.map read ↔ ¬ ∃ (opts : List O) (ops : List Bytes), bad ∉ opts ∧ Line G perm (opts.map spell) ops args := by
  constructor
  · rintro h ⟨opts, ops, h1, h2⟩
    rw [(reads_line R h1 h2).1] at h
    exact h1 h
  · intro h
    rcases getopt_covers R.table args with h1 | ⟨os, ops, h1⟩
    · exact List.mem_map.2 ⟨_, h1, R.wrong⟩
    · obtain ⟨opts, h2, rfl⟩ := spelled (bad := bad) (spell := spell) os (fun i hi => R.has i (line_has R.closed h1 i hi))
      exact absurd ⟨opts, ops, h2, h1⟩ h

theorem all_bytes {P : UInt8 → Prop} (h : ∀ n : Fin 256, P (UInt8.ofNat n.val)) (c : UInt8) : P c := by
  have := h ⟨c.toNat, c.toNat_lt⟩
  simpa using this

/-! ## ulogcat -/

/-- The options of ulogcat (ulogcat.c:42-99). -/
def catGram : Gram := { flags := ascii "hcdCkul", args := ascii "btv", longs := [] }

/-- Letters of the manual. -/
def catSpell : CatOpt → Item
  | .clear => (99, none)
  | .dump => (100, none)
  | .color => (67, none)
  | .klog => (107, none)
  | .ulog => (117, none)
  | .label => (108, none)
  | .buffer a => (98, some a)
  | .tail a => (116, some a)
  | .help => (104, none)
  | .format a => (118, some a)
  | .bad => (63, none)

theorem catReads : Reads catSyn catGram CatOpt.bad catSpell toCat where
  table :=
    { flag := all_bytes (by decide +kernel)
      arg := all_bytes (by decide +kernel)
      dash := by decide
      longs := .inl ⟨rfl, rfl⟩
      vals := by intro l hl; cases hl
      names := by intro l hl; cases hl }
  closed := by intro l hl; cases hl
  wrong := rfl
  back := by intro o ho; cases o <;> first | rfl | exact absurd rfl ho
  has := by
    rintro ⟨c, a⟩ h
    rcases h with ⟨h, h'⟩ | ⟨h, ha⟩
    · cases (show a = none from h')
      have h : c = 104 ∨ c = 99 ∨ c = 100 ∨ c = 67 ∨ c = 107 ∨ c = 117 ∨ c = 108 := by revert c; exact all_bytes (by decide +kernel)
      rcases h with rfl | rfl | rfl | rfl | rfl | rfl | rfl
      · exact ⟨.help, by simp, rfl⟩
      · exact ⟨.clear, by simp, rfl⟩
      · exact ⟨.dump, by simp, rfl⟩
      · exact ⟨.color, by simp, rfl⟩
      · exact ⟨.klog, by simp, rfl⟩
      · exact ⟨.ulog, by simp, rfl⟩
      · exact ⟨.label, by simp, rfl⟩
    · have h1 : c ∈ catGram.args := h
      have ha1 : a.isSome := ha
      clear h ha
      have h : c = 98 ∨ c = 116 ∨ c = 118 := by clear ha1; revert c; exact all_bytes (by decide +kernel)
      cases a with
      | none => cases ha1
      | some a =>
        rcases h with rfl | rfl | rfl
        · exact ⟨.buffer a, by simp, rfl⟩
        · exact ⟨.tail a, by simp, rfl⟩
        · exact ⟨.format a, by simp, rfl⟩

/-- A line of ulogcat. -/
def CatLine (perm : Bool) (opts : List CatOpt) (ops args : List Bytes) : Prop :=
  .bad ∉ opts ∧ Line catGram perm (opts.map catSpell) ops args

/-- C141. The options of ulogcat are those its line says; operands are not looked at. -/
theorem C141_cat {perm : Bool} {opts : List CatOpt} {ops args : List Bytes} (h : CatLine perm opts ops args) :
    catArgs perm args = opts := (reads_line catReads h.1 h.2).1

theorem stops_first {os : List CatOpt} (h : ∃ o ∈ os, CatStops o) :
    ∃ pre o post, os = pre ++ o :: post ∧ (∀ x ∈ pre, ¬ CatStops x) ∧ CatStops o := by
  induction os with
  | nil => obtain ⟨o, ho, -⟩ := h; cases ho
  | cons x xs ih =>
    by_cases hx : CatStops x
    · exact ⟨[], x, xs, rfl, by simp, hx⟩
    · obtain ⟨o, ho, hs⟩ := h
      rcases List.mem_cons.1 ho with rfl | ho
      · exact absurd hs hx
      · obtain ⟨pre, o, post, h1, h2, h3⟩ := ih ⟨o, ho, hs⟩
        exact ⟨x :: pre, o, post, by simp [h1], by simpa using ⟨hx, h2⟩, h3⟩

/-- C141. ulogcat opens nothing and prints no message if its line is none that the manual explains:
it exits, with 0 if `-h` stands before what is wrong, otherwise with -1. -/
theorem C141_cat_refused {σ : Type} {mem : Nat → Bool} {w : OWorld} {cw : ClearWorld} {W : World σ} {calls fuel : Nat} {s : σ}
    {perm : Bool} {args : List Bytes} (h : ¬ ∃ opts ops, CatLine perm opts ops args) :
    ∃ st, (st = 0 ∨ st = -1) ∧ catMain mem w cw W calls fuel s (catArgs perm args) = .exit st := by
  have hb : CatOpt.bad ∈ catArgs perm args := (reads_refused catReads args).2 h
  obtain ⟨pre, o, post, h1, h2, h3⟩ := stops_first ⟨_, hb, .inr (.inl rfl)⟩
  have := (C93_stop mem (catArgs perm args) _).2 ⟨pre, o, post, h1, h2, h3, rfl⟩
  refine ⟨_, ?_, by unfold catMain; rw [this]⟩
  split
  · exact .inl rfl
  · exact .inr rfl

/-- C141 is false of names as operands: `ulogcat main` does not choose the log. -/
theorem C141_false_name {name : Bytes} (h : Operand name) : catArgs true [name] = [] :=
  C141_cat (ops := [name]) ⟨by simp, .operand h .done⟩

/-- C141 is false of options behind an operand with a library that stops there. -/
theorem C141_false_behind {name : Bytes} (h : Operand name) (args : List Bytes) : catArgs false (name :: args) = [] :=
  C141_cat (ops := name :: args) ⟨by simp, .first h args⟩

/-! ## ulogger -/

/-- The options of ulogger (ulogger.c:38-52). -/
def lgGram : Gram :=
  { flags := ascii "hms", args := ascii "inpt"
    longs := [⟨ascii "help", false, 104⟩, ⟨ascii "pid", true, 105⟩, ⟨ascii "time", false, 109⟩, ⟨ascii "name", true, 110⟩,
      ⟨ascii "prio", true, 112⟩, ⟨ascii "stderr", false, 115⟩, ⟨ascii "tag", true, 116⟩] }

def lgSpell : LgOpt → Item
  | .pid a => (105, some a)
  | .time => (109, none)
  | .name a => (110, some a)
  | .prio a => (112, some a)
  | .stderr => (115, none)
  | .tag a => (116, some a)
  | .help => (104, none)
  | .bad => (63, none)

theorem lgReads : Reads lgSyn lgGram LgOpt.bad lgSpell toLg where
  table :=
    { flag := all_bytes (by decide +kernel)
      arg := all_bytes (by decide +kernel)
      dash := by decide
      longs := .inr rfl
      vals := by decide +kernel
      names := by decide +kernel }
  closed := by unfold Gram.Closed; decide +kernel
  wrong := rfl
  back := by intro o ho; cases o <;> first | rfl | exact absurd rfl ho
  has := by
    rintro ⟨c, a⟩ h
    rcases h with ⟨h, h'⟩ | ⟨h, ha⟩
    · cases (show a = none from h')
      have h : c = 104 ∨ c = 109 ∨ c = 115 := by revert c; exact all_bytes (by decide +kernel)
      rcases h with rfl | rfl | rfl
      · exact ⟨.help, by simp, rfl⟩
      · exact ⟨.time, by simp, rfl⟩
      · exact ⟨.stderr, by simp, rfl⟩
    · have h1 : c ∈ lgGram.args := h
      have ha1 : a.isSome := ha
      clear h ha
      have h : c = 105 ∨ c = 110 ∨ c = 112 ∨ c = 116 := by clear ha1; revert c; exact all_bytes (by decide +kernel)
      cases a with
      | none => cases ha1
      | some a =>
        rcases h with rfl | rfl | rfl | rfl
        · exact ⟨.pid a, by simp, rfl⟩
        · exact ⟨.name a, by simp, rfl⟩
        · exact ⟨.prio a, by simp, rfl⟩
        · exact ⟨.tag a, by simp, rfl⟩

/-- A line of ulogger. -/
def LgLine (perm : Bool) (opts : List LgOpt) (ops args : List Bytes) : Prop :=
  .bad ∉ opts ∧ Line lgGram perm (opts.map lgSpell) ops args

/-- C141. The options and the messages of ulogger are those its line says. -/
theorem C141_logger {perm : Bool} {opts : List LgOpt} {ops args : List Bytes} (h : LgLine perm opts ops args) :
    logArgs perm args = (opts, ops) :=
  Prod.ext (reads_line lgReads h.1 h.2).1 (reads_line lgReads h.1 h.2).2

/-- C141. The operands of ulogger are logged, each as a message, in their order. -/
theorem C141_logged {perm : Bool} {opts : List LgOpt} {ops args : List Bytes} (h : LgLine perm opts ops args) (hh : .help ∉ opts)
    (ht : LgOpt.time ∉ opts) (hne : ops ≠ []) (env : LgEnv) {fd : Nat} (hd : env.dev = some fd) (self : Bytes) (pid : UInt32)
    (c : Nat → UInt32 × UInt32) (hc : ∀ j, j < ops.length → env.clock j = some (c j))
    (hp : (whoOf self pid opts).pid ≠ 0xffffffff) (input : Bytes) :
    Outcome env (whoOf self pid opts) 0 (ops.zipIdx.map fun p => ((c p.2).1, (c p.2).2, p.1))
      (ulogger env self pid (logArgs perm args).1 (logArgs perm args).2 input) := by
  rw [C141_logger h]
  exact C86_args env hd self pid ⟨hh, h.1⟩ ht hne c hc hp input

/-- C141. ulogger logs nothing if its line is none that the manual explains. -/
theorem C141_logger_refused {perm : Bool} {args : List Bytes} (h : ¬ ∃ opts ops, LgLine perm opts ops args) (env : LgEnv)
    (self : Bytes) (pid : UInt32) (input : Bytes) :
    ∃ st, (st = 0 ∨ st = 1) ∧ ulogger env self pid (logArgs perm args).1 (logArgs perm args).2 input = ([], st) := by
  have hb : LgOpt.bad ∈ (logArgs perm args).1 := (reads_refused lgReads args).2 h
  have : ∀ os : List LgOpt, .bad ∈ os → ∃ pre o post, os = pre ++ o :: post ∧ Usual pre ∧ (o = .help ∨ o = .bad) := by
    intro os
    induction os with
    | nil => intro h; cases h
    | cons x xs ih =>
      intro h
      by_cases hx : x = .help ∨ x = .bad
      · exact ⟨[], x, xs, rfl, by simp [Usual], hx⟩
      · simp only [not_or] at hx
        obtain ⟨pre, o, post, h1, h2, h3⟩ := ih ((List.mem_cons.1 h).resolve_left (Ne.symm hx.2))
        exact ⟨x :: pre, o, post, by simp [h1], by simpa [Usual, Ne.symm hx.1, Ne.symm hx.2] using h2, h3⟩
  obtain ⟨pre, o, post, h1, h2, h3⟩ := this _ hb
  refine ⟨_, ?_, by rw [h1]; exact C86_stop env self pid pre post o _ input h2 h3⟩
  split
  · exact .inl rfl
  · exact .inr rfl

/-- C141 is false of messages that begin with a dash: the word is taken for options, and if its
first letter is none, nothing of the line is logged. -/
theorem C141_false_dash {perm : Bool} {c : UInt8} (h : c ∉ lgGram.flags ∧ c ∉ lgGram.args ∧ c ≠ 45) (cs : Bytes) (args : List Bytes)
    (env : LgEnv) (self : Bytes) (pid : UInt32) (input : Bytes) :
    ulogger env self pid (logArgs perm ((45 :: c :: cs) :: args)).1 (logArgs perm ((45 :: c :: cs) :: args)).2 input = ([], 1) := by
  have hl : look lgSyn.short c = none := by
    cases hl : look lgSyn.short c with
    | none => rfl
    | some b =>
      cases b with
      | false => exact absurd ((lgReads.table.flag c).1 hl) h.1
      | true => exact absurd ((lgReads.table.arg c).1 hl) h.2.1
  have hw : ∃ es, (word lgSyn (c :: cs)).1 = .wrong :: es := by
    rw [word_letters (by simpa using h.2.2), cluster, hl]
    exact ⟨_, rfl⟩
  obtain ⟨es, hw⟩ := hw
  have : ∃ os, (logArgs perm ((45 :: c :: cs) :: args)).1 = .bad :: os := by
    unfold logArgs
    rw [getopt, if_neg (fun e => h.2.2 e.1)]
    split
    · rename_i e; rw [e] at hw; simp only at hw; rw [hw]; exact ⟨_, rfl⟩
    · rename_i e; rw [e] at hw; simp only at hw
      split
      · rw [hw]; exact ⟨_, rfl⟩
      · rw [hw]; exact ⟨_, rfl⟩
  obtain ⟨os, e⟩ := this
  rw [e]
  exact C86_stop env self pid [] os .bad _ input (by simp [Usual]) (.inr rfl)

/-! ## shdlogd -/

/-- The options of shdlogd (shdlogd.c:212-224). -/
def shdGram : Gram :=
  { flags := ascii "h", args := ascii "psdn"
    longs := [⟨ascii "period", true, 112⟩, ⟨ascii "section", true, 115⟩, ⟨ascii "device", true, 100⟩,
      ⟨ascii "pname", true, 110⟩, ⟨ascii "help", false, 104⟩] }

def shdSpell : ShdMain.MOpt → Item
  | .period a => (112, some a)
  | .sect a => (115, some a)
  | .device a => (100, some a)
  | .pname a => (110, some a)
  | .other => (104, none)

theorem shdTable : Table shdSyn shdGram where
  flag := all_bytes (by decide +kernel)
  arg := all_bytes (by decide +kernel)
  dash := by decide
  longs := .inr rfl
  vals := by decide +kernel
  names := by decide +kernel

/-- C141. The options of shdlogd are those its line says. -/
theorem C141_shd {perm : Bool} {opts : List ShdMain.MOpt} {ops args : List Bytes} (h : Line shdGram perm (opts.map shdSpell) ops args) :
    shdArgs perm args = opts := by
  unfold shdArgs
  rw [C141_line shdTable h]
  show ((opts.map shdSpell).map ev).map toShd = opts
  rw [List.map_map, List.map_map]
  clear h
  induction opts with
  | nil => rfl
  | cons o os ih => rw [List.map_cons, ih]; cases o <;> rfl

/-- C141. If the line of shdlogd is none that the manual explains, it prints its usage, once for
each wrong word or `-h`, and ends with 0 without having done anything else. -/
theorem C141_shd_refused {perm : Bool} {args : List Bytes} (h : ¬ ∃ os ops, Line shdGram perm os ops args) (w : ShdMain.Sys)
    (fs : List ShdMain.First) (ls : List ShdMain.Later) :
    ∃ n, 0 < n ∧ ShdMain.main w (shdArgs perm args) fs ls = some { evs := List.replicate n .usage, status := some 0 } := by
  have hb : ShdMain.MOpt.other ∈ shdArgs perm args := List.mem_map.2 ⟨_, (C141_refused shdTable args).2 h, rfl⟩
  exact ⟨_, List.count_pos_iff.2 hb, ShdMain.C132_usage w hb fs ls⟩

end Verif.Tools.Getopt
