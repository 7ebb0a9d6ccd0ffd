import Verif.Tools.CtlArgs
import Verif.Tools.PropsGetopt
import Verif.Tools.PropsCtlTool

/-!
# C142: what the arguments of ulogctl say

The grammar is that of C141 with one more word after a tag.
-/
namespace Verif.Tools.Getopt
open Verif Verif.Ulogcat Verif.Tools

/-! ## The grammar -/

/-- The options of ulogctl (ulogctl.c:107-135). -/
def ctlGram : Gram :=
  { flags := ascii "hlC", args := ascii "tap"
    longs := [⟨ascii "help", false, 104⟩, ⟨ascii "list", false, 108⟩, ⟨ascii "color", false, 67⟩, ⟨ascii "tag", true, 116⟩,
      ⟨ascii "all", true, 97⟩, ⟨ascii "process", true, 112⟩] }

/-- An option other than `-t`, and its letter and argument. -/
inductive Plain : TOpt → Item → Prop
  | help : Plain .help (104, none)
  | list : Plain .list (108, none)
  | color : Plain .color (67, none)
  | all (a : Bytes) : Plain (.all a) (97, some a)
  | proc (n : Bytes) : Plain (.proc n) (112, some n)

/-- Several options other than `-t`. -/
inductive Plains : List TOpt → List Item → Prop
  | nil : Plains [] []
  | cons {o : TOpt} {i : Item} {os : List TOpt} {is : List Item} (h : Plain o i) (hs : Plains os is) : Plains (o :: os) (i :: is)

/-- A line of ulogctl, its options in their order and its operands in their order. -/
inductive CtlLine : Bool → List TOpt → List Bytes → List Bytes → Prop
  | done {p : Bool} : CtlLine p [] [] []
  | stop {p : Bool} (ops : List Bytes) : CtlLine p [] ops (ascii "--" :: ops)
  | operand {os : List TOpt} {ops as : List Bytes} {a : Bytes} (ha : Operand a) (h : CtlLine true os ops as) :
      CtlLine true os (a :: ops) (a :: as)
  | first {a : Bytes} (ha : Operand a) (as : List Bytes) : CtlLine false [] (a :: as) (a :: as)
  | word {p : Bool} {ts os : List TOpt} {ws : List Item} {ops as : List Bytes} {a : Bytes} (hp : Plains ts ws)
      (hw : Word ctlGram ws none a) (h : CtlLine p os ops as) : CtlLine p (ts ++ os) ops (a :: as)
  | pair {p : Bool} {ts os : List TOpt} {t : TOpt} {ws : List Item} {o : UInt8} {ops as : List Bytes} {a x : Bytes}
      (hp : Plains ts ws) (ht : Plain t (o, some x)) (hw : Word ctlGram ws (some o) a) (h : CtlLine p os ops as) :
      CtlLine p (ts ++ t :: os) ops (a :: x :: as)
  | tag {p : Bool} {ts os : List TOpt} {ws : List Item} {ops as : List Bytes} {a v y : Bytes} (hp : Plains ts ws)
      (hw : Word ctlGram (ws ++ [(116, some v)]) none a) (hy : y.head? ≠ some 45) (h : CtlLine p os ops as) :
      CtlLine p (ts ++ .tag v (some y) :: os) ops (a :: y :: as)
  | tagPair {p : Bool} {ts os : List TOpt} {ws : List Item} {ops as : List Bytes} {a v y : Bytes} (hp : Plains ts ws)
      (hw : Word ctlGram ws (some 116) a) (hy : y.head? ≠ some 45) (h : CtlLine p os ops as) :
      CtlLine p (ts ++ .tag v (some y) :: os) ops (a :: v :: y :: as)

theorem ctlTable : Table ctlSyn ctlGram where
  flag := all_bytes (by decide +kernel)
  arg := all_bytes (by decide +kernel)
  dash := by decide
  longs := .inr rfl
  vals := by decide +kernel
  names := by decide +kernel

theorem ctlClosed : ctlGram.Closed := by unfold Gram.Closed; decide +kernel

/-! ## Reading a line -/

theorem plain_read {o : TOpt} {i : Item} (h : Plain o i) : toCtl (ev i) = o := by cases h <;> rfl

theorem plain_tag {o : TOpt} {i : Item} (h : Plain o i) : i.1 ≠ 116 := by cases h <;> simp

theorem plains_read {os : List TOpt} {is : List Item} (h : Plains os is) : (is.map ev).map toCtl = os := by
  induction h with
  | nil => rfl
  | cons h _ ih => rw [List.map_cons, List.map_cons, ih, plain_read h]

theorem plains_tag {os : List TOpt} {is : List Item} (h : Plains os is) : ∀ i ∈ is, i.1 ≠ 116 := by
  induction h with
  | nil => simp
  | cons h _ ih => simpa using ⟨plain_tag h, fun a b hab => ih _ hab⟩

theorem lastTag_none {is : List Item} (h : ∀ i ∈ is, i.1 ≠ 116) : lastTag (is.map ev) = none := by
  unfold lastTag
  rw [List.getLast?_map]
  cases hl : is.getLast? with
  | none => rfl
  | some i =>
    have hi := h i (List.mem_of_getLast? hl)
    obtain ⟨c, v⟩ := i
    cases v with
    | none => rfl
    | some v => exact if_neg hi

theorem lastTag_some (is : List Item) (v : Bytes) : lastTag ((is ++ [(116, some v)]).map ev) = some v := by
  unfold lastTag
  rw [List.getLast?_map, List.getLast?_concat]
  rfl

theorem ctl_operand {perm : Bool} {a : Bytes} (h : Operand a) (as : List Bytes) :
    ctlArgs perm (a :: as) =
      if perm then ((ctlArgs perm as).1, a :: (ctlArgs perm as).2) else ([], a :: as) := by
  rw [ctlArgs]
  rintro c cs rfl
  rcases h with h | h
  · simp at h
  · cases h

/-- C142. A line of ulogctl that the grammar explains is read as it says. -/
theorem C142_line {perm : Bool} {opts : List TOpt} {ops args : List Bytes} (h : CtlLine perm opts ops args) :
    ctlArgs perm args = (opts, ops) := by
  induction h with
  | done => rfl
  | stop ops =>
    show ctlArgs _ ([45, 45] :: ops) = _
    rw [ctlArgs, if_pos ⟨rfl, rfl⟩]
  | operand ha h ih => rw [ctl_operand ha, ih]; rfl
  | first ha as => rw [ctl_operand ha]; rfl
  | word hp hw h ih =>
    obtain ⟨c, cs, rfl, h1, h2⟩ := word_written ctlTable hw
    rw [ctlArgs]
    simp only [if_neg h1, h2, ih, lastTag_none (plains_tag hp), plains_read hp]
  | pair hp ht hw h ih =>
    obtain ⟨c, cs, rfl, h1, h2⟩ := word_written ctlTable hw
    rw [ctlArgs]
    simp only [if_neg h1, h2, ih, if_neg (plain_tag ht), plains_read hp]
    rw [show GEv.opt _ (some _) = ev (_, some _) from rfl, plain_read ht]
  | tag hp hw hy h ih =>
    obtain ⟨c, cs, rfl, h1, h2⟩ := word_written ctlTable hw
    rw [ctlArgs]
    simp only [if_neg h1, h2, ih, lastTag_some]
    rw [List.map_append, List.map_cons, List.map_nil, List.dropLast_concat, plains_read hp]
  | tagPair hp hw hy h ih =>
    obtain ⟨c, cs, rfl, h1, h2⟩ := word_written ctlTable hw
    rw [ctlArgs]
    simp only [if_neg h1, h2, ih, if_true, plains_read hp]

/-! ## Lines that are refused -/

theorem letters_shape {G : Gram} {ws : List Item} {q : Option UInt8} {cs : Bytes} (h : Letters G ws q cs) :
    ∃ fs : List Item, (∀ i ∈ fs, i.1 ∈ G.flags ∧ i.2 = none) ∧
      (ws = fs ∨ ∃ o v, o ∈ G.args ∧ q = none ∧ ws = fs ++ [(o, some v)]) := by
  induction h with
  | done => exact ⟨[], by simp, .inl rfl⟩
  | @flag ws q cs c hc h ih =>
    obtain ⟨fs, h1, h2⟩ := ih
    refine ⟨(c, none) :: fs, by simpa using ⟨hc, fun a b hab => h1 _ hab⟩, ?_⟩
    rcases h2 with rfl | ⟨o, v, h3, h4, rfl⟩
    · exact .inl rfl
    · exact .inr ⟨o, v, h3, h4, rfl⟩
  | @glued o a ho ha => exact ⟨[], by simp, .inr ⟨o, a, ho, rfl, rfl⟩⟩
  | wants ho => exact ⟨[], by simp, .inl rfl⟩

theorem word_shape {G : Gram} (hG : G.Closed) {ws : List Item} {q : Option UInt8} {a : Bytes} (h : Word G ws q a) :
    ∃ fs : List Item, (∀ i ∈ fs, i.1 ∈ G.flags ∧ i.2 = none) ∧
      (ws = fs ∨ ∃ o v, o ∈ G.args ∧ q = none ∧ ws = fs ++ [(o, some v)]) := by
  cases h with
  | letters _ h => exact letters_shape h
  | @long n l _ h ha =>
    have := hG _ h.1
    rw [ha] at this
    exact ⟨[(l.val, none)], by simpa using this, .inl rfl⟩
  | @longIs n l v h ha =>
    have := hG _ h.1
    rw [ha] at this
    exact ⟨[], by simp, .inr ⟨l.val, v, by simpa using this, rfl, rfl⟩⟩
  | longWants _ h ha => exact ⟨[], by simp, .inl rfl⟩

theorem flags_plain {fs : List Item} (h : ∀ i ∈ fs, i.1 ∈ ctlGram.flags ∧ i.2 = none) : ∃ ts, Plains ts fs := by
  induction fs with
  | nil => exact ⟨[], .nil⟩
  | cons i fs ih =>
    obtain ⟨ts, hts⟩ := ih (fun j hj => h j (by simp [hj]))
    obtain ⟨h1, h2⟩ := h i (by simp)
    obtain ⟨c, a⟩ := i
    cases (show a = none from h2)
    have h1 : c ∈ ctlGram.flags := h1
    clear h h2
    have h3 : c = 104 ∨ c = 108 ∨ c = 67 := by clear hts ih; revert c; exact all_bytes (by decide +kernel)
    rcases h3 with rfl | rfl | rfl
    · exact ⟨_, .cons .help hts⟩
    · exact ⟨_, .cons .list hts⟩
    · exact ⟨_, .cons .color hts⟩

theorem arg_plain {c : UInt8} (h : c ∈ ctlGram.args) (a : Bytes) : c = 116 ∨ ∃ t, Plain t (c, some a) := by
  have h3 : c = 116 ∨ c = 97 ∨ c = 112 := by
    revert h
    exact all_bytes (P := fun c => c ∈ ctlGram.args → c = 116 ∨ c = 97 ∨ c = 112) (by decide +kernel) c
  rcases h3 with rfl | rfl | rfl
  · exact .inl rfl
  · exact .inr ⟨_, .all a⟩
  · exact .inr ⟨_, .proc a⟩

theorem plains_snoc {ts : List TOpt} {ws : List Item} {t : TOpt} {i : Item} (h : Plains ts ws) (ht : Plain t i) :
    Plains (ts ++ [t]) (ws ++ [i]) := by
  induction h with
  | nil => exact .cons ht .nil
  | cons h _ ih => exact .cons h ih

/-- An option with which the command ends. -/
def Ends (os : List TOpt) : Prop := ∃ o ∈ os, (TOpt.ends o).isSome

theorem ends_append_right {os : List TOpt} (pre : List TOpt) (h : Ends os) : Ends (pre ++ os) :=
  let ⟨o, h1, h2⟩ := h; ⟨o, List.mem_append_right _ h1, h2⟩

theorem ends_cons {o : TOpt} {os : List TOpt} (h : Ends os) : Ends (o :: os) :=
  let ⟨x, h1, h2⟩ := h; ⟨x, List.mem_cons_of_mem _ h1, h2⟩

theorem ends_here {o : TOpt} (h : (TOpt.ends o).isSome) (pre post : List TOpt) : Ends (pre ++ o :: post) :=
  ⟨o, by simp, h⟩

theorem ends_wrong {evs : List GEv} (h : .wrong ∈ evs) (post : List TOpt) : Ends (evs.map toCtl ++ post) :=
  ⟨.bad, List.mem_append_left _ (List.mem_map.2 ⟨_, h, rfl⟩), rfl⟩

theorem dash_ends {v y : Bytes} (h : y.head? = some 45) : (TOpt.ends (.tag v (some y))).isSome := by
  cases y with
  | nil => cases h
  | cons c y => cases h; rfl

theorem lastTag_keeps {evs : List GEv} {v : Bytes} (hl : lastTag evs = some v) (h : .wrong ∈ evs) : .wrong ∈ evs.dropLast := by
  rcases List.eq_nil_or_concat evs with rfl | ⟨es, e, rfl⟩
  · cases h
  · rw [List.concat_eq_append] at hl h ⊢
    rw [List.dropLast_concat]
    rcases List.mem_append.1 h with h | h
    · exact h
    · cases List.mem_singleton.1 h
      unfold lastTag at hl
      rw [List.getLast?_concat] at hl
      cases hl

theorem ctl_covers {perm : Bool} : ∀ args : List Bytes,
    Ends (ctlArgs perm args).1 ∨ ∃ opts ops, CtlLine perm opts ops args
  | [] => .inr ⟨[], [], .done⟩
  | a :: as => by
    by_cases ho : Operand a
    · rw [ctl_operand ho]
      cases perm with
      | false => exact .inr ⟨_, _, .first ho as⟩
      | true =>
        rcases ctl_covers (perm := true) as with h | ⟨os, ops, h⟩
        · exact .inl h
        · exact .inr ⟨_, _, .operand ho h⟩
    · obtain ⟨c, cs, rfl⟩ : ∃ c cs, a = 45 :: c :: cs := by
        unfold Operand at ho
        cases a with
        | nil => simp at ho
        | cons x xs =>
          cases xs with
          | nil =>
            by_cases hx : x = 45
            · simp [hx] at ho
            · simp [hx] at ho
          | cons y ys =>
            by_cases hx : x = 45
            · exact ⟨y, ys, by rw [hx]⟩
            · simp [hx] at ho
      by_cases hs : c = 45 ∧ cs = []
      · obtain ⟨rfl, rfl⟩ := hs
        exact .inr ⟨_, _, .stop as⟩
      · rcases word_covers ctlTable hs with h | ⟨ws, q, hw⟩
        · refine .inl ?_
          rw [ctlArgs]
          simp only [if_neg hs]
          split
          · rename_i e; rw [e] at h
            split
            · exact ends_wrong h _
            · rename_i hl
              split
              · exact ends_wrong (lastTag_keeps hl h) _
              · exact ends_wrong (lastTag_keeps hl h) _
          · rename_i e; rw [e] at h
            split
            · exact ends_wrong h _
            · split
              · split
                · exact ends_wrong h _
                · exact ends_wrong h _
              · exact ends_wrong h _
        · obtain ⟨c', cs', e, -, h2⟩ := word_written ctlTable hw
          cases e
          obtain ⟨fs, hf, hshape⟩ := word_shape ctlClosed hw
          obtain ⟨ts, hts⟩ := flags_plain hf
          cases q with
          | none =>
            have hplain : ∀ {ts}, Plains ts ws → Ends (ctlArgs perm ((45 :: c :: cs) :: as)).1 ∨
                ∃ opts ops, CtlLine perm opts ops ((45 :: c :: cs) :: as) := by
              intro ts hts
              rcases ctl_covers (perm := perm) as with h | ⟨os, ops, h⟩
              · refine .inl ?_
                rw [ctlArgs]
                simp only [if_neg hs, h2, lastTag_none (plains_tag hts)]
                exact ends_append_right _ h
              · exact .inr ⟨_, _, .word hts hw h⟩
            rcases hshape with rfl | ⟨o, v, h3, -, rfl⟩
            · exact hplain hts
            · rcases arg_plain h3 v with rfl | ⟨t, ht⟩
              · cases as with
                | nil =>
                  refine .inl ?_
                  rw [ctlArgs]
                  simp only [if_neg hs, h2, lastTag_some]
                  exact ends_here rfl _ _
                | cons y as =>
                  have e : (ctlArgs perm ((45 :: c :: cs) :: y :: as)).1 =
                      (((fs ++ [(116, some v)]).map ev).dropLast.map toCtl ++ .tag v (some y) :: (ctlArgs perm as).1) := by
                    rw [ctlArgs]
                    simp only [if_neg hs, h2, lastTag_some]
                  by_cases hy : y.head? = some 45
                  · rw [e]; exact .inl (ends_here (dash_ends hy) _ _)
                  · rcases ctl_covers (perm := perm) as with h | ⟨os, ops, h⟩
                    · rw [e]; exact .inl (ends_append_right _ (ends_cons h))
                    · exact .inr ⟨_, _, .tag hts hw hy h⟩
              · exact hplain (plains_snoc hts ht)
          | some o =>
            rcases hshape with rfl | ⟨_, _, _, h, _⟩
            · have hoa := (word_has ctlClosed hw).2 o rfl
              cases as with
              | nil =>
                refine .inl ?_
                rw [ctlArgs]
                simp only [if_neg hs, h2]
                exact ends_here rfl _ _
              | cons x as =>
                rcases arg_plain hoa x with rfl | ⟨t, ht⟩
                · cases as with
                  | nil =>
                    refine .inl ?_
                    rw [ctlArgs]
                    simp only [if_neg hs, h2, if_true]
                    exact ends_here rfl _ _
                  | cons y as =>
                    have e : (ctlArgs perm ((45 :: c :: cs) :: x :: y :: as)).1 =
                        ((ws.map ev).map toCtl ++ .tag x (some y) :: (ctlArgs perm as).1) := by
                      rw [ctlArgs]
                      simp only [if_neg hs, h2, if_true]
                    by_cases hy : y.head? = some 45
                    · rw [e]; exact .inl (ends_here (dash_ends hy) _ _)
                    · rcases ctl_covers (perm := perm) as with h | ⟨os, ops, h⟩
                      · rw [e]; exact .inl (ends_append_right _ (ends_cons h))
                      · exact .inr ⟨_, _, .tagPair hts hw hy h⟩
                · rcases ctl_covers (perm := perm) as with h | ⟨os, ops, h⟩
                  · refine .inl ?_
                    rw [ctlArgs]
                    simp only [if_neg hs, h2, if_neg (plain_tag ht)]
                    exact ends_append_right _ (ends_cons h)
                  · exact .inr ⟨_, _, .pair hts ht hw h⟩
            · cases h

/-- C142. If the line of ulogctl is none that the grammar explains, the command exits, and has
printed no tag and sent no request. -/
theorem C142_refused {perm : Bool} {args : List Bytes} (h : ¬ ∃ opts ops, CtlLine perm opts ops args)
    (qs : List (Bytes × Int) → List (Bytes × Int)) (w : ToolWorld) (evs : List TEv) :
    ∃ st, (st = 0 ∨ st = -1) ∧ toolMain qs w (ctlArgs perm args).1 (ctlArgs perm args).2 evs = .exits st [] [] := by
  obtain ⟨o, h1, h2⟩ := (ctl_covers args).resolve_right h
  have hs : ((ctlArgs perm args).1.findSome? TOpt.ends).isSome := List.findSome?_isSome_iff.2 ⟨o, h1, h2⟩
  obtain ⟨st, hst⟩ := Option.isSome_iff_exists.1 hs
  refine ⟨st, ?_, by unfold toolMain; rw [(C104_options _).1 st hst]⟩
  obtain ⟨x, hx, he⟩ := List.exists_of_findSome?_eq_some hst
  cases x with
  | help => cases he; exact .inl rfl
  | bad => cases he; exact .inr rfl
  | tag v y =>
    cases y with
    | none => cases he; exact .inr rfl
    | some y =>
      unfold TOpt.ends at he
      split at he <;> grind
  | all a =>
    unfold TOpt.ends at he
    split at he <;> grind
  | _ => cases he

/-- C142. A line with levels that are known, and with a process, or `unix:` and a path, that fit,
makes the request that its options stand for. -/
theorem C142_request {perm : Bool} {opts : List TOpt} {ops args : List Bytes} (h : CtlLine perm opts ops args)
    (qs : List (Bytes × Int) → List (Bytes × Int)) {w : ToolWorld} (hm : w.made = true) (ho : opts.findSome? TOpt.ends = none)
    (ha : (∃ p, opts.reverse.findSome? TOpt.procName = some p ∧ p.length ≤ 99 ∧ ops = []) ∨
      (∃ sock rest, opts.reverse.findSome? TOpt.procName = none ∧ ops = (ascii "unix:" ++ sock) :: rest ∧ sock.length ≤ 126))
    (evs : List TEv) :
    ∃ o, toolMain qs w (ctlArgs perm args).1 (ctlArgs perm args).2 evs = toolRun qs w o evs ∧ o.request = wanted opts ∧
      o.color = decide (TOpt.color ∈ opts) := by
  rw [C142_line h]
  exact C104_main qs hm ho ha evs

/-- C142 is false of an address before the options with a library that stops at operands: no
request is made, and a process that is named does not count. -/
theorem C142_false_behind {a : Bytes} (h : Operand a) (args : List Bytes) : ctlArgs false (a :: args) = ([], a :: args) :=
  C142_line (.first h args)

end Verif.Tools.Getopt
