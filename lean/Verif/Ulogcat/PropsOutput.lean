import Verif.Ulogcat.Output
import Verif.Ulogcat.Sim
import Verif.Ulogcat.PropsText
import Verif.Tools.PropsCat

/-!
# The bytes a viewer writes (C96, C97)
-/
namespace Verif.Ulogcat
open Verif

variable {σ : Type}

/-! ## Specification -/

/-- The entry can be rendered (C39, C63). -/
structure CanShow (x : Shown) : Prop where
  text : x.look.fmt ≠ .csv → x.info.isBinary = false ∧ x.info.priority < 8 ∧ ∃ t r, NoNul t ∧ x.msg = t ++ 0 :: r
  csv : x.look.fmt = .csv → (if x.info.isBinary then x.len ≤ x.msg.length else 0 ∈ x.msg) ∧
    (csvLine x.info (csvPayload x.info x.msg x.len)).length ≤ 5248

/-- The lines of an entry. -/
def Shown.text (x : Shown) : Bytes :=
  if x.look.fmt = .csv then csvLine x.info (csvPayload x.info x.msg x.len)
  else cut 5248 ((shownLines (cstr x.msg)).map (lineText x.look x.info)).flatten

/-- The bytes of what was output. -/
def textOf (paths : Nat → Bytes) (what : Nat → Shown) : OutEv → Bytes
  | .banner d _ => List.replicate 39 45 ++ bannerText (paths d) ++ [10]
  | .entry f => (what f.id).text

/-! ## Rendering -/

theorem text_ne (x : Shown) : x.text ≠ [] := by
  unfold Shown.text
  split
  · unfold csvLine; simp
  · intro hc
    have hl := congrArg List.length hc
    rw [cut_length] at hl
    simp only [List.length_nil] at hl
    have hne : shownLines (cstr x.msg) ≠ [] := by
      unfold shownLines
      generalize (if (cstr x.msg).getLast? = some 10 then (cstr x.msg).dropLast else cstr x.msg) = u
      cases u with
      | nil => simp [splitNl]
      | cons b u =>
        unfold splitNl
        split
        · simp
        · split <;> simp
    obtain ⟨l, ls, hl2⟩ := List.exists_cons_of_ne_nil hne
    rw [hl2, List.map_cons, List.flatten_cons] at hl
    unfold lineText at hl
    simp only [List.length_append, List.length_cons, List.length_nil] at hl
    omega

/-- Whatever the render buffer holds, rendering leaves the text of the event in it. -/
theorem renderEv_text {paths : Nat → Bytes} {what : Nat → Shown} (hw : ∀ id, CanShow (what id)) {buf : Bytes}
    (hb : buf.length = 5248) (e : OutEv) :
    ∃ buf' n, renderEv paths what buf e = some (buf', some n) ∧ buf'.length = 5248 ∧ buf'.take n = textOf paths what e ∧
      textOf paths what e ≠ [] := by
  cases e with
  | banner d t =>
    obtain ⟨b, n, h1, h2, h3, h4⟩ := C39_banner (paths d) buf hb
    refine ⟨b, n, ?_, by rw [h2, hb], h4, by unfold textOf; simp⟩
    show (printBanner (bannerText (paths d)) buf buf.length).map _ = _
    rw [h1]
    rfl
  | entry f =>
    have hx := hw f.id
    unfold renderEv textOf
    dsimp only
    generalize what f.id = x at hx ⊢
    by_cases hf : x.look.fmt = .csv
    · obtain ⟨h1, h2⟩ := hx.csv hf
      obtain ⟨b, h3, h4⟩ := C39_csv x.look x.info x.msg buf x.len hf h1
      rcases h4 with ⟨h4, _⟩ | ⟨_, h4, h5⟩
      · omega
      · refine ⟨b, _, h4, by rw [h3, hb], ?_, text_ne x⟩
        rw [h5]; unfold Shown.text; rw [if_pos hf]
    · obtain ⟨h1, h2, t, r, h3, h4⟩ := hx.text hf
      obtain ⟨b, n, e1, e2, e3, e4⟩ := C39_text x.look x.info t r buf x.len hf h1 h2 h3 (by intro h; rw [h] at hb; simp at hb)
      rw [← h4] at e1
      refine ⟨b, n, e1, by rw [e2, hb], ?_, text_ne x⟩
      rw [e4, hb]
      unfold Shown.text
      rw [if_neg hf, h4, cstr_of_noNul h3]

/-! ## What reaches the destination -/

/-- Each of the first is a beginning of the text of the event. -/
inductive Pieces (f : OutEv → Bytes) : List Bytes → List OutEv → Prop
  | nil : Pieces f [] []
  | cons {l e ls es} (h : l <+: f e) (ht : Pieces f ls es) : Pieces f (l :: ls) (e :: es)

theorem Pieces.snoc {f : OutEv → Bytes} {ls : List Bytes} {es : List OutEv} (h : Pieces f ls es) {l : Bytes} {e : OutEv}
    (hl : l <+: f e) : Pieces f (ls ++ [l]) (es ++ [e]) := by
  induction h with
  | nil => exact .cons hl .nil
  | cons h _ ih => exact .cons h ih

theorem onto_keeps (W : World σ) {d : Dest} {paths : Nat → Bytes} {what : Nat → Shown} {ans : Scr σ → OutEv → List WrAns}
    (hw : ∀ id, CanShow (what id)) (P : List OutEv → Bool → Bytes → Prop)
    (hok : ∀ o b s e l, P o false b → outputRendered d (textOf paths what e) (ans s e) = (true, l) → P (o ++ [e]) false (b ++ l))
    (herr : ∀ o b s e l, P o false b → outputRendered d (textOf paths what e) (ans s e) = (false, l) → P o true (b ++ l)) :
    SimO (W.onto d paths what ans) (W.onto d paths what ans) fun o b s t => s = t ∧ s.buf.length = 5248 ∧ P o b s.bytes := by
  refine ⟨?_, ?_, ?_⟩
  · rintro o b s _ ⟨rfl, h⟩ a
    exact ⟨rfl, rfl, h⟩
  · rintro o b s _ ⟨rfl, h⟩ i
    exact ⟨rfl, rfl, h⟩
  · rintro o s _ ⟨rfl, h1, h2⟩ e
    obtain ⟨buf', n, e1, e2, e3, _⟩ := renderEv_text (paths := paths) hw h1 e
    have hr : (W.onto d paths what ans).output s e =
        ((outputRendered d (textOf paths what e) (ans s e)).1,
          { st := (W.output s.st e).2, buf := buf', bytes := s.bytes ++ (outputRendered d (textOf paths what e) (ans s e)).2 }) := by
      unfold World.onto
      dsimp only
      rw [e1]
      dsimp only
      rw [e3]
    rw [hr]
    dsimp only
    refine ⟨rfl, fun h => ⟨rfl, e2, hok o _ s e _ h2 ?_⟩, fun h => ⟨rfl, e2, herr o _ s e _ h2 ?_⟩⟩
    · rw [← h]
    · rw [← h]

theorem onto_calls {W : World σ} {d : Dest} {paths : Nat → Bytes} {what : Nat → Shown} {ans : Scr σ → OutEv → List WrAns}
    (hw : ∀ id, CanShow (what id)) (P : List OutEv → Bool → Bytes → Prop)
    (hok : ∀ o b s e l, P o false b → outputRendered d (textOf paths what e) (ans s e) = (true, l) → P (o ++ [e]) false (b ++ l))
    (herr : ∀ o b s e l, P o false b → outputRendered d (textOf paths what e) (ans s e) = (false, l) → P o true (b ++ l))
    {marks : List Nat} {tail : Int} {dump : Bool} {l : List (Nat × Int)} {c : Ctx} {s s' : Scr σ} (hb : s.buf.length = 5248)
    (h0 : P [] false s.bytes) (h : calls (W.onto d paths what ans) dump l (openCtx marks tail) s = .ok (c, s')) :
    P c.out c.outErr s'.bytes := by
  have := (onto_keeps W hw P hok herr).calls dump l (openCtx marks tail) (s := s) (t := s) ⟨rfl, hb, h0⟩
  rw [h] at this
  exact this.2.2.2

/-- C96, streams. The bytes that have reached the stream are the texts of what was
output, in order; if an output failed, followed by a beginning of the text of one
more event, and by nothing else. -/
theorem C96_file (W : World σ) {paths : Nat → Bytes} {what : Nat → Shown} (hw : ∀ id, CanShow (what id))
    (ans : Scr σ → OutEv → List WrAns) {marks : List Nat} {tail : Int} {dump : Bool} {l : List (Nat × Int)} {c : Ctx} {s s' : Scr σ}
    (hb : s.buf.length = 5248) (h0 : s.bytes = []) (h : calls (W.onto .file paths what ans) dump l (openCtx marks tail) s = .ok (c, s')) :
    (c.outErr = false → s'.bytes = c.out.flatMap (textOf paths what)) ∧
    (c.outErr = true → ∃ e p, p <+: textOf paths what e ∧ s'.bytes = c.out.flatMap (textOf paths what) ++ p) := by
  refine onto_calls hw (fun o b bs => (b = false → bs = o.flatMap (textOf paths what)) ∧
    (b = true → ∃ e p, p <+: textOf paths what e ∧ bs = o.flatMap (textOf paths what) ++ p)) ?_ ?_ hb ⟨fun _ => h0, nofun⟩ h
  · rintro o b s e l ⟨hp, _⟩ he
    refine ⟨fun _ => ?_, nofun⟩
    have hp := hp rfl
    unfold outputRendered at he
    dsimp only at he
    split at he
    · simp only [Prod.mk.injEq, decide_eq_true_eq] at he
      rw [hp, List.flatMap_append, List.flatMap_cons, List.flatMap_nil, List.append_nil, ← he.2, List.take_of_length_le he.1.2]
    · cases he
  · rintro o b s e l ⟨hp, _⟩ he
    refine ⟨nofun, fun _ => ⟨e, l, ?_, by rw [hp rfl]⟩⟩
    unfold outputRendered at he
    dsimp only at he
    split at he
    · simp only [Prod.mk.injEq] at he
      rw [← he.2]
      exact List.take_prefix _ _
    · cases he; exact List.nil_prefix

/-- C96, descriptors that take each line whole or fail: the same without the rest. -/
theorem C96_fd (W : World σ) {paths : Nat → Bytes} {what : Nat → Shown} (hw : ∀ id, CanShow (what id))
    (ans : Scr σ → OutEv → List WrAns) (hans : ∀ s e n, .took n ∈ ans s e → (textOf paths what e).length ≤ n) {marks : List Nat}
    {tail : Int} {dump : Bool} {l : List (Nat × Int)} {c : Ctx} {s s' : Scr σ}
    (hb : s.buf.length = 5248) (h0 : s.bytes = []) (h : calls (W.onto .fd paths what ans) dump l (openCtx marks tail) s = .ok (c, s')) :
    s'.bytes = c.out.flatMap (textOf paths what) := by
  refine onto_calls hw (fun o _ bs => bs = o.flatMap (textOf paths what)) ?_ ?_ hb h0 h
  · intro o b s e l hp he
    unfold outputRendered at he
    dsimp only at he
    split at he
    · rename_i n rest hd
      simp only [Prod.mk.injEq, true_and] at he
      have hm : WrAns.took n ∈ ans s e := by
        have : WrAns.took n ∈ (ans s e).dropWhile (· = .intr) := by rw [hd]; simp
        exact (List.dropWhile_sublist _).subset this
      rw [hp, List.flatMap_append, List.flatMap_cons, List.flatMap_nil, List.append_nil, ← he,
        List.take_of_length_le (hans s e n hm)]
    · cases he
  · intro o b s e l hp he
    unfold outputRendered at he
    dsimp only at he
    split at he
    · cases he
    · cases he; rw [hp, List.append_nil]

/-- C96, any descriptor: of each text that counts as output a beginning was written. -/
theorem C96_fd_pieces (W : World σ) {paths : Nat → Bytes} {what : Nat → Shown} (hw : ∀ id, CanShow (what id))
    (ans : Scr σ → OutEv → List WrAns) {marks : List Nat}
    {tail : Int} {dump : Bool} {l : List (Nat × Int)} {c : Ctx} {s s' : Scr σ}
    (hb : s.buf.length = 5248) (h0 : s.bytes = []) (h : calls (W.onto .fd paths what ans) dump l (openCtx marks tail) s = .ok (c, s')) :
    ∃ ls, Pieces (textOf paths what) ls c.out ∧ s'.bytes = ls.flatten := by
  refine onto_calls hw (fun o _ bs => ∃ ls, Pieces (textOf paths what) ls o ∧ bs = ls.flatten) ?_ ?_ hb ⟨[], .nil, h0⟩ h
  · rintro o b s e l ⟨ls, hp, rfl⟩ he
    unfold outputRendered at he
    dsimp only at he
    split at he
    · simp only [Prod.mk.injEq, true_and] at he
      exact ⟨ls ++ [l], hp.snoc (by rw [← he]; exact List.take_prefix _ _), by simp⟩
    · cases he
  · rintro o b s e l ⟨ls, hp, rfl⟩ he
    unfold outputRendered at he
    dsimp only at he
    split at he
    · cases he
    · cases he; exact ⟨ls, hp, by simp⟩

/-! ## Devices nobody writes to -/

/-- Every output succeeds. -/
def Takes (d : Dest) (paths : Nat → Bytes) (what : Nat → Shown) (ans : Scr σ → OutEv → List WrAns) : Prop :=
  ∀ s e, (outputRendered d (textOf paths what e) (ans s e)).1 = true

theorem onto_sim {W : World σ} {d : Dest} {paths : Nat → Bytes} {what : Nat → Shown} {ans : Scr σ → OutEv → List WrAns}
    (hw : ∀ id, CanShow (what id)) (ht : Takes d paths what ans) (hW : ∀ s e, (W.output s e).1 = true) :
    Sim W (W.onto d paths what ans) fun s t => t.st = s ∧ t.buf.length = 5248 := by
  refine ⟨?_, ?_, ?_⟩
  · rintro s t ⟨rfl, h⟩ a
    exact ⟨rfl, rfl, h⟩
  · rintro s t ⟨rfl, h⟩ i
    exact ⟨rfl, rfl, h⟩
  · rintro s t ⟨rfl, h1⟩ e
    obtain ⟨buf', n, e1, e2, e3, _⟩ := renderEv_text (paths := paths) hw h1 e
    have hr : (W.onto d paths what ans).output t e =
        ((outputRendered d (textOf paths what e) (ans t e)).1,
          { st := (W.output t.st e).2, buf := buf', bytes := t.bytes ++ (outputRendered d (textOf paths what e) (ans t e)).2 }) := by
      unfold World.onto
      dsimp only
      rw [e1]
      dsimp only
      rw [e3]
    rw [hr, hW, ht]
    exact ⟨rfl, rfl, e2⟩

/-- What a world does that always outputs, done with an output that takes all. -/
theorem onto_logs {W : World σ} {d : Dest} {paths : Nat → Bytes} {what : Nat → Shown} {ans : Scr σ → OutEv → List WrAns}
    (hw : ∀ id, CanShow (what id)) (ht : Takes d paths what ans) (hW : ∀ s e, (W.output s e).1 = true)
    (f : OutEv → Bytes) (hf : ∀ s e, (outputRendered d (textOf paths what e) (ans s e)).2 = f e)
    {dump : Bool} {max : Int} {fuel : Nat} {marks : List Nat} {tail : Int} {x : Ctx} {s s' : σ} {r : Option Int} {buf : Bytes}
    (hb : buf.length = 5248) (h : processLogs W dump max fuel (openCtx marks tail) s 0 = .ok (x, s', r)) :
    ∃ t, processLogs (W.onto d paths what ans) dump max fuel (openCtx marks tail) ⟨s, buf, []⟩ 0 = .ok (x, t, r) ∧
      t.bytes = x.out.flatMap f ∧ t.st = s' := by
  have h1 := (onto_sim (W := W) hw ht hW).logs dump max fuel (openCtx marks tail) 0 (s := s) (t := ⟨s, buf, []⟩) ⟨rfl, hb⟩
  have S := onto_keeps W (d := d) (paths := paths) (ans := ans) hw (fun o _ b => b = o.flatMap f)
    (fun o b s e l hp he => by
      rw [hp, List.flatMap_append, List.flatMap_cons, List.flatMap_nil, List.append_nil, ← hf s e, he])
    (fun o b s e l _ he => by have := ht s e; rw [he] at this; cases this)
  have h2 := S.logs dump max fuel (openCtx marks tail) 0 (s := ⟨s, buf, []⟩) (t := ⟨s, buf, []⟩) ⟨rfl, hb, rfl⟩
  rw [h] at h1
  cases hp : processLogs (W.onto d paths what ans) dump max fuel (openCtx marks tail) ⟨s, buf, []⟩ 0 with
  | error e => rw [hp] at h1; exact h1.elim
  | ok y =>
    rw [hp] at h1 h2
    obtain ⟨y1, t, y3⟩ := y
    obtain ⟨e1, e2, e3⟩ := h1
    dsimp only at e1 e2 e3
    refine ⟨t, by rw [← e1, ← e3], ?_, e2.1⟩
    rw [e1]
    exact h2.2.1.2.2

/-- C96, no output at all: a dump ends with 0, having gone through all entries by
turns, and nothing is written. -/
theorem C96_nowhere (marks : List Nat) (s0 : Logs) (hm : ∀ i, marks[i]? = some 0 → s0 i = [])
    (hb : ∀ i, marks.length ≤ i → s0 i = []) {paths : Nat → Bytes} {what : Nat → Shown}
    (hw : ∀ id, CanShow (what id)) (ans : Scr Logs → OutEv → List WrAns) {buf : Bytes} (hbuf : buf.length = 5248) :
    ∃ k, ∀ fuel, k ≤ fuel → ∃ x t v,
      processLogs (quiet.onto .nowhere paths what ans) true 0 fuel (openCtx marks 0) ⟨s0, buf, []⟩ 0 = .ok (x, t, some 0) ∧
      TurnOf marks.length s0 v ∧ x.out = annotate (decide (marks.length > 1)) [] v ∧ t.bytes = [] := by
  obtain ⟨k, hk⟩ := dump_all marks s0 hm hb 0
  refine ⟨k, fun fuel hf => ?_⟩
  obtain ⟨x, s, v, e1, e2, e3, _⟩ := hk fuel hf
  obtain ⟨t, h1, h2, _⟩ := onto_logs (d := .nowhere) (paths := paths) (ans := ans) hw (fun _ _ => rfl) (fun _ _ => rfl)
    (fun _ => []) (fun _ _ => rfl) hbuf e1
  refine ⟨x, t, v, h1, e2, e3, ?_⟩
  rw [h2]
  simp

/-- C96 is false of descriptors that do not take each line whole: what is left of a
line is never written, and no error follows. Even if nothing is taken at all, a dump
ends with 0 as if all had been output. -/
theorem C96_false_short (marks : List Nat) (s0 : Logs) (hm : ∀ i, marks[i]? = some 0 → s0 i = [])
    (hb : ∀ i, marks.length ≤ i → s0 i = []) {paths : Nat → Bytes} {what : Nat → Shown}
    (hw : ∀ id, CanShow (what id)) {buf : Bytes} (hbuf : buf.length = 5248) :
    ∃ k, ∀ fuel, k ≤ fuel → ∃ x t v,
      processLogs (quiet.onto .fd paths what fun _ _ => [.took 0]) true 0 fuel (openCtx marks 0) ⟨s0, buf, []⟩ 0 = .ok (x, t, some 0) ∧
      TurnOf marks.length s0 v ∧ x.out = annotate (decide (marks.length > 1)) [] v ∧ t.bytes = [] := by
  obtain ⟨k, hk⟩ := dump_all marks s0 hm hb 0
  refine ⟨k, fun fuel hf => ?_⟩
  obtain ⟨x, s, v, e1, e2, e3, _⟩ := hk fuel hf
  obtain ⟨t, h1, h2, _⟩ := onto_logs (d := .fd) (paths := paths) (ans := fun _ _ => [.took 0]) hw (fun _ _ => rfl) (fun _ _ => rfl)
    (fun _ => []) (fun _ _ => rfl) hbuf e1
  refine ⟨x, t, v, h1, e2, e3, ?_⟩
  rw [h2]
  simp

end Verif.Ulogcat

namespace Verif.Tools
open Verif Verif.Ulogcat

theorem annotate_single (v : List Frame) (hv : ∀ f ∈ v, f.shown = true) : ∀ seen, annotate false seen v = v.map .entry := by
  induction v with
  | nil => intro seen; rfl
  | cons f v ih =>
    intro seen
    unfold annotate
    rw [hv f (List.mem_cons_self ..), ih (fun g hg => hv g (List.mem_cons_of_mem _ hg))]
    rfl

/-- C97, CSV. What is written in CSV format for one device is read back to the
entries. -/
theorem C97_csv {what : Nat → Shown} (hf : ∀ id, (what id).look.fmt = .csv) {paths : Nat → Bytes}
    (hn : ∀ id, (∀ b ∈ (what id).info.tag, b ≠ 44) ∧ (∀ b ∈ (what id).info.pname, b ≠ 44) ∧ (∀ b ∈ (what id).info.tname, b ≠ 44))
    {s0 : Logs} {v : List Frame} (hv : ∀ d, v.filter (fun f => f.dev == d) = texts d (s0 d)) (T : Nat) :
    csvReadAll ((if T = 0 then v else v.drop (v.length - T)).length + 1)
      ((annotate false [] (if T = 0 then v else v.drop (v.length - T))).flatMap (textOf paths what)) =
    some ((if T = 0 then v else v.drop (v.length - T)).map fun f =>
      rowOf (what f.id).info (csvPayload (what f.id).info (what f.id).msg (what f.id).len)) := by
  have hsh : ∀ f ∈ (if T = 0 then v else v.drop (v.length - T)), f.shown = true := by
    intro f hf
    have hf : f ∈ v := by
      split at hf
      · exact hf
      · exact List.mem_of_mem_drop hf
    have : f ∈ v.filter (fun g => g.dev == f.dev) := by simp [hf]
    rw [hv] at this
    exact (mem_texts this).2
  generalize (if T = 0 then v else v.drop (v.length - T)) = u at hsh ⊢
  rw [annotate_single u hsh]
  have := C63_csv (u.map fun f => ((what f.id).info, csvPayload (what f.id).info (what f.id).msg (what f.id).len)) (by
    intro x hx
    obtain ⟨f, _, rfl⟩ := List.mem_map.mp hx
    exact hn f.id)
  rw [List.length_map, List.map_map, List.map_map] at this
  rw [List.flatMap_def, List.map_map]
  have he : u.map (textOf paths what ∘ OutEv.entry) = u.map ((fun x : Meta × Bytes => csvLine x.1 x.2) ∘ fun f =>
      ((what f.id).info, csvPayload (what f.id).info (what f.id).msg (what f.id).len)) := by
    refine List.map_congr_left fun f _ => ?_
    show (what f.id).text = _
    unfold Shown.text
    rw [if_pos (hf f.id), Function.comp_apply]
  rw [he]
  exact this

/-- C97, CSV, is false with several devices: what is written begins with a banner and is
never a sequence of CSV lines, whatever the entries are. -/
theorem C97_false_csv (paths : Nat → Bytes) (what : Nat → Shown) {v : List Frame} (hv : v ≠ []) (es : List (Meta × Bytes)) :
    (annotate true [] v).flatMap (textOf paths what) ≠ (es.map fun x => csvLine x.1 x.2).flatten := by
  obtain ⟨f, v, rfl⟩ := List.exists_cons_of_ne_nil hv
  have h1 : ∃ r, (annotate true [] (f :: v)).flatMap (textOf paths what) = 45 :: r := by
    unfold annotate
    rw [if_pos (by rfl), List.cons_append, List.flatMap_cons]
    unfold textOf
    exact ⟨_, rfl⟩
  have h2 : ∀ x : Meta × Bytes, ∃ r, csvLine x.1 x.2 = 48 :: r := by
    intro x
    unfold csvLine csvPrefix
    simp only [List.cons_append]
    exact ⟨_, rfl⟩
  obtain ⟨r, h1⟩ := h1
  rw [h1]
  cases es with
  | nil => simp
  | cons x es =>
    obtain ⟨q, h2⟩ := h2 x
    rw [List.map_cons, List.flatten_cons, h2]
    intro h
    injection h with h _
    exact absurd h (by decide)

/-- C97. The bytes that `ulogcat -d` writes on standard output, for devices that can
be opened and that nobody writes to: the texts of all entries by turns (`C130_order`; in
the order of time if each device is), or of the last N, with a banner before the first entry
of each device if there are several. -/
theorem C97_dump {mem : Nat → Bool} {w : OWorld} (hw : Fresh w) {cw : ClearWorld} {os : List CatOpt} {c : Cat}
    (hc : catOptions mem os = .ok c) (hm : ∀ i, i < (os.filterMap bufOpt).length → mem i = true)
    (hdump : c.dump = true) (hclear : c.clear = false) {T : Nat} (hT : c.tail = T) {o : OSt}
    (hO : ulogOpen w c.ulog c.klog (os.filterMap bufOpt) [] = .ok o) (hmax : T + o.devs.length + 1 ≤ 2147483647) (s0 : Logs)
    (hmark : ∀ i d, o.devs[i]? = some d → d.mark = 0 → s0 i = []) (hb : ∀ i, o.devs.length ≤ i → s0 i = [])
    {what : Nat → Shown} (hs : ∀ id, CanShow (what id)) {paths : Nat → Bytes}
    {ans : Scr Logs → OutEv → List WrAns} (hans : ∀ s e, ∃ n, ans s e = [.took n] ∧ (textOf paths what e).length ≤ n)
    {buf : Bytes} (hbuf : buf.length = 5248) :
    ∃ k, ∀ fuel, k ≤ fuel → ∀ calls, ∃ x t v,
      catMain mem w cw (quiet.onto .file paths what ans) (calls + 1) fuel ⟨s0, buf, []⟩ os = .ended 0 o.devs x t (ulogClose o) ∧
      TurnOf o.devs.length s0 v ∧ t.bytes = (annotate (decide (o.devs.length > 1)) [] (if T = 0 then v else v.drop (v.length - T))).flatMap
        (textOf paths what) := by
  have ho := C66_open hw c.ulog c.klog (os.filterMap bufOpt) (evs := []) (H := []) rfl List.nodup_nil
  rw [hO] at ho
  obtain ⟨_, _, _, h4, _, h6, _⟩ := ho
  obtain ⟨k, hk⟩ := C94_dump hw (cw := cw) hc hm hdump hclear hT hO hmax s0 hmark hb
  refine ⟨k, fun fuel hf calls => ?_⟩
  obtain ⟨x, s, v, e1, e2, e3⟩ := hk fuel hf calls
  rw [main_cases mem w cw quiet _ fuel s0 os hc (C93_names hc hm), hO] at e1
  dsimp only at e1
  rw [hT, h4, if_neg (by omega), if_neg (by omega), hclear, if_neg (by simp), catLoop_once, hdump] at e1
  cases hp : processLogs quiet true 0 fuel (openCtx (o.devs.map fun d => d.mark.toNat) (T : Int)) s0 0 with
  | error e => rw [hp] at e1; cases e1
  | ok y =>
    obtain ⟨y1, y2, y3⟩ := y
    rw [hp] at e1
    cases y3 with
    | none => cases e1
    | some r =>
      dsimp only at e1
      injection e1 with g1 g2 g3 g4
      subst g1 g3 g4
      have htake : ∀ s e, outputRendered .file (textOf paths what e) (ans s e) = (true, textOf paths what e) := by
        intro s e
        obtain ⟨n, a1, a2⟩ := hans s e
        obtain ⟨_, _, _, _, _, hne⟩ := renderEv_text (paths := paths) hs hbuf e
        unfold outputRendered
        rw [a1]
        dsimp only
        rw [List.take_of_length_le a2]
        simp [hne, a2]
      obtain ⟨t, t1, t2, _⟩ := onto_logs (W := quiet) (d := .file) (paths := paths) (ans := ans) hs
        (fun s e => by rw [htake]) (fun _ _ => rfl) (textOf paths what) (fun s e => by rw [htake]) hbuf hp
      refine ⟨y1, t, v, ?_, e2, by rw [t2, e3]⟩
      rw [main_cases mem w cw _ _ fuel _ os hc (C93_names hc hm), hO]
      dsimp only
      rw [hT, h4, if_neg (by omega), if_neg (by omega), hclear, if_neg (by simp), catLoop_once, hdump, t1]

end Verif.Tools
