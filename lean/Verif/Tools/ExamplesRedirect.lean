import Verif.Tools.PropsRedirect

/-!
# Examples for C101
-/
namespace Verif.Tools.Examples.Redirect
open Verif Verif.Libulog Verif.Tools

/-- The names of the tags; tag 5 is called `APP` and belongs to the program. -/
def names : Cid → Bytes := fun c =>
  if c = glibTag then ascii "ulog_glib" else if c = obusTag then ascii "obus" else if c = 5 then ascii "APP" else []

/-- Calls with a foreign write function: the redirections, levels, a first message. -/
def ops : List (World × ROp) :=
  [(bareWorld, .other (.setWriter (some (.custom 7)))), (bareWorld, .glibRedirect), (bareWorld, .glibLevel 4),
    (bareWorld, .obusRedirect), (bareWorld, .other (.setLevel 5 4)), (bareWorld, .glib (some (ascii "Gtk")) 16 (ascii "careful"))]

theorem ops_run : ∃ s tr, RRun names ops s tr ∧ s.lib.writer = .custom 7 ∧ s.lib.list = [5, 3] ∧ s.obus = true ∧
    tr[5]? = some (.unit, [.custom 7 4 tmpTag (ascii "careful\x00")]) :=
  ⟨_, _, ⟨rfl, by
    intro x hx op e
    simp only [ops, List.mem_cons, List.not_mem_nil, or_false] at hx
    rcases hx with rfl | rfl | rfl | rfl | rfl | rfl <;> cases e <;> simp [WOp.tag, tmpTag]⟩, rfl, rfl, rfl, rfl⟩

/-- The tags of C101_tags: the one of the message of GLib is not among them. -/
example : tagsOf false [] (ops.map Prod.snd) = [5, 3] := by decide

/-- C101_filter: `ulog_glib` has level 4, a warning passes and an information does not. -/
example : ∃ s tr, RRun names ops s tr ∧ ROp.glibRedirect ∈ ops.map Prod.snd ∧ s.lib.writer = .custom 7 ∧
    LevelIs names bareWorld s.lib glibTag 4 ∧
    redStep names bareWorld s (.glib none 16 (ascii "x")) = .ok (s, .unit, [.custom 7 4 tmpTag (ascii "x\x00")]) ∧
    redStep names bareWorld s (.glib none 64 (ascii "x")) = .ok (s, .unit, []) := by
  obtain ⟨s, tr, h, h1, h2, h3, h4⟩ := ops_run
  have hg : ROp.glibRedirect ∈ ops.map Prod.snd := by simp [ops]
  have hl : LevelIs names bareWorld s.lib glibTag 4 := by
    have : redRun names Red.start ops = .ok (s, tr) := h.run
    have h5 : ∃ s tr, redRun names Red.start ops = .ok (s, tr) ∧ LevelIs names bareWorld s.lib glibTag 4 :=
      ⟨_, _, rfl, levelIs_iff.mpr rfl⟩
    obtain ⟨s5, t5, e5, e6⟩ := h5
    rw [this] at e5
    cases e5
    exact e6
  exact ⟨s, tr, h, hg, h1, hl, C101_filter h hg h1 hl none 16 _, C101_filter h hg h1 hl none 64 _⟩

/-- C101_same: tag 5 has the name and the level. -/
example : ∃ s tr, redRun names Red.start ops = .ok (s, tr) ∧ LevelIs names bareWorld s.lib glibTag 4 ∧
    5 ∈ tagsOf false [] (ops.map Prod.snd) ∧ names 5 = (none : Option Bytes).getD (ascii "APP") ∧
    LevelIs names bareWorld s.lib 5 4 ∧
    ∃ s' r e, redStep names bareWorld s (.other (.str 4 5 (ascii "x"))) = .ok (s', r, e) ∧ e = [.custom 7 4 5 (ascii "x\x00")] :=
  ⟨_, _, rfl, levelIs_iff.mpr rfl, by decide, rfl, levelIs_iff.mpr rfl, _, _, _, rfl, rfl⟩

/-- C101_silent: flags without a level of GLib. -/
example : (glibTable.find? fun x => (768 : Nat).testBit x.1) = none := by decide

/-- C101_obus: an error of libobus. -/
example : ∃ s tr, redRun names Red.start ops = .ok (s, tr) ∧ s.obus = true ∧
    ∃ s' e, redStep names bareWorld s (.obus 1 (some (ascii "no bus"))) = .ok (s', .unit, e) ∧
      e = [.custom 7 3 obusTag (ascii "no bus\x00")] :=
  ⟨_, _, rfl, rfl, _, _, rfl, rfl⟩

end Verif.Tools.Examples.Redirect
