import Verif.Tools.PropsSyslog
import Verif.Tools.PropsGst
import Verif.Tools.PropsStream

/-!
# Concrete runs of the syslog wrapper, the GStreamer redirection and the C++ streams
-/
namespace Verif.Tools.Examples
open Verif Verif.Tools Verif.Libulog Verif.Ulogcat

/-- An identifier, a function that is installed by the program, one message. -/
def sysOps : List (World × SOp) :=
  [(bareWorld, .openlog (some (ascii "id")) true), (bareWorld, .other (.setWriter (some (.custom 5)))),
    (bareWorld, .syslog 0x1c (some (ascii "hi"))), (bareWorld, .closelog)]

/-- C47, C71: the level is 6 at first; message 0x1c has facility 3 and level 4. -/
example : ∃ s tr, SRun exNames sysOps s tr ∧ s.lib.writer = .custom 5 ∧ LevelIs (s.nm exNames) bareWorld s.lib sysTag 6 ∧
    (∃ op ∈ sysOps.map Prod.snd, op.logs = true) ∧
    tr.getLast? = some (.unit, []) ∧ (tr.map Prod.snd)[2]? = some [.custom 5 4 1 (ascii "hi\x00")] ∧
    s.nm exNames sysTag = ascii "id" ∧ firstIdent (sysOps.map Prod.snd) = some (ascii "id") :=
  ⟨_, _, rfl, rfl, ⟨_, _, rfl⟩, ⟨.openlog (some (ascii "id")) true, by simp [sysOps], rfl⟩, rfl, rfl, rfl, rfl⟩

/-- C47: masks up to 3, up to 7, none, and one with holes. -/
example : HighBit (15 : UInt32).toNat 3 ∧ HighBit (255 : UInt32).toNat 7 ∧ HighBit (0 : UInt32).toNat (-1) ∧
    HighBit (0x88 : UInt32).toNat 7 ∧ (15 : UInt32).toNat = 2 ^ (3 + 1) - 1 := by
  refine ⟨Or.inr (by decide), Or.inr (by decide), Or.inl (by decide), Or.inr (by decide), by decide⟩

theorem sysOps_run : ∃ s tr, SRun exNames sysOps s tr ∧ s.lib.writer = .custom 5 ∧ LevelIs (s.nm exNames) bareWorld s.lib sysTag 6 :=
  ⟨_, _, rfl, rfl, ⟨_, _, rfl⟩⟩

/-- C47_restore: the mask that is returned for level 6 is 127. -/
example : ∃ s tr s1 e, SRun exNames sysOps s tr ∧ LevelIs (s.nm exNames) bareWorld s.lib sysTag 6 ∧
    sysStep exNames bareWorld s (.setlogmask 15) = .ok (s1, .int 127, e) ∧ ((127 : UInt32).toNat : Int) = 127 := by
  obtain ⟨s, tr, h, -, hl⟩ := sysOps_run
  obtain ⟨-, -, s1, e, h1⟩ := C47_old h ⟨.openlog (some (ascii "id")) true, by simp [sysOps], rfl⟩ bareWorld 15 hl
  exact ⟨s, tr, s1, e, h, hl, h1, rfl⟩

/-- C71_open: the second `openlog` reaches the function, if it is told not to delay. -/
example : (sysRun exNames Sys.start (sysOps ++ [(bareWorld, .openlog none true), (bareWorld, .openlog none false)])).toOption.map
    (fun x => (x.2.map Prod.snd).drop 4) = some [[.custom 5 6 1 (ascii "redirecting syslog to ulog\x00")], []] := by decide +kernel

/-- C71: a world that asks for long texts, and a long text. -/
example : (({ bareWorld with getenv := fun _ => some [] } : World).getenv (ascii "ULOGWRAPPER_LONG_LOGS")).isSome = true ∧
    256 ≤ (List.replicate 300 (97 : UInt8)).length := ⟨rfl, by rw [List.length_replicate]; omega⟩

example : ∃ s tr, SRun exNames [(bareWorld, .syslog 6 (some (ascii "hi"))), (bareWorld, .openlog (some (ascii "late")) false)] s tr ∧
    s.nm exNames sysTag = [] := ⟨_, _, rfl, rfl⟩

/-- C48, C72: a place of 16 bytes. -/
example : gstPlace (ascii "/a/b/pad.c") (-12) (ascii "push") = ascii "pad.c:-12:push" ∧ NoNul (ascii "pad.c:-12:push") ∧
    (GstObject.pad (ascii "sink") (ascii "in")).text = ascii "<sink:in>" ∧ NoNul (ascii "<sink:in>") ∧
    (List.replicate 2048 (0xaa : UInt8)).length = 2048 := by
  refine ⟨by decide +kernel, by decide +kernel, by decide +kernel, by decide +kernel, by decide +kernel⟩

/-- C72: an info message of a category passes the level 6, a debug message does not. -/
example : gstText (List.replicate 2048 0xaa) (ascii "/a/b/pad.c") (-12) (ascii "push") (.pad (ascii "sink") (ascii "in")) (ascii "hello") =
    some (ascii "pad.c:-12:push<sink:in>:hello") ∧
    (gstLog (List.replicate 2048 0xaa) 5 4 (some (ascii "cat")) 6 (ascii "f.c") 1 (ascii "g") .null (ascii "m")).map GstOut.passed =
      some (some (6, ascii "cat", ascii "f.c:1:g(NULL):m")) ∧
    (gstLog (List.replicate 2048 0xaa) 5 5 (some (ascii "cat")) 6 (ascii "f.c") 1 (ascii "g") .null (ascii "m")).map GstOut.passed =
      some none ∧
    gstText (List.replicate 2048 0xaa) (ascii "f.c") 1 (List.replicate 2043 103) .null (ascii "m") = none := by
  refine ⟨by decide +kernel, by decide +kernel, by decide +kernel, by decide +kernel⟩

/-- C34: two threads, two streams. Thread 2 sets a tag and inserts; thread 1 inserts in
both streams and flushes. -/
def streamOps : List (Nat × StOp) :=
  [(2, .setTag 7), (1, .insert 0 (ascii "ab")), (2, .insert 0 (ascii "xyz")), (1, .insert 3 (ascii "cd")), (1, .put 0 10)]

theorem foldl_le_length {α : Type} (f : Nat → α → Nat) (hf : ∀ n x, f n x ≤ n + 1) (l : List α) (n : Nat) : l.foldl f n ≤ n + l.length := by
  induction l generalizing n with
  | nil => simp
  | cons x l ih => rw [List.foldl_cons, List.length_cons]; have := ih (f n x); have := hf n x; omega

theorem streamOps_calm : Calm streamOps := by
  intro a b h k
  have h1 : putCount k a ≤ 0 + a.length := by
    refine foldl_le_length _ (fun n x => ?_) a 0
    obtain ⟨t, op⟩ := x
    cases op <;> dsimp only <;> (try split) <;> simp
  have h2 := congrArg List.length h
  rw [List.length_append] at h2
  simp only [streamOps, List.length_cons, List.length_nil] at h2
  omega

example : Calm streamOps ∧ pendText 1 streamOps = ascii "abcd" ∧ pendText 2 streamOps = ascii "xyz" ∧ lastTag 1 streamOps = none ∧
    lastTag 2 streamOps = some 7 ∧
    (stRun (fun k => if k = 0 then 7 else 4) true Streams.start (streamOps ++ [(1, .flush 3), (2, .flush 0), (1, .flush 0)])).2 =
      [.str 4 0 (ascii "abcd"), .str 7 7 (ascii "xyz")] :=
  ⟨streamOps_calm, by decide +kernel, by decide +kernel, by decide +kernel, by decide +kernel, rfl⟩

/-- C73: events that the theorem covers. -/
example : ∀ e ∈ [(1, StOp.setTag 7), (1, .insert 0 (ascii "lost")), (1, .put 0 10), (1, .flush 0)],
    e.1 = 1 ∧ (e.2 = .flush 0 ∨ (∃ s, e.2 = .insert 0 s) ∨ (∃ c, e.2 = .put 0 c) ∨ ∃ c, e.2 = .setTag c) := by
  simp

end Verif.Tools.Examples
