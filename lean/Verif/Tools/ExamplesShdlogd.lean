import Verif.Tools.PropsShdlogd

/-!
# Examples for C112
-/
namespace Verif.Tools.ShdlogdEx
open Verif Verif.Ulogcat Verif.Libulog Verif.Tools Verif.Tools.Shdd

def blank : Bytes := List.replicate 256 0
def msg (s : String) : ShdMsg := { prio := 6, comm := ascii "main", tid := 7, tag := ascii "tag", text := ascii s }
def blob0 : Blob := { index := 0, prio := 0, tid := 0, thn := 0, tag := 0, log := 0, buf := [] }

/-- Three messages, the first while another is logged by libshdata; the daemon reads
after the first and at the end. -/
def ops : List SOp :=
  [.log (.mk blank (msg "a") 5 [.mk blank (msg "inner") 6 []]), .poll 0, .log (.mk blank (msg "b") 7 []), .log (.mk blank (msg "c") 9 []), .poll 0]

theorem good_ops : ∀ op ∈ ops, GoodOp op := by
  intro op h
  simp only [ops, List.mem_cons, List.not_mem_nil, or_false] at h
  rcases h with rfl | rfl | rfl | rfl | rfl
  · exact ⟨by decide +kernel, by decide +kernel⟩
  · trivial
  · exact ⟨by decide +kernel, by decide +kernel⟩
  · exact ⟨by decide +kernel, by decide +kernel⟩
  · trivial

theorem strict_ops : Strict (Fwd.start.run ops).recs := by
  show List.Pairwise _ [_, _, _]
  simp

/-- All three are forwarded; the one logged meanwhile is not. -/
example : (Fwd.start.run ops).out.map (·.pos) = [0, 1, 2] := by decide +kernel

example : ∃ s', (Shm.start (ascii "rtos") (List.replicate 2048 blob0) (List.replicate 2048 0)).run 3 ops =
    some (s', [msg "a", msg "b", msg "c"].zipIdx.map fun p =>
      .write (shmVec (ascii "rtos") { pos := p.2, ns := 5 + 2 * p.2, msg := p.1 })) := by
  obtain ⟨⟨s', k, _, h⟩, _⟩ := C112_all (fd := 3) (by decide) (pname := ascii "rtos") (blobs := List.replicate 2048 blob0)
    (stamps := List.replicate 2048 0) (by rw [List.length_replicate]) (by rw [List.length_replicate]) good_ops strict_ops
    (by intro op h n; simp only [ops, List.mem_cons, List.not_mem_nil, or_false] at h; rcases h with rfl | rfl | rfl | rfl | rfl <;> exact fun h => by cases h)
  have : k = 3 := by rename_i hk; rw [hk]; decide +kernel
  subst this
  exact ⟨s', h⟩

/-- What is written for the first. -/
example : shmVec (ascii "rtos") { pos := 0, ns := 1000000005, msg := msg "a" } =
    [le32 0 ++ le32 7 ++ le32 1 ++ le32 5 ++ le32 0, ascii "rtos" ++ [0], ascii "main" ++ [0], le32 6, ascii "tag" ++ [0], ascii "a" ++ [0]] := by
  decide +kernel

/-- A coloured message. -/
example : (shmVec (ascii "rtos") { pos := 0, ns := 5, msg := { msg "" with text := [27] ++ ascii "[0;31mred" } }).drop 3 =
    [le32 (6 + 0xFF0000 * 256), ascii "tag" ++ [0], ascii "red" ++ [0]] := by
  decide +kernel

/-- Two of four are overwritten before the second reading: the loss is announced after
the message that follows it. -/
def opsLost : List SOp :=
  [.log (.mk blank (msg "a") 5 []), .poll 0, .log (.mk blank (msg "b") 7 []), .log (.mk blank (msg "c") 8 []), .log (.mk blank (msg "d") 9 []), .lose 3, .poll 0]

example : (fwdEvents (ascii "rtos") 0 (Fwd.start.run opsLost).out) =
    [.write (shmVec (ascii "rtos") { pos := 0, ns := 5, msg := msg "a" }),
     .write (shmVec (ascii "rtos") { pos := 3, ns := 9, msg := msg "d" }), .lost 2] := by decide +kernel

example : Mono (Fwd.start.run opsLost).recs := by
  show List.Pairwise _ [_, _, _, _]
  simp

/-- C112_missing on that run: the second message is gone. -/
example : ({ pos := 1, ns := 7, msg := msg "b" } : Rec) ∈ (Fwd.start.run opsLost).recs ∧
    ({ pos := 1, ns := 7, msg := msg "b" } : Rec) ∉ (Fwd.start.run opsLost).out ∧ (Fwd.start.run opsLost).lo = 3 := by decide +kernel

/-- C112_false_same with a third message: the second counts as lost. -/
example : let f := Fwd.start.run ([.log (.mk blank (msg "a") 5 []), .poll 0, .log (.mk blank (msg "b") 5 [])] ++
      [.log (.mk blank (msg "c") 6 []), .poll 0])
    Mono f.recs ∧ fwdEvents [] 0 f.out =
      [.write (shmVec [] { pos := 0, ns := 5, msg := msg "a" }), .write (shmVec [] { pos := 2, ns := 6, msg := msg "c" }), .lost 1] := by
  refine ⟨?_, by decide +kernel⟩
  show List.Pairwise _ [_, _, _]
  simp

/-- C112_false_read: the state of a daemon that has read one record. -/
example : ∃ b, ∃ d', turn 3 { sel := .found [9], left := b :: [blob0], read := false, fin := none, pad := 0 }
      { Shdlogd.start (ascii "rtos") (b :: [blob0]) (List.replicate 2048 0) with search := .firstAfter, date := 6, index := 1 } =
    some (d', [.failed, .write (shmVec (ascii "rtos") { pos := 0, ns := 9, msg := msg "a" }), .many]) := by
  obtain ⟨b, h, _⟩ := C112_writer (c := ShdCtrl.start.init) rfl blank (by decide +kernel) (msg "a") 5 []
  exact ⟨b, C112_false_read (by decide)
    (d := { Shdlogd.start (ascii "rtos") (b :: [blob0]) (List.replicate 2048 0) with search := .firstAfter, date := 6, index := 1 })
    rfl (by show (List.replicate 2048 0).length = _; rw [List.length_replicate]) ⟨rfl, rfl, rfl⟩ (r := { pos := 0, ns := 5, msg := msg "a" }) (x := { ns := 5, blob := b })
    ⟨rfl, by decide +kernel, blank, by decide +kernel, h⟩ rfl rfl 9⟩

/-- C112_nothing: an error that is reported, in a daemon that runs. -/
example : turn 3 { sel := .fail 19, left := [], read := true, fin := none, pad := 0 } (Shdlogd.start [] [] []) =
    some (Shdlogd.start [] [] [], [.failed, .reopen]) ∧ (Shdlogd.start [] [] []).stop = false := ⟨rfl, rfl⟩

end Verif.Tools.ShdlogdEx
