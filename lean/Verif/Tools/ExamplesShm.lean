import Verif.Tools.PropsShm
import Verif.Ulogcat.ExamplesSaid

/-! # Messages meeting the hypotheses of C113 -/
namespace Verif.Tools.Examples.Shm
open Verif Verif.Kernel Verif.Kernel.Examples Verif.Libulog Verif.Ulogcat Verif.Ulogcat.Examples Verif.Ulogcat.Examples.Screen Verif.Tools.Shdd
open Verif.Ulogcat.Examples.Said (progs_plain said said_plain env tags)

def blank : Bytes := List.replicate 256 0
def msg (x : Bytes) : ShdMsg := { prio := 4, comm := ascii "main", tid := 7, tag := ascii "rtos", text := x }
def blob0 : Blob := { index := 0, prio := 0, tid := 0, thn := 0, tag := 0, log := 0, buf := [] }

/-- The processes of C106 and the daemon as process 2. -/
def progs : Nat → Prog := fun p =>
  if p = 0 then { env := env [(ascii "ULOG_LEVEL_net", ascii "D")], nm := tags }
  else if p = 1 then { env := env [(ascii "ULOG_LEVEL", ascii "E")], nm := tags }
  else { env := env [], nm := fun c => if c = 5 then ascii "shdlogd" else [] }

theorem progs_plain : ∀ p, (progs p).Plain (ascii "/dev/ulog_main") := by
  intro p
  unfold progs
  split
  · exact ⟨rfl, by decide, by decide +kernel, 5, by decide⟩
  split
  · exact ⟨rfl, by decide, by decide +kernel, 5, by decide⟩
  · exact ⟨rfl, by decide, by decide +kernel, 5, by decide⟩

def dmn : Dmn := { prog := 2, tag := 5, task := t1, pname := ascii "cpu1" }

theorem dmn_plain : dmn.Plain progs := ⟨rfl, by decide, by decide, by decide⟩

/-- Of four messages, one coloured, two are overwritten before the second reading. -/
def ops : List SOp :=
  [.log (.mk blank (msg (ascii "a")) 5 []), .poll 0, .log (.mk blank (msg (ascii "b")) 7 []), .log (.mk blank (msg (ascii "c")) 8 []),
   .log (.mk blank (msg ([27] ++ ascii "[0;31mred")) 9 []), .lose 3, .poll 0]

theorem plain_ops : ∀ op ∈ ops, PlainOp op := by
  intro op h
  simp only [ops, List.mem_cons, List.not_mem_nil, or_false] at h
  rcases h with rfl | rfl | rfl | rfl | rfl | rfl | rfl
  · exact ⟨by decide +kernel, by decide +kernel, by decide +kernel, by decide +kernel, by decide +kernel⟩
  · trivial
  · exact ⟨by decide +kernel, by decide +kernel, by decide +kernel, by decide +kernel, by decide +kernel⟩
  · exact ⟨by decide +kernel, by decide +kernel, by decide +kernel, by decide +kernel, by decide +kernel⟩
  · exact ⟨by decide +kernel, by decide +kernel, by decide +kernel, by decide +kernel, by decide +kernel⟩
  · trivial
  · trivial

theorem mono_ops : Mono (Fwd.start.run ops).recs := by
  show List.Pairwise _ [_, _, _, _]
  simp

def m0 : Said := { prog := 0, task := t1, tag := 1, prio := 7, text := ascii "link up", whole := false }
def m1 : Said := { prog := 1, task := t1, tag := 2, prio := 3, text := ascii "no\nscreen", whole := true }
def m2 : Said := { prog := 2, task := t1, tag := 5, prio := 6, text := ascii "shdlogd starting", whole := false }

theorem plain_said : ∀ m ∈ [m0, m1, m2], m.Plain progs := by
  have h : ∀ m ∈ [m0, m1, m2], NoNul (m.name progs) ∧ NoNul m.text ∧ prioBinary m.prio = false ∧ prefixLen m.task + (4 + (m.name progs).length + 1) < 4076 ∧
      ¬ (m.task.pid = 0xffffffff ∧ m.task.tid = 0xffffffff) := by decide +kernel
  exact fun m hm => ⟨(h m hm).1, (h m hm).2.1, (h m hm).2.2.1, (h m hm).2.2.2.1, (h m hm).2.2.2.2⟩

def r0 : Rec := { pos := 0, ns := 5, msg := msg (ascii "a") }
def r3 : Rec := { pos := 3, ns := 9, msg := msg ([27] ++ ascii "[0;31mred") }

/-- A message of a process between those of the memory and one before the announcement. -/
def mid : List In :=
  [.dmn (.write (shmVec (ascii "cpu1") r0)), .said m0, .dmn (.write (shmVec (ascii "cpu1") r3)), .said m1, .dmn (.lost 2)]

def items : List Shdd.Item := [.fwd r0, .said m0, .fwd r3, .said m1, .lost 2]

theorem lines_all : (([m2].map Item.said ++ items ++ [m0].map Item.said).flatMap (·.lines progs look dmn)) =
    ascii "U I shdlogd     : shdlogd starting\nU W rtos        : a\nU D net         : link up\nU W rtos        : red\n" ++
    ascii "U E ui          : no\nU E ui          : screen\nU E shdlogd     : 2 shared memory log messages lost\nU D net         : link up\n" := by
  decide +kernel

/-- The items of the example are those that the theorem finds. -/
theorem items_unique {d : Dmn} {xs ys : List Shdd.Item} (h : xs.map (·.input d) = ys.map (·.input d)) (ho : xs.filter (·.own) = ys.filter (·.own)) : xs = ys := by
  induction xs generalizing ys with
  | nil => cases ys with
    | nil => rfl
    | cons y ys => cases h
  | cons x xs ih =>
    cases ys with
    | nil => cases h
    | cons y ys =>
      rw [List.map_cons, List.map_cons] at h
      injection h with h1 h2
      cases x <;> cases y <;> simp [Item.input, Item.own] at h1 ho ⊢ <;> first
        | exact ⟨h1, ih h2 ho⟩
        | exact ⟨ho.1, ih h2 ho.2⟩
        | exact ih h2 ho

/-- `C113_screen` with all of it. -/
example : ∃ kops sys tr m,
    inAll progs noJunk dmn (fun _ => .start) ([m2].map In.said ++ (.opened :: (mid ++ (.closed :: [m0].map In.said)))) = .ok kops ∧
      Kernel.run (Kernel.init dev 14 noJunk) (kops ++ [.openF 0 true false true, .getLogLen 0]) = .ok (sys, tr ++ [(.getLogLen 0, .ret m)]) ∧
      (∀ p ∈ tr, ∀ e, p.2 ≠ .err e) ∧
      Dumps look sys tr m 7 fun bs => bs =
        ascii "U I shdlogd     : shdlogd starting\nU W rtos        : a\nU D net         : link up\nU W rtos        : red\n" ++
        ascii "U E ui          : no\nU E ui          : screen\nU E shdlogd     : 2 shared memory log messages lost\nU D net         : link up\n" := by
  have hp := plain_said
  obtain ⟨s', evs, hrun, h⟩ := C113_screen progs_plain dmn_plain (fd := 3) (by decide) (blobs := List.replicate 2048 blob0)
    (stamps := List.replicate 2048 0) (by rw [List.length_replicate]) (by rw [List.length_replicate]) plain_ops mono_ops (pre := [m2]) (post := [m0])
    (mid := mid) (fun m hm => hp m (by rw [List.mem_singleton.1 hm]; simp)) (fun m hm => hp m (by rw [List.mem_singleton.1 hm]; simp))
    (by intro x hx; simp only [mid, List.mem_cons, List.not_mem_nil, or_false] at hx; rcases hx with rfl | rfl | rfl | rfl | rfl <;> rfl)
    (by
      intro m hm
      simp only [mid, List.mem_cons, List.not_mem_nil, or_false, reduceCtorEq, In.said.injEq, false_or] at hm
      rcases hm with rfl | rfl <;> exact hp _ (by simp))
  have hgood : ∀ op ∈ ops, GoodOp op := by
    intro op hop
    have := plain_ops op hop
    cases op with
    | log c => obtain ⟨old, m, ns, inner⟩ := c; exact ⟨this.1, this.2.fits⟩
    | lose n => trivial
    | poll p => trivial
  obtain ⟨s2, hrun2⟩ := C112_forward (fd := 3) (by decide) (pname := dmn.pname) (blobs := List.replicate 2048 blob0) (stamps := List.replicate 2048 0)
    (by rw [List.length_replicate]) (by rw [List.length_replicate]) hgood mono_ops
  have hevs : evs = fwdEvents dmn.pname 0 (Fwd.start.run ops).out :=
    congrArg Prod.snd (Option.some.inj (hrun.symm.trans hrun2))
  have hout : (Fwd.start.run ops).out = [r0, r3] := by decide +kernel
  obtain ⟨xs, x1, x2, h3⟩ := h (by rw [hevs, hout]; decide +kernel)
  have hx : xs = items := items_unique (d := dmn) (x1.trans rfl) (by rw [x2, hout]; rfl)
  subst hx
  obtain ⟨kops, sys, tr, m, e1, e2, e3, e4⟩ := h3 noJunk (name := dev) (k := 14) noJunk (by omega) (by decide) (by decide) (by decide +kernel) (L := look) rfl
  exact ⟨kops, sys, tr, m, e1, e2, e3, by rw [lines_all] at e4; exact e4⟩

/-- `C113_false_escape`: nothing tells what this message was. -/
example : entryText look (shmEntry (ascii "cpu1") { pos := 0, ns := 5, msg := msg ([27] ++ ascii "[0;31") }) =
    ascii "U I             : <<zero-length>>\n" := by
  have h := C113_false_escape (pname := ascii "cpu1") (by decide) (by decide) (r := { pos := 0, ns := 5, msg := msg ([27] ++ ascii "[0;31") })
    (by decide +kernel) (by decide) (by decide +kernel) (by decide +kernel) (L := look) rfl
  rw [h]
  decide +kernel

end Verif.Tools.Examples.Shm
