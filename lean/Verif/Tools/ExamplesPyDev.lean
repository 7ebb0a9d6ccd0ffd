import Verif.Tools.PropsPyScreen
import Verif.Tools.ExamplesShm

/-! # Records and devices meeting the hypotheses of C122 -/
namespace Verif.Tools.Examples.PyDev
open Verif Verif.Kernel Verif.Kernel.Examples Verif.Libulog Verif.Ulogcat Verif.Ulogcat.Examples Verif.Ulogcat.Examples.Screen Verif.Tools.PyDev
open Verif.Tools.Examples.Shm (progs progs_plain m0 m1 m2 plain_said)

/-- `C122_names` -/
example : names (ascii "cam") = { name := ascii "cam", path := ascii "/dev/ulog_cam" } ∧
    names (ascii "/dev/ulog_cam") = { name := ascii "cam", path := ascii "/dev/ulog_cam" } :=
  ⟨(C122_names (ascii "cam")).2 (by decide), (C122_names (ascii "cam")).1⟩

/-! ## The device -/

def files (raw : Bool) : OpenEnv := { getenv := fun _ => none, openRes := fun p => if p = ascii "/dev/ulog_cam" then .inl 0 else .inr 2, isChr := fun _ => true, rawOk := fun _ => raw }

def env (raw : Bool) : DevEnv :=
  { others := fun _ => false, logs := none, grant := { name := true, log := true, buffer := true, register := true }, comm := some (ascii "python3\n"), files := files raw }

def reg0 : Reg := { slots := some { name := ascii "ulog_main", size := 262144, buf := true } :: List.replicate 15 none }

theorem reg0_reach : RegReach 18 true reg0 := .init true rfl

/-- `C122_kept` -/
example : ensure (env true) reg0 (names (ascii "main")) = .ready reg0 := C122_kept (.inr ⟨_, List.mem_cons_self, by decide +kernel⟩)

/-- `C122_made`, `C122_ensure` -/
example : ∃ r', ensure (env true) reg0 (names (ascii "cam")) = .ready r' ∧ RegReach 18 true r' ∧
    r'.devs = [{ name := ascii "ulog_main", size := 262144, buf := true }, { name := ascii "ulog_cam", size := 131072, buf := true }] := by
  obtain ⟨r', h1, h2⟩ := C122_made reg0_reach (e := env true) (n := ascii "cam") (by unfold SmallLetter; decide) (by decide) (by decide +kernel) rfl rfl (by decide +kernel)
    ⟨rfl, rfl, rfl, rfl⟩
  have h := C122_ensure reg0_reach (env true) (names (ascii "cam"))
  have e : names (ascii "cam") = { name := ascii "cam", path := ascii "/dev/ulog_" ++ ascii "cam" } := by decide
  rw [e, h1] at h
  refine ⟨r', by rw [e]; exact h1, h.2.1, by rw [h2]; decide +kernel⟩

/-- `C122_false_other` -/
example : ∃ r r', RegReach 18 true r ∧ ensure (env true) r (names (ascii "cam 20")) = .raised r' 2 ∧
    r'.devs = r.devs ++ [{ name := ascii "ulog_cam", size := 1048576, buf := true }] := C122_false_other (fun _ => rfl) rfl ⟨rfl, rfl, rfl, rfl⟩

/-- `C122_open`: raw entries; plain ones where raw mode is refused. -/
example : openHandler (env true) (ascii "/dev/ulog_cam") true =
    (.handler 0 true (some (ascii "python3")), [.opened (ascii "/dev/ulog_cam") 0, .raw 0]) ∧
  openHandler (env false) (ascii "/dev/ulog_cam") true =
    (.handler 0 false (some (ascii "python3")), [.opened (ascii "/dev/ulog_cam") 0, .closed 0, .opened (ascii "/dev/ulog_cam") 0]) ∧
  (openHandler (env true) (ascii "/dev/ulog_cap") true).1 = .raised 2 := by
  refine ⟨by decide +kernel, by decide +kernel, ((C122_open (env true) (fun p err h => ?_) (ascii "/dev/ulog_cap") true).1 2).2 (by decide +kernel)⟩
  unfold env files at h
  dsimp only at h
  split at h
  · cases h
  · injection h with h; omega

/-! ## Records -/

def rec1 : PyRec :=
  { level := 40, tag := ascii "cam.io", msg := ascii "no\r\n\nframe", pid := 7, tid := 8, pname := ascii "python3", tset := [], tcur := ['T', '-', '1']
    clock := fun i => (UInt32.ofNat (5 + i), 0), task := fun _ => t1 }
def rec2 : PyRec := { rec1 with level := 10, tag := ascii "cam", msg := ascii "done\n", tset := [195, 169] }
/-- a level of its own -/
def rec3 : PyRec := { rec1 with level := 25 }

theorem lines1 : IsLines rec1.msg [ascii "no", [], ascii "frame"] :=
  .line (l := ascii "no") (term := [13, 10]) (by decide) (by simp) (by decide)
    (.line (l := []) (term := [10]) (by decide) (by simp) (by decide) (.last (by decide) (by decide)))
theorem lines2 : IsLines rec2.msg [ascii "done"] := .line (l := ascii "done") (term := [10]) (by decide) (by simp) (by decide) .nil

theorem plain_of {raw : Bool} {r : PyRec} (h : NoNul r.tag ∧ NoNul r.msg ∧ ¬ (r.pid = 0xffffffff ∧ r.tid = 0xffffffff) ∧ NoNul r.pname ∧ NoNul r.tname ∧
    (r.tset = [] → ∀ c ∈ r.tcur, c.toNat < 128) ∧ r.pname.length + r.tname.length + r.tag.length ≤ 4000) (ht : ∀ i, r.task i = t1) : r.Plain raw where
  tag := h.1
  text := h.2.1
  ids _ := h.2.2.1
  task _ i := by rw [ht]; decide
  pname _ := h.2.2.2.1
  tname _ _ := ⟨h.2.2.2.2.1, h.2.2.2.2.2.1⟩
  fits sev text num := by
    have := h.2.2.2.2.2.2
    have := Shdd.prefixLen_le (r.task num)
    unfold Line.head
    dsimp only
    cases raw <;> simp <;> (try split) <;> omega

theorem rec1_plain {raw : Bool} : rec1.Plain raw := plain_of (by decide +kernel) fun _ => rfl
theorem rec2_plain {raw : Bool} : rec2.Plain raw := plain_of (by decide +kernel) fun _ => rfl
theorem rec3_plain {raw : Bool} : rec3.Plain raw := plain_of (by decide +kernel) fun _ => rfl

/-- `C122_emit` -/
example : PyDev.emit 4 false rec2 = some [some [[7, 0, 0, 0], ascii "cam" ++ [0], ascii "done" ++ [0]]] ∧ PyDev.emit 4 true rec3 = none :=
  ⟨C122_emit 4 rec2_plain lines2, C122_emit 4 rec3_plain (ls := [ascii "no", [], ascii "frame"]) lines1⟩

def hdl (raw : Bool) : Hdl := { env := env raw, path := ascii "/dev/ulog_cam", rawMode := true, opens := rfl, chr := rfl }

def lns (r : PyRec) : List Bytes := if r.level = 10 then [ascii "done"] else [ascii "no", [], ascii "frame"]

def line (r : PyRec) (sev : Nat) (text : Bytes) (num : Nat) : Line := { of := r, sev, text, num }

def items : List PyDev.Item :=
  [.line (line rec1 3 (ascii "no") 0), .said m0, .line (line rec1 3 [] 1), .line (line rec1 3 (ascii "frame") 2), .said m1, .line (line rec2 7 (ascii "done") 0)]

def mid (raw : Bool) : List PyDev.In := items.map (·.input raw)

theorem items_unique {raw : Bool} {xs ys : List PyDev.Item} (h : xs.map (·.input raw) = ys.map (·.input raw)) (ho : xs.filterMap Item.line? = ys.filterMap Item.line?) :
    xs = ys := by
  induction xs generalizing ys with
  | nil => cases ys with
    | nil => rfl
    | cons y ys => cases h
  | cons x xs ih =>
    cases ys with
    | nil => cases h
    | cons y ys =>
      rw [List.map_cons, List.map_cons] at h
      injection h with h1 h2
      cases x <;> cases y <;> simp [Item.input, Item.line?] at h1 ho ⊢ <;> first
        | exact ⟨h1, ih h2 ho⟩
        | exact ⟨ho.1, ih h2 ho.2⟩

def screen : Bytes := ascii "U I shdlogd     : shdlogd starting\nU E cam.io      : no\nU D net         : link up\nU E cam.io      : \nU E cam.io      : frame\n" ++
    ascii "U E ui          : no\nU E ui          : screen\nU D cam         : done\nU D net         : link up\n"

/-- `C122_screen`, with raw entries and without. -/
theorem screen_ex (raw : Bool) : ∃ ops sys tr m,
    inAll progs noJunk (hdl raw) (fun _ => .start) ([m2].map In.said ++ (.opened :: (mid raw ++ (.closed :: [m0].map In.said)))) = .ok ops ∧
      Kernel.run (Kernel.init dev 14 noJunk) (ops ++ [.openF 0 true false true, .getLogLen 0]) = .ok (sys, tr ++ [(.getLogLen 0, .ret m)]) ∧
      (∀ p ∈ tr, ∀ e, p.2 ≠ .err e) ∧ Dumps look sys tr m 8 fun bs => bs = screen := by
  have hp := plain_said
  have hraw : (hdl raw).raw = raw := by cases raw <;> decide +kernel
  obtain ⟨xs, x1, x2, h3⟩ := C122_screen progs_plain (hdl raw) (recs := [rec1, rec3, rec2]) (lines := lns) (pre := [m2]) (post := [m0]) (mid := mid raw)
    (by
      intro r hr
      simp only [List.mem_cons, List.not_mem_nil, or_false] at hr
      rcases hr with rfl | rfl | rfl
      · exact ⟨rec1_plain, lines1⟩
      · exact ⟨rec3_plain, lines1⟩
      · exact ⟨rec2_plain, lines2⟩)
    (fun m hm => hp m (by rw [List.mem_singleton.1 hm]; simp)) (fun m hm => hp m (by rw [List.mem_singleton.1 hm]; simp))
    (by intro x hx; simp only [mid, items, List.map_cons, List.map_nil, List.mem_cons, List.not_mem_nil, or_false] at hx; rcases hx with rfl | rfl | rfl | rfl | rfl | rfl <;> rfl)
    (by
      intro m hm
      simp only [mid, items, Item.input, List.map_cons, List.map_nil, List.mem_cons, List.not_mem_nil, or_false, reduceCtorEq, In.said.injEq, false_or] at hm
      rcases hm with rfl | rfl <;> exact hp _ (by simp))
    (by rw [hraw]; cases raw <;> decide +kernel)
  rw [hraw] at x1 h3
  have hx : xs = items := items_unique (raw := raw) x1 (x2.trans rfl)
  subst hx
  obtain ⟨ops, sys, tr, m, e1, e2, e3, e4⟩ := h3 noJunk (name := dev) (k := 14) noJunk (by omega) (by decide) (by decide) (by cases raw <;> decide +kernel) (L := look) rfl
  refine ⟨ops, sys, tr, m, e1, e2, e3, ?_⟩
  have hs : (([m2].map Item.said ++ items ++ [m0].map Item.said).flatMap (·.lines progs raw look)) = screen := by cases raw <;> decide +kernel
  rw [hs] at e4
  exact e4

/-- What the raw entries are in `C122_screen`: the numbers and names the handler gives. -/
example : (line rec1 3 (ascii "no") 0).shown true { look with fmt := .process } ≠ (line rec1 3 (ascii "no") 0).shown false { look with fmt := .process } := by
  decide +kernel

/-- `C122_false_ids` -/
example : writes 4 true { rec1 with pid := 0xffffffff, tid := 0xffffffff } = [] ∧ (writes 4 true rec1).length = 3 :=
  ⟨C122_false_ids 4 ⟨rfl, rfl⟩, by decide +kernel⟩

/-- `C122_false_thread`: a thread called "é"; the error of `cam.io` is a critical line of
`m.io`. -/
example : ∃ v, rawLog 4 (some (PyDev.rawOf { rec1 with tcur := ['é'] } 3 (ascii "no") 0)) = some v ∧
    decode true (rawSpec v.flatten).payload =
      { pname := ascii "python3", tname := [195, 169, 3], tag := ascii "m.io", level := 0, color := 99 * 256 + 97 * 65536, msg := .text (ascii "no") } :=
  C122_false_thread 4 (r := { rec1 with tcur := ['é'] }) (p := 3) (a := 99) (b := 97) (tag := ascii "m.io") (line := ascii "no") (by decide) (by decide) 0 rfl
    ⟨'é', by decide, by decide⟩ (by decide) (by decide) (by decide) (by decide) (by decide) (by decide) (by decide)

end Verif.Tools.Examples.PyDev
