import Verif.Ulogcat.PropsFleet
import Verif.Ulogcat.ExamplesSaid

/-!
# Devices meeting the hypotheses of C119

Two devices with the programs of `ExamplesSaid`; the messages are from different times.
-/
namespace Verif.Ulogcat.Examples.Fleet
open Verif Verif.Kernel Verif.Kernel.Examples Verif.Libulog Verif.Ulogcat Verif.Ulogcat.Examples Verif.Ulogcat.Examples.Screen Verif.Ulogcat.Examples.Said

def m1 : Said := { prog := 0, task := { t1 with sec := 10, nsec := 1000 }, tag := 1, prio := 7, text := ascii "link up", whole := false }
def m2 : Said := { prog := 1, task := { t1 with sec := 10, nsec := 5000 }, tag := 1, prio := 6, text := ascii "not shown", whole := true }
def m3 : Said := { prog := 1, task := { t1 with sec := 30, nsec := 0 }, tag := 2, prio := 3, text := ascii "no\nscreen", whole := true }
def m4 : Said := { prog := 0, task := { t1 with sec := 10, nsec := 2000 }, tag := 0, prio := 6, text := ascii "hello", whole := false }
def m5 : Said := { prog := 0, task := { t1 with sec := 31, nsec := 0 }, tag := 0, prio := 6, text := ascii "bye", whole := false }

def logs : Nat → List Said := fun i => if i = 0 then [m1, m2, m3] else [m4, m5]

def paths : Nat → Bytes := fun i => if i = 0 then ascii "/dev/ulog_main" else ascii "/dev/ulog_aux"

theorem two {p : Nat → Prop} (h0 : p 0) (h1 : p 1) : ∀ i, i < 2 → p i := by
  intro i hi
  rcases Nat.lt_or_ge i 1 with h | h
  · rw [show i = 0 by omega]; exact h0
  · rw [show i = 1 by omega]; exact h1

theorem logs_plain : ∀ i, i < 2 → ∀ m ∈ logs i, m.Plain progs := by
  have h : ∀ m ∈ [m1, m2, m3, m4, m5], NoNul (m.name progs) ∧ NoNul m.text ∧ prioBinary m.prio = false ∧
      prefixLen m.task + (4 + (m.name progs).length + 1) < 4076 ∧ ¬ (m.task.pid = 0xffffffff ∧ m.task.tid = 0xffffffff) := by decide +kernel
  have h' : ∀ m ∈ [m1, m2, m3, m4, m5], m.Plain progs := fun m hm => ⟨(h m hm).1, (h m hm).2.1, (h m hm).2.2.1, (h m hm).2.2.2.1, (h m hm).2.2.2.2⟩
  exact two (fun m hm => h' m (List.mem_append_left [m4, m5] hm)) (fun m hm => h' m (List.mem_append_right [m1, m2, m3] hm))

/-- The one order of these messages. -/
def merged : List (Nat × Said) := [(0, m1), (1, m4), (0, m3), (1, m5)]

theorem says0 : toSay 2 (fun _ => progs) logs 0 = [(0, m1), (0, m3)] := by
  show ([m1, m2, m3].filter (·.passes progs)).map _ = _
  rw [List.filter_cons_of_pos (by decide +kernel), List.filter_cons_of_neg (by decide +kernel), List.filter_cons_of_pos (by decide +kernel)]
  rfl

theorem says1 : toSay 2 (fun _ => progs) logs 1 = [(1, m4), (1, m5)] := by
  show ([m4, m5].filter (·.passes progs)).map _ = _
  rw [List.filter_cons_of_pos (by decide +kernel), List.filter_cons_of_pos (by decide +kernel)]
  rfl

theorem merged_ok : ByTurns (·.1) saidTime 2 (toSay 2 (fun _ => progs) logs) merged := by
  have hf : firsts (toSay 2 (fun _ => progs) logs) 2 = [(0, m1), (1, m4)] := by
    show (toSay 2 (fun _ => progs) logs 0).take 1 ++ ((toSay 2 (fun _ => progs) logs 1).take 1 ++ []) = _
    rw [says0, says1]
    rfl
  unfold ByTurns
  rw [hf]
  refine .cons [] (0, m1) [(1, m4)] _ _ (by simp) (by decide) ?_
  have e1 : (rests (toSay 2 (fun _ => progs) logs) 0) = [(0, m3)] := by unfold rests; rw [says0]; rfl
  have e2 : (rests (toSay 2 (fun _ => progs) logs) 1) = [(1, m5)] := by unfold rests; rw [says1]; rfl
  have e3 : ∀ d, 2 ≤ d → rests (toSay 2 (fun _ => progs) logs) d = [] := fun d hd => by unfold rests; rw [toSay_beyond d hd]; rfl
  generalize rests (toSay 2 (fun _ => progs) logs) = r at e1 e2 e3
  show Picked _ _ ([(1, m4)] ++ (r 0).take 1) (behind r 0) _
  rw [e1]
  refine .cons [] (1, m4) [(0, m3)] _ _ (by simp) (by decide) ?_
  show Picked _ _ ([(0, m3)] ++ (behind r 0 1).take 1) (behind (behind r 0) 1) _
  rw [show behind r 0 1 = [(1, m5)] from e2]
  have e : behind (behind r 0) 1 = fun _ => [] := by
    funext d
    unfold behind
    match d with
    | 0 => simp [e1]
    | 1 => simp [e2]
    | d + 2 => simp [e3]
  rw [e]
  refine .cons [] (0, m3) [(1, m5)] _ _ (by simp) (by decide) ?_
  refine .cons [] (1, m5) [] _ _ (by simp) (by simp) ?_
  refine .nil _ fun d => ?_
  unfold behind
  split
  · split <;> rfl
  · split <;> rfl

def whole : Bytes := ascii "----------------------------------------------------" ++ ascii " beginning of /dev/ulog_main\nU D net         : link up\n" ++
  ascii "---------------------------------------------------- beginning of /dev/ulog_aux\nU I             : hello\n" ++
  ascii "U E ui          : no\nU E ui          : screen\nU I             : bye\n"

def lastTwo : Bytes := ascii "---------------------------------------------------- beginning of /dev/ulog_main\n" ++
  ascii "U E ui          : no\nU E ui          : screen\n" ++
  ascii "---------------------------------------------------- beginning of /dev/ulog_aux\nU I             : bye\n"

theorem whole_ok : screenOf paths (fun _ m => m.lines progs look) true [] (lastOf 0 merged) = whole := by decide +kernel

theorem lastTwo_ok : screenOf paths (fun _ m => m.lines progs look) true [] (lastOf 2 merged) = lastTwo := by decide +kernel

/-- `C119_programs` and `C119_order`: the whole screen, and with `-t 2`. -/
example : ∃ (ops : Nat → List Op) (sys : Nat → Sys) (tr : Nat → List (Op × Out)) (m : Nat → Nat), (∀ i, i < 2 →
        sayAll progs noJunk (fun _ => .start) (logs i) = .ok (ops i) ∧
        Kernel.run (Kernel.init dev 14 noJunk) (ops i ++ [.openF 0 true false true, .getLogLen 0]) =
          .ok (sys i, tr i ++ [(.getLogLen 0, .ret (m i))])) ∧
      FleetDumps 2 (fun _ => look) false (fun i => opened (sys i) (tr i) (m i)) ((List.range 2).map m) 0 paths (fun bs => bs = whole) ∧
      FleetDumps 2 (fun _ => look) false (fun i => opened (sys i) (tr i) (m i)) ((List.range 2).map m) 2 paths (fun bs => bs = lastTwo) := by
  obtain ⟨ops, sys, tr, m, h1, h2⟩ := C119_programs (N := 2) (by omega) (D := fun _ => ascii "/dev/ulog_main") (P := fun _ => progs)
    (fun _ _ => progs_plain) logs_plain noJunk (name := fun _ => dev) (k := fun _ => 14) (fun _ => noJunk) (fun _ _ => Nat.le_refl _)
    (fun _ _ => by decide) (two (by decide) (by decide)) (two (by decide +kernel) (by decide +kernel)) (L := fun _ => look) (csv := false)
    (fun _ _ => by decide) (fun _ _ => rfl) nofun
  have key : ∀ T out, screenOf paths (fun _ m => m.lines progs look) true [] (lastOf T merged) = out →
      FleetDumps 2 (fun _ => look) false (fun i => opened (sys i) (tr i) (m i)) ((List.range 2).map m) T paths (fun bs => bs = out) := by
    intro T out ho
    obtain ⟨need, h⟩ := h2 T paths
    refine ⟨need, fun euid n fuel hf buf0 hb ans ha => ?_⟩
    obtain ⟨all, c, t, e1, e2, v, e3, e4⟩ := h euid n fuel hf hb ha
    refine ⟨all, c, t, e1, e2, e4.trans ?_⟩
    rw [(C119_order merged_ok).1 _ e3]
    exact ho
  exact ⟨ops, sys, tr, m, h1, key 0 _ whole_ok, key 2 _ lastTwo_ok⟩

end Verif.Ulogcat.Examples.Fleet
