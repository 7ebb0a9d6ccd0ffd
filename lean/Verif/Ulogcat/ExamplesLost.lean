import Verif.Ulogcat.PropsLost
import Verif.Ulogcat.ExamplesFleet

/-!
# Devices meeting the hypotheses of C135

The devices of `ExamplesFleet`, the first after four more messages of five thousand
characters, so that one message and one of those is lost.
-/
namespace Verif.Ulogcat.Examples.Lost
open Verif Verif.Kernel Verif.Kernel.Examples Verif.Libulog Verif.Ulogcat Verif.Ulogcat.Examples Verif.Ulogcat.Examples.Screen
  Verif.Ulogcat.Examples.Said Verif.Ulogcat.Examples.Fleet

def long (n : UInt32) : Said :=
  { prog := 0, task := { t1 with sec := 20 + n, nsec := 0 }, tag := 1, prio := 7, text := List.replicate 5000 65, whole := true }

def more : Nat → List Said := fun i => if i = 0 then m1 :: m2 :: [long 0, long 1, long 2, long 3, m3] else [m4, m5]

theorem more_plain : ∀ i, i < 2 → ∀ m ∈ more i, m.Plain progs := by
  have hl : ∀ n, (long n).Plain progs := by
    intro n
    refine ⟨show NoNul (ascii "net") by decide, fun b hb => ?_, show prioBinary 7 = false by decide, show prefixLen t1 + (4 + (ascii "net").length + 1) < 4076 by decide,
      show ¬ (t1.pid = 0xffffffff ∧ t1.tid = 0xffffffff) by decide⟩
    rw [(List.mem_replicate.1 hb).2]
    decide
  have h0 := logs_plain 0 (by omega)
  refine two (fun m hm => ?_) (logs_plain 1 (by omega))
  have hm' : m = m1 ∨ m = m2 ∨ m = long 0 ∨ m = long 1 ∨ m = long 2 ∨ m = long 3 ∨ m = m3 := by
    simpa [more] using hm
  rcases hm' with rfl | rfl | rfl | rfl | rfl | rfl | rfl
  · exact h0 _ (by simp [logs])
  · exact h0 _ (by simp [logs])
  · exact hl _
  · exact hl _
  · exact hl _
  · exact hl _
  · exact h0 _ (by simp [logs])

def rows0 : List (Nat × Row) := [(0, .notice 2 (long 1)), (0, .line (long 1)), (0, .line (long 2)), (0, .line (long 3)), (0, .line m3)]
def rows1 : List (Nat × Row) := [(1, .line m4), (1, .line m5)]

/-- Two devices. -/
def pair (a b : List (Nat × Row)) : Nat → List (Nat × Row)
  | 0 => a
  | 1 => b
  | _ => []

theorem more0 : toRow 2 (fun _ => progs) (fun _ => 2 ^ 14) more 0 = rows0 := by
  have hp : (more 0).filter (·.passes progs) = [m1, long 0, long 1, long 2, long 3, m3] := by
    show (m1 :: m2 :: [long 0, long 1, long 2, long 3, m3]).filter _ = _
    have hl : ∀ n, (long n).passes progs = true := fun n => by show (long 0).passes progs = true; decide +kernel
    rw [List.filter_cons_of_pos (by decide +kernel), List.filter_cons_of_neg (by decide +kernel), List.filter_cons_of_pos (hl _),
      List.filter_cons_of_pos (hl _), List.filter_cons_of_pos (hl _), List.filter_cons_of_pos (hl _), List.filter_cons_of_pos (by decide +kernel)]
    rfl
  have hs : ∀ n, (long n).size progs = 4100 := fun n => by show (long 0).size progs = 4100; decide +kernel
  have hr : ringHolds (·.size progs) (2 ^ 14) [m1, long 0, long 1, long 2, long 3, m3] = [long 1, long 2, long 3, m3] := by
    have h1 : m1.size progs = 52 := by decide +kernel
    have h3 : m3.size progs = 53 := by decide +kernel
    simp [ringHolds, ringAdd, giveUp, hs, h1, h3]
  unfold toRow
  rw [if_pos (by omega), hp]
  unfold rows
  rw [hr]
  rfl

theorem more1 : toRow 2 (fun _ => progs) (fun _ => 2 ^ 14) more 1 = rows1 := by
  have hp : (more 1).filter (·.passes progs) = [m4, m5] := by
    show [m4, m5].filter _ = _
    rw [List.filter_cons_of_pos (by decide +kernel), List.filter_cons_of_pos (by decide +kernel)]
    rfl
  have hr : ringHolds (·.size progs) (2 ^ 14) [m4, m5] = [m4, m5] :=
    (C135_held progs (size := 2 ^ 14) (by omega) _).2.2.1 (by decide +kernel)
  unfold toRow
  rw [if_pos (by omega), hp]
  unfold rows
  rw [hr]
  rfl

theorem more_pair : toRow 2 (fun _ => progs) (fun _ => 2 ^ 14) more = pair rows0 rows1 := by
  funext i
  match i with
  | 0 => exact more0
  | 1 => exact more1
  | i + 2 => exact toRow_beyond _ (by omega)

theorem behind0 (a b : List (Nat × Row)) : behind (pair a b) 0 = pair (a.drop 1) b := by
  funext d
  unfold behind
  match d with
  | 0 => rfl
  | 1 => rfl
  | d + 2 => rfl

theorem behind1 (a b : List (Nat × Row)) : behind (pair a b) 1 = pair a (b.drop 1) := by
  funext d
  unfold behind
  match d with
  | 0 => rfl
  | 1 => rfl
  | d + 2 => rfl

/-- The one order. -/
def mixed : List (Nat × Row) :=
  [(1, .line m4), (0, .notice 2 (long 1)), (0, .line (long 1)), (0, .line (long 2)), (0, .line (long 3)), (0, .line m3), (1, .line m5)]

theorem mixed_ok : ByTurns (·.1) Row.time 2 (toRow 2 (fun _ => progs) (fun _ => 2 ^ 14) more) mixed := by
  rw [more_pair]
  unfold ByTurns
  have hr : rests (pair rows0 rows1) = pair (rows0.drop 1) (rows1.drop 1) := by
    funext d
    unfold rests
    match d with
    | 0 => rfl
    | 1 => rfl
    | d + 2 => rfl
  rw [hr]
  refine .cons [(0, Row.notice 2 (long 1))] (1, Row.line m4) [] _ _ (by decide) (by decide) ?_
  rw [behind1]
  refine .cons [] (0, Row.notice 2 (long 1)) [(1, Row.line m5)] _ _ (by decide) (by decide) ?_
  rw [behind0]
  refine .cons [(1, Row.line m5)] (0, Row.line (long 1)) [] _ _ (by decide) (by decide) ?_
  rw [behind0]
  refine .cons [(1, Row.line m5)] (0, Row.line (long 2)) [] _ _ (by decide) (by decide) ?_
  rw [behind0]
  refine .cons [(1, Row.line m5)] (0, Row.line (long 3)) [] _ _ (by decide) (by decide) ?_
  rw [behind0]
  refine .cons [(1, Row.line m5)] (0, Row.line m3) [] _ _ (by decide) (by decide) ?_
  rw [behind0]
  refine .cons [] (1, Row.line m5) [] _ _ (by decide) (by decide) ?_
  rw [behind1]
  refine .nil _ fun d => ?_
  match d with
  | 0 => rfl
  | 1 => rfl
  | d + 2 => rfl

/-- The line of a long message: the text is cut to the longest entry. -/
def cut : Bytes := ascii "U D net         : " ++ List.replicate 4055 65 ++ [10]

def partly : Bytes := ascii "---------------------------------------------------- beginning of /dev/ulog_aux\nU I             : hello\n" ++
  ascii "---------------------------------------------------- beginning of /dev/ulog_main\nU W ulog_main   : 2 log entries dropped\n" ++
  (cut ++ (cut ++ (cut ++ (ascii "U E ui          : no\nU E ui          : screen\n" ++ ascii "U I             : bye\n"))))

theorem cut_ok : ∀ n ∈ [1, 2, 3], (long n).lines progs look = cut := by decide +kernel

/-- A banner. -/
def ban (i : Nat) : Bytes := List.replicate 39 45 ++ (ascii "------------- beginning of " ++ paths i).take 127 ++ [10]

theorem screen_cons (f : Nat → Row → Bytes) (seen : List Nat) (i : Nat) (e : Row) (t : List (Nat × Row)) :
    screenOf paths f true seen ((i, e) :: t) = (if seen.contains i then [] else ban i) ++ f i e ++ screenOf paths f true (i :: seen) t := by
  rw [screenOf]
  unfold ban
  cases seen.contains i <;> rfl

theorem mixed_screen (f : Nat → Row → Bytes) : screenOf paths f true [] (lastOf 0 mixed) =
    ban 1 ++ f 1 (.line m4) ++ (ban 0 ++ f 0 (.notice 2 (long 1))) ++
      (f 0 (.line (long 1)) ++ (f 0 (.line (long 2)) ++ (f 0 (.line (long 3)) ++ (f 0 (.line m3) ++ f 1 (.line m5))))) := by
  have h : lastOf 0 mixed = mixed := rfl
  rw [h]
  unfold mixed
  have h0 : ∀ seen, screenOf paths f true seen [] = [] := fun _ => rfl
  simp [screen_cons, h0]

theorem partly_ok : screenOf paths (fun _ r => r.text progs look dev) true [] (lastOf 0 mixed) = partly := by
  have h1 : ban 1 ++ (Row.line m4).text progs look dev =
    ascii "---------------------------------------------------- beginning of /dev/ulog_aux\nU I             : hello\n" := by decide +kernel
  have h2 : ban 0 ++ (Row.notice 2 (long 1)).text progs look dev =
    ascii "---------------------------------------------------- beginning of /dev/ulog_main\nU W ulog_main   : 2 log entries dropped\n" := by decide +kernel
  have h3 : (Row.line m3).text progs look dev = ascii "U E ui          : no\nU E ui          : screen\n" := by decide +kernel
  have h4 : (Row.line m5).text progs look dev = ascii "U I             : bye\n" := by decide +kernel
  have hc : ∀ n ∈ [1, 2, 3], (Row.line (long n)).text progs look dev = cut := cut_ok
  rw [mixed_screen, h1, h2, hc 1 (by decide), hc 2 (by decide), hc 3 (by decide), h3, h4]
  rfl

/-- `C135_programs` and `C135_order`: the whole screen. -/
example : ∃ (ops : Nat → List Op) (sys : Nat → Sys) (tr : Nat → List (Op × Out)) (m : Nat → Nat), (∀ i, i < 2 →
        sayAll progs noJunk (fun _ => .start) (more i) = .ok (ops i) ∧
        Kernel.run (Kernel.init dev 14 noJunk) (ops i ++ [.openF 0 true false true, .getLogLen 0]) =
          .ok (sys i, tr i ++ [(.getLogLen 0, .ret (m i))])) ∧
      FleetDumps 2 (fun _ => look) false (fun i => opened (sys i) (tr i) (m i)) ((List.range 2).map m) 0 paths (fun bs => bs = partly) := by
  obtain ⟨ops, sys, tr, m, h1, h2⟩ := C135_programs (N := 2) (by omega) (D := fun _ => ascii "/dev/ulog_main") (P := fun _ => progs)
    (fun _ _ => progs_plain) more_plain noJunk (name := fun _ => dev) (k := fun _ => 14) (fun _ => noJunk) (fun _ _ => Nat.le_refl _)
    (fun _ _ => by decide) (fun _ _ => by decide) (two (by decide) (by decide)) (L := fun _ => look) (csv := false)
    (fun _ _ => by decide) (fun _ _ => rfl) nofun
  refine ⟨ops, sys, tr, m, h1, ?_⟩
  obtain ⟨need, h⟩ := h2 0 paths
  refine ⟨need, fun euid n fuel hf buf0 hb ans ha => ?_⟩
  obtain ⟨all, c, t, e1, e2, v, e3, e4⟩ := h euid n fuel hf hb ha
  refine ⟨all, c, t, e1, e2, e4.trans ?_⟩
  rw [(C135_order mixed_ok).1 _ e3]
  exact partly_ok

/-- `C135_held`: the last three and a short one are kept, one of the size of the ring
less 8200 is the least that is. -/
example : ringHolds (fun n : Nat => n) 16384 [63, 4100, 4100, 4100, 4100, 64] = [4100, 4100, 4100, 64] := by decide

end Verif.Ulogcat.Examples.Lost
