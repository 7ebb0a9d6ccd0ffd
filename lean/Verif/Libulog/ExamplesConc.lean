import Verif.Libulog.PropsConc

/-! # The hypotheses of C22, C54 and C55 are met: two threads race for one tag -/
namespace Verif.Libulog
open Verif

def exNm (c : Cid) : Bytes := [UInt8.ofNat (97 + c)]

/-- A hook is installed; threads 1 and 2 both find tag 1 without a level, both go
on to register it, thread 2 wants to set its level. -/
def exRace : List (Tid × Choice) :=
  [(1, .call (.setHook 9)), (1, .go), (1, .go), (1, .go),
   (1, .call (.use 1 .done)), (2, .call (.use 1 (.set 3))), (1, .go), (2, .go), (1, .env none), (2, .env (some 2)),
   (1, .go), (1, .go), (1, .go), (1, .go), (1, .go), (1, .go), (1, .go), (1, .go),
   (2, .go), (2, .go), (2, .go), (2, .go), (2, .go), (1, .go), (1, .go)]

def exRaced : CState := (crun exNm exRace .start).getD .start

theorem exRaced_run : crun exNm exRace .start = some exRaced := rfl

theorem exRaced_reach : CReach exNm exRaced := crun_reach .start exRaced_run

theorem crun_pc {nm : Cid → Bytes} {u : Tid} : ∀ {sched : List (Tid × Choice)} {s s' : CState},
    crun nm sched s = some s' → (∀ x ∈ sched, x.1 ≠ u) → s'.pc u = s.pc u := by
  intro sched
  induction sched with
  | nil => intro s s' hr _; injection hr with hr; rw [hr]
  | cons a r ih =>
    intro s s' hr hn
    obtain ⟨t, ch⟩ := a
    unfold crun at hr
    split at hr
    · cases hr
    · rename_i s1 h1
      rw [ih hr (fun x hx => hn x (List.mem_cons_of_mem _ hx))]
      exact (cstep_frame h1).2 u (Ne.symm (hn _ List.mem_cons_self))

theorem exRaced_idle (u : Tid) : exRaced.pc u = .idle := by
  by_cases h1 : u = 1
  · subst h1; rfl
  · by_cases h2 : u = 2
    · subst h2; rfl
    · refine crun_pc exRaced_run ?_
      intro x hx
      have : ∀ x ∈ exRace, x.1 = 1 ∨ x.1 = 2 := by simp [exRace]
      rcases this x hx with h | h <;> (intro hx; exact absurd (h ▸ hx).symm (by assumption))

/-- Registered once, hooked once, and the level set by thread 2 is kept although
thread 1 was in the middle of the initialisation. -/
example : exRaced.tr = [.ret 1 1, .hook 1 9 1, .ret 2 1, .set 2 1 3, .first 1 6, .reg 1 1, .setHook 9] ∧
    exRaced.level 1 = 3 := ⟨rfl, rfl⟩

example : hookEvs 1 exRaced.tr = [9] :=
  (C22_hook exRaced_reach 1).2 1 [.setHook 9] [.ret 1 1, .hook 1 9 1, .ret 2 1, .set 2 1 3, .first 1 6] rfl
    exRaced_idle

example : CEv.first 1 6 ∉ ([.ret 1 1, .hook 1 9 1, .ret 2 1] : List CEv) :=
  C22_level_kept exRaced_reach (l := [.ret 1 1, .hook 1 9 1, .ret 2 1]) (e := .set 2 1 3)
    (old := [.first 1 6, .reg 1 1, .setHook 9]) rfl (Or.inl ⟨2, 3, rfl⟩) 6

example : CEv.reg 2 1 ∉ ([.setHook 9] : List CEv) :=
  (C22_once exRaced_reach (l := [.ret 1 1, .hook 1 9 1, .ret 2 1, .set 2 1 3, .first 1 6]) (t := 1) (u := 2) (c := 1)
    (old := [.setHook 9]) rfl).2

/-- Thread 3 enumerates while thread 4 registers tag 2: tag 2 is not visited. -/
def exEach : List (Tid × Choice) :=
  exRace ++ [(3, .call .foreach), (3, .go), (3, .go), (3, .go), (3, .go),
    (4, .call (.use 2 (.log 3))), (4, .go), (4, .env none), (4, .go), (4, .go), (4, .go), (4, .go), (4, .go), (4, .go),
    (4, .go), (4, .go), (3, .go), (4, .go), (4, .go), (3, .go)]

def exEached : CState := (crun exNm exEach .start).getD .start

theorem exEached_reach : CReach exNm exEached := crun_reach .start (sched := exEach) rfl

example : exEached.tr = .feDone 3 [1] :: ([.ret 4 2, .msg 4 2 3 true, .hook 4 9 2, .first 2 6, .reg 4 2] ++ .feStart 3 ::
    exRaced.tr) := rfl

example : [1] = (regs exRaced.tr).filter (fun c => decide (c ≠ 0)) :=
  (C55_foreach exEached_reach (l := []) (t := 3) (x := [1])
    (m := [.ret 4 2, .msg 4 2 3 true, .hook 4 9 2, .first 2 6, .reg 4 2]) (old := exRaced.tr) rfl (by decide)).1

/-- Reading names and levels, and a name that no tag has. -/
def exReads : List (Tid × Choice) :=
  exEach ++ [(1, .call (.use 1 .get)), (1, .go), (1, .go), (2, .call (.names 1)), (2, .go), (2, .go), (2, .go),
    (2, .go), (2, .go), (3, .call (.setTag (ascii "z") 2)), (3, .go), (3, .go), (3, .go), (3, .go), (3, .go), (3, .go)]

example : (crun exNm exReads .start).map (fun s => s.tr.take 4) =
    some [.notFound 3 (ascii "z"), .names 2 1 [2], .ret 1 1, .got 1 1 3] := by decide +kernel

/-- Thread 1 is inside a call and never scheduled again, thread 2 calls for ever. -/
def exStay : CState := exRaced.at 1 (.test 1 .done)

theorem exStay_reach : CReach exNm exStay := .step 1 (.call (.use 1 .done)) exRaced_reach rfl

def exLoop (n : Nat) : CState :=
  { exStay with
    pc := fun u => if u = 2 then (if n % 3 = 0 then .idle else if n % 3 = 1 then .test 1 .done else .fin 1 .done)
      else exStay.pc u
    tr := List.replicate (n / 3) (.ret 2 1) ++ exStay.tr }

theorem exLoop_step (n : Nat) :
    cstep exNm 2 (if n % 3 = 0 then .call (.use 1 .done) else .go) (exLoop n) = some (exLoop (n + 1)) := by
  have h : n % 3 = 0 ∨ n % 3 = 1 ∨ n % 3 = 2 := by omega
  have hpc : ∀ p, (fun u => if u = 2 then p else if u = 2 then
      (if n % 3 = 0 then Pc.idle else if n % 3 = 1 then .test 1 .done else .fin 1 .done) else exStay.pc u) =
      fun u => if u = 2 then p else exStay.pc u := by
    intro p; funext u; by_cases hu : u = 2 <;> simp [hu]
  rcases h with h | h | h
  · have h1 : (n + 1) % 3 = 1 := by omega
    have h2 : (n + 1) / 3 = n / 3 := by omega
    rw [if_pos h]
    unfold cstep
    have : (exLoop n).pc 2 = .idle := by simp [exLoop, h]
    rw [this]
    simp only [CState.at, exLoop, Then.clamp, h, h1, h2]
    simp only [Nat.reduceEqDiff, if_true, if_false, Option.some.injEq, CState.mk.injEq, true_and, and_true]
    funext u; by_cases hu : u = 2 <;> simp [hu]
  · have h1 : (n + 1) % 3 = 2 := by omega
    have h2 : (n + 1) / 3 = n / 3 := by omega
    rw [if_neg (by omega)]
    unfold cstep
    have : (exLoop n).pc 2 = .test 1 .done := by simp [exLoop, h]
    rw [this]
    have hl : ¬ exStay.level 1 < 0 := by decide
    simp only [CState.at, exLoop, h, h1, h2, hl]
    simp only [Nat.reduceEqDiff, if_true, if_false, Option.some.injEq, CState.mk.injEq, true_and, and_true]
    funext u; by_cases hu : u = 2 <;> simp [hu]
  · have h1 : (n + 1) % 3 = 0 := by omega
    have h2 : (n + 1) / 3 = n / 3 + 1 := by omega
    rw [if_neg (by omega)]
    unfold cstep
    have : (exLoop n).pc 2 = .fin 1 .done := by simp [exLoop, h]
    rw [this]
    simp only [CState.at, CState.ev, exLoop, h, h1, h2, List.replicate_succ, List.cons_append]
    simp only [Nat.reduceEqDiff, if_true, if_false, Option.some.injEq, CState.mk.injEq, true_and, and_true]
    funext u; by_cases hu : u = 2 <;> simp [hu]

example : ∃ M, ∀ n, M ≤ n → (fun _ : Nat => 2) n ≠ 1 :=
  C54_finite exLoop (fun _ => 2) (fun n => if n % 3 = 0 then .call (.use 1 .done) else .go)
    (by
      have : exLoop 0 = exStay := by
        show CState.mk _ _ _ _ _ _ _ = exStay
        have hp : (fun u => if u = 2 then (if 0 % 3 = 0 then Pc.idle else if 0 % 3 = 1 then .test 1 .done else .fin 1 .done)
            else exStay.pc u) = exStay.pc := by
          funext u; by_cases hu : u = 2
          · subst hu; rfl
          · simp [hu]
        rw [hp]; rfl
      rw [this]; exact exStay_reach)
    exLoop_step (t := 1) (N := 0) (fun n _ => (by decide : exStay.pc 1 ≠ .idle))

example : (∃ ch s', cstep exNm 1 ch exStay = some s') ∨
    ∃ u ch s', u ≠ 1 ∧ exStay.lock = some u ∧ cstep exNm u ch exStay = some s' :=
  C54_progress exStay_reach (by decide)

/-- `C22_first`: the first thread found no level in the environment, the second found 2 and
came too late. -/
example : ∃ l old, exRaced.tr = l ++ .first 1 6 :: old ∧
    ((6 : Int) = 2 ∨ ((6 : Int) = 6 ∧ ∃ m, [] <:+ m ∧ m <:+ old ∧ lastLevel 0 m = none) ∨ ∃ m, [] <:+ m ∧ m <:+ old ∧ lastLevel 0 m = some 6) := by
  obtain ⟨l, old, htr⟩ := List.append_of_mem (show CEv.first 1 6 ∈ exRaced.tr by decide +kernel)
  refine ⟨l, old, htr, C22_first (E := fun x => x = 2) (sched := exRace) .start (fun _ => rfl) ?_ exRaced_run htr (List.nil_suffix)⟩
  intro t v hv
  simp [exRace] at hv
  rw [hv.2]; rfl

/-- `C22_default`: the default tag is set to 0, then a tag is used that the environment does
not mention. -/
example : (crun exNm [(0, .call (.use 0 (.set 0))), (0, .go), (0, .env none), (0, .go), (0, .go), (0, .go), (0, .go), (0, .go), (0, .go), (0, .go), (0, .go), (0, .go), (0, .go),
    (1, .call (.use 1 .get)), (1, .go), (1, .env none), (1, .go), (1, .go), (1, .go), (1, .go), (1, .go), (1, .go), (1, .go)] .start).map (fun s => s.tr) =
    some [.first 1 0, .reg 1 1, .ret 0 0, .set 0 0 0, .first 0 6, .reg 0 0] := by decide +kernel

end Verif.Libulog
