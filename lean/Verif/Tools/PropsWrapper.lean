import Verif.Tools.Wrapper

/-!
# Running a program with the replacement of syslog (C103)
-/
namespace Verif.Tools
open Verif Verif.Libulog

/-- What separates names in `LD_PRELOAD`. -/
def isSep (b : UInt8) : Bool := b = 32 || b = 58

/-- The names in `LD_PRELOAD`, in order; `acc` is the name begun. -/
def libNames (acc : Bytes) : Bytes → List Bytes
  | [] => if acc = [] then [] else [acc]
  | b :: l => if isSep b then (if acc = [] then [] else [acc]) ++ libNames [] l else libNames (acc ++ [b]) l

/-- The libraries that a program run in this environment loads first. -/
def preloads (e : Env) : List Bytes := libNames [] ((e (ascii "LD_PRELOAD")).getD [])

theorem libNames_word (w : Bytes) (hw : ∀ b ∈ w, isSep b = false) : ∀ (acc l : Bytes),
    libNames acc (w ++ l) = libNames (acc ++ w) l := by
  induction w with
  | nil => intro acc l; rw [List.append_nil]; rfl
  | cons b w ih =>
    intro acc l
    rw [List.cons_append, libNames, if_neg (by rw [hw b (by simp)]; simp), ih (fun x hx => hw x (by simp [hx])),
      List.append_assoc]
    rfl

theorem wrapLib_sep : ∀ b ∈ wrapLib, isSep b = false := by decide

theorem wrapLib_length : wrapLib.length = 30 := by decide

theorem libNames_wrap (l : Bytes) : libNames [] (wrapLib ++ [32] ++ l) = wrapLib :: libNames [] l := by
  rw [List.append_assoc, libNames_word wrapLib wrapLib_sep, List.nil_append, List.singleton_append, libNames,
    if_pos (by decide), if_neg (by decide)]
  rfl

theorem hasSub_append (w l : Bytes) : hasSub w (w ++ l) = true := by
  have hp : w.isPrefixOf (w ++ l) = true := by
    rw [List.isPrefixOf_iff_prefix]; exact List.prefix_append _ _
  cases h : w ++ l with
  | nil => rw [hasSub, ← h]; exact hp
  | cons b m => rw [hasSub, ← h, hp, Bool.true_or]

/-- The path of the log device that the command tries. -/
abbrev wrapDev (env : Env) : Bytes := openPath env (ascii "ULOG_DEVICE") (ascii "/dev/ulog_main") none

theorem preload_ne : ascii "LD_PRELOAD" ≠ ascii "ULOG_NOSYSLOG" ∧ ascii "ULOG_DEVICE" ≠ ascii "ULOG_NOSYSLOG" ∧
    ascii "ULOG_DEVICE" ≠ ascii "LD_PRELOAD" := by decide

/-- The environment with both variables set. -/
def bothSet (env : Env) (v : Bytes) : Env := (env.set (ascii "LD_PRELOAD") v).set (ascii "ULOG_NOSYSLOG") (ascii "yes")

theorem wrapEnv_cases (openOk : Bytes → Bool) (env : Env) :
    wrapEnv openOk env = env ∨ openOk (wrapDev env) = true ∧
      (wrapEnv openOk env = bothSet env wrapLib ∨ ∃ l, wrapEnv openOk env = bothSet env ((wrapLib ++ [32] ++ l).take 4095)) := by
  unfold wrapEnv
  by_cases ho : openOk (wrapDev env) = true
  · rw [if_pos ho]
    cases env (ascii "LD_PRELOAD") with
    | none => exact Or.inr ⟨ho, Or.inl rfl⟩
    | some libs =>
      dsimp only
      by_cases hs : hasSub wrapLib libs = true
      · rw [if_pos hs]; exact Or.inl rfl
      · rw [if_neg hs]; exact Or.inr ⟨ho, Or.inr ⟨libs, rfl⟩⟩
  · rw [if_neg ho]; exact Or.inl rfl

theorem bothSet_other (env : Env) (v : Bytes) {n : Bytes} (h1 : n ≠ ascii "LD_PRELOAD") (h2 : n ≠ ascii "ULOG_NOSYSLOG") :
    bothSet env v n = env n := by
  unfold bothSet Env.set
  rw [if_neg h2, if_neg h1]

theorem bothSet_preload (env : Env) (v : Bytes) : bothSet env v (ascii "LD_PRELOAD") = some v := by
  unfold bothSet Env.set
  rw [if_neg preload_ne.1, if_pos rfl]

/-- C103. Without arguments the command fails. Otherwise the program named by the first
one is run with all of them; if it cannot be run the command fails. -/
theorem C103_run (openOk execOk : Bytes → Bool) (env : Env) (argv : List Bytes) :
    (argv = [] → wrapMain openOk execOk env argv = .ends 1) ∧
    ∀ prog args, argv = prog :: args →
      (execOk prog = true → wrapMain openOk execOk env argv = .execs prog argv (wrapEnv openOk env)) ∧
      (execOk prog = false → wrapMain openOk execOk env argv = .ends (-1)) := by
  refine ⟨fun h => by subst h; rfl, fun prog args h => ?_⟩
  subst h
  have he : wrapMain openOk execOk env (prog :: args) =
    if execOk prog then .execs prog (prog :: args) (wrapEnv openOk env) else .ends (-1) := rfl
  exact ⟨fun h => by rw [he, if_pos h], fun h => by rw [he, h]; rfl⟩

/-- C103. Without a log device the program gets the environment unchanged. With one, only
`LD_PRELOAD` and `ULOG_NOSYSLOG` may change. -/
theorem C103_env (openOk : Bytes → Bool) (env : Env) :
    (openOk (wrapDev env) = false → wrapEnv openOk env = env) ∧
    ∀ n, n ≠ ascii "LD_PRELOAD" → n ≠ ascii "ULOG_NOSYSLOG" → wrapEnv openOk env n = env n := by
  refine ⟨fun h => by unfold wrapEnv; rw [h]; rfl, fun n h1 h2 => ?_⟩
  rcases wrapEnv_cases openOk env with h | ⟨_, h | ⟨l, h⟩⟩
  · rw [h]
  · rw [h, bothSet_other _ _ h1 h2]
  · rw [h, bothSet_other _ _ h1 h2]

/-- C103. With a log device, if the name of the replacement is not part of `LD_PRELOAD`
and the rest of it fits (4064 bytes), the program loads the replacement first and then
what it would have loaded. -/
theorem C103_preload {openOk : Bytes → Bool} {env : Env} (ho : openOk (wrapDev env) = true)
    (hs : ∀ libs, env (ascii "LD_PRELOAD") = some libs → hasSub wrapLib libs = false ∧ libs.length ≤ 4064) :
    preloads (wrapEnv openOk env) = wrapLib :: preloads env ∧
    wrapEnv openOk env (ascii "ULOG_NOSYSLOG") = some (ascii "yes") := by
  unfold wrapEnv
  rw [if_pos ho]
  cases hl : env (ascii "LD_PRELOAD") with
  | none =>
    dsimp only
    refine ⟨?_, by unfold Env.set; rw [if_pos rfl]⟩
    unfold preloads Env.set
    rw [if_neg preload_ne.1, if_pos rfl, hl]
    show libNames [] wrapLib = wrapLib :: libNames [] []
    have := libNames_word wrapLib wrapLib_sep [] []
    rw [List.append_nil, List.nil_append] at this
    rw [this]
    rfl
  | some libs =>
    obtain ⟨h1, h2⟩ := hs libs hl
    dsimp only
    rw [h1, if_neg (by simp)]
    refine ⟨?_, by unfold Env.set; rw [if_pos rfl]⟩
    unfold preloads Env.set
    rw [if_neg preload_ne.1, if_pos rfl, hl]
    show libNames [] ((wrapLib ++ [32] ++ libs).take 4095) = wrapLib :: libNames [] libs
    rw [List.take_of_length_le (by
      rw [List.length_append, List.length_append, wrapLib_length]; show 30 + 1 + _ ≤ _; omega), libNames_wrap]

/-- C103. In any case the program loads the replacement, or its environment is the one
the command had. -/
theorem C103_either (openOk : Bytes → Bool) (env : Env) :
    wrapEnv openOk env = env ∨ hasSub wrapLib ((wrapEnv openOk env (ascii "LD_PRELOAD")).getD []) = true ∧
      (preloads (wrapEnv openOk env)).head? = some wrapLib := by
  have key : ∀ (l : Bytes), hasSub wrapLib ((wrapLib ++ [32] ++ l).take 4095) = true ∧
      (libNames [] ((wrapLib ++ [32] ++ l).take 4095)).head? = some wrapLib := by
    intro l
    have he : (wrapLib ++ [32] ++ l).take 4095 = wrapLib ++ [32] ++ l.take 4064 := by
      rw [List.take_append, List.take_of_length_le (by rw [List.length_append, wrapLib_length]; decide)]
      rfl
    rw [he]
    exact ⟨by rw [List.append_assoc]; exact hasSub_append _ _, by rw [libNames_wrap]; rfl⟩
  rcases wrapEnv_cases openOk env with h | ⟨_, h | ⟨l, h⟩⟩
  · exact Or.inl h
  · refine Or.inr ?_
    unfold preloads
    rw [h, bothSet_preload]
    have h1 := hasSub_append wrapLib []
    rw [List.append_nil] at h1
    refine ⟨h1, ?_⟩
    show (libNames [] wrapLib).head? = _
    have := libNames_word wrapLib wrapLib_sep [] []
    rw [List.append_nil, List.nil_append] at this
    rw [this]
    rfl
  · refine Or.inr ?_
    unfold preloads
    rw [h, bothSet_preload]
    exact key l

/-- C103. Running the command with the command changes nothing more, as long as the same
devices can be opened. -/
theorem C103_twice (openOk : Bytes → Bool) (env : Env) : wrapEnv openOk (wrapEnv openOk env) = wrapEnv openOk env := by
  rcases C103_either openOk env with h | ⟨h, _⟩
  · rw [h, h]
  · generalize wrapEnv openOk env = env' at h ⊢
    unfold wrapEnv
    by_cases ho : openOk (wrapDev env') = true
    · rw [if_pos ho]
      cases hl : env' (ascii "LD_PRELOAD") with
      | none => rw [hl] at h; exact absurd h (by decide)
      | some libs => rw [hl] at h; dsimp only; exact if_pos h
    · rw [if_neg ho]

/-- C103 is false of longer values: the last names are cut off or lost. -/
theorem C103_false_long : ∃ libs : Bytes, libNames [] libs = [libs] ∧ ∀ (openOk : Bytes → Bool) (env : Env),
    openOk (wrapDev env) = true → env (ascii "LD_PRELOAD") = some libs →
    preloads (wrapEnv openOk env) ≠ wrapLib :: preloads env := by
  have hw : ∀ b ∈ List.replicate 4065 (97 : UInt8), isSep b = false := by
    intro b hb; rw [(List.mem_replicate.mp hb).2]; decide
  have h1 : ∀ n, n ≠ 0 → n ≤ 4065 → libNames [] (List.replicate n (97 : UInt8)) = [List.replicate n 97] := by
    intro n hn hn'
    have := libNames_word (List.replicate n (97 : UInt8)) (by
      intro b hb; rw [(List.mem_replicate.mp hb).2]; decide) [] []
    rw [List.append_nil, List.nil_append] at this
    rw [this, libNames, if_neg]
    intro h
    have := congrArg List.length h
    rw [List.length_replicate] at this
    exact hn this
  refine ⟨List.replicate 4065 97, h1 _ (by decide) (by decide), fun openOk env ho hl => ?_⟩
  have hsub : ∀ n, hasSub wrapLib (List.replicate n 97) = false := by
    intro n
    induction n with
    | zero => decide
    | succ n ih =>
      rw [List.replicate_succ, hasSub, ih, Bool.or_false]
      rfl
  unfold wrapEnv
  rw [if_pos ho, hl]
  dsimp only
  rw [hsub, if_neg (by simp)]
  unfold preloads Env.set
  rw [if_neg preload_ne.1, if_pos rfl, hl]
  show libNames [] ((wrapLib ++ [32] ++ List.replicate 4065 97).take 4095) ≠ wrapLib :: libNames [] (List.replicate 4065 97)
  have he : (wrapLib ++ [32] ++ List.replicate 4065 (97 : UInt8)).take 4095 = wrapLib ++ [32] ++ List.replicate 4064 97 := by
    rw [List.take_append, List.take_of_length_le (by rw [List.length_append, wrapLib_length]; decide),
      List.take_replicate]
    rfl
  rw [he, libNames_wrap, h1 _ (by decide) (by decide), h1 _ (by decide) (by decide)]
  intro h
  simp only [List.cons.injEq, and_true, true_and] at h
  have := congrArg List.length h
  rw [List.length_replicate, List.length_replicate] at this
  exact absurd this (by decide)

/-- C103 is false if the name of the replacement is part of another name: the program is
run without it. -/
theorem C103_false_part : ∃ libs : Bytes, ∀ (openOk : Bytes → Bool) (env : Env), env (ascii "LD_PRELOAD") = some libs →
    wrapEnv openOk env = env ∧ wrapLib ∉ preloads (wrapEnv openOk env) := by
  refine ⟨ascii "/usr/lib/libulog_syslogwrap.so.1", fun openOk env hl => ?_⟩
  have he : wrapEnv openOk env = env := by
    unfold wrapEnv
    by_cases ho : openOk (wrapDev env) = true
    · rw [if_pos ho, hl]; rfl
    · rw [if_neg ho]
  rw [he]
  refine ⟨rfl, ?_⟩
  unfold preloads
  rw [hl]
  decide

end Verif.Tools
