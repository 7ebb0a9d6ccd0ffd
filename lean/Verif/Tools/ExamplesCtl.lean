import Verif.Tools.PropsCtlNet

/-!
# Concrete runs of the control client and server
-/
namespace Verif.Tools.Examples
open Verif Verif.Tools Verif.Libulog

/-- Insertion sort by name. -/
def ins (t : Bytes × Int) : List (Bytes × Int) → List (Bytes × Int)
  | [] => [t]
  | u :: l => if bytesLe t.1 u.1 then t :: u :: l else u :: ins t l

def isort : List (Bytes × Int) → List (Bytes × Int)
  | [] => []
  | t :: l => ins t (isort l)

theorem bytesLe_total : ∀ a b : Bytes, bytesLe a b = true ∨ bytesLe b a = true := by
  intro a
  induction a with
  | nil => intro b; left; cases b <;> rfl
  | cons x a ih =>
    intro b
    cases b with
    | nil => right; rfl
    | cons y b =>
      simp only [bytesLe]
      by_cases h : x = y
      · simp [h, ih b]
      · have h' : ¬ y = x := fun e => h e.symm
        simp only [h, h', if_false, decide_eq_true_eq]
        have : x.toNat ≠ y.toNat := fun e => h (UInt8.toNat_inj.mp e)
        rw [UInt8.lt_iff_toNat_lt, UInt8.lt_iff_toNat_lt]
        omega

theorem bytesLe_trans : ∀ a b c : Bytes, bytesLe a b = true → bytesLe b c = true → bytesLe a c = true := by
  intro a
  induction a with
  | nil => intro b c _ _; cases c <;> rfl
  | cons x a ih =>
    intro b c h1 h2
    cases b with
    | nil => simp [bytesLe] at h1
    | cons y b =>
      cases c with
      | nil => simp [bytesLe] at h2
      | cons z c =>
        simp only [bytesLe] at *
        by_cases hxy : x = y
        · subst hxy
          by_cases hxz : x = z
          · simp only [hxz, if_true] at *; exact ih b c h1 h2
          · simp only [hxz, if_false] at *; exact h2
        · simp only [hxy, if_false, decide_eq_true_eq] at h1
          by_cases hyz : y = z
          · subst hyz; simp only [hxy, if_false, decide_eq_true_eq]; exact h1
          · simp only [hyz, if_false, decide_eq_true_eq] at h2
            have hlt := UInt8.lt_trans h1 h2
            have : x ≠ z := by intro e; subst e; exact UInt8.lt_irrefl _ hlt
            simp only [this, if_false, decide_eq_true_eq]; exact hlt

theorem ins_mem {t u : Bytes × Int} {l : List (Bytes × Int)} (h : u ∈ ins t l) : u = t ∨ u ∈ l := by
  induction l with
  | nil => simpa [ins] using h
  | cons v l ih =>
    simp only [ins] at h
    split at h
    · simpa using h
    · rcases List.mem_cons.mp h with h | h
      · right; simp [h]
      · rcases ih h with h | h
        · exact Or.inl h
        · right; simp [h]

/-- The hypothesis `Sorts` of C45_list can be met. -/
theorem isort_sorts : Sorts isort := by
  intro l
  induction l with
  | nil => exact ⟨List.Perm.nil, List.Pairwise.nil⟩
  | cons t l ih =>
    have hins : ∀ l : List (Bytes × Int), (ins t l).Perm (t :: l) ∧
        (l.Pairwise (fun a b => bytesLe a.1 b.1 = true) → (ins t l).Pairwise fun a b => bytesLe a.1 b.1 = true) := by
      intro l
      induction l with
      | nil => exact ⟨List.Perm.refl _, fun _ => by simp [ins]⟩
      | cons u l ih =>
        simp only [ins]
        split
        · rename_i h
          refine ⟨List.Perm.refl _, fun hp => ?_⟩
          refine List.pairwise_cons.mpr ⟨?_, hp⟩
          intro v hv
          rcases List.mem_cons.mp hv with rfl | hv
          · exact h
          · exact bytesLe_trans _ _ _ h ((List.pairwise_cons.mp hp).1 v hv)
        · rename_i h
          refine ⟨(List.Perm.cons u ih.1).trans (List.Perm.swap t u l), fun hp => ?_⟩
          obtain ⟨h1, h2⟩ := List.pairwise_cons.mp hp
          refine List.pairwise_cons.mpr ⟨?_, ih.2 h2⟩
          intro v hv
          rcases ins_mem hv with rfl | hv
          · rcases bytesLe_total v.1 u.1 with h' | h'
            · exact absurd h' h
            · exact h'
          · exact h1 v hv
    exact ⟨(hins _).1.trans (List.Perm.cons t ih.1), (hins _).2 ih.2⟩

/-- Tags 1 and 2 are `b` and `a`; tag 3 is another `a`. -/
def names : Cid → Bytes := fun c => if c = 1 then ascii "b" else if c = 2 then ascii "a" else if c = 3 then ascii "a" else []

def calls : List (World × WOp) := [(bareWorld, .init 0), (bareWorld, .setLevel 1 3), (bareWorld, .init 2)]

/-- A process that used the default tag and tags 1 and 2. -/
example : ∃ s tr, WRun names calls s tr ∧ used (calls.map Prod.snd) = [2, 1, 0] ∧
    s.list = [2, 1, 0] ∧ s.level 1 = 3 ∧ s.level 2 = 6 := ⟨_, _, rfl, by decide, rfl, by decide +kernel, by decide +kernel⟩

/-- C45: what a client is told. -/
def ask : List CEv :=
  [.start true, .connected true, .request .list true true true, .reply (.info (ascii "b") 3), .reply (.info (ascii "a") 6), .reply .listEnd, .ret, .ret, .ret]
example : (crun isort Cli.new ask).2 = [.dial, .send .list, .accepted .list, .status true, .info (ascii "a") 6, .info (ascii "b") 3] := by decide +kernel

/-- C44: a fair run with two requests and calls inside a callback. -/
example : ∃ c m o, FairRun isort ([] ++ [.start true] ++ [.request (.setAll 4) true true true] ++ [.connected true] ++ [.sendCb false] ++
    [.request .list true true true] ++ [.ret] ++ [.request .list true true true] ++ [.stop] ++ [.ret]) c m o ∧
    o = [.dial, .accepted (.setAll 4), .send (.setAll 4), .status true, .refused, .send .list, .accepted .list, .status false, .hangup] ∧
    m = Mon.new := by
  refine ⟨_, _, _, .step (.step (.step (.step (.step (.step (.step (.step (.step .nil ?_) ?_) ?_) ?_) ?_) ?_) ?_) ?_) ?_, ?_, ?_⟩
  · trivial
  · trivial
  · exact ⟨rfl, fun _ => rfl⟩
  · rfl
  · trivial
  · trivial
  · trivial
  · show true ∉ _; decide +kernel
  · trivial
  · decide +kernel
  · decide +kernel

/-- C44_single: its runs are not empty: a list asked for and received. -/
example : ∃ n m, SoloRun isort names Lib.start n m ∧ m = { pend := none, cbs := [true], bad := false } := by
  refine ⟨_, _, .step (w := bareWorld) (e := .deliver 0) (.step (w := bareWorld) (e := .serve 0)
    (.step (w := bareWorld) (e := .client 0 (.request .list true true true)) (.step (w := bareWorld) (e := .connect 0 true)
      (.step (w := bareWorld) (e := .client 0 (.start true)) (.nil _) ?_) ?_) ?_) ?_) ?_, ?_⟩
  · exact ⟨rfl, trivial, by simp, by simp⟩
  · exact ⟨rfl, ⟨rfl, fun _ => rfl⟩, rfl, rfl⟩
  · exact ⟨rfl, trivial, by simp, by simp⟩
  · trivial
  · rfl
  · rfl

/-- C45_false_twin: two tags with one name, the newer one changes. -/
example : ∃ s tr, WRun names (calls ++ [(bareWorld, .init 3)]) s tr ∧ (serve names bareWorld s (.setTag (ascii "a") 1)).1.level 3 = 1 ∧
    (serve names bareWorld s (.setTag (ascii "a") 1)).1.level 2 = 6 := ⟨_, _, rfl, by decide +kernel, by decide +kernel⟩

/-- C46: the address of a process. -/
example : cliAddr (ascii "daemon") = some ([1, 0, 0] ++ ascii "ulogctl_daemon") ∧ srvProcAddr (ascii "daemon") = cliAddr (ascii "daemon") := by decide +kernel

end Verif.Tools.Examples
