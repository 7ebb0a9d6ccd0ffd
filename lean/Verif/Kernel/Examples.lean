import Verif.Kernel.ExamplesBase

/-!
# Concrete runs meeting the hypotheses of the driver properties

Each `example` shows that the hypotheses of the theorem named in its comment
are met by a non-trivial run (several entries, a lapped reader, a wrapped ring,
a failed write ...).
-/
namespace Verif.Kernel.Examples
open Verif Verif.Kernel

/-- A reader that sees everything, five big writes by two users (the ring of
16384 bytes overflows), a failed write, a small write. -/
def lapped : List Op :=
  [.openF 0 true true true, .openF 1 true false false,
   .write 0 t1 (txt 4000 65) noJunk, .write 0 t2 (txt 4100 66) noJunk, .write 0 t1 (txt 4000 67) noJunk,
   .write 0 t2 bad noJunk, .write 0 t1 (txt 4000 68) noJunk, .write 0 t2 (txt 4000 69) noJunk,
   .write 0 t1 (txt 3 70) noJunk]

theorem lapped_genuine : decide (Genuine (obs dev (trOf lapped)).hist) = true := by decide +kernel
theorem lapped_count : decide ((obs dev (trOf lapped)).hist.length < 2147483648) = true := by decide +kernel

/-- Reader 0 after the calls in `ops`. -/
def rd0 (ops : List Op) : Option RObs := (obs dev (trOf ops)).rds 0

theorem lapped_rd0 : rd0 lapped = some { all := true, ver := 2, got := 0, told := 0 } := by decide +kernel

/-- `C01_notice`, `C06_lost_is_old`: the first read of the lapped reader is a
notice of one loss. -/
theorem lapped_notice : ∃ s s' bs r, Run dev 14 noJunk lapped s (trOf lapped) ∧ rd0 lapped = some r ∧
    r.all = true ∧ r.ver = 2 ∧ step s (.read 0 0 5000 5000) = .ok (s', .data bs) ∧ isNotice bs = true ∧
    noticeCount dev r.ver bs = 1 := by
  obtain ⟨s, s', h, hs⟩ := reach (buf := noJunk) (ops := lapped) (by decide) lapped_genuine lapped_count
    (.read 0 0 5000 5000) rfl
  obtain ⟨bs, h1, h2⟩ := outData (o := next lapped (.read 0 0 5000 5000))
    (p := fun bs => isNotice bs && decide (noticeCount dev 2 bs = 1)) (by decide +kernel)
  simp only [Bool.and_eq_true, decide_eq_true_eq] at h2
  rw [h1] at hs
  exact ⟨s, s', bs, _, h, lapped_rd0, rfl, rfl, hs, h2.1, h2.2⟩

/-- The lapped reader after it took the notice and one entry. -/
def caughtUp : List Op := lapped ++ [.read 0 0 5000 5000, .read 0 0 5000 5000]

/-- `C01_delivery`, `C04_delivered_committed`: one loss announced, one entry
received, the next read is the third committed entry. -/
example : ∃ s s' bs r, Run dev 14 noJunk caughtUp s (trOf caughtUp) ∧ rd0 caughtUp = some r ∧
    r.all = true ∧ r.got = 1 ∧ r.told = 1 ∧
    step s (.read 0 0 5000 5000) = .ok (s', .data bs) ∧ isNotice bs = false ∧ bs.length = 24 + 5 + 7 + 4000 := by
  obtain ⟨s, s', h, hs⟩ := reach (buf := noJunk) (ops := caughtUp) (by decide) (by decide +kernel) (by decide +kernel)
    (.read 0 0 5000 5000) rfl
  obtain ⟨bs, h1, h2⟩ := outData (o := next caughtUp (.read 0 0 5000 5000))
    (p := fun bs => !isNotice bs && decide (bs.length = 24 + 5 + 7 + 4000)) (by decide +kernel)
  simp only [Bool.and_eq_true, decide_eq_true_eq, Bool.not_eq_true'] at h2
  rw [h1] at hs
  exact ⟨s, s', bs, { all := true, ver := 2, got := 1, told := 1 }, h, by decide +kernel, rfl, rfl, rfl, hs, h2.1, h2.2⟩

/-- `C02_safe` on the same calls. -/
example : ∃ s tr, run (init dev 14 noJunk) caughtUp = .ok (s, tr) :=
  C02_safe noJunk (by omega) (by decide) caughtUp (List.all_eq_true.mp (by decide))

/-- The calls of `lapped` before the failed write. -/
def before : List Op := lapped.take 5

/-- `C04_failed_write`: the write fails, and the reader can be drained before and after. -/
example : ∃ s s' l l' r, Run dev 14 noJunk before s (trOf before) ∧ rd0 before = some r ∧ r.all = true ∧
    step s (.write 0 t2 bad noJunk) = .ok (s', .err .efault) ∧ Drains 0 0 5000 s l ∧ Drains 0 0 5000 s' l' := by
  obtain ⟨s, s', h, hs⟩ := reach (buf := noJunk) (ops := before) (by decide) (by decide +kernel) (by decide +kernel)
    (.write 0 t2 bad noJunk) rfl
  have ho : next before (.write 0 t2 bad noJunk) = .err .efault := by decide +kernel
  rw [ho] at hs
  have hr : rd0 before = some { all := true, ver := 2, got := 0, told := 0 } := by decide +kernel
  obtain ⟨_, _, _, _, hd⟩ := h.drain hr rfl 0 (count := 5000) (by omega)
  have h' := h.snoc (op := .write 0 t2 bad noJunk) rfl hs
    (by rw [C04_not_committed]; rw [List.append_nil]; exact h.genuine)
    (by rw [C04_not_committed]; rw [List.append_nil]; exact h.count)
  obtain ⟨_, _, _, _, hd'⟩ := h'.drain (fid := 0) (r := { all := true, ver := 2, got := 0, told := 0 })
    (by rw [C04_not_committed]; rw [List.append_nil]; exact hr) rfl 0 (count := 5000) (by omega)
  exact ⟨s, s', _, _, _, h, hr, rfl, hs, hd, hd'⟩

/-- `C05_write`: an ordinary write cut short. -/
example : ∃ s s' r, Run dev 14 noJunk before s (trOf before) ∧ rd0 before = some r ∧ r.all = true ∧
    (obs dev (trOf before)).raw 0 = false ∧
    step s (.write 0 t1 (.iovec [List.replicate 4000 (some 1), [], List.replicate 100 (some 2)]) noJunk) =
      .ok (s', .ret 4064) := by
  obtain ⟨s, s', h, hs⟩ := reach (buf := noJunk) (ops := before) (by decide) (by decide +kernel) (by decide +kernel)
    (.write 0 t1 (.iovec [List.replicate 4000 (some 1), [], List.replicate 100 (some 2)]) noJunk) rfl
  have ho : next before (.write 0 t1 (.iovec [List.replicate 4000 (some 1), [], List.replicate 100 (some 2)]) noJunk)
    = .ret 4064 := by decide +kernel
  rw [ho] at hs
  exact ⟨s, s', { all := true, ver := 2, got := 0, told := 0 }, h, by decide +kernel, rfl, by decide +kernel, hs⟩

/-- `C06_retained`: the last two entries of the lapped log are within the bound. -/
example : ∃ s r, Run dev 14 noJunk lapped s (trOf lapped) ∧ rd0 lapped = some r ∧ r.all = true ∧
    (obs dev (trOf lapped)).base + r.got + r.told ≤ 4 ∧
    bytesLen ((obs dev (trOf lapped)).hist.drop 4) + 8200 ≤ 2 ^ 14 ∧
    ((obs dev (trOf lapped)).hist.drop 4).length = 2 := by
  obtain ⟨s, s', h, hs⟩ := reach (buf := noJunk) (ops := lapped) (by decide) lapped_genuine lapped_count
    (.check 0) rfl
  exact ⟨s, _, h, lapped_rd0, rfl, by rw [show (obs dev (trOf lapped)).base = 0 by decide +kernel]; decide,
    by decide +kernel, by decide +kernel⟩

/-- `C06_retained_new`: opening a reader on the lapped log. -/
example : ∃ s s', Run dev 14 noJunk lapped s (trOf lapped) ∧ step s (.openF 9 true false true) = .ok (s', .ok) := by
  obtain ⟨s, s', h, hs⟩ := reach (buf := noJunk) (ops := lapped) (by decide) lapped_genuine lapped_count
    (.openF 9 true false true) rfl
  have ho : next lapped (.openF 9 true false true) = .ok := by decide +kernel
  rw [ho] at hs
  exact ⟨s, s', h, hs⟩

def flushed : List Op := lapped ++ [.flush 0]
def flushedWrite : List Op := flushed ++ [.write 0 t1 (txt 3 71) noJunk]

theorem flushed_tr : trOf flushed = trOf lapped ++ (.flush 0, .ok) :: [] := by
  have e : next lapped (.flush 0) = .ok := by decide +kernel
  have f : trOf flushed = trOf lapped ++ [(.flush 0, next lapped (.flush 0))] := by
    simp only [trOf, flushed, arun_snoc]; rfl
  rw [f, e]

/-- `C07_quiet`: flushed while entries and a loss were pending. -/
example : ∃ s r, Run dev 14 noJunk flushed s (trOf lapped ++ (.flush 0, .ok) :: []) ∧
    (obs dev (trOf lapped ++ (.flush 0, .ok) :: [])).hist.length = (obs dev (trOf lapped)).hist.length ∧
    (obs dev (trOf lapped ++ (.flush 0, .ok) :: [])).rds 0 = some r := by
  obtain ⟨s, s', h, hs⟩ := reach (buf := noJunk) (ops := flushed) (by decide) (by decide +kernel) (by decide +kernel)
    (.check 0) rfl
  rw [flushed_tr] at h
  exact ⟨s, { all := true, ver := 2, got := 0, told := 0 }, h, by decide +kernel, by decide +kernel⟩

/-- `C07_after_flush`: after the flush an entry is written and read. -/
example : ∃ s s' bs r, Run dev 14 noJunk flushedWrite s
      (trOf lapped ++ (.flush 0, .ok) :: [(.write 0 t1 (txt 3 71) noJunk, .ret 3)]) ∧
    (obs dev (trOf lapped ++ (.flush 0, .ok) :: [(.write 0 t1 (txt 3 71) noJunk, .ret 3)])).rds 0 = some r ∧
    step s (.read 0 0 5000 5000) = .ok (s', .data bs) := by
  obtain ⟨s, s', h, hs⟩ := reach (buf := noJunk) (ops := flushedWrite) (by decide) (by decide +kernel)
    (by decide +kernel) (.read 0 0 5000 5000) rfl
  obtain ⟨bs, h1, h2⟩ := outData (o := next flushedWrite (.read 0 0 5000 5000)) (p := fun _ => true) (by decide +kernel)
  rw [h1] at hs
  have e : trOf flushedWrite = trOf lapped ++ (.flush 0, .ok) :: [(.write 0 t1 (txt 3 71) noJunk, .ret 3)] := by
    have e2 : next flushed (.write 0 t1 (txt 3 71) noJunk) = .ret 3 := by decide +kernel
    have f1 : trOf flushedWrite = trOf flushed ++ [(.write 0 t1 (txt 3 71) noJunk, next flushed (.write 0 t1 (txt 3 71) noJunk))] := by
      simp only [trOf, flushedWrite, arun_snoc]; rfl
    rw [f1, flushed_tr, e2, List.append_assoc]; rfl
  rw [e] at h
  exact ⟨s, s', bs, { all := true, ver := 2, got := 0, told := 0 }, h, by decide +kernel, hs⟩

/-- Two users, a version 1 reader that sees everything and a restricted one. -/
def small : List Op :=
  [.openF 0 true true true, .openF 1 true false false, .openF 2 false true false, .setRaw 2 true (some 1),
   .write 0 t2 (txt 5 66) noJunk, .write 0 t1 (txt 3 65) noJunk, .write 0 t1 (txt 2 67) noJunk, .read 0 0 100 100]

theorem small_genuine : decide (Genuine (obs dev (trOf small)).hist) = true := by decide +kernel
theorem small_count : decide ((obs dev (trOf small)).hist.length < 2147483648) = true := by decide +kernel
theorem small_rd0 : rd0 small = some { all := true, ver := 2, got := 1, told := 0 } := by decide +kernel
theorem small_rd1 : (obs dev (trOf small)).rds 1 = some { all := false, ver := 2, got := 0, told := 0 } := by
  decide +kernel

/-- `C08_log_len`: two entries are left. -/
example : ∃ s s' l r, Run dev 14 noJunk small s (trOf small) ∧ rd0 small = some r ∧ r.all = true ∧
    step s (.getLogLen 0) = .ok (s', .ret 77) ∧ Drains 0 0 5000 s l := by
  obtain ⟨s, s', h, hs⟩ := reach (buf := noJunk) (ops := small) (by decide) small_genuine small_count (.getLogLen 0) rfl
  have ho : next small (.getLogLen 0) = .ret 77 := by decide +kernel
  rw [ho] at hs
  obtain ⟨_, _, _, _, hd⟩ := h.drain small_rd0 rfl 0 (count := 5000) (by omega)
  exact ⟨s, s', _, _, h, small_rd0, rfl, hs, hd⟩

/-- A step from the state reached by `ops`, when the state is given. -/
theorem step_of_run {ops : List Op} {s : Sys} (h : Run dev 14 noJunk ops s (trOf ops)) (op : Op)
    (h4 : op.supported = true) : ∃ s', step s op = .ok (s', next ops op) := by
  obtain ⟨G, c, e, hr⟩ := run_refines ops (init_rel (name := dev) (k := 14) noJunk (by omega) h.nameLen) h.sup
  rw [h.run] at e
  injection e with e
  injection e with e1 e2
  obtain ⟨_, s', e', _⟩ := step_refines hr op h4
  rw [← e1] at e'
  exact ⟨s', e'⟩

/-- `C09_next_len`, for the restricted reader, which first has to pass
an entry of another user. -/
example : ∃ s s1 s2 bs r, Run dev 14 noJunk small s (trOf small) ∧ (obs dev (trOf small)).rds 1 = some r ∧
    step s (.getNextLen 1 1000) = .ok (s1, .ret 39) ∧ step s (.read 1 1000 4100 4100) = .ok (s2, .data bs) ∧
    isNotice bs = false := by
  obtain ⟨s, s1, h, hs⟩ := reach (buf := noJunk) (ops := small) (by decide) small_genuine small_count
    (.getNextLen 1 1000) rfl
  have ho : next small (.getNextLen 1 1000) = .ret 39 := by decide +kernel
  rw [ho] at hs
  obtain ⟨s2, hs2⟩ := step_of_run h (.read 1 1000 4100 4100) rfl
  obtain ⟨bs, h1, h2⟩ := outData (o := next small (.read 1 1000 4100 4100)) (p := fun bs => !isNotice bs)
    (by decide +kernel)
  rw [h1] at hs2
  exact ⟨s, s1, s2, bs, _, h, small_rd1, hs, hs2, by simpa using h2⟩

/-- `C10_poll`, `C10_poll_keeps`: readable for user 1000, not for user 1002. -/
example : ∃ s s1 s2 r, Run dev 14 noJunk small s (trOf small) ∧ (obs dev (trOf small)).rds 1 = some r ∧
    step s (.poll 1 1000) = .ok (s1, .poll true) ∧ step s (.poll 1 1002) = .ok (s2, .poll false) := by
  obtain ⟨s, s1, h, hs⟩ := reach (buf := noJunk) (ops := small) (by decide) small_genuine small_count (.poll 1 1000) rfl
  obtain ⟨s2, hs2⟩ := step_of_run h (.poll 1 1002) rfl
  rw [show next small (.poll 1 1000) = .poll true by decide +kernel] at hs
  rw [show next small (.poll 1 1002) = .poll false by decide +kernel] at hs2
  exact ⟨s, s1, s2, _, h, small_rd1, hs, hs2⟩

/-- `C11_failed_read`: buffer too small, and buffer that faults. -/
example : ∃ s s1 s2, Run dev 14 noJunk small s (trOf small) ∧
    step s (.read 1 1000 38 38) = .ok (s1, .err .einval) ∧
    step s (.read 1 1000 100 30) = .ok (s2, .err .efault) := by
  obtain ⟨s, s1, h, hs⟩ := reach (buf := noJunk) (ops := small) (by decide) small_genuine small_count
    (.read 1 1000 38 38) rfl
  obtain ⟨s2, hs2⟩ := step_of_run h (.read 1 1000 100 30) rfl
  rw [show next small (.read 1 1000 38 38) = .err .einval by decide +kernel] at hs
  rw [show next small (.read 1 1000 100 30) = .err .efault by decide +kernel] at hs2
  exact ⟨s, s1, s2, h, hs, hs2⟩

/-- `C12_versions`: both continuations read an entry. -/
example : (∃ bs, next (small ++ [.setVersion 0 (some 1)]) (.read 0 0 100 100) = .data bs ∧ (bs.length == 35) = true) ∧
    (∃ bs, next (small ++ [.setVersion 0 (some 2)]) (.read 0 0 100 100) = .data bs ∧ (bs.length == 39) = true) :=
  ⟨outData (p := fun bs => bs.length == 35) (by decide +kernel), outData (p := fun bs => bs.length == 39) (by decide +kernel)⟩

/-- `C16_raw`, `C16_raw_short`: a raw file and writes of 40, 20 and 19 bytes. -/
example : ∃ s s1 s2 s3, Run dev 14 noJunk small s (trOf small) ∧ (obs dev (trOf small)).raw 2 = true ∧
    step s (.write 2 t1 (.iovec [List.replicate 7 (some 1), List.replicate 33 (some 2)]) noJunk) = .ok (s1, .ret 40) ∧
    step s (.write 2 t1 (txt 20 1) noJunk) = .ok (s2, .ret 0) ∧
    step s (.write 2 t1 (txt 19 1) noJunk) = .ok (s3, .err .einval) := by
  obtain ⟨s, s1, h, hs⟩ := reach (buf := noJunk) (ops := small) (by decide) small_genuine small_count
    (.write 2 t1 (.iovec [List.replicate 7 (some 1), List.replicate 33 (some 2)]) noJunk) rfl
  obtain ⟨s2, hs2⟩ := step_of_run h (.write 2 t1 (txt 20 1) noJunk) rfl
  obtain ⟨s3, hs3⟩ := step_of_run h (.write 2 t1 (txt 19 1) noJunk) rfl
  rw [show next small (.write 2 t1 (.iovec [List.replicate 7 (some 1), List.replicate 33 (some 2)]) noJunk) = .ret 40
    by decide +kernel] at hs
  rw [show next small (.write 2 t1 (txt 20 1) noJunk) = .ret 0 by decide +kernel] at hs2
  rw [show next small (.write 2 t1 (txt 19 1) noJunk) = .err .einval by decide +kernel] at hs3
  exact ⟨s, s1, s2, s3, h, by decide +kernel, hs, hs2, hs3⟩

end Verif.Kernel.Examples
