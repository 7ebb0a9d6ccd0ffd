import Verif.Libulog.PropsEnd
import Verif.Libulog.PropsBin
import Verif.Kernel.Examples

/-!
# Concrete runs meeting the hypotheses of the end-to-end properties
-/
namespace Verif.Libulog.Examples
open Verif Verif.Kernel Verif.Kernel.Examples Verif.Libulog

theorem trOf_snoc (ops : List Op) (op : Op) : trOf (ops ++ [op]) = trOf ops ++ [(op, next ops op)] := by
  unfold trOf next; rw [arun_snoc]

/-- After `ops`, call `op` gives `o` and reader 0 can be drained. -/
theorem after {ops : List Op} {op : Op} {o : Out} {r r' : RObs} (h1 : ops.all Op.supported = true) (h2 : op.supported = true)
    (h3 : decide (Genuine (obs dev (trOf (ops ++ [op]))).hist) = true)
    (h4 : decide ((obs dev (trOf (ops ++ [op]))).hist.length < 2147483648) = true)
    (ho : next ops op = o) (hr : (obs dev (trOf ops)).rds 0 = some r)
    (hr' : (obs dev (trOf (ops ++ [op]))).rds 0 = some r') (ha : r'.all = true) :
    ∃ s s' l, Run dev 14 noJunk ops s (trOf ops) ∧ step s op = .ok (s', o) ∧
      (obs dev (trOf ops)).rds 0 = some r ∧ Drains 0 0 5000 s' l := by
  have h3' := of_decide_eq_true h3
  have h4' := of_decide_eq_true h4
  rw [trOf_snoc] at h3' h4' hr'
  have hm := (obsStep_mono dev (obs dev (trOf ops)) (op, next ops op)).1
  rw [obs_snoc] at h3' h4'
  obtain ⟨s, s', h, hs⟩ := reach (buf := noJunk) h1 (decide_eq_true (h3'.prefix hm))
    (decide_eq_true (Nat.lt_of_le_of_lt hm.length_le h4')) op h2
  have hrun := h.snoc h2 hs (by rw [obs_snoc]; exact h3') (by rw [obs_snoc]; exact h4')
  obtain ⟨_, _, _, _, hd⟩ := hrun.drain hr' ha 0 (count := 5000) (by omega)
  exact ⟨s, s', _, h, ho ▸ hs, hr, hd⟩

def opened : List Op := [.openF 0 true true true, .write 0 t2 (txt 3 65) noJunk]
def rawOpened : List Op := opened ++ [.setRaw 0 true (some 1)]
def rd : RObs := { all := true, ver := 2, got := 0, told := 0 }

/-- `C19_text`: level Warning, colour 0x123456. -/
example : ∃ s s' l, Run dev 14 noJunk opened s (trOf opened) ∧
    step s (.write 0 t1 (userVec (writerKernel 0x12345604 (ascii "tag") (ascii "hello" ++ [0]))) noJunk) =
      .ok (s', .ret 14) ∧
    (obs dev (trOf opened)).rds 0 = some rd ∧ Drains 0 0 5000 s' l ∧ (obs dev (trOf opened)).raw 0 = false ∧
    NoNul (ascii "tag") ∧ NoNul (ascii "hello") ∧ prioBinary 0x12345604 = false ∧
    prefixLen t1 + (4 + (3 + 1) + (5 + 1)) ≤ 4076 := by
  obtain ⟨s, s', l, h1, h2, h3, h4⟩ := after (ops := opened)
    (op := .write 0 t1 (userVec (writerKernel 0x12345604 (ascii "tag") (ascii "hello" ++ [0]))) noJunk)
    (o := .ret 14) (r := rd) (r' := rd) (by decide) (by decide) (by decide +kernel) (by decide +kernel)
    (by decide +kernel) (by decide +kernel) (by decide +kernel) rfl
  exact ⟨s, s', l, h1, h2, h3, h4, by decide +kernel, by decide, by decide, by decide, by decide⟩

/-- `C19_binary`: NUL bytes inside. -/
example : ∃ s s' l, Run dev 14 noJunk opened s (trOf opened) ∧
    step s (.write 0 t1 (userVec (writerKernel 0x86 (ascii "tag") [1, 0, 0, 2])) noJunk) = .ok (s', .ret 12) ∧
    (obs dev (trOf opened)).rds 0 = some rd ∧ Drains 0 0 5000 s' l ∧ prioBinary 0x86 = true := by
  obtain ⟨s, s', l, h1, h2, h3, h4⟩ := after (ops := opened)
    (op := .write 0 t1 (userVec (writerKernel 0x86 (ascii "tag") [1, 0, 0, 2])) noJunk)
    (o := .ret 12) (r := rd) (r' := rd) (by decide) (by decide) (by decide +kernel) (by decide +kernel)
    (by decide +kernel) (by decide +kernel) (by decide +kernel) rfl
  exact ⟨s, s', l, h1, h2, h3, h4, by decide⟩

/-- `C20_truncated`: a text of 4100 characters. -/
example : ∃ s s' l, Run dev 14 noJunk opened s (trOf opened) ∧
    step s (.write 0 t1 (userVec (writerKernel 4 (ascii "tag") (List.replicate 4100 65 ++ [0]))) noJunk) =
      .ok (s', .ret 4064) ∧
    (obs dev (trOf opened)).rds 0 = some rd ∧ Drains 0 0 5000 s' l ∧
    prefixLen t1 + (4 + (3 + 1)) + 4056 = 4076 ∧ 4056 < (List.replicate 4100 (65 : UInt8)).length + 1 := by
  obtain ⟨s, s', l, h1, h2, h3, h4⟩ := after (ops := opened)
    (op := .write 0 t1 (userVec (writerKernel 4 (ascii "tag") (List.replicate 4100 65 ++ [0]))) noJunk)
    (o := .ret 4064) (r := rd) (r' := rd) (by decide) (by decide) (by decide +kernel) (by decide +kernel)
    (by decide +kernel) (by decide +kernel) (by decide +kernel) rfl
  exact ⟨s, s', l, h1, h2, h3, h4, by decide, by rw [List.length_replicate]; omega⟩

/-- `C31_bin`: two buffers and an empty one. -/
example : ∃ s s' l, Run dev 14 noJunk opened s (trOf opened) ∧
    step s (.write 0 t1 (userVec (binWritev (ascii "tag" ++ [0]) [[1, 0], [], [2]])) noJunk) = .ok (s', .ret 11) ∧
    (obs dev (trOf opened)).rds 0 = some rd ∧ Drains 0 0 5000 s' l := by
  obtain ⟨s, s', l, h1, h2, h3, h4⟩ := after (ops := opened)
    (op := .write 0 t1 (userVec (binWritev (ascii "tag" ++ [0]) [[1, 0], [], [2]])) noJunk)
    (o := .ret 11) (r := rd) (r' := rd) (by decide) (by decide) (by decide +kernel) (by decide +kernel)
    (by decide +kernel) (by decide +kernel) (by decide +kernel) rfl
  exact ⟨s, s', l, h1, h2, h3, h4⟩

def exRaw : RawEntry :=
  { pid := 5, tid := 6, sec := 7, nsec := 8, euid := 9, prio := 3, pname := ascii "p\x00", tname := ascii "th\x00"
    tag := ascii "tag\x00", message := some (ascii "msg\x00") }
def exRawVec : List Bytes := (rawLog 3 (some exRaw)).getD []

/-- `C32_raw_text` -/
example : rawLog 3 (some exRaw) = some exRawVec ∧
    ∃ s s' l, Run dev 14 noJunk rawOpened s (trOf rawOpened) ∧
    step s (.write 0 t1 (userVec exRawVec) noJunk) = .ok (s', .ret 37) ∧
    (obs dev (trOf rawOpened)).rds 0 = some rd ∧ Drains 0 0 5000 s' l ∧ (obs dev (trOf rawOpened)).raw 0 = true ∧
    exRaw.pname = ascii "p" ++ [0] ∧ exRaw.message = some (ascii "msg" ++ [0]) := by
  obtain ⟨s, s', l, h1, h2, h3, h4⟩ := after (ops := rawOpened) (op := .write 0 t1 (userVec exRawVec) noJunk)
    (o := .ret 37) (r := rd) (r' := rd) (by decide) (by decide) (by decide +kernel) (by decide +kernel)
    (by decide +kernel) (by decide +kernel) (by decide +kernel) rfl
  exact ⟨by decide, s, s', l, h1, h2, h3, h4, by decide +kernel, by decide, by decide⟩

def exBin : RawEntry := { exRaw with message := none, prio := 0x86 }
def exBinVec : List Bytes := (rawLogv 3 (some exBin) [[0, 1], [2]]).getD []

/-- `C32_raw_binary`, `C32_genuine` -/
example : rawLogv 3 (some exBin) [[0, 1], [2]] = some exBinVec ∧ prioBinary exBin.prio = true ∧
    ∃ s s' l, Run dev 14 noJunk rawOpened s (trOf rawOpened) ∧
    step s (.write 0 t1 (userVec exBinVec) noJunk) = .ok (s', .ret 36) ∧
    (obs dev (trOf rawOpened)).rds 0 = some rd ∧ Drains 0 0 5000 s' l := by
  obtain ⟨s, s', l, h1, h2, h3, h4⟩ := after (ops := rawOpened) (op := .write 0 t1 (userVec exBinVec) noJunk)
    (o := .ret 36) (r := rd) (r' := rd) (by decide) (by decide) (by decide +kernel) (by decide +kernel)
    (by decide +kernel) (by decide +kernel) (by decide +kernel) rfl
  exact ⟨by decide, by decide, s, s', l, h1, h2, h3, h4⟩

/-- `C32_reject`: the same entry is refused only because of its ids. -/
example : (rawLogv 3 (some { exRaw with message := none, pid := 0xffffffff, tid := 0xffffffff }) []).isSome = false ∧
    (rawLogv 3 (some { exRaw with message := none, pid := 0xffffffff }) []).isSome = true := by decide

/-- `C33_notice` -/
example : NoNul dev ∧ ∃ s s' bs r, Run dev 14 noJunk lapped s (trOf lapped) ∧ rd0 lapped = some r ∧
    r.all = true ∧ r.ver = 2 ∧ step s (.read 0 0 5000 5000) = .ok (s', .data bs) ∧ isNotice bs = true ∧
    noticeCount dev r.ver bs = 1 := ⟨by decide, lapped_notice⟩

/-- `C29_read`: two buffers, a header, one chunk. -/
example : writevChunk (3 + 1) [9, 9] [[1, 0], [2]] (fun _ => 0) = .ok (0, [[[9, 9], [0], [1, 0], [2]]]) ∧
    0 ∈ t1.pcomm.take 16 ∧ 0 ∈ t1.tcomm.take 16 ∧
    ∃ s s' l, Run dev 14 noJunk opened s (trOf opened) ∧
    step s (.write 0 t1 (userVec (binWritev (ascii "tag" ++ [0]) [[9, 9], [0], [1, 0], [2]])) noJunk) =
      .ok (s', .ret 14) ∧
    (obs dev (trOf opened)).rds 0 = some rd ∧ Drains 0 0 5000 s' l := by
  obtain ⟨s, s', l, h1, h2, h3, h4⟩ := after (ops := opened)
    (op := .write 0 t1 (userVec (binWritev (ascii "tag" ++ [0]) [[9, 9], [0], [1, 0], [2]])) noJunk)
    (o := .ret 14) (r := rd) (r' := rd) (by decide) (by decide) (by decide +kernel) (by decide +kernel)
    (by decide +kernel) (by decide +kernel) (by decide +kernel) rfl
  exact ⟨rfl, by decide, by decide, s, s', l, h1, h2, h3, h4⟩

end Verif.Libulog.Examples
