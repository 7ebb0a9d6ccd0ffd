import Verif.Libulog.EndToEnd

/-!
# End-to-end properties (C19, C20, C31, C32, C33)
-/
namespace Verif.Libulog
open Verif Verif.Kernel

/-- The bytes `bs` returned by a read, at the start of any buffer, are decoded
by `ulog_parse_buf` as `d` with the given ids and time. -/
def ReadsAs (bs : Bytes) (pid tid sec nsec : UInt32) (d : Decoded) : Prop :=
  ∀ rest, ∃ m' x, parseBuf (bs ++ rest) = some (m', x) ∧ Shows m' 24 bs.length x d ∧
    x.pid = pid ∧ x.tid = tid ∧ x.sec = sec ∧ x.nsec = nsec

theorem readsAs_view {e : Entry} (hl : e.payload.length < 65536) :
    ReadsAs (e.view 2) e.pid e.tid e.sec e.nsec (decode (e.pid != e.tid) e.payload) := by
  intro rest
  obtain ⟨m', x, h1, _, h3, h4⟩ := parse_view hl rest
  have : (e.view 2).length = 24 + e.payload.length := by
    simp only [Entry.view, Entry.encode, Entry.header]
    simp
    omega
  exact ⟨m', x, h1, this ▸ h3, h4⟩

theorem specPayload_length (t : Task) (d : Bytes) : (specPayload t d).length < 65536 := by
  unfold specPayload
  rw [List.length_take]
  omega

/-- Everything decoded from an entry of task `t` other than its message. -/
def by_ (t : Task) (prio : UInt32) (tag : Bytes) (msg : Msg) : Decoded :=
  { pname := taskName t.pcomm, tname := threadName t, tag, level := prioLevel prio, color := prioColor prio, msg }

/-- A write of a priority word, a tag and message bytes, seen by a reader. -/
theorem write_reads {name k buf ops s tr} (h : Run name k buf ops s tr) {fid : Nat} {t : Task} {junk : Nat → UInt8}
    {s' : Sys} {n : Nat} {prio : UInt32} {tag msg : Bytes} {v : List Bytes}
    (hv : v.flatten = le32 prio ++ tag ++ 0 :: msg)
    (hs : step s (.write fid t (userVec v) junk) = .ok (s', .ret n))
    (hraw : (obs name tr).raw fid = false) (ht : NoNul tag)
    (hroom : prefixLen t + (4 + tag.length + 1) ≤ 4076)
    {fid' : Nat} {euid : UInt32} {count : Nat} {r : RObs} {l : List Bytes}
    (hr : (obs name tr).rds fid' = some r) (hall : r.all = true) (hver : r.ver = 2) (hc : 4100 ≤ count)
    (hd : Drains fid' euid count s' l) :
    ∃ l' bs, l = l' ++ [bs] ∧ ReadsAs bs t.pid t.tid t.sec t.nsec
      (let m := msg.take (4076 - prefixLen t - (4 + tag.length + 1))
       if prioBinary prio then by_ t prio tag (.bin m)
       else if m = [] then unformatted [] else by_ t prio tag (.text (clip m))) := by
  obtain ⟨_, _, h3⟩ := C05_write h (userVec_supported v) hs hraw
  obtain ⟨l', hl⟩ := h3 fid' euid count r l hr hall hc hd
  refine ⟨l', _, hl, ?_⟩
  rw [hver]
  have := readsAs_view (e := plainSpec t (userVec v).bytes) (by
    simp only [plainSpec]; exact specPayload_length _ _)
  simp only [plainSpec] at this ⊢
  rw [userVec_bytes, hv] at this ⊢
  rw [decode_plain hroom, decodeBody_prio ht] at this
  exact this

/-! ## C19 -/

/-- C19, text. A text logged through the kernel writer that fits the entry limit
is decoded by every reader as the same names, tag, level, colour and text. -/
theorem C19_text {name k buf ops s tr} (h : Run name k buf ops s tr) {fid : Nat} {t : Task} {junk : Nat → UInt8}
    {s' : Sys} {n : Nat} {prio : UInt32} {tag text : Bytes}
    (hs : step s (.write fid t (userVec (writerKernel prio tag (text ++ [0]))) junk) = .ok (s', .ret n))
    (hraw : (obs name tr).raw fid = false) (ht : NoNul tag) (hm : NoNul text) (hb : prioBinary prio = false)
    (hfit : prefixLen t + (4 + (tag.length + 1) + (text.length + 1)) ≤ 4076)
    {fid' : Nat} {euid : UInt32} {count : Nat} {r : RObs} {l : List Bytes}
    (hr : (obs name tr).rds fid' = some r) (hall : r.all = true) (hver : r.ver = 2) (hc : 4100 ≤ count)
    (hd : Drains fid' euid count s' l) :
    ∃ l' bs, l = l' ++ [bs] ∧ ReadsAs bs t.pid t.tid t.sec t.nsec
      { pname := taskName t.pcomm, tname := if t.pid = t.tid then taskName t.pcomm else taskName t.tcomm, tag
        level := prio.toNat % 8, color := prio.toNat / 256, msg := .text text } := by
  have := write_reads h (prio := prio) (tag := tag) (msg := text ++ [0]) (by simp [writerKernel]) hs hraw ht (by omega)
    hr hall hver hc hd
  rw [List.take_of_length_le (by simp; omega)] at this
  simp only [hb, Bool.false_eq_true, if_false] at this
  rw [if_neg (by simp), show text ++ [0] = text ++ 0 :: [] from rfl, clip_terminated hm] at this
  exact this

/-- C19, binary. Any bytes logged with the binary flag come back unchanged. -/
theorem C19_binary {name k buf ops s tr} (h : Run name k buf ops s tr) {fid : Nat} {t : Task} {junk : Nat → UInt8}
    {s' : Sys} {n : Nat} {prio : UInt32} {tag data : Bytes}
    (hs : step s (.write fid t (userVec (writerKernel prio tag data)) junk) = .ok (s', .ret n))
    (hraw : (obs name tr).raw fid = false) (ht : NoNul tag) (hb : prioBinary prio = true)
    (hfit : prefixLen t + (4 + (tag.length + 1) + data.length) ≤ 4076)
    {fid' : Nat} {euid : UInt32} {count : Nat} {r : RObs} {l : List Bytes}
    (hr : (obs name tr).rds fid' = some r) (hall : r.all = true) (hver : r.ver = 2) (hc : 4100 ≤ count)
    (hd : Drains fid' euid count s' l) :
    ∃ l' bs, l = l' ++ [bs] ∧ ReadsAs bs t.pid t.tid t.sec t.nsec
      { pname := taskName t.pcomm, tname := if t.pid = t.tid then taskName t.pcomm else taskName t.tcomm, tag
        level := prio.toNat % 8, color := prio.toNat / 256, msg := .bin data } := by
  have := write_reads h (prio := prio) (tag := tag) (msg := data) (by simp [writerKernel]) hs hraw ht (by omega)
    hr hall hver hc hd
  rw [List.take_of_length_le (by omega)] at this
  simp only [hb, if_true] at this
  exact this

/-! ## C20 -/

/-- C20. A text that does not fit is delivered as the longest prefix that leaves
room for its NUL, with the right names, tag, level and colour. -/
theorem C20_truncated {name k buf ops s tr} (h : Run name k buf ops s tr) {fid : Nat} {t : Task} {junk : Nat → UInt8}
    {s' : Sys} {n room : Nat} {prio : UInt32} {tag text : Bytes}
    (hs : step s (.write fid t (userVec (writerKernel prio tag (text ++ [0]))) junk) = .ok (s', .ret n))
    (hraw : (obs name tr).raw fid = false) (ht : NoNul tag) (hm : NoNul text) (hb : prioBinary prio = false)
    (hroom : prefixLen t + (4 + (tag.length + 1)) + room = 4076) (h1 : 1 ≤ room) (hlong : room < text.length + 1)
    {fid' : Nat} {euid : UInt32} {count : Nat} {r : RObs} {l : List Bytes}
    (hr : (obs name tr).rds fid' = some r) (hall : r.all = true) (hver : r.ver = 2) (hc : 4100 ≤ count)
    (hd : Drains fid' euid count s' l) :
    ∃ l' bs, l = l' ++ [bs] ∧ ReadsAs bs t.pid t.tid t.sec t.nsec
      { pname := taskName t.pcomm, tname := if t.pid = t.tid then taskName t.pcomm else taskName t.tcomm, tag
        level := prio.toNat % 8, color := prio.toNat / 256, msg := .text (text.take (room - 1)) } := by
  have := write_reads h (prio := prio) (tag := tag) (msg := text ++ [0]) (by simp [writerKernel]) hs hraw ht (by omega)
    hr hall hver hc hd
  rw [show 4076 - prefixLen t - (4 + tag.length + 1) = room by omega,
    List.take_append_of_le_length (by omega)] at this
  simp only [hb, Bool.false_eq_true, if_false] at this
  have hlen : (text.take room).length = room := by rw [List.length_take]; omega
  have hne : text.take room ≠ [] := fun hx => by rw [hx] at hlen; simp at hlen; omega
  have hnn : (0 : UInt8) ∉ text.take room := fun hx => hm 0 (List.mem_of_mem_take hx) rfl
  rw [if_neg hne] at this
  have hclip : clip (text.take room) = text.take (room - 1) := by
    unfold clip
    rw [if_neg hnn, List.dropLast_eq_take, hlen, List.take_take]
    congr 1
    omega
  rw [hclip] at this
  exact this

/-! ## C31 -/

/-- C31. A binary write that fits is decoded as a binary Info entry with the
given tag, whose message is the concatenation of the buffers. -/
theorem C31_bin {name k buf ops s tr} (h : Run name k buf ops s tr) {fid : Nat} {t : Task} {junk : Nat → UInt8}
    {s' : Sys} {n : Nat} {tag : Bytes} {iov : List Bytes}
    (hs : step s (.write fid t (userVec (binWritev (tag ++ [0]) iov)) junk) = .ok (s', .ret n))
    (hraw : (obs name tr).raw fid = false) (ht : NoNul tag)
    (hfit : prefixLen t + (4 + (tag.length + 1) + iov.flatten.length) ≤ 4076)
    {fid' : Nat} {euid : UInt32} {count : Nat} {r : RObs} {l : List Bytes}
    (hr : (obs name tr).rds fid' = some r) (hall : r.all = true) (hver : r.ver = 2) (hc : 4100 ≤ count)
    (hd : Drains fid' euid count s' l) :
    ∃ l' bs, l = l' ++ [bs] ∧ ReadsAs bs t.pid t.tid t.sec t.nsec
      { pname := taskName t.pcomm, tname := if t.pid = t.tid then taskName t.pcomm else taskName t.tcomm, tag
        level := 6, color := 0, msg := .bin iov.flatten } := by
  have := write_reads h (prio := 134) (tag := tag) (msg := iov.flatten) (by simp [binWritev]) hs hraw ht (by omega)
    hr hall hver hc hd
  rw [List.take_of_length_le (by omega)] at this
  exact this

/-! ## C32 -/

/-- C32. The library refuses a raw entry that looks like a drop notice. -/
theorem C32_reject (fd : Int) (r : RawEntry) (hp : r.pid = 0xffffffff) (ht : r.tid = 0xffffffff) (iov : List Bytes) :
    rawLogv fd (some r) iov = none ∧ rawLog fd (some r) = none := by
  constructor
  · simp only [rawLogv]
    split
    · rfl
    · simp [hp, ht]
  · simp only [rawLog, rawLogv]
    split
    · rfl
    · simp [hp, ht]

theorem word_le32 (a : Bytes) (x : UInt32) (b : Bytes) : word (a ++ le32 x ++ b) a.length = x := by
  unfold word
  simp only [le32, List.append_assoc, List.cons_append, List.nil_append]
  simp only [List.getD_eq_getElem?_getD]
  rw [List.getElem?_append_right (by omega), List.getElem?_append_right (by omega),
    List.getElem?_append_right (by omega), List.getElem?_append_right (by omega)]
  simp only [show a.length + 1 - a.length = 1 by omega, show a.length + 2 - a.length = 2 by omega,
    show a.length + 3 - a.length = 3 by omega, Nat.sub_self]
  exact unle32_le32 x

/-- The entry the driver stores for raw bytes with a given header. -/
theorem rawSpec_header (pid tid sec nsec euid : UInt32) (b : Bytes) :
    rawSpec (le32 pid ++ le32 tid ++ le32 sec ++ le32 nsec ++ le32 euid ++ b) =
      { pid, tid, sec, nsec, euid, payload := b.take 4076 } := by
  have w0 := word_le32 [] pid (le32 tid ++ le32 sec ++ le32 nsec ++ le32 euid ++ b)
  have w1 := word_le32 (le32 pid) tid (le32 sec ++ le32 nsec ++ le32 euid ++ b)
  have w2 := word_le32 (le32 pid ++ le32 tid) sec (le32 nsec ++ le32 euid ++ b)
  have w3 := word_le32 (le32 pid ++ le32 tid ++ le32 sec) nsec (le32 euid ++ b)
  have w4 := word_le32 (le32 pid ++ le32 tid ++ le32 sec ++ le32 nsec) euid b
  simp only [List.length_append, le32_length, List.length_nil, List.nil_append, List.append_assoc] at w0 w1 w2 w3 w4
  unfold rawSpec
  simp only [List.append_assoc]
  rw [w0, w1, w2, w3, w4]
  congr 1

/-- A raw write through the library, seen by a reader, when it fits. -/
theorem raw_reads {name k buf ops s tr} (h : Run name k buf ops s tr) {fid : Nat} {t : Task} {junk : Nat → UInt8}
    {s' : Sys} {n : Nat} {fd : Int} {r : RawEntry} {iov v : List Bytes} {pn tn tag : Bytes}
    (hv : rawLogv fd (some r) iov = some v)
    (hpn : r.pname = pn ++ [0]) (htn : r.tname = tn ++ [0]) (htag : r.tag = tag ++ [0])
    (n1 : NoNul pn) (n2 : NoNul tn)
    (hfit : (pn.length + 1) + (if r.pid = r.tid then 0 else tn.length + 1) + 4 + (tag.length + 1) +
      iov.flatten.length ≤ 4076)
    (hs : step s (.write fid t (userVec v) junk) = .ok (s', .ret n))
    (hraw : (obs name tr).raw fid = true)
    {fid' : Nat} {euid : UInt32} {count : Nat} {x : RObs} {l : List Bytes}
    (hr : (obs name tr).rds fid' = some x) (hall : x.all = true) (hver : x.ver = 2) (hc : 4100 ≤ count)
    (hd : Drains fid' euid count s' l) :
    ∃ l' bs, l = l' ++ [bs] ∧ ReadsAs bs r.pid r.tid r.sec r.nsec
      (decodeBody pn (if r.pid = r.tid then pn else tn) (le32 r.prio ++ tag ++ 0 :: iov.flatten)) := by
  simp only [rawLogv] at hv
  split at hv
  · cases hv
  split at hv
  · cases hv
  injection hv with hv
  generalize hmsg : iov.flatten = msg at *
  generalize hP : pn ++ 0 :: ((if r.pid = r.tid then [] else tn ++ [0]) ++ (le32 r.prio ++ tag ++ 0 :: msg)) = P
  have hflat : v.flatten = le32 r.pid ++ le32 r.tid ++ le32 r.sec ++ le32 r.nsec ++ le32 r.euid ++ P := by
    rw [← hv, ← hP, hpn, htn, htag]
    by_cases he : r.pid = r.tid
    · simp [he, hmsg]
    · simp [he, hmsg]
  have hlen : P.length ≤ 4076 ∧ 0 < P.length := by
    rw [← hP]
    by_cases he : r.pid = r.tid
    · rw [if_pos he] at hfit
      simp only [if_pos he, List.length_append, List.length_cons, List.length_nil, le32_length]
      omega
    · rw [if_neg he] at hfit
      simp only [if_neg he, List.length_append, List.length_cons, List.length_nil, le32_length]
      omega
  obtain ⟨_, h3⟩ := C16_raw h (userVec_supported v) hs hraw (by
    rw [userVec_bytes, hflat]; simp only [List.length_append, le32_length]; omega)
  obtain ⟨l', hl⟩ := h3 fid' euid count x l hr hall hc hd
  refine ⟨l', _, hl, ?_⟩
  rw [hver, userVec_bytes, hflat, rawSpec_header, List.take_of_length_le hlen.1]
  have := readsAs_view (e := ⟨r.pid, r.tid, r.sec, r.nsec, r.euid, P⟩) (by simp only; omega)
  simp only at this
  have hdec : decode (r.pid != r.tid) P =
      decodeBody pn (if r.pid = r.tid then pn else tn) (le32 r.prio ++ tag ++ 0 :: msg) := by
    rw [← hP]
    by_cases he : r.pid = r.tid
    · have hb' : (r.pid != r.tid) = false := by simpa using he
      rw [hb', if_pos he, if_pos he, List.nil_append, decode_one n1]
    · have hb' : (r.pid != r.tid) = true := by simpa using he
      rw [hb', if_neg he, if_neg he, List.append_assoc, List.singleton_append, decode_two n1 n2]
  rw [hdec] at this
  exact this

/-- C32, text. A raw entry with terminated strings that the library accepts and
the driver stores is decoded by every reader with exactly the given ids, time,
names, level, colour, tag and text. -/
theorem C32_raw_text {name k buf ops s tr} (h : Run name k buf ops s tr) {fid : Nat} {t : Task} {junk : Nat → UInt8}
    {s' : Sys} {n : Nat} {fd : Int} {r : RawEntry} {v : List Bytes} {pn tn tag text : Bytes}
    (hv : rawLog fd (some r) = some v)
    (hpn : r.pname = pn ++ [0]) (htn : r.tname = tn ++ [0]) (htag : r.tag = tag ++ [0])
    (hmsg : r.message = some (text ++ [0]))
    (n1 : NoNul pn) (n2 : NoNul tn) (n3 : NoNul tag) (n4 : NoNul text) (hb : prioBinary r.prio = false)
    (hfit : (pn.length + 1) + (if r.pid = r.tid then 0 else tn.length + 1) + 4 + (tag.length + 1) +
      (text.length + 1) ≤ 4076)
    (hs : step s (.write fid t (userVec v) junk) = .ok (s', .ret n))
    (hraw : (obs name tr).raw fid = true)
    {fid' : Nat} {euid : UInt32} {count : Nat} {x : RObs} {l : List Bytes}
    (hr : (obs name tr).rds fid' = some x) (hall : x.all = true) (hver : x.ver = 2) (hc : 4100 ≤ count)
    (hd : Drains fid' euid count s' l) :
    ∃ l' bs, l = l' ++ [bs] ∧ ReadsAs bs r.pid r.tid r.sec r.nsec
      { pname := pn, tname := if r.pid = r.tid then pn else tn, tag
        level := r.prio.toNat % 8, color := r.prio.toNat / 256, msg := .text text } := by
  have := raw_reads h (r := { r with message := none }) (iov := [r.message.getD []]) hv hpn htn htag n1 n2
    (by simpa [hmsg] using hfit) hs hraw hr hall hver hc hd
  simp only [hmsg, Option.getD_some, List.flatten_cons, List.flatten_nil, List.append_nil] at this
  rw [decodeBody_prio n3, hb] at this
  simp only [Bool.false_eq_true, if_false] at this
  rw [if_neg (by simp), show text ++ [0] = text ++ 0 :: [] from rfl, clip_terminated n4] at this
  exact this

/-- C32, binary, message given as a vector. -/
theorem C32_raw_binary {name k buf ops s tr} (h : Run name k buf ops s tr) {fid : Nat} {t : Task} {junk : Nat → UInt8}
    {s' : Sys} {n : Nat} {fd : Int} {r : RawEntry} {iov v : List Bytes} {pn tn tag : Bytes}
    (hv : rawLogv fd (some r) iov = some v)
    (hpn : r.pname = pn ++ [0]) (htn : r.tname = tn ++ [0]) (htag : r.tag = tag ++ [0])
    (n1 : NoNul pn) (n2 : NoNul tn) (n3 : NoNul tag) (hb : prioBinary r.prio = true)
    (hfit : (pn.length + 1) + (if r.pid = r.tid then 0 else tn.length + 1) + 4 + (tag.length + 1) +
      iov.flatten.length ≤ 4076)
    (hs : step s (.write fid t (userVec v) junk) = .ok (s', .ret n))
    (hraw : (obs name tr).raw fid = true)
    {fid' : Nat} {euid : UInt32} {count : Nat} {x : RObs} {l : List Bytes}
    (hr : (obs name tr).rds fid' = some x) (hall : x.all = true) (hver : x.ver = 2) (hc : 4100 ≤ count)
    (hd : Drains fid' euid count s' l) :
    ∃ l' bs, l = l' ++ [bs] ∧ ReadsAs bs r.pid r.tid r.sec r.nsec
      { pname := pn, tname := if r.pid = r.tid then pn else tn, tag
        level := r.prio.toNat % 8, color := r.prio.toNat / 256, msg := .bin iov.flatten } := by
  have := raw_reads h hv hpn htn htag n1 n2 hfit hs hraw hr hall hver hc hd
  rw [decodeBody_prio n3, hb] at this
  exact this

/-- C32. What the library lets through never looks like a drop notice to
readers, so raw writers that use it meet the condition `Genuine`. -/
theorem C32_genuine {fd : Int} {r : RawEntry} {iov v : List Bytes} (hv : rawLogv fd (some r) iov = some v) :
    ¬ ((rawSpec v.flatten).pid = 0xffffffff ∧ (rawSpec v.flatten).tid = 0xffffffff) := by
  simp only [rawLogv] at hv
  split at hv
  · cases hv
  split at hv
  · cases hv
  rename_i hn
  injection hv with hv
  have : v.flatten = le32 r.pid ++ le32 r.tid ++ le32 r.sec ++ le32 r.nsec ++ le32 r.euid ++
      (r.pname ++ ((if r.pid ≠ r.tid then [r.tname] else []).flatten ++ (le32 r.prio ++ r.tag ++ iov.flatten))) := by
    rw [← hv]; simp
  rw [this, rawSpec_header]
  exact hn

/-! ## C33 -/

/-- C33. A drop notice is decoded as a Warning of the tag named like the device,
from process and thread -1, with the text `<n> log entries dropped` for the
number announced. -/
theorem C33_notice {name k buf ops s tr} (h : Run name k buf ops s tr) {fid : Nat} {euid : UInt32}
    {count uw : Nat} {bs : Bytes} {s' : Sys} {r : RObs} (hname : NoNul name)
    (hr : (obs name tr).rds fid = some r) (hver : r.ver = 2)
    (hs : step s (.read fid euid count uw) = .ok (s', .data bs)) (hn : isNotice bs = true) :
    ∃ e, (∃ i : Nat, (obs name tr).base + r.got + r.told + noticeCount name 2 bs ≤ i ∧ (obs name tr).hist[i]? = some e) ∧
      ReadsAs bs 0xffffffff 0xffffffff e.sec e.nsec
        { pname := [], tname := [], tag := name, level := 4, color := 0
          msg := .text (decNat (noticeCount name 2 bs) ++ ascii " log entries dropped\n") } := by
  obtain ⟨G, a, f, x, hrel, hinv, hnm, hsz, hf, hfr, hx, hok⟩ := h.reader hr
  obtain ⟨ho, _⟩ := hrel.step rfl hs
  rw [astep_read hf hfr hx] at ho
  simp only at ho
  have hg : Genuine a.log.hist := by rw [← hinv.hist]; exact h.genuine
  have hl : a.log.hist.length < 2147483648 := by rw [← hinv.hist]; exact h.count
  have hfl := askip_fields a.log.hist euid x
  obtain ⟨k1, k2, k3, k4, k5, k6⟩ := hok
  rcases aread_obs (euid := euid) (count := count) (uw := uw) (r := x) hg (by omega) with
    ⟨bs', e, h1, h2, h3⟩ | ⟨bs', e, h1, _⟩ | ⟨_, e⟩
  · have ho' := ho
    rw [e] at ho
    simp only [Out.data.injEq] at ho
    have hcount : noticeCount name 2 bs = x.dropped := by
      rw [ho, hnm, ← k2, hver] at h2; exact h2
    rw [hcount, hinv.hist]
    cases hen : a.log.hist[(askip a.log.hist euid x).idx]? with
    | none => simp only [aread, hen] at ho'; cases ho'
    | some en =>
      have hbs : bs = (summaryEntry name x.dropped en).view 2 := by
        rw [hver] at k2
        simp only [aread, hen, hfl.2.2.1, hfl.2.1, ← k2, if_pos h3, hnm] at ho'
        split at ho'
        · cases ho'
        · split at ho'
          · cases ho'
          · injection ho' with ho'; exact ho'.symm
      have hlt : (askip a.log.hist euid x).idx < a.log.hist.length := by
        rcases Nat.lt_or_ge (askip a.log.hist euid x).idx a.log.hist.length with hc | hc
        · exact hc
        · rw [List.getElem?_eq_none hc] at hen; cases hen
      have := hfl.2.2.2.1
      refine ⟨en, ⟨(askip a.log.hist euid x).idx, by omega, hen⟩, ?_⟩
      have hpl := (summaryText_length name x.dropped).1
      have hnl := h.nameLen
      have hv := readsAs_view (e := summaryEntry name x.dropped en) (by simp only [summaryEntry]; omega)
      rw [hbs]
      simp only [summaryEntry] at hv ⊢
      have hint : decInt (toInt32 x.dropped) = decNat x.dropped := by
        unfold toInt32
        simp only
        rw [Nat.mod_eq_of_lt (by omega), if_pos (by omega)]
        rfl
      have hst : summaryText name x.dropped = [] ++ 0 :: (le32 4 ++ name ++ 0 ::
          ((decNat x.dropped ++ ascii " log entries dropped\n") ++ 0 :: [])) := by
        unfold summaryText
        rw [hint]
        simp [le32]
      have hdig : NoNul (decNat x.dropped ++ ascii " log entries dropped\n") := by
        intro b hb
        rcases List.mem_append.mp hb with hb | hb
        · have := decNat_digits x.dropped b hb
          intro h0; subst h0; revert this; decide
        · exact (show ∀ b ∈ ascii " log entries dropped\n", b ≠ 0 by decide) b hb
      have hdec : decode false (summaryText name x.dropped) =
          ({ pname := [], tname := [], tag := name, level := 4, color := 0,
             msg := .text (decNat x.dropped ++ ascii " log entries dropped\n") } : Decoded) := by
        rw [hst, decode_one (by intro b hb; cases hb), decodeBody_prio hname, clip_terminated hdig]
        rw [if_neg (by decide), if_neg (by simp)]
        rfl
      simp only [bne_self_eq_false, hdec] at hv
      exact hv
  · rw [e] at ho; simp only [Out.data.injEq] at ho; rw [ho, hn] at h1; cases h1
  · exact absurd ho (e bs)

end Verif.Libulog
