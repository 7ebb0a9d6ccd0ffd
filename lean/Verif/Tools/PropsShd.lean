import Verif.Tools.Shd
import Verif.Ulogcat.TextProof
import Verif.Libulog.PropsEnd

/-!
# Logs through shared memory (C42, C43, C69)
-/
namespace Verif.Tools
open Verif Verif.Ulogcat Verif.Libulog Verif.Kernel

/-- Three parts one after the other, cut to 256 bytes; a full area ends with a NUL. -/
def areaText (tn tag msg : Bytes) : Bytes :=
  let t := tn ++ tag ++ msg
  if t.length < 256 then t else t.take 255 ++ [0]

theorem poke_mid {m a bs : Bytes} (h : a.length + bs.length ≤ m.length) (ha : m.take a.length = a) :
    poke m a.length bs = some (a ++ bs ++ m.drop (a.length + bs.length)) := by
  rw [poke_some h, ha]

theorem packThread_spec {m : Bytes} (hm : m.length = 256) {c : Bytes} :
    ∃ m', packThread m (some c) = some (m', (cstr (c.take 15)).length + 1) ∧ m'.length = 256 ∧
      m'.take ((cstr (c.take 15)).length + 1) = cstr (c.take 15) ++ [0] := by
  have hl : (cstr (c.take 15)).length ≤ 15 := Nat.le_trans (cstr_length_le _) (by rw [List.length_take]; omega)
  unfold packThread
  dsimp only
  generalize cstr (c.take 15) = s at *
  unfold snprint bufSize
  rw [if_neg (by decide : ¬ (256 : Nat) = 0), if_neg (by omega : ¬ s.length ≥ 256), List.take_of_length_le (by omega)]
  have hp : 0 + (s ++ [0]).length ≤ m.length := by simp; omega
  rw [poke_some hp]
  refine ⟨_, by rw [Option.map_some], by rw [poke_length (poke_some hp)]; omega, ?_⟩
  rw [List.take_zero, List.nil_append, List.take_append_of_le_length (by simp), List.take_of_length_le (by simp)]

theorem packPart_spec {m a : Bytes} (hm : m.length = 256) (ha : m.take a.length = a) (hal : a.length ≤ 256) (src : Bytes) :
    ∃ m', packPart m a.length src = some (m', min src.length (256 - a.length)) ∧ m'.length = 256 ∧
      m'.take (a.length + min src.length (256 - a.length)) = a ++ src.take (256 - a.length) := by
  unfold packPart bufSize
  by_cases h : a.length < 256
  · rw [if_pos h]
    dsimp only
    have hl : (src.take (min src.length (256 - a.length))).length = min src.length (256 - a.length) := by
      rw [List.length_take]; omega
    have hp : a.length + (src.take (min src.length (256 - a.length))).length ≤ m.length := by omega
    rw [poke_mid hp ha]
    refine ⟨_, rfl, ?_, ?_⟩
    · rw [← poke_length (poke_mid hp ha)] at hm; exact hm
    · have e : src.take (min src.length (256 - a.length)) = src.take (256 - a.length) := by
        rw [← List.take_take, List.take_of_length_le (l := src.take (256 - a.length)) (by rw [List.length_take]; omega)]
      rw [List.take_append_of_le_length (by rw [List.length_append]; omega),
        List.take_of_length_le (by rw [List.length_append]; omega), e]
  · rw [if_neg h]
    have : a.length = 256 := by omega
    refine ⟨m, by rw [show min src.length (256 - a.length) = 0 by omega], hm, ?_⟩
    rw [show min src.length (256 - a.length) = 0 by omega, Nat.add_zero, ha, this]
    simp

/-- **C42, the record:** it is built inside its 256 bytes; the parts follow one
another; what does not fit is cut, and a full area ends with a NUL. -/
theorem C42_record {old : Bytes} (ho : old.length = 256) (prio tid : UInt32) (comm name msg : Bytes) (index : Nat) :
    ∃ b, shdPack old prio (some comm) tid name msg index = some b ∧ b.buf.length = 256 ∧
      b.thn = (cstr (comm.take 15)).length + 1 ∧ b.thn + b.tag + b.log ≤ 256 ∧
      b.buf.take (b.thn + b.tag + b.log) = areaText (cstr (comm.take 15) ++ [0]) name msg ∧
      b.tag = min name.length (256 - b.thn) ∧ b.log = min msg.length (256 - b.thn - b.tag) ∧
      b.prio.toNat = prio.toNat % 8 ∧ b.tid = tid ∧ b.index = index := by
  have hl : (cstr (comm.take 15)).length ≤ 15 := Nat.le_trans (cstr_length_le _) (by rw [List.length_take]; omega)
  obtain ⟨m1, e1, l1, t1⟩ := packThread_spec ho (c := comm)
  unfold shdPack
  rw [e1]
  simp only [Option.bind_eq_bind, Option.bind_some]
  generalize cstr (comm.take 15) = s at *
  have hs1 : s.length + 1 = (s ++ [0]).length := by simp
  rw [hs1] at t1 ⊢
  generalize hA : s ++ [0] = A at *
  obtain ⟨m2, e2, l2, t2⟩ := packPart_spec l1 t1 (by omega) name
  rw [e2]
  simp only [Option.bind_some]
  have hB : A.length + min name.length (256 - A.length) = (A ++ name.take (256 - A.length)).length := by
    rw [List.length_append, List.length_take]; omega
  rw [hB] at t2 ⊢
  have hBl : (A ++ name.take (256 - A.length)).length ≤ 256 := by rw [List.length_append, List.length_take]; omega
  generalize hB' : A ++ name.take (256 - A.length) = B at *
  obtain ⟨m3, e3, l3, t3⟩ := packPart_spec l2 t2 hBl msg
  rw [e3]
  simp only [Option.bind_some]
  have hC : B.length + min msg.length (256 - B.length) = (B ++ msg.take (256 - B.length)).length := by
    rw [List.length_append, List.length_take]; omega
  rw [hC] at t3 ⊢
  have htext : B ++ msg.take (256 - B.length) = (A ++ name ++ msg).take 256 := by
    rw [← hB', List.take_append, List.take_append, List.take_of_length_le (l := A) (by omega)]
    congr 1
    congr 1
    rw [List.length_append, List.length_take, List.length_append]; omega
  have hCl : (B ++ msg.take (256 - B.length)).length ≤ 256 := by rw [List.length_append, List.length_take]; omega
  have hprio : (UInt8.ofNat (prio.toNat % 8)).toNat = prio.toNat % 8 := by
    rw [UInt8.toNat_ofNat']; omega
  have hlog : min msg.length (256 - B.length) = min msg.length (256 - A.length - min name.length (256 - A.length)) := by
    omega
  generalize hC' : B ++ msg.take (256 - B.length) = C at *
  unfold bufSize
  by_cases hfull : C.length = 256
  · rw [if_pos hfull, wr_eq (by omega)]
    simp only [Option.bind_some]
    refine ⟨_, rfl, by simp [l3], rfl, by dsimp only; omega, ?_, rfl, hlog, hprio, rfl, rfl⟩
    dsimp only
    rw [hB, hC]
    have hTl : 256 ≤ (A ++ name ++ msg).length := by
      rw [htext, List.length_take] at hfull; omega
    unfold areaText
    dsimp only
    rw [if_neg (by omega), hfull, List.take_of_length_le (by simp; omega)]
    rw [hfull, List.take_of_length_le (by omega)] at t3
    rw [t3, htext]
    apply List.ext_getElem?
    intro i
    rw [List.getElem?_set]
    by_cases hi : 256 - 1 = i
    · rw [if_pos hi, if_pos (by rw [List.length_take]; omega), List.getElem?_append_right (by rw [List.length_take]; omega)]
      rw [List.length_take, show i - min 255 (A ++ name ++ msg).length = 0 by omega]; rfl
    · rw [if_neg hi]
      rcases Nat.lt_or_ge i 255 with h | h
      · rw [List.getElem?_append_left (by rw [List.length_take]; omega), List.getElem?_take, List.getElem?_take, if_pos (by omega), if_pos h]
      · rw [List.getElem?_eq_none (by rw [List.length_take]; omega), List.getElem?_eq_none (by simp; omega)]
  · rw [if_neg hfull]
    refine ⟨_, rfl, l3, rfl, by dsimp only; omega, ?_, rfl, hlog, hprio, rfl, rfl⟩
    dsimp only
    rw [hB, hC, t3, htext]
    have hTl : (A ++ name ++ msg).length < 256 := by
      rw [htext, List.length_take] at hfull; omega
    unfold areaText
    dsimp only
    rw [if_pos hTl, List.take_of_length_le (by omega)]

theorem win_of_take {m : Bytes} {t p n : Nat} (h : p + n ≤ t) : win m p n = win (m.take t) p n := by
  unfold win
  rw [List.drop_take, List.take_take]
  congr 1
  omega

/-- The message after the cut: whole if it fits with room to spare. -/
def cutMsg (room : Nat) (msg : Bytes) : Bytes :=
  if msg.length < room then msg else msg.take (room - 1) ++ [0]

theorem cutMsg_length {room : Nat} (hr : 0 < room) (msg : Bytes) : (cutMsg room msg).length = min msg.length room := by
  unfold cutMsg; split
  · omega
  · rw [List.length_append, List.length_take]; simp; omega

theorem areaText_cut {A B msg : Bytes} (h : A.length + B.length < 256) :
    areaText A B msg = A ++ B ++ cutMsg (256 - A.length - B.length) msg := by
  have hr : 256 - A.length - B.length = 256 - (A.length + B.length) := by omega
  unfold areaText cutMsg
  dsimp only
  rw [hr]
  by_cases hl : msg.length < 256 - (A.length + B.length)
  · rw [if_pos hl, if_pos (by simp only [List.length_append]; omega)]
  · rw [if_neg hl, if_neg (by simp only [List.length_append]; omega), List.take_append,
      List.take_of_length_le (l := A ++ B) (by rw [List.length_append]; omega), List.append_assoc, List.length_append,
      show 255 - (A.length + B.length) = 256 - (A.length + B.length) - 1 by omega]

/-- The thread name, the tag and the message of a record whose tag fits. -/
theorem record_parts {old : Bytes} (ho : old.length = 256) {prio tid : UInt32} {comm name msg : Bytes} {index : Nat} {b : Blob}
    (hb : shdPack old prio (some comm) tid name msg index = some b) (hfit : (cstr (comm.take 15)).length + 1 + name.length < 256) :
    b.buf.length = 256 ∧ b.prio.toNat = prio.toNat % 8 ∧ b.tid = tid ∧ b.thn = (cstr (comm.take 15)).length + 1 ∧ b.tag = name.length ∧
      b.thn + b.tag + b.log ≤ 256 ∧ win b.buf 0 b.thn = cstr (comm.take 15) ++ [0] ∧ win b.buf b.thn b.tag = name ∧
      win b.buf (b.thn + b.tag) b.log = cutMsg (256 - b.thn - b.tag) msg := by
  obtain ⟨b', e1, e2, e3, e4, e5, e6, e7, e8, e9, _⟩ := C42_record ho prio tid comm name msg index
  rw [hb] at e1; cases e1
  have htag : b.tag = name.length := by omega
  have hA : (cstr (comm.take 15) ++ [0]).length = b.thn := by rw [e3]; simp
  rw [areaText_cut (by omega), hA, ← htag] at e5
  have hC := cutMsg_length (room := 256 - b.thn - b.tag) (by omega) msg
  refine ⟨e2, e8, e9, e3, htag, e4, ?_, ?_, ?_⟩
  · rw [win_of_take (t := b.thn + b.tag + b.log) (by omega), e5]
    unfold win
    rw [List.drop_zero, List.append_assoc, ← hA, List.take_left]
  · rw [win_of_take (t := b.thn + b.tag + b.log) (by omega), e5]
    unfold win
    rw [List.append_assoc, ← hA, List.drop_left, htag, List.take_left]
  · rw [win_of_take (t := b.thn + b.tag + b.log) (by omega), e5]
    unfold win
    have : (cstr (comm.take 15) ++ [0] ++ name).length = b.thn + b.tag := by rw [List.length_append, hA, htag]
    rw [← this, List.drop_left, List.take_of_length_le (by omega)]

/-- Whether the daemon takes the beginning of a message for a colour. -/
def Colored (m : Bytes) : Prop := m.head? = some 27 ∧ 7 ≤ m.length

instance (m : Bytes) : Decidable (Colored m) := inferInstanceAs (Decidable (_ ∧ _))

theorem fillRaw_spec {raw : RawEntry} {pad : UInt8} {b : Blob} {sec nsec : UInt32} (hl : b.buf.length = 256)
    (hp : b.prio.toNat < 8) (hs : b.thn + b.tag + b.log ≤ 256) (ht : 0 < b.thn) :
    fillRaw raw pad b sec nsec = some { raw with
      tid := b.tid, sec, nsec, tname := win b.buf 0 b.thn, tag := win b.buf b.thn b.tag,
      prio := if Colored (win b.buf (b.thn + b.tag) b.log) then
          UInt32.ofNat (b.prio.toNat + shdColor[((win b.buf (b.thn + b.tag) b.log)[5]?.getD 0).toNat % 8]?.getD 0 * 256)
        else b.prio.toUInt32
      message := some (if Colored (win b.buf (b.thn + b.tag) b.log) then (win b.buf (b.thn + b.tag) b.log).drop 7
        else win b.buf (b.thn + b.tag) b.log) } := by
  have hwl : (win b.buf (b.thn + b.tag) b.log).length = b.log := win_length (by omega)
  unfold fillRaw
  dsimp only
  rw [rd_eq (by simp; omega)]
  simp only [Option.bind_eq_bind, Option.bind_some]
  have ht' : b.thn ≠ 0 := by omega
  by_cases h7 : 7 ≤ b.log
  · have hhead : (win b.buf (b.thn + b.tag) b.log).head? = some ((b.buf ++ [pad])[b.thn + b.tag]'(by simp; omega)) := by
      obtain ⟨k, hk⟩ : ∃ k, b.log = k + 1 := ⟨b.log - 1, by omega⟩
      rw [hk, win_cons (by omega), List.head?_cons, List.getElem_append_left (by omega)]
    by_cases hc : (b.buf ++ [pad])[b.thn + b.tag]'(by simp; omega) = 27
    · have hcol : Colored (win b.buf (b.thn + b.tag) b.log) := ⟨by rw [hhead, hc], by omega⟩
      rw [if_pos ⟨hc, h7⟩, if_pos hcol, if_pos hcol, rd_eq (by omega)]
      have h5 : (win b.buf (b.thn + b.tag) b.log)[5]? = some (b.buf[b.thn + b.tag + 5]'(by omega)) := by
        unfold win
        rw [List.getElem?_take, if_pos (by omega), List.getElem?_drop, List.getElem?_eq_getElem (by omega)]
      rw [h5, win_drop]
      simp only [ht', ne_eq, not_false_eq_true, if_true, Option.bind_some, Option.getD_some]
      rfl
    · have hcol : ¬ Colored (win b.buf (b.thn + b.tag) b.log) := by
        intro h; rw [Colored, hhead] at h; exact hc (Option.some.inj h.1)
      rw [if_neg (fun h => hc h.1), if_neg hcol, if_neg hcol]
      simp only [ht', ne_eq, not_false_eq_true, if_true]
      rfl
  · have hcol : ¬ Colored (win b.buf (b.thn + b.tag) b.log) := by
      intro h; have := h.2; omega
    rw [if_neg (fun h => h7 h.2), if_neg hcol, if_neg hcol]
    simp only [ht', ne_eq, not_false_eq_true, if_true]
    rfl

/-- **C42, the way back:** a message that the daemon does not take for a coloured one
comes back with the same thread, level, tag and text, cut to the area. -/
theorem C42_forward {old : Bytes} (ho : old.length = 256) {prio tid : UInt32} {comm name msg : Bytes} {index : Nat} {b : Blob}
    (hb : shdPack old prio (some comm) tid name msg index = some b) (hfit : (cstr (comm.take 15)).length + 1 + name.length < 256)
    (raw : RawEntry) (pad : UInt8) (sec nsec : UInt32)
    (hesc : ¬ (msg.head? = some 27 ∧ 7 ≤ msg.length)) :
    ∃ r, fillRaw raw pad b sec nsec = some r ∧ r.tid = tid ∧ r.sec = sec ∧ r.nsec = nsec ∧ r.pid = raw.pid ∧ r.pname = raw.pname ∧
      r.prio.toNat = prio.toNat % 8 ∧ r.tname = cstr (comm.take 15) ++ [0] ∧ r.tag = name ∧
      r.message = some (cutMsg (256 - (cstr (comm.take 15)).length - 1 - name.length) msg) := by
  obtain ⟨e1, e2, e3, e4, e5, e6, e7, e8, e9⟩ := record_parts ho hb hfit
  have hroom : 0 < 256 - b.thn - b.tag := by omega
  have hcol : ¬ Colored (win b.buf (b.thn + b.tag) b.log) := by
    rw [e9]
    intro ⟨h1, h2⟩
    rw [cutMsg_length hroom] at h2
    refine hesc ⟨?_, by omega⟩
    unfold cutMsg at h1
    split at h1
    · exact h1
    · cases msg with
      | nil => simp at h2
      | cons c msg =>
        obtain ⟨k, hk⟩ : ∃ k, 256 - b.thn - b.tag - 1 = k + 1 := ⟨256 - b.thn - b.tag - 2, by omega⟩
        rw [hk] at h1
        simpa using h1
  rw [fillRaw_spec e1 (by omega) e6 (by omega), if_neg hcol, if_neg hcol]
  refine ⟨_, rfl, e3, rfl, rfl, rfl, rfl, ?_, e7, e8, ?_⟩
  · rw [← e2]; simp
  · dsimp only
    rw [e9, show 256 - b.thn - b.tag = 256 - (cstr (comm.take 15)).length - 1 - name.length by omega]

/-- A record for which the name of the thread was not to be had comes back without the
thread. -/
theorem C42_noname {old : Bytes} {prio tid : UInt32} {name msg : Bytes} {index : Nat} {b : Blob} (hb : shdPack old prio none tid name msg index = some b)
    {raw : RawEntry} {pad : UInt8} {sec nsec : UInt32} {r : RawEntry} (hr : fillRaw raw pad b sec nsec = some r) : r.tid = 0 ∧ r.tname = [] ∧ r.sec = sec ∧ r.nsec = nsec := by
  have h0 : b.thn = 0 := by
    simp only [shdPack, packThread, Option.bind_eq_bind, Option.bind_some, Option.bind_eq_some_iff] at hb
    obtain ⟨x, _, y, _, hz⟩ := hb
    split at hz
    · rw [Option.bind_eq_some_iff] at hz
      obtain ⟨z, _, hz⟩ := hz
      cases hz
      rfl
    · cases hz
      rfl
  simp only [fillRaw, h0, Option.bind_eq_bind, Option.bind_eq_some_iff] at hr
  obtain ⟨x, _, hr⟩ := hr
  split at hr
  · rw [Option.bind_eq_some_iff] at hr
    obtain ⟨y, _, hr⟩ := hr
    cases hr
    exact ⟨rfl, rfl, rfl, rfl⟩
  · cases hr
    exact ⟨rfl, rfl, rfl, rfl⟩

/-- **C69.** A message that begins with an escape and has at least seven bytes loses
seven bytes; its sixth byte selects the colour. -/
theorem C69_color {old : Bytes} (ho : old.length = 256) {prio tid : UInt32} {comm name msg : Bytes} {index : Nat} {b : Blob}
    (hb : shdPack old prio (some comm) tid name msg index = some b) (hfit : (cstr (comm.take 15)).length + 1 + name.length + 7 < 256)
    (raw : RawEntry) (pad : UInt8) (sec nsec : UInt32) {c1 c2 c3 c4 c5 c6 : UInt8} {rest : Bytes}
    (hm : msg = 27 :: c1 :: c2 :: c3 :: c4 :: c5 :: c6 :: rest) :
    ∃ r, fillRaw raw pad b sec nsec = some r ∧ r.tid = tid ∧ r.tname = cstr (comm.take 15) ++ [0] ∧ r.tag = name ∧
      r.prio.toNat % 256 = prio.toNat % 8 ∧ r.prio.toNat / 256 = shdColor[c5.toNat % 8]?.getD 0 ∧
      r.message = some (cutMsg (256 - (cstr (comm.take 15)).length - 1 - name.length - 7) rest) := by
  obtain ⟨e1, e2, e3, e4, e5, e6, e7, e8, e9⟩ := record_parts ho hb (by omega)
  have hcut : cutMsg (256 - b.thn - b.tag) msg =
      27 :: c1 :: c2 :: c3 :: c4 :: c5 :: c6 :: cutMsg (256 - b.thn - b.tag - 7) rest := by
    obtain ⟨k, hk⟩ : ∃ k, 256 - b.thn - b.tag = k + 8 := ⟨256 - b.thn - b.tag - 8, by omega⟩
    unfold cutMsg
    rw [hm, hk]
    simp only [List.length_cons]
    by_cases h : rest.length < k + 8 - 7
    · rw [if_pos h, if_pos (by omega)]
    · rw [if_neg h, if_neg (by omega), show k + 8 - 1 = k + 7 by omega, show k + 8 - 7 - 1 = k by omega]
      simp
  have hcol : Colored (win b.buf (b.thn + b.tag) b.log) := by
    rw [e9, hcut]; exact ⟨rfl, by simp⟩
  rw [fillRaw_spec e1 (by omega) e6 (by omega), if_pos hcol, if_pos hcol]
  have hbound : shdColor[c5.toNat % 8]?.getD 0 < 2 ^ 24 - 1 := by
    have : c5.toNat % 8 < 8 := by omega
    generalize c5.toNat % 8 = i at *
    have : ∀ i < 8, shdColor[i]?.getD 0 < 2 ^ 24 - 1 := by decide +kernel
    exact this i (by assumption)
  have h5 : ((win b.buf (b.thn + b.tag) b.log)[5]?.getD 0) = c5 := by rw [e9, hcut]; rfl
  refine ⟨_, rfl, e3, e7, e8, ?_, ?_, ?_⟩
  · dsimp only
    rw [h5, UInt32.toNat_ofNat']; omega
  · dsimp only
    rw [h5, UInt32.toNat_ofNat']; omega
  · dsimp only
    rw [e9, hcut, show 256 - b.thn - b.tag - 7 = 256 - (cstr (comm.take 15)).length - 1 - name.length - 7 by omega]
    rfl

/-- The colours that the eight digits of a terminal mean. -/
def ansiColor : List (Bytes × Nat) :=
  [(ascii "black", 0x000000), (ascii "red", 0xFF0000), (ascii "green", 0x00FF00), (ascii "yellow", 0xFFFF00),
   (ascii "blue", 0x0000FF), (ascii "magenta", 0xFF00FF), (ascii "cyan", 0x00FFFF), (ascii "gray", 0x808080)]

/-- C69: all digits but that of cyan give their colour. -/
theorem C69_table : ∀ i < 8, i ≠ 6 → shdColor[i]? = (ansiColor[i]?).map (·.2) := by decide +kernel

/-- C69 is false for cyan, which comes out as yellow. -/
theorem C69_false_cyan : shdColor[6]? ≠ (ansiColor[6]?).map (·.2) ∧ shdColor[6]? = shdColor[3]? := by decide +kernel

/-- C42 is false for messages that begin with another escape: `"\033[31m"` has five
bytes, so the first two bytes of the text that follows are lost. -/
theorem C42_false_escape {old : Bytes} (ho : old.length = 256) {prio tid : UInt32} {comm name : Bytes} {index : Nat} {b : Blob}
    {t1 t2 : UInt8} {text : Bytes}
    (hb : shdPack old prio (some comm) tid name ([27, 91, 51, 49, 109] ++ t1 :: t2 :: text) index = some b)
    (hfit : (cstr (comm.take 15)).length + 1 + name.length + 7 + text.length < 256)
    (raw : RawEntry) (pad : UInt8) (sec nsec : UInt32) :
    ∃ r, fillRaw raw pad b sec nsec = some r ∧ r.message = some text := by
  obtain ⟨r, h1, _, _, _, _, _, h2⟩ := C69_color ho hb (by omega) raw pad sec nsec (c1 := 91) (c2 := 51) (c3 := 49) (c4 := 109)
    (c5 := t1) (c6 := t2) (rest := text) rfl
  exact ⟨r, h1, by rw [h2, cutMsg, if_pos (by omega)]⟩

/-- **C42, end to end:** a message logged through shared memory, forwarded and stored
by the driver, is decoded by every reader with the process of the daemon's
configuration, the thread, tag, level and text of the writer. -/
theorem C42_end {old : Bytes} (ho : old.length = 256) {prio tid : UInt32} {comm tag text : Bytes} {index : Nat} {b : Blob}
    (hb : shdPack old prio (some comm) tid (tag ++ [0]) (text ++ [0]) index = some b)
    (hfit : (cstr (comm.take 15)).length + 1 + (tag.length + 1) + (text.length + 1) ≤ 256)
    (ht : NoNul tag) (hx : NoNul text) (hesc : text.head? ≠ some 27)
    {raw : RawEntry} {pn : Bytes} (hpn : raw.pname = pn ++ [0]) (n1 : NoNul pn) (hpl : pn.length ≤ 1000) {pad : UInt8} {sec nsec : UInt32} {r : RawEntry}
    (hf : fillRaw raw pad b sec nsec = some r)
    {dev k buf ops s tr} (h : Run dev k buf ops s tr) {fid : Nat} {t : Task} {junk : Nat → UInt8} {s' : Sys} {n : Nat} {fd : Int}
    {v : List Bytes} (hv : rawLog fd (some r) = some v)
    (hs : step s (.write fid t (userVec v) junk) = .ok (s', .ret n)) (hraw : (obs dev tr).raw fid = true)
    {fid' : Nat} {euid : UInt32} {count : Nat} {x : RObs} {l : List Bytes}
    (hr : (obs dev tr).rds fid' = some x) (hall : x.all = true) (hver : x.ver = 2) (hc : 4100 ≤ count)
    (hd : Drains fid' euid count s' l) :
    ∃ l' bs, l = l' ++ [bs] ∧ ReadsAs bs raw.pid tid sec nsec
      { pname := pn, tname := if raw.pid = tid then pn else cstr (comm.take 15), tag
        level := prio.toNat % 8, color := 0, msg := .text text } := by
  have hl : (cstr (comm.take 15)).length ≤ 15 := Nat.le_trans (cstr_length_le _) (by rw [List.length_take]; omega)
  have hhead : ¬ ((text ++ [0]).head? = some 27 ∧ 7 ≤ (text ++ [0]).length) := by
    intro ⟨h1, h2⟩
    cases text with
    | nil => simp at h2
    | cons c text => exact hesc (by simpa using h1)
  obtain ⟨r', f1, f2, f3, f4, f5, f6, f7, f8, f9, f10⟩ := C42_forward ho hb (by simp; omega) raw pad sec nsec hhead
  rw [hf] at f1; cases f1
  have hcut : cutMsg (256 - (cstr (comm.take 15)).length - 1 - (tag ++ [0]).length) (text ++ [0]) = text ++ [0] := by
    unfold cutMsg
    simp only [List.length_append, List.length_singleton]
    split
    · rfl
    · have : 256 - (cstr (comm.take 15)).length - 1 - (tag.length + 1) - 1 = text.length := by omega
      rw [this, List.take_left]
  rw [hcut] at f10
  have := C32_raw_text h hv (by rw [f6, hpn]) f8 f9 f10 n1 (cstr_noNul _) ht hx (by unfold prioBinary; rw [f7]; simp; omega)
    (by split <;> omega) hs hraw hr hall hver hc hd
  rw [f7, f2, f3, f4, f5] at this
  rw [show prio.toNat % 8 % 8 = prio.toNat % 8 by omega, show prio.toNat % 8 / 256 = 0 by omega] at this
  exact this

/-- The 16-bit number of the `n`th record of a writer. -/
def idx (n : Nat) : Nat := n % 65536

/-- What should be announced when `n` records were lost. -/
def lossSpec (n : Nat) : Loss := if n = 0 then .none else if n < 32768 then .lost n else .many

/-- Announcements that should be made for records with these numbers. -/
def lossesSpec : Nat → List Nat → List Loss
  | _, [] => []
  | a, b :: l => lossSpec (b - a - 1) :: lossesSpec b l

/-- Increasing numbers, fewer than 65536 lost at a time. -/
def Gaps : Nat → List Nat → Prop
  | _, [] => True
  | a, b :: l => a < b ∧ b - a - 1 < 65536 ∧ Gaps b l

theorem lossOf_spec {a b : Nat} (h : a < b) (hb : b - a - 1 < 65536) : lossOf (idx a) (idx b) = lossSpec (b - a - 1) := by
  have : (idx b + 65536 - idx a + 65535) % 65536 = b - a - 1 := by unfold idx; omega
  unfold lossOf lossSpec
  rw [this]

/-- **C43.** For any records received in order, every loss is announced, with its size
if smaller than 32768, and nothing else is; the 16-bit numbers may wrap around. -/
theorem C43_losses {a : Nat} {l : List Nat} (h : Gaps a l) : losses (idx a) (l.map idx) = lossesSpec a l := by
  induction l generalizing a with
  | nil => rfl
  | cons b l ih => rw [List.map_cons, losses, lossesSpec, lossOf_spec h.1 h.2.1, ih h.2.2]

/-- C43: in particular no loss is announced when there was none. -/
theorem C43_quiet (a k : Nat) : losses (idx a) ((List.range k).map fun i => idx (a + 1 + i)) = List.replicate k .none := by
  induction k generalizing a with
  | zero => rfl
  | succ k ih =>
    rw [List.range_succ_eq_map, List.map_cons, List.map_map, losses, Nat.add_zero,
      lossOf_spec (by omega) (by omega), show a + 1 - a - 1 = 0 by omega, List.replicate_succ]
    have := ih (a + 1)
    rw [show ((fun i => idx (a + 1 + i)) ∘ Nat.succ) = fun i => idx (a + 1 + 1 + i) from by
      funext i; simp only [Function.comp, Nat.succ_eq_add_one]; congr 1; omega, this]
    rfl

/-- C43 is false for 65536 lost records, or any multiple: nothing is announced. -/
theorem C43_false_wrap (a k : Nat) : lossOf (idx a) (idx (a + 1 + 65536 * k)) = .none := by
  have : (idx (a + 1 + 65536 * k) + 65536 - idx a + 65535) % 65536 = 0 := by unfold idx; omega
  unfold lossOf; rw [this]; rfl

/-- C43 is false when the writer starts again: its first record has the number 1, and
a loss is announced though there was none, whatever the last number was, if not 0. -/
theorem C43_false_restart {p : Nat} (h : 0 < p) (hp : p < 65536) : lossOf p 1 ≠ .none := by
  have : (1 + 65536 - p + 65535) % 65536 = 65536 - p := by omega
  unfold lossOf
  rw [this, if_neg (by omega)]
  split <;> simp

end Verif.Tools
