import Verif.Libulog.Write
import Verif.Ulogcat.CsvSpec

/-!
# Properties of text rendering
-/
namespace Verif.Ulogcat

/-- C39, text formats: whatever the message, rendering stays inside the render
buffer and the message, ends, and leaves in the buffer the lines of the message,
each with its prefix; when they do not fit they are cut and the last byte is
NUL. -/
theorem C39_text (L : Look) (e : Meta) (t r buf : Bytes) (len : Nat) (hf : L.fmt ≠ .csv) (hb : e.isBinary = false)
    (hp : e.priority < 8) (h0 : NoNul t) (hbuf : buf ≠ []) :
    ∃ buf' n, renderFrame L e (t ++ 0 :: r) len buf = some (buf', some n) ∧ buf'.length = buf.length ∧ n ≤ buf.length ∧
      buf'.take n = cut buf.length ((shownLines t).map (lineText L e)).flatten := by
  obtain ⟨s', h1, h2, h3, h4⟩ := renderLoop_spec L e ((t ++ 0 :: r).length + 1) 0
    { msg := t ++ 0 :: r, buf, len := 0, p := 0, size := buf.length } t r rfl h0
    (by rw [List.length_append]; omega) (by dsimp only; omega)
  dsimp only at h2 h3 h4
  rw [Nat.zero_add] at h3 h4
  have hF : (((shownLines t).map (lineText L e)).flatten).length ≠ 0 := by
    intro h
    have hn : ((shownLines t).map (lineText L e)).flatten = [] := List.eq_nil_of_length_eq_zero h
    have hall := List.flatten_eq_nil_iff.mp hn
    have hne : shownLines t ≠ [] := by
      unfold shownLines
      generalize (if t.getLast? = some 10 then t.dropLast else t) = u
      cases u with
      | nil => simp [splitNl]
      | cons b u =>
        unfold splitNl
        split
        · simp
        · split <;> simp
    obtain ⟨l, ls, hl⟩ := List.exists_cons_of_ne_nil hne
    have := hall (lineText L e l) (by rw [hl]; simp)
    unfold lineText at this
    simp at this
  have hlen : s'.len ≠ 0 := by
    rw [h3, cut_length]
    have : 0 < buf.length := List.length_pos_iff.mpr hbuf
    omega
  refine ⟨s'.buf, s'.len, ?_, h2, ?_, ?_⟩
  · have hlt : ¬ 8 ≤ e.priority := by omega
    unfold renderFrame
    rw [hb]
    cases hfmt : L.fmt <;> simp_all
  · rw [h3, cut_length]; omega
  · rw [h3, h4]; simp

/-- C39: a render buffer without room for a byte gives no line. -/
theorem C39_no_room (L : Look) (e : Meta) (t r : Bytes) (len : Nat) (hf : L.fmt ≠ .csv) (hb : e.isBinary = false)
    (hp : e.priority < 8) (h0 : NoNul t) : renderFrame L e (t ++ 0 :: r) len [] = some ([], none) := by
  obtain ⟨s', h1, h2, h3, -⟩ := renderLoop_spec L e ((t ++ 0 :: r).length + 1) 0
    { msg := t ++ 0 :: r, buf := [], len := 0, p := 0, size := 0 } t r rfl h0
    (by rw [List.length_append]; omega) rfl
  have hlen : s'.len = 0 := by rw [h3, cut_length]; simp
  have hbuf : s'.buf = [] := List.eq_nil_of_length_eq_zero h2
  have hlt : ¬ 8 ≤ e.priority := by omega
  have key : (if e.isBinary then some (([] : Bytes), (none : Option Nat))
      else if 8 ≤ e.priority then none
      else do
        let s ← renderLoop L e ((t ++ 0 :: r).length + 1) 0 { msg := t ++ 0 :: r, buf := [], len := 0, p := 0, size := 0 }
        return (s.buf, if s.len ≠ 0 then some s.len else none)) = some ([], none) := by
    rw [hb, h1]
    simp [hlt, hlen, hbuf]
  unfold renderFrame
  cases hfmt : L.fmt with
  | csv => exact absurd hfmt hf
  | _ => exact key

/-- C39: binary entries are not rendered in text formats. -/
theorem C39_binary (L : Look) (e : Meta) (msg buf : Bytes) (len : Nat) (hf : L.fmt ≠ .csv) (hb : e.isBinary = true) :
    renderFrame L e msg len buf = some (buf, none) := by
  unfold renderFrame
  rw [hb]
  cases hfmt : L.fmt <;> simp_all

/-- The payload of a CSV line. -/
def csvPayload (e : Meta) (msg : Bytes) (len : Nat) : Bytes :=
  if e.isBinary then hexDump (msg.take len) else cstr msg

/-- The CSV line of an entry. -/
def csvLine (e : Meta) (payload : Bytes) : Bytes := csvPrefix e payload.length ++ payload ++ [10]

/-- C39, CSV: rendering stays inside the render buffer and the message; the
result is the whole line, or -1 exactly when the line does not fit. -/
theorem C39_csv (L : Look) (e : Meta) (msg buf : Bytes) (len : Nat) (hf : L.fmt = .csv)
    (hm : if e.isBinary then len ≤ msg.length else 0 ∈ msg) :
    ∃ buf', buf'.length = buf.length ∧
      ((buf.length < (csvLine e (csvPayload e msg len)).length ∧ renderFrame L e msg len buf = some (buf', none)) ∨
       ((csvLine e (csvPayload e msg len)).length ≤ buf.length ∧
        renderFrame L e msg len buf = some (buf', some (csvLine e (csvPayload e msg len)).length) ∧
        buf'.take (csvLine e (csvPayload e msg len)).length = csvLine e (csvPayload e msg len))) := by
  have hpay : payloadOf e msg len = some (csvPayload e msg len) := by
    unfold payloadOf csvPayload
    cases hb : e.isBinary
    · rw [hb] at hm
      have hm' : (0 : UInt8) ∈ msg := by simpa using hm
      simp [strAt, hm']
    · rw [hb] at hm
      have hm' : len ≤ msg.length := by simpa using hm
      simp [hm']
  have hr : renderFrame L e msg len buf = printCsv e msg len buf buf.length := by
    unfold renderFrame; rw [hf]
  rw [hr]
  unfold printCsv
  rw [hpay]
  generalize csvPayload e msg len = pay
  have hl : (csvLine e pay).length = (csvPrefix e pay.length).length + pay.length + 1 := by
    unfold csvLine; simp only [List.length_append, List.length_cons, List.length_nil]
  rw [hl]
  simp only [Option.bind_eq_bind, Option.bind_some]
  generalize hpre : csvPrefix e pay.length = pre
  have hpre0 : pre ≠ [] := by rw [← hpre]; unfold csvPrefix; simp
  have hpp : 0 < pre.length := List.length_pos_iff.mpr hpre0
  by_cases hz : buf.length = 0
  · refine ⟨buf, rfl, Or.inl ⟨by omega, ?_⟩⟩
    have : snprint buf 0 buf.length pre = some buf := if_pos hz
    rw [this]
    simp only [Option.bind_some]
    rw [if_pos (by omega)]; rfl
  · have hs : snprint buf 0 buf.length pre = poke buf 0 (pre.take (buf.length - 1) ++ [0]) := if_neg hz
    have hfit : 0 + (pre.take (buf.length - 1) ++ [0]).length ≤ buf.length := by
      simp only [List.length_append, List.length_take, List.length_cons, List.length_nil]; omega
    have hpk := poke_some hfit
    have hpl := poke_length hpk
    rw [hs, hpk]
    simp only [Option.bind_some]
    by_cases h1 : pre.length ≥ buf.length
    · rw [if_pos h1]
      exact ⟨_, hpl, Or.inl ⟨by omega, rfl⟩⟩
    · rw [if_neg h1]
      by_cases h2 : pre.length + pay.length + 1 > buf.length
      · rw [if_pos h2]
        exact ⟨_, hpl, Or.inl ⟨by omega, rfl⟩⟩
      · rw [if_neg h2]
        have hpk2 : poke (buf.take 0 ++ (pre.take (buf.length - 1) ++ [0]) ++ buf.drop (0 + (pre.take (buf.length - 1) ++ [0]).length)) pre.length (pay ++ [10]) = _ :=
          poke_some (by rw [hpl, List.length_append]; simp only [List.length_cons, List.length_nil]; omega)
        rw [hpk2]
        refine ⟨_, by rw [poke_length hpk2, hpl], Or.inr ⟨by omega, rfl, ?_⟩⟩
        rw [List.take_zero, List.nil_append, List.take_of_length_le (by omega : pre.length ≤ buf.length - 1)]
        have : (pre ++ [(0 : UInt8)] ++ List.drop (0 + (pre ++ [0]).length) buf).take pre.length = pre := by
          rw [List.append_assoc, List.take_left']; rfl
        rw [this]
        unfold csvLine
        rw [hpre, List.append_assoc pre pay, List.take_append, List.take_of_length_le (by simp only [List.length_append, List.length_cons, List.length_nil]; omega)]
        simp only [List.length_append, List.length_cons, List.length_nil]
        rw [show pre.length + pay.length + 1 - (pre.length + (pay.length + (0 + 1))) = 0 by omega, List.take_zero, List.append_nil]

/-- C39: the banner of a device (whose path is stored in 64 bytes) fits the
render buffer of `text_render_size` bytes. -/
theorem C39_banner (path buf : Bytes) (hb : buf.length = 5 * 1024 + 128) :
    ∃ buf' n, printBanner (bannerText path) buf buf.length = some (buf', n) ∧ buf'.length = buf.length ∧ n < buf.length ∧
      buf'.take n = List.replicate 39 45 ++ bannerText path ++ [10] := by
  have hbt : (bannerText path).length ≤ 127 := by unfold bannerText; rw [List.length_take]; omega
  unfold printBanner
  dsimp only
  generalize hs : List.replicate 39 45 ++ bannerText path ++ [10] = s
  have hsl : s.length ≤ 167 := by
    rw [← hs]; simp only [List.length_append, List.length_replicate, List.length_cons, List.length_nil]; omega
  have h1 : snprint buf 0 buf.length s = poke buf 0 (s.take (buf.length - 1) ++ [0]) := if_neg (by omega)
  have hfit : 0 + (s.take (buf.length - 1) ++ [0]).length ≤ buf.length := by
    simp only [List.length_append, List.length_take, List.length_cons, List.length_nil]; omega
  rw [h1, poke_some hfit]
  refine ⟨_, _, rfl, poke_length (poke_some hfit), by omega, ?_⟩
  rw [List.take_zero, List.nil_append, List.take_of_length_le (by omega : s.length ≤ buf.length - 1), List.append_assoc,
    List.take_left']
  rfl

/-! ### Nothing of a short entry is lost -/

theorem padTo_length (n : Nat) (s : Bytes) : (padTo n s).length = max n s.length := by
  unfold padTo; simp only [List.length_append, List.length_replicate]; omega

theorem dec3_length {i : Int} (h1 : -2147483648 ≤ i) (h2 : i < 2147483648) : (dec3 (i.tdiv 1000000)).length ≤ 5 := by
  have hdec : ∀ n : Nat, n < 10000 → (decNat n).length ≤ 4 := by
    intro n hn
    unfold decNat
    split
    · simp
    · unfold decNat
      split
      · simp
      · unfold decNat
        split
        · simp
        · unfold decNat
          split
          · simp
          · omega
  have hb1 : i.tdiv 1000000 ≤ 2147 := by
    by_cases h0 : 0 ≤ i
    · rw [Int.tdiv_eq_ediv_of_nonneg h0]; omega
    · have hz : 0 ≤ -i := by omega
      have : i.tdiv 1000000 = - ((-i).tdiv 1000000) := by rw [Int.neg_tdiv, Int.neg_neg]
      rw [this, Int.tdiv_eq_ediv_of_nonneg hz]; omega
  have hb2 : -2147 ≤ i.tdiv 1000000 := by
    by_cases h0 : 0 ≤ i
    · rw [Int.tdiv_eq_ediv_of_nonneg h0]; omega
    · have hz : 0 ≤ -i := by omega
      have : i.tdiv 1000000 = - ((-i).tdiv 1000000) := by rw [Int.neg_tdiv, Int.neg_neg]
      rw [this, Int.tdiv_eq_ediv_of_nonneg hz]; omega
  generalize i.tdiv 1000000 = j at *
  cases j with
  | ofNat n =>
    have := hdec n (by have : (n : Int) ≤ 2147 := hb1; omega)
    unfold dec3
    simp only [List.length_append, List.length_replicate]; omega
  | negSucc n =>
    have := hdec (n + 1) (by omega)
    unfold dec3
    simp only [List.length_append, List.length_cons, List.length_replicate]; omega

/-- The milliseconds of a negative time are a minus sign and at least two digits. -/
theorem dec3_negative : ∀ n < 1000, dec3 (-((n + 1 : Nat) : Int)) =
    45 :: (if n + 1 < 10 then [48, UInt8.ofNat (49 + n)] else decNat (n + 1)) := by decide +kernel

/-- What rendering gets from the context and from a parsed entry: colour
sequences and dates fit their arrays, times are 32-bit numbers. -/
structure Sane (L : Look) (e : Meta) : Prop where
  ansi : ∀ p, (L.ansi p).length ≤ 31
  clock : ∀ t, (L.clock t).length ≤ 31
  nsec : -2147483648 ≤ e.nsec ∧ e.nsec < 2147483648
  priority : e.priority < 8
  names : e.tag.length + e.pname.length + e.tname.length ≤ 4076

theorem lineText_length {L : Look} {e : Meta} (H : Sane L e) (msg : Bytes) :
    (lineText L e msg).length ≤ 207 + e.tag.length + e.pname.length + e.tname.length + msg.length := by
  have h1 : (cstart L e).length ≤ 31 := by unfold cstart; split <;> simp [H.ansi]
  have h2 : (cend L).length ≤ 4 := by unfold cend; split <;> simp [ansiNone]
  have h3 : (clabel L).length ≤ 2 := by unfold clabel; split <;> (try split) <;> simp
  have h4 := H.clock e.sec
  have h5 := dec3_length H.nsec.1 H.nsec.2
  have h6 : (threadPart e).length ≤ 1 + e.tname.length := by unfold threadPart; split <;> simp <;> omega
  have h7 : (whoLong e).length ≤ 127 := by unfold whoLong; rw [List.length_take]; omega
  have h8 : (whoAligned e).length ≤ 127 := by unfold whoAligned; rw [List.length_take]; omega
  have hU : (headU L e).length ≤ 202 + e.tag.length + e.pname.length + e.tname.length := by
    unfold headU
    split <;> simp only [List.length_append, List.length_cons, List.length_nil, padTo_length] <;> omega
  have hK : (headK L e).length ≤ 202 + e.tag.length + e.pname.length + e.tname.length := by
    unfold headK
    split <;> simp only [List.length_append, List.length_cons, List.length_nil, padTo_length] <;> omega
  unfold lineText
  split <;> simp only [List.length_append, List.length_cons, List.length_nil] <;> omega

/-- C62: an entry of one line is never cut: its line appears whole, in every
text format and with every option. -/
theorem C62_one_line (L : Look) (e : Meta) (t r buf : Bytes) (len : Nat) (hf : L.fmt ≠ .csv) (hb : e.isBinary = false)
    (H : Sane L e) (h0 : NoNul t) (hbuf : buf.length = 5 * 1024 + 128) (hn : ∀ b ∈ t, b ≠ 10)
    (hsz : e.tag.length + e.pname.length + e.tname.length + t.length ≤ 4076) :
    ∃ buf' n, renderFrame L e (t ++ 0 :: r) len buf = some (buf', some n) ∧ buf'.take n = lineText L e t := by
  obtain ⟨buf', n, h1, _, _, h4⟩ := C39_text L e t r buf len hf hb H.priority h0 (by intro e; rw [e] at hbuf; simp at hbuf)
  refine ⟨buf', n, h1, ?_⟩
  have := lineText_length H t
  rw [h4, shownLines_one hn]
  simp only [List.map_cons, List.map_nil, List.flatten_cons, List.flatten_nil, List.append_nil]
  unfold cut
  rw [if_pos (by omega)]

def plainLook : Look :=
  { fmt := .short, color := false, showLabel := false, ansi := fun _ => [], klog := false, clock := fun _ => [] }

def tinyMeta : Meta :=
  { sec := 0, nsec := 0, priority := 6, pid := 1, pname := [97], tid := 1, tname := [97], tag := [116], isBinary := false, color := 0 }

theorem manyLines_length : (((shownLines (List.replicate 400 10)).map (lineText plainLook tinyMeta)).flatten).length = 6800 := by
  decide +kernel

/-- C62 does not extend to entries of many lines: with 400 empty lines the end of
the entry is not shown. (Every such entry can be logged: it has 418 bytes.) -/
theorem C62_false_lines : ∃ (L : Look) (e : Meta) (t : Bytes), L.fmt = .short ∧ e.isBinary = false ∧ e.priority < 8 ∧ NoNul t ∧
    e.tag.length + e.pname.length + e.tname.length + t.length ≤ 4076 ∧
    ∀ (r buf : Bytes) (len : Nat), buf.length = 5 * 1024 + 128 →
    ∃ buf' n, renderFrame L e (t ++ 0 :: r) len buf = some (buf', some n) ∧
      buf'.take n ≠ ((shownLines t).map (lineText L e)).flatten := by
  refine ⟨plainLook,
    tinyMeta,
    List.replicate 400 10, rfl, rfl, by decide, ?_, by decide +kernel, ?_⟩
  · intro b hb; rw [(List.mem_replicate.mp hb).2]; decide
  · intro r buf len hbuf
    obtain ⟨buf', n, h1, _, h3, h4⟩ := C39_text plainLook
      tinyMeta
      (List.replicate 400 10) r buf len (by decide) rfl (by decide)
      (by intro b hb; rw [(List.mem_replicate.mp hb).2]; decide) (by intro e; rw [e] at hbuf; simp at hbuf)
    refine ⟨buf', n, h1, ?_⟩
    intro hcon
    have hl := congrArg List.length h4
    rw [hcon, cut_length, hbuf, manyLines_length] at hl
    omega

/-! ### CSV -/

/-- C63: a file of CSV lines is read back to the entries: every field and the
whole payload, whatever bytes it holds. Names and tags must not contain commas. -/
theorem C63_csv (es : List (Meta × Bytes))
    (h : ∀ x ∈ es, (∀ b ∈ x.1.tag, b ≠ 44) ∧ (∀ b ∈ x.1.pname, b ≠ 44) ∧ (∀ b ∈ x.1.tname, b ≠ 44)) :
    csvReadAll (es.length + 1) (es.map fun x => csvLine x.1 x.2).flatten = some (es.map fun x => rowOf x.1 x.2) := by
  induction es with
  | nil => rfl
  | cons x es ih =>
    obtain ⟨h1, h2, h3⟩ := h x (by simp)
    have hr := csvRead_line x.1 x.2 (es.map fun x => csvLine x.1 x.2).flatten h1 h2 h3
    rw [List.map_cons, List.flatten_cons]
    have he : csvLine x.1 x.2 ++ (es.map fun x => csvLine x.1 x.2).flatten =
        csvPrefix x.1 x.2.length ++ x.2 ++ [10] ++ (es.map fun x => csvLine x.1 x.2).flatten := rfl
    rw [he]
    have hne : csvPrefix x.1 x.2.length ++ x.2 ++ [10] ++ (es.map fun x => csvLine x.1 x.2).flatten ≠ [] := by simp
    rw [List.length_cons, csvReadAll, if_neg hne, hr, Option.bind_some]
    rw [ih (fun y hy => h y (by simp [hy]))]
    rfl

/-- C63 does not extend to names with commas: two different entries give the same line. -/
theorem C63_false_comma (e : Meta) (a b c payload : Bytes) :
    csvLine { e with tag := a ++ 44 :: b, pname := c } payload = csvLine { e with tag := a, pname := b ++ 44 :: c } payload ∧
    ({ e with tag := a ++ 44 :: b, pname := c } : Meta) ≠ { e with tag := a, pname := b ++ 44 :: c } := by
  refine ⟨?_, fun h => ?_⟩
  · unfold csvLine csvPrefix
    dsimp only
    simp only [List.append_assoc, List.cons_append, List.nil_append]
  revert h
  intro h
  have := congrArg (fun e => e.tag.length) h
  simp at this

/-- C63: the payload of a binary entry gives back its bytes. -/
theorem C63_binary (e : Meta) (msg : Bytes) (len : Nat) (hb : e.isBinary = true) :
    unhexDump (csvPayload e msg len) = msg.take len := by
  unfold csvPayload; rw [hb, if_pos rfl, unhexDump_hexDump]

/-- C63 is false for large binary entries: no entry with more than 2604 bytes of
data is shown at all (2 bytes of hexadecimal for each). -/
theorem C63_false_large (L : Look) (e : Meta) (msg buf : Bytes) (len : Nat) (hf : L.fmt = .csv) (hb : e.isBinary = true)
    (hbuf : buf.length = 5 * 1024 + 128) (hl : len = msg.length) (h : 2604 < len) :
    ∃ buf', renderFrame L e msg len buf = some (buf', none) := by
  obtain ⟨buf', _, h2⟩ := C39_csv L e msg buf len hf (by rw [hb, if_pos rfl]; omega)
  rcases h2 with ⟨_, h2⟩ | ⟨h2, _⟩
  · exact ⟨buf', h2⟩
  · exfalso
    have hpl : (csvPayload e msg len).length = 2 * len := by
      unfold csvPayload; rw [hb, if_pos rfl, hexDump_length, List.length_take]; omega
    unfold csvLine csvPrefix at h2
    simp only [hpl, List.length_append, List.length_cons, List.length_nil, hexPad, List.length_replicate] at h2
    omega

/-- C63: other entries are all shown in CSV: text entries and binary entries of
up to 2000 bytes. -/
theorem C63_shown (L : Look) (e : Meta) (msg buf : Bytes) (len : Nat) (hf : L.fmt = .csv)
    (hm : if e.isBinary then len ≤ msg.length ∧ len ≤ 2000 ∧ e.tag.length + e.pname.length + e.tname.length ≤ 900
      else 0 ∈ msg ∧ e.tag.length + e.pname.length + e.tname.length + (cstr msg).length ≤ 4076)
    (hbuf : buf.length = 5 * 1024 + 128)
    (hp : e.priority < 8) (hc : e.color < 16777216) (hpid : -2147483648 ≤ e.pid ∧ e.pid < 2147483648)
    (htid : -2147483648 ≤ e.tid ∧ e.tid < 2147483648) :
    ∃ buf', renderFrame L e msg len buf = some (buf', some (csvLine e (csvPayload e msg len)).length) ∧
      buf'.take (csvLine e (csvPayload e msg len)).length = csvLine e (csvPayload e msg len) := by
  have hdec : ∀ k n : Nat, n < 10 ^ (k + 1) → (decNat n).length ≤ k + 1 := by
    intro k
    induction k with
    | zero => intro n hn; unfold decNat; rw [dif_pos (by omega)]; simp
    | succ k ih =>
      intro n hn
      unfold decNat
      split
      · simp
      · have := ih (n / 10) (by rw [Nat.pow_succ] at hn; omega)
        simp only [List.length_append, List.length_cons, List.length_nil]; omega
  have hhex : ∀ k n : Nat, n < 16 ^ (k + 1) → (hexNat n).length ≤ k + 1 := by
    intro k
    induction k with
    | zero => intro n hn; unfold hexNat; rw [dif_pos (by omega)]; simp
    | succ k ih =>
      intro n hn
      unfold hexNat
      split
      · simp
      · have := ih (n / 16) (by rw [Nat.pow_succ] at hn; omega)
        simp only [List.length_append, List.length_cons, List.length_nil]; omega
  have hint : ∀ i : Int, -2147483648 ≤ i ∧ i < 2147483648 → (decInt i).length ≤ 11 := by
    intro i hi
    cases i with
    | ofNat n =>
      have := hdec 9 n (by have : (n : Int) < 2147483648 := hi.2; omega)
      show (decNat n).length ≤ 11
      omega
    | negSucc n =>
      have := hdec 9 (n + 1) (by omega)
      show (45 :: decNat (n + 1)).length ≤ 11
      rw [List.length_cons]; omega
  have hu : ∀ i : Int, toU32 i < 16 ^ (7 + 1) := by intro i; unfold toU32; have := Int.emod_lt_of_pos i (by decide : (0 : Int) < 4294967296); have := Int.emod_nonneg i (by decide : (4294967296 : Int) ≠ 0); show (i % 4294967296).toNat < _; omega
  have hpay : (csvPayload e msg len).length ≤ 4076 ∧
      e.tag.length + e.pname.length + e.tname.length + (csvPayload e msg len).length ≤ 4976 := by
    unfold csvPayload
    cases hb : e.isBinary
    · rw [hb] at hm
      simp only [Bool.false_eq_true, if_false] at hm ⊢
      omega
    · rw [hb] at hm
      simp only [if_true] at hm ⊢
      rw [hexDump_length, List.length_take]; omega
  have hlen : (csvLine e (csvPayload e msg len)).length ≤ buf.length := by
    generalize csvPayload e msg len = pay at hpay
    have a1 := hhex 7 _ (hu e.sec)
    have a2 := hhex 7 _ (hu e.nsec)
    have a3 := hhex 5 e.color hc
    have a4 := hdec 0 e.priority (by omega)
    have a5 : (decNat (if e.isBinary then 1 else 0)).length ≤ 1 := hdec 0 _ (by split <;> decide)
    have a6 := hint e.pid hpid
    have a7 := hint e.tid htid
    have a8 := hdec 3 pay.length (by omega)
    unfold csvLine csvPrefix
    simp only [List.length_append, List.length_cons, List.length_nil, hexPad, List.length_replicate]
    omega
  obtain ⟨buf', _, h2⟩ := C39_csv L e msg buf len hf (by
    cases hb : e.isBinary
    · rw [hb] at hm; simp at hm ⊢; exact hm.1
    · rw [hb] at hm; simp at hm ⊢; exact hm.1)
  rcases h2 with ⟨h2, _⟩ | ⟨_, h2, h3⟩
  · omega
  · exact ⟨buf', h2, h3⟩

/-- **C39:** the letter of a line is the one that libulog reads as this level; all levels
from 2 to 7 have their own, 0 and 1 are shown as a space. -/
theorem C39_letter (p : Nat) : (2 ≤ p → p ≤ 7 → Verif.Libulog.parseLevel (prioChar p) = p) ∧ (p ≤ 1 → prioChar p = 32) := by
  refine ⟨fun h2 h7 => ?_, fun h => ?_⟩
  · have : p = 2 ∨ p = 3 ∨ p = 4 ∨ p = 5 ∨ p = 6 ∨ p = 7 := by omega
    rcases this with rfl | rfl | rfl | rfl | rfl | rfl <;> decide +kernel
  · have : p = 0 ∨ p = 1 := by omega
    rcases this with rfl | rfl <;> rfl

end Verif.Ulogcat
