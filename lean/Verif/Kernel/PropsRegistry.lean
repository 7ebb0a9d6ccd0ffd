import Verif.Kernel.Registry
import Verif.Kernel.Trace

/-!
# The set of log devices (C15, C56-C58)
-/
namespace Verif.Kernel
open Verif

/-- A small letter of ASCII or Latin-1. -/
def SmallLetter (b : UInt8) : Prop := (97 ≤ b.toNat ∧ b.toNat ≤ 122) ∨ (223 ≤ b.toNat ∧ b.toNat ≠ 247)

/-- A name a log device may have. -/
def DevName (n : Bytes) : Prop := ∃ l, n = ascii "ulog_" ++ l ∧ (∀ b ∈ l, SmallLetter b) ∧ l.length ≤ 10

/-- The devices are well formed. -/
structure DevsOk (ds : List RLog) : Prop where
  first : ds.head?.map RLog.name = some (ascii "ulog_main")
  distinct : (ds.map RLog.name).Nodup
  name : ∀ d ∈ ds, DevName d.name
  size : ∀ d ∈ ds, ∃ p, 14 ≤ p ∧ p ≤ 24 ∧ d.size = 2 ^ p
  few : ds.length ≤ 16

theorem klower_iff (b : UInt8) : klower b = true ↔ SmallLetter b := by
  unfold klower SmallLetter
  have h : ∀ n : Nat, (hn : n < 256) → (((97 ≤ UInt8.ofNat n && UInt8.ofNat n ≤ 122) ||
      (223 ≤ UInt8.ofNat n && UInt8.ofNat n != 247)) = true ↔ (97 ≤ n ∧ n ≤ 122) ∨ (223 ≤ n ∧ n ≠ 247)) := by
    decide +kernel
  have := h b.toNat b.toNat_lt
  rwa [UInt8.ofNat_toNat] at this

theorem slots_filterMap (ds : List RLog) (m : Nat) :
    (ds.map some ++ List.replicate m none).filterMap (id : Option RLog → Option RLog) = ds := by
  rw [List.filterMap_append]
  have h1 : (ds.map some).filterMap (id : Option RLog → Option RLog) = ds := by
    induction ds with
    | nil => rfl
    | cons d ds ih => simp
  have h2 : (List.replicate m (none : Option RLog)).filterMap id = [] := by
    induction m with
    | zero => rfl
    | succ m ih => simp [List.replicate_succ]
  rw [h1, h2, List.append_nil]

theorem place_map (d : RLog) (reg : Bool) (ds : List RLog) (m : Nat) :
    place d reg (ds.map some ++ List.replicate m none) =
      if d.name ∉ ds.map RLog.name ∧ m ≠ 0 ∧ reg = true then
        some ((ds ++ [d]).map some ++ List.replicate (m - 1) none) else none := by
  induction ds with
  | nil =>
    cases m with
    | zero => simp [place]
    | succ m => cases reg <;> simp [place, List.replicate_succ]
  | cons x ds ih =>
    simp only [List.map_cons, List.cons_append, place]
    by_cases hx : x.name = d.name
    · rw [if_pos hx, if_neg]
      intro h
      exact h.1 (by rw [hx]; exact List.mem_cons_self)
    · rw [if_neg hx, ih]
      by_cases hc : d.name ∉ ds.map RLog.name ∧ m ≠ 0 ∧ reg = true
      · rw [if_pos hc, if_pos]
        · simp
        · refine ⟨?_, hc.2⟩
          simp only [List.mem_cons, not_or]
          exact ⟨Ne.symm hx, hc.1⟩
      · rw [if_neg hc, if_neg]
        · rfl
        · intro h
          refine hc ⟨?_, h.2⟩
          intro hm
          exact h.1 (List.mem_cons_of_mem _ hm)

/-- The slots in use are the first ones. -/
def Packed (r : Reg) : Prop := ∃ ds : List RLog, ds.length ≤ 16 ∧
  r.slots = ds.map some ++ List.replicate (16 - ds.length) none

theorem Packed.eq {r : Reg} (h : Packed r) : r.devs.length ≤ 16 ∧
    r.slots = r.devs.map some ++ List.replicate (16 - r.devs.length) none := by
  obtain ⟨ds, h1, h2⟩ := h
  have : r.devs = ds := by unfold Reg.devs; rw [h2]; exact slots_filterMap _ _
  rw [this]; exact ⟨h1, h2⟩

/-- What a request does to well packed slots. -/
theorem addLog_cases {r : Reg} (h : Packed r) (buf : Bytes) (g : Grant) :
    ((addLog r buf g).1 = r ∧ ∀ n, (addLog r buf g).2 ≠ .done n) ∨
    ∃ word size, scanSpec buf = some (word, size) ∧ specOk word size = true ∧ g.log = true ∧ g.buffer = true ∧
      g.name = true ∧ g.register = true ∧ word ∉ r.devs.map RLog.name ∧ r.devs.length < 16 ∧
      (addLog r buf g).2 = .done buf.length ∧ Packed (addLog r buf g).1 ∧
      (addLog r buf g).1.devs = r.devs ++ [{ name := word, size := 2 ^ size, buf := true }] := by
  obtain ⟨h1, h2⟩ := h.eq
  unfold addLog
  cases hs : scanSpec buf with
  | none => exact Or.inl ⟨rfl, fun n e => by cases e⟩
  | some p =>
    obtain ⟨word, size⟩ := p
    simp only
    by_cases hok : specOk word size = true
    · rw [if_pos hok]
      by_cases hg : (g.log && g.buffer) = true
      · rw [if_pos hg]
        by_cases hn : g.name = true
        · rw [if_pos hn, h2, place_map]
          split
          · rename_i s hp
            split at hp
            · rename_i hc
              injection hp with hp
              have hlt : r.devs.length < 16 := by have := hc.2.1; omega
              have hlen : (r.devs ++ [({ name := word, size := 2 ^ size, buf := true } : RLog)]).length =
                  r.devs.length + 1 := by simp
              rw [Bool.and_eq_true] at hg
              refine Or.inr ⟨word, size, rfl, hok, hg.1, hg.2, hn, hc.2.2, hc.1, hlt, rfl, ?_, ?_⟩
              · refine ⟨r.devs ++ [{ name := word, size := 2 ^ size, buf := true }], by omega, ?_⟩
                rw [← hp, hlen]; rfl
              · unfold Reg.devs at hp ⊢
                rw [← hp]; exact slots_filterMap _ _
            · cases hp
          · exact Or.inl ⟨rfl, fun n e => by cases e⟩
        · rw [if_neg hn]; exact Or.inl ⟨rfl, fun n e => by cases e⟩
      · rw [if_neg hg]; exact Or.inl ⟨rfl, fun n e => by cases e⟩
    · rw [if_neg hok]; exact Or.inl ⟨rfl, fun n e => by cases e⟩

theorem RegReach.packed {mainSize : Int} {got : Bool} {r : Reg} (h : RegReach mainSize got r) : Packed r := by
  induction h with
  | init register hi =>
    unfold regInit at hi
    split at hi
    · injection hi with hi
      exact ⟨[{ name := ascii "ulog_main", size := 2 ^ mainSize.toNat, buf := got }], by simp, by rw [← hi]; rfl⟩
    · cases hi
  | add buf g _ _ ih =>
    rcases addLog_cases ih buf g with ⟨e, _⟩ | ⟨_, _, _, _, _, _, _, _, _, _, _, e, _⟩
    · rw [e]; exact ih
    · exact e

theorem scan_word {buf word : Bytes} {size : Nat} (h : scanSpec buf = some (word, size)) :
    word.length ≤ 15 ∧ size < 4294967296 := by
  unfold scanSpec at h
  simp only at h
  split at h
  · cases h
  · injection h with h
    injection h with h1 h2
    subst h1
    refine ⟨by rw [List.length_take]; omega, ?_⟩
    rw [← h2]; exact Nat.mod_lt _ (by decide)

theorem specOk_spec {word : Bytes} {size : Nat} (hw : word.length ≤ 15) (hs : size < 4294967296)
    (h : specOk word size = true) : DevName word ∧ 14 ≤ size ∧ size ≤ 24 := by
  unfold specOk at h
  simp only [Bool.and_eq_true, beq_iff_eq, List.all_eq_true] at h
  obtain ⟨⟨h1, h2⟩, h3⟩ := h
  refine ⟨⟨word.drop 5, ?_, ?_, ?_⟩, ?_⟩
  · rw [← h1, List.take_append_drop]
  · intro b hb; exact (klower_iff b).mp (h2 b hb)
  · rw [List.length_drop]; omega
  · unfold checkBufSize toInt32 at h3
    simp only [Bool.and_eq_true, decide_eq_true_eq] at h3
    have e : size % 4294967296 = size := Nat.mod_eq_of_lt hs
    rw [e] at h3
    split at h3 <;> omega

/-- **C15.** Whatever is requested, the devices stay well formed. -/
theorem C15_devices {mainSize : Int} {got : Bool} {r : Reg} (h : RegReach mainSize got r) : DevsOk r.devs := by
  induction h with
  | init register hi =>
    unfold regInit at hi
    split at hi
    · rename_i hc
      injection hi with hi
      rw [← hi]
      show DevsOk [{ name := ascii "ulog_main", size := 2 ^ mainSize.toNat, buf := got }]
      unfold checkBufSize at hc
      simp only [Bool.and_eq_true, decide_eq_true_eq] at hc
      refine ⟨rfl, by simp, ?_, ?_, by simp⟩
      · intro d hd
        rw [List.mem_singleton] at hd
        subst hd
        refine ⟨ascii "main", rfl, ?_, by decide⟩
        show ∀ b ∈ ascii "main", SmallLetter b
        unfold SmallLetter
        decide
      · intro d hd
        rw [List.mem_singleton] at hd
        subst hd
        exact ⟨mainSize.toNat, by omega, by omega, rfl⟩
    · cases hi
  | @add r buf g hr _ ih =>
    rcases addLog_cases hr.packed buf g with ⟨e, _⟩ | ⟨word, size, hs, hok, _, _, _, _, hnew, hlt, _, _, e⟩
    · rw [e]; exact ih
    · rw [e]
      obtain ⟨hw, hz⟩ := scan_word hs
      obtain ⟨hn, h14, h24⟩ := specOk_spec hw hz hok
      refine ⟨?_, ?_, ?_, ?_, ?_⟩
      · have := ih.first
        cases hd : r.devs with
        | nil => rw [hd] at this; cases this
        | cons d ds => rw [hd] at this; exact this
      · rw [List.map_append, List.nodup_append]
        refine ⟨ih.distinct, by simp, ?_⟩
        intro a ha b hb e'
        simp only [List.map_cons, List.map_nil, List.mem_singleton] at hb
        exact hnew (by rw [← hb, ← e']; exact ha)
      · intro d hd
        rcases List.mem_append.mp hd with hd | hd
        · exact ih.name d hd
        · rw [List.mem_singleton] at hd; subst hd; exact hn
      · intro d hd
        rcases List.mem_append.mp hd with hd | hd
        · exact ih.size d hd
        · rw [List.mem_singleton] at hd; subst hd; exact ⟨size, h14, h24, rfl⟩
      · simp; omega

/-- **C15.** A request that is not accepted changes nothing; one that is adds one
device at the end. -/
theorem C15_request {mainSize : Int} {got : Bool} {r : Reg} (h : RegReach mainSize got r) (buf : Bytes) (g : Grant) :
    (((addLog r buf g).2 ≠ .done buf.length) → (addLog r buf g).1 = r) ∧
    ((addLog r buf g).2 = .done buf.length → ∃ d, (addLog r buf g).1.devs = r.devs ++ [d] ∧ d.buf = true) := by
  rcases addLog_cases h.packed buf g with ⟨e, hne⟩ | ⟨word, size, _, _, _, _, _, _, _, _, hd, _, e⟩
  · exact ⟨fun _ => e, fun hd => absurd hd (hne _)⟩
  · exact ⟨fun hn => absurd hd hn, fun _ => ⟨_, e, rfl⟩⟩

theorem strtoull_mod (l : Bytes) : strtoull l % 4294967296 = parseDec l % 4294967296 := by
  have h : ∀ (l : Bytes) (n m : Nat), n = m % 18446744073709551616 →
      l.foldl (fun n b => (n * 10 + (b.toNat - 48)) % 18446744073709551616) n =
        l.foldl (fun n b => 10 * n + (b.toNat - 48)) m % 18446744073709551616 := by
    intro l
    induction l with
    | nil => intro n m h; exact h
    | cons b l ih =>
      intro n m h
      simp only [List.foldl_cons]
      refine ih _ _ ?_
      rw [h]; omega
  unfold strtoull parseDec
  rw [h l 0 0 rfl, Nat.mod_mod_of_dvd _ (by decide)]

/-- White space as the kernel has it: tab to carriage return, space, no-break space. -/
def White (b : UInt8) : Prop := (9 ≤ b.toNat ∧ b.toNat ≤ 13) ∨ b.toNat = 32 ∨ b.toNat = 160

def Digit (b : UInt8) : Prop := 48 ≤ b.toNat ∧ b.toNat ≤ 57

/-- How the text of a request is read. -/
structure ReqText (buf word digits : Bytes) : Prop where
  split : ∃ ws ws2 tail, cstr buf = ws ++ word ++ ws2 ++ digits ++ tail ∧ (∀ b ∈ ws, White b) ∧
    (∀ b ∈ ws2, White b) ∧ (∀ b, tail.head? = some b → ¬ Digit b) ∧ (word.length < 15 → ws2 ≠ [])
  word : ∀ b ∈ word, ¬ White b
  some : digits ≠ []
  digits : ∀ b ∈ digits, Digit b

theorem kspace_iff (b : UInt8) : kspace b = true ↔ White b := by
  have h160 : (b = 160) ↔ b.toNat = 160 := by rw [← UInt8.toNat_inj]; rfl
  have h32 : (b = 32) ↔ b.toNat = 32 := by rw [← UInt8.toNat_inj]; rfl
  unfold kspace White
  simp only [Bool.or_eq_true, Bool.and_eq_true, decide_eq_true_eq, UInt8.le_iff_toNat_le, h160, h32, or_assoc]
  rfl

theorem kdigit_iff (b : UInt8) : kdigit b = true ↔ Digit b := by
  unfold kdigit Digit
  simp only [Bool.and_eq_true, decide_eq_true_eq, UInt8.le_iff_toNat_le]
  rfl

/-- The same with the functions of the model. -/
structure ReqRead (buf word digits : Bytes) : Prop where
  split : ∃ ws ws2 tail, cstr buf = ws ++ word ++ ws2 ++ digits ++ tail ∧ (∀ b ∈ ws, kspace b = true) ∧
    (∀ b ∈ ws2, kspace b = true) ∧ (∀ b, tail.head? = some b → kdigit b = false) ∧ (word.length < 15 → ws2 ≠ [])
  word : ∀ b ∈ word, kspace b = false
  some : digits ≠ []
  digits : ∀ b ∈ digits, kdigit b = true

theorem reqRead_iff {buf word digits : Bytes} : ReqRead buf word digits ↔ ReqText buf word digits := by
  have e1 : ∀ b, kspace b = false ↔ ¬ White b := fun b => by rw [← kspace_iff]; simp
  have e2 : ∀ b, kdigit b = false ↔ ¬ Digit b := fun b => by rw [← kdigit_iff]; simp
  constructor
  · rintro ⟨h1, h2, h3, h4⟩
    simp only [kspace_iff, kdigit_iff, e1, e2] at h1 h2 h4
    exact ⟨h1, h2, h3, h4⟩
  · rintro ⟨h1, h2, h3, h4⟩
    refine ⟨?_, ?_, h3, ?_⟩
    · simp only [kspace_iff, e2]; exact h1
    · simp only [e1]; exact h2
    · simp only [kdigit_iff]; exact h4

theorem head_dropWhile {α} {p : α → Bool} {l : List α} {b : α} (h : (l.dropWhile p).head? = some b) : p b = false := by
  induction l with
  | nil => cases h
  | cons a l ih =>
    rw [List.dropWhile_cons] at h
    split at h
    · exact ih h
    · rename_i ha
      injection h with h
      rw [← h]; simpa using ha

theorem scan_text {buf word : Bytes} {size : Nat} (h : scanSpec buf = some (word, size)) :
    ∃ digits, ReqRead buf word digits ∧ size = parseDec digits % 4294967296 := by
  unfold scanSpec at h
  simp only at h
  split at h
  · cases h
  · rename_i hne
    injection h with h
    injection h with h1 h2
    generalize hs : (cstr buf).dropWhile kspace = s at *
    have hw : word = (s.takeWhile fun b => !kspace b).take 15 := h1.symm
    have hwd : word ++ s.drop word.length = s := by
      have hpre : word <+: s := by
        rw [hw]
        exact (List.take_prefix _ _).trans (List.takeWhile_prefix _)
      obtain ⟨t, ht⟩ := hpre
      rw [← ht, List.drop_left]
    rw [h1] at h2 hne
    generalize hr : s.drop word.length = rest at *
    refine ⟨(rest.dropWhile kspace).takeWhile kdigit, ⟨⟨(cstr buf).takeWhile kspace, rest.takeWhile kspace,
      (rest.dropWhile kspace).dropWhile kdigit, ?_, ?_, ?_, ?_, ?_⟩, ?_, ?_, ?_⟩, ?_⟩
    · calc cstr buf = (cstr buf).takeWhile kspace ++ s := by rw [← hs, List.takeWhile_append_dropWhile]
        _ = (cstr buf).takeWhile kspace ++ (word ++ (rest.takeWhile kspace ++ rest.dropWhile kspace)) := by
          rw [List.takeWhile_append_dropWhile, hwd]
        _ = (cstr buf).takeWhile kspace ++ (word ++ (rest.takeWhile kspace ++
              ((rest.dropWhile kspace).takeWhile kdigit ++ (rest.dropWhile kspace).dropWhile kdigit))) := by
          rw [List.takeWhile_append_dropWhile (p := kdigit)]
        _ = _ := by simp only [List.append_assoc]
    · exact fun b hb => List.all_eq_true.mp List.all_takeWhile b hb
    · exact fun b hb => List.all_eq_true.mp List.all_takeWhile b hb
    · exact fun b hb => head_dropWhile hb
    · intro hlt hnil
      -- the word is complete, so what follows it is white space
      have hfull : word = s.takeWhile fun b => !kspace b := by
        rw [hw, List.length_take] at hlt
        rw [hw, List.take_of_length_le (by omega)]
      have hrest : rest = s.dropWhile fun b => !kspace b := by
        have := List.takeWhile_append_dropWhile (p := fun b => !kspace b) (l := s)
        rw [← hfull] at this
        exact List.append_cancel_left (hwd.trans this.symm)
      cases hrr : rest with
      | nil => rw [hrr] at hne; exact hne rfl
      | cons c t =>
        have hsp := head_dropWhile (p := fun b => !kspace b) (l := s) (b := c) (by rw [← hrest, hrr]; rfl)
        rw [hrr, List.takeWhile_cons, if_pos (by simpa using hsp)] at hnil
        cases hnil
    · intro b hb
      rw [hw] at hb
      have := List.all_eq_true.mp List.all_takeWhile b (List.mem_of_mem_take hb)
      simpa using this
    · intro e; rw [e] at hne; exact hne rfl
    · exact fun b hb => List.all_eq_true.mp List.all_takeWhile b hb
    · rw [← h2, strtoull_mod]

theorem dropWhile_append_all {α} {p : α → Bool} {l r : List α} (h1 : ∀ x ∈ l, p x = true)
    (h2 : ∀ x, r.head? = some x → p x = false) : (l ++ r).dropWhile p = r := by
  induction l with
  | nil =>
    cases r with
    | nil => rfl
    | cons x r =>
      rw [List.nil_append, List.dropWhile_cons, if_neg]
      rw [h2 x rfl]; decide
  | cons a l ih =>
    rw [List.cons_append, List.dropWhile_cons, if_pos (h1 a List.mem_cons_self)]
    exact ih (fun x hx => h1 x (List.mem_cons_of_mem _ hx))

/-- A digit is not white space. -/
theorem kdigit_kspace {b : UInt8} (h : kdigit b = true) : kspace b = false := by
  have hk : ∀ n : Nat, (hn : n < 256) → kdigit (UInt8.ofNat n) = true → kspace (UInt8.ofNat n) = false := by
    decide +kernel
  have := hk b.toNat b.toNat_lt
  rw [UInt8.ofNat_toNat] at this
  exact this h

/-- A text is read in one way only. -/
theorem scan_of_text {buf word digits : Bytes} (h : ReqRead buf word digits) (hne : word ≠ []) (h15 : word.length ≤ 15) :
    scanSpec buf = some (word, parseDec digits % 4294967296) := by
  obtain ⟨ws, ws2, tail, he, h1, h2, h3, h4⟩ := h.split
  have hdig : ∀ (l : Bytes) x, (digits ++ l).head? = some x → kspace x = false := by
    intro l x hx
    cases hd : digits with
    | nil => exact absurd hd h.some
    | cons y t =>
      rw [hd] at hx
      injection hx with hx
      subst hx
      exact kdigit_kspace (h.digits y (by rw [hd]; exact List.mem_cons_self))
  have hs : (cstr buf).dropWhile kspace = word ++ (ws2 ++ (digits ++ tail)) := by
    rw [he]
    simp only [List.append_assoc]
    refine dropWhile_append_all h1 ?_
    intro x hx
    cases hw : word with
    | nil => exact absurd hw hne
    | cons y t =>
      rw [hw] at hx
      injection hx with hx
      subst hx
      exact h.word y (by rw [hw]; exact List.mem_cons_self)
  have hword : ((word ++ (ws2 ++ (digits ++ tail))).takeWhile fun b => !kspace b).take 15 = word := by
    rw [List.takeWhile_append_of_pos (fun b hb => by rw [h.word b hb]; rfl)]
    by_cases hlt : word.length < 15
    · cases hw2 : ws2 with
      | nil => exact absurd hw2 (h4 hlt)
      | cons y t =>
        have hy : kspace y = true := h2 y (by rw [hw2]; exact List.mem_cons_self)
        rw [List.cons_append, List.takeWhile_cons, if_neg (by rw [hy]; decide), List.append_nil,
          List.take_of_length_le h15]
    · rw [List.take_append_of_le_length (by omega), List.take_of_length_le h15]
  unfold scanSpec
  simp only
  rw [hs, hword, List.drop_left, dropWhile_append_all h2 (hdig tail), takeWhile_append_all h.digits h3, if_neg]
  · rw [strtoull_mod]
  · rw [List.isEmpty_iff]; exact h.some

/-- **C56.** An accepted request reads as white space, the name of the new
device, digits, and anything else. The name, unless it has 15 characters, is a
whole word of the text; the number, cut to 32 bits, is the logarithm of the size. -/
theorem C56_text {mainSize : Int} {got : Bool} {r : Reg} (h : RegReach mainSize got r) {buf : Bytes} {g : Grant}
    {n : Nat} (hacc : (addLog r buf g).2 = .done n) :
    ∃ d digits, n = buf.length ∧ (addLog r buf g).1.devs = r.devs ++ [d] ∧ ReqText buf d.name digits ∧
      d.size = 2 ^ (parseDec digits % 4294967296) ∧ (parseDec digits < 4294967296 → d.size = 2 ^ parseDec digits) := by
  rcases addLog_cases h.packed buf g with ⟨_, hne⟩ | ⟨word, size, hs, _, _, _, _, _, _, _, hd, _, e⟩
  · exact absurd hacc (hne n)
  · obtain ⟨digits, ht, hz⟩ := scan_text hs
    rw [hd] at hacc
    injection hacc with hacc
    refine ⟨_, digits, hacc.symm, e, reqRead_iff.1 ht, by rw [hz], ?_⟩
    intro hlt
    rw [hz, Nat.mod_eq_of_lt hlt]

theorem isDigit_kdigit (b : UInt8) : isDigit b = kdigit b := by
  unfold isDigit kdigit
  rw [Bool.eq_iff_iff]
  simp

theorem cstr_append {l : Bytes} (h : NoNul l) (r : Bytes) : cstr (l ++ r) = l ++ cstr r := by
  unfold cstr
  rw [List.takeWhile_append_of_pos]
  intro b hb
  have := h b hb
  simpa using this

/-- A letter or digit is neither white space nor NUL. -/
theorem name_bytes {n : Bytes} (h : DevName n) : ∀ b ∈ n, b ≠ 0 ∧ kspace b = false := by
  obtain ⟨l, rfl, hl, _⟩ := h
  intro b hb
  rcases List.mem_append.mp hb with hb | hb
  · exact (show ∀ b ∈ ascii "ulog_", b ≠ 0 ∧ kspace b = false by decide) b hb
  · have := hl b hb
    have hk : ∀ n : Nat, (hn : n < 256) → ((97 ≤ n ∧ n ≤ 122) ∨ (223 ≤ n ∧ n ≠ 247)) →
        UInt8.ofNat n ≠ 0 ∧ kspace (UInt8.ofNat n) = false := by decide +kernel
    have := hk b.toNat b.toNat_lt this
    rwa [UInt8.ofNat_toNat] at this

theorem DevName.length {n : Bytes} (h : DevName n) : 5 ≤ n.length ∧ n.length ≤ 15 := by
  obtain ⟨l, rfl, _, hl⟩ := h
  have : (ascii "ulog_").length = 5 := rfl
  rw [List.length_append, this]
  omega

theorem decNat_ne_nil (n : Nat) : decNat n ≠ [] := by
  unfold decNat
  split <;> simp

theorem kdigit_ne_zero {b : UInt8} (h : kdigit b = true) : b ≠ 0 ∧ kspace b = false := by
  have hk : ∀ n : Nat, (hn : n < 256) → kdigit (UInt8.ofNat n) = true →
      UInt8.ofNat n ≠ 0 ∧ kspace (UInt8.ofNat n) = false := by decide +kernel
  have := hk b.toNat b.toNat_lt
  rw [UInt8.ofNat_toNat] at this
  exact this h

/-- Reading of a name, a space and a number. -/
theorem scan_canonical {name : Bytes} (hn : DevName name) (p : Nat) {rest : Bytes}
    (hrest : ∀ b, rest.head? = some b → kdigit b = false) :
    scanSpec (name ++ [32] ++ decNat p ++ rest) = some (name, p % 4294967296) := by
  have hb := name_bytes hn
  have hd : ∀ b ∈ decNat p, kdigit b = true := fun b h => by rw [← isDigit_kdigit]; exact decNat_digits p b h
  have hc : cstr (name ++ [32] ++ decNat p ++ rest) = name ++ (32 :: (decNat p ++ cstr rest)) := by
    have hnn : NoNul (name ++ [32] ++ decNat p) := by
      intro b h
      rcases List.mem_append.mp h with h | h
      · rcases List.mem_append.mp h with h | h
        · exact (hb b h).1
        · rw [List.mem_singleton] at h; rw [h]; decide
      · exact (kdigit_ne_zero (hd b h)).1
    rw [cstr_append hnn]
    simp
  have hlen := hn.length
  have h1 : (name ++ (32 :: (decNat p ++ cstr rest))).dropWhile kspace = name ++ (32 :: (decNat p ++ cstr rest)) := by
    cases name with
    | nil => simp at hlen
    | cons b t =>
      rw [List.cons_append, List.dropWhile_cons, if_neg]
      have := (hb b List.mem_cons_self).2
      simp [this]
  have h2 : (name ++ (32 :: (decNat p ++ cstr rest))).takeWhile (fun b => !kspace b) = name := by
    refine takeWhile_append_all (fun b h => by rw [(hb b h).2]; rfl) ?_
    intro x hx
    injection hx with hx
    rw [← hx]; decide
  have h3 : (32 :: (decNat p ++ cstr rest)).dropWhile kspace = decNat p ++ cstr rest := by
    rw [List.dropWhile_cons, if_pos (by decide)]
    cases hdn : decNat p with
    | nil => exact absurd hdn (decNat_ne_nil p)
    | cons b t =>
      rw [List.cons_append, List.dropWhile_cons, if_neg]
      have := (kdigit_ne_zero (hd b (by rw [hdn]; exact List.mem_cons_self))).2
      simp [this]
  have h4 : (decNat p ++ cstr rest).takeWhile kdigit = decNat p := by
    refine takeWhile_append_all hd ?_
    intro x hx
    cases hr : rest with
    | nil => rw [hr] at hx; cases hx
    | cons c t =>
      rw [hr] at hx
      unfold cstr at hx
      rw [List.takeWhile_cons] at hx
      split at hx
      · injection hx with hx
        rw [← hx]; exact hrest c (by rw [hr]; rfl)
      · cases hx
  unfold scanSpec
  simp only
  rw [hc, h1, h2, List.take_of_length_le hlen.2, List.drop_left, h3, h4, if_neg]
  · rw [strtoull_mod, parseDec_decNat]
  · rw [List.isEmpty_iff]; exact decNat_ne_nil p

theorem specOk_of {name : Bytes} (hn : DevName name) {p : Nat} (h1 : 14 ≤ p) (h2 : p ≤ 24) : specOk name p = true := by
  obtain ⟨l, rfl, hl, _⟩ := hn
  unfold specOk
  simp only [Bool.and_eq_true, beq_iff_eq, List.all_eq_true]
  refine ⟨⟨rfl, ?_⟩, ?_⟩
  · intro b hb
    exact (klower_iff b).mpr (hl b hb)
  · rw [toInt32_small (by omega)]
    unfold checkBufSize
    simp only [Bool.and_eq_true, decide_eq_true_eq]
    omega

theorem kdigit_not {rest : Bytes} (h : ∀ b, rest.head? = some b → ¬ Digit b) : ∀ b, rest.head? = some b → kdigit b = false := by
  intro b hb
  have := h b hb
  rw [← kdigit_iff] at this
  simpa using this

/-- **C15.** A request with a good name that is not in use, a space and a size in
range is granted when there is room and memory. -/
theorem C15_granted {mainSize : Int} {got : Bool} {r : Reg} (h : RegReach mainSize got r) {name : Bytes}
    (hn : DevName name) {p : Nat} (h14 : 14 ≤ p) (h24 : p ≤ 24) {rest : Bytes}
    (hrest : ∀ b, rest.head? = some b → ¬ Digit b) (hnew : ∀ d ∈ r.devs, d.name ≠ name)
    (hroom : r.devs.length < 16) {g : Grant} (hg : g.name = true ∧ g.log = true ∧ g.buffer = true ∧ g.register = true) :
    (addLog r (name ++ [32] ++ decNat p ++ rest) g).1.devs = r.devs ++ [{ name := name, size := 2 ^ p, buf := true }] := by
  obtain ⟨h1, h2⟩ := h.packed.eq
  obtain ⟨g1, g2, g3, g4⟩ := hg
  have hsc := scan_canonical hn p (kdigit_not hrest)
  rw [Nat.mod_eq_of_lt (by omega)] at hsc
  unfold addLog
  rw [hsc]
  simp only [specOk_of hn h14 h24, g1, g2, g3, g4, Bool.and_self, if_true]
  rw [h2, place_map, if_pos]
  · unfold Reg.devs
    exact slots_filterMap _ _
  · refine ⟨?_, by omega, rfl⟩
    intro hm
    obtain ⟨d, hd, e⟩ := List.mem_map.mp hm
    exact hnew d hd e

/-- **C15.** A name in use is refused, and so is every name once there are 16 devices. -/
theorem C15_refused {mainSize : Int} {got : Bool} {r : Reg} (h : RegReach mainSize got r) {name : Bytes}
    (hn : DevName name) {p : Nat} {rest : Bytes}
    (hrest : ∀ b, rest.head? = some b → ¬ Digit b)
    (hbad : (∃ d ∈ r.devs, d.name = name) ∨ r.devs.length = 16 ∨ p < 14 ∨ (24 < p ∧ p < 4294967296)) {g : Grant} :
    (addLog r (name ++ [32] ++ decNat p ++ rest) g).1 = r ∧
    ∀ n, (addLog r (name ++ [32] ++ decNat p ++ rest) g).2 ≠ .done n := by
  rcases addLog_cases h.packed (name ++ [32] ++ decNat p ++ rest) g with e |
    ⟨word, size, hs, hok, _, _, _, _, hnew, hlt, hd, _, e⟩
  · exact e
  · exfalso
    obtain ⟨hw, hz⟩ := scan_word hs
    obtain ⟨_, h14, h24⟩ := specOk_spec hw hz hok
    rw [scan_canonical hn p (kdigit_not hrest)] at hs
    injection hs with hs
    injection hs with hs1 hs2
    rcases hbad with ⟨d, hd, e'⟩ | hbad | hbad | hbad
    · exact hnew (List.mem_map.mpr ⟨d, hd, by rw [e', hs1]⟩)
    · omega
    · omega
    · omega

/-- **C56.** A request is accepted exactly if it reads that way with a good name
that is not in use and a number that is, cut to 32 bits, from 14 to 24, there is
room, and the kernel grants everything. -/
theorem C56_accepted {mainSize : Int} {got : Bool} {r : Reg} (h : RegReach mainSize got r) (buf : Bytes) (g : Grant) :
    (∃ n, (addLog r buf g).2 = .done n) ↔
      (∃ word digits, ReqText buf word digits ∧ DevName word ∧ 14 ≤ parseDec digits % 4294967296 ∧
        parseDec digits % 4294967296 ≤ 24 ∧ ∀ d ∈ r.devs, d.name ≠ word) ∧
      r.devs.length < 16 ∧ g.name = true ∧ g.log = true ∧ g.buffer = true ∧ g.register = true := by
  constructor
  · rintro ⟨n, hacc⟩
    rcases addLog_cases h.packed buf g with ⟨_, hne⟩ | ⟨word, size, hs, hok, g1, g2, g3, g4, hnew, hlt, _, _, _⟩
    · exact absurd hacc (hne n)
    · obtain ⟨digits, ht, hz⟩ := scan_text hs
      obtain ⟨hw, hz'⟩ := scan_word hs
      obtain ⟨hn, h14, h24⟩ := specOk_spec hw hz' hok
      refine ⟨⟨word, digits, reqRead_iff.1 ht, hn, by omega, by omega, ?_⟩, hlt, ?_⟩
      · intro d hd e'
        exact hnew (List.mem_map.mpr ⟨d, hd, e'⟩)
      · exact ⟨by assumption, by assumption, by assumption, by assumption⟩
  · rintro ⟨⟨word, digits, ht, hn, h14, h24, hnew⟩, hroom, g1, g2, g3, g4⟩
    obtain ⟨h1, h2⟩ := h.packed.eq
    have hl := hn.length
    have hsc := scan_of_text (reqRead_iff.2 ht) (by intro e; rw [e] at hl; simp at hl) hl.2
    unfold addLog
    rw [hsc]
    simp only [specOk_of hn h14 h24, g1, g2, g3, g4, Bool.and_self, if_true]
    rw [h2, place_map, if_pos]
    · exact ⟨_, rfl⟩
    · refine ⟨?_, by omega, rfl⟩
      intro hm
      obtain ⟨d, hd, e⟩ := List.mem_map.mp hm
      exact hnew d hd e

/-- **C57.** A request dereferences a null pointer exactly if its text is good,
the descriptor and the buffer could be allocated and the copy of the name could
not. -/
theorem C57_fault (r : Reg) (buf : Bytes) (g : Grant) :
    (addLog r buf g).2 = .fault ↔
      (∃ word digits, ReqText buf word digits ∧ DevName word ∧ 14 ≤ parseDec digits % 4294967296 ∧
        parseDec digits % 4294967296 ≤ 24) ∧ g.name = false ∧ g.log = true ∧ g.buffer = true := by
  constructor
  · intro hf
    unfold addLog at hf
    cases hs : scanSpec buf with
    | none => rw [hs] at hf; cases hf
    | some x =>
      obtain ⟨word, size⟩ := x
      rw [hs] at hf
      simp only at hf
      split at hf
      · rename_i hok
        split at hf
        · rename_i hlb
          split at hf
          · split at hf <;> cases hf
          · rename_i hnm
            obtain ⟨digits, ht, hz⟩ := scan_text hs
            obtain ⟨hw, hz'⟩ := scan_word hs
            obtain ⟨hn, h14, h24⟩ := specOk_spec hw hz' hok
            rw [Bool.and_eq_true] at hlb
            exact ⟨⟨word, digits, reqRead_iff.1 ht, hn, by omega, by omega⟩, by simpa using hnm, hlb.1, hlb.2⟩
        · cases hf
      · cases hf
  · rintro ⟨⟨word, digits, ht, hn, h14, h24⟩, g1, g2, g3⟩
    have hl := hn.length
    have hsc := scan_of_text (reqRead_iff.2 ht) (by intro e; rw [e] at hl; simp at hl) hl.2
    unfold addLog
    rw [hsc]
    simp [specOk_of hn h14 h24, g1, g2, g3]

/-- **C57.** Every registered device has a buffer, except `ulog_main` if its
buffer could not be allocated. -/
theorem C57_buffers {mainSize : Int} {got : Bool} {r : Reg} (h : RegReach mainSize got r) :
    ∃ d ds, r.devs = d :: ds ∧ d.name = ascii "ulog_main" ∧ d.buf = got ∧ ∀ x ∈ ds, x.buf = true := by
  induction h with
  | init register hi =>
    unfold regInit at hi
    split at hi
    · injection hi with hi
      rw [← hi]
      exact ⟨_, [], rfl, rfl, rfl, by simp⟩
    · cases hi
  | @add r b g hr _ ih =>
    obtain ⟨d, ds, e1, e2, e3, e4⟩ := ih
    rcases addLog_cases hr.packed b g with ⟨e, _⟩ | ⟨word, size, _, _, _, _, _, _, _, _, _, _, e⟩
    · rw [e]; exact ⟨d, ds, e1, e2, e3, e4⟩
    · rw [e, e1]
      refine ⟨d, ds ++ [{ name := word, size := 2 ^ size, buf := true }], rfl, e2, e3, ?_⟩
      intro x hx
      rcases List.mem_append.mp hx with hx | hx
      · exact e4 x hx
      · rw [List.mem_singleton] at hx; rw [hx]

/-- **C57 is false.** A good request faults when `kstrdup` fails and the larger
allocations do not, in every state. -/
theorem C57_neg_name (r : Reg) {name : Bytes} (hn : DevName name) {p : Nat} (h14 : 14 ≤ p) (h24 : p ≤ 24) {g : Grant}
    (hg : g.name = false ∧ g.log = true ∧ g.buffer = true) :
    (addLog r (name ++ [32] ++ decNat p) g).2 = .fault := by
  have hsc := scan_canonical hn p (rest := []) (fun b h => by cases h)
  rw [Nat.mod_eq_of_lt (by omega), List.append_nil] at hsc
  unfold addLog
  rw [hsc]
  simp [specOk_of hn h14 h24, hg]

/-- **C57 is false.** `ulog_main` is registered without a buffer. -/
theorem C57_neg_main : ∃ r, RegReach 18 false r ∧ ∃ d ∈ r.devs, d.buf = false :=
  ⟨_, .init true rfl, _, List.mem_cons_self, rfl⟩

/-- **C56 is false.** A word longer than 15 characters is cut and the rest taken
as the number. -/
theorem C56_neg_word (g : Grant) (hg : g.name = true ∧ g.log = true ∧ g.buffer = true ∧ g.register = true) :
    ∃ r, RegReach 18 true r ∧ (addLog r (ascii "ulog_abcdefghij16") g).1.devs =
      r.devs ++ [{ name := ascii "ulog_abcdefghij", size := 65536, buf := true }] := by
  refine ⟨_, .init true rfl, ?_⟩
  obtain ⟨h1, h2, h3, h4⟩ := hg
  have : g = { name := true, log := true, buffer := true, register := true } := by cases g; simp_all
  rw [this]
  decide +kernel

/-- **C56 is false.** 4294967310 is read as 14. -/
theorem C56_neg_size (g : Grant) (hg : g.name = true ∧ g.log = true ∧ g.buffer = true ∧ g.register = true) :
    ∃ r, RegReach 18 true r ∧ (addLog r (ascii "ulog_x 4294967310") g).1.devs =
      r.devs ++ [{ name := ascii "ulog_x", size := 16384, buf := true }] := by
  refine ⟨_, .init true rfl, ?_⟩
  obtain ⟨h1, h2, h3, h4⟩ := hg
  have : g = { name := true, log := true, buffer := true, register := true } := by cases g; simp_all
  rw [this]
  decide +kernel

theorem ffs_pow (p : Nat) : ffs (2 ^ p) = p + 1 := by
  induction p with
  | zero => decide +kernel
  | succ p ih =>
    unfold ffs
    have h1 : 2 ^ (p + 1) = 2 ^ p * 2 := Nat.pow_succ 2 p
    have h2 : 0 < 2 ^ p := Nat.two_pow_pos p
    rw [dif_neg (by omega), if_neg (by omega), show 2 ^ (p + 1) / 2 = 2 ^ p by omega, ih]

theorem decNat_two {p : Nat} (h1 : 10 ≤ p) (h2 : p < 100) : (decNat p).length = 2 := by
  unfold decNat
  rw [dif_neg (by omega)]
  unfold decNat
  rw [dif_pos (by omega)]
  rfl

/-- **C58.** Reading the attribute gives one line for each device in the order of
registration, nothing cut, and a line written to a driver that has not got the device and
has room makes the same device there. -/
theorem C58_show {mainSize : Int} {got : Bool} {r : Reg} (h : RegReach mainSize got r) {page : Nat} (hp : 4096 ≤ page) :
    ∃ line : RLog → Bytes, showLogs page r = r.devs.flatMap line ∧ (showLogs page r).length < page ∧
      ∀ d ∈ r.devs, ∃ p, d.size = 2 ^ p ∧ line d = d.name ++ [32] ++ decNat p ++ [10] ∧
        ∀ mainSize' got' r' g, RegReach mainSize' got' r' → (∀ d' ∈ r'.devs, d'.name ≠ d.name) → r'.devs.length < 16 →
          g.name = true ∧ g.log = true ∧ g.buffer = true ∧ g.register = true →
          (addLog r' (line d) g).1.devs = r'.devs ++ [{ d with buf := true }] := by
  have hok := C15_devices h
  have hline : ∀ d ∈ r.devs, ∃ p, d.size = 2 ^ p ∧ showLine page d = d.name ++ [32] ++ decNat p ++ [10] ∧
      (14 ≤ p ∧ p ≤ 24) ∧ (showLine page d).length ≤ 19 := by
    intro d hd
    obtain ⟨p, h14, h24, e⟩ := hok.size d hd
    have hn := hok.name d hd
    have hlen := hn.length
    have h2 := decNat_two (p := p) (by omega) (by omega)
    have hl : (d.name ++ [32] ++ decNat p ++ [10]).length ≤ 19 := by simp; omega
    have hs : showLine page d = d.name ++ [32] ++ decNat p ++ [10] := by
      unfold showLine
      rw [e, ffs_pow, Nat.add_sub_cancel]
      refine List.take_of_length_le ?_
      have : 256 ≤ page / maxLogs := by show 256 ≤ page / 16; omega
      omega
    exact ⟨p, e, hs, ⟨h14, h24⟩, by rw [hs]; exact hl⟩
  have hshow : showLogs page r = r.devs.flatMap (showLine page) := by
    obtain ⟨h1, h2⟩ := h.packed.eq
    unfold showLogs
    congr 1
    rw [h2]
    have : (r.devs.map some ++ List.replicate (16 - r.devs.length) none).takeWhile Option.isSome = r.devs.map some := by
      refine takeWhile_append_all ?_ ?_
      · intro x hx
        obtain ⟨y, _, rfl⟩ := List.mem_map.mp hx
        rfl
      · intro x hx
        have := List.mem_of_mem_head? hx
        rw [List.eq_of_mem_replicate this]; rfl
    rw [this]
    simp
  refine ⟨showLine page, hshow, ?_, fun d hd => ?_⟩
  · have hb : ∀ ds : List RLog, (∀ d ∈ ds, (showLine page d).length ≤ 19) →
        (ds.flatMap (showLine page)).length ≤ 19 * ds.length := by
      intro ds
      induction ds with
      | nil => intro _; simp
      | cons d ds ih =>
        intro hd
        have := ih (fun x hx => hd x (List.mem_cons_of_mem _ hx))
        have := hd d List.mem_cons_self
        rw [List.flatMap_cons, List.length_append, List.length_cons]
        omega
    rw [hshow]
    have := hb r.devs (fun d hd => by obtain ⟨_, _, _, _, h⟩ := hline d hd; exact h)
    have := hok.few
    omega
  · obtain ⟨p, e, hs, ⟨h14, h24⟩, _⟩ := hline d hd
    refine ⟨p, e, hs, fun mainSize' got' r' g hr' hnew hroom hg => ?_⟩
    rw [hs, C15_granted hr' (hok.name d hd) h14 h24 (fun b hb => by injection hb with hb; rw [← hb]; unfold Digit; decide) hnew hroom hg, e]

end Verif.Kernel
