import Verif.Ulogcat.Screen
import Verif.Ulogcat.PropsDriven
import Verif.Ulogcat.PropsOutput
import Verif.Ulogcat.PropsKlog

/-!
# From the log to the screen (C98)
-/
namespace Verif.Ulogcat
open Verif Verif.Kernel Verif.Libulog

variable {σ : Type}

/-! ## Specification -/

/-- The number of 32 bits as the signed one with the same bits. -/
theorem C98_int32 (x : UInt32) : -2 ^ 31 ≤ int32 x ∧ int32 x < 2 ^ 31 ∧ int32 x % 2 ^ 32 = x.toNat := by
  have := x.toNat_lt
  unfold int32
  split <;> omega

example : int32 4294967295 = -1 ∧ int32 2147483648 = -2147483648 := by decide +kernel

/-- What is shown besides the message. -/
def entryInfo (e : Entry) : Meta :=
  let d := decode (e.pid != e.tid) e.payload
  { sec := int32 e.sec, nsec := int32 e.nsec, priority := d.level, pid := int32 e.pid, pname := d.pname, tid := int32 e.tid
    tname := d.tname, tag := d.tag, isBinary := match d.msg with | .text _ => false | .bin _ => true, color := d.color }

/-- The text of an entry of the device of kmsgd, holding `s` at level `level`. -/
def kernelText (L : Look) (s : Bytes) (level : Nat) : Bytes :=
  let k := kmsgdFix { text := s, len := s.length + 1, priority := level, sec := 0, nsec := 0 }
  cut 5248 ((shownLines k.text).map (lineText L (kernelInfo k))).flatten

/-- The text of an entry: nothing for binary entries in text formats, and for CSV
lines longer than 5248 bytes. -/
def entryText (L : Look) (e : Entry) : Bytes :=
  let d := decode (e.pid != e.tid) e.payload
  if L.kmsgd then
    match d.msg with
    | .text s => kernelText L s d.level
    | .bin _ => []
  else if L.fmt = .csv then
    let l := csvLine (entryInfo e) (match d.msg with | .text s => s | .bin s => hexDump s)
    if l.length ≤ 5248 then l else []
  else
    match d.msg with
    | .text s => cut 5248 ((shownLines s).map (lineText L (entryInfo e))).flatten
    | .bin _ => []

/-- The bytes shown for the committed entries from number `p` to number `q`: the text of
each entry, or in its place a notice that some were lost, which are all old. -/
inductive OnScreen (L : Look) (name : Bytes) (size : Nat) (hist : List Entry) : Nat → Bytes → Nat → Prop
  | nil {p} : OnScreen L name size hist p [] p
  | entry {p e bs q} (h : hist[p]? = some e) (ht : OnScreen L name size hist (p + 1) bs q) :
      OnScreen L name size hist p (entryText L e ++ bs) q
  | lost {p n e bs q} (hn : 0 < n) (ho : Old size hist p n) (h : hist[p + n]? = some e) (ht : OnScreen L name size hist (p + n) bs q) :
      OnScreen L name size hist p (entryText L (summaryEntry name n e) ++ bs) q

/-! ## What is decoded -/

theorem strAt_take {m : Bytes} {lim p : Nat} {s : Bytes} (h : strAt (m.take lim) p = some s) :
    strAt m p = some s ∧ NoNul s ∧ ∃ r, m.drop p = s ++ 0 :: r := by
  unfold strAt at h
  split at h
  · rename_i h0
    injection h with h
    rw [List.drop_take] at h h0
    have hlt : (cstr ((m.drop p).take (lim - p))).length < ((m.drop p).take (lim - p)).length := by
      rcases Nat.lt_or_ge (cstr ((m.drop p).take (lim - p))).length ((m.drop p).take (lim - p)).length with h1 | h1
      · exact h1
      · have := noNul_of_cstr (Nat.le_antisymm (cstr_length_le _) h1)
        exact absurd rfl (this 0 h0)
    have hs := cstr_split hlt
    rw [h] at hs
    have hn : NoNul s := h ▸ cstr_noNul _
    have hd : m.drop p = s ++ 0 :: (((m.drop p).take (lim - p)).drop (s.length + 1) ++ (m.drop p).drop (lim - p)) := by
      rw [← List.cons_append, ← List.append_assoc, ← hs, List.take_append_drop]
    refine ⟨?_, hn, _, hd⟩
    unfold strAt
    rw [if_pos (by rw [hd]; simp), hd, cstr_of_noNul hn]
  · cases h

theorem ptrStr_str {m : Bytes} {lo lim : Nat} {p : Ptr} {s : Bytes} (h : p.str m lo lim = some s) : ptrStr m p = some s := by
  cases p with
  | lit t => exact h
  | buf p =>
    unfold Ptr.str at h
    dsimp only at h
    split at h
    · exact (strAt_take h).1
    · cases h

theorem ptrMem_str {m : Bytes} {lo lim : Nat} {p : Ptr} {s : Bytes} (hn : NoNul s) (h : p.str m lo lim = some s) :
    ∃ r, ptrMem m p = s ++ 0 :: r := by
  cases p with
  | lit t =>
    injection h with h
    subst h
    exact ⟨[], rfl⟩
  | buf p =>
    unfold Ptr.str at h
    dsimp only at h
    split at h
    · exact (strAt_take h).2.2
    · cases h

theorem level_lt (two : Bool) (bs : Bytes) : (decode two bs).level < 8 := by
  have hb : ∀ pn tn (r : Bytes), (decodeBody pn tn r).level < 8 := by
    intro pn tn r
    unfold decodeBody
    split
    · split
      · show 6 < 8; omega
      · dsimp only
        split
        · exact Nat.mod_lt _ (by omega)
        · split
          · show 6 < 8; omega
          · exact Nat.mod_lt _ (by omega)
    · show 6 < 8; omega
  unfold decode
  split
  · show 6 < 8; omega
  · split
    · split
      · show 6 < 8; omega
      · exact hb ..
    · exact hb ..

/-- A received entry of the device of kmsgd, as it is rendered. -/
theorem received_kernel {L : Look} (hk : L.kmsgd = true) (hf : L.fmt ≠ .csv) {csv : Bool} (hcsv : csv = decide (L.fmt = .csv))
    {bs : Bytes} {e : Entry} {o : RecvOut} (hr : Received csv bs e o) :
    (0 < o.ret ∧ canRender L o = true ∧ ∃ x, o.shown L = some x ∧ CanShow x ∧ x.look.fmt = L.fmt ∧ x.text = entryText L e) ∨
    (¬ (0 < o.ret ∧ canRender L o = true) ∧ entryText L e = []) := by
  obtain ⟨h1, _, _, fr, x, h4, h5, h6, h7, h8, h9, h10, h11⟩ := hr
  have hlev := level_lt (e.pid != e.tid) e.payload
  have hm := h7.msg
  cases hd : (decode (e.pid != e.tid) e.payload).msg with
  | text s =>
    rw [hd] at hm
    obtain ⟨m1, m2, m3, m4⟩ := hm
    obtain ⟨r, hmem⟩ := ptrMem_str m4 m2
    obtain ⟨g1, g2, g3⟩ := C65_safe { text := s, len := x.len, priority := x.priority, sec := 0, nsec := 0 }
      (by dsimp only; rw [m3]; rfl) (by dsimp only; rw [h7.level]; exact hlev)
    have hsh : o.shown L = some { look := L, info := kernelInfo (kmsgdFix { text := s, len := x.len, priority := x.priority, sec := 0, nsec := 0 })
                                  msg := (s ++ 0 :: r).drop (s.length - (kmsgdFix { text := s, len := x.len, priority := x.priority, sec := 0, nsec := 0 }).text.length)
                                  len := (kmsgdFix { text := s, len := x.len, priority := x.priority, sec := 0, nsec := 0 }).len.toNat } := by
      unfold RecvOut.shown
      rw [h4, h5]
      dsimp only
      unfold shownOf kernelOf
      rw [if_pos hk, ptrStr_str m2, hmem]
      rfl
    have hkeq : (kmsgdFix { text := s, len := x.len, priority := x.priority, sec := 0, nsec := 0 }) =
        kmsgdFix { text := s, len := s.length + 1, priority := (decode (e.pid != e.tid) e.payload).level, sec := 0, nsec := 0 } := by
      rw [m3, h7.level]; rfl
    rw [hkeq] at hsh g1 g2 g3
    generalize hke : kmsgdFix { text := s, len := s.length + 1, priority := (decode (e.pid != e.tid) e.payload).level, sec := 0, nsec := 0 } = k
      at hsh g1 g2 g3
    have g1 : k.text <:+ s := g1
    obtain ⟨pre, hpre⟩ := g1
    have hdrop : (s ++ 0 :: r).drop (s.length - k.text.length) = k.text ++ 0 :: r := by
      rw [← hpre, List.append_assoc, List.length_append, Nat.add_sub_cancel, List.drop_left]
    have hnk : NoNul k.text := fun b hb => m4 b (by rw [← hpre]; exact List.mem_append_right _ hb)
    rw [hdrop] at hsh
    have hret : o.ret = 1 := by rw [h1]; unfold recvRet; rw [hd]
    have hcr : canRender L o = true := by
      unfold canRender
      rw [hsh]
      simp [hf]
    refine .inl ⟨by rw [hret]; decide, hcr, _, hsh, ⟨fun _ => ⟨rfl, g3, k.text, r, hnk, rfl⟩, fun h => absurd h hf⟩, rfl, ?_⟩
    unfold Shown.text entryText
    rw [if_neg hf, if_pos hk, hd]
    show _ = kernelText L s _
    unfold kernelText
    rw [hke, cstr_of_noNul hnk]
  | bin s =>
    have hret : o.ret = 0 := by rw [h1]; unfold recvRet; rw [hd, hcsv]; simp [hf]
    refine .inr ⟨by rw [hret]; simp, ?_⟩
    unfold entryText
    rw [if_pos hk, hd]

/-- A received entry, as it is rendered. -/
theorem received_shown {L : Look} (hfix : L.kmsgd = true → L.fmt ≠ .csv) {csv : Bool} (hcsv : csv = decide (L.fmt = .csv)) {bs : Bytes} {e : Entry} {o : RecvOut}
    (hr : Received csv bs e o) :
    (0 < o.ret ∧ canRender L o = true ∧ ∃ x, o.shown L = some x ∧ CanShow x ∧ x.look.fmt = L.fmt ∧ x.text = entryText L e) ∨
    (¬ (0 < o.ret ∧ canRender L o = true) ∧ entryText L e = []) := by
  by_cases hk : L.kmsgd = true
  · exact received_kernel hk (hfix hk) hcsv hr
  obtain ⟨h1, _, _, fr, x, h4, h5, h6, h7, h8, h9, h10, h11⟩ := hr
  have hsh : ∀ b, (match (decode (e.pid != e.tid) e.payload).msg with | .text _ => false | .bin _ => true) = b → x.isBinary = b →
      o.shown L = some { look := L, info := entryInfo e, msg := ptrMem fr.mem x.message, len := x.len } := by
    intro b hb hxb
    unfold RecvOut.shown
    rw [h4, h5]
    dsimp only
    unfold shownOf
    rw [if_neg hk, ptrStr_str h7.pname, ptrStr_str h7.tname, ptrStr_str h7.tag]
    simp only [Option.bind_eq_bind, Option.bind_some, Option.pure_def, Option.some.injEq, Shown.mk.injEq, true_and, and_true]
    unfold entryInfo
    dsimp only
    rw [hb, hxb, h7.level, h7.color, h8, h9, h10, h11]
  have hlev := level_lt (e.pid != e.tid) e.payload
  have hm := h7.msg
  cases hd : (decode (e.pid != e.tid) e.payload).msg with
  | text s =>
    rw [hd] at hm hsh
    obtain ⟨m1, m2, m3, m4⟩ := hm
    have hsh := hsh false rfl m1
    have hib : (entryInfo e).isBinary = false := by unfold entryInfo; dsimp only; rw [hd]
    obtain ⟨r, hmem⟩ := ptrMem_str m4 m2
    rw [hmem] at hsh
    have hret : o.ret = 1 := by rw [h1]; unfold recvRet; rw [hd]
    by_cases hf : L.fmt = .csv
    · have hp : payloadOf (entryInfo e) (s ++ 0 :: r) x.len = some s := by
        unfold payloadOf
        rw [hib, if_neg (by simp)]
        unfold strAt
        rw [List.drop_zero, if_pos (by simp), cstr_of_noNul m4]
      have hc : csvPayload (entryInfo e) (s ++ 0 :: r) x.len = s := by
        unfold csvPayload
        rw [hib, if_neg (by simp), cstr_of_noNul m4]
      have hcr : canRender L o = decide ((csvLine (entryInfo e) s).length ≤ 5248) := by
        unfold canRender
        rw [hsh]
        unfold csvLine
        simp only [hp, hf, ne_eq, not_true_eq_false, decide_false, Bool.false_or, Option.getD_some]
      have ht : entryText L e = if (csvLine (entryInfo e) s).length ≤ 5248 then csvLine (entryInfo e) s else [] := by
        unfold entryText
        rw [if_neg hk, if_pos hf, hd]
      by_cases hl : (csvLine (entryInfo e) s).length ≤ 5248
      · refine .inl ⟨by rw [hret]; decide, by rw [hcr]; exact decide_eq_true hl, _, hsh, ⟨fun h => absurd hf h, fun _ => ?_⟩, rfl, ?_⟩
        · dsimp only
          rw [hc, hib]
          exact ⟨by simp, hl⟩
        · unfold Shown.text
          rw [if_pos hf, ht, if_pos hl, hc]
      · refine .inr ⟨?_, by rw [ht, if_neg hl]⟩
        rw [hcr, decide_eq_false hl]
        simp
    · have hcr : canRender L o = true := by
        unfold canRender
        rw [hsh]
        simp [hf]
      refine .inl ⟨by rw [hret]; decide, hcr, _, hsh, ⟨fun _ => ⟨hib, ?_, s, r, m4, rfl⟩, fun h => absurd h hf⟩, rfl, ?_⟩
      · exact hlev
      · unfold Shown.text entryText
        rw [if_neg hf, if_neg hk, if_neg hf, hd, cstr_of_noNul m4]
  | bin s =>
    rw [hd] at hm hsh
    obtain ⟨m1, p, m2, m3, m4, m5⟩ := hm
    have hsh := hsh true rfl m1
    have hib : (entryInfo e).isBinary = true := by unfold entryInfo; dsimp only; rw [hd]
    rw [m2] at hsh
    by_cases hf : L.fmt = .csv
    · have hret : o.ret = 1 := by rw [h1]; unfold recvRet; rw [hd, hcsv]; simp [hf]
      have hlen : x.len ≤ (ptrMem fr.mem (.buf p)).length := by
        unfold ptrMem
        dsimp only
        rw [List.length_drop]
        omega
      have hw : (ptrMem fr.mem (.buf p)).take x.len = s := m3
      have hp : payloadOf (entryInfo e) (ptrMem fr.mem (.buf p)) x.len = some (hexDump s) := by
        unfold payloadOf
        rw [hib, if_pos rfl, if_pos hlen, hw]
      have hc : csvPayload (entryInfo e) (ptrMem fr.mem (.buf p)) x.len = hexDump s := by
        unfold csvPayload
        rw [hib, if_pos rfl, hw]
      have hcr : canRender L o = decide ((csvLine (entryInfo e) (hexDump s)).length ≤ 5248) := by
        unfold canRender
        rw [hsh]
        unfold csvLine
        simp only [hp, hf, ne_eq, not_true_eq_false, decide_false, Bool.false_or, Option.getD_some]
      have ht : entryText L e = if (csvLine (entryInfo e) (hexDump s)).length ≤ 5248 then csvLine (entryInfo e) (hexDump s) else [] := by
        unfold entryText
        rw [if_neg hk, if_pos hf, hd]
      by_cases hl : (csvLine (entryInfo e) (hexDump s)).length ≤ 5248
      · refine .inl ⟨by rw [hret]; decide, by rw [hcr]; exact decide_eq_true hl, _, hsh, ⟨fun h => absurd hf h, fun _ => ?_⟩, rfl, ?_⟩
        · dsimp only
          rw [hc, hib, if_pos rfl]
          exact ⟨hlen, hl⟩
        · unfold Shown.text
          rw [if_pos hf, ht, if_pos hl, hc]
      · refine .inr ⟨?_, by rw [ht, if_neg hl]⟩
        rw [hcr, decide_eq_false hl]
        simp
    · have hret : o.ret = 0 := by rw [h1]; unfold recvRet; rw [hd, hcsv]; simp [hf]
      refine .inr ⟨by rw [hret]; simp, ?_⟩
      unfold entryText
      rw [if_neg hk, if_neg hf, hd]

/-! ## What is received -/

theorem Follows.received {name size hist csv p os q} (h : Follows name size hist csv p os q) :
    ∀ o ∈ os, o.ret ≤ 0 ∨ ∃ bs e, Received csv bs e o := by
  induction h with
  | nil => intro o ho; cases ho
  | none h _ ih =>
    intro o ho
    rcases List.mem_cons.1 ho with rfl | ho
    · exact .inl h.2
    · exact ih o ho
  | entry _ hr _ ih =>
    intro o ho
    rcases List.mem_cons.1 ho with rfl | ho
    · exact .inr ⟨_, _, hr⟩
    · exact ih o ho
  | lost _ _ _ hr _ ih =>
    intro o ho
    rcases List.mem_cons.1 ho with rfl | ho
    · exact .inr ⟨_, _, hr⟩
    · exact ih o ho

theorem blank_line : (csvLine { sec := 0, nsec := 0, priority := 0, pid := 0, pname := [], tid := 0, tname := [], tag := []
                                isBinary := false, color := 0 } []).length ≤ 5248 := by decide +kernel

theorem blank_can (L : Look) : CanShow (blank L) := by
  refine ⟨fun _ => ⟨rfl, by show 0 < 8; omega, [], [], nofun, rfl⟩, fun _ => ⟨?_, ?_⟩⟩
  · show 0 ∈ [0]
    simp
  · exact blank_line

/-- Everything received can be rendered as it is looked up by its number. -/
theorem entriesBy_can {L : Look} (hfix : L.kmsgd = true → L.fmt ≠ .csv) {csv : Bool} (hcsv : csv = decide (L.fmt = .csv)) {os : List RecvOut}
    (h : ∀ o ∈ os, o.ret ≤ 0 ∨ ∃ bs e, Received csv bs e o) (i : Nat) : CanShow (entriesBy L os i) := by
  unfold entriesBy
  split
  · rename_i o ho
    split
    · rename_i hc
      rcases h o (List.mem_of_getElem? ho) with h | ⟨bs, e, h⟩
      · omega
      · rcases received_shown hfix hcsv h with ⟨_, _, x, h3, h4, _⟩ | ⟨h1, _⟩
        · rw [h3]; exact h4
        · exact absurd hc h1
    · exact blank_can L
  · exact blank_can L

/-- The text of what calls received. -/
def receivedText (L : Look) (os : List RecvOut) : Bytes :=
  os.flatMap fun o => if 0 < o.ret ∧ canRender L o = true then ((o.shown L).getD (blank L)).text else []

theorem Follows.screen {L : Look} (hfix : L.kmsgd = true → L.fmt ≠ .csv) {csv : Bool} (hcsv : csv = decide (L.fmt = .csv)) {name size hist p os q}
    (h : Follows name size hist csv p os q) : OnScreen L name size hist p (receivedText L os) q := by
  have key : ∀ bs e o, Received csv bs e o →
      (if 0 < o.ret ∧ canRender L o = true then ((o.shown L).getD (blank L)).text else []) = entryText L e := by
    intro bs e o hr
    rcases received_shown hfix hcsv hr with ⟨h1, h2, x, h3, _, _, h4⟩ | ⟨h1, h2⟩
    · rw [if_pos ⟨h1, h2⟩, h3]; exact h4
    · rw [if_neg h1, h2]
  induction h with
  | nil => exact .nil
  | none h _ ih =>
    unfold receivedText
    rw [List.flatMap_cons, if_neg (by omega)]
    exact ih
  | entry h hr _ ih =>
    unfold receivedText
    rw [List.flatMap_cons, key _ _ _ hr]
    exact .entry h ih
  | lost hn ho h hr _ ih =>
    unfold receivedText
    rw [List.flatMap_cons, key _ _ _ hr]
    exact .lost hn ho h ih

theorem framesOf_text (L : Look) (d : Nat) (os : List RecvOut) :
    ((framesOf d (canRender L) id os).filter (·.shown)).flatMap (fun f => (entriesBy L os f.id).text) = receivedText L os := by
  suffices h : ∀ (l : List RecvOut) (n : Nat), (∀ i : Nat, l[i]? = os[n + i]?) →
      (((l.zipIdx n).filterMap fun p => if 0 < p.1.ret then some (Frame.mk d p.1.stamp p.2 (canRender L p.1)) else none).filter
        (·.shown)).flatMap (fun f => (entriesBy L os f.id).text) = receivedText L l by
    exact h os 0 (fun i => by rw [Nat.zero_add])
  intro l
  induction l with
  | nil => intro n _; rfl
  | cons o l ih =>
    intro n hn
    have ih := ih (n + 1) (fun i => by have := hn (i + 1); rw [List.getElem?_cons_succ] at this; rw [this]; congr 1; omega)
    have h0 : os[n]? = some o := by have := hn 0; rw [List.getElem?_cons_zero] at this; exact this.symm
    unfold receivedText at ih ⊢
    rw [List.zipIdx_cons, List.filterMap_cons, List.flatMap_cons, ← ih]
    by_cases hr : 0 < o.ret
    · rw [if_pos hr]
      dsimp only
      by_cases hc : canRender L o = true
      · rw [List.filter_cons_of_pos (by exact hc), List.flatMap_cons, if_pos ⟨hr, hc⟩]
        congr 1
        unfold entriesBy
        rw [h0]
        dsimp only
        rw [if_pos ⟨hr, hc⟩]
      · rw [List.filter_cons_of_neg (by exact hc), if_neg (by simp [hc]), List.nil_append]
    · rw [if_neg hr, if_neg (by simp [hr]), List.nil_append]

/-! ## The loop -/

/-- Writing to an output leaves the devices to the world. -/
theorem Drives.onto {W : World σ} {d fid : Nat} {euid : UInt32} {csv : Bool} {sh : RecvOut → Bool} {num : Nat → Nat} {tr : σ → List (Op × Out)}
    {os : σ → List RecvOut} (D : Drives W d fid euid csv sh num tr os) (dest : Dest) (paths : Nat → Bytes) (what : Nat → Shown)
    (ans : Scr σ → OutEv → List WrAns) :
    Drives (W.onto dest paths what ans) d fid euid csv sh num (fun s => tr s.st) (fun s => os s.st) where
  output s e := by
    unfold World.onto
    dsimp only
    split
    · exact D.output s.st e
    · exact ⟨[], nofun, by simp, rfl⟩
  other s i hi := D.other s.st i hi
  poll s a := D.poll s.st a
  recv s := D.recv s.st

/-- With one device nothing but its entries is output. -/
theorem single_out (W : World σ) {m : Nat} {dump : Bool} {l : List (Nat × Int)} {c : Ctx} {s s' : σ}
    (h : calls W dump l (openCtx [m] 0) s = .ok (c, s')) : c.out = (entriesOf 0 c.out).map .entry := by
  obtain ⟨c1, s1, w, e1, F⟩ := FInv.calls W dump l (s := (s, [])) (openCtx_finv [m])
  have hsim := (sim_logged W).calls dump l (openCtx [m] 0) (s := s) (t := (s, [])) rfl
  rw [h, e1] at hsim
  obtain ⟨hc, -⟩ := hsim
  have hc : c = c1 := hc
  subst hc
  have hdev : ∀ f ∈ w, f.dev = 0 := fun f hf => by have : f.dev < 1 := F.dev hf; omega
  have hann : ∀ (w : List Frame), (∀ f ∈ w, f.dev = 0) → ∀ seen, ∀ e ∈ annotate false seen w, ∃ f, e = .entry f ∧ f.dev = 0 := by
    intro w
    induction w with
    | nil => intro _ seen e he; cases he
    | cons f t ih =>
      intro hw seen e he
      unfold annotate at he
      rw [Bool.false_and, if_neg (by simp), List.nil_append] at he
      rcases List.mem_append.1 he with he | he
      · split at he
        · rw [List.mem_singleton] at he
          exact ⟨f, he, hw f (by simp)⟩
        · cases he
      · exact ih (fun g hg => hw g (by simp [hg])) _ e he
  have hall : ∀ e ∈ c.out, ∃ f, e = .entry f ∧ f.dev = 0 :=
    fun e he => hann w hdev [] e (F.out.pre.subset he)
  clear e1 h F
  generalize c.out = out at hall
  induction out with
  | nil => rfl
  | cons e t ih =>
    obtain ⟨f, rfl, hf⟩ := hall e (by simp)
    unfold entriesOf at ih ⊢
    rw [List.filterMap_cons]
    dsimp only
    rw [if_pos hf]
    dsimp only
    rw [List.map_cons, ← ih fun x hx => hall x (by simp [hx])]

variable {W : World σ} {fid : Nat} {euid : UInt32} {csv : Bool} {tr : σ → List (Op × Out)} {os : σ → List RecvOut}

/-- C98. A viewer of one log device, without a tail, any number of calls of
`ulogcat3_process_logs`, whatever others do with the device except flushing it,
writing to a stream that takes everything: the bytes on the stream, together with the
text of at most one entry that was received and not yet written, are the texts of the
committed entries in order, from where the viewer was when it started, with a notice
in the place of those that were lost. (`all` are the outcomes of the calls of
`ulog_receive_entry`, so that rendering finds what they left.) -/
theorem C98_screen {L : Look} (D : Drives W 0 fid euid csv (canRender L) id tr os) (hcsv : csv = decide (L.fmt = .csv))
    (hfix : L.kmsgd = true → L.fmt ≠ .csv)
    {paths : Nat → Bytes} {ans : Scr σ → OutEv → List WrAns} {m : Nat} {dump : Bool} {l : List (Nat × Int)} {c : Ctx} {s s' : Scr σ}
    {all : List RecvOut} (hc : calls (W.onto .file paths (entriesBy L all) ans) dump l (openCtx [m] 0) s = .ok (c, s'))
    (hall : all = os s'.st) (hos : os s.st = []) (hb : s.buf.length = 5248) (h0 : s.bytes = []) (hok : c.outErr = false)
    {name k buf ops sys} (hrun : Run name k buf ops sys (tr s'.st)) {p : Nat} (ha : At name (tr s.st) fid p)
    (hnf : ∀ t, tr s'.st = tr s.st ++ t → NoFlush t) :
    ∃ q rest, q ≤ (obs name (tr s'.st)).hist.length ∧ OnScreen L name (2 ^ k) (obs name (tr s'.st)).hist p (s'.bytes ++ rest) q ∧
      (rest = [] ∨ ∃ e, rest = entryText L e) := by
  obtain ⟨⟨q, _, hq, hfo⟩, done, waiting, h1, h2, _, h4⟩ :=
    C90_printed (D.onto .file paths (entriesBy L all) ans) hc hos hrun ha hnf
  have hrec := hfo.received
  have hcan : ∀ i, CanShow (entriesBy L all i) := fun i => entriesBy_can hfix hcsv (by rw [hall]; exact hrec) i
  have hbytes := (C96_file W hcan ans hb h0 hc).1 hok
  have ht : ∀ fs : List Frame, (fs.map OutEv.entry).flatMap (textOf paths (entriesBy L all)) =
      fs.flatMap fun f => (entriesBy L all f.id).text := fun fs => by rw [List.flatMap_map]; rfl
  rw [single_out _ hc, h4 hok, ht] at hbytes
  refine ⟨q, (waiting.filter (·.shown)).flatMap fun f => (entriesBy L all f.id).text, hq, ?_, ?_⟩
  · rw [hbytes, ← List.flatMap_append, ← List.filter_append, h1, hall, framesOf_text]
    exact hfo.screen hfix hcsv
  · match waiting, h2 with
    | [], _ => exact .inl rfl
    | [f], _ =>
      by_cases hs : f.shown = true
      · rw [List.filter_cons_of_pos hs, List.filter_nil, List.flatMap_cons, List.flatMap_nil, List.append_nil]
        have hf : f ∈ framesOf 0 (canRender L) id (os s'.st) := by rw [← h1]; simp
        unfold framesOf at hf
        obtain ⟨⟨o, i⟩, g1, g2⟩ := List.mem_filterMap.1 hf
        have g1 := List.mem_zipIdx_iff_getElem?.1 g1
        dsimp only at g1 g2
        split at g2
        · rename_i hr
          injection g2 with g2
          subst g2
          rcases hrec o (List.mem_of_getElem? g1) with h | ⟨bs, e, h⟩
          · omega
          · rcases received_shown hfix hcsv h with ⟨_, _, x, h3, _, _, h5⟩ | ⟨h5, _⟩
            · refine .inr ⟨e, ?_⟩
              unfold entriesBy
              rw [hall]
              dsimp only [id_eq]
              rw [g1]
              dsimp only
              rw [if_pos ⟨hr, hs⟩, h3]
              exact h5
            · exact absurd ⟨hr, hs⟩ h5
        · cases g2
      · rw [List.filter_cons_of_neg hs]
        exact .inl rfl
    | _ :: _ :: _, h => simp at h

/-- C98, dumps. A dump (`-d`) that ends with 0 has written the texts of all entries
that were committed when it was opened (and perhaps of later ones), in order and with
notices in the place of lost ones, and nothing else. -/
theorem C98_dump {L : Look} (D : Drives W 0 fid euid csv (canRender L) id tr os) (hcsv : csv = decide (L.fmt = .csv))
    (hfix : L.kmsgd = true → L.fmt ≠ .csv)
    {paths : Nat → Bytes} {ans : Scr σ → OutEv → List WrAns} {m : Nat} {max : Int} (hmax : 0 ≤ max) {fuel : Nat} {c : Ctx} {s s' : Scr σ}
    {all : List RecvOut}
    (hc : processLogs (W.onto .file paths (entriesBy L all) ans) true max fuel (openCtx [m] 0) s 0 = .ok (c, s', some 0))
    (hall : all = os s'.st) (hos : os s.st = []) (hb : s.buf.length = 5248) (h0 : s.bytes = []) (hok : c.outErr = false)
    {name k buf ops sys} (hrun : Run name k buf ops sys (tr s'.st)) {t0 t1 : List (Op × Out)}
    (hm : tr s.st = t0 ++ (.getLogLen fid, .ret m) :: t1) (h1 : Others fid t1) {p : Nat} (ha : At name t0 fid p)
    (hnf : ∀ t, tr s'.st = t0 ++ t → NoFlush t) :
    ∃ q, (obs name t0).hist.length ≤ q ∧ q ≤ (obs name (tr s'.st)).hist.length ∧
      OnScreen L name (2 ^ k) (obs name (tr s'.st)).hist p s'.bytes q := by
  have D' := D.onto .file paths (entriesBy L all) ans
  obtain ⟨⟨q, hq1, hq2, hfo⟩, h4⟩ := C91_dump D' hmax hc hos hrun (m := m) rfl hm h1 ha hnf
  have hcalls : calls (W.onto .file paths (entriesBy L all) ans) true [(fuel, max)] (openCtx [m] 0) s = .ok (c, s') := by
    unfold calls
    rw [hc]
    rfl
  have hcan : ∀ i, CanShow (entriesBy L all i) := fun i => entriesBy_can hfix hcsv (by rw [hall]; exact hfo.received) i
  have hbytes := (C96_file W hcan ans hb h0 hcalls).1 hok
  have ht : ∀ fs : List Frame, (fs.map OutEv.entry).flatMap (textOf paths (entriesBy L all)) =
      fs.flatMap fun f => (entriesBy L all f.id).text := fun fs => by rw [List.flatMap_map]; rfl
  rw [single_out _ hcalls, h4 hok, ht, hall, framesOf_text] at hbytes
  refine ⟨q, hq1, hq2, ?_⟩
  rw [hbytes]
  exact hfo.screen hfix hcsv

/-- C98, dumps, from a run of the loop in a world whose output always succeeds: with a
stream that takes everything the same happens, `all` being what was received, and the
texts are written. (So the hypotheses of `C98_dump` are met by every such run.) -/
theorem C98_run {L : Look} (D : Drives W 0 fid euid csv (canRender L) id tr os) (hcsv : csv = decide (L.fmt = .csv))
    (hfix : L.kmsgd = true → L.fmt ≠ .csv)
    (hW : ∀ s e, (W.output s e).1 = true) {paths : Nat → Bytes} {ans : Scr σ → OutEv → List WrAns}
    (hans : ∀ s e, ∃ n, ans s e = [.took n] ∧ 5248 ≤ n)
    {m : Nat} {max : Int} (hmax : 0 ≤ max) {fuel : Nat} {c : Ctx} {s s' : σ}
    (hc : processLogs W true max fuel (openCtx [m] 0) s 0 = .ok (c, s', some 0))
    (hos : os s = []) {buf0 : Bytes} (hb : buf0.length = 5248) (hok : c.outErr = false)
    {name k buf ops sys} (hrun : Run name k buf ops sys (tr s')) {t0 t1 : List (Op × Out)}
    (hm : tr s = t0 ++ (.getLogLen fid, .ret m) :: t1) (h1 : Others fid t1) {p : Nat} (ha : At name t0 fid p)
    (hnf : ∀ t, tr s' = t0 ++ t → NoFlush t) :
    ∃ t, processLogs (W.onto .file paths (entriesBy L (os s')) ans) true max fuel (openCtx [m] 0) ⟨s, buf0, []⟩ 0 =
        .ok (c, t, some 0) ∧ t.st = s' ∧
      ∃ q, (obs name t0).hist.length ≤ q ∧ q ≤ (obs name (tr s')).hist.length ∧
        OnScreen L name (2 ^ k) (obs name (tr s')).hist p t.bytes q := by
  obtain ⟨⟨q, _, _, hfo⟩, _⟩ := C91_dump D hmax hc hos hrun (m := m) rfl hm h1 ha hnf
  have hcan : ∀ i, CanShow (entriesBy L (os s') i) := fun i => entriesBy_can hfix hcsv hfo.received i
  have htake : ∀ s e, outputRendered .file (textOf paths (entriesBy L (os s')) e) (ans s e) =
      (true, textOf paths (entriesBy L (os s')) e) := by
    intro s e
    obtain ⟨n, a1, a2⟩ := hans s e
    obtain ⟨b, k, _, b2, b3, hne⟩ := renderEv_text (paths := paths) hcan hb e
    have hl : (textOf paths (entriesBy L (os s')) e).length ≤ n := by
      rw [← b3, List.length_take]; omega
    unfold outputRendered
    rw [a1]
    dsimp only
    rw [List.take_of_length_le hl]
    simp [hne, hl]
  obtain ⟨t, e1, _, e3⟩ := onto_logs (W := W) (d := .file) (paths := paths) (ans := ans) hcan
    (fun s e => by rw [htake]) hW (textOf paths (entriesBy L (os s'))) (fun s e => by rw [htake]) hb hc
  refine ⟨t, e1, e3, ?_⟩
  have := C98_dump D hcsv hfix hmax e1 (by rw [e3]) hos hb rfl hok (by rw [e3]; exact hrun) hm h1 ha (by rw [e3]; exact hnf)
  rw [e3] at this
  exact this

/-! ## From the writer to the screen -/

/-- What is shown besides the message of an entry of task `t`. -/
def taskInfo (t : Task) (prio : UInt32) (tag : Bytes) (bin : Bool) : Meta :=
  { sec := int32 t.sec, nsec := int32 t.nsec, priority := prio.toNat % 8, pid := int32 t.pid, pname := taskName t.pcomm
    tid := int32 t.tid, tname := if t.pid = t.tid then taskName t.pcomm else taskName t.tcomm, tag, isBinary := bin
    color := prio.toNat / 256 }

/-- What is shown for a text: its lines, or a CSV line if it is not too long. -/
def textShown (L : Look) (i : Meta) (s : Bytes) : Bytes :=
  if L.fmt = .csv then (if (csvLine i s).length ≤ 5248 then csvLine i s else [])
  else cut 5248 ((shownLines s).map (lineText L i)).flatten

/-- A terminated text of which `n` bytes are kept. -/
theorem clip_take {text : Bytes} (hx : NoNul text) {n : Nat} (hn : 0 < n) :
    (text ++ [0]).take n ≠ [] ∧ clip ((text ++ [0]).take n) = text.take (n - 1) := by
  refine ⟨by intro h; have := congrArg List.length h; rw [List.length_take] at this; simp at this; omega, ?_⟩
  by_cases h : text.length + 1 ≤ n
  · rw [List.take_of_length_le (by simp; omega), List.take_of_length_le (by omega)]
    exact clip_terminated hx []
  · rw [List.take_append_of_le_length (by omega)]
    unfold clip
    rw [if_neg (fun h0 => hx 0 (List.mem_of_mem_take h0) rfl), List.dropLast_eq_take, List.take_take, List.length_take]
    congr 1
    omega

/-- What is shown of an entry that holds a text. -/
theorem entryText_of (L : Look) (hk : L.kmsgd = false) {e : Entry} {pname tname tag s : Bytes} {level color : Nat}
    (hd : decode (e.pid != e.tid) e.payload = { pname, tname, tag, level, color, msg := .text s }) :
    entryText L e = textShown L { sec := int32 e.sec, nsec := int32 e.nsec, priority := level, pid := int32 e.pid, pname, tid := int32 e.tid
                                  tname, tag, isBinary := false, color } s := by
  have hi : entryInfo e = { sec := int32 e.sec, nsec := int32 e.nsec, priority := level, pid := int32 e.pid, pname, tid := int32 e.tid
                            tname, tag, isBinary := false, color } := by
    unfold entryInfo
    rw [hd]
  unfold entryText textShown
  rw [hd, hi, if_neg (by simp [hk])]

/-- The text of the entry that libulog's writer makes of a message. -/
theorem entryText_plain (L : Look) (hk : L.kmsgd = false) (t : Task) {prio : UInt32} {tag text : Bytes} (ht : NoNul tag) (hx : NoNul text)
    (hb : prioBinary prio = false) (hfit : prefixLen t + (4 + tag.length + 1) < 4076) :
    entryText L (plainSpec t (le32 prio ++ tag ++ 0 :: (text ++ [0]))) =
      textShown L (taskInfo t prio tag false) (text.take (4076 - prefixLen t - (4 + tag.length + 1) - 1)) := by
  have hd := decode_plain (t := t) (prio := prio) (tag := tag) (msg := text ++ [0]) (by omega)
  obtain ⟨h1, h2⟩ := clip_take hx (n := 4076 - prefixLen t - (4 + tag.length + 1)) (by omega)
  rw [decodeBody_prio ht, hb, if_neg (by simp), if_neg h1, h2] at hd
  generalize hs : text.take (4076 - prefixLen t - (4 + tag.length + 1) - 1) = s at hd ⊢
  exact entryText_of L hk (e := plainSpec t (le32 prio ++ tag ++ 0 :: (text ++ [0]))) hd

/-- C98, writing. A text logged through libulog's writer becomes the last committed
entry, and what is shown of it are its lines, each with the level, tag, names and time
it was logged with; a text that does not fit the entry limit is cut there. -/
theorem C98_text (L : Look) (hk : L.kmsgd = false) (name : Bytes) (tr : List (Op × Out)) (fid : Nat) (t : Task) (junk : Nat → UInt8) (n : Nat)
    {prio : UInt32} {tag text : Bytes} (hraw : (obs name tr).raw fid = false) (ht : NoNul tag) (hx : NoNul text)
    (hb : prioBinary prio = false) (hfit : prefixLen t + (4 + tag.length + 1) < 4076) :
    ∃ e, (obs name (tr ++ [(.write fid t (userVec (writerKernel prio tag (text ++ [0]))) junk, .ret n)])).hist =
        (obs name tr).hist ++ [e] ∧
      entryText L e = textShown L (taskInfo t prio tag false) (text.take (4070 - prefixLen t - tag.length)) := by
  refine ⟨plainSpec t (le32 prio ++ tag ++ 0 :: (text ++ [0])), ?_, ?_⟩
  · rw [obs_snoc]
    unfold obsStep
    dsimp only
    rw [hraw, if_neg (by simp), userVec_bytes]
    simp [writerKernel]
  · rw [entryText_plain L hk t ht hx hb hfit]
    congr 2
    omega

/-- What is shown besides the message of a notice before entry `e`. -/
def noticeInfo (name : Bytes) (e : Entry) : Meta :=
  { sec := int32 e.sec, nsec := int32 e.nsec, priority := 4, pid := -1, pname := [], tid := -1, tname := []
    tag := name, isBinary := false, color := 0 }

/-- C98, notices. What is shown in the place of `n` lost entries: a warning of the
device with their number. -/
theorem C98_notice (L : Look) (hk : L.kmsgd = false) {name : Bytes} (hname : NoNul name) {n : Nat} (hn : n < 2147483648) (e : Entry) :
    entryText L (summaryEntry name n e) =
      textShown L (noticeInfo name e) (decNat n ++ ascii " log entries dropped" ++ [10]) := by
  have hint : decInt (Verif.toInt32 n) = decNat n := by
    unfold Verif.toInt32
    simp only
    rw [Nat.mod_eq_of_lt (by omega), if_pos (by omega)]
    rfl
  have hst : summaryText name n = [] ++ 0 :: (le32 4 ++ name ++ 0 ::
      ((decNat n ++ ascii " log entries dropped" ++ [10]) ++ 0 :: [])) := by
    unfold summaryText
    rw [hint, show ascii " log entries dropped\n" = ascii " log entries dropped" ++ [10] by decide]
    simp [le32]
  have hch : ∀ b ∈ decNat n ++ ascii " log entries dropped", b ≠ 0 ∧ b ≠ 10 := by
    intro b hb
    rcases List.mem_append.mp hb with hb | hb
    · have := decNat_digits n b hb
      refine ⟨?_, ?_⟩ <;> intro h0 <;> subst h0 <;> revert this <;> decide
    · exact (show ∀ b ∈ ascii " log entries dropped", b ≠ 0 ∧ b ≠ 10 by decide) b hb
  have hdig : NoNul (decNat n ++ ascii " log entries dropped" ++ [10]) := by
    intro b hb
    rcases List.mem_append.mp hb with hb | hb
    · exact (hch b hb).1
    · rw [List.mem_singleton.mp hb]; decide
  have hdec : decode false (summaryText name n) =
      ({ pname := [], tname := [], tag := name, level := 4, color := 0,
         msg := .text (decNat n ++ ascii " log entries dropped" ++ [10]) } : Decoded) := by
    rw [hst, decode_one (by intro b hb; cases hb), decodeBody_prio hname, clip_terminated hdig]
    rw [if_neg (by decide), if_neg (by simp)]
    rfl
  exact entryText_of L hk (e := summaryEntry name n e) hdec

/-- A notice is one line (in the formats other than CSV). -/
theorem C98_notice_line (L : Look) (hL : L.fmt ≠ .csv) (i : Meta) (n : Nat) :
    textShown L i (decNat n ++ ascii " log entries dropped" ++ [10]) = cut 5248 (lineText L i (decNat n ++ ascii " log entries dropped")) := by
  unfold textShown
  rw [if_neg hL, shownLines_last]
  · simp
  · intro b hb
    rcases List.mem_append.mp hb with hb | hb
    · have := decNat_digits n b hb
      intro h0; subst h0; revert this; decide
    · exact (show ∀ b ∈ ascii " log entries dropped", b ≠ 10 by decide) b hb


end Verif.Ulogcat
