import Verif.Tools.PropsShdlogd
import Verif.Tools.PropsShell

/-!
# From the shared memory to the screen (C113)

A writer logs through shared memory, the daemon shdlogd forwards (C112), while programs
log through libulog (C106), all on one device; then the viewer dumps it.
-/
namespace Verif.Tools.Shdd
open Verif Verif.Kernel Verif.Libulog Verif.Ulogcat Verif.Tools

/-! ## The daemon's calls to the driver -/

/-- The daemon: its place among the processes, its tag, its task and the process name
it writes. -/
structure Dmn where
  prog : Nat
  tag : Cid
  task : Task
  pname : Bytes

/-- The messages of shdlogd.c:185-188. -/
def Dmn.lost (d : Dmn) (n : Nat) : Said :=
  { prog := d.prog, task := d.task, tag := d.tag, prio := 3, text := decNat n ++ ascii " shared memory log messages lost", whole := false }

def Dmn.many (d : Dmn) : Said :=
  { prog := d.prog, task := d.task, tag := d.tag, prio := 3, text := ascii "many shared memory log messages lost", whole := false }

/-- What happens on the device: the daemon opens and closes it, reads the memory and
forwards; processes log, the daemon (its start message) among them. -/
inductive In
  | opened
  | closed
  | dmn (e : DEv)
  | said (m : Said)

/-- What is logged with libulog. The other events of the daemon do not come from a
memory that can be read (C112). -/
def In.says (d : Dmn) : In → Option Said
  | .said m => some m
  | .dmn (.lost n) => some (d.lost n)
  | .dmn .many => some d.many
  | _ => none

/-- What else reaches the driver: `ulog_raw_open` (libulog/ulog_write_raw.c:32-63),
`ulog_raw_log`, `ulog_raw_close`. File 0 is free while no viewer runs. -/
def In.ops (d : Dmn) (junk : Nat → UInt8) : In → List Op
  | .opened => [.openF 0 false true false, .setRaw 0 true (some 1)]
  | .closed => [.release 0]
  | .dmn (.write v) => [.write 0 d.task (userVec v) junk]
  | _ => []

def inAll (P : Nat → Prog) (junk : Nat → UInt8) (d : Dmn) : (Nat → Lib) → List In → Except WFault (List Op)
  | _, [] => .ok []
  | libs, x :: l =>
    match x.says d with
    | some m => do
      let (s, _, e) ← wstep (P m.prog).nm (P m.prog).env (libs m.prog) m.op
      let ops ← inAll P junk d (fun p => if p = m.prog then s else libs p) l
      .ok (e.flatMap (driverOps (m.prog + 1) m.task junk) ++ ops)
    | none => do
      let ops ← inAll P junk d libs l
      .ok (x.ops d junk ++ ops)

/-! ## Specification -/

/-- What the log gets: a message from the memory, an announcement, a message of a
process. -/
inductive Item
  | fwd (r : Rec)
  | lost (n : Nat)
  | many
  | said (m : Said)

/-- The items that the daemon makes of messages, of which `n` should be the number of
the first. -/
def lossItem : Loss → List Item
  | .none => []
  | .lost n => [.lost n]
  | .many => [.many]

def fwdItems : Nat → List Rec → List Item
  | _, [] => []
  | n, r :: l => .fwd r :: (lossItem (lossSpec ((r.pos - n) % 65536)) ++ fwdItems (r.pos + 1) l)

/-- Not a message of a process. -/
def Item.own : Item → Bool
  | .said _ => false
  | _ => true

/-- The text that is kept of a message, the colour it begins with, and the text that is
shown. -/
def ShdMsg.kept (m : ShdMsg) : Bytes := m.text.take (256 - (m.thread.length + 1) - (m.tag.length + 1) - 1)

def ShdMsg.colored (m : ShdMsg) : Bool := decide (m.kept.head? = some 27 ∧ 7 ≤ m.kept.length)

def ShdMsg.shownText (m : ShdMsg) : Bytes := if m.colored then m.kept.drop 7 else m.kept

def ShdMsg.shownColor (m : ShdMsg) : Nat := if m.colored then shdColor[(m.kept[5]?.getD 0).toNat % 8]?.getD 0 else 0

/-- What the message takes in the log. -/
def shmSize (pname : Bytes) (r : Rec) : Nat :=
  24 + (pname.length + 1 + ((if r.msg.tid = 0 then 0 else r.msg.thread.length + 1) + (4 + (r.msg.tag.length + 1 + (r.msg.shownText.length + 1)))))

/-- What is shown of the message. -/
def shmLines (L : Look) (pname : Bytes) (r : Rec) : Bytes :=
  textShown L { sec := int32 (UInt32.ofNat (r.ns / 1000000000)), nsec := int32 (UInt32.ofNat (r.ns % 1000000000))
                priority := r.msg.prio.toNat % 8, pid := 0, pname, tid := int32 r.msg.tid
                tname := if r.msg.tid = 0 then pname else r.msg.thread, tag := r.msg.tag, isBinary := false, color := r.msg.shownColor }
    r.msg.shownText

/-- A text message with a tag that fits; not one that begins with an escape and has six
bytes, of which nothing is left, not even its NUL. -/
structure ShdMsg.Plain (m : ShdMsg) : Prop where
  fits : m.thread.length + 1 + (m.tag.length + 1) < 256
  tag : NoNul m.tag
  text : NoNul m.text
  some : m.kept.head? = some 27 → m.kept.length ≠ 6

def Item.lines (P : Nat → Prog) (L : Look) (d : Dmn) : Item → Bytes
  | .fwd r => shmLines L d.pname r
  | .lost n => if (d.lost n).passes P then (d.lost n).lines P L else []
  | .many => if d.many.passes P then d.many.lines P L else []
  | .said m => if m.passes P then m.lines P L else []

def Item.size (P : Nat → Prog) (d : Dmn) : Item → Nat
  | .fwd r => shmSize d.pname r
  | .lost n => if (d.lost n).passes P then (d.lost n).size P else 0
  | .many => if d.many.passes P then d.many.size P else 0
  | .said m => if m.passes P then m.size P else 0

/-- The daemon is an ordinary process, and the name it writes a string that fits. -/
structure Dmn.Plain (P : Nat → Prog) (d : Dmn) : Prop where
  tag : (P d.prog).nm d.tag = ascii "shdlogd"
  task : ¬ (d.task.pid = 0xffffffff ∧ d.task.tid = 0xffffffff)
  pname : NoNul d.pname
  short : d.pname.length ≤ 3800

def Item.Plain (P : Nat → Prog) : Item → Prop
  | .fwd r => r.msg.Plain
  | .said m => m.Plain P
  | _ => True

/-! ## One message -/

theorem ShdMsg.stored_kept (m : ShdMsg) : m.stored = m.kept ++ [0] := by
  unfold ShdMsg.stored ShdMsg.kept cutMsg
  generalize hr : 256 - (m.thread.length + 1) - (m.tag.length + 1) = room
  simp only [List.length_append, List.length_singleton]
  by_cases h1 : m.text.length + 1 < room
  · rw [if_pos h1, List.take_of_length_le (by omega)]
  · rw [if_neg h1, List.take_append_of_le_length (by omega)]

theorem ShdMsg.colored_stored {m : ShdMsg} (h : m.Plain) : Colored m.stored ↔ m.colored = true := by
  rw [stored_kept]
  unfold Colored ShdMsg.colored
  rw [decide_eq_true_eq]
  cases hk : m.kept with
  | nil => simp
  | cons b l =>
    have := h.some
    rw [hk] at this
    simp only [List.cons_append, List.head?_cons, List.length_cons, List.length_append, List.length_nil] at this ⊢
    constructor
    · rintro ⟨h1, h2⟩
      refine ⟨h1, ?_⟩
      have := this h1
      omega
    · rintro ⟨h1, h2⟩
      exact ⟨h1, by omega⟩

/-- The entry of a message. -/
def shmEntry (pname : Bytes) (r : Rec) : Entry := rawSpec (shmVec pname r).flatten

theorem shmColor_lt (m : ShdMsg) : m.shownColor < 2 ^ 24 := by
  unfold ShdMsg.shownColor
  split
  · generalize hi : (m.kept[5]?.getD 0).toNat % 8 = i
    have h8 : i < 8 := by omega
    have : ∀ i < 8, shdColor[i]?.getD 0 < 2 ^ 24 := by decide +kernel
    exact this i h8
  · decide

theorem shmVec_plain {pname : Bytes} {r : Rec} (h : r.msg.Plain) : shmVec pname r =
    [le32 0 ++ le32 r.msg.tid ++ le32 (UInt32.ofNat (r.ns / 1000000000)) ++ le32 (UInt32.ofNat (r.ns % 1000000000)) ++ le32 0, pname ++ [0]] ++
      (if r.msg.tid = 0 then [] else [r.msg.thread ++ [0]]) ++
      [le32 (UInt32.ofNat (r.msg.prio.toNat % 8 + r.msg.shownColor * 256)), r.msg.tag ++ [0], r.msg.shownText ++ [0]] := by
  unfold shmVec ShdMsg.shownText ShdMsg.shownColor
  dsimp only
  have hc := ShdMsg.colored_stored h
  by_cases hcol : r.msg.colored = true
  · have hl : 7 ≤ r.msg.kept.length := by
      unfold ShdMsg.colored at hcol
      exact (of_decide_eq_true hcol).2
    rw [if_pos (hc.mpr hcol), if_pos (hc.mpr hcol), if_pos hcol, if_pos hcol, ShdMsg.stored_kept,
      List.getElem?_append_left (by omega), List.drop_append_of_le_length hl]
  · rw [if_neg (fun h => hcol (hc.mp h)), if_neg (fun h => hcol (hc.mp h)), if_neg hcol, if_neg hcol, ShdMsg.stored_kept]
    simp

/-- The payload before the limit, which it does not reach. -/
def shmPayload (pname : Bytes) (r : Rec) : Bytes :=
  pname ++ 0 :: ((if r.msg.tid = 0 then [] else r.msg.thread ++ [0]) ++
    (le32 (UInt32.ofNat (r.msg.prio.toNat % 8 + r.msg.shownColor * 256)) ++ r.msg.tag ++ 0 :: (r.msg.shownText ++ [0])))

theorem kept_length {m : ShdMsg} (h : m.Plain) : m.thread.length + m.tag.length + m.kept.length ≤ 253 ∧ m.shownText.length ≤ m.kept.length := by
  constructor
  · have := h.fits
    unfold ShdMsg.kept
    rw [List.length_take]
    omega
  · unfold ShdMsg.shownText
    split
    · rw [List.length_drop]; omega
    · exact Nat.le_refl _

theorem shmPayload_length (pname : Bytes) (r : Rec) : 24 + (shmPayload pname r).length = shmSize pname r := by
  unfold shmPayload shmSize
  by_cases ht : r.msg.tid = 0
  · simp only [ht, if_true, List.length_append, List.length_cons, List.length_nil, le32_length]; omega
  · simp only [ht, if_false, List.length_append, List.length_cons, List.length_nil, le32_length]; omega

theorem shmEntry_eq {pname : Bytes} (hpn : pname.length ≤ 3800) {r : Rec} (h : r.msg.Plain) : shmEntry pname r =
    { pid := 0, tid := r.msg.tid, sec := UInt32.ofNat (r.ns / 1000000000), nsec := UInt32.ofNat (r.ns % 1000000000), euid := 0
      payload := shmPayload pname r } := by
  unfold shmEntry
  have hf : (shmVec pname r).flatten = le32 0 ++ le32 r.msg.tid ++ le32 (UInt32.ofNat (r.ns / 1000000000)) ++
      le32 (UInt32.ofNat (r.ns % 1000000000)) ++ le32 0 ++ shmPayload pname r := by
    rw [shmVec_plain h]
    unfold shmPayload
    by_cases ht : r.msg.tid = 0 <;> simp [ht]
  have hl := kept_length h
  have hlen : (shmPayload pname r).length ≤ 4076 := by
    have := shmPayload_length pname r
    unfold shmSize at this
    split at this <;> omega
  rw [hf, rawSpec_header, List.take_of_length_le hlen]

theorem shmEntry_size {pname : Bytes} (hpn : pname.length ≤ 3800) {r : Rec} (h : r.msg.Plain) : (shmEntry pname r).size = shmSize pname r := by
  rw [shmEntry_eq hpn h, ← shmPayload_length]
  rfl

theorem shown_noNul {m : ShdMsg} (h : m.Plain) : NoNul m.shownText := by
  have hk : NoNul m.kept := fun b hb => h.text b (List.mem_of_mem_take hb)
  unfold ShdMsg.shownText
  split
  · exact fun b hb => hk b (List.mem_of_mem_drop hb)
  · exact hk

theorem shmEntry_text {pname : Bytes} (hp : NoNul pname) (hpn : pname.length ≤ 3800) {r : Rec} (h : r.msg.Plain) {L : Look} (hk : L.kmsgd = false) :
    entryText L (shmEntry pname r) = shmLines L pname r := by
  have hc := shmColor_lt r.msg
  have hlt : (UInt32.ofNat (r.msg.prio.toNat % 8 + r.msg.shownColor * 256)).toNat = r.msg.prio.toNat % 8 + r.msg.shownColor * 256 := by
    rw [UInt32.toNat_ofNat']; exact Nat.mod_eq_of_lt (by omega)
  have hb : ∀ tn, decodeBody pname tn (le32 (UInt32.ofNat (r.msg.prio.toNat % 8 + r.msg.shownColor * 256)) ++ r.msg.tag ++ 0 :: (r.msg.shownText ++ [0])) =
      { pname, tname := tn, tag := r.msg.tag, level := r.msg.prio.toNat % 8, color := r.msg.shownColor, msg := .text r.msg.shownText } := by
    intro tn
    rw [decodeBody_prio h.tag, if_neg (by unfold prioBinary; rw [hlt]; simp; omega), if_neg (by simp), clip_terminated (shown_noNul h)]
    simp only [prioLevel, prioColor, hlt]
    rw [show (r.msg.prio.toNat % 8 + r.msg.shownColor * 256) % 8 = r.msg.prio.toNat % 8 by omega,
      show (r.msg.prio.toNat % 8 + r.msg.shownColor * 256) / 256 = r.msg.shownColor by omega]
  have hd : decode ((shmEntry pname r).pid != (shmEntry pname r).tid) (shmEntry pname r).payload =
      { pname, tname := if r.msg.tid = 0 then pname else r.msg.thread, tag := r.msg.tag, level := r.msg.prio.toNat % 8
        color := r.msg.shownColor, msg := .text r.msg.shownText } := by
    rw [shmEntry_eq hpn h]
    dsimp only
    unfold shmPayload
    by_cases ht : r.msg.tid = 0
    · rw [if_pos ht, if_pos ht, ht, show ((0 : UInt32) != 0) = false by decide, List.nil_append, decode_one hp, hb]
    · have hne : ((0 : UInt32) != r.msg.tid) = true := by
        rw [bne_iff_ne]; exact fun h => ht h.symm
      rw [if_neg ht, if_neg ht, hne, List.append_assoc, List.singleton_append, decode_two hp (show NoNul r.msg.thread from cstr_noNul _), hb]
  rw [entryText_of L hk hd, shmEntry_eq hpn h]
  rfl

/-- **C113.** Not so the messages excluded: what begins with an escape and has six bytes
is shown without names, tag, level and text. -/
theorem C113_false_escape {pname : Bytes} (hp : NoNul pname) (hpn : pname.length ≤ 3800) {r : Rec}
    (hfits : r.msg.thread.length + 1 + (r.msg.tag.length + 1) < 256) (htag : NoNul r.msg.tag) (hesc : r.msg.kept.head? = some 27)
    (hsix : r.msg.kept.length = 6) {L : Look} (hk : L.kmsgd = false) :
    entryText L (shmEntry pname r) = textShown L
      { sec := int32 (UInt32.ofNat (r.ns / 1000000000)), nsec := int32 (UInt32.ofNat (r.ns % 1000000000)), priority := 6, pid := 0, pname := []
        tid := int32 r.msg.tid, tname := [], tag := [], isBinary := false, color := 0 } (ascii "<<zero-length>>") := by
  have hcol : Colored r.msg.stored := by
    rw [ShdMsg.stored_kept]
    unfold Colored
    cases hk : r.msg.kept with
    | nil => rw [hk] at hsix; cases hsix
    | cons b l => rw [hk] at hesc hsix; simp_all
  have hdrop : r.msg.stored.drop 7 = [] := List.drop_of_length_le (by rw [ShdMsg.stored_kept, List.length_append, hsix]; decide)
  obtain ⟨q, hq⟩ : ∃ q : UInt32, q = UInt32.ofNat (r.msg.prio.toNat % 8 + shdColor[(r.msg.stored[5]?.getD 0).toNat % 8]?.getD 0 * 256) := ⟨_, rfl⟩
  have hbin : prioBinary q = false := by
    have hlt : shdColor[(r.msg.stored[5]?.getD 0).toNat % 8]?.getD 0 < 2 ^ 24 := by
      generalize hi : (r.msg.stored[5]?.getD 0).toNat % 8 = i
      have h8 : i < 8 := by omega
      have : ∀ i < 8, shdColor[i]?.getD 0 < 2 ^ 24 := by decide +kernel
      exact this i h8
    have h3 : r.msg.prio.toNat % 8 < 8 := Nat.mod_lt _ (by omega)
    unfold prioBinary
    rw [hq]
    generalize shdColor[(r.msg.stored[5]?.getD 0).toNat % 8]?.getD 0 = c at hlt
    generalize r.msg.prio.toNat % 8 = l at h3
    have h4 : (l + c * 256) % 2 ^ 32 = l + c * 256 := Nat.mod_eq_of_lt (by omega)
    rw [UInt32.toNat_ofNat', h4]
    simp
    omega
  have hv : (shmVec pname r).flatten = le32 0 ++ le32 r.msg.tid ++ le32 (UInt32.ofNat (r.ns / 1000000000)) ++
      le32 (UInt32.ofNat (r.ns % 1000000000)) ++ le32 0 ++
      (pname ++ 0 :: ((if r.msg.tid = 0 then [] else r.msg.thread ++ [0]) ++ (le32 q ++ r.msg.tag ++ 0 :: []))) := by
    unfold shmVec
    dsimp only
    rw [if_pos hcol, if_pos hcol, hdrop, ← hq]
    by_cases ht : r.msg.tid = 0 <;> simp [ht]
  have he : shmEntry pname r = { pid := 0, tid := r.msg.tid, sec := UInt32.ofNat (r.ns / 1000000000), nsec := UInt32.ofNat (r.ns % 1000000000), euid := 0
                                 payload := pname ++ 0 :: ((if r.msg.tid = 0 then [] else r.msg.thread ++ [0]) ++ (le32 q ++ r.msg.tag ++ 0 :: [])) } := by
    unfold shmEntry
    rw [hv, rawSpec_header, List.take_of_length_le]
    by_cases ht : r.msg.tid = 0
    · simp only [ht, if_true, List.length_append, List.length_cons, List.length_nil, le32_length]; omega
    · simp only [ht, if_false, List.length_append, List.length_cons, List.length_nil, le32_length]; omega
  have hd : decode ((shmEntry pname r).pid != (shmEntry pname r).tid) (shmEntry pname r).payload =
      { pname := [], tname := [], tag := [], level := 6, color := 0, msg := .text (ascii "<<zero-length>>") } := by
    rw [he]
    dsimp only
    by_cases ht : r.msg.tid = 0
    · rw [if_pos ht, ht, show ((0 : UInt32) != 0) = false by decide, List.nil_append, decode_one hp, decodeBody_prio htag, hbin]
      rfl
    · have hne : ((0 : UInt32) != r.msg.tid) = true := by
        rw [bne_iff_ne]; exact fun h => ht h.symm
      rw [if_neg ht, hne, List.append_assoc, List.singleton_append, decode_two hp (show NoNul r.msg.thread from cstr_noNul _), decodeBody_prio htag, hbin]
      rfl
  rw [entryText_of L hk hd, he]
  rfl

/-! ## The driver -/

def Item.entries (P : Nat → Prog) (d : Dmn) : Item → List Entry
  | .fwd r => [shmEntry d.pname r]
  | .lost n => if (d.lost n).passes P then [(d.lost n).entry P] else []
  | .many => if d.many.passes P then [d.many.entry P] else []
  | .said m => if m.passes P then [m.entry P] else []

def Item.input (d : Dmn) : Item → In
  | .fwd r => .dmn (.write (shmVec d.pname r))
  | .lost n => .dmn (.lost n)
  | .many => .dmn .many
  | .said m => .said m

theorem obsStep_raw (name : Bytes) (o : Obs) (op : Op) (out : Out) {i : Nat} (h : op.fid ≠ i) : (obsStep name o (op, out)).raw i = o.raw i := by
  cases op with
  | openF fid rd wr all => cases out <;> simp_all [obsStep, upd, Op.fid, Ne.symm, eq_comm]
  | setRaw fid cap arg =>
    cases arg <;> cases out <;> simp_all [obsStep, upd, Op.fid, Ne.symm, eq_comm]
  | write fid t it junk =>
    cases out <;> simp only [obsStep]
    split
    · split <;> rfl
    · rfl
  | setVersion fid arg => cases arg <;> cases out <;> rfl
  | release fid => cases out <;> rfl
  | flush fid => cases out <;> rfl
  | read fid euid count uw => cases out <;> rfl
  | _ => rfl

theorem foldl_raw (name : Bytes) {i : Nat} (ops : List Op) : ∀ (a : ASys) (o : Obs), (∀ op ∈ ops, op.fid ≠ i) →
    ((arun a ops).2.foldl (obsStep name) o).raw i = o.raw i := by
  induction ops with
  | nil => intro a o _; rfl
  | cons op ops ih =>
    intro a o h
    simp only [arun, List.foldl_cons]
    rw [ih _ _ (fun x hx => h x (by simp [hx])), obsStep_raw name o op _ (h op (by simp))]

theorem driverOps_fid (fid : Nat) (t : Task) (junk : Nat → UInt8) (e : List Ev) : ∀ op ∈ e.flatMap (driverOps fid t junk), op.fid = fid := by
  intro op h
  obtain ⟨x, _, hx⟩ := List.mem_flatMap.1 h
  unfold driverOps at hx
  split at hx
  · have := List.mem_singleton.1 hx
    subst this
    rfl
  · have := List.mem_singleton.1 hx
    subst this
    rfl
  · cases hx

/-- The file of the daemon. -/
def rawFile : File := { rd := false, wr := true, raw := true }

/-- Part of the log's input, while the daemon has the device open or has nothing to do. -/
theorem items_run {D : Bytes} {P : Nat → Prog} (hP : ∀ p, (P p).Plain D) (d : Dmn) (name : Bytes) (junk : Nat → UInt8) (xs : List Item) :
    ∀ {libs : Nat → Lib} {a : ASys} {o : Obs} {v : Option File}, (∀ p, LibOk (P p) (libs p)) → FilesOk libs a v → ObsOk o →
    ((∀ x ∈ xs, x.own = false) ∨ (v = some rawFile ∧ o.raw 0 = true)) →
    ∃ libs' ops, (∀ rest, inAll P junk d libs (xs.map (·.input d) ++ rest) = (inAll P junk d libs' rest).map (ops ++ ·)) ∧
      (∀ op ∈ ops, op.supported = true) ∧ (∀ p, LibOk (P p) (libs' p)) ∧ FilesOk libs' (arun a ops).1 v ∧
      ObsOk ((arun a ops).2.foldl (obsStep name) o) ∧
      ((arun a ops).2.foldl (obsStep name) o).raw 0 = o.raw 0 ∧
      ((arun a ops).2.foldl (obsStep name) o).hist = o.hist ++ xs.flatMap (·.entries P d) ∧
      ∀ p ∈ (arun a ops).2, ∀ e, p.2 ≠ .err e := by
  induction xs with
  | nil =>
    intro libs a o v hL hF hO _
    refine ⟨libs, [], fun rest => ?_, by simp, hL, hF, hO, rfl, by simp [arun], by simp [arun]⟩
    rw [List.map_nil, List.nil_append]
    cases inAll P junk d libs rest <;> rfl
  | cons x xs ih =>
    intro libs a o v hL hF hO hv
    have hv' : ∀ {o' : Obs}, o'.raw 0 = o.raw 0 → (∀ x ∈ xs, x.own = false) ∨ (v = some rawFile ∧ o'.raw 0 = true) := by
      intro o' h
      rw [h]
      exact hv.imp (fun h y hy => h y (by simp [hy])) id
    have say : ∀ m : Said, (x.input d).says d = some m → x.entries P d = (if m.passes P then [m.entry P] else []) →
        ∃ libs' ops, (∀ rest, inAll P junk d libs ((x :: xs).map (·.input d) ++ rest) = (inAll P junk d libs' rest).map (ops ++ ·)) ∧
          (∀ op ∈ ops, op.supported = true) ∧ (∀ p, LibOk (P p) (libs' p)) ∧ FilesOk libs' (arun a ops).1 v ∧
          ObsOk ((arun a ops).2.foldl (obsStep name) o) ∧
          ((arun a ops).2.foldl (obsStep name) o).raw 0 = o.raw 0 ∧
          ((arun a ops).2.foldl (obsStep name) o).hist = o.hist ++ (x :: xs).flatMap (·.entries P d) ∧
          ∀ p ∈ (arun a ops).2, ∀ e, p.2 ≠ .err e := by
      intro m hm hen
      obtain ⟨s', e, e1, g1, g2, g3, g4, g5, g6⟩ := say_one hP name junk m hL hF hO
      have g7 := foldl_raw name (i := 0) (e.flatMap (driverOps (m.prog + 1) m.task junk)) a o
        (fun op hop => by rw [driverOps_fid _ _ _ _ op hop]; omega)
      obtain ⟨libs', ops, i1, i2, i3, i4, i5, i6, i7, i8⟩ := ih g1 g3 g4 (hv' g7)
      refine ⟨libs', e.flatMap (driverOps (m.prog + 1) m.task junk) ++ ops, fun rest => ?_, ?_, i3, ?_, ?_, ?_, ?_, ?_⟩
      · rw [List.map_cons, List.cons_append, inAll, hm]
        simp only [bind, Except.bind]
        rw [e1]
        dsimp only
        rw [i1 rest]
        cases inAll P junk d libs' rest with
        | error f => rfl
        | ok l => simp [Except.map]
      · exact fun op hop => (List.mem_append.1 hop).elim (g2 op) (i2 op)
      · rw [arun_append]; exact i4
      · rw [arun_append, List.foldl_append]; exact i5
      · rw [arun_append, List.foldl_append, i6, g7]
      · rw [arun_append, List.foldl_append, i7, g5, List.append_assoc, List.flatMap_cons, hen]
      · rw [arun_append]
        exact fun p hp => (List.mem_append.1 hp).elim (g6 p) (i8 p)
    cases x with
    | said m => exact say m rfl rfl
    | lost n => exact say (d.lost n) rfl rfl
    | many => exact say d.many rfl rfl
    | fwd r =>
      rcases hv with hv | ⟨hv, hr⟩
      · exact absurd (hv (.fwd r) (by simp)) (by simp [Item.own])
      subst hv
      obtain ⟨l, n, h1, h2⟩ := astep_rawWrite hF.viewer d.task (v := shmVec d.pname r) junk (by
        simp only [shmVec, List.flatten_append, List.length_append, List.flatten_cons, le32_length, List.length_cons, List.length_nil, List.flatten_nil]
        omega)
      have hstep : obsStep name o (.write 0 d.task (userVec (shmVec d.pname r)) junk, .ret n) = { o with hist := o.hist ++ [shmEntry d.pname r] } := by
        simp only [obsStep, hr, if_true, if_neg h2, userVec_bytes]
        rfl
      have hFl : FilesOk libs { a with log := l } (some rawFile) := ⟨hF.viewer, hF.fresh, hF.opened⟩
      obtain ⟨libs', ops, i1, i2, i3, i4, i5, i6, i7, i8⟩ := ih (o := { o with hist := o.hist ++ [shmEntry d.pname r] }) hL hFl ⟨hO.raw, hO.base⟩ (.inr ⟨rfl, hr⟩)
      refine ⟨libs', .write 0 d.task (userVec (shmVec d.pname r)) junk :: ops, fun rest => ?_, ?_, i3, ?_, ?_, ?_, ?_, ?_⟩
      · rw [List.map_cons, List.cons_append, inAll]
        show (do let ops ← inAll P junk d libs (xs.map (fun x : Item => x.input d) ++ rest); .ok (In.ops d junk (.dmn (.write (shmVec d.pname r))) ++ ops)) = _
        rw [i1 rest]
        cases inAll P junk d libs' rest with
        | error f => rfl
        | ok l => rfl
      · intro op hop
        rcases List.mem_cons.1 hop with rfl | hop
        · rfl
        · exact i2 op hop
      · simp only [arun, h1]; exact i4
      · simp only [arun, h1, List.foldl_cons, hstep]; exact i5
      · simp only [arun, h1, List.foldl_cons, hstep]; exact i6
      · simp only [arun, h1, List.foldl_cons, hstep]
        rw [i7, List.flatMap_cons, ← List.append_assoc]
        rfl
      · intro p hp
        simp only [arun, h1] at hp
        rcases List.mem_cons.1 hp with rfl | hp
        · simp
        · exact i8 p hp

/-- Everything: processes log, the daemon opens the device, forwards, and closes it. -/
def inputs (d : Dmn) (pre mid post : List Item) : List In :=
  pre.map (·.input d) ++ (.opened :: (mid.map (·.input d) ++ (.closed :: (post.map (·.input d) ++ []))))

theorem inputs_run {D : Bytes} {P : Nat → Prog} (hP : ∀ p, (P p).Plain D) (d : Dmn) (name : Bytes) (k : Nat) (junk : Nat → UInt8) {pre mid post : List Item}
    (hpre : ∀ x ∈ pre, x.own = false) (hpost : ∀ x ∈ post, x.own = false) :
    ∃ ops, inAll P junk d (fun _ => .start) (inputs d pre mid post) = .ok ops ∧
      Logged name k ops ((pre ++ mid ++ post).flatMap (·.entries P d)) ∧ ∀ p ∈ (arun (ainit name k) ops).2, ∀ e, p.2 ≠ .err e := by
  obtain ⟨libs1, ops1, a1, a2, a3, a4, a5, _, a7, a8⟩ := items_run hP d name junk pre (libs := fun _ => .start) (a := ainit name k) (o := Obs.init)
    (fun p => ⟨rfl, rfl, fun c => .inl (by show (-1 : Int) < 0; decide), .inl rfl⟩) ⟨rfl, fun _ _ => rfl, fun _ h => absurd rfl h⟩ ⟨fun _ => rfl, rfl⟩
    (.inl hpre)
  generalize hA : (arun (ainit name k) ops1).1 = A at a4
  generalize hO1 : (arun (ainit name k) ops1).2.foldl (obsStep name) Obs.init = o1 at a5 a7
  have s1 : astep A (.openF 0 false true false) = (A.setFile 0 (some { rd := false, wr := true, raw := false }), .ok) := by
    simp only [astep, Op.fid, a4.viewer]
    rfl
  have s2 : astep (A.setFile 0 (some { rd := false, wr := true, raw := false })) (.setRaw 0 true (some 1)) =
      ((A.setFile 0 (some { rd := false, wr := true, raw := false })).setFile 0 (some rawFile), .ok) := by
    simp only [astep, Op.fid, ASys.setFile, if_true, astepFile]
    rfl
  generalize hB : (A.setFile 0 (some { rd := false, wr := true, raw := false })).setFile 0 (some rawFile) = B at s2
  have hb0 : B.files 0 = some rawFile := by rw [← hB]; simp [ASys.setFile]
  have hbn : ∀ p, B.files (p + 1) = A.files (p + 1) := by intro p; rw [← hB]; simp [ASys.setFile]
  have hFB : FilesOk libs1 B (some rawFile) := ⟨hb0, fun p hp => (hbn p).trans (a4.fresh p hp), fun p hp => (hbn p).trans (a4.opened p hp)⟩
  have hobs : obsStep name (obsStep name o1 (.openF 0 false true false, .ok)) (.setRaw 0 true (some 1), .ok) =
      { o1 with raw := upd o1.raw 0 true, rds := upd o1.rds 0 none } := by
    simp only [obsStep, Bool.false_eq_true, if_false]
    congr 1
    funext i
    simp only [upd]
    split <;> simp
  have hOB : ObsOk { o1 with raw := upd o1.raw 0 true, rds := upd o1.rds 0 none } := ⟨fun p => by
    have := a5.raw p
    simpa [upd] using this, a5.base⟩
  obtain ⟨libs2, ops2, b1, b2, b3, b4, b5, _, b7, b8⟩ := items_run hP d name junk mid a3 hFB hOB (.inr ⟨rfl, by simp [upd]⟩)
  generalize hC : (arun B ops2).1 = C at b4
  generalize hO2 : (arun B ops2).2.foldl (obsStep name) { o1 with raw := upd o1.raw 0 true, rds := upd o1.rds 0 none } = o2 at b5 b7
  have s4 : astep C (.release 0) = (C.setFile 0 none, .ok) := by
    simp only [astep, Op.fid, b4.viewer, astepFile]
    rfl
  have hFC : FilesOk libs2 (C.setFile 0 none) := by
    refine ⟨by simp [ASys.setFile], fun p hp => ?_, fun p hp => ?_⟩
    · have := b4.fresh p hp
      simpa [ASys.setFile] using this
    · have := b4.opened p hp
      simpa [ASys.setFile] using this
  have hOC : ObsOk (obsStep name o2 (.release 0, .ok)) := ⟨b5.raw, b5.base⟩
  obtain ⟨libs3, ops3, c1, c2, _, c4, c5, _, c7, c8⟩ := items_run hP d name junk post b3 hFC hOC (.inl hpost)
  refine ⟨ops1 ++ ([.openF 0 false true false, .setRaw 0 true (some 1)] ++ (ops2 ++ ([.release 0] ++ ops3))), ?_, ?_, ?_⟩
  · unfold inputs
    rw [a1, inAll]
    simp only [In.says, bind, Except.bind]
    rw [b1, inAll]
    simp only [In.says, bind, Except.bind]
    rw [c1, inAll]
    simp [Except.map, In.ops]
  · have har : arun (ainit name k) (ops1 ++ ([.openF 0 false true false, .setRaw 0 true (some 1)] ++ (ops2 ++ ([.release 0] ++ ops3)))) =
        ((arun (C.setFile 0 none) ops3).1, (arun (ainit name k) ops1).2 ++ ((.openF 0 false true false, .ok) :: (.setRaw 0 true (some 1), .ok) ::
          ((arun B ops2).2 ++ ((.release 0, .ok) :: (arun (C.setFile 0 none) ops3).2)))) := by
      rw [arun_append, hA]
      simp only [List.cons_append, List.nil_append, arun, s1, s2, arun_append, hC, s4]
    have hob : (arun (ainit name k) (ops1 ++ ([.openF 0 false true false, .setRaw 0 true (some 1)] ++ (ops2 ++ ([.release 0] ++ ops3))))).2.foldl
        (obsStep name) Obs.init = (arun (C.setFile 0 none) ops3).2.foldl (obsStep name) (obsStep name o2 (.release 0, .ok)) := by
      rw [har]
      dsimp only
      rw [List.foldl_append, hO1, List.foldl_cons, List.foldl_cons, hobs, List.foldl_append, hO2, List.foldl_cons]
    refine ⟨?_, ?_, ?_, ?_⟩
    · intro op hop
      simp only [List.mem_append, List.mem_cons, List.not_mem_nil, or_false] at hop
      rcases hop with h | (rfl | rfl) | h | rfl | h
      · exact a2 op h
      · rfl
      · rfl
      · exact b2 op h
      · rfl
      · exact c2 op h
    · rw [har]; exact c4.viewer
    · rw [hob]; exact c5.base
    · rw [hob, c7]
      show o2.hist ++ _ = _
      rw [b7]
      dsimp only
      rw [a7, List.flatMap_append, List.flatMap_append]
      rfl
  · rw [arun_append, hA]
    simp only [List.cons_append, List.nil_append, arun, s1, s2, arun_append, hC, s4]
    intro p hp e
    simp only [List.mem_append, List.mem_cons] at hp
    rcases hp with h | rfl | rfl | h | rfl | h
    · exact a8 p h e
    · simp
    · simp
    · exact b8 p h e
    · simp
    · exact c8 p h e

/-! ## The property -/

/-- An event of the daemon. -/
def In.ev : In → Option DEv
  | .dmn e => some e
  | _ => none

/-- Not the opening or closing of the device. -/
def In.inner : In → Bool
  | .opened => false
  | .closed => false
  | _ => true

def Item.ev (pname : Bytes) : Item → Option DEv
  | .fwd r => some (.write (shmVec pname r))
  | .lost n => some (.lost n)
  | .many => some .many
  | .said _ => none

theorem fwdItems_ev (pname : Bytes) (n : Nat) (l : List Rec) : (fwdItems n l).filterMap (Item.ev pname) = fwdEvents pname n l := by
  induction l generalizing n with
  | nil => rfl
  | cons r l ih =>
    rw [fwdItems, fwdEvents, List.filterMap_cons]
    simp only [Item.ev]
    rw [List.filterMap_append, ih, ← lossEv_said]
    cases lossSpec ((r.pos - n) % 65536) <;> rfl

theorem fwdItems_own (n : Nat) (l : List Rec) : ∀ x ∈ fwdItems n l, x.own = true := by
  induction l generalizing n with
  | nil => intro x hx; cases hx
  | cons r l ih =>
    intro x hx
    rw [fwdItems] at hx
    rcases List.mem_cons.1 hx with rfl | hx
    · rfl
    rcases List.mem_append.1 hx with hx | hx
    · cases h : lossSpec ((r.pos - n) % 65536) <;> rw [h] at hx <;> simp [lossItem] at hx <;> subst hx <;> rfl
    · exact ih _ x hx

/-- However the events of the daemon come among the messages of the processes, they are
those of the messages forwarded. -/
theorem items_of (d : Dmn) {l : List In} (hl : ∀ x ∈ l, x.inner = true) : ∀ {ys : List Item}, (∀ y ∈ ys, y.own = true) →
    l.filterMap In.ev = ys.filterMap (Item.ev d.pname) → ∃ xs : List Item, xs.map (·.input d) = l ∧ xs.filter (·.own) = ys := by
  induction l with
  | nil =>
    intro ys hy h
    cases ys with
    | nil => exact ⟨[], rfl, rfl⟩
    | cons y ys =>
      have := hy y (by simp)
      cases y <;> simp [Item.ev, Item.own] at h this
  | cons x l ih =>
    intro ys hy h
    have hl' : ∀ x ∈ l, x.inner = true := fun y hy => hl y (by simp [hy])
    cases x with
    | opened => exact absurd (hl .opened (by simp)) (by simp [In.inner])
    | closed => exact absurd (hl .closed (by simp)) (by simp [In.inner])
    | said m =>
      obtain ⟨xs, h1, h2⟩ := ih hl' hy h
      exact ⟨.said m :: xs, by rw [List.map_cons, h1]; rfl, h2⟩
    | dmn e =>
      cases ys with
      | nil => simp [In.ev] at h
      | cons y ys =>
        have hy' : ∀ y ∈ ys, y.own = true := fun z hz => hy z (by simp [hz])
        have key : ∀ z : Item, y = z → z.own = true → Item.ev d.pname z = some e → z.input d = .dmn e →
            ∃ xs : List Item, xs.map (·.input d) = .dmn e :: l ∧ xs.filter (·.own) = y :: ys := by
          intro z hz ho he hi
          subst hz
          rw [List.filterMap_cons, List.filterMap_cons, he] at h
          simp only [In.ev, List.cons.injEq, true_and] at h
          obtain ⟨xs, h1, h2⟩ := ih hl' hy' h
          exact ⟨y :: xs, by rw [List.map_cons, h1, hi], by rw [List.filter_cons_of_pos ho, h2]⟩
        have hye := hy y (by simp)
        rw [List.filterMap_cons, List.filterMap_cons] at h
        cases y with
        | said m => simp [Item.own] at hye
        | fwd r => simp only [In.ev, Item.ev, List.cons.injEq] at h; exact key _ rfl rfl (by rw [h.1]; rfl) (by rw [h.1]; rfl)
        | lost n => simp only [In.ev, Item.ev, List.cons.injEq] at h; exact key _ rfl rfl (by rw [h.1]; rfl) (by rw [h.1]; rfl)
        | many => simp only [In.ev, Item.ev, List.cons.injEq] at h; exact key _ rfl rfl (by rw [h.1]; rfl) (by rw [h.1]; rfl)

theorem prefixLen_le (t : Task) : prefixLen t ≤ 34 := by
  have h : ∀ c : Bytes, (taskName c).length ≤ 16 := fun c =>
    Nat.le_trans (List.takeWhile_sublist _).length_le (by rw [List.length_take]; omega)
  have h1 := h t.pcomm
  have h2 := h t.tcomm
  unfold prefixLen
  split <;> omega

theorem Dmn.Plain.said_plain {P : Nat → Prog} {d : Dmn} (h : d.Plain P) {text : Bytes} (hx : NoNul text) :
    ({ prog := d.prog, task := d.task, tag := d.tag, prio := 3, text, whole := false } : Said).Plain P where
  tag := by unfold Said.name; rw [h.tag]; intro b hb; exact (show ∀ b ∈ ascii "shdlogd", b ≠ 0 by decide) b hb
  text := hx
  bin := show prioBinary 3 = false by decide
  fits := by
    have := prefixLen_le d.task
    unfold Said.name
    rw [h.tag, show (ascii "shdlogd").length = 7 from rfl]
    dsimp only
    omega
  task := h.task

theorem Dmn.Plain.lost_plain {P : Nat → Prog} {d : Dmn} (h : d.Plain P) (n : Nat) : (d.lost n).Plain P := by
  refine h.said_plain ?_
  intro b hb
  rcases List.mem_append.mp hb with hb | hb
  · have := decNat_digits n b hb
    intro h0
    subst h0
    revert this
    decide
  · exact (show ∀ b ∈ ascii " shared memory log messages lost", b ≠ 0 by decide) b hb

theorem Dmn.Plain.many_plain {P : Nat → Prog} {d : Dmn} (h : d.Plain P) : d.many.Plain P :=
  h.said_plain fun b hb => (show ∀ b ∈ ascii "many shared memory log messages lost", b ≠ 0 by decide) b hb

theorem said_ent_size (P : Nat → Prog) (m : Said) : bytesLen (if m.passes P then [m.entry P] else []) = if m.passes P then m.size P else 0 := by
  split
  · simp [bytesLen, Said.entry_size]
  · rfl

theorem said_ent_text {P : Nat → Prog} {m : Said} (h : m.Plain P) {L : Look} (hk : L.kmsgd = false) :
    (if m.passes P then [m.entry P] else []).flatMap (entryText L) = if m.passes P then m.lines P L else [] := by
  split
  · rw [List.flatMap_cons, List.flatMap_nil, List.append_nil, Said.entry_text h hk]
  · rfl

theorem Item.entries_size {P : Nat → Prog} {d : Dmn} (hd : d.Plain P) {x : Item} (h : x.Plain P) : bytesLen (x.entries P d) = x.size P d := by
  cases x with
  | fwd r => simp [Item.entries, Item.size, bytesLen, shmEntry_size hd.short h]
  | lost n => exact said_ent_size P _
  | many => exact said_ent_size P _
  | said m => exact said_ent_size P _

theorem Item.entries_text {P : Nat → Prog} {d : Dmn} (hd : d.Plain P) {x : Item} (h : x.Plain P) {L : Look} (hk : L.kmsgd = false) :
    (x.entries P d).flatMap (entryText L) = x.lines P L d := by
  cases x with
  | fwd r =>
    show [shmEntry d.pname r].flatMap (entryText L) = shmLines L d.pname r
    rw [List.flatMap_cons, List.flatMap_nil, List.append_nil, shmEntry_text hd.pname hd.short h hk]
  | lost n => exact said_ent_text (hd.lost_plain n) hk
  | many => exact said_ent_text hd.many_plain hk
  | said m => exact said_ent_text h hk

theorem Item.entries_genuine {P : Nat → Prog} {d : Dmn} (hd : d.Plain P) {x : Item} (h : x.Plain P) : Genuine (x.entries P d) := by
  have hs : ∀ m : Said, m.Plain P → Genuine (if m.passes P then [m.entry P] else []) := by
    intro m hm e he
    split at he
    · rw [List.mem_singleton.1 he]; exact hm.task
    · cases he
  cases x with
  | fwd r =>
    intro e he
    rw [List.mem_singleton.1 he, shmEntry_eq hd.short h]
    exact fun h => absurd (show (0 : UInt32) = 4294967295 from h.1) (by decide)
  | lost n => exact hs _ (hd.lost_plain n)
  | many => exact hs _ hd.many_plain
  | said m => exact hs m h

theorem items_bytes {P : Nat → Prog} {d : Dmn} (hd : d.Plain P) {xs : List Item} (h : ∀ x ∈ xs, x.Plain P) :
    bytesLen (xs.flatMap (·.entries P d)) = (xs.map (·.size P d)).sum := by
  induction xs with
  | nil => rfl
  | cons x xs ih =>
    rw [List.flatMap_cons, List.map_cons, List.sum_cons, ← ih (fun y hy => h y (by simp [hy])), ← Item.entries_size hd (h x (by simp))]
    simp [bytesLen]

theorem Item.entries_length (P : Nat → Prog) (d : Dmn) (x : Item) : (x.entries P d).length ≤ 1 := by
  cases x with
  | fwd r => simp [Item.entries]
  | _ => simp only [Item.entries]; split <;> simp

theorem items_length (P : Nat → Prog) (d : Dmn) (xs : List Item) : (xs.flatMap (·.entries P d)).length ≤ xs.length := by
  induction xs with
  | nil => simp
  | cons x xs ih =>
    have := x.entries_length P d
    rw [List.flatMap_cons, List.length_append, List.length_cons]
    omega

/-- What the messages of processes and daemon come to on the screen. -/
theorem items_screen {D : Bytes} {P : Nat → Prog} (hP : ∀ p, (P p).Plain D) {d : Dmn} (hd : d.Plain P) {pre mid post : List Item}
    (hpre : ∀ x ∈ pre, x.own = false) (hpost : ∀ x ∈ post, x.own = false) (hpl : ∀ x ∈ pre ++ mid ++ post, x.Plain P)
    (junk : Nat → UInt8) {name : Bytes} {k : Nat} (buf : Nat → UInt8) (hk : 14 ≤ k) (hname : name.length ≤ 89)
    (hcount : (pre ++ mid ++ post).length < 2147483648) (hroom : ((pre ++ mid ++ post).map (·.size P d)).sum + 8200 ≤ 2 ^ k)
    {L : Look} (hkd : L.kmsgd = false) :
    ∃ ops sys tr m, inAll P junk d (fun _ => .start) (inputs d pre mid post) = .ok ops ∧
      Kernel.run (Kernel.init name k buf) (ops ++ [.openF 0 true false true, .getLogLen 0]) = .ok (sys, tr ++ [(.getLogLen 0, .ret m)]) ∧
      (∀ p ∈ tr, ∀ e, p.2 ≠ .err e) ∧
      Dumps L sys tr m (pre ++ mid ++ post).length fun bs => bs = (pre ++ mid ++ post).flatMap (·.lines P L d) := by
  obtain ⟨ops, h1, hlog, h6⟩ := inputs_run hP d name k junk (mid := mid) hpre hpost
  generalize pre ++ mid ++ post = xs at *
  have hgen : Genuine (xs.flatMap (·.entries P d)) := by
    intro e he
    obtain ⟨x, hx, he⟩ := List.mem_flatMap.1 he
    exact Item.entries_genuine hd (hpl x hx) e he
  have hle := items_length P d xs
  obtain ⟨sys, tr, m, g0, g1, g2⟩ := hlog.screen buf hk hname hgen (by omega) (L := L) (by simp [hkd])
  refine ⟨ops, sys, tr, m, h1, g1, ?_, fun euid n fuel hfuel buf0 hb paths ans hans => ?_⟩
  · rw [g0]
    intro p hp e
    rcases List.mem_append.1 hp with hp | hp
    · exact h6 p hp e
    · rw [List.mem_singleton.1 hp]; simp
  · obtain ⟨all, c, t, e1, e2, _, e3⟩ := g2 euid n fuel (by omega) hb (paths := paths) hans
    refine ⟨all, c, t, e1, e2, (e3 (by rw [items_bytes hd hpl]; exact hroom)).trans ?_⟩
    rw [List.flatMap_assoc]
    exact flatMap_congr' fun x hx => Item.entries_text hd (hpl x hx) hkd

/-- The calls of the writer are with text messages. -/
def PlainOp : SOp → Prop
  | .log (.mk old m _ _) => old.length = 256 ∧ m.Plain
  | _ => True

theorem recs_plain {ops : List SOp} (h : ∀ op ∈ ops, PlainOp op) : ∀ r ∈ (Fwd.start.run ops).recs, r.msg.Plain := by
  have : ∀ (f : Fwd) (ops : List SOp), (∀ op ∈ ops, PlainOp op) → (∀ r ∈ f.recs, r.msg.Plain) → ∀ r ∈ (f.run ops).recs, r.msg.Plain := by
    intro f ops
    induction ops generalizing f with
    | nil => intro _ h; exact h
    | cons op ops ih =>
      intro h1 h2
      refine ih (f.step op) (fun o ho => h1 o (by simp [ho])) ?_
      cases op with
      | log c =>
        obtain ⟨old, m, ns, inner⟩ := c
        intro r hr
        rcases List.mem_append.1 hr with hr | hr
        · exact h2 r hr
        · rw [List.mem_singleton.1 hr]
          exact (h1 (.log (.mk old m ns inner)) (by simp)).2
      | lose n => exact h2
      | poll p => exact h2
  exact this Fwd.start ops h (fun r hr => by cases hr)

/-- **C113.** A writer logs through shared memory, the daemon forwards, processes log
before, meanwhile and after; then the viewer dumps the device. `evs` are the events of
the daemon, `mid` any order of them among the messages of the processes. -/
theorem C113_screen {D : Bytes} {P : Nat → Prog} (hP : ∀ p, (P p).Plain D) {d : Dmn} (hd : d.Plain P)
    {fd : Int} (hfd : 0 ≤ fd) {blobs : List Blob} {stamps : List Nat} (hb : blobs.length = 2048) (hs : stamps.length = 2048)
    {ops : List SOp} (hops : ∀ op ∈ ops, PlainOp op) (hm : Mono (Fwd.start.run ops).recs) {pre post : List Said} {mid : List In}
    (hpre : ∀ m ∈ pre, m.Plain P) (hpost : ∀ m ∈ post, m.Plain P) (hin : ∀ x ∈ mid, x.inner = true) (hmid : ∀ m, .said m ∈ mid → m.Plain P) :
    ∃ s' evs, (Shm.start d.pname blobs stamps).run fd ops = some (s', evs) ∧
      (mid.filterMap In.ev = evs → ∃ xs : List Item, xs.map (·.input d) = mid ∧ xs.filter (·.own) = fwdItems 0 (Fwd.start.run ops).out ∧
        ∀ (junk : Nat → UInt8) {name : Bytes} {k : Nat} (buf : Nat → UInt8), 14 ≤ k → name.length ≤ 89 →
          (pre.map Item.said ++ xs ++ post.map Item.said).length < 2147483648 →
          ((pre.map Item.said ++ xs ++ post.map Item.said).map (·.size P d)).sum + 8200 ≤ 2 ^ k → ∀ {L : Look}, L.kmsgd = false →
          ∃ kops sys tr m, inAll P junk d (fun _ => .start) (pre.map In.said ++ (.opened :: (mid ++ (.closed :: post.map In.said)))) = .ok kops ∧
            Kernel.run (Kernel.init name k buf) (kops ++ [.openF 0 true false true, .getLogLen 0]) = .ok (sys, tr ++ [(.getLogLen 0, .ret m)]) ∧
            (∀ p ∈ tr, ∀ e, p.2 ≠ .err e) ∧
            Dumps L sys tr m (pre.map Item.said ++ xs ++ post.map Item.said).length fun bs =>
              bs = (pre.map Item.said ++ xs ++ post.map Item.said).flatMap (·.lines P L d)) := by
  have hg : ∀ op ∈ ops, GoodOp op := by
    intro op hop
    have := hops op hop
    cases op with
    | log c => obtain ⟨old, m, ns, inner⟩ := c; exact ⟨this.1, this.2.fits⟩
    | lose n => trivial
    | poll p => trivial
  obtain ⟨s', hrun⟩ := C112_forward hfd (pname := d.pname) hb hs hg hm
  refine ⟨s', _, hrun, fun hev => ?_⟩
  obtain ⟨xs, x1, x2⟩ := items_of d hin (fwdItems_own 0 (Fwd.start.run ops).out) (hev.trans (fwdItems_ev d.pname 0 _).symm)
  refine ⟨xs, x1, x2, fun junk name k buf hk hname hcount hroom L hkd => ?_⟩
  have hfwd : ∀ {n : Nat} {l : List Rec} {r : Rec}, Item.fwd r ∈ fwdItems n l → r ∈ l := by
    intro n l r
    induction l generalizing n with
    | nil => intro h; cases h
    | cons a l ih =>
      intro h
      rw [fwdItems] at h
      rcases List.mem_cons.1 h with h | h
      · cases h; simp
      rcases List.mem_append.1 h with h | h
      · cases hl : lossSpec ((a.pos - n) % 65536) <;> rw [hl] at h <;> simp [lossItem] at h
      · exact List.mem_cons_of_mem _ (ih h)
  have hsub := C112_order hm
  have hpl : ∀ x ∈ pre.map Item.said ++ xs ++ post.map Item.said, x.Plain P := by
    intro x hx
    rcases List.mem_append.1 hx with hx | hx
    · rcases List.mem_append.1 hx with hx | hx
      · obtain ⟨m, hm, rfl⟩ := List.mem_map.1 hx
        exact hpre m hm
      · cases x with
        | fwd r =>
          refine recs_plain hops r (hsub.subset (hfwd (n := 0) ?_))
          rw [← x2]
          exact List.mem_filter.2 ⟨hx, rfl⟩
        | lost n => trivial
        | many => trivial
        | said m =>
          refine hmid m ?_
          rw [← x1]
          exact List.mem_map.2 ⟨_, hx, rfl⟩
    · obtain ⟨m, hm, rfl⟩ := List.mem_map.1 hx
      exact hpost m hm
  have hi : inputs d (pre.map Item.said) xs (post.map Item.said) = pre.map In.said ++ (.opened :: (mid ++ (.closed :: post.map In.said))) := by
    unfold inputs
    rw [x1, List.append_nil, List.map_map, List.map_map]
    rfl
  have := items_screen hP hd (pre := pre.map Item.said) (mid := xs) (post := post.map Item.said)
    (fun x hx => by obtain ⟨m, _, rfl⟩ := List.mem_map.1 hx; rfl) (fun x hx => by obtain ⟨m, _, rfl⟩ := List.mem_map.1 hx; rfl) hpl junk buf hk hname
    hcount hroom hkd
  rw [hi] at this
  exact this

end Verif.Tools.Shdd
