import Verif.Tools.PropsTx

/-! # Concrete cases for the ThreadX theorems -/
namespace Verif.Tools.Examples
open Verif Verif.Libulog Verif.Ulogcat Verif.Tools

def txNm : Cid → Bytes := fun c => if c = 0 then [] else if c = 1 then ascii "cam" else ascii "usb"

/-- Two threads set the level of a tag at the same time, a third sets another by name. -/
def txRace : List (Nat × TxEv) :=
  [(0, .call (.early true)), (1, .call (.setLevel 1 3)), (2, .call (.setLevel 1 9)), (1, .go true), (2, .go true), (2, .go true),
    (1, .go true), (3, .call (.touch 2)), (3, .go true), (3, .call (.setTag (ascii "usb") 0)), (3, .go true), (3, .go true)]

/-- C79 -/
example : (∀ x ∈ txRace, x.2.mutexOk = true) ∧ (txRun txNm .start txRace).tx.list = [2, 1, 0] ∧
    (txRun txNm .start txRace).tx.level 1 = 3 ∧ (txRun txNm .start txRace).tx.level 2 = 0 ∧ (txRun txNm .start txRace).tx.level 3 = -1 := by
  decide +kernel

/-- C79_before: calls without initialisation, or with one that failed. -/
example : ∀ x ∈ [(0, TxEv.call (.early false)), (1, .call (.setLevel 1 3)), (1, .go true)], x.2 ≠ .call (.early true) := by decide +kernel

/-- C80, C81: a reachable state. -/
theorem txReached : TxReach txNm (txRun txNm .start txRace).tx := ⟨by decide +kernel, txRace, by decide +kernel, rfl⟩

example : (txRun txNm .start txRace).tx.list = [2, 1, 0] ∧ (3 : Cid) ∉ [2, 1, (0 : Cid)] := by decide +kernel

example : txLog txNm (txRun txNm .start txRace).tx (.fmt 3 1 (some (ascii "hot"))) = some (some (69, ascii "cam", ascii "hot")) ∧
    txLog txNm (txRun txNm .start txRace).tx (.fmt 4 1 (some (ascii "hot"))) = some none ∧
    txLog txNm (txRun txNm .start txRace).tx (.fmt 6 7 (some (ascii "new"))) = some (some (73, ascii "usb", ascii "new")) := by
  decide +kernel

/-- C80_names: two of three tags. -/
example : (txRun txNm .start txRace).tx.ready = true ∧ txNames txNm (txRun txNm .start txRace).tx true 2 = [ascii "usb", ascii "cam"] ∧
    txNames txNm (txRun txNm .start txRace).tx false 2 = [] ∧ Tx.start.ready = false := by decide +kernel

/-- C81_false_prio: a colour bit. -/
example : 8 ≤ (0x0a : UInt32).toNat ∧ (1 : Cid) ∈ [2, 1, (0 : Cid)] ∧ (((0x0a : UInt32).toNat % 8 : Nat) : Int) ≤ 3 := by decide

/-- C82: a short record; a thread name that fills the record. -/
example : ((txPack (List.replicate 256 7) 4 (some (ascii "main")) (ascii "cam") (ascii "hot") 9).map fun b =>
    (b.buf.take (b.thn + b.tag + b.log), b.tid, b.prio, b.index)) = some (ascii "main\x00camhot", 1, 4, 9) := by decide +kernel

example : ((txPack (List.replicate 256 7) 0 (some (List.replicate 300 65)) (ascii "cam") (ascii "\x1b[1;31mhot") 9).map fun b =>
    (b.thn, b.tag, b.log, b.buf)) = some (256, 0, 0, List.replicate 255 65 ++ [0]) := by decide +kernel

example : RedText (ascii "\x1b[1;31mhot") := ⟨91, 49, 59, 51, ascii "mhot", by decide +kernel⟩

example : ¬ RedText (ascii "hot") := by
  rintro ⟨c1, c2, c3, c4, r, h⟩
  have : (ascii "hot").head? = some 27 := by rw [h]; rfl
  revert this; decide +kernel

/-- C83 -/
example : (shdRun .start (oneByOne [(1, 10), (2, 20), (1, 30)])).stored = [(10, 1), (20, 2), (30, 3)] := by decide +kernel

/-- C80_foreach, C81_colour, C81_table, C83_init -/
example : txForeach (txRun txNm .start txRace).tx true true = (0, [2, 1, 0]) ∧ txForeach (txRun txNm .start txRace).tx true false = (-22, []) := by decide +kernel
example : txColour 3 = some (some .red) ∧ txChar 3 = 69 ∧ txColour 6 = some none ∧ txColour 1 = some (some .zero) ∧ txColour 8 = none := by decide
example : (shdRun (txShdInit true (shdRun .off [.put 1 9, .begin 1, .finish 1])).1 (oneByOne [(1, 10)])).stored = [(10, 1)] := by decide +kernel

/-- C80_table -/
example : txChar 1 = 32 ∧ txChar (-3) = 32 ∧ txParse 65 = 0 ∧ txParse 99 = 0 ∧ ∀ b ∈ levelLetters, b.toNat ≠ 65 := by decide +kernel

end Verif.Tools.Examples
