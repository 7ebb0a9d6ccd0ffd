import Verif.Tools.PropsShdMain
import Verif.Tools.ExamplesShdlogd

/-!
# Examples for C132
-/
namespace Verif.Tools.ShdMainEx
open Verif Verif.Ulogcat Verif.Libulog Verif.Tools Verif.Tools.Shdd Verif.Tools.ShdMain Verif.Tools.ShdlogdEx

/-- All goes well; the first section is 70, later ones 71. -/
def sys : Sys :=
  { loop := true, timer := true, timerSet := 0, raw := 3, shd := fun evs => if .dmn .reopen ∈ evs then some 71 else some 70, mem1 := true, mem2 := true,
    blobs := [blob0, blob0], stamps := [0, 0] }

theorem sys_ok : sys.Ok := ⟨rfl, rfl, by decide, by decide, rfl, rfl⟩

/-- A record "a" with number 1. -/
def rec1 : Blob := { index := 1, prio := 6, tid := 7, thn := 2, tag := 2, log := 2, buf := [109, 0, 116, 0, 97, 0] ++ List.replicate 250 0 }

def none_ : Answers := { sel := .fail 2, left := [], read := true, fin := none, pad := 0 }
def gone : Answers := { none_ with sel := .fail 19 }
def one : Answers := { sel := .found [5], left := [rec1, blob0], read := true, fin := none, pad := 0 }

def quietly (a : Answers) : First := { a, sig := false, sig2 := false }

/-- The events of a run and its status. -/
def shown (w : Sys) (os : List MOpt) (fs : List First) (ls : List Later) : Option (List MEv × Option Nat) :=
  (main w os fs ls).map fun o => (o.evs, o.status)

/-- C132_usage -/
example : shown sys [.other, .period (ascii "7"), .other] [] [] = some ([.usage, .usage], some 0) := by decide +kernel

/-- C132_options, C132_released, C132_signal, C132_status, C132_daemon, C132_goes_on, C132_context: no message at first, then the section goes, then
there is one; the loop runs once more without the timer, and with nothing to read; then a signal. -/
def args : List MOpt := [.period (ascii "7"), .sect (ascii "x"), .pname (ascii "n"), .period (ascii "-1"), .device (ascii "d")]
def firsts : List First := [quietly none_, quietly gone, quietly one]
def laters : List Later := [{ a := none, ret := -4, sig := false }, { a := some none_, ret := 0, sig := true }, { a := none, ret := 0, sig := true }]

example : shown sys args firsts laters =
    some ([.starting 4294967295, .got .loop, .got .timer, .timerSet 4294967295, .rawOpen (some (ascii "d")), .got (.raw 3), .shdOpen (ascii "x"),
      .got (.sect 70), .got .blobs, .got .stamps,
      .select (some 70), .slept,
      .select (some 70), .dmn .failed, .dmn .reopen, .freed (.sect 70), .shdOpen (ascii "x"), .got (.sect 71), .slept,
      .select (some 71), .dmn (.write [le32 0 ++ le32 7 ++ le32 0 ++ le32 5 ++ le32 0, ascii "n" ++ [0], ascii "m" ++ [0], le32 6, ascii "t" ++ [0],
        ascii "a" ++ [0]]), .slept,
      .failed, .select (some 71),
      .freed .stamps, .freed .blobs, .freed (.sect 71), .freed (.raw 3), .freed .timer, .freed .loop], some 0) := by decide +kernel

example : (main sys args firsts laters).map (fun o => (heldRes o.evs, o.d.isSome)) = some (some [], true) := by decide +kernel

/-- C132_setup: no memory for the time stamps, or no section. -/
example : ¬ { sys with mem2 := false }.Ok := fun h => by cases h.mem2
example : shown { sys with mem2 := false } [] firsts laters =
    some ([.starting 50, .got .loop, .got .timer, .timerSet 50, .rawOpen none, .got (.raw 3), .shdOpen (ascii "ulog"), .got (.sect 70), .got .blobs,
      .failed, .freed .blobs, .freed (.sect 70), .freed (.raw 3), .freed .timer, .freed .loop], some 1) := by decide +kernel
example : (shown { sys with shd := fun _ => none } [] firsts laters).map (fun x => (x.1.drop 5, x.2)) =
    some ([.got (.raw 3), .shdOpen (ascii "ulog"), .failed, .freed (.raw 3), .freed .timer, .freed .loop], some 1) := by decide +kernel

/-- C132_false_early, C132_false_interrupted, C132_false_null -/
example : (shown sys [] [{ a := none_, sig := true, sig2 := false }] []).map Prod.snd = some (some 1) := by decide +kernel
example : (shown sys [] [quietly one] [{ a := none, ret := -4, sig := true }]).map Prod.snd = some (some 1) := by decide +kernel
example : (shown { sys with shd := fun evs => if .dmn .reopen ∈ evs then none else some 70 } [] [quietly gone, quietly gone] []).map
      (fun x => (x.1.drop 10, x.2)) =
    some ([.select (some 70), .dmn .failed, .dmn .reopen, .freed (.sect 70), .shdOpen (ascii "ulog"), .slept,
      .select none, .dmn .failed, .dmn .reopen, .closedNull, .shdOpen (ascii "ulog"), .slept], none) := by decide +kernel
example : ∀ evs, .dmn .reopen ∉ evs → sys.shd evs = some 70 := fun _ h => if_neg h

/-- Not ended: `ENODEV` at the end of a reading ends it, without a signal it goes on. -/
example : (shown sys [] [quietly one] [{ a := some none_, ret := 0, sig := false }]).map Prod.snd = some none := by decide +kernel
example : (shown sys [] [quietly one] [{ a := some { one with fin := some 19 }, ret := 0, sig := false }]).map Prod.snd = some (some 0) := by
  decide +kernel

end Verif.Tools.ShdMainEx
