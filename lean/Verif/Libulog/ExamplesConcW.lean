import Verif.Libulog.PropsConcW

/-! Examples for C118. -/
namespace Verif.Libulog.ConcW
open Verif Verif.Libulog

/-- Two threads send their first messages at the same time: both get past the check of
`ctrl.writer`, the first opens the device, the second waits and finds it open. -/
def race : List (Tid × Choice) :=
  [(0, .log ⟨1, false⟩), (1, .log ⟨2, false⟩), (0, .go), (1, .go), (0, .go), (1, .go), (0, .go), (0, .go), (0, .opens (some 3)), (0, .go), (0, .go),
   (1, .go), (1, .go), (1, .go), (1, .go), (1, .go), (1, .interrupted), (1, .go), (1, .go), (1, .go), (0, .go), (0, .go), (0, .go), (0, .go)]

/-- C118_device, C118_latest, C118_once, C118_opens: one `open`, both messages on the device. -/
example : (runs plainE (.start fun _ => none) race).map (fun s => (s.tr, s.lock, s.fd, decide (s.pc 0 = .idle), decide (s.pc 1 = .idle))) =
    some ([.done 0 ⟨1, false⟩, .wrote 0 ⟨1, false⟩ (some (.dev (ascii "/dev/ulog_main"))) false, .done 1 ⟨2, false⟩,
      .wrote 1 ⟨2, false⟩ (some (.dev (ascii "/dev/ulog_main"))) false, .opened (ascii "/dev/ulog_main") 3, .begin 1 ⟨2, false⟩, .begin 0 ⟨1, false⟩],
      none, some 3, true, true) := by decide +kernel

/-- C118_copied, C118_get: `ULOG_STDERR`, no device; a message, a binary one, and a question. -/
example : (runs ⟨true, true, none⟩ (.start fun _ => none)
    [(0, .log ⟨1, false⟩), (0, .go), (0, .go), (0, .go), (0, .go), (0, .opens none), (0, .go), (0, .go), (0, .go), (0, .go), (0, .go), (0, .go), (0, .go), (0, .go),
     (0, .log ⟨2, true⟩), (0, .go), (0, .go), (0, .go), (0, .go), (0, .go),
     (1, .getWriter), (1, .go), (1, .go), (1, .go), (1, .go)]).map (fun s => s.tr) =
    some [.got 1 (some .null), .done 0 ⟨2, true⟩, .null 0 ⟨2, true⟩, .begin 0 ⟨2, true⟩,
      .done 0 ⟨1, false⟩, .copy 0 ⟨1, false⟩, .null 0 ⟨1, false⟩, .openFailed (ascii "/dev/ulog_main"), .begin 0 ⟨1, false⟩] := by decide +kernel

/-- C118_lock, C118_progress: thread 1 has to wait while thread 0 opens the device. -/
example : ((runs plainE (.start fun _ => none) (race.take 7)).map fun s => (s.lock, (step plainE 1 .go s).isNone, (step plainE 0 .go s).isSome)) =
    some (some 0, true, true) := by decide +kernel

end Verif.Libulog.ConcW
