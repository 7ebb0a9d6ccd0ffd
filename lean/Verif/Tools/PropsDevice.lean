import Verif.Tools.Device
import Verif.Tools.Wrapper
import Verif.Tools.PropsWhole

/-!
# C145: the programs agree on the log that ULOG_DEVICE names

libulog, `ulog_raw_open` and ulogwrapper cut the path to 31 bytes, ulogcat to 63 and ulogger to
127. The driver takes only names short enough that this makes no difference.
-/
namespace Verif.Tools.Whole
open Verif Verif.Kernel Verif.Libulog Verif.Ulogcat Verif.Tools

/-! ## Specification -/

/-- The log is the one of this name, the main log if there is none. -/
def Named (v : Option Bytes) (d : RLog) : Prop := d.name = ascii "ulog_" ++ v.getD (ascii "main")

/-! ## Proofs -/

theorem cut_path {n : Bytes} {d : RLog} (hd : DevName d.name) {k : Nat} (hk : 31 ≤ k) :
    (ascii "/dev/ulog_" ++ n).take k = pathOf d ↔ d.name = ascii "ulog_" ++ n := by
  have hl := hd.length
  have h5 : (ascii "/dev/").length = 5 := by decide +kernel
  have hu : (ascii "ulog_").length = 5 := by decide +kernel
  have hdv : ascii "/dev/ulog_" = ascii "/dev/" ++ ascii "ulog_" := by decide +kernel
  unfold pathOf
  rw [hdv, List.append_assoc]
  constructor
  · intro h
    have hlen := congrArg List.length h
    rw [List.length_take, List.length_append, List.length_append, List.length_append] at hlen
    rw [List.take_of_length_le (by rw [List.length_append, List.length_append]; omega)] at h
    exact (List.append_cancel_left h).symm
  · intro h
    have hlen := congrArg List.length h
    rw [List.length_append] at hlen
    rw [List.take_of_length_le (by rw [List.length_append, List.length_append]; omega), h]

theorem main_path {d : RLog} : ascii "/dev/ulog_main" = pathOf d ↔ d.name = ascii "ulog_" ++ ascii "main" := by
  have h : ascii "/dev/ulog_main" = ascii "/dev/" ++ (ascii "ulog_" ++ ascii "main") := by decide +kernel
  unfold pathOf
  rw [h]
  exact ⟨fun h => (List.append_cancel_left h).symm, fun h => by rw [h]⟩

theorem openPath_named {getenv : Bytes → Option Bytes} {d : RLog} (hd : DevName d.name) :
    openPath getenv (ascii "ULOG_DEVICE") (ascii "/dev/ulog_main") none = pathOf d ↔ Named (getenv (ascii "ULOG_DEVICE")) d := by
  unfold openPath Named
  cases getenv (ascii "ULOG_DEVICE") with
  | none => exact main_path
  | some p => exact cut_path hd (Nat.le_refl 31)

/-- C145. For every log that the driver can have and every value of ULOG_DEVICE, or none: a program
that logs with libulog and has set no device, a program that calls `ulog_raw_open(NULL)`, the
command ulogger, and ulogwrapper take this log exactly if the value is its name; and so does
`ulogcat -b` with the value. -/
theorem C145_agree {size : Int} {got : Bool} {r : Reg} (hr : RegReach size got r) {d : RLog} (hd : d ∈ r.devs) (v : Option Bytes) :
    (∀ (w : Libulog.World) (s : Lib), s.device = none → w.getenv (ascii "ULOG_DEVICE") = v → (devChoice w s = pathOf d ↔ Named v d)) ∧
    (∀ getenv : Bytes → Option Bytes, getenv (ascii "ULOG_DEVICE") = v →
      (openPath getenv (ascii "ULOG_DEVICE") (ascii "/dev/ulog_main") none = pathOf d ↔ Named v d) ∧ (cmdPath getenv = pathOf d ↔ Named v d)) ∧
    ∀ n, v = some n → ((ascii "/dev/ulog_" ++ n).take 63 = pathOf d ↔ Named v d) := by
  have hn := (C15_devices hr).name d hd
  refine ⟨fun w s hs hv => ?_, fun getenv hv => ⟨?_, ?_⟩, fun n hv => ?_⟩
  · unfold devChoice Libulog.devPath Named
    rw [hs, hv]
    cases v with
    | none => exact main_path
    | some p => exact cut_path hn (Nat.le_refl 31)
  · rw [← hv]
    exact openPath_named hn
  · unfold cmdPath Named
    rw [hv]
    exact cut_path hn (by omega)
  · rw [hv]
    exact cut_path hn (by omega)

/-- C145. No two logs have one name, so a value names one log at most. -/
theorem C145_one {size : Int} {got : Bool} {r : Reg} (hr : RegReach size got r) {d d' : RLog} (hd : d ∈ r.devs) (hd' : d' ∈ r.devs)
    {v : Option Bytes} (h : Named v d) (h' : Named v d') : d = d' := by
  have hnd := (C15_devices hr).distinct
  have he : d.name = d'.name := h.trans h'.symm
  generalize r.devs = ds at hd hd' hnd
  induction ds with
  | nil => cases hd
  | cons x ds ih =>
    rw [List.map_cons, List.nodup_cons] at hnd
    rcases List.mem_cons.1 hd with rfl | m <;> rcases List.mem_cons.1 hd' with rfl | m'
    · rfl
    · exact absurd (List.mem_map.2 ⟨d', m', he.symm⟩) hnd.1
    · exact absurd (List.mem_map.2 ⟨d, m, he⟩) hnd.1
    · exact ih m m' hnd.2

/-- C145. The command opens the log that its ULOG_DEVICE names, in raw mode, if it can be opened. -/
theorem C145_opens {size : Int} {got : Bool} {r : Reg} (hr : RegReach size got r) {d : RLog} (hd : d ∈ r.devs) (e : OpenEnv)
    (h : Named (e.getenv (ascii "ULOG_DEVICE")) d) {fd : Nat} (ho : e.openRes (pathOf d) = .inl fd) (hc : e.isChr fd = true)
    (hraw : e.rawOk fd = true) : cmdOpen e = ((fd : Int), [.opened (pathOf d) fd, .raw fd]) := by
  have hp : cmdPath e.getenv = pathOf d := (((C145_agree hr hd (e.getenv (ascii "ULOG_DEVICE"))).2.1 e.getenv rfl).2).2 h
  unfold cmdOpen rawOpen openPath
  dsimp only
  rw [hp, ho]
  simp [hc, hraw]

/-- C145. The device that `ulogcat -b n` adds is this log exactly if `n` is its name. -/
theorem C145_view {size : Int} {got : Bool} {r : Reg} (hr : RegReach size got r) {d : RLog} (hd : d ∈ r.devs) {w : OWorld} {n : Bytes} {s s' : OSt}
    (hk : n ≠ ascii "kmsgd") (h : addUlog w n s = (true, s')) :
    ∃ x, s'.devs = s.devs ++ [x] ∧ (x.path = pathOf d ↔ Named (some n) d) := by
  have hn := cut_path (n := n) ((C15_devices hr).name d hd) (k := 63) (by omega)
  have hk' : ¬ n = kmsgdName := hk
  have hc : (devCreate w s).2.devs = s.devs := by
    unfold devCreate
    dsimp only
    split <;> rfl
  unfold addUlog at h
  generalize devCreate w s = c at h hc
  obtain ⟨o, t⟩ := c
  cases o with
  | none => cases h
  | some idx =>
    dsimp only [devOpen] at h hc
    cases ho : w.openAt t.evs ((ascii "/dev/ulog_" ++ n).take 63) with
    | none => rw [ho] at h; cases h
    | some fd =>
      rw [ho] at h
      dsimp only at h
      split at h
      · cases h
      · cases h
        refine ⟨_, by rw [← hc]; rfl, ?_⟩
        exact hn

/-- C145. A value of more than ten bytes names no log, so that none of the programs opens one. -/
theorem C145_long {size : Int} {got : Bool} {r : Reg} (hr : RegReach size got r) {d : RLog} (hd : d ∈ r.devs) {n : Bytes} (h : 10 < n.length) :
    ¬ Named (some n) d := by
  intro hn
  have hl := ((C15_devices hr).name d hd).length
  have := congrArg List.length hn
  rw [List.length_append, show (ascii "ulog_").length = 5 by decide +kernel] at this
  change d.name.length = 5 + n.length at this
  omega

/-- C145, false of paths that are no logs of the driver: a value of more than 21 bytes makes libulog
and the command open different paths. -/
theorem C145_false_long {n : Bytes} (h : 21 < n.length) {getenv : Bytes → Option Bytes} (hv : getenv (ascii "ULOG_DEVICE") = some n) :
    openPath getenv (ascii "ULOG_DEVICE") (ascii "/dev/ulog_main") none ≠ cmdPath getenv := by
  intro he
  have hlen := congrArg List.length he
  unfold openPath cmdPath at hlen
  rw [hv] at hlen
  dsimp only [Option.getD] at hlen
  rw [List.length_take, List.length_take, List.length_append, show (ascii "/dev/ulog_").length = 10 by decide +kernel] at hlen
  omega

end Verif.Tools.Whole
