import Verif.Tools.SrvArgs
import Verif.Tools.PropsGetopt
import Verif.Tools.PropsCtlSrv

/-!
# C144: what the arguments of the example ulogctl-srv say

The grammar of C141 with the options of its usage (ulogctl-srv.c:60-76). The server it makes is
told from the words: the last socket, else the last port, else that of the process.
-/
namespace Verif.Tools.Getopt
open Verif Verif.Libulog Verif.Tools Verif.Tools.CtlSrv

/-! ## Specification -/

/-- The options of ulogctl-srv.c:67-71. -/
def srvGram : Gram :=
  { flags := ascii "hp", args := ascii "iu"
    longs := [⟨ascii "help", false, 104⟩, ⟨ascii "inet", true, 105⟩, ⟨ascii "unix", true, 117⟩, ⟨ascii "process", false, 112⟩] }

inductive SrvOpt
  | help
  | inet (port : Bytes)
  | unix (sock : Bytes)
  | process
  deriving DecidableEq, Repr

def srvSpell : SrvOpt → Item
  | .help => (104, none)
  | .inet a => (105, some a)
  | .unix a => (117, some a)
  | .process => (112, none)

/-- The words `args` mean the options `opts`, with the operands `ops`. -/
def SrvLine (perm : Bool) (opts : List SrvOpt) (ops args : List Bytes) : Prop := Line srvGram perm (opts.map srvSpell) ops args

/-- The program, whatever libpomp answers, makes this server or none. -/
def Makes (perm : Bool) (args : List Bytes) (k : Option Kind) : Prop :=
  ∃ o : EOpts, (∀ w, exRun w (srvArgs perm args) = exMain w o) ∧ o.kind = k

/-! ## Proofs -/

theorem srvTable : Table srvSyn srvGram where
  flag := all_bytes (by decide +kernel)
  arg := all_bytes (by decide +kernel)
  dash := by decide
  longs := .inr rfl
  vals := by decide +kernel
  names := by decide +kernel

/-- What `atoi` makes of an option. -/
def srvMeans : SrvOpt → EOpt
  | .help => .help
  | .inet a => .inet (atoi a)
  | .unix a => .unix a
  | .process => .process

theorem srv_line {perm : Bool} {opts : List SrvOpt} {ops args : List Bytes} (h : SrvLine perm opts ops args) :
    srvArgs perm args = opts.map srvMeans := by
  unfold srvArgs
  rw [C141_line srvTable h]
  show ((opts.map srvSpell).map ev).map toSrv = _
  rw [List.map_map, List.map_map]
  clear h
  induction opts with
  | nil => rfl
  | cons o os ih => rw [List.map_cons, ih]; cases o <;> rfl

theorem srv_makes {perm : Bool} {opts : List SrvOpt} {ops args : List Bytes} (h : SrvLine perm opts ops args) (hh : .help ∉ opts) :
    Makes perm args (wanted (opts.map srvMeans)) := by
  unfold Makes
  rw [srv_line h]
  refine C116_kind _ (List.findSome?_eq_none_iff.2 fun x hx => ?_)
  obtain ⟨o, ho, rfl⟩ := List.mem_map.1 hx
  cases o with
  | help => exact absurd ho hh
  | _ => rfl

def isUnix : EOpt → Option Bytes
  | .unix s => some s
  | _ => none

def isInet : EOpt → Option Int
  | .inet p => some p
  | _ => none

theorem wanted_eq (l : List EOpt) : wanted l = match l.reverse.findSome? isUnix, (l.reverse.findSome? isInet).getD (-1) with
    | some s, _ => some (.unix s)
    | none, p => if p ≠ -1 then some (.inet p) else if EOpt.process ∈ l then some .process else none := by
  have h1 : (fun x : EOpt => match x with | .unix s => some s | _ => none) = isUnix := by funext x; cases x <;> rfl
  have h2 : (fun x : EOpt => match x with | .inet p => some p | _ => none) = isInet := by funext x; cases x <;> rfl
  unfold wanted
  rw [← h1, ← h2]
  cases l.reverse.findSome? (fun x : EOpt => match x with | .unix s => some s | _ => none) <;> rfl

theorem last_unix {l r : List SrvOpt} {s : Bytes} (h : ∀ t, .unix t ∉ r) : ((l ++ .unix s :: r).map srvMeans).reverse.findSome? isUnix = some s := by
  rw [List.map_append, List.map_cons, List.reverse_append, List.reverse_cons, List.append_assoc, List.findSome?_append,
    List.findSome?_eq_none_iff.2 (fun x hx => ?_)]
  · rfl
  · obtain ⟨o, ho, rfl⟩ := List.mem_map.1 (List.mem_reverse.1 hx)
    cases o with
    | unix t => exact absurd ho (h t)
    | _ => rfl

theorem no_unix {l : List SrvOpt} (h : ∀ t, .unix t ∉ l) : (l.map srvMeans).reverse.findSome? isUnix = none := by
  refine List.findSome?_eq_none_iff.2 fun x hx => ?_
  obtain ⟨o, ho, rfl⟩ := List.mem_map.1 (List.mem_reverse.1 hx)
  cases o with
  | unix t => exact absurd ho (h t)
  | _ => rfl

theorem last_inet {l r : List SrvOpt} {a : Bytes} (h : ∀ b, .inet b ∉ r) :
    ((l ++ .inet a :: r).map srvMeans).reverse.findSome? isInet = some (atoi a) := by
  rw [List.map_append, List.map_cons, List.reverse_append, List.reverse_cons, List.append_assoc, List.findSome?_append,
    List.findSome?_eq_none_iff.2 (fun x hx => ?_)]
  · rfl
  · obtain ⟨o, ho, rfl⟩ := List.mem_map.1 (List.mem_reverse.1 hx)
    cases o with
    | inet t => exact absurd ho (h t)
    | _ => rfl

theorem no_inet {l : List SrvOpt} (h : ∀ t, .inet t ∉ l) : (l.map srvMeans).reverse.findSome? isInet = none := by
  refine List.findSome?_eq_none_iff.2 fun x hx => ?_
  obtain ⟨o, ho, rfl⟩ := List.mem_map.1 (List.mem_reverse.1 hx)
  cases o with
  | inet t => exact absurd ho (h t)
  | _ => rfl

/-- C144. A socket wins over ports and the process, wherever it stands; the last one counts. -/
theorem C144_unix {perm : Bool} {l r : List SrvOpt} {s : Bytes} {ops args : List Bytes} (h : SrvLine perm (l ++ .unix s :: r) ops args)
    (hh : .help ∉ l ++ .unix s :: r) (hr : ∀ t, .unix t ∉ r) : Makes perm args (some (.unix s)) := by
  have := srv_makes h hh
  rwa [wanted_eq, last_unix hr] at this

/-- C144. Without a socket the last port counts; a word that begins with a number of an `int` but -1
is that port. -/
theorem C144_inet {perm : Bool} {l r : List SrvOpt} {a z : Bytes} {v : Int} {ops args : List Bytes}
    (h : SrvLine perm (l ++ .inet (a ++ z) :: r) ops args) (hh : .help ∉ l ++ .inet (a ++ z) :: r)
    (hu : ∀ t, .unix t ∉ l ++ .inet (a ++ z) :: r) (hr : ∀ b, .inet b ∉ r) (hv : Numeral a v) (hz : ∀ c, z.head? = some c → Kernel.isDigit c = false)
    (h1 : -2 ^ 31 ≤ v) (h2 : v < 2 ^ 31) (hm : v ≠ -1) : Makes perm args (some (.inet v)) := by
  have := srv_makes h hh
  rw [wanted_eq, no_unix hu, last_inet hr, C93_exact hv hz h1 h2] at this
  simpa [hm] using this

/-- C144. Without a socket and a port, the server is that of the process with `-p`, and none without. -/
theorem C144_process {perm : Bool} {opts : List SrvOpt} {ops args : List Bytes} (h : SrvLine perm opts ops args) (hh : .help ∉ opts)
    (hu : ∀ t, .unix t ∉ opts) (hi : ∀ b, .inet b ∉ opts) : Makes perm args (if .process ∈ opts then some .process else none) := by
  have := srv_makes h hh
  have hp : EOpt.process ∈ opts.map srvMeans ↔ SrvOpt.process ∈ opts := by
    rw [List.mem_map]
    constructor
    · rintro ⟨o, ho, e⟩
      cases o <;> first | exact ho | cases e
    · exact fun h => ⟨_, h, rfl⟩
  rw [wanted_eq, no_unix hu, no_inet hi] at this
  simpa [hp] using this

theorem ends_first {l : List EOpt} (h : .bad ∈ l ∨ .help ∈ l) : ∃ e, l.findSome? EOpt.ends = some e ∧ (e = 0 ∨ e = -1) := by
  induction l with
  | nil => rcases h with h | h <;> cases h
  | cons x l ih =>
    rw [List.findSome?_cons]
    cases x with
    | help => exact ⟨0, rfl, .inl rfl⟩
    | bad => exact ⟨-1, rfl, .inr rfl⟩
    | _ => exact ih (by simpa using h)

/-- C144. A line that is none the grammar explains ends the program with -1, or with 0 if a request
for help comes first, before anything is made. -/
theorem C144_refused {perm : Bool} {args : List Bytes} (h : ¬ ∃ os ops, Line srvGram perm os ops args) (w : EWorld) :
    exRun w (srvArgs perm args) = (-1, []) ∨ exRun w (srvArgs perm args) = (0, []) ∧ .help ∈ srvArgs perm args := by
  have hb : EOpt.bad ∈ srvArgs perm args := List.mem_map.2 ⟨_, (C141_refused srvTable args).2 h, rfl⟩
  obtain ⟨e, he, h'⟩ := ends_first (.inl hb)
  unfold exRun
  rw [exOptions_eq, he]
  rcases h' with rfl | rfl
  · refine .inr ⟨rfl, ?_⟩
    obtain ⟨x, hx, hx'⟩ := List.exists_of_findSome?_eq_some he
    cases x with
    | help => exact hx
    | _ => cases hx'
  · exact .inl rfl

/-- C144. A line with `-h` ends the program with 0, before anything is made. -/
theorem C144_help {perm : Bool} {opts : List SrvOpt} {ops args : List Bytes} (h : SrvLine perm opts ops args) (hh : .help ∈ opts) (w : EWorld) :
    exRun w (srvArgs perm args) = (0, []) := by
  rw [srv_line h]
  have hm : EOpt.help ∈ opts.map srvMeans := List.mem_map.2 ⟨_, hh, rfl⟩
  obtain ⟨e, he, h'⟩ := ends_first (.inr hm)
  unfold exRun
  rw [exOptions_eq, he]
  rcases h' with rfl | rfl
  · rfl
  · obtain ⟨x, hx, hx'⟩ := List.exists_of_findSome?_eq_some he
    obtain ⟨o, _, rfl⟩ := List.mem_map.1 hx
    cases o <;> cases hx'

/-- C144, false: that a port has to be a number. A word that begins with none is port 0. -/
theorem C144_false_port {perm : Bool} {a : Bytes} {ops args : List Bytes} (h : SrvLine perm [.inet a] ops args) (ha : NoNumber a) :
    Makes perm args (some (.inet 0)) := by
  have := srv_makes h (by simp)
  rw [wanted_eq, no_unix (by simp), show [SrvOpt.inet a] = [] ++ .inet a :: [] from rfl, last_inet (by simp), C93_none ha] at this
  simpa using this

/-- C144, false: that `-i` makes a server. For -1, and for 4294967295, none is made. -/
theorem C144_false_minus (perm : Bool) : Makes perm [ascii "-i-1"] none ∧ Makes perm [ascii "-i", ascii "4294967295"] none := by
  have key : ∀ args : List Bytes, srvArgs perm args = [.inet (-1)] → Makes perm args none := by
    intro args h
    unfold Makes
    rw [h]
    exact ⟨{ port := -1, sock := none, process := false }, fun w => rfl, rfl⟩
  refine ⟨key _ ?_, key _ ?_⟩ <;> (cases perm <;> decide +kernel)

end Verif.Tools.Getopt
