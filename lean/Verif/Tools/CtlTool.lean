import Verif.Tools.Ctl

/-!
# The command ulogctl (libulogctl/tool/ulogctl.c)

Options come as `getopt_long` returns them. The client is the one of `Ctl`; the
callbacks of the command call nothing of the library, so they return at once. libpomp
may handle several events before the command looks whether it should stop: events come
in groups. The text is what is printed on stderr by the callbacks, error messages with
the number of a source line are left out.
-/
namespace Verif.Tools
open Verif Verif.Libulog

/-- ulogctl.c:139-155 -/
def char2level (b : UInt8) : Int :=
  if b = 99 ∨ b = 67 then 2
  else if b = 101 ∨ b = 69 then 3
  else if b = 119 ∨ b = 87 then 4
  else if b = 110 ∨ b = 78 then 5
  else if b = 105 ∨ b = 73 then 6
  else if b = 100 ∨ b = 68 then 7
  else -1

/-- ulogctl.c:159-186 -/
def level2char (l : Int) : UInt8 :=
  if l = 2 then 67 else if l = 3 then 69 else if l = 4 then 87 else if l = 5 then 78
  else if l = 6 then 73 else if l = 7 then 68 else 63

/-- ulogctl.c:38-43, 201-212 -/
def levelColor (l : Int) : Bytes :=
  27 :: (if l = 2 then ascii "[00;91m" else if l = 3 then ascii "[00;91m" else if l = 4 then ascii "[00;93m"
    else if l = 5 then ascii "[00;92m" else if l = 6 then ascii "[00;94m" else if l = 7 then ascii "[00;95m"
    else ascii "[0m")

/-- `tag_info_cb`, ulogctl.c:214-227 -/
def tagLine (color : Bool) (name : Bytes) (l : Int) : Bytes :=
  (if color then levelColor l else []) ++ [91, level2char l, 93, 32] ++ name ++
    (if color then 27 :: ascii "[0m" else []) ++ [10]

/-- One option. `next` is the argument after that of the option, if there is one. -/
inductive TOpt
  | help
  | list
  | color
  | tag (name : Bytes) (next : Option Bytes)
  | all (arg : Bytes)
  | proc (name : Bytes)
  | bad
  deriving DecidableEq, Repr

/-- the local variables, ulogctl.c:272-283, and `use_color` -/
structure TOpts where
  list : Bool
  color : Bool
  setTag : Bool
  setAll : Bool
  tag : Bytes
  level : Int
  proc : Option Bytes
  deriving DecidableEq, Repr

def TOpts.none : TOpts :=
  { list := false, color := false, setTag := false, setAll := false, tag := [], level := -1, proc := Option.none }

/-- ulogctl.c:302-366; an error is the status of `exit`. -/
def toolOptions : List TOpt → TOpts → Except Int TOpts
  | [], o => .ok o
  | .help :: _, _ => .error 0
  | .list :: l, o => toolOptions l { o with list := true }
  | .color :: l, o => toolOptions l { o with color := true }
  | .tag name next :: l, o =>
    match next with
    | none => .error (-1)
    | some a =>
      if firstByte a = 45 then .error (-1)
      else if char2level (firstByte a) < 0 then .error (-1)
      else toolOptions l { o with tag := name, setTag := true, level := char2level (firstByte a) }
  | .all a :: l, o =>
    if char2level (firstByte a) < 0 then .error (-1)
    else toolOptions l { o with level := char2level (firstByte a), setAll := true }
  | .proc name :: l, o => toolOptions l { o with proc := some name }
  | .bad :: _, _ => .error (-1)

/-- ulogctl.c:416-429 -/
def TOpts.request (o : TOpts) : Option Req :=
  if o.setTag then some (.setTag o.tag o.level)
  else if o.setAll then some (.setAll o.level)
  else if o.list then some .list
  else Option.none

/-- The storage for the address after `parse_addr` and the length, ulogctl.c:239-266.
`pomp` is `pomp_addr_parse`. -/
def parseAddr (pomp : Bytes → Option (Bytes × Nat)) (arg : Bytes) : Option (Bytes × Nat) :=
  if arg.take 5 = ascii "unix:" then
    let sock := arg.drop 5
    let path := pad sunPath (sock.take (sunPath - 1))
    let path := if sock.head? = some 64 then path.set 0 0 else path
    some (pad storage (afUnix ++ path), sunOff + sock.length)
  else pomp arg

structure ToolWorld where
  pomp : Bytes → Option (Bytes × Nat)
  /-- the loop, the client and its context can be made -/
  made : Bool
  /-- `ulogctl_cli_start` -/
  connectOk : Bool
  /-- the message is allocated, encoded, sent -/
  newOk : Bool
  encOk : Bool

inductive TEv
  /-- what libpomp calls before `pomp_loop_wait_and_process` returns -/
  | group (l : List CEv)
  | signal

/-- The callbacks that are under way return. -/
def drain (qs : List (Bytes × Int) → List (Bytes × Int)) : Nat → Cli → Cli × List COut
  | 0, c => (c, [])
  | n + 1, c =>
    if c.stack = [] then (c, [])
    else
      let r := cstep qs c .ret
      let d := drain qs n r.1
      (d.1, r.2 ++ d.2)

/-- One event with its callbacks. -/
def handle (qs : List (Bytes × Int) → List (Bytes × Int)) (c : Cli) (e : CEv) : Cli × List COut :=
  let r := cstep qs c e
  let d := drain qs (r.1.tags.length + (qs r.1.tags).length + 3) r.1
  (d.1, r.2 ++ d.2)

def handleAll (qs : List (Bytes × Int) → List (Bytes × Int)) : Cli → List CEv → Cli × List COut
  | c, [] => (c, [])
  | c, e :: l =>
    let r := handle qs c e
    let d := handleAll qs r.1 l
    (d.1, r.2 ++ d.2)

/-- `request_status_cb` was called (ulogctl.c:188-199). -/
def anyStatus (o : List COut) : Bool := o.any fun x => match x with | .status _ => true | _ => false

/-- The loop, ulogctl.c:432-433; the last component: it ended. -/
def toolLoop (qs : List (Bytes × Int) → List (Bytes × Int)) : Cli → List TEv → Cli × List COut × Bool
  | c, [] => (c, [], false)
  | c, .signal :: _ => (c, [], true)
  | c, .group g :: l =>
    let r := handleAll qs c g
    if anyStatus r.2 then (r.1, r.2, true)
    else
      let d := toolLoop qs r.1 l
      (d.1, r.2 ++ d.2.1, d.2.2)

/-- What the callbacks print. -/
def printOut (color : Bool) : COut → Bytes
  | .status false => ascii "Error occurred.\n"
  | .info n l => tagLine color n l
  | _ => []

inductive ToolRes
  /-- the status, what the client did and what was printed -/
  | exits (status : Int) (out : List COut) (text : Bytes)
  | waits (out : List COut) (text : Bytes)
  /-- memory outside of the address is copied -/
  | undef
  deriving DecidableEq, Repr

/-- The request, ulogctl.c:416-429. -/
def toolAsk (qs : List (Bytes × Int) → List (Bytes × Int)) (w : ToolWorld) (o : TOpts) (c : Cli) : Cli × List COut :=
  match o.request with
  | none => (c, [])
  | some r => cstep qs c (.request r w.newOk w.encOk true)

/-- ulogctl.c:409-453 with a client made. -/
def toolRun (qs : List (Bytes × Int) → List (Bytes × Int)) (w : ToolWorld) (o : TOpts) (evs : List TEv) : ToolRes :=
  let r1 := cstep qs Cli.new (.start w.connectOk)
  let text := fun l : List COut => l.flatMap (printOut o.color)
  let finish := fun (c : Cli) (out : List COut) =>
    let s := handle qs c .stop
    ToolRes.exits 0 (out ++ s.2) (text (out ++ s.2))
  if w.connectOk = false then finish r1.1 r1.2
  else
    let r2 := toolAsk qs w o r1.1
    let r3 := toolLoop qs r2.1 evs
    let out := r1.2 ++ r2.2 ++ r3.2.1
    if r3.2.2 then finish r3.1 out else .waits out (text out)

/-- The address the client is made for: undefined if the length leaves the storage. -/
def toolAddr (w : ToolWorld) (o : TOpts) (args : List Bytes) : Option (Option Bytes) :=
  match o.proc with
  | some p => some (cliAddr p)
  | none =>
    match args with
    | a :: _ => (parseAddr w.pomp a).map fun x => copyAddr x.1 x.2
    | [] => none

/-- `main`, ulogctl.c:270-453; `args` are the arguments that are not options. -/
def toolMain (qs : List (Bytes × Int) → List (Bytes × Int)) (w : ToolWorld) (opts : List TOpt) (args : List Bytes) (evs : List TEv) : ToolRes :=
  match toolOptions opts TOpts.none with
  | .error st => .exits st [] []
  | .ok o =>
    match args with
    | [] =>
      if o.proc.isNone then .exits (-1) [] []
      else if w.made = false then .exits 0 [] []
      else if toolAddr w o args = some none then .undef
      else toolRun qs w o evs
    | a :: _ =>
      if (parseAddr w.pomp a).isNone then .exits 0 [] []
      else if w.made = false then .exits 0 [] []
      else if toolAddr w o args = some none then .undef
      else toolRun qs w o evs

end Verif.Tools
