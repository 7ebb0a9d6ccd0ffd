# Formal model of Parrot ulog in Lean 4: design

The code under /repo is only read as text. Everything below /verif/lean is a
hand-written model of that code, function by function, plus machine-checked
theorems about the model. Definitions cite the file and lines they model.

## Trusted base

* The Lean 4 kernel (4.33.0) and, at most, the three standard axioms
  `propext`, `Classical.choice`, `Quot.sound`. No axiom of our own, no `sorry`,
  no `native_decide`, no `bv_decide`. No theorem uses Mathlib. `decide +kernel`
  is used for finite checks over bytes (256 cases), for `example`s and for
  concrete witnesses; each is evaluated by the kernel itself.
* The faithfulness of the hand translation C -> Lean. It is not checked by a
  tool. Each definition cites its source lines so it can be reviewed, and
  /verif/seeded/LOG.jsonl records wrong versions of the definitions together
  with the theorems that fail for them.
* The semantics of the environment as described below.

## Conventions

* A byte is `UInt8`. C strings are byte lists without the terminator unless a
  comment says otherwise. Multi-byte integers are little endian (all supported
  targets; the parser itself assumes it, libulog/ulog_read.c:103).
* Undefined behaviour and non-termination are distinct outcomes
  (`Except Fault`, `Option`, or an explicit result), never a default value.
* `size_t` counters that cannot overflow in any realistic run are `Nat`; where
  an integer wraps in reachable behaviour the wrap is modelled.
* Property theorems are in files named `Props*.lean`, apart from helper lemmas;
  `example`s that exhibit a concrete non-trivial instance of their hypotheses
  follow them or are in `Examples*.lean`.
* A property that turned out false of the code is restated as what holds
  exactly; the false part is named in its statement and refuted by a theorem
  with a concrete witness (`_false`, `_neg`).

## Module map

| modules | code modelled |
|---|---|
| `Bytes`, `Mem` | byte lists, integers, C strings, checked buffers |
| `Kernel/Model` | kernel/ulogger-6.x.c: read, write, poll, ioctl, open, release of one device, ring as bytes |
| `Kernel/Spec`, `Ring`, `Sim`, `Refine`, `StepRefine`, `Reach` | abstract log and the proof that the driver refines it |
| `Kernel/Trace`, `TraceInv` | what an observer can say from calls and results; its invariant |
| `Kernel/Props`, `PropsOwn`, `PropsNeg` | C01-C13, C16 |
| `Kernel/Wait`, `PropsWait` | sleeping and waking readers as interleaved threads (C14) |
| `Kernel/Registry`, `PropsRegistry` | the `logs` attribute, ulogger-6.x.c:942-1123 (C15, C56-C58) |
| `Kernel/Variants`, `PropsVariants` | the write methods of ulogger-3.x.c, -4.x.c, -6.x.c with the kernel's iterators (C99) |
| `Kernel/Locks`, `PropsLocks` | the driver's mutexes, `get_log_from_minor` of ulogger-3.x.c (C100) |
| `Libulog/Parse`, `ParseSpec`, `ParseProof`, `PropsParse` | libulog/ulog_read.c (C17, C18) |
| `Libulog/Raw`, `EndToEnd`, `PropsEnd` | ulog_write_raw.c, the writers' vectors, through driver and parser (C19, C20, C31-C33) |
| `Libulog/OpenDev`, `PropsOpenDev` | opening and closing for raw and binary messages, ulog_write_raw.c, ulog_write_bin.c (C102) |
| `Libulog/Bin`, `PropsBin` | chunks of ulog_write_bin.c (C29, C30) |
| `Libulog/Write`, `WriteProof`, `PropsWrite`, `PropsWriter` | ulog_write.c, one call at a time (C21, C23-C26, C50-C53) |
| `Libulog/Macros`, `PropsMacros` | throttle and change macros of ulog.h (C27, C28) |
| `Libulog/MacrosErrno`, `PropsErrno` | errno and event macros of ulog.h (C107) |
| `Libulog/Conc`, `ConcInv`, `ConcStep`, `PropsConc` | tags of ulog_write.c under any interleaving of threads (C22, C54, C55) |
| `Libulog/Builds`, `PropsBuilds`, `ExamplesBuilds` | ulog_write.c built for Android and Windows, ulog_write_android.c (C121) |
| `Tools/PyDev`, `PropsPyDev`, `PropsPyScreen`, `ExamplesPyDev` | ULogDeviceHandler of ulogpy/ulog.py, from the device's making to the screen (C122) |
| `Tools/PySetup`, `PropsPySetup`, `ExamplesPySetup` | setup_logging and ULogHandler of ulogpy/ulog.py, up to the screen (C123) |
| `Kernel/Life`, `LifeRen`, `LifeMem`, `LifeOpen`, `LifeAdd`, `LifeSim`, `LifeRun`, `PropsLife`, `ExamplesLife` | the driver as structures at addresses, from loading to unloading (C124) |
| `Tools/ShdConc`, `PropsShdConc`, `ExamplesShdConc` | threads that log to shared memory (C125) |
| `Kernel/Ioctl`, `PropsIoctl`, `ExamplesIoctl` | `ulogger_ioctl` by request number (C126) |
| `Ulogcat/OutFd`, `PropsOutFd` | the output of a context and its descriptors (C67) |
| `Tools/TxConc`, `PropsTxConc`, `ExamplesTxConc` | `ulog_shd_put` of ThreadX, every access a step, preempted anywhere (C127) |
| `Kernel/Poll`, `PropsPoll`, `ExamplesPoll` | threads asleep in `poll` on several devices and their wake-up (C128) |
| `Kernel/Stamp`, `PropsStamp`, `ExamplesStamp` | writes at the same time: clock and raw flag read before the mutex is taken (C129) |
| `Ulogcat/Merge` | what is meant by merging by turns, the specification of the order of a dump (C36, C37, C119, C130) |
| `Tools/First` | ulogcat/libulogcat_compat.c: the first version of the interface, as a machine whose names are pointers (C131) |
| `Tools/ShdMain` | shdlogd/src/shdlogd.c: options, resources, loops, signals, end (C132) |
| `Tools/PropsWhole` | no new code: registry, libulog, driver and ulogcat's main together (C133) |
| `Tools/CliMem`, `PropsCliMem` | memory of ulogctl_cli.c, with making and destroying a client, and of ulogctl_srv.c (C134) |
| `Ulogcat/Stands`, `PropsLost`, `Tools/PropsLostCat` | dumps of logs that overflowed (C135): no new code, the models of C119 and C133 |
| `Ulogcat/PropsLive` | several devices others write to while they are read (C136): no new code, the world `fleet` of C119 with others |
| `Ulogcat/PropsOrder` | the order of entries of several devices while following (C137): no new code |
| `Ulogcat/While`, `PropsWhile`, `CatchUp`, `PropsCatchUp` | programs that log while a viewer follows (C138): composes `Libulog/Write`, the driver and `ulogcat3_process_logs`; no new code |
| `Ulogcat/Tail`, `PropsTail`, `PropsTailScreen` | the loop of libulogcat_core.c with a tail beside the loop without (C139); no new code |
| `Ulogcat/PropsFollowTail`, `Tools/PropsWholeFollow` | ulogcat.c from the options to the screen while programs log (C140); no new code |
| `Tools/Getopt` | the arguments of ulogcat.c:101-167, ulogger.c:182-253, shdlogd.c:226-266, with `getopt` and `getopt_long` of the C library after their manual (C141) |
| `Tools/CtlArgs` | the arguments of libulogctl/tool/ulogctl.c:286-366 (C142) |
| `Tools/SrvArgs` | the arguments of libulogctl/examples/ulogctl-srv.c:115-157 (C144) |
| `Tools/Device` | the log that ulogger opens, ulogger.c:192-209 (C145) |
| `Libulog/ConcW`, `ConcWInv`, `PropsConcW`, `ExamplesConcW` | writer, device and descriptor of ulog_write.c under any interleaving of threads (C118) |
| `Ulogcat/Core`, `CoreInv`, `Quiet`, `Calm`, `Follow`, `PropsCore`, `PropsFollow` | libulogcat_core.c reading loop (C35-C38, C59-C61) |
| `Ulogcat/Queue`, `QueueRing`, `QueueProof`, `QueueSim`, `QueueLoop`, `QueueOpen`, `PropsQueue` | libulogcat_list.h and the queues of libulogcat_core.c as linked nodes (C105) |
| `Ulogcat/Receive`, `PropsReceive` | libulogcat_ulog.c: taking an entry, over the driver model (C84, C85) |
| `Ulogcat/Sim`, `Driven`, `PropsDriven` | the reading loop composed with the driver model (C90, C91) |
| `Ulogcat/Text`, `TextProof`, `CsvSpec`, `PropsText` | libulogcat_text.c (C39, C62, C63) |
| `Ulogcat/Colors`, `PropsColors` | libulogcat_text.c: setup_colors (C109) |
| `Ulogcat/Klog`, `KlogProof`, `PropsKlog`, `PropsKlogEx` | libulogcat_klog.c (C40, C64, C65) |
| `Ulogcat/Kmsg`, `PropsKmsg` | libulogcat_klog.c: opening and reading /dev/kmsg (C92) |
| `Ulogcat/Open`, `PropsOpen` | opening and closing contexts, first version of the interface (C66, C67) |
| `Tools/Kmsgd`, `PropsKmsgd` | kmsgd (C41, C68) |
| `Tools/Shd`, `PropsShd` | ulog_shd and shdlogd (C42, C43, C69) |
| `Tools/Ctl`, `PropsCtl`, `PropsCtlNet` | libulogctl client and server (C44-C46, C70) |
| `Tools/Syslog`, `PropsSyslog` | ulogwrapper/ulog_syslog.c (C47, C71) |
| `Tools/Gst`, `PropsGst` | libulog-redirect/ulog_gst.c (C48, C72) |
| `Tools/CtlTool`, `PropsCtlTool` | libulogctl/tool/ulogctl.c (C104) |
| `Tools/Wrapper`, `PropsWrapper` | ulogwrapper/ulogwrapper.c (C103) |
| `Tools/Redirect`, `PropsRedirect` | libulog-redirect/ulog_glib.c, ulog_obus.c (C101) |
| `Tools/Stream`, `PropsStream`, `PropsCerr` | libulog/ulog.cpp (C34, C73), libulog-redirect/ulog_stdcerr.cpp (C108) |
| `Tools/Py`, `PyLog`, `PropsPy`, `PropsPyLog` | ulogpy/ulog.py (C49, C74-C78) |
| `Tools/Tx`, `PropsTx` | threadx (C79-C83) |
| `Tools/Ulogger`, `PropsUlogger` | ulogger/ulogger.c (C86-C89) |
| `Ulogcat/Output`, `PropsOutput` | libulogcat_core.c: rendering and output (C96, C97) |
| `Ulogcat/Screen`, `PropsScreen` | which entry each frame shows: parsing of what was read, rendered; driver to output (C98) |
| `Ulogcat/Alone`, `PropsSaid` | programs, library, driver, viewer and output put together (C106) |
| `Kernel/Driver`, `PropsDriver`, `ExamplesDriver` | all devices and files of the driver in one state (C120) |
| `Ulogcat/Fleet`, `PropsFleet`, `ExamplesFleet` | several devices written by programs, read by one viewer: merge, tail, banners (C119) |
| `Tools/PropsKernelLog` | kernel messages, kmsgd, library, driver, viewer put together (C110) |
| `Tools/Shdlogd`, `PropsShdlogd` | writer, section and forwarding daemon of the shared-memory logs over time (C112) |
| `Tools/PropsShm` | shared memory, daemon, programs, driver, viewer put together (C113) |
| `Ulogcat/PropsLine` | a reader of printed lines (C115) |
| `Tools/PropsRemote` | programs whose levels are set, the server of libulogctl with its own messages, driver, viewer put together (C114) |
| `Tools/CtlSrv`, `PropsCtlSrv` | ulogctl_srv.c: making, starting, stopping, destroying a server; examples/ulogctl-srv.c (C116) |
| `Tools/ShApi`, `PropsShApi`, `ExamplesShApi` | ulog_api.sh, scripts and programs on one device to the screen (C117) |
| `Tools/PropsShell` | the command `ulogger`, programs, driver, viewer put together (C111) |
| `Tools/Cat`, `PropsCat` | ulogcat/ulogcat.c, ulogcat3_clear (C93-C95) |

## What the environment is taken to do

* Kernel driver: each call holds the log mutex for its whole effect on the log
  (`ulogger_read` in two steps). Functions of Linux (`sscanf`, `isspace`,
  `islower`, `scnprintf`, `copy_from_iter`, wait queues) behave as in Linux;
  allocation and user pointers may fail at any time where the model says so.
* Threads: sequentially consistent memory, every shared access one step. Data
  races in the code are given the meaning of word-sized accesses.
* libc: `snprintf` and friends as in the C standard, in the C locale;
  `localtime_r`/`strftime` are any function. A hook or callback may call back
  into the library (as another call or thread).
* libulogcat: `poll`, `receive_entry` and output are any functions of an
  arbitrary state (`World`), so no scheduling of writers is assumed.
* /dev/kmsg: numbered records, of which the oldest may be gone; a read gives one
  record, or EPIPE once after a loss, or EINVAL if it does not fit. Linux advances
  the reader before it compares the sizes (`devkmsg_read`); this is a parameter.
* libpomp, libshdata, libstdc++, GStreamer, GLib, libobus, CPython/ctypes and the Ambarella
  SDK are not modelled beyond the behaviour stated at the top of each module.

## What is not modelled

* overflow of `int` counters of
  entries;
* what the control server prints when libpomp fails;
* threadx: which colours `AmbaPrintColor` shows,
  `ulog_get_time_monotonic`; `CONFIG_PARROT_LINUXLOG`;
* `libulog.vapi` (declarations only), build files, rc files, `gen_deb`, `reformat`, test and
  example programs.

The 3.x and 4.x drivers were compared with 6.x by `diff`. They differ in: the
walk over the user buffers (3.x: array of segments; 4.x: `iov_for_each`, which
takes kernel vectors for user vectors; only 6.x has the single-buffer case);
`open` before Linux 2.6.35 (3.x looks the device up by minor number and may
fail with ENODEV); the initialisation of `tlen` and `plen` (not in 3.x); types
and names of the kernel API. The walks are modelled for all three, and shown to
do the same for what the VFS passes (C99), so the properties of the driver hold for
all of them; what is not shown by proof is that the rest of the files is the same.
C13, about kinds of iterators, is of 6.x only.

## Per property: how it is proved

* C01-C13, C16: the driver with the ring as bytes and all calls as atomic steps
  refines the abstract log (`Sim`, `StepRefine`); then induction over the call
  list on the observer's account (`Trace`, `TraceInv`). Every ring access and
  scan is checked, and the refinement shows no reachable step faults.
* C99: each walk over an iterator with position and count is the list of segments
  it writes, whose bytes are compared with the bytes asked for.
* C100: threads as lists of lock operations; locks are taken in one order.
* C102: an open that fails after `open` closes the descriptor, by cases; over any calls by
  induction. The environment of a call knows which descriptors are open (`Fresh`). The
  path is composed with C15: no name of a device of the driver is cut.
* C103: how the dynamic linker splits `LD_PRELOAD` is a separate small definition
  (`libNames`). False of values longer than 4064 bytes (`C103_false_long`) and if the
  name of the library is part of another one (`C103_false_part`).
* C105: `list_add_tail` and `list_remove` on rings given as paths over `next` and `prev`;
  each function of the loop on nodes simulates the one of `Core`, which with C35 gives
  that none faults. The list of devices is linked for opening and closing only.
* C101: the invariant of the write side of libulog, extended to a tag that exists
  only during a call; writing depends on the tag by its name only.
* C104: the options against a specification by the last occurrence; the client of C44
  driven by groups of events, shown independent of the grouping; composed with C45 and
  C46. False: a failed request ends with 0, or waits for ever if it could not be made
  (`C104_false_wait`); `-t` and `-a` share the level (`C104_false_both`); long paths
  (`C104_false_addr`).
* C14: transition system at the granularity of wait-queue operations; invariant.
* C15, C56-C58: registry as a list of slots with the request parser; a parser
  and printer round trip.
* C17, C18: parser with explicit offsets against a list-level specification.
* C19, C20, C31-C33: composition writer, driver step in any reachable state,
  parser.
* C21, C23-C26, C50-C53: the library state as a record, calls as functions
  that return events; invariants over all call lists in changing environments.
* C22, C54, C55: interleaving transition system, one invariant, ghost trace.
* C27, C28: one call site, any list of calls and times.
* C29, C30: chunk loop by induction, against `pieces` of the joined bytes.
* C35-C38, C59-C61: invariant on frames for arbitrary worlds; a world of
  devices nobody writes to for the contents (C36, C37); worlds extended by
  ghosts that count, note or list what was read for C38, C59, C61.
* C84, C85: the one or two reads of a call as steps of the driver model with
  calls of others between them; the observer's account of C01-C08.
* C90, C91: the loop of C35-C38, whose device is read as in C84 and polled by
  the driver; two worlds that do the same stay related (`Sim`), so ghosts for
  the frames, the calls and the answers of poll can be combined. `driverWorld`
  is a world with the driver state inside, for which nothing is assumed.
* C39, C62, C63: render buffer as checked memory; the CSV reader is written
  from the format alone.
* C40, C64, C65: record parser as checked memory; encoding of the kernel and
  its inverse.
* C92: sessions of calls and of what the kernel does between and inside them;
  the records delivered follow those logged.
* C66, C67: events on descriptors, worlds answer from the history.
* C41, C68: line splitter against a specification of lines, any buffer size
  and read sizes.
* C42, C43, C69, C82, C83: record building and reading as checked memory,
  composed with raw writing.
* C86-C89: options and messages as functions to a list of messages; the
  numbers, cuts and readings of lines are specified as relations on texts.
* C93-C95: composition of options, opening (C66), the reading loop (C36, C37) and
  closing; clearing as events on descriptors and as a call of the driver.
* C96, C97: a world that renders and writes around any world, related to it by
  `SimO`, whose relations may speak of what was output; composed with C94 and C63.
* C98: C90, C91 and C96 composed; a frame shows the parsed bytes of the read that
  filled it, and what is parsed is related to the committed entry. The texts are those
  of the entries received in the run itself; `C98_run` shows that such runs exist.
* C106: `say_step` (one call in one process) and `say_all` (any number of calls, over
  the abstract log) give the committed entries; `Alone.dump` shows that the dump of a
  device nobody else uses ends without a fault; `C98_run` and `OnScreen.lossless` give
  the bytes. The calls come one after the other, and before the viewer opens the device;
  C98 has the general case. `Logged` (what was committed, whoever wrote it) and `Dumps`
  (what a dump then prints) are the two halves; `C106_overflow` is for logs that lost
  messages.
* C107: C expressions are functions of the state that may change it; evaluation order is
  that of the macros. `errno` after a message was written is any function of the state.
  The order of evaluation among the arguments of one call is not followed.
* C108: `std::cerr` has `unitbuf`, so each output operation is followed by `sync`; calls
  one after the other, as for C34.
* C109: `setup_colors` over the 256 bytes of the array; the loop takes the words one by one.
* C110: C68 gives the lines kmsgd logs, `said_screen` the entries on the screen, and C65
  what is made of a line; composed as C106 is.
* C111: `cmd_run` (open, raw mode, writes, close) beside `say_one`; C86-C88 say which
  messages a command line stands for (`Cmd.Says`), `C111_says` that there always are
  some. That the driver takes every write, as the model of the command assumes, is part
  of the conclusion. Programs and commands run one after the other; the command may
  enter raw mode.
* C112: `step_rel` relates writer, section and daemon to a small machine that knows only
  messages, their times and numbers (`Fwd`); `C112_order`, `C112_missing`, `C112_all` are
  about that machine. libshdata is assumed to select as the head of `Shdlogd.lean` says.
  False cases: equal times on both sides of a reading (`C112_false_same`), a reading that
  fails (`C112_false_read`: the result of `shd_read_quantity` is overwritten).
* C113: C112 gives the daemon's events; `items_of` that however they come among the
  messages of processes, they are those of the messages forwarded; `items_run` what the
  driver makes of them beside `say_one`. The daemon opens the device in raw mode once
  and may do so. False case: `C113_false_escape`.
* C114: the specification `letThrough` keeps for each process the tags used and their
  levels, the latest first; `Rel` ties it to libulog's list and level fields. Requests of
  clients arrive whole; the server's messages that report failures of libpomp are not
  modelled, those on connection, disconnection and unknown tag are. `C114_until` says in
  closed form what a level set does until the next; `C114_unset` that without setting it
  is C106. False cases: `C114_false_all`, `C114_false_name`.
* C115: `readLine` is a reader of lines written against the documented layout, `told` what
  it should find; C97, C98, C106 etc. say that lines on the screen are `lineText`s, C109
  what colours add. False cases: `C115_false`.
* C116: `toldTo` and `answers` are a machine of two states; `Alive.use` says what a call needs
  and takes away. libpomp's answers are any. False cases: `C116_false_stop`,
  `C116_false_new`, `C116_false_tidy`; signals reach the example only as the end of its
  loop, and the message it then logs is not modelled.
* C117: built on C106; scripts' descriptors are added to its picture of who has the device
  open. What a shell's `printf` writes at once, and what it makes of a format, is a
  parameter. `$?`, signals, unusual `IFS`, `set -u` and a `printf` that is not built in are
  not modelled. False cases: `C117_false_*`.
* C118: `ctrl.writer`, `writer2`, `fd`, `device` and the descriptors of the process; every
  access is one step, memory sequentially consistent, the environment fixed. A ghost flag
  per thread records that the critical section of a `ulog_set_log_device` overlaps its
  message; nothing in the program reads it. The program installs functions of its own only
  (handing the wrapper of `ulog_get_write_func` back: C53). Interrupted writes may repeat for
  ever, so no bound on a whole call. False cases: `C118_false_*`.
* C119: `fleet` is a family of the worlds of C98, one per device; `Fleet.sim` relates it to the
  lists of C36/C37, and `C119_programs` adds the library as in C106. `ByTurns`, `lastOf` and
  `screenOf` are the specification. Each device is a run of the driver of its own, which is
  justified by C120 up to the numbers of files; processes of different devices are taken to be
  different ones. CSV lines too long for the buffer are excluded by hypothesis (they are not
  shown, C97).
* C120: `Drv` puts the table of `Registry` and the devices of `Model` together; `misc_open` is
  taken to find the device registered under the name. `callsOn` and `owner`, the
  specification, look at calls and results only. `ulog_main` has its buffer (else C57).
* C121: the code that differs between the builds, the rest taken from `Write`; `Wf.null` stands
  for `ulog_writer_android` in the Android build. `textGoes`, `copyLine` and `droidOf` are the
  specification. False cases: `C121_false_*`.
* C122: `ensure` and `openHandler` over the models of the control device and of `ulog_raw_open`;
  `severity`, `Line` and `recLines` are the specification, with `IsLines` for Python's lines.
  False cases: `C122_false_*`.
* C123: each call of `ulog_log_str` with the temporary tag is a step of the library with that tag
  at the level of the handler's tag (`call_step`); `logs`, `setups`, `nameOf`, `pyMin`, `pyMax` are
  the specification, by the history of inputs. The hooks of CPython, `isEnabledFor` and `repr` are
  taken as documented by Python. False cases: `C123_false_*`.
* C124: the memory is related to the driver of C120 by a map from roles (log, name and buffer of a
  device, reader of a file) to addresses, one to one and onto what is allocated (`MRel`, `KRel`).
  Renaming of file numbers (`LifeRen`) carries the calls over, since in memory readers go by their
  address. Lists are the ring lemmas of C105. The specification is `life`, `reading`, `Holds`,
  `Right`, by the history of calls and results. False cases: `C124_false_*`.
* C125: the invariant tells where each thread may be before and after the mutex is made (`Inv`, `Hold`,
  `Idle`), and that what is logged is what is kept and what is under way (`Kept`). The specification is
  by the trace of begun, written and ended calls (`said`, `kept`, `phase`). False cases: `C125_false_*`.
* C126: the specification is a table of the seven numbers with what each needs and takes (`requests`,
  `refusal`, `Answers`); the proof goes through the abstract machine of C01.
* C127: calls are known by the order in which they are made; the statements are about which calls are
  in memory, with which numbers (`OneCounts` is the condition on `index++`).
* C128: what `poll_wait`, `wake_up_interruptible` and the loop of `do_poll` do is an assumption on the
  kernel (not in the repository), written down at the top of `Kernel/Poll`; the test under the mutex is the
  `poll` call of `Kernel/Model`, whose answer C10 explains.
* C129: a write is two steps; the account of `Trace` over the calls in the order of the mutex is shown to be
  the list of writes that returned.
* C130: the pending queue followed by the first entry of each device without a pending frame is the line of
  `Merge`; reading leaves it unchanged, pulling a frame is one turn.
* C131: the array of names is part of the state with entries that may never have been written; the text of a
  name is asked of the caller's memory at the time of the call that opens.
* C132: what libpomp, libshdata and the allocator answer and when signals come are inputs; resources are
  followed by `heldRes`, a specification over the events only.
* C133: the processes log before the command starts; `Opens` ties the answers of the system calls of
  opening to the registry and to the driver states.
* C134: `heap` says which blocks are in use; the client of C44 with its blocks, and
  `C134_same` says that without them it is that client. False cases: `C134_false_inside`,
  `C134_false_busy`, `C134_false_bad`, `C134_false_restart`.
* C135: `ringHolds` is a small spec of the ring by sizes only; `Stands` says what a reader
  in any place still has to receive while nobody writes.
* C136: `Drives` is said of each device of the world, with calls numbered apart; for the
  order among devices see C137 and, for quiet devices, C119.
* C137: any number of turns may be made in a first list of calls, so its end is any
  moment between two turns; no tail and no dump after that moment (the last flush of a dump
  may leave out entries committed meanwhile).
* C138: the calls of the programs are one sequence for each device, of which any part is
  done before the devices are opened and the rest is divided in any way among the turns of the
  viewer; nobody flushes. `C138_all` has no hypothesis on when the programs end: the number of
  turns needed is bounded by the turns of others and the entries left.
* C139: both runs are in the same world, which is any one whose output succeeds and does not
  change what is read. A first wording without a bound on the devices was false for following
  (`C139_false_many`); a dump needs no bound. `C139_dumped`, `C139_followed`: the bytes on a
  stream, for entries that can be rendered (`CanShow`). `C139_screen`, `C139_dumpScreen` put the
  devices of the driver below (as C136), `C139_programs`, `C139_programsDump` the library (as C138).
* C140: `Logging` are the devices of the logs chosen, each with the calls of its programs still to
  come in lists, one before each call of the command (as C138); `C140_scene` shows that it can be
  met for every division of the calls. A log named twice with -b counts as two devices with the same
  messages. That the command `running` is so for every number of turns is that it does not end.
* C141: the grammar `Line` is written from the usage texts and the manual of getopt; it does not
  mention the reading. `perm` is the GNU library, which moves operands behind options, or not. The
  claim that the reading of the C library is `getopt` is trusted, as any claim about that library.
* C142: as C141; the level after a tag is taken by the program, which moves `optind`. Trusted: that
  the GNU library then goes on behind the level and moves operands behind it.
* C143: composition of C111, C119, C133 and C141; it adds no definition of the code. The log of a
  command ulogger (ULOG_DEVICE, ulogger.c:192-209) is given; see C145. `B.said` of the machine is not used.
* C144: as C141, on top of C116.
* C145: on top of C15; the models of the paths in libulog, ulogwrapper and ulogcat are used as they are.
* C44-C46, C70: client as a machine with callbacks on a stack; server and net.
* C34, C47-C49, C71-C81: small state machines around the model of ulog_write.c.

## Findings: what is false of the code

Each is stated in properties.jsonl and refuted or delimited by the theorems
named in MANIFEST.json.

* C09, Which buffer suffices for the next read: `C09_false`
* C13, Which accepted writes commit a complete entry: `C13_false_leak`, `C13_false_oob`
* C25, A custom write function receives every message until replaced: `C25_false`
* C30, Chunked binary writes emit at least one entry: `C30_false`
* C34, C++ stream logging: `C34_false_put`
* C37, Tail keeps exactly the last N entries: `C37_neg_tail`
* C38, When a dump stops: `C38_false`
* C40, Kernel log records are parsed inside their buffer: `C40_false`
* C41, The kernel message daemon logs each line once: `C41_false_nul`
* C42, Shared-memory log records: `C42_false_escape`
* C43, Shared-memory loss detection: `C43_false_wrap`, `C43_false_restart`
* C44, Each control request is answered exactly once: `C44_false_send`, `C44_false_stop`, `C44_false_broadcast`, `C44_false_restart`
* C45, Remote listing and level setting: `C45_false_twin`
* C46, Control socket addresses: `C46_false`
* C47, Syslog mask emulation: `C47_false_first`, `C47_false_query`
* C48, The GStreamer bridge stays inside its buffer: `C48_false`
* C49, The Python bridge forwards each message once: `C49_false`
* C51, Choice of the log device: `C51_false`
* C52, At most one device descriptor is open: `C52_false`
* C53, Logging always returns: `C53_false`
* C56, A request for a log device means what it says: `C56_neg_word`, `C56_neg_size`
* C57, What failed allocations do to the driver: `C57_neg_name`, `C57_neg_main`
* C60, When an entry that was read gets printed: `C60_false`
* C61, Results of the processing call: `C61_neg_one`
* C62, An entry of one line is shown whole: `C62_false_lines`
* C63, CSV output can be read back: `C63_false_large`, `C63_false_comma`
* C65, Lines copied by kmsgd get back their priority and time: `C110_false_csv`
* C67, How often the output of the caller is closed: `C67_false`, `C67_false_stdout`, `C67_false_same`
* C69, Colours of shared-memory logs: `C69_false_cyan`
* C70, A set request reported done was given to the connection: `C70_false`
* C71, A syslog call logs its text once: `C71_false_long`, `C71_false_ident`
* C73, A C++ stream keeps working: `C73_false`
* C74, The Python bridge takes every message: `C74_false`, `C74_false_oob`
* C76, Bridging a logger that sends to libulog ends: `C76_false`
* C77, Throttled Python logs: `C77_false_level`
* C78, Python logs on change: `C78_false_clash`
* C79, Tags of the ThreadX port: `C79_false_mutex`
* C81, Output of the ThreadX port: `C81_false_prio`, `C81_false_str`
* C83, Loss of records of the ThreadX port: `C83_false_lost`, `C83_false_order`
* C87, Times given to the shell command: `C87_false_nanoseconds`, `C87_false_text`
* C89, Shell command without log device: `C89_false_tag`
* C92, Kernel messages a viewer receives from /dev/kmsg: `C92_neg_long`
* C93, Options of the log viewer command: `C93_false_fewer`, `C93_false_crash`
* C94, How the log viewer command ends: `C94_false_tail`, `C94_false_overflow`
* C95, Clearing logs: `C95_false_kmsgd`
* C96, The bytes a viewer writes to its output: `C96_false_short`
* C97, What ulogcat -d prints, byte for byte: `C97_false_csv`
* C99, The drivers for all kernel versions behave the same: `C99_neg_offset`, `C99_neg_ubuf`
* C100, Calls of the driver do not deadlock: `C100_false_old`
* C102, Opening a device for raw and binary messages: `C102_zero_false`
* C103, Running a program with syslog replaced: `C103_false_long`, `C103_false_part`
* C104, The command ulogctl: `C104_false_wait`, `C104_false_both`, `C104_false_addr`
* C107, Errno and event macros: `C107_val_false`, `C107_val_neg`
* C109, Colours of the viewer: `C109_false_long`
* C110, From the kernel's messages to the screen: `C110_false_csv`
* C112, Shared-memory logs over time: `C112_false_same`, `C112_false_read`
* C113, From the shared memory to the screen: `C113_false_escape`
* C114, Levels set at run time, locally or by remote control, decide what is on the screen: `C114_false_all`, `C114_false_name`
* C115, What a printed line tells: `C115_false`
* C116, The life of a control server: `C116_false_stop`, `C116_false_new`, `C116_false_tidy`
* C117, Shell scripts to the screen: `C117_false_lines`, `C117_false_level`, `C117_false_eight`, `C117_false_newline`, `C117_false_format`
* C118, The writer under several threads: `C118_false_foreign`, `C118_false_lost`, `C118_false_zero`, `C118_false_memory`
* C121, Where messages go on Android and Windows: `C121_false_low`, `C121_false_buf`
* C122, Python records on a device of their own, up to the screen: `C122_false_other`, `C122_false_ids`, `C122_false_thread`
* C123, Python programs set up by setup_logging, up to the screen: `C123_false_thread`, `C123_false_callback`, `C123_false_debug`, `C123_false_name`
* C124, The driver in memory, from loading to unloading: `C124_false_leak`, `C124_false_attr`, `C124_false_name`, `C124_false_buffer`
* C125, Threads that log to shared memory: `C125_false_again`, `C125_false_window`, `C125_false_leak`
* C127, ThreadX threads logging to shared memory at the same time: `C127_false_same`, `C127_false_back`, `C127_false_nested`
* C129, Order and time stamps of writes at the same time: `C129_false_order`, `C129_false_raw`
* C130, The order of a dump, whatever the times are: `C130_false_time`
* C131, The first version of the viewer's interface: `C131_false_null`, `C131_false_unwritten`, `C131_false_gone`, `C131_false_output`
* C132, The program shdlogd, from its arguments to its end: `C132_false_early`, `C132_false_interrupted`, `C132_false_null`
* C134, The memory of the control client and server: `C134_false_inside`, `C134_false_busy`, `C134_false_bad`, `C134_false_restart`
* C137, The order of entries while following several devices: `C137_neg_times`
* C139, A tail while others write: `C139_false_many`
* C141, What the arguments of the commands say: `C141_false_name`, `C141_false_behind`, `C141_false_dash`
* C142, What the arguments of ulogctl say: `C142_false_behind`
* C144, What the arguments of the example ulogctl-srv say: `C144_false_port`, `C144_false_minus`
* C145, All programs agree on the log that ULOG_DEVICE names: `C145_false_long`
