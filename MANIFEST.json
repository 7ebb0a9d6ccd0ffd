{"claims": [
  {"property": "C01", "status": "proved", "theorems": ["Verif.Kernel.C01_delivery", "Verif.Kernel.C01_notice"], "note": "Over all runs of the byte-level driver model; hypotheses: no raw writer forges a notice, fewer than 2^31 commits, writes from user buffers."},
  {"property": "C02", "status": "proved", "theorems": ["Verif.Kernel.C02_safe"], "note": "No fault outcome (out of ring, endless scan) in any run with user-buffer writes; the other iterator kinds are the subject of C13."},
  {"property": "C03", "status": "proved", "theorems": ["Verif.Kernel.C03_restricted"], "note": "Own entries only, in order, no repetition; own entries skipped are covered by announced losses when one user used the descriptor."},
  {"property": "C04", "status": "proved", "theorems": ["Verif.Kernel.C04_failed_write", "Verif.Kernel.C04_not_committed", "Verif.Kernel.C04_delivered_committed"], "note": "A faulting write is never delivered; what readers drain afterwards is unchanged up to losses."},
  {"property": "C05", "status": "proved", "theorems": ["Verif.Kernel.C05_write"], "note": ""},
  {"property": "C06", "status": "proved", "theorems": ["Verif.Kernel.C06_lost_is_old", "Verif.Kernel.C06_retained", "Verif.Kernel.C06_retained_new"], "note": ""},
  {"property": "C07", "status": "proved", "theorems": ["Verif.Kernel.C07_after_flush", "Verif.Kernel.C07_quiet"], "note": ""},
  {"property": "C08", "status": "proved", "theorems": ["Verif.Kernel.C08_log_len"], "note": ""},
  {"property": "C09", "status": "proved", "theorems": ["Verif.Kernel.C09_next_len", "Verif.Kernel.C09_false"], "note": "Exact: which reads succeed after a query. That n bytes always suffice is false (C09_false: a pending loss notice is longer)."},
  {"property": "C10", "status": "proved", "theorems": ["Verif.Kernel.C10_poll", "Verif.Kernel.C10_poll_keeps"], "note": ""},
  {"property": "C100", "status": "proved", "theorems": ["Verif.Kernel.C100_locks", "Verif.Kernel.C100_ends", "Verif.Kernel.C100_exclusive", "Verif.Kernel.C100_lookup", "Verif.Kernel.C100_false_old", "Verif.Kernel.C100_old_main"], "note": "locks of sysfs and of memory management are not modelled"},
  {"property": "C101", "status": "proved", "theorems": ["Verif.Tools.C101_tags", "Verif.Tools.C101_filter", "Verif.Tools.C101_same", "Verif.Tools.C101_silent", "Verif.Tools.C101_obus"], "note": "GLib and libobus themselves are assumed as stated in Tools/Redirect; userdata of tags is not modelled (the tag on the stack leaves it uninitialised)."},
  {"property": "C102", "status": "proved", "theorems": ["Verif.Libulog.C102_raw", "Verif.Libulog.C102_bin", "Verif.Libulog.C102_held", "Verif.Libulog.C102_path", "Verif.Libulog.C102_retry", "Verif.Libulog.C102_zero_false", "Verif.Libulog.C102_nonzero"], "note": "open returns a descriptor that is not open"},
  {"property": "C103", "status": "proved", "theorems": ["Verif.Tools.C103_run", "Verif.Tools.C103_env", "Verif.Tools.C103_preload", "Verif.Tools.C103_either", "Verif.Tools.C103_twice", "Verif.Tools.C103_false_long", "Verif.Tools.C103_false_part"], "note": "LD_PRELOAD is split at spaces and colons"},
  {"property": "C104", "status": "proved", "theorems": ["Verif.Tools.C104_options", "Verif.Tools.C104_main", "Verif.Tools.C104_status", "Verif.Tools.C104_set", "Verif.Tools.C104_error", "Verif.Tools.C104_list", "Verif.Tools.C104_addr", "Verif.Tools.C104_false_wait", "Verif.Tools.C104_false_both", "Verif.Tools.C104_false_addr", "Verif.Tools.C104_colour", "Verif.Tools.C104_other"], "note": "getopt_long and libpomp are not modelled"},
  {"property": "C105", "status": "proved", "theorems": ["Verif.Ulogcat.Queue.C105_loop", "Verif.Ulogcat.Queue.C105_result", "Verif.Ulogcat.Queue.C105_alloc", "Verif.Ulogcat.Queue.C105_close", "Verif.Ulogcat.Queue.C105_destroy"], "note": "frames and devices as nodes in memory; the loop over devices goes by index, as their list does not change between open and close"},
  {"property": "C106", "status": "proved", "theorems": ["Verif.Ulogcat.C106_programs", "Verif.Ulogcat.C106_overflow", "Verif.Ulogcat.OnScreen.lossless"], "note": "Composition of the models of libulog, the driver, libulogcat's loop and its output. Calls one after the other, before the viewer opens the device."},
  {"property": "C107", "status": "proved", "theorems": ["Verif.Libulog.C107_err", "Verif.Libulog.C107_return", "Verif.Libulog.C107_val", "Verif.Libulog.C107_val_false", "Verif.Libulog.C107_val_neg", "Verif.Libulog.C107_text", "Verif.Libulog.C107_filtered", "Verif.Libulog.C107_errno", "Verif.Libulog.C107_evt", "Verif.Libulog.C107_evt_log", "Verif.Libulog.C107_bin"], "note": "the false case is proved as C107_val_false and C107_val_neg"},
  {"property": "C108", "status": "proved", "theorems": ["Verif.Tools.C108_any", "Verif.Tools.C108_alone", "Verif.Tools.C108_mixed"], "note": "calls one after the other; libstdc++'s unitbuf and sentry taken as stated in Stream.lean"},
  {"property": "C109", "status": "proved", "theorems": ["Verif.Ulogcat.C109_words", "Verif.Ulogcat.C109_colors", "Verif.Ulogcat.C109_default", "Verif.Ulogcat.C109_nomem", "Verif.Ulogcat.C109_fits", "Verif.Ulogcat.C109_whole", "Verif.Ulogcat.C109_false_long", "Verif.Ulogcat.C109_decoration"], "note": "The variable holds no null byte, being a string."},
  {"property": "C11", "status": "proved", "theorems": ["Verif.Kernel.C11_failed_read"], "note": ""},
  {"property": "C110", "status": "proved", "theorems": ["Verif.Tools.C110_kernel", "Verif.Tools.C110_false_csv"], "note": "Everything logged before the viewer opens the device, nobody else using it; C98 has the general case. The format of the kernel's lines is that of Linux with time stamps on."},
  {"property": "C111", "status": "proved", "theorems": ["Verif.Tools.C111_shell", "Verif.Tools.C111_says"], "note": "Composition of C86-C88 and C106. One after the other, before the viewer opens the device; the clock works and the command may enter raw mode."},
  {"property": "C112", "status": "proved", "theorems": ["Verif.Tools.Shdd.C112_forward", "Verif.Tools.Shdd.C112_writer", "Verif.Tools.Shdd.C112_order", "Verif.Tools.Shdd.C112_missing", "Verif.Tools.Shdd.C112_all", "Verif.Tools.Shdd.C112_recs", "Verif.Tools.Shdd.C112_false_same", "Verif.Tools.Shdd.C112_false_read", "Verif.Tools.Shdd.C112_nothing", "Verif.Tools.Shdd.C112_before"], "note": "Statement names the two false cases, each proved; the behaviour of libshdata is an assumption stated in Shdlogd.lean."},
  {"property": "C113", "status": "proved", "theorems": ["Verif.Tools.Shdd.C113_screen", "Verif.Tools.Shdd.C113_false_escape"], "note": "libshdata as assumed for C112; the calls of one process come one after the other"},
  {"property": "C114", "status": "proved", "theorems": ["Verif.Tools.Remote.C114_screen", "Verif.Tools.Remote.C114_overflow", "Verif.Tools.Remote.C114_until", "Verif.Tools.Remote.C114_unset", "Verif.Tools.Remote.C114_false_all", "Verif.Tools.Remote.C114_false_name", "Verif.Tools.Remote.C114_reports"], "note": "Fully proved; the negative parts are the counterexamples C114_false_all and C114_false_name."},
  {"property": "C115", "status": "proved", "theorems": ["Verif.Ulogcat.C115_read", "Verif.Ulogcat.C115_column", "Verif.Ulogcat.C115_differ", "Verif.Ulogcat.C115_false"], "note": "Fully proved; the negative parts are C115_false."},
  {"property": "C116", "status": "proved", "theorems": ["Verif.Tools.CtlSrv.C116_calls", "Verif.Tools.CtlSrv.C116_listens", "Verif.Tools.CtlSrv.C116_new", "Verif.Tools.CtlSrv.C116_destroy", "Verif.Tools.CtlSrv.C116_status", "Verif.Tools.CtlSrv.C116_kind", "Verif.Tools.CtlSrv.C116_tidy", "Verif.Tools.CtlSrv.C116_ticks", "Verif.Tools.CtlSrv.C116_messages", "Verif.Tools.CtlSrv.C116_false_stop", "Verif.Tools.CtlSrv.C116_false_new", "Verif.Tools.CtlSrv.C116_false_tidy"], "note": "What libpomp answers is any; that a failed call changes nothing, and that there is no timer without a loop, is taken of it."},
  {"property": "C117", "status": "proved", "theorems": ["Verif.Tools.ShApi.C117_screen", "Verif.Tools.ShApi.C117_writes", "Verif.Tools.ShApi.C117_once", "Verif.Tools.ShApi.C117_usual", "Verif.Tools.ShApi.C117_same", "Verif.Tools.ShApi.C117_level", "Verif.Tools.ShApi.C117_tag", "Verif.Tools.ShApi.C117_redirect", "Verif.Tools.ShApi.C117_copy", "Verif.Tools.ShApi.C117_false_lines", "Verif.Tools.ShApi.C117_false_level", "Verif.Tools.ShApi.C117_false_eight", "Verif.Tools.ShApi.C117_false_newline", "Verif.Tools.ShApi.C117_false_format", "Verif.Tools.ShApi.C117_consoles"], "note": ""},
  {"property": "C118", "status": "proved", "theorems": ["Verif.Libulog.ConcW.C118_device", "Verif.Libulog.ConcW.C118_latest", "Verif.Libulog.ConcW.C118_once", "Verif.Libulog.ConcW.C118_done", "Verif.Libulog.ConcW.C118_copied", "Verif.Libulog.ConcW.C118_get", "Verif.Libulog.ConcW.C118_custom", "Verif.Libulog.ConcW.C118_null", "Verif.Libulog.ConcW.C118_written", "Verif.Libulog.ConcW.C118_opens", "Verif.Libulog.ConcW.C118_descriptors", "Verif.Libulog.ConcW.C118_safe", "Verif.Libulog.ConcW.C118_lock", "Verif.Libulog.ConcW.C118_progress", "Verif.Libulog.ConcW.C118_false_foreign", "Verif.Libulog.ConcW.C118_false_lost", "Verif.Libulog.ConcW.C118_false_zero", "Verif.Libulog.ConcW.C118_false_memory", "Verif.Libulog.ConcW.C118_opened", "Verif.Libulog.ConcW.C118_begin", "Verif.Libulog.ConcW.C118_named"], "note": "sequentially consistent memory; each access to a field of ctrl and each system call is one step; the environment does not change; the level check is C22/C54/C55"},
  {"property": "C119", "status": "proved", "theorems": ["Verif.Ulogcat.C119_dump", "Verif.Ulogcat.C119_programs", "Verif.Ulogcat.C119_order"], "note": "each device a run of the driver of its own; nothing written during the dump; output to a stream that takes everything; CSV lines that fit the buffer"},
  {"property": "C12", "status": "proved", "theorems": ["Verif.Kernel.C12_versions"], "note": ""},
  {"property": "C120", "status": "proved", "theorems": ["Verif.Kernel.C120_safe", "Verif.Kernel.C120_device", "Verif.Kernel.C120_absent", "Verif.Kernel.C120_files", "Verif.Kernel.C120_same", "Verif.Kernel.C120_kept", "Verif.Kernel.C120_slot"], "note": "calls one after the other (critical sections: C100); iterators that the driver supports; memory for ulog_main"},
  {"property": "C121", "status": "proved", "theorems": ["Verif.Libulog.C121_text", "Verif.Libulog.C121_quiet", "Verif.Libulog.C121_total", "Verif.Libulog.C121_severity", "Verif.Libulog.C121_linux", "Verif.Libulog.C121_false_low", "Verif.Libulog.C121_false_buf"], "note": "ulog_write.c with ANDROID or _WIN32 defined and ulog_write_android.c; __android_log_write is an event. C121_linux: the third build is the model of the other properties. Hypothesis NoDevice: no device under /dev, no own write function, an environment that does not change."},
  {"property": "C122", "status": "proved", "theorems": ["Verif.Tools.PyDev.C122_names", "Verif.Tools.PyDev.C122_kept", "Verif.Tools.PyDev.C122_made", "Verif.Tools.PyDev.C122_ensure", "Verif.Tools.PyDev.C122_open", "Verif.Tools.PyDev.C122_emit", "Verif.Tools.PyDev.C122_screen", "Verif.Tools.PyDev.C122_false_other", "Verif.Tools.PyDev.C122_false_ids", "Verif.Tools.PyDev.C122_false_thread", "Verif.Tools.PyDev.C122_errno", "Verif.Tools.PyDev.C122_strip"], "note": "ulog.py:94-289 over the models of the driver, of ulog_write_raw.c, of libulog and of the viewer. Hypotheses of C122_screen: names fit an entry, no NUL in names and texts, thread names ASCII unless set by the program, the log has room. Raw entries have user 0, since the handler does not set euid."},
  {"property": "C123", "status": "proved", "theorems": ["Verif.Tools.PySet.C123_screen", "Verif.Tools.PySet.C123_false_thread", "Verif.Tools.PySet.C123_false_callback", "Verif.Tools.PySet.C123_false_debug", "Verif.Tools.PySet.C123_false_name", "Verif.Tools.PySet.C123_repr"], "note": "ulog.py:290-386 over the models of libulog, of the driver and of the viewer. What CPython does with exceptions nobody catches (which hook, what sys.exit in it does), isEnabledFor and repr of bytes are modelled as documented by Python. Hypotheses: text without NUL, process names of printable characters, levels not changed at run time, room in the log."},
  {"property": "C124", "status": "proved", "theorems": ["Verif.Kernel.Life.C124_safe", "Verif.Kernel.Life.C124_driver", "Verif.Kernel.Life.C124_memory", "Verif.Kernel.Life.C124_results", "Verif.Kernel.Life.C124_unload", "Verif.Kernel.Life.C124_false_leak", "Verif.Kernel.Life.C124_false_attr", "Verif.Kernel.Life.C124_false_name", "Verif.Kernel.Life.C124_false_buffer"], "note": "Structures at addresses, pointers tagged in the lowest bit, rings of list_head. What a call does to the fields of a log is taken from the model of C1 to C20, applied to what is found behind the pointers. misc_open, module references and the memory of the module are modelled as the kernel does them; calls are atomic. Hypotheses: addresses given are free, even, not null and different; the iterators are supported."},
  {"property": "C125", "status": "proved", "theorems": ["Verif.Tools.ShdConc.C125_safe", "Verif.Tools.ShdConc.C125_numbers", "Verif.Tools.ShdConc.C125_kept", "Verif.Tools.ShdConc.C125_ends", "Verif.Tools.ShdConc.C125_outer", "Verif.Tools.ShdConc.C125_late", "Verif.Tools.ShdConc.C125_inner", "Verif.Tools.ShdConc.C125_here", "Verif.Tools.ShdConc.C125_free", "Verif.Tools.ShdConc.C125_waits", "Verif.Tools.ShdConc.C125_init", "Verif.Tools.ShdConc.C125_false_again", "Verif.Tools.ShdConc.C125_false_window", "Verif.Tools.ShdConc.C125_false_leak"], "note": "Steps are accesses to ctrl, the mutex and the section, interleaved at will (sequentially consistent; the flag is set at line 155 without the mutex). A record is a message number here; its contents are C42."},
  {"property": "C126", "status": "proved", "theorems": ["Verif.Kernel.C126_requests", "Verif.Kernel.C126_int", "Verif.Kernel.C126_closed", "Verif.Kernel.C126_run"], "note": "The numbers the kernel itself answers before the driver is asked (FIOCLEX, FIONBIO and the like) are not passed on and are not part of this. Whether a privilege is needed depends on the build (none on x86): the model is given the answer."},
  {"property": "C127", "status": "proved", "theorems": ["Verif.Tools.TxConc.C127_once", "Verif.Tools.TxConc.C127_dropped", "Verif.Tools.TxConc.C127_ends", "Verif.Tools.TxConc.C127_numbers", "Verif.Tools.TxConc.C127_alone", "Verif.Tools.TxConc.C127_false_same", "Verif.Tools.TxConc.C127_false_back", "Verif.Tools.TxConc.C127_false_nested"], "note": "A record gets into memory in one step; C83 has what is stored for calls one after the other, C82 the contents of a record."},
  {"property": "C128", "status": "proved", "theorems": ["Verif.Kernel.C128_asleep", "Verif.Kernel.C128_wake", "Verif.Kernel.C128_returns", "Verif.Kernel.C128_back", "Verif.Kernel.C128_at_once", "Verif.Kernel.C128_sleeps", "Verif.Kernel.C128_true", "Verif.Kernel.C128_clean", "Verif.Kernel.C128_progress"], "note": "The parts of poll outside of the driver (fs/select.c: entries, flag, rounds) are modelled as stated in Kernel/Poll.lean; blocking reads are C14."},
  {"property": "C129", "status": "proved", "theorems": ["Verif.Kernel.C129_linear", "Verif.Kernel.C129_order", "Verif.Kernel.C129_entries", "Verif.Kernel.C129_safe", "Verif.Kernel.C129_false_order", "Verif.Kernel.C129_false_raw"], "note": "With C129_linear and C129_entries the properties of C01-C13 hold for calls at the same time."},
  {"property": "C13", "status": "proved", "theorems": ["Verif.Kernel.C13_complete", "Verif.Kernel.C13_other", "Verif.Kernel.C13_false_leak", "Verif.Kernel.C13_false_oob"], "note": "That all writes are complete is false: C13_other says what happens for the kinds the code does not handle, with two concrete runs."},
  {"property": "C130", "status": "proved", "theorems": ["Verif.Ulogcat.C130_dump", "Verif.Ulogcat.C130_order", "Verif.Ulogcat.C130_false_time"], "note": "That times can go back on a device is C129_false_order."},
  {"property": "C131", "status": "proved", "theorems": ["Verif.Tools.First.C131_create", "Verif.Tools.First.C131_safe", "Verif.Tools.First.C131_devices", "Verif.Tools.First.C131_all", "Verif.Tools.First.C131_late", "Verif.Tools.First.C131_dump", "Verif.Tools.First.C131_clear", "Verif.Tools.First.C131_closed", "Verif.Tools.First.C131_leak", "Verif.Tools.First.C131_false_null", "Verif.Tools.First.C131_false_unwritten", "Verif.Tools.First.C131_false_gone", "Verif.Tools.First.C131_false_output", "Verif.Tools.First.C131_ends", "Verif.Tools.First.C131_tail", "Verif.Tools.First.C131_add"], "note": "The context inside is that of C66, C93-C95."},
  {"property": "C132", "status": "proved", "theorems": ["Verif.Tools.ShdMain.C132_usage", "Verif.Tools.ShdMain.C132_options", "Verif.Tools.ShdMain.C132_setup", "Verif.Tools.ShdMain.C132_daemon", "Verif.Tools.ShdMain.C132_goes_on", "Verif.Tools.ShdMain.C132_signal", "Verif.Tools.ShdMain.C132_released", "Verif.Tools.ShdMain.C132_context", "Verif.Tools.ShdMain.C132_status", "Verif.Tools.ShdMain.C132_false_early", "Verif.Tools.ShdMain.C132_false_interrupted", "Verif.Tools.ShdMain.C132_false_null", "Verif.Tools.C93_number"], "note": "libpomp and libshdata answer arbitrarily; one call of the timer per wait."},
  {"property": "C133", "status": "proved", "theorems": ["Verif.Tools.Whole.C133_dump", "Verif.Tools.Whole.C133_missing", "Verif.Ulogcat.C119_order"], "note": "Each log has its own driver state; the processes log before the command starts."},
  {"property": "C134", "status": "proved", "theorems": ["Verif.Tools.CliMem.C134_life", "Verif.Tools.CliMem.C134_same", "Verif.Tools.CliMem.C134_stopped", "Verif.Tools.CliMem.C134_turns", "Verif.Tools.CliMem.C134_new", "Verif.Tools.CliMem.C134_server", "Verif.Tools.CliMem.C134_false_inside", "Verif.Tools.CliMem.C134_false_busy", "Verif.Tools.CliMem.C134_false_bad", "Verif.Tools.CliMem.C134_false_restart", "Verif.Tools.CliMem.C134_answers", "Verif.Tools.CliMem.C134_one", "Verif.Tools.CliMem.C134_list"], "note": "libpomp is any; events that libpomp could not report in some state are allowed as well."},
  {"property": "C135", "status": "proved", "theorems": ["Verif.Ulogcat.C135_any", "Verif.Ulogcat.C135_dump", "Verif.Ulogcat.C135_programs", "Verif.Ulogcat.C135_order", "Verif.Ulogcat.C135_held", "Verif.Tools.Whole.C135_command"], "note": "Text messages; the viewer is alone with the logs while it reads."},
  {"property": "C136", "status": "proved", "theorems": ["Verif.Ulogcat.C136_screen", "Verif.Ulogcat.C136_dump", "Verif.Ulogcat.C136_run", "Verif.Ulogcat.C136_dumped", "Verif.Ulogcat.C136_fleet", "Verif.Ulogcat.C136_follow", "Verif.Ulogcat.C136_exact", "Verif.Ulogcat.C136_runs"], "note": "The entries committed are those of processes with real ids and can be counted in an int."},
  {"property": "C137", "status": "proved", "theorems": ["Verif.Ulogcat.C137_next", "Verif.Ulogcat.C137_order", "Verif.Ulogcat.C137_overtaken", "Verif.Ulogcat.C137_follow", "Verif.Ulogcat.C137_neg_times"], "note": "A moment between two turns is the end of a call that was given so many turns."},
  {"property": "C138", "status": "proved", "theorems": ["Verif.Ulogcat.C138_scene", "Verif.Ulogcat.C138_follow", "Verif.Ulogcat.C138_dump", "Verif.Ulogcat.C138_all"], "note": "Each driver call of a program is atomic (C118 is about threads of one program); nobody flushes the devices."},
  {"property": "C139", "status": "proved", "theorems": ["Verif.Ulogcat.C139_dump", "Verif.Ulogcat.C139_follow", "Verif.Ulogcat.C139_mark", "Verif.Ulogcat.C139_false_many", "Verif.Ulogcat.C139_dumped", "Verif.Ulogcat.C139_followed", "Verif.Ulogcat.C139_screen", "Verif.Ulogcat.C139_dumpScreen", "Verif.Ulogcat.C139_programs", "Verif.Ulogcat.C139_programsDump"], "note": "The output is supposed to succeed; following with more than T + 1 devices is refuted by C139_false_many."},
  {"property": "C14", "status": "proved", "theorems": ["Verif.Kernel.C14_no_lost_wakeup", "Verif.Kernel.C14_wake", "Verif.Kernel.C14_progress", "Verif.Kernel.C14_silent"], "note": "Any number of threads; the log mutex is taken for one step except in the first section of ulogger_read, which is cut at every wait queue operation. Sequentially consistent memory and atomic wait queue operations are assumed; sleeping in poll is not modelled."},
  {"property": "C140", "status": "proved", "theorems": ["Verif.Tools.Whole.C140_scene", "Verif.Tools.Whole.C140_follow", "Verif.Tools.Whole.C140_all", "Verif.Tools.Whole.C140_dump", "Verif.Ulogcat.C140_goes", "Verif.Ulogcat.C140_caught", "Verif.Ulogcat.C140_dumped"], "note": "The programs say finitely many things, so that there is a last message; -t T with more than T + 1 logs is left out when following, see C139_false_many."},
  {"property": "C141", "status": "proved", "theorems": ["Verif.Tools.Getopt.C141_line", "Verif.Tools.Getopt.C141_refused", "Verif.Tools.Getopt.C141_same", "Verif.Tools.Getopt.C141_cat", "Verif.Tools.Getopt.C141_cat_refused", "Verif.Tools.Getopt.C141_false_name", "Verif.Tools.Getopt.C141_false_behind", "Verif.Tools.Getopt.C141_logger", "Verif.Tools.Getopt.C141_logged", "Verif.Tools.Getopt.C141_logger_refused", "Verif.Tools.Getopt.C141_false_dash", "Verif.Tools.Getopt.C141_shd", "Verif.Tools.Getopt.C141_shd_refused"], "note": "getopt and getopt_long are modelled from their manual; they are functions of the C library. For ulogctl see C142."},
  {"property": "C142", "status": "proved", "theorems": ["Verif.Tools.Getopt.C142_line", "Verif.Tools.Getopt.C142_refused", "Verif.Tools.Getopt.C142_request", "Verif.Tools.Getopt.C142_false_behind"], "note": "getopt_long is modelled from its manual; that it moves operands behind all words before optind, also when the program has changed optind, is its documented GNU implementation."},
  {"property": "C143", "status": "proved", "theorems": ["Verif.Tools.Whole.C143_fleet", "Verif.Tools.Whole.C143_session", "Verif.Tools.Whole.C143_order", "Verif.Tools.Whole.C143_silent", "Verif.Tools.Whole.C143_means"], "note": "Composition of C111, C119, C133 and C141. Which log a command writes to is given here (C145 says which one ULOG_DEVICE names); commands and programs of one log act one after the other, before ulogcat starts. In the csv format no message may be longer than a line holds."},
  {"property": "C144", "status": "proved", "theorems": ["Verif.Tools.Getopt.C144_unix", "Verif.Tools.Getopt.C144_inet", "Verif.Tools.Getopt.C144_process", "Verif.Tools.Getopt.C144_refused", "Verif.Tools.Getopt.C144_help", "Verif.Tools.Getopt.C144_false_port", "Verif.Tools.Getopt.C144_false_minus"], "note": "getopt_long as in C141; atoi as in C93."},
  {"property": "C145", "status": "proved", "theorems": ["Verif.Tools.Whole.C145_agree", "Verif.Tools.Whole.C145_one", "Verif.Tools.Whole.C145_opens", "Verif.Tools.Whole.C145_view", "Verif.Tools.Whole.C145_long", "Verif.Tools.Whole.C145_false_long"], "note": "Names are those the driver accepts (C15). For the name kmsgd ulogcat shows another path (C145_view excludes it)."},
  {"property": "C15", "status": "proved", "theorems": ["Verif.Kernel.C15_devices", "Verif.Kernel.C15_request", "Verif.Kernel.C15_granted", "Verif.Kernel.C15_refused"], "note": "sscanf, islower and isspace are modelled after the Linux sources, which are not part of the repository."},
  {"property": "C16", "status": "proved", "theorems": ["Verif.Kernel.C16_raw", "Verif.Kernel.C16_raw_short"], "note": ""},
  {"property": "C17", "status": "proved", "theorems": ["Verif.Libulog.C17_parse", "Verif.Libulog.C17_text", "Verif.Libulog.C17_binary"], "note": "Out-of-bounds accesses are a distinct outcome of the model (none); the theorems show the parser returns some result for every input whose length field fits the buffer, that it agrees with an independent decoder, and what that decoder yields for well-formed text and binary payloads."},
  {"property": "C18", "status": "proved", "theorems": ["Verif.Libulog.C18_raw"], "note": ""},
  {"property": "C19", "status": "proved", "theorems": ["Verif.Libulog.C19_text", "Verif.Libulog.C19_binary"], "note": "Composition of __writer_kernel, the driver write/read steps in any reachable state, and ulog_parse_buf."},
  {"property": "C20", "status": "proved", "theorems": ["Verif.Libulog.C20_truncated"], "note": ""},
  {"property": "C21", "status": "proved", "theorems": ["Verif.Libulog.C21_filter", "Verif.Libulog.C21_refused", "Verif.Libulog.C21_accepted"], "note": "One call at a time; the concurrent part is C22."},
  {"property": "C22", "status": "proved", "theorems": ["Verif.Libulog.C22_list", "Verif.Libulog.C22_once", "Verif.Libulog.C22_hook", "Verif.Libulog.C22_level_kept", "Verif.Libulog.C22_level_read", "Verif.Libulog.C22_names", "Verif.Libulog.C22_first", "Verif.Libulog.C22_default"], "note": "every shared access one step, sequentially consistent memory"},
  {"property": "C23", "status": "proved", "theorems": ["Verif.Libulog.C23_initial", "Verif.Libulog.C23_once"], "note": "C locale for the letters."},
  {"property": "C24", "status": "proved", "theorems": ["Verif.Libulog.C24_set_get", "Verif.Libulog.C24_sticky", "Verif.Libulog.C24_by_name", "Verif.Libulog.C24_names", "Verif.Libulog.C24_foreach"], "note": "One call at a time."},
  {"property": "C25", "status": "proved", "theorems": ["Verif.Libulog.C25_custom", "Verif.Libulog.C25_device", "Verif.Libulog.C25_false", "Verif.Libulog.C25_null_writer"], "note": "C25_false is the witness that a device change discards the function."},
  {"property": "C26", "status": "proved", "theorems": ["Verif.Libulog.C26_bytes"], "note": ""},
  {"property": "C27", "status": "proved", "theorems": ["Verif.Libulog.C27_throttle", "Verif.Libulog.C27_spacing", "Verif.Libulog.C27_first", "Verif.Libulog.C27_uninit"], "note": "C27_first and C27_uninit show two limits: a first call before one period of uptime is held back; a failed formatting passes on an uninitialised buffer."},
  {"property": "C28", "status": "proved", "theorems": ["Verif.Libulog.C28_change"], "note": "Both variants of the macro."},
  {"property": "C29", "status": "proved", "theorems": ["Verif.Libulog.C29_chunks", "Verif.Libulog.C29_no_room", "Verif.Libulog.C29_lossless", "Verif.Libulog.C29_error", "Verif.Libulog.C29_read"], "note": "Faults (array overrun, wrapped subtraction, endless loop) are distinct outcomes of the model and excluded by the theorems. Lengths are unbounded naturals."},
  {"property": "C30", "status": "proved", "theorems": ["Verif.Libulog.C30_emits", "Verif.Libulog.C30_false"], "note": "C30_false is the witness for all-empty buffers."},
  {"property": "C31", "status": "proved", "theorems": ["Verif.Libulog.C31_bin"], "note": ""},
  {"property": "C32", "status": "proved", "theorems": ["Verif.Libulog.C32_reject", "Verif.Libulog.C32_raw_text", "Verif.Libulog.C32_raw_binary", "Verif.Libulog.C32_genuine"], "note": ""},
  {"property": "C33", "status": "proved", "theorems": ["Verif.Libulog.C33_notice"], "note": ""},
  {"property": "C34", "status": "proved", "theorems": ["Verif.Tools.C34_flush", "Verif.Tools.C34_false_put"], "note": "libstdc++ behaviour taken as stated in Tools/Stream.lean; C34_false_put is the false case named in the statement"},
  {"property": "C35", "status": "proved", "theorems": ["Verif.Ulogcat.C35_frames"], "note": "Also shows that no null frame is used and no loop runs forever, for tails of at least 0."},
  {"property": "C36", "status": "proved", "theorems": ["Verif.Ulogcat.C36_dump"], "note": ""},
  {"property": "C37", "status": "proved", "theorems": ["Verif.Ulogcat.C37_tail", "Verif.Ulogcat.C37_last", "Verif.Ulogcat.C37_neg_tail"], "note": "The statement asks for N > 0; C37_neg_tail shows that a negative tail hangs."},
  {"property": "C38", "status": "proved", "theorems": ["Verif.Ulogcat.C38_end", "Verif.Ulogcat.C38_stops", "Verif.Ulogcat.C38_false"], "note": "C38_false: a dump that never ends and prints entries written after opening."},
  {"property": "C39", "status": "proved", "theorems": ["Verif.Ulogcat.C39_text", "Verif.Ulogcat.C39_binary", "Verif.Ulogcat.C39_csv", "Verif.Ulogcat.C39_banner", "Verif.Ulogcat.C39_letter"], "note": "Out-of-bounds access is the outcome none in the model. A priority outside 0..7 would read outside the table of colours; entries of the driver have 0..7 (C28)."},
  {"property": "C40", "status": "proved", "theorems": ["Verif.Ulogcat.C40_inside", "Verif.Ulogcat.C40_receive_none", "Verif.Ulogcat.C40_receive", "Verif.Ulogcat.C40_parse_none", "Verif.Ulogcat.C40_parse", "Verif.Ulogcat.C40_false", "Verif.Tools.C40_number"], "note": "C40_inside says exactly which records are read outside the buffer; C40_false is a concrete one; the others give the contents."},
  {"property": "C41", "status": "proved", "theorems": ["Verif.Tools.C41_safe", "Verif.Tools.C41_lines", "Verif.Tools.C41_all", "Verif.Tools.C41_false_nul"], "note": "For a buffer of any size and any sequence of read sizes. The negative theorem shows why the stream must have no NUL."},
  {"property": "C42", "status": "proved", "theorems": ["Verif.Tools.C42_record", "Verif.Tools.C42_forward", "Verif.Tools.C42_end", "Verif.Tools.C42_false_escape", "Verif.Tools.C42_noname"], "note": "C42_end goes through the raw writer, the driver and the parser. The thread name is taken to be available (prctl succeeds). The shared memory itself is not modelled."},
  {"property": "C43", "status": "proved", "theorems": ["Verif.Tools.C43_losses", "Verif.Tools.C43_quiet", "Verif.Tools.C43_false_wrap", "Verif.Tools.C43_false_restart"], "note": "For one run of the writer; negative theorems for restarts and for 65536 losses."},
  {"property": "C44", "status": "proved", "theorems": ["Verif.Tools.C44_once", "Verif.Tools.C44_stop", "Verif.Tools.C44_done", "Verif.Tools.C44_single", "Verif.Tools.C44_false_send", "Verif.Tools.C44_false_stop", "Verif.Tools.C44_false_broadcast", "Verif.Tools.C44_false_restart"], "note": "proved under the three stated conditions; the C44_false theorems show that each condition is needed"},
  {"property": "C45", "status": "proved", "theorems": ["Verif.Tools.C45_list", "Verif.Tools.C45_set_all", "Verif.Tools.C45_set_tag", "Verif.Tools.C45_false_twin"], "note": "qsort is any function that sorts by name"},
  {"property": "C46", "status": "proved", "theorems": ["Verif.Tools.C46_agree", "Verif.Tools.C46_address", "Verif.Tools.C46_client", "Verif.Tools.C46_bounds", "Verif.Tools.C46_false"], "note": "exact bounds of both copies and the bytes of the addresses; C46_false is a name for which the client copies past its storage"},
  {"property": "C47", "status": "proved", "theorems": ["Verif.Tools.C47_level", "Verif.Tools.C47_old", "Verif.Tools.C47_filter", "Verif.Tools.C47_restore", "Verif.Tools.C47_false_first", "Verif.Tools.C47_false_query"], "note": "the C47_false theorems are the false cases named in the statement"},
  {"property": "C48", "status": "proved", "theorems": ["Verif.Tools.C48_text", "Verif.Tools.C48_false", "Verif.Tools.C48_base"], "note": "both sides of the exact bound"},
  {"property": "C49", "status": "proved", "theorems": ["Verif.Tools.C49_once", "Verif.Tools.C49_false"], "note": "Text messages with a NUL; no other write function installed and no device change in between."},
  {"property": "C50", "status": "proved", "theorems": ["Verif.Libulog.C50_copy", "Verif.Libulog.stderrLine_text", "Verif.Libulog.dec3_digits", "Verif.Libulog.C50_coloured"], "note": ""},
  {"property": "C51", "status": "proved", "theorems": ["Verif.Libulog.C51_device", "Verif.Libulog.C51_no_device", "Verif.Libulog.C51_false", "Verif.Libulog.C51_refused"], "note": "C51_false is the witness for a long ULOG_DEVICE. The case with the copy on stderr is C50."},
  {"property": "C52", "status": "proved", "theorems": ["Verif.Libulog.C52_descriptors", "Verif.Libulog.C52_false"], "note": "C52_false is the witness for descriptor 0."},
  {"property": "C53", "status": "proved", "theorems": ["Verif.Libulog.C53_careful", "Verif.Libulog.C53_recursion", "Verif.Libulog.C53_stable", "Verif.Libulog.C53_query", "Verif.Libulog.C53_false"], "note": "C53_careful covers changing environments, C53_recursion shows the condition is needed."},
  {"property": "C54", "status": "proved", "theorems": ["Verif.Libulog.C54_progress", "Verif.Libulog.C54_finite"], "note": "the functions that use the tag lock; hooks and callbacks run outside the lock"},
  {"property": "C55", "status": "proved", "theorems": ["Verif.Libulog.C55_foreach"], "note": ""},
  {"property": "C56", "status": "proved", "theorems": ["Verif.Kernel.C56_accepted", "Verif.Kernel.C56_text", "Verif.Kernel.C56_neg_word", "Verif.Kernel.C56_neg_size"], "note": "C56_neg_*: witnesses of a cut word and a cut number."},
  {"property": "C57", "status": "proved", "theorems": ["Verif.Kernel.C57_fault", "Verif.Kernel.C57_buffers", "Verif.Kernel.C57_neg_name", "Verif.Kernel.C57_neg_main"], "note": "C57_neg_*: kstrdup and the buffer of ulog_main are not checked."},
  {"property": "C58", "status": "proved", "theorems": ["Verif.Kernel.C58_show"], "note": ""},
  {"property": "C59", "status": "proved", "theorems": ["Verif.Ulogcat.C59_faithful"], "note": ""},
  {"property": "C60", "status": "proved", "theorems": ["Verif.Ulogcat.C60_progress", "Verif.Ulogcat.C60_skip", "Verif.Ulogcat.C60_false"], "note": "C60_false: starvation by a stream of binary entries."},
  {"property": "C61", "status": "proved", "theorems": ["Verif.Ulogcat.C61_result", "Verif.Ulogcat.C61_neg_one"], "note": "C61_neg_one: a result of 2."},
  {"property": "C62", "status": "proved", "theorems": ["Verif.Ulogcat.C62_one_line", "Verif.Ulogcat.C62_false_lines"], "note": "True for entries of one line; false for many lines (witness)."},
  {"property": "C63", "status": "proved", "theorems": ["Verif.Ulogcat.C63_csv", "Verif.Ulogcat.C63_binary", "Verif.Ulogcat.C63_shown", "Verif.Ulogcat.C63_false_large", "Verif.Ulogcat.C63_false_comma"], "note": "The two excluded cases are shown to fail by witnesses."},
  {"property": "C64", "status": "proved", "theorems": ["Verif.Ulogcat.C64_kmsg"], "note": ""},
  {"property": "C65", "status": "proved", "theorems": ["Verif.Ulogcat.C65_fix", "Verif.Ulogcat.C65_safe", "Verif.Ulogcat.C65_minus", "Verif.Tools.C110_false_csv", "Verif.Ulogcat.C65_over"], "note": "C110_false_csv: the binary entry"},
  {"property": "C66", "status": "proved", "theorems": ["Verif.Ulogcat.C66_open", "Verif.Ulogcat.C66_names", "Verif.Ulogcat.C66_all", "Verif.Ulogcat.C66_ready"], "note": ""},
  {"property": "C67", "status": "proved", "theorems": ["Verif.Ulogcat.C67_count", "Verif.Ulogcat.C67_once", "Verif.Ulogcat.C67_false", "Verif.Ulogcat.C67_output", "Verif.Ulogcat.C67_nomem", "Verif.Ulogcat.C67_stdin", "Verif.Ulogcat.C67_false_stdout", "Verif.Ulogcat.C67_false_same"], "note": "C67_count gives the exact number; closing once is false when the devices cannot be opened (C67_false)."},
  {"property": "C68", "status": "proved", "theorems": ["Verif.Tools.C68_anomaly", "Verif.Tools.C41_lines"], "note": "C41_lines says that the output is, line by line, the line and its anomaly; C68_anomaly characterises the anomaly of a line."},
  {"property": "C69", "status": "proved", "theorems": ["Verif.Tools.C69_color", "Verif.Tools.C69_table", "Verif.Tools.C69_false_cyan"], "note": "The exact table; cyan is wrong in the code."},
  {"property": "C70", "status": "proved", "theorems": ["Verif.Tools.C70_given", "Verif.Tools.C70_done", "Verif.Tools.C70_false"], "note": "That done means sent is false of the code (C70_false); the exact condition is proved."},
  {"property": "C71", "status": "proved", "theorems": ["Verif.Tools.C71_text", "Verif.Tools.C71_false_long", "Verif.Tools.C71_false_ident", "Verif.Tools.C71_open"], "note": "false cases as named in the statement"},
  {"property": "C72", "status": "proved", "theorems": ["Verif.Tools.C72_filter", "Verif.Tools.C72_mono", "Verif.Tools.C72_table"], "note": ""},
  {"property": "C73", "status": "proved", "theorems": ["Verif.Tools.C73_false"], "note": "the property as one would want it is false; the theorem proves the negation given in the statement"},
  {"property": "C74", "status": "proved", "theorems": ["Verif.Tools.C74_false", "Verif.Tools.C74_false_oob"], "note": "The property is false; the theorems prove the cases."},
  {"property": "C75", "status": "proved", "theorems": ["Verif.Tools.C75_lines", "Verif.Tools.C75_exists", "Verif.Tools.C75_levels"], "note": "Texts as bytes; the handler splits bytes, so line ends are LF, CR and CR LF."},
  {"property": "C76", "status": "proved", "theorems": ["Verif.Tools.C76_false", "Verif.Tools.C76_once"], "note": "The property is false; C76_false proves the negation, C76_once when a call ends at once."},
  {"property": "C77", "status": "proved", "theorems": ["Verif.Tools.C77_when", "Verif.Tools.C77_count", "Verif.Tools.C77_false_level"], "note": "Times are natural numbers instead of floats."},
  {"property": "C78", "status": "proved", "theorems": ["Verif.Tools.C78_change", "Verif.Tools.C78_false_clash"], "note": ""},
  {"property": "C79", "status": "proved", "theorems": ["Verif.Tools.C79_registered", "Verif.Tools.C79_stays", "Verif.Tools.C79_before", "Verif.Tools.C79_false_mutex"], "note": "All interleavings of any number of threads, induction over the execution. A failed mutex loses the tag for ever (C79_false_mutex)."},
  {"property": "C80", "status": "proved", "theorems": ["Verif.Tools.C80_set", "Verif.Tools.C80_first", "Verif.Tools.C80_name", "Verif.Tools.C80_letters", "Verif.Tools.C80_names", "Verif.Tools.C80_foreach", "Verif.Tools.C80_table"], "note": "For whole calls in any reachable state."},
  {"property": "C81", "status": "proved", "theorems": ["Verif.Tools.C81_printed", "Verif.Tools.C81_false_prio", "Verif.Tools.C81_false_str", "Verif.Tools.C81_colour", "Verif.Tools.C81_table"], "note": "The false cases named in the statement are proved."},
  {"property": "C82", "status": "proved", "theorems": ["Verif.Tools.C82_record", "Verif.Tools.C82_forward"], "note": "C82_forward composes the record of the port with the daemon of C42."},
  {"property": "C83", "status": "proved", "theorems": ["Verif.Tools.C83_stored", "Verif.Tools.C83_false_lost", "Verif.Tools.C83_false_order", "Verif.Tools.C83_init"], "note": "The false cases named in the statement are proved."},
  {"property": "C84", "status": "proved", "theorems": ["Verif.Ulogcat.C84_receive", "Verif.Ulogcat.C84_frame"], "note": "The mark of bytes left is proved not to move (taken = 0)."},
  {"property": "C85", "status": "proved", "theorems": ["Verif.Ulogcat.C85_session", "Verif.Ulogcat.C85_complete"], "note": "Readers that see all entries, between flushes."},
  {"property": "C86", "status": "proved", "theorems": ["Verif.Tools.C86_args", "Verif.Tools.C86_decoded", "Verif.Tools.C86_refused", "Verif.Tools.C86_stop", "Verif.Tools.C86_number", "Verif.Tools.C86_level"], "note": "getopt_long is taken as the list of options it returns."},
  {"property": "C87", "status": "proved", "theorems": ["Verif.Tools.C87_args", "Verif.Tools.C87_args_total", "Verif.Tools.C87_lines", "Verif.Tools.C87_lines_total", "Verif.Tools.C87_false_nanoseconds", "Verif.Tools.C87_false_text"], "note": "Exact reading of every argument list and input; two cases false of the documentation."},
  {"property": "C88", "status": "proved", "theorems": ["Verif.Tools.C88_lines", "Verif.Tools.C88_chunks", "Verif.Tools.chunks_unique"], "note": ""},
  {"property": "C89", "status": "proved", "theorems": ["Verif.Tools.C89_fallback", "Verif.Tools.C89_false_tag"], "note": ""},
  {"property": "C90", "status": "proved", "theorems": ["Verif.Ulogcat.C90_printed", "Verif.Ulogcat.driverWorld_drives", "Verif.Ulogcat.driverWorld_real"], "note": ""},
  {"property": "C91", "status": "proved", "theorems": ["Verif.Ulogcat.C91_dump", "Verif.Ulogcat.driverWorld_drives"], "note": ""},
  {"property": "C92", "status": "proved", "theorems": ["Verif.Ulogcat.C92_call", "Verif.Ulogcat.C92_big", "Verif.Ulogcat.C92_order", "Verif.Ulogcat.C92_complete", "Verif.Ulogcat.C92_neg_long", "Verif.Ulogcat.C92_open", "Verif.Ulogcat.Examples.Kernlog.lost", "Verif.Ulogcat.C92_frame"], "note": "Whether the reader is past a record that did not fit is a parameter; C92_neg_long is for Linux."},
  {"property": "C93", "status": "proved", "theorems": ["Verif.Tools.C93_stop", "Verif.Tools.C93_options", "Verif.Tools.C93_names", "Verif.Tools.C93_false_fewer", "Verif.Tools.C93_false_crash", "Verif.Tools.C93_number", "Verif.Tools.C93_exact", "Verif.Tools.C93_none"], "note": "Options as getopt returns them; memory may be refused at any -b. The two false theorems delimit what a refusal does."},
  {"property": "C94", "status": "proved", "theorems": ["Verif.Tools.C94_closed", "Verif.Tools.C94_status", "Verif.Tools.C94_dump", "Verif.Tools.C94_false_tail", "Verif.Tools.C94_false_overflow"], "note": "Composition of options, opening, reading loop and closing. Contents for quiet devices; for devices written to see C90 and C91."},
  {"property": "C95", "status": "proved", "theorems": ["Verif.Tools.C95_clear", "Verif.Tools.C95_false_kmsgd", "Verif.Kernel.C95_flush"], "note": "What a flush does to all readers is C07."},
  {"property": "C96", "status": "proved", "theorems": ["Verif.Ulogcat.C96_file", "Verif.Ulogcat.C96_fd", "Verif.Ulogcat.C96_fd_pieces", "Verif.Ulogcat.C96_false_short", "Verif.Ulogcat.C96_nowhere"], "note": "The output is a world around any world of devices; entries that cannot be rendered are not output (C39, C63)."},
  {"property": "C97", "status": "proved", "theorems": ["Verif.Tools.C97_dump", "Verif.Tools.C97_csv", "Verif.Tools.C97_false_csv"], "note": "C94_dump composed with the rendering and the output; C97_csv is about the bytes that C97_dump gives for one device."},
  {"property": "C98", "status": "proved", "theorems": ["Verif.Ulogcat.C98_screen", "Verif.Ulogcat.C98_dump", "Verif.Ulogcat.C98_run", "Verif.Ulogcat.C98_text", "Verif.Ulogcat.C98_notice", "Verif.Ulogcat.C98_notice_line", "Verif.Ulogcat.C98_int32", "Verif.Tools.C98_int64"], "note": "one device, no tail, output to a stream; C98_run: every dump in a world whose stream takes all meets the hypotheses"},
  {"property": "C99", "status": "proved", "theorems": ["Verif.Kernel.C99_write", "Verif.Kernel.C99_run", "Verif.Kernel.C99_safe", "Verif.Kernel.C99_left", "Verif.Kernel.C99_neg_offset", "Verif.Kernel.C99_neg_ubuf"], "note": "the write methods; that the rest of the files is the same was seen by diff only"}
]}
