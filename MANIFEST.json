{
 "claims": [
  {
   "property": "C01",
   "status": "proved",
   "theorems": [
    "Verif.Queue.C01_queue_fifo"
   ],
   "note": "All call sequences, any initial capacity; refinement to an unbounded list. Remove's flag is treated in C03."
  },
  {
   "property": "C02",
   "status": "proved",
   "theorems": [
    "Verif.Queue.C02_fixed_queue_bounded",
    "Verif.Queue.C02_fixed_queue_size"
   ],
   "note": "Refinement to a list bounded by the capacity."
  },
  {
   "property": "C03",
   "status": "partial",
   "theorems": [
    "Verif.Queue.C03_remove_partial",
    "Verif.Queue.C03_remove_flag_counterexample"
   ],
   "note": "Content always right; returned flag wrong when a full queue holds only elements equal to the value (counterexample)."
  },
  {
   "property": "C04",
   "status": "partial",
   "theorems": [
    "Verif.Queue.C04_iterate_partial",
    "Verif.Queue.C04_iterate_empty_counterexample"
   ],
   "note": "Proved for non-empty queues; iterating an empty queue visits stale cells (counterexample)."
  },
  {
   "property": "C05",
   "status": "partial",
   "theorems": [
    "Verif.BuffersQueue.C05_buffers_queue_fifo",
    "Verif.BuffersQueue.C05_cleanup_mutex_partial",
    "Verif.BuffersQueue.C05_cleanup_mutex_counterexample"
   ],
   "note": "FIFO refinement for all call sequences; Cleanup(Mutex*) stops at a null buffer (counterexample)."
  },
  {
   "property": "C06",
   "status": "partial",
   "theorems": [
    "Verif.Pool.C06_exclusive_partial",
    "Verif.Pool.C06_append_to_empty_counterexample"
   ],
   "note": "Proved for every history of legal calls (take, raw take/release, create, duplicate, release, SetTotalSize, CutFromBegin, Insert into a null or pooled buffer, GetNextPart). Fails for Append into a buffer made by MakeEmpty: counterexample."
  },
  {
   "property": "C07",
   "status": "partial",
   "theorems": [
    "Verif.Pool.C07_conservation_partial",
    "Verif.Pool.C07_self_append_counterexample"
   ],
   "note": "Proved for the same histories; appending a buffer to itself with moved references loses its blocks: counterexample."
  },
  {
   "property": "C08",
   "status": "partial",
   "theorems": [
    "Verif.Pool.C08_take_exact_partial",
    "Verif.Pool.C08_wrap_counterexample"
   ],
   "note": "Proved when requested size plus block size stays within 2^32; the 32-bit sum wraps otherwise: counterexample."
  },
  {
   "property": "C09",
   "status": "partial",
   "theorems": [
    "Verif.Buffer.C09_totalSize",
    "Verif.Buffer.C09_setTotalSize",
    "Verif.Buffer.C09_cutFromBegin",
    "Verif.Buffer.C09_insert",
    "Verif.Buffer.C09_getNextPart_partial",
    "Verif.Buffer.C09_getNextPart_counterexample"
   ],
   "note": "Proved for every segmentation except GetNextPart with length 0 or from a pointer at the exhausted end of a segment (counterexample)."
  },
  {
   "property": "C10",
   "status": "partial",
   "theorems": [
    "Verif.Pointer.C10_shift_partial",
    "Verif.Pointer.C10_start",
    "Verif.Pointer.C10_limited_shift_counterexample",
    "Verif.Pointer.C10_copyfrom_partial",
    "Verif.Pointer.C10_copyto_partial",
    "Verif.Pointer.C10_copy_at_border_counterexample",
    "Verif.Pointer.C10_distance_partial",
    "Verif.Pointer.C10_distance_counterexample"
   ],
   "note": "Holds for pointers without setfullsize limit that do not stand at an exhausted segment end; counterexamples for the three failing cases."
  },
  {
   "property": "C100",
   "status": "partial",
   "theorems": [
    "Verif.TextInput.C100_numbers",
    "Verif.TextInput.C100_order_partial",
    "Verif.TextInput.C100_ends_partial",
    "Verif.TextInput.C100_crash_counterexample",
    "Verif.TextInput.C100_safe_partial",
    "Verif.TextInput.C100_tail_counterexample",
    "Verif.TextInput.C100_buffers_partial",
    "Verif.TextInput.C100_empty_counterexample",
    "Verif.TextInput.C100_small_counterexample",
    "Verif.TextInput.C100_long_counterexample"
   ],
   "note": "Numbers, order and the loss of at most one buffer for all lists of files with lines shorter than the buffer and with enough numbers. The code loses the last events, uses a null pointer at an ordinary end of file, adds events without data and does not end for long lines or small buffers (counterexamples for all such files). The format float is left out."
  },
  {
   "property": "C101",
   "status": "proved",
   "theorems": [
    "Verif.ObjIter.C101_visits",
    "Verif.ObjIter.C101_null",
    "Verif.ObjIter.C101_all",
    "Verif.ObjIter.C101_parents"
   ],
   "note": "For every tree which is not changed during the iteration, every maximal level and every choice of skipped objects."
  },
  {
   "property": "C102",
   "status": "partial",
   "theorems": [
    "Verif.SyncExec.C102_result",
    "Verif.SyncExec.C102_true_partial",
    "Verif.SyncExec.C102_true_counterexample",
    "Verif.SyncExec.C102_answer",
    "Verif.SyncExec.C102_single",
    "Verif.SyncExec.C102_removed",
    "Verif.SyncExec.C102_stale_counterexample",
    "Verif.SyncExec.C102_stale_partial",
    "Verif.SyncExec.C102_informed",
    "Verif.SyncExec.C102_ends",
    "Verif.SyncExec.C102_wait",
    "Verif.SyncExec.C102_late",
    "Verif.SyncExec.C102_endless_counterexample",
    "Verif.SyncExec.C102_route",
    "Verif.SyncExec.C102_executeIn_counterexample"
   ],
   "note": "Fails in the code: a replying thread may write to the variable of a call which has timed out and returned; a command used again reports its old success; ExecuteIn never executes. The rest is proved for all interleavings."
  },
  {
   "property": "C103",
   "status": "partial",
   "theorems": [
    "Verif.WorkCmd.C103_account",
    "Verif.WorkCmd.C103_once",
    "Verif.WorkCmd.C103_one",
    "Verif.WorkCmd.C103_order_partial",
    "Verif.WorkCmd.C103_idle_partial",
    "Verif.WorkCmd.C103_order_counterexample",
    "Verif.WorkCmd.C103_direct_counterexample",
    "Verif.WorkCmd.C103_answer",
    "Verif.WorkCmd.C103_dropped_partial",
    "Verif.WorkCmd.C103_dropped_counterexample",
    "Verif.WorkCmd.C103_cleanup_counterexample"
   ],
   "note": "Fails in the code: commands which are waiting when the destruction of the worker is requested are neither executed nor replied; order and completeness fail after exceptions and for workers without thread. Proved otherwise."
  },
  {
   "property": "C104",
   "status": "partial",
   "theorems": [
    "Verif.ThrStart.C104_one_thread",
    "Verif.ThrStart.C104_no_hang",
    "Verif.ThrStart.C104_stop_partial",
    "Verif.ThrStart.C104_state_partial",
    "Verif.ThrStart.C104_start_partial",
    "Verif.ThrStart.C104_confirmed",
    "Verif.ThrStart.C104_stop_counterexample",
    "Verif.ThrStart.C104_restart_counterexample",
    "Verif.ThrStart.C104_stale_counterexample",
    "Verif.ThrStart.C104_self_counterexample",
    "Verif.ThrStart.C104_join_counterexample",
    "Verif.ThrStart.C104_two_threads_counterexample"
   ],
   "note": "Holds for calls one after the other from other threads (for Start and the state also: without timeout of Stop). Counterexamples: stError, cancellation, Stop by the thread itself, calls at the same time."
  },
  {
   "property": "C105",
   "status": "partial",
   "theorems": [
    "Verif.Affinity.C105_letters",
    "Verif.Affinity.C105_mask",
    "Verif.Affinity.C105_dflt_mask",
    "Verif.Affinity.C105_special",
    "Verif.Affinity.C105_special_one",
    "Verif.Affinity.C105_split",
    "Verif.Affinity.C105_disjoint",
    "Verif.Affinity.C105_default",
    "Verif.Affinity.C105_get",
    "Verif.Affinity.C105_roundtrip_partial",
    "Verif.Affinity.C105_dflt_roundtrip",
    "Verif.Affinity.C105_roundtrip_counterexample",
    "Verif.Affinity.C105_failed_counterexample"
   ],
   "note": "The text of an empty set is refused when it is read; a refused text changes the set."
  },
  {
   "property": "C106",
   "status": "partial",
   "theorems": [
    "Verif.Timer.C106_not_early",
    "Verif.Timer.C106_due",
    "Verif.Timer.C106_no_drift",
    "Verif.Timer.C106_plain",
    "Verif.Timer.C106_stopped",
    "Verif.Timer.C106_restart_counterexample",
    "Verif.Timer.C106_shoot_counterexample"
   ],
   "note": "The delay of an earlier run influences the next one; a shot of a timer without period in synchron mode does not end."
  },
  {
   "property": "C107",
   "status": "partial",
   "theorems": [
    "Verif.Aqua.C107_counter",
    "Verif.Aqua.C107_protocol",
    "Verif.Aqua.C107_attempts",
    "Verif.Aqua.C107_waits_partial",
    "Verif.Aqua.C107_hang_counterexample"
   ],
   "note": "The output waits for ever when the first attempt to connect succeeds."
  },
  {
   "property": "C108",
   "status": "partial",
   "theorems": [
    "Verif.Readout.C108_order_partial",
    "Verif.Readout.C108_order_counterexample",
    "Verif.Readout.C108_once_partial",
    "Verif.Readout.C108_prompt",
    "Verif.Readout.C108_age_partial",
    "Verif.Readout.C108_age_counterexample",
    "Verif.Readout.C108_returns_partial",
    "Verif.Readout.C108_returns_counterexample",
    "Verif.Readout.C108_forever_counterexample",
    "Verif.Readout.C108_exclusive_partial",
    "Verif.Readout.C108_exclusive_counterexample",
    "Verif.Readout.C108_connect_partial",
    "Verif.Readout.C108_connect_counterexample"
   ],
   "note": "Connect of a second handle never returns; calls return early; the HADES handle ignores the age after a failed wait; given up calls lose events."
  },
  {
   "property": "C109",
   "status": "partial",
   "theorems": [
    "Verif.SlowData.C109_roundtrip_partial",
    "Verif.SlowData.C109_accept",
    "Verif.SlowData.C109_short",
    "Verif.SlowData.C109_add_checked",
    "Verif.SlowData.C109_add_plain",
    "Verif.SlowData.C109_name_counterexample",
    "Verif.SlowData.C109_overrun_counterexample",
    "Verif.SlowData.C109_oob_counterexample",
    "Verif.SlowData.C109_throw_counterexample"
   ],
   "note": "Read may read outside of the given bytes or throw; Write of records of 4 GB and more overruns the buffer."
  },
  {
   "property": "C11",
   "status": "partial",
   "theorems": [
    "Verif.Record.C11_field_round_trip_partial",
    "Verif.Record.C11_buffer_counterexample",
    "Verif.Record.C11_long_string_counterexample"
   ],
   "note": "All kinds except raw buffers (reading fails: counterexample) and strings of 4 GB and more (counterexample); references are not stored by intention."
  },
  {
   "property": "C110",
   "status": "partial",
   "theorems": [
    "Verif.SlowSend.C110_commands",
    "Verif.SlowSend.C110_changes_are_read_partial",
    "Verif.SlowSend.C110_lost_change_counterexample",
    "Verif.SlowSend.C110_reading_is_paced",
    "Verif.SlowSend.C110_reading_continues",
    "Verif.SlowSend.C110_record",
    "Verif.SlowSend.C110_read_values_partial",
    "Verif.SlowSend.C110_unread_counterexample",
    "Verif.SlowSend.C110_events_in_order",
    "Verif.SlowSend.C110_buffers",
    "Verif.SlowSend.C110_blocked_outputs",
    "Verif.SlowSend.C110_flush",
    "Verif.SlowSend.C110_written",
    "Verif.SlowSend.C110_fesa_record_partial",
    "Verif.SlowSend.C110_fesa_stale_counterexample"
   ],
   "note": "Monitors: order, numbers, buffers, flushing and writing fully proved. EPICS input: fails when the event number cannot be read after a change of the flag, and when the library gives no report for a failed group. FESA record: fails after a timer call which wrote nothing."
  },
  {
   "property": "C111",
   "status": "partial",
   "theorems": [
    "Verif.Saft.C111_no_error",
    "Verif.Saft.C111_wake_up",
    "Verif.Saft.C111_mbs_delivery",
    "Verif.Saft.C111_mbs_form",
    "Verif.Saft.C111_mbs_full",
    "Verif.Saft.C111_progress",
    "Verif.Saft.C111_hadaq_delivery_partial",
    "Verif.Saft.C111_hadaq_loss_counterexample",
    "Verif.Saft.C111_hadaq_size_counterexample",
    "Verif.Saft.C111_conditions_partial",
    "Verif.Saft.C111_conditions_counterexample"
   ],
   "note": "MBS format and call-back mode fully proved. HADES format: events are lost for some buffer sizes and the announced size is wrong. The check of the configuration accepts wrong ones."
  },
  {
   "property": "C112",
   "status": "partial",
   "theorems": [
    "Verif.StreamRun.C112_distribution",
    "Verif.StreamRun.C112_balance",
    "Verif.StreamRun.C112_complete_partial",
    "Verif.StreamRun.C112_once",
    "Verif.StreamRun.C112_progress_partial",
    "Verif.StreamRun.C112_lost_end_counterexample",
    "Verif.StreamRun.C112_overtaken_counterexample",
    "Verif.StreamRun.C112_stop_counterexample"
   ],
   "note": "distribution holds in all runs; that nothing is missing in the histograms, and that the end is reached, only when the input is disconnected after the end mark was taken and the application does not stop the module; otherwise violated by the code"
  },
  {
   "property": "C113",
   "status": "partial",
   "theorems": [
    "Verif.StreamMerge.C113_saved_iff",
    "Verif.StreamMerge.C113_sum",
    "Verif.StreamMerge.C113_booked",
    "Verif.StreamMerge.C113_clear",
    "Verif.StreamMerge.C113_entries",
    "Verif.StreamMerge.C113_size_counterexample",
    "Verif.StreamMerge.C113_extra_counterexample",
    "Verif.StreamMerge.C113_range_counterexample"
   ],
   "note": "the sum is proved for modules which booked the same histograms; different sizes, additional histograms and different ranges are not reported by the code; values are exact, rounding of doubles is left out"
  },
  {
   "property": "C114",
   "status": "partial",
   "theorems": [
    "Verif.MbsGen.C114_events",
    "Verif.MbsGen.C114_exact",
    "Verif.MbsGen.C114_numbers",
    "Verif.MbsGen.C114_incomplete_iff",
    "Verif.MbsGen.C114_duplicate_counterexample",
    "Verif.MbsGen.C114_overrun_counterexample"
   ],
   "note": "Events as records; Read_Size and random values are not modelled. Deviations of the code are proved as counterexamples: numbers of incomplete events occur twice, sizes which are no multiple of four can write behind the buffer."
  },
  {
   "property": "C115",
   "status": "partial",
   "theorems": [
    "Verif.UserInput.C115_delivered",
    "Verif.UserInput.C115_skip",
    "Verif.UserInput.C115_numbers",
    "Verif.UserInput.C115_calls",
    "Verif.UserInput.C115_wait",
    "Verif.UserInput.C115_inside",
    "Verif.UserInput.C115_builtin",
    "Verif.UserInput.C115_trigger_counterexample",
    "Verif.UserInput.C115_trigger_raw_counterexample",
    "Verif.UserInput.C115_ids_counterexample",
    "Verif.UserInput.C115_timeout_counterexample",
    "Verif.UserInput.C115_default_counterexample",
    "Verif.UserInput.C115_builtin_size_counterexample"
   ],
   "note": "Readouts return one of four codes. Deviations of the code are proved as counterexamples: type of trigger, exchanged ids, no data after a timeout of the readout, default size."
  },
  {
   "property": "C116",
   "status": "partial",
   "theorems": [
    "Verif.DimInfo.C116_fields",
    "Verif.DimInfo.C116_single",
    "Verif.DimInfo.C116_slow",
    "Verif.DimInfo.C116_old",
    "Verif.DimInfo.C116_unknown_counterexample",
    "Verif.DimInfo.C116_last_counterexample",
    "Verif.DimInfo.C116_outside_counterexample"
   ],
   "note": "Decoding of values; DIM itself and the hierarchy are not modelled. Deviations of the code are proved as counterexamples."
  },
  {
   "property": "C117",
   "status": "partial",
   "theorems": [
    "Verif.ExeCmd.C117_params",
    "Verif.ExeCmd.C117_tmout",
    "Verif.ExeCmd.C117_stop_counterexample",
    "Verif.ExeCmd.C117_protocol_counterexample",
    "Verif.ExeCmd.C117_large_counterexample",
    "Verif.ExeCmd.C117_prefix_counterexample",
    "Verif.ExeCmd.C117_vector_counterexample"
   ],
   "note": "For the forms of values listed in the specification; lists of texts and of doubles are modelled but not part of the theorem. Deviations of the code are proved as counterexamples."
  },
  {
   "property": "C118",
   "status": "partial",
   "theorems": [
    "Verif.MbsCmd.C118_order",
    "Verif.MbsCmd.C118_sent",
    "Verif.MbsCmd.C118_mbs_verdict",
    "Verif.MbsCmd.C118_prompter_verdict",
    "Verif.MbsCmd.C118_numbers",
    "Verif.MbsCmd.C118_session",
    "Verif.MbsCmd.C118_submit_progress",
    "Verif.MbsCmd.C118_reconnect",
    "Verif.MbsCmd.C118_lost",
    "Verif.MbsCmd.C118_success_needs_reply",
    "Verif.MbsCmd.C118_connect",
    "Verif.MbsCmd.C118_exit_iff",
    "Verif.MbsCmd.C118_stalled_counterexample",
    "Verif.MbsCmd.C118_exit_counterexample",
    "Verif.MbsCmd.C118_prompter_late_counterexample",
    "Verif.MbsCmd.C118_prefix_counterexample"
   ],
   "note": "Holds up to the deviations shown by the counterexamples; order and content only as long as the process was not ended by exit(5); the socket is taken to accept every record."
  },
  {
   "property": "C119",
   "status": "partial",
   "theorems": [
    "Verif.Depend.C119_told",
    "Verif.Depend.C119_at_most_once",
    "Verif.Depend.C119_unregistered",
    "Verif.Depend.C119_cause",
    "Verif.Depend.C119_destroyed",
    "Verif.Depend.C119_clean",
    "Verif.Depend.C119_source",
    "Verif.Depend.C119_late_counterexample"
   ],
   "note": "Holds for registrations made before the destruction of the target is requested; a later one is never served (counterexample)."
  },
  {
   "property": "C12",
   "status": "partial",
   "theorems": [
    "Verif.Record.C12_map_round_trip_partial",
    "Verif.Record.C12_record_round_trip_partial"
   ],
   "note": "For maps of storable values with less than 2^24 fields; also into non-empty target maps and with name prefix; whole records through SaveToBuffer/ReadFromBuffer."
  },
  {
   "property": "C120",
   "status": "partial",
   "theorems": [
    "Verif.Create.C120_factories_asked_partial",
    "Verif.Create.C120_factories_lost_counterexample",
    "Verif.Create.C120_module_by_first_factory",
    "Verif.Create.C120_module_found_partial",
    "Verif.Create.C120_same_name_counterexample",
    "Verif.Create.C120_other_class_counterexample",
    "Verif.Create.C120_device_partial",
    "Verif.Create.C120_threads_distinct",
    "Verif.Create.C120_thread_compatible",
    "Verif.Create.C120_thread_reused",
    "Verif.Create.C120_thread_new",
    "Verif.Create.C120_thread_exit",
    "Verif.Create.C120_thread_exit_counterexample",
    "Verif.Create.C120_worker_thread",
    "Verif.Create.C120_device_thread",
    "Verif.Create.C120_no_thread_counterexample"
   ],
   "note": "Proved for all factories and all sequences of commands with objects and threads disappearing at any time. Partial: more than ten factories made before the manager are lost, a module with the name of another object cannot be found, and an existing module is taken whatever its class is."
  },
  {
   "property": "C121",
   "status": "partial",
   "theorems": [
    "Verif.MainLoop.C121_halted_once",
    "Verif.MainLoop.C121_left_for_reason",
    "Verif.MainLoop.C121_left_in_time",
    "Verif.MainLoop.C121_answer_ends",
    "Verif.MainLoop.C121_finished_by_answer",
    "Verif.MainLoop.C121_request_obeyed",
    "Verif.MainLoop.C121_runs_until_asked",
    "Verif.MainLoop.C121_runtime_kept",
    "Verif.MainLoop.C121_forced_exit",
    "Verif.MainLoop.C121_early_stop_counterexample"
   ],
   "note": "Proved for all sequences of calls, passes, signals, stop commands and replies at any times. Partial: when the request to stop comes before the main loop the application is never asked to halt; the clock is read once in a pass."
  },
  {
   "property": "C122",
   "status": "partial",
   "theorems": [
    "Verif.TransCmd.C122_options",
    "Verif.TransCmd.C122_option_value",
    "Verif.TransCmd.C122_question_mark_counterexample",
    "Verif.TransCmd.C122_explicit",
    "Verif.TransCmd.C122_no_port",
    "Verif.TransCmd.C122_disconnect",
    "Verif.TransCmd.C122_device",
    "Verif.TransCmd.C122_device_url",
    "Verif.TransCmd.C122_local",
    "Verif.TransCmd.C122_factory",
    "Verif.TransCmd.C122_unknown",
    "Verif.TransCmd.C122_unconnected_counterexample"
   ],
   "note": "Proved for all urls, options, devices, ports and factories. Partial: a url ending in a question mark gets a second one; the answer is true even if the port could not be connected to the new transport; search by name and results of connections are inputs, and factories do not rename the port."
  },
  {
   "property": "C123",
   "status": "partial",
   "theorems": [
    "Verif.Recalib.C123_in_order",
    "Verif.Recalib.C123_in_place",
    "Verif.Recalib.C123_complete",
    "Verif.Recalib.C123_waits",
    "Verif.Recalib.C123_progress",
    "Verif.Recalib.C123_alive",
    "Verif.Recalib.C123_size",
    "Verif.Recalib.C123_lost_counterexample",
    "Verif.Recalib.C123_dropped_counterexample"
   ],
   "note": "Proved for all sequences of buffers and calls and any transformation of events. Partial: when a result does not fit, all following events of the buffer are lost, and the whole buffer if it is the first event; the events of a buffer are those found by the iterator (C33), and the transformation itself is a parameter."
  },
  {
   "property": "C124",
   "status": "partial",
   "theorems": [
    "Verif.TdcRetr.C124_in_order_partial",
    "Verif.TdcRetr.C124_waits",
    "Verif.TdcRetr.C124_progress_partial",
    "Verif.TdcRetr.C124_size",
    "Verif.TdcRetr.C124_exit_counterexample",
    "Verif.TdcRetr.C124_dummy_counterexample",
    "Verif.TdcRetr.C124_bad_counterexample"
   ],
   "note": "Proved for all sequences of buffers and calls and any transformation of subevents. Partial: without the emulation mode, which with new buffers sends old memory; progress for transformations which do not make data longer; the process ends when a subevent is larger than the rest of the target; the subevents are those found by the iterator (C33), the transformation is a parameter."
  },
  {
   "property": "C125",
   "status": "partial",
   "theorems": [
    "Verif.TrbMon.C125_event_partial",
    "Verif.TrbMon.C125_small",
    "Verif.TrbMon.C125_no_buffer",
    "Verif.TrbMon.C125_numbers_partial",
    "Verif.TrbMon.C125_exact_counterexample"
   ],
   "note": "Proved for all registers, values and sequences of timer events. Partial: buffers of one segment which are not filled completely (otherwise the event is sent without subevent); the trigger type in the id of the event is left out; the shell command which reads a register is a parameter."
  },
  {
   "property": "C126",
   "status": "partial",
   "theorems": [
    "Verif.Profiler.C126_slots",
    "Verif.Profiler.C126_total",
    "Verif.Profiler.C126_all",
    "Verif.Profiler.C126_to_the_end",
    "Verif.Profiler.C126_names",
    "Verif.Profiler.C126_named",
    "Verif.Profiler.C126_next_named",
    "Verif.Profiler.C126_next_unnamed",
    "Verif.Profiler.C126_reserve",
    "Verif.Profiler.C126_inactive",
    "Verif.Profiler.C126_statistic",
    "Verif.Profiler.C126_first",
    "Verif.Profiler.C126_activated_counterexample",
    "Verif.Profiler.C126_first_counterexample"
   ],
   "note": "one guard at a time; a guard which sees the profiler being activated counts a wrong time and the first statistic does not reset the sums (counterexamples)"
  },
  {
   "property": "C127",
   "status": "partial",
   "theorems": [
    "Verif.Rfio.C127_files",
    "Verif.Rfio.C127_session",
    "Verif.Rfio.C127_base",
    "Verif.Rfio.C127_plain",
    "Verif.Rfio.C127_no_connection",
    "Verif.Rfio.C127_fwrite",
    "Verif.Rfio.C127_null",
    "Verif.Rfio.C127_feof_counterexample",
    "Verif.Rfio.C127_two_counterexample",
    "Verif.Rfio.C127_long_counterexample"
   ],
   "note": "for files written one after the other whose blocks the library takes completely; feof, two files at the same time and long names break it (counterexamples)"
  },
  {
   "property": "C128",
   "status": "partial",
   "theorems": [
    "Verif.Gosip.C128_answer",
    "Verif.Gosip.C128_line",
    "Verif.Gosip.C128_plain",
    "Verif.Gosip.C128_device",
    "Verif.Gosip.C128_write",
    "Verif.Gosip.C128_read",
    "Verif.Gosip.C128_limit",
    "Verif.Gosip.C128_other",
    "Verif.Gosip.C128_shell_counterexample",
    "Verif.Gosip.C128_long_counterexample"
   ],
   "note": "results of single commands for output in one piece; text of commands reaches the shell unchecked (counterexample)"
  },
  {
   "property": "C13",
   "status": "partial",
   "theorems": [
    "Verif.Record.C13_field_size",
    "Verif.Record.C13_map_size_partial",
    "Verif.Record.C12_record_round_trip_partial",
    "Verif.Record.C49_string_round_trip_partial"
   ],
   "note": "Fields of all kinds without restriction; maps when every name needs less than 4 GB."
  },
  {
   "property": "C14",
   "status": "partial",
   "theorems": [
    "Verif.Record.C14_diff_partial",
    "Verif.Record.C14_del_counterexample"
   ],
   "note": "Proved for all maps and values with truthful flags; missing: user fields named dabc:del (counterexample) and zero-length number arrays. Equality of values up to the sign of zero doubles, as the code compares with ==."
  },
  {
   "property": "C15",
   "status": "partial",
   "theorems": [
    "Verif.Json.C15_string_partial",
    "Verif.Json.C15_strings_partial",
    "Verif.Json.C15_printable",
    "Verif.Json.C15_bytes_counterexample"
   ],
   "note": "JsonReformat over all byte strings. Strings with all bytes below 128 give a JSON string (RFC 8259 grammar in the spec) denoting them; a byte from 128 on is sign-extended to eight hex digits and read back as other characters (counterexample)."
  },
  {
   "property": "C16",
   "status": "proved",
   "theorems": [
    "Verif.Url.C16_item",
    "Verif.Url.C16_negative",
    "Verif.Url.C16_port",
    "Verif.Url.C16_address",
    "Verif.Url.C16_address_protocol",
    "Verif.Url.C16_address_local",
    "Verif.Url.C16_item_counterexample",
    "Verif.Url.C16_node_counterexample"
   ],
   "note": "Byte strings, all names. The two counterexamples show that the exclusions are needed: a name with ? is cut, a server called node5x:1237 is replaced by node 5."
  },
  {
   "property": "C17",
   "status": "proved",
   "theorems": [
    "Verif.Url.C17_parts",
    "Verif.Url.C17_decode",
    "Verif.Url.C17_codes",
    "Verif.Url.C17_option",
    "Verif.Url.C17_missing",
    "Verif.Url.C17_number",
    "Verif.Url.C17_int",
    "Verif.Url.C17_bool",
    "Verif.Url.C17_escape_counterexample",
    "Verif.Url.C17_protocol_counterexample"
   ],
   "note": "SetUrl, ReplaceSpecialSymbols and the option getters over all byte strings; sscanf as specified by C, out of range numbers being undefined. Counterexamples: a backslash does not protect a quote, and :// in the options of a URL without protocol is taken for the protocol. GetOptionDouble is not modelled."
  },
  {
   "property": "C18",
   "status": "proved",
   "theorems": [
    "Verif.Command.C18_informed_at_most_once",
    "Verif.Command.C18_lifo",
    "Verif.Command.C18_reply_reaches_acceptor",
    "Verif.Command.C18_not_informed_after_removal"
   ],
   "note": "All histories of AddCaller/RemoveCaller/Reply on one command, each call atomic."
  },
  {
   "property": "C19",
   "status": "proved",
   "theorems": [
    "Verif.Command.C19_ids_unique",
    "Verif.Command.C19_popWithId",
    "Verif.Command.C19_popWithKind",
    "Verif.Command.C19_cleanup",
    "Verif.Command.C19_conservation"
   ],
   "note": "Ids are unique as long as no command stays in the queue for 2^32-1 further pushes."
  },
  {
   "property": "C20",
   "status": "proved",
   "theorems": [
    "Verif.Events.C20_events_fifo_per_priority",
    "Verif.Events.C20_fetch_none_only_if_empty"
   ],
   "note": "All interleavings of posting and fetching."
  },
  {
   "property": "C21",
   "status": "proved",
   "theorems": [
    "Verif.Events.C21_no_starvation"
   ],
   "note": "Explicit bound on the number of fetches."
  },
  {
   "property": "C22",
   "status": "proved",
   "theorems": [
    "Verif.Events.C22_eventid_roundtrip",
    "Verif.Events.C22_eventid_short",
    "Verif.Events.C22_eventid_injective"
   ],
   "note": ""
  },
  {
   "property": "C23",
   "status": "partial",
   "theorems": [
    "Verif.WorkerHalt.C23_stack_partial",
    "Verif.WorkerHalt.C23_halt_partial",
    "Verif.WorkerHalt.C23_refused",
    "Verif.WorkerHalt.C23_owner_partial",
    "Verif.WorkerHalt.C23_events_partial",
    "Verif.WorkerHalt.C23_prompt_partial",
    "Verif.WorkerHalt.C23_answered",
    "Verif.WorkerHalt.C23_timeout_counterexample",
    "Verif.WorkerHalt.C23_magic_counterexample",
    "Verif.WorkerHalt.C23_reuse_counterexample"
   ],
   "note": "Proved for all interleavings of one thread with its workers and other threads: no halt below counted code of the worker, halt only on request, normal events refused after a request, requests never forgotten, every executed request answered exactly once, ids of events never reach another worker. The full statement is false: timeouts are not counted, a command with magic priority between the two locks is lost, a request with an old id halts another worker; the event theorems exclude the second case and need at most 65536 records."
  },
  {
   "property": "C24",
   "status": "partial",
   "theorems": [
    "Verif.LocalTransport.C24_order",
    "Verif.LocalTransport.C24_skip_oldest",
    "Verif.LocalTransport.C24_clear_when_unused",
    "Verif.LocalTransport.C24_blocking_lossless",
    "Verif.LocalTransport.C24_exit_iff",
    "Verif.LocalTransport.C24_numCanSend",
    "Verif.LocalTransport.C24_canSend_partial",
    "Verif.LocalTransport.C24_connect_race_counterexample"
   ],
   "note": "Order, drops of the oldest only, clean-up only when unused, no loss in blocking mode, capacity: proved for every execution of the two sides on the ring buffer model. Partial because a Send after a positive CanSend ends the program when the other side connects in between (counterexample)."
  },
  {
   "property": "C25",
   "status": "partial",
   "theorems": [
    "Verif.LocalTransport.C25_receiver_partial",
    "Verif.LocalTransport.C25_sender_partial",
    "Verif.LocalTransport.C25_every",
    "Verif.LocalTransport.C25_restart_counterexample",
    "Verif.LocalTransport.C25_reconnect_counterexample",
    "Verif.LocalTransport.C25_sender_restart_counterexample"
   ],
   "note": "No wake-up is lost for a module which is connected once and started once, in every execution. A stopped module drops its event without confirming it, and no event follows after a restart or a reconnect (counterexamples)."
  },
  {
   "property": "C26",
   "status": "partial",
   "theorems": [
    "Verif.NetTr.C26_credits_partial",
    "Verif.NetTr.C26_progress",
    "Verif.NetTr.C26_duplicate_counterexample",
    "Verif.NetTr.C26_output_counterexample",
    "Verif.NetTr.C26_short_counterexample",
    "Verif.NetTr.C26_storm_counterexample"
   ],
   "note": "The credit balance is proved for every run of two connected transports; the bound holds up to one additional credit per acknowledge packet received. The code violates the claim: credits are duplicated in bidirectional connections, transports without input ignore credits, queues of length 1 never start, queues of length 2 exchange acknowledge packets for ever."
  },
  {
   "property": "C27",
   "status": "partial",
   "theorems": [
    "Verif.NetTr.C27_take",
    "Verif.NetTr.C27_records_partial",
    "Verif.NetTr.C27_room_partial",
    "Verif.NetTr.C27_queue_counterexample"
   ],
   "note": "TakeRec is proved for every state. Sufficiency of records and queue places is proved for configurations where TransportQueue does not exceed the queue capacity of the ports (fits_mkCfg); C27_queue_counterexample shows the violation otherwise."
  },
  {
   "property": "C28",
   "status": "proved",
   "theorems": [
    "Verif.BinaryFile.C28_binary_file",
    "Verif.BinaryFile.C28_roundtrip",
    "Verif.BinaryFile.C28_lossless",
    "Verif.BinaryFile.C28_complete"
   ],
   "note": "For buffers without empty segments and with sizes up to 0xFFFFFFF0 (larger ones collide with the return codes of Read_Size). A crash is any cut of the file, a full disk any limit of the stored bytes."
  },
  {
   "property": "C29",
   "status": "partial",
   "theorems": [
    "Verif.HldFile.C29_written",
    "Verif.HldFile.C29_read_partial",
    "Verif.HldFile.C29_roundtrip_partial",
    "Verif.HldFile.C29_any_partial",
    "Verif.HldFile.C29_hang_counterexample",
    "Verif.HldFile.C29_trailing_counterexample",
    "Verif.HldFile.C29_buffer_counterexample",
    "Verif.HldFile.C29_overread_counterexample",
    "Verif.HldFile.C29_empty_counterexample",
    "Verif.HldFile.C29_open_counterexample"
   ],
   "note": "Writing is proved in full. Reading is proved for buffer sizes which are multiples of 8 with 4 more bytes of memory behind, for files that are complete or cut at a multiple of 8, and for events with at least one subevent; the counterexamples show that the code needs each of these. For any content reading stays in memory with 8 spare bytes and ends unless a header has size 0; a header with size 0 makes it loop forever."
  },
  {
   "property": "C30",
   "status": "partial",
   "theorems": [
    "Verif.LmdFile.C30_read",
    "Verif.LmdFile.C30_written",
    "Verif.LmdFile.C30_any_partial",
    "Verif.LmdFile.C30_hang_counterexample",
    "Verif.LmdFile.C30_overread_counterexample"
   ],
   "note": "Reading and writing are proved for every list of events (multiples of 4 bytes), every buffer that holds the largest event, every old content of the memory, and files cut anywhere (inside of an event whose length is a multiple of 512 only at multiples of 4). Termination on any content does not hold: a header whose size wraps to 0 makes ReadBuffer loop forever."
  },
  {
   "property": "C31",
   "status": "partial",
   "theorems": [
    "Verif.HadTu.C31_value",
    "Verif.HadTu.C31_set",
    "Verif.HadTu.C31_decoding",
    "Verif.HadTu.C31_decoding_counterexample",
    "Verif.HadTu.C31_padded_partial",
    "Verif.HadTu.C31_padded_counterexample",
    "Verif.HadTu.C31_error",
    "Verif.HadTu.C31_trigtype_partial",
    "Verif.HadTu.C31_trigtype_counterexample",
    "Verif.HadTu.C31_data"
   ],
   "note": "Every 32-bit field in both byte orders without restriction; padded size for sizes up to 2^32-8 (wraps to 0 above: counterexample); setting the decoding word through SetDecoding may change the byte order (counterexample); the trigger type is not masked (counterexample)."
  },
  {
   "property": "C32",
   "status": "partial",
   "theorems": [
    "Verif.HadIter.C32_bytes_partial",
    "Verif.HadIter.C32_roundtrip_partial",
    "Verif.HadIter.C32_read",
    "Verif.HadIter.C32_count",
    "Verif.HadIter.C32_place_partial",
    "Verif.HadIter.C32_walk",
    "Verif.HadIter.C32_exact_counterexample",
    "Verif.HadIter.C32_restart_counterexample",
    "Verif.HadIter.C32_empty_counterexample"
   ],
   "note": "For every non-empty list of events in a one-segment buffer that leaves at least one byte free. An exactly filled buffer loses the subevents of its last event, and NewEvent then restarts at the begin (counterexamples). Missing: buffers of several segments."
  },
  {
   "property": "C33",
   "status": "partial",
   "theorems": [
    "Verif.HadIter.C33_inside_partial",
    "Verif.HadIter.C33_event_pointer",
    "Verif.HadIter.C33_nested",
    "Verif.HadIter.C33_event",
    "Verif.HadIter.C33_subevents_end_partial",
    "Verif.HadIter.C33_events_end_partial",
    "Verif.HadIter.C33_first_counterexample",
    "Verif.HadIter.C33_segments_counterexample",
    "Verif.HadIter.C33_size_counterexample",
    "Verif.HadIter.C33_events_end_counterexample",
    "Verif.HadIter.C33_subevents_end_counterexample",
    "Verif.MbsIter.C33_mbs_inside_partial",
    "Verif.MbsIter.C33_mbs_pointers",
    "Verif.MbsIter.C33_mbs_event",
    "Verif.MbsIter.C33_mbs_nested",
    "Verif.MbsIter.C33_mbs_subs_complete",
    "Verif.MbsIter.C33_mbs_subevents_end",
    "Verif.MbsIter.C33_mbs_events_end_partial",
    "Verif.MbsIter.C33_mbs_first_counterexample",
    "Verif.MbsIter.C33_mbs_segments_counterexample",
    "Verif.MbsIter.C33_mbs_events_end_counterexample"
   ],
   "note": "HADAQ and MBS iterators over any bytes in one segment, for every sequence of calls that starts with NextEvent. The loops end when no event has size 0 and no HADAQ subevent size wraps (counterexamples otherwise). False as stated: a subevent header straddling segments is read past the segment, and NextSubEvent before NextEvent reads without a check (counterexamples)."
  },
  {
   "property": "C34",
   "status": "partial",
   "theorems": [
    "Verif.Trig.C34_distance_partial",
    "Verif.Trig.C34_unique",
    "Verif.Trig.C34_antisymmetric",
    "Verif.Trig.C34_zero",
    "Verif.Trig.C34_full",
    "Verif.Trig.C34_range_counterexample"
   ],
   "note": "Every range below 2^31 and the full 32-bit range; ranges from 2^31 on give wrong differences (counterexample)."
  },
  {
   "property": "C35",
   "status": "partial",
   "theorems": [
    "Verif.Combiner.C35_account_partial",
    "Verif.Combiner.C35_complete",
    "Verif.Combiner.C35_dropall_counterexample",
    "Verif.Combiner.C35_error_counterexample",
    "Verif.Combiner.C35_stuck_counterexample"
   ],
   "note": "Every run of arrivals, build calls and timer calls: every item is used once in arrival order and is in an event, counted as dropped, or thrown away by DropAllInputBuffers; every event has one item of every input with one trigger number (and tag). Complete events are made when numbers go up and resources suffice. Missing: items thrown away by DropAllInputBuffers are not counted by the code (counterexample); resorting of inputs is not modelled."
  },
  {
   "property": "C36",
   "status": "partial",
   "theorems": [
    "Verif.MbsComb.C36_merged",
    "Verif.MbsComb.C36_number",
    "Verif.MbsComb.C36_complete",
    "Verif.MbsComb.C36_inside_partial",
    "Verif.MbsComb.C36_exact_partial",
    "Verif.MbsComb.C36_progress_partial",
    "Verif.MbsComb.C36_stuck_counterexample",
    "Verif.MbsComb.C36_header_counterexample",
    "Verif.MbsComb.C36_outside_counterexample",
    "Verif.MbsComb.C36_lost_counterexample",
    "Verif.MbsComb.C36_order_counterexample"
   ],
   "note": "Composition of events, order and use of the inputs: all configurations, contents, arrival patterns and answers of ports, clock and pool. Nothing lost and progress: only for obligatory inputs with increasing numbers in the headers, without overflow, special events, disconnected inputs or events larger than a buffer. Buffers are seen as lists of events (see C39 for the bytes). The code gets stuck after two oversized events and reads outside of an event without subevents when the number is in a subevent (counterexamples)."
  },
  {
   "property": "C37",
   "status": "proved",
   "theorems": [
    "Verif.Trig.C37_order",
    "Verif.Trig.C37_weak_order",
    "Verif.Trig.C37_result",
    "Verif.Trig.C37_cycle_counterexample"
   ],
   "note": "For all trigger numbers within less than half of the range; beyond that the comparison is cyclic (counterexample)."
  },
  {
   "property": "C38",
   "status": "partial",
   "theorems": [
    "Verif.Udp.C38_account_partial",
    "Verif.Udp.C38_once_partial",
    "Verif.Udp.C38_noskip_partial",
    "Verif.Udp.C38_open",
    "Verif.Udp.C38_wild_counterexample",
    "Verif.Udp.C38_wrap_counterexample",
    "Verif.Udp.C38_empty_counterexample"
   ],
   "note": "Holds for datagrams whose size field does not wrap when padded; the code accepts or crashes on wrapping sizes and does not count empty datagrams (counterexamples). The receiver never closes itself while buffers are large enough."
  },
  {
   "property": "C39",
   "status": "partial",
   "theorems": [
    "Verif.MbsIter.C39_bytes_partial",
    "Verif.MbsIter.C39_roundtrip_partial",
    "Verif.MbsIter.C39_read",
    "Verif.MbsIter.C39_count",
    "Verif.MbsIter.C39_place",
    "Verif.MbsIter.C39_close_partial",
    "Verif.MbsIter.C39_refused",
    "Verif.MbsIter.C39_odd_counterexample",
    "Verif.MbsIter.C39_addraw_counterexample",
    "Verif.MbsIter.C39_newsub_counterexample",
    "Verif.MbsIter.C39_close_counterexample",
    "Verif.MbsIter.C39_empty_counterexample",
    "Verif.MbsIter.C39_stale_counterexample"
   ],
   "note": "Any events built by NewSubevent, NewSubevent2/AddRawData, AddSubevent or CopyEventFrom in a buffer with one segment, exact fill included, come back. Missing/false: odd data sizes lose a byte, AddRawData accepts too much, Close of an unfinished exactly filled event or without events, stale fSubData after Reset (counterexamples)."
  },
  {
   "property": "C40",
   "status": "proved",
   "theorems": [
    "Verif.ObjLife.C40_once",
    "Verif.ObjLife.C40_referenced",
    "Verif.ObjLife.C40_final"
   ],
   "note": "All interleavings at the granularity of the sections under the object mutex. Not modelled: objects without mutex used by several threads, threads which delete themselves (_DoDeleteItself)."
  },
  {
   "property": "C41",
   "status": "partial",
   "theorems": [
    "Verif.NameMatch.C41_match_partial",
    "Verif.NameMatch.C41_plain",
    "Verif.NameMatch.C41_list_partial",
    "Verif.NameMatch.C41_empty_counterexample",
    "Verif.NameMatch.C41_hang_counterexample"
   ],
   "note": "All names and masks of '*', '?' and other bytes, single and in lists. fnmatch of the C library is modelled (FNM_NOESCAPE, C locale), brackets next to wildcards are left open. The full statement is false: '*' does not fit the empty name, and a mask with ';' never returns."
  },
  {
   "property": "C42",
   "status": "proved",
   "theorems": [
    "Verif.RefVector.C42_step",
    "Verif.RefVector.C42_run",
    "Verif.RefVector.C42_ask"
   ],
   "note": "All sequences of fewer than 2^31 operations (the capacity is a 32-bit number). What destructors of released objects do is outside of the model."
  },
  {
   "property": "C43",
   "status": "partial",
   "theorems": [
    "Verif.DateTime.C43_round",
    "Verif.DateTime.C43_back_partial",
    "Verif.DateTime.C43_order",
    "Verif.DateTime.C43_normal",
    "Verif.DateTime.C43_read",
    "Verif.DateTime.C43_set_date",
    "Verif.DateTime.C43_set_time_partial",
    "Verif.DateTime.C43_file_partial",
    "Verif.DateTime.C43_text_partial",
    "Verif.DateTime.C43_js_text",
    "Verif.DateTime.C43_2106_counterexample",
    "Verif.DateTime.C43_double_counterexample",
    "Verif.DateTime.C43_order_counterexample",
    "Verif.DateTime.C43_exists_counterexample",
    "Verif.DateTime.C43_file_counterexample",
    "Verif.DateTime.C43_nearest_counterexample"
   ],
   "note": "All instants of the 32-bit seconds, all dates 1970 to 2100. gmtime_r, timegm, strftime and sscanf are modelled by their documentation. Not modelled: local time, floating point. The full statement is false in the corners shown by the counterexamples."
  },
  {
   "property": "C44",
   "status": "partial",
   "theorems": [
    "Verif.Record.C44_history_partial",
    "Verif.Record.C44_head",
    "Verif.Record.C44_iterate_partial",
    "Verif.Record.C44_iterate_counterexample",
    "Verif.Record.C44_stream_sound",
    "Verif.Record.C44_stream_counterexample",
    "Verif.Record.C44_time_counterexample"
   ],
   "note": "Stored entries, their versions and reconstruction of old fields proved for every sequence of changes; the code violates iteration while the history is not full (null access), the boundary flag for equal versions, and repeated time stamps (counterexamples)."
  },
  {
   "property": "C45",
   "status": "proved",
   "theorems": [
    "Verif.Hierarchy.C45_versions",
    "Verif.Hierarchy.C45_all_marked"
   ],
   "note": "For every reachable hierarchy and every marked item. Fields of an item are opaque values with change flags (see C50); permanent items and the auto-record of history are left out (history: C44)."
  },
  {
   "property": "C46",
   "status": "partial",
   "theorems": [
    "Verif.CmdString.C46_parse_partial",
    "Verif.CmdString.C46_parse_positional",
    "Verif.CmdString.C46_named_counterexample"
   ],
   "note": "Everything but the name of named arguments, which loses its last character (counterexample)."
  },
  {
   "property": "C47",
   "status": "partial",
   "theorems": [
    "Verif.Command.C47_reply_result_partial",
    "Verif.Command.C47_timeout_counterexample"
   ],
   "note": "Holds for non-negative codes; Reply(cmd_timedout) does not store the code (counterexample)."
  },
  {
   "property": "C48",
   "status": "proved",
   "theorems": [
    "Verif.Pool.C48_canSafelyChange"
   ],
   "note": "For every world reachable by legal calls."
  },
  {
   "property": "C49",
   "status": "partial",
   "theorems": [
    "Verif.Record.C49_string_round_trip_partial",
    "Verif.Record.C49_string_at_end_counterexample"
   ],
   "note": "Proved when at least 4 bytes follow; a string at the very end of a stream is never readable (counterexample for every string)."
  },
  {
   "property": "C50",
   "status": "partial",
   "theorems": [
    "Verif.Record.C50_flags_partial",
    "Verif.Record.C50_touch_counterexample",
    "Verif.Record.C50_prefix_partial",
    "Verif.Record.C50_prefix_counterexample"
   ],
   "note": "Proved for all sequences of set, remove, copy, move, protect; a field created by access without value is not reported, and WasChangedWith does not see removed fields (counterexamples)."
  },
  {
   "property": "C51",
   "status": "proved",
   "theorems": [
    "Verif.Record.C51_copy",
    "Verif.Record.C51_move"
   ],
   "note": "Equality of values up to the sign of zero doubles, as the code compares with ==; values which the setters accept."
  },
  {
   "property": "C52",
   "status": "partial",
   "theorems": [
    "Verif.Hierarchy.C52_mirror_partial",
    "Verif.Hierarchy.C52_marked_partial",
    "Verif.Hierarchy.C52_recreated_fields_counterexample",
    "Verif.Hierarchy.C52_recreated_childs_counterexample",
    "Verif.Hierarchy.C52_recreated_sibling_counterexample",
    "Verif.Hierarchy.C52_names_counterexample"
   ],
   "note": "Proved for all histories in which names of removed items are not used again while the client has them and, for names lists, no name change is pending above a marked item; both restrictions are needed (counterexamples)."
  },
  {
   "property": "C53",
   "status": "partial",
   "theorems": [
    "Verif.TextForm.C53_inside",
    "Verif.TextForm.C53_parse",
    "Verif.TextForm.C53_scalars",
    "Verif.TextForm.C53_numbers",
    "Verif.TextForm.C53_strings_partial",
    "Verif.TextForm.C53_slash_counterexample",
    "Verif.TextForm.C53_quote_counterexample",
    "Verif.TextForm.C53_empty_counterexample"
   ],
   "note": "Scalars, number arrays and hand written text arrays in full. String arrays only with plain characters: the code violates the property for strings with a slash, quote, backslash or control character and for empty string arrays (counterexamples). Doubles are not converted to integers in the model."
  },
  {
   "property": "C54",
   "status": "partial",
   "theorems": [
    "Verif.Json.C54_json_partial",
    "Verif.Json.C54_field_partial",
    "Verif.Json.C54_name_counterexample",
    "Verif.Json.C54_buffer_counterexample",
    "Verif.Json.C54_double_counterexample"
   ],
   "note": "Whole trees with fields, versions, history and childs under every option. Missing: names are not escaped, raw data is written as 0x.. numbers and infinite doubles as inf (each with a proof that the text is not JSON). Formatting of doubles and dates is a parameter; XML output is not modelled."
  },
  {
   "property": "C55",
   "status": "partial",
   "theorems": [
    "Verif.Sorter.C55_conservation_partial",
    "Verif.Sorter.C55_memory_partial",
    "Verif.Sorter.C55_order_partial",
    "Verif.Sorter.C55_order_counterexample",
    "Verif.Sorter.C55_eof_counterexample",
    "Verif.Sorter.C55_race_counterexample",
    "Verif.Sorter.C55_stuck_counterexample"
   ],
   "note": "Conservation and memory safety for all histories in which the two checks for output space in one call agree (a place that appears between them loses a buffer: counterexample). Order only within one call: directly forwarded buffers and the end of file overtake the output buffer (counterexamples)."
  },
  {
   "property": "C56",
   "status": "proved",
   "theorems": [
    "Verif.Combiner.C56_destination"
   ],
   "note": "Trigger range at most 2^24 as the sequence number keeps 24 bits."
  },
  {
   "property": "C57",
   "status": "partial",
   "theorems": [
    "Verif.HldFile.C57_hld_partial",
    "Verif.BinaryFile.C57_binary_counterexample",
    "Verif.LmdFile.C57_lmd_counterexample",
    "Verif.LmdFile.C57_lmd_large_counterexample"
   ],
   "note": "Proved for HLD inputs under the conditions of C29. False for binary files (the end of a complete file is reported as an error and the second file is never opened) and for LMD files (an error is reported when the second file is opened; an event larger than the buffer ends the stream silently)."
  },
  {
   "property": "C58",
   "status": "proved",
   "theorems": [
    "Verif.BinaryFile.C58_size_limit"
   ],
   "note": "For the binary file output. The comparison in double is taken as exact, which it is for files below 2^53 bytes."
  },
  {
   "property": "C59",
   "status": "partial",
   "theorems": [
    "Verif.FileName.C59_fresh_partial",
    "Verif.FileName.C59_found",
    "Verif.FileName.C59_hidden_counterexample",
    "Verif.FileName.C59_unreadable_counterexample",
    "Verif.FileName.C59_throw_counterexample",
    "Verif.FileName.C59_digits_counterexample"
   ],
   "note": "Proved for names whose last part has no bracket and does not start with a dot and for readable files. Hidden and unreadable files are replaced, a name one character shorter than the extension lets Write_Init throw and a file name of digits only is read out of bounds (counterexamples). HldOutput, which takes its names from run numbers, and files made by other programs while the output runs are not modelled."
  },
  {
   "property": "C60",
   "status": "partial",
   "theorems": [
    "Verif.SocketNet.C60_stream_partial",
    "Verif.SocketNet.C60_complete_partial",
    "Verif.SocketNet.C60_progress_partial",
    "Verif.SocketNet.C60_small_counterexample",
    "Verif.SocketNet.C60_desync_counterexample",
    "Verif.SocketNet.C60_empty_counterexample",
    "Verif.SocketNet.C60_segment_counterexample"
   ],
   "note": "Proved for acknowledge packets and buffers with more than 32 bytes and no empty segments, with receive buffers large enough. The code does not have it for other messages: buffers of 1..32 bytes are sent inline but the receiver waits for further bytes and runs out of step, buffers of size 0 stop the receiver for ever, an empty last segment closes the connection."
  },
  {
   "property": "C61",
   "status": "proved",
   "theorems": [
    "Verif.NetTr.C61_order",
    "Verif.NetTr.C61_complete",
    "Verif.NetTr.C61_hold"
   ],
   "note": "For every run of two connected transports over a network which keeps the order of packets; TransportQueue not larger than the queues of the ports."
  },
  {
   "property": "C62",
   "status": "partial",
   "theorems": [
    "Verif.ObjLife.C62_deleted_partial",
    "Verif.ObjLife.C62_auto",
    "Verif.ObjLife.C62_unasked",
    "Verif.ObjLife.C62_leak_counterexample"
   ],
   "note": "Proved when no child is removed from an object which is cleaned up already. RemoveChild counts down the references of the parent without looking whether it was the last one: an object which got a child after its cleanup and loses it then is never deleted."
  },
  {
   "property": "C63",
   "status": "partial",
   "theorems": [
    "Verif.InpTransport.C63_protocol",
    "Verif.InpTransport.C63_delivered",
    "Verif.InpTransport.C63_eof",
    "Verif.InpTransport.C63_awake",
    "Verif.InpTransport.C63_exit",
    "Verif.InpTransport.C63_busy_counterexample",
    "Verif.InpTransport.C63_restart_counterexample",
    "Verif.InpTransport.C63_exit_counterexample"
   ],
   "note": "Proved for all event histories and answers of the modelled part. Missing: the mode with extra buffers (di_NeedMoreBuf, di_HasEnoughBuf), which no input uses, and the behaviour behind the exit(333) of a call-back before the first start. Counterexamples: busy loop while waiting for a buffer, stop and start during reconnection delete the transport, call-back in the first state ends the program."
  },
  {
   "property": "C64",
   "status": "partial",
   "theorems": [
    "Verif.OutTransport.C64_protocol",
    "Verif.OutTransport.C64_conserved",
    "Verif.OutTransport.C64_awake",
    "Verif.OutTransport.C64_retry_partial",
    "Verif.OutTransport.C64_stuck_counterexample",
    "Verif.OutTransport.C64_busy_counterexample",
    "Verif.OutTransport.C64_lost_counterexample",
    "Verif.OutTransport.C64_state_counterexample"
   ],
   "note": "Protocol, order and conservation and being awake are proved for all histories. The statement that a failed output is initialised again holds only while nobody stops the transport (C64_retry_partial); with a stop the timer can be lost (C64_stuck_counterexample). Further counterexamples: busy loop while waiting for the retry, the buffer whose writing failed is lost, a closed transport reports Retry. Write_Restart and statistics are not modelled."
  },
  {
   "property": "C65",
   "status": "partial",
   "theorems": [
    "Verif.Timeouts.C65_not_early_partial",
    "Verif.Timeouts.C65_fires_partial",
    "Verif.Timeouts.C65_wait_partial",
    "Verif.Timeouts.C65_request_partial",
    "Verif.Timeouts.C65_lost_counterexample",
    "Verif.Timeouts.C65_other_counterexample",
    "Verif.Timeouts.C65_cancel_counterexample"
   ],
   "note": "For workers which do not run the event loop of the thread inside ProcessTimeout; otherwise timeouts are lost (two counterexamples). A cancelled timeout may still be called once (counterexample). The set of timeouts of a thread is fixed and times are exact numbers."
  },
  {
   "property": "C66",
   "status": "partial",
   "theorems": [
    "Verif.Multiplexer.C66_taken",
    "Verif.Multiplexer.C66_all",
    "Verif.Multiplexer.C66_order_partial",
    "Verif.Multiplexer.C66_rest_partial",
    "Verif.Multiplexer.C66_start",
    "Verif.Multiplexer.C66_order_counterexample",
    "Verif.Multiplexer.C66_late_counterexample",
    "Verif.Multiplexer.C66_skip_counterexample"
   ],
   "note": "Order per input and equality of all steadily connected outputs: every history. Order between inputs and nothing left behind: only while the module is not stopped and no buffer comes before the connection of its input (counterexamples)."
  },
  {
   "property": "C67",
   "status": "proved",
   "theorems": [
    "Verif.WaitEvent.C67_thread",
    "Verif.WaitEvent.C67_thread_forever",
    "Verif.WaitEvent.C67_thread_forever_counterexample",
    "Verif.WaitEvent.C67_socket_once",
    "Verif.WaitEvent.C67_socket_sleep",
    "Verif.WaitEvent.C67_socket_nothing",
    "Verif.WaitEvent.C67_socket_pipe",
    "Verif.WaitEvent.C67_socket_set",
    "Verif.WaitEvent.C67_socket_check",
    "Verif.WaitEvent.C67_socket_quiet",
    "Verif.WaitEvent.C67_socket_flags",
    "Verif.WaitEvent.C67_socket_look"
   ],
   "note": "Steps are the sections under the thread mutex; the priority queues are one list with a free choice of the next event. pthread_cond_wait, poll, read and write of the pipe are modelled by their documented effect. The counterexample concerns only an additional statement: a spurious wake-up ends a wait without limit, then WaitEvent returns nothing although no time limit was given."
  },
  {
   "property": "C68",
   "status": "partial",
   "theorems": [
    "Verif.Xml.C68_parse_partial",
    "Verif.Xml.C68_save_partial",
    "Verif.Xml.C68_roundtrip_partial",
    "Verif.Xml.C68_value",
    "Verif.Xml.C68_end",
    "Verif.Xml.C68_shape",
    "Verif.Xml.C68_again_partial",
    "Verif.Xml.C68_root_partial",
    "Verif.Xml.C68_content_counterexample",
    "Verif.Xml.C68_layout_counterexample",
    "Verif.Xml.C68_close_counterexample",
    "Verif.Xml.C68_close_prefix_counterexample",
    "Verif.Xml.C68_empty_counterexample",
    "Verif.Xml.C68_signed_counterexample",
    "Verif.Xml.C68_refused_counterexample",
    "Verif.Xml.C68_root_counterexample"
   ],
   "note": "Proved for documents without name spaces whose content needs no coding (and, with a layout, is the only child), with non-empty comments; the counterexamples show why these are needed. The stream buffers are not modelled."
  },
  {
   "property": "C69",
   "status": "partial",
   "theorems": [
    "Verif.Resolve.C69_resolve_partial",
    "Verif.Resolve.C69_plain",
    "Verif.Resolve.C69_result",
    "Verif.Resolve.C69_unclosed",
    "Verif.Resolve.C69_cmd_first",
    "Verif.Resolve.C69_cmd_new",
    "Verif.Resolve.C69_count",
    "Verif.Resolve.C69_elem",
    "Verif.Resolve.C69_empty_counterexample",
    "Verif.Resolve.C69_quotes_counterexample",
    "Verif.Resolve.C69_self_counterexample",
    "Verif.Resolve.C69_process_counterexample",
    "Verif.Resolve.C69_hash_counterexample",
    "Verif.Resolve.C69_unclosed_counterexample",
    "Verif.Resolve.C69_hide_counterexample"
   ],
   "note": "Proved for definitions which are not circular and texts which can be read in one way (no # by chance beside a variable, no ${ in the result); the counterexamples show why these are needed."
  },
  {
   "property": "C70",
   "status": "partial",
   "theorems": [
    "Verif.ConfigFind.C70_first",
    "Verif.ConfigFind.C70_calls_partial",
    "Verif.ConfigFind.C70_creation_partial",
    "Verif.ConfigFind.C70_creation_first",
    "Verif.ConfigFind.C70_libs_partial",
    "Verif.ConfigFind.C70_own",
    "Verif.ConfigFind.C70_mask",
    "Verif.ConfigFind.C70_deeper",
    "Verif.ConfigFind.C70_default",
    "Verif.ConfigFind.C70_context",
    "Verif.ConfigFind.C70_numNodes",
    "Verif.ConfigFind.C70_calls_counterexample",
    "Verif.ConfigFind.C70_comment_counterexample",
    "Verif.ConfigFind.C70_empty_counterexample"
   ],
   "note": "Repeated calls are proved for contexts with an attribute and without wildcards; a context without attributes never ends (counterexample)."
  },
  {
   "property": "C71",
   "status": "proved",
   "theorems": [
    "Verif.ConfigIO.C71_field",
    "Verif.ConfigIO.C71_value",
    "Verif.ConfigIO.C71_path",
    "Verif.ConfigIO.C71_selected",
    "Verif.ConfigIO.C71_record",
    "Verif.ConfigIO.C71_fields",
    "Verif.ConfigIO.C71_manager",
    "Verif.ConfigIO.C71_worker",
    "Verif.ConfigIO.C71_worker_mask",
    "Verif.ConfigIO.C71_application",
    "Verif.ConfigIO.C71_orphan_counterexample",
    "Verif.ConfigIO.C71_order_counterexample",
    "Verif.ConfigIO.C71_comment_counterexample"
   ],
   "note": "Proved for all trees and objects; the counterexamples show consequences which a user may not expect."
  },
  {
   "property": "C72",
   "status": "partial",
   "theorems": [
    "Verif.ConnMgr.C72_progress",
    "Verif.ConnMgr.C72_commands",
    "Verif.ConnMgr.C72_check",
    "Verif.ConnMgr.C72_answer_ok",
    "Verif.ConnMgr.C72_connected",
    "Verif.ConnMgr.C72_requests",
    "Verif.ConnMgr.C72_unknown",
    "Verif.ConnMgr.C72_reply",
    "Verif.ConnMgr.C72_both_ends",
    "Verif.ConnMgr.C72_connId",
    "Verif.ConnMgr.C72_init_timeout",
    "Verif.ConnMgr.C72_cleanup",
    "Verif.ConnMgr.C72_lost_counterexample",
    "Verif.ConnMgr.C72_no_timeout_counterexample",
    "Verif.ConnMgr.C72_stale_counterexample",
    "Verif.ConnMgr.C72_before_counterexample",
    "Verif.ConnMgr.C72_shutdown_counterexample",
    "Verif.ConnMgr.C72_cleanup_counterexample",
    "Verif.ConnMgr.C72_client_counterexample"
   ],
   "note": "Proved for all sequences of operations: order of the steps, one answer per command, meaning of a successful answer, requests, settings on both ends, identifiers, time out of the device. The parts 'every step ends', 'success only if no required connection failed (also before the command)' and 'commands are answered at the end of the manager' do not hold: counterexamples. Strings are numbers; devices and other nodes are free inputs."
  },
  {
   "property": "C73",
   "status": "partial",
   "theorems": [
    "Verif.ConnObj.C73_state",
    "Verif.ConnObj.C73_settings",
    "Verif.ConnObj.C73_value",
    "Verif.ConnObj.C73_told",
    "Verif.ConnObj.C73_request",
    "Verif.ConnObj.C73_config",
    "Verif.ConnObj.C73_permission",
    "Verif.ConnObj.C73_device_counterexample",
    "Verif.ConnObj.C73_init_value_counterexample",
    "Verif.ConnObj.C73_lost_setting_counterexample",
    "Verif.ConnObj.C73_lost_state_counterexample"
   ],
   "note": "Proved for calls one after another and, for the number of changes, for all interleavings. The code violates: with two threads a permitted setting or the event of a state change can be lost, the device of ManagerRef::Connect is never set, and the value still shows the old state after SetInitState (counterexamples)."
  },
  {
   "property": "C74",
   "status": "partial",
   "theorems": [
    "Verif.Param.C74_async",
    "Verif.Param.C74_async_windows",
    "Verif.Param.C74_async_conserves",
    "Verif.Param.C74_sync",
    "Verif.Param.C74_sync_conserves",
    "Verif.Param.C74_average",
    "Verif.Param.C74_average_async_partial",
    "Verif.Param.C74_empty_average_counterexample",
    "Verif.Param.C74_first_rate_counterexample",
    "Verif.Param.C74_reconfigured_counterexample",
    "Verif.Param.C74_null_counterexample",
    "Verif.Param.C74_result_counterexample",
    "Verif.Param.C74_plain",
    "Verif.Param.C74_every",
    "Verif.Param.C74_silent_counterexample",
    "Verif.Param.C74_last_lost_counterexample",
    "Verif.Param.C74_worker_partial",
    "Verif.Param.C74_told",
    "Verif.Param.C74_settings",
    "Verif.Param.C74_worker_counterexample"
   ],
   "note": "windows, conservation, means and spacing of events proved for all histories with exact numbers; violated: first synchronous rate counts one value too many, means without values are 0, asynchronous plain parameters never report, worker is informed without waiting for its confirmation"
  },
  {
   "property": "C75",
   "status": "partial",
   "theorems": [
    "Verif.ParEvents.C75_awake",
    "Verif.ParEvents.C75_order",
    "Verif.ParEvents.C75_latest",
    "Verif.ParEvents.C75_told",
    "Verif.ParEvents.C75_bound_partial",
    "Verif.ParEvents.C75_reused_counterexample",
    "Verif.ParEvents.C75_overload_counterexample",
    "Verif.ParEvents.C75_coalesced_partial",
    "Verif.ParEvents.C75_duplicate_counterexample",
    "Verif.ParEvents.C75_timed",
    "Verif.ParEvents.C75_destroyed_partial",
    "Verif.ParEvents.C75_destroyed_counterexample"
   ],
   "note": "wake-ups, order, last update, contents of events and timeouts proved for all interleavings; violated: counters after reuse of an address, duplicates with concurrent producers, overloaded receivers, configuration during destruction"
  },
  {
   "property": "C76",
   "status": "partial",
   "theorems": [
    "Verif.CmdDef.C76_keys",
    "Verif.CmdDef.C76_args",
    "Verif.CmdDef.C76_args_once",
    "Verif.CmdDef.C76_again_counterexample",
    "Verif.CmdDef.C76_command"
   ],
   "note": "all parts proved for all sequences of calls, except that a repeated AddArg merges instead of replacing (counterexample)"
  },
  {
   "property": "C77",
   "status": "partial",
   "theorems": [
    "Verif.SockCmd.C77_account",
    "Verif.SockCmd.C77_order",
    "Verif.SockCmd.C77_finished",
    "Verif.SockCmd.C77_result",
    "Verif.SockCmd.C77_result_partial",
    "Verif.SockCmd.C77_delivered",
    "Verif.SockCmd.C77_moves",
    "Verif.SockCmd.C77_ends",
    "Verif.SockCmd.C77_stale_counterexample",
    "Verif.SockCmd.C77_lost_counterexample",
    "Verif.SockCmd.C77_attempt_counterexample",
    "Verif.SockCmd.C77_dropped_counterexample",
    "Verif.SockCmd.C77_cancel_counterexample",
    "Verif.SockCmd.C77_crash_counterexample"
   ],
   "note": "Account, order and results of the connecting side for all runs; execution and answer of every command while the connection stands (any order of steps comes to rest, and at rest all is answered). Violated: answers by a new connection, commands lost after an idle connection closed, cancelled commands, null pointer after an error."
  },
  {
   "property": "C78",
   "status": "partial",
   "theorems": [
    "Verif.SockWire.C78_framing",
    "Verif.SockWire.C78_incomplete",
    "Verif.SockWire.C78_verdict",
    "Verif.SockWire.C78_inside",
    "Verif.SockWire.C78_timeout_partial",
    "Verif.SockWire.C78_outside_counterexample",
    "Verif.SockWire.C78_replay_counterexample",
    "Verif.SockWire.C78_hangs_counterexample",
    "Verif.SockWire.C78_segments_counterexample",
    "Verif.SockWire.C78_timeout_counterexample"
   ],
   "note": "Framing for all messages with raw data in one segment and below 2 GB; verdict for all streams of bytes. Violated: sizes of the header not checked, packet replayed, endless loop, raw data in several segments, timeouts below a second."
  },
  {
   "property": "C79",
   "status": "partial",
   "theorems": [
    "Verif.MbsNet.C79_in_order_partial",
    "Verif.MbsNet.C79_no_error_partial",
    "Verif.MbsNet.C79_delivered_partial",
    "Verif.MbsNet.C79_on_request",
    "Verif.MbsNet.C79_one_on_the_way",
    "Verif.MbsNet.C79_too_long_counterexample",
    "Verif.MbsNet.C79_odd_counterexample",
    "Verif.MbsNet.C79_keep_alive_counterexample",
    "Verif.MbsNet.C79_wrong_info_counterexample",
    "Verif.MbsNet.C79_not_asking_counterexample"
   ],
   "note": "For buffers of even length up to the announced limit of 4 MB; counterexamples for the others. Delivery is proved as: from every reachable state a finite continuation of server and client delivers everything."
  },
  {
   "property": "C80",
   "status": "partial",
   "theorems": [
    "Verif.MbsNet.C80_reassembled_partial",
    "Verif.MbsNet.C80_gap",
    "Verif.MbsNet.C80_short_piece_counterexample",
    "Verif.MbsNet.C80_first_piece_counterexample",
    "Verif.MbsNet.C80_hangs_counterexample"
   ],
   "note": "Proved for pieces of at least 16 bytes with header and buffers where the MBS 16-bit count of used words is below 32768; the code fails for shorter pieces at the end of a buffer (counterexample)."
  },
  {
   "property": "C81",
   "status": "partial",
   "theorems": [
    "Verif.MbsServer.C81_received_partial",
    "Verif.MbsServer.C81_waiting_partial",
    "Verif.MbsServer.C81_stays_partial",
    "Verif.MbsServer.C81_bounds",
    "Verif.MbsServer.C81_accepts",
    "Verif.MbsServer.C81_rejects",
    "Verif.MbsServer.C81_no_loss",
    "Verif.MbsServer.C81_not_held",
    "Verif.MbsServer.C81_waits",
    "Verif.MbsServer.C81_first",
    "Verif.MbsServer.C81_closes",
    "Verif.MbsServer.C81_options",
    "Verif.MbsServer.C81_swallows_counterexample",
    "Verif.MbsServer.C81_never_closes_counterexample",
    "Verif.MbsServer.C81_eof_lost_counterexample",
    "Verif.MbsServer.C81_reuse_counterexample",
    "Verif.MbsServer.C81_nonblock_counterexample"
   ],
   "note": "Order, completeness and staying connected are proved for runs in which no client connects while the disconnection of another one is still to be processed (counterexample otherwise); the closing after the end of data fails for regular clients, only proved when a transport is destroyed."
  },
  {
   "property": "C82",
   "status": "partial",
   "theorems": [
    "Verif.SockDevice.C82_answered_once",
    "Verif.SockDevice.C82_in_time",
    "Verif.SockDevice.C82_not_early",
    "Verif.SockDevice.C82_confirmed",
    "Verif.SockDevice.C82_agreed",
    "Verif.SockDevice.C82_right_socket_partial",
    "Verif.SockDevice.C82_reuse_counterexample",
    "Verif.SockDevice.C82_same_id_counterexample",
    "Verif.SockDevice.C82_accepts",
    "Verif.SockDevice.C82_only_accepted",
    "Verif.SockDevice.C82_request",
    "Verif.SockDevice.C82_long_id_counterexample",
    "Verif.SockDevice.C82_answer",
    "Verif.SockDevice.C82_handshake",
    "Verif.SockDevice.C82_denied",
    "Verif.SockDevice.C82_memory_partial",
    "Verif.SockDevice.C82_freed_counterexample",
    "Verif.SockDevice.C82_overrun_counterexample",
    "Verif.SockDevice.C82_list_partial",
    "Verif.SockDevice.C82_dangling_counterexample"
   ],
   "note": "answers, times, agreement and the exchange of messages are proved for all runs; the right socket only while addresses are not used again, memory only without socket errors (counterexamples show that the code violates the rest)"
  },
  {
   "property": "C83",
   "status": "partial",
   "theorems": [
    "Verif.AppState.C83_answered_once",
    "Verif.AppState.C83_one_transition",
    "Verif.AppState.C83_result",
    "Verif.AppState.C83_halted_clean",
    "Verif.AppState.C83_others_stay",
    "Verif.AppState.C83_other_modules_stay",
    "Verif.AppState.C83_others_stay_counterexample",
    "Verif.AppState.C83_complete",
    "Verif.AppState.C83_running_started",
    "Verif.AppState.C83_stopped_partial",
    "Verif.AppState.C83_stopped_counterexample",
    "Verif.AppState.C83_halts",
    "Verif.AppState.C83_reaches",
    "Verif.AppState.C83_halts_counterexample",
    "Verif.AppState.C83_noname_counterexample",
    "Verif.AppState.C83_watched",
    "Verif.AppState.C83_stops",
    "Verif.AppState.C83_stop_reason",
    "Verif.AppState.C83_stops_counterexample"
   ],
   "note": "everything is proved for all runs; the code violates parts (counterexamples: time-out of connections, unknown states, names of others, modules which end at once)"
  },
  {
   "property": "C84",
   "status": "partial",
   "theorems": [
    "Verif.HldOut.C84_files_shape",
    "Verif.HldOut.C84_complete",
    "Verif.HldOut.C84_end",
    "Verif.HldOut.C84_by_run_partial",
    "Verif.HldOut.C84_two_changes_counterexample",
    "Verif.HldOut.C84_return_counterexample",
    "Verif.HldOut.C84_resume_counterexample",
    "Verif.HldOut.C84_slave_retry_counterexample",
    "Verif.HldOut.C84_total_counterexample",
    "Verif.HldOut.C84_empty_segment_counterexample",
    "Verif.HldOut.C84_by_size_partial",
    "Verif.HldOut.C84_second_counterexample",
    "Verif.HldOut.C84_plain_counterexample",
    "Verif.HldOut.C84_accepted_written",
    "Verif.HldOut.C84_retry",
    "Verif.HldOut.C84_next_file",
    "Verif.HldOut.C84_subevent_partial",
    "Verif.HldOut.C84_subevents_counterexample"
   ],
   "note": "The code violates the property in several cases (counterexamples); proved for streams where no run comes back and each buffer has at most one change of the run, and for at most one file per second."
  },
  {
   "property": "C85",
   "status": "partial",
   "theorems": [
    "Verif.BnetMaster.C85_events",
    "Verif.BnetMaster.C85_answered_once",
    "Verif.BnetMaster.C85_answer_meaning",
    "Verif.BnetMaster.C85_orders",
    "Verif.BnetMaster.C85_same_for_all",
    "Verif.BnetMaster.C85_late_reply",
    "Verif.BnetMaster.C85_master_run",
    "Verif.BnetMaster.C85_calibration",
    "Verif.BnetMaster.C85_refresh",
    "Verif.BnetMaster.C85_waiting_start_partial",
    "Verif.BnetMaster.C85_nodes",
    "Verif.BnetMaster.C85_failed_orders_counterexample",
    "Verif.BnetMaster.C85_no_builders_counterexample",
    "Verif.BnetMaster.C85_refresh_no_inputs_counterexample",
    "Verif.BnetMaster.C85_oninit_counterexample",
    "Verif.BnetMaster.C85_refresh_run_counterexample",
    "Verif.BnetMaster.C85_second_stop_counterexample"
   ],
   "note": "Proved for all runs; the code violates parts (counterexamples: results of the nodes are not looked at, RefreshRun without inputs, number given with oninit, calibrations written for run 0)."
  },
  {
   "property": "C86",
   "status": "partial",
   "theorems": [
    "Verif.BnetMaster.C86_shown_when_all_replied",
    "Verif.BnetMaster.C86_good_quality_partial",
    "Verif.BnetMaster.C86_worst_state",
    "Verif.BnetMaster.C86_late_reply",
    "Verif.BnetMaster.C86_auto_start",
    "Verif.BnetMaster.C86_auto_start_once",
    "Verif.BnetMaster.C86_empty_state_counterexample",
    "Verif.BnetMaster.C86_no_inputs_counterexample",
    "Verif.BnetMaster.C86_no_nodes_counterexample",
    "Verif.BnetMaster.C86_lost_control_counterexample"
   ],
   "note": "Proved for all runs; a quality above 0 does not tell about nodes with empty state or without partners (counterexamples)."
  },
  {
   "property": "C87",
   "status": "partial",
   "theorems": [
    "Verif.BnetNode.C87_events",
    "Verif.BnetNode.C87_answered_once",
    "Verif.BnetNode.C87_start_orders",
    "Verif.BnetNode.C87_start_confirmed_partial",
    "Verif.BnetNode.C87_start_refused",
    "Verif.BnetNode.C87_timeout",
    "Verif.BnetNode.C87_stop_partial",
    "Verif.BnetNode.C87_event_numbers",
    "Verif.BnetNode.C87_run_info",
    "Verif.BnetNode.C87_stop_line",
    "Verif.BnetNode.C87_no_info",
    "Verif.BnetNode.C87_calibr_orders",
    "Verif.BnetNode.C87_calibr_confirmed_partial",
    "Verif.BnetNode.C87_refresh_orders",
    "Verif.BnetNode.C87_stale_counterexample",
    "Verif.BnetNode.C87_failed_counterexample",
    "Verif.BnetNode.C87_stop_skipped_counterexample",
    "Verif.BnetNode.C87_no_timeout_counterexample",
    "Verif.BnetNode.C87_first_line_counterexample",
    "Verif.BnetNode.C87_refresh_counterexample",
    "Verif.BnetNode.C87_refresh_early_counterexample",
    "Verif.BnetNode.C87_stale_calibr_counterexample"
   ],
   "note": "Proved for all runs; the code violates parts (counterexamples: refresh commands are never answered, replies to superseded commands are counted, failures are not seen, outputs which cannot take a buffer are skipped)."
  },
  {
   "property": "C88",
   "status": "partial",
   "theorems": [
    "Verif.PublTree.C88_path",
    "Verif.PublTree.C88_full_name",
    "Verif.PublTree.C88_producer",
    "Verif.PublTree.C88_worker",
    "Verif.PublTree.C88_hierarchy_partial",
    "Verif.PublTree.C88_node",
    "Verif.PublTree.C88_own",
    "Verif.PublTree.C88_unknown",
    "Verif.PublTree.C88_execute_partial",
    "Verif.PublTree.C88_uri",
    "Verif.PublTree.C88_hierarchy_counterexample",
    "Verif.PublTree.C88_execute_counterexample"
   ],
   "note": "Two statements fail in the code: a worker with two hierarchies gets requests for the second one with the first one; as soon as another node is known a command nested in the branch of another worker goes to that worker. Both hold in the excluded cases (_partial)."
  },
  {
   "property": "C89",
   "status": "partial",
   "theorems": [
    "Verif.HttpServer.C89_verify",
    "Verif.HttpServer.C89_inside_partial",
    "Verif.HttpServer.C89_complete",
    "Verif.HttpServer.C89_file_partial",
    "Verif.HttpServer.C89_pages",
    "Verif.HttpServer.C89_handle",
    "Verif.HttpServer.C89_civetweb",
    "Verif.HttpServer.C89_civetweb_user",
    "Verif.HttpServer.C89_clean_same",
    "Verif.HttpServer.C89_last_counterexample",
    "Verif.HttpServer.C89_backslash_counterexample",
    "Verif.HttpServer.C89_prefix_counterexample",
    "Verif.HttpServer.C89_user_counterexample"
   ],
   "note": "The check alone lets names out (backslash, last name .., pages of users, prefixes without slash): counterexamples. With the cleaning done by the built-in server and prefixes ending with a slash everything stays inside."
  },
  {
   "property": "C90",
   "status": "partial",
   "theorems": [
    "Verif.HttpServer.C90_auth",
    "Verif.HttpServer.C90_file",
    "Verif.HttpServer.C90_same_item_partial",
    "Verif.HttpServer.C90_ignored_counterexample",
    "Verif.HttpServer.C90_below_counterexample",
    "Verif.HttpServer.C90_multi_counterexample"
   ],
   "note": "The decision is right for known items but is never used by the handlers; unknown sub-items and requests for several items get around it (counterexamples)."
  },
  {
   "property": "C91",
   "status": "partial",
   "theorems": [
    "Verif.Logging.C91_log",
    "Verif.Logging.C91_total",
    "Verif.Logging.C91_first",
    "Verif.Logging.C91_outputs",
    "Verif.Logging.C91_error",
    "Verif.Logging.C91_lines",
    "Verif.Logging.C91_syslog_counterexample",
    "Verif.Logging.C91_level_counterexample",
    "Verif.Logging.C91_lowered_counterexample"
   ],
   "note": "Proved for places whose messages are taken by the output throughout, with less than 2^32 calls. When levels change meanwhile numbers of dropped messages get lost; the system log does not get messages above the other levels (counterexamples)."
  },
  {
   "property": "C92",
   "status": "partial",
   "theorems": [
    "Verif.HierStore.C92_replay_partial",
    "Verif.HierStore.C92_stored",
    "Verif.HierStore.C92_kept",
    "Verif.HierStore.C92_spaced",
    "Verif.HierStore.C92_often",
    "Verif.HierStore.C92_pick",
    "Verif.HierStore.C92_structure",
    "Verif.HierStore.C92_lost_counterexample",
    "Verif.HierStore.C92_open_counterexample",
    "Verif.HierStore.C92_second_counterexample",
    "Verif.HierStore.C92_time_counterexample",
    "Verif.HierStore.C92_clock_counterexample",
    "Verif.HierStore.C92_structure_counterexample"
   ],
   "note": "Proved without errors of the disk, without two files in the same second and as long as names of removed items are not used again while the file has them (as in C52). Errors are not noticed by the code (counterexamples)."
  },
  {
   "property": "C93",
   "status": "partial",
   "theorems": [
    "Verif.PublReg.C93_ids",
    "Verif.PublReg.C93_shows_partial",
    "Verif.PublReg.C93_refresh_partial",
    "Verif.PublReg.C93_register",
    "Verif.PublReg.C93_unregister_partial",
    "Verif.PublReg.C93_remove_worker_partial",
    "Verif.PublReg.C93_stale",
    "Verif.PublReg.C93_failed",
    "Verif.PublReg.C93_below_counterexample",
    "Verif.PublReg.C93_removed_counterexample",
    "Verif.PublReg.C93_leftover_counterexample",
    "Verif.PublReg.C93_pointer_counterexample"
   ],
   "note": "Partial: as long as nothing is registered below another registration (accepted by the code, then its folder is lost); names of removed items are used again only after the publisher has seen the removal (as in C52). Local entries only."
  },
  {
   "property": "C94",
   "status": "partial",
   "theorems": [
    "Verif.ModConn.C94_life",
    "Verif.ModConn.C94_told",
    "Verif.ModConn.C94_autostop",
    "Verif.ModConn.C94_stopped",
    "Verif.ModConn.C94_alive_partial",
    "Verif.ModConn.C94_attempts_partial",
    "Verif.ModConn.C94_all_attempts",
    "Verif.ModConn.C94_limit_counterexample",
    "Verif.ModConn.C94_giveup_counterexample",
    "Verif.ModConn.C94_late_counterexample",
    "Verif.ModConn.C94_command_counterexample"
   ],
   "note": "Missing: the limit of attempts after a second loss and the automatic stop after giving up or DisconnectPort, both violated by the code (counterexamples)."
  },
  {
   "property": "C95",
   "status": "proved",
   "theorems": [
    "Verif.AsyncLoop.C95_nothing_forgotten",
    "Verif.AsyncLoop.C95_recv_ready",
    "Verif.AsyncLoop.C95_bounded",
    "Verif.AsyncLoop.C95_length_counterexample"
   ],
   "note": "For a module which is connected once and started once (C25 has counterexamples for restart and reconnect) and loop lengths below 2^31 (counterexample above)."
  },
  {
   "property": "C96",
   "status": "partial",
   "theorems": [
    "Verif.SyncWait.C96_not_early",
    "Verif.SyncWait.C96_exceptions",
    "Verif.SyncWait.C96_goes_on",
    "Verif.SyncWait.C96_wakes_partial",
    "Verif.SyncWait.C96_returns_partial",
    "Verif.SyncWait.C96_value_partial",
    "Verif.SyncWait.C96_default_counterexample",
    "Verif.SyncWait.C96_two_buffers_counterexample",
    "Verif.SyncWait.C96_before_start_counterexample",
    "Verif.SyncWait.C96_restart_counterexample",
    "Verif.SyncWait.C96_suspend_counterexample"
   ],
   "note": "Never too early, exceptions only when configured: proved for all runs. Wake-up and value: for ports which are connected while the module runs, modules which are not stopped, and one buffer; the code violates the full statement (negative timeout, data before the start, restart, two buffers, StopUntilRestart)."
  },
  {
   "property": "C97",
   "status": "partial",
   "theorems": [
    "Verif.SyncCmd.C97_once",
    "Verif.SyncCmd.C97_order_partial",
    "Verif.SyncCmd.C97_stop_ends",
    "Verif.SyncCmd.C97_safe_partial",
    "Verif.SyncCmd.C97_null_counterexample",
    "Verif.SyncCmd.C97_order_counterexample",
    "Verif.SyncCmd.C97_waits_counterexample"
   ],
   "note": "Every command is executed exactly once or waits; order and absence of null pointers hold only when the module is stopped by the command and not while commands are executed (counterexamples for the other ways)"
  },
  {
   "property": "C98",
   "status": "partial",
   "theorems": [
    "Verif.ModuleItems.C98_create",
    "Verif.ModuleItems.C98_names",
    "Verif.ModuleItems.C98_deliver_partial",
    "Verif.ModuleItems.C98_activate_partial",
    "Verif.ModuleItems.C98_one_wrong",
    "Verif.ModuleItems.C98_systimer_partial",
    "Verif.ModuleItems.C98_stale_counterexample",
    "Verif.ModuleItems.C98_removed_counterexample",
    "Verif.ModuleItems.C98_pool_counterexample",
    "Verif.ModuleItems.C98_systimer_counterexample"
   ],
   "note": "Creation, names and the bound on wrong indices for all sequences. Delivery of events for modules whose items are removed only from the end of their lists, the timer of the module without removals; the code violates the full statement (counterexamples)."
  },
  {
   "property": "C99",
   "status": "partial",
   "theorems": [
    "Verif.Statistic.C99_average",
    "Verif.Statistic.C99_bin_partial",
    "Verif.Statistic.C99_hist_partial",
    "Verif.Statistic.C99_lower_counterexample",
    "Verif.Statistic.C99_border_counterexample",
    "Verif.Statistic.C99_rate",
    "Verif.Statistic.C99_points_counterexample",
    "Verif.Statistic.C99_cpu_partial",
    "Verif.Statistic.C99_cpu_first",
    "Verif.Statistic.C99_cpu_counterexample"
   ],
   "note": "Mean, deviation, extremal values and rate are proved; the histogram only for values not on the border of a bin, the utilisation only when the counters do not decrease, with counterexamples for the rest. Rational numbers stand for floating point numbers."
  }
 ]
}