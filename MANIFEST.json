{
 "claims": [
  {
   "property": "C01",
   "status": "proved",
   "theorems": [
    "Shadow.Ev.before_irrefl",
    "Shadow.Ev.before_trans",
    "Shadow.Ev.before_asymm",
    "Shadow.Ev.before_trichotomy",
    "Shadow.Ev.before_total",
    "Shadow.Ev.partialCmp_spec",
    "Shadow.Ev.C01_comparison_total"
   ],
   "note": "partialCmp_spec characterises all four answers of the comparison; totality for distinct identities."
  },
  {
   "property": "C02",
   "status": "proved",
   "theorems": [
    "Shadow.Ev.pop_spec",
    "Shadow.Ev.pop_ok",
    "Shadow.Ev.C02_conservation",
    "Shadow.Ev.C02_monotone",
    "Shadow.Ev.C02_push_past",
    "Shadow.Ev.nextEventTime_spec",
    "Shadow.Ev.C02_next_is_pop",
    "Shadow.Ev.C02_no_panic",
    "Shadow.Ev.C02_pop_deterministic"
   ],
   "note": "The binary heap is modelled by its documented behaviour (pop removes a least element)."
  },
  {
   "property": "C03",
   "status": "proved",
   "theorems": [
    "Shadow.Sim.C03_round",
    "Shadow.Sim.C03_run",
    "Shadow.Sim.C03_same_results",
    "Shadow.Sim.C03_no_deadlock"
   ],
   "note": "Hosts are arbitrary deterministic programs; any threads, assignments and interleavings, any number of rounds."
  },
  {
   "property": "C04",
   "status": "proved",
   "theorems": [
    "Shadow.Sim.C04_no_packet_in_past",
    "Shadow.Sim.C04_only_task_panics",
    "Shadow.Sim.deliver_ok"
   ],
   "note": "For every reachable state of every run; the only remaining panics come from the task itself."
  },
  {
   "property": "C05",
   "status": "proved",
   "theorems": [
    "Shadow.Sim.C05_next_window",
    "Shadow.Sim.C05_stop",
    "Shadow.Sim.C05_windows_tile",
    "Shadow.Sim.C05_nothing_left",
    "Shadow.Sim.C05_finitely_many_rounds"
   ],
   "note": "Stop time after start time; positive least latency (asserted by the code)."
  },
  {
   "property": "C06",
   "status": "partial",
   "theorems": [
    "Shadow.Sim.C06_nothing_after_stop",
    "Shadow.Sim.C06_schedule",
    "Shadow.Sim.Ex.C06_clock_can_reach_stop"
   ],
   "note": "Execution and sending strictly before the stop time is proved; the claim that a clock never reaches the stop time is false (witness proved): it never passes it."
  },
  {
   "property": "C07",
   "status": "partial",
   "theorems": [
    "Shadow.Runahead.C07_value",
    "Shadow.Runahead.C07_order_independent",
    "Shadow.Runahead.C07_positive",
    "Shadow.Runahead.C07_at_most_reported",
    "Shadow.Runahead.C07_static",
    "Shadow.Runahead.C07_never_increases",
    "Shadow.Runahead.C07_first_report_can_increase"
   ],
   "note": "Everything but unconditional monotonicity: the value can rise once, at the first dynamic report (witness proved); it never increases afterwards."
  },
  {
   "property": "C08",
   "status": "proved",
   "theorems": [
    "Shadow.Sim.C08_delivery_time",
    "Shadow.Sim.C08_exact_latency"
   ],
   "note": ""
  },
  {
   "property": "C09",
   "status": "partial",
   "theorems": [
    "Shadow.Sim.C09_order",
    "Shadow.Sim.C09_window_finished",
    "Shadow.Sim.C09_no_event_lost",
    "Shadow.Sim.C09_cpu_delay",
    "Shadow.Sim.C09_clock_monotone",
    "Shadow.Sim.Ex.C09_clock_can_go_back",
    "Shadow.Sim.Ex.C09_event_dropped_at_stop"
   ],
   "note": "Order, at-most-once and completeness of a round hold without hypotheses; the clock is monotone if tasks never schedule before their own current time, and goes back otherwise (witness proved); an event delayed past the stop time by the CPU model is dropped (witness proved)."
  },
  {
   "property": "C10",
   "status": "partial",
   "theorems": [
    "Shadow.Cpu.C10_addDelay",
    "Shadow.Cpu.C10_rounding",
    "Shadow.Cpu.C10_rounding_precision_one",
    "Shadow.Cpu.C10_rounding_not_nearest",
    "Shadow.Cpu.C10_monotone",
    "Shadow.Cpu.C10_delay",
    "Shadow.Cpu.C10_delay_above_threshold",
    "Shadow.Cpu.C10_retry_no_delay",
    "Shadow.Cpu.C10_avail_total",
    "Shadow.Cpu.C10_no_delay_for_30_years"
   ],
   "note": "Everything claimed is proved except nearest rounding, which is false for odd precisions (proved); also proved: no delay is reported before 30 years of CPU time are charged because availability starts at the Unix epoch."
  },
  {
   "property": "C100",
   "status": "proved",
   "theorems": [
    "Shadow.MmapFile.C100_clean",
    "Shadow.MmapFile.C100_file",
    "Shadow.MmapFile.C100_anonymous",
    "Shadow.MmapFile.C100_errors",
    "Shadow.MmapFile.C100_flags",
    "Shadow.MmapFile.C100_stdin",
    "Shadow.MmapFile.C100_example"
   ],
   "note": "What native calls, memory and the memory manager answer are parameters; native close is taken to close, and a number from native open to be free. That the file in /proc/pid/fd is the open one is trusted. A panic when the program has no memory for the path is left out. Finding: descriptors 0 to 2 are refused even if they are regular files (C100_stdin)."
  },
  {
   "property": "C101",
   "status": "proved",
   "theorems": [
    "Shadow.NameLookup.C101_answer",
    "Shadow.NameLookup.C101_agree",
    "Shadow.NameLookup.C101_direct",
    "Shadow.NameLookup.C101_writes",
    "Shadow.NameLookup.C101_upper_case",
    "Shadow.NameLookup.C101_length",
    "Shadow.NameLookup.C101_needs_nul",
    "Shadow.NameLookup.C101_example"
   ],
   "note": "Names are registered as the configuration and C19 allow (lower case, at most 253 bytes, each once, not localhost), and the default address of a host is the one registered, as manager.rs makes both from the same field. What can be read and written is a parameter. Left out: a length of 2^64 - 1, failing to allocate, and the search of /etc/hosts that getaddrinfo falls back to when the call fails. Findings: in upper case a host finds itself by this call but no other host does (C101_upper_case); a length of 2^63 - 1 or more panics Shadow if the name is not in memory mapped into Shadow (C101_length); a name with its right length is refused unless a NUL follows (C101_needs_nul)."
  },
  {
   "property": "C102",
   "status": "proved",
   "theorems": [
    "Shadow.Prctl.C102_death",
    "Shadow.Prctl.C102_dumpable",
    "Shadow.Prctl.C102_values",
    "Shadow.Prctl.C102_written",
    "Shadow.Prctl.C102_unchanged",
    "Shadow.Prctl.C102_refused",
    "Shadow.Prctl.C102_arch",
    "Shadow.Prctl.C102_tsc",
    "Shadow.Prctl.C102_exec",
    "Shadow.Prctl.C102_example"
   ],
   "note": "A process is there whenever it calls. What the kernel does with options that are passed on, and what a forked native process takes over, is not modelled. When the signal is sent is in the model of processes (Verif/Procs). Findings: the trap for rdtsc, which the shim sets, is told natively (C102_tsc; what the kernel answers was not checked); settings that were passed on are not given to the native process after execve (C102_exec; which of them Linux would keep was not checked)."
  },
  {
   "property": "C103",
   "status": "proved",
   "theorems": [
    "Shadow.Random.C103_bytes",
    "Shadow.Random.C103_same",
    "Shadow.Random.C103_fails",
    "Shadow.Random.C103_succeeds",
    "Shadow.Random.C103_determined",
    "Shadow.Random.C103_panic",
    "Shadow.Random.C103_example"
   ],
   "note": "The generator is any function from its state and a length to as many bytes and a new state; that fill_bytes of the library is one is trusted. Which buffers are mapped and what the kernel writes are parameters. C103_determined is for lengths below 2^63 and a kernel that writes all or nothing, as an assertion in the code demands. Left out: failing to allocate, mapped buffers longer than isize::MAX, and other users of the generator of the host. Finding: a length of 2^63 or more panics Shadow if the buffer is not mapped (C103_panic)."
  },
  {
   "property": "C104",
   "status": "proved",
   "theorems": [
    "Shadow.AuxRandom.C104_set",
    "Shadow.AuxRandom.C104_only",
    "Shadow.AuxRandom.C104_long",
    "Shadow.AuxRandom.C104_twice",
    "Shadow.AuxRandom.C104_example"
   ],
   "note": "The file is the vector as pairs of 64-bit numbers on a little-endian machine; how reading goes is a parameter, and memory at the address can be written, as the function demands. That the bytes passed in were drawn from the generator of the host (managed_thread.rs:245) is not part of the model. Findings: with 47 pairs or more the bytes of the kernel stay, with a warning (C104_long); the file is read a second time after the test for null, and if this fails null is written to (C104_twice)."
  },
  {
   "property": "C105",
   "status": "proved",
   "theorems": [
    "Shadow.MemInfo.C105_fields",
    "Shadow.MemInfo.C105_other",
    "Shadow.MemInfo.C105_unit",
    "Shadow.MemInfo.C105_bad",
    "Shadow.MemInfo.C105_known",
    "Shadow.MemInfo.C105_sound",
    "Shadow.MemInfo.C105_example",
    "Shadow.MemInfo.C105_example_ok"
   ],
   "note": "The file is given by its lines (str::lines is not modelled) and can be read; white space is the space and the tab. trim, split_once, rsplit_once and parse of the standard library are modelled as documented. C105_fields is for files with each name once and numbers of 64 bits."
  },
  {
   "property": "C11",
   "status": "proved",
   "theorems": [
    "Shadow.TB.lazyRefill_spec",
    "Shadow.TB.remove_spec",
    "Shadow.TB.remove_wf",
    "Shadow.TB.run_conserve",
    "Shadow.TB.C11_rate_bound",
    "Shadow.TB.C11_relay_bound",
    "Shadow.TB.create_spec",
    "Shadow.TB.C11_low_rate_not_enforced",
    "Shadow.Relay.C11_relay_segment_bound",
    "Shadow.Relay.C11_relay_traffic_bound"
   ],
   "note": "Bound for the bucket, for the bucket of a configured bandwidth and for the traffic of a whole relay. Rates below 1000 B/s are rounded up to 1000 B/s (proved)."
  },
  {
   "property": "C12",
   "status": "proved",
   "theorems": [
    "Shadow.TB.wait_value",
    "Shadow.TB.C12_exact_wait",
    "Shadow.TB.C12_retry",
    "Shadow.TB.C12_oversize_never",
    "Shadow.TB.remove_no_panic"
   ],
   "note": "For waits representable as SimulationTime; larger waits are a separate panic of the time arithmetic (C42)."
  },
  {
   "property": "C13",
   "status": "proved",
   "theorems": [
    "Shadow.Relay.C13_exactly_once",
    "Shadow.Relay.C13_fifo",
    "Shadow.Relay.C13_no_stall",
    "Shadow.Relay.C13_no_panic",
    "Shadow.Relay.C13_blocked_leaves",
    "Shadow.Relay.C13_oversize_blocks_forever",
    "Shadow.Relay.flag_steps"
   ],
   "note": "Also proved: a packet larger than the limiter capacity blocks the relay forever (finding)."
  },
  {
   "property": "C14",
   "status": "proved",
   "theorems": [
    "Shadow.Codel.C14_pop",
    "Shadow.Codel.C14_conserve",
    "Shadow.Codel.C14_bytes",
    "Shadow.Codel.C14_drop",
    "Shadow.Codel.C14_no_drop",
    "Shadow.Codel.C14_rfc8289"
   ],
   "note": "The increment of the control law, computed in floating point, is an arbitrary function of the count. Times do not saturate."
  },
  {
   "property": "C15",
   "status": "proved",
   "theorems": [
    "Shadow.NetIface.C15_deliver",
    "Shadow.NetIface.C15_exclusive",
    "Shadow.NetIface.C15_after_drop",
    "Shadow.NetIface.C15_associate"
   ],
   "note": "The legacy C stack removing keys itself and the final removal of all sockets are not modelled."
  },
  {
   "property": "C16",
   "status": "proved",
   "theorems": [
    "Shadow.NetIface.C16_port",
    "Shadow.NetIface.C16_bind"
   ],
   "note": "Random values are assumed to lie in the range asked of the generator."
  },
  {
   "property": "C17",
   "status": "proved",
   "theorems": [
    "Shadow.NetQueue.C17_fifo",
    "Shadow.NetQueue.C17_priority",
    "Shadow.NetQueue.C17_once",
    "Shadow.NetQueue.C17_accept",
    "Shadow.NetQueue.C17_conservation",
    "Shadow.NetQueue.C17_refused_item_stays_member"
   ],
   "note": "The binary heap is a collection that pops its greatest entry. try_push without a priority leaves the item a member although refused (witness proved); the simulator only uses push."
  },
  {
   "property": "C18",
   "status": "proved",
   "theorems": [
    "Shadow.UnixNs.C18_exclusive",
    "Shadow.UnixNs.C18_bind",
    "Shadow.UnixNs.C18_release",
    "Shadow.UnixNs.C18_autobind",
    "Shadow.UnixNs.C18_name_count"
   ],
   "note": "A bound socket is not deallocated before it is closed."
  },
  {
   "property": "C19",
   "status": "proved",
   "theorems": [
    "Shadow.Dns.C19_register",
    "Shadow.Dns.C19_lookup",
    "Shadow.Dns.C19_accepted_unique",
    "Shadow.Dns.C19_inverse",
    "Shadow.Dns.C19_stable",
    "Shadow.Dns.C19_hosts_deterministic",
    "Shadow.Dns.C19_hosts_resolve",
    "Shadow.Dns.C19_hosts_ok_iff"
   ],
   "note": "Registry, lookups and the hosts file, for all registration histories and all hash-map iteration orders."
  },
  {
   "property": "C20",
   "status": "proved",
   "theorems": [
    "Shadow.IpAssign.C20_assign",
    "Shadow.IpAssign.C20_assign_ip",
    "Shadow.IpAssign.C20_history"
   ],
   "note": ""
  },
  {
   "property": "C21",
   "status": "partial",
   "theorems": [
    "Shadow.Fd.C21_add_fresh",
    "Shadow.Fd.C21_no_panic",
    "Shadow.Fd.C21_fails_iff_full",
    "Shadow.Fd.C21_set_close",
    "Shadow.Fd.C21_lowest_partial",
    "Shadow.Fd.C21_not_lowest_after_bad_close",
    "Shadow.Fd.C21_not_lowest_after_dup2"
   ],
   "note": "The lowest free number is returned in histories without close of unopened numbers and without dup2 (C21_lowest_partial); in general it is not (two witnesses proved). Freshness, no panic and failure only when full hold for all histories."
  },
  {
   "property": "C22",
   "status": "partial",
   "theorems": [
    "Shadow.EventFd.C22_read",
    "Shadow.EventFd.C22_write",
    "Shadow.EventFd.C22_errors",
    "Shadow.EventFd.C22_failed_no_effect",
    "Shadow.EventFd.C22_conservation",
    "Shadow.EventFd.C22_range",
    "Shadow.EventFd.C22_readiness_partial",
    "Shadow.EventFd.C22_initial_value_not_readable",
    "Shadow.EventFd.C22_readiness_after_success",
    "Shadow.EventFd.C22_write_notifies"
   ],
   "note": "All but readiness right after creation: an eventfd created with a positive value is not readable until the first successful call (witness proved)."
  },
  {
   "property": "C23",
   "status": "partial",
   "theorems": [
    "Shadow.Pipe.C23_read",
    "Shadow.Pipe.C23_write",
    "Shadow.Pipe.C23_close",
    "Shadow.Pipe.C23_capacity",
    "Shadow.Pipe.C23_no_panic",
    "Shadow.Pipe.C23_history",
    "Shadow.Pipe.C23_stream",
    "Shadow.Pipe.C23_flags",
    "Shadow.Pipe.C23_readable",
    "Shadow.Pipe.C23_writable",
    "Shadow.Pipe.C23_no_split",
    "Shadow.Pipe.C23_epipe",
    "Shadow.Pipe.C23_refused",
    "Shadow.Pipe.C23_read_fault_loses",
    "Shadow.Pipe.C23_write_fault_stores",
    "Shadow.Pipe.C23_packet_fault_stale",
    "Shadow.Pipe.C23_empty_read_loses",
    "Shadow.Pipe.C23_small_write_split",
    "Shadow.Pipe.C23_packet_writable"
   ],
   "note": "All proved for memory that can be read and written; capacity and absence of panics for any memory. With memory that faults half way bytes are lost or stay stored, and flags go stale (witnesses proved). In packet mode the writable flag is only necessary."
  },
  {
   "property": "C24",
   "status": "proved",
   "theorems": [
    "Shadow.ByteQueue.C24_push_stream",
    "Shadow.ByteQueue.C24_push_slice",
    "Shadow.ByteQueue.C24_push_packet",
    "Shadow.ByteQueue.C24_pop",
    "Shadow.ByteQueue.C24_pop_any",
    "Shadow.ByteQueue.C24_peek",
    "Shadow.ByteQueue.C24_counts",
    "Shadow.ByteQueue.C24_pop_chunk",
    "Shadow.ByteQueue.C24_history",
    "Shadow.ByteQueue.C24_empty_chunk_blocks"
   ],
   "note": "Whether two buffers can be merged in place is an arbitrary choice. An empty stream chunk given to push_chunk blocks the queue (witness proved); the simulator never does that."
  },
  {
   "property": "C25",
   "status": "partial",
   "theorems": [
    "Shadow.Epoll.C25_wait",
    "Shadow.Epoll.C25_readable",
    "Shadow.Epoll.C25_level",
    "Shadow.Epoll.C25_level_again",
    "Shadow.Epoll.C25_edge",
    "Shadow.Epoll.C25_edge_reported",
    "Shadow.Epoll.C25_oneshot",
    "Shadow.Epoll.C25_closed",
    "Shadow.Epoll.C25_ctl",
    "Shadow.Epoll.C25_no_panic",
    "Shadow.Epoll.C25_fair",
    "Shadow.Epoll.C25_oneshot_again"
   ],
   "note": "All proved but one: a one-shot registration for several conditions is silent only about those already reported (witness proved). The priority counter is an integer."
  },
  {
   "property": "C26",
   "status": "proved",
   "theorems": [
    "Shadow.Timer.C26_never_early",
    "Shadow.Timer.C26_count",
    "Shadow.Timer.C26_cancel",
    "Shadow.Timer.C26_consume",
    "Shadow.Timer.C26_no_panic",
    "Shadow.Timer.C26_progress",
    "Shadow.Timer.C26_remaining",
    "Shadow.Timer.C26_delay_panics"
   ],
   "note": "Exact counts without processor delays (the default configuration); never early with them too. With delays longer than the interval of a periodic timer the simulator panics (witness proved). The interval added to the end of the simulation must be a time."
  },
  {
   "property": "C27",
   "status": "partial",
   "theorems": [
    "Shadow.TimerFd.C27_readable",
    "Shadow.TimerFd.C27_read",
    "Shadow.TimerFd.C27_settime",
    "Shadow.TimerFd.C27_settime_ok",
    "Shadow.TimerFd.C27_total",
    "Shadow.TimerFd.C27_never_early",
    "Shadow.TimerFd.C27_gettime",
    "Shadow.TimerFd.C27_fault_loses",
    "Shadow.TimerFd.C27_overflow_panics"
   ],
   "note": "All proved for memory that can be written. A read that faults loses the count and leaves the readable flag set, and a huge relative value panics (witnesses proved)."
  },
  {
   "property": "C28",
   "status": "partial",
   "theorems": [
    "Shadow.Futex.C28_wait",
    "Shadow.Futex.C28_wake",
    "Shadow.Futex.C28_first",
    "Shadow.Futex.C28_one",
    "Shadow.Futex.C28_return",
    "Shadow.Futex.C28_zero",
    "Shadow.Futex.C28_returns",
    "Shadow.Futex.C28_entry",
    "Shadow.Futex.C28_entry_calm",
    "Shadow.Futex.C28_lost_timeout",
    "Shadow.Futex.C28_lost_signal",
    "Shadow.Futex.C28_spurious",
    "Shadow.Futex.C28_left_signal",
    "Shadow.Futex.C28_left_exit"
   ],
   "note": "Wake order and counts, sleeping, returning and absence of panics are proved for all histories. False: an entry stays in the table after a wait interrupted before it began or the end of a waiting thread (witnesses; proved exact otherwise). A waiter that was woken up may report a timeout or an interruption, so that the wake-up is lost (witnesses)."
  },
  {
   "property": "C29",
   "status": "proved",
   "theorems": [
    "Shadow.Tcp.SeqProps.C29_len",
    "Shadow.Tcp.SeqProps.C29_contains",
    "Shadow.Tcp.SeqProps.C29_contains_walk",
    "Shadow.Tcp.SeqProps.C29_complement",
    "Shadow.Tcp.SeqProps.C29_rotate",
    "Shadow.Tcp.SeqProps.C29_intersection",
    "Shadow.Tcp.SeqProps.C29_intersection_empty",
    "Shadow.Tcp.SeqProps.C29_intersection_comm"
   ],
   "note": ""
  },
  {
   "property": "C30",
   "status": "proved",
   "theorems": [
    "Shadow.Tcp.ScalingProps.C30_shift_least",
    "Shadow.Tcp.ScalingProps.C30_shift_cap",
    "Shadow.Tcp.ScalingProps.C30_agree",
    "Shadow.Tcp.ScalingProps.C30_both_offered",
    "Shadow.Tcp.ScalingProps.C30_no_panic",
    "Shadow.Tcp.ScalingProps.C30_roundtrip",
    "Shadow.Tcp.ScalingProps.C30_clamp",
    "Shadow.Tcp.ScalingProps.C30_final"
   ],
   "note": ""
  },
  {
   "property": "C31",
   "status": "partial",
   "theorems": [
    "Shadow.Tcp.Stream.C31_received_prefix",
    "Shadow.Tcp.Stream.C31_read_prefix",
    "Shadow.Tcp.Stream.C31_read_sublist",
    "Shadow.Tcp.Stream.C31_write_ok",
    "Shadow.Tcp.Stream.C31_small_streams",
    "Shadow.Tcp.Stream.C31_in_order",
    "Shadow.Tcp.Stream.C31_failed_read_gap"
   ],
   "note": "Two connections over a network that loses, duplicates, delays and reorders. Proved for all histories in which no packet outlives 2^32 - 200010 bytes of its stream (always true for streams shorter than that, C31_small_streams; TCP without timestamps needs such a bound). False when a read fails half-way: bytes are lost (witness proved), order is kept."
  },
  {
   "property": "C32",
   "status": "proved",
   "theorems": [
    "Shadow.Tcp.Stream.C32_in_window",
    "Shadow.Tcp.Stream.C32_window",
    "Shadow.Tcp.Stream.C32_buffers"
   ],
   "note": "For every connection that calls and arbitrary packets can produce. \"Most recently advertised\" is the window field of the last accepted packet."
  },
  {
   "property": "C33",
   "status": "proved",
   "theorems": [
    "Shadow.Tcp.C33_edge",
    "Shadow.Tcp.C33_progress",
    "Shadow.Tcp.C33_closed_final",
    "Shadow.Tcp.C33_reset_final",
    "Shadow.Tcp.C33_meaning",
    "Shadow.Tcp.StatesProps.C33_reset_exact"
   ],
   "note": "All sockets of all executions of calls, packets, timers. The diagram (Edge) is RFC 9293 with an explicit reset state that still has RSTs to send."
  },
  {
   "property": "C34",
   "status": "partial",
   "theorems": [
    "Shadow.Tcp.C34_accept",
    "Shadow.Tcp.C34_queues",
    "Shadow.Tcp.C34_one_child_per_pair",
    "Shadow.Tcp.C34_isolated",
    "Shadow.Tcp.C34_bound",
    "Shadow.Tcp.C34_full",
    "Shadow.Tcp.C34_fifo",
    "Shadow.Tcp.C34_bound_needs_scaling"
   ],
   "note": "All proved with window scaling enabled (the only configuration the simulator uses); without it the bound is false for crafted packets (witness proved). In-order, once-only acceptance, uniqueness per address pair and isolation are proved in both cases. The bound is per listen call: a second listen with a smaller backlog lowers it."
  },
  {
   "property": "C35",
   "status": "partial",
   "theorems": [
    "Shadow.Tcp.Stream.C35_push_partial",
    "Shadow.Tcp.Stream.C35_pop_partial",
    "Shadow.Tcp.Stream.C35_syn_sent_panics",
    "Shadow.Tcp.Stream.C35_zero_window_syn_panics",
    "Shadow.Tcp.Stream.C35_early_data_panics",
    "Shadow.Tcp.Stream.C35_early_reset_panics",
    "Shadow.Tcp.Stream.C35_unsent_ack_stalls",
    "Shadow.Tcp.C35_after_handshake",
    "Shadow.Tcp.C35_calls",
    "Shadow.Tcp.C35_listener_syn",
    "Shadow.Tcp.C35_listener_panics",
    "Shadow.Tcp.C35_close_panics",
    "Shadow.Tcp.C35_timeout_panics"
   ],
   "note": "After the handshake no packet, close or abort can panic (proved for sockets); calls never panic. Before it the claim is false: the packets that panic are proved as witnesses, with the exact condition for a SYN to a listening socket."
  },
  {
   "property": "C36",
   "status": "partial",
   "theorems": [
    "Shadow.Tcp.Stream.C36_fin_complete",
    "Shadow.Tcp.Stream.C36_drained",
    "Shadow.Tcp.Stream.C36_nothing_after_fin",
    "Shadow.Tcp.C36_recv",
    "Shadow.Tcp.C36_eof",
    "Shadow.Tcp.C36_noticed",
    "Shadow.Tcp.C36_fin_with_ack_unnoticed"
   ],
   "note": "A received FIN implies that all bytes arrived, and stays; the exact result of recv in each state; end of stream only after FIN and all bytes; a FIN is noticed in every state but syn-sent and syn-received. A FIN that comes with the last packet of the handshake is not noticed until another packet arrives (witness proved)."
  },
  {
   "property": "C37",
   "status": "proved",
   "theorems": [
    "Shadow.Channel.C37_word",
    "Shadow.Channel.C37_no_panic",
    "Shadow.Channel.C37_messages",
    "Shadow.Channel.C37_pending",
    "Shadow.Channel.C37_exclusive",
    "Shadow.Channel.C37_wake",
    "Shadow.Channel.C37_woken",
    "Shadow.Channel.C37_not_left",
    "Shadow.Channel.C37_error",
    "Shadow.Channel.C37_finish"
   ],
   "note": "Any number of closing threads. Steps on the word are interleaved atomically (one location); that the message is visible to the reader follows from the acquire/release pairs and is not modelled. Futex waits may end for no reason, weak exchanges may fail for no reason."
  },
  {
   "property": "C38",
   "status": "proved",
   "theorems": [
    "Shadow.Mutex.C38_exclusive",
    "Shadow.Mutex.C38_disconnected",
    "Shadow.Mutex.C38_word",
    "Shadow.Mutex.C38_no_panic",
    "Shadow.Mutex.C38_take",
    "Shadow.Mutex.C38_wake",
    "Shadow.Mutex.C38_trying",
    "Shadow.Mutex.C38_progress",
    "Shadow.Mutex.C38_reconnect",
    "Shadow.Mutex.C38_overflow"
   ],
   "note": "For up to 65535 threads; with more the 16-bit count of sleepers can overflow (C38_overflow). Steps on the word are interleaved atomically (one location); that the protected value is visible to the next holder follows from the Release and Acquire orderings and is not modelled."
  },
  {
   "property": "C39",
   "status": "partial",
   "theorems": [
    "Shadow.Latch.Simple.C39_open",
    "Shadow.Latch.Simple.C39_open_together",
    "Shadow.Latch.Simple.C39_open_return",
    "Shadow.Latch.Simple.C39_open_wake",
    "Shadow.Latch.Simple.C39_open_woken",
    "Shadow.Latch.Simple.C39_open_progress",
    "Shadow.Latch.Simple.C39_open_no_panic",
    "Shadow.Latch.Simple.C39_open_behind",
    "Shadow.Latch.CountDown.C39_count",
    "Shadow.Latch.CountDown.C39_count_together",
    "Shadow.Latch.CountDown.C39_count_state",
    "Shadow.Latch.CountDown.C39_count_no_panic",
    "Shadow.Latch.CountDown.C39_count_wake_partial",
    "Shadow.Latch.CountDown.C39_count_notify",
    "Shadow.Latch.CountDown.C39_count_look",
    "Shadow.Latch.CountDown.C39_count_current",
    "Shadow.Latch.CountDown.C39_count_early",
    "Shadow.Latch.CountDown.C39_count_lost",
    "Shadow.Latch.CountDown.C39_count_no_waiter"
   ],
   "note": "The simple latch is proved in full. For the count-down latch everything is proved but one corner: if all counters were dropped, a waiter that waits again too early is left behind (C39_count_lost). Under the documented contracts. What happens under the mutex is one step."
  },
  {
   "property": "C40",
   "status": "proved",
   "theorems": [
    "Shadow.Steal.C40_rounds",
    "Shadow.Steal.C40_available",
    "Shadow.Steal.C40_one_place",
    "Shadow.Steal.C40_done",
    "Shadow.Steal.C40_no_panic",
    "Shadow.Steal.C40_new",
    "Shadow.Steal.C40_share",
    "Shadow.Steal.C40_own_first",
    "Shadow.Steal.C40_progress",
    "Shadow.Steal.C40_names",
    "Shadow.Steal.C40_outcome",
    "Shadow.Steal.C40_no_hosts",
    "Shadow.Steal.C40_no_threads",
    "Shadow.Steal.C40_lost"
   ],
   "note": "Under the documented contract that the closure iterates to completion. The queues of crossbeam are taken to be linearisable."
  },
  {
   "property": "C41",
   "status": "proved",
   "theorems": [
    "Shadow.IntervalMap.C41_sorted",
    "Shadow.IntervalMap.C41_get",
    "Shadow.IntervalMap.C41_iter_from",
    "Shadow.IntervalMap.C41_total",
    "Shadow.IntervalMap.C41_mutations"
   ],
   "note": "The binary search of the standard library is taken as documented."
  },
  {
   "property": "C42",
   "status": "partial",
   "theorems": [
    "Shadow.Time.simMax_eq",
    "Shadow.Time.emuMax_eq",
    "Shadow.Time.simStart_eq",
    "Shadow.Time.fromC_spec",
    "Shadow.Time.emu_fromC_spec",
    "Shadow.Time.checkedAdd_exact",
    "Shadow.Time.checkedSub_exact",
    "Shadow.Time.checkedMul_exact",
    "Shadow.Time.checkedDivRem_exact",
    "Shadow.Time.saturatingSub_total",
    "Shadow.Time.saturatingAdd_panics_iff",
    "Shadow.Time.saturatingAdd_can_panic",
    "Shadow.Time.saturatingMul_panics_iff",
    "Shadow.Time.saturating_clamps_partial",
    "Shadow.Time.fromUnits_roundtrip",
    "Shadow.Time.parts_recompose",
    "Shadow.Time.tryFromTimespec_exact",
    "Shadow.Time.timespec_roundtrip",
    "Shadow.Time.timeval_roundtrip",
    "Shadow.Time.timeParts_exact",
    "Shadow.Time.emu_checkedAdd_exact",
    "Shadow.Time.emu_checkedSub_exact",
    "Shadow.Time.emu_checkedDurationSince_exact",
    "Shadow.Time.emu_add_sub_roundtrip",
    "Shadow.Time.abs_simtime_roundtrip",
    "Shadow.Time.emu_saturatingAdd_clamps",
    "Shadow.Time.emu_saturatingSub_can_increase",
    "Shadow.Time.emu_saturatingSub_spec",
    "Shadow.Time.emu_saturatingDurationSince_zero_for_huge",
    "Shadow.Time.emu_saturatingDurationSince_spec"
   ],
   "note": "The saturating operations of SimulationTime do not always clamp: they panic for results in (SIMTIME_MAX, u64::MAX] (proved), so only the partial clamping theorem holds."
  },
  {
   "property": "C43",
   "status": "partial",
   "theorems": [
    "Shadow.Units.C43_convert",
    "Shadow.Units.C43_succeeds_iff",
    "Shadow.Units.C43_no_panic",
    "Shadow.Units.C43_si_panics",
    "Shadow.Units.C43_roundtrip",
    "Shadow.Units.C43_compose",
    "Shadow.Units.C43_nanos",
    "Shadow.Units.C43_refuses_exact"
   ],
   "note": "Exact or refused for every pair of prefixes; a conversion can be refused although the particular value divides (witness), and the general SI prefix type panics for tera/tebi to nano (proved; not used by the configuration). Converting back is the identity whenever it succeeds."
  },
  {
   "property": "C44",
   "status": "proved",
   "theorems": [
    "Shadow.Counter.C44_operate",
    "Shadow.Counter.C44_history",
    "Shadow.Counter.C44_add_counter",
    "Shadow.Counter.C44_sub_counter",
    "Shadow.Counter.C44_add_counter_order",
    "Shadow.Counter.C44_workers",
    "Shadow.Counter.C44_final",
    "Shadow.Counter.C44_display"
   ],
   "note": "Counts are unbounded integers; overflow of i64 is not modelled."
  },
  {
   "property": "C45",
   "status": "proved",
   "theorems": [
    "Shadow.ShMem.C45_block",
    "Shadow.ShMem.C45_disjoint",
    "Shadow.ShMem.C45_alloc_frame",
    "Shadow.ShMem.C45_drop",
    "Shadow.ShMem.C45_reuse",
    "Shadow.ShMem.C45_total",
    "Shadow.ShMem.C45_oversize",
    "Shadow.ShMem.C45_shfree",
    "Shadow.ShMem.C45_drop_then_alloc",
    "Shadow.ShMem.C45_serialize",
    "Shadow.ShMem.C45_handles",
    "Shadow.ShMem.C45_deserialize",
    "Shadow.ShMem.C45_stable"
   ],
   "note": "Addresses of new mappings are arbitrary but do not overlap. Sizes of headers are parameters. A request larger than a chunk follows a null pointer, and shfree gives nothing back (both proved)."
  },
  {
   "property": "C46",
   "status": "proved",
   "theorems": [
    "Shadow.Units.C46_parse_iff",
    "Shadow.Units.C46_roundtrip",
    "Shadow.Units.C46_unambiguous",
    "Shadow.Units.C46_all",
    "Shadow.Units.C46_meaning",
    "Shadow.Units.C46_si_meaning"
   ],
   "note": ""
  },
  {
   "property": "C47",
   "status": "proved",
   "theorems": [
    "Shadow.Tcp.C47_writable",
    "Shadow.Tcp.C47_readable",
    "Shadow.Tcp.C47_flags",
    "Shadow.Tcp.C47_listening"
   ],
   "note": "Reads into a writer that can take all bytes."
  },
  {
   "property": "C48",
   "status": "proved",
   "theorems": [
    "Shadow.Tcp.C48_error",
    "Shadow.Tcp.C48_calls"
   ],
   "note": ""
  },
  {
   "property": "C49",
   "status": "proved",
   "theorems": [
    "Shadow.Pool.Unbounded.C49_once",
    "Shadow.Pool.Unbounded.C49_prefix",
    "Shadow.Pool.Unbounded.C49_isolated",
    "Shadow.Pool.Unbounded.C49_rest",
    "Shadow.Pool.Unbounded.C49_held",
    "Shadow.Pool.Unbounded.C49_no_panic",
    "Shadow.Pool.Unbounded.C49_result",
    "Shadow.Pool.Unbounded.C49_refused",
    "Shadow.Pool.Unbounded.C49_crashed",
    "Shadow.Pool.Unbounded.C49_join",
    "Shadow.Pool.Unbounded.C49_returns"
   ],
   "note": "Built on the latch models of C39. The number of threads fits a usize. That a panicking task unwinds through the thread is Rust semantics and is modelled as the steps of work_loop that the unwinding runs. C49_returns gives a path of steps of the pool without spurious wake-ups; with a fair scheduler that path is taken."
  },
  {
   "property": "C50",
   "status": "partial",
   "theorems": [
    "Shadow.Signal.C50_lowest",
    "Shadow.Signal.C50_exact",
    "Shadow.Signal.C50_unblocked",
    "Shadow.Signal.C50_accept",
    "Shadow.Signal.C50_accept_thread",
    "Shadow.Signal.C50_wake",
    "Shadow.Signal.C50_thread_awake",
    "Shadow.Signal.C50_single_awake",
    "Shadow.Signal.C50_order",
    "Shadow.Signal.C50_restores",
    "Shadow.Signal.C50_restart",
    "Shadow.Signal.C50_no_panic",
    "Shadow.Signal.C50_mask",
    "Shadow.Signal.C50_action",
    "Shadow.Signal.C50_altstack",
    "Shadow.Signal.C50_exec",
    "Shadow.Signal.C50_finding_kill_blocked",
    "Shadow.Signal.C50_finding_realtime",
    "Shadow.Signal.C50_finding_stop",
    "Shadow.Signal.C50_finding_retarget",
    "Shadow.Signal.C50_finding_ignore_pending",
    "Shadow.Signal.C50_finding_clone_mask",
    "Shadow.Signal.C50_finding_exec_realtime"
   ],
   "note": "Everything stated is proved. Partial because with several threads a signal of the process may stay pending while a thread that would accept it sleeps (C50_finding_retarget) and because of two panics (C50_no_panic gives the exact cases). The context switches of the handlers and the siginfo beyond its number and a tag are not modelled."
  },
  {
   "property": "C51",
   "status": "proved",
   "theorems": [
    "Shadow.IoVec.C51_read",
    "Shadow.IoVec.C51_read_exact",
    "Shadow.IoVec.C51_write",
    "Shadow.IoVec.C51_write_all",
    "Shadow.IoVec.C51_written",
    "Shadow.IoVec.C51_no_panic",
    "Shadow.IoVec.C51_round_trip"
   ],
   "note": "The memory of the program is a function from addresses to bytes, with no byte where an access faults; process_vm_readv and process_vm_writev are taken to copy a contiguous range as a whole or to fail, as memory_copier.rs does. The sum of the lengths wraps at 2^64, as in a release build."
  },
  {
   "property": "C52",
   "status": "proved",
   "theorems": [
    "Shadow.Udp.C52_push_in",
    "Shadow.Udp.C52_pull_out",
    "Shadow.Udp.C52_send",
    "Shadow.Udp.C52_send_ok",
    "Shadow.Udp.C52_recv",
    "Shadow.Udp.C52_peek",
    "Shadow.Udp.C52_bind",
    "Shadow.Udp.C52_connect",
    "Shadow.Udp.C52_close",
    "Shadow.Udp.C52_invariant",
    "Shadow.Udp.C52_fifo",
    "Shadow.Udp.C52_stable",
    "Shadow.Udp.C52_peer_only",
    "Shadow.Udp.C52_limit",
    "Shadow.Udp.C52_fresh",
    "Shadow.Udp.C52_wake_writer",
    "Shadow.Udp.C52_wake_reader",
    "Shadow.Udp.C52_drain",
    "Shadow.Udp.C52_integrity",
    "Shadow.Udp.C52_sockname",
    "Shadow.Udp.C52_finding_sockname",
    "Shadow.Udp.C52_finding_empty_datagrams",
    "Shadow.Udp.C52_finding_shutdown",
    "Shadow.Udp.C52_finding_stale_writable",
    "Shadow.Udp.C52_finding_any_destination",
    "Shadow.Udp.C52_finding_before_connect"
   ],
   "note": "The result of associate_socket (C15, C16) is an argument of the calls. After close only the interface calls the socket. The writable flag is exact as long as the size of the send buffer is not changed (C52_fresh and C52_finding_stale_writable). ioctl, getsockopt and the time stamps are not modelled beyond the buffer sizes and the time of the last packet."
  },
  {
   "property": "C53",
   "status": "proved",
   "theorems": [
    "Shadow.Listen.C53_ids",
    "Shadow.Listen.C53_handles",
    "Shadow.Listen.C53_no_panic",
    "Shadow.Listen.C53_delivery",
    "Shadow.Listen.C53_complete",
    "Shadow.Listen.C53_filter",
    "Shadow.Listen.C53_legacy_filter",
    "Shadow.Listen.C53_not_missed",
    "Shadow.Listen.C53_one_bit",
    "Shadow.Listen.C53_legacy_add",
    "Shadow.Listen.C53_legacy_remove",
    "Shadow.Listen.C53_finding_after_drop",
    "Shadow.Listen.C53_finding_spurious"
   ],
   "note": "A source has fewer than 2^32 listeners. What a callback does is any sequence of actions. A callback that is queued runs although its handle was dropped in between, and OffToOn for several bits is also called when one of them goes while another stays (both proved)."
  },
  {
   "property": "C54",
   "status": "proved",
   "theorems": [
    "Shadow.Procs.C54_wait",
    "Shadow.Procs.C54_wait_panics",
    "Shadow.Procs.C54_status",
    "Shadow.Procs.C54_setsid",
    "Shadow.Procs.C54_setpgid",
    "Shadow.Procs.C54_pids",
    "Shadow.Procs.C54_status_kept",
    "Shadow.Procs.C54_zombie",
    "Shadow.Procs.C54_once",
    "Shadow.Procs.C54_tree",
    "Shadow.Procs.C54_wake",
    "Shadow.Procs.C54_groups",
    "Shadow.Procs.C54_exit",
    "Shadow.Procs.C54_fork",
    "Shadow.Procs.C54_no_panic",
    "Shadow.Procs.C54_physical",
    "Shadow.Procs.C54_physical_ok",
    "Shadow.Procs.C54_finding_int_min",
    "Shadow.Procs.C54_finding_pidfd",
    "Shadow.Procs.C54_finding_lost_wakeup",
    "Shadow.Procs.C54_finding_setpgid",
    "Shadow.Procs.C54_finding_waitid_no_event",
    "Shadow.Procs.C54_finding_late",
    "Shadow.Procs.C54_group_waits_go_stale"
   ],
   "note": "Fewer than 2^31 thread ids. What the processes do, their programs, memory and other threads is arbitrary. C54_no_panic and C54_wait_panics give the exact panics. The wake-up is proved for waits for any or a given child that sends SIGCHLD (children of other kinds: C54_finding_lost_wakeup). A stray event after the exit can drop a zombie whose parent has meanwhile ignored SIGCHLD (C54_finding_late)."
  },
  {
   "property": "C55",
   "status": "proved",
   "theorems": [
    "Shadow.Unix.C55_calls",
    "Shadow.Unix.C55_history",
    "Shadow.Unix.C55_end",
    "Shadow.Unix.C55_in_flight",
    "Shadow.Unix.C55_bits",
    "Shadow.Unix.C55_waits",
    "Shadow.Unix.C55_links",
    "Shadow.Unix.C55_names",
    "Shadow.Unix.C55_queued",
    "Shadow.Unix.F55_self_send",
    "Shadow.Unix.F55_self_connect",
    "Shadow.Unix.F55_half_send",
    "Shadow.Unix.F55_lost_note",
    "Shadow.Unix.F55_lost_room",
    "Shadow.Unix.F55_busy",
    "Shadow.Unix.F55_not_writable",
    "Shadow.Unix.F55_stranger"
   ],
   "note": "Every call refines a specification without counters, listeners and callbacks (C55_calls, with the table Spec.Does). The exceptions (Spec.Bad) are proved to panic or to lose data. A new datagram socket is not shown as writable (F55_not_writable), and a packet that needs more room than is left waits for a bit that is set (F55_busy). shutdown, ioctl, getsockopt and SO_PEERCRED are not modelled."
  },
  {
   "property": "C56",
   "status": "proved",
   "theorems": [
    "Shadow.Files.C56_no_panic",
    "Shadow.Files.C56_open",
    "Shadow.Files.C56_exists",
    "Shadow.Files.C56_function",
    "Shadow.Files.C56_calls",
    "Shadow.Files.C56_clone",
    "Shadow.Files.C56_exec",
    "Shadow.Files.C56_exit",
    "Shadow.Files.C56_gone",
    "Shadow.Files.C56_last",
    "Shadow.Files.C56_enabled"
   ],
   "note": "Which free number a new descriptor gets is C21. Files of C code and their own counter are not modelled. The model is of a release build: with debug assertions, a descriptor that does not fit into the table is dropped with a panic instead of being closed. close_range accepts any flags for a range above the largest descriptor."
  },
  {
   "property": "C57",
   "status": "partial",
   "theorems": [
    "Shadow.MemMap.C57_calls",
    "Shadow.MemMap.C57_panics",
    "Shadow.MemMap.C57_brk_result",
    "Shadow.MemMap.C57_heap",
    "Shadow.MemMap.C57_file_length",
    "Shadow.MemMap.C57_ptr",
    "Shadow.MemMap.C57_ptr_iff",
    "Shadow.MemMap.C57_read",
    "Shadow.MemMap.C57_no_leak",
    "Shadow.MemMap.C57_drop",
    "Shadow.MemMap.C57_start",
    "Shadow.MemMap.C57_history",
    "Shadow.MemMap.C57_mremap_part_panics",
    "Shadow.MemMap.C57_mremap_heap_panics",
    "Shadow.MemMap.C57_mremap_protected_panics",
    "Shadow.MemMap.C57_mremap_zero_panics",
    "Shadow.MemMap.C57_brk_unaligned_panics",
    "Shadow.MemMap.C57_brk_all_panics",
    "Shadow.MemMap.C57_brk_blocked_panics",
    "Shadow.MemMap.C57_brk_replaces",
    "Shadow.MemMap.C57_brk_protected_panics",
    "Shadow.MemMap.C57_write_protected_panics",
    "Shadow.MemMap.C57_stale_bytes",
    "Shadow.MemMap.C57_munmap_part_panics",
    "Shadow.MemMap.C57_mprotect_empty_panics",
    "Shadow.MemMap.C57_mprotect_failed"
   ],
   "note": "Everything is proved for calls whose addresses and lengths are whole pages and for brk into free space (Legal). For other lengths it is false: bytes are left over (C57_stale_bytes), Shadow faults on memory that is gone (C57_munmap_part_panics). An mprotect that fails half way and a first brk over a mapping break the agreement too (witnesses). C57_panics names the calls that stop Shadow exactly. The kernel is modelled at the level of bytes; the addresses it chooses are arbitrary but free."
  },
  {
   "property": "C58",
   "status": "proved",
   "theorems": [
    "Shadow.Lazy.C58_once",
    "Shadow.Lazy.C58_no_panic",
    "Shadow.Lazy.C58_read",
    "Shadow.Lazy.C58_progress",
    "Shadow.Lazy.C58_returns",
    "Shadow.Lazy.C58_drop",
    "Shadow.Lazy.C58_after_panic"
   ],
   "note": "The memory model is reduced to one fact: whether the write of the value happened before (an acquire access of a value stored by a release access of a thread that sees it). The initializer is arbitrary code that returns or panics; if it panics, no request ever returns (C58_after_panic)."
  },
  {
   "property": "C59",
   "status": "proved",
   "theorems": [
    "Shadow.TlsMap.C59_map",
    "Shadow.TlsMap.C59_panics",
    "Shadow.TlsMap.C59_remove_held",
    "Shadow.TlsMap.C59_insert_alone",
    "Shadow.TlsMap.C59_indexes",
    "Shadow.TlsMap.C59_drop",
    "Shadow.TlsMap.C59_fork",
    "Shadow.TlsMap.C59_full_too_early"
   ],
   "note": "The contract of the unsafe functions is the hypothesis allowed. The initializer of get_or_insert_with does not use the table. An insertion can panic although the table is never full (C59_full_too_early); without interference it finds a vacant slot (C59_insert_alone)."
  },
  {
   "property": "C60",
   "status": "partial",
   "theorems": [
    "Shadow.Rooted.C60_refs",
    "Shadow.Rooted.C60_once",
    "Shadow.Rooted.C60_tags",
    "Shadow.Rooted.C60_overflow_frees",
    "Shadow.Rooted.Cell.C60_cell",
    "Shadow.Rooted.Cell.C60_sent_guard"
   ],
   "note": "Proved for fewer than 2^32 references or guards per object (any number in a debug build) and for guards that stay in their thread. It is false otherwise: with more references the count wraps and memory in use is freed (C60_overflow_frees), and a guard given to another thread loses updates of the count, so that a writer and a reader exist together (C60_sent_guard). RootedCell is not modelled."
  },
  {
   "property": "C61",
   "status": "proved",
   "theorems": [
    "Shadow.PidWatch.C61_callbacks",
    "Shadow.PidWatch.C61_awake",
    "Shadow.PidWatch.C61_round",
    "Shadow.PidWatch.C61_stale_event",
    "Shadow.PidWatch.C61_reregister"
   ],
   "note": "The kernel is trusted to report a watched process that has exited until its descriptor is removed. Callbacks do not call the watcher. Handles do not overflow. The contract forbids one documented use, unregistering a callback after its process: it can make the watcher thread panic (C61_stale_event). So can a process id that is registered again too early (C61_reregister)."
  },
  {
   "property": "C62",
   "status": "proved",
   "theorems": [
    "Shadow.Pool.Bounded.C62_once",
    "Shadow.Pool.Bounded.C62_prefix",
    "Shadow.Pool.Bounded.C62_isolated",
    "Shadow.Pool.Bounded.C62_rest",
    "Shadow.Pool.Bounded.C62_one_per_processor",
    "Shadow.Pool.Bounded.C62_processor",
    "Shadow.Pool.Bounded.C62_bounded",
    "Shadow.Pool.Bounded.C62_no_idle",
    "Shadow.Pool.Bounded.C62_held",
    "Shadow.Pool.Bounded.C62_no_panic",
    "Shadow.Pool.Bounded.C62_result",
    "Shadow.Pool.Bounded.C62_refused",
    "Shadow.Pool.Bounded.C62_crashed",
    "Shadow.Pool.Bounded.C62_join",
    "Shadow.Pool.Bounded.C62_affinity",
    "Shadow.Pool.Bounded.C62_unpinned",
    "Shadow.Pool.Bounded.C62_returns"
   ],
   "note": "Built on the latch model of C39. The number of threads fits a usize and there is a processor if there is a thread. A thread is pinned only when another processor takes it (C62_unpinned). C62_returns gives a path of steps of the pool without spurious wake-ups; with a fair scheduler that path is taken. thread_per_host.rs itself is not modelled."
  },
  {
   "property": "C63",
   "status": "proved",
   "theorems": [
    "Shadow.Pcap.C63_packet_bytes",
    "Shadow.Pcap.C63_packet_too_long",
    "Shadow.Pcap.C63_capture_file",
    "Shadow.Pcap.C63_capture_errors",
    "Shadow.Pcap.C63_time",
    "Shadow.Pcap.C63_capture_panics",
    "Shadow.Pcap.C63_two_writers",
    "Shadow.Pcap.C63_loopback_twice"
   ],
   "note": "The specification is a reader of libpcap files and of IPv4, TCP and UDP headers. The buffer of BufWriter is not modelled: the bytes are those the writer accepted. The ECE and CWR bits, which Shadow uses for other purposes, are not shown; checksums are zero and the selective acknowledgement and time stamp options are left out, as in the code. A packet of more than 65535 bytes panics (C63_capture_panics)."
  },
  {
   "property": "C64",
   "status": "proved",
   "theorems": [
    "Shadow.Pcap.Legacy.C64_header",
    "Shadow.Pcap.Legacy.C64_too_many",
    "Shadow.Pcap.Legacy.C64_rtt",
    "Shadow.Pcap.Legacy.C64_finding_stamps_stop",
    "Shadow.Pcap.Legacy.C64_append",
    "Shadow.Pcap.Legacy.C64_size",
    "Shadow.Pcap.Legacy.C64_copy",
    "Shadow.Pcap.Legacy.C64_copy_ok",
    "Shadow.Pcap.Legacy.C64_pieces",
    "Shadow.Pcap.Legacy.C64_order",
    "Shadow.Pcap.Legacy.C64_finding_wrap"
   ],
   "note": "Packets are values: reference counts and pointers are not modelled. A write into the program memory that faults writes nothing of that chunk (C51). After 2^32 ms of simulated time all time stamps are equal (C64_finding_stamps_stop), and the order of packets does not follow sequence numbers that wrap (C64_finding_wrap)."
  },
  {
   "property": "C65",
   "status": "proved",
   "theorems": [
    "Shadow.Ipc.C65_serial",
    "Shadow.Ipc.C65_one_runs",
    "Shadow.Ipc.C65_starting",
    "Shadow.Ipc.C65_exit",
    "Shadow.Ipc.C65_parked",
    "Shadow.Ipc.C65_calls",
    "Shadow.Ipc.C65_counts",
    "Shadow.Ipc.C65_no_panic",
    "Shadow.Ipc.C65_lock",
    "Shadow.Ipc.C65_shim_time",
    "Shadow.Ipc.C65_time",
    "Shadow.Ipc.C65_progress",
    "Shadow.Ipc.C65_hung",
    "Shadow.Ipc.C65_example",
    "Shadow.Ipc.C65_serial_example",
    "Shadow.Ipc.C65_parked_example",
    "Shadow.Ipc.C65_finding_spawn",
    "Shadow.Ipc.C65_finding_native",
    "Shadow.Ipc.C65_finding_child",
    "Shadow.Ipc.C65_finding_lock",
    "Shadow.Ipc.C65_finding_clone_wrapper"
   ],
   "note": "The handler, the kernel and the programs are arbitrary. A channel is one slot with a flag (C37 is about its atomics); choosing signals is C50. C65_no_panic and C65_progress name the exceptions exactly, and each is shown to happen. A native clone is trapped by seccomp (contract; see C65_finding_clone_wrapper). Contents of the memory blocks of the start event are not modelled."
  },
  {
   "property": "C66",
   "status": "proved",
   "theorems": [
    "Shadow.Calls.C66_calls",
    "Shadow.Calls.C66_prefix",
    "Shadow.Calls.C66_once",
    "Shadow.Calls.C66_counters",
    "Shadow.Calls.C66_no_panic",
    "Shadow.Calls.C66_delivered",
    "Shadow.Calls.C66_time",
    "Shadow.Calls.C66_example",
    "Shadow.Calls.C66_delivered_example",
    "Shadow.Calls.C66_interrupted_example",
    "Shadow.Calls.C66_spec_example",
    "Shadow.Calls.C66_finding_number",
    "Shadow.Calls.C66_finding_number_example",
    "Shadow.Calls.C66_finding_signal",
    "Shadow.Calls.C66_finding_count"
   ],
   "note": "The bodies of the handlers are arbitrary. Times are natural numbers. That a woken thread has a satisfied condition is the contract of this model (it is C67). A call number that does not fit 32 bits panics (C66_finding_number), and num_syscalls does not count interrupted calls (C66_finding_count)."
  },
  {
   "property": "C67",
   "status": "proved",
   "theorems": [
    "Shadow.Wake.C67_wake",
    "Shadow.Wake.C67_once",
    "Shadow.Wake.C67_lost",
    "Shadow.Wake.C67_deliver",
    "Shadow.Wake.C67_time",
    "Shadow.Wake.C67_timeout",
    "Shadow.Wake.C67_signal",
    "Shadow.Wake.C67_refs",
    "Shadow.Wake.C67_no_panic",
    "Shadow.Wake.C67_odd",
    "Shadow.Wake.C67_pends",
    "Shadow.Wake.C67_example",
    "Shadow.Wake.C67_deliver_example",
    "Shadow.Wake.C67_timeout_example",
    "Shadow.Wake.C67_signal_example",
    "Shadow.Wake.C67_stale",
    "Shadow.Wake.C67_exec_panics",
    "Shadow.Wake.C67_exec_twice",
    "Shadow.Wake.C67_signal_waits"
   ],
   "note": "One host; tasks of equal time run in the order in which they were queued (C04); deferred notifications are C53, the tasks inside a timer C26. A futex or child wait is taken for ready whenever its wakeup runs, as in the code. The exceptions are in the theorems: a wakeup that an execve left behind can resume the thread of the new program (C67_stale), two execve calls at a time end in a panic (C67_exec_panics) or in the wrong program (C67_exec_twice), and a signal waits for the delay of a held result (C67_signal_waits)."
  },
  {
   "property": "C68",
   "status": "proved",
   "theorems": [
    "Shadow.Tally.C68_tally",
    "Shadow.Tally.C68_report",
    "Shadow.Tally.C68_fast",
    "Shadow.Tally.C68_timeout",
    "Shadow.Tally.C68_example",
    "Shadow.Tally.C68_stale",
    "Shadow.Tally.C68_sacked_reported"
   ],
   "note": "Sequence numbers do not reach 2^32. The specification (Hist) keeps plain sets of numbers. Selectively acknowledged packets leave the report only when it is computed again (C68_sacked_reported), and acknowledged packets may stay in it (C68_stale); both are in the statement."
  },
  {
   "property": "C69",
   "status": "proved",
   "theorems": [
    "Shadow.CTcp.C69_stream",
    "Shadow.CTcp.C69_eof",
    "Shadow.CTcp.C69_acks",
    "Shadow.CTcp.C69_ok",
    "Shadow.CTcp.C69_send",
    "Shadow.CTcp.C69_recv",
    "Shadow.CTcp.ex_stream",
    "Shadow.CTcp.ex_timeout"
   ],
   "note": "One connection; a listener is modelled by the child it makes for this client. Fewer than 2^32 packets. Time and congestion control are parameters. No resets (nobody in Shadow sends them). The tally is the model of C68."
  },
  {
   "property": "C70",
   "status": "partial",
   "theorems": [
    "Shadow.CTcp.C70_kept",
    "Shadow.CTcp.C70_timer",
    "Shadow.CTcp.C70_timeout",
    "Shadow.CTcp.ex_timeout",
    "Shadow.CTcp.C70_stuck_forever",
    "Shadow.CTcp.C70_stuck_reached",
    "Shadow.CTcp.C70_fin_not_resent",
    "Shadow.CTcp.C70_undelivered",
    "Shadow.CTcp.C70_copy_unanswered"
   ],
   "note": "The first three claims are proved for all executions (C70_kept, C70_timer, C70_timeout). The last sentence, that everything arrives in the end, is false of the code: a packet acknowledged while its retransmission waits is never cleared and then no FIN is ever sent (C70_stuck_forever, for all continuations, reached by C70_stuck_reached); a lost FIN is not sent again (C70_fin_not_resent); data in order stays behind a copy of an older packet (C70_undelivered); a copy of delivered data is not acknowledged again (C70_copy_unanswered)."
  },
  {
   "property": "C71",
   "status": "proved",
   "theorems": [
    "Shadow.Graph.C71_parse",
    "Shadow.Graph.C71_shortest",
    "Shadow.Graph.C71_direct",
    "Shadow.Graph.C71_deterministic",
    "Shadow.Graph.C71_symmetric",
    "Shadow.Graph.C71_triangle",
    "Shadow.Graph.C71_range",
    "Shadow.Graph.C71_smallest",
    "Shadow.Graph.C71_example_parse",
    "Shadow.Graph.C71_example_directed",
    "Shadow.Graph.C71_example_undirected",
    "Shadow.Graph.C71_example_direct",
    "Shadow.Graph.C71_finding_panic",
    "Shadow.Graph.C71_finding_loss",
    "Shadow.Graph.C71_finding_loss_example"
   ],
   "note": "The text is already parsed. petgraph is not in the repository: its algorithm is modelled with arbitrary orders of edges and of equal entries of the heap. f32 is rounding by any monotone function that keeps 0 and 1. Sums of latencies below 2^64. Unconnected nodes in use panic (C71_finding_panic); losses below the resolution near 1 vanish on shortest paths (C71_finding_loss)."
  },
  {
   "property": "C72",
   "status": "proved",
   "theorems": [
    "Shadow.Poll.C72_result",
    "Shadow.Poll.C72_time",
    "Shadow.Poll.C72_forever",
    "Shadow.Poll.C72_wake",
    "Shadow.Poll.C72_expire",
    "Shadow.Poll.C72_clean",
    "Shadow.Poll.C72_sleep",
    "Shadow.Poll.C72_safe",
    "Shadow.Poll.C72_millis",
    "Shadow.Poll.C72_select",
    "Shadow.Poll.C72_args",
    "Shadow.Poll.C72_twice_deaf",
    "Shadow.Poll.C72_closed_deaf",
    "Shadow.Poll.C72_inactive_silent",
    "Shadow.Poll.C72_longer",
    "Shadow.Poll.C72_stale_bit",
    "Shadow.Poll.C72_wrap_panics",
    "Shadow.Poll.C72_select_zero"
   ],
   "note": "One thread; files, descriptors, signals and the clock change around it in any way that the contract allows. Timeouts below 2^64 ns. Each condition of the statement is needed: an entry listed twice (C72_twice_deaf), a file closed (C72_closed_deaf), descriptors changed (C72_longer), signals taken (C72_stale_bit). Files that are inactive say nothing (C72_inactive_silent); a huge timeout stops the simulation (C72_wrap_panics)."
  },
  {
   "property": "C73",
   "status": "proved",
   "theorems": [
    "Shadow.Sleep.C73_exact",
    "Shadow.Sleep.C73_interrupted",
    "Shadow.Sleep.C73_errors",
    "Shadow.Sleep.C73_wake",
    "Shadow.Sleep.C73_safe",
    "Shadow.Sleep.C73_getitimer",
    "Shadow.Sleep.C73_setitimer",
    "Shadow.Sleep.C73_alarm",
    "Shadow.Sleep.C73_rem_missing",
    "Shadow.Sleep.C73_sleep_panics",
    "Shadow.Sleep.C73_wake_panics",
    "Shadow.Sleep.C73_getitimer_zero",
    "Shadow.Sleep.C73_setitimer_alias",
    "Shadow.Sleep.C73_setitimer_old_on_error",
    "Shadow.Sleep.C73_setitimer_panics",
    "Shadow.Sleep.C73_alarm_half"
   ],
   "note": "Sums with the clock fit into it (else C73_sleep_panics, C73_wake_panics, C73_setitimer_panics). The remaining time is written if the call had begun to sleep (C73_rem_missing). The pointers of setitimer differ (C73_setitimer_alias). The timer is the model of C26, whose theorems say when it expires, without processor delays."
  },
  {
   "property": "C74",
   "status": "proved",
   "theorems": [
    "Shadow.Reno.C74_bounds",
    "Shadow.Reno.C74_first",
    "Shadow.Reno.C74_slow",
    "Shadow.Reno.C74_avoid",
    "Shadow.Reno.C74_threshold",
    "Shadow.Reno.C74_loss",
    "Shadow.Reno.C74_timeout",
    "Shadow.Reno.C74_batch",
    "Shadow.Reno.C74_dups_accumulate",
    "Shadow.Reno.C74_timeout_raises",
    "Shadow.Reno.C74_ack_shrinks"
   ],
   "note": "Acknowledged packets and duplicates of the connection sum up to less than 2^31 - 11 (guint and gint32 do not wrap). The window is in packets, as in the code. Three findings: duplicates that are far apart count as a loss (C74_dups_accumulate), a timeout can raise the window (C74_timeout_raises), and the acknowledgement after it lower it (C74_ack_shrinks)."
  },
  {
   "property": "C75",
   "status": "proved",
   "theorems": [
    "Shadow.Rto.C75_exact",
    "Shadow.Rto.C75_safe",
    "Shadow.Rto.C75_backoff",
    "Shadow.Rto.C75_estimate",
    "Shadow.Rto.C75_samples",
    "Shadow.Rto.C75_too_short",
    "Shadow.Rto.C75_forgets",
    "Shadow.Rto.C75_overflow",
    "Shadow.Rto.runs"
   ],
   "note": "Time does not pass an event (C01), time stamps come from the past, sums of times do not wrap; the autotuning of buffers by round trips is not modelled. For constant round trips the rounding makes the timeout no longer than the round trip (C75_too_short); below 8 ms the estimate sinks to zero (C75_forgets); very long round trips overflow (C75_overflow)."
  },
  {
   "property": "C76",
   "status": "proved",
   "theorems": [
    "Shadow.PrioQ.C76_safe",
    "Shadow.PrioQ.C76_queue",
    "Shadow.PrioQ.C76_sorted",
    "Shadow.PrioQ.exec_hist"
   ],
   "note": "Keys do not change while elements are queued. The hash table of glib is a finite map; indices are natural numbers. Elements of equal keys come in any order."
  },
  {
   "property": "C77",
   "status": "proved",
   "theorems": [
    "Shadow.EpollWait.C77_result",
    "Shadow.EpollWait.C77_collects",
    "Shadow.EpollWait.C77_waits",
    "Shadow.EpollWait.C77_prompt",
    "Shadow.EpollWait.C77_frame",
    "Shadow.EpollWait.C77_safe",
    "Shadow.EpollWait.C77_args",
    "Shadow.EpollWait.C77_lost",
    "Shadow.EpollWait.C77_closed",
    "Shadow.EpollWait.C77_lost_example",
    "Shadow.EpollWait.C77_closed_example",
    "Shadow.EpollWait.C77_example"
   ],
   "note": "Any number of threads wait on one epoll object, which is the model of C25; what is ready is the ghost history of C25. All calls use one descriptor number, which others may close or replace. Callbacks are run before other calls, tasks and time (C53). Events that cannot be written are lost (C77_lost), closing the descriptor does not wake a waiting thread (C77_closed), every signal mask is refused (in C77_result)."
  },
  {
   "property": "C78",
   "status": "proved",
   "theorems": [
    "Shadow.SockAddr.C78_bytes",
    "Shadow.SockAddr.C78_write",
    "Shadow.SockAddr.C78_write_none",
    "Shadow.SockAddr.C78_write_msg",
    "Shadow.SockAddr.C78_read",
    "Shadow.SockAddr.C78_roundtrip",
    "Shadow.SockAddr.C78_inet",
    "Shadow.SockAddr.C78_unix",
    "Shadow.SockAddr.C78_path",
    "Shadow.SockAddr.C78_kind",
    "Shadow.SockAddr.C78_len_on_fault",
    "Shadow.SockAddr.C78_negative_room",
    "Shadow.SockAddr.C78_path_unterminated",
    "Shadow.SockAddr.web_is",
    "Shadow.SockAddr.mem_u32"
   ],
   "note": "Memory is a partial map of bytes and a copy fails as a whole (as in C51). Sizes of the structures are those of x86-64 Linux. Three findings: the length is changed although the call fails (C78_len_on_fault), a negative length is room for everything (C78_negative_room), a path without a nul is none (C78_path_unterminated)."
  },
  {
   "property": "C79",
   "status": "proved",
   "theorems": [
    "Shadow.Logger.C79_order",
    "Shadow.Logger.C79_threads",
    "Shadow.Logger.C79_level",
    "Shadow.Logger.C79_flush",
    "Shadow.Logger.C79_error",
    "Shadow.Logger.C79_safe",
    "Shadow.Logger.C79_progress",
    "Shadow.Logger.C79_hang"
   ],
   "note": "Interleaving model with any number of threads. ArrayQueue, mpsc channels and the lock of standard output are trusted to be what they say. Everything but C79_level and C79_hang is about executions in which all writes succeed; a failed write kills the logger thread, and a thread that flushes after that waits for ever (C79_hang). Progress is the existence of an execution of the writing threads alone."
  },
  {
   "property": "C80",
   "status": "proved",
   "theorems": [
    "Shadow.FmtBuf.C80_lossy",
    "Shadow.FmtBuf.C80_write",
    "Shadow.FmtBuf.C80_writes",
    "Shadow.FmtBuf.C80_sprintf",
    "Shadow.FmtBuf.C80_sprintf_fits",
    "Shadow.FmtBuf.C80_read",
    "Shadow.FmtBuf.C80_cut_char",
    "Shadow.FmtBuf.C80_fd",
    "Shadow.FmtBuf.C80_fd_progress",
    "Shadow.FmtBuf.boundary_iff",
    "Shadow.FmtBuf.Lossy.unique"
   ],
   "note": "The encoding of a character is that of the Lean core library (a Unicode scalar value, as in Rust). vsnprintf is trusted. Reading memory that was not written is an error in the model. A text that is too long for sprintf may end with a replacement that was not in it (C80_cut_char)."
  },
  {
   "property": "C81",
   "status": "proved",
   "theorems": [
    "Shadow.ProcMaps.C81_read",
    "Shadow.ProcMaps.C81_unique",
    "Shadow.ProcMaps.C81_sound",
    "Shadow.ProcMaps.C81_space",
    "Shadow.ProcMaps.C81_file",
    "Shadow.ProcMaps.C81_blank",
    "Shadow.ProcMaps.C81_other",
    "Shadow.ProcMaps.C81_one_bad",
    "Shadow.ProcMaps.ex_front",
    "Shadow.ProcMaps.ex_line"
   ],
   "note": "Greedy matching with backtracking and from_str_radix are modelled; that the regex crate does this is trusted. Two kinds of lines that the kernel prints are refused: paths with blanks (C81_blank) and names that begin with neither a slash nor a bracket (C81_other); then the whole file is refused (C81_one_bad)."
  },
  {
   "property": "C82",
   "status": "proved",
   "theorems": [
    "Shadow.Gml.C82_grammar",
    "Shadow.Gml.C82_unique",
    "Shadow.Gml.C82_rest",
    "Shadow.Gml.C82_ids",
    "Shadow.Gml.C82_no_escape",
    "Shadow.Gml.ex_parse",
    "Shadow.Gml.ex_doc"
   ],
   "note": "The combinators of nom are modelled as documented; a float is kept as its text. Errors carry no message. Findings: what follows the closing bracket is not looked at (C82_rest), escapes do not work (C82_no_escape)."
  },
  {
   "property": "C83",
   "status": "proved",
   "theorems": [
    "Shadow.Netlink.C83_order",
    "Shadow.Netlink.C83_answer",
    "Shadow.Netlink.C83_send",
    "Shadow.Netlink.C83_send_effect",
    "Shadow.Netlink.C83_send_refused",
    "Shadow.Netlink.C83_peek",
    "Shadow.Netlink.C83_bind",
    "Shadow.Netlink.C83_bind_other",
    "Shadow.Netlink.C83_sndbuf",
    "Shadow.Netlink.C83_writable",
    "Shadow.Netlink.C83_total",
    "Shadow.Netlink.C83_stuck",
    "Shadow.Netlink.ex_run",
    "Shadow.Netlink.ex_worn",
    "Shadow.Netlink.ex_stuck",
    "Shadow.Netlink.ex_stuck_errors",
    "Shadow.Netlink.ex_sndbuf_state",
    "Shadow.Netlink.ex_bind",
    "Shadow.Netlink.ex_peek",
    "Shadow.Netlink.lib0_faithful",
    "Shadow.Netlink.ex_asks"
   ],
   "note": "The library neli, which reads requests and lays out messages, is a parameter of which only the sequence number is assumed (Lib.Faithful). Findings: room taken by requests is never given back, so that a socket stops sending for good (C83_total, C83_stuck, ex_worn), readiness to send is stale after SO_SNDBUF (ex_sndbuf_state), a bind that fails for its groups binds (C83_bind, ex_bind)."
  },
  {
   "property": "C84",
   "status": "proved",
   "theorems": [
    "Shadow.Sched.C84_history",
    "Shadow.Sched.C84_readback",
    "Shadow.Sched.C84_setscheduler",
    "Shadow.Sched.C84_setparam",
    "Shadow.Sched.C84_get",
    "Shadow.Sched.C84_affinity",
    "Shadow.Sched.C84_rseq",
    "Shadow.Sched.C84_total",
    "Shadow.Sched.C84_not_inherited",
    "Shadow.Sched.C84_mask_rest",
    "Shadow.Sched.ex_page",
    "Shadow.Sched.run1",
    "Shadow.Sched.run2",
    "Shadow.Sched.run3",
    "Shadow.Sched.ex_readback",
    "Shadow.Sched.ex_not_inherited",
    "Shadow.Sched.ex_affinity",
    "Shadow.Sched.ex_rseq"
   ],
   "note": "Memory of a process is a partial map from addresses to bytes. clone and exit only as far as the settings go. Findings: children never get the settings of their parent (C84_not_inherited), sched_getaffinity answers 1 and leaves the rest of the mask as it was (C84_mask_rest)."
  },
  {
   "property": "C85",
   "status": "proved",
   "theorems": [
    "Shadow.Affinity.C85_choice",
    "Shadow.Affinity.C85_none",
    "Shadow.Affinity.C85_even",
    "Shadow.Affinity.C85_core",
    "Shadow.Affinity.C85_own_core",
    "Shadow.Affinity.C85_bind",
    "Shadow.Affinity.C85_bind_all",
    "Shadow.Affinity.C85_parse",
    "Shadow.Affinity.C85_high_number",
    "Shadow.Affinity.C85_last_of_word",
    "Shadow.Affinity.C85_empty_field",
    "Shadow.Affinity.ex_order",
    "Shadow.Affinity.ex_some",
    "Shadow.Affinity.ex_nothing",
    "Shadow.Affinity.ex_num",
    "Shadow.Affinity.ex_output",
    "Shadow.Affinity.ex_parse"
   ],
   "note": "The kernel is a parameter; that it refuses an empty set is assumed in C85_bind_all. Findings: numbers of bytes and of processors are mixed up, so that processors with high numbers are not used (C85_high_number) and the highest cannot be bound if its number is a multiple of 64, in particular on a machine with one processor (C85_bind_all, C85_last_of_word)."
  },
  {
   "property": "C86",
   "status": "proved",
   "theorems": [
    "Shadow.RangeList.C86_list",
    "Shadow.RangeList.C86_next",
    "Shadow.RangeList.C86_count",
    "Shadow.RangeList.C86_packages",
    "Shadow.RangeList.C86_many",
    "Shadow.RangeList.ex_list",
    "Shadow.RangeList.ex_bad",
    "Shadow.RangeList.ex_ranges",
    "Shadow.RangeList.ex_count"
   ],
   "note": "Files under /sys are parameters. Findings: cores of different packages are counted once (C86_packages); processors from 1024 on make the simulator fail (C86_many)."
  },
  {
   "property": "C87",
   "status": "proved",
   "theorems": [
    "Shadow.ShmClean.C87_name",
    "Shadow.ShmClean.C87_safe",
    "Shadow.ShmClean.C87_all",
    "Shadow.ShmClean.C87_other_namespace",
    "Shadow.ShmClean.ex_name",
    "Shadow.ShmClean.ex_all",
    "Shadow.ShmClean.ex_goesOn",
    "Shadow.ShmClean.ex_again",
    "Shadow.ShmClean.ex_late"
   ],
   "note": "Directory reading is modelled entry by entry. Finding: a process in another process name space that shares /dev/shm loses its files (C87_other_namespace)."
  },
  {
   "property": "C88",
   "status": "proved",
   "theorems": [
    "Shadow.Rlimit.C88_prlimit",
    "Shadow.Rlimit.C88_getrlimit",
    "Shadow.Rlimit.C88_setrlimit",
    "Shadow.Rlimit.C88_never",
    "Shadow.Rlimit.C88_native",
    "Shadow.Rlimit.C88_only",
    "Shadow.Rlimit.C88_soft",
    "Shadow.Rlimit.C88_exec",
    "Shadow.Rlimit.C88_pretend",
    "Shadow.Rlimit.ex_kernel",
    "Shadow.Rlimit.ex_base",
    "Shadow.Rlimit.ex_set",
    "Shadow.Rlimit.ex_limAt",
    "Shadow.Rlimit.ex_get"
   ],
   "note": "The kernel is a parameter that is assumed to accept limits it must accept. Findings: execve loses soft limits that were raised (C88_exec); lowered limits have no effect (C88_pretend, which the code says)."
  },
  {
   "property": "C89",
   "status": "proved",
   "theorems": [
    "Shadow.Once.C89_first",
    "Shadow.Once.C89_one",
    "Shadow.Once.C89_ends",
    "Shadow.Once.C89_still",
    "Shadow.Once.C89_line",
    "Shadow.Once.ex_race"
   ],
   "note": "Interleaving model; a step is what happens under a lock or one atomic operation. A thread that panics while it holds the lock is not modelled."
  },
  {
   "property": "C90",
   "status": "proved",
   "theorems": [
    "Shadow.CbQueue.C90_all",
    "Shadow.CbQueue.C90_once",
    "Shadow.CbQueue.C90_order",
    "Shadow.CbQueue.ex_nested"
   ],
   "note": "What a callback does is a program given beforehand, so callbacks that add themselves for ever do not exist. That all callbacks of one queue run in order is proved for callbacks that add none (C90_order)."
  },
  {
   "property": "C91",
   "status": "proved",
   "theorems": [
    "Shadow.Preload.C91_inject",
    "Shadow.Preload.C91_again",
    "Shadow.Preload.C91_chain",
    "Shadow.Preload.C91_separator",
    "Shadow.Preload.C91_two",
    "Shadow.Preload.ex_fit",
    "Shadow.Preload.ex_inject",
    "Shadow.Preload.ex_new",
    "Shadow.Preload.ex_two"
   ],
   "note": "Finding: of several entries LD_PRELOAD= only the first is changed (C91_two), which matters if the loader goes by a later one; the loader is not in the model, and what it does was not checked."
  },
  {
   "property": "C92",
   "status": "proved",
   "theorems": [
    "Shadow.Plugin.C92_interpreter",
    "Shadow.Plugin.C92_accept",
    "Shadow.Plugin.C92_errno",
    "Shadow.Plugin.C92_same",
    "Shadow.Plugin.C92_answer",
    "Shadow.Plugin.C92_loop",
    "Shadow.Plugin.C92_tab",
    "Shadow.Plugin.ex_script",
    "Shadow.Plugin.ex_missing",
    "Shadow.Plugin.ex_checks",
    "Shadow.Plugin.ex_loop"
   ],
   "note": "The file system and the loader are parameters and do not change. Findings: scripts that name each other in a circle are looked at for ever, which exhausts the stack of the simulator (C92_loop); tabs are taken for parts of the path of an interpreter (C92_tab)."
  },
  {
   "property": "C93",
   "status": "proved",
   "theorems": [
    "Shadow.Config.C93_hosts",
    "Shadow.Config.C93_seed",
    "Shadow.Config.C93_accept",
    "Shadow.Config.C93_name",
    "Shadow.Config.C93_name_valid",
    "Shadow.Config.C93_null_level",
    "Shadow.Config.C93_null_seed",
    "Shadow.Config.C93_no_stop",
    "Shadow.Config.C93_big_time",
    "Shadow.Config.C93_name_invalid",
    "Shadow.Config.ex_run"
   ],
   "note": "What serde, clap and the derived Merge do is trusted; the hash, the random generator, parsing of arguments and finding of programs are parameters. Findings: a host cannot opt out of a default log level with null (C93_null_level); a null seed, a missing stop time and times that are too large panic instead of being refused (C93_null_seed, C93_no_stop, C93_big_time); host names with empty or too long elements are taken (C93_name_invalid)."
  },
  {
   "property": "C94",
   "status": "proved",
   "theorems": [
    "Shadow.InsnEmu.C94_match",
    "Shadow.InsnEmu.C94_rdtsc",
    "Shadow.InsnEmu.C94_rdtscp",
    "Shadow.InsnEmu.C94_rate",
    "Shadow.InsnEmu.C94_cpuid",
    "Shadow.InsnEmu.C94_other",
    "Shadow.InsnEmu.C94_own",
    "Shadow.InsnEmu.C94_high_leaf",
    "Shadow.InsnEmu.C94_prefix",
    "Shadow.InsnEmu.ex_rdtscp",
    "Shadow.InsnEmu.ex_cpuid"
   ],
   "note": "What the kernel does at the instructions, the clock and the answers of the processor are parameters. Findings: a leaf beyond the highest one is answered by some processors as the highest, in which case the bit is not hidden (C94_high_leaf); the instructions are not recognised with a redundant prefix, so the program gets SIGSEGV (C94_prefix)."
  },
  {
   "property": "C95",
   "status": "proved",
   "theorems": [
    "Shadow.ShimTls.C95_values",
    "Shadow.ShimTls.C95_key",
    "Shadow.ShimTls.C95_disjoint",
    "Shadow.ShimTls.C95_panic",
    "Shadow.ShimTls.C95_gettid",
    "Shadow.ShimTls.C95_gettid_shared",
    "Shadow.ShimTls.C95_late_pointer",
    "Shadow.ShimTls.ex_values",
    "Shadow.ShimTls.ex_race",
    "Shadow.ShimTls.exL_sizes"
   ],
   "note": "LazyLock and AtomicTlsMap are used as what C58 and C59 show them to be; that libc gives zeroed native storage to a new thread is trusted. The limit of 100 threads in the table is left out. Findings: the mode Gettid does what NativeTlsId does (C95_gettid, C95_gettid_shared); a thread that gets its thread pointer after the first use of a variable loses its values, and leaves them to a later thread with its number (C95_late_pointer)."
  },
  {
   "property": "C96",
   "status": "proved",
   "theorems": [
    "Shadow.Uio.C96_same_file",
    "Shadow.Uio.C96_waits",
    "Shadow.Uio.C96_badf",
    "Shadow.Uio.C96_closed",
    "Shadow.Uio.C96_current",
    "Shadow.Uio.C96_single",
    "Shadow.Uio.C96_offset",
    "Shadow.Uio.C96_blocks",
    "Shadow.Uio.C96_empty",
    "Shadow.Uio.C96_flags",
    "Shadow.Uio.C96_nowait",
    "Shadow.Uio.C96_negative",
    "Shadow.Uio.ex_wait",
    "Shadow.Uio.ex_done"
   ],
   "note": "What files do without an offset, memory, and the C handlers of regular files (taken to answer without waiting) are parameters; one table of descriptors. When a file is closed with its last reference is the meaning of Arc. Findings: the flags of preadv2 and pwritev2 are ignored (C96_flags, C96_nowait); a negative offset of pread64 is ESPIPE where preadv says EINVAL (C96_negative)."
  },
  {
   "property": "C97",
   "status": "proved",
   "theorems": [
    "Shadow.HostSched.C97_rounds",
    "Shadow.HostSched.C97_during",
    "Shadow.HostSched.C97_join",
    "Shadow.HostSched.C97_element",
    "Shadow.HostSched.ex_rounds",
    "Shadow.HostSched.ex_short"
   ],
   "note": "On top of the pool of C62, whose states (Run) are those of all interleavings; what a thread has been given is its list of tasks there. Closures are given by the functions that they pass to for_each and do not panic (a panic of a task is in C62). The data has at least as many elements as there are processors, as documented (else ex_short)."
  },
  {
   "property": "C98",
   "status": "proved",
   "theorems": [
    "Shadow.CopyDir.C98_copy",
    "Shadow.CopyDir.C98_once",
    "Shadow.CopyDir.C98_succeeds",
    "Shadow.CopyDir.C98_modes",
    "Shadow.CopyDir.C98_umask_changes_directories",
    "Shadow.CopyDir.C98_read_only_directory_fails",
    "Shadow.CopyDir.C98_links",
    "Shadow.CopyDir.C98_example",
    "Shadow.CopyDir.C98_tilde_home",
    "Shadow.CopyDir.C98_tilde_user",
    "Shadow.CopyDir.C98_tilde_other",
    "Shadow.CopyDir.C98_tilde_unsupported",
    "Shadow.CopyDir.C98_tilde_double_slash",
    "Shadow.CopyDir.C98_tilde_example"
   ],
   "note": "What the file system and std::fs do is modelled as documented and was not checked; the source can be read and does not change, the target is new and not inside of it; devices, sockets and fifos are left out. Findings: modes of directories lose the bits of the umask although the documentation says that permissions are preserved (C98_umask_changes_directories); a read-only directory with entries cannot be copied without privileges (C98_read_only_directory_fails); links to directories make the copy fail (C98_links); ~//x is /x (C98_tilde_double_slash)."
  },
  {
   "property": "C99",
   "status": "partial",
   "theorems": [
    "Shadow.FdFlags.C99_setfd",
    "Shadow.FdFlags.C99_ioctl_cloexec",
    "Shadow.FdFlags.C99_setfl",
    "Shadow.FdFlags.C99_refused",
    "Shadow.FdFlags.C99_badf",
    "Shadow.FdFlags.C99_fionbio",
    "Shadow.FdFlags.C99_give_back",
    "Shadow.FdFlags.C99_dup",
    "Shadow.FdFlags.C99_stays",
    "Shadow.FdFlags.C99_panic",
    "Shadow.FdFlags.C99_ofd_setlk",
    "Shadow.FdFlags.C99_fionbio_regular",
    "Shadow.FdFlags.C99_example"
   ],
   "note": "All is shown except that no call panics, which is false: F_GETPIPE_SZ on a regular file calls the C handler while the table of descriptors is borrowed, and it is the only one (C99_panic). What the kernel answers for regular files and what files do with their own requests are not modelled. Further findings: F_OFD_SETLK is refused although F_OFD_SETLKW is not (C99_ofd_setlk); FIONBIO is refused on regular files (C99_fionbio_regular)."
  }
 ]
}