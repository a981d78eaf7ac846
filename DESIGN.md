# Formal model of Shadow in Lean 4: design

Source: `/repo` (shadow/shadow, pinned commit), read as text.
Model and proofs: `/verif/lean/Verif/**`.  Property list: `properties.jsonl`.
Status of each property: `MANIFEST.json`.  Mutation log: `seeded/LOG.jsonl`.

## 1. Method

* Each modelled Rust function is a small total Lean function with the same
  branch structure, with a comment citing the file and lines in `/repo`.
* `&mut self` methods return the new state; `assert!`, `unwrap`, `panic!` become
  an explicit `Except`/`Option` failure value, so "does not panic" is a theorem
  rather than something hidden by totalisation.
* Machine integers are `Nat` with explicit bounds where overflow or wrap-around
  matters (`u64` time values, `u32` sequence numbers), plain `Nat` otherwise.
* Random generators, user programs, the OS clock, futex wake-ups and thread
  schedules are universally quantified parameters (oracles), never fixed.
* Each area has a `Model.lean` (the code), a `Props.lean` (independent
  specification and property theorems, each with a non-vacuity example), and
  where proofs are long, helper lemmas in `Lemmas.lean`.
* Concurrent code is a labelled transition system whose atomic steps are the
  atomic memory operations and futex calls of the source; properties are
  invariants over all interleavings.

## 2. Trusted base

* Lean 4.33.0's kernel, and the three standard axioms `propext`,
  `Classical.choice`, `Quot.sound`.  No other axiom, no `sorry`, no
  `native_decide`, no `bv_decide`.  (`#print axioms` on every claimed theorem
  shows a subset of the three.)
* The manual translation from Rust/C to Lean (per-definition comments give the
  source lines and any simplification).
* Rust standard containers (`BinaryHeap`, `BTreeSet`, `HashMap`, `VecDeque`)
  are modelled by their documented abstract behaviour.
* Rust atomics are modelled as sequentially consistent single-word steps; the
  weaker orderings used in the source are not modelled.
* Random generators are arbitrary sequences of values (in the range asked for).
* Floating point (`f64`) is not modelled: CoDel's `INTERVAL/sqrt(count)` is an
  arbitrary function parameter; packet loss is an arbitrary oracle.

### 2.1 Source files

Modelled, wholly or in part (in brackets: the areas of the model that cite the file, and the properties anchored in it; the comments of the
definitions give the lines):

* `src/lib/asm-util/src`: `cpuid.rs` (C94, InsnEmu); `lib.rs` (C94, InsnEmu); `tsc.rs` (C94, InsnEmu)
* `src/lib/formatting-nostd/src`: `borrowed_fd_writer.rs` (C80, FmtBuf); `format_buffer.rs` (C80, FmtBuf); `utf8.rs` (C80, FmtBuf)
* `src/lib/gml-parser/src`: `gml.rs` (C82, Gml, Graph); `lib.rs` (C82); `parser.rs` (C82, Gml)
* `src/lib/linux-api/src`: `bindings.rs` (FdFlags, Prctl, Rlimit, Sched); `errno.rs` (Calls); `fcntl.rs` (C99, FdFlags); `resource.rs` (Rlimit); `sched.rs` (Sched); `signal.rs` (C102, Prctl, Signal)
* `src/lib/scheduler/src`: `logical_processor.rs` (C62, Pool); `thread_per_core.rs` (C40, Steal); `thread_per_host.rs` (C97, HostSched)
* `src/lib/scheduler/src/pools`: `bounded.rs` (C62, C97, Pool); `unbounded.rs` (C49, Pool)
* `src/lib/scheduler/src/sync`: `count_down_latch.rs` (C39, Latch); `simple_latch.rs` (C39, Latch); `thread_parking.rs` (C62, Pool)
* `src/lib/shadow-shim-helper-rs/src`: `emulated_time.rs` (C42, Cpu, Poll, Time); `ipc.rs` (C65, Ipc); `shadow_syscalls.rs` (Ipc); `shim_event.rs` (C65, Ipc); `shim_shmem.rs` (C50, Calls, Signal); `simulation_time.rs` (C42, Pcap, Time)
* `src/lib/shadow-shim-helper-rs/src/rootedcell`: `mod.rs` (C60); `rc.rs` (C60, Rooted); `refcell.rs` (C60, Rooted)
* `src/lib/shim`: `shim_api_addrinfo.c` (C101, NameLookup); `shim_api_syscall.c` (Ipc); `shim_insn_emu.c` (C94, InsnEmu); `shim_sys.c` (C65, Ipc)
* `src/lib/shim/src`: `clone.rs` (C65); `lib.rs` (C65, C94, InsnEmu); `reinit_auxvec_random.rs` (AuxRandom, C104); `signals.rs` (C50, C65, Ipc, Signal); `syscall.rs` (C65, Ipc); `tls.rs` (C95, ShimTls)
* `src/lib/shmem/src`: `allocator.rs` (ShMem); `shmalloc_impl.rs` (C45, C87, ShMem, ShmClean)
* `src/lib/tcp/src`: `buffer.rs` (C31, Tcp); `connection.rs` (C31, C32, C35, C36, Tcp); `lib.rs` (Pcap, Tcp); `seq.rs` (C29, Tcp); `states.rs` (C33, C34, C35, C36, C47, C48, Tcp); `window_scaling.rs` (C30, Tcp)
* `src/lib/vasi-sync/src`: `atomic_tls_map.rs` (C59, TlsMap); `lazy_lock.rs` (C58, Lazy); `scchannel.rs` (C37, Channel, Ipc); `scmutex.rs` (C38, Mutex)
* `src/main`: `shadow.rs` (C87, ShmClean)
* `src/main/core`: `affinity.c` (Affinity, C85); `configuration.rs` (C93, Config, NameLookup); `controller.rs` (C05, C06, C08, Runahead, Sim); `cpu.rs` (C86, RangeList); `definitions.h` (Codel, Rto, TokenBucket, Unix); `manager.rs` (Affinity, C03, C05, C85, C98, Sim); `resource_usage.rs` (C105, MemInfo); `runahead.rs` (C05, C07, C08, Runahead, Sim); `sim_config.rs` (C71, C93, Config, Graph); `sim_stats.rs` (C44, Counter); `worker.rs` (C03, C04, C07, C08, C101, Calls, NameLookup, Relay, Runahead, Sim)
* `src/main/core/logger`: `shadow_logger.rs` (C79, Logger)
* `src/main/core/work`: `event.rs` (C01, Event, Sim); `event_queue.rs` (C01, C02, C03, C04, Event, Poll, Timer)
* `src/main/host`: `cpu.rs` (C09, C10, Cpu); `futex.c` (C28, Futex); `futex_table.rs` (C28, Futex); `host.rs` (C03, C04, C06, C09, C54, C84, Ipc, Procs, Sched, Sim, Timer, Wake); `managed_thread.rs` (C65, C66, C85, C91, C92, Calls, Files, Ipc, Plugin, Preload, Sim); `process.rs` (C102, C50, C54, C66, C67, C88, Calls, Files, Prctl, Procs, Rlimit, Signal, Sleep, Wake); `status_listener.c` (C53, Futex, Listen, Wake); `thread.rs` (C56, C66, C67, C84, Calls, Files, Futex, Ipc, Sched, Signal, Wake); `timer.rs` (C26, C73, EpollWait, Poll, Sleep, Timer, TimerFd, Wake)
* `src/main/host/descriptor`: `descriptor_table.rs` (C21, C56, Fd, Files); `epoll.c` (C72, Poll); `eventfd.rs` (C22, EventFd); `listener.rs` (C53, Epoll, Listen, Unix); `mod.rs` (C56, C96, C99, Epoll, FdFlags, Files, Poll, Uio); `pipe.rs` (C23, Pipe, Uio); `regular_file.c` (C100, MmapFile, Poll); `regular_file.h` (MmapFile); `shared_buf.rs` (C23, C55, C83, Pipe, Unix); `socket.c` (C69, CTcp); `tcp.c` (C69, C70, C75, CTcp, Pcap, Poll, Reno, Rto); `tcp_cong.c` (C74); `tcp_cong.h` (Reno); `tcp_cong_reno.c` (C74, Reno); `tcp_retransmit_tally.h` (C68, Tally); `timerfd.rs` (C27, TimerFd)
* `src/main/host/descriptor/epoll`: `entry.rs` (C25, Epoll); `key.rs` (Epoll); `mod.rs` (C25, C77, Uio)
* `src/main/host/descriptor/socket`: `abstract_unix_ns.rs` (C18, C55, Unix, UnixNs); `netlink.rs` (C83, Netlink); `unix.rs` (C55, C78, SockAddr, Unix, UnixNs)
* `src/main/host/descriptor/socket/inet`: `legacy_tcp.rs` (C69, CTcp); `mod.rs` (NetIface); `udp.rs` (C52, C78, IoVec, SockAddr, Udp)
* `src/main/host/memory_manager`: `memory_copier.rs` (C103, C51, IoVec, NameLookup, Random); `memory_mapper.rs` (C57, C81, MemMap); `mod.rs` (C103, C57, IoVec, MemMap, NameLookup, Pcap, Random)
* `src/main/host/network`: `interface.rs` (C15, C63, NetIface, Pcap); `namespace.rs` (C15, C16, NetIface); `queuing.rs` (C17, NetQueue)
* `src/main/host/syscall`: `condition.rs` (C96, Calls, Files); `io.rs` (ByteQueue, C51, C78, IoVec, SockAddr, Uio); `mod.rs` (Calls); `syscall_condition.c` (C50, C67, C72, C73, C77, Calls, EpollWait, Futex, Poll, Signal, Sleep, Wake); `syscall_condition.h` (Wake); `types.rs` (C66, Calls)
* `src/main/host/syscall/handler`: `clone.rs` (C56, Files, Ipc, Signal); `close_range.rs` (C56, Files); `epoll.rs` (C77, EpollWait); `eventfd.rs` (Files); `fcntl.rs` (C56, C99, FdFlags, Files); `futex.rs` (C28, Futex); `ioctl.c` (FdFlags); `ioctl.rs` (C99, FdFlags); `mman.rs` (C100, MmapFile); `mod.rs` (C66, Calls, EpollWait, Futex, Poll, Signal, Sim, Sleep, Uio); `poll.c` (C72, Poll); `poll.h` (Poll); `prctl.rs` (C102, Prctl); `random.rs` (C103, Random); `resource.rs` (C88, Rlimit); `sched.rs` (C84, Sched); `select.c` (C72, Poll); `shadow.rs` (C101, NameLookup); `signal.rs` (C50, C67, Signal, Wake); `socket.rs` (Files, Unix); `time.rs` (C73, Sleep); `timerfd.rs` (TimerFd); `uio.rs` (C96, Uio); `unistd.rs` (C54, C56, C67, C96, Files, Pipe, Procs, Uio, Wake); `wait.rs` (C54, Procs)
* `src/main/network`: `dns.rs` (C19, Dns, NameLookup); `legacypacket.h` (C64, Pcap); `packet.rs` (C63, C64, CTcp, NetIface, Pcap)
* `src/main/network/graph`: `mod.rs` (C20, C71, Graph, IpAssign)
* `src/main/network/relay`: `mod.rs` (C13, Relay, TokenBucket); `token_bucket.rs` (C11, C12, TokenBucket)
* `src/main/network/router`: `codel_queue.rs` (C14, Codel); `mod.rs` (Codel)
* `src/main/utility`: `byte_queue.rs` (ByteQueue, C24, Unix); `callback_queue.rs` (C53, C90, CbQueue, Epoll, Listen, Pipe); `childpid_watcher.rs` (C61, Ipc, PidWatch); `counter.rs` (C44, Counter); `give.rs` (C63, Pcap); `interval_map.rs` (C41, C57, IntervalMap, MemMap); `legacy_callback_queue.rs` (C90, CbQueue); `macros.rs` (C89, Once, Sched); `mod.rs` (C101, C91, C92, C98, CopyDir, NameLookup, Plugin, Preload); `once_set.rs` (C89, Once); `pcap_writer.rs` (C63, Pcap); `priority_queue.c` (C76, CTcp, PrioQ); `proc_maps.rs` (C81, ProcMaps); `shm_cleanup.rs` (C87, ShmClean); `sockaddr.rs` (C78, SockAddr); `units.rs` (C43, C46, Units)

Not modelled: everything else under `/repo/src`. The Rust files among it (without bindings, tests and `mod.rs`/`lib.rs` files):

* `src/lib/linux-api/src`: auxvec, capability, close_range, epoll, exit, futex, inet, ioctls, ipc, ldt, limits, mman, netlink, poll, posix_types, prctl, rseq, rtnetlink, shm, socket, stat, syscall, sysinfo, time, types, ucontext, unistd, utsname, wait
* `src/lib/shadow-shim-helper-rs/src`: explicit_drop, notnull, option, syscall_types
* `src/lib/shadow-shim-helper-rs/src/rootedcell`: cell
* `src/lib/shadow-shim-helper-rs/src/util`: time
* `src/lib/shim/src`: mmap_box, preempt, shimlogger
* `src/lib/shmem/src`: raw_syscall, util
* `src/lib/std-util/src`: nested_ref
* `src/lib/tcp/src/util`: time
* `src/lib/vasi-sync/benches`: lazy_lock, scchannel
* `src/lib/vasi-sync/src`: sync
* `src/main/core/work`: task
* `src/main/host`: context, status_listener
* `src/main/host/descriptor/socket/inet`: tcp
* `src/main/host/syscall`: formatter, type_formatting
* `src/main/host/syscall/handler`: file, fileat, poll, select, stat, sysinfo
* `src/main/network/graph`: petgraph_wrapper
* `src/main/utility`: enum_passthrough, perf_timer, status_bar, stream_len, syscall

## 3. What is modelled, per property

| id | model | proof |
|----|-------|-------|
| C01 | `Event` = time × (packet src,id ∣ local id) with the derived comparison returning `Option Ordering` | order laws by case analysis; `None` exactly for equal ids and different payloads |
| C02 | queue as a list with minimum extraction + `last_popped` with the assertions | invariant over all op sequences; permutation argument for conservation |
| C03 | whole-simulation model: hosts with arbitrary deterministic programs, per-host queues, cross-host packets; small-step interleaving semantics of a round | confluence: each interleaving's result equals a schedule-free specification |
| C04 | same | invariant: queue contents ≥ clock; deliveries ≥ round end |
| C05 | controller + round loop | induction on rounds; measure `end − start` |
| C06 | `push_local_event`, `execute`, window bound | invariant |
| C07 | `Runahead` sequential + two-phase (read-lock check, write-lock re-check) interleaving model | result = min of the reports; interleaving invariant |
| C08 | `send_packet` arithmetic + window | arithmetic from window invariant |
| C09 | `Host::execute` with arbitrary tasks | induction on the loop |
| C10 | `Cpu` | arithmetic + invariants |
| C11,C12 | `TokenBucket` | invariants on balance and refill time; exact-wait theorem |
| C13 | `Relay` with abstract source device, pending-task set | invariant; progress theorem; counterexample for oversize datagrams |
| C14 | `CoDelQueue` with arbitrary control law | conservation invariant, drop-condition theorem |
| C15–C17 | interface association map, port search, send queue | invariants over op histories |
| C18–C20 | name registries, DNS, IP assignment | invariants; completeness of linear search |
| C21 | `DescriptorTable` | invariant; counterexample for lowest-free; partial theorem without `dup2` |
| C22 | `EventFd` | accounting invariant, readiness agreement |
| C23 | `SharedBuf`, `Pipe` and the callbacks between them, for the two ends of `pipe2`, with memory that may fault | histories with the log of sent and received bytes; refinement to a list of bytes and packets; witnesses for what fails |
| C24 | `ByteQueue` with arbitrary readers and writers, `IoVecReader`, `IoVecWriter` | refinement of every operation to a list of bytes and packets |
| C25 | `Entry` and `Epoll` with the listeners at the files and the queue of callbacks | refinement of every step to a log per registration and one queue of ready registrations; progress measure for fairness; witness for one-shot |
| C26 | `Timer` with its events in the host's queue, clock and CPU delays | invariant linking the valid event to the next due time; count = number of due times |
| C27 | `TimerFd` and the `timerfd_*` calls over the model of `Timer` | projection of histories to those of C26; flag invariant |
| C28 | `World` of threads, conditions, futexes with listeners, wake-up tasks; ghost: waiters in order of arrival (`Verif/Futex`) | invariants over histories; witnesses for lost wake-ups and left entries |
| C29–C36, C47, C48 | the TCP library: `seq.rs`, `window_scaling.rs`, `buffer.rs`, `connection.rs`, `states.rs` | modular arithmetic; stream-prefix invariant over adversarial network; state-diagram invariant |
| C37 | `SelfContainedChannel`: every load, compare-and-exchange, access to the message and futex call of `send`, `receive`, `close_writer` is a step (`Verif/Channel`) | invariant over all interleavings; sleeping beside a message or a close implies a wake-up under way, and the receiver can finish |
| C38 | `SelfContainedMutex` with any number of threads; every operation on the futex word and every futex call is a step (`Verif/Mutex`) | invariant counting the threads in each part of `lock` and `unlock`, over all interleavings |
| C39 | `simple_latch` (every operation on the generation and every futex call is a step) and `count_down_latch` (what happens under the mutex is a step, the late notification another), with clones and drops and wrapping generations (`Verif/Latch`) | invariants over all interleavings; witness for the latch without counters |
| C40 | `ThreadPerCoreSched` and its `HostIter`, every `pop`, `push` and call of the closure a step (`Verif/Steal`) | invariant over all interleavings and rounds (lists up to permutation), measure for progress; witness for closures that do not iterate |
| C41 | `IMap` of three parallel vectors, `splice`, `get`, `iter_from` (`Verif/IntervalMap`) | refinement to a function from points to values; mutations compared with a table of cases |
| C42,C43 | time and unit arithmetic | arithmetic |
| C44 | `Counter` | map algebra |
| C46 | regular expression, prefix and suffix tables, integer parsing | equivalence with a grammar; print/parse round trip |
| C45 | `FreelistAllocator`, `ShMemBlock` drop and `shfree`, `serialize`, `FreelistDeserializer` over addresses as numbers (`Verif/ShMem`) | heap invariant over all histories; blocks in use and dropped blocks as the user knows them |
| C49 | `UnboundedThreadPool` with `scope`, `run`, `join` and `work_loop`, put together from the latch models of C39 (`Verif/Pool/Unbounded*.lean`) | invariant over all interleavings that ties each thread to its start waiter and its end counter; measure for termination |
| C50 | pending sets, `RunnableProcess::signal`, `signal_thread`, `rt_sigprocmask`, `rt_sigaction`, `sigaltstack`, the loop of `process_signals`, blocking and waking of system calls as a transition system with any number of threads (`Verif/Signal/*.lean`) | per-step lemmas for the pending sets and the activations; induction over executions; nested handlers by an induction on the steps between start and return |
| C51 | `IoVecReader`, `IoVecWriter` with the default `read_exact` and `write_all`, over a memory with faulting addresses (`Verif/IoVec/*.lean`) | each loop against the list of addresses, by induction on the fuel; the fuel is shown to suffice |
| C52 | `UdpSocket` and `MessageBuffer`: arrival, departure, bind, connect, sendmsg, recvmsg, shutdown, close, buffer sizes (`Verif/Udp/*.lean`), on top of the buffers of C51 | result tables for the calls; invariant and queue equations by induction over executions; a multiset equation for several sockets and a network |
| C53 | `CallbackQueue`, `EventSource`, `Handle`, the filters of `StateEventSource` and of the C listeners, `LegacyListenerHelper` (`Verif/Listen/*.lean`) | executions of arbitrary actions with a log of what was promised and what ran; invariant linking handles and listeners; pigeonhole for unused ids; filters bit by bit |
| C54 | process table, exit, reparenting, reaping, `wait4`, `waitid`, `setpgid`, `setsid`, `clone` of a process (`Verif/Procs/*.lean`) | executions of arbitrary actions; invariant of the tree (running parents, sorted pids, sleeping waits) and of groups; result tables for the calls |
| C55 | unix-domain sockets: the state machine of each kind, their buffers with listeners, the callback queue, the namespace (`Verif/Unix/*.lean`) | refinement: an invariant of sockets, counters, bits and names (`Inv.lean`), kept by every call, and a table of what each call does (`Spec.lean`); histories by induction over runs (`History.lean`) |
| C56 | open files with their reference counts, descriptor tables shared or copied between threads, the files of blocked calls (`Verif/Files/*.lean`) | a balance of counts and references, with the references held by local variables (`Bal`), kept by each step; results of the calls as a relation on what each thread sees (`Spec.lean`) |
| C57 | the memory mapper: the address spaces of the program and of Shadow at the level of bytes, the backing file, the table of regions (on the interval map of C41), the calls of the mapper, its start and its end (`Verif/MemMap/*.lean`) | an invariant that ties the table to both address spaces and the file (`Inv`), lemmas on cutting and joining regions, one specification of the calls on what the program sees (`Spec.lean`), refinement of each call (`step_done`), histories by induction |
| C58 | `LazyLock`: the state word, the futex, the initializer and the value, with one flag per thread and one of the word for "the write happened before" (`Verif/Lazy/*.lean`) | invariant over all interleavings; traces with what must come before each event (`Good`); a measure bounds the steps of the calls in progress |
| C59 | `AtomicTlsMap`: keys, values, counts, one step per atomic access; slots have an owner for the order of non-atomic accesses (`Verif/TlsMap/*.lean`) | the trace is replayed by a map (`Spec.next`); invariant that ties the slots, the calls in progress and the references to the map |
| C60 | `RootedRc`, `RootedRcWeak` (`Verif/Rooted/Model.lean`), `RootedRefCell` with threads (`Verif/Rooted/CellModel.lean`), `Tag::new` | the trace is replayed by counts that are made from the trace alone; invariant: counts = references, memory there while referenced; witnesses for what goes wrong |
| C61 | `ChildPidWatcher` with its thread, any callers and any exits (`Verif/PidWatch/Model.lean`) | the trace is replayed by a specification that knows only registrations and exits; invariant over all steps: callbacks = outstanding registrations, a command is queued for each callback of a process whose exit was seen; witnesses for the two panics |
| C62 | the thread pool of the thread-per-host scheduler: logical processors with their queues, stealing, parking with flags and tokens, the end latch of C39 (`Verif/Pool/Bounded*.lean`) | invariant over all steps: each processor is held by at most one agent, each thread is in a queue, taken by one agent, or released; a parked thread with its flag set has a token or someone about to give it one; measure for the return of the functions |
| C63 | capture files: `write_all` and `Give` over a file system that answers each call arbitrarily, the record writer, the bytes of packets, the interface (`Verif/Pcap/Model.lean`) | a separate reader of libpcap files and of IPv4, TCP and UDP headers recovers the packets; generic lemma for `write_all` over any writer; induction over the packets |
| C64 | the functions of `packet.rs` for the C implementation of TCP: headers, flags, time stamps, payload (`Verif/Pcap/Legacy.lean`) | round trip of each field; induction over the chunks of the payload |
| C65 | Turns of Shadow and the managed threads of a host (`Verif/Ipc/Model.lean`): the loop of `resume`, `continue_plugin`, `spawn`, `native_clone`, `native_syscall`, the shim side of each event, signal handlers nested in calls, the lock and clock of the shared memory, deaths and the exit watcher, as a transition system | `Inv.lean`: the role of each thread for the worker (quiet, active, child, leaving) with what it may be doing and what it has observed; preserved by every step (`Steps.lean`, `Work.lean`). The observations of a thread are replayed by a small specification of pending calls. Progress: case analysis of the invariant, with a second invariant that awaited threads die only with their process (`Progress.lean`, `Wait.lean`). Findings are executions plus a closed set of states |
| C66 | The handler of system calls of a thread (`Verif/Calls/Model.lean`): `SyscallHandler::syscall` with the blocked call, the delayed result, interruption, counters and latency, and the loop that hands calls to it; bodies of handlers are arbitrary | `Props.lean`: the log of a thread is replayed by a specification with three states of a call; the invariant ties it to the fields of the handler and is preserved by every step. Examples and findings are executions (`Examples.lean`) |
| C67 | Conditions of blocked calls (`Verif/Wake/Model.lean`): `syscall_condition.c` with timer, listener, reference count and wakeup task, the event queue of a host, `Thread::resume`, signals of threads and processes, exits, forks and both halves of `execve` | `Inv.lean` is the invariant, with exceptions for the middle of a step; `CoreSteps.lean` and `RestSteps.lean` show that each part of a step keeps it, `Steps.lean` that every step does; `Props.lean` draws the claims. Examples and findings are executions (`Examples.lean`) |
| C68 | Retransmission tally of the C TCP stack (`Verif/Tally/Model.lean`): insertion, merging, subtraction and trimming of range lists with their assertions, and the calls on the tally | `Lists.lean` proves each list operation against set membership and sortedness; `Props.lean` proves that every sequence of calls keeps the tally equal to a history of plain sets |
| C69 | A connection of the C TCP stack (`Verif/CTcp/Model.lean`): two endpoints of `tcp.c` with their queues, windows, retransmission tally, states and timers, the calls of programs, and a network that delays, reorders and drops | `Inv.lean` is the invariant on two endpoints and the packets between them; `Ops.lean`, `Ops2.lean`, `Ops3.lean` show that each function keeps it, `World.lean` that every step does; `Props.lean` draws the claims |
| C70 | The same model | The invariant of C69 has the claims on queues and timer; `Props.lean` follows a timeout through the tally and the flush; `Stuck.lean` proves that a stuck packet stays in every continuation; the other findings are executions (`Examples.lean`) |
| C71 | Paths of the network graph (`Verif/Graph/Model.lean`): `NetworkGraph::parse` after the text is read, the algorithm of Dijkstra as in `petgraph` with arbitrary tie-breaks, `compute_shortest_paths`, `get_direct_paths`, `generate_routing_info`, `RoutingInfo` | `Dijkstra.lean` proves the loop invariant, termination and that the scores are the cheapest walks; `Lem.lean` relates indexes to identifiers of the file; `Props.lean` draws the claims about the file |
| C72 | `poll`, `ppoll`, `select`, `pselect6` with the epoll object of the thread and the condition they wait on, as a transition system in which files, descriptors, signals and the clock change (`Verif/Poll/Model.lean`) | invariant over all executions: the ready list mirrors the files, its bit implies a scheduled wakeup, the timer is the call time plus the timeout (`Inv.lean`); answers specified bit by bit (`Answer`), `select` by sets (`Props.lean`); seven findings with witnesses (`Examples.lean`) |
| C73 | `nanosleep`, `clock_nanosleep` as a transition system with signals and the clock; `getitimer`, `setitimer`, `alarm` on the timer of C26 (`Verif/Sleep/Model.lean`) | closed form of the handler, invariant over all executions (`Props.lean`); the timer calls are steps of the histories of C26 (`Timers.lean`); eight findings with witnesses (`Examples.lean`) |
| C74 | `tcp_cong_reno.c` with its three phases and 32-bit arithmetic (`Verif/Reno/Model.lean`) | invariant over all sequences of reports; the growth is compared with a separate count of packets per window (`Grown`), which is shown to be additive and unique (`Props.lean`); three findings |
| C75 | the retransmission timer (set of scheduled times, desired time, events), the estimates and the backoff of `tcp.c` (`Verif/Rto/Model.lean`) | ghost timer (`Spec`) that only knows when it was started, simulation over all executions; RFC 6298 with exact fractions as specification of the estimate, error bounds by induction over the samples; three findings |
| C76 | `priority_queue.c` with its array, the map from elements to addresses, growing and shrinking (`Verif/PrioQ/Model.lean`) | heap order with one exception as invariant of the two loops, addresses as pairs of allocation and index; histories as lists without repetition (`Hist`). Justifies the sorted lists that the models of C69 and C70 use for the queues |
| C77 | `handler/epoll.rs`: the three waits with any number of threads on the epoll object of C25, their condition, signals and the clock; arguments of `epoll_create`, `epoll_create1`, `epoll_ctl` (`Verif/EpollWait/Model.lean`) | the ready events are the ghost of C25, and the epoll object is readable exactly if it is not empty; a thread that waits unscheduled implies nothing is ready (`Inv`). The result of a return is stated by `Returned` from the arguments, the start, the time and the ghost |
| C78 | `sockaddr.rs`, the three functions of `io.rs` that move addresses, the choice of a name by `bind` and `lookup_address` of unix sockets, the address of `bind` of UDP (`Verif/SockAddr/Model.lean`) | an address is a list of bytes (`Is`), memory as in the model of scattered buffers, writing as `Patched`, numbers by their bytes (`U32`); meanings stated as shapes of the list of bytes |
| C79 | threads that log and flush, the queue, the logger thread, panic hooks, the lock of the output and write errors, as an interleaving model (`Verif/Logger/Model.lean`) | invariant that what is written, buffered and queued is the history, and that each waiting thread is in the command queue or with the logger thread; induction over the queue and the commands for progress |
| C80 | UTF-8 splitting and lossy decoding, the fixed buffer with its bytes written or not, `write_str`, `sprintf`, reading, and the writer to a descriptor (`Verif/FmtBuf/Model.lean`) | a relation between bytes and text that is shown to be a function; cuts are exactly the boundaries of characters; induction over writes |
| C81 | the regular expressions of `proc_maps.rs` with a greedy matcher that backtracks, reading of numbers, paths, labels and lines (`Verif/ProcMaps/Model.lean`) | each field of a line in the documented form is what the greedy matcher takes, by lemmas about a run that stops at its end and a run that gives back up to the last separator; conversely pieces of a match concatenate to the line; paths with blanks and unknown names are refused |
| C82 | all of `parser.rs`: white space, keys, integers, floats, strings with the escapes, blocks, items, the graph (`Verif/Gml/Model.lean`) | a grammar as inductive relations; each function of the parser accepts exactly the texts of its rule up to a character that cannot continue it, by induction over the lists of pairs and items; the theorem is an equivalence |
| C83 | `netlink.rs`: bind, sendmsg, recvmsg with the answers, setsockopt, readiness, close (`Verif/Netlink/Model.lean`); the serialisation library is a parameter | an invariant over all sequences of calls relates the packets sent, the receives that took one and the buffer; the answer is compared with a specification on bytes; broadcast address by bits |
| C84 | `sched.rs`: all eight calls, the settings of `thread.rs`, lookup of threads (`Verif/Sched/Model.lean`); memory as in C78 | each call is characterised for all arguments and memory; an induction over executions relates what is kept to the history of successful calls; policy arguments by bits |
| C85 | `affinity.c`: reading the output of lscpu, choice of processors, binding (`Verif/Affinity/Model.lean`) | the tables equal counts over the list of earlier choices (invariant); the comparison is a strict order, so that the scan finds a minimum; evenness and the core property by induction over the choices, pigeonhole for workers with their own core |
| C86 | `cpu.rs`: the iterator over a list of ranges, the number of physical cores (`Verif/RangeList/Model.lean`); the loop has a bound that is shown to be enough | a grammar of lists of ranges is shown to be what the iterator gives, in both directions, as both are functional and total; the count by comparing lists without duplicates |
| C87 | `shm_cleanup.rs` and the names of files as a transition system of processes and cleanups; directories are read entry by entry (`Verif/ShmClean/Model.lean`) | invariant: for every name that a cleanup holds, the owner is among those it must find or has found; names are used once because they contain the time; a second invariant for a cleanup that is not disturbed |
| C88 | `resource.rs`, `Process::prlimit64`, limits at start, fork, exec and exit (`Verif/Rlimit/Model.lean`); the kernel is a parameter | invariant between reported and native limits; the calls against an inductive description of their answers; the frame theorem names every cause of a change |
| C89 | Threads that insert into a set under a read lock and then a write lock, and the flag of a line (`Verif/Once/Model.lean`) | Invariant over interleavings: the calls that ended say that they are the first exactly if they are, and the set has their values |
| C90 | A stack machine of nested queues of callbacks and the queue of the thread (`Verif/CbQueue/Model.lean`) | A measure that every step lowers, and an invariant that counts effects that are done and effects that are still to come, separately for what goes through the queue of the thread |
| C91 | `inject_preloads` on lists of bytes (`Verif/Preload/Model.lean`) | The items of a text as an inductive relation, of which splitting and joining are shown to be the function and its inverse |
| C92 | The check of a path with its memory, the reading of the first line, and the errors of execve (`Verif/Plugin/Model.lean`) | What can be started, and why not, as inductive relations over the file system; induction on the depth of the calls |
| C93 | `ConfigOptions::new`, `NullableOption`, `HostName`, `SimConfig::new`, `build_host`, `build_process` up to the addresses; panics are values (`Verif/Config/Model.lean`) | each effective option is shown to be the first that is set in a list of places; lists of hosts and processes by induction, and the answer by cases on each check |
| C94 | the handler of SIGSEGV in the shim with `ip_matches`, `Tsc::emulate_rdtsc(p)` and `emulate_cpuid`, on 64-bit registers (`Verif/InsnEmu/Model.lean`) | arithmetic on quotients and remainders of powers of two; bit by bit for cpuid; induction over the bytes of an instruction for recognising it |
| C95 | Thread identifiers, storages, placing of variables with its compare-and-swap loop, unregistering and fork (`Verif/ShimTls/Model.lean`) | invariant that relates the storages to one table of values for each living thread, kept by every operation; invariant over all interleavings of the allocation |
| C96 | The handlers of all forms of read and write, the file a waiting call keeps, and references to files (`Verif/Uio/Model.lean`) | invariant that a waiting thread has the file of its call, over all events; references compared before and after every event; cases of the arguments |
| C97 | The tasks of the thread-per-host scheduler on one thread, over the pool of C62 (`Verif/HostSched/Model.lean`) | the tasks of a thread are those issued (C62); induction on them for any closures and processors |
| C98 | `copy_dir_all` with its stack of directories over trees of files, links and directories with modes, umask and privileges; `tilde_expansion` over characters (`Verif/CopyDir/Model.lean`) | invariant of the loop: what is created and what is still on the stack is a permutation of what the tree asks for; the number of directories bounds the steps; modes are specified bit by bit |
| C99 | `fcntl` (flags, duplicates, pipe size, which commands are passed on) and `ioctl` (`FIOCLEX`, `FIONCLEX`, `FIONBIO`) over descriptors, shared files and 32-bit flags (`Verif/FdFlags/Model.lean`) | effects are stated by what `F_GETFD` and `F_GETFL` return afterwards through every descriptor, bit by bit; a frame theorem over all sequences of calls; the panic is an equivalence |
| C100 | the handler of `mmap` with the opening and closing of the file in the program, flags bit by bit (`Verif/MmapFile/Model.lean`) | case analysis over all error paths: the native files and buffers after the call equal those before; the map is that of the file of the descriptor |
| C101 | the custom call for names with its part in the shim, comparison without case, byte order, reading up to the NUL (`Verif/NameLookup/Model.lean`) | comparison without case is shown to be that of an independent definition, bytes by arithmetic; own name and registry agree because registered names are in lower case and unique |
| C102 | `prctl` and `arch_prctl` by the numbers of options, with start, fork and `execve` of processes (`Verif/Prctl/Model.lean`) | settings equal those read off the history of operations, by induction over it; options by cases over all integers |
| C103 | `getrandom` with both ways to reach a buffer, over any generator (`Verif/Random/Model.lean`) | memory byte by byte; the state of the generator by induction over sequences of calls |
| C104 | reading `/proc/self/auxv` and replacing the random bytes of the kernel (`Verif/AuxRandom/Model.lean`) | decoding inverts an independent encoding of pairs, by induction; memory byte by byte |
| C105 | parsing `/proc/meminfo` for the report of memory use (`Verif/MemInfo/Model.lean`) | parsing inverts an independent rendering of lines and decimal numbers, by induction over digits and lines |

Not expressible here (one line each): behaviour of managed native processes and
the ptrace/seccomp shim (needs an x86/Linux semantics); wall-clock performance;
memory safety of `unsafe` Rust and C (needs a memory model of those languages).

## 4. Disagreements between the code and the property (findings)

Each item is proved in Lean about the model; the theorem is named.

- **CPU availability is anchored at the Unix epoch (C10).** `time_cpu_available` starts at
  `EmulatedTime::MIN` = 0 and is only ever increased by charged delays, while simulated time starts in
  the year 2000. No delay is reported until more than 946684800 s of CPU time were charged
  (`Shadow.Cpu.C10_no_delay_for_30_years`). The unit tests use the Unix epoch as current time.
- **CPU rounding is not to the nearest step for odd precisions (C10).** `precision / 2` rounds down, so
  precision 1 adds 1 ns to every delay (`C10_rounding_precision_one`) and precision 3 turns 1 ns into
  3 ns (`C10_rounding_not_nearest`).
- **Saturating simulated-time operations can panic (C42).** `SimulationTime::saturating_add` and
  `saturating_mul` panic exactly for results in (SIMTIME_MAX, u64::MAX]
  (`Shadow.Time.saturatingAdd_panics_iff`, `saturatingMul_panics_iff`);
  `EmulatedTime::saturating_sub` can move time forward (`emu_saturatingSub_can_increase`).
- **An oversize packet blocks a relay forever (C12, C13).** The capacity of a relay's limiter is the
  1 ms refill plus 1500 bytes; a larger packet (UDP allows 65507 bytes of payload) never conforms
  (`Shadow.TB.C12_oversize_never`) and everything behind it waits forever
  (`Shadow.Relay.C13_oversize_blocks_forever`).
- **Bandwidths below 1000 bytes/s are not enforced (C11).** They behave exactly like 1000 bytes/s
  (`Shadow.TB.C11_low_rate_not_enforced`).
- **The dynamic runahead can increase once (C07).** Before the first report the runahead is the least
  latency of the graph; the first report replaces it by the reported latency, which may be larger
  (`Shadow.Runahead.C07_first_report_can_increase`). It never increases afterwards.
- **A host's clock can reach the stop time (C06).** Inside an event the clock may be moved up to and
  including the end of the window, so in the last window it can become equal to the stop time
  (`Shadow.Sim.Ex.C06_clock_can_reach_stop`). No event is executed there and it never passes it.
- **Tasks between the last popped event and the clock are accepted (C09).** `EventQueue::push` compares
  with the time of the last popped event, not with the clock, which may have moved on inside the event;
  a task scheduled in between makes the host's clock go back
  (`Shadow.Sim.Ex.C09_clock_can_go_back`). Code that only schedules at or after its own current time
  cannot cause this (`C09_clock_monotone`).
- **Events delayed past the stop time by the CPU model disappear (C09).** `push_local_event` refuses
  them and the result is ignored (`Shadow.Sim.Ex.C09_event_dropped_at_stop`).
- **`open` does not always return the lowest free descriptor (C21).** `close` of a number that is not open
  returns EBADF but still adds the number to the set of reusable ones, so after `close(100)` the next
  `open` returns 100 (`Shadow.Fd.C21_not_lowest_after_bad_close`). A number freed after `dup2` above the
  next index is also preferred over lower unused numbers (`C21_not_lowest_after_dup2`).
- **An eventfd with a positive initial value is not readable at first (C22).** Its state is refreshed only
  by a successful read or write (`Shadow.EventFd.C22_initial_value_not_readable`).
- **Unit conversion refuses exact conversions (C43)**: 60 s to minutes is an error
  (`Shadow.Units.C43_refuses_exact`), as documented in the trait. The conversion factor of tera or tebi to nano does not
  fit a `u64` and panics for the general SI prefix (`C43_si_panics`). A configured time above 2^64 ns
  panics when it is turned into a duration (`C43_nanos`).
- **A read that fails half-way loses stream bytes (C31).** `RecvQueue::read` removes a chunk before it is
  written to the caller's buffer; if that write fails, the rest of the chunk is gone
  (`Shadow.Tcp.Stream.C31_failed_read_gap`).
- **Packets that panic the TCP library (C35).** Each is a proved witness: a connecting socket gets a packet
  without SYN and RST (`C35_syn_sent_panics`); a connecting peer whose SYN announces a zero window makes
  the answering side panic when it wants to send (`C35_zero_window_syn_panics`); data before the SYN-ACK
  was sent (`C35_early_data_panics`); a reset before the SYN-ACK was sent (`C35_early_reset_panics`).
  Outside these states no packet panics (`C35_push_partial`).
- **An acknowledgement of unsent data stops the sender (C35).** `push_packet` accepts an acknowledgement up
  to the end of the buffered data, sent or not. The transmission position is then behind the start of
  the buffer and nothing is sent although data and window are there
  (`Shadow.Tcp.Stream.C35_unsent_ack_stalls`).
- **Packets that panic a listening TCP socket (C35).** A SYN for a new pair of addresses panics exactly if it
  also has RST, announces a zero window, or also acknowledges sequence number 1
  (`Shadow.Tcp.C35_listener_syn`, `C35_listener_panics`). Closing a listening socket panics while a child has
  not yet sent its SYN-ACK, or still has a RST to send (`C35_close_panics`); a half-open child whose
  timer fires before its SYN-ACK was sent panics (`C35_timeout_panics`).
- **A FIN that comes with the last packet of the handshake is not noticed (C36).** "syn-received" moves to
  "established" without looking at the FIN, so a reader gets "try again" until another packet arrives
  (`Shadow.Tcp.C36_fin_with_ack_unnoticed`). A client that writes nothing and shuts down before its ACK
  left sends such a packet.
- **The accept queue can exceed its limit without window scaling (C34).** A SYN that also acknowledges
  sequence number 1 makes a half-open child that any later packet without ACK establishes; the limit is
  only checked for packets with ACK (`Shadow.Tcp.C34_bound_needs_scaling`).
- **A refused item stays a member of the send queue (C17).** `NetworkQueue::try_push` without a priority on a
  priority queue inserts the item into the membership set before it notices the missing priority. From then on it
  is refused as a duplicate and never popped (`Shadow.NetQueue.C17_refused_item_stays_member`). The interface
  uses `push`, which panics in that case.
- **An empty stream chunk blocks a byte queue (C24).** `ByteQueue::push_chunk` with an empty stream chunk makes every
  later `pop` return nothing, whatever is behind it (`Shadow.ByteQueue.C24_empty_chunk_blocks`). The simulator has no
  caller that does this.
- **A pipe call that faults half way loses or keeps bytes (C23).** A read whose memory is only partly writable returns
  `EFAULT` after removing bytes (`Shadow.Pipe.C23_read_fault_loses`). A write whose memory is only partly readable
  returns `EFAULT` after storing bytes, and the read end is not flagged readable
  (`Shadow.Pipe.C23_write_fault_stores`). A packet read that faults leaves an empty pipe flagged readable
  (`Shadow.Pipe.C23_packet_fault_stale`). Linux returns the number of bytes moved.
- **A read of no bytes removes a packet (C23).** On a packet-mode pipe a zero-length read discards a packet
  (`Shadow.Pipe.C23_empty_read_loses`); Linux returns 0 and leaves it.
- **Small pipe writes are not atomic (C23).** A write of at most `PIPE_BUF` bytes that does not fit is split
  (`Shadow.Pipe.C23_small_write_split`); pipe(7) demands all or nothing. Likewise a blocking write larger than the
  free space returns short instead of waiting for more space.
- **A delayed periodic timer panics (C26).** If the CPU model delays a periodic timer's event by more than the interval,
  the next expiration lies before the event just popped, and `EventQueue::push` panics
  (`Shadow.Timer.C26_delay_panics`). The CPU model is off unless configured.
- **A timerfd read that faults loses the expirations (C27).** The count is taken before the memory is written; on
  `EFAULT` it is gone, and the descriptor stays flagged readable (`Shadow.TimerFd.C27_fault_loses`).
- **A huge timer value panics (C27).** `timerfd_settime` accepts relative values up to the largest simulation time, but
  adding one to the current time overflows the emulated time and panics (`Shadow.TimerFd.C27_overflow_panics`).
- **One-shot registrations can be reported again (C25).** After a report `Entry::collect_ready_events` removes only the
  reported conditions from a one-shot registration. Registered for `EPOLLIN | EPOLLOUT | EPOLLONESHOT`, a file that
  becomes readable and later writable is reported twice without being armed again (`Shadow.Epoll.C25_oneshot_again`);
  Linux disables the registration at the first report. Also, `EPOLLERR` and `EPOLLHUP` are never reported, since no
  state flag stands for them (by reading; not part of the model).
- **Futex wake-ups are lost (C28).** `futex_wake` counts a waiter as woken, but when its task runs `futex_wait_helper`
  looks at the timeout and at pending signals first: if the time has passed or a signal is pending, the call reports
  `ETIMEDOUT` or `EINTR` although it consumed a wake-up (`Shadow.Futex.C28_lost_timeout`, `C28_lost_signal`). Linux
  returns 0 to a waiter that was woken up. Conversely a waiter resumed for a signal that is not pending any more returns
  0 without a wake-up (`C28_spurious`; allowed by futex(2), but Linux starts the call again).
- **Futex table entries stay (C28).** A wait that is interrupted before it sleeps, and a thread that ends while waiting,
  leave an entry without waiters in the table (`C28_left_signal`, `C28_left_exit`). It is used again if someone waits at
  the address, else never removed.
- **`shfree` leaks the block (C45).** `SharedMemAllocator::free` sets `block.block` to null and then passes it to
  `dealloc`, which does nothing for null; the drop of the emptied block does nothing either
  (`Shadow.ShMem.C45_shfree`). Blocks that are dropped without `shfree` are reused (`C45_drop_then_alloc`).
- **A shared block larger than a chunk follows a null pointer (C45).** `alloc` reads the header of the new block before
  it asserts that there is one (`Shadow.ShMem.C45_oversize`).
- **Every shared block wastes the size of a chunk header (C45).** `data_cur` is counted from the beginning of the chunk
  when it is set, and from the end of the chunk's header when it is used. Blocks stay disjoint, but 288 bytes are lost
  for each (see the examples in `Verif/ShMem/Props.lean`).
- **More than 64 mapped chunks (C45).** From then on every use of a handle maps the chunk again, at another address, and
  never unmaps it (example in `Verif/ShMem/Props.lean`).
- **65536 sleepers on one mutex (C38).** The count of sleepers has 16 bits. The call of `lock` that would make it 65536
  panics after it has changed the word, which then says that the lock is disconnected (`Shadow.Mutex.C38_overflow`; the
  source has a comment about it). All other theorems of C38 are for up to 65535 threads.
- **A count-down latch without counters can leave a waiter behind (C39).** Two waiters, all counters dropped: a waiter
  that waits again before the other has waited once blocks; the other one begins the next generation, in which there is
  nothing to count down, and notifies nobody (`Shadow.Latch.CountDown.C39_count_lost`). The thread pools keep their
  counters, so they do not run into this.
- **A count-down latch without waiters ends with its generation (C39).** `count_down` does not begin the next generation;
  with all waiters dropped its second call panics (`C39_count_no_waiter`).
- **A closure that does not iterate hides the hosts from the next round (C40).** `run_with_hosts` asks for the exchange of the
  queues whether or not a thread called `for_each`. If none did, the next scope exchanges full queues for empty ones, and its
  round processes no host; only builds with debug assertions panic, as the documentation announces (`Shadow.Steal.C40_lost`).
- **SIGKILL and SIGSTOP can be blocked (C50).** `rt_sigprocmask` does not strip them from the mask, so a process can make itself
  immune to `kill(pid, SIGKILL)` (`Shadow.Signal.C50_finding_kill_blocked`).
- **A realtime signal raised inside Shadow panics (C50).** `prctl(PR_SET_PDEATHSIG)` and the exit signal of `clone` accept the
  numbers 32 to 64; when the signal is sent, the array of 31 entries is indexed out of bounds (`C50_finding_realtime`).
- **Stopping and continuing are not implemented (C50).** SIGCONT, SIGSTOP, SIGTSTP, SIGTTIN and SIGTTOU with the default action
  make the shim panic (`C50_finding_stop`). `C50_no_panic` shows that these and the previous ones are the only panics.
- **A signal for the process is offered once (C50).** If the thread that was woken for it blocks it before taking it (in the
  handler of another signal), other sleeping threads that would accept it are not woken (`C50_finding_retarget`). With a
  single thread this cannot happen (`C50_single_awake`).
- **Ignoring a signal does not discard a pending one (C50)** (`C50_finding_ignore_pending`), and one that is ignored is dropped
  even while it is blocked (`C50_accept`); Linux does the opposite of both.
- **New threads start with an empty signal mask (C50)** rather than the mask of their creator (`C50_finding_clone_mask`).
- **Handlers of realtime signals survive exec (C50)** (`C50_finding_exec_realtime`).
- **The name of a connected UDP socket bound to 0.0.0.0 is the address of its peer (C52).** `getsockname` fills in the IP of the
  peer where the IP of the interface is meant (`Shadow.Udp.C52_finding_sockname`).
- **Changing SO_SNDBUF does not update the writable flag (C52).** A writer that waits for room is not woken when the new size makes
  room, until some other call or packet refreshes the flags (`C52_finding_stale_writable`).
- **`shutdown` of a UDP socket tells no listener (C52).** A thread that waits in a receive sleeps on, although a receive would
  return 0 (`C52_finding_shutdown`).
- **Datagrams without bytes are not limited (C52)**: they do not count against the buffer (`C52_finding_empty_datagrams`).
- **A datagram sent to 0.0.0.0 is lost (C52).** `connect` turns 0.0.0.0 into 127.0.0.1, `sendmsg` does not, and no host has the
  address 0.0.0.0 (`C52_finding_any_destination`).
- **A connected UDP socket still gives out datagrams of others that arrived before `connect` (C52)**
  (`C52_finding_before_connect`); the code says so in a comment.
- **A dropped handle does not stop callbacks already queued (C53).** The listener is called after its handle was dropped if the
  notification came first (`Shadow.Listen.C53_finding_after_drop`); users must tolerate this.
- **`OffToOn` for several bits also fires when a bit goes off (C53)** while another monitored bit stays on
  (`C53_finding_spurious`): a spurious wake-up. No wake-up is missed (`C53_not_missed`) when all were off.
- **`wait4(INT_MIN, ...)` and `waitid(P_PIDFD, ...)` panic (C54)**: the first negates the pid, the second is not implemented and
  panics as soon as the caller has a child (`Shadow.Procs.C54_finding_int_min`, `C54_finding_pidfd`). `C54_wait_panics` shows
  that there are no others.
- **A child without an exit signal does not wake its parent (C54).** A parent that waits with `__WALL` or `__WCLONE` for a child
  created by `clone` with exit signal 0 sleeps on after the child has ended (`C54_finding_lost_wakeup`).
- **`setpgid(0, getpid())` is refused (C54)** unless the group already exists; Linux creates it (`C54_finding_setpgid`).
- **`waitid` without `WEXITED`, `WSTOPPED` or `WCONTINUED` blocks for good (C54)**; Linux returns `EINVAL`
  (`C54_finding_waitid_no_event`). Unknown bits are ignored as well.
- **A late event can lose a zombie (C54).** If an event for a process runs after it ended, its exit is dealt with again; if its
  parent ignores SIGCHLD by then, the zombie is dropped and the status is lost (`C54_finding_late`).
- **"Physical" addresses exist for pids below 65536 only (C54)**: from then on the first futex call panics
  (`C54_physical_ok`).
- **A datagram socket that sends to itself panics (C55)**, because the receiver is borrowed while the sender is
  (`Shadow.Unix.F55_self_send`, for every state); so does a bound stream or packet socket that connects to its own address
  (`F55_self_connect`).
- **A send or receive that faults half way leaves a unix socket inconsistent (C55).** Bytes of a stream that were stored before the
  fault are not in the sender's counter, and reading them panics (`F55_half_send`). A packet lost to a faulting receive keeps its
  note, so that the next datagram panics (`F55_lost_note`), and keeps its room in the sender's buffer for ever (`F55_lost_room`).
- **A blocked send of a packet can spin (C55).** If there is some room but not enough, the thread waits for `WRITABLE`, which is
  set (`F55_busy`).
- **A new datagram socket is not writable (C55)** until something refreshes its state (`F55_not_writable`).
- **A connected datagram socket receives from strangers (C55)**; Linux refuses those datagrams (`F55_stranger`).
- **A full descriptor table stops a debug build (C56).** `dup`, `F_DUPFD`, `socket`, `eventfd` and `timerfd_create` drop the descriptor that did
  not fit, and `Drop` for `Descriptor` panics with debug assertions; `pipe` and `socketpair` unwrap the error. In a release build the file is
  closed. `close_range` checks its flags only after the range, so that a range above the largest number succeeds with any flags.
- **Lengths of memory calls are not rounded up to pages (C57).** After `mmap` of a length that is not a multiple of the page size the rest of
  the last page is not in Shadow's table: bytes that the program stored there are still there when the memory is unmapped and mapped again
  (`Shadow.MemMap.C57_stale_bytes`). After such a `munmap` the table keeps memory that neither side has, and a system call with a buffer there
  ends Shadow instead of failing with `EFAULT` (`C57_munmap_part_panics`).
- **Memory calls that end Shadow (C57).** `mremap` of a part of a mapping or across two mappings that are one for Linux, of the heap or the stack,
  of protected memory that moves, or with an old size of 0 of private memory (`C57_mremap_part_panics`, `C57_mremap_heap_panics`,
  `C57_mremap_protected_panics`, `C57_mremap_zero_panics`); `brk` to an address inside a page, to the start of the heap, into something mapped,
  or after a part of the heap was protected (`C57_brk_unaligned_panics`, `C57_brk_all_panics`, `C57_brk_blocked_panics`,
  `C57_brk_protected_panics`); `mprotect` of length 0 (`C57_mprotect_empty_panics`). `C57_panics` gives the exact conditions.
- **A system call with a buffer that the program may not write ends Shadow (C57)** if the buffer is in private anonymous memory; Linux answers
  `EFAULT` (`C57_write_protected_panics`).
- **The first `brk` of a program without a heap replaces what is mapped there (C57)** and Shadow keeps its old mapping (`C57_brk_replaces`).
- **An `mprotect` that fails half way (C57)** changes the protection for the program and not for Shadow, which then writes memory that the program
  may not write (`C57_mprotect_failed`).
- **A panicking initializer (C58)** leaves a `LazyLock` in the state "initializing": every later request sleeps forever
  (`Shadow.Lazy.C58_after_panic`). The standard library poisons its `LazyLock` instead.
- **A table that is never full can refuse a key (C59).** An insertion into an `AtomicTlsMap` looks at each slot once. If a slot that it has passed
  becomes free and a slot that it has not reached is taken, it panics although there was a vacant slot at every moment
  (`Shadow.TlsMap.C59_full_too_early`, with one key in a table of two slots).
- **Guards of a `RootedRefCell` can be sent to other threads (C60).** A guard consists of a reference to the cell, which is declared `Sync`, so the
  compiler makes the guard `Send` (and `Sync`, even if the value is not). Dropping it in another thread changes the count without the root: an update
  can be lost, and then `borrow_mut` succeeds while there is a reader (`Shadow.Rooted.Cell.C60_sent_guard`). Guards of the standard
  `RefCell` are not `Send`. The code that was read for this model does not do so.
- **The counts of a `RootedRc` wrap (C60).** In a release build 2³² clones (for instance clones that are dropped without `explicit_drop`, which are
  never subtracted) bring the count back to its start, and the next drop frees memory that is in use (`Shadow.Rooted.C60_overflow_frees`).
  The standard `Rc` aborts instead.
- **Unregistering a callback can kill the thread that watches child processes (C61).** After `unregister_pid`, the data of a process is removed as soon as
  it has no callbacks. If `unregister_callback` does this after `epoll_wait` has returned the process and before the watcher thread has the mutex,
  `run_callbacks_for_pid` unwraps `None` (`Shadow.PidWatch.C61_stale_event`). Shadow itself calls `unregister_callback` only in tests.
- **A process id cannot be registered again at once (C61).** `unregister_pid` only sends a command; a `register_pid` for a new process with the same id
  panics if the watcher thread has not yet handled it (`Shadow.PidWatch.C61_reregister`).
- **Threads of the thread-per-host scheduler are pinned only when they are stolen (C62).** `ParallelismBoundedThreadPool::new` assigns the threads to the
  logical processors without setting their affinity, and `start_next_thread` calls `assign_to_processor` only for a thread that comes from another
  processor. So with CPU pinning a thread that is never stolen runs unpinned (`Shadow.Pool.Bounded.C62_unpinned`).
- **Packets on the loopback interface are captured twice (C63).** An interface records each packet it sends and each packet it receives. The loopback
  interface does both with every packet, so `lo.pcap` holds two equal records for each (`Shadow.Pcap.C63_loopback_twice`); Linux shows one.
- **A packet of more than 65535 bytes panics when it is captured (C63)** (`Shadow.Pcap.C63_capture_panics`), and only then. UDP datagrams are limited to
  65507 bytes, so they just fit; nothing in `packet.rs` limits the payload of a TCP packet.
- **TCP time stamps stop after 50 days (C64).** The header holds milliseconds since the start of the simulation in 32 bits and saturates. From 2³² ms on
  all time stamps are equal, and the round trip time computed from an echo is the time since then (`Shadow.Pcap.Legacy.C64_finding_stamps_stop`).
- **The order of TCP packets ignores wrapping (C64).** `packet_compareTCPSequence` compares sequence numbers as plain numbers
  (`Shadow.Pcap.Legacy.C64_finding_wrap`). In the C implementation a number counts a packet, so this takes 2³² packets.
- **A program that cannot be started makes Shadow panic (C65).** `ManagedThread::spawn` unwraps the result of `receive`. When the process dies first (its
  program cannot be executed, or it is killed), the watcher closes the channel and the unwrap panics. The code that follows means to handle this case
  and to return `EPERM`, but it waits for a `ProcessDeath` message that nobody sends here (`Shadow.Ipc.C65_finding_spawn`).
- **A forked process that dies early makes Shadow hang (C65).** `native_clone` waits for the first message of the child and only then asks the watcher to
  close the channel when the child dies. If the child is killed before that message, Shadow waits for ever (`Shadow.Ipc.C65_finding_child`: in every
  continuation the worker stays where it is).
- **A process that is killed inside the shim makes Shadow hang (C65).** While the shim answers a call by itself or looks for signals it holds the lock of the
  host's shared memory. If the process is killed natively at that point, `lock_shmem` never returns (`Shadow.Ipc.C65_finding_lock`).
- **A process that is killed while it makes a call for Shadow makes Shadow panic (C65)** (`Shadow.Ipc.C65_finding_native`); a comment in the code says so.
- **`syscall(SYS_clone, ...)` makes the shim panic (C65).** The wrapper of libc's `syscall` hands no context to the shim, which unwraps it for a clone
  (`Shadow.Ipc.C65_finding_clone_wrapper`). The wrappers `fork` and `clone` of libc are trapped and have one.
- **A call with a strange number ends Shadow (C66).** `SyscallHandler::syscall` unwraps the conversion of the number to `u32`, so `syscall(-1)` in a
  managed program makes Shadow panic in every state; Linux answers `ENOSYS` (`Shadow.Calls.C66_finding_number`).
- **A signal ends the delay of a result (C66).** When the latency of calls is modelled and the limit is reached, the answer of a call is held back until the time it
  is to take. A signal wakes the thread before: it goes on early and that time is never applied (`Shadow.Calls.C66_finding_signal`).
- **`num_syscalls` does not count interrupted calls (C66)**, which the counter by name does (`Shadow.Calls.C66_finding_count`).
- **A wakeup survives `execve` and resumes the new program (C67).** If the leader of a process waits, another thread calls `execve`, and then the leader's wait becomes ready in
  the same instant, the leader's wakeup runs after the new program has started. It looks its thread up by process and thread identifier, finds the new program's
  thread, which has taken the leader's identifier, and resumes it from an unrelated wait, whose timer and listener are cancelled (`Shadow.Wake.C67_stale`).
- **Two `execve` calls at the same time make Shadow panic (C67).** The call only schedules a task. If two threads of a process call it before the first task has run,
  the first task removes the other thread, and the second one unwraps a thread that is gone in `update_for_exec` (`Shadow.Wake.C67_exec_panics`). If the second
  call was the leader's, its task finds the thread that took the leader's identifier and replaces the new program by the other one (`Shadow.Wake.C67_exec_twice`).
  In Linux the second call does not return and its thread is killed.
- **A signal of a process waits for one thread although another could take it (C67).** A signal that arrives while a thread of the process runs is left to that thread. If the
  result of its call is held back (C66), the signal is handled only after that delay (`Shadow.Wake.C67_signal_waits`).
- **Acknowledged packets can be reported lost (C68).** `tidy_ranges` drops a range only if it is acknowledged as a whole (and does not trim at its last packet), and
  the report itself is not tidied, so packets below the acknowledgement may be in it (`Shadow.Tally.C68_stale`). `_tcp_flush` looks each of them up among the packets kept
  for retransmission and finds none, so this costs only time.
- **A selective acknowledgement does not update the report (C68).** `retransmit_tally_mark_sacked` does not compute it again: a packet that the peer has is still
  sent again if no other call comes before the next flush (`Shadow.Tally.C68_sacked_reported`).
- **A packet that is acknowledged while its retransmission waits is never cleared, and the connection never ends (C70).** `_tcp_retransmitPacket` moves a packet from the
  retransmission queue to the output. If the acknowledgement arrives before the packet leaves, `_tcp_clearRetransmitRange` does not find it, and when it leaves,
  `tcp_addRetransmit` puts it into the queue again. An acknowledgement clears only the numbers from the previous acknowledgement on, so nothing ever clears it. It takes its
  share of the send buffer, and since `_tcp_flush` waits for an empty output before it sends the FIN: in every continuation the packet stays, the timer
  stays on, no FIN is sent and the other program never sees the end of the stream (`Shadow.CTcp.C70_stuck_forever`, for a state that
  `C70_stuck_reached` reaches after everything was read). A spurious timeout is enough.
- **A lost FIN is not sent again (C70).** A FIN carries no payload. Any packet with an acknowledgement switches the retransmission timer off when no bytes wait to be
  acknowledged, so a FIN that was dropped by the network is not resent (`Shadow.CTcp.C70_fin_not_resent`).
- **Data in order can wait behind a copy of an older packet (C70).** The loop of `_tcp_flush` that hands received packets to the program ends after it has removed a copy of a
  packet that was delivered before. The next packet stays although it is the one expected. It was acknowledged selectively, so the sender does not send it again, and the program is
  not woken (`Shadow.CTcp.C70_undelivered`).
- **A copy of delivered data is not acknowledged again (C70).** If an acknowledgement is lost and the other side has nothing to say, the sender resends the packet for ever
  (`Shadow.CTcp.C70_copy_unanswered`).
- **Children of a listener are found by a 32-bit hash (side note, not proved).** `tcp.c` keys the children of a listener by `g_str_hash("ip:port")` only, so two clients whose
  strings have the same hash share a child.
- **An unconnected graph makes Shadow panic (C71).** `compute_shortest_paths` reports a missing self-loop as an error, but asserts that every pair of nodes has a path. Two nodes in use that
  cannot reach each other fail this assertion (`Shadow.Graph.C71_finding_panic`).
- **Small losses vanish with shortest paths (C71).** The loss of a path is computed as `1 - (1 - p) * (1 - q)` in `f32`, also for a single edge, which starts from a path without loss. A loss below
  about 3e-8 becomes 0, and larger ones lose digits. Direct paths keep the number of the file (`Shadow.Graph.C71_finding_loss`, `C71_finding_loss_example`).
- **A descriptor listed twice in `poll` is watched once (C72).** Entries for the same descriptor with different events are registered one after the other with `EPOLL_CTL_ADD`; the second is refused with
  `EEXIST`, which is ignored. An event that only the second entry asks for does not wake the call (`Shadow.Poll.C72_twice_deaf`).
- **A file that is closed during a `poll` wakes nobody (C72).** The epoll drops the watch, and the call waits on although the same call made now would return `POLLNVAL`
  (`Shadow.Poll.C72_closed_deaf`). A TCP connection of which both directions are done is closed in this sense while the program still has the descriptor.
- **A connection that has ended is silent (C72).** A file that is neither active nor closed, as a TCP socket in state CLOSED, is reported with no event at all, neither `POLLIN` nor
  `POLLHUP` nor `POLLERR`; those two are never reported for files other than regular ones (`Shadow.Poll.C72_inactive_silent`).
- **A `poll` that is woken for nothing starts its timeout again (C72).** The handler computes the end of the wait from the present time whenever it blocks. A descriptor replaced by another thread
  makes it wait longer (`Shadow.Poll.C72_longer`), and so does a signal that another thread takes first, because `epoll_reset` leaves the `READABLE` bit of the epoll as the last call left it
  (`Shadow.Poll.C72_stale_bit`).
- **A huge timeout stops the simulation (C72).** `ppoll`, `select` and `pselect6` add the timeout to the clock in 64 bits without a check; a timeout of about 584 years sets the timer into the past, which is a failed
  assertion (`Shadow.Poll.C72_wrap_panics`).
- **`select` may return zero at once (C72).** If the kernel's `poll` fails for a regular file the entry has `POLLERR`, which ends the call but is in none of the sets (`Shadow.Poll.C72_select_zero`).
- **The signal masks of `ppoll` and `pselect6` are ignored (C72, side note).** The calls behave like `poll` and `select`.
- **An interrupted `nanosleep` may not write the remaining time (C73).** If a signal is pending when the call is made, the general rule that a call which wants to block returns `EINTR` instead applies, and the
  handler does not run again: nothing is written although the program asked for it. A program that sleeps again for "the remaining time" uses garbage (`Shadow.Sleep.C73_rem_missing`).
- **Sleeps and timers of centuries stop the simulation (C73).** `now + request` panics if the sum is not a time; durations up to 554 years are accepted (`Shadow.Sleep.C73_sleep_panics`, `C73_setitimer_panics`). For a
  sleep the sum is computed again when the thread is woken, so one that was fine when it was made panics at a signal (`C73_wake_panics`).
- **A running timer can look stopped (C73).** `getitimer` rounds down to microseconds, so with less than a microsecond to go it returns zeros (`Shadow.Sleep.C73_getitimer_zero`); Linux returns one microsecond.
- **`setitimer(which, &v, &v)` does nothing (C73).** The old value is written before the new one is read; with the same pointer the timer is set to what it was (`Shadow.Sleep.C73_setitimer_alias`). It is also written
  when the call is then refused (`C73_setitimer_old_on_error`).
- **`alarm` rounds half a second down (C73).** From 500 to below 501 ms the result is one less than on Linux (`Shadow.Sleep.C73_alarm_half`).
- **Duplicate acknowledgements add up over a connection (C74).** In congestion avoidance a new acknowledgement does not reset the counter of duplicates. Three single duplicates, with any number of
  acknowledged packets between them, halve the window as if a packet were lost (`Shadow.Reno.C74_dups_accumulate`).
- **A timeout can raise the congestion window (C74).** A timeout sets the window to 10 packets, whatever it was. The initial window is 1, because `tcp_cong_reno_init` overwrites the 10 with which the connection was made,
  so an early timeout makes the sender more aggressive (`Shadow.Reno.C74_timeout_raises`). If the threshold is now lower, the next acknowledgement shrinks the window to it
  (`C74_ack_shrinks`).
- **With a steady round trip the retransmission timeout is not longer than the round trip (C75).** The smoothed round trip is rounded down, the variation sinks to zero, and there is no lower bound for the variation as RFC 6298
  asks. For a constant round trip of 200 ms and more which is up to 3 ms above a multiple of 8 ms, the timeout becomes that multiple: it expires before the answer can come, for every packet
  (`Shadow.Rto.C75_too_short`; `Verif/Rto/Examples.lean` has an execution with 203 ms).
- **Round trips below 8 ms are forgotten (C75).** The estimate loses a millisecond with each sample until it is zero and counts as not yet measured (`Shadow.Rto.C75_forgets`). The timeout is then at its minimum of 200 ms anyway.
- **Round trips of days overflow the estimate (C75).** Above 306783378 ms `7 * rttSmoothed` is not a `gint` (`Shadow.Rto.C75_overflow`).
- **`epoll_wait` with a bad pointer loses events (C77).** The ready events are taken from the epoll object before they are written to the program. If the write fails the call returns `EFAULT`, and events that are edge-triggered or one-shot
  are never reported (`Shadow.EpollWait.C77_lost`, `C77_lost_example`). Linux leaves them ready.
- **Closing an epoll descriptor does not end a wait on it, but changes its end (C77).** The waiting thread goes on until its next wakeup; the handler then looks the descriptor up again and returns `EBADF`, at the timeout too, where Linux returns zero
  (`Shadow.EpollWait.C77_closed`, `C77_closed_example`). If the number stands for another file by then it returns `EINVAL`.
- **`epoll_pwait` and `epoll_pwait2` refuse every signal mask (C77).** A mask that can be read is `EINVAL` (`Refused` in `Shadow.EpollWait.C77_result`), a known gap with a warning in the code.
- **A failed `getsockname`, `accept` or `recvfrom` changes the length (C78).** The length is written before the address; if the address cannot be written the call returns `EFAULT`, but the length of the program is already that of the address
  (`Shadow.SockAddr.C78_len_on_fault`). Linux writes the address first. A program that tries again with a smaller buffer gives a length that is too large.
- **A negative address length is room for everything (C78).** The length is read as unsigned, so -1 is 4294967295 and the whole address is written (`Shadow.SockAddr.C78_negative_room`); Linux returns `EINVAL`.
- **A path of a unix socket must have its nul inside of the length (C78).** `as_path` finds none otherwise (`Shadow.SockAddr.C78_path_unterminated`), while Linux adds it. Since binding to paths is not supported at all (`ENOTSUP`, in
  `C78_unix`) this shows in logs only.
- **After a write error of the logger, every flush waits for ever (C79).** The logger thread unwraps the error of `flush_records` and dies. The thread that it was serving panics, since its sender is dropped. But the receiver of the commands is in a
  static, so later commands are sent without an error and never read: a thread that logs an error, flushes, or meets a full queue does not return (`Shadow.Logger.C79_hang`). Shadow hangs, for example, when its output is a pipe that was closed or a
  disk that is full; if the threads that hang are workers the simulation stops without a message.
- **`FormatBuffer::sprintf` may end a cut text with a replacement character (C80).** The formatted text is first cut to N-1 bytes by `vsnprintf`, within a character if need be, and the pieces of that character are then read as invalid
  bytes. If there is room the text ends with a replacement character that was never in it (`Shadow.FmtBuf.C80_cut_char`), unlike `write_str`, which drops the character (`C80_write`).
- **A mapped file with a blank in its path makes the memory map unreadable (C81).** The kernel prints such a path as it is. The regular expression takes what follows the blank for the mark of a deleted file and refuses it
  (`Shadow.ProcMaps.C81_blank`), or does not match at all when there are several blanks. Names that begin with neither a slash nor a bracket, as `anon_inode:[perf_event]` or `socket:[123]`, are refused too (`C81_other`), and so are
  the labels `[anon: glibc: malloc]` of newer kernels (an example beside the theorems). One such line makes the whole file unreadable (`C81_one_bad`), and `get_regions` unwraps the result: with `use_memory_manager: true`, Shadow panics when it runs
  a program whose path contains a blank. A file whose name ends in ` (deleted)` is read as a deleted file, which the format leaves open.
- **A bracket too many silently ends the network graph (C82).** `parse` drops what the parser has not consumed, so that everything after the bracket that closes the graph is ignored, whatever it is (`Shadow.Gml.C82_rest`). With one `]`
  too many after a node, all nodes and edges that follow are lost without an error (an example beside the theorems).
- **Escapes in strings do not work (C82).** The parser is meant to read `\\` and `\"`, but the part for ordinary characters takes backslashes too, so that the part for escapes is never reached: a backslash stands for itself and a quote after it
  ends the string (`Shadow.Gml.C82_no_escape`), usually with an error. The empty string is an error as well.
- **Graphs must be written on lines (C82).** A value, an opening bracket and the closing bracket of a node or an edge must be followed by a line break; a graph on one line, comments and values that are lists, which GML allows, are refused (examples
  beside the theorems, from `C82_grammar`). Negative numbers and integers of more than 31 bits are floats, so that they are refused as `id`.
- **A netlink socket stops sending for good after 212992 bytes (C83).** `sent_len` is raised by every packet and never lowered; `recvmsg` drops the number of bytes that it removed. So what counts as in flight is all that was ever sent
  (`Shadow.Netlink.C83_total`), and once the limit is reached no packet can be sent, even though the buffer is empty and whatever the program receives (`C83_stuck`, `ex_worn`): a call that may wait waits for ever, any other gets `EAGAIN`, and `poll` never reports the
  socket as writable. That is 10650 requests of 20 bytes, the size that the C library uses, on one socket. `SO_SNDBUF` helps, but no socket ever sends more than 2^28 bytes.
- **`SO_SNDBUF` does not update whether a netlink socket is writable (C83).** `setsockopt` changes the limit without refreshing the state, so that after raising it a program that waits for the socket to be writable goes on waiting although
  sending would work, and after lowering it the socket counts as writable although sending does not (`Shadow.Netlink.C83_sndbuf`, `ex_sndbuf_state`).
- **A failed `bind` binds a netlink socket (C83).** The address is stored before its groups are checked. If they are not supported the call returns `EINVAL`, but `getsockname` shows the address and every other `bind` fails (`Shadow.Netlink.C83_bind`,
  `ex_bind`).
- **Netlink answers are cut silently and errors have no number (C83).** An answer that does not fit the buffers of the program is cut, and `msg_flags` is 0 instead of `MSG_TRUNC` (in `C83_order` through `Reply`). An error message has no payload, while Linux sends the error number
  and the header of the request (in `C83_answer`), and programs read the number from there.
- **Children do not get the scheduling policy of their parent (C84).** A thread or process made by `clone` or `fork` always has `SCHED_OTHER` and priority 0 (`Shadow.Sched.C84_not_inherited`, `ex_not_inherited`). Linux gives it the policy and the priority of its parent unless
  `SCHED_RESET_ON_FORK` was set, and the flag can be set and read back here although it makes no difference.
- **`sched_getaffinity` defines one byte of the mask (C84).** It sets the first byte, returns 1 and leaves all others as they were; sizes that are not a multiple of eight are accepted (`Shadow.Sched.C84_mask_rest`). Linux writes and returns at least eight bytes. A program that makes
  the call itself and relies on whole words sees processors that do not exist.
- **Pinning does not work on a machine with one processor, nor for processor 64 of 65 (C85).** `affinity_setProcessAffinity` allocates the set for the highest processor number instead of for one more (`CPU_ALLOC(max_cpu_num)`). If that number is a multiple of 64, the highest
  processor has no place in the set, `CPU_SET_S` does nothing, and the kernel refuses the empty set: an error is logged for every thread, and the thread is not bound (`Shadow.Affinity.C85_bind_all`, `C85_last_of_word`). All other processors can be bound.
- **Processors with high numbers are not used (C85).** `_cpuIdxIsEligible` passes the number of processors that are online where `CPU_ISSET_S` expects a number of bytes. Processors with a number of at least eight times that are treated as not allowed, and if there are no others
  the simulator stops (`Shadow.Affinity.C85_high_number`). This takes a machine on which most processors are offline.
- **Fields that `lscpu` leaves empty shift the others (C85).** Only the last field may be empty. An empty socket makes the node count as the socket and keeps the node of the line before; the result code that would tell is not looked at (`Shadow.Affinity.C85_empty_field`).
- **The default number of workers is too low on machines with several packages (C86).** `count_physical_cores` counts different values of `topology/core_id`, which the kernel numbers within each package. Two packages with the same numbering count as one
  (`Shadow.RangeList.C86_packages`). Processors from number 1024 on make it fail (`C86_many`).
- **Simulations in different containers remove each other's files (C87).** The owner of a shared memory file is recognised by its process number in `/proc`. If two containers share `/dev/shm` but not process numbers, the start of a simulation in one
  removes the files that a simulation in the other is using, unless the numbers happen to be in use (`Shadow.ShmClean.C87_other_namespace`). Chunks that are mapped later then cannot be opened.
- **`execve` loses raised limits (C88).** The native process of the new program is started by the simulator and has its limits. A soft limit that the program raised before (such as the stack size by `ulimit -s`) is still reported
  by `getrlimit` but not in force (`Shadow.Rlimit.C88_exec`). Without `execve` the native limit is never below the reported one (`C88_soft`).
- **Lowered limits have no effect (C88).** As the code says, a lower soft limit is only reported; nothing else looks at limits, so that, for example, a program that lowers `RLIMIT_NOFILE` can open as many files as before (`Shadow.Rlimit.C88_pretend`).
- **Only the first of several `LD_PRELOAD` entries gets the simulator's libraries (C91).** That only the first entry is changed is proved
  (`Shadow.Preload.C91_two`), and the comment in `inject_preloads` says that the first is the one that counts. Not checked here, and not part of the model:
  from what is remembered of glibc's `rtld.c`, its loader overwrites the list at every entry, so that the last one would count. If so, a program that is started
  with two entries runs without the simulator's library.
- **A script that names itself as its interpreter brings down the simulator (C92).** `verify_plugin_path` follows interpreters without a limit, and remembers
  a path only after it was accepted. `execve` of a script `/x` that begins with `#!/x` (or of scripts that name each other in a circle) by any program makes
  it call itself until the stack is exhausted; Linux answers ELOOP (`Shadow.Plugin.C92_loop`, `Shadow.Plugin.ex_loop`).
- **Tabs in the first line of a script are taken for parts of a path (C92).** Linux skips tabs before the path of the interpreter and ends it at a tab. Here
  `#!/bin/sh<tab>-e` looks for a file with a tab in its name, and the script is refused with ENOENT (`Shadow.Plugin.C92_tab`).
- **A host cannot opt out of a default log level (C93).** The documentation gives `null` as a value of a host's `log_level`. In the file it is the same as leaving the option out, so the
  default of the file or the command line stays; only the command line has a `null` that counts (`Shadow.Config.C93_null_level`).
- **Some wrong configurations panic instead of being refused (C93).** A `seed: null` takes the default away and is unwrapped; so is a `stop_time` that is given nowhere, which the
  documentation calls required but the reader does not check; and a time that is too large panics on conversion (`Shadow.Config.C93_null_seed`, `C93_no_stop`, `C93_big_time`).
- **Invalid host names are taken (C93).** The comment in the code cites the rule that each element of a name has 1 to 63 characters, but only the whole length is checked: a name of 64
  letters and the name `.` are taken (`Shadow.Config.C93_name_invalid`).
- **cpuid can still offer rdseed or rdrand (C94).** The bits are hidden by the leaf that was asked for. The comment in `emulate_cpuid` cites that a leaf beyond the highest is answered as the
  highest one; on a processor whose highest basic leaf is 7 (or 1), asking for leaf 8 (or 2) shows the bit (`Shadow.InsnEmu.C94_high_leaf`). Processors of today have higher leaves.
- **Emulated instructions with a prefix are not recognised (C94).** `rdtsc` with a redundant prefix, such as REX.W, is executed by processors as `rdtsc` (taken from the architecture, not checked
  here); the handler compares the bytes from the start and treats it as an error of the program (`Shadow.InsnEmu.C94_prefix`).
- **Mode `Gettid` does not use thread numbers (C95).** It is documented to identify threads by `gettid` without assumptions about the thread pointer, but `FastThreadId::current` always prefers the
  thread pointer, so the mode is the same as `NativeTlsId` (`Shadow.ShimTls.C95_gettid`), and threads that share a thread pointer share their variables (`Shadow.ShimTls.C95_gettid_shared`). The shim
  itself uses `Native`.
- **A thread that sets its thread pointer late loses its variables and leaves them behind (C95).** Before the thread pointer is set, the storage is that of the thread number. Afterwards it is
  another one, and unregistering removes only the new one; a later thread with the same number and no thread pointer starts with the values of the dead one
  (`Shadow.ShimTls.C95_late_pointer`).
- **Flags of `preadv2` and `pwritev2` are ignored (C96).** Pipes, event counters, timers and sockets never look at them: with `RWF_NOWAIT` the call waits all the same, and unknown flags are taken
  (`Shadow.Uio.C96_flags`, `Shadow.Uio.C96_nowait`).
- **A negative offset of `pread64` and `pwrite64` is not refused as such (C96).** `preadv` answers `EINVAL`, `pread64` answers `ESPIPE` on the same file (`Shadow.Uio.C96_negative`); pread(2) names
  `EINVAL` for a negative offset.
- **Copying the template directory does not preserve the modes of directories (C98).** `copy_dir_all` says "Permissions will be preserved", but directories are created with `DirBuilder::mode`, which the
  umask applies to: 0775 becomes 0755 with umask 022 (`Shadow.CopyDir.C98_umask_changes_directories`). That the umask applies is from the documentation of mkdir(2) and was not run.
- **A template with a read-only directory or a link to a directory cannot be copied (C98).** The new directory has its final mode before it is filled, so a file in a directory with mode 0555 is refused unless
  the user is privileged (`Shadow.CopyDir.C98_read_only_directory_fails`). `DirEntry::metadata` does not follow links and `std::fs::copy` does, so a link to a directory is an error and a link to a file becomes a
  file (`Shadow.CopyDir.C98_links`).
- **`~//x` is `/x` (C98).** The rest of the path after the first slash is pushed onto the home directory, and pushing an absolute path replaces it (`Shadow.CopyDir.C98_tilde_double_slash`).
- **`fcntl(F_GETPIPE_SZ)` on a regular file brings down the simulator (C99).** The other branches of `fcntl.rs` drop the borrow of the descriptor table before they call the C handler; this one (fcntl.rs:166-170)
  does not, and the C handler borrows the table again in `thread_getRegisteredLegacyFile`, which asserts that it is not borrowed for writing (`Shadow.FdFlags.C99_panic`).
- **`F_OFD_SETLK` is refused (C99).** The list of lock commands has `F_OFD_SETLKW` and `F_OFD_GETLK` but not `F_OFD_SETLK`, which ends in `EINVAL` (`Shadow.FdFlags.C99_ofd_setlk`); the C handler has a case for it.
- **`ioctl(FIONBIO)` is refused on regular files (C99).** The C handler answers `EINVAL`, where `F_SETFL` with `O_NONBLOCK` is passed to the kernel (`Shadow.FdFlags.C99_fionbio_regular`).
- **A regular file as standard input, output or error cannot be mapped (C100).** `mmap` answers `EBADF` for descriptors up to 2 without looking at them (`Shadow.MmapFile.C100_stdin`); the code asks itself why
  ("TODO: why does this fd <= 2 exist?").
- **The name of a host in upper case is found by this host only (C101).** The own name is compared without regard to case, the names of others with (`Shadow.NameLookup.C101_upper_case`). `getaddrinfo` then
  searches `/etc/hosts`, which is not modelled here.
- **A program can crash Shadow with a long name (C101).** The custom call for names allocates as many bytes as the program says; with a length of 2^63 - 1 or more `Vec::with_capacity` panics, for memory that is not
  mapped into Shadow (`Shadow.NameLookup.C101_length`). The shim never makes such a call.
- **The custom call for names needs a NUL after the name (C101).** The length that is given is not enough; the code says so itself ("hope that it contains a NUL") (`Shadow.NameLookup.C101_needs_nul`).
- **`prctl(PR_GET_TSC)` is answered by the kernel (C102).** The shim sets the trap for `rdtsc` natively (shim_insn_emu.c:114), so the program may see a setting that it did not make; `ARCH_GET_CPUID` is emulated for this
  very reason (`Shadow.Prctl.C102_tsc`). What the kernel answers was not checked.
- **Settings passed on to the kernel do not go through `execve` (C102).** `execve` goes on in a new native process, which is not told what the old one was, for example `PR_SET_NO_NEW_PRIVS` (`Shadow.Prctl.C102_exec`).
  Which settings Linux keeps was not checked.
- **A program can crash Shadow with `getrandom` (C103).** A buffer that is not mapped into Shadow is first made as a vector of the length that the program gives; 2^63 bytes or more panic, where nothing limits the length
  (`Shadow.Random.C103_panic`). A write in part would panic too, by an assertion; whether the kernel ever writes in part was not checked.
- **A long auxiliary vector keeps its random bytes (C104).** The shim reads at most 736 bytes, 46 pairs; with more, the 16 random bytes stay those of the kernel and runs may differ, after a warning
  (`Shadow.AuxRandom.C104_long`). The code says that its author saw 368 bytes; no other machine was looked at here.
- **The auxiliary vector is read again after the test for null (C104).** If this second reading fails, the null pointer is written to (`Shadow.AuxRandom.C104_twice`).
