{"id": "C01", "title": "Simulated events have one deterministic total order", "statement": "Any two events that can sit in the same host's event queue are comparable, and the order is: earlier time first; at equal time network packets before local tasks; packets by sending host then by the sender's event number; local tasks by event number. The order is irreflexive, transitive and total on events with distinct identities, and the comparison that the queue relies on never hits its 'not comparable' panic for such events.", "quantifier": "all pairs and triples of events, all times, hosts and event numbers", "why_tests_cant": "A unit test compares a handful of events; totality and transitivity range over all triples.", "anchors": ["src/main/core/work/event.rs: Event, EventData, PartialOrd impls", "src/main/core/work/event_queue.rs: PanickingOrd"]}
{"id": "C02", "title": "The event queue is a faithful, time-monotone priority queue", "statement": "For every sequence of pushes and pops: each pop returns the least queued event, the popped events plus the remaining ones are exactly the pushed ones (nothing lost, duplicated or invented), popped times never decrease, the advertised next-event time is the time of the event the next pop will return, and pushing an event earlier than the last popped one is refused by a panic rather than accepted.", "quantifier": "all histories of push and pop operations of any length", "why_tests_cant": "Tests run fixed histories; the invariant is over all interleavings of pushes and pops.", "anchors": ["src/main/core/work/event_queue.rs: EventQueue::{push,pop,next_event_time}"]}
{"id": "C03", "title": "Simulation results do not depend on how hosts are scheduled onto threads", "statement": "Running one scheduling round gives the same final state of every host, the same set of in-flight packets and the same next round window whatever the assignment of hosts to worker threads and whatever the interleaving of their event executions.", "quantifier": "all numbers of hosts and workers, all host programs, all assignments and interleavings within a round and across any number of rounds", "why_tests_cant": "The number of interleavings is unbounded and a test observes only the schedule the OS happened to choose.", "anchors": ["src/main/core/manager.rs: Manager::run", "src/main/core/worker.rs: Worker::send_packet", "src/main/host/host.rs: Host::execute", "src/main/core/work/event_queue.rs"]}
{"id": "C04", "title": "No host ever receives a packet in its past", "statement": "A packet sent during a round is delivered at or after the end of that round, and therefore never before the receiving host's clock: the queue's 'event in the past' panic is unreachable, for any latency, runahead and schedule.", "quantifier": "all executions: any hosts, latencies, runahead settings, packet histories and thread schedules", "why_tests_cant": "Causality has to hold for every execution; a violating schedule may be arbitrarily rare.", "anchors": ["src/main/core/worker.rs: Worker::send_packet", "src/main/core/work/event_queue.rs: EventQueue::push", "src/main/host/host.rs: Host::execute, push_packet_to_host"]}
{"id": "C05", "title": "Round windows tile simulated time and always make progress", "statement": "Every scheduling window handed to the workers is non-empty, starts no earlier than the previous window ended, never extends past the configured stop time, and starts exactly at the earliest pending event. The simulation therefore finishes after finitely many rounds, and when it stops no event before the stop time is left unexecuted.", "quantifier": "all runs, all event populations, all runahead values and stop times", "why_tests_cant": "Progress and termination are claims about unbounded executions.", "anchors": ["src/main/core/controller.rs: Controller::manager_finished_current_round", "src/main/core/manager.rs: Manager::run", "src/main/core/runahead.rs"]}
{"id": "C06", "title": "No event runs at or after the configured stop time", "statement": "Whatever is scheduled by applications, timers, CPU delay or the network, no task or packet is executed with a timestamp greater than or equal to the simulation stop time, and a host's clock never reaches it.", "quantifier": "all event histories and stop times", "why_tests_cant": "Needs to hold for all schedules of tasks, including ones re-scheduled by the CPU model.", "anchors": ["src/main/host/host.rs: Host::push_local_event, Host::execute", "src/main/core/controller.rs"]}
{"id": "C07", "title": "The runahead bound is positive, monotone and order independent", "statement": "The lookahead used for a round is never zero, is never larger than the smallest latency recorded so far unless the configuration explicitly sets a larger minimum, never increases, and after any set of latency reports equals the same value whatever order or interleaving (including the racy check-then-lock path) the workers reported them in.", "quantifier": "all multisets of latency reports, all orders and thread interleavings, static and dynamic mode", "why_tests_cant": "Order and race independence quantify over all permutations and interleavings.", "anchors": ["src/main/core/runahead.rs: Runahead::{new,get,update_lowest_used_latency}", "src/main/core/worker.rs: update_lowest_used_latency"]}
{"id": "C08", "title": "Packets take exactly the configured path latency", "statement": "With static runahead that does not exceed the path latency, a packet sent at time t over a path with latency L arrives at exactly t+L; in general it arrives at max(t+L, end of the round), so it is never early and is late by less than one runahead.", "quantifier": "all send times inside a window, latencies, runahead values", "why_tests_cant": "An arithmetic identity over all times and windows.", "anchors": ["src/main/core/worker.rs: Worker::send_packet", "src/main/core/controller.rs: manager_finished_current_round", "src/main/core/runahead.rs: get"]}
{"id": "C09", "title": "A host runs its own events in order and its clock never goes backwards", "statement": "Within and across rounds each host executes its events in the deterministic event order, each event at most once, at a clock equal to the event's time (plus any CPU delay), and executes every event whose time falls before the end of the window.", "quantifier": "all event populations, tasks that push further events, CPU delays, windows", "why_tests_cant": "Tasks may add events while running; the claim quantifies over all such programs.", "anchors": ["src/main/host/host.rs: Host::execute", "src/main/host/cpu.rs"]}
{"id": "C10", "title": "The CPU model never loses or reorders time", "statement": "The CPU's availability time never decreases; added native time is scaled by the frequency ratio and rounded to the nearest precision step (error at most half a step); the reported delay is either zero or strictly above the threshold, equals the time until the CPU is free, and an event postponed by it finds no delay when it is retried.", "quantifier": "all frequencies, precisions, thresholds and sequences of add-delay/update-time calls", "why_tests_cant": "Rounding and threshold behaviour over all 64-bit inputs and histories.", "anchors": ["src/main/host/cpu.rs: Cpu::{new,update_time,add_delay,delay}"]}
{"id": "C11", "title": "Rate limiting: the token bucket never over-grants", "statement": "In any time interval of length T the bucket admits at most capacity + increment*(T/interval+1) units, its balance never exceeds the capacity nor goes negative, and tokens are credited exactly once per elapsed interval, however often it is polled.", "quantifier": "all bucket parameters, all monotone sequences of request times and sizes", "why_tests_cant": "A rate bound over all request histories.", "anchors": ["src/main/network/relay/token_bucket.rs: TokenBucket::{lazy_refill,conforming_remove}"]}
{"id": "C12", "title": "A refused request is told the exact time at which it will succeed", "statement": "If a request of d units (d at most the capacity) is refused with wait w, then the same request retried exactly w later (with no other request in between) is granted, and a retry any earlier is refused.", "quantifier": "all bucket states, sizes and times", "why_tests_cant": "Exactness over all states, including the ceiling-division and saturating branches.", "anchors": ["src/main/network/relay/token_bucket.rs: conforming_remove, compute_conforming_duration"]}
{"id": "C13", "title": "The relay forwards every packet exactly once, in order, and never stalls", "statement": "A relay between two network devices delivers exactly the packets its source produced, in order, with no loss or duplication even when rate limiting interrupts it; it has at most one pending wake-up; and whenever packets are waiting it has a wake-up pending, so that every packet that fits the rate limiter's capacity is eventually forwarded.", "quantifier": "all packet sequences, bandwidths, arrival times, notification interleavings", "why_tests_cant": "Requires an invariant over all interleavings of notifications and wake-ups, plus a liveness argument.", "anchors": ["src/main/network/relay/mod.rs: Relay::{notify,forward_later,run_forward_task,forward_now,forward_until_blocked}, create_token_bucket"]}
{"id": "C14", "title": "The router queue is FIFO, conserves packets and drops only by the CoDel rule", "statement": "For every history of arrivals and departures at the router: each packet is forwarded, dropped or still queued, exactly one of these; forwarded packets keep arrival order; the byte count equals the bytes queued; and a packet is dropped only when it has been queued for at least the target delay with more than one MTU of other data queued.", "quantifier": "all arrival/departure histories and times", "why_tests_cant": "Conservation and drop conditions over all histories of a stateful control law.", "anchors": ["src/main/network/router/codel_queue.rs: CoDelQueue::{push,pop,...}"]}
{"id": "C15", "title": "Incoming packets reach exactly the right socket", "statement": "A packet arriving on an interface is handed to the socket bound to that exact (protocol, local address, peer) if there is one, otherwise to the socket bound to (protocol, local address, any peer), otherwise it is dropped; two sockets can never be associated with the same key, and after disassociating a socket it receives nothing.", "quantifier": "all association histories and packets", "why_tests_cant": "Quantifies over all bind/connect/close histories.", "anchors": ["src/main/host/network/interface.rs: NetworkInterface::{associate,disassociate,push}", "src/main/host/network/namespace.rs"]}
{"id": "C16", "title": "Ephemeral port allocation returns a free port whenever one exists", "statement": "The port chosen for an implicit bind lies in the ephemeral range, is not in use on the given interface by a socket with that peer nor by a wildcard socket, and allocation fails only if every port in the range is in use, whatever the random generator returns.", "quantifier": "all occupancy patterns and random generator outputs", "why_tests_cant": "The failure clause needs completeness of the linear search for every occupancy set.", "anchors": ["src/main/host/network/namespace.rs: NetworkNamespace::{get_random_free_port,is_addr_in_use}"]}
{"id": "C17", "title": "The interface send queue is fair/priority ordered and holds each socket once", "statement": "Popping the round-robin queue returns sockets in push order; popping the priority queue returns the smallest priority, ties in push order; no socket is ever queued twice; every accepted socket is popped exactly once.", "quantifier": "all histories of push and pop", "why_tests_cant": "All histories; order claims over arbitrary priorities.", "anchors": ["src/main/host/network/queuing.rs: NetworkQueue::{try_push,push,pop}"]}
{"id": "C18", "title": "Abstract unix-socket names are exclusive and autobind finds a free name whenever one exists", "statement": "At most one socket of a type holds a name; bind fails exactly if the name is held; a name becomes free again when its socket closes or unbinds; autobind returns a name that was free, of the documented shape, and fails only if all 16^5 names are taken.", "quantifier": "all bind/autobind/unbind/close histories and random outputs", "why_tests_cant": "Exhaustion and exclusivity over all histories.", "anchors": ["src/main/host/descriptor/socket/abstract_unix_ns.rs"]}
{"id": "C19", "title": "DNS is a consistent one-to-one name/address registry", "statement": "After any sequence of registrations, every address maps to exactly the host that registered it first and every name to exactly one address, name and address lookups agree with each other, duplicates and reserved addresses/names are rejected and leave the registry unchanged.", "quantifier": "all registration sequences", "why_tests_cant": "All histories of registrations including failing ones.", "anchors": ["src/main/network/dns.rs: DnsBuilder::register, Dns::{addr_to_host_id,name_to_addr}"]}
{"id": "C20", "title": "Automatic IP assignment gives unique usable addresses", "statement": "Each automatically assigned address was unassigned before, never ends in .0 or .255, addresses handed out automatically are strictly increasing, and manual assignment of a taken address is refused without changing the table.", "quantifier": "all sequences of automatic and manual assignments", "why_tests_cant": "Uniqueness over all histories.", "anchors": ["src/main/network/graph/mod.rs: IpAssignment::{assign,assign_ip,get_node,increment_address}"]}
{"id": "C21", "title": "New file descriptors take the lowest free number", "statement": "open/dup/accept etc. return the smallest descriptor number (not below the requested minimum) that is not in use, as POSIX requires; a descriptor number never refers to two files; closing frees exactly that number; allocation fails only if all numbers up to the limit are used.", "quantifier": "all histories of add, add-from, set (dup2) and close", "why_tests_cant": "The lazy free-list has to agree with the real set of free numbers after every history.", "anchors": ["src/main/host/descriptor/descriptor_table.rs: DescriptorTable"]}
{"id": "C22", "title": "eventfd counts exactly", "statement": "For every sequence of reads and writes, the sum of values read equals the sum of values written minus the counter; a read returns the whole counter (or 1 in semaphore mode) and blocks exactly at zero; a write blocks exactly if it would exceed 2^64-2; and the readable/writable readiness reported to poll matches whether the operation would succeed.", "quantifier": "all histories of reads and writes of any value and buffer size", "why_tests_cant": "Overflow edge cases and readiness agreement over all histories.", "anchors": ["src/main/host/descriptor/eventfd.rs"]}
{"id": "C23", "title": "Pipes deliver the byte stream intact with bounded buffering", "statement": "For every interleaving of writes and reads, the bytes read are a prefix of the bytes successfully written, in order; the buffer never exceeds its capacity; a write of at most the free space is never split; a reader sees end-of-file only when all writers closed and the buffer is drained; a write without readers fails with EPIPE; readiness flags agree with what a read/write would do.", "quantifier": "all interleavings of reads, writes and closes, any sizes", "why_tests_cant": "Stream integrity over all chunk boundaries and histories.", "anchors": ["src/main/host/descriptor/pipe.rs", "src/main/host/descriptor/shared_buf.rs"]}
{"id": "C24", "title": "The byte queue preserves data and packet boundaries", "statement": "Stream bytes come out in the order they went in whatever the chunking; a packet comes out whole (or truncated to the destination with the remainder discarded) and never merged with neighbours; the reported byte count equals the bytes stored; peek returns what pop would.", "quantifier": "all histories of stream/packet/chunk pushes and pops/peeks with any sizes and chunk capacity", "why_tests_cant": "All chunk splits and merges.", "anchors": ["src/main/utility/byte_queue.rs: ByteQueue"]}
{"id": "C25", "title": "epoll reports exactly the ready, interesting events", "statement": "Level-triggered: an entry is reported iff one of its interesting conditions currently holds. Edge-triggered: it is reported once per change. One-shot: after a report it is silent until re-armed. Closed files are never reported; reported sets are bounded by the requested maximum and no ready entry is starved by others.", "quantifier": "all histories of ctl calls, file state changes and waits", "why_tests_cant": "Edge/level semantics depend on whole histories.", "anchors": ["src/main/host/descriptor/epoll/entry.rs", "src/main/host/descriptor/epoll/mod.rs"]}
{"id": "C26", "title": "Timers fire exactly when due, the right number of times", "statement": "A timer armed for time e with interval i has, at time t, counted exactly 0 expirations if t<e, 1 if no interval, and floor((t-e)/i)+1 otherwise; it never fires early, re-arming or disarming invalidates all previously scheduled expirations, and reading the count resets it without losing an expiration.", "quantifier": "all histories of arm, disarm, read, clock advance, including delayed and stale expiration events", "why_tests_cant": "Stale scheduled events and the one-second chunking of far timers interact over all histories.", "anchors": ["src/main/host/timer.rs: Timer"]}
{"id": "C27", "title": "timerfd readability equals a pending expiration", "statement": "A timerfd is readable iff its expiration count is non-zero, a read returns the count and clears readability, blocks iff the count is zero, and setting the timer clears earlier unread expirations.", "quantifier": "all histories of settime, expiry, read and close", "why_tests_cant": "Readiness must agree with the counter after all histories.", "anchors": ["src/main/host/descriptor/timerfd.rs"]}
{"id": "C28", "title": "futex wake/wait never loses or over-delivers a wakeup", "statement": "FUTEX_WAKE(n) wakes min(n, number of waiters not already woken) waiters, each at most once per wait, longest-waiting first; a waiter whose word already differs is not put to sleep; the futex table entry exists exactly while someone waits.", "quantifier": "all histories of waits, wakes, timeouts and signals by any number of threads", "why_tests_cant": "Interleavings of wakes and resumptions.", "anchors": ["src/main/host/futex.c", "src/main/host/futex_table.rs", "src/main/host/syscall/handler/futex.rs"]}
{"id": "C29", "title": "TCP sequence-number ranges behave as circular intervals", "statement": "Range membership, length and intersection agree with the set of 32-bit sequence numbers they denote, for ranges that wrap around zero as well.", "quantifier": "all ranges and sequence numbers in 32-bit modular arithmetic", "why_tests_cant": "2^128 pairs of ranges.", "anchors": ["src/lib/tcp/src/seq.rs: Seq, SeqRange::{contains,len,intersection}"]}
{"id": "C30", "title": "TCP window scaling agrees on both sides", "statement": "Scaling is applied only if both SYNs offered it, each side decodes the advertised window with the shift the other side encoded it with, shifts never exceed 14, and the chosen shift is the smallest that lets the maximum window be represented (up to the protocol limit).", "quantifier": "all configurations, SYN orders and window sizes", "why_tests_cant": "All window sizes and handshake orders.", "anchors": ["src/lib/tcp/src/window_scaling.rs"]}
{"id": "C31", "title": "TCP delivers a prefix of the sent byte stream", "statement": "Whatever the network does to segments (loss, duplication, reordering, arbitrary delay), the bytes a receiver reads are a prefix of the bytes the sender wrote: no corruption, gap, duplication or reordering in the stream.", "quantifier": "all network histories, write/read sizes, and initial sequence numbers", "why_tests_cant": "All interleavings of segment delivery.", "anchors": ["src/lib/tcp/src/connection.rs: Connection::{push_packet,pop_packet,send,recv}", "src/lib/tcp/src/buffer.rs: SendQueue, RecvQueue"]}
{"id": "C32", "title": "TCP never sends beyond the peer's window nor in over-long segments", "statement": "Every data segment lies inside the receive window most recently advertised by the peer and carries at most the maximum payload.", "quantifier": "all send histories, window advertisements and buffer states", "why_tests_cant": "All histories of acknowledgements and window updates.", "anchors": ["src/lib/tcp/src/connection.rs: next_data_segment, pop_packet"]}
{"id": "C33", "title": "TCP connection states follow the protocol's transition diagram", "statement": "From any reachable state, every packet, timeout, close or shutdown moves the connection along an edge of the RFC 9293 state diagram (or to the reset/closed state), and a closed connection never comes back.", "quantifier": "all histories of user calls, packets and timeouts", "why_tests_cant": "All paths through the state machine.", "anchors": ["src/lib/tcp/src/states.rs"]}
{"id": "C34", "title": "A listening TCP socket bounds its backlog and accepts in order", "statement": "The number of pending connections never exceeds the backlog bound, each peer has at most one pending connection, a connection handed out by accept was fully established and is handed out exactly once, in the order of establishment.", "quantifier": "all histories of SYNs, ACKs, resets and accepts from any number of peers", "why_tests_cant": "All interleavings of handshakes.", "anchors": ["src/lib/tcp/src/states.rs: ListenState"]}
{"id": "C35", "title": "No packet from the network can crash the TCP stack", "statement": "For every reachable connection and every packet a remote peer could send, processing it returns normally (possibly resetting the connection) rather than panicking.", "quantifier": "all reachable states and all packets, including malformed flag combinations", "why_tests_cant": "Adversarial packets in every state are far beyond enumerated tests.", "anchors": ["src/lib/tcp/src/connection.rs: push_packet", "src/lib/tcp/src/states.rs"]}
{"id": "C36", "title": "End of stream is reported after all data and exactly when the peer closed", "statement": "A TCP reader gets end-of-stream only after every byte the peer sent before its FIN has been read, and once the FIN has been accepted a reader that has drained its buffer gets end-of-stream rather than 'try again'.", "quantifier": "all histories", "why_tests_cant": "FIN may arrive in any state, combined with data or handshake segments.", "anchors": ["src/lib/tcp/src/states.rs", "src/lib/tcp/src/connection.rs"]}
{"id": "C37", "title": "The shared-memory channel neither loses nor duplicates a message nor a wakeup", "statement": "For every interleaving of one sender's and one receiver's atomic steps (including spurious futex wakeups and the writer closing), each message is received exactly once and unchanged, and a receiver is never left asleep while a message or a close is pending.", "quantifier": "all interleavings of atomic steps, any number of messages", "why_tests_cant": "Exhaustive over unbounded interleavings.", "anchors": ["src/lib/vasi-sync/src/scchannel.rs: SelfContainedChannel::{send,receive,close_writer}"]}
{"id": "C38", "title": "The shared-memory mutex is mutually exclusive and never strands a waiter", "statement": "For any number of threads and any interleaving of their atomic steps at most one holds the lock, and whenever the lock is free and threads are asleep on it, a wakeup for one of them is on its way.", "quantifier": "all thread counts and interleavings", "why_tests_cant": "Unbounded threads and interleavings.", "anchors": ["src/lib/vasi-sync/src/scmutex.rs"]}
{"id": "C39", "title": "Latches release exactly one generation at a time", "statement": "A thread waiting on a latch is released only after the latch was opened (or all counters counted down) for its generation, every waiter of a generation is released, and no participant can run ahead into the next generation before everyone passed the current one.", "quantifier": "all thread counts, interleavings and generations (including wrap-around of the 32-bit generation)", "why_tests_cant": "Unbounded interleavings and generations.", "anchors": ["src/lib/scheduler/src/sync/simple_latch.rs", "src/lib/scheduler/src/sync/count_down_latch.rs"]}
{"id": "C40", "title": "Each host runs exactly once per round under work stealing", "statement": "Whatever the order in which threads pop from their own queues and steal from others, in each round every host is processed exactly once and is available again for the next round.", "quantifier": "all numbers of threads, hosts and interleavings of queue operations", "why_tests_cant": "Unbounded interleavings.", "anchors": ["src/lib/scheduler/src/thread_per_core.rs"]}
{"id": "C41", "title": "The interval map behaves as a map from points to values", "statement": "After any sequence of inserts and clears, looking up any point gives the value of the last operation covering it; stored intervals are sorted, non-empty and disjoint; and the reported list of modifications describes exactly how the previous intervals changed.", "quantifier": "all sequences of insert/clear with any intervals", "why_tests_cant": "Splits and merges for every overlap pattern.", "anchors": ["src/main/utility/interval_map.rs: IntervalMap"]}
{"id": "C42", "title": "Simulated-time arithmetic is exact or explicitly fails", "statement": "Checked operations return the exact mathematical result if it is representable and an error otherwise; saturating operations clamp and never crash; conversions to and from seconds/nanoseconds round-trip.", "quantifier": "all 64-bit time values", "why_tests_cant": "2^128 operand pairs.", "anchors": ["src/lib/shadow-shim-helper-rs/src/simulation_time.rs", "src/lib/shadow-shim-helper-rs/src/emulated_time.rs"]}
{"id": "C43", "title": "Unit conversion in configuration is exact or refused", "statement": "Converting a configured quantity (time, bits, bits/s) between prefixes yields exactly the same physical quantity, or an error if precision would be lost or the value overflows; converting back is the identity.", "quantifier": "all values and prefix pairs", "why_tests_cant": "All 64-bit values.", "anchors": ["src/main/utility/units.rs: Prefix::conversion_factor, unit_impl convert"]}
{"id": "C44", "title": "Readers and writers of counters see exact totals", "statement": "Statistics counters merged from any number of workers in any order equal the sum of all increments per key, and a key is present exactly when its total is non-zero.", "quantifier": "all increment histories and merge orders", "why_tests_cant": "Order independence over all permutations.", "anchors": ["src/main/utility/counter.rs: Counter", "src/main/core/sim_stats.rs"]}
{"id": "C45", "title": "The shared-memory allocator never hands out overlapping live blocks", "statement": "Live blocks are pairwise disjoint, properly aligned, inside their chunk and at least as large as requested, for every sequence of allocations and frees.", "quantifier": "all sequences of alloc/free with any sizes and alignments", "why_tests_cant": "Requires a heap invariant over all histories.", "anchors": ["src/lib/shmem/src/shmalloc_impl.rs: FreelistAllocator"]}
{"id": "C46", "title": "Configured quantities are read as written", "statement": "A text is accepted as a time, byte count or bandwidth exactly if it is an unsigned decimal number that fits 64 bits followed by an optional known prefix and suffix, it is read as exactly that quantity, no text is ambiguous, and every quantity that is printed is read back unchanged.", "quantifier": "all texts, all values and prefixes", "why_tests_cant": "Infinitely many texts; ambiguity between prefixes and suffixes is a global property.", "anchors": ["src/main/utility/units.rs: unit_impl FromStr, Display"]}
{"id": "C47", "title": "TCP readiness flags agree with what the calls do", "statement": "A connected TCP socket polls as writable exactly if sending a byte now succeeds, and as readable exactly if a read returns data (also after the connection was closed with data left over); a read says try again exactly if the socket is connected, not readable and the peer has not finished. connecting, connected, closed, error and ready-to-accept hold exactly if connect reports in progress, connect reports already connected, the socket is closed, an error is pending, and accept returns a connection.", "quantifier": "all sockets reachable by calls, arbitrary packets and timers", "why_tests_cant": "The flags are computed by hand in each of eleven states, separately from the calls; agreement has to hold in every reachable state.", "anchors": ["src/lib/tcp/src/states.rs: poll, send, recv, connect"]}
{"id": "C48", "title": "The pending error of a TCP socket is the first one and names its cause", "statement": "A socket gets a pending error exactly when it is reset by the peer, resets the connection itself, is closed while connecting, or times out while connecting; an error that was not read yet is kept (a timeout replaces it); calls other than reading the error leave it alone, and reading clears it.", "quantifier": "all reachable sockets and all events", "why_tests_cant": "Every state sets errors on its own paths; the claim is about all transitions of all states.", "anchors": ["src/lib/tcp/src/states.rs: set_error_if_unset, clear_error"]}
{"id": "C49", "title": "A scope of the thread pool runs its task once on every thread and ends only when all have returned", "statement": "For the thread pool used by the thread-per-core scheduler: when scope returns, every thread was given every task passed to run so far, each exactly once and in order; while any thread is in a task its scope has not ended and the task is not replaced or dropped; scope returns normally exactly if no task has panicked, and after a panic every later scope panics without calling its closure; dropping the pool ends all threads, and neither the latches nor the cell of the task nor join ever fail an assertion; run, scope and join return if the tasks return.", "quantifier": "any number of threads and scopes, all interleavings of the threads, wake-ups for no reason, panics of tasks on any of the threads", "why_tests_cant": "The tasks borrow from the stack of the main thread with their lifetime erased, so one missed interleaving is a use after free; tests run a handful of schedules.", "anchors": ["src/lib/scheduler/src/pools/unbounded.rs: UnboundedThreadPool, TaskRunner, work_loop"]}
{"id": "C50", "title": "Emulated signals are delivered exactly once, in order, to a thread that does not block them", "statement": "For the emulated signals of a process: what became pending for a number, on the process or on a thread, is what was taken plus what is still pending, in order and with its information, so nothing is lost, doubled or mixed up; a signal is merged only into one that is pending and dropped only if ignored; only a running thread that does not block a signal takes it, its own signals before those of the process and lowest number first; the handler runs with the mask its action asks for, and after it returned mask and alternate stack are as before whatever it did; process_signals returns only when nothing unblocked is left and says whether all handlers had SA_RESTART; a thread never sleeps on with an unblocked signal of its own pending, nor a single-threaded process with one of its own; a signal for the process wakes the caller or the first sleeping thread that does not block it.", "quantifier": "all processes, any number of threads, all interleavings of sending, masking, blocking, handlers nested to any depth and returns", "why_tests_cant": "The claim is about all orders of sending, masking and running handlers; a lost wake-up needs one particular order.", "anchors": ["src/lib/shim/src/signals.rs: process_signals", "src/lib/shadow-shim-helper-rs/src/shim_shmem.rs: take_pending_unblocked_signal", "src/main/host/process.rs: signal, interrupt_with_signal", "src/main/host/syscall/handler/signal.rs", "src/main/host/syscall/syscall_condition.c"]}
{"id": "C51", "title": "Scattered buffers are read and written as one stream of bytes", "statement": "A reader or writer over the buffers (iovecs) of a program moves exactly the bytes at the addresses the buffers make up one after the other, each address once and in order, across empty buffers and any split into calls: read_exact and write_all succeed exactly if there are enough addresses and none of them faults, report a fault exactly if one of them faults, read and write stop early only at the end or before a fault, nothing beyond is touched, and what is written through one list of buffers is read back through any other list with the same addresses. Neither a panic nor an unexpected end occurs when the length asked for is the computed total length.", "quantifier": "all lists of buffers, all memories with arbitrary faulting addresses, all lengths", "why_tests_cant": "The loops carry offsets inside partly used buffers; the claim is about all splits and all places of faults.", "anchors": ["src/main/host/syscall/io.rs: IoVecReader, IoVecWriter", "src/main/host/memory_manager/memory_copier.rs"]}
{"id": "C52", "title": "UDP sockets keep datagrams whole, in order and exactly once", "statement": "For UDP sockets: the datagrams that sends accepted are, in order and byte for byte with their addresses, those the interface got followed by those waiting, and those accepted from the interface are those receives took followed by those waiting; among any number of sockets with a network that may delay, reorder and drop, no datagram is received more often than it was sent, or changed, or made up. A connected socket accepts packets of its peer only, a socket is bound at most once and its source address is the bound one (or that of the interface used), sends are accepted only below the buffer limit, each send and receive returns exactly the documented result, peeking shows what the next receive gives, a datagram that is too long is cut and reported, a socket is readable exactly if a datagram waits, a blocked thread is told when it can go on, accepted datagrams still leave after close, and no assertion fails.", "quantifier": "all sequences of calls on any number of sockets, all memories and buffers, all behaviours of the network", "why_tests_cant": "The state space of queues, addresses and flags is unbounded and the assertions about binding depend on the whole history.", "anchors": ["src/main/host/descriptor/socket/inet/udp.rs"]}
{"id": "C53", "title": "Listeners are called once per notification, in order, and never missed", "statement": "When the state of a file changes, every listener that has a handle at that moment is queued exactly once, with the state of that moment, in the order of registration; callbacks run in the order in which they were queued, and when the queue has been run everything queued has run, including what the callbacks queued themselves. Dropping a handle removes its own listener and no other, even after the 32-bit ids wrapped around, and never panics; a C listener is registered once however often it is added. A filter calls its listener exactly on the documented condition: OffToOn never misses a change from no monitored bit to some, OnToOff is called exactly when the last monitored bit goes, and a monitored signal always gets through.", "quantifier": "all interleavings of adding, dropping, notifying and running, all states and masks", "why_tests_cant": "Callbacks change the set of listeners while it is being notified and re-enter the queue; collisions of ids need 2^32 registrations.", "anchors": ["src/main/utility/callback_queue.rs: CallbackQueue, EventSource, Handle", "src/main/host/descriptor/listener.rs", "src/main/host/status_listener.c"]}
{"id": "C54", "title": "The end of every process is reported once, to its parent, and process trees stay trees", "statement": "For the processes of a host, whatever they do: pids are never reused; the parent of a process is a running, older process or init; a process that ends stays, with an unchanging status, until its parent collects it, unless the parent is init or ignores the signal, and no wait reports it again after that; when a process ends its parent gets its exit signal with the right information, its running children go to init with the signal they asked for, and the zombies among its children go. wait4 and waitid return exactly what their arguments and the children call for (which child, status, information, errors, no child, nothing yet), and a thread that waits for ordinary children never sleeps on when one of them has ended or none is left. Groups stay within sessions; setpgid and setsid succeed exactly under their conditions. No assertion fails, apart from two argument values of the waits.", "quantifier": "all sequences of forks, exits, waits, group and session changes and signals' dispositions by any number of processes", "why_tests_cant": "Who reaps whom depends on the whole history and on the order of exits; a lost wake-up or a second report needs one particular order.", "anchors": ["src/main/host/process.rs", "src/main/host/host.rs: resume, free_all_applications", "src/main/host/syscall/handler/wait.rs", "src/main/host/syscall/handler/unistd.rs: setpgid, setsid"]}
{"id": "C55", "title": "Unix sockets deliver what was sent, once and in order, and their states are right", "statement": "For the unix-domain sockets of a host (stream, packet and datagram), whatever the programs do with them: each of socket, socketpair, bind, listen, connect, accept, send, receive and close returns exactly what the sockets' states call for and changes them only as it should. What is read from a socket is what its peer sent (datagrams: what anybody sent to it), in order and once, packets whole and with their sender's address; the end of a stream is reported only when the peer is closed and everything was read. Connections are accepted in the order in which they were made, each once, and wait in the queue of one listening socket. The bytes that a socket has in flight never exceed its buffer and are counted exactly. The published state bits say exactly what can be done without waiting, so that no waiting thread is forgotten. Names lead to open sockets of the right kind. Nothing panics, apart from a datagram socket that sends to itself, a socket that connects to its own address, and memory that faults half way.", "quantifier": "all sequences of calls on any number of sockets, with any data, names, sizes, backlogs and blocking modes", "why_tests_cant": "The states of two sockets, their buffers, counters, listeners and the namespace must agree after any interleaving of calls on both ends, including closes with data in flight and connections that are never accepted.", "anchors": ["src/main/host/descriptor/socket/unix.rs", "src/main/host/descriptor/shared_buf.rs", "src/main/host/descriptor/socket/abstract_unix_ns.rs"]}
{"id": "C56", "title": "A file is closed exactly once, exactly when nothing refers to it any more", "statement": "Whatever the programs of a host do with their descriptors: an open file that some live thread has a descriptor for, or that a blocked call is working on, has not been closed; when the last such reference goes, by close, close_range, dup2, dup3, exec, the end of a thread or the end of a blocked call, the file is closed, once. Each of the calls returns what its specification says and changes the descriptors of the caller and of the threads that share its table exactly as it says: dup, dup2, dup3 and F_DUPFD make a second descriptor for the same open file with the asked flag, clone shares or copies the table, exec keeps exactly the descriptors without the close-on-exec flag in a table of its own. No other thread notices anything.", "quantifier": "all sequences of calls by any number of threads and processes, with shared and copied tables, any numbers and flags, and calls that block while others close the descriptor", "why_tests_cant": "References are held in tables that are shared or copied, in descriptors that are replaced, and in the conditions of blocked calls; a leak or a double close shows only for particular combinations of fork, dup, exec and blocking.", "anchors": ["src/main/host/descriptor/mod.rs", "src/main/host/descriptor/descriptor_table.rs", "src/main/host/syscall/handler/unistd.rs", "src/main/host/syscall/handler/close_range.rs", "src/main/host/syscall/handler/fcntl.rs", "src/main/host/syscall/handler/clone.rs", "src/main/host/thread.rs"]}
{"id": "C57", "title": "A program and Shadow see the same memory, whatever the program maps, moves, protects or gives back", "statement": "While a program runs, Shadow reads and writes its private anonymous memory, its heap and its stack through a mapping of its own. For every sequence of mmap, munmap, mremap, brk and mprotect, with stores by the program and writes by Shadow in between: the program sees exactly what the specification of the calls says (new memory is zero, a moved mapping keeps its bytes, a protection changes where it was asked for, everything else stays); a pointer that Shadow uses leads to the program's own bytes with the program's protection, what Shadow reads is what the program has there, and what it writes changes these bytes and no others; every byte of private anonymous memory has such a pointer. Shadow never keeps a mapping of memory that the program gave back, never has a byte mapped twice, and bytes of the backing file that are not in use are zero. At the start nothing the program had is lost and the stack can grow to its limit; at the end Shadow has unmapped everything. Shadow stops only for the calls that it does not support, which are named exactly.", "quantifier": "all address spaces of a starting program, all sequences of calls with any addresses and lengths, any answers of the kernel, and any stores and writes in between", "why_tests_cant": "Two address spaces, a file and an interval map must agree after any sequence of calls that overlap, split or merge mappings; a wrong offset or a forgotten unmapping shows only for particular overlaps, as wrong bytes in a system call much later.", "anchors": ["src/main/host/memory_manager/memory_mapper.rs", "src/main/host/memory_manager/mod.rs", "src/main/utility/interval_map.rs"]}
{"id": "C58", "title": "A lazily initialized value is made once, and everyone who asks for it gets it", "statement": "However many threads ask for the value of a LazyLock and however their steps interleave: the initializer runs at most once, no request returns before it has returned, every thread reads the value that it returned and never memory that is not yet written (every read is ordered after the write), and no internal check fails. No thread sleeps forever: unless the initializer panics or never returns, every request returns after a bounded number of steps. Dropping the lock drops exactly the value that was made.", "quantifier": "any number of threads and requests, all interleavings of their atomic accesses and futex calls, any signals during the waits, any value", "why_tests_cant": "A lost wake-up or a missing memory ordering shows only for one interleaving of the state word, the futex and the write of the value; the loom tests bound the number of threads and preemptions.", "anchors": ["src/lib/vasi-sync/src/lazy_lock.rs"]}
{"id": "C59", "title": "The thread-local table gives each thread its own values", "statement": "As long as each key is used by one thread at a time, a thread that looks up a key in an AtomicTlsMap gets the value that was inserted for this key and not removed, whatever other threads insert, remove and look up at the same time and whatever the hash function: the initializer runs only if there is no value, a removal takes the value out exactly once, a reference always leads to the value it was made for, no entry is accessed by two threads without order between them, and removing a value that is still referred to panics. Dropping the table drops each remaining value exactly once. After forget_all in the child of a fork the table is empty.", "quantifier": "any number of slots and threads, all interleavings, any hash function, keys and values", "why_tests_cant": "A search passes over slots that other threads take and free meanwhile; a key in two slots, a lost key or a race shows only for particular interleavings and collisions.", "anchors": ["src/lib/vasi-sync/src/atomic_tls_map.rs"]}
{"id": "C60", "title": "Rooted references and cells: a value lives as long as a strong reference, and has one writer or any number of readers", "statement": "Whatever sequence of operations is made on RootedRc, RootedRcWeak and RootedRefCell objects: a value can be read through every strong reference until the last of them is explicitly dropped, that drop and no other hands the value out, and the memory is freed once, by the drop of the last reference of either kind; upgrading a weak reference succeeds exactly while a strong one exists; a reference that is dropped without explicit_drop only leaks. A cell can be borrowed for reading exactly when no guard for writing exists and for writing exactly when no guard exists, and readers see what was last written. An operation with the root of another object panics and changes nothing. The roots of a process have different tags.", "quantifier": "any number of objects, references, guards, roots and threads, any sequence of operations, debug and release builds", "why_tests_cant": "The code is unsafe and relies on counts that are not atomic; a wrong count shows only as a use after free for some sequence of operations, and the tests try a few short ones.", "anchors": ["src/lib/shadow-shim-helper-rs/src/rootedcell/rc.rs", "src/lib/shadow-shim-helper-rs/src/rootedcell/refcell.rs", "src/lib/shadow-shim-helper-rs/src/rootedcell/mod.rs"]}
{"id": "C61", "title": "Exit callbacks of child processes run once, after the exit", "statement": "However threads call a ChildPidWatcher while processes exit and its own thread handles events: a callback registered for a process runs at most once, only after the process has exited, never after unregister_callback for it has returned and never after the watcher has been dropped; a callback registered after the exit runs too; handles are never reused. No internal check fails if callbacks are registered for registered processes only, a process is registered again only when nothing is left of it, and no callback is unregistered after unregister_pid. The callback of a process that has exited is never forgotten: the watcher thread does not sleep, and each of its rounds runs all callbacks of the processes that the wait returned or whose exit was seen before.", "quantifier": "any number of processes, callbacks and threads, all interleavings of calls, exits, returns of the wait and rounds of the watcher thread", "why_tests_cant": "A callback that is lost or runs twice shows only when the exit, the registration and the round of the watcher thread happen in a particular order; the tests try a few of them with sleeps.", "anchors": ["src/main/utility/childpid_watcher.rs"]}
{"id": "C62", "title": "A thread per host: a scope runs its task once on every thread, one thread per processor at a time", "statement": "For the thread pool used by the thread-per-host scheduler, with more threads than processors: when scope returns, every thread was given every task passed to run so far, each exactly once and in order; no two threads are in the task on the same logical processor at once, so never more threads than processors; after run has returned no processor is idle while a thread still waits for its turn; while any thread is in a task its scope has not ended and the task is not replaced or dropped; scope returns normally exactly if no task has panicked, after a panic every later scope panics without calling its closure, and the remaining threads still run the task; dropping the pool ends all threads; no assertion, borrow, queue or index of the pool ever fails; a thread that was pinned is pinned to the CPU of the processor it runs on; run, scope and join return if the tasks return.", "quantifier": "any number of threads, processors and scopes, all interleavings of the threads, wake-ups for no reason, panics of tasks on any of the threads", "why_tests_cant": "Threads start each other through queues, flags and tokens; a thread that is started twice or never, or a lost wake-up, shows only for particular interleavings of stealing, parking and the end of a scope.", "anchors": ["src/lib/scheduler/src/pools/bounded.rs: ParallelismBoundedThreadPool, TaskRunner, work_loop, start_next_thread", "src/lib/scheduler/src/logical_processor.rs", "src/lib/scheduler/src/sync/thread_parking.rs"]}
{"id": "C63", "title": "Capture files hold exactly the packets the interface sent and received", "statement": "With pcap enabled, the capture file of an interface is a well-formed libpcap file that reads back, in order, as exactly the packets the interface sent and received: for each the time to the microsecond, the length of the packet, and its first bytes up to the configured capture length; in the complete bytes a standard IPv4, TCP or UDP parser finds the addresses, ports, sequence and acknowledgement numbers, control bits, window, window scale and payload of the packet, and the length fields agree with the number of bytes. Short writes do not matter. If the file system fails, the simulation does not panic, capturing ends, and the file still holds the records of all earlier packets, followed at most by the remains of one record.", "quantifier": "any capture length, any sequence of TCP and UDP packets of at most 65535 bytes at any times (seconds saturate in 2106), any answers of the file system to each write and seek", "why_tests_cant": "The record header is patched after the packet was written through a limited writer; which bytes are where depends on the capture length, the chunks of the packet and each short write or error, and the tests write one small packet into memory.", "anchors": ["src/main/utility/pcap_writer.rs", "src/main/utility/give.rs", "src/main/network/packet.rs: display_bytes, write_tcpdata_bytes, write_udpdata_bytes, len", "src/main/host/network/interface.rs: capture_if_configured"]}
{"id": "C64", "title": "A packet gives back what the C implementation of TCP put into it", "statement": "A packet made with packet_new_tcp and packet_updateTCP gives back through packet_getTCPHeader the addresses and ports in the same byte order, the sequence and acknowledgement numbers, all flags of the C code, up to four selective acknowledgements, the window up to 65535, the window scale, and the time stamps rounded down to milliseconds, so that a round trip time computed from an echoed time stamp is less than a millisecond too long. packet_copyPayloadWithMemoryManager writes exactly the payload bytes from the given offset that fit into the buffer, whatever the chunks they were appended in, and returns their number; reading a packet piece by piece with any buffer lengths gives every byte once and in order; EFAULT is returned only if that part of the buffer cannot be written.", "quantifier": "all header values, any number and size of chunks, any offsets and buffer lengths", "why_tests_cant": "The conversions go through another flag encoding, byte order and unit; the copy crosses chunk boundaries with two moving offsets, and mistakes show only for particular combinations of chunk sizes, offsets and lengths.", "anchors": ["src/main/network/packet.rs: export", "src/main/network/legacypacket.h"]}
{"id": "C65", "title": "Shadow and its managed threads take turns, and every call gets its own answer", "statement": "On each host at most one thread of all managed processes runs at a time, and only while Shadow is blocked waiting for that very thread; while Shadow runs, every thread is blocked and waits for it. A system call that a thread makes reaches Shadow's handler with its number and arguments, again and again until the handler gives an answer; the call returns exactly that answer, once (or what the kernel answered, where Shadow says so), also when signal handlers make calls in between; it is made again only if it was interrupted with a restartable EINTR and all handlers asked for restarting; in a forked process the call returns 0. The lock of the shared memory has one holder. Shadow's clock never goes back and a thread never moves it beyond the time up to which it may run ahead. Neither side panics, and what Shadow waits for comes, except if a process dies before it has started, while it makes a call for Shadow, or while it has the lock.", "quantifier": "any number of processes and threads, all interleavings of their steps with Shadow's, the deaths of processes and the watcher of exits, any calls, answers, signals and clones", "why_tests_cant": "The order of messages over two channels, a lock and the exit watcher matters; a lost turn, an answer to the wrong call or a wait that never ends shows only for particular interleavings, and the integration tests run programs with few of them.", "anchors": ["src/main/host/managed_thread.rs", "src/lib/shim/src/syscall.rs", "src/lib/shim/src/lib.rs: wait_for_start_event", "src/lib/shim/src/clone.rs", "src/lib/shim/src/signals.rs", "src/lib/shim/shim_sys.c", "src/lib/shadow-shim-helper-rs/src/ipc.rs", "src/lib/shadow-shim-helper-rs/src/shim_event.rs"]}
{"id": "C66", "title": "A system call is executed to its end once and answered with that result", "statement": "However often a system call blocks, is interrupted or has its answer held back to let time pass: the handler is executed for a call only while it has no result, with the number and arguments of that call; once an execution did not block, or wanted to block while an unblocked signal was waiting (then the result is EINTR, restartable as the handler said), it is not executed again and the program gets exactly that result, once. A result that is held back is handed over at the next wakeup, not before its time unless a signal is waiting. A call never moves the clock back nor beyond the time of the next event, and leaves at most the configured maximum of latency unapplied. Each call is counted once by name, and no internal check of the handler fails for call numbers that fit 32 bits.", "quantifier": "any sequence of calls, results of handlers, wakeups, signals, latencies and limits of the clock", "why_tests_cant": "The handler is a small state machine across several events (blocked call, delayed result, latency); executing a write twice or answering a call with the result of another shows only when a delay, a wakeup and a signal come in a particular order.", "anchors": ["src/main/host/syscall/handler/mod.rs: SyscallHandler::syscall", "src/main/host/syscall/types.rs", "src/main/host/managed_thread.rs: resume", "src/main/host/thread.rs: resume", "src/main/host/process.rs: resume"]}
{"id": "C67", "title": "A blocked thread is woken for its reason, once, and no wakeup is lost", "statement": "A thread that is blocked in a system call runs again only through the wakeup of the condition it waits on, and only if then the call's time has come, a bit of the file it waits for is on, its futex or child was signalled, or a signal is there that it does not block; each wait is ended so at most once. No wakeup is lost: as soon as one of these holds for a waiting thread, its wakeup is in the queue of the host at the present time, the clock does not move before it has run, and when it runs the thread goes on. A call never waits beyond its timeout. A signal sent to a process is on its way to one of its threads that does not block it. A condition is freed exactly when its thread, its timer, its listener and its queued wakeup are gone, and no one uses it after that.", "quantifier": "any number of threads and processes, all orders of blocking, state changes, timers, signals, masks, exits, forks and execve calls", "why_tests_cant": "Timers, listeners, signals, exits and execve race for the same condition, which is counted by hand in C; a wakeup that is dropped because another was cancelled, or a count that is off by one, shows only for particular orders of these events and then as a hang.", "anchors": ["src/main/host/syscall/syscall_condition.c", "src/main/host/thread.rs: resume", "src/main/host/process.rs: signal, interrupt_with_signal, update_for_exec", "src/main/host/syscall/handler/signal.rs: signal_thread", "src/main/host/syscall/handler/unistd.rs: execve_common"]}
{"id": "C68", "title": "The C TCP stack resends exactly the packets that are lost", "statement": "The record of lost packets of the C TCP stack never fails an assertion, whatever acknowledgements, selective acknowledgements, timeouts and retransmissions it is told of. From the highest acknowledgement on, the packets it reports for retransmission are exactly those that were marked lost, less those the peer acknowledged selectively and those already sent again, as of the last time it was computed; a packet never marked lost is never reported. The report consists of non-empty, sorted, disjoint ranges. Three repetitions of a new acknowledgement make the packet it asks for a lost one, fewer do not; a timeout makes every packet of its range lost that the peer did not acknowledge selectively.", "quantifier": "any sequence of calls with any acknowledgements, blocks and ranges, without a bound on the number or size of ranges", "why_tests_cant": "Range lists are merged, split and subtracted by hand-written loops; a range that is off by one or merged wrongly loses or repeats a packet only for particular layouts of gaps, and then the connection stalls or an assertion ends the simulation.", "anchors": ["src/main/host/descriptor/tcp_retransmit_tally.cc", "src/main/host/descriptor/tcp_retransmit_tally.h"]}
{"id": "C69", "title": "A connection of the C TCP stack carries the byte stream unchanged", "statement": "Two programs that are connected by the C TCP stack: whatever packets the network loses, delays or reorders and whenever timers expire, what one program has read is a prefix of what the other has written. A program that did not shut down its read side is told of the end of the stream only after it has read everything, and only if the other program has closed its write side. Data that an endpoint regards as acknowledged was received in order, data it regards as selectively acknowledged is at the receiver. No call, packet or timer makes the code fail.", "quantifier": "all executions of two endpoints and a network that may drop, delay and reorder packets, all data and sizes of calls, all congestion windows and buffer sizes", "why_tests_cant": "A wrong interaction of retransmission, window, selective acknowledgement and closing shows only for particular orders of packets and timers, and corrupts or truncates a stream silently.", "anchors": ["src/main/host/descriptor/tcp.c", "src/main/host/descriptor/socket.c", "src/main/host/descriptor/socket/inet/legacy_tcp.rs"]}
{"id": "C70", "title": "The C TCP stack forgets no data before it is acknowledged", "statement": "As long as a connection is open, every packet that was created and is not acknowledged waits to be sent or to be acknowledged; while sent data waits to be acknowledged the retransmission timer is on; and when it expires, every packet that was given to the network and is not acknowledged, selectively or not, is queued to be sent again. So once the network loses no more packets all data arrives, and after a close the end of the stream.", "quantifier": "all executions of two endpoints and a network that may drop, delay and reorder packets", "why_tests_cant": "A packet that is dropped from a queue, or a timer that is not set again, stalls a connection only after particular losses; a simulation then shows a stalled transfer that looks like a slow network.", "anchors": ["src/main/host/descriptor/tcp.c"]}
{"id": "C71", "title": "Packets take the shortest path of the configured graph", "statement": "A network graph is accepted exactly if every node has an identifier and every edge has a loss between 0 and 1, a positive latency and existing end points. With shortest paths, the latency between two nodes in use is that of the fastest walk along edges of the file, with the lowest loss among the fastest ones, and that of a node to itself is its only self-loop; without, it is the only edge between them. The result does not depend on the order of sets, edges or equal costs. Latencies are positive, losses between 0 and 1, an undirected graph has the same latency in both directions, a detour over a third node is not faster, and the smallest latency handed to the scheduler is the minimum over all paths. A graph that does not allow this is refused with an error, except that nodes in use which cannot reach each other end in a panic.", "quantifier": "all graphs, directed or not, with any number of nodes and edges, all sets of nodes in use, all orders of equal costs, and all monotone roundings of losses", "why_tests_cant": "A test has a handful of nodes; a wrong tie-break, a lost self-loop or an iteration order that leaks into the result appears only for particular graphs, and then every latency of the simulation is silently off or differs between runs.", "anchors": ["src/main/network/graph/mod.rs", "src/main/core/sim_config.rs"]}
{"id": "C72", "title": "poll and select report what the files say and wait no longer than asked", "statement": "When poll, ppoll, select or pselect6 returns, every entry tells exactly what its file says at that moment: nothing for a negative descriptor, POLLNVAL for one that is not open, for another file the events that were asked for and are there; the result is the number of entries that say something, or of members of the sets for select, whose sets hold exactly the descriptors that were in them and are ready. A call goes to sleep only if no entry says anything, it may wait and no signal is there. As soon as an entry has something to say, or a signal comes, the thread is woken at that very moment and the call returns. Without either it returns zero exactly when its timeout has passed, and never without a timeout. A thread that is not in such a call watches no file for it. This holds if the entries are about different descriptors, no file of the call is closed during it and no other thread changes its descriptors or takes its signals.", "quantifier": "all arrays of entries and sets, all timeouts, and all executions in which files, descriptors, signals and the clock change around the call", "why_tests_cant": "A test polls one or two descriptors and one event; whether a wakeup is lost depends on the order of events of several files, of the timer and of signals, and on what earlier calls left behind in the epoll object of the thread.", "anchors": ["src/main/host/syscall/handler/poll.c", "src/main/host/syscall/handler/select.c", "src/main/host/descriptor/epoll.c", "src/main/host/syscall/syscall_condition.c"]}
{"id": "C73", "title": "Sleeps and alarms happen at the nanosecond that was asked for", "statement": "A nanosleep or clock_nanosleep that returns zero does so exactly when the duration has passed since the call, or at the point in time that was named, and at once if that is past. It returns EINTR only if a signal is there, which wakes it at that very moment; a duration that was interrupted then has the remaining time written, which together with the time that has passed is the duration. Bad times, clocks that cannot be slept on and unknown flags are refused. setitimer and alarm set the timer of the process to expire at the present time plus the value, and again after each interval, or stop it, whatever it was set to before; getitimer and the old value tell the interval and the time to the next expiration in whole microseconds; alarm returns zero exactly if no alarm was set, otherwise the rounded seconds, at least one.", "quantifier": "all requests, clocks and flags, all settings of the timer, and all executions with signals and other events in between", "why_tests_cant": "A test sleeps for a few durations and checks a tolerance; whether the end is exact when signals come and go, at the edge of a timer event or for huge values is a statement about all executions.", "anchors": ["src/main/host/syscall/handler/time.rs", "src/main/host/timer.rs", "src/main/host/syscall/syscall_condition.c"]}
{"id": "C74", "title": "The congestion window of a connection follows the Reno rules", "statement": "The congestion window of a C TCP connection starts with one packet. Until the first loss it is one more than the packets acknowledged; below the threshold it grows by one for each acknowledged packet, above it by one for each whole window of acknowledged packets, however the acknowledgements are divided. The third duplicate acknowledgement halves the threshold and sets the window to the threshold and three; every further duplicate adds one, and the next new acknowledgement brings the window back to the threshold. A timeout sets the threshold to half of the window and begins slow start. The window is at least one packet and never overflows, and what may be sent is never more than what the peer allows.", "quantifier": "all sequences of acknowledgements of any sizes, duplicates and timeouts that one connection can produce", "why_tests_cant": "The window is a function of the whole history. A test compares a few steps; whether a remainder is lost when acknowledgements are merged, or a counter is not reset in one phase, shows only as a throughput that is off by some percent.", "anchors": ["src/main/host/descriptor/tcp_cong_reno.c", "src/main/host/descriptor/tcp_cong.c"]}
{"id": "C75", "title": "A retransmission timeout comes at the computed time, and that follows RFC 6298", "statement": "The retransmission timer of a C TCP connection expires exactly when its time has passed since it was last started, unless it was stopped, whatever sends, acknowledgements and events of earlier settings come in between. While nothing is heard of the peer every timeout is twice as long as the one before, up to two minutes. A time stamp that comes back counts as a round trip in whole milliseconds unless a timeout is unanswered. For round trips of at least 8 ms the smoothed round trip and its variation follow RFC 6298 up to a bounded error by rounding, however many there are, and the timeout is their sum as the RFC asks, between 0.2 and 120 seconds. Nothing overflows for round trips below 306783 seconds.", "quantifier": "all executions of sends, acknowledgements, time stamps, timer events and the clock, and all sequences of round trips", "why_tests_cant": "The events of a timer that was set again stay in the queue and are filtered by a set of scheduled times; whether one is too early, missing or doubled depends on the order of settings. Rounding errors of the estimate add up over thousands of samples.", "anchors": ["src/main/host/descriptor/tcp.c"]}
{"id": "C76", "title": "The priority queue of the C code returns the smallest element and holds each once", "statement": "The priority queue of the C code behaves as a set: a push adds the element unless it is there and says which, find tells whether an element is there, the length is the number of elements; peek and pop give one of the smallest, and nothing exactly if the queue is empty. Taking out everything gives the elements in order. The array grows and shrinks with the number of elements, and no operation uses a place outside of the array or an address of an array that was replaced.", "quantifier": "all sequences of operations of any length and all keys", "why_tests_cant": "A heap that is wrong at one place looks right for most sequences, and an index that points into a replaced array mostly reads the old values: both show only for particular orders and sizes.", "anchors": ["src/main/utility/priority_queue.c"]}
{"id": "C77", "title": "epoll_wait returns the ready events, or nothing at its timeout, or EINTR", "statement": "If events are ready, epoll_wait, epoll_pwait and epoll_pwait2 return at once at least one and at most the number asked for, the longest waiting first. Otherwise the call waits; a thread is woken when an event becomes ready, and then returns it if no other thread was first, else it waits on with the same end. Without events it returns zero exactly at the start of the call plus the timeout, at once if the timeout is zero, never if there is none; a signal ends it with EINTR. A call that returns no events takes none. Wrong arguments are refused with the documented errors, in epoll_create and epoll_ctl too.", "quantifier": "all numbers of threads and files, all arguments, all orders of calls, changes of files, signals and time", "why_tests_cant": "Whether several threads that wait on one object lose a wakeup or take an event twice depends on the order of file changes, wakeups and calls; tests run one order.", "anchors": ["src/main/host/syscall/handler/epoll.rs", "src/main/host/syscall/syscall_condition.c", "src/main/host/descriptor/epoll/mod.rs"]}
{"id": "C78", "title": "Socket addresses cross between program and simulator unchanged", "statement": "bind, connect, sendto and sendmsg see exactly the bytes the program gave (up to 128), and their meaning is decided by the family, the length and the bytes: an IPv4 address and port in network order, the abstract name of a unix socket with nul bytes and all, or an error. getsockname, getpeername, accept and recvfrom write no more bytes than there is room for, put the true length of the address beside it, and touch no other memory; what was written can be read back as the same address, and after bind getsockname returns the bytes that were given.", "quantifier": "all addresses, lengths, memories and faults", "why_tests_cant": "Off-by-one errors in lengths show only for the longest and shortest names, for names with nul bytes and for buffers that are too small; writing beyond the room is visible only if something is there.", "anchors": ["src/main/utility/sockaddr.rs", "src/main/host/syscall/io.rs: write_sockaddr_and_len, write_sockaddr, read_sockaddr", "src/main/host/descriptor/socket/unix.rs: bind, lookup_address", "src/main/host/descriptor/socket/inet/udp.rs: bind"]}
{"id": "C79", "title": "Log records are written once, in order, and a flush waits for them", "statement": "Records that are enabled (by the level of the host, else of the logger) are written to standard output exactly once and in the order in which they entered the queue, which for each thread is the order in which it logged them; errors that are to be reported also appear on standard error, right after their line. The queue never exceeds its size. When flush returns, or log of an error, everything that was queued before by any thread is written. A thread that waits for a flush can always be answered, also when the queue is full and while panicking threads write the queue themselves.", "quantifier": "all numbers of threads, records, levels and queue sizes, and all interleavings of logging threads, the logger thread and panic hooks", "why_tests_cant": "The interleavings of the logger thread with panic hooks and full queues are rare and cannot be forced; a lost or swapped line is noticed only when somebody compares.", "anchors": ["src/main/core/logger/shadow_logger.rs"]}
{"id": "C80", "title": "Messages formatted into a fixed buffer are valid text and lose only their end", "statement": "A FormatBuffer of N bytes holds, after any sequence of writes, the longest beginning of the concatenated text that fits in N-1 bytes without cutting a character, always followed by a zero; the truncation count is the number of bytes that were dropped; as_str returns exactly this text. No write panics. sprintf adds the formatted bytes read as text, in which each maximal run of bytes at which no character begins is one replacement character, so that the content stays valid UTF-8 whatever the bytes. A writer to a file descriptor puts out the whole text in order across partial writes and signals, or reports an error after a beginning of it.", "quantifier": "all buffer sizes, texts, byte strings, sequences of writes and answers of the kernel", "why_tests_cant": "Cuts within characters occur for particular combinations of length and alignment of multi-byte characters; as_str is unsafe code that is undefined on invalid text, and no test can try all byte strings.", "anchors": ["src/lib/formatting-nostd/src/utf8.rs", "src/lib/formatting-nostd/src/format_buffer.rs", "src/lib/formatting-nostd/src/borrowed_fd_writer.rs"]}
{"id": "C81", "title": "The memory map of a process is read as the kernel printed it", "statement": "Every line of /proc/<pid>/maps in the documented form, with any padding, any amount of white space between the fields, any combination of permissions, any values that fit their types, a path without blanks or a bracketed label or none, and with or without the mark of a deleted file, is read as exactly the mapping that it describes; a line describes one mapping only. Whatever is read, from any text, stands in the line field by field. A file gives one mapping for each line in order, or an error.", "quantifier": "all lines, paths, paddings, values and numbers of lines", "why_tests_cant": "The regular expression is greedy and its fields overlap, so that which part of a line goes to which field depends on all of the line; tests use some lines of one machine.", "anchors": ["src/main/utility/proc_maps.rs", "src/main/host/memory_manager/memory_mapper.rs: get_regions"]}
{"id": "C82", "title": "A network graph file denotes exactly one graph and is read as such", "statement": "gml_parser::parse succeeds exactly on texts that begin with a graph in a given grammar (keys with values on lines of their own, nodes and edges in brackets, distinct keys, directed at most once), and returns exactly the nodes, edges and attributes that are written there, in order: integers of 31 bits as integers, other numbers as floats, strings literally. A text denotes at most one graph. The numbers of nodes and of the ends of edges are those in the text.", "quantifier": "all texts: any amount of white space, any keys, values, numbers of nodes, edges and attributes", "why_tests_cant": "The grammar is defined only by the code of the parser, whose alternatives overlap (a number may be an integer or a float, white space belongs to several rules); tests try some files.", "anchors": ["src/lib/gml-parser/src/parser.rs", "src/lib/gml-parser/src/lib.rs", "src/lib/gml-parser/src/gml.rs"]}
{"id": "C83", "title": "A netlink socket answers every request once, in order, with the interfaces of the host", "statement": "Whatever calls a program makes on a netlink socket, the packets that were accepted are answered by the receiving calls in the order of sending, each once; what is not answered yet waits, and the socket is readable exactly then. All messages of an answer carry the sequence number of the request; a request for all addresses or interfaces gets one message for each interface in order (address, last address of its network as broadcast address, label, prefix, MTU, flags) and the end mark, any other packet with a header one error message, a packet without one EINVAL. MSG_PEEK gives the same answer and leaves the request. A packet is accepted exactly if it goes to the kernel, has no control data and supported flags, can be read, and there is room; bind gives the address once; SO_SNDBUF sets the room.", "quantifier": "all sequences of calls with all arguments, all packets, answers and buffers of the program", "why_tests_cant": "Requests, receives of all kinds, limits and options interleave without bound, and the counters that limit sending only matter after many requests, while tests send one or two.", "anchors": ["src/main/host/descriptor/socket/netlink.rs", "src/main/host/descriptor/shared_buf.rs"]}
{"id": "C84", "title": "Scheduling settings read back as they were last set", "statement": "In every execution, sched_getscheduler returns the very policy argument, and sched_getparam the priority, of the last successful sched_setscheduler (or sched_setparam) about that thread, by whichever thread; a new thread has policy 0 and priority 0, a thread that does not exist gives ESRCH. sched_setscheduler succeeds exactly if the priority can be read, is 0 for the ordinary policies and 1 to 99 for the real-time ones, and the thread exists; a call that fails changes nothing, one that succeeds changes only its thread. Policy and priority of a thread always go together, and no call makes the simulator fail. sched_getaffinity and sched_setaffinity know just the first processor, and rseq writes just the two processor numbers.", "quantifier": "all executions: any threads, calls, arguments and contents of memory", "why_tests_cant": "Settings of threads are shared by all threads of a host and last as long as the thread; tests set and read back once in one thread.", "anchors": ["src/main/host/syscall/handler/sched.rs", "src/main/host/thread.rs", "src/main/host/host.rs"]}
{"id": "C85", "title": "Workers are spread evenly over the processors that may be used", "statement": "With pinning, each worker gets the best processor with respect to what the workers before it got (fewest workers on it, then on its core, then most on its socket, then on its node, then the lowest number), among those the process may use. Hence the numbers of workers on two usable processors never differ by more than one, no core gets a second worker while a usable core has none, and no two workers share a core as long as there are no more workers than cores. Asking fails only if no processor may be used. A thread is bound to its processor as far as the kernel agrees, and the answer says to which processor it is bound. The processors are read exactly as lscpu prints them.", "quantifier": "all machines (any list of processors), sets of allowed processors, numbers of workers, and outputs of lscpu", "why_tests_cant": "The placement depends on the machine; tests run on the machine at hand.", "anchors": ["src/main/core/affinity.c", "src/main/core/manager.rs", "src/main/host/managed_thread.rs"]}
{"id": "C86", "title": "Lists of processors are read as they are written", "statement": "For every text, parse_range_list gives exactly the numbers that the pieces between commas stand for, in order (nothing, a number, or all numbers of a range, which has none if it ends before it starts), and fails exactly when it reaches a piece that is none of these or a number of more than 32 bits; it always ends. The number of workers that is used by default is the number of different core identifiers of processors that are online and allowed.", "quantifier": "all texts, all ranges including those that end with the largest number, all machines", "why_tests_cant": "The loop of the iterator has no bound in the code, and the state is spread over a range and a text; tests try a dozen texts.", "anchors": ["src/main/core/cpu.rs"]}
{"id": "C87", "title": "Shared memory files are removed only when nobody uses them", "statement": "At its start, and with a special option, the simulator removes shared memory files that earlier runs left behind. Whatever other processes start, end and create files meanwhile, and however many clean up at the same time, no file of a running process is removed except by itself, as long as those who clean up can see the process. Process numbers may be used again. A cleanup that is not disturbed leaves exactly the files that are not the simulator's, whose name does not tell a process, or whose process runs, and says how many it removed.", "quantifier": "all interleavings of any number of processes and cleanups, all orders in which directories are read, all times and process numbers", "why_tests_cant": "The order of the two directory listings matters only in races that tests do not provoke (issue 1343 was such a race).", "anchors": ["src/main/utility/shm_cleanup.rs", "src/lib/shmem/src/shmalloc_impl.rs", "src/main/shadow.rs"]}
{"id": "C88", "title": "Resource limits read back as they were set, and can always be applied", "statement": "prlimit64, getrlimit and setrlimit give and set the limits of the process and the resource that are named, and no others; they refuse unknown resources, unknown processes, soft limits above hard limits and raised hard limits, and change nothing then. A process starts with the limits of the simulator, a child with those of its parent. No sequence of calls and process events makes the simulator fail when it applies limits to the native process; that process always has at least the soft limits of the simulator and hard limits that allow what the program was told, and as long as no program is replaced also such soft limits.", "quantifier": "all sequences of starts, forks, execs, exits and calls, all limits, all memory contents, all kernels that accept what they must accept", "why_tests_cant": "That the native limits can be set depends on an invariant between what the program was told and what the native process has, over any history.", "anchors": ["src/main/host/syscall/handler/resource.rs", "src/main/host/process.rs"]}
{"id": "C89", "title": "What is said once is said once", "statement": "Among all calls of OnceSet::insert with the same value, by any number of threads at the same time, exactly the one that ends first returns true; so for every value exactly one message of log_once_per_value has the first level and all others the other one. A call ends after at most two steps of its own, whatever other threads do. A line of log_once has the first level once, and the other one ever after.", "quantifier": "all interleavings of any number of threads, calls and values", "why_tests_cant": "Two threads have to find at the same time that a value is missing; tests use one thread.", "anchors": ["src/main/utility/once_set.rs", "src/main/utility/macros.rs"]}
{"id": "C90", "title": "Every deferred callback runs exactly once", "statement": "Callbacks are added to the queue that is passed on, or to that of the thread, by code, by other callbacks, and inside of further queues nested to any depth. When the outermost call returns, every callback has run exactly once, no queue is left behind, and nothing has panicked. Callbacks in the queue of the thread run after all code and callbacks that are not from it; callbacks of one queue run in the order in which they were added.", "quantifier": "all programs: any callbacks, nesting and mixture of the two kinds of queues", "why_tests_cant": "Callbacks add callbacks to either queue while these are run; tests have few levels.", "anchors": ["src/main/utility/callback_queue.rs", "src/main/utility/legacy_callback_queue.rs"]}
{"id": "C91", "title": "The simulator's libraries are loaded first into every program, once", "statement": "Whatever the environment of a program that is started, the first entry LD_PRELOAD= then lists the libraries of the simulator in their order, followed by those that it listed before, in their order and without those of the simulator; if there is no such entry, one is added at the end. All other entries and their order stay. Doing this again changes nothing, so the environment does not grow however many programs start one another.", "quantifier": "all environments, all lists of libraries, all numbers of programs that start one another", "why_tests_cant": "The items can be separated in two ways, be empty, or be there several times; a test has five environments.", "anchors": ["src/main/utility/mod.rs", "src/main/host/managed_thread.rs"]}
{"id": "C92", "title": "A program is started exactly if it can run under the simulator", "statement": "A path is accepted exactly if it is an executable regular file that is either a dynamically linked ELF file or a script whose interpreter is accepted; it is refused with the error that execve(2) gives for the innermost cause. The interpreter is read as written. What was checked before makes no difference, and only what was accepted is remembered. Every path that is accepted or refused by these rules gets its answer.", "quantifier": "all file systems (contents of any size, chains of interpreters of any length), all earlier checks", "why_tests_cant": "Scripts whose interpreters are scripts, and files that were checked before, in any number and order; tests start a few programs.", "anchors": ["src/main/utility/mod.rs", "src/main/host/managed_thread.rs"]}
{"id": "C93", "title": "Every setting comes from the most specific place that sets it, and a configuration is taken exactly if it makes sense", "statement": "When a configuration is taken, the simulation has one host for each host in the file, in the order of their names, with the processes that were written there. Each option of a host is the first that is set of: its own entry, the command line, the defaults in the file, the built-in value; the seed and the time to stop come from the command line before the file; the bandwidth is the host's own or else that of its node. The seed of a host's randomness depends only on the seed of the simulation and the name of the host, so adding, removing or changing other hosts does not change it. If all values can be represented, nothing panics, and the configuration is taken exactly if there are hosts, each process starts before it is shut down and before the end, arguments can be parsed, programs are found, nodes exist, bandwidths are given and hosts to debug exist. Every valid host name in lower case is taken.", "quantifier": "all files and command lines (any number of hosts and processes), all graphs, programs, hash functions and random generators, all names", "why_tests_cant": "The places where a setting may or may not be given multiply; tests try a few files.", "anchors": ["src/main/core/configuration.rs", "src/main/core/sim_config.rs", "docs/shadow_config_spec.md"]}
{"id": "C94", "title": "The time stamp counter runs with simulated time, and random instructions are not offered", "statement": "A managed program that executes rdtsc or rdtscp gets the simulated time (the one clock_gettime gives) in cycles of the counter, modulo 2^64, in the lower halves of rdx and rax; rdtscp always names the same processor. Between two reads the counter goes on by the simulated time at its rate to less than one cycle, and never back as long as it has not run over. cpuid answers bit by bit what the processor answers, except that it never offers rdrand (leaf 1) or rdseed (leaf 7), which would break determinism. The program goes on behind the instruction and all other registers are unchanged. To recognise an instruction no byte behind the one that is there is read, and every other fault is treated as an error of the program.", "quantifier": "all registers, memory contents, rates, times below 2^64 ns, and answers of the processor", "why_tests_cant": "64-bit rates times 64-bit times, and bytes at the edge of readable memory; tests try a few values on the machine at hand.", "anchors": ["src/lib/shim/shim_insn_emu.c", "src/lib/asm-util/src/tsc.rs", "src/lib/asm-util/src/cpuid.rs", "src/lib/asm-util/src/lib.rs", "src/lib/shim/src/lib.rs"]}
{"id": "C95", "title": "Every thread has its own thread-local variables in the shim", "statement": "In every mode, and whatever threads start, use variables, end and fork: as long as living threads can be told apart (by the thread pointer, or by the thread number where there is none) and each ends by unregistering, a thread that reads a variable gets what it last wrote to it, or else what the variable is initialised with; it never sees what another thread wrote, nor what a thread that ended left behind, even if it has its thread pointer or number. After a fork the thread goes on with the values it had, and the other threads' are gone. However threads interleave in placing new variables, these are aligned, within the storage of a thread and do not overlap. The shim panics only for identifiers out of range, for variables that do not fit, and at the fork of a thread that never used a variable and has no native storage.", "quantifier": "all modes, all variables, all sequences of starts, reads, writes, ends and forks of any number of threads, all interleavings of allocations", "why_tests_cant": "Thread pointers and numbers are used again, threads without a thread pointer are rare, and allocation is a race; tests have one or two threads.", "anchors": ["src/lib/shim/src/tls.rs"]}
{"id": "C96", "title": "A read or write that waits goes on with the file it was made on", "statement": "A call to read, write, pread64, pwrite64 or their vector forms uses the file that its descriptor names when it is made. While the thread waits, the descriptor may be closed or be made to refer to another file; each time the thread is resumed the call goes on with the first file, and its answer is that file's. A file is closed exactly when neither a descriptor nor a waiting call refers to it any more, and only once. The forms agree: a vector of one buffer is a plain call, offset -1 of the second versions is the current position, no pipe, socket, event counter or timer takes an offset, and negative offsets and bad counts are refused without effect. A call waits exactly if the file would block and is in blocking mode.", "quantifier": "all files, all sequences of calls, resumptions, signals, closing and opening by any number of threads, all arguments", "why_tests_cant": "What happens to a descriptor while calls wait on it depends on the interleaving; tests close a descriptor at one or two moments.", "anchors": ["src/main/host/syscall/handler/uio.rs", "src/main/host/syscall/handler/unistd.rs", "src/main/host/descriptor/mod.rs", "src/main/host/syscall/condition.rs"]}
{"id": "C97", "title": "With a thread per host, each host is worked on once per round by its own thread", "statement": "With the thread-per-host scheduler, whatever the scheduling of threads on processors: each host stays with the thread that it was first given to; when scope returns, every round so far has been applied to every host once and in order; at any moment hosts are at most one round apart; no thread panics; the element of the data that a thread is given exists and is given to no other thread while the closure runs; and join gets every host back.", "quantifier": "all numbers of hosts, threads, processors and rounds, all interleavings, all closures", "why_tests_cant": "Which thread runs on which processor when depends on the interleaving; tests count calls in a few runs.", "anchors": ["src/lib/scheduler/src/thread_per_host.rs", "src/lib/scheduler/src/pools/bounded.rs"]}
{"id": "C98", "title": "The data directory starts as a copy of the template directory; ~ in a path is a home directory", "statement": "When the copy of a template directory succeeds, the data directory has exactly the files and directories of the template at the same relative paths, each once: files with their contents and modes, links as the files they lead to, directories with their modes less the umask. It succeeds exactly if every link leads to a regular file and every directory with entries can be written by its owner (or the user is privileged). ~/x is x in the home directory, ~user/x is x in /home/user, other paths are unchanged.", "quantifier": "all directory trees of any depth and width, all orders of entries, all modes and umasks, all paths and home directories", "why_tests_cant": "Trees are unbounded in depth and width and the order of entries is up to the file system; there is a test for a few paths with ~ and none for the copy.", "anchors": ["src/main/utility/mod.rs", "src/main/core/manager.rs"]}
{"id": "C99", "title": "Flags of a descriptor belong to it alone, flags of a file are shared by its descriptors", "statement": "Whatever sequence of fcntl and ioctl calls a program makes: the close-on-exec flag that F_GETFD tells is what was last set for this very descriptor (by F_SETFD, FIOCLEX, FIONCLEX, or when it was made), duplicates have their own; F_SETFL and FIONBIO change O_APPEND, O_NONBLOCK, O_ASYNC, O_DIRECT and O_NOATIME (FIONBIO only O_NONBLOCK) as seen through every descriptor of the file and nothing else; what F_GETFL gives can always be given back to F_SETFL and changes nothing. No call panics.", "quantifier": "all tables of descriptors and files, all arguments and flags, all sequences of calls", "why_tests_cant": "Sharing among duplicates and 32-bit masks have too many combinations; tests set one flag on one descriptor.", "anchors": ["src/main/host/syscall/handler/fcntl.rs", "src/main/host/syscall/handler/ioctl.rs", "src/main/host/descriptor/mod.rs", "src/lib/linux-api/src/fcntl.rs"]}
{"id": "C100", "title": "mmap maps the file behind the descriptor and leaves nothing open in the program", "statement": "Whatever the arguments, the descriptor and the answers of native calls: mmap either fails and changes nothing, or adds exactly one map with the given length, protection, flags and offset, of the very file that the descriptor stands for (or of no file if anonymous); the file is opened in the program with its access mode and flags, never creating or truncating it; afterwards the program has natively open and allocated what it had before. Which error is returned is determined by arguments, then descriptor, then file.", "quantifier": "all arguments, tables of descriptors, files, flags and answers of native calls", "why_tests_cant": "Every error path has its own clean-up without destructors; tests map a file and look at its contents.", "anchors": ["src/main/host/syscall/handler/mman.rs", "src/main/host/descriptor/regular_file.c"]}
{"id": "C101", "title": "Every host finds every host by its name, at the same address", "statement": "For every simulation and every name: the call that getaddrinfo makes to Shadow gives every host the registered address for every registered name, its own included, as four bytes in network order, so that all hosts agree; it gives the loopback address for localhost in any case; a name that is not registered, and is neither localhost nor the own name in another case, gets no address. The call writes exactly four bytes if it succeeds and none if it fails.", "quantifier": "all sets of registered hosts, all names and lengths, all hosts that ask, all contents of memory", "why_tests_cant": "Three sources of answers (localhost, own name, registry) with different rules on case and length must agree for all pairs of hosts; tests look up a few names.", "anchors": ["src/main/host/syscall/handler/shadow.rs", "src/lib/shim/shim_api_addrinfo.c", "src/main/utility/mod.rs", "src/main/core/worker.rs"]}
{"id": "C102", "title": "Settings made with prctl belong to the process, and none undoes what Shadow relies on", "statement": "Whatever processes start, fork, run other programs and call prctl: PR_GET_PDEATHSIG tells the signal that this process itself asked for last and none for a new process, PR_GET_DUMPABLE what it set last or what its parent had when it forked; values out of range are refused and a refused call changes nothing. Filters for system calls, dispatch of system calls and the traps for rdtsc and cpuid can be changed by no prctl or arch_prctl call, and no unknown option reaches the kernel.", "quantifier": "all sequences of operations of all processes, all options and arguments", "why_tests_cant": "The settings go through fork and execve in any order, and options are any 32-bit number; tests try a few.", "anchors": ["src/main/host/syscall/handler/prctl.rs", "src/main/host/process.rs", "src/lib/linux-api/src/signal.rs"]}
{"id": "C103", "title": "Random bytes come from the generator of the host alone", "statement": "Whatever getrandom calls the programs of a host make: a call that succeeds fills exactly the buffer with the next bytes of the host's generator and changes nothing else, a call that fails changes no memory; the state of the generator afterwards depends only on its state before and on the lengths asked for, not on addresses, flags, contents of memory, on whether memory is mapped into Shadow or on which calls failed. So simulations repeat exactly, with and without mapped memory.", "quantifier": "all generators, memories, buffers, lengths and sequences of calls", "why_tests_cant": "Repeatability is about all sequences of calls and both ways to reach memory; a test compares two runs of one program.", "anchors": ["src/main/host/syscall/handler/random.rs", "src/main/host/memory_manager/mod.rs", "src/main/host/memory_manager/memory_copier.rs"]}
{"id": "C104", "title": "A program starts with random bytes that Shadow chose", "statement": "For every auxiliary vector that fits in the buffer and gives the address of the 16 random bytes of the kernel: after the start of the shim these bytes are the ones that Shadow passed to the shim, and no other byte of the program changes. For vectors of any length and however reading goes, nothing but these 16 bytes is ever written.", "quantifier": "all vectors, addresses, memories, data and outcomes of reading", "why_tests_cant": "What the kernel gives depends on the machine and its version; a test sees the one vector of its machine.", "anchors": ["src/lib/shim/src/reinit_auxvec_random.rs"]}
{"id": "C105", "title": "The memory use that Shadow reports is what the kernel says, in bytes", "statement": "For every file of lines as /proc/meminfo has them: each of the eight fields that Shadow keeps is reported if, and only if, it is in the file, as the number of bytes that its line says (1024 for each kB); a number that does not fit in 64 bits or has another unit is left out rather than reported wrong; lines that cannot be understood change nothing. Whatever the file says, nothing but these fields is reported.", "quantifier": "all files, names, numbers of any length, units and spaces", "why_tests_cant": "Which lines there are depends on the kernel and the machine; the test parses the one file of its machine.", "anchors": ["src/main/core/resource_usage.rs"]}
