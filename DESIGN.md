# Formal model of troglobit/mdnsd

This directory holds a Lean 4 model of the mDNS library and daemon in `/repo`
and machine-checked proofs about it.  `properties.jsonl` lists the properties,
`MANIFEST.json` says which theorem proves which property and what is missing,
`seeded/LOG.jsonl` records the mutation tests of the theorems.

## Trusted base

* Lean 4.33.0's kernel.  Theorems depend on no axioms besides
  `propext`, `Classical.choice` and `Quot.sound` (`Verif/Audit.lean` prints the
  axioms of every theorem named in the manifest).  There are no own axioms,
  no `sorry`, no `native_decide`, no `bv_decide`.  Mathlib is not used.
* The hand translation of the C code to Lean.  Every definition under
  `Verif/Model` cites the file and lines it was taken from and says where it
  simplifies.  Nothing was executed: the code was read as text.
* C semantics assumed: LP64 (64-bit `unsigned long`, 32-bit `int`), little
  endian, `char` signed (only matters where cited), IPv6 support enabled (the
  default).  Functions of the C library (`Model/CLib`) are stated from the C
  standard and POSIX, `prioritynames` from glibc, the netlink macros from
  `linux/netlink.h`.  What Linux does with socket options is stated in
  `Spec/Sockets` (only C89 depends on it).
* The statements.  Specifications used by the statements are in `Verif/Spec`
  or at the beginning of the file with the theorem; they do not use the helper
  definitions of the proofs.

## How the C code is represented

* A byte is `UInt8`; a C string is the list of its bytes before the NUL.
* Undefined behaviour is never hidden: reads outside a buffer, dereferences of
  freed or NULL objects and writes outside a structure are separate outcomes
  (`oob`, `wub` of the parser, `ub` of the daemon), loops that might not end run
  on fuel and running out is a separate outcome (`hang`), which is then proved
  unreachable (or shown reachable by a witness).
* Time, packets, interface addresses and callback results are inputs of the
  model (`Env`, arguments of `Op`); theorems quantify over all of them.
  Callbacks depend on everything that happened before, and may register
  queries and end their own query.
* Memory allocation always succeeds, except in `Model/Alloc` (C96), `Model/ConfAlloc` (C109), `Model/XhtAlloc` (C110), `Model/Blocks` (C111), `Model/UniAlloc` (C112), `Model/MqueryAlloc` (C113), `Model/TxtAlloc` (C114), `Model/LoadAlloc` (C115), `Model/AddrAlloc` (C116) and `Model/IfaceAlloc` (C117); `Model/Process` (C70) and `Model/Pidfile` (C90) let it fail too.
* Sent packets are lists of calls of the message builder, each with a ghost
  tag that says which record it came from; the tags are not read by the code.
  `Model/Builder` turns the calls into bytes.  Event logs (`Core.log`) are ghost
  state too: callbacks see them as the history.

### Queues

The four record queues share one link field in the C code (`r->list`), so that
a record put into a second queue while in a first one damages both.  The code
of `Model/Records` and `Model/Daemon` is written once, generically over the
class `QOps`, and has two instances: `Ptrs` (the pointers as they are; freed
records are `ub`) and `Lists` (four lists; operations that would damage a queue
are `ub`).  `Lemmas/Sim` proves that every step of the list version that is not
`ub` is matched by the pointer version with the same results.  Safety theorems
(C28, C43) are about the pointers; most others are proved on lists and
transferred (`Reach`).

### Proof structure of the daemon

* `Lemmas/{Queues,Records,Out,OutMsg,Questions,InMsg,CacheIn,Sleeping}`: for every
  loop an inductive relation that describes one execution step by step, and a
  theorem `.._ok` that the function terminates without `ub` and its result is
  related (`ROut`, `PubL`, `ProbeA`, `ProbeB`, `AddL`, `Upd`, `InQ`, `InA`,
  `SleepR`, ...).  `Did` collects them for all API calls (`Op`).
* `DInv` = `RInv` (records and queues) and `CInv` (cache and queries) hold in
  every reachable state (`Reach`), for any sequence of calls that meet `OpSafe`.
* `Hist`, `Calls`: sequences of calls with their results; most properties are
  inductions over these, with potential functions where something must
  eventually happen (`Progress`, `Settle`, `Timers`, `Stages`).
* `Props/*`: the statements, with an example or a witness beside each.

## Modelled

| code | module |
|---|---|
| libmdnsd/1035.c (all) | Model/Wire, Model/Builder, Model/Parser |
| libmdnsd/xht.c (all) | Model/Xht, Model/Hash |
| libmdnsd/xht.c with allocations that fail | Model/XhtAlloc |
| libmdnsd/xht.c: the same, with the nodes in memory | Model/XhtHeap |
| libmdnsd/mdnsd.c: what is allocated and freed, with allocations that fail | Model/Blocks |
| libmdnsd/sdtxt.c (all) | Model/SdTxt |
| libmdnsd/sdtxt.c; src/conf.c: the TXT part of load; with allocations that fail | Model/TxtAlloc |
| src/conf.c: record, load; with records that get no memory | Model/LoadAlloc |
| libmdnsd/mdnsd.c: _update_addresses_for_host, mdnsd_set_interface_addresses; with allocations that fail | Model/AddrAlloc |
| src/addr.c: iface_init; with allocations that fail | Model/IfaceAlloc |
| libmdnsd/mdnsd.c: cache and queries | Model/Cache |
| libmdnsd/mdnsd.c: records, queues, addresses, shutdown, records_clear | Model/Queues, Model/Records |
| libmdnsd/mdnsd.c: mdnsd_in, mdnsd_out, mdnsd_sleep | Model/Daemon |
| libmdnsd/mdnsd.c: process_in, process_out, mdnsd_step | Model/Rx, Model/Step |
| libmdnsd/mdnsd.c: mdnsd_free | Model/Free |
| libmdnsd/inet.c: inet_family, inet_port, comparison of addresses | Model/DaemonTypes, Model/Daemon |
| libmdnsd/inet.c: addresses as bytes (without inet_ntop2); mdns_mcast; the addresses in process_in and process_out | Model/Inet |
| libmdnsd/log.c: mdnsd_log_level, the decision in mdnsd_log | Model/Log |
| libmdnsd/log.c: mdnsd_log_open, mdnsd_log, with the mask of syslog | Model/LogSys |
| src/mdnsd.c: main, the descriptors handed to select | Model/Waiting |
| src/mdnsd.c: main, the log from the options on; `daemon(0, 0)` | Model/LogStart |
| libmdnsd/log.c: mdnsd_log_time | Model/LogTime |
| src/conf.c: fqdn, read_line, chomp, parse, host name of conf_init | Model/Conf |
| src/conf.c: record, load, the files of conf_init | Model/Service |
| src/conf.c: read_line, parse, load with the memory of their strings | Model/ConfAlloc |
| src/conf.c: conf_init; src/mdnsd.c: the reload in the main loop | Model/Reload |
| src/conf.c: stat and glob of conf_init; src/mdnsd.c: daemon | Model/Glob |
| src/mdnsd.c: mdnsd_conflict, setup_iface, sys_init, reload | Model/Conf, Model/Iface |
| src/mdnsd.c: sys_timeout, waiting times of the main loop | Model/MainLoop |
| src/mdnsd.c: main loop, free_iface, setup_iface (descriptors and contexts only); src/mcsock.c, src/netlink.c (whether a socket is made) | Model/Process |
| src/mdnsd.c: free_iface (what it does with a context of the library) | Model/Leave |
| src/mdnsd.c: signal handlers, order of the steps of the main loop | Model/Signals |
| src/addr.c: iface_find, mark, sweep, iface_init | Model/Iface |
| src/addr.c: iface_iterator, iface_find, iface_free, iface_init, iface_exit; src/queue.h: tail queues | Model/Tailq |
| src/netlink.c: netlink_read | Model/Netlink |
| src/mcsock.c (all); src/mdnsd.c: multicast_socket; src/mquery.c: msock | Model/Sockets |
| src/mdnsd.c, src/mquery.c: options | Model/Options |
| src/mquery.c: getifname (without sscanf) | Model/Route |
| lib/pidfile.c (all) | Model/Pidfile |
| libmdnsd/log.c: mdnsd_log_hex | Model/Hex |
| libmdnsd/1035.c: message_parse with the memory of the message; src/mdnsd.c: record_received | Model/Received |
| libmdnsd/mdnsd.c: what happens when allocations fail | Model/Alloc, Model/UniAlloc |
| src/mquery.c: `find_or_create_instance`, `find_or_create_device`, `ans_dev` when allocations fail | Model/MqueryAlloc |
| libmdnsd/mdnsd.c: the receive path, `_gc` and `mdnsd_out` with callbacks that end queries with `mdnsd_query` | Model/Ending |
| libmdnsd/mdnsd.c: the receive path with conflict callbacks that call functions of the API | Model/Reacting |
| libmdnsd/mdnsd.c: the receive path, `_gc` and `mdnsd_out` with callbacks of all kinds that call functions of the API | Model/Calling |
| lib/strlcpy.c; src/conf.c: the host name and the pattern of conf_init, at the level of bytes in memory | Model/Buffers |
| src/mquery.c: device and instance tables, ans_dev | Model/Mquery |
| src/mquery.c: print_devices, print_device_detail, shortname, matches_detail | Model/MqueryOut |
| src/mquery.c: the loop of main | Model/MqueryMain |
| src/mquery.c: ans, main with the callbacks | Model/MqueryRun |

## Not modelled

What the main loop of `src/mdnsd.c` does beyond `Model/MainLoop`, `Model/Process`, `Model/Waiting` and
`Model/Signals`, logging output other than dumps of packets and received records,
`getopt`, `glob` and `sscanf` themselves (Model/Options and Model/Glob state what they do), allocation
failure in callbacks (for the rest see the list of assumptions above), threads (there are none), callbacks that receive
or make packets themselves. Callbacks that call other functions of the
API are in `Model/Ending`, `Model/Reacting` and `Model/Calling` only.

## Mutation tests

`tools/mutate.py` copies the project to a scratch directory, applies a mutation
from `seeded/mutations/*.json` and rebuilds; `seeded/LOG.jsonl` has one line per
attempt.  As a change of the code usually makes the relation that mirrors it
fail first, which says nothing about the properties, many mutations are pairs:
the function and its relation are changed alike, and the properties must fail.

## Plan and outcome per property

Each line: what is modelled, what is proved, how.

* C01 wire integers: byte-level cursor functions; round trip and layout by bit lemmas.
* C02 name compression: builder with the label table and `_lmatch` at byte level; independent RFC 1035 decompression relation (`Spec/Rfc1035`); induction over append sequences. The full statement is false (a suffix of a name that is a proper prefix of an earlier compressed name's own labels); partial under a condition excluding that, and the counterexample is proved.
* C03 build/parse: builder and parser models, induction over the record list, arbitrary trailing bytes; partial (same condition as C02 and size limits).
* C04 termination: parser on fuel, fuel exhaustion unreachable for an explicit bound.
* C05 parser writes: watermark of every write; upper bound invariant. One byte past `_packet` (in the struct's padding) can be written: exact bound proved plus witness.
* C06 parser reads: out-of-range reads are `oob`; false in general, proved under a condition; witness.
* C07 header: bit lemmas for all header values.
* C08 datagram determinacy: false in general (no length argument); proved for self-contained packets and for everything the builder makes; witness.
* C09 parsed names bounded: invariant of the label loop.
* C10 size accounting, C56 raw data: prefix and length lemmas over all append sequences.
* C11–C13 TXT: model of both passes; round trip for entries up to 255 bytes (partial: longer entries truncate the length byte, witness). C60: the decoder on arbitrary bytes against a relational specification of strings and pairs.
* C14–C16 string table: bucket lists with slot reuse; refinement to a function; ownership ledger.
* C17 hash: 64-bit word invariant "bits 28..31 are clear".
* C18–C25 cache and queries: `CInv` (no duplicates, entries in the right chain, queries linked), relations `Removed`, `Entered`, `Flushed` for what a packet does, histories with a callback oracle. Queries of type ANY take over entries of other queries, which makes C20, C23, C25 and C27 partial.
* C26–C27 query schedule and known answers: relations for the three loops over the queries; potential per query.
* C28, C43, C35 memory safety: pointer-level queues, `Sim`, `Reach`; witnesses for the histories that do violate it.
* C29–C34 publishing state machine: invariants and counters over histories; C57: a potential (nine per record) decreases with every packet. A record that fits in no packet silences those set before it for good (C31_silenced_counterexample, Props/Blocking): an invariant of every sequence of calls.
* C36–C37 inbound packets: relations `InQ`, `InA`.
* C38 address reconciliation: loop invariants.
* C39–C40, C58 additional records, frame: loop invariants of `AddL`; limits by the lengths of the calls.
* C41–C42 sleep: arithmetic over `SleepR`; witnesses for the boundaries.
* C44–C46 lookups, clear, destination; C59 the entries of a packet against the state in which it was made.
* C47–C54 daemon-side helpers: small pure models.
* C55 end-to-end: announcements of one daemon (C59), bytes (C03), cache and callbacks of another (C24).
* C61 a step ends: the loops of `mdnsd_step` over a script of clocks and socket results; lexicographic measure (publishing load, cache size, tries and refreshes left) that falls with every packet. C62: the receive loop equals taking the datagrams one by one, from C08.
* C63 a service file is published: `record` and `load` as calls of the library; for every call what it does to the records (`Puts`, `RecordR`), composed in `LoadR`. The lookup of `record` accepts records of other names in the same hash chain: partial, and the counterexample with three files is proved. TXT lines: C11, C14 and invariants of the reader. C64 loading again: placeholders for addresses are made and taken back by setting the addresses; all else is found. For daemons whose records come from service files only (`Served`: loads, and any other calls that do not publish) the SRV and TXT records of a name are single, by induction over the history.
* C65 freeing a context: the loops of `mdnsd_free` on the pointer-level state; freeing what does not exist is undefined behaviour; from the invariants of C43 (every record and query is in exactly one chain).
* C66 waiting times of the main loop: `tv`, `timeout` and `sys_timeout` over runs with arbitrary results of `select` and of the contexts; invariants.
* C67 asking finds a record: the packet of the second loop over the queries is one of the message builder (induction over the loop), then C03, C32, C33 and C55 in a row. Wrong compression of names without a common top label is witnessed (Missed.lean).
* C68 a step sends what is due: the loop of C61 over `mdnsd_out` ends with a call that makes nothing; a record still waiting then would contradict the progress of C33. With C32 for the question and C67 for two daemons.
* C69 shared answers wait: no stage of `mdnsd_out` takes from the queue of shared answers before the pause is over; induction over the calls. The unit of the pause is wrong (microseconds): partial, and the counterexample is proved.
* C70 descriptors and contexts: main loop, setting up and freeing interfaces, with a system that gives arbitrary new descriptors and lets any call fail; ownership predicate (open = held, each once), rule for loops over the table, table invariant. An interface with the address 0.0.0.0 has no context, which reading the configuration again uses; descriptors from 1024 on overflow `fd_set`: both witnessed.
* C71 failing interfaces: from the same invariants. IPv6 does not come back by itself: witnessed.
* C72 goodbyes on leaving: `leave` composes `mdnsd_shutdown`, one sending step and `mdnsd_free`; every record waits as an answer after the first (C35), the step sends all that waits (C61, C68), each once and with lifetime 0 (C59), the rest is freed (C65). A refused packet and leaving early are witnessed.
* C73 device listing: the text is split in lines and each line in columns by a spec of its own (`Row`, `Title`, `Detail`); the widths are at least those of every device (induction over the list). Forged lines and wrong types are witnessed.
* C74 selected devices: `matchesDetail` is the spec relation `Named` for every name the tables can hold. Letter case is witnessed.
* C75 mquery ends: the loop of `main` over the library calls; a round is a sequence of calls (C61), the time `select` may wait is capped with `-T`, `last_rx` is the second of the last datagram (induction over the rounds). The day long sleep without `-T` and the endless wait with it are witnessed.
* C76 bounded replies: a potential (packets still to be made for every record and waiting reply) that sending lowers (C61) and receiving raises by at most the records the packet names and the questions about records; names and types of records do not change on the way, so the count refers to the first state.
* C77 reload: `records_clear` and `conf_init` as one function over the library calls. Every record afterwards is one a file asks for (invariant through all calls of `load`), numbers of freed records are not used again (C34), no step but a new record makes names, so later responses contain only such names. That all services are advertised is C63 along the files, with its conditions stated on the files alone. No goodbye is sent: witness.
* C78 no packet storms: a potential (packets each record waits for, plus one if it can still be withdrawn) that no received response increases (from the runs of labels of C76), so packets sent are paid by queries received and renewals; the network is a list of hosts, each with a history of calls, and an injection from the queries each hears to the packets others sent, so the bounds of the hosts add up; hosts without queries of their own send a bounded number of queries (probes, C30), which closes the sum.
* C79 departure end to end: the goodbye is in one packet (C34, C72), which is read as meant (C03, Packed.response); at the reader, induction over the answers of the packet: an answer with lifetime 0 removes the record, no other answer of the packet brings it back, and an entry that a query is linked to is reported when it goes.
* C80 origin of records: invariant of every call (Origin): each cached record and each reported record is traced to an answer of a response in the history; new entries and refreshes come from the packet at hand, removal and expiry report what was in the cache.
* C81 mquery -D as a whole: the callback of the library model is `ans_dev` over the log, the program is `main` around the daemon; what is listed is traced to answers (fold over the log), answers to received packets (C80), questions to answers (Grammar); an address that is reported is listed ever after (fold). A packet whose records are never listed is witnessed.
* C82 mquery NAME and -s: the callback is `ans` over the log, the texts are computed from the log; which callback is told of what (C24), what it was told (C80) and why it was registered (Grammar) give the origin of every line; what is reported is printed (C55). Three ways in which the output misleads are witnessed.
* C83 renewal: per call, where cached entries come from (Origin) and what becomes of a query (Turn); invariant over timed histories that the next time of a resting query is early enough for every known answer; the time is looked at in time (Timely).
* C84 staying: which entries a call leaves in the cache (Stocked, per step relation); invariant over timed histories that the record is listed since it was last confirmed; if it were to expire, C83 gives a question whose answer confirms it later.
* C85–C86 signals: the main loop as a transition system with the handlers between any two steps; invariants per program point, a rank for the way to the end.
* C87 two daemons: the packets with questions of one are the datagrams of steps of the other (C62, C68), the packets of these steps are received by the first (C03, C40); this gives the replies C84 asks for, and the first question is asked by C26's argument.
* C88 the program is `Client` in Spec/Client.lean, a function of the history of events only; two invariants of small steps in which an entry comes or goes together with the call of the callback (Lemmas/Views.lean): what the program has is backed by an entry with a query, and every entry is known to the program but for those there from the start.
* C89 sockets: the options in the order they are set, on a small specification of what Linux does with them (membership, delivery, sharing of ports); every socket made so shares its port, so induction over the requests; an invariant for arbitrary refusals.
* C90 pid file: the static variables and the file under histories of calls and of changes by others; invariant: the path is known exactly after a successful call.
* C91 hex dump: the loop with its reused buffer against lines of sixteen bytes; induction with the current line.
* C92 a record lasts: for every small step of every call what it does to one record (`Stays`); `Op.disturbs` says which calls are about it. For packets the fate of a record under `InQs` and `InAs`. Two daemons that hear each other (Props/Rivals) are run side by side for the counterexample of C36.
* C93 options: `getopt` as words to options, and the loop of `main`; induction over a relation `Written` between what is meant and how it is written, in both directions.
* C94 flushing: the empty function; witness.
* C95 default interface of mquery: the loop over the routes against a search; witness.
* C96 running out of memory: failing calls in `Model/Alloc`; an answer that cannot be stored is the same answer with lifetime zero (equation of
  programs), so histories with failures stay within the states of histories without; invariants directly for the rest; witnesses for unchecked results.
* C97 directories: file system as functions of places, `glob` component by component as glibc does it (patterns, hidden files, tilde, order). For paths without special characters the result is characterised completely (names, order, contents) and joined with C77; counterexamples for patterns, tilde, relative paths in the background and directories named like files.
* C98 pacing: the times at which a question is in a packet, from registration on; invariant relating the number of times asked to the tries left in the current round (`Round`), over every turn of the daemon; the rate follows by arithmetic.
* C99 intact messages, C100 logging them: the parser with pointers into one block (`Received.blockParse`, arbitrary bytes for the structures) simulates the parser by value; frame lemmas for texts below and above the structures; reading back through the pointers gives the message. Partial for C100: TXT data is printed without an end (witness).
* C101 which questions are answered: RFC 6762's reading of a question (`Question.for_`) against the code's; answered ones by C32/C33, others leave all queues and the unicast replies as they were (induction over the questions). Partial: case of letters and the unicast bit (witnesses).
* C102 conflicts and names: names asked for with two numbers are fixed by the files (the period behind the shorter host name would be a digit of the longer); with C77 for the records after the reload, C92's account of what a packet does to a record. Partial: names given in service files (witness).
* C103 no spinning: what one `mdnsd_out` that sends nothing leaves (`AtRest`: every queue that is not empty has its timer ahead), what the loop keeps at a constant clock (`processOut_last`), and the time that follows from it in each case of `mdnsd_sleep`. Partial: short lifetimes, the sweep and records that do not fit (each a state from which every number of steps spins).
* C104 the list of interfaces: cells with links, with a value for undefined behaviour; a memory stands for a list (`Rep`: the segment of cells, the head, no other live cell), every macro and the iterator keep that, and each loop simulates the loop over the list (`Sim`), up to the whole program. The variable kept by `iface_init` with `-i` is the interface of that name (`Kept`).
* C105 callbacks that end queries: `Model/Ending` is the receive path and the making of packets with callbacks that make any calls of `mdnsd_query`; the cache invariant `CInv` is kept by every such call, queries of other names stay (`Unended`), and the sweep removes exactly the expired records whatever is called (`Chained`). That calls take effect is read off the log (`Said`, `lastCall`). While a packet is made the query at hand must stay on the list: `Abides`, `Prog.Careful`. For the independence of callbacks two runs are compared (`Alike`: the same but for queries and callbacks).
* C106 conflict callbacks that call the library: `Model/Reacting` is the receive path with conflict callbacks that make any calls of the API, chosen from the whole state. Each call of a considerate callback changes at most one record (`Deed`), so that the chain the loop goes through keeps the records of the name (`Bides`); a whole packet is a sequence of steps without conflicts and of conflicts, each ending with the record given up (`Trail`), and the claims are inductions over it. Callbacks that make no calls give the model used before (`C106_plain`).
* C107 strings in buffers: `Model/Buffers` has memory as bytes with reads and writes that are checked (`oob`), and the loops of `strlcpy` with fuel; the theorem about `strlcpy` is by induction on the string (`copy_fits`, `copy_cut`, `skip_end`), those about the host name and the pattern follow and show that the models used elsewhere (`Conf.hostname`, `Glob.pattern`) are what is left in the buffer. False where `gethostname` leaves no zero byte and in the replacement for `~/` (counterexamples).
* C108 callbacks that call the library: `Model/Calling` is the receive path, the sweep and the making of packets with callbacks of all three kinds, which make any calls of the API chosen from the whole state. All that a packet does is a sequence of steps that change no record, of callbacks with their calls, and of conflicts (`Course`); the invariants `DInv` hold between them, calls of callbacks leave the cache alone (`Goes`) and keep the queries the loops still need (`Unended`, `Abides`), and the claims are inductions over it. `C108_ending` and `C108_reacting` show that the models for C105 and C106 are special cases.
* C109 strings of service files: `read_line`, `parse` and `load` over a heap of blocks in use, in which each `strdup` may fail and each `free` must be of a block in use. Invariant along the lines: in use are the strings of the record and what was before (counting addresses), and the record is that of C47 with strings missing. Lost settings and uses of NULL are witnessed.
* C110 string table and memory: `Model/XhtAlloc` adds to `Model/Xht` which allocations of each call fail. A step is that of C14 or leaves all entries as they are (`stepF_cases`), so C14 holds for a part of the calls; the ledger of copies is an invariant of both kinds of steps. The lost copies are witnessed.
* C111 memory of the library: `Model/Blocks` has the blocks of records, cached records, queries and pending answers, and every function that allocates or frees one. The invariant counts each block in use once among what is held or what belongs to the rest of the program; each step keeps it. What can be seen of the texts is specified separately (`View.after`). Giving a record its own string is shown to read freed memory.
* C112 refused answers: `Model/UniAlloc` lets `_u_push` fail. The run with and the run without memory are compared step by step (`Par`): contexts that differ in pending answers only stay so, and each refusal adds one. The invariant of the daemon does not need any pending answer, so that all later calls are defined as in C96.
* C113 mquery without memory: `Model/MqueryAlloc` gives `ans_dev` with a `calloc` that fails; none is a use of NULL. `C113_exact` is a case split over the types. The list is compared with that of a run with memory by the relation `AsGood`, kept by every answer: an entry that was not made would have been blank, and a blank entry is made again by the next answer about it.
* C114 TXT without memory: `Model/TxtAlloc` gives `sd2txt`, `txt2sd` and the TXT part of `load` over the table of C110. A line without a node leaves the table as it is, so that the table is that of the file with this line blanked, and C63 applies to that file; decoding is reduced to the calls of `xht_store` (C110_values).
* C115 service records without memory: `Model/LoadAlloc` splits `record` into its search and the making of the record, and gives `load` over it. With memory it is `load` of C63; without, each step either does what it does there or leaves the state as it is, so that the invariants of C63 (records last, nothing is withdrawn) carry over.
* C116 addresses without memory: `Model/AddrAlloc` lets `mdnsd_shared` and the list of names fail. In every reachable state an update with refused records is equal to an update with enough memory for the addresses that got a record or had one (`updateF_same`), so that C38 applies to it; the interface is a sequence of such updates.
* C117 new interfaces without memory: `iface_init` with any pattern of failing `calloc`; induction over the list of addresses with the set of names known so far; the number of allocations is that of any list without repetition of the new names.  The losses are shown in the models of the table and of the descriptors.
* C118 log levels and syslog: `Model/LogSys` has the level, the choice of syslog and the mask of the C library; invariant over histories: once syslog is open the mask is that of the level.  The level after a history is specified by a relation (`Current`) that does not use the model.
* C119 nodes of the string table: `Model/XhtHeap` keeps them in cells linked by pointers; refinement to the table of lists of C14 to C16 and C110, with the invariant that the cells of the buckets are distinct and together all that were allocated.
* C120 what the daemon waits for: `Model/Waiting` has the set and the number handed to `select`; invariant of the loop: the number is the largest descriptor so far.  What `select` leaves of descriptors not below the number is arbitrary.
* C121 messages and the command line: `Model/LogStart` joins the options (`Model/Options`) with the logger (`Model/LogSys`) and with what `daemon` does to the standard descriptors; composition of C93, C52 and the mask of C118.
* C122 socket addresses: `Model/Inet` has `struct sockaddr_storage` as bytes, `recvfrom` with its value-result length, and what `sendto` is given; the specification is an encoding of the addresses of the system; induction over the packets read. Layout of Linux, little-endian.
* C123 time of day in the log: `Model/LogTime` has `mdnsd_log_time` with `strftime` for the format used; the specification reads the digits of the text.  `localtime` is an unknown.
