{"id": "C01", "title": "Wire integers round-trip", "statement": "Writing a 16-bit value with short2net (a 32-bit value with long2net) and reading it back with net2short (net2long) returns the same value, in big-endian order, and both sides move the cursor by exactly 2 (4) bytes.", "quantifier": "all 16-bit and all 32-bit values, any surrounding bytes", "why_tests_cant": "2^32 values and any buffer contents; a test samples a handful", "anchors": ["libmdnsd/1035.c: short2net, net2short, long2net, net2long"]}
{"id": "C02", "title": "Compressed names decode to the name that was given", "statement": "In every packet assembled with message_qd/message_an/message_ns/message_ar and message_rdata_name/message_rdata_srv, each name field, decompressed by the rules of RFC 1035 4.1.4, is exactly the host name passed to the call, whatever names were appended before it.", "quantifier": "all sequences of append calls with well-formed names", "why_tests_cant": "compression depends on the whole history of names already in the packet; the number of histories is unbounded", "anchors": ["libmdnsd/1035.c: _host, _lmatch, message_qd, message_an, message_rdata_name, message_rdata_srv"]}
{"id": "C03", "title": "Build then parse is the identity", "statement": "Parsing the bytes produced by message_packet with message_parse succeeds and returns the same id, flags, questions and resource records (names, types, classes, TTLs, addresses, SRV fields, raw rdata), in the same order and sections.", "quantifier": "all messages made of questions and answer/authority/additional records within the documented size limits, and any bytes following the packet in the receive buffer", "why_tests_cant": "unbounded combinations of names, sections, compression targets and trailing buffer content", "anchors": ["libmdnsd/1035.c: message_parse, _label, _rrparse, message_packet"]}
{"id": "C04", "title": "Parsing always terminates", "statement": "message_parse returns after a bounded number of steps on every packet, however its compression pointers are arranged (cycles, forward chains, self references).", "quantifier": "all byte contents of the receive buffer", "why_tests_cant": "a non-terminating pointer arrangement can only be excluded by reasoning over all of them", "anchors": ["libmdnsd/1035.c: message_parse, _label"]}
{"id": "C05", "title": "Parsing never writes outside the message structure", "statement": "Whatever the packet contains, message_parse writes only inside the struct message it was given.", "quantifier": "all byte contents of the receive buffer", "why_tests_cant": "the write offsets are driven by attacker-chosen counts, lengths and pointers; tests cover isolated packets", "anchors": ["libmdnsd/1035.c: _label, _rrparse, message_parse"]}
{"id": "C06", "title": "Parsing never reads outside the receive buffer", "statement": "Whatever the datagram contains, message_parse reads only bytes of the receive buffer (65536 bytes in mdnsd, zero-filled behind the datagram).", "quantifier": "all datagrams and all lengths", "why_tests_cant": "the read cursor is moved by attacker-chosen names and rdlength fields", "anchors": ["libmdnsd/1035.c: _label, _rrparse, message_parse", "libmdnsd/mdnsd.c: process_in"]}
{"id": "C07", "title": "Header fields round-trip", "statement": "The id and all header bits (qr, opcode, aa, tc, rd, ra, z, rcode) set before message_packet are what message_parse reports, and the four section counts in the header equal the number of records appended.", "quantifier": "all header values and all append sequences of at most 65535 records per section", "why_tests_cant": "2^32 header values times unbounded append sequences", "anchors": ["libmdnsd/1035.c: message_packet, message_parse"]}
{"id": "C08", "title": "A datagram is interpreted from its own bytes only", "statement": "The message decoded from a received datagram does not depend on bytes left in the receive buffer behind it, e.g. by the previous, longer datagram.", "quantifier": "all datagrams and all earlier buffer contents", "why_tests_cant": "needs all pairs of consecutive datagrams", "anchors": ["libmdnsd/mdnsd.c: process_in", "libmdnsd/1035.c: message_parse"]}
{"id": "C09", "title": "Parsed names are bounded", "statement": "Every name handed out by message_parse is a NUL-terminated string of at most 256 characters, so copying it to a 257 byte buffer never overflows.", "quantifier": "all byte contents of the receive buffer", "why_tests_cant": "attacker-chosen label and pointer structure", "anchors": ["libmdnsd/1035.c: _label"]}
{"id": "C10", "title": "Encoded size is predictable", "statement": "Every append call adds a bounded number of bytes to the packet (at most 256 for a name, plus the fixed fields, plus the rdata), message_packet_len always equals the number of bytes appended plus the header, and no append modifies bytes appended earlier.", "quantifier": "all sequences of append calls with arbitrary (also malformed) names", "why_tests_cant": "unbounded histories; also malformed names", "anchors": ["libmdnsd/1035.c: _host, message_qd, _rrappend, message_rdata_*, message_packet_len"]}
{"id": "C11", "title": "TXT key/value tables round-trip", "statement": "Encoding a key/value table with sd2txt and decoding the result with txt2sd gives a table with exactly the same key/value pairs (an empty value stays a key-only attribute).", "quantifier": "all tables of non-empty keys without '=' and values", "why_tests_cant": "unbounded tables, hash collisions and lengths", "anchors": ["libmdnsd/sdtxt.c: sd2txt, txt2sd, _sd2txt_len, _sd2txt_write"]}
{"id": "C12", "title": "Decoding TXT data stays inside it", "statement": "txt2sd never reads beyond the len bytes it is given, never overruns its 256 byte scratch key, and always terminates, for any rdata.", "quantifier": "all byte strings and lengths", "why_tests_cant": "attacker-chosen rdata", "anchors": ["libmdnsd/sdtxt.c: txt2sd"]}
{"id": "C13", "title": "sd2txt fills exactly the buffer it allocates", "statement": "sd2txt reports in *len exactly the number of bytes it writes, at least 1, for every table.", "quantifier": "all tables", "why_tests_cant": "two separate passes over an arbitrary hash table must agree", "anchors": ["libmdnsd/sdtxt.c: sd2txt, _sd2txt_count, _sd2txt_write"]}
{"id": "C14", "title": "The string table is a map", "statement": "After any sequence of xht_set/xht_store calls, xht_get(k) returns the value of the last call made for k (NULL if there was none or if it cleared k), independent of other keys, of the table size and of hash collisions.", "quantifier": "all operation sequences, keys, values and table sizes", "why_tests_cant": "unbounded histories and collisions; slots are recycled", "anchors": ["libmdnsd/xht.c: _xht_set, xht_set, xht_store, xht_get, _xht_node_find"]}
{"id": "C15", "title": "The string table frees what it copied, once", "statement": "Every key/value copy made by xht_store is freed exactly once, when it is replaced or when the table is freed, and memory passed to xht_set is never freed by the table.", "quantifier": "all operation sequences followed by xht_free", "why_tests_cant": "leak and double free depend on the whole history of a slot", "anchors": ["libmdnsd/xht.c: _xht_set, xht_store, xht_free"]}
{"id": "C16", "title": "Walking the table visits every entry once", "statement": "xht_walk calls the walker exactly once for each key that currently has a value, and for no other key.", "quantifier": "all operation sequences", "why_tests_cant": "unbounded histories and collisions", "anchors": ["libmdnsd/xht.c: xht_walk"]}
{"id": "C17", "title": "Hash indexes stay in the table", "statement": "For every string the bucket index computed for the string table, the cache, the published records and the queries is within the table, also when the 64-bit intermediate hash overflows 32 bits.", "quantifier": "all strings", "why_tests_cant": "the overflow needs particular long strings; all lengths matter", "anchors": ["libmdnsd/xht.c: _xhter", "libmdnsd/mdnsd.c: _namehash"]}
{"id": "C18", "title": "The cache holds each record once", "statement": "At any time mdnsd_list enumerates no two entries with the same name, type and record data.", "quantifier": "all histories of received packets, queries, timeouts and callbacks", "why_tests_cant": "unbounded histories", "anchors": ["libmdnsd/mdnsd.c: _cache, _c_next, _a_match, mdnsd_list"]}
{"id": "C19", "title": "Seeing a known record again only refreshes it", "statement": "When an answer already in the cache is received again without the cache-flush bit, the cache contents stay the same except for the expiry time of that entry, and no callback is made.", "quantifier": "all cache states and answers", "why_tests_cant": "unbounded states", "anchors": ["libmdnsd/mdnsd.c: _cache"]}
{"id": "C20", "title": "A goodbye removes the record", "statement": "An answer with TTL 0 (without the cache-flush bit) removes every cached entry with the same name, type and data and leaves the other, unexpired entries alone; a query interested in it is told with ttl 0.", "quantifier": "all cache states and answers", "why_tests_cant": "unbounded states", "anchors": ["libmdnsd/mdnsd.c: _cache, _c_expire, _q_answer"]}
{"id": "C21", "title": "Cache flush replaces the old record set", "statement": "An answer with the cache-flush bit removes every previously cached entry of that name and type; after a packet carrying several such answers of one name and type, all of them are in the cache.", "quantifier": "all cache states and packets", "why_tests_cant": "unbounded states; the multi-record case is not covered by tests", "anchors": ["libmdnsd/mdnsd.c: _cache"]}
{"id": "C22", "title": "mdnsd_list is exact", "statement": "Iterating mdnsd_list(host,type) from NULL returns exactly the cached entries with that name and type (any type for 255), each once, and no others.", "quantifier": "all daemon states", "why_tests_cant": "hash collisions and unbounded states", "anchors": ["libmdnsd/mdnsd.c: mdnsd_list, _c_next"]}
{"id": "C23", "title": "Cached records expire", "statement": "The expiry sweep removes exactly the entries whose expiry time has passed, reports each one to its query exactly once with ttl 0, and keeps the rest in order; a cached entry is given now + ttl/2 + 8 seconds.", "quantifier": "all cache states, times and callback behaviours", "why_tests_cant": "unbounded states and re-entrant callbacks", "anchors": ["libmdnsd/mdnsd.c: _c_expire, _gc, _q_answer"]}
{"id": "C24", "title": "Answers reach the query that asked", "statement": "The answer callback of a query is only called with records whose name and type are those of the query, and each answer newly entered in the cache is reported to the registered query of its name and type exactly once.", "quantifier": "all histories", "why_tests_cant": "unbounded histories and hash collisions", "anchors": ["libmdnsd/mdnsd.c: _cache, _q_next, _q_answer, mdnsd_query"]}
{"id": "C25", "title": "Unregistering a query is final", "statement": "After mdnsd_query(host,type,NULL), or after the callback returned -1, the callback of that query is never called again, and no cache entry refers to it.", "quantifier": "all histories", "why_tests_cant": "unbounded histories", "anchors": ["libmdnsd/mdnsd.c: mdnsd_query, _q_done"]}
{"id": "C26", "title": "An unanswered question is asked three times", "statement": "A registered query that gets no answer is put in outgoing packets exactly three times, with 1 and 2 seconds between, and is then left alone until something changes.", "quantifier": "all schedules of mdnsd_out calls and clock values", "why_tests_cant": "unbounded schedules", "anchors": ["libmdnsd/mdnsd.c: mdnsd_out, _q_reset, mdnsd_query"]}
{"id": "C27", "title": "Known answers accompany questions", "statement": "Each question that is sent is accompanied by cached answers of the same name and type with more than 8 seconds left, with their remaining lifetime as TTL, and by no other answers.", "quantifier": "all daemon states", "why_tests_cant": "unbounded cache states", "anchors": ["libmdnsd/mdnsd.c: mdnsd_out"]}
{"id": "C28", "title": "A callback may unregister its own query", "statement": "Returning -1 from the answer callback at any time is safe: no freed query is used afterwards.", "quantifier": "all histories and callback behaviours", "why_tests_cant": "needs the interleaving of expiry, retry and callback result", "anchors": ["libmdnsd/mdnsd.c: mdnsd_out, _c_expire, _q_answer, _q_done"]}
{"id": "C29", "title": "Unique records are probed three times first", "statement": "A record created with mdnsd_unique appears in exactly three probe packets, at least 250 ms apart, before it is first announced.", "quantifier": "all schedules of mdnsd_out calls, any number of records", "why_tests_cant": "unbounded schedules", "anchors": ["libmdnsd/mdnsd.c: mdnsd_unique, mdnsd_out, _r_publish"]}
{"id": "C30", "title": "No answers from unverified records", "statement": "While a unique record is being probed it is not sent as an answer.", "quantifier": "all histories", "why_tests_cant": "needs all query/probe interleavings, also unicast ones", "anchors": ["libmdnsd/mdnsd.c: mdnsd_in, mdnsd_out, _r_send, _u_push"]}
{"id": "C31", "title": "Announcements are repeated four times", "statement": "A record that is set and not withdrawn is announced exactly four times, at least 2 seconds apart, and then only on demand.", "quantifier": "all schedules of mdnsd_out calls", "why_tests_cant": "unbounded schedules", "anchors": ["libmdnsd/mdnsd.c: mdnsd_out, _r_publish"]}
{"id": "C32", "title": "Known-answer suppression", "statement": "A record is not queued as a multicast response to a question if the same packet lists it as a known answer, and is queued if it does not (once fully published).", "quantifier": "all queries and daemon states", "why_tests_cant": "unbounded packets and record sets", "anchors": ["libmdnsd/mdnsd.c: mdnsd_in, _a_match, _r_send"]}
{"id": "C33", "title": "Queued responses are sent", "statement": "Every record queued as a response is put in an outgoing packet by the following mdnsd_out calls.", "quantifier": "all daemon states", "why_tests_cant": "unbounded states; interaction of service enumeration with ordinary queries", "anchors": ["libmdnsd/mdnsd.c: _r_out, mdnsd_in, mdnsd_step"]}
{"id": "C34", "title": "Withdrawing a record sends one goodbye", "statement": "After mdnsd_done on a published record, exactly one packet entry with TTL 0 is sent for it and the record is gone; a record still being probed disappears silently.", "quantifier": "all histories", "why_tests_cant": "unbounded histories", "anchors": ["libmdnsd/mdnsd.c: mdnsd_done, _r_send, _r_out, _r_done"]}
{"id": "C35", "title": "Shutdown says goodbye for everything", "statement": "After mdnsd_shutdown, repeated mdnsd_out calls send each published record with TTL 0, at least once, and never touch freed memory.", "quantifier": "all daemon states at shutdown", "why_tests_cant": "needs all queue states at the moment of shutdown", "anchors": ["libmdnsd/mdnsd.c: mdnsd_shutdown, mdnsd_out, _r_out"]}
{"id": "C36", "title": "Conflicts are reported", "statement": "If another host claims a name being probed with different data, the conflict callback of that record is called (once) and the record is withdrawn.", "quantifier": "all packets and daemon states", "why_tests_cant": "unbounded packets and states", "anchors": ["libmdnsd/mdnsd.c: mdnsd_in, _conflict"]}
{"id": "C37", "title": "Own packets are ignored", "statement": "A packet whose source address is one of this host's addresses changes nothing in the daemon's records, cache, queries and queues.", "quantifier": "all packets and daemon states", "why_tests_cant": "unbounded packets and states", "anchors": ["libmdnsd/mdnsd.c: mdnsd_in, _is_local"]}
{"id": "C38", "title": "Address sets are reconciled exactly", "statement": "After mdnsd_set_addresses_for_host (or the IPv6 variant), the addresses of the host's records that are not being withdrawn are exactly the given ones, and records of other names and types are untouched; calling it twice adds nothing.", "quantifier": "all daemon states and address lists", "why_tests_cant": "unbounded address lists and states", "anchors": ["libmdnsd/mdnsd.c: _update_addresses_for_host"]}
{"id": "C39", "title": "Additional records", "statement": "A response packet repeats no record: each record appears at most once in the answer and additional sections together; additional records are only SRV/TXT records of an answered PTR's target (and the addresses of the host such an SRV names) or addresses of an answered SRV's target host.", "quantifier": "all daemon states", "why_tests_cant": "unbounded record graphs", "anchors": ["libmdnsd/mdnsd.c: _additional, _ar, _ar_addr, _answered"]}
{"id": "C40", "title": "Packets respect the frame size", "statement": "A response packet is never larger than the frame size given to mdnsd_new, and no packet overruns the 65535 byte message buffer.", "quantifier": "all daemon states", "why_tests_cant": "unbounded record sets", "anchors": ["libmdnsd/mdnsd.c: _r_out, _ar, _rr_len, mdnsd_out"]}
{"id": "C41", "title": "The sleep time is well-formed and not too long", "statement": "mdnsd_sleep returns a time with 0 <= usec < 1000000 that is no longer than the time until the next due piece of work.", "quantifier": "all daemon states and clocks", "why_tests_cant": "exact boundary values of the clock", "anchors": ["libmdnsd/mdnsd.c: mdnsd_sleep, _tvdiff"]}
{"id": "C42", "title": "Published records are refreshed before they expire", "statement": "A published record is announced again before its TTL runs out at the receivers.", "quantifier": "all daemon states with any number of records", "why_tests_cant": "needs hash collisions between record names", "anchors": ["libmdnsd/mdnsd.c: mdnsd_sleep"]}
{"id": "C43", "title": "No memory errors in any history", "statement": "No sequence of API calls (publish, update, withdraw, clear, query, receive, send, sleep) makes the library use a freed or NULL record or corrupt its queues.", "quantifier": "all sequences of API calls, packets and clock values", "why_tests_cant": "unbounded histories; use-after-free bugs #84, #92 came from such histories", "anchors": ["libmdnsd/mdnsd.c: _r_push, _r_remove_lists, _r_done, _u_remove, mdnsd_done, mdnsd_out, mdnsd_in"]}
{"id": "C44", "title": "Lookups are exact", "statement": "mdnsd_find(name,type) returns a record iff one with that name and type is published; mdnsd_get_published and mdnsd_has_query do not report other names.", "quantifier": "all daemon states", "why_tests_cant": "hash collisions", "anchors": ["libmdnsd/mdnsd.c: mdnsd_find, mdnsd_get_published, mdnsd_has_query"]}
{"id": "C45", "title": "Clearing removes all records", "statement": "After records_clear no record is published, queued or referenced by a pending unicast answer, and cache and queries are untouched.", "quantifier": "all daemon states", "why_tests_cant": "unbounded histories", "anchors": ["libmdnsd/mdnsd.c: records_clear"]}
{"id": "C46", "title": "Responses go to the right place", "statement": "Packets go to the mDNS group of the daemon's address family, except answers to a query from a source port other than 5353, which go to that source with the query's id.", "quantifier": "all daemon states and queries", "why_tests_cant": "unbounded states", "anchors": ["libmdnsd/mdnsd.c: mdnsd_out, mdns_mcast, _u_push", "libmdnsd/inet.c: inet_port"]}
{"id": "C47", "title": "Configured names are rooted", "statement": "Host names from the configuration are published with exactly one trailing dot and within the 255 byte buffer.", "quantifier": "all configured names", "why_tests_cant": "all lengths around the buffer size", "anchors": ["src/conf.c: fqdn"]}
{"id": "C48", "title": "Conflicting host names become distinct", "statement": "After each conflict the host name gets the suffix -N; different N never give the same host name, and the result always fits the buffer.", "quantifier": "all host names and all N", "why_tests_cant": "all lengths around the buffer size and all N", "anchors": ["src/conf.c: conf_init", "src/mdnsd.c: mdnsd_conflict"]}
{"id": "C49", "title": "Interface address choice", "statement": "The address chosen for an interface is of the best class present (IPv6: global > unique local > site local > link local; IPv4: other > link local), whatever the order in which the system lists the addresses.", "quantifier": "all address lists in all orders", "why_tests_cant": "permutations of unbounded lists", "anchors": ["src/addr.c: iface_init", "src/mdnsd.h: is_linklocal, is_zeronet"]}
{"id": "C50", "title": "Interface rescans flag real changes only", "statement": "A rescan that finds the same addresses reports no change, and one that finds a different chosen address on a used interface flags it as changed.", "quantifier": "all interface tables and rescans", "why_tests_cant": "unbounded tables and histories", "anchors": ["src/addr.c: mark, sweep, iface_init"]}
{"id": "C51", "title": "Service files are parsed line by line", "statement": "Each line sets exactly the field named by its keyword, comments and unknown keywords change nothing, the last value wins, and at most 42 TXT entries are kept.", "quantifier": "all files", "why_tests_cant": "unbounded inputs", "anchors": ["src/conf.c: read_line, parse, chomp"]}
{"id": "C52", "title": "Log level names", "statement": "mdnsd_log_level maps each known name, in any letter case, to its level, changes the level only to non-negative values, and returns -1 only for input that parses to -1.", "quantifier": "all strings", "why_tests_cant": "unbounded inputs", "anchors": ["libmdnsd/log.c: mdnsd_log_level"]}
{"id": "C53", "title": "Netlink events trigger a rescan", "statement": "netlink_read reports a change iff one of the drained messages is a link or address event or the kernel dropped events, whatever the split into datagrams and interruptions.", "quantifier": "all sequences of recv results", "why_tests_cant": "unbounded event sequences", "anchors": ["src/netlink.c: netlink_read"]}
{"id": "C54", "title": "Device lists have no duplicates", "statement": "mquery's device table has one entry per host name and at most 8 distinct addresses per device, for any sequence of answers.", "quantifier": "all answer sequences", "why_tests_cant": "unbounded histories", "anchors": ["src/mquery.c: find_or_create_device, find_or_create_instance, device_add_addr"]}
{"id": "C55", "title": "A published service is discovered", "statement": "If one daemon announces a record and the packet reaches another daemon with a matching query, that daemon's callback gets exactly the published data.", "quantifier": "all records and daemon states within the size limits", "why_tests_cant": "end-to-end composition of encoder, decoder, cache and queries", "anchors": ["libmdnsd/mdnsd.c: mdnsd_out, mdnsd_in, _a_copy", "libmdnsd/1035.c: message_packet, message_parse"]}
{"id": "C56", "title": "Raw data is added whole or not at all", "statement": "message_rdata_raw adds the data with its exact length if it ends within the first 4096 bytes of the message, and otherwise an empty data field; it never truncates or changes earlier bytes.", "quantifier": "all messages and all data", "why_tests_cant": "exact boundary over all packet lengths", "anchors": ["libmdnsd/1035.c: message_rdata_raw"]}
{"id": "C57", "title": "Sending settles", "statement": "Whatever calls were made before (other than mdnsd_shutdown), if every record fits in an empty packet, no service enumeration question is waiting, and packets are then made every two seconds, after finitely many packets nothing waits to be sent any more: every probe, announcement, response, unicast answer and goodbye is out. The number of packets needed is bounded by nine per record plus one per unicast answer.", "quantifier": "all histories of API calls and packets, any number of records", "why_tests_cant": "liveness over unbounded histories and record sets", "anchors": ["libmdnsd/mdnsd.c: mdnsd_out, _r_out, _r_publish, _r_send, _u_push"]}
{"id": "C58", "title": "Answers are supplemented completely", "statement": "Every SRV/TXT record of an answered PTR's target and every address of a host named by an answered (or accompanying) SRV is in the packet too, as an answer or additional record, unless it does not fit in the frame size.", "quantifier": "all daemon states, all answers", "why_tests_cant": "unbounded record graphs; interaction of the fit check with the order of records", "anchors": ["libmdnsd/mdnsd.c: _additional, _ar, _ar_addr, _answered, mdnsd_out"]}
{"id": "C59", "title": "Packets show the records as they are", "statement": "Every record in a response, announcement, goodbye or probe is sent with the name, type, lifetime and data it has at the time of mdnsd_out; the cache-flush bit is set exactly for unique records in answers to everyone and additional records.", "quantifier": "all daemon states, all packets", "why_tests_cant": "unbounded states and packets", "anchors": ["libmdnsd/mdnsd.c: mdnsd_out, _r_out, _ar, _a_copy"]}
{"id": "C60", "title": "TXT data is decoded by its strings", "statement": "For any bytes, txt2sd gives a table in which each key has the value of the last string with that key: k=v gives v, k alone gives the empty value; strings after an empty or cut-off one are ignored.", "quantifier": "all byte strings and all non-empty keys", "why_tests_cant": "Depends on every combination of lengths, separators, NUL bytes and duplicate keys.", "anchors": ["libmdnsd/sdtxt.c:txt2sd", "libmdnsd/xht.c:xht_get", "libmdnsd/xht.c:xht_store"]}
{"id": "C61", "title": "A step ends", "statement": "mdnsd_step takes in the waiting datagrams, sends until there is nothing more to send and returns; whatever arrived and whatever is pending, it neither crashes nor sends forever, it sends each packet mdnsd_out makes, no unicast answer is left when it succeeds, and the waiting time is given exactly when it succeeds.", "quantifier": "all reachable states, all waiting datagrams, all clocks that do not go back, all failures of the socket", "why_tests_cant": "The sending loop has no bound of its own; whether it ends depends on the whole state.", "anchors": ["libmdnsd/mdnsd.c: mdnsd_step, process_in, process_out"]}
{"id": "C62", "title": "Datagrams are taken one by one", "statement": "The effect of the datagrams that wait for mdnsd_step is that of taking each alone, in order, for what its own bytes say; those that cannot be decoded have no effect; it does not matter how they are grouped into steps.", "quantifier": "all sequences of datagrams, all states, all previous contents of the receive buffer", "why_tests_cant": "Depends on every combination of datagrams and on what earlier ones left in the buffer.", "anchors": ["libmdnsd/mdnsd.c: process_in", "libmdnsd/1035.c: message_parse"]}
{"id": "C63", "title": "A service file is published", "statement": "When the daemon loads a service file it advertises the service: the type can be enumerated, browsing the type leads to the instance, the instance has an SRV record with the port and the host of the file and a TXT record whose decoding gives each key the value of the last line for it, the alias leads to the host, and the host has exactly the addresses of the interface. Services of other names that were advertised before stay so. Loading a directory ends normally and tells whether all files could be read.", "quantifier": "all service files, all host names, all addresses of the interface, all states of the daemon, any number of files", "why_tests_cant": "Which records are made depends on every record that is already there and on collisions of a hash table.", "anchors": ["src/conf.c: record, load, load_all, conf_init", "libmdnsd/mdnsd.c: mdnsd_find, mdnsd_record_next, mdnsd_shared, mdnsd_unique, mdnsd_set_host, mdnsd_set_srv, mdnsd_set_raw, mdnsd_set_interface_addresses", "libmdnsd/sdtxt.c: sd2txt"]}
{"id": "C64", "title": "Loading again changes nothing", "statement": "Loading a service file that is loaded already, as the daemon does when an interface changes, makes no record, withdraws none and changes the data of none, except that the addresses of hosts become those of the interface.", "quantifier": "all service files, all states in which the service is advertised, all addresses", "why_tests_cant": "The file is read against whatever records exist; address records are made and taken back on the way.", "anchors": ["src/conf.c: record, load", "libmdnsd/mdnsd.c: mdnsd_set_interface_addresses, mdnsd_set_srv, mdnsd_set_raw"]}
{"id": "C65", "title": "Freeing a context releases everything once", "statement": "Whatever calls were made before, mdnsd_free releases every published record, whether queued or not, every query, cache entry and pending reply exactly once and leaves none.", "quantifier": "all reachable states of the library", "why_tests_cant": "Leaks and double frees depend on the history of all tables and queues.", "anchors": ["libmdnsd/mdnsd.c: mdnsd_free, _free_cached, _free_record"]}
{"id": "C66", "title": "The daemon waits no longer than its contexts ask", "statement": "Between looking after its contexts the daemon waits no longer than each of them asked for and no longer than the interval for looking up the interfaces; these are looked up at least that often; and it does not wait shorter for no reason.", "quantifier": "all runs of the main loop: any number of interfaces, any waiting times, signals, clocks", "why_tests_cant": "Depends on every combination of waiting times of any number of contexts and on what select left in its argument in earlier rounds.", "anchors": ["src/mdnsd.c: main, sys_timeout"]}
{"id": "C67", "title": "Asking finds what is published", "statement": "If a daemon asks for a name and type and the packet reaches another daemon that has published a matching record the first one does not know, the second daemon answers within the packets it makes next, and when that answer reaches the first daemon the callback of its query is told the record.", "quantifier": "all records, questions, known answers and states of both daemons within the size limits", "why_tests_cant": "Composition of question scheduling, known answers, encoder, decoder, response queues, cache and callbacks of two daemons.", "anchors": ["libmdnsd/mdnsd.c: mdnsd_query, mdnsd_out, mdnsd_in, _r_send, _r_out, _a_copy, _cache", "libmdnsd/1035.c: message_packet, message_parse"]}
{"id": "C68", "title": "A step sends everything that is due", "statement": "A call of mdnsd_step that receives a question for a published record, and whose packets the socket takes, answers it to everyone within this same call; whatever waits as an answer is sent by the next such call. Hence asking with one step, answering with one step and hearing with one step tells the callback.", "quantifier": "all daemon states, records, questions, amounts of other waiting work, clock readings and socket results of the step", "why_tests_cant": "The number of packets a step makes is not bounded and depends on everything that waits; the record may be behind any amount of other work.", "anchors": ["libmdnsd/mdnsd.c: mdnsd_step, process_in, process_out, mdnsd_out, _r_send, _r_out"]}
{"id": "C69", "title": "Answers of shared records are held back", "statement": "When a shared record is asked for, no packet for everyone carries it as an answer before a pause of 20 to 120 milliseconds is over, so that answers of several hosts do not collide.", "quantifier": "all daemon states, shared records, questions, and all sequences of packets made before the pause is over", "why_tests_cant": "Concerns every packet made in a stretch of time, next to any other records, announcements, probes and questions.", "anchors": ["libmdnsd/mdnsd.c: _r_send, mdnsd_out"]}
{"id": "C70", "title": "The daemon neither loses nor misuses sockets and contexts", "statement": "However interfaces come, go, change and fail, the daemon uses only sockets it has open and contexts it has not freed; the open sockets are exactly those of its interfaces and the netlink socket, so that nothing leaks however long it runs; every interface it knows has a socket and a context; no socket is too large for select; and when it ends everything has been closed and freed.", "quantifier": "all runs: any lists of interfaces at every scan, any failures of sockets, memory and steps, any reloads, any numbering of descriptors, any number of rounds", "why_tests_cant": "A leak or a use after close needs a particular order of failures, address changes and reloads over a long run, on a system that lets calls fail.", "anchors": ["src/mdnsd.c: main, setup_iface, free_iface, sys_init", "src/addr.c: iface_init, iface_iterator, iface_free", "src/mcsock.c: mdns_socket, mdns_socket6", "src/netlink.c: netlink_init, netlink_exit"]}
{"id": "C71", "title": "A failing interface is given up alone and comes back", "statement": "If the socket of an interface fails, everything of this interface is released and the others keep what they have; a failing IPv6 socket costs the interface only IPv6; and the next scan that finds an address of the interface gives it again a socket, a context and its configuration, for IPv6 too.", "quantifier": "all states the daemon can get into, all sets of failing interfaces, all later scans", "why_tests_cant": "Concerns every combination of failing and working interfaces after any history.", "anchors": ["src/mdnsd.c: main, setup_iface, free_iface, sys_init", "src/addr.c: iface_init, iface_iterator"]}
{"id": "C72", "title": "Goodbyes leave before the socket is closed", "statement": "When the daemon gives up an interface or ends, every record published there is withdrawn: exactly one of the packets handed to the socket before it is closed carries it as an answer for everyone, to the multicast group, with its name, type and data and lifetime 0, nothing sent then carries it with another lifetime, and afterwards everything is freed.", "quantifier": "all states of the daemon, any number and size of records, anything that waits to be sent", "why_tests_cant": "How many packets the goodbyes need and what else is put in them depends on the whole state; they have to be out within a single step.", "anchors": ["src/mdnsd.c: free_iface", "libmdnsd/mdnsd.c: mdnsd_shutdown, mdnsd_step, process_out, mdnsd_out, mdnsd_free"]}
{"id": "C73", "title": "The device listing shows every device", "statement": "The device table of mquery -D has a title and, for every device found, its name, every address and the product in columns shared by all lines; the details of mquery -d list for every device asked for its name, all addresses and all services on it with type and port. Nothing else is printed as a device.", "quantifier": "all sequences of answers received, any number of devices, addresses and services, any names and texts", "why_tests_cant": "The columns depend on all devices at once, and names, addresses and texts come from the network.", "anchors": ["src/mquery.c: print_devices, print_device_detail, shortname"]}
{"id": "C74", "title": "Asking for a host shows exactly this host", "statement": "mquery -d HOST prints exactly the devices named HOST: the full name with or without final dot, or its first label, without regard to letter case.", "quantifier": "all host names given and all sequences of answers received", "why_tests_cant": "Names given by the user meet arbitrary names from the network.", "anchors": ["src/mquery.c: matches_detail, shortname, print_device_detail"]}
{"id": "C75", "title": "mquery ends when it is told to", "statement": "With -w SEC mquery ends when SEC seconds have passed, and with -T when nothing was received for two seconds; neither earlier nor more than a second, and the time a round of work needs, later. Whatever is received it neither hangs nor misuses memory, and when it ends everything is freed.", "quantifier": "all sequences of rounds: any datagrams and arrival times, any schedules and delays, any options and queries", "why_tests_cant": "When the program wakes up depends on the time the library asks it to sleep after an arbitrary history.", "anchors": ["src/mquery.c: main", "libmdnsd/mdnsd.c: mdnsd_sleep, mdnsd_in, mdnsd_out, mdnsd_shutdown, mdnsd_free"]}
{"id": "C76", "title": "What is received makes the daemon send a bounded amount", "statement": "However many packets are received, from whom and whatever is in them, the packets with records the daemon sends are at most one for every record a packet received asks for or names and one for every question about a record, beside what was already waiting and the renewal of records. A packet that concerns no record of the daemon makes it send no record.", "quantifier": "all states, all packets received, all schedules and lengths of runs", "why_tests_cant": "Amplification is a matter of worst cases over all packets and histories; a test shows the reply to one packet.", "anchors": ["libmdnsd/mdnsd.c: mdnsd_in", "libmdnsd/mdnsd.c: mdnsd_out", "libmdnsd/mdnsd.c: _r_send"]}
{"id": "C77", "title": "Reading the configuration again", "statement": "When the daemon reads its service files again (SIGHUP, or after a name conflict), it then publishes exactly what the files ask for, whatever it published before: services of files that are there are advertised and their unique records probed anew, services whose files are gone are no longer answered for, and other hosts are told so.", "quantifier": "all states, all sets of service files and addresses, everything received afterwards", "why_tests_cant": "What may be left over depends on all records, queues and replies waiting at the moment of the signal, and what is said afterwards on all packets received later.", "anchors": ["src/mdnsd.c: main", "src/conf.c: conf_init", "src/conf.c: load", "libmdnsd/mdnsd.c: records_clear"]}
{"id": "C78", "title": "Daemons do not keep each other talking", "statement": "Responses received make a daemon send nothing beyond the goodbyes of records it gives up: what it sends is bounded by what was pending, by the records queries ask for and by its renewals. Any number of daemons on one network that only publish therefore fall silent: all they send together is bounded by their records and renewals, whatever they hear from each other.", "quantifier": "any number of hosts, any states, all orders, losses and delays of packets, any responses from anyone, runs of any length", "why_tests_cant": "A packet storm is a matter of all interleavings of any number of hosts; a test runs one network for some time.", "anchors": ["libmdnsd/mdnsd.c: mdnsd_in", "libmdnsd/mdnsd.c: mdnsd_out", "libmdnsd/mdnsd.c: _conflict", "libmdnsd/mdnsd.c: _r_done", "libmdnsd/mdnsd.c: mdnsd_step"]}
{"id": "C79", "title": "A departure is noticed", "statement": "When a host withdraws a record, or leaves in an orderly way, every host that receives its packets forgets the record at once, and whoever watches the record there is told that it is gone.", "quantifier": "all states and histories of both hosts, all records, all queues waiting to be sent, anything that follows the packet in the receive buffer", "why_tests_cant": "The goodbye has to survive queueing, packing with other records, name compression, parsing and the order of answers in the packet, in every state of both hosts.", "anchors": ["libmdnsd/mdnsd.c: mdnsd_done", "libmdnsd/mdnsd.c: mdnsd_shutdown", "libmdnsd/mdnsd.c: _cache", "libmdnsd/mdnsd.c: _q_answer", "src/mdnsd.c: free_iface"]}
{"id": "C80", "title": "Nothing is reported that was not received", "statement": "Whatever an answer callback is told, and whatever mdnsd_list gives, came with a response that was received: name, type and data are those of an answer of that response, the responder shown is its sender, and the lifetime follows from that of the answer.", "quantifier": "all histories of calls and packets, all callbacks", "why_tests_cant": "A record could be mixed up with another one, get the data of an earlier or later packet, or survive its removal only after some sequence of packets, refreshes and expiries.", "anchors": ["libmdnsd/mdnsd.c: _cache", "libmdnsd/mdnsd.c: _q_answer", "libmdnsd/mdnsd.c: _c_expire", "libmdnsd/mdnsd.c: mdnsd_list"]}
{"id": "C81", "title": "mquery -D lists the devices of the network", "statement": "What mquery -D lists was received: each device and each of its addresses, each service with host, port, product and version is from a record of a response; it asks only for names it was told; and the devices, addresses and services announced while it runs are listed.", "quantifier": "all sequences of datagrams received, all options and times", "why_tests_cant": "The tables are filled by callbacks which register further queries while answers are being processed; what is listed depends on the order of records and packets.", "anchors": ["src/mquery.c: ans_dev, main", "libmdnsd/mdnsd.c: mdnsd_query", "libmdnsd/mdnsd.c: mdnsd_in"]}
{"id": "C82", "title": "What mquery prints was received", "statement": "Each line of mquery NAME names what a received pointer of NAME (or of a name it points to) points to, and the host that sent it; each line of mquery -s NAME describes a received record of NAME with the seconds it is still valid; and services announced while it runs are printed when they come, not when they go.", "quantifier": "all sequences of datagrams received, all names, types, options and times", "why_tests_cant": "What is printed depends on what was cached before and on the order in which records arrive.", "anchors": ["src/mquery.c: ans, type2str, main", "libmdnsd/mdnsd.c: mdnsd_query", "libmdnsd/mdnsd.c: mdnsd_in"]}
{"id": "C83", "title": "Known answers are asked for again before they expire", "statement": "While a query is registered, the question is asked again before an answer that is known expires, so that a record that is still there does not get lost.", "quantifier": "all sequences of API calls and received packets, all times at which packets are made", "why_tests_cant": "Whether the question is asked in time depends on when each answer arrived, on all lifetimes, and on when packets were made since.", "anchors": ["libmdnsd/mdnsd.c: mdnsd_out", "libmdnsd/mdnsd.c: _q_reset", "libmdnsd/mdnsd.c: mdnsd_in"]}
{"id": "C84", "title": "A service that keeps answering stays known", "statement": "While a query is registered and another host answers every question with a record in time, unless the packet may list the record as known (more than eight seconds left), the record, once received, is listed after every call from then on: it never expires, as long as packets are made regularly and no response withdraws or replaces it.", "quantifier": "all sequences of API calls and received packets, all times, all lifetimes, all ways in which the answers come between other packets", "why_tests_cant": "That a record never drops out needs every question, its answer and every expiry time to fit together over an unbounded time.", "anchors": ["libmdnsd/mdnsd.c: mdnsd_out", "libmdnsd/mdnsd.c: _q_reset", "libmdnsd/mdnsd.c: _cache", "libmdnsd/mdnsd.c: _c_expire", "libmdnsd/mdnsd.c: mdnsd_list"]}
{"id": "C85", "title": "A signal to read the configuration again is obeyed", "statement": "Whenever SIGHUP arrives at the daemon, the interfaces are looked up and the configuration of each is read after it, and the daemon waits for packets at most once before.", "quantifier": "all interleavings of signals with the steps of the main loop", "why_tests_cant": "Signals may arrive between any two steps; tests cannot choose where.", "anchors": ["src/mdnsd.c: main", "src/mdnsd.c: reconf", "src/mdnsd.c: mdnsd_conflict"]}
{"id": "C86", "title": "A signal to end is obeyed", "statement": "Whenever SIGINT, SIGQUIT or SIGTERM arrives at the daemon, it frees its interfaces and ends, after waiting for packets at most once more; further signals do not keep it alive.", "quantifier": "all interleavings of signals with the steps of the main loop", "why_tests_cant": "Signals may arrive between any two steps; tests cannot choose where.", "anchors": ["src/mdnsd.c: main", "src/mdnsd.c: done"]}
{"id": "C87", "title": "What is published is known to whoever asks, and stays known", "statement": "A daemon has published a record and another one registers a query for its name and type. If packets between them arrive in time, then a few seconds later, and at every moment from then on until the query ends or the record is withdrawn, the second daemon lists the record unexpired.", "quantifier": "all histories of both daemons, all records and lifetimes, all other packets received in between, all times", "why_tests_cant": "Two programs have to work together over an unbounded time: questions, known-answer lists, replies, cache expiry and repeated questions must fit in every order.", "anchors": ["libmdnsd/mdnsd.c: mdnsd_step", "libmdnsd/mdnsd.c: mdnsd_out", "libmdnsd/mdnsd.c: mdnsd_in", "libmdnsd/mdnsd.c: _q_reset", "libmdnsd/mdnsd.c: _cache", "libmdnsd/mdnsd.c: _c_expire", "libmdnsd/mdnsd.c: mdnsd_list"]}
{"id": "C88", "title": "What a program was told is what is in the cache", "statement": "A program that registers a query and keeps a set of records from what its callback is told (a record with a lifetime is added, one with TTL 0 taken out) has, at every moment while the query lasts, exactly the records mdnsd_list gives for that name and type.", "quantifier": "all histories of calls, all packets, all callbacks, all names and types", "why_tests_cant": "The callback is only told differences; that they always add up to the state of the cache must hold for every order of arrivals, flushes, goodbyes, expiries, repeated packets and queries made or ended by callbacks.", "anchors": ["libmdnsd/mdnsd.c: _q_answer", "libmdnsd/mdnsd.c: _c_expire", "libmdnsd/mdnsd.c: _cache", "libmdnsd/mdnsd.c: mdnsd_query", "libmdnsd/mdnsd.c: _q_done", "libmdnsd/mdnsd.c: mdnsd_list"]}
{"id": "C89", "title": "Sockets hear and speak on their own interface, and do not get in each other's way", "statement": "Unless the system refuses a call, mdns_socket and mdns_socket6 return a socket that does not block, is bound to port 5353, is a member of the group the library sends to on the given interface, sends multicast there with the given hop limit (1 if none is given), and hears nothing that arrives on other interfaces; any number of such sockets of any programs, for any interfaces and both families, can exist at the same time. Whatever the system refuses, a socket that is returned is never a member of another group or on another interface.", "quantifier": "all sets of other sockets, all interfaces, hop limits and owners, all patterns of refused calls, all feature sets of the system", "why_tests_cant": "Depends on the order of the options and on every other socket of the system, and on which calls fail.", "anchors": ["src/mcsock.c: mc_socket", "src/mcsock.c: mc_socket6", "src/mcsock.c: mdns_socket", "src/mcsock.c: mdns_socket6", "src/mcsock.c: get_addr", "src/mdnsd.c: multicast_socket", "src/mquery.c: msock"]}
{"id": "C90", "title": "The pid file names the daemon while it runs and is gone afterwards", "statement": "When pidfile gives 0 the file holds the number of the process; when it gives -1 it leaves no file of its own behind; when the process ends a file that it wrote is removed, and otherwise no file is touched.", "quantifier": "all histories of calls with any failures of the system, of removals and changes of the file by others, and any file left behind before", "why_tests_cant": "Which static variables are set depends on the history of failures; the cleanup handler may be registered several times.", "anchors": ["lib/pidfile.c: pidfile", "lib/pidfile.c: pidfile_cleanup", "src/mdnsd.c: main"]}
{"id": "C91", "title": "A packet printed for debugging is printed in full", "statement": "mdnsd_log_hex prints each byte of the packet exactly once, in order, sixteen to a line with the offset in front and the same bytes as text behind.", "quantifier": "all packets of any length, all messages", "why_tests_cant": "Lines depend on the length modulo sixteen and on a buffer reused from line to line.", "anchors": ["libmdnsd/log.c: mdnsd_log_hex"]}
{"id": "C92", "title": "A record lasts until it is given up", "statement": "A record with a lifetime that is in the daemon stays there with the same contents through all calls, packets and times, until the program changes or withdraws it, a change of addresses concerns it, everything is cleared or shut down, or a conflict of it is reported. A conflict is reported, and the record given up, only for a unique record and a packet that has something to do with it: a query that claims the name with other data while the record is not set, or a response with its own data.", "quantifier": "all histories of calls, all packets received, all records", "why_tests_cant": "It must hold for every packet at every moment; any of the many places that unlink records might take the wrong one.", "anchors": ["libmdnsd/mdnsd.c: mdnsd_in, mdnsd_out, mdnsd_done, _conflict, _r_done"]}
{"id": "C93", "title": "Options mean the same however they are written", "statement": "mdnsd starts only if its whole command line is understood; then it uses the last host name, interface, log level and TTL (1 to 255) given, the path of the first operand, runs in the foreground exactly with -n, and logs to syslog in the background and with -s. Otherwise it ends with an exit code other than 0, unless help or the version was asked for. mquery likewise uses the last interface, type, time and device given and asks for the first operand.", "quantifier": "all command lines, in all ways of grouping and joining options, with and without POSIXLY_CORRECT", "why_tests_cant": "Unbounded command lines; options may be repeated and combined in any order.", "anchors": ["src/mdnsd.c: main", "src/mquery.c: main", "libmdnsd/log.c: mdnsd_log_level"]}
{"id": "C94", "title": "Flushing empties the cache", "statement": "After mdnsd_flush nothing received before is cached any more.", "quantifier": "all states of the daemon", "why_tests_cant": "unbounded states", "anchors": ["libmdnsd/mdnsd.c: mdnsd_flush"]}
{"id": "C95", "title": "mquery asks on the LAN", "statement": "Without -i, mquery uses the interface of the first default route that is up and not a tunnel, if there is one.", "quantifier": "all routing tables", "why_tests_cant": "unbounded tables, any order of the routes", "anchors": ["src/mquery.c: getifname"]}
{"id": "C96", "title": "Running out of memory loses only what was to be stored", "statement": "If memory cannot be had while a program asks, publishes, sets data or receives a packet, then at most what was to be stored is missing; everything else stays as it is, and all later calls are defined.", "quantifier": "all histories of calls, of which any may find no memory, at any of its allocations", "why_tests_cant": "failures at every point of every history, and all that follows", "anchors": ["libmdnsd/mdnsd.c: mdnsd_query, mdnsd_shared, mdnsd_unique, _cache, mdnsd_in, mdnsd_set_host, mdnsd_set_raw, mdnsd_set_interface_addresses"]}
{"id": "C97", "title": "A directory means the service files in it", "statement": "If the path given to mdnsd is a directory, exactly the files in it whose names end with .service and do not begin with a period are loaded, each once and in the order of their names; if it is a file, that file alone. It means the same in the foreground and in the background. If there is nothing at the path, nothing is loaded and nothing changed.", "quantifier": "all file systems, all paths", "why_tests_cant": "any path and any contents of the directories along it; patterns are interpreted by the C library", "anchors": ["src/conf.c: conf_init", "src/mdnsd.c: main"]}
{"id": "C98", "title": "Questions are not repeated too soon", "statement": "While a query is registered its question goes out in rounds of three: the second at least one second after the first, the third at least two seconds after the second, and the next round at least three seconds after that. So at most 3 m questions go out for it in any 6 m seconds, whatever other nodes send, whatever the application does with other queries and records, and however often it asks for packets.", "quantifier": "all environments, all histories in which the clock is not set back, all queries", "why_tests_cant": "any number of calls and messages in any order; a test sees a few", "anchors": ["libmdnsd/mdnsd.c: mdnsd_out, mdnsd_in, mdnsd_query, _q_reset, _q_answer"]}
{"id": "C99", "title": "A parsed message stays as it was received", "statement": "When a datagram has been parsed, the names and the data that its questions and records point at are those of the datagram, each as it was when it was read. Nothing that is stored for a later part of the message changes an earlier part, even when names repeat and share storage or when structures and texts fill the whole block.", "quantifier": "all contents of the receive buffer, all texts of addresses, all contents of the structures", "why_tests_cant": "depends on where every name and record lands in one block; a test sees a few layouts", "anchors": ["libmdnsd/1035.c: message_parse, _label, _rrparse", "libmdnsd/1035.h: struct message"]}
{"id": "C100", "title": "Logging received records shows them and stays inside the message", "statement": "With debug logging the daemon writes one line for each answer it receives: its name and its address, host name, service data or text. It reads only memory of the message for that. The text of a TXT record is shown as received, up to the first zero byte, and nothing else.", "quantifier": "all contents of the receive buffer, all answers", "why_tests_cant": "the text is read until a zero byte is found, so that what is read depends on everything behind it", "anchors": ["src/mdnsd.c: record_received", "libmdnsd/1035.c: _rrparse"]}
{"id": "C101", "title": "Questions are answered however they are spelled, and nothing that was not asked for is sent", "statement": "A query with a question for a record that was set and announced makes the record be sent to everyone within the next packets: whether the question is for its type or for ANY, whatever the case of the letters of the name, and with or without the bit that asks for a unicast response. A record that no question of the query is for is not queued because of it, neither for everyone nor for the querier.", "quantifier": "all histories of calls and packets, all queries and queriers, all records", "why_tests_cant": "records, other questions of the query and the queues interact in any order; a test sends a few queries", "anchors": ["libmdnsd/mdnsd.c: mdnsd_in, _r_next, _send"]}
{"id": "C102", "title": "A conflict is settled by another name", "statement": "When another host turns out to use a name of the daemon, the daemon reads its configuration again with the next number behind the host name. From then on it has no record and sends no response under the names it had before, and packets about those names are no conflict any more, whatever else is received and sent.", "quantifier": "all states before the reload, all service files, host names and numbers, all later packets, clocks and calls", "why_tests_cant": "the new names come from all files, may be cut to fit, and whether one number's name is a beginning of another's depends on every byte of them", "anchors": ["src/mdnsd.c: mdnsd_conflict, main", "src/conf.c: conf_init, load", "libmdnsd/mdnsd.c: mdnsd_in"]}
{"id": "C103", "title": "The daemon does not spin", "statement": "A program that calls mdnsd_step whenever the time it was given is over does not use up the processor: when nothing is received, of any three steps at the same time one gives a time to wait that is not zero, whatever was published, asked and received before.", "quantifier": "all states reachable by any calls and packets, all records, queries and clocks", "why_tests_cant": "the time comes from whichever of six queues and timers is not empty, and a step that forgets to move on one of them shows only in the states in which that one is first", "anchors": ["libmdnsd/mdnsd.c: mdnsd_step, mdnsd_sleep, mdnsd_out", "src/mdnsd.c: main"]}
{"id": "C104", "title": "No interface is lost, visited twice or used after it was freed", "statement": "However interfaces come, fail and come back, the daemon's list of them stays whole: going through it meets every interface in memory exactly once, also when the current one is taken out on the way, the interface found by name is the first one of that name, and at the end every interface has been freed.", "quantifier": "all lists of addresses, all failures of sockets, all sequences of rounds, with and without -i", "why_tests_cant": "the list is made of pointers and its iterator keeps one in a static variable; whether that one still points to a live entry depends on what was freed since, and a stale one usually still holds the old bytes", "anchors": ["src/addr.c: iface_iterator, iface_find, iface_free, iface_init, iface_exit", "src/queue.h: TAILQ_INSERT_TAIL, TAILQ_REMOVE, TAILQ_FOREACH_SAFE", "src/mdnsd.c: main, sys_init"]}
{"id": "C105", "title": "A callback may end queries", "statement": "A callback for answers may end any queries with mdnsd_query and NULL, its own one and those of other names included, while a packet is received or made: nothing freed is used, what it asks for is done before another callback is called, no callback is told of anything after its query has ended, and what is cached and published after receiving it is the same as if the callback had done nothing.", "quantifier": "all states reached by calls of the API, all packets, all programs (what a callback does may depend on everything told so far)", "why_tests_cant": "the entries and queries a callback removes are those the caller is just going through; whether it holds depends on the combination of cached records, queries and the place of the callback in the loop, and stale memory mostly still has the old content", "anchors": ["libmdnsd/mdnsd.c: mdnsd_query, mdnsd_in, mdnsd_out, _q_answer, _q_done, _q_reset, _c_expire, _cache, _gc", "libmdnsd/mdnsd.h: mdnsd_query"]}
{"id": "C106", "title": "A conflict callback may publish the record under another name", "statement": "A program that is told of a conflict may publish, set and withdraw records and start and end queries right there, while the packet is received: nothing freed is used, the record the conflict is about is given up whatever the callback does, every other record it does not withdraw stays as it was, and the record it publishes under another name is there afterwards and is being probed.", "quantifier": "all states reached by calls of the API with such callbacks, all packets, all conflict callbacks (what they do may depend on the whole state)", "why_tests_cant": "the callback changes the chain of records that the library is just going through, and the record it is about to withdraw; whether that goes wrong depends on which records share the name and how far each is with its probing", "anchors": ["libmdnsd/mdnsd.c: mdnsd_in, _conflict, _r_next, mdnsd_unique, mdnsd_shared, mdnsd_done, mdnsd_set_raw", "libmdnsd/mdnsd.h: mdnsd_unique"]}
{"id": "C107", "title": "Names and paths are put together inside of their buffers", "statement": "The copying function the project brings along (for systems without strlcpy) never reads behind the end of the string, never writes outside of the size it is given, always ends the copy with a zero byte if the size is not zero, and returns the length of the string. The host name with its number is put together inside of its buffer for every host name and every number, cut so that the number is kept; the pattern for the service files of a directory fits its buffer for every path.", "quantifier": "all strings, sizes, contents of the memory around; all host names and interface numbers; all paths; all contents of the buffers before", "why_tests_cant": "lengths at and around each boundary, and the bytes around the buffer, would have to be tried all", "anchors": ["lib/strlcpy.c: strlcpy", "src/conf.c: conf_init"]}
{"id": "C108", "title": "Callbacks may call the library", "statement": "Callbacks for answers, for conflicts and for received records of one program may all call functions of the library, while packets are received and made: publish, set and withdraw records, set addresses, start and end queries. Nothing freed is used, every call returns, each record stays in the one queue where it belongs, a callback is told only of records of the name and type it is registered for at that moment, what is cached is what would be cached without callbacks, and a record that a callback publishes is there afterwards and is being probed.", "quantifier": "all states reached by calls of the API with such callbacks, all packets, all programs (what callbacks do may depend on the whole state)", "why_tests_cant": "callbacks change the tables, chains and queues that the library is just going through; whether that goes wrong depends on the combination of cached records, queries, records and the place in the loop where the callback is called", "anchors": ["libmdnsd/mdnsd.c: mdnsd_in, mdnsd_out, _q_answer, _conflict, _c_expire, _cache, _gc, mdnsd_query, mdnsd_unique, mdnsd_shared, mdnsd_done", "libmdnsd/mdnsd.h: mdnsd_query, mdnsd_unique"]}
{"id": "C109", "title": "Strings of service files when memory runs out", "statement": "Reading and publishing a service file gives back every string it stored, each once, and frees nothing else, for every file and however often memory is refused. With enough memory exactly the settings of the file are published, with the defaults for those it does not have. If memory is refused, no setting is published that is not in the file or a default, and the daemon goes on.", "quantifier": "all contents of files, all host names, all sets of allocations that fail, all states of the heap", "why_tests_cant": "failures would have to be injected at each allocation of each file, together with a leak checker", "anchors": ["src/conf.c: read_line, parse, load"]}
{"id": "C110", "title": "The string table when memory runs out", "statement": "Whatever allocations fail, each call that stores into the string table is carried out or not at all: afterwards every key has the value of the last call for it that was carried out, calls that got memory are among these, and no other key is affected. A table that could not be made is an empty one. Nothing is freed twice, no memory of the caller is freed, no entry refers to freed memory, and in the end every copy that was made is freed.", "quantifier": "all sequences of calls, all keys and values, all table sizes, all sets of allocations that fail", "why_tests_cant": "each allocation of each history would have to fail in turn, with a checker for memory", "anchors": ["libmdnsd/xht.c: xht_new, xht_set, xht_store, xht_get, xht_walk, xht_free"]}
{"id": "C111", "title": "The library gives back all its memory and frees nothing twice", "statement": "Whatever records are published, set, withdrawn, cached, dropped, asked for and answered, in any order, and whatever allocations fail: nothing is freed that is not in use, no two things held are in the same memory, every name and every piece of data held can be read, each call changes only the texts it is to change, and mdnsd_free gives back everything the context holds and nothing else. A caller may pass strings that the library handed out.", "quantifier": "all sequences of calls and of records arriving, all texts, all sets of allocations that fail, all states of the memory before", "why_tests_cant": "Leaks and double frees come from a particular failing allocation after a particular history; tests do not fail allocations, and no test goes over all histories.", "anchors": ["libmdnsd/mdnsd.c:mdnsd_free", "libmdnsd/mdnsd.c:mdnsd_shared", "libmdnsd/mdnsd.c:mdnsd_set_host", "libmdnsd/mdnsd.c:mdnsd_set_raw", "libmdnsd/mdnsd.c:mdnsd_query", "libmdnsd/mdnsd.c:_cache", "libmdnsd/mdnsd.c:_free_record", "libmdnsd/mdnsd.c:_free_cached"]}
{"id": "C112", "title": "Questions from other ports when memory runs out", "statement": "If there is no memory to note an answer of its own for a question from a port other than 5353, receiving the message still does everything else as with enough memory: the same records are sent to everyone, the same conflicts are reported, answers noted before are kept, and not more answers are missing than requests for memory were refused. Whatever was refused before, in any call, the library stays usable.", "quantifier": "all messages, senders, states and sets of refused allocations, all sequences of calls", "why_tests_cant": "Which question finds no memory depends on everything allocated before; tests do not make allocations fail.", "anchors": ["libmdnsd/mdnsd.c:_u_push", "libmdnsd/mdnsd.c:mdnsd_in"]}
{"id": "C113", "title": "mquery when memory runs out", "statement": "When mquery finds no memory for a new line of its list, the list stays right: the same hosts with the same addresses, the same further questions, and everything said about a service; only services of which nothing but the name is known can be absent. mquery does not crash.", "quantifier": "all sequences of answers and all sets of refused allocations", "why_tests_cant": "Which answer finds no memory depends on everything before it; tests do not make allocations fail.", "anchors": ["src/mquery.c:ans_dev", "src/mquery.c:find_or_create_instance", "src/mquery.c:find_or_create_device"]}
{"id": "C114", "title": "TXT records when memory runs out", "statement": "When memory runs out while the TXT record of a service is made or a received one is decoded, nothing is read outside of the data, and every key that is published or found has the value of the last of its lines (or strings) for which there was memory; lines with memory are never left out.", "quantifier": "all files, all TXT data and all sets of refused allocations", "why_tests_cant": "Which line gets no memory depends on collisions in a hash table and everything allocated before; tests do not make allocations fail.", "anchors": ["libmdnsd/sdtxt.c:sd2txt", "libmdnsd/sdtxt.c:txt2sd", "src/conf.c:load", "libmdnsd/mdnsd.c:mdnsd_set_raw"]}
{"id": "C115", "title": "Publishing a service when records get no memory", "statement": "When memory runs out while the records of a service file are made, each part of the service for which there was memory is published as the file says, what there was before stays, and the daemon goes on.", "quantifier": "all service files, host names, addresses, states of the daemon and sets of records that get no memory", "why_tests_cant": "Whether a record is new depends on everything loaded before, and tests do not make allocations fail.", "anchors": ["src/conf.c:record", "src/conf.c:load", "libmdnsd/mdnsd.c:mdnsd_set_srv", "libmdnsd/mdnsd.c:mdnsd_set_raw"]}
{"id": "C116", "title": "Changing addresses when memory runs out", "statement": "When memory runs out while the addresses of a host or of the interface are updated, addresses that are no longer there are withdrawn, addresses that stay are untouched, and every new address for which there was memory is published; nothing else changes.", "quantifier": "all hosts, address lists, states of the daemon and sets of refused allocations", "why_tests_cant": "Which allocations are needed depends on all records published before; tests do not make allocations fail.", "anchors": ["libmdnsd/mdnsd.c:_update_addresses_for_host", "libmdnsd/mdnsd.c:mdnsd_set_interface_addresses", "libmdnsd/mdnsd.c:mdnsd_set_addresses_for_host", "libmdnsd/mdnsd.c:mdnsd_set_ipv6_addresses_for_host"]}
{"id": "C117", "title": "An interface that cannot be set up does not harm the others", "statement": "When an interface turns up for which there is no memory or no socket, the daemon goes on serving the interfaces it has, or, if it ends, withdraws what it has published there. A scan needs memory only for interfaces found for the first time, once for each; with all others it notices every change, however little memory there is.", "quantifier": "all lists of interfaces, all tables of known interfaces, all patterns of failing allocations", "why_tests_cant": "Allocations that fail cannot be provoked at chosen moments in a test; the claim concerns every combination of new and known interfaces.", "anchors": ["src/addr.c: iface_init", "src/mdnsd.c: setup_iface", "src/mdnsd.c: sys_init"]}
{"id": "C118", "title": "The log level means the same for syslog and for the terminal", "statement": "Whatever the order in which the log level is set, changed and syslog is opened, a message is recorded exactly if its severity is at most the last level given (and none with the level none): in syslog once that is opened, otherwise warnings and errors on standard error and the rest on standard output. No level does harm.", "quantifier": "all histories of calls, all strings given as a level, all severities", "why_tests_cant": "The level, the mask kept by the C library and the choice of syslog are three variables that must agree after every order of calls.", "anchors": ["libmdnsd/log.c: mdnsd_log_level", "libmdnsd/log.c: mdnsd_log_open", "libmdnsd/log.c: mdnsd_log"]}
{"id": "C119", "title": "The nodes of the string table are never lost or used after being freed", "statement": "Whatever is stored in the string table and whatever allocations fail, no function uses a node that is not allocated, every loop over a bucket ends, xht_get and xht_walk give what was stored, and xht_free frees every node ever allocated exactly once and uses none of them afterwards.", "quantifier": "all sequences of calls, all keys and values, all table sizes, all sets of allocations that fail", "why_tests_cant": "Nodes are linked by pointers; a wrong order of reading and freeing is harmless in most runs.", "anchors": ["libmdnsd/xht.c: _xht_node_find, _xht_set, xht_get, xht_walk, xht_free"]}
{"id": "C120", "title": "The daemon waits for all of its sockets", "statement": "Whatever descriptors the sockets of the interfaces and of netlink have got, the daemon wakes up exactly when there is something to read on one of those in use, and then knows of each whether that is so. Interfaces that are gone do not wake it.", "quantifier": "all tables of interfaces, all numbers of descriptors, all sets of descriptors that can be read", "why_tests_cant": "Which numbers the sockets get depends on the history of interfaces and on how the daemon was started.", "anchors": ["src/mdnsd.c: main"]}
{"id": "C121", "title": "The messages of the daemon are those its command line asks for", "statement": "However the options are written, a message of the daemon can be read exactly if its severity is within the last level given (notice if none is): in syslog if the daemon is in the background or -s is given, otherwise on the terminal, warnings and errors on standard error. A daemon in the background never writes messages where nobody can read them.", "quantifier": "all command lines, all levels and severities", "why_tests_cant": "Options can be combined, repeated and joined in any way; the level, the choice of syslog and the descriptors closed in the background are set at different places.", "anchors": ["src/mdnsd.c: main", "libmdnsd/log.c: mdnsd_log_level", "libmdnsd/log.c: mdnsd_log_open", "libmdnsd/log.c: mdnsd_log"]}
{"id": "C122", "title": "Answers go back to the address a question came from", "statement": "Each packet read from a socket is handled with the address and port of its own sender, whatever was in memory before, and a unicast answer is sent to exactly the socket address the system gave, including the scope of IPv6; all other packets go to port 5353 of 224.0.0.251 or ff02::fb. Setting a port changes nothing else of an address.", "quantifier": "all sequences of senders of the family of the socket, all addresses, ports, flows and scopes, all previous contents of memory", "why_tests_cant": "The fields overlap in memory in a way that depends on the family; a wrong length or offset shows with some addresses only.", "anchors": ["libmdnsd/inet.c: inet_family, inet_len, inet_port, inet_set_port, inet_anyaddr", "libmdnsd/mdnsd.c: mdns_mcast, process_in, process_out", "src/mquery.c: main"]}
{"id": "C123", "title": "The time of day is written where it fits", "statement": "mdnsd_log_time puts the local time of day of any time, as HH:MM:SS, into the buffer of the caller if that has room for it and its zero byte, and otherwise leaves the buffer alone and logs the time; below the level debug nothing is logged.", "quantifier": "all times, time zones, sizes of buffers and log levels", "why_tests_cant": "The room needed must be right for every size of buffer, and the time for every zone.", "anchors": ["libmdnsd/log.c: mdnsd_log_time"]}
