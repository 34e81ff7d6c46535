#!/usr/bin/env python3
"""Writes properties.jsonl (one JSON object per line). Kept so that the list can be edited as text."""
import json, os
P = []
def p(id, title, statement, quantifier, why, anchors):
    P.append(dict(id=id, title=title, statement=statement, quantifier=quantifier, why_tests_cant=why, anchors=anchors))
D="libmdnsd/mdnsd.c"; R="libmdnsd/1035.c"; X="libmdnsd/xht.c"; T="libmdnsd/sdtxt.c"
p("C01","Wire integers round-trip","Writing a 16-bit value with short2net (a 32-bit value with long2net) and reading it back with net2short (net2long) returns the same value, in big-endian order, and both sides move the cursor by exactly 2 (4) bytes.","all 16-bit and all 32-bit values, any surrounding bytes","2^32 values and any buffer contents; a test samples a handful",[f"{R}: short2net, net2short, long2net, net2long"])
p("C02","Compressed names decode to the name that was given","In every packet assembled with message_qd/message_an/message_ns/message_ar and message_rdata_name/message_rdata_srv, each name field, decompressed by the rules of RFC 1035 4.1.4, is exactly the host name passed to the call, whatever names were appended before it.","all sequences of append calls with well-formed names","compression depends on the whole history of names already in the packet; the number of histories is unbounded",[f"{R}: _host, _lmatch, message_qd, message_an, message_rdata_name, message_rdata_srv"])
p("C03","Build then parse is the identity","Parsing the bytes produced by message_packet with message_parse succeeds and returns the same id, flags, questions and resource records (names, types, classes, TTLs, addresses, SRV fields, raw rdata), in the same order and sections.","all messages made of questions and answer/authority/additional records within the documented size limits, and any bytes following the packet in the receive buffer","unbounded combinations of names, sections, compression targets and trailing buffer content",[f"{R}: message_parse, _label, _rrparse, message_packet"])
p("C04","Parsing always terminates","message_parse returns after a bounded number of steps on every packet, however its compression pointers are arranged (cycles, forward chains, self references).","all byte contents of the receive buffer","a non-terminating pointer arrangement can only be excluded by reasoning over all of them",[f"{R}: message_parse, _label"])
p("C05","Parsing never writes outside the message structure","Whatever the packet contains, message_parse writes only inside the struct message it was given.","all byte contents of the receive buffer","the write offsets are driven by attacker-chosen counts, lengths and pointers; tests cover isolated packets",[f"{R}: _label, _rrparse, message_parse"])
p("C06","Parsing never reads outside the receive buffer","Whatever the datagram contains, message_parse reads only bytes of the receive buffer (65536 bytes in mdnsd, zero-filled behind the datagram).","all datagrams and all lengths","the read cursor is moved by attacker-chosen names and rdlength fields",[f"{R}: _label, _rrparse, message_parse",f"{D}: process_in"])
p("C07","Header fields round-trip","The id and all header bits (qr, opcode, aa, tc, rd, ra, z, rcode) set before message_packet are what message_parse reports, and the four section counts in the header equal the number of records appended.","all header values and all append sequences of at most 65535 records per section","2^32 header values times unbounded append sequences",[f"{R}: message_packet, message_parse"])
p("C08","A datagram is interpreted from its own bytes only","The message decoded from a received datagram does not depend on bytes left in the receive buffer behind it, e.g. by the previous, longer datagram.","all datagrams and all earlier buffer contents","needs all pairs of consecutive datagrams",[f"{D}: process_in",f"{R}: message_parse"])
p("C09","Parsed names are bounded","Every name handed out by message_parse is a NUL-terminated string of at most 256 characters, so copying it to a 257 byte buffer never overflows.","all byte contents of the receive buffer","attacker-chosen label and pointer structure",[f"{R}: _label"])
p("C10","Encoded size is predictable","Every append call adds a bounded number of bytes to the packet (at most 256 for a name, plus the fixed fields, plus the rdata), message_packet_len always equals the number of bytes appended plus the header, and no append modifies bytes appended earlier.","all sequences of append calls with arbitrary (also malformed) names","unbounded histories; also malformed names",[f"{R}: _host, message_qd, _rrappend, message_rdata_*, message_packet_len"])
p("C11","TXT key/value tables round-trip","Encoding a key/value table with sd2txt and decoding the result with txt2sd gives a table with exactly the same key/value pairs (an empty value stays a key-only attribute).","all tables of non-empty keys without '=' and values","unbounded tables, hash collisions and lengths",[f"{T}: sd2txt, txt2sd, _sd2txt_len, _sd2txt_write"])
p("C12","Decoding TXT data stays inside it","txt2sd never reads beyond the len bytes it is given, never overruns its 256 byte scratch key, and always terminates, for any rdata.","all byte strings and lengths","attacker-chosen rdata",[f"{T}: txt2sd"])
p("C13","sd2txt fills exactly the buffer it allocates","sd2txt reports in *len exactly the number of bytes it writes, at least 1, for every table.","all tables","two separate passes over an arbitrary hash table must agree",[f"{T}: sd2txt, _sd2txt_count, _sd2txt_write"])
p("C14","The string table is a map","After any sequence of xht_set/xht_store calls, xht_get(k) returns the value of the last call made for k (NULL if there was none or if it cleared k), independent of other keys, of the table size and of hash collisions.","all operation sequences, keys, values and table sizes","unbounded histories and collisions; slots are recycled",[f"{X}: _xht_set, xht_set, xht_store, xht_get, _xht_node_find"])
p("C15","The string table frees what it copied, once","Every key/value copy made by xht_store is freed exactly once, when it is replaced or when the table is freed, and memory passed to xht_set is never freed by the table.","all operation sequences followed by xht_free","leak and double free depend on the whole history of a slot",[f"{X}: _xht_set, xht_store, xht_free"])
p("C16","Walking the table visits every entry once","xht_walk calls the walker exactly once for each key that currently has a value, and for no other key.","all operation sequences","unbounded histories and collisions",[f"{X}: xht_walk"])
p("C17","Hash indexes stay in the table","For every string the bucket index computed for the string table, the cache, the published records and the queries is within the table, also when the 64-bit intermediate hash overflows 32 bits.","all strings","the overflow needs particular long strings; all lengths matter",[f"{X}: _xhter",f"{D}: _namehash"])
p("C18","The cache holds each record once","At any time mdnsd_list enumerates no two entries with the same name, type and record data.","all histories of received packets, queries, timeouts and callbacks","unbounded histories",[f"{D}: _cache, _c_next, _a_match, mdnsd_list"])
p("C19","Seeing a known record again only refreshes it","When an answer already in the cache is received again without the cache-flush bit, the cache contents stay the same except for the expiry time of that entry, and no callback is made.","all cache states and answers","unbounded states",[f"{D}: _cache"])
p("C20","A goodbye removes the record","An answer with TTL 0 (without the cache-flush bit) removes every cached entry with the same name, type and data and leaves the other, unexpired entries alone; a query interested in it is told with ttl 0.","all cache states and answers","unbounded states",[f"{D}: _cache, _c_expire, _q_answer"])
p("C21","Cache flush replaces the old record set","An answer with the cache-flush bit removes every previously cached entry of that name and type; after a packet carrying several such answers of one name and type, all of them are in the cache.","all cache states and packets","unbounded states; the multi-record case is not covered by tests",[f"{D}: _cache"])
p("C22","mdnsd_list is exact","Iterating mdnsd_list(host,type) from NULL returns exactly the cached entries with that name and type (any type for 255), each once, and no others.","all daemon states","hash collisions and unbounded states",[f"{D}: mdnsd_list, _c_next"])
p("C23","Cached records expire","The expiry sweep removes exactly the entries whose expiry time has passed, reports each one to its query exactly once with ttl 0, and keeps the rest in order; a cached entry is given now + ttl/2 + 8 seconds.","all cache states, times and callback behaviours","unbounded states and re-entrant callbacks",[f"{D}: _c_expire, _gc, _q_answer"])
p("C24","Answers reach the query that asked","The answer callback of a query is only called with records whose name and type are those of the query, and each answer newly entered in the cache is reported to the registered query of its name and type exactly once.","all histories","unbounded histories and hash collisions",[f"{D}: _cache, _q_next, _q_answer, mdnsd_query"])
p("C25","Unregistering a query is final","After mdnsd_query(host,type,NULL), or after the callback returned -1, the callback of that query is never called again, and no cache entry refers to it.","all histories","unbounded histories",[f"{D}: mdnsd_query, _q_done"])
p("C26","An unanswered question is asked three times","A registered query that gets no answer is put in outgoing packets exactly three times, with 1 and 2 seconds between, and is then left alone until something changes.","all schedules of mdnsd_out calls and clock values","unbounded schedules",[f"{D}: mdnsd_out, _q_reset, mdnsd_query"])
p("C27","Known answers accompany questions","Each question that is sent is accompanied by cached answers of the same name and type with more than 8 seconds left, with their remaining lifetime as TTL, and by no other answers.","all daemon states","unbounded cache states",[f"{D}: mdnsd_out"])
p("C28","A callback may unregister its own query","Returning -1 from the answer callback at any time is safe: no freed query is used afterwards.","all histories and callback behaviours","needs the interleaving of expiry, retry and callback result",[f"{D}: mdnsd_out, _c_expire, _q_answer, _q_done"])
p("C29","Unique records are probed three times first","A record created with mdnsd_unique appears in exactly three probe packets, at least 250 ms apart, before it is first announced.","all schedules of mdnsd_out calls, any number of records","unbounded schedules",[f"{D}: mdnsd_unique, mdnsd_out, _r_publish"])
p("C30","No answers from unverified records","While a unique record is being probed it is not sent as an answer.","all histories","needs all query/probe interleavings, also unicast ones",[f"{D}: mdnsd_in, mdnsd_out, _r_send, _u_push"])
p("C31","Announcements are repeated four times","A record that is set and not withdrawn is announced exactly four times, at least 2 seconds apart, and then only on demand.","all schedules of mdnsd_out calls","unbounded schedules",[f"{D}: mdnsd_out, _r_publish"])
p("C32","Known-answer suppression","A record is not queued as a multicast response to a question if the same packet lists it as a known answer, and is queued if it does not (once fully published).","all queries and daemon states","unbounded packets and record sets",[f"{D}: mdnsd_in, _a_match, _r_send"])
p("C33","Queued responses are sent","Every record queued as a response is put in an outgoing packet by the following mdnsd_out calls.","all daemon states","unbounded states; interaction of service enumeration with ordinary queries",[f"{D}: _r_out, mdnsd_in, mdnsd_step"])
p("C34","Withdrawing a record sends one goodbye","After mdnsd_done on a published record, exactly one packet entry with TTL 0 is sent for it and the record is gone; a record still being probed disappears silently.","all histories","unbounded histories",[f"{D}: mdnsd_done, _r_send, _r_out, _r_done"])
p("C35","Shutdown says goodbye for everything","After mdnsd_shutdown, repeated mdnsd_out calls send each published record with TTL 0, at least once, and never touch freed memory.","all daemon states at shutdown","needs all queue states at the moment of shutdown",[f"{D}: mdnsd_shutdown, mdnsd_out, _r_out"])
p("C36","Conflicts are reported","If another host claims a name being probed with different data, the conflict callback of that record is called (once) and the record is withdrawn.","all packets and daemon states","unbounded packets and states",[f"{D}: mdnsd_in, _conflict"])
p("C37","Own packets are ignored","A packet whose source address is one of this host's addresses changes nothing in the daemon's records, cache, queries and queues.","all packets and daemon states","unbounded packets and states",[f"{D}: mdnsd_in, _is_local"])
p("C38","Address sets are reconciled exactly","After mdnsd_set_addresses_for_host (or the IPv6 variant), the addresses of the host's records that are not being withdrawn are exactly the given ones, and records of other names and types are untouched; calling it twice adds nothing.","all daemon states and address lists","unbounded address lists and states",[f"{D}: _update_addresses_for_host"])
p("C39","Additional records","A response packet repeats no record: each record appears at most once in the answer and additional sections together; additional records are only SRV/TXT records of an answered PTR's target (and the addresses of the host such an SRV names) or addresses of an answered SRV's target host.","all daemon states","unbounded record graphs",[f"{D}: _additional, _ar, _ar_addr, _answered"])
p("C40","Packets respect the frame size","A response packet is never larger than the frame size given to mdnsd_new, and no packet overruns the 65535 byte message buffer.","all daemon states","unbounded record sets",[f"{D}: _r_out, _ar, _rr_len, mdnsd_out"])
p("C41","The sleep time is well-formed and not too long","mdnsd_sleep returns a time with 0 <= usec < 1000000 that is no longer than the time until the next due piece of work.","all daemon states and clocks","exact boundary values of the clock",[f"{D}: mdnsd_sleep, _tvdiff"])
p("C42","Published records are refreshed before they expire","A published record is announced again before its TTL runs out at the receivers.","all daemon states with any number of records","needs hash collisions between record names",[f"{D}: mdnsd_sleep"])
p("C43","No memory errors in any history","No sequence of API calls (publish, update, withdraw, clear, query, receive, send, sleep) makes the library use a freed or NULL record or corrupt its queues.","all sequences of API calls, packets and clock values","unbounded histories; use-after-free bugs #84, #92 came from such histories",[f"{D}: _r_push, _r_remove_lists, _r_done, _u_remove, mdnsd_done, mdnsd_out, mdnsd_in"])
p("C44","Lookups are exact","mdnsd_find(name,type) returns a record iff one with that name and type is published; mdnsd_get_published and mdnsd_has_query do not report other names.","all daemon states","hash collisions",[f"{D}: mdnsd_find, mdnsd_get_published, mdnsd_has_query"])
p("C45","Clearing removes all records","After records_clear no record is published, queued or referenced by a pending unicast answer, and cache and queries are untouched.","all daemon states","unbounded histories",[f"{D}: records_clear"])
p("C46","Responses go to the right place","Packets go to the mDNS group of the daemon's address family, except answers to a query from a source port other than 5353, which go to that source with the query's id.","all daemon states and queries","unbounded states",[f"{D}: mdnsd_out, mdns_mcast, _u_push","libmdnsd/inet.c: inet_port"])
p("C47","Configured names are rooted","Host names from the configuration are published with exactly one trailing dot and within the 255 byte buffer.","all configured names","all lengths around the buffer size",["src/conf.c: fqdn"])
p("C48","Conflicting host names become distinct","After each conflict the host name gets the suffix -N; different N never give the same host name, and the result always fits the buffer.","all host names and all N","all lengths around the buffer size and all N",["src/conf.c: conf_init","src/mdnsd.c: mdnsd_conflict"])
p("C49","Interface address choice","The address chosen for an interface is of the best class present (IPv6: global > unique local > site local > link local; IPv4: other > link local), whatever the order in which the system lists the addresses.","all address lists in all orders","permutations of unbounded lists",["src/addr.c: iface_init","src/mdnsd.h: is_linklocal, is_zeronet"])
p("C50","Interface rescans flag real changes only","A rescan that finds the same addresses reports no change, and one that finds a different chosen address on a used interface flags it as changed.","all interface tables and rescans","unbounded tables and histories",["src/addr.c: mark, sweep, iface_init"])
p("C51","Service files are parsed line by line","Each line sets exactly the field named by its keyword, comments and unknown keywords change nothing, the last value wins, and at most 42 TXT entries are kept.","all files","unbounded inputs",["src/conf.c: read_line, parse, chomp"])
p("C52","Log level names","mdnsd_log_level maps each known name, in any letter case, to its level, changes the level only to non-negative values, and returns -1 only for input that parses to -1.","all strings","unbounded inputs",["libmdnsd/log.c: mdnsd_log_level"])
p("C53","Netlink events trigger a rescan","netlink_read reports a change iff one of the drained messages is a link or address event or the kernel dropped events, whatever the split into datagrams and interruptions.","all sequences of recv results","unbounded event sequences",["src/netlink.c: netlink_read"])
p("C54","Device lists have no duplicates","mquery's device table has one entry per host name and at most 8 distinct addresses per device, for any sequence of answers.","all answer sequences","unbounded histories",["src/mquery.c: find_or_create_device, find_or_create_instance, device_add_addr"])
p("C55","A published service is discovered","If one daemon announces a record and the packet reaches another daemon with a matching query, that daemon's callback gets exactly the published data.","all records and daemon states within the size limits","end-to-end composition of encoder, decoder, cache and queries",[f"{D}: mdnsd_out, mdnsd_in, _a_copy",f"{R}: message_packet, message_parse"])
p("C56","Raw data is added whole or not at all","message_rdata_raw adds the data with its exact length if it ends within the first 4096 bytes of the message, and otherwise an empty data field; it never truncates or changes earlier bytes.","all messages and all data","exact boundary over all packet lengths",[f"{R}: message_rdata_raw"])
p("C57","Sending settles","Whatever calls were made before (other than mdnsd_shutdown), if every record fits in an empty packet, no service enumeration question is waiting, and packets are then made every two seconds, after finitely many packets nothing waits to be sent any more: every probe, announcement, response, unicast answer and goodbye is out. The number of packets needed is bounded by nine per record plus one per unicast answer.","all histories of API calls and packets, any number of records","liveness over unbounded histories and record sets",[f"{D}: mdnsd_out, _r_out, _r_publish, _r_send, _u_push"])
p("C58","Answers are supplemented completely","Every SRV/TXT record of an answered PTR's target and every address of a host named by an answered (or accompanying) SRV is in the packet too, as an answer or additional record, unless it does not fit in the frame size.","all daemon states, all answers","unbounded record graphs; interaction of the fit check with the order of records",[f"{D}: _additional, _ar, _ar_addr, _answered, mdnsd_out"])
p("C59","Packets show the records as they are","Every record in a response, announcement, goodbye or probe is sent with the name, type, lifetime and data it has at the time of mdnsd_out; the cache-flush bit is set exactly for unique records in answers to everyone and additional records.","all daemon states, all packets","unbounded states and packets",[f"{D}: mdnsd_out, _r_out, _ar, _a_copy"])
p("C60","TXT data is decoded by its strings","For any bytes, txt2sd gives a table in which each key has the value of the last string with that key: k=v gives v, k alone gives the empty value; strings after an empty or cut-off one are ignored.","all byte strings and all non-empty keys","Depends on every combination of lengths, separators, NUL bytes and duplicate keys.",["libmdnsd/sdtxt.c:txt2sd","libmdnsd/xht.c:xht_get","libmdnsd/xht.c:xht_store"])
p("C61","A step ends","mdnsd_step takes in the waiting datagrams, sends until there is nothing more to send and returns; whatever arrived and whatever is pending, it neither crashes nor sends forever, it sends each packet mdnsd_out makes, no unicast answer is left when it succeeds, and the waiting time is given exactly when it succeeds.","all reachable states, all waiting datagrams, all clocks that do not go back, all failures of the socket","The sending loop has no bound of its own; whether it ends depends on the whole state.",[f"{D}: mdnsd_step, process_in, process_out"])
p("C62","Datagrams are taken one by one","The effect of the datagrams that wait for mdnsd_step is that of taking each alone, in order, for what its own bytes say; those that cannot be decoded have no effect; it does not matter how they are grouped into steps.","all sequences of datagrams, all states, all previous contents of the receive buffer","Depends on every combination of datagrams and on what earlier ones left in the buffer.",[f"{D}: process_in","libmdnsd/1035.c: message_parse"])
p("C63","A service file is published","When the daemon loads a service file it advertises the service: the type can be enumerated, browsing the type leads to the instance, the instance has an SRV record with the port and the host of the file and a TXT record whose decoding gives each key the value of the last line for it, the alias leads to the host, and the host has exactly the addresses of the interface. Services of other names that were advertised before stay so. Loading a directory ends normally and tells whether all files could be read.","all service files, all host names, all addresses of the interface, all states of the daemon, any number of files","Which records are made depends on every record that is already there and on collisions of a hash table.",["src/conf.c: record, load, load_all, conf_init",f"{D}: mdnsd_find, mdnsd_record_next, mdnsd_shared, mdnsd_unique, mdnsd_set_host, mdnsd_set_srv, mdnsd_set_raw, mdnsd_set_interface_addresses","libmdnsd/sdtxt.c: sd2txt"])
p("C64","Loading again changes nothing","Loading a service file that is loaded already, as the daemon does when an interface changes, makes no record, withdraws none and changes the data of none, except that the addresses of hosts become those of the interface.","all service files, all states in which the service is advertised, all addresses","The file is read against whatever records exist; address records are made and taken back on the way.",["src/conf.c: record, load",f"{D}: mdnsd_set_interface_addresses, mdnsd_set_srv, mdnsd_set_raw"])
p("C65","Freeing a context releases everything once","Whatever calls were made before, mdnsd_free releases every published record, whether queued or not, every query, cache entry and pending reply exactly once and leaves none.","all reachable states of the library","Leaks and double frees depend on the history of all tables and queues.",[f"{D}: mdnsd_free, _free_cached, _free_record"])
p("C66","The daemon waits no longer than its contexts ask","Between looking after its contexts the daemon waits no longer than each of them asked for and no longer than the interval for looking up the interfaces; these are looked up at least that often; and it does not wait shorter for no reason.","all runs of the main loop: any number of interfaces, any waiting times, signals, clocks","Depends on every combination of waiting times of any number of contexts and on what select left in its argument in earlier rounds.",["src/mdnsd.c: main, sys_timeout"])
p("C67","Asking finds what is published","If a daemon asks for a name and type and the packet reaches another daemon that has published a matching record the first one does not know, the second daemon answers within the packets it makes next, and when that answer reaches the first daemon the callback of its query is told the record.","all records, questions, known answers and states of both daemons within the size limits","Composition of question scheduling, known answers, encoder, decoder, response queues, cache and callbacks of two daemons.",[f"{D}: mdnsd_query, mdnsd_out, mdnsd_in, _r_send, _r_out, _a_copy, _cache",f"{R}: message_packet, message_parse"])
p("C68","A step sends everything that is due","A call of mdnsd_step that receives a question for a published record, and whose packets the socket takes, answers it to everyone within this same call; whatever waits as an answer is sent by the next such call. Hence asking with one step, answering with one step and hearing with one step tells the callback.","all daemon states, records, questions, amounts of other waiting work, clock readings and socket results of the step","The number of packets a step makes is not bounded and depends on everything that waits; the record may be behind any amount of other work.",[f"{D}: mdnsd_step, process_in, process_out, mdnsd_out, _r_send, _r_out"])
p("C69","Answers of shared records are held back","When a shared record is asked for, no packet for everyone carries it as an answer before a pause of 20 to 120 milliseconds is over, so that answers of several hosts do not collide.","all daemon states, shared records, questions, and all sequences of packets made before the pause is over","Concerns every packet made in a stretch of time, next to any other records, announcements, probes and questions.",[f"{D}: _r_send, mdnsd_out"])
p("C70","The daemon neither loses nor misuses sockets and contexts","However interfaces come, go, change and fail, the daemon uses only sockets it has open and contexts it has not freed; the open sockets are exactly those of its interfaces and the netlink socket, so that nothing leaks however long it runs; every interface it knows has a socket and a context; no socket is too large for select; and when it ends everything has been closed and freed.","all runs: any lists of interfaces at every scan, any failures of sockets, memory and steps, any reloads, any numbering of descriptors, any number of rounds","A leak or a use after close needs a particular order of failures, address changes and reloads over a long run, on a system that lets calls fail.",["src/mdnsd.c: main, setup_iface, free_iface, sys_init","src/addr.c: iface_init, iface_iterator, iface_free","src/mcsock.c: mdns_socket, mdns_socket6","src/netlink.c: netlink_init, netlink_exit"])
p("C71","A failing interface is given up alone and comes back","If the socket of an interface fails, everything of this interface is released and the others keep what they have; a failing IPv6 socket costs the interface only IPv6; and the next scan that finds an address of the interface gives it again a socket, a context and its configuration, for IPv6 too.","all states the daemon can get into, all sets of failing interfaces, all later scans","Concerns every combination of failing and working interfaces after any history.",["src/mdnsd.c: main, setup_iface, free_iface, sys_init","src/addr.c: iface_init, iface_iterator"])
p("C72","Goodbyes leave before the socket is closed","When the daemon gives up an interface or ends, every record published there is withdrawn: exactly one of the packets handed to the socket before it is closed carries it as an answer for everyone, to the multicast group, with its name, type and data and lifetime 0, nothing sent then carries it with another lifetime, and afterwards everything is freed.","all states of the daemon, any number and size of records, anything that waits to be sent","How many packets the goodbyes need and what else is put in them depends on the whole state; they have to be out within a single step.",["src/mdnsd.c: free_iface",f"{D}: mdnsd_shutdown, mdnsd_step, process_out, mdnsd_out, mdnsd_free"])
p("C73","The device listing shows every device","The device table of mquery -D has a title and, for every device found, its name, every address and the product in columns shared by all lines; the details of mquery -d list for every device asked for its name, all addresses and all services on it with type and port. Nothing else is printed as a device.","all sequences of answers received, any number of devices, addresses and services, any names and texts","The columns depend on all devices at once, and names, addresses and texts come from the network.",["src/mquery.c: print_devices, print_device_detail, shortname"])
p("C74","Asking for a host shows exactly this host","mquery -d HOST prints exactly the devices named HOST: the full name with or without final dot, or its first label, without regard to letter case.","all host names given and all sequences of answers received","Names given by the user meet arbitrary names from the network.",["src/mquery.c: matches_detail, shortname, print_device_detail"])
p("C75","mquery ends when it is told to","With -w SEC mquery ends when SEC seconds have passed, and with -T when nothing was received for two seconds; neither earlier nor more than a second, and the time a round of work needs, later. Whatever is received it neither hangs nor misuses memory, and when it ends everything is freed.","all sequences of rounds: any datagrams and arrival times, any schedules and delays, any options and queries","When the program wakes up depends on the time the library asks it to sleep after an arbitrary history.",["src/mquery.c: main",f"{D}: mdnsd_sleep, mdnsd_in, mdnsd_out, mdnsd_shutdown, mdnsd_free"])
p("C76","What is received makes the daemon send a bounded amount","However many packets are received, from whom and whatever is in them, the packets with records the daemon sends are at most one for every record a packet received asks for or names and one for every question about a record, beside what was already waiting and the renewal of records. A packet that concerns no record of the daemon makes it send no record.","all states, all packets received, all schedules and lengths of runs","Amplification is a matter of worst cases over all packets and histories; a test shows the reply to one packet.",[f"{D}: mdnsd_in",f"{D}: mdnsd_out",f"{D}: _r_send"])
p("C77","Reading the configuration again","When the daemon reads its service files again (SIGHUP, or after a name conflict), it then publishes exactly what the files ask for, whatever it published before: services of files that are there are advertised and their unique records probed anew, services whose files are gone are no longer answered for, and other hosts are told so.","all states, all sets of service files and addresses, everything received afterwards","What may be left over depends on all records, queues and replies waiting at the moment of the signal, and what is said afterwards on all packets received later.",["src/mdnsd.c: main","src/conf.c: conf_init","src/conf.c: load",f"{D}: records_clear"])
p("C78","Daemons do not keep each other talking","Responses received make a daemon send nothing beyond the goodbyes of records it gives up: what it sends is bounded by what was pending, by the records queries ask for and by its renewals. Any number of daemons on one network that only publish therefore fall silent: all they send together is bounded by their records and renewals, whatever they hear from each other.","any number of hosts, any states, all orders, losses and delays of packets, any responses from anyone, runs of any length","A packet storm is a matter of all interleavings of any number of hosts; a test runs one network for some time.",[f"{D}: mdnsd_in",f"{D}: mdnsd_out",f"{D}: _conflict",f"{D}: _r_done",f"{D}: mdnsd_step"])
p("C79","A departure is noticed","When a host withdraws a record, or leaves in an orderly way, every host that receives its packets forgets the record at once, and whoever watches the record there is told that it is gone.","all states and histories of both hosts, all records, all queues waiting to be sent, anything that follows the packet in the receive buffer","The goodbye has to survive queueing, packing with other records, name compression, parsing and the order of answers in the packet, in every state of both hosts.",[f"{D}: mdnsd_done",f"{D}: mdnsd_shutdown",f"{D}: _cache",f"{D}: _q_answer","src/mdnsd.c: free_iface"])
p("C80","Nothing is reported that was not received","Whatever an answer callback is told, and whatever mdnsd_list gives, came with a response that was received: name, type and data are those of an answer of that response, the responder shown is its sender, and the lifetime follows from that of the answer.","all histories of calls and packets, all callbacks","A record could be mixed up with another one, get the data of an earlier or later packet, or survive its removal only after some sequence of packets, refreshes and expiries.",[f"{D}: _cache",f"{D}: _q_answer",f"{D}: _c_expire",f"{D}: mdnsd_list"])
p("C81","mquery -D lists the devices of the network","What mquery -D lists was received: each device and each of its addresses, each service with host, port, product and version is from a record of a response; it asks only for names it was told; and the devices, addresses and services announced while it runs are listed.","all sequences of datagrams received, all options and times","The tables are filled by callbacks which register further queries while answers are being processed; what is listed depends on the order of records and packets.",["src/mquery.c: ans_dev, main",f"{D}: mdnsd_query",f"{D}: mdnsd_in"])
p("C82","What mquery prints was received","Each line of mquery NAME names what a received pointer of NAME (or of a name it points to) points to, and the host that sent it; each line of mquery -s NAME describes a received record of NAME with the seconds it is still valid; and services announced while it runs are printed when they come, not when they go.","all sequences of datagrams received, all names, types, options and times","What is printed depends on what was cached before and on the order in which records arrive.",["src/mquery.c: ans, type2str, main",f"{D}: mdnsd_query",f"{D}: mdnsd_in"])
p("C83","Known answers are asked for again before they expire","While a query is registered, the question is asked again before an answer that is known expires, so that a record that is still there does not get lost.","all sequences of API calls and received packets, all times at which packets are made","Whether the question is asked in time depends on when each answer arrived, on all lifetimes, and on when packets were made since.",[f"{D}: mdnsd_out",f"{D}: _q_reset",f"{D}: mdnsd_in"])
p("C84","A service that keeps answering stays known","While a query is registered and another host answers every question with a record in time, unless the packet may list the record as known (more than eight seconds left), the record, once received, is listed after every call from then on: it never expires, as long as packets are made regularly and no response withdraws or replaces it.","all sequences of API calls and received packets, all times, all lifetimes, all ways in which the answers come between other packets","That a record never drops out needs every question, its answer and every expiry time to fit together over an unbounded time.",[f"{D}: mdnsd_out",f"{D}: _q_reset",f"{D}: _cache",f"{D}: _c_expire",f"{D}: mdnsd_list"])
p("C85","A signal to read the configuration again is obeyed","Whenever SIGHUP arrives at the daemon, the interfaces are looked up and the configuration of each is read after it, and the daemon waits for packets at most once before.","all interleavings of signals with the steps of the main loop","Signals may arrive between any two steps; tests cannot choose where.",["src/mdnsd.c: main","src/mdnsd.c: reconf","src/mdnsd.c: mdnsd_conflict"])
p("C86","A signal to end is obeyed","Whenever SIGINT, SIGQUIT or SIGTERM arrives at the daemon, it frees its interfaces and ends, after waiting for packets at most once more; further signals do not keep it alive.","all interleavings of signals with the steps of the main loop","Signals may arrive between any two steps; tests cannot choose where.",["src/mdnsd.c: main","src/mdnsd.c: done"])
p("C87","What is published is known to whoever asks, and stays known","A daemon has published a record and another one registers a query for its name and type. If packets between them arrive in time, then a few seconds later, and at every moment from then on until the query ends or the record is withdrawn, the second daemon lists the record unexpired.","all histories of both daemons, all records and lifetimes, all other packets received in between, all times","Two programs have to work together over an unbounded time: questions, known-answer lists, replies, cache expiry and repeated questions must fit in every order.",[f"{D}: mdnsd_step",f"{D}: mdnsd_out",f"{D}: mdnsd_in",f"{D}: _q_reset",f"{D}: _cache",f"{D}: _c_expire",f"{D}: mdnsd_list"])
p("C88","What a program was told is what is in the cache","A program that registers a query and keeps a set of records from what its callback is told (a record with a lifetime is added, one with TTL 0 taken out) has, at every moment while the query lasts, exactly the records mdnsd_list gives for that name and type.","all histories of calls, all packets, all callbacks, all names and types","The callback is only told differences; that they always add up to the state of the cache must hold for every order of arrivals, flushes, goodbyes, expiries, repeated packets and queries made or ended by callbacks.",[f"{D}: _q_answer",f"{D}: _c_expire",f"{D}: _cache",f"{D}: mdnsd_query",f"{D}: _q_done",f"{D}: mdnsd_list"])
p("C89","Sockets hear and speak on their own interface, and do not get in each other's way","Unless the system refuses a call, mdns_socket and mdns_socket6 return a socket that does not block, is bound to port 5353, is a member of the group the library sends to on the given interface, sends multicast there with the given hop limit (1 if none is given), and hears nothing that arrives on other interfaces; any number of such sockets of any programs, for any interfaces and both families, can exist at the same time. Whatever the system refuses, a socket that is returned is never a member of another group or on another interface.","all sets of other sockets, all interfaces, hop limits and owners, all patterns of refused calls, all feature sets of the system","Depends on the order of the options and on every other socket of the system, and on which calls fail.",["src/mcsock.c: mc_socket","src/mcsock.c: mc_socket6","src/mcsock.c: mdns_socket","src/mcsock.c: mdns_socket6","src/mcsock.c: get_addr","src/mdnsd.c: multicast_socket","src/mquery.c: msock"])
p("C90","The pid file names the daemon while it runs and is gone afterwards","When pidfile gives 0 the file holds the number of the process; when it gives -1 it leaves no file of its own behind; when the process ends a file that it wrote is removed, and otherwise no file is touched.","all histories of calls with any failures of the system, of removals and changes of the file by others, and any file left behind before","Which static variables are set depends on the history of failures; the cleanup handler may be registered several times.",["lib/pidfile.c: pidfile","lib/pidfile.c: pidfile_cleanup","src/mdnsd.c: main"])
p("C91","A packet printed for debugging is printed in full","mdnsd_log_hex prints each byte of the packet exactly once, in order, sixteen to a line with the offset in front and the same bytes as text behind.","all packets of any length, all messages","Lines depend on the length modulo sixteen and on a buffer reused from line to line.",["libmdnsd/log.c: mdnsd_log_hex"])
p("C92","A record lasts until it is given up","A record with a lifetime that is in the daemon stays there with the same contents through all calls, packets and times, until the program changes or withdraws it, a change of addresses concerns it, everything is cleared or shut down, or a conflict of it is reported. A conflict is reported, and the record given up, only for a unique record and a packet that has something to do with it: a query that claims the name with other data while the record is not set, or a response with its own data.","all histories of calls, all packets received, all records","It must hold for every packet at every moment; any of the many places that unlink records might take the wrong one.",[f"{D}: mdnsd_in, mdnsd_out, mdnsd_done, _conflict, _r_done"])
p("C93","Options mean the same however they are written","mdnsd starts only if its whole command line is understood; then it uses the last host name, interface, log level and TTL (1 to 255) given, the path of the first operand, runs in the foreground exactly with -n, and logs to syslog in the background and with -s. Otherwise it ends with an exit code other than 0, unless help or the version was asked for. mquery likewise uses the last interface, type, time and device given and asks for the first operand.","all command lines, in all ways of grouping and joining options, with and without POSIXLY_CORRECT","Unbounded command lines; options may be repeated and combined in any order.",["src/mdnsd.c: main","src/mquery.c: main","libmdnsd/log.c: mdnsd_log_level"])
p("C94","Flushing empties the cache","After mdnsd_flush nothing received before is cached any more.","all states of the daemon","unbounded states",[f"{D}: mdnsd_flush"])
p("C95","mquery asks on the LAN","Without -i, mquery uses the interface of the first default route that is up and not a tunnel, if there is one.","all routing tables","unbounded tables, any order of the routes",["src/mquery.c: getifname"])
p("C96","Running out of memory loses only what was to be stored","If memory cannot be had while a program asks, publishes, sets data or receives a packet, then at most what was to be stored is missing; everything else stays as it is, and all later calls are defined.","all histories of calls, of which any may find no memory, at any of its allocations","failures at every point of every history, and all that follows",["libmdnsd/mdnsd.c: mdnsd_query, mdnsd_shared, mdnsd_unique, _cache, mdnsd_in, mdnsd_set_host, mdnsd_set_raw, mdnsd_set_interface_addresses"])
p("C97","A directory means the service files in it","If the path given to mdnsd is a directory, exactly the files in it whose names end with .service and do not begin with a period are loaded, each once and in the order of their names; if it is a file, that file alone. It means the same in the foreground and in the background. If there is nothing at the path, nothing is loaded and nothing changed.","all file systems, all paths","any path and any contents of the directories along it; patterns are interpreted by the C library",["src/conf.c: conf_init","src/mdnsd.c: main"])
p("C98","Questions are not repeated too soon","While a query is registered its question goes out in rounds of three: the second at least one second after the first, the third at least two seconds after the second, and the next round at least three seconds after that. So at most 3 m questions go out for it in any 6 m seconds, whatever other nodes send, whatever the application does with other queries and records, and however often it asks for packets.","all environments, all histories in which the clock is not set back, all queries","any number of calls and messages in any order; a test sees a few",["libmdnsd/mdnsd.c: mdnsd_out, mdnsd_in, mdnsd_query, _q_reset, _q_answer"])
p("C99","A parsed message stays as it was received","When a datagram has been parsed, the names and the data that its questions and records point at are those of the datagram, each as it was when it was read. Nothing that is stored for a later part of the message changes an earlier part, even when names repeat and share storage or when structures and texts fill the whole block.","all contents of the receive buffer, all texts of addresses, all contents of the structures","depends on where every name and record lands in one block; a test sees a few layouts",["libmdnsd/1035.c: message_parse, _label, _rrparse","libmdnsd/1035.h: struct message"])
p("C100","Logging received records shows them and stays inside the message","With debug logging the daemon writes one line for each answer it receives: its name and its address, host name, service data or text. It reads only memory of the message for that. The text of a TXT record is shown as received, up to the first zero byte, and nothing else.","all contents of the receive buffer, all answers","the text is read until a zero byte is found, so that what is read depends on everything behind it",["src/mdnsd.c: record_received","libmdnsd/1035.c: _rrparse"])
p("C101","Questions are answered however they are spelled, and nothing that was not asked for is sent","A query with a question for a record that was set and announced makes the record be sent to everyone within the next packets: whether the question is for its type or for ANY, whatever the case of the letters of the name, and with or without the bit that asks for a unicast response. A record that no question of the query is for is not queued because of it, neither for everyone nor for the querier.","all histories of calls and packets, all queries and queriers, all records","records, other questions of the query and the queues interact in any order; a test sends a few queries",["libmdnsd/mdnsd.c: mdnsd_in, _r_next, _send"])
p("C102","A conflict is settled by another name","When another host turns out to use a name of the daemon, the daemon reads its configuration again with the next number behind the host name. From then on it has no record and sends no response under the names it had before, and packets about those names are no conflict any more, whatever else is received and sent.","all states before the reload, all service files, host names and numbers, all later packets, clocks and calls","the new names come from all files, may be cut to fit, and whether one number's name is a beginning of another's depends on every byte of them",["src/mdnsd.c: mdnsd_conflict, main","src/conf.c: conf_init, load","libmdnsd/mdnsd.c: mdnsd_in"])
p("C103","The daemon does not spin","A program that calls mdnsd_step whenever the time it was given is over does not use up the processor: when nothing is received, of any three steps at the same time one gives a time to wait that is not zero, whatever was published, asked and received before.","all states reachable by any calls and packets, all records, queries and clocks","the time comes from whichever of six queues and timers is not empty, and a step that forgets to move on one of them shows only in the states in which that one is first",["libmdnsd/mdnsd.c: mdnsd_step, mdnsd_sleep, mdnsd_out","src/mdnsd.c: main"])
p("C104","No interface is lost, visited twice or used after it was freed","However interfaces come, fail and come back, the daemon's list of them stays whole: going through it meets every interface in memory exactly once, also when the current one is taken out on the way, the interface found by name is the first one of that name, and at the end every interface has been freed.","all lists of addresses, all failures of sockets, all sequences of rounds, with and without -i","the list is made of pointers and its iterator keeps one in a static variable; whether that one still points to a live entry depends on what was freed since, and a stale one usually still holds the old bytes",["src/addr.c: iface_iterator, iface_find, iface_free, iface_init, iface_exit","src/queue.h: TAILQ_INSERT_TAIL, TAILQ_REMOVE, TAILQ_FOREACH_SAFE","src/mdnsd.c: main, sys_init"])
p("C105","A callback may end queries","A callback for answers may end any queries with mdnsd_query and NULL, its own one and those of other names included, while a packet is received or made: nothing freed is used, what it asks for is done before another callback is called, no callback is told of anything after its query has ended, and what is cached and published after receiving it is the same as if the callback had done nothing.","all states reached by calls of the API, all packets, all programs (what a callback does may depend on everything told so far)","the entries and queries a callback removes are those the caller is just going through; whether it holds depends on the combination of cached records, queries and the place of the callback in the loop, and stale memory mostly still has the old content",["libmdnsd/mdnsd.c: mdnsd_query, mdnsd_in, mdnsd_out, _q_answer, _q_done, _q_reset, _c_expire, _cache, _gc","libmdnsd/mdnsd.h: mdnsd_query"])
p("C106","A conflict callback may publish the record under another name","A program that is told of a conflict may publish, set and withdraw records and start and end queries right there, while the packet is received: nothing freed is used, the record the conflict is about is given up whatever the callback does, every other record it does not withdraw stays as it was, and the record it publishes under another name is there afterwards and is being probed.","all states reached by calls of the API with such callbacks, all packets, all conflict callbacks (what they do may depend on the whole state)","the callback changes the chain of records that the library is just going through, and the record it is about to withdraw; whether that goes wrong depends on which records share the name and how far each is with its probing",["libmdnsd/mdnsd.c: mdnsd_in, _conflict, _r_next, mdnsd_unique, mdnsd_shared, mdnsd_done, mdnsd_set_raw","libmdnsd/mdnsd.h: mdnsd_unique"])
p("C107","Names and paths are put together inside of their buffers","The copying function the project brings along (for systems without strlcpy) never reads behind the end of the string, never writes outside of the size it is given, always ends the copy with a zero byte if the size is not zero, and returns the length of the string. The host name with its number is put together inside of its buffer for every host name and every number, cut so that the number is kept; the pattern for the service files of a directory fits its buffer for every path.","all strings, sizes, contents of the memory around; all host names and interface numbers; all paths; all contents of the buffers before","lengths at and around each boundary, and the bytes around the buffer, would have to be tried all",["lib/strlcpy.c: strlcpy","src/conf.c: conf_init"])
p("C108","Callbacks may call the library","Callbacks for answers, for conflicts and for received records of one program may all call functions of the library, while packets are received and made: publish, set and withdraw records, set addresses, start and end queries. Nothing freed is used, every call returns, each record stays in the one queue where it belongs, a callback is told only of records of the name and type it is registered for at that moment, what is cached is what would be cached without callbacks, and a record that a callback publishes is there afterwards and is being probed.","all states reached by calls of the API with such callbacks, all packets, all programs (what callbacks do may depend on the whole state)","callbacks change the tables, chains and queues that the library is just going through; whether that goes wrong depends on the combination of cached records, queries, records and the place in the loop where the callback is called",["libmdnsd/mdnsd.c: mdnsd_in, mdnsd_out, _q_answer, _conflict, _c_expire, _cache, _gc, mdnsd_query, mdnsd_unique, mdnsd_shared, mdnsd_done","libmdnsd/mdnsd.h: mdnsd_query, mdnsd_unique"])
p("C109","Strings of service files when memory runs out","Reading and publishing a service file gives back every string it stored, each once, and frees nothing else, for every file and however often memory is refused. With enough memory exactly the settings of the file are published, with the defaults for those it does not have. If memory is refused, no setting is published that is not in the file or a default, and the daemon goes on.","all contents of files, all host names, all sets of allocations that fail, all states of the heap","failures would have to be injected at each allocation of each file, together with a leak checker",["src/conf.c: read_line, parse, load"])
p("C110","The string table when memory runs out","Whatever allocations fail, each call that stores into the string table is carried out or not at all: afterwards every key has the value of the last call for it that was carried out, calls that got memory are among these, and no other key is affected. A table that could not be made is an empty one. Nothing is freed twice, no memory of the caller is freed, no entry refers to freed memory, and in the end every copy that was made is freed.","all sequences of calls, all keys and values, all table sizes, all sets of allocations that fail","each allocation of each history would have to fail in turn, with a checker for memory",["libmdnsd/xht.c: xht_new, xht_set, xht_store, xht_get, xht_walk, xht_free"])
p("C111","The library gives back all its memory and frees nothing twice","Whatever records are published, set, withdrawn, cached, dropped, asked for and answered, in any order, and whatever allocations fail: nothing is freed that is not in use, no two things held are in the same memory, every name and every piece of data held can be read, each call changes only the texts it is to change, and mdnsd_free gives back everything the context holds and nothing else. A caller may pass strings that the library handed out.","all sequences of calls and of records arriving, all texts, all sets of allocations that fail, all states of the memory before","Leaks and double frees come from a particular failing allocation after a particular history; tests do not fail allocations, and no test goes over all histories.",["libmdnsd/mdnsd.c:mdnsd_free","libmdnsd/mdnsd.c:mdnsd_shared","libmdnsd/mdnsd.c:mdnsd_set_host","libmdnsd/mdnsd.c:mdnsd_set_raw","libmdnsd/mdnsd.c:mdnsd_query","libmdnsd/mdnsd.c:_cache","libmdnsd/mdnsd.c:_free_record","libmdnsd/mdnsd.c:_free_cached"])
p("C112","Questions from other ports when memory runs out","If there is no memory to note an answer of its own for a question from a port other than 5353, receiving the message still does everything else as with enough memory: the same records are sent to everyone, the same conflicts are reported, answers noted before are kept, and not more answers are missing than requests for memory were refused. Whatever was refused before, in any call, the library stays usable.","all messages, senders, states and sets of refused allocations, all sequences of calls","Which question finds no memory depends on everything allocated before; tests do not make allocations fail.",["libmdnsd/mdnsd.c:_u_push","libmdnsd/mdnsd.c:mdnsd_in"])
p("C113","mquery when memory runs out","When mquery finds no memory for a new line of its list, the list stays right: the same hosts with the same addresses, the same further questions, and everything said about a service; only services of which nothing but the name is known can be absent. mquery does not crash.","all sequences of answers and all sets of refused allocations","Which answer finds no memory depends on everything before it; tests do not make allocations fail.",["src/mquery.c:ans_dev","src/mquery.c:find_or_create_instance","src/mquery.c:find_or_create_device"])
p("C114","TXT records when memory runs out","When memory runs out while the TXT record of a service is made or a received one is decoded, nothing is read outside of the data, and every key that is published or found has the value of the last of its lines (or strings) for which there was memory; lines with memory are never left out.","all files, all TXT data and all sets of refused allocations","Which line gets no memory depends on collisions in a hash table and everything allocated before; tests do not make allocations fail.",["libmdnsd/sdtxt.c:sd2txt","libmdnsd/sdtxt.c:txt2sd","src/conf.c:load","libmdnsd/mdnsd.c:mdnsd_set_raw"])
p("C115","Publishing a service when records get no memory","When memory runs out while the records of a service file are made, each part of the service for which there was memory is published as the file says, what there was before stays, and the daemon goes on.","all service files, host names, addresses, states of the daemon and sets of records that get no memory","Whether a record is new depends on everything loaded before, and tests do not make allocations fail.",["src/conf.c:record","src/conf.c:load","libmdnsd/mdnsd.c:mdnsd_set_srv","libmdnsd/mdnsd.c:mdnsd_set_raw"])
p("C116","Changing addresses when memory runs out","When memory runs out while the addresses of a host or of the interface are updated, addresses that are no longer there are withdrawn, addresses that stay are untouched, and every new address for which there was memory is published; nothing else changes.","all hosts, address lists, states of the daemon and sets of refused allocations","Which allocations are needed depends on all records published before; tests do not make allocations fail.",["libmdnsd/mdnsd.c:_update_addresses_for_host","libmdnsd/mdnsd.c:mdnsd_set_interface_addresses","libmdnsd/mdnsd.c:mdnsd_set_addresses_for_host","libmdnsd/mdnsd.c:mdnsd_set_ipv6_addresses_for_host"])
p("C117","An interface that cannot be set up does not harm the others","When an interface turns up for which there is no memory or no socket, the daemon goes on serving the interfaces it has, or, if it ends, withdraws what it has published there. A scan needs memory only for interfaces found for the first time, once for each; with all others it notices every change, however little memory there is.","all lists of interfaces, all tables of known interfaces, all patterns of failing allocations","Allocations that fail cannot be provoked at chosen moments in a test; the claim concerns every combination of new and known interfaces.",["src/addr.c: iface_init","src/mdnsd.c: setup_iface","src/mdnsd.c: sys_init"])
p("C118","The log level means the same for syslog and for the terminal","Whatever the order in which the log level is set, changed and syslog is opened, a message is recorded exactly if its severity is at most the last level given (and none with the level none): in syslog once that is opened, otherwise warnings and errors on standard error and the rest on standard output. No level does harm.","all histories of calls, all strings given as a level, all severities","The level, the mask kept by the C library and the choice of syslog are three variables that must agree after every order of calls.",["libmdnsd/log.c: mdnsd_log_level","libmdnsd/log.c: mdnsd_log_open","libmdnsd/log.c: mdnsd_log"])
p("C119","The nodes of the string table are never lost or used after being freed","Whatever is stored in the string table and whatever allocations fail, no function uses a node that is not allocated, every loop over a bucket ends, xht_get and xht_walk give what was stored, and xht_free frees every node ever allocated exactly once and uses none of them afterwards.","all sequences of calls, all keys and values, all table sizes, all sets of allocations that fail","Nodes are linked by pointers; a wrong order of reading and freeing is harmless in most runs.",["libmdnsd/xht.c: _xht_node_find, _xht_set, xht_get, xht_walk, xht_free"])
p("C120","The daemon waits for all of its sockets","Whatever descriptors the sockets of the interfaces and of netlink have got, the daemon wakes up exactly when there is something to read on one of those in use, and then knows of each whether that is so. Interfaces that are gone do not wake it.","all tables of interfaces, all numbers of descriptors, all sets of descriptors that can be read","Which numbers the sockets get depends on the history of interfaces and on how the daemon was started.",["src/mdnsd.c: main"])
p("C121","The messages of the daemon are those its command line asks for","However the options are written, a message of the daemon can be read exactly if its severity is within the last level given (notice if none is): in syslog if the daemon is in the background or -s is given, otherwise on the terminal, warnings and errors on standard error. A daemon in the background never writes messages where nobody can read them.","all command lines, all levels and severities","Options can be combined, repeated and joined in any way; the level, the choice of syslog and the descriptors closed in the background are set at different places.",["src/mdnsd.c: main","libmdnsd/log.c: mdnsd_log_level","libmdnsd/log.c: mdnsd_log_open","libmdnsd/log.c: mdnsd_log"])
p("C122","Answers go back to the address a question came from","Each packet read from a socket is handled with the address and port of its own sender, whatever was in memory before, and a unicast answer is sent to exactly the socket address the system gave, including the scope of IPv6; all other packets go to port 5353 of 224.0.0.251 or ff02::fb. Setting a port changes nothing else of an address.","all sequences of senders of the family of the socket, all addresses, ports, flows and scopes, all previous contents of memory","The fields overlap in memory in a way that depends on the family; a wrong length or offset shows with some addresses only.",["libmdnsd/inet.c: inet_family, inet_len, inet_port, inet_set_port, inet_anyaddr","libmdnsd/mdnsd.c: mdns_mcast, process_in, process_out","src/mquery.c: main"])
p("C123","The time of day is written where it fits","mdnsd_log_time puts the local time of day of any time, as HH:MM:SS, into the buffer of the caller if that has room for it and its zero byte, and otherwise leaves the buffer alone and logs the time; below the level debug nothing is logged.","all times, time zones, sizes of buffers and log levels","The room needed must be right for every size of buffer, and the time for every zone.",["libmdnsd/log.c: mdnsd_log_time"])
here=os.path.dirname(os.path.abspath(__file__))
with open(os.path.join(here,"..","properties.jsonl"),"w") as f:
    for x in P: f.write(json.dumps(x)+"\n")
print(len(P))
