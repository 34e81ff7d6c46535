{
 "claims": [
  {
   "property": "C01",
   "status": "proved",
   "theorems": [
    "Mdns.C01_short_round_trip",
    "Mdns.C01_long_round_trip"
   ],
   "note": "Big-endian value of the bytes written and value read back, for all values."
  },
  {
   "property": "C02",
   "status": "partial",
   "theorems": [
    "Mdns.C02_names_decode_partial",
    "Mdns.C02_local_names_decode_partial",
    "Mdns.C02_prefix_counterexample",
    "Mdns.C02_large_counterexample"
   ],
   "note": "Proved for all sequences of calls with well-formed names where no ending of a later name is the beginning of a longer ending of an earlier one (in particular names below a common top label), packets up to 16384 bytes. False without that condition: C02_prefix_counterexample; false for larger packets: C02_large_counterexample."
  },
  {
   "property": "C03",
   "status": "partial",
   "theorems": [
    "Mdns.C03_build_parse_partial",
    "Mdns.sample_ok",
    "Mdns.C03_prefix_counterexample"
   ],
   "note": "Proved for all messages whose names lie below a common top label, raw data within the first 4096 bytes, decoded size within the parser's working memory, any bytes behind the packet. False without the common top label (C03_prefix_counterexample)."
  },
  {
   "property": "C04",
   "status": "proved",
   "theorems": [
    "Mdns.C04_parse_terminates"
   ],
   "note": ""
  },
  {
   "property": "C05",
   "status": "proved",
   "theorems": [
    "Mdns.C05_parse_writes_inside",
    "Mdns.C05_writes_padding_byte"
   ],
   "note": "Writes stay inside struct message; one byte of padding after _packet may be written."
  },
  {
   "property": "C06",
   "status": "partial",
   "theorems": [
    "Mdns.C06_parse_reads_bounded_partial",
    "Mdns.C06_overread_counterexample"
   ],
   "note": "Reads are bounded by 90124 bytes from the start of the buffer; C06_overread_counterexample shows a read behind the 65536 byte buffer."
  },
  {
   "property": "C07",
   "status": "proved",
   "theorems": [
    "Mdns.C07_header_round_trip"
   ],
   "note": ""
  },
  {
   "property": "C08",
   "status": "partial",
   "theorems": [
    "Mdns.C08_self_contained_partial",
    "Mdns.C08_built_packets_partial",
    "Mdns.C08_stale_bytes_counterexample"
   ],
   "note": "Proved for every datagram whose parse does not run past its end, and for everything the builder produces. False in general: C08_stale_bytes_counterexample."
  },
  {
   "property": "C09",
   "status": "proved",
   "theorems": [
    "Mdns.C09_parsed_names_bounded"
   ],
   "note": ""
  },
  {
   "property": "C10",
   "status": "proved",
   "theorems": [
    "Mdns.C10_append_only",
    "Mdns.C10_packet_length"
   ],
   "note": ""
  },
  {
   "property": "C100",
   "status": "partial",
   "theorems": [
    "Mdns.Received.C100_log_inside",
    "Mdns.Received.C100_log_says_partial",
    "Mdns.Received.C100_next_counterexample"
   ],
   "note": "Text without a zero byte is not terminated in the message: the log goes on with the name of the next record or with its text. The reads end inside the structure because its last byte of padding is zero (trusted)."
  },
  {
   "property": "C101",
   "status": "partial",
   "theorems": [
    "Mdns.C101_answered_partial",
    "Mdns.C101_unasked",
    "Mdns.C101_unicast_counterexample",
    "Mdns.C101_case_counterexample"
   ],
   "note": "Answered if the name is spelled byte by byte as in the record and the class has no other bits, as long as service enumeration is not asked for. Questions with the unicast response bit or with letters in other case are not answered at all (counterexamples). Nothing else is sent: proved."
  },
  {
   "property": "C102",
   "status": "partial",
   "theorems": [
    "Mdns.Conf.C102_settled_partial",
    "Mdns.Conf.C102_named_counterexample"
   ],
   "note": "For names that the files do not fix and host names with room for the number (C48_full_counterexample). A service whose file gives its name keeps it: the same conflict is reported again after every reload (C102_named_counterexample). That a conflict is noticed at all is C36, that the reload follows is C48 and C85."
  },
  {
   "property": "C103",
   "status": "partial",
   "theorems": [
    "Mdns.C103_waits_partial",
    "Mdns.C103_short_counterexample",
    "Mdns.C103_sweep_counterexample",
    "Mdns.C103_large_counterexample"
   ],
   "note": "For records that live longer than two seconds and fit in a packet, and while the next sweep of the cache is more than two seconds away. A record with a lifetime of two seconds is sent in every step, without end and without a time to wait; in the two seconds before a sweep the time is zero although there is nothing to do; a record that fits in no packet keeps the time at zero. Each of these is shown for every number of steps."
  },
  {
   "property": "C104",
   "status": "proved",
   "theorems": [
    "Mdns.Tailq.C104_same",
    "Mdns.Tailq.C104_chain",
    "Mdns.Tailq.C104_freed",
    "Mdns.Tailq.C104_safe_partial"
   ],
   "note": "The cells, their two links, the head of the list and the static variable of the iterator are modelled; using a freed cell is undefined behaviour. The daemon with cells does for every input what the daemon with a list does, so everything shown for that one (C70, C71) holds for it. C104_safe_partial combines this with C70 and has its hypothesis."
  },
  {
   "property": "C105",
   "status": "partial",
   "theorems": [
    "Mdns.C105_safe_partial",
    "Mdns.C105_told_partial",
    "Mdns.C105_final_partial",
    "Mdns.C105_ended_partial",
    "Mdns.C105_endedExpiry_partial",
    "Mdns.C105_cached",
    "Mdns.C105_expiry_partial",
    "Mdns.C105_plain",
    "Mdns.C105_twice_counterexample",
    "Mdns.C105_any_counterexample",
    "Mdns.C105_sending_counterexample",
    "Mdns.C105_twin_counterexample"
   ],
   "note": "If a callback that returns -1 does not also end a query for the name it is told of with mdnsd_query: one that does both makes the daemon use NULL or the freed query, and ending the query for all types of that name is enough (counterexamples). All calls are covered, in all states such callbacks lead to. For mdnsd_out a callback told that a record is gone must not end queries for names with the hash of the record's name, or no query asked three times may find expired records: otherwise the freed query is used (counterexamples, one with another name of the same hash). C105_expiry_partial: the sweep of the whole cache. That the cache does not depend on callbacks needs no hypothesis (C105_cached). C105_plain: for callbacks that only register queries every call is that of all other properties."
  },
  {
   "property": "C106",
   "status": "partial",
   "theorems": [
    "Mdns.C106_safe_partial",
    "Mdns.C106_given_up_partial",
    "Mdns.C106_kept_partial",
    "Mdns.C106_renamed_partial",
    "Mdns.C106_plain",
    "Mdns.C106_own_counterexample",
    "Mdns.C106_next_counterexample",
    "Mdns.C106_clear_counterexample"
   ],
   "note": "If the callback withdraws no record of the name it is told of that is still being probed, its own one included: otherwise the library frees the record again or goes on with a freed one (counterexamples), and likewise if it calls functions that withdraw all records. Functions that go over all records (addresses, shutdown) or receive and make packets are not covered. The record under the other name is there unless a conflict for it is reported within the same packet or a callback withdraws it."
  },
  {
   "property": "C107",
   "status": "partial",
   "theorems": [
    "Mdns.Buf.C107_strlcpy",
    "Mdns.Buf.C107_hostname",
    "Mdns.Buf.C107_pattern",
    "Mdns.Buf.C107_system_counterexample",
    "Mdns.Buf.C107_home_counterexample",
    "Mdns.Buf.C107_tilde_counterexample"
   ],
   "note": "strlcpy is shown in full. The host name: if gethostname leaves a zero byte in the buffer, which POSIX does not promise for a name that does not fit; otherwise memory behind the buffer is read (counterexample). The pattern: as it is made on every system; where glob has no GLOB_TILDE the code that replaces ~/ writes behind the buffer for a long HOME, and otherwise makes a wrong path (counterexamples). Both results are those of the models used elsewhere (Conf.hostname, Glob.pattern)."
  },
  {
   "property": "C108",
   "status": "partial",
   "theorems": [
    "Mdns.C108_safe_partial",
    "Mdns.C108_queues_partial",
    "Mdns.C108_told_partial",
    "Mdns.C108_cached_partial",
    "Mdns.C108_expiry_partial",
    "Mdns.C108_published_partial",
    "Mdns.C108_asked",
    "Mdns.C108_renamed_partial",
    "Mdns.C108_ending",
    "Mdns.C108_reacting",
    "Mdns.C108_twice_counterexample",
    "Mdns.C108_again_counterexample",
    "Mdns.C108_sending_counterexample"
   ],
   "note": "Callbacks.Sound says which calls are safe there: any that are safe in every state (a record that is withdrawn or set must be there), no packets received or made within a callback, the hypotheses of C105 for ending queries and returning -1 or while a packet is made, those of C106 for conflict callbacks. Without them freed memory is used (counterexamples). C108_cached_partial: for each answer, unless it conflicts with a record. C108_ending and C108_reacting: the models of C105 and C106 are special cases."
  },
  {
   "property": "C109",
   "status": "partial",
   "theorems": [
    "Mdns.Conf.Mem.C109_freed",
    "Mdns.Conf.Mem.C109_enough",
    "Mdns.Conf.Mem.C109_loaded",
    "Mdns.Conf.Mem.C109_short_partial",
    "Mdns.Conf.Mem.C109_renamed_counterexample",
    "Mdns.Conf.Mem.C109_txt_counterexample",
    "Mdns.Conf.Mem.C109_default_counterexample"
   ],
   "note": "Freeing is shown in full, as are the settings with enough memory. If memory is refused: settings are those of the file or missing; a missing name makes the service appear under the name of the host without a report (C109_renamed_counterexample), a TXT string or a default that gets no memory is used as NULL (counterexamples). Memory of the library is C96."
  },
  {
   "property": "C11",
   "status": "partial",
   "theorems": [
    "Mdns.SdTxt.C11_txt_round_trip_partial",
    "Mdns.SdTxt.C11_long_entry_counterexample"
   ],
   "note": "Proved for all tables whose entries fit the 255 bytes of a TXT string; false beyond that (length byte wraps), counterexample proved."
  },
  {
   "property": "C110",
   "status": "partial",
   "theorems": [
    "Mdns.Xht.C110_values",
    "Mdns.Xht.C110_null",
    "Mdns.Xht.C110_walk",
    "Mdns.Xht.C110_freed_once",
    "Mdns.Xht.C110_no_dangling",
    "Mdns.Xht.C110_all_freed_partial",
    "Mdns.Xht.C110_lost_counterexample"
   ],
   "note": "All but the last part in full. If a copy is stored under a new key and the node gets no memory, the copies of key and value are never freed (C110_lost_counterexample); otherwise all are. For the memory of the nodes see C119."
  },
  {
   "property": "C111",
   "status": "partial",
   "theorems": [
    "Mdns.Blocks.C111_never_twice",
    "Mdns.Blocks.C111_held",
    "Mdns.Blocks.C111_texts",
    "Mdns.Blocks.C111_all_freed",
    "Mdns.Blocks.C111_readable_partial",
    "Mdns.Blocks.C111_life_partial",
    "Mdns.Blocks.C111_own_host_counterexample",
    "Mdns.Blocks.C111_own_data_counterexample"
   ],
   "note": "Freeing, texts and mdnsd_free in full. Reading: if no record is given its own string back: mdnsd_set_host and mdnsd_set_raw free the old string before they copy the new one, so that this always reads freed memory (counterexamples, for every state). Which calls happen when is left open: any order is covered, but that the lists hold exactly the records that exist is C43. The temporary lists of mdnsd_set_interface_addresses and the list of getifaddrs are not modelled."
  },
  {
   "property": "C112",
   "status": "partial",
   "theorems": [
    "Mdns.Uni.C112_same",
    "Mdns.Uni.C112_enough",
    "Mdns.Uni.C112_sound_partial",
    "Mdns.Uni.C112_silent_counterexample"
   ],
   "note": "C112_same holds in every state, for both representations of the queues. C112_sound_partial covers all sequences of calls of C96 and of messages with refused answers, with the hypothesis of C96 (the strdup of names in received data, which is not checked, succeeds). The one who asked gets no answer of their own and the call reports nothing (C112_silent_counterexample)."
  },
  {
   "property": "C113",
   "status": "partial",
   "theorems": [
    "Mdns.Mquery.C113_exact",
    "Mdns.Mquery.C113_enough",
    "Mdns.Mquery.C113_same_partial",
    "Mdns.Mquery.C113_safe_partial",
    "Mdns.Mquery.C113_null_counterexample"
   ],
   "note": "C113_exact says for every answer and every state of the tables whether NULL is used when calloc fails. The list is right as long as that did not happen, for names of at most 255 bytes, as the parser makes them. That mquery does not crash is false: the first address of any host without memory is written through NULL (C113_null_counterexample, for all answers before); it is shown if memory is refused in PTR answers only. Allocations of the library itself are those of C96."
  },
  {
   "property": "C114",
   "status": "partial",
   "theorems": [
    "Mdns.SdTxt.C114_read",
    "Mdns.SdTxt.C114_read_null",
    "Mdns.Conf.C114_enough",
    "Mdns.Conf.C114_exact",
    "Mdns.Conf.C114_published_partial",
    "Mdns.Conf.C114_empty_counterexample",
    "Mdns.Conf.C114_null_counterexample"
   ],
   "note": "Decoding in full. Publishing: as stated if the table and the data get memory, with the condition of C63 on lines with an empty key. If the table gets none, an empty record is published whatever the file has; if the data get none, they are read from NULL (counterexamples, for all files). The record itself exists."
  },
  {
   "property": "C115",
   "status": "partial",
   "theorems": [
    "Mdns.Conf.C115_enough",
    "Mdns.Conf.C115_exact",
    "Mdns.Conf.C115_published_partial",
    "Mdns.Conf.C115_null_counterexample"
   ],
   "note": "C115_exact says for every state, file and set of refused records whether NULL is written through: exactly if the SRV or TXT record is new and gets none (C115_null_counterexample, for every service that is not there yet). Otherwise each part with memory is published, with the hypotheses of C63. Memory for the data of records is C96 and C114."
  },
  {
   "property": "C116",
   "status": "partial",
   "theorems": [
    "Mdns.C116_enough",
    "Mdns.C116_v4_partial",
    "Mdns.C116_v6_partial",
    "Mdns.C116_interface_partial",
    "Mdns.C116_stale_counterexample",
    "Mdns.C96_addresses_counterexample"
   ],
   "note": "Updates of one host: exact for every state and every set of refused records, with the exception of C38 (addresses being withdrawn). The interface: exact for hosts whose name got memory; the others keep all their addresses although the call reports success (C116_stale_counterexample, for every state). The arrays of addresses are C96: if one of their reallocations fails, NULL is read (C96_addresses_counterexample)."
  },
  {
   "property": "C117",
   "status": "partial",
   "theorems": [
    "Mdns.Iface.C117_exact",
    "Mdns.Iface.C117_new_exists",
    "Mdns.Iface.C117_known_partial",
    "Mdns.Iface.C117_end_counterexample",
    "Mdns.Proc.C117_goodbye_counterexample"
   ],
   "note": "Proved: exactly when a scan ends the daemon, and that it does not while no new interface turns up. In the other case the code ends with exit(1): the interfaces in service are lost (C117_end_counterexample), and their contexts are not shut down, so nothing is withdrawn (C117_goodbye_counterexample, for memory and for sockets)."
  },
  {
   "property": "C118",
   "status": "partial",
   "theorems": [
    "Mdns.Log.C118_same_partial",
    "Mdns.Log.C118_defined_iff",
    "Mdns.Log.C118_level",
    "Mdns.Log.C118_shift_counterexample"
   ],
   "note": "Proved for all histories in which syslog is not used with a level of 30 or more. For those LOG_UPTO shifts by more than an int has bits, which is undefined; C118_defined_iff shows that these are the only ones, C118_shift_counterexample is -s -l 40."
  },
  {
   "property": "C119",
   "status": "proved",
   "theorems": [
    "Mdns.Xht.C119_same",
    "Mdns.Xht.C119_freed"
   ],
   "note": "For tables with at least one bucket, as all of the library are."
  },
  {
   "property": "C12",
   "status": "proved",
   "theorems": [
    "Mdns.SdTxt.C12_txt2sd_in_bounds",
    "Mdns.SdTxt.C12_txt2sd_ignores_following"
   ],
   "note": ""
  },
  {
   "property": "C120",
   "status": "partial",
   "theorems": [
    "Mdns.Proc.C120_wakes_partial",
    "Mdns.Proc.C120_daemon_partial",
    "Mdns.Proc.C120_others",
    "Mdns.Proc.C120_number",
    "Mdns.Proc.C120_zero",
    "Mdns.Proc.C120_zero_counterexample"
   ],
   "note": "C120_daemon_partial: for every moment of every run (with the hypotheses of C70) in which descriptor 0 was not given out. C120_wakes_partial: for every table and all descriptors unless 0 is the only one waited for; then select is told to look at none, and the daemon does not wake up whatever comes (C120_zero). This needs standard input closed at the start, and neither netlink nor IPv6 (C120_zero_counterexample)."
  },
  {
   "property": "C121",
   "status": "partial",
   "theorems": [
    "Mdns.Opt.C121_messages_partial",
    "Mdns.Opt.C121_background",
    "Mdns.Opt.C121_shift_counterexample",
    "Mdns.Opt.C121_negative_counterexample",
    "Mdns.Opt.C93_syslog_counterexample"
   ],
   "note": "C121_messages_partial: for all command lines the daemon starts with, with levels from 0 to 29 and at most one -n. Missing are a level of 30 or more, for which the mask of syslog is undefined (C121_shift_counterexample), a negative one, which is accepted and ignored (C121_negative_counterexample), and several -n, each of which takes back one -s (C93_syslog_counterexample). C121_background holds for all command lines."
  },
  {
   "property": "C122",
   "status": "proved",
   "theorems": [
    "Mdns.Inet.C122_back",
    "Mdns.Inet.C122_multicast",
    "Mdns.Inet.C122_port",
    "Mdns.Inet.C122_any",
    "Mdns.Inet.C122_distinct"
   ],
   "note": "With the layout of Linux on little-endian machines. Between process_in and process_out the address is copied as a whole (_u_push, mdnsd_out); that the answer to a question is given the address of that question is part of the model of the daemon, see C101."
  },
  {
   "property": "C123",
   "status": "partial",
   "theorems": [
    "Mdns.Log.C123_time_partial",
    "Mdns.Log.C123_quiet",
    "Mdns.Log.C123_level_counterexample",
    "Mdns.Log.C123_far_counterexample",
    "Mdns.Log.C123_carry_counterexample"
   ],
   "note": "Proved at the level debug for all times localtime can tell, with less than a million microseconds. Below that level the buffer of the caller is not written either (C123_level_counterexample); for times localtime cannot tell NULL is used (C123_far_counterexample); whole seconds among the microseconds are added without carry (C123_carry_counterexample). What localtime gives is an unknown."
  },
  {
   "property": "C13",
   "status": "proved",
   "theorems": [
    "Mdns.SdTxt.C13_sd2txt_length"
   ],
   "note": "int overflow of the length accumulator (tables over 2 GB) is not modelled"
  },
  {
   "property": "C14",
   "status": "proved",
   "theorems": [
    "Mdns.Xht.C14_table_is_a_map"
   ],
   "note": ""
  },
  {
   "property": "C15",
   "status": "proved",
   "theorems": [
    "Mdns.Xht.C15_copies_freed_exactly_once",
    "Mdns.Xht.C15_no_double_free",
    "Mdns.Xht.C15_no_dangling"
   ],
   "note": ""
  },
  {
   "property": "C16",
   "status": "proved",
   "theorems": [
    "Mdns.Xht.C16_walk_visits_each_once"
   ],
   "note": ""
  },
  {
   "property": "C17",
   "status": "proved",
   "theorems": [
    "Mdns.C17_bucket_in_range",
    "Mdns.nameHash_range"
   ],
   "note": ""
  },
  {
   "property": "C18",
   "status": "proved",
   "theorems": [
    "Mdns.C18_no_duplicates"
   ],
   "note": ""
  },
  {
   "property": "C19",
   "status": "proved",
   "theorems": [
    "Mdns.C19_known_answer_refreshes"
   ],
   "note": ""
  },
  {
   "property": "C20",
   "status": "partial",
   "theorems": [
    "Mdns.C20_goodbye_removes_partial",
    "Mdns.C20_any_counterexample"
   ],
   "note": "The record is removed and the others stay in every state; it is reported if a query of its name and type is registered, no query of type ANY for the name was ever ended and no callback returns -1 for another record that goes away. Without the condition on ANY false: C20_any_counterexample."
  },
  {
   "property": "C21",
   "status": "partial",
   "theorems": [
    "Mdns.C21_flush_replaces_partial",
    "Mdns.C21_several_counterexample"
   ],
   "note": "The old records are replaced for every answer with the cache-flush bit; of several such answers in one packet only the last one stays: C21_several_counterexample."
  },
  {
   "property": "C22",
   "status": "proved",
   "theorems": [
    "Mdns.C22_list_exact"
   ],
   "note": ""
  },
  {
   "property": "C23",
   "status": "partial",
   "theorems": [
    "Mdns.C23_expiry_partial",
    "Mdns.C23_gone_after_a_day",
    "Mdns.C23_report_counterexample",
    "Mdns.C24_new_answer_reported"
   ],
   "note": "Removal, order, lifetime 0 and at-most-once are proved for every call of mdnsd_out. That every removed record is reported needs that no query of type ANY for its name was ever ended; without this it is false, see the counterexample. That an entry is given now + ttl/2 + 8 seconds is part of C24_new_answer_reported (and of the C19-C21 theorems)."
  },
  {
   "property": "C24",
   "status": "proved",
   "theorems": [
    "Mdns.C24_answers_fit",
    "Mdns.C24_new_answer_reported",
    "Mdns.C24_flush_answer_reported"
   ],
   "note": "With the cache-flush bit under the condition that callbacks told of records that go away do not return -1 (which ends their query). A query of type ANY is not told of new entries (mdnsd.c:652 looks for the exact type), only of entries present when it is registered."
  },
  {
   "property": "C25",
   "status": "partial",
   "theorems": [
    "Mdns.C25_unregistered_is_final",
    "Mdns.C25_stopped_is_final_partial",
    "Mdns.C25_any_counterexample"
   ],
   "note": "Proved for mdnsd_query(.., NULL) and for every callback that returns -1 without registering, in the same call, a query of type ANY for the name; false there: C25_any_counterexample."
  },
  {
   "property": "C26",
   "status": "proved",
   "theorems": [
    "Mdns.C26_at_most_three",
    "Mdns.C26_asked"
   ],
   "note": "For a question that nothing in the cache answers when it is registered. That it is asked needs a clock that is not set back; that it is asked no more than three times, and the seconds between, do not."
  },
  {
   "property": "C27",
   "status": "partial",
   "theorems": [
    "Mdns.C27_known_answers",
    "Mdns.C27_complete_partial",
    "Mdns.C27_any_counterexample",
    "Mdns.C27_stale_counterexample"
   ],
   "note": "Every entry is a cached answer to one of the questions, with remaining lifetime; but known answers to a question for any type have type ANY, and the answers after one that is about to expire are missing: counterexamples."
  },
  {
   "property": "C28",
   "status": "partial",
   "theorems": [
    "Mdns.C28_callback_may_stop_partial",
    "Mdns.C28_keep_on_expiry",
    "Mdns.C28_expiry_counterexample"
   ],
   "note": "Safe for all callbacks while packets are taken in and swept, and while packets are made unless a query asked three times finds an expired entry; false there: C28_expiry_counterexample."
  },
  {
   "property": "C29",
   "status": "partial",
   "theorems": [
    "Mdns.C29_three_probes_partial",
    "Mdns.C29_probing_ends",
    "Mdns.C29_spacing_partial",
    "Mdns.C29_spacing_counterexample"
   ],
   "note": "Exactly three probes before the first answer, for all histories, and all three are sent when packets are made every two seconds. The 250 ms hold unless another unique record is created between two probes; false then: counterexample."
  },
  {
   "property": "C30",
   "status": "partial",
   "theorems": [
    "Mdns.C30_no_early_answers_partial",
    "Mdns.C30_additional_counterexample",
    "Mdns.C30_unicast_counterexample"
   ],
   "note": "Proved for the answer section of packets to the group; false for the additional section and for unicast answers: counterexamples."
  },
  {
   "property": "C31",
   "status": "partial",
   "theorems": [
    "Mdns.C31_at_most_four",
    "Mdns.C31_four_announcements_partial",
    "Mdns.C31_spacing_partial",
    "Mdns.C31_spacing_counterexample",
    "Mdns.C31_silenced_counterexample"
   ],
   "note": "Exactly four announcements, for all schedules, if every record fits in a packet; one that does not keeps all records set before it from being announced, however long the program runs: counterexample with the packet size of src/mdnsd.c. The two seconds hold while no other record is set, probed or asked for; false otherwise: counterexample."
  },
  {
   "property": "C32",
   "status": "partial",
   "theorems": [
    "Mdns.C32_known_not_queued_partial",
    "Mdns.C32_queued",
    "Mdns.C32_any_counterexample",
    "Mdns.C32_discovery_counterexample"
   ],
   "note": "Every announced record that is asked for and not listed as known is queued. Records listed as known are not queued, unless the question is of type ANY or for the service enumeration name: then they are."
  },
  {
   "property": "C33",
   "status": "partial",
   "theorems": [
    "Mdns.C33_queued_sent_partial",
    "Mdns.C33_discovery_counterexample"
   ],
   "note": "Every record in the response queues is sent, if each record fits in an empty packet and no service enumeration question waits; false for the latter: counterexample."
  },
  {
   "property": "C34",
   "status": "partial",
   "theorems": [
    "Mdns.C34_one_goodbye_at_most",
    "Mdns.C34_one_goodbye_partial",
    "Mdns.C34_probing_silent",
    "Mdns.C34_never_set_counterexample",
    "Mdns.C34_unicast_counterexample"
   ],
   "note": "At most one goodbye to the group, and exactly one for records that were set; a record that was never set is neither sent nor freed, and a waiting unicast answer is sent in addition: counterexamples."
  },
  {
   "property": "C35",
   "status": "partial",
   "theorems": [
    "Mdns.C35_goodbyes_partial",
    "Mdns.C43_shutdown_counterexample"
   ],
   "note": "Exactly one goodbye for every record if nothing waits to be probed or announced and no delayed response waits; otherwise freed memory may be used: counterexample."
  },
  {
   "property": "C36",
   "status": "partial",
   "theorems": [
    "Mdns.C36_reported_partial",
    "Mdns.C36_only_then",
    "Mdns.C36_set_counterexample",
    "Mdns.C36_probe_counterexample",
    "Mdns.C36_response_counterexample",
    "Mdns.C36_taken_counterexample",
    "Mdns.C36_twice_counterexample"
   ],
   "note": "Reported once and withdrawn for claims in the answer section of a query while the data of the record is not set, and in no other case for queries. Not reported once the data is set, for probes with the data in the authority section, and for responses, where instead equal data is reported, possibly more than once. So two hosts that hear everything of each other can both publish and announce the same unique name (C36_taken_counterexample)."
  },
  {
   "property": "C37",
   "status": "partial",
   "theorems": [
    "Mdns.C37_own_ignored_partial",
    "Mdns.C37_new_address_counterexample"
   ],
   "note": "For the addresses the application set, and those the system reports at every request; an address added less than five seconds ago is not recognised."
  },
  {
   "property": "C38",
   "status": "partial",
   "theorems": [
    "Mdns.C38_v4_exact_partial",
    "Mdns.C38_v6_exact_partial",
    "Mdns.C38_v4_others",
    "Mdns.C38_v6_others",
    "Mdns.C38_idempotent",
    "Mdns.C38_interface_partial",
    "Mdns.C38_withdrawn_counterexample"
   ],
   "note": "The addresses are exact unless a record with a given address is being withdrawn: then it is lost (counterexample). Other records untouched, new records only of the host and type, a second call changes nothing: for all states."
  },
  {
   "property": "C39",
   "status": "partial",
   "theorems": [
    "Mdns.C39_answers_distinct",
    "Mdns.C39_no_repeat_partial",
    "Mdns.C39_supplement",
    "Mdns.C39_crowded_counterexample"
   ],
   "note": "the answers of a packet are distinct and every additional record supplements an answer; no record is both answer and additional record in packets with up to 64 records, and for more it is false"
  },
  {
   "property": "C40",
   "status": "partial",
   "theorems": [
    "Mdns.C40_response_partial",
    "Mdns.C40_no_overrun_partial",
    "Mdns.C40_frame_counterexample",
    "Mdns.C40_overrun_counterexample"
   ],
   "note": "responses to everyone exceed the frame size by less than 262 bytes, and do exceed it; no overrun below a limit on frame size, records being probed and queries, and overrun without a limit"
  },
  {
   "property": "C41",
   "status": "partial",
   "theorems": [
    "Mdns.C41_sleep_partial",
    "Mdns.C41_usec_counterexample",
    "Mdns.C41_fraction_counterexample",
    "Mdns.C41_mixed_counterexample"
   ],
   "note": "Proved when work of one kind waits, up to the microseconds of the current time if that is questions; the microseconds may be exactly 1000000, and the time may be too long if work of several kinds waits."
  },
  {
   "property": "C42",
   "status": "partial",
   "theorems": [
    "Mdns.C42_refresh_partial",
    "Mdns.C42_bucket_counterexample",
    "Mdns.C42_query_counterexample",
    "Mdns.C42_unicast_counterexample"
   ],
   "note": "Proved for the first record of each hash bucket when nothing else waits; false for other records of a bucket, while there are questions to ask, and after an answer to a single host."
  },
  {
   "property": "C43",
   "status": "partial",
   "theorems": [
    "Mdns.C43_no_memory_errors_partial",
    "Mdns.C43_every_call_partial",
    "Mdns.C43_any_datagram",
    "Mdns.C43_shutdown_counterexample",
    "Mdns.C43_set_address_counterexample",
    "Mdns.C43_no_conflict_callback_counterexample"
   ],
   "note": "Proved for every sequence of calls in which each call meets OpSafe: handles of existing records, a conflict callback for unique records, no address taken away while its records are queued, no shutdown while records wait, and callbacks that do not end a query for an expired entry while a packet is made. Each of the last conditions is needed: counterexamples."
  },
  {
   "property": "C44",
   "status": "partial",
   "theorems": [
    "Mdns.C44_find",
    "Mdns.C44_published_partial",
    "Mdns.C44_has_query_partial",
    "Mdns.C44_has_query_no",
    "Mdns.C44_published_counterexample",
    "Mdns.C44_has_query_counterexample"
   ],
   "note": "mdnsd_find is exact. mdnsd_get_published and mdnsd_has_query miss nothing, but also report other names in the same hash chain: counterexamples."
  },
  {
   "property": "C45",
   "status": "proved",
   "theorems": [
    "Mdns.C45_clear"
   ],
   "note": ""
  },
  {
   "property": "C46",
   "status": "partial",
   "theorems": [
    "Mdns.C46_destination",
    "Mdns.C46_replied_partial",
    "Mdns.C46_several_counterexample",
    "Mdns.C46_discovery_counterexample"
   ],
   "note": "The destination and id of every packet is proved. Every question from another port is replied to, but with one record only and not for service enumeration: counterexamples."
  },
  {
   "property": "C47",
   "status": "partial",
   "theorems": [
    "Mdns.Conf.C47_rooted_partial",
    "Mdns.Conf.C47_two_dots_counterexample"
   ],
   "note": "A name that does not end in a dot gets one; a name configured with several dots at the end keeps them all."
  },
  {
   "property": "C48",
   "status": "partial",
   "theorems": [
    "Mdns.Conf.C48_suffix",
    "Mdns.Conf.C48_distinct",
    "Mdns.Conf.C48_renamed_partial",
    "Mdns.Conf.C48_targets_distinct",
    "Mdns.Conf.C48_numbers",
    "Mdns.Conf.C48_never_again",
    "Mdns.Conf.C48_configured_partial",
    "Mdns.Conf.C48_full_counterexample",
    "Mdns.Conf.C48_pending_counterexample"
   ],
   "note": "Names with different numbers are different and fit. A name of 254 bytes is not changed by the first conflict, and a conflict on a second interface while a reload is pending is dropped: counterexamples."
  },
  {
   "property": "C49",
   "status": "partial",
   "theorems": [
    "Mdns.Iface.C49_best_class_partial",
    "Mdns.Iface.C49_zeronet_counterexample"
   ],
   "note": "For address lists without 0.0.0.0/8 and :: addresses; with them the choice depends on the order."
  },
  {
   "property": "C50",
   "status": "proved",
   "theorems": [
    "Mdns.Iface.C50_flagged_iff",
    "Mdns.Iface.C50_configured",
    "Mdns.Iface.C50_same_again",
    "Mdns.Iface.C50_vanished"
   ],
   "note": "Also shown: an interface that lost all its addresses is not withdrawn."
  },
  {
   "property": "C51",
   "status": "partial",
   "theorems": [
    "Mdns.Conf.C51_lines_partial",
    "Mdns.Conf.C51_port_partial",
    "Mdns.Conf.C51_empty_line_counterexample",
    "Mdns.Conf.C51_long_line_counterexample"
   ],
   "note": "For files whose lines have 1 to 255 characters. An empty line makes chomp read before the buffer, and a longer line is read as several."
  },
  {
   "property": "C52",
   "status": "proved",
   "theorems": [
    "Mdns.Log.C52_names",
    "Mdns.Log.C52_numbers",
    "Mdns.Log.C52_error",
    "Mdns.Log.C52_decimal",
    "Mdns.Log.C52_shown",
    "Mdns.Log.C52_unknown_counterexample"
   ],
   "note": "Also shown: an unknown word is no error but sets level 0."
  },
  {
   "property": "C53",
   "status": "partial",
   "theorems": [
    "Mdns.Netlink.C53_events_partial",
    "Mdns.Netlink.C53_large_counterexample",
    "Mdns.Netlink.C53_unpadded_counterexample"
   ],
   "note": "For datagrams of at most 4096 bytes with padded messages; in larger datagrams events after the first 4096 bytes are missed."
  },
  {
   "property": "C54",
   "status": "partial",
   "theorems": [
    "Mdns.Mquery.C54_devices_partial",
    "Mdns.Mquery.C54_addresses_partial",
    "Mdns.Mquery.C54_instances_partial",
    "Mdns.Mquery.C54_products_partial",
    "Mdns.Mquery.C54_long_name_counterexample"
   ],
   "note": "For names of at most 255 characters; a name of 256 characters gets a new entry for every answer."
  },
  {
   "property": "C55",
   "status": "partial",
   "theorems": [
    "Mdns.C55_discovered_partial",
    "Mdns.C55_any_counterexample"
   ],
   "note": "From the records of one daemon through packet and parser to the callbacks of another. For names below a common top label, a frame size up to 1300 and queries for a particular type; queries of type ANY are not told of new records."
  },
  {
   "property": "C56",
   "status": "proved",
   "theorems": [
    "Mdns.C56_raw_data_limit"
   ],
   "note": ""
  },
  {
   "property": "C57",
   "status": "proved",
   "theorems": [
    "Mdns.C57_settles"
   ],
   "note": "For records that fit in an empty packet and no pending service enumeration; up means mdnsd_shutdown was not called."
  },
  {
   "property": "C58",
   "status": "partial",
   "theorems": [
    "Mdns.C58_supplements_sent_partial",
    "Mdns.C58_crowded_counterexample",
    "Mdns.C58_parting_counterexample"
   ],
   "note": "for packets with up to 64 answers, when not shutting down; false otherwise: only the first 64 answers are supplemented (Mdns.C58_crowded_counterexample), and goodbye packets are not supplemented (Mdns.C58_parting_counterexample)"
  },
  {
   "property": "C59",
   "status": "proved",
   "theorems": [
    "Mdns.C59_entries"
   ],
   "note": ""
  },
  {
   "property": "C60",
   "status": "proved",
   "theorems": [
    "Mdns.SdTxt.C60_txt_values",
    "Mdns.SdTxt.ValueOf.unique"
   ],
   "note": "For all byte strings and all keys that are not empty."
  },
  {
   "property": "C61",
   "status": "partial",
   "theorems": [
    "Mdns.C61_out_ends_partial",
    "Mdns.C61_step_ends_partial",
    "Mdns.C61_step_sound_partial",
    "Mdns.C61_expiry_counterexample"
   ],
   "note": "For callbacks that do not end a query while its entry expires (C28), datagrams that do not make the parser leave the receive buffer (C06), and a clock whose seconds do not go back. At most nine packets with records per record, plus one per unicast answer. Counterexample: with a callback that ends its query on expiry the step uses freed memory, whatever time it is given."
  },
  {
   "property": "C62",
   "status": "partial",
   "theorems": [
    "Mdns.C62_one_by_one_partial",
    "Mdns.C62_grouping_partial",
    "Mdns.C62_built_datagrams",
    "Mdns.C62_grouping_counterexample"
   ],
   "note": "For non-empty datagrams of at most 65535 bytes whose parse does not run past their end; these include what the message builder makes. A datagram that ends early is completed with bytes of an earlier one."
  },
  {
   "property": "C63",
   "status": "partial",
   "theorems": [
    "Mdns.Conf.C63_advertised_partial",
    "Mdns.Conf.C63_addresses_partial",
    "Mdns.Conf.C63_txt_partial",
    "Mdns.Conf.C63_keeps_others",
    "Mdns.Conf.C63_files_partial",
    "Mdns.Conf.C63_collision_counterexample",
    "Mdns.Conf.C63_empty_key_counterexample"
   ],
   "note": "For names of at most 255 characters, if nothing but addresses is being withdrawn, and if no record without a name as data shares the hash chain of a type that has a service already: else the second service of the type is not published. TXT lines with an empty key are excluded; one hides the others."
  },
  {
   "property": "C64",
   "status": "partial",
   "theorems": [
    "Mdns.Conf.C64_stays_partial",
    "Mdns.Conf.C64_moved_partial",
    "Mdns.Conf.C64_single",
    "Mdns.Conf.C64_again_partial",
    "Mdns.Conf.C64_twice_partial",
    "Mdns.Conf.C64_readdressed_partial",
    "Mdns.C38_withdrawn_counterexample"
   ],
   "note": "For every daemon whose records come from service files (others may have several SRV records of an instance), names that fit, and addresses of which none is being withdrawn: these are lost, see C38_withdrawn_counterexample."
  },
  {
   "property": "C65",
   "status": "proved",
   "theorems": [
    "Mdns.C65_all_freed"
   ],
   "note": ""
  },
  {
   "property": "C66",
   "status": "partial",
   "theorems": [
    "Mdns.MainLoop.C66_waits_partial",
    "Mdns.MainLoop.C66_rescans",
    "Mdns.MainLoop.C66_fraction_counterexample",
    "Mdns.MainLoop.C66_reload_counterexample"
   ],
   "note": "Up to one second longer than asked for, as only seconds are compared and the fraction of an earlier round is kept; after the configuration has been read again the time that was left. Witnesses are proved."
  },
  {
   "property": "C67",
   "status": "partial",
   "theorems": [
    "Mdns.C67_asked_found_partial",
    "Mdns.C67_labels_counterexample"
   ],
   "note": "For names below a common top label, question packets up to 1400 bytes, frames up to 1300 bytes, records that fit in a packet, and questions other than the enumeration of services; the query told is one for the type of the record. Counterexample for names without a common top label: queries for b., b.a.c. and a.c. make a packet that asks for b.a.c. twice, and the daemon holding b. has nothing to say."
  },
  {
   "property": "C68",
   "status": "partial",
   "theorems": [
    "Mdns.C68_waiting_sent_partial",
    "Mdns.C68_answered_partial",
    "Mdns.C68_found_partial",
    "Mdns.C68_enumeration_counterexample"
   ],
   "note": "For records that fit in a packet, questions other than the enumeration of services, and callbacks that do not end a query when a record expires. Shared records are answered in the same step only if it sends at least 119 microseconds after receiving. Counterexample: a packet that asks for the enumeration of services and then for an address is not answered with the address by the step."
  },
  {
   "property": "C69",
   "status": "partial",
   "theorems": [
    "Mdns.C69_held_back_partial",
    "Mdns.C69_milliseconds_counterexample"
   ],
   "note": "The pause is 20 to 119 microseconds, not milliseconds: an answer 200 microseconds after the question is proved to be possible. Before 20 microseconds are over the record is in no packet for everyone."
  },
  {
   "property": "C70",
   "status": "partial",
   "theorems": [
    "Mdns.Proc.C70_released_partial",
    "Mdns.Proc.C70_held_partial",
    "Mdns.Proc.C70_numbers_partial",
    "Mdns.Proc.C70_zero_address_counterexample",
    "Mdns.Proc.C70_large_counterexample"
   ],
   "note": "For lists of interfaces without the addresses 0.0.0.0 and ::, with which reading the configuration again is proved to use a missing context. Descriptors fit select if the system numbers them densely and there are fewer than about 500 interfaces; a witness shows the failure otherwise."
  },
  {
   "property": "C71",
   "status": "partial",
   "theorems": [
    "Mdns.Proc.C71_given_up_partial",
    "Mdns.Proc.C71_back_partial",
    "Mdns.Proc.C71_ipv6_counterexample"
   ],
   "note": "As C70; coming back requires that sockets and memory can be had (otherwise the daemon exits). IPv6 alone does not come back while the addresses stay the same: a witness is proved."
  },
  {
   "property": "C72",
   "status": "partial",
   "theorems": [
    "Mdns.C72_goodbyes_partial",
    "Mdns.C72_silent_partial",
    "Mdns.C72_refused_counterexample",
    "Mdns.C72_early_counterexample"
   ],
   "note": "For a daemon that has announced its records, whose socket takes the packets and whose records fit a packet. If the socket refuses a packet the goodbyes after it are lost, and leaving while records are announced uses freed memory: witnesses are proved."
  },
  {
   "property": "C73",
   "status": "partial",
   "theorems": [
    "Mdns.Mquery.C73_table_partial",
    "Mdns.Mquery.C73_found_partial",
    "Mdns.Mquery.C73_detail_partial",
    "Mdns.Mquery.C73_newline_counterexample",
    "Mdns.Mquery.C73_dotted_counterexample"
   ],
   "note": "For names and texts without newline, which is proved to forge lines otherwise. At most eight addresses per host are kept (C54). The service type is right for instance names without dot; a witness shows a wrong one otherwise."
  },
  {
   "property": "C74",
   "status": "partial",
   "theorems": [
    "Mdns.Mquery.C74_selected_partial",
    "Mdns.Mquery.C74_detail_partial",
    "Mdns.Mquery.C74_case_counterexample"
   ],
   "note": "Letter case matters, although it does not in host names: a witness is proved. Names without newline for the printed text."
  },
  {
   "property": "C75",
   "status": "partial",
   "theorems": [
    "Mdns.Mquery.C75_waits_partial",
    "Mdns.Mquery.C75_quiet_partial",
    "Mdns.Mquery.C75_not_early",
    "Mdns.Mquery.C75_ends_partial",
    "Mdns.Mquery.C75_freed",
    "Mdns.Mquery.C75_sleeps_counterexample",
    "Mdns.Mquery.C75_silent_counterexample"
   ],
   "note": "With -w the bound needs -T as well: without it an unanswered mquery -w 30 is proved to end after a day. With -T alone it never ends if nothing is ever received. Datagrams must not make the parser leave the receive buffer (C06), callbacks must not end a query while its entry expires (C28; those of mquery do not)."
  },
  {
   "property": "C76",
   "status": "proved",
   "theorems": [
    "Mdns.C76_bounded",
    "Mdns.C76_provoked",
    "Mdns.C76_unprovoked"
   ],
   "note": "Packets with records are counted; packets that ask questions for the queries of the program are C26. The renewal of records is counted as one packet for every record each time the time to wait is asked for."
  },
  {
   "property": "C77",
   "status": "partial",
   "theorems": [
    "Mdns.Conf.C77_reload_partial",
    "Mdns.Conf.C77_probed_again",
    "Mdns.Conf.C77_said",
    "Mdns.Conf.C77_advertised_partial",
    "Mdns.Conf.C77_goodbye_counterexample"
   ],
   "note": "False in one respect: nobody is told that a service is gone (C77_goodbye_counterexample: nothing with its records is sent after the reload). Otherwise for files without an empty line (C51), and, that all services are advertised, without the collision of C63 and with names that fit."
  },
  {
   "property": "C78",
   "status": "proved",
   "theorems": [
    "Mdns.C78_responses",
    "Mdns.C78_responses_idle",
    "Mdns.C78_network",
    "Mdns.C78_silence"
   ],
   "note": "For daemons run by mdnsd_step from any reachable state, all on port 5353, a network that delivers each query at most once to each host (responses may be repeated and forged at will)."
  },
  {
   "property": "C79",
   "status": "partial",
   "theorems": [
    "Mdns.C79_withdrawn_partial",
    "Mdns.C79_left_partial",
    "Mdns.C20_any_counterexample",
    "Mdns.C72_refused_counterexample"
   ],
   "note": "For records that were set and are not being probed, names below a common top label, and a receiving host where no query of type ANY for the name has ended (C20_any_counterexample: then nobody is told) and no callback ends its query because of another record that goes. Leaving: with the conditions of C72 (a refused packet is not repeated)."
  },
  {
   "property": "C80",
   "status": "proved",
   "theorems": [
    "Mdns.C80_reported",
    "Mdns.C80_listed"
   ],
   "note": "The lifetime is counted as the code does: half of what the answer says and 8 seconds, from when it was received; 0 for a record that goes away."
  },
  {
   "property": "C81",
   "status": "partial",
   "theorems": [
    "Mdns.Mquery.C81_devices",
    "Mdns.Mquery.C81_services",
    "Mdns.Mquery.C81_asks",
    "Mdns.Mquery.C81_follows",
    "Mdns.Mquery.C81_shown_partial",
    "Mdns.Mquery.C81_missed_counterexample"
   ],
   "note": "That only received data is listed and only for known names is asked holds without condition. An address is listed if it was asked for before it arrived and was not in the cache; a record that arrives earlier is never listed, even if repeated (C81_missed_counterexample)."
  },
  {
   "property": "C82",
   "status": "partial",
   "theorems": [
    "Mdns.Mquery.C82_lines",
    "Mdns.Mquery.C82_described",
    "Mdns.Mquery.C82_follows",
    "Mdns.Mquery.C82_shown_partial",
    "Mdns.Mquery.C82_missed_counterexample",
    "Mdns.Mquery.C82_gone_counterexample",
    "Mdns.Mquery.C82_seconds_counterexample"
   ],
   "note": "That only received data is printed holds for all senders but 0.0.0.0. The seconds are half of those sent and 8 (C82_seconds_counterexample: 120 seconds are shown as 68), a service that goes is printed like one that comes (C82_gone_counterexample), and a service whose pointer arrives before that of its type is not printed (C82_missed_counterexample)."
  },
  {
   "property": "C83",
   "status": "partial",
   "theorems": [
    "Mdns.C83_again_partial",
    "Mdns.C83_late_counterexample",
    "Mdns.C83_shorter_counterexample"
   ],
   "note": "Holds if all lifetimes received for the question are the same and no answer arrives later than three seconds after the third question when none is known. Otherwise not: a record that appears later is never asked for (C83_late_counterexample), and one with a shorter lifetime not in time (C83_shorter_counterexample)."
  },
  {
   "property": "C84",
   "status": "partial",
   "theorems": [
    "Mdns.C84_stays_partial",
    "Mdns.C84_shorter_counterexample"
   ],
   "note": "Holds, for every lifetime, if the answers to the question all have the same one; the answers must come within two seconds, and mdnsd_out must be called until idle at least every other second. When the record is received again with a shorter lifetime it may be lost although every question is answered (C84_shorter_counterexample)."
  },
  {
   "property": "C85",
   "status": "partial",
   "theorems": [
    "Mdns.Sig.C85_reloads_partial",
    "Mdns.Sig.C85_lost_counterexample"
   ],
   "note": "Holds if no reload is in progress when the signal arrives. The flag is reset only after the configuration has been read, so that a signal which arrives in between is lost (C85_lost_counterexample). How long the wait is: C66."
  },
  {
   "property": "C86",
   "status": "proved",
   "theorems": [
    "Mdns.Sig.C86_ends",
    "Mdns.Sig.C86_goes_on"
   ],
   "note": "The functions called by the main loop are taken to return (C61, C75); how long the wait is: C66."
  },
  {
   "property": "C87",
   "status": "partial",
   "theorems": [
    "Mdns.C87_known_partial",
    "Mdns.C67_labels_counterexample",
    "Mdns.C68_enumeration_counterexample",
    "Mdns.C84_shorter_counterexample"
   ],
   "note": "From four seconds after the query on, for two daemons that are connected (every question reaches a step of the publishing daemon, its packets arrive within two seconds). Assumes what C68 and C84 assume: names below a common top label and in canonical form, packets of at most 1400 bytes, no service enumeration in the same packet, the same lifetime in all answers to the question, and shared records sent at least 119 microseconds after the question. The counterexamples are those of C67, C68 and C84 for the common top label, the service enumeration and the lifetimes."
  },
  {
   "property": "C88",
   "status": "partial",
   "theorems": [
    "Mdns.C88_exact_partial",
    "Mdns.C88_told_listed_partial",
    "Mdns.C88_listed_told_partial",
    "Mdns.C88_learned_partial",
    "Mdns.C88_cached_counterexample",
    "Mdns.C88_any_counterexample"
   ],
   "note": "Holds for queries made when nothing of the name and type is cached, if no query of type 255 is ever made for the name. A record cached before the query is never told as long as it is renewed (C88_cached_counterexample); a query of type 255 takes over the reports (C88_any_counterexample). C88_learned_partial: with C87, what another daemon has published is told to the program."
  },
  {
   "property": "C89",
   "status": "proved",
   "theorems": [
    "Mdns.Net.C89_ready",
    "Mdns.Net.C89_together",
    "Mdns.Net.C89_link",
    "Mdns.Net.C89_own",
    "Mdns.Net.C89_group",
    "Mdns.Net.C89_refused",
    "Mdns.Net.C89_hops",
    "Mdns.Net.C89_default_counterexample",
    "Mdns.Net.C89_deaf_counterexample",
    "Mdns.Net.C89_foreign_counterexample"
   ],
   "note": "What the options mean to the system is a specification of its own (Spec/Sockets.lean) and is trusted. That other interfaces are not heard needs SO_BINDTODEVICE, or IP_MULTICAST_ALL (IPv4 only, C89_group). Witnesses beside it: without -t the hop limit is 255 and not 1 as the usage text says; a socket is returned although the group could not be joined; an IPv6 socket that may not be bound to its device hears other interfaces."
  },
  {
   "property": "C90",
   "status": "partial",
   "theorems": [
    "Mdns.Pid.C90_written_partial",
    "Mdns.Pid.C90_failed",
    "Mdns.Pid.C90_removed",
    "Mdns.Pid.C90_child",
    "Mdns.Pid.C90_other_counterexample",
    "Mdns.Pid.C90_theft_counterexample"
   ],
   "note": "Holds as long as nobody else writes the file. A second daemon overwrites it, which the first does not notice (C90_other_counterexample), and the first removes the file of the second when it ends (C90_theft_counterexample)."
  },
  {
   "property": "C91",
   "status": "partial",
   "theorems": [
    "Mdns.Hex.C91_printed_partial",
    "Mdns.Hex.C91_text_counterexample"
   ],
   "note": "All bytes are printed; the text of the last line is missing if the length is a multiple of sixteen (C91_text_counterexample)."
  },
  {
   "property": "C92",
   "status": "proved",
   "theorems": [
    "Mdns.C92_lasts",
    "Mdns.C92_reported_only"
   ],
   "note": "What the program itself does to a record is the small function Op.disturbs."
  },
  {
   "property": "C93",
   "status": "partial",
   "theorems": [
    "Mdns.Opt.C93_started",
    "Mdns.Opt.C93_understood",
    "Mdns.Opt.C93_ttl",
    "Mdns.Opt.C93_syslog_partial",
    "Mdns.Opt.C93_syslog_counterexample",
    "Mdns.Opt.C93_exit_counterexample",
    "Mdns.Opt.C93_number_counterexample",
    "Mdns.Opt.C93_default_counterexample",
    "Mdns.C93_type_counterexample",
    "Mdns.Opt.C93_query",
    "Mdns.Opt.C93_query_understood"
   ],
   "note": "getopt is that of glibc and is trusted. With -n twice, -s has no effect; unknown options and missing arguments end with exit code 0; numbers are read with atoi, so anything that begins with a number is one; mquery takes any number for a type."
  },
  {
   "property": "C94",
   "status": "partial",
   "theorems": [
    "Mdns.C94_nothing_partial",
    "Mdns.C94_flush_counterexample"
   ],
   "note": "The function is empty: nothing is flushed. Nothing of the property holds."
  },
  {
   "property": "C95",
   "status": "partial",
   "theorems": [
    "Mdns.Route.C95_given",
    "Mdns.Route.C95_first_partial",
    "Mdns.Route.C95_wanted_partial",
    "Mdns.Route.C95_tunnel_counterexample"
   ],
   "note": "Tunnels are not skipped. Reading the lines of the table (sscanf) is trusted."
  },
  {
   "property": "C96",
   "status": "partial",
   "theorems": [
    "Mdns.C96_enough",
    "Mdns.C96_packet_partial",
    "Mdns.C96_sound_partial",
    "Mdns.C96_effect_partial",
    "Mdns.C96_states_partial",
    "Mdns.C96_nameless_counterexample",
    "Mdns.C96_host_counterexample",
    "Mdns.C96_addresses",
    "Mdns.C96_addresses_counterexample",
    "Mdns.C96_raw",
    "Mdns.C96_raw_counterexample"
   ],
   "note": "C96_sound_partial: all calls stay defined whatever failed before, if the strdup of names in received data, which is not checked, succeeds. C96_effect_partial and C96_states_partial: failing calls do nothing or what some call with enough memory does, so that no new states arise; without a receive callback (which is told the packet as it is) and without mdnsd_set_host. False where results are not checked: names of received records, mdnsd_set_host, mdnsd_set_raw (length kept without data), the arrays of mdnsd_set_interface_addresses."
  },
  {
   "property": "C97",
   "status": "partial",
   "theorems": [
    "Mdns.Glob.C97_directory_partial",
    "Mdns.Glob.C97_services_partial",
    "Mdns.Glob.C97_advertised_partial",
    "Mdns.Glob.C97_file",
    "Mdns.Glob.C97_missing",
    "Mdns.Glob.C97_background_partial",
    "Mdns.Glob.C97_pattern_fits",
    "Mdns.Glob.C97_special_counterexample",
    "Mdns.Glob.C97_tilde_counterexample",
    "Mdns.Glob.C97_relative_counterexample",
    "Mdns.Glob.C97_folder_counterexample"
   ],
   "note": "Holds for paths from the root without characters that mean something in a pattern. Others are taken for patterns: files of another directory are loaded (C97_special_counterexample, C97_tilde_counterexample). In the background the current directory is the root, so that relative paths are not found (C97_relative_counterexample). A directory named like a service file is published as a web server (C97_folder_counterexample)."
  },
  {
   "property": "C98",
   "status": "proved",
   "theorems": [
    "Mdns.C98_rounds",
    "Mdns.C98_rate"
   ],
   "note": "For every history of calls with a clock that is not set back; the times are those of the packets handed to the caller."
  },
  {
   "property": "C99",
   "status": "proved",
   "theorems": [
    "Mdns.Received.C99_intact",
    "Mdns.Received.C99_structures"
   ],
   "note": "The parser with pointers into the block, read back at the end, against the parser that gives values; for any bytes in the structures. The stores of one label are taken as one at its end."
  }
 ]
}