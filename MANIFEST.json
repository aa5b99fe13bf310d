{
 "claims": [
  {
   "property": "C01",
   "status": "proved",
   "theorems": [
    "Verif.Enc.C01_base64_is_rfc4648",
    "Verif.Enc.C01_base64_roundtrip",
    "Verif.Enc.C01_base64_shape",
    "Verif.Enc.C01_base64_injective",
    "Verif.Enc.C01_base64_stops"
   ],
   "note": "Inputs up to 2^32-1 bytes as in the code (unsigned int length)."
  },
  {
   "property": "C02",
   "status": "proved",
   "theorems": [
    "Verif.Enc.C02_hex_roundtrip",
    "Verif.Enc.C02_hex_shape",
    "Verif.Enc.C02_hex_odd_is_undefined"
   ],
   "note": "Odd-length text is a buffer overrun in the code, shown separately."
  },
  {
   "property": "C03",
   "status": "proved",
   "theorems": [
    "Verif.Enc.C03_url_roundtrip",
    "Verif.Enc.C03_url_safe",
    "Verif.Enc.C03_url_exempting_percent_fails"
   ],
   "note": "Side conditions on the exempted characters are necessary (shown)."
  },
  {
   "property": "C04",
   "status": "proved",
   "theorems": [
    "Verif.Query.C04_parse_spec",
    "Verif.Query.C04_query_roundtrip",
    "Verif.Query.C04_question_mark",
    "Verif.Query.C04_empty_name_lost"
   ],
   "note": "Separator \"&\"; the general effect of parsing any string is characterised too."
  },
  {
   "property": "C05",
   "status": "partial",
   "theorems": [
    "Verif.Bit.C05_store_frame",
    "Verif.Bit.C05_load_store",
    "Verif.Bit.C05_load_elsewhere",
    "Verif.Bit.C05_float_roundtrip",
    "Verif.Bit.C05_double_roundtrip_partial",
    "Verif.Bit.C05_double_roundtrip_fails",
    "Verif.Bit.C05_getMSB_aligned",
    "Verif.Bit.C05_getMSB_low_bits",
    "Verif.Bit.C05_getMSB_unaligned_fails"
   ],
   "note": "All integer codecs proved. Doubles: the code stores only the low 32 bits (htobd), negation proved. getMSB at unaligned offsets returns extra bits, negation proved."
  },
  {
   "property": "C06",
   "status": "proved",
   "theorems": [
    "Verif.Ebml.C06_uniint_roundtrip",
    "Verif.Ebml.C06_uniint_minimal",
    "Verif.Ebml.C06_uniint_prefix_free",
    "Verif.Ebml.C06_uniint_unknown",
    "Verif.Ebml.C06_signed_bias",
    "Verif.Ebml.C06_uniint_trailing"
   ],
   "note": ""
  },
  {
   "property": "C07",
   "status": "partial",
   "theorems": [
    "Verif.Ebml.C07_announced_size_partial",
    "Verif.Ebml.C07_skip_lands_on_next",
    "Verif.Ebml.C07_seek_fails",
    "Verif.Ebml.C07_info_date_fails",
    "Verif.Ebml.C07_ident_fails",
    "Verif.Ebml.C07_long_name_fails"
   ],
   "note": "False for seek entries of some ids, ids >= 2^56-1, names/doctypes longer than 126 bytes and the date 2001-01-01; each negation proved with a witness."
  },
  {
   "property": "C08",
   "status": "partial",
   "theorems": [
    "Verif.Ebml.C08_uint_roundtrip",
    "Verif.Ebml.C08_int_roundtrip_partial",
    "Verif.Ebml.C08_int_large",
    "Verif.Ebml.C08_int_fails",
    "Verif.Ebml.C08_float_roundtrip",
    "Verif.Ebml.C08_double_fails",
    "Verif.Ebml.C08_str_roundtrip",
    "Verif.Ebml.C08_str_trimmed",
    "Verif.Ebml.C08_block_roundtrip"
   ],
   "note": "Unsigned, float, string, block payloads proved. Signed: false for e.g. 128, partial theorem states exactly when it holds. Doubles: false (htobd)."
  },
  {
   "property": "C09",
   "status": "proved",
   "theorems": [
    "Verif.BitStream.C09_layout",
    "Verif.BitStream.C09_fields_roundtrip",
    "Verif.BitStream.C09_get",
    "Verif.BitStream.C09_flush"
   ],
   "note": ""
  },
  {
   "property": "C10",
   "status": "proved",
   "theorems": [
    "Verif.BitStream.C10_roundtrip",
    "Verif.BitStream.C10_read_anywhere",
    "Verif.BitStream.C10_announced_size",
    "Verif.BitStream.C10_bits_used",
    "Verif.BitStream.C10_prefix_free",
    "Verif.BitStream.C10_limit"
   ],
   "note": "Unsigned values up to 2^33-2 (65-bit codes), signed below 2^32 in magnitude; beyond that the writer overruns its scratch buffer (C10_limit)."
  },
  {
   "property": "C11",
   "status": "proved",
   "theorems": [
    "Verif.Nal.C11_fromAnnexB",
    "Verif.Nal.C11_toAnnexB",
    "Verif.Nal.C11_roundtrip",
    "Verif.Nal.C11_toAnnexB_size",
    "Verif.Nal.C11_sizes",
    "Verif.Nal.C11_scan",
    "Verif.Nal.C11_scan_first"
   ],
   "note": "Stronger than stated: units may be empty or end in zero bytes behind 4-byte start codes."
  },
  {
   "property": "C12",
   "status": "proved",
   "theorems": [
    "Verif.Amf.C12_roundtrip",
    "Verif.Amf.C12_message",
    "Verif.Amf.C12_empty_name_fails",
    "Verif.Amf.C12_typed_object_fails"
   ],
   "note": "Values up to 2^32-16 bytes. Empty member names and typed objects do not survive (negations proved)."
  },
  {
   "property": "C13",
   "status": "partial",
   "theorems": [
    "Verif.Amf.C13_fails_truncated_bool",
    "Verif.Amf.C13_fails_truncated_string",
    "Verif.Amf.C13_fails_long_string_overflow",
    "Verif.Amf.C13_strict_array_amplification",
    "Verif.Amf.C13_partial"
   ],
   "note": "False of the code: truncated bool/string/reference headers, overflow of the long string bounds check and typed objects read outside the input (witnesses proved). C13_partial: safe on every input without those hazards."
  },
  {
   "property": "C14",
   "status": "partial",
   "theorems": [
    "Verif.Websocket.C14_decode_partial",
    "Verif.Websocket.C14_prefix_partial",
    "Verif.Websocket.C14_send",
    "Verif.Websocket.C14_roundtrip_partial",
    "Verif.Websocket.C14_huge_fails",
    "Verif.Websocket.C14_huge_masked_fails",
    "Verif.Websocket.C14_late_bytes_partial"
   ],
   "note": "Frames below 2^32 bytes on the wire; above that the 64-bit length is truncated in the availability check (C14_huge_fails, C14_huge_masked_fails: out-of-bounds write)."
  },
  {
   "property": "C15",
   "status": "partial",
   "theorems": [
    "Verif.Websocket.C15_message_partial",
    "Verif.Websocket.C15_sequence_partial",
    "Verif.Websocket.C15_fails"
   ],
   "note": "Any fragmentation and masking, control frames between messages. Control frames between fragments destroy the message (C15_fails)."
  },
  {
   "property": "C16",
   "status": "proved",
   "theorems": [
    "Verif.SockBuf.C16_queue",
    "Verif.SockBuf.C16_cut_independent",
    "Verif.SockBuf.C16_get",
    "Verif.SockBuf.C16_bytesToSplit",
    "Verif.SockBuf.C16_first_line",
    "Verif.SockBuf.C16_limit"
   ],
   "note": "Byte counts and contents below 2^32 (C16_limit shows the bound is needed); available(0) on an empty buffer is false and specified so."
  },
  {
   "property": "C17",
   "status": "partial",
   "theorems": [
    "Verif.Rax.C17_history_partial",
    "Verif.Rax.C17_in_bounds",
    "Verif.Rax.C17_overfull_fails",
    "Verif.Rax.C17_int24_fails"
   ],
   "note": "Legal histories (adds that fit). Adding to a full table is not refused: C17_overfull_fails. Signed 24-bit fields lose the sign: C17_int24_fails."
  },
  {
   "property": "C18",
   "status": "partial",
   "theorems": [
    "Verif.Rtmp.C18_packetisation",
    "Verif.Rtmp.C18_session_partial",
    "Verif.Rtmp.C18_session_exact_partial",
    "Verif.Rtmp.C18_last_byte_fails",
    "Verif.Rtmp.C18_repeat_fails",
    "Verif.Rtmp.C18_gap_fails",
    "Verif.Rtmp.C18_month_fails",
    "Verif.Rtmp.C18_shared_object_fails"
   ],
   "note": "Any cutting of any bytes into arrivals gives the same messages (full). Round trip through both writers for whole sessions, with media frames, commands, erased entries and chunk size changes. Not covered because false (see the _fails theorems): gaps of 0xffffff ms or more, times from 2^31 ms, repeated time/type/length of media frames, a chunk object shared between chunk streams, the last message when its last piece is one byte."
  },
  {
   "property": "C19",
   "status": "partial",
   "theorems": [
    "Verif.Json.C19_partial",
    "Verif.Json.C19_structure",
    "Verif.Json.C19_fails"
   ],
   "note": "C19_partial: values of any nesting, with strings and keys that are UTF-8 text without U+0800..U+FFFF and integers above the smallest one. C19_structure: for any bytes in the strings the structure comes back unchanged. C19_fails: the euro sign, a byte that is not UTF-8 and the smallest 64-bit integer. Doubles are not part of the property; their rendering is a parameter."
  },
  {
   "property": "C20",
   "status": "proved",
   "theorems": [
    "Verif.Json.C20_quoted",
    "Verif.Json.C20_decoded"
   ],
   "note": "C20_quoted for every byte string against a strict RFC 8259 reader; C20_decoded: for UTF-8 text the peer reads exactly the UTF-16 units of the characters."
  },
  {
   "property": "C21",
   "status": "partial",
   "theorems": [
    "Verif.Json.C21_size_partial",
    "Verif.Json.C21_partial",
    "Verif.Json.C21_changed",
    "Verif.Json.C21_string_partial",
    "Verif.Json.C21_double_fails",
    "Verif.Json.C21_fails"
   ],
   "note": "C21_partial, C21_string_partial and C21_size_partial for values of any depth without doubles, booleans, unset values, empty containers and empty keys; C21_changed says exactly what the other values without doubles turn into. C21_double_fails (ten bytes instead of nine, half of the pattern lost) and C21_fails (booleans, empty containers, empty keys) refute the full claim."
  },
  {
   "property": "C22",
   "status": "proved",
   "theorems": [
    "Verif.Ts.C22_packet",
    "Verif.Ts.C22_frame"
   ],
   "note": "Any frame in any pieces; stuffing included. The tables themselves (PAT/PMT) are not modelled."
  },
  {
   "property": "C23",
   "status": "proved",
   "theorems": [
    "Verif.Ts.C23_stamp",
    "Verif.Ts.C23_milliseconds"
   ],
   "note": ""
  },
  {
   "property": "C24",
   "status": "partial",
   "theorems": [
    "Verif.Ts.C24_written",
    "Verif.Ts.C24_read_partial",
    "Verif.Ts.C24_extension_fails",
    "Verif.Ts.C24_late_fails"
   ],
   "note": "The clock written is the right one for every value. Reading back is right only for multiples of 300 below 2^31*300 (C24_read_partial); base and extension are or-ed (C24_extension_fails) and the base overflows 32 bits (C24_late_fails)."
  },
  {
   "property": "C25",
   "status": "partial",
   "theorems": [
    "Verif.Crc.C25_incremental",
    "Verif.Crc.C25_crc32c",
    "Verif.Crc.C25_crc32",
    "Verif.Crc.C25_crc32LE",
    "Verif.Crc.C25_crc16_partial",
    "Verif.Crc.C25_crc8",
    "Verif.Crc.C25_crc8_byte",
    "Verif.Crc.C25_crc16_fails",
    "Verif.Crc.C25_unique",
    "Verif.Crc.C25_crc32c_residue",
    "Verif.Crc.C25_crc32_residue",
    "Verif.Crc.C25_crc32LE_residue",
    "Verif.Crc.C25_crc8_residue",
    "Verif.Crc.C25_burst",
    "Verif.Crc.C25_burst_lsb"
   ],
   "note": "crc32c, crc32, crc32LE and crc8 are the polynomial remainders, verify to zero and notice every burst up to their width. crc16 is the remainder only in its low 16 bits (C25_crc16_partial): the code never cuts the register to 16 bits (C25_crc16_fails)."
  },
  {
   "property": "C26",
   "status": "partial",
   "theorems": [
    "Verif.Rtp.C26_safe",
    "Verif.Rtp.C26_moves_on",
    "Verif.Rtp.C26_requests",
    "Verif.Rtp.C26_consecutive",
    "Verif.Rtp.C26_reordered",
    "Verif.Rtp.C26_in_order",
    "Verif.Rtp.C26_wrap_fails",
    "Verif.Rtp.C26_short_fails",
    "Verif.Rtp.C26_skip_fails",
    "Verif.Rtp.C26_stale_fails"
   ],
   "note": "Safety for all arrivals within 32762 consecutive packets; exact in-order delivery for streams of any length whose reordering stays below the drop timeout. False without these: streams starting at the 16-bit boundary, streams of up to five packets, packets skipped together with lost ones, and skipped packets that come out 65536 packets later (the _fails theorems)."
  },
  {
   "property": "C27",
   "status": "partial",
   "theorems": [
    "Verif.Rtp.C27_new_sender",
    "Verif.Rtp.C27_vp8",
    "Verif.Rtp.C27_vp9",
    "Verif.Rtp.C27_vp9_key",
    "Verif.Rtp.C27_h264_single",
    "Verif.Rtp.C27_h264_partial",
    "Verif.Rtp.C27_h264_fails",
    "Verif.Rtp.C27_h265_single",
    "Verif.Rtp.C27_h265_partial",
    "Verif.Rtp.C27_h265_fails",
    "Verif.Rtp.C27_mtu_fails"
   ],
   "note": "VP8 and VP9 frames of any size and H264/H265 units that fit one packet: full. Larger H264 and H265 units are sent with one and two bytes of foreign memory behind them (C27_h264_partial, C27_h265_partial, C27_h264_fails, C27_h265_fails); the largest packets exceed a 1500 byte MTU (C27_mtu_fails)."
  },
  {
   "property": "C28",
   "status": "partial",
   "theorems": [
    "Verif.Rtp.C28_header_partial",
    "Verif.Rtp.C28_fields",
    "Verif.Rtp.C28_fails"
   ],
   "note": "All headers with an even number of contributing sources; for odd numbers the mask 0xE loses one (C28_fails)."
  },
  {
   "property": "C29",
   "status": "partial",
   "theorems": [
    "Verif.Dtsc.C29_history_partial",
    "Verif.Dtsc.C29_empty_fails",
    "Verif.Dtsc.C29_null_fails",
    "Verif.Dtsc.C29_grow_unfilled_fails",
    "Verif.Dtsc.C29_grow_empty_fails",
    "Verif.Dtsc.C29_setKeyFrame_fails"
   ],
   "note": "C29_history_partial: fill from any fields, then any sequence of appends, NAL units, growing NAL units, key and time changes below 2^32 bytes; all accessors, the length field, the predicted size, and taking the packet over from memory. Missing: an empty string of data makes no packet (C29_empty_fails), a null pointer with a length is read (C29_null_fails), growing a NAL unit in an unfilled or empty packet (C29_grow_*_fails), endless loop on unknown members (C29_setKeyFrame_fails)."
  },
  {
   "property": "C30",
   "status": "partial",
   "theorems": [
    "Verif.Index.C30_index_describes_packets_partial",
    "Verif.Index.C30_no_crash_partial",
    "Verif.Index.C30_long_gap_fails",
    "Verif.Index.C30_turn_fails"
   ],
   "note": "Proved for every history of packets and removals, of any length below 2^32 packets, with gaps below 65536 ms between accepted packets; the index then equals the specified division. Gaps of 65536 ms or more give wrong packet durations (C30_long_gap_fails); fragments whose length is a multiple of 2^32 ms crash the process (C30_turn_fails)."
  },
  {
   "property": "C31",
   "status": "partial",
   "theorems": [
    "Verif.Index.C31_remove_first_key_partial",
    "Verif.Index.C31_single_fragment_fails"
   ],
   "note": "Proved in every reachable state with at least two fragments offered. With one fragment the second removal ends the process (C31_single_fragment_fails). Data pages and concurrent access are not modelled here."
  },
  {
   "property": "C32",
   "status": "partial",
   "theorems": [
    "Verif.Index.C32_eviction_keeps_enough_partial",
    "Verif.Index.C32_long_fragment_fails"
   ],
   "note": "Proved in every reachable state of a stream of less than 2^32 ms: one run keeps the buffer time, at least eight whole fragments and the current one, and a key; the run equals a number of removals, so it applies again afterwards. A fragment of 49 days or more defeats the check (C32_long_fragment_fails). Not modelled: removal of whole tracks, data pages, tracks with embedded frames."
  },
  {
   "property": "C33",
   "status": "partial",
   "theorems": [
    "Verif.Dtsc.C33_header_length_partial",
    "Verif.Dtsc.C33_empty_selection_fails",
    "Verif.Dtsc.C33_no_packets_fails"
   ],
   "note": "Announced length proved equal to the bytes written for every stream with a non-empty selection of tracks that hold packets. An empty selection and a track without packets announce a wrong length (C33_empty_selection_fails, C33_no_packets_fails)."
  },
  {
   "property": "C34",
   "status": "partial",
   "theorems": [
    "Verif.Index.C34_key_for_time_partial",
    "Verif.Index.C34_packet_for_time_partial",
    "Verif.Index.C34_fragment_for_time",
    "Verif.Index.C34_key_number_for_time",
    "Verif.Index.C34_key_number_after_end",
    "Verif.Index.C34_index_for_time",
    "Verif.Index.C34_time_of_packet_partial",
    "Verif.Index.C34_histories_consistent",
    "Verif.Index.C34_last_packet_fails",
    "Verif.Index.C34_time_of_packet_fails"
   ],
   "note": "Key, packet, fragment and key-number lookups proved for every consistent index with distinct packet times. The key and packet lookups fail for the time of the last packet (C34_last_packet_fails) and the time of a packet is wrong after removals (C34_time_of_packet_fails)."
  },
  {
   "property": "C35",
   "status": "partial",
   "theorems": [
    "Verif.Shm.C35_exclusive",
    "Verif.Shm.C35_reuse",
    "Verif.Shm.C35_double_release_fails",
    "Verif.Shm.C35_release_lost_fails"
   ],
   "note": "Transition system: any number of clients and processes, every interleaving of single memory accesses and semaphore operations, process death at any point. Exclusivity (C35_exclusive) and reuse (C35_reuse) are proved for clients that release their record once. C35_double_release_fails: a client that sets the disconnect flag by hand and is destroyed later (input_ts.cpp 162) breaks exclusivity. C35_release_lost_fails: finishAll can overwrite a release. Sequential consistency assumed."
  },
  {
   "property": "C36",
   "status": "partial",
   "theorems": [
    "Verif.Shm.C36_exclusive",
    "Verif.Shm.C36_owner_only",
    "Verif.Shm.C36_claim",
    "Verif.Shm.C36_ignored_fails"
   ],
   "note": "Transition system of claimTrack, abandonTrack and addTrack under every interleaving: C36_exclusive, C36_owner_only, C36_claim for producers that heed the result of claimTrack. C36_ignored_fails: the real-time input ignores the result and can produce for a track someone else claimed."
  },
  {
   "property": "C37",
   "status": "partial",
   "theorems": [
    "Verif.Text.C37_plain_partial",
    "Verif.Text.C37_wildcard_partial",
    "Verif.Text.C37_sanitized_partial",
    "Verif.Text.C37_query_fails",
    "Verif.Text.C37_again_fails",
    "Verif.Text.C37_plus_after_query_fails"
   ],
   "note": "Full description of the result, character set, absence of ? and idempotence when the part before the first + or space has no ?. With a ? there everything before the last ? is left unsanitized (C37_query_fails), the result is not stable (C37_again_fails) and a + after the ? survives (C37_plus_after_query_fails)."
  },
  {
   "property": "C38",
   "status": "partial",
   "theorems": [
    "Verif.Url.C38_normal_partial",
    "Verif.Url.C38_local",
    "Verif.Url.C38_same_place",
    "Verif.Url.C38_encoded_fails"
   ],
   "note": "True for every URL without \"%\" (C38_normal_partial) and for every local URL (C38_local); normalising keeps the place denoted. False for encoded dots because the path is decoded after normalising (C38_encoded_fails)."
  },
  {
   "property": "C39",
   "status": "partial",
   "theorems": [
    "Verif.Text.C39_split_partial",
    "Verif.Text.C39_split_fails",
    "Verif.Text.C39_trim_partial",
    "Verif.Text.C39_trim_fails"
   ],
   "note": "Splitting is exact unless the string begins with the delimiter and has another one (C39_split_fails); trimming is exact unless the only non-space character is the first one (C39_trim_fails)."
  },
  {
   "property": "C40",
   "status": "partial",
   "theorems": [
    "Verif.Ip.C40_match_partial",
    "Verif.Ip.C40_v4_partial",
    "Verif.Ip.C40_exact",
    "Verif.Ip.C40_zero_fails",
    "Verif.Ip.C40_long_v4_fails",
    "Verif.Ip.C40_out_of_bounds_fails"
   ],
   "note": "Exact for prefixes 1..128 (IPv6) and 1..32 (IPv4) and for no prefix. Prefix 0 matches only the address itself, long IPv4 prefixes match everything, and prefixes from 144 on read out of bounds (_fails theorems)."
  },
  {
   "property": "C41",
   "status": "proved",
   "theorems": [
    "Verif.Http.C41_cuts",
    "Verif.Http.C41_chunked_any",
    "Verif.Http.C41_chunked",
    "Verif.Http.C41_next",
    "Verif.Http.C41_extension_fails"
   ],
   "note": "C41_cuts: for any bytes at all the message read and the bytes left do not depend on the cuts. C41_chunked (the server's own sender) and C41_chunked_any (any sender, any hexadecimal spelling of the sizes): body equals the concatenation of the chunks. C41_next: the terminating line left in the buffer does not disturb the next message. C41_extension_fails records that chunk extensions, which the server never sends, are not understood. Streams below 2^31 bytes."
  },
  {
   "property": "C42",
   "status": "partial",
   "theorems": [
    "Verif.Auth.C42_same",
    "Verif.Auth.C42_distinct_partial",
    "Verif.Auth.C42_fails"
   ],
   "note": "The text that is hashed is a concatenation without separators: C42_fails shows two viewers with different stream and token that share a session. C42_distinct_partial: the texts differ if at most one selected field has another length. C42_same: viewers that agree in the selected fields share the session. Collision freedom of SHA-256 is not provable."
  },
  {
   "property": "C43",
   "status": "proved",
   "theorems": [
    "Verif.Rtp.C43_recover",
    "Verif.Rtp.C43_stream",
    "Verif.Rtp.C43_protected",
    "Verif.Rtp.C43_settings",
    "Verif.Rtp.C43_size_fails"
   ],
   "note": "Streams of packets of one size, which is what the transport stream output sends (C43_size_fails shows the library needs it); rows and columns that the stream ends in the middle of have no parity packet yet."
  },
  {
   "property": "C44",
   "status": "proved",
   "theorems": [
    "Verif.Text.C44_replace",
    "Verif.Text.C44_replace_empty",
    "Verif.Text.C44_substitution",
    "Verif.Text.C44_variable",
    "Verif.Text.C44_pass"
   ],
   "note": "replace is characterised completely; substitution makes at most ten passes and stops early only when nothing is left to replace."
  },
  {
   "property": "C45",
   "status": "proved",
   "theorems": [
    "Verif.Nal.C45_emulation_prevention",
    "Verif.Nal.C45_escaped_is_clean",
    "Verif.Nal.C45_second_byte_zero_fails"
   ],
   "note": "The second-byte hypothesis is necessary (C45_second_byte_zero_fails)."
  },
  {
   "property": "C46",
   "status": "proved",
   "theorems": [
    "Verif.Rax.C46_self_describing",
    "Verif.Rax.C46_layout",
    "Verif.Rax.C46_lookup",
    "Verif.Rax.C46_refused",
    "Verif.Rax.C46_any_declarations"
   ],
   "note": ""
  },
  {
   "property": "C47",
   "status": "proved",
   "theorems": [
    "Verif.Text.C47_shell_split",
    "Verif.Text.C47_escaped"
   ],
   "note": "Any arguments, quoted or bare, any spacing."
  },
  {
   "property": "C48",
   "status": "partial",
   "theorems": [
    "Verif.Url.C48_roundtrip_partial",
    "Verif.Url.C48_port_partial",
    "Verif.Url.C48_file_fails",
    "Verif.Url.C48_default_ports"
   ],
   "note": "Network URLs with any credentials, query and fragment, IPv6 hosts and ports. False for file URLs (C48_file_fails); \"rist\" URLs and URLs without protocol are not covered."
  },
  {
   "property": "C49",
   "status": "partial",
   "theorems": [
    "Verif.Ts.C49_frames_partial",
    "Verif.Ts.C49_h26x",
    "Verif.Ts.C49_short_lengths_fails",
    "Verif.Ts.C49_wrap_fails",
    "Verif.Ts.C49_oversize_fails",
    "Verif.Ts.C49_drift_fails",
    "Verif.Ts.C49_duplicates"
   ],
   "note": "Whole sessions, any tracks, sizes, schedules, up to three clock wraps. False for frames straddling a wrap (C49_wrap_fails), after the fourth wrap (C49_drift_fails), for audio/metadata above 65527 bytes (C49_oversize_fails) and for NAL length sizes other than 4 (C49_short_lengths_fails)."
  },
  {
   "property": "C50",
   "status": "partial",
   "theorems": [
    "Verif.Rtp.C50_clock_partial",
    "Verif.Rtp.C50_fails",
    "Verif.Rtp.C50_start"
   ],
   "note": "Senders whose clock starts at its first packet and whose packets arrive within a quarter of the range, as long as no packet from before a wrap arrives after one from behind it (C50_fails)."
  },
  {
   "property": "C51",
   "status": "partial",
   "theorems": [
    "Verif.Rtp.C51_vp8_partial",
    "Verif.Rtp.C51_vp8_time_fails",
    "Verif.Rtp.C51_vp8_short_fails",
    "Verif.Rtp.C51_vp8_cut_fails",
    "Verif.Rtp.C51_wrap_fails",
    "Verif.Rtp.C51_vp8_wrap_fails",
    "Verif.Rtp.C51_vp9_fails",
    "Verif.Rtp.C51_h264_single",
    "Verif.Rtp.C51_h264_partial",
    "Verif.Rtp.C51_h265_single",
    "Verif.Rtp.C51_h265_partial",
    "Verif.Rtp.C51_h264_after_loss_fails",
    "Verif.Rtp.C51_h264_ignored",
    "Verif.Rtp.C51_vp8_loss_partial",
    "Verif.Rtp.C51_vp8_loss_fails"
   ],
   "note": "Sessions of VP8 frames (with and without losses) and single H264/H265 units; see the _fails theorems for times, one byte packets, sequence wrap, VP9 and units after a loss."
  },
  {
   "property": "C52",
   "status": "partial",
   "theorems": [
    "Verif.Rtp.C52_vp8_partial",
    "Verif.Rtp.C52_vp8_fails",
    "Verif.Rtp.C52_h264_fails",
    "Verif.Rtp.C52_h265_fails",
    "Verif.Rtp.C52_h264_aggregate",
    "Verif.Rtp.C52_h265_aggregate"
   ],
   "note": "Well-formed aggregates are exact; VP8 safe except for payloads consisting of a descriptor only. False for aggregates with wrong lengths (C52_h264_fails, C52_h265_fails)."
  },
  {
   "property": "C53",
   "status": "partial",
   "theorems": [
    "Verif.Shm.C53_fails",
    "Verif.Shm.C53_partial"
   ],
   "note": "C53_fails: a client that registers while the master is in the middle of a pass can end up beyond the end position the master then writes. C53_partial: proved for schedules in which nobody takes a record during a pass."
  },
  {
   "property": "C54",
   "status": "partial",
   "theorems": [
    "Verif.Json.C54_fails",
    "Verif.Json.C54_partial"
   ],
   "note": "C54_fails: a single byte E0, or a string length beyond the data. C54_partial: all data that does not begin with a string, object or array. What the server itself packs is covered by C21_string_partial."
  },
  {
   "property": "C55",
   "status": "partial",
   "theorems": [
    "Verif.Json.C55_fails",
    "Verif.Json.C55_partial"
   ],
   "note": "C55_fails: 0A 01 00 01 is decoded for ever. C55_partial: all data without a byte 0A."
  },
  {
   "property": "C56",
   "status": "partial",
   "theorems": [
    "Verif.Http.C56_response_partial",
    "Verif.Http.C56_empty_fails",
    "Verif.Http.C56_long_fails",
    "Verif.Http.C56_request"
   ],
   "note": "C56_request for all requests; C56_response_partial for responses with a body that is not empty. C56_empty_fails: Content-Length: 0 is never sent, so the receiver waits for the connection to close. C56_long_fails: lengths are cut to 32 bits."
  },
  {
   "property": "C57",
   "status": "proved",
   "theorems": [
    "Verif.Http.C57_pipelined"
   ],
   "note": "C57_pipelined, for requests with or without body and any cut of the stream; forms in a POST body are excluded."
  },
  {
   "property": "C58",
   "status": "partial",
   "theorems": [
    "Verif.Dtsc.C58_member",
    "Verif.Dtsc.C58_size",
    "Verif.Dtsc.C58_place",
    "Verif.Dtsc.C58_int",
    "Verif.Dtsc.C58_string",
    "Verif.Dtsc.C58_follow",
    "Verif.Dtsc.C58_view_length_fails",
    "Verif.Dtsc.C58_double_fails"
   ],
   "note": "C58_member, C58_size, C58_place, C58_int, C58_string and C58_follow for all values without doubles and booleans. The length of a found view is too long (C58_view_length_fails), and a double makes later members unreachable (C58_double_fails)."
  },
  {
   "property": "C59",
   "status": "proved",
   "theorems": [
    "Verif.Http.C59_foreign"
   ],
   "note": "C59_foreign, for requests with a Content-Length and a path without percent signs and variables; streams below 2^31 bytes."
  },
  {
   "property": "C60",
   "status": "partial",
   "theorems": [
    "Verif.Json.C60_read_partial",
    "Verif.Json.C60_members",
    "Verif.Json.C60_exponent_fails"
   ],
   "note": "C60_read_partial and C60_members. Missing: numbers with an exponent (C60_exponent_fails: 1e3 is read as 13) and escapes for U+0800 to U+FFFF (C19_fails)."
  },
  {
   "property": "C61",
   "status": "partial",
   "theorems": [
    "Verif.Dtsc.C61_header_round_trip_partial",
    "Verif.Dtsc.C61_position_fails",
    "Verif.Dtsc.C61_first_key_fails"
   ],
   "note": "Round trip proved for every stream whose fields fit the written widths, except for the byte position of keys (read at the index of the fragment: C61_position_fails) and for streams whose first keys were removed, of which the fragments point past the renumbered keys (C61_first_key_fails)."
  },
  {
   "property": "C62",
   "status": "partial",
   "theorems": [
    "Verif.Page.C62_whole_packets_partial",
    "Verif.Page.C62_next_time",
    "Verif.Page.C62_writes_inside",
    "Verif.Page.C62_full_page_fails"
   ],
   "note": "Proved for every list of packets, every order of the byte writes the stores allow and every timing of the reads, on pages that are new (all zero) and not filled to the last byte. On a page that is exactly full the reader looks behind its end (C62_full_page_fails). That stores become visible in program order is assumed."
  },
  {
   "property": "C63",
   "status": "proved",
   "theorems": [
    "Verif.Auth.C63_md5bin",
    "Verif.Auth.C63_md5",
    "Verif.Auth.C63_sha256bin",
    "Verif.Auth.C63_sha256",
    "Verif.Auth.C63_sha384bin",
    "Verif.Auth.C63_sha512bin",
    "Verif.Auth.C63_length_fails"
   ],
   "note": "Against a specification written after RFC 1321 and FIPS 180-4, with the SHA constants computed from roots of primes. The bound on the length is tight for MD5 and SHA-256 (C63_length_fails: highest length byte from bit 54)."
  },
  {
   "property": "C64",
   "status": "proved",
   "theorems": [
    "Verif.Auth.C64_sha256",
    "Verif.Auth.C64_sha384",
    "Verif.Auth.C64_sha512",
    "Verif.Auth.C64_hex"
   ],
   "note": "Against RFC 2104 over the specified SHA functions. The stack size needed for long messages is not modelled."
  },
  {
   "property": "C65",
   "status": "partial",
   "theorems": [
    "Verif.Jwt.C65_watch_partial",
    "Verif.Jwt.C65_publish_partial",
    "Verif.Jwt.C65_unknown_algorithm",
    "Verif.Jwt.C65_accepted",
    "Verif.Jwt.C65_forge_fails",
    "Verif.Jwt.C65_recognised_partial",
    "Verif.Jwt.C65_recognised_fails"
   ],
   "note": "Watching and publishing, for all key lists as the controller writes them and all tokens: the key is of the right type unless the token names a key of the wrong one, for which a forged token is accepted (C65_forge_fails). Verification of RSA and EC signatures by mbedtls is a parameter; HMAC is that of RFC 2104 (C64)."
  },
  {
   "property": "C66",
   "status": "partial",
   "theorems": [
    "Verif.Jwt.C66_partial",
    "Verif.Jwt.C66_fails",
    "Verif.Jwt.C66_resync_fails"
   ],
   "note": "All four claims at the start of a session; false for patterns longer than the name, names with a star, negative times of expiry, and for checks during a session."
  },
  {
   "property": "C67",
   "status": "partial",
   "theorems": [
    "Verif.Jwt.C67_partial",
    "Verif.Jwt.C67_fails"
   ],
   "note": "For subjects that are stream names; false for subjects with a star or none and for long patterns."
  },
  {
   "property": "C68",
   "status": "partial",
   "theorems": [
    "Verif.Jwt.C68_partial",
    "Verif.Jwt.C68_fails",
    "Verif.Jwt.C68_one_key_fails"
   ],
   "note": "Only for one configuration with one key; false for every second key (a std::set compares keys by whether they are set)."
  },
  {
   "property": "C69",
   "status": "partial",
   "theorems": [
    "Verif.Live.C69_live_pages_partial",
    "Verif.Live.C69_big_key_fails"
   ],
   "note": "All histories of packets and removals on one track. False for keys larger than a page (C69_big_key_fails), so keys are limited to 32 MB, and within the limits of C30 (gaps below 65536 ms, no two packets a multiple of 2^32 ms apart). Operations are atomic; removals happen only while there are two fragments."
  },
  {
   "property": "C70",
   "status": "partial",
   "theorems": [
    "Verif.Hls.C70_listed_partial",
    "Verif.Hls.C70_enough_partial",
    "Verif.Hls.C70_stable_partial",
    "Verif.Hls.C70_recording_partial",
    "Verif.Hls.C70_sequence_fails",
    "Verif.Hls.C70_first_segment_fails",
    "Verif.Hls.C70_first_packet_fails",
    "Verif.Hls.C70_long_segment_fails",
    "Verif.Hls.C70_target_fails",
    "Verif.Hls.C70_last_packet_fails"
   ],
   "note": "All histories, within the limits of C30 and for less than 2^32 ms. Live playlists with one fragment change (C70_first_segment_fails) or are marked as ended (C70_first_packet_fails); the media sequence number can go back (C70_sequence_fails); segments of 65536 ms or more break the rule of four targets (C70_long_segment_fails); recordings: the last segment is not counted for the target (C70_target_fails) and the last packet is in no segment (C70_last_packet_fails)."
  },
  {
   "property": "C71",
   "status": "partial",
   "theorems": [
    "Verif.Hls.C71_listed_partial",
    "Verif.Hls.C71_parts_partial",
    "Verif.Hls.C71_joined_partial",
    "Verif.Hls.C71_stable_partial",
    "Verif.Hls.C71_recording_partial",
    "Verif.Hls.C71_recording_fails",
    "Verif.Hls.C71_skip_fails",
    "Verif.Hls.C71_target_fails",
    "Verif.Hls.C71_limit_fails",
    "Verif.Hls.C71_refused_fails",
    "Verif.Hls.C71_boundary_fails"
   ],
   "note": "All histories, within the limits of C30 and for less than 2^32 ms. The last segment of a recording is not listed (C71_recording_fails); asking to skip crashes the process while no segment of a second is complete (C71_skip_fails); the skip boundary counts segments instead of time (C71_boundary_fails); the target is rounded down (C71_target_fails); a list limit of 3 lists nothing complete (C71_limit_fails); a part that does not exist is answered instead of refused (C71_refused_fails)."
  },
  {
   "property": "C72",
   "status": "partial",
   "theorems": [
    "Verif.Addr.C72_order",
    "Verif.Addr.C72_place",
    "Verif.Addr.C72_equal_fails",
    "Verif.Addr.C72_socket_fails"
   ],
   "note": "Order and comparison of places hold for all addresses. The equality operator is inverted: exactly different addresses of the same size are equal (C72_equal_fails), so that a UDP socket is found by every pair of addresses but its own (C72_socket_fails)."
  },
  {
   "property": "C73",
   "status": "partial",
   "theorems": [
    "Verif.Addr.C73_host_partial",
    "Verif.Addr.C73_bytes_partial",
    "Verif.Addr.C73_four",
    "Verif.Addr.C73_distinct",
    "Verif.Addr.C73_trailing_fails",
    "Verif.Addr.C73_low_fails"
   ],
   "note": "For all addresses except those whose first longest run of zero groups is at the end, of which a colon is lost (C73_trailing_fails), and ::a to ::ff, the last byte of which is written in decimal digits (C73_low_fails). Texts of bytes are distinct for all addresses (C73_distinct)."
  },
  {
   "property": "C74",
   "status": "proved",
   "theorems": [
    "Verif.Stun.C74_crc",
    "Verif.Stun.C74_message"
   ],
   "note": "All sequences with at least one addition (the length of a packet without attributes is never written). HMAC-SHA1 (mbedtls) is a parameter."
  },
  {
   "property": "C75",
   "status": "partial",
   "theorems": [
    "Verif.Stun.C75_reads_partial",
    "Verif.Stun.C75_last_fails",
    "Verif.Stun.C75_safe",
    "Verif.Stun.C75_stops"
   ],
   "note": "For messages that do not end with an empty attribute, which is not found (C75_last_fails)."
  },
  {
   "property": "C76",
   "status": "partial",
   "theorems": [
    "Verif.Stun.C76_answer_partial",
    "Verif.Stun.C76_silent",
    "Verif.Stun.C76_safe",
    "Verif.Stun.C76_forged_fails"
   ],
   "note": "Everything but the check of the integrity of requests, which is missing (C76_forged_fails): a stranger who knows the name of a track is answered and can nominate addresses."
  },
  {
   "property": "C77",
   "status": "partial",
   "theorems": [
    "Verif.Play.C77_live_partial",
    "Verif.Play.C77_fair_partial",
    "Verif.Play.C77_progress_partial",
    "Verif.Play.C77_order_partial",
    "Verif.Play.C77_vod_partial",
    "Verif.Play.C77_last_fails",
    "Verif.Play.C77_order_fails",
    "Verif.Play.C77_equal_fails",
    "Verif.Play.C77_unloaded_fails"
   ],
   "note": "For tracks with strictly increasing times whose pages can be loaded. Live: everything but the order at the live point (C77_order_fails). Recordings: all but the last packet of every track, which is never sent (C77_last_fails). Equal times at page borders and pages that are loaded late: C77_equal_fails, C77_unloaded_fails. Async mode from position 0 (the program chooses the middle) is not covered."
  },
  {
   "property": "C78",
   "status": "partial",
   "theorems": [
    "Verif.Api.C78_safe",
    "Verif.Api.C78_accounts",
    "Verif.Api.C78_complete",
    "Verif.Api.C78_header",
    "Verif.Api.C78_header_ignored",
    "Verif.Api.C78_stays",
    "Verif.Api.C78_logout",
    "Verif.Api.C78_forwarded_fails",
    "Verif.Api.C78_replay_fails",
    "Verif.Api.C78_attempts_fails"
   ],
   "note": "All interleavings on all connections. What the code does not give: forwarded requests without credentials are run on a connection of a local proxy once an unforwarded one came over it (C78_forwarded_fails), answers can be used again for a day (C78_replay_fails), attempts are counted but not limited (C78_attempts_fails)."
  },
  {
   "property": "C79",
   "status": "partial",
   "theorems": [
    "Verif.Push.C79_name_partial",
    "Verif.Push.C79_other_partial",
    "Verif.Push.C79_key_partial",
    "Verif.Push.C79_safe_partial",
    "Verif.Push.C79_short_fails",
    "Verif.Push.C79_short_key_fails"
   ],
   "note": "For streams whose source is empty or has at least seven bytes. A shorter source (a file \"a.ts\") ends the process of a push by name and lets pushes by key in (C79_short_fails, C79_short_key_fails)."
  },
  {
   "property": "C80",
   "status": "partial",
   "theorems": [
    "Verif.Push.C80_partial",
    "Verif.Push.C80_many_fails",
    "Verif.Push.C80_long_fails",
    "Verif.Push.C80_stream_fails"
   ],
   "note": "For at most 2730 keys of at most 255 bytes and names of streams of at most 127 bytes. Beyond that: C80_many_fails, C80_long_fails (the first 255 bytes of a key are enough), C80_stream_fails."
  },
  {
   "property": "C81",
   "status": "partial",
   "theorems": [
    "Verif.Trig.C81_partial",
    "Verif.Trig.C81_should_partial",
    "Verif.Trig.C81_reload_fails",
    "Verif.Trig.C81_params_fails",
    "Verif.Trig.C81_list_fails",
    "Verif.Trig.C81_first_fails",
    "Verif.Trig.C81_empty_fails",
    "Verif.Trig.C81_handler_fails",
    "Verif.Trig.C81_many_fails"
   ],
   "note": "Proved for up to 51 triggers of a type whose texts fit into their fields and whose list of streams fits into 256 bytes: which triggers are for a stream, whether the event goes on, and what the rewritten value is. Refuted: while the configuration is written (C81_reload_fails), for triggers with parameters (C81_params_fails), for longer lists (C81_list_fails, C81_first_fails), empty entries (C81_empty_fails), longer addresses (C81_handler_fails) and more triggers (C81_many_fails)."
  },
  {
   "property": "C82",
   "status": "partial",
   "theorems": [
    "Verif.Select.C82_partial",
    "Verif.Select.C82_union",
    "Verif.Select.C82_narrow",
    "Verif.Select.C82_remove",
    "Verif.Select.C82_not",
    "Verif.Select.C82_within_partial",
    "Verif.Select.C82_within_list_partial",
    "Verif.Select.C82_number_fails",
    "Verif.Select.C82_id_fails",
    "Verif.Select.C82_4k_fails",
    "Verif.Select.C82_unknown_fails",
    "Verif.Select.C82_overflow_fails"
   ],
   "note": "Proved for all forms of selectors with rates and areas below 2^32: what each selects (C82_partial), the laws of lists (C82_union, C82_narrow, C82_remove, C82_not) and that nothing outside of the given tracks is selected except by numbers (C82_within_partial). Refuted: an item behind | that is a number can add a track (C82_number_fails), IDs select other types (C82_id_fails), 4k and the like are taken for languages (C82_4k_fails), the best by bit rate selects nothing while rates are unknown (C82_unknown_fails), and rates wrap at 32 bits (C82_overflow_fails)."
  },
  {
   "property": "C83",
   "status": "partial",
   "theorems": [
    "Verif.Choose.C83_exception",
    "Verif.Choose.C83_supported_partial",
    "Verif.Choose.C83_partial",
    "Verif.Choose.C83_type",
    "Verif.Choose.C83_agent_partial",
    "Verif.Choose.C83_agent_fails",
    "Verif.Choose.C83_bframes_fails",
    "Verif.Choose.C83_delay_fails"
   ],
   "note": "Proved: the exact set of supported tracks (C83_supported_partial, for groups of texts that do not overlap or no user agent), soundness of what is selected (C83_partial, C83_type, C83_agent_partial for selectors without numbers), the meaning of exceptions (C83_exception). Refuted: numbers pass by the exceptions for user agents (C83_agent_fails), selectors select B-frames (C83_bframes_fails), tracks that cannot be decrypted make others count as late (C83_delay_fails)."
  },
  {
   "property": "C84",
   "status": "partial",
   "theorems": [
    "Verif.Choose.C84_order_partial",
    "Verif.Choose.C84_asked",
    "Verif.Choose.C84_all",
    "Verif.Choose.C84_free",
    "Verif.Choose.C84_partial",
    "Verif.Choose.C84_hidden_fails",
    "Verif.Choose.C84_areas_fails",
    "Verif.Choose.C84_areas_partial"
   ],
   "note": "Proved for combinations in which no two texts take the same track: C84_partial (choice of combination, groups, several, at most one, first in order), C84_asked, C84_all, C84_free, C84_order_partial. Refuted: for outputs without B-frames a track with B-frames hides later ones (C84_hidden_fails); the order by resolution is none (C84_areas_fails)."
  },
  {
   "property": "C85",
   "status": "partial",
   "theorems": [
    "Verif.Flv.C85_avc",
    "Verif.Flv.C85_avc_init",
    "Verif.Flv.C85_old_video",
    "Verif.Flv.C85_aac_partial",
    "Verif.Flv.C85_aac_init",
    "Verif.Flv.C85_old_audio_partial",
    "Verif.Flv.C85_audio_offset_fails",
    "Verif.Flv.C85_aac_offset_fails",
    "Verif.Flv.C85_partial",
    "Verif.Flv.C85_sent_audio_partial",
    "Verif.Flv.C85_pcm",
    "Verif.Flv.C85_av1_fails",
    "Verif.Flv.C85_disposable_fails",
    "Verif.Flv.C85_many_fails",
    "Verif.Flv.C85_sent_multi_fails",
    "Verif.Flv.C85_sent_init",
    "Verif.Flv.C85_video_partial",
    "Verif.Flv.C85_video_rest_partial",
    "Verif.Flv.C85_offset_fails",
    "Verif.Flv.C85_video_init",
    "Verif.Flv.C85_audio",
    "Verif.Flv.C85_audio_init"
   ],
   "note": "Proved for all codecs, ModEx parts and track numbers: configurations (C85_video_init, C85_audio_init, C85_avc_init, C85_aac_init, C85_sent_init), enhanced audio, AVC and old video codecs, enhanced video unless AVC/HEVC has an offset without a track number (C85_video_partial; what does arrive then: C85_video_rest_partial), old audio with rates not mistaken for something else; own sender (C85_partial, C85_sent_audio_partial). Refuted: C85_offset_fails, C85_audio_offset_fails, C85_aac_offset_fails, C85_av1_fails, C85_many_fails, C85_sent_multi_fails, C85_disposable_fails."
  },
  {
   "property": "C86",
   "status": "partial",
   "theorems": [
    "Verif.Flv.C86_pieces",
    "Verif.Flv.C86_prefix",
    "Verif.Flv.C86_partial",
    "Verif.Flv.C86_big_fails",
    "Verif.Flv.C86_seek"
   ],
   "note": "Proved: any cutting of any file (C86_pieces, C86_prefix), seeking (C86_seek), recordings read back (C86_partial) but for frames of 16 MiB (C86_big_fails), disposable key frames and rates of audio mistaken for something else."
  },
  {
   "property": "C87",
   "status": "partial",
   "theorems": [
    "Verif.Flv.C87_partial",
    "Verif.Flv.C87_fails"
   ],
   "note": "Proved for all messages that do not begin with a ModEx part (C87_partial); refuted for those (C87_fails)."
  },
  {
   "property": "C88",
   "status": "partial",
   "theorems": [
    "Verif.Ingest.C88_partial",
    "Verif.Ingest.C88_fails",
    "Verif.Ingest.C88_wrap_fails",
    "Verif.Ingest.C88_first_fails",
    "Verif.Ingest.C88_sync_fails",
    "Verif.Ingest.C88_steady",
    "Verif.Ingest.C88_single_partial",
    "Verif.Ingest.C88_tracks"
   ],
   "note": "Proved: steady publishers keep true times over all rollovers (C88_steady); any history stays within four seconds back and ten minutes on (C88_partial); one track never goes back unless its clock seems to roll over (C88_single_partial); C88_tracks. Refuted: inexact rollovers go back (C88_fails), wrap below zero (C88_wrap_fails, C88_first_fails), tracks 100 ms apart lose their synchronisation (C88_sync_fails)."
  },
  {
   "property": "C89",
   "status": "partial",
   "theorems": [
    "Verif.Mp4.C89_segment_partial",
    "Verif.Mp4.C89_same_time_fails",
    "Verif.Mp4.C89_unaligned_fails",
    "Verif.Mp4.C89_negative_offset_fails",
    "Verif.Mp4.C89_second_key_fails",
    "Verif.Mp4.C89_empty_fails"
   ],
   "note": "Proved for every history whose packets have different times and every pair of times that the index finds: the bytes of the header are those of a fragment that describes the packets, samples are found at the places it gives, times and durations are right if a packet has the first time. Fails for packets of equal times, segments that do not start with a packet, negative offsets, several keys in a segment, and segments without packets. Segments of 2^31 bytes or more and the init segment (moov, sidx) are not covered."
  },
  {
   "property": "C90",
   "status": "partial",
   "theorems": [
    "Verif.Stbl.C90_lookup_partial",
    "Verif.Stbl.C90_time",
    "Verif.Stbl.C90_order_partial",
    "Verif.Stbl.C90_first_key_fails",
    "Verif.Stbl.C90_negative_offset_fails",
    "Verif.Stbl.C90_large_offset_fails",
    "Verif.Stbl.C90_increase_fails",
    "Verif.Stbl.C90_long_fails"
   ],
   "note": "Proved for every sound file and every history of lookups: places, sizes, key frames, offsets that are not negative and small enough (C90_lookup_partial), times if samples last a millisecond (C90_time), lower bound, order and spacing of times for any durations up to 2^32 units (C90_order_partial). Refuted: tables whose first sample is no key frame, negative and large offsets, spacing with time scales that are not multiples of 1000, and tracks longer than 2^32 units."
  },
  {
   "property": "C91",
   "status": "partial",
   "theorems": [
    "Verif.Fmp4.C91_fragment_partial",
    "Verif.Fmp4.C91_any_order_partial",
    "Verif.Fmp4.C91_own_fragments",
    "Verif.Fmp4.C91_two_trafs_fails",
    "Verif.Fmp4.C91_base_offset_fails",
    "Verif.Fmp4.C91_no_base_fails",
    "Verif.Fmp4.C91_no_data_offset_fails",
    "Verif.Fmp4.C91_negative_offset_fails",
    "Verif.Fmp4.C91_large_offset_fails",
    "Verif.Fmp4.C91_short_fails",
    "Verif.Fmp4.C91_no_base_time_fails"
   ],
   "note": "Proved for every fragment, with any optional fields and other boxes, that has one traf box of the track with data offsets from the start of the fragment, samples of a millisecond or more and offsets below 2^31/1000 units: number, places, sizes, times, offsets and key marks, in order (C91_fragment_partial) and in any order after the first (C91_any_order_partial); fragments of the form of C89 are read back (C91_own_fragments). Refuted: several traf boxes of a track, base offsets, missing base, missing data offsets, negative and large offsets, short samples after 2^32 units, missing base times."
  },
  {
   "property": "C92",
   "status": "partial",
   "theorems": [
    "Verif.Prog.C92_tables_partial",
    "Verif.Prog.C92_range_partial",
    "Verif.Prog.C92_last_fails",
    "Verif.Prog.C92_overrun_fails",
    "Verif.Prog.C92_same_time_fails",
    "Verif.Prog.C92_empty_fails",
    "Verif.Prog.C92_entries_fails",
    "Verif.Prog.C92_gap_fails",
    "Verif.Prog.C92_negative_fails"
   ],
   "note": "Proved for every recording whose tracks have two packets or more, times that go forward by less than 65.536 s and offsets from 0 to 32.767 s: times, offsets, sizes, key frames and places of all samples in the file that is sent, which is what playback (C77) delivers (C92_tables_partial); every range of bytes of that file, if packets of different tracks have different times and no packet is empty (C92_range_partial). Refuted: the last sample of each track is announced but never sent (C92_last_fails), ranges that end inside a packet are followed by memory (C92_overrun_fails), same times, empty packets, the number of entries of stts, long gaps, negative offsets."
  },
  {
   "property": "C93",
   "status": "partial",
   "theorems": [
    "Verif.Range.C93_range_partial",
    "Verif.Range.C93_last_fails",
    "Verif.Range.C93_first_fails",
    "Verif.Range.C93_beyond_fails",
    "Verif.Range.C93_wrap_fails",
    "Verif.Range.C93_unit_fails",
    "Verif.Range.C93_length_fails"
   ],
   "note": "Proved: ranges from byte to byte and from a byte on, all digits and sizes, if they start inside of the file and do not end at byte zero; requests for as many last bytes as the file has or more (C93_range_partial). Refuted: fewer last bytes get one byte more (C93_last_fails), 0-0 is refused (C93_first_fails), ranges beyond the end are not (C93_beyond_fails), numbers wrap (C93_wrap_fails), other units are refused (C93_unit_fails), long files announce a wrong length in chunked responses (C93_length_fails)."
  },
  {
   "property": "C94",
   "status": "partial",
   "theorems": [
    "Verif.Load.C94_ingest",
    "Verif.Load.C94_ingest_full_fails",
    "Verif.Load.C94_tags",
    "Verif.Load.C94_choice",
    "Verif.Load.C94_suitable",
    "Verif.Load.C94_score_partial",
    "Verif.Load.C94_found_partial",
    "Verif.Load.C94_less_load_partial",
    "Verif.Load.C94_source",
    "Verif.Load.C94_source_room",
    "Verif.Load.C94_overload_fails",
    "Verif.Load.C94_source_tags_fails"
   ],
   "note": "Proved for all lists: the choice is the first online server with the highest positive score (C94_choice), only suitable servers (C94_suitable), tags (C94_tags), sources (C94_source, C94_source_room), ingest points (C94_ingest). The exact score, that viewers are not turned away and that less load is better are proved for servers that do not use more than they have (C94_score_partial, C94_found_partial, C94_less_load_partial). Refuted: C94_overload_fails, C94_source_tags_fails, C94_ingest_full_fails."
  },
  {
   "property": "C95",
   "status": "partial",
   "theorems": [
    "Verif.Load.C95_known",
    "Verif.Load.C95_viewers",
    "Verif.Load.C95_reserve",
    "Verif.Load.C95_spread",
    "Verif.Load.C95_release",
    "Verif.Load.C95_speed_partial",
    "Verif.Load.C95_restart_fails",
    "Verif.Load.C95_report",
    "Verif.Load.C95_memory",
    "Verif.Load.C95_failed"
   ],
   "note": "Proved for all histories: known streams and viewers (C95_known, C95_viewers), what reports and failed polls change (C95_report, C95_memory, C95_failed), set aside bandwidth (C95_reserve, C95_spread, C95_release); the bandwidth in use if counters do not go back (C95_speed_partial). Refuted: C95_restart_fails."
  },
  {
   "property": "C96",
   "status": "partial",
   "theorems": [
    "Verif.Servers.C96_once",
    "Verif.Servers.C96_add",
    "Verif.Servers.C96_list",
    "Verif.Servers.C96_polled",
    "Verif.Servers.C96_details_partial",
    "Verif.Servers.C96_removal_partial",
    "Verif.Servers.C96_removal_fails",
    "Verif.Servers.C96_early_fails",
    "Verif.Servers.C96_deleted_fails",
    "Verif.Servers.C96_full_fails",
    "Verif.Servers.C96_zero_fails"
   ],
   "note": "Proved for all interleavings: no server twice, additions, the list changes only by requests, servers are polled (C96_once, C96_add, C96_list, C96_polled). Removals end if no first or failing poll is under way (C96_removal_partial); details exist outside of removals (C96_details_partial). Refuted: C96_removal_fails, C96_early_fails, C96_deleted_fails, C96_full_fails, C96_zero_fails."
  },
  {
   "property": "C97",
   "status": "partial",
   "theorems": [
    "Verif.AutoPush.C97_scheduled_fails",
    "Verif.AutoPush.C97_ended_start_fails",
    "Verif.AutoPush.C97_wildcard_rule_fails",
    "Verif.AutoPush.C97_wildcard_time_fails",
    "Verif.AutoPush.C97_wildcard_stop_fails",
    "Verif.AutoPush.C97_tag_end_fails",
    "Verif.AutoPush.C97_removal_partial",
    "Verif.AutoPush.C97_removal_fails",
    "Verif.AutoPush.C97_stop_partial",
    "Verif.AutoPush.C97_end_partial",
    "Verif.AutoPush.C97_rules",
    "Verif.AutoPush.C97_pattern",
    "Verif.AutoPush.C97_check_partial",
    "Verif.AutoPush.C97_speed",
    "Verif.AutoPush.C97_once",
    "Verif.AutoPush.C97_start",
    "Verif.AutoPush.C97_became_partial",
    "Verif.AutoPush.C97_became",
    "Verif.AutoPush.C97_ended",
    "Verif.AutoPush.C97_restart",
    "Verif.AutoPush.C97_told",
    "Verif.AutoPush.C97_add",
    "Verif.AutoPush.C97_requests",
    "Verif.AutoPush.C97_gone"
   ],
   "note": "Proved for all configurations, states and histories: meaning of rules and patterns (C97_rules, C97_pattern), speed (C97_speed), nothing twice (C97_once), starts by request (C97_start) and when a stream becomes active (C97_became, C97_became_partial), checks (C97_check_partial), restarts of pushes that ended (C97_restart), stops (C97_stop_partial, C97_end_partial) and removal (C97_removal_partial). Refuted: scheduled pushes start at once with their stream and after their end time (C97_scheduled_fails, C97_ended_start_fails); for wildcards and tags the check uses the rules of the pattern and not of the stream, ignores the start time and does not stop pushes (C97_wildcard_rule_fails, C97_wildcard_time_fails, C97_wildcard_stop_fails, C97_tag_end_fails); removal leaves entries (C97_removal_fails)."
  },
  {
   "property": "C98",
   "status": "partial",
   "theorems": [
    "Verif.AutoPush.C98_restart_partial",
    "Verif.AutoPush.C98_long_fails",
    "Verif.AutoPush.C98_overflow_fails"
   ],
   "note": "Proved for all histories whose texts are shorter than 65536 bytes and whose list fits into the page (C98_restart_partial). Refuted for longer texts (C98_long_fails) and for lists that do not fit, where older pushes are recovered instead (C98_overflow_fails)."
  },
  {
   "property": "C99",
   "status": "partial",
   "theorems": [
    "Verif.Sess.C99_pass",
    "Verif.Sess.C99_never_more",
    "Verif.Sess.C99_exact_partial",
    "Verif.Sess.C99_race_fails",
    "Verif.Sess.C99_stall_fails",
    "Verif.Sess.C99_end_fails"
   ],
   "note": "Proved for all interleavings: never more than was reported (C99_never_more); exactly what was reported if no step can lose a count (C99_exact_partial). Refuted in general: a report between the two reads of the counter (C99_race_fails), a connection that ends while the session makes no pass for ten seconds (C99_stall_fails), and what is reported after the last pass (C99_end_fails)."
  },
  {
   "property": "C100",
   "status": "partial",
   "theorems": [
    "Verif.Totals.C100_late_fails",
    "Verif.Totals.C100_double_fails",
    "Verif.Totals.C100_negative_fails",
    "Verif.Totals.C100_access_fails",
    "Verif.Totals.C100_seconds_fails",
    "Verif.Totals.C100_totals_partial",
    "Verif.Totals.C100_sessions_partial"
   ],
   "note": "Proved for histories where sessions report in time, do not count backwards and do not fall silent for ten minutes: totals of bytes (C100_totals_partial), numbers of sessions and the access log (C100_sessions_partial). Refuted: late reports are lost (C100_late_fails), silent sessions count twice (C100_double_fails) or leave no line in the access log (C100_access_fails), counters that start anew (C100_negative_fails), and the seconds of viewers are added up anew in every pass (C100_seconds_fails)."
  },
  {
   "property": "C101",
   "status": "proved",
   "theorems": [
    "Verif.Totals.C101_current",
    "Verif.Totals.C101_stream"
   ],
   "note": "C101_current (numbers after each pass) and C101_stream (totals of a stream), for all histories where sessions report in time and do not fall silent for ten minutes."
  },
  {
   "property": "C102",
   "status": "partial",
   "theorems": [
    "Verif.Vars.C102_late_fails",
    "Verif.Vars.C102_again_fails",
    "Verif.Vars.C102_zombie_fails",
    "Verif.Vars.C102_refused_fails",
    "Verif.Vars.C102_wrap_fails",
    "Verif.Vars.C102_due_partial",
    "Verif.Vars.C102_values_partial",
    "Verif.Vars.C102_added",
    "Verif.Vars.C102_fetched",
    "Verif.Vars.C102_interval",
    "Verif.Vars.C102_started"
   ],
   "note": "Proved for all usual histories: values (C102_values_partial), what is started and how (C102_started), not before the interval (C102_interval), and at the first check after it while the page is not rewritten (C102_due_partial). Refuted in general: C102_late_fails, C102_again_fails, C102_zombie_fails, C102_refused_fails, C102_wrap_fails."
  },
  {
   "property": "C103",
   "status": "partial",
   "theorems": [
    "Verif.Vod.C103_ahead",
    "Verif.Vod.C103_order_partial",
    "Verif.Vod.C103_order_fails",
    "Verif.Vod.C103_pages",
    "Verif.Vod.C103_always",
    "Verif.Vod.C103_load_partial",
    "Verif.Vod.C103_stays",
    "Verif.Vod.C103_freed",
    "Verif.Vod.C103_read_partial",
    "Verif.Vod.C103_short",
    "Verif.Vod.C103_equal_fails"
   ],
   "note": "Proved for all recordings whose keys are later than all packets before them: the pages (C103_pages), loading (C103_load_partial), every history (C103_always), how long pages stay and when they are freed (C103_stays, C103_freed), files with packets missing (C103_short), what readers find (C103_read_partial), what is loaded for a viewer (C103_ahead) and in which order (C103_order_partial). Refuted: a key with the time of the packet before it (C103_equal_fails), a next page more than ten minutes away (C103_order_fails)."
  },
  {
   "property": "C104",
   "status": "partial",
   "theorems": [
    "Verif.Conn.C104_exact_partial",
    "Verif.Conn.C104_once",
    "Verif.Conn.C104_kept",
    "Verif.Conn.C104_new",
    "Verif.Conn.C104_status",
    "Verif.Conn.C104_reason",
    "Verif.Conn.C104_reload",
    "Verif.Conn.C104_config",
    "Verif.Conn.C104_distinct",
    "Verif.Conn.C104_order",
    "Verif.Conn.C104_removal_fails",
    "Verif.Conn.C104_hang_fails",
    "Verif.Conn.C104_long_fails",
    "Verif.Conn.C104_reload_fails"
   ],
   "note": "C104_exact_partial: after two looks at the configuration exactly the listeners asked for run, each once, from every reachable state. C104_once: after one look all of them run and at most one other. C104_kept: a listener asked for survives every history, also restarts and crashes of the controller. C104_new: nothing else is started. C104_status, C104_reason: what is shown. C104_reload: reload signals. C104_config, C104_distinct, C104_order: requests. Negations: C104_removal_fails (one look does not stop two listeners that come first in the table), C104_hang_fails (a missing program stops all further checks), C104_long_fails (texts of 512 bytes or more do not survive a rolling restart), C104_reload_fails (a reload by number goes to another listener after an earlier entry was deleted)."
  },
  {
   "property": "C105",
   "status": "partial",
   "theorems": [
    "Verif.Ogg.C105_prefix_partial",
    "Verif.Ogg.C105_finish_partial",
    "Verif.Ogg.C105_numbers",
    "Verif.Ogg.C105_granule_partial",
    "Verif.Ogg.C105_key",
    "Verif.Ogg.C105_crc_partial",
    "Verif.Ogg.C105_read",
    "Verif.Ogg.C105_exact_fails",
    "Verif.Ogg.C105_finish_fails",
    "Verif.Ogg.C105_end_fails",
    "Verif.Ogg.C105_granule_fails",
    "Verif.Ogg.C105_crc_fails",
    "Verif.Ogg.C105_empty_fails"
   ],
   "note": "Proved for all histories whose packets do not have lengths that are multiples of 255: what a reader of RFC 3533 gets (C105_prefix_partial, C105_finish_partial), numbers, flags and sizes of tables (C105_numbers), granule positions below 2^31 (C105_granule_partial), key frames (C105_key), the checksum as it is (C105_crc_partial). For all pages: C105_read. Refuted: C105_exact_fails (a packet that exactly fills a page is not ended), C105_finish_fails (a split packet is lost at the end), C105_end_fails (no last page), C105_granule_fails (32 bits), C105_crc_fails (the checksum leaves out four bytes), C105_empty_fails (pages without packets stop the reader)."
  },
  {
   "property": "C106",
   "status": "partial",
   "theorems": [
    "Verif.Psi.C106_map_partial",
    "Verif.Psi.C106_association",
    "Verif.Psi.C106_pids",
    "Verif.Psi.C106_read",
    "Verif.Psi.C106_tag",
    "Verif.Psi.C106_round_partial",
    "Verif.Psi.C106_cues_fails",
    "Verif.Psi.C106_id3_fails",
    "Verif.Psi.C106_many_fails",
    "Verif.Psi.C106_long_fails",
    "Verif.Psi.C106_stale_fails",
    "Verif.Psi.C106_service_fails"
   ],
   "note": "Proved for selections of codecs that have a stream type, with at most one SCTE35 track and a table of one packet, after any history of tables; reading is proved for every packet with a whole map. Negations: two SCTE35 tracks, ID3 initialisation data, twelve AAC tracks with a language, a map of several packets, a codec without a stream type, the length in the service descriptor."
  },
  {
   "property": "C107",
   "status": "partial",
   "theorems": [
    "Verif.Ulp.C107_recover_partial",
    "Verif.Ulp.C107_quiet",
    "Verif.Ulp.C107_history_partial",
    "Verif.Ulp.C107_media",
    "Verif.Ulp.C107_covered_partial",
    "Verif.Ulp.C107_cut_fails",
    "Verif.Ulp.C107_mask_fails",
    "Verif.Ulp.C107_longer_fails",
    "Verif.Ulp.C107_tiny_fails",
    "Verif.Ulp.C107_history_fails",
    "Verif.Ulp.C107_short_fails"
   ],
   "note": "Proved: media in redundant data (C107_media), nothing made up (C107_quiet), the history for increasing numbers (C107_history_partial), and for 8 or 16 packets in a row, of which none is shorter than the lost one, that the recovered packet agrees with the lost one in all but the SSRC and the last 12 bytes (C107_recover_partial). Refuted: the recovered packet always lacks 12 bytes (C107_cut_fails), masks (C107_mask_fails), a lost packet longer than another (C107_longer_fails) or with 1 to 3 bytes (C107_tiny_fails), numbers that wrap around (C107_history_fails), short corrections (C107_short_fails)."
  },
  {
   "property": "C108",
   "status": "partial",
   "theorems": [
    "Verif.Aac.C108_packets",
    "Verif.Aac.C108_times_partial",
    "Verif.Aac.C108_track",
    "Verif.Aac.C108_seek",
    "Verif.Aac.C108_tag",
    "Verif.Aac.C108_cut",
    "Verif.Aac.C108_stream_partial",
    "Verif.Aac.C108_whole",
    "Verif.Aac.C108_split",
    "Verif.Aac.C108_drift_fails",
    "Verif.Aac.C108_small_fails",
    "Verif.Aac.C108_cut_fails",
    "Verif.Aac.C108_empty_fails",
    "Verif.Aac.C108_header_fails"
   ],
   "note": "Proved for all lists of frames: payloads of files (C108_packets), track data (C108_track), seeking (C108_seek), tags (C108_tag), a last frame cut behind its header (C108_cut), PES packets not cut within headers (C108_stream_partial, C108_whole, C108_split), times in whole milliseconds per frame (C108_times_partial). Refuted: times fall behind without bound (C108_drift_fails), frames of less than six bytes (C108_small_fails), files cut within a header (C108_cut_fails), frames without payload (C108_empty_fails), PES packets cut within a header (C108_header_fails)."
  },
  {
   "property": "C109",
   "status": "partial",
   "theorems": [
    "Verif.Streams.C109_request",
    "Verif.Streams.C109_replace",
    "Verif.Streams.C109_delete",
    "Verif.Streams.C109_seen_partial",
    "Verif.Streams.C109_answered_partial",
    "Verif.Streams.C109_lookup",
    "Verif.Streams.C109_restart",
    "Verif.Streams.C109_empty_fails",
    "Verif.Streams.C109_reload_fails",
    "Verif.Streams.C109_removed_fails",
    "Verif.Streams.C109_uplink_fails",
    "Verif.Streams.C109_lost_fails",
    "Verif.Streams.C109_plus_fails",
    "Verif.Streams.C109_long_fails"
   ],
   "note": "Proved: the effect of add, replace and remove requests on every stream, the lookup by name, what restarts keep, and that pages agree with the configuration after every history of requests, checks and restarts. Missing: an empty list or object on a page is taken as equal to any value without members (C109_empty_fails); reloads from disk do not write or remove pages (C109_reload_fails, C109_removed_fails); the uplink removes no page (C109_uplink_fails); streams named log, online or error are not saved (C109_lost_fails); names with a plus or of more than 100 bytes are accepted but cannot be looked up (C109_plus_fails, C109_long_fails)."
  },
  {
   "property": "C110",
   "status": "partial",
   "theorems": [
    "Verif.Subs.C110_read_partial",
    "Verif.Subs.C110_webvtt_partial",
    "Verif.Subs.C110_subrip_partial",
    "Verif.Subs.C110_until",
    "Verif.Subs.C110_dot_fails",
    "Verif.Subs.C110_vtt_fails",
    "Verif.Subs.C110_last_fails",
    "Verif.Subs.C110_blank_fails",
    "Verif.Subs.C110_crlf_fails",
    "Verif.Subs.C110_short_fails",
    "Verif.Subs.C110_inject_fails"
   ],
   "note": "Proved: reading of every well-formed SubRip file; the blocks of every WebVTT and SubRip response, with numbers, times, ends and text; the range asked for. Missing: SubRip is written with periods, which the reader does not take (C110_dot_fails); WebVTT files are not recognised (C110_vtt_fails); last subtitle without empty line, further empty lines, carriage returns and short first lines are read wrongly (C110_last_fails, C110_blank_fails, C110_crlf_fails, C110_short_fails); empty lines in texts are not escaped (C110_inject_fails)."
  },
  {
   "property": "C111",
   "status": "partial",
   "theorems": [
    "Verif.Wav.C111_file_partial",
    "Verif.Wav.C111_format_partial",
    "Verif.Wav.C111_samples_partial",
    "Verif.Wav.C111_data",
    "Verif.Wav.C111_pcm_fails",
    "Verif.Wav.C111_odd_fails",
    "Verif.Wav.C111_block_fails",
    "Verif.Wav.C111_wide_fails",
    "Verif.Wav.C111_part_fails",
    "Verif.Wav.C111_live"
   ],
   "note": "Proved: the whole file for codecs other than PCM and an even number of bytes; the format fields but the block size; samples of 16 and 24 bits; data of other codecs. Missing: for PCM the header counts a chunk that is not there (C111_pcm_fails); odd data is not filled up (C111_odd_fails); the block size is 64 times too large (C111_block_fails); samples of 32 bits are not copied (C111_wide_fails); parts of samples are read past the end (C111_part_fails)."
  },
  {
   "property": "C112",
   "status": "partial",
   "theorems": [
    "Verif.Mp3.C112_frames_partial",
    "Verif.Mp3.C112_times_partial",
    "Verif.Mp3.C112_format_partial",
    "Verif.Mp3.C112_order",
    "Verif.Mp3.C112_lsf_fails",
    "Verif.Mp3.C112_layer1_fails",
    "Verif.Mp3.C112_count_fails",
    "Verif.Mp3.C112_first_fails",
    "Verif.Mp3.C112_tag_fails",
    "Verif.Mp3.C112_sync_fails",
    "Verif.Mp3.C112_cut_fails",
    "Verif.Mp3.C112_dual_fails"
   ],
   "note": "Proved: frames of all files of layer 2 and of layer 3 of MPEG-1 and, for sizes, layer 1 at the other rates, after tags and bytes in between, with places, bytes and times; the format; no overlap for any file. Missing: layer 3 of MPEG-2 (C112_lsf_fails), layer 1 at 44.1 kHz (C112_layer1_fails) and the times of layer 1 (C112_count_fails) are wrong; a first frame can be taken for a tag (C112_first_fails); tag sizes lose carries (C112_tag_fails); stray 0xFF bytes end the search in the wrong place (C112_sync_fails); a cut off frame is filled up with old bytes (C112_cut_fails); two separate channels are told as one (C112_dual_fails). Times are exact rationals in the model and doubles in the program."
  },
  {
   "property": "C113",
   "status": "partial",
   "theorems": [
    "Verif.HlsIn.C113_reload_partial",
    "Verif.HlsIn.C113_once_partial",
    "Verif.HlsIn.C113_all_partial",
    "Verif.HlsIn.C113_iv_fails",
    "Verif.HlsIn.C113_keepiv_fails",
    "Verif.HlsIn.C113_retry_fails",
    "Verif.HlsIn.C113_none_fails",
    "Verif.HlsIn.C113_method_fails",
    "Verif.HlsIn.C113_ivuri_fails",
    "Verif.HlsIn.C113_empty_fails",
    "Verif.HlsIn.C113_restart_fails"
   ],
   "note": "One load (C113_reload_partial) and any history of loads and reads of a live playlist (C113_once_partial, C113_all_partial). The code breaks the full claim: default vector is off by one (C113_iv_fails), a vector outlives its tag (C113_keepiv_fails), a key that failed once is never asked for again (C113_retry_fails), METHOD=NONE asks for a key (C113_none_fails), a key tag without method ends the process (C113_method_fails), IV= inside an address is taken as the vector (C113_ivuri_fails), an empty playlist leads to a read of an empty list (C113_empty_fails), and restarting numbers stall the input (C113_restart_fails). Maps, date-times and ranges without offset are not in the claim."
  },
  {
   "property": "C114",
   "status": "partial",
   "theorems": [
    "Verif.Flac.C114_file_partial",
    "Verif.Flac.C114_tagged_partial",
    "Verif.Flac.C114_long_fails",
    "Verif.Flac.C114_last_fails",
    "Verif.Flac.C114_rate_fails",
    "Verif.Flac.C114_first_fails",
    "Verif.Flac.C114_end_fails",
    "Verif.Flac.C114_tag_fails"
   ],
   "note": "C114_file_partial, C114_tagged_partial: files without a tag or with one whose size does not carry, with any further metadata blocks and up to 65536 frames of a common block size with the rate in their headers, in which nothing looks like the next header. The code breaks the full claim: frame numbers from 65536 on are decoded wrongly, so the rest of the file is one packet (C114_long_fails); a shorter last frame is merged with the one before (C114_last_fails); frames without a rate are not read (C114_rate_fails); after frame 0 any header-like bytes are taken (C114_first_fails); a sync code in the last bytes leads to a read behind the data (C114_end_fails); tag sizes lose carries (C114_tag_fails)."
  },
  {
   "property": "C115",
   "status": "partial",
   "theorems": [
    "Verif.Pls.C115_read",
    "Verif.Pls.C115_choice",
    "Verif.Pls.C115_schedule_partial",
    "Verif.Pls.C115_next",
    "Verif.Pls.C115_stop_partial",
    "Verif.Pls.C115_stop_looks_partial",
    "Verif.Pls.C115_order",
    "Verif.Pls.C115_wait_partial",
    "Verif.Pls.C115_first_fails",
    "Verif.Pls.C115_unread_fails",
    "Verif.Pls.C115_last_fails",
    "Verif.Pls.C115_cr_fails",
    "Verif.Pls.C115_spin_fails",
    "Verif.Pls.C115_repeat_fails",
    "Verif.Pls.C115_midnight_fails"
   ],
   "note": "Proved: entries read (C115_read), every choice is an entry of the list (C115_choice), the schedule for times that go up (C115_schedule_partial), the next entry (C115_next), stopping on the same day (C115_stop_partial, with any number of looks before: C115_stop_looks_partial), order over any number of rounds and waits without times (C115_order, C115_wait_partial). The code breaks the full claim: a first entry with a later time is played (C115_first_fails), times are forgotten when the file cannot be read (C115_unread_fails), a last line without end is not read (C115_last_fails), carriage returns stay in names (C115_cr_fails), no wait with times (C115_spin_fails), the last entry before a time is repeated (C115_repeat_fails), nothing is stopped after midnight (C115_midnight_fails)."
  },
  {
   "property": "C116",
   "status": "partial",
   "theorems": [
    "Verif.H264In.C116_prefix_partial",
    "Verif.H264In.C116_all_partial",
    "Verif.H264In.C116_times",
    "Verif.H264In.C116_split_fails",
    "Verif.H264In.C116_lost_fails",
    "Verif.H264In.C116_last_fails",
    "Verif.H264In.C116_slices_fails"
   ],
   "note": "Proved: the packets are the media units among the first units of the stream, in order, unchanged, with their key flags, for any reads that do not cut start codes (C116_prefix_partial); all complete units when no read completes more than one (C116_all_partial); times of packets for any data (C116_times). The code breaks the full claim: start codes cut by reads are missed (C116_split_fails), one unit is taken per read and the rest lost at the end (C116_lost_fails), the last unit is lost (C116_last_fails), and times count units, not frames (C116_slices_fails)."
  },
  {
   "property": "C117",
   "status": "partial",
   "theorems": [
    "Verif.H264Out.Conf.C117_header_partial",
    "Verif.H264Out.C117_reread_partial",
    "Verif.H264Out.C117_http_partial",
    "Verif.H264Out.C117_frame_partial",
    "Verif.H264Out.C117_short_fails",
    "Verif.H264Out.C117_past_fails",
    "Verif.H264Out.C117_hevc_fails",
    "Verif.H264Out.C117_offset_fails"
   ],
   "note": "Proved: HTTP (C117_http_partial) and websocket frames (C117_frame_partial) for all packets with valid lengths whose last unit is not very short; reading the stream again unit by unit (C117_reread_partial); the parameter sets at the start for records with sets below 32768 bytes (C117_header_partial). The code breaks the full claim: a very short last unit is left out (C117_short_fails), lengths past the end of the packet send what lies behind it in memory (C117_past_fails), for H.265 the size of the length fields is not looked at (C117_hevc_fails), and offsets lose their upper bits (C117_offset_fails)."
  },
  {
   "property": "C118",
   "status": "proved",
   "theorems": [
    "Verif.JsonLine.C118_lines",
    "Verif.JsonLine.C118_cuts",
    "Verif.JsonLine.C118_sent"
   ],
   "note": "Any bytes in any reads (C118_lines), independence from the cuts (C118_cuts) and lines as sent (C118_sent)."
  },
  {
   "property": "C119",
   "status": "partial",
   "theorems": [
    "Verif.Av1.C119_frame_partial",
    "Verif.Av1.C119_truncated_fails",
    "Verif.Av1.C119_elements",
    "Verif.Av1.C119_rtp_partial",
    "Verif.Av1.C119_received_partial",
    "Verif.Av1.C119_overflow_fails",
    "Verif.Av1.C119_hang_fails"
   ],
   "note": "Proved: elements are read back (C119_elements); for any units packets, if made, give the units back (C119_received_partial); for frames in which only the first unit is shorter than four bytes they are made and fit (C119_rtp_partial). The code breaks the full claim: a unit of two bytes behind a nearly full packet makes a length go below zero (C119_overflow_fails), and an invalid size field makes the loops go on for ever (C119_hang_fails). C119_frame_partial starts from the bytes of a frame made of valid units with size fields. C119_truncated_fails: so it does for every frame whose last unit is cut off in its payload."
  }
 ]
}