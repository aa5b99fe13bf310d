# Formal model of DDVTECH/mistserver in Lean 4 — design

## Conventions

* One Lean module directory per subsystem under `lean/Verif/`:
  `X/Model.lean` (the code, function by function, each definition citing file and lines),
  `X/Spec.lean` where a specification needs vocabulary of its own (written without
  reference to the model), `X/Lemmas.lean` (helper lemmas) and `X/Props.lean` (the
  property theorems, each with an `example` showing a non-trivial instance that meets
  its hypotheses).
* `Byte` is `Nat`-valued data below 256 only where arithmetic is the point; otherwise
  `UInt8`/`BitVec 8`. The code base is compiled with `-funsigned-char`
  (`meson.build` line 2), so `char` is an unsigned byte everywhere.
* Fixed-width C++ arithmetic is modelled with explicit `% 2^n`/`BitVec n` wherever the
  operation can leave the range on inputs the theorem quantifies over; otherwise the
  theorem carries the range as a hypothesis.
* C++ undefined behaviour (out-of-bounds read, null dereference) is a distinct outcome
  of the model (`none`/`.oob`), never a default value.
* When the code violates a property, the negation is proved with a concrete witness
  (`..._fails`/`not_...`), the property stays in `properties.jsonl` as the user would
  want it, and the part that does hold is proved under the suffix `_partial`.

## Trusted base

* Lean 4.33.0's kernel, and the axioms `propext`, `Classical.choice`, `Quot.sound`
  (no others; no `sorry`, `native_decide`, `bv_decide`, no axioms of our own).
* The hand translation of the C++ text into the definitions of the `Model` files. Nothing
  was compiled or executed; the correspondence is by reading. Each definition cites the
  lines it models and states its simplifications.
* Not modelled anywhere: memory allocation failure, logging, real time (clocks are
  inputs), signals, the kernel's socket and shared-memory implementation (semaphores
  and shared pages are modelled as atomic primitives), floating point (doubles are
  opaque 8-byte patterns), endianness of the host (little-endian is assumed where the
  code does).

## Plan per property

| id | what is modelled | how it is proved |
|----|------------------|------------------|
| C01 | `Base64::encode`, `b64CharVal`, `Base64::decode` with its 4-char accumulator | induction on the input three bytes at a time; alphabet table by finite check over 64 values |
| C02 | `Hex::chr/ord/encode/decode` | induction on the list; the 256 byte values by finite check lifted by a lemma |
| C03 | `URL::encode/decode` | induction on the list with per-byte case split |
| C04 | `parseVars`, `argStr` on sorted association lists | list search lemmas for `&` and `=`, plus C03 |
| C05 | `Bit::*` big/little-endian loads and stores on byte buffers | arithmetic on positional notation, frame lemma for untouched bytes; `htobd` negated |
| C06 | `UniInt::{readSize,writeSize,readInt,writeInt}` | positional notation lemmas; per-length case split |
| C07 | every `sizeElem*`/`sendElem*` pair | structural computation of lengths; `sendElemSeek` negated where it fails |
| C08 | `sizeUInt/sizeInt/getValUInt/getValInt` | as C06; signed version negated + partial |
| C09 | `bitWriter::append`, `bitstream::peek/get/skip` | refinement of both to a list of bits |
| C10 | Exp-Golomb writer and reader | bits refinement of C09 + arithmetic on the prefix |
| C11 | `toAnnexB/fromAnnexB/scanAnnexB` | induction over NAL lists with a scanner specification |
| C12 | `AMF::Object::Pack`, `parseOne`, `parse` | mutual induction over the value tree with arbitrary trailing bytes |
| C13 | `parseOne` with an explicit out-of-bounds outcome | witness of the violation; safety of the branches that check |
| C14 | `readFrame`, `sendFrameHead` | round trip + prefix theorem by case split on the length class |
| C15 | the frame-assembly part of `readFrame` as a state machine over frames | induction over frame lists; negation for interleaved control frames |
| C16 | `Socket::Buffer` as deque of blocks | refinement to `List` by induction on operation histories |
| C17 | `RelAccX` header counters and record addressing | invariant by induction over operation histories, abstract map as specification |
| C18 | `Chunk::Pack/Parse` with per-chunk-stream memory | simulation relation between sender and receiver memories; induction on messages |
| C19 | `toString`, the stream parser, `string_escape/read_string/UTF8/UTF16` | induction on the value tree; negation for U+0800..U+FFFF |
| C20 | `string_escape` | induction on the string with an independent quote scanner |
| C21 | `toPacked/packedSize/fromDTMI` | induction on the value tree |
| C22 | `TS::Packet` fill/stuffing/accessors | length arithmetic + list equations |
| C23 | `encodePESTimestamp`, `decodePTS` | bit arithmetic over all 33-bit values by `omega` on quotients |
| C24 | `setPCR/getPCR` | negation witness, partial theorem |
| C25 | `checksum::*` | fold laws; table = 8 polynomial steps by finite check over 256 entries |
| C26 | `Sorter::addPacket` | invariant by induction over arrivals; negation for the wrapped pre-buffer |
| C27 | `sendVP8/VP9/H264/H265` | induction on the remaining length; negation for H264/H265 |
| C28 | `getHsize/getContribCount/getPayloadSize` | negation witness; partial for even counts |
| C29 | `genericFill/appendData/appendNal`, `Scan::getMember`, `skipDTSC` | computation on concatenations with symbolic data |
| C30, C31 | `Meta::update`, `removeFirstKey` over ring tables abstracted by C17 | invariant by induction over histories |
| C32 | `removeKey`, the eviction loops of `removeUnused` | guard analysis + loop invariant |
| C33 | `send`, `getSendLen` | length computation by induction on the track list; negation for empty tracks |
| C34 | lookup functions on the index of C30 | loop invariants |
| C35 | `Comms::reload` slot claim as a transition system over processes | inductive invariant over all interleavings |
| C36 | `claimTrack/abandonTrack` as a transition system | inductive invariant over all interleavings |
| C37 | `sanitizeName` | induction; negation for names with `?` |
| C38 | `URL` path normalisation | induction over segments; negation for encoded dots |
| C39 | `splitString`, `stringTrim` | induction; negations for the two known defects |
| C40 | `matchIPv6Addr` | bit arithmetic on bytes |
| C41 | `Chunkify`, chunked branch of `parse` | state machine on the receive buffer; induction over chunks and cuts |
| C42 | `generateSession` concatenation | negation witness; partial for a single selected field |
| C43 | `applyXOR`, `generateBitstring`, recovery | algebra of XOR over padded bit strings |
| C44 | `Util::replace`, recursion depth of `streamVariables` | measure on the search position |
| C45 | emulation prevention of NAL units (`nalu.cpp`) | induction on the unit with a scanner for forbidden patterns |
| C46 | `RelAccX` field lookup and typed accessors | record layout arithmetic over C17 |
| C47 | command line tokeniser | induction over arguments with any quoting |
| C48 | `HTTP::URL` printing and parsing | cut-by-cut inversion of the parser on printed text |
| C49 | transport stream output and input together (`ts_stream`, `ts_packet`) | whole-session simulation: sender state, receiver state, clock wraps |
| C50 | RTP clock unwrapping | invariant relating the 32-bit counter to the true time |
| C51, C52 | RTP depacketisers (`toDTSC::handle*`) | induction over packets; out-of-bounds outcome |
| C53 | `Comms` end position against the registrations of clients | transition system; counterexample trace and invariant |
| C54, C55 | `JSON::fromDTMI` on arbitrary bytes, with outcomes for out-of-bounds and for not ending | fuel-free outcome type; characterisation of safe inputs |
| C56, C57, C59 | `HTTP::Parser` building and reading of messages, pipelining | composition of the reader over concatenated messages |
| C58 | `DTSC::Scan` views on packed data | induction on the packed tree |
| C60 | JSON reader on foreign spellings | grammar of RFC 8259 as an inductive specification |
| C61 | `Meta::send` / `reInit` round trip | the member lookups of C58 over the sent header |
| C62 | `bufferNext` writing while viewers read | interleavings of single byte writes and reads; invariant on the page |
| C63, C64 | MD5, SHA-256/384/512, HMAC (`auth.cpp`) | refinement to specifications written after RFC 1321, FIPS 180-4 and RFC 2104 |
| C65-C68 | access tokens (`jwt.cpp`), their use in sessions and for publishing, the controller's key set | case analysis of the decision functions over all key lists; universal forgery as negation |
| C69 | the table of pages of a live track (`io.cpp`, `dtsc.cpp`, `output.cpp`) on top of the index of C30 and the pages of C62 | invariant over all histories: the pages divide the keys of the stream; lookup loops against it |
| C70 | the playlist writer of `output_hls.cpp` on top of the index of C30, and what a request for a segment sends | the cuts of a stream as a function of its packets; the loops of the writer against it; stability because cuts only grow at the end |
| C71 | the playlist writer of `hls_support.cpp` and `output_cmaf.cpp` with parts, skipping and the announced part, and the end of a part as it is sent | the same cuts as for C70; durations in parts of 500 ms by division; stability because cuts and packets only grow |
| C72 | comparing addresses (`ResizeablePointer`, `Socket::Address`, `compareAddress`) | order laws by induction on the bytes; case analysis of the families |
| C73 | text of addresses (`Address::host`, `hostBytesToStr`) | round trip through a reader written after RFC 4291; the 256 patterns of zero groups decide the shape, the groups stay arbitrary |
| C74 | building STUN messages (`stun.cpp`) in memory with arbitrary contents | one lemma per call: the packet so far is kept, the header rewritten, the new bytes all written |
| C75 | finding attributes (`stun.cpp`) | induction over the attributes; for all bytes by induction over the steps |
| C76 | answering binding requests (`output_webrtc.cpp`) | case analysis on top of C74 and C75 |
| C77 | playback: `prepareNext`, `seek`, `packetSorter` over the tables of keys and pages | place of every entry as invariant over all schedules; potential for fairness and the end |
| C78 | access to the API: `authorize`, `handleAPIConnection`, `handleWebSocket` over any number of connections | invariant over all interleavings: authorized connections were opened by a valid event; converse for single requests |
| C79 | admission of pushes: `allowPush`, `checkStreamKey` | decision: accepted iff the specification of who may push holds, for every source |
| C80 | stream keys: API edits, the shared table, lookup | refinement of the ordered map to a function, by induction over requests; sortedness for the capacity |
| C81 | The table of a trigger type (records of fixed fields, list of streams with lengths), matching of names, wildcards and tags, defaults and answers, `shouldTrigger` followed by `doTrigger`; what a handler answers is a parameter (`Trig/Model`) | Induction over the entries of a packed list and over the records; the reading of an answer against a separate definition of yes |
| C82 | Tracks as records of what selectors ask for; `pickTracks`/`findTracks` as: text to rule, rule to set of tracks; the scanning of rates and resolutions with 32-bit cuts, language codes as a generated table (`Select/Model`, `Select/Codes`). A missing track is a track not in the list. | A separate relation `Says` from selector texts to what is wanted (every track with a property, or one such that none is better); each form is parsed to its rule for all numbers; the loops keep the best by induction; lists by induction on their items |
| C83 | `checkException`, `getSupportedTracks`, `wouldSelect` with the capabilities as a record of nested lists; the set of valid tracks is given (`Choose/Model`) | Specification of texts with marks, groups, exceptions, encryption and delay; equivalence for the set of supported tracks, soundness of each selected track by following the loops |
| C84 | The choice of the combination, the filling of its groups, `sortTracks` (`Choose/Model`) | Invariant of the search for the best combination; double counting for "has room"; induction over texts, groups and combinations; insertion sort keeps a permutation sorted |
| C85 | Readers of media messages (`Flv/Model`): `skipModEx`, codecs, offset, track, data; the writers of RTMP and init data | Specification of Enhanced RTMP and FLV in `Flv/Spec`; induction over ModEx parts; reader lemmas per layout; the own messages are rewritten to those of the specification |
| C86 | `MemLoader`/`FileLoader` as state machine over pieces, `DTSCLoader`, `seekToTagType` (`Flv/Model`) | Simulation: the state after a prefix is determined by the unfinished part; induction over parts of the file and pieces |
| C87 | The same readers with every access outside of the message visible (`none`) | Case analysis; short messages by the bytes of the length behind them |
| C88 | The times of `parseChunk` in arithmetic modulo 2^64 (`Ingest/Model`) | Invariant over histories: offsets are multiples of the clock's period, last times lie between the own last time and 100 ms before the newest |
| C89 | boxes byte by byte (`mp4.cpp`: `setContent`, `reserve`, fields), `mfhd`, `tfhd`, `tfdt`, `trun`, `keyHeader`, `keyHeaderSize`, `payloadSize`, the sorted set of packets, over the index of C30 | closed form of the boxes by induction over fields, boxes and samples; the loop over packets is a walk along the stream; `Describes` in `Mp4/Props`, layout and meaning of fragments in `Mp4/Spec` |
| C90 | `TrackHeader::getPart` for files without fragments: cursors and loops over `stts`, `ctts`, `stss`, `stsc`, `stsz` and chunk offsets, `increaseTime` with its corrections, all in numbers of 32 and 64 bits; boxes are lists of entries | invariant of the four cursors over any sequence of lookups; the meaning of the tables (ISO/IEC 14496-12) in `Stbl/Spec`; the clock as a fold over durations in `Stbl/Clock` |
| C91 | `TrackHeader::getPart` for fragments: children of boxes, `TRUN::getSampleInformation` with all optional fields and defaults, `TFHD`, `TFDT`, the loops over `traf` and `trun` boxes and the clock; `InputMP4::getNext` up to the set of samples. Boxes with 64-bit sizes are not modelled | bytes of any fragment in `Fmp4/Spec`, independent of the reader; induction over boxes, runs and lookups; the clock of C90 |
| C92 | `output_mp4.cpp` (`mp4Header`, `findSeekPoint`, `respondHTTP`, `sendNext`, `SortSet`), for recordings: the tables as lists of their entries, the set of next parts, the walk over parts in the header, the search of a byte, what is sent of each packet; the parts as the index writes them (`Prog/`). The packets that arrive come from the model of playback (C77). The rest of the header (its bytes) is a parameter | the slots of `SortSet` refine the sorted set; both walks are the sorted list of all parts but the last of each track; it is the only one in order with these packets per track, so it is what playback delivers; tables by runs; ranges by induction over packets |
| C93 | `output_http.cpp` `parseRange` and the answers of `output_mp4.cpp` and `output_ebml.cpp`; the length in `StartResponse` (`Range/`). The spec is the grammar and meaning of RFC 9110 | digits by induction, then cases |
| C94 | `util_load.cpp` `rate`, `source`, `applyAdjustment` and the choice in `handleRequest` (`Load/`), in 64-bit unsigned arithmetic; the score for distance (floating point) is a parameter. The spec gives the score in exact arithmetic | the loop by induction over servers, scores by bounds on each part, tags by induction over the text |
| C95 | `util_load.cpp` `update`, `addViewer`, `badNess` as steps of a history (`Load/`); the factors 0.75 and 1.2 are exact fractions | lookups after a report by induction over its streams, then induction over histories |
| C96 | `util_load.cpp` `handleServer`, `initHost`, `cleanupHost` and the requests that add and remove servers, as interleaved threads (`Servers/`) | invariant over all interleavings; removal by a rank that every schedule decreases; failures hold for every continuation |
| C97 | `controller_push.cpp` (`AutoPush/`): the check of every second, the reaction to a stream that comes up, and the requests, as steps of a history; streams, variables, tags and the start of processes are parameters of each step | decision tables for the rules, invariants over histories, every check split into single moves; restarts by induction over the checks until the time has passed |
| C98 | `writePushList`, `initPushCheck` (`AutoPush/Page.lean`) | round trip for any earlier contents; the order of the list is an invariant of all histories |
| C99 | `userOnActive`, `userOnDisconnect`, `COMM_LOOP` with connections as other processes (`Sess/`) | invariant over all interleavings: total + not yet counted = reported + due |
| C100 | `statSession::update`, `finish`, `statStorage::update`, `runStats` (`Totals/`) as steps of a history | invariant: each session is kept as the history says; the sum of last reports by induction from the end |
| C101 | the second part of `runStats` (`Totals/Streams.lean`) | the log of a session has the times of its reports within ten minutes; counting by filters |
| C102 | `controller_variables.cpp`: configuration, page in shared memory, checks, programs and downloads (`Vars/`) | the page and the configuration agree by induction over usual histories; a record of the last result gives the time of the next start |
| C103 | `input.cpp` `parseHeader`, `bufferFrame`, `removeUnused`, `userOnActive`, `userLeadOut` for one track of a recording (`Vod/`) | the records are those of the chunks of keys by induction; loading a faithful file gives the packets of the page; invariant over histories of requests and removals; composed with C62 for readers |
| C104 | `CheckProtocols` with its three loops, the page of listeners, rolling restart and crash, `removeDuplicateProtocols` and the requests about protocols | a table/process invariant over all reachable states; the removal loop leaves at most one entry that is not wanted, and none when there was one; induction over histories for listeners that are kept |
| C105 | `Page::sendTo`, `shouldSend`, `calculateGranule`, the packets, headers and end of `output_ogg.cpp` for one track; `Page::read` and `decodeXiphSize` | a reader of RFC 3533 (`parsePage`, `split`, `assemble`) as specification; one step of `sendTo` adds a page to the invariant that the packets read so far, the open one and the queue are what was given; induction over the history |
| C106 | `createPMT` with its static packet, the `PAT`, the reading of entries, descriptors and programs, what a stream is taken for (`Psi/`) | the header and each entry rewritten as a prefix that is final plus a rest that is not; an invariant of the packet over histories of tables; a parser of ISO/IEC 13818-1 sections as specification; the check value from C25 |
| C107 | `rtp_fec.cpp`: history of packets, redundant data, recovery of a lost packet, as functions on byte lists with `fault` for reads and writes outside of buffers (`Ulp/Model.lean`) | Corrections are built from the packets by RFC 5109 (`Ulp/Spec.lean`); combining with all others cancels them (`Ulp/Lemmas.lean`), so every byte of header and payload is compared; induction over arrivals for the history |
| C108 | `adts.cpp`, `input_aac.cpp` and the AAC part of `ts_stream.cpp`, as functions on byte lists with what is left of the file or of a frame as state (`Aac/Model.lean`) | Frames with all fields of the standard (`Aac/Spec.lean`); every field is read back (`Aac/Lemmas.lean`); induction over the frames of a file (`Aac/File.lean`) and over PES packets with the kept part of a frame as invariant (`Aac/Pes.lean`) |
| C109 | `Streams/`: stored streams, the controller's copy of what it wrote, the pages; API requests, status checks, restarts, reloads, uplink removals; lookup by name | effect of each request stated per stream against `Added`, `Kept`, `Taken`; agreement of pages as an invariant over all histories of orderly events; disagreements by witnesses |
| C110 | `Subs/`: the reader of subtitle files (lines, `sscanf`, `atoi`) and the writer of SubRip and WebVTT | reading by induction over blocks against `Written`; writing against `Block`, with decimal numbers by `Decimal`; disagreements by witnesses |
| C111 | `Wav/`: header and data of WAV output | the file against `WaveFile` (chunks and sizes), format fields against `readFormat`, samples by values of groups of bytes; disagreements by witnesses |
| C112 | `Mp3/`: reading of MP3 files: tag, search for frames, sizes, times and format | the loop by induction over the frames; header fields by a complete case split over the 2048 headers; the tables of the standard in `Spec`; disagreements by witnesses |
| C113 | `HlsIn`: `Playlist::reload`, `addEntry` and `parseLivePoint` for one playlist: lines and tags, keys and their cache, ranges, expiry of entries, reading of new ones. Spec: items of a media playlist (RFC 8216), its text, its segments; events of a live stream. | Each item's line does what the spec says (lemma per item), so a load appends the entries of the new segments; the invariant over histories is that the entries are some no longer listed followed by consecutive numbers up to the last, and what was handed over ascends up to the last read number. |
| C114 | `Flac`: `stripID3tag`, `readHeader` and `getNext` of the FLAC input, coded numbers and frame headers. Spec: metadata blocks, frames with coded number and check sum (RFC 9639), the packets they are to become. | The bit-serial check sum equals the table; the coded number is read back; the search passes every place within a frame and stops at the next one; induction over frames and over metadata blocks. |
| C115 | `Pls`: `streamMainLoop` and `reloadPlaylist` of the playlist input: lines, start times, limits, choice of entries, the look at the clock every second. Spec: lines of a playlist, entries with times, which entry may play when. | What the limits mean, by induction over lines; a clipped index is within them; between two looks only a time in between changes what may play; induction over rounds. |
| C116 | `InputH264::getNext` on the model of `Socket::Buffer`: one unit per read, parameter sets, packets and times (H264In) | The buffer is kept as the queue of complete units and the beginning of the next one (invariant over reads); packets compared with the media units of the stream by induction; times by induction over any data |
| C117 | `OutH264::sendNext` over HTTP and websockets, with the memory behind the packet, and `AVCC::asAnnexB` (H264Out) | Induction over the units of a packet; the read-back by C116_all_partial |
| C118 | `OutJSONLine::requestHandler` on the model of `Socket::Buffer` (JsonLine) | Blocks have no line feed before their last byte (induction over the scan); the loop keeps the bytes and makes lines (induction over blocks and reads); lines and rest are determined by the bytes |
| C119 | `Packet::sendAV1`, `AV1::leb128`, `AV1::OBU::init` (Av1), without RTP header, key flag and marker | What a receiver has open is an invariant of the loops; induction over units and over the pieces of a unit; sizes likewise; reading of size fields by induction over their bytes, so that a frame is cut into its units (`C119_frame_partial`) |

## Disagreements between the code and the properties

Each of these is proved as a theorem with the suffix `_fails` (the property it belongs to is in parentheses).

* Encodings: odd hexadecimal text is read and written out of bounds (C02). `htobd` stores half of a double; `getMSB` at unaligned
  offsets returns foreign bits (C05). EBML: sizes of seek entries, dates, names longer than 126 bytes and large ids are announced
  wrongly (C07); signed integers such as 128 come back negative (C08). The Exp-Golomb writer overruns its buffer above its limit
  (C10_limit). A NAL unit whose second byte is zero is not protected (C45).
* AMF: typed objects and empty names do not survive (C12); cut-off values, typed objects and long strings read outside the input (C13).
* Websockets: lengths are cut to 32 bits, and a masked frame then writes out of bounds (C14); a ping between fragments destroys the
  message (C15).
* `RelAccX`: adding to a full table is not refused; signed 24-bit fields lose their sign (C17).
* RTMP: gaps of 0xffffff ms, times from 2^31 ms, repeated media frames, a chunk object that is shared, the last one-byte piece (C18).
* JSON: U+0800 to U+FFFF come back wrong, bytes that are not UTF-8 are not kept, the smallest integer overflows (C19); `1e3` is 13 (C60).
  Packed JSON: doubles take ten bytes and lose half of the pattern, booleans and empty containers change their type (C21); reads out
  of bounds on cut-off data (C54), and `0A 01 00 01` is decoded for ever (C55).
* Transport streams: PCR base and extension are or-ed, the base overflows (C24); frames across a clock wrap, drift after four wraps,
  oversized PES, NAL lengths of other sizes (C49).
* CRC: `crc16` is not cut to 16 bits (C25).
* RTP: contributing sources masked with 0xE (C28); too many bytes of H264/H265 fragments, packets above the MTU (C27); the sorter at
  the 16-bit border, short streams, packets skipped together with lost ones (C26); VP8 times, one-byte packets, restarts (C51);
  lengths in aggregates are not checked (C52); the clock across a wrap with late packets (C50).
* Text: names with `?` (C37); paths are decoded after they were normalised (C38); leading delimiters and single characters (C39);
  prefix 0 and long prefixes of IP addresses (C40); file URLs are not decoded (C48); session texts without separators (C42).
* HTTP: `Content-Length: 0` is never sent, lengths are cut to 32 bits (C56); chunk extensions are read as digits (C41).
* DTSC packets: empty data, null data, growing NAL units, unknown members (C29); lengths of views, doubles in members (C58).
* Index: gaps above 65535 ms, fragments of a multiple of 2^32 ms divide by zero (C30); removal with one fragment (C31); fragments of
  49 days (C32); seeking to the last packet, packet times after removals (C34).
* Headers: length with empty selection or tracks without packets (C33); positions of keys, first key after removals (C61).
* Shared memory: double release, release overwritten by `finishAll` (C35); ignored results of `claimTrack` (C36); end position against
  registrations (C53); readers look behind an exactly full page (C62).
* Hashes: lengths from 2^51 bytes for MD5 and SHA-256 (C63).
* Access tokens: forged tokens for public keys, texts outside ASCII taken for tokens (C65); prefix and star matches, negative times of
  expiry, re-checks (C66); subjects with stars open other streams (C67); only one key is ever in use (C68).
* A key larger than a page (40 MB) is listed in the index but is on no page; viewers wait for it without end (C69).
* HLS: the media sequence number goes back when the target duration grows, a single fragment is listed while it grows, the list of a
  stream with one packet is marked as ended, durations are kept in 16 bits, the last segment of a recording does not count for the target
  and its last packet is in no segment (C70).
* Low-latency HLS: the last segment of a recording is not listed; `_HLS_skip=YES` divides by zero while no segment of a second is complete;
  the skip boundary and the target duration are too small; `listlimit` 3 lists no complete segment; parts that do not exist are not refused (C71).
* Addresses: `ResizeablePointer::operator==` is inverted, and so are `Address::operator==` and `UDPConnection::equals` (C72). `fe80::` is written
  as `fe80:`, and `::10` as `::16` (C73).
* STUN: an empty attribute at the end of a message is not found (C75); the integrity of requests is never checked (C76).
* Playback: the last packet of every track of a recording is prepared but never sent, because `prepareNext` returns 1 ("success") there and its
  caller takes that for "nothing prepared"; at the live point a late packet is sent before earlier ones of other tracks; equal times on both
  sides of a page border make a key disappear; a page that is loaded late makes packets repeat or a page disappear (C77).
* API: a proxy on this machine that leaves out its header once opens its connection for everyone behind it; the "one-time" answer to the challenge
  can be used for a day from the same address; the attempts of a connection are counted but never limited (C78).
* Pushes: a stream with a source of one to six bytes (a file `a.ts`) ends the process of a push by name (`substr(7)` throws) and is open to pushes by
  key (C79). Stream keys are cut to 255 bytes, so that the cut key opens the stream and the key itself does not; names of streams are cut to
  127 bytes; keys after the 2730th in order do nothing (C80).

- C81: while the controller writes a changed configuration the tables of triggers are removed and made anew, and become ready before they have records (controller_storage.cpp 911-993). In between a trigger that would say no is not run and the event goes on: `C81_reload_fails`.
- C81: the check of a trigger's parameter is used to see whether any trigger is due, but not passed on to the call that runs them (for example input_buffer.cpp 227-240), so that those not due run as well: `C81_params_fails`.
- C81: the list of streams of a trigger has 256 bytes with four for each entry; what does not fit is ignored (`C81_list_fails`), and if the first entry does not fit the trigger runs for all streams (`C81_first_fails`), as it does if the first entry is empty (`C81_empty_fails`).
- C81: addresses of handlers are cut after 127 bytes (`C81_handler_fails`), and of each type only the first 51 triggers are kept (`C81_many_fails`).
- C82: a selector that is a number is looked up in the stream and not among the tracks it may choose from (stream.cpp ~1140), so that `all,|1` can add a track: `C82_number_fails`. `i` with an ID selects tracks of any type: `C82_id_fails`.
- C82: `2k`, `4k`, `5k`, `8k` have two letters and are replaced by the code of an unknown language before they are tried as resolutions; they select the tracks without language: `C82_4k_fails`.
- C82: `maxbps` (`highbps`, `bestbps`) starts from rate 0 and selects nothing while no rate is known, unlike `minbps`: `C82_unknown_fails`. Rates are multiplied in 32 bits: `C82_overflow_fails`.
- C83: `wouldSelect` keeps what selectors found if `getSupportedTracks` without the user agent supports it (stream.cpp 1548), and selectors that are numbers do not look at the supported tracks at all, so that a number selects a track that is refused to the user agent: `C83_agent_fails`. B-frames are only checked for tracks chosen automatically: `C83_bframes_fails`.
- C83: a track whose encryption is not supported is removed, but still counts for the highest last time (stream.cpp 1485-1494, against the comment there): one that is ahead makes an output with `maxdelay` (MP4) drop everything: `C83_delay_fails`.
- C84: when a track with B-frames is found for an output that cannot have them, the loop over the tracks ends instead of going on (stream.cpp 1751-1752), so that a later track without them is not selected: `C84_hidden_fails`.
- C84: the orders by resolution compare area or frame rate (stream.cpp 1829-1840), which is not an order; a larger track can come first in the order from low to high: `C84_areas_fails`.
- C85: the composition offset of enhanced messages without a track number is read one byte too late (flv_tag.cpp 452), so offsets of HEVC over RTMP are wrong: `C85_offset_fails`.
- C85: `offset()` does not test that the tag is one of video: audio with 11 to 22 kHz, 16 bit and stereo gets an offset made of its data (`C85_audio_offset_fails`), AAC of this rate is searched for ModEx parts, beyond its end (`C85_aac_offset_fails`).
- C85: offsets of AV1, VP8 and VP9 are sent, though they have none in the format, and arrive as data (`C85_av1_fails`); frames of audio with a track number are sent with the packet type of multitrack messages (`C85_sent_multi_fails`); disposable key frames lose their key flag (`C85_disposable_fails`); messages with several tracks arrive as one frame (`C85_many_fails`).
- C86: tags of 16 MiB or more are written with a truncated length: `C86_big_fails`.
- C87: the sizes of ModEx parts are not compared with the size of the message: `C87_fails`.
- C88: rollovers are rounded to 2^24 or 2^32, also when the clock went back a little more, so times go back by up to four seconds: `C88_fails`; near the start they are taken off smaller times and wrap: `C88_wrap_fails`; the first frame of a track is not checked, and wraps if it is before the start of the stream: `C88_first_fails`; tracks more than 100 ms behind another are moved on, and stay moved: `C88_sync_fails`.
- C89: packets of equal times are dropped from the description of a CMAF segment (a `std::set` ordered by time), while the place of the data still counts them: every sample of the segment is found at the wrong place (`C89_same_time_fails`).
- C89: in segments that do not start with the time of a packet (audio segments cut where the video is cut) the decode times are too early by the time up to the first packet (`C89_unaligned_fails`).
- C89: negative composition offsets are written into a version 0 `trun`, where offsets are unsigned (`C89_negative_offset_fails`).
- C89: only the first frame of a segment is marked as one at which decoding can start, although a segment may contain several keys (`C89_second_key_fails`).
- C89: a segment without packets reads the first element of an empty set (`C89_empty_fails`).
- C90: the first sample of a video track is always taken for a key frame; if the table of key frames does not list it, the first one that it lists is not found (`C90_first_key_fails`).
- C90: negative composition offsets (version 1 of the table) are divided as numbers without sign (`C90_negative_offset_fails`).
- C90: offsets are multiplied by 1000 in 32 bits with sign, so that with ten million units per second those from 215 milliseconds on are wrong (`C90_large_offset_fails`).
- C90: times are meant to go up by a millisecond per packet, but do not if the time scale is not a multiple of 1000 (`C90_increase_fails`).
- C90: the corrected time is kept in 32 bits; after 2^32 units, a sample shorter than a millisecond sends the time back to the start (`C90_long_fails`).
- C91: if a fragment has two `traf` boxes of a track, the duration of the last sample of the first is read from before the samples of a run of the second, and the base time of the second is not used (`C91_two_trafs_fails`).
- C91: an explicit base-data-offset is ignored, and without it and without default-base-is-moof places count from the start of the file (`C91_base_offset_fails`, `C91_no_base_fails`).
- C91: runs without a data offset do not follow the run before (`C91_no_data_offset_fails`; the code says that it is not implemented).
- C91: negative offsets are divided as numbers without sign, and large ones overflow 32 bits (`C91_negative_offset_fails`, `C91_large_offset_fails`).
- C91: samples shorter than a millisecond send the time back after 2^32 units (`C91_short_fails`).
- C91: without a base time, the times of every fragment start at zero (`C91_no_base_time_fails`).
- C92: the last packet of every track of a recording is in the tables of the MP4 file and in the announced length, but its place is zero and it is never sent (`C92_last_fails`).
- C92: after the last byte of a range that ends inside a packet, `leftOver` is negative, and for each packet that follows nearly 2^32 bytes from its start are written to the connection, which is memory that is not of the packet (`C92_overrun_fails`).
- C92: a range that starts in the second one of two packets of different tracks with the same time gets bytes of the first one (`C92_same_time_fails`).
- C92: an empty packet ends the response (`C92_empty_fails`).
- C92: if all durations are equal to the size of the first packet, the entry number 2^32-1 of `stts` is written, which overwrites the number of entries (`C92_entries_fails`).
- C92: gaps of 65.536 s and more are cut to 16 bits (`C92_gap_fails`); negative offsets are written to a table of version 0 (`C92_negative_fails`).
- C93: `bytes=-n` gets n+1 bytes (`C93_last_fails`); `bytes=0-0` is refused (`C93_first_fails`); ranges that start after the end are not refused and announce a length near 2^64 (`C93_beyond_fails`); numbers wrap at 2^64 (`C93_wrap_fails`); other units are refused instead of ignored (`C93_unit_fails`); the length of responses in chunks is announced modulo 2^32 (`C93_length_fails`).
- C94: a server that reports to use more than it has can get a negative score, which is taken for the largest number and wins (`C94_overload_fails`); tags and places in requests for sources and ingest points have no effect, as the request is cleared before they are read (`C94_source_tags_fails`).
- C95: when a server is started again its counters begin at zero, and the difference to the last ones wraps: the server counts as full until the next poll (`C95_restart_fails`).
- C96: a removal during a first or failing poll, or before the thread of the server has begun, is lost: the request never ends, and no server can be added or removed any more (`C96_removal_fails`, `C96_early_fails`); requests can use deleted details (`C96_deleted_fails`); the 1001st server is written beyond the array (`C96_full_fails`); names with zero bytes (`C96_zero_fails`).
- C94: a server with neither bandwidth nor processor left is named as an ingest point, before one of which only the processor is used up
  (`C94_ingest_full_fails`).
- C97: `doAutoPush` has the test of the scheduled time the wrong way around (`C97_scheduled_fails`) and starts pushes after their end
  (`C97_ended_start_fails`). `runPushCheck` evaluates the rules of a wildcard or tag for the pattern and not for each stream
  (`C97_wildcard_rule_fails`), ignores its start time (`C97_wildcard_time_fails`), does not stop its pushes when the rules stop to hold
  (`C97_wildcard_stop_fails`) or, for tags, when its end time passes (`C97_tag_end_fails`). The removal of the automatic pushes of a stream leaves one
  behind, because the removal of an element starts the iteration again and then skips the first element (`C97_removal_fails`).
- C98: texts of 65536 bytes and more are not recovered (`C98_long_fails`); a list that does not fit has no end mark, so that pushes of an
  older list are recovered (`C98_overflow_fails`).
- C99: the session reads each counter of a connection twice, to add the difference and to keep it, so that bytes reported in between are never
  counted (`C99_race_fails`). Connections that ended more than ten seconds before the next pass are skipped and then removed
  (`C99_stall_fails`), and there is no last pass when a session ends (`C99_end_fails`).
- C100: the seconds of all viewers (`mist_viewseconds_total`) are the sum over all passes of the seconds so far, which grows with the square of the time
  (`C100_seconds_fails`). What a session reports more than three seconds before it is read is lost (`C100_late_fails`); a session that is silent for
  ten minutes is forgotten, counts twice if it goes on (`C100_double_fails`) and has no line in the access log if it ends (`C100_access_fails`).
  Counters that start anew are missing in the totals of the server and taken away from those of the stream (`C100_negative_fails`).
- C102: `writeToShm` computes the time of the last run with the wrong sign (`bootMS - (lastunix - epoch) * 1000`), so whenever a variable is added or removed, or the controller restarts, the last runs of all variables are put as far in the future as they were in the past, and their targets run late (`C102_late_fails`).
- C102: after starting a target `variableRun` asks to be called again after ten seconds, whatever the interval is; nothing brings the check forward when a download ends (`C102_again_fails`).
- C102: a variable that is removed while its target runs comes back, without a target, when the target ends (`C102_zombie_fails`).
- C102: a request with more than five elements removes the variable from the configuration but not from shared memory (`C102_refused_fails`).
- C102: the page is only made larger if it was there already; with more than 95 variables the first page after a restart wraps, and the first variables are lost to readers (`C102_wrap_fails`).
- C103: `bufferFrame` stops at the first packet that has the time of the first key of the next page; if the last packet of a page has the same
  time, one packet is missing in the count and the page is never loaded (`C103_equal_fails`).
- C103: the priority of a page is `600 - seconds`, without a sign; a page more than ten minutes ahead gets the highest priority and is loaded before
  the page that is needed now (`C103_order_fails`).
- C104: the loop that stops listeners goes back to the first entry of the table after each removal and then skips it (`it = begin()` followed by `it++`), so that when the first two are no longer asked for, the second runs on until the next check (`C104_removal_fails`).
- C104: when the program of a connector is not found, `continue` is reached without removing the text from the set: the loop of `CheckProtocols` never ends and holds the configuration (`C104_hang_fails`).
- C104: the page of listeners holds 511 bytes of each text; longer ones are not recognised after a rolling restart, the listener is stopped and another started (`C104_long_fails`).
- C104: reloads are remembered by the number of the entry; deleting an earlier entry before the next check makes another listener reload (`C104_reload_fails`).
- C105: a packet whose length is a multiple of 255 and which exactly fills the table of a page ("segment barely fits") gets no final lacing value below 255, so a reader
  takes it as not ended and drops it at the next page, which is not marked as a continuation (`C105_exact_fails`).
- C105: `onFinish` replaces the mark of a continued page by that of the last page: the rest of a split packet is lost (`C105_finish_fails`); and when nothing is left to send,
  no page is marked as the last one (`C105_end_fails`).
- C105: `granules` is an `int`: positions from 2^31 on (12 hours of Opus) are wrong (`C105_granule_fails`).
- C105: the checksum is computed over the page without the four bytes of the checksum instead of with four zero bytes (`C105_crc_fails`).
- C105: `Page::read` gives up at a page without lacing values (`C105_empty_fails`).

- C106: a program map of a selection with two SCTE35 tracks counts the descriptor of the program twice and is malformed (`C106_cues_fails`). Initialisation data of an ID3 (or RAW) track is counted, written and then overwritten, so the rest of it is read as another stream (`C106_id3_fails`). Twelve AAC tracks with a language overflow the packet: `184 - loc` wraps in `memset` (`C106_many_fails`). A received map that continues in the next packet is read outside of the packet (`C106_long_fails`). A codec without a stream type keeps the type of an earlier table (`C106_stale_fails`; the outputs do not select such codecs). The service descriptor is said to be one byte longer than it is (`C106_service_fails`).
- C107: the recovered packet is given the size of the payload as the size of the packet, so its last 12 bytes are always missing, and its SSRC is not set (`C107_cut_fails`). Bits of the mask are tested with `128 - bit` instead of `128 >> bit`, so most corrections are taken to cover packets they do not cover and are of no use (`C107_mask_fails`). A lost packet longer than another makes bytes outside of the other be read (`C107_longer_fails`), one with 1 to 3 bytes of payload makes bytes behind it be written (`C107_tiny_fails`), and a correction of less than 23 bytes is used as a null pointer (`C107_short_fails`): a sender can crash the output. After numbers wrap around, packets of the last round stay in the history (`C107_history_fails`).
- C108: times of AAC files are sums of whole milliseconds, so at 44100 Hz every frame loses 0.22 ms and an hour is 34 s short (`C108_drift_fails`). A frame header with a size below six makes six bytes be written into a smaller buffer (`C108_small_fails`); a file cut within the header of its last frame makes a negative number of bytes be copied (`C108_cut_fails`); a frame without payload ends the track (`C108_empty_fails`). In transport streams a PES packet that ends within a frame header makes a byte behind it be read and loses the frame (`C108_header_fails`).
- C109: `compareExcept` takes an empty list or object as equal to any value without members, so a change from `[]` to a string is never written to the page (`C109_empty_fails`).
- C109: the reload of a newer configuration file does not write pages until the next API request (`C109_reload_fails`), and no reload ever removes the page of a stream that is gone (`C109_removed_fails`); the uplink's `deletestream` does not either (`C109_uplink_fails`).
- C109: saving skips members named "log", "online" and "error" at every depth, so a stream with such a name is lost on restart (`C109_lost_fails`).
- C109: names with a '+' and names of more than 100 bytes are accepted for new streams but cannot be looked up (`C109_plus_fails`, `C109_long_fails`).
- C110: SubRip responses have periods in their times, which the server's own reader does not take: starts lose their milliseconds and durations are wrong (`C110_dot_fails`).
- C110: the test for a WebVTT file compares seven bytes with six and never holds, so WebVTT files are misread (`C110_vtt_fails`).
- C110: the reader loses a last subtitle without an empty line, makes packets with unset times of further empty lines, keeps carriage returns, and joins a first line of one byte to the second (`C110_last_fails`, `C110_blank_fails`, `C110_crlf_fails`, `C110_short_fails`).
- C110: texts with empty lines are written as they are, so other blocks can be made up in them (`C110_inject_fails`).
- C111: for PCM the RIFF size counts 12 bytes of a chunk that is not written (`C111_pcm_fails`); odd data is not filled up (`C111_odd_fails`); the block size is `channels * (bits << 3)` and not `channels * bits / 8` (`C111_block_fails`).
- C111: samples of 32 bits are sent from a buffer into which nothing was copied (`C111_wide_fails`), and parts of samples are read past their end (`C111_part_fails`).
- C112: layer 3 frames of MPEG-2 are taken to be twice as long (`C112_lsf_fails`); layer 1 sizes at 44.1 kHz are rounded too late (`C112_layer1_fails`); layer 1 of MPEG-1 counts 374 samples (`C112_count_fails`).
- C112: the test for a tag joins its three comparisons by "or" (`C112_first_fails`), and the size of the tag is put together by bitwise or with a sum that can carry (`C112_tag_fails`).
- C112: the search for a sync word moves its pointer but not its offset (`C112_sync_fails`); a cut off frame is sent with bytes left in the buffer (`C112_cut_fails`); dual channel counts as one channel (`C112_dual_fails`).
- C113, HLS input: a segment encrypted without an explicit vector is to use its media sequence number; the code uses that number plus one, so such segments do not decrypt (`C113_iv_fails`). A key tag without a vector keeps the vector of an earlier tag (`C113_keepiv_fails`).
- C113: when a key cannot be downloaded, `keys[keyUri]` stores an empty key, so it is never asked for again and all later segments are read as if not encrypted (`C113_retry_fails`).
- C113: `METHOD` is ignored; for `METHOD=NONE` a key is asked for at the address `OD=NONE` (`C113_none_fails`). A key tag without `METHOD=` makes `substr` throw, which ends the input (`C113_method_fails`). `IV=` is searched for in the whole line, also inside the address (`C113_ivuri_fails`).
- C113: a playlist without segments but with a higher media sequence empties the list, after which `front()` of it is read (`C113_empty_fails`). When the media sequence starts again, the new segments are ignored until their numbers exceed the old ones, and the restart that the code intends does not happen (`C113_restart_fails`).
- C114, FLAC input: `utfVal` takes five bits from the first byte of a number of four bytes instead of three, so frame 65536 is read as another number. It and all that follows becomes one packet together with frame 65535; at 4096 samples and 44.1 kHz this is after 101 minutes (`C114_long_fails`).
- C114: the check sum of a header is looked for right behind the number, also when block size or rate follow, so a shorter last frame, which nearly every file has, is merged with the frame before it (`C114_last_fails`). Frames whose rate is in the stream information only end the reading (`C114_rate_fails`).
- C114: the check of frame numbers is left out when the present number is 0 (`C114_first_fails`); the search reads up to 13 bytes behind a sync code without checking that they are there (`C114_end_fails`). The size of an ID3 tag is combined by "or" with a sum that can carry, and any one of the three letters of `ID3` is enough (`C114_tag_fails`).
- C115, playlist input: `maxIndex = playlist.size() - 2` is `npos`, which stands for no limit, when the first entry is to start later, so that entry is played now (`C115_first_fails`). When the file cannot be opened, the limits are cleared but the old entries kept (`C115_unread_fails`).
- C115: when the entry for the present time cannot be started and another one is to start later, the index is clipped before it reaches the end of the list, so the wait is never reached and the process tries again without pause (`C115_spin_fails`). For the same reason the last entry before a start time is repeated instead of starting again with the first of its period (`C115_repeat_fails`).
- C115: after the last start time of the day `reloadOn` is 0xFFFF and the clock is not looked at, so an entry that plays over midnight is not stopped by the first start time of the next day (`C115_midnight_fails`). A last line without end of line is ignored (`C115_last_fails`), and a carriage return stays in the name (`C115_cr_fails`).
- C116: a start code that two reads cut apart is not found, so two units become one packet (`C116_split_fails`).
- C116: one unit is taken for each read; units left in the buffer at the end of the data are lost (`C116_lost_fails`), and so is the last unit (`C116_last_fails`).
- C116: the slices of one frame get different times, since units are counted (`C116_slices_fails`).
- C117: the loop asks for more than four bytes whatever the size of the length fields, so a very short last unit is not sent (`C117_short_fails`).
- C117: lengths are not compared with the packet: bytes behind it in memory are sent (`C117_past_fails`).
- C117: for H.265 length fields are taken to have four bytes (`C117_hevc_fails`); offsets are cut to 16 bits (`C117_offset_fails`).
- C119: behind a nearly full packet a unit of two or three bytes makes `maxDataLen - rtpPacketSize - 4` go below zero, and `memcpy` gets that length (`C119_overflow_fails`).
- C119: a unit with an invalid size field has size zero and both loops of `sendAV1` go on for ever (`C119_hang_fails`); so for every frame whose last unit lacks bytes of its payload (`C119_truncated_fails`).

Found by reading, without a theorem: a comment header of more than 64770 bytes before a setup header makes a page whose table does not know all that is sent (ogg.cpp 455-537); `Key::operator[]` on a missing member dereferences the end iterator (a configured key without
"kid" ends the controller); stream lists of a key longer than 128 bytes are cut in the shared page and then read as "*";
`bitstream` with the least significant bit first; `ts_packet.cpp` `FromFile`, `getOPCR`; `trackValid` off by one; `keyTimingsMatch`;
`sendElemDate`; the `5/4` scaling of VP8 dimensions is integer division; the last reference
of the `sidx` box of a recording asks for the time of the key after the last one, which is zero, and leaves out the data of the last
fragment (cmaf.cpp 140-156); `runPushCheck` goes on with an iterator after `removePush` has freed the entry (controller_push.cpp);
`setPushStatus`, the stopping by stream and the graceful stop do not take the mutex of the list of pushes; two entries with the same
stream and target, one of which is inhibited, reset each other's counter; a status report for process 0 is listed for ever and ends the
list in shared memory; the removal of writers (controller_external_writers.cpp 172) has the same fault as that of automatic pushes;
without sizes of keys `parseHeader` adds up the sizes of data only, so that pages are too small and packets are counted but not stored (input.cpp 1365-1380).

## What is not modelled

Inputs and outputs for specific containers and protocols other than those above (SDP, SRT, AVI, of FLAC seeking and saved headers, of WebRTC all but STUN and the
recovery of lost packets, of HLS the text of playlists and, in the input, master playlists, maps, times and the decryption itself, of DASH the manifest, of Ogg the input's tables of codecs), parameter sets of H.264 and H.265, encryption of segments,
the distances and configuration of the load balancer, the analysers and the web interface; threads inside one process; the file system. Within the modelled
files the functions that no definition cites are not modelled.
