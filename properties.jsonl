{"id": "C01", "title": "Base64 encoding is lossless in both alphabets", "statement": "Decoding the output of the Base64 encoder returns exactly the original bytes, for the standard alphabet (with padding) and for the URL alphabet (padding stripped); the encoded text contains only characters of the announced alphabet and has length 4*ceil(n/3) in the padded form.", "quantifier": "every byte string of every length, both alphabet settings", "why_tests_cant": "The input domain is infinite and the three residues of the length mod 3 interact with every byte value; a test only samples.", "anchors": ["lib/encode.cpp: Encodings::Base64::encode", "lib/encode.cpp: Encodings::Base64::decode", "lib/encode.cpp: b64CharVal"]}
{"id": "C02", "title": "Hexadecimal encoding is lossless and case-insensitive on input", "statement": "Decoding the hexadecimal encoding of a byte string returns the byte string, the encoding uses exactly two characters from 0-9a-f per byte, and decoding does not depend on the letter case of the hexadecimal text.", "quantifier": "every byte string; every upper/lower-casing of its hexadecimal text", "why_tests_cant": "Infinite domain and exponentially many casings.", "anchors": ["lib/encode.cpp: Encodings::Hex::encode", "lib/encode.cpp: Encodings::Hex::decode", "lib/encode.h: Encodings::Hex::ord"]}
{"id": "C03", "title": "URL percent-encoding is lossless and only emits safe characters", "statement": "Decoding a percent-encoded string returns the original string for any list of additionally exempted characters that does not contain '%' (nor '+' in query mode), and every character of the encoded text is unreserved, explicitly exempted, '%', or '+' standing for a space in query mode.", "quantifier": "every byte string, every exemption list, both query modes", "why_tests_cant": "Infinite domain; a wrong boundary in a character class only shows for single byte values in particular neighbourhoods.", "anchors": ["lib/encode.cpp: Encodings::URL::encode", "lib/encode.cpp: Encodings::URL::decode"]}
{"id": "C04", "title": "Query-string variables survive serialisation and parsing", "statement": "Rendering a set of request variables as a query string and parsing that string gives back the same variables with the same values, whatever bytes names and values contain, provided names are not empty.", "quantifier": "every finite map from non-empty byte strings to byte strings", "why_tests_cant": "Arbitrary bytes include the separators '&', '=', '+', '%', so the property is about every interleaving of separators and data.", "anchors": ["lib/http_parser.cpp: HTTP::parseVars", "lib/http_parser.cpp: HTTP::argStr"]}
{"id": "C05", "title": "Fixed-width integer storage is lossless", "statement": "Storing an unsigned integer in 16/24/32/40/48/56/64 bits big-endian (and the little-endian variants) and loading it back returns the value modulo the width, writes exactly that many bytes and touches no neighbouring byte; a stored double reads back as the same bit pattern.", "quantifier": "every value of every width, every surrounding buffer content and position", "why_tests_cant": "2^64 values times arbitrary surrounding memory.", "anchors": ["lib/bitfields.h: Bit::btohs/htobs", "lib/bitfields.h: Bit::btoh24..btohll/htob24..htobll", "lib/bitfields.h: Bit::btohs_le..", "lib/bitfields.h: Bit::htobd/btohd"]}
{"id": "C06", "title": "EBML variable-length integers are lossless, minimal and self-delimiting", "statement": "Every integer below 2^56-1 that is written as an EBML number is read back as the same integer, in the number of bytes announced by the size function, which is the smallest possible one that does not collide with the 'unknown size' pattern; the first byte alone determines the length, and trailing data never changes the value.", "quantifier": "every value below 2^56-1 and every trailing byte string", "why_tests_cant": "2^56 values; boundary errors occur at single values 2^(7k)-2.", "anchors": ["lib/ebml.cpp: EBML::UniInt::readSize", "lib/ebml.cpp: EBML::UniInt::writeSize", "lib/ebml.cpp: EBML::UniInt::readInt", "lib/ebml.cpp: EBML::UniInt::writeInt"]}
{"id": "C07", "title": "EBML element sizes announced in headers match the bytes that are sent", "statement": "For every element kind the sender can emit, the size computed in advance (and written into parent headers) equals the number of bytes actually sent, so a receiver that skips by the announced length always lands on the next element.", "quantifier": "every element id, integer, string, nesting of master elements, and block payload", "why_tests_cant": "Sizes depend on the magnitude of every nested value; off-by-one errors appear only at representation boundaries.", "anchors": ["lib/ebml_socketglue.cpp: EBML::sizeElem*", "lib/ebml_socketglue.cpp: EBML::sendElem*", "lib/ebml_socketglue.cpp: EBML::sendElemSeek", "lib/ebml_socketglue.cpp: EBML::sendSimpleBlock"]}
{"id": "C08", "title": "EBML integer element payloads keep their value", "statement": "An unsigned (or signed) integer written as an EBML element payload is read back as the same number by the payload reader.", "quantifier": "every unsigned 64-bit integer; every signed 64-bit integer", "why_tests_cant": "2^64 values; sign errors appear only when the top bit of the chosen byte count is set.", "anchors": ["lib/ebml_socketglue.cpp: EBML::sizeUInt/sizeInt", "lib/ebml_socketglue.cpp: EBML::sendElemUInt/sendElemInt", "lib/ebml.cpp: EBML::Element::getValUInt/getValInt"]}
{"id": "C09", "title": "Bit writer and bit reader are inverse", "statement": "Appending any sequence of (value,width) fields to a bit writer and reading the same widths from a bit reader over the produced bytes returns the same values in order; the produced byte count is the total bit count rounded up.", "quantifier": "every finite sequence of fields with widths 1..64 and values fitting the width", "why_tests_cant": "All alignments of all widths at all positions: unbounded sequences.", "anchors": ["lib/bitstream.cpp: Utils::bitWriter::append", "lib/bitstream.cpp: Utils::bitstream::peek/get/skip"]}
{"id": "C10", "title": "Exponential-Golomb coding is lossless", "statement": "Unsigned and signed Exp-Golomb values written by the bit writer are read back unchanged by the bit reader, wherever they are in the stream and whatever follows, and the announced encoded size is the number of bits used.", "quantifier": "every value whose code fits 64 bits, every prefix and suffix of the bit stream", "why_tests_cant": "2^32 values at every bit alignment.", "anchors": ["lib/bitstream.cpp: Utils::bitWriter::appendUExpGolomb/appendExpGolomb/UExpGolombEncodedSize", "lib/bitstream.cpp: Utils::bitstream::getUExpGolomb/getExpGolomb/golombGetter"]}
{"id": "C11", "title": "NAL unit framing conversion keeps every NAL unit", "statement": "Converting length-prefixed NAL units to Annex B and back yields the same sequence of NAL units, for NAL units that themselves contain no start code and do not end in a zero byte; the start code scanner returns the first start code position or reports none.", "quantifier": "every list of such NAL units of any size; every byte string for the scanner", "why_tests_cant": "Unbounded byte strings; start codes overlap with payload zeros in unboundedly many ways.", "anchors": ["lib/nal.cpp: nalu::toAnnexB", "lib/nal.cpp: nalu::fromAnnexB", "lib/nal.cpp: nalu::scanAnnexB", "lib/nal.cpp: nalu::parseNalSizes"]}
{"id": "C12", "title": "AMF0 values survive packing and parsing", "statement": "Every AMF0 value the server can construct (numbers, booleans, strings, long strings, dates, null, undefined, references, objects, ECMA arrays, strict arrays, nested to any depth) packs to bytes that parse back to the same value, and parsing consumes exactly the bytes of the value even when other data follows.", "quantifier": "every value of every nesting depth with non-empty member names shorter than 65536 bytes, every trailing byte string", "why_tests_cant": "Recursive data type: infinitely many shapes.", "anchors": ["lib/amf.cpp: AMF::Object::Pack", "lib/amf.cpp: AMF::parseOne", "lib/amf.cpp: AMF::parse"]}
{"id": "C13", "title": "AMF0 parsing never reads outside its input", "statement": "Parsing an arbitrary byte string as AMF0 only looks at bytes inside the given buffer and terminates.", "quantifier": "every byte string, including truncated and hostile ones", "why_tests_cant": "Malicious inputs form an infinite space; a fuzzer samples it.", "anchors": ["lib/amf.cpp: AMF::parseOne"]}
{"id": "C14", "title": "WebSocket frames are lossless and self-delimiting", "statement": "A frame header and payload sent by one side is decoded by the other side to the same opcode, final flag and payload, for both roles (masked client, unmasked server), consuming exactly the frame; an incomplete frame is not consumed at all.", "quantifier": "every payload of length below 2^63, every opcode, mask key, and every following data; every strict prefix of a frame", "why_tests_cant": "Length thresholds 125/126/65535/65536 combined with all masks, prefixes and payloads.", "anchors": ["lib/websocket.cpp: HTTP::Websocket::readFrame", "lib/websocket.cpp: HTTP::Websocket::sendFrameHead"]}
{"id": "C15", "title": "Fragmented WebSocket messages survive interleaved control frames", "statement": "A message sent as several fragments is delivered as the concatenation of its fragments with the opcode of its first fragment, even when control frames (ping/pong) arrive between the fragments.", "quantifier": "every fragmentation of every message and every interleaving with control frames", "why_tests_cant": "Unbounded sequences of frames and interleavings.", "anchors": ["lib/websocket.cpp: HTTP::Websocket::readFrame"]}
{"id": "C16", "title": "Socket buffer is a faithful byte queue", "statement": "A receive buffer behaves as a plain byte queue: any sequence of append, prepend, skip, remove, copy and clear calls returns exactly the bytes a simple queue of bytes would return, however the data was cut into blocks; line-splitting mode only changes how much is available, never the bytes.", "quantifier": "every finite history of buffer operations with any data and chunking", "why_tests_cant": "Unbounded histories and all possible cuts of the data into blocks.", "anchors": ["lib/socket.cpp: Socket::Buffer::append/prepend/get/copy/remove/skip/available/bytes/bytesToSplit/compact"]}
{"id": "C17", "title": "Shared ring table returns what was last written, and only live records", "statement": "In the shared-memory record table, a record that has been added and not deleted or overwritten by ring wrap-around reads back exactly the value last written; at most 'record count' newest records are alive at any time; deleting and adding never disturb other live records.", "quantifier": "every table geometry and every finite history of add, write and delete calls", "why_tests_cant": "Unbounded histories with wrap-around; counters are 32/64 bit.", "anchors": ["lib/util.cpp: Util::RelAccX::addField/addRecords/deleteRecords/setInt/getInt/isRecordAvailable/getPointer", "lib/util.cpp: RECORD_POINTER"]}
{"id": "C18", "title": "RTMP chunk streams carry messages losslessly", "statement": "Messages written to an RTMP chunk stream are reassembled by the reader to the same type, message stream, timestamp and payload, in order, for every chunk size, chunk stream id and header compression the writer chooses, also when the bytes arrive in arbitrary pieces.", "quantifier": "every finite sequence of messages on every chunk stream, every chunk size, and every cut of the byte stream", "why_tests_cant": "Header compression depends on the whole history of previous messages per chunk stream.", "anchors": ["lib/rtmpchunks.cpp: RTMPStream::Chunk::Pack", "lib/rtmpchunks.cpp: RTMPStream::Chunk::Parse"]}
{"id": "C19", "title": "JSON text round trip", "statement": "Rendering a JSON value as text and parsing it gives back an equal value, for any nesting of objects, arrays, integers, booleans, null and strings.", "quantifier": "every JSON value of any nesting depth over those constructors", "why_tests_cant": "Recursive data type; strings contain arbitrary bytes with multi-byte escapes.", "anchors": ["lib/json.cpp: JSON::Value::toString", "lib/json.cpp: string_escape", "lib/json.cpp: read_string", "lib/json.cpp: JSON::Value::Value(std::istream)", "lib/json.cpp: UTF8/UTF16"]}
{"id": "C20", "title": "JSON text never breaks out of its quotes", "statement": "The quoted form of any byte string contains no unescaped quote, no control character and no raw non-ASCII byte, so a peer's JSON parser always finds the end of the string where the server meant it.", "quantifier": "every byte string", "why_tests_cant": "Infinite domain; injection needs one missed byte value in one context.", "anchors": ["lib/json.cpp: string_escape"]}
{"id": "C21", "title": "Packed (DTMI) values are lossless and their predicted size is exact", "statement": "Packing a JSON value into the binary DTMI form produces exactly as many bytes as the size function predicts, and unpacking returns an equal value and consumes exactly those bytes.", "quantifier": "every JSON value of any depth", "why_tests_cant": "Recursive data type with length fields at each level.", "anchors": ["lib/json.cpp: JSON::Value::toPacked", "lib/json.cpp: JSON::Value::packedSize", "lib/json.cpp: JSON::fromDTMI"]}
{"id": "C22", "title": "Every emitted transport stream packet is exactly 188 bytes and carries its payload", "statement": "Filling a transport stream packet with payload and stuffing it always yields exactly 188 bytes with the sync byte first, and reading the payload back returns exactly the bytes that were put in, for every amount of payload that fits.", "quantifier": "every payload length and content, with and without adaptation field / PCR", "why_tests_cant": "185 stuffing lengths times header variants times arbitrary payload.", "anchors": ["lib/ts_packet.cpp: TS::Packet::fillFree/addStuffing/getPayload/getPayloadLength/getDataSize"]}
{"id": "C23", "title": "PES presentation and decode timestamps survive encoding", "statement": "A 33-bit timestamp encoded into a PES header is decoded as the same 33-bit timestamp, with the marker bits set.", "quantifier": "every 33-bit timestamp", "why_tests_cant": "2^33 values.", "anchors": ["lib/ts_packet.cpp: TS::Packet::getPESTimestamp / encodePESTimestamp", "lib/ts_stream.cpp: decodePTS"]}
{"id": "C24", "title": "Program clock references survive encoding", "statement": "A 42-bit program clock reference written in a transport stream packet is read back as the same value.", "quantifier": "every clock value below 2^33*300", "why_tests_cant": "More than 2^41 values.", "anchors": ["lib/ts_packet.cpp: TS::Packet::setPCR", "lib/ts_packet.cpp: TS::Packet::getPCR"]}
{"id": "C25", "title": "Checksums can be computed incrementally and match their polynomial", "statement": "The CRC of a concatenation equals the CRC of the second part started from the CRC of the first, and the table-driven routines compute the remainder defined by their generator polynomial, so a section followed by its own checksum verifies to zero.", "quantifier": "every byte string, every split point, every initial value", "why_tests_cant": "Infinite domain.", "anchors": ["lib/checksum.h: checksum::crc32c/crc32LE/crc32/crc16/crc8"]}
{"id": "C26", "title": "RTP packets leave the sorter in order, without duplicates or inventions", "statement": "Whatever order packets arrive in, the sorter delivers packets with strictly advancing sequence numbers, never delivers a packet twice and never delivers one that did not arrive; a stream that arrives in order is delivered completely.", "quantifier": "every finite sequence of arrivals with any reordering, duplication and loss", "why_tests_cant": "Unbounded schedules including 16-bit wrap-around.", "anchors": ["lib/rtp.cpp: RTP::Sorter::addPacket"]}
{"id": "C27", "title": "RTP fragmentation can be reassembled exactly", "statement": "A video frame larger than one packet is cut into packets none of which exceeds the size limit, whose payloads concatenate to exactly the frame, with the marker on the last packet only.", "quantifier": "every frame size and content, every packet size limit", "why_tests_cant": "Unbounded frame sizes; off-by-one at every multiple of the limit.", "anchors": ["lib/rtp.cpp: RTP::Packet::sendVP8/sendVP9", "lib/rtp.cpp: RTP::Packet::sendH264/sendH265"]}
{"id": "C28", "title": "RTP header size accounts for every contributing source", "statement": "The header length the receiver computes for an RTP packet is 12 bytes plus 4 per contributing source, plus padding as announced, so the payload starts where the sender put it.", "quantifier": "every RTP header", "why_tests_cant": "All 16 source counts with all flags; wrong mask only shows for odd counts.", "anchors": ["lib/rtp.cpp: RTP::Packet::getHsize/getContribCount/getPayloadSize"]}
{"id": "C29", "title": "DTSC media packets keep all their fields", "statement": "A media packet built from time, offset, track, byte position, key flag and data reads back the same time, track, offset, byte position, key flag and data through the generic accessors; its length field equals its real size and equals the size the metadata accounting predicts; appending data extends exactly the data field.", "quantifier": "every field value and data string, every sequence of appends", "why_tests_cant": "2^64 field values and unbounded data; length arithmetic depends on which optional fields are present.", "anchors": ["lib/dtsc.cpp: DTSC::Packet::genericFill/appendData/appendNal/upgradeNal/getDataStringLenOffset", "lib/dtsc.cpp: DTSC::Scan::getMember/skipDTSC", "lib/dtsc.cpp: DTSC::Meta::update"]}
{"id": "C30", "title": "Stream index stays consistent with the packets received", "statement": "After any history of packet arrivals, every packet belongs to exactly one key; the keys partition the packets in order; key times and packet times never decrease; fragments partition the keys; and total sizes equal the sums of their packets.", "quantifier": "every finite history of packets with arbitrary timestamps, sizes and key flags", "why_tests_cant": "Unbounded histories; index fields are updated incrementally.", "anchors": ["lib/dtsc.cpp: DTSC::Meta::update"]}
{"id": "C31", "title": "Removing old data keeps the stream index consistent", "statement": "Removing the first key of a track removes exactly that key and its packets: the first remaining packet is the first packet of the first remaining key, the first timestamp is that key's timestamp, and partially removed fragments are not offered any more.", "quantifier": "every history of packet arrivals interleaved with removals", "why_tests_cant": "Unbounded interleavings of insertions and removals.", "anchors": ["lib/dtsc.cpp: DTSC::Meta::removeFirstKey", "lib/dtsc.cpp: DTSC::Meta::update"]}
{"id": "C32", "title": "The live buffer never evicts data that is still promised", "statement": "While a live stream is active, automatic buffer-size eviction never leaves a track with less than the configured buffer time, never leaves fewer than four whole fragments and never leaves the track without a key.", "quantifier": "every buffer state, every buffer time setting, every eviction run", "why_tests_cant": "Unbounded states and repeated evictions.", "anchors": ["src/input/input_buffer.cpp: InputBuffer::removeKey", "src/input/input_buffer.cpp: InputBuffer::removeUnused"]}
{"id": "C33", "title": "The serialized stream header has the announced length", "statement": "The number of bytes sent for a stream header equals the length written in its first 8 bytes, for any selection of tracks.", "quantifier": "every stream with any tracks, names, codecs, init data and index sizes; every selection", "why_tests_cant": "Unbounded sizes and 2^n track selections.", "anchors": ["lib/dtsc.cpp: DTSC::Meta::send", "lib/dtsc.cpp: DTSC::Meta::getSendLen"]}
{"id": "C34", "title": "Seeking finds the key that contains the requested time", "statement": "Looking up a timestamp returns the key whose interval contains it, if any key contains it; looking up the packet for a timestamp returns the first packet at or after that time within the track.", "quantifier": "every consistent index and every timestamp", "why_tests_cant": "Unbounded indexes; boundary cases at interval edges and gaps.", "anchors": ["lib/dtsc.cpp: DTSC::Meta::getKeyIndexForTime/getPartIndex/getPartTime/getKeyNumForTime", "lib/dtsc.cpp: DTSC::Keys::getIndexForTime"]}
{"id": "C35", "title": "A shared client slot is never owned by two processes", "statement": "When any number of processes register in the same shared client table concurrently, no two of them are ever given the same slot at the same time, whatever the interleaving, and a released slot can be claimed again.", "quantifier": "every number of processes and every interleaving of their steps, including releases by the table's master", "why_tests_cant": "Schedules are unbounded.", "anchors": ["lib/comms.cpp: Comms::Comms::reload", "lib/shared_memory.cpp: IPC::semaphore::wait/post"]}
{"id": "C36", "title": "A media track is never claimed by two producers", "statement": "When several processes try to claim the same track concurrently, at most one succeeds until the owner abandons it, and only the owner can abandon it.", "quantifier": "every number of processes and every interleaving of claim and abandon calls", "why_tests_cant": "Schedules are unbounded.", "anchors": ["lib/dtsc.cpp: DTSC::Meta::claimTrack/abandonTrack/isClaimedBy"]}
{"id": "C37", "title": "Stream names are sanitized", "statement": "After sanitizing a requested stream name, the part before the first '+' or space contains only lower-case letters, digits, '_', '.', and '-', nothing from a '?' onwards survives, and sanitizing again changes nothing.", "quantifier": "every byte string", "why_tests_cant": "Infinite domain; security-relevant characters only matter in particular positions.", "anchors": ["lib/stream.cpp: Util::sanitizeName"]}
{"id": "C38", "title": "URL paths are normalised", "statement": "Parsing a URL removes '.' and '..' segments from its path so that the resulting path never climbs above its root.", "quantifier": "every path string", "why_tests_cant": "Infinite domain; combinations of empty, dot and encoded segments.", "anchors": ["lib/url.cpp: HTTP::URL::URL"]}
{"id": "C39", "title": "List splitting and trimming lose nothing", "statement": "Splitting a string at a delimiter and joining the pieces with it gives back the string; trimming removes exactly the leading and trailing white space.", "quantifier": "every string and delimiter", "why_tests_cant": "Infinite domain; edge cases with leading, trailing and repeated delimiters.", "anchors": ["lib/util.cpp: Util::splitString", "lib/util.cpp: Util::stringTrim"]}
{"id": "C40", "title": "IP address ranges match exactly the addresses they describe", "statement": "An address matches an address/prefix pair if and only if the first prefix bits agree.", "quantifier": "every pair of 16-byte addresses and every prefix length", "why_tests_cant": "2^256 address pairs times 129 prefixes.", "anchors": ["lib/socket.cpp: Socket::matchIPv6Addr", "lib/socket.cpp: Socket::isBinAddress"]}
{"id": "C41", "title": "Chunked transfer encoding carries bodies losslessly and independently of packetisation", "statement": "A body sent in chunks is received as the same body, whatever the chunk boundaries chosen by the sender and however the bytes are cut by the network.", "quantifier": "every list of non-empty chunks and every cut of the byte stream", "why_tests_cant": "Unbounded sequences and cuts.", "anchors": ["lib/http_parser.cpp: HTTP::Parser::Chunkify", "lib/http_parser.cpp: HTTP::Parser::parse"]}
{"id": "C42", "title": "Session identifiers distinguish different viewers", "statement": "Two viewers that differ in one of the fields that the configuration selects as identifying get different session keys before hashing.", "quantifier": "every pair of viewers and every selection of fields", "why_tests_cant": "Infinite domain of strings; collisions are adversarial.", "anchors": ["lib/comms.cpp: Comms::Sessions::generateSession"]}
{"id": "C43", "title": "Forward error correction recovers a lost packet", "statement": "The parity packets sent along with a media stream let any receiver that follows the standard rebuild a lost packet: if exactly one packet of a protected row or column is lost, combining the others with the parity packet yields the lost packet's payload, length, timestamp, marker and payload type.", "quantifier": "every set of packet contents and every lost position", "why_tests_cant": "Unbounded payloads.", "anchors": ["lib/rtp.cpp: RTP::FECPacket / applyXOR / generateBitstring"]}
{"id": "C44", "title": "Variable substitution in stream settings always terminates", "statement": "Replacing all occurrences of a variable name in a text terminates, leaves no occurrence created outside the replacement text, and reports the number of replacements made.", "quantifier": "every text, variable name and value", "why_tests_cant": "Infinite domain; self-referential values are the interesting ones.", "anchors": ["lib/util.cpp: Util::replace", "lib/stream.cpp: Util::streamVariables"]}
{"id": "C45", "title": "Emulation prevention bytes are removed exactly", "statement": "Removing emulation prevention bytes from a NAL unit returns the payload the encoder escaped, byte for byte, and an escaped payload never contains a start code.", "quantifier": "every payload of every length, for NAL units whose second byte is not zero", "why_tests_cant": "Runs of zero bytes of any length at any position interact with the escape bytes; the byte strings are unbounded.", "anchors": ["lib/nal.cpp: nalu::removeEmulationPrevention"]}
{"id": "C46", "title": "Shared tables describe themselves to other processes", "statement": "Whatever fields a process declares in a shared record table, any other process that opens the table finds exactly the same field names, types, sizes and positions; the fields lie inside the record and do not overlap.", "quantifier": "every sequence of field declarations with names of 1 to 31 bytes and a total record size below 4 GiB", "why_tests_cant": "Every combination of field types, explicit and default sizes and names produces a different descriptor; a mismatch corrupts memory shared between processes.", "anchors": ["lib/util.cpp: Util::RelAccX::addField", "lib/util.cpp: Util::RelAccX::RelAccX"]}
{"id": "C47", "title": "Command lines are split like a shell does", "statement": "A command line made of arguments, each written bare or in single or double quotes (with backslashes before quotes and backslashes), separated by spaces, is split into exactly those arguments, including empty ones.", "quantifier": "all lists of arguments (any bytes), all ways of writing each, all amounts of space between them", "why_tests_cant": "quoting state, escapes and empty arguments combine without bound", "anchors": ["lib/util.cpp: Util::shellSplit"]}
{"id": "C48", "title": "URLs survive being written out and parsed again", "statement": "Parsing the text form of a URL gives back its protocol, user name, password, host, port, path, query and fragment, whatever bytes the credentials, path and fragment contain.", "quantifier": "all URLs with a plain path", "why_tests_cant": "the number of combinations of special characters in the parts is unbounded", "anchors": ["lib/url.cpp: HTTP::URL::getUrl", "lib/url.cpp: HTTP::URL::URL", "lib/url.cpp: HTTP::URL::getEncodedPath"]}
{"id": "C49", "title": "Frames sent as a transport stream arrive as they were sent", "statement": "When frames of several tracks are written into one MPEG-TS stream, in any interleaving and with program tables inserted at any point, and the packets of one track are given to the demultiplexer, it delivers exactly that track's frames, in order, each with its exact bytes, its time and its composition offset, however often the 33-bit clock wraps in between; H264/HEVC frames arrive as the same NAL units behind start codes.", "quantifier": "every sequence of frames on any tracks, every frame size and content, every table schedule, every starting counter value", "why_tests_cant": "frame sizes, packet boundaries, stuffing amounts, counter positions, table schedules and clock wraps combine without bound", "anchors": ["src/output/output_ts_base.cpp: TSOutput::fillPacket, TSOutput::sendNext", "lib/ts_packet.cpp: Packet::fillFree, Packet::addStuffing, Packet::getPESVideoLeadIn, Packet::getPESAudioLeadIn", "lib/ts_stream.cpp: Stream::add, Stream::parsePES, decodePTS"]}
{"id": "C50", "title": "RTP timestamps become one running clock", "statement": "The media times a receiver derives from 32-bit RTP timestamps follow the sender's clock: a sender whose clock runs for arbitrarily long, with packets arriving out of order by less than a quarter of the timestamp range, is given times that differ by exactly the differences of its clock, across any number of 32-bit wraps.", "quantifier": "every sequence of packet timestamps of a running clock with bounded reordering, unbounded length", "why_tests_cant": "The first wrap takes 13 hours at 90 kHz; reordering at the wrap is rarer still.", "anchors": ["lib/rtp.cpp: RTP::toDTSC::addRTP"]}
{"id": "C51", "title": "What is sent over RTP is what is received", "statement": "When the server's own RTP receiver is given the packets its sender made for a sequence of video frames or units, it delivers exactly those frames, in order, once each, with their contents, times and key flags; a lost packet costs only the frame it belongs to.", "quantifier": "every sequence of frames of any size and content, any sequence number start, VP8, VP9, H264 and H265", "why_tests_cant": "Unbounded frame sizes and counts; sequence wrap; off-by-one in fragment lengths.", "anchors": ["lib/rtp.cpp: RTP::Packet::sendVP8/sendVP9/sendH264/sendH265", "lib/rtp.cpp: RTP::toDTSC::addRTP/handleVP8/handleH264/handleHEVC"]}
{"id": "C52", "title": "Malformed RTP payloads are never read past their end", "statement": "Whatever bytes an RTP packet carries, the receiver reads only bytes of that packet; well-formed aggregation packets are taken apart into exactly the units they contain.", "quantifier": "every payload byte string", "why_tests_cant": "All byte strings; only a handful of malformed shapes overrun.", "anchors": ["lib/rtp.cpp: RTP::toDTSC::handleVP8/handleH264/handleHEVC"]}
{"id": "C53", "title": "Every registered client is seen by the table's master", "statement": "A client that has registered in a shared client table is within the part of the table the master looks at, so that the master's next pass sees it, until it is released.", "quantifier": "every number of clients and every interleaving of registrations, releases and passes of the master", "why_tests_cant": "Schedules are unbounded; the loss needs a registration in the middle of a pass.", "anchors": ["lib/comms.cpp: Comms::Comms::reload/setRecordCount", "lib/comms.h: COMM_LOOP"]}
{"id": "C54", "title": "Decoding binary JSON stays inside the data", "statement": "Decoding a binary JSON (DTMI) message, whatever its content, never reads memory outside the message and the zero byte behind it.", "quantifier": "every byte string", "why_tests_cant": "All byte strings, including ones cut short at any point.", "anchors": ["lib/json.cpp: JSON::fromDTMI"]}
{"id": "C55", "title": "Decoding binary JSON ends", "statement": "Decoding a binary JSON (DTMI) message, whatever its content, ends.", "quantifier": "every byte string", "why_tests_cant": "Termination over all byte strings; a hang needs one particular way of cutting a message short.", "anchors": ["lib/json.cpp: JSON::fromDTMI"]}
{"id": "C56", "title": "HTTP messages with a length arrive as sent", "statement": "A request or response that is built with a body and its Content-Length, and sent over a connection in any pieces, is read by the receiver with the same method or status, address, protocol, headers, query variables and body. Bytes that follow the message on the connection are left for the next one.", "quantifier": "every method, address, set of headers and variables, every body, every following data and every way of cutting the stream", "why_tests_cant": "The reader keeps state across calls; the number of ways to cut a stream is exponential, and header text, encoding and body length interact.", "anchors": ["lib/http_parser.cpp HTTP::Parser::parse", "lib/http_parser.cpp HTTP::Parser::Read", "lib/http_parser.cpp HTTP::Parser::BuildRequest", "lib/http_parser.cpp HTTP::Parser::BuildResponse", "lib/http_parser.cpp HTTP::Parser::SetBody"]}
{"id": "C57", "title": "Pipelined HTTP requests are delivered one by one", "statement": "When a client sends several requests on one connection without waiting, the server's read loop delivers exactly those requests, in order, each with its own headers, variables and body, however the network cuts or joins them.", "quantifier": "every list of requests and every way of cutting their concatenation into network pieces", "why_tests_cant": "Requests may share network pieces in any combination; a test exercises a few of the combinations.", "anchors": ["lib/http_parser.cpp HTTP::Parser::Read", "lib/http_parser.cpp HTTP::Parser::parse", "lib/socket.cpp Socket::Buffer"]}
{"id": "C58", "title": "Reading packed data in place agrees with unpacking it", "statement": "Looking members up by name, by number or along a path in data that is still in its packed binary form finds exactly the members that the packed value has, and reads their numbers and texts, without ever reading outside of the data.", "quantifier": "every value made of objects, arrays, integers and texts that fits the format, every member name, every number and every path", "why_tests_cant": "The reader walks nested lengths by pointer arithmetic; values nest without bound, and a wrong skip shows up only for particular neighbours.", "anchors": ["lib/dtsc.cpp DTSC::Scan::getMember", "lib/dtsc.cpp DTSC::Scan::getIndice", "lib/dtsc.cpp DTSC::Scan::getSize", "lib/dtsc.cpp skipDTSC", "lib/json.cpp JSON::Value::toPacked"]}
{"id": "C59", "title": "HTTP requests from any client are understood", "statement": "A request is read correctly however its sender writes it: header names in any case, blanks and tabs around names and values, lines ended with or without a carriage return, and cut into any network pieces. Every header is found under its name in any case, no other header is found, and exactly the announced body is taken from the connection.", "quantifier": "every method, path, protocol, list of headers with different names, spelling of names, blanks, line ends, body, following data and network cut", "why_tests_cant": "Senders vary spelling, blanks and line ends independently for every header; the combinations cannot be enumerated.", "anchors": ["lib/http_parser.cpp HTTP::Parser::parse", "lib/http_parser.cpp HTTP::Parser::GetHeader", "lib/http_parser.cpp HTTP::Parser::Trim"]}
{"id": "C60", "title": "JSON text from any writer is read as the value it denotes", "statement": "A standard JSON text is read as the value it denotes, whatever white space it contains, whether its strings use raw characters, short escapes or hexadecimal escapes in either case, and however deeply it is nested; of members with the same name the last one counts.", "quantifier": "every JSON text: every value, nesting, white space, spelling of strings and numbers", "why_tests_cant": "Texts nest without bound and every string has exponentially many spellings.", "anchors": ["lib/json.cpp JSON::Value::Value(std::istream &)", "lib/json.cpp read_string", "lib/json.cpp c2hex", "lib/json.cpp JSON::fromString"]}
{"id": "C61", "title": "A stream header that was written loads as the same stream", "statement": "Writing the header of a stream (tracks, codec details, fragments, keys and packets) and loading it again gives a stream with the same tracks, the same codec details and the same fragments, keys and packets, linked in the same way.", "quantifier": "every stream and every selection of its tracks, every number of fragments, keys and packets", "why_tests_cant": "The header is written as packed text by one function, with lengths computed by another, and read by a third; tables have any length, and each track carries kind-dependent fields.", "anchors": ["lib/dtsc.cpp DTSC::Meta::send", "lib/dtsc.cpp DTSC::Meta::getSendLen", "lib/dtsc.cpp DTSC::Meta::reInit", "lib/dtsc.cpp DTSC::Meta::addTrackFrom", "lib/dtsc.cpp DTSC::Meta::toFile"]}
{"id": "C62", "title": "Viewers never see half a packet", "statement": "While an input buffers packets on a shared data page, a viewer process that goes through the page at the same moment finds whole packets only, in the order in which they were buffered, with the time, track, offset, position, key flag and data they were buffered with. Every packet that was complete when the viewer started to look is found. If the input dies in the middle of a packet, that packet is never seen.", "quantifier": "every list of packets, every interleaving of the single bytes written with the single bytes read, and every point where the writer stops", "why_tests_cant": "Writer and reader share memory without locks; the order of stores matters only in interleavings of a few nanoseconds that a test cannot steer.", "anchors": ["src/io.cpp InOutBase::bufferNext", "lib/dtsc.cpp DTSC::Packet::reInit", "src/output/output.cpp Output::prepareNext", "src/output/output.cpp Output::seek"]}
{"id": "C63", "title": "Hashes are the published hash functions", "statement": "The MD5, SHA-256, SHA-384 and SHA-512 functions give, for every input that can be in memory, exactly the bytes (and the lower-case hexadecimal digits) that RFC 1321 and FIPS 180-4 define.", "quantifier": "every input shorter than 2^51 bytes (2^61 for SHA-384 and SHA-512), of every length modulo the block size", "why_tests_cant": "Infinite domain; padding has special cases at block borders, and a wrong constant or rotation is only visible for some inputs.", "anchors": ["lib/auth.cpp: Secure::md5, Secure::md5bin, Secure::sha256, Secure::sha256bin, Secure::sha384bin, Secure::sha512bin, Secure::shabin"]}
{"id": "C64", "title": "Message authentication codes are those of RFC 2104", "statement": "hmac_sha and hmac_shabin give, for every key and message, the code that RFC 2104 defines over the chosen SHA function, whatever the length of the key.", "quantifier": "every key, every message, each of the three hash functions", "why_tests_cant": "Infinite domain; keys shorter than, as long as and longer than a block take different paths.", "anchors": ["lib/auth.cpp: Secure::hmac_sha, Secure::hmac_shabin, Secure::hmacbin"]}
{"id": "C65", "title": "Accepted access tokens are signed by a configured key that allows the use", "statement": "A viewer or publisher that presents an access token (JSON Web Token) is let in only if a configured key, of the type that the token's algorithm needs, with the permission to watch or publish and with a stream pattern for the subject, verifies the token's signature; tokens with an unknown algorithm (also \"none\") are refused, and tokens rightly signed by a configured symmetric key with claims that are met are accepted.", "quantifier": "all key lists, tokens, stream names, hosts and times", "why_tests_cant": "A forged token can be any byte string and name any configured key; tests try the tokens one thinks of.", "anchors": ["lib/jwt.cpp: JWS::validateSignature, verify, verify_any, verify_hmac, verify_rsa, verify_ecdsa, isJWS", "src/session.cpp", "src/output/output.cpp: checkStreamKey"]}
{"id": "C66", "title": "Claims of access tokens are enforced", "statement": "While a viewer is let in because of a token, the stream is one its subject stands for, the host one it names, and the time is not before \"nbf\" and not after \"exp\".", "quantifier": "all tokens, stream names, hosts, times and later checks in the session", "why_tests_cant": "Times, names and patterns are unbounded; the failures are at negative times, short names and stars.", "anchors": ["lib/jwt.cpp: JWS::checkClaims, equalsWithWildcard", "src/session.cpp"]}
{"id": "C67", "title": "Keys for some streams open no others", "statement": "A token opens a stream for watching only if the key that signed it has a stream pattern that stands for this stream.", "quantifier": "all key lists, patterns, tokens and stream names", "why_tests_cant": "Patterns, subjects and names interact in unboundedly many combinations.", "anchors": ["lib/jwt.cpp: matchKeyPerms, equalsWithWildcard, JWS::checkClaims, JWS::validateSignature"]}
{"id": "C68", "title": "The keys in use are those of the configuration", "statement": "After any history of configurations the keys that verify tokens are exactly those of the last one, with the permissions and streams given there.", "quantifier": "all histories of configurations with any number of keys", "why_tests_cant": "It is about all histories; a test with one key does not show that a second one is lost.", "anchors": ["src/controller/controller_storage.cpp: jwkResolved", "lib/jwt.cpp: Key::Key, Key::operator bool"]}
{"id": "C69", "title": "Viewers of a live track find every key that is left, on the page that holds it", "statement": "While a live source sends packets and old keys are thrown away, the index and the pages of shared memory always agree: for every key that the index still offers, looking up its page by key number, by the viewer's own search and by time all give the same page, which exists and holds all packets of that key and of the other keys listed for it, in order and nothing else; a next page is announced exactly when there are later keys, and it starts with the first of them. Packets that go back in time are ignored, and tracks that are not video are cut into keys of about two seconds.", "quantifier": "all histories of packets and removals of the first key, for video and other tracks, all initial sizes of the tables, all key numbers and times", "why_tests_cant": "The page is left for a new one by size and by time, tables are resized while pages come and go at both ends, and lookups happen at any moment; a mistake shows only when a page boundary, a removal and a lookup meet.", "anchors": ["src/io.cpp: InOutBase::bufferLivePacket, bufferStart, bufferNext, isBuffered", "lib/dtsc.cpp: Meta::getPageNumberForKey, getPageNumbersForTime, nextPageAvailable, removeFirstKey", "src/output/output.cpp: Output::pageNumForKey"]}
{"id": "C70", "title": "A media playlist lists whole segments under fixed numbers, and fetching them gives every packet once", "statement": "At any moment of a live stream with at least two fragments, the HLS playlist lists consecutive whole segments: each goes from where the stream is cut to the next cut, and where it is cut follows from its packets alone. The number of a segment, by the media sequence number and its place, means the same segment in every playlist, whenever it is fetched and however long the lists are configured to be. No listed duration is more than the announced target. Segments are left out at the start only if more than four target durations stay listed. A playlist is not marked as ended while the stream is live. Fetching the listed segments one after the other gives every packet between the first start and the last end exactly once and in order. The playlist of a recording lists everything and is marked as ended.", "quantifier": "all histories of packets and removals of the first key, for video and other tracks, all settings of the list length, all pairs of moments of one stream", "why_tests_cant": "A player reloads the list at any moment while segments come at one end and go at the other; a wrong number or a gap shows only if a reload meets a certain combination of durations, removals and settings.", "anchors": ["src/output/output_hls.cpp: OutHLS::liveIndex, onHTTP, sendNext", "lib/dtsc.cpp: Meta::biggestFragment"]}
{"id": "C71", "title": "A low-latency playlist lists the last segments and their parts, and listed parts stay what they were", "statement": "At any moment of a live stream, the playlist with parts lists the last segments of the stream under their own numbers and without a gap: complete ones from one cut to the next and last the one that is being received, of which only parts are listed. The listed parts of a complete segment are the whole segment, those of the segment that is being received are the whole parts that are there, and the announced part is the next one. What was listed under a number stays: a later list has the same start, the same duration and the same parts, and perhaps more parts. Every listed part can be fetched, and fetching the parts of a segment gives the packets of that segment. A player that asks for it gets a list in which segments are skipped, but never those within the announced boundary. The playlist of a recording lists all of its segments.", "quantifier": "all histories of packets and removals of the first key, all requests (with and without parts, with skipping, list lengths, first numbers), all pairs of moments", "why_tests_cant": "Parts are listed while they appear, half a second each; whether a list fits to the one before depends on the moments of both.", "anchors": ["lib/hls_support.cpp: addMediaFragments, addMediaTags, addEndingTags, skippedSegments, getPartTargetTime", "src/output/output_cmaf.cpp: sendHlsMediaManifest, onHTTP"]}
{"id": "C72", "title": "Network addresses compare by place", "statement": "Addresses are ordered so that they can be sorted and looked up (no address before itself, transitive, any two different ones comparable); two socket addresses are taken for the same peer exactly if port and IP address agree, an IPv4 address and its IPv6-mapped form being the same; two equal addresses are equal, two different ones are not, and a UDP socket is found by the pair of addresses it connects.", "quantifier": "all pairs and triples of stored addresses of any bytes, all ports, all IPv4 and IPv6 addresses", "why_tests_cant": "the space of addresses cannot be enumerated, and a comparison that is wrong for one pair mixes up two peers", "anchors": ["lib/util.cpp: ResizeablePointer::operator==, operator<", "lib/socket.cpp: Address::operator<, operator==, compareAddress, Address::binForm, UDPConnection::equals"]}
{"id": "C73", "title": "The text of an address means that address", "statement": "The text that the server writes for an IP address, read by the rules of RFC 4291, is that address; texts of different addresses differ, so that viewers, sessions and access rules by IP never mix up two clients.", "quantifier": "all IPv4 addresses and all 2^128 IPv6 addresses, with every position and length of runs of zero groups", "why_tests_cant": "2^128 addresses cannot be enumerated; the shortening of zero runs has many special positions", "anchors": ["lib/socket.cpp: Address::host, hostBytesToStr"]}
{"id": "C74", "title": "STUN messages are built as the standard describes", "statement": "A STUN message built by any sequence of additions (user name, candidate nomination, mapped address, integrity, fingerprint) is, byte for byte, the message of RFC 5389 with these attributes: length field, padding, the address hidden with cookie and transaction (IPv4 also if it came mapped into IPv6), the MAC over the message up to the attribute, and the CRC-32 with the length that includes it; nothing of the memory it was built in remains.", "quantifier": "all sequences of additions, all types, transactions, names, addresses, passwords, MAC functions and contents of fresh memory", "why_tests_cant": "the combinations and the contents of memory cannot be enumerated; a byte left over shows only under some contents", "anchors": ["lib/stun.cpp: Packet::Packet, genTID, copyTID, addUsername, addUseCandidate, addXorMappedAddress, addIntegrity, addFingerprint"]}
{"id": "C75", "title": "STUN attributes are found in every message, and no packet is read beyond its end", "statement": "In every message an attribute is found with the value of the first of its type, and one that is not there is not found; for no received bytes at all the search reads outside of the packet or runs for ever.", "quantifier": "all headers, all lists of attributes with any values and padding, all received byte strings", "why_tests_cant": "hostile packets have unbounded shapes", "anchors": ["lib/stun.cpp: Packet::getAttributeByType, hasAttribute"]}
{"id": "C76", "title": "Binding requests are answered for the peer that knows the password only", "statement": "A WebRTC output answers a binding request exactly if it names one of its tracks and carries the integrity made with the password of that track; the answer has the transaction of the request, the address of the sender and the integrity for that password; all other packets change nothing and no packet makes it leave its memory.", "quantifier": "all received packets, all sets of tracks, states of the connection and addresses", "why_tests_cant": "the set of packets a stranger may send is unbounded", "anchors": ["src/output/output_webrtc.cpp: handleReceivedSTUNPacket", "lib/stun.cpp: Packet"]}
{"id": "C77", "title": "A viewer gets every packet of the tracks it selected, once, in order", "statement": "A viewer that starts at some position gets, of every track it selected and of no other, every packet from that position on, each once and in the order of the track; in sync mode the packets of all tracks come in order of time; no track is dropped or starved while the stream lives, and the end of a recording is reached with everything sent.", "quantifier": "all sets of tracks and start positions, all ways in which live tracks grow by packets, keys and pages between the requests of the viewer, both modes of the sorter", "why_tests_cant": "the interleavings of growth and requests are unbounded; losses occur only at page borders, at the live point or at the end", "anchors": ["src/output/output.cpp: prepareNext, seek, loadPageForKey, pageNumForKey, dropTrack", "lib/stream.cpp: packetSorter", "lib/dtsc.cpp: getPageNumbersForTime, getPageNumberForKey, getKeyNumForTime"]}
{"id": "C78", "title": "Only those who may use the API of the controller can", "statement": "Commands of the controller's API are run, and subscriptions on its websocket are made, only for requests that come from this machine without a proxy or that answer the challenge with the password of an account, or on a connection that was opened this way and not logged out since; such requests are always run. Accounts change only by commands that were run, except for the first one. An answer to a challenge can be used once, and a connection has a limited number of attempts.", "quantifier": "all interleavings of requests and websocket frames on any number of connections, all accounts, credentials and commands", "why_tests_cant": "the histories of a connection that decide about access are unbounded, and so are the requests of strangers", "anchors": ["src/controller/controller_api.cpp: authorize, getChallenge, handleAPIConnection, handleWebSocket"]}
{"id": "C79", "title": "Only those who may push to a stream can", "statement": "A push is accepted under the name of a stream only if the stream is configured for pushes, no trigger vetoes it, and the sender has its password or comes from its host, or it asks for neither; these are always accepted. A stream key or token is accepted for the stream it stands for and no other, and also only if that stream is for pushes. All other pushes are refused, and none ends the process.", "quantifier": "all names, passwords, sources of streams, addresses, answers of the trigger, keys and tokens", "why_tests_cant": "sources, names and passwords are unbounded texts, and it is the odd ones that open a stream to strangers", "anchors": ["src/output/output.cpp: allowPush, checkStreamKey", "lib/stream.cpp: checkStreamKey, sanitizeName"]}
{"id": "C80", "title": "A stream key opens the stream it was last set to, until it is removed", "statement": "After any history of requests that replace, delete and add stream keys, a key opens exactly the stream it was last set to since it was last removed, and nothing else is a key; deletion with a value removes a key only if it has this value.", "quantifier": "all histories of API requests about stream keys, all keys, streams and names that are tried", "why_tests_cant": "histories are unbounded, and the table for the other processes has limits in length and number that tests do not reach", "anchors": ["src/controller/controller_api.cpp: handleAPICommands (streamkeys, streamkey_add, streamkey_del)", "src/controller/controller_storage.cpp: writeConfig", "lib/stream.cpp: checkStreamKey", "lib/util.cpp: RelAccX::setString"]}
{"id": "C81", "title": "Triggers are run for the streams they are configured for, and their answers decide", "statement": "When something happens to a stream (a viewer connects, a push starts, a stream is deleted, ...), exactly those configured triggers run whose list of streams selects it: the last entry that names the stream (by its name, by the name before its '+', or by a tag), positive or with '!', decides; without such an entry the trigger runs only if its list has no positive entries. The event goes on exactly if every trigger that ran answered yes (1, yes, true, cont in any case, with any white space; the default when the handler does not answer or is not waited for), and a value that triggers may rewrite becomes the answer of the last one waited for.", "quantifier": "every configuration of triggers, stream, set of tags, handler behaviour and answer", "why_tests_cant": "the decision depends on a list of any length and order packed into a record of fixed size, and on every answer a handler may give; tests use one or two triggers.", "anchors": ["lib/triggers.cpp: Triggers::shouldTrigger, Triggers::doTrigger, Triggers::handleTrigger", "src/controller/controller_storage.cpp: writeConfig (triggers)", "lib/bitfields.cpp: Util::stringToBool"]}
{"id": "C82", "title": "A track selector selects the tracks it says", "statement": "A selector given by a viewer for a type of track selects, in letters of any case: the track of a number, the tracks with an ID, all, every track below or above a bit rate or resolution, the best, the worst or the closest one, the highest rate up to a limit, channel counts, B-frames, exact resolutions, codecs and languages (in two or three letters), and never a track that does not exist. In a list each item adds its tracks, an item behind '|' selects among those selected before, an item behind '!' takes its tracks away, and a list that starts with '!' takes away from all.", "quantifier": "every stream with any number of tracks, every set of tracks allowed, every type and selector text, and every list", "why_tests_cant": "the texts are a small language with overlapping forms (a number with a unit may be a bit rate, a channel count, a resolution or a name), whose meaning depends on all tracks at once; tests try some of the forms on one stream.", "anchors": ["lib/stream.cpp: Util::pickTracks, Util::findTracks", "lib/util.cpp: Util::parseResolutionString", "lib/langcodes.cpp: Encodings::ISO639::twoToThree"]}
{"id": "C83", "title": "Selected tracks can be played by the output and the viewer", "statement": "Every track that is selected for a viewer is one that the output supports (its codec or type is among those of the output, its encryption is one the output knows, and it is not further behind than the output allows), that is not refused to the viewer's user agent by an exception, and that has no B-frames if the output cannot have them; and it was either asked for by a selector, or no selector was given for its type. The last entry of an exception that says something about a user agent decides.", "quantifier": "every set of tracks, set of capabilities (codecs, exceptions, encryptions, delay), user agent, selectors and order of tracks", "why_tests_cant": "the capabilities are nested lists with marks and the exceptions ordered lists of four kinds; which combination matters depends on all tracks; tests have one output with one stream.", "anchors": ["lib/stream.cpp: Util::getSupportedTracks, Util::wouldSelect, Util::checkException"]}
{"id": "C84", "title": "Selection takes what is asked for and fills up with the best combination", "statement": "Every supported track asked for by a selector is selected. The other tracks are chosen for one of the codec combinations of the output: one that has room for all tracks asked for if there is any, and of these one that gets most tracks; every group of it gets a track if one is available, all available ones if it is for several, and otherwise at most one, the first in the configured order (by number or bit rate, up or down). Outputs without a list of codecs get all tracks for whose type there is no selector.", "quantifier": "every set of tracks, list of combinations, user agent, selectors and order", "why_tests_cant": "the choice maximises over all combinations and depends on counting matches with and without repetition; tests cannot enumerate combinations of tracks, groups and wishes.", "anchors": ["lib/stream.cpp: Util::wouldSelect, Util::sortTracks"]}
{"id": "C85", "title": "Media messages of RTMP are read with their track, codec, time, offset, key flag and data", "statement": "A video or audio message that conforms to the RTMP/FLV format or to Enhanced RTMP (any ModEx parts, with or without a track number) becomes, if it is a coded frame, a frame on its track with the codec, time, composition offset, key flag and data of the message, and, if it is a decoder configuration, the init data of its track. What the server itself sends over RTMP is such a message, so that a push from one server to another changes nothing.", "quantifier": "every codec, frame type, time, offset, track number, list of ModEx parts, rate, sample size, number of channels and content", "why_tests_cant": "the position of every field depends on several bits before it; audio and video share code; wrong offsets only show as jitter for some codecs and modes.", "anchors": ["lib/flv_tag.cpp: FLV::Tag::offset, getTrackID, getDataOffset, needsInitData, isInitData, getVideoCodec, getAudioCodec, skipModEx, DTSCVideoInit, DTSCAudioInit", "src/output/output_rtmp.cpp: OutRTMP::sendNext, OutRTMP::parseChunk"]}
{"id": "C86", "title": "FLV files and streams are read tag by tag, however they arrive", "statement": "However an FLV file is cut into pieces, exactly its tags are read, in order, each once all of it has arrived, and without an error. What the server records as FLV it reads back with the same times, offsets, key flags and data. Seeking in a file goes to the next tag of the wanted type.", "quantifier": "every file, every way of cutting it into pieces, every list of recorded frames", "why_tests_cant": "the number of ways to cut a file is exponential; the loader keeps its position in several variables across calls.", "anchors": ["lib/flv_tag.cpp: FLV::Tag::MemLoader, FileLoader, MemReadUntil, FileReadUntil, DTSCLoader, FLV::seekToTagType", "src/output/output_flv.cpp: OutFLV::sendNext", "src/input/input_flv.cpp: InputFLV::getNext"]}
{"id": "C87", "title": "Media messages of any content are read without leaving them", "statement": "Whatever bytes a publisher sends as an audio or video message, of any length, the server reads only bytes of that message (and the four bytes of length it stores behind it) to find track, codec, offset and data.", "quantifier": "every content of every message", "why_tests_cant": "memory errors depend on lengths and bits of malformed messages; tests send well-formed ones.", "anchors": ["lib/flv_tag.cpp: skipModEx, FLV::Tag::offset, getTrackID, getDataOffset, getData, getDataLen"]}
{"id": "C88", "title": "Times of media received over RTMP", "statement": "The frames of a track that a publisher sends over RTMP go into the stream with times that never go back. If the publisher's clock, of 24 or 32 bits, runs steadily, the times are the true ones over all rollovers, moved by the same amount for all tracks. Messages belong to the same track exactly if they have the same chunk stream and track number.", "quantifier": "every history of messages on any number of tracks, every start of the clock", "why_tests_cant": "rollovers happen after hours or weeks; what is done depends on the history of all tracks.", "anchors": ["src/output/output_rtmp.cpp: OutRTMP::parseChunk (messages 8, 9 and 18)"]}
{"id": "C89", "title": "CMAF segments describe exactly their packets", "statement": "The segment of a track from one time to another, as served for DASH, HLS with CMAF and Smooth Streaming, is a well-formed fragment (moof) followed by one box with data (mdat). The fragment lists exactly the packets at or after the first time and before the second, in order, each with its size and composition offset, and the data found at the place the fragment gives for a sample is that packet's data. Decode times are the packets' times, only samples at which decoding can start are marked so, and the last sample ends where the next segment begins.", "quantifier": "every history of packets and removals of old data, every pair of times whose packets the index finds, every size, offset and number of packets of a segment", "why_tests_cant": "The header is computed from the index before the data is sent, and its own size enters the offsets in it; whether both agree depends on the whole history of the index and on the times chosen.", "anchors": ["lib/cmaf.cpp: CMAF::keyHeader, keyHeaderSize, payloadSize", "lib/mp4.cpp: Box::setContent, setInt32, reserve", "lib/mp4_generic.cpp: TRUN::setSampleInformation, TFHD, TFDT, MFHD", "src/output/output_cmaf.cpp: OutCMAF::onHTTP, sendNext"]}
{"id": "C90", "title": "Samples of MP4 files are found by their tables", "statement": "For an MP4 file whose tables are sound, the place, size, time, composition offset and key-frame mark that are reported for any sample are exactly those of the tables of the file: the chunk that contains the sample, the sizes of the samples before it in that chunk, the sum of the durations before it, its offset, and whether its number is listed. The answer does not depend on which samples were asked for before, in which order, or how often. Samples shorter than a millisecond get times that are never before the true ones and never run back.", "quantifier": "every file with sound tables, every sequence of lookups before, every sample", "why_tests_cant": "The lookups keep cursors into run-length tables that are reused, advanced or reset by each question; whether an answer is right depends on the whole history of questions and on the shape of all tables.", "anchors": ["lib/mp4_stream.cpp: TrackHeader::getPart, increaseTime, size", "lib/mp4_generic.cpp: STTS, CTTS, STSS, STSC, STSZ, STCO, CO64", "src/input/input_mp4.cpp: InputMP4::readHeader, getNext"]}
{"id": "C91", "title": "Samples of fragmented MP4 files are found by their fragments", "statement": "For a fragment of an MP4 file, the samples reported for a track are as many as its runs say, and of each the place, size, time, composition offset and key-frame mark are those that the fragment says, with the defaults of the fragment and of the track where a run leaves them out. This holds in whatever order samples are asked for once the first was, whatever was read before and whatever other boxes and tracks the fragment contains. Fragments that the server writes itself are read back as they were written.", "quantifier": "every fragment, every combination of optional fields, every history of lookups, every sample", "why_tests_cant": "Each field of a run may be missing and moves the others; times are kept between lookups and depend on all of them.", "anchors": ["lib/mp4_stream.cpp: TrackHeader::getPart, nextMoof, read, increaseTime, size", "lib/mp4_generic.cpp: TRUN::getSampleInformation, TFHD", "lib/mp4_dash.cpp: TFDT", "lib/mp4.cpp: containerBox getChild, getChildren", "src/input/input_mp4.cpp: InputMP4::getNext"]}
{"id": "C92", "title": "MP4 files of recordings are what their header says", "statement": "The MP4 file that is served for a recording has tables that give every sample of every track its time, composition offset, size and key-frame mark as in the recording, and the bytes of the sample are in the file at the place the tables say. The length announced is that of the file. A request for a range of bytes is answered with exactly the bytes of that range of the whole file, wherever it starts and ends.", "quantifier": "every recording (any tracks, times, sizes and number of packets), every range of bytes", "why_tests_cant": "The header is computed from the index before any packet is read, the packets come from a different mechanism (playback), and ranges are found by a third; that all of them put the samples in the same order depends on all times and sizes of all tracks.", "anchors": ["src/output/output_mp4.cpp: OutMP4::mp4Header, mp4HeaderSize, findSeekPoint, respondHTTP, sendNext, SortSet", "src/output/output_mp4.h: keyPart, SortSet", "lib/http_parser.cpp: HTTP::Parser::Chunkify", "src/output/output.cpp: Output::prepareNext"]}
{"id": "C93", "title": "Range requests get the range that was asked for", "statement": "A request for a range of bytes of a recording (from a byte to another, from a byte on, or the last bytes) gets the answer that HTTP prescribes: the range, cut at the end of the file, with the right numbers in its headers, or a refusal if the file has no such bytes.", "quantifier": "every text of the header, every length of the file", "why_tests_cant": "The result depends on the digits of two numbers of any size and on the length of the file.", "anchors": ["src/output/output_http.cpp: HTTPOutput::parseRange", "src/output/output_mp4.cpp: OutMP4::respondHTTP", "src/output/output_ebml.cpp: OutEBML::respondHTTP", "lib/http_parser.cpp: HTTP::Parser::StartResponse"]}
{"id": "C94", "title": "The load balancer sends viewers to the best server", "statement": "A viewer of a stream is sent to a server that is online, offers the stream and has bandwidth left, and whose score (weights of processor, memory and bandwidth less their used shares, plus points for distance, for having the stream and for tags) no other such server exceeds; the fallback is given only if there is no such server. A server that uses less of everything never scores lower. The source of a stream is an online server other than the client that has the stream from an input of its own, and a full one only as a last resort; tags in the request apply to all kinds of requests.", "quantifier": "all lists of servers with all loads, streams, tags and states, all weights, and all requests", "why_tests_cant": "the score depends on about ten numbers for each server and is computed in unsigned arithmetic; tests with a few servers do not reach the combinations where parts become negative", "anchors": ["src/utils/util_load.cpp: hostDetails::rate, hostDetails::source, applyAdjustment, handleRequest"]}
{"id": "C95", "title": "The load balancer knows the load of servers and spreads viewers between polls", "statement": "After any history of requests, successful and failed polls, the number of viewers of a stream is the sum over the servers of that in their last reports, and a stream is known of a server just if its last report has it in use. Every viewer sent to a server sets aside 64 KiB to 1 MiB per second of its bandwidth, so that between two polls no server gets more viewers than fit in the bandwidth it has left; what is set aside is released again with later polls. The bandwidth in use is the bytes sent between two polls by the time between them, also when a server is started again.", "quantifier": "all histories of viewer requests, reports and failed polls of any number of servers", "why_tests_cant": "the claim is about all histories of two interleaved activities (polls and requests); a test sees one interleaving with one set of numbers", "anchors": ["src/utils/util_load.cpp: hostDetails::update, hostDetails::addViewer, hostDetails::badNess, hostDetails::getViewers, handleServer"]}
{"id": "C96", "title": "Servers can be added to and removed from the load balancer at any time", "statement": "However requests and polls are interleaved: no server is in the list twice; an added server is in the list and is polled until it is removed; a request to remove a server ends, and the server is then not in the list; other requests never use data of a removed server; up to the limit any number of servers can be added and more are refused.", "quantifier": "all interleavings of requests to add and remove servers, of the threads that poll servers, and of other requests", "why_tests_cant": "the failures need a removal to fall within a poll, or a request within the last steps of a removal; tests do not control the schedule of the threads", "anchors": ["src/utils/util_load.cpp: handleServer, initHost, cleanupHost, handleRequest"]}
{"id": "C97", "title": "Automatic pushes run exactly when their configuration says", "statement": "An automatic push is started for a stream only if an entry means the stream (by name, wildcard or tag), is not inhibited for it, its rules hold for the variables of the stream, its scheduled time has come and its end time has not passed. Nothing is pushed twice from a stream to the same target, and no more pushes are started in a second than the configured speed. When a push of an entry for one stream ends by itself it is started again once the configured time has passed. When the rules of an entry stop to hold or its end time passes, its pushes get the signal to end. A request to remove the automatic pushes of a stream removes all of them and no others.", "quantifier": "all configurations, all states of streams and variables, and all histories of checks, streams that come up, requests, and processes that start and end", "why_tests_cant": "the rules combine two conditions of eleven operators on texts and numbers with two times, three kinds of patterns, a count per target and a limit of speed; which combination matters depends on the history", "anchors": ["src/controller/controller_push.cpp: pushCheckLoop, runPushCheck, checkPush, checkPushRule, checkCondition, doAutoPush, isPushActive, startPush, stopActivePushes, removeAllPush, removePush, addPush, setPushStatus", "lib/stream.cpp: Util::streamMatches (pattern), Util::getActiveStreams", "lib/json.cpp: JSON::Iter::remove"]}
{"id": "C98", "title": "Pushes survive a restart of the controller", "statement": "The list of pushes that the controller had when it ended, with the process, stream and targets of each, is the list of the controller that is started next, whatever was in shared memory before.", "quantifier": "all histories of the controller, all pushes with any texts, and any contents of the shared memory before", "why_tests_cant": "sizes of texts and of the list matter, and what is left from an earlier, longer list", "anchors": ["src/controller/controller_push.cpp: writePushList, initPushCheck"]}
{"id": "C99", "title": "A session counts what its connections transferred", "statement": "A session adds up the bytes of all connections that belong to it, while these connections run at the same time in other processes. It never counts more than the connections reported; and once every connection has ended and the session has seen that, it has counted exactly what they reported, also when a new connection takes over the place of an old one.", "quantifier": "all interleavings of connections that begin, report, end or die with the steps of the session, for any number of connections", "why_tests_cant": "Connections and the session share memory without locks; a test runs one schedule, while the sum must be right for all of them.", "anchors": ["src/session.cpp: userOnActive, userOnDisconnect, main", "lib/comms.h: COMM_LOOP", "lib/comms.cpp: Connections"]}
{"id": "C100", "title": "The totals of the server add up all sessions", "statement": "The controller reads all sessions once per second and adds up what has increased. The totals of bytes of the server are the sums of what every session reported last, over all sessions, including those that ended and those that came back, since the first pass; addresses that are not counted go to their own totals. The numbers of sessions by kind are the numbers of sessions that started, and the access log has one line for each session that ended, with its duration and last counters. The seconds of viewers are the sum of the seconds of all viewers.", "quantifier": "all histories of passes, reports and ends of any number of sessions", "why_tests_cant": "The totals are kept by differences over days of operation, with sessions that start, end, fall silent and come back; a test sees a short history.", "anchors": ["src/controller/controller_statistics.cpp: runStats, statSession::update, statSession::finish, statStorage::update, statOnActive, statOnDisconnect"]}
{"id": "C101", "title": "The numbers of viewers of a stream are current", "statement": "After each pass a stream is listed exactly if a session that has not ended is on it, and its numbers of viewers, inputs, outputs and other sessions are the numbers of those sessions that have been there long enough (fifteen seconds, two for inputs), without duplicates. The totals of a stream grow by what its sessions report.", "quantifier": "all histories of passes, reports and ends of any number of sessions, for all streams and kinds", "why_tests_cant": "The numbers follow from logs of ten minutes per session that are cut off while they grow; a test counts a few sessions for a short time.", "anchors": ["src/controller/controller_statistics.cpp: runStats, statSession::hasDataFor, statStorage::update"]}
{"id": "C102", "title": "Custom variables have the value last set and their targets run on schedule", "statement": "The list of custom variables has exactly those that were added and not removed, each once, with the value last given by a request or by the output of its target (without white space at the ends, at most 127 bytes), and every process that replaces variables in texts finds these values, also after a restart. The target of a variable is started with the configured time limit of at least a second, is never started while it runs, is not started again before the interval has passed since its last result, and is started again at the first check after that; the controller looks again in time.", "quantifier": "all histories of requests to add, change and remove variables, of programs and downloads that end with any output or fail, of checks, clocks and restarts", "why_tests_cant": "values and times live in two places (the configuration and shared memory) that are written on different occasions; which of them is stale depends on the history", "anchors": ["src/controller/controller_variables.cpp: variableRun, writeToShm, addVariable, removeVariableByName, runVariableTarget, mutateVariable", "lib/util.cpp: Util::RelAccX", "lib/stream.cpp: Util::streamVariables"]}
{"id": "C103", "title": "Recordings are in memory when they are played", "statement": "A recording is divided into pages that follow each other and have every key exactly once, with the room and the number of packets their keys need. A page that is asked for is loaded and then has exactly the packets of the file for its keys, in order, wherever reading starts after seeking; it is never offered with packets missing; it stays for the configured time after the last request, whatever else is asked for, and is freed after that. For a viewer the pages of the current key, the next key and the next two minutes are loaded, in the order in which they are played.", "quantifier": "all recordings, all histories of requests and removals of unused pages, all positions of viewers", "why_tests_cant": "pages are loaded, counted and freed while viewers move; whether a page is whole depends on the recording, where reading starts after a seek, and the history of requests", "anchors": ["src/input/input.cpp: parseHeader, bufferFrame, removeUnused, userOnActive, userLeadOut", "src/io.cpp: bufferStart, bufferNext, bufferRemove, isBuffered"]}
{"id": "C104", "title": "The protocols that run are those of the configuration", "statement": "The controller keeps exactly the protocol listeners running that the configuration asks for: entries whose connector is installed, listens by itself and has its required parameters. Each runs once; those no longer asked for are stopped; one that runs and is still asked for is neither stopped nor restarted, whatever else changes and also when the controller itself is restarted. The status shown per entry says why it does not run. Requests that add, delete or update entries have exactly that effect, and an entry is never there twice; a reload goes to the listener it was asked for.", "quantifier": "all configurations, connector tables, histories of checks, ends of listeners, reloads, rolling restarts and crashes of the controller, and requests", "why_tests_cant": "Which listeners are stopped depends on the order of the entries in the table and on what was running before; a test shows one history.", "anchors": ["src/controller/controller_connectors.cpp:CheckProtocols", "src/controller/controller_connectors.cpp:saveActiveConnectors", "src/controller/controller_connectors.cpp:loadActiveConnectors", "src/controller/controller_api.cpp:removeDuplicateProtocols", "src/controller/controller_api.cpp:addprotocol"]}
{"id": "C105", "title": "OGG output carries the packets of a track", "statement": "What is sent for a track as OGG is a sequence of pages of RFC 3533, numbered from zero under one serial number, the first marked as the first, from which any reader gets exactly the headers and packets given, in order and unchanged. A page is marked as a continuation exactly if the one before ended within a packet; its granule position is that of the last packet ending on it; its checksum is that of the RFC; key frames start on a page of their own. The reader of the server splits any such page into its packets.", "quantifier": "all headers and histories of packets of any sizes, all codecs (Theora, Vorbis, Opus), all pages of a file", "why_tests_cant": "Where pages end depends on the sizes of all packets since the last page; packets of special sizes at special places in the table of a page go wrong, and positions only after hours.", "anchors": ["lib/ogg.cpp:Page::sendTo", "lib/ogg.cpp:Page::shouldSend", "lib/ogg.cpp:Page::calculateGranule", "lib/ogg.cpp:Page::read", "lib/ogg.cpp:decodeXiphSize", "src/output/output_ogg.cpp:sendNext", "src/output/output_ogg.cpp:sendHeader", "src/output/output_ogg.cpp:onFinish"]}
{"id": "C106", "title": "Program tables describe the selected tracks", "statement": "Whatever tables a process sent before, the program map it sends for a selection of tracks is a well-formed section with a valid check value, padded to 188 bytes: it announces program 1, puts the clock on the first video track, and lists for every selected track, in order, its own PID, the stream type of its codec and the descriptors of its codec and language. The association table says where that map is. A reader of any well-formed program map in one packet, from whatever sender, sees exactly its streams, and a reader of a table made here sees every track with its PID, codec and language.", "quantifier": "all selections of tracks (codecs, languages, channel counts, initialisation data), all continuity counters, all histories of earlier tables, all received packets with a program map", "why_tests_cant": "the packet is a static buffer that earlier tables leave bytes in, and lengths are computed in one loop and written in another; tests look at a few selections with a fresh buffer", "anchors": ["lib/ts_packet.cpp: createPMT, ProgramMappingTable, ProgramMappingEntry, ProgramAssociationTable, PAT, ProgramDescriptors::getTag, createSDT", "lib/ts_stream.cpp: Stream::parse", "src/output/output_ts_base.cpp"]}
{"id": "C107", "title": "Lost media packets are recovered from error correction", "statement": "A media packet sent as redundant data is handed on as it was sent. If a correction as RFC 5109 prescribes it arrives and exactly one packet of those it protects was lost, then the lost packet is recovered as it was sent; if none is missing or more than one, nothing is made up. The packets of the last 500 numbers are kept for that, and no older ones. No packet, however short, makes the server read or write outside of its buffers.", "quantifier": "all groups of packets of any contents and sizes, all histories of received packets, all corrections", "why_tests_cant": "recovery combines all packets of a group byte by byte, with lengths and masks that differ per group; tests look at a few groups of equal packets", "anchors": ["lib/rtp_fec.cpp: PacketFEC::initWithREDPacket, extractCoveringSequenceNumbers, tryToRecoverMissingPacket, FECSorter::addPacket, FECSorter::addREDPacket", "src/output/output_webrtc.cpp"]}
{"id": "C108", "title": "AAC in files and transport streams is read frame by frame", "statement": "From a file of ADTS frames (ISO/IEC 13818-7) exactly the payloads of its frames are read, in order, each at the time its samples start, and the track has the initialisation data, rate and channels of the frames. After seeking, the same packets with the same times are read from there on. A tag at the end is left out. However the frames are cut into PES packets of a transport stream, exactly their payloads are found, in order, at the times of the PES packets. No file or stream makes the server read or write outside of its buffers.", "quantifier": "all lists of frames with any header fields, check values and payloads, all cuts of files and all divisions into PES packets, all positions of seeking", "why_tests_cant": "frames can be cut at every byte, and errors in times add up over a whole recording; tests read short files and packets with whole frames", "anchors": ["lib/adts.cpp: adts", "src/input/input_aac.cpp: readHeader, getNext, seek", "lib/ts_stream.cpp: Stream::parseBitstream, ADTSRemainder"]}
{"id": "C109", "title": "Configured streams are what was asked, and every process sees them", "statement": "After an API request that adds, replaces or removes streams, each stream named in it is configured as asked (with its name and what the input for its source prescribes), unless it is the same already, its name is not valid or a trigger refuses; every other stream is as before, or gone when all streams were replaced. At every moment a process that looks up a stream gets its present configuration, without its state, and nothing for a stream that is not configured; a name with a '+' or a space gets that of the stream before it.", "quantifier": "every starting configuration, every request, every history of requests, status checks and restarts, every answer of triggers and inputs, every name", "why_tests_cant": "The controller writes pages only when it finds a difference to what it last wrote; whether that ever leaves a page stale depends on the whole history of changes, and on which values the comparison takes as equal.", "anchors": ["src/controller/controller_streams.cpp: AddStreams, CheckStreams, deleteStream, checkStream, checkParameters, streamsEqual", "src/controller/controller_storage.cpp: writeStream, writeConfig, getConfigAsWritten, readConfigFromDisk", "lib/json.cpp: compareExcept, assignFrom, operator==, removeNullMembers", "lib/stream.cpp: getStreamConfig", "src/controller/controller_uplink.cpp", "src/controller/controller.cpp: statusMonitor"]}
{"id": "C110", "title": "Subtitle files are read and written as their format says", "statement": "A SubRip or WebVTT file gives one subtitle per block, in order, with its number, start, duration and text. A response with subtitles has one block for every subtitle with text that was asked for, in order, with its times and its text, such that it can be read again.", "quantifier": "every list of subtitles, every number of lines, every time, every range asked for", "why_tests_cant": "The reader is a state machine over lines and the writer composes decimal numbers; whether every file is read as meant, and what is written can be read, ranges over all texts and times.", "anchors": ["src/input/input_subrip.cpp: InputSubRip::getNext, readHeader", "src/output/output_srt.cpp: OutSRT::sendNext, sendHeader, onHTTP"]}
{"id": "C111", "title": "WAV recordings are proper files with the samples of the track", "statement": "A WAV recording of a stream that is not live is a WAVE file: the sizes in it are right, it says the format of the track, and its data are the samples of the track in order, PCM in little-endian order.", "quantifier": "every track, every number and value of samples, every data", "why_tests_cant": "The sizes in the header are computed before the data is sent and from other facts; that they agree, and that every sample is turned round right, ranges over all tracks and data.", "anchors": ["src/output/output_wav.cpp: OutWAV::sendHeader, sendNext", "lib/riff.cpp: fmt::generate, fact::generate"]}
{"id": "C112", "title": "MP3 files play all their frames at their times", "statement": "Reading an MP3 file gives each of its frames once, in the order of the file, with exactly its bytes and its place in the file, at the time that results from the samples of the frames before it. An ID3 tag before the frames and bytes between or after the frames that belong to none are skipped. The track has the sample rate and number of channels of the first frame. Of any file, packets do not overlap.", "quantifier": "all sequences of frames of every version, layer, bit rate and sample rate, all tags, all bytes in between; all files for the last claim", "why_tests_cant": "the tables have hundreds of entries and frames of all kinds can follow one another; tests use a few files of the usual kind", "anchors": ["src/input/input_mp3.cpp: InputMP3::readHeader, InputMP3::getNext", "src/input/input_mp3.h: sampleRates, sampleCounts, bitRates", "lib/mpeg.cpp: Mpeg::parseMP2Header"]}
{"id": "C113", "title": "Live HLS playlists: every segment is read once, in order, with its own range and key", "statement": "When a live HLS media playlist is loaded again and again, every segment it lists that was not listed before becomes one entry with its media sequence number, resolved address, duration, byte range, and the AES-128 key and vector of the last key tag before it. Whatever playlists are published (media sequence not going down), however often they are loaded and whichever reads of segments fail, the input keeps running, no segment is taken over twice or out of order, and each one taken over was listed with exactly those attributes. If reads succeed, all segments of a loaded playlist are taken over.", "quantifier": "all environments (key downloads, address resolution), all playlists (any tags, comments, line endings, ranges, keys), all histories of loads and reads with any outcome of each read", "why_tests_cant": "the state carried between loads (last number, first listed number, key cache, list of entries, last read number) depends on the whole history of published playlists and read outcomes", "anchors": ["src/input/input_hls.cpp: Playlist::reload", "src/input/input_hls.cpp: Playlist::addEntry", "src/input/input_hls.cpp: InputHLS::parseLivePoint", "src/input/input_hls.cpp: parseKey"]}
{"id": "C114", "title": "FLAC files: every frame becomes one packet with its bytes, place and time", "statement": "A FLAC file with blocks of one size is read as what it is: sample rate, channels and block size are those of its stream information, which is kept as initialisation data marked as the last block; whatever other metadata blocks precede the audio, each frame becomes exactly one packet, in order, with exactly the bytes of the frame, its place in the file, and the time of its first sample in milliseconds.", "quantifier": "all stream informations, all lists of further metadata blocks, all lists of frames with any content", "why_tests_cant": "where a frame ends is found by a search for bytes that look like the next header, so the result depends on the content of every frame and on all frame numbers", "anchors": ["src/input/input_flac.cpp: InputFLAC::readHeader", "src/input/input_flac.cpp: InputFLAC::getNext", "src/input/input_flac.cpp: InputFLAC::stripID3tag", "lib/flac.cpp: FLAC::utfVal, FLAC::utfBytes, FLAC::Frame::rate"]}
{"id": "C115", "title": "Playlist input: entries are played in order and within their times of day", "statement": "A playlist of files is played entry by entry, in order and over and over, skipping entries that cannot be started and waiting when none can. Entries with a start time divide the day: at any time only entries from the last one whose start time has passed up to the one before the next start time are played, from the first on again after the last; a running entry is stopped as soon as a later start time is reached and not before. This holds whatever was played before, however the playlist file is edited in between, and also when it cannot be read for a moment.", "quantifier": "all playlists (entries, comments, start times), all times of day, all states the player can be in, all outcomes of starting entries, any number of rounds", "why_tests_cant": "which entry is chosen depends on the position left by all rounds before, on the time of day and on every line of the playlist", "anchors": ["src/input/input_playlist.cpp: InputPlaylist::streamMainLoop", "src/input/input_playlist.cpp: InputPlaylist::reloadPlaylist"]}
{"id": "C116", "title": "Raw H.264 input turns every unit into one packet", "statement": "When a program writes an H.264 byte stream to the server, every unit that is not a parameter set and comes after both kinds of parameter sets becomes exactly one packet, unchanged apart from zero bytes behind it, in order and with the key flag of its own data, however the bytes are cut into reads. With a known rate all packets of frame number k have time k times the length of a frame.", "quantifier": "all byte streams, all ways in which they are cut into reads, all parameter sets, all rates, any length below 4 GiB", "why_tests_cant": "Where reads end depends on the program and on timing; a test has a few cuts, the failures need a start code on a cut or several units in one read.", "anchors": ["src/input/input_h264.cpp: InputH264::openStreamSource, InputH264::getNext", "lib/socket.cpp: Buffer::bytesToSplit, Buffer::remove"]}
{"id": "C117", "title": "Raw H.264 and H.265 output sends just the units of each packet", "statement": "A viewer of the raw byte stream gets, for every packet, each of its units behind a start code, complete and in order, whatever the size of the length fields of the track, and no bytes that are not part of the packet. Over a websocket each frame also tells the track, key flag, time and offset of the packet. What is sent can be read again by the input for raw H.264.", "quantifier": "all packets, unit lists, sizes of length fields, contents of memory behind a packet, times and offsets", "why_tests_cant": "Packets come from encoders and senders: lengths past the end and very short last units are inputs that test files do not have.", "anchors": ["src/output/output_h264.cpp: OutH264::sendNext", "src/input/input_h264.cpp: InputH264::getNext"]}
{"id": "C118", "title": "Each line sent to the JSON line port becomes one packet", "statement": "Lines sent over TCP to the line input become packets of the stream: every line with its line feed is exactly one packet, in order, unchanged, as soon as its line feed has arrived and with the time of that arrival. How the bytes are cut into reads makes no difference, and lines may have any length.", "quantifier": "all byte sequences, all ways in which they are cut into reads, all lengths of lines", "why_tests_cant": "Reads end anywhere, lines may be longer than the blocks of the buffer; a test has a few cuts.", "anchors": ["src/output/output_jsonline.cpp: OutJSONLine::requestHandler", "lib/socket.cpp: Buffer::append, Buffer::size, Buffer::get"]}
{"id": "C119", "title": "AV1 frames sent over RTP arrive unit by unit", "statement": "For every AV1 frame sent over RTP the packets are no larger than allowed and a receiver that follows the AV1 RTP format gets exactly the open bitstream units (OBUs) of the frame, whatever their number and sizes; sending ends for every frame.", "quantifier": "all lists of units, all sizes of units and packets", "why_tests_cant": "Whether a unit fits depends on the sizes of all units before it; the failing sizes are a few bytes wide.", "anchors": ["lib/rtp.cpp: Packet::sendAV1", "lib/av1.cpp: leb128, OBU::init"]}
