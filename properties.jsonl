{"id": "C01", "title": "Delta time survives encode/decode", "statement": "Encoding a delta time to bytes and decoding those bytes (with anything following them) returns the same delta time and leaves exactly the following bytes unread.", "quantifier": "every 32-bit delta time, every suffix", "why_tests_cant": "2^32 values times arbitrary suffixes; the failing values (>= 2^28) are far from anything a hand-written table contains.", "anchors": ["midi/lib/delta.go: Delta.MarshalBinary, DecodeDelta", "midi/lib/types.go: vlq2bin", "midi/events/event.go: VLQ"]}
{"id": "C02", "title": "Variable length quantities are canonical", "statement": "The encoder emits the shortest big-endian base-128 representation of the value: every byte except the last has bit 7 set, the last has it clear, the first byte is not a redundant 0x80, at most four bytes are used.", "quantifier": "every value representable in an SMF variable length quantity (below 2^28)", "why_tests_cant": "Needs every value, not the published sample table.", "anchors": ["midi/lib/delta.go: Delta.MarshalBinary", "midi/lib/types.go: vlq2bin"]}
{"id": "C03", "title": "Variable length decoding is self delimiting", "statement": "Decoding reads up to and including the first byte with bit 7 clear, returns the base-128 value of those bytes modulo 2^32, never looks at later bytes, and reports end of input when there is no such byte.", "quantifier": "every byte sequence", "why_tests_cant": "Arbitrary length prefixes with redundant continuation bytes; overflow wrap-around.", "anchors": ["midi/lib/delta.go: DecodeDelta", "midi/events/event.go: VLQ", "midi/events/midi/midievent.go: vlq", "midi/events/meta/metaevent.go: vlq"]}
{"id": "C04", "title": "Length-prefixed payloads survive encode/decode", "statement": "A length-prefixed payload as written for track names and system exclusive events is read back byte for byte and nothing after it is consumed.", "quantifier": "every payload shorter than 2^28 bytes, every suffix", "why_tests_cant": "Payload size is unbounded; boundaries at 128, 16384, 2097152.", "anchors": ["midi/lib/types.go: vlf2bin", "midi/events/event.go: VLF", "midi/events/meta/metaevent.go: vlf"]}
{"id": "C05", "title": "Header acceptance is exactly the documented set", "statement": "A header chunk is accepted if and only if it is tagged MThd, has length 6, format 0, 1 or 2 and a division that is either metrical (bit 15 clear) or one of the four SMPTE frame rates; the decoded fields are the big-endian fields of the chunk.", "quantifier": "every byte sequence presented as the first chunk", "why_tests_cant": "Needs all chunk contents, including the 2^16 divisions and every malformed length.", "anchors": ["midi/MThd.go: MThd.UnmarshalBinary"]}
{"id": "C06", "title": "Header survives encode/decode", "statement": "A header written to a file and read back has the same format, track count, division, PPQN and SMPTE interpretation.", "quantifier": "every format/tracks/division accepted by the decoder", "why_tests_cant": "2^33 headers.", "anchors": ["midi/MThd.go: MThd.MarshalBinary, MThd.UnmarshalBinary, MakeMThd"]}
{"id": "C07", "title": "Chunk framing", "statement": "A file that is the concatenation of an MThd chunk and further chunks decodes to the MTrk chunks in file order, numbered 0,1,2,...; chunks with an unknown tag are skipped and have no effect; the file is rejected unless the number of MTrk chunks equals the count in the header.", "quantifier": "every list of chunks with arbitrary tags and bodies", "why_tests_cant": "Any number, order and content of chunks.", "anchors": ["encoding/midi/decoder.go: decoder.Decode, chunker.next"]}
{"id": "C08", "title": "Decoding never panics", "statement": "Decoding any byte sequence returns either a MIDI file or an error; it never panics.", "quantifier": "every byte sequence", "why_tests_cant": "Robustness over all malformed inputs; fuzzing only samples.", "anchors": ["encoding/midi/decoder.go: decoder.Decode", "midi/MTrk.go: MTrk.UnmarshalBinary, parse", "midi/events/event.go: NewEvent"]}
{"id": "C09", "title": "Decoded events account for every byte of the track", "statement": "When a track decodes, the recorded bytes of its events, concatenated in order, are exactly the track body up to an incomplete final event; no byte is skipped, duplicated or reordered.", "quantifier": "every track body", "why_tests_cant": "Ranges over every body and every way of using running status.", "anchors": ["midi/MTrk.go: MTrk.UnmarshalBinary, parse", "midi/reader.go: reader.Bytes"]}
{"id": "C10", "title": "Event ticks are running sums of delta times", "statement": "The tick of every decoded event is the sum of the delta times of all events up to and including it; ticks never decrease along a track.", "quantifier": "every track body, every event index", "why_tests_cant": "Unbounded tracks; the 32-bit accumulator wraps for very long tracks.", "anchors": ["midi/MTrk.go: MTrk.UnmarshalBinary, parse"]}
{"id": "C11", "title": "Running status is transparent", "statement": "Omitting a channel event's status byte when it equals the status of the immediately preceding channel event does not change the decoded events (other than their recorded raw bytes).", "quantifier": "every event sequence and every choice of which repeated status bytes are omitted", "why_tests_cant": "2^n choices of omitted bytes for n events.", "anchors": ["midi/MTrk.go: parse", "midi/events/midi/midievent.go: Parse"]}
{"id": "C12", "title": "Meta and system exclusive events cancel running status", "statement": "After a meta or system exclusive event a data byte in status position is reported as an error, never interpreted with an older status.", "quantifier": "every prefix of events followed by a meta or SysEx event and a data byte", "why_tests_cant": "Depends on arbitrary history.", "anchors": ["midi/MTrk.go: parse"]}
{"id": "C13", "title": "Any standard track body decodes to exactly its events", "statement": "A track body assembled according to the Standard MIDI File grammar (any delta encodings, any legal running status, any supported event kinds with in-range fields) decodes without error to precisely that sequence of delta times and events.", "quantifier": "every sequence of supported events and every grammatical byte representation of it", "why_tests_cant": "Unbounded sequences with many representations; unit tests use a handful of fixed files.", "anchors": ["midi/MTrk.go: MTrk.UnmarshalBinary, parse", "midi/events/meta/metaevent.go: Parse", "midi/events/midi/midievent.go: Parse", "midi/events/sysex/sysex.go: Parse"]}
{"id": "C14", "title": "A truncated track is reported", "statement": "A track body that ends in the middle of an event is rejected with an error instead of being decoded as if the partial event were not there.", "quantifier": "every track body and every cut point", "why_tests_cant": "Every prefix of every track.", "anchors": ["midi/MTrk.go: MTrk.UnmarshalBinary"]}
{"id": "C15", "title": "Channel voice events survive encode/decode", "statement": "Note on, note off, controller, program change and channel pressure events written to bytes are read back with the same channel and data values.", "quantifier": "every channel and every in-range data value", "why_tests_cant": "All combinations of channel and data bytes, in any context.", "anchors": ["midi/events/midi/note_on.go: NoteOn", "midi/events/midi/note_off.go: NoteOff", "midi/events/midi/controller.go: Controller", "midi/events/midi/program_change.go: ProgramChange", "midi/events/midi/channel_pressure.go: ChannelPressure"]}
{"id": "C16", "title": "Pitch bend survives encode/decode", "statement": "A pitch bend event written to bytes is read back with the same 14-bit bend value, and the data bytes written are valid MIDI data bytes.", "quantifier": "every channel and every 14-bit bend value", "why_tests_cant": "The one unit test value (8) hides that every bend of 128 or more is corrupted.", "anchors": ["midi/events/midi/pitch_bend.go: PitchBend.MarshalBinary, PitchBend.unmarshal"]}
{"id": "C17", "title": "Polyphonic pressure follows the MIDI wire format", "statement": "A polyphonic key pressure message (status, key, pressure) in a track decodes to one polyphonic pressure event and does not disturb the events that follow it.", "quantifier": "every channel, key, pressure and following events", "why_tests_cant": "Tests use the decoder's own one-byte layout.", "anchors": ["midi/events/midi/polyphonic_pressure.go: PolyphonicPressure", "midi/MTrk.go: parse"]}
{"id": "C18", "title": "Text meta events survive encode/decode", "statement": "Text, copyright, track name, instrument name, lyric, marker, cue point, program name and device name events are read back with the same text.", "quantifier": "every text of any length", "why_tests_cant": "Length is unbounded; only texts of 128 bytes and more fail.", "anchors": ["midi/events/meta/text.go: Text.MarshalBinary", "midi/events/meta/copyright.go: Copyright.MarshalBinary", "midi/events/meta/track_name.go: TrackName.MarshalBinary", "midi/events/meta/lyric.go: Lyric.MarshalBinary", "midi/events/meta/marker.go: Marker.MarshalBinary"]}
{"id": "C19", "title": "Fixed-size meta events survive encode/decode", "statement": "Sequence number, channel prefix, port, tempo, SMPTE offset and end-of-track events are read back with the same field values.", "quantifier": "every in-range field value", "why_tests_cant": "Field ranges up to 2^24 and products of several fields.", "anchors": ["midi/events/meta/sequence_number.go", "midi/events/meta/tempo.go", "midi/events/meta/smpte_offset.go", "midi/events/meta/midi_port.go", "midi/events/meta/midi_channel_prefix.go", "midi/events/meta/end_of_track.go"]}
{"id": "C20", "title": "Time signatures survive encode/decode", "statement": "A time signature read from a file is written back with the same four data bytes.", "quantifier": "every numerator, denominator exponent, clock and 32nd-note value", "why_tests_cant": "All 2^32 payloads; the exponent overflow at 8 is untested.", "anchors": ["midi/events/meta/time_signature.go: TimeSignature"]}
{"id": "C21", "title": "Key signatures survive encode/decode and name the right key", "statement": "A key signature event is accepted exactly for -7..7 accidentals and mode 0/1, is written back unchanged, and is displayed with the key that has that many sharps or flats on the circle of fifths.", "quantifier": "every accidentals byte and mode byte", "why_tests_cant": "All 65536 payloads against an independent circle-of-fifths definition.", "anchors": ["midi/events/meta/key_signature.go: KeySignature", "midi/lib/scales.go: MajorScale, MinorScale"]}
{"id": "C22", "title": "Manufacturer identifiers survive decoding and encoding", "statement": "The manufacturer ID bytes of a SysEx or sequencer specific event are the same after decoding and re-encoding, whether or not the manufacturer is known.", "quantifier": "every one byte and three byte manufacturer ID", "why_tests_cant": "All 256 + 65536 IDs against the built-in table.", "anchors": ["midi/lib/manufacturer.go: LookupManufacturer, manufacturers", "midi/events/sysex/message.go", "midi/events/meta/sequencer_specific.go"]}
{"id": "C23", "title": "System exclusive events survive encode/decode", "statement": "Single SysEx messages, multi-packet SysEx messages (message followed by continuation packets) and escapes are read back with the same data and the same termination.", "quantifier": "every payload and every packet split", "why_tests_cant": "Unbounded payloads and packet counts.", "anchors": ["midi/events/sysex/message.go", "midi/events/sysex/continuation_message.go", "midi/events/sysex/escape_message.go", "midi/MTrk.go: parse"]}
{"id": "C24", "title": "Whole file survives encode/decode", "statement": "Encoding a MIDI file value and decoding the bytes yields the same header, the same number of tracks and the same sequence of delta times and events in every track.", "quantifier": "every file value whose events have in-range fields", "why_tests_cant": "Any number of tracks and events, interaction of running status with every event kind.", "anchors": ["encoding/midi/encoder.go: encoder.Encode, EncodeMTrk", "encoding/midi/decoder.go: decoder.Decode"]}
{"id": "C25", "title": "Encoded chunk lengths are exact", "statement": "In every encoded file the length field of each chunk equals the number of bytes of the chunk body, so the chunks tile the file exactly.", "quantifier": "every encodable file shorter than 4 GiB (the length field has 32 bits)", "why_tests_cant": "Depends on the running status compression removing a data dependent number of bytes.", "anchors": ["encoding/midi/encoder.go: encoder.Encode, EncodeMTrk"]}
{"id": "C26", "title": "Encoder rejects inconsistent headers", "statement": "Encoding fails with an error and writes no usable file if and only if the header is missing or its track count differs from the number of tracks.", "quantifier": "every file value", "why_tests_cant": "All values.", "anchors": ["encoding/midi/encoder.go: encoder.Encode"]}
{"id": "C27", "title": "Running status compression is sound", "statement": "The encoder omits a status byte only where a decoder that has read the preceding bytes will reinstate the same status, and only for note on/off events.", "quantifier": "every event sequence of any length, with note numbers 0..127", "why_tests_cant": "The decision depends on the already compressed previous event; needs all sequences.", "anchors": ["encoding/midi/encoder.go: EncodeMTrk"]}
{"id": "C28", "title": "Decode then encode preserves the music", "statement": "Decoding a valid file and re-encoding it (as the transpose command does for unaffected events) gives a file that decodes to the same events.", "quantifier": "every decodable file", "why_tests_cant": "All decodable files; several event kinds break it only for particular values.", "anchors": ["encoding/midi/decoder.go", "encoding/midi/encoder.go", "ops/transpose/transpose.go"]}
{"id": "C29", "title": "Transposition shifts every note and clamps to the MIDI range", "statement": "Transposing by n semitones replaces every note number v by v+n, limited to 0..127.", "quantifier": "every file, every shift n from -2^63 to 2^63-256 (beyond, the 64-bit sum overflows), every note event", "why_tests_cant": "Every shift and every position; wrap-around of the byte arithmetic.", "anchors": ["ops/transpose/transpose.go: Transpose.Execute", "midi/events/midi/note_on.go: NoteOn.Transpose", "midi/events/midi/note_off.go: NoteOff.Transpose"]}
{"id": "C30", "title": "Transposition changes nothing but notes and key signatures", "statement": "Transposing keeps the number, order, delta times, ticks and track of all events, the channel and velocity of notes, and every event that is not a note or key signature.", "quantifier": "every file and every shift (shifts from -2^63 to 2^63-256)", "why_tests_cant": "All files.", "anchors": ["ops/transpose/transpose.go: Transpose.Execute, transpose"]}
{"id": "C31", "title": "Transposition composes and inverts", "statement": "Transposing by a then by b equals transposing by a+b, and transposing by n and back by -n restores every note, provided no note is clamped.", "quantifier": "every file and every pair of shifts that does not clamp (shifts from -2^63 to 2^63-256)", "why_tests_cant": "All pairs of shifts.", "anchors": ["ops/transpose/transpose.go", "midi/events/midi/note_on.go: NoteOn.Transpose"]}
{"id": "C32", "title": "Transposition preserves note on/off matching", "statement": "A note off that released a given note on before transposition releases the transposed note on after it: equal notes stay equal, and distinct unclamped notes stay distinct.", "quantifier": "every pair of note events and every shift", "why_tests_cant": "All pairs and shifts.", "anchors": ["midi/events/midi/note_on.go: NoteOn.Transpose", "midi/events/midi/note_off.go: NoteOff.Transpose"]}
{"id": "C33", "title": "Transposed key signatures name the transposed key", "statement": "Transposing a key signature by n gives a key signature of the same mode whose tonic is n semitones away (mod 12) and which is one of the valid key signatures; the result depends only on n mod 12.", "quantifier": "every key signature and every integer shift (shifts from -2^63 to 2^63-256)", "why_tests_cant": "All integer shifts, positive and negative.", "anchors": ["midi/lib/scales.go: Scale.Transpose", "midi/events/meta/key_signature.go: KeySignature.Transpose"]}
{"id": "C34", "title": "Transposing by zero is the identity", "statement": "Transposing a file by 0 (or a key signature by a multiple of 12) leaves every event unchanged.", "quantifier": "every file", "why_tests_cant": "All key signatures; fails only for enharmonically respelled keys.", "anchors": ["midi/lib/scales.go: Scale.Transpose", "ops/transpose/transpose.go"]}
{"id": "C35", "title": "Scale tables are musically consistent", "statement": "Each key signature's scale has seven notes following the major (or natural minor) interval pattern from its tonic, uses each letter exactly once, and has exactly the stated number of sharps or flats; every accidentals value -7..7 has exactly one major and one minor scale.", "quantifier": "every scale", "why_tests_cant": "Finite table but needs an independent definition of a scale.", "anchors": ["midi/lib/scales.go: MAJOR_SCALES, MINOR_SCALES"]}
{"id": "C36", "title": "Validation reports end-of-track problems exactly", "statement": "Validation reports an end-of-track problem for a track if and only if the track does not consist of events without an EndOfTrack followed by exactly one EndOfTrack.", "quantifier": "every track", "why_tests_cant": "All event sequences.", "anchors": ["midi/smf.go: SMF.Validate"]}
{"id": "C37", "title": "Validation enforces the format rules", "statement": "Format 0 files are reported unless they have exactly one track; in format 1 files every event of track 0 that is not a tempo-map kind is reported, and every tempo or SMPTE offset event outside track 0 is reported, and nothing else is.", "quantifier": "every file", "why_tests_cant": "All track and event combinations.", "anchors": ["midi/smf.go: SMF.validateFormat0, SMF.validateFormat1"]}
{"id": "C38", "title": "Validation enforces bank select pairing", "statement": "A Bank Select MSB that is not immediately followed by a Bank Select LSB on the same channel, or an LSB not immediately preceded by an MSB on the same channel, is reported.", "quantifier": "every track", "why_tests_cant": "All event sequences, including the MSB being the last event.", "anchors": ["midi/smf.go: SMF.Validate"]}
{"id": "C39", "title": "Validation never panics", "statement": "Validating any decoded file returns a list of problems and never panics.", "quantifier": "every decodable file", "why_tests_cant": "Corner cases such as zero tracks.", "anchors": ["midi/smf.go: SMF.Validate, SMF.validateFormat1"]}
{"id": "C40", "title": "Program changes carry the selected bank", "statement": "The bank of a decoded program change is 128*MSB+LSB of the most recent Bank Select MSB/LSB controllers on the same channel (0 if none); other channels do not matter.", "quantifier": "every event history", "why_tests_cant": "Arbitrary histories of controllers; values of 64 and more.", "anchors": ["midi/MTrk.go: MTrk.UnmarshalBinary", "midi/events/midi/program_change.go: ProgramChange.SetBank"]}
{"id": "C41", "title": "Note names are correct", "statement": "A decoded note is displayed as the pitch class n mod 12 (spelled with sharps, or flats after a flat key signature) followed by the octave n div 12 with an offset fixed by the middle C convention.", "quantifier": "every note value, key signature history and convention", "why_tests_cant": "All note values and histories.", "anchors": ["midi/context/context.go: Context.FormatNote, UseSharps, UseFlats", "midi/MTrk.go: MTrk.UnmarshalBinary"]}
{"id": "C42", "title": "Middle C convention", "statement": "With the default (C3) convention note 60 is displayed as C3 and with --C4 it is displayed as C4.", "quantifier": "both conventions", "why_tests_cant": "The option's documented meaning against the arithmetic for every note.", "anchors": ["midi/context/context.go: Context.FormatNote", "cmd/midiasm/main.go"]}
{"id": "C43", "title": "A note off is displayed with the name of its note on", "statement": "A note off event shows the same note name as the most recent note on for the same channel and note, even when the key signature changed in between.", "quantifier": "every event history", "why_tests_cant": "Arbitrary histories.", "anchors": ["midi/context/context.go: Context.PutNoteOn, GetNoteOff", "midi/events/midi/note_off.go: NoteOff.Format"]}
{"id": "C44", "title": "Note names parse back to the note", "statement": "Parsing the displayed name of a note yields the note's number.", "quantifier": "every note 0..127, sharps and flats, both middle C conventions", "why_tests_cant": "Octave -1 and the C4 convention.", "anchors": ["midi/events/midi/note_on.go: ParseNote", "midi/context/context.go: Context.FormatNote"]}
{"id": "C45", "title": "SysEx packet sequencing is enforced", "statement": "An F0 message that starts while an earlier message is unterminated is rejected; an F7 event is a continuation exactly while a message is unterminated and an escape otherwise.", "quantifier": "every event history", "why_tests_cant": "Arbitrary histories.", "anchors": ["midi/MTrk.go: parse", "midi/events/sysex/sysex.go: Parse"]}
{"id": "C46", "title": "Assembling restores SysEx terminators", "statement": "When assembling from text or JSON, a SysEx message is terminated exactly when the next event is not a continuation, and a continuation is terminated exactly when the next event is not a continuation; no other event is changed.", "quantifier": "every event sequence", "why_tests_cant": "All sequences, including empty tracks and a SysEx event in last position.", "anchors": ["ops/assemble/assemble.go: fixups"]}
{"id": "C47", "title": "Extracted notes are exactly the note on/off pairs", "statement": "The extracted notes of a track are exactly one per note on that starts a sounding note, ending at the first later note off (or zero velocity note on, or end of track) of the same channel and note; notes of one channel and pitch never overlap and end no earlier than they start.", "quantifier": "every track", "why_tests_cant": "Arbitrary interleavings of notes and channels; map iteration order.", "anchors": ["ops/notes/notes.go: buildNoteList"]}
{"id": "C48", "title": "Extracted note times follow the tempo map", "statement": "Start and end times are the elapsed time under the tempo map of track 0, with 120 bpm (500000 microseconds per quarter note) before the first tempo event.", "quantifier": "every file", "why_tests_cant": "Arbitrary tempo maps, tempo changes in the middle of a delta.", "anchors": ["ops/notes/notes.go: buildTrackEvents, buildTempoMap"]}
{"id": "C49", "title": "Note extraction covers every track", "statement": "Note extraction reports the notes of every track of the file, whatever the file format, and never panics.", "quantifier": "every decodable file", "why_tests_cant": "Format 0 files, zero tracks and SMPTE divisions.", "anchors": ["ops/notes/notes.go: Notes.Execute, extract"]}
{"id": "C50", "title": "The click track reflects tempo and time signature", "statement": "The click command reports a click for the beats implied by the file's tempo and time signature events.", "quantifier": "every decodable file", "why_tests_cant": "Dynamic types of decoded events for all files.", "anchors": ["ops/click/click.go: ClickTrack.Execute"]}
{"id": "C51", "title": "TSV export places every event", "statement": "The TSV table has seven columns per track, one header row and as many further rows as the longest track; row j+1 of track i's columns describes event j of track i and every other cell is empty.", "quantifier": "every file", "why_tests_cant": "Ragged tracks of any length and number.", "anchors": ["commands/tsv.go: export, fields"]}
{"id": "C52", "title": "Hex strings survive formatting and parsing", "statement": "Formatting bytes as a hex string and parsing it gives back the same bytes; whitespace in the input is irrelevant; anything else is rejected.", "quantifier": "every byte sequence and every string", "why_tests_cant": "Unbounded strings.", "anchors": ["midi/lib/hex.go: Hex.String, ParseHex"]}
{"id": "C53", "title": "Column formatting", "statement": "Truncating to a width yields at most that many characters and keeps short strings unchanged; padding yields at least the width and only appends blanks.", "quantifier": "every string and width", "why_tests_cant": "Unbounded strings and widths.", "anchors": ["ops/disassemble/disassemble.go: ellipsize, pad, valign"]}
{"id": "C54", "title": "The text reading pipeline is schedule independent", "statement": "Splitting assembly text into chunks with the concurrent line reader and chunker yields the same chunks for every interleaving of the goroutines, always terminates, and loses, duplicates or reorders no line after the first header line.", "quantifier": "every input text and every goroutine schedule", "why_tests_cant": "All interleavings.", "anchors": ["ops/assemble/text.go: read, scan, chunkify"]}
{"id": "C55", "title": "Failed assembly releases its goroutines", "statement": "When assembling a track fails on a line, the helper goroutine feeding the lines terminates.", "quantifier": "every track text, every failing line and every schedule", "why_tests_cant": "Leaks are invisible to result-based tests and depend on the number of remaining lines.", "anchors": ["ops/assemble/text.go: parseMTrk"]}
{"id": "C56", "title": "Disassembled text assembles back", "statement": "The text line printed for an event assembles back to an event with the same delta time and the same encoding.", "quantifier": "every decodable event", "why_tests_cant": "All field values and texts: negative octaves, pitch spelling, texts containing keywords or leading blanks, unknown manufacturers.", "anchors": ["midi/events/text.go: Event.UnmarshalText", "ops/disassemble/disassemble.go", "midi/events/midi/note_on.go: NoteOn.UnmarshalText", "midi/events/meta/text.go: Text.UnmarshalText"]}
{"id": "C57", "title": "A text line selects the event kind that was printed", "statement": "The kind of event produced from a disassembled line is the kind named in its tag column, whatever the event's text contains.", "quantifier": "every event and text", "why_tests_cant": "Keyword search over arbitrary user text.", "anchors": ["midi/events/text.go: Event.UnmarshalText"]}
{"id": "C58", "title": "JSON export assembles back", "statement": "The JSON exported for a file assembles back to a file with the same header, delta times and event encodings.", "quantifier": "every decodable file", "why_tests_cant": "All events, SMPTE divisions, non-UTF-8 texts.", "anchors": ["ops/export/export.go", "ops/assemble/json.go: JSONAssembler.Assemble", "midi/events/json.go"]}
{"id": "C59", "title": "Assembling terminates", "statement": "Assembling any text or JSON input terminates.", "quantifier": "every time signature numerator and denominator", "why_tests_cant": "The diverging denominators (129..255) make a test hang rather than fail.", "anchors": ["midi/events/meta/time_signature.go: MakeTimeSignature, UnmarshalText, UnmarshalJSON"]}
{"id": "C60", "title": "Assembling never panics", "statement": "Assembling any text or JSON input returns a file or an error and never panics.", "quantifier": "every input", "why_tests_cant": "All malformed inputs.", "anchors": ["ops/assemble/assemble.go: fixups", "ops/assemble/text.go: TextAssembler.Assemble", "midi/events/midi/note_on.go: MakeNoteOn", "midi/events/meta/key_signature.go: MakeKeySignature"]}
{"id": "C61", "title": "Custom manufacturers are honoured", "statement": "After loading a manufacturer configuration, a SysEx message with a configured ID is displayed with the configured name.", "quantifier": "every configuration and ID", "why_tests_cant": "All configurations.", "anchors": ["midi/lib/manufacturer.go: LoadManufacturers, AddManufacturers, Manufacturer.UnmarshalJSON"]}
{"id": "C62", "title": "Single event binary API agrees with the track decoder", "statement": "Unmarshalling the bytes of one event (delta time included) through the event's binary API gives the same event content as decoding it as part of a track, and never reads beyond the bytes supplied.", "quantifier": "every event encoding, every truncation and every spare slice capacity", "why_tests_cant": "Depends on slice capacity beyond the length, which tests do not control.", "anchors": ["midi/events/binary.go: Event.UnmarshalBinary"]}
{"id": "C63", "title": "Decoded headers survive re-encoding", "statement": "A header read from a file and written again is byte for byte the chunk it was read from, and reads back as the same header value.", "quantifier": "every chunk accepted as a header", "why_tests_cant": "all 3 x 65536 x (32768 + 4 x 256) accepted headers", "anchors": ["midi/MThd.go:UnmarshalBinary", "midi/MThd.go:MarshalBinary"]}
{"id": "C64", "title": "A file cut short is rejected", "statement": "If a file ending in a track chunk decodes, then every proper prefix of the file is rejected with an error (no panic, no partial result).", "quantifier": "every decodable file ending in a track chunk and every cut point", "why_tests_cant": "every file and every cut point; the interplay of chunk framing, io.EOF handling and the track count check", "anchors": ["encoding/midi/decoder.go:Decode", "encoding/midi/decoder.go:next"]}
{"id": "C65", "title": "Pitch bend byte order follows the MIDI standard", "statement": "A pitch bend message (status, LSB, MSB) decodes to the bend value MSB*128+LSB.", "quantifier": "every channel and every pair of data bytes", "why_tests_cant": "16384 values per channel, and any history", "anchors": ["midi/events/midi/pitch_bend.go:unmarshal"]}
{"id": "C66", "title": "Any track body in midiasm's dialect decodes to exactly its events", "statement": "A track body made of framed events with in-range fields, in the grammar midiasm uses (polyphonic pressure with one data byte, pitch bend most significant byte first), decodes without error to precisely these delta times and events, with each event's own bytes recorded; only the manufacturer ID 7F is replaced by 7E.", "quantifier": "every sequence of events and every grammatical byte representation of it", "why_tests_cant": "infinitely many tracks", "anchors": ["midi/MTrk.go:UnmarshalBinary", "midi/MTrk.go:parse", "midi/events/meta/metaevent.go:Parse", "midi/events/midi/midievent.go:Parse", "midi/events/sysex/sysex.go:Parse"]}
{"id": "C67", "title": "Exact ticks", "statement": "The tick of every decoded event is the sum of the delta times of the earlier events modulo 2^32, plus the event's own delta time.", "quantifier": "every track that decodes, every event index", "why_tests_cant": "tracks of any length, including those that overflow 32 bits", "anchors": ["midi/MTrk.go:UnmarshalBinary"]}
{"id": "C68", "title": "Exactly which events survive being written and read", "statement": "An event value written to bytes is read back as the same event if and only if its fields are in the range the decoder accepts and it is none of: a text of 128 bytes or more (track names excepted), a pitch bend of 128 or more, manufacturer 7F, a sequencer specific event of 128 bytes or more, a time signature denominator that is not a power of two up to 128, an unterminated SysEx packet ending in F7, a SysEx packet out of order.", "quantifier": "every event value of every kind with a payload below 2^28 bytes", "why_tests_cant": "An exact boundary in both directions over all values of all event kinds.", "anchors": ["midi/events: MarshalBinary and UnmarshalBinary of every event kind", "midi/lib/types.go: vlf2bin"]}
{"id": "C69", "title": "The transposed file contains the moved events", "statement": "Decoding the file written by the transpose command gives the same header and the same events with every note moved by n (limited to 0..127) and every key signature moved to the key n semitones away.", "quantifier": "every decodable file and every shift", "why_tests_cant": "End to end over decoder, transposition and encoder, for all files.", "anchors": ["ops/transpose/transpose.go: Transpose.Execute", "encoding/midi/encoder.go: encoder.Encode", "encoding/midi/decoder.go: decoder.Decode"]}
{"id": "C70", "title": "Transposing a file value twice", "statement": "Transposing the same in-memory file value by a and then by b equals transposing it once by a+b.", "quantifier": "every decoded file and all shifts", "why_tests_cant": "A nil context left behind by the first call is only visible on the second one.", "anchors": ["ops/transpose/transpose.go: transpose", "midi/context/context.go: Context.GetNoteOff"]}
{"id": "C71", "title": "What note extraction reports, exactly", "statement": "For a decoded file with a metrical division and tracks shorter than 2^32 ticks, whatever the iteration order of maps, note extraction succeeds and reports, for each track after the first in order, exactly one note per note of the track in the order in which they end (by channel if they end with the same event), with its channel, velocity and ticks, its number shifted and clamped to 0..255, the name under the key signature in force, spelled with sharps or flats as that signature has, and (where they fit into 64 bits whatever the tempo) start and end times that are the sum of the separately converted delta times, rounded to the millisecond. Each delta time is converted at the tempo set last, by the first track at an earlier tick or by an earlier event of the track itself (at the same tick the first track wins), initially 50000 microseconds.", "quantifier": "every such file, every transposition not overflowing an int, every map iteration order", "why_tests_cant": "Quantifies over event interleavings, tempo maps and map iteration orders.", "anchors": ["ops/notes/notes.go: extract, buildTempoMap, buildTrackEvents, buildNoteList, transpose"]}
{"id": "C72", "title": "Exact meaning of the single-event binary API", "statement": "For every complete event with its status byte, and whatever lies beyond the bytes in memory, the single-event binary API returns the delta time and the documented field values; superfluous bytes of fixed-size meta events are ignored, an F7 packet is always a continuation, a pitch bend with a first byte above 127 and a sequencer specific event of fewer than two bytes are refused, as is everything that has no meaning.", "quantifier": "every complete event encoding, every spare slice capacity", "why_tests_cant": "Quantifies over all event encodings and memory contents.", "anchors": ["midi/events/binary.go: Event.UnmarshalBinary", "midi/events/meta, midi/events/midi, midi/events/sysex: UnmarshalBinary methods"]}
{"id": "C73", "title": "What assembling does to SysEx terminators, exactly", "statement": "When a non-empty track is assembled, a SysEx packet followed by an event that is not a continuation becomes terminated, one followed by a continuation or by nothing keeps its terminator, and everything else about every event stays; an empty track makes the assembler panic.", "quantifier": "every event sequence", "why_tests_cant": "All sequences, including the empty one and SysEx in last position.", "anchors": ["ops/assemble/assemble.go: fixups"]}
{"id": "C74", "title": "The byte column is aligned on the event status", "statement": "The byte column of a printed event shows every byte of the event in two digits, shifted right by three characters for each byte that the delta time is shorter than the given number of bytes; an event without a byte below 128 panics.", "quantifier": "every byte sequence and width", "why_tests_cant": "All delta time lengths and contents.", "anchors": ["ops/disassemble/disassemble.go: valign"]}
{"id": "C75", "title": "Fixed width tables are aligned", "statement": "The fixed width output of the TSV command has one line per record, each cell followed by blanks only, and the columns start at the same character position in every line.", "quantifier": "every table with records of equal length, arbitrary cell contents", "why_tests_cant": "Multi-byte characters and invalid UTF-8 in texts.", "anchors": ["commands/tsv.go: writeTable"]}
{"id": "C76", "title": "TSV files read back", "statement": "Reading a written TSV file with the usual quoting rules yields the column titles followed by every record of the table, cell by cell, whatever delimiters, quotes or line ends the texts contain; the titles appear twice, once as header and once as the first record.", "quantifier": "every file with at least one track and every ASCII delimiter accepted by the writer", "why_tests_cant": "Texts containing delimiters, quotes, line ends; any number of tracks.", "anchors": ["commands/tsv.go: writeTSV, export"]}
{"id": "C77", "title": "The click track is always empty", "statement": "The click command writes nothing for any decoded file with at least one track and panics for a file without tracks.", "quantifier": "every decodable file", "why_tests_cant": "Dynamic types of decoded events for all files.", "anchors": ["ops/click/click.go: ClickTrack.Execute"]}
{"id": "C78", "title": "Exactly when the line feeder of a failed track is released", "statement": "Parsing a track of assembly text always finishes, under every interleaving; the helper goroutine feeding the lines terminates exactly when at most one line follows the failing line, and otherwise stays blocked holding all the following lines but one.", "quantifier": "every track text, every set of failing lines and every goroutine schedule", "why_tests_cant": "All interleavings and all positions of the failure.", "anchors": ["ops/assemble/text.go: parseMTrk"]}
{"id": "C79", "title": "Exact meaning of a note name", "statement": "A pitch name followed by a one-digit octave, possibly negative, is read as the note 12*(octave+1) plus the pitch class, modulo 256, whatever the middle C convention.", "quantifier": "every pitch name and octave -9..9", "why_tests_cant": "The law covers all names and octaves, including the wrap-around of 8 bit arithmetic.", "anchors": ["midi/events/midi/note_on.go: ParseNote", "midi/lib/note.go: LookupNote"]}
{"id": "C80", "title": "Lines that assemble back", "statement": "The line printed for an event reads back as the same event: same delta time and same contents, for all events in range, notes of octave 0 and above in the default convention, texts without newline, leading blank or an event name that takes precedence, and manufacturers that can be found by name.", "quantifier": "every event in range, every printed byte column and tick", "why_tests_cant": "Ranges over all texts, data, deltas and manufacturers, and over the backtracking of the line patterns.", "anchors": ["ops/disassemble/template", "midi/events/text.go: Event.UnmarshalText", "midi/events/meta", "midi/events/midi", "midi/events/sysex"]}
{"id": "C81", "title": "The first event name in a line decides its kind", "statement": "The kind of event read from a line of text is the first, in the order of a fixed list, of the event names that occurs anywhere in the line; a line without any is an error.", "quantifier": "every line of text and every manufacturer table", "why_tests_cant": "All lines, including names inside texts.", "anchors": ["midi/events/text.go: Event.UnmarshalText"]}
{"id": "C82", "title": "Text of a file assembles to the bytes of the file", "statement": "Printing a file with a metrical header and assembling the text gives exactly the bytes that encoding the file gives, for non-empty tracks of readable events whose texts contain no chunk tags, whose SysEx terminators are where the assembler puts them, and whose text lines are shorter than 65536 bytes.", "quantifier": "every file in memory, with any number of tracks and events", "why_tests_cant": "All files, all texts, all orders of searching the manufacturers; composition of printing, line splitting, chunking, pattern matching, fixups and encoding.", "anchors": ["ops/disassemble/template", "ops/assemble/text.go: TextAssembler.Assemble", "ops/assemble/assemble.go: fixups", "encoding/midi/encoder.go"]}
{"id": "C83", "title": "Disassembling and assembling a MIDI file", "statement": "For a metrical MIDI file that decodes, with plain contents (texts without newline, leading blank, final carriage return, chunk tags or event names that take precedence; notes 12 to 131; known manufacturers; complete SysEx messages followed by another event; time signatures whose numbers the patterns accept), disassembly succeeds and assembling the text with the default settings gives the bytes of the decoded file, if no line of the text reaches 65536 bytes.", "quantifier": "every byte sequence that decodes", "why_tests_cant": "Ranges over all MIDI files and both directions of the conversion.", "anchors": ["ops/disassemble/disassemble.go", "ops/assemble/text.go: TextAssembler.Assemble", "encoding/midi/decoder.go", "encoding/midi/encoder.go"]}
{"id": "C84", "title": "Every decodable file can be disassembled", "statement": "Disassembling to text succeeds for every file that decodes, with both middle C conventions.", "quantifier": "every byte sequence that decodes", "why_tests_cant": "The hexadecimal column is cut from the raw bytes of every event; all events of all files.", "anchors": ["ops/disassemble/disassemble.go", "ops/disassemble/template"]}
{"id": "C85", "title": "What assembling a JSON export changes", "statement": "Assembling the JSON export of a file with UTF-8 texts, values in range and no empty tracks gives the bytes the encoder writes for the same file with the track count corrected, a non-metrical division replaced by zero and the termination of SysEx packets recomputed; nothing else changes.", "quantifier": "every file in memory, whether decoded or constructed", "why_tests_cant": "The law covers every event kind with every value, in every order.", "anchors": ["ops/export/export.go: Export", "ops/assemble/json.go: JSONAssembler.Assemble", "ops/assemble/assemble.go: fixups", "midi/events/json.go: Event.UnmarshalJSON"]}
{"id": "C86", "title": "What a manufacturer configuration changes", "statement": "Loading a manufacturer configuration succeeds exactly if every ID has one or three bytes. It never changes the name or region displayed for an ID, except that 7E is displayed as RealTime Extensions if the last of the configured 7E and 7F is 7F; an unknown three byte ID is replaced by the last configured ID with the same second and third byte.", "quantifier": "every JSON configuration document and every manufacturer ID", "why_tests_cant": "The effect depends on all configured entries and their order, for every ID.", "anchors": ["midi/lib/manufacturer.go: LoadManufacturers, AddManufacturers, LookupManufacturer, makeManufacturer, Manufacturer.UnmarshalJSON"]}
{"id": "C87", "title": "Note listing", "statement": "The listing of notes has one line per note, in order, showing the name, the channel in decimal, the note number in two hexadecimal digits, the velocity in decimal, and start, end and duration as a text whose value is the time cut to milliseconds; the columns are padded to fixed widths.", "quantifier": "every list of notes, with every value of every field", "why_tests_cant": "Durations have 2^64 values, formatted with varying units and trimmed fractions.", "anchors": ["ops/notes/notes.go: print"]}
{"id": "C88", "title": "The export is a JSON text", "statement": "The JSON export of any file is a JSON text (RFC 8259) that represents one document only, whatever the texts in the file contain.", "quantifier": "every file", "why_tests_cant": "Texts in files are arbitrary bytes: control characters, quotes, line separators, bytes that are not UTF-8.", "anchors": ["ops/export/export.go: Export.Export", "midi/smf.go: SMF"]}
{"id": "C89", "title": "How JSON is written does not matter", "statement": "The assembler gives the same result for every JSON text of a document: white space, escapes in strings and numbers of any form between, before and after make no difference. In particular an exported text is assembled as the document exported.", "quantifier": "every JSON object nested at most 10000 deep, every text of it, everything that may follow it", "why_tests_cant": "A document has infinitely many texts.", "anchors": ["ops/assemble/json.go: JSONAssembler.Assemble"]}
{"id": "C90", "title": "Malformed JSON is refused", "statement": "A JSON input that is assembled begins with a JSON object, after white space, and the result is the result for that object.", "quantifier": "every input", "why_tests_cant": "Malformed inputs are unbounded.", "anchors": ["ops/assemble/json.go: JSONAssembler.Assemble"]}
{"id": "C91", "title": "Nothing may follow a JSON document", "statement": "A JSON input with anything but white space after the document is refused.", "quantifier": "every input", "why_tests_cant": "Rubbish after a document is arbitrary.", "anchors": ["ops/assemble/json.go: JSONAssembler.Assemble"]}
{"id": "C92", "title": "Command lines", "statement": "Every command line invokes exactly one command: the one named by the first argument, otherwise disassembly. The options that take effect and the operands left are those the documented grammar gives (one or two dashes, value joined by = or following, options end at the first operand or at --, the last value counts), and there is only one reading. A command line outside the grammar changes no file and prints no result; it exits with 0 if it asks for help and with 2 otherwise.", "quantifier": "every list of arguments, every command", "why_tests_cant": "Argument lists are unbounded and every option has unbounded values.", "anchors": ["cmd/midiasm/main.go: main, parse", "commands/*.go: Flagset"]}
{"id": "C93", "title": "Options work anywhere", "statement": "An option has its effect wherever it stands on the command line.", "quantifier": "every command, every file name, every continuation", "why_tests_cant": "Positions and values are unbounded.", "anchors": ["cmd/midiasm/main.go: main, parse"]}
{"id": "C94", "title": "Numbers on the command line are decimal", "statement": "A number given to --semitones or --transpose as decimal digits stands for that number.", "quantifier": "every text of digits", "why_tests_cant": "Unbounded texts.", "anchors": ["commands/transpose.go: Flagset", "commands/notes.go: Flagset"]}
{"id": "C95", "title": "Only the named output is written", "statement": "A run of the program creates or changes no file except the one named by --out or, for a split disassembly, files ending in .MThd or .MTrk in the directory given by --out or, without it, the directory of the MIDI file. In particular the input is left alone unless it is named as output.", "quantifier": "every command line, every content of the file system", "why_tests_cant": "The file system and the arguments are unbounded.", "anchors": ["commands/disassemble.go: Execute, write, separate", "commands/*.go: Execute"]}
{"id": "C96", "title": "Disassemble, then assemble, from the command line", "statement": "Disassembling a MIDI file into a text file and assembling that file writes a MIDI file with the same header and the same events.", "quantifier": "every world, every command lines of that form, every decodable file", "why_tests_cant": "Unbounded files and arguments.", "anchors": ["commands/disassemble.go: Execute", "commands/assemble.go: Execute"]}
{"id": "C97", "title": "Export, then assemble, from the command line", "statement": "Exporting a MIDI file into a file ending in .json and assembling that file writes the encoding of the decoded file, whichever naming of notes is chosen for either run.", "quantifier": "every world, all command lines of that form, every decodable file of C58", "why_tests_cant": "Unbounded files and arguments.", "anchors": ["commands/export.go: Execute", "commands/assemble.go: Execute"]}
{"id": "C98", "title": "Assembling and transposing produce a file", "statement": "Assembling without --out writes the MIDI file under the default name the help promises (the input with the extension .midi), and transposing without --out, which the help calls required, is refused.", "quantifier": "every world and command line", "why_tests_cant": "Unbounded.", "anchors": ["commands/assemble.go: Execute, Help", "commands/transpose.go: Execute, Help"]}
{"id": "C99", "title": "A failing command leaves existing files alone", "statement": "A command that does not succeed changes no file.", "quantifier": "every world and command line", "why_tests_cant": "Unbounded.", "anchors": ["commands/notes.go: Execute", "commands/click.go: Execute", "commands/tsv.go: Execute, writeTSV"]}
{"id": "C100", "title": "A split disassembly has all parts", "statement": "Disassembling with --split writes one file for the header and one for every track, with distinct names made of the base name and the number of the track, which put together in order are the whole disassembly.", "quantifier": "every world, every decodable file, every command line with --split", "why_tests_cant": "Unbounded numbers of tracks and file names.", "anchors": ["commands/disassemble.go: separate"]}
{"id": "C101", "title": "The naming of notes does not reach MIDI files", "statement": "The option --C4 makes no difference to assembling and transposing: the same files with the same content are written and the program ends the same way.", "quantifier": "every world, every command line, with and without --C4", "why_tests_cant": "Files and arguments are unbounded.", "anchors": ["cmd/midiasm/main.go: main", "commands/transpose.go: Execute", "commands/assemble.go: Execute", "midi/context/context.go: FormatNote"]}
{"id": "C102", "title": "A disassembly with --C4 assembles back", "statement": "Disassembling with --C4 and assembling the text gives the same notes.", "quantifier": "every decodable file", "why_tests_cant": "Unbounded.", "anchors": ["midi/context/context.go: FormatNote", "midi/events/midi/note_on.go: ParseNote", "commands/disassemble.go: Execute"]}
{"id": "C103", "title": "The byte API takes exactly one event", "statement": "Reading an event from a byte slice fails if bytes are missing or if bytes are left over after the event.", "quantifier": "every event, every slice that starts with it", "why_tests_cant": "Unbounded suffixes.", "anchors": ["midi/events/midi/note_on.go: UnmarshalBinary", "midi/events/meta/tempo.go: UnmarshalBinary", "midi/events/sysex/message.go: UnmarshalBinary"]}
{"id": "C104", "title": "What the JSON assembler accepts", "statement": "A JSON document that assembles has a header (all members `header` taken together, later ones overriding, case ignored) with tag MThd, format 0, 1 or 2 and a documented division; each track (the elements at the same place of several members `tracks` taken together) has tag MTrk, at least one event and well-typed numbers; the file written has exactly that header, with the number of tracks, followed by one track chunk for each track and nothing else.", "quantifier": "every JSON document, also with repeated, null or wrongly typed members", "why_tests_cant": "JSON documents are unbounded and members may repeat in any order.", "anchors": ["ops/assemble/json.go: Assemble, parseMThd, parseMTrk", "midi/MThd.go: MakeMThd", "encoding/midi/encoder.go: Encode"]}
{"id": "C105", "title": "Lines of 64 kB", "statement": "A text is refused if it has 65536 bytes in a row without a newline; otherwise it is split at every newline and no line is lost. In particular the disassembly of a file with a text event of 65536 bytes without newline cannot be assembled.", "quantifier": "every text, every file", "why_tests_cant": "Length boundary on unbounded inputs.", "anchors": ["ops/assemble/text.go: read, scan", "ops/disassemble/disassemble.go: Print"]}
{"id": "C106", "title": "Writing to a file and printing give the same text", "statement": "A command run with --out writes to the file exactly the text it prints without --out, ends the same way and prints nothing.", "quantifier": "every world, all pairs of command lines that differ only in --out", "why_tests_cant": "Unbounded files and arguments.", "anchors": ["commands/disassemble.go: Execute, write", "commands/notes.go: Execute", "commands/export.go: Execute", "commands/tsv.go: Execute", "commands/click.go: Execute", "ops/click/click.go: Execute"]}
{"id": "C107", "title": "The delimiter chosen is the delimiter used", "statement": "The option --delimiter of tsv determines the delimiter of the output.", "quantifier": "every world and command line", "why_tests_cant": "Unbounded.", "anchors": ["commands/tsv.go: Execute, writeTSV, writeTable"]}
{"id": "C108", "title": "Bad input is an error and nothing else", "statement": "A missing, unnamed or malformed input file makes a command end with an error; no file is created or changed and nothing is printed but the message about the error.", "quantifier": "every command, every world, every command line", "why_tests_cant": "Unbounded.", "anchors": ["commands/command.go: decode", "commands/*.go: Execute"]}
{"id": "C109", "title": "Humanising writes a file", "statement": "The command humanise writes a humanised MIDI file.", "quantifier": "every world and command line", "why_tests_cant": "Unbounded.", "anchors": ["commands/humanise.go: Execute"]}
{"id": "C110", "title": "When commands crash", "statement": "On a MIDI file that decodes, no command loops, and a command crashes exactly in these cases: a format 1 file without tracks; notes of a file without tracks, or with SMPTE time or zero ticks per quarter note and either events after the first track or a tempo in the first of several tracks; the click track of a file without tracks. In particular disassembling, exporting, transposing by any number and tabulating never crash otherwise.", "quantifier": "every command that reads MIDI files, every world, every command line, every decodable file", "why_tests_cant": "Unbounded files, any number of semitones.", "anchors": ["commands/*.go: Execute", "ops/notes/notes.go: extract", "ops/transpose/transpose.go: Execute", "ops/click/click.go: Execute", "midi/smf.go: Validate"]}
{"id": "C111", "title": "Exactly which lines assemble back", "statement": "The line printed for an event reads back as that event if and only if the event is readable: a note from 12 to 131 under the name the default convention prints, a text without newline, leading blank or event name that takes precedence, a manufacturer that can be found by name, a time signature whose numbers the patterns accept, and fields in range.", "quantifier": "every event, printed with any tick and bytes; every manufacturer table whose names can be told apart, such as the built-in one", "why_tests_cant": "All events and texts, both directions of the equivalence; involves inverting backtracking patterns.", "anchors": ["ops/disassemble/template", "midi/events/text.go: Event.UnmarshalText", "midi/events/meta", "midi/events/midi", "midi/events/sysex"]}
{"id": "C112", "title": "What a line of text can say", "statement": "Every event read from any line of text is sayable: fields in range, texts without newline, leading blank or event name that takes precedence, notes 12 to 131 named in the default convention, manufacturers of the table, no SysEx terminator; and every sayable event has a line that says it.", "quantifier": "every line of text; every event; every manufacturer table (converse: whose names can be told apart)", "why_tests_cant": "All lines and all matches of the patterns.", "anchors": ["midi/events/text.go: Event.UnmarshalText", "midi/events/meta", "midi/events/midi", "midi/events/sysex", "midi/events/midi/note_on.go: ParseNote", "midi/lib/manufacturer.go: FindManufacturer"]}
{"id": "C113", "title": "Reading, printing and reading a line", "statement": "An event read from any line, printed with any tick and bytes, gives a line that is read as the same event: disassembling normalises hand-written lines without changing them.", "quantifier": "every line that can be read", "why_tests_cant": "All lines.", "anchors": ["midi/events/text.go: Event.UnmarshalText", "ops/disassemble/template"]}
{"id": "C114", "title": "A printed line is never misread", "statement": "For an event of a decoded file other than a text the printed line is read as that event or refused with an error; it is never read as another event.", "quantifier": "every decodable file, every event in it that is not a text", "why_tests_cant": "All events; the patterns are not anchored and skip what they do not match.", "anchors": ["ops/disassemble/template", "midi/events/text.go: Event.UnmarshalText", "midi/events/meta/time_signature.go: UnmarshalText", "midi/events/midi/note_on.go: UnmarshalText", "midi/lib/manufacturer.go: FindManufacturer"]}
{"id": "C115", "title": "Exactly what assembling a disassembly gives", "statement": "For a decoded file with tidy contents (texts without newline, leading blank, final carriage return, chunk tags or event names that take precedence; SysEx messages complete and not last) whose text has no line of 64 kB: with SMPTE time assembling the disassembly is an error; with metrical time it gives the bytes of the decoded file if no track is empty and all notes, time signatures and manufacturers are known, otherwise the first track that is empty (crash) or has an unknown event (error) decides. It never gives another file.", "quantifier": "every decodable file with such contents, any number of tracks", "why_tests_cant": "All files and both directions of the conversion.", "anchors": ["ops/disassemble/disassemble.go", "ops/assemble/text.go: TextAssembler.Assemble, parseMThd, parseMTrk", "ops/assemble/assemble.go: fixups"]}
{"id": "C116", "title": "Each command prints or writes its result", "statement": "Run with a command line that names a command and a file that decodes, the program prints the result of that command (notes, disassembly, export, table, delimited values, version, help) on standard output or, if an output is given, writes exactly it to that file and prints nothing; transpose and assemble write only to the file given; if the output cannot be created the command fails. Numbers, naming, templates, delimiter and format are those of the options given last.", "quantifier": "every world of files and permissions, every command line that parses, every decodable file", "why_tests_cant": "All command lines and files; unit tests run single operations, not the program.", "anchors": ["commands/notes.go", "commands/transpose.go", "commands/export.go", "commands/disassemble.go", "commands/tsv.go", "commands/assemble.go", "cmd/midiasm/main.go"]}
{"id": "C117", "title": "Values separated by any character read back", "statement": "Values written with a delimiter outside ASCII read back as the column titles and all cells of all records, whatever bytes the texts contain.", "quantifier": "every delimiter from U+0080 on except the replacement character; all tracks with all texts", "why_tests_cant": "All texts, also with parts of the delimiter at the end of a cell.", "anchors": ["commands/tsv.go: writeTSV"]}
{"id": "C118", "title": "Layout and characters of exports", "statement": "An exported document has one line for each element and member, indented by two blanks for each level, one blank after each colon and no other white space outside strings; it is UTF-8 without control characters other than line ends and without <, >, & and the Unicode line separators.", "quantifier": "every file, all texts in it", "why_tests_cant": "All texts and nestings.", "anchors": ["ops/export/export.go: Export.Export", "midi/smf.go", "midi/MTrk.go"]}
{"id": "C119", "title": "Where split files are written", "statement": "Cleaning a path does not change what it names; joining names the second path in the directory of the first; the directory part of a path is the directory in which it names something. Therefore the files of a split disassembly are in the directory given as output, whatever the form of its path, and without one beside the file that is disassembled.", "quantifier": "every working directory, every path, with or without output (symbolic links not followed)", "why_tests_cant": "All paths with any mixture of '.', '..', repeated and trailing slashes.", "anchors": ["commands/disassemble.go: separate"]}
{"id": "C120", "title": "Times in the JSON listing of notes are exact milliseconds", "statement": "The numbers given for start, end and duration of a note in the JSON listing are the times in seconds, exact to the millisecond, like those of the text listing.", "quantifier": "every list of extracted notes", "why_tests_cant": "The times are converted to floating point in two steps that are each rounded, so for 788 of the times between 1 and 32 seconds the decimal printed is not the time; tests with round times never see it.", "anchors": ["ops/notes/notes.go: export"]}
{"id": "C121", "title": "The JSON listing of notes shows the notes", "statement": "The JSON listing of extracted notes is a JSON document, laid out in lines, whose array lists the notes in order, each with channel, note number, name, velocity, start, end and duration; the times are less than 10^-14 seconds off the time truncated to milliseconds, and exact below one second and from 32 seconds on. Without notes the value is null.", "quantifier": "every file, every transposition, every order of map iteration; every list of notes with 64 bit times", "why_tests_cant": "All times up to 292 years, through two roundings to binary floating point and the shortest decimal that identifies the result.", "anchors": ["ops/notes/notes.go: export", "ops/notes/notes.go: extract", "ops/notes/notes.go: Note"]}
{"id": "C122", "title": "Decoding does not depend on how a reader delivers the bytes", "statement": "The decoder gives the same result for the same bytes, in whatever pieces the reader delivers them: any sizes, reads that deliver nothing, and the end of the file reported along with the last bytes or after them.", "quantifier": "every reader that ends with an end of file, every series of pieces, every input, valid or not", "why_tests_cant": "A network connection or a pipe delivers any series of pieces; tests read from memory.", "anchors": ["encoding/midi/decoder.go: Decode", "encoding/midi/decoder.go: next"]}
{"id": "C123", "title": "A failing read is not taken for a file", "statement": "When the reader fails, decoding fails, wherever the failure happens, even after the last byte of a complete file. The only exception is an error that claims to be an end of file (wraps io.EOF): then the whole chunks read so far count as the file, whatever follows them.", "quantifier": "every reader, every input and every place of failure", "why_tests_cant": "All places where a read can fail, in combination with all ways to deliver the bytes before.", "anchors": ["encoding/midi/decoder.go: Decode", "encoding/midi/decoder.go: next"]}
{"id": "C124", "title": "The encoder reports success only when everything was written", "statement": "When encoding succeeds the writer has accepted the whole file; whatever happens, what it has accepted is the beginning of the file; a writer that never fails gets everything. When a track cannot be encoded, encoding does not succeed, and the header and the tracks before it have been written.", "quantifier": "every writer that keeps the promise of io.Writer, every file, encodable or not", "why_tests_cant": "All places where a write can fail, with any part of the bytes accepted.", "anchors": ["encoding/midi/encoder.go: Encode", "encoding/midi/encoder.go: EncodeMTrk"]}
{"id": "C125", "title": "Assembling does not depend on the order of a map", "statement": "Assembling a text gives the same file every time, although manufacturers are found by ranging over a Go map, whose order is random.", "quantifier": "every text and every order of the built-in map of manufacturers", "why_tests_cant": "A run uses one random order; no number of runs covers all orders.", "anchors": ["midi/lib/manufacturer.go: FindManufacturer", "midi/lib/manufacturer.go: manufacturers", "ops/assemble/text.go: Assemble"]}
{"id": "C126", "title": "Assembling with added manufacturers does not depend on the order of a map", "statement": "After manufacturers from a configuration were added, too, assembling a text gives the same file every time.", "quantifier": "every configuration that loads, every text and every order of the resulting map", "why_tests_cant": "Depends on the random order of a Go map and on all configurations.", "anchors": ["midi/lib/manufacturer.go: FindManufacturer", "midi/lib/manufacturer.go: AddManufacturers", "midi/lib/manufacturer.go: LoadManufacturers", "ops/assemble/text.go: Assemble"]}
{"id": "C127", "title": "Decoding asks for memory in proportion to the file", "statement": "The buffers that decoding a file asks for take together at most twice the length of the file and eight bytes: lengths written in a file do not make the decoder ask for memory that the file cannot fill.", "quantifier": "All files, whatever the lengths written in their chunk headers and events", "why_tests_cant": "A test has a few files; the claim is about every length that a hostile or damaged file may state", "anchors": ["encoding/midi/decoder.go: Decode, chunker.next", "midi/events/event.go: VLF", "midi/MTrk.go: UnmarshalBinary, parse"]}
{"id": "C128", "title": "What a text means", "statement": "A text is assembled exactly when no line has 64 kB or more, every section (from the first line with MThd, a section starts at each line with MThd or MTrk) that does not begin with a comment is a valid header line or a track of valid event lines after some header, and all tracks follow the last header. The file is the last header, with the number of tracks, and the chunks of the tracks in order. A header line is valid when its first 'format:' followed by 0, 1 or 2 and its first 'metrical time: … ppqn' give a valid format and division.", "quantifier": "Every text and every table of manufacturers", "why_tests_cant": "The set of accepted texts and their meaning, both directions, for all texts", "anchors": ["ops/assemble/text.go: Assemble", "ops/assemble/text.go: read", "ops/assemble/text.go: parseMThd", "ops/assemble/text.go: parseMTrk"]}
{"id": "C129", "title": "No event line of a text is lost", "statement": "When a text is assembled, every line that is an event is in the file: a line is left out only when it is blank or a comment.", "quantifier": "Every text that is assembled", "why_tests_cant": "A line may be anywhere in any text", "anchors": ["ops/assemble/text.go: Assemble", "ops/assemble/text.go: chunkify", "ops/assemble/text.go: parseMTrk"]}
{"id": "C130", "title": "Assembling a text does not depend on how a reader delivers it", "statement": "The text assembler gives the same result for the same bytes, in whatever pieces a reader delivers them, with empty reads in between (at most a hundred in a row), and whether the end of file is reported along with the last bytes or after them.", "quantifier": "Every reader, every text and every way to deliver it", "why_tests_cant": "All ways to cut a text into reads, against the growing buffer of the scanner", "anchors": ["ops/assemble/text.go: read", "ops/assemble/text.go: scan", "ops/assemble/text.go: Assemble"]}
{"id": "C131", "title": "A failing read is not taken for a text", "statement": "When the reader fails, assembling fails, wherever the failure happens, even after a complete text. Only io.EOF itself ends a text; an error that wraps it is a failure.", "quantifier": "Every reader, every text and every place of failure", "why_tests_cant": "All places where a read can fail, in combination with all ways to deliver the bytes before", "anchors": ["ops/assemble/text.go: read", "ops/assemble/text.go: Assemble"]}
{"id": "C132", "title": "What an event line means", "statement": "A line of text is assembled to an event exactly if the first event name found in it is that of the event and the first place of the line with the form of that event (delta:, digits, the name, then the fields in the order, spelling and white space laid down for it, upper and lower case alike) has the delta time and the values of the event, all in range. Nothing else in the line matters.", "quantifier": "Every line of bytes, every table of manufacturers and every event", "why_tests_cant": "All lines, well formed or not, against 28 regular expressions with greedy and lazy repetition, case folding and UTF-8", "anchors": ["midi/events/text.go: Event.UnmarshalText", "midi/events/midi/note_on.go: NoteOn.UnmarshalText", "midi/events/midi/controller.go: Controller.UnmarshalText", "midi/events/meta/key_signature.go: KeySignature.UnmarshalText", "midi/events/meta/time_signature.go: TimeSignature.UnmarshalText", "midi/events/meta/smpte_offset.go: SMPTEOffset.UnmarshalText", "midi/events/sysex/message.go: SysExMessage.UnmarshalText"]}
{"id": "C133", "title": "A line is read as the key it names", "statement": "The key signature that a line is assembled to is the one named in the line; a line with the name of a key that does not exist is refused.", "quantifier": "Every line that is read as a key signature", "why_tests_cant": "All spellings of all names of keys", "anchors": ["midi/events/meta/key_signature.go: KeySignature.UnmarshalText"]}
{"id": "C134", "title": "A line has nothing but its event", "statement": "Text in a line that does not belong to the event is an error.", "quantifier": "Every line of bytes", "why_tests_cant": "All texts that can follow the values of a line", "anchors": ["midi/events/meta/end_of_track.go: EndOfTrack.UnmarshalText", "midi/events/midi/note_on.go: NoteOn.UnmarshalText", "midi/events/sysex/escape_message.go: SysExEscapeMessage.UnmarshalText"]}
{"id": "C135", "title": "The file that a text stands for, exactly", "statement": "A text is assembled to a file exactly if its lines are short enough to be read, its sections are comments, headers and tracks, each line of a track says an event, and the bytes of the file are those laid down for that header and those events: delta times and lengths as quantities, the bytes of each event, status left out for every other one of a row of notes on one channel, terminators of SysEx messages restored, lengths of the chunks and the number of tracks.", "quantifier": "Every text and every sequence of bytes", "why_tests_cant": "All texts and all files at once, from the lines to the bytes", "anchors": ["ops/assemble/text.go: TextAssembler.Assemble", "encoding/midi/encoder.go: EncodeMTrk", "midi/events/sysex/message.go: SysExMessage.MarshalBinary", "encoding/midi/encoder.go: encoder.Encode", "midi/lib/types.go: vlq2bin"]}
{"id": "C136", "title": "The bytes of an encoded file, exactly", "statement": "For a value with a header that has the fields it shows, tracks tagged as such and events in range, the encoder writes exactly the chunk of the header and for each track the chunk laid down for its events, and fails if the header does not count the tracks. Every decoded file is such a value, and its encoding is determined by its header and events alone.", "quantifier": "Every value with such a header and events, and every decoded file", "why_tests_cant": "All values that can be encoded", "anchors": ["encoding/midi/encoder.go: encoder.Encode", "encoding/midi/encoder.go: EncodeMTrk", "midi/MThd.go: MThd.MarshalBinary"]}
{"id": "C137", "title": "The file that a JSON document stands for, exactly", "statement": "A JSON document is assembled to a file exactly if its header, its tracks and the members of its events have the right kinds and ranges - members of the same name, in any case, may repeat, and it is laid down which of them counts - and the bytes of the file are those laid down for that header and those events.", "quantifier": "Every JSON value and every sequence of bytes", "why_tests_cant": "All documents, with all repetitions of members, and all files at once", "anchors": ["ops/assemble/json.go: JSONAssembler.Assemble", "midi/events/json.go: UnmarshalJSON", "encoding/midi/encoder.go: Encode", "midi/lib/manufacturer.go: Manufacturer.UnmarshalJSON", "midi/lib/channel.go: Channel.UnmarshalJSON"]}
{"id": "C138", "title": "The file that a JSON text stands for, exactly", "statement": "A JSON text is assembled to a file exactly if it begins, after white space, with the text of a JSON document nested at most 10000 deep, and the file is the one that the document stands for. Whatever follows is not read. In strings, where no character begins, a byte that is not UTF-8 and half of a surrogate pair are replaced by U+FFFD. A text begins with at most one such document.", "quantifier": "Every sequence of bytes as text and every sequence of bytes as file", "why_tests_cant": "All texts, well formed or not, and all files at once, from the characters to the bytes", "anchors": ["ops/assemble/json.go: JSONAssembler.Assemble", "midi/events/json.go: UnmarshalJSON", "encoding/midi/encoder.go: Encode"]}
{"id": "C139", "title": "The binary API of one event type, exactly", "statement": "Given a complete event with its status byte, and whatever lies beyond the bytes in memory, the UnmarshalBinary of an event type decodes events of that type exactly as the API for any event does, and refuses every other event. An F7 packet is a continuation or an escape, whichever type is asked for.", "quantifier": "Every event type, every complete event, every spare capacity", "why_tests_cant": "28 types times all events", "anchors": ["midi/events/binary.go: Event.UnmarshalBinary", "midi/events/sysex/escape_message.go: SysExEscapeMessage.UnmarshalBinary", "midi/events/meta/text.go: Text.UnmarshalBinary", "midi/events/midi/note_on.go: NoteOn.UnmarshalBinary"]}
{"id": "C140", "title": "How a JSON text is delivered does not matter", "statement": "Assembling JSON from a reader gives the result for the text it delivers, whatever the pieces in which it is delivered, reads that deliver nothing included, and whether the end of the file comes along with the last bytes or after them.", "quantifier": "Every reader that delivers a text and then the end of the file, every text", "why_tests_cant": "All ways of cutting a text, including inside a character, a number or an escape", "anchors": ["ops/assemble/json.go: JSONAssembler.Assemble"]}
{"id": "C141", "title": "A failure of the reader while a JSON text is assembled is reported", "statement": "If the reader fails with an error other than the end of the file, assembling JSON fails.", "quantifier": "Every reader, every text delivered before the failure, every error", "why_tests_cant": "All readers and all points of failure", "anchors": ["ops/assemble/json.go: JSONAssembler.Assemble"]}
{"id": "C142", "title": "A reader that delivers nothing for ever is given up", "statement": "If a reader delivers some bytes and from then on neither bytes nor an error, decoding a file and assembling a text or JSON from it end with an error.", "quantifier": "Every such reader, whatever it delivered before", "why_tests_cant": "Tests cannot wait for ever; all readers", "anchors": ["encoding/midi/decoder.go: decoder.Decode", "ops/assemble/text.go: TextAssembler.Assemble", "ops/assemble/json.go: JSONAssembler.Assemble"]}
{"id": "C143", "title": "What the bytes of a file decode to, exactly", "statement": "Bytes decode to a file with a given header and given tracks, each event with its time, bytes, field values, note, key, controller and manufacturer names and bank, if and only if they stand for that file by the rules of the format as the tool applies them. They stand for at most one file. All other bytes give an error, except those whose first undecodable track has an event with values out of range or of unknown kind, or a system common or real time status, which make the decoder panic.", "quantifier": "Every sequence of bytes, every header, every list of tracks, both conventions for middle C", "why_tests_cant": "All byte sequences, in both directions: what is accepted and what is shown", "anchors": ["encoding/midi/decoder.go: decoder.Decode", "midi/MThd.go: MThd.UnmarshalBinary", "midi/MTrk.go: MTrk.UnmarshalBinary"]}
{"id": "C144", "title": "The exact text of an exported file", "statement": "For bytes that stand for a file, export gives one document, the same to the last character: a header object with its ten members, and for each track its tag, its number and its events in order, each with tag, delta time, status, type (meta events) and the members of its kind, one line for each with the usual indentation. Texts are shown as UTF-8 with quotes, backslashes, control characters and markup escaped; a byte that no character starts with is shown as the escape \\ufffd, so that it can be told from a replacement character in the file. The command prints or writes exactly this.", "quantifier": "Every sequence of bytes that decodes, both conventions for middle C, every command line for export", "why_tests_cant": "Whole documents for all files; unit tests compare the output for a few files", "anchors": ["ops/export/export.go: Export.Export", "midi/MThd.go: MThd", "midi/MTrk.go: MTrk", "midi/events/meta/text.go: Text.MarshalJSON", "midi/events/midi/note_on.go: NoteOn.MarshalJSON", "midi/events/sysex/message.go: SysExMessage.MarshalJSON"]}
{"id": "C145", "title": "The exact text of a disassembly", "statement": "For bytes that stand for a file, disassembling gives one text, the same to the last character: a line for the header, and for each track an empty line, a line with its bytes, number and length, and a line for each event. The first column shows the bytes in hexadecimal, 42 characters wide, events shifted so that their status stands in one place for delta times of up to three bytes, cut off with an ellipsis after 41 characters (23 for tracks); then tick, delta time, status or type, kind and fields. The command prints or writes exactly this; split, the line of the header and the lines of each track are written to files of their own.", "quantifier": "Every sequence of bytes that decodes, both conventions for middle C, every command line for disassemble with the built-in templates", "why_tests_cant": "Whole texts for all files; unit tests compare the output for a few files", "anchors": ["ops/disassemble/disassemble.go: Disassemble.Print, ellipsize, pad, valign", "ops/disassemble/template: document, MThd, MTrk, event, events, hex", "commands/disassemble.go: write, separate"]}
{"id": "C146", "title": "The bytes of a transposed or rewritten file", "statement": "For bytes that stand for a file, reading and encoding gives one sequence of bytes, and transposing by any number of semitones gives one, stated byte by byte from what the file says: the header; for each track MTrk, the length and, for each event in order, the delta time as a variable-length quantity in as few bytes as possible and the bytes of the event with notes moved (limited to 0 and 127) and key signatures moved along the circle of fifths; the status of a note is left out if the bytes written for the event before begin with it. The transpose command writes exactly these bytes to the file named by --out (and nothing without it).", "quantifier": "Every sequence of bytes that decodes, both conventions for middle C, every number of semitones that fits a 64-bit integer with room for a note, every command line for transpose", "why_tests_cant": "Whole files for all files; unit tests compare the output for single files", "anchors": ["ops/transpose/transpose.go: Transpose.Execute, transpose", "encoding/midi/encoder.go: encoder.Encode, EncodeMTrk", "midi/MThd.go: MThd.MarshalBinary", "commands/transpose.go: transpose.execute"]}
{"id": "C147", "title": "The exact text of tables of events", "statement": "For bytes that stand for a file, the tsv command gives one text, the same to the last byte. The rows are the titles once for each track and then the n-th events of all tracks side by side, seven cells each, empty cells for tracks that have ended. Printed or with --tabular, cells are filled with blanks to the length in bytes of the longest cell of the column, counting characters, with two blanks between columns. Written to a file, the titles come once more in front, cells are separated by the first character of the delimiter (a tab by default), and a cell is put in quotes with its quotes doubled exactly if it contains a line end, a quote or the delimiter, starts with white space, or is a backslash and a point.", "quantifier": "Every sequence of bytes that decodes, both conventions for middle C, every command line for tsv with an acceptable delimiter", "why_tests_cant": "Whole texts for all files, texts that are not UTF-8, all delimiters; unit tests compare the output for one file", "anchors": ["commands/tsv.go: tsv.Execute, tsv.export, fields, writeTable, writeTSV"]}
{"id": "C148", "title": "The exact text of note listings", "statement": "For bytes that stand for a file with a metrical division and at least one track, short enough for times of 64 bits, the notes command lists the notes of the tracks after the first, track by track in the order in which they end, and the text of each line is determined to the last byte by the bytes of the file: name filled to four characters, channel, number in hexadecimal, velocity, and start, end and duration in milliseconds below a second and in hours, minutes and seconds with up to three decimals from there on. With --json the same notes are listed in one JSON document. Notes that end together are listed by channel; only the order of notes of one channel that end together is left open.", "quantifier": "Every sequence of bytes that decodes, both conventions for middle C, every command line for notes with a transposition not overflowing an int, every map iteration order", "why_tests_cant": "Whole texts for all files, with tempo changes in several tracks; unit tests compare one file", "anchors": ["commands/notes.go: notes.Execute", "ops/notes/notes.go: extract, buildTrackEvents, buildNoteList, print, export"]}
{"id": "C149", "title": "The exact text of validation warnings", "statement": "For bytes that stand for a file (other than a format 1 file without tracks), the warnings that every command reading the file prints are determined to the last byte by what the bytes stand for: nothing at all, or a heading and one line each, in this order, for a format 0 file whose number of tracks is not one, for every event in the first track of a format 1 file that does not belong there, for every tempo map event in a later track, for every End of Track before the last event and every track without one, and for every half of a bank selection without its other half right beside it or with it on another channel, with tracks and positions. Nothing is printed about a file that cannot be read or decoded.", "quantifier": "Every sequence of bytes that decodes, both conventions for middle C", "why_tests_cant": "Whole texts for all files; unit tests check the findings of a few", "anchors": ["midi/smf.go: Validate, validateFormat0, validateFormat1", "midi/events/event.go: Clean", "commands/disassemble.go: disassemble.Execute"]}
{"id": "C150", "title": "Files written once are final, and transpositions of files add up", "statement": "For every file shorter than 2^28 bytes whose events survive being written (C28): the file written for it decodes, with the same header and the same or the moved events; reading the written file and writing it again gives the same bytes; transposing by a and transposing the result by b gives byte for byte the file of transposing by a + b, if the first does not limit a note, also in two runs of the command; and if the written file has plain contents, disassembling or exporting it and assembling the result gives that very file. A file is never written in more than eight times its length.", "quantifier": "Every sequence of bytes that stands for such a file, every pair of transpositions not overflowing an int, both conventions for middle C", "why_tests_cant": "Fixed points and composition over whole files; unit tests compare single conversions", "anchors": ["ops/transpose/transpose.go: Execute", "encoding/midi/decoder.go: Decode", "encoding/midi/encoder.go: Encode", "commands/transpose.go: Execute"]}
{"id": "C151", "title": "An assembled file has the events that the text states", "statement": "Assembling a text or a JSON document whose events are recoverable succeeds, and the file written (if shorter than 4 GiB) reads back with the header of the text and exactly the events that it states, with the delta times stated and the terminators of SysEx messages restored. Recoverable are events with delta times below 2^28 other than long texts, tempos of more than three bytes, denominators that are no powers of two, notes above 127, pitch bends of 128 and more, unusual manufacturer IDs, and continuations that do not follow what they continue. If no event is a continuation, reading and writing the file gives the same bytes.", "quantifier": "Every text and every JSON text with recoverable events, both conventions for middle C", "why_tests_cant": "The promise of the assembler over all texts, independent of the disassembler; unit tests assemble a few texts", "anchors": ["ops/assemble/text.go: TextAssembler.Assemble", "ops/assemble/json.go: JSONAssembler.Assemble", "encoding/midi/encoder.go: Encode", "encoding/midi/decoder.go: Decode"]}
{"id": "C152", "title": "The documented options are accepted", "statement": "For every command, a command line made of options that README.md lists for the command is accepted: it does not end with the usage message, and the options have the values given.", "quantifier": "Every command, every command line over the documented options, every state of the file system", "why_tests_cant": "The README is the contract with the user; no test relates it to the options that the flag sets define", "anchors": ["README.md", "commands/export.go: export.Flagset", "commands/disassemble.go: disassemble.Flagset", "commands/notes.go: notes.Flagset", "commands/transpose.go: transpose.Flagset", "commands/tsv.go: tsv.Flagset"]}
{"id": "C153", "title": "A disassembly tells the file", "statement": "Two MIDI files with the same disassembly, in which no delta time and no length takes more than four bytes, have the same header and the same events: as many tracks, and in each the same delta times and the same contents, whichever convention for middle C each was disassembled with. Reading and writing them again gives the same file.", "quantifier": "Every pair of files that can be decoded, both conventions for middle C, every text, also with line ends, in the events", "why_tests_cant": "That nothing is lost, and nothing mistaken, in the text concerns all pairs of files; unit tests compare the text of a few files with a literal", "anchors": ["commands/disassemble.go: disassemble.Execute", "ops/disassemble/disassemble.go: Disassemble.Print", "encoding/midi/decoder.go: Decode"]}
{"id": "C154", "title": "An export tells the file", "statement": "Two MIDI files whose exports represent the same JSON value, even if the texts differ in white space and escapes, have the same header and the same events: as many tracks, and in each the same delta times and contents, where texts are the same up to bytes that are not UTF-8. If all texts are UTF-8 the contents are equal, and reading and writing the files again gives the same file.", "quantifier": "Every pair of files that can be decoded, both conventions for middle C, every text in the events, every way to write the JSON value", "why_tests_cant": "That no field is left out of the export or shared by two kinds of events concerns all pairs of files; unit tests compare the exports of a few files with literals", "anchors": ["commands/export.go: export.Execute", "ops/export/export.go: Export.Export", "encoding/midi/decoder.go: Decode"]}
{"id": "C155", "title": "The help names the commands and exactly their options", "statement": "The command help without the name of a command, or with a name that is no command, prints a list in which each command has one line and no other line is indented like one. With the name of a command that works on files it prints a text that names exactly the options that the command accepts.", "quantifier": "Every command line for help, every name given, every option", "why_tests_cant": "That the help agrees with the flag sets, whatever options and operands help is given, is no output of a single call; the repository has no test of it", "anchors": ["cmd/midiasm/help.go: help.Execute", "cmd/midiasm/main.go: cli", "commands/notes.go: notes.Help", "commands/disassemble.go: disassemble.Help"]}
{"id": "C156", "title": "The examples in the help work", "statement": "The help of each command that works on files has one example, which is an invocation of that command that is accepted, with an input file and a different output file.", "quantifier": "Every command line for help, every command, every environment", "why_tests_cant": "The examples are texts that no test runs; that they mean the command and its files is a statement about the grammar of command lines", "anchors": ["cmd/midiasm/help.go: help.Execute", "commands/humanise.go: humanise.Help", "commands/transpose.go: transpose.Help", "cmd/midiasm/main.go: parse"]}
{"id": "C157", "title": "The exit status is zero exactly when the command did what it was asked", "statement": "The program ends with status zero exactly if the command line names a command (or none) with options that the command has, and, by command: help and version always; assemble if the input file can be read and its text, or its JSON text if the name ends in .json, stands for a MIDI file; the commands on MIDI files if the input is a MIDI file in the sense of C143 that is not of format 1 without tracks, for notes with times for its notes, for click with a track, for tsv with a separator that can be written; and in each case every output file can be created. Assemble saves exactly the bytes that the text stands for, and if it stands for none then nothing is written.", "quantifier": "Every command line and environment, every content of the input file, with the built in templates", "why_tests_cant": "An equivalence between the exit status and a grammar of inputs: tests show single runs, and the converse (no other input succeeds) has no finite test", "anchors": ["cmd/midiasm/main.go: main, parse", "commands/assemble.go: assemble.Execute", "commands/disassemble.go: disassemble.Execute", "commands/tsv.go: tsv.Execute", "commands/notes.go: notes.Execute", "commands/click.go: click.Execute"]}
{"id": "C158", "title": "Exactly when a command on a MIDI file crashes", "statement": "A command on a MIDI file always ends, with success, an error or a crash. It crashes exactly if the input can be read and its bytes break the decoder (an event whose data is cut short or out of range in one of the ways listed by the decoder's law), or stand for a file of format 1 without tracks, or, once the output file could be created, the command is notes and the notes have no times, or click and there is no track.", "quantifier": "Every command line and environment, every content of the input file, every command that reads MIDI files", "why_tests_cant": "The converse direction (nothing else crashes) ranges over all byte sequences and all environments", "anchors": ["cmd/midiasm/main.go: main", "commands/command.go: decode", "encoding/midi/decoder.go: Decode", "ops/notes/notes.go: Execute", "ops/click/click.go: Execute"]}
{"id": "C159", "title": "Exactly which texts crash the assembler or keep it busy for ever", "statement": "The text assembler crashes exactly on a text whose lines are short enough, whose sections up to one stand for a header and tracks, in which that section begins with a track and holds lines for events up to one that gives an SMPTE offset out of range, or holds no event, or comes before any header; it does not end exactly if such a track holds lines for events up to one that gives a time signature with a denominator above 128. The JSON assembler crashes exactly on a text that begins with a document whose header and whose tracks up to one have a meaning, where that track has no events, or after events with a meaning one with values out of range: an SMPTE offset, a key signature, a velocity or a pressure; it does not end exactly if that event is a time signature with a denominator above 128. Every other text is assembled or refused with an error.", "quantifier": "Every text, as bytes", "why_tests_cant": "An equivalence over all texts: a fuzzer finds single crashes, but not that there are no others, and that a loop never ends is not observable", "anchors": ["ops/assemble/text.go: Assemble, parseMTrk", "ops/assemble/json.go: Assemble, parseMTrk", "midi/events/meta/smpte_offset.go: MakeSMPTEOffset, UnmarshalText", "midi/events/meta/time_signature.go: MakeTimeSignature", "midi/events/meta/key_signature.go: MakeKeySignature"]}
{"id": "C160", "title": "Exactly when the program crashes on a text, and when it does not end", "statement": "The command assemble crashes exactly on the inputs of C159 that crash the assembler for the kind of file named (JSON if the name ends in .json, text otherwise), and does not end exactly on those that it does not finish; in both cases, and after an error, it has created no file and printed nothing on standard output. A run of the program does not end exactly if it is such a run of assemble: every other command line in every environment leads to an end.", "quantifier": "Every command line and environment, every content of the input file", "why_tests_cant": "Termination of all runs but those described cannot be tested, nor that no other input crashes the command", "anchors": ["cmd/midiasm/main.go: main", "commands/assemble.go: assemble.Execute"]}
{"id": "C161", "title": "The same command on the same files gives the same result", "statement": "Two runs of the program with the same command line on the same files give the same output files, the same text on standard output and the same end.", "quantifier": "Every command line, every content of the files, every content of fresh memory and every order of iteration over maps", "why_tests_cant": "The order of iteration over a Go map is random and cannot be controlled in a test", "anchors": ["cmd/midiasm/main.go: main", "ops/notes/notes.go: buildNoteList", "encoding/midi/decoder.go: Decode"]}
{"id": "C162", "title": "What can differ between two runs of notes", "statement": "Two runs of notes with the same command line on the same files end in the same way. For a file with times they list the same notes track by track, in the order in which they end and by channel if they end with the same event, so that only notes of one channel that end together can change places; if there are no such notes then the results are equal.", "quantifier": "Every command line, every content of the files, every content of fresh memory and every order of iteration over maps", "why_tests_cant": "The order of iteration over a Go map is random and cannot be controlled in a test; that nothing else differs is a statement about all files", "anchors": ["ops/notes/notes.go: Execute, buildNoteList", "commands/notes.go: notes.Execute"]}
{"id": "C163", "title": "Listing transposed and listing the transposed file", "statement": "The notes command with --transpose n lists for a file what it lists, without the option, for the file that the transpose command writes with --semitones n.", "quantifier": "Every file with times, every number of semitones, every command line for the three runs, every order of iteration over maps", "why_tests_cant": "It relates three runs over all files; the two commands move notes with separate code", "anchors": ["ops/notes/notes.go: transpose, buildNoteList", "ops/transpose/transpose.go: Transpose.Execute", "commands/notes.go: notes.Execute", "commands/transpose.go: transpose.Execute"]}
{"id": "C164", "title": "The content of the file named decides", "statement": "Two runs of a command with the same options give the same result if the files named have the same content: the name of the file, further arguments and all other files do not matter. Exceptions are that assemble reads JSON exactly if the name ends in .json, that the files of a split disassembly without --out are named after the file, and that a templates file given is read as well.", "quantifier": "Every command but help, every command line, every system of files", "why_tests_cant": "It concerns all names and the absence of reads of other files", "anchors": ["commands/command.go: decode", "commands/assemble.go: assemble.Execute", "commands/disassemble.go: disassemble.Execute, separate", "cmd/midiasm/main.go: main"]}
{"id": "C165", "title": "Tracks do not influence each other", "statement": "What a track chunk decodes to depends on its bytes only: the same chunk in two files, at whatever place, gives the same events, with the same times, names and banks, whatever the other tracks are. Any tracks of any files put one after another behind a valid header with their number are a file that decodes to just these tracks in this order.", "quantifier": "Every pair of files that decode, every list of tracks of any such files, both conventions for middle C", "why_tests_cant": "Running status, key signatures, banks and names of sounding notes are kept while decoding; that nothing of it passes from one track to the next concerns all combinations of tracks", "anchors": ["encoding/midi/decoder.go: Decode", "midi/MTrk.go: MTrk.UnmarshalBinary"]}
{"id": "C166", "title": "Events do not depend on later ones", "statement": "A track of a file that decodes, cut off after any of its events, decodes as a track with exactly the events up to there. If the body of a track begins with the bytes of the first events of another track then its events begin with the same events: an event, with its time, the names of its notes and its bank, is determined by the bytes up to its end.", "quantifier": "Every pair of files that decode, every pair of their tracks, every number of events, both conventions for middle C", "why_tests_cant": "That later bytes never reach back into an event concerns all continuations of all tracks", "anchors": ["midi/MTrk.go: MTrk.UnmarshalBinary"]}
{"id": "C167", "title": "A disassembly of an assembled text gives the same file", "statement": "A text that is assembled to a file, the file disassembled and the disassembly assembled again give the same file byte for byte, also in three runs of the program, if neither text has a line of 64 kB, the header states the number of tracks and a metrical time, and the events are recoverable (C151), without continuations of SysEx messages, texts ending in a carriage return and tracks ending in a SysEx message. Nothing else is asked of the text: whatever can be read from its lines can be printed and read again.", "quantifier": "Every text that the assembler accepts, with such a header and such events", "why_tests_cant": "Hand-written texts are unlimited in form; that printing what was read from any of them never runs into one of the many cases in which a disassembly cannot be read back (C56) concerns all of them", "anchors": ["ops/assemble/text.go: TextAssembler.Assemble", "midi/events/text.go: Event.UnmarshalText", "ops/disassemble/template", "encoding/midi/decoder.go: Decode", "commands/assemble.go: Execute"]}
{"id": "C168", "title": "An export of an assembled JSON document gives the same file", "statement": "A JSON document that is assembled to a file, the file exported and the export assembled again give the same file byte for byte, whatever the conventions for the name of middle C in the three steps, also in three runs of the program, if the events of the document are recoverable (C151), none continues a SysEx message and the time is metrical. Nothing is asked of how the document is written.", "quantifier": "Every text of a JSON document, every content with such events, every convention for middle C, every command line of the three runs", "why_tests_cant": "The document can hold any strings and be laid out in any way; that what a document can say can always be exported and read again is a statement about all of them", "anchors": ["ops/assemble/json.go: JSONAssembler.Assemble", "ops/export/export.go", "encoding/midi/decoder.go: Decode", "commands/export.go: Execute", "commands/assemble.go: Execute"]}
{"id": "C169", "title": "A file can be carried from text to JSON and from JSON to text", "statement": "A text assembled to a file, the file exported and the export assembled give the same file byte for byte, under the conditions of C167 and if the texts of the events are in UTF-8. A JSON document assembled to a file, the file disassembled and the disassembly assembled give the same file, under the conditions of C168 and if lines of text can state the events: texts have one line, are not led by blanks, do not name an event kind that is looked for earlier or a chunk and do not end in a carriage return, time signatures have a denominator that is not 0 and a number of 32nds per quarter that is not 0 and has no 9 after its first digit, manufacturers are known, notes are not below the lowest octave that can be named, no track ends in a SysEx message. Both hold for three runs of the program. The disassembly and the export of one file are assembled to the same bytes.", "quantifier": "Every text and every JSON document with such events, every command line of the runs", "why_tests_cant": "That two formats with different readers, writers and restrictions stand for the same files is a statement about all contents", "anchors": ["ops/assemble/text.go: TextAssembler.Assemble", "ops/assemble/json.go: JSONAssembler.Assemble", "ops/export/export.go", "ops/disassemble/template", "commands/assemble.go: Execute"]}
{"id": "C170", "title": "Parts of disassembled files can be put together anew", "statement": "The lines of the header of a disassembled file, followed by the lines of tracks of this file or of other disassembled files, whichever, in any order and each as often as wanted, are assembled to a file with the format and the time division of that header, as many tracks as were given, and their contents in this order, byte for byte; whatever number of tracks the line of the header states. With the program: the files of a split disassembly, the header first and any of the others after it, are put together and assembled.", "quantifier": "Every file with metrical time, every list of fewer than 65536 tracks of files, with plain contents (C83), no line of 64 kB", "why_tests_cant": "There are unlimited selections of tracks; that the numbers, lengths and counts printed for the original file do not matter any more concerns all of them", "anchors": ["commands/disassemble.go: separate", "ops/assemble/text.go: TextAssembler.Assemble", "commands/assemble.go: Execute"]}
{"id": "C171", "title": "Blank lines, comments and line ends do not matter", "statement": "Two texts whose lines are the same in the same order, apart from lines of white space and comments (lines that begin with %%) that do not name a chunk, are assembled to the same file or both to none, if neither has a line of 64 kB. In particular a blank line or such a comment can be inserted or removed anywhere, newlines may be preceded by carriage returns or not, and a newline at the end of the text may be missing. The condition on comments is necessary: the events after a comment in which the word MTrk occurs are lost.", "quantifier": "Every pair of such texts, every list of manufacturers, every run of the program", "why_tests_cant": "There are unlimited places and contents of comments and blank lines; that none of them is taken for an event, ends a track or shifts another line is a statement about all texts", "anchors": ["ops/assemble/text.go: TextAssembler.Assemble", "ops/assemble/text.go: TextAssembler.read", "commands/assemble.go: Execute"]}
{"id": "C172", "title": "The arrangement of a JSON document does not matter", "statement": "If members of different names are put in another order anywhere in a JSON document, names of members are written in other case, or members that mean nothing to the program are added or left out, the document is assembled to the same file, or still to none. White space, and anything behind the document, do not matter either. The members of an object can be put in any order if their names are all different; of members with the same name the last one counts, so their order does change the file.", "quantifier": "Every pair of documents one of which is a rearrangement of the other, every pair of texts of them, every run of the program", "why_tests_cant": "There are unlimited documents and arrangements of each; that no reader of a member depends on where it stands is a statement about all of them", "anchors": ["ops/assemble/json.go: JSONAssembler.Assemble", "midi/events/meta/tempo.go: UnmarshalJSON", "midi/events/midi/note_on.go: UnmarshalJSON", "commands/assemble.go: Execute"]}
{"id": "C173", "title": "A change to the lines of one track changes only that track", "statement": "If some lines of a text, none of which begins a chunk, are replaced by other lines of that kind and the text is assembled to a file before and after, then either the file is the same or only the chunk of one track has changed. The header and the chunks of all other tracks are the same bytes, and the events of that track outside the replaced lines are the same, apart from terminators of SysEx packets and running status.", "quantifier": "Every text, every place in it, every number of lines replaced by every number of other lines, every list of manufacturers, every pair of runs of the program", "why_tests_cant": "The places and kinds of edits are unlimited; that nothing is carried over from the lines of one track to another (running status, manufacturers, SysEx state, counts) is a statement about all of them", "anchors": ["ops/assemble/text.go: TextAssembler.Assemble", "ops/assemble/text.go: TextAssembler.read", "ops/assemble/text.go: TextAssembler.parseMTrk", "commands/assemble.go: Execute"]}
{"id": "C174", "title": "JSON documents are assembled track by track and can be put together anew", "statement": "A JSON document with one header and one array of tracks is assembled exactly if its header is valid, it has fewer than 65536 tracks and each of its tracks can be assembled by itself; the file is the header with the number of tracks and the chunks of the tracks one after the other. So a document with the header of one such document and any tracks of any such documents, in any order and any number of times, is assembled to a file whose chunks are the chunks that these tracks have in the files of the documents that they come from. Exports of files with tracks are such documents.", "quantifier": "Every document with one header and one array of tracks, every selection of tracks of such documents, every export", "why_tests_cant": "The number of ways to select and order tracks is unlimited; that nothing of one track depends on its place or on its neighbours is a statement about all of them", "anchors": ["ops/assemble/json.go: JSONAssembler.Assemble", "ops/assemble/json.go: JSONAssembler.parseMTrk", "ops/export/export.go: Export"]}
{"id": "C175", "title": "A text in UTF-8 can be carried to JSON and back to the file", "statement": "If a text is in UTF-8, so are the texts of all the events it stands for: no character is cut by the division into lines, by the removal of carriage returns or by the reading of an event line. So the condition of C169 on the texts of the events can be dropped: a text in UTF-8 is assembled to a file, and the export of the file is assembled to the same bytes.", "quantifier": "Every text in UTF-8 that states recoverable events, every list with the known manufacturers, every run of the program", "why_tests_cant": "A text has unlimited characters in unlimited places, and bytes inside a character could look like a separator in a wrong program; this is a statement about all texts", "anchors": ["ops/assemble/text.go: TextAssembler.read", "midi/events/meta/text.go: UnmarshalText", "ops/export/export.go: Export", "ops/assemble/json.go: JSONAssembler.Assemble"]}
{"id": "C176", "title": "When there are no warnings about a file", "statement": "The commands print no warnings about a file (other than a format 1 file without tracks) exactly if it has one track or is not of format 0, in format 1 has only tempo map events in the first track and neither tempos nor SMPTE offsets elsewhere, and every track has exactly one EndOfTrack, at the end, and bank selections only as an MSB directly followed by an LSB on the same channel. For a file assembled from a text or a JSON document of recoverable events this is decided by the events stated there. Transposing a file does not change its warnings.", "quantifier": "Every file that stands for something, every text and JSON document of recoverable events, every transposition that fits an int", "why_tests_cant": "It is an equivalence over all files, and over all texts, documents and transpositions, not a list of files with and without problems", "anchors": ["midi/smf.go: SMF.Validate", "midi/events/event.go: IsTrack0Event, IsTrack1Event", "commands/disassemble.go: Execute", "commands/tsv.go: validate", "ops/transpose/transpose.go: Execute"]}
{"id": "C177", "title": "Assembling loses nothing and adds nothing", "statement": "Two inputs of the assembler, texts or JSON documents in any combination, that state recoverable events and are assembled to the same file state the same header and the same events with the same delta times; without continuations of SysEx messages also the reverse holds: the files are the same exactly if the same is stated.", "quantifier": "Every two texts or JSON documents that state recoverable events, files below 4 GB", "why_tests_cant": "It compares any two inputs, also of different formats; tests compare an input with one expected file", "anchors": ["ops/assemble/text.go: TextAssembler.Assemble", "ops/assemble/json.go: JSONAssembler.Assemble", "encoding/midi/decoder.go: Decode"]}
{"id": "C178", "title": "Events take place at the sum of the delta times stated", "statement": "In the file that a text or a JSON document is assembled to, every event is read with the tick that is the sum of the delta times stated for the events of its track up to it (of the sum of those before it, 32 bits are kept). So if events of a track are replaced by others that last as long, the events after them stay at the same ticks.", "quantifier": "Every text and JSON document that states recoverable events, every track and event, every replacement, files below 4 GB", "why_tests_cant": "The sums range over tracks of unlimited length and over all replacements; a test checks the ticks of a few events", "anchors": ["ops/assemble/text.go: TextAssembler.Assemble", "ops/assemble/json.go: JSONAssembler.Assemble", "midi/MTrk.go: MTrk.UnmarshalBinary"]}
{"id": "C179", "title": "Transposing a file is transposing its text", "statement": "The file assembled from a text or JSON document, transposed by n semitones, is byte for byte the file assembled from any text or JSON document that states the same events with the notes and key signatures moved by n; the transpose command writes just these bytes.", "quantifier": "Every two texts or JSON documents that state recoverable events, moved, the second without continuations of SysEx messages; every number of semitones that fits an int; every run of the command", "why_tests_cant": "It is a statement about all pieces and all transpositions, through two independent ways to the same file", "anchors": ["ops/transpose/transpose.go: Execute", "commands/transpose.go: Execute", "ops/assemble/text.go: TextAssembler.Assemble", "ops/assemble/json.go: JSONAssembler.Assemble"]}
{"id": "C180", "title": "How the events of a file are encoded does not matter", "statement": "Two MIDI files that stand for the same header and the same events with the same delta times, whatever the use of running status, padded lengths and delta times, foreign chunks, bytes after the last event or an incomplete chunk at the end, give the same results: the same JSON export and table, the same warnings, the same bytes when written again or transposed, and the same notes if no two notes of one channel end with the same event. Universal SysEx messages are excepted, because their two kinds show up as one.", "quantifier": "Every two files that stand for the same events, every option, every run", "why_tests_cant": "There are unlimited encodings of the same events; the statement compares any two of them in all commands", "anchors": ["midi/MTrk.go: MTrk.UnmarshalBinary, parse", "encoding/midi/decoder.go: Decode", "ops/export/export.go: Export", "ops/transpose/transpose.go: Execute", "ops/notes/notes.go: Execute", "midi/smf.go: SMF.Validate"]}
{"id": "C181", "title": "The notes of a file are the notes of its tracks", "statement": "The list of the notes of a file with metrical time is, one after another, the lists of the notes of the files that have its first track, with the tempos, and one of its other tracks: no track has an influence on the notes of another, but for the first.", "quantifier": "Every file with metrical time and tracks short enough for exact times in which no two notes of one channel end with the same event, every transposition that fits an int, every iteration order of maps", "why_tests_cant": "It relates a file with any number of tracks to as many other files; tests list the notes of one file", "anchors": ["ops/notes/notes.go: Execute, extract, buildTempoMap", "midi/MTrk.go: MTrk.UnmarshalBinary"]}
{"id": "C182", "title": "Disassemblies of files with the same events differ in the bytes shown only", "statement": "If two files have the same header and the same events at the same times, however these are encoded, then their disassemblies have the same first line and the same number of lines, and each line of one is the line of the other from the 43rd character on, except that the lengths of tracks may differ.", "quantifier": "Every two sequences of bytes that stand for the same header and the same events at the same times, without universal SysEx messages; every world and every two command lines of disassemble with the same options, without templates and without split", "why_tests_cant": "It relates the output for any two files; the widths of the columns have to be the same for events of any length, including those cut off with an ellipsis", "anchors": ["ops/disassemble/disassemble.go: Disassemble.Print, ellipsize, pad, valign", "commands/disassemble.go: write"]}
{"id": "C183", "title": "Listed notes are in order and do not overlap", "statement": "In the list of the notes of a file with metrical time, no note starts after its end and its duration is the time from its start to its end; the notes of each track are in the order in which they end; and a note of a track ends before the next one of the same pitch on the same channel starts, unless the transposition moves notes out of the range.", "quantifier": "Every file with metrical time and tracks short enough for exact times, every transposition that fits an int, every iteration order of maps", "why_tests_cant": "The order and the times of any number of notes with any tempo changes, for every order in which a map is iterated", "anchors": ["ops/notes/notes.go: Execute, extractNotes, buildTempoMap"]}
