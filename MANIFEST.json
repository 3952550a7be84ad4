{"claims": [
{"property": "C01", "status": "partial", "theorems": ["Midiasm.C01_delta_roundtrip_partial", "Midiasm.C01_delta_roundtrip_fails"], "note": "True below 2^28; proved false from 2^28 up."},
{"property": "C02", "status": "proved", "theorems": ["Midiasm.C02_vlq_canonical"], "note": ""},
{"property": "C03", "status": "proved", "theorems": ["Midiasm.C03_decode_self_delimiting"], "note": ""},
{"property": "C04", "status": "proved", "theorems": ["Midiasm.C04_vlf_roundtrip"], "note": ""},
{"property": "C05", "status": "proved", "theorems": ["Midiasm.C05_header_acceptance"], "note": ""},
{"property": "C06", "status": "partial", "theorems": ["Midiasm.C06_header_roundtrip_partial", "Midiasm.C06_header_roundtrip_fails"], "note": "False for SMPTE divisions with 128 or more ticks per frame when the header value was built by MakeMThd (7 bit mask); true otherwise. Headers read from files: C63."},
{"property": "C07", "status": "proved", "theorems": ["Midiasm.C07_chunk_framing"], "note": ""},
{"property": "C08", "status": "partial", "theorems": ["Midiasm.C08_decode_never_panics_partial", "Midiasm.C08_track_panics_iff_partial", "Midiasm.C08_decode_never_panics_fails"], "note": "False: exact condition for a track to panic proved as an equivalence; decoding always terminates."},
{"property": "C09", "status": "proved", "theorems": ["Midiasm.C09_event_bytes_cover_track"], "note": ""},
{"property": "C10", "status": "partial", "theorems": ["Midiasm.C10_ticks_running_sums_partial", "Midiasm.C10_ticks_fails"], "note": "True when the delta times sum to less than 2^32, proved false beyond; exact law for all tracks in C67."},
{"property": "C11", "status": "proved", "theorems": ["Midiasm.C11_running_status_transparent", "Midiasm.C11_omit_status"], "note": ""},
{"property": "C12", "status": "proved", "theorems": ["Midiasm.C12_meta_cancels_running_status", "Midiasm.C12_none_iff"], "note": ""},
{"property": "C13", "status": "partial", "theorems": ["Midiasm.C13_standard_track_decodes_partial"], "note": "Missing cases are false of the code: polyphonic pressure (C17), pitch bend byte order (C65), manufacturer 7F (C22)."},
{"property": "C14", "status": "partial", "theorems": ["Midiasm.C14_truncated_track_reported_fails"], "note": "False for every track and every cut point; truncated files are caught by the chunk layer (C64)."},
{"property": "C15", "status": "proved", "theorems": ["Midiasm.C15_channel_voice_roundtrip"], "note": "Per kind, from the bytes written to the event parsed from them, in every decoder state."},
{"property": "C16", "status": "partial", "theorems": ["Midiasm.C16_pitch_bend_partial", "Midiasm.C16_pitch_bend_fails", "Midiasm.C16_pitch_bend_exact"], "note": "False from 128 on: the exact law gives what is read back for every bend value; the partial theorem covers bends below 128 and the _fails theorem every other bend up to 16383."},
{"property": "C17", "status": "partial", "theorems": ["Midiasm.C17_poly_pressure_fails", "Midiasm.C66_dialect_track_decodes"], "note": "False for every channel, key and pressure; the one byte layout decodes correctly (C66)."},
{"property": "C18", "status": "partial", "theorems": ["Midiasm.C18_text_roundtrip_partial", "Midiasm.C18_text_roundtrip_fails"], "note": "True for track names below 2^28 bytes and other kinds below 128 bytes; false for every other kind from 128 bytes on."},
{"property": "C19", "status": "proved", "theorems": ["Midiasm.C19_fixed_meta_roundtrip"], "note": ""},
{"property": "C20", "status": "partial", "theorems": ["Midiasm.C20_time_signature_partial", "Midiasm.C20_time_signature_fails", "Midiasm.C20_time_signature_exact"], "note": "True exactly for exponents below 8; the exact theorem states what is written for every exponent."},
{"property": "C21", "status": "proved", "theorems": ["Midiasm.C21_key_signature"], "note": "Key names compared with the circle of fifths in Spec/Keys."},
{"property": "C22", "status": "partial", "theorems": ["Midiasm.C22_manufacturer_partial", "Midiasm.C22_manufacturer_fails", "Midiasm.C22_long_sequencer_specific_fails"], "note": "True for every ID except 7F, which is always changed to 7E; sequencer specific events of 128 bytes and more are not readable again."},
{"property": "C23", "status": "partial", "theorems": ["Midiasm.C23_sysex_roundtrip_partial", "Midiasm.C23_continuation_fails"], "note": "The termination of the last continuation packet is lost by decoding; everything else is preserved."},
{"property": "C24", "status": "partial", "theorems": ["Midiasm.C24_roundtrip_partial", "Midiasm.C24_roundtrip_fails"], "note": "Holds for every file of faithful events (C68) with note numbers below 128 and delta times below 2^28; fails for the other events, e.g. a centred pitch bend."},
{"property": "C25", "status": "proved", "theorems": ["Midiasm.C25_chunk_lengths_exact"], "note": ""},
{"property": "C26", "status": "proved", "theorems": ["Midiasm.C26_encode_errors"], "note": "Also shows that the encoder never panics and that it hangs exactly for time signature denominators above 128."},
{"property": "C27", "status": "proved", "theorems": ["Midiasm.C27_running_status_compression"], "note": ""},
{"property": "C28", "status": "partial", "theorems": ["Midiasm.C28_decode_encode_partial", "Midiasm.C28_decode_encode_fails", "Midiasm.C28_denominator_fails"], "note": "Holds for all decodable files below 2^28 bytes whose events are rewritable (no continuation packets, pitch bends below 128, short texts, denominators up to 128, notes below 128, deltas below 2^28); fails for concrete files of the other kinds."},
{"property": "C29", "status": "proved", "theorems": ["Midiasm.C29_notes_shifted", "Midiasm.C29_overflow"], "note": "For every decoded file; the 64-bit sum is modelled with its wrap-around, C29_overflow shows what happens beyond the range."},
{"property": "C30", "status": "proved", "theorems": ["Midiasm.C30_nothing_else_changes"], "note": ""},
{"property": "C31", "status": "proved", "theorems": ["Midiasm.C31_transposition_composes", "Midiasm.C31_transposing_back"], "note": "The second transposition is of any file value with the events of the first result (such as the written file read back)."},
{"property": "C32", "status": "proved", "theorems": ["Midiasm.C32_note_matching_preserved"], "note": ""},
{"property": "C33", "status": "proved", "theorems": ["Midiasm.C33_key_signature_transposed"], "note": ""},
{"property": "C34", "status": "partial", "theorems": ["Midiasm.C34_transpose_zero_partial", "Midiasm.C34_transpose_zero_fails", "Midiasm.C34_octaves"], "note": "False for key signatures with 6 or 7 flats or 7 sharps (respelled) and notes above 127; the partial theorem is an if-and-only-if."},
{"property": "C35", "status": "proved", "theorems": ["Midiasm.C35_scales"], "note": ""},
{"property": "C36", "status": "proved", "theorems": ["Midiasm.C36_end_of_track"], "note": ""},
{"property": "C37", "status": "proved", "theorems": ["Midiasm.C37_format_rules"], "note": "The exact list of findings of the format checks, in order and with multiplicity."},
{"property": "C38", "status": "partial", "theorems": ["Midiasm.C38_bank_select_partial", "Midiasm.C38_bank_select_fails"], "note": "If and only if, except for an MSB that is the last event of its track, which is never reported."},
{"property": "C39", "status": "partial", "theorems": ["Midiasm.C39_validate_never_panics_partial", "Midiasm.C39_validate_never_panics_fails"], "note": "Panics exactly for format 1 files without tracks."},
{"property": "C40", "status": "partial", "theorems": ["Midiasm.C40_program_bank_partial", "Midiasm.C40_program_bank_fails", "Midiasm.C40_program_bank_exact"], "note": "Only six bits of each Bank Select value are kept; exact law for all values."},
{"property": "C41", "status": "proved", "theorems": ["Midiasm.C41_note_names"], "note": "Names compared with pitch classes in Spec/Transpose; the name of a note off is C43."},
{"property": "C42", "status": "partial", "theorems": ["Midiasm.C42_middle_c_fails", "Midiasm.C41_note_names"], "note": "False: the conventions are the other way round, for both settings; C41 gives the exact octave numbers."},
{"property": "C43", "status": "proved", "theorems": ["Midiasm.C43_note_off_names"], "note": ""},
{"property": "C44", "status": "partial", "theorems": ["Midiasm.C44_note_text_partial", "Midiasm.C44_note_text_fails"], "note": "The default convention reads back. Names shown with the other middle C convention are read one octave too low (C44_note_text_fails)."},
{"property": "C45", "status": "proved", "theorems": ["Midiasm.C45_sysex_sequencing", "Midiasm.C45_second_message_rejected"], "note": ""},
{"property": "C46", "status": "partial", "theorems": ["Midiasm.C46_fixups_partial", "Midiasm.C46_fixups_fails"], "note": "Holds for non-empty tracks not ending in a SysEx packet; false otherwise: empty tracks panic, a SysEx message in last position stays unterminated."},
{"property": "C47", "status": "partial", "theorems": ["Midiasm.C47_notes_partial", "Midiasm.C47_notes_do_not_overlap", "Midiasm.C47_notes_fails"], "note": "Holds for tracks shorter than 2^32 ticks; fails for longer ones (wrapped ticks reorder the events, counterexample)."},
{"property": "C48", "status": "partial", "theorems": ["Midiasm.C48_times_partial", "Midiasm.C48_times_fails"], "note": "Holds (to the millisecond and one rounding per event) when the tempo is set at tick 0 and never changes inside a delta time; false otherwise: default tempo is ten times too fast, and mid-delta changes apply to the whole delta."},
{"property": "C49", "status": "partial", "theorems": ["Midiasm.C47_notes_partial", "Midiasm.C49_every_track_fails"], "note": "False: the first track is never reported; panics for no tracks and for SMPTE divisions. All tracks after the first are covered."},
{"property": "C50", "status": "partial", "theorems": ["Midiasm.C50_click_fails"], "note": "False: a file with tempo, time signature and beats has an empty click track; exact law in C77."},
{"property": "C51", "status": "proved", "theorems": ["Midiasm.C51_tsv"], "note": "Dimensions and every cell, with the cell contents specified per event kind."},
{"property": "C52", "status": "proved", "theorems": ["Midiasm.C52_hex"], "note": "Formatting, parsing, rejection and irrelevance of blanks for all strings."},
{"property": "C53", "status": "partial", "theorems": ["Midiasm.C53_columns_partial", "Midiasm.C53_columns_fails"], "note": "Holds for all valid UTF-8 strings; false for other strings, which truncation rewrites even if short."},
{"property": "C54", "status": "proved", "theorems": ["Midiasm.C54_pipeline", "Midiasm.chunkify_spec", "Midiasm.chunked_unique", "Midiasm.contains_iff"], "note": "Transition system for the two goroutines and the reader with unbuffered channels; bounded number of steps, deadlock freedom and a unique result. Lines are those bufio.Scanner delivers (scanLines)."},
{"property": "C55", "status": "partial", "theorems": ["Midiasm.C55_feeder_partial", "Midiasm.C55_feeder_fails"], "note": "The property is false: C55_feeder_fails shows the goroutine blocked forever in every schedule whenever two or more lines follow the failing one. The exact law is C78."},
{"property": "C56", "status": "partial", "theorems": ["Midiasm.C80_line_reads_back", "Midiasm.C56_low_notes_fails", "Midiasm.C56_empty_track_fails", "Midiasm.C83_disassembly_assembles", "Midiasm.C111_exactly_readable"], "note": "False as stated: the line of a note below octave 0 is always rejected (C56_low_notes_fails) and the text of a file whose first track is empty makes the assembler panic (C56_empty_track_fails). Proved for the readable events (C80) and whole files of them (C83); C111 shows that the condition is exact: no other event reads back."},
{"property": "C57", "status": "partial", "theorems": ["Midiasm.C57_kind_partial", "Midiasm.C57_kind_fails", "Midiasm.C81_kind_exact"], "note": "False as stated: a text kind other than Text whose text contains 'Text' is never read as its kind (C57_kind_fails). Proved for texts without an event name that takes precedence; the exact law is C81."},
{"property": "C58", "status": "partial", "theorems": ["Midiasm.C58_json_roundtrip_partial", "Midiasm.C58_smpte_fails", "Midiasm.C58_text_fails", "Midiasm.C58_empty_track_fails", "Midiasm.C58_sysex_fails"], "note": "False as stated: SMPTE divisions come back as zero, texts that are not UTF-8 are changed, a track without events makes the assembler panic, an unterminated SysEx message followed by anything but a continuation comes back terminated. Proved for decodable metrical files without these."},
{"property": "C59", "status": "partial", "theorems": ["Midiasm.C59_text_terminates_partial", "Midiasm.C59_text_fails", "Midiasm.C59_json_terminates_partial", "Midiasm.C59_json_fails"], "note": "False as stated: a time signature with a denominator over 128, in a text or in JSON, is never assembled (C59_text_fails, C59_json_fails). Proved: every text and every JSON document that is never assembled contains such a denominator."},
{"property": "C60", "status": "partial", "theorems": ["Midiasm.C60_text_panics_partial", "Midiasm.C60_text_fails", "Midiasm.C60_offset_fails", "Midiasm.C60_comment_fails", "Midiasm.C60_json_panics_partial", "Midiasm.C60_json_fails", "Midiasm.C58_empty_track_fails"], "note": "False as stated. Proved: a text that panics contains a chunk without events, a line with an SMPTE frame rate or offset that is not accepted, or a commented header; a JSON document that panics has a track without events or an event with such an SMPTE offset, a key signature that does not exist, a note velocity or a pressure above 127. Each of these does panic (the _fails theorems)."},
{"property": "C61", "status": "partial", "theorems": ["Midiasm.C61_names_fails", "Midiasm.C61_names_partial"], "note": "False as stated: for every ID and every name other than the built-in one, loading the configuration succeeds and the name is never shown (C61_names_fails). Holds only for built-in names (C61_names_partial). The exact effect of a configuration is C86."},
{"property": "C62", "status": "partial", "theorems": ["Midiasm.C62_api_agrees_partial", "Midiasm.C62_api_fails"], "note": "Agrees for every complete event written with its status byte except escape messages, pitch bends beyond 14 bits and one-byte sequencer specific events; reads beyond the bytes supplied (or panics) for cut-off variable length events."},
{"property": "C63", "status": "proved", "theorems": ["Midiasm.C63_decoded_header_roundtrip"], "note": ""},
{"property": "C64", "status": "proved", "theorems": ["Midiasm.C64_truncated_file_rejected"], "note": ""},
{"property": "C65", "status": "partial", "theorems": ["Midiasm.C65_pitch_bend_byte_order_partial", "Midiasm.C65_pitch_bend_byte_order_fails"], "note": "False: the first byte is taken as the most significant one; the values agree exactly when both data bytes are equal."},
{"property": "C66", "status": "proved", "theorems": ["Midiasm.C66_dialect_track_decodes"], "note": ""},
{"property": "C67", "status": "proved", "theorems": ["Midiasm.C67_ticks_exact"], "note": ""},
{"property": "C68", "status": "proved", "theorems": ["Midiasm.C68_survives_iff"], "note": ""},
{"property": "C69", "status": "partial", "theorems": ["Midiasm.C69_transposed_file_partial", "Midiasm.C69_transposed_file_fails"], "note": "Holds for decodable files below 2^28 bytes with rewritable events (see C28); fails for events damaged by writing."},
{"property": "C70", "status": "partial", "theorems": ["Midiasm.C70_transpose_twice_partial", "Midiasm.C70_transpose_twice_fails"], "note": "False for every file with a note or key signature (panics); true for all others."},
{"property": "C71", "status": "proved", "theorems": ["Midiasm.C71_notes_exact", "Midiasm.C47_notes_do_not_overlap"], "note": ""},
{"property": "C72", "status": "proved", "theorems": ["Midiasm.C72_api_exact"], "note": ""},
{"property": "C73", "status": "proved", "theorems": ["Midiasm.C73_fixups_exact"], "note": "Exact law for all tracks."},
{"property": "C74", "status": "proved", "theorems": ["Midiasm.C74_valign"], "note": "All byte sequences and widths."},
{"property": "C75", "status": "proved", "theorems": ["Midiasm.C75_tabular"], "note": "Any cells, including invalid UTF-8. Widths above 10000009, which fmt rejects, are not modelled."},
{"property": "C76", "status": "proved", "theorems": ["Midiasm.C76_delimited"], "note": "encoding/csv quoting is modelled (library code)."},
{"property": "C77", "status": "proved", "theorems": ["Midiasm.C77_click_silent"], "note": "The dynamic type of decoded events (values) is part of the model."},
{"property": "C78", "status": "proved", "theorems": ["Midiasm.C78_feeder_exact"], "note": ""},
{"property": "C79", "status": "proved", "theorems": ["Midiasm.C79_note_text_exact"], "note": ""},
{"property": "C80", "status": "proved", "theorems": ["Midiasm.C80_line_reads_back"], "note": "Terminators of SysEx packets are not part of the line; they are set afterwards (C73)."},
{"property": "C81", "status": "proved", "theorems": ["Midiasm.C81_kind_exact"], "note": ""},
{"property": "C82", "status": "proved", "theorems": ["Midiasm.C82_text_roundtrip"], "note": "Readable and Contained spell out the conditions on events; C80 is the law for one line."},
{"property": "C83", "status": "proved", "theorems": ["Midiasm.C83_disassembly_assembles"], "note": "An example file with a text, tempo, key signature, notes, controller, SysEx message and program change meets the hypotheses."},
{"property": "C84", "status": "proved", "theorems": ["Midiasm.C84_decoded_prints"], "note": ""},
{"property": "C85", "status": "proved", "theorems": ["Midiasm.C85_json_exact"], "note": ""},
{"property": "C86", "status": "proved", "theorems": ["Midiasm.C86_configuration_exact", "Midiasm.C86_configuration_loads"], "note": ""},
{"property": "C87", "status": "proved", "theorems": ["Midiasm.C87_notes_listing"], "note": ""},
{"property": "C88", "status": "proved", "theorems": ["Midiasm.C88_export_is_json", "Midiasm.C88_unambiguous"], "note": ""},
{"property": "C89", "status": "proved", "theorems": ["Midiasm.C89_assembles_document", "Midiasm.C89_assembles_export"], "note": ""},
{"property": "C90", "status": "proved", "theorems": ["Midiasm.C90_malformed_rejected"], "note": "The grammar is RFC 8259, except that strings may contain bytes that are not UTF-8 and halves of surrogate pairs, which encoding/json replaces."},
{"property": "C91", "status": "partial", "theorems": ["Midiasm.C91_trailing_fails"], "note": "False: whatever follows a document that can be assembled, the result is the same."},
{"property": "C92", "status": "proved", "theorems": ["Midiasm.C92_one_command", "Midiasm.C92_options", "Midiasm.C92_rejected", "Midiasm.C92_unambiguous"], "note": "Flag parsing is the Go package flag, modelled from its documentation and source."},
{"property": "C93", "status": "partial", "theorems": ["Midiasm.C93_trailing_partial", "Midiasm.C93_out_after_fails"], "note": "False: everything after the first operand is ignored without a message, so --out after the file name writes no file. Proved instead: whatever follows the operand makes no difference."},
{"property": "C94", "status": "partial", "theorems": ["Midiasm.C94_decimal_partial", "Midiasm.C94_octal_fails"], "note": "True without a leading zero and within 64 bits; with a leading zero the digits are octal, and 8 or 9 is refused."},
{"property": "C95", "status": "proved", "theorems": ["Midiasm.C95_only_output", "Midiasm.C95_others_unchanged"], "note": ""},
{"property": "C96", "status": "proved", "theorems": ["Midiasm.C96_disassemble_assemble", "Midiasm.C96_same_music"], "note": "For the files of C83 (metrical time, a last event that is no open SysEx message, plain events, lines shorter than 65536 bytes), without --C4, --split and --templates, for a text file not ending in .json; C96_same_music adds that the encoded file has the same header and events."},
{"property": "C97", "status": "proved", "theorems": ["Midiasm.C97_export_assemble"], "note": ""},
{"property": "C98", "status": "partial", "theorems": ["Midiasm.C98_default_output_fails", "Midiasm.C98_unsaved_fails"], "note": "False: without --out neither command writes or prints anything, whatever the input, and transposing succeeds."},
{"property": "C99", "status": "partial", "theorems": ["Midiasm.C99_failure_partial", "Midiasm.C99_failure_fails"], "note": "True for assemble, transpose, export and an unsplit disassembly with the built in templates. False for notes and click (a file without tracks empties the output) and for tsv (a delimiter that is a quote, a line end or NUL)."},
{"property": "C100", "status": "partial", "theorems": ["Midiasm.C100_split", "Midiasm.C100_new_directory_fails"], "note": "True if the directory exists or the user is the superuser; a directory that has to be made gets no permissions (os.MkdirAll with os.ModeDir only), so that nothing is written."},
{"property": "C101", "status": "proved", "theorems": ["Midiasm.C101_same_files", "Midiasm.C101_option"], "note": "C101_option: --C4 put right after the command, for all further arguments, also those that are refused."},
{"property": "C102", "status": "partial", "theorems": ["Midiasm.C102_octave_lower", "Midiasm.C102_disassembly_fails"], "note": "False: every note comes back an octave lower (C102_octave_lower, for the files of C83 with notes from 24 up), because the assembler always reads middle C as C3; C102_disassembly_fails gives a file from the command line."},
{"property": "C103", "status": "partial", "theorems": ["Midiasm.C103_channel_length_partial", "Midiasm.C103_trailing_bytes_fails"], "note": "True for channel events (any wrong number of data bytes is refused); false for meta events and SysEx packets: bytes after the event are ignored when reading the value but kept in the recorded bytes (C103_trailing_bytes_fails, for every event and every suffix)."},
{"property": "C104", "status": "proved", "theorems": ["Midiasm.C104_json_accepted"], "note": "Header and tracks are stated over the document itself (Last, LastText, LastNumber of Spec/Json)."},
{"property": "C105", "status": "proved", "theorems": ["Midiasm.C105_long_lines", "Midiasm.C105_long_text"], "note": "bufio.Scanner is modelled with its limit of 64 kB per token."},
{"property": "C106", "status": "partial", "theorems": ["Midiasm.C106_same_text_partial", "Midiasm.C106_tsv_fails", "Midiasm.C106_click_fails"], "note": "True for disassembling without --split, notes and export. False for tsv (a padded table is printed, delimited values with an extra header line are written) and click (three line ends are printed in either case, the file is empty)."},
{"property": "C107", "status": "partial", "theorems": ["Midiasm.C107_delimiter_partial", "Midiasm.C107_delimiter_fails"], "note": "With --out the first character of the delimiter is used (ASCII, not a quote, line end or NUL); without --out the option makes no difference whatever it is."},
{"property": "C108", "status": "proved", "theorems": ["Midiasm.C108_bad_input"], "note": "Malformed: refused by the decoder with an error; for assemble: not assembled (then nothing is written, and the end is not success)."},
{"property": "C109", "status": "partial", "theorems": ["Midiasm.C109_humanise_fails"], "note": "False: the command never succeeds, writes nothing and prints nothing."},
{"property": "C110", "status": "proved", "theorems": ["Midiasm.C110_crashes", "Midiasm.transposeExecute_total", "Midiasm.extractNotes_total"], "note": "transposeExecute_total and extractNotes_total are the underlying totality laws for decoded files."},
{"property": "C111", "status": "proved", "theorems": ["Midiasm.C111_exactly_readable", "Midiasm.builtin_tellable"], "note": "builtin_tellable: the built-in manufacturers meet the hypothesis."},
{"property": "C112", "status": "proved", "theorems": ["Midiasm.C112_line_says", "Midiasm.C112_sayable_has_line", "Midiasm.C112_exact"], "note": "C112_exact is the equivalence."},
{"property": "C113", "status": "proved", "theorems": ["Midiasm.C113_reprint"], "note": "An example line with a comment in front, other words behind and different spacing meets the hypotheses."},
{"property": "C114", "status": "proved", "theorems": ["Midiasm.C114_never_misread"], "note": "With the built-in manufacturers in any order and the default note naming."},
{"property": "C115", "status": "proved", "theorems": ["Midiasm.C115_reassembly", "Midiasm.C115_never_another"], "note": "Examples: a note that is too low, SMPTE time, an empty track; C83 has the example that assembles."},
{"property": "C116", "status": "proved", "theorems": ["Midiasm.C116_notes", "Midiasm.C116_transpose", "Midiasm.C116_export", "Midiasm.C116_disassemble", "Midiasm.C116_no_templates", "Midiasm.C116_templates", "Midiasm.C116_table", "Midiasm.C116_delimited", "Midiasm.C116_version", "Midiasm.C116_help", "Midiasm.C116_assemble"], "note": "The contents (exportText, printSMF, printNotes, ...) are specified by other properties. User templates are abstract."},
{"property": "C117", "status": "proved", "theorems": ["Midiasm.C117_wide_delimiter"], "note": "Complements C76 (ASCII delimiters)."},
{"property": "C118", "status": "proved", "theorems": ["Midiasm.C118_layout", "Midiasm.C118_characters"], "note": "The layout is checked by a scanner over bytes that knows only quotes, backslashes, brackets, braces, commas, colons and blanks."},
{"property": "C119", "status": "proved", "theorems": ["Midiasm.C119_clean", "Midiasm.C119_join", "Midiasm.C119_directory", "Midiasm.C119_split"], "note": "Hypotheses on permissions as in C100."},
{"property": "C120", "status": "partial", "theorems": ["Midiasm.C120_exact_fails", "Midiasm.C120_exact_partial"], "note": "False of the code: a note that starts 1.118 s after the beginning is listed with 1.1179999999999999, because time.Duration.Seconds adds two rounded numbers. It holds for all times below one second and from 32 seconds on; C121 bounds the difference in between."},
{"property": "C121", "status": "proved", "theorems": ["Midiasm.C121_notes_document", "Midiasm.C121_extracted"], "note": "strconv.FormatFloat and encoding/json are modelled by their documented result (fewest digits that identify the number, the nearest of those)."},
{"property": "C122", "status": "proved", "theorems": ["Midiasm.C122_delivery", "Midiasm.C122_pieces"], "note": "io.ReadFull of the Go standard library is modelled as its documented loop. Readers that deliver nothing for ever without an error are excluded (the decoder would read for ever)."},
{"property": "C123", "status": "proved", "theorems": ["Midiasm.C123_read_failure", "Midiasm.C123_wrapped_end", "Midiasm.C123_decoded"], "note": ""},
{"property": "C124", "status": "proved", "theorems": ["Midiasm.C124_encode_writer", "Midiasm.C124_left_behind"], "note": ""},
{"property": "C125", "status": "proved", "theorems": ["Midiasm.C125_order"], "note": ""},
{"property": "C126", "status": "partial", "theorems": ["Midiasm.C126_configured_order_partial", "Midiasm.C126_configured_order_fails"], "note": "False of the code: configured manufacturers that are not in the built-in table are all named <unknown>, so that with two of them a message of manufacturer <unknown> gets the ID of either, at random. Holds for all other names, and for all texts if the configuration has at most one unknown manufacturer."},
{"property": "C127", "status": "partial", "theorems": ["Midiasm.C127_buffers_partial", "Midiasm.C127_buffers_fails"], "note": "False: eight bytes make the decoder ask for any number of bytes below 2^32, and an accepted file of thirty bytes makes it ask for 2^32 - 1. Proved: the bound holds for accepted files of whole chunks whose events cover their tracks, and every file is bounded by that plus 2^32 - 1 bytes for the end of the file and for each track chunk."},
{"property": "C128", "status": "proved", "theorems": ["Midiasm.C128_text_meaning", "Midiasm.C128_text_accepted"], "note": "Equivalence with an inductive meaning of sections (Spec/TextFile): header lines are specified by first places in bytes, tracks by one event per line. What a single event line means is readEvent, characterised by other properties."},
{"property": "C129", "status": "partial", "theorems": ["Midiasm.C129_lost_lines_partial", "Midiasm.C129_lost_lines_fails"], "note": "False: event lines before the first header, between a header and the first track and after a commented line that mentions MTrk disappear without an error. Proved: the tracks of the file are the uncommented track sections in order, each with one event for each line that is neither blank nor a comment, in order."},
{"property": "C130", "status": "partial", "theorems": ["Midiasm.C130_text_delivery_partial", "Midiasm.C130_text_together", "Midiasm.C130_pieces", "Midiasm.C130_text_delivery_fails"], "note": "False for one kind of text: a last line of exactly 65536 bytes without a newline is refused when the end of file is reported after it (files, buffers) and accepted when it is reported along with the last bytes. Proved: this is the only exception; for both kinds of readers the result is given exactly."},
{"property": "C131", "status": "proved", "theorems": ["Midiasm.C131_text_read_failure"], "note": "The same invariant as C130. Compare C123: the decoder of MIDI files takes an error that wraps io.EOF for the end of the file."},
{"property": "C132", "status": "proved", "theorems": ["Midiasm.C132_line_means"], "note": "Equivalence with a grammar of lines (Spec/LineGrammar) that does not mention regular expressions or the functions of the model; for every kind of event. C81 and C112 are consequences."},
{"property": "C133", "status": "partial", "theorems": ["Midiasm.C133_key_named_partial", "Midiasm.C133_key_named_fails"], "note": "False for exactly the twelve names of keys with more than seven accidentals (G♯ major, ...): such a line becomes C major without an error. Proved for all other lines."},
{"property": "C134", "status": "partial", "theorems": ["Midiasm.C134_nothing_else_partial", "Midiasm.C134_nothing_else_fails"], "note": "False: after an end of track anything can follow that is not an event name, and a velocity of 64.5 is read as 64. Proved for texts and data of SysEx and sequencer specific events, which extend to the end of the line. What counts is given exactly by C132."},
{"property": "C135", "status": "proved", "theorems": ["Midiasm.C135_assembled_file"], "note": "An equivalence; the right side (Spec/Assembled, Spec/LineGrammar, Spec/TextFile) refers to none of the functions of the model."},
{"property": "C136", "status": "proved", "theorems": ["Midiasm.C136_encoded_file", "Midiasm.C136_decoded_encoded"], "note": "Same relations for bytes as C135."},
{"property": "C137", "status": "proved", "theorems": ["Midiasm.C137_json_file"], "note": "An equivalence; the right side (Spec/JsonFile, Spec/Assembled) refers to none of the functions of the model except the table of manufacturers and the encoding of characters."},
{"property": "C138", "status": "proved", "theorems": ["Midiasm.C138_json_text", "Midiasm.C138_unambiguous"], "note": "An equivalence that joins the grammar of RFC 8259 (with the replacements of encoding/json) to C137. encoding/json itself is modelled from its documentation and source, not from /repo."},
{"property": "C139", "status": "proved", "theorems": ["Midiasm.C139_typed_api"], "note": "The numbers by which types are told apart are those of the Standard MIDI File specification (Spec/ApiTypes)."},
{"property": "C140", "status": "proved", "theorems": ["Midiasm.C140_json_delivery"], "note": "The decoder of the Go library stops at the first byte that no JSON text continues with; the model notices this at the end of the text. The result is the same, less is read."},
{"property": "C141", "status": "partial", "theorems": ["Midiasm.C141_json_failure_partial", "Midiasm.C141_nothing_lost", "Midiasm.C141_json_failure_fails"], "note": "False: a failure after a complete object or array, or along with its last bytes, goes unnoticed. Proved exactly: it is reported if and only if no object or array was complete; an assembled file is always the file of a document that was delivered completely, so nothing is lost."},
{"property": "C142", "status": "partial", "theorems": ["Midiasm.C142_stalled_partial", "Midiasm.C142_stalled_fails", "Midiasm.C142_decoding_never_ends"], "note": "False: decoding a file does not end as long as no read fails, whatever is delivered, and assembling JSON does not end unless a complete object or array was delivered. Proved: assembling a text always fails with an error; a complete JSON document is assembled."},
{"property": "C143", "status": "proved", "theorems": ["Midiasm.C143_decoding", "Midiasm.C143_unambiguous", "Midiasm.C143_total", "Midiasm.C143_panics"], "note": "Spec/Decoded gives the meaning of the bytes without reference to the decoder; the tables of controllers and manufacturers are shared with the model."},
{"property": "C144", "status": "proved", "theorems": ["Midiasm.C144_export_text", "Midiasm.C144_export_command", "Midiasm.C144_quoted_unique"], "note": "Spec/Export lists the lines from the entries of C143 without reference to JSON values. Bytes are quoted in exactly one way."},
{"property": "C145", "status": "proved", "theorems": ["Midiasm.C145_disassembly_text", "Midiasm.C145_disassemble_command", "Midiasm.C145_split_command"], "note": "Spec/Disassembly lists the lines from the entries of C143. User templates are not modelled."},
{"property": "C146", "status": "proved", "theorems": ["Midiasm.C146_rewritten", "Midiasm.C146_transposed", "Midiasm.C146_transpose_command"], "note": "Spec/Written gives the bytes as a function of the fields; the input is characterised by C143."},
{"property": "C147", "status": "proved", "theorems": ["Midiasm.C147_rows", "Midiasm.C147_aligned", "Midiasm.C147_delimited"], "note": "Spec/Table gives cells, rows and both layouts. encoding/csv and fmt are modelled from the Go standard library."},
{"property": "C148", "status": "proved", "theorems": ["Midiasm.C148_notes", "Midiasm.C148_notes_command"], "note": "Spec/NotesListing gives times, notes and lines as functions of what the bytes stand for (C143). time.Duration formatting is modelled from the Go standard library."},
{"property": "C149", "status": "proved", "theorems": ["Midiasm.C149_warnings", "Midiasm.C149_unread"], "note": "Spec/Report gives the lines as a function of the entries of C143. A bank select MSB in the last event of a track is not reported."},
{"property": "C150", "status": "proved", "theorems": ["Midiasm.C150_reread", "Midiasm.C150_rewritten", "Midiasm.C150_fixed", "Midiasm.C150_twice", "Midiasm.C150_two_runs", "Midiasm.C150_text", "Midiasm.C150_json", "Midiasm.writtenFile_le"], "note": "Follows from C143, C146 and C28/C69, with a bound on the length of the written file instead of their hypothesis that it is shorter than 2^32 bytes."},
{"property": "C151", "status": "proved", "theorems": ["Midiasm.C151_text", "Midiasm.C151_json", "Midiasm.C151_text_final", "Midiasm.C151_json_final"], "note": "What the text states is given by the grammar of C135 (Stands) or of C138 (DocumentSays), what the file stands for by C143; Spec/Recoverable lists the conditions, which are those of C68 less what the grammars already ensure."},
{"property": "C152", "status": "partial", "theorems": ["Midiasm.C152_documented_partial", "Midiasm.C152_documented_fails"], "note": "False for export: README.md lists --json and --transpose for export, which its flag set does not define, so that the command ends with the usage message. Proved for all other documented options of all commands."},
{"property": "C153", "status": "proved", "theorems": ["Midiasm.C153_disassembly_tells", "Midiasm.C153_same_file", "Midiasm.C153_command", "Midiasm.C153_long_quantities"], "note": "C153_long_quantities shows that the condition is needed: with a delta time of fourteen bytes the first column, which is cut off, hides the manufacturer. Texts may hold line ends and imitate other lines: the length in the first column tells where they end."},
{"property": "C154", "status": "proved", "theorems": ["Midiasm.C154_export_tells", "Midiasm.C154_same_file", "Midiasm.C154_command", "Midiasm.C154_lost_bytes"], "note": "C154_lost_bytes shows that the exception is needed: a byte that is not UTF-8 is exported as the replacement character. The content of a polyphonic pressure event is as it is decoded, without the note (C17)."},
{"property": "C155", "status": "partial", "theorems": ["Midiasm.C155_lists_commands", "Midiasm.C155_options_partial", "Midiasm.C155_options_fails", "Midiasm.C155_no_help"], "note": "False for two commands: the help of disassemble does not name --templates and the help of notes names neither --transpose nor --json (C155_options_fails). All options named are accepted, all others are named (C155_options_partial). The commands help and version have no help text (C155_no_help)."},
{"property": "C156", "status": "partial", "theorems": ["Midiasm.C156_examples_partial", "Midiasm.C156_examples_fails"], "note": "False for humanise: the file in its example is the value of --out, there is no input file and the example fails in every environment."},
{"property": "C157", "status": "proved", "theorems": ["Midiasm.C157_success", "Midiasm.C157_assemble"], "note": "With templates of the user (--templates) the text depends on an unmodelled file; the hypothesis excludes that option."},
{"property": "C158", "status": "proved", "theorems": ["Midiasm.C158_crashes"], "note": ""},
{"property": "C159", "status": "proved", "theorems": ["Midiasm.C159_text_crashes", "Midiasm.C159_text_hangs", "Midiasm.C159_json_crashes", "Midiasm.C159_json_hangs"], "note": ""},
{"property": "C160", "status": "proved", "theorems": ["Midiasm.C160_assemble", "Midiasm.C160_ends"], "note": ""},
{"property": "C161", "status": "partial", "theorems": ["Midiasm.C161_repeatable_fails", "Midiasm.C161_repeatable_partial"], "note": "False of notes: the notes of a channel that end with the track are listed in the order of iteration over a map (a file and two orders with different listings are given). Proved for every other command."},
{"property": "C162", "status": "proved", "theorems": ["Midiasm.C162_notes"], "note": "For tracks whose times fit into 64 bits whatever the tempo (as C148)."},
{"property": "C163", "status": "partial", "theorems": ["Midiasm.C163_listing_fails", "Midiasm.C163_listing_partial", "Midiasm.C163_same_text_partial"], "note": "False with key signatures, which the file has moved and the listing has not, so that notes are spelled differently (C♯ and D♭), and of notes beyond 127, which are limited in a file only. Proved for notes that stay within 0 to 127: the same notes with the same channels, numbers, velocities, ticks and times, but for names and the order of notes of one channel that end together; without key signatures the same names, and without such notes the same text. For files whose events survive being written (as C69) and times that fit into 64 bits (as C148)."},
{"property": "C164", "status": "proved", "theorems": ["Midiasm.C164_content"], "note": "Paths are taken as names: two paths of one file are two names with the same content."},
{"property": "C165", "status": "proved", "theorems": ["Midiasm.C165_combined", "Midiasm.C165_same_chunk", "Midiasm.C165_disassembly"], "note": ""},
{"property": "C166", "status": "proved", "theorems": ["Midiasm.C166_decoding", "Midiasm.C166_cut", "Midiasm.C166_causal"], "note": ""},
{"property": "C167", "status": "proved", "theorems": ["Midiasm.C167_text_again", "Midiasm.C167_three_runs"], "note": "A file under 4 GB is a hypothesis; the three runs also need at least one track and no --C4 in the second."},
{"property": "C168", "status": "proved", "theorems": ["Midiasm.C168_json_again", "Midiasm.C168_three_runs"], "note": "Fewer than 65536 tracks and a file under 4 GB are hypotheses; the three runs also need at least one track."},
{"property": "C169", "status": "proved", "theorems": ["Midiasm.C169_formats_agree", "Midiasm.C169_text_to_json", "Midiasm.C169_json_to_text", "Midiasm.C169_text_to_json_runs", "Midiasm.C169_json_to_text_runs"], "note": "A file under 4 GB is a hypothesis; the runs also need at least one track, and no line of 64 kB in a disassembly."},
{"property": "C170", "status": "proved", "theorems": ["Midiasm.C170_put_together", "Midiasm.C170_split_together"], "note": ""},
{"property": "C171", "status": "proved", "theorems": ["Midiasm.C171_same_file", "Midiasm.C171_line_inserted", "Midiasm.C171_line_ends", "Midiasm.C171_last_newline", "Midiasm.C171_two_runs", "Midiasm.C171_comment_with_tag"], "note": ""},
{"property": "C172", "status": "proved", "theorems": ["Midiasm.C172_same_file", "Midiasm.C172_same_file_text", "Midiasm.C172_any_order", "Midiasm.C172_two_runs", "Midiasm.C172_same_name"], "note": ""},
{"property": "C173", "status": "proved", "theorems": ["Midiasm.C173_one_track", "Midiasm.C173_lines_replaced", "Midiasm.C173_two_runs"], "note": ""},
{"property": "C174", "status": "proved", "theorems": ["Midiasm.C174_track_by_track", "Midiasm.C174_put_together", "Midiasm.C174_export"], "note": ""},
{"property": "C175", "status": "proved", "theorems": ["Midiasm.C175_texts", "Midiasm.C175_text_to_json", "Midiasm.C175_text_to_json_runs"], "note": ""},
{"property": "C176", "status": "proved", "theorems": ["Midiasm.C176_no_warnings", "Midiasm.C176_text", "Midiasm.C176_json", "Midiasm.C176_transposed"], "note": ""},
{"property": "C177", "status": "proved", "theorems": ["Midiasm.C177_nothing_lost", "Midiasm.C177_same_file"], "note": ""},
{"property": "C178", "status": "proved", "theorems": ["Midiasm.C178_ticks", "Midiasm.C178_assembled", "Midiasm.C178_replaced"], "note": ""},
{"property": "C179", "status": "proved", "theorems": ["Midiasm.C179_transposed", "Midiasm.C179_command"], "note": ""},
{"property": "C180", "status": "proved", "theorems": ["Midiasm.C180_same_results", "Midiasm.C180_same_warnings", "Midiasm.C180_same_export", "Midiasm.C180_same_transposition", "Midiasm.C180_same_notes"], "note": ""},
{"property": "C181", "status": "proved", "theorems": ["Midiasm.C181_track_by_track"], "note": ""},
{"property": "C182", "status": "proved", "theorems": ["Midiasm.C182_text", "Midiasm.C182_command"], "note": ""},
{"property": "C183", "status": "proved", "theorems": ["Midiasm.C183_in_order"], "note": ""}
]}
