# Formal model of midiasm: design

Source: transcriptaze/midiasm as found in /repo (Go). Prover: Lean 4.33, core library (single Mathlib modules only where named).

## Trusted base

* Lean's kernel. Theorems may depend on `propext`, `Classical.choice` and `Quot.sound` only; no axioms are added, there is no
  `sorry`, `admit`, `native_decide` or `bv_decide`.
* The reading of the Go code: the model is written by hand from the text of /repo, every definition cites file and lines.
* Behaviour of the Go runtime and standard library that the model takes as given: fixed width integer arithmetic wraps,
  `encoding/binary` big-endian reads and writes, `bufio.Reader`/`bytes.Buffer` deliver bytes in order, `io.ReadFull`'s three results,
  `sort.SliceStable` is stable, `regexp` is leftmost-first, `encoding/json` maps structs to objects and back (its texts are modelled in `Model/JsonText`, its mapping to Go variables in
  `Model/Json`), map iteration order is arbitrary,
  floating point operations round to the nearest `float64`, ties to even, `strconv.FormatFloat` with precision -1 gives the fewest digits that identify the number,
  indexing or slicing out of range and nil dereference panic.

## General modelling decisions

* A Go function that can fail returns `Outcome α`: `ok`, `err` (with `io.EOF`, `io.ErrUnexpectedEOF` and other errors kept apart), `panic`,
  and `diverge` for a loop that does not terminate. Error message text is not modelled.
* Bytes are `UInt8`, sized integers are `UInt16/32/64`, byte slices are `List UInt8`. Where the capacity of a slice matters (slicing past the
  length) the spare capacity is an explicit argument.
* Go strings are byte lists where their bytes matter.
* Events are one inductive type; the Go `tag`, `Status` and `Type` fields are functions of the constructor because every constructor in
  /repo sets them so.
* The command line program is modelled in `Model/Flags`, `Model/Paths`, `Model/Help` and `Model/Commands`. A run is a function of the arguments and a `World`: which
  files can be read, with which content, which can be created, and the parts that are left abstract there (templates loaded from
  a file). A run yields the files written, what the command prints on standard output (without the message
  `*** ERROR: ...`, which `main` prints there too if the command fails, cmd/midiasm/main.go:82-88) and the way it ends; of standard error only the validation warnings are modelled
  (`Model/Report`). Two paths naming one file, writes that fail half way and other messages on
  standard error are not modelled; nor are logging, the configuration file and symbolic links.

## Layout

`Verif/Model/*` the code, `Verif/Spec/*` independent specifications, `Verif/Lemmas/*` helper lemmas, `Verif/Props/*` the property theorems with
their non-vacuity examples.

## Properties

* **C01 Delta time survives encode/decode.** `Lib.Delta`: `encodeDelta : UInt32 → List UInt8` (the 4-iteration loop unrolled as recursion over the buffer) and `decodeDelta` over a byte list. Round trip proved for values < 2^28 against base-128 digits; negation for every value ≥ 2^28 (the first byte lacks the continuation bit).
* **C02 Variable length quantities are canonical.** Spec: an independent `IsVLQ bytes n` predicate (continuation bits, no leading 0x80, base-128 value). Prove the encoder output satisfies it, and that it is the only shortest one.
* **C03 Variable length decoding is self delimiting.** Spec: split of the input at the first byte < 0x80, value as a fold in `Nat` mod 2^32. Prove all decoder copies (reader and slice versions) meet it.
* **C04 Length-prefixed payloads survive encode/decode.** `vlf` encoder / decoder; corollary of C01/C03 plus list reasoning.
* **C05 Header acceptance is exactly the documented set.** `MThd.unmarshal : List UInt8 → Outcome MThd`. Iff theorem against an independent `ValidHeader` predicate on bytes.
* **C06 Header survives encode/decode.** Round trip of `MThd.marshal` / `unmarshal` for each accepted header; SubFrames discrepancy with `MakeMThd` recorded.
* **C07 Chunk framing.** `chunker.next`, `Decode` over a byte list. Theorem on `file (chunks)` for any list of chunks; insertion of an unknown chunk has no effect; count mismatch is an error.
* **C08 Decoding never panics.** `Outcome` has an explicit `panic` result. False of the code: negation with witnesses (malformed meta and MIDI events). Partial: header and chunk layers never panic, grammatical tracks never panic, exact causes.
* **C09 Decoded events account for every byte of the track.** `parse` returns the consumed bytes; induction on the track loop.
* **C10 Event ticks are running sums of delta times.** Induction on the track loop with the uint32 accumulator; full statement holds when the sum is < 2^32, negation beyond.
* **C11 Running status is transparent.** Grammar relation in Spec with an optional status byte; two byte strings of the same event list decode to the same events.
* **C12 Meta and system exclusive events cancel running status.** Induction-free consequence of `parse` state: after meta/sysex `RunningStatus = 0`; for every history.
* **C13 Any standard track body decodes to exactly its events.** Spec.Grammar: independent inductive relation between bytes and events. Completeness theorem by induction over the derivation.
* **C14 A truncated track is reported.** False of the code (EOF inside an event is treated as end of track). Negation plus the exact behaviour: the result is that of the longest prefix of complete events.
* **C15 Channel voice events survive encode/decode.** Per kind `marshal` = spec bytes and `parse` of spec bytes = event.
* **C16 Pitch bend survives encode/decode.** False for bend ≥ 128. Iff theorem: the round trip holds exactly for bend < 128.
* **C17 Polyphonic pressure follows the MIDI wire format.** False of the code (one data byte). Negation witness; partial for the one-byte layout the code uses.
* **C18 Text meta events survive encode/decode.** TrackName full; the other kinds for length < 128; negation for length 128.
* **C19 Fixed-size meta events survive encode/decode.** Per kind; tempo < 2^24.
* **C20 Time signatures survive encode/decode.** Round trip iff exponent < 8; negation.
* **C21 Key signatures survive encode/decode and name the right key.** Iff theorem over all (accidentals, mode) bytes against a circle-of-fifths spec.
* **C22 Manufacturer identifiers survive decoding and encoding.** Lookup over the complete table; false for 7F; exact: ID preserved iff ID ≠ [7F].
* **C23 System exclusive events survive encode/decode.** Message/escape full; continuation loses its terminator on decode → negation and partial.
* **C24 Whole file survives encode/decode.** Main theorem: `decode (encode smf) = smf` up to derived data (ticks, raw bytes, names, banks) for well formed events, via C13 and C27.
* **C25 Encoded chunk lengths are exact.** Length field theorem for `encodeMTrk`, chunk tiling for the file.
* **C26 Encoder rejects inconsistent headers.** Iff theorem on `encode`.
* **C27 Running status compression is sound.** Invariant relating the encoder's `last` chunk to the decoder's running status, inside C24's induction; separate statement: output is a grammatical representation.
* **C28 Decode then encode preserves the music.** Corollary of C13/C24 for decodable files whose events are all in the faithful classes; negations for 7F, pitch bend, long text, continuation.
* **C29 Transposition shifts every note and clamps to the MIDI range.** `transposeEvent`; arithmetic in Int.
* **C30 Transposition changes nothing but notes and key signatures.** Map theorem, per event and whole file.
* **C31 Transposition composes and inverts.** Arithmetic in Int lifted to files.
* **C32 Transposition preserves note on/off matching.** Injectivity/equality of the clamp.
* **C33 Transposed key signatures name the transposed key.** Table of scales, `transpose` for every Int step by reduction mod 12 and `decide` on the finite remainder.
* **C34 Transposing by zero is the identity.** False (C♯ major becomes D♭ major). Exact list of keys for which it fails; partial for files without them.
* **C35 Scale tables are musically consistent.** `decide` over the complete tables with an independent definition of scale.
* **C36 Validation reports end-of-track problems exactly.** Iff theorem over lists.
* **C37 Validation enforces the format rules.** Iff theorems over lists.
* **C38 Validation enforces bank select pairing.** Soundness: reported iff violated, except a final MSB; negation for the final MSB.
* **C39 Validation never panics.** False for format 1 with zero tracks; negation, and never otherwise.
* **C40 Program changes carry the selected bank.** Invariant over the event history; false for values ≥ 64 (6-bit mask), exact law with `% 64`.
* **C41 Note names are correct.** Exact law over notes and contexts; key signature history invariant.
* **C42 Middle C convention.** False (the two conventions are swapped relative to the help text); negation for both.
* **C43 A note off is displayed with the name of its note on.** Invariant on the pending-name map over histories.
* **C44 Note names parse back to the note.** True for notes 12..127 with C3 and sharps/flats; negations for notes < 12 in event text and for C4.
* **C45 SysEx packet sequencing is enforced.** Invariant over histories against an independent `open` state.
* **C46 Assembling restores SysEx terminators.** Fixups spec on adjacent pairs; panics on an empty track; last event not fixed.
* **C47 Extracted notes are exactly the note on/off pairs.** State machine over events; refinement against an index-based specification; arbitrary map iteration order as a permutation parameter.
* **C48 Extracted note times follow the tempo map.** Times over UInt64/Int; default tempo 50000: negation; mid-delta tempo change: negation; partial law.
* **C49 Note extraction covers every track.** False: first track skipped, panics for zero tracks / PPQN 0; partial for tracks ≥ 1.
* **C50 The click track reflects tempo and time signature.** False: pointer type assertions never match decoded values; theorem: output empty for every decoded file.
* **C51 TSV export places every event.** 2-D table model; cell-wise theorem.
* **C52 Hex strings survive formatting and parsing.** Byte string model of formatting/parsing; round trip and rejection.
* **C53 Column formatting.** Length theorems on rune lists.
* **C54 The text reading pipeline is schedule independent.** Goroutines and unbuffered channels as a small-step transition system; invariant + termination measure; every maximal run gives the sequential result.
* **C55 Failed assembly releases its goroutines.** False: transition system for `parseMTrk`; reachable stuck state with the sender blocked; exact condition.
* **C56 Disassembled text assembles back.** Byte string model of templates and of the regular expressions (leftmost-first matcher over an AST); per kind round trip with the exact side conditions; negations.
* **C57 A text line selects the event kind that was printed.** False: substring dispatch; negation and partial (texts free of keywords).
* **C58 JSON export assembles back.** JSON as an AST (text layer of encoding/json trusted); per kind round trip; negations (SMPTE division, non-UTF-8).
* **C59 Assembling terminates.** False: loop modelled with an explicit divergence result; iff denominators ≤ 128.
* **C60 Assembling never panics.** False; negations (empty track, velocity > 127 in JSON, ...).
* **C61 Custom manufacturers are honoured.** False: names are dropped on load; negation and exact behaviour.
* **C62 Single event binary API agrees with the track decoder.** Slice model with spare capacity; agreement on complete encodings; negation for truncated ones.
* **C63 Decoded headers survive re-encoding.** Corollary of C05: the marshalled header is the chunk.
* **C64 A file cut short is rejected.** Prefix analysis of the chunk loop plus the track count check.
* **C65 Pitch bend byte order.** False of the code; exact law.
* **C66 Dialect grammar completeness.** As C13 with the grammar parameter set to the code's dialect.
* **C67 Exact ticks.** The 32-bit accumulator in closed form.
* **C68 Exact survival law.** `Body.Faithful` predicate in Spec/Faithful; both directions by inversion of the framing.
* **C69 End-to-end transposition.** `C24_roundtrip_partial` applied to the transposed tracks; same exceptions as C28.
* **C70 Transposing a file value twice.** False: the tracks made by the first call have a nil context; the second call panics exactly when the file has a note or key signature.
* **C71 What note extraction reports, exactly.** Same proof as C47/C48, stated for exactly the domain on which it holds.
* **C72 Exact meaning of the single-event binary API.** `apiMeaning` on framed events (Spec/Api) and case analysis of every `UnmarshalBinary`.
* **C73 What assembling does to SysEx terminators, exactly.** Both loops of `fixups` as list functions; index-wise law.
* **C74 The byte column is aligned on the event status.** `valign` on byte lists; result given by the position of the first byte below 128.
* **C75 Fixed width tables are aligned.** `writeTable` on byte lists; rune counts of padded cells.
* **C76 TSV files read back.** Model of the quoting of encoding/csv against a state machine reader (Spec/Tsv).
* **C77 The click track is always empty.** Type assertions on pointers against value events.
* **C78 Exactly when the line feeder of a failed track is released.** Transition system of the feeder and the parser with an unbuffered line channel and a one-place `closed` channel; invariant relating what is left to the sequential meaning; rank function.
* **C79 Exact meaning of a note name.** Regular expression of the note and the table of pitch names; table over the 21 pitch names and 19 octaves, which is the whole domain.
* **C80 Lines that assemble back.** Model of the template output and of every line pattern (sequences of items matched with backtracking); matching lemmas per item, composed per event kind.
* **C81 The first event name in a line decides its kind.** Dispatch of Event.UnmarshalText against `FirstOf` over the list of names (Spec/ReadBack).
* **C82 Text of a file assembles to the bytes of the file.** Lines of the printed text (Lemmas/Lines, Lemmas/Assembled), bufio.Scanner lines, chunks, C80 per line, fixups restoring the SysEx terminators, congruence of encoding.
* **C83 Disassembling and assembling a MIDI file.** Invariant of decoded events (ranges, names from tables) through the track loop, then C82.
* **C84 Every decodable file can be disassembled.** Raw bytes of decoded events contain a terminated delta (C09), so the column splitter (C74) succeeds.
* **C85 What assembling a JSON export changes.** Export and assembler modelled on JSON values (`Model/Json`, `Model/EventJson`, `Model/AssembleJson`); every exported event read back exactly (`read_exported`), then the fix-ups of C73 and the encoder's dependence on them. The text layer of encoding/json (MarshalIndent, the scanner) is trusted.
* **C86 What a manufacturer configuration changes.** `Model/Manufacturers`: the configuration read as JSON values, the map as an association list in which the first entry with a key counts; each configured entry is the built-in or unknown one for its ID, filed under the key of the entry's own ID; induction over the configured list.
* **C87 Note listing.** `Model/NotesPrint` (with Go's `time.Duration.String` and `Truncate`); `Spec/NotesPrint` reads durations back to nanoseconds; induction over the digits of the fraction and over the notes.
* **C88 The export is a JSON text.** `Model/JsonText` (writer of encoding/json), `Spec/JsonText` (grammar by recursion on the value); mutual induction on the value; every exported value consists of decimal numbers and strings of scalar values.
* **C89 How JSON is written does not matter.** Reader of encoding/json modelled; completeness of the reader for the grammar by mutual induction on the value.
* **C90 Malformed JSON is refused.** Soundness of the reader for the grammar (bytes that are not UTF-8 and lone surrogates allowed in strings), by induction on the fuel.
* **C91 Nothing may follow a JSON document.** False: the decoder is asked for one value and the rest is not looked at; negation from C89.
* **C92 Command lines.** `Model/Flags` (package `flag`), `Model/Commands`; `Spec/CommandLine` is a grammar of argument lists; equivalence by induction over the arguments, both for acceptance and for help requests.
* **C93 Options work anywhere.** False; exact law (everything after the first operand is ignored) and its consequence for `--out`.
* **C94 Numbers on the command line are decimal.** False with a leading zero (base 0 of `strconv.ParseInt`); exact reading of such texts.
* **C95 Only the named output is written.** `Model/Commands` gives the files a run writes; cases over the commands, induction over the tracks of a split disassembly.
* **C96/C97 Command line round trips.** C83 and C58/C89 lifted to runs of the program: the second run reads what the first one wrote.
* **C98 Assembling and transposing produce a file.** False; proved that without `--out` nothing at all is written.
* **C99 A failing command leaves existing files alone.** False for commands that create the output before producing the text; both sides proved.
* **C100 A split disassembly has all parts.** Names are distinct because decimal numerals are injective and `path.Join` is injective on plain names (`Lemmas/Paths`); false for a new directory.
* **C101 The naming of notes does not reach MIDI files.** Relational induction (`Lemmas/Alike`, `Lemmas/AlikeJson`): decoding with either naming gives files equal up to note names, and encoding, transposing and the JSON assembler do not look at them.
* **C102 A disassembly with --C4 assembles back.** False; proved that exactly an octave is lost.
* **C103 The byte API takes exactly one event.** Channel events: case analysis over the prologue of each reader. Meta/SysEx: false; the reader takes the stated length from the slice and drops the rest.
* **C104 What the JSON assembler accepts.** Decoding of struct fields is a fold over the members; induction shows that repeated headers act like one header with all members, and that the last member decides; of several members `tracks` the elements at the same place are taken together, since Go decodes into the elements that are there already; counting of tracks by induction; encoding gives one chunk per track.
* **C105 Lines of 64 kB.** Induction over the text with the current line as state; both directions of the limit.
* **C106 Writing to a file and printing give the same text.** The two runs load the same file (relational argument over `withFile`), then case analysis of each command; false for tsv and click, with the exact contents.
* **C107 The delimiter chosen is the delimiter used.** Both runs of tsv without --out are equal; with --out the file is the csv text with the first character of the delimiter.
* **C108 Bad input is an error and nothing else.** Every command loads its input before it opens the output.
* **C109 Humanising writes a file.** False; the command is a stub.
* **C110 When commands crash.** Totality of transposition and of note extraction for decoded files (Props/Fates), exact condition for division by zero ticks; case analysis over commands.
* **C111 Exactly which lines assemble back.** C80 in one direction; in the other what any line can say (C112), obtained by inverting the runs of the patterns.
* **C112 What a line of text can say.** Inversion of a successful match of each pattern into its groups, range lemmas for the number parsers; the printed line is the witness of the converse.
* **C113 Reading, printing and reading a line.** C112 with C80.
* **C114 A printed line is never misread.** For unreadable events the position of each separator in the line determines the groups of any match, and the group in question is then refused.
* **C115 Exactly what assembling a disassembly gives.** The lines of tidy events are single lines (also of the unreadable ones); a track is read as its events or refused (C111, C114); induction over the chunks.
* **C116 Each command prints or writes its result.** Specification `Delivers`/`Saves` of what happens to a result; the options by `Given`, `Number`, `Naming`; unfolding of the modelled `Execute` functions.
* **C117 Values separated by any character read back.** A reader for delimiters of several bytes as specification; the first byte of an encoded character does not occur in its rest, so that no delimiter straddles the end of a cell.
* **C118 Layout and characters of exports.** A byte scanner as specification; mutual induction over values, elements and members.
* **C119 Where split files are written.** A walk over a stack of directories as specification; `path.Clean` keeps the result of the walk (invariant of its stack).
* **C120 Times in the JSON listing of notes are exact milliseconds.** False of the code: negation by a decoded file. Partial: rounding to `float64` modelled by exact integer arithmetic (`Model/NotesJson`, `Lemmas/Floats`, `Lemmas/Seconds`).
* **C121 The JSON listing of notes shows the notes.** `Spec/NotesJson`: value of a decimal text. Error bounds of rounding to nearest; the candidates around a number nearest to some milliseconds; rounding twice by a table over all milliseconds and exponents that occur (finite since times are below 2^34 seconds); twenty decimals always identify a number.
* **C122 Decoding does not depend on how a reader delivers the bytes.** `Model/Streams`: readers as state machines, `io.ReadFull` as a loop. `Spec.Yields` says inductively what a reader delivers; refinement of `decode` by induction on it and on the chunks.
* **C123 A failing read is not taken for a file.** As C122, with the error at the end as a parameter.
* **C124 The encoder reports success only when everything was written.** Writers as state machines with the promise of `io.Writer` as hypothesis; induction over the tracks.
* **C125 Assembling does not depend on the order of a map.** An order is any permutation of the entries. Assembling asks the map only for manufacturers by name (congruence through all readers), and names in the built-in map are unique.
* **C126 Assembling with added manufacturers does not depend on the order of a map.** False of the code: negation by a configuration with two unknown IDs. Partial: entries with the same known name are the same manufacturer.
* **C127 Decoding asks for memory in proportion to the file.** `Model/Memory`: the sizes given to `make([]byte, N)` by the chunk reader and by the reader of payloads, as lists; induction over chunks and events. The property is false; the exact cause and the bound that holds are proved.
* **C128 What a text means.** Spec/TextFile states the meaning of sections inductively and of header lines by the first place of a format and of a division; Lemmas/First proves that the regular expression machine finds the first place; both directions by induction over sections.
* **C129 No event line of a text is lost.** Follows from C128 within track sections; the places where lines are lost are shown by texts.
* **C130 Assembling a text does not depend on how a reader delivers it.** Model/Scanner models bufio.Scanner with its buffer (shifting, doubling up to 64 kB, a hundred empty reads) on readers as state machines; invariant: bytes held and bytes to come are the text, induction over them.
* **C131 A failing read is not taken for a text.** From the invariant of C130: the error of the reader is the error of the scanner.
* **C132 What an event line means.** Spec/LineGrammar states the form of each kind of line by parts (words, digits, white space, skipped text, ...) and the values as numerals, names and hexadecimal text. Lemmas/Grammar and Lemmas/Parts prove, by induction over the parts, that the backtracking matcher finds exactly the first place with the form; a checker that is proved sound shows that greedy and lazy choices are forced in all patterns.
* **C133 A line is read as the key it names.** From C132; the names of keys are a finite table of 42.
* **C134 A line has nothing but its event.** From C132 by induction over the parts of a form that ends with the rest of the line.
* **C135 The file that a text stands for, exactly.** Spec/Assembled joins the grammar of lines (C132) and of sections (C128) to relations for the bytes of events, running status, restored terminators and chunks. Proved by equivalences for each layer of the model, by induction over events, tracks and sections.
* **C136 The bytes of an encoded file, exactly.** From the layers of C135 for the encoder; that decoded events are in range follows from the meaning of wire events (C09).
* **C137 The file that a JSON document stands for, exactly.** Spec/JsonFile says for each member which of its repetitions counts (encoding/json sets the same variable again) and for each event what its members must be; the bytes are those of C135. Proved by an equivalence for each kind of member, event, track and header.
* **C138 The file that a JSON text stands for, exactly.** Reader of texts sound and complete for the grammar with replaced characters, joined to C137.
* **C139 The binary API of one event type, exactly.** `typedBinary` calls the method of a type. For events of the type the general API chooses that method, so C72 applies; for others the prologue fails.
* **C140 How a JSON text is delivered does not matter.** Model/JsonStream models json.Decoder with its buffer on any reader. Induction on the deliveries; a value that is complete does not change when more is read (readJson is sound and complete for the grammar of Spec/JsonText).
* **C141 A failure of the reader while a JSON text is assembled is reported.** False. Proved: exactly when it is reported, and that a file is assembled only from a complete document.
* **C142 A reader that delivers nothing for ever is given up.** False for io.ReadFull and json.Decoder (divergence for every amount of fuel), true for bufio.Scanner: what it sees of such a reader is a reader that fails, so C131 applies.
* **C143 What the bytes of a file decode to, exactly.** Spec/Decoded: chunks, framed events, their meanings, times, names from the events before. Proved in both directions by induction over the events with the context determined by the past (C40 to C42), the framing (C07, C09) and the header (C05); panics from the exact law for a track (C08).
* **C144 The exact text of an exported file.** Spec/Export gives the lines of the document from the header and the entries of Spec/Decoded (C143); quoting of bytes is a relation. The writer is shown to write each value in its lines at every depth, by induction over lists of members; combined with C143 for the bytes and C116 for the command.
* **C145 The exact text of a disassembly.** Spec/Disassembly gives the lines from the header and the entries of Spec/Decoded (C143), with literal column texts. The padding and cutting functions are shown to act on plain characters as specified, each event by cases, tracks by induction; combined with C143 for the bytes, C116 for the command and C100 for split files.
* **C146 The bytes of a transposed or rewritten file.** Spec/Written gives the bytes for the fields of events as closed formulas (base 128 digits, one case for each kind of event, running status as the code does it). They are shown to satisfy the relation of C136, whose right side is unique for decoded files; transposition is C30 field by field, the input is C143, the command is C116.
* **C147 The exact text of tables of events.** Spec/Table gives the cells from the entries of C143, the rows, and the two layouts as functions; the number of characters of a text is specified by a relation (bytes that no character starts with count as one). C51 gives the table cell by cell, the widths are computed by a fold shown to be the maximum, the quoting rule is shown equal for delimiters inside and outside ASCII.
* **C148 The exact text of note listings.** Spec/Notes gives the times of the events of a track as a function of ticks, delta times and the two sources of tempo changes, Spec/NotesListing the notes and their lines as functions of the entries of C143. The merge of a track with the tempo map is followed by induction with the last tempo change of the track and of the map as invariant; the text of a duration is computed digit by digit (milliseconds within a second are a finite table).
* **C149 The exact text of validation warnings.** Spec/Report gives the warnings as a function of the entries of C143, by positions rather than loops; each loop of the validation is followed by induction over the events with the position and the previous event.
* **C150 Files written once are final, and transpositions of files add up.** The file written decodes to the events (C28, C69), by C143 and C146 the bytes are a function of the header and the events, so that writing again gives the same bytes and two moves are one. The length of the written file is bounded by induction over the framed events.
* **C151 An assembled file has the events that the text states.** C135/C138 give the bytes for the events stated; the value with these events is faithful (C24: ranges from the grammars, packets in order by induction over the restored terminators), so that the bytes decode to them, and by C143 stand for them.
* **C152 The documented options are accepted.** The lists of README.md as a table next to that of C92; the grammar of command lines is monotone in the options, and no command that runs ends with the status of a usage error. `export --json` and `export --transpose` are refused, whatever follows.
* **C153 A disassembly tells the file.** The exact text of C145 is a prefix code: the first column shows ten bytes after the delta time (induction over the hexadecimal digits), which hold the length of a text and the manufacturer; numbers end before a character that is no digit; lines other than those of texts have no line ends. Induction over events, then tracks. The contents follow through C66/C143.
* **C154 An export tells the file.** By C88 a text represents one JSON value only; the values of numbers, strings and arrays are injective, the tag tells the kind of event, and per kind the members give the fields back. What a reader sees of bytes that are not UTF-8 is specified apart (`ReadsAs`). Induction over events and tracks; C143 relates the bytes, C146 the file written.
* **C155 The help names the commands and exactly their options.** `Model/Help` has the texts; words of a text are what is between blanks, brackets and line ends (`Spec/Help`). The list of commands is checked for the table, the options per command by evaluation over the ten commands, lifted to all command lines by C92/C116. False for three options; those are the `_fails` theorem.
* **C156 The examples in the help work.** The line with the example is found in the text by its indentation and split at blanks; the grammar of C92 accepts it. False for `humanise`.
* **C157 The exit status is zero exactly when the command did what it was asked.** `Spec/Success` says per command when it succeeds, from the grammar of command lines (C92), of MIDI files (C143), of texts (C128) and of JSON texts (C105), and from what can be created. Both directions by cases over the commands; the split files by induction over the tracks.
* **C158 Exactly when a command on a MIDI file crashes.** The decoder's fate is C143's; `Breaking` is the case of its law in which it panics. The commands add the check of format 1 and the use of track 0 by notes and click, after the output file is created. By cases over the commands.
* **C159 Exactly which texts crash the assembler or keep it busy for ever.** `Spec/TextCrashes` and `Spec/JsonCrashes` list the lines and the events, over the grammars of C128 and C105; a crash is traced through the binds of the model: an outcome of a bind is a crash exactly if the first part crashes, or is a value with which the second does. By induction over lines, events, tracks.
* **C160 Exactly when the program crashes on a text, and when it does not end.** C159 lifted to the command with C92's command lines; with C158 for the other commands it gives the runs that do not end.
* **C161 The same command on the same files gives the same result.** The environment of the model has the content of fresh memory and the order of maps as parameters. Decoding does not depend on the former (the lengths in a buffer have been checked against it when it was filled), the latter is used by notes only. False of notes.
* **C162 What can differ between two runs of notes.** The law of C148 is strengthened by the order of channels among notes that end together; two lists with the same members in that order are permutations of each other, and equal if the order is strict. The end of a run is C157 and C158.
* **C163 Listing transposed and listing the transposed file.** The notes of events that are moved are the notes, moved, as moving is injective within the range; ticks and tempo changes are those of the file (C150, C148). False with key signatures and of notes beyond the range.
* **C164 The content of the file named decides.** Two worlds that agree in everything but the content of files; each command is a function of the content of the file named, by cases over the commands. The condition on .json is shown to be needed.
* **C165 Tracks do not influence each other.** From the characterisation of decoding by the bytes (C143): each track is described by its own chunk, and a file of one chunk has only one description.
* **C166 Events do not depend on later ones.** From C143: the items of a track are framed uniquely by the bytes (`framedItem_unique`), meanings and entries of a prefix of the items are prefixes of the meanings and entries.
* **C167 A disassembly of an assembled text gives the same file.** What is read from lines is sayable (C112) and without chunk tags (C128); it comes back from the bytes (C151) with the same field values, manufacturers known by their ID; so the contents are plain and C83 applies.
* **C168 An export of an assembled JSON document gives the same file.** Strings of a document that was read are sequences of Unicode scalar values, so texts of the events are UTF-8; they come back from the bytes (C151), and C58 applies to the file that was read.
* **C169 A file can be carried from text to JSON and from JSON to text.** The file read from an assembled text is plain (C167), which implies what C58 asks, given texts in UTF-8; the file read from an assembled document is plain if lines can state the events, so C83 applies.
* **C170 Parts of disassembled files can be put together anew.** The proof of C82 for a header that states another number of tracks; each chosen track is read back by itself, and the header is completed with the number of tracks found. The bytes are those of C146.
* **C171 Blank lines, comments and line ends do not matter.** A relation between lists of lines, preserved by the division into sections; what a track holds (C135) skips such lines, so the meaning of the text is the same. A text in which a comment names a chunk shows that this condition is needed.
* **C172 The arrangement of a JSON document does not matter.** An inductive relation between documents; a rearrangement keeps the values of all the members that mean something, rearranged, and everything that C137 says of a document is said of those values.
* **C173 A change to the lines of one track changes only that track.** The division into sections puts the replaced lines into one section; what sections stand for (C135) is unique, so all other tracks have the same events and the same bytes, and the lines of the changed track before and after the replaced ones hold the same events.
* **C174 JSON documents are assembled track by track and can be put together anew.** C137 for documents in which the two members occur once, where what the document says falls into what the header and each track say. The chunk of a track is unique because the document with this track alone has one file.
* **C175 A text in UTF-8 can be carried to JSON and back to the file.** A text in UTF-8 can be divided at a byte below 128, because all bytes of longer characters are above; newlines, carriage returns and the blanks before the text of an event are such bytes. The rest is C169.
* **C176 When there are no warnings about a file.** The text of C149 is empty exactly if each of its parts is; a track with a proper end has no bank selection as its last event, so the gap of C38 does not matter. With C151 this is decided by the events that a text or JSON document states, and with C150 the warnings after a transposition are found to be the same.
* **C177 Assembling loses nothing and adds nothing.** Reading the assembled file gives back what was stated (C151), and a file stands for one thing only (C143); without continuations the file is a function of the header and the events stated.
* **C178 Events take place at the sum of the delta times stated.** The ticks of the events that a file stands for (C143) are sums, by induction over the events of a track; the delta times are those stated (C151).
* **C179 Transposing a file is transposing its text.** The assembled file stands for the events stated (C151); transposing writes the file of these events moved (C146), which is the file assembled from the moved events.
* **C180 How the events of a file are encoded does not matter.** What a file stands for (C143) is, but for the bytes shown, a function of the delta times and field values: by induction over the events of a track, since names and banks depend on earlier field values only. The exact texts of C144, C147, C148 and C149 and the bytes of C146 do not use the bytes shown.
* **C181 The notes of a file are the notes of its tracks.** Tracks can be put behind another header (C165), and the exact list of notes (C148) is made track by track from the events of the track and the tempos of the first track.
* **C182 Disassemblies of files with the same events differ in the bytes shown only.** The exact lines (C145) of two files that stand for the same but for their bytes (C180); the column of bytes has 42 characters for all events, counted as the bytes that do not continue a character of UTF-8.
* **C183 Listed notes are in order and do not overlap.** From the exact list of notes (C148): the times of the events of a track do not decrease, a note starts at an earlier event than it ends, and two notes of the same pitch and channel do not overlap (C47).
