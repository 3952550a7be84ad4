import Verif.Model.Text

/-!
What the command `help` prints (cmd/midiasm/help.go and the `Help` functions of the commands).
-/

namespace Midiasm

/-- The commands (cmd/midiasm/main.go:14-28). -/
inductive Command where
  | disassemble
  | assemble
  | notes
  | click
  | export_
  | transpose
  | tsv
  | humanise
  | help
  | version
  deriving DecidableEq, Repr

/-- The table `cli` (cmd/midiasm/main.go:14-28). -/
def commandTable : List (Bytes × Command) :=
  [(str "disassemble", .disassemble), (str "assemble", .assemble), (str "notes", .notes), (str "click", .click),
   (str "export", .export_), (str "transpose", .transpose), (str "tsv", .tsv), (str "humanise", .humanise),
   (str "help", .help), (str "version", .version)]

/-- The lines printed by the `Help` function of each command (commands/disassemble.go:30-49, commands/assemble.go:26-44, commands/notes.go:28-46,
commands/click.go:24-42, commands/export.go:24-43, commands/transpose.go:26-45, commands/tsv.go:36-57,
commands/humanise.go:26-45; cmd/midiasm/help.go:17-18 and
cmd/midiasm/version.go:17-18, which print nothing). -/
def commandHelp : Command → List String
  | .disassemble =>
    ["",
      "  Disassembles a MIDI file and displays the tracks in a human readable format.",
      "",
      "    midiasm [--debug] [--verbose] [--C4] [--split] [--out <file>] <MIDI file>",
      "",
      "      --out <file>  Writes the disassembly to a file. Default is to write to stdout.",
      "      --split       Writes each track to a separate file. Default is `false`.",
      "",
      "    Options:",
      "",
      "      --C4       Uses C4 as middle C (Yamaha convention). Defaults to C3.",
      "      --debug    Displays internal information while processing a MIDI file. Defaults to false",
      "      --verbose  Enables 'verbose' logging. Defaults to false",
      "",
      "    Example:",
      "",
      "      midiasm --debug --verbose --out one-time.txt one-time.mid",
      ""]
  | .assemble =>
    ["",
      "  Assembles a MIDI file from a text or JSON source.",
      "",
      "    midiasm assemble [--debug] [--verbose] [--C4] [--out <MIDI file>] <file>",
      "",
      "      --out <file>  Output MIDI file. Default is to use the input file name with a .midi extension.",
      "",
      "    Options:",
      "",
      "      --C4       Uses C4 as middle C (Yamaha convention). Defaults to C3.",
      "      --debug    Displays internal information while processing a MIDI file. Defaults to false",
      "      --verbose  Enables 'verbose' logging. Defaults to false",
      "",
      "    Example:",
      "",
      "      midiasm assemble --debug --verbose --out one-time.midi one-time.txt",
      ""]
  | .notes =>
    ["",
      "  Extracts the NoteOn and NoteOff events to generate a list of notes with start times and durations.",
      "",
      "    midiasm notes [--debug] [--verbose] [--C4] [--out <file>] <MIDI file>",
      "",
      "      --out <file>  Writes the notes to a file. Default is to write to stdout.",
      "",
      "    Options:",
      "",
      "      --C4       Uses C4 as middle C (Yamaha convention). Defaults to C3.",
      "      --debug    Displays internal information while processing a MIDI file. Defaults to false",
      "      --verbose  Enables 'verbose' logging. Defaults to false",
      "",
      "    Example:",
      "",
      "      midiasm notes --debug --verbose --out one-time.notes one-time.mid",
      ""]
  | .click =>
    ["",
      "  Extracts the _beats_ from the MIDI file in a format that can be used to create a click track.",
      "",
      "    midiasm click [--debug] [--verbose] [--C4] [--out <file>] <MIDI file>`",
      "",
      "      --out <file>  Writes the click track to a file. Default is to write to stdout.",
      "",
      "    Options:",
      "",
      "      --C4       Uses C4 as middle C (Yamaha convention). Defaults to C3.",
      "      --debug    Displays internal information while processing a MIDI file. Defaults to false",
      "      --verbose  Enables 'verbose' logging. Defaults to false",
      "",
      "    Example:",
      "",
      "      midiasm click --debug --verbose --out one-time.click one-time.mid",
      ""]
  | .export_ =>
    ["",
      "  Extracts the MIDI information as JSON for use with other tools (e.g. jq).",
      "",
      "    midiasm export [--debug] [--verbose] [--C4] [--out <file>] <MIDI file>",
      "",
      "      <MIDI file>  MIDI file to export as JSON.",
      "",
      "    Options:",
      "",
      "      --out <file>  Writes the JSON to a file. Default is to write to stdout.",
      "      --C4          Uses C4 as middle C (Yamaha convention). Defaults to C3.",
      "      --debug       Displays internal information while processing a MIDI file. Defaults to false",
      "      --verbose     Enables 'verbose' logging. Defaults to false",
      "",
      "    Example:",
      "",
      "      midiasm export --debug --verbose --out one-time.json one-time.mid",
      ""]
  | .transpose =>
    ["",
      "  Transposes the key of the notes (and key signature) and writes it back as MIDI file.",
      "",
      "    midiasm transpose [--debug] [--verbose] [--C4] --semitones <steps> --out <file> <MIDI file>",
      "",
      "      --semitones <N>  Number of semitones to transpose up or down. Defaults to 0.",
      "      --out <file>     (required) Destination file for the transposed MIDI. ",
      "",
      "    Options:",
      "",
      "      --C4       Uses C4 as middle C (Yamaha convention). Defaults to C3.",
      "      --debug    Displays internal information while processing a MIDI file. Defaults to false",
      "      --verbose  Enables 'verbose' logging. Defaults to false",
      "",
      "    Example:",
      "",
      "      midiasm transpose --debug --verbose --semitones +5 --out one-time+5.mid one-time.mid",
      ""]
  | .tsv =>
    ["",
      "  Extracts the MIDI information as TSV for use with e.g. a spreadsheet.",
      "",
      "    midiasm tsv [--debug] [--verbose] [--C4] [--out <file>] [--delimiter <string>] <MIDI file>",
      "",
      "      <MIDI file>  MIDI file to export as JSON.",
      "",
      "    Options:",
      "",
      "      --out <file>          Writes the TSV to a file. Default is to write to stdout.",
      "      --delimiter <string>  Column separator (defaults to TAB).",
      "      --tabular             Formats the output as fixed width columns.",
      "      --C4                  Uses C4 as middle C (Yamaha convention). Defaults to C3.",
      "      --debug               Displays internal information while processing a MIDI file. Defaults to false",
      "      --verbose             Enables 'verbose' logging. Defaults to false",
      "",
      "    Example:",
      "",
      "      midiasm tsv --debug --verbose --out one-time.tsv one-time.mid",
      ""]
  | .humanise =>
    ["",
      "  Randomises the MIDI event timing",
      "",
      "    midiasm humanise [--debug] [--verbose] [--C4] [--out <file>] <MIDI file>",
      "",
      "      <MIDI file>  MIDI file to 'humanise'.",
      "",
      "    Options:",
      "",
      "      --out <file>          Writes the TSV to a file. Default is to write to stdout.",
      "      --C4                  Uses C4 as middle C (Yamaha convention). Defaults to C3.",
      "      --debug               Displays internal information while processing a MIDI file. Defaults to false",
      "      --verbose             Enables 'verbose' logging. Defaults to false",
      "",
      "    Example:",
      "",
      "      midiasm humanise --debug --verbose --out gnossienes.mid",
      ""]
  | .help => []
  | .version => []

/-- `help.help` (cmd/midiasm/help.go:33-48): the names of the commands in the order of the table. -/
def generalHelp : List Bytes :=
  [str "", str "  Usage: midiasm <command> <options>", str "", str "  Supported commands:"] ++ commandTable.map (fun c => str "    " ++ c.1) ++
    [str "", str "  Defaults to 'disassemble' if the command is not provided.", str "",
      str "  Use 'midiasm help <command>' for command specific information.", str ""]

/-- `help.Execute` (cmd/midiasm/help.go:20-31): what the command `help` prints, given its first operand. -/
def helpText (name : Bytes) : Bytes :=
  (match commandTable.lookup name with
    | some c => (commandHelp c).map str
    | none => generalHelp).flatMap fun l => l ++ [10]

end Midiasm
