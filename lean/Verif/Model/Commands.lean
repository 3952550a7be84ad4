import Verif.Model.Flags
import Verif.Model.Paths
import Verif.Model.Validate
import Verif.Model.Transpose
import Verif.Model.NotesPrint
import Verif.Model.NotesJson
import Verif.Model.Tsv
import Verif.Model.Print
import Verif.Model.AssembleText
import Verif.Model.JsonText
import Verif.Model.Help

/-!
The command line program: cmd/midiasm/*.go and commands/*.go.
-/

namespace Midiasm

/-- The flags of every command (cmd/midiasm/main.go:93-95).  There is no flag for `options.conf`. -/
def globalFlags : FlagTable := [(str "C4", .bool), (str "verbose", .bool), (str "debug", .bool)]

/-- The flags of a command: `Flagset` (commands/disassemble.go:22-28, assemble.go:20-24, notes.go:20-26, click.go:18-22, export.go:18-22,
transpose.go:19-24, tsv.go:28-34, humanise.go:20-24, cmd/midiasm/help.go:13-15, version.go:13-15). -/
def commandFlags : Command → FlagTable
  | .disassemble => globalFlags ++ [(str "out", .string), (str "split", .bool), (str "templates", .string)]
  | .assemble => globalFlags ++ [(str "out", .string)]
  | .notes => globalFlags ++ [(str "out", .string), (str "transpose", .int), (str "json", .bool)]
  | .click => globalFlags ++ [(str "out", .string)]
  | .export_ => globalFlags ++ [(str "out", .string)]
  | .transpose => globalFlags ++ [(str "out", .string), (str "semitones", .int)]
  | .tsv => globalFlags ++ [(str "out", .string), (str "delimiter", .string), (str "tabular", .bool)]
  | .humanise => globalFlags ++ [(str "out", .string)]
  | .help => globalFlags
  | .version => globalFlags

/-- What templates loaded from a file make of a document, a header and a track: the text written and whether it succeeded
(`Disassemble.LoadTemplates` and `Print`, ops/disassemble/disassemble.go:39-72).  Not modelled for templates other than the built in
ones. -/
structure Printer where
  document : SMF → Bytes × Bool
  header : MThd → Bytes × Bool
  track : MTrk → Bytes × Bool

/-- The environment of a run.  Files are identified by the path the program uses for them, so two paths naming the same file are
not modelled; a file that can be created can be written completely. -/
structure World where
  /-- The content of a file that can be opened and read. -/
  read : Bytes → Option Bytes
  /-- The file can be created or truncated. -/
  create : Bytes → Bool
  /-- `os.MkdirAll` succeeds. -/
  mkdirAll : Bytes → Bool
  /-- The directory exists already. -/
  isDir : Bytes → Bool
  /-- The user may write to directories without permission bits. -/
  superuser : Bool
  /-- The spare capacity of buffers read from a chunk. -/
  spare : Bytes
  /-- The order of iteration over Go maps. -/
  order : Nat → MapOrder
  /-- Templates loaded from the content of a file, not modelled. -/
  templates : Bytes → Option Printer

/-- Reading a file; there is no file with an empty name. -/
def World.file (w : World) (name : Bytes) : Option Bytes := if name = [] then none else w.read name

/-- How the program ends: normally, by `os.Exit(1)` after an error of a command (cmd/midiasm/main.go:82-88), by the package `flag` with
exit status 2 or, for `-help`, 0, by a panic, or never. -/
inductive Status where
  | success
  | failed
  | usage
  | helped
  | panicked
  | hanging
  deriving DecidableEq, Repr

/-- What a run does: the files it creates or truncates with their content afterwards, in order, what it prints on standard output, and
how it ends.  Simplification: the message printed for an error and anything on standard error are not modelled. -/
structure RunResult where
  files : List (Bytes × Bytes)
  stdout : Bytes
  status : Status
  deriving DecidableEq, Repr

/-- The end of a command that returns, panics or loops. -/
def statusOf {α : Type} : Outcome α → Status
  | .ok _ => .success
  | .err _ => .failed
  | .panic => .panicked
  | .diverge => .hanging

/-- Output to standard output or, when a name is given, to a file which is created before the text is produced (commands/notes.go:68-89, export.go:74-90, tsv.go:71-85). -/
def emit (w : World) (out : Bytes) (text : Outcome Bytes) : RunResult :=
  let written := match text with
    | .ok t => t
    | _ => []
  if out = [] then ⟨[], written, statusOf text⟩
  else if w.create out then ⟨[(out, written)], [], statusOf text⟩
  else ⟨[], [], .failed⟩

/-- Output to a file after the content has been produced, if a name is given (commands/assemble.go:65-79, transpose.go:67-88). -/
def save (w : World) (out : Bytes) (content : Outcome Bytes) : RunResult :=
  match content with
  | .ok bytes =>
      if out = [] then ⟨[], [], .success⟩
      else if w.create out then ⟨[(out, bytes)], [], .success⟩
      else ⟨[], [], .failed⟩
  | o => ⟨[], [], statusOf o⟩

/-- Reading, decoding and validating the input: `decode` (commands/command.go:21-51) and the calls of `Validate` in every command
(e.g. commands/disassemble.go:59-66), which only print warnings on standard error. -/
def load (w : World) (mc : MiddleC) (file : Bytes) : Outcome SMF :=
  match w.file file with
  | none => .err .other
  | some bytes => do
      let smf ← decode mc w.spare bytes
      let _ ← validate smf
      .ok smf

/-- A command applied to a decoded file. -/
def withFile (w : World) (mc : MiddleC) (file : Bytes) (f : SMF → RunResult) : RunResult :=
  match load w mc file with
  | .ok smf => f smf
  | o => ⟨[], [], statusOf o⟩

/-- The built in templates.  They never fail on the values of a decoded file; the text written before a failure is not modelled. -/
def builtin : Printer where
  document smf := match printSMF smf with
    | .ok t => (t, true)
    | _ => ([], false)
  header h := (printMThd h, true)
  track t := match printMTrk t with
    | .ok t => (t, true)
    | _ => ([], false)

/-- The templates to use (commands/disassemble.go:68-83). -/
def printerFor (w : World) (templates : Bytes) : Option Printer :=
  if templates = [] then some builtin else (w.file templates).bind w.templates

/-- `disassemble.write` (commands/disassemble.go:94-109). -/
def writeDocument (w : World) (out : Bytes) (p : Printer) (smf : SMF) : RunResult :=
  let (text, ok) := p.document smf
  let status := if ok then .success else .failed
  if out = [] then ⟨[], text, status⟩
  else if w.create out then ⟨[(out, text)], [], status⟩
  else ⟨[], [], .failed⟩

/-- A file that `disassemble.separate` creates can be created: the directory is not one that `os.MkdirAll(dir, os.ModeDir)`
(commands/disassemble.go:118) has just made, which has no permission bits. -/
def mayCreate (w : World) (fresh : Bool) (name : Bytes) : Bool := w.create name && (!fresh || w.superuser)

/-- The files of the tracks (commands/disassemble.go:138-150); the verb `%d` does not use `TrackNumber.String`.  Errors of templates are only reported on standard output, which is not
modelled. -/
def splitTracks (w : World) (fresh : Bool) (p : Printer) (dir base : Bytes) : List MTrk → List (Bytes × Bytes) × Status
  | [] => ([], .success)
  | t :: ts =>
      let name := joinPath dir (base ++ str "-" ++ dec t.trackNumber ++ str ".MTrk")
      if mayCreate w fresh name then
        let (files, status) := splitTracks w fresh p dir base ts
        ((name, (p.track t).1) :: files, status)
      else ([], .failed)

/-- `disassemble.separate` (commands/disassemble.go:111-153).  A file without a header does not occur: decoding succeeds only with one. -/
def separate (w : World) (out : Bytes) (p : Printer) (smf : SMF) (file : Bytes) : RunResult :=
  let base := trimSuffix (basePath file) (extPath file)
  let dir := if out = [] then dirPath file else out
  if out ≠ [] ∧ w.mkdirAll dir = false then ⟨[], [], .failed⟩
  else
    let fresh := out ≠ [] && !w.isDir dir
    let name := joinPath dir (base ++ str ".MThd")
    if mayCreate w fresh name then
      let header := match smf.mthd with
        | some h => (p.header h).1
        | none => []
      let (files, status) := splitTracks w fresh p dir base smf.tracks
      ⟨(name, header) :: files, [], status⟩
    else ⟨[], [], .failed⟩

/-- `disassemble.Execute` (commands/disassemble.go:51-92). -/
def runDisassemble (w : World) (mc : MiddleC) (settings : List (Bytes × FlagValue)) (file : Bytes) : RunResult :=
  withFile w mc file fun smf =>
    match printerFor w (stringFlag settings "templates") with
    | none => ⟨[], [], .failed⟩
    | some p =>
        let out := stringFlag settings "out"
        if boolFlag settings "split" then separate w out p smf (if out = [] then file else out)
        else writeDocument w out p smf

/-- `assemble.Execute` (commands/assemble.go:46-80). -/
def runAssemble (w : World) (mc : MiddleC) (settings : List (Bytes × FlagValue)) (file : Bytes) : RunResult :=
  match w.file file with
  | none => ⟨[], [], .failed⟩
  | some text =>
      save w (stringFlag settings "out")
        (if extPath file = str ".json" then assembleJsonText mc text else assembleText Lib.manufacturers text)

/-- `notes.Execute` (commands/notes.go:48-89) and `Notes.Execute` (ops/notes/notes.go:46-58). -/
def runNotes (w : World) (mc : MiddleC) (settings : List (Bytes × FlagValue)) (file : Bytes) : RunResult :=
  withFile w mc file fun smf =>
    emit w (stringFlag settings "out") do
      let notes ← extractNotes mc w.order (intFlag settings "transpose") smf
      .ok (if boolFlag settings "json" then notesJsonText notes else printNotes notes)

/-- `click.Execute` (commands/click.go:44-83) and `ClickTrack.Execute` (ops/click/click.go:39-183), which prints three line ends on standard
output whatever its writer is (ops/click/click.go:149, 176, 180) and nothing before a panic.  The text of collected events is not modelled
and stands as empty; a decoded file has none. -/
def runClick (w : World) (mc : MiddleC) (settings : List (Bytes × FlagValue)) (file : Bytes) : RunResult :=
  withFile w mc file fun smf =>
    let out := stringFlag settings "out"
    if out ≠ [] ∧ w.create out = false then ⟨[], [], .failed⟩
    else
      let files := if out = [] then [] else [(out, [])]
      match click smf.mthd (decodedEvents smf) with
      | .ok _ => ⟨files, str "\n\n\n", .success⟩
      | o => ⟨files, [], statusOf o⟩

/-- `export.Execute` (commands/export.go:45-90). -/
def runExport (w : World) (mc : MiddleC) (settings : List (Bytes × FlagValue)) (file : Bytes) : RunResult :=
  withFile w mc file fun smf => emit w (stringFlag settings "out") (.ok (exportText smf))

/-- `transpose.Execute` (commands/transpose.go:47-88). -/
def runTranspose (w : World) (mc : MiddleC) (settings : List (Bytes × FlagValue)) (file : Bytes) : RunResult :=
  withFile w mc file fun smf =>
    save w (stringFlag settings "out") (transposeExecute mc (intFlag settings "semitones") false smf)

/-- A field written with a delimiter outside ASCII: `Writer.fieldNeedsQuotes` (Go standard library) looks for the delimiter as a
character. -/
def csvFieldWide (comma : Nat) (field : Bytes) : Bytes :=
  if fieldNeedsQuotes 10 field || contains field (encodeRune comma) then
    [34] ++ field.flatMap (fun c => if c = 34 then [34, 34] else [c]) ++ [34]
  else field

/-- `writeTSV` (commands/tsv.go:195-216) for any delimiter: `csv.Writer.Write` refuses a quote, line ends, NUL and the replacement
character. -/
def writeDelimited (header : List Bytes) (records : List (List Bytes)) (comma : Nat) : Outcome Bytes :=
  if comma < 128 then writeTSV header records (UInt8.ofNat comma)
  else if comma = runeError then .err .other
  else
    .ok ((header :: records).flatMap fun r =>
      List.intercalate (encodeRune comma) (r.map (csvFieldWide comma)) ++ [10])

/-- `tsv.Execute` (commands/tsv.go:59-87). -/
def runTsv (w : World) (mc : MiddleC) (settings : List (Bytes × FlagValue)) (file : Bytes) : RunResult :=
  withFile w mc file fun smf =>
    let records := exportTsv (smf.tracks.map (·.events))
    let out := stringFlag settings "out"
    let delimiter := stringFlag settings "delimiter"
    emit w out
      (if out = [] ∨ boolFlag settings "tabular" = true then .ok (writeTable records)
       else if delimiter = [] ∨ delimiter = str "\\t" then writeDelimited tsvHeader records 9
       else writeDelimited tsvHeader records ((runes delimiter).headD 0))

/-- `humanise.Execute` (commands/humanise.go:47-67): not implemented. -/
def runHumanise (w : World) (mc : MiddleC) (file : Bytes) : RunResult :=
  withFile w mc file fun _ => ⟨[], [], .failed⟩

/-- `Command.Execute` with the flags set by cmd/midiasm/main.go:68-79. -/
def execute (w : World) (command : Command) (settings : List (Bytes × FlagValue)) (args : List Bytes) : RunResult :=
  let mc : MiddleC := if boolFlag settings "C4" then .c4 else .c3
  let file := args.headD []
  match command with
  | .disassemble => runDisassemble w mc settings file
  | .assemble => runAssemble w mc settings file
  | .notes => runNotes w mc settings file
  | .click => runClick w mc settings file
  | .export_ => runExport w mc settings file
  | .transpose => runTranspose w mc settings file
  | .tsv => runTsv w mc settings file
  | .humanise => runHumanise w mc file
  | .help => ⟨[], helpText file, .success⟩
  | .version => ⟨[], str "midiasm v0.3.x\n", .success⟩

/-- The command and its arguments (`parse`, cmd/midiasm/main.go:90-119). -/
def selectCommand (argv : List Bytes) : Command × List Bytes :=
  match argv with
  | a :: rest =>
      match commandTable.lookup a with
      | some c => (c, rest)
      | none => (.disassemble, argv)
  | [] => (.disassemble, [])

/-- `main` (cmd/midiasm/main.go:39-88) with `os.Args[1:]`. -/
def midiasm (w : World) (argv : List Bytes) : RunResult :=
  let (command, args) := selectCommand argv
  match parseFlags (commandFlags command) args with
  | .ok settings rest => execute w command settings rest
  | .help => ⟨[], [], .helped⟩
  | .bad => ⟨[], [], .usage⟩

/-- The files after a run. -/
def World.after (w : World) (r : RunResult) : World :=
  { w with read := fun name => ((r.files.reverse.lookup name).map some).getD (w.read name) }

end Midiasm
