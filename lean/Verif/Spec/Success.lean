import Verif.Spec.Commands
import Verif.Spec.Decoded
import Verif.Spec.NotesListing
import Verif.Spec.Assembled
import Verif.Spec.JsonFile
import Verif.Spec.JsonText
import Verif.Spec.TextFile
import Verif.Model.Commands
import Verif.Props.Context
import Verif.Props.AssembleText

/-!
When a run of the program succeeds, in terms of the options given and of the content of the input.
-/

namespace Spec
open Midiasm

/-- A text stands for a MIDI file. -/
def TextStands (table : List (String × Lib.Manufacturer)) (text b : Bytes) : Prop :=
  ShortLines text ∧ ∃ (lines : List Bytes) (secs : List (List Bytes)) (h : Header) (ts : List (List Event)) (chunks : List Bytes),
    Lines text lines ∧ Chunked lines secs ∧ Stands table secs (some h) ts ∧ h.tracks = ts.length ∧ List.Forall₂ TrackChunk ts chunks ∧
    b = h.chunk.bytes ++ chunks.flatten

/-- A JSON text stands for a MIDI file. -/
def JsonStands (text b : Bytes) : Prop :=
  ∃ a s rest j, text = a ++ s ++ rest ∧ Space a ∧ JsonText CharsRead j s ∧ nesting j ≤ 10000 ∧
    ∃ f d ts chunks, DocumentSays j f d ts ∧ ts.length < 65536 ∧ List.Forall₂ TrackChunk ts chunks ∧
      b = (Header.mk f ts.length d).chunk.bytes ++ chunks.flatten

/-- The file named stands for a MIDI file: as JSON if its name ends in `.json`, as text otherwise. -/
def InputStands (w : World) (file b : Bytes) : Prop :=
  file ≠ [] ∧ ∃ text, w.read file = some text ∧
    ((str ".json" <:+ file ∧ JsonStands text b) ∨ (¬ str ".json" <:+ file ∧ TextStands Lib.manufacturers text b))

/-- The file named is a MIDI file that can be checked: not of format 1 without tracks. -/
def InputSays (w : World) (s : List (Bytes × FlagValue)) (file : Bytes) (h : Header) (ts : List TrackEntry) : Prop :=
  file ≠ [] ∧ ∃ bytes mc, w.read file = some bytes ∧ Naming s mc ∧ FileSays (octaveOffset mc) bytes h ts ∧ ¬ (h.format = 1 ∧ h.tracks = 0)

/-- The notes have times: there is a track, and ticks per quarter note or nothing to be timed. -/
def Timeable (h : Header) (ts : List TrackEntry) : Prop :=
  ∃ t0 rest, ts = t0 :: rest ∧ ((0 < h.division ∧ h.division < 32768) ∨ rest = [] ∨ ((∀ t ∈ rest, t.events = []) ∧ tempoChanges t0 = []))

/-- The output file, if one is named, can be created. -/
def OutputFree (w : World) (s : List (Bytes × FlagValue)) : Prop := ∀ out, Output s out → w.create out = true

/-- The character that separates values: a tabulator, or the first character of the text given. -/
def ValuesApart (s : List (Bytes × FlagValue)) (d : Char) : Prop :=
  (NoText s "delimiter" ∧ d = '\t') ∨ (Given s "delimiter" (.string (str "\\t")) ∧ d = '\t') ∨
    ∃ rest, Given s "delimiter" (.string (String.utf8EncodeChar d ++ rest)) ∧ String.utf8EncodeChar d ++ rest ≠ str "\\t"

/-- The name that the files of a split disassembly begin with: the last element of a path, without the extension unless slashes follow. -/
def SplitStem (path b : Bytes) : Prop :=
  Stem path b ∨
  (∃ d n, path = d ++ b ++ List.replicate (n + 1) 47 ∧ (d = [] ∨ ∃ d', d = d' ++ [47]) ∧ 47 ∉ b ∧ b ≠ []) ∨
  (∃ n, path = List.replicate (n + 1) 47 ∧ b = [47])

/-- The files of a split disassembly of a number of tracks can be created.  A directory that is made for them can be written to only by the
superuser. -/
def SplitFree (w : World) (s : List (Bytes × FlagValue)) (file : Bytes) (tracks : Nat) : Prop :=
  ∃ dir x base, SplitDirectory s file dir ∧ NamedAfter s file x ∧ SplitStem x base ∧
    (Output s dir → w.mkdirAll dir = true ∧ (w.isDir dir = true ∨ w.superuser = true)) ∧
    w.create (joinPath dir (base ++ str ".MThd")) = true ∧
    ∀ i, i < tracks → w.create (joinPath dir (base ++ str "-" ++ dec i ++ str ".MTrk")) = true

/-- A command, with its options and the file named first, does what it is asked to. -/
def Succeeds (w : World) (c : Command) (s : List (Bytes × FlagValue)) (file : Bytes) : Prop :=
  match c with
  | .help | .version => True
  | .humanise => False
  | .assemble => (∃ b, InputStands w file b) ∧ OutputFree w s
  | .export_ | .transpose => (∃ h ts, InputSays w s file h ts) ∧ OutputFree w s
  | .notes => (∃ h ts, InputSays w s file h ts ∧ Timeable h ts) ∧ OutputFree w s
  | .click => (∃ h ts, InputSays w s file h ts ∧ ts ≠ []) ∧ OutputFree w s
  | .tsv => (∃ h ts, InputSays w s file h ts) ∧ OutputFree w s ∧
      (NoText s "out" ∨ Given s "tabular" (.bool true) ∨ ∃ d, ValuesApart s d ∧ d ∉ ['\x00', '\n', '\r', '"', '�'])
  | .disassemble => ∃ h ts, InputSays w s file h ts ∧
      ((¬ Given s "split" (.bool true) ∧ OutputFree w s) ∨ (Given s "split" (.bool true) ∧ SplitFree w s file ts.length))

end Spec
