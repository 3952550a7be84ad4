import Verif.Lemmas.Alike
import Verif.Lemmas.AlikeJson
import Verif.Lemmas.Assembled
import Verif.Lemmas.BadLines
import Verif.Lemmas.Basic
import Verif.Lemmas.CommandLine
import Verif.Lemmas.Decoded
import Verif.Lemmas.Encode
import Verif.Lemmas.EventJson
import Verif.Lemmas.Fate
import Verif.Lemmas.File
import Verif.Lemmas.First
import Verif.Lemmas.Flags
import Verif.Lemmas.Floats
import Verif.Lemmas.Frame
import Verif.Lemmas.Grammar
import Verif.Lemmas.Image
import Verif.Lemmas.JsonAccepts
import Verif.Lemmas.JsonMembers
import Verif.Lemmas.JsonText
import Verif.Lemmas.Keywords
import Verif.Lemmas.Line
import Verif.Lemmas.Lines
import Verif.Lemmas.Loop
import Verif.Lemmas.Meaning
import Verif.Lemmas.NoteTimes
import Verif.Lemmas.Notes
import Verif.Lemmas.Parts
import Verif.Lemmas.Paths
import Verif.Lemmas.ReadBack
import Verif.Lemmas.Readers
import Verif.Lemmas.Regex
import Verif.Lemmas.Runs
import Verif.Lemmas.Scanner
import Verif.Lemmas.Seconds
import Verif.Lemmas.Slices
import Verif.Lemmas.Streams
import Verif.Lemmas.Tables
import Verif.Lemmas.Text
import Verif.Lemmas.ToJson
import Verif.Lemmas.Track
import Verif.Lemmas.TrackLoop
import Verif.Lemmas.Unique
import Verif.Lemmas.WrittenSize
import Verif.Model.AssembleJson
import Verif.Model.AssembleText
import Verif.Model.Binary
import Verif.Model.Commands
import Verif.Model.Context
import Verif.Model.Event
import Verif.Model.EventJson
import Verif.Model.EventText
import Verif.Model.File
import Verif.Model.Fixups
import Verif.Model.Flags
import Verif.Model.Go
import Verif.Model.Help
import Verif.Model.Json
import Verif.Model.JsonStream
import Verif.Model.JsonText
import Verif.Model.Manufacturers
import Verif.Model.Marshal
import Verif.Model.Memory
import Verif.Model.Notes
import Verif.Model.NotesJson
import Verif.Model.NotesPrint
import Verif.Model.Parse
import Verif.Model.Paths
import Verif.Model.Pipeline
import Verif.Model.Print
import Verif.Model.Regex
import Verif.Model.Report
import Verif.Model.Scales
import Verif.Model.Scanner
import Verif.Model.Streams
import Verif.Model.Tables
import Verif.Model.Text
import Verif.Model.Track
import Verif.Model.Transpose
import Verif.Model.Tsv
import Verif.Model.Validate
import Verif.Model.Vlq
import Verif.Props.Apart
import Verif.Props.AssembleCrashes
import Verif.Props.AssembleFate
import Verif.Props.AssembleJson
import Verif.Props.AssembleText
import Verif.Props.Assembled
import Verif.Props.AssembledRead
import Verif.Props.Binary
import Verif.Props.BinaryTypes
import Verif.Props.Blameless
import Verif.Props.Blank
import Verif.Props.BytesColumn
import Verif.Props.Click
import Verif.Props.CommandLine
import Verif.Props.Commands
import Verif.Props.CommandsExamples
import Verif.Props.Context
import Verif.Props.Crashes
import Verif.Props.Disassembly
import Verif.Props.Documented
import Verif.Props.Encode
import Verif.Props.Encodings
import Verif.Props.Events
import Verif.Props.Export
import Verif.Props.ExportTells
import Verif.Props.Fates
import Verif.Props.FileNames
import Verif.Props.FileSays
import Verif.Props.Fixups
import Verif.Props.Formats
import Verif.Props.Header
import Verif.Props.Help
import Verif.Props.JsonAccepted
import Verif.Props.JsonAgain
import Verif.Props.JsonCrashes
import Verif.Props.JsonFate
import Verif.Props.JsonFile
import Verif.Props.JsonMeaning
import Verif.Props.JsonStream
import Verif.Props.JsonText
import Verif.Props.JsonTracks
import Verif.Props.Kinds
import Verif.Props.Layout
import Verif.Props.LineImage
import Verif.Props.LineMeaning
import Verif.Props.LongLines
import Verif.Props.Manufacturers
import Verif.Props.MapOrder
import Verif.Props.Memory
import Verif.Props.MovedInput
import Verif.Props.Naming
import Verif.Props.NamingText
import Verif.Props.NeverMisread
import Verif.Props.NormalForm
import Verif.Props.NoteText
import Verif.Props.Notes
import Verif.Props.NotesByTrack
import Verif.Props.NotesJson
import Verif.Props.NotesListing
import Verif.Props.NotesMoved
import Verif.Props.NotesOrdered
import Verif.Props.NotesPrint
import Verif.Props.OneTrack
import Verif.Props.Outputs
import Verif.Props.Pipeline
import Verif.Props.Places
import Verif.Props.Printed
import Verif.Props.PutTogether
import Verif.Props.ReadBack
import Verif.Props.Rearranged
import Verif.Props.Reassembly
import Verif.Props.Repeatable
import Verif.Props.Report
import Verif.Props.RoundTrip
import Verif.Props.SameFile
import Verif.Props.Split
import Verif.Props.Stalled
import Verif.Props.Streams
import Verif.Props.Success
import Verif.Props.Table
import Verif.Props.Text
import Verif.Props.TextAgain
import Verif.Props.TextCrashes
import Verif.Props.TextMeaning
import Verif.Props.TextStreams
import Verif.Props.Timing
import Verif.Props.Track
import Verif.Props.TrackEvents
import Verif.Props.Tracks
import Verif.Props.Transpose
import Verif.Props.Tsv
import Verif.Props.Unreadable
import Verif.Props.Utf8
import Verif.Props.Validate
import Verif.Props.Vlq
import Verif.Props.WhatCommandsDo
import Verif.Props.WideTsv
import Verif.Props.Written
import Verif.Spec.Apart
import Verif.Spec.Api
import Verif.Spec.ApiTypes
import Verif.Spec.Assembled
import Verif.Spec.Blameless
import Verif.Spec.CommandLine
import Verif.Spec.Commands
import Verif.Spec.Decoded
import Verif.Spec.Disassembly
import Verif.Spec.Display
import Verif.Spec.Documented
import Verif.Spec.Export
import Verif.Spec.Faithful
import Verif.Spec.File
import Verif.Spec.Help
import Verif.Spec.Json
import Verif.Spec.JsonCrashes
import Verif.Spec.JsonFile
import Verif.Spec.JsonText
import Verif.Spec.Keys
import Verif.Spec.Layout
import Verif.Spec.Legible
import Verif.Spec.LineGrammar
import Verif.Spec.Lines
import Verif.Spec.Manufacturers
import Verif.Spec.Naming
import Verif.Spec.Notes
import Verif.Spec.NotesJson
import Verif.Spec.NotesListing
import Verif.Spec.NotesPrint
import Verif.Spec.OneTrack
import Verif.Spec.Paths
import Verif.Spec.Pipeline
import Verif.Spec.ReadBack
import Verif.Spec.Rearranged
import Verif.Spec.Recoverable
import Verif.Spec.Report
import Verif.Spec.SameLines
import Verif.Spec.SimpleDocument
import Verif.Spec.Stalled
import Verif.Spec.Streams
import Verif.Spec.Success
import Verif.Spec.Table
import Verif.Spec.Text
import Verif.Spec.TextCrashes
import Verif.Spec.TextFile
import Verif.Spec.TextStreams
import Verif.Spec.Transpose
import Verif.Spec.Tsv
import Verif.Spec.Validate
import Verif.Spec.View
import Verif.Spec.Vlq
import Verif.Spec.WideTsv
import Verif.Spec.Wire
import Verif.Spec.Written
