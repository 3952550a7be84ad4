import Verif.Model.Go

/-!
Manufacturer and controller tables (midi/lib/manufacturer.go, midi/lib/controller.go).
-/

namespace Midiasm.Lib

/-- `Manufacturer` (midi/lib/manufacturer.go:11-15). -/
structure Manufacturer where
  id : Bytes
  region : String
  name : String
  deriving DecidableEq, Repr

/-- `manufacturers` (midi/lib/manufacturer.go:152-241): the Go map as an association list in source order. -/
def manufacturers : List (String × Manufacturer) := [
  ("7D", ⟨[0x7d], "Special Purpose", "Non-Commercial"⟩),
  ("7E", ⟨[0x7e], "Special Purpose", "Non-RealTime Extensions"⟩),
  ("7F", ⟨[0x7e], "Special Purpose", "RealTime Extensions"⟩),
  ("01", ⟨[0x01], "American", "Sequential Circuits"⟩),
  ("04", ⟨[0x04], "American", "Moog"⟩),
  ("05", ⟨[0x05], "American", "Passport Designs"⟩),
  ("06", ⟨[0x06], "American", "Lexicon"⟩),
  ("07", ⟨[0x07], "American", "Kurzweil"⟩),
  ("08", ⟨[0x08], "American", "Fender"⟩),
  ("0A", ⟨[0x0a], "American", "AKG Acoustics"⟩),
  ("0F", ⟨[0x0f], "American", "Ensoniq"⟩),
  ("10", ⟨[0x10], "American", "Oberheim"⟩),
  ("11", ⟨[0x11], "American", "Apple"⟩),
  ("13", ⟨[0x13], "American", "Digidesign"⟩),
  ("18", ⟨[0x18], "American", "Emu"⟩),
  ("1A", ⟨[0x1a], "American", "ART"⟩),
  ("1C", ⟨[0x1c], "American", "Eventide"⟩),
  ("22", ⟨[0x22], "European", "Synthaxe"⟩),
  ("24", ⟨[0x24], "European", "Hohner"⟩),
  ("29", ⟨[0x29], "European", "PPG"⟩),
  ("2B", ⟨[0x2b], "European", "SSL"⟩),
  ("2D", ⟨[0x2d], "European", "Hinton Instruments"⟩),
  ("2F", ⟨[0x2f], "European", "Elka / General Music"⟩),
  ("30", ⟨[0x30], "European", "Dynacord"⟩),
  ("33", ⟨[0x33], "European", "Clavia (Nord)"⟩),
  ("36", ⟨[0x36], "European", "Cheetah"⟩),
  ("3E", ⟨[0x3e], "European", "Waldorf Electronics Gmbh"⟩),
  ("40", ⟨[0x40], "Japanese", "Kawai"⟩),
  ("41", ⟨[0x41], "Japanese", "Roland"⟩),
  ("42", ⟨[0x42], "Japanese", "Korg"⟩),
  ("43", ⟨[0x43], "Japanese", "Yamaha"⟩),
  ("44", ⟨[0x44], "Japanese", "Casio"⟩),
  ("47", ⟨[0x47], "Japanese", "Akai"⟩),
  ("48", ⟨[0x48], "Japanese", "Japan Victor (JVC)"⟩),
  ("4C", ⟨[0x4c], "Japanese", "Sony"⟩),
  ("4E", ⟨[0x4e], "Japanese", "Teac Corporation"⟩),
  ("51", ⟨[0x51], "Japanese", "Fostex"⟩),
  ("52", ⟨[0x52], "Japanese", "Zoom"⟩),
  ("0007", ⟨[0x00, 0x00, 0x07], "American", "Digital Music Corporation"⟩),
  ("0009", ⟨[0x00, 0x00, 0x09], "American", "New England Digital"⟩),
  ("000E", ⟨[0x00, 0x00, 0x0e], "American", "Alesis"⟩),
  ("0015", ⟨[0x00, 0x00, 0x15], "American", "KAT"⟩),
  ("0016", ⟨[0x00, 0x00, 0x16], "American", "Opcode"⟩),
  ("001A", ⟨[0x00, 0x00, 0x1a], "American", "Allen & Heath Brenell"⟩),
  ("001B", ⟨[0x00, 0x00, 0x1b], "American", "Peavey Electronics"⟩),
  ("001C", ⟨[0x00, 0x00, 0x1c], "American", "360 Systems"⟩),
  ("001F", ⟨[0x00, 0x00, 0x1f], "American", "Zeta Systems"⟩),
  ("0020", ⟨[0x00, 0x00, 0x20], "American", "Axxes"⟩),
  ("003B", ⟨[0x00, 0x00, 0x3b], "American", "Mark Of The Unicorn (MOTU)"⟩),
  ("004D", ⟨[0x00, 0x00, 0x4d], "American", "Studio Electronics"⟩),
  ("0050", ⟨[0x00, 0x00, 0x50], "American", "MIDI Solutions Inc"⟩),
  ("0137", ⟨[0x00, 0x01, 0x37], "American", "Roger Linn Design"⟩),
  ("0172", ⟨[0x00, 0x01, 0x72], "American", "Kilpatrick Audio"⟩),
  ("0173", ⟨[0x00, 0x01, 0x73], "American", "iConnectivity"⟩),
  ("0214", ⟨[0x00, 0x02, 0x14], "American", "Intellijel Designs Inc"⟩),
  ("2011", ⟨[0x00, 0x20, 0x11], "European", "Forefront Technology"⟩),
  ("2013", ⟨[0x00, 0x20, 0x13], "European", "Kenton Electronics"⟩),
  ("201F", ⟨[0x00, 0x20, 0x1f], "European", "TC Electronic"⟩),
  ("2020", ⟨[0x00, 0x20, 0x20], "European", "Doepfer"⟩),
  ("2027", ⟨[0x00, 0x20, 0x27], "European", "Acorn Computer"⟩),
  ("2029", ⟨[0x00, 0x20, 0x29], "European", "Focusrite / Novation"⟩),
  ("2032", ⟨[0x00, 0x20, 0x32], "European", "Behringer"⟩),
  ("2033", ⟨[0x00, 0x20, 0x33], "European", "Access Music Electronics"⟩),
  ("203C", ⟨[0x00, 0x20, 0x3c], "European", "Elektron"⟩),
  ("204D", ⟨[0x00, 0x20, 0x4d], "European", "Vermona"⟩),
  ("2052", ⟨[0x00, 0x20, 0x52], "European", "Analogue Systems"⟩),
  ("2069", ⟨[0x00, 0x20, 0x69], "European", "Elby Designs"⟩),
  ("206B", ⟨[0x00, 0x20, 0x6b], "European", "Arturia"⟩),
  ("2076", ⟨[0x00, 0x20, 0x76], "European", "Teenage Engineering"⟩),
  ("2102", ⟨[0x00, 0x21, 0x02], "European", "Mutable Instruments"⟩),
  ("2109", ⟨[0x00, 0x21, 0x09], "European", "Native Instruments"⟩),
  ("2110", ⟨[0x00, 0x21, 0x10], "European", "ROLI Ltd"⟩),
  ("211A", ⟨[0x00, 0x21, 0x1a], "European", "IK Multimedia"⟩),
  ("211C", ⟨[0x00, 0x21, 0x1c], "European", "Modor Music"⟩),
  ("211D", ⟨[0x00, 0x21, 0x1d], "European", "Ableton"⟩),
  ("2127", ⟨[0x00, 0x21, 0x27], "European", "Expert Sleepers"⟩)
]

/-- A hexadecimal digit as printed by `%X`. -/
def hexDigit (n : UInt8) : Char :=
  if n < 10 then Char.ofNat (48 + n.toNat) else Char.ofNat (55 + n.toNat)

/-- `fmt.Sprintf("%02X", b)`. -/
def hex2 (b : UInt8) : String := String.ofList [hexDigit (b / 16), hexDigit (b % 16)]

/-- Map lookup: the value of the first entry with that key (keys of a Go map are unique). -/
def lookupKey (table : List (String × Manufacturer)) (k : String) : Option Manufacturer :=
  (table.find? (fun e => e.1 == k)).map (·.2)

/-- `LookupManufacturer` (midi/lib/manufacturer.go:61-83) in a given table. -/
def lookupManufacturerIn (table : List (String × Manufacturer)) (id : Bytes) : Manufacturer :=
  match id with
  | [a] => (lookupKey table (hex2 a)).getD ⟨id, "<unknown>", "<unknown>"⟩
  | [_, b, c] => (lookupKey table (hex2 b ++ hex2 c)).getD ⟨id, "<unknown>", "<unknown>"⟩
  | _ => ⟨id, "<unknown>", "<unknown>"⟩

/-- `LookupManufacturer` with the built-in table. -/
def lookupManufacturer (id : Bytes) : Manufacturer := lookupManufacturerIn manufacturers id

/-- `Controller` (midi/lib/controller.go:3-6). -/
structure Controller where
  id : UInt8
  name : String
  deriving DecidableEq, Repr

/-- `controllers` (midi/lib/controller.go:18-103). -/
def controllers : List (UInt8 × Controller) := [
  (0, ⟨0, "Bank Select (MSB)"⟩),
  (1, ⟨1, "Modulation Wheel (MSB)"⟩),
  (2, ⟨2, "Breath Controller (MSB)"⟩),
  (4, ⟨4, "Foot Controller (MSB)"⟩),
  (5, ⟨5, "Portamento Time (MSB)"⟩),
  (6, ⟨6, "Data Entry (MSB)"⟩),
  (7, ⟨7, "Channel Volume (MSB)"⟩),
  (8, ⟨8, "Balance (MSB)"⟩),
  (10, ⟨10, "Pan (MSB)"⟩),
  (11, ⟨11, "Expression Controller (MSB)"⟩),
  (12, ⟨12, "Effect Control 1 (MSB)"⟩),
  (13, ⟨13, "Effect Control 2 (MSB)"⟩),
  (16, ⟨16, "General Purpose Controller 1 (MSB)"⟩),
  (17, ⟨17, "General Purpose Controller 2 (MSB)"⟩),
  (18, ⟨18, "General Purpose Controller 3 (MSB)"⟩),
  (19, ⟨19, "General Purpose Controller 4 (MSB)"⟩),
  (32, ⟨32, "Bank Select (LSB)"⟩),
  (33, ⟨33, "Modulation Wheel (LSB)"⟩),
  (34, ⟨34, "Breath Controller (LSB)"⟩),
  (36, ⟨36, "Foot Controller (LSB)"⟩),
  (37, ⟨37, "Portamento Time (LSB)"⟩),
  (38, ⟨38, "Data Entry (LSB)"⟩),
  (39, ⟨39, "Channel Volume (LSB)"⟩),
  (40, ⟨40, "Balance (LSB)"⟩),
  (42, ⟨42, "Pan (LSB)"⟩),
  (43, ⟨43, "Expression Controller (LSB)"⟩),
  (44, ⟨44, "Effect Control 1 (LSB)"⟩),
  (45, ⟨45, "Effect Control 2 (LSB)"⟩),
  (48, ⟨48, "General Purpose Controller 1 (LSB)"⟩),
  (49, ⟨49, "General Purpose Controller 2 (LSB)"⟩),
  (50, ⟨50, "General Purpose Controller 3 (LSB)"⟩),
  (51, ⟨51, "General Purpose Controller 4 (LSB)"⟩),
  (64, ⟨64, "Sustain On/Off"⟩),
  (65, ⟨65, "Portamento On/Off"⟩),
  (66, ⟨66, "Sostenuto On/Off"⟩),
  (67, ⟨67, "Soft Pedal On/Off"⟩),
  (68, ⟨68, "Legato On/Off"⟩),
  (69, ⟨69, "Hold 2 On/Off"⟩),
  (70, ⟨70, "Sound Controller 1  (TG: Sound Variation;  FX: Exciter On/Off)"⟩),
  (71, ⟨71, "Sound Controller 2  (TG: Harmonic Content; FX: Compressor On/Off)"⟩),
  (72, ⟨72, "Sound Controller 3  (TG: Release Time;     FX: Distortion On/Off)"⟩),
  (73, ⟨73, "Sound Controller 4  (TG: Attack Time;      FX: EQ On/Off)"⟩),
  (74, ⟨74, "Sound Controller 5  (TG: Brightness;       FX: Expander On/Off)"⟩),
  (75, ⟨75, "Sound Controller 6  (TG: Decay Time;       FX: Reverb On/Off)"⟩),
  (76, ⟨76, "Sound Controller 7  (TG: Vibrato Rate;     FX: Delay On/Off)"⟩),
  (77, ⟨77, "Sound Controller 8  (TG: Vibrato Depth;    FX: Pitch Transpose On/Off)"⟩),
  (78, ⟨78, "Sound Controller 9  (TG: Vibrato Delay;    FX: Flange/Chorus On/Off)"⟩),
  (79, ⟨79, "Sound Controller 10 (TG: Undefined;        FX: Special Effects On/Off)"⟩),
  (80, ⟨80, "General Purpose Controller 5"⟩),
  (81, ⟨81, "General Purpose Controller 6"⟩),
  (82, ⟨82, "General Purpose Controller 7"⟩),
  (83, ⟨83, "General Purpose Controller 8"⟩),
  (84, ⟨84, "Portamento Control"⟩),
  (88, ⟨88, "High Resolution Velocity Prefix"⟩),
  (91, ⟨91, "Effects 1 Depth (Reverb Send Level)"⟩),
  (92, ⟨92, "Effects 2 Depth (Tremelo Depth)"⟩),
  (93, ⟨93, "Effects 3 Depth (Chorus Send Level)"⟩),
  (94, ⟨94, "Effects 4 Depth (Celeste Depth)"⟩),
  (95, ⟨95, "Effects 5 Depth (Phaser Depth)"⟩),
  (96, ⟨96, "Data Increment"⟩),
  (97, ⟨97, "Data Decrement"⟩),
  (98, ⟨98, "Non-Registered Parameter Number (LSB)"⟩),
  (99, ⟨99, "Non-Registered Parameter Number (MSB)"⟩),
  (100, ⟨100, "Registered Parameter Number (LSB)"⟩),
  (101, ⟨101, "Registered Parameter Number (MSB)"⟩),
  (120, ⟨120, "All Sound Off"⟩),
  (121, ⟨121, "Reset All Controllers"⟩),
  (122, ⟨122, "Local Control On/Off"⟩),
  (123, ⟨123, "All Notes Off"⟩),
  (124, ⟨124, "Omni Mode Off"⟩),
  (125, ⟨125, "Omni Mode On "⟩),
  (126, ⟨126, "Mono Mode On"⟩),
  (127, ⟨127, "Poly Mode On"⟩)
]

/-- `LookupController` (midi/lib/controller.go:8-16). -/
def lookupController (id : UInt8) : Controller :=
  match controllers.find? (fun e => e.1 == id) with
  | some e => e.2
  | none => ⟨id, "<unknown>"⟩

end Midiasm.Lib
