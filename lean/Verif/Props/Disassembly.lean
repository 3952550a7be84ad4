import Verif.Spec.Disassembly
import Verif.Props.Export
import Verif.Props.Split

/-!
C145: the exact text of a disassembly.
-/

set_option linter.unusedSimpArgs false

namespace Midiasm
open Spec

/-! ### Columns -/

theorem pad_filled (w : Nat) (s : Bytes) (h : ∀ b ∈ s, b.toNat < 128) : pad w s = filled w s := by
  have hl : (runes s).length = s.length := by rw [runes_ascii s h, List.length_map]
  unfold pad filled
  rw [hl]
  split
  · rw [show w - s.length = 0 from by omega]; simp
  · rw [show ((w : Int) - (s.length : Int)).toNat = w - s.length from by omega]

theorem hexDisplay_ascii (bs : Bytes) : ∀ b ∈ hexDisplay bs, b.toNat < 128 := by
  intro b hb
  rw [← trimSpace_hex] at hb
  have h : ∀ c ∈ str "0123456789ABCDEF ", c.toNat < 128 := by decide +kernel
  exact h b (hexString_alphabet bs b hb)

theorem indented_ascii (k : Nat) (bs : Bytes) : ∀ b ∈ List.replicate k (32 : UInt8) ++ hexDisplay bs, b.toNat < 128 := by
  intro b hb
  rcases List.mem_append.1 hb with hb | hb
  · rw [List.eq_of_mem_replicate hb]; decide
  · exact hexDisplay_ascii bs b hb

theorem runes_length_ellipsis (s : Bytes) (h : ∀ b ∈ s, b.toNat < 128) : (runes (s ++ str "…")).length = s.length + 1 := by
  have e : s ++ str "…" = ofRunes (s.map UInt8.toNat ++ [0x2026]) := by
    have : ofRunes (s.map UInt8.toNat ++ [0x2026]) = ofRunes (s.map UInt8.toNat) ++ ofRunes [0x2026] := by simp [ofRunes]
    rw [this, ofRunes_ascii s h]
    rfl
  have hs : ∀ v ∈ s.map UInt8.toNat ++ [0x2026], Scalar v := by
    intro v hv
    rcases List.mem_append.1 hv with hv | hv
    · obtain ⟨b, hb, rfl⟩ := List.mem_map.1 hv
      have := h b hb
      exact Or.inl (by omega)
    · rw [List.mem_singleton.1 hv]
      exact Or.inl (by omega)
  rw [e, show ofRunes (s.map UInt8.toNat ++ [0x2026]) = ofRunes (s.map UInt8.toNat ++ [0x2026]) ++ [] by simp,
    runes_ofRunes_append _ hs]
  simp [runes_nil]

theorem bytesColumn_eq (room indent : Nat) (bs : Bytes) (h1 : 1 ≤ room) (h2 : room ≤ 42) :
    pad 42 (ellipsize (List.replicate indent 32 ++ hexDisplay bs) room) = bytesColumn room indent bs := by
  have ha := indented_ascii indent bs
  unfold bytesColumn
  generalize List.replicate indent (32 : UInt8) ++ hexDisplay bs = s at ha
  have hl : (runes s).length = s.length := by rw [runes_ascii s ha, List.length_map]
  unfold ellipsize
  rw [hl, if_neg (by omega)]
  by_cases hr : s.length ≤ room
  · rw [if_pos (by omega)]
    simp only [if_pos hr]
    rw [runes_ascii s ha, ofRunes_ascii s ha]
    exact pad_filled 42 s ha
  · rw [if_neg (by omega)]
    simp only [if_neg hr]
    have ht : ∀ b ∈ s.take (room - 1), b.toNat < 128 := fun b hb => ha b (List.mem_of_mem_take hb)
    rw [runes_ascii s ha, ← List.map_take, show ((room : Int)).toNat - 1 = room - 1 by omega, ofRunes_ascii _ ht]
    have hlen := runes_length_ellipsis _ ht
    rw [List.length_take, Nat.min_eq_left (by omega)] at hlen
    unfold pad
    rw [hlen]
    by_cases hw : room = 42
    · subst hw; simp
    · rw [if_neg (by omega), show ((42 : Int) - ((room - 1 + 1 : Nat) : Int)).toNat = 42 - room by omega]

/-! ### Events -/

theorem hex2_display (b : UInt8) : hex2 b = hexDisplay [b] :=
  all8 (P := fun b => hex2 b = hexDisplay [b]) (by decide +kernel) b

theorem filled_number (w n : Nat) : pad w (dec n) = filled w (str (toString n)) := by
  rw [pad_filled w _ (dec_ascii n), dec_eq_repr]

theorem tag_text (s u : String) (h : pad 22 (str s) ++ [32] = str u) (t : Bytes) : pad 22 (str s) ++ (32 :: t) = str u ++ t := by
  rw [← h]; simp

theorem channel_text (s : String) (h : ∀ b ∈ str s, b.toNat < 128) (ch : Nat) (t : Bytes) :
    pad 22 (str s) ++ (32 :: (str "channel:" ++ (pad 2 (str ch.repr) ++ (32 :: t)))) = channelShown s ch ++ t := by
  unfold channelShown
  rw [show str ch.repr = dec ch from (dec_eq_repr ch).symm, show (22 : Int) = ((22 : Nat) : Int) from rfl, pad_filled 22 _ h,
    show (2 : Int) = ((2 : Nat) : Int) from rfl, filled_number, show str " channel:" = 32 :: str "channel:" by decide +kernel,
    show str " " = [32] by decide +kernel]
  simp

theorem line_code (b : UInt8) {t u : Bytes} (h : t = u) : hex2 b ++ 32 :: t = hexString [b] ++ 32 :: u := by
  rw [h, hex2_display, trimSpace_hex]

theorem text_tag (k : TextKind) : pad 22 (str k.tag) ++ [32] = filled 23 (str k.tag) := by
  cases k <;> decide +kernel

theorem printBody_eq (b : Body) (hb : b.Made) :
    printBody b = hexDisplay [UInt8.ofNat ((metaTypeOf b.view).getD (statusByteOf b.view))] ++ str " " ++ fieldsShown b.names b.bank b.view := by
  have hcode : UInt8.ofNat ((metaTypeOf b.view).getD (statusByteOf b.view)) = if b.isMeta then b.metaType else b.status := by
    rw [metaTypeOf_view, statusByteOf_view b hb]
    cases b.isMeta <;> simp
  rw [hcode]
  have hblank : str " " = [32] := by decide +kernel
  have hnil : str "" = [] := rfl
  cases b <;> simp only [printBody, fieldsShown, Body.isMeta, if_true, if_false, Bool.false_eq_true, ← hex2_display, hblank, List.append_assoc,
    Body.names, Body.bank, Body.view, List.getD_cons_zero, List.getD_cons_succ, Option.getD_some, List.cons_append, List.nil_append,
    ← trimSpace_hex, dec_eq_repr, toString, str_append, hnil, List.append_nil]
  all_goals refine line_code _ ?_
  case text k s =>
    have e := tagOf_view (Body.text k s)
    simp only [Body.view] at e
    rw [e]
    have := congrArg (· ++ s) (text_tag k)
    simp only [List.append_assoc] at this
    exact this
  case endOfTrack => rfl
  case tempo t =>
    have e := tag_text "Tempo" "Tempo                  " (by decide +kernel) (str "tempo:" ++ str t.toNat.repr)
    rw [← List.append_assoc (str "Tempo                  "), show str "Tempo                  " ++ str "tempo:" = str "Tempo                  tempo:"
      by decide +kernel] at e
    exact e
  case sequenceNumber => exact tag_text "SequenceNumber" "SequenceNumber         " (by decide +kernel) _
  case midiChannelPrefix => exact tag_text "MIDIChannelPrefix" "MIDIChannelPrefix      " (by decide +kernel) _
  case midiPort => exact tag_text "MIDIPort" "MIDIPort               " (by decide +kernel) _
  case keySignature => exact tag_text "KeySignature" "KeySignature           " (by decide +kernel) _
  case sequencerSpecific => exact tag_text "SequencerSpecificEvent" "SequencerSpecificEvent " (by decide +kernel) _
  case sysExMessage => exact tag_text "SysExMessage" "SysExMessage           " (by decide +kernel) _
  case sysExContinuation => exact tag_text "SysExContinuation" "SysExContinuation      " (by decide +kernel) _
  case sysExEscape => exact tag_text "SysExEscape" "SysExEscape            " (by decide +kernel) _
  case smpteOffset => exact tag_text "SMPTEOffset" "SMPTEOffset            " (by decide +kernel) _
  case timeSignature => exact tag_text "TimeSignature" "TimeSignature          " (by decide +kernel) _
  case noteOff => exact channel_text "NoteOff" (by decide +kernel) _ _
  case noteOn => exact channel_text "NoteOn" (by decide +kernel) _ _
  case polyphonicPressure => exact channel_text "PolyphonicPressure" (by decide +kernel) _ _
  case controller => exact channel_text "Controller" (by decide +kernel) _ _
  case programChange => exact channel_text "ProgramChange" (by decide +kernel) _ _
  case channelPressure => exact channel_text "ChannelPressure" (by decide +kernel) _ _
  case pitchBend => exact channel_text "PitchBend" (by decide +kernel) _ _

/-- The bytes up to the first one below 128. -/
theorem takeWhile_high {pre post : Bytes} {b : UInt8} (h1 : ∀ x ∈ pre, 128 ≤ x.toNat) (h2 : b.toNat < 128) :
    deltaBytes (pre ++ b :: post) = pre.length + 1 := by
  unfold deltaBytes
  congr 1
  induction pre with
  | nil =>
    rw [List.nil_append, List.takeWhile_cons]
    rw [if_neg (by simp only [decide_eq_true_eq]; omega)]
  | cons a pre ih =>
    rw [List.cons_append, List.takeWhile_cons, if_pos (by simpa using h1 a (by simp)), List.length_cons, List.length_cons,
      ih fun x hx => h1 x (by simp [hx])]

theorem printEvent_row (e : Event) (he : e.body.Made) (pre post : Bytes) (b : UInt8) (hb : e.bytes = pre ++ b :: post)
    (h1 : ∀ x ∈ pre, 128 ≤ x.toNat) (h2 : b.toNat < 128) : printEvent e = .ok (eventRow e.entry) := by
  have hv := (C74_valign e.bytes 3).1 pre b post hb h1 h2
  unfold printEvent printHex eventRow
  rw [hv, printBody_eq e.body he]
  simp only [Outcome.bind_ok, Event.entry]
  rw [hb, takeWhile_high h1 h2,
    show (9 : Int) = ((9 : Nat) : Int) from rfl, filled_number, filled_number]
  have hcol : pad 42 (ellipsize (List.replicate (3 * (3 - (pre.length + 1))) 32 ++ hexDisplay (pre ++ b :: post)) 42) = _ :=
    bytesColumn_eq 42 (3 * (3 - (pre.length + 1))) (pre ++ b :: post) (by omega) (by omega)
  rw [hcol]
  simp only [List.append_assoc]

theorem printEvents_rows (es : List Event) (h : ∀ e ∈ es, printEvent e = .ok (eventRow e.entry)) :
    printEvents es = .ok (lineTexts (es.map fun e => eventRow e.entry)) := by
  induction es with
  | nil => rfl
  | cons e es ih =>
    rw [printEvents, h e (by simp), Outcome.bind_ok, ih fun e he => h e (by simp [he]), Outcome.bind_ok]
    simp [lineTexts]

theorem lineTexts_append (a b : List Bytes) : lineTexts (a ++ b) = lineTexts a ++ lineTexts b := by simp [lineTexts]

theorem printMTrk_rows (t : MTrk) (ht : t.tag = tagMTrk) (h : ∀ e ∈ t.events, printEvent e = .ok (eventRow e.entry)) :
    printMTrk t = .ok (lineTexts (trackRows t.entry)) := by
  unfold printMTrk
  rw [printEvents_rows t.events h, Outcome.bind_ok, ht, trimSpace_hex]
  have hcol : pad 42 (ellipsize (hexDisplay t.bytes) 24) = _ := bytesColumn_eq 24 0 t.bytes (by omega) (by omega)
  rw [hcol, show (2 : Int) = ((2 : Nat) : Int) from rfl, filled_number, dec_eq_repr]
  have e1 : str "  MTrk " = str "  " ++ tagMTrk ++ [32] := by decide +kernel
  have e2 : str s!" length:{t.length.toNat}" = str " length:" ++ str (toString t.length.toNat) := by
    rw [← str_append]; simp [toString]
  simp only [trackRows, MTrk.entry, lineTexts, List.flatMap_cons, List.map_map, Function.comp_def, e1, e2]
  simp

theorem printTracks_rows (ts : List MTrk) (ht : ∀ t ∈ ts, printMTrk t = .ok (lineTexts (trackRows t.entry))) :
    printTracks ts = .ok (lineTexts ((ts.map MTrk.entry).flatMap trackRows)) := by
  induction ts with
  | nil => rfl
  | cons t ts ih =>
    rw [printTracks, ht t (by simp), Outcome.bind_ok, ih fun t h => ht t (by simp [h]), Outcome.bind_ok, List.map_cons, List.flatMap_cons,
      lineTexts_append]

theorem printMThd_row (m : MThd) (h : Header) (hs : m.Shows h) (hb : m.bytes = h.chunk.bytes) : printMThd m = headerRow h ++ [10] := by
  obtain ⟨s1, s2, s3, s4, s5, s6, s7⟩ := hs
  have hcol : pad 42 (ellipsize (hexDisplay h.chunk.bytes) 42) = _ := bytesColumn_eq 42 0 h.chunk.bytes (by omega) (by omega)
  have hlen : m.length.toNat = 6 := by rw [s2]; rfl
  unfold printMThd headerRow
  rw [hb, trimSpace_hex, hcol, s1, hlen, s3, s4]
  have e1 : str s!"  MThd length:6, format:{h.format}, tracks:{h.tracks}, " =
      str "  " ++ tagMThd ++ str " length:" ++ dec 6 ++ str ", format:" ++ str (toString h.format) ++ str ", tracks:" ++ str (toString h.tracks) ++
        str ", " := by
    rw [show str "  " ++ tagMThd ++ str " length:" ++ dec 6 ++ str ", format:" = str "  MThd length:6, format:" by decide +kernel]
    simp only [← str_append]
    rfl
  rw [e1]
  by_cases hd : h.division < 32768
  · obtain ⟨p1, p2, p3, p4, p5⟩ := s6 hd
    have e2 : str s!"metrical time:{h.division} ppqn" = str "metrical time:" ++ str (toString h.division) ++ str " ppqn" := by
      simp only [← str_append]; rfl
    rw [if_pos hd, p2, p1, e2]
    simp only [dec_eq_repr, Bool.false_eq_true, if_false, List.append_assoc]
  · obtain ⟨p1, p2, p3, p4⟩ := s7 (by omega)
    have e2 : str s!"SMPTE:{((frameRate (h.division / 256)).getD (0, false)).1} fps,{h.division % 256} sub-frames" =
        str "SMPTE:" ++ str (toString m.fps.toNat) ++ str " fps," ++ str (toString m.subFrames.toNat) ++ str " sub-frames" := by
      rw [p3, p4]
      simp only [← str_append]; rfl
    rw [if_neg hd, p2, e2]
    simp only [dec_eq_repr, if_true, List.append_assoc]

theorem decoded_rows {mc : MiddleC} {spare bytes : Bytes} {smf : SMF} (hd : decode mc spare bytes = .ok smf) (t : MTrk) (ht : t ∈ smf.tracks) :
    printMTrk t = .ok (lineTexts (trackRows t.entry)) := by
  obtain ⟨i, ch, hwf, htag, _, hu⟩ := decode_track hd ht
  refine printMTrk_rows t ((unmarshalMTrk_ok mc spare i ch hwf htag t).1 hu).2.1 fun e he => ?_
  obtain ⟨db, eb, hb, hq, _⟩ := (C09_event_bytes_cover_track mc spare i ch hwf htag t hu).2 e he
  obtain ⟨⟨init, last, h1, h2, h3⟩, _⟩ := hq
  exact printEvent_row e (decoded_made hd t ht e he) init eb last (by rw [hb, h1]; simp) h2 h3

theorem disassembled_text {mc : MiddleC} {spare bytes : Bytes} {smf : SMF} (hd : decode mc spare bytes = .ok smf) (h : Header)
    (ts : List TrackEntry) (hs : smf.ShowsFile h ts) : printSMF smf = .ok (disassembled h ts) := by
  obtain ⟨⟨m, h1, h2, h3⟩, rfl⟩ := hs
  unfold printSMF
  rw [h1]
  simp only [printTracks_rows smf.tracks fun t ht => decoded_rows hd t ht, Outcome.bind_ok, printMThd_row m h h2 h3]
  simp [disassembled, lineTexts]

/-- **C145.** The exact text of a disassembly: for every sequence of bytes that stands for a file, one line for the header and for each track
and event, column by column. -/
theorem C145_disassembly_text (mc : MiddleC) (spare bytes : Bytes) (h : Header) (ts : List TrackEntry)
    (hf : FileSays (octaveOffset mc) bytes h ts) : ∃ smf, decode mc spare bytes = .ok smf ∧ printSMF smf = .ok (disassembled h ts) := by
  obtain ⟨smf, hd, hs⟩ := (C143_decoding mc spare bytes h ts).2 hf
  exact ⟨smf, hd, disassembled_text hd h ts hs⟩

theorem not_trackless {mc : MiddleC} {bytes : Bytes} {h : Header} {ts : List TrackEntry} {smf : SMF} (hf : FileSays (octaveOffset mc) bytes h ts)
    (hs : smf.ShowsFile h ts) (ht : ¬ (h.format = 1 ∧ h.tracks = 0)) : ¬ Trackless1 smf := by
  rintro ⟨m, m1, m2, m3⟩
  obtain ⟨⟨m', n1, n2, _⟩, n3⟩ := hs
  rw [m1] at n1
  injection n1 with n1
  subst n1
  obtain ⟨_, _, _, _, _, _, hlen, _⟩ := hf
  refine ht ⟨by rw [← n2.2.2.1]; exact m2, ?_⟩
  rw [← hlen, ← n3, m3]
  rfl

/-- **C145.** The command `disassemble`: what it prints, or writes to the file named. -/
theorem C145_disassemble_command (w : World) (args argv : List Bytes) (s : List (Bytes × FlagValue)) (r : List Bytes)
    (hi : Invokes .disassemble args argv) (hl : CommandLine (options .disassemble) args s r) (hr : r.headD [] ≠ []) (bytes : Bytes)
    (hb : w.read (r.headD []) = some bytes) (mc : MiddleC) (hmc : Naming s mc) (h : Header) (ts : List TrackEntry)
    (hf : FileSays (octaveOffset mc) bytes h ts) (ht : ¬ (h.format = 1 ∧ h.tracks = 0)) (hp : NoText s "templates")
    (hs : ¬ Given s "split" (.bool true)) : Delivers w s (disassembled h ts) (midiasm w argv) := by
  obtain ⟨smf, hd, hsh⟩ := (C143_decoding mc w.spare bytes h ts).2 hf
  obtain ⟨text, h1, h2⟩ := C116_disassemble w args argv s r hi hl smf ⟨hr, bytes, mc, hb, hmc, hd⟩ (not_trackless hf hsh ht) hp hs
  rw [disassembled_text hd h ts hsh] at h1
  injection h1 with h1
  rw [h1]
  exact h2

theorem split_name (i : Nat) : str s!"-{i}.MTrk" = str "-" ++ (dec i ++ str ".MTrk") := by
  rw [str_append, str_append, dec_eq_repr, List.append_assoc]
  rfl

theorem split_tracks (f : Bytes → Bytes) (ts : List MTrk) :
    (ts.map fun t => lineTexts (trackRows t.entry)).mapIdx (fun i t => (f (str "-" ++ (dec i ++ str ".MTrk")), t)) =
      (ts.map MTrk.entry).mapIdx (fun i t => (f (str s!"-{i}.MTrk"), lineTexts (trackRows t))) := by
  apply List.ext_getElem?
  intro i
  rw [List.getElem?_mapIdx, List.getElem?_mapIdx, List.getElem?_map, List.getElem?_map, split_name]
  cases ts[i]? <;> rfl

/-- **C145.** A split disassembly: the line of the header and the lines of each track, in files of their own.  (Every file can be created, and the
directory exists already.) -/
theorem C145_split_command (w : World) (args argv : List Bytes) (s : List (Bytes × FlagValue)) (r : List Bytes)
    (hi : Invokes .disassemble args argv) (hl : CommandLine (options .disassemble) args s r) (hr : r.headD [] ≠ []) (bytes : Bytes)
    (hby : w.read (r.headD []) = some bytes) (mc : MiddleC) (hmc : Naming s mc) (h : Header) (ts : List TrackEntry)
    (hf : FileSays (octaveOffset mc) bytes h ts) (ht : ¬ (h.format = 1 ∧ h.tracks = 0)) (hp : NoText s "templates")
    (hs : Given s "split" (.bool true)) (dir x base : Bytes) (hdir : SplitDirectory s (r.headD []) dir) (hx : NamedAfter s (r.headD []) x)
    (hb : Stem x base) (hc : ∀ name, w.create name = true) (hm : w.mkdirAll dir = true)
    (hex : NoText s "out" ∨ w.isDir dir = true ∨ w.superuser = true) :
    midiasm w argv = ⟨(joinPath dir (base ++ str ".MThd"), lineTexts [headerRow h]) ::
      ts.mapIdx (fun i t => (joinPath dir (base ++ str s!"-{i}.MTrk"), lineTexts (trackRows t))), [], .success⟩ := by
  obtain ⟨smf, hd, hsh⟩ := (C143_decoding mc w.spare bytes h ts).2 hf
  obtain ⟨m, h1, h2⟩ := split_files w args argv s r hi hl smf ⟨hr, bytes, mc, hby, hmc, hd⟩ (not_trackless hf hsh ht) hp hs dir x base hdir hx hb hc hm
    hex
  obtain ⟨⟨m', n1, n2, n3⟩, n4⟩ := hsh
  have hm' : m' = m := Option.some.inj (n1.symm.trans h1)
  rw [hm'] at n2 n3
  have hhead : printMThd m = lineTexts [headerRow h] := by rw [printMThd_row m h n2 n3]; simp [lineTexts]
  have htracks : (smf.tracks.map fun t => (builtin.track t).1) = smf.tracks.map fun t => lineTexts (trackRows t.entry) := by
    apply List.map_congr_left
    intro t hmem
    simp only [builtin, decoded_rows hd t hmem]
  have hidx := split_tracks (fun n => joinPath dir (base ++ n)) smf.tracks
  beta_reduce at hidx
  rw [h2, hhead, htracks, hidx, n4]

/-! ### Examples -/

/-- The line of a note with a delta time of one byte. -/
example : eventRow ⟨96, 96, [96, 0x93, 61, 64], .noteOn 3 61 64, ["D♭4", "D♭4"], none⟩ =
    str "      60 93 3D 40                           tick:96         delta:96         93 NoteOn                 channel:3  note:D♭4, velocity:64" := by
  decide +kernel

/-- The line of a long text: the bytes are cut off. -/
example : eventRow ⟨0, 0, [0, 0xff, 1, 12, 97, 98, 99, 100, 101, 102, 103, 104, 105, 106, 107, 108],
      .text 1 [97, 98, 99, 100, 101, 102, 103, 104, 105, 106, 107, 108], [], none⟩ =
    str "      00 FF 01 0C 61 62 63 64 65 66 67 68…  tick:0          delta:0          01 Text                   abcdefghijkl" := by
  decide +kernel

/-- The text of a file with a program change and a track that is cut off. -/
def sampleRows : List String := [
  "4D 54 68 64 00 00 00 06 00 00 00 01 00 60   MThd length:6, format:0, tracks:1, metrical time:96 ppqn",
  "",
  "4D 54 72 6B 00 00 00 0B…                    MTrk 0  length:11",
  "      00 B3 20 05                           tick:0          delta:0          B3 Controller             channel:3  32/Bank Select (LSB), value:5",
  "   81 00 C3 09                              tick:128        delta:128        C3 ProgramChange          channel:3  bank:5, program:9"]

example : ∃ h ts, FileSays 1 (oneTrack [0, 0xb3, 32, 5, 0x81, 0, 0xc3, 9, 0, 0xff, 0x2f]) h ts ∧ disassembled h ts = lineTexts (sampleRows.map str) := by
  obtain ⟨smf, h1, h2⟩ := Outcome.of_test (o := decode .c3 [] (oneTrack [0, 0xb3, 32, 5, 0x81, 0, 0xc3, 9, 0, 0xff, 0x2f]))
    (p := fun smf => decide (printSMF smf = .ok (lineTexts (sampleRows.map str)))) (by decide +kernel)
  obtain ⟨h, ts, f1, f2⟩ := C143_total .c3 [] _ smf h1
  refine ⟨h, ts, f1, ?_⟩
  have h3 := of_decide_eq_true h2
  rw [disassembled_text h1 h ts f2] at h3
  injection h3

end Midiasm
