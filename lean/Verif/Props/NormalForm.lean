import Verif.Lemmas.WrittenSize
import Verif.Props.Written
import Verif.Props.Commands
import Verif.Props.Printed

/-!
C150: files that midiasm has written are read and written again without change, and transpositions of files add up.
-/

set_option linter.unusedSimpArgs false

namespace Midiasm
open Spec

/-- The events of a track that are not damaged by being written (C28). -/
def Lasting (t : TrackEntry) : Prop := ∀ e ∈ t.events, Rewritable e.content ∧ e.delta < 2 ^ 28

theorem lasting_events {smf : SMF} {h : Header} {ts : List TrackEntry} (hs : smf.ShowsFile h ts) (hl : ∀ t ∈ ts, Lasting t) :
    ∀ t ∈ smf.tracks, ∀ e ∈ t.events, Rewritable e.body.view ∧ e.delta.toNat < 2 ^ 28 := by
  intro t ht e he
  have h1 : t.entry ∈ ts := by rw [← hs.2]; exact List.mem_map.2 ⟨t, ht, rfl⟩
  exact hl _ h1 e.entry (List.mem_map.2 ⟨e, he, rfl⟩)

theorem fields_of_events {smf smf' : SMF} (f : Content → Content) (h : smf'.events = smf.events.map (fun t => t.map (fun e => (e.1, f e.2)))) :
    smf'.fields = smf.fields.map (fun t => t.map fun e => (e.1, f e.2)) := by
  have key : ∀ s : SMF, s.fields = s.events.map fun t => t.map fun e => (e.1.toNat, e.2) := by
    intro s
    simp [SMF.fields, SMF.events, Function.comp_def]
  rw [key, key, h]
  simp [Function.comp_def]

theorem contentsOf_map (f : Content → Content) (ts : List TrackEntry) :
    contentsOf f ts = (contentsOf id ts).map (fun t => t.map fun e => (e.1, f e.2)) := by
  simp [contentsOf, Function.comp_def]

theorem shows_same {m m' : MThd} {h : Header} (hs : m.Shows h) (h' : m'.SameAs m) : m'.Shows h := by
  obtain ⟨a1, a2, a3, a4, a5, a6, a7, a8, a9, a10⟩ := h'
  unfold MThd.Shows at *
  rw [a1, a2, a3, a4, a5, a6, a7, a8, a9, a10]
  exact hs

theorem short_written {offset : Int} {bytes : Bytes} {h : Header} {ts : List TrackEntry} (hf : FileSays offset bytes h ts) (hlen : bytes.length < 2 ^ 28)
    {f : Content → Content} (hp : ∀ c, payload (f c) = payload c) : (writtenFile h (contentsOf f ts)).length < 2 ^ 32 := by
  have := writtenFile_le f hp offset bytes h ts hf
  omega

/-- C150: the file written by a transposition stands for the same header and the moved events. -/
theorem C150_reread (mc mc' : MiddleC) (bytes : Bytes) (h : Header) (ts : List TrackEntry) (hf : FileSays (octaveOffset mc) bytes h ts)
    (hlen : bytes.length < 2 ^ 28) (hl : ∀ t ∈ ts, Lasting t) (n : Int) (hn : Fits n) :
    ∃ ts', FileSays (octaveOffset mc') (writtenFile h (contentsOf (moved n) ts)) h ts' ∧ contentsOf id ts' = contentsOf (moved n) ts := by
  obtain ⟨smf, hd, hs⟩ := (C143_decoding mc [] bytes h ts).2 hf
  obtain ⟨smf0, hd0, hb⟩ := C146_transposed mc mc [] bytes h ts hf n hn
  rw [hd] at hd0
  injection hd0 with hd0
  subst hd0
  obtain ⟨bs, h1, h2⟩ := C69_transposed_file_partial mc [] bytes smf hd hlen (lasting_events hs hl) n hn
  rw [hb] at h1
  injection h1 with h1
  subst h1
  obtain ⟨smf', m, m', g1, g2, g3, g4, g5⟩ := h2 (short_written hf hlen (payload_moved n)) mc' []
  obtain ⟨h', ts', k1, k2⟩ := C143_total mc' [] _ smf' g1
  have e1 : h' = h := by
    obtain ⟨⟨x, x1, x2, _⟩, _⟩ := k2
    obtain ⟨⟨y, y1, y2, _⟩, _⟩ := hs
    have ex : x = m' := Option.some.inj (x1.symm.trans g3)
    have ey : y = m := Option.some.inj (y1.symm.trans g2)
    subst ex ey
    exact shows_unique x2 (shows_same y2 g4)
  subst e1
  refine ⟨ts', k1, ?_⟩
  rw [← shown_fields k2, fields_of_events _ g5, shown_fields hs, ← contentsOf_map]

/-- C150: the same for a file read and written without change. -/
theorem C150_rewritten (mc mc' : MiddleC) (bytes : Bytes) (h : Header) (ts : List TrackEntry) (hf : FileSays (octaveOffset mc) bytes h ts)
    (hlen : bytes.length < 2 ^ 28) (hl : ∀ t ∈ ts, Lasting t) :
    ∃ ts', FileSays (octaveOffset mc') (writtenFile h (contentsOf id ts)) h ts' ∧ contentsOf id ts' = contentsOf id ts := by
  obtain ⟨smf, hd, hs⟩ := (C143_decoding mc [] bytes h ts).2 hf
  obtain ⟨smf0, hd0, hb⟩ := C146_rewritten mc [] bytes h ts hf
  rw [hd] at hd0
  injection hd0 with hd0
  subst hd0
  obtain ⟨bs, h1, h2⟩ := C28_decode_encode_partial mc [] bytes smf hd hlen (lasting_events hs hl)
  rw [hb] at h1
  injection h1 with h1
  subst h1
  obtain ⟨smf', m, m', g1, g2, g3, g4, g5⟩ := h2 (short_written hf hlen fun _ => rfl) mc' []
  obtain ⟨h', ts', k1, k2⟩ := C143_total mc' [] _ smf' g1
  have e1 : h' = h := by
    obtain ⟨⟨x, x1, x2, _⟩, _⟩ := k2
    obtain ⟨⟨y, y1, y2, _⟩, _⟩ := hs
    have ex : x = m' := Option.some.inj (x1.symm.trans g3)
    have ey : y = m := Option.some.inj (y1.symm.trans g2)
    subst ex ey
    exact shows_unique x2 (shows_same y2 g4)
  subst e1
  refine ⟨ts', k1, ?_⟩
  have := fields_of_events (smf := smf) (smf' := smf') id (by rw [g5]; simp)
  rw [← shown_fields k2, this, ← shown_fields hs]
  simp

/-- C150: a file that has been read and written is a fixed point: reading and writing it gives the same bytes. -/
theorem C150_fixed (mc mc' : MiddleC) (spare bytes : Bytes) (h : Header) (ts : List TrackEntry) (hf : FileSays (octaveOffset mc) bytes h ts)
    (hlen : bytes.length < 2 ^ 28) (hl : ∀ t ∈ ts, Lasting t) (written : Bytes) (hw : ∃ smf, decode mc spare bytes = .ok smf ∧ encode smf = .ok written) : ∃ smf, decode mc' spare written = .ok smf ∧ encode smf = .ok written := by
  obtain ⟨smf, w1, w2⟩ := hw
  obtain ⟨smf0, w3, w4⟩ := C146_rewritten mc spare bytes h ts hf
  rw [w1] at w3
  injection w3 with w3
  subst w3
  rw [w2] at w4
  injection w4 with w4
  subst w4
  obtain ⟨ts', k1, k2⟩ := C150_rewritten mc mc' bytes h ts hf hlen hl
  obtain ⟨smf', d1, d2⟩ := C146_rewritten mc' spare _ h ts' k1
  exact ⟨smf', d1, by rw [d2, k2]⟩

/-- The header of a file that has been written. -/
theorem written_division (mc mc' : MiddleC) (spare bytes : Bytes) (h : Header) (ts : List TrackEntry) (hf : FileSays (octaveOffset mc) bytes h ts)
    (hlen : bytes.length < 2 ^ 28) (hl : ∀ t ∈ ts, Lasting t) (written : Bytes) (hw : ∃ smf, decode mc spare bytes = .ok smf ∧ encode smf = .ok written) (smf : SMF) (hd : decode mc' spare written = .ok smf) : ∃ m, smf.mthd = some m ∧ m.division.toNat = h.division := by
  obtain ⟨smf0, w1, w2⟩ := hw
  obtain ⟨smf1, w3, w4⟩ := C146_rewritten mc spare bytes h ts hf
  rw [w1] at w3
  injection w3 with w3
  subst w3
  rw [w2] at w4
  injection w4 with w4
  subst w4
  obtain ⟨ts', k1, k2⟩ := C150_rewritten mc mc' bytes h ts hf hlen hl
  obtain ⟨smf', d1, ⟨m, hm, hs, _⟩, _⟩ := (C143_decoding mc' spare _ h ts').2 k1
  rw [hd] at d1
  injection d1 with d1
  subst d1
  exact ⟨m, hm, hs.2.2.2.2.1⟩

theorem moved_twice {ts ts' : List TrackEntry} {a b : Int} (hu : ∀ t ∈ ts, ∀ e ∈ t.events, Unclamped a e.content)
    (h : contentsOf id ts' = contentsOf (moved a) ts) : contentsOf (moved (a + b)) ts = contentsOf (moved b) ts' := by
  rw [contentsOf_map (moved b) ts', h]
  simp only [contentsOf, List.map_map]
  apply List.map_congr_left
  intro t ht
  simp only [Function.comp, List.map_map]
  apply List.map_congr_left
  intro e he
  simp only [Function.comp, moved_moved a b _ (hu t ht e he)]

/-- C150: transposing by `a` and transposing the file written by `b` gives the bytes of transposing by `a + b`, if the first does not limit notes. -/
theorem C150_twice (mc mc' : MiddleC) (spare bytes : Bytes) (h : Header) (ts : List TrackEntry) (hf : FileSays (octaveOffset mc) bytes h ts)
    (hlen : bytes.length < 2 ^ 28) (hl : ∀ t ∈ ts, Lasting t) (a b : Int) (ha : Fits a) (hb : Fits b) (hab : Fits (a + b))
    (hu : ∀ t ∈ ts, ∀ e ∈ t.events, Unclamped a e.content) :
    ∃ smf first smf' second, decode mc spare bytes = .ok smf ∧ transposeExecute mc a false smf = .ok first ∧
      decode mc' spare first = .ok smf' ∧ transposeExecute mc' b false smf' = .ok second ∧ transposeExecute mc (a + b) false smf = .ok second := by
  obtain ⟨smf, d1, d2⟩ := C146_transposed mc mc spare bytes h ts hf a ha
  obtain ⟨smf0, d3, d4⟩ := C146_transposed mc mc spare bytes h ts hf (a + b) hab
  rw [d1] at d3
  injection d3 with d3
  subst d3
  obtain ⟨ts', k1, k2⟩ := C150_reread mc mc' bytes h ts hf hlen hl a ha
  obtain ⟨smf', e1, e2⟩ := C146_transposed mc' mc' spare _ h ts' k1 b hb
  refine ⟨smf, _, smf', _, d1, d2, e1, e2, ?_⟩
  rw [d4, moved_twice hu k2]

/-- C150: two runs of the command, the second on the file written by the first, write what one run with both numbers added writes. -/
theorem C150_two_runs (w : World) (args argv args' argv' args'' argv'' : List Bytes) (s s' s'' : List (Bytes × FlagValue)) (r r' r'' : List Bytes)
    (hi : Invokes .transpose args argv) (hl : CommandLine (options .transpose) args s r) (hi' : Invokes .transpose args' argv')
    (hl' : CommandLine (options .transpose) args' s' r') (hi'' : Invokes .transpose args'' argv'') (hl'' : CommandLine (options .transpose) args'' s'' r'')
    (bytes : Bytes) (hr : r.headD [] ≠ []) (hby : w.read (r.headD []) = some bytes) (hr'' : r''.headD [] = r.headD [])
    (mc mc' : MiddleC) (hmc : Naming s mc) (hmc' : Naming s' mc') (hmc'' : Naming s'' mc) (h : Header) (ts : List TrackEntry)
    (hf : FileSays (octaveOffset mc) bytes h ts) (htr : ¬ (h.format = 1 ∧ h.tracks = 0)) (hlen : bytes.length < 2 ^ 28) (hlast : ∀ t ∈ ts, Lasting t)
    (a b : Int) (ha : Number s "semitones" a) (hb : Number s' "semitones" b) (hab : Number s'' "semitones" (a + b)) (fa : Fits a) (fb : Fits b)
    (fab : Fits (a + b)) (hu : ∀ t ∈ ts, ∀ e ∈ t.events, Unclamped a e.content)
    (mid out : Bytes) (ho : Output s mid) (hc : w.create mid = true) (hin : r'.headD [] = mid) (ho' : Output s' out) (ho'' : Output s'' out)
    (hc' : w.create out = true) :
    (midiasm w argv).status = .success ∧ ∃ second, midiasm (w.after (midiasm w argv)) argv' = ⟨[(out, second)], [], .success⟩ ∧
      midiasm w argv'' = ⟨[(out, second)], [], .success⟩ := by
  have e1 := (C146_transpose_command w args argv s r hi hl hr bytes hby mc hmc h ts hf htr a ha fa).written mid ho hc
  have e3 := (C146_transpose_command w args'' argv'' s'' r'' hi'' hl'' (by rw [hr'']; exact hr) bytes (by rw [hr'']; exact hby) mc hmc'' h ts hf htr
    (a + b) hab fab).written out ho'' hc'
  obtain ⟨ts', k1, k2⟩ := C150_reread mc mc' bytes h ts hf hlen hlast a fa
  have e2 := (C146_transpose_command (w.after (midiasm w argv)) args' argv' s' r' hi' hl' (by rw [hin]; exact ho.1) _
    (by rw [hin, e1, after_read]) mc' hmc' h ts' k1 htr b hb fb).written out ho' hc'
  refine ⟨by rw [e1], _, e2, ?_⟩
  rw [e3, moved_twice hu k2]

/-! ### Through text and JSON -/

/-- C150: disassembling a file that has been written, if its contents are plain, and assembling the text gives that file. -/
theorem C150_text (table : List (String × Lib.Manufacturer)) (htab : ∀ e, e ∈ table ↔ e ∈ Lib.manufacturers) (mc : MiddleC) (spare bytes : Bytes)
    (h : Header) (ts : List TrackEntry) (hf : FileSays (octaveOffset mc) bytes h ts) (hlen : bytes.length < 2 ^ 28) (hl : ∀ t ∈ ts, Lasting t)
    (hmet : h.division < 32768) (written : Bytes) (hw : ∃ smf, decode mc spare bytes = .ok smf ∧ encode smf = .ok written) :
    ∃ smf text, decode .c3 spare written = .ok smf ∧ printSMF smf = .ok text ∧
      ((∀ t ∈ smf.tracks, (∃ last, t.events.getLast? = some last ∧ ¬ last.body.IsMessage) ∧ ∀ e ∈ t.events, e.body.Plain) → ShortLines text →
        assembleText table text = .ok written) := by
  obtain ⟨smf, h1, h2⟩ := C150_fixed mc .c3 spare bytes h ts hf hlen hl written hw
  obtain ⟨text, h3⟩ := C84_decoded_prints .c3 spare written smf h1
  obtain ⟨m, hm, hdiv⟩ := written_division mc .c3 spare bytes h ts hf hlen hl written hw smf h1
  refine ⟨smf, text, h1, h3, fun ht hshort => ?_⟩
  obtain ⟨text', g1, g2⟩ := C83_disassembly_assembles table htab spare written smf h1 m hm (by omega) ht
  rw [h3] at g1
  injection g1 with g1
  subst g1
  rw [g2 hshort, h2]

/-- C150: exporting a file that has been written, under the conditions of C58, and assembling the export gives that file. -/
theorem C150_json (mc mc' mc'' : MiddleC) (spare bytes : Bytes) (h : Header) (ts : List TrackEntry) (hf : FileSays (octaveOffset mc) bytes h ts)
    (hlen : bytes.length < 2 ^ 28) (hl : ∀ t ∈ ts, Lasting t) (hmet : h.division < 32768) (written : Bytes)
    (hw : ∃ smf, decode mc spare bytes = .ok smf ∧ encode smf = .ok written) :
    ∃ smf, decode mc' spare written = .ok smf ∧
      ((∀ t ∈ smf.tracks, t.events ≠ [] ∧ (∀ e ∈ t.events, ∀ k s, e.body = .text k s → ∃ cs, IsText s cs) ∧
        ∀ (i : Nat) (e n : Event), t.events[i]? = some e → t.events[i + 1]? = some n → ¬ n.body.IsPacket →
          (e.body.IsMessage → e.body.Terminated) ∧ ¬ e.body.IsPacket) →
        assembleJsonText mc'' (exportText smf) = .ok written) := by
  obtain ⟨smf, h1, h2⟩ := C150_fixed mc mc' spare bytes h ts hf hlen hl written hw
  obtain ⟨m, hm, hdiv⟩ := written_division mc mc' spare bytes h ts hf hlen hl written hw smf h1
  refine ⟨smf, h1, fun ht => ?_⟩
  rw [C89_assembles_export, C58_json_roundtrip_partial mc' _ spare written smf h1 m hm (by omega) ht, h2]

/-! ### Examples -/

instance (c : Content) : Decidable (Rewritable c) := by
  cases c <;> simp only [Rewritable] <;> infer_instance

instance (n : Int) (c : Content) : Decidable (Unclamped n c) := by
  cases c <;> simp only [Unclamped] <;> infer_instance

/-- C150: a file that meets the hypotheses, with a status too many and a delta time that is too long; it is shorter after being written, and
transposing up by seven and down by two is transposing up by five. -/
example : ∃ h ts, FileSays 1 (oneTrack [0, 0x91, 60, 64, 0x80, 0x48, 0x91, 62, 64, 0, 0xff, 0x59, 2, 0xfd, 0, 0, 0xff, 0x2f, 0]) h ts ∧
    (∀ t ∈ ts, Lasting t) ∧ (∀ t ∈ ts, ∀ e ∈ t.events, Unclamped 7 e.content) ∧ h.division < 32768 ∧
    writtenFile h (contentsOf id ts) = oneTrack [0, 0x91, 60, 64, 0x48, 62, 64, 0, 0xff, 0x59, 2, 0xfd, 0, 0, 0xff, 0x2f, 0] ∧
    writtenFile h (contentsOf (moved 5) ts) = oneTrack [0, 0x91, 65, 64, 0x48, 67, 64, 0, 0xff, 0x59, 2, 0xfc, 0, 0, 0xff, 0x2f, 0] := by
  obtain ⟨smf, h1, h2⟩ := Outcome.of_test
    (o := decode .c3 [] (oneTrack [0, 0x91, 60, 64, 0x80, 0x48, 0x91, 62, 64, 0, 0xff, 0x59, 2, 0xfd, 0, 0, 0xff, 0x2f, 0]))
    (p := fun smf => match smf.mthd with
      | some m => decide (m.format = 0) && decide (m.tracks = 1) && decide (m.division = 96) &&
        decide (∀ t ∈ smf.tracks.map MTrk.entry, ∀ e ∈ t.events, (Rewritable e.content ∧ e.delta < 2 ^ 28) ∧ Unclamped 7 e.content) &&
        decide (writtenFile ⟨0, 1, 96⟩ (contentsOf id (smf.tracks.map MTrk.entry)) =
          oneTrack [0, 0x91, 60, 64, 0x48, 62, 64, 0, 0xff, 0x59, 2, 0xfd, 0, 0, 0xff, 0x2f, 0]) &&
        decide (writtenFile ⟨0, 1, 96⟩ (contentsOf (moved 5) (smf.tracks.map MTrk.entry)) =
          oneTrack [0, 0x91, 65, 64, 0x48, 67, 64, 0, 0xff, 0x59, 2, 0xfc, 0, 0, 0xff, 0x2f, 0])
      | none => false) (by decide +kernel)
  obtain ⟨h, ts, hf, ⟨m, hm, hsh, _⟩, rfl⟩ := C143_total .c3 [] _ smf h1
  rw [hm] at h2
  simp only [Bool.and_eq_true, decide_eq_true_eq] at h2
  obtain ⟨⟨⟨⟨⟨a1, a2⟩, a3⟩, a4⟩, a5⟩, a6⟩ := h2
  have hh : h = ⟨0, 1, 96⟩ := by
    obtain ⟨_, _, b1, b2, b3, _⟩ := hsh
    rw [a1] at b1
    rw [a2] at b2
    rw [a3] at b3
    obtain ⟨f, t, d⟩ := h
    simp only at b1 b2 b3
    rw [← b1, ← b2, ← b3]
    rfl
  subst hh
  exact ⟨_, _, hf, fun t ht e he => (a4 t ht e he).1, fun t ht e he => (a4 t ht e he).2, by decide, a5, a6⟩

end Midiasm
