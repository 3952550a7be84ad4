import Verif.Props.Encodings
import Mathlib.Data.List.Forall2

/-!
C182: the disassemblies of two files with the same events differ in the bytes shown and the lengths of tracks only.
-/

set_option linter.unusedSimpArgs false

namespace Midiasm
open Spec

/-- The number of characters of a text in UTF-8: the bytes that do not continue a character. -/
def glyphs (s : Bytes) : Nat := (s.filter fun b => decide (b.toNat / 64 ≠ 2)).length

/-- Two lines of disassemblies that are the same from the 43rd character on, except that the lengths of tracks may differ. -/
inductive LinesAlike : Bytes → Bytes → Prop
  | same (l : Bytes) : LinesAlike l l
  | bytes (column column' rest : Bytes) (h : glyphs column = 42) (h' : glyphs column' = 42) : LinesAlike (column ++ rest) (column' ++ rest)
  | track (column column' : Bytes) (number length length' : Nat) (h : glyphs column = 42) (h' : glyphs column' = 42) :
      LinesAlike (column ++ str "  MTrk " ++ filled 2 (str (toString number)) ++ str s!" length:{length}")
        (column' ++ str "  MTrk " ++ filled 2 (str (toString number)) ++ str s!" length:{length'}")

theorem glyphs_append (s t : Bytes) : glyphs (s ++ t) = glyphs s + glyphs t := by
  simp [glyphs]

theorem glyphs_ascii (s : Bytes) (h : ∀ b ∈ s, b.toNat < 128) : glyphs s = s.length := by
  unfold glyphs
  rw [List.filter_eq_self.2]
  intro b hb
  have := h b hb
  simp only [decide_eq_true_eq]
  omega

theorem glyphs_blanks (n : Nat) : glyphs (List.replicate n 32) = n := by
  rw [glyphs_ascii _ fun b hb => by rw [List.eq_of_mem_replicate hb]; decide]
  exact List.length_replicate

theorem column_glyphs (room indent : Nat) (bs : Bytes) (h0 : 0 < room) (h : room ≤ 42) : glyphs (bytesColumn room indent bs) = 42 := by
  have ha := indented_ascii indent bs
  unfold bytesColumn
  simp only
  split
  · unfold filled
    rw [glyphs_append, glyphs_blanks, glyphs_ascii _ ha]
    omega
  · have e : glyphs (str "…") = 1 := by decide +kernel
    rw [glyphs_append, glyphs_append, glyphs_blanks, e, glyphs_ascii _ fun b hb => ha b (List.mem_of_mem_take hb), List.length_take]
    omega

theorem event_alike (e e' : Entry) (h : e.bare = e'.bare) : LinesAlike (eventRow e) (eventRow e') := by
  have k : ∀ e : Entry, ∃ column, glyphs column = 42 ∧ eventRow e = column ++ (str "  tick:" ++ filled 9 (str (toString e.bare.tick)) ++ str "  delta:" ++
      filled 9 (str (toString e.bare.delta)) ++ str "  " ++
      hexDisplay [UInt8.ofNat ((metaTypeOf e.bare.content).getD (statusByteOf e.bare.content))] ++ str " " ++ fieldsShown e.bare.names e.bare.bank e.bare.content) := by
    intro e
    exact ⟨_, column_glyphs 42 _ _ (by omega) (by omega), by simp only [eventRow, List.append_assoc]; rfl⟩
  obtain ⟨c, h1, h2⟩ := k e
  obtain ⟨c', h1', h2'⟩ := k e'
  rw [h2, h2', h]
  exact .bytes _ _ _ h1 h1'

theorem events_alike (l : List Entry) : ∀ l' : List Entry, l.map Entry.bare = l'.map Entry.bare →
    List.Forall₂ LinesAlike (l.map eventRow) (l'.map eventRow) := by
  induction l with
  | nil =>
    intro l' h
    cases l' with
    | nil => exact .nil
    | cons _ _ => cases h
  | cons e l ih =>
    intro l' h
    cases l' with
    | nil => cases h
    | cons e' l' =>
      simp only [List.map_cons, List.cons.injEq] at h
      exact .cons (event_alike e e' h.1) (ih l' h.2)

theorem track_alike (t t' : TrackEntry) (h : t.bare = t'.bare) : List.Forall₂ LinesAlike (trackRows t) (trackRows t') := by
  have h1 : t.bare.number = t'.bare.number := congrArg (fun t : TrackEntry => t.number) h
  have h2 : t.bare.events = t'.bare.events := congrArg (fun t : TrackEntry => t.events) h
  unfold trackRows
  rw [show t.number = t'.number from h1]
  exact .cons (.same _) (.cons (.track _ _ _ _ _ (column_glyphs 24 _ _ (by omega) (by omega)) (column_glyphs 24 _ _ (by omega) (by omega)))
    (events_alike _ _ h2))

theorem tracks_alike (l : List TrackEntry) : ∀ l' : List TrackEntry, l.map TrackEntry.bare = l'.map TrackEntry.bare →
    List.Forall₂ (fun t t' => List.Forall₂ LinesAlike (trackRows t) (trackRows t')) l l' := by
  induction l with
  | nil =>
    intro l' h
    cases l' with
    | nil => exact .nil
    | cons _ _ => cases h
  | cons t l ih =>
    intro l' h
    cases l' with
    | nil => cases h
    | cons t' l' =>
      simp only [List.map_cons, List.cons.injEq] at h
      exact .cons (track_alike t t' h.1) (ih l' h.2)

theorem rows_alike {l l' : List TrackEntry} (h : List.Forall₂ (fun t t' => List.Forall₂ LinesAlike (trackRows t) (trackRows t')) l l') :
    List.Forall₂ LinesAlike (l.flatMap trackRows) (l'.flatMap trackRows) := by
  induction h with
  | nil => exact .nil
  | cons h _ ih =>
    rw [List.flatMap_cons, List.flatMap_cons]
    exact List.rel_append h ih

/-- **C182.** The text of a disassembly of two files with the same events: the line of the header is the same, and the other lines differ in the first 42
characters, which show bytes, and in the lengths of tracks only. -/
theorem C182_text (mc : MiddleC) (spare spare' bytes bytes' : Bytes) (h : Header) (ts ts' : List TrackEntry) (hs : SameMusic mc bytes bytes' h ts ts') :
    ∃ smf smf' first rows rows', decode mc spare bytes = .ok smf ∧ decode mc spare' bytes' = .ok smf' ∧ printSMF smf = .ok (lineTexts (first :: rows)) ∧
      printSMF smf' = .ok (lineTexts (first :: rows')) ∧ List.Forall₂ LinesAlike rows rows' := by
  obtain ⟨smf, a1, a2⟩ := C145_disassembly_text mc spare bytes h ts hs.one
  obtain ⟨smf', b1, b2⟩ := C145_disassembly_text mc spare' bytes' h ts' hs.other
  exact ⟨smf, smf', _, _, _, a1, b1, a2, b2, rows_alike (tracks_alike _ _ (same_bare _ bytes bytes' h h ts ts' hs.one hs.other hs.same hs.plain))⟩

/-- **C182.** The command `disassemble`. -/
theorem C182_command (w w' : World) (args argv args' argv' : List Bytes) (s : List (Bytes × FlagValue)) (r r' : List Bytes)
    (hi : Invokes .disassemble args argv) (hl : CommandLine (options .disassemble) args s r) (hr : r.headD [] ≠ []) (hi' : Invokes .disassemble args' argv')
    (hl' : CommandLine (options .disassemble) args' s r') (hr' : r'.headD [] ≠ []) (bytes bytes' : Bytes) (hby : w.read (r.headD []) = some bytes)
    (hby' : w'.read (r'.headD []) = some bytes') (mc : MiddleC) (hmc : Naming s mc) (h : Header) (ts ts' : List TrackEntry)
    (hs : SameMusic mc bytes bytes' h ts ts') (ht : ¬ (h.format = 1 ∧ h.tracks = 0)) (hp : NoText s "templates") (hsp : ¬ Given s "split" (.bool true)) :
    ∃ first rows rows', Delivers w s (lineTexts (first :: rows)) (midiasm w argv) ∧ Delivers w' s (lineTexts (first :: rows')) (midiasm w' argv') ∧
      List.Forall₂ LinesAlike rows rows' :=
  ⟨_, _, _, C145_disassemble_command w args argv s r hi hl hr bytes hby mc hmc h ts hs.one ht hp hsp,
    C145_disassemble_command w' args' argv' s r' hi' hl' hr' bytes' hby' mc hmc h ts' hs.other ht hp hsp,
    rows_alike (tracks_alike _ _ (same_bare _ bytes bytes' h h ts ts' hs.one hs.other hs.same hs.plain))⟩

/-- C182: the files of C180, in which the same delta time is one byte in one and two bytes in the other. -/
example : ∃ smf smf' first rows rows', decode .c3 [] (oneTrack [0, 0x91, 60, 64, 0x48, 0x91, 62, 64, 0, 0xff, 0x2f, 0]) = .ok smf ∧
    decode .c3 [] (fileBytes [(Header.mk 0 1 96).chunk, ⟨str "XFIH", [1, 2]⟩, ⟨tagMTrk, [0, 0x91, 60, 64, 0x80, 0x48, 62, 64, 0, 0xff, 0x2f, 0]⟩]) = .ok smf' ∧
    printSMF smf = .ok (lineTexts (first :: rows)) ∧ printSMF smf' = .ok (lineTexts (first :: rows')) ∧ List.Forall₂ LinesAlike rows rows' := by
  obtain ⟨h, ts, ts', hs⟩ := two_encodings
  exact C182_text .c3 [] [] _ _ h ts ts' hs

end Midiasm
