import Verif.Lemmas.Lines
import Verif.Props.Encode
import Verif.Props.Fixups
import Verif.Props.Pipeline

/-!
The lines of printed events, tracks and files as the text assembler sees them.
-/

set_option linter.unusedSimpArgs false

namespace Midiasm
open Spec

/-! ### Newlines and carriage returns -/

/-- No newline and no carriage return. -/
def Clean (s : Bytes) : Prop := ∀ c ∈ s, c ≠ 10 ∧ c ≠ 13

theorem clean_app {a b : Bytes} (ha : Clean a) (hb : Clean b) : Clean (a ++ b) := by
  intro c hc
  rcases List.mem_append.mp hc with hc | hc
  · exact ha c hc
  · exact hb c hc

theorem clean_of {a s : Bytes} (h : ∀ c ∈ s, c ∈ a) (ha : 10 ∉ a ∧ 13 ∉ a) : Clean s :=
  fun c hc => ⟨fun e => ha.1 (e ▸ h c hc), fun e => ha.2 (e ▸ h c hc)⟩

theorem clean_low {s : Bytes} (h : ∀ c ∈ s, c ∈ lowAlphabet) : Clean s := clean_of h (by decide +kernel)

theorem clean_str (s : String) (h : 10 ∉ str s ∧ 13 ∉ str s) : Clean (str s) := clean_of (fun _ h => h) h

theorem clean_dec (n : Nat) : Clean (dec n) := clean_low (dec_low n)

theorem clean_hex (data : Bytes) : Clean (hexString data) := clean_of (hexString_alphabet data) (by decide +kernel)

theorem clean_replicate (n : Nat) : Clean (List.replicate n 32) := by
  intro c hc
  rw [List.eq_of_mem_replicate hc]
  decide

theorem clean_controller (id : UInt8) : Clean (str (Lib.lookupController id).name) := by
  have h1 : ∀ e ∈ Lib.controllers, 10 ∉ str e.2.name ∧ 13 ∉ str e.2.name := by decide +kernel
  have h2 : 10 ∉ str "<unknown>" ∧ 13 ∉ str "<unknown>" := by decide +kernel
  apply clean_str
  unfold Lib.lookupController
  cases h : Lib.controllers.find? (fun e => e.1 == id) with
  | none => exact h2
  | some e => exact h1 e (List.mem_of_find?_eq_some h)

theorem clean_key (key : Int8 × UInt8 × String) (h : key ∈ keys) : Clean (str key.2.2) := by
  have : ∀ key ∈ keys, 10 ∉ str key.2.2 ∧ 13 ∉ str key.2.2 := by decide +kernel
  exact clean_str _ (this key h)

/-- The texts and names that survive the trip through a line. -/
def Body.Contained : Body → Prop
  | .text _ s => s.getLast? ≠ some 13 ∧ ¬ Occurs "MThd" s ∧ ¬ Occurs "MTrk" s
  | .sequencerSpecific m _ => ¬ Occurs "MThd" (str m.name) ∧ ¬ Occurs "MTrk" (str m.name)
  | .sysExMessage m _ _ => ¬ Occurs "MThd" (str m.name) ∧ ¬ Occurs "MTrk" (str m.name)
  | _ => True

theorem clean_last {s : Bytes} (h : Clean s) : s.getLast? ≠ some 13 := by
  intro e
  exact (h 13 (List.mem_of_getLast? e)).2 rfl

theorem last_data (name data : Bytes) : (name ++ (str ", " ++ hexString data)).getLast? ≠ some 13 := by
  rw [List.getLast?_append]
  have hc : Clean (str ", " ++ hexString data) := clean_app (clean_str _ (by decide +kernel)) (clean_hex data)
  cases h : (str ", " ++ hexString data).getLast? with
  | none =>
    rw [List.getLast?_eq_none_iff] at h
    have := congrArg List.length h
    have h2 : (str ", ").length = 2 := by decide +kernel
    simp [h2] at this
  | some c =>
    rw [Option.some_or]
    intro e
    injection e with e
    subst e
    exact clean_last hc h

theorem fields_clean (table : List (String × Lib.Manufacturer)) (b : Body) (hr : b.Readable table) (hc : b.Contained) :
    10 ∉ shownFields b ∧ (shownFields b).getLast? ≠ some 13 := by
  have fin : ∀ {s : Bytes}, Clean s → 10 ∉ s ∧ s.getLast? ≠ some 13 := fun h => ⟨fun e => (h 10 e).1 rfl, clean_last h⟩
  have hch : ∀ ch : UInt8, Clean (str "channel:") ∧ Clean (pad 2 (dec ch.toNat)) ∧ Clean [32] := fun ch =>
    ⟨clean_str _ (by decide +kernel), clean_low (pad_low _ _), clean_low sp_low⟩
  have hname : ∀ (m : Lib.Manufacturer) (data : Bytes), Findable table m → 10 ∉ str m.name ++ (str ", " ++ hexString data) := by
    intro m data hf h
    rcases List.mem_append.mp h with h | h
    · exact hf.2.2.2.1 h
    · exact (clean_app (clean_str _ (by decide +kernel)) (clean_hex data) 10 h).1 rfl
  have hnote : ∀ (ch v : UInt8) (name : String), (∀ c ∈ str name, c ∈ noteAlphabet) →
      Clean (str "channel:" ++ (pad 2 (dec ch.toNat) ++ ([32] ++ (str "note:" ++ (str name ++ (str ", velocity:" ++ dec v.toNat)))))) := by
    intro ch v name h
    obtain ⟨a, b, c⟩ := hch ch
    exact clean_app a (clean_app b (clean_app c (clean_app (clean_str _ (by decide +kernel)) (clean_app (clean_of h (by decide +kernel))
      (clean_app (clean_str _ (by decide +kernel)) (clean_dec _))))))
  cases b with
  | sequenceNumber n => exact fin (clean_dec _)
  | text k s => exact ⟨hr.1, hc.1⟩
  | midiChannelPrefix ch => exact fin (clean_dec _)
  | midiPort p => exact fin (clean_dec _)
  | endOfTrack => exact fin (by intro c hc; cases hc)
  | tempo t => exact fin (clean_app (clean_str _ (by decide +kernel)) (clean_dec _))
  | smpteOffset h m s r f ff =>
    exact fin (clean_low (app_low (dec_low _) (app_low sp_low (app_low (dec_low _) (app_low sp_low (app_low (dec_low _) (app_low sp_low
      (app_low (dec_low _) (app_low sp_low (app_low (dec_low _) (app_low sp_low (dec_low _))))))))))))
  | timeSignature n d c t =>
    exact fin (clean_low (app_low (dec_low _) (app_low (by decide +kernel) (app_low (dec_low _) (app_low (by decide +kernel) (app_low (dec_low _)
      (app_low (by decide +kernel) (app_low (dec_low _) (by decide +kernel)))))))))
  | keySignature a k name =>
    exact fin (clean_key _ (key_mem a k name (keySignature_made a k name hr.1 hr.2.1 hr.2.2.1 hr.2.2.2)))
  | sequencerSpecific m data => exact ⟨hname m data hr.1, last_data _ _⟩
  | noteOff ch n v =>
    obtain ⟨_, _, _, h127, flats, hn⟩ := hr
    exact fin (hnote ch v n.name (names_alphabet flats _ _ h127 hn))
  | noteOn ch n v =>
    obtain ⟨_, _, _, h127, flats, hn⟩ := hr
    exact fin (hnote ch v n.name (names_alphabet flats _ _ h127 hn))
  | polyphonicPressure ch p =>
    exact fin (clean_low (app_low (by decide +kernel) (app_low (pad_low _ _) (app_low sp_low (app_low (by decide +kernel) (dec_low _))))))
  | controller ch c v =>
    obtain ⟨x, y, z⟩ := hch ch
    have := clean_controller c.id
    rw [← hr.2] at this
    exact fin (clean_app x (clean_app y (clean_app z (clean_app (clean_dec _) (clean_app (clean_str _ (by decide +kernel)) (clean_app this
      (clean_app (clean_str _ (by decide +kernel)) (clean_dec _))))))))
  | programChange ch bank p =>
    exact fin (clean_low (app_low (by decide +kernel) (app_low (pad_low _ _) (app_low sp_low (app_low (by decide +kernel) (app_low (dec_low _)
      (app_low (by decide +kernel) (dec_low _))))))))
  | channelPressure ch p =>
    exact fin (clean_low (app_low (by decide +kernel) (app_low (pad_low _ _) (app_low sp_low (app_low (by decide +kernel) (dec_low _))))))
  | pitchBend ch bend =>
    exact fin (clean_low (app_low (by decide +kernel) (app_low (pad_low _ _) (app_low sp_low (app_low (by decide +kernel) (dec_low _))))))
  | sysExMessage m data s => exact ⟨hname m data hr.1, last_data _ _⟩
  | sysExContinuation data e => exact fin (clean_hex _)
  | sysExEscape data => exact fin (clean_hex _)

theorem tags_clean (b : Body) : Clean (str b.tag) ∧ (∀ w ∈ ["MThd", "MTrk"], contains (str b.tag) (str w) = false) ∧ str b.tag ≠ [] := by
  have h : ∀ kw ∈ keywords, (10 ∉ str kw ∧ 13 ∉ str kw) ∧ (∀ w ∈ ["MThd", "MTrk"], contains (str kw) (str w) = false) ∧ str kw ≠ [] := by decide +kernel
  have hb : b.tag ∈ keywords := by
    have ht : ∀ k : TextKind, k.tag ∈ keywords := by intro k; cases k <;> decide +kernel
    cases b with
    | text k s => exact ht k
    | _ => simp [Body.tag, keywords]
  exact ⟨clean_str _ (h _ hb).1, (h _ hb).2.1, (h _ hb).2.2⟩

/-- The line of a printed event whose fields hold no newline and no chunk tag. -/
theorem event_line_of (e : Event) (line : Bytes) (hp : printEvent e = .ok line)
    (hfree : ∀ w ∈ ["MThd", "MTrk"], contains (shownFields e.body) (str w) = false)
    (hfields : 10 ∉ shownFields e.body ∧ (shownFields e.body).getLast? ≠ some 13) :
    isTag line = false ∧ isComment line = false ∧ isBlank line = false ∧ 10 ∉ line ∧ line.getLast? ≠ some 13 := by
  obtain ⟨pre, k, hpre, rfl⟩ := printEvent_lineOf e line hp
  have hw : ∀ w ∈ ["MThd", "MTrk"], contains (lineOf pre e.delta k e.body) (str w) = false := by
    intro w hw
    have hword := words w (List.mem_append_right _ hw)
    rw [contains_word pre e.delta k e.body hpre w (hword.sep 32 (by decide)) hword.ne hword.start, (tags_clean e.body).2.1 w hw, Bool.false_or]
    exact hfree w hw
  have hpc : Clean pre := clean_of hpre (by decide +kernel)
  have hd : str "delta:" = 100 :: str "elta:" := by decide +kernel
  obtain ⟨gap, hg, hge, hb⟩ := printBody_fields e.body
  obtain ⟨f1, f2⟩ := hfields
  have hgc : Clean gap := fun c hc => by rw [hg c hc]; decide
  have hhc : Clean (hex2 (shownByte e.body)) := by
    refine clean_of (a := str "0123456789ABCDEF") ?_ (by decide +kernel)
    exact all8 (P := fun b => ∀ c ∈ hex2 b, c ∈ str "0123456789ABCDEF") (by decide +kernel) _
  have hfront : Clean (pre ++ (str "delta:" ++ (dec e.delta.toNat ++ (List.replicate (k + 2) 32 ++ (hex2 (shownByte e.body) ++ ([32] ++ (str e.body.tag ++ gap))))))) :=
    clean_app hpc (clean_app (clean_str _ (by decide +kernel)) (clean_app (clean_dec _) (clean_app (clean_replicate _) (clean_app hhc (clean_app (clean_low sp_low)
      (clean_app (tags_clean e.body).1 hgc))))))
  have hsplit : lineOf pre e.delta k e.body = (pre ++ (str "delta:" ++ (dec e.delta.toNat ++ (List.replicate (k + 2) 32 ++ (hex2 (shownByte e.body) ++
      ([32] ++ (str e.body.tag ++ gap))))))) ++ shownFields e.body := by
    unfold lineOf
    rw [hb]
    simp only [List.append_assoc]
  refine ⟨?_, ?_, ?_, ?_, ?_⟩
  · unfold isTag
    rw [hw "MThd" (by simp), hw "MTrk" (by simp)]
    rfl
  · rw [Bool.eq_false_iff]
    intro h
    have := comment_head _ h
    unfold lineOf at this
    cases hp : pre with
    | nil => rw [hp, hd] at this; simp at this
    | cons c p =>
      rw [hp] at this
      simp at this
      subst this
      exact absurd (hpre 37 (by rw [hp]; simp)) (by decide +kernel)
  · refine not_blank _ 100 ?_ (by decide) (by decide)
    unfold lineOf
    rw [hd]
    simp
  · rw [hsplit]
    intro h
    rcases List.mem_append.mp h with h | h
    · exact (hfront 10 h).1 rfl
    · exact f1 h
  · rw [hsplit, List.getLast?_append]
    cases hl : (shownFields e.body).getLast? with
    | none => rw [Option.none_or]; exact clean_last hfront
    | some c =>
      rw [Option.some_or, ← hl]
      exact f2

/-- The line of a printed event: it is read as one line, and it is neither a comment nor blank nor the start of a chunk. -/
theorem event_line (table : List (String × Lib.Manufacturer)) (e : Event) (line : Bytes) (hp : printEvent e = .ok line)
    (hr : e.body.Readable table) (hc : e.body.Contained) :
    isTag line = false ∧ isComment line = false ∧ isBlank line = false ∧ 10 ∉ line ∧ line.getLast? ≠ some 13 := by
  have hctl : ∀ id, ∀ w ∈ ["MThd", "MTrk"], contains (str (Lib.lookupController id).name) (str w) = false := by
    intro id
    have h1 : ∀ e ∈ Lib.controllers, ∀ kw ∈ ["MThd", "MTrk"], contains (str e.2.name) (str kw) = false := by decide +kernel
    have h2 : ∀ kw ∈ ["MThd", "MTrk"], contains (str "<unknown>") (str kw) = false := by decide +kernel
    unfold Lib.lookupController
    cases h : Lib.controllers.find? (fun e => e.1 == id) with
    | none => exact h2
    | some e => exact h1 e (List.mem_of_find?_eq_some h)
  have hoccurs : ∀ (w : String) (s : Bytes), ¬ Occurs w s → contains s (str w) = false := by
    intro w s h
    rw [Bool.eq_false_iff]
    exact fun hh => h ((contains_iff _ _).mp hh)
  refine event_line_of e line hp ?_ (fields_clean table e.body hr hc)
  intro w hw
  have hword := words w (List.mem_append_right _ hw)
  refine fields_free table e.body hr w hword ?_ ?_ ?_ ?_
  · intro k s he
    rw [he] at hc
    simp at hw
    rcases hw with rfl | rfl
    · exact hoccurs _ _ hc.2.1
    · exact hoccurs _ _ hc.2.2
  · intro m d he
    rw [he] at hc
    simp at hw
    rcases hw with rfl | rfl
    · exact hoccurs _ _ hc.1
    · exact hoccurs _ _ hc.2
  · intro m d s he
    rw [he] at hc
    simp at hw
    rcases hw with rfl | rfl
    · exact hoccurs _ _ hc.1
    · exact hoccurs _ _ hc.2
  · intro ch c v _
    exact hctl c.id w hw

/-! ### Lines of a printed file -/

theorem printEvents_lines (es : List Event) (text : Bytes) (h : printEvents es = .ok text) :
    ∃ ls : List Bytes, text = unlines ls ∧ es.map printEvent = ls.map .ok := by
  induction es generalizing text with
  | nil =>
    injection h with h
    exact ⟨[], h.symm, rfl⟩
  | cons e es ih =>
    unfold printEvents at h
    cases hl : printEvent e with
    | ok l =>
      rw [hl, Outcome.bind_ok] at h
      cases hr : printEvents es with
      | ok r =>
        rw [hr, Outcome.bind_ok] at h
        injection h with h
        obtain ⟨ls, h1, h2⟩ := ih r hr
        exact ⟨l :: ls, by rw [← h, h1]; simp [unlines], by simp [hl, h2]⟩
      | err x => rw [hr] at h; cases h
      | panic => rw [hr] at h; cases h
      | diverge => rw [hr] at h; cases h
    | err x => rw [hl] at h; cases h
    | panic => rw [hl] at h; cases h
    | diverge => rw [hl] at h; cases h

/-- Lines printed for a track, with the blank line before it. -/
def trackLines (p : MTrk × List Bytes) : List Bytes := [] :: trackLine p.1 :: p.2

theorem printTracks_lines (ts : List MTrk) (text : Bytes) (h : printTracks ts = .ok text) :
    ∃ ps : List (MTrk × List Bytes), ps.map Prod.fst = ts ∧ (∀ p ∈ ps, p.1.events.map printEvent = p.2.map .ok) ∧
      text = unlines (ps.flatMap trackLines) := by
  induction ts generalizing text with
  | nil =>
    injection h with h
    exact ⟨[], rfl, by simp, h.symm⟩
  | cons t ts ih =>
    unfold printTracks printMTrk at h
    cases hl : printEvents t.events with
    | ok l =>
      rw [hl] at h
      simp only [Outcome.bind_ok] at h
      cases hr : printTracks ts with
      | ok r =>
        rw [hr, Outcome.bind_ok] at h
        injection h with h
        obtain ⟨ps, h1, h2, h3⟩ := ih r hr
        obtain ⟨ls, g1, g2⟩ := printEvents_lines _ _ hl
        refine ⟨(t, ls) :: ps, by simp [h1], ?_, ?_⟩
        · intro p hp
          rcases List.mem_cons.1 hp with rfl | hp
          · exact g2
          · exact h2 p hp
        · rw [← h, h3, g1]
          simp [unlines, trackLines, trackLine]
      | err x => rw [hr] at h; cases h
      | panic => rw [hr] at h; cases h
      | diverge => rw [hr] at h; cases h
    | err x => rw [hl] at h; cases h
    | panic => rw [hl] at h; cases h
    | diverge => rw [hl] at h; cases h

/-! ### A track -/

section
variable (table : List (String × Lib.Manufacturer))

/-- The events of a track as they are read from their lines. -/
def asReadEvents (es : List Event) : List Event := es.map fun e => ⟨0, e.delta, [], e.body.asRead⟩

theorem parseEvents_lines (es : List Event) (ls : List Bytes) (hl : es.map printEvent = ls.map .ok)
    (h : ∀ e ∈ es, e.body.Readable table ∧ e.body.Contained) (tail : List Bytes) (ht : ∀ l ∈ tail, isBlank l = true) :
    parseEvents table (ls ++ tail) = .ok (asReadEvents es) := by
  induction es generalizing ls with
  | nil =>
    have : ls = [] := by simpa using hl.symm
    subst this
    rw [List.nil_append]
    induction tail with
    | nil => rfl
    | cons l tail ih =>
      rw [parseEvents, if_pos (by rw [ht l (by simp)]; simp)]
      exact ih (fun l hl => ht l (by simp [hl]))
  | cons e es ih =>
    cases ls with
    | nil => simp at hl
    | cons l ls =>
      simp only [List.map_cons, List.cons.injEq] at hl
      obtain ⟨hr, hc⟩ := h e (by simp)
      obtain ⟨_, l2, l3, _, _⟩ := event_line table e l hl.1 hr hc
      rw [List.cons_append, parseEvents, if_neg (by simp [l2, l3]), C80_line_reads_back table e l hl.1 hr, Outcome.bind_ok,
        ih ls hl.2 (fun e he => h e (by simp [he])), Outcome.bind_ok]
      rfl

theorem lines_tags (es : List Event) (ls : List Bytes) (hl : es.map printEvent = ls.map .ok)
    (h : ∀ e ∈ es, e.body.Readable table ∧ e.body.Contained) : ∀ l ∈ ls, isTag l = false ∧ 10 ∉ l ∧ l.getLast? ≠ some 13 := by
  intro l hll
  have : Outcome.ok l ∈ es.map printEvent := by rw [hl]; exact List.mem_map.2 ⟨l, hll, rfl⟩
  obtain ⟨e, he, hp⟩ := List.mem_map.1 this
  obtain ⟨hr, hc⟩ := h e he
  obtain ⟨l1, _, _, l4, l5⟩ := event_line table e l hp hr hc
  exact ⟨l1, l4, l5⟩

theorem isTag_false {l : Bytes} (h : isTag l = false) : isMThd l = false ∧ isMTrk l = false := by
  unfold isTag at h
  rw [Bool.or_eq_false_iff] at h
  exact h

/-- A track made by the assembler. -/
def madeTrack (n : Nat) (es : List Event) : MTrk := ⟨str "MTrk", n, 0, [0x4d, 0x54, 0x72, 0x6b, 0x00, 0x00, 0x00, 0x00], es, newContext⟩

/-- Lines that start no chunk leave the file as it is. -/
theorem assembleLines_rest (chunk ls : List Bytes) (h : ∀ l ∈ ls, isTag l = false) (smf : SMF) : assembleLines table chunk ls smf = .ok smf := by
  induction ls with
  | nil => rfl
  | cons l ls ih =>
    obtain ⟨h1, h2⟩ := isTag_false (h l (by simp))
    have : assembleLine table chunk smf l = .ok smf := by
      unfold assembleLine
      rw [h1, h2]
      split <;> rfl
    rw [assembleLines, this, Outcome.bind_ok]
    exact ih (fun l hl => h l (by simp [hl]))

/-- The file with one more track. -/
def addTrack (es : List Event) (smf : SMF) : Outcome SMF :=
  match smf.mthd with
  | none => .panic
  | some h => .ok ⟨some { h with tracks := h.tracks + 1 }, smf.tracks ++ [madeTrack smf.tracks.length es]⟩

theorem assemble_track (t : MTrk) (ht : t.tag = str "MTrk") (ls tail : List Bytes) (hl : t.events.map printEvent = ls.map .ok)
    (h : ∀ e ∈ t.events, e.body.Readable table ∧ e.body.Contained) (htail : ∀ l ∈ tail, l = []) (fixed : List Event)
    (hf : fixups (asReadEvents t.events) = .ok fixed) (smf : SMF) :
    assembleLines table (trackLine t :: ls ++ tail) (trackLine t :: ls ++ tail) smf = addTrack fixed smf := by
  obtain ⟨h1, h2, _, h4⟩ := trackLine_tag t ht
  have hempty : isTag [] = false ∧ isBlank [] = true := by decide +kernel
  have hparse : parseMTrk table (trackLine t :: ls ++ tail) = .ok (madeTrack 0 fixed) := by
    unfold parseMTrk
    rw [List.cons_append, List.dropWhile_cons_of_neg (by simp [h1])]
    simp only
    rw [parseEvents_lines table t.events ls hl h tail (fun l hl => by rw [htail l hl]; exact hempty.2), Outcome.bind_ok, hf, Outcome.bind_ok]
    rfl
  have hfirst : assembleLine table (trackLine t :: ls ++ tail) smf (trackLine t) = addTrack fixed smf := by
    unfold assembleLine
    rw [h4, h2, h1, hparse]
    simp only [Bool.false_eq_true, if_false, if_true, Outcome.bind_ok]
    unfold addTrack
    cases smf.mthd <;> rfl
  have hstep : assembleLines table (trackLine t :: ls ++ tail) (trackLine t :: ls ++ tail) smf =
      (do let s ← assembleLine table (trackLine t :: ls ++ tail) smf (trackLine t)
          assembleLines table (trackLine t :: ls ++ tail) (ls ++ tail) s) := rfl
  rw [hstep, hfirst]
  cases ha : addTrack fixed smf with
  | ok s =>
    rw [Outcome.bind_ok]
    refine assembleLines_rest table _ _ ?_ s
    intro l hl'
    rcases List.mem_append.1 hl' with hl' | hl'
    · exact (lines_tags table t.events ls hl h l hl').1
    · rw [htail l hl']; exact hempty.1
  | err x => rfl
  | panic => rfl
  | diverge => rfl

end

end Midiasm
