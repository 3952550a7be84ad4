import Verif.Props.AssembleText
import Verif.Props.Context
import Verif.Props.Text
import Verif.Props.TrackEvents

/-!
C83 and C84: decoded files are printed, and the printed text is assembled to the same file.
-/

set_option linter.unusedSimpArgs false

namespace Midiasm
open Spec

/-! ### Printing succeeds -/

theorem printEvents_total (es : List Event) (h : ∀ e ∈ es, ∃ line, printEvent e = .ok line) : ∃ text, printEvents es = .ok text := by
  induction es with
  | nil => exact ⟨[], rfl⟩
  | cons e es ih =>
    obtain ⟨line, hl⟩ := h e (by simp)
    obtain ⟨rest, hr⟩ := ih (fun e he => h e (by simp [he]))
    exact ⟨line ++ [10] ++ rest, by rw [printEvents, hl, Outcome.bind_ok, hr, Outcome.bind_ok]⟩

theorem printTracks_total (ts : List MTrk) (h : ∀ t ∈ ts, ∀ e ∈ t.events, ∃ line, printEvent e = .ok line) :
    ∃ text, printTracks ts = .ok text := by
  induction ts with
  | nil => exact ⟨[], rfl⟩
  | cons t ts ih =>
    obtain ⟨a, ha⟩ := printEvents_total t.events (h t (by simp))
    obtain ⟨rest, hr⟩ := ih (fun t ht => h t (by simp [ht]))
    unfold printTracks printMTrk
    rw [ha, hr]
    exact ⟨_, rfl⟩

/-- **C84.** Every file that can be decoded can be printed. -/
theorem C84_decoded_prints (mc : MiddleC) (spare file : Bytes) (smf : SMF) (hd : decode mc spare file = .ok smf) :
    ∃ text, printSMF smf = .ok text := by
  obtain ⟨m, _, hm, _⟩ := decode_ok hd
  have hall : ∀ t ∈ smf.tracks, ∀ e ∈ t.events, ∃ line, printEvent e = .ok line := by
    intro t ht e he
    obtain ⟨i, ch, hwf, htag, _, hu⟩ := decode_track hd ht
    obtain ⟨db, eb, hb, hq, _⟩ := (C09_event_bytes_cover_track mc spare i ch hwf htag t hu).2 e he
    obtain ⟨⟨init, last, h1, h2, h3⟩, _⟩ := hq
    have hv := (C74_valign e.bytes 3).1 init last eb (by rw [hb, h1]; simp) h2 h3
    unfold printEvent printHex
    rw [hv]
    exact ⟨_, rfl⟩
  obtain ⟨text, ht⟩ := printTracks_total smf.tracks hall
  unfold printSMF
  rw [hm, ht]
  exact ⟨_, rfl⟩

/-! ### What decoded events look like -/

/-- The ranges and names of decoded events. -/
def Body.Made : Body → Prop
  | .midiChannelPrefix ch => ch ≤ 15
  | .midiPort p => p ≤ 127
  | .smpteOffset h m s r f ff => h ≤ 24 ∧ m ≤ 59 ∧ s ≤ 59 ∧ (r = 24 ∨ r = 25 ∨ r = 29 ∨ r = 30) ∧ f < r ∧ ff ≤ 100
  | .timeSignature _ d _ _ => d ≤ 128
  | .keySignature a k name => -7 ≤ a.toInt ∧ a.toInt ≤ 7 ∧ k ≤ 1 ∧ name = keyName a.toInt (k == 1)
  | .sequencerSpecific m _ => ∃ id, m = Lib.lookupManufacturer id
  | .noteOff ch _ v => ch ≤ 15 ∧ v ≤ 127
  | .noteOn ch _ v => ch ≤ 15 ∧ v ≤ 127
  | .polyphonicPressure ch p => ch ≤ 15 ∧ p ≤ 127
  | .controller ch c _ => ch ≤ 15 ∧ c = Lib.lookupController c.id
  | .programChange ch _ _ => ch ≤ 15
  | .channelPressure ch p => ch ≤ 15 ∧ p ≤ 127
  | .pitchBend ch _ => ch ≤ 15
  | .sysExMessage m _ _ => ∃ id, m = Lib.lookupManufacturer id
  | .sysExContinuation _ e => e = false
  | _ => True

theorem makeKeySignature_made {a : Int8} {k : UInt8} {b : Body} (h : makeKeySignature a k = .ok b) : b.Made := by
  have hx : ∀ x : UInt8, ∀ k : Fin 2, (match makeKeySignature x.toInt8 (UInt8.ofNat k.val) with
      | .ok (.keySignature a' k' name) => decide (-7 ≤ a'.toInt) && decide (a'.toInt ≤ 7) && decide (k' ≤ 1) && (name == keyName a'.toInt (k' == 1))
      | .ok _ => false
      | _ => true) = true :=
    fun x => all8 (P := fun x => ∀ k : Fin 2, (match makeKeySignature x.toInt8 (UInt8.ofNat k.val) with
      | .ok (.keySignature a' k' name) => decide (-7 ≤ a'.toInt) && decide (a'.toInt ≤ 7) && decide (k' ≤ 1) && (name == keyName a'.toInt (k' == 1))
      | .ok _ => false
      | _ => true) = true) (by decide +kernel) x
  have hk : k = 0 ∨ k = 1 := by
    unfold makeKeySignature at h
    split at h
    · rename_i hk; exact Or.inl hk
    · split at h
      · rename_i hk; exact Or.inr hk
      · cases h
  have fin : ∀ i : Fin 2, k = UInt8.ofNat i.val → b.Made := by
    intro i hi
    have := hx a.toUInt8 i
    rw [Int8.toInt8_toUInt8, ← hi, h] at this
    cases b with
    | keySignature a' k' name =>
      simp only [Bool.and_eq_true, decide_eq_true_eq, beq_iff_eq] at this
      exact ⟨this.1.1.1, this.1.1.2, this.1.2, this.2⟩
    | _ => cases this
  rcases hk with rfl | rfl
  · exact fin ⟨0, by decide⟩ rfl
  · exact fin ⟨1, by decide⟩ rfl

theorem nibble_le (s : UInt8) : s &&& 0x0f ≤ 15 := all8 (P := fun s => s &&& 0x0f ≤ 15) (by decide +kernel) s

theorem errPanics_ok {α : Type} {o : Outcome α} {a : α} (h : errPanics o = .ok a) : o = .ok a := by
  unfold errPanics at h
  split at h
  · cases h
  · exact h

theorem midi_made {mc : MiddleC} {s : UInt8} {d : Bytes} {b : Body} (h : midiUnmarshal mc s d = .ok b) : b.Made := by
  have hn := nibble_le s
  unfold midiUnmarshal at h
  simp only at h
  repeat' split at h
  · unfold unmarshalNoteOff at h
    split at h
    · split at h
      · cases h
      · rename_i hv
        unfold makeNoteOff at h
        rw [if_neg (UInt8.not_lt.mpr hn), if_neg hv] at h
        injection h with h
        subst h
        exact ⟨hn, UInt8.not_lt.mp hv⟩
    · cases h
  · unfold unmarshalNoteOn at h
    split at h
    · split at h
      · cases h
      · rename_i hv
        unfold makeNoteOn at h
        rw [if_neg (UInt8.not_lt.mpr hn), if_neg hv] at h
        injection h with h
        subst h
        exact ⟨hn, UInt8.not_lt.mp hv⟩
    · cases h
  · unfold unmarshalPolyphonicPressure at h
    split at h
    · unfold makePolyphonicPressure at h
      rw [if_neg (UInt8.not_lt.mpr hn)] at h
      split at h
      · cases h
      · rename_i hv
        injection h with h
        subst h
        exact ⟨hn, UInt8.not_lt.mp hv⟩
    · cases h
  · unfold unmarshalController at h
    split at h
    · unfold makeController at h
      rw [if_neg (UInt8.not_lt.mpr hn)] at h
      injection h with h
      subst h
      exact ⟨hn, by rw [lookupController_id]⟩
    · cases h
  · unfold unmarshalProgramChange at h
    split at h
    · unfold makeProgramChange at h
      rw [if_neg (UInt8.not_lt.mpr hn)] at h
      injection h with h
      subst h
      exact hn
    · cases h
  · unfold unmarshalChannelPressure at h
    split at h
    · split at h
      · cases h
      · rename_i hv
        unfold makeChannelPressure at h
        rw [if_neg (UInt8.not_lt.mpr hn), if_neg hv] at h
        injection h with h
        subst h
        exact ⟨hn, UInt8.not_lt.mp hv⟩
    · cases h
  · unfold unmarshalPitchBend at h
    split at h
    · simp only [makePitchBend, if_neg (UInt8.not_lt.mpr hn)] at h
      injection h with h
      subst h
      exact hn
    · cases h
  · cases h

theorem seqno_made {d : Bytes} {b : Body} (h : unmarshalSequenceNumber d = .ok b) : b.Made := by
  unfold unmarshalSequenceNumber at h
  by_cases hl : d.length ≠ 2
  · rw [if_pos hl] at h; cases h
  · rw [if_neg hl] at h
    cases hx : beUint16 d with
    | ok n => rw [hx, Outcome.bind_ok] at h; injection h with h; subst h; trivial
    | err e => rw [hx] at h; cases h
    | panic => rw [hx] at h; cases h
    | diverge => rw [hx] at h; cases h

theorem prefix_made {d : Bytes} {b : Body} (h : unmarshalMIDIChannelPrefix d = .ok b) : b.Made := by
  unfold unmarshalMIDIChannelPrefix at h
  split at h
  · split at h
    · cases h
    · rename_i hv
      unfold makeMIDIChannelPrefix at h
      rw [if_neg hv] at h
      injection h with h
      subst h
      exact UInt8.not_lt.mp hv
  · cases h

theorem port_made {d : Bytes} {b : Body} (h : unmarshalMIDIPort d = .ok b) : b.Made := by
  unfold unmarshalMIDIPort at h
  split at h
  · split at h
    · cases h
    · rename_i hv
      unfold makeMIDIPort at h
      rw [if_neg hv] at h
      injection h with h
      subst h
      exact UInt8.not_lt.mp hv
  · cases h

theorem tempo_made {d : Bytes} {b : Body} (h : unmarshalTempo d = .ok b) : b.Made := by
  unfold unmarshalTempo at h
  split at h
  · cases h
  · injection h with h; subst h; trivial

theorem makeSMPTEOffset_made {h m s r f ff : UInt8} {b : Body} (hb : makeSMPTEOffset h m s r f ff = .ok b) : b.Made := by
  unfold makeSMPTEOffset at hb
  split at hb
  · cases hb
  split at hb
  · cases hb
  split at hb
  · cases hb
  split at hb
  · cases hb
  split at hb
  · cases hb
  split at hb
  · cases hb
  rename_i q1 q2 q3 q4 q5 q6
  injection hb with hb
  subst hb
  refine ⟨UInt8.not_lt.mp q1, UInt8.not_lt.mp q2, UInt8.not_lt.mp q3, ?_, UInt8.not_le.mp q5, UInt8.not_lt.mp q6⟩
  by_cases h1 : r = 24
  · exact Or.inl h1
  by_cases h2 : r = 25
  · exact Or.inr (Or.inl h2)
  by_cases h3 : r = 29
  · exact Or.inr (Or.inr (Or.inl h3))
  by_cases h4 : r = 30
  · exact Or.inr (Or.inr (Or.inr h4))
  exact absurd ⟨h1, h2, h3, h4⟩ q4

theorem smpte_made {d : Bytes} {b : Body} (h : unmarshalSMPTEOffset d = .ok b) : b.Made := by
  unfold unmarshalSMPTEOffset at h
  split at h
  · unfold smpteFromData at h
    dsimp only at h
    generalize (if _ = (0 : UInt8) then (24 : UInt8) else _) = fr at h
    split at h
    · cases h
    split at h
    · cases h
    split at h
    · cases h
    split at h
    · cases h
    split at h
    · cases h
    split at h
    · cases h
    exact makeSMPTEOffset_made h
  · cases h

theorem key_made {d : Bytes} {b : Body} (h : unmarshalKeySignature d = .ok b) : b.Made := by
  unfold unmarshalKeySignature at h
  split at h
  · unfold keySignatureFromData at h
    simp only at h
    repeat' split at h
    all_goals first | cases h | exact makeKeySignature_made h
  · cases h

theorem time_made {d : Bytes} {b : Body} (h : unmarshalTimeSignature d = .ok b) : b.Made := by
  unfold unmarshalTimeSignature at h
  split at h
  · rename_i num exp c q
    unfold makeTimeSignature at h
    by_cases hd : (denomFromExp exp).toNat ≤ 128
    · obtain ⟨k, hk, _⟩ := (denomLoop_value (denomFromExp exp)).1 hd
      rw [hk, Outcome.bind_ok] at h
      injection h with h
      subst h
      rw [Body.Made, UInt8.le_iff_toNat_le]
      exact hd
    · rw [(denomLoop_value (denomFromExp exp)).2 (by omega)] at h
      cases h
  · cases h

theorem sequencer_made {d : Bytes} {b : Body} (h : unmarshalSequencerSpecific d = .ok b) : b.Made := by
  unfold unmarshalSequencerSpecific at h
  cases hx : sequencerSplit d with
  | ok n => rw [hx, Outcome.bind_ok] at h; injection h with h; subst h; exact ⟨_, rfl⟩
  | err e => rw [hx] at h; cases h
  | panic => rw [hx] at h; cases h
  | diverge => rw [hx] at h; cases h

theorem text_made {k : TextKind} {d : Bytes} {b : Body} (h : unmarshalText k d = .ok b) : b.Made := by
  injection h with h; subst h; trivial

theorem eot_made {d : Bytes} {b : Body} (h : unmarshalEndOfTrack d = .ok b) : b.Made := by
  injection h with h; subst h; trivial

theorem ite_ok {α : Type} {c : Prop} [Decidable c] {x y : Outcome α} {b : α} (P : α → Prop) (h : (if c then x else y) = .ok b)
    (hx : x = .ok b → P b) (hy : y = .ok b → P b) : P b := by
  split at h
  · exact hx h
  · exact hy h

theorem meta_made {t : UInt8} {d : Bytes} {b : Body} (h : metaUnmarshal t d = .ok b) : b.Made := by
  unfold metaUnmarshal at h
  refine ite_ok Body.Made h seqno_made fun h => ?_
  iterate 9 (refine ite_ok Body.Made h text_made fun h => ?_)
  refine ite_ok Body.Made h prefix_made fun h => ?_
  refine ite_ok Body.Made h port_made fun h => ?_
  refine ite_ok Body.Made h eot_made fun h => ?_
  refine ite_ok Body.Made h tempo_made fun h => ?_
  refine ite_ok Body.Made h smpte_made fun h => ?_
  refine ite_ok Body.Made h key_made fun h => ?_
  refine ite_ok Body.Made h time_made fun h => ?_
  refine ite_ok Body.Made h sequencer_made fun h => ?_
  cases h

theorem body_made {mc : MiddleC} {casio : Bool} {raw : Raw} {b : Body} (h : bodyOutcome mc casio raw = .ok b) : b.Made := by
  cases raw with
  | chan s d => exact midi_made (errPanics_ok h)
  | metaEvent t d => exact meta_made (errPanics_ok h)
  | sysex s d =>
    simp only [bodyOutcome] at h
    repeat' split at h
    · cases h
    · unfold unmarshalSysExMessage at h
      split at h
      · cases h
      · unfold sysExFromData at h
        repeat' split at h
        all_goals first
          | (cases h; done)
          | (injection h with h; subst h; exact ⟨_, rfl⟩)
    · injection h with h; subst h; rfl
    · injection h with h; subst h; trivial

theorem context_made (mc : MiddleC) (ctx : Context) (e : Event) (h : e.body.Made) : (applyContext mc ctx e).1.body.Made := by
  obtain ⟨tick, delta, bytes, body⟩ := e
  cases body <;> exact h

theorem loopItems_made (mc : MiddleC) (items : List Spec.Item) (tick : UInt32) (ctx : Context) (es : List Event) (ctx' : Context)
    (hl : loopItems mc tick ctx items = .ok (es, ctx')) : ∀ e ∈ es, e.body.Made := by
  induction items generalizing tick ctx es with
  | nil =>
    simp only [loopItems] at hl
    injection hl with hl
    injection hl with e1 e2
    subst e1
    simp
  | cons i is ih =>
    rw [loopItems] at hl
    cases hb : bodyOutcome mc ctx.casio i.raw with
    | ok b =>
      rw [hb] at hl
      simp only [Outcome.bind_ok] at hl
      have hm := context_made mc (ctxAfter ctx i.raw) (mkEvent tick i b) (body_made hb)
      generalize applyContext mc (ctxAfter ctx i.raw) (mkEvent tick i b) = r at hl hm
      obtain ⟨e0, ctx0⟩ := r
      simp only at hl hm
      cases hr : loopItems mc (tick + i.delta) ctx0 is with
      | ok p =>
        rw [hr] at hl
        simp only [Outcome.bind_ok] at hl
        injection hl with hl
        injection hl with e1 e2
        obtain ⟨p1, p2⟩ := p
        simp only at e1 e2
        subst e1 e2
        intro e he
        rcases List.mem_cons.1 he with rfl | he
        · exact hm
        · exact ih _ _ _ hr e he
      | err _ => rw [hr] at hl; cases hl
      | panic => rw [hr] at hl; cases hl
      | diverge => rw [hr] at hl; cases hl
    | err _ => rw [hb] at hl; cases hl
    | panic => rw [hb] at hl; cases hl
    | diverge => rw [hb] at hl; cases hl

theorem decoded_made {mc : MiddleC} {spare file : Bytes} {smf : SMF} (hd : decode mc spare file = .ok smf) :
    ∀ t ∈ smf.tracks, ∀ e ∈ t.events, e.body.Made := by
  intro t ht
  obtain ⟨i, ch, hwf, htag, _, hu⟩ := decode_track hd ht
  have hb := ((unmarshalMTrk_ok mc spare i ch hwf htag t).1 hu).1
  obtain ⟨items, tail, rs', _, _, hc⟩ := decodeBody_cases mc spare ch.body
  rcases hc with ⟨cs, es, c, _, hl, _, _, _, _, hr⟩ | ⟨_, _, _, _, _, _, hr⟩
  · rcases hr with ⟨_, hr⟩ | ⟨_, hr⟩ | ⟨_, hr⟩
    · rw [hb] at hr
      injection hr with hr
      injection hr with e1 e2
      rw [e1]
      exact loopItems_made mc items 0 newContext es c hl
    · rw [hb] at hr; cases hr
    · rw [hb] at hr; cases hr
  · rcases hr with ⟨_, hr⟩ | ⟨_, hr⟩ <;> (rw [hb] at hr; cases hr)

/-- The names of decoded notes. -/
theorem decoded_named_as {mc : MiddleC} {spare file : Bytes} {smf : SMF} (hd : decode mc spare file = .ok smf) (t : MTrk) (ht : t ∈ smf.tracks) (e : Event)
    (he : e ∈ t.events) (ch v : UInt8) (n : NoteVal) (hb : e.body = .noteOn ch n v ∨ e.body = .noteOff ch n v) :
    ∃ flats, Names flats (octaveOffset mc) n.name n.value.toNat := by
  obtain ⟨i, hi⟩ := List.getElem?_of_mem ht
  obtain ⟨k, hk⟩ := List.getElem?_of_mem he
  have hs := decoded_shown hd i t hi k e hk
  rcases hb with hb | hb
  · rw [hb] at hs
    exact ⟨_, hs.1 ▸ nameAfter_names mc _ _⟩
  · rw [hb] at hs
    have hon : ∀ past : List Content, ∀ s, onName mc ch n.value past = some s → ∃ flats, Names flats (octaveOffset mc) s n.value.toNat := by
      intro past
      induction past with
      | nil => intro s h; cases h
      | cons c past ih =>
        intro s h
        cases c with
        | noteOn ch' n' v' =>
          rw [onName] at h
          split at h
          · injection h with h
            exact ⟨_, h ▸ nameAfter_names mc _ _⟩
          · exact ih s h
        | _ => exact ih s h
    have h1 := hs.1
    cases ho : onName mc ch n.value (t.contents.take k).reverse with
    | none => rw [ho] at h1; rw [h1]; exact ⟨_, nameAfter_names mc _ _⟩
    | some s => rw [ho] at h1; exact h1 ▸ hon _ s ho

/-- The names of decoded notes, with the default octave convention. -/
theorem decoded_named {spare file : Bytes} {smf : SMF} (hd : decode .c3 spare file = .ok smf) (t : MTrk) (ht : t ∈ smf.tracks) (e : Event)
    (he : e ∈ t.events) (ch v : UInt8) (n : NoteVal) (hb : e.body = .noteOn ch n v ∨ e.body = .noteOff ch n v) :
    ∃ flats, Names flats 1 n.name n.value.toNat := decoded_named_as hd t ht e he ch v n hb

/-- The names of the built-in manufacturers. -/
theorem builtin_names : ∀ e ∈ Lib.manufacturers, (∀ e' ∈ Lib.manufacturers, e'.2.name = e.2.name → e'.2 = e.2) ∧ 44 ∉ str e.2.name ∧ 10 ∉ str e.2.name ∧
    ((str e.2.name).head?.any fun b => !blanks.contains b) = true ∧
    (∀ kw ∈ "MThd" :: "MTrk" :: keywords, contains (str e.2.name) (str kw) = false) := by decide +kernel

theorem lookup_builtin (id : Bytes) (h : (Lib.lookupManufacturer id).name ≠ "<unknown>") : ∃ key, (key, Lib.lookupManufacturer id) ∈ Lib.manufacturers := by
  have hk : ∀ k : String, ((Lib.lookupKey Lib.manufacturers k).getD ⟨id, "<unknown>", "<unknown>"⟩).name ≠ "<unknown>" →
      ∃ key, (key, (Lib.lookupKey Lib.manufacturers k).getD ⟨id, "<unknown>", "<unknown>"⟩) ∈ Lib.manufacturers := by
    intro k hne
    unfold Lib.lookupKey at hne ⊢
    cases hf : Lib.manufacturers.find? (fun e => e.1 == k) with
    | none => rw [hf] at hne; exact absurd rfl hne
    | some e => exact ⟨e.1, List.mem_of_find?_eq_some hf⟩
  unfold Lib.lookupManufacturer Lib.lookupManufacturerIn at h ⊢
  split
  · exact hk _ h
  · exact hk _ h
  · rename_i h1 h2
    exfalso
    apply h
    split
    · exact absurd rfl (h1 _)
    · exact absurd rfl (h2 _ _ _)
    · rfl

theorem builtin_findable (table : List (String × Lib.Manufacturer)) (htab : ∀ e, e ∈ table ↔ e ∈ Lib.manufacturers) (id : Bytes)
    (h : (Lib.lookupManufacturer id).name ≠ "<unknown>") :
    Findable table (Lib.lookupManufacturer id) ∧ (∀ kw ∈ "MThd" :: "MTrk" :: keywords, ¬ Occurs kw (str (Lib.lookupManufacturer id).name)) := by
  obtain ⟨key, hk⟩ := lookup_builtin id h
  obtain ⟨h1, h2, h3, h4, h5⟩ := builtin_names _ hk
  refine ⟨⟨⟨key, (htab _).2 hk⟩, fun e he => h1 e ((htab e).1 he), h2, h3, ?_⟩, ?_⟩
  · simp only at h4
    cases hh : (str (Lib.lookupManufacturer id).name).head? with
    | none => rw [hh] at h4; cases h4
    | some b =>
      rw [hh] at h4
      refine ⟨b, rfl, ?_⟩
      simpa using h4
  · intro kw hkw ho
    have := h5 kw hkw
    rw [(contains_iff _ _).mpr ho] at this
    cases this

/-- What the text must not depend on: texts without newline, leading blank, final carriage return and names of events and chunks; notes
from 12 to 131; known manufacturers; no SysEx continuation packets; time signatures whose numbers can be read. -/
def Body.Plain : Body → Prop
  | .text k s => 10 ∉ s ∧ (∀ b, s.head? = some b → b ∉ blanks) ∧ s.getLast? ≠ some 13 ∧ Unambiguous k.tag s ∧ ¬ Occurs "MThd" s ∧ ¬ Occurs "MTrk" s
  | .timeSignature _ d _ t => d ≠ 0 ∧ t ≠ 0 ∧ (10 ≤ t → t % 10 ≠ 9) ∧ (100 ≤ t → t / 10 % 10 ≠ 9)
  | .sequencerSpecific m _ => m.name ≠ "<unknown>"
  | .noteOff _ n _ => 12 ≤ n.value ∧ n.value ≤ 131
  | .noteOn _ n _ => 12 ≤ n.value ∧ n.value ≤ 131
  | .sysExMessage m _ terminated => m.name ≠ "<unknown>" ∧ terminated = true
  | .sysExContinuation _ _ => False
  | _ => True

/-- What is asked of the tracks of a file to print and assemble it, up to the names of notes. -/
theorem plain_tracks {mc : MiddleC} (table : List (String × Lib.Manufacturer)) (htab : ∀ e, e ∈ table ↔ e ∈ Lib.manufacturers) {spare file : Bytes}
    {smf : SMF} (hd : decode mc spare file = .ok smf)
    (ht : ∀ t ∈ smf.tracks, (∃ last, t.events.getLast? = some last ∧ ¬ last.body.IsMessage) ∧ ∀ e ∈ t.events, e.body.Plain)
    (t : MTrk) (htm : t ∈ smf.tracks) : t.tag = tagMTrk ∧ t.events ≠ [] ∧ Ended t.events ∧ ∀ e ∈ t.events, e.body.Contained ∧
      (∀ ch n v, e.body = .noteOn ch n v ∨ e.body = .noteOff ch n v → ch ≤ 15 ∧ v ≤ 127 ∧ 12 ≤ n.value ∧ n.value ≤ 131) ∧
      ((∀ ch n v, ¬ (e.body = .noteOn ch n v ∨ e.body = .noteOff ch n v)) → e.body.Readable table) := by
  obtain ⟨⟨last, hl1, hl2⟩, hpl⟩ := ht t htm
  refine ⟨?_, ?_, ?_, ?_⟩
  · obtain ⟨i, ch, hwf, htag, _, hu⟩ := decode_track hd htm
    exact ((unmarshalMTrk_ok mc spare i ch hwf htag t).1 hu).2.1
  · intro he; rw [he] at hl1; cases hl1
  · intro i e hi hk
    have hpe := hpl e (List.mem_of_getElem? hi)
    rcases hk with ⟨mm, d, s, hb⟩ | ⟨d, s, hb⟩
    · rw [hb] at hpe ⊢
      refine ⟨fun _ => ?_, fun _ => hpe.2⟩
      have hlt : i + 1 < t.events.length := by
        have h1 := (List.getElem?_eq_some_iff.1 hi).1
        apply Nat.lt_of_le_of_ne h1
        intro heq
        rw [List.getLast?_eq_getElem?, ← heq] at hl1
        rw [show i.succ - 1 = i from rfl, hi] at hl1
        injection hl1 with hl1
        exact hl2 (hl1 ▸ ⟨mm, d, s, hb⟩)
      refine ⟨t.events[i + 1], by simp [hlt], ?_⟩
      rintro ⟨d', e', hb'⟩
      have := hpl _ (List.getElem_mem hlt)
      rw [hb'] at this
      exact this
    · rw [hb] at hpe
      exact hpe.elim
  · intro e he
    have hpe := hpl e he
    have hmd := decoded_made hd t htm e he
    have key : ∀ b, b = e.body → (∀ ch n v, b ≠ .noteOn ch n v ∧ b ≠ .noteOff ch n v) → b.Readable table ∧ b.Contained := by
      intro b hb hno
      rw [← hb] at hpe hmd
      cases b
      case sequenceNumber => exact ⟨trivial, trivial⟩
      case text k s => exact ⟨⟨hpe.1, hpe.2.1, hpe.2.2.2.1⟩, hpe.2.2.1, hpe.2.2.2.2⟩
      case timeSignature n d c q =>
        refine ⟨⟨?_, hmd, hpe.2.1, hpe.2.2⟩, trivial⟩
        have := hpe.1
        rw [Ne, ← UInt8.toNat_inj] at this
        rw [UInt8.le_iff_toNat_le]
        show 1 ≤ _
        have h0 : (0 : UInt8).toNat = 0 := rfl
        omega
      case sequencerSpecific mm d =>
        obtain ⟨id, rfl⟩ := hmd
        obtain ⟨f1, f2⟩ := builtin_findable table htab id hpe
        exact ⟨⟨f1, fun l r hlr x hx => f2 x (by rw [hlr]; simp [hx])⟩, f2 _ (by simp), f2 _ (by simp)⟩
      case sysExMessage mm d s =>
        obtain ⟨id, rfl⟩ := hmd
        obtain ⟨f1, f2⟩ := builtin_findable table htab id hpe.1
        exact ⟨⟨f1, fun l r hlr x hx => f2 x (by rw [hlr]; simp [hx])⟩, f2 _ (by simp), f2 _ (by simp)⟩
      case noteOn ch n v => exact absurd rfl (hno ch n v).1
      case noteOff ch n v => exact absurd rfl (hno ch n v).2
      all_goals first | exact ⟨hmd, trivial⟩ | exact ⟨trivial, trivial⟩
    have hnote : ∀ ch n v, e.body = .noteOn ch n v ∨ e.body = .noteOff ch n v → e.body.Contained ∧ ch ≤ 15 ∧ v ≤ 127 ∧ 12 ≤ n.value ∧ n.value ≤ 131 := by
      intro ch n v hb
      rcases hb with hb | hb <;> rw [hb] at hpe hmd ⊢ <;> exact ⟨trivial, hmd.1, hmd.2, hpe.1, hpe.2⟩
    refine ⟨?_, fun ch n v hb => (hnote ch n v hb).2, fun hno => (key _ rfl (fun ch n v => ⟨fun h => hno ch n v (Or.inl h), fun h => hno ch n v (Or.inr h)⟩)).1⟩
    by_cases hx : ∃ ch n v, e.body = .noteOn ch n v ∨ e.body = .noteOff ch n v
    · obtain ⟨ch, n, v, hx⟩ := hx
      exact (hnote ch n v hx).1
    · exact (key _ rfl (fun ch n v => ⟨fun h => hx ⟨ch, n, v, Or.inl h⟩, fun h => hx ⟨ch, n, v, Or.inr h⟩⟩)).2

/-- **C83.** A metrical file that can be decoded, with plain contents, and tracks that are not empty and do not end in a SysEx message:
it can be printed, and assembling the text gives the bytes of the decoded file, unless a line is longer than 65535 bytes.  The order in
which the manufacturers are searched is irrelevant. -/
theorem C83_disassembly_assembles (table : List (String × Lib.Manufacturer)) (htab : ∀ e, e ∈ table ↔ e ∈ Lib.manufacturers) (spare file : Bytes)
    (smf : SMF) (hd : decode .c3 spare file = .ok smf) (m : MThd) (hm : smf.mthd = some m) (hmetrical : m.division.toNat < 32768)
    (ht : ∀ t ∈ smf.tracks, (∃ last, t.events.getLast? = some last ∧ ¬ last.body.IsMessage) ∧ ∀ e ∈ t.events, e.body.Plain) :
    ∃ text, printSMF smf = .ok text ∧ (ShortLines text → assembleText table text = encode smf) := by
  obtain ⟨text, hp⟩ := C84_decoded_prints .c3 spare file smf hd
  refine ⟨text, hp, fun hshort => ?_⟩
  obtain ⟨m', h, hm', hs, hv, hn, htr⟩ := decode_ok hd
  rw [hm] at hm'
  injection hm' with hm'
  subst hm'
  refine C82_text_roundtrip table smf m hm h hs hv ?_ hn ?_ text hp hshort
  · rw [← hs.2.2.2.2.1]; exact hmetrical
  · intro t htm
    obtain ⟨h1, h2, h3, h4⟩ := plain_tracks table htab hd ht t htm
    refine ⟨h1, h2, h3, fun e he => ?_⟩
    obtain ⟨h5, h6, h7⟩ := h4 e he
    refine ⟨?_, h5⟩
    by_cases hx : ∃ ch n v, e.body = .noteOn ch n v ∨ e.body = .noteOff ch n v
    · obtain ⟨ch, n, v, hx⟩ := hx
      obtain ⟨q1, q2, q3, q4⟩ := h6 ch n v hx
      have hnm := decoded_named hd t htm e he ch v n hx
      rcases hx with hx | hx <;> rw [hx] <;> exact ⟨q1, q2, q3, q4, hnm⟩
    · exact h7 fun ch n v hb => hx ⟨ch, n, v, hb⟩

/-! ### A file that meets the hypotheses -/

/-- A test for `Body.Plain`. -/
def plainTest : Body → Bool
  | .text k s => !s.contains 10 && (s.head?.all fun b => !blanks.contains b) && s.getLast? != some 13 &&
      ((keywords.take (caseIndex (.text k s))).all fun kw => !contains s (str kw)) && !contains s (str "MThd") && !contains s (str "MTrk")
  | .timeSignature _ d _ t => d != 0 && t != 0 && (!decide (10 ≤ t) || t % 10 != 9) && (!decide (100 ≤ t) || t / 10 % 10 != 9)
  | .sequencerSpecific m _ => m.name != "<unknown>"
  | .noteOff _ n _ => decide (12 ≤ n.value) && decide (n.value ≤ 131)
  | .noteOn _ n _ => decide (12 ≤ n.value) && decide (n.value ≤ 131)
  | .sysExMessage m _ terminated => m.name != "<unknown>" && terminated
  | .sysExContinuation _ _ => false
  | _ => true

theorem plain_of_test (b : Body) (h : plainTest b = true) : b.Plain := by
  have hno : ∀ s : Bytes, ∀ w : String, contains s (str w) = false → ¬ Occurs w s := by
    intro s w h ho
    rw [(contains_iff _ _).mpr ho] at h
    cases h
  cases b <;> simp only [plainTest, Bool.and_eq_true, Bool.or_eq_true, Bool.not_eq_true', decide_eq_true_eq, decide_eq_false_iff_not, bne_iff_ne] at h
  case text k s =>
    obtain ⟨⟨⟨⟨⟨h1, h2⟩, h3⟩, h4⟩, h5⟩, h6⟩ := h
    refine ⟨by simpa using h1, ?_, h3, (unambiguous_iff (.text k s) s).mpr ?_, hno _ _ h5, hno _ _ h6⟩
    · intro b hb
      rw [hb] at h2
      simpa using h2
    · intro kw hkw
      have := List.all_eq_true.mp h4 kw hkw
      simpa using this
  case timeSignature n d c q =>
    obtain ⟨⟨⟨h1, h2⟩, h3⟩, h4⟩ := h
    exact ⟨h1, h2, fun h => h3.resolve_left (fun g => g h), fun h => h4.resolve_left (fun g => g h)⟩
  case sequencerSpecific => exact h
  case noteOff => exact h
  case noteOn => exact h
  case sysExMessage => exact h
  case sysExContinuation => cases h
  all_goals trivial

theorem short_text (text : Bytes) (h : text.length < 65536) : ShortLines text := by
  intro a l b he _
  rw [he] at h
  simp only [List.length_append] at h
  omega

/-- A file with a text, a tempo, notes, a controller and a SysEx message. -/
def plainFile : Bytes :=
  [0x4d, 0x54, 0x68, 0x64, 0, 0, 0, 6, 0, 0, 0, 1, 1, 0xe0, 0x4d, 0x54, 0x72, 0x6b, 0, 0, 0, 0x32] ++
  [0x00, 0xff, 0x03, 0x04, 0x54, 0x65, 0x73, 0x74] ++ [0x00, 0xff, 0x51, 0x03, 0x07, 0xa1, 0x20] ++ [0x00, 0xff, 0x59, 0x02, 0xfd, 0x01] ++
  [0x00, 0xb0, 0x07, 0x64] ++ [0x81, 0x70, 0x90, 0x3d, 0x48] ++ [0x83, 0x60, 0x80, 0x3d, 0x40] ++
  [0x00, 0xf0, 0x05, 0x7e, 0x00, 0x09, 0x01, 0xf7] ++ [0x05, 0xc0, 0x19] ++ [0x00, 0xff, 0x2f, 0x00]

example : ∃ smf text, decode .c3 [] plainFile = .ok smf ∧ printSMF smf = .ok text ∧ assembleText Lib.manufacturers text = .ok plainFile := by
  obtain ⟨smf, h1, h2⟩ := Outcome.of_test (o := decode .c3 [] plainFile)
    (p := fun smf => (match smf.mthd with | some m => decide (m.division.toNat < 32768) | none => false) &&
      (smf.tracks.all fun t => (match t.events.getLast? with | some ⟨_, _, _, .endOfTrack⟩ => true | _ => false) && t.events.all fun e => plainTest e.body) &&
      (match encode smf with | .ok bs => bs == plainFile | _ => false) &&
      (match printSMF smf with | .ok text => decide (text.length < 65536) | _ => false)) (by decide +kernel)
  simp only [Bool.and_eq_true, List.all_eq_true] at h2
  obtain ⟨⟨⟨q1, q2⟩, q3⟩, q4⟩ := h2
  split at q1
  · rename_i m hm
    obtain ⟨text, ht, hrt⟩ := C83_disassembly_assembles Lib.manufacturers (fun _ => Iff.rfl) [] plainFile smf h1 m hm (by simpa using q1) (by
      intro t htm
      obtain ⟨a, b⟩ := q2 t htm
      refine ⟨?_, fun e he => plain_of_test _ (b e he)⟩
      split at a
      · rename_i hl
        exact ⟨_, hl, by rintro ⟨_, _, _, h⟩; cases h⟩
      · cases a)
    refine ⟨smf, text, h1, ht, ?_⟩
    rw [ht] at q4
    rw [hrt (short_text text (by simpa using q4))]
    split at q3
    · rename_i bs hbs
      rw [hbs]
      simp only [beq_iff_eq] at q3
      rw [q3]
    · cases q3
  · cases q1

end Midiasm
