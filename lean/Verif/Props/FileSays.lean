import Verif.Spec.Decoded
import Verif.Props.Context
import Verif.Props.Track
import Verif.Props.Events

/-!
C143: what a sequence of bytes decodes to, exactly.
-/

set_option linter.unusedSimpArgs false

namespace Midiasm
open Spec

/-- The names that an event shows. -/
def Body.names : Body → List String
  | .noteOn _ n _ => [n.name, n.alias]
  | .noteOff _ n _ => [n.name, n.alias]
  | .keySignature _ _ s => [s]
  | .controller _ c _ => [c.name]
  | .sequencerSpecific m _ => [m.region, m.name]
  | .sysExMessage m _ _ => [m.region, m.name]
  | _ => []

/-- The bank that an event shows. -/
def Body.bank : Body → Option Nat
  | .programChange _ b _ => some b.toNat
  | _ => none

/-- What an event shows. -/
def Event.entry (e : Event) : Entry := ⟨e.tick.toNat, e.delta.toNat, e.bytes, e.body.view, e.body.names, e.body.bank⟩

/-- What a track shows. -/
def MTrk.entry (t : MTrk) : TrackEntry := ⟨t.trackNumber, t.tag, t.length.toNat, t.bytes, t.events.map Event.entry⟩

/-- What a file shows. -/
def SMF.ShowsFile (smf : SMF) (h : Header) (ts : List TrackEntry) : Prop :=
  (∃ m, smf.mthd = some m ∧ m.Shows h ∧ m.bytes = h.chunk.bytes) ∧ smf.tracks.map MTrk.entry = ts

/-! ### Names -/

theorem hexText_eq (b : UInt8) : hexText b = Lib.hex2 b :=
  all8 (P := fun b => hexText b = Lib.hex2 b) (by decide +kernel) b

theorem makerNames_eq (id : Bytes) (h : id.length = 1 ∨ id.length = 3) :
    makerNames id = [(Lib.lookupManufacturer id).region, (Lib.lookupManufacturer id).name] := by
  unfold makerNames Lib.lookupManufacturer Lib.lookupManufacturerIn Lib.lookupKey
  rcases id with _ | ⟨a, _ | ⟨b, _ | ⟨c, _ | ⟨d, id⟩⟩⟩⟩
  · simp at h
  · simp only [hexText_eq]
    cases Lib.manufacturers.find? (fun e => e.1 == Lib.hex2 a) <;> rfl
  · simp at h
  · simp only [hexText_eq]
    cases Lib.manufacturers.find? (fun e => e.1 == Lib.hex2 b ++ Lib.hex2 c) <;> rfl
  · simp only [List.length_cons] at h; omega

theorem controllerName_eq (id : UInt8) :
    ((Lib.controllers.find? (fun e => e.1.toNat == id.toNat)).map (·.2.name)).getD "<unknown>" = (Lib.lookupController id).name :=
  all8 (P := fun id => ((Lib.controllers.find? (fun e => e.1.toNat == id.toNat)).map (·.2.name)).getD "<unknown>" = (Lib.lookupController id).name)
    (by decide +kernel) id

theorem onName_eq (mc : MiddleC) (ch n : UInt8) (past : List Content) :
    onName mc ch n past = soundingName (octaveOffset mc) ch.toNat n.toNat past := by
  induction past with
  | nil => rfl
  | cons c past ih =>
    cases c with
    | noteOn ch' n' v =>
      simp only [onName, soundingName, ih, noteName_eq]
    | _ => exact ih

theorem midi_controller {mc : MiddleC} {s : UInt8} {d : Bytes} {ch v : UInt8} {c : Lib.Controller}
    (h : midiUnmarshal mc s d = .ok (.controller ch c v)) : c = Lib.lookupController c.id := by
  unfold midiUnmarshal at h
  simp only at h
  repeat' split at h
  all_goals first
    | (unfold unmarshalController makeController at h
       split at h
       · split at h
         · cases h
         · injection h with h
           injection h with _ h2 _
           rw [← h2, Lib.lookupController_id]
       · cases h)
    | (exfalso
       first
        | (unfold unmarshalNoteOff at h; split at h <;> (try split at h) <;> (try unfold makeNoteOff at h) <;> (try split at h) <;> (try split at h) <;> cases h)
        | (unfold unmarshalNoteOn at h; split at h <;> (try split at h) <;> (try unfold makeNoteOn at h) <;> (try split at h) <;> (try split at h) <;> cases h)
        | (unfold unmarshalPolyphonicPressure at h; split at h <;> (try unfold makePolyphonicPressure at h) <;> (try split at h) <;> (try split at h) <;> cases h)
        | (unfold unmarshalProgramChange at h; split at h <;> (try unfold makeProgramChange at h) <;> (try split at h) <;> cases h)
        | (unfold unmarshalChannelPressure at h; split at h <;> (try split at h) <;> (try unfold makeChannelPressure at h) <;> (try split at h) <;> (try split at h) <;> cases h)
        | (unfold unmarshalPitchBend at h; split at h <;> (try unfold makePitchBend at h) <;> (try split at h) <;> cases h)
        | cases h)

theorem masked_type (t k : UInt8) (h : t.toNat % 128 = k.toNat) : t &&& 0x7f = k := by
  apply u8_ext
  rw [← h, UInt8.toNat_and]
  exact Nat.and_two_pow_sub_one_eq_mod _ 7

theorem metaShape_no {t : Nat} {d : Bytes} {c : Content} (h : metaShape t d c) :
    (∀ ch k v, c ≠ .controller ch k v) ∧ (∀ i x y, c ≠ .sysex i x y) := by
  constructor <;> intros <;> intro he <;> subst he <;> exact h

theorem chan_no {s : UInt8} {d : Bytes} {c : Content} (h : chanMeaning s d = some c) :
    (∀ a k, c ≠ .keySignature a k) ∧ (∀ i x, c ≠ .sequencerSpecific i x) ∧ (∀ i x y, c ≠ .sysex i x y) := by
  simp only [chanMeaning] at h
  refine ⟨?_, ?_, ?_⟩ <;> intros <;> intro he <;> subst he <;> split at h <;> (try split at h) <;> simp at h

theorem sysex_no {p : Bool} {s : UInt8} {d : Bytes} {c : Content} (h : sysexMeaning p s d = some c) :
    (∀ a k, c ≠ .keySignature a k) ∧ (∀ i x, c ≠ .sequencerSpecific i x) ∧ (∀ ch k v, c ≠ .controller ch k v) := by
  simp only [sysexMeaning] at h
  refine ⟨?_, ?_, ?_⟩ <;> intros <;> intro he <;> subst he <;> repeat' split at h
  all_goals simp at h

/-- The names that do not depend on the events before. -/
theorem body_names (mc : MiddleC) (o : Int) (past : List Content) (pending : Bool) (raw : Raw) (b : Body) (c : Content)
    (hb : bodyOutcome mc pending raw = .ok b) (hm : meaning pending raw = some c) (hv : b.view = asShown c)
    (n1 : ∀ ch n v, c ≠ .noteOn ch n v) (n2 : ∀ ch n v, c ≠ .noteOff ch n v) : b.names = namesOf o past c := by
  cases c with
  | noteOn ch n v => exact absurd rfl (n1 ch n v)
  | noteOff ch n v => exact absurd rfl (n2 ch n v)
  | keySignature a k =>
    cases raw with
    | chan s d => exact absurd rfl ((chan_no hm).1 a k)
    | sysex s d => exact absurd rfl ((sysex_no hm).1 a k)
    | metaEvent t d =>
      obtain ⟨h1, x, y, rfl, rfl, rfl, h2, h3, h4⟩ := metaMeaning_inv hm
      have ht : t &&& 0x7f = 0x59 := masked_type t 0x59 h1
      have he : bodyOutcome mc pending (.metaEvent t [x, y]) = bodyOutcome mc pending (.metaEvent 0x59 [x, y]) := by
        simp only [bodyOutcome, ht]; rfl
      rw [he, ((C21_key_signature mc pending x y).1 ⟨h2, h3, h4⟩).1] at hb
      injection hb with hb
      subst hb
      have : (y == 1) = (y.toNat == 1) := by
        rw [Bool.eq_iff_iff, beq_iff_eq, beq_iff_eq, ← UInt8.toNat_inj]; rfl
      simp only [Body.names, namesOf, this]
  | controller ch k v =>
    cases raw with
    | metaEvent t d => exact absurd rfl ((metaShape_no (metaMeaning_inv hm)).1 ch k v)
    | sysex s d => exact absurd rfl ((sysex_no hm).2.2 ch k v)
    | chan s d =>
      cases b <;> simp only [Body.view, asShown, reduceCtorEq] at hv
      injection hv with h1 h2 h3
      subst h1 h2 h3
      simp only [bodyOutcome] at hb
      simp only [Body.names, namesOf, controllerName_eq]
      unfold errPanics at hb
      split at hb
      · cases hb
      · rw [← midi_controller hb]
  | sequencerSpecific i x =>
    cases raw with
    | chan s d => exact absurd rfl ((chan_no hm).2.1 i x)
    | sysex s d => exact absurd rfl ((sysex_no hm).2.1 i x)
    | metaEvent t d =>
      obtain ⟨h1, h2⟩ := metaMeaning_inv hm
      have ht : t &&& 0x7f = 0x7f := masked_type t 0x7f h1
      have he : bodyOutcome mc pending (.metaEvent t d) = errPanics (unmarshalSequencerSpecific d) := by
        simp only [bodyOutcome, ht]; rfl
      rw [he] at hb
      rcases h2 with ⟨p, q, rfl, rfl⟩ | ⟨p, hp, rfl, rfl⟩
      · have : unmarshalSequencerSpecific (0 :: p :: q :: x) = .ok (.sequencerSpecific (Lib.lookupManufacturer [0, p, q]) x) := by
          have hl : ¬ x.length + 1 + 1 + 1 < 3 := by omega
          simp [unmarshalSequencerSpecific, sequencerSplit, hl]
        rw [this] at hb
        injection hb with hb
        subst hb
        simp only [Body.names, namesOf]
        rw [makerNames_eq _ (by simp)]
      · have : unmarshalSequencerSpecific (p :: x) = .ok (.sequencerSpecific (Lib.lookupManufacturer [p]) x) := by
          simp [unmarshalSequencerSpecific, sequencerSplit, hp]
        rw [this] at hb
        injection hb with hb
        subst hb
        simp only [Body.names, namesOf]
        rw [makerNames_eq _ (by simp)]
  | sysex i x y =>
    cases raw with
    | chan s d => exact absurd rfl ((chan_no hm).2.2 i x y)
    | metaEvent t d => exact absurd rfl ((metaShape_no (metaMeaning_inv hm)).2 i x y)
    | sysex s d =>
      simp only [meaning, sysexMeaning] at hm
      split at hm
      · rename_i hs
        split at hm
        · rename_i id q d'
          cases pending with
          | true => simp at hm
          | false =>
            simp only [Bool.false_eq_true, if_false, Option.some.injEq, Content.sysex.injEq] at hm
            obtain ⟨rfl, rfl, rfl⟩ := hm
            simp only [bodyOutcome, hs, Bool.false_eq_true, and_false, if_false, if_true, unmarshalSysExMessage, List.length_cons,
              Nat.succ_ne_zero, Nat.add_one_ne_zero, sysExFromData] at hb
            have hn : b.names = [(Lib.lookupManufacturer [id]).region, (Lib.lookupManufacturer [id]).name] := by
              split at hb
              · cases hb
              · split at hb <;> (injection hb with hb; subst hb; rfl)
            rw [hn]
            simp only [namesOf]
            rw [makerNames_eq _ (by simp)]
        · cases hm
      · split at hm <;> simp at hm
  | _ =>
    cases b <;> simp only [Body.view, asShown, reduceCtorEq] at hv
    rfl

/-! ### Events -/

theorem event_names {mc : MiddleC} {past : List Content} {ctx : Context} (hT : Tracks mc past ctx) (e : Event) (c : Content)
    (hv : e.body.view = asShown c)
    (hn : (∀ ch n v, c ≠ .noteOn ch n v) → (∀ ch n v, c ≠ .noteOff ch n v) → e.body.names = namesOf (octaveOffset mc) past c) :
    (applyContext mc ctx e).1.body.names = namesOf (octaveOffset mc) past c ∧ (applyContext mc ctx e).1.body.bank = bankOf past c := by
  have hs := (applyContext_shown hT e).1
  obtain ⟨tick, delta, bytes, body⟩ := e
  simp only at hv hn
  cases c with
  | noteOn ch n v =>
    cases body <;> simp only [Body.view, asShown, reduceCtorEq] at hv
    injection hv with h1 h2 h3
    subst h1 h2 h3
    simp only [applyContext, Shown] at hs
    simp only [applyContext, Body.names, Body.bank, namesOf, bankOf, hs, noteName_eq, and_self]
  | noteOff ch n v =>
    cases body <;> simp only [Body.view, asShown, reduceCtorEq] at hv
    injection hv with h1 h2 h3
    subst h1 h2 h3
    simp only [applyContext, Shown] at hs
    simp only [applyContext, Body.names, Body.bank, namesOf, bankOf, hs, noteName_eq, onName_eq, and_self]
  | program ch p =>
    cases body <;> simp only [Body.view, asShown, reduceCtorEq] at hv
    injection hv with h1 h2
    subst h1 h2
    simp only [applyContext, Shown, maskedBank] at hs
    simp only [applyContext, Body.names, Body.bank, namesOf, bankOf, hs, and_self]
  | _ =>
    have := hn (by intros; intro h; cases h) (by intros; intro h; cases h)
    cases body <;> simp only [Body.view, asShown, reduceCtorEq] at hv
    exact ⟨this, rfl⟩

theorem loopItems_entries (mc : MiddleC) (items : List Item) (wf : ∀ i ∈ items, WfRaw i.raw) (tick : UInt32) (elapsed : Nat) (ctx : Context)
    (past : List Content) (hT : Tracks mc past ctx) (ht : tick.toNat = elapsed % 2 ^ 32) (cs : List Content)
    (hm : meanings ctx.casio (items.map Item.raw) = some cs) (es : List Event) (ctx' : Context)
    (hl : loopItems mc tick ctx items = .ok (es, ctx')) : es.map Event.entry = entries (octaveOffset mc) past elapsed (items.zip cs) := by
  induction items generalizing tick elapsed ctx past cs es with
  | nil =>
    simp only [loopItems] at hl
    injection hl with hl
    injection hl with e1 e2
    subst e1
    simp [entries]
  | cons i is ih =>
    simp only [List.map_cons, meanings] at hm
    split at hm
    · rename_i c cs' hc hcs
      injection hm with hm
      subst hm
      obtain ⟨b, hb, hv⟩ := (body_meaning mc ctx.casio i.raw (wf i (by simp))).1 c hc
      obtain ⟨_, hx2⟩ := applyContext_ctx mc (ctxAfter ctx i.raw) (mkEvent tick i b)
      obtain ⟨he1, he2, he3, he4⟩ := applyContext_event mc (ctxAfter ctx i.raw) (mkEvent tick i b)
      have hT' := ctxAfter_tracks hT i.raw
      obtain ⟨_, a2⟩ := applyContext_shown hT' (mkEvent tick i b)
      obtain ⟨f1, f2⟩ := event_names hT' (mkEvent tick i b) c hv (body_names mc _ past ctx.casio i.raw b c hb hc hv)
      rw [ctxAfter_casio] at hx2
      rw [loopItems, hb] at hl
      simp only [Outcome.bind_ok] at hl
      have hv' : (mkEvent tick i b).body.view = asShown c := hv
      rw [hv'] at a2 he4
      generalize applyContext mc (ctxAfter ctx i.raw) (mkEvent tick i b) = r at *
      obtain ⟨e0, ctx0⟩ := r
      simp only at *
      cases hr : loopItems mc (tick + i.delta) ctx0 is with
      | ok p =>
        rw [hr] at hl
        simp only [Outcome.bind_ok] at hl
        injection hl with hl
        injection hl with e1 e2
        obtain ⟨p1, p2⟩ := p
        simp only at e1 e2
        subst e1 e2
        have ih' := ih (fun j hj => wf j (by simp [hj])) (tick + i.delta) (elapsed + i.delta.toNat) ctx0 (asShown c :: past) a2
          (by rw [UInt32.toNat_add, ht]; omega) cs' (by rw [hx2]; exact hcs) p1 hr
        simp only [List.map_cons, List.zip_cons_cons, entries, ih', List.cons.injEq, and_true]
        have htick : (mkEvent tick i b).tick.toNat = elapsed % 2 ^ 32 + i.delta.toNat := by
          have h1 := tick.toNat_lt
          have h2 := i.delta.toNat_lt
          simp only [mkEvent, UInt64.toNat_add, UInt32.toNat_toUInt64]
          rw [Nat.mod_eq_of_lt (by omega), ht]
        simp only [Event.entry, he1, he2, he3, he4, f1, f2, htick]
        rfl
      | err _ => rw [hr] at hl; cases hl
      | panic => rw [hr] at hl; cases hl
      | diverge => rw [hr] at hl; cases hl
    · cases hm

/-! ### Tracks and files -/

/-- A track chunk decodes to exactly the tracks it stands for. -/
theorem unmarshal_says (mc : MiddleC) (spare : Bytes) (i : Nat) (c : Chunk) (wf : c.Wf) (ht : c.tag = tagMTrk) (t : TrackEntry) :
    (∃ m, unmarshalMTrk mc spare i c.bytes = .ok m ∧ m.entry = t) ↔ ChunkSays (octaveOffset mc) i c t := by
  have hlen : (UInt32.ofNat c.body.length).toNat = c.body.length := by
    have := wf.2
    simp; omega
  constructor
  · rintro ⟨m, hu, rfl⟩
    obtain ⟨items, tail, rs', cs, h1, h2, h3, h4, h5, _⟩ := track_decomposition mc spare i c wf ht m hu
    obtain ⟨_, u1, u2, u3, u4⟩ := (unmarshalMTrk_ok mc spare i c wf ht m).1 hu
    refine ⟨items, tail, rs', cs, h1, h2, h3, h4, ?_⟩
    have := loopItems_entries mc items (framedTrack_wf h2) 0 0 newContext [] (tracks_start mc) rfl cs h4 m.events m.context h5
    unfold MTrk.entry
    rw [this, u1, u2, u3, u4, hlen]
  · rintro ⟨items, tail, rs', cs, h1, h2, h3, h4, rfl⟩
    obtain ⟨es, ctx, _, _, _, _, h5, h6, _⟩ := decodeBody_tail mc spare items rs' tail h2 cs h4
    have h6 := h6 h3
    rw [← h1] at h6
    have := loopItems_entries mc items (framedTrack_wf h2) 0 0 newContext [] (tracks_start mc) rfl cs h4 es ctx h5
    rw [unmarshalMTrk_chunk mc spare i c wf ht, h6, Outcome.bind_ok]
    refine ⟨_, rfl, ?_⟩
    unfold MTrk.entry
    simp only [this, hlen]

theorem shows_unique {m : MThd} {h h' : Header} (a : m.Shows h) (b : m.Shows h') : h = h' := by
  obtain ⟨_, _, a1, a2, a3, _⟩ := a
  obtain ⟨_, _, b1, b2, b3, _⟩ := b
  obtain ⟨f, t, d⟩ := h
  obtain ⟨f', t', d'⟩ := h'
  simp only at *
  subst a1 a2 a3 b1 b2 b3
  rfl

theorem header_wf {h : Header} {cs : List Chunk} (wf : ∀ c ∈ cs, c.Wf) : ∀ x ∈ h.chunk :: cs, x.Wf := by
  intro x hx
  rcases List.mem_cons.1 hx with rfl | hx
  · exact header_chunk_wf h
  · exact wf x hx

/-- C143: what a sequence of bytes decodes to, exactly: the bytes decode to a file with these contents if and only if they stand for it. -/
theorem C143_decoding (mc : MiddleC) (spare bytes : Bytes) (h : Header) (ts : List TrackEntry) :
    (∃ smf, decode mc spare bytes = .ok smf ∧ smf.ShowsFile h ts) ↔ FileSays (octaveOffset mc) bytes h ts := by
  have htc : ∀ {cs : List Chunk} {i : Nat} {c : Chunk}, (∀ c ∈ cs, c.Wf) → (trackChunks cs)[i]? = some c → c.Wf ∧ c.tag = tagMTrk := by
    intro cs i c wf hc
    have := List.mem_filter.1 (List.mem_of_getElem? hc)
    exact ⟨wf c this.1, by simpa using this.2⟩
  constructor
  · rintro ⟨smf, hd, ⟨m, hm, hs, hmb⟩, rfl⟩
    obtain ⟨cs, tail, rfl, wf, htail⟩ := split_file bytes
    rcases htail with htail | htail
    · cases cs with
      | nil =>
        rw [decode, (chunkLoop_file [] (by simp) tail).1 htail] at hd
        cases hd
      | cons c cs =>
        have wc := wf c (by simp)
        have wcs : ∀ c ∈ cs, c.Wf := fun c hc => wf c (by simp [hc])
        rw [decode_chunks mc spare c cs wf tail htail] at hd
        obtain ⟨_, k2, k3⟩ := C05_header_acceptance c wc
        by_cases hv : ∃ h : Header, h.Valid ∧ c = h.chunk
        · obtain ⟨h', hv, rfl⟩ := hv
          obtain ⟨m', hm', hs'⟩ := k2 h' hv rfl
          rw [hm', Outcome.bind_ok] at hd
          cases hts : decodeTracks mc spare (cs.map Chunk.bytes) 0 with
          | ok ts =>
            rw [hts, Outcome.bind_ok] at hd
            split at hd
            · cases hd
            · rename_i hn
              injection hd with hd
              subst hd
              injection hm with hm
              subst hm
              have he := shows_unique hs hs'
              subst he
              have hn' : ts.length = m'.tracks.toNat := by simpa using hn
              obtain ⟨d1, d2⟩ := (decodeTracks_ok mc spare cs wcs 0 ts).1 hts
              have htr : m'.tracks.toNat = h.tracks := hs.2.2.2.1
              refine ⟨cs, tail, rfl, hv, wcs, htail, by rw [List.length_map]; exact hn'.trans htr, ?_, ?_⟩
              · show (trackChunks cs).length = _
                omega
              · intro i c t hc ht
                obtain ⟨w1, w2⟩ := htc wcs hc
                simp only [List.getElem?_map, Option.map_eq_some_iff] at ht
                obtain ⟨u, hu, rfl⟩ := ht
                have := d2 i c u hc hu
                rw [Nat.zero_add] at this
                exact (unmarshal_says mc spare i c w1 w2 _).1 ⟨u, this, rfl⟩
          | err e => rw [hts] at hd; cases hd
          | panic => rw [hts] at hd; cases hd
          | diverge => rw [hts] at hd; cases hd
        · rw [k3 hv] at hd
          cases hd
    · rw [decode, (chunkLoop_file cs wf tail).2 htail] at hd
      cases hd
  · rintro ⟨cs, tail, rfl, hv, wf, htail, h1, h2, h3⟩
    obtain ⟨m, hm, hs, hb⟩ := unmarshalMThd_valid h hv
    have h2 : (trackChunks cs).length = h.tracks := h2
    obtain ⟨us, hus, hlen, hu⟩ : ∃ us : List MTrk, us.map MTrk.entry = ts ∧ us.length = (trackChunks cs).length ∧
        ∀ i c t, (trackChunks cs)[i]? = some c → us[i]? = some t → unmarshalMTrk mc spare i c.bytes = .ok t := by
      have key : ∀ i : Fin ts.length, ∃ u : MTrk, u.entry = ts[i.val] ∧ ∀ c, (trackChunks cs)[i.val]? = some c → unmarshalMTrk mc spare i.val c.bytes = .ok u := by
        rintro ⟨i, hi⟩
        have hi' : i < (trackChunks cs).length := by omega
        obtain ⟨w1, w2⟩ := htc wf (List.getElem?_eq_getElem hi')
        obtain ⟨u, hu, hue⟩ := (unmarshal_says mc spare i _ w1 w2 _).2
          (h3 i _ ts[i] (List.getElem?_eq_getElem hi') (List.getElem?_eq_getElem hi))
        refine ⟨u, hue, ?_⟩
        intro c hc
        rw [List.getElem?_eq_getElem hi'] at hc
        injection hc with hc
        rw [← hc]; exact hu
      refine ⟨List.ofFn fun i => (key i).choose, ?_, by simp; omega, ?_⟩
      · apply List.ext_getElem
        · simp
        · intro i a b
          simp only [List.getElem_map, List.getElem_ofFn]
          exact (key ⟨i, b⟩).choose_spec.1
      · intro i c t hc ht
        obtain ⟨hi, ht⟩ := List.getElem?_eq_some_iff.1 ht
        simp only [List.length_ofFn] at hi
        rw [List.getElem_ofFn] at ht
        rw [← ht]
        exact (key ⟨i, hi⟩).choose_spec.2 c hc
    refine ⟨⟨some m, us⟩, ?_, ⟨m, rfl, hs, hb⟩, hus⟩
    rw [decode_chunks mc spare h.chunk cs (header_wf wf) tail htail, hm, Outcome.bind_ok,
      (decodeTracks_ok mc spare cs wf 0 us).2 ⟨hlen, fun i c t hc ht => by rw [Nat.zero_add]; exact hu i c t hc ht⟩, Outcome.bind_ok, if_neg]
    have htr : m.tracks.toNat = h.tracks := hs.2.2.2.1
    omega

/-- C143: bytes stand for at most one file. -/
theorem C143_unambiguous (mc : MiddleC) (bytes : Bytes) (h h' : Header) (ts ts' : List TrackEntry) (a : FileSays (octaveOffset mc) bytes h ts)
    (b : FileSays (octaveOffset mc) bytes h' ts') : h = h' ∧ ts = ts' := by
  obtain ⟨smf, d1, ⟨m, m1, m2, _⟩, m3⟩ := (C143_decoding mc [] bytes h ts).2 a
  obtain ⟨smf', d2, ⟨m', n1, n2, _⟩, n3⟩ := (C143_decoding mc [] bytes h' ts').2 b
  rw [d1] at d2
  injection d2 with d2
  subst d2
  rw [m1] at n1
  injection n1 with n1
  subst n1
  exact ⟨shows_unique m2 n2, m3.symm.trans n3⟩

/-- Every decoded file shows something. -/
theorem C143_total (mc : MiddleC) (spare bytes : Bytes) (smf : SMF) (hd : decode mc spare bytes = .ok smf) :
    ∃ h ts, FileSays (octaveOffset mc) bytes h ts ∧ smf.ShowsFile h ts := by
  have : ∃ h ts, smf.ShowsFile h ts := by
    obtain ⟨cs, tail, rfl, wf, htail⟩ := split_file bytes
    rcases htail with htail | htail
    · cases cs with
      | nil =>
        rw [decode, (chunkLoop_file [] (by simp) tail).1 htail] at hd
        cases hd
      | cons c cs =>
        rw [decode_chunks mc spare c cs wf tail htail] at hd
        by_cases hv : ∃ h : Header, h.Valid ∧ c = h.chunk
        · obtain ⟨h', hv, rfl⟩ := hv
          obtain ⟨m, hm, hs, hb⟩ := unmarshalMThd_valid h' hv
          rw [hm, Outcome.bind_ok] at hd
          cases hts : decodeTracks mc spare (cs.map Chunk.bytes) 0 with
          | ok ts =>
            rw [hts, Outcome.bind_ok] at hd
            split at hd
            · cases hd
            · injection hd with hd
              subst hd
              exact ⟨h', _, ⟨m, rfl, hs, hb⟩, rfl⟩
          | err e => rw [hts] at hd; cases hd
          | panic => rw [hts] at hd; cases hd
          | diverge => rw [hts] at hd; cases hd
        · rw [(C05_header_acceptance c (wf c (by simp))).2.2 hv] at hd
          cases hd
    · rw [decode, (chunkLoop_file cs wf tail).2 htail] at hd
      cases hd
  obtain ⟨h, ts, hs⟩ := this
  exact ⟨h, ts, (C143_decoding mc spare bytes h ts).1 ⟨smf, hd, hs⟩, hs⟩

/-- The tracks up to the first one that cannot be decoded, which is of the kind in `PanicsAt`. -/
def TracksPanic (offset : Int) (n : Nat) (cs : List Chunk) : Prop :=
  ∃ i c, cs[i]? = some c ∧ PanicsAt c.body ∧ ∀ j c', j < i → cs[j]? = some c' → ∃ t, ChunkSays offset (n + j) c' t

theorem decodeTracks_panic_iff (mc : MiddleC) (spare : Bytes) (cs : List Chunk) (wf : ∀ c ∈ cs, c.Wf) (n : Nat) :
    decodeTracks mc spare (cs.map Chunk.bytes) n = .panic ↔ TracksPanic (octaveOffset mc) n (cs.filter fun c => c.tag == tagMTrk) := by
  induction cs generalizing n with
  | nil => simp [decodeTracks, TracksPanic]
  | cons c cs ih =>
    have wc := wf c (by simp)
    have wcs : ∀ c ∈ cs, c.Wf := fun c hc => wf c (by simp [hc])
    simp only [List.map_cons, decodeTracks, slice_tag c wc, Outcome.bind_ok, str_MTrk]
    by_cases ht : c.tag = tagMTrk
    · rw [if_pos ht, List.filter_cons_of_pos (by simpa using ht)]
      obtain ⟨k1, k2⟩ := C08_track_panics_iff_partial mc spare n c wc ht
      have hu := unmarshal_says mc spare n c wc ht
      have i1 := ih wcs (n + 1)
      constructor
      · intro h
        cases hm : unmarshalMTrk mc spare n c.bytes with
        | ok t =>
          rw [hm, Outcome.bind_ok] at h
          have hp : decodeTracks mc spare (cs.map Chunk.bytes) (n + 1) = .panic := by
            cases hd : decodeTracks mc spare (cs.map Chunk.bytes) (n + 1) with
            | panic => rfl
            | ok ts => rw [hd] at h; cases h
            | err e => rw [hd] at h; cases h
            | diverge => rw [hd] at h; cases h
          obtain ⟨i, d, h1, h2, h3⟩ := i1.1 hp
          refine ⟨i + 1, d, by simpa using h1, h2, ?_⟩
          intro j c' hj hc'
          cases j with
          | zero =>
            simp only [List.getElem?_cons_zero, Option.some.injEq] at hc'
            subst hc'
            exact ⟨t.entry, (hu _).1 ⟨t, hm, rfl⟩⟩
          | succ j =>
            have := h3 j c' (by omega) (by simpa using hc')
            rwa [show n + 1 + j = n + (j + 1) by omega] at this
        | panic => exact ⟨0, c, by simp, k1.1 hm, fun j c' hj => absurd hj (Nat.not_lt_zero j)⟩
        | err e => rw [hm] at h; cases h
        | diverge => exact absurd hm k2
      · rintro ⟨i, d, h1, h2, h3⟩
        cases i with
        | zero =>
          simp only [List.getElem?_cons_zero, Option.some.injEq] at h1
          subst h1
          rw [k1.2 h2]; rfl
        | succ i =>
          obtain ⟨t, ht0⟩ := h3 0 c (by omega) (by simp)
          obtain ⟨m, hm, _⟩ := (hu t).2 ht0
          have hp := i1.2 ⟨i, d, by simpa using h1, h2, fun j c' hj hc' => by
            have := h3 (j + 1) c' (by omega) (by simpa using hc')
            rwa [show n + (j + 1) = n + 1 + j by omega] at this⟩
          rw [hm, Outcome.bind_ok, hp]; rfl
    · rw [if_neg ht, List.filter_cons_of_neg (by simpa using ht)]
      exact ih wcs n

/-- C143: the bytes on which decoding panics, exactly; on all others that do not stand for a file it returns an error. -/
theorem C143_panics (mc : MiddleC) (spare bytes : Bytes) :
    (decode mc spare bytes = .panic ↔
      ∃ (h : Header) (cs : List Chunk) (tail : Bytes), bytes = fileBytes (h.chunk :: cs) ++ tail ∧ h.Valid ∧ (∀ c ∈ cs, c.Wf) ∧ EndTail tail ∧
        TracksPanic (octaveOffset mc) 0 (cs.filter fun c => c.tag == tagMTrk)) ∧
    ((∃ e, decode mc spare bytes = .err e) ↔
      (¬ ∃ h ts, FileSays (octaveOffset mc) bytes h ts) ∧ decode mc spare bytes ≠ .panic) := by
  constructor
  · constructor
    · intro hd
      obtain ⟨cs, tail, rfl, wf, htail⟩ := split_file bytes
      rcases htail with htail | htail
      · cases cs with
        | nil =>
          rw [decode, (chunkLoop_file [] (by simp) tail).1 htail] at hd
          cases hd
        | cons c cs =>
          have wcs : ∀ c ∈ cs, c.Wf := fun c hc => wf c (by simp [hc])
          rw [decode_chunks mc spare c cs wf tail htail] at hd
          by_cases hv : ∃ h : Header, h.Valid ∧ c = h.chunk
          · obtain ⟨h', hv, rfl⟩ := hv
            obtain ⟨m, hm, _⟩ := unmarshalMThd_valid h' hv
            rw [hm, Outcome.bind_ok] at hd
            refine ⟨h', cs, tail, rfl, hv, wcs, htail, (decodeTracks_panic_iff mc spare cs wcs 0).1 ?_⟩
            cases hts : decodeTracks mc spare (cs.map Chunk.bytes) 0 with
            | ok ts => rw [hts, Outcome.bind_ok] at hd; split at hd <;> cases hd
            | err e => rw [hts] at hd; cases hd
            | panic => rfl
            | diverge => rw [hts] at hd; cases hd
          · rw [(C05_header_acceptance c (wf c (by simp))).2.2 hv] at hd
            cases hd
      · rw [decode, (chunkLoop_file cs wf tail).2 htail] at hd
        cases hd
    · rintro ⟨h, cs, tail, rfl, hv, wf, htail, hp⟩
      obtain ⟨m, hm, _⟩ := unmarshalMThd_valid h hv
      rw [decode_chunks mc spare h.chunk cs (header_wf wf) tail htail, hm, Outcome.bind_ok, (decodeTracks_panic_iff mc spare cs wf 0).2 hp]
      rfl
  · constructor
    · rintro ⟨e, he⟩
      refine ⟨?_, by rw [he]; simp⟩
      rintro ⟨h, ts, hf⟩
      obtain ⟨smf, hd, _⟩ := (C143_decoding mc spare bytes h ts).2 hf
      rw [he] at hd
      cases hd
    · rintro ⟨h1, h2⟩
      cases hd : decode mc spare bytes with
      | ok smf =>
        obtain ⟨h, ts, hf, _⟩ := C143_total mc spare bytes smf hd
        exact absurd ⟨h, ts, hf⟩ h1
      | err e => exact ⟨e, rfl⟩
      | panic => exact absurd hd h2
      | diverge => exact absurd hd (C08_decode_never_panics_partial mc spare bytes).1

/-- Non-vacuity: a file with a key signature, a bank select, a program change, a note and a cut-off last event. -/
def saidTrack : Bytes := [0, 0xff, 0x59, 2, 0xfe, 0, 0, 0xb3, 0, 5, 0, 0xc3, 9, 0, 0x93, 61, 64, 96, 0x83, 61, 0, 0, 0xff, 0x2f, 0, 3]

example : ∃ ts, FileSays 1 (oneTrack saidTrack) ⟨0, 1, 96⟩ ts ∧
    (ts.map fun t => t.events.map fun e => (e.tick, e.names, e.bank)) =
      [[(0, ["B♭ major"], none), (0, ["Bank Select (MSB)"], none), (0, [], some 640), (0, ["D♭4", "D♭4"], none), (96, ["D♭4", "D♭4"], none),
        (96, [], none)]] := by
  obtain ⟨smf, h1, h2⟩ := Outcome.of_test (o := decode .c3 [] (oneTrack saidTrack))
    (p := fun smf => decide ((smf.tracks.map fun t => t.events.map fun e => (e.entry.tick, e.entry.names, e.entry.bank)) =
      [[(0, ["B♭ major"], none), (0, ["Bank Select (MSB)"], none), (0, [], some 640), (0, ["D♭4", "D♭4"], none), (96, ["D♭4", "D♭4"], none),
        (96, [], none)]])
      && decide (smf.mthd.map (fun m => (m.format.toNat, m.tracks.toNat, m.division.toNat)) = some (0, 1, 96))) (by decide +kernel)
  simp only [Bool.and_eq_true, decide_eq_true_eq] at h2
  obtain ⟨h, ts, hf, ⟨m, hm, hs, _⟩, rfl⟩ := C143_total .c3 [] _ smf h1
  rw [hm] at h2
  have he : h = ⟨0, 1, 96⟩ := by
    obtain ⟨_, _, a1, a2, a3, _⟩ := hs
    obtain ⟨f, t, d⟩ := h
    have h3 := h2.2
    simp only [Option.map_some, Option.some.injEq, Prod.mk.injEq] at h3 a1 a2 a3
    obtain ⟨e1, e2, e3⟩ := h3
    rw [← a1, ← a2, ← a3, e1, e2, e3]
  subst he
  refine ⟨_, hf, ?_⟩
  rw [← h2.1]
  simp [MTrk.entry, List.map_map, Function.comp_def]

end Midiasm
