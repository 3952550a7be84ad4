import Verif.Props.Commands

/-!
Which decoded files extraction and transposition can deal with.
-/

set_option linter.unusedSimpArgs false

namespace Midiasm
open Spec

/-! ### Transposition -/

theorem transposeNotes_total (n : Int) (ns : List Lib.Note) (h : ∀ x ∈ ns, Lib.SCALE.any (fun y => y.ord == x.ord) = true) :
    ∃ ns', Lib.transposeNotes n ns = .ok ns' := by
  induction ns with
  | nil => exact ⟨[], rfl⟩
  | cons x ns ih =>
    obtain ⟨ns', h'⟩ := ih fun y hy => h y (by simp [hy])
    have hx : ∃ x', Lib.transposeNote x n = .ok x' := by
      unfold Lib.transposeNote
      cases hi : Lib.SCALE.findIdx? (fun y => y.ord == x.ord) with
      | none =>
        have := h x (by simp)
        rw [List.findIdx?_eq_none_iff] at hi
        simp only [List.any_eq_true] at this
        obtain ⟨y, hy, he⟩ := this
        have := hi y hy
        simp_all
      | some ix =>
        simp only
        have hl : Lib.transposeIndex ix n < Lib.SCALE.length := by
          have : Lib.SCALE.length = 12 := by decide
          rw [this]
          unfold Lib.transposeIndex
          omega
        rw [List.getElem?_eq_getElem hl]
        exact ⟨_, rfl⟩
    obtain ⟨x', hx⟩ := hx
    exact ⟨x' :: ns', by simp only [Lib.transposeNotes, hx, h', Outcome.bind_ok]⟩

theorem scale_transpose_total (s : Lib.Scale) (hs : s ∈ Lib.MAJOR_SCALES ++ Lib.MINOR_SCALES) (n : Int) : ∃ t, s.transpose n = .ok t := by
  have hk : ∀ s ∈ Lib.MAJOR_SCALES ++ Lib.MINOR_SCALES, ∀ x ∈ s.notes, Lib.SCALE.any (fun y => y.ord == x.ord) = true := by decide +kernel
  obtain ⟨ns, h⟩ := transposeNotes_total n s.notes (hk s hs)
  unfold Lib.Scale.transpose
  rw [h]
  simp only [Outcome.bind_ok]
  split
  · exact ⟨_, rfl⟩
  · split <;> exact ⟨_, rfl⟩

theorem transposeKey_total (ctx : Context) (a : Int8) (k : UInt8) (h1 : -7 ≤ a.toInt) (h2 : a.toInt ≤ 7) (hk : k.toNat ≤ 1) (n : Int) :
    ∃ a' name ctx', transposeKey (some ctx) a k n = .ok (.keySignature a' k name, ctx') := by
  obtain ⟨⟨s, hs, _⟩, ⟨s', hs', _⟩⟩ := (C35_scales a).1 ⟨h1, h2⟩
  have hk' : k = 0 ∨ k = 1 := by
    have : k.toNat = 0 ∨ k.toNat = 1 := by omega
    rcases this with h | h
    · exact Or.inl (u8_ext (by simpa using h))
    · exact Or.inr (u8_ext (by simpa using h))
  rcases hk' with rfl | rfl
  · have hm : s ∈ Lib.MAJOR_SCALES := by
      unfold Lib.majorScale at hs
      exact List.mem_of_find?_eq_some hs
    obtain ⟨t, ht⟩ := scale_transpose_total s (by simp [hm]) n
    refine ⟨t.accidentals, t.name, if t.accidentals < 0 then ctx.useFlats else ctx.useSharps, ?_⟩
    unfold transposeKey
    simp [hs, ht]
  · have hm : s' ∈ Lib.MINOR_SCALES := by
      unfold Lib.minorScale at hs'
      exact List.mem_of_find?_eq_some hs'
    obtain ⟨t, ht⟩ := scale_transpose_total s' (by simp [hm]) n
    refine ⟨t.accidentals, t.name, if t.accidentals < 0 then ctx.useFlats else ctx.useSharps, ?_⟩
    unfold transposeKey
    simp [hs', ht]

theorem transposeEvents_total (mc : MiddleC) (n : Int) (ctx : Context) (es : List Event) (hk : ∀ e ∈ es, KeyValid e.body.view)
    (hw : ∀ e ∈ es, e.body.Writable) :
    ∃ es', transposeEvents mc n (some ctx) es = .ok es' ∧ ∀ e ∈ es', e.body.Writable := by
  induction es generalizing ctx with
  | nil => exact ⟨[], rfl, by simp⟩
  | cons e es ih =>
    have h1 : ∃ e' ctx', transposeEvent mc (some ctx) e n = .ok (e', some ctx') ∧ e'.body.Writable := by
      obtain ⟨tick, delta, bytes, body⟩ := e
      have hw' := hw ⟨tick, delta, bytes, body⟩ (by simp)
      cases body with
      | keySignature a k s =>
        obtain ⟨h1, h2, h3⟩ := hk ⟨tick, delta, bytes, .keySignature a k s⟩ (by simp)
        obtain ⟨a', name, ctx', h⟩ := transposeKey_total ctx a k h1 h2 h3 n
        exact ⟨⟨tick, delta, [], .keySignature a' k name⟩, ctx', by simp only [transposeEvent, h, Outcome.bind_ok], trivial⟩
      | noteOn ch nv v => exact ⟨⟨tick, delta, [], .noteOn ch ⟨transposeValue nv.value n, ctx.getNoteOff mc ch (transposeValue nv.value n),
          ctx.formatNote mc (transposeValue nv.value n)⟩ v⟩, ctx, by simp only [transposeEvent, transposeNoteVal, Outcome.bind_ok], trivial⟩
      | noteOff ch nv v => exact ⟨⟨tick, delta, [], .noteOff ch ⟨transposeValue nv.value n, ctx.getNoteOff mc ch (transposeValue nv.value n),
          ctx.formatNote mc (transposeValue nv.value n)⟩ v⟩, ctx, by simp only [transposeEvent, transposeNoteVal, Outcome.bind_ok], trivial⟩
      | _ => exact ⟨_, ctx, rfl, hw'⟩
    obtain ⟨e', ctx', h1, h2⟩ := h1
    obtain ⟨es', i1, i2⟩ := ih ctx' (fun e he => hk e (by simp [he])) (fun e he => hw e (by simp [he]))
    refine ⟨e' :: es', by simp only [transposeEvents, h1, Outcome.bind_ok, i1], ?_⟩
    simpa using ⟨h2, i2⟩

theorem transposeTracks_total (mc : MiddleC) (n : Int) (ts : List MTrk) (hk : ∀ t ∈ ts, ∀ e ∈ t.events, KeyValid e.body.view)
    (hw : ∀ t ∈ ts, ∀ e ∈ t.events, e.body.Writable) :
    ∃ ts', transposeTracks mc n false ts = .ok ts' ∧ ts'.length = ts.length ∧ ∀ t ∈ ts', ∀ e ∈ t.events, e.body.Writable := by
  induction ts with
  | nil => exact ⟨[], rfl, rfl, by simp⟩
  | cons t ts ih =>
    obtain ⟨es', h1, h2⟩ := transposeEvents_total mc n t.context t.events (hk t (by simp)) (hw t (by simp))
    obtain ⟨ts', i1, i2, i3⟩ := ih (fun t ht => hk t (by simp [ht])) (fun t ht => hw t (by simp [ht]))
    refine ⟨⟨str "MTrk", t.trackNumber, 0, [], es', newContext⟩ :: ts', ?_, by simp [i2], ?_⟩
    · simp only [transposeTracks, transposeTrack, Bool.false_eq_true, if_false, h1, Outcome.bind_ok, i1]
    · intro t' ht'
      rcases List.mem_cons.1 ht' with rfl | ht'
      · exact h2
      · exact i3 t' ht'

/-- A decoded file can be transposed by any number of semitones and written. -/
theorem transposeExecute_total {mc mc' : MiddleC} {spare file : Bytes} {smf : SMF} (hd : decode mc spare file = .ok smf) (n : Int) :
    ∃ bs, transposeExecute mc' n false smf = .ok bs := by
  obtain ⟨hw, _⟩ := decoded_encodes hd
  obtain ⟨ts', h1, h2, h3⟩ := transposeTracks_total mc' n smf.tracks (decoded_keyValid hd) hw
  obtain ⟨m, h, hm, hsh, hv, hnt, _⟩ := decode_ok hd
  have := ((C26_encode_errors ⟨smf.mthd, ts'⟩).2.2 m hm (by simp only; rw [h2, hsh.2.2.2.1, hnt])).1.2 h3
  obtain ⟨bs, hb⟩ := this
  exact ⟨bs, by simp only [transposeExecute, transposeSMF, h1, Outcome.bind_ok, hb]⟩

/-! ### Extraction -/

theorem stampEvents_total (ppqn : UInt16) (l : List NoteEvent) : ∀ (tempo : UInt64) (at_ : Int) (scale : ScaleKind),
    (ppqn ≠ 0 ∨ l = [] → ∃ r, stampEvents ppqn tempo at_ scale l = .ok r ∧ r.map (·.body) = l.map (·.body)) ∧
    (¬ (ppqn ≠ 0 ∨ l = []) → stampEvents ppqn tempo at_ scale l = .panic) := by
  induction l with
  | nil => intro _ _ _; exact ⟨fun _ => ⟨[], rfl, rfl⟩, by simp⟩
  | cons e es ih =>
    intro tempo at_ scale
    constructor
    · intro h
      have hp : ppqn ≠ 0 := by simpa using h
      rw [stampEvents]
      simp only [hp, if_false]
      have key : ∀ tempo' at' scale', ∃ r, (do
          let rest ← stampEvents ppqn tempo' at' scale' es
          Outcome.ok ({ e with at_ := roundMs at', scale := scale' } :: rest)) = .ok r ∧ r.map (·.body) = (e :: es).map (·.body) := by
        intro tempo' at' scale'
        obtain ⟨r, h1, h2⟩ := (ih tempo' at' scale').1 (Or.inl hp)
        rw [h1]
        exact ⟨_, rfl, by simp [h2]⟩
      exact key _ _ _
    · intro h
      have hp : ppqn = 0 := by
        apply Classical.byContradiction
        intro hp
        exact h (Or.inl hp)
      rw [stampEvents]
      simp [hp]

theorem mem_insertTick (e x : NoteEvent) (l : List NoteEvent) : x ∈ insertTick e l ↔ x = e ∨ x ∈ l := by
  induction l with
  | nil => simp [insertTick]
  | cons y l ih =>
    unfold insertTick
    split
    · simp
    · simp only [List.mem_cons, ih]
      constructor
      · rintro (h | h | h) <;> simp [h]
      · rintro (h | h | h) <;> simp [h]

theorem mem_sortTicks (x : NoteEvent) (l : List NoteEvent) : x ∈ sortTicks l ↔ x ∈ l := by
  induction l with
  | nil => simp [sortTicks]
  | cons y l ih =>
    show x ∈ insertTick y (sortTicks l) ↔ _
    rw [mem_insertTick, ih]
    simp

theorem sortTicks_nil (l : List NoteEvent) : sortTicks l = [] ↔ l = [] := by
  constructor
  · intro h
    cases l with
    | nil => rfl
    | cons y l =>
      have := (mem_sortTicks y (y :: l)).2 (by simp)
      rw [h] at this
      cases this
  · rintro rfl
    rfl

/-- The events of a track that has a tempo event. -/
def HasTempo (t : MTrk) : Prop := ∃ e ∈ t.events, ∃ v, e.body = .tempo v

/-- Extraction from one track. -/
theorem track_total {mc mc' : MiddleC} {spare file : Bytes} {smf : SMF} (hd : decode mc spare file = .ok smf) (t0 t : MTrk) (ht : t ∈ smf.tracks)
    (ppqn : UInt16) (ord : MapOrder) (n : Int) :
    ((ppqn ≠ 0 ∨ (t.events = [] ∧ ¬ HasTempo t0)) → ∃ es ns,
      buildTrackEvents t.events (t0.events.filter (fun e => match e.body with | .tempo _ => true | _ => false)) ppqn = .ok es ∧
      buildNoteList mc' ord n es = .ok ns) ∧
    (¬ (ppqn ≠ 0 ∨ (t.events = [] ∧ ¬ HasTempo t0)) →
      buildTrackEvents t.events (t0.events.filter (fun e => match e.body with | .tempo _ => true | _ => false)) ppqn = .panic) := by
  have htm : ∀ e, e ∈ t0.events.filter (fun e => match e.body with | .tempo _ => true | _ => false) ↔ e ∈ t0.events ∧ ∃ v, e.body = .tempo v := by
    intro e
    rw [List.mem_filter]
    cases e.body <;> simp
  generalize hT : t0.events.filter (fun e => match e.body with | .tempo _ => true | _ => false) = tm at htm
  have hempty : (t.events = [] ∧ ¬ HasTempo t0) ↔ sortTicks (t.events.map (fun e => (⟨e.tick, e.delta.toUInt64, 0, e.body, .sharps⟩ : NoteEvent)) ++
      tm.map (fun e => (⟨e.tick, 0, 0, e.body, .sharps⟩ : NoteEvent))) = [] := by
    rw [sortTicks_nil, List.append_eq_nil_iff, List.map_eq_nil_iff, List.map_eq_nil_iff, List.eq_nil_iff_forall_not_mem (l := tm)]
    simp only [htm, HasTempo, not_exists, not_and]
  rw [hempty]
  obtain ⟨g1, g2⟩ := stampEvents_total ppqn (sortTicks (t.events.map (fun e => (⟨e.tick, e.delta.toUInt64, 0, e.body, .sharps⟩ : NoteEvent)) ++
      tm.map (fun e => (⟨e.tick, 0, 0, e.body, .sharps⟩ : NoteEvent)))) 50000 0 .sharps
  constructor
  · intro h
    obtain ⟨r, h1, h2⟩ := g1 h
    have hch : ∀ e ∈ r.filter isNoteEvent, ∀ ch nv v, e.body = .noteOn ch nv v → ch ≤ 15 := by
      intro e he ch nv v hb
      have he := (List.mem_filter.1 he).1
      have : e.body ∈ r.map (·.body) := List.mem_map.2 ⟨e, he, rfl⟩
      rw [h2] at this
      obtain ⟨x, hx, hxb⟩ := List.mem_map.1 this
      rw [mem_sortTicks, List.mem_append] at hx
      rcases hx with hx | hx
      · obtain ⟨y, hy, rfl⟩ := List.mem_map.1 hx
        exact decoded_channel hd ht hy (hxb.trans hb)
      · obtain ⟨y, hy, rfl⟩ := List.mem_map.1 hx
        obtain ⟨_, v', hv⟩ := (htm y).1 hy
        simp only at hxb
        rw [hv] at hxb
        rw [hb] at hxb
        cases hxb
    obtain ⟨ns, _, hns, _⟩ := buildNoteList_ok mc' ord n _ hch
    exact ⟨_, ns, by simp only [buildTrackEvents, h1, Outcome.bind_ok], hns⟩
  · intro h
    simp only [buildTrackEvents, g2 h, Outcome.bind_panic]

theorem extractTracks_total {mc mc' : MiddleC} {spare file : Bytes} {smf : SMF} (hd : decode mc spare file = .ok smf) (t0 : MTrk) (m : MThd)
    (ord : Nat → MapOrder) (n : Int) (ts : List MTrk) : ∀ i, (∀ t ∈ ts, t ∈ smf.tracks) →
    ((∀ t ∈ ts, m.ppqn ≠ 0 ∨ (t.events = [] ∧ ¬ HasTempo t0)) → ∃ ns, extractTracks mc' ord n (some m)
      (t0.events.filter (fun e => match e.body with | .tempo _ => true | _ => false)) i ts = .ok ns) ∧
    ((¬ ∀ t ∈ ts, m.ppqn ≠ 0 ∨ (t.events = [] ∧ ¬ HasTempo t0)) → extractTracks mc' ord n (some m)
      (t0.events.filter (fun e => match e.body with | .tempo _ => true | _ => false)) i ts = .panic) := by
  induction ts with
  | nil => intro i _; exact ⟨fun _ => ⟨[], rfl⟩, by simp⟩
  | cons t ts ih =>
    intro i hm
    obtain ⟨a1, a2⟩ := track_total (mc' := mc') hd t0 t (hm t (by simp)) m.ppqn (ord i) n
    obtain ⟨b1, b2⟩ := ih (i + 1) fun t ht => hm t (by simp [ht])
    constructor
    · intro h
      obtain ⟨es, ns, h1, h2⟩ := a1 (h t (by simp))
      obtain ⟨ns', h3⟩ := b1 fun t ht => h t (by simp [ht])
      exact ⟨ns ++ ns', by simp only [extractTracks, h1, h2, h3, Outcome.bind_ok]⟩
    · intro h
      by_cases ht : m.ppqn ≠ 0 ∨ (t.events = [] ∧ ¬ HasTempo t0)
      · obtain ⟨es, ns, h1, h2⟩ := a1 ht
        have := b2 fun h' => h (by simpa using ⟨by simpa using ht, by simpa using h'⟩)
        simp only [extractTracks, h1, h2, this, Outcome.bind_ok, Outcome.bind_panic]
      · simp only [extractTracks, a2 ht, Outcome.bind_panic]

/-- The files notes cannot be extracted from: without tracks, or without a number of ticks per quarter note (zero, or SMPTE time) and with an event
in a track after the first or a tempo in the first of several tracks. -/
def Untimeable (smf : SMF) : Prop :=
  smf.tracks = [] ∨ ∃ m t0 ts t, smf.mthd = some m ∧ (m.division.toNat = 0 ∨ 32768 ≤ m.division.toNat) ∧ smf.tracks = t0 :: ts ∧ t ∈ ts ∧
    (t.events ≠ [] ∨ HasTempo t0)

/-- Extraction of notes from a decoded file panics exactly for these files and otherwise gives notes. -/
theorem extractNotes_total {mc mc' : MiddleC} {spare file : Bytes} {smf : SMF} (hd : decode mc spare file = .ok smf) (ord : Nat → MapOrder) (n : Int) :
    (Untimeable smf → extractNotes mc' ord n smf = .panic) ∧ (¬ Untimeable smf → ∃ ns, extractNotes mc' ord n smf = .ok ns) := by
  obtain ⟨m, h, hm, hsh, hv, hnt, _⟩ := decode_ok hd
  have hz : m.ppqn = 0 ↔ (m.division.toNat = 0 ∨ 32768 ≤ m.division.toNat) := by
    rw [hsh.2.2.2.2.1]
    by_cases hd : h.division < 32768
    · have := (hsh.2.2.2.2.2.1 hd).1
      rw [← UInt16.toNat_inj, this]
      simp only [UInt16.toNat_zero]
      omega
    · have := (hsh.2.2.2.2.2.2 (by omega)).1
      simp only [this, true_iff]
      omega
  unfold Untimeable extractNotes buildTempoMap
  cases htr : smf.tracks with
  | nil => simp
  | cons t0 ts =>
    simp only [Outcome.bind_ok, List.drop_one, List.tail_cons, hm]
    obtain ⟨a1, a2⟩ := extractTracks_total (mc' := mc') hd t0 m ord n ts 1 (fun t ht => by rw [htr]; simp [ht])
    constructor
    · intro hu
      refine a2 fun hall => ?_
      rcases hu with hu | ⟨m', t0', ts', t, hm', hdiv, htr', ht, h1⟩
      · cases hu
      · injection hm' with hm'
        injection htr' with e1 e2
        subst hm' e1 e2
        rcases hall t ht with h2 | h2
        · exact h2 (hz.2 hdiv)
        · rcases h1 with h1 | h1
          · exact h1 h2.1
          · exact h2.2 h1
    · intro hu
      refine a1 fun t ht => ?_
      by_cases hp : m.ppqn = 0
      · right
        refine ⟨Classical.byContradiction fun h1 => hu (Or.inr ⟨m, t0, ts, t, rfl, hz.1 hp, rfl, ht, Or.inl h1⟩), fun h1 => ?_⟩
        exact hu (Or.inr ⟨m, t0, ts, t, rfl, hz.1 hp, rfl, ht, Or.inr h1⟩)
      · exact Or.inl hp

end Midiasm
