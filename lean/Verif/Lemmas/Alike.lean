import Verif.Model.Transpose
import Verif.Model.JsonText
import Verif.Lemmas.Basic

/-!
Events that differ only in the names of their notes.
-/

set_option linter.unusedSimpArgs false

namespace Midiasm

/-- The same way of ending, with related values. -/
def Outcome.Rel {α β : Type} (R : α → β → Prop) : Outcome α → Outcome β → Prop
  | .ok a, .ok b => R a b
  | .err e, .err e' => e = e'
  | .panic, .panic => True
  | .diverge, .diverge => True
  | _, _ => False

theorem Outcome.Rel.bind {α β γ δ : Type} {R : α → β → Prop} {S : γ → δ → Prop} {x : Outcome α} {y : Outcome β} {f : α → Outcome γ}
    {g : β → Outcome δ} (h : Outcome.Rel R x y) (hf : ∀ a b, R a b → Outcome.Rel S (f a) (g b)) : Outcome.Rel S (x >>= f) (y >>= g) := by
  cases x <;> cases y <;> first
    | exact hf _ _ h
    | exact h
    | (cases h; done)

theorem Outcome.Rel.refl {α : Type} {R : α → α → Prop} (hR : ∀ a, R a a) (x : Outcome α) : Outcome.Rel R x x := by
  cases x <;> simp [Outcome.Rel, hR]

theorem Outcome.rel_eq {α : Type} {x y : Outcome α} (h : Outcome.Rel Eq x y) : x = y := by
  cases x <;> cases y <;> simp_all [Outcome.Rel]

theorem Outcome.Rel.ok_left {α β : Type} {R : α → β → Prop} {x : Outcome α} {y : Outcome β} (h : Outcome.Rel R x y) {a : α} (hx : x = .ok a) :
    ∃ b, y = .ok b ∧ R a b := by
  subst hx
  cases y <;> simp_all [Outcome.Rel]

/-- The event without the names of its note. -/
def Body.nameless : Body → Body
  | .noteOn ch n v => .noteOn ch ⟨n.value, "", ""⟩ v
  | .noteOff ch n v => .noteOff ch ⟨n.value, "", ""⟩ v
  | b => b

def Event.nameless (e : Event) : Event := { e with body := e.body.nameless }

def Context.nameless (c : Context) : Context := { c with notes := fun _ => none }

def MTrk.nameless (t : MTrk) : MTrk := { t with events := t.events.map Event.nameless, context := t.context.nameless }

def SMF.nameless (smf : SMF) : SMF := { smf with tracks := smf.tracks.map MTrk.nameless }

/-- Equal up to names. -/
abbrev EventAlike (a b : Event) : Prop := a.nameless = b.nameless

theorem marshal_nameless (b : Body) : b.nameless.marshal = b.marshal := by cases b <;> rfl

theorem encodeEvents_nameless (es : List Event) : encodeEvents (es.map Event.nameless) = encodeEvents es := by
  induction es with
  | nil => rfl
  | cons e es ih =>
    simp only [List.map_cons, encodeEvents, ih]
    simp only [Event.nameless, marshal_nameless]

theorem encodeMTrk_nameless (t : MTrk) : encodeMTrk t.nameless = encodeMTrk t := by
  simp only [encodeMTrk, MTrk.nameless, encodeEvents_nameless]

theorem encodeTracks_nameless (ts : List MTrk) : encodeTracks (ts.map MTrk.nameless) = encodeTracks ts := by
  induction ts with
  | nil => rfl
  | cons t ts ih => simp only [List.map_cons, encodeTracks, ih, encodeMTrk_nameless]

/-- The encoder does not look at the names of notes. -/
theorem encode_nameless (smf : SMF) : encode smf.nameless = encode smf := by
  unfold encode
  simp only [SMF.nameless, List.length_map, encodeTracks_nameless]

theorem encode_alike {a b : SMF} (h : a.nameless = b.nameless) : encode a = encode b := by
  rw [← encode_nameless a, h, encode_nameless]

/-! ### Decoding -/

theorem midiUnmarshal_alike (mc mc' : MiddleC) (status : UInt8) (data : Bytes) :
    Outcome.Rel (fun a b => Body.nameless a = Body.nameless b) (midiUnmarshal mc status data) (midiUnmarshal mc' status data) := by
  unfold midiUnmarshal
  simp only
  split
  · unfold unmarshalNoteOff
    split
    · split
      · rfl
      · unfold makeNoteOff
        split
        · trivial
        · rfl
    · rfl
  · split
    · unfold unmarshalNoteOn
      split
      · split
        · rfl
        · unfold makeNoteOn
          split
          · trivial
          · rfl
      · rfl
    · exact Outcome.Rel.refl (R := fun a b => Body.nameless a = Body.nameless b) (fun _ => rfl) _

theorem midiParse_alike (mc mc' : MiddleC) (tick : UInt64) (rs : UInt8) (bytes : Bytes) :
    Outcome.Rel EventAlike (midiParse mc tick rs bytes) (midiParse mc' tick rs bytes) := by
  unfold midiParse
  refine Outcome.Rel.bind (R := Eq) (Outcome.Rel.refl (fun _ => rfl) _) ?_
  rintro ⟨delta, remaining⟩ _ rfl
  simp only
  cases remaining with
  | nil => rfl
  | cons b rest =>
    simp only
    refine Outcome.Rel.bind (midiUnmarshal_alike mc mc' _ _) fun a b h => ?_
    simp only [Outcome.Rel, EventAlike, Event.nameless, h]

theorem newEventOrPanic_alike {x y : Outcome Event} (h : Outcome.Rel EventAlike x y) :
    Outcome.Rel EventAlike (newEventOrPanic x) (newEventOrPanic y) := by
  cases x <;> cases y <;> first
    | exact h
    | (cases h; done)
    | trivial

/-- An event, the rest and a context. -/
def ParsedAlike (a b : Event × Bytes × Context) : Prop :=
  a.1.nameless = b.1.nameless ∧ a.2.1 = b.2.1 ∧ a.2.2.nameless = b.2.2.nameless

theorem context_fields {c c' : Context} (h : c.nameless = c'.nameless) :
    c.scale = c'.scale ∧ c.runningStatus = c'.runningStatus ∧ c.casio = c'.casio ∧ c.programBank = c'.programBank := by
  simp only [Context.nameless, Context.mk.injEq, and_true] at h
  exact h

theorem context_of_fields {c c' : Context} (h1 : c.scale = c'.scale) (h2 : c.runningStatus = c'.runningStatus) (h3 : c.casio = c'.casio)
    (h4 : c.programBank = c'.programBank) : c.nameless = c'.nameless := by
  simp only [Context.nameless, Context.mk.injEq, and_true]
  exact ⟨h1, h2, h3, h4⟩

/-- `parseEvent` after the status byte. -/
def parseRest (mc : MiddleC) (inp spare : Bytes) (tick delta : UInt32) (ctx : Context) (status : UInt8) (r : Bytes) :
    Outcome (Event × Bytes × Context) :=
  if status = 0xff then
    match r with
    | [] => .err .eof
    | _ :: r => do
      let (_, r) ← readVLF r
      let e ← newEventOrPanic (metaParse (tick.toUInt64 + delta.toUInt64) (consumed inp r) spare)
      .ok (e, r, { ctx with runningStatus := 0x00 })
  else if status = 0xf0 ∨ status = 0xf7 then do
    let (_, r) ← readVLF r
    if status = 0xf0 ∧ ctx.casio = true then .err .other
    else do
      let e ← sysexParse (tick.toUInt64 + delta.toUInt64) ctx.casio (consumed inp r) spare
      .ok (e, r, { ctx with runningStatus := 0x00, casio := nextCasio ctx.casio status (consumed inp r) })
  else do
    let r ← readBytes (midiDataLength status) r
    let e ← newEventOrPanic (midiParse mc (tick.toUInt64 + delta.toUInt64) ctx.runningStatus (consumed inp r))
    .ok (e, r, { ctx with runningStatus := status })

theorem parseEvent_rest (mc : MiddleC) (inp spare : Bytes) (tick : UInt32) (ctx : Context) :
    parseEvent mc inp spare tick ctx = (do
      let p ← readVLQ inp
      match p.2 with
      | [] => .err .eof
      | b :: r' =>
        if b < 0x80 ∧ ctx.runningStatus < 0x80 then .err .other
        else if b < 0x80 then parseRest mc inp spare tick p.1 ctx ctx.runningStatus p.2
        else parseRest mc inp spare tick p.1 ctx b r') := by
  rfl

theorem parseRest_alike (mc mc' : MiddleC) (inp spare : Bytes) (tick delta : UInt32) (ctx ctx' : Context) (hc : ctx.nameless = ctx'.nameless)
    (status : UInt8) (r : Bytes) :
    Outcome.Rel ParsedAlike (parseRest mc inp spare tick delta ctx status r) (parseRest mc' inp spare tick delta ctx' status r) := by
  obtain ⟨c1, c2, c3, c4⟩ := context_fields hc
  unfold parseRest
  rw [c2, c3]
  split
  · cases r with
    | nil => rfl
    | cons t r =>
      simp only
      refine Outcome.Rel.bind (R := Eq) (Outcome.Rel.refl (fun _ => rfl) _) ?_
      rintro ⟨_, r⟩ _ rfl
      refine Outcome.Rel.bind (R := Eq) (Outcome.Rel.refl (fun _ => rfl) _) ?_
      rintro e _ rfl
      exact ⟨rfl, rfl, context_of_fields c1 rfl rfl c4⟩
  · split
    · refine Outcome.Rel.bind (R := Eq) (Outcome.Rel.refl (fun _ => rfl) _) ?_
      rintro ⟨_, r⟩ _ rfl
      simp only
      split
      · rfl
      · refine Outcome.Rel.bind (R := Eq) (Outcome.Rel.refl (fun _ => rfl) _) ?_
        rintro e _ rfl
        exact ⟨rfl, rfl, context_of_fields c1 rfl rfl c4⟩
    · refine Outcome.Rel.bind (R := Eq) (Outcome.Rel.refl (fun _ => rfl) _) ?_
      rintro r _ rfl
      refine Outcome.Rel.bind (newEventOrPanic_alike (midiParse_alike mc mc' _ _ _)) ?_
      intro a b h
      exact ⟨h, rfl, context_of_fields c1 rfl rfl c4⟩

theorem parseEvent_alike (mc mc' : MiddleC) (inp spare : Bytes) (tick : UInt32) (ctx ctx' : Context) (hc : ctx.nameless = ctx'.nameless) :
    Outcome.Rel ParsedAlike (parseEvent mc inp spare tick ctx) (parseEvent mc' inp spare tick ctx') := by
  rw [parseEvent_rest, parseEvent_rest, (context_fields hc).2.1]
  refine Outcome.Rel.bind (R := Eq) (Outcome.Rel.refl (fun _ => rfl) _) ?_
  rintro ⟨delta, r⟩ _ rfl
  cases r with
  | nil => rfl
  | cons b r' =>
    simp only
    split
    · rfl
    · split <;> exact parseRest_alike mc mc' _ _ _ _ _ _ hc _ _

theorem applyContext_alike (mc mc' : MiddleC) (ctx ctx' : Context) (e e' : Event) (hc : ctx.nameless = ctx'.nameless)
    (he : e.nameless = e'.nameless) :
    (applyContext mc ctx e).1.nameless = (applyContext mc' ctx' e').1.nameless ∧
    (applyContext mc ctx e).2.nameless = (applyContext mc' ctx' e').2.nameless := by
  obtain ⟨c1, c2, c3, c4⟩ := context_fields hc
  obtain ⟨tick, delta, bytes, body⟩ := e
  obtain ⟨tick', delta', bytes', body'⟩ := e'
  simp only [Event.nameless, Event.mk.injEq] at he
  obtain ⟨rfl, rfl, rfl, he⟩ := he
  have keep : ∀ {b : Body}, Context.nameless ctx = Context.nameless ctx' := hc
  unfold applyContext
  cases body <;> cases body' <;> simp only [Body.nameless] at he <;> first
    | (cases he; done)
    | (injection he; subst_vars; exact ⟨rfl, hc⟩)
    | skip
  all_goals try (cases he; exact ⟨rfl, hc⟩)
  case keySignature.keySignature =>
    cases he
    refine ⟨rfl, ?_⟩
    simp only
    split <;> exact context_of_fields rfl c2 c3 c4
  case noteOff.noteOff =>
    injection he with h1 h2 h3
    injection h2 with h2
    subst h1 h3
    simp only [Event.nameless, Body.nameless, h2]
    exact ⟨trivial, hc⟩
  case noteOn.noteOn =>
    injection he with h1 h2 h3
    injection h2 with h2
    subst h1 h3
    simp only [Event.nameless, Body.nameless, h2]
    exact ⟨trivial, context_of_fields c1 c2 c3 c4⟩
  case controller.controller =>
    cases he
    refine ⟨rfl, ?_⟩
    simp only [Context.bankSelect, c4]
    split <;> split <;> exact context_of_fields c1 c2 c3 (by simp only [c4])
  case programChange.programChange =>
    cases he
    simp only [Event.nameless, Body.nameless, c4]
    exact ⟨trivial, hc⟩

/-- Events and a context. -/
def LoopAlike (a b : List Event × Context) : Prop := a.1.map Event.nameless = b.1.map Event.nameless ∧ a.2.nameless = b.2.nameless

theorem trackLoop_alike (mc mc' : MiddleC) (spare : Bytes) (fuel : Nat) : ∀ (inp : Bytes) (tick : UInt32) (ctx ctx' : Context),
    ctx.nameless = ctx'.nameless → Outcome.Rel LoopAlike (trackLoop mc spare fuel inp tick ctx) (trackLoop mc' spare fuel inp tick ctx') := by
  induction fuel with
  | zero => exact fun _ _ _ _ _ => trivial
  | succ fuel ih =>
    intro inp tick ctx ctx' hc
    rw [trackLoop.eq_def, trackLoop.eq_def]
    simp only
    have h := parseEvent_alike mc mc' inp spare tick ctx ctx' hc
    cases h1 : parseEvent mc inp spare tick ctx with
    | ok p =>
      rw [h1] at h
      obtain ⟨p', h2, h3, h4, h5⟩ := Outcome.Rel.ok_left h rfl
      obtain ⟨e, rest, c⟩ := p
      obtain ⟨e', rest', c'⟩ := p'
      simp only at h3 h4 h5
      subst h4
      rw [h2]
      simp only
      have hdelta : e.delta = e'.delta := by
        have := congrArg Event.delta h3
        exact this
      obtain ⟨a1, a2⟩ := applyContext_alike mc mc' c c' e e' h5 h3
      have hl := ih rest (tick + e.delta) _ _ a2
      rw [← hdelta]
      cases h6 : trackLoop mc spare fuel rest (tick + e.delta) (applyContext mc c e).2 with
      | ok q =>
        rw [h6] at hl
        obtain ⟨q', h7, h8, h9⟩ := Outcome.Rel.ok_left hl rfl
        rw [h7]
        exact ⟨by simp only [List.map_cons, a1, h8], h9⟩
      | err x =>
        rw [h6] at hl
        cases h7 : trackLoop mc' spare fuel rest (tick + e.delta) (applyContext mc' c' e').2 <;> rw [h7] at hl <;> first
          | exact hl
          | (cases hl; done)
      | panic =>
        rw [h6] at hl
        cases h7 : trackLoop mc' spare fuel rest (tick + e.delta) (applyContext mc' c' e').2 <;> rw [h7] at hl <;> first
          | exact hl
          | (cases hl; done)
      | diverge =>
        rw [h6] at hl
        cases h7 : trackLoop mc' spare fuel rest (tick + e.delta) (applyContext mc' c' e').2 <;> rw [h7] at hl <;> first
          | exact hl
          | (cases hl; done)
    | err x =>
      rw [h1] at h
      cases h2 : parseEvent mc' inp spare tick ctx' with
      | err y =>
        rw [h2] at h
        simp only [Outcome.Rel] at h
        subst h
        cases x
        · exact ⟨rfl, hc⟩
        · rfl
        · rfl
      | _ => rw [h2] at h; cases h
    | panic =>
      rw [h1] at h
      cases h2 : parseEvent mc' inp spare tick ctx' with
      | panic => trivial
      | _ => rw [h2] at h; cases h
    | diverge =>
      rw [h1] at h
      cases h2 : parseEvent mc' inp spare tick ctx' with
      | diverge => trivial
      | _ => rw [h2] at h; cases h

theorem unmarshalMTrk_alike (mc mc' : MiddleC) (spare : Bytes) (n : Nat) (data : Bytes) :
    Outcome.Rel (fun a b => MTrk.nameless a = MTrk.nameless b) (unmarshalMTrk mc spare n data) (unmarshalMTrk mc' spare n data) := by
  unfold unmarshalMTrk
  refine Outcome.Rel.bind (R := Eq) (Outcome.Rel.refl (fun _ => rfl) _) ?_
  rintro tag _ rfl
  split
  · rfl
  · refine Outcome.Rel.bind (R := Eq) (Outcome.Rel.refl (fun _ => rfl) _) ?_
    rintro lenBytes _ rfl
    refine Outcome.Rel.bind (R := Eq) (Outcome.Rel.refl (fun _ => rfl) _) ?_
    rintro length _ rfl
    refine Outcome.Rel.bind (R := Eq) (Outcome.Rel.refl (fun _ => rfl) _) ?_
    rintro body _ rfl
    refine Outcome.Rel.bind (trackLoop_alike mc mc' spare _ _ _ _ _ rfl) ?_
    rintro ⟨es, c⟩ ⟨es', c'⟩ ⟨h1, h2⟩
    simp only at h1 h2
    simp only [Outcome.Rel, MTrk.nameless, h1, h2]

theorem decodeTracks_alike (mc mc' : MiddleC) (spare : Bytes) : ∀ (cs : List Bytes) (n : Nat),
    Outcome.Rel (fun a b => List.map MTrk.nameless a = List.map MTrk.nameless b) (decodeTracks mc spare cs n) (decodeTracks mc' spare cs n) := by
  intro cs
  induction cs with
  | nil => exact fun _ => rfl
  | cons c cs ih =>
    intro n
    rw [decodeTracks, decodeTracks]
    refine Outcome.Rel.bind (R := Eq) (Outcome.Rel.refl (fun _ => rfl) _) ?_
    rintro tag _ rfl
    split
    · refine Outcome.Rel.bind (unmarshalMTrk_alike mc mc' spare n c) fun t t' ht => ?_
      refine Outcome.Rel.bind (ih (n + 1)) fun ts ts' hts => ?_
      simp only [Outcome.Rel, List.map_cons, ht, hts]
    · exact ih n

/-- The choice of the names of notes changes nothing else when a file is decoded. -/
theorem decode_alike (mc mc' : MiddleC) (spare file : Bytes) :
    Outcome.Rel (fun a b => SMF.nameless a = SMF.nameless b) (decode mc spare file) (decode mc' spare file) := by
  unfold decode
  refine Outcome.Rel.bind (R := Eq) (Outcome.Rel.refl (fun _ => rfl) _) ?_
  rintro chunks _ rfl
  cases chunks with
  | nil => rfl
  | cons c cs =>
    simp only
    refine Outcome.Rel.bind (R := Eq) (Outcome.Rel.refl (fun _ => rfl) _) ?_
    rintro mthd _ rfl
    refine Outcome.Rel.bind (decodeTracks_alike mc mc' spare cs 0) fun ts ts' h => ?_
    have hl : ts.length = ts'.length := by simpa using congrArg List.length h
    rw [hl]
    split
    · rfl
    · simp only [Outcome.Rel, SMF.nameless, h]

/-! ### Transposing -/

/-- Contexts that are both missing or alike. -/
def OptAlike (a b : Option Context) : Prop := a.map Context.nameless = b.map Context.nameless

theorem transposeKey_alike (accidentals : Int8) (keyType : UInt8) (n : Int) (ctx ctx' : Option Context) (hc : OptAlike ctx ctx') :
    Outcome.Rel (fun a b => a.1 = b.1 ∧ a.2.nameless = b.2.nameless) (transposeKey ctx accidentals keyType n) (transposeKey ctx' accidentals keyType n) := by
  have key : ∀ sc : Lib.Scale, Outcome.Rel (fun a b => a.1 = b.1 ∧ a.2.nameless = b.2.nameless)
      (do
        let t ← sc.transpose n
        match ctx with
        | none => .panic
        | some ctx => .ok (Body.keySignature t.accidentals keyType t.name, if t.accidentals < 0 then ctx.useFlats else ctx.useSharps))
      (do
        let t ← sc.transpose n
        match ctx' with
        | none => .panic
        | some ctx => .ok (Body.keySignature t.accidentals keyType t.name, if t.accidentals < 0 then ctx.useFlats else ctx.useSharps)) := by
    intro sc
    refine Outcome.Rel.bind (R := Eq) (Outcome.Rel.refl (fun _ => rfl) _) ?_
    rintro t _ rfl
    cases ctx <;> cases ctx' <;> simp only [OptAlike, Option.map_some, Option.map_none] at hc <;> first
      | (cases hc; done)
      | trivial
      | skip
    injection hc with hc
    obtain ⟨c1, c2, c3, c4⟩ := context_fields hc
    refine ⟨rfl, ?_⟩
    simp only
    split <;> exact context_of_fields rfl c2 c3 c4
  unfold transposeKey
  simp only
  split
  · split
    · exact key _
    · trivial
  · split
    · split
      · exact key _
      · trivial
    · trivial

theorem transposeEvent_alike (mc mc' : MiddleC) (n : Int) (ctx ctx' : Option Context) (hc : OptAlike ctx ctx') (e e' : Event)
    (he : e.nameless = e'.nameless) :
    Outcome.Rel (fun a b => a.1.nameless = b.1.nameless ∧ OptAlike a.2 b.2) (transposeEvent mc ctx e n) (transposeEvent mc' ctx' e' n) := by
  obtain ⟨tick, delta, bytes, body⟩ := e
  obtain ⟨tick', delta', bytes', body'⟩ := e'
  simp only [Event.nameless, Event.mk.injEq] at he
  obtain ⟨rfl, rfl, rfl, he⟩ := he
  have hnote : ∀ (ch : UInt8) (m m' : NoteVal), m.value = m'.value →
      Outcome.Rel (fun a b => a.value = b.value) (transposeNoteVal mc ctx ch m n) (transposeNoteVal mc' ctx' ch m' n) := by
    intro ch m m' h
    cases ctx <;> cases ctx' <;> simp only [OptAlike, Option.map_some, Option.map_none] at hc <;> first
      | (cases hc; done)
      | trivial
      | simp [transposeNoteVal, Outcome.Rel, h]
  unfold transposeEvent
  cases body <;> cases body' <;> simp only [Body.nameless] at he <;> first
    | (cases he; done)
    | skip
  all_goals try (cases he; exact ⟨rfl, hc⟩)
  case keySignature.keySignature =>
    cases he
    simp only
    refine Outcome.Rel.bind (R := fun a b => a.1 = b.1 ∧ a.2.nameless = b.2.nameless) ?_ ?_
    · exact transposeKey_alike _ _ _ ctx ctx' hc
    · rintro ⟨b, c⟩ ⟨b', c'⟩ ⟨h1, h2⟩
      simp only at h1 h2
      subst h1
      exact ⟨rfl, by simp only [OptAlike, Option.map_some, h2]⟩
  case noteOff.noteOff =>
    injection he with h1 h2 h3
    injection h2 with h2
    subst h1 h3
    refine Outcome.Rel.bind (hnote _ _ _ h2) fun a b h => ?_
    exact ⟨by simp only [Event.nameless, Body.nameless, h], hc⟩
  case noteOn.noteOn =>
    injection he with h1 h2 h3
    injection h2 with h2
    subst h1 h3
    refine Outcome.Rel.bind (hnote _ _ _ h2) fun a b h => ?_
    exact ⟨by simp only [Event.nameless, Body.nameless, h], hc⟩

theorem transposeEvents_alike (mc mc' : MiddleC) (n : Int) : ∀ (es es' : List Event) (ctx ctx' : Option Context), OptAlike ctx ctx' →
    es.map Event.nameless = es'.map Event.nameless →
    Outcome.Rel (fun a b => List.map Event.nameless a = List.map Event.nameless b) (transposeEvents mc n ctx es) (transposeEvents mc' n ctx' es') := by
  intro es
  induction es with
  | nil =>
    intro es' ctx ctx' _ h
    cases es' with
    | nil => rfl
    | cons _ _ => simp at h
  | cons e es ih =>
    intro es' ctx ctx' hc h
    cases es' with
    | nil => simp at h
    | cons e' es' =>
      simp only [List.map_cons, List.cons.injEq] at h
      rw [transposeEvents, transposeEvents]
      refine Outcome.Rel.bind (transposeEvent_alike mc mc' n ctx ctx' hc e e' h.1) ?_
      rintro ⟨a, c⟩ ⟨b, c'⟩ ⟨h1, h2⟩
      refine Outcome.Rel.bind (ih es' c c' h2 h.2) fun x y hxy => ?_
      simp only at h1
      simp only [Outcome.Rel, List.map_cons, h1, hxy]

theorem transposeTracks_alike (mc mc' : MiddleC) (n : Int) : ∀ (ts ts' : List MTrk), ts.map MTrk.nameless = ts'.map MTrk.nameless →
    Outcome.Rel (fun a b => List.map MTrk.nameless a = List.map MTrk.nameless b) (transposeTracks mc n false ts) (transposeTracks mc' n false ts') := by
  intro ts
  induction ts with
  | nil =>
    intro ts' h
    cases ts' with
    | nil => rfl
    | cons _ _ => simp at h
  | cons t ts ih =>
    intro ts' h
    cases ts' with
    | nil => simp at h
    | cons t' ts' =>
      simp only [List.map_cons, List.cons.injEq] at h
      rw [transposeTracks, transposeTracks]
      have ht := h.1
      simp only [MTrk.nameless, MTrk.mk.injEq] at ht
      obtain ⟨t1, t2, t3, t4, t5, t6⟩ := ht
      refine Outcome.Rel.bind (R := fun a b => MTrk.nameless a = MTrk.nameless b) ?_ fun a b hab => ?_
      · unfold transposeTrack
        simp only [Bool.false_eq_true, if_false]
        refine Outcome.Rel.bind (transposeEvents_alike mc mc' n _ _ _ _ (by simp only [OptAlike, Option.map_some, t6]) t5) fun x y hxy => ?_
        simp only [Outcome.Rel, MTrk.nameless, hxy, t2]
      · refine Outcome.Rel.bind (ih ts' h.2) fun x y hxy => ?_
        simp only [Outcome.Rel, List.map_cons, hab, hxy]

/-- The names of the notes make no difference to the file written by transposing. -/
theorem transposeExecute_alike (mc mc' : MiddleC) (n : Int) (a b : SMF) (h : a.nameless = b.nameless) :
    transposeExecute mc n false a = transposeExecute mc' n false b := by
  apply Outcome.rel_eq
  unfold transposeExecute transposeSMF
  simp only [SMF.nameless, SMF.mk.injEq] at h
  refine Outcome.Rel.bind (R := fun a b => SMF.nameless a = SMF.nameless b) ?_ fun x y hxy => ?_
  · refine Outcome.Rel.bind (transposeTracks_alike mc mc' n _ _ h.2) fun x y hxy => ?_
    simp only [Outcome.Rel, SMF.nameless, hxy, h.1]
  · rw [encode_alike hxy]
    exact Outcome.Rel.refl (fun _ => rfl) _

end Midiasm
