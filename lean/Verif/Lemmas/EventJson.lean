import Verif.Model.AssembleJson
import Verif.Lemmas.ReadBack
import Verif.Lemmas.ToJson
import Verif.Props.AssembleText
import Verif.Spec.Text

/-!
Exported events are read back from JSON.
-/

set_option linter.unusedSimpArgs false

namespace Midiasm
open Spec

/-! ### Members of objects -/

/-- The positions of a name, in any case, in a list of names. -/
def places (name : String) (names : List String) : List Nat :=
  (names.zipIdx.filter fun p => keyIs name (runes (str p.1))).map Prod.snd

theorem places_filter (name : String) (ms : List (String × Json)) :
    ((ms.map fun m => (runes (str m.1), m.2)).filter fun m => keyIs name m.1).map Prod.snd =
      (places name (ms.map Prod.fst)).filterMap fun i => ms[i]?.map Prod.snd := by
  have key : ∀ (ms : List (String × Json)) (pre : List (String × Json)),
      ((ms.map fun m => (runes (str m.1), m.2)).filter fun m => keyIs name m.1).map Prod.snd =
      ((((ms.map Prod.fst).zipIdx pre.length).filter fun p => keyIs name (runes (str p.1))).map Prod.snd).filterMap fun i => (pre ++ ms)[i]?.map Prod.snd := by
    intro ms
    induction ms with
    | nil => intro pre; rfl
    | cons m ms ih =>
      intro pre
      have h := ih (pre ++ [m])
      simp only [List.length_append, List.length_singleton, List.append_assoc, List.singleton_append] at h
      simp only [List.map_cons, List.zipIdx_cons, List.filter_cons]
      by_cases hk : keyIs name (runes (str m.1)) = true
      · simp only [hk, if_true, List.map_cons, List.filterMap_cons]
        rw [h]
        simp
      · simp only [hk, if_false, Bool.false_eq_true]
        exact h
  exact key ms []

theorem foldl_values {α : Type} (d : α → Json → Outcome α) (ms : List (List Nat × Json)) (cur : α) :
    ms.foldlM (fun a m => d a m.2) cur = (ms.map Prod.snd).foldlM d cur := by
  rw [List.foldlM_map]

/-- The one member with that name. -/
theorem field_at {α : Type} (d : α → Json → Outcome α) (name : String) (cur : α) (ms : List (String × Json)) (i : Nat) (m : String × Json)
    (hs : places name (ms.map Prod.fst) = [i]) (hm : ms[i]? = some m) : field d name cur (jobj ms) = d cur m.2 := by
  unfold jobj
  simp only [field, foldl_values, places_filter, hs]
  simp only [List.filterMap_cons, List.filterMap_nil, hm, Option.map_some, List.foldlM_cons, List.foldlM_nil]
  cases d cur m.2 <;> rfl

theorem bind_pure_ok {α : Type} (o : Outcome α) : (o >>= fun a => .ok a) = o := by cases o <;> rfl

/-- The field numbered `i` of the object in the goal. -/
macro "jfield" i:num : tactic =>
  `(tactic| rw [field_at _ _ _ _ $i _ (by simp only [List.map_cons, List.map_nil]; decide +kernel) rfl])

/-! ### Numbers, bytes, strings -/

theorem uintJson_num (bits cur n : Nat) (h : n < 2 ^ bits) : uintJson bits cur (jnum n) = .ok n := parseUint_dec n bits h

theorem int8Json_int (cur : Int) (a : Int8) : int8Json cur (jint a.toInt) = .ok a.toInt := by
  have h : ∀ b : UInt8, (match int8Json 0 (jint b.toInt8.toInt) with | .ok v => v == b.toInt8.toInt | _ => false) = true :=
    all8 (by decide +kernel)
  have := h a.toUInt8
  have he : a.toUInt8.toInt8 = a := by simp
  rw [he] at this
  have hc : int8Json cur (jint a.toInt) = int8Json 0 (jint a.toInt) := rfl
  rw [hc]
  cases hp : int8Json 0 (jint a.toInt) with
  | ok v => rw [hp] at this; simp at this; rw [this]
  | err _ => rw [hp] at this; cases this
  | panic => rw [hp] at this; cases this
  | diverge => rw [hp] at this; cases this

theorem channelJson_num (cur ch : UInt8) : channelJson cur (jnum ch.toNat) = if ch > 15 then .err .other else .ok ch := by
  have hl : (15 : UInt8).toNat = 15 := rfl
  unfold channelJson
  rw [uintJson_num _ _ _ (Nat.lt_trans ch.toNat_lt (by decide)), Outcome.bind_ok, UInt8.ofNat_toNat]
  by_cases h : ch > 15
  · have : 15 < ch.toNat := by have := UInt8.lt_iff_toNat_lt.mp h; omega
    rw [if_pos h, if_pos this]
  · have : ¬ 15 < ch.toNat := fun hh => h (UInt8.lt_iff_toNat_lt.mpr (by omega))
    rw [if_neg h, if_neg this]

theorem elements_bytes (bs : Bytes) : elementsJson (uintJson 64) 0 [] (bs.map fun b => jnum b.toNat) = .ok ⟨bs.map UInt8.toNat, []⟩ := by
  induction bs with
  | nil => rfl
  | cons b bs ih =>
    simp only [List.map_cons, elementsJson]
    rw [uintJson_num _ _ _ (Nat.lt_trans b.toNat_lt (by decide)), Outcome.bind_ok, List.tail_nil, ih, Outcome.bind_ok]

theorem slice_bytes (bs : Bytes) : sliceJson (uintJson 64) 0 ⟨[], []⟩ (.arr (bs.map fun b => jnum b.toNat)) = .ok ⟨bs.map UInt8.toNat, []⟩ := by
  cases bs with
  | nil => rfl
  | cons b bs => exact elements_bytes (b :: bs)

theorem ofNat_toNat_map (bs : Bytes) : (bs.map UInt8.toNat).map UInt8.ofNat = bs := by
  rw [List.map_map]
  have : UInt8.ofNat ∘ UInt8.toNat = id := by funext b; simp
  rw [this, List.map_id]

theorem hexJson_hex (cur bs : Bytes) : hexJson cur (hexToJson bs) = .ok bs := by
  unfold hexJson hexToJson bytesJson
  rw [slice_bytes, Outcome.bind_ok, ofNat_toNat_map]

theorem manufacturerJson_json (cur m : Lib.Manufacturer) : manufacturerJson cur (manufacturerToJson m) = .ok (Lib.lookupManufacturer m.id) := by
  unfold manufacturerJson manufacturerToJson
  jfield 0
  rw [slice_bytes, Outcome.bind_ok, ofNat_toNat_map]

theorem noteJson_json (cur : UInt8) (n : NoteVal) : noteJson cur (noteToJson n) = .ok n.value := by
  unfold noteJson noteToJson
  jfield 0
  jfield 1
  jfield 2
  rw [uintJson_num _ _ _ n.value.toNat_lt]
  simp only [jstr, stringJson, Outcome.bind_ok, UInt8.ofNat_toNat]

theorem controllerJson_json (cur c : Lib.Controller) : controllerJson cur (controllerToJson c) = .ok (Lib.lookupController c.id) := by
  unfold controllerJson controllerToJson
  jfield 0
  jfield 1
  rw [uintJson_num _ _ _ c.id.toNat_lt]
  simp only [jstr, stringJson, Outcome.bind_ok, UInt8.ofNat_toNat]

theorem ofRunes_text (s : Bytes) (h : ∃ cs, IsText s cs) : ofRunes (runes s) = s := by
  obtain ⟨cs, rfl⟩ := h
  rw [runes_chars, ofRunes_chars]

theorem text_str (s : String) : ∃ cs, IsText (str s) cs := ⟨s.toList, rfl⟩

theorem stringJson_str (cur : Bytes) (s : String) : stringJson cur (jstr (str s)) = .ok (str s) := by
  simp only [jstr, stringJson, ofRunes_text _ (text_str s)]

/-! ### Events -/

/-- The manufacturer IDs that are not replaced by those of another manufacturer. -/
def Kept (id : Bytes) : Prop := (Lib.lookupManufacturer id).id = id

/-- The event that is read from an exported event: notes are named without a key, controllers and manufacturers as in the tables, bytes of
texts that are not UTF-8 are replaced, and terminators of continuation packets are lost. -/
def Body.asImported (mc : MiddleC) : Body → Body
  | .text k s => .text k (ofRunes (runes s))
  | .noteOff ch n v => .noteOff ch ⟨n.value, formatNoteNil mc n.value, formatNoteNil mc n.value⟩ v
  | .noteOn ch n v => .noteOn ch ⟨n.value, formatNoteNil mc n.value, formatNoteNil mc n.value⟩ v
  | .controller ch c v => .controller ch (Lib.lookupController c.id) v
  | .keySignature a k _ => .keySignature a k (keyName a.toInt (k == 1))
  | .sequencerSpecific m d => .sequencerSpecific (Lib.lookupManufacturer m.id) d
  | .sysExMessage m d s => .sysExMessage (Lib.lookupManufacturer m.id) d s
  | .sysExContinuation d _ => .sysExContinuation d false
  | b => b

/-- Reading an exported event. -/
def Body.imported (mc : MiddleC) : Body → Outcome Body
  | .midiChannelPrefix ch => if ch > 15 then .err .other else .ok (.midiChannelPrefix ch)
  | .midiPort p => if p > 127 then .err .other else .ok (.midiPort p)
  | .smpteOffset h m s r f ff => makeSMPTEOffset h m s r f ff
  | .timeSignature n d c t => makeTimeSignature n d c t
  | .keySignature a k _ => makeKeySignature a k
  | .noteOff ch n v => if ch > 15 then .err .other else .ok ((Body.noteOff ch n v).asImported mc)
  | .noteOn ch n v => if ch > 15 then .err .other else if v > 127 then .panic else .ok ((Body.noteOn ch n v).asImported mc)
  | .polyphonicPressure ch p => if ch > 15 then .err .other else if p > 127 then .panic else .ok (.polyphonicPressure ch p)
  | .controller ch c v => if ch > 15 then .err .other else .ok ((Body.controller ch c v).asImported mc)
  | .programChange ch b p => if ch > 15 then .err .other else .ok (.programChange ch b p)
  | .channelPressure ch p => if ch > 15 then .err .other else if p > 127 then .panic else .ok (.channelPressure ch p)
  | .pitchBend ch b => if ch > 15 then .err .other else .ok (.pitchBend ch b)
  | b => .ok (b.asImported mc)

/-- Events whose values are in the ranges of MIDI. -/
def Body.InRange : Body → Prop
  | .midiChannelPrefix ch => ch ≤ 15
  | .midiPort p => p ≤ 127
  | .smpteOffset h m s r f ff => h ≤ 24 ∧ m ≤ 59 ∧ s ≤ 59 ∧ (r = 24 ∨ r = 25 ∨ r = 29 ∨ r = 30) ∧ f < r ∧ ff ≤ 100
  | .timeSignature _ d _ _ => d ≤ 128
  | .keySignature a k _ => -7 ≤ a.toInt ∧ a.toInt ≤ 7 ∧ k ≤ 1
  | .noteOff ch _ _ => ch ≤ 15
  | .noteOn ch _ v => ch ≤ 15 ∧ v ≤ 127
  | .polyphonicPressure ch p => ch ≤ 15 ∧ p ≤ 127
  | .controller ch _ _ => ch ≤ 15
  | .programChange ch _ _ => ch ≤ 15
  | .channelPressure ch p => ch ≤ 15 ∧ p ≤ 127
  | .pitchBend ch _ => ch ≤ 15
  | _ => True

theorem find_at {β : Type} (p : String → Bool) (l : List (String × β)) (i : Nat) (x : String × β) (h : (l.map Prod.fst).findIdx p = i)
    (hx : l[i]? = some x) : l.find? (fun c => p c.1) = some x := by
  induction l generalizing i with
  | nil => simp at hx
  | cons a l ih =>
    simp only [List.map_cons, List.findIdx_cons] at h
    rw [List.find?_cons]
    cases ha : p a.1 with
    | true =>
      rw [ha] at h
      simp only [cond_true] at h
      subst h
      simpa using hx
    | false =>
      rw [ha] at h
      simp only [cond_false] at h
      subst h
      exact ih _ rfl (by simpa using hx)

/-- An object with a tag that names a case. -/
theorem eventOfJson_tag (mc : MiddleC) (ms : List (String × Json)) (tag : String) (i : Nat) (f : Json → Outcome (UInt32 × Body)) (o : Outcome Body) (delta : UInt32)
    (h0 : field stringJson "tag" [] (jobj ms) = .ok (str tag))
    (hi : ((jsonCases mc).map Prod.fst).findIdx (fun c => str tag == str c) = i) (hf : (jsonCases mc)[i]? = some (tag, f))
    (hr : f (jobj ms) = (o >>= fun b => .ok (delta, b))) :
    eventOfJson mc (jobj [("event", jobj ms)]) = (o >>= fun b => .ok ⟨0, delta, [], b⟩) := by
  unfold eventOfJson
  jfield 0
  simp only [rawJson, Outcome.bind_ok]
  rw [h0, Outcome.bind_ok, find_at (fun c => str tag == str c) _ i _ hi hf]
  simp only
  rw [hr]
  cases o <;> rfl

theorem imported_sequenceNumber (mc : MiddleC) (tick : UInt64) (d : UInt32) (bs : Bytes) (n : UInt16) :
    eventOfJson mc (jobj [("event", eventToJson ⟨tick, d, bs, .sequenceNumber n⟩)]) = ((Body.sequenceNumber n).imported mc >>= fun b => .ok ⟨0, d, [], b⟩) := by
  simp only [eventToJson, eventToJsonWith, Body.tag, Body.isMeta, Body.membersWith, jstrWith_error, if_true, if_false, Bool.false_eq_true, List.cons_append, List.nil_append, List.append_nil]
  refine eventOfJson_tag mc _ "SequenceNumber" 0 (jsonSequenceNumber) _ d (by jfield 0; exact stringJson_str _ _) (by simp only [jsonCases, List.map_cons, List.map_nil]; decide +kernel) rfl ?_
  unfold jsonSequenceNumber prologueJson
  jfield 0
  jfield 1
  rw [stringJson_str, uintJson_num _ _ _ d.toNat_lt]
  simp only [Outcome.bind_ok, ne_eq, not_true, if_false, UInt32.ofNat_toNat]
  unfold shortField
  jfield 4
  rw [uintJson_num _ _ _ n.toNat_lt]
  simp only [Outcome.bind_ok, UInt8.ofNat_toNat, UInt16.ofNat_toNat, UInt32.ofNat_toNat, Int8.ofInt_toInt, boolJson, Body.imported, Body.asImported]

theorem imported_midiChannelPrefix (mc : MiddleC) (tick : UInt64) (d : UInt32) (bs : Bytes) (ch : UInt8) :
    eventOfJson mc (jobj [("event", eventToJson ⟨tick, d, bs, .midiChannelPrefix ch⟩)]) = ((Body.midiChannelPrefix ch).imported mc >>= fun b => .ok ⟨0, d, [], b⟩) := by
  simp only [eventToJson, eventToJsonWith, Body.tag, Body.isMeta, Body.membersWith, jstrWith_error, if_true, if_false, Bool.false_eq_true, List.cons_append, List.nil_append, List.append_nil]
  refine eventOfJson_tag mc _ "MIDIChannelPrefix" 10 (jsonMIDIChannelPrefix) _ d (by jfield 0; exact stringJson_str _ _) (by simp only [jsonCases, List.map_cons, List.map_nil]; decide +kernel) rfl ?_
  unfold jsonMIDIChannelPrefix prologueJson
  jfield 0
  jfield 1
  rw [stringJson_str, uintJson_num _ _ _ d.toNat_lt]
  simp only [Outcome.bind_ok, ne_eq, not_true, if_false, UInt32.ofNat_toNat]
  unfold byteField
  jfield 4
  rw [uintJson_num _ _ _ ch.toNat_lt]
  simp only [Outcome.bind_ok, UInt8.ofNat_toNat, UInt16.ofNat_toNat, UInt32.ofNat_toNat, Int8.ofInt_toInt, boolJson, Body.imported, Body.asImported]
  by_cases h : ch > 15
  · simp only [if_pos h]
    rfl
  · simp only [if_neg h, Outcome.bind_ok, makeMIDIChannelPrefix]

theorem imported_midiPort (mc : MiddleC) (tick : UInt64) (d : UInt32) (bs : Bytes) (p : UInt8) :
    eventOfJson mc (jobj [("event", eventToJson ⟨tick, d, bs, .midiPort p⟩)]) = ((Body.midiPort p).imported mc >>= fun b => .ok ⟨0, d, [], b⟩) := by
  simp only [eventToJson, eventToJsonWith, Body.tag, Body.isMeta, Body.membersWith, jstrWith_error, if_true, if_false, Bool.false_eq_true, List.cons_append, List.nil_append, List.append_nil]
  refine eventOfJson_tag mc _ "MIDIPort" 11 (jsonMIDIPort) _ d (by jfield 0; exact stringJson_str _ _) (by simp only [jsonCases, List.map_cons, List.map_nil]; decide +kernel) rfl ?_
  unfold jsonMIDIPort prologueJson
  jfield 0
  jfield 1
  rw [stringJson_str, uintJson_num _ _ _ d.toNat_lt]
  simp only [Outcome.bind_ok, ne_eq, not_true, if_false, UInt32.ofNat_toNat]
  unfold byteField
  jfield 4
  rw [uintJson_num _ _ _ p.toNat_lt]
  simp only [Outcome.bind_ok, UInt8.ofNat_toNat, UInt16.ofNat_toNat, UInt32.ofNat_toNat, Int8.ofInt_toInt, boolJson, Body.imported, Body.asImported]
  by_cases h : p > 127
  · simp only [if_pos h]
    rfl
  · simp only [if_neg h, Outcome.bind_ok, makeMIDIPort]

theorem imported_endOfTrack (mc : MiddleC) (tick : UInt64) (d : UInt32) (bs : Bytes) :
    eventOfJson mc (jobj [("event", eventToJson ⟨tick, d, bs, .endOfTrack ⟩)]) = ((Body.endOfTrack ).imported mc >>= fun b => .ok ⟨0, d, [], b⟩) := by
  simp only [eventToJson, eventToJsonWith, Body.tag, Body.isMeta, Body.membersWith, jstrWith_error, if_true, if_false, Bool.false_eq_true, List.cons_append, List.nil_append, List.append_nil]
  refine eventOfJson_tag mc _ "EndOfTrack" 16 (jsonEndOfTrack) _ d (by jfield 0; exact stringJson_str _ _) (by simp only [jsonCases, List.map_cons, List.map_nil]; decide +kernel) rfl ?_
  unfold jsonEndOfTrack prologueJson
  jfield 0
  jfield 1
  rw [stringJson_str, uintJson_num _ _ _ d.toNat_lt]
  simp only [Outcome.bind_ok, ne_eq, not_true, if_false, UInt32.ofNat_toNat]
  rfl

theorem imported_tempo (mc : MiddleC) (tick : UInt64) (d : UInt32) (bs : Bytes) (t : UInt32) :
    eventOfJson mc (jobj [("event", eventToJson ⟨tick, d, bs, .tempo t⟩)]) = ((Body.tempo t).imported mc >>= fun b => .ok ⟨0, d, [], b⟩) := by
  simp only [eventToJson, eventToJsonWith, Body.tag, Body.isMeta, Body.membersWith, jstrWith_error, if_true, if_false, Bool.false_eq_true, List.cons_append, List.nil_append, List.append_nil]
  refine eventOfJson_tag mc _ "Tempo" 12 (jsonTempo) _ d (by jfield 0; exact stringJson_str _ _) (by simp only [jsonCases, List.map_cons, List.map_nil]; decide +kernel) rfl ?_
  unfold jsonTempo prologueJson
  jfield 0
  jfield 1
  rw [stringJson_str, uintJson_num _ _ _ d.toNat_lt]
  simp only [Outcome.bind_ok, ne_eq, not_true, if_false, UInt32.ofNat_toNat]
  jfield 4
  rw [uintJson_num _ _ _ t.toNat_lt]
  simp only [Outcome.bind_ok, UInt8.ofNat_toNat, UInt16.ofNat_toNat, UInt32.ofNat_toNat, Int8.ofInt_toInt, boolJson, Body.imported, Body.asImported]

theorem imported_smpteOffset (mc : MiddleC) (tick : UInt64) (d : UInt32) (bs : Bytes) (h m s r f ff : UInt8) :
    eventOfJson mc (jobj [("event", eventToJson ⟨tick, d, bs, .smpteOffset h m s r f ff⟩)]) = ((Body.smpteOffset h m s r f ff).imported mc >>= fun b => .ok ⟨0, d, [], b⟩) := by
  simp only [eventToJson, eventToJsonWith, Body.tag, Body.isMeta, Body.membersWith, jstrWith_error, if_true, if_false, Bool.false_eq_true, List.cons_append, List.nil_append, List.append_nil]
  refine eventOfJson_tag mc _ "SMPTEOffset" 15 (jsonSMPTEOffset) _ d (by jfield 0; exact stringJson_str _ _) (by simp only [jsonCases, List.map_cons, List.map_nil]; decide +kernel) rfl ?_
  unfold jsonSMPTEOffset prologueJson
  jfield 0
  jfield 1
  rw [stringJson_str, uintJson_num _ _ _ d.toNat_lt]
  simp only [Outcome.bind_ok, ne_eq, not_true, if_false, UInt32.ofNat_toNat]
  unfold byteField
  jfield 4
  rw [uintJson_num _ _ _ h.toNat_lt]
  jfield 5
  rw [uintJson_num _ _ _ m.toNat_lt]
  jfield 6
  rw [uintJson_num _ _ _ s.toNat_lt]
  jfield 7
  rw [uintJson_num _ _ _ r.toNat_lt]
  jfield 8
  rw [uintJson_num _ _ _ f.toNat_lt]
  jfield 9
  rw [uintJson_num _ _ _ ff.toNat_lt]
  simp only [Outcome.bind_ok, UInt8.ofNat_toNat, UInt16.ofNat_toNat, UInt32.ofNat_toNat, Int8.ofInt_toInt, boolJson, Body.imported, Body.asImported]

theorem imported_timeSignature (mc : MiddleC) (tick : UInt64) (d : UInt32) (bs : Bytes) (n den c t : UInt8) :
    eventOfJson mc (jobj [("event", eventToJson ⟨tick, d, bs, .timeSignature n den c t⟩)]) = ((Body.timeSignature n den c t).imported mc >>= fun b => .ok ⟨0, d, [], b⟩) := by
  simp only [eventToJson, eventToJsonWith, Body.tag, Body.isMeta, Body.membersWith, jstrWith_error, if_true, if_false, Bool.false_eq_true, List.cons_append, List.nil_append, List.append_nil]
  refine eventOfJson_tag mc _ "TimeSignature" 13 (jsonTimeSignature) _ d (by jfield 0; exact stringJson_str _ _) (by simp only [jsonCases, List.map_cons, List.map_nil]; decide +kernel) rfl ?_
  unfold jsonTimeSignature prologueJson
  jfield 0
  jfield 1
  rw [stringJson_str, uintJson_num _ _ _ d.toNat_lt]
  simp only [Outcome.bind_ok, ne_eq, not_true, if_false, UInt32.ofNat_toNat]
  unfold byteField
  jfield 4
  rw [uintJson_num _ _ _ n.toNat_lt]
  jfield 5
  rw [uintJson_num _ _ _ den.toNat_lt]
  jfield 6
  rw [uintJson_num _ _ _ c.toNat_lt]
  jfield 7
  rw [uintJson_num _ _ _ t.toNat_lt]
  simp only [Outcome.bind_ok, UInt8.ofNat_toNat, UInt16.ofNat_toNat, UInt32.ofNat_toNat, Int8.ofInt_toInt, boolJson, Body.imported, Body.asImported]

theorem imported_keySignature (mc : MiddleC) (tick : UInt64) (d : UInt32) (bs : Bytes) (a : Int8) (k : UInt8) (key : String) :
    eventOfJson mc (jobj [("event", eventToJson ⟨tick, d, bs, .keySignature a k key⟩)]) = ((Body.keySignature a k key).imported mc >>= fun b => .ok ⟨0, d, [], b⟩) := by
  simp only [eventToJson, eventToJsonWith, Body.tag, Body.isMeta, Body.membersWith, jstrWith_error, if_true, if_false, Bool.false_eq_true, List.cons_append, List.nil_append, List.append_nil]
  refine eventOfJson_tag mc _ "KeySignature" 14 (jsonKeySignature) _ d (by jfield 0; exact stringJson_str _ _) (by simp only [jsonCases, List.map_cons, List.map_nil]; decide +kernel) rfl ?_
  unfold jsonKeySignature prologueJson
  jfield 0
  jfield 1
  rw [stringJson_str, uintJson_num _ _ _ d.toNat_lt]
  simp only [Outcome.bind_ok, ne_eq, not_true, if_false, UInt32.ofNat_toNat]
  unfold byteField
  jfield 4
  rw [int8Json_int]
  jfield 5
  rw [uintJson_num _ _ _ k.toNat_lt]
  simp only [Outcome.bind_ok, UInt8.ofNat_toNat, UInt16.ofNat_toNat, UInt32.ofNat_toNat, Int8.ofInt_toInt, boolJson, Body.imported, Body.asImported]

theorem imported_sequencerSpecific (mc : MiddleC) (tick : UInt64) (d : UInt32) (bs : Bytes) (m : Lib.Manufacturer) (x : Bytes) :
    eventOfJson mc (jobj [("event", eventToJson ⟨tick, d, bs, .sequencerSpecific m x⟩)]) = ((Body.sequencerSpecific m x).imported mc >>= fun b => .ok ⟨0, d, [], b⟩) := by
  simp only [eventToJson, eventToJsonWith, Body.tag, Body.isMeta, Body.membersWith, jstrWith_error, if_true, if_false, Bool.false_eq_true, List.cons_append, List.nil_append, List.append_nil]
  refine eventOfJson_tag mc _ "SequencerSpecificEvent" 17 (jsonSequencerSpecific) _ d (by jfield 0; exact stringJson_str _ _) (by simp only [jsonCases, List.map_cons, List.map_nil]; decide +kernel) rfl ?_
  unfold jsonSequencerSpecific prologueJson
  jfield 0
  jfield 1
  rw [stringJson_str, uintJson_num _ _ _ d.toNat_lt]
  simp only [Outcome.bind_ok, ne_eq, not_true, if_false, UInt32.ofNat_toNat]
  jfield 4
  rw [manufacturerJson_json]
  jfield 5
  rw [hexJson_hex]
  simp only [Outcome.bind_ok, UInt8.ofNat_toNat, UInt16.ofNat_toNat, UInt32.ofNat_toNat, Int8.ofInt_toInt, boolJson, Body.imported, Body.asImported]

theorem imported_noteOff (mc : MiddleC) (tick : UInt64) (d : UInt32) (bs : Bytes) (ch : UInt8) (n : NoteVal) (v : UInt8) :
    eventOfJson mc (jobj [("event", eventToJson ⟨tick, d, bs, .noteOff ch n v⟩)]) = ((Body.noteOff ch n v).imported mc >>= fun b => .ok ⟨0, d, [], b⟩) := by
  simp only [eventToJson, eventToJsonWith, Body.tag, Body.isMeta, Body.membersWith, jstrWith_error, if_true, if_false, Bool.false_eq_true, List.cons_append, List.nil_append, List.append_nil]
  refine eventOfJson_tag mc _ "NoteOff" 18 (jsonNoteOff mc) _ d (by jfield 0; exact stringJson_str _ _) (by simp only [jsonCases, List.map_cons, List.map_nil]; decide +kernel) rfl ?_
  unfold jsonNoteOff prologueJson
  jfield 0
  jfield 1
  rw [stringJson_str, uintJson_num _ _ _ d.toNat_lt]
  simp only [Outcome.bind_ok, ne_eq, not_true, if_false, UInt32.ofNat_toNat]
  unfold byteField
  jfield 3
  rw [channelJson_num]
  jfield 4
  rw [noteJson_json]
  jfield 5
  rw [uintJson_num _ _ _ v.toNat_lt]
  simp only [Outcome.bind_ok, UInt8.ofNat_toNat, UInt16.ofNat_toNat, UInt32.ofNat_toNat, Int8.ofInt_toInt, boolJson, Body.imported, Body.asImported]
  by_cases h : ch > 15
  · simp only [if_pos h]
    rfl
  · simp only [if_neg h, Outcome.bind_ok]

theorem imported_noteOn (mc : MiddleC) (tick : UInt64) (d : UInt32) (bs : Bytes) (ch : UInt8) (n : NoteVal) (v : UInt8) :
    eventOfJson mc (jobj [("event", eventToJson ⟨tick, d, bs, .noteOn ch n v⟩)]) = ((Body.noteOn ch n v).imported mc >>= fun b => .ok ⟨0, d, [], b⟩) := by
  simp only [eventToJson, eventToJsonWith, Body.tag, Body.isMeta, Body.membersWith, jstrWith_error, if_true, if_false, Bool.false_eq_true, List.cons_append, List.nil_append, List.append_nil]
  refine eventOfJson_tag mc _ "NoteOn" 19 (jsonNoteOn mc) _ d (by jfield 0; exact stringJson_str _ _) (by simp only [jsonCases, List.map_cons, List.map_nil]; decide +kernel) rfl ?_
  unfold jsonNoteOn prologueJson
  jfield 0
  jfield 1
  rw [stringJson_str, uintJson_num _ _ _ d.toNat_lt]
  simp only [Outcome.bind_ok, ne_eq, not_true, if_false, UInt32.ofNat_toNat]
  unfold byteField
  jfield 3
  rw [channelJson_num]
  jfield 4
  rw [noteJson_json]
  jfield 5
  rw [uintJson_num _ _ _ v.toNat_lt]
  simp only [Outcome.bind_ok, UInt8.ofNat_toNat, UInt16.ofNat_toNat, UInt32.ofNat_toNat, Int8.ofInt_toInt, boolJson, Body.imported, Body.asImported]
  by_cases h : ch > 15
  · simp only [if_pos h]
    rfl
  · simp only [if_neg h, Outcome.bind_ok, makeNoteOn]

theorem imported_polyphonicPressure (mc : MiddleC) (tick : UInt64) (d : UInt32) (bs : Bytes) (ch p : UInt8) :
    eventOfJson mc (jobj [("event", eventToJson ⟨tick, d, bs, .polyphonicPressure ch p⟩)]) = ((Body.polyphonicPressure ch p).imported mc >>= fun b => .ok ⟨0, d, [], b⟩) := by
  simp only [eventToJson, eventToJsonWith, Body.tag, Body.isMeta, Body.membersWith, jstrWith_error, if_true, if_false, Bool.false_eq_true, List.cons_append, List.nil_append, List.append_nil]
  refine eventOfJson_tag mc _ "PolyphonicPressure" 20 (jsonPolyphonicPressure) _ d (by jfield 0; exact stringJson_str _ _) (by simp only [jsonCases, List.map_cons, List.map_nil]; decide +kernel) rfl ?_
  unfold jsonPolyphonicPressure prologueJson
  jfield 0
  jfield 1
  rw [stringJson_str, uintJson_num _ _ _ d.toNat_lt]
  simp only [Outcome.bind_ok, ne_eq, not_true, if_false, UInt32.ofNat_toNat]
  unfold byteField
  jfield 3
  rw [channelJson_num]
  jfield 4
  rw [uintJson_num _ _ _ p.toNat_lt]
  simp only [Outcome.bind_ok, UInt8.ofNat_toNat, UInt16.ofNat_toNat, UInt32.ofNat_toNat, Int8.ofInt_toInt, boolJson, Body.imported, Body.asImported]
  by_cases h : ch > 15
  · simp only [if_pos h]
    rfl
  · simp only [if_neg h, Outcome.bind_ok, makePolyphonicPressure]

theorem imported_controller (mc : MiddleC) (tick : UInt64) (d : UInt32) (bs : Bytes) (ch : UInt8) (c : Lib.Controller) (v : UInt8) :
    eventOfJson mc (jobj [("event", eventToJson ⟨tick, d, bs, .controller ch c v⟩)]) = ((Body.controller ch c v).imported mc >>= fun b => .ok ⟨0, d, [], b⟩) := by
  simp only [eventToJson, eventToJsonWith, Body.tag, Body.isMeta, Body.membersWith, jstrWith_error, if_true, if_false, Bool.false_eq_true, List.cons_append, List.nil_append, List.append_nil]
  refine eventOfJson_tag mc _ "Controller" 21 (jsonController) _ d (by jfield 0; exact stringJson_str _ _) (by simp only [jsonCases, List.map_cons, List.map_nil]; decide +kernel) rfl ?_
  unfold jsonController prologueJson
  jfield 0
  jfield 1
  rw [stringJson_str, uintJson_num _ _ _ d.toNat_lt]
  simp only [Outcome.bind_ok, ne_eq, not_true, if_false, UInt32.ofNat_toNat]
  unfold byteField
  jfield 3
  rw [channelJson_num]
  jfield 4
  rw [controllerJson_json]
  jfield 5
  rw [uintJson_num _ _ _ v.toNat_lt]
  simp only [Outcome.bind_ok, UInt8.ofNat_toNat, UInt16.ofNat_toNat, UInt32.ofNat_toNat, Int8.ofInt_toInt, boolJson, Body.imported, Body.asImported]
  by_cases h : ch > 15
  · simp only [if_pos h]
    rfl
  · simp only [if_neg h, Outcome.bind_ok, makeController]

theorem imported_programChange (mc : MiddleC) (tick : UInt64) (d : UInt32) (bs : Bytes) (ch : UInt8) (b : UInt16) (p : UInt8) :
    eventOfJson mc (jobj [("event", eventToJson ⟨tick, d, bs, .programChange ch b p⟩)]) = ((Body.programChange ch b p).imported mc >>= fun b => .ok ⟨0, d, [], b⟩) := by
  simp only [eventToJson, eventToJsonWith, Body.tag, Body.isMeta, Body.membersWith, jstrWith_error, if_true, if_false, Bool.false_eq_true, List.cons_append, List.nil_append, List.append_nil]
  refine eventOfJson_tag mc _ "ProgramChange" 22 (jsonProgramChange) _ d (by jfield 0; exact stringJson_str _ _) (by simp only [jsonCases, List.map_cons, List.map_nil]; decide +kernel) rfl ?_
  unfold jsonProgramChange prologueJson
  jfield 0
  jfield 1
  rw [stringJson_str, uintJson_num _ _ _ d.toNat_lt]
  simp only [Outcome.bind_ok, ne_eq, not_true, if_false, UInt32.ofNat_toNat]
  unfold byteField
  unfold shortField
  jfield 3
  rw [channelJson_num]
  jfield 4
  rw [uintJson_num _ _ _ b.toNat_lt]
  jfield 5
  rw [uintJson_num _ _ _ p.toNat_lt]
  simp only [Outcome.bind_ok, UInt8.ofNat_toNat, UInt16.ofNat_toNat, UInt32.ofNat_toNat, Int8.ofInt_toInt, boolJson, Body.imported, Body.asImported]
  by_cases h : ch > 15
  · simp only [if_pos h]
    rfl
  · simp only [if_neg h, Outcome.bind_ok, makeProgramChange]

theorem imported_channelPressure (mc : MiddleC) (tick : UInt64) (d : UInt32) (bs : Bytes) (ch p : UInt8) :
    eventOfJson mc (jobj [("event", eventToJson ⟨tick, d, bs, .channelPressure ch p⟩)]) = ((Body.channelPressure ch p).imported mc >>= fun b => .ok ⟨0, d, [], b⟩) := by
  simp only [eventToJson, eventToJsonWith, Body.tag, Body.isMeta, Body.membersWith, jstrWith_error, if_true, if_false, Bool.false_eq_true, List.cons_append, List.nil_append, List.append_nil]
  refine eventOfJson_tag mc _ "ChannelPressure" 23 (jsonChannelPressure) _ d (by jfield 0; exact stringJson_str _ _) (by simp only [jsonCases, List.map_cons, List.map_nil]; decide +kernel) rfl ?_
  unfold jsonChannelPressure prologueJson
  jfield 0
  jfield 1
  rw [stringJson_str, uintJson_num _ _ _ d.toNat_lt]
  simp only [Outcome.bind_ok, ne_eq, not_true, if_false, UInt32.ofNat_toNat]
  unfold byteField
  jfield 3
  rw [channelJson_num]
  jfield 4
  rw [uintJson_num _ _ _ p.toNat_lt]
  simp only [Outcome.bind_ok, UInt8.ofNat_toNat, UInt16.ofNat_toNat, UInt32.ofNat_toNat, Int8.ofInt_toInt, boolJson, Body.imported, Body.asImported]
  by_cases h : ch > 15
  · simp only [if_pos h]
    rfl
  · simp only [if_neg h, Outcome.bind_ok, makeChannelPressure]

theorem imported_pitchBend (mc : MiddleC) (tick : UInt64) (d : UInt32) (bs : Bytes) (ch : UInt8) (b : UInt16) :
    eventOfJson mc (jobj [("event", eventToJson ⟨tick, d, bs, .pitchBend ch b⟩)]) = ((Body.pitchBend ch b).imported mc >>= fun b => .ok ⟨0, d, [], b⟩) := by
  simp only [eventToJson, eventToJsonWith, Body.tag, Body.isMeta, Body.membersWith, jstrWith_error, if_true, if_false, Bool.false_eq_true, List.cons_append, List.nil_append, List.append_nil]
  refine eventOfJson_tag mc _ "PitchBend" 24 (jsonPitchBend) _ d (by jfield 0; exact stringJson_str _ _) (by simp only [jsonCases, List.map_cons, List.map_nil]; decide +kernel) rfl ?_
  unfold jsonPitchBend prologueJson
  jfield 0
  jfield 1
  rw [stringJson_str, uintJson_num _ _ _ d.toNat_lt]
  simp only [Outcome.bind_ok, ne_eq, not_true, if_false, UInt32.ofNat_toNat]
  unfold shortField
  jfield 3
  rw [channelJson_num]
  jfield 4
  rw [uintJson_num _ _ _ b.toNat_lt]
  simp only [Outcome.bind_ok, UInt8.ofNat_toNat, UInt16.ofNat_toNat, UInt32.ofNat_toNat, Int8.ofInt_toInt, boolJson, Body.imported, Body.asImported]
  by_cases h : ch > 15
  · simp only [if_pos h]
    rfl
  · simp only [if_neg h, Outcome.bind_ok, makePitchBend]

theorem imported_sysExMessage (mc : MiddleC) (tick : UInt64) (d : UInt32) (bs : Bytes) (m : Lib.Manufacturer) (x : Bytes) (t : Bool) :
    eventOfJson mc (jobj [("event", eventToJson ⟨tick, d, bs, .sysExMessage m x t⟩)]) = ((Body.sysExMessage m x t).imported mc >>= fun b => .ok ⟨0, d, [], b⟩) := by
  simp only [eventToJson, eventToJsonWith, Body.tag, Body.isMeta, Body.membersWith, jstrWith_error, if_true, if_false, Bool.false_eq_true, List.cons_append, List.nil_append, List.append_nil]
  refine eventOfJson_tag mc _ "SysExMessage" 25 (jsonSysExMessage) _ d (by jfield 0; exact stringJson_str _ _) (by simp only [jsonCases, List.map_cons, List.map_nil]; decide +kernel) rfl ?_
  unfold jsonSysExMessage prologueJson
  jfield 0
  jfield 1
  rw [stringJson_str, uintJson_num _ _ _ d.toNat_lt]
  simp only [Outcome.bind_ok, ne_eq, not_true, if_false, UInt32.ofNat_toNat]
  jfield 3
  rw [manufacturerJson_json]
  jfield 4
  rw [hexJson_hex]
  jfield 5
  simp only [Outcome.bind_ok, UInt8.ofNat_toNat, UInt16.ofNat_toNat, UInt32.ofNat_toNat, Int8.ofInt_toInt, boolJson, Body.imported, Body.asImported]

theorem imported_sysExContinuation (mc : MiddleC) (tick : UInt64) (d : UInt32) (bs : Bytes) (x : Bytes) (t : Bool) :
    eventOfJson mc (jobj [("event", eventToJson ⟨tick, d, bs, .sysExContinuation x t⟩)]) = ((Body.sysExContinuation x t).imported mc >>= fun b => .ok ⟨0, d, [], b⟩) := by
  simp only [eventToJson, eventToJsonWith, Body.tag, Body.isMeta, Body.membersWith, jstrWith_error, if_true, if_false, Bool.false_eq_true, List.cons_append, List.nil_append, List.append_nil]
  refine eventOfJson_tag mc _ "SysExContinuation" 26 (jsonSysExContinuation) _ d (by jfield 0; exact stringJson_str _ _) (by simp only [jsonCases, List.map_cons, List.map_nil]; decide +kernel) rfl ?_
  unfold jsonSysExContinuation prologueJson
  jfield 0
  jfield 1
  rw [stringJson_str, uintJson_num _ _ _ d.toNat_lt]
  simp only [Outcome.bind_ok, ne_eq, not_true, if_false, UInt32.ofNat_toNat]
  jfield 3
  rw [hexJson_hex]
  jfield 4
  simp only [Outcome.bind_ok, UInt8.ofNat_toNat, UInt16.ofNat_toNat, UInt32.ofNat_toNat, Int8.ofInt_toInt, boolJson, Body.imported, Body.asImported]

theorem imported_sysExEscape (mc : MiddleC) (tick : UInt64) (d : UInt32) (bs : Bytes) (x : Bytes) :
    eventOfJson mc (jobj [("event", eventToJson ⟨tick, d, bs, .sysExEscape x⟩)]) = ((Body.sysExEscape x).imported mc >>= fun b => .ok ⟨0, d, [], b⟩) := by
  simp only [eventToJson, eventToJsonWith, Body.tag, Body.isMeta, Body.membersWith, jstrWith_error, if_true, if_false, Bool.false_eq_true, List.cons_append, List.nil_append, List.append_nil]
  refine eventOfJson_tag mc _ "SysExEscape" 27 (jsonSysExEscape) _ d (by jfield 0; exact stringJson_str _ _) (by simp only [jsonCases, List.map_cons, List.map_nil]; decide +kernel) rfl ?_
  unfold jsonSysExEscape prologueJson
  jfield 0
  jfield 1
  rw [stringJson_str, uintJson_num _ _ _ d.toNat_lt]
  simp only [Outcome.bind_ok, ne_eq, not_true, if_false, UInt32.ofNat_toNat]
  jfield 3
  rw [hexJson_hex]
  simp only [Outcome.bind_ok, UInt8.ofNat_toNat, UInt16.ofNat_toNat, UInt32.ofNat_toNat, Int8.ofInt_toInt, boolJson, Body.imported, Body.asImported]

theorem imported_text (mc : MiddleC) (tick : UInt64) (d : UInt32) (bs : Bytes) (k : TextKind) (x : Bytes) :
    eventOfJson mc (jobj [("event", eventToJson ⟨tick, d, bs, .text k x⟩)]) = ((Body.text k x).imported mc >>= fun b => .ok ⟨0, d, [], b⟩) := by
  have read : ∀ i, (jsonCases mc)[i]? = some (k.tag, jsonText k) → ((jsonCases mc).map Prod.fst).findIdx (fun c => str k.tag == str c) = i →
      places "tag" ["tag", "delta", "status", "type", k.field] = [0] → places "delta" ["tag", "delta", "status", "type", k.field] = [1] →
      places k.field ["tag", "delta", "status", "type", k.field] = [4] →
      eventOfJson mc (jobj [("event", eventToJson ⟨tick, d, bs, .text k x⟩)]) = ((Body.text k x).imported mc >>= fun b => .ok ⟨0, d, [], b⟩) := by
    intro i hi hf h0 h1 h4
    simp only [eventToJson, eventToJsonWith, Body.tag, Body.isMeta, Body.membersWith, jstrWith_error, if_true, List.cons_append, List.nil_append, List.append_nil]
    refine eventOfJson_tag mc _ k.tag i (jsonText k) _ d ?_ hf hi ?_
    · rw [field_at _ _ _ _ 0 _ h0 rfl]; exact stringJson_str _ _
    · unfold jsonText prologueJson
      rw [field_at _ _ _ _ 0 _ h0 rfl, field_at _ _ _ _ 1 _ h1 rfl, field_at _ _ _ _ 4 _ h4 rfl]
      rw [stringJson_str, uintJson_num _ _ _ d.toNat_lt]
      simp only [Outcome.bind_ok, ne_eq, not_true, if_false, UInt32.ofNat_toNat, jstr, stringJson, Body.imported, Body.asImported]
  cases k with
  | text => exact read 1 rfl (by simp only [jsonCases, List.map_cons, List.map_nil]; decide +kernel) (by decide +kernel) (by decide +kernel) (by decide +kernel)
  | copyright => exact read 2 rfl (by simp only [jsonCases, List.map_cons, List.map_nil]; decide +kernel) (by decide +kernel) (by decide +kernel) (by decide +kernel)
  | trackName => exact read 3 rfl (by simp only [jsonCases, List.map_cons, List.map_nil]; decide +kernel) (by decide +kernel) (by decide +kernel) (by decide +kernel)
  | instrumentName => exact read 4 rfl (by simp only [jsonCases, List.map_cons, List.map_nil]; decide +kernel) (by decide +kernel) (by decide +kernel) (by decide +kernel)
  | lyric => exact read 5 rfl (by simp only [jsonCases, List.map_cons, List.map_nil]; decide +kernel) (by decide +kernel) (by decide +kernel) (by decide +kernel)
  | marker => exact read 6 rfl (by simp only [jsonCases, List.map_cons, List.map_nil]; decide +kernel) (by decide +kernel) (by decide +kernel) (by decide +kernel)
  | cuePoint => exact read 7 rfl (by simp only [jsonCases, List.map_cons, List.map_nil]; decide +kernel) (by decide +kernel) (by decide +kernel) (by decide +kernel)
  | programName => exact read 8 rfl (by simp only [jsonCases, List.map_cons, List.map_nil]; decide +kernel) (by decide +kernel) (by decide +kernel) (by decide +kernel)
  | deviceName => exact read 9 rfl (by simp only [jsonCases, List.map_cons, List.map_nil]; decide +kernel) (by decide +kernel) (by decide +kernel) (by decide +kernel)

/-- Reading any exported event. -/
theorem read_exported (mc : MiddleC) (e : Event) :
    eventOfJson mc (jobj [("event", eventToJson e)]) = (e.body.imported mc >>= fun b => .ok ⟨0, e.delta, [], b⟩) := by
  obtain ⟨tick, d, bs, body⟩ := e
  cases body with
  | sequenceNumber => exact imported_sequenceNumber ..
  | text => exact imported_text ..
  | midiChannelPrefix => exact imported_midiChannelPrefix ..
  | midiPort => exact imported_midiPort ..
  | endOfTrack => exact imported_endOfTrack ..
  | tempo => exact imported_tempo ..
  | smpteOffset => exact imported_smpteOffset ..
  | timeSignature => exact imported_timeSignature ..
  | keySignature => exact imported_keySignature ..
  | sequencerSpecific => exact imported_sequencerSpecific ..
  | noteOff => exact imported_noteOff ..
  | noteOn => exact imported_noteOn ..
  | polyphonicPressure => exact imported_polyphonicPressure ..
  | controller => exact imported_controller ..
  | programChange => exact imported_programChange ..
  | channelPressure => exact imported_channelPressure ..
  | pitchBend => exact imported_pitchBend ..
  | sysExMessage => exact imported_sysExMessage ..
  | sysExContinuation => exact imported_sysExContinuation ..
  | sysExEscape => exact imported_sysExEscape ..

theorem imported_range (mc : MiddleC) (b : Body) (h : b.InRange) : b.imported mc = .ok (b.asImported mc) := by
  cases b with
  | smpteOffset h m s r f ff =>
    obtain ⟨h1, h2, h3, h4, h5, h6⟩ := h
    simp only [Body.imported, Body.asImported, makeSMPTEOffset]
    rw [if_neg (UInt8.not_lt.mpr h1), if_neg (UInt8.not_lt.mpr h2), if_neg (UInt8.not_lt.mpr h3), if_neg, if_neg (UInt8.not_le.mpr h5),
      if_neg (UInt8.not_lt.mpr h6)]
    rintro ⟨r1, r2, r3, r4⟩
    rcases h4 with h | h | h | h <;> contradiction
  | timeSignature n den c t =>
    have hd : ∀ x : UInt8, x ≤ 128 → (match denomLoop x 8 1 0 with | .ok _ => true | _ => false) = true := all8 (by decide +kernel)
    have := hd den h
    simp only [Body.imported, Body.asImported, makeTimeSignature]
    cases hl : denomLoop den 8 1 0 with
    | ok v => rfl
    | err _ => rw [hl] at this; cases this
    | panic => rw [hl] at this; cases this
    | diverge => rw [hl] at this; cases this
  | keySignature a k key => exact keySignature_made a k _ h.1 h.2.1 h.2.2 rfl
  | midiChannelPrefix ch => simp only [Body.imported, if_neg (UInt8.not_lt.mpr h)]; rfl
  | midiPort p => simp only [Body.imported, if_neg (UInt8.not_lt.mpr h)]; rfl
  | noteOff ch n v => simp only [Body.imported, if_neg (UInt8.not_lt.mpr h)]
  | noteOn ch n v => simp only [Body.imported, if_neg (UInt8.not_lt.mpr h.1), if_neg (UInt8.not_lt.mpr h.2)]
  | polyphonicPressure ch p => simp only [Body.imported, if_neg (UInt8.not_lt.mpr h.1), if_neg (UInt8.not_lt.mpr h.2)]; rfl
  | controller ch c v => simp only [Body.imported, if_neg (UInt8.not_lt.mpr h)]
  | programChange ch b p => simp only [Body.imported, if_neg (UInt8.not_lt.mpr h)]; rfl
  | channelPressure ch p => simp only [Body.imported, if_neg (UInt8.not_lt.mpr h.1), if_neg (UInt8.not_lt.mpr h.2)]; rfl
  | pitchBend ch b => simp only [Body.imported, if_neg (UInt8.not_lt.mpr h)]; rfl
  | _ => rfl

/-- An exported event with values in range is read back. -/
theorem imported_event (mc : MiddleC) (e : Event) (h : e.body.InRange) :
    eventOfJson mc (jobj [("event", eventToJson e)]) = .ok ⟨0, e.delta, [], e.body.asImported mc⟩ := by
  rw [read_exported, imported_range mc _ h, Outcome.bind_ok]

end Midiasm
