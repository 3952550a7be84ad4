import Verif.Props.JsonMeaning
import Verif.Props.JsonText

/-!
C137: the file that a JSON document stands for, exactly (`Verif/Spec/JsonFile.lean`).  C138: the file that a JSON text stands for.
-/

set_option linter.unusedSimpArgs false

namespace Midiasm
open Spec

/-! ### Names do not matter -/

/-- The events differ at most in names. -/
def Alike (a b : Event) : Prop := a.delta = b.delta ∧ a.body.bare = b.body.bare

theorem bytes_bare (b : Body) (bs : Bytes) : EventBytes b.bare bs ↔ EventBytes b bs := by
  cases b <;> exact Iff.rfl

theorem endPacket_bare (b : Body) : (endPacket b).bare = endPacket b.bare := by
  cases b <;> rfl

theorem packet_bare (b : Body) : (∃ d t, b.bare = .sysExContinuation d t) ↔ ∃ d t, b = .sysExContinuation d t := by
  cases b <;> simp [Body.bare]

theorem packet_alike {a b : Event} (h : Alike a b) : (∃ d t, a.body = .sysExContinuation d t) ↔ ∃ d t, b.body = .sysExContinuation d t := by
  rw [← packet_bare, h.2, packet_bare]

theorem restored_alike {es es' fs : List Event} (h : TerminatorsRestored es es') (ha : List.Forall₂ Alike es fs) :
    ∃ fs', TerminatorsRestored fs fs' ∧ List.Forall₂ Alike es' fs' := by
  induction h generalizing fs with
  | last e =>
    cases ha with
    | cons h1 h2 =>
      cases h2
      exact ⟨_, .last _, .cons h1 .nil⟩
  | goesOn e n es es' hn _ ih =>
    cases ha with
    | @cons _ f _ _ h1 h2 =>
      obtain ⟨fs', k1, k2⟩ := ih h2
      cases h2 with
      | cons h2 h3 => exact ⟨f :: fs', .goesOn _ _ _ _ ((packet_alike h2).mp hn) k1, .cons h1 k2⟩
  | ends e n es es' hn _ ih =>
    cases ha with
    | @cons _ f _ _ h1 h2 =>
      obtain ⟨fs', k1, k2⟩ := ih h2
      cases h2 with
      | cons h2 h3 =>
        refine ⟨⟨f.tick, f.delta, f.bytes, endPacket f.body⟩ :: fs', .ends _ _ _ _ (fun h => hn ((packet_alike h2).mpr h)) k1, .cons ⟨h1.1, ?_⟩ k2⟩
        simp only
        rw [endPacket_bare, endPacket_bare, h1.2]

theorem forall₂_alike {R : Event → Bytes → Prop} (hR : ∀ a b bs, Alike a b → R a bs → R b bs) {es fs : List Event} {l : List Bytes}
    (h : List.Forall₂ R es l) (ha : List.Forall₂ Alike es fs) : List.Forall₂ R fs l := by
  induction h generalizing fs with
  | nil => cases ha; exact .nil
  | cons h1 _ ih =>
    cases ha with
    | cons a1 a2 => exact .cons (hR _ _ _ a1 h1) (ih a2)

theorem chunk_alike {es fs : List Event} {chunk : Bytes} (h : TrackChunk es chunk) (ha : List.Forall₂ Alike es fs) : TrackChunk fs chunk := by
  obtain ⟨full, written, deltas, content, h1, h2, h3, h4⟩ := h
  refine ⟨full, written, deltas, content, forall₂_alike ?_ h1 ha, h2, forall₂_alike ?_ h3 ha, h4⟩
  · intro a b bs hab h
    rw [← bytes_bare, ← hab.2, bytes_bare]
    exact h
  · intro a b bs hab h
    rw [← hab.1]
    exact h

/-! ### Events -/

theorem says_object {ev : Json} {delta : UInt32} {b : Body} (h : JsonSays ev delta b) : ∃ ms, ev = .obj ms := by
  obtain ⟨⟨_, h⟩, _⟩ := h
  rcases h with ⟨before, v, after, h, _⟩ | ⟨_, h⟩
  · cases ev with
    | obj ms => exact ⟨ms, rfl⟩
    | _ => exact absurd (congrArg List.length h) (by simp [valuesOf, membersOf])
  · exfalso
    cases b with
    | text k _ => cases k <;> (simp only [Body.tag, TextKind.tag] at h; exact absurd h (by decide +kernel))
    | _ => simp only [Body.tag] at h; exact absurd h (by decide +kernel)

theorem json_ranged {ev : Json} {delta : UInt32} {b : Body} (h : JsonSays ev delta b) : b.Ranged := by
  obtain ⟨_, _, h⟩ := h
  cases b with
  | smpteOffset => obtain ⟨_, _, _, _, _, _, h1, _, _, h2, _⟩ := h; exact ⟨h1, h2⟩
  | noteOff => exact says_channel h.1
  | noteOn => exact says_channel h.1
  | polyphonicPressure => exact says_channel h.1
  | controller => exact says_channel h.1
  | programChange => exact says_channel h.1
  | channelPressure => exact says_channel h.1
  | pitchBend => exact says_channel h.1
  | _ => trivial

theorem find_case {α : Type} (l : List (String × α)) (hn : (l.map fun c => str c.1).Nodup) (c : String × α) (hc : c ∈ l) :
    l.find? (fun x => str c.1 == str x.1) = some c := by
  induction l with
  | nil => cases hc
  | cons x l ih =>
    rw [List.map_cons, List.nodup_cons] at hn
    rcases List.mem_cons.mp hc with rfl | hc
    · rw [List.find?_cons_of_pos (by simp)]
    · rw [List.find?_cons_of_neg, ih hn.2 hc]
      intro h
      rw [beq_iff_eq] at h
      exact hn.1 (by rw [← h]; exact List.mem_map.mpr ⟨c, hc, rfl⟩)

theorem cases_distinct (mc : MiddleC) : ((jsonCases mc).map fun c => str c.1).Nodup := by
  have h : (jsonCases mc).map (fun c => str c.1) = ["SequenceNumber", "Text", "Copyright", "TrackName", "InstrumentName", "Lyric", "Marker", "CuePoint",
      "ProgramName", "DeviceName", "MIDIChannelPrefix", "MIDIPort", "Tempo", "TimeSignature", "KeySignature", "SMPTEOffset", "EndOfTrack",
      "SequencerSpecificEvent", "NoteOff", "NoteOn", "PolyphonicPressure", "Controller", "ProgramChange", "ChannelPressure", "PitchBend",
      "SysExMessage", "SysExContinuation", "SysExEscape"].map str := rfl
  rw [h]
  decide +kernel

theorem event_member (w : Json) (ev : Json) : field rawJson "event" none w = .ok (some ev) ↔ ObjectLike w ∧ ∃ before, valuesOf "event" w = before ++ [ev] := by
  rw [members_iff, fold_latest (fun v a => some v = a) rawJson (fun _ _ _ => ok_iff _ _)]
  refine and_congr_right fun _ => ?_
  constructor
  · rintro ⟨_, ⟨before, v, h, h'⟩ | ⟨_, h⟩⟩
    · injection h' with h'
      exact ⟨before, by rw [h, h']⟩
    · cases h
  · rintro ⟨before, h⟩
    exact ⟨fun v _ => ⟨_, rfl⟩, Or.inl ⟨before, ev, h, rfl⟩⟩

theorem values_object {name : String} {j v : Json} {before after : List Json} (h : valuesOf name j = before ++ v :: after) : ∃ ms, j = .obj ms := by
  cases j with
  | obj ms => exact ⟨ms, rfl⟩
  | _ => exact absurd (congrArg List.length h) (by simp [valuesOf, membersOf])

theorem event_says {mc : MiddleC} {w : Json} {e : Event} (h : eventOfJson mc w = .ok e) : EventSays w e := by
  unfold eventOfJson at h
  obtain ⟨raw, h1, h⟩ := bound_ok h
  cases raw with
  | none => cases h
  | some ev =>
    obtain ⟨_, before, hb⟩ := (event_member _ _).mp h1
    obtain ⟨tag, h2, h⟩ := bound_ok h
    cases hf : (jsonCases mc).find? (fun c => tag == str c.1) with
    | none => rw [hf] at h; cases h
    | some c =>
      rw [hf] at h
      obtain ⟨⟨delta, body⟩, h3, h⟩ := bound_ok h
      injection h with h
      subst h
      have hm := List.mem_of_find?_eq_some hf
      have ht := List.find?_some hf
      obtain ⟨ms, rfl⟩ : ∃ ms, ev = .obj ms := by
        rcases ((members_iff _ _ _ _ _).mp h2).1 with rfl | h
        · exfalso
          injection h2 with h2
          rw [← h2] at ht
          have : ∀ c ∈ jsonCases mc, ([] == str c.1) = false := by
            unfold jsonCases
            simp only [List.forall_mem_cons, List.not_mem_nil, false_imp_iff, implies_true, and_true]
            decide +kernel
          rw [this c hm] at ht
          cases ht
        · exact h
      exact ⟨before, _, hb, (read_says mc ms delta body c hm h3).2⟩

theorem event_read (mc : MiddleC) {w : Json} {e : Event} (h : EventSays w e) : ∃ e', eventOfJson mc w = .ok e' ∧ Alike e e' := by
  obtain ⟨before, ev, hb, h⟩ := h
  obtain ⟨ms, rfl⟩ := says_object h
  obtain ⟨f, b', hf, hr, he⟩ := says_read mc ms _ _ h
  refine ⟨⟨0, e.delta, [], b'⟩, ?_, rfl, he.symm⟩
  unfold eventOfJson
  rw [(event_member w _).mpr ⟨Or.inr (values_object (after := []) hb), before, hb⟩, Outcome.bind_ok]
  simp only
  rw [(member_string ms _ _).mpr h.1, Outcome.bind_ok, find_case _ (cases_distinct mc) _ hf]
  simp only
  rw [hr]
  rfl

theorem events_say {mc : MiddleC} {l : List Json} {es : List Event} (h : parseJsonEvents mc l = .ok es) : List.Forall₂ EventSays l es := by
  induction l generalizing es with
  | nil => injection h with h; subst h; exact .nil
  | cons j l ih =>
    rw [parseJsonEvents] at h
    obtain ⟨e, h1, h⟩ := bound_ok h
    obtain ⟨es', h2, h⟩ := bound_ok h
    injection h with h
    subst h
    exact .cons (event_says h1) (ih h2)

theorem events_read (mc : MiddleC) {l : List Json} {es : List Event} (h : List.Forall₂ EventSays l es) :
    ∃ es', parseJsonEvents mc l = .ok es' ∧ List.Forall₂ Alike es es' := by
  induction h with
  | nil => exact ⟨[], rfl, .nil⟩
  | cons h1 _ ih =>
    obtain ⟨e', k1, k2⟩ := event_read mc h1
    obtain ⟨es', k3, k4⟩ := ih
    exact ⟨e' :: es', by rw [parseJsonEvents, k1, Outcome.bind_ok, k3]; rfl, .cons k2 k4⟩

/-! ### Pointers -/

theorem ptr_latest {α : Type} (kind : Json → α → Prop) (d : α → Json → Outcome α) (zero : α)
    (hd : ∀ c v x, d c v = .ok x ↔ v = .null ∧ x = c ∨ v ≠ .null ∧ kind v x) (hk : ∀ x, ¬ kind .null x) (vs : List Json) (cur r : Option α) :
    vs.foldlM (ptrJson d zero) cur = .ok r ↔ LastSays (fun v r => v = .null ∧ r = none ∨ ∃ x, kind v x ∧ r = some x) cur vs r := by
  refine fold_latest _ _ (fun c v x => ?_) _ _ _
  have hnn : v ≠ .null → ptrJson d zero c v = (d (c.getD zero) v >>= fun a => .ok (some a)) := by
    intro hv
    cases v <;> first | exact absurd rfl hv | rfl
  by_cases hv : v = .null
  · subst hv
    show Outcome.ok none = _ ↔ _
    rw [ok_iff]
    constructor
    · rintro rfl; exact Or.inl ⟨rfl, rfl⟩
    · rintro (⟨_, h⟩ | ⟨x, h, _⟩)
      · exact h.symm
      · exact absurd h (hk x)
  · rw [hnn hv, bind_iff]
    constructor
    · rintro ⟨a, h1, h2⟩
      injection h2 with h2
      rcases (hd _ _ _).mp h1 with ⟨h, _⟩ | ⟨_, h⟩
      · exact absurd h hv
      · exact Or.inr ⟨a, h, h2.symm⟩
    · rintro (⟨h, _⟩ | ⟨a, h, rfl⟩)
      · exact absurd h hv
      · exact ⟨a, (hd _ _ _).mpr (Or.inr ⟨hv, h⟩), rfl⟩

theorem ptr_some {α : Type} (kind : Json → α → Prop) (vs : List Json) (a : α) :
    LastSays (fun v r => v = .null ∧ r = none ∨ ∃ x, kind v x ∧ r = some x) none vs (some a) ↔ LastIs kind vs a := by
  constructor
  · rintro ⟨h1, h2⟩
    refine ⟨fun v hv => ?_, ?_⟩
    · obtain ⟨_, ⟨h, _⟩ | ⟨x, h, _⟩⟩ := h1 v hv
      · exact Or.inl h
      · exact Or.inr ⟨x, h⟩
    · rcases h2 with ⟨before, v, h, ⟨_, h'⟩ | ⟨x, h', hx⟩⟩ | ⟨_, h⟩
      · cases h'
      · injection hx with hx
        subst hx
        exact ⟨before, v, h, h'⟩
      · cases h
  · rintro ⟨h1, before, v, h, h'⟩
    refine ⟨fun v hv => ?_, Or.inl ⟨before, v, h, Or.inr ⟨a, h', rfl⟩⟩⟩
    rcases h1 v hv with h | ⟨x, h⟩
    · exact ⟨none, Or.inl ⟨h, rfl⟩⟩
    · exact ⟨some x, Or.inr ⟨x, h, rfl⟩⟩

theorem latest_some {α : Type} (kind : Json → α → Prop) (zero : α) (vs : List Json) : (∃ r, LastSays kind zero vs r) ↔ ∀ v ∈ vs, ∃ x, kind v x := by
  constructor
  · rintro ⟨_, h, _⟩; exact h
  · intro h
    rcases List.eq_nil_or_concat vs with rfl | ⟨before, v, rfl⟩
    · exact ⟨zero, h, Or.inr ⟨rfl, rfl⟩⟩
    · rw [List.concat_eq_append] at h ⊢
      obtain ⟨x, hx⟩ := h v (by simp)
      exact ⟨x, h, Or.inl ⟨before, v, rfl, hx⟩⟩

theorem ptr_ok {α : Type} (kind : Json → α → Prop) (d : α → Json → Outcome α) (zero : α)
    (hd : ∀ c v x, d c v = .ok x ↔ v = .null ∧ x = c ∨ v ≠ .null ∧ kind v x) (hk : ∀ x, ¬ kind .null x) (vs : List Json) (cur : Option α) :
    (∃ r, vs.foldlM (ptrJson d zero) cur = .ok r) ↔ ∀ v ∈ vs, v = .null ∨ ∃ x, kind v x := by
  simp only [ptr_latest kind d zero hd hk]
  rw [latest_some]
  refine forall₂_congr fun v _ => ?_
  constructor
  · rintro ⟨_, ⟨h, _⟩ | ⟨x, h, _⟩⟩
    · exact Or.inl h
    · exact Or.inr ⟨x, h⟩
  · rintro (h | ⟨x, h⟩)
    · exact ⟨none, Or.inl ⟨h, rfl⟩⟩
    · exact ⟨some x, Or.inr ⟨x, h, rfl⟩⟩

theorem no_string (x : Bytes) : ¬ StringIs .null x := by rintro ⟨_, h, _⟩; cases h

theorem no_number (bound x : Nat) : ¬ NumberBelow bound .null x := by rintro ⟨_, h, _⟩; cases h

theorem ptr_string (vs : List Json) (s : Bytes) : vs.foldlM (ptrJson stringJson []) none = .ok (some s) ↔ LastIs StringIs vs s := by
  rw [ptr_latest StringIs _ _ string_iff no_string, ptr_some]

theorem ptr_uint (vs : List Json) (n : Nat) : vs.foldlM (ptrJson (uintJson 16) 0) none = .ok (some n) ↔ LastIs (NumberBelow 65536) vs n := by
  rw [ptr_latest (NumberBelow 65536) _ _ (fun c v n => uint_iff 16 c v n) (no_number 65536), ptr_some]

/-! ### The header -/

theorem header_fold (j : Json) (r : HeaderFields) : field headerFields "header" ⟨none, none, none⟩ j = .ok r ↔ ObjectLike j ∧
    (∀ v ∈ valuesOf "header" j, ObjectLike v) ∧ (valuesOf "tag" (together "header" j)).foldlM (ptrJson stringJson []) none = .ok r.tag ∧
    (valuesOf "format" (together "header" j)).foldlM (ptrJson (uintJson 16) 0) none = .ok r.format ∧
    (valuesOf "PPQN" (together "header" j)).foldlM (ptrJson (uintJson 16) 0) none = .ok r.ppqn := by
  rw [members_iff]
  refine and_congr_right fun _ => ?_
  refine struct_fold headerFields (fun c ms r => (valuesOf "tag" (.obj ms)).foldlM (ptrJson stringJson []) c.tag = .ok r.tag ∧
    (valuesOf "format" (.obj ms)).foldlM (ptrJson (uintJson 16) 0) c.format = .ok r.format ∧
    (valuesOf "PPQN" (.obj ms)).foldlM (ptrJson (uintJson 16) 0) c.ppqn = .ok r.ppqn) ?_ ?_ ?_ _ _ _
  · intro c v r
    unfold headerFields
    simp only [bind_iff, members_iff]
    have hv : ∀ name, valuesOf name (.obj (membersOf v)) = valuesOf name v := fun _ => rfl
    simp only [hv]
    constructor
    · rintro ⟨a, ⟨ho, h1⟩, b, ⟨_, h2⟩, d, ⟨_, h3⟩, h4⟩
      injection h4 with h4
      subst h4
      exact ⟨ho, h1, h2, h3⟩
    · rintro ⟨ho, h1, h2, h3⟩
      exact ⟨_, ⟨ho, h1⟩, _, ⟨ho, h2⟩, _, ⟨ho, h3⟩, rfl⟩
  · intro c r
    obtain ⟨a, b, d⟩ := c
    obtain ⟨a', b', d'⟩ := r
    show (Outcome.ok a = .ok a' ∧ Outcome.ok b = .ok b' ∧ Outcome.ok d = .ok d') ↔ _
    simp only [ok_iff, HeaderFields.mk.injEq]
  · intro c a b r
    simp only [values_append, fold_append]
    constructor
    · rintro ⟨⟨x, h1, k1⟩, ⟨y, h2, k2⟩, ⟨z, h3, k3⟩⟩
      exact ⟨⟨x, y, z⟩, ⟨h1, h2, h3⟩, k1, k2, k3⟩
    · rintro ⟨m, ⟨h1, h2, h3⟩, k1, k2, k3⟩
      exact ⟨⟨_, h1, k1⟩, ⟨_, h2, k2⟩, ⟨_, h3, k3⟩⟩

theorem header_made (f d : Nat) (hv : (Header.mk f 0 d).Valid) : ∃ m, parseJsonMThd ⟨some (str "MThd"), some f, some d⟩ = .ok m := by
  obtain ⟨h1, _, h3, h4⟩ := hv
  simp only at h1 h3 h4
  unfold parseJsonMThd
  rw [if_neg (by simp)]
  simp only
  rw [if_neg (by omega)]
  have hdn : (UInt16.ofNat d).toNat = d := by rw [UInt16.toNat_ofNat', Nat.mod_eq_of_lt h3]
  have hfn : (UInt16.ofNat f).toNat = f := by rw [UInt16.toNat_ofNat', Nat.mod_eq_of_lt (by omega)]
  have hok : ¬ (UInt16.ofNat d &&& 0x8000 = 0x8000 ∧ fpsOf (UInt16.ofNat d) = none) := by
    rintro ⟨e1, e2⟩
    rcases h4 with h4 | h4
    · have : UInt16.ofNat d &&& 0x8000 = 0 := by rw [u16_and8000, hdn]; exact h4
      rw [this] at e1
      exact absurd e1 (by decide)
    · rw [fpsOf_eq, hdn] at e2
      cases hr : frameRate (d / 256) with
      | none => rw [hr] at h4; cases h4
      | some x => rw [hr] at e2; cases e2
  rw [if_neg hok, makeMThd_eq _ _ _ _ (by rw [hdn, hfn]; exact ⟨h1, by show (0 : UInt16).toNat < 65536; decide, h3, h4⟩), hdn]
  split
  · exact ⟨_, rfl⟩
  · rename_i hlt
    cases hr : frameRate (d / 256) with
    | none =>
      rcases h4 with h4 | h4
      · exact absurd h4 hlt
      · rw [hr] at h4; cases h4
    | some x => exact ⟨_, rfl⟩

/-! ### Tracks -/

theorem raws_iff (c : List Json) (v : Json) (l : List Json) : rawsJson c v = .ok l ↔ v = .null ∧ l = [] ∨ v = .arr l := by
  cases v with
  | null =>
    show Outcome.ok [] = .ok l ↔ _
    rw [ok_iff]
    exact ⟨fun h => Or.inl ⟨rfl, h.symm⟩, fun h => by rcases h with ⟨_, h⟩ | h; exact h.symm; cases h⟩
  | arr k =>
    show Outcome.ok k = .ok l ↔ _
    rw [ok_iff]
    exact ⟨fun h => Or.inr (by rw [h]), fun h => by rcases h with ⟨h, _⟩ | h; cases h; injection h⟩
  | _ => exact ⟨fun h => (by cases h), fun h => by rcases h with ⟨h, _⟩ | h <;> cases h⟩

theorem track_iff (c : TrackFields) (v : Json) (r : TrackFields) : trackFields c v = .ok r ↔ ObjectLike v ∧
    (valuesOf "tag" v).foldlM (ptrJson stringJson []) c.tag = .ok r.tag ∧
    (∀ x ∈ valuesOf "tracknumber" v, x = .null ∨ ∃ n, NumberBelow 65536 x n) ∧
    (valuesOf "events" v).foldlM rawsJson c.events = .ok r.events := by
  have hp := fun vs => ptr_ok (NumberBelow 65536) (uintJson 16) 0 (fun c v n => uint_iff 16 c v n) (no_number 65536) vs none
  rw [← hp]
  unfold trackFields
  simp only [bind_iff, members_iff]
  constructor
  · rintro ⟨a, ⟨ho, h1⟩, b, ⟨_, h2⟩, d, ⟨_, h3⟩, h4⟩
    injection h4 with h4
    subst h4
    exact ⟨ho, h1, ⟨b, h2⟩, h3⟩
  · rintro ⟨ho, h1, ⟨b, h2⟩, h3⟩
    exact ⟨_, ⟨ho, h1⟩, b, ⟨ho, h2⟩, _, ⟨ho, h3⟩, rfl⟩

theorem track_like (c : TrackFields) (v : Json) : (∃ r, trackFields c v = .ok r) ↔ TrackLike v := by
  simp only [track_iff]
  unfold TrackLike Strings
  rw [← ptr_ok StringIs stringJson [] string_iff no_string _ c.tag]
  have he : (∃ es, (valuesOf "events" v).foldlM rawsJson c.events = .ok es) ↔ ∀ x ∈ valuesOf "events" v, x = .null ∨ ∃ l, x = .arr l := by
    simp only [fold_latest _ _ raws_iff]
    rw [latest_some]
    refine forall₂_congr fun x _ => ?_
    constructor
    · rintro ⟨l, ⟨h, _⟩ | h⟩
      · exact Or.inl h
      · exact Or.inr ⟨l, h⟩
    · rintro (h | ⟨l, h⟩)
      · exact ⟨[], Or.inl ⟨h, rfl⟩⟩
      · exact ⟨l, Or.inr h⟩
  rw [← he]
  constructor
  · rintro ⟨r, h1, h2, h3, h4⟩
    exact ⟨h1, ⟨_, h2⟩, h3, _, h4⟩
  · rintro ⟨h1, ⟨t, h2⟩, h3, es, h4⟩
    exact ⟨⟨t, es⟩, h1, h2, h3, h4⟩

theorem track_says {mc : MiddleC} {v : Json} {t : TrackFields} {m : MTrk} (ht : trackFields ⟨none, []⟩ v = .ok t) (hm : parseJsonMTrk mc t = .ok m) :
    TrackSays v m.events ∧ m.tag = str "MTrk" := by
  obtain ⟨_, h1, _, h3⟩ := (track_iff _ _ _).mp ht
  unfold parseJsonMTrk at hm
  split at hm
  · cases hm
  rename_i htag
  rw [ne_eq, Classical.not_not] at htag
  obtain ⟨es, k1, hm⟩ := bound_ok hm
  obtain ⟨es', k2, hm⟩ := bound_ok hm
  injection hm with hm
  subst hm
  simp only at h1 h3
  rw [htag] at h1
  refine ⟨⟨((ptr_string _ _).mp h1).2, ?_⟩, rfl⟩
  have hne : t.events ≠ [] := by
    intro h
    rw [h] at k1
    injection k1 with k1
    subst k1
    cases k2
  rcases ((fold_latest _ _ raws_iff _ _ _).mp h3).2 with ⟨before, v, hb, ⟨_, h⟩ | rfl⟩ | ⟨_, h⟩
  · exact absurd h hne
  · exact ⟨before, t.events, es, hb, events_say k1, (fixups_iff _ _).mp k2⟩
  · exact absurd h hne

theorem append_last {α : Type} {a b : List α} {x y : α} (h : a ++ [x] = b ++ [y]) : x = y := by
  have := congrArg List.getLast? h
  simpa using this

theorem track_read (mc : MiddleC) {v : Json} {t : TrackFields} {es : List Event} (ht : trackFields ⟨none, []⟩ v = .ok t) (hs : TrackSays v es) :
    ∃ m, parseJsonMTrk mc t = .ok m ∧ List.Forall₂ Alike es m.events := by
  obtain ⟨_, h1, _, h3⟩ := (track_iff _ _ _).mp ht
  obtain ⟨⟨before, x, hb, hx⟩, before', l, given, hb', hg, hr⟩ := hs
  have htag : t.tag = some (str "MTrk") := by
    rcases ((ptr_latest StringIs _ _ string_iff no_string _ _ _).mp h1).2 with ⟨b2, y, h, hy⟩ | ⟨h, _⟩
    · have := append_last (hb.symm.trans h)
      subst this
      rcases hy with ⟨rfl, _⟩ | ⟨s, hs, hts⟩
      · exact absurd hx (no_string _)
      · obtain ⟨c1, e1, e2⟩ := hx
        obtain ⟨c2, e3, e4⟩ := hs
        rw [e1] at e3
        injection e3 with e3
        subst e3
        rw [hts, e4, e2]
    · rw [h] at hb
      exact absurd (congrArg List.length hb) (by simp)
  have hev : t.events = l := by
    rcases ((fold_latest _ _ raws_iff _ _ _).mp h3).2 with ⟨b2, y, h, hy⟩ | ⟨h, _⟩
    · have := append_last (hb'.symm.trans h)
      subst this
      rcases hy with ⟨h, _⟩ | h
      · cases h
      · injection h with h; exact h.symm
    · rw [h] at hb'
      exact absurd (congrArg List.length hb') (by simp)
  obtain ⟨es1, k1, k2⟩ := events_read mc hg
  obtain ⟨es2, k3, k4⟩ := restored_alike hr k2
  refine ⟨⟨str "MTrk", 0, 0, [0x4d, 0x54, 0x72, 0x6b, 0x00, 0x00, 0x00, 0x00], es2, newContext⟩, ?_, k4⟩
  unfold parseJsonMTrk
  rw [if_neg (by rw [htag]; simp), hev, k1, Outcome.bind_ok, (fixups_iff _ _).mpr k3]
  rfl

theorem tracks_parsed (mc : MiddleC) (ts : List TrackFields) (h : MThd) (done : List MTrk) (smf : SMF) (hp : parseJsonTracks mc ts h done = .ok smf) :
    smf.mthd = some { h with tracks := h.tracks + UInt16.ofNat ts.length } ∧ ∃ new, smf.tracks = done ++ new ∧
      List.Forall₂ (fun t m => ∃ m', parseJsonMTrk mc t = .ok m' ∧ m.tag = m'.tag ∧ m.events = m'.events) ts new := by
  induction ts generalizing h done with
  | nil =>
    injection hp with hp
    subst hp
    exact ⟨by simp, [], by simp, .nil⟩
  | cons t ts ih =>
    rw [parseJsonTracks] at hp
    obtain ⟨m, hm, hp⟩ := bound_ok hp
    obtain ⟨i1, new, i2, i3⟩ := ih _ _ hp
    refine ⟨?_, { m with trackNumber := done.length } :: new, by rw [i2]; simp, .cons ⟨m, hm, rfl, rfl⟩ i3⟩
    rw [i1]
    simp only
    have e : h.tracks + 1 + UInt16.ofNat ts.length = h.tracks + UInt16.ofNat (t :: ts).length := by
      rw [List.length_cons, UInt16.add_assoc, UInt16.ofNat_add, UInt16.add_comm (UInt16.ofNat ts.length)]
      rfl
    rw [e]

theorem tracks_parse (mc : MiddleC) (ts : List TrackFields) (h : MThd) (done : List MTrk) (hp : ∀ t ∈ ts, ∃ m, parseJsonMTrk mc t = .ok m) :
    ∃ smf, parseJsonTracks mc ts h done = .ok smf := by
  induction ts generalizing h done with
  | nil => exact ⟨_, rfl⟩
  | cons t ts ih =>
    obtain ⟨m, hm⟩ := hp t (by simp)
    rw [parseJsonTracks, hm, Outcome.bind_ok]
    exact ih _ _ fun t ht => hp t (by simp [ht])

/-! ### Documents -/

theorem encode_json (mc : MiddleC) (j : Json) (els : List TrackFields) (m : MThd) (f d : Nat) (hd : d < 65536) (smf : SMF)
    (hh : parseJsonMThd ⟨some (str "MThd"), some f, some d⟩ = .ok m) (hp : parseJsonTracks mc els m [] = .ok smf)
    (hr : List.Forall₂ (fun track t => trackFields ⟨none, []⟩ track = .ok t) (tracksOf j) els) (b : Bytes) :
    List.Forall₂ TrackSays (tracksOf j) (smf.tracks.map MTrk.events) ∧
    (encode smf = .ok b ↔ smf.tracks.length < 65536 ∧ ∃ chunks, List.Forall₂ TrackChunk (smf.tracks.map MTrk.events) chunks ∧
      b = (Header.mk f smf.tracks.length d).chunk.bytes ++ chunks.flatten) := by
  obtain ⟨_, f', d', e1, e2, _, hm⟩ := accepted_header _ _ hh
  injection e1 with e1
  injection e2 with e2
  subst e1 e2
  obtain ⟨_, hm⟩ := hm hd
  obtain ⟨p1, new, p2, p3⟩ := tracks_parsed mc els m [] smf hp
  rw [List.nil_append] at p2
  have hlen : new.length = els.length := p3.length_eq.symm
  have hsays : List.Forall₂ TrackSays (tracksOf j) (new.map MTrk.events) ∧ ∀ t ∈ new, t.tag = str "MTrk" := by
    revert p3
    clear p2 hlen hp p1
    generalize tracksOf j = ts at hr
    intro p3
    induction hr generalizing new with
    | nil => cases p3; exact ⟨.nil, by simp⟩
    | cons h1 _ ih =>
      cases p3 with
      | @cons _ n _ ns q1 q2 =>
        obtain ⟨m', q1, q3, q4⟩ := q1
        obtain ⟨s1, s2⟩ := track_says h1 q1
        obtain ⟨i1, i2⟩ := ih ns q2
        rw [List.map_cons]
        refine ⟨.cons (by rw [q4]; exact s1) i1, ?_⟩
        intro t ht
        rcases List.mem_cons.mp ht with rfl | ht
        · rw [q3, s2]
        · exact i2 t ht
  obtain ⟨hsays, htag⟩ := hsays
  have hranged : ∀ es ∈ new.map MTrk.events, ∀ e ∈ es, e.body.Ranged := by
    intro es hes
    obtain ⟨t, ht⟩ : ∃ t, TrackSays t es := by
      obtain ⟨i, hi, rfl⟩ := List.mem_iff_getElem.mp hes
      exact ⟨_, hsays.get (i := i) (by rw [hsays.length_eq]; exact hi) hi⟩
    obtain ⟨_, _, _, given, _, hg, hr⟩ := ht
    refine restored_ranged hr fun e he => ?_
    obtain ⟨i, hi, rfl⟩ := List.mem_iff_getElem.mp he
    obtain ⟨_, _, _, h⟩ := hg.get (i := i) (by rw [hg.length_eq]; exact hi) hi
    exact json_ranged h
  rw [p2]
  refine ⟨hsays, ?_⟩
  have h0 : m.tracks + UInt16.ofNat els.length = UInt16.ofNat els.length := by rw [(hm 0).2]; simp
  have hn : (UInt16.ofNat els.length).toNat = els.length % 65536 := by rw [UInt16.toNat_ofNat']
  unfold encode
  rw [p1, p2]
  simp only
  rw [h0, hn, hlen, (hm _).1, hn]
  by_cases hc : els.length < 65536
  · rw [Nat.mod_eq_of_lt hc, if_neg (fun h => h rfl)]
    constructor
    · intro ho
      obtain ⟨bs, h1, h2⟩ := bound_ok ho
      injection h2 with h2
      obtain ⟨chunks, h3, rfl⟩ := (encodeTracks_iff new htag bs).mp h1
      exact ⟨hc, chunks, (chunks_iff _ hranged chunks).mp h3, h2.symm⟩
    · rintro ⟨_, chunks, h3, rfl⟩
      rw [(encodeTracks_iff new htag _).mpr ⟨chunks, (chunks_iff _ hranged chunks).mpr h3, rfl⟩]
      rfl
  · rw [if_pos (by omega)]
    exact ⟨fun h => (by cases h), fun h => absurd h.1 hc⟩

/-- **C137.** A JSON document is assembled to a file exactly if its members say so, and the bytes of the file are those of the header
with the number of tracks and of the tracks with their events, running status, lengths and SysEx terminators.  Nothing in this statement
refers to the functions of the model; in particular the file does not depend on the setting of middle C. -/
theorem C137_json_file (mc : MiddleC) (j : Json) (b : Bytes) :
    assembleJson mc j = .ok b ↔ ∃ (f d : Nat) (ts : List (List Event)) (chunks : List Bytes), DocumentSays j f d ts ∧ ts.length < 65536 ∧
      List.Forall₂ TrackChunk ts chunks ∧ b = (Header.mk f ts.length d).chunk.bytes ++ chunks.flatten := by
  constructor
  · intro h
    unfold assembleJson at h
    obtain ⟨header, hh, h⟩ := bound_ok h
    obtain ⟨tracks, ht, h⟩ := bound_ok h
    obtain ⟨m, hm, h⟩ := bound_ok h
    obtain ⟨smf, hs, h⟩ := bound_ok h
    obtain ⟨_, o1, o2, o3, o4⟩ := (header_fold _ _).mp hh
    obtain ⟨m1, f, d, m2, m3, _, m4⟩ := accepted_header _ _ hm
    rw [m1, ptr_string] at o2
    rw [m2, ptr_uint] at o3
    rw [m3, ptr_uint] at o4
    have hd : d < 65536 := by
      obtain ⟨_, _, _, _, _, _, _, h⟩ := o4
      exact h
    have heq : header = ⟨some (str "MThd"), some f, some d⟩ := by
      obtain ⟨a, b, c⟩ := header
      simp only at m1 m2 m3
      rw [m1, m2, m3]
    rw [heq] at hm
    obtain ⟨s1, s2⟩ := encode_json mc j tracks.els m f d hd smf hm hs (tracks_read j tracks ht) b
    obtain ⟨s3, chunks, s4, s5⟩ := s2.mp h
    refine ⟨f, d, smf.tracks.map MTrk.events, chunks, ⟨⟨o1, o2, o3, o4, (m4 hd).1⟩, ?_, s1⟩, by rw [List.length_map]; exact s3, s4, by
      rw [List.length_map]; exact s5⟩
    exact (slices_ok trackFields ⟨none, []⟩ TrackLike track_like _ _).mp ⟨tracks, ((members_iff _ _ _ _ _).mp ht).2⟩
  · rintro ⟨f, d, ts, chunks, ⟨⟨o1, o2, o3, o4, hv⟩, ht, hts⟩, hl, hc, rfl⟩
    have hobj : ObjectLike j := by
      obtain ⟨_, before, v, h, _⟩ := o2
      right
      cases hvs : valuesOf "header" j with
      | nil => rw [together, hvs] at h; exact absurd (congrArg List.length h) (by simp [valuesOf, membersOf])
      | cons x l => exact values_object (before := []) hvs
    have hh := (header_fold j ⟨some (str "MThd"), some f, some d⟩).mpr ⟨hobj, o1, (ptr_string _ _).mpr o2, (ptr_uint _ _).mpr o3, (ptr_uint _ _).mpr o4⟩
    obtain ⟨tracks, hs⟩ := (slices_ok trackFields ⟨none, []⟩ TrackLike track_like _ ⟨[], []⟩).mpr ht
    have hs := (members_iff _ _ _ _ _).mpr ⟨hobj, hs⟩
    obtain ⟨m, hm⟩ := header_made f d hv
    have hread := tracks_read j tracks hs
    obtain ⟨new, hp, ha⟩ : ∃ smf, parseJsonTracks mc tracks.els m [] = .ok smf ∧ List.Forall₂ (List.Forall₂ Alike) ts (smf.tracks.map MTrk.events) := by
      have hall : List.Forall₂ (fun es t => ∃ m, parseJsonMTrk mc t = .ok m ∧ List.Forall₂ Alike es m.events) ts tracks.els := by
        generalize tracksOf j = l at hread hts
        generalize tracks.els = els at hread
        clear hl hc
        induction hts generalizing els with
        | nil => cases hread; exact .nil
        | cons h1 _ ih =>
          cases hread with
          | cons q1 q2 => exact .cons (track_read mc q1 h1) (ih _ q2)
      obtain ⟨smf, hp⟩ := tracks_parse mc tracks.els m [] (by
        intro t ht
        obtain ⟨i, hi, rfl⟩ := List.mem_iff_getElem.mp ht
        obtain ⟨m, h, _⟩ := hall.get (i := i) (by rw [hall.length_eq]; exact hi) hi
        exact ⟨m, h⟩)
      refine ⟨smf, hp, ?_⟩
      obtain ⟨_, new, p2, p3⟩ := tracks_parsed mc _ _ _ _ hp
      rw [p2, List.nil_append]
      generalize tracks.els = els at hall p3
      clear p2 hp hl hc hts
      induction hall generalizing new with
      | nil => cases p3; exact .nil
      | cons h1 _ ih =>
        cases p3 with
        | cons q1 q2 =>
          obtain ⟨m1, k1, k2⟩ := h1
          obtain ⟨m2, k3, _, k4⟩ := q1
          rw [k1] at k3
          injection k3 with k3
          subst k3
          exact .cons (by rw [k4]; exact k2) (ih _ q2)
    have hlen : ts.length = new.tracks.length := by rw [ha.length_eq, List.length_map]
    have hchunks : List.Forall₂ TrackChunk (new.tracks.map MTrk.events) chunks := by
      generalize new.tracks.map MTrk.events = us at ha
      clear hl hts hlen
      induction hc generalizing us with
      | nil => cases ha; exact .nil
      | cons h1 _ ih =>
        cases ha with
        | cons q1 q2 => exact .cons (chunk_alike h1 q1) (ih _ q2)
    unfold assembleJson
    rw [hh, Outcome.bind_ok, hs, Outcome.bind_ok, hm, Outcome.bind_ok, hp, Outcome.bind_ok]
    exact (encode_json mc j tracks.els m f d hv.2.2.1 new hm hp hread _).2.mpr ⟨by rw [← hlen]; exact hl, chunks, hchunks, by rw [hlen]⟩

/-! ### C138: texts -/

/-- What a JSON text is assembled to: the file of the document that it begins with, after white space.  Whatever follows the document is not
read.  Where no character begins in a string - at a byte that is not UTF-8, at half of a surrogate pair - it has the replacement character. -/
theorem C138_json_text (mc : MiddleC) (text b : Bytes) : assembleJsonText mc text = .ok b ↔
    ∃ a s rest j, text = a ++ s ++ rest ∧ Space a ∧ JsonText CharsRead j s ∧ nesting j ≤ 10000 ∧
      ∃ f d ts chunks, DocumentSays j f d ts ∧ ts.length < 65536 ∧ List.Forall₂ TrackChunk ts chunks ∧
        b = (Header.mk f ts.length d).chunk.bytes ++ chunks.flatten := by
  constructor
  · intro h
    obtain ⟨a, s, rest, ms, h1, h2, h3, h4, h5⟩ := C90_malformed_rejected mc text b h
    exact ⟨a, s, rest, _, h1, h2, h3, h4, (C137_json_file mc _ b).mp h5⟩
  · rintro ⟨a, s, rest, j, rfl, h2, h3, h4, h5⟩
    have h5 := (C137_json_file mc j b).mpr h5
    obtain ⟨ms, rfl⟩ := assembleJson_object mc j b h5
    unfold assembleJsonText
    rw [readJson_text read_readable h2 h3 h4 (by intro lit h; cases h)]
    exact h5

/-- A text begins with at most one document, however it is divided. -/
theorem C138_unambiguous (a s rest a' s' rest' : Bytes) (ms ms' : List (List Nat × Json)) (h : a ++ s ++ rest = a' ++ s' ++ rest')
    (ha : Space a) (ha' : Space a') (hs : JsonText CharsRead (.obj ms) s) (hs' : JsonText CharsRead (.obj ms') s') :
    a = a' ∧ s = s' ∧ rest = rest' ∧ ms = ms' := by
  have e : s ++ rest = s' ++ rest' := by
    have := congrArg skipSpace h
    rwa [List.append_assoc, List.append_assoc, skipSpace_append ha, skipSpace_append ha', skipSpace_json hs, skipSpace_json hs'] at this
  have h1 := readValue_text read_readable _ s (max s.length s'.length) (max (nesting (.obj ms)) (nesting (.obj ms'))) rest hs (by omega) (by omega)
    (by intro lit h; cases h)
  have h2 := readValue_text read_readable _ s' (max s.length s'.length) (max (nesting (.obj ms)) (nesting (.obj ms'))) rest' hs' (by omega) (by omega)
    (by intro lit h; cases h)
  rw [e, h2] at h1
  injection h1 with h1
  injection h1 with h1 h3
  injection h1 with h1
  subst h1; subst h3
  have e2 := List.append_cancel_right e
  subst e2
  rw [List.append_assoc, List.append_assoc] at h
  exact ⟨List.append_cancel_right h, rfl, rfl, rfl⟩

/-- A text in which the header, its division and a delta repeat, with half of a surrogate pair and a byte that is not UTF-8 in a string, and
with something behind the document. -/
def repeatedText : Bytes :=
  str " {\"header\":{\"tag\":\"MThd\",\"format\":0,\"PPQN\":480},\"Header\":{\"PPQN\":96},\"tracks\":[{\"tag\":\"MTrk\",\"events\":[
  {\"event\":{\"tag\":\"NoteOn\",\"delta\":0,\"delta\":null,\"channel\":1,\"note\":{\"value\":60},\"velocity\":64}},
  {\"event\":{\"tag\":\"NoteOn\",\"delta\":100,\"Delta\":200,\"channel\":1,\"note\":{\"value\":62},\"velocity\":64}},
  {\"event\":{\"tag\":\"Text\",\"delta\":1,\"text\":\"a\\ud800" ++ [0xff] ++ str "\"}},
  {\"event\":{\"tag\":\"SysExMessage\",\"delta\":0,\"manufacturer\":{\"id\":[65]},\"data\":[16,66,127],\"single\":true}},
  {\"event\":{\"tag\":\"EndOfTrack\",\"delta\":0}}]}]} rubbish"

/-- The file of `repeatedText`: running status for the second note, the text with two replacement characters, the message with its
terminator. -/
def repeatedFile : Bytes :=
  [0x4d, 0x54, 0x68, 0x64, 0, 0, 0, 6, 0, 0, 0, 1, 0, 96, 0x4d, 0x54, 0x72, 0x6b, 0, 0, 0, 31,
    0, 0x91, 60, 64, 0x81, 0x48, 62, 64, 1, 0xff, 1, 7, 0x61, 0xef, 0xbf, 0xbd, 0xef, 0xbf, 0xbd,
    0, 0xf0, 5, 0x41, 0x10, 0x42, 0x7f, 0xf7, 0, 0xff, 0x2f, 0]

example : ∃ a s rest j f d ts chunks, repeatedText = a ++ s ++ rest ∧ JsonText CharsRead j s ∧ rest ≠ [] ∧ DocumentSays j f d ts ∧
    List.Forall₂ TrackChunk ts chunks ∧ repeatedFile = (Header.mk f ts.length d).chunk.bytes ++ chunks.flatten := by
  obtain ⟨b, h1, h2⟩ := Outcome.of_test (o := assembleJsonText .c3 repeatedText) (p := fun b => decide (b = repeatedFile)) (by decide +kernel)
  obtain ⟨a, s, rest, j, k1, k2, k3, k4, f, d, ts, chunks, k5, _, k6, k7⟩ := (C138_json_text _ _ _).mp h1
  refine ⟨a, s, rest, j, f, d, ts, chunks, k1, k3, ?_, k5, k6, by rw [← k7]; exact (of_decide_eq_true h2).symm⟩
  rintro rfl
  obtain ⟨ms, rfl⟩ := assembleJson_object .c3 j b ((C137_json_file .c3 j b).mpr ⟨f, d, ts, chunks, k5, by assumption, k6, k7⟩)
  rw [JsonText] at k3
  obtain ⟨t, rfl, -⟩ := k3
  have : repeatedText.getLast? = some 125 := by
    rw [k1, List.append_nil]
    simp only [← List.append_assoc]
    exact List.getLast?_concat
  exact absurd this (by decide +kernel)

end Midiasm
