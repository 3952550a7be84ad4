import Verif.Lemmas.EventJson
import Verif.Props.Printed

/-!
C58, C85: an exported file is assembled again.
-/

set_option linter.unusedSimpArgs false

namespace Midiasm
open Spec

/-! ### Manufacturers -/

/-- The manufacturer IDs that stay what they are: all but 7F, which the table of manufacturers turns into 7E, and long IDs that do not
start with zero, whose first byte is ignored. -/
def StableId (id : Bytes) : Prop := id ≠ [0x7f] ∧ ∀ a b c, id = [a, b, c] → a = 0

/-- Value of a hexadecimal digit. -/
def unhexDigit (c : Char) : Nat := if c.toNat < 58 then c.toNat - 48 else c.toNat - 55

/-- Value of two hexadecimal digits. -/
def unhex2 : List Char → UInt8
  | [a, b] => UInt8.ofNat (unhexDigit a * 16 + unhexDigit b)
  | _ => 0

theorem unhex_hex (a : UInt8) : unhex2 (Lib.hex2 a).toList = a := all8 (P := fun a => unhex2 (Lib.hex2 a).toList = a) (by decide +kernel) a

theorem hex_length (a : UInt8) : (Lib.hex2 a).toList.length = 2 := all8 (P := fun a => (Lib.hex2 a).toList.length = 2) (by decide +kernel) a

theorem hex_inj {a b : UInt8} (h : Lib.hex2 a = Lib.hex2 b) : a = b := by rw [← unhex_hex a, h, unhex_hex]

theorem hexes_inj {a b c d : UInt8} (h : Lib.hex2 a ++ Lib.hex2 b = Lib.hex2 c ++ Lib.hex2 d) : a = c ∧ b = d := by
  have h' : (Lib.hex2 a).toList ++ (Lib.hex2 b).toList = (Lib.hex2 c).toList ++ (Lib.hex2 d).toList := by
    rw [← String.toList_append, h, String.toList_append]
  obtain ⟨h1, h2⟩ := List.append_inj h' (by rw [hex_length, hex_length])
  exact ⟨by rw [← unhex_hex a, h1, unhex_hex], by rw [← unhex_hex b, h2, unhex_hex]⟩

/-- The keys of the table. -/
theorem manufacturer_keys : ∀ e ∈ Lib.manufacturers, (match e.2.id with
    | [a] => e.1 == Lib.hex2 a || e.1 == Lib.hex2 0x7f
    | [a, b, c] => a == 0 && e.1 == Lib.hex2 b ++ Lib.hex2 c
    | _ => false) = true := by decide +kernel

theorem key_lengths (a b c : UInt8) : Lib.hex2 a ≠ Lib.hex2 b ++ Lib.hex2 c := by
  intro h
  have := congrArg (fun s => s.toList.length) h
  simp only [String.toList_append, List.length_append, hex_length] at this
  omega

theorem lookupKey_mem {k : String} {m : Lib.Manufacturer} (h : Lib.lookupKey Lib.manufacturers k = some m) : (k, m) ∈ Lib.manufacturers := by
  unfold Lib.lookupKey at h
  rw [Option.map_eq_some_iff] at h
  obtain ⟨e, h1, h2⟩ := h
  have hk := List.find?_some h1
  simp only [beq_iff_eq] at hk
  have := List.mem_of_find?_eq_some h1
  rw [← hk, ← h2]
  exact this

theorem stable_kept (id : Bytes) (h : StableId id) : Kept id := by
  unfold Kept Lib.lookupManufacturer Lib.lookupManufacturerIn
  split
  · rename_i a
    cases hk : Lib.lookupKey Lib.manufacturers (Lib.hex2 a) with
    | none => rfl
    | some m =>
      have := manufacturer_keys _ (lookupKey_mem hk)
      simp only [Option.getD_some] at this ⊢
      split at this
      · rename_i x hx
        rw [hx]
        simp only [Bool.or_eq_true, beq_iff_eq] at this
        rcases this with this | this
        · rw [hex_inj this]
        · exact absurd (by rw [hex_inj this]) h.1
      · rename_i x y z hx
        simp only [Bool.and_eq_true, beq_iff_eq] at this
        exact absurd this.2 (key_lengths _ _ _)
      · cases this
  · rename_i z b c
    cases hk : Lib.lookupKey Lib.manufacturers (Lib.hex2 b ++ Lib.hex2 c) with
    | none => rfl
    | some m =>
      have := manufacturer_keys _ (lookupKey_mem hk)
      simp only [Option.getD_some] at this ⊢
      split at this
      · rename_i x hx
        simp only [Bool.or_eq_true, beq_iff_eq] at this
        rcases this with this | this <;> exact absurd this.symm (key_lengths _ _ _)
      · rename_i x y w hx
        simp only [Bool.and_eq_true, beq_iff_eq] at this
        obtain ⟨rfl, h2⟩ := this
        obtain ⟨rfl, rfl⟩ := hexes_inj h2
        rw [hx, h.2 _ _ _ rfl]
      · cases this
  · rfl

/-- The manufacturers found in the table have IDs that are kept. -/
theorem found_kept (id : Bytes) : Kept (Lib.lookupManufacturer id).id := by
  have ht : ∀ e ∈ Lib.manufacturers, (Lib.lookupManufacturer e.2.id).id = e.2.id := by decide +kernel
  have hk : ∀ k : String, Lib.lookupManufacturer id = (Lib.lookupKey Lib.manufacturers k).getD ⟨id, "<unknown>", "<unknown>"⟩ →
      Kept (Lib.lookupManufacturer id).id := by
    intro k hl
    cases hf : Lib.lookupKey Lib.manufacturers k with
    | none =>
      rw [hf] at hl
      have : (Lib.lookupManufacturer id).id = id := by rw [hl]; rfl
      unfold Kept
      rw [this, this]
    | some m =>
      rw [hf] at hl
      rw [hl]
      exact ht _ (lookupKey_mem hf)
  have hu : Lib.lookupManufacturer id = ⟨id, "<unknown>", "<unknown>"⟩ → Kept (Lib.lookupManufacturer id).id := by
    intro hl
    have : (Lib.lookupManufacturer id).id = id := by rw [hl]
    unfold Kept
    rw [this, this]
  match id, hk, hu with
  | [], _, hu => exact hu rfl
  | [_], hk, _ => exact hk _ rfl
  | [_, _], _, hu => exact hu rfl
  | [_, _, _], hk, _ => exact hk _ rfl
  | _ :: _ :: _ :: _ :: _, _, hu => exact hu rfl

/-! ### Tracks -/

/-- The events read back from the exported events. -/
def importedEvents (mc : MiddleC) (es : List Event) : List Event := es.map fun e => ⟨0, e.delta, [], e.body.asImported mc⟩

theorem imported_events (mc : MiddleC) (es : List Event) (h : ∀ e ∈ es, e.body.InRange) :
    parseJsonEvents mc (es.map fun e => jobj [("event", eventToJson e)]) = .ok (importedEvents mc es) := by
  induction es with
  | nil => rfl
  | cons e es ih =>
    rw [List.map_cons, parseJsonEvents, imported_event mc e (h e (by simp)), Outcome.bind_ok, ih (fun e he => h e (by simp [he])), Outcome.bind_ok]
    rfl

/-- SysEx terminators after assembling: a message is terminated if it was, or if an event other than a continuation packet follows; a
continuation packet is terminated if and only if an event other than a continuation packet follows.  Nothing else changes. -/
def Resettled (es es' : List Event) : Prop :=
  es'.length = es.length ∧ ∀ (i : Nat) (e e' : Event), es[i]? = some e → es'[i]? = some e' →
    e'.delta = e.delta ∧ e.body.SameButTerminator e'.body ∧
    (e.body.IsMessage → (e'.body.Terminated ↔ e.body.Terminated ∨ ∃ n, es[i + 1]? = some n ∧ ¬ n.body.IsPacket)) ∧
    (e.body.IsPacket → (e'.body.Terminated ↔ ∃ n, es[i + 1]? = some n ∧ ¬ n.body.IsPacket))

/-- The text is UTF-8 and the manufacturer ID is kept. -/
def Body.Lasting : Body → Prop
  | .text _ s => ∃ cs, IsText s cs
  | .sequencerSpecific m _ => Kept m.id
  | .sysExMessage m _ _ => Kept m.id
  | _ => True

theorem asImported_packet (mc : MiddleC) (b : Body) : (b.asImported mc).isContinuation = b.isContinuation := by cases b <;> rfl

theorem imported_marshal (mc : MiddleC) (b : Body) (h1 : ¬ b.IsPacket) (h2 : b.Lasting) : (b.asImported mc).marshal = b.marshal := by
  have hc : ∀ c : Lib.Controller, (Lib.lookupController c.id).id = c.id := by
    intro c
    exact all8 (P := fun x => (Lib.lookupController x).id = x) (by decide +kernel) c.id
  cases b with
  | text k s => simp only [Body.asImported, ofRunes_text s h2]
  | controller ch c v => simp only [Body.asImported, Body.marshal, hc]
  | sequencerSpecific m d =>
    have : (Lib.lookupManufacturer m.id).id = m.id := h2
    simp only [Body.asImported, Body.marshal, this]
  | sysExMessage m d s =>
    have : (Lib.lookupManufacturer m.id).id = m.id := h2
    simp only [Body.asImported, Body.marshal, this]
  | sysExContinuation d s => exact absurd ⟨d, s, rfl⟩ h1
  | _ => rfl

theorem resettled_marshal (mc : MiddleC) (e e' : Event) (next : Option Event) (hk : e.body.Lasting)
    (hd : e'.delta = e.delta) (hs : e.body.SameButTerminator e'.body)
    (h1 : e.body.IsMessage → (e'.body.Terminated ↔ e.body.Terminated ∨ ∃ n, next = some n ∧ ¬ n.body.IsPacket))
    (h2 : e.body.IsPacket → (e'.body.Terminated ↔ ∃ n, next = some n ∧ ¬ n.body.IsPacket)) :
    (fixOne ⟨0, e.delta, [], e.body.asImported mc⟩ (next.map fun e => ⟨0, e.delta, [], e.body.asImported mc⟩)).delta = e'.delta ∧
    (fixOne ⟨0, e.delta, [], e.body.asImported mc⟩ (next.map fun e => ⟨0, e.delta, [], e.body.asImported mc⟩)).body.marshal = e'.body.marshal := by
  have hother : ¬ e.body.IsMessage → ¬ e.body.IsPacket → e'.body = e.body ∧ ∀ n,
      fixOne ⟨0, e.delta, [], e.body.asImported mc⟩ n = ⟨0, e.delta, [], e.body.asImported mc⟩ := by
    intro hm hp
    constructor
    · rcases hs with ⟨m, d, s, s', h, _⟩ | ⟨d, s, s', h, _⟩ | h
      · exact absurd ⟨m, d, s, h⟩ hm
      · exact absurd ⟨d, s, h⟩ hp
      · exact h.symm
    · intro n
      cases n with
      | none => rfl
      | some n =>
        unfold fixOne
        simp only
        split
        · rfl
        · cases hb : e.body <;> simp only [Body.asImported]
          · exact absurd ⟨_, _, _, hb⟩ hm
          · exact absurd ⟨_, _, hb⟩ hp
  cases hb : e.body with
  | sysExMessage m d s =>
    have hid : (Lib.lookupManufacturer m.id).id = m.id := by rw [hb] at hk; exact hk
    rw [hb] at hs h1
    obtain ⟨s', hs'⟩ : ∃ s', e'.body = .sysExMessage m d s' := by
      rcases hs with ⟨m1, d1, s1, s1', h, h'⟩ | ⟨d1, s1, s1', h, _⟩ | h
      · injection h with e1 e2 e3
        subst e1 e2 e3
        exact ⟨_, h'⟩
      · cases h
      · exact ⟨s, h.symm⟩
    rw [hs'] at h1 ⊢
    have h1 := h1 ⟨m, d, s, rfl⟩
    cases next with
    | none =>
      simp only [Body.Terminated, reduceCtorEq, false_and, exists_false, or_false] at h1
      have : s' = s := by cases s <;> cases s' <;> simp_all
      subst this
      simp only [Option.map_none, fixOne, Body.asImported, Body.marshal, hid, hd]
      exact ⟨trivial, trivial⟩
    | some n =>
      simp only [Body.Terminated, Option.some.injEq, exists_eq_left'] at h1
      simp only [Option.map_some, fixOne, asImported_packet]
      cases hn : n.body.isContinuation with
      | true =>
        have hp : n.body.IsPacket := (isContinuation_iff _).mp hn
        have : s' = s := by cases s <;> cases s' <;> simp_all
        subst this
        simp only [if_true, Body.asImported, Body.marshal, hid, hd]
        exact ⟨trivial, trivial⟩
      | false =>
        have hp : ¬ n.body.IsPacket := by rw [← isContinuation_iff, hn]; simp
        have : s' = true := by cases s' <;> simp_all
        subst this
        simp only [Bool.false_eq_true, if_false, Body.asImported, Body.marshal, hid, hd]
        exact ⟨trivial, trivial⟩
  | sysExContinuation d s =>
    rw [hb] at hs h2
    obtain ⟨s', hs'⟩ : ∃ s', e'.body = .sysExContinuation d s' := by
      rcases hs with ⟨m1, d1, s1, s1', h, h'⟩ | ⟨d1, s1, s1', h, h'⟩ | h
      · cases h
      · injection h with e1 e2
        subst e1 e2
        exact ⟨_, h'⟩
      · exact ⟨s, h.symm⟩
    rw [hs'] at h2 ⊢
    have h2 := h2 ⟨d, s, rfl⟩
    cases next with
    | none =>
      simp only [Body.Terminated, reduceCtorEq, false_and, exists_false] at h2
      have : s' = false := by cases s' <;> simp_all
      subst this
      simp only [Option.map_none, fixOne, Body.asImported, Body.marshal, hd]
      exact ⟨trivial, trivial⟩
    | some n =>
      simp only [Body.Terminated, Option.some.injEq, exists_eq_left'] at h2
      simp only [Option.map_some, fixOne, asImported_packet]
      cases hn : n.body.isContinuation with
      | true =>
        have hp : n.body.IsPacket := (isContinuation_iff _).mp hn
        have : s' = false := by cases s' <;> simp_all
        subst this
        simp only [if_true, Body.asImported, Body.marshal, hd]
        exact ⟨trivial, trivial⟩
      | false =>
        have hp : ¬ n.body.IsPacket := by rw [← isContinuation_iff, hn]; simp
        have : s' = true := by cases s' <;> simp_all
        subst this
        simp only [Bool.false_eq_true, if_false, Body.asImported, Body.marshal, hd]
        exact ⟨trivial, trivial⟩
  | _ =>
    obtain ⟨g1, g2⟩ := hother (by rw [hb]; rintro ⟨_, _, _, h⟩; cases h) (by rw [hb]; rintro ⟨_, _, h⟩; cases h)
    rw [← hb, g2, g1]
    exact ⟨hd.symm, imported_marshal mc _ (by rw [hb]; rintro ⟨_, _, h⟩; cases h) hk⟩

/-- What the assembler makes of the events of an exported track. -/
theorem resettled_track (mc : MiddleC) (es es' : List Event) (hne : es ≠ []) (hk : ∀ e ∈ es, e.body.Lasting) (hr : Resettled es es') :
    ∃ fixed, fixups (importedEvents mc es) = .ok fixed ∧ encodeEvents fixed = encodeEvents es' := by
  have hne' : importedEvents mc es ≠ [] := by cases es with
    | nil => exact absurd rfl hne
    | cons a l => simp [importedEvents]
  obtain ⟨fixed, hf, hlen, _⟩ := (C73_fixups_exact _).2 hne'
  refine ⟨fixed, hf, encodeEvents_congr es' fixed ?_⟩
  apply List.ext_getElem?
  intro i
  rw [List.getElem?_map, List.getElem?_map]
  cases hi : es[i]? with
  | none =>
    rw [List.getElem?_eq_none_iff] at hi
    have g1 : fixed[i]? = none := by
      rw [List.getElem?_eq_none_iff, hlen]
      simpa [importedEvents] using hi
    have g2 : es'[i]? = none := by rw [List.getElem?_eq_none_iff, hr.1]; exact hi
    rw [g1, g2]
  | some e =>
    have hlt : i < es.length := by
      rcases Nat.lt_or_ge i es.length with h | h
      · exact h
      · rw [List.getElem?_eq_none h] at hi; cases hi
    have he' : es'[i]? = some (es'[i]'(by rw [hr.1]; exact hlt)) := by simp
    obtain ⟨r1, r2, r3, r4⟩ := hr.2 i e _ hi he'
    have h1 : (importedEvents mc es)[i]? = some ⟨0, e.delta, [], e.body.asImported mc⟩ := by simp [importedEvents, hi]
    have h2 : (importedEvents mc es)[i + 1]? = es[i + 1]?.map fun e => ⟨0, e.delta, [], e.body.asImported mc⟩ := by simp [importedEvents]
    rw [fixups_get hf i _ h1, h2, he']
    obtain ⟨g1, g2⟩ := resettled_marshal mc e _ es[i + 1]? (hk e (List.mem_of_getElem? hi)) r1 r2 r3 r4
    simp only [Option.map_some, g1, g2]

/-! ### Chunks -/

theorem field_none {α : Type} (d : α → Json → Outcome α) (name : String) (cur : α) (ms : List (String × Json))
    (hs : places name (ms.map Prod.fst) = []) : field d name cur (jobj ms) = .ok cur := by
  unfold jobj
  simp only [field, foldl_values, places_filter, hs]
  rfl

theorem trackFields_json (t : MTrk) (ht : t.tag = str "MTrk") (cur : TrackFields) :
    trackFields cur (trackToJson t) = .ok ⟨some (str "MTrk"), t.events.map fun e => jobj [("event", eventToJson e)]⟩ := by
  rw [trackToJson_eq]
  unfold trackFields
  jfield 0
  rw [field_none _ _ _ _ (by simp only [List.map_cons, List.map_nil]; decide +kernel)]
  jfield 2
  simp only [ht, jstr, ptrJson, rawsJson, Outcome.bind_ok]
  rw [stringJson, ofRunes_text _ (text_str _)]
  rfl

theorem elements_tracks (ts : List MTrk) (ht : ∀ t ∈ ts, t.tag = str "MTrk") :
    elementsJson trackFields ⟨none, []⟩ [] (ts.map trackToJson) =
      .ok ⟨ts.map fun t => ⟨some (str "MTrk"), t.events.map fun e => jobj [("event", eventToJson e)]⟩, []⟩ := by
  induction ts with
  | nil => rfl
  | cons t ts ih =>
    rw [List.map_cons, elementsJson, trackFields_json t (ht t (by simp)), Outcome.bind_ok, List.tail_nil, ih (fun t h => ht t (by simp [h])), Outcome.bind_ok]
    rfl

theorem slice_tracks (ts : List MTrk) (ht : ∀ t ∈ ts, t.tag = str "MTrk") :
    sliceJson trackFields ⟨none, []⟩ ⟨[], []⟩ (tracksToJson ts) =
      .ok ⟨ts.map fun t => ⟨some (str "MTrk"), t.events.map fun e => jobj [("event", eventToJson e)]⟩, []⟩ := by
  cases ts with
  | nil => rfl
  | cons t ts => exact elements_tracks _ ht

theorem headerFields_json (m : MThd) (hm : m.tag = str "MThd") (cur : HeaderFields) :
    headerFields cur (headerToJson m) = .ok ⟨some (str "MThd"), some m.format.toNat, some m.ppqn.toNat⟩ := by
  rw [headerToJson_eq]
  unfold headerFields
  jfield 0
  jfield 2
  jfield 5
  simp only [hm, jstr, ptrJson, jnum]
  rw [stringJson, ofRunes_text _ (text_str _)]
  rw [show Json.num (dec m.format.toNat) = jnum m.format.toNat from rfl, show Json.num (dec m.ppqn.toNat) = jnum m.ppqn.toNat from rfl,
    uintJson_num _ _ _ m.format.toNat_lt, uintJson_num _ _ _ m.ppqn.toNat_lt]
  rfl

theorem parseJsonMThd_ok (m : MThd) (hf : m.format.toNat ≤ 2) (hp : m.ppqn.toNat < 32768) :
    parseJsonMThd ⟨some (str "MThd"), some m.format.toNat, some m.ppqn.toNat⟩ =
      .ok ⟨str "MThd", 6, m.format, 0, m.ppqn, m.ppqn &&& 0x7fff, false, 0, 0, false, []⟩ := by
  have hm : m.ppqn &&& 0x8000 = 0 := by
    rw [← UInt16.toNat_inj, UInt16.toNat_and]
    show m.ppqn.toNat &&& 2 ^ 15 = 0
    apply Nat.eq_of_testBit_eq
    intro i
    rw [Nat.testBit_and, Nat.testBit_two_pow, Nat.zero_testBit]
    by_cases hi : 15 = i
    · subst hi
      rw [Nat.testBit_lt_two_pow hp]
      rfl
    · simp [hi]
  have hformat : ¬ (m.format ≠ 0 ∧ m.format ≠ 1 ∧ m.format ≠ 2) := by
    rintro ⟨h0, h1, h2⟩
    have a0 : m.format.toNat ≠ 0 := fun e => h0 (UInt16.toNat_inj.mp e)
    have a1 : m.format.toNat ≠ 1 := fun e => h1 (UInt16.toNat_inj.mp e)
    have a2 : m.format.toNat ≠ 2 := fun e => h2 (UInt16.toNat_inj.mp e)
    omega
  unfold parseJsonMThd
  simp only [ne_eq, not_true, if_false, UInt16.ofNat_toNat, hm]
  rw [if_neg (by omega), if_neg (by simp)]
  unfold makeMThd
  rw [if_neg hformat, if_pos hm]

/-- A track and the events the assembler makes of it. -/
structure Reassembled (mc : MiddleC) (t : MTrk) (fixed : List Event) : Prop where
  range : ∀ e ∈ t.events, e.body.InRange
  fixups : fixups (importedEvents mc t.events) = .ok fixed

theorem parseJsonTracks_ok (mc : MiddleC) (ps : List (MTrk × List Event)) (hps : ∀ p ∈ ps, Reassembled mc p.1 p.2) (h : MThd) (ts : List MTrk) :
    parseJsonTracks mc ((ps.map Prod.fst).map fun t => ⟨some (str "MTrk"), t.events.map fun e => jobj [("event", eventToJson e)]⟩) h ts =
      .ok ⟨some { h with tracks := h.tracks + UInt16.ofNat ps.length }, ts ++ ps.mapIdx fun i p => madeTrack (ts.length + i) p.2⟩ := by
  induction ps generalizing h ts with
  | nil => simp [parseJsonTracks]
  | cons p ps ih =>
    obtain ⟨h1, h2⟩ := hps p (by simp)
    rw [List.map_cons, List.map_cons, parseJsonTracks]
    have hstep : parseJsonMTrk mc ⟨some (str "MTrk"), p.1.events.map fun e => jobj [("event", eventToJson e)]⟩ =
        .ok ⟨str "MTrk", 0, 0, [0x4d, 0x54, 0x72, 0x6b, 0x00, 0x00, 0x00, 0x00], p.2, newContext⟩ := by
      unfold parseJsonMTrk
      rw [if_neg (by simp)]
      simp only
      rw [imported_events mc _ h1, Outcome.bind_ok, h2, Outcome.bind_ok]
    rw [hstep, Outcome.bind_ok, ih (fun q hq => hps q (by simp [hq]))]
    congr 2
    · congr 2
      simp only [UInt16.add_assoc]
      congr 1
      rw [← UInt16.toNat_inj]
      simp [Nat.add_comm]
    · rw [List.mapIdx_cons, List.append_assoc]
      simp [Nat.add_assoc, Nat.add_comm 1, madeTrack]

/-! ### The whole file -/

/-- The header that is assembled again: the count of tracks is recomputed and divisions that are not metrical become zero. -/
def reheaded (h : Header) (tracks : Nat) : Header := ⟨h.format, tracks, if h.division < 32768 then h.division else 0⟩

theorem json_file (mc : MiddleC) (smf smf' : SMF) (m m' : MThd) (hm : smf.mthd = some m) (hm' : smf'.mthd = some m') (h : Header)
    (hs : m.Shows h) (hf : h.format ≤ 2) (hs' : m'.Shows (reheaded h smf.tracks.length))
    (ht : ∀ t ∈ smf.tracks, t.tag = tagMTrk ∧ t.events ≠ [] ∧ ∀ e ∈ t.events, e.body.InRange ∧ e.body.Lasting)
    (hlen' : smf'.tracks.length = smf.tracks.length)
    (ht' : ∀ (i : Nat) (t t' : MTrk), smf.tracks[i]? = some t → smf'.tracks[i]? = some t' → t'.tag = tagMTrk ∧ Resettled t.events t'.events) :
    assembleJson mc (exportJson smf) = encode smf' := by
  have htagh : tagMThd = str "MThd" := by decide +kernel
  have htagt : tagMTrk = str "MTrk" := by decide +kernel
  obtain ⟨s1, s2, s3, s4, s5, s6, s7⟩ := hs
  obtain ⟨u1, u2, u3, u4, u5, u6, u7⟩ := hs'
  have hdiv : m.ppqn.toNat = (reheaded h smf.tracks.length).division := by
    unfold reheaded
    by_cases hd : h.division < 32768
    · simp only [if_pos hd]; exact (s6 hd).1
    · simp only [if_neg hd]; rw [(s7 (by omega)).1]; rfl
  have hdlt : m.ppqn.toNat < 32768 := by
    rw [hdiv]
    unfold reheaded
    simp only
    split <;> omega
  -- tracks
  obtain ⟨ps, c1, c2⟩ := companions (P := fun (q : MTrk × MTrk) (fixed : List Event) => Reassembled mc q.1 fixed ∧ encodeEvents fixed = encodeEvents q.2.events)
    (smf.tracks.zip smf'.tracks) (by
      intro q hq
      obtain ⟨i, hi⟩ := List.mem_iff_getElem?.1 hq
      have hi' := List.getElem?_zip_eq_some.1 hi
      obtain ⟨t1, t2, t3⟩ := ht q.1 (List.mem_of_getElem? hi'.1)
      obtain ⟨_, r2⟩ := ht' i q.1 q.2 hi'.1 hi'.2
      obtain ⟨fixed, f1, f2⟩ := resettled_track mc q.1.events q.2.events t2 (fun e he => (t3 e he).2) r2
      exact ⟨fixed, ⟨fun e he => (t3 e he).1, f1⟩, f2⟩)
  have hfst : smf.tracks = (ps.map fun p => (p.1.1, p.2)).map Prod.fst := by
    have : (ps.map fun p => (p.1.1, p.2)).map Prod.fst = (ps.map Prod.fst).map Prod.fst := by rw [List.map_map, List.map_map]; rfl
    rw [this, c1, List.map_fst_zip (by omega)]
  have hsnd : smf'.tracks = ps.map fun p => p.1.2 := by
    have : (ps.map fun p => p.1.2) = (ps.map Prod.fst).map Prod.snd := by rw [List.map_map]; rfl
    rw [this, c1, List.map_snd_zip (by omega)]
  have hlen : ps.length = smf.tracks.length := by
    have := congrArg List.length hfst
    simpa using this.symm
  rw [exportJson_eq]
  unfold assembleJson
  rw [hm]
  simp only
  jfield 0
  jfield 1
  rw [headerFields_json m (by rw [s1, htagh]), Outcome.bind_ok, slice_tracks _ (fun t h => by rw [(ht t h).1, htagt]), Outcome.bind_ok,
    parseJsonMThd_ok m (by rw [s3]; exact hf) hdlt, Outcome.bind_ok]
  have hpt := parseJsonTracks_ok mc (ps.map fun p => (p.1.1, p.2)) (by
      intro p hp
      obtain ⟨q, hq, rfl⟩ := List.mem_map.1 hp
      exact (c2 q hq).1) ⟨str "MThd", 6, m.format, 0, m.ppqn, m.ppqn &&& 0x7fff, false, 0, 0, false, []⟩ []
  rw [← hfst] at hpt
  rw [hpt, Outcome.bind_ok]
  -- encoding
  have htr : m'.tracks.toNat = smf.tracks.length := u4
  have hcount : (0 : UInt16) + UInt16.ofNat (ps.map fun p => (p.1.1, p.2)).length = m'.tracks := by
    rw [← UInt16.toNat_inj]
    simp only [UInt16.zero_add, List.length_map, UInt16.toNat_ofNat', hlen, htr]
    have := m'.tracks.toNat_lt
    rw [htr] at this
    omega
  have hform : m.format = m'.format := by rw [← UInt16.toNat_inj, s3, u3]; rfl
  have hpp : m.ppqn = m'.division := by rw [← UInt16.toNat_inj, hdiv, u5]
  unfold encode
  rw [hm', hcount]
  simp only [List.nil_append, List.length_mapIdx, List.length_map, hlen, hlen']
  rw [if_neg (by omega), if_neg (by omega)]
  have htracks : encodeTracks ((ps.map fun p => (p.1.1, p.2)).mapIdx fun i p => madeTrack (([] : List MTrk).length + i) p.2) = encodeTracks smf'.tracks := by
    apply encodeTracks_congr
    apply List.ext_getElem?
    intro i
    rw [List.getElem?_map, List.getElem?_mapIdx, List.getElem?_map, List.getElem?_map]
    cases hq : ps[i]? with
    | none => rw [hsnd, List.getElem?_map, hq]; rfl
    | some q =>
      have h2 : smf'.tracks[i]? = some q.1.2 := by rw [hsnd, List.getElem?_map, hq]; rfl
      have h1 : smf.tracks[i]? = some q.1.1 := by rw [hfst, List.map_map, List.getElem?_map, hq]; rfl
      rw [h2]
      obtain ⟨r1, r2⟩ := c2 q (List.mem_of_getElem? hq)
      simp only [Option.map_some, madeTrack, r2, (ht' i _ _ h1 h2).1, htagt]
  rw [htracks]
  simp only [MThd.marshal, u1, htagh, u2, hpp, hform]

/-- Events that survive the export: values in the ranges of MIDI, texts in UTF-8, manufacturer IDs that stay what they are. -/
def Body.Portable : Body → Prop
  | .text _ s => ∃ cs, IsText s cs
  | .sequencerSpecific m _ => StableId m.id
  | .sysExMessage m _ _ => StableId m.id
  | b => b.InRange

theorem portable_range (b : Body) (h : b.Portable) : b.InRange ∧ b.Lasting := by
  cases b <;> first | exact ⟨h, trivial⟩ | exact ⟨trivial, h⟩ | exact ⟨trivial, stable_kept _ h⟩

/-- **C85.** Exporting a file and assembling the JSON gives the bytes the encoder writes for the same file with three changes: the header counts
the tracks; a division that is not metrical is zero; SysEx messages followed by anything but a continuation packet are terminated, and
continuation packets are terminated exactly when they are followed by anything but another one. -/
theorem C85_json_exact (mc : MiddleC) (smf smf' : SMF) (m m' : MThd) (hm : smf.mthd = some m) (hm' : smf'.mthd = some m') (h : Header)
    (hs : m.Shows h) (hf : h.format ≤ 2) (hs' : m'.Shows ⟨h.format, smf.tracks.length, if h.division < 32768 then h.division else 0⟩)
    (ht : ∀ t ∈ smf.tracks, t.tag = tagMTrk ∧ t.events ≠ [] ∧ ∀ e ∈ t.events, e.body.Portable)
    (hlen' : smf'.tracks.length = smf.tracks.length)
    (ht' : ∀ (i : Nat) (t t' : MTrk), smf.tracks[i]? = some t → smf'.tracks[i]? = some t' → t'.tag = tagMTrk ∧ Resettled t.events t'.events) :
    assembleJson mc (exportJson smf) = encode smf' :=
  json_file mc smf smf' m m' hm hm' h hs hf hs' (fun t h => ⟨(ht t h).1, (ht t h).2.1, fun e he => portable_range _ ((ht t h).2.2 e he)⟩) hlen' ht'

/-- C58, partial: a metrical file that can be decoded, with texts in UTF-8 and without empty tracks, in which SysEx messages followed by anything but a
continuation packet are terminated and continuation packets are followed by continuation packets: assembling the export gives the bytes the
encoder writes for the decoded file.  (Missing for the full property: SMPTE divisions, other texts, empty tracks and other
SysEx packets, see `C58_smpte_fails`, `C58_text_fails`, `C58_empty_track_fails` and `C58_sysex_fails`.) -/
theorem C58_json_roundtrip_partial (mc mc' : MiddleC) (spare file : Bytes) (smf : SMF) (hd : decode mc spare file = .ok smf) (m : MThd)
    (hm : smf.mthd = some m) (hmetrical : m.division.toNat < 32768)
    (ht : ∀ t ∈ smf.tracks, t.events ≠ [] ∧
      (∀ e ∈ t.events, ∀ k s, e.body = .text k s → ∃ cs, IsText s cs) ∧
      ∀ (i : Nat) (e n : Event), t.events[i]? = some e → t.events[i + 1]? = some n → ¬ n.body.IsPacket →
        (e.body.IsMessage → e.body.Terminated) ∧ ¬ e.body.IsPacket) :
    assembleJson mc' (exportJson smf) = encode smf := by
  obtain ⟨m1, h, hm1, hs, hv, hn, htr⟩ := decode_ok hd
  rw [hm] at hm1
  injection hm1 with hm1
  subst hm1
  have hmet : h.division < 32768 := by rw [← hs.2.2.2.2.1]; exact hmetrical
  have hre : reheaded h smf.tracks.length = h := by
    unfold reheaded
    rw [if_pos hmet, ← hn]
  refine json_file mc' smf smf m m hm hm h hs hv.1 (by rw [hre]; exact hs) ?_ rfl ?_
  · intro t htm
    obtain ⟨t1, t2, _⟩ := ht t htm
    obtain ⟨i, ch, hwf, htag, _, hu⟩ := decode_track hd htm
    refine ⟨((unmarshalMTrk_ok mc spare i ch hwf htag t).1 hu).2.1, t1, fun e he => ?_⟩
    have hmd := decoded_made hd t htm e he
    cases hb : e.body <;> rw [hb] at hmd
    case text k s => exact ⟨trivial, t2 e he k s hb⟩
    case keySignature a k name => exact ⟨⟨hmd.1, hmd.2.1, hmd.2.2.1⟩, trivial⟩
    case sequencerSpecific m d => obtain ⟨id, rfl⟩ := hmd; exact ⟨trivial, found_kept id⟩
    case sysExMessage m d s => obtain ⟨id, rfl⟩ := hmd; exact ⟨trivial, found_kept id⟩
    case noteOff ch n v => exact ⟨hmd.1, trivial⟩
    case controller ch c v => exact ⟨hmd.1, trivial⟩
    all_goals first | exact ⟨hmd, trivial⟩ | exact ⟨trivial, trivial⟩
  · intro i t t' hi hi'
    rw [hi] at hi'
    injection hi' with hi'
    subst hi'
    have htm := List.mem_of_getElem? hi
    obtain ⟨t1, t2, t3⟩ := ht t htm
    obtain ⟨k, ch, hwf, htag, _, hu⟩ := decode_track hd htm
    refine ⟨((unmarshalMTrk_ok mc spare k ch hwf htag t).1 hu).2.1, rfl, fun j e e' he he' => ?_⟩
    rw [he] at he'
    injection he' with he'
    subst he'
    refine ⟨rfl, Or.inr (Or.inr rfl), fun hmsg => ⟨Or.inl, ?_⟩, fun hp => ⟨?_, ?_⟩⟩
    · rintro (h | ⟨n, hn1, hn2⟩)
      · exact h
      · exact (t3 j e n he hn1 hn2).1 hmsg
    · intro hte
      have hmd := decoded_made hd t htm e (List.mem_of_getElem? he)
      obtain ⟨d, x, hb⟩ := hp
      rw [hb] at hmd hte
      have e1 : x = false := hmd
      have e2 : x = true := hte
      rw [e1] at e2
      cases e2
    · rintro ⟨n, hn1, hn2⟩
      exact absurd hp (t3 j e n he hn1 hn2).2

/-! ### Files that are not restored -/

theorem parseJsonTracks_header (mc : MiddleC) (fs : List TrackFields) (h : MThd) (ts : List MTrk) (smf : SMF)
    (hp : parseJsonTracks mc fs h ts = .ok smf) : ∃ n, smf.mthd = some { h with tracks := n } := by
  induction fs generalizing h ts with
  | nil =>
    rw [parseJsonTracks] at hp
    rw [← Outcome.ok.inj hp]
    exact ⟨h.tracks, rfl⟩
  | cons f fs ih =>
    rw [parseJsonTracks] at hp
    cases hf : parseJsonMTrk mc f with
    | ok t =>
      rw [hf, Outcome.bind_ok] at hp
      obtain ⟨n, hn⟩ := ih _ _ hp
      exact ⟨n, hn⟩
    | err x => rw [hf] at hp; cases hp
    | panic => rw [hf] at hp; cases hp
    | diverge => rw [hf] at hp; cases hp

/-- C58: the export of a decoded file with SMPTE timing never assembles to a file with its division; the division is zero. -/
theorem C58_smpte_fails (mc mc' : MiddleC) (spare file : Bytes) (smf : SMF) (hd : decode mc spare file = .ok smf) (m : MThd)
    (hm : smf.mthd = some m) (hsmpte : 32768 ≤ m.division.toNat) (out : Bytes) (ho : assembleJson mc' (exportJson smf) = .ok out) :
    (out.drop 12).take 2 = [0, 0] := by
  obtain ⟨m1, h, hm1, hs, hv, hn, htr⟩ := decode_ok hd
  rw [hm] at hm1
  injection hm1 with hm1
  subst hm1
  have htagh : tagMThd = str "MThd" := by decide +kernel
  obtain ⟨s1, s2, s3, s4, s5, s6, s7⟩ := hs
  have hz : m.ppqn = 0 := (s7 (by rw [← s5]; exact hsmpte)).1
  rw [exportJson_eq] at ho
  unfold assembleJson at ho
  rw [hm] at ho
  simp only at ho
  rw [field_at _ _ _ _ 0 _ (by simp only [List.map_cons, List.map_nil]; decide +kernel) rfl] at ho
  simp only at ho
  rw [headerFields_json m (by rw [s1, htagh]), Outcome.bind_ok] at ho
  generalize hg : field (sliceJson trackFields ⟨none, []⟩) "tracks" ⟨[], []⟩ _ = o at ho
  cases o with
  | ok fs =>
    rw [Outcome.bind_ok, parseJsonMThd_ok m (by rw [s3]; exact hv.1) (by rw [hz]; decide), Outcome.bind_ok] at ho
    cases hp : parseJsonTracks mc' fs.els ⟨str "MThd", 6, m.format, 0, m.ppqn, m.ppqn &&& 0x7fff, false, 0, 0, false, []⟩ [] with
    | ok smf' =>
      rw [hp, Outcome.bind_ok] at ho
      obtain ⟨n, hn⟩ := parseJsonTracks_header _ _ _ _ _ hp
      unfold encode at ho
      rw [hn] at ho
      simp only at ho
      split at ho
      · cases ho
      · cases he : encodeTracks smf'.tracks with
        | ok bs =>
          rw [he, Outcome.bind_ok] at ho
          rw [← Outcome.ok.inj ho]
          simp only [MThd.marshal, hz]
          have hl : (str "MThd").length = 4 := by decide +kernel
          simp only [putUint32, putUint16, List.append_assoc]
          rw [List.drop_append, hl]
          rw [List.drop_eq_nil_of_le (by omega)]
          rfl
        | err x => rw [he] at ho; cases ho
        | panic => rw [he] at ho; cases ho
        | diverge => rw [he] at ho; cases ho
    | err x => rw [hp] at ho; cases ho
    | panic => rw [hp] at ho; cases ho
    | diverge => rw [hp] at ho; cases ho
  | err x => cases ho
  | panic => cases ho
  | diverge => cases ho

/-- C58: a text that is not UTF-8 comes back as another text, which is. -/
theorem C58_text_fails (mc : MiddleC) (e : Event) (k : TextKind) (s : Bytes) (hb : e.body = .text k s) (hs : ¬ ∃ cs, IsText s cs) :
    ∃ s' cs, eventOfJson mc (jobj [("event", eventToJson e)]) = .ok ⟨0, e.delta, [], .text k s'⟩ ∧ IsText s' cs ∧ s' ≠ s := by
  have hr : runes s = ((runes s).map Char.ofNat).map fun c => c.val.toNat := by
    rw [List.map_map]
    conv => lhs; rw [← List.map_id (runes s)]
    apply List.map_congr_left
    intro v hv
    have hsc := runes_scalar s v hv
    have hvalid : v.isValidChar := by
      rcases hsc with h | h
      · exact Or.inl h
      · exact Or.inr ⟨by omega, h.2⟩
    simp only [id, Function.comp, Char.ofNat, hvalid, dif_pos]
    rfl
  have ht : IsText (ofRunes (runes s)) ((runes s).map Char.ofNat) := by
    unfold IsText
    rw [← ofRunes_chars, ← hr]
  refine ⟨ofRunes (runes s), _, ?_, ht, fun h => hs ⟨_, h ▸ ht⟩⟩
  rw [read_exported, hb]
  rfl

/-- C58: the export of a file with a track without events makes the assembler panic, if the events of the tracks before it survive. -/
theorem C58_empty_track_fails (mc : MiddleC) (smf : SMF) (m : MThd) (hm : smf.mthd = some m) (h : Header) (hs : m.Shows h) (hf : h.format ≤ 2)
    (htag : ∀ t ∈ smf.tracks, t.tag = tagMTrk) (before after : List MTrk) (t : MTrk) (htr : smf.tracks = before ++ t :: after)
    (hb : ∀ t ∈ before, t.events ≠ [] ∧ ∀ e ∈ t.events, e.body.Portable) (he : t.events = []) :
    assembleJson mc (exportJson smf) = .panic := by
  have htagh : tagMThd = str "MThd" := by decide +kernel
  have htagt : tagMTrk = str "MTrk" := by decide +kernel
  obtain ⟨s1, s2, s3, s4, s5, s6, s7⟩ := hs
  have hdlt : m.ppqn.toNat < 32768 := by
    by_cases hd : h.division < 32768
    · rw [(s6 hd).1]; exact hd
    · rw [(s7 (by omega)).1]; decide
  rw [exportJson_eq]
  unfold assembleJson
  rw [hm]
  simp only
  jfield 0
  jfield 1
  rw [headerFields_json m (by rw [s1, htagh]), Outcome.bind_ok, slice_tracks _ (fun t h => by rw [htag t h, htagt]), Outcome.bind_ok,
    parseJsonMThd_ok m (by rw [s3]; exact hf) hdlt, Outcome.bind_ok, htr]
  generalize (⟨str "MThd", 6, m.format, 0, m.ppqn, m.ppqn &&& 0x7fff, false, 0, 0, false, []⟩ : MThd) = hd0
  generalize ([] : List MTrk) = ts
  have key : parseJsonTracks mc ((before ++ t :: after).map fun t => ⟨some (str "MTrk"), t.events.map fun e => jobj [("event", eventToJson e)]⟩) hd0 ts = .panic := by
    clear htr
    induction before generalizing hd0 ts with
    | nil =>
      rw [List.nil_append, List.map_cons, parseJsonTracks]
      have : parseJsonMTrk mc ⟨some (str "MTrk"), t.events.map fun e => jobj [("event", eventToJson e)]⟩ = .panic := by
        unfold parseJsonMTrk
        rw [if_neg (by simp), he]
        rfl
      rw [this]
      rfl
    | cons b before ih =>
      rw [List.cons_append, List.map_cons, parseJsonTracks]
      obtain ⟨b1, b2⟩ := hb b (by simp)
      have hne : importedEvents mc b.events ≠ [] := by
        cases hbe : b.events with
        | nil => exact absurd hbe b1
        | cons a l => simp [importedEvents]
      obtain ⟨fixed, hfx, _⟩ := (C73_fixups_exact _).2 hne
      have : parseJsonMTrk mc ⟨some (str "MTrk"), b.events.map fun e => jobj [("event", eventToJson e)]⟩ =
          .ok ⟨str "MTrk", 0, 0, [0x4d, 0x54, 0x72, 0x6b, 0x00, 0x00, 0x00, 0x00], fixed, newContext⟩ := by
        unfold parseJsonMTrk
        rw [if_neg (by simp)]
        simp only
        rw [imported_events mc _ (fun e he => (portable_range _ (b2 e he)).1), Outcome.bind_ok, hfx, Outcome.bind_ok]
      rw [this, Outcome.bind_ok]
      exact ih (fun t h => hb t (by simp [h])) _ _
  rw [key]
  rfl

/-! ### SysEx packets -/

/-- The event with the terminator it gets before `next`. -/
def settle (e : Event) (next : Option Event) : Event :=
  let more := match next with
    | none => false
    | some n => !n.body.isContinuation
  match e.body with
  | .sysExMessage m d s => { e with body := .sysExMessage m d (s || more) }
  | .sysExContinuation d _ => { e with body := .sysExContinuation d more }
  | _ => e

/-- The track with the terminators it gets. -/
def resettle (es : List Event) : List Event := es.mapIdx fun i e => settle e es[i + 1]?

theorem resettle_ok (es : List Event) : Resettled es (resettle es) := by
  refine ⟨by simp [resettle], fun i e e' he he' => ?_⟩
  have : e' = settle e es[i + 1]? := by
    simp only [resettle, List.getElem?_mapIdx, he, Option.map_some, Option.some.injEq] at he'
    exact he'.symm
  subst this
  generalize es[i + 1]? = next
  have hmore : (match next with | none => false | some n => !n.body.isContinuation) = true ↔ ∃ n, next = some n ∧ ¬ n.body.IsPacket := by
    cases next with
    | none => simp
    | some n => simp [← isContinuation_iff]
  unfold settle
  generalize (match next with | none => false | some n => !n.body.isContinuation) = more at hmore
  cases hb : e.body with
  | sysExMessage m d s =>
    refine ⟨rfl, Or.inl ⟨m, d, s, _, rfl, rfl⟩, fun _ => ?_, fun h => ?_⟩
    · simp only [Body.Terminated, Bool.or_eq_true, hmore]
    · obtain ⟨_, _, h⟩ := h; cases h
  | sysExContinuation d s =>
    refine ⟨rfl, Or.inr (Or.inl ⟨d, s, _, rfl, rfl⟩), fun h => ?_, fun _ => ?_⟩
    · obtain ⟨_, _, _, h⟩ := h; cases h
    · simp only [Body.Terminated, hmore]
  | _ =>
    refine ⟨rfl, Or.inr (Or.inr hb.symm), fun h => ?_, fun h => ?_⟩
    · obtain ⟨_, _, _, h⟩ := h; cases h
    · obtain ⟨_, _, h⟩ := h; cases h

/-- C58: a file in which an unterminated SysEx message or continuation packet is followed by anything but a continuation packet does not come back as it
was: the export assembles to the bytes of a file with the packet terminated. -/
theorem C58_sysex_fails (mc : MiddleC) (smf : SMF) (m : MThd) (hm : smf.mthd = some m) (h : Header) (hs : m.Shows h) (hv : h.Valid)
    (hmetrical : h.division < 32768) (hn : h.tracks = smf.tracks.length)
    (ht : ∀ t ∈ smf.tracks, t.tag = tagMTrk ∧ t.events ≠ [] ∧ ∀ e ∈ t.events, e.body.Portable)
    (k i : Nat) (t : MTrk) (hk : smf.tracks[k]? = some t) (e n : Event) (he : t.events[i]? = some e) (hi : t.events[i + 1]? = some n)
    (hsys : e.body.IsMessage ∨ e.body.IsPacket) (hnt : ¬ e.body.Terminated) (hnp : ¬ n.body.IsPacket)
    (hlen : ∀ bs, e.body.marshal = .ok bs → bs.length < 2 ^ 28) :
    ∃ smf' t' e', assembleJson mc (exportJson smf) = encode smf' ∧ smf'.mthd = some m ∧ smf'.tracks[k]? = some t' ∧ t'.events[i]? = some e' ∧
      e.body.SameButTerminator e'.body ∧ e'.body.Terminated ∧ e'.body.marshal ≠ e.body.marshal := by
  refine ⟨⟨some m, smf.tracks.map fun t => { t with events := resettle t.events }⟩, { t with events := resettle t.events }, settle e (some n),
    ?_, rfl, by simp [hk], by simp [resettle, he, hi], ?_⟩
  · refine C85_json_exact mc smf _ m m hm rfl h hs hv.1 ?_ ht (by simp) ?_
    · rw [if_pos hmetrical, ← hn]; exact hs
    · intro j t1 t2 h1 h2
      simp only [List.getElem?_map, h1, Option.map_some, Option.some.injEq] at h2
      subst h2
      exact ⟨(ht t1 (List.mem_of_getElem? h1)).1, resettle_ok _⟩
  · have hr := (resettle_ok t.events).2 i e (settle e (some n)) he (by simp [resettle, he, hi])
    have hT : (settle e (some n)).body.Terminated := by
      rcases hsys with hx | hx
      · exact (hr.2.2.1 hx).2 (Or.inr ⟨n, hi, hnp⟩)
      · exact (hr.2.2.2 hx).2 ⟨n, hi, hnp⟩
    refine ⟨hr.2.1, hT, ?_⟩
    have hvlf : ∀ x : Bytes, (0xf7 :: vlf2bin x).length < 2 ^ 28 → vlf2bin (x ++ [0xf7]) ≠ vlf2bin x := by
      intro x hl hx
      simp only [vlf2bin, List.length_append, List.length_cons, List.length_nil] at hl hx
      have := (quantity_unique (quantity_vlq _ (by omega)) (quantity_vlq _ (by omega)) hx).2.2
      omega
    rcases hr.2.1 with ⟨m1, d, s, s', h1, h2⟩ | ⟨d, s, s', h1, h2⟩ | hx
    · rw [h1] at hnt hlen ⊢
      rw [h2] at hT ⊢
      have e1 : s = false := by cases s <;> simp_all [Body.Terminated]
      have e2 : s' = true := hT
      subst e1 e2
      intro heq
      simp only [Body.marshal, Outcome.ok.injEq, List.cons.injEq, true_and, if_true, Bool.false_eq_true, if_false, List.append_nil] at heq
      exact hvlf _ (by have := hlen _ rfl; simpa using this) heq
    · rw [h1] at hnt hlen ⊢
      rw [h2] at hT ⊢
      have e1 : s = false := by cases s <;> simp_all [Body.Terminated]
      have e2 : s' = true := hT
      subst e1 e2
      intro heq
      simp only [Body.marshal, Outcome.ok.injEq, List.cons.injEq, true_and, if_true, Bool.false_eq_true, if_false, List.append_nil] at heq
      exact hvlf _ (by have := hlen _ rfl; simpa using this) heq
    · rw [← hx] at hT
      exact absurd hT hnt

/-! ### Files that meet the hypotheses -/

/-- A test: a track with events, texts in ASCII, complete SysEx messages. -/
def quietTrack (t : MTrk) : Bool :=
  !t.events.isEmpty && (t.events.all fun e => match e.body with
    | .text _ s => s.all fun b => decide (b < 128)
    | .sysExMessage _ _ s => s
    | .sysExContinuation _ _ => false
    | _ => true)

theorem ascii_text (s : Bytes) (h : ∀ b ∈ s, b < 128) : ∃ cs, IsText s cs := by
  induction s with
  | nil => exact ⟨[], rfl⟩
  | cons b s ih =>
    obtain ⟨cs, hcs⟩ := ih (fun b hb => h b (by simp [hb]))
    have hone : ∀ b : UInt8, b < 128 → String.utf8EncodeChar (Char.ofNat b.toNat) = [b] := all8 (by decide +kernel)
    refine ⟨Char.ofNat b.toNat :: cs, ?_⟩
    unfold IsText at hcs ⊢
    rw [List.flatMap_cons, hone b (h b (by simp)), ← hcs]
    rfl

/-- The file of `plainFile`, exported and assembled. -/
theorem plain_exported : ∃ smf, decode .c3 [] plainFile = .ok smf ∧ assembleJson .c4 (exportJson smf) = .ok plainFile := by
  obtain ⟨smf, h1, h2⟩ := Outcome.of_test (o := decode .c3 [] plainFile)
    (p := fun smf => (match smf.mthd with | some m => decide (m.division.toNat < 32768) | none => false) && (smf.tracks.all quietTrack) &&
      (match encode smf with | .ok bs => bs == plainFile | _ => false)) (by decide +kernel)
  simp only [Bool.and_eq_true, List.all_eq_true] at h2
  obtain ⟨⟨q1, q2⟩, q3⟩ := h2
  split at q1
  · rename_i m hm
    refine ⟨smf, h1, ?_⟩
    rw [C58_json_roundtrip_partial .c3 .c4 [] plainFile smf h1 m hm (by simpa using q1)]
    · split at q3
      · rename_i bs hbs
        rw [hbs]
        simp only [beq_iff_eq] at q3
        rw [q3]
      · cases q3
    · intro t ht
      have := q2 t ht
      simp only [quietTrack, Bool.and_eq_true, List.all_eq_true] at this
      refine ⟨fun he => by rw [he] at this; simp at this, fun e he k s hb => ?_, fun i e n he hn hnp => ⟨?_, ?_⟩⟩
      · have := this.2 e he
        rw [hb] at this
        simp only [List.all_eq_true, decide_eq_true_eq] at this
        exact ascii_text s this
      · rintro ⟨mm, d, x, hb⟩
        have := this.2 e (List.mem_of_getElem? he)
        rw [hb] at this ⊢
        exact this
      · rintro ⟨d, x, hb⟩
        have := this.2 e (List.mem_of_getElem? he)
        rw [hb] at this
        cases this
  · cases q1

/-- SMPTE timing (25 frames per second, 40 subframes), a title that is not UTF-8, an unterminated SysEx message, a split one. -/
def oddFile : Bytes :=
  [0x4d, 0x54, 0x68, 0x64, 0, 0, 0, 6, 0, 0, 0, 1, 0xe7, 0x28, 0x4d, 0x54, 0x72, 0x6b, 0, 0, 0, 0x1d] ++
  [0x00, 0xff, 0x03, 0x02, 0x41, 0xff] ++ [0x00, 0xf0, 0x03, 0x7e, 0x00, 0x09] ++ [0x05, 0xf7, 0x02, 0x01, 0x02] ++ [0x05, 0xf7, 0x02, 0x03, 0xf7] ++
  [0x05, 0xc0, 0x19] ++ [0x00, 0xff, 0x2f, 0x00]

/-- What comes back: metrical time with zero ticks, the replacement character in the title. -/
example : ((do assembleJson .c3 (exportJson (← decode .c3 [] oddFile))).test fun out => out ==
      [0x4d, 0x54, 0x68, 0x64, 0, 0, 0, 6, 0, 0, 0, 1, 0, 0, 0x4d, 0x54, 0x72, 0x6b, 0, 0, 0, 0x1f] ++
      [0x00, 0xff, 0x03, 0x04, 0x41, 0xef, 0xbf, 0xbd] ++ [0x00, 0xf0, 0x03, 0x7e, 0x00, 0x09] ++ [0x05, 0xf7, 0x02, 0x01, 0x02] ++ [0x05, 0xf7, 0x02, 0x03, 0xf7] ++
      [0x05, 0xc0, 0x19] ++ [0x00, 0xff, 0x2f, 0x00]) = true := by
  decide +kernel

end Midiasm
