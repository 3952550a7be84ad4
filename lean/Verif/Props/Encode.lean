import Verif.Props.Events
import Verif.Lemmas.Decoded

/-!
C24 to C28: whole files written and read back.
-/

set_option linter.unusedSimpArgs false

namespace Midiasm
open Spec

/-! ### Encoding succeeds -/

/-- A time signature the encoder can write: the denominator is at most 128. -/
def Body.Writable : Body → Prop
  | .timeSignature _ d _ _ => d.toNat ≤ 128
  | _ => True

/-- What is written for an event starts with a status byte; the first data byte of note events is the note number. -/
theorem marshal_head (b : Body) :
    (b.Writable → ∃ h r, b.marshal = .ok (h :: r) ∧ 0x80 ≤ h.toNat ∧
      ((h &&& 0xf0 = 0x80 ∨ h &&& 0xf0 = 0x90) → b.KeyOk → ∃ d ds, r = d :: ds ∧ d.toNat < 0x80)) ∧
    (¬ b.Writable → b.marshal = .diverge) := by
  have hor : ∀ ch : UInt8, 0x80 ≤ (0x80 ||| ch : UInt8).toNat ∧ 0x80 ≤ (0x90 ||| ch : UInt8).toNat ∧
      0x80 ≤ (0xa0 ||| ch : UInt8).toNat ∧ 0x80 ≤ (0xb0 ||| ch : UInt8).toNat ∧ 0x80 ≤ (0xc0 ||| ch : UInt8).toNat ∧
      0x80 ≤ (0xd0 ||| ch : UInt8).toNat ∧ 0x80 ≤ (0xe0 ||| ch : UInt8).toNat :=
    all8 (P := fun ch => 0x80 ≤ (0x80 ||| ch : UInt8).toNat ∧ 0x80 ≤ (0x90 ||| ch : UInt8).toNat ∧
      0x80 ≤ (0xa0 ||| ch : UInt8).toNat ∧ 0x80 ≤ (0xb0 ||| ch : UInt8).toNat ∧ 0x80 ≤ (0xc0 ||| ch : UInt8).toNat ∧
      0x80 ≤ (0xd0 ||| ch : UInt8).toNat ∧ 0x80 ≤ (0xe0 ||| ch : UInt8).toNat) (by decide +kernel)
  have hnot : ∀ ch : UInt8,
      ¬ ((0xa0 ||| ch : UInt8) &&& 0xf0 = 0x80 ∨ (0xa0 ||| ch : UInt8) &&& 0xf0 = 0x90) ∧
      ¬ ((0xb0 ||| ch : UInt8) &&& 0xf0 = 0x80 ∨ (0xb0 ||| ch : UInt8) &&& 0xf0 = 0x90) ∧
      ¬ ((0xc0 ||| ch : UInt8) &&& 0xf0 = 0x80 ∨ (0xc0 ||| ch : UInt8) &&& 0xf0 = 0x90) ∧
      ¬ ((0xd0 ||| ch : UInt8) &&& 0xf0 = 0x80 ∨ (0xd0 ||| ch : UInt8) &&& 0xf0 = 0x90) ∧
      ¬ ((0xe0 ||| ch : UInt8) &&& 0xf0 = 0x80 ∨ (0xe0 ||| ch : UInt8) &&& 0xf0 = 0x90) :=
    all8 (P := fun ch =>
      ¬ ((0xa0 ||| ch : UInt8) &&& 0xf0 = 0x80 ∨ (0xa0 ||| ch : UInt8) &&& 0xf0 = 0x90) ∧
      ¬ ((0xb0 ||| ch : UInt8) &&& 0xf0 = 0x80 ∨ (0xb0 ||| ch : UInt8) &&& 0xf0 = 0x90) ∧
      ¬ ((0xc0 ||| ch : UInt8) &&& 0xf0 = 0x80 ∨ (0xc0 ||| ch : UInt8) &&& 0xf0 = 0x90) ∧
      ¬ ((0xd0 ||| ch : UInt8) &&& 0xf0 = 0x80 ∨ (0xd0 ||| ch : UInt8) &&& 0xf0 = 0x90) ∧
      ¬ ((0xe0 ||| ch : UInt8) &&& 0xf0 = 0x80 ∨ (0xe0 ||| ch : UInt8) &&& 0xf0 = 0x90)) (by decide +kernel)
  have hff : ¬ ((0xff : UInt8) &&& 0xf0 = 0x80 ∨ (0xff : UInt8) &&& 0xf0 = 0x90) := by decide
  have hf0 : ¬ ((0xf0 : UInt8) &&& 0xf0 = 0x80 ∨ (0xf0 : UInt8) &&& 0xf0 = 0x90) := by decide
  have hf7 : ¬ ((0xf7 : UInt8) &&& 0xf0 = 0x80 ∨ (0xf7 : UInt8) &&& 0xf0 = 0x90) := by decide
  cases b with
  | timeSignature n d c t =>
    constructor
    · intro h
      obtain ⟨k, hk, _⟩ := (denomLoop_value d).1 h
      exact ⟨0xff, [0x58, 4, n, UInt8.ofNat k, c, t], by simp [Body.marshal, hk], by decide, fun h => absurd h hff⟩
    · intro h
      have := (denomLoop_value d).2 (by simp only [Body.Writable] at h; omega)
      simp [Body.marshal, this]
  | noteOff ch n v =>
    refine ⟨fun _ => ⟨0x80 ||| ch, [n.value, v], rfl, (hor ch).1, fun _ h => ⟨_, _, rfl, ?_⟩⟩, fun h => absurd trivial h⟩
    simp only [Body.KeyOk] at h; omega
  | noteOn ch n v =>
    refine ⟨fun _ => ⟨0x90 ||| ch, [n.value, v], rfl, (hor ch).2.1, fun _ h => ⟨_, _, rfl, ?_⟩⟩, fun h => absurd trivial h⟩
    simp only [Body.KeyOk] at h; omega
  | polyphonicPressure ch p =>
    exact ⟨fun _ => ⟨0xa0 ||| ch, _, rfl, (hor ch).2.2.1, fun h => absurd h (hnot ch).1⟩, fun h => absurd trivial h⟩
  | controller ch c v =>
    exact ⟨fun _ => ⟨0xb0 ||| ch, _, rfl, (hor ch).2.2.2.1, fun h => absurd h (hnot ch).2.1⟩, fun h => absurd trivial h⟩
  | programChange ch b p =>
    exact ⟨fun _ => ⟨0xc0 ||| ch, _, rfl, (hor ch).2.2.2.2.1, fun h => absurd h (hnot ch).2.2.1⟩, fun h => absurd trivial h⟩
  | channelPressure ch p =>
    exact ⟨fun _ => ⟨0xd0 ||| ch, _, rfl, (hor ch).2.2.2.2.2.1, fun h => absurd h (hnot ch).2.2.2.1⟩, fun h => absurd trivial h⟩
  | pitchBend ch b =>
    exact ⟨fun _ => ⟨0xe0 ||| ch, _, rfl, (hor ch).2.2.2.2.2.2, fun h => absurd h (hnot ch).2.2.2.2⟩, fun h => absurd trivial h⟩
  | sysExMessage m d s =>
    exact ⟨fun _ => ⟨0xf0, _, rfl, by decide, fun h => absurd h hf0⟩, fun h => absurd trivial h⟩
  | sysExContinuation d e =>
    exact ⟨fun _ => ⟨0xf7, _, rfl, by decide, fun h => absurd h hf7⟩, fun h => absurd trivial h⟩
  | sysExEscape d =>
    exact ⟨fun _ => ⟨0xf7, _, rfl, by decide, fun h => absurd h hf7⟩, fun h => absurd trivial h⟩
  | text k s =>
    refine ⟨fun _ => ?_, fun h => absurd trivial h⟩
    cases k <;> exact ⟨0xff, _, rfl, by decide, fun h => absurd h hff⟩
  | _ => exact ⟨fun _ => ⟨0xff, _, rfl, by decide, fun h => absurd h hff⟩, fun h => absurd trivial h⟩

/-- The events are all written, or the encoder does not terminate. -/
theorem encodeEvents_cases (es : List Event) :
    ((∀ e ∈ es, e.body.Writable) → ∃ cs, encodeEvents es = .ok cs ∧
      cs.map Prod.fst = es.map (fun e => deltaMarshal e.delta) ∧ cs.map (fun c => Outcome.ok c.2) = es.map (·.body.marshal)) ∧
    ((¬ ∀ e ∈ es, e.body.Writable) → encodeEvents es = .diverge) := by
  induction es with
  | nil => exact ⟨fun _ => ⟨[], rfl, rfl, rfl⟩, fun h => absurd (by simp) h⟩
  | cons e es ih =>
    by_cases he : e.body.Writable
    · obtain ⟨h, r, hm, _⟩ := (marshal_head e.body).1 he
      constructor
      · intro hall
        obtain ⟨cs, h1, h2, h3⟩ := ih.1 (fun x hx => hall x (by simp [hx]))
        exact ⟨(deltaMarshal e.delta, h :: r) :: cs, by rw [encodeEvents, hm, Outcome.bind_ok, h1]; rfl, by simp [h2], by simp [h3, hm]⟩
      · intro hn
        have := ih.2 (fun hall => hn (fun x hx => by
          rcases List.mem_cons.1 hx with rfl | hx
          · exact he
          · exact hall x hx))
        rw [encodeEvents, hm, Outcome.bind_ok, this]; rfl
    · refine ⟨fun hall => absurd (hall e (by simp)) he, fun _ => ?_⟩
      rw [encodeEvents, (marshal_head e.body).2 he]; rfl

/-- What a reader of running status makes of a sequence of event byte strings: a missing status byte is replaced by the last
channel status; meta events and system exclusive packets cancel it. -/
def reinstate : Option UInt8 → List Bytes → List Bytes
  | _, [] => []
  | rs, [] :: es => [] :: reinstate rs es
  | rs, (h :: r) :: es =>
    if h.toNat < 0x80 then
      (match rs with
        | some s => (s :: h :: r) :: reinstate rs es
        | none => (h :: r) :: reinstate rs es)
    else if h.toNat < 0xf0 then (h :: r) :: reinstate (some h) es
    else (h :: r) :: reinstate none es

/-- The status fixup in general. -/
theorem fixup_reinstate (cs : List (Bytes × Bytes)) (hcs : ∀ c ∈ cs, ∃ h r, c.2 = h :: r ∧ 0x80 ≤ h.toNat)
    (last : Option Bytes) (hlast : ∀ l, last = some l → l ≠ []) (hr : ∀ c ∈ cs, ∀ h r, c.2 = h :: r → (h &&& 0xf0 = 0x80 ∨ h &&& 0xf0 = 0x90) → r ≠ []) :
    ∃ cs', statusFixup last cs = .ok cs' ∧ cs'.map Prod.fst = cs.map Prod.fst ∧
      (∀ (i : Nat) (c c' : Bytes × Bytes), cs[i]? = some c → cs'[i]? = some c' →
        c'.2 = c.2 ∨ ∃ s, c.2 = s :: c'.2 ∧ 0x80 ≤ s.toNat ∧ s.toNat < 0xa0) ∧
      (∀ rs, LastOk last rs → (∀ c ∈ cs, ∀ h r, c.2 = h :: r → (h &&& 0xf0 = 0x80 ∨ h &&& 0xf0 = 0x90) → ∃ d ds, r = d :: ds ∧ d.toNat < 0x80) →
        reinstate rs (cs'.map Prod.snd) = cs.map Prod.snd) := by
  induction cs generalizing last with
  | nil => exact ⟨[], by cases last <;> rfl, rfl, by simp, fun _ _ _ => rfl⟩
  | cons c cs ih =>
    obtain ⟨d, e⟩ := c
    obtain ⟨h, r, he, hh⟩ := hcs (d, e) (by simp)
    simp only at he
    subst he
    have hcs' : ∀ c ∈ cs, ∃ h r, c.2 = h :: r ∧ 0x80 ≤ h.toNat := fun c hc => hcs c (by simp [hc])
    have hr' : ∀ c ∈ cs, ∀ h r, c.2 = h :: r → (h &&& 0xf0 = 0x80 ∨ h &&& 0xf0 = 0x90) → r ≠ [] := fun c hc => hr c (by simp [hc])
    have hfix := fixup_cons last d h r cs hlast
    by_cases hc : (h &&& 0xf0 = 0x80 ∨ h &&& 0xf0 = 0x90) ∧ (last.bind List.head?) = some h
    · simp only [if_pos hc] at hfix
      have hrne := hr (d, h :: r) (by simp) h r rfl hc.1
      obtain ⟨cs', h1, h2, h3, h4⟩ := ih hcs' (some r) (fun l hl => by injection hl with hl; rw [← hl]; exact hrne) hr'
      refine ⟨(d, r) :: cs', by rw [hfix, h1]; rfl, by simp [h2], ?_, ?_⟩
      · intro i c c' hi hi'
        cases i with
        | zero =>
          simp at hi hi'
          subst hi hi'
          obtain ⟨n1, n2⟩ := note_nibble h hc.1
          exact Or.inr ⟨h, rfl, n1, n2⟩
        | succ i => exact h3 i c c' (by simpa using hi) (by simpa using hi')
      · intro rs hl hk
        obtain ⟨x, xs, hx, hx80⟩ := hk (d, h :: r) (by simp) h r rfl hc.1
        cases last with
        | none => simp at hc
        | some l =>
          obtain ⟨y, ys, rfl, hy⟩ := hl l rfl
          have hyh : y = h := by simpa using hc.2
          subst hyh
          obtain ⟨n1, n2⟩ := note_nibble y hc.1
          have hrs := hy n1 (by omega)
          subst hrs
          subst hx
          have := h4 (some y) (by
            intro l hl'
            injection hl' with hl'
            exact ⟨x, xs, hl'.symm, fun h => by omega⟩) (fun c hc => hk c (by simp [hc]))
          simp only [List.map_cons, reinstate, if_pos hx80, this]
    · simp only [if_neg hc] at hfix
      obtain ⟨cs', h1, h2, h3, h4⟩ := ih hcs' (some (h :: r)) (fun l hl => by injection hl with hl; rw [← hl]; simp) hr'
      refine ⟨(d, h :: r) :: cs', by rw [hfix, h1]; rfl, by simp [h2], ?_, ?_⟩
      · intro i c c' hi hi'
        cases i with
        | zero => simp at hi hi'; subst hi hi'; exact Or.inl rfl
        | succ i => exact h3 i c c' (by simpa using hi) (by simpa using hi')
      · intro rs hl hk
        by_cases hf : h.toNat < 0xf0
        · have := h4 (some h) (by
            intro l hl'
            injection hl' with hl'
            exact ⟨h, r, hl'.symm, fun _ _ => rfl⟩) (fun c hc => hk c (by simp [hc]))
          simp only [List.map_cons, reinstate, if_neg (show ¬ h.toNat < 0x80 by omega), if_pos hf, this]
        · have := h4 none (by
            intro l hl'
            injection hl' with hl'
            exact ⟨h, r, hl'.symm, fun _ h => absurd h hf⟩) (fun c hc => hk c (by simp [hc]))
          simp only [List.map_cons, reinstate, if_neg (show ¬ h.toNat < 0x80 by omega), if_neg hf, this]

/-- Everything about the chunk written for a track. -/
theorem encodeMTrk_cases (t : MTrk) :
    ((∀ e ∈ t.events, e.body.Writable) → ∃ cs cs', encodeEvents t.events = .ok cs ∧ statusFixup none cs = .ok cs' ∧
      cs.map Prod.fst = t.events.map (fun e => deltaMarshal e.delta) ∧ cs.map (fun c => Outcome.ok c.2) = t.events.map (·.body.marshal) ∧
      cs'.map Prod.fst = cs.map Prod.fst ∧
      (∀ (i : Nat) (c c' : Bytes × Bytes), cs[i]? = some c → cs'[i]? = some c' →
        c'.2 = c.2 ∨ ∃ s, c.2 = s :: c'.2 ∧ 0x80 ≤ s.toNat ∧ s.toNat < 0xa0) ∧
      ((∀ e ∈ t.events, e.body.KeyOk) → reinstate none (cs'.map Prod.snd) = cs.map Prod.snd) ∧
      encodeMTrk t = .ok (t.tag ++ be32 (((cs'.map (fun c => c.1 ++ c.2)).flatten).length % 2 ^ 32) ++
        (cs'.map (fun c => c.1 ++ c.2)).flatten)) ∧
    ((¬ ∀ e ∈ t.events, e.body.Writable) → encodeMTrk t = .diverge) := by
  constructor
  · intro hw
    obtain ⟨cs, h1, h2, h3⟩ := (encodeEvents_cases t.events).1 hw
    have hmem : ∀ c ∈ cs, ∃ e ∈ t.events, e.body.marshal = .ok c.2 := by
      intro c hc
      have : Outcome.ok c.2 ∈ cs.map (fun c => Outcome.ok c.2) := List.mem_map.2 ⟨c, hc, rfl⟩
      rw [h3] at this
      obtain ⟨e, he, h⟩ := List.mem_map.1 this
      exact ⟨e, he, h⟩
    have hhead : ∀ c ∈ cs, ∃ h r, c.2 = h :: r ∧ 0x80 ≤ h.toNat := by
      intro c hc
      obtain ⟨e, he, hm⟩ := hmem c hc
      obtain ⟨h, r, hm', h80, _⟩ := (marshal_head e.body).1 (hw e he)
      rw [hm] at hm'
      injection hm' with hm'
      exact ⟨h, r, hm', h80⟩
    have hne : ∀ c ∈ cs, ∀ h r, c.2 = h :: r → (h &&& 0xf0 = 0x80 ∨ h &&& 0xf0 = 0x90) → r ≠ [] := by
      intro c hc h r hcr hn
      obtain ⟨e, he, hm⟩ := hmem c hc
      rw [hcr] at hm
      obtain ⟨h', r', hm', _, hk⟩ := (marshal_head e.body).1 (hw e he)
      rw [hm] at hm'
      injection hm' with hm'
      injection hm' with e1 e2
      subst e1 e2
      obtain ⟨n1, n2⟩ := note_nibble h hn
      cases hb : e.body with
      | noteOff ch n v => rw [hb] at hm; simp [Body.marshal] at hm; rw [← hm.2]; simp
      | noteOn ch n v => rw [hb] at hm; simp [Body.marshal] at hm; rw [← hm.2]; simp
      | _ =>
        have hko : e.body.KeyOk := by rw [hb]; trivial
        obtain ⟨d, ds, hd, _⟩ := hk hn hko
        rw [hd]; simp
    obtain ⟨cs', f1, f2, f3, f4⟩ := fixup_reinstate cs hhead none (by simp) hne
    refine ⟨cs, cs', h1, f1, h2, h3, f2, f3, fun hko => ?_, ?_⟩
    · refine f4 none (by intro l hl; cases hl) ?_
      intro c hc h r hcr hn
      obtain ⟨e, he, hm⟩ := hmem c hc
      rw [hcr] at hm
      obtain ⟨h', r', hm', _, hk⟩ := (marshal_head e.body).1 (hw e he)
      rw [hm] at hm'
      injection hm' with hm'
      injection hm' with e1 e2
      subst e1 e2
      exact hk hn (hko e he)
    · unfold encodeMTrk
      rw [h1, Outcome.bind_ok, f1, Outcome.bind_ok, putUint32_eq, chunksLength_toNat]
  · intro hn
    unfold encodeMTrk
    rw [(encodeEvents_cases t.events).2 hn]; rfl

/-- C27: the track chunk consists, after its eight byte head, of the delta times and event bytes in order, where an event is
written with or without its status byte, without only for note on/off events; a reader that keeps the last channel status
(and forgets it at meta events and system exclusive packets) reinstates exactly the omitted status bytes, for all events whose
note numbers are below 128. -/
theorem C27_running_status_compression (t : MTrk) (hw : ∀ e ∈ t.events, e.body.Writable) :
    ∃ (full written : List Bytes) (bs : Bytes), encodeMTrk t = .ok bs ∧
      full.map Outcome.ok = t.events.map (·.body.marshal) ∧ written.length = full.length ∧
      bs.drop (t.tag.length + 4) = ((t.events.map (fun e => deltaMarshal e.delta)).zipWith (· ++ ·) written).flatten ∧
      (∀ (i : Nat) (e w : Bytes), full[i]? = some e → written[i]? = some w →
        w = e ∨ ∃ s, e = s :: w ∧ 0x80 ≤ s.toNat ∧ s.toNat < 0xa0) ∧
      ((∀ e ∈ t.events, e.body.KeyOk) → reinstate none written = full) := by
  obtain ⟨cs, cs', h1, h2, h3, h4, h5, h6, h7, h8⟩ := (encodeMTrk_cases t).1 hw
  refine ⟨cs.map Prod.snd, cs'.map Prod.snd, _, h8, ?_, ?_, ?_, ?_, h7⟩
  · rw [List.map_map]; exact h4
  · have := congrArg List.length h5
    simpa using this
  · have hlen : (t.tag ++ be32 (((cs'.map (fun c => c.1 ++ c.2)).flatten).length % 2 ^ 32)).length = t.tag.length + 4 := by
      rw [List.length_append]; rfl
    rw [← hlen, List.drop_left, ← h3, ← h5]
    congr 1
    clear h1 h2 h3 h4 h5 h6 h7 h8 hlen
    induction cs' with
    | nil => rfl
    | cons c cs' ih => simp only [List.map_cons, List.zipWith_cons_cons, ih]
  · intro i e w he hwr
    rw [List.getElem?_map] at he hwr
    cases hc : cs[i]? with
    | none => rw [hc] at he; cases he
    | some c =>
      cases hc' : cs'[i]? with
      | none => rw [hc'] at hwr; cases hwr
      | some c' =>
        rw [hc] at he
        rw [hc'] at hwr
        simp only [Option.map_some, Option.some.injEq] at he hwr
        subst he hwr
        exact h6 i c c' hc hc'

/-! ### Files -/

theorem encodeTracks_cases (ts : List MTrk) :
    ((∀ t ∈ ts, ∀ e ∈ t.events, e.body.Writable) → ∃ bss : List Bytes, encodeTracks ts = .ok bss.flatten ∧
      ts.map encodeMTrk = bss.map Outcome.ok) ∧
    ((¬ ∀ t ∈ ts, ∀ e ∈ t.events, e.body.Writable) → encodeTracks ts = .diverge) := by
  induction ts with
  | nil => exact ⟨fun _ => ⟨[], rfl, rfl⟩, fun h => absurd (by simp) h⟩
  | cons t ts ih =>
    by_cases ht : ∀ e ∈ t.events, e.body.Writable
    · obtain ⟨_, _, _, _, _, _, _, _, _, h8⟩ := (encodeMTrk_cases t).1 ht
      constructor
      · intro hall
        obtain ⟨bss, h1, h2⟩ := ih.1 (fun x hx => hall x (by simp [hx]))
        exact ⟨_ :: bss, by rw [encodeTracks, h8, Outcome.bind_ok, h1, Outcome.bind_ok, List.flatten_cons], by simp [h2, h8]⟩
      · intro hn
        have := ih.2 (fun hall => hn (fun x hx => by
          rcases List.mem_cons.1 hx with rfl | hx
          · exact ht
          · exact hall x hx))
        rw [encodeTracks, h8, Outcome.bind_ok, this]; rfl
    · refine ⟨fun hall => absurd (hall t (by simp)) ht, fun _ => ?_⟩
      rw [encodeTracks, (encodeMTrk_cases t).2 ht]; rfl

/-- C26: encoding fails with an error exactly when the header is missing or its track count is not the number of tracks.
Otherwise it writes a file, unless some time signature has a denominator above 128, for which it never terminates. -/
theorem C26_encode_errors (smf : SMF) :
    ((∃ e, encode smf = .err e) ↔ ∀ h, smf.mthd = some h → h.tracks.toNat ≠ smf.tracks.length) ∧
    encode smf ≠ .panic ∧
    (∀ h, smf.mthd = some h → h.tracks.toNat = smf.tracks.length →
      ((∃ bs, encode smf = .ok bs) ↔ ∀ t ∈ smf.tracks, ∀ e ∈ t.events, e.body.Writable) ∧
      ((¬ ∀ t ∈ smf.tracks, ∀ e ∈ t.events, e.body.Writable) → encode smf = .diverge)) := by
  unfold encode
  cases smf.mthd with
  | none => exact ⟨⟨fun _ => by simp, fun _ => ⟨_, rfl⟩⟩, by simp, by simp⟩
  | some h =>
    by_cases hc : h.tracks.toNat = smf.tracks.length
    · simp only [hc, ne_eq, not_true_eq_false, if_false]
      obtain ⟨c1, c2⟩ := encodeTracks_cases smf.tracks
      by_cases hw : ∀ t ∈ smf.tracks, ∀ e ∈ t.events, e.body.Writable
      · obtain ⟨bss, h1, _⟩ := c1 hw
        rw [h1, Outcome.bind_ok]
        refine ⟨⟨?_, ?_⟩, by simp, ?_⟩
        · rintro ⟨e, he⟩; cases he
        · intro h'; exact absurd hc (h' h rfl)
        · intro h' hh _
          exact ⟨⟨fun _ => hw, fun _ => ⟨_, rfl⟩⟩, fun hn => absurd hw hn⟩
      · rw [c2 hw]
        refine ⟨⟨?_, ?_⟩, by simp [Outcome.bind_diverge], ?_⟩
        · rintro ⟨e, he⟩; cases he
        · intro h'; exact absurd hc (h' h rfl)
        · intro h' hh _
          refine ⟨⟨?_, fun h => absurd h hw⟩, fun _ => rfl⟩
          rintro ⟨bs, hbs⟩; cases hbs
    · simp only [hc, ne_eq, not_false_eq_true, if_true]
      refine ⟨⟨fun _ h' hh => ?_, fun _ => ⟨_, rfl⟩⟩, by simp, fun h' hh hx => ?_⟩
      · injection hh with hh; rw [← hh]; exact hc
      · injection hh with hh; rw [← hh] at hx; exact absurd hx hc

/-- C25: an encoded file of less than 4 GiB whose header was read or built by the code is exactly a sequence of chunks, each with
its length field equal to the length of its body: the header chunk, then one chunk per track with the track's tag. -/
theorem C25_chunk_lengths_exact (smf : SMF) (m : MThd) (hm : smf.mthd = some m) (h : Header) (hs : m.Shows h) (bs : Bytes)
    (he : encode smf = .ok bs) (hlen : bs.length < 2 ^ 32) :
    ∃ cs : List Chunk, bs = fileBytes (h.chunk :: cs) ∧ cs.map Chunk.tag = smf.tracks.map MTrk.tag ∧
      cs.map (fun c => Outcome.ok c.bytes) = smf.tracks.map encodeMTrk := by
  have hw : m.tracks.toNat = smf.tracks.length ∧ ∃ tb, encodeTracks smf.tracks = .ok tb ∧ bs = h.chunk.bytes ++ tb := by
    unfold encode at he
    rw [hm] at he
    simp only at he
    split at he
    · cases he
    · rename_i hc
      refine ⟨by simpa using hc, ?_⟩
      cases ht : encodeTracks smf.tracks with
      | ok tb =>
        rw [ht, Outcome.bind_ok, marshal_shows m h hs] at he
        injection he with he
        exact ⟨tb, rfl, he.symm⟩
      | err e => rw [ht] at he; cases he
      | panic => rw [ht] at he; cases he
      | diverge => rw [ht] at he; cases he
  obtain ⟨_, tb, ht, hbs⟩ := hw
  have key : ∀ (ts : List MTrk) (tb : Bytes), encodeTracks ts = .ok tb → tb.length < 2 ^ 32 →
      ∃ cs : List Chunk, tb = fileBytes cs ∧ cs.map Chunk.tag = ts.map MTrk.tag ∧
        cs.map (fun c => Outcome.ok c.bytes) = ts.map encodeMTrk := by
    intro ts
    induction ts with
    | nil =>
      intro tb h _
      injection h with h
      exact ⟨[], by rw [← h]; rfl, rfl, rfl⟩
    | cons t ts ih =>
      intro tb h hl
      rw [encodeTracks] at h
      cases h1 : encodeMTrk t with
      | ok b =>
        rw [h1, Outcome.bind_ok] at h
        cases h2 : encodeTracks ts with
        | ok b2 =>
          rw [h2, Outcome.bind_ok] at h
          injection h with h
          rw [← h, List.length_append] at hl
          obtain ⟨cs, e1, e2, e3⟩ := ih b2 h2 (by omega)
          obtain ⟨_, cs', _, _, hb⟩ := encodeMTrk_chunk t b h1 (by omega)
          refine ⟨⟨t.tag, (cs'.map (fun c => c.1 ++ c.2)).flatten⟩ :: cs, ?_, by simp [e2], ?_⟩
          · rw [← h, e1, hb]; simp [fileBytes]
          · simp [e3, h1, hb]
        | err e => rw [h2] at h; cases h
        | panic => rw [h2] at h; cases h
        | diverge => rw [h2] at h; cases h
      | err e => rw [h1] at h; cases h
      | panic => rw [h1] at h; cases h
      | diverge => rw [h1] at h; cases h
  rw [hbs, List.length_append] at hlen
  obtain ⟨cs, e1, e2, e3⟩ := key smf.tracks tb ht (by omega)
  exact ⟨cs, by rw [hbs, e1]; simp [fileBytes], e2, e3⟩

/-- The file values that survive: events as in C68, with note numbers below 128, delta times below 2^28 and SysEx packets in
order; track chunks tagged MTrk. -/
def MTrk.Faithful (t : MTrk) : Prop :=
  t.tag = tagMTrk ∧ (∀ e ∈ t.events, e.body.Faithful ∧ e.body.KeyOk ∧ e.delta.toNat < 2 ^ 28) ∧
  sysexOrdered false (t.events.map Event.body)

theorem faithful_writable {b : Body} (h : b.Faithful) : b.Writable := by
  cases b with
  | timeSignature n d c t =>
    obtain ⟨e, he, hd⟩ := h
    simp only [Body.Writable, hd]
    calc 2 ^ e ≤ 2 ^ 7 := Nat.pow_le_pow_right (by decide) he
      _ ≤ 128 := by decide
  | _ => trivial

theorem meanings_wire (pending : Bool) (bs : List Body) (hf : ∀ b ∈ bs, b.Faithful) (ho : sysexOrdered pending bs) :
    meanings pending (bs.map Body.wire) = some (bs.map Body.view) ∧ (bs.map Body.view).map asShown = bs.map Body.view := by
  induction bs generalizing pending with
  | nil => exact ⟨rfl, rfl⟩
  | cons b bs ih =>
    obtain ⟨h1, h2⟩ := ho
    obtain ⟨m1, m2, m3⟩ := meaning_faithful b (hf b (by simp)) pending h1
    obtain ⟨i1, i2⟩ := ih _ (fun b hb => hf b (by simp [hb])) h2
    refine ⟨?_, by simp only [List.map_cons, m3, i2]⟩
    simp only [List.map_cons, meanings, m1, m2, i1]

/-- A faithful track is written as a chunk that is read back as a track with the same delta times and events. -/
theorem track_roundtrip (t : MTrk) (hf : t.Faithful) (mc : MiddleC) (spare : Bytes) (n : Nat) (bs : Bytes)
    (he : encodeMTrk t = .ok bs) (hl : bs.length < 2 ^ 32) :
    ∃ c : Chunk, bs = c.bytes ∧ c.tag = tagMTrk ∧ c.Wf ∧ ∃ t', unmarshalMTrk mc spare n c.bytes = .ok t' ∧
      t'.events.map Event.delta = t.events.map Event.delta ∧ t'.events.map (·.body.view) = t.events.map (·.body.view) := by
  obtain ⟨htag, hev, hord⟩ := hf
  obtain ⟨cs, cs', e1, e2, e3⟩ := encodeMTrk_chunk t bs he hl
  obtain ⟨cs1, cs1', items, rs', f1, f2, f3, f4, f5, f6⟩ := fixup_framed t.events hev none none (by intro l hl; cases hl)
  rw [e1] at f1
  injection f1 with f1
  subst f1
  rw [e2] at f2
  injection f2 with f2
  subst f2
  have hbody : (cs'.map (fun c => c.1 ++ c.2)).flatten = trackBytes items := by rw [trackBytes, f6]
  have hwf : (Chunk.mk t.tag (cs'.map (fun c => c.1 ++ c.2)).flatten).Wf := by
    refine ⟨by rw [htag]; rfl, ?_⟩
    rw [e3] at hl
    simp only [Chunk.bytes, List.length_append] at hl
    simp only
    omega
  obtain ⟨m1, m2⟩ := meanings_wire false (t.events.map Event.body) (by
    intro b hb
    obtain ⟨e, he, rfl⟩ := List.mem_map.1 hb
    exact (hev e he).1) hord
  have hraws : items.map Item.raw = (t.events.map Event.body).map Body.wire := by rw [f4, List.map_map]; rfl
  obtain ⟨t', g1, g2, g3, _, _⟩ := C66_dialect_track_decodes mc spare n items rs' f3 ((t.events.map Event.body).map Body.view)
    (by rw [hraws]; exact m1) ⟨t.tag, (cs'.map (fun c => c.1 ++ c.2)).flatten⟩ hwf htag hbody
  refine ⟨_, e3, htag, hwf, t', g1, by rw [g3, f5], ?_⟩
  rw [g2, m2, List.map_map]; rfl

/-- C24 for files whose tracks are faithful: the file is written, and (if shorter than 4 GiB) reading it gives the same header
fields, the same number of tracks and in every track the same delta times and events.  Missing: the events that do not survive
on their own (see C16, C18, C20, C22), note numbers of 128 and more under running status (`C24_roundtrip_fails`), delta times of 2^28
and more. -/
theorem C24_roundtrip_partial (smf : SMF) (m : MThd) (hm : smf.mthd = some m) (h : Header) (hs : m.Shows h) (hv : h.Valid)
    (hn : h.tracks = smf.tracks.length) (hf : ∀ t ∈ smf.tracks, t.Faithful) :
    ∃ bs, encode smf = .ok bs ∧ (bs.length < 2 ^ 32 → ∀ mc spare, ∃ smf' m', decode mc spare bs = .ok smf' ∧
      smf'.mthd = some m' ∧ m'.SameAs m ∧
      smf'.tracks.map (fun t => t.events.map (fun e => (e.delta, e.body.view))) =
        smf.tracks.map (fun t => t.events.map (fun e => (e.delta, e.body.view)))) := by
  have hmt : m.tracks.toNat = smf.tracks.length := by rw [hs.2.2.2.1, hn]
  have hw : ∀ t ∈ smf.tracks, ∀ e ∈ t.events, e.body.Writable := fun t ht e he => faithful_writable ((hf t ht).2.1 e he).1
  obtain ⟨bs, hbs⟩ := ((C26_encode_errors smf).2.2 m hm hmt).1.2 hw
  refine ⟨bs, hbs, fun hl mc spare => ?_⟩
  obtain ⟨cs, c1, c2, c3⟩ := C25_chunk_lengths_exact smf m hm h hs bs hbs hl
  -- every chunk decodes
  have hsub : ∀ c ∈ cs, c.bytes.length < 2 ^ 32 := by
    intro c hc
    have : c.bytes.length ≤ bs.length := by
      rw [c1]
      obtain ⟨l, r, hlr⟩ := List.append_of_mem hc
      rw [hlr]
      simp only [fileBytes, List.map_append, List.map_cons, List.flatten_cons, List.flatten_append, List.length_append]
      omega
    omega
  have key : ∀ (ts : List MTrk) (cs : List Chunk) (n : Nat), (∀ t ∈ ts, t.Faithful) → (∀ c ∈ cs, c.bytes.length < 2 ^ 32) →
      cs.map Chunk.tag = ts.map MTrk.tag → cs.map (fun c => Outcome.ok c.bytes) = ts.map encodeMTrk →
      (∀ c ∈ cs, c.Wf) ∧ ∃ ts', decodeTracks mc spare (cs.map Chunk.bytes) n = .ok ts' ∧
        ts'.map (fun t => t.events.map (fun e => (e.delta, e.body.view))) =
          ts.map (fun t => t.events.map (fun e => (e.delta, e.body.view))) := by
    intro ts
    induction ts with
    | nil =>
      intro cs n _ _ h _
      simp at h
      subst h
      exact ⟨by simp, [], rfl, rfl⟩
    | cons t ts ih =>
      intro cs n hf hl h1 h2
      cases cs with
      | nil => simp at h1
      | cons c cs =>
        simp only [List.map_cons, List.cons.injEq] at h1 h2
        obtain ⟨wfs, ts', d1, d2⟩ := ih cs (n + 1) (fun t ht => hf t (by simp [ht])) (fun c hc => hl c (by simp [hc])) h1.2 h2.2
        obtain ⟨c', b1, b2, b3, t', b4, b5, b6⟩ := track_roundtrip t (hf t (by simp)) mc spare n c.bytes h2.1.symm (hl c (by simp))
        have hctag : c.tag = tagMTrk := by rw [h1.1]; exact (hf t (by simp)).1
        have hwf : c.Wf := by
          refine ⟨by rw [hctag]; rfl, ?_⟩
          have := hl c (by simp)
          simp only [Chunk.bytes, List.length_append] at this
          omega
        refine ⟨?_, t' :: ts', ?_, ?_⟩
        · intro x hx
          rcases List.mem_cons.1 hx with rfl | hx
          · exact hwf
          · exact wfs x hx
        · rw [List.map_cons, decodeTracks, slice_tag c hwf, Outcome.bind_ok, str_MTrk, if_pos hctag, b1, b4, Outcome.bind_ok, d1,
            Outcome.bind_ok]
        · simp only [List.map_cons, d2, List.cons.injEq, and_true]
          have : ∀ es : List Event, es.map (fun e => (e.delta, e.body.view)) = (es.map Event.delta).zip (es.map (·.body.view)) := by
            intro es
            induction es with
            | nil => rfl
            | cons e es ih => simp [ih]
          rw [this, this, b5, b6]
  obtain ⟨wfs, ts', d1, d2⟩ := key smf.tracks cs 0 hf hsub c2 c3
  obtain ⟨m', hm', hs', _⟩ := unmarshalMThd_valid h hv
  have hlen : ts'.length = smf.tracks.length := by simpa using congrArg List.length d2
  refine ⟨⟨some m', ts'⟩, m', ?_, rfl, ?_, d2⟩
  · have := decode_chunks mc spare h.chunk cs (by
      intro x hx
      rcases List.mem_cons.1 hx with rfl | hx
      · exact header_chunk_wf h
      · exact wfs x hx) [] .nil
    rw [List.append_nil, ← c1, hm', Outcome.bind_ok, d1, Outcome.bind_ok] at this
    rw [this, if_neg]
    rw [hlen, hs'.2.2.2.1, hn]; simp
  · obtain ⟨a1, a2, a3, a4, a5, a6, a7⟩ := hs
    obtain ⟨b1, b2, b3, b4, b5, b6, b7⟩ := hs'
    refine ⟨b1.trans a1.symm, b2.trans a2.symm, u16_ext (b3.trans a3.symm), u16_ext (b4.trans a4.symm), u16_ext (b5.trans a5.symm), ?_⟩
    by_cases hd : h.division < 32768
    · obtain ⟨p1, p2, p3, p4, p5⟩ := a6 hd
      obtain ⟨q1, q2, q3, q4, q5⟩ := b6 hd
      exact ⟨u16_ext (q1.trans p1.symm), q2.trans p2.symm, q3.trans p3.symm, q4.trans p4.symm, q5.trans p5.symm⟩
    · obtain ⟨p1, p2, p3, p4⟩ := a7 (by omega)
      obtain ⟨q1, q2, q3, q4⟩ := b7 (by omega)
      rw [p3] at q3
      injection q3 with q3
      injection q3 with q3 q5
      exact ⟨q1.trans p1.symm, q2.trans p2.symm, u8_ext q3.symm, q5.symm, u16_ext (q4.trans p4.symm)⟩

/-! ### Decoding and encoding again -/

/-- The decoded events that are written again so that they read back: no pitch bends of 128 and more, texts (other than track
names) and sequencer specific events shorter than 128 bytes, denominators that are not 0, note numbers below 128, and no
continuation packets. -/
def Rewritable : Content → Prop
  | .text ty s => ty = 3 ∨ s.length < 128
  | .timeSignature _ d _ _ => d ≠ 0
  | .sequencerSpecific id d => id.length + d.length < 128
  | .noteOff _ k _ => k < 128
  | .noteOn _ k _ => k < 128
  | .pitchBend _ b => b < 128
  | .continuation _ => False
  | _ => True

/-- The data bytes of an event. -/
def rawData : Raw → Bytes
  | .chan _ d => d
  | .metaEvent _ d => d
  | .sysex _ d => d

theorem rawData_le {rs rs' : Option UInt8} {raw : Raw} {eb : Bytes} (h : Framed 1 rs raw eb rs') : (rawData raw).length ≤ eb.length := by
  cases h <;> simp [rawData] <;> omega

theorem pow2_mod (e : UInt8) (h : 2 ^ e.toNat % 256 ≠ 0) : ∃ k : Nat, k ≤ 7 ∧ 2 ^ e.toNat % 256 = 2 ^ k := by
  by_cases he : e.toNat ≤ 7
  · refine ⟨e.toNat, he, ?_⟩
    exact Nat.mod_eq_of_lt (Nat.lt_of_le_of_lt (Nat.pow_le_pow_right (by decide) he) (by decide))
  · exfalso
    apply h
    obtain ⟨k, hk⟩ : ∃ k, e.toNat = 8 + k := ⟨e.toNat - 8, by omega⟩
    rw [hk, Nat.pow_add]
    have : (2 ^ 8 : Nat) = 256 := by decide
    rw [this]
    exact Nat.mul_mod_right _ _

macro "metas" h:ident : tactic => `(tactic|
  (split at $h:ident <;> first
    | (cases $h:ident; done)
    | (injection $h with h; subst h)
    | (split at $h:ident <;> first | (cases $h:ident; done) | (injection $h with h; subst h))))

theorem unterminated_length (d : Bytes) : (unterminated d).length ≤ d.length := by
  unfold unterminated
  split <;> simp

/-- Decoded events that are rewritable are faithful. -/
theorem decoded_faithful {pending : Bool} {raw : Raw} {c : Content} (hm : meaning pending raw = some c)
    (hwf : WfRaw raw) (hl : (rawData raw).length + 1 < 2 ^ 28) {b : Body} (hb : b.view = asShown c) (hr : Rewritable b.view) :
    b.Faithful ∧ b.KeyOk ∧ b.InOrder pending ∧ b.pendingNext pending = pendingAfter pending raw := by
  cases raw with
  | chan s d =>
    have hs : s.toNat % 16 ≤ 15 := by omega
    rcases chanMeaning_inv hm with ⟨n, v, hd, h1, h2, rfl⟩ | ⟨n, v, hd, h1, h2, rfl⟩ | ⟨v, hd, h1, h2, rfl⟩ | ⟨k, v, hd, h1, h2, rfl⟩ |
      ⟨n, v, hd, h1, rfl⟩ | ⟨v, hd, h1, rfl⟩ | ⟨v, hd, h1, h2, rfl⟩ | ⟨x, y, hd, h1, rfl⟩
    all_goals
      cases b <;> simp only [Body.view, asShown, Content.noteOff.injEq, Content.noteOn.injEq, Content.polyPressure.injEq,
        Content.controller.injEq, Content.program.injEq, Content.channelPressure.injEq, Content.pitchBend.injEq, reduceCtorEq,
        false_and, and_false] at hb
      all_goals
        simp only [Body.view, Rewritable] at hr
        simp only [Body.Faithful, Body.KeyOk, Body.InOrder, Body.pendingNext, pendingAfter, true_and, and_true]
        omega
  | metaEvent t d =>
    have hin : b.InOrder pending ∧ b.pendingNext pending = pendingAfter pending (.metaEvent t d) ∧ (isChan b.view = false → b.KeyOk) ∧ isChan b.view = false := by
      obtain ⟨k1, k2⟩ := metaMeaning_kind hm
      have : isSysex b.view = false := by rw [hb, isSysex_asShown]; exact k2
      have h' : isChan b.view = false := by rw [hb, isChan_asShown]; exact k1
      refine ⟨?_, ?_, ?_, h'⟩
      · cases b <;> first | trivial | (simp [Body.view, isSysex] at this)
      · cases b <;> first | rfl | (simp [Body.view, isSysex] at this)
      · intro h''; cases b <;> first | trivial | (simp [Body.view, isChan] at h'')
    refine ⟨?_, hin.2.2.1 hin.2.2.2, hin.1, hin.2.1⟩
    clear hin
    simp only [rawData] at hl
    simp only [meaning] at hm
    generalize t.toNat % 128 = ty at hm
    unfold metaMeaning at hm
    by_cases hc : ty = 0x00
    · rw [if_pos hc] at hm; clear hc; try simp only at hm
      metas hm
      cases b <;> simp [Body.view, asShown] at hb
      trivial
    rw [if_neg hc] at hm; clear hc
    by_cases hc : 1 ≤ ty ∧ ty ≤ 9
    · rw [if_pos hc] at hm
      injection hm with hm
      subst hm
      cases b <;> simp [Body.view, asShown] at hb
      rename_i k s
      obtain ⟨h1, h2⟩ := hb
      subst h2
      simp only [Body.view, Rewritable] at hr
      simp only [Body.Faithful]
      split
      · omega
      · rename_i hk
        rcases hr with hr | hr
        · cases k <;> simp [TextKind.type] at hr hk
        · exact hr
    rw [if_neg hc] at hm; clear hc
    by_cases hc : ty = 0x20
    · rw [if_pos hc] at hm; clear hc; try simp only at hm
      metas hm
      cases b <;> simp [Body.view, asShown] at hb
      simp only [Body.Faithful]
      omega
    rw [if_neg hc] at hm; clear hc
    by_cases hc : ty = 0x21
    · rw [if_pos hc] at hm; clear hc; try simp only at hm
      metas hm
      cases b <;> simp [Body.view, asShown] at hb
      simp only [Body.Faithful]
      omega
    rw [if_neg hc] at hm; clear hc
    by_cases hc : ty = 0x2f
    · rw [if_pos hc] at hm; clear hc; try simp only at hm
      injection hm with hm
      subst hm
      cases b <;> simp [Body.view, asShown] at hb
      trivial
    rw [if_neg hc] at hm; clear hc
    by_cases hc : ty = 0x51
    · rw [if_pos hc] at hm; clear hc; try simp only at hm
      metas hm
      rename_i x y z
      have := x.toNat_lt
      have := y.toNat_lt
      have := z.toNat_lt
      cases b <;> simp [Body.view, asShown] at hb
      simp only [Body.Faithful]
      omega
    rw [if_neg hc] at hm; clear hc
    by_cases hc : ty = 0x54
    · rw [if_pos hc] at hm; clear hc; try simp only at hm
      split at hm <;> try (cases hm; done)
      rename_i h' m s f ff
      split at hm
      · rename_i hcond
        injection hm with hm
        subst hm
        cases b <;> simp only [Body.view, asShown, reduceCtorEq, Content.smpteOffset.injEq] at hb
        rename_i bh bm bs br bf bff
        obtain ⟨e1, e2, e3, e4, e5, e6⟩ := hb
        have hrate : br = 24 ∨ br = 25 ∨ br = 29 ∨ br = 30 := by
          have h4 : h'.toNat / 32 % 4 < 4 := by omega
          generalize h'.toNat / 32 % 4 = code at e4 h4
          have : code = 0 ∨ code = 1 ∨ code = 2 ∨ code = 3 := by omega
          rcases this with rfl | rfl | rfl | rfl
          · exact Or.inl (u8_ext (by rw [e4]; rfl))
          · exact Or.inr (Or.inl (u8_ext (by rw [e4]; rfl)))
          · exact Or.inr (Or.inr (Or.inl (u8_ext (by rw [e4]; rfl))))
          · exact Or.inr (Or.inr (Or.inr (u8_ext (by rw [e4]; rfl))))
        simp only [Body.Faithful]
        exact ⟨by omega, by omega, by omega, hrate, by omega, by omega⟩
      · cases hm
    rw [if_neg hc] at hm; clear hc
    by_cases hc : ty = 0x58
    · rw [if_pos hc] at hm; clear hc; try simp only at hm
      split at hm <;> try (cases hm; done)
      injection hm with hm
      subst hm
      cases b <;> simp only [Body.view, asShown, reduceCtorEq, Content.timeSignature.injEq] at hb
      simp only [Body.view, Rewritable] at hr
      simp only [Body.Faithful]
      rw [hb.2.1] at hr ⊢
      exact pow2_mod _ hr
    rw [if_neg hc] at hm; clear hc
    by_cases hc : ty = 0x59
    · rw [if_pos hc] at hm; clear hc; try simp only at hm
      metas hm
      cases b <;> simp only [Body.view, asShown, reduceCtorEq, Content.keySignature.injEq] at hb
      simp only [Body.Faithful]
      omega
    rw [if_neg hc] at hm; clear hc
    by_cases hc : ty = 0x7f
    · rw [if_pos hc] at hm; clear hc; try simp only at hm
      split at hm
      · injection hm with hm
        subst hm
        cases b <;> simp [Body.view, asShown] at hb
        simp only [Body.view, Rewritable] at hr
        simp only [Body.Faithful]
        exact ⟨Or.inr ⟨_, _, hb.1⟩, hr⟩
      · split at hm
        · cases hm
        · rename_i hne
          injection hm with hm
          subst hm
          cases b <;> simp only [Body.view, asShown, reduceCtorEq, Content.sequencerSpecific.injEq] at hb
          simp only [Body.view, Rewritable] at hr
          simp only [Body.Faithful]
          refine ⟨Or.inl ?_, hr⟩
          rw [hb.1]
          split
          · exact ⟨_, rfl, by decide, by decide⟩
          · rename_i h7
            exact ⟨_, rfl, hne, by simpa using h7⟩
      · cases hm
    rw [if_neg hc] at hm; clear hc
    cases hm
  | sysex s d =>
    simp only [rawData] at hl
    simp only [meaning] at hm
    unfold sysexMeaning at hm
    by_cases hs : s = 0xf0
    · rw [if_pos hs] at hm
      split at hm <;> try (cases hm; done)
      rename_i id x d
      split at hm
      · cases hm
      · rename_i hp
        injection hm with hm
        subst hm
        have hul := unterminated_length (x :: d)
        cases b <;> simp only [Body.view, asShown, reduceCtorEq, Content.sysex.injEq] at hb
        rename_i m data single
        obtain ⟨e1, e2, e3⟩ := hb
        simp only [Body.Faithful, Body.KeyOk, Body.InOrder, Body.pendingNext, pendingAfter, if_pos hs, true_and]
        refine ⟨⟨?_, ?_, ?_⟩, by simpa using hp, ?_⟩
        · rw [e1]
          split
          · exact ⟨_, rfl, by decide⟩
          · rename_i h7
            exact ⟨_, rfl, by simpa using h7⟩
        · rw [e2]
          simp only [List.length_cons] at hl hul
          omega
        · intro hsf
          rw [e3] at hsf
          have hne : ¬ (x :: d).getLast? = some 0xf7 := by simpa using hsf
          rw [e2, unterminated, if_neg hne]
          exact ⟨by simp, hne⟩
        · rw [e3, List.getLast?_cons_cons]
          rfl
    · rw [if_neg hs] at hm
      split at hm
      · injection hm with hm
        subst hm
        cases b <;> simp [Body.view, asShown] at hb
        exact absurd hr (by simp [Body.view, Rewritable])
      · rename_i hp
        injection hm with hm
        subst hm
        cases b <;> simp [Body.view, asShown] at hb
        subst hb
        have : pending = false := by simpa using hp
        subst this
        simp only [Body.Faithful, Body.KeyOk, Body.InOrder, Body.pendingNext, pendingAfter, if_neg hs, true_and]
        exact ⟨by omega, by simp⟩

theorem decoded_track_faithful (pending : Bool) (raws : List Raw) (cs : List Content) (bodies : List Body)
    (hm : meanings pending raws = some cs) (hb : bodies.map Body.view = cs.map asShown)
    (hw : ∀ r ∈ raws, WfRaw r ∧ (rawData r).length + 1 < 2 ^ 28) (hr : ∀ b ∈ bodies, Rewritable b.view) :
    (∀ b ∈ bodies, b.Faithful ∧ b.KeyOk) ∧ sysexOrdered pending bodies := by
  induction raws generalizing pending cs bodies with
  | nil =>
    simp [meanings] at hm
    subst hm
    simp at hb
    subst hb
    exact ⟨by simp, trivial⟩
  | cons r raws ih =>
    simp only [meanings] at hm
    split at hm
    · rename_i c cs' h1 h2
      simp at hm
      subst hm
      cases bodies with
      | nil => simp at hb
      | cons b bodies =>
        simp only [List.map_cons, List.cons.injEq] at hb
        obtain ⟨w1, w2⟩ := hw r (by simp)
        obtain ⟨f1, f2, f3, f4⟩ := decoded_faithful h1 w1 w2 hb.1 (hr b (by simp))
        obtain ⟨g1, g2⟩ := ih _ cs' bodies h2 hb.2 (fun r hr => hw r (by simp [hr])) (fun b hb => hr b (by simp [hb]))
        refine ⟨?_, f3, by rw [f4]; exact g2⟩
        intro x hx
        rcases List.mem_cons.1 hx with rfl | hx
        · exact ⟨f1, f2⟩
        · exact g1 x hx
    · cases hm

/-- The events of a file value: for each track, the delta times and field values. -/
def SMF.events (smf : SMF) : List (List (UInt32 × Content)) :=
  smf.tracks.map (fun t => t.events.map (fun e => (e.delta, e.body.view)))

/-- The tracks of a decoded file with rewritable events are faithful. -/
theorem decoded_tracks_faithful (mc : MiddleC) (spare file : Bytes) (smf : SMF) (hd : decode mc spare file = .ok smf)
    (hl : file.length < 2 ^ 28) (he : ∀ t ∈ smf.tracks, ∀ e ∈ t.events, Rewritable e.body.view ∧ e.delta.toNat < 2 ^ 28) :
    ∀ t ∈ smf.tracks, t.Faithful := by
  intro t ht
  obtain ⟨i, ch, hwf, htag, hlen, hu⟩ := decode_track hd ht
  obtain ⟨items, tl, rs', ms, hbody, hft, _, hms, _, hviews, _, _, _⟩ := track_decomposition mc spare _ ch hwf htag t hu
  have htt : t.tag = tagMTrk := ((unmarshalMTrk_ok mc spare _ ch hwf htag t).1 hu).2.1
  have := decoded_track_faithful false (items.map Item.raw) ms (t.events.map Event.body) hms
    (by rw [List.map_map]; exact hviews) (by
      intro r hr
      obtain ⟨it, hit, rfl⟩ := List.mem_map.1 hr
      refine ⟨framedTrack_wf hft it hit, ?_⟩
      obtain ⟨rs, rs1, db, eb, q1, q2, q3⟩ := framedTrack_mem hft it hit
      have h1 := rawData_le q3
      have h2 : it.bytes.length ≤ ch.body.length := by
        obtain ⟨l, r, hlr⟩ := List.append_of_mem hit
        rw [hbody, hlr]
        simp only [trackBytes, List.map_append, List.map_cons, List.flatten_cons, List.flatten_append, List.length_append]
        omega
      rw [q1, List.length_append] at h2
      omega) (by
      intro b hb
      obtain ⟨e, hee, rfl⟩ := List.mem_map.1 hb
      exact (he t ht e hee).1)
  refine ⟨htt, ?_, this.2⟩
  intro e hee
  obtain ⟨a1, a2⟩ := this.1 e.body (List.mem_map.2 ⟨e, hee, rfl⟩)
  exact ⟨a1, a2, (he t ht e hee).2⟩

/-- C28 for files shorter than 2^28 bytes whose events are rewritable and whose delta times are below 2^28: the decoded file is
written, and reading that gives the same header fields and events.  Missing: the other events (`C28_decode_encode_fails`). -/
theorem C28_decode_encode_partial (mc : MiddleC) (spare file : Bytes) (smf : SMF) (hd : decode mc spare file = .ok smf)
    (hl : file.length < 2 ^ 28) (he : ∀ t ∈ smf.tracks, ∀ e ∈ t.events, Rewritable e.body.view ∧ e.delta.toNat < 2 ^ 28) :
    ∃ bs, encode smf = .ok bs ∧ (bs.length < 2 ^ 32 → ∀ mc spare, ∃ smf' m m', decode mc spare bs = .ok smf' ∧
      smf.mthd = some m ∧ smf'.mthd = some m' ∧ m'.SameAs m ∧ smf'.events = smf.events) := by
  obtain ⟨m, h, hm, hs, hv, hn, _⟩ := decode_ok hd
  obtain ⟨bs, hbs, hback⟩ := C24_roundtrip_partial smf m hm h hs hv hn (decoded_tracks_faithful mc spare file smf hd hl he)
  refine ⟨bs, hbs, fun hbl mc spare => ?_⟩
  obtain ⟨smf', m', g1, g2, g3, g4⟩ := hback hbl mc spare
  exact ⟨smf', m, m', g1, hm, g2, g3, g4⟩

/-- Decoding, encoding and decoding again gives something else. -/
def changedByRewriting (mc : MiddleC) (file : Bytes) : Bool :=
  match decode mc [] file with
  | .ok smf =>
    match encode smf with
    | .ok bs =>
      match decode mc [] bs with
      | .ok smf' => smf'.events != smf.events
      | _ => true
    | _ => false
  | _ => false

theorem changed_spec {mc : MiddleC} {file : Bytes} (h : changedByRewriting mc file = true) :
    ∃ smf bs, decode mc [] file = .ok smf ∧ encode smf = .ok bs ∧
      ¬ ∃ smf', decode mc [] bs = .ok smf' ∧ smf'.events = smf.events := by
  unfold changedByRewriting at h
  split at h
  · rename_i smf h1
    split at h
    · rename_i bs h2
      refine ⟨smf, bs, h1, h2, ?_⟩
      rintro ⟨smf', h3, h4⟩
      rw [h3] at h
      simp [h4] at h
    · cases h
  · cases h

/-- C28 is false: a centred pitch bend, a text of 128 bytes, a message completed by a continuation packet and followed by another
message, a sequencer specific event of 130 bytes and two notes with (out of range) number 200 are all changed by decoding and encoding. -/
theorem C28_decode_encode_fails (file : Bytes)
    (hf : file = oneTrack [0, 0xe0, 0x40, 0x00] ∨
      file = oneTrack ([0, 0xff, 0x01, 0x81, 0x00] ++ List.replicate 128 0x61) ∨
      file = oneTrack [0, 0xf0, 2, 0x43, 1, 0, 0xf7, 2, 2, 0xf7, 0, 0xf0, 3, 0x43, 1, 0xf7] ∨
      file = oneTrack ([0, 0xff, 0x7f, 0x81, 0x02, 0x43] ++ List.replicate 129 0x61) ∨
      file = oneTrack [0, 0x90, 0xc8, 0x40, 0, 0x90, 0xc8, 0x40]) (mc : MiddleC) :
    ∃ smf bs, decode mc [] file = .ok smf ∧ encode smf = .ok bs ∧
      ¬ ∃ smf', decode mc [] bs = .ok smf' ∧ smf'.events = smf.events := by
  apply changed_spec
  rcases hf with rfl | rfl | rfl | rfl | rfl <;> cases mc <;> decide +kernel

/-- C28 is also false for time signatures with denominators of 256 and more. -/
theorem C28_denominator_fails : ∃ smf bs, decode .c3 [] (oneTrack [0, 0xff, 0x58, 4, 3, 9, 24, 8]) = .ok smf ∧ encode smf = .ok bs ∧
      ¬ ∃ smf', decode .c3 [] bs = .ok smf' ∧ smf'.events = smf.events :=
  changed_spec (by decide +kernel)

/-! ### Examples -/

/-- A track with the given delta times and events. -/
def mkTrack (es : List (UInt32 × Body)) : MTrk :=
  ⟨tagMTrk, 0, 0, [], es.map (fun e => ⟨0, e.1, [], e.2⟩), newContext⟩

/-- A format 1 file value at 96 pulses per quarter note. -/
def mkFile (ts : List MTrk) : SMF :=
  ⟨some ⟨tagMThd, 6, 1, UInt16.ofNat ts.length, 96, 96, false, 0, 0, false, []⟩, ts⟩

/-- Two tracks: tempo and title; notes with running status, a message in two packets and a controller. -/
def sampleFile : SMF := mkFile [
  mkTrack [(0, .tempo 500000), (0, .text .trackName (str "demo")), (480, .endOfTrack)],
  mkTrack [(0, .noteOn 1 ⟨60, "", ""⟩ 64), (96, .noteOn 1 ⟨60, "", ""⟩ 0), (0, .noteOn 1 ⟨64, "", ""⟩ 64),
    (0, .sysExMessage ⟨[0x43], "", ""⟩ [1, 2] false), (0, .sysExContinuation [3] true), (0, .controller 1 ⟨7, ""⟩ 100),
    (200, .noteOff 1 ⟨64, "", ""⟩ 64), (0, .endOfTrack)]]

theorem sampleFile_faithful : ∀ t ∈ sampleFile.tracks, t.Faithful := by
  intro t ht
  simp only [sampleFile, mkFile, List.mem_cons, List.not_mem_nil, or_false] at ht
  rcases ht with rfl | rfl
  · refine ⟨rfl, ?_, by simp [mkTrack, sysexOrdered, Body.InOrder]⟩
    simp only [mkTrack, List.map_cons, List.map_nil, List.mem_cons, List.not_mem_nil, or_false, forall_eq_or_imp, forall_eq,
      Body.Faithful, Body.KeyOk, and_true, true_and]
    decide +kernel
  · refine ⟨rfl, ?_, by simp [mkTrack, sysexOrdered, Body.InOrder, Body.pendingNext]⟩
    simp only [mkTrack, List.map_cons, List.map_nil, List.mem_cons, List.not_mem_nil, or_false, forall_eq_or_imp, forall_eq,
      Body.Faithful, Body.KeyOk, and_true, true_and]
    refine ⟨by decide, by decide, by decide, ⟨⟨⟨0x43, rfl, by decide⟩, by simp, fun _ => ⟨by simp, by simp⟩⟩, by decide⟩,
      ⟨⟨by simp, by simp⟩, by decide⟩, by decide, by decide, by decide⟩

example : ∃ bs, encode sampleFile = .ok bs ∧ (bs.length < 2 ^ 32 → ∀ mc spare, ∃ smf' m', decode mc spare bs = .ok smf' ∧
    smf'.mthd = some m' ∧ m'.SameAs ⟨tagMThd, 6, 1, 2, 96, 96, false, 0, 0, false, []⟩ ∧
    smf'.tracks.map (fun t => t.events.map (fun e => (e.delta, e.body.view))) =
      sampleFile.tracks.map (fun t => t.events.map (fun e => (e.delta, e.body.view)))) :=
  C24_roundtrip_partial sampleFile _ rfl ⟨1, 2, 96⟩ (by
    refine ⟨rfl, rfl, rfl, rfl, rfl, fun _ => ⟨rfl, rfl, rfl, rfl, rfl⟩, fun h => by simp at h⟩) ⟨by decide, by decide, by decide, Or.inl (by decide)⟩ rfl
    sampleFile_faithful

/-- The second track is written with its second and third note on without status byte. -/
example : ∃ bs, encode sampleFile = .ok bs ∧ (bs.length == 14 + 28 + 43 && bs.drop 50 == [0x00, 0x91, 0x3c, 0x40, 0x60, 0x3c, 0x00, 0x00, 0x91, 0x40, 0x40,
    0x00, 0xf0, 0x03, 0x43, 0x01, 0x02, 0x00, 0xf7, 0x02, 0x03, 0xf7, 0x00, 0xb1, 0x07, 0x64, 0x81, 0x48, 0x81, 0x40, 0x40, 0x00, 0xff, 0x2f, 0x00]) = true :=
  Outcome.of_test (p := fun bs : Bytes => bs.length == 14 + 28 + 43 && bs.drop 50 == _) (by decide +kernel)

/-- C24 is false: a centred pitch bend, with all fields in range, comes back as something else. -/
theorem C24_roundtrip_fails : ∃ bs smf', encode (mkFile [mkTrack [(0, .pitchBend 0 8192), (0, .endOfTrack)]]) = .ok bs ∧
    decode .c3 [] bs = .ok smf' ∧ smf'.events ≠ (mkFile [mkTrack [(0, .pitchBend 0 8192), (0, .endOfTrack)]]).events := by
  obtain ⟨bs, h1, h2⟩ := Outcome.of_test (o := encode (mkFile [mkTrack [(0, .pitchBend 0 8192), (0, .endOfTrack)]]))
    (p := fun bs => (decode .c3 [] bs).test (fun smf' => smf'.events != (mkFile [mkTrack [(0, .pitchBend 0 8192), (0, .endOfTrack)]]).events))
    (by decide +kernel)
  obtain ⟨smf', h3, h4⟩ := Outcome.of_test h2
  exact ⟨bs, smf', h1, h3, by simpa using h4⟩

/-- C26: a count mismatch is an error, a denominator of 200 hangs the encoder. -/
example : ∃ e, encode { sampleFile with tracks := [] } = .err e :=
  (C26_encode_errors _).1.2 (by intro h hh; injection hh with hh; subst hh; decide)
example : encode (mkFile [mkTrack [(0, .timeSignature 4 200 24 8)]]) = .diverge :=
  ((C26_encode_errors _).2.2 _ rfl rfl).2 (by
    intro h
    have := h _ (List.mem_singleton.2 rfl) ⟨0, 0, [], .timeSignature 4 200 24 8⟩ (by simp [mkTrack])
    simp [Body.Writable] at this)

/-- C28: a file whose decoded events are rewritable. -/
example : ∃ smf, decode .c3 [] (oneTrack [0, 0x90, 60, 64, 96, 60, 0, 0, 0xff, 0x2f, 0]) = .ok smf ∧
    ∃ bs, encode smf = .ok bs := by
  obtain ⟨smf, h1, h2⟩ := Outcome.of_test (o := decode .c3 [] (oneTrack [0, 0x90, 60, 64, 96, 60, 0, 0, 0xff, 0x2f, 0]))
    (p := fun smf => smf.tracks.all (fun t => t.events.all (fun e => (match e.body.view with
      | .noteOn _ k _ => decide (k < 128)
      | .endOfTrack => true
      | _ => false) && decide (e.delta.toNat < 2 ^ 28)))) (by decide +kernel)
  obtain ⟨bs, hbs, _⟩ := C28_decode_encode_partial .c3 [] _ smf h1 (by decide) (by
    intro t ht e he
    have := List.all_eq_true.1 (List.all_eq_true.1 h2 t ht) e he
    simp only [Bool.and_eq_true, decide_eq_true_eq] at this
    refine ⟨?_, this.2⟩
    have h3 := this.1
    generalize e.body.view = v at h3
    cases v <;> simp_all [Rewritable])
  exact ⟨smf, h1, bs, hbs⟩

end Midiasm
