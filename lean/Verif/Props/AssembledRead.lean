import Verif.Spec.Recoverable
import Verif.Props.JsonFile
import Verif.Props.Encode
import Verif.Props.FileSays
import Verif.Props.Written

/-!
C151: reading the file that a text or a JSON document is assembled to gives the events that it states.
-/

set_option linter.unusedSimpArgs false

namespace Midiasm
open Spec

/-- The fields of events read from lines or from JSON are in range. -/
def Body.Formed : Body → Prop
  | .midiChannelPrefix ch => ch.toNat ≤ 15
  | .midiPort p => p.toNat ≤ 127
  | .smpteOffset h m s r f ff =>
      h.toNat ≤ 24 ∧ m.toNat ≤ 59 ∧ s.toNat ≤ 59 ∧ r.toNat ∈ [24, 25, 29, 30] ∧ f.toNat < r.toNat ∧ ff.toNat ≤ 100
  | .keySignature a k _ => -7 ≤ a.toInt ∧ a.toInt ≤ 7 ∧ k.toNat ≤ 1
  | .noteOff ch _ _ => ch.toNat ≤ 15
  | .noteOn ch _ v => ch.toNat ≤ 15 ∧ v.toNat ≤ 127
  | .polyphonicPressure ch p => ch.toNat ≤ 15 ∧ p.toNat ≤ 127
  | .controller ch _ _ => ch.toNat ≤ 15
  | .programChange ch _ _ => ch.toNat ≤ 15
  | .channelPressure ch p => ch.toNat ≤ 15 ∧ p.toNat ≤ 127
  | .pitchBend ch _ => ch.toNat ≤ 15
  | _ => True

theorem keyNamed_range {s : Bytes} {a : Int} {m : Bool} (h : KeyNamed s a m) : -7 ≤ a ∧ a ≤ 7 := by
  rcases h with ⟨h1, h2, _⟩ | ⟨rfl, _⟩
  · exact ⟨h1, h2⟩
  · decide

theorem says_formed {table : List (String × Lib.Manufacturer)} {line : Bytes} {delta : UInt32} {b : Body} (h : LineSays table line delta b) : b.Formed := by
  obtain ⟨d, gs, _, _, h⟩ := h
  cases b <;> simp only [Body.Formed] at h ⊢
  case midiChannelPrefix => obtain ⟨_, _, _, h⟩ := h; exact h
  case midiPort => obtain ⟨_, _, _, h⟩ := h; exact h
  case smpteOffset => obtain ⟨_, _, _, _, _, _, _, _, _, _, _, _, _, h⟩ := h; exact h
  case keySignature => obtain ⟨_, _, _, h1, h2, _⟩ := h; exact ⟨(keyNamed_range h1).1, (keyNamed_range h1).2, h2⟩
  case noteOff => obtain ⟨_, _, _, _, _, h, _⟩ := h; exact h
  case noteOn => obtain ⟨_, _, _, _, _, h, _, _, h'⟩ := h; exact ⟨h, h'⟩
  case polyphonicPressure => obtain ⟨_, _, _, _, h, _, h'⟩ := h; exact ⟨h, h'⟩
  case controller => obtain ⟨_, _, _, _, _, h, _⟩ := h; exact h
  case programChange => obtain ⟨_, _, _, _, _, h, _⟩ := h; exact h
  case channelPressure => obtain ⟨_, _, _, _, h, _, h'⟩ := h; exact ⟨h, h'⟩
  case pitchBend => obtain ⟨_, _, _, _, h, _⟩ := h; exact h

theorem channel_small {vs : List Json} {ch : UInt8} (h : LastSays ChannelIs 0 vs ch) : ch.toNat ≤ 15 := by
  obtain ⟨_, ⟨_, v, _, h⟩ | ⟨_, rfl⟩⟩ := h
  · rcases h with ⟨_, rfl⟩ | ⟨_, _, _, h⟩
    · decide
    · omega
  · decide

theorem json_formed {ev : Json} {delta : UInt32} {b : Body} (h : JsonSays ev delta b) : b.Formed := by
  obtain ⟨_, _, h⟩ := h
  cases b <;> simp only [Body.Formed] at h ⊢
  case midiChannelPrefix => exact h.2
  case midiPort => exact h.2
  case smpteOffset => exact h.2.2.2.2.2.2
  case keySignature => exact h.2.2
  case noteOff => exact channel_small h.1
  case noteOn => exact ⟨channel_small h.1, h.2.2.2⟩
  case polyphonicPressure => exact ⟨channel_small h.1, h.2.2⟩
  case controller => exact channel_small h.1
  case programChange => exact channel_small h.1
  case channelPressure => exact ⟨channel_small h.1, h.2.2⟩
  case pitchBend => exact channel_small h.1

theorem endPacket_formed {b : Body} (h : b.Formed) : (endPacket b).Formed := by
  cases b <;> exact h

theorem restored_formed {es es' : List Event} (h : TerminatorsRestored es es') (hr : ∀ e ∈ es, e.body.Formed) : ∀ e ∈ es', e.body.Formed := by
  induction h with
  | last e => exact hr
  | goesOn e n es es' _ _ ih =>
    intro x hx
    rcases List.mem_cons.1 hx with rfl | hx
    · exact hr _ (by simp)
    · exact ih (fun y hy => hr y (by simp [hy])) x hx
  | ends e n es es' _ _ ih =>
    intro x hx
    rcases List.mem_cons.1 hx with rfl | hx
    · exact endPacket_formed (hr e (by simp))
    · exact ih (fun y hy => hr y (by simp [hy])) x hx

theorem formed_faithful {b : Body} (hf : b.Formed) (hk : Recoverable b) : b.Faithful ∧ b.KeyOk := by
  cases b <;> simp only [Body.Formed, Recoverable, Body.Faithful, Body.KeyOk, and_true] at hf hk ⊢
  case text k s =>
    split
    · rcases hk with h | h <;> omega
    · rcases hk with h | h
      · exact h
      · exact absurd h.1 (by assumption)
  case midiChannelPrefix => exact hf
  case midiPort => exact hf
  case tempo => exact hk
  case smpteOffset h m s r f ff =>
    refine ⟨hf.1, hf.2.1, hf.2.2.1, ?_, hf.2.2.2.2⟩
    have := hf.2.2.2.1
    simp only [List.mem_cons, List.not_mem_nil, or_false] at this
    rcases this with h | h | h | h
    · exact Or.inl (UInt8.toNat_inj.1 h)
    · exact Or.inr (Or.inl (UInt8.toNat_inj.1 h))
    · exact Or.inr (Or.inr (Or.inl (UInt8.toNat_inj.1 h)))
    · exact Or.inr (Or.inr (Or.inr (UInt8.toNat_inj.1 h)))
  case timeSignature n d c t =>
    simp only [List.mem_cons, List.not_mem_nil, or_false] at hk
    rcases hk with h | h | h | h | h | h | h | h
    · exact ⟨0, by decide, h⟩
    · exact ⟨1, by decide, h⟩
    · exact ⟨2, by decide, h⟩
    · exact ⟨3, by decide, h⟩
    · exact ⟨4, by decide, h⟩
    · exact ⟨5, by decide, h⟩
    · exact ⟨6, by decide, h⟩
    · exact ⟨7, by decide, h⟩
  case keySignature => exact hf
  case sequencerSpecific => exact hk
  case noteOff => exact ⟨⟨hf, hk.2⟩, hk.1⟩
  case noteOn => exact ⟨hf, hk⟩
  case polyphonicPressure => exact hf
  case controller => exact hf
  case programChange => exact hf
  case channelPressure => exact hf
  case pitchBend => exact ⟨hf, hk⟩
  case sysExMessage => exact hk
  case sysExContinuation => exact hk
  case sysExEscape => exact hk

theorem restored_head {es es' : List Event} (h : TerminatorsRestored es es') : ∀ e, es.head? = some e → ∃ e', es'.head? = some e' ∧
    (PacketGoesOn e'.body ↔ PacketGoesOn e.body) := by
  cases h with
  | last e => intro x hx; exact ⟨x, hx, Iff.rfl⟩
  | goesOn e n es es' => intro x hx; simp only [List.head?_cons, Option.some.injEq] at hx; subst hx; exact ⟨_, rfl, Iff.rfl⟩
  | ends e n es es' =>
    intro x hx
    simp only [List.head?_cons, Option.some.injEq] at hx
    subst hx
    refine ⟨_, rfl, ?_⟩
    cases hb : e.body <;> simp [endPacket, PacketGoesOn, hb]

/-- The packets of a track whose continuations follow what they continue are in order. -/
theorem restored_ordered {es es' : List Event} (h : TerminatorsRestored es es')
    (hc : ∀ (i : Nat) (e n : Event), es'[i]? = some e → es'[i + 1]? = some n → PacketGoesOn n.body → LeftOpen e.body) :
    ∀ p : Bool, (∀ e, es'.head? = some e → (p = true ↔ PacketGoesOn e.body)) → sysexOrdered p (es'.map Event.body) := by
  have inorder : ∀ (p : Bool) (b : Body), (p = true ↔ PacketGoesOn b) → b.InOrder p := by
    intro p b hp
    cases b <;> simp only [Body.InOrder]
    case sysExMessage => cases p; rfl; simp [PacketGoesOn] at hp
    case sysExContinuation => exact hp.2 ⟨_, _, rfl⟩
    case sysExEscape => cases p; rfl; simp [PacketGoesOn] at hp
  induction h with
  | last e =>
    intro p hp
    exact ⟨inorder p _ (hp e rfl), trivial⟩
  | goesOn e n es es' hn hr ih =>
    intro p hp
    have ih := ih fun i a b h1 h2 => hc (i + 1) a b (by simpa using h1) (by simpa using h2)
    obtain ⟨n', h1, h2⟩ := restored_head hr n rfl
    refine ⟨inorder p _ (hp e rfl), ih _ fun x hx => ?_⟩
    rw [h1] at hx
    injection hx with hx
    subst hx
    have hopen := hc 0 e n' rfl (by simpa [List.head?_eq_getElem?] using h1) (h2.2 hn)
    refine ⟨fun _ => h2.2 hn, fun _ => ?_⟩
    rcases hopen with ⟨m, d, hb⟩ | ⟨d, hb⟩ <;> rw [hb] <;> rfl
  | ends e n es es' hn hr ih =>
    intro p hp
    have ih := ih fun i a b h1 h2 => hc (i + 1) a b (by simpa using h1) (by simpa using h2)
    obtain ⟨n', h1, h2⟩ := restored_head hr n rfl
    have hpe := hp _ rfl
    refine ⟨inorder p _ hpe, ih _ fun x hx => ?_⟩
    rw [h1] at hx
    injection hx with hx
    subst hx
    refine ⟨fun hh => ?_, fun hh => absurd (h2.1 hh) hn⟩
    exfalso
    revert hh hpe
    simp only
    cases hb : e.body <;> simp [endPacket, Body.pendingNext, PacketGoesOn]

/-- A track value with these events. -/
def bareTrack (es : List Event) : MTrk := { tag := tagMTrk, trackNumber := 0, length := 0, bytes := [], events := es, context := newContext }

/-- Tracks that are read back. -/
theorem recoverable_faithful (es : List Event) (hf : ∀ e ∈ es, e.body.Formed) (hk : RecoverableTrack es) (ho : sysexOrdered false (es.map Event.body)) :
    (bareTrack es).Faithful := by
  refine ⟨rfl, fun e he => ?_, ho⟩
  obtain ⟨h1, h2⟩ := hk.1 e he
  exact ⟨(formed_faithful (hf e he) h1).1, (formed_faithful (hf e he) h1).2, h2⟩

theorem formed_ranged {b : Body} (h : b.Formed) : b.Ranged := by
  cases b <;> simp only [Body.Formed, Body.Ranged] at h ⊢
  case smpteOffset => exact ⟨h.1, h.2.2.2.1⟩
  case noteOff => exact h
  case noteOn => exact h.1
  case polyphonicPressure => exact h.1
  case controller => exact h
  case programChange => exact h
  case channelPressure => exact h.1
  case pitchBend => exact h

theorem recoverable_writes {b : Body} (hf : b.Formed) (hk : Recoverable b) (hn : ¬ PacketGoesOn b) : b.Writes := by
  cases b <;> simp only [Body.Formed, Recoverable, Body.Writes] at hf hk ⊢
  case smpteOffset =>
    have := (formed_faithful (b := .smpteOffset _ _ _ _ _ _) hf trivial).1
    exact this.2.2.2.1
  case timeSignature n d c q =>
    simp only [List.mem_cons, List.not_mem_nil, or_false] at hk
    exact UInt8.le_iff_toNat_le.2 (show d.toNat ≤ 128 by omega)
  case sysExContinuation => exact absurd ⟨_, _, rfl⟩ hn

/-- Tracks with events in range, terminators restored. -/
def Completed (es : List Event) : Prop := (∀ e ∈ es, e.body.Formed) ∧ ∃ given, TerminatorsRestored given es

theorem restored_track (es : List Event) (h : Completed es) (hk : RecoverableTrack es) : (bareTrack es).Faithful := by
  obtain ⟨h1, given, h2⟩ := h
  exact recoverable_faithful es h1 hk (restored_ordered h2 hk.2.2 false fun e he => ⟨nofun, fun hc => absurd hc (hk.2.1 e he)⟩)

/-- The events as they are stated. -/
def stated (ts : List (List Event)) : List (List (Nat × Content)) := ts.map fun es => es.map fun e => (e.delta.toNat, e.body.view)

/-- The file written for these tracks, and what it stands for. -/
theorem written_back (h : Header) (hv : h.Valid) (ts : List (List Event)) (hn : h.tracks = ts.length) (hr : ∀ es ∈ ts, Completed es)
    (hk : ∀ es ∈ ts, RecoverableTrack es) :
    ∃ chunks : List Bytes, List.Forall₂ TrackChunk ts chunks ∧ ((h.chunk.bytes ++ chunks.flatten).length < 2 ^ 32 →
      ∀ mc : MiddleC, ∃ ts', FileSays (octaveOffset mc) (h.chunk.bytes ++ chunks.flatten) h ts' ∧ contentsOf id ts' = stated ts) ∧
      ((∀ es ∈ ts, ∀ e ∈ es, ¬ PacketGoesOn e.body) → h.chunk.bytes ++ chunks.flatten = writtenFile h (stated ts)) := by
  obtain ⟨m, _, hs, _⟩ := unmarshalMThd_valid h hv
  have hmap : (ts.map bareTrack).map MTrk.events = ts := by simp [Function.comp_def, bareTrack]
  have hmem : ∀ t ∈ ts.map bareTrack, ∃ es ∈ ts, t = bareTrack es := fun t ht => by
    obtain ⟨es, h1, rfl⟩ := List.mem_map.1 ht
    exact ⟨es, h1, rfl⟩
  obtain ⟨bs, hbs, hback⟩ := C24_roundtrip_partial ⟨some m, ts.map bareTrack⟩ m rfl h hs hv (by simpa using hn) (by
    intro t ht
    obtain ⟨es, h1, rfl⟩ := hmem t ht
    exact restored_track es (hr es h1) (hk es h1))
  obtain ⟨_, chunks, hc, hb⟩ := (C136_encoded_file ⟨some m, ts.map bareTrack⟩ m h rfl hs (by
    intro t ht
    obtain ⟨es, h1, rfl⟩ := hmem t ht
    rw [str_MTrk]; rfl) (by
    intro t ht e he
    obtain ⟨es, h1, rfl⟩ := hmem t ht
    exact formed_ranged ((hr es h1).1 e he)) bs).1 hbs
  simp only [hmap] at hc
  refine ⟨chunks, hc, fun hlen mc => ?_, fun hno => ?_⟩
  case refine_2 =>
    have := file_written ⟨some m, ts.map bareTrack⟩ m h rfl hs (by simpa using hn) (by
      intro t ht
      obtain ⟨es, h1, rfl⟩ := hmem t ht
      rw [str_MTrk]; rfl) (by
      intro t ht e he
      obtain ⟨es, h1, rfl⟩ := hmem t ht
      exact ⟨formed_ranged ((hr es h1).1 e he), recoverable_writes ((hr es h1).1 e he) ((hk es h1).1 e he).1 (hno es h1 e he)⟩)
    rw [hbs] at this
    injection this with this
    rw [← hb, this]
    simp [SMF.fields, stated, bareTrack, Function.comp_def]
  rw [← hb] at hlen ⊢
  obtain ⟨smf', m', g1, g2, g3, g4⟩ := hback hlen mc []
  obtain ⟨h', ts', k1, k2⟩ := C143_total mc [] _ smf' g1
  have e1 : h' = h := by
    obtain ⟨⟨x, x1, x2, _⟩, _⟩ := k2
    have ex : x = m' := Option.some.inj (x1.symm.trans g2)
    subst ex
    obtain ⟨a1, a2, a3, a4, a5, a6, a7, a8, a9, a10⟩ := g3
    refine shows_unique x2 ?_
    unfold MThd.Shows at *
    rw [a1, a2, a3, a4, a5, a6, a7, a8, a9, a10]
    exact hs
  subst e1
  refine ⟨ts', k1, ?_⟩
  rw [← shown_fields k2]
  have := congrArg (List.map (List.map fun e : UInt32 × Content => (e.1.toNat, e.2))) g4
  simpa [SMF.fields, stated, bareTrack, Function.comp_def] using this

/-! ### Texts -/

theorem holds_formed {table : List (String × Lib.Manufacturer)} {ls : List Bytes} {es : List Event} (h : TrackHolds table ls es) : ∀ e ∈ es, e.body.Formed := by
  induction h with
  | nil => simp
  | skip l ls es _ _ ih => exact ih
  | event l ls e es _ h1 _ ih =>
    intro x hx
    rcases List.mem_cons.1 hx with rfl | hx
    · exact says_formed h1.2.1
    · exact ih x hx

theorem stands_restored {table : List (String × Lib.Manufacturer)} {secs : List (List Bytes)} {h : Option Header} {ts : List (List Event)}
    (hs : Stands table secs h ts) : (∀ es ∈ ts, Completed es) ∧ ∀ x, h = some x → x.Valid := by
  induction hs with
  | nil => exact ⟨by simp, nofun⟩
  | comment ss h ts l t _ _ ih => exact ih
  | header ss h ts l t f d _ _ _ hl ih =>
    refine ⟨ih.1, fun x hx => ?_⟩
    injection hx with hx
    subst hx
    exact hl.2.2
  | track ss h ts l t es es' _ _ _ _ h1 h2 ih =>
    refine ⟨fun x hx => ?_, fun x hx => ?_⟩
    · rcases List.mem_append.1 hx with hx | hx
      · exact ih.1 x hx
      · rw [List.mem_singleton.1 hx]
        exact ⟨restored_formed h2 (holds_formed h1), es, h2⟩
    · injection hx with hx
      subst hx
      obtain ⟨a, _, c, d⟩ := ih.2 h rfl
      exact ⟨a, Nat.mod_lt _ (by decide), c, d⟩

/-- **C151.** A text whose events are recoverable is assembled to a file that stands for its header and exactly the events that it states. -/
theorem C151_text (table : List (String × Lib.Manufacturer)) (text : Bytes) (hshort : ShortLines text) (lines : List Bytes) (secs : List (List Bytes))
    (h : Header) (ts : List (List Event)) (h1 : Lines text lines) (h2 : Chunked lines secs) (h3 : Stands table secs (some h) ts)
    (hn : h.tracks = ts.length) (hk : ∀ es ∈ ts, RecoverableTrack es) :
    ∃ b, assembleText table text = .ok b ∧ (b.length < 2 ^ 32 →
      ∀ mc : MiddleC, ∃ ts', FileSays (octaveOffset mc) b h ts' ∧ contentsOf id ts' = stated ts) ∧
      ((∀ es ∈ ts, ∀ e ∈ es, ¬ PacketGoesOn e.body) → b = writtenFile h (stated ts)) := by
  obtain ⟨k1, k2⟩ := stands_restored h3
  obtain ⟨chunks, c1, c2⟩ := written_back h (k2 h rfl) ts hn k1 hk
  exact ⟨_, (C135_assembled_file table text _).2 ⟨hshort, lines, secs, h, ts, chunks, h1, h2, h3, hn, c1, rfl⟩, c2⟩

/-! ### JSON -/

theorem document_restored {j : Json} {f d : Nat} {ts : List (List Event)} (hs : DocumentSays j f d ts) : ∀ es ∈ ts, Completed es := by
  obtain ⟨_, _, h⟩ := hs
  intro es hes
  obtain ⟨t, _, ht⟩ : ∃ t ∈ tracksOf j, TrackSays t es := by
    revert hes
    generalize tracksOf j = l at h ⊢
    induction h with
    | nil => simp
    | cons h1 _ ih =>
      intro hes
      rcases List.mem_cons.1 hes with rfl | hes
      · exact ⟨_, by simp, h1⟩
      · obtain ⟨t, a, b⟩ := ih hes
        exact ⟨t, by simp [a], b⟩
  obtain ⟨_, _, l, given, hl, h1, h2⟩ := ht
  refine ⟨restored_formed h2 ?_, given, h2⟩
  intro e he
  clear h2 hl
  induction h1 with
  | nil => simp at he
  | cons a _ ih =>
    rcases List.mem_cons.1 he with rfl | he
    · obtain ⟨_, _, _, a⟩ := a
      exact json_formed a
    · exact ih he

/-- **C151.** A JSON document whose events are recoverable is assembled to a file that stands for its header and exactly the events that it states. -/
theorem C151_json (mc : MiddleC) (a s rest : Bytes) (j : Json) (ha : Space a) (hs : JsonText CharsRead j s) (hd : nesting j ≤ 10000)
    (f d : Nat) (ts : List (List Event)) (hj : DocumentSays j f d ts) (hn : ts.length < 65536) (hk : ∀ es ∈ ts, RecoverableTrack es) :
    ∃ b, assembleJsonText mc (a ++ s ++ rest) = .ok b ∧ (b.length < 2 ^ 32 →
      ∀ mc : MiddleC, ∃ ts', FileSays (octaveOffset mc) b ⟨f, ts.length, d⟩ ts' ∧ contentsOf id ts' = stated ts) ∧
      ((∀ es ∈ ts, ∀ e ∈ es, ¬ PacketGoesOn e.body) → b = writtenFile ⟨f, ts.length, d⟩ (stated ts)) := by
  obtain ⟨v1, _, v3⟩ := hj.1.2.2.2.2
  obtain ⟨chunks, c1, c2⟩ := written_back ⟨f, ts.length, d⟩ ⟨v1, hn, v3⟩ ts rfl (document_restored hj) hk
  exact ⟨_, (C138_json_text mc _ _).2 ⟨a, s, rest, j, rfl, ha, hs, hd, f, d, ts, chunks, hj, hn, c1, rfl⟩, c2⟩

/-! ### Assembled files are final -/

/-- A file that stands for the events it was written for, without packets that continue a message, is read and written without change. -/
theorem final_file (h : Header) (ts : List (List Event)) (b : Bytes) (hb : b = writtenFile h (stated ts)) (mc : MiddleC) (spare : Bytes)
    (hf : ∃ ts', FileSays (octaveOffset mc) b h ts' ∧ contentsOf id ts' = stated ts) : ∃ smf, decode mc spare b = .ok smf ∧ encode smf = .ok b := by
  obtain ⟨ts', h1, h2⟩ := hf
  obtain ⟨smf, d1, d2⟩ := C146_rewritten mc spare b h ts' h1
  exact ⟨smf, d1, by rw [d2, h2, ← hb]⟩

/-- **C151.** The file assembled from a text without such packets is read and written without change. -/
theorem C151_text_final (table : List (String × Lib.Manufacturer)) (text : Bytes) (hshort : ShortLines text) (lines : List Bytes) (secs : List (List Bytes))
    (h : Header) (ts : List (List Event)) (h1 : Lines text lines) (h2 : Chunked lines secs) (h3 : Stands table secs (some h) ts)
    (hn : h.tracks = ts.length) (hk : ∀ es ∈ ts, RecoverableTrack es) (hp : ∀ es ∈ ts, ∀ e ∈ es, ¬ PacketGoesOn e.body) (b : Bytes)
    (hb : assembleText table text = .ok b) (hlen : b.length < 2 ^ 32) (mc : MiddleC) (spare : Bytes) : ∃ smf, decode mc spare b = .ok smf ∧ encode smf = .ok b := by
  obtain ⟨b', k1, k2, k3⟩ := C151_text table text hshort lines secs h ts h1 h2 h3 hn hk
  rw [hb] at k1
  injection k1 with k1
  subst k1
  exact final_file h ts b (k3 hp) mc spare (k2 hlen mc)

/-- **C151.** The same for JSON. -/
theorem C151_json_final (mc : MiddleC) (a s rest : Bytes) (j : Json) (ha : Space a) (hs : JsonText CharsRead j s) (hd : nesting j ≤ 10000)
    (f d : Nat) (ts : List (List Event)) (hj : DocumentSays j f d ts) (hn : ts.length < 65536) (hk : ∀ es ∈ ts, RecoverableTrack es)
    (hp : ∀ es ∈ ts, ∀ e ∈ es, ¬ PacketGoesOn e.body) (b : Bytes) (hb : assembleJsonText mc (a ++ s ++ rest) = .ok b) (hlen : b.length < 2 ^ 32)
    (mc' : MiddleC) (spare : Bytes) : ∃ smf, decode mc' spare b = .ok smf ∧ encode smf = .ok b := by
  obtain ⟨b', k1, k2, k3⟩ := C151_json mc a s rest j ha hs hd f d ts hj hn hk
  rw [hb] at k1
  injection k1 with k1
  subst k1
  exact final_file _ ts b (k3 hp) mc' spare (k2 hlen mc')

/-! ### Example -/

/-- A note, a message in two packets and the end of the track. -/
def twoPackets : Bytes :=
  str "MThd format:0 metrical-time:96 ppqn\nMTrk\ndelta:200 NoteOn channel:1 note:C4, velocity:64\ndelta:0 SysExMessage Roland, 10 42\ndelta:7 SysExContinuation 41 42\ndelta:0 EndOfTrack\n"

/-- The events that it states. -/
def twoPacketsEvents : List Event :=
  [⟨0, 200, [], .noteOn 1 ⟨60, "C4", "C4"⟩ 64⟩, ⟨0, 0, [], .sysExMessage ⟨[0x41], "Japanese", "Roland"⟩ [0x10, 0x42] false⟩,
    ⟨0, 7, [], .sysExContinuation [0x41, 0x42] true⟩, ⟨0, 0, [], .endOfTrack⟩]

/-- C151: a text that meets the hypotheses; the second packet has got its terminator. -/
example : ∃ lines secs, ShortLines twoPackets ∧ Lines twoPackets lines ∧ Chunked lines secs ∧
    Stands Lib.manufacturers secs (some ⟨0, 1, 96⟩) [twoPacketsEvents] ∧ RecoverableTrack twoPacketsEvents := by
  obtain ⟨smf, h1, h2⟩ := Outcome.of_test (o := readChunks twoPackets >>= fun cs => assembleChunks Lib.manufacturers cs ⟨none, []⟩)
    (p := fun smf => decide (smf.tracks.map MTrk.events = [twoPacketsEvents]) && (match smf.mthd with
      | some m => decide (m.format = 0) && decide (m.tracks = 1) && decide (m.division = 96)
      | none => false)) (by decide +kernel)
  have hshort : ShortLines twoPackets := by
    have := scanAux_long twoPackets [] (by decide +kernel)
    rwa [List.nil_append] at this
  obtain ⟨lines, secs, hl, hc, hr⟩ := (C105_long_lines Lib.manufacturers twoPackets).2 hshort
  rw [hr, Outcome.bind_ok] at h1
  obtain ⟨hd, ts, k1, ⟨k2, k3⟩, _⟩ := means_of_sections Lib.manufacturers secs hc.split smf h1
  simp only [Bool.and_eq_true, decide_eq_true_eq] at h2
  rw [h2.1] at k3
  subst k3
  refine ⟨lines, secs, hshort, hl, hc, ?_, ?_⟩
  · cases hd with
    | none => cases hm : smf.mthd <;> rw [hm] at k2 h2 <;> simp at k2 h2
    | some h =>
      cases hm : smf.mthd with
      | none => rw [hm] at k2; exact k2.elim
      | some m =>
        rw [hm] at k2 h2
        simp only [Bool.and_eq_true, decide_eq_true_eq] at h2
        obtain ⟨⟨_, _, a1, a2, a3⟩, b1, b2, b3⟩ := k2
        obtain ⟨_, ⟨c1, c2⟩, c3⟩ := h2
        obtain ⟨f, t, d⟩ := h
        rw [c1] at a1
        rw [c2] at a2
        rw [c3] at a3
        have a1 := congrArg UInt16.toNat a1
        have a2 := congrArg UInt16.toNat a2
        have a3 := congrArg UInt16.toNat a3
        simp only [UInt16.toNat_ofNat'] at a1 a2 a3
        have e1 : (0 : UInt16).toNat = 0 := rfl
        have e2 : (1 : UInt16).toNat = 1 := rfl
        have e3 : (96 : UInt16).toNat = 96 := rfl
        have : f = 0 ∧ t = 1 ∧ d = 96 := by simp only at b1 b2 b3; omega
        obtain ⟨rfl, rfl, rfl⟩ := this
        exact (means_stands Lib.manufacturers secs _ _).1 k1
  · refine ⟨?_, ?_, ?_⟩
    · simp only [twoPacketsEvents, List.forall_mem_cons, List.not_mem_nil, false_implies, implies_true, and_true]
      exact ⟨⟨(by decide : 60 ≤ 127), by decide⟩, ⟨⟨⟨0x41, rfl, by decide⟩, by decide, fun _ => by decide⟩, by decide⟩, ⟨⟨by decide, nofun⟩, by decide⟩, trivial, by decide⟩
    · intro e he hc
      cases he
      obtain ⟨_, _, hc⟩ := hc
      cases hc
    · intro i e n h1 h2 h3
      obtain ⟨_, _, h3⟩ := h3
      match i, h1, h2 with
      | 0, h1, h2 => cases h2; cases h3
      | 1, h1, h2 => cases h1; exact Or.inl ⟨_, _, rfl⟩
      | 2, h1, h2 => cases h2; cases h3
      | 3, h1, h2 => cases h2
      | i + 4, h1, h2 => cases h1

/-- A document with a pitch bend and the end of the track. -/
def bendDocument : Json :=
  jobj [("header", jobj [("tag", .str (runes (str "MThd"))), ("format", .num (str "0")), ("PPQN", .num (str "96"))]),
    ("tracks", .arr [jobj [("tag", .str (runes (str "MTrk"))), ("events", .arr [
      jobj [("event", jobj [("tag", .str (runes (str "PitchBend"))), ("delta", .num (str "7")), ("channel", .num (str "3")), ("bend", .num (str "100"))])],
      jobj [("event", jobj [("tag", .str (runes (str "EndOfTrack")))])]])]])]

/-- The events that it states. -/
def bendEvents : List Event := [⟨0, 7, [], .pitchBend 3 100⟩, ⟨0, 0, [], .endOfTrack⟩]

/-- C151: a document that meets the hypotheses. -/
theorem bend_says : DocumentSays bendDocument 0 96 [bendEvents] ∧ RecoverableTrack bendEvents := by
  have single : ∀ {α : Type} (kind : Json → α → Prop) (zero : α) (v : Json) (a : α), kind v a → MembersSay kind zero [v] a := by
    intro α kind zero v a h
    exact ⟨fun w hw => by rw [List.mem_singleton.1 hw]; exact Or.inr ⟨a, h⟩, Or.inl ⟨[], v, [], rfl, h, by simp⟩⟩
  have numeral : ∀ s n bound, Numeral s n → n < bound → NumberBelow bound (.num s) n := fun s n bound h hb => ⟨s, rfl, h, hb⟩
  have last : ∀ {α : Type} (kind : Json → α → Prop) (v : Json) (a : α), kind v a → LastIs kind [v] a := by
    intro α kind v a h
    exact ⟨fun w hw => by rw [List.mem_singleton.1 hw]; exact Or.inr ⟨a, h⟩, [], v, rfl, h⟩
  have d0 : Numeral (str "0") 0 := by unfold Numeral; decide +kernel
  have d96 : Numeral (str "96") 96 := by unfold Numeral; decide +kernel
  have d7 : Numeral (str "7") 7 := by unfold Numeral; decide +kernel
  have d3 : Numeral (str "3") 3 := by unfold Numeral; decide +kernel
  have d100 : Numeral (str "100") 100 := by unfold Numeral; decide +kernel
  refine ⟨⟨⟨?_, ?_, ?_, ?_, ⟨by decide, by decide, by decide, Or.inl (by decide)⟩⟩, ?_, ?_⟩, ?_, ?_, ?_⟩
  · intro v hv
    have e : valuesOf "header" bendDocument = [jobj [("tag", .str (runes (str "MThd"))), ("format", .num (str "0")), ("PPQN", .num (str "96"))]] := by rfl
    rw [e] at hv
    rw [List.mem_singleton.1 hv]
    exact Or.inr ⟨_, rfl⟩
  · exact last StringIs (.str (runes (str "MThd"))) _ ⟨_, rfl, by decide +kernel⟩
  · exact last (NumberBelow 65536) (.num (str "0")) 0 (numeral _ _ _ d0 (by decide))
  · exact last (NumberBelow 65536) (.num (str "96")) 96 (numeral _ _ _ d96 (by decide))
  · intro v hv
    have e : valuesOf "tracks" bendDocument = [.arr (tracksOf bendDocument)] := by rfl
    rw [e] at hv
    rw [List.mem_singleton.1 hv]
    refine Or.inr ⟨_, rfl, fun t ht => ?_⟩
    have e' : ∃ t, tracksOf bendDocument = [t] ∧ ObjectLike t ∧ valuesOf "tag" t = [.str (runes (str "MTrk"))] ∧ valuesOf "tracknumber" t = [] ∧
      ∃ l, valuesOf "events" t = [.arr l] := ⟨_, rfl, Or.inr ⟨_, rfl⟩, rfl, rfl, _, rfl⟩
    obtain ⟨t', e1, e2, e3, e4, l, e5⟩ := e'
    rw [e1] at ht
    rw [List.mem_singleton.1 ht]
    refine ⟨e2, ?_, by rw [e4]; simp, by rw [e5]; simp⟩
    intro v hv
    rw [e3] at hv
    rw [List.mem_singleton.1 hv]
    exact Or.inr ⟨_, _, rfl, rfl⟩
  · refine .cons ⟨⟨[], _, rfl, _, rfl, by decide +kernel⟩, [], _, bendEvents, rfl, .cons ?_ (.cons ?_ .nil), ?_⟩ .nil
    · refine ⟨[], _, rfl, single StringIs _ (.str (runes (str "PitchBend"))) _ ⟨_, rfl, by decide +kernel⟩,
        single (NumberBelow _) _ (.num (str "7")) 7 (numeral _ _ _ d7 (by decide)), ?_, single (NumberBelow _) _ (.num (str "100")) 100 (numeral _ _ _ d100 (by decide))⟩
      have hc : ChannelIs (.num (str "3")) 3 := Or.inr (numeral _ _ _ d3 (by decide))
      refine ⟨fun w hw => ?_, Or.inl ⟨[], .num (str "3"), rfl, hc⟩⟩
      have e : w ∈ [Json.num (str "3")] := hw
      rw [List.mem_singleton.1 e]
      exact ⟨_, hc⟩
    · exact ⟨[], _, rfl, single StringIs _ (.str (runes (str "EndOfTrack"))) _ ⟨_, rfl, by decide +kernel⟩, ⟨by intro v hv; exact absurd hv (List.not_mem_nil), Or.inr ⟨by intro v hv; exact absurd hv (List.not_mem_nil), rfl⟩⟩, trivial⟩
    · exact .ends _ _ _ _ (by rintro ⟨_, _, h⟩; cases h) (.last _)
  · simp only [bendEvents, List.forall_mem_cons, List.not_mem_nil, false_implies, implies_true, and_true]
    exact ⟨⟨(by decide : 100 < 128), by decide⟩, trivial, by decide⟩
  · intro e he hc
    cases he
    obtain ⟨_, _, hc⟩ := hc
    cases hc
  · intro i e n h1 h2 h3
    obtain ⟨_, _, h3⟩ := h3
    match i, h1, h2 with
    | 0, h1, h2 => cases h2; cases h3
    | 1, h1, h2 => cases h2
    | i + 2, h1, h2 => cases h1

end Midiasm
