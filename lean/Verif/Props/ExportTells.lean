import Verif.Spec.Legible
import Verif.Props.Export
import Verif.Props.Written

/-!
C154: an export tells the file.
-/

set_option linter.unusedSimpArgs false

namespace Midiasm
open Spec

/-! ### Characters -/

theorem readsAs_exists (s : Bytes) : ∃ cs, ReadsAs s cs ∧ runes s = cs.map (fun c => c.val.toNat) := by
  have : ∀ n (s : Bytes), s.length ≤ n → ∃ cs, ReadsAs s cs ∧ runes s = cs.map (fun c => c.val.toNat) := by
    intro n
    induction n with
    | zero =>
      intro s hs
      have : s = [] := List.eq_nil_of_length_eq_zero (by omega)
      subst this
      exact ⟨[], .done, rfl⟩
    | succ n ih =>
      intro s hs
      cases s with
      | nil => exact ⟨[], .done, rfl⟩
      | cons b rest =>
        have hl := drop_decode_length b rest
        obtain ⟨t, h1, h2⟩ := ih (rest.drop (decodeRune b rest).2) (by simp at hs; simp at hl ⊢; omega)
        rw [runes_cons]
        rcases decodeRune_valid b rest with ⟨hd, hge⟩ | ⟨u, hu, he⟩
        · refine ⟨'�' :: t, .bad b rest t ?_ ?_, ?_⟩
          · rintro c ⟨v, hv⟩
            obtain ⟨b', rest', e1, e2⟩ := decode_encode c.val.toNat (char_scalar c) v
            rw [encodeRune_char] at e1
            rw [e1, List.cons_append] at hv
            injection hv with hv1 hv2
            subst hv1 hv2
            rw [hd] at e2
            injection e2 with e2 e3
            have hnil : rest' = [] := List.eq_nil_of_length_eq_zero e3.symm
            rw [← encodeRune_char, ← e2, hnil] at e1
            revert e1
            have : (encodeRune runeError).length = 3 := by decide
            intro e1
            rw [e1] at this
            cases this
          · rw [hd] at h1; exact h1
          · rw [h2, hd]
            rfl
        · obtain ⟨c, hc⟩ := exists_char (decodeRune_scalar b rest)
          have hcons : b :: rest = String.utf8EncodeChar c ++ rest.drop (decodeRune b rest).2 := by
            rw [← encodeRune_char, hc, ← he, List.cons_append, ← hu]
          refine ⟨c :: t, hcons ▸ .char c _ t h1, ?_⟩
          rw [h2, List.map_cons, hc]
  exact this s.length s (Nat.le_refl _)

theorem chars_inj {cs cs' : List Char} (h : cs.map (fun c => c.val.toNat) = cs'.map (fun c => c.val.toNat)) : cs = cs' := by
  induction cs generalizing cs' with
  | nil => cases cs' with
    | nil => rfl
    | cons => cases h
  | cons c cs ih => cases cs' with
    | nil => cases h
    | cons c' cs' =>
      simp only [List.map_cons, List.cons.injEq] at h
      rw [ih h.2, Char.ext (UInt32.toNat_inj.1 h.1)]

theorem readsAs_runes {s : Bytes} {cs : List Char} (h : ReadsAs s cs) : runes s = cs.map (fun c => c.val.toNat) := by
  induction h with
  | done => rfl
  | char c s cs _ ih => rw [← encodeRune_char, runes_encode_append _ (char_scalar c), ih]; rfl
  | bad b s cs hb _ ih =>
    rw [runes_cons]
    rcases decodeRune_valid b s with ⟨hd, _⟩ | ⟨u, hu, he⟩
    · rw [hd]
      simp only [List.drop_zero, ih]
      rfl
    · obtain ⟨c, hc⟩ := exists_char (decodeRune_scalar b s)
      refine absurd ?_ (hb c)
      rw [← encodeRune_char, hc, ← he]
      exact ⟨s.drop (decodeRune b s).2, by rw [List.cons_append, ← hu]⟩

/-- Texts that read the same and are UTF-8 are the same. -/
theorem readsAs_legible {s s' : Bytes} {cs : List Char} (h : ReadsAs s cs) (h' : ReadsAs s' cs) (ht : ∃ cs : List Char, s = cs.flatMap String.utf8EncodeChar)
    (ht' : ∃ cs : List Char, s' = cs.flatMap String.utf8EncodeChar) : s = s' := by
  obtain ⟨a, rfl⟩ := ht
  obtain ⟨b, rfl⟩ := ht'
  have e1 := readsAs_runes h
  have e2 := readsAs_runes h'
  rw [runes_chars] at e1 e2
  rw [chars_inj (e1.trans e2.symm)]

/-! ### Values -/

theorem jnum_inj {a b : Nat} (h : jnum a = jnum b) : a = b := by
  unfold jnum at h
  injection h with h
  exact dec_injective h

theorem jint_inj {a b : Int} (h : jint a = jint b) : a = b := by
  unfold jint at h
  injection h with h
  have hd : ∀ n m : Nat, ¬ 45 :: dec n = dec m := by
    intro n m e
    have : (45 : UInt8) ∈ dec m := by rw [← e]; simp
    have := (dec_digits m _ this).1
    revert this
    decide
  split at h <;> split at h
  · injection h with _ h
    have := dec_injective h
    omega
  · exact absurd h (hd _ _)
  · exact absurd h.symm (hd _ _)
  · have := dec_injective h
    omega

theorem jstr_inj {a b : String} (h : jstr (str a) = jstr (str b)) : a = b := by
  unfold jstr at h
  injection h with h
  rw [str, str, runes_chars, runes_chars] at h
  exact String.toList_inj.1 (chars_inj h)

theorem numbers_inj {a b : Bytes} (h : a.map (fun b => jnum b.toNat) = b.map (fun b => jnum b.toNat)) : a = b := by
  induction a generalizing b with
  | nil => cases b with
    | nil => rfl
    | cons => cases h
  | cons x a ih => cases b with
    | nil => cases h
    | cons y b =>
      simp only [List.map_cons, List.cons.injEq] at h
      rw [ih h.2, UInt8.toNat_inj.1 (jnum_inj h.1)]

theorem hexToJson_inj {a b : Bytes} (h : hexToJson a = hexToJson b) : a = b := by
  unfold hexToJson at h
  injection h with h
  exact numbers_inj h

/-- The values of the members. -/
theorem jobj_values {a b : List (String × Json)} (h : jobj a = jobj b) : a.map Prod.snd = b.map Prod.snd := by
  unfold jobj at h
  injection h with h
  have := congrArg (List.map Prod.snd) h
  simpa [List.map_map, Function.comp_def] using this

/-! ### Events -/

theorem maker_inj {m m' : Lib.Manufacturer} (h : manufacturerToJson m = manufacturerToJson m') : m.id = m'.id := by
  have := jobj_values h
  simp only [List.map_cons, List.map_nil, List.cons.injEq, Json.arr.injEq] at this
  exact numbers_inj this.1

theorem note_inj {n n' : NoteVal} (h : noteToJson n = noteToJson n') : n.value = n'.value := by
  have := jobj_values h
  simp only [List.map_cons, List.map_nil, List.cons.injEq] at this
  exact UInt8.toNat_inj.1 (jnum_inj this.1)

theorem controller_inj {c c' : Lib.Controller} (h : controllerToJson c = controllerToJson c') : c.id = c'.id := by
  have := jobj_values h
  simp only [List.map_cons, List.map_nil, List.cons.injEq] at this
  exact UInt8.toNat_inj.1 (jnum_inj this.1)

theorem kind_inj (k k' : TextKind) (h : k.tag = k'.tag) : k = k' := by
  revert h
  cases k <;> cases k' <;> decide

/-- The values of the members after `tag`, `delta`, `status` and `type`. -/
abbrev Body.values (b : Body) : List Json := (b.membersWith runeError).map Prod.snd

theorem only_text (k : TextKind) {s : Bytes} {b : Body} (h : k.tag = b.tag) (hb : ∀ k' s', b ≠ .text k' s') : b = .text k s := by
  exfalso
  cases b with
  | text k' s' => exact hb k' s' rfl
  | _ => simp only [Body.tag] at h; cases k <;> exact absurd h (by decide)

theorem values_tell (b b' : Body) (ht : b.tag = b'.tag) (hv : b.values = b'.values) : SameShown b.view b'.view := by
  by_cases hb : ∃ k s, b = .text k s
  · obtain ⟨k, s, rfl⟩ := hb
    by_cases hb' : ∃ k s, b' = .text k s
    · obtain ⟨k', s', rfl⟩ := hb'
      obtain rfl := kind_inj k k' ht
      simp only [Body.values, Body.membersWith, List.map_cons, List.map_nil, List.cons.injEq, and_true, jstrWith_error, jstr, Json.str.injEq] at hv
      obtain ⟨cs, h1, h2⟩ := readsAs_exists s
      obtain ⟨cs', h3, h4⟩ := readsAs_exists s'
      rw [h2, h4] at hv
      obtain rfl := chars_inj hv
      exact .text _ _ _ _ h1 h3
    · exact absurd ⟨k, s, only_text k ht fun k' s' e => hb' ⟨k', s', e⟩⟩ hb'
  · by_cases hb' : ∃ k s, b' = .text k s
    · obtain ⟨k, s, rfl⟩ := hb'
      exact absurd ⟨k, s, only_text k ht.symm fun k' s' e => hb ⟨k', s', e⟩⟩ hb
    · have key : b.view = b'.view := by
        cases b <;> cases b'
        all_goals first
          | (simp only [Body.tag] at ht; exact absurd ht (by decide))
          | exact absurd ⟨_, _, rfl⟩ hb
          | exact absurd ⟨_, _, rfl⟩ hb'
          | skip
        all_goals simp only [Body.values, Body.membersWith, List.map_cons, List.map_nil, List.cons.injEq, and_true, Json.bool.injEq] at hv
        all_goals simp only [Body.view]
        case sequenceNumber => rw [jnum_inj hv]
        case midiChannelPrefix => rw [jnum_inj hv]
        case midiPort => rw [jnum_inj hv]
        case tempo => rw [jnum_inj hv]
        case smpteOffset => rw [jnum_inj hv.1, jnum_inj hv.2.1, jnum_inj hv.2.2.1, jnum_inj hv.2.2.2.1, jnum_inj hv.2.2.2.2.1, jnum_inj hv.2.2.2.2.2]
        case timeSignature => rw [jnum_inj hv.1, jnum_inj hv.2.1, jnum_inj hv.2.2.1, jnum_inj hv.2.2.2]
        case keySignature => rw [jint_inj hv.1, jnum_inj hv.2.1]
        case sequencerSpecific => rw [maker_inj hv.1, hexToJson_inj hv.2]
        case noteOff => rw [jnum_inj hv.1, note_inj hv.2.1, jnum_inj hv.2.2]
        case noteOn => rw [jnum_inj hv.1, note_inj hv.2.1, jnum_inj hv.2.2]
        case polyphonicPressure => rw [jnum_inj hv.1, jnum_inj hv.2]
        case controller => rw [jnum_inj hv.1, controller_inj hv.2.1, jnum_inj hv.2.2]
        case programChange => rw [jnum_inj hv.1, jnum_inj hv.2.2]
        case channelPressure => rw [jnum_inj hv.1, jnum_inj hv.2]
        case pitchBend => rw [jnum_inj hv.1, jnum_inj hv.2]
        case sysExMessage => rw [maker_inj hv.1, hexToJson_inj hv.2.1, hv.2.2]
        case sysExContinuation => rw [hexToJson_inj hv.1]
        case sysExEscape => rw [hexToJson_inj hv]
      rw [key]
      exact .same _

theorem isMeta_tag (b b' : Body) (ht : b.tag = b'.tag) : b.isMeta = b'.isMeta := by
  have h : ∀ b : Body, b.isMeta = !(["NoteOff", "NoteOn", "PolyphonicPressure", "Controller", "ProgramChange", "ChannelPressure", "PitchBend",
      "SysExMessage", "SysExContinuation", "SysExEscape"].contains b.tag) := by
    intro b
    cases b with
    | text k s => cases k <;> rfl
    | _ => rfl
  rw [h, h, ht]

theorem event_tells {e e' : Event} (h : eventToJson e = eventToJson e') : e.delta = e'.delta ∧ SameShown e.body.view e'.body.view := by
  have := jobj_values h
  simp only [List.map_append, List.map_cons, List.map_nil, List.cons_append, List.nil_append, List.cons.injEq] at this
  obtain ⟨h1, h2, h3, h4⟩ := this
  have ht := jstr_inj h1
  refine ⟨UInt32.toNat_inj.1 (jnum_inj h2), values_tell _ _ ht ?_⟩
  rw [isMeta_tag _ _ ht] at h4
  split at h4
  · simp only [List.map_cons, List.map_nil, List.cons_append, List.nil_append, List.cons.injEq] at h4
    exact h4.2
  · exact h4

theorem forall₂_of_map {α β : Type} (f : α → β) {R : α → α → Prop} (hf : ∀ a a', f a = f a' → R a a') :
    ∀ (l l' : List α), l.map f = l'.map f → List.Forall₂ R l l'
  | [], [], _ => .nil
  | [], _ :: _, h => by cases h
  | _ :: _, [], h => by cases h
  | a :: l, a' :: l', h => by
    simp only [List.map_cons, List.cons.injEq] at h
    exact .cons (hf _ _ h.1) (forall₂_of_map f hf l l' h.2)

theorem track_tells_json {t t' : MTrk} (h : trackToJson t = trackToJson t') :
    List.Forall₂ (fun a b : Event => a.delta = b.delta ∧ SameShown a.body.view b.body.view) t.events t'.events := by
  rw [trackToJson_eq, trackToJson_eq] at h
  have := jobj_values h
  simp only [List.map_cons, List.map_nil, List.cons.injEq, Json.arr.injEq] at this
  refine forall₂_of_map _ (fun a b hab => ?_) _ _ this.2.2.1
  have := jobj_values hab
  simp only [List.map_cons, List.map_nil, List.cons.injEq] at this
  exact event_tells this.1

/-! ### Files -/

theorem tracks_tell_json : ∀ (l l' : List MTrk), tracksToJson l = tracksToJson l' →
    List.Forall₂ (fun t t' : MTrk => List.Forall₂ (fun a b : Event => a.delta = b.delta ∧ SameShown a.body.view b.body.view) t.events t'.events) l l'
  | [], [], _ => .nil
  | [], _ :: _, h => by simp [tracksToJson, tracksToJsonWith] at h
  | _ :: _, [], h => by simp [tracksToJson, tracksToJsonWith] at h
  | t :: l, t' :: l', h => by
    simp only [tracksToJson, tracksToJsonWith, Json.arr.injEq] at h
    exact forall₂_of_map trackToJson (fun a b hab => track_tells_json hab) _ _ h

theorem shown_header {m m' : MThd} {h h' : Header} (hm : m.Shows h) (hm' : m'.Shows h') (e : headerToJson m = headerToJson m') : h = h' := by
  rw [headerToJson_eq, headerToJson_eq] at e
  have := jobj_values e
  simp only [List.map_cons, List.map_nil, List.cons.injEq] at this
  obtain ⟨_, _, e1, e2, e3, _⟩ := this
  have e1 := jnum_inj e1
  have e2 := jnum_inj e2
  have e3 := jnum_inj e3
  rw [hm.2.2.1, hm'.2.2.1] at e1
  rw [hm.2.2.2.1, hm'.2.2.2.1] at e2
  rw [hm.2.2.2.2.1, hm'.2.2.2.2.1] at e3
  cases h
  cases h'
  simp only at e1 e2 e3
  rw [e1, e2, e3]

theorem values_of_files {smf smf' : SMF} {h h' : Header} {ts ts' : List TrackEntry} (hs : smf.ShowsFile h ts) (hs' : smf'.ShowsFile h' ts')
    (e : exportJson smf = exportJson smf') : h = h' ∧ SameTracks (contentsOf id ts) (contentsOf id ts') := by
  rw [← shown_fields hs, ← shown_fields hs']
  obtain ⟨⟨m, h1, h2, _⟩, _⟩ := hs
  obtain ⟨⟨m', h1', h2', _⟩, _⟩ := hs'
  rw [exportJson_eq, exportJson_eq, h1, h1'] at e
  have := jobj_values e
  simp only [List.map_cons, List.map_nil, List.cons.injEq] at this
  refine ⟨shown_header h2 h2' this.1, ?_⟩
  have := tracks_tell_json _ _ this.2.1
  unfold SameTracks SMF.fields
  rw [List.forall₂_map_left_iff, List.forall₂_map_right_iff]
  refine this.imp fun t t' ht => ?_
  rw [List.forall₂_map_left_iff, List.forall₂_map_right_iff]
  exact ht.imp fun a b hab => ⟨congrArg UInt32.toNat hab.1, hab.2⟩

/-- **C154.** Two documents that represent the same JSON value - the texts may differ in their white space and escapes - are of files with the same
header and, event by event, the same contents, up to the bytes of texts that are not UTF-8. -/
theorem C154_export_tells (mc mc' : MiddleC) (spare spare' bytes bytes' : Bytes) (smf smf' : SMF) (h h' : Header) (ts ts' : List TrackEntry)
    (hf : FileSays (octaveOffset mc) bytes h ts) (hf' : FileSays (octaveOffset mc') bytes' h' ts') (hd : decode mc spare bytes = .ok smf)
    (hd' : decode mc' spare' bytes' = .ok smf') (j : Json) (hj : JsonText Chars j (exportText smf)) (hj' : JsonText Chars j (exportText smf')) :
    h = h' ∧ SameTracks (contentsOf id ts) (contentsOf id ts') := by
  obtain ⟨a, d1, s1⟩ := (C143_decoding mc spare bytes h ts).2 hf
  obtain ⟨b, d2, s2⟩ := (C143_decoding mc' spare' bytes' h' ts').2 hf'
  rw [hd] at d1
  rw [hd'] at d2
  injection d1 with d1
  injection d2 with d2
  subst d1 d2
  refine values_of_files s1 s2 ?_
  rw [← C88_unambiguous _ _ _ hj (C88_export_is_json smf), ← C88_unambiguous _ _ _ hj' (C88_export_is_json smf')]

theorem sameTracks_legible : ∀ {a b : List (List (Nat × Content))}, SameTracks a b → (∀ t ∈ a, ∀ e ∈ t, Legible e.2) → (∀ t ∈ b, ∀ e ∈ t, Legible e.2) → a = b := by
  intro a b h
  unfold SameTracks at h
  induction h with
  | nil => intros; rfl
  | cons ht _ ih =>
    intro h1 h2
    rw [ih (fun t hm => h1 t (List.mem_cons_of_mem _ hm)) fun t hm => h2 t (List.mem_cons_of_mem _ hm)]
    congr 1
    replace h1 := h1 _ List.mem_cons_self
    replace h2 := h2 _ List.mem_cons_self
    induction ht with
    | nil => rfl
    | @cons x y _ _ hx _ ih' =>
      rw [ih' (fun t hm => h1 t (List.mem_cons_of_mem _ hm)) fun t hm => h2 t (List.mem_cons_of_mem _ hm)]
      congr 1
      have l1 := h1 _ List.mem_cons_self
      have l2 := h2 _ List.mem_cons_self
      obtain ⟨d, c⟩ := x
      obtain ⟨d', c'⟩ := y
      obtain ⟨rfl, hx⟩ := hx
      cases hx with
      | same => rfl
      | text type s s' cs r1 r2 => rw [readsAs_legible r1 r2 l1 l2]

/-- **C154.** If the texts of both files are UTF-8, nothing is lost: the contents are equal, and the files, read and written again, become the same
file. -/
theorem C154_same_file (mc mc' : MiddleC) (spare spare' bytes bytes' : Bytes) (smf smf' : SMF) (h h' : Header) (ts ts' : List TrackEntry)
    (hf : FileSays (octaveOffset mc) bytes h ts) (hf' : FileSays (octaveOffset mc') bytes' h' ts') (hd : decode mc spare bytes = .ok smf)
    (hd' : decode mc' spare' bytes' = .ok smf') (hl : ∀ t ∈ ts, ∀ e ∈ t.events, Legible e.content) (hl' : ∀ t ∈ ts', ∀ e ∈ t.events, Legible e.content)
    (heq : exportText smf = exportText smf') :
    h = h' ∧ contentsOf id ts = contentsOf id ts' ∧ ∃ out, encode smf = .ok out ∧ encode smf' = .ok out := by
  obtain ⟨rfl, e⟩ := C154_export_tells mc mc' spare spare' bytes bytes' smf smf' h h' ts ts' hf hf' hd hd' _ (C88_export_is_json smf)
    (heq ▸ C88_export_is_json smf)
  have lift : ∀ ts : List TrackEntry, (∀ t ∈ ts, ∀ e ∈ t.events, Legible e.content) → ∀ t ∈ contentsOf id ts, ∀ e ∈ t, Legible e.2 := by
    intro ts hl t ht e he
    simp only [contentsOf, List.mem_map] at ht
    obtain ⟨t, hm, rfl⟩ := ht
    obtain ⟨e, hm', rfl⟩ := List.mem_map.1 he
    exact hl t hm e hm'
  have e := sameTracks_legible e (lift ts hl) (lift ts' hl')
  obtain ⟨a, d1, w1⟩ := C146_rewritten mc spare bytes h ts hf
  obtain ⟨b, d2, w2⟩ := C146_rewritten mc' spare' bytes' h ts' hf'
  rw [hd] at d1
  rw [hd'] at d2
  injection d1 with d1
  injection d2 with d2
  subst d1 d2
  exact ⟨rfl, e, _, w1, by rw [e]; exact w2⟩

theorem shown_tracks {offset : Int} {bytes : Bytes} {smf : SMF} {h : Header} {ts : List TrackEntry} (hf : FileSays offset bytes h ts) (hs : smf.ShowsFile h ts)
    (ht : ¬ (h.format = 1 ∧ h.tracks = 0)) : ¬ Trackless1 smf := by
  rintro ⟨m, m1, m2, m3⟩
  obtain ⟨⟨m', n1, n2, _⟩, n3⟩ := hs
  have e := Option.some.inj (m1.symm.trans n1)
  subst e
  obtain ⟨_, _, _, _, _, _, hlen, _⟩ := hf
  refine ht ⟨by rw [← n2.2.2.1]; exact m2, ?_⟩
  rw [← hlen, ← n3, m3]
  rfl

/-- **C154.** The same from the command line: two runs of `export` that print the same text. -/
theorem C154_command (w w' : World) (args args' argv argv' : List Bytes) (s s' : List (Bytes × FlagValue)) (r r' : List Bytes)
    (hi : Invokes .export_ args argv) (hi' : Invokes .export_ args' argv') (hl : CommandLine (options .export_) args s r)
    (hl' : CommandLine (options .export_) args' s' r') (hr : r.headD [] ≠ []) (hr' : r'.headD [] ≠ []) (bytes bytes' : Bytes)
    (hb : w.read (r.headD []) = some bytes) (hb' : w'.read (r'.headD []) = some bytes') (mc mc' : MiddleC) (hmc : Naming s mc) (hmc' : Naming s' mc')
    (h h' : Header) (ts ts' : List TrackEntry) (hf : FileSays (octaveOffset mc) bytes h ts) (hf' : FileSays (octaveOffset mc') bytes' h' ts')
    (ht : ¬ (h.format = 1 ∧ h.tracks = 0)) (ht' : ¬ (h'.format = 1 ∧ h'.tracks = 0)) (ho : NoText s "out") (ho' : NoText s' "out")
    (heq : (midiasm w argv).stdout = (midiasm w' argv').stdout) : h = h' ∧ SameTracks (contentsOf id ts) (contentsOf id ts') := by
  obtain ⟨smf, hd, hs⟩ := (C143_decoding mc w.spare bytes h ts).2 hf
  obtain ⟨smf', hd', hs'⟩ := (C143_decoding mc' w'.spare bytes' h' ts').2 hf'
  have d1 := C116_export w args argv s r hi hl smf ⟨hr, bytes, mc, hb, hmc, hd⟩ (shown_tracks hf hs ht)
  have d2 := C116_export w' args' argv' s' r' hi' hl' smf' ⟨hr', bytes', mc', hb', hmc', hd'⟩ (shown_tracks hf' hs' ht')
  rw [d1.printed ho, d2.printed ho'] at heq
  have heq : exportText smf = exportText smf' := heq
  exact C154_export_tells mc mc' _ _ bytes bytes' smf smf' h h' ts ts' hf hf' hd hd' _ (C88_export_is_json smf) (heq ▸ C88_export_is_json smf)

/-- A file with a text of one byte and a note. -/
def oneByteText (b : UInt8) : Bytes := oneTrack [0, 0xff, 1, 1, b, 0, 0x90, 60, 64, 0, 0xff, 0x2f, 0]

/-- Bytes that are not UTF-8 are lost: two files with different texts and the same export. -/
theorem C154_lost_bytes : ∃ smf smf' h h' ts ts', decode .c3 [] (oneByteText 0xe8) = .ok smf ∧ decode .c3 [] (oneByteText 0xe9) = .ok smf' ∧
    FileSays 1 (oneByteText 0xe8) h ts ∧ FileSays 1 (oneByteText 0xe9) h' ts' ∧ exportText smf = exportText smf' ∧ contentsOf id ts ≠ contentsOf id ts' := by
  have key : ∀ b : UInt8, ∀ smf, decode .c3 [] (oneByteText b) = .ok smf → ∃ h ts, FileSays 1 (oneByteText b) h ts ∧ smf.fields = contentsOf id ts := by
    intro b smf hd
    obtain ⟨h, ts, f1, f2⟩ := C143_total .c3 [] _ smf hd
    exact ⟨h, ts, f1, shown_fields f2⟩
  obtain ⟨smf, h1, h2⟩ := Outcome.of_test (o := decode .c3 [] (oneByteText 0xe8))
    (p := fun smf => decide (smf.fields = [[(0, .text 1 [0xe8]), (0, .noteOn 0 60 64), (0, .endOfTrack)]])) (by decide +kernel)
  obtain ⟨smf', h1', h2'⟩ := Outcome.of_test (o := decode .c3 [] (oneByteText 0xe9))
    (p := fun smf => decide (smf.fields = [[(0, .text 1 [0xe9]), (0, .noteOn 0 60 64), (0, .endOfTrack)]])) (by decide +kernel)
  have h3 : (decode .c3 [] (oneByteText 0xe8)).bind (fun a => .ok (exportText a)) = (decode .c3 [] (oneByteText 0xe9)).bind (fun a => .ok (exportText a)) := by
    decide +kernel
  rw [h1, h1'] at h3
  obtain ⟨h, ts, f1, f2⟩ := key _ _ h1
  obtain ⟨h', ts', f1', f2'⟩ := key _ _ h1'
  refine ⟨smf, smf', h, h', ts, ts', h1, h1', f1, f1', Outcome.ok.inj h3, ?_⟩
  rw [← f2, ← f2', of_decide_eq_true h2, of_decide_eq_true h2']
  decide

/-- A file whose texts are UTF-8, in another form: running status makes no difference to the export. -/
example : ∃ smf smf' h h' ts ts', decode .c3 [] (oneTrack [0, 0xff, 1, 2, 0xc3, 0xa9, 0, 0x90, 60, 64, 0, 60, 0]) = .ok smf ∧
    decode .c3 [] (oneTrack [0, 0xff, 1, 0x80, 2, 0xc3, 0xa9, 0, 0x90, 60, 64, 0, 0x90, 60, 0]) = .ok smf' ∧
    FileSays 1 (oneTrack [0, 0xff, 1, 2, 0xc3, 0xa9, 0, 0x90, 60, 64, 0, 60, 0]) h ts ∧
    FileSays 1 (oneTrack [0, 0xff, 1, 0x80, 2, 0xc3, 0xa9, 0, 0x90, 60, 64, 0, 0x90, 60, 0]) h' ts' ∧ exportText smf = exportText smf' ∧
    (∀ t ∈ contentsOf id ts, ∀ e ∈ t, Legible e.2) ∧ contentsOf id ts = [[(0, .text 1 [0xc3, 0xa9]), (0, .noteOn 0 60 64), (0, .noteOn 0 60 0)]] := by
  obtain ⟨smf, h1, h2⟩ := Outcome.of_test (o := decode .c3 [] (oneTrack [0, 0xff, 1, 2, 0xc3, 0xa9, 0, 0x90, 60, 64, 0, 60, 0]))
    (p := fun smf => decide (smf.fields = [[(0, .text 1 [0xc3, 0xa9]), (0, .noteOn 0 60 64), (0, .noteOn 0 60 0)]])) (by decide +kernel)
  obtain ⟨smf', h1', h2'⟩ := Outcome.of_test (o := decode .c3 [] (oneTrack [0, 0xff, 1, 0x80, 2, 0xc3, 0xa9, 0, 0x90, 60, 64, 0, 0x90, 60, 0]))
    (p := fun smf' => decide ((decode .c3 [] (oneTrack [0, 0xff, 1, 2, 0xc3, 0xa9, 0, 0x90, 60, 64, 0, 60, 0])).bind (fun a => .ok (exportText a)) = .ok (exportText smf')))
    (by decide +kernel)
  have h3 := of_decide_eq_true h2'
  rw [h1] at h3
  obtain ⟨h, ts, f1, f2⟩ := C143_total .c3 [] _ smf h1
  obtain ⟨h', ts', f1', _⟩ := C143_total .c3 [] _ smf' h1'
  refine ⟨smf, smf', h, h', ts, ts', h1, h1', f1, f1', Outcome.ok.inj h3, ?_, ?_⟩
  · rw [← shown_fields f2, of_decide_eq_true h2]
    intro t ht e he
    simp only [List.mem_singleton] at ht
    subst ht
    simp only [List.mem_cons, List.not_mem_nil, or_false] at he
    rcases he with rfl | rfl | rfl
    · exact ⟨['é'], by decide +kernel⟩
    · trivial
    · trivial
  · rw [← shown_fields f2, of_decide_eq_true h2]

end Midiasm
