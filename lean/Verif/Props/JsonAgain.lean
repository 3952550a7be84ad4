import Verif.Props.TextAgain
import Verif.Props.JsonCrashes

/-!
C168: the export of an assembled JSON document assembles to the same file.
-/

set_option linter.unusedSimpArgs false

namespace Midiasm
open Spec

/-! ### The strings of a JSON text -/

/-- The value is a part of the other one. -/
inductive PartOf (x : Json) : Json → Prop
  | whole : PartOf x x
  | element (y l) : y ∈ l → PartOf x y → PartOf x (.arr l)
  | member (k y ms) : (k, y) ∈ ms → PartOf x y → PartOf x (.obj ms)

theorem element_text {C : List Nat → Bytes → Prop} {y : Json} : ∀ {l : List Json} {t : Bytes}, ElementsText C l t → y ∈ l → ∃ s, JsonText C y s := by
  intro l
  induction l with
  | nil => intro t _ h; cases h
  | cons j js ih =>
    intro t h hy
    rw [ElementsText] at h
    obtain ⟨a, s, b, _, _, h1, h2⟩ := h
    rcases List.mem_cons.1 hy with rfl | hy
    · exact ⟨s, h1⟩
    · rcases h2 with ⟨rfl, _⟩ | ⟨_, t', h2, _⟩
      · cases hy
      · exact ih h2 hy

theorem member_text {C : List Nat → Bytes → Prop} {k : List Nat} {y : Json} : ∀ {ms : List (List Nat × Json)} {t : Bytes}, MembersText C ms t →
    (k, y) ∈ ms → ∃ s, JsonText C y s := by
  intro ms
  induction ms with
  | nil => intro t _ h; cases h
  | cons m ms ih =>
    intro t h hy
    obtain ⟨k', j⟩ := m
    rw [MembersText] at h
    obtain ⟨a, n, b, c, s, d, _, _, _, _, _, h1, h2⟩ := h
    rcases List.mem_cons.1 hy with e | hy
    · injection e with _ e
      subst e
      exact ⟨s, h1⟩
    · rcases h2 with ⟨rfl, _⟩ | ⟨_, t', h2, _⟩
      · cases hy
      · exact ih h2 hy

theorem part_text {C : List Nat → Bytes → Prop} {x j : Json} (h : PartOf x j) : ∀ {s : Bytes}, JsonText C j s → ∃ s', JsonText C x s' := by
  induction h with
  | whole => exact fun hs => ⟨_, hs⟩
  | element y l hy _ ih =>
    intro s hs
    rw [JsonText] at hs
    obtain ⟨t, _, ht⟩ := hs
    obtain ⟨s', h'⟩ := element_text ht hy
    exact ih h'
  | member k y ms hy _ ih =>
    intro s hs
    rw [JsonText] at hs
    obtain ⟨t, _, ht⟩ := hs
    obtain ⟨s', h'⟩ := member_text ht hy
    exact ih h'

theorem charText_scalar {r : Nat} {s : Bytes} (h : CharText r s) : Scalar r := by
  rcases h with ⟨c, rfl, _⟩ | h | ⟨h, _⟩ | ⟨h1, h2, _⟩
  · have := c.valid
    simp only [UInt32.isValidChar, Nat.isValidChar] at this
    unfold Scalar
    rcases this with h | ⟨h1, h2⟩
    · exact Or.inl h
    · exact Or.inr ⟨by omega, h2⟩
  · simp only [List.mem_cons, Prod.mk.injEq, List.not_mem_nil, or_false] at h
    unfold Scalar
    omega
  · exact h
  · exact Or.inr ⟨by omega, h2⟩

theorem charsRead_scalar : ∀ {rs : List Nat} {s : Bytes}, CharsRead rs s → ∀ r ∈ rs, Scalar r := by
  intro rs
  induction rs with
  | nil => intro s _ r hr; cases hr
  | cons r rs ih =>
    intro s h x hx
    obtain ⟨a, t, _, h1, h2⟩ := h
    rcases List.mem_cons.1 hx with rfl | hx
    · rcases h1 with h1 | ⟨_, rfl, _⟩
      · exact charText_scalar h1
      · unfold Scalar
        omega
    · exact ih h2 x hx

theorem scalars_text : ∀ {rs : List Nat}, (∀ r ∈ rs, Scalar r) → ∃ cs, IsText (ofRunes rs) cs := by
  intro rs
  induction rs with
  | nil => exact fun _ => ⟨[], rfl⟩
  | cons r rs ih =>
    intro h
    obtain ⟨cs, hc⟩ := ih fun x hx => h x (by simp [hx])
    have hr := h r (by simp)
    have hv : r.isValidChar := by
      rcases hr with hr | ⟨h1, h2⟩
      · exact Or.inl hr
      · exact Or.inr ⟨by omega, h2⟩
    refine ⟨Char.ofNatAux r hv :: cs, ?_⟩
    have e : encodeRune r = String.utf8EncodeChar (Char.ofNatAux r hv) := by
      rw [← encodeRune_char]
      rfl
    show (r :: rs).flatMap encodeRune = _
    rw [List.flatMap_cons, List.flatMap_cons, e]
    congr 1

theorem part_string {j : Json} {s : Bytes} (hs : JsonText CharsRead j s) {cs : List Nat} (h : PartOf (.str cs) j) : ∃ c, IsText (ofRunes cs) c := by
  obtain ⟨s', h'⟩ := part_text h hs
  rw [JsonText] at h'
  obtain ⟨t, _, ht⟩ := h'
  exact scalars_text (charsRead_scalar ht)

theorem part_trans {x y z : Json} (h : PartOf x y) (h' : PartOf y z) : PartOf x z := by
  induction h' with
  | whole => exact h
  | element w l hw _ ih => exact .element w l hw ih
  | member k w ms hw _ ih => exact .member k w ms hw ih

theorem part_value {name : String} {v j : Json} (h : v ∈ valuesOf name j) : PartOf v j := by
  unfold valuesOf at h
  obtain ⟨⟨k, w⟩, h1, rfl⟩ := List.mem_map.1 h
  have h1 := (List.mem_filter.1 h1).1
  cases j with
  | obj ms => exact .member k w ms h1 .whole
  | _ => cases h1

theorem part_track {name : String} {t j v : Json} (ht : t ∈ tracksOf j) (hv : v ∈ valuesOf name t) : PartOf v j := by
  unfold tracksOf at ht
  obtain ⟨vs, h1, rfl⟩ := List.mem_map.1 ht
  unfold valuesOf at hv
  obtain ⟨⟨k, w⟩, h2, rfl⟩ := List.mem_map.1 hv
  have h2 := (List.mem_filter.1 h2).1
  simp only [membersOf] at h2
  obtain ⟨ms, h3, h4⟩ := List.mem_flatten.1 h2
  obtain ⟨x, h5, rfl⟩ := List.mem_map.1 h3
  have hx : PartOf w x := by
    cases x with
    | obj ms => exact .member k w ms h4 .whole
    | _ => cases h4
  unfold stacked at h1
  obtain ⟨i, _, rfl⟩ := List.mem_map.1 h1
  obtain ⟨l, h6, h7⟩ := List.mem_filterMap.1 h5
  have hl : x ∈ l := List.mem_of_getElem? h7
  unfold lastArrays at h6
  have h8 := (List.takeWhile_sublist _).subset (List.mem_reverse.1 h6)
  obtain ⟨u, h9, rfl⟩ := List.mem_map.1 (List.mem_reverse.1 h8)
  have hu : PartOf x u := by
    cases u with
    | arr l => exact .element x l hl .whole
    | _ => cases hl
  exact part_trans hx (part_trans hu (part_value h9))

/-- The texts that a document states are in UTF-8. -/
theorem document_texts {j : Json} {s : Bytes} (hs : JsonText CharsRead j s) {f d : Nat} {ts : List (List Event)} (hj : DocumentSays j f d ts) :
    ∀ es ∈ ts, ∀ e ∈ es, ∀ k s, e.body = .text k s → ∃ cs, IsText s cs := by
  obtain ⟨_, _, h⟩ := hj
  intro es hes
  obtain ⟨t, htm, ht⟩ : ∃ t ∈ tracksOf j, TrackSays t es := by
    revert hes
    generalize tracksOf j = l at h ⊢
    induction h with
    | nil => simp
    | cons h1 _ ih =>
      intro hes
      rcases List.mem_cons.1 hes with rfl | hes
      · exact ⟨_, by simp, h1⟩
      · obtain ⟨t, a, b⟩ := ih hes
        exact ⟨t, by simp [a], b⟩
  obtain ⟨_, before, l, given, hl, h1, h2⟩ := ht
  have hgiven : ∀ e ∈ given, ∀ k s, e.body = .text k s → ∃ cs, IsText s cs := by
    have hpart : ∀ w ∈ l, PartOf w j := by
      intro w hw
      have : PartOf (.arr l) j := part_track htm (name := "events") (by rw [hl]; simp)
      exact part_trans (.element w l hw .whole) this
    clear h2 hl
    induction h1 with
    | nil => simp
    | cons a _ ih =>
      intro e he k s hb
      rcases List.mem_cons.1 he with rfl | he
      · obtain ⟨bef, ev, h3, h4⟩ := a
        obtain ⟨_, _, h5⟩ := h4
        rw [hb] at h5
        rcases h5.2 with ⟨b', v, af, e1, ⟨cs, rfl, rfl⟩, _⟩ | ⟨_, rfl⟩
        · apply part_string hs (cs := cs)
          refine part_trans (part_value (name := textMember k) (j := ev) (by rw [e1]; simp)) ?_
          refine part_trans (part_value (name := "event") (by rw [h3]; simp)) (hpart _ (by simp))
        · exact ⟨[], rfl⟩
      · exact ih (fun w hw => hpart w (by simp [hw])) e he k s hb
  clear h1 hl hes
  induction h2 with
  | last e => exact hgiven
  | goesOn e n es es' _ _ ih =>
    intro x hx
    rcases List.mem_cons.1 hx with rfl | hx
    · exact hgiven _ (by simp)
    · exact ih (fun y hy => hgiven y (by simp [hy])) x hx
  | ends e n es es' _ _ ih =>
    intro x hx
    rcases List.mem_cons.1 hx with rfl | hx
    · intro k s hb
      refine hgiven e (by simp) k s ?_
      simp only at hb
      cases hbe : e.body <;> rw [hbe] at hb <;> simp only [endPacket] at hb <;> first | exact hb | cases hb
    · exact ih (fun y hy => hgiven y (by simp [hy])) x hx

/-! ### Assembling again -/

/-- The conditions of C58 for the file assembled from a document. -/
theorem document_again {mc mc' : MiddleC} {a s rest : Bytes} {j : Json} (ha : Space a) (hs : JsonText CharsRead j s) (hd : nesting j ≤ 10000)
    {f d : Nat} {ts : List (List Event)} (hj : DocumentSays j f d ts) (hn : ts.length < 65536) (hmet : d < 32768) (hk : ∀ es ∈ ts, RecoverableTrack es)
    (hp : ∀ es ∈ ts, ∀ e ∈ es, ¬ PacketGoesOn e.body) {b : Bytes} (hb : assembleJsonText mc (a ++ s ++ rest) = .ok b) (hlen : b.length < 2 ^ 32)
    (spare : Bytes) : ∃ smf m, decode mc' spare b = .ok smf ∧ encode smf = .ok b ∧ smf.mthd = some m ∧ m.division.toNat < 32768 ∧
      smf.tracks.map (fun t => t.events.map fun e => (e.delta.toNat, e.body.view)) = stated ts ∧
      ∀ t ∈ smf.tracks, t.events ≠ [] ∧ (∀ e ∈ t.events, ∀ k s, e.body = .text k s → ∃ cs, IsText s cs) ∧
        ∀ (i : Nat) (e n : Event), t.events[i]? = some e → t.events[i + 1]? = some n → ¬ n.body.IsPacket →
          (e.body.IsMessage → e.body.Terminated) ∧ ¬ e.body.IsPacket := by
  obtain ⟨smf, d1, d2⟩ := C151_json_final mc a s rest j ha hs hd f d ts hj hn hk hp b hb hlen mc' spare
  obtain ⟨b', k1, k2, _⟩ := C151_json mc a s rest j ha hs hd f d ts hj hn hk
  rw [hb] at k1
  injection k1 with k1
  subst k1
  obtain ⟨ts', f1, f2⟩ := k2 hlen mc'
  obtain ⟨smf', d3, ⟨m, m1, m2, _⟩, m3⟩ := (C143_decoding mc' spare b _ ts').2 f1
  rw [d1] at d3
  injection d3 with d3
  subst d3
  have hview : smf.tracks.map (fun t => t.events.map fun e => (e.delta.toNat, e.body.view)) = stated ts := by
    rw [← f2, ← m3, contentsOf, List.map_map]
    apply List.map_congr_left
    intro t _
    simp only [Function.comp_apply, MTrk.entry, List.map_map]
    rfl
  have hdiv : m.division.toNat < 32768 := by
    obtain ⟨_, _, _, _, s5, _⟩ := m2
    rw [s5]
    exact hmet
  have hlen0 := congrArg List.length hview
  rw [List.length_map, stated, List.length_map] at hlen0
  have htexts := document_texts hs hj
  have hrest := document_restored hj
  refine ⟨smf, m, d1, d2, m1, hdiv, hview, ?_⟩
  intro t ht
  obtain ⟨i, hi, rfl⟩ := List.mem_iff_getElem.1 ht
  have hte : (smf.tracks[i].events.map fun e => (e.delta.toNat, e.body.view)) = (ts[i]'(by omega)).map fun e => (e.delta.toNat, e.body.view) := by
    have := congrArg (fun l => l[i]?) hview
    simp only [stated, List.getElem?_map, List.getElem?_eq_getElem hi, List.getElem?_eq_getElem (show i < ts.length by omega), Option.map_some,
      Option.some.injEq] at this
    exact this
  have hes : ts[i]'(by omega) ∈ ts := List.getElem_mem _
  generalize ts[i]'(by omega) = es at hte hes
  generalize smf.tracks[i] = t at hte
  obtain ⟨_, given, n3⟩ := hrest es hes
  have hel : t.events.length = es.length := by
    have := congrArg List.length hte
    simpa using this
  have hev : ∀ (k : Nat) (e : Event), t.events[k]? = some e → ∃ e', es[k]? = some e' ∧ e.body.view = e'.body.view := by
    intro k e he
    have := congrArg (fun l => l[k]?) hte
    simp only [List.getElem?_map, he, Option.map_some] at this
    cases hx : es[k]? with
    | none => rw [hx] at this; cases this
    | some e' =>
      rw [hx] at this
      simp only [Option.map_some, Option.some.injEq, Prod.mk.injEq] at this
      exact ⟨e', rfl, this.2⟩
  refine ⟨?_, ?_, ?_⟩
  · obtain ⟨_, _, _, _, _, rfl, _⟩ := restored_first n3
    intro hz
    rw [hz] at hel
    cases hel
  · intro e he k x hb
    obtain ⟨n, hn'⟩ := List.mem_iff_getElem?.1 he
    obtain ⟨e', h1, h2⟩ := hev n e hn'
    rw [hb] at h2
    cases hbb : e'.body <;> rw [hbb] at h2 <;> simp only [Body.view, reduceCtorEq, Content.text.injEq] at h2
    obtain ⟨_, rfl⟩ := h2
    exact htexts es hes e' (List.mem_of_getElem? h1) _ _ hbb
  · intro k e n h1 h2 _
    obtain ⟨e', h3, h4⟩ := hev k e h1
    obtain ⟨n', h5, _⟩ := hev (k + 1) n h2
    constructor
    · rintro ⟨mm, dd, x, hb⟩
      rw [hb] at h4 ⊢
      cases hbb : e'.body <;> rw [hbb] at h4 <;> simp only [Body.view, reduceCtorEq, Content.sysex.injEq] at h4
      obtain ⟨_, _, rfl⟩ := h4
      exact restored_ended n3 (hp es hes) k e' h3 (List.getElem?_eq_some_iff.1 h5).1 _ _ _ hbb
    · rintro ⟨dd, x, hb⟩
      rw [hb] at h4
      cases hbb : e'.body <;> rw [hbb] at h4 <;> simp only [Body.view, reduceCtorEq] at h4
      exact hp es hes e' (List.mem_of_getElem? h3) ⟨_, _, hbb⟩

/-- **C168.** A JSON document is assembled to a file.  The export of this file is assembled to the same file again, byte for byte, whatever the convention
for middle C in each of the three steps.  The events of the document are to be recoverable (C151), without continuations of SysEx messages. -/
theorem C168_json_again (mc mc' mc'' : MiddleC) (a s rest : Bytes) (j : Json) (ha : Space a) (hs : JsonText CharsRead j s) (hd : nesting j ≤ 10000)
    (f d : Nat) (ts : List (List Event)) (hj : DocumentSays j f d ts) (hn : ts.length < 65536) (hmet : d < 32768) (hk : ∀ es ∈ ts, RecoverableTrack es)
    (hp : ∀ es ∈ ts, ∀ e ∈ es, ¬ PacketGoesOn e.body) (b : Bytes) (hb : assembleJsonText mc (a ++ s ++ rest) = .ok b) (hlen : b.length < 2 ^ 32)
    (spare : Bytes) : ∃ smf, decode mc' spare b = .ok smf ∧ assembleJsonText mc'' (exportText smf) = .ok b := by
  obtain ⟨smf, m, d1, d2, m1, hdiv, _, ht⟩ := document_again (mc' := mc') ha hs hd hj hn hmet hk hp hb hlen spare
  exact ⟨smf, d1, by rw [C89_assembles_export, C58_json_roundtrip_partial mc' _ spare b smf d1 m m1 hdiv ht, d2]⟩

/-- **C168.** The same with the program, in three runs. -/
theorem C168_three_runs (w : World) (args argv args' argv' args'' argv'' : List Bytes) (s s' s'' : List (Bytes × FlagValue)) (r r' r'' : List Bytes)
    (hi : Invokes .assemble args argv) (hl : CommandLine (options .assemble) args s r)
    (hi' : Invokes .export_ args' argv') (hl' : CommandLine (options .export_) args' s' r')
    (hi'' : Invokes .assemble args'' argv'') (hl'' : CommandLine (options .assemble) args'' s'' r'')
    (a doc rest : Bytes) (hr : r.headD [] ≠ []) (hrd : w.read (r.headD []) = some (a ++ doc ++ rest)) (hext : extPath (r.headD []) = str ".json")
    (j : Json) (ha : Space a) (hs : JsonText CharsRead j doc) (hd : nesting j ≤ 10000)
    (f d : Nat) (ts : List (List Event)) (hj : DocumentSays j f d ts) (hne : ts ≠ []) (hn : ts.length < 65536) (hmet : d < 32768)
    (hk : ∀ es ∈ ts, RecoverableTrack es) (hp : ∀ es ∈ ts, ∀ e ∈ es, ¬ PacketGoesOn e.body)
    (b : Bytes) (hb : assembleJsonText .c3 (a ++ doc ++ rest) = .ok b) (hlen : b.length < 2 ^ 32)
    (mid : Bytes) (ho : Output s mid) (hc : w.create mid = true)
    (hr' : r'.headD [] = mid) (again : Bytes) (ho' : Output s' again) (hc' : w.create again = true)
    (hr'' : r''.headD [] = again) (hext' : extPath again = str ".json") (out : Bytes) (ho'' : Output s'' out) (hc'' : w.create out = true) :
    midiasm w argv = ⟨[(mid, b)], [], .success⟩ ∧
    midiasm ((w.after (midiasm w argv)).after (midiasm (w.after (midiasm w argv)) argv')) argv'' = ⟨[(out, b)], [], .success⟩ := by
  have e1 : midiasm w argv = ⟨[(mid, b)], [], .success⟩ := by
    rw [midiasm_runs hi hl, does_assemble hr hrd, if_pos hext, (C138_json_text (middleC s) _ _).2 ((C138_json_text .c3 _ _).1 hb)]
    exact save_ok_out ho hc
  have hnam : ∃ mc', Naming s' mc' := by
    by_cases hg : Given s' "C4" (.bool true)
    · exact ⟨.c4, Or.inl ⟨rfl, hg⟩⟩
    · exact ⟨.c3, Or.inr ⟨rfl, hg⟩⟩
  obtain ⟨mc', hmc⟩ := hnam
  obtain ⟨smf, m, d1, d2, m1, hdiv, hlt, hpl⟩ := document_again (mc' := mc') ha hs hd hj hn hmet hk hp hb hlen w.spare
  refine ⟨e1, ?_⟩
  have hmid : (w.after (midiasm w argv)).read (r'.headD []) = some b := by rw [hr', e1, after_read]
  obtain ⟨bytes, k1, k2⟩ := C97_export_assemble (w.after (midiasm w argv)) args' argv' args'' argv'' s' s'' r' r'' hi' hl' hi'' hl'' smf
    ⟨by rw [hr']; exact ho.1, b, mc', hmid, hmc, d1⟩ again ho' hc' hr'' hext' out ho'' hc'' m m1 hdiv
    (by
      rintro ⟨_, _, _, hz⟩
      rw [hz] at hlt
      exact hne (List.map_eq_nil_iff.1 hlt.symm)) hpl
  rw [d2] at k1
  injection k1 with k1
  subst k1
  exact k2

/-- C168: a document that meets the hypotheses, with a text. -/
theorem bend_text : ∃ s, JsonText CharsRead bendDocument s ∧ nesting bendDocument ≤ 10000 ∧ DocumentSays bendDocument 0 96 [bendEvents] ∧
    RecoverableTrack bendEvents ∧ ∀ e ∈ bendEvents, ¬ PacketGoesOn e.body := by
  have hnum : ∀ s n, str s = dec n → Wellformed (.num (str s)) := fun s n h => by rw [h]; exact sound_jnum n
  have hwf : Wellformed bendDocument := by
    unfold bendDocument
    refine wf_obj _ ?_
    simp only [List.forall_mem_cons, List.not_mem_nil, false_implies, implies_true, and_true]
    refine ⟨wf_obj _ ?_, wf_arr _ ?_⟩
    · simp only [List.forall_mem_cons, List.not_mem_nil, false_implies, implies_true, and_true]
      exact ⟨sound_jstr _, hnum _ 0 (by decide +kernel), hnum _ 96 (by decide +kernel)⟩
    · simp only [List.forall_mem_cons, List.not_mem_nil, false_implies, implies_true, and_true]
      refine wf_obj _ ?_
      simp only [List.forall_mem_cons, List.not_mem_nil, false_implies, implies_true, and_true]
      refine ⟨sound_jstr _, wf_arr _ ?_⟩
      simp only [List.forall_mem_cons, List.not_mem_nil, false_implies, implies_true, and_true]
      constructor
      · refine wf_obj _ ?_
        simp only [List.forall_mem_cons, List.not_mem_nil, false_implies, implies_true, and_true]
        refine wf_obj _ ?_
        simp only [List.forall_mem_cons, List.not_mem_nil, false_implies, implies_true, and_true]
        exact ⟨sound_jstr _, hnum _ 7 (by decide +kernel), hnum _ 3 (by decide +kernel), hnum _ 100 (by decide +kernel)⟩
      · refine wf_obj _ ?_
        simp only [List.forall_mem_cons, List.not_mem_nil, false_implies, implies_true, and_true]
        refine wf_obj _ ?_
        simp only [List.forall_mem_cons, List.not_mem_nil, false_implies, implies_true, and_true]
        exact sound_jstr _
  have hseen : seen bendDocument = bendDocument := by
    have hs : ∀ t, seen (.str (runes t)) = .str (runes t) := seen_jstr
    simp only [bendDocument, seen_jobj, seen_arr, seen_num, hs, List.map_cons, List.map_nil]
  have hnest : nesting bendDocument ≤ 10000 := by decide +kernel
  have ht := writeJson_text bendDocument 0 hwf
  rw [hseen] at ht
  have hr := readJson_text chars_readable (a := []) (rest := []) (by intro c hc; cases hc) ht hnest (by intro lit h; cases h)
  obtain ⟨_, s, _, _, _, h1, h2⟩ := readJson_sound hr
  refine ⟨s, h1, h2, bend_says.1, bend_says.2, ?_⟩
  simp [bendEvents, PacketGoesOn]

end Midiasm
