import Verif.Props.JsonAgain

/-!
C169: a file can be carried from text to JSON and from JSON to text.
-/

set_option linter.unusedSimpArgs false

namespace Midiasm
open Spec

/-- The texts read from a file are those stated. -/
theorem texts_of_views {smf : SMF} {ts : List (List Event)}
    (hview : smf.tracks.map (fun t => t.events.map fun e => (e.delta.toNat, e.body.view)) = stated ts)
    (hu : ∀ es ∈ ts, ∀ e ∈ es, ∀ k s, e.body = .text k s → ∃ cs, IsText s cs) :
    ∀ t ∈ smf.tracks, ∀ e ∈ t.events, ∀ k s, e.body = .text k s → ∃ cs, IsText s cs := by
  intro t ht e he k s hb
  have h1 : (t.events.map fun e => (e.delta.toNat, e.body.view)) ∈ stated ts := by
    rw [← hview]
    exact List.mem_map_of_mem ht
  unfold stated at h1
  obtain ⟨es, hes, h2⟩ := List.mem_map.1 h1
  have h3 : (e.delta.toNat, e.body.view) ∈ es.map fun e => (e.delta.toNat, e.body.view) := by
    rw [h2]
    exact List.mem_map_of_mem he
  obtain ⟨e', he', h4⟩ := List.mem_map.1 h3
  simp only [Prod.mk.injEq] at h4
  have h5 := h4.2
  rw [hb] at h5
  cases hbb : e'.body <;> rw [hbb] at h5 <;> simp only [Body.view, reduceCtorEq, Content.text.injEq] at h5
  obtain ⟨_, rfl⟩ := h5
  exact hu es hes e' he' _ _ hbb

/-- Plain contents can be exported, if the texts are in UTF-8. -/
theorem plain_exports {smf : SMF} (hpl : ∀ t ∈ smf.tracks, (∃ last, t.events.getLast? = some last ∧ ¬ last.body.IsMessage) ∧ ∀ e ∈ t.events, e.body.Plain)
    (hu : ∀ t ∈ smf.tracks, ∀ e ∈ t.events, ∀ k s, e.body = .text k s → ∃ cs, IsText s cs) :
    ∀ t ∈ smf.tracks, t.events ≠ [] ∧ (∀ e ∈ t.events, ∀ k s, e.body = .text k s → ∃ cs, IsText s cs) ∧
      ∀ (i : Nat) (e n : Event), t.events[i]? = some e → t.events[i + 1]? = some n → ¬ n.body.IsPacket →
        (e.body.IsMessage → e.body.Terminated) ∧ ¬ e.body.IsPacket := by
  intro t ht
  obtain ⟨⟨last, h1, _⟩, h2⟩ := hpl t ht
  refine ⟨?_, hu t ht, ?_⟩
  · intro hz
    rw [hz] at h1
    cases h1
  · intro i e n he _ _
    have hp := h2 e (List.mem_of_getElem? he)
    constructor
    · rintro ⟨m, d, x, hb⟩
      rw [hb] at hp ⊢
      exact hp.2
    · rintro ⟨d, x, hb⟩
      rw [hb] at hp
      exact hp

/-- **C169.** The disassembly and the export of a file with plain contents and texts in UTF-8 are assembled to the same bytes. -/
theorem C169_formats_agree (table : List (String × Lib.Manufacturer)) (htab : ∀ e, e ∈ table ↔ e ∈ Lib.manufacturers) (mc : MiddleC) (spare file : Bytes)
    (smf : SMF) (hd : decode .c3 spare file = .ok smf) (m : MThd) (hm : smf.mthd = some m) (hmetrical : m.division.toNat < 32768)
    (ht : ∀ t ∈ smf.tracks, (∃ last, t.events.getLast? = some last ∧ ¬ last.body.IsMessage) ∧ ∀ e ∈ t.events, e.body.Plain)
    (hu : ∀ t ∈ smf.tracks, ∀ e ∈ t.events, ∀ k s, e.body = .text k s → ∃ cs, IsText s cs) :
    ∃ text, printSMF smf = .ok text ∧ (ShortLines text → assembleText table text = assembleJsonText mc (exportText smf)) := by
  obtain ⟨text, h1, h2⟩ := C83_disassembly_assembles table htab spare file smf hd m hm hmetrical ht
  refine ⟨text, h1, fun hs => ?_⟩
  rw [h2 hs, C89_assembles_export, C58_json_roundtrip_partial .c3 mc spare file smf hd m hm hmetrical (plain_exports ht hu)]

/-- **C169.** From text to JSON: a text is assembled to a file, the file exported and the export assembled, and the result is the same file. -/
theorem C169_text_to_json (table : List (String × Lib.Manufacturer)) (htab : ∀ e, e ∈ table ↔ e ∈ Lib.manufacturers) (text : Bytes) (h : Header)
    (ts : List (List Event)) (hr : Repeatable table text h ts) (hu : ∀ es ∈ ts, ∀ e ∈ es, ∀ k s, e.body = .text k s → ∃ cs, IsText s cs)
    (b : Bytes) (hb : assembleText table text = .ok b) (hlen : b.length < 2 ^ 32) (spare : Bytes) (mc mc' : MiddleC) :
    ∃ smf, decode mc spare b = .ok smf ∧ assembleJsonText mc' (exportText smf) = .ok b := by
  obtain ⟨smf, m, d1, d2, m1, hdiv, hv, ht⟩ := repeatable_plain htab hr hb hlen spare mc
  refine ⟨smf, d1, ?_⟩
  rw [C89_assembles_export, C58_json_roundtrip_partial mc _ spare b smf d1 m m1 hdiv (plain_exports ht (texts_of_views hv hu)), d2]

/-- The file assembled from a document is read with plain contents, if lines could state its events. -/
theorem document_plain {mc mc' : MiddleC} {a s rest : Bytes} {j : Json} (ha : Space a) (hs : JsonText CharsRead j s) (hd : nesting j ≤ 10000)
    {f d : Nat} {ts : List (List Event)} (hj : DocumentSays j f d ts) (hn : ts.length < 65536) (hmet : d < 32768) (hk : ∀ es ∈ ts, RecoverableTrack es)
    (hp : ∀ es ∈ ts, ∀ e ∈ es, ¬ PacketGoesOn e.body) (hl : ∀ es ∈ ts, ∀ e ∈ es, e.body.FromLine Lib.manufacturers)
    (hcr : ∀ es ∈ ts, ∀ e ∈ es, ∀ k s, e.body = .text k s → s.getLast? ≠ some 13)
    (hlast : ∀ es ∈ ts, ∀ e, es.getLast? = some e → ¬ e.body.IsMessage)
    {b : Bytes} (hb : assembleJsonText mc (a ++ s ++ rest) = .ok b) (hlen : b.length < 2 ^ 32) (spare : Bytes) :
    ∃ smf m, decode mc' spare b = .ok smf ∧ encode smf = .ok b ∧ smf.mthd = some m ∧ m.division.toNat < 32768 ∧ (smf.tracks = [] → ts = []) ∧
      ∀ t ∈ smf.tracks, (∃ last, t.events.getLast? = some last ∧ ¬ last.body.IsMessage) ∧ ∀ e ∈ t.events, e.body.Plain := by
  obtain ⟨smf, m, d1, d2, m1, hdiv, hv, _⟩ := document_again (mc' := mc') ha hs hd hj hn hmet hk hp hb hlen spare
  refine ⟨smf, m, d1, d2, m1, hdiv, ?_, plain_of_views d1 hv ?_ hp hcr hlast⟩
  · intro hz
    rw [hz] at hv
    exact List.map_eq_nil_iff.1 hv.symm
  · intro es hes
    obtain ⟨_, given, n3⟩ := document_restored hj es hes
    refine ⟨?_, hl es hes, given, n3⟩
    obtain ⟨_, _, _, _, _, rfl, _⟩ := restored_first n3
    simp

/-- **C169.** From JSON to text: a JSON document is assembled to a file, the file disassembled and the text assembled, and the result is the same file. -/
theorem C169_json_to_text (table : List (String × Lib.Manufacturer)) (htab : ∀ e, e ∈ table ↔ e ∈ Lib.manufacturers) (mc : MiddleC)
    (a s rest : Bytes) (j : Json) (ha : Space a) (hs : JsonText CharsRead j s) (hd : nesting j ≤ 10000)
    (f d : Nat) (ts : List (List Event)) (hj : DocumentSays j f d ts) (hn : ts.length < 65536) (hmet : d < 32768) (hk : ∀ es ∈ ts, RecoverableTrack es)
    (hp : ∀ es ∈ ts, ∀ e ∈ es, ¬ PacketGoesOn e.body) (hl : ∀ es ∈ ts, ∀ e ∈ es, e.body.FromLine Lib.manufacturers)
    (hcr : ∀ es ∈ ts, ∀ e ∈ es, ∀ k s, e.body = .text k s → s.getLast? ≠ some 13)
    (hlast : ∀ es ∈ ts, ∀ e, es.getLast? = some e → ¬ e.body.IsMessage)
    (b : Bytes) (hb : assembleJsonText mc (a ++ s ++ rest) = .ok b) (hlen : b.length < 2 ^ 32) (spare : Bytes) :
    ∃ smf text, decode .c3 spare b = .ok smf ∧ printSMF smf = .ok text ∧ (ShortLines text → assembleText table text = .ok b) := by
  obtain ⟨smf, m, d1, d2, m1, hdiv, _, ht⟩ := document_plain (mc' := .c3) ha hs hd hj hn hmet hk hp hl hcr hlast hb hlen spare
  obtain ⟨text, g1, g2⟩ := C83_disassembly_assembles table htab spare b smf d1 m m1 hdiv ht
  exact ⟨smf, text, d1, g1, fun h => by rw [g2 h, d2]⟩

/-- **C169.** From text to JSON with the program, in three runs. -/
theorem C169_text_to_json_runs (w : World) (args argv args' argv' args'' argv'' : List Bytes) (s s' s'' : List (Bytes × FlagValue)) (r r' r'' : List Bytes)
    (hi : Invokes .assemble args argv) (hl : CommandLine (options .assemble) args s r)
    (hi' : Invokes .export_ args' argv') (hl' : CommandLine (options .export_) args' s' r')
    (hi'' : Invokes .assemble args'' argv'') (hl'' : CommandLine (options .assemble) args'' s'' r'')
    (text : Bytes) (hr : r.headD [] ≠ []) (hrd : w.read (r.headD []) = some text) (hext : extPath (r.headD []) ≠ str ".json")
    (h : Header) (ts : List (List Event)) (ht : Repeatable Lib.manufacturers text h ts) (hne : ts ≠ [])
    (hu : ∀ es ∈ ts, ∀ e ∈ es, ∀ k s, e.body = .text k s → ∃ cs, IsText s cs)
    (b : Bytes) (hb : assembleText Lib.manufacturers text = .ok b) (hlen : b.length < 2 ^ 32)
    (mid : Bytes) (ho : Output s mid) (hc : w.create mid = true)
    (hr' : r'.headD [] = mid) (doc : Bytes) (ho' : Output s' doc) (hc' : w.create doc = true)
    (hr'' : r''.headD [] = doc) (hext' : extPath doc = str ".json") (out : Bytes) (ho'' : Output s'' out) (hc'' : w.create out = true) :
    midiasm w argv = ⟨[(mid, b)], [], .success⟩ ∧
    midiasm ((w.after (midiasm w argv)).after (midiasm (w.after (midiasm w argv)) argv')) argv'' = ⟨[(out, b)], [], .success⟩ := by
  have e1 : midiasm w argv = ⟨[(mid, b)], [], .success⟩ := by
    rw [midiasm_runs hi hl, does_assemble hr hrd, if_neg hext, hb]
    exact save_ok_out ho hc
  have hnam : ∃ mc', Naming s' mc' := by
    by_cases hg : Given s' "C4" (.bool true)
    · exact ⟨.c4, Or.inl ⟨rfl, hg⟩⟩
    · exact ⟨.c3, Or.inr ⟨rfl, hg⟩⟩
  obtain ⟨mc', hmc⟩ := hnam
  obtain ⟨smf, m, d1, d2, m1, hdiv, hv, hpl⟩ := repeatable_plain (fun _ => Iff.rfl) ht hb hlen w.spare mc'
  refine ⟨e1, ?_⟩
  have hmid : (w.after (midiasm w argv)).read (r'.headD []) = some b := by rw [hr', e1, after_read]
  obtain ⟨bytes, k1, k2⟩ := C97_export_assemble (w.after (midiasm w argv)) args' argv' args'' argv'' s' s'' r' r'' hi' hl' hi'' hl'' smf
    ⟨by rw [hr']; exact ho.1, b, mc', hmid, hmc, d1⟩ doc ho' hc' hr'' hext' out ho'' hc'' m m1 hdiv
    (by
      rintro ⟨_, _, _, hz⟩
      rw [hz] at hv
      exact hne (List.map_eq_nil_iff.1 hv.symm)) (plain_exports hpl (texts_of_views hv hu))
  rw [d2] at k1
  injection k1 with k1
  subst k1
  exact k2

/-- **C169.** From JSON to text with the program, in three runs. -/
theorem C169_json_to_text_runs (w : World) (args argv args' argv' args'' argv'' : List Bytes) (s s' s'' : List (Bytes × FlagValue)) (r r' r'' : List Bytes)
    (hi : Invokes .assemble args argv) (hl : CommandLine (options .assemble) args s r)
    (hi' : Invokes .disassemble args' argv') (hl' : CommandLine (options .disassemble) args' s' r')
    (hi'' : Invokes .assemble args'' argv'') (hl'' : CommandLine (options .assemble) args'' s'' r'')
    (a doc rest : Bytes) (hr : r.headD [] ≠ []) (hrd : w.read (r.headD []) = some (a ++ doc ++ rest)) (hext : extPath (r.headD []) = str ".json")
    (j : Json) (ha : Space a) (hdoc : JsonText CharsRead j doc) (hd : nesting j ≤ 10000)
    (f d : Nat) (ts : List (List Event)) (hj : DocumentSays j f d ts) (hne : ts ≠ []) (hn : ts.length < 65536) (hmet : d < 32768)
    (hk : ∀ es ∈ ts, RecoverableTrack es) (hgo : ∀ es ∈ ts, ∀ e ∈ es, ¬ PacketGoesOn e.body)
    (hline : ∀ es ∈ ts, ∀ e ∈ es, e.body.FromLine Lib.manufacturers)
    (hcr : ∀ es ∈ ts, ∀ e ∈ es, ∀ k s, e.body = .text k s → s.getLast? ≠ some 13)
    (hlast : ∀ es ∈ ts, ∀ e, es.getLast? = some e → ¬ e.body.IsMessage)
    (b : Bytes) (hb : assembleJsonText .c3 (a ++ doc ++ rest) = .ok b) (hlen : b.length < 2 ^ 32)
    (mid : Bytes) (ho : Output s mid) (hc : w.create mid = true)
    (hr' : r'.headD [] = mid) (hp : NoText s' "templates") (hs : ¬ Given s' "split" (.bool true)) (hC4 : ¬ Given s' "C4" (.bool true))
    (again : Bytes) (ho' : Output s' again) (hc' : w.create again = true)
    (hr'' : r''.headD [] = again) (hext' : extPath again ≠ str ".json") (out : Bytes) (ho'' : Output s'' out) (hc'' : w.create out = true)
    (hshort : ∀ t, (midiasm (w.after (midiasm w argv)) argv').files = [(again, t)] → ShortLines t) :
    midiasm w argv = ⟨[(mid, b)], [], .success⟩ ∧
    midiasm ((w.after (midiasm w argv)).after (midiasm (w.after (midiasm w argv)) argv')) argv'' = ⟨[(out, b)], [], .success⟩ := by
  have e1 : midiasm w argv = ⟨[(mid, b)], [], .success⟩ := by
    rw [midiasm_runs hi hl, does_assemble hr hrd, if_pos hext, (C138_json_text (middleC s) _ _).2 ((C138_json_text .c3 _ _).1 hb)]
    exact save_ok_out ho hc
  obtain ⟨smf, m, d1, d2, m1, hdiv, hz, hpl⟩ := document_plain (mc' := .c3) ha hdoc hd hj hn hmet hk hgo hline hcr hlast hb hlen w.spare
  refine ⟨e1, ?_⟩
  have hmid : (w.after (midiasm w argv)).read (r'.headD []) = some b := by rw [hr', e1, after_read]
  obtain ⟨bytes, k1, k2⟩ := C96_disassemble_assemble (w.after (midiasm w argv)) args' argv' args'' argv'' s' s'' r' r'' hi' hl' hi'' hl'' smf
    ⟨by rw [hr']; exact ho.1, b, .c3, hmid, Or.inr ⟨rfl, hC4⟩, d1⟩ hp hs hC4 again ho' hc' hr'' hext' out ho'' hc'' m m1 hdiv
    (fun h => hne (hz h)) hpl hshort
  rw [d2] at k1
  injection k1 with k1
  subst k1
  exact k2

/-! ### Examples -/

/-- C169: a text that meets the hypotheses. -/
example : Repeatable Lib.manufacturers noteAndMessage ⟨0, 1, 96⟩ [noteAndMessageEvents] ∧
    ∀ es ∈ [noteAndMessageEvents], ∀ e ∈ es, ∀ k s, e.body = .text k s → ∃ cs, IsText s cs := by
  refine ⟨noteAndMessage_repeatable, ?_⟩
  intro es hes
  rw [List.mem_singleton.1 hes]
  simp only [noteAndMessageEvents, List.forall_mem_cons, List.not_mem_nil, false_implies, implies_true, and_true, reduceCtorEq, Body.text.injEq]
  rintro k s ⟨_, rfl⟩
  exact ⟨"hello".toList, by unfold IsText; decide +kernel⟩

/-- C169: a document whose events lines can state (see also the example of C168). -/
example : DocumentSays bendDocument 0 96 [bendEvents] ∧ RecoverableTrack bendEvents ∧ (∀ e ∈ bendEvents, ¬ PacketGoesOn e.body) ∧
    (∀ e ∈ bendEvents, e.body.FromLine Lib.manufacturers) ∧ (∀ e ∈ bendEvents, ∀ k s, e.body = .text k s → s.getLast? ≠ some 13) ∧
    ∀ e, bendEvents.getLast? = some e → ¬ e.body.IsMessage := by
  refine ⟨bend_says.1, bend_says.2, ?_, ?_, ?_, ?_⟩
  · simp [bendEvents, PacketGoesOn]
  · simp [bendEvents, Body.FromLine]
  · simp [bendEvents]
  · simp [bendEvents, Body.IsMessage]

end Midiasm
