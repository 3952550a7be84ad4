import Verif.Props.AssembledRead
import Verif.Props.Printed
import Verif.Props.Manufacturers
import Verif.Props.LineImage
import Verif.Props.NormalForm

/-!
C167: the disassembly of an assembled text assembles to the same file.
-/

set_option linter.unusedSimpArgs false

namespace Midiasm
open Spec

/-! ### Manufacturers -/

theorem entries_found : ∀ e ∈ Lib.manufacturers, (Lib.lookupKey Lib.manufacturers (Lib.manufacturerKey e.2.id)).isSome = true := by decide +kernel

/-- A manufacturer with the ID of an entry is known. -/
theorem known_of_id {m : Lib.Manufacturer} (h : ∃ key, (key, m) ∈ Lib.manufacturers) (id : Bytes) (hi : (Lib.lookupManufacturer id).id = m.id) :
    (Lib.lookupManufacturer id).name ≠ "<unknown>" := by
  obtain ⟨key, h⟩ := h
  have h1 := table_entries _ h
  simp only [Bool.and_eq_true, Bool.or_eq_true, beq_iff_eq, bne_iff_ne, ne_eq] at h1
  have h2 := entries_found _ h
  have h3 : id.length = 1 ∨ id.length = 3 := by
    rw [← lookup_length, hi]
    exact h1.1.2
  rcases lookup_cases id h3 with ⟨a, b⟩ | ⟨m', _, b, _, _, _, c, _⟩
  · rw [b] at hi
    simp only at hi
    rw [← hi, a] at h2
    cases h2
  · rw [b]
    exact c

/-! ### What the events of a text are like -/

/-- What is known of an event that has been read from a line. -/
def Body.FromLine (table : List (String × Lib.Manufacturer)) : Body → Prop
  | .text k s => 10 ∉ s ∧ (∀ b, s.head? = some b → b ∉ blanks) ∧ Unambiguous k.tag s ∧ ¬ Occurs "MThd" s ∧ ¬ Occurs "MTrk" s
  | .timeSignature _ d _ t => d ≠ 0 ∧ t ≠ 0 ∧ (10 ≤ t → t % 10 ≠ 9) ∧ (100 ≤ t → t / 10 % 10 ≠ 9)
  | .sequencerSpecific m _ => ∃ key, (key, m) ∈ table
  | .sysExMessage m _ _ => ∃ key, (key, m) ∈ table
  | .noteOff _ n _ => 12 ≤ n.value ∧ n.value ≤ 131
  | .noteOn _ n _ => 12 ≤ n.value ∧ n.value ≤ 131
  | _ => True

theorem line_from {table : List (String × Lib.Manufacturer)} {line : Bytes} {e : Event} (h : readEvent table line = .ok e) (hs : ¬ Spec.Starts line) :
    e.body.FromLine table := by
  obtain ⟨h1, _⟩ := C112_line_says table line e h
  unfold readEvent at h
  cases hf : (textCases table).find? (fun c => contains line (str c.1)) with
  | none => rw [hf] at h; cases h
  | some c =>
    rw [hf] at h
    obtain ⟨⟨delta, body⟩, h2, h⟩ := bound_ok h
    injection h with h
    subst h
    have hc := copied_case table line delta body c (List.mem_of_find?_eq_some hf) h2
    cases body with
    | text k s => exact ⟨hc.1, hc.2.1, h1.2.2, fun o => hs (Or.inl (o.trans hc.2.2)), fun o => hs (Or.inr (o.trans hc.2.2))⟩
    | timeSignature n d c t =>
      obtain ⟨a, _, b⟩ := h1
      refine ⟨?_, b⟩
      rintro rfl
      revert a
      decide
    | sequencerSpecific m _ => exact hc.1
    | sysExMessage m _ _ => exact hc.1
    | noteOff ch n v => exact ⟨h1.1.2.2.1, h1.1.2.2.2.1⟩
    | noteOn ch n v => exact ⟨h1.1.2.2.1, h1.1.2.2.2.1⟩
    | _ => trivial

theorem endPacket_from {table : List (String × Lib.Manufacturer)} {b : Body} (h : b.FromLine table) : (endPacket b).FromLine table := by
  cases b <;> exact h

theorem restored_from {table : List (String × Lib.Manufacturer)} {es es' : List Event} (h : TerminatorsRestored es es')
    (hr : ∀ e ∈ es, e.body.FromLine table) : ∀ e ∈ es', e.body.FromLine table := by
  induction h with
  | last e => exact hr
  | goesOn e n es es' _ _ ih =>
    intro x hx
    rcases List.mem_cons.1 hx with rfl | hx
    · exact hr _ (by simp)
    · exact ih (fun y hy => hr y (by simp [hy])) x hx
  | ends e n es es' _ _ ih =>
    intro x hx
    rcases List.mem_cons.1 hx with rfl | hx
    · exact endPacket_from (hr e (by simp))
    · exact ih (fun y hy => hr y (by simp [hy])) x hx

theorem restored_first {es es' : List Event} (h : TerminatorsRestored es es') : ∃ e e' l l', es = e :: l ∧ es' = e' :: l' ∧
    (e'.body = e.body ∨ e'.body = endPacket e.body) := by
  cases h with
  | last e => exact ⟨e, e, [], [], rfl, rfl, Or.inl rfl⟩
  | goesOn e n es es' _ _ => exact ⟨e, e, _, _, rfl, rfl, Or.inl rfl⟩
  | ends e n es es' _ _ => exact ⟨e, _, _, _, rfl, rfl, Or.inr rfl⟩

/-- Without continuations all messages but the last event have been terminated. -/
theorem restored_ended {es es' : List Event} (h : TerminatorsRestored es es') (hp : ∀ e ∈ es', ¬ PacketGoesOn e.body) :
    ∀ (i : Nat) (e : Event), es'[i]? = some e → i + 1 < es'.length → ∀ m d s, e.body = .sysExMessage m d s → s = true := by
  induction h with
  | last e =>
    intro i x _ hl
    simp at hl
  | goesOn e n es es' hn hr ih =>
    exfalso
    obtain ⟨a, a', l, l', e1, rfl, hh⟩ := restored_first hr
    injection e1 with e1 _
    subst e1
    obtain ⟨d, t, hb⟩ := hn
    apply hp a' (by simp)
    rcases hh with hh | hh
    · exact ⟨d, t, by rw [hh, hb]⟩
    · exact ⟨d, true, by rw [hh, hb]; rfl⟩
  | ends e n es es' hn hr ih =>
    intro i x hx hl m d s hb
    cases i with
    | zero =>
      simp only [List.getElem?_cons_zero, Option.some.injEq] at hx
      subst hx
      simp only at hb
      cases hbe : e.body <;> rw [hbe] at hb <;> simp only [endPacket] at hb <;> cases hb
      rfl
    | succ i =>
      exact ih (fun y hy => hp y (by simp [hy])) i x hx (by simpa using hl) m d s hb

theorem holds_from {table : List (String × Lib.Manufacturer)} {ls : List Bytes} {es : List Event} (h : TrackHolds table ls es) (hs : ∀ l ∈ ls, ¬ Spec.Starts l) :
    ∀ e ∈ es, e.body.FromLine table := by
  induction h with
  | nil => simp
  | skip l ls es _ _ ih => exact ih fun l h => hs l (by simp [h])
  | event l ls e es _ h1 _ ih =>
    intro x hx
    rcases List.mem_cons.1 hx with rfl | hx
    · exact line_from ((C132_line_means table l _).2 h1) (hs l (by simp))
    · exact ih (fun l h => hs l (by simp [h])) x hx

theorem stands_from {table : List (String × Lib.Manufacturer)} {secs : List (List Bytes)} {h : Option Header} {ts : List (List Event)}
    (hs : Stands table secs h ts) (hc : ∀ c ∈ secs, ∃ l t, c = l :: t ∧ Spec.Starts l ∧ ∀ x ∈ t, ¬ Spec.Starts x) :
    ∀ es ∈ ts, es ≠ [] ∧ (∀ e ∈ es, e.body.FromLine table) ∧ ∃ given, TerminatorsRestored given es := by
  induction hs with
  | nil => simp
  | comment ss h ts l t _ _ ih => exact ih fun c hx => hc c (by simp [hx])
  | header ss h ts l t f d _ _ _ hl ih => exact ih fun c hx => hc c (by simp [hx])
  | track ss h ts l t es es' _ _ _ _ h1 h2 ih =>
    intro x hx
    rcases List.mem_append.1 hx with hx | hx
    · exact ih (fun c hx => hc c (by simp [hx])) x hx
    · rw [List.mem_singleton.1 hx]
      obtain ⟨l', t', e1, _, hn⟩ := hc (l :: t) (by simp)
      injection e1 with _ e1
      subst e1
      refine ⟨?_, restored_from h2 (holds_from h1 hn), es, h2⟩
      obtain ⟨_, _, _, _, _, rfl, _⟩ := restored_first h2
      simp

/-! ### The events read again -/

theorem plain_of_view {b b' : Body} (hv : b.view = b'.view) (hm : b.Made) (hf : b'.FromLine Lib.manufacturers)
    (hcr : ∀ k s, b' = .text k s → s.getLast? ≠ some 13) (hs : ∀ m d s, b' = .sysExMessage m d s → s = true) (hc : ¬ PacketGoesOn b') : b.Plain := by
  cases b <;> try trivial
  case text k s =>
    cases b' <;> simp only [Body.view, Content.text.injEq, reduceCtorEq] at hv
    rename_i k' s'
    obtain ⟨h1, rfl⟩ := hv
    have : k = k' := by
      revert h1
      cases k <;> cases k' <;> decide
    subst this
    obtain ⟨a, b, c, d, e⟩ := hf
    exact ⟨a, b, hcr _ _ rfl, c, d, e⟩
  case timeSignature n d c t =>
    cases b' <;> simp only [Body.view, Content.timeSignature.injEq, reduceCtorEq, UInt8.toNat_inj] at hv
    obtain ⟨rfl, rfl, rfl, rfl⟩ := hv
    exact hf
  case sequencerSpecific m data =>
    cases b' <;> simp only [Body.view, Content.sequencerSpecific.injEq, reduceCtorEq] at hv
    obtain ⟨id, rfl⟩ := hm
    exact known_of_id hf id hv.1
  case noteOff ch n v =>
    cases b' <;> simp only [Body.view, Content.noteOff.injEq, reduceCtorEq, UInt8.toNat_inj] at hv
    obtain ⟨_, h, _⟩ := hv
    exact ⟨h ▸ hf.1, h ▸ hf.2⟩
  case noteOn ch n v =>
    cases b' <;> simp only [Body.view, Content.noteOn.injEq, reduceCtorEq, UInt8.toNat_inj] at hv
    obtain ⟨_, h, _⟩ := hv
    exact ⟨h ▸ hf.1, h ▸ hf.2⟩
  case sysExMessage m d s =>
    cases b' <;> simp only [Body.view, Content.sysex.injEq, reduceCtorEq] at hv
    obtain ⟨h1, _, rfl⟩ := hv
    obtain ⟨id, rfl⟩ := hm
    exact ⟨known_of_id hf id h1, hs _ _ _ rfl⟩
  case sysExContinuation d s =>
    cases b' <;> simp only [Body.view, reduceCtorEq] at hv
    exact hc ⟨_, _, rfl⟩

/-- A text that states the header and the events.  The events are to be recoverable (C151), without continuations of SysEx messages, texts that end in a
carriage return and tracks that end in a SysEx message; the number of ticks is to be that of a metrical time. -/
structure Repeatable (table : List (String × Lib.Manufacturer)) (text : Bytes) (h : Header) (ts : List (List Event)) : Prop where
  short : ShortLines text
  states : ∃ lines secs, Lines text lines ∧ Chunked lines secs ∧ Stands table secs (some h) ts
  tracks : h.tracks = ts.length
  metrical : h.division < 32768
  recoverable : ∀ es ∈ ts, RecoverableTrack es
  whole : ∀ es ∈ ts, ∀ e ∈ es, ¬ PacketGoesOn e.body
  noReturn : ∀ es ∈ ts, ∀ e ∈ es, ∀ k s, e.body = .text k s → s.getLast? ≠ some 13
  noMessageLast : ∀ es ∈ ts, ∀ e, es.getLast? = some e → ¬ e.body.IsMessage

/-- The events read from a file are plain if they have the field values of events that lines can state. -/
theorem plain_of_views {mc : MiddleC} {spare b : Bytes} {smf : SMF} (d1 : decode mc spare b = .ok smf) {ts : List (List Event)}
    (hview : smf.tracks.map (fun t => t.events.map fun e => (e.delta.toNat, e.body.view)) = stated ts)
    (hfrom : ∀ es ∈ ts, es ≠ [] ∧ (∀ e ∈ es, e.body.FromLine Lib.manufacturers) ∧ ∃ given, TerminatorsRestored given es)
    (hp : ∀ es ∈ ts, ∀ e ∈ es, ¬ PacketGoesOn e.body) (hcr : ∀ es ∈ ts, ∀ e ∈ es, ∀ k s, e.body = .text k s → s.getLast? ≠ some 13)
    (hlast : ∀ es ∈ ts, ∀ e, es.getLast? = some e → ¬ e.body.IsMessage) :
    ∀ t ∈ smf.tracks, (∃ last, t.events.getLast? = some last ∧ ¬ last.body.IsMessage) ∧ ∀ e ∈ t.events, e.body.Plain := by
  have hlen0 := congrArg List.length hview
  rw [List.length_map, stated, List.length_map] at hlen0
  intro t ht
  obtain ⟨i, hi, rfl⟩ := List.mem_iff_getElem.1 ht
  have hte : (smf.tracks[i].events.map fun e => (e.delta.toNat, e.body.view)) = (ts[i]'(by omega)).map fun e => (e.delta.toNat, e.body.view) := by
    have := congrArg (fun l => l[i]?) hview
    simp only [stated, List.getElem?_map, List.getElem?_eq_getElem hi, List.getElem?_eq_getElem (show i < ts.length by omega), Option.map_some,
      Option.some.injEq] at this
    exact this
  have hes : ts[i]'(by omega) ∈ ts := List.getElem_mem _
  generalize ts[i]'(by omega) = es at hte hes
  obtain ⟨n1, n2, given, n3⟩ := hfrom es hes
  have hel : smf.tracks[i].events.length = es.length := by
    have := congrArg List.length hte
    simpa using this
  have hev : ∀ j (hj : j < smf.tracks[i].events.length), (smf.tracks[i].events[j]).body.view = (es[j]'(by omega)).body.view := by
    intro j hj
    have := congrArg (fun l => l[j]?) hte
    simp only [List.getElem?_map, List.getElem?_eq_getElem hj, List.getElem?_eq_getElem (show j < es.length by omega), Option.map_some,
      Option.some.injEq, Prod.mk.injEq] at this
    exact this.2
  have hpos : 0 < es.length := List.length_pos_iff.2 n1
  constructor
  · refine ⟨smf.tracks[i].events[es.length - 1]'(by omega), ?_, ?_⟩
    · rw [List.getLast?_eq_getElem?, List.getElem?_eq_getElem (by omega)]
      congr 2
      omega
    · rintro ⟨mm, d, s, hm⟩
      have := hev (es.length - 1) (by omega)
      rw [hm] at this
      have hl := hlast es hes (es[es.length - 1]'(by omega)) (by rw [List.getLast?_eq_getElem?]; exact List.getElem?_eq_getElem _)
      apply hl
      cases hbb : (es[es.length - 1]'(by omega)).body <;> rw [hbb] at this <;> simp only [Body.view, reduceCtorEq] at this
      exact ⟨_, _, _, rfl⟩
  · intro e he
    obtain ⟨j, hj, rfl⟩ := List.mem_iff_getElem.1 he
    have hje : es[j]'(by omega) ∈ es := List.getElem_mem _
    refine plain_of_view (hev j hj) (decoded_made d1 _ ht _ he) (n2 _ hje) (hcr es hes _ hje) ?_ (hp es hes _ hje)
    intro mm d s hm
    by_cases hlt : j + 1 < es.length
    · exact restored_ended n3 (hp es hes) j _ (List.getElem?_eq_getElem (by omega)) hlt mm d s hm
    · exfalso
      refine hlast es hes (es[j]'(by omega)) ?_ ⟨mm, d, s, hm⟩
      rw [List.getLast?_eq_getElem?, show es.length - 1 = j by omega]
      exact List.getElem?_eq_getElem _

/-- The file assembled from such a text is read with plain contents, and written as it was. -/
theorem repeatable_plain {table : List (String × Lib.Manufacturer)} (htab : ∀ e, e ∈ table ↔ e ∈ Lib.manufacturers) {text : Bytes} {h : Header}
    {ts : List (List Event)} (hr : Repeatable table text h ts) {b : Bytes} (hb : assembleText table text = .ok b) (hlen : b.length < 2 ^ 32) (spare : Bytes)
    (mc : MiddleC) :
    ∃ smf m, decode mc spare b = .ok smf ∧ encode smf = .ok b ∧ smf.mthd = some m ∧ m.division.toNat < 32768 ∧
      smf.tracks.map (fun t => t.events.map fun e => (e.delta.toNat, e.body.view)) = stated ts ∧
      ∀ t ∈ smf.tracks, (∃ last, t.events.getLast? = some last ∧ ¬ last.body.IsMessage) ∧ ∀ e ∈ t.events, e.body.Plain := by
  obtain ⟨hshort, ⟨lines, secs, h1, h2, h3⟩, hn, hmet, hk, hp, hcr, hlast⟩ := hr
  obtain ⟨smf, d1, d2⟩ := C151_text_final table text hshort lines secs h ts h1 h2 h3 hn hk hp b hb hlen mc spare
  obtain ⟨b', k1, k2, _⟩ := C151_text table text hshort lines secs h ts h1 h2 h3 hn hk
  rw [hb] at k1
  injection k1 with k1
  subst k1
  obtain ⟨ts', f1, f2⟩ := k2 hlen mc
  obtain ⟨smf', d3, ⟨m, m1, m2, _⟩, m3⟩ := (C143_decoding mc spare b h ts').2 f1
  rw [d1] at d3
  injection d3 with d3
  subst d3
  have hview : smf.tracks.map (fun t => t.events.map fun e => (e.delta.toNat, e.body.view)) = stated ts := by
    rw [← f2, ← m3, contentsOf, List.map_map]
    apply List.map_congr_left
    intro t _
    simp only [Function.comp_apply, MTrk.entry, List.map_map]
    rfl
  have hfrom := stands_from h3 h2.split
  have hdiv : m.division.toNat < 32768 := by
    have := m2
    obtain ⟨_, _, _, _, s5, _⟩ := this
    rw [s5]
    exact hmet
  refine ⟨smf, m, d1, d2, m1, hdiv, hview, plain_of_views d1 hview ?_ hp hcr hlast⟩
  intro es hes
  obtain ⟨n1, n2, n3⟩ := hfrom es hes
  refine ⟨n1, fun e he => ?_, n3⟩
  have := n2 e he
  cases hbb : e.body <;> rw [hbb] at this <;> try exact this
  · obtain ⟨key, hk⟩ := this
    exact ⟨key, (htab _).1 hk⟩
  · obtain ⟨key, hk⟩ := this
    exact ⟨key, (htab _).1 hk⟩

/-- **C167.** A text is assembled to a file.  The disassembly of this file, if its lines are short, is assembled to the same file again, byte for byte. -/
theorem C167_text_again (table : List (String × Lib.Manufacturer)) (htab : ∀ e, e ∈ table ↔ e ∈ Lib.manufacturers) (text : Bytes) (h : Header)
    (ts : List (List Event)) (hr : Repeatable table text h ts) (b : Bytes) (hb : assembleText table text = .ok b) (hlen : b.length < 2 ^ 32) (spare : Bytes) :
    ∃ smf again, decode .c3 spare b = .ok smf ∧ printSMF smf = .ok again ∧ (ShortLines again → assembleText table again = .ok b) := by
  obtain ⟨smf, m, d1, d2, m1, hdiv, _, ht⟩ := repeatable_plain htab hr hb hlen spare .c3
  obtain ⟨again, g1, g2⟩ := C83_disassembly_assembles table htab spare b smf d1 m m1 hdiv ht
  exact ⟨smf, again, d1, g1, fun hs => by rw [g2 hs, d2]⟩

/-- **C167.** The same with the program: assembling a text file, disassembling the MIDI file and assembling the text again writes the bytes that were written
at first. -/
theorem C167_three_runs (w : World) (args argv args' argv' args'' argv'' : List Bytes) (s s' s'' : List (Bytes × FlagValue)) (r r' r'' : List Bytes)
    (hi : Invokes .assemble args argv) (hl : CommandLine (options .assemble) args s r)
    (hi' : Invokes .disassemble args' argv') (hl' : CommandLine (options .disassemble) args' s' r')
    (hi'' : Invokes .assemble args'' argv'') (hl'' : CommandLine (options .assemble) args'' s'' r'')
    (text : Bytes) (hr : r.headD [] ≠ []) (hrd : w.read (r.headD []) = some text) (hext : extPath (r.headD []) ≠ str ".json")
    (h : Header) (ts : List (List Event)) (ht : Repeatable Lib.manufacturers text h ts) (hne : ts ≠ [])
    (b : Bytes) (hb : assembleText Lib.manufacturers text = .ok b) (hlen : b.length < 2 ^ 32)
    (mid : Bytes) (ho : Output s mid) (hc : w.create mid = true)
    (hr' : r'.headD [] = mid) (hp : NoText s' "templates") (hs : ¬ Given s' "split" (.bool true)) (hC4 : ¬ Given s' "C4" (.bool true))
    (again : Bytes) (ho' : Output s' again) (hc' : w.create again = true)
    (hr'' : r''.headD [] = again) (hext' : extPath again ≠ str ".json") (out : Bytes) (ho'' : Output s'' out) (hc'' : w.create out = true)
    (hshort : ∀ t, (midiasm (w.after (midiasm w argv)) argv').files = [(again, t)] → ShortLines t) :
    midiasm w argv = ⟨[(mid, b)], [], .success⟩ ∧
    midiasm ((w.after (midiasm w argv)).after (midiasm (w.after (midiasm w argv)) argv')) argv'' = ⟨[(out, b)], [], .success⟩ := by
  have e1 : midiasm w argv = ⟨[(mid, b)], [], .success⟩ := by
    rw [midiasm_runs hi hl, does_assemble hr hrd, if_neg hext, hb]
    exact save_ok_out ho hc
  obtain ⟨smf, m, d1, d2, m1, hdiv, hn, hpl⟩ := repeatable_plain (fun _ => Iff.rfl) ht hb hlen w.spare .c3
  refine ⟨e1, ?_⟩
  have hmid : (w.after (midiasm w argv)).read (r'.headD []) = some b := by rw [hr', e1, after_read]
  obtain ⟨bytes, k1, k2⟩ := C96_disassemble_assemble (w.after (midiasm w argv)) args' argv' args'' argv'' s' s'' r' r'' hi' hl' hi'' hl'' smf
    ⟨by rw [hr']; exact ho.1, b, .c3, hmid, Or.inr ⟨rfl, hC4⟩, d1⟩ hp hs hC4 again ho' hc' hr'' hext' out ho'' hc'' m m1 hdiv
    (by
      intro hz
      rw [hz] at hn
      exact hne (List.map_eq_nil_iff.1 hn.symm)) hpl hshort
  rw [d2] at k1
  injection k1 with k1
  subst k1
  exact k2

/-! ### Example -/

/-- A text, a note, a message and the end of the track. -/
def noteAndMessage : Bytes :=
  str "MThd format:0 metrical-time:96 ppqn\nMTrk\ndelta:0 Text hello\ndelta:200 NoteOn channel:1 note:C4, velocity:64\ndelta:0 SysExMessage Roland, 10 42\ndelta:0 EndOfTrack\n"

/-- The events that it states. -/
def noteAndMessageEvents : List Event :=
  [⟨0, 0, [], .text .text (str "hello")⟩, ⟨0, 200, [], .noteOn 1 ⟨60, "C4", "C4"⟩ 64⟩,
    ⟨0, 0, [], .sysExMessage ⟨[0x41], "Japanese", "Roland"⟩ [0x10, 0x42] true⟩, ⟨0, 0, [], .endOfTrack⟩]

/-- C167: a text that meets the hypotheses. -/
theorem noteAndMessage_repeatable : Repeatable Lib.manufacturers noteAndMessage ⟨0, 1, 96⟩ [noteAndMessageEvents] := by
  obtain ⟨smf, h1, h2⟩ := Outcome.of_test (o := readChunks noteAndMessage >>= fun cs => assembleChunks Lib.manufacturers cs ⟨none, []⟩)
    (p := fun smf => decide (smf.tracks.map MTrk.events = [noteAndMessageEvents]) && (match smf.mthd with
      | some m => decide (m.format = 0) && decide (m.tracks = 1) && decide (m.division = 96)
      | none => false)) (by decide +kernel)
  have hshort : ShortLines noteAndMessage := by
    have := scanAux_long noteAndMessage [] (by decide +kernel)
    rwa [List.nil_append] at this
  obtain ⟨lines, secs, hl, hc, hr⟩ := (C105_long_lines Lib.manufacturers noteAndMessage).2 hshort
  rw [hr, Outcome.bind_ok] at h1
  obtain ⟨hd, ts, k1, ⟨k2, k3⟩, _⟩ := means_of_sections Lib.manufacturers secs hc.split smf h1
  simp only [Bool.and_eq_true, decide_eq_true_eq] at h2
  rw [h2.1] at k3
  subst k3
  have hst : Stands Lib.manufacturers secs (some ⟨0, 1, 96⟩) [noteAndMessageEvents] := by
    cases hd with
    | none => cases hm : smf.mthd <;> rw [hm] at k2 h2 <;> simp at k2 h2
    | some h =>
      cases hm : smf.mthd with
      | none => rw [hm] at k2; exact k2.elim
      | some m =>
        rw [hm] at k2 h2
        simp only [Bool.and_eq_true, decide_eq_true_eq] at h2
        obtain ⟨⟨_, _, a1, a2, a3⟩, b1, b2, b3⟩ := k2
        obtain ⟨_, ⟨c1, c2⟩, c3⟩ := h2
        obtain ⟨f, t, d⟩ := h
        rw [c1] at a1
        rw [c2] at a2
        rw [c3] at a3
        have a1 := congrArg UInt16.toNat a1
        have a2 := congrArg UInt16.toNat a2
        have a3 := congrArg UInt16.toNat a3
        simp only [UInt16.toNat_ofNat'] at a1 a2 a3
        have e1 : (0 : UInt16).toNat = 0 := rfl
        have e2 : (1 : UInt16).toNat = 1 := rfl
        have e3 : (96 : UInt16).toNat = 96 := rfl
        have : f = 0 ∧ t = 1 ∧ d = 96 := by simp only at b1 b2 b3; omega
        obtain ⟨rfl, rfl, rfl⟩ := this
        exact (means_stands Lib.manufacturers secs _ _).1 k1
  refine ⟨hshort, ⟨lines, secs, hl, hc, hst⟩, rfl, by decide, ?_, ?_, ?_, ?_⟩
  · intro es hes
    rw [List.mem_singleton.1 hes]
    refine ⟨?_, ?_, ?_⟩
    · simp only [noteAndMessageEvents, List.forall_mem_cons, List.not_mem_nil, false_implies, implies_true, and_true]
      exact ⟨⟨Or.inl (by decide +kernel), by decide⟩, ⟨(by decide : 60 ≤ 127), by decide⟩, ⟨⟨⟨0x41, rfl, by decide⟩, by decide, nofun⟩, by decide⟩, trivial, by decide⟩
    · intro e he hc
      cases he
      obtain ⟨_, _, hc⟩ := hc
      cases hc
    · intro i e n h1 h2 h3
      obtain ⟨_, _, h3⟩ := h3
      match i, h1, h2 with
      | 0, h1, h2 => cases h2; cases h3
      | 1, h1, h2 => cases h2; cases h3
      | 2, h1, h2 => cases h2; cases h3
      | 3, h1, h2 => cases h2
      | i + 4, h1, h2 => cases h1
  · intro es hes
    rw [List.mem_singleton.1 hes]
    simp [noteAndMessageEvents, PacketGoesOn]
  · intro es hes
    rw [List.mem_singleton.1 hes]
    simp only [noteAndMessageEvents, List.forall_mem_cons, List.not_mem_nil, false_implies, implies_true, and_true, reduceCtorEq, Body.text.injEq]
    rintro k s ⟨_, rfl⟩
    decide +kernel
  · intro es hes
    rw [List.mem_singleton.1 hes]
    rintro e he ⟨_, _, _, hm⟩
    cases he
    cases hm

end Midiasm
