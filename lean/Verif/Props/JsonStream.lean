import Verif.Model.JsonStream
import Verif.Lemmas.Streams
import Verif.Props.JsonFile

/-!
C140 and C141: assembling JSON from any reader.
-/

set_option linter.unusedSimpArgs false

namespace Midiasm
open Spec

/-- The value at the start of a buffer does not change when more is read. -/
theorem endsThere_more {p : Bytes} (h : endsThere p = true) (x : Bytes) : readJson (p ++ x) = readJson p ∧ endsThere (p ++ x) = true := by
  have key : readJson (p ++ x) = readJson p := by
    unfold endsThere at h
    cases hj : readJson p with
    | none => rw [hj] at h; cases h
    | some j =>
      obtain ⟨a, s, rest, rfl, ha, hs, hn⟩ := readJson_sound hj
      rw [hj] at h
      have := readJson_text read_readable (rest := rest ++ x) ha hs hn (by intro lit hl; subst hl; cases h)
      rw [← this]
      simp
  refine ⟨key, ?_⟩
  unfold endsThere at h ⊢
  rwa [key]

theorem roomy_pos (cap used : Nat) : 0 < roomy cap used - used ∨ cap < used := by
  unfold roomy
  split <;> omega

/-- What the decoder has read when the reader delivers `bytes` and then fails with `e`. -/
theorem readValueFrom_yields {σ : Type} {R : Reader σ} {e : ReadErr} {s : σ} {bytes : Bytes} (h : Yields R e s bytes) :
    ∀ (cap : Nat) (buf : Bytes), buf.length ≤ cap → ∃ f0, ∀ f, f0 ≤ f →
      (endsThere (buf ++ bytes) = true → ∃ p x, buf ++ bytes = p ++ x ∧ endsThere p = true ∧ readValueFrom R f s cap buf = .ok p) ∧
      (endsThere (buf ++ bytes) = false →
        readValueFrom R f s cap buf = if e = .eof then .ok (buf ++ bytes) else .err .other) := by
  induction h with
  | @step s bytes h1 h2 h3 ih =>
    intro cap buf hcap
    have hpos : 0 < roomy cap buf.length - buf.length := by
      rcases roomy_pos cap buf.length with h | h
      · exact h
      · omega
    have hge : cap ≤ roomy cap buf.length := by unfold roomy; split <;> omega
    generalize hn : roomy cap buf.length - buf.length = n at hpos
    obtain ⟨hlen, t, ht⟩ := h1 n hpos
    cases hr : R.read s n with
    | mk b r2 =>
    cases r2 with
    | mk e' s' =>
    rw [hr] at hlen ht
    simp only at hlen ht
    have hunf : ∀ f, readValueFrom R (f + 1) s cap buf =
        if endsThere (buf ++ b) then .ok (buf ++ b)
        else match (generalizing := false) e' with
          | none => readValueFrom R f s' (roomy cap buf.length) (buf ++ b)
          | some e => if e = .eof then .ok (buf ++ b) else .err .other := by
      intro f
      rw [readValueFrom, hn, hr]
      rfl
    by_cases hend : endsThere (buf ++ b) = true
    · refine ⟨1, fun f hf => ?_⟩
      obtain ⟨f, rfl⟩ : ∃ f', f = f' + 1 := ⟨f - 1, by omega⟩
      rw [hunf, if_pos hend]
      have hm := (endsThere_more hend t).2
      rw [List.append_assoc, ht] at hm
      exact ⟨fun _ => ⟨buf ++ b, t, by rw [List.append_assoc, ht], hend, rfl⟩, fun hx => by rw [hm] at hx; cases hx⟩
    · cases e' with
      | none =>
        have hstep := ih n hpos (by rw [hr])
        rw [hr] at hstep
        simp only at hstep
        rw [show bytes.drop b.length = t by rw [← ht, List.drop_left]] at hstep
        obtain ⟨f0, hf0⟩ := hstep (roomy cap buf.length) (buf ++ b) (by rw [List.length_append]; omega)
        refine ⟨f0 + 1, fun f hf => ?_⟩
        obtain ⟨f, rfl⟩ : ∃ f', f = f' + 1 := ⟨f - 1, by omega⟩
        rw [hunf, if_neg hend]
        have := hf0 f (by omega)
        rwa [List.append_assoc, ht] at this
      | some e' =>
        obtain ⟨rfl, hb, _⟩ := h3 n hpos e' (by rw [hr])
        rw [hr] at hb
        simp only at hb
        subst hb
        refine ⟨1, fun f hf => ?_⟩
        obtain ⟨f, rfl⟩ : ∃ f', f = f' + 1 := ⟨f - 1, by omega⟩
        rw [hunf, if_neg hend]
        exact ⟨fun hx => absurd hx hend, fun _ => rfl⟩

theorem assembleJsonText_ends {mc : MiddleC} {p x : Bytes} (h : endsThere p = true) : assembleJsonText mc (p ++ x) = assembleJsonText mc p := by
  unfold assembleJsonText
  rw [(endsThere_more h x).1]

/-- How a JSON text is delivered does not matter: any reader that delivers the text, in pieces of any size, with the end of the file along
with the last bytes or after them, leads to the result for the text. -/
theorem C140_json_delivery (mc : MiddleC) {σ : Type} (R : Reader σ) (s : σ) (text : List UInt8) (h : Yields R .eof s text) :
    ∃ f0, ∀ f, f0 ≤ f → assembleJsonFrom mc R f s = assembleJsonText mc text := by
  obtain ⟨f0, h0⟩ := readValueFrom_yields h 0 [] (Nat.le_refl _)
  refine ⟨f0, fun f hf => ?_⟩
  obtain ⟨h1, h2⟩ := h0 f hf
  rw [List.nil_append] at h1 h2
  unfold assembleJsonFrom
  cases he : endsThere text with
  | true =>
    obtain ⟨p, x, rfl, hp, hr⟩ := h1 he
    rw [hr, Outcome.bind_ok, assembleJsonText_ends hp]
  | false => rw [h2 he, if_pos rfl, Outcome.bind_ok]

/-- The text begins with a complete JSON object or array, after white space. -/
def BeginsComplete (text : List UInt8) : Prop :=
  ∃ a s rest j, text = a ++ s ++ rest ∧ Space a ∧ JsonText CharsRead j s ∧ nesting j ≤ 10000 ∧ ((∃ ms, j = .obj ms) ∨ ∃ l, j = .arr l)

theorem endsThere_iff (text : Bytes) : endsThere text = true ↔ BeginsComplete text := by
  constructor
  · intro h
    unfold endsThere at h
    cases hj : readJson text with
    | none => rw [hj] at h; cases h
    | some j =>
      obtain ⟨a, s, rest, e, ha, hs, hn⟩ := readJson_sound hj
      rw [hj] at h
      refine ⟨a, s, rest, j, e, ha, hs, hn, ?_⟩
      cases j with
      | obj ms => exact Or.inl ⟨ms, rfl⟩
      | arr l => exact Or.inr ⟨l, rfl⟩
      | _ => cases h
  · rintro ⟨a, s, rest, j, rfl, ha, hs, hn, hj⟩
    unfold endsThere
    rw [readJson_text read_readable ha hs hn (by intro lit hl; subst hl; rcases hj with ⟨_, h⟩ | ⟨_, h⟩ <;> cases h)]
    rcases hj with ⟨_, rfl⟩ | ⟨_, rfl⟩ <;> rfl

/-- A reader that fails, with whatever error but the end of the file itself: the failure is reported if no object or array was complete before,
and goes unnoticed otherwise; the result is then the one for what was delivered. -/
theorem C141_json_failure_partial (mc : MiddleC) {σ : Type} (R : Reader σ) (e : ReadErr) (he : e ≠ .eof) (s : σ) (text : List UInt8)
    (h : Yields R e s text) : ∃ f0, ∀ f, f0 ≤ f →
      (BeginsComplete text → assembleJsonFrom mc R f s = assembleJsonText mc text) ∧
      (¬ BeginsComplete text → assembleJsonFrom mc R f s = .err .other) := by
  obtain ⟨f0, h0⟩ := readValueFrom_yields h 0 [] (Nat.le_refl _)
  refine ⟨f0, fun f hf => ?_⟩
  obtain ⟨h1, h2⟩ := h0 f hf
  rw [List.nil_append] at h1 h2
  unfold assembleJsonFrom
  refine ⟨fun hc => ?_, fun hc => ?_⟩
  · obtain ⟨p, x, rfl, hp, hr⟩ := h1 ((endsThere_iff _).mpr hc)
    rw [hr, Outcome.bind_ok, assembleJsonText_ends hp]
  · have hf' : endsThere text = false := by
      cases hx : endsThere text with
      | false => rfl
      | true => exact absurd ((endsThere_iff _).mp hx) hc
    rw [h2 hf', if_neg he]
    rfl

/-- Nothing is lost by that: a file assembled from a reader that fails is the file of a document that was delivered completely. -/
theorem C141_nothing_lost (mc : MiddleC) {σ : Type} (R : Reader σ) (e : ReadErr) (s : σ) (text b : List UInt8) (h : Yields R e s text) :
    ∃ f0, ∀ f, f0 ≤ f → (assembleJsonFrom mc R f s = .ok b ↔
      ∃ a s rest j, text = a ++ s ++ rest ∧ Space a ∧ JsonText CharsRead j s ∧ nesting j ≤ 10000 ∧
        ∃ f d ts chunks, DocumentSays j f d ts ∧ ts.length < 65536 ∧ List.Forall₂ TrackChunk ts chunks ∧
          b = (Header.mk f ts.length d).chunk.bytes ++ chunks.flatten) := by
  by_cases he : e = .eof
  · subst he
    obtain ⟨f0, h0⟩ := C140_json_delivery mc R s text h
    exact ⟨f0, fun f hf => by rw [h0 f hf]; exact C138_json_text mc text b⟩
  · obtain ⟨f0, h0⟩ := C141_json_failure_partial mc R e he s text h
    refine ⟨f0, fun f hf => ?_⟩
    obtain ⟨h1, h2⟩ := h0 f hf
    rw [← C138_json_text mc text b]
    by_cases hc : BeginsComplete text
    · rw [h1 hc]
    · rw [h2 hc]
      constructor
      · intro h; cases h
      · intro h
        obtain ⟨a, s, rest, ms, k1, k2, k3, k4, _⟩ := C90_malformed_rejected mc text b h
        exact absurd ⟨a, s, rest, _, k1, k2, k3, k4, Or.inl ⟨ms, rfl⟩⟩ hc

/-- C141 is false: a reader that fails after the document, or along with its last bytes. -/
theorem C141_json_failure_fails (together : Bool) : ∃ f0, ∀ f, f0 ≤ f →
    assembleJsonFrom .c3 (pieces .other together) f [repeatedText.take 100, repeatedText.drop 100] = .ok repeatedFile := by
  obtain ⟨b, h1, h2⟩ := Outcome.of_test (o := assembleJsonText .c3 repeatedText) (p := fun b => decide (b = repeatedFile)) (by decide +kernel)
  obtain rfl := of_decide_eq_true h2
  have hy := pieces_yields .other together [repeatedText.take 100, repeatedText.drop 100]
  have hflat : [repeatedText.take 100, repeatedText.drop 100].flatten = repeatedText := by simp
  rw [hflat] at hy
  obtain ⟨f0, h0⟩ := C141_json_failure_partial .c3 _ _ (by decide) _ _ hy
  refine ⟨f0, fun f hf => ?_⟩
  rw [(h0 f hf).1 ?_, h1]
  obtain ⟨a, s, rest, ms, k1, k2, k3, k4, _⟩ := C90_malformed_rejected .c3 _ _ h1
  exact ⟨a, s, rest, _, k1, k2, k3, k4, Or.inl ⟨ms, rfl⟩⟩

/-- The text byte by byte, and a reader that fails in the middle of the document. -/
example : (∃ f0, ∀ f, f0 ≤ f → assembleJsonFrom .c3 (pieces .eof true) f (repeatedText.map fun b => [b]) = .ok repeatedFile) ∧
    ∃ f0, ∀ f, f0 ≤ f → assembleJsonFrom .c3 (pieces .wrapsEof true) f [repeatedText.take 500] = .err .other := by
  constructor
  · obtain ⟨b, h1, h2⟩ := Outcome.of_test (o := assembleJsonText .c3 repeatedText) (p := fun b => decide (b = repeatedFile)) (by decide +kernel)
    obtain rfl := of_decide_eq_true h2
    have hy := pieces_yields .eof true (repeatedText.map fun b => [b])
    have hflat : (repeatedText.map fun b => [b]).flatten = repeatedText := by
      rw [← List.flatMap_def]
      exact List.flatMap_pure_eq_map _ _ |>.trans (List.map_id _)
    rw [hflat] at hy
    obtain ⟨f0, h0⟩ := C140_json_delivery .c3 _ _ _ hy
    exact ⟨f0, fun f hf => by rw [h0 f hf, h1]⟩
  · have hy := pieces_yields .wrapsEof true [repeatedText.take 500]
    rw [show [repeatedText.take 500].flatten = repeatedText.take 500 by simp] at hy
    obtain ⟨f0, h0⟩ := C141_json_failure_partial .c3 _ _ (by decide) _ _ hy
    refine ⟨f0, fun f hf => (h0 f hf).2 ?_⟩
    rw [← endsThere_iff]
    have : endsThere (repeatedText.take 500) = false := by decide +kernel
    rw [this]
    simp

end Midiasm
