import Verif.Spec.Written
import Verif.Props.Assembled
import Verif.Props.Disassembly

/-!
C146: the bytes written for a file that was read, transposed or not.
-/

set_option linter.unusedSimpArgs false

namespace Midiasm
open Spec

theorem value128_digits (l : List Nat) (a : Nat) : ∀ n : Nat, (∀ x ∈ l, x < 128) → a < 128 →
    (l.map (fun x => UInt8.ofNat (128 + x)) ++ [UInt8.ofNat a]).foldl (fun n b => n * 128 + b.toNat % 128) n =
      (l ++ [a]).foldl (fun n x => n * 128 + x) n := by
  induction l with
  | nil =>
    intro n _ h
    simp only [List.map_nil, List.nil_append, List.foldl_cons, List.foldl_nil, UInt8.toNat_ofNat']
    omega
  | cons x l ih =>
    intro n h h'
    have hx := h x (by simp)
    simp only [List.map_cons, List.cons_append, List.foldl_cons, UInt8.toNat_ofNat']
    rw [← ih _ (fun y hy => h y (by simp [hy])) h', show (128 + x) % 2 ^ 8 % 128 = x by omega]

theorem digits_terminated (l : List Nat) (a : Nat) (hl : ∀ x ∈ l, x < 128) (ha : a < 128) :
    Terminated (l.map (fun x => UInt8.ofNat (128 + x)) ++ [UInt8.ofNat a]) := by
  refine ⟨_, _, rfl, ?_, by rw [UInt8.toNat_ofNat']; omega⟩
  intro b hb
  obtain ⟨x, hx, rfl⟩ := List.mem_map.1 hb
  have := hl x hx
  rw [UInt8.toNat_ofNat']
  omega

theorem quantity_written (n : Nat) (h : n < 2 ^ 32) : WrittenQuantity n (quantityBytes n) := by
  have vlq : ∀ l a, (∀ x ∈ l, x < 128) → a < 128 → ∀ m, (l ++ [a]).foldl (fun n x => n * 128 + x) 0 = m →
      IsVLQ (l.map (fun x => UInt8.ofNat (128 + x)) ++ [UInt8.ofNat a]) m := by
    intro l a hl ha m hm
    exact ⟨digits_terminated l a hl ha, by rw [value128, value128_digits l a 0 hl ha, hm]⟩
  have head : ∀ x, 0 < x → x < 128 → ∀ t, Canonical (UInt8.ofNat (128 + x) :: t) := by
    intro x h1 h2 t hc
    simp only [List.head?_cons, Option.some.injEq] at hc
    have := congrArg UInt8.toNat hc
    rw [UInt8.toNat_ofNat'] at this
    have e : (0x80 : UInt8).toNat = 128 := rfl
    omega
  unfold quantityBytes
  by_cases h1 : n < 2 ^ 7
  · rw [if_pos h1]
    refine Or.inl ⟨by omega, vlq [] n (by simp) (by omega) n (by simp), ?_⟩
    intro hc
    simp only [List.head?_cons, Option.some.injEq] at hc
    have := congrArg UInt8.toNat hc
    rw [UInt8.toNat_ofNat'] at this
    have e : (0x80 : UInt8).toNat = 128 := rfl
    omega
  rw [if_neg h1]
  by_cases h2 : n < 2 ^ 14
  · rw [if_pos h2]
    exact Or.inl ⟨by omega, vlq [n / 2 ^ 7] (n % 128) (by simp; omega) (by omega) n (by simp; omega), head _ (by omega) (by omega) _⟩
  rw [if_neg h2]
  by_cases h3 : n < 2 ^ 21
  · rw [if_pos h3]
    exact Or.inl ⟨by omega, vlq [n / 2 ^ 14, n / 2 ^ 7 % 128] (n % 128) (by simp; omega) (by omega) n (by simp; omega),
      head _ (by omega) (by omega) _⟩
  rw [if_neg h3]
  by_cases h4 : n < 2 ^ 28
  · rw [if_pos h4]
    exact Or.inl ⟨by omega, vlq [n / 2 ^ 21, n / 2 ^ 14 % 128, n / 2 ^ 7 % 128] (n % 128) (by simp; omega) (by omega) n (by simp; omega),
      head _ (by omega) (by omega) _⟩
  · rw [if_neg h4]
    refine Or.inr ⟨by omega, _, _, rfl, by rw [UInt8.toNat_ofNat']; omega, rfl, ?_⟩
    exact vlq [n / 2 ^ 21 % 128, n / 2 ^ 14 % 128, n / 2 ^ 7 % 128] (n % 128) (by simp; omega) (by omega) _ (by simp; omega)

theorem sized_written (s : Bytes) : ∃ len, WrittenQuantity (s.length % 2 ^ 32) len ∧ sized s = len ++ s :=
  ⟨_, quantity_written _ (Nat.mod_lt _ (by decide)), rfl⟩

theorem textType_code : ∀ k : TextKind, textType k = UInt8.ofNat k.type.toNat ∧ (k.type.toNat = 3 ↔ k = .trackName) := by
  intro k; cases k <;> decide

/-- What a denominator needs. -/
theorem denominator_power : ∀ d : UInt8, d ≤ 128 → d.toNat ≤ 2 ^ denominatorPower d.toNat ∧ (∀ j, j < denominatorPower d.toNat → 2 ^ j < d.toNat) ∧
    denominatorPower d.toNat ≤ 7 := by
  have key : ∀ d : UInt8, d ≤ 128 → d.toNat ≤ 2 ^ denominatorPower d.toNat ∧
      (∀ j : Fin 8, j.val < denominatorPower d.toNat → 2 ^ j.val < d.toNat) ∧ denominatorPower d.toNat ≤ 7 := by
    apply all8
    decide +kernel
  intro d hd
  obtain ⟨h1, h2, h3⟩ := key d hd
  exact ⟨h1, fun j hj => h2 ⟨j, by omega⟩ hj, h3⟩

/-- Decoded events and what transposing makes of them. -/
def Body.Writes : Body → Prop
  | .smpteOffset _ _ _ r _ _ => r = 24 ∨ r = 25 ∨ r = 29 ∨ r = 30
  | .timeSignature _ d _ _ => d ≤ 128
  | .sysExContinuation _ e => e = false
  | _ => True

theorem made_writes {b : Body} (h : b.Made) : b.Writes := by
  cases b <;> simp only [Body.Made, Body.Writes] at h ⊢
  · exact h.2.2.2.1
  · exact h
  · exact h

theorem content_written (b : Body) (hb : b.Writes) : EventBytes b (contentBytes b.view) := by
  cases b <;> simp only [Body.view, contentBytes, EventBytes, UInt8.ofNat_toNat, chanBytes]
  case text k s =>
    obtain ⟨h1, h2⟩ := textType_code k
    by_cases hk : k = .trackName
    · right
      rw [if_pos (h2.2 hk)]
      refine ⟨hk, _, quantity_written _ (Nat.mod_lt _ (by decide)), ?_⟩
      subst hk
      rfl
    · left
      rw [if_neg (fun h => hk (h2.1 h))]
      exact ⟨hk, by rw [h1, UInt8.ofNat_toNat]⟩
  case smpteOffset h m s r f ff =>
    refine ⟨rateCode r.toNat, ?_, rfl⟩
    rcases hb with rfl | rfl | rfl | rfl <;> decide
  case timeSignature n d c q =>
    obtain ⟨h1, h2, h3⟩ := denominator_power d hb
    exact ⟨_, h1, h2, h3, rfl⟩
  case sysExMessage m data single => exact ⟨_, _, rfl, quantity_written _ (Nat.mod_lt _ (by decide)), rfl⟩
  case sysExContinuation data e =>
    have : e = false := hb
    subst this
    exact ⟨_, _, rfl, quantity_written _ (Nat.mod_lt _ (by decide)), by simp [sized]⟩
  case sysExEscape data => exact ⟨_, quantity_written _ (Nat.mod_lt _ (by decide)), rfl⟩

theorem content_head (b : Body) : contentBytes b.view ≠ [] := by
  cases b <;> simp only [Body.view, contentBytes, metaBytes] <;> try simp
  split <;> simp

theorem thinned_written (es : List Bytes) (h : ∀ e ∈ es, e ≠ []) : ∀ p, Thinned p es (thinnedBytes p es) := by
  induction es with
  | nil => exact fun p => .nil p
  | cons e es ih =>
    intro p
    have ih := ih fun x hx => h x (by simp [hx])
    cases e with
    | nil => exact absurd rfl (h [] (by simp))
    | cons s t =>
      rw [thinnedBytes]
      by_cases hc : p = some s ∧ 0x80 ≤ s.toNat ∧ s.toNat < 0xa0
      · rw [if_pos hc]
        obtain ⟨rfl, h1, h2⟩ := hc
        exact .drop s t es _ h1 h2 (ih _)
      · rw [if_neg hc]
        exact .keep p s t es _ hc (ih _)

theorem forall2_map {α β γ : Type} (R : α → β → Prop) (f : γ → α) (g : γ → β) (l : List γ) (h : ∀ x ∈ l, R (f x) (g x)) :
    List.Forall₂ R (l.map f) (l.map g) := by
  induction l with
  | nil => exact .nil
  | cons x l ih => exact .cons (h x (by simp)) (ih fun y hy => h y (by simp [hy]))

theorem track_written (es : List Event) (h : ∀ e ∈ es, e.body.Writes) :
    TrackChunk es (writtenTrack (es.map fun e => (e.delta.toNat, e.body.view))) := by
  refine ⟨es.map fun e => contentBytes e.body.view, _, es.map fun e => quantityBytes e.delta.toNat, _, ?_, thinned_written _ ?_ none, ?_, rfl, ?_⟩
  · have := forall2_map (fun e bs => EventBytes e.body bs) id (fun e : Event => contentBytes e.body.view) es fun e he => content_written e.body (h e he)
    rwa [List.map_id] at this
  · intro e he
    obtain ⟨x, _, rfl⟩ := List.mem_map.1 he
    exact content_head x.body
  · have := forall2_map (fun e bs => WrittenQuantity e.delta.toNat bs) id (fun e : Event => quantityBytes e.delta.toNat) es
      fun e _ => quantity_written _ e.delta.toNat_lt
    rwa [List.map_id] at this
  · simp only [writtenTrack, List.map_map, Function.comp_def]

/-- The events of a file value. -/
def SMF.fields (smf : SMF) : List (List (Nat × Content)) := smf.tracks.map fun t => t.events.map fun e => (e.delta.toNat, e.body.view)

theorem file_written (smf : SMF) (m : MThd) (h : Header) (hm : smf.mthd = some m) (hs : m.Shows h) (hn : h.tracks = smf.tracks.length)
    (htag : ∀ t ∈ smf.tracks, t.tag = str "MTrk") (hr : ∀ t ∈ smf.tracks, ∀ e ∈ t.events, e.body.Ranged ∧ e.body.Writes) :
    encode smf = .ok (writtenFile h smf.fields) := by
  refine (C136_encoded_file smf m h hm hs htag (fun t ht e he => (hr t ht e he).1) _).2 ⟨hn, smf.fields.map writtenTrack, ?_, rfl⟩
  rw [SMF.fields, List.map_map]
  exact forall2_map TrackChunk MTrk.events _ smf.tracks fun t ht => track_written t.events fun e he => (hr t ht e he).2

theorem shown_fields {smf : SMF} {h : Header} {ts : List TrackEntry} (hs : smf.ShowsFile h ts) : smf.fields = contentsOf id ts := by
  rw [← hs.2]
  simp [SMF.fields, contentsOf, MTrk.entry, Event.entry, Function.comp_def]

theorem decoded_tags {mc : MiddleC} {spare file : Bytes} {smf : SMF} (hd : decode mc spare file = .ok smf) : ∀ t ∈ smf.tracks, t.tag = str "MTrk" := by
  intro t ht
  obtain ⟨i, ch, hwf, hc, _, hu⟩ := decode_track hd ht
  rw [str_MTrk]
  exact ((unmarshalMTrk_ok mc spare i ch hwf hc t).1 hu).2.1

/-- **C146.** Reading a file and writing it again, exactly: the bytes written, from the bytes read. -/
theorem C146_rewritten (mc : MiddleC) (spare bytes : Bytes) (h : Header) (ts : List TrackEntry) (hf : FileSays (octaveOffset mc) bytes h ts) :
    ∃ smf, decode mc spare bytes = .ok smf ∧ encode smf = .ok (writtenFile h (contentsOf id ts)) := by
  obtain ⟨smf, hd, hs⟩ := (C143_decoding mc spare bytes h ts).2 hf
  refine ⟨smf, hd, ?_⟩
  obtain ⟨⟨m, h1, h2, _⟩, h3⟩ := id hs
  obtain ⟨_, _, _, _, _, _, hlen, _⟩ := hf
  rw [← shown_fields hs]
  exact file_written smf m h h1 h2 (by rw [← hlen, ← h3, List.length_map]) (decoded_tags hd)
    fun t ht e he => ⟨decoded_ranged hd ht he, made_writes (decoded_made hd t ht e he)⟩

theorem moved_ranged {n : Int} {b b' : Body} (hv : b'.view = moved n b.view) (hs : ¬ IsPitched b.view → b' = b) (hr : b.Ranged) (hw : b.Writes) :
    b'.Ranged ∧ b'.Writes := by
  by_cases hp : IsPitched b.view
  · cases b <;> simp only [Body.view, IsPitched] at hp <;> cases b' <;>
      simp only [Body.view, moved, reduceCtorEq, Content.noteOff.injEq, Content.noteOn.injEq] at hv
    · exact ⟨trivial, trivial⟩
    · exact ⟨by simp only [Body.Ranged] at hr ⊢; rw [hv.1]; exact hr, trivial⟩
    · exact ⟨by simp only [Body.Ranged] at hr ⊢; rw [hv.1]; exact hr, trivial⟩
  · rw [hs hp]
    exact ⟨hr, hw⟩

/-- **C146.** Transposing a file, exactly: the bytes written, from the bytes read. -/
theorem C146_transposed (mc mc' : MiddleC) (spare bytes : Bytes) (h : Header) (ts : List TrackEntry) (hf : FileSays (octaveOffset mc) bytes h ts) (n : Int)
    (hn : Fits n) :
    ∃ smf, decode mc spare bytes = .ok smf ∧ transposeExecute mc' n false smf = .ok (writtenFile h (contentsOf (moved n) ts)) := by
  obtain ⟨smf, hd, hs⟩ := (C143_decoding mc spare bytes h ts).2 hf
  refine ⟨smf, hd, ?_⟩
  obtain ⟨⟨m, h1, h2, _⟩, h3⟩ := id hs
  obtain ⟨_, _, _, _, _, _, hlen, _⟩ := hf
  obtain ⟨ts', t1, t2, t3⟩ := transposeTracks_ok mc' n hn smf.tracks (decoded_keyValid hd)
  simp only [transposeExecute, transposeSMF, t1, Outcome.bind_ok]
  have hfields : SMF.fields ⟨smf.mthd, ts'⟩ = contentsOf (moved n) ts := by
    rw [← h3]
    simp only [SMF.fields, contentsOf, List.map_map]
    apply List.ext_getElem?
    intro i
    rw [List.getElem?_map, List.getElem?_map]
    by_cases hi : i < smf.tracks.length
    · rw [List.getElem?_eq_getElem hi, List.getElem?_eq_getElem (by omega)]
      obtain ⟨_, _, m1, m2, m3, _⟩ := t3 i _ _ (List.getElem?_eq_getElem hi) (List.getElem?_eq_getElem (by omega))
      simp only [Option.map_some, Function.comp_def, MTrk.entry, Event.entry, List.map_map, Option.some.injEq]
      apply List.ext_getElem?
      intro j
      have a2 := congrArg (·[j]?) m2
      have a3 := congrArg (·[j]?) m3
      simp only [List.getElem?_map] at a2 a3 ⊢
      revert a2 a3
      cases ts'[i].events[j]? <;> cases smf.tracks[i].events[j]? <;> simp
      intro a b
      exact ⟨congrArg UInt32.toNat a, b⟩
    · rw [List.getElem?_eq_none (by omega), List.getElem?_eq_none (by omega)]
      rfl
  rw [← hfields]
  refine file_written ⟨smf.mthd, ts'⟩ m h h1 h2 (by simp only; rw [← hlen, ← h3, List.length_map, t2]) ?_ ?_
  · intro t' ht'
    obtain ⟨i, hi, rfl⟩ := List.mem_iff_getElem.1 ht'
    simp only at hi
    have := (t3 i _ _ (List.getElem?_eq_getElem (by omega)) (List.getElem?_eq_getElem hi)).1
    rw [str_MTrk]
    exact this
  · intro t' ht' e' he'
    obtain ⟨i, hi, rfl⟩ := List.mem_iff_getElem.1 ht'
    simp only at hi
    obtain ⟨_, _, m1, m2, m3, m4⟩ := t3 i _ _ (List.getElem?_eq_getElem (by omega)) (List.getElem?_eq_getElem hi)
    obtain ⟨j, hj, rfl⟩ := List.mem_iff_getElem.1 he'
    have hl : ts'[i].events.length = smf.tracks[i].events.length := by simpa using congrArg List.length m2
    have a3 := congrArg (·[j]?) m3
    simp only [List.getElem?_map] at a3
    have hj' : j < smf.tracks[i].events.length := by simp only at hj; omega
    rw [List.getElem?_eq_getElem hj, List.getElem?_eq_getElem hj'] at a3
    simp only [Option.map_some, Option.some.injEq] at a3
    have a4 := (m4 j _ _ (List.getElem?_eq_getElem hj') (List.getElem?_eq_getElem hj)).1
    have hmem : smf.tracks[i] ∈ smf.tracks := List.getElem_mem _
    have hmem' : smf.tracks[i].events[j] ∈ smf.tracks[i].events := List.getElem_mem _
    exact moved_ranged a3 (fun h => congrArg Event.body (a4 h)) (decoded_ranged hd hmem hmem') (made_writes (decoded_made hd _ hmem _ hmem'))

/-- **C146.** The command `transpose`: the bytes it writes, from the bytes of the file given. -/
theorem C146_transpose_command (w : World) (args argv : List Bytes) (s : List (Bytes × FlagValue)) (r : List Bytes) (hi : Invokes .transpose args argv)
    (hl : CommandLine (options .transpose) args s r) (hr : r.headD [] ≠ []) (bytes : Bytes) (hb : w.read (r.headD []) = some bytes) (mc : MiddleC)
    (hmc : Naming s mc) (h : Header) (ts : List TrackEntry) (hf : FileSays (octaveOffset mc) bytes h ts) (ht : ¬ (h.format = 1 ∧ h.tracks = 0))
    (n : Int) (hn : Number s "semitones" n) (hfit : Fits n) : Saves w s (writtenFile h (contentsOf (moved n) ts)) (midiasm w argv) := by
  obtain ⟨smf, hd, h1⟩ := C146_transposed mc mc w.spare bytes h ts hf n hfit
  obtain ⟨smf', hd', hs⟩ := (C143_decoding mc w.spare bytes h ts).2 hf
  rw [hd] at hd'
  injection hd' with hd'
  subst hd'
  obtain ⟨bs, h2, h3⟩ := C116_transpose w args argv s r hi hl smf ⟨hr, bytes, mc, hb, hmc, hd⟩ (not_trackless hf hs ht) mc hmc n hn
  rw [h1] at h2
  injection h2 with h2
  rw [h2]
  exact h3

/-! ### Examples -/

/-- A track with three notes and a long delta time, moved up by an octave: the second note loses its status, the third does not. -/
example : writtenTrack (contentsOf (moved 12) [⟨0, [], 21, [], [⟨0, 0, [], .noteOn 1 60 64, [], none⟩, ⟨0, 200, [], .noteOn 1 120 64, [], none⟩,
      ⟨0, 1, [], .noteOn 1 64 64, [], none⟩, ⟨0, 0, [], .tempo 500000, [], none⟩, ⟨0, 0, [], .endOfTrack, [], none⟩]⟩]).flatten =
    str "MTrk" ++ [0, 0, 0, 23, 0, 0x91, 72, 64, 0x81, 0x48, 127, 64, 1, 0x91, 76, 64, 0, 0xff, 0x51, 3, 0x07, 0xa1, 0x20, 0, 0xff, 0x2f, 0] := by
  decide +kernel

/-- C146: a file that meets the hypotheses, and what becomes of it. -/
example : ∃ h ts, FileSays 1 (oneTrack [0, 0x91, 60, 64, 0x81, 0x48, 62, 64, 0, 0xff, 0x2f, 0]) h ts ∧
    writtenFile h (contentsOf (moved (-1)) ts) = oneTrack [0, 0x91, 59, 64, 0x81, 0x48, 61, 64, 0, 0xff, 0x2f, 0] := by
  obtain ⟨smf, h1, h2⟩ := Outcome.of_test (o := decode .c3 [] (oneTrack [0, 0x91, 60, 64, 0x81, 0x48, 62, 64, 0, 0xff, 0x2f, 0]))
    (p := fun smf => decide (transposeExecute .c3 (-1) false smf = .ok (oneTrack [0, 0x91, 59, 64, 0x81, 0x48, 61, 64, 0, 0xff, 0x2f, 0])))
    (by decide +kernel)
  obtain ⟨h, ts, f1, f2⟩ := C143_total .c3 [] _ smf h1
  refine ⟨h, ts, f1, ?_⟩
  obtain ⟨smf', h3, h4⟩ := C146_transposed .c3 .c3 [] _ h ts f1 (-1) (by simp [Fits])
  rw [h1] at h3
  injection h3 with h3
  subst h3
  have h5 := of_decide_eq_true h2
  rw [h4] at h5
  injection h5

end Midiasm
