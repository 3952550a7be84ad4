import Verif.Lemmas.Scanner
import Verif.Lemmas.Streams
import Verif.Props.TextMeaning

/-!
C130 and C131: assembling a text from any reader.
-/

set_option linter.unusedSimpArgs false

namespace Midiasm
open Spec

/-- What reading a text from any reader gives. -/
theorem read_feeds {σ : Type} (R : Reader σ) (e : ReadErr) (tog : Option Bool) (s : σ) (text : List UInt8) (h : Feeds R e tog 0 s text) :
    ∃ f0 r, (∀ f, f0 ≤ f → readChunksFrom R f s = r) ∧
      ((∃ lines chunks, e = .eof ∧ r = .ok chunks ∧ Lines text lines ∧ Chunked lines chunks ∧ NearlyShort text ∧ (tog = some false → ShortLines text)) ∨
        (r = .err .other ∧ (e = .eof → ¬ ShortLines text ∧ (tog = some true → ¬ NearlyShort text)))) := by
  obtain ⟨f0, ls, e', h1, h2⟩ := scan_feeds _ text s newScanner (Nat.le_refl _) h rfl (by simp [newScanner]) (by simp [newScanner]) (by simp [newScanner])
  replace h2 : (e' = e ∧ Lines text ls ∧ NearlyShort text ∧ (tog = some false → ShortLines text)) ∨
      (e' = .other ∧ ¬ ShortLines text ∧ (tog = some true → ¬ NearlyShort text)) := h2
  refine ⟨f0, if e' = .eof then .ok (chunkify ls) else .err .other, ?_, ?_⟩
  · intro f hf
    rw [readChunksFrom, h1 f hf]
    rfl
  · rcases h2 with ⟨rfl, c1, c2, c3⟩ | ⟨rfl, c1, c2⟩
    · by_cases he : e' = .eof
      · exact Or.inl ⟨ls, chunkify ls, he, by rw [if_pos he], c1, chunkify_spec _, c2, c3⟩
      · exact Or.inr ⟨by rw [if_neg he], fun h => absurd h he⟩
    · exact Or.inr ⟨rfl, fun _ => ⟨c1, c2⟩⟩

theorem assembleTextFrom_of {σ : Type} {R : Reader σ} {s : σ} {f0 : Nat} {r : Outcome (List (List Bytes))}
    (h : ∀ f, f0 ≤ f → readChunksFrom R f s = r) (table : List (String × Lib.Manufacturer)) :
    ∀ f, f0 ≤ f → assembleTextFrom table R f s = (r >>= fun chunks => assembleChunks table chunks ⟨none, []⟩ >>= fun smf => encode smf) := by
  intro f hf
  rw [assembleTextFrom, h f hf]

theorem short_nearly {text : Bytes} (h : ShortLines text) : NearlyShort text := fun a x b he hx => Or.inl (h a x b he hx)

/-- **C130** (partial: the claim is false for one kind of text).  The assembler depends on the bytes that a reader delivers up to its end
of file and on nothing else, not on the sizes of the pieces and not on empty reads, unless the last line has exactly 65536 bytes and
no newline after it; and for every text if the reader reports its end after the last bytes, as files do.  Missing: a last line of 65536
bytes without a newline is accepted from a reader that reports its end along with the last bytes (`C130_text_delivery_fails`). -/
theorem C130_text_delivery_partial (table : List (String × Lib.Manufacturer)) {σ : Type} (R : Reader σ) (tog : Option Bool) (s : σ) (text : List UInt8)
    (h : Feeds R .eof tog 0 s text) (ht : tog = some false ∨ ShortLines text ∨ ¬ NearlyShort text) :
    ∃ f0, ∀ f, f0 ≤ f → assembleTextFrom table R f s = assembleText table text := by
  obtain ⟨f0, r, h1, h2⟩ := read_feeds R .eof tog s text h
  refine ⟨f0, fun f hf => ?_⟩
  rw [assembleTextFrom_of h1 table f hf]
  rcases h2 with ⟨lines, chunks, _, rfl, hl, hc, hn, hs⟩ | ⟨rfl, hs⟩
  · have hshort : ShortLines text := by
      rcases ht with rfl | ht | ht
      · exact hs rfl
      · exact ht
      · exact absurd hn ht
    obtain ⟨lines', chunks', hl', hc', hr⟩ := (C105_long_lines table text).2 hshort
    have e1 := lines_unique hl' hl
    subst e1
    have e2 := chunked_unique _ _ _ hc' hc
    subst e2
    rw [assembleText, hr]
  · rw [(C105_long_lines table text).1 (hs rfl).1]
    rfl

/-- C130, exactly: a reader that reports its end along with the last bytes.  A text is assembled as in C128, but its last line may have
65536 bytes. -/
theorem C130_text_together (table : List (String × Lib.Manufacturer)) {σ : Type} (R : Reader σ) (s : σ) (text : List UInt8)
    (h : Feeds R .eof (some true) 0 s text) : ∃ f0, ∀ f, f0 ≤ f → ∀ b,
      assembleTextFrom table R f s = .ok b ↔ NearlyShort text ∧ ∃ (lines : List Bytes) (secs : List (List Bytes)) (h : Header) (ts : List (List Event))
        (bodies : List Bytes), Lines text lines ∧ Chunked lines secs ∧ Means table secs (some h) ts ∧ h.tracks = ts.length ∧
        ts.map (fun es => encodeMTrk (trackOf es)) = bodies.map .ok ∧ b = h.chunk.bytes ++ bodies.flatten := by
  obtain ⟨f0, r, h1, h2⟩ := read_feeds R .eof (some true) s text h
  refine ⟨f0, fun f hf b => ?_⟩
  rw [assembleTextFrom_of h1 table f hf]
  rcases h2 with ⟨lines, secs, _, rfl, hl, hc, hn, _⟩ | ⟨rfl, hs⟩
  · rw [Outcome.bind_ok, sections_meaning table secs hc.split]
    constructor
    · rintro ⟨hd, ts, bodies, h⟩
      exact ⟨hn, lines, secs, hd, ts, bodies, hl, hc, h⟩
    · rintro ⟨_, lines', secs', hd, ts, bodies, hl', hc', h⟩
      have e1 := lines_unique hl' hl
      subst e1
      have e2 := chunked_unique _ _ _ hc' hc
      subst e2
      exact ⟨hd, ts, bodies, h⟩
  · constructor
    · intro h
      cases h
    · rintro ⟨hn, _⟩
      exact absurd hn ((hs rfl).2 rfl)

/-- The reader of `pieces` delivers its pieces, if none is empty. -/
theorem pieces_feeds (e : ReadErr) (t : Bool) : ∀ (m idle : Nat) (ps : List Bytes), ps.flatten.length ≤ m → (∀ p ∈ ps, p ≠ []) →
    Feeds (pieces e t) e (some t) idle ps ps.flatten := by
  intro m
  induction m with
  | zero =>
    intro idle ps hm hne
    cases ps with
    | cons p ps =>
      have := List.length_pos_iff.mpr (hne p (by simp))
      simp at hm
      simp [hm] at this
    | nil =>
      refine .step ?_ ?_ ?_ ?_ ?_ ?_ <;> intro n hn
      · simp [pieces]
      all_goals simp [pieces]
  | succ m ih =>
    intro idle ps hm hne
    cases ps with
    | nil => exact ih idle [] (by simp) (by simp)
    | cons p ps =>
      have hp := hne p (by simp)
      have hpos := List.length_pos_iff.mpr hp
      have key : ∀ n, 0 < n → (∃ b r, (pieces e t).read (p :: ps) n = (b, none, r) ∧ b ≠ [] ∧ b.length ≤ n ∧ b ++ r.flatten = (p :: ps).flatten ∧
            (∀ q ∈ r, q ≠ []) ∧ (t = true → r.flatten ≠ [])) ∨
          (t = true ∧ ps = [] ∧ p.length ≤ n ∧ (pieces e t).read (p :: ps) n = (p, some e, [])) := by
        intro n hn
        have hcut : n < p.length → p.take n ≠ [] ∧ (p.take n).length ≤ n ∧ p.drop n ≠ [] := by
          intro h
          refine ⟨?_, ?_, ?_⟩
          · intro h0
            rcases List.take_eq_nil_iff.mp h0 with h | h
            · omega
            · exact hp h
          · exact List.length_take_le _ _
          · intro h0
            have := congrArg List.length h0
            simp at this
            omega
        cases ps with
        | nil =>
          rw [pieces_one]
          by_cases hl : p.length ≤ n
          · rw [if_pos hl]
            cases t with
            | true => exact Or.inr ⟨rfl, rfl, hl, rfl⟩
            | false => exact Or.inl ⟨p, [], rfl, hp, hl, by simp, by simp, by simp⟩
          · rw [if_neg hl]
            obtain ⟨c1, c2, c3⟩ := hcut (by omega)
            exact Or.inl ⟨_, _, rfl, c1, c2, by simp, by simpa using c3, fun _ => by simpa using c3⟩
        | cons q ps =>
          rw [pieces_more]
          have hq := hne q (by simp)
          by_cases hl : p.length ≤ n
          · rw [if_pos hl]
            exact Or.inl ⟨p, q :: ps, rfl, hp, hl, by simp, fun x hx => hne x (List.mem_cons_of_mem _ hx), fun _ => by simp [hq]⟩
          · rw [if_neg hl]
            obtain ⟨c1, c2, c3⟩ := hcut (by omega)
            refine Or.inl ⟨_, _, rfl, c1, c2, by simp [← List.append_assoc], ?_, fun _ => by simp [hq]⟩
            intro x hx
            rcases List.mem_cons.mp hx with rfl | hx
            · exact c3
            · exact hne x (List.mem_cons_of_mem _ hx)
      refine .step ?_ ?_ ?_ ?_ ?_ ?_
      · intro n hn
        rcases key n hn with ⟨b, r, hr, _, hl, he, _⟩ | ⟨_, rfl, hl, hr⟩
        · rw [hr]; exact ⟨hl, ⟨_, he⟩⟩
        · rw [hr]; exact ⟨hl, by simp⟩
      · intro n hn h1 h2
        rcases key n hn with ⟨b, r, hr, hb, _⟩ | ⟨_, _, _, hr⟩
        · rw [hr] at h2; exact absurd h2 hb
        · rw [hr] at h2; exact absurd h2 hp
      · intro n hn h1 h2
        rcases key n hn with ⟨b, r, hr, hb, _⟩ | ⟨_, _, _, hr⟩
        · rw [hr] at h2; exact absurd h2 hb
        · rw [hr] at h2; exact absurd h2 hp
      · intro n hn h1 h2
        rcases key n hn with ⟨b, r, hr, hb, _, he, hr2, _⟩ | ⟨_, _, _, hr⟩
        · rw [hr]
          simp only
          rw [← he, List.drop_left]
          have := List.length_pos_iff.mpr hb
          have hlen := congrArg List.length he
          rw [List.length_append] at hlen
          exact ih 0 r (by omega) hr2
        · rw [hr] at h1; cases h1
      · intro n hn h1 h2 ht
        rcases key n hn with ⟨b, r, hr, hb, _, he, _, hr3⟩ | ⟨_, _, _, hr⟩
        · rw [hr]
          simp only
          intro h0
          rw [h0] at he
          have := hr3 (by simpa using ht)
          exact this (by simpa using he)
        · rw [hr] at h1; cases h1
      · intro n hn e' h1
        rcases key n hn with ⟨b, r, hr, _⟩ | ⟨rfl, rfl, _, hr⟩
        · rw [hr] at h1; cases h1
        · rw [hr] at h1 ⊢
          injection h1 with h1
          exact ⟨h1.symm, by simp, by simp⟩

/-- C130: the same bytes in any two series of pieces, reported to end after the last one, are assembled alike. -/
theorem C130_pieces (table : List (String × Lib.Manufacturer)) (ps qs : List (List UInt8)) (hp : ∀ p ∈ ps, p ≠ []) (hq : ∀ q ∈ qs, q ≠ [])
    (h : ps.flatten = qs.flatten) :
    ∃ f0, ∀ f, f0 ≤ f → assembleTextFrom table (pieces .eof false) f ps = assembleTextFrom table (pieces .eof false) f qs := by
  obtain ⟨f1, h1⟩ := C130_text_delivery_partial table _ _ ps _ (pieces_feeds .eof false _ 0 ps (Nat.le_refl _) hp) (Or.inl rfl)
  obtain ⟨f2, h2⟩ := C130_text_delivery_partial table _ _ qs _ (pieces_feeds .eof false _ 0 qs (Nat.le_refl _) hq) (Or.inl rfl)
  refine ⟨max f1 f2, fun f hf => ?_⟩
  rw [h1 f (by omega), h2 f (by omega), h]

/-- A comment of 65536 bytes. -/
def longComment : Bytes := List.replicate 65536 37

theorem longComment_length : longComment.length = 65536 := List.length_replicate

theorem longComment_mem (b : UInt8) (h : b ≠ 37) : b ∉ longComment := fun hb => h (List.eq_of_mem_replicate hb)

/-- A text that ends with it. -/
def longText : Bytes :=
  str "MThd format:0 metrical time:96 ppqn" ++ 10 :: (str "MTrk" ++ 10 :: (str "delta:0 EndOfTrack" ++ 10 :: longComment))

theorem longText_lines : Lines longText [str "MThd format:0 metrical time:96 ppqn", str "MTrk", str "delta:0 EndOfTrack", longComment] := by
  have e1 : chomp (str "MThd format:0 metrical time:96 ppqn") = str "MThd format:0 metrical time:96 ppqn" := by decide +kernel
  have e2 : chomp (str "MTrk") = str "MTrk" := by decide +kernel
  have e3 : chomp (str "delta:0 EndOfTrack") = str "delta:0 EndOfTrack" := by decide +kernel
  have e4 : chomp longComment = longComment := by
    unfold chomp longComment
    rw [if_neg]
    rw [List.getLast?_replicate]
    decide
  have h4 := Lines.last longComment (by intro h; have := longComment_length; rw [h] at this; cases this) (longComment_mem 10 (by decide))
  have h3 := Lines.cons (str "delta:0 EndOfTrack") _ _ (by decide +kernel) h4
  have h2 := Lines.cons (str "MTrk") _ _ (by decide +kernel) h3
  have h1 := Lines.cons (str "MThd format:0 metrical time:96 ppqn") _ _ (by decide +kernel) h2
  rw [e1, e2, e3, e4] at h1
  exact h1

theorem longComment_starts : ¬ Starts longComment := by
  have hm : ∀ w : Bytes, 77 ∈ w → ¬ w <:+: longComment := by
    intro w hw hi
    have := hi.subset hw
    exact longComment_mem 77 (by decide) this
  rintro (h | h)
  · exact hm _ (by decide +kernel) h
  · exact hm _ (by decide +kernel) h

theorem longText_chunked : Chunked [str "MThd format:0 metrical time:96 ppqn", str "MTrk", str "delta:0 EndOfTrack", longComment]
    [[str "MThd format:0 metrical time:96 ppqn"], [str "MTrk", str "delta:0 EndOfTrack", longComment]] := by
  have h1 : str "MThd" <:+: str "MThd format:0 metrical time:96 ppqn" := ⟨[], str " format:0 metrical time:96 ppqn", by decide +kernel⟩
  refine ⟨⟨[], rfl, by simp, ?_⟩, ?_⟩
  · intro l hl
    injection hl with hl
    subst hl
    exact h1
  · intro c hc
    rcases List.mem_cons.mp hc with rfl | hc
    · exact ⟨_, [], rfl, Or.inl h1, by simp⟩
    · rw [List.mem_singleton] at hc
      subst hc
      refine ⟨_, _, rfl, Or.inr (List.infix_refl _), ?_⟩
      intro x hx
      rcases List.mem_cons.mp hx with rfl | hx
      · have : isTag (str "delta:0 EndOfTrack") = false := by decide +kernel
        unfold isTag at this
        rw [Bool.or_eq_false_iff] at this
        rintro (h | h)
        · rw [(contains_iff _ _).mpr h] at this; exact absurd this.1 (by decide)
        · rw [(contains_iff _ _).mpr h] at this; exact absurd this.2 (by decide)
      · rw [List.mem_singleton] at hx
        subst hx
        exact longComment_starts

theorem longText_nearly : NearlyShort longText ∧ ¬ ShortLines longText := by
  constructor
  · refine nearly_cons (by decide +kernel) (nearly_cons (by decide +kernel) (nearly_cons (by decide +kernel) ?_))
    intro a x b he _
    have := congrArg List.length he
    rw [longComment_length, List.length_append, List.length_append] at this
    by_cases hb : b = []
    · by_cases hx : x.length = 65536
      · exact Or.inr ⟨hx, hb⟩
      · exact Or.inl (by omega)
    · have := List.length_pos_iff.mpr hb
      exact Or.inl (by omega)
  · intro h
    have := h (str "MThd format:0 metrical time:96 ppqn" ++ 10 :: (str "MTrk" ++ 10 :: (str "delta:0 EndOfTrack" ++ [10]))) longComment []
      (by unfold longText; simp only [List.append_assoc, List.cons_append, List.nil_append, List.append_nil]) (longComment_mem 10 (by decide))
    rw [longComment_length] at this
    exact absurd this (by decide)

/-- C130 fails: a text that ends with a comment of 65536 bytes is assembled from a reader that reports its end along with the last bytes
and refused from one that reports it afterwards. -/
theorem C130_text_delivery_fails :
    ∃ b f0, ∀ f, f0 ≤ f → assembleTextFrom Lib.manufacturers (pieces .eof true) f [longText] = .ok b ∧
      assembleTextFrom Lib.manufacturers (pieces .eof false) f [longText] = .err .other := by
  have hne : ∀ p ∈ [longText], p ≠ [] := by
    intro p hp
    rw [List.mem_singleton] at hp
    subst hp
    unfold longText
    simp
  have hflat : [longText].flatten = longText := by simp
  have h1 := pieces_feeds .eof true _ 0 [longText] (Nat.le_refl _) hne
  have h2 := pieces_feeds .eof false _ 0 [longText] (Nat.le_refl _) hne
  rw [hflat] at h1 h2
  obtain ⟨f1, k1⟩ := C130_text_together Lib.manufacturers _ _ _ h1
  obtain ⟨f2, k2⟩ := C130_text_delivery_partial Lib.manufacturers _ _ _ _ h2 (Or.inl rfl)
  obtain ⟨b, hb, _⟩ := Outcome.of_test (o := assembleChunks Lib.manufacturers [[str "MThd format:0 metrical time:96 ppqn"],
    [str "MTrk", str "delta:0 EndOfTrack", longComment]] ⟨none, []⟩ >>= fun smf => encode smf) (p := fun _ => true) (by decide +kernel)
  obtain ⟨hd, ts, bodies, h⟩ := (sections_meaning Lib.manufacturers _ longText_chunked.split b).mp hb
  refine ⟨b, max f1 f2, fun f hf => ⟨(k1 f (by omega) b).mpr ⟨longText_nearly.1, _, _, hd, ts, bodies, longText_lines, longText_chunked, h⟩, ?_⟩⟩
  rw [k2 f (by omega)]
  exact (C105_long_lines Lib.manufacturers longText).1 longText_nearly.2

/-- **C131.** A read that fails makes assembling fail, wherever it happens and whatever was read before; only `io.EOF` itself is the end of
a text, an error that wraps it is a failure. -/
theorem C131_text_read_failure (table : List (String × Lib.Manufacturer)) {σ : Type} (R : Reader σ) (e : ReadErr) (he : e ≠ .eof) (tog : Option Bool)
    (s : σ) (text : List UInt8) (h : Feeds R e tog 0 s text) :
    ∃ f0, ∀ f, f0 ≤ f → assembleTextFrom table R f s = .err .other := by
  obtain ⟨f0, r, h1, h2⟩ := read_feeds R e tog s text h
  refine ⟨f0, fun f hf => ?_⟩
  rw [assembleTextFrom_of h1 table f hf]
  rcases h2 with ⟨_, _, he', _⟩ | ⟨rfl, _⟩
  · exact absurd he' he
  · rfl

/-- C131: a reader that fails after a whole text. -/
example : ∃ f0, ∀ f, f0 ≤ f → assembleTextFrom Lib.manufacturers (pieces .other false) f [writtenText.take 20, writtenText.drop 20] = .err .other ∧
    ∃ b, assembleTextFrom Lib.manufacturers (pieces .eof false) f [writtenText.take 20, writtenText.drop 20] = .ok b := by
  have hne : ∀ p ∈ [writtenText.take 20, writtenText.drop 20], p ≠ [] := by decide +kernel
  have hflat : [writtenText.take 20, writtenText.drop 20].flatten = writtenText := by simp
  obtain ⟨f1, h1⟩ := C131_text_read_failure Lib.manufacturers _ .other (by decide) _ _ _ (pieces_feeds .other false _ 0 _ (Nat.le_refl _) hne)
  obtain ⟨f2, h2⟩ := C130_text_delivery_partial Lib.manufacturers _ _ _ _ (pieces_feeds .eof false _ 0 _ (Nat.le_refl _) hne) (Or.inl rfl)
  rw [hflat] at h2
  obtain ⟨b, h3, _⟩ := Outcome.of_test (o := assembleText Lib.manufacturers writtenText) (p := fun _ => true) (by decide +kernel)
  exact ⟨max f1 f2, fun f hf => ⟨h1 f (by omega), b, by rw [h2 f (by omega), h3]⟩⟩

end Midiasm
