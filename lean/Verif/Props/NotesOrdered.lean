import Verif.Props.NotesMoved

/-!
C183: listed notes are in the order in which they end, last from their start to their end, and do not overlap.
-/

set_option linter.unusedSimpArgs false

namespace Midiasm
open Spec

theorem timesMs_sorted (m : TempoMap) (ppqn : Nat) (t : TrackEntry) {i j : Nat} (hij : i ≤ j) (hj : j < t.events.length) :
    (timesMs m ppqn t).getD i 0 ≤ (timesMs m ppqn t).getD j 0 := by
  have hl : (timesMs m ppqn t).length = t.events.length := by
    unfold timesMs
    rw [List.length_map, noteTimes_length, List.length_map]
  have hs : (timesMs m ppqn t).Pairwise (· ≤ ·) := by
    unfold timesMs
    exact List.pairwise_map.2 ((noteTimes_sorted m ppqn _ none 0).imp fun h => Nat.div_le_div_right (by omega))
  rw [← List.getElem_eq_getD (h := by omega), ← List.getElem_eq_getD (h := by omega)]
  rcases Nat.lt_or_ge i j with h | h
  · exact List.pairwise_iff_getElem.1 hs i j _ _ h
  · have : i = j := by omega
    subst this
    exact Nat.le_refl _

theorem span_inside {cs : List Content} {p : Span} (h : IsSpan cs p) : p.first < p.last ∧ p.last < cs.length := by
  obtain ⟨_, _, h1, ⟨c, h2, _⟩, _⟩ := h
  exact ⟨h1, (List.getElem?_eq_some_iff.1 h2).1⟩

theorem view_channel (b : Body) (ch k v : Nat) (h : b.view = .noteOn ch k v) : ch < 256 := by
  cases b <;> simp only [Body.view, reduceCtorEq, Content.noteOn.injEq] at h
  rw [← h.1]
  exact UInt8.toNat_lt _

/-- **C183.** In the list of the notes of a file, each note starts before it ends, or when it ends, and its duration is the time in between; the notes of each track
are in the order in which they end; and if the transposition moves no note out of the range, a note of a track ends before the next one of the same pitch and
channel starts. -/
theorem C183_in_order (mc : MiddleC) (spare bytes : Bytes) (h : Header) (ts : List TrackEntry) (hf : FileSays (octaveOffset mc) bytes h ts)
    (hd : 0 < h.division ∧ h.division < 32768) (hn : ts ≠ []) (hb : ∀ t ∈ ts, Brief t) (ord : Nat → MapOrder) (n : Int) (hfit : Fits n) :
    ∃ smf nss, decode mc spare bytes = .ok smf ∧ extractNotes mc ord n smf = .ok (List.flatten nss) ∧ nss.length = ts.length - 1 ∧
      ∀ ns ∈ nss, (∀ x ∈ ns, 0 ≤ x.start ∧ x.start ≤ x.end_ ∧ x.duration = x.end_ - x.start) ∧ ns.Pairwise (fun x y => x.end_ ≤ y.end_) ∧
        ((∀ t ∈ ts, ∀ e ∈ t.events, Unclamped n e.content) → ns.Pairwise fun x y => x.channel = y.channel → x.note = y.note → x.end_ ≤ y.start) := by
  obtain ⟨smf, pss, a1, a2, a3⟩ := C148_notes mc spare bytes h ts hf hd hn hb ord n hfit
  have hch : ∀ t ∈ ts, ∀ p, IsSpan (t.events.map (·.content)) p → p.ch < 256 := by
    intro t ht p hp
    obtain ⟨smf', d1, ⟨_, rfl⟩⟩ := (C143_decoding mc spare bytes h ts).2 hf
    obtain ⟨u, _, rfl⟩ := List.mem_map.1 ht
    obtain ⟨⟨c, h1, v, _, rfl⟩, _⟩ := hp
    obtain ⟨e, he, h2⟩ := List.mem_map.1 (List.mem_of_getElem? h1)
    obtain ⟨b, _, rfl⟩ := List.mem_map.1 he
    exact view_channel _ _ _ _ h2
  refine ⟨smf, ((ts.drop 1).zip pss).map fun (t, ps) => ps.map (noteRecord (octaveOffset mc) n (tempoChanges (ts.headD ⟨0, [], 0, [], []⟩)) h.division t), a1, ?_, ?_, ?_⟩
  · rw [a3]
    unfold fileNotes
    rw [← List.flatMap_def]
  · rw [List.length_map, List.length_zip, ← a2.length_eq, List.length_drop]
    omega
  · intro ns hns
    obtain ⟨⟨t, ps⟩, hz, rfl⟩ := List.mem_map.1 hns
    have hps : SpansOf (t.events.map (·.content)) ps := (List.forall₂_iff_zip.1 a2).2 hz
    have ht : t ∈ ts := List.mem_of_mem_drop (List.of_mem_zip hz).1
    generalize tempoChanges (ts.headD ⟨0, [], 0, [], []⟩) = m
    obtain ⟨p1, p2, p3⟩ := hps
    have hin : ∀ p ∈ ps, p.first < p.last ∧ p.last < t.events.length := by
      intro p hp
      have := span_inside ((p2 p).1 hp)
      rwa [List.length_map] at this
    refine ⟨?_, ?_, ?_⟩
    · intro x hx
      obtain ⟨p, hp, rfl⟩ := List.mem_map.1 hx
      obtain ⟨i1, i2⟩ := hin p hp
      have := timesMs_sorted m h.division t (Nat.le_of_lt i1) i2
      simp only [noteRecord]
      omega
    · refine List.pairwise_map.2 (p3.imp_of_mem ?_)
      intro p q hp hq he
      have := timesMs_sorted m h.division t (i := p.last) (j := q.last) (by rcases he with he | he <;> omega) (hin q hq).2
      simp only [noteRecord]
      omega
    · intro hu
      refine List.pairwise_map.2 ((p1.and p3).imp_of_mem ?_)
      intro p q hp hq ⟨hne, he⟩ hc hk
      have hu' : ∀ c ∈ t.events.map (·.content), Unclamped n c := by
        intro c hc
        obtain ⟨e, he, rfl⟩ := List.mem_map.1 hc
        exact hu t ht e he
      have rp := span_range hu' ((p2 p).1 hp)
      have rq := span_range hu' ((p2 q).1 hq)
      have cp := hch t ht p ((p2 p).1 hp)
      have cq := hch t ht q ((p2 q).1 hq)
      simp only [noteRecord] at hc hk
      have hc' := congrArg UInt8.toNat hc
      have hk' := congrArg UInt8.toNat hk
      rw [UInt8.toNat_ofNat_of_lt' cp, UInt8.toNat_ofNat_of_lt' cq] at hc'
      rw [UInt8.toNat_ofNat_of_lt' (show _ < 256 by omega), UInt8.toNat_ofNat_of_lt' (show _ < 256 by omega)] at hk'
      have hl : p.last ≤ q.first := by
        have := hin q hq
        have := hin p hp
        rcases C47_notes_do_not_overlap _ p q ((p2 p).1 hp) ((p2 q).1 hq) hc' (by omega) hne with h | h
        · exact h
        · rcases he with he | he <;> omega
      have := timesMs_sorted m h.division t hl (Nat.lt_trans (hin q hq).1 (hin q hq).2)
      simp only [noteRecord]
      omega

/-- C183: a file with a tempo and a track with two notes of the same pitch that meets the hypotheses. -/
example : ∃ h ts, FileSays 1 (tracksFile 1 0 96 [[0, 0xff, 0x51, 3, 7, 0xa1, 0x20], [0, 0x90, 60, 64, 96, 0x80, 60, 0, 0, 0x90, 60, 64, 96, 0x80, 60, 0]]) h ts ∧
    (0 < h.division ∧ h.division < 32768) ∧ ts.length = 2 ∧ (∀ t ∈ ts, Brief t) ∧ ∀ t ∈ ts, ∀ e ∈ t.events, Unclamped 5 e.content := by
  obtain ⟨smf, h1, h2⟩ := Outcome.of_test
    (o := decode .c3 [] (tracksFile 1 0 96 [[0, 0xff, 0x51, 3, 7, 0xa1, 0x20], [0, 0x90, 60, 64, 96, 0x80, 60, 0, 0, 0x90, 60, 64, 96, 0x80, 60, 0]]))
    (p := fun smf => match smf.mthd, smf.tracks.map MTrk.entry with
      | some m, [a, b] => decide (m.division = 96) && decide ((a.events.map (·.delta)).sum < 200) && decide ((b.events.map (·.delta)).sum < 200) &&
        decide (a.events.map (·.content) = [.tempo 500000, .endOfTrack]) &&
        decide (b.events.map (·.content) = [.noteOn 0 60 64, .noteOff 0 60 0, .noteOn 0 60 64, .noteOff 0 60 0, .endOfTrack])
      | _, _ => false) (by decide +kernel)
  obtain ⟨h, ts, hf, ⟨m, hm, hsh, _⟩, hts⟩ := C143_total .c3 [] _ smf h1
  rw [hm, hts] at h2
  split at h2
  · rename_i m' a b e1
    cases e1
    simp only [Bool.and_eq_true, decide_eq_true_eq] at h2
    obtain ⟨⟨⟨⟨d1, d2⟩, d3⟩, d4⟩, d5⟩ := h2
    have hdiv : h.division = 96 := by
      rw [← hsh.2.2.2.2.1, d1]
      rfl
    have brief : ∀ t : TrackEntry, (t.events.map (·.delta)).sum < 200 → Brief t := by
      intro t ht
      unfold Brief
      omega
    refine ⟨h, [a, b], hf, by omega, rfl, ?_, ?_⟩
    · simp only [List.forall_mem_cons, List.not_mem_nil, false_implies, implies_true, and_true]
      exact ⟨brief a d2, brief b d3⟩
    · have key : ∀ (t : TrackEntry) (cs : List Content), t.events.map (·.content) = cs → (∀ c ∈ cs, Unclamped 5 c) → ∀ e ∈ t.events, Unclamped 5 e.content := by
        rintro t _ rfl hc e he
        exact hc _ (List.mem_map_of_mem he)
      simp only [List.forall_mem_cons (l := [b]), List.forall_mem_cons (l := ([] : List TrackEntry)), List.not_mem_nil, false_implies, implies_true, and_true]
      exact ⟨key a _ d4 (by simp [Unclamped]), key b _ d5 (by simp [Unclamped])⟩
  · cases h2

end Midiasm
