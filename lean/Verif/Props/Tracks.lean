import Mathlib.Data.List.Forall2
import Verif.Props.FileSays
import Verif.Props.Disassembly
import Verif.Lemmas.Unique

/-!
C165: tracks are decoded independently of each other.  C166: events are decoded independently of later ones.
-/

set_option linter.unusedSimpArgs false

namespace Midiasm
open Spec

/-- The track is a track of a file, whose notes are named with the offset. -/
def TrackOfFile (offset : Int) (t : TrackEntry) : Prop := ∃ bytes h ts, FileSays offset bytes h ts ∧ t ∈ ts

theorem track_chunk {offset : Int} {t : TrackEntry} (ht : TrackOfFile offset t) :
    ∃ c : Chunk, c.Wf ∧ c.tag = tagMTrk ∧ t.bytes = c.bytes ∧ ∀ i, ChunkSays offset i c { t with number := i } := by
  obtain ⟨bytes, h, ts, ⟨cs, tail, _, _, wf, _, h1, h2, h3⟩, hm⟩ := ht
  obtain ⟨i, hi, rfl⟩ := List.mem_iff_getElem.1 hm
  have hc := List.getElem?_eq_getElem (l := cs.filter fun c => c.tag == tagMTrk) (i := i) (by omega)
  have hmem := List.mem_filter.1 (List.mem_of_getElem? hc)
  obtain ⟨items, tl, rs', cs', a1, a2, a3, a4, a5⟩ := h3 i _ _ hc (List.getElem?_eq_getElem hi)
  refine ⟨_, wf _ hmem.1, by simpa using hmem.2, ?_, fun j => ⟨items, tl, rs', cs', a1, a2, a3, a4, ?_⟩⟩
  · rw [a5]
  · rw [a5]

/-- The tracks one after another, numbered. -/
def inOrder (l : List TrackEntry) : List TrackEntry := l.mapIdx fun i t => { t with number := i }

/-- **C165.** Any tracks of any files, one after another behind a header with their number, are a file with just these tracks. -/
theorem C165_combined (offset : Int) (h : Header) (hv : h.Valid) (l : List TrackEntry) (hl : l.length = h.tracks) (ht : ∀ t ∈ l, TrackOfFile offset t) :
    FileSays offset (h.chunk.bytes ++ l.flatMap (·.bytes)) h (inOrder l) := by
  have key : ∃ cs : List Chunk, List.Forall₂ (fun (t : TrackEntry) (c : Chunk) => c.Wf ∧ c.tag = tagMTrk ∧ t.bytes = c.bytes ∧
      ∀ i, ChunkSays offset i c { t with number := i }) l cs := by
    clear hl
    induction l with
    | nil => exact ⟨[], .nil⟩
    | cons t l ih =>
      obtain ⟨c, hc⟩ := track_chunk (ht t (by simp))
      obtain ⟨cs, hcs⟩ := ih fun t h => ht t (by simp [h])
      exact ⟨c :: cs, .cons hc hcs⟩
  obtain ⟨cs, hcs⟩ := key
  have hlen := hcs.length_eq
  have hall : ∀ c ∈ cs, c.Wf ∧ c.tag = tagMTrk := by
    clear hlen hl ht
    induction hcs with
    | nil => intro c hc; cases hc
    | cons a _ ih =>
      intro c hc
      rcases List.mem_cons.1 hc with rfl | hc
      · exact ⟨a.1, a.2.1⟩
      · exact ih c hc
  have hbytes : l.flatMap (·.bytes) = fileBytes cs := by
    clear hlen hl ht hall
    induction hcs with
    | nil => rfl
    | cons a _ ih =>
      rw [List.flatMap_cons, ih, a.2.2.1]
      simp [fileBytes]
  have hfil : (cs.filter fun c => c.tag == tagMTrk) = cs := by
    rw [List.filter_eq_self]
    intro c hc
    simpa using (hall c hc).2
  refine ⟨cs, [], ?_, hv, fun c hc => (hall c hc).1, .nil, ?_, ?_, ?_⟩
  · rw [hbytes]
    simp [fileBytes]
  · rw [inOrder, List.length_mapIdx, hl]
  · rw [hfil, ← hlen, hl]
  · intro i c t hc hti
    rw [hfil] at hc
    rw [inOrder, List.getElem?_mapIdx, Option.map_eq_some_iff] at hti
    obtain ⟨u, hu, rfl⟩ := hti
    obtain ⟨h1, h2⟩ := List.getElem?_eq_some_iff.1 hc
    obtain ⟨h3, h4⟩ := List.getElem?_eq_some_iff.1 hu
    have := (List.forall₂_iff_get.1 hcs).2 i h3 h1
    simp only [List.get_eq_getElem, h2, h4] at this
    exact this.2.2.2 i

/-- **C165.** Tracks whose chunks have the same bytes have the same events, whatever else is in the files and wherever the tracks stand. -/
theorem C165_same_chunk (mc : MiddleC) (t t' : TrackEntry) (ht : TrackOfFile (octaveOffset mc) t) (ht' : TrackOfFile (octaveOffset mc) t')
    (hb : t.bytes = t'.bytes) : t.events = t'.events ∧ t.tag = t'.tag ∧ t.length = t'.length := by
  have hv : Header.Valid ⟨0, 1, 96⟩ := ⟨by decide, by decide, by decide, Or.inl (by decide)⟩
  have a := C165_combined _ ⟨0, 1, 96⟩ hv [t] rfl (by simpa using ht)
  have b := C165_combined _ ⟨0, 1, 96⟩ hv [t'] rfl (by simpa using ht')
  rw [show [t].flatMap (·.bytes) = [t'].flatMap (·.bytes) by simp [hb]] at a
  have := (C143_unambiguous mc _ _ _ _ _ a b).2
  simp only [inOrder, List.mapIdx_cons, List.mapIdx_nil, List.cons.injEq, TrackEntry.mk.injEq, and_true, true_and] at this
  exact ⟨this.2.2.2, this.1, this.2.1⟩

/-- **C165.** The disassembly of the combined file. -/
theorem C165_disassembly (mc : MiddleC) (spare : Bytes) (h : Header) (hv : h.Valid) (l : List TrackEntry) (hl : l.length = h.tracks)
    (ht : ∀ t ∈ l, TrackOfFile (octaveOffset mc) t) :
    ∃ smf, decode mc spare (h.chunk.bytes ++ l.flatMap (·.bytes)) = .ok smf ∧ printSMF smf = .ok (disassembled h (inOrder l)) :=
  C145_disassembly_text mc spare _ h _ (C165_combined _ h hv l hl ht)

/-- C165: the track of a file, twice in a file of two tracks. -/
example : ∃ t, TrackOfFile 1 t ∧ t.bytes = [0x4d, 0x54, 0x72, 0x6b, 0, 0, 0, 8, 0, 0x90, 60, 64, 0, 0xff, 0x2f, 0] ∧ t.events.length = 2 ∧
    FileSays 1 ((Header.mk 1 2 96).chunk.bytes ++ [t, t].flatMap (·.bytes)) ⟨1, 2, 96⟩ [{ t with number := 0 }, { t with number := 1 }] := by
  obtain ⟨smf, h1, h2⟩ := Outcome.of_test (o := decode .c3 [] (oneTrack [0, 0x90, 60, 64, 0, 0xff, 0x2f, 0]))
    (p := fun smf => match smf.tracks.map MTrk.entry with
      | [t] => decide (t.bytes = [0x4d, 0x54, 0x72, 0x6b, 0, 0, 0, 8, 0, 0x90, 60, 64, 0, 0xff, 0x2f, 0]) && decide (t.events.length = 2)
      | _ => false) (by decide +kernel)
  obtain ⟨h, ts, hf, _, hts⟩ := C143_total .c3 [] _ smf h1
  rw [hts] at h2
  split at h2
  · rename_i _ t
    simp only [Bool.and_eq_true, decide_eq_true_eq] at h2
    have ht : TrackOfFile 1 t := ⟨_, h, [t], hf, by simp⟩
    refine ⟨t, ht, h2.1, h2.2, ?_⟩
    exact C165_combined 1 ⟨1, 2, 96⟩ ⟨by decide, by decide, by decide, Or.inl (by decide)⟩ [t, t] rfl (by simpa using ht)
  · cases h2

/-! ### Events -/

theorem framed_take {rs r : Option UInt8} {is : List Spec.Item} (h : FramedTrack 1 rs is r) (k : Nat) : ∃ r', FramedTrack 1 rs (is.take k) r' := by
  induction h generalizing k with
  | nil => exact ⟨_, by rw [List.take_nil]; exact .nil⟩
  | cons a _ ih =>
    cases k with
    | zero => exact ⟨_, .nil⟩
    | succ k =>
      obtain ⟨r', h'⟩ := ih k
      exact ⟨r', .cons a h'⟩

theorem meanings_take {p : Bool} {l : List Raw} {cs : List Content} (h : meanings p l = some cs) (k : Nat) : meanings p (l.take k) = some (cs.take k) := by
  induction l generalizing p cs k with
  | nil =>
    simp only [meanings, Option.some.injEq] at h
    subst h
    simp [meanings]
  | cons r l ih =>
    cases k with
    | zero => simp [meanings]
    | succ k =>
      rw [meanings] at h
      split at h
      · rename_i c cs' h1 h2
        injection h with h
        subst h
        rw [List.take_succ_cons, List.take_succ_cons, meanings, h1, ih h2 k]
      · cases h

theorem entries_take (offset : Int) (l : List (Spec.Item × Content)) : ∀ (past : List Content) (el k : Nat),
    entries offset past el (l.take k) = (entries offset past el l).take k := by
  induction l with
  | nil => intro _ _ k; rw [List.take_nil, entries, List.take_nil]
  | cons x l ih =>
    intro past el k
    obtain ⟨i, c⟩ := x
    cases k with
    | zero => rfl
    | succ k => rw [List.take_succ_cons, entries, entries, List.take_succ_cons, ih]

theorem entries_bytes (offset : Int) (is : List Spec.Item) : ∀ (cs : List Content) (past : List Content) (el : Nat), is.length = cs.length →
    (entries offset past el (is.zip cs)).map (·.bytes) = is.map (·.bytes) := by
  induction is with
  | nil => intro _ _ _ _; rfl
  | cons i is ih =>
    intro cs past el h
    cases cs with
    | nil => cases h
    | cons c cs =>
      simp only [List.zip_cons_cons, entries, List.map_cons]
      rw [ih cs _ _ (by simpa using h)]

/-- Items at the beginning of the items of a track. -/
theorem framed_begin {rs r1 r2 : Option UInt8} {is is' : List Spec.Item} {y tail : Bytes} (h : FramedTrack 1 rs is r1) (h' : FramedTrack 1 rs is' r2)
    (ht : Truncated 1 r2 tail) (e : trackBytes is ++ y = trackBytes is' ++ tail) : is <+: is' := by
  induction h generalizing is' with
  | nil => exact List.nil_prefix
  | @cons rs rs' rs'' i is a _ ih =>
    have e1 : i.bytes ++ (trackBytes is ++ y) = trackBytes is' ++ tail := by
      rw [← e]
      simp [trackBytes]
    cases h' with
    | nil =>
      simp only [trackBytes, List.map_nil, List.flatten_nil, List.nil_append] at e1
      rw [← e1] at ht
      exact absurd ht (not_truncated_of_framed a)
    | @cons _ _ _ j is' b h' =>
      have e2 : i.bytes ++ (trackBytes is ++ y) = j.bytes ++ (trackBytes is' ++ tail) := by
        rw [e1]
        simp [trackBytes]
      obtain ⟨rfl, e3, rfl⟩ := framedItem_unique a b e2
      exact List.prefix_cons_inj _ |>.2 (ih h' e3)

/-- The body of a track chunk. -/
def bodyOf (t : TrackEntry) : List UInt8 := t.bytes.drop 8

theorem body_chunk {c : Chunk} (hw : c.Wf) : c.bytes.drop 8 = c.body := by
  have : (c.tag ++ be32 c.body.length).length = 8 := by
    rw [List.length_append, hw.1]
    rfl
  rw [Chunk.bytes, ← this, List.drop_left]

/-- **C166.** A track cut off after any of its events is a track with the events up to there. -/
theorem C166_cut (offset : Int) (t : TrackEntry) (ht : TrackOfFile offset t) (k : Nat) :
    let body := (t.events.take k).flatMap (·.bytes)
    TrackOfFile offset ⟨0, tagMTrk, body.length, tagMTrk ++ be32 body.length ++ body, t.events.take k⟩ := by
  intro body
  obtain ⟨c, wf, htag, hb, hs⟩ := track_chunk ht
  obtain ⟨items, tail, rs', cs, a1, a2, a3, a4, a5⟩ := hs 0
  have hlen : items.length = cs.length := by simpa using (meanings_length a4).symm
  have hev : t.events = entries offset [] 0 (items.zip cs) := congrArg TrackEntry.events a5
  have hbody : body = trackBytes (items.take k) := by
    show (t.events.take k).flatMap (·.bytes) = _
    rw [List.flatMap_def, List.map_take, hev, entries_bytes _ _ _ _ _ hlen, ← List.map_take]
    rfl
  have hle : body.length ≤ c.body.length := by
    rw [hbody, a1]
    have : trackBytes items = trackBytes (items.take k) ++ trackBytes (items.drop k) := by
      rw [trackBytes, trackBytes, trackBytes, ← List.flatten_append, ← List.map_append, List.take_append_drop]
    rw [this]
    simp only [List.length_append]
    omega
  obtain ⟨r', hf⟩ := framed_take a2 k
  have wf' : Chunk.Wf ⟨tagMTrk, body⟩ := ⟨rfl, Nat.lt_of_le_of_lt hle wf.2⟩
  refine ⟨fileBytes [(Header.mk 0 1 96).chunk, ⟨tagMTrk, body⟩], ⟨0, 1, 96⟩, [_], ⟨[⟨tagMTrk, body⟩], [], by simp, ?_, ?_, .nil, rfl, rfl, ?_⟩, List.mem_singleton.2 rfl⟩
  · exact ⟨by decide, by decide, by decide, Or.inl (by decide)⟩
  · intro c hc
    rw [List.mem_singleton.1 hc]
    exact wf'
  · intro i c u hc hu
    have hi : i = 0 := by
      have := (List.getElem?_eq_some_iff.1 hu).1
      simpa using this
    subst hi
    simp only [List.getElem?_cons_zero, Option.some.injEq] at hu
    subst hu
    have hc' : c = ⟨tagMTrk, body⟩ := by
      have : (List.filter (fun c => c.tag == tagMTrk) [(⟨tagMTrk, body⟩ : Chunk)]) = [⟨tagMTrk, body⟩] := rfl
      rw [this] at hc
      simpa using hc.symm
    subst hc'
    refine ⟨items.take k, [], r', cs.take k, by rw [List.append_nil]; exact hbody, hf, truncated_nil _, ?_, ?_⟩
    · rw [List.map_take]
      exact meanings_take a4 k
    · rw [hev, ← entries_take]
      congr 2
      rw [List.zip_eq_zipWith, List.zip_eq_zipWith, List.take_zipWith]

/-- **C166.** If the body of a track begins with the bytes of the first events of another track then it begins with the same events: an event, with its
time, names and bank, does not depend on what comes after it. -/
theorem C166_causal (offset : Int) (t t' : TrackEntry) (ht : TrackOfFile offset t) (ht' : TrackOfFile offset t') (k : Nat)
    (hb : (t.events.take k).flatMap (·.bytes) <+: bodyOf t') : t.events.take k <+: t'.events := by
  obtain ⟨c, wf, htag, hbc, hs⟩ := track_chunk ht
  obtain ⟨c', wf', htag', hbc', hs'⟩ := track_chunk ht'
  obtain ⟨items, tail, rs, cs, a1, a2, a3, a4, a5⟩ := hs 0
  obtain ⟨items', tail', rs', cs', b1, b2, b3, b4, b5⟩ := hs' 0
  have hlen : items.length = cs.length := by simpa using (meanings_length a4).symm
  have hev : t.events = entries offset [] 0 (items.zip cs) := congrArg TrackEntry.events a5
  have hev' : t'.events = entries offset [] 0 (items'.zip cs') := congrArg TrackEntry.events b5
  have hbody : (t.events.take k).flatMap (·.bytes) = trackBytes (items.take k) := by
    rw [List.flatMap_def, List.map_take, hev, entries_bytes _ _ _ _ _ hlen, ← List.map_take]
    rfl
  rw [hbody, bodyOf, hbc', body_chunk wf', b1] at hb
  obtain ⟨y, hy⟩ := hb
  obtain ⟨r', hf⟩ := framed_take a2 k
  obtain ⟨more, hm⟩ := framed_begin hf b2 b3 hy
  have hk : items'.take (items.take k).length = items.take k := by rw [← hm, List.take_left]
  have hc : cs'.take (items.take k).length = cs.take k := by
    have m1 := meanings_take a4 k
    have m2 := meanings_take b4 (items.take k).length
    rw [← List.map_take] at m1 m2
    rw [hk, m1] at m2
    injection m2 with m2
    exact m2.symm
  have : t.events.take k = t'.events.take (items.take k).length := by
    rw [hev, hev', ← entries_take, ← entries_take]
    congr 1
    rw [List.zip_eq_zipWith, List.zip_eq_zipWith, List.take_zipWith, List.take_zipWith, hk, hc]
  rw [this]
  exact List.take_prefix _ _

/-- The tracks that decoding gives are tracks of files. -/
theorem track_decoded {mc : MiddleC} {spare bytes : Bytes} {smf : SMF} (hd : decode mc spare bytes = .ok smf) {t : TrackEntry}
    (ht : t ∈ smf.tracks.map MTrk.entry) : TrackOfFile (octaveOffset mc) t := by
  obtain ⟨h, ts, hf, _, hts⟩ := C143_total mc spare bytes smf hd
  exact ⟨bytes, h, ts, hf, hts ▸ ht⟩

/-- **C166.** Decoding: a track of a decoded file cut off after any of its events decodes, to the events up to there; and the events of any track
whose body begins with the same bytes begin with the same events. -/
theorem C166_decoding (mc : MiddleC) (spare bytes : Bytes) (smf : SMF) (hd : decode mc spare bytes = .ok smf) (t : TrackEntry)
    (ht : t ∈ smf.tracks.map MTrk.entry) (k : Nat) :
    let body := (t.events.take k).flatMap (·.bytes)
    (∃ smf', decode mc spare ((Header.mk 0 1 96).chunk.bytes ++ (tagMTrk ++ be32 body.length ++ body)) = .ok smf' ∧
      smf'.tracks.map MTrk.entry = [⟨0, tagMTrk, body.length, tagMTrk ++ be32 body.length ++ body, t.events.take k⟩]) ∧
    ∀ spare' bytes' smf', decode mc spare' bytes' = .ok smf' → ∀ t' ∈ smf'.tracks.map MTrk.entry,
      body <+: bodyOf t' → t.events.take k <+: t'.events := by
  intro body
  have h1 := track_decoded hd ht
  refine ⟨?_, fun spare' bytes' smf' hd' t' ht' hb => C166_causal _ t t' h1 (track_decoded hd' ht') k hb⟩
  have h2 := C165_combined _ ⟨0, 1, 96⟩ ⟨by decide, by decide, by decide, Or.inl (by decide)⟩ [_] rfl
    (fun u hu => by rw [List.mem_singleton.1 hu]; exact C166_cut _ t h1 k)
  rw [List.flatMap_cons, List.flatMap_nil, List.append_nil] at h2
  obtain ⟨smf', a, _, b⟩ := (C143_decoding mc spare _ _ _).2 h2
  exact ⟨smf', a, b⟩

/-- C166: the first event of a track and the same event with another one after it. -/
example : ∃ t t', TrackOfFile 1 t ∧ TrackOfFile 1 t' ∧ (t.events.take 1).flatMap (·.bytes) = [0, 0x90, 60, 64] ∧
    bodyOf t' = [0, 0x90, 60, 64, 0, 62, 64] ∧ t'.events.length = 2 := by
  obtain ⟨smf, h1, h2⟩ := Outcome.of_test (o := decode .c3 [] (oneTrack [0, 0x90, 60, 64, 0, 0xff, 0x2f, 0]))
    (p := fun smf => match smf.tracks.map MTrk.entry with
      | [t] => decide ((t.events.take 1).flatMap (·.bytes) = [0, 0x90, 60, 64])
      | _ => false) (by decide +kernel)
  obtain ⟨smf', h1', h2'⟩ := Outcome.of_test (o := decode .c3 [] (oneTrack [0, 0x90, 60, 64, 0, 62, 64]))
    (p := fun smf => match smf.tracks.map MTrk.entry with
      | [t] => decide (bodyOf t = [0, 0x90, 60, 64, 0, 62, 64]) && decide (t.events.length = 2)
      | _ => false) (by decide +kernel)
  obtain ⟨h, ts, hf, _, hts⟩ := C143_total .c3 [] _ smf h1
  obtain ⟨h', ts', hf', _, hts'⟩ := C143_total .c3 [] _ smf' h1'
  rw [hts] at h2
  rw [hts'] at h2'
  split at h2
  · rename_i _ t
    split at h2'
    · rename_i _ t'
      simp only [Bool.and_eq_true, decide_eq_true_eq] at h2 h2'
      exact ⟨t, t', ⟨_, h, [t], hf, by simp⟩, ⟨_, h', [t'], hf', by simp⟩, h2, h2'.1, h2'.2⟩
    · cases h2'
  · cases h2

end Midiasm
