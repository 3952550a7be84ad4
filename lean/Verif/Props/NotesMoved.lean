import Verif.Props.Repeatable
import Verif.Props.NormalForm

/-!
C163: listing the notes of a file with a transposition, and listing the notes of the transposed file.
-/

set_option linter.unusedSimpArgs false

namespace Midiasm
open Spec

/-! ### Notes of moved events -/

theorem movedNote_inj {n : Int} {j k : Nat} (hj : 0 ≤ (j : Int) + n ∧ (j : Int) + n ≤ 127) (hk : 0 ≤ (k : Int) + n ∧ (k : Int) + n ≤ 127)
    (h : movedNote n j = movedNote n k) : j = k := by
  unfold movedNote at h
  omega

/-- A note moved by `n` semitones. -/
def movedSpan (n : Int) (p : Span) : Span := { p with key := movedNote n p.key }

theorem starts_moved {n : Int} {c : Content} (hc : Unclamped n c) {ch key : Nat} :
    StartsNote (Spec.moved n c) ch key ↔ ∃ k, StartsNote c ch k ∧ key = movedNote n k ∧ 0 ≤ (k : Int) + n ∧ (k : Int) + n ≤ 127 := by
  constructor
  · rintro ⟨v, hv, h⟩
    cases c <;> simp only [Spec.moved, reduceCtorEq, Content.noteOn.injEq] at h
    obtain ⟨rfl, rfl, rfl⟩ := h
    exact ⟨_, ⟨_, hv, rfl⟩, rfl, hc⟩
  · rintro ⟨k, ⟨v, hv, rfl⟩, rfl, _⟩
    exact ⟨v, hv, rfl⟩

theorem starts_same {n : Int} {c : Content} (hc : Unclamped n c) {ch k : Nat} (hk : 0 ≤ (k : Int) + n ∧ (k : Int) + n ≤ 127) :
    StartsNote (Spec.moved n c) ch (movedNote n k) ↔ StartsNote c ch k := by
  rw [starts_moved hc]
  constructor
  · rintro ⟨j, h1, h2, h3⟩
    rw [movedNote_inj hk h3 h2]
    exact h1
  · intro h
    exact ⟨k, h, rfl, hk⟩

theorem ends_same {n : Int} {c : Content} (hc : Unclamped n c) {ch k : Nat} (hk : 0 ≤ (k : Int) + n ∧ (k : Int) + n ≤ 127) :
    EndsNote (Spec.moved n c) ch (movedNote n k) ↔ EndsNote c ch k := by
  constructor
  · rintro (⟨v, h⟩ | h | h) <;> cases c <;> simp only [Spec.moved, reduceCtorEq, Content.noteOn.injEq, Content.noteOff.injEq] at h
    · obtain ⟨rfl, h, rfl⟩ := h
      rw [← movedNote_inj hc hk h]
      exact .inl ⟨_, rfl⟩
    · obtain ⟨rfl, h, rfl⟩ := h
      rw [← movedNote_inj hc hk h]
      exact .inr (.inl rfl)
    · exact .inr (.inr rfl)
  · rintro (⟨v, rfl⟩ | rfl | rfl)
    · exact .inl ⟨v, rfl⟩
    · exact .inr (.inl rfl)
    · exact .inr (.inr rfl)

theorem getElem_moved {n : Int} {cs : List Content} {i : Nat} {P : Content → Prop} :
    (∃ c, (cs.map (Spec.moved n))[i]? = some c ∧ P c) ↔ ∃ c, cs[i]? = some c ∧ P (Spec.moved n c) := by
  rw [List.getElem?_map]
  cases cs[i]? <;> simp

theorem sounding_moved {n : Int} {cs : List Content} (hu : ∀ c ∈ cs, Unclamped n c) {ch k i : Nat}
    (hk : 0 ≤ (k : Int) + n ∧ (k : Int) + n ≤ 127) : Sounding (cs.map (Spec.moved n)) ch (movedNote n k) i ↔ Sounding cs ch k i := by
  unfold Sounding
  refine exists_congr fun s => and_congr_right fun _ => ?_
  rw [getElem_moved]
  refine and_congr ⟨?_, ?_⟩ ⟨?_, ?_⟩
  · rintro ⟨c, h1, h2⟩
    exact ⟨c, h1, (starts_same (hu c (List.mem_of_getElem? h1)) hk).1 h2⟩
  · rintro ⟨c, h1, h2⟩
    exact ⟨c, h1, (starts_same (hu c (List.mem_of_getElem? h1)) hk).2 h2⟩
  · intro h m c h1 h2 h3 h4
    refine h m (Spec.moved n c) h1 h2 (by rw [List.getElem?_map, h3]; rfl) ?_
    exact (ends_same (hu c (List.mem_of_getElem? h3)) hk).2 h4
  · intro h m c h1 h2 h3 h4
    rw [List.getElem?_map, Option.map_eq_some_iff] at h3
    obtain ⟨d, h3, rfl⟩ := h3
    exact h m d h1 h2 h3 ((ends_same (hu d (List.mem_of_getElem? h3)) hk).1 h4)

theorem span_range {n : Int} {cs : List Content} (hu : ∀ c ∈ cs, Unclamped n c) {p : Span} (h : IsSpan cs p) :
    0 ≤ (p.key : Int) + n ∧ (p.key : Int) + n ≤ 127 := by
  obtain ⟨⟨c, h1, v, _, rfl⟩, _⟩ := h
  exact hu _ (List.mem_of_getElem? h1)

theorem isSpan_same {n : Int} {cs : List Content} (hu : ∀ c ∈ cs, Unclamped n c) {p : Span} (hk : 0 ≤ (p.key : Int) + n ∧ (p.key : Int) + n ≤ 127) :
    IsSpan (cs.map (Spec.moved n)) (movedSpan n p) ↔ IsSpan cs p := by
  unfold IsSpan
  simp only [movedSpan, getElem_moved]
  rw [sounding_moved hu hk]
  refine and_congr ?_ (and_congr_right fun _ => and_congr_right fun _ => and_congr ?_ ?_)
  · refine exists_congr fun c => and_congr_right fun h1 => starts_same (hu c (List.mem_of_getElem? h1)) hk
  · refine exists_congr fun c => and_congr_right fun h1 => ends_same (hu c (List.mem_of_getElem? h1)) hk
  · constructor
    · intro h m c h1 h2 h3 h4
      refine h m (Spec.moved n c) h1 h2 (by rw [List.getElem?_map, h3]; rfl) ?_
      exact (ends_same (hu c (List.mem_of_getElem? h3)) hk).2 h4
    · intro h m c h1 h2 h3 h4
      rw [List.getElem?_map, Option.map_eq_some_iff] at h3
      obtain ⟨d, h3, rfl⟩ := h3
      exact h m d h1 h2 h3 ((ends_same (hu d (List.mem_of_getElem? h3)) hk).1 h4)

/-- The notes of moved events are the notes, moved. -/
theorem isSpan_moved {n : Int} {cs : List Content} (hu : ∀ c ∈ cs, Unclamped n c) (q : Span) :
    IsSpan (cs.map (Spec.moved n)) q ↔ ∃ p, IsSpan cs p ∧ q = movedSpan n p := by
  constructor
  · intro h
    obtain ⟨c, h1, h2⟩ := getElem_moved.1 h.1
    obtain ⟨k, _, hk, hr⟩ := (starts_moved (hu c (List.mem_of_getElem? h1))).1 h2
    have e : q = movedSpan n { q with key := k } := by
      cases q
      simp only [movedSpan] at hk ⊢
      rw [hk]
    refine ⟨{ q with key := k }, ?_, e⟩
    rw [e] at h
    exact (isSpan_same hu hr).1 h
  · rintro ⟨p, hp, rfl⟩
    exact (isSpan_same hu (span_range hu hp)).2 hp

theorem spans_moved {n : Int} {cs : List Content} (hu : ∀ c ∈ cs, Unclamped n c) {ps : List Span} (h : SpansOf cs ps) :
    SpansOf (cs.map (Spec.moved n)) (ps.map (movedSpan n)) := by
  obtain ⟨h1, h2, h3⟩ := h
  refine ⟨?_, ?_, ?_⟩
  · refine List.pairwise_map.2 (h1.imp_of_mem ?_)
    intro p q hp hq hne he
    have rp := span_range hu ((h2 p).1 hp)
    have rq := span_range hu ((h2 q).1 hq)
    apply hne
    cases p
    cases q
    simp only [movedSpan, Span.mk.injEq] at he rp rq ⊢
    exact ⟨he.1, movedNote_inj rp rq he.2.1, he.2.2⟩
  · intro q
    rw [List.mem_map, isSpan_moved hu]
    constructor
    · rintro ⟨p, hp, rfl⟩
      exact ⟨p, (h2 p).1 hp, rfl⟩
    · rintro ⟨p, hp, rfl⟩
      exact ⟨p, (h2 p).2 hp, rfl⟩
  · exact List.pairwise_map.2 h3

theorem endApart_moved {n : Int} {cs : List Content} (hu : ∀ c ∈ cs, Unclamped n c) (h : EndApart cs) : EndApart (cs.map (Spec.moved n)) := by
  intro p q hp hq h1 h2
  obtain ⟨p, gp, rfl⟩ := (isSpan_moved hu _).1 hp
  obtain ⟨q, gq, rfl⟩ := (isSpan_moved hu _).1 hq
  rw [h p q gp gq h1 h2]

/-! ### Times -/

theorem setsTempo_moved (n : Int) (c : Content) : setsTempo (Spec.moved n c) = setsTempo c := by
  cases c <;> rfl

theorem velocity_moved (n : Int) (c : Option Content) : velocityOf (c.map (Spec.moved n)) = velocityOf c := by
  cases c with
  | none => rfl
  | some c => cases c <;> rfl

/-- The ticks of events, from their delta times. -/
def ticksFrom : Nat → List Nat → List Nat
  | _, [] => []
  | el, d :: ds => (el % 2 ^ 32 + d) :: ticksFrom (el + d) ds

theorem entries_ticks (offset : Int) (l : List (Spec.Item × Content)) : ∀ (past : List Content) (el : Nat),
    (entries offset past el l).map (·.tick) = ticksFrom el ((entries offset past el l).map (·.delta)) := by
  induction l with
  | nil => intro _ _; rfl
  | cons x l ih =>
    intro past el
    obtain ⟨i, c⟩ := x
    simp only [entries, List.map_cons, ticksFrom, ih]

theorem says_ticks {offset : Int} {bytes : Bytes} {h : Header} {ts : List TrackEntry} (hf : FileSays offset bytes h ts) :
    ∀ t ∈ ts, t.events.map (·.tick) = ticksFrom 0 (t.events.map (·.delta)) := by
  obtain ⟨cs, tail, _, _, _, _, h1, h2, h3⟩ := hf
  intro t ht
  obtain ⟨i, hi, rfl⟩ := List.mem_iff_getElem.1 ht
  have hc := List.getElem?_eq_getElem (l := cs.filter fun c => c.tag == tagMTrk) (i := i) (by omega)
  obtain ⟨items, tail, rs', cs, _, _, _, _, e⟩ := h3 i _ _ hc (List.getElem?_eq_getElem hi)
  rw [e]
  exact entries_ticks _ _ _ _

/-- A track has the events of another, moved, at the same times. -/
def MovedTrack (n : Int) (t t' : TrackEntry) : Prop :=
  t'.events.map (·.content) = (t.events.map (·.content)).map (Spec.moved n) ∧ t'.events.map (·.delta) = t.events.map (·.delta) ∧
    t'.events.map (·.tick) = t.events.map (·.tick)

theorem moved_tracks {offset offset' : Int} {bytes bytes' : Bytes} {h h' : Header} {ts ts' : List TrackEntry} {n : Int} (hf : FileSays offset bytes h ts)
    (hf' : FileSays offset' bytes' h' ts') (he : contentsOf id ts' = contentsOf (Spec.moved n) ts) : List.Forall₂ (MovedTrack n) ts ts' := by
  have a := says_ticks hf
  have a' := says_ticks hf'
  clear hf hf'
  induction ts generalizing ts' with
  | nil =>
    cases ts' with
    | nil => exact .nil
    | cons _ _ => simp [contentsOf] at he
  | cons t ts ih =>
    cases ts' with
    | nil => simp [contentsOf] at he
    | cons t' ts' =>
      simp only [contentsOf, List.map_cons, List.cons.injEq] at he
      obtain ⟨e1, e2⟩ := he
      refine .cons ?_ (ih e2 (fun t ht => a t (by simp [ht])) fun t ht => a' t (by simp [ht]))
      have d1 : t'.events.map (·.content) = (t.events.map (·.content)).map (Spec.moved n) := by
        have := congrArg (List.map Prod.snd) e1
        simpa [List.map_map, Function.comp_def] using this
      have d2 : t'.events.map (·.delta) = t.events.map (·.delta) := by
        have := congrArg (List.map Prod.fst) e1
        simpa [List.map_map, Function.comp_def] using this
      refine ⟨d1, d2, ?_⟩
      rw [a t (by simp), a' t' (by simp), d2]

theorem zip_fields (t : TrackEntry) :
    (t.events.map fun e => (e.tick, e.delta, setsTempo e.content)) =
      ((t.events.map (·.tick)).zip ((t.events.map (·.delta)).zip ((t.events.map (·.content)).map setsTempo))) := by
  induction t.events with
  | nil => rfl
  | cons e es ih => simp only [List.map_cons, List.zip_cons_cons, ih]

theorem moved_fields {n : Int} {t t' : TrackEntry} (h : MovedTrack n t t') :
    (t'.events.map fun e => (e.tick, e.delta, setsTempo e.content)) = t.events.map fun e => (e.tick, e.delta, setsTempo e.content) := by
  rw [zip_fields, zip_fields, h.1, h.2.1, h.2.2, List.map_map]
  congr 2
  apply List.map_congr_left
  intro c _
  exact setsTempo_moved n c

theorem moved_changes {n : Int} {t t' : TrackEntry} (h : MovedTrack n t t') : tempoChanges t' = tempoChanges t := by
  have key : ∀ t : TrackEntry, tempoChanges t = (t.events.map fun e => (e.tick, e.delta, setsTempo e.content)).filterMap
      fun x => x.2.2.map fun v => (x.1, v) := by
    intro t
    rw [tempoChanges, List.filterMap_map]
    rfl
  rw [key, key, moved_fields h]

theorem moved_times {n : Int} {t t' : TrackEntry} (h : MovedTrack n t t') (m : TempoMap) (ppqn : Nat) : timesMs m ppqn t' = timesMs m ppqn t := by
  rw [timesMs, timesMs, moved_fields h]

/-! ### Records -/

/-- The same note but for its name. -/
def SameButName (x y : Note) : Prop := y = { x with formattedNote := y.formattedNote }

/-- No event of the track is a key signature. -/
def Keyless (t : TrackEntry) : Prop := ∀ e ∈ t.events, ∀ a m, e.content ≠ .keySignature a m

theorem no_recentKey (past : List Content) (h : ∀ c ∈ past, ∀ a m, c ≠ .keySignature a m) : recentKey past = none := by
  induction past with
  | nil => rfl
  | cons c past ih =>
    have h1 := h c (by simp)
    have h2 := ih fun d hd => h d (by simp [hd])
    cases c <;> simp only [recentKey, h2]
    exact absurd rfl (h1 _ _)

theorem keyless_flats (cs : List Content) (h : ∀ c ∈ cs, ∀ a m, c ≠ .keySignature a m) (i : Nat) : flatsAfter (cs.take i).reverse = false := by
  rw [flatsAfter, no_recentKey _ fun c hc => h c (List.mem_of_mem_take (List.mem_reverse.1 hc))]

theorem record_moved {offset n : Int} {m : TempoMap} {ppqn : Nat} {t t' : TrackEntry} (h : MovedTrack n t t') {p : Span}
    (hk : 0 ≤ (p.key : Int) + n ∧ (p.key : Int) + n ≤ 127) :
    SameButName (noteRecord offset n m ppqn t p) (noteRecord offset 0 m ppqn t' (movedSpan n p)) ∧
      (Keyless t → noteRecord offset 0 m ppqn t' (movedSpan n p) = noteRecord offset n m ppqn t p) := by
  have hkey : (max 0 (min 255 (((movedSpan n p).key : Nat) + (0 : Int)))).toNat = (max 0 (min 255 ((p.key : Int) + n))).toNat := by
    simp only [movedSpan, movedNote]
    omega
  have hv : velocityOf (t'.events.map (·.content))[p.first]? = velocityOf (t.events.map (·.content))[p.first]? := by
    rw [h.1, List.getElem?_map, velocity_moved]
  constructor
  · unfold SameButName
    simp only [noteRecord, hkey, moved_times h, h.2.2]
    simp only [movedSpan, hv]
  · intro hn
    have n1 : ∀ c ∈ t.events.map (·.content), ∀ a m, c ≠ .keySignature a m := by
      intro c hc
      obtain ⟨e, he, rfl⟩ := List.mem_map.1 hc
      exact hn e he
    have n2 : ∀ c ∈ t'.events.map (·.content), ∀ a m, c ≠ .keySignature a m := by
      rw [h.1]
      intro c hc a m
      obtain ⟨d, hd, rfl⟩ := List.mem_map.1 hc
      have := n1 d hd
      cases d <;> simp only [Spec.moved, ne_eq, reduceCtorEq, not_false_eq_true]
      exact absurd rfl (this _ _)
    simp only [noteRecord, hkey, moved_times h, h.2.2, keyless_flats _ n1, keyless_flats _ n2]
    simp only [movedSpan, hv]

/-! ### Listings -/

/-- The notes of tracks, each moved, in the listing of the file that has been moved. -/
theorem listing_moved {offset n : Int} {m : TempoMap} {ppqn : Nat} {l l' : List TrackEntry} (h : List.Forall₂ (MovedTrack n) l l')
    (hu : ∀ t ∈ l, ∀ e ∈ t.events, Unclamped n e.content) {pss : List (List Span)}
    (hp : List.Forall₂ (fun (t : TrackEntry) ps => SpansOf (t.events.map (·.content)) ps) l pss) :
    List.Forall₂ (fun (t : TrackEntry) ps => SpansOf (t.events.map (·.content)) ps) l' (pss.map (List.map (movedSpan n))) ∧
    List.Forall₂ SameButName ((l.zip pss).flatMap fun (t, ps) => ps.map (noteRecord offset n m ppqn t))
      ((l'.zip (pss.map (List.map (movedSpan n)))).flatMap fun (t, ps) => ps.map (noteRecord offset 0 m ppqn t)) ∧
    ((∀ t ∈ l, Keyless t) → ((l'.zip (pss.map (List.map (movedSpan n)))).flatMap fun (t, ps) => ps.map (noteRecord offset 0 m ppqn t)) =
      (l.zip pss).flatMap fun (t, ps) => ps.map (noteRecord offset n m ppqn t)) := by
  induction h generalizing pss with
  | nil =>
    cases hp
    exact ⟨.nil, .nil, fun _ => rfl⟩
  | @cons t t' l l' ht _ ih =>
    cases hp with
    | @cons _ ps _ pss hps hp =>
      obtain ⟨i1, i2, i3⟩ := ih (fun t ht => hu t (by simp [ht])) hp
      have hc : ∀ c ∈ t.events.map (·.content), Unclamped n c := by
        intro c hc
        obtain ⟨e, he, rfl⟩ := List.mem_map.1 hc
        exact hu t (by simp) e he
      have hr : ∀ p ∈ ps, 0 ≤ (p.key : Int) + n ∧ (p.key : Int) + n ≤ 127 := fun p hp => span_range hc ((hps.2.1 p).1 hp)
      refine ⟨.cons ?_ i1, ?_, ?_⟩
      · show SpansOf (t'.events.map (·.content)) _
        rw [ht.1]
        exact spans_moved hc hps
      · simp only [List.map_cons, List.zip_cons_cons, List.flatMap_cons]
        refine List.rel_append ?_ i2
        clear hps i1 i2 i3
        induction ps with
        | nil => exact .nil
        | cons p ps ihp =>
          exact .cons (record_moved ht (hr p (by simp))).1 (ihp fun q hq => hr q (by simp [hq]))
      · intro hk
        simp only [List.map_cons, List.zip_cons_cons, List.flatMap_cons]
        rw [i3 fun t ht => hk t (by simp [ht]), List.map_map]
        congr 1
        apply List.map_congr_left
        intro p hp
        exact (record_moved ht (hr p hp)).2 (hk t (by simp))

theorem listing_perm {offset n : Int} {m : TempoMap} {ppqn : Nat} {l : List TrackEntry} {pss pss' : List (List Span)}
    (h : List.Forall₂ (fun (t : TrackEntry) ps => SpansOf (t.events.map (·.content)) ps) l pss)
    (h' : List.Forall₂ (fun (t : TrackEntry) ps => SpansOf (t.events.map (·.content)) ps) l pss') :
    ((l.zip pss).flatMap fun (t, ps) => ps.map (noteRecord offset n m ppqn t)).Perm
      ((l.zip pss').flatMap fun (t, ps) => ps.map (noteRecord offset n m ppqn t)) ∧
    ((∀ t ∈ l, EndApart (t.events.map (·.content))) → pss = pss') := by
  induction h generalizing pss' with
  | nil =>
    cases h'
    exact ⟨.nil, fun _ => rfl⟩
  | cons a _ ih =>
    cases h' with
    | cons b h' =>
      obtain ⟨i1, i2⟩ := ih h'
      refine ⟨?_, ?_⟩
      · simp only [List.zip_cons_cons, List.flatMap_cons]
        exact ((spans_perm a b).map _).append i1
      · intro ha
        rw [spans_equal (ha _ (by simp)) a b, i2 fun t ht => ha t (by simp [ht])]

theorem forall2_drop {α β : Type} {R : α → β → Prop} {l : List α} {l' : List β} (h : List.Forall₂ R l l') : List.Forall₂ R (l.drop 1) (l'.drop 1) := by
  cases h with
  | nil => exact .nil
  | cons _ h => exact h

theorem endApart_tracks {n : Int} {l l' : List TrackEntry} (h : List.Forall₂ (MovedTrack n) l l')
    (hu : ∀ t ∈ l, ∀ e ∈ t.events, Unclamped n e.content) (ha : ∀ t ∈ l, EndApart (t.events.map (·.content))) :
    ∀ t ∈ l', EndApart (t.events.map (·.content)) := by
  induction h with
  | nil => intro t ht; cases ht
  | @cons t t' l l' h _ ih =>
    intro x hx
    rcases List.mem_cons.1 hx with rfl | hx
    · rw [h.1]
      refine endApart_moved ?_ (ha t (by simp))
      intro c hc
      obtain ⟨e, he, rfl⟩ := List.mem_map.1 hc
      exact hu t (by simp) e he
    · exact ih (fun t ht => hu t (by simp [ht])) (fun t ht => ha t (by simp [ht])) x hx

/-- The listings of a file with a transposition and of the moved file. -/
theorem fileNotes_moved {offset n : Int} {ppqn : Nat} {ts ts' : List TrackEntry} (h : List.Forall₂ (MovedTrack n) ts ts')
    (hu : ∀ t ∈ ts, ∀ e ∈ t.events, Unclamped n e.content) {pss pss' : List (List Span)}
    (hp : List.Forall₂ (fun (t : TrackEntry) ps => SpansOf (t.events.map (·.content)) ps) (ts.drop 1) pss)
    (hp' : List.Forall₂ (fun (t : TrackEntry) ps => SpansOf (t.events.map (·.content)) ps) (ts'.drop 1) pss') :
    ∃ ms, List.Forall₂ SameButName (fileNotes offset n ppqn ts pss) ms ∧ ms.Perm (fileNotes offset 0 ppqn ts' pss') ∧
      ((∀ t ∈ ts.drop 1, Keyless t) → ms = fileNotes offset n ppqn ts pss) ∧
      ((∀ t ∈ ts.drop 1, EndApart (t.events.map (·.content))) → ms = fileNotes offset 0 ppqn ts' pss') := by
  have hm : tempoChanges (ts'.headD ⟨0, [], 0, [], []⟩) = tempoChanges (ts.headD ⟨0, [], 0, [], []⟩) := by
    cases h with
    | nil => rfl
    | cons h _ => exact moved_changes h
  have hu1 : ∀ t ∈ ts.drop 1, ∀ e ∈ t.events, Unclamped n e.content := fun t ht => hu t (List.mem_of_mem_drop ht)
  obtain ⟨a1, a2, a3⟩ := listing_moved (offset := offset) (m := tempoChanges (ts.headD ⟨0, [], 0, [], []⟩)) (ppqn := ppqn) (forall2_drop h) hu1 hp
  obtain ⟨b1, b2⟩ := listing_perm (offset := offset) (n := 0) (m := tempoChanges (ts.headD ⟨0, [], 0, [], []⟩)) (ppqn := ppqn) a1 hp'
  refine ⟨_, a2, ?_, a3, ?_⟩
  · rw [fileNotes, hm]
    exact b1
  · intro ha
    rw [fileNotes, hm, b2 (endApart_tracks (forall2_drop h) hu1 ha)]

/-- **C163.** The notes of a file listed with `--transpose n`, and the notes of the file that `transpose --semitones n` writes, if no note leaves the
range 0 to 127: the same notes at the same times, except for their names, and for the order of notes of one channel that end together.  Without key signatures the names are the same. -/
theorem C163_listing_partial (w : World) (args argv args' argv' args'' argv'' : List Bytes) (s s' s'' : List (Bytes × FlagValue)) (r r' r'' : List Bytes)
    (hi : Invokes .notes args argv) (hl : CommandLine (options .notes) args s r) (hi' : Invokes .transpose args' argv')
    (hl' : CommandLine (options .transpose) args' s' r') (hi'' : Invokes .notes args'' argv'') (hl'' : CommandLine (options .notes) args'' s'' r'')
    (bytes : Bytes) (hr : r.headD [] ≠ []) (hr' : r'.headD [] = r.headD []) (hby : w.read (r.headD []) = some bytes)
    (mc : MiddleC) (hmc : Naming s mc) (hmc' : Naming s' mc) (hmc'' : Naming s'' mc) (h : Header) (ts : List TrackEntry)
    (hf : FileSays (octaveOffset mc) bytes h ts) (hd : 0 < h.division ∧ h.division < 32768) (hts : ts ≠ []) (hlen : bytes.length < 2 ^ 28)
    (hlast : ∀ t ∈ ts, Lasting t) (hb : ∀ t ∈ ts, Brief t) (n : Int) (hn : Number s "transpose" n) (hn' : Number s' "semitones" n)
    (hn'' : Number s'' "transpose" 0) (hfit : Fits n) (hu : ∀ t ∈ ts, ∀ e ∈ t.events, Unclamped n e.content)
    (mid : Bytes) (ho : Output s' mid) (hc : w.create mid = true) (hin : r''.headD [] = mid) :
    (midiasm w argv').status = .success ∧
    ∃ ns ms ns', Lists w s ns (midiasm w argv) ∧ Lists (w.after (midiasm w argv')) s'' ns' (midiasm (w.after (midiasm w argv')) argv'') ∧
      List.Forall₂ SameButName ns ms ∧ ms.Perm ns' ∧ ((∀ t ∈ ts.drop 1, Keyless t) → ms = ns) ∧
      ((∀ t ∈ ts.drop 1, EndApart (t.events.map (·.content))) → ms = ns') := by
  have htr : ¬ (h.format = 1 ∧ h.tracks = 0) := by
    rintro ⟨_, h0⟩
    obtain ⟨_, _, _, _, _, _, h1, _⟩ := hf
    exact hts (List.length_eq_zero_iff.1 (by omega))
  have e1 := (C146_transpose_command w args' argv' s' r' hi' hl' (by rw [hr']; exact hr) bytes (by rw [hr']; exact hby) mc hmc' h ts hf htr n hn'
    hfit).written mid ho hc
  obtain ⟨ts', k1, k2⟩ := C150_reread mc mc bytes h ts hf hlen hlast n hfit
  have hm := moved_tracks hf k1 k2
  have hts' : ts' ≠ [] := by
    rintro rfl
    cases hm
    exact hts rfl
  have hb' : ∀ t ∈ ts', Brief t := by
    clear k1 k2 hts' hts hf hlast hu e1
    induction hm with
    | nil => intro t ht; cases ht
    | @cons t t' l l' h _ ih =>
      intro x hx
      rcases List.mem_cons.1 hx with rfl | hx
      · unfold Brief
        rw [h.2.1]
        exact hb t (by simp)
      · exact ih (fun t ht => hb t (by simp [ht])) x hx
  obtain ⟨pss, g1, g2⟩ := C148_notes_command w args argv s r hi hl hr bytes hby mc hmc h ts hf hd hts hb n hn hfit
  obtain ⟨pss', g1', g2'⟩ := C148_notes_command (w.after (midiasm w argv')) args'' argv'' s'' r'' hi'' hl'' (by rw [hin]; exact ho.1) _
    (by rw [hin, e1, after_read]) mc hmc'' h ts' k1 hd hts' hb' 0 hn'' (by unfold Fits; omega)
  obtain ⟨ms, m1, m2, m3, m4⟩ := fileNotes_moved (offset := octaveOffset mc) (ppqn := h.division) hm hu g1 g1'
  exact ⟨by rw [e1], _, ms, _, g2, g2', m1, m2, m3, m4⟩

/-- **C163.** In particular the same text is printed, if there are no key signatures and no two notes of one channel end with the same event. -/
theorem C163_same_text_partial (w : World) (args argv args' argv' args'' argv'' : List Bytes) (s s' s'' : List (Bytes × FlagValue))
    (r r' r'' : List Bytes) (hi : Invokes .notes args argv) (hl : CommandLine (options .notes) args s r) (hi' : Invokes .transpose args' argv')
    (hl' : CommandLine (options .transpose) args' s' r') (hi'' : Invokes .notes args'' argv'') (hl'' : CommandLine (options .notes) args'' s'' r'')
    (bytes : Bytes) (hr : r.headD [] ≠ []) (hr' : r'.headD [] = r.headD []) (hby : w.read (r.headD []) = some bytes)
    (mc : MiddleC) (hmc : Naming s mc) (hmc' : Naming s' mc) (hmc'' : Naming s'' mc) (h : Header) (ts : List TrackEntry)
    (hf : FileSays (octaveOffset mc) bytes h ts) (hd : 0 < h.division ∧ h.division < 32768) (hts : ts ≠ []) (hlen : bytes.length < 2 ^ 28)
    (hlast : ∀ t ∈ ts, Lasting t) (hb : ∀ t ∈ ts, Brief t) (n : Int) (hn : Number s "transpose" n) (hn' : Number s' "semitones" n)
    (hn'' : Number s'' "transpose" 0) (hfit : Fits n) (hu : ∀ t ∈ ts, ∀ e ∈ t.events, Unclamped n e.content)
    (mid : Bytes) (ho : Output s' mid) (hc : w.create mid = true) (hin : r''.headD [] = mid)
    (hk : ∀ t ∈ ts.drop 1, Keyless t) (ha : ∀ t ∈ ts.drop 1, EndApart (t.events.map (·.content)))
    (hj : ¬ Given s "json" (.bool true)) (hj' : ¬ Given s'' "json" (.bool true)) (hs : NoText s "out") (hs' : NoText s'' "out") :
    midiasm (w.after (midiasm w argv')) argv'' = midiasm w argv := by
  obtain ⟨_, ns, ms, ns', g1, g2, _, _, g3, g4⟩ := C163_listing_partial w args argv args' argv' args'' argv'' s s' s'' r r' r'' hi hl hi' hl' hi'' hl''
    bytes hr hr' hby mc hmc hmc' hmc'' h ts hf hd hts hlen hlast hb n hn hn' hn'' hfit hu mid ho hc hin
  have e : ns' = ns := by rw [← g4 ha, g3 hk]
  rw [(g1.1 hj).printed hs, (g2.1 hj').printed hs', e]

/-! ### Examples -/

/-- A track in C major and a high note. -/
def inKey : Bytes := tracksFile 1 0 96 [[0, 0xff, 0x51, 3, 7, 0xa1, 0x20], [0, 0xff, 0x59, 2, 0, 0, 0, 0x90, 60, 64, 96, 0x80, 60, 0]]

/-- C163, not true in general: with a key signature the names differ, C♯ and D♭; and a note beyond 127 is limited in a file only. -/
theorem C163_listing_fails :
    (∃ smf file smf' ns ns', decode .c3 [] inKey = .ok smf ∧ transposeExecute .c3 1 false smf = .ok file ∧ decode .c3 [] file = .ok smf' ∧
      extractNotes .c3 (fun _ => idOrder) 1 smf = .ok ns ∧ extractNotes .c3 (fun _ => idOrder) 0 smf' = .ok ns' ∧
      ns.map (fun x => (x.note, x.formattedNote)) = [(61, "C♯4")] ∧ ns'.map (fun x => (x.note, x.formattedNote)) = [(61, "D♭4")]) ∧
    (∃ smf file smf' ns ns', decode .c3 [] inKey = .ok smf ∧ transposeExecute .c3 100 false smf = .ok file ∧ decode .c3 [] file = .ok smf' ∧
      extractNotes .c3 (fun _ => idOrder) 100 smf = .ok ns ∧ extractNotes .c3 (fun _ => idOrder) 0 smf' = .ok ns' ∧
      ns.map (·.note) = [160] ∧ ns'.map (·.note) = [127]) := by
  constructor
  · obtain ⟨smf, h1, h2⟩ := Outcome.of_test (o := decode .c3 [] inKey)
      (p := fun smf => match transposeExecute .c3 1 false smf with
        | .ok file => (match decode .c3 [] file with
          | .ok smf' => (match extractNotes .c3 (fun _ => idOrder) 1 smf, extractNotes .c3 (fun _ => idOrder) 0 smf' with
            | .ok ns, .ok ns' => decide (ns.map (fun x => (x.note, x.formattedNote)) = [(61, "C♯4")]) &&
              decide (ns'.map (fun x => (x.note, x.formattedNote)) = [(61, "D♭4")])
            | _, _ => false)
          | _ => false)
        | _ => false) (by decide +kernel)
    repeat' split at h2
    all_goals try cases h2
    rename_i _ file e1 _ smf' e2 _ _ ns ns' e3 e4
    simp only [Bool.and_eq_true, decide_eq_true_eq] at h2
    exact ⟨smf, file, smf', ns, ns', h1, e1, e2, e3, e4, h2⟩
  · obtain ⟨smf, h1, h2⟩ := Outcome.of_test (o := decode .c3 [] inKey)
      (p := fun smf => match transposeExecute .c3 100 false smf with
        | .ok file => (match decode .c3 [] file with
          | .ok smf' => (match extractNotes .c3 (fun _ => idOrder) 100 smf, extractNotes .c3 (fun _ => idOrder) 0 smf' with
            | .ok ns, .ok ns' => decide (ns.map (·.note) = [160]) && decide (ns'.map (·.note) = [127])
            | _, _ => false)
          | _ => false)
        | _ => false) (by decide +kernel)
    repeat' split at h2
    all_goals try cases h2
    rename_i _ file e1 _ smf' e2 _ _ ns ns' e3 e4
    simp only [Bool.and_eq_true, decide_eq_true_eq] at h2
    exact ⟨smf, file, smf', ns, ns', h1, e1, e2, e3, e4, h2⟩

/-- C163: a file that meets the hypotheses for a transposition by five semitones. -/
example : ∃ h ts, FileSays 1 ownTempo h ts ∧ (0 < h.division ∧ h.division < 32768) ∧ ts ≠ [] ∧ (∀ t ∈ ts, Lasting t) ∧ (∀ t ∈ ts, Brief t) ∧
    (∀ t ∈ ts, ∀ e ∈ t.events, Unclamped 5 e.content) ∧ (∀ t ∈ ts.drop 1, Keyless t) := by
  obtain ⟨smf, h1, h2⟩ := Outcome.of_test (o := decode .c3 [] ownTempo)
    (p := fun smf => match smf.mthd with
      | some m => decide (m.division = 96) && decide (smf.tracks.map MTrk.entry ≠ []) &&
        decide (∀ t ∈ smf.tracks.map MTrk.entry, ∀ e ∈ t.events, (Rewritable e.content ∧ e.delta < 2 ^ 28) ∧ Unclamped 5 e.content ∧
          (match e.content with | .keySignature _ _ => false | _ => true) = true) &&
        decide (∀ t ∈ smf.tracks.map MTrk.entry, 1000 * (t.events.map (·.delta)).sum * 2 ^ 24 < 2 ^ 63 - 1000000)
      | none => false) (by decide +kernel)
  obtain ⟨h, ts, hf, ⟨m, hm, hsh, _⟩, rfl⟩ := C143_total .c3 [] _ smf h1
  rw [hm] at h2
  simp only [Bool.and_eq_true, decide_eq_true_eq] at h2
  obtain ⟨⟨⟨a1, a2⟩, a3⟩, a4⟩ := h2
  have hdiv : h.division = 96 := by
    rw [← hsh.2.2.2.2.1, a1]; rfl
  refine ⟨h, _, hf, by omega, a2, fun t ht e he => (a3 t ht e he).1, a4, fun t ht e he => (a3 t ht e he).2.1, ?_⟩
  intro t ht e he a mn hc
  have := (a3 t (List.mem_of_mem_drop ht) e he).2.2
  rw [hc] at this
  cases this

end Midiasm
