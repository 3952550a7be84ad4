import Verif.Lemmas.NoteTimes
import Verif.Props.Context
import Verif.Props.Transpose

/-!
Properties C47 to C49: extraction of notes.
-/

set_option linter.unusedSimpArgs false

namespace Midiasm
open Spec

/-- The number of ticks of a track. -/
def MTrk.ticks (t : MTrk) : Nat := (t.events.map (fun e => e.delta.toNat)).sum

/-- The tempo events of a track: ticks and microseconds per quarter note. -/
def MTrk.tempos (t : MTrk) : TempoMap :=
  t.events.filterMap (fun e => match e.body with | .tempo v => some (e.tick.toNat, v.toNat) | _ => none)

/-- Tick, delta time and tempo of an event of a track. -/
def eventStamp (e : Event) : Nat × Nat × Option Nat := (e.tick.toNat, e.delta.toNat, e.body.tempoSet)

/-- Time of event `i` as computed by the code, in nanoseconds, before rounding. -/
def codeTime (m : TempoMap) (ppqn : Nat) (t : MTrk) (i : Nat) : Nat := (noteTimes m ppqn none 0 (t.events.map eventStamp)).getD i 0

/-- The same for a track without tempo events: each delta time is converted separately, at the tempo last set strictly before the event
(50000 microseconds per quarter note if none). -/
def plainTime (m : TempoMap) (ppqn : Nat) (t : MTrk) (i : Nat) : Nat :=
  ((t.events.take (i + 1)).map (fun e => 1000 * e.delta.toNat * tempoBefore m e.tick.toNat / ppqn)).sum

/-- The nearest millisecond, in nanoseconds. -/
def nearestMs (x : Nat) : Nat := (x + 500000) / 1000000 * 1000000

/-- A note of the output for a note of the track. -/
structure NoteOf (mc : MiddleC) (n : Int) (t : MTrk) (p : Span) (x : Note) : Prop where
  channel : x.channel.toNat = p.ch
  event : t.contents[p.first]? = some (.noteOn p.ch p.key x.velocity.toNat)
  note : (x.note.toNat : Int) = max 0 (min 255 ((p.key : Int) + n))
  name : Names (useFlats (t.contents.take p.first).reverse) (octaveOffset mc) x.formattedNote x.note.toNat
  spelling : x.formattedNote = noteName (octaveOffset mc) (flatsAfter (t.contents.take p.first).reverse) x.note.toNat
  startTick : (t.events.map Event.tick)[p.first]? = some x.startTick
  endTick : (t.events.map Event.tick)[p.last]? = some x.endTick
  duration : x.duration = wrap64 (x.end_ - x.start)

/-- The times of a note of the output. -/
def NoteTimed (m : TempoMap) (ppqn : Nat) (t : MTrk) (p : Span) (x : Note) : Prop :=
  x.start = nearestMs (codeTime m ppqn t p.first) ∧ x.end_ = nearestMs (codeTime m ppqn t p.last) ∧ x.duration = x.end_ - x.start

/-- Tracks to which the law for times applies: no overflow of 64 bits. -/
def MTrk.Timed (t : MTrk) : Prop := 1000 * t.ticks * 2 ^ 24 < 2 ^ 63 - 1000000

/-- The notes of a track: one for each note on that starts a note, in the order in which they end, and by
channel if they end together. -/
def TrackNotes (mc : MiddleC) (n : Int) (m : TempoMap) (ppqn : Nat) (t : MTrk) (ns : List Note) : Prop :=
  ∃ ps : List Span, ps.Nodup ∧ (∀ p, p ∈ ps ↔ IsSpan t.contents p) ∧ ps.Pairwise EndsFirst ∧
    List.Forall₂ (fun p x => NoteOf mc n t p x ∧ (t.Timed → NoteTimed m ppqn t p x)) ps ns

theorem noteLoop_filter (mc : MiddleC) (ord : MapOrder) (n : Int) (es : List NoteEvent) : ∀ (k : Nat) (pending : Pending),
    noteLoop mc ord n k pending (es.filter isNoteEvent) = noteLoop mc ord n k pending es := by
  induction es with
  | nil => intro _ _; rfl
  | cons e es ih =>
    intro k pending
    rw [List.filter_cons]
    rw [noteLoop.eq_def mc ord n k pending (e :: es)]
    simp only
    cases hb : e.body with
    | noteOn ch nv v =>
      rw [if_pos (by simp [isNoteEvent, hb]), noteLoop.eq_def]
      simp only [hb, ih]
    | noteOff ch nv v =>
      rw [if_pos (by simp [isNoteEvent, hb]), noteLoop.eq_def]
      simp only [hb, ih]
    | endOfTrack =>
      rw [if_pos (by simp [isNoteEvent, hb]), noteLoop.eq_def]
      simp only [hb, ih]
    | _ =>
      rw [if_neg (by simp [isNoteEvent, hb]), ih]

/-- The name table after the given events, newest first. -/
def scaleAfter (past : List Content) : ScaleKind :=
  match recentKey past with
  | some a => if a < 0 then .flats else .sharps
  | none => .sharps

theorem scalesFrom_get (l : List Body) : ∀ (past : List Content) (i : Nat) (s : ScaleKind),
    (scalesFrom (scaleAfter past) l)[i]? = some s → s = scaleAfter (((l.take (i + 1)).map Body.view).reverse ++ past) := by
  induction l with
  | nil => intro past i s h; simp [scalesFrom] at h
  | cons b l ih =>
    intro past i s h
    have hs : scalesFrom (scaleAfter past) (b :: l) = scaleAfter (b.view :: past) :: scalesFrom (scaleAfter (b.view :: past)) l := by
      cases b with
      | keySignature a k key =>
        have e : (a.toInt < 0) = (a < 0) := propext (by rw [Int8.lt_iff_toInt_lt]; rfl)
        simp only [scalesFrom, scaleAfter, Body.view, recentKey, e]
      | _ => rfl
    rw [hs] at h
    cases i with
    | zero =>
      simp at h
      simp [h]
    | succ i =>
      simp only [List.getElem?_cons_succ] at h
      have := ih (b.view :: past) i s h
      rw [this]
      simp

theorem noteTimes_length (m : TempoMap) (ppqn : Nat) (l : List (Nat × Nat × Option Nat)) : ∀ (own : Option (Nat × Nat)) (at_ : Nat),
    (noteTimes m ppqn own at_ l).length = l.length := by
  induction l with
  | nil => intro _ _; rfl
  | cons p l ih =>
    obtain ⟨t, d, v⟩ := p
    intro own at_
    unfold noteTimes
    simp only [List.length_cons, ih]

theorem noteTimes_plain (m : TempoMap) (ppqn : Nat) (l : List (Nat × Nat × Option Nat)) : ∀ (at_ i x : Nat), (∀ p ∈ l, p.2.2 = none) →
    (noteTimes m ppqn none at_ l)[i]? = some x →
    x = at_ + ((l.take (i + 1)).map (fun p => 1000 * p.2.1 * tempoBefore m p.1 / ppqn)).sum := by
  induction l with
  | nil => intro _ i x _ h; simp [noteTimes] at h
  | cons p l ih =>
    obtain ⟨t, d, v⟩ := p
    intro at_ i x hn h
    have hv : v = none := hn (t, d, v) (by simp)
    subst hv
    have ht : latestTempo ((m.filter fun p => decide (p.1 < t)).getLast?) none = tempoBefore m t := by
      unfold tempoBefore
      cases (m.filter fun p => decide (p.1 < t)).getLast? <;> rfl
    unfold noteTimes at h
    simp only [ht] at h
    cases i with
    | zero => simp at h; simp [← h]
    | succ i =>
      simp only [List.getElem?_cons_succ] at h
      rw [ih _ i x (fun p hp => hn p (by simp [hp])) h]
      simp [Nat.add_assoc]

theorem noteTimes_ge (m : TempoMap) (ppqn : Nat) (l : List (Nat × Nat × Option Nat)) : ∀ (own : Option (Nat × Nat)) (at_ : Nat),
    ∀ x ∈ noteTimes m ppqn own at_ l, at_ ≤ x := by
  induction l with
  | nil => intro _ _ x h; simp [noteTimes] at h
  | cons p l ih =>
    obtain ⟨t, d, v⟩ := p
    intro own at_ x h
    unfold noteTimes at h
    rcases List.mem_cons.1 h with h | h
    · rw [h]; exact Nat.le_add_right _ _
    · exact Nat.le_trans (Nat.le_add_right _ _) (ih _ _ x h)

theorem noteTimes_sorted (m : TempoMap) (ppqn : Nat) (l : List (Nat × Nat × Option Nat)) : ∀ (own : Option (Nat × Nat)) (at_ : Nat),
    (noteTimes m ppqn own at_ l).Pairwise (· ≤ ·) := by
  induction l with
  | nil => intro _ _; simp [noteTimes]
  | cons p l ih =>
    obtain ⟨t, d, v⟩ := p
    intro own at_
    unfold noteTimes
    exact List.pairwise_cons.2 ⟨noteTimes_ge m ppqn l _ _, ih _ _⟩

theorem latestTempo_le (a b : Option (Nat × Nat)) (B : Nat) (hB : 50000 ≤ B) (ha : ∀ p, a = some p → p.2 ≤ B) (hb : ∀ p, b = some p → p.2 ≤ B) :
    latestTempo a b ≤ B := by
  cases a with
  | none => cases b with
    | none => exact hB
    | some q => exact hb q rfl
  | some p => cases b with
    | none => exact ha p rfl
    | some q =>
      rw [latestTempo]
      by_cases h : q.1 ≤ p.1
      · rw [if_pos h]; exact ha p rfl
      · rw [if_neg h]; exact hb q rfl

theorem noteTimes_le (m : TempoMap) (ppqn B : Nat) (hB : 50000 ≤ B) (hm : ∀ p ∈ m, p.2 ≤ B) (l : List (Nat × Nat × Option Nat)) :
    ∀ (own : Option (Nat × Nat)) (at_ : Nat), (∀ q, own = some q → q.2 ≤ B) → (∀ p ∈ l, ∀ v, p.2.2 = some v → v ≤ B) →
    ∀ x ∈ noteTimes m ppqn own at_ l, x ≤ at_ + 1000 * (l.map (fun p => p.2.1)).sum * B := by
  induction l with
  | nil => intro _ _ _ _ x h; simp [noteTimes] at h
  | cons p l ih =>
    obtain ⟨t, d, v⟩ := p
    intro own at_ ho hl x h
    have hd : 1000 * d * latestTempo ((m.filter fun p => decide (p.1 < t)).getLast?) own / ppqn ≤ 1000 * d * B := by
      refine Nat.le_trans (Nat.div_le_self _ _) (Nat.mul_le_mul_left _ (latestTempo_le _ _ B hB ?_ ho))
      intro p hp
      exact hm p (List.mem_filter.1 (List.mem_of_getLast? hp)).1
    have e : 1000 * (((t, d, v) :: l).map (fun p => p.2.1)).sum * B = 1000 * d * B + 1000 * (l.map (fun p => p.2.1)).sum * B := by
      rw [List.map_cons, List.sum_cons, Nat.mul_add, Nat.add_mul]
    rw [e]
    unfold noteTimes at h
    rcases List.mem_cons.1 h with h | h
    · omega
    · have := ih _ _ (by
        intro q hq
        cases v with
        | none => exact ho q hq
        | some v =>
          injection hq with hq
          rw [← hq]
          exact hl (t, d, some v) (by simp) v rfl) (fun p hp => hl p (by simp [hp])) x h
      omega

theorem decoded_ticks_sorted {mc : MiddleC} {spare file : Bytes} {smf : SMF} (hd : decode mc spare file = .ok smf) {t : MTrk}
    (ht : t ∈ smf.tracks) (h : t.ticks < 2 ^ 32) : t.events.Pairwise (fun a b => a.tick ≤ b.tick) := by
  obtain ⟨i, ch, wf, htag, _, hu⟩ := decode_track hd ht
  have := (C10_ticks_running_sums_partial mc spare i ch wf htag t hu h).2
  rw [List.pairwise_iff_getElem]
  intro a b ha hb hab
  exact this a b _ _ (by omega) (List.getElem?_eq_getElem ha) (List.getElem?_eq_getElem hb)

theorem decoded_tempo {mc : MiddleC} {spare file : Bytes} {smf : SMF} (hd : decode mc spare file = .ok smf) {t : MTrk}
    (ht : t ∈ smf.tracks) {e : Event} (he : e ∈ t.events) {v : UInt32} (hb : e.body = .tempo v) : v.toNat < 2 ^ 24 := by
  obtain ⟨p, r, c, hm, hv⟩ := decode_view hd ht he
  rw [hb] at hv
  have hk := meaning_kind hm
  cases c <;> simp only [Body.view, asShown] at hv <;> try (cases hv; done)
  rename_i x
  injection hv with hv
  subst hv
  obtain ⟨ty, d, rfl⟩ := hk.2.2 rfl rfl
  obtain ⟨_, a, b, c, _, hn⟩ := metaMeaning_inv hm
  rw [hn]
  have := a.toNat_lt
  have := b.toNat_lt
  have := c.toNat_lt
  omega

theorem decoded_channel {mc : MiddleC} {spare file : Bytes} {smf : SMF} (hd : decode mc spare file = .ok smf) {t : MTrk}
    (ht : t ∈ smf.tracks) {e : Event} (he : e ∈ t.events) {ch v : UInt8} {nv : NoteVal} (hb : e.body = .noteOn ch nv v) : ch ≤ 15 := by
  obtain ⟨p, r, c, hm, hv⟩ := decode_view hd ht he
  rw [hb] at hv
  have hk := meaning_kind hm
  cases c <;> simp only [Body.view, asShown] at hv <;> try (cases hv; done)
  rename_i x y z
  injection hv with hv _ _
  obtain ⟨s, d, rfl⟩ := hk.1 rfl
  simp only [meaning] at hm
  rcases chanMeaning_inv hm with ⟨_, _, _, _, _, h⟩ | ⟨_, _, _, _, _, h⟩ | ⟨_, _, _, _, h⟩ | ⟨_, _, _, _, _, h⟩ |
    ⟨_, _, _, _, h⟩ | ⟨_, _, _, h⟩ | ⟨_, _, _, _, h⟩ | ⟨_, _, _, _, h⟩ <;> try (cases h; done)
  injection h with h _ _
  rw [UInt8.le_iff_toNat_le, hv, h]
  show _ ≤ 15
  omega

theorem transposeExtracted_toNat (k : UInt8) (n : Int) (hn : Fits n) :
    ((transposeExtracted k n).toNat : Int) = max 0 (min 255 ((k.toNat : Int) + n)) := by
  have hk := k.toNat_lt
  have hw : wrap64 ((k.toNat : Int) + n) = (k.toNat : Int) + n := by
    obtain ⟨h1, h2⟩ := hn
    unfold wrap64
    apply Int.bmod_eq_of_le_mul_two <;> omega
  unfold transposeExtracted
  simp only [hw]
  split
  · rename_i h
    show (0 : Int) = _
    omega
  · split
    · show (255 : Int) = _
      omega
    · rename_i h1 h2
      have : (UInt8.ofNat ((k.toNat : Int) + n).toNat).toNat = ((k.toNat : Int) + n).toNat := by
        rw [UInt8.toNat_ofNat']
        exact Nat.mod_eq_of_lt (by omega)
      rw [this]
      omega

theorem forall₂_imp {α β : Type} {R S : α → β → Prop} {l : List α} {l' : List β} (h : List.Forall₂ R l l')
    (hi : ∀ a b, a ∈ l → R a b → S a b) : List.Forall₂ S l l' := by
  induction h with
  | nil => exact .nil
  | cons h _ ih => exact .cons (hi _ _ (by simp) h) (ih (fun a b ha => hi a b (by simp [ha])))

theorem sum_take_mono (l : List Nat) : ∀ {i j : Nat}, i ≤ j → (l.take i).sum ≤ (l.take j).sum := by
  induction l with
  | nil => intro i j _; simp
  | cons x l ih =>
    intro i j h
    cases i with
    | zero => simp
    | succ i =>
      cases j with
      | zero => omega
      | succ j =>
        simp only [List.take_succ_cons, List.sum_cons]
        exact Nat.add_le_add_left (ih (by omega)) _

theorem codeTime_get (m : TempoMap) (ppqn : Nat) (t : MTrk) {i : Nat} (h : i < t.events.length) :
    (noteTimes m ppqn none 0 (t.events.map eventStamp))[i]? = some (codeTime m ppqn t i) := by
  have hl : i < (noteTimes m ppqn none 0 (t.events.map eventStamp)).length := by rw [noteTimes_length, List.length_map]; exact h
  unfold codeTime
  rw [List.getD_eq_getElem?_getD, List.getElem?_eq_getElem hl]
  rfl

theorem codeTime_mono (m : TempoMap) (ppqn : Nat) (t : MTrk) {i j : Nat} (h : i ≤ j) (hj : j < t.events.length) :
    codeTime m ppqn t i ≤ codeTime m ppqn t j := by
  rcases Nat.eq_or_lt_of_le h with rfl | hlt
  · exact Nat.le_refl _
  have hs := List.pairwise_iff_getElem.1 (noteTimes_sorted m ppqn (t.events.map eventStamp) none 0)
  have h1 := List.getElem?_eq_some_iff.1 (codeTime_get m ppqn t (i := i) (by omega))
  have h2 := List.getElem?_eq_some_iff.1 (codeTime_get m ppqn t hj)
  obtain ⟨a1, b1⟩ := h1
  obtain ⟨a2, b2⟩ := h2
  have := hs i j a1 a2 hlt
  rw [b1, b2] at this
  exact this

theorem codeTime_le (m : TempoMap) (ppqn : Nat) (t : MTrk) {i : Nat} (hi : i < t.events.length) (h : ∀ p ∈ m, p.2 < 2 ^ 24)
    (ho : ∀ p ∈ t.tempos, p.2 < 2 ^ 24) : codeTime m ppqn t i ≤ 1000 * t.ticks * 2 ^ 24 := by
  have := noteTimes_le m ppqn (2 ^ 24) (by decide) (fun p hp => Nat.le_of_lt (h p hp)) (t.events.map eventStamp) none 0 (by simp) (by
    intro p hp v hv
    obtain ⟨e, he, rfl⟩ := List.mem_map.1 hp
    refine Nat.le_of_lt (ho (e.tick.toNat, v) (List.mem_filterMap.2 ⟨e, he, ?_⟩))
    cases hb : e.body <;> simp only [eventStamp, hb, Body.tempoSet] at hv <;> try (cases hv; done)
    injection hv with hv
    rw [← hv]) _ (List.mem_of_getElem? (codeTime_get m ppqn t hi))
  rw [Nat.zero_add, List.map_map] at this
  exact this

theorem codeTime_plain (m : TempoMap) (ppqn : Nat) (t : MTrk) {i : Nat} (hi : i < t.events.length)
    (hn : ∀ c ∈ t.contents, ∀ v, c ≠ .tempo v) : codeTime m ppqn t i = plainTime m ppqn t i := by
  have := noteTimes_plain m ppqn _ 0 i _ (by
    intro p hp
    obtain ⟨e, he, rfl⟩ := List.mem_map.1 hp
    have := hn e.body.view (List.mem_map.2 ⟨e, he, rfl⟩)
    cases hb : e.body <;> simp only [eventStamp, hb, Body.tempoSet]
    exact absurd (by rw [hb]; rfl) (this _)) (codeTime_get m ppqn t hi)
  rw [this, plainTime, Nat.zero_add, ← List.map_take, List.map_map]
  rfl

theorem decoded_tempos_lt {mc : MiddleC} {spare file : Bytes} {smf : SMF} (hd : decode mc spare file = .ok smf) {t : MTrk}
    (ht : t ∈ smf.tracks) : ∀ p ∈ t.tempos, p.2 < 2 ^ 24 := by
  intro p hp
  obtain ⟨e, he, h⟩ := List.mem_filterMap.1 hp
  cases hb : e.body <;> simp only [hb] at h <;> try (cases h; done)
  injection h with h
  rw [← h]
  exact decoded_tempo hd ht he hb

theorem track_notes {mc : MiddleC} {spare file : Bytes} {smf : SMF} (hd : decode mc spare file = .ok smf) (t0 t : MTrk)
    (h0 : t0 ∈ smf.tracks) (ht : t ∈ smf.tracks) (hs0 : t0.ticks < 2 ^ 32) (hs : t.ticks < 2 ^ 32) (ppqn : UInt16) (hp : ppqn ≠ 0)
    (ord : MapOrder) (n : Int) (hn : Fits n) :
    ∃ es ns, buildTrackEvents t.events (t0.events.filter (fun e => match e.body with | .tempo _ => true | _ => false)) ppqn = .ok es ∧
      buildNoteList mc ord n es = .ok ns ∧ TrackNotes mc n t0.tempos ppqn.toNat t ns := by
  have sorted0 := decoded_ticks_sorted hd h0 hs0
  have sorted := decoded_ticks_sorted hd ht hs
  -- the two lists
  let f : Event → NoteEvent := fun e => ⟨e.tick, e.delta.toUInt64, 0, e.body, .sharps⟩
  let g : Event → NoteEvent := fun e => ⟨e.tick, 0, 0, e.body, .sharps⟩
  let tm := t0.events.filter (fun e => match e.body with | .tempo _ => true | _ => false)
  have htm : ∀ e ∈ tm, e ∈ t0.events ∧ ∃ v, e.body = .tempo v := by
    intro e he
    obtain ⟨h1, h2⟩ := List.mem_filter.1 he
    refine ⟨h1, ?_⟩
    cases hb : e.body <;> simp [hb] at h2 ⊢
  have hms : (tm.map g).Pairwise (fun a b => a.tick ≤ b.tick) := by
    rw [List.pairwise_map]
    exact sorted0.filter _
  have has : (t.events.map f).Pairwise (fun a b => a.tick ≤ b.tick) := by
    rw [List.pairwise_map]
    exact sorted
  have hmt : ∀ e ∈ tm.map g, ∃ v : UInt32, e.body = .tempo v ∧ v.toNat < 2 ^ 24 ∧ e.delta = 0 := by
    intro e he
    obtain ⟨e', he', rfl⟩ := List.mem_map.1 he
    obtain ⟨h1, v, h2⟩ := htm e' he'
    exact ⟨v, h2, decoded_tempo hd h0 h1 h2, rfl⟩
  have htempos : (tm.map g).map tempoOf = t0.tempos := by
    rw [MTrk.tempos, List.map_map]
    show (t0.events.filter _).map _ = _
    generalize t0.events = l
    induction l with
    | nil => rfl
    | cons e l ih =>
      rw [List.filter_cons, List.filterMap_cons]
      cases hb : e.body <;> simp only [ih, if_true, List.map_cons, Bool.false_eq_true, if_false]
      simp only [Function.comp, g, tempoOf, hb]
  obtain ⟨L, S, h1, h2, h3, h4, h5⟩ := stamp_merge ppqn hp (tm.map g) hms hmt (t.events.map f) (tm.map g) [] 50000 0 .sharps has rfl
  have hb : buildTrackEvents t.events tm ppqn = .ok (S.filter isNoteEvent) := by
    unfold buildTrackEvents
    simp only
    rw [sortTicks_append _ _ hms, h1, Outcome.bind_ok, h3]
  -- the stamped track
  have hlen : S.length = t.events.length := by
    have := congrArg List.length h2
    simpa using this
  have hSk : ∀ (k : Nat) (s : NoteEvent), S[k]? = some s → ∃ e, t.events[k]? = some e ∧ s.tick = e.tick ∧ s.body = e.body := by
    intro k s hk
    have := congrArg (·[k]?) h2
    simp only [List.getElem?_map, hk, Option.map_some] at this
    cases he : t.events[k]? with
    | none => simp [he] at this
    | some e =>
      simp only [he, Option.map_some, Option.some.injEq, NoteEvent.fixed, f, Prod.mk.injEq] at this
      exact ⟨e, rfl, this.1, this.2.2⟩
  have hview : S.map (·.body.view) = t.contents := by
    rw [MTrk.contents]
    apply List.ext_getElem?
    intro k
    simp only [List.getElem?_map]
    cases hk : S[k]? with
    | none =>
      have : t.events[k]? = none := by
        rw [List.getElem?_eq_none_iff] at hk ⊢
        omega
      simp [this]
    | some s =>
      obtain ⟨e, he, _, hb⟩ := hSk k s hk
      simp [he, hb]
  have hch : ∀ e ∈ S, ∀ ch nv v, e.body = .noteOn ch nv v → ch ≤ 15 := by
    intro s hs' ch nv v hb'
    obtain ⟨k, hk⟩ := List.mem_iff_getElem?.1 hs'
    obtain ⟨e, he, _, hb''⟩ := hSk k s hk
    exact decoded_channel hd ht (List.mem_of_getElem? he) (hb''.symm.trans hb')
  obtain ⟨ns, ps, g1, g2, g3, g4, g5⟩ := buildNoteList_ok mc ord n S hch
  refine ⟨_, ns, hb, ?_, ps, g3, ?_, g5, ?_⟩
  · rw [buildNoteList, noteLoop_filter]
    exact g1
  · intro p
    rw [g4, hview]
    simp
  · refine forall₂_imp g2 ?_
    rintro p x hpm ⟨a, b, ch, nv, v, k1, k2, k3, k4, k5, rfl⟩
    obtain ⟨ea, hea, ta, ba⟩ := hSk _ _ k1
    obtain ⟨eb, heb, tb, _⟩ := hSk _ _ k2
    have hscale : a.scale = scaleAfter (t.contents.take p.first).reverse := by
      have hs1 : (scalesFrom (scaleAfter []) ((t.events.map f).map NoteEvent.body))[p.first]? = some a.scale := by
        rw [show scaleAfter [] = .sharps from rfl, ← h4, List.getElem?_map, k1]
        rfl
      have := scalesFrom_get _ [] _ _ hs1
      rw [this, List.append_nil]
      have e1 : (((t.events.map f).map NoteEvent.body).take (p.first + 1)).map Body.view = t.contents.take (p.first + 1) := by
        rw [List.map_take, List.map_map, List.map_map]
        rfl
      rw [e1]
      have e2 : t.contents.take (p.first + 1) = t.contents.take p.first ++ [.noteOn ch.toNat nv.value.toNat v.toNat] := by
        rw [List.take_add_one, MTrk.contents, List.getElem?_map, hea, Option.map_some, ← ba, k3]
        rfl
      rw [e2, List.reverse_append]
      rfl
    refine ⟨⟨k4, ?_, ?_, ?_, ?_, ?_, ?_, rfl⟩, ?_⟩
    · rw [MTrk.contents, List.getElem?_map, hea, Option.map_some, ← ba, k3, ← k4, ← k5]
      rfl
    · rw [transposeExtracted_toNat _ _ hn, ← k5]
    · have := nameAfter_names mc (t.contents.take p.first).reverse (transposeExtracted nv.value n)
      rw [nameAfter] at this
      simp only [hscale]
      exact this
    · have := noteName_eq mc (t.contents.take p.first).reverse (transposeExtracted nv.value n)
      rw [nameAfter] at this
      simp only [hscale]
      exact this
    · rw [List.getElem?_map, hea, ta]; rfl
    · rw [List.getElem?_map, heb, tb]; rfl
    · intro hbound
      have hst : (t.events.map f).map stampOf = t.events.map eventStamp := by rw [List.map_map]; rfl
      have h6 := h5 0 none rfl ?_ (by simp) (by simp) (by decide) rfl ?_
      · rw [htempos, hst] at h6
        have hka : p.first < t.events.length := (List.getElem?_eq_some_iff.1 hea).1
        have hkb : p.last < t.events.length := (List.getElem?_eq_some_iff.1 heb).1
        have key : ∀ (k : Nat) (s : NoteEvent), S[k]? = some s → k < t.events.length → s.at_ = nearestMs (codeTime t0.tempos ppqn.toNat t k) := by
          intro k s hk hlt
          have e1 := congrArg (·[k]?) h6
          simp only [List.getElem?_map, hk, Option.map_some, codeTime_get t0.tempos ppqn.toNat t hlt, Option.some.injEq] at e1
          exact e1
        have hmono : codeTime t0.tempos ppqn.toNat t p.first ≤ codeTime t0.tempos ppqn.toNat t p.last := by
          have hfl : p.first < p.last := ((g4 p).1 hpm).1.2.2.1
          exact codeTime_mono _ _ _ (by omega) hkb
        refine ⟨key _ _ k1 hka, key _ _ k2 hkb, ?_⟩
        show wrap64 (b.at_ - a.at_) = b.at_ - a.at_
        have hle := codeTime_le t0.tempos ppqn.toNat t hkb (decoded_tempos_lt hd h0) (decoded_tempos_lt hd ht)
        rw [key _ _ k1 hka, key _ _ k2 hkb]
        unfold MTrk.Timed at hbound
        have m1 : nearestMs (codeTime t0.tempos ppqn.toNat t p.last) ≤ codeTime t0.tempos ppqn.toNat t p.last + 500000 := by
          unfold nearestMs
          exact Nat.div_mul_le_self _ _
        have m2 : nearestMs (codeTime t0.tempos ppqn.toNat t p.first) ≤ nearestMs (codeTime t0.tempos ppqn.toNat t p.last) := by
          unfold nearestMs
          exact Nat.mul_le_mul_right _ (Nat.div_le_div_right (by omega))
        unfold wrap64
        apply Int.bmod_eq_of_le_mul_two <;> omega
      · intro e he
        obtain ⟨e', he', rfl⟩ := List.mem_map.1 he
        intro v' hv'
        have : e'.body = .tempo v' := hv'
        refine decoded_tempos_lt hd ht (e'.tick.toNat, v'.toNat) (List.mem_filterMap.2 ⟨e', he', ?_⟩)
        rw [this]
      · rw [List.map_map]
        have : (fun e : NoteEvent => e.delta.toNat) ∘ f = fun e : Event => e.delta.toNat := by
          funext e
          simp [f]
        rw [this]
        simpa [MTrk.ticks, MTrk.Timed] using hbound

theorem extractTracks_ok {mc : MiddleC} {spare file : Bytes} {smf : SMF} (hd : decode mc spare file = .ok smf) (t0 : MTrk)
    (h0 : t0 ∈ smf.tracks) (hs0 : t0.ticks < 2 ^ 32) (m : MThd) (hp : m.ppqn ≠ 0)
    (ord : Nat → MapOrder) (n : Int) (hn : Fits n) : ∀ (ts : List MTrk) (i : Nat), (∀ t ∈ ts, t ∈ smf.tracks ∧ t.ticks < 2 ^ 32) →
    ∃ nss, extractTracks mc ord n (some m) (t0.events.filter (fun e => match e.body with | .tempo _ => true | _ => false)) i ts = .ok nss.flatten ∧
      List.Forall₂ (TrackNotes mc n t0.tempos m.ppqn.toNat) ts nss := by
  intro ts
  induction ts with
  | nil => intro i _; exact ⟨[], rfl, .nil⟩
  | cons t ts ih =>
    intro i h
    obtain ⟨es, ns, h1, h2, h3⟩ := track_notes hd t0 t h0 (h t (by simp)).1 hs0 (h t (by simp)).2 m.ppqn hp (ord i) n hn
    obtain ⟨nss, h4, h5⟩ := ih (i + 1) (fun t ht => h t (by simp [ht]))
    refine ⟨ns :: nss, ?_, .cons h3 h5⟩
    rw [extractTracks]
    simp only [h1, h2, h4, Outcome.bind_ok]
    rfl

/-- C47, C48 and C49: for a decoded file with a metrical division, the notes are those of the tracks after the first, track by
track; those of a track are one for each note of the track, in the order in which they end.  Not covered: tracks of 2^32 ticks
or more. -/
theorem C47_notes_partial {mc : MiddleC} {spare file : Bytes} {smf : SMF} (hd : decode mc spare file = .ok smf) (m : MThd)
    (hm : smf.mthd = some m) (hp : m.ppqn ≠ 0) (t0 : MTrk) (ts : List MTrk) (htr : smf.tracks = t0 :: ts)
    (hs : ∀ t ∈ smf.tracks, t.ticks < 2 ^ 32) (ord : Nat → MapOrder) (n : Int) (hn : Fits n) :
    ∃ nss, extractNotes mc ord n smf = .ok nss.flatten ∧ List.Forall₂ (TrackNotes mc n t0.tempos m.ppqn.toNat) ts nss := by
  have h0 : t0 ∈ smf.tracks := by simp [htr]
  obtain ⟨nss, h1, h2⟩ := extractTracks_ok hd t0 h0 (hs t0 h0) m hp ord n hn ts 1 (fun t ht => by
    have : t ∈ smf.tracks := by simp [htr, ht]
    exact ⟨this, hs t this⟩)
  refine ⟨nss, ?_, h2⟩
  unfold extractNotes buildTempoMap
  rw [htr]
  simp only [Outcome.bind_ok, hm]
  exact h1

/-- C71: what extraction reports, exactly, for decoded files with a metrical division whose tracks are shorter than 2^32 ticks. -/
theorem C71_notes_exact {mc : MiddleC} {spare file : Bytes} {smf : SMF} (hd : decode mc spare file = .ok smf) (m : MThd)
    (hm : smf.mthd = some m) (hp : m.ppqn ≠ 0) (t0 : MTrk) (ts : List MTrk) (htr : smf.tracks = t0 :: ts)
    (hs : ∀ t ∈ smf.tracks, t.ticks < 2 ^ 32) (ord : Nat → MapOrder) (n : Int) (hn : Fits n) :
    ∃ nss, extractNotes mc ord n smf = .ok nss.flatten ∧ List.Forall₂ (TrackNotes mc n t0.tempos m.ppqn.toNat) ts nss :=
  C47_notes_partial hd m hm hp t0 ts htr hs ord n hn

/-- C47: two different notes of a track on the same channel and key do not overlap. -/
theorem C47_notes_do_not_overlap (cs : List Content) (p q : Span) (hp : IsSpan cs p) (hq : IsSpan cs q) (hc : p.ch = q.ch)
    (hk : p.key = q.key) (hne : p ≠ q) : p.last ≤ q.first ∨ q.last ≤ p.first := by
  obtain ⟨p1, p2, p3, p4, p5⟩ := hp
  obtain ⟨q1, q2, q3, q4, q5⟩ := hq
  by_cases h : p.first = q.first
  · exfalso
    have hl : p.last = q.last := by
      obtain ⟨c, hc1, hc2⟩ := p4
      obtain ⟨d, hd1, hd2⟩ := q4
      rcases Nat.lt_trichotomy p.last q.last with hlt | heq | hgt
      · exact absurd (by rw [← hc, ← hk]; exact hc2) (q5 _ _ (by omega) hlt hc1)
      · exact heq
      · exact absurd (by rw [hc, hk]; exact hd2) (p5 _ _ (by omega) hgt hd1)
    exact hne (by cases p; cases q; simp_all)
  · rcases Nat.lt_or_gt_of_ne h with hlt | hgt
    · left
      apply Classical.byContradiction
      intro hno
      refine q2 ⟨p.first, hlt, by rw [← hc, ← hk]; exact p1, fun m c h1 h2 h3 => ?_⟩
      rw [← hc, ← hk]
      exact p5 m c h1 (by omega) h3
    · right
      apply Classical.byContradiction
      intro hno
      refine p2 ⟨q.first, hgt, by rw [hc, hk]; exact q1, fun m c h1 h2 h3 => ?_⟩
      rw [hc, hk]
      exact q5 m c h1 (by omega) h3

/-! ### Times -/

/-- The tempo does not change in the middle of a delta time of the track, it is set at the start, and the track does not set it itself. -/
def Aligned (m : TempoMap) (t : MTrk) : Prop :=
  (∀ c ∈ t.contents, ∀ v, c ≠ .tempo v) ∧ (∃ v, (0, v) ∈ m) ∧ ∀ p ∈ m, ∀ e ∈ t.events, ¬ (e.tick.toNat - e.delta.toNat < p.1 ∧ p.1 < e.tick.toNat)

theorem tempoBefore_eq (m : TempoMap) (d t u : Nat) (h0 : ∃ v, (0, v) ∈ m) (hm : ∀ p ∈ m, ¬ (t - d < p.1 ∧ p.1 < t)) (h1 : t - d ≤ u) (h2 : u < t) :
    tempoBefore m t = tempoAt m u := by
  unfold tempoBefore tempoAt
  have hf : m.filter (fun p => decide (p.1 < t)) = m.filter (fun p => decide (p.1 ≤ u)) := by
    apply List.filter_congr
    intro p hp
    have := hm p hp
    simp only [decide_eq_decide]
    omega
  rw [hf]
  cases hl : (m.filter (fun p => decide (p.1 ≤ u))).getLast? with
  | some p => rfl
  | none =>
    obtain ⟨v, hv⟩ := h0
    rw [List.getLast?_eq_none_iff] at hl
    have : (0, v) ∈ m.filter (fun p => decide (p.1 ≤ u)) := List.mem_filter.2 ⟨hv, by simp⟩
    rw [hl] at this
    cases this

theorem elapsed_add (m : TempoMap) (c t d : Nat) : (∀ u, t ≤ u → u < t + d → tempoAt m u = c) → elapsed m (t + d) = elapsed m t + d * c := by
  induction d with
  | zero => intro _; simp
  | succ d ih =>
    intro h
    rw [← Nat.add_assoc, elapsed, ih (fun u h1 h2 => h u h1 (by omega)), h (t + d) (by omega) (by omega), Nat.succ_mul]
    omega

theorem plainTime_near (m : TempoMap) (ppqn : Nat) (hp : 0 < ppqn) (t : MTrk) (ha : Aligned m t)
    (ht : ∀ (k : Nat) (e : Event), t.events[k]? = some e → e.tick.toNat = ((t.events.take (k + 1)).map (fun e => e.delta.toNat)).sum) (i : Nat) :
    ∀ e, t.events[i]? = some e →
      plainTime m ppqn t i * ppqn ≤ 1000 * elapsed m e.tick.toNat ∧
      1000 * elapsed m e.tick.toNat ≤ plainTime m ppqn t i * ppqn + (i + 1) * (ppqn - 1) := by
  induction i with
  | zero =>
    intro e he
    have hsum := ht 0 e he
    have htake : t.events.take (0 + 1) = [e] := by
      rw [List.take_add_one, he]; rfl
    rw [htake] at hsum
    simp only [List.map_cons, List.map_nil, List.sum_cons, List.sum_nil, Nat.add_zero] at hsum
    have hel := elapsed_add m (tempoBefore m e.tick.toNat) 0 e.delta.toNat (fun u h1 h2 =>
      (tempoBefore_eq m e.delta.toNat e.tick.toNat u ha.2.1 (fun p hp => ha.2.2 p hp e (List.mem_of_getElem? he)) (by omega) (by omega)).symm)
    rw [Nat.zero_add, elapsed, Nat.zero_add] at hel
    unfold plainTime
    rw [htake]
    simp only [List.map_cons, List.map_nil, List.sum_cons, List.sum_nil, Nat.add_zero]
    generalize tempoBefore m e.tick.toNat = c at hel ⊢
    rw [hsum, hel, Nat.mul_assoc]
    generalize 1000 * (e.delta.toNat * c) = x
    have h1 := Nat.div_add_mod x ppqn
    have h2 := Nat.mod_lt x hp
    rw [Nat.mul_comm] at h1
    omega
  | succ i ih =>
    intro e he
    have hlt : i + 1 < t.events.length := (List.getElem?_eq_some_iff.1 he).1
    have he' : t.events[i]? = some t.events[i] := List.getElem?_eq_getElem (by omega)
    generalize t.events[i] = e' at he'
    have hih := ih e' he'
    have hsum := ht (i + 1) e he
    have hsum' := ht i e' he'
    have htake : t.events.take (i + 1 + 1) = t.events.take (i + 1) ++ [e] := by
      rw [List.take_add_one, he]; rfl
    rw [htake, List.map_append, List.sum_append, ← hsum'] at hsum
    simp only [List.map_cons, List.map_nil, List.sum_cons, List.sum_nil, Nat.add_zero] at hsum
    have hel := elapsed_add m (tempoBefore m e.tick.toNat) e'.tick.toNat e.delta.toNat (fun u h1 h2 =>
      (tempoBefore_eq m e.delta.toNat e.tick.toNat u ha.2.1 (fun p hp => ha.2.2 p hp e (List.mem_of_getElem? he)) (by omega) (by omega)).symm)
    rw [← hsum] at hel
    have hc : plainTime m ppqn t (i + 1) = plainTime m ppqn t i + 1000 * e.delta.toNat * tempoBefore m e.tick.toNat / ppqn := by
      unfold plainTime
      rw [htake, List.map_append, List.sum_append]
      simp
    rw [hc, hel, Nat.mul_assoc, Nat.add_mul, Nat.mul_add]
    generalize 1000 * (e.delta.toNat * tempoBefore m e.tick.toNat) = x
    have h1 := Nat.div_add_mod x ppqn
    have h2 := Nat.mod_lt x hp
    rw [Nat.mul_comm] at h1
    rw [Nat.add_mul (i + 1) 1]
    omega

/-- A time in nanoseconds is the given number of microseconds per quarter note times ticks: rounded to the nearest millisecond,
after at most `k` divisions rounded down. -/
def NearTime (x : Int) (us ppqn k : Nat) : Prop :=
  x * ppqn ≤ 1000 * us + 500000 * ppqn ∧ 1000 * us ≤ x * ppqn + 500000 * ppqn + k * (ppqn - 1 : Nat)

theorem nearTime_of (c us ppqn k : Nat) (h1 : c * ppqn ≤ 1000 * us) (h2 : 1000 * us ≤ c * ppqn + k * (ppqn - 1)) :
    NearTime (nearestMs c) us ppqn k := by
  have a1 : nearestMs c ≤ c + 500000 := Nat.div_mul_le_self _ _
  have a2 : c ≤ nearestMs c + 500000 := by
    unfold nearestMs
    omega
  have b1 := Nat.mul_le_mul_right ppqn a1
  have b2 := Nat.mul_le_mul_right ppqn a2
  rw [Nat.add_mul] at b1 b2
  unfold NearTime
  rw [← Int.natCast_mul, ← Int.natCast_mul]
  generalize nearestMs c * ppqn = y at *
  generalize c * ppqn = z at *
  generalize k * (ppqn - 1) = w at *
  omega

/-- C48: if the tempo is set at the start and never changes in the middle of a delta time of the track, the times are those of
the tempo map: rounded to milliseconds, with one division rounded down per event.  Not covered: tempo maps without a tempo at the
start or with changes in the middle of a delta time (see `C48_times_fails`), tracks with tempo events of their own or too long
for 64 bits. -/
theorem C48_times_partial {mc : MiddleC} {spare file : Bytes} {smf : SMF} (hd : decode mc spare file = .ok smf) (m : MThd)
    (hm : smf.mthd = some m) (hp : m.ppqn ≠ 0) (t0 : MTrk) (ts : List MTrk) (htr : smf.tracks = t0 :: ts)
    (hs : ∀ t ∈ smf.tracks, t.ticks < 2 ^ 32) (ord : Nat → MapOrder) (n : Int) (hn : Fits n) :
    ∃ nss, extractNotes mc ord n smf = .ok nss.flatten ∧
      List.Forall₂ (fun t ns => t.Timed → Aligned t0.tempos t → ∃ ps : List Span,
        ps.Nodup ∧ (∀ p, p ∈ ps ↔ IsSpan t.contents p) ∧
        List.Forall₂ (fun (p : Span) (x : Note) => NoteOf mc n t p x ∧
          NearTime x.start (elapsed t0.tempos x.startTick.toNat) m.ppqn.toNat (p.first + 1) ∧
          NearTime x.end_ (elapsed t0.tempos x.endTick.toNat) m.ppqn.toNat (p.last + 1) ∧
          x.duration = x.end_ - x.start ∧ 0 ≤ x.duration) ps ns) ts nss := by
  obtain ⟨nss, h1, h2⟩ := C47_notes_partial hd m hm hp t0 ts htr hs ord n hn
  refine ⟨nss, h1, forall₂_imp h2 ?_⟩
  rintro t ns htm ⟨ps, g1, g2, g3, g4⟩ htd ha
  have htm' : t ∈ smf.tracks := by simp [htr, htm]
  have hpos : 0 < m.ppqn.toNat := by
    apply Nat.pos_of_ne_zero
    intro h
    exact hp (UInt16.toNat_inj.1 h)
  obtain ⟨i, ch, wf, htag, _, hu⟩ := decode_track hd htm'
  have hticks := (C10_ticks_running_sums_partial mc spare i ch wf htag t hu (hs t htm')).1
  have key : ∀ (k : Nat) (tick : UInt64), (t.events.map Event.tick)[k]? = some tick →
      NearTime (nearestMs (codeTime t0.tempos m.ppqn.toNat t k)) (elapsed t0.tempos tick.toNat) m.ppqn.toNat (k + 1) := by
    intro k tick hk
    rw [List.getElem?_map] at hk
    cases he : t.events[k]? with
    | none => rw [he] at hk; cases hk
    | some e =>
      rw [he] at hk
      simp only [Option.map_some, Option.some.injEq] at hk
      subst hk
      obtain ⟨c1, c2⟩ := plainTime_near t0.tempos m.ppqn.toNat hpos t ha hticks k e he
      rw [← codeTime_plain _ _ _ (List.getElem?_eq_some_iff.1 he).1 ha.1] at c1 c2
      exact nearTime_of _ _ _ _ c1 c2
  refine ⟨ps, g1, g2, forall₂_imp g4 ?_⟩
  rintro p x hpm ⟨hno, hti⟩
  obtain ⟨e1, e2, e3⟩ := hti htd
  refine ⟨hno, ?_, ?_, e3, ?_⟩
  · rw [e1]; exact key _ _ hno.startTick
  · rw [e2]; exact key _ _ hno.endTick
  · rw [e3, e1, e2]
    have hfl : p.first < p.last := ((g2 p).1 hpm).2.2.1
    have hlast : p.last < t.events.length := by
      have := (List.getElem?_eq_some_iff.1 hno.endTick).1
      rwa [List.length_map] at this
    have hmono := codeTime_mono t0.tempos m.ppqn.toNat t (Nat.le_of_lt hfl) hlast
    have : nearestMs (codeTime t0.tempos m.ppqn.toNat t p.first) ≤ nearestMs (codeTime t0.tempos m.ppqn.toNat t p.last) := by
      unfold nearestMs
      exact Nat.mul_le_mul_right _ (Nat.div_le_div_right (by omega))
    omega

/-! ### Examples -/

theorem map_eq_one {α β : Type} {f : α → β} {l : List α} {a : β} (h : l.map f = [a]) : ∃ x, l = [x] ∧ f x = a := by
  match l, h with
  | [x], h => exact ⟨x, rfl, by simpa using h⟩
  | [], h => cases h
  | _ :: _ :: _, h => simp at h

theorem map_eq_two {α β : Type} {f : α → β} {l : List α} {a b : β} (h : l.map f = [a, b]) : ∃ x y, l = [x, y] ∧ f x = a ∧ f y = b := by
  match l, h with
  | [x, y], h => exact ⟨x, y, rfl, by simpa using h⟩
  | [], h => cases h
  | [_], h => simp at h
  | _ :: _ :: _ :: _, h => simp at h

/-- Map entries visited in the order in which they were added. -/
def idOrder : MapOrder := ⟨fun _ _ l => l, fun _ _ _ => .refl _⟩

/-- A file with the given format, division and tracks (without their end of track events). -/
def tracksFile (fmt d1 d0 : UInt8) (tracks : List Bytes) : Bytes :=
  [0x4d, 0x54, 0x68, 0x64, 0, 0, 0, 6, 0, fmt, 0, UInt8.ofNat tracks.length, d1, d0] ++
  tracks.flatMap (fun t => [0x4d, 0x54, 0x72, 0x6b, 0, 0, 0, UInt8.ofNat (t.length + 4)] ++ t ++ [0, 0xff, 0x2f, 0])

/-- C47: the notes of a file with two voices and a running note, with the last one ended by the end of the track. -/
example : ∃ smf, decode .c3 [] (tracksFile 1 0 96 [[0, 0xff, 0x51, 3, 7, 0xa1, 0x20],
      [0, 0x90, 60, 64, 0, 0x91, 60, 65, 48, 0x90, 60, 66, 48, 0x80, 60, 0, 0, 0x90, 62, 1, 96, 0x91, 60, 0]]) = .ok smf ∧
    (∃ m, smf.mthd = some m ∧ m.ppqn = 96) ∧ (∀ t ∈ smf.tracks, t.ticks < 2 ^ 32) ∧
    (∃ ns, extractNotes .c3 (fun _ => idOrder) 1 smf = .ok ns ∧ ns.map (fun x => (x.channel, x.note, x.formattedNote, x.velocity, x.start, x.end_)) =
      [(0, 61, "C♯4", 64, 0, 500000000), (1, 61, "C♯4", 65, 0, 1000000000), (0, 63, "D♯4", 1, 500000000, 1000000000)]) := by
  obtain ⟨smf, h1, h2⟩ := Outcome.of_test
    (o := decode .c3 [] (tracksFile 1 0 96 [[0, 0xff, 0x51, 3, 7, 0xa1, 0x20],
      [0, 0x90, 60, 64, 0, 0x91, 60, 65, 48, 0x90, 60, 66, 48, 0x80, 60, 0, 0, 0x90, 62, 1, 96, 0x91, 60, 0]]))
    (p := fun smf : SMF => (smf.mthd.map (·.ppqn) == some 96) && decide (∀ t ∈ smf.tracks, t.ticks < 2 ^ 32) &&
      (match extractNotes .c3 (fun _ => idOrder) 1 smf with
      | .ok ns => ns.map (fun x => (x.channel, x.note, x.formattedNote, x.velocity, x.start, x.end_)) ==
        [(0, 61, "C♯4", 64, 0, 500000000), (1, 61, "C♯4", 65, 0, 1000000000), (0, 63, "D♯4", 1, 500000000, 1000000000)]
      | _ => false))
    (by decide +kernel)
  simp only [Bool.and_eq_true, decide_eq_true_eq] at h2
  obtain ⟨⟨a, b⟩, c⟩ := h2
  refine ⟨smf, h1, ?_, b, ?_⟩
  · cases hm : smf.mthd with
    | none => simp [hm] at a
    | some m => exact ⟨m, rfl, by simpa [hm] using a⟩
  · split at c
    · exact ⟨_, by assumption, by simpa using c⟩
    · cases c

/-- C48: a file with two tempi to which the law for times applies. -/
example : ∃ smf t0 t1, decode .c3 [] (tracksFile 1 0 96 [[0, 0xff, 0x51, 3, 7, 0xa1, 0x20, 48, 0xff, 0x51, 3, 3, 0xd0, 0x90],
      [0, 0x90, 60, 64, 48, 0x90, 62, 64, 48, 0x80, 60, 0]]) = .ok smf ∧ smf.tracks = [t0, t1] ∧
    t0.tempos = [(0, 500000), (48, 250000)] ∧ t1.Timed ∧ Aligned t0.tempos t1 := by
  obtain ⟨smf, h1, h2⟩ := Outcome.of_test
    (o := decode .c3 [] (tracksFile 1 0 96 [[0, 0xff, 0x51, 3, 7, 0xa1, 0x20, 48, 0xff, 0x51, 3, 3, 0xd0, 0x90],
      [0, 0x90, 60, 64, 48, 0x90, 62, 64, 48, 0x80, 60, 0]]))
    (p := fun smf : SMF => smf.tracks.map (fun t => (t.tempos, t.contents, t.events.map (fun e => (e.delta.toNat, e.tick.toNat)))) ==
      [([(0, 500000), (48, 250000)], [.tempo 500000, .tempo 250000, .endOfTrack], [(0, 0), (48, 48), (0, 48)]),
       ([], [.noteOn 0 60 64, .noteOn 0 62 64, .noteOff 0 60 0, .endOfTrack], [(0, 0), (48, 48), (48, 96), (0, 96)])])
    (by decide +kernel)
  obtain ⟨t0, t1, h3, h4, h5⟩ := map_eq_two (beq_iff_eq.1 h2)
  simp only [Prod.mk.injEq] at h4 h5
  refine ⟨smf, t0, t1, h1, h3, h4.1, ?_, by rw [h5.2.1]; simp, ⟨500000, by simp [h4.1]⟩, ?_⟩
  · have : t1.ticks = (t1.events.map (fun e => (e.delta.toNat, e.tick.toNat))).foldr (fun p s => p.1 + s) 0 := by
      unfold MTrk.ticks
      generalize t1.events = l
      induction l with
      | nil => rfl
      | cons e l ih => simp [ih]
    rw [MTrk.Timed, this, h5.2.2]
    decide
  · rw [h4.1]
    have : ∀ p ∈ [(0, 500000), (48, 250000)], ∀ q ∈ [(0, 0), (48, 48), (48, 96), (0, 96)], ¬ (q.2 - q.1 < p.1 ∧ p.1 < q.2) := by decide
    intro p hp e he
    exact this p hp (e.delta.toNat, e.tick.toNat) (by rw [← h5.2.2]; exact List.mem_map.2 ⟨e, he, rfl⟩)

/-- Sixteen of the longest delta times, which leave sixteen ticks to 2^32, and a note across it. -/
def wrapTrack : Bytes := (List.replicate 15 [0xff, 0xff, 0xff, 0x7f, 0xb0, 7, 0]).flatten ++
  [0xff, 0xff, 0xff, 0x7f, 0x90, 60, 64, 100, 0xb0, 7, 0, 0, 0x80, 60, 64]

/-- C47 fails: the ticks of a track of 2^32 ticks or more wrap around, its events are reordered and a note is lost. -/
theorem C47_notes_fails : ∃ smf t, decode .c3 [] (tracksFile 1 0 96 [[], wrapTrack]) = .ok smf ∧ smf.tracks[1]? = some t ∧
    IsSpan t.contents ⟨0, 60, 15, 17⟩ ∧ extractNotes .c3 (fun _ => idOrder) 0 smf = .ok [] := by
  obtain ⟨smf, h1, h2⟩ := Outcome.of_test
    (o := decode .c3 [] (tracksFile 1 0 96 [[], wrapTrack]))
    (p := fun smf : SMF => (smf.tracks.map MTrk.contents == [[.endOfTrack], List.replicate 15 (.controller 0 7 0) ++
        [.noteOn 0 60 64, .controller 0 7 0, .noteOff 0 60 64, .endOfTrack]]) &&
      (match extractNotes .c3 (fun _ => idOrder) 0 smf with
      | .ok ns => ns == []
      | _ => false))
    (by decide +kernel)
  rw [Bool.and_eq_true, beq_iff_eq] at h2
  obtain ⟨a, c⟩ := h2
  · obtain ⟨t0, t, hts, _, a⟩ := map_eq_two a
    refine ⟨smf, t, h1, by rw [hts]; rfl, ?_, ?_⟩
    · rw [a]
      refine ⟨⟨_, rfl, 64, by decide, rfl⟩, ?_, by decide, ⟨_, rfl, Or.inl ⟨64, rfl⟩⟩, ?_⟩
      · rintro ⟨s, hs, ⟨c, hc, v, _, rfl⟩, _⟩
        have : ∀ s, s < 15 → (List.replicate 15 (Content.controller 0 7 0) ++ [.noteOn 0 60 64, .controller 0 7 0, .noteOff 0 60 64, .endOfTrack])[s]? =
            some (.controller 0 7 0) := by decide
        have h := this s hs
        rw [hc] at h
        cases h
      · intro m c h1 h2 h3
        simp only at h1 h2
        obtain rfl : m = 16 := by omega
        have : c = .controller 0 7 0 := by
          have := h3.symm
          simpa using this
        rw [this]
        rintro (⟨_, h⟩ | h | h) <;> cases h
    · split at c
      · rename_i ns hns
        rw [hns, beq_iff_eq.1 c]
      · cases c

/-- C48 fails: without a tempo event the tempo is 50000 microseconds per quarter note, so that a quarter note lasts 50 ms instead
of 500 ms; and a change of tempo in the middle of a delta time applies to all of it. -/
theorem C48_times_fails :
    (∃ smf x, decode .c3 [] (tracksFile 1 0 96 [[], [0, 0x90, 60, 64, 96, 0x80, 60, 0]]) = .ok smf ∧
      extractNotes .c3 (fun _ => idOrder) 0 smf = .ok [x] ∧ x.endTick = 96 ∧ x.end_ = 50000000 ∧
      (smf.tracks.map MTrk.tempos)[0]? = some [] ∧ 1000 * elapsed [] 96 / 96 = 500000000) ∧
    (∃ smf x, decode .c3 [] (tracksFile 1 0 96 [[0, 0xff, 0x51, 3, 7, 0xa1, 0x20, 48, 0xff, 0x51, 3, 3, 0xd0, 0x90],
        [0, 0x90, 60, 64, 96, 0x80, 60, 0]]) = .ok smf ∧
      extractNotes .c3 (fun _ => idOrder) 0 smf = .ok [x] ∧ x.endTick = 96 ∧ x.end_ = 250000000 ∧
      (smf.tracks.map MTrk.tempos)[0]? = some [(0, 500000), (48, 250000)] ∧ 1000 * elapsed [(0, 500000), (48, 250000)] 96 / 96 = 375000000) := by
  constructor
  · obtain ⟨smf, h1, h2⟩ := Outcome.of_test
      (o := decode .c3 [] (tracksFile 1 0 96 [[], [0, 0x90, 60, 64, 96, 0x80, 60, 0]]))
      (p := fun smf : SMF => (match extractNotes .c3 (fun _ => idOrder) 0 smf with
        | .ok [x] => decide (x.endTick = 96) && decide (x.end_ = 50000000)
        | _ => false) && decide ((smf.tracks.map MTrk.tempos)[0]? = some []))
      (by decide +kernel)
    simp only [Bool.and_eq_true, decide_eq_true_eq] at h2
    obtain ⟨a, b⟩ := h2
    split at a
    · rename_i x hx
      simp only [Bool.and_eq_true, decide_eq_true_eq] at a
      exact ⟨smf, x, h1, hx, a.1, a.2, b, by decide +kernel⟩
    · cases a
  · obtain ⟨smf, h1, h2⟩ := Outcome.of_test
      (o := decode .c3 [] (tracksFile 1 0 96 [[0, 0xff, 0x51, 3, 7, 0xa1, 0x20, 48, 0xff, 0x51, 3, 3, 0xd0, 0x90],
        [0, 0x90, 60, 64, 96, 0x80, 60, 0]]))
      (p := fun smf : SMF => (match extractNotes .c3 (fun _ => idOrder) 0 smf with
        | .ok [x] => decide (x.endTick = 96) && decide (x.end_ = 250000000)
        | _ => false) && decide ((smf.tracks.map MTrk.tempos)[0]? = some [(0, 500000), (48, 250000)]))
      (by decide +kernel)
    simp only [Bool.and_eq_true, decide_eq_true_eq] at h2
    obtain ⟨a, b⟩ := h2
    split at a
    · rename_i x hx
      simp only [Bool.and_eq_true, decide_eq_true_eq] at a
      exact ⟨smf, x, h1, hx, a.1, a.2, b, by decide +kernel⟩
    · cases a

/-! ### Tracks covered -/

/-- C49 fails: the notes of the first track, hence those of every format 0 file, are not reported; without tracks, or with an SMPTE
division and a second track, extraction panics. -/
theorem C49_every_track_fails :
    (∀ mc ord n smf t, smf.tracks = [t] → extractNotes mc ord n smf = .ok []) ∧
    (∀ mc ord n smf, smf.tracks = [] → extractNotes mc ord n smf = .panic) ∧
    (∀ mc ord n smf m t0 t1 ts e es, smf.tracks = t0 :: t1 :: ts → t1.events = e :: es → smf.mthd = some m → m.ppqn = 0 →
      extractNotes mc ord n smf = .panic) ∧
    (∃ smf p, decode .c3 [] (tracksFile 0 0 96 [[0, 0x90, 60, 64, 96, 0x80, 60, 0]]) = .ok smf ∧
      ∃ t, smf.tracks = [t] ∧ IsSpan t.contents p) ∧
    (∃ smf, decode .c3 [] (tracksFile 1 0 96 []) = .ok smf ∧ smf.tracks = []) ∧
    (∃ smf m t0 t1 e es, decode .c3 [] (tracksFile 1 0xe7 40 [[], []]) = .ok smf ∧ smf.mthd = some m ∧ m.ppqn = 0 ∧
      smf.tracks = [t0, t1] ∧ t1.events = e :: es) := by
  refine ⟨?_, ?_, ?_, ?_, ?_, ?_⟩
  · intro mc ord n smf t h
    unfold extractNotes buildTempoMap
    rw [h]
    rfl
  · intro mc ord n smf h
    unfold extractNotes buildTempoMap
    rw [h]
    rfl
  · intro mc ord n smf m t0 t1 ts e es h1 h2 h3 h4
    unfold extractNotes buildTempoMap
    rw [h1]
    simp only [Outcome.bind_ok, List.drop_succ_cons, List.drop_zero, extractTracks, h3, buildTrackEvents, h4]
    have hne : ∀ l, l ≠ [] → ∀ tempo at_ scale, stampEvents 0 tempo at_ scale l = .panic := by
      intro l hl tempo at_ scale
      cases l with
      | nil => exact absurd rfl hl
      | cons a l => rw [stampEvents]; rfl
    rw [hne _ ?_]
    · rfl
    · intro h
      have h := congrArg List.length h
      rw [(sortTicks_perm _).length_eq, h2] at h
      simp at h
  · obtain ⟨smf, h1, h2⟩ := Outcome.of_test
      (o := decode .c3 [] (tracksFile 0 0 96 [[0, 0x90, 60, 64, 96, 0x80, 60, 0]]))
      (p := fun smf : SMF => (smf.tracks.map MTrk.contents == [[.noteOn 0 60 64, .noteOff 0 60 0, .endOfTrack]]))
      (by decide +kernel)
    simp only [beq_iff_eq] at h2
    · obtain ⟨t, hts, a⟩ := map_eq_one h2
      refine ⟨smf, ⟨0, 60, 0, 1⟩, h1, t, hts, ?_⟩
      rw [a]
      refine ⟨⟨_, rfl, 64, by decide, rfl⟩, ?_, by decide, ⟨_, rfl, Or.inl ⟨0, rfl⟩⟩, ?_⟩
      · rintro ⟨s, hs, _⟩
        simp only at hs
        omega
      · intro m c h1 h2
        simp only at h1 h2
        omega
  · obtain ⟨smf, h1, h2⟩ := Outcome.of_test
      (o := decode .c3 [] (tracksFile 1 0 96 []))
      (p := fun smf : SMF => smf.tracks.isEmpty)
      (by decide +kernel)
    exact ⟨smf, h1, by simpa using h2⟩
  · obtain ⟨smf, h1, h2⟩ := Outcome.of_test
      (o := decode .c3 [] (tracksFile 1 0xe7 40 [[], []]))
      (p := fun smf : SMF => (smf.mthd.map (·.ppqn) == some 0) && (smf.tracks.map (fun t => t.events.length) == [1, 1]))
      (by decide +kernel)
    simp only [Bool.and_eq_true, beq_iff_eq] at h2
    obtain ⟨a, b⟩ := h2
    cases hm : smf.mthd with
    | none => simp [hm] at a
    | some m =>
      obtain ⟨t0, t1, hts, _, b⟩ := map_eq_two b
      obtain ⟨e, hes⟩ := List.length_eq_one_iff.1 b
      exact ⟨smf, m, t0, t1, e, [], h1, hm, by simpa [hm] using a, hts, hes⟩

end Midiasm
