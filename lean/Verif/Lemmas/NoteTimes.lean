import Verif.Lemmas.Notes

/-!
Sorting and time stamps (`buildTrackEvents`).
-/

set_option linter.unusedSimpArgs false

namespace Midiasm
open Spec

/-! ### `sortTicks` is a stable sort -/

theorem insertTick_perm (e : NoteEvent) (l : List NoteEvent) : (insertTick e l).Perm (e :: l) := by
  induction l with
  | nil => exact .refl _
  | cons x xs ih =>
    rw [insertTick]
    split
    · exact .refl _
    · exact (List.Perm.cons x ih).trans (.swap e x xs)

theorem sortTicks_perm (l : List NoteEvent) : (sortTicks l).Perm l := by
  induction l with
  | nil => exact .refl _
  | cons x xs ih => exact (insertTick_perm x _).trans (.cons x ih)

theorem insertTick_sorted (e : NoteEvent) (l : List NoteEvent) (h : l.Pairwise (fun a b => a.tick ≤ b.tick)) :
    (insertTick e l).Pairwise (fun a b => a.tick ≤ b.tick) := by
  induction l with
  | nil => simp [insertTick]
  | cons x xs ih =>
    rw [List.pairwise_cons] at h
    rw [insertTick]
    split
    · rename_i hle
      rw [List.pairwise_cons]
      refine ⟨?_, List.pairwise_cons.2 h⟩
      intro y hy
      rcases List.mem_cons.1 hy with rfl | hy
      · exact hle
      · exact UInt64.le_trans hle (h.1 y hy)
    · rename_i hle
      rw [List.pairwise_cons]
      refine ⟨?_, ih h.2⟩
      intro y hy
      rcases List.mem_cons.1 ((insertTick_perm e xs).mem_iff.1 hy) with rfl | hy
      · exact UInt64.le_of_lt (UInt64.not_le.1 hle)
      · exact h.1 y hy

theorem sortTicks_sorted (l : List NoteEvent) : (sortTicks l).Pairwise (fun a b => a.tick ≤ b.tick) := by
  induction l with
  | nil => exact .nil
  | cons x xs ih => exact insertTick_sorted x _ ih

theorem insertTick_filter (e : NoteEvent) (l : List NoteEvent) (t : UInt64) :
    (insertTick e l).filter (fun x => decide (x.tick = t)) = (e :: l).filter (fun x => decide (x.tick = t)) := by
  induction l with
  | nil => rfl
  | cons x xs ih =>
    rw [insertTick]
    split
    · rfl
    · rename_i hle
      rw [List.filter_cons, ih]
      simp only [List.filter_cons]
      by_cases h1 : x.tick = t
      · by_cases h2 : e.tick = t
        · exact absurd (h2.trans h1.symm ▸ UInt64.le_refl _) hle
        · simp [h1, h2]
      · simp [h1]

/-- Events with the same tick stay in order. -/
theorem sortTicks_stable (l : List NoteEvent) (t : UInt64) :
    (sortTicks l).filter (fun x => decide (x.tick = t)) = l.filter (fun x => decide (x.tick = t)) := by
  induction l with
  | nil => rfl
  | cons x xs ih =>
    show (insertTick x (sortTicks xs)).filter _ = _
    rw [insertTick_filter, List.filter_cons, List.filter_cons, ih]

/-! ### Sorting two sorted lists -/

/-- Merging, the first list's events first. -/
def mergeTicks (a b : List NoteEvent) : List NoteEvent := a.foldr insertTick b

theorem sortTicks_sorted_eq (l : List NoteEvent) (h : l.Pairwise (fun a b => a.tick ≤ b.tick)) : sortTicks l = l := by
  induction l with
  | nil => rfl
  | cons x xs ih =>
    rw [List.pairwise_cons] at h
    show insertTick x (sortTicks xs) = _
    rw [ih h.2]
    cases xs with
    | nil => rfl
    | cons y ys => rw [insertTick, if_pos (h.1 y (by simp))]

theorem sortTicks_append (a b : List NoteEvent) (h : b.Pairwise (fun a b => a.tick ≤ b.tick)) :
    sortTicks (a ++ b) = mergeTicks a b := by
  rw [sortTicks, List.foldr_append]
  show mergeTicks a (sortTicks b) = _
  rw [sortTicks_sorted_eq b h]

theorem insertTick_front (x : NoteEvent) (l : List NoteEvent) (h : ∀ y ∈ l, x.tick ≤ y.tick) : insertTick x l = x :: l := by
  cases l with
  | nil => rfl
  | cons y ys => rw [insertTick, if_pos (h y (by simp))]

theorem mergeTicks_perm (a b : List NoteEvent) : (mergeTicks a b).Perm (a ++ b) := by
  induction a with
  | nil => exact .refl _
  | cons x a ih => exact (insertTick_perm x _).trans (.cons x ih)

theorem mergeTicks_le (x : NoteEvent) (a b : List NoteEvent) (y : NoteEvent)
    (ha : (x :: a).Pairwise (fun a b => a.tick ≤ b.tick)) (hb : (y :: b).Pairwise (fun a b => a.tick ≤ b.tick)) (h : x.tick ≤ y.tick) :
    mergeTicks (x :: a) (y :: b) = x :: mergeTicks a (y :: b) := by
  refine insertTick_front x _ (fun z hz => ?_)
  rw [List.pairwise_cons] at ha hb
  rcases List.mem_append.1 ((mergeTicks_perm a (y :: b)).mem_iff.1 hz) with hz | hz
  · exact ha.1 z hz
  · rcases List.mem_cons.1 hz with rfl | hz
    · exact h
    · exact UInt64.le_trans h (hb.1 z hz)

theorem mergeTicks_gt (x : NoteEvent) (a b : List NoteEvent) (y : NoteEvent)
    (ha : (x :: a).Pairwise (fun a b => a.tick ≤ b.tick)) (h : ¬ x.tick ≤ y.tick) :
    mergeTicks (x :: a) (y :: b) = y :: mergeTicks (x :: a) b := by
  have key : ∀ a : List NoteEvent, (∀ z ∈ a, ¬ z.tick ≤ y.tick) → mergeTicks a (y :: b) = y :: mergeTicks a b := by
    intro a
    induction a with
    | nil => intro _; rfl
    | cons z a ih =>
      intro hz
      show insertTick z (mergeTicks a (y :: b)) = y :: insertTick z (mergeTicks a b)
      rw [ih (fun w hw => hz w (by simp [hw])), insertTick, if_neg (hz z (by simp))]
  refine key (x :: a) (fun z hz => ?_)
  rw [List.pairwise_cons] at ha
  rcases List.mem_cons.1 hz with rfl | hz
  · exact h
  · intro hzy
    exact h (UInt64.le_trans (ha.1 z hz) hzy)

/-! ### Time stamps -/

/-- Rounding to the nearest millisecond. -/
theorem roundMs_nat (x : Nat) (h : x < 2 ^ 63 - 1000000) : roundMs x = ((x + 500000) / 1000000 * 1000000 : Nat) := by
  unfold roundMs
  rw [if_neg (by omega)]
  have e : ((x : Int).tmod 1000000) = ((x % 1000000 : Nat) : Int) := by
    exact (Int.ofNat_tmod x 1000000).symm
  rw [e]
  show (if _ then _ else if _ then _ else _) = _
  split
  · rename_i h1
    generalize hr : x % 1000000 = r at *
    have h1' : (r : Int) + r < 1000000 := h1
    show (x : Int) - r = _
    omega
  · rename_i h1
    have h1' : 1000000 ≤ 2 * (x % 1000000) := by omega
    have hw : wrap64 ((x : Int) + 1000000 - (x % 1000000 : Nat)) = (x : Int) + 1000000 - (x % 1000000 : Nat) := by
      unfold wrap64
      apply Int.bmod_eq_of_le_mul_two <;> omega
    rw [hw, if_pos (by omega)]
    omega

/-- The tempo in force for an event at tick `t` of a track without tempo events, as the code sees it: that of the last change strictly
before `t`, initially 50000. -/
def tempoBefore (m : TempoMap) (t : Nat) : Nat := (((m.filter (fun p => decide (p.1 < t))).getLast?).map (·.2)).getD 50000

/-- The tempo that an event sets. -/
def Body.tempoSet : Body → Option Nat
  | .tempo t => some t.toNat
  | _ => none

/-- The spelling in force after each event. -/
def scalesFrom : ScaleKind → List Body → List ScaleKind
  | _, [] => []
  | _, .keySignature a _ _ :: l => (if a < 0 then .flats else .sharps) :: scalesFrom (if a < 0 then .flats else .sharps) l
  | s, _ :: l => s :: scalesFrom s l

/-- Ticks and values of tempo events. -/
def tempoOf (e : NoteEvent) : Nat × Nat := (e.tick.toNat, match e.body with | .tempo t => t.toNat | _ => 0)

/-- Tick, delta time and tempo of an event. -/
def stampOf (e : NoteEvent) : Nat × Nat × Option Nat := (e.tick.toNat, e.delta.toNat, e.body.tempoSet)

theorem stamp_one (ppqn : UInt16) (hp : ppqn ≠ 0) (tempo : UInt64) (at_ : Int) (scale : ScaleKind) (e : NoteEvent) (es : List NoteEvent) :
    stampEvents ppqn tempo at_ scale (e :: es) = (do
      let rest ← stampEvents ppqn (match e.body with | .tempo t => t.toUInt64 | _ => tempo)
        (wrap64 (at_ + wrap64 (1000 * e.delta * tempo / ppqn.toUInt64).toNat))
        (match e.body with | .keySignature a _ _ => if a < 0 then .flats else .sharps | _ => scale) es
      .ok ({ e with at_ := roundMs (wrap64 (at_ + wrap64 (1000 * e.delta * tempo / ppqn.toUInt64).toNat)), scale := (match e.body with | .keySignature a _ _ => if a < 0 then .flats else .sharps | _ => scale) } :: rest)) := by
  rw [stampEvents, if_neg hp]
  rfl

/-- The fields of an event that stamping does not change. -/
def NoteEvent.fixed (e : NoteEvent) : UInt64 × UInt64 × Body := (e.tick, e.delta, e.body)

theorem step_time {at_ d tempo ppqn : Nat} (h1 : tempo < 2 ^ 24) (h2 : at_ + 1000 * d * 2 ^ 24 < 2 ^ 63 - 1000000) (d' tempo' : UInt64) (p : UInt16)
    (hd : d'.toNat = d) (ht : tempo'.toNat = tempo) (hpp : p.toNat = ppqn) :
    wrap64 ((at_ : Int) + wrap64 ((1000 * d' * tempo' / p.toUInt64).toNat : Nat)) = ((at_ + 1000 * d * tempo / ppqn : Nat) : Int) ∧
      at_ + 1000 * d * tempo / ppqn ≤ at_ + 1000 * d * 2 ^ 24 := by
  have hle : 1000 * d * tempo ≤ 1000 * d * 2 ^ 24 := Nat.mul_le_mul_left _ (by omega)
  have e1 : (1000 * d').toNat = 1000 * d := by
    rw [UInt64.toNat_mul, hd]
    show 1000 * d % 2 ^ 64 = _
    exact Nat.mod_eq_of_lt (by omega)
  have e2 : (1000 * d' * tempo').toNat = 1000 * d * tempo := by
    rw [UInt64.toNat_mul, e1, ht]
    exact Nat.mod_eq_of_lt (by omega)
  have e3 : (1000 * d' * tempo' / p.toUInt64).toNat = 1000 * d * tempo / ppqn := by
    rw [UInt64.toNat_div, e2, UInt16.toNat_toUInt64, hpp]
  have hdiv : 1000 * d * tempo / ppqn ≤ 1000 * d * tempo := Nat.div_le_self _ _
  rw [e3]
  constructor
  · unfold wrap64
    rw [Int.bmod_eq_of_le_mul_two (x := ((1000 * d * tempo / ppqn : Nat) : Int)) (by omega) (by omega)]
    rw [Int.bmod_eq_of_le_mul_two (by omega) (by omega)]
    omega
  · omega

theorem stamp_total (ppqn : UInt16) (hp : ppqn ≠ 0) (l : List NoteEvent) : ∀ (tempo : UInt64) (at_ : Int) (scale : ScaleKind),
    ∃ L : List NoteEvent, stampEvents ppqn tempo at_ scale l = .ok L ∧ L.map NoteEvent.fixed = l.map NoteEvent.fixed := by
  induction l with
  | nil => intro _ _ _; exact ⟨[], rfl, rfl⟩
  | cons e es ih =>
    intro tempo at_ scale
    rw [stamp_one ppqn hp]
    obtain ⟨L, h1, h2⟩ := ih _ _ _
    rw [h1]
    exact ⟨_, rfl, by rw [List.map_cons, List.map_cons, h2]; rfl⟩

theorem isNoteEvent_tempo {e : NoteEvent} {t : UInt32} (h : e.body = .tempo t) : isNoteEvent e = false := by
  simp [isNoteEvent, h]

theorem stamp_merge (ppqn : UInt16) (hp : ppqn ≠ 0) (m : List NoteEvent) (hm : m.Pairwise (fun a b => a.tick ≤ b.tick))
    (hmt : ∀ e ∈ m, ∃ t : UInt32, e.body = .tempo t ∧ t.toNat < 2 ^ 24 ∧ e.delta = 0) :
    ∀ (a b b0 : List NoteEvent) (tempo : UInt64) (at_ : Int) (scale : ScaleKind),
      a.Pairwise (fun a b => a.tick ≤ b.tick) → m = b0 ++ b →
      ∃ L S : List NoteEvent, stampEvents ppqn tempo at_ scale (mergeTicks a b) = .ok L ∧ S.map NoteEvent.fixed = a.map NoteEvent.fixed ∧
        L.filter isNoteEvent = S.filter isNoteEvent ∧ S.map NoteEvent.scale = scalesFrom scale (a.map NoteEvent.body) ∧
        ∀ (n : Nat) (own : Option (Nat × Nat)), at_ = n → (∀ e ∈ a, ∀ t, e.body = .tempo t → t.toNat < 2 ^ 24) →
          (∀ y ∈ b0, ∀ x ∈ a, y.tick < x.tick) → (∀ q, own = some q → ∀ y ∈ b, q.1 ≤ y.tick.toNat) → tempo.toNat < 2 ^ 24 →
          tempo.toNat = latestTempo (b0.map tempoOf).getLast? own →
          n + 1000 * (a.map (fun e => e.delta.toNat)).sum * 2 ^ 24 < 2 ^ 63 - 1000000 →
          S.map NoteEvent.at_ = (noteTimes (m.map tempoOf) ppqn.toNat own n (a.map stampOf)).map
            (fun x : Nat => (((x + 500000) / 1000000 * 1000000 : Nat) : Int)) := by
  intro a
  induction a with
  | nil =>
    intro b b0 tempo at_ scale _ hmb
    obtain ⟨L, h1, h2⟩ := stamp_total ppqn hp b tempo at_ scale
    refine ⟨L, [], h1, rfl, ?_, rfl, fun _ _ _ _ _ _ _ _ _ => rfl⟩
    rw [List.filter_nil, List.filter_eq_nil_iff]
    intro e he
    have : e.fixed ∈ b.map NoteEvent.fixed := by rw [← h2]; exact List.mem_map.2 ⟨e, he, rfl⟩
    obtain ⟨e', he', hf⟩ := List.mem_map.1 this
    obtain ⟨t, ht, _⟩ := hmt e' (by rw [hmb]; exact List.mem_append.2 (Or.inr he'))
    have hb : e'.body = e.body := congrArg (·.2.2) hf
    rw [ht] at hb
    rw [isNoteEvent_tempo hb.symm]
    decide
  | cons x a iha =>
    have xstep : ∀ (b b0 : List NoteEvent) (tempo : UInt64) (at_ : Int) (scale : ScaleKind),
        (x :: a).Pairwise (fun a b => a.tick ≤ b.tick) → m = b0 ++ b → (∀ y ∈ b, x.tick ≤ y.tick) →
        mergeTicks (x :: a) b = x :: mergeTicks a b →
        ∃ L S : List NoteEvent, stampEvents ppqn tempo at_ scale (mergeTicks (x :: a) b) = .ok L ∧
        S.map NoteEvent.fixed = (x :: a).map NoteEvent.fixed ∧
        L.filter isNoteEvent = S.filter isNoteEvent ∧ S.map NoteEvent.scale = scalesFrom scale ((x :: a).map NoteEvent.body) ∧
        ∀ (n : Nat) (own : Option (Nat × Nat)), at_ = n → (∀ e ∈ (x :: a), ∀ t, e.body = .tempo t → t.toNat < 2 ^ 24) →
          (∀ y ∈ b0, ∀ z ∈ (x :: a), y.tick < z.tick) → (∀ q, own = some q → ∀ y ∈ b, q.1 ≤ y.tick.toNat) → tempo.toNat < 2 ^ 24 →
          tempo.toNat = latestTempo (b0.map tempoOf).getLast? own →
          n + 1000 * ((x :: a).map (fun e => e.delta.toNat)).sum * 2 ^ 24 < 2 ^ 63 - 1000000 →
          S.map NoteEvent.at_ = (noteTimes (m.map tempoOf) ppqn.toNat own n ((x :: a).map stampOf)).map
            (fun x : Nat => (((x + 500000) / 1000000 * 1000000 : Nat) : Int)) := by
      intro b b0 tempo at_ scale hs hmb hle hmerge
      rw [hmerge, stamp_one ppqn hp]
      obtain ⟨L, S, h1, h2, h3, h4, h5⟩ := iha b b0 (match x.body with | .tempo t => t.toUInt64 | _ => tempo)
        (wrap64 (at_ + wrap64 (1000 * x.delta * tempo / ppqn.toUInt64).toNat))
        (match x.body with | .keySignature a _ _ => if a < 0 then .flats else .sharps | _ => scale) (List.pairwise_cons.1 hs).2 hmb
      rw [h1]
      refine ⟨_, { x with at_ := roundMs (wrap64 (at_ + wrap64 (1000 * x.delta * tempo / ppqn.toUInt64).toNat)),
                          scale := (match x.body with | .keySignature a _ _ => if a < 0 then .flats else .sharps | _ => scale) } :: S,
        rfl, ?_, ?_, ?_, ?_⟩
      · rw [List.map_cons, List.map_cons, h2]; rfl
      · rw [List.filter_cons, List.filter_cons, h3]
      · rw [List.map_cons, List.map_cons, h4]
        cases x.body <;> rfl
      · intro n own hn hnt hlt hown htl htempo hsum
        subst hn
        rw [List.map_cons, List.sum_cons] at hsum
        have htb : latestTempo (((m.map tempoOf).filter fun p => decide (p.1 < x.tick.toNat)).getLast?) own = tempo.toNat := by
          rw [htempo, hmb, List.map_append, List.filter_append]
          have e1 : (b0.map tempoOf).filter (fun p => decide (p.1 < x.tick.toNat)) = b0.map tempoOf := by
            rw [List.filter_eq_self]
            intro p hpm
            obtain ⟨y, hy, rfl⟩ := List.mem_map.1 hpm
            exact decide_eq_true (UInt64.lt_iff_toNat_lt.1 (hlt y hy x (by simp)))
          have e2 : (b.map tempoOf).filter (fun p => decide (p.1 < x.tick.toNat)) = [] := by
            rw [List.filter_eq_nil_iff]
            intro p hpm
            obtain ⟨y, hy, rfl⟩ := List.mem_map.1 hpm
            have := UInt64.le_iff_toNat_le.1 (hle y hy)
            intro h
            exact absurd (of_decide_eq_true h) (Nat.not_lt.2 this)
          rw [e1, e2, List.append_nil]
        have hbound : n + 1000 * x.delta.toNat * 2 ^ 24 < 2 ^ 63 - 1000000 := by
          refine Nat.lt_of_le_of_lt (Nat.add_le_add_left (Nat.mul_le_mul_right _ (Nat.mul_le_mul_left _ ?_)) _) hsum
          exact Nat.le_add_right _ _
        obtain ⟨t1, t2⟩ := step_time (tempo := tempo.toNat) htl hbound x.delta tempo ppqn rfl rfl rfl
        have h6 := h5 (n + 1000 * x.delta.toNat * tempo.toNat / ppqn.toNat)
          (match x.body.tempoSet with | some v => some (x.tick.toNat, v) | none => own) t1 (fun e he => hnt e (by simp [he]))
          (fun y hy z hz => hlt y hy z (by simp [hz])) (by
            intro q hq y hy
            cases hv : x.body.tempoSet with
            | none => rw [hv] at hq; exact hown q hq y hy
            | some v =>
              rw [hv] at hq
              injection hq with hq
              rw [← hq]
              exact UInt64.le_iff_toNat_le.1 (hle y hy)) (by
            cases hb : x.body <;> first | exact htl | skip
            simp only [UInt32.toNat_toUInt64]
            exact hnt x (by simp) _ hb) (by
            cases hb : x.body <;> simp only [Body.tempoSet] <;> first | exact htempo | skip
            rw [UInt32.toNat_toUInt64]
            cases hl : (b0.map tempoOf).getLast? with
            | none => rfl
            | some p =>
              obtain ⟨y, hy, rfl⟩ := List.mem_map.1 (List.mem_of_getLast? hl)
              have := UInt64.lt_iff_toNat_lt.1 (hlt y hy x (by simp))
              rw [latestTempo, if_neg (by simp only [tempoOf]; omega)]) (by
            have : n + 1000 * x.delta.toNat * tempo.toNat / ppqn.toNat + 1000 * (a.map (fun e => e.delta.toNat)).sum * 2 ^ 24 ≤
              n + 1000 * x.delta.toNat * 2 ^ 24 + 1000 * (a.map (fun e => e.delta.toNat)).sum * 2 ^ 24 := by omega
            have e : 1000 * (x.delta.toNat + (a.map (fun e => e.delta.toNat)).sum) * 2 ^ 24 =
              1000 * x.delta.toNat * 2 ^ 24 + 1000 * (a.map (fun e => e.delta.toNat)).sum * 2 ^ 24 := by
              rw [Nat.mul_add, Nat.add_mul]
            rw [e] at hsum
            omega)
        rw [List.map_cons, List.map_cons]
        show _ = List.map _ (noteTimes _ _ _ _ ((x.tick.toNat, x.delta.toNat, x.body.tempoSet) :: _))
        unfold noteTimes
        simp only [htb]
        rw [List.map_cons, h6]
        rw [t1, roundMs_nat _ (by omega)]
        rfl
    intro b
    induction b with
    | nil =>
      intro b0 tempo at_ scale hs hmb
      refine xstep [] b0 tempo at_ scale hs hmb (by simp) ?_
      refine insertTick_front x _ (fun z hz => ?_)
      have := (mergeTicks_perm a []).mem_iff.1 hz
      rw [List.append_nil] at this
      exact (List.pairwise_cons.1 hs).1 z this
    | cons y b ihb =>
      intro b0 tempo at_ scale hs hmb
      have hyb : (y :: b).Pairwise (fun a b => a.tick ≤ b.tick) := by
        rw [hmb, List.pairwise_append] at hm
        exact hm.2.1
      by_cases hxy : x.tick ≤ y.tick
      · refine xstep (y :: b) b0 tempo at_ scale hs hmb ?_ (mergeTicks_le x a b y hs hyb hxy)
        intro z hz
        rcases List.mem_cons.1 hz with rfl | hz
        · exact hxy
        · exact UInt64.le_trans hxy ((List.pairwise_cons.1 hyb).1 z hz)
      · obtain ⟨t, ht, ht24, hdel⟩ := hmt y (by rw [hmb]; simp)
        rw [mergeTicks_gt x a b y hs hxy, stamp_one ppqn hp]
        obtain ⟨L, S, h1, h2, h3, h4, h5⟩ := ihb (b0 ++ [y]) (match y.body with | .tempo t => t.toUInt64 | _ => tempo)
          (wrap64 (at_ + wrap64 (1000 * y.delta * tempo / ppqn.toUInt64).toNat))
          (match y.body with | .keySignature a _ _ => if a < 0 then .flats else .sharps | _ => scale) hs (by rw [hmb]; simp)
        rw [h1]
        refine ⟨_, S, rfl, h2, ?_, ?_, ?_⟩
        · rw [List.filter_cons, h3]
          rw [if_neg]
          simp [isNoteEvent, ht]
        · rw [h4, ht]
        · intro n own hn hnt hlt hown htl htempo hsum
          subst hn
          have t1 : wrap64 ((n : Int) + wrap64 ((1000 * y.delta * tempo / ppqn.toUInt64).toNat : Nat)) = (n : Int) := by
            rw [hdel]
            have : (1000 * 0 * tempo / ppqn.toUInt64) = 0 := by
              apply UInt64.toNat_inj.1
              rw [UInt64.toNat_div]
              simp
            rw [this]
            unfold wrap64
            simp only [UInt64.toNat_zero, Int.natCast_zero, Int.zero_bmod, Int.add_zero]
            exact Int.bmod_eq_of_le_mul_two (by omega) (by omega)
          rw [ht] at h5
          refine h5 n own t1 hnt ?_ (fun q hq z hz => hown q hq z (by simp [hz])) ?_ ?_ hsum
          · intro z hz w hw
            rcases List.mem_append.1 hz with hz | hz
            · exact hlt z hz w hw
            · rw [List.mem_singleton] at hz
              subst hz
              have hyx := UInt64.not_le.1 hxy
              rcases List.mem_cons.1 hw with rfl | hw
              · exact hyx
              · exact UInt64.lt_of_lt_of_le hyx ((List.pairwise_cons.1 hs).1 w hw)
          · rw [UInt32.toNat_toUInt64]; exact ht24
          · rw [List.map_append, List.map_singleton, List.getLast?_concat, UInt32.toNat_toUInt64]
            cases own with
            | none => simp [latestTempo, tempoOf, ht]
            | some q =>
              have := hown q rfl y (by simp)
              have h' : q.1 ≤ (tempoOf y).1 := this
              rw [latestTempo, if_pos h']
              simp [tempoOf, ht]

end Midiasm
