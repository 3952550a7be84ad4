import Verif.Spec.TextCrashes
import Verif.Props.Assembled
import Verif.Props.AssembleFate
import Verif.Props.LongLines

/-!
Property C159: exactly which texts crash the assembler, and which it does not finish.
-/

set_option linter.unusedSimpArgs false

namespace Midiasm
open Spec

theorem panic_iff {α β : Type} {o : Outcome α} {f : α → Outcome β} : (o >>= f) = .panic ↔ o = .panic ∨ ∃ a, o = .ok a ∧ f a = .panic := by
  cases o with
  | ok a => rw [Outcome.bind_ok]; simp
  | err e => exact ⟨fun h => (by cases h), fun h => by rcases h with h | ⟨_, h, _⟩ <;> cases h⟩
  | panic => exact ⟨fun _ => Or.inl rfl, fun _ => rfl⟩
  | diverge => exact ⟨fun h => (by cases h), fun h => by rcases h with h | ⟨_, h, _⟩ <;> cases h⟩

theorem diverge_iff {α β : Type} {o : Outcome α} {f : α → Outcome β} : (o >>= f) = .diverge ↔ o = .diverge ∨ ∃ a, o = .ok a ∧ f a = .diverge := by
  cases o with
  | ok a => rw [Outcome.bind_ok]; simp
  | err e => exact ⟨fun h => (by cases h), fun h => by rcases h with h | ⟨_, h, _⟩ <;> cases h⟩
  | panic => exact ⟨fun h => (by cases h), fun h => by rcases h with h | ⟨_, h, _⟩ <;> cases h⟩
  | diverge => exact ⟨fun _ => Or.inl rfl, fun _ => rfl⟩

theorem parseDelta_calm (s : Bytes) : parseDelta s ≠ .panic ∧ parseDelta s ≠ .diverge := by
  have := tame_parseDelta s
  constructor <;> (intro h; rw [h] at this; exact this)

theorem parseByte_calm (s : Bytes) : parseByte s ≠ .panic ∧ parseByte s ≠ .diverge := by
  have := tame_parseByte s
  constructor <;> (intro h; rw [h] at this; exact this)

theorem smpte_panic (h m s r f ff : UInt8) (hr : r.toNat ∈ [24, 25, 29, 30]) (hff : ff.toNat ≤ 100) :
    makeSMPTEOffset h m s r f ff = .panic ↔ (24 < h.toNat ∨ 59 < m.toNat ∨ 59 < s.toNat ∨ r.toNat ≤ f.toNat) := by
  have hr' : ¬ (r ≠ 24 ∧ r ≠ 25 ∧ r ≠ 29 ∧ r ≠ 30) := by
    rintro ⟨a, b, c, d⟩
    simp only [List.mem_cons, List.not_mem_nil, or_false] at hr
    rcases hr with hr | hr | hr | hr
    · exact a (UInt8.toNat_inj.1 hr)
    · exact b (UInt8.toNat_inj.1 hr)
    · exact c (UInt8.toNat_inj.1 hr)
    · exact d (UInt8.toNat_inj.1 hr)
  have gt : ∀ (a : UInt8) (n : UInt8), (a > n) ↔ n.toNat < a.toNat := fun a n => UInt8.lt_iff_toNat_lt
  have e24 : (24 : UInt8).toNat = 24 := rfl
  have e59 : (59 : UInt8).toNat = 59 := rfl
  have e100 : (100 : UInt8).toNat = 100 := rfl
  unfold makeSMPTEOffset
  rw [if_neg hr']
  simp only [gt, ge_iff_le, UInt8.le_iff_toNat_le, e24, e59, e100]
  repeat' split
  all_goals simp
  all_goals omega

theorem readSMPTE_panic (line : Bytes) : readSMPTEOffset line = .panic ↔
    ∃ (d sh sm ss sr sf sff : Bytes) (delta : UInt32) (h m s r f ff : UInt8), Finds (form "SMPTEOffset") line [d, sh, sm, ss, sr, sf, sff] ∧
      Numeral d delta.toNat ∧ Numeral sh h.toNat ∧ Numeral sm m.toNat ∧ Numeral ss s.toNat ∧ Numeral sr r.toNat ∧ Numeral sf f.toNat ∧
      Numeral sff ff.toNat ∧ r.toNat ∈ [24, 25, 29, 30] ∧ ff.toNat ≤ 100 ∧ (24 < h.toNat ∨ 59 < m.toNat ∨ 59 < s.toNat ∨ r.toNat ≤ f.toNat) := by
  have hr : ∀ r : UInt8, (r ≠ 24 ∧ r ≠ 25 ∧ r ≠ 29 ∧ r ≠ 30) ↔ ¬ r.toNat ∈ [24, 25, 29, 30] := by
    intro r
    simp only [List.mem_cons, List.not_mem_nil, or_false, not_or, ne_eq, ← UInt8.toNat_inj]
    rfl
  have e100 : (100 : UInt8).toNat = 100 := rfl
  unfold readSMPTEOffset
  constructor
  · intro h
    split at h
    · rename_i d s1 s2 s3 s4 s5 s6 hm
      rcases panic_iff.1 h with h | ⟨x, k0, h⟩
      · exact absurd h (parseDelta_calm _).1
      rcases panic_iff.1 h with h | ⟨v1, k1, h⟩
      · exact absurd h (parseByte_calm _).1
      rcases panic_iff.1 h with h | ⟨v2, k2, h⟩
      · exact absurd h (parseByte_calm _).1
      rcases panic_iff.1 h with h | ⟨v3, k3, h⟩
      · exact absurd h (parseByte_calm _).1
      rcases panic_iff.1 h with h | ⟨v4, k4, h⟩
      · exact absurd h (parseByte_calm _).1
      rcases panic_iff.1 h with h | ⟨v5, k5, h⟩
      · exact absurd h (parseByte_calm _).1
      rcases panic_iff.1 h with h | ⟨v6, k6, h⟩
      · exact absurd h (parseByte_calm _).1
      split at h
      · cases h
      · rename_i c1
        split at h
        · cases h
        · rename_i c2
          have c1 := Classical.not_not.1 (fun h => c1 ((hr v4).2 h))
          have c2 : v6.toNat ≤ 100 := by rw [gt_iff_lt, UInt8.lt_iff_toNat_lt, e100] at c2; omega
          rcases panic_iff.1 h with h | ⟨y, _, h⟩
          · exact ⟨d, s1, s2, s3, s4, s5, s6, x, v1, v2, v3, v4, v5, v6, (smpteForm line _).mp hm, (parseDelta_iff _ _).mp k0,
              (parseByte_iff _ _).mp k1, (parseByte_iff _ _).mp k2, (parseByte_iff _ _).mp k3, (parseByte_iff _ _).mp k4, (parseByte_iff _ _).mp k5,
              (parseByte_iff _ _).mp k6, c1, c2, (smpte_panic _ _ _ _ _ _ c1 c2).1 h⟩
          · cases h
    · cases h
  · rintro ⟨d, s1, s2, s3, s4, s5, s6, x, v1, v2, v3, v4, v5, v6, hF, k0, k1, k2, k3, k4, k5, k6, c1, c2, hx⟩
    rw [(smpteForm line _).mpr hF]
    simp only
    rw [(parseDelta_iff _ _).mpr k0, Outcome.bind_ok, (parseByte_iff _ _).mpr k1, Outcome.bind_ok, (parseByte_iff _ _).mpr k2, Outcome.bind_ok,
      (parseByte_iff _ _).mpr k3, Outcome.bind_ok, (parseByte_iff _ _).mpr k4, Outcome.bind_ok, (parseByte_iff _ _).mpr k5, Outcome.bind_ok,
      (parseByte_iff _ _).mpr k6, Outcome.bind_ok, if_neg (fun h => (hr v4).1 h c1), if_neg (by rw [gt_iff_lt, UInt8.lt_iff_toNat_lt, e100]; omega),
      (smpte_panic _ _ _ _ _ _ c1 c2).2 hx]
    rfl

theorem readTime_diverge (line : Bytes) : readTimeSignature line = .diverge ↔
    ∃ (d sn sd st sq : Bytes) (delta : UInt32) (n dd t q : UInt8), Finds (form "TimeSignature") line [d, sn, sd, st, sq] ∧
      Numeral d delta.toNat ∧ Numeral sn n.toNat ∧ Numeral sd dd.toNat ∧ Numeral st t.toNat ∧ Numeral sq q.toNat ∧ 128 < dd.toNat := by
  unfold readTimeSignature
  constructor
  · intro h
    split at h
    · rename_i d s1 s2 s3 s4 hm
      rcases diverge_iff.1 h with h | ⟨x, k0, h⟩
      · exact absurd h (parseDelta_calm _).2
      rcases diverge_iff.1 h with h | ⟨v1, k1, h⟩
      · exact absurd h (parseByte_calm _).2
      rcases diverge_iff.1 h with h | ⟨v2, k2, h⟩
      · exact absurd h (parseByte_calm _).2
      rcases diverge_iff.1 h with h | ⟨v3, k3, h⟩
      · exact absurd h (parseByte_calm _).2
      rcases diverge_iff.1 h with h | ⟨v4, k4, h⟩
      · exact absurd h (parseByte_calm _).2
      refine ⟨d, s1, s2, s3, s4, x, v1, v2, v3, v4, (timeForm line _).mp hm, (parseDelta_iff _ _).mp k0,
              (parseByte_iff _ _).mp k1, (parseByte_iff _ _).mp k2, (parseByte_iff _ _).mp k3, (parseByte_iff _ _).mp k4, ?_⟩
      rcases Nat.lt_or_ge 128 v2.toNat with hlt | hge
      · exact hlt
      · obtain ⟨z, hz, _⟩ := (denomLoop_value v2).1 hge
        rw [makeTimeSignature, hz] at h
        cases h
    · cases h
  · rintro ⟨d, s1, s2, s3, s4, x, v1, v2, v3, v4, hF, k0, k1, k2, k3, k4, hx⟩
    rw [(timeForm line _).mpr hF]
    simp only
    rw [(parseDelta_iff _ _).mpr k0, Outcome.bind_ok, (parseByte_iff _ _).mpr k1, Outcome.bind_ok, (parseByte_iff _ _).mpr k2, Outcome.bind_ok,
      (parseByte_iff _ _).mpr k3, Outcome.bind_ok, (parseByte_iff _ _).mpr k4, Outcome.bind_ok, makeTimeSignature, (denomLoop_value v2).2 hx]
    rfl

theorem readEvent_panic (table : List (String × Lib.Manufacturer)) (line : Bytes) : readEvent table line = .panic ↔ CrashLine line := by
  constructor
  · intro h
    unfold readEvent at h
    cases hf : (textCases table).find? (fun c => contains line (str c.1)) with
    | none => rw [hf] at h; cases h
    | some c =>
      rw [hf] at h
      simp only at h
      rcases panic_iff.1 h with h | ⟨_, _, h⟩
      · rcases gives_case table line c (List.mem_of_find?_eq_some hf) with hc | ⟨h1, h2, _⟩ | ⟨_, _, h3⟩
        · rw [h] at hc; exact hc.elim
        · rw [h2] at h
          have hfirst := case_first table line c hf
          rw [h1] at hfirst
          exact ⟨hfirst, (readSMPTE_panic line).1 h⟩
        · rw [h3] at h; cases h
      · cases h
  · rintro ⟨hfirst, h⟩
    unfold readEvent
    rw [find_reader table line (.smpteOffset 0 0 0 0 0 0) hfirst]
    simp only
    exact panic_iff.2 (Or.inl ((readSMPTE_panic line).2 h))

theorem readEvent_diverge (table : List (String × Lib.Manufacturer)) (line : Bytes) : readEvent table line = .diverge ↔ HangLine line := by
  constructor
  · intro h
    unfold readEvent at h
    cases hf : (textCases table).find? (fun c => contains line (str c.1)) with
    | none => rw [hf] at h; cases h
    | some c =>
      rw [hf] at h
      simp only at h
      rcases diverge_iff.1 h with h | ⟨_, _, h⟩
      · rcases gives_case table line c (List.mem_of_find?_eq_some hf) with hc | ⟨_, _, h3⟩ | ⟨h1, h2, _⟩
        · rw [h] at hc; exact hc.elim
        · rw [h3] at h; cases h
        · rw [h2] at h
          have hfirst := case_first table line c hf
          rw [h1] at hfirst
          exact ⟨hfirst, (readTime_diverge line).1 h⟩
      · cases h
  · rintro ⟨hfirst, h⟩
    unfold readEvent
    rw [find_reader table line (.timeSignature 0 0 0 0) hfirst]
    simp only
    exact diverge_iff.2 (Or.inl ((readTime_diverge line).2 h))

theorem trackStops_cons (table : List (String × Lib.Manufacturer)) (P : Bytes → Prop) (l : Bytes) (ls : List Bytes) :
    TrackStops table P (l :: ls) ↔ (¬ Spec.Empty l ∧ P l) ∨ (Spec.Empty l ∧ TrackStops table P ls) ∨
      (¬ Spec.Empty l ∧ (∃ e, EventLine table l e) ∧ TrackStops table P ls) := by
  constructor
  · rintro ⟨a, x, b, es, h1, h2, h3, h4⟩
    cases h2 with
    | nil =>
      injection h1 with e1 e2
      subst e1
      exact Or.inl ⟨h3, h4⟩
    | skip y ys _ g1 g2 =>
      injection h1 with e1 e2
      subst e1
      exact Or.inr (Or.inl ⟨g1, ys, x, b, _, e2, g2, h3, h4⟩)
    | event y ys e es g1 g2 g3 =>
      injection h1 with e1 e2
      subst e1
      exact Or.inr (Or.inr ⟨g1, ⟨e, g2⟩, ys, x, b, _, e2, g3, h3, h4⟩)
  · rintro (⟨h1, h2⟩ | ⟨h1, a, x, b, es, rfl, g2, g3, g4⟩ | ⟨h1, ⟨e, h2⟩, a, x, b, es, rfl, g2, g3, g4⟩)
    · exact ⟨[], l, ls, [], rfl, .nil, h1, h2⟩
    · exact ⟨l :: a, x, b, es, rfl, .skip _ _ _ h1 g2, g3, g4⟩
    · exact ⟨l :: a, x, b, e :: es, rfl, .event _ _ _ _ h1 h2 g2, g3, g4⟩

theorem trackStops_nil (table : List (String × Lib.Manufacturer)) (P : Bytes → Prop) : ¬ TrackStops table P [] := by
  rintro ⟨a, x, b, es, h1, _⟩
  simp at h1

theorem parseEvents_panic (table : List (String × Lib.Manufacturer)) (ls : List Bytes) :
    parseEvents table ls = .panic ↔ TrackStops table CrashLine ls := by
  induction ls with
  | nil => exact ⟨fun h => (by cases h), fun h => absurd h (trackStops_nil _ _)⟩
  | cons l ls ih =>
    rw [parseEvents, trackStops_cons]
    by_cases hs : (isComment l || isBlank l) = true
    · have he := (skipped_iff l).mp hs
      rw [if_pos hs, ih]
      simp [he]
    · have he : ¬ Spec.Empty l := fun h => hs ((skipped_iff l).mpr h)
      rw [if_neg hs, panic_iff, readEvent_panic]
      simp only [panic_iff, ih]
      have hev : ∀ e, readEvent table l = .ok e ↔ EventLine table l e := C132_line_means table l
      simp [he, hev]

theorem parseEvents_diverge (table : List (String × Lib.Manufacturer)) (ls : List Bytes) :
    parseEvents table ls = .diverge ↔ TrackStops table HangLine ls := by
  induction ls with
  | nil => exact ⟨fun h => (by cases h), fun h => absurd h (trackStops_nil _ _)⟩
  | cons l ls ih =>
    rw [parseEvents, trackStops_cons]
    by_cases hs : (isComment l || isBlank l) = true
    · have he := (skipped_iff l).mp hs
      rw [if_pos hs, ih]
      simp [he]
    · have he : ¬ Spec.Empty l := fun h => hs ((skipped_iff l).mpr h)
      rw [if_neg hs, diverge_iff, readEvent_diverge]
      simp only [diverge_iff, ih]
      have hev : ∀ e, readEvent table l = .ok e ↔ EventLine table l e := C132_line_means table l
      simp [he, hev]

theorem fixups_panic (es : List Event) : fixups es = .panic ↔ es = [] := by cases es <;> simp [fixups]

theorem fixups_diverge (es : List Event) : fixups es ≠ .diverge := by cases es <;> simp [fixups]

theorem parseMTrk_panic (table : List (String × Lib.Manufacturer)) (l : Bytes) (t : List Bytes) (hl : str "MTrk" <:+: l) :
    parseMTrk table (l :: t) = .panic ↔ TrackStops table CrashLine t ∨ TrackHolds table t [] := by
  have hm : isMTrk l = true := (contains_iff _ _).mpr hl
  unfold parseMTrk
  rw [List.dropWhile_cons_of_neg (by simp [hm])]
  simp only
  rw [panic_iff, parseEvents_panic]
  simp only [panic_iff, fixups_panic, parseEvents_iff, says_holds]
  simp

theorem parseMTrk_diverge (table : List (String × Lib.Manufacturer)) (l : Bytes) (t : List Bytes) (hl : str "MTrk" <:+: l) :
    parseMTrk table (l :: t) = .diverge ↔ TrackStops table HangLine t := by
  have hm : isMTrk l = true := (contains_iff _ _).mpr hl
  unfold parseMTrk
  rw [List.dropWhile_cons_of_neg (by simp [hm])]
  simp only
  rw [diverge_iff, parseEvents_diverge]
  simp [diverge_iff, fixups_diverge]

theorem parseMTrk_ok (table : List (String × Lib.Manufacturer)) (l : Bytes) (t : List Bytes) (hl : str "MTrk" <:+: l) :
    (∃ m, parseMTrk table (l :: t) = .ok m) ↔ ∃ e es, TrackHolds table t (e :: es) := by
  simp only [parseMTrk_iff table l t hl, says_holds]
  constructor
  · rintro ⟨m, es, es', h1, h2, _⟩
    cases es with
    | nil => cases h2
    | cons e es => exact ⟨e, es, h1⟩
  · rintro ⟨e, es, h⟩
    exact ⟨_, _, _, h, rfl, rfl⟩

theorem parseMThd_calm (chunk : List Bytes) : parseMThd chunk ≠ .panic ∧ parseMThd chunk ≠ .diverge := by
  have := parseMThd_fate chunk
  constructor <;> (intro h; rw [h] at this; exact this)

/-- When the section after others crashes the assembler. -/
theorem section_panic (table : List (String × Lib.Manufacturer)) (l : Bytes) (t : List Bytes) (ht : ∀ x ∈ t, ¬ Spec.Starts x) (smf : SMF) :
    assembleLines table (l :: t) (l :: t) smf = .panic ↔ ¬ Comment l ∧ ¬ str "MThd" <:+: l ∧ str "MTrk" <:+: l ∧
      (TrackStops table CrashLine t ∨ TrackHolds table t [] ∨ (smf.mthd = none ∧ ∃ es, TrackHolds table t es)) := by
  rw [section_line table l t ht, assembleLine]
  by_cases hc : isComment l = true
  · rw [if_pos hc]
    exact ⟨fun h => (by cases h), fun h => absurd ((isComment_iff l).1 hc) h.1⟩
  rw [if_neg hc]
  have hc' : ¬ Comment l := fun h => hc ((isComment_iff l).2 h)
  by_cases hh : isMThd l = true
  · rw [if_pos hh, panic_iff]
    refine ⟨fun h => ?_, fun h => absurd ((isMThd_iff l).1 hh) h.2.1⟩
    rcases h with h | ⟨_, _, h⟩
    · exact absurd h (parseMThd_calm _).1
    · cases h
  rw [if_neg hh]
  have hh' : ¬ str "MThd" <:+: l := fun h => hh ((isMThd_iff l).2 h)
  by_cases hk : isMTrk l = true
  · have hk' : str "MTrk" <:+: l := (contains_iff _ _).1 hk
    rw [if_pos hk, panic_iff, parseMTrk_panic table l t hk']
    have hrest : (∃ a, parseMTrk table (l :: t) = .ok a ∧ (match smf.mthd with
        | none => Outcome.panic
        | some h => .ok ⟨some { h with tracks := h.tracks + 1 }, smf.tracks ++ [{ a with trackNumber := smf.tracks.length }]⟩ : Outcome SMF) = .panic) ↔
        smf.mthd = none ∧ ∃ e es, TrackHolds table t (e :: es) := by
      rw [← parseMTrk_ok table l t hk']
      cases smf.mthd <;> simp
    refine (or_congr Iff.rfl hrest).trans ?_
    constructor
    · rintro ((h | h) | ⟨h1, e, es, h2⟩)
      · exact ⟨hc', hh', hk', Or.inl h⟩
      · exact ⟨hc', hh', hk', Or.inr (Or.inl h)⟩
      · exact ⟨hc', hh', hk', Or.inr (Or.inr ⟨h1, _, h2⟩)⟩
    · rintro ⟨_, _, _, h | h | ⟨h1, es, h2⟩⟩
      · exact Or.inl (Or.inl h)
      · exact Or.inl (Or.inr h)
      · cases es with
        | nil => exact Or.inl (Or.inr h2)
        | cons e es => exact Or.inr ⟨h1, e, es, h2⟩
  · rw [if_neg hk]
    exact ⟨fun h => (by cases h), fun h => absurd ((contains_iff _ _).2 h.2.2.1) hk⟩

/-- When the assembler does not finish the section after others. -/
theorem section_diverge (table : List (String × Lib.Manufacturer)) (l : Bytes) (t : List Bytes) (ht : ∀ x ∈ t, ¬ Spec.Starts x) (smf : SMF) :
    assembleLines table (l :: t) (l :: t) smf = .diverge ↔ ¬ Comment l ∧ ¬ str "MThd" <:+: l ∧ str "MTrk" <:+: l ∧ TrackStops table HangLine t := by
  rw [section_line table l t ht, assembleLine]
  by_cases hc : isComment l = true
  · rw [if_pos hc]
    exact ⟨fun h => (by cases h), fun h => absurd ((isComment_iff l).1 hc) h.1⟩
  rw [if_neg hc]
  have hc' : ¬ Comment l := fun h => hc ((isComment_iff l).2 h)
  by_cases hh : isMThd l = true
  · rw [if_pos hh, diverge_iff]
    refine ⟨fun h => ?_, fun h => absurd ((isMThd_iff l).1 hh) h.2.1⟩
    rcases h with h | ⟨_, _, h⟩
    · exact absurd h (parseMThd_calm _).2
    · cases h
  rw [if_neg hh]
  have hh' : ¬ str "MThd" <:+: l := fun h => hh ((isMThd_iff l).2 h)
  by_cases hk : isMTrk l = true
  · have hk' : str "MTrk" <:+: l := (contains_iff _ _).1 hk
    rw [if_pos hk, diverge_iff, parseMTrk_diverge table l t hk']
    constructor
    · rintro (h | ⟨a, _, h⟩)
      · exact ⟨hc', hh', hk', h⟩
      · cases hm : smf.mthd <;> rw [hm] at h <;> cases h
    · rintro ⟨_, _, _, h⟩
      exact Or.inl h
  · rw [if_neg hk]
    exact ⟨fun h => (by cases h), fun h => absurd ((contains_iff _ _).2 h.2.2.1) hk⟩

theorem chunks_panic (table : List (String × Lib.Manufacturer)) (cs : List (List Bytes)) (smf : SMF) :
    assembleChunks table cs smf = .panic ↔ ∃ a c b s, cs = a ++ c :: b ∧ assembleChunks table a smf = .ok s ∧ assembleLines table c c s = .panic := by
  induction cs generalizing smf with
  | nil => exact ⟨fun h => (by cases h), by rintro ⟨a, c, b, s, h, _⟩; simp at h⟩
  | cons c cs ih =>
    rw [assembleChunks, panic_iff]
    constructor
    · rintro (h | ⟨s, h1, h2⟩)
      · exact ⟨[], c, cs, smf, rfl, rfl, h⟩
      · obtain ⟨a, d, b, s', rfl, h3, h4⟩ := (ih s).1 h2
        exact ⟨c :: a, d, b, s', rfl, by rw [assembleChunks, h1, Outcome.bind_ok, h3], h4⟩
    · rintro ⟨a, d, b, s', h1, h2, h3⟩
      cases a with
      | nil =>
        injection h1 with e1 e2
        subst e1
        injection h2 with h2
        subst h2
        exact Or.inl h3
      | cons x a =>
        injection h1 with e1 e2
        subst e1
        rw [assembleChunks] at h2
        obtain ⟨s, h4, h5⟩ := bound_ok h2
        exact Or.inr ⟨s, h4, (ih s).2 ⟨a, d, b, s', e2, h5, h3⟩⟩

theorem chunks_diverge (table : List (String × Lib.Manufacturer)) (cs : List (List Bytes)) (smf : SMF) :
    assembleChunks table cs smf = .diverge ↔ ∃ a c b s, cs = a ++ c :: b ∧ assembleChunks table a smf = .ok s ∧ assembleLines table c c s = .diverge := by
  induction cs generalizing smf with
  | nil => exact ⟨fun h => (by cases h), by rintro ⟨a, c, b, s, h, _⟩; simp at h⟩
  | cons c cs ih =>
    rw [assembleChunks, diverge_iff]
    constructor
    · rintro (h | ⟨s, h1, h2⟩)
      · exact ⟨[], c, cs, smf, rfl, rfl, h⟩
      · obtain ⟨a, d, b, s', rfl, h3, h4⟩ := (ih s).1 h2
        exact ⟨c :: a, d, b, s', rfl, by rw [assembleChunks, h1, Outcome.bind_ok, h3], h4⟩
    · rintro ⟨a, d, b, s', h1, h2, h3⟩
      cases a with
      | nil =>
        injection h1 with e1 e2
        subst e1
        injection h2 with h2
        subst h2
        exact Or.inl h3
      | cons x a =>
        injection h1 with e1 e2
        subst e1
        rw [assembleChunks] at h2
        obtain ⟨s, h4, h5⟩ := bound_ok h2
        exact Or.inr ⟨s, h4, (ih s).2 ⟨a, d, b, s', e2, h5, h3⟩⟩

theorem fileIs_none {smf : SMF} {h : Option Header} {ts : List (List Event)} (hf : FileIs smf h ts) : smf.mthd = none ↔ h = none := by
  have := hf.1
  cases h <;> cases hm : smf.mthd <;> rw [hm] at this <;> simp at this ⊢

/-- The encoder does not crash on what the assembler has made. -/
theorem encode_calm {table : List (String × Lib.Manufacturer)} {cs : List (List Bytes)} (hs : Sections cs) {smf : SMF}
    (h : assembleChunks table cs ⟨none, []⟩ = .ok smf) : encode smf ≠ .panic ∧ encode smf ≠ .diverge := by
  have hsound := chunks_fate table True cs hs ⟨none, []⟩ ⟨by simp, Or.inl trivial⟩
  rw [h] at hsound
  obtain ⟨c1, c2, c3⟩ := C26_encode_errors smf
  refine ⟨c2, fun hen => ?_⟩
  cases hm : smf.mthd with
  | none =>
    obtain ⟨e, h⟩ := c1.mpr (by rw [hm]; simp)
    rw [hen] at h; cases h
  | some m =>
    by_cases hn : m.tracks.toNat = smf.tracks.length
    · obtain ⟨bs, hb⟩ := (c3 m hm hn).1.mpr hsound.1
      rw [hen] at hb; cases hb
    · obtain ⟨e, h⟩ := c1.mpr (by intro x hx; rw [hm] at hx; injection hx with hx; rw [← hx]; exact hn)
      rw [hen] at h; cases h

/-- **C159.** A text crashes the assembler exactly if it is one of `TextCrashes`. -/
theorem C159_text_crashes (table : List (String × Lib.Manufacturer)) (text : Bytes) : assembleText table text = .panic ↔ TextCrashes table text := by
  by_cases hshort : ShortLines text
  · obtain ⟨lines, secs, hl, hc, hr⟩ := (C105_long_lines table text).2 hshort
    have hsec : Sections secs := hc.split
    unfold assembleText
    rw [hr, Outcome.bind_ok, panic_iff, chunks_panic]
    constructor
    · rintro (⟨a, c, b, s, h1, h2, h3⟩ | ⟨s, h1, h2⟩)
      · obtain ⟨l, t, rfl, _, ht⟩ := hsec c (by rw [h1]; simp)
        obtain ⟨hd, ts, hm, hf, _⟩ := means_of_sections table a (fun x hx => hsec x (by rw [h1]; simp [hx])) s h2
        obtain ⟨g1, g2, g3, g4⟩ := (section_panic table l t ht s).1 h3
        rw [fileIs_none hf] at g4
        exact ⟨hshort, lines, a, l, t, b, hd, ts, hl, by rw [← h1]; exact hc, (means_stands table a hd ts).1 hm, g1, g2, g3, g4⟩
      · exact absurd h2 (encode_calm hsec h1).1
    · rintro ⟨_, lines', a, l, t, b, hd, ts, hl', hc', hm, g1, g2, g3, g4⟩
      have e1 := lines_unique hl' hl
      subst e1
      have e2 := chunked_unique _ _ _ hc' hc
      subst e2
      obtain ⟨s, h1, hf⟩ := sections_of_means table a hd ts ((means_stands table a hd ts).2 hm) (fun x hx => hsec x (by simp [hx]))
      obtain ⟨l', t', he, _, ht⟩ := hsec (l :: t) (by simp)
      injection he with e1 e2
      subst e1 e2
      rw [← fileIs_none hf] at g4
      exact Or.inl ⟨a, l :: t, b, s, rfl, h1, (section_panic table l t ht s).2 ⟨g1, g2, g3, g4⟩⟩
  · rw [(C105_long_lines table text).1 hshort]
    exact ⟨fun h => (by cases h), fun h => absurd h.1 hshort⟩

/-- **C159.** The assembler does not finish a text exactly if it is one of `TextHangs`. -/
theorem C159_text_hangs (table : List (String × Lib.Manufacturer)) (text : Bytes) : assembleText table text = .diverge ↔ TextHangs table text := by
  by_cases hshort : ShortLines text
  · obtain ⟨lines, secs, hl, hc, hr⟩ := (C105_long_lines table text).2 hshort
    have hsec : Sections secs := hc.split
    unfold assembleText
    rw [hr, Outcome.bind_ok, diverge_iff, chunks_diverge]
    constructor
    · rintro (⟨a, c, b, s, h1, h2, h3⟩ | ⟨s, h1, h2⟩)
      · obtain ⟨l, t, rfl, _, ht⟩ := hsec c (by rw [h1]; simp)
        obtain ⟨hd, ts, hm, hf, _⟩ := means_of_sections table a (fun x hx => hsec x (by rw [h1]; simp [hx])) s h2
        obtain ⟨g1, g2, g3, g4⟩ := (section_diverge table l t ht s).1 h3
        exact ⟨hshort, lines, a, l, t, b, hd, ts, hl, by rw [← h1]; exact hc, (means_stands table a hd ts).1 hm, g1, g2, g3, g4⟩
      · exact absurd h2 (encode_calm hsec h1).2
    · rintro ⟨_, lines', a, l, t, b, hd, ts, hl', hc', hm, g1, g2, g3, g4⟩
      have e1 := lines_unique hl' hl
      subst e1
      have e2 := chunked_unique _ _ _ hc' hc
      subst e2
      obtain ⟨s, h1, hf⟩ := sections_of_means table a hd ts ((means_stands table a hd ts).2 hm) (fun x hx => hsec x (by simp [hx]))
      obtain ⟨l', t', he, _, ht⟩ := hsec (l :: t) (by simp)
      injection he with e1 e2
      subst e1 e2
      exact Or.inl ⟨a, l :: t, b, s, rfl, h1, (section_diverge table l t ht s).2 ⟨g1, g2, g3, g4⟩⟩
  · rw [(C105_long_lines table text).1 hshort]
    exact ⟨fun h => (by cases h), fun h => absurd h.1 hshort⟩

/-- A track whose second event is an offset of an hour that does not exist. -/
example : TextCrashes [] (str "MThd format:0 metrical-time:96 ppqn\nMTrk\n%% a comment\ndelta:0 Tempo tempo:500000\ndelta:0 SMPTEOffset 25 0 0 25 0 0\nno event\n") :=
  (C159_text_crashes _ _).1 (by decide +kernel)

/-- The error in an earlier line comes first. -/
example : ¬ TextCrashes [] (str "MThd format:0 metrical-time:96 ppqn\nMTrk\nno event\ndelta:0 SMPTEOffset 25 0 0 25 0 0\n") :=
  fun h => by
    have := (C159_text_crashes _ _).2 h
    revert this
    decide +kernel

example : TextHangs [] (str "MThd format:0 metrical-time:96 ppqn\nMTrk\ndelta:0 TimeSignature 4/129, 24 ticks per click, 8/32 per quarter\n") :=
  (C159_text_hangs _ _).1 (by decide +kernel)

end Midiasm
