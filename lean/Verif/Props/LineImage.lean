import Verif.Lemmas.Image
import Verif.Props.JsonAccepted

/-!
Properties C111 and C112: what a line of text can say, and exactly which printed lines are read as the event they were printed for.
-/

set_option linter.unusedSimpArgs false

namespace Midiasm
open Spec

/-! ### Numbers of a time signature -/

theorem time_beats (line d n dd t b : Bytes) (h : findSubmatch timePattern line = some [d, n, dd, t, b]) :
    b.head? ≠ some 48 ∧ 57 ∉ b.tail := by
  obtain ⟨a, u, v, o, hl, hr⟩ := findSubmatch_runs _ _ _ h
  unfold timePattern at hr
  simp only [List.append_assoc] at hr
  obtain ⟨u0, v0, d', hu0, hq⟩ := runs_delta hr
  clear hr
  subst hu0
  obtain ⟨u1, v1, c1, rfl, h1, hr⟩ := runs_append _ _ _ _ _ hq
  obtain ⟨_, rfl⟩ := runs_ilit _ h1
  obtain ⟨u2, v2, c2, rfl, h2, hr⟩ := runs_append _ _ _ _ _ hr
  obtain ⟨_, _, rfl⟩ := runs_plus h2
  obtain ⟨u3, v3, c3, rfl, h3, hr⟩ := runs_append _ _ _ _ _ hr
  obtain ⟨_, _, rfl⟩ := runs_number h3
  obtain ⟨u4, v4, c4, rfl, h4, hr⟩ := runs_append _ _ _ _ _ hr
  obtain ⟨_, rfl⟩ := runs_ilit _ h4
  obtain ⟨u5, v5, c5, rfl, h5, hr⟩ := runs_append _ _ _ _ _ hr
  obtain ⟨t5, ts5, rfl, _, _, rfl⟩ := runs_group h5
  obtain ⟨u6, v6, c6, rfl, h6, hr⟩ := runs_append _ _ _ _ _ hr
  obtain ⟨_, rfl⟩ := runs_ilit _ h6
  obtain ⟨u7, v7, c7, rfl, h7, hr⟩ := runs_append _ _ _ _ _ hr
  obtain ⟨_, rfl⟩ := runs_star h7
  obtain ⟨u8, v8, c8, rfl, h8, hr⟩ := runs_append _ _ _ _ _ hr
  obtain ⟨_, rfl⟩ := runs_ilit _ h8
  obtain ⟨u9, v9, c9, rfl, h9, hr⟩ := runs_append _ _ _ _ _ hr
  obtain ⟨_, _, rfl⟩ := runs_number h9
  obtain ⟨u10, v10, c10, rfl, h10, hr⟩ := runs_append _ _ _ _ _ hr
  obtain ⟨_, rfl⟩ := runs_ilit _ h10
  obtain ⟨u11, v11, c11, rfl, h11, hr⟩ := runs_append _ _ _ _ _ hr
  obtain ⟨_, rfl⟩ := runs_star h11
  obtain ⟨u12, v12, c12, rfl, h12, hr⟩ := runs_append _ _ _ _ _ hr
  obtain ⟨t12, ts12, rfl, p12, q12, rfl⟩ := runs_group h12
  obtain ⟨_, he⟩ := runs_ilit _ hr
  injection he with he _
  simp only [List.nil_append, List.cons_append, List.cons.injEq, and_true] at he
  obtain ⟨_, _, _, _, rfl⟩ := he
  have one : ∀ lo hi (t : Tok), rangeTok lo hi t = true → ∃ x, t = [x] ∧ lo ≤ x ∧ x ≤ hi := by
    intro lo hi t ht
    unfold rangeTok at ht
    split at ht
    · rename_i x
      rw [Bool.and_eq_true, decide_eq_true_eq, decide_eq_true_eq] at ht
      exact ⟨x, rfl, ht⟩
    · cases ht
  obtain ⟨x, rfl, hx1, hx2⟩ := one _ _ _ p12
  constructor
  · simp only [List.cons_append, List.nil_append, List.head?_cons, ne_eq, Option.some.injEq]
    intro he
    subst he
    exact absurd hx1 (by decide)
  · simp only [List.cons_append, List.nil_append, List.tail_cons]
    intro hm
    obtain ⟨y, hy, h57⟩ := List.mem_flatten.mp hm
    obtain ⟨z, rfl, hz1, hz2⟩ := one _ _ _ (q12 y hy)
    rw [List.mem_singleton] at h57
    subst h57
    exact absurd hz2 (by decide)

theorem beats_shape (t : UInt8) (h0 : (dec t.toNat).head? ≠ some 48) (h1 : 57 ∉ (dec t.toNat).tail) :
    t ≠ 0 ∧ (10 ≤ t → t % 10 ≠ 9) ∧ (100 ≤ t → t / 10 % 10 ≠ 9) :=
  all8 (P := fun t => (dec t.toNat).head? ≠ some 48 → 57 ∉ (dec t.toNat).tail → t ≠ 0 ∧ (10 ≤ t → t % 10 ≠ 9) ∧ (100 ≤ t → t / 10 % 10 ≠ 9))
    (by decide +kernel) t h0 h1

/-! ### Names of notes -/

theorem note_group (tag : String) (line d c n v : Bytes) (h : findSubmatch (notePatternOf tag) line = some [d, c, n, v]) : 45 ∉ n := by
  obtain ⟨a, u, v', o, hl, hr⟩ := findSubmatch_runs _ _ _ h
  unfold notePatternOf channelPattern at hr
  simp only [List.append_assoc] at hr
  obtain ⟨u0, v0, d', rfl, hq⟩ := runs_delta hr
  obtain ⟨u1, v1, c1, rfl, h1, hr⟩ := runs_append _ _ _ _ _ hq
  obtain ⟨_, rfl⟩ := runs_ilit _ h1
  obtain ⟨u2, v2, c2, rfl, h2, hr⟩ := runs_append _ _ _ _ _ hr
  obtain ⟨_, _, rfl⟩ := runs_plus h2
  obtain ⟨u3, v3, c3, rfl, h3, hr⟩ := runs_append _ _ _ _ _ hr
  obtain ⟨_, rfl⟩ := runs_ilit _ h3
  obtain ⟨u4, v4, c4, rfl, h4, hr⟩ := runs_append _ _ _ _ _ hr
  obtain ⟨_, _, rfl⟩ := runs_number h4
  obtain ⟨u5, v5, c5, rfl, h5, hr⟩ := runs_append _ _ _ _ _ hr
  obtain ⟨_, _, rfl⟩ := runs_plus h5
  obtain ⟨u6, v6, c6, rfl, h6, hr⟩ := runs_append _ _ _ _ _ hr
  obtain ⟨_, rfl⟩ := runs_ilit _ h6
  obtain ⟨u7, v7, c7, rfl, h7, hr⟩ := runs_append _ _ _ _ _ hr
  obtain ⟨w1, r1, e1, rfl, g1, h7⟩ := runs_cons h7
  obtain ⟨rfl, rfl⟩ := run_start g1
  obtain ⟨w2, r2, e2, rfl, g2, h7⟩ := runs_cons h7
  obtain ⟨tx, rfl, px, rfl⟩ := run_chr g2
  obtain ⟨w3, r3, e3, rfl, g3, h7⟩ := runs_cons h7
  obtain ⟨w4, r4, e4, rfl, g4, h7⟩ := runs_cons h7
  obtain ⟨td, rfl, pd, rfl⟩ := run_chr g4
  obtain ⟨w5, r5, e5, rfl, g5, h7⟩ := runs_cons h7
  obtain ⟨rfl, rfl⟩ := run_stop g5
  obtain ⟨rfl, rfl⟩ := runs_nil h7
  have hx : 45 ∉ tx := by
    unfold keyTok at px
    match tx, px with
    | [b], px => intro hb; rw [List.mem_singleton] at hb; subst hb; revert px; decide
  have hd : 45 ∉ td := by
    obtain ⟨b, rfl, h1, _⟩ := digitTok_byte pd
    intro hb; rw [List.mem_singleton] at hb; subst hb; revert h1; decide
  have hacc : e3 = ⟨[d'] ++ [u4.flatten], some (tx)⟩ ∨ ∃ t, 45 ∉ t ∧ e3 = ⟨[d'] ++ [u4.flatten], some (tx ++ t)⟩ := by
    rcases run_opt g3 with ⟨_, rfl⟩ | ⟨t, _, pt, rfl⟩
    · exact Or.inl rfl
    · refine Or.inr ⟨t, ?_, rfl⟩
      unfold accidentalTok at pt
      rcases (by simpa using pt : t = str "♯" ∨ t = str "♭") with rfl | rfl <;> decide +kernel
  obtain ⟨u8, v8, c8, rfl, h8, hr⟩ := runs_append _ _ _ _ _ hr
  have fin : ∀ z, 45 ∉ z → e3 = ⟨[d'] ++ [u4.flatten], some z⟩ → 45 ∉ n := by
    intro z hz he
    subst he
    obtain ⟨_, rfl⟩ := runs_ilit _ h8
    obtain ⟨u9, v9, c9, rfl, h9, hr⟩ := runs_append _ _ _ _ _ hr
    obtain ⟨_, rfl⟩ := runs_star h9
    obtain ⟨u10, v10, c10, rfl, h10, hr⟩ := runs_append _ _ _ _ _ hr
    obtain ⟨_, rfl⟩ := runs_ilit _ h10
    obtain ⟨_, _, he⟩ := runs_number hr
    injection he with he _
    simp only [Caps.eat, Option.toList_some, List.nil_append, List.cons_append, List.cons.injEq, and_true] at he
    obtain ⟨_, _, rfl, _⟩ := he
    intro hm
    rcases List.mem_append.mp hm with hm | hm
    · exact hz hm
    · exact hd hm
  rcases hacc with he | ⟨t, ht, he⟩
  · exact fin _ hx he
  · refine fin _ ?_ he
    intro hm
    rcases List.mem_append.mp hm with hm | hm
    · exact hx hm
    · exact ht hm

theorem notes_table : ∀ n ∈ Lib.Notes, pitchClass n.name = some n.ord ∧ 0 ≤ n.ord ∧ n.ord < 12 ∧ ('♯' ∉ n.name.toList ∨ '♭' ∉ n.name.toList) := by
  decide +kernel

/-- A note read from a name without a minus sign. -/
theorem parseNote_plain (s : Bytes) (nv : NoteVal) (hs : 45 ∉ s) (h : parseNote s = .ok nv) :
    12 ≤ nv.value ∧ nv.value ≤ 131 ∧ (∃ flats, Names flats 1 nv.name nv.value.toNat) ∧ nv.alias = nv.name := by
  unfold parseNote at h
  split at h
  · rename_i n o hf
    cases hn : lookupNoteText n with
    | ok note =>
      rw [hn, Outcome.bind_ok] at h
      cases ho : parseInt8 o with
      | ok octave =>
        rw [ho, Outcome.bind_ok] at h
        injection h with h
        have hmem : note ∈ Lib.Notes := by
          unfold lookupNoteText at hn
          split at hn
          · rename_i x hx
            injection hn with hn
            subst hn
            exact List.mem_of_find?_eq_some hx
          · cases hn
        obtain ⟨t1, t2, t3, t4⟩ := notes_table note hmem
        have h45 : 45 ∉ o := fun hm => hs ((group_infix hf o (by simp)).subset hm)
        obtain ⟨dg, rfl, d1, d2⟩ : ∃ dg : UInt8, o = [dg] ∧ 48 ≤ dg.toNat ∧ dg.toNat ≤ 57 := by
          obtain ⟨a, u, v, o', hl, hr⟩ := findSubmatch_runs _ _ _ hf
          unfold notePattern at hr
          obtain ⟨u1, v1, c1, rfl, h1, hr⟩ := runs_append _ _ _ _ _ hr
          have hc1 : ∃ g, c1 = ⟨[g], none⟩ := by
            obtain ⟨w1, r1, e1, rfl, g1, h7⟩ := runs_cons h1
            obtain ⟨rfl, rfl⟩ := run_start g1
            obtain ⟨w2, r2, e2, rfl, g2, h7⟩ := runs_cons h7
            obtain ⟨tx, rfl, px, rfl⟩ := run_chr g2
            obtain ⟨w3, r3, e3, rfl, g3, h7⟩ := runs_cons h7
            obtain ⟨w5, r5, e5, rfl, g5, h7⟩ := runs_cons h7
            obtain ⟨rfl, rfl⟩ := run_stop g5
            obtain ⟨rfl, rfl⟩ := runs_nil h7
            rcases run_opt g3 with ⟨_, rfl⟩ | ⟨t, _, pt, rfl⟩
            · exact ⟨_, rfl⟩
            · exact ⟨_, rfl⟩
          obtain ⟨g, rfl⟩ := hc1
          obtain ⟨w1, r1, e1, rfl, g1, h7⟩ := runs_cons hr
          obtain ⟨rfl, rfl⟩ := run_start g1
          obtain ⟨w2, r2, e2, rfl, g2, h7⟩ := runs_cons h7
          obtain ⟨w3, r3, e3, rfl, g3, h7⟩ := runs_cons h7
          obtain ⟨td, rfl, pd, rfl⟩ := run_chr g3
          obtain ⟨w5, r5, e5, rfl, g5, h7⟩ := runs_cons h7
          obtain ⟨rfl, rfl⟩ := run_stop g5
          obtain ⟨rfl, hx⟩ := runs_nil h7
          obtain ⟨dg, rfl, q1, q2⟩ := digitTok_byte pd
          rcases run_opt g2 with ⟨_, rfl⟩ | ⟨t, _, pt, rfl⟩
          · injection hx with hx _
            simp only [Caps.eat, Option.toList_some, List.nil_append, List.cons_append, List.cons.injEq, and_true] at hx
            exact ⟨dg, hx.2, q1, q2⟩
          · injection hx with hx _
            simp only [Caps.eat, Option.toList_some, List.nil_append, List.cons_append, List.cons.injEq, and_true] at hx
            exfalso
            unfold charTok at pt
            split at pt
            · rename_i x
              simp only [decide_eq_true_eq] at pt
              subst pt
              rw [hx.2] at h45
              exact h45 (by simp)
            · cases pt
        have hoct : octave = (dg.toNat : Int) - 48 := by
          have hd : ∀ dg : UInt8, 48 ≤ dg.toNat → dg.toNat ≤ 57 → parseInt8 [dg] = .ok ((dg.toNat : Int) - 48) := all8 (by decide +kernel)
          rw [hd dg d1 d2] at ho
          injection ho with ho
          exact ho.symm
        have hval : (UInt8.ofInt (12 * (octave + 1) + note.ord)).toNat = (12 * (octave + 1) + note.ord).toNat := by
          show (UInt8.ofNat ((12 * (octave + 1) + note.ord) % 2 ^ 8).toNat).toNat = _
          simp only [UInt8.toNat_ofNat']
          omega
        subst h
        refine ⟨?_, ?_, ?_, rfl⟩
        · show (12 : UInt8) ≤ UInt8.ofInt _
          rw [UInt8.le_iff_toNat_le, hval]
          show 12 ≤ _
          omega
        · show UInt8.ofInt _ ≤ (131 : UInt8)
          rw [UInt8.le_iff_toNat_le, hval]
          show _ ≤ 131
          omega
        · refine ⟨'♯' ∉ note.name.toList, note.name, ?_, ?_, id, ?_⟩
          · show note.name ++ toString octave = note.name ++ toString (((UInt8.ofInt (12 * (octave + 1) + note.ord)).toNat / 12 : Nat) - (1 : Int) : Int)
            rw [hval]
            congr 2
            omega
          · rw [t1]
            show _ = some ((((UInt8.ofInt (12 * (octave + 1) + note.ord)).toNat % 12 : Nat) : Int))
            rw [hval]
            congr 1
            omega
          · intro hf
            exact t4.resolve_left hf
      | err e => rw [ho] at h; cases h
      | panic => rw [ho] at h; cases h
      | diverge => rw [ho] at h; cases h
    | err e => rw [hn] at h; cases h
    | panic => rw [hn] at h; cases h
    | diverge => rw [hn] at h; cases h
  · cases h

/-! ### What the functions reading an event return -/

/-- The events a line of text can say: see `C112_line_says`. -/
def Body.Sayable (table : List (String × Lib.Manufacturer)) : Body → Prop
  | .sequencerSpecific m _ => (∃ key, (key, m) ∈ table) ∧ Unambiguous "SequencerSpecificEvent" (str m.name)
  | .sysExMessage m _ single => (∃ key, (key, m) ∈ table) ∧ Unambiguous "SysExMessage" (str m.name) ∧ single = false
  | .sysExContinuation _ e => e = false
  | .noteOff ch n v => (Body.noteOff ch n v).Readable table ∧ n.alias = n.name
  | .noteOn ch n v => (Body.noteOn ch n v).Readable table ∧ n.alias = n.name
  | b => b.Readable table

/-- The same without the names of events: these fields are copied from the line. -/
def Body.Copied (table : List (String × Lib.Manufacturer)) (line : Bytes) : Body → Prop
  | .text _ s => 10 ∉ s ∧ (∀ b, s.head? = some b → b ∉ blanks) ∧ s <:+: line
  | .sequencerSpecific m _ => (∃ key, (key, m) ∈ table) ∧ str m.name <:+: line
  | .sysExMessage m _ single => (∃ key, (key, m) ∈ table) ∧ str m.name <:+: line ∧ single = false
  | b => b.Sayable table

theorem parseChannel_small {s : Bytes} {ch : UInt8} (h : parseChannel s = .ok ch) : ch ≤ 15 :=
  UInt8.not_lt.mp (parseChannel_le s ch h)

theorem findManufacturer_mem {table : List (String × Lib.Manufacturer)} {s : Bytes} {m : Lib.Manufacturer} (h : findManufacturer table s = .ok m) :
    (∃ key, (key, m) ∈ table) ∧ str m.name = s := by
  unfold findManufacturer at h
  split at h
  · rename_i e he
    injection h with h
    subst h
    refine ⟨⟨e.1, List.mem_of_find?_eq_some he⟩, ?_⟩
    have := List.find?_some he
    exact (by simpa using this : s = str e.2.name).symm
  · cases h

theorem parseByte_digits {s : Bytes} {v : UInt8} (h : parseByte s = .ok v) (hs : s.head? ≠ some 48) : s = dec v.toNat := by
  unfold parseByte at h
  obtain ⟨n, h1, h2⟩ := bound_ok h
  injection h2 with h2
  obtain ⟨q1, q2⟩ := parseUint_numeral h1
  have := numeral_dec s n q1 hs
  rw [this, ← h2, UInt8.toNat_ofNat', Nat.mod_eq_of_lt q2]

theorem copied_text {table : List (String × Lib.Manufacturer)} {line : Bytes} {k : TextKind} {d : UInt32} {b : Body}
    (h : readText k line = .ok (d, b)) : b.Copied table line := by
  unfold readText at h
  split at h
  · rename_i g s hf
    obtain ⟨delta, _, h⟩ := bound_ok h
    injection h with h
    injection h with _ h
    subst h
    obtain ⟨q1, q2⟩ := rest_fields hf
    exact ⟨q1, q2, group_infix hf s (by simp)⟩
  · cases h

theorem copied_time {table : List (String × Lib.Manufacturer)} {line : Bytes} {d : UInt32} {b : Body}
    (h : readTimeSignature line = .ok (d, b)) : b.Copied table line := by
  unfold readTimeSignature at h
  split at h
  · rename_i d n dd t bb hf
    obtain ⟨delta, _, h⟩ := bound_ok h
    obtain ⟨num, _, h⟩ := bound_ok h
    obtain ⟨den, hden, h⟩ := bound_ok h
    obtain ⟨ticks, _, h⟩ := bound_ok h
    obtain ⟨beats, hbeats, h⟩ := bound_ok h
    obtain ⟨body, hmake, h⟩ := bound_ok h
    injection h with h
    injection h with _ h
    subst h
    unfold makeTimeSignature at hmake
    obtain ⟨x, hx, hmake⟩ := bound_ok hmake
    injection hmake with hmake
    subst hmake
    have h1 := parseByte_digits hden (time_fields _ _ _ _ _ _ hf).2
    have hb := time_beats _ _ _ _ _ _ hf
    have h2 := parseByte_digits hbeats hb.1
    rw [h2] at hb
    have hd0 := (time_fields _ _ _ _ _ _ hf).2
    rw [h1] at hd0
    have k1 : ∀ den : UInt8, (dec den.toNat).head? ≠ some 48 → 1 ≤ den := all8 (by decide +kernel)
    have k2 : ∀ den : UInt8, (match denomLoop den 8 1 0 with | .ok _ => true | _ => false) = true → den ≤ 128 := all8 (by decide +kernel)
    exact ⟨k1 den hd0, k2 den (by rw [hx]), beats_shape beats hb.1 hb.2⟩
  · cases h

theorem copied_note {table : List (String × Lib.Manufacturer)} {line : Bytes} {d : UInt32} {b : Body} :
    (readNoteOff line = .ok (d, b) → b.Copied table line) ∧ (readNoteOn line = .ok (d, b) → b.Copied table line) := by
  constructor
  · intro h
    unfold readNoteOff at h
    split at h
    · rename_i g c n v hf
      obtain ⟨delta, _, h⟩ := bound_ok h
      obtain ⟨ch, hch, h⟩ := bound_ok h
      obtain ⟨note, hn, h⟩ := bound_ok h
      obtain ⟨vel, _, h⟩ := bound_ok h
      split at h
      · cases h
      rename_i hv
      injection h with h
      injection h with _ h
      subst h
      obtain ⟨p1, p2, p3, p4⟩ := parseNote_plain n note (note_group _ _ _ _ _ _ hf) hn
      exact ⟨⟨parseChannel_small hch, UInt8.not_lt.mp hv, p1, p2, p3⟩, p4⟩
    · cases h
  · intro h
    unfold readNoteOn at h
    split at h
    · rename_i g c n v hf
      obtain ⟨delta, _, h⟩ := bound_ok h
      obtain ⟨ch, hch, h⟩ := bound_ok h
      obtain ⟨note, hn, h⟩ := bound_ok h
      obtain ⟨vel, _, h⟩ := bound_ok h
      split at h
      · cases h
      rename_i hv
      obtain ⟨body, hm, h⟩ := bound_ok h
      unfold makeNoteOn at hm
      rw [if_neg (parseChannel_le _ _ hch), if_neg hv] at hm
      injection hm with hm
      injection h with h
      injection h with _ h
      subst h
      subst hm
      obtain ⟨p1, p2, p3, p4⟩ := parseNote_plain n note (note_group _ _ _ _ _ _ hf) hn
      exact ⟨⟨parseChannel_small hch, UInt8.not_lt.mp hv, p1, p2, p3⟩, p4⟩
    · cases h

theorem copied_manufacturer {table : List (String × Lib.Manufacturer)} {line : Bytes} {d : UInt32} {b : Body} :
    (readSequencerSpecific table line = .ok (d, b) → b.Copied table line) ∧ (readSysExMessage table line = .ok (d, b) → b.Copied table line) := by
  constructor
  · intro h
    unfold readSequencerSpecific at h
    split at h
    · rename_i g name s hf
      obtain ⟨delta, _, h⟩ := bound_ok h
      obtain ⟨m, hm, h⟩ := bound_ok h
      obtain ⟨data, _, h⟩ := bound_ok h
      injection h with h
      injection h with _ h
      subst h
      obtain ⟨q1, q2⟩ := findManufacturer_mem hm
      exact ⟨q1, by rw [q2]; exact group_infix hf name (by simp)⟩
    · cases h
  · intro h
    unfold readSysExMessage at h
    split at h
    · rename_i g name s hf
      obtain ⟨delta, _, h⟩ := bound_ok h
      obtain ⟨m, hm, h⟩ := bound_ok h
      obtain ⟨data, _, h⟩ := bound_ok h
      injection h with h
      injection h with _ h
      subst h
      obtain ⟨q1, q2⟩ := findManufacturer_mem hm
      exact ⟨q1, by rw [q2]; exact group_infix hf name (by simp), rfl⟩
    · cases h

theorem copied_key {table : List (String × Lib.Manufacturer)} {line : Bytes} {d : UInt32} {b : Body}
    (h : readKeySignature line = .ok (d, b)) : b.Copied table line := by
  unfold readKeySignature at h
  split at h
  · rename_i g note mode hf
    obtain ⟨delta, _, h⟩ := bound_ok h
    simp only at h
    obtain ⟨body, hm, h⟩ := bound_ok h
    injection h with h
    injection h with _ h
    subst h
    have hmade := makeKeySignature_made hm
    have hform : ∃ a k name, body = .keySignature a k name := by
      unfold makeKeySignature at hm
      repeat' split at hm
      all_goals first | exact ⟨_, _, _, (Outcome.ok.inj hm).symm⟩ | cases hm
    obtain ⟨a, k, name, rfl⟩ := hform
    exact hmade
  · cases h

theorem copied_smpte {table : List (String × Lib.Manufacturer)} {line : Bytes} {d : UInt32} {b : Body}
    (h : readSMPTEOffset line = .ok (d, b)) : b.Copied table line := by
  unfold readSMPTEOffset at h
  split at h
  · obtain ⟨delta, _, h⟩ := bound_ok h
    obtain ⟨hour, _, h⟩ := bound_ok h
    obtain ⟨minute, _, h⟩ := bound_ok h
    obtain ⟨second, _, h⟩ := bound_ok h
    obtain ⟨rate, _, h⟩ := bound_ok h
    obtain ⟨frames, _, h⟩ := bound_ok h
    obtain ⟨fractions, _, h⟩ := bound_ok h
    split at h
    · cases h
    split at h
    · cases h
    obtain ⟨body, hm, h⟩ := bound_ok h
    injection h with h
    injection h with _ h
    subst h
    have hmade := makeSMPTEOffset_made hm
    have hform : ∃ h m s r f ff, body = .smpteOffset h m s r f ff := by
      unfold makeSMPTEOffset at hm
      repeat' split at hm
      all_goals first | exact ⟨_, _, _, _, _, _, (Outcome.ok.inj hm).symm⟩ | cases hm
    obtain ⟨_, _, _, _, _, _, rfl⟩ := hform
    exact hmade
  · cases h

/-- Readers of a channel and one number. -/
theorem copied_channel {table : List (String × Lib.Manufacturer)} {line : Bytes} {d : UInt32} {b : Body} :
    (readPolyphonicPressure line = .ok (d, b) → b.Copied table line) ∧ (readChannelPressure line = .ok (d, b) → b.Copied table line) ∧
      (readPitchBend line = .ok (d, b) → b.Copied table line) := by
  refine ⟨?_, ?_, ?_⟩
  · intro h
    unfold readPolyphonicPressure at h
    split at h
    · obtain ⟨delta, _, h⟩ := bound_ok h
      obtain ⟨ch, hch, h⟩ := bound_ok h
      obtain ⟨v, _, h⟩ := bound_ok h
      split at h
      · cases h
      rename_i hv
      unfold makePolyphonicPressure at h
      rw [if_neg (parseChannel_le _ _ hch), if_neg hv] at h
      injection h with h
      injection h with _ h
      subst h
      exact ⟨parseChannel_small hch, UInt8.not_lt.mp hv⟩
    · cases h
  · intro h
    unfold readChannelPressure at h
    split at h
    · obtain ⟨delta, _, h⟩ := bound_ok h
      obtain ⟨ch, hch, h⟩ := bound_ok h
      obtain ⟨v, _, h⟩ := bound_ok h
      split at h
      · cases h
      rename_i hv
      unfold makeChannelPressure at h
      rw [if_neg (parseChannel_le _ _ hch), if_neg hv] at h
      injection h with h
      injection h with _ h
      subst h
      exact ⟨parseChannel_small hch, UInt8.not_lt.mp hv⟩
    · cases h
  · intro h
    unfold readPitchBend at h
    split at h
    · obtain ⟨delta, _, h⟩ := bound_ok h
      obtain ⟨ch, hch, h⟩ := bound_ok h
      obtain ⟨v, _, h⟩ := bound_ok h
      unfold makePitchBend at h
      rw [if_neg (parseChannel_le _ _ hch)] at h
      injection h with h
      injection h with _ h
      subst h
      exact parseChannel_small hch
    · cases h

theorem lookupController_idem (id : UInt8) : Lib.lookupController id = Lib.lookupController (Lib.lookupController id).id := by
  have : ∀ id : UInt8, (Lib.lookupController id).id = id := all8 (by decide +kernel)
  rw [this]

theorem copied_channel2 {table : List (String × Lib.Manufacturer)} {line : Bytes} {d : UInt32} {b : Body} :
    (readController line = .ok (d, b) → b.Copied table line) ∧ (readProgramChange line = .ok (d, b) → b.Copied table line) := by
  refine ⟨?_, ?_⟩
  · intro h
    unfold readController at h
    split at h
    · obtain ⟨delta, _, h⟩ := bound_ok h
      obtain ⟨ch, hch, h⟩ := bound_ok h
      obtain ⟨c, _, h⟩ := bound_ok h
      obtain ⟨v, _, h⟩ := bound_ok h
      unfold makeController at h
      rw [if_neg (parseChannel_le _ _ hch)] at h
      injection h with h
      injection h with _ h
      subst h
      exact ⟨parseChannel_small hch, lookupController_idem c⟩
    · cases h
  · intro h
    unfold readProgramChange at h
    split at h
    · obtain ⟨delta, _, h⟩ := bound_ok h
      obtain ⟨ch, hch, h⟩ := bound_ok h
      obtain ⟨bank, _, h⟩ := bound_ok h
      obtain ⟨v, _, h⟩ := bound_ok h
      unfold makeProgramChange at h
      rw [if_neg (parseChannel_le _ _ hch)] at h
      injection h with h
      injection h with _ h
      subst h
      exact parseChannel_small hch
    · cases h

theorem copied_number {table : List (String × Lib.Manufacturer)} {line : Bytes} {d : UInt32} {b : Body} :
    (readSequenceNumber line = .ok (d, b) → b.Copied table line) ∧ (readMIDIChannelPrefix line = .ok (d, b) → b.Copied table line) ∧
      (readMIDIPort line = .ok (d, b) → b.Copied table line) ∧ (readTempo line = .ok (d, b) → b.Copied table line) ∧
      (readEndOfTrack line = .ok (d, b) → b.Copied table line) := by
  refine ⟨?_, ?_, ?_, ?_, ?_⟩
  · intro h
    unfold readSequenceNumber at h
    split at h
    · obtain ⟨delta, _, h⟩ := bound_ok h
      obtain ⟨v, _, h⟩ := bound_ok h
      injection h with h
      injection h with _ h
      subst h
      trivial
    · cases h
  · intro h
    unfold readMIDIChannelPrefix at h
    split at h
    · obtain ⟨delta, _, h⟩ := bound_ok h
      obtain ⟨v, _, h⟩ := bound_ok h
      split at h
      · cases h
      rename_i hv
      unfold makeMIDIChannelPrefix at h
      rw [if_neg hv] at h
      injection h with h
      injection h with _ h
      subst h
      exact UInt8.not_lt.mp hv
    · cases h
  · intro h
    unfold readMIDIPort at h
    split at h
    · obtain ⟨delta, _, h⟩ := bound_ok h
      obtain ⟨v, _, h⟩ := bound_ok h
      split at h
      · cases h
      rename_i hv
      unfold makeMIDIPort at h
      rw [if_neg hv] at h
      injection h with h
      injection h with _ h
      subst h
      exact UInt8.not_lt.mp hv
    · cases h
  · intro h
    unfold readTempo at h
    split at h
    · obtain ⟨delta, _, h⟩ := bound_ok h
      obtain ⟨v, _, h⟩ := bound_ok h
      injection h with h
      injection h with _ h
      subst h
      trivial
    · cases h
  · intro h
    unfold readEndOfTrack at h
    split at h
    · obtain ⟨delta, _, h⟩ := bound_ok h
      injection h with h
      injection h with _ h
      subst h
      trivial
    · cases h

theorem copied_packet {table : List (String × Lib.Manufacturer)} {line : Bytes} {d : UInt32} {b : Body} :
    (readSysExContinuation line = .ok (d, b) → b.Copied table line) ∧ (readSysExEscape line = .ok (d, b) → b.Copied table line) := by
  refine ⟨?_, ?_⟩
  · intro h
    unfold readSysExContinuation at h
    split at h
    · obtain ⟨delta, _, h⟩ := bound_ok h
      obtain ⟨v, _, h⟩ := bound_ok h
      injection h with h
      injection h with _ h
      subst h
      exact rfl
    · cases h
  · intro h
    unfold readSysExEscape at h
    split at h
    · obtain ⟨delta, _, h⟩ := bound_ok h
      obtain ⟨v, _, h⟩ := bound_ok h
      injection h with h
      injection h with _ h
      subst h
      trivial
    · cases h

theorem copied_case (table : List (String × Lib.Manufacturer)) (line : Bytes) (d : UInt32) (b : Body) :
    ∀ c ∈ textCases table, c.2 line = .ok (d, b) → b.Copied table line := by
  unfold textCases
  simp only [List.forall_mem_cons]
  obtain ⟨n1, n2, n3, n4, n5⟩ := @copied_number table line d b
  obtain ⟨c1, c2, c3⟩ := @copied_channel table line d b
  obtain ⟨c4, c5⟩ := @copied_channel2 table line d b
  obtain ⟨m1, m2⟩ := @copied_manufacturer table line d b
  obtain ⟨t1, t2⟩ := @copied_note table line d b
  obtain ⟨p1, p2⟩ := @copied_packet table line d b
  exact ⟨n1, copied_text, copied_text, copied_text, copied_text, copied_text, copied_text, copied_text, copied_text, copied_text, n2, n3, n4,
    copied_time, copied_key, copied_smpte, n5, m1, t1, t2, c1, c4, c5, c2, c3, m2, p1, p2, fun _ h => absurd h (by simp)⟩

theorem keywords_nodup : keywords.Nodup := by decide +kernel

/-- A part of a line in which `k` is the first name. -/
theorem first_unambiguous {k : String} {line s : Bytes} (h : FirstOf keywords (fun k => Occurs k line) k) (hs : s <:+: line) : Unambiguous k s := by
  obtain ⟨l, r, hk, _, hno⟩ := h
  intro l' r' hk' x hx ho
  have hsame : l' = l := by
    have hn := keywords_nodup
    rw [hk] at hk' hn
    clear hk hno hx
    induction l generalizing l' with
    | nil =>
      cases l' with
      | nil => rfl
      | cons a l' =>
        injection hk' with ha hr
        subst ha
        rw [hr] at hn
        simp only [List.nil_append, List.nodup_cons] at hn
        exact absurd (by simp) hn.1
    | cons a l ih =>
      cases l' with
      | nil =>
        injection hk' with ha hr
        subst ha
        simp only [List.cons_append, List.nodup_cons] at hn
        exact absurd (by simp) hn.1
      | cons a' l' =>
        injection hk' with ha hr
        subst ha
        simp only [List.cons_append, List.nodup_cons] at hn
        rw [ih l' hr hn.2]
  subst hsame
  exact hno x hx (ho.trans hs)

/-- C112: whatever the line, an event read from it is sayable: its fields are in the ranges of the standard, a time signature has a
denominator from 1 to 128, a note is between 12 and 131, a manufacturer is in the table, and a text has no newline, no blank in front and
no event name that takes precedence.  No other event has a line. -/
theorem C112_line_says (table : List (String × Lib.Manufacturer)) (line : Bytes) (e : Event) (h : readEvent table line = .ok e) :
    e.body.Sayable table ∧ e.body.asRead = e.body ∧ e.tick = 0 ∧ e.bytes = [] := by
  have hfirst := (C81_kind_exact table line).1 e h
  unfold readEvent at h
  cases hf : (textCases table).find? (fun c => contains line (str c.1)) with
  | none => rw [hf] at h; cases h
  | some c =>
    rw [hf] at h
    obtain ⟨⟨delta, body⟩, h1, h⟩ := bound_ok h
    injection h with h
    subst h
    have hc := copied_case table line delta body c (List.mem_of_find?_eq_some hf) h1
    clear h1 hf
    refine ⟨?_, ?_, rfl, rfl⟩
    · cases body with
      | text k s => exact ⟨hc.1, hc.2.1, first_unambiguous hfirst hc.2.2⟩
      | sequencerSpecific m data => exact ⟨hc.1, first_unambiguous hfirst hc.2⟩
      | sysExMessage m data single => exact ⟨hc.1, first_unambiguous hfirst hc.2.1, hc.2.2⟩
      | _ => exact hc
    · cases body with
      | noteOff ch n v =>
        obtain ⟨value, name, other⟩ := n
        have : other = name := hc.2
        subst this
        rfl
      | noteOn ch n v =>
        obtain ⟨value, name, other⟩ := n
        have : other = name := hc.2
        subst this
        rfl
      | sysExMessage m data single => rw [hc.2.2]; rfl
      | sysExContinuation data single => rw [show single = false from hc]; rfl
      | _ => rfl

/-- The names of the table can be told apart and be written in a line. -/
def Tellable (table : List (String × Lib.Manufacturer)) : Prop := ∀ e ∈ table, Findable table e.2

/-- C112, converse: with a table whose names can be told apart the line printed for a sayable event says it, so the sayable events are
exactly those that have a line. -/
theorem C112_sayable_has_line (table : List (String × Lib.Manufacturer)) (ht : Tellable table) (e : Event) (line : Bytes)
    (hs : e.body.Sayable table) (hr : e.body.asRead = e.body) (hp : printEvent e = .ok line) : readEvent table line = .ok ⟨0, e.delta, [], e.body⟩ := by
  have hread : e.body.Readable table := by
    cases hb : e.body with
    | sequencerSpecific m data =>
      rw [hb] at hs
      obtain ⟨⟨key, hk⟩, h2⟩ := hs
      exact ⟨ht _ hk, h2⟩
    | sysExMessage m data single =>
      rw [hb] at hs
      obtain ⟨⟨key, hk⟩, h2, _⟩ := hs
      exact ⟨ht _ hk, h2⟩
    | noteOff ch n v => rw [hb] at hs; exact hs.1
    | noteOn ch n v => rw [hb] at hs; exact hs.1
    | sysExContinuation data single => trivial
    | _ => rw [hb] at hs; exact hs
  rw [C80_line_reads_back table e line hp hread, hr]

/-- C112: the events that some line says are exactly the sayable ones, with the fields that the reader fills in at their initial values. -/
theorem C112_exact (table : List (String × Lib.Manufacturer)) (ht : Tellable table) (e : Event) :
    (∃ line, readEvent table line = .ok e) ↔ e.body.Sayable table ∧ e.body.asRead = e.body ∧ e.tick = 0 ∧ e.bytes = [] := by
  constructor
  · rintro ⟨line, h⟩
    exact C112_line_says table line e h
  · rintro ⟨h1, h2, h3, h4⟩
    obtain ⟨hex, hh, _⟩ := Outcome.of_test (o := printHex [0, 0, 0]) (p := fun _ => true) (by decide +kernel)
    have hp : ∃ line, printEvent { e with bytes := [0, 0, 0] } = .ok line := by
      unfold printEvent
      rw [hh]
      exact ⟨_, rfl⟩
    obtain ⟨line, hp⟩ := hp
    refine ⟨line, ?_⟩
    rw [C112_sayable_has_line table ht { e with bytes := [0, 0, 0] } line h1 h2 hp]
    obtain ⟨t, delta, b, body⟩ := e
    simp only at h3 h4
    subst h3 h4
    rfl

/-- C113: an event read from a line, printed with any tick and any bytes, gives a line that is read as the same event. -/
theorem C113_reprint (table : List (String × Lib.Manufacturer)) (ht : Tellable table) (line line' : Bytes) (e : Event)
    (h : readEvent table line = .ok e) (tick : UInt64) (bytes : Bytes) (hp : printEvent { e with tick := tick, bytes := bytes } = .ok line') :
    readEvent table line' = .ok e := by
  obtain ⟨h1, h2, h3, h4⟩ := C112_line_says table line e h
  rw [C112_sayable_has_line table ht { e with tick := tick, bytes := bytes } line' h1 h2 hp]
  obtain ⟨t, delta, b, body⟩ := e
  simp only at h3 h4
  subst h3 h4
  rfl

/-- The built-in manufacturers can be told apart. -/
theorem builtin_tellable : Tellable Lib.manufacturers := by
  intro e he
  obtain ⟨h1, h2, h3, h4, h5⟩ := builtin_names e he
  refine ⟨⟨e.1, he⟩, h1, h2, h3, ?_⟩
  cases hh : (str e.2.name).head? with
  | none => rw [hh] at h4; cases h4
  | some b =>
    rw [hh] at h4
    exact ⟨b, rfl, by simpa using h4⟩

/-- C111: the line printed for an event is read as that event exactly if the event is readable. -/
theorem C111_exactly_readable (table : List (String × Lib.Manufacturer)) (ht : Tellable table) (e : Event) (line : Bytes) (hp : printEvent e = .ok line) :
    readEvent table line = .ok ⟨0, e.delta, [], e.body.asRead⟩ ↔ e.body.Readable table := by
  constructor
  · intro h
    have hs := (C112_line_says _ _ _ h).1
    simp only at hs
    cases hb : e.body with
    | sequencerSpecific m data =>
      rw [hb] at hs
      obtain ⟨⟨key, hk⟩, h2⟩ := hs
      exact ⟨ht _ hk, h2⟩
    | sysExMessage m data single =>
      rw [hb] at hs
      obtain ⟨⟨key, hk⟩, h2, _⟩ := hs
      exact ⟨ht _ hk, h2⟩
    | noteOff ch n v => rw [hb] at hs; exact hs.1
    | noteOn ch n v => rw [hb] at hs; exact hs.1
    | sysExContinuation data single => trivial
    | _ => rw [hb] at hs; exact hs
  · exact C80_line_reads_back _ e line hp

/-- A line written by hand, with the fields padded, a comment in front and other words behind: what is read is printed as a line that is
read as the same event. -/
example : ∃ e line', readEvent Lib.manufacturers (str "(x) delta:480   90 NoteOn channel:7   note:D♭4,velocity:72 !") = .ok e ∧
    printEvent { e with tick := 5, bytes := [0x90, 61, 72] } = .ok line' ∧
    line' ≠ str "(x) delta:480   90 NoteOn channel:7   note:D♭4,velocity:72 !" ∧ readEvent Lib.manufacturers line' = .ok e := by
  obtain ⟨e, h1, h2⟩ := Outcome.of_test (o := readEvent Lib.manufacturers (str "(x) delta:480   90 NoteOn channel:7   note:D♭4,velocity:72 !"))
    (p := fun e => match printEvent { e with tick := 5, bytes := [0x90, 61, 72] } with
      | .ok l => l != str "(x) delta:480   90 NoteOn channel:7   note:D♭4,velocity:72 !"
      | _ => false) (by decide +kernel)
  split at h2
  · rename_i l hl
    exact ⟨e, l, h1, hl, by simpa using h2, C113_reprint _ builtin_tellable _ _ e h1 _ _ hl⟩
  · cases h2

end Midiasm
