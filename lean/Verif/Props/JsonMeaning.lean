import Verif.Lemmas.JsonMembers
import Verif.Props.Assembled
import Verif.Props.JsonAccepted

/-!
C137: the file that a JSON document stands for, exactly (`Verif/Spec/JsonFile.lean`).
-/

set_option linter.unusedSimpArgs false

namespace Midiasm
open Spec

/-! ### Members of an event -/

section
variable (ms : List (List Nat × Json))

theorem member_iff {α : Type} (d : α → Json → Outcome α) (name : String) (cur r : α) :
    field d name cur (.obj ms) = .ok r ↔ (valuesOf name (.obj ms)).foldlM d cur = .ok r := by
  rw [field_values]

theorem member_uint (bits : Nat) (name : String) (n : Nat) :
    field (uintJson bits) name 0 (.obj ms) = .ok n ↔ NumberIn (2 ^ bits) name (.obj ms) n := by
  rw [member_iff, fold_number]
  rfl

theorem member_byte (name : String) (n : UInt8) : byteField name (.obj ms) = .ok n ↔ NumberIn 256 name (.obj ms) n.toNat := by
  unfold byteField
  rw [bind_iff]
  constructor
  · rintro ⟨v, h1, h2⟩
    injection h2 with h2
    have h1 := (member_uint ms 8 name v).mp h1
    have hn := says_below h1 (by decide)
    have : n.toNat = v := by rw [← h2, UInt8.toNat_ofNat']; omega
    rw [this]
    exact h1
  · intro h
    exact ⟨n.toNat, (member_uint ms 8 name _).mpr h, by rw [UInt8.ofNat_toNat]⟩

theorem member_short (name : String) (n : UInt16) : shortField name (.obj ms) = .ok n ↔ NumberIn 65536 name (.obj ms) n.toNat := by
  unfold shortField
  rw [bind_iff]
  constructor
  · rintro ⟨v, h1, h2⟩
    injection h2 with h2
    have h1 := (member_uint ms 16 name v).mp h1
    have hn := says_below h1 (by decide)
    have : n.toNat = v := by rw [← h2, UInt16.toNat_ofNat']; omega
    rw [this]
    exact h1
  · intro h
    exact ⟨n.toNat, (member_uint ms 16 name _).mpr h, by rw [UInt16.ofNat_toNat]⟩

theorem member_word (name : String) (n : UInt32) :
    (∃ v, field (uintJson 32) name 0 (.obj ms) = .ok v ∧ UInt32.ofNat v = n) ↔ NumberIn (2 ^ 32) name (.obj ms) n.toNat := by
  constructor
  · rintro ⟨v, h1, h2⟩
    have h1 := (member_uint ms 32 name v).mp h1
    have hn := says_below h1 (by decide)
    have : n.toNat = v := by rw [← h2, UInt32.toNat_ofNat']; omega
    rw [this]
    exact h1
  · intro h
    exact ⟨n.toNat, (member_uint ms 32 name _).mpr h, by rw [UInt32.ofNat_toNat]⟩

theorem member_string (name : String) (s : Bytes) : field stringJson name [] (.obj ms) = .ok s ↔ MembersSay StringIs [] (valuesOf name (.obj ms)) s := by
  rw [member_iff, fold_string]

theorem member_bool (name : String) (b : Bool) : field boolJson name false (.obj ms) = .ok b ↔ MembersSay TruthIs false (valuesOf name (.obj ms)) b := by
  rw [member_iff]
  exact fold_members _ _ bool_iff (by rintro x h; cases h) _ _ _

theorem member_signed (name : String) (n : Int8) :
    (∃ v, field int8Json name 0 (.obj ms) = .ok v ∧ Int8.ofInt v = n) ↔ MembersSay SignedByte 0 (valuesOf name (.obj ms)) n.toInt := by
  have h := fun v => fold_members SignedByte int8Json int8_iff (by rintro x ⟨_, _, h, _⟩; cases h) (valuesOf name (.obj ms)) 0 v
  constructor
  · rintro ⟨v, h1, rfl⟩
    rw [member_iff, h] at h1
    have hb : -128 ≤ v ∧ v ≤ 127 := by
      rcases h1.2 with ⟨_, _, _, _, ⟨_, k, _, ⟨_, rfl, _⟩ | ⟨_, _, _, rfl, _⟩⟩, _⟩ | ⟨_, rfl⟩ <;> omega
    rw [Int8.toInt_ofInt_of_le (by omega) (by omega)]
    exact h1
  · intro h1
    exact ⟨n.toInt, by rw [member_iff, h]; exact h1, Int8.ofInt_toInt n⟩

theorem member_channel (ch : UInt8) : field channelJson "channel" 0 (.obj ms) = .ok ch ↔ LastSays ChannelIs 0 (valuesOf "channel" (.obj ms)) ch := by
  rw [member_iff]
  exact fold_latest _ _ channel_iff _ _ _

theorem member_data (data : Bytes) : field hexJson "data" [] (.obj ms) = .ok data ↔ LastSays BytesAre [] (valuesOf "data" (.obj ms)) data := by
  rw [member_iff]
  exact fold_latest _ _ (fun _ v bs => bytes_iff v bs) _ _ _

theorem member_maker (id : Bytes) : (∃ m, field manufacturerJson "manufacturer" noManufacturer (.obj ms) = .ok m ∧ m.id = id) ↔
    LastSays MakerIs [] (valuesOf "manufacturer" (.obj ms)) id := by
  simp only [member_iff]
  exact fold_maker _ _

theorem member_note (n : UInt8) : field noteJson "note" 0 (.obj ms) = .ok n ↔ NoteIs (.obj ms) n := by
  rw [member_iff]
  exact fold_note _ _

theorem member_controller (n : UInt8) : (∃ c, field controllerJson "controller" ⟨0, ""⟩ (.obj ms) = .ok c ∧ c.id = n) ↔ ControllerIs (.obj ms) n := by
  simp only [member_iff]
  exact fold_controller _ _

theorem prologue_iff (tag : String) (delta : UInt32) : prologueJson tag (.obj ms) = .ok delta ↔
    MembersSay StringIs [] (valuesOf "tag" (.obj ms)) (str tag) ∧ NumberIn (2 ^ 32) "delta" (.obj ms) delta.toNat := by
  unfold prologueJson
  rw [← member_word, ← member_string]
  simp only [bind_iff]
  constructor
  · rintro ⟨t, h1, d, h2, h3⟩
    split at h3
    · cases h3
    · rename_i ht
      injection h3 with h3
      rw [← Classical.not_not.mp ht]
      exact ⟨h1, d, h2, h3⟩
  · rintro ⟨h1, d, h2, h3⟩
    refine ⟨_, h1, d, h2, ?_⟩
    rw [if_neg (not_not_intro rfl), h3]

end

/-! ### Events with fields in range -/

theorem make_smpte (h m s r f ff : UInt8) (x : Body) : makeSMPTEOffset h m s r f ff = .ok x ↔
    x = .smpteOffset h m s r f ff ∧ h.toNat ≤ 24 ∧ m.toNat ≤ 59 ∧ s.toNat ≤ 59 ∧ r.toNat ∈ [24, 25, 29, 30] ∧ f.toNat < r.toNat ∧ ff.toNat ≤ 100 := by
  rw [← smpte_ok]
  by_cases hr : r ≠ 24 ∧ r ≠ 25 ∧ r ≠ 29 ∧ r ≠ 30
  · rw [if_pos hr]
    unfold makeSMPTEOffset
    constructor
    · intro h
      repeat' split at h
      all_goals cases h
    · intro h; cases h
  · rw [if_neg hr]
    by_cases hff : ff > 100
    · rw [if_pos hff]
      unfold makeSMPTEOffset
      constructor
      · intro h
        repeat' split at h
        all_goals cases h
      · intro h; cases h
    · rw [if_neg hff]

theorem make_time (n d c q : UInt8) (x : Body) : makeTimeSignature n d c q = .ok x ↔ x = .timeSignature n d c q ∧ d.toNat ≤ 128 := by
  have key : ∀ x : UInt8, (match denomLoop x 8 1 0 with | .ok _ => decide (x.toNat ≤ 128) | .diverge => decide (128 < x.toNat) | _ => false) = true :=
    all8 (by decide +kernel)
  have hk := key d
  unfold makeTimeSignature
  cases hl : denomLoop d 8 1 0 with
  | ok k =>
    rw [hl] at hk
    rw [Outcome.bind_ok, ok_iff]
    exact ⟨fun h => ⟨h.symm, of_decide_eq_true hk⟩, fun h => h.1.symm⟩
  | diverge =>
    rw [hl] at hk
    have := of_decide_eq_true hk
    exact ⟨fun h => (by cases h), fun h => absurd h.2 (by omega)⟩
  | err e => rw [hl] at hk; cases hk
  | panic => rw [hl] at hk; cases hk

theorem make_key (a : Int8) (k : UInt8) :
    (∃ name, makeKeySignature a k = .ok (.keySignature a k name)) ∧ -7 ≤ a.toInt ∧ a.toInt ≤ 7 ∧ k.toNat ≤ 1 ∨
      makeKeySignature a k = .panic ∧ ¬ (-7 ≤ a.toInt ∧ a.toInt ≤ 7 ∧ k.toNat ≤ 1) := by
  have h0 : ∀ n : UInt8, (match makeKeySignature n.toInt8 0 with
      | .ok (.keySignature b k _) => b == n.toInt8 && k == 0 && decide (-7 ≤ n.toInt8.toInt ∧ n.toInt8.toInt ≤ 7)
      | .panic => !decide (-7 ≤ n.toInt8.toInt ∧ n.toInt8.toInt ≤ 7) | _ => false) = true := all8 (by decide +kernel)
  have h1 : ∀ n : UInt8, (match makeKeySignature n.toInt8 1 with
      | .ok (.keySignature b k _) => b == n.toInt8 && k == 1 && decide (-7 ≤ n.toInt8.toInt ∧ n.toInt8.toInt ≤ 7)
      | .panic => !decide (-7 ≤ n.toInt8.toInt ∧ n.toInt8.toInt ≤ 7) | _ => false) = true := all8 (by decide +kernel)
  have he : a.toUInt8.toInt8 = a := by simp
  have h0 := h0 a.toUInt8
  have h1 := h1 a.toUInt8
  rw [he] at h0 h1
  have use : ∀ k0 : UInt8, k0.toNat ≤ 1 → (match makeKeySignature a k0 with
      | .ok (.keySignature b k _) => b == a && k == k0 && decide (-7 ≤ a.toInt ∧ a.toInt ≤ 7)
      | .panic => !decide (-7 ≤ a.toInt ∧ a.toInt ≤ 7) | _ => false) = true →
      (∃ name, makeKeySignature a k0 = .ok (.keySignature a k0 name)) ∧ -7 ≤ a.toInt ∧ a.toInt ≤ 7 ∧ k0.toNat ≤ 1 ∨
      makeKeySignature a k0 = .panic ∧ ¬ (-7 ≤ a.toInt ∧ a.toInt ≤ 7 ∧ k0.toNat ≤ 1) := by
    intro k0 hk h
    split at h
    · rename_i b k name hm
      simp only [Bool.and_eq_true, beq_iff_eq, decide_eq_true_eq] at h
      obtain ⟨⟨rfl, rfl⟩, h⟩ := h
      exact Or.inl ⟨⟨name, hm⟩, h.1, h.2, hk⟩
    · rename_i hm
      simp only [Bool.not_eq_true', decide_eq_false_iff_not] at h
      exact Or.inr ⟨hm, fun hh => h ⟨hh.1, hh.2.1⟩⟩
    · cases h
  by_cases k0 : k = 0
  · subst k0; exact use 0 (by decide) h0
  by_cases k1 : k = 1
  · subst k1; exact use 1 (by decide) h1
  right
  refine ⟨?_, fun h => ?_⟩
  · unfold makeKeySignature
    rw [if_neg (show ¬ k = Lib.Major from k0), if_neg (show ¬ k = Lib.Minor from k1)]
  · have := h.2.2
    rcases Nat.lt_or_ge k.toNat 1 with h' | h'
    · exact k0 (UInt8.toNat_inj.mp (by show k.toNat = 0; omega))
    · exact k1 (UInt8.toNat_inj.mp (by show k.toNat = 1; omega))

theorem gt_nat (a n : UInt8) : a > n ↔ n.toNat < a.toNat := UInt8.lt_iff_toNat_lt

theorem says_channel {vs : List Json} {ch : UInt8} (h : LastSays ChannelIs 0 vs ch) : ch.toNat ≤ 15 := by
  rcases h.2 with ⟨_, _, _, ⟨_, rfl⟩ | ⟨_, _, _, h⟩⟩ | ⟨_, rfl⟩
  · decide
  · omega
  · decide

/-! ### Events -/

/-- The body without names. -/
def Body.bare : Body → Body
  | .keySignature a k _ => .keySignature a k ""
  | .sequencerSpecific m d => .sequencerSpecific ⟨m.id, "", ""⟩ d
  | .noteOff ch n v => .noteOff ch ⟨n.value, "", ""⟩ v
  | .noteOn ch n v => .noteOn ch ⟨n.value, "", ""⟩ v
  | .controller ch c v => .controller ch ⟨c.id, ""⟩ v
  | .sysExMessage m d s => .sysExMessage ⟨m.id, "", ""⟩ d s
  | b => b

/-- What is read is what the members say. -/
theorem read_says (mc : MiddleC) (ms : List (List Nat × Json)) (delta : UInt32) (b : Body) :
    ∀ c ∈ jsonCases mc, c.2 (.obj ms) = .ok (delta, b) → b.tag = c.1 ∧ JsonSays (.obj ms) delta b := by
  have text : ∀ k, jsonText k (.obj ms) = .ok (delta, b) → b.tag = k.tag ∧ JsonSays (.obj ms) delta b := by
    intro k h
    unfold jsonText at h
    obtain ⟨d, h1, h⟩ := bound_ok h
    obtain ⟨s, h2, h⟩ := bound_ok h
    injection h with h
    injection h with e1 e2
    subst e1 e2
    obtain ⟨p1, p2⟩ := (prologue_iff ms _ _).mp h1
    refine ⟨rfl, p1, p2, ?_⟩
    have := (member_string ms _ _).mp h2
    cases k <;> exact this
  unfold jsonCases
  simp only [List.forall_mem_cons, List.not_mem_nil, false_imp_iff, implies_true, and_true]
  refine ⟨?_, text .text, text .copyright, text .trackName, text .instrumentName, text .lyric, text .marker, text .cuePoint, text .programName,
    text .deviceName, ?_, ?_, ?_, ?_, ?_, ?_, ?_, ?_, ?_, ?_, ?_, ?_, ?_, ?_, ?_, ?_, ?_, ?_⟩
  · intro h
    obtain ⟨d, h1, h⟩ := bound_ok h
    obtain ⟨n, h2, h⟩ := bound_ok h
    injection h with h
    injection h with e1 e2
    subst e1 e2
    obtain ⟨p1, p2⟩ := (prologue_iff ms _ _).mp h1
    exact ⟨rfl, p1, p2, (member_short ms _ _).mp h2⟩
  · intro h
    obtain ⟨d, h1, h⟩ := bound_ok h
    obtain ⟨n, h2, h⟩ := bound_ok h
    split at h
    · cases h
    rename_i hn
    unfold makeMIDIChannelPrefix at h
    rw [if_neg hn] at h
    injection h with h
    injection h with e1 e2
    subst e1 e2
    obtain ⟨p1, p2⟩ := (prologue_iff ms _ _).mp h1
    rw [gt_nat] at hn
    exact ⟨rfl, p1, p2, (member_byte ms _ _).mp h2, Nat.le_of_not_lt hn⟩
  · intro h
    obtain ⟨d, h1, h⟩ := bound_ok h
    obtain ⟨n, h2, h⟩ := bound_ok h
    split at h
    · cases h
    rename_i hn
    unfold makeMIDIPort at h
    rw [if_neg hn] at h
    injection h with h
    injection h with e1 e2
    subst e1 e2
    obtain ⟨p1, p2⟩ := (prologue_iff ms _ _).mp h1
    rw [gt_nat] at hn
    exact ⟨rfl, p1, p2, (member_byte ms _ _).mp h2, Nat.le_of_not_lt hn⟩
  · intro h
    obtain ⟨d, h1, h⟩ := bound_ok h
    obtain ⟨n, h2, h⟩ := bound_ok h
    injection h with h
    injection h with e1 e2
    subst e1 e2
    obtain ⟨p1, p2⟩ := (prologue_iff ms _ _).mp h1
    exact ⟨rfl, p1, p2, (member_word ms _ _).mp ⟨n, h2, rfl⟩⟩
  · intro h
    obtain ⟨d, h1, h⟩ := bound_ok h
    obtain ⟨v1, k1, h⟩ := bound_ok h
    obtain ⟨v2, k2, h⟩ := bound_ok h
    obtain ⟨v3, k3, h⟩ := bound_ok h
    obtain ⟨v4, k4, h⟩ := bound_ok h
    obtain ⟨x, hx, h⟩ := bound_ok h
    obtain ⟨rfl, q⟩ := (make_time _ _ _ _ _).mp hx
    injection h with h
    injection h with e1 e2
    subst e1 e2
    obtain ⟨p1, p2⟩ := (prologue_iff ms _ _).mp h1
    exact ⟨rfl, p1, p2, (member_byte ms _ _).mp k1, (member_byte ms _ _).mp k2, (member_byte ms _ _).mp k3, (member_byte ms _ _).mp k4, q⟩
  · intro h
    obtain ⟨d, h1, h⟩ := bound_ok h
    obtain ⟨a, k1, h⟩ := bound_ok h
    obtain ⟨k, k2, h⟩ := bound_ok h
    obtain ⟨x, hx, h⟩ := bound_ok h
    injection h with h
    injection h with e1 e2
    subst e1 e2
    obtain ⟨p1, p2⟩ := (prologue_iff ms _ _).mp h1
    rcases make_key (Int8.ofInt a) k with ⟨⟨name, hm⟩, q⟩ | ⟨hm, _⟩
    · rw [hx] at hm
      injection hm with hm
      subst hm
      exact ⟨rfl, p1, p2, (member_signed ms _ _).mp ⟨a, k1, rfl⟩, (member_byte ms _ _).mp k2, q⟩
    · rw [hx] at hm
      cases hm
  · intro h
    obtain ⟨d, h1, h⟩ := bound_ok h
    obtain ⟨v1, k1, h⟩ := bound_ok h
    obtain ⟨v2, k2, h⟩ := bound_ok h
    obtain ⟨v3, k3, h⟩ := bound_ok h
    obtain ⟨v4, k4, h⟩ := bound_ok h
    obtain ⟨v5, k5, h⟩ := bound_ok h
    obtain ⟨v6, k6, h⟩ := bound_ok h
    obtain ⟨x, hx, h⟩ := bound_ok h
    obtain ⟨rfl, q⟩ := (make_smpte _ _ _ _ _ _ _).mp hx
    injection h with h
    injection h with e1 e2
    subst e1 e2
    obtain ⟨p1, p2⟩ := (prologue_iff ms _ _).mp h1
    exact ⟨rfl, p1, p2, (member_byte ms _ _).mp k1, (member_byte ms _ _).mp k2, (member_byte ms _ _).mp k3, (member_byte ms _ _).mp k4,
      (member_byte ms _ _).mp k5, (member_byte ms _ _).mp k6, q⟩
  · intro h
    obtain ⟨d, h1, h⟩ := bound_ok h
    injection h with h
    injection h with e1 e2
    subst e1 e2
    obtain ⟨p1, p2⟩ := (prologue_iff ms _ _).mp h1
    exact ⟨rfl, p1, p2, trivial⟩
  · intro h
    obtain ⟨d, h1, h⟩ := bound_ok h
    obtain ⟨m, k1, h⟩ := bound_ok h
    obtain ⟨data, k2, h⟩ := bound_ok h
    injection h with h
    injection h with e1 e2
    subst e1 e2
    obtain ⟨p1, p2⟩ := (prologue_iff ms _ _).mp h1
    exact ⟨rfl, p1, p2, (member_maker ms _).mp ⟨m, k1, rfl⟩, (member_data ms _).mp k2⟩
  · intro h
    obtain ⟨d, h1, h⟩ := bound_ok h
    obtain ⟨ch, k1, h⟩ := bound_ok h
    obtain ⟨n, k2, h⟩ := bound_ok h
    obtain ⟨v, k3, h⟩ := bound_ok h
    injection h with h
    injection h with e1 e2
    subst e1 e2
    obtain ⟨p1, p2⟩ := (prologue_iff ms _ _).mp h1
    exact ⟨rfl, p1, p2, (member_channel ms _).mp k1, (member_note ms _).mp k2, (member_byte ms _ _).mp k3⟩
  · intro h
    obtain ⟨d, h1, h⟩ := bound_ok h
    obtain ⟨ch, k1, h⟩ := bound_ok h
    obtain ⟨n, k2, h⟩ := bound_ok h
    obtain ⟨v, k3, h⟩ := bound_ok h
    obtain ⟨x, hx, h⟩ := bound_ok h
    unfold makeNoteOn at hx
    split at hx
    · cases hx
    split at hx
    · cases hx
    rename_i hv
    injection hx with hx
    subst hx
    injection h with h
    injection h with e1 e2
    subst e1 e2
    obtain ⟨p1, p2⟩ := (prologue_iff ms _ _).mp h1
    rw [gt_nat] at hv
    exact ⟨rfl, p1, p2, (member_channel ms _).mp k1, (member_note ms _).mp k2, (member_byte ms _ _).mp k3, Nat.le_of_not_lt hv⟩
  · intro h
    obtain ⟨d, h1, h⟩ := bound_ok h
    obtain ⟨ch, k1, h⟩ := bound_ok h
    obtain ⟨v, k3, h⟩ := bound_ok h
    obtain ⟨x, hx, h⟩ := bound_ok h
    unfold makePolyphonicPressure at hx
    split at hx
    · cases hx
    split at hx
    · cases hx
    rename_i hv
    injection hx with hx
    subst hx
    injection h with h
    injection h with e1 e2
    subst e1 e2
    obtain ⟨p1, p2⟩ := (prologue_iff ms _ _).mp h1
    rw [gt_nat] at hv
    exact ⟨rfl, p1, p2, (member_channel ms _).mp k1, (member_byte ms _ _).mp k3, Nat.le_of_not_lt hv⟩
  · intro h
    obtain ⟨d, h1, h⟩ := bound_ok h
    obtain ⟨ch, k1, h⟩ := bound_ok h
    obtain ⟨c, k2, h⟩ := bound_ok h
    obtain ⟨v, k3, h⟩ := bound_ok h
    obtain ⟨x, hx, h⟩ := bound_ok h
    unfold makeController at hx
    split at hx
    · cases hx
    injection hx with hx
    subst hx
    injection h with h
    injection h with e1 e2
    subst e1 e2
    obtain ⟨p1, p2⟩ := (prologue_iff ms _ _).mp h1
    exact ⟨rfl, p1, p2, (member_channel ms _).mp k1, (member_controller ms _).mp ⟨c, k2, rfl⟩, (member_byte ms _ _).mp k3⟩
  · intro h
    obtain ⟨d, h1, h⟩ := bound_ok h
    obtain ⟨ch, k1, h⟩ := bound_ok h
    obtain ⟨c, k2, h⟩ := bound_ok h
    obtain ⟨v, k3, h⟩ := bound_ok h
    obtain ⟨x, hx, h⟩ := bound_ok h
    unfold makeProgramChange at hx
    split at hx
    · cases hx
    injection hx with hx
    subst hx
    injection h with h
    injection h with e1 e2
    subst e1 e2
    obtain ⟨p1, p2⟩ := (prologue_iff ms _ _).mp h1
    exact ⟨rfl, p1, p2, (member_channel ms _).mp k1, (member_short ms _ _).mp k2, (member_byte ms _ _).mp k3⟩
  · intro h
    obtain ⟨d, h1, h⟩ := bound_ok h
    obtain ⟨ch, k1, h⟩ := bound_ok h
    obtain ⟨v, k3, h⟩ := bound_ok h
    obtain ⟨x, hx, h⟩ := bound_ok h
    unfold makeChannelPressure at hx
    split at hx
    · cases hx
    split at hx
    · cases hx
    rename_i hv
    injection hx with hx
    subst hx
    injection h with h
    injection h with e1 e2
    subst e1 e2
    obtain ⟨p1, p2⟩ := (prologue_iff ms _ _).mp h1
    rw [gt_nat] at hv
    exact ⟨rfl, p1, p2, (member_channel ms _).mp k1, (member_byte ms _ _).mp k3, Nat.le_of_not_lt hv⟩
  · intro h
    obtain ⟨d, h1, h⟩ := bound_ok h
    obtain ⟨ch, k1, h⟩ := bound_ok h
    obtain ⟨v, k3, h⟩ := bound_ok h
    obtain ⟨x, hx, h⟩ := bound_ok h
    unfold makePitchBend at hx
    split at hx
    · cases hx
    injection hx with hx
    subst hx
    injection h with h
    injection h with e1 e2
    subst e1 e2
    obtain ⟨p1, p2⟩ := (prologue_iff ms _ _).mp h1
    exact ⟨rfl, p1, p2, (member_channel ms _).mp k1, (member_short ms _ _).mp k3⟩
  · intro h
    obtain ⟨d, h1, h⟩ := bound_ok h
    obtain ⟨m, k1, h⟩ := bound_ok h
    obtain ⟨data, k2, h⟩ := bound_ok h
    obtain ⟨s, k3, h⟩ := bound_ok h
    injection h with h
    injection h with e1 e2
    subst e1 e2
    obtain ⟨p1, p2⟩ := (prologue_iff ms _ _).mp h1
    exact ⟨rfl, p1, p2, (member_maker ms _).mp ⟨m, k1, rfl⟩, (member_data ms _).mp k2, (member_bool ms _ _).mp k3⟩
  · intro h
    obtain ⟨d, h1, h⟩ := bound_ok h
    obtain ⟨data, k2, h⟩ := bound_ok h
    obtain ⟨s, k3, h⟩ := bound_ok h
    injection h with h
    injection h with e1 e2
    subst e1 e2
    obtain ⟨p1, p2⟩ := (prologue_iff ms _ _).mp h1
    exact ⟨rfl, p1, p2, (member_data ms _).mp k2, ⟨s, (member_bool ms _ _).mp k3⟩, rfl⟩
  · intro h
    obtain ⟨d, h1, h⟩ := bound_ok h
    obtain ⟨data, k2, h⟩ := bound_ok h
    injection h with h
    injection h with e1 e2
    subst e1 e2
    obtain ⟨p1, p2⟩ := (prologue_iff ms _ _).mp h1
    exact ⟨rfl, p1, p2, (member_data ms _).mp k2⟩

/-- What the members say is read, but for the names. -/
theorem says_read (mc : MiddleC) (ms : List (List Nat × Json)) (delta : UInt32) (b : Body) (h : JsonSays (.obj ms) delta b) :
    ∃ f b', (b.tag, f) ∈ jsonCases mc ∧ f (.obj ms) = .ok (delta, b') ∧ b'.bare = b.bare := by
  obtain ⟨p1, p2, h⟩ := h
  have p := (prologue_iff ms _ _).mpr ⟨p1, p2⟩
  cases b with
  | sequenceNumber n =>
    refine ⟨jsonSequenceNumber, .sequenceNumber n, by simp [jsonCases, Body.tag], ?_, rfl⟩
    unfold jsonSequenceNumber
    rw [show prologueJson "SequenceNumber" (.obj ms) = _ from p, Outcome.bind_ok, (member_short ms _ _).mpr h]
    rfl
  | text k s =>
    have h2 : field stringJson k.field [] (.obj ms) = .ok s := by
      rw [member_string]
      cases k <;> exact h
    refine ⟨jsonText k, .text k s, by cases k <;> simp [jsonCases, Body.tag, TextKind.tag], ?_, rfl⟩
    unfold jsonText
    rw [show prologueJson k.tag (.obj ms) = _ from p, Outcome.bind_ok, h2]
    rfl
  | midiChannelPrefix ch =>
    refine ⟨jsonMIDIChannelPrefix, .midiChannelPrefix ch, by simp [jsonCases, Body.tag], ?_, rfl⟩
    unfold jsonMIDIChannelPrefix makeMIDIChannelPrefix
    have hn : ¬ ch > 15 := by rw [gt_nat]; exact Nat.not_lt.mpr h.2
    rw [show prologueJson "MIDIChannelPrefix" (.obj ms) = _ from p, Outcome.bind_ok, (member_byte ms _ _).mpr h.1, Outcome.bind_ok, if_neg hn, if_neg hn]
    rfl
  | midiPort q =>
    refine ⟨jsonMIDIPort, .midiPort q, by simp [jsonCases, Body.tag], ?_, rfl⟩
    unfold jsonMIDIPort makeMIDIPort
    have hn : ¬ q > 127 := by rw [gt_nat]; exact Nat.not_lt.mpr h.2
    rw [show prologueJson "MIDIPort" (.obj ms) = _ from p, Outcome.bind_ok, (member_byte ms _ _).mpr h.1, Outcome.bind_ok, if_neg hn, if_neg hn]
    rfl
  | endOfTrack =>
    refine ⟨jsonEndOfTrack, .endOfTrack, by simp [jsonCases, Body.tag], ?_, rfl⟩
    unfold jsonEndOfTrack
    rw [show prologueJson "EndOfTrack" (.obj ms) = _ from p]
    rfl
  | tempo t =>
    obtain ⟨v, h1, rfl⟩ := (member_word ms _ _).mpr h
    refine ⟨jsonTempo, .tempo (UInt32.ofNat v), by simp [jsonCases, Body.tag], ?_, rfl⟩
    unfold jsonTempo
    rw [show prologueJson "Tempo" (.obj ms) = _ from p, Outcome.bind_ok, h1]
    rfl
  | smpteOffset hh m s r f ff =>
    obtain ⟨k1, k2, k3, k4, k5, k6, q⟩ := h
    refine ⟨jsonSMPTEOffset, .smpteOffset hh m s r f ff, by simp [jsonCases, Body.tag], ?_, rfl⟩
    unfold jsonSMPTEOffset
    rw [show prologueJson "SMPTEOffset" (.obj ms) = _ from p, Outcome.bind_ok, (member_byte ms _ _).mpr k1, Outcome.bind_ok, (member_byte ms _ _).mpr k2,
      Outcome.bind_ok, (member_byte ms _ _).mpr k3, Outcome.bind_ok, (member_byte ms _ _).mpr k4, Outcome.bind_ok, (member_byte ms _ _).mpr k5,
      Outcome.bind_ok, (member_byte ms _ _).mpr k6, Outcome.bind_ok, (make_smpte _ _ _ _ _ _ _).mpr ⟨rfl, q⟩]
    rfl
  | timeSignature n d c t =>
    obtain ⟨k1, k2, k3, k4, q⟩ := h
    refine ⟨jsonTimeSignature, .timeSignature n d c t, by simp [jsonCases, Body.tag], ?_, rfl⟩
    unfold jsonTimeSignature
    rw [show prologueJson "TimeSignature" (.obj ms) = _ from p, Outcome.bind_ok, (member_byte ms _ _).mpr k1, Outcome.bind_ok, (member_byte ms _ _).mpr k2,
      Outcome.bind_ok, (member_byte ms _ _).mpr k3, Outcome.bind_ok, (member_byte ms _ _).mpr k4, Outcome.bind_ok, (make_time _ _ _ _ _).mpr ⟨rfl, q⟩]
    rfl
  | keySignature a k name =>
    obtain ⟨k1, k2, q⟩ := h
    obtain ⟨v, k1', rfl⟩ := (member_signed ms _ _).mpr k1
    rcases make_key (Int8.ofInt v) k with ⟨⟨name', hm⟩, _⟩ | ⟨_, hn⟩
    · refine ⟨jsonKeySignature, .keySignature (Int8.ofInt v) k name', by simp [jsonCases, Body.tag], ?_, rfl⟩
      unfold jsonKeySignature
      rw [show prologueJson "KeySignature" (.obj ms) = _ from p, Outcome.bind_ok, k1', Outcome.bind_ok, (member_byte ms _ _).mpr k2, Outcome.bind_ok, hm]
      rfl
    · exact absurd q hn
  | sequencerSpecific m data =>
    obtain ⟨m', k1, hid⟩ := (member_maker ms _).mpr h.1
    refine ⟨jsonSequencerSpecific, .sequencerSpecific m' data, by simp [jsonCases, Body.tag], ?_, by simp only [Body.bare, hid]⟩
    unfold jsonSequencerSpecific
    rw [show prologueJson "SequencerSpecificEvent" (.obj ms) = _ from p, Outcome.bind_ok, k1, Outcome.bind_ok, (member_data ms _).mpr h.2]
    rfl
  | noteOff ch n v =>
    obtain ⟨k1, k2, k3⟩ := h
    refine ⟨jsonNoteOff mc, .noteOff ch ⟨n.value, formatNoteNil mc n.value, formatNoteNil mc n.value⟩ v, by simp [jsonCases, Body.tag], ?_, rfl⟩
    unfold jsonNoteOff
    rw [show prologueJson "NoteOff" (.obj ms) = _ from p, Outcome.bind_ok, (member_channel ms _).mpr k1, Outcome.bind_ok, (member_note ms _).mpr k2,
      Outcome.bind_ok, (member_byte ms _ _).mpr k3]
    rfl
  | noteOn ch n v =>
    obtain ⟨k1, k2, k3, hv⟩ := h
    have hc : ¬ ch > 15 := by rw [gt_nat]; exact Nat.not_lt.mpr (says_channel k1)
    have hv : ¬ v > 127 := by rw [gt_nat]; exact Nat.not_lt.mpr hv
    refine ⟨jsonNoteOn mc, .noteOn ch ⟨n.value, formatNoteNil mc n.value, formatNoteNil mc n.value⟩ v, by simp [jsonCases, Body.tag], ?_, rfl⟩
    unfold jsonNoteOn makeNoteOn
    rw [show prologueJson "NoteOn" (.obj ms) = _ from p, Outcome.bind_ok, (member_channel ms _).mpr k1, Outcome.bind_ok, (member_note ms _).mpr k2,
      Outcome.bind_ok, (member_byte ms _ _).mpr k3, Outcome.bind_ok, if_neg hc, if_neg hv]
    rfl
  | polyphonicPressure ch v =>
    obtain ⟨k1, k3, hv⟩ := h
    have hc : ¬ ch > 15 := by rw [gt_nat]; exact Nat.not_lt.mpr (says_channel k1)
    have hv : ¬ v > 127 := by rw [gt_nat]; exact Nat.not_lt.mpr hv
    refine ⟨jsonPolyphonicPressure, .polyphonicPressure ch v, by simp [jsonCases, Body.tag], ?_, rfl⟩
    unfold jsonPolyphonicPressure makePolyphonicPressure
    rw [show prologueJson "PolyphonicPressure" (.obj ms) = _ from p, Outcome.bind_ok, (member_channel ms _).mpr k1,
      Outcome.bind_ok, (member_byte ms _ _).mpr k3, Outcome.bind_ok, if_neg hc, if_neg hv]
    rfl
  | controller ch c v =>
    obtain ⟨k1, k2, k3⟩ := h
    have hc : ¬ ch > 15 := by rw [gt_nat]; exact Nat.not_lt.mpr (says_channel k1)
    obtain ⟨c', k2, hid⟩ := (member_controller ms _).mpr k2
    refine ⟨jsonController, .controller ch c' v, by simp [jsonCases, Body.tag], ?_, by simp only [Body.bare, hid]⟩
    unfold jsonController makeController
    rw [show prologueJson "Controller" (.obj ms) = _ from p, Outcome.bind_ok, (member_channel ms _).mpr k1, Outcome.bind_ok, k2,
      Outcome.bind_ok, (member_byte ms _ _).mpr k3, Outcome.bind_ok, if_neg hc]
    rfl
  | programChange ch bank v =>
    obtain ⟨k1, k2, k3⟩ := h
    have hc : ¬ ch > 15 := by rw [gt_nat]; exact Nat.not_lt.mpr (says_channel k1)
    refine ⟨jsonProgramChange, .programChange ch bank v, by simp [jsonCases, Body.tag], ?_, rfl⟩
    unfold jsonProgramChange makeProgramChange
    rw [show prologueJson "ProgramChange" (.obj ms) = _ from p, Outcome.bind_ok, (member_channel ms _).mpr k1, Outcome.bind_ok, (member_short ms _ _).mpr k2,
      Outcome.bind_ok, (member_byte ms _ _).mpr k3, Outcome.bind_ok, if_neg hc]
    rfl
  | channelPressure ch v =>
    obtain ⟨k1, k3, hv⟩ := h
    have hc : ¬ ch > 15 := by rw [gt_nat]; exact Nat.not_lt.mpr (says_channel k1)
    have hv : ¬ v > 127 := by rw [gt_nat]; exact Nat.not_lt.mpr hv
    refine ⟨jsonChannelPressure, .channelPressure ch v, by simp [jsonCases, Body.tag], ?_, rfl⟩
    unfold jsonChannelPressure makeChannelPressure
    rw [show prologueJson "ChannelPressure" (.obj ms) = _ from p, Outcome.bind_ok, (member_channel ms _).mpr k1,
      Outcome.bind_ok, (member_byte ms _ _).mpr k3, Outcome.bind_ok, if_neg hc, if_neg hv]
    rfl
  | pitchBend ch v =>
    obtain ⟨k1, k3⟩ := h
    have hc : ¬ ch > 15 := by rw [gt_nat]; exact Nat.not_lt.mpr (says_channel k1)
    refine ⟨jsonPitchBend, .pitchBend ch v, by simp [jsonCases, Body.tag], ?_, rfl⟩
    unfold jsonPitchBend makePitchBend
    rw [show prologueJson "PitchBend" (.obj ms) = _ from p, Outcome.bind_ok, (member_channel ms _).mpr k1,
      Outcome.bind_ok, (member_short ms _ _).mpr k3, Outcome.bind_ok, if_neg hc]
    rfl
  | sysExMessage m data single =>
    obtain ⟨k1, k2, k3⟩ := h
    obtain ⟨m', k1, hid⟩ := (member_maker ms _).mpr k1
    refine ⟨jsonSysExMessage, .sysExMessage m' data single, by simp [jsonCases, Body.tag], ?_, by simp only [Body.bare, hid]⟩
    unfold jsonSysExMessage
    rw [show prologueJson "SysExMessage" (.obj ms) = _ from p, Outcome.bind_ok, k1, Outcome.bind_ok, (member_data ms _).mpr k2, Outcome.bind_ok,
      (member_bool ms _ _).mpr k3]
    rfl
  | sysExContinuation data last =>
    obtain ⟨k1, ⟨x, k2⟩, rfl⟩ := h
    refine ⟨jsonSysExContinuation, .sysExContinuation data false, by simp [jsonCases, Body.tag], ?_, rfl⟩
    unfold jsonSysExContinuation
    rw [show prologueJson "SysExContinuation" (.obj ms) = _ from p, Outcome.bind_ok, (member_data ms _).mpr k1, Outcome.bind_ok,
      (member_bool ms _ _).mpr k2]
    rfl
  | sysExEscape data =>
    refine ⟨jsonSysExEscape, .sysExEscape data, by simp [jsonCases, Body.tag], ?_, rfl⟩
    unfold jsonSysExEscape
    rw [show prologueJson "SysExEscape" (.obj ms) = _ from p, Outcome.bind_ok, (member_data ms _).mpr h]
    rfl

end Midiasm
