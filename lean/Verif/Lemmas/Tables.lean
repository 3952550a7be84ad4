import Verif.Model.Tables
import Verif.Lemmas.Basic

/-!
Facts about the manufacturer and controller tables.
-/

namespace Midiasm
namespace Lib

theorem hexDigit_inj : ∀ a b : Fin 16, hexDigit (UInt8.ofNat a) = hexDigit (UInt8.ofNat b) → a = b := by
  decide +kernel

theorem hexDigit_inj' {a b : UInt8} (ha : a.toNat < 16) (hb : b.toNat < 16) (h : hexDigit a = hexDigit b) : a = b := by
  have := hexDigit_inj ⟨a.toNat, ha⟩ ⟨b.toNat, hb⟩ (by simpa using h)
  exact u8_ext (by simpa using this)

theorem hex2_toList (a : UInt8) : (hex2 a).toList = [hexDigit (a / 16), hexDigit (a % 16)] := by
  simp [hex2]

theorem u8_div_mod_inj {a b : UInt8} (h1 : a / 16 = b / 16) (h2 : a % 16 = b % 16) : a = b := by
  apply u8_ext
  have h1 := congrArg UInt8.toNat h1
  have h2 := congrArg UInt8.toNat h2
  simp at h1 h2
  omega

theorem hexPair_inj {a b : UInt8} (h1 : hexDigit (a / 16) = hexDigit (b / 16)) (h2 : hexDigit (a % 16) = hexDigit (b % 16)) :
    a = b := by
  have la := a.toNat_lt
  have lb := b.toNat_lt
  apply u8_div_mod_inj
  · exact hexDigit_inj' (by simp; omega) (by simp; omega) h1
  · exact hexDigit_inj' (by simp; omega) (by simp; omega) h2

theorem hex2_inj {a b : UInt8} (h : hex2 a = hex2 b) : a = b := by
  have h := congrArg String.toList h
  rw [hex2_toList, hex2_toList] at h
  simp at h
  exact hexPair_inj h.1 h.2

theorem hex22_inj {a b c d : UInt8} (h : hex2 a ++ hex2 b = hex2 c ++ hex2 d) : a = c ∧ b = d := by
  have h := congrArg String.toList h
  simp only [String.toList_append, hex2_toList] at h
  simp at h
  exact ⟨hexPair_inj h.1 h.2.1, hexPair_inj h.2.2.1 h.2.2.2⟩

theorem hex2_ne_hex22 {a b c : UInt8} : hex2 a ≠ hex2 b ++ hex2 c := by
  intro h
  have h := congrArg String.toList h
  simp only [String.toList_append, hex2_toList] at h
  simp at h

/-- The table key is the hexadecimal form of the ID. -/
def wellKeyed (e : String × Manufacturer) : Bool :=
  match e.2.id with
  | [a] => e.1 == hex2 a
  | [a, b, c] => a == 0 && e.1 == hex2 b ++ hex2 c
  | _ => false

theorem manufacturers_wellKeyed : ∀ e ∈ manufacturers, e.1 ≠ "7F" → wellKeyed e = true := by
  decide +kernel

theorem hex2_7f : hex2 0x7f = "7F" := by decide +kernel

theorem lookupKey_some {table : List (String × Manufacturer)} {k : String} {m : Manufacturer}
    (h : lookupKey table k = some m) : (k, m) ∈ table := by
  unfold lookupKey at h
  rw [Option.map_eq_some_iff] at h
  obtain ⟨e, he, rfl⟩ := h
  have h1 := List.mem_of_find?_eq_some he
  have h2 := List.find?_some he
  simp at h2
  rw [← h2]; exact h1

/-- The ID of a looked up manufacturer. -/
theorem lookupManufacturer_id1 (a : UInt8) :
    (lookupManufacturer [a]).id = if a = 0x7f then [0x7e] else [a] := by
  by_cases ha : a = 0x7f
  · subst ha; decide +kernel
  · rw [if_neg ha, lookupManufacturer, lookupManufacturerIn]
    cases h : lookupKey manufacturers (hex2 a) with
    | none => rfl
    | some m =>
      have hm := lookupKey_some h
      have hw := manufacturers_wellKeyed _ hm (by
        intro hk; apply ha; apply hex2_inj; rw [hex2_7f]; exact hk)
      simp only [Option.getD_some]
      unfold wellKeyed at hw
      split at hw
      · rename_i x hx
        simp at hw
        rw [hx, hex2_inj hw]
      · simp at hw
        exact absurd hw.2 hex2_ne_hex22
      · simp at hw

theorem lookupManufacturer_id3 (b c : UInt8) : (lookupManufacturer [0, b, c]).id = [0, b, c] := by
  rw [lookupManufacturer, lookupManufacturerIn]
  cases h : lookupKey manufacturers (hex2 b ++ hex2 c) with
  | none => rfl
  | some m =>
    have hm := lookupKey_some h
    have hw := manufacturers_wellKeyed _ hm (by
      intro hk
      simp only at hk
      rw [← hex2_7f] at hk
      exact hex2_ne_hex22 hk.symm)
    simp only [Option.getD_some]
    unfold wellKeyed at hw
    split at hw
    · simp at hw
      exact absurd hw.symm hex2_ne_hex22
    · rename_i x y z hx
      simp at hw
      obtain ⟨h1, h2⟩ := hex22_inj hw.2
      rw [hx, hw.1, h1, h2]
    · simp at hw

theorem controllers_wellKeyed : ∀ e ∈ controllers, e.2.id = e.1 := by decide +kernel

theorem lookupController_id (c : UInt8) : (lookupController c).id = c := by
  unfold lookupController
  split
  · rename_i e he
    have h1 := List.mem_of_find?_eq_some he
    have h2 := List.find?_some he
    simp at h2
    rw [controllers_wellKeyed e h1, h2]
  · rfl

end Lib
end Midiasm
