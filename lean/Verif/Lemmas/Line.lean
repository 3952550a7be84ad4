import Verif.Lemmas.Regex
import Verif.Model.EventText
import Verif.Model.Print

/-!
The printed line of an event: its parts, and the start of every pattern on it.
-/

set_option linter.unusedSimpArgs false

namespace Midiasm
open Spec

/-! ### Columns -/

theorem pad_eq (w : Int) (s : Bytes) : ∃ k, pad w s = s ++ List.replicate k 32 := by
  unfold pad
  split
  · exact ⟨0, by simp⟩
  · exact ⟨_, rfl⟩

theorem runes_ascii (s : Bytes) (h : ∀ b ∈ s, b.toNat < 128) : runes s = s.map UInt8.toNat := by
  induction s with
  | nil => rfl
  | cons b s ih =>
    rw [runes_cons, decodeRune_ascii b s (h b (by simp))]
    simp only [List.drop_zero, List.map_cons]
    rw [ih (fun x hx => h x (by simp [hx]))]

theorem ofRunes_ascii (s : Bytes) (h : ∀ b ∈ s, b.toNat < 128) : ofRunes (s.map UInt8.toNat) = s := by
  induction s with
  | nil => rfl
  | cons b s ih =>
    have hb := h b (by simp)
    have : ofRunes ((b :: s).map UInt8.toNat) = encodeRune b.toNat ++ ofRunes (s.map UInt8.toNat) := by simp [ofRunes]
    rw [this, ih (fun x hx => h x (by simp [hx]))]
    unfold encodeRune
    rw [if_pos (by omega)]
    simp

/-- Bytes of the hexadecimal column. -/
def hexAlphabet : Bytes := str "0123456789ABCDEF …"

theorem hex2_alphabet (b : UInt8) : ∀ c ∈ hex2 b, c ∈ str "0123456789ABCDEF" :=
  all8 (P := fun b => ∀ c ∈ hex2 b, c ∈ str "0123456789ABCDEF") (by decide +kernel) b

theorem mem_trimSpace (s : Bytes) (c : UInt8) (h : c ∈ trimSpace s) : c ∈ s := by
  unfold trimSpace at h
  rw [List.mem_reverse] at h
  have h1 := (List.dropWhile_sublist _).subset h
  rw [List.mem_reverse] at h1
  exact (List.dropWhile_sublist _).subset h1

theorem hexString_alphabet (bs : Bytes) : ∀ c ∈ hexString bs, c ∈ str "0123456789ABCDEF " := by
  intro c hc
  have := mem_trimSpace _ c hc
  obtain ⟨b, _, hb⟩ := List.mem_flatMap.mp this
  have hsub : ∀ c ∈ str "0123456789ABCDEF", c ∈ str "0123456789ABCDEF " := by decide +kernel
  rcases List.mem_append.mp hb with hb | hb
  · exact hsub c (hex2_alphabet b c hb)
  · rw [List.mem_singleton] at hb; subst hb; decide +kernel

theorem printHex_alphabet (bytes h : Bytes) (hp : printHex bytes = .ok h) : ∀ c ∈ h, c ∈ hexAlphabet := by
  unfold printHex at hp
  split at hp
  · rename_i s hs
    simp at hp
    subst hp
    have hsp : ∀ c ∈ str "   ", c ∈ str "0123456789ABCDEF " := by decide +kernel
    have hs' : ∀ c ∈ s, c ∈ str "0123456789ABCDEF " := by
      unfold valign at hs
      cases hv : valignLoop bytes 0 with
      | ok ix =>
        rw [hv] at hs
        simp only [Outcome.bind_ok, Outcome.ok.injEq] at hs
        subst hs
        intro c hc
        rcases List.mem_append.mp hc with hc | hc
        · split at hc
          · obtain ⟨l, hl, hc⟩ := List.mem_flatten.mp hc
            rw [List.eq_of_mem_replicate hl] at hc
            exact hsp c hc
          · simp at hc
        · exact hexString_alphabet bytes c hc
      | err e => rw [hv] at hs; simp at hs
      | panic => rw [hv] at hs; simp at hs
      | diverge => rw [hv] at hs; simp at hs
    have hasc : ∀ c ∈ str "0123456789ABCDEF ", c.toNat < 128 := by decide +kernel
    have hall : ∀ c ∈ str "0123456789ABCDEF ", c ∈ hexAlphabet := by decide +kernel
    have hell : ∀ c ∈ str "…", c ∈ hexAlphabet := by decide +kernel
    have he : ∀ c ∈ ellipsize s 42, c ∈ hexAlphabet := by
      intro c hc
      unfold ellipsize at hc
      rw [if_neg (by decide)] at hc
      rw [runes_ascii s (fun b hb => hasc b (hs' b hb))] at hc
      split at hc
      · rw [ofRunes_ascii s (fun b hb => hasc b (hs' b hb))] at hc
        exact hall c (hs' c hc)
      · rw [← List.map_take] at hc
        rcases List.mem_append.mp hc with hc | hc
        · rw [ofRunes_ascii _ (fun b hb => hasc b (hs' b (List.mem_of_mem_take hb)))] at hc
          exact hall c (hs' c (List.mem_of_mem_take hc))
        · exact hell c hc
    obtain ⟨k, hk⟩ := pad_eq 42 (ellipsize s 42)
    rw [hk]
    intro c hc
    rcases List.mem_append.mp hc with hc | hc
    · exact he c hc
    · rw [List.eq_of_mem_replicate hc]; decide +kernel
  · simp at hp

/-- Bytes of the columns before the delta time. -/
def prefixAlphabet : Bytes := hexAlphabet ++ str "tick:"

theorem dec_alphabet (n : Nat) : ∀ c ∈ dec n, c ∈ str "0123456789" := by
  intro c hc
  have := dec_digits n c hc
  have h8 : ∀ c : UInt8, 48 ≤ c ∧ c ≤ 57 → c ∈ str "0123456789" :=
    fun c => all8 (P := fun c => 48 ≤ c ∧ c ≤ 57 → c ∈ str "0123456789") (by decide +kernel) c
  exact h8 c this

/-- The parts of an event line. -/
theorem printEvent_eq (e : Event) (line : Bytes) (h : printEvent e = .ok line) :
    ∃ (pre : Bytes) (k : Nat), (∀ c ∈ pre, c ∈ prefixAlphabet) ∧
      line = pre ++ (str "delta:" ++ dec e.delta.toNat ++ List.replicate (k + 2) 32 ++ printBody e.body) := by
  unfold printEvent at h
  cases hx : printHex e.bytes with
  | ok hex =>
    rw [hx] at h
    simp only [Outcome.bind_ok, Outcome.ok.injEq] at h
    obtain ⟨k1, h1⟩ := pad_eq 9 (dec e.tick.toNat)
    obtain ⟨k2, h2⟩ := pad_eq 9 (dec e.delta.toNat)
    refine ⟨hex ++ str "  tick:" ++ (dec e.tick.toNat ++ List.replicate k1 32) ++ str "  ", k2, ?_, ?_⟩
    · intro c hc
      simp only [List.mem_append] at hc
      have ha : ∀ c ∈ hexAlphabet, c ∈ prefixAlphabet := fun c hc => List.mem_append_left _ hc
      have hb : ∀ c ∈ str "  tick:", c ∈ prefixAlphabet := by decide +kernel
      have hd : ∀ c ∈ str "0123456789", c ∈ prefixAlphabet := by decide +kernel
      have hs : (32 : UInt8) ∈ prefixAlphabet := by decide +kernel
      have hs2 : ∀ c ∈ str "  ", c ∈ prefixAlphabet := by decide +kernel
      rcases hc with ((hc | hc) | (hc | hc)) | hc
      · exact ha c (printHex_alphabet _ _ hx c hc)
      · exact hb c hc
      · exact hd c (dec_alphabet _ c hc)
      · rw [List.eq_of_mem_replicate hc]; exact hs
      · exact hs2 c hc
    · rw [← h, h1, h2]
      have : str "  delta:" = str "  " ++ str "delta:" := by decide +kernel
      have h32 : str "  " = [32, 32] := by decide +kernel
      rw [this, h32]
      simp only [List.append_assoc, List.replicate_add]
      rfl
  | err e => rw [hx] at h; simp at h
  | panic => rw [hx] at h; simp at h
  | diverge => rw [hx] at h; simp at h

/-! ### The start of the patterns -/

theorem foldTok_single (c b : UInt8) : foldTok c [b] = decide (lower b = lower c) := rfl

theorem fold_l (t : Tok) (h : (108 : UInt8) ∉ t) (h' : (76 : UInt8) ∉ t) : foldTok 108 t = false := by
  match t with
  | [] => decide
  | [b] =>
    have : ∀ b : UInt8, b ≠ 108 → b ≠ 76 → foldTok 108 [b] = false :=
      fun b => all8 (P := fun b => b ≠ 108 → b ≠ 76 → foldTok 108 [b] = false) (by decide +kernel) b
    exact this b (by intro e; subst e; simp at h) (by intro e; subst e; simp at h')
  | a :: b :: r =>
    have h1 : ((lower 108 = 107 : Bool)) = false := by decide
    have h2 : ((lower 108 = 115 : Bool)) = false := by decide
    simp only [foldTok, h1, h2, Bool.false_and, Bool.or_self]

theorem prefix_toks (pre : Bytes) (h : ∀ c ∈ pre, c ∈ prefixAlphabet) : ∀ t ∈ toks pre, foldTok 108 t = false := by
  have h1 : (108 : UInt8) ∉ prefixAlphabet := by decide +kernel
  have h2 : (76 : UInt8) ∉ prefixAlphabet := by decide +kernel
  intro t ht
  exact fold_l t (fun hb => h1 (h _ (mem_toks pre t _ ht hb))) (fun hb => h2 (h _ (mem_toks pre t _ ht hb)))

/-- The gap between the delta time and the tag does not contain the second character of the tag. -/
def gapOk (tag : String) (x : UInt8) : Bool :=
  match str tag with
  | c0 :: c1 :: _ => (hex2 x ++ [32, c0]).all (fun b => decide (lower b ≠ lower c1)) && (str tag).all (fun b => decide (b.toNat < 128))
  | _ => false

/-- The match of a pattern on an event line follows from the match of what comes after the tag. -/
theorem find_line (pre : Bytes) (d k : Nat) (x : UInt8) (tag : String) (rest : Bytes) (is : List Item) (gs : List Bytes) (o : Option Bytes)
    (hpre : ∀ c ∈ pre, c ∈ prefixAlphabet) (hgap : gapOk tag x = true)
    (hm : matchAt is ⟨[dec d], none⟩ (toks rest) = some ⟨gs, o⟩) :
    findSubmatch (deltaPattern ++ (ilit tag ++ is))
      (pre ++ (str "delta:" ++ dec d ++ List.replicate (k + 2) 32 ++ (hex2 x ++ [32] ++ str tag ++ rest))) = some gs := by
  unfold gapOk at hgap
  split at hgap
  · rename_i c0 c1 cs htag
    rw [Bool.and_eq_true, List.all_eq_true, List.all_eq_true] at hgap
    obtain ⟨hg, hasc⟩ := hgap
    have hdasc : ∀ b ∈ dec d, b.toNat < 128 := by
      have : ∀ b ∈ str "0123456789", b.toNat < 128 := by decide +kernel
      exact fun b hb => this b (dec_alphabet d b hb)
    have hxasc : ∀ b ∈ hex2 x, b.toNat < 128 := by
      have : ∀ b ∈ str "0123456789ABCDEF", b.toNat < 128 := by decide +kernel
      exact fun b hb => this b (hex2_alphabet x b hb)
    have hdelta : str "delta:" = [100, 101, 108, 116, 97, 58] := by decide +kernel
    have hdl : ∀ b ∈ str "delta:", b.toNat < 128 := by decide +kernel
    have htoks : toks (pre ++ (str "delta:" ++ dec d ++ List.replicate (k + 2) 32 ++ (hex2 x ++ [32] ++ str tag ++ rest))) =
        toks pre ++ (sing (str "delta:") ++ (sing (dec d) ++ (sing (List.replicate (k + 2) 32 ++ hex2 x ++ [32]) ++
          (sing (str tag) ++ toks rest)))) := by
      have e1 : str "delta:" ++ dec d ++ List.replicate (k + 2) 32 ++ (hex2 x ++ [32] ++ str tag ++ rest) =
          (str "delta:" ++ dec d ++ (List.replicate (k + 2) 32 ++ hex2 x ++ [32]) ++ str tag) ++ rest := by
        simp only [List.append_assoc]
      have e2 : ∀ z : Bytes, toks (pre ++ (str "delta:" ++ z)) = toks pre ++ toks (str "delta:" ++ z) := by
        intro z
        rw [hdelta]
        exact toks_append pre 100 _ (by decide)
      rw [e1, List.append_assoc, List.append_assoc, List.append_assoc, e2, ← List.append_assoc, ← List.append_assoc, ← List.append_assoc,
        toks_ascii]
      · simp only [sing_append, List.append_assoc]
      · intro b hb
        simp only [List.mem_append, List.mem_singleton] at hb
        rcases hb with ((hb | hb) | ((hb | hb) | hb)) | hb
        · exact hdl b hb
        · exact hdasc b hb
        · rw [List.eq_of_mem_replicate hb]; decide
        · exact hxasc b hb
        · subst hb; decide
        · simpa using hasc b hb
    unfold findSubmatch
    rw [htoks]
    have hne : ∀ b ∈ List.replicate (k + 2) 32 ++ hex2 x ++ [32], lower b ≠ lower c1 := by
      intro b hb
      simp only [List.mem_append, List.mem_singleton] at hb
      have h32 := hg 32 (by simp)
      simp only [decide_eq_true_eq] at h32
      rcases hb with (hb | hb) | hb
      · rw [List.eq_of_mem_replicate hb]; exact h32
      · have := hg b (by simp [hb])
        simpa using this
      · subst hb; exact h32
    have hstart : findToks (deltaPattern ++ (ilit tag ++ is)) (toks pre ++ (sing (str "delta:") ++ (sing (dec d) ++
        (sing (List.replicate (k + 2) 32 ++ hex2 x ++ [32]) ++ (sing (str tag) ++ toks rest))))) = some ⟨gs, o⟩ := by
      have hmain : matchAt (deltaPattern ++ (ilit tag ++ is)) ⟨[], none⟩ (sing (str "delta:") ++ (sing (dec d) ++
          (sing (List.replicate (k + 2) 32 ++ hex2 x ++ [32]) ++ (sing (str tag) ++ toks rest)))) = some ⟨gs, o⟩ := by
        unfold deltaPattern
        rw [List.append_assoc, List.append_assoc]
        refine m_ilit "delta:" ?_
        refine m_number d ?_ ?_
        · intro t ht
          have : (sing (List.replicate (k + 2) 32 ++ hex2 x ++ [32]) ++ (sing (str tag) ++ toks rest)).head? = some [32] := by
            simp [sing, List.replicate_succ]
          rw [this] at ht
          simp at ht
          subst ht
          decide
        · have hil : ilit tag ++ is = Item.chr (foldTok c0) :: Item.chr (foldTok c1) :: (cs.map (fun c => Item.chr (foldTok c)) ++ is) := by
            simp [ilit, htag]
          have hm2 : matchAt (ilit tag ++ is) ⟨[dec d], none⟩ (sing (str tag) ++ toks rest) = some ⟨gs, o⟩ := m_ilit tag hm
          rw [hil] at hm2 ⊢
          refine m_skip c0 c1 (sing (List.replicate (k + 2) 32 ++ hex2 x ++ [32])) _ ?_ ?_ ?_ hm2
          · intro t ht
            obtain ⟨b, hb, rfl⟩ := List.mem_map.mp ht
            unfold anyTok
            rw [decide_eq_true_eq]
            intro e
            simp only [List.cons.injEq, and_true] at e
            subst e
            have hx10 : ∀ b ∈ str "0123456789ABCDEF", b ≠ 10 := by decide +kernel
            simp only [List.mem_append, List.mem_singleton] at hb
            rcases hb with (hb | hb) | hb
            · exact absurd (List.eq_of_mem_replicate hb) (by decide)
            · exact hx10 10 (hex2_alphabet x 10 hb) rfl
            · exact absurd hb (by decide)
          · intro t ht
            obtain ⟨b, hb, rfl⟩ := List.mem_map.mp ht
            rw [foldTok_single, decide_eq_false_iff_not]
            exact hne b hb
          · intro t ht
            rw [htag] at ht
            simp [sing] at ht
            subst ht
            rw [foldTok_single, decide_eq_false_iff_not]
            have := hg c0 (by simp)
            simpa using this
      have hd3 : deltaPattern ++ (ilit tag ++ is) = Item.chr (foldTok 100) :: Item.chr (foldTok 101) :: Item.chr (foldTok 108) ::
          ((str "ta:").map (fun c => Item.chr (foldTok c)) ++ number ++ [.star anyTok false] ++ (ilit tag ++ is)) := by
        have : str "ta:" = [116, 97, 58] := by decide +kernel
        simp [deltaPattern, ilit, hdelta, this]
      rw [hd3] at hmain ⊢
      rw [hdelta] at hmain ⊢
      exact find_third 100 101 108 [100] [101] (toks pre) _ (prefix_toks pre hpre) (by decide) (by decide) hmain
    rw [hstart]
    rfl
  · simp at hgap

end Midiasm
