import Verif.Model.Regex
import Verif.Lemmas.Text

/-!
Matching: runes of a string, and one rule per pattern item.
-/

set_option linter.unusedSimpArgs false

namespace Midiasm

/-! ### Runes -/

/-- A string of one-byte runes. -/
def sing (s : Bytes) : List Tok := s.map fun b => [b]

theorem sing_append (a b : Bytes) : sing (a ++ b) = sing a ++ sing b := by simp [sing]

theorem toksAux_stable (f : Nat) : ∀ (g : Nat) (s : Bytes), s.length ≤ f → s.length ≤ g → toksAux f s = toksAux g s := by
  induction f with
  | zero =>
    intro g s h _
    have : s = [] := List.length_eq_zero_iff.mp (by omega)
    subst this
    cases g <;> rfl
  | succ f ih =>
    intro g s h hg
    cases s with
    | nil => cases g <;> rfl
    | cons b rest =>
      cases g with
      | zero => simp at hg
      | succ g =>
        simp only [toksAux]
        rw [ih g _ (by simp at h ⊢; omega) (by simp at hg ⊢; omega)]

theorem toks_nil : toks [] = [] := rfl

theorem toks_cons (b : UInt8) (rest : Bytes) :
    toks (b :: rest) = (b :: rest.take (decodeRune b rest).2) :: toks (rest.drop (decodeRune b rest).2) := by
  unfold toks
  simp only [List.length_cons, toksAux]
  rw [toksAux_stable rest.length _ _ (by simp) (Nat.le_refl _)]

theorem toks_flatten (s : Bytes) : (toks s).flatten = s := by
  generalize hn : s.length = n
  induction n using Nat.strongRecOn generalizing s with
  | _ n ih =>
    cases s with
    | nil => rfl
    | cons b rest =>
      rw [toks_cons, List.flatten_cons, ih _ (by simp at hn; simp; omega) _ rfl]
      simp

theorem decodeRune_ascii (b : UInt8) (rest : Bytes) (h : b.toNat < 128) : decodeRune b rest = (b.toNat, 0) := by
  unfold decodeRune
  rw [if_pos (by rw [UInt8.lt_iff_toNat_lt]; simpa using h)]

theorem toks_ascii_cons (b : UInt8) (rest : Bytes) (h : b.toNat < 128) : toks (b :: rest) = [b] :: toks rest := by
  rw [toks_cons, decodeRune_ascii b rest h]; simp

/-- ASCII characters are runes of their own. -/
theorem toks_ascii (a s : Bytes) (h : ∀ b ∈ a, b.toNat < 128) : toks (a ++ s) = sing a ++ toks s := by
  induction a with
  | nil => rfl
  | cons b a ih =>
    rw [List.cons_append, toks_ascii_cons _ _ (h b (by simp)), ih (fun x hx => h x (by simp [hx]))]
    rfl

/-- An ASCII character starts a new rune. -/
theorem toks_append (s : Bytes) (a : UInt8) (t : Bytes) (ha : a.toNat < 128) : toks (s ++ a :: t) = toks s ++ toks (a :: t) := by
  generalize hn : s.length = k
  induction k using Nat.strongRecOn generalizing s with
  | _ k ih =>
    cases s with
    | nil => rfl
    | cons b rest =>
      have h := decodeRune_append b rest a t ha
      rw [List.cons_append, toks_cons, toks_cons, h.1]
      rw [List.drop_append_of_le_length h.2, List.take_append_of_le_length h.2]
      rw [ih _ (by simp at hn; simp; omega) _ rfl]
      rfl

/-- The bytes of a rune of a string are bytes of the string. -/
theorem mem_toks (s : Bytes) (t : Tok) (b : UInt8) (ht : t ∈ toks s) (hb : b ∈ t) : b ∈ s := by
  rw [← toks_flatten s]
  exact List.mem_flatten.mpr ⟨t, ht, hb⟩

theorem toks_head (s : Bytes) (t : Tok) (h : (toks s).head? = some t) : ∃ b, s.head? = some b ∧ t.head? = some b := by
  cases s with
  | nil => simp [toks_nil] at h
  | cons b rest =>
    rw [toks_cons] at h
    simp at h
    subst h
    exact ⟨b, rfl, rfl⟩

theorem any_toks (s : Bytes) (h : (10 : UInt8) ∉ s) : ∀ t ∈ toks s, anyTok t = true := by
  intro t ht
  unfold anyTok
  rw [decide_eq_true_eq]
  intro e
  subst e
  exact h (mem_toks s _ 10 ht (by simp))

theorem spaceTok_head (s : Bytes) (h : ∀ b, s.head? = some b → reSpace b = false) :
    ∀ t, (toks s).head? = some t → spaceTok t = false := by
  intro t ht
  obtain ⟨b, hb, hb'⟩ := toks_head s t ht
  have := h b hb
  match t, hb' with
  | [x], hx =>
    simp at hx
    subst hx
    exact this
  | x :: y :: z, _ => rfl

/-! ### Rules -/

/-- Runes taken in by a group. -/
def Caps.eats (c : Caps) (ts : List Tok) : Caps := ts.foldl Caps.eat c

@[simp] theorem eat_none (g : List Bytes) (t : Tok) : Caps.eat ⟨g, none⟩ t = ⟨g, none⟩ := rfl
@[simp] theorem eat_some (g : List Bytes) (b : Bytes) (t : Tok) : Caps.eat ⟨g, some b⟩ t = ⟨g, some (b ++ t)⟩ := rfl

@[simp] theorem eats_none (g : List Bytes) (ts : List Tok) : Caps.eats ⟨g, none⟩ ts = ⟨g, none⟩ := by
  induction ts with
  | nil => rfl
  | cons t ts ih => exact ih

@[simp] theorem eats_some (g : List Bytes) (b : Bytes) (ts : List Tok) : Caps.eats ⟨g, some b⟩ ts = ⟨g, some (b ++ ts.flatten)⟩ := by
  induction ts generalizing b with
  | nil => simp [Caps.eats]
  | cons t ts ih =>
    have : Caps.eats ⟨g, some b⟩ (t :: ts) = Caps.eats ⟨g, some (b ++ t)⟩ ts := rfl
    rw [this, ih]
    simp

theorem sing_flatten (s : Bytes) : (sing s).flatten = s := by
  induction s with
  | nil => rfl
  | cons b s ih => simp [sing] at ih ⊢; exact ih

theorem starThen_greedy {p : Tok → Bool} {k : Caps → List Tok → Option Caps} {x : Caps} (ts r : List Tok) (c : Caps)
    (hp : ∀ t ∈ ts, p t = true) (hr : ∀ t, r.head? = some t → p t = false) (h : k (c.eats ts) r = some x) :
    starThen p true k c (ts ++ r) = some x := by
  induction ts generalizing c with
  | nil =>
    cases r with
    | nil => exact h
    | cons t r =>
      rw [List.nil_append, starThen, if_neg (by rw [hr t rfl]; simp)]
      exact h
  | cons t ts ih =>
    rw [List.cons_append, starThen, if_pos (hp t (by simp)), if_pos rfl, ih (c.eat t) (fun u hu => hp u (by simp [hu])) h]
    rfl

theorem starThen_lazy {p : Tok → Bool} {k : Caps → List Tok → Option Caps} {x : Caps} (ts r : List Tok) (c : Caps)
    (hp : ∀ t ∈ ts, p t = true) (hf : ∀ c t q, t :: q <:+ ts → k c (t :: q ++ r) = none) (h : k (c.eats ts) r = some x) :
    starThen p false k c (ts ++ r) = some x := by
  induction ts generalizing c with
  | nil =>
    have hk : k c r = some x := h
    cases r with
    | nil => exact hk
    | cons t r =>
      rw [List.nil_append, starThen]
      split
      · rw [if_neg (by simp), hk]; rfl
      · exact hk
  | cons t ts ih =>
    have hn := hf c t ts (List.suffix_refl _)
    rw [List.cons_append] at hn
    rw [List.cons_append, starThen, if_pos (hp t (by simp)), if_neg (by simp), hn]
    rw [ih (c.eat t) (fun u hu => hp u (by simp [hu])) (fun c u q hq => hf c u q (hq.trans (List.suffix_cons t ts))) h]
    rfl

theorem m_chr {p : Tok → Bool} {is : List Item} {c x : Caps} {r : List Tok} (t : Tok) (hp : p t = true)
    (h : matchAt is (c.eat t) r = some x) : matchAt (.chr p :: is) c (t :: r) = some x := by
  simp only [matchAt]; rw [if_pos hp]; exact h

theorem foldTok_self (b : UInt8) : foldTok b [b] = true := by simp [foldTok]
theorem charTok_self (b : UInt8) : charTok b [b] = true := by simp [charTok]

theorem m_fold (cs : Bytes) {is : List Item} {g : List Bytes} {x : Caps} {r : List Tok}
    (h : matchAt is ⟨g, none⟩ r = some x) :
    matchAt (cs.map (fun c => Item.chr (foldTok c)) ++ is) ⟨g, none⟩ (sing cs ++ r) = some x := by
  induction cs with
  | nil => exact h
  | cons c cs ih => exact m_chr [c] (foldTok_self c) ih

/-- A literal under `(?i)`. -/
theorem m_ilit (s : String) {is : List Item} {g : List Bytes} {x : Caps} {r : List Tok}
    (h : matchAt is ⟨g, none⟩ r = some x) : matchAt (ilit s ++ is) ⟨g, none⟩ (sing (str s) ++ r) = some x := m_fold _ h

/-- A literal. -/
theorem m_lit (s : String) {is : List Item} {g : List Bytes} {x : Caps} {r : List Tok}
    (h : matchAt is ⟨g, none⟩ r = some x) : matchAt (lit s ++ is) ⟨g, none⟩ (sing (str s) ++ r) = some x := by
  unfold lit
  generalize str s = cs
  induction cs with
  | nil => exact h
  | cons c cs ih => exact m_chr [c] (charTok_self c) ih

/-- A greedy repetition outside of groups. -/
theorem m_star {p : Tok → Bool} {is : List Item} {g : List Bytes} {x : Caps} (ts r : List Tok)
    (hp : ∀ t ∈ ts, p t = true) (hr : ∀ t, r.head? = some t → p t = false) (h : matchAt is ⟨g, none⟩ r = some x) :
    matchAt (.star p true :: is) ⟨g, none⟩ (ts ++ r) = some x := by
  simp only [matchAt]
  exact starThen_greedy ts r _ hp hr (by rw [eats_none]; exact h)

/-- `c+` outside of groups. -/
theorem m_plus {p : Tok → Bool} {is : List Item} {g : List Bytes} {x : Caps} (ts r : List Tok) (hne : ts ≠ [])
    (hp : ∀ t ∈ ts, p t = true) (hr : ∀ t, r.head? = some t → p t = false) (h : matchAt is ⟨g, none⟩ r = some x) :
    matchAt (plus p ++ is) ⟨g, none⟩ (ts ++ r) = some x := by
  cases ts with
  | nil => exact absurd rfl hne
  | cons t ts =>
    refine m_chr t (hp t (by simp)) ?_
    exact m_star ts r (fun u hu => hp u (by simp [hu])) hr h

/-- A group of one rune of a class followed by a repetition. -/
theorem m_group {p q : Tok → Bool} {is : List Item} {g : List Bytes} {x : Caps} (b : UInt8) (ds : Bytes) (r : List Tok)
    (hb : p [b] = true) (hp : ∀ d ∈ ds, q [d] = true) (hr : ∀ t, r.head? = some t → q t = false)
    (h : matchAt is ⟨g ++ [b :: ds], none⟩ r = some x) :
    matchAt (group [.chr p, .star q true] ++ is) ⟨g, none⟩ (sing (b :: ds) ++ r) = some x := by
  simp only [group, List.cons_append, List.nil_append, matchAt, sing, List.map_cons, if_pos hb, eat_some]
  refine starThen_greedy (sing ds) r _ ?_ hr ?_
  · intro t ht
    obtain ⟨d, hd, rfl⟩ := List.mem_map.mp ht
    exact hp d hd
  · rw [eats_some, sing_flatten]
    simp only [List.nil_append, List.singleton_append, matchAt, Option.toList_some]
    exact h

theorem digitTok_dec (d : UInt8) (h : 48 ≤ d ∧ d ≤ 57) : digitTok [d] = true := by
  simp [digitTok, h.1, h.2]

/-- A decimal number. -/
theorem m_number (n : Nat) {is : List Item} {g : List Bytes} {x : Caps} {r : List Tok}
    (hr : ∀ t, r.head? = some t → digitTok t = false) (h : matchAt is ⟨g ++ [dec n], none⟩ r = some x) :
    matchAt (number ++ is) ⟨g, none⟩ (sing (dec n) ++ r) = some x := by
  cases hd : dec n with
  | nil => exact absurd hd (dec_ne_nil n)
  | cons b ds =>
    have hall := dec_digits n
    rw [hd] at hall h
    exact m_group b ds r (digitTok_dec b (hall b (by simp))) (fun d hd => digitTok_dec d (hall d (by simp [hd]))) hr h

/-- The rest of the line as a group. -/
theorem m_rest {g : List Bytes} (ts : List Tok) (h : ∀ t ∈ ts, anyTok t = true) :
    matchAt (group [.star anyTok true]) ⟨g, none⟩ ts = some ⟨g ++ [ts.flatten], none⟩ := by
  simp only [group, List.cons_append, List.nil_append, matchAt]
  have := starThen_greedy (p := anyTok) (k := matchAt [.stop]) (x := ⟨g ++ [ts.flatten], none⟩) ts [] ⟨g, some []⟩ h
    (by simp) (by rw [eats_some]; rfl)
  rw [List.append_nil] at this
  exact this

/-- Skipping as little as possible up to a literal of two or more characters: the second one does not occur before. -/
theorem m_skip {is : List Item} {g : List Bytes} {x : Caps} (c0 c1 : UInt8) (ts r : List Tok)
    (hany : ∀ t ∈ ts, anyTok t = true) (h1 : ∀ t ∈ ts, foldTok c1 t = false)
    (hr : ∀ t, r.head? = some t → foldTok c1 t = false)
    (h : matchAt (.chr (foldTok c0) :: .chr (foldTok c1) :: is) ⟨g, none⟩ r = some x) :
    matchAt (.star anyTok false :: .chr (foldTok c0) :: .chr (foldTok c1) :: is) ⟨g, none⟩ (ts ++ r) = some x := by
  rw [matchAt]
  refine starThen_lazy ts r _ hany ?_ (by rw [eats_none]; exact h)
  intro c t q hq
  simp only [List.cons_append, matchAt]
  split
  · cases q with
    | cons u q =>
      have : u ∈ ts := hq.subset (by simp)
      simp [h1 u this]
    | nil =>
      cases r with
      | nil => rfl
      | cons u r => simp [hr u rfl]
  · rfl

/-- A group that ends at the first occurrence of a character. -/
theorem m_until {is : List Item} {g : List Bytes} {x : Caps} (c : UInt8) (ts r : List Tok)
    (hany : ∀ t ∈ ts, anyTok t = true) (h1 : ∀ t ∈ ts, foldTok c t = false)
    (h : matchAt is ⟨g ++ [ts.flatten], none⟩ r = some x) :
    matchAt (group [.star anyTok false] ++ .chr (foldTok c) :: is) ⟨g, none⟩ (ts ++ [c] :: r) = some x := by
  simp only [group, List.cons_append, List.nil_append, matchAt]
  refine starThen_lazy ts _ _ hany ?_ ?_
  · intro cc t q hq
    have : t ∈ ts := hq.subset (by simp)
    simp only [matchAt, List.cons_append]
    rw [h1 t this]; simp
  · rw [eats_some]
    simp only [matchAt, Option.toList_some, List.nil_append]
    rw [if_pos (foldTok_self c)]
    exact h

/-- The leftmost start of a literal whose third character does not occur before. -/
theorem find_third {is : List Item} {x : Caps} (c0 c1 c2 : UInt8) (t0 t1 : Tok) (ts r : List Tok)
    (h1 : ∀ t ∈ ts, foldTok c2 t = false) (h2 : foldTok c2 t0 = false) (h3 : foldTok c2 t1 = false)
    (h : matchAt (.chr (foldTok c0) :: .chr (foldTok c1) :: .chr (foldTok c2) :: is) ⟨[], none⟩ (t0 :: t1 :: r) = some x) :
    findToks (.chr (foldTok c0) :: .chr (foldTok c1) :: .chr (foldTok c2) :: is) (ts ++ t0 :: t1 :: r) = some x := by
  induction ts with
  | nil =>
    rw [List.nil_append, findToks, h]; rfl
  | cons t ts ih =>
    have hfail : matchAt (.chr (foldTok c0) :: .chr (foldTok c1) :: .chr (foldTok c2) :: is) ⟨[], none⟩ (t :: (ts ++ t0 :: t1 :: r)) =
        none := by
      simp only [matchAt]
      split
      · match ts, h1 with
        | [], _ =>
          simp only [List.nil_append]
          split
          · simp [h3]
          · rfl
        | [u], _ =>
          simp only [List.cons_append, List.nil_append]
          split
          · simp [h2]
          · rfl
        | u :: v :: ts, h1 =>
          simp only [List.cons_append]
          split
          · simp [h1 v (by simp)]
          · rfl
      · rfl
    rw [List.cons_append, findToks, hfail, Option.none_or]
    exact ih (fun u hu => h1 u (by simp [hu]))

/-! ### Numbers -/

theorem digitValue_digit (d : Nat) (h : d < 10) : digitValue (UInt8.ofNat (48 + d)) = some d := by
  have : ∀ d : Fin 10, digitValue (UInt8.ofNat (48 + d.val)) = some d.val := by decide +kernel
  exact this ⟨d, h⟩

theorem digitsValue_append (a : Bytes) (d : UInt8) : ∀ acc, digitsValue (a ++ [d]) acc =
    (digitsValue a acc).bind fun v => (digitValue d).map fun x => v * 10 + x := by
  induction a with
  | nil =>
    intro acc
    simp only [List.nil_append, digitsValue, Option.bind_some]
    cases digitValue d <;> rfl
  | cons b a ih =>
    intro acc
    simp only [List.cons_append, digitsValue]
    cases digitValue b with
    | none => rfl
    | some v => simp only [Option.bind_some]; exact ih _

/-- Numbers are read as printed. -/
theorem digitsValue_dec (n : Nat) : digitsValue (dec n) 0 = some n := by
  induction n using Nat.strongRecOn with
  | _ n ih =>
    rw [dec_eq]
    split
    · rename_i h
      simp only [digitsValue, digitValue_digit n h, Option.bind_some]
      simp
    · rw [digitsValue_append, ih (n / 10) (by omega), digitValue_digit _ (by omega)]
      simp; omega

theorem parseUint_dec (n bits : Nat) (h : n < 2 ^ bits) : parseUint (dec n) bits = .ok n := by
  unfold parseUint
  rw [if_neg (dec_ne_nil n), digitsValue_dec]
  simp only
  rw [if_pos h]

theorem mem_takeWhile {α : Type} {p : α → Bool} {l : List α} (b : α) (h : b ∈ l.takeWhile p) : p b = true := by
  induction l with
  | nil => simp at h
  | cons a l ih =>
    rw [List.takeWhile_cons] at h
    split at h
    · rcases List.mem_cons.mp h with rfl | h
      · assumption
      · exact ih h
    · simp at h

/-! ### Groups found before -/

theorem eat_prepend (g : List Bytes) (c : Caps) (t : Tok) :
    Caps.eat ⟨g ++ c.groups, c.open_⟩ t = ⟨g ++ (c.eat t).groups, (c.eat t).open_⟩ := by
  cases c with
  | mk gs o => cases o <;> rfl

theorem starThen_prepend (p : Tok → Bool) (greedy : Bool) (kk : Caps → List Tok → Option Caps) (g : List Bytes)
    (hk : ∀ c s, kk ⟨g ++ c.groups, c.open_⟩ s = (kk c s).map fun x => ⟨g ++ x.groups, x.open_⟩) (s : List Tok) :
    ∀ c : Caps, starThen p greedy kk ⟨g ++ c.groups, c.open_⟩ s = (starThen p greedy kk c s).map fun x => ⟨g ++ x.groups, x.open_⟩ := by
  induction s with
  | nil => intro c; exact hk c []
  | cons t r ih =>
    intro c
    have heat := eat_prepend g c t
    simp only [starThen]
    rw [heat, ih, hk]
    split
    · split
      · cases starThen p greedy kk (c.eat t) r <;> cases kk c (t :: r) <;> rfl
      · cases starThen p greedy kk (c.eat t) r <;> cases kk c (t :: r) <;> rfl
    · rfl

theorem seqTok_prepend (g : List Bytes) (ps : List (Tok → Bool)) : ∀ (c : Caps) (s : List Tok),
    seqTok ps ⟨g ++ c.groups, c.open_⟩ s = (seqTok ps c s).map fun x => (⟨g ++ x.1.groups, x.1.open_⟩, x.2) := by
  induction ps with
  | nil => intro c s; rfl
  | cons p ps ih =>
    intro c s
    cases s with
    | nil => rfl
    | cons t r =>
      have heat := eat_prepend g c t
      simp only [seqTok]
      rw [heat, ih]
      split <;> rfl

/-- Groups found before do not matter. -/
theorem matchAt_prepend (g : List Bytes) (is : List Item) : ∀ (c : Caps) (s : List Tok),
    matchAt is ⟨g ++ c.groups, c.open_⟩ s = (matchAt is c s).map fun x => ⟨g ++ x.groups, x.open_⟩ := by
  induction is with
  | nil => intro c s; rfl
  | cons i is ih =>
    intro c s
    have heat := eat_prepend g c
    cases i with
    | chr p =>
      cases s with
      | nil => rfl
      | cons t r => simp only [matchAt, heat, ih]; split <;> rfl
    | star p greedy => simp only [matchAt]; exact starThen_prepend p greedy _ g ih s c
    | opt p =>
      cases s with
      | nil => simp only [matchAt, ih]
      | cons t r =>
        simp only [matchAt, heat, ih]
        split
        · cases matchAt is (c.eat t) r <;> cases matchAt is c (t :: r) <;> rfl
        · rfl
    | alt a b =>
      simp only [matchAt, seqTok_prepend]
      cases seqTok a c s with
      | none =>
        cases seqTok b c s with
        | none => rfl
        | some y => simp [ih]
      | some x =>
        cases seqTok b c s with
        | none => simp [ih]
        | some y =>
          simp only [Option.map_some, Option.bind_some, ih]
          cases matchAt is x.1 x.2 <;> cases matchAt is y.1 y.2 <;> rfl
    | start => simp only [matchAt]; exact ih ⟨c.groups, some []⟩ s
    | stop =>
      simp only [matchAt]
      rw [List.append_assoc]
      exact ih ⟨c.groups ++ c.open_.toList, none⟩ s

theorem matchAt_groups (g : List Bytes) (is : List Item) (s : List Tok) (gs : List Bytes) (o : Option Bytes)
    (h : matchAt is ⟨[], none⟩ s = some ⟨gs, o⟩) : matchAt is ⟨g, none⟩ s = some ⟨g ++ gs, o⟩ := by
  have := matchAt_prepend g is ⟨[], none⟩ s
  simp only [List.append_nil] at this
  rw [this, h]
  rfl

end Midiasm
