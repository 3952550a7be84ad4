import Verif.Spec.Apart
import Verif.Props.Disassembly
import Verif.Props.TextMeaning
import Verif.Props.Written

/-!
C153: a disassembly tells the file.
-/

set_option linter.unusedSimpArgs false

namespace Midiasm
open Spec

/-! ### Bytes in hexadecimal -/

theorem upperDigit_tells {a b : Nat} (ha : a < 16) (hb : b < 16) (h : upperDigit a = upperDigit b) : a = b := by
  have : ∀ i j : Fin 16, upperDigit i.val = upperDigit j.val → i = j := by decide +kernel
  have := this ⟨a, ha⟩ ⟨b, hb⟩ h
  simpa using this

theorem upperDigit_shown (a : Nat) (ha : a < 16) : upperDigit a ≠ 32 ∧ upperDigit a ≠ 10 ∧ (upperDigit a).toNat < 128 := by
  have : ∀ i : Fin 16, upperDigit i.val ≠ 32 ∧ upperDigit i.val ≠ 10 ∧ (upperDigit i.val).toNat < 128 := by decide +kernel
  exact this ⟨a, ha⟩

theorem digit_high (b : UInt8) : b.toNat / 16 < 16 := by
  have := UInt8.toNat_lt b
  omega

theorem digit_low (b : UInt8) : b.toNat % 16 < 16 := by omega

theorem hexDisplay_one (b : UInt8) : hexDisplay [b] = [upperDigit (b.toNat / 16), upperDigit (b.toNat % 16)] := by
  simp [hexDisplay, List.intercalate]

theorem hexDisplay_more (b c : UInt8) (t : Bytes) :
    hexDisplay (b :: c :: t) = upperDigit (b.toNat / 16) :: upperDigit (b.toNat % 16) :: 32 :: hexDisplay (c :: t) := by
  simp [hexDisplay, List.intercalate, List.intersperse]

theorem byte_tells {b c : UInt8} (h1 : upperDigit (b.toNat / 16) = upperDigit (c.toNat / 16)) (h2 : upperDigit (b.toNat % 16) = upperDigit (c.toNat % 16)) :
    b = c := by
  have e1 := upperDigit_tells (digit_high b) (digit_high c) h1
  have e2 := upperDigit_tells (digit_low b) (digit_low c) h2
  apply UInt8.toNat_inj.1
  omega

/-- Bytes with blanks after them, the first byte taken off. -/
theorem hexDisplay_first (b : UInt8) (t : Bytes) (m : Nat) : ∃ m', m ≤ m' ∧
    hexDisplay (b :: t) ++ List.replicate (m + 1) 32 = upperDigit (b.toNat / 16) :: upperDigit (b.toNat % 16) :: 32 :: (hexDisplay t ++ List.replicate m' 32) := by
  cases t with
  | nil => exact ⟨m, Nat.le_refl _, by rw [hexDisplay_one, List.replicate_succ]; simp [hexDisplay, List.intercalate]⟩
  | cons c t => exact ⟨m + 1, by omega, by rw [hexDisplay_more]; rfl⟩

theorem hex_prefix (n : Nat) : ∀ (m m' : Nat) (bs bs' : Bytes), n < m → n < m' →
    (hexDisplay bs ++ List.replicate m 32).take (3 * n + 2) = (hexDisplay bs' ++ List.replicate m' 32).take (3 * n + 2) →
    bs.take (n + 1) = bs'.take (n + 1) := by
  have blank : ∀ (n m m' : Nat) (b : UInt8) (t : Bytes), n < m → n < m' →
      (hexDisplay [] ++ List.replicate m 32).take (3 * n + 2) ≠ (hexDisplay (b :: t) ++ List.replicate m' 32).take (3 * n + 2) := by
    intro n m m' b t hm hm' h
    obtain ⟨k, rfl⟩ : ∃ k, m = k + 1 := ⟨m - 1, by omega⟩
    obtain ⟨k', rfl⟩ : ∃ k, m' = k + 1 := ⟨m' - 1, by omega⟩
    obtain ⟨_, _, e⟩ := hexDisplay_first b t k'
    rw [e, List.replicate_succ] at h
    simp only [hexDisplay, List.map_nil, List.intercalate, List.intersperse, List.flatten_nil, List.nil_append, List.take_succ_cons] at h
    injection h with h _
    exact (upperDigit_shown _ (digit_high b)).1 h.symm
  induction n with
  | zero =>
    intro m m' bs bs' hm hm' h
    cases bs with
    | nil =>
      cases bs' with
      | nil => rfl
      | cons b t => exact absurd h (blank 0 _ _ _ _ hm hm')
    | cons b t =>
      cases bs' with
      | nil => exact absurd h.symm (blank 0 _ _ _ _ hm' hm)
      | cons b' t' =>
        obtain ⟨k, rfl⟩ : ∃ k, m = k + 1 := ⟨m - 1, by omega⟩
        obtain ⟨k', rfl⟩ : ∃ k, m' = k + 1 := ⟨m' - 1, by omega⟩
        obtain ⟨_, _, e⟩ := hexDisplay_first b t k
        obtain ⟨_, _, e'⟩ := hexDisplay_first b' t' k'
        rw [e, e'] at h
        simp only [Nat.mul_zero, Nat.zero_add, List.take_succ_cons, List.take_zero, List.cons.injEq] at h
        simp [byte_tells h.1 h.2.1]
  | succ n ih =>
    intro m m' bs bs' hm hm' h
    cases bs with
    | nil =>
      cases bs' with
      | nil => rfl
      | cons b t => exact absurd h (blank (n + 1) _ _ _ _ hm hm')
    | cons b t =>
      cases bs' with
      | nil => exact absurd h.symm (blank (n + 1) _ _ _ _ hm' hm)
      | cons b' t' =>
        obtain ⟨k, rfl⟩ : ∃ k, m = k + 1 := ⟨m - 1, by omega⟩
        obtain ⟨k', rfl⟩ : ∃ k, m' = k + 1 := ⟨m' - 1, by omega⟩
        obtain ⟨j, hj, e⟩ := hexDisplay_first b t k
        obtain ⟨j', hj', e'⟩ := hexDisplay_first b' t' k'
        rw [e, e', show 3 * (n + 1) + 2 = (3 * n + 2) + 1 + 1 + 1 by omega] at h
        simp only [List.take_succ_cons, List.cons.injEq] at h
        have := ih j j' t t' (by omega) (by omega) h.2.2.2
        rw [List.take_succ_cons, List.take_succ_cons, this, byte_tells h.1 h.2.1]

/-- The bytes of a text in hexadecimal. -/
theorem hexDisplay_tells {bs bs' : Bytes} (h : hexDisplay bs = hexDisplay bs') : bs = bs' := by
  have := hex_prefix (bs.length + bs'.length) (bs.length + bs'.length + 1) (bs.length + bs'.length + 1) bs bs' (by omega) (by omega) (by rw [h])
  rwa [List.take_of_length_le (by omega), List.take_of_length_le (by omega)] at this

/-! ### The first column -/

/-- The start of the first column, whether it is cut off or not. -/
theorem column_start (k : Nat) (bs : Bytes) :
    (bytesColumn 42 k bs).take 41 = (List.replicate k 32 ++ (hexDisplay bs ++ List.replicate 42 32)).take 41 := by
  unfold bytesColumn
  simp only
  rw [← List.append_assoc]
  generalize List.replicate k (32 : UInt8) ++ hexDisplay bs = s
  split
  · unfold filled
    rw [List.take_append, List.take_append]
    congr 1
    simp only [List.take_replicate]
    congr 1
    omega
  · rename_i h
    rw [List.append_assoc, List.take_append_of_le_length (by simp; omega), List.take_append_of_le_length (by omega), List.take_take]
    rfl

/-- The width of the first column. -/
theorem column_width (k : Nat) (bs : Bytes) :
    ((bytesColumn 42 k bs).length = 42 ∧ ∀ b ∈ bytesColumn 42 k bs, b.toNat < 128) ∨ ((bytesColumn 42 k bs).length = 44 ∧ (bytesColumn 42 k bs)[41]? = some 0xe2) := by
  have ha := indented_ascii k bs
  unfold bytesColumn
  simp only
  revert ha
  generalize List.replicate k (32 : UInt8) ++ hexDisplay bs = s
  intro ha
  split
  · rename_i h
    left
    refine ⟨by simp [filled]; omega, fun b hb => ?_⟩
    rcases List.mem_append.1 hb with hb | hb
    · exact ha b hb
    · rw [List.eq_of_mem_replicate hb]; decide
  · rename_i h
    right
    have e : str "…" = [0xe2, 0x80, 0xa6] := by decide +kernel
    have hl : (s.take (42 - 1)).length = 41 := by simp; omega
    refine ⟨by rw [e]; simp; omega, ?_⟩
    rw [List.append_assoc, List.getElem?_append_right (by omega), hl, e]
    rfl

theorem column_split {k k' : Nat} {bs bs' x x' : Bytes} (h : bytesColumn 42 k bs ++ x = bytesColumn 42 k' bs' ++ x') :
    bytesColumn 42 k bs = bytesColumn 42 k' bs' ∧ x = x' := by
  have mixed : ∀ (c c' x x' : Bytes), c ++ x = c' ++ x' → c.length = 42 → (∀ b ∈ c, b.toNat < 128) → c'.length = 44 → c'[41]? = some 0xe2 → False := by
    intro c c' x x' h h1 h2 h3 h4
    have e : (c ++ x)[41]? = (c' ++ x')[41]? := by rw [h]
    rw [List.getElem?_append_left (by omega), List.getElem?_append_left (by omega), h4] at e
    have := h2 _ (List.mem_of_getElem? e)
    revert this
    decide
  rcases column_width k bs with ⟨l1, a1⟩ | ⟨l1, a1⟩ <;> rcases column_width k' bs' with ⟨l2, a2⟩ | ⟨l2, a2⟩
  · exact List.append_inj h (by omega)
  · exact (mixed _ _ _ _ h l1 a1 l2 a2).elim
  · exact (mixed _ _ _ _ h.symm l2 a2 l1 a1).elim
  · exact List.append_inj h (by omega)

/-- The first column tells the first ten bytes after a delta time of up to four bytes. -/
theorem column_tells {bs bs' x x' : Bytes} (h0 : bs ≠ []) (h0' : bs' ≠ []) (hs : deltaBytes bs ≤ 4) (hs' : deltaBytes bs' ≤ 4)
    (h : bytesColumn 42 (3 * (3 - deltaBytes bs)) bs ++ x = bytesColumn 42 (3 * (3 - deltaBytes bs')) bs' ++ x') :
    x = x' ∧ ∃ n, deltaBytes bs + 10 ≤ n ∧ deltaBytes bs' + 10 ≤ n ∧ bs.take n = bs'.take n := by
  obtain ⟨hc, hx⟩ := column_split h
  refine ⟨hx, ?_⟩
  have ht : (bytesColumn 42 (3 * (3 - deltaBytes bs)) bs).take 41 = (bytesColumn 42 (3 * (3 - deltaBytes bs')) bs').take 41 := by rw [hc]
  rw [column_start, column_start] at ht
  have hd : 1 ≤ deltaBytes bs := by unfold deltaBytes; omega
  have hd' : 1 ≤ deltaBytes bs' := by unfold deltaBytes; omega
  have same : deltaBytes bs = deltaBytes bs' ∨ (3 ≤ deltaBytes bs ∧ 3 ≤ deltaBytes bs') := by
    have key : ∀ (a c : Bytes) (i j : Nat), a ≠ [] → i < j → j ≤ 3 →
        (List.replicate (3 * i) 32 ++ (hexDisplay a ++ List.replicate 42 32)).take 41 ≠ (List.replicate (3 * j) 32 ++ (hexDisplay c ++ List.replicate 42 32)).take 41 := by
      intro a c i j ha hij hj e
      have e2 := congrArg (fun l : Bytes => l[3 * i]?) e
      rw [List.getElem?_take_of_lt (by omega), List.getElem?_take_of_lt (by omega)] at e2
      cases a with
      | nil => exact ha rfl
      | cons b t =>
        obtain ⟨_, _, e3⟩ := hexDisplay_first b t 41
        rw [e3, List.getElem?_append_right (by simp), List.length_replicate, Nat.sub_self, List.getElem?_append_left (by simp; omega),
          List.getElem?_replicate, if_pos (by omega)] at e2
        simp only [List.getElem?_cons_zero, Option.some.injEq] at e2
        exact (upperDigit_shown _ (digit_high b)).1 e2
    by_cases he : 3 - deltaBytes bs = 3 - deltaBytes bs'
    · omega
    · exfalso
      rcases Nat.lt_or_gt_of_ne he with hlt | hlt
      · exact key bs bs' _ _ h0 hlt (by omega) ht
      · exact key bs' bs _ _ h0' hlt (by omega) ht.symm
  have key : ∀ i n, i ≤ 3 → 3 * i + (3 * n + 2) ≤ 41 → 3 - deltaBytes bs = i → 3 - deltaBytes bs' = i → bs.take (n + 1) = bs'.take (n + 1) := by
    intro i n hi hn e1 e2
    rw [e1, e2] at ht
    have e3 := congrArg (fun l : Bytes => (l.drop (3 * i)).take (3 * n + 2)) ht
    simp only [List.drop_take] at e3
    rw [List.drop_append_of_le_length (by simp), List.drop_append_of_le_length (by simp)] at e3
    simp only [List.drop_replicate, Nat.sub_self, List.replicate_zero, List.nil_append, List.take_take] at e3
    rw [Nat.min_eq_left (by omega)] at e3
    exact hex_prefix n 42 42 bs bs' (by omega) (by omega) e3
  by_cases h1 : deltaBytes bs = 1
  · exact ⟨12, by omega, by omega, key 2 11 (by omega) (by omega) (by omega) (by omega)⟩
  · by_cases h2 : deltaBytes bs = 2
    · exact ⟨13, by omega, by omega, key 1 12 (by omega) (by omega) (by omega) (by omega)⟩
    · exact ⟨14, by omega, by omega, key 0 13 (by omega) (by omega) (by omega) (by omega)⟩

/-! ### Numbers -/

theorem dec_strip {a b : Nat} {c d : UInt8} {x y : Bytes} (hc : ¬ (48 ≤ c.toNat ∧ c.toNat ≤ 57)) (hd : ¬ (48 ≤ d.toNat ∧ d.toNat ≤ 57))
    (h : dec a ++ c :: x = dec b ++ d :: y) : a = b ∧ c :: x = d :: y := by
  have key : ∀ (s t : Bytes), (∀ z ∈ s, 48 ≤ z.toNat ∧ z.toNat ≤ 57) → (∀ z ∈ t, 48 ≤ z.toNat ∧ z.toNat ≤ 57) → s ++ c :: x = t ++ d :: y → s = t := by
    intro s
    induction s with
    | nil =>
      intro t _ ht h
      cases t with
      | nil => rfl
      | cons z t =>
        injection h with h _
        exact absurd (ht z (List.mem_cons_self ..)) (h ▸ hc)
    | cons z s ih =>
      intro t hs ht h
      cases t with
      | nil =>
        injection h with h _
        exact absurd (hs z (List.mem_cons_self ..)) (h ▸ hd)
      | cons w t =>
        injection h with h1 h2
        rw [h1, ih t (fun z hz => hs z (List.mem_cons_of_mem _ hz)) (fun z hz => ht z (List.mem_cons_of_mem _ hz)) h2]
  have e := key _ _ (dec_digits_toNat a) (dec_digits_toNat b) h
  refine ⟨dec_injective e, ?_⟩
  rw [e] at h
  exact List.append_cancel_left h

theorem filled_strip {w a b : Nat} {x y : Bytes} (h : filled w (str (toString a)) ++ 32 :: x = filled w (str (toString b)) ++ 32 :: y) : a = b ∧ x = y := by
  have blank : ¬ (48 ≤ (32 : UInt8).toNat ∧ (32 : UInt8).toNat ≤ 57) := by decide
  have form : ∀ (n k : Nat) (x : Bytes), ∃ z, (dec n ++ List.replicate k 32) ++ 32 :: x = dec n ++ 32 :: z := by
    intro n k x
    cases k with
    | zero => exact ⟨x, by simp⟩
    | succ k => exact ⟨List.replicate k 32 ++ 32 :: x, by simp [List.replicate_succ]⟩
  rw [← dec_eq_repr, ← dec_eq_repr] at h
  have hab : a = b := by
    unfold filled at h
    obtain ⟨z, e⟩ := form a (w - (dec a).length) x
    obtain ⟨z', e'⟩ := form b (w - (dec b).length) y
    rw [e, e'] at h
    exact (dec_strip blank blank h).1
  subst hab
  have := List.append_cancel_left h
  injection this with _ this
  exact ⟨rfl, this⟩

/-! ### The line of an event -/

/-- What a line starts with: the bytes, the times and the status or type. -/
theorem row_start {e e' : Entry} {x x' : Bytes} (h0 : e.bytes ≠ []) (h0' : e'.bytes ≠ []) (hs : deltaBytes e.bytes ≤ 4) (hs' : deltaBytes e'.bytes ≤ 4)
    (h : eventRow e ++ x = eventRow e' ++ x') :
    (∃ n, deltaBytes e.bytes + 10 ≤ n ∧ deltaBytes e'.bytes + 10 ≤ n ∧ e.bytes.take n = e'.bytes.take n) ∧
      UInt8.ofNat ((metaTypeOf e.content).getD (statusByteOf e.content)) = UInt8.ofNat ((metaTypeOf e'.content).getD (statusByteOf e'.content)) ∧
      fieldsShown e.names e.bank e.content ++ x = fieldsShown e'.names e'.bank e'.content ++ x' := by
  unfold eventRow at h
  simp only [List.append_assoc] at h
  obtain ⟨h, hn⟩ := column_tells h0 h0' hs hs' h
  refine ⟨hn, ?_⟩
  have h := List.append_cancel_left h
  rw [show str "  delta:" = 32 :: str " delta:" by decide +kernel, List.cons_append, List.cons_append] at h
  have h := List.append_cancel_left (filled_strip h).2
  rw [show str "  " = 32 :: str " " by decide +kernel, List.cons_append, List.cons_append] at h
  have h := List.append_cancel_left (filled_strip h).2
  rw [hexDisplay_one, hexDisplay_one] at h
  simp only [List.cons_append, List.nil_append, List.cons.injEq] at h
  exact ⟨byte_tells h.1 h.2.1, List.append_cancel_left h.2.2⟩

/-! ### Texts without line ends -/

theorem unlined_str {s : String} (h : 10 ∉ str s) (t : Bytes) (ht : 10 ∉ t) : 10 ∉ str s ++ t := by
  simp [h, ht]

theorem unlined_nat (n : Nat) : 10 ∉ str (toString n) := by
  rw [← dec_eq_repr]
  intro h
  have := dec_digits_toNat n _ h
  revert this
  decide

theorem unlined_int (n : Int) : 10 ∉ str (toString n) := by
  cases n with
  | ofNat n => exact unlined_nat n
  | negSucc n =>
    rw [show toString (Int.negSucc n) = "-" ++ toString (n + 1) from rfl, str_append]
    exact unlined_str (by decide +kernel) _ (unlined_nat _)

theorem unlined_hex (bs : Bytes) : 10 ∉ hexDisplay bs := by
  intro h
  rw [← trimSpace_hex] at h
  have : ∀ c ∈ str "0123456789ABCDEF ", c ≠ 10 := by decide +kernel
  exact this _ (hexString_alphabet bs _ h) rfl

theorem unlined_filled (w : Nat) (s : Bytes) (h : 10 ∉ s) : 10 ∉ filled w s := by
  unfold filled
  intro hm
  rcases List.mem_append.1 hm with hm | hm
  · exact h hm
  · have := List.eq_of_mem_replicate hm
    revert this
    decide

theorem unlined_note (offset : Int) (flats : Bool) (n : Nat) : 10 ∉ str (noteName offset flats n) := by
  unfold noteName
  rw [str_append]
  refine unlined_str ?_ _ (unlined_int _)
  have : ∀ (f : Bool) (i : Fin 12), 10 ∉ str ((if f then ["C", "D♭", "D", "E♭", "E", "F", "G♭", "G", "A♭", "A", "B♭", "B"]
    else ["C", "C♯", "D", "D♯", "E", "F", "F♯", "G", "G♯", "A", "A♯", "B"]).getD i.val "") := by decide +kernel
  exact this flats ⟨n % 12, by omega⟩

theorem unlined_sounding (offset : Int) (ch n : Nat) (past : List Content) : ∀ s, soundingName offset ch n past = some s → 10 ∉ str s := by
  induction past with
  | nil => intro s h; cases h
  | cons c past ih =>
    intro s h
    unfold soundingName at h
    split at h
    · cases ‹_ :: _ = []›
    · split at h
      · injection h with h
        rw [← h]
        exact unlined_note _ _ _
      · rename_i he _
        injection he with _ he
        exact ih s (he ▸ h)
    · rename_i he
      injection he with _ he
      exact ih s (he ▸ h)

theorem unlined_maker (id : Bytes) : ∀ s ∈ makerNames id, 10 ∉ str s := by
  have h1 : ∀ e ∈ Lib.manufacturers, 10 ∉ str e.2.region ∧ 10 ∉ str e.2.name := by decide +kernel
  have h2 : 10 ∉ str "<unknown>" := by decide +kernel
  intro s hs
  unfold makerNames at hs
  split at hs
  · rename_i e he
    obtain ⟨a, b⟩ := h1 e (List.mem_of_find?_eq_some he)
    simp only [List.mem_cons, List.not_mem_nil, or_false] at hs
    rcases hs with rfl | rfl <;> assumption
  · simp only [List.mem_cons, List.not_mem_nil, or_false] at hs
    rcases hs with rfl | rfl <;> exact h2

theorem unlined_key (a : Int) (m : Bool) : 10 ∉ str (keyName a m) := by
  have fifth : ∀ i : Int, 10 ∉ str (fifthName i) := by
    intro i
    unfold fifthName
    rw [str_append]
    refine unlined_str ?_ _ ?_
    · have : ∀ k : Fin 7, 10 ∉ str (fifthLetters.getD k.val "") := by decide +kernel
      exact this ⟨(i % 7).toNat, by omega⟩
    · split
      · decide +kernel
      · split <;> decide +kernel
  unfold keyName
  split <;> rw [str_append] <;> exact fun h => (List.mem_append.1 h).elim (fifth _) (by decide +kernel)

theorem unlined_option {o : Option String} {d : String} (h : ∀ s, o = some s → 10 ∉ str s) (hd : 10 ∉ str d) : 10 ∉ str (o.getD d) := by
  cases o with
  | none => exact hd
  | some s => exact h s rfl

theorem unlined_names (offset : Int) (past : List Content) (c : Content) : ∀ s ∈ namesOf offset past c, 10 ∉ str s := by
  intro s hs
  unfold namesOf at hs
  split at hs
  · simp only [List.mem_cons, List.not_mem_nil, or_false] at hs
    rcases hs with rfl | rfl <;> exact unlined_note _ _ _
  · simp only [List.mem_cons, List.not_mem_nil, or_false] at hs
    rcases hs with rfl | rfl
    · exact unlined_option (unlined_sounding _ _ _ _) (unlined_note _ _ _)
    · exact unlined_note _ _ _
  · rw [List.mem_singleton.1 hs]
    exact unlined_key _ _
  · rw [List.mem_singleton.1 hs]
    have h1 : ∀ e ∈ Lib.controllers, 10 ∉ str e.2.name := by decide +kernel
    refine unlined_option (fun s h => ?_) (by decide +kernel)
    obtain ⟨e, he, rfl⟩ := Option.map_eq_some_iff.1 h
    exact h1 e (List.mem_of_find?_eq_some he)
  · exact unlined_maker _ s hs
  · exact unlined_maker _ s hs
  · cases hs

theorem unlined_getD {names : List String} (h : ∀ s ∈ names, 10 ∉ str s) (i : Nat) : 10 ∉ str (names.getD i "") := by
  rw [List.getD_eq_getElem?_getD]
  cases e : names[i]? with
  | none => exact (by decide +kernel : 10 ∉ str "")
  | some s => exact h s (List.mem_of_getElem? e)

/-- Nothing but a text has line ends. -/
theorem unlined_fields {names : List String} (h : ∀ s ∈ names, 10 ∉ str s) (bank : Option Nat) (c : Content) (hc : ∀ t s, c ≠ .text t s) :
    10 ∉ fieldsShown names bank c := by
  have hn := unlined_getD h
  have ts : ∀ s : String, toString s = s := fun _ => rfl
  cases c with
  | text t s => exact absurd rfl (hc t s)
  | _ =>
    simp only [fieldsShown, channelShown, str_append, List.mem_append, not_or, List.append_assoc, ts]
    repeat' apply And.intro
    all_goals first
      | with_reducible exact hn _
      | with_reducible exact unlined_nat _
      | with_reducible exact unlined_hex _
      | with_reducible exact unlined_filled _ _ (unlined_nat _)
      | with_reducible exact unlined_filled _ _ (by decide +kernel)
      | decide +kernel

/-! ### What a line tells -/

theorem deltaBytes_terminated {db : Bytes} (h : Terminated db) (eb : Bytes) : deltaBytes (db ++ eb) = db.length := by
  obtain ⟨init, last, rfl, h1, h2⟩ := h
  unfold deltaBytes
  have : ((init ++ [last] ++ eb).takeWhile fun b => decide (128 ≤ b.toNat)) = init := by
    induction init with
    | nil => simp only [List.nil_append, List.cons_append]; rw [List.takeWhile_cons_of_neg (by simpa using h2)]
    | cons b t ih =>
      simp only [List.cons_append]
      rw [List.takeWhile_cons_of_pos (by simpa using h1 b (List.mem_cons_self ..))]
      congr 1
      exact ih fun b hb => h1 b (List.mem_cons_of_mem _ hb)
  rw [this]
  simp

/-- Where the event of a line comes from. -/
def Told (e : Entry) : Prop :=
  ∃ (rs rs' : Option UInt8) (p : Bool) (offset : Int) (past : List Content) (c : Content) (i : Spec.Item), FramedItem 1 rs i rs' ∧ meaning p i.raw = some c ∧
    e.bytes = i.bytes ∧ e.delta = i.delta.toNat ∧ e.content = asShown c ∧ e.names = namesOf offset past c

theorem chan_status {status : UInt8} {data : Bytes} {c : Content} (h : chanMeaning status data = some c) :
    UInt8.ofNat ((metaTypeOf (asShown c)).getD (statusByteOf (asShown c))) = status ∧ (∀ t s, asShown c ≠ .text t s) := by
  unfold chanMeaning at h
  simp only at h
  have hlt := UInt8.toNat_lt status
  split at h
  all_goals first | (split at h <;> [skip; cases h]) | skip
  all_goals first
    | (cases h; done)
    | (injection h with h; subst h
       refine ⟨?_, by simp [asShown]⟩
       simp only [asShown, metaTypeOf, statusByteOf, Option.getD_none]
       apply UInt8.toNat_inj.1
       rw [UInt8.toNat_ofNat']
       omega)

theorem framed_chan_length {rs rs' : Option UInt8} {raw : Raw} {eb : Bytes} (h : Framed 1 rs raw eb rs') (hc : ∃ s d, raw = .chan s d) : eb.length ≤ 3 := by
  have hd : ∀ s : UInt8, dataLen 1 s ≤ 2 := by
    intro s
    unfold dataLen
    split <;> omega
  cases h with
  | full _ h => rename_i status data _; have := hd status; simp; omega
  | @running status _ _ _ h _ => have := hd status; omega
  | metaEvent _ => obtain ⟨_, _, h⟩ := hc; cases h
  | sysex _ _ => obtain ⟨_, _, h⟩ := hc; cases h

theorem take_short {a b : Bytes} {m : Nat} (ha : a.length < m) (hb : b.length < m) (h : a.take m = b.take m) : a = b := by
  rwa [List.take_of_length_le (by omega), List.take_of_length_le (by omega)] at h

/-- The start of length and data tells the length, and the start of the data. -/
theorem length_tells {len len' data data' : Bytes} {m : Nat} (hq : Quantity len data.length) (hq' : Quantity len' data'.length) (hl : len.length ≤ 4)
    (hl' : len'.length ≤ 4) (hm : 8 ≤ m) (h : (len ++ data).take m = (len' ++ data').take m) :
    len = len' ∧ data.length = data'.length ∧ data.take (m - len.length) = data'.take (m - len.length) := by
  rw [List.take_append, List.take_append, List.take_of_length_le (l := len) (by omega), List.take_of_length_le (l := len') (by omega)] at h
  obtain ⟨e, h⟩ := terminated_prefix_unique hq.1 hq'.1 h
  subst e
  exact ⟨rfl, hq.2.symm.trans hq'.2, h⟩

/-- The meta events with more than four bytes of data. -/
theorem meta_long {ty : Nat} {data : Bytes} {c : Content} (h : metaMeaning ty data = some c) (hl : 4 < data.length) :
    (1 ≤ ty ∧ ty ≤ 9 ∧ c = .text ty data) ∨ (ty = 0x2f ∧ c = .endOfTrack) ∨ (ty = 0x54 ∧ ∃ h m s r f ff, c = .smpteOffset h m s r f ff) ∨
      (ty = 0x7f ∧ ((∃ b d', data = 0 :: b :: d' ∧ ∃ e d, d' = e :: d ∧ c = .sequencerSpecific [0, b, e] d) ∨ (∃ b d, data = b :: d ∧ b ≠ 0 ∧ c = .sequencerSpecific [b] d))) := by
  unfold metaMeaning at h
  by_cases h0 : ty = 0
  · rw [if_pos h0] at h
    split at h
    · simp at hl
    · cases h
  rw [if_neg h0] at h
  by_cases h1 : 1 ≤ ty ∧ ty ≤ 9
  · rw [if_pos h1] at h
    injection h with h
    exact Or.inl ⟨h1.1, h1.2, h.symm⟩
  rw [if_neg h1] at h
  by_cases h2 : ty = 0x20
  · rw [if_pos h2] at h
    split at h
    · simp at hl
    · cases h
  rw [if_neg h2] at h
  by_cases h3 : ty = 0x21
  · rw [if_pos h3] at h
    split at h
    · simp at hl
    · cases h
  rw [if_neg h3] at h
  by_cases h4 : ty = 0x2f
  · rw [if_pos h4] at h
    injection h with h
    exact Or.inr (Or.inl ⟨h4, h.symm⟩)
  rw [if_neg h4] at h
  by_cases h5 : ty = 0x51
  · rw [if_pos h5] at h
    split at h
    · simp at hl
    · cases h
  rw [if_neg h5] at h
  by_cases h6 : ty = 0x54
  · rw [if_pos h6] at h
    split at h
    · simp only at h
      split at h
      · injection h with h
        exact Or.inr (Or.inr (Or.inl ⟨h6, _, _, _, _, _, _, h.symm⟩))
      · cases h
    · cases h
  rw [if_neg h6] at h
  by_cases h7 : ty = 0x58
  · rw [if_pos h7] at h
    split at h
    · simp at hl
    · cases h
  rw [if_neg h7] at h
  by_cases h8 : ty = 0x59
  · rw [if_pos h8] at h
    split at h
    · simp at hl
    · cases h
  rw [if_neg h8] at h
  by_cases h9 : ty = 0x7f
  · rw [if_pos h9] at h
    refine Or.inr (Or.inr (Or.inr ⟨h9, ?_⟩))
    split at h
    · injection h with h
      exact Or.inl ⟨_, _, rfl, _, _, rfl, h.symm⟩
    · split at h
      · cases h
      · rename_i hb
        injection h with h
        exact Or.inr ⟨_, _, rfl, hb, h.symm⟩
    · cases h
  · rw [if_neg h9] at h
    cases h

/-- The fields of the offsets. -/
theorem smpte_tells {names names' : List String} {bank bank' : Option Nat} {h m s r f g h' m' s' r' f' g' : Nat}
    (e : fieldsShown names bank (.smpteOffset h m s r f g) = fieldsShown names' bank' (.smpteOffset h' m' s' r' f' g')) :
    Content.smpteOffset h m s r f g = .smpteOffset h' m' s' r' f' g' := by
  have ts : ∀ s : String, toString s = s := fun _ => rfl
  have sp : str " " = [32] := by decide +kernel
  have nd : ¬ (48 ≤ (32 : UInt8).toNat ∧ (32 : UInt8).toNat ≤ 57) := by decide
  simp only [fieldsShown, str_append, ts, ← dec_eq_repr, sp, List.append_assoc, List.cons_append, List.nil_append] at e
  obtain ⟨e1, t1⟩ := dec_strip nd nd (List.append_cancel_left e)
  obtain ⟨e2, t2⟩ := dec_strip nd nd (List.cons.inj t1).2
  obtain ⟨e3, t3⟩ := dec_strip nd nd (List.cons.inj t2).2
  obtain ⟨e4, t4⟩ := dec_strip nd nd (List.cons.inj t3).2
  obtain ⟨e5, t5⟩ := dec_strip nd nd (List.cons.inj t4).2
  rw [e1, e2, e3, e4, e5, dec_injective (List.cons.inj t5).2]

/-- The manufacturer is not shown otherwise than by name. -/
theorem maker_shown {id d d' : Bytes} {names names' : List String} {bank bank' : Option Nat}
    (hn : names = makerNames id) (hn' : names' = makerNames id) {id1 id2 : Bytes}
    (e : fieldsShown names bank (.sequencerSpecific id1 d) = fieldsShown names' bank' (.sequencerSpecific id2 d') ∨
      ∃ t t', fieldsShown names bank (.sysex id1 d t) = fieldsShown names' bank' (.sysex id2 d' t')) : d = d' := by
  subst hn
  subst hn'
  rcases e with e | ⟨t, t', e⟩ <;> simp only [fieldsShown] at e <;> exact hexDisplay_tells (List.append_cancel_left e)

/-- Texts are the meta events of the types 1 to 9. -/
theorem meta_text {ty : Nat} {data : Bytes} {c : Content} (h : metaMeaning ty data = some c) :
    ((1 ≤ ty ∧ ty ≤ 9) ∧ c = .text ty data) ∨ (¬ (1 ≤ ty ∧ ty ≤ 9) ∧ ∀ t s, c ≠ .text t s) := by
  by_cases h1 : 1 ≤ ty ∧ ty ≤ 9
  · left
    unfold metaMeaning at h
    rw [if_neg (by omega), if_pos h1] at h
    injection h with h
    exact ⟨h1, h.symm⟩
  · right
    refine ⟨h1, ?_⟩
    rintro t s rfl
    unfold metaMeaning at h
    simp only [h1, if_false] at h
    repeat' split at h
    all_goals cases h

theorem asShown_text {c : Content} (h : ∀ t s, c ≠ .text t s) : ∀ t s, asShown c ≠ .text t s := by
  intro t s
  cases c <;> simp [asShown]
  exact fun h1 h2 => h _ _ (by rw [h1, h2])

theorem framed_forms {rs rs' : Option UInt8} {raw : Raw} {eb : Bytes} (h : Framed 1 rs raw eb rs') :
    (∃ s d, raw = .chan s d ∧ ∃ a r, eb = a :: r ∧ a.toNat < 0xf0) ∨
      (∃ ty len data, raw = .metaEvent ty data ∧ eb = 0xff :: ty :: (len ++ data) ∧ Quantity len data.length) ∨
      (∃ st len data, raw = .sysex st data ∧ eb = st :: (len ++ data) ∧ (st = 0xf0 ∨ st = 0xf7) ∧ Quantity len data.length) := by
  cases h with
  | full a b => exact Or.inl ⟨_, _, rfl, _, _, rfl, a.2⟩
  | running a b d => exact Or.inl ⟨_, _, rfl, _, _, rfl, by omega⟩
  | metaEvent q => exact Or.inr (Or.inl ⟨_, _, _, rfl, rfl, q⟩)
  | sysex g q => exact Or.inr (Or.inr ⟨_, _, _, rfl, rfl, g, q⟩)

/-- The line of an event tells its delta time and its contents, and where the line ends. -/
theorem row_tells {e e' : Entry} (ht : Told e) (ht' : Told e') (hs : ShortForm e.bytes) (hs' : ShortForm e'.bytes) {x x' : Bytes}
    (h : eventRow e ++ 10 :: x = eventRow e' ++ 10 :: x') : e.delta = e'.delta ∧ e.content = e'.content ∧ x = x' := by
  obtain ⟨rs, rs1, p, offset, past, c, ⟨delta, raw, bs⟩, ⟨db, eb, hb, hq, hf⟩, hc, h1, h2, h3, h4⟩ := ht
  obtain ⟨rs', rs1', p', offset', past', c', ⟨delta', raw', bs'⟩, ⟨db', eb', hb', hq', hf'⟩, hc', h1', h2', h3', h4'⟩ := ht'
  simp only at hb hq hf hc h1 h2 hb' hq' hf' hc' h1' h2'
  rw [h1, hb] at hs
  rw [h1', hb'] at hs'
  have hne : ∀ {db : Bytes} (eb : Bytes), Terminated db → db ++ eb ≠ [] := by
    rintro db eb ⟨_, _, rfl, _⟩
    simp
  have hd := deltaBytes_terminated hq.1 eb
  have hd' := deltaBytes_terminated hq'.1 eb'
  have hs1 := hs.1
  have hs1' := hs'.1
  obtain ⟨⟨n, n1, n2, n3⟩, hst, hfields⟩ := row_start (by rw [h1, hb]; exact hne _ hq.1) (by rw [h1', hb']; exact hne _ hq'.1) (by rw [h1, hb]; exact hs1)
    (by rw [h1', hb']; exact hs1') h
  rw [h1, hb, hd] at n1
  rw [h1', hb', hd'] at n2
  rw [h1, hb, h1', hb', List.take_append, List.take_append, List.take_of_length_le (l := db) (by omega), List.take_of_length_le (l := db') (by omega)] at n3
  obtain ⟨hdb, n3⟩ := terminated_prefix_unique hq.1 hq'.1 n3
  subst hdb
  obtain ⟨m, hm, n3⟩ : ∃ m, 10 ≤ m ∧ eb.take m = eb'.take m := ⟨n - db.length, by omega, n3⟩
  have hdelta : e.delta = e'.delta := by rw [h2, h2']; exact hq.2.symm.trans hq'.2
  have hl := hs.2
  have hl' := hs'.2
  unfold lengthField at hl hl'
  rw [hd, List.drop_append_of_le_length (Nat.le_refl _), List.drop_length, List.nil_append] at hl
  rw [hd', List.drop_append_of_le_length (Nat.le_refl _), List.drop_length, List.nil_append] at hl'
  have hnames : ∀ s ∈ e.names, 10 ∉ str s := by rw [h4]; exact unlined_names _ _ _
  have hnames' : ∀ s ∈ e'.names, 10 ∉ str s := by rw [h4']; exact unlined_names _ _ _
  have unlined : (∀ t s, e.content ≠ .text t s) → (∀ t s, e'.content ≠ .text t s) →
      fieldsShown e.names e.bank e.content = fieldsShown e'.names e'.bank e'.content ∧ x = x' := fun a b =>
    line_unique hfields (unlined_fields hnames _ _ a) (unlined_fields hnames' _ _ b)
  refine ⟨hdelta, ?_⟩
  -- channel messages
  have chan : ∀ status data status' data', raw = .chan status data → raw' = .chan status' data' → e.content = e'.content ∧ x = x' := by
    intro status data status' data' hr hr'
    have l := framed_chan_length hf ⟨_, _, hr⟩
    have l' := framed_chan_length hf' ⟨_, _, hr'⟩
    have heb := take_short (by omega) (by omega) n3
    rw [hr] at hc hf
    rw [hr'] at hc' hf'
    obtain ⟨c1, c2⟩ := chan_status hc
    obtain ⟨c1', c2'⟩ := chan_status hc'
    rw [h3, h3', c1, c1'] at hst
    subst hst
    have hdata : data = data' := by
      subst heb
      cases hf with
      | full a b =>
        cases hf' with
        | full a' b' => rfl
        | running a' b' d' => exact absurd a.1 (by omega)
      | running a b d =>
        cases hf' with
        | full a' b' => exact absurd a'.1 (by omega)
        | running a' b' d' => rfl
    subst hdata
    have e1 : c = c' := Option.some.inj (hc.symm.trans hc')
    exact ⟨by rw [h3, h3', e1], (unlined (by rw [h3]; exact c2) (by rw [h3']; exact c2')).2⟩
  have head : ∀ a b : UInt8, ∀ r r' : Bytes, eb = a :: r → eb' = b :: r' → a = b := by
    intro a b r r' ha hb
    rw [ha, hb, show m = (m - 1) + 1 by omega, List.take_succ_cons, List.take_succ_cons] at n3
    exact (List.cons.inj n3).1
  rcases framed_forms hf with ⟨st, d, hr, a, r, ha, hlt⟩ | ⟨ty, len, data, hr, ha, q⟩ | ⟨st, len, data, hr, ha, g, q⟩ <;>
    rcases framed_forms hf' with ⟨st', d', hr', a', r', ha', hlt'⟩ | ⟨ty', len', data', hr', ha', q'⟩ | ⟨st', len', data', hr', ha', g', q'⟩
  · exact chan _ _ _ _ hr hr'
  · rw [head _ _ _ _ ha ha'] at hlt
    exact absurd hlt (by decide)
  · rw [head _ _ _ _ ha ha'] at hlt
    rcases g' with rfl | rfl <;> exact absurd hlt (by decide)
  · rw [← head _ _ _ _ ha ha'] at hlt'
    exact absurd hlt' (by decide)
  · -- meta events
    rw [hr] at hc
    rw [hr'] at hc'
    rw [ha, ha', show m = (m - 2) + 1 + 1 by omega] at n3
    simp only [List.take_succ_cons, List.cons.injEq, true_and] at n3
    obtain ⟨hty, n3⟩ := n3
    subst hty
    rw [ha] at hl
    rw [ha'] at hl'
    simp only [if_true, List.drop_succ_cons, List.drop_zero] at hl hl'
    rw [deltaBytes_terminated q.1] at hl
    rw [deltaBytes_terminated q'.1] at hl'
    obtain ⟨hlen, l1, l2⟩ := length_tells q q' hl hl' (by omega) n3
    simp only [meaning] at hc hc'
    rcases meta_text hc with ⟨t1, t2⟩ | ⟨t1, t2⟩
    · obtain ⟨_, t2'⟩ | ⟨t1', _⟩ := meta_text hc'
      · rw [t2] at h3
        rw [t2'] at h3'
        simp only [asShown] at h3 h3'
        rw [h3, h3'] at hfields ⊢
        simp only [fieldsShown, tagOf, List.append_assoc] at hfields
        obtain ⟨e1, e2⟩ := List.append_inj (List.append_cancel_left hfields) l1
        exact ⟨by rw [e1], (List.cons.inj e2).2⟩
      · exact absurd t1 t1'
    · obtain ⟨t1', _⟩ | ⟨_, t2'⟩ := meta_text hc'
      · exact absurd t1' t1
      · obtain ⟨u1, u2⟩ := unlined (by rw [h3]; exact asShown_text t2) (by rw [h3']; exact asShown_text t2')
        refine ⟨?_, u2⟩
        by_cases hlong : 4 < data.length
        · rcases meta_long hc hlong with ⟨z1, z2, _⟩ | ⟨z, y⟩ | ⟨z, y⟩ | ⟨z, y⟩
          · exact absurd ⟨z1, z2⟩ t1
          · rcases meta_long hc' (by omega) with ⟨z1, z2, _⟩ | ⟨_, y'⟩ | ⟨z', _⟩ | ⟨z', _⟩
            · exact absurd ⟨z1, z2⟩ t1
            · rw [h3, h3', y, y']
            · omega
            · omega
          · rcases meta_long hc' (by omega) with ⟨z1, z2, _⟩ | ⟨z', _⟩ | ⟨_, y'⟩ | ⟨z', _⟩
            · exact absurd ⟨z1, z2⟩ t1
            · omega
            · obtain ⟨_, _, _, _, _, _, y⟩ := y
              obtain ⟨_, _, _, _, _, _, y'⟩ := y'
              rw [h3, h3', y, y'] at u1
              rw [h3, h3', y, y']
              simp only [asShown] at u1 ⊢
              exact smpte_tells u1
            · omega
          · rcases meta_long hc' (by omega) with ⟨z1, z2, _⟩ | ⟨z', _⟩ | ⟨z', _⟩ | ⟨_, y'⟩
            · exact absurd ⟨z1, z2⟩ t1
            · omega
            · omega
            · rw [show m - 2 - len.length = (m - 2 - len.length - 4) + 1 + 1 + 1 + 1 by omega] at l2
              have same : ∀ id d d', c = .sequencerSpecific id d → c' = .sequencerSpecific id d' → e.content = e'.content := by
                intro id d d' k k'
                rw [k] at h3 h4
                rw [k'] at h3' h4'
                simp only [asShown, namesOf] at h3 h3' h4 h4'
                rw [h3, h3'] at u1
                rw [h3, h3', maker_shown h4 h4' (Or.inl u1)]
              rcases y with ⟨b, f, y1, w, d, y2, y3⟩ | ⟨b, d, y1, y2, y3⟩ <;> rcases y' with ⟨b', f', y1', w', d', y2', y3'⟩ | ⟨b', d', y1', y2', y3'⟩
              · rw [y1, y2, y1', y2'] at l2
                simp only [List.take_succ_cons, List.cons.injEq, true_and] at l2
                rw [← l2.1, ← l2.2.1] at y3'
                exact same _ _ _ y3 y3'
              · rw [y1, y2, y1'] at l2
                simp only [List.take_succ_cons, List.cons.injEq] at l2
                exact absurd l2.1.symm y2'
              · rw [y1, y1', y2'] at l2
                simp only [List.take_succ_cons, List.cons.injEq] at l2
                exact absurd l2.1 y2
              · rw [y1, y1'] at l2
                simp only [List.take_succ_cons, List.cons.injEq] at l2
                rw [← l2.1] at y3'
                exact same _ _ _ y3 y3'
        · rw [List.take_of_length_le (by omega), List.take_of_length_le (by omega)] at l2
          rw [← l2] at hc'
          rw [h3, h3', Option.some.inj (hc.symm.trans hc')]
  · have := head _ _ _ _ ha ha'
    rcases g' with rfl | rfl <;> exact absurd this (by decide)
  · rw [← head _ _ _ _ ha ha'] at hlt'
    rcases g with rfl | rfl <;> exact absurd hlt' (by decide)
  · have := head _ _ _ _ ha ha'
    rcases g with rfl | rfl <;> exact absurd this (by decide)
  · -- system exclusive events
    rw [hr] at hc
    rw [hr'] at hc'
    rw [ha, ha', show m = (m - 1) + 1 by omega] at n3
    simp only [List.take_succ_cons, List.cons.injEq] at n3
    obtain ⟨hst', n3⟩ := n3
    subst hst'
    rw [ha] at hl
    rw [ha'] at hl'
    have hff : st ≠ 0xff := by rcases g with rfl | rfl <;> decide
    simp only [if_neg hff, if_pos g] at hl hl'
    rw [deltaBytes_terminated q.1] at hl
    rw [deltaBytes_terminated q'.1] at hl'
    obtain ⟨hlen, l1, l2⟩ := length_tells q q' hl hl' (by omega) n3
    simp only [meaning, sysexMeaning] at hc hc'
    by_cases h0 : st = 0xf0
    · rw [if_pos h0] at hc hc'
      split at hc <;> [skip; cases hc]
      rename_i id b d
      split at hc' <;> [skip; cases hc']
      rename_i id' b' d'
      split at hc <;> [cases hc; skip]
      split at hc' <;> [cases hc'; skip]
      have k := Option.some.inj hc
      have k' := Option.some.inj hc'
      rw [show m - 1 - len.length = (m - 1 - len.length - 1) + 1 by omega] at l2
      simp only [List.take_succ_cons, List.cons.injEq] at l2
      obtain ⟨l2, _⟩ := l2
      subst l2
      rw [← k] at h3 h4
      rw [← k'] at h3' h4'
      simp only [asShown, namesOf] at h3 h3' h4 h4'
      obtain ⟨u1, u2⟩ := unlined (by rw [h3]; simp) (by rw [h3']; simp)
      rw [h3, h3'] at u1
      have e1 := maker_shown h4 h4' (Or.inr ⟨_, _, u1⟩)
      refine ⟨?_, u2⟩
      have hlast : ((b :: d).getLast? == some 0xf7) = ((b' :: d').getLast? == some 0xf7) := by
        simp only [List.length_cons] at l1
        have e2 := congrArg List.length e1
        unfold unterminated at e2
        by_cases w : (b :: d).getLast? = some 0xf7 <;> by_cases w' : (b' :: d').getLast? = some 0xf7
        · rw [w, w']
        · rw [if_pos w, if_neg w'] at e2
          simp at e2
          omega
        · rw [if_neg w, if_pos w'] at e2
          simp at e2
          omega
        · rw [beq_eq_false_iff_ne.2 w, beq_eq_false_iff_ne.2 w']
      rw [h3, h3', e1, hlast]
    · rw [if_neg h0] at hc hc'
      have tags : ∀ (d d' : Bytes), str "SysExContinuation      " ++ hexDisplay d ≠ str "SysExEscape            " ++ hexDisplay d' := by
        intro d d' h
        have := congrArg (List.take 12) h
        rw [List.take_append_of_le_length (by decide +kernel), List.take_append_of_le_length (by decide +kernel)] at this
        revert this
        decide +kernel
      split at hc <;> split at hc' <;> have k := Option.some.inj hc <;> have k' := Option.some.inj hc' <;> rw [← k] at h3 <;> rw [← k'] at h3' <;>
        simp only [asShown] at h3 h3' <;> obtain ⟨u1, u2⟩ := unlined (by rw [h3]; simp) (by rw [h3']; simp) <;> rw [h3, h3'] at u1 <;>
        simp only [fieldsShown] at u1
      · exact ⟨by rw [h3, h3', hexDisplay_tells (List.append_cancel_left u1)], u2⟩
      · exact absurd u1 (tags _ _)
      · exact absurd u1.symm (tags _ _)
      · exact ⟨by rw [h3, h3', hexDisplay_tells (List.append_cancel_left u1)], u2⟩

/-! ### The whole text -/

theorem told_entries (offset : Int) {rs rs' : Option UInt8} {items : List Spec.Item} (ht : FramedTrack 1 rs items rs') :
    ∀ (p : Bool) (cs past : List Content) (el : Nat), meanings p (items.map Spec.Item.raw) = some cs → ∀ e ∈ entries offset past el (items.zip cs), Told e := by
  induction ht with
  | nil =>
    intro p cs past el h e he
    simp [entries] at he
  | cons hi ht ih =>
    rename_i rs rs' rs'' i is
    intro p cs past el h e he
    simp only [List.map_cons, meanings] at h
    split at h
    · rename_i c cs' h1 h2
      injection h with h
      subst h
      rw [List.zip_cons_cons, entries] at he
      rcases List.mem_cons.1 he with rfl | he
      · exact ⟨_, _, _, _, _, c, i, hi, h1, rfl, rfl, rfl, rfl⟩
      · exact ih _ _ _ _ h2 e he
    · cases h

theorem told_file {offset : Int} {bytes : Bytes} {h : Header} {ts : List TrackEntry} (hf : FileSays offset bytes h ts) : ∀ t ∈ ts, ∀ e ∈ t.events, Told e := by
  obtain ⟨cs, tail, _, _, _, _, h1, h2, h3⟩ := hf
  intro t ht e he
  obtain ⟨i, hi, hit⟩ := List.mem_iff_getElem.1 ht
  have hc : (cs.filter fun c => c.tag == tagMTrk)[i]? = some ((cs.filter fun c => c.tag == tagMTrk)[i]'(by omega)) := List.getElem?_eq_getElem _
  obtain ⟨items, tail', rs', cs', _, f1, _, f2, rfl⟩ := h3 i _ t hc (by rw [List.getElem?_eq_getElem hi, hit])
  exact told_entries offset f1 _ _ _ _ f2 e he

theorem unlined_column (room k : Nat) (bs : Bytes) : 10 ∉ bytesColumn room k bs := by
  have hr : ∀ n, (10 : UInt8) ∉ List.replicate n 32 := by
    intro n hm
    have := List.eq_of_mem_replicate hm
    revert this
    decide
  have hs : 10 ∉ List.replicate k 32 ++ hexDisplay bs := fun hm => (List.mem_append.1 hm).elim (hr _) (unlined_hex _)
  unfold bytesColumn
  simp only
  revert hs
  generalize List.replicate k (32 : UInt8) ++ hexDisplay bs = s
  intro hs
  split
  · exact unlined_filled _ _ hs
  · simp only [List.mem_append, not_or]
    exact ⟨⟨fun hm => hs (List.mem_of_mem_take hm), by decide +kernel⟩, hr _⟩

/-- A line does not start with a line end. -/
theorem row_first (e : Entry) : ∃ b r, eventRow e = b :: r ∧ b ≠ 10 := by
  unfold eventRow
  simp only [List.append_assoc]
  have h1 := column_width (3 * (3 - deltaBytes e.bytes)) e.bytes
  have h2 := unlined_column 42 (3 * (3 - deltaBytes e.bytes)) e.bytes
  cases hc : bytesColumn 42 (3 * (3 - deltaBytes e.bytes)) e.bytes with
  | nil =>
    rw [hc] at h1
    simp at h1
  | cons b r =>
    rw [hc] at h2
    exact ⟨b, _, rfl, fun hb => h2 (by rw [hb]; simp)⟩

theorem rows_tell (es es' : List Entry) (h : ∀ e ∈ es, Told e ∧ ShortForm e.bytes) (h' : ∀ e ∈ es', Told e ∧ ShortForm e.bytes) (x x' : Bytes)
    (hx : x = [] ∨ ∃ y, x = 10 :: y) (hx' : x' = [] ∨ ∃ y, x' = 10 :: y) (heq : lineTexts (es.map eventRow) ++ x = lineTexts (es'.map eventRow) ++ x') :
    es.map (fun e => (e.delta, e.content)) = es'.map (fun e => (e.delta, e.content)) ∧ x = x' := by
  have stop : ∀ (e : Entry) (es : List Entry) (x x' : Bytes), (x = [] ∨ ∃ y, x = 10 :: y) → x ≠ lineTexts ((e :: es).map eventRow) ++ x' := by
    intro e es x x' hx h
    obtain ⟨b, r, hr, hb⟩ := row_first e
    rw [List.map_cons, lineTexts, List.flatMap_cons, hr] at h
    rcases hx with rfl | ⟨y, rfl⟩
    · cases h
    · injection h with h _
      exact hb h.symm
  induction es generalizing es' with
  | nil =>
    cases es' with
    | nil => exact ⟨rfl, heq⟩
    | cons e' es' => exact absurd heq (stop e' es' x x' hx)
  | cons e es ih =>
    cases es' with
    | nil => exact absurd heq.symm (stop e es x' x hx')
    | cons e' es' =>
      obtain ⟨a1, a2⟩ := h e (List.mem_cons_self ..)
      obtain ⟨b1, b2⟩ := h' e' (List.mem_cons_self ..)
      simp only [List.map_cons, lineTexts, List.flatMap_cons, List.append_assoc, List.cons_append, List.nil_append] at heq
      obtain ⟨r1, r2, r3⟩ := row_tells a1 b1 a2 b2 heq
      obtain ⟨s1, s2⟩ := ih es' (fun e he => h e (List.mem_cons_of_mem _ he)) (fun e he => h' e (List.mem_cons_of_mem _ he)) r3
      exact ⟨by rw [List.map_cons, List.map_cons, r1, r2, s1], s2⟩

theorem tracks_tell (ts ts' : List TrackEntry) (h : ∀ t ∈ ts, ∀ e ∈ t.events, Told e ∧ ShortForm e.bytes)
    (h' : ∀ t ∈ ts', ∀ e ∈ t.events, Told e ∧ ShortForm e.bytes) (heq : lineTexts (ts.flatMap trackRows) = lineTexts (ts'.flatMap trackRows)) :
    contentsOf id ts = contentsOf id ts' := by
  have split : ∀ ts : List TrackEntry, lineTexts (ts.flatMap trackRows) = [] ∨ ∃ y, lineTexts (ts.flatMap trackRows) = 10 :: y := by
    intro ts
    cases ts with
    | nil => exact Or.inl rfl
    | cons t ts =>
      right
      simp only [List.flatMap_cons, trackRows, lineTexts, List.cons_append, List.nil_append]
      exact ⟨_, rfl⟩
  have title : ∀ t : TrackEntry, 10 ∉ bytesColumn 24 0 t.bytes ++ str "  MTrk " ++ filled 2 (str (toString t.number)) ++ str s!" length:{t.length}" := by
    intro t
    simp only [str_append, List.mem_append, not_or]
    exact ⟨⟨⟨unlined_column _ _ _, by decide +kernel⟩, unlined_filled _ _ (unlined_nat _)⟩, by decide +kernel, unlined_nat _⟩
  induction ts generalizing ts' with
  | nil =>
    cases ts' with
    | nil => rfl
    | cons t ts' => simp [lineTexts, trackRows] at heq
  | cons t ts ih =>
    cases ts' with
    | nil => simp [lineTexts, trackRows] at heq
    | cons t' ts' =>
      have form : ∀ (t : TrackEntry) (ts : List TrackEntry), lineTexts ((t :: ts).flatMap trackRows) =
          10 :: ((bytesColumn 24 0 t.bytes ++ str "  MTrk " ++ filled 2 (str (toString t.number)) ++ str s!" length:{t.length}") ++
            10 :: (lineTexts (t.events.map eventRow) ++ lineTexts (ts.flatMap trackRows))) := by
        intro t ts
        simp [lineTexts, trackRows, List.flatMap_cons, List.flatMap_append]
      rw [form, form] at heq
      obtain ⟨_, heq⟩ := line_unique (List.cons.inj heq).2 (title t) (title t')
      obtain ⟨r1, r2⟩ := rows_tell _ _ (h t (List.mem_cons_self ..)) (h' t' (List.mem_cons_self ..)) _ _ (split ts) (split ts') heq
      have := ih ts' (fun t ht => h t (List.mem_cons_of_mem _ ht)) (fun t ht => h' t (List.mem_cons_of_mem _ ht)) r2
      simp only [contentsOf, List.map_cons, id] at this ⊢
      rw [r1, this]

theorem header_tells {h h' : Header} (hv : h.Valid) (hv' : h'.Valid) {x x' : Bytes} (heq : headerRow h ++ 10 :: x = headerRow h' ++ 10 :: x') : h = h' ∧ x = x' := by
  have ts : ∀ s : String, toString s = s := fun _ => rfl
  have unlined : ∀ h : Header, 10 ∉ headerRow h := by
    intro h
    unfold headerRow
    simp only [str_append, ts, List.mem_append, not_or]
    refine ⟨⟨unlined_column _ _ _, ?_⟩, ?_⟩
    · repeat' apply And.intro
      all_goals first
        | with_reducible exact unlined_nat _
        | decide +kernel
    · split
      all_goals simp only [str_append, ts, List.mem_append, not_or]
      all_goals repeat' apply And.intro
      all_goals first
        | with_reducible exact unlined_nat _
        | decide +kernel
  obtain ⟨e1, e2⟩ := line_unique heq (unlined h) (unlined h')
  refine ⟨?_, e2⟩
  unfold headerRow at e1
  simp only [List.append_assoc] at e1
  have e3 := congrArg (List.take 41) (column_split e1).1
  rw [column_start, column_start] at e3
  simp only [List.replicate_zero, List.nil_append] at e3
  have e4 := hex_prefix 13 42 42 _ _ (by omega) (by omega) e3
  have l : ∀ h : Header, h.chunk.bytes.length = 14 := fun h => rfl
  rw [List.take_of_length_le (by rw [l]), List.take_of_length_le (by rw [l])] at e4
  obtain ⟨f, t, d⟩ := h
  obtain ⟨f', t', d'⟩ := h'
  simp only [Header.Valid] at hv hv'
  simp only [Header.chunk, Chunk.bytes, be16, be32, List.append_assoc] at e4
  have e5 := List.append_cancel_left e4
  simp only [List.cons_append, List.nil_append, List.length_cons, List.length_nil, List.cons.injEq, true_and, and_true] at e5
  obtain ⟨a1, a2, a3, a4, a5, a6⟩ := e5
  simp only [← UInt8.toNat_inj, UInt8.toNat_ofNat'] at a1 a2 a3 a4 a5 a6
  simp only [Header.mk.injEq]
  omega

/-- **C153.** If no delta time and no length takes more than four bytes, files with the same disassembly have the same header and the same events: the same
delta times and the same contents, whatever convention for middle C was chosen for each. -/
theorem C153_disassembly_tells (mc mc' : MiddleC) (bytes bytes' : Bytes) (h h' : Header) (ts ts' : List TrackEntry) (hf : FileSays (octaveOffset mc) bytes h ts)
    (hf' : FileSays (octaveOffset mc') bytes' h' ts') (hs : ∀ t ∈ ts, ∀ e ∈ t.events, ShortForm e.bytes) (hs' : ∀ t ∈ ts', ∀ e ∈ t.events, ShortForm e.bytes)
    (heq : disassembled h ts = disassembled h' ts') : h = h' ∧ contentsOf id ts = contentsOf id ts' := by
  have hv : h.Valid := by obtain ⟨_, _, _, hv, _⟩ := hf; exact hv
  have hv' : h'.Valid := by obtain ⟨_, _, _, hv, _⟩ := hf'; exact hv
  unfold disassembled at heq
  simp only [lineTexts, List.flatMap_cons, List.append_assoc, List.cons_append, List.nil_append] at heq
  obtain ⟨e1, e2⟩ := header_tells hv hv' heq
  exact ⟨e1, tracks_tell ts ts' (fun t ht e he => ⟨told_file hf t ht e he, hs t ht e he⟩) (fun t ht e he => ⟨told_file hf' t ht e he, hs' t ht e he⟩) e2⟩

/-- **C153.** Such files, read and written again, become the same file. -/
theorem C153_same_file (mc mc' : MiddleC) (spare spare' bytes bytes' : Bytes) (h h' : Header) (ts ts' : List TrackEntry)
    (hf : FileSays (octaveOffset mc) bytes h ts) (hf' : FileSays (octaveOffset mc') bytes' h' ts') (hs : ∀ t ∈ ts, ∀ e ∈ t.events, ShortForm e.bytes)
    (hs' : ∀ t ∈ ts', ∀ e ∈ t.events, ShortForm e.bytes) (heq : disassembled h ts = disassembled h' ts') :
    ∃ smf smf' out, decode mc spare bytes = .ok smf ∧ decode mc' spare' bytes' = .ok smf' ∧ encode smf = .ok out ∧ encode smf' = .ok out := by
  obtain ⟨rfl, e⟩ := C153_disassembly_tells mc mc' bytes bytes' h h' ts ts' hf hf' hs hs' heq
  obtain ⟨smf, a1, a2⟩ := C146_rewritten mc spare bytes h ts hf
  obtain ⟨smf', b1, b2⟩ := C146_rewritten mc' spare' bytes' h ts' hf'
  exact ⟨smf, smf', _, a1, b1, a2, by rw [e]; exact b2⟩

/-- **C153.** The same from the command line: two runs of `disassemble` that print the same text. -/
theorem C153_command (w w' : World) (args args' argv argv' : List Bytes) (s s' : List (Bytes × FlagValue)) (r r' : List Bytes)
    (hi : Invokes .disassemble args argv) (hi' : Invokes .disassemble args' argv') (hl : CommandLine (options .disassemble) args s r)
    (hl' : CommandLine (options .disassemble) args' s' r') (hr : r.headD [] ≠ []) (hr' : r'.headD [] ≠ []) (bytes bytes' : Bytes)
    (hb : w.read (r.headD []) = some bytes) (hb' : w'.read (r'.headD []) = some bytes') (mc mc' : MiddleC) (hmc : Naming s mc) (hmc' : Naming s' mc')
    (h h' : Header) (ts ts' : List TrackEntry) (hf : FileSays (octaveOffset mc) bytes h ts) (hf' : FileSays (octaveOffset mc') bytes' h' ts')
    (hs : ∀ t ∈ ts, ∀ e ∈ t.events, ShortForm e.bytes) (hs' : ∀ t ∈ ts', ∀ e ∈ t.events, ShortForm e.bytes)
    (ht : ¬ (h.format = 1 ∧ h.tracks = 0)) (ht' : ¬ (h'.format = 1 ∧ h'.tracks = 0)) (hp : NoText s "templates") (hp' : NoText s' "templates")
    (hsp : ¬ Given s "split" (.bool true)) (hsp' : ¬ Given s' "split" (.bool true)) (ho : NoText s "out") (ho' : NoText s' "out")
    (heq : (midiasm w argv).stdout = (midiasm w' argv').stdout) : h = h' ∧ contentsOf id ts = contentsOf id ts' := by
  have d1 := C145_disassemble_command w args argv s r hi hl hr bytes hb mc hmc h ts hf ht hp hsp
  have d2 := C145_disassemble_command w' args' argv' s' r' hi' hl' hr' bytes' hb' mc' hmc' h' ts' hf' ht' hp' hsp'
  rw [d1.1 ho, d2.1 ho'] at heq
  exact C153_disassembly_tells mc mc' bytes bytes' h h' ts ts' hf hf' hs hs' heq

instance (bs : Bytes) : Decidable (ShortForm bs) := by unfold ShortForm; exact inferInstance

/-- A text of a header, a track and one event. -/
def cutRows : List String := [
  "4D 54 68 64 00 00 00 06 00 00 00 01 00 60   MThd length:6, format:0, tracks:1, metrical time:96 ppqn",
  "",
  "4D 54 72 6B 00 00 00 08…                    MTrk 0  length:8",
  "      00 93 3D 40                           tick:0          delta:0          93 NoteOn                 channel:3  note:C♯4, velocity:64"]

/-- Two files that differ in the event at their end, which is cut off, and have the same disassembly. -/
example : ∃ h h' ts ts', FileSays 1 (oneTrack [0, 0x93, 61, 64, 0x81, 0, 0xff, 0x2f]) h ts ∧ FileSays 1 (oneTrack [0, 0x93, 61, 64, 0x81, 0, 0xff, 0x51]) h' ts' ∧
    (∀ t ∈ ts, ∀ e ∈ t.events, ShortForm e.bytes) ∧ (∀ t ∈ ts', ∀ e ∈ t.events, ShortForm e.bytes) ∧ disassembled h ts = disassembled h' ts' := by
  obtain ⟨smf, h1, h2⟩ := Outcome.of_test (o := decode .c3 [] (oneTrack [0, 0x93, 61, 64, 0x81, 0, 0xff, 0x2f]))
    (p := fun smf => decide (∀ t ∈ smf.tracks, ∀ e ∈ t.events, ShortForm e.bytes) && decide (printSMF smf = .ok (lineTexts (cutRows.map str)))) (by decide +kernel)
  obtain ⟨smf', h1', h2'⟩ := Outcome.of_test (o := decode .c3 [] (oneTrack [0, 0x93, 61, 64, 0x81, 0, 0xff, 0x51]))
    (p := fun smf => decide (∀ t ∈ smf.tracks, ∀ e ∈ t.events, ShortForm e.bytes) && decide (printSMF smf = .ok (lineTexts (cutRows.map str)))) (by decide +kernel)
  simp only [Bool.and_eq_true, decide_eq_true_eq] at h2 h2'
  obtain ⟨h, ts, f1, f2⟩ := C143_total .c3 [] _ smf h1
  obtain ⟨h', ts', f1', f2'⟩ := C143_total .c3 [] _ smf' h1'
  refine ⟨h, h', ts, ts', f1, f1', ?_, ?_, ?_⟩
  · rw [← f2.2]
    simpa [MTrk.entry, Event.entry] using h2.1
  · rw [← f2'.2]
    simpa [MTrk.entry, Event.entry] using h2'.1
  · have a := h2.2
    have b := h2'.2
    rw [disassembled_text h1 h ts f2] at a
    rw [disassembled_text h1' h' ts' f2'] at b
    injection a with a
    injection b with b
    rw [a, b]

/-- Two events with delta times of fourteen bytes, of which only the manufacturers differ. -/
def longDelta (id : UInt8) : Bytes := oneTrack (List.replicate 13 0x80 ++ [0, 0xf0, 3, id, 5, 0xf7])

/-- The text of such a file. -/
def longRows : List String := [
  "4D 54 68 64 00 00 00 06 00 00 00 01 00 60   MThd length:6, format:0, tracks:1, metrical time:96 ppqn",
  "",
  "4D 54 72 6B 00 00 00 13…                    MTrk 0  length:19",
  "80 80 80 80 80 80 80 80 80 80 80 80 80 00…  tick:0          delta:0          F0 SysExMessage           <unknown>, 05"]

/-- C153 needs its condition: bytes that are cut off in the first column may be all that tells files apart. -/
theorem C153_long_quantities : ∃ h h' ts ts', FileSays 1 (longDelta 0x70) h ts ∧ FileSays 1 (longDelta 0x71) h' ts' ∧ disassembled h ts = disassembled h' ts' ∧
    contentsOf id ts ≠ contentsOf id ts' := by
  obtain ⟨smf, h1, h2⟩ := Outcome.of_test (o := decode .c3 [] (longDelta 0x70))
    (p := fun smf => decide (smf.fields = [[(0, .sysex [0x70] [5] true)]]) && decide (printSMF smf = .ok (lineTexts (longRows.map str)))) (by decide +kernel)
  obtain ⟨smf', h1', h2'⟩ := Outcome.of_test (o := decode .c3 [] (longDelta 0x71))
    (p := fun smf => decide (smf.fields = [[(0, .sysex [0x71] [5] true)]]) && decide (printSMF smf = .ok (lineTexts (longRows.map str)))) (by decide +kernel)
  simp only [Bool.and_eq_true, decide_eq_true_eq] at h2 h2'
  obtain ⟨h, ts, f1, f2⟩ := C143_total .c3 [] _ smf h1
  obtain ⟨h', ts', f1', f2'⟩ := C143_total .c3 [] _ smf' h1'
  refine ⟨h, h', ts, ts', f1, f1', ?_, ?_⟩
  · have a := h2.2
    have b := h2'.2
    rw [disassembled_text h1 h ts f2] at a
    rw [disassembled_text h1' h' ts' f2'] at b
    injection a with a
    injection b with b
    rw [a, b]
  · rw [← shown_fields f2, ← shown_fields f2', h2.1, h2'.1]
    decide

end Midiasm
