import Verif.Props.Formats

/-!
C175: from a text in UTF-8 to a file and to JSON and back, without further conditions on the texts of events.
-/

set_option linter.unusedSimpArgs false

namespace Midiasm
open Spec

/-! ### UTF-8 -/

/-- The bytes of a character below 128 are the character itself; the others are not below 128. -/
theorem utf8_ascii (c : Char) (b : UInt8) (hb : b ∈ String.utf8EncodeChar c) (h : b.toNat < 128) : String.utf8EncodeChar c = [b] := by
  rw [← encodeRune_char] at hb ⊢
  unfold encodeRune at hb ⊢
  split
  · rw [if_pos (by assumption)] at hb
    rw [List.mem_singleton.1 hb]
  · exfalso
    rw [if_neg (by assumption)] at hb
    have hv : c.val.toNat < 0x110000 := by
      have := c.valid
      rcases this with h | h <;> omega
    split at hb
    · simp only [List.mem_cons, List.not_mem_nil, or_false] at hb
      rcases hb with rfl | rfl <;> rw [UInt8.toNat_ofNat'] at h <;> omega
    · split at hb
      · simp only [List.mem_cons, List.not_mem_nil, or_false] at hb
        rcases hb with rfl | rfl | rfl <;> rw [UInt8.toNat_ofNat'] at h <;> omega
      · simp only [List.mem_cons, List.not_mem_nil, or_false] at hb
        rcases hb with rfl | rfl | rfl | rfl <;> rw [UInt8.toNat_ofNat'] at h <;> omega

/-- A text can be divided at a character below 128. -/
theorem text_divided {cs : List Char} {a b : Bytes} {c : UInt8} (hc : c.toNat < 128) (h : IsText (a ++ c :: b) cs) :
    (∃ x, IsText a x) ∧ ∃ y, IsText b y := by
  unfold IsText at h
  induction cs generalizing a with
  | nil => simp at h
  | cons ch cs ih =>
    rw [List.flatMap_cons, List.append_eq_append_iff] at h
    have case1 : ∀ a'', a = String.utf8EncodeChar ch ++ a'' → a'' ++ c :: b = cs.flatMap String.utf8EncodeChar → (∃ x, IsText a x) ∧ ∃ y, IsText b y := by
      intro a'' e1 e2
      obtain ⟨⟨x, hx⟩, hy⟩ := ih e2
      exact ⟨⟨ch :: x, by unfold IsText at hx ⊢; rw [e1, hx, List.flatMap_cons]⟩, hy⟩
    rcases h with ⟨a'', e1, e2⟩ | ⟨a'', e1, e2⟩
    · cases a'' with
      | nil =>
        rw [List.append_nil] at e1
        exact case1 [] (by rw [e1, List.append_nil]) e2
      | cons z a'' =>
        rw [List.cons_append, List.cons.injEq] at e2
        obtain ⟨rfl, e2⟩ := e2
        have hs := utf8_ascii ch c (by rw [e1]; simp) hc
        rw [hs] at e1
        cases a with
        | nil =>
          rw [List.nil_append, List.cons.injEq] at e1
          obtain ⟨_, rfl⟩ := e1
          exact ⟨⟨[], rfl⟩, ⟨cs, e2⟩⟩
        | cons _ a => simp at e1
    · exact case1 a'' e1 e2.symm

theorem chomp_utf8 {l : Bytes} {cs : List Char} (h : IsText l cs) : ∃ x, IsText (chomp l) x := by
  unfold chomp
  split
  · rename_i hl
    rcases List.eq_nil_or_concat l with rfl | ⟨y, z, rfl⟩
    · simp at hl
    · rw [List.concat_eq_append] at hl h ⊢
      rw [List.getLast?_concat] at hl
      injection hl with hl
      subst hl
      rw [List.dropLast_concat]
      exact (text_divided (by decide) h).1
  · exact ⟨cs, h⟩

/-- The lines of a text in UTF-8 are in UTF-8. -/
theorem lines_utf8 {text : Bytes} {lines : List Bytes} (h : Lines text lines) : ∀ {cs}, IsText text cs → ∀ l ∈ lines, ∃ x, IsText l x := by
  induction h with
  | nil => simp
  | last l _ _ =>
    intro cs hc l' hl'
    rw [List.mem_singleton.1 hl']
    exact chomp_utf8 hc
  | cons l rest ls _ _ ih =>
    intro cs hc l' hl'
    obtain ⟨⟨x, hx⟩, y, hy⟩ := text_divided (by decide) hc
    rcases List.mem_cons.1 hl' with rfl | hl'
    · exact chomp_utf8 hx
    · exact ih hy l' hl'

/-! ### Events -/

theorem line_utf8 {table : List (String × Lib.Manufacturer)} {l : Bytes} {cs : List Char} (hl : IsText l cs) {delta : UInt32} {k : TextKind} {s : Bytes}
    (h : LineSays table l delta (.text k s)) : ∃ x, IsText s x := by
  obtain ⟨d, gs, hf, _, rfl⟩ := h
  have : ∃ a c b post, l = a ++ c :: (s ++ post) ∧ c.toNat < 128 ∧ (post = [] ∨ post = 10 :: b) := by
    obtain ⟨pre, t, rfl, hr, _⟩ := hf
    have e : form (Body.text k s).tag = named (Body.text k s).tag ++ [.blanks, .rest] := by cases k <;> rfl
    rw [e] at hr
    simp only [named, List.cons_append, List.nil_append, Reads] at hr
    obtain ⟨x1, s1, rfl, _, x2, s2, gs2, rfl, eg, _, _, _, x3, s3, rfl, _, ⟨x4, s4, rfl, _, x5, s5, rfl, hne, hbl, _, x6, s6, gs6, rfl, eg', _, hs6, _⟩, _⟩ := hr
    rw [List.cons.injEq] at eg
    obtain ⟨_, rfl⟩ := eg
    rw [List.cons.injEq] at eg'
    obtain ⟨rfl, _⟩ := eg'
    rcases List.eq_nil_or_concat x5 with h0 | ⟨y, z, rfl⟩
    · exact absurd h0 hne
    · rw [List.concat_eq_append] at hbl ⊢
      have hz : z.toNat < 128 := by
        have := hbl z (by simp)
        unfold Blank at this
        simp only [List.mem_cons, List.not_mem_nil, or_false] at this
        rcases this with rfl | rfl | rfl | rfl | rfl <;> decide
      refine ⟨pre ++ (x1 ++ (x2 ++ (x3 ++ (x4 ++ y)))), z, s6.tail, s6, by simp, hz, ?_⟩
      rcases hs6 with rfl | hs6
      · exact Or.inl rfl
      · cases s6 with
        | nil => exact Or.inl rfl
        | cons q s6 =>
          simp only [List.head?_cons, Option.some.injEq] at hs6
          rw [hs6]
          exact Or.inr rfl
  obtain ⟨a, c, b, post, rfl, hc, hpost⟩ := this
  obtain ⟨_, y, hy⟩ := text_divided hc hl
  rcases hpost with rfl | rfl
  · exact ⟨y, by rwa [List.append_nil] at hy⟩
  · exact (text_divided (by decide) hy).1

/-- The texts of the events are in UTF-8. -/
def Utf8Texts (es : List Event) : Prop := ∀ e ∈ es, ∀ k s, e.body = .text k s → ∃ cs, IsText s cs

theorem holds_utf8 {table : List (String × Lib.Manufacturer)} {ls : List Bytes} {es : List Event} (h : TrackHolds table ls es)
    (hl : ∀ l ∈ ls, ∃ x, IsText l x) : Utf8Texts es := by
  induction h with
  | nil => exact fun e he => by cases he
  | skip l ls es _ _ ih => exact ih fun x hx => hl x (by simp [hx])
  | event l ls e es _ hr _ ih =>
    intro x hx k s hb
    rcases List.mem_cons.1 hx with rfl | hx
    · obtain ⟨cs, hc⟩ := hl l (by simp)
      have := hr.2.1
      rw [hb] at this
      exact line_utf8 hc this
    · exact ih (fun x hx => hl x (by simp [hx])) x hx k s hb

theorem restored_utf8 {es es' : List Event} (h : TerminatorsRestored es es') (hu : Utf8Texts es) : Utf8Texts es' := by
  induction h with
  | last e => exact hu
  | goesOn e n es es' _ _ ih =>
    intro x hx
    rcases List.mem_cons.1 hx with rfl | hx
    · exact hu _ (by simp)
    · exact ih (fun y hy => hu y (by simp [List.mem_cons.1 hy])) x hx
  | ends e n es es' _ _ ih =>
    intro x hx
    rcases List.mem_cons.1 hx with rfl | hx
    · intro k s hb
      refine hu e (by simp) k s ?_
      cases he : e.body <;> simp only [he, endPacket, reduceCtorEq] at hb ⊢
      exact hb
    · exact ih (fun y hy => hu y (by simp [List.mem_cons.1 hy])) x hx

theorem stands_utf8 {table : List (String × Lib.Manufacturer)} {secs : List (List Bytes)} {h : Option Header} {ts : List (List Event)}
    (hs : Stands table secs h ts) (hl : ∀ c ∈ secs, ∀ l ∈ c, ∃ x, IsText l x) : ∀ es ∈ ts, Utf8Texts es := by
  induction hs with
  | nil => intro es hes; cases hes
  | comment ss h ts l t _ _ ih => exact ih fun c hc => hl c (by simp [hc])
  | header ss h ts l t f d _ _ _ _ ih => exact ih fun c hc => hl c (by simp [hc])
  | track ss h ts l t es es' _ _ _ _ hh hr ih =>
    intro x hx
    rcases List.mem_append.1 hx with hx | hx
    · exact ih (fun c hc => hl c (by simp [hc])) x hx
    · rw [List.mem_singleton.1 hx]
      exact restored_utf8 hr (holds_utf8 hh fun y hy => hl (l :: t) (by simp) y (by simp [hy]))

/-! ### The property -/

/-- **C175.** If a text is in UTF-8, so are the texts of all the events that it stands for. -/
theorem C175_texts (table : List (String × Lib.Manufacturer)) (text : Bytes) (cs : List Char) (ht : IsText text cs) (lines : List Bytes)
    (secs : List (List Bytes)) (h : Option Header) (ts : List (List Event)) (h1 : Lines text lines) (h2 : Chunked lines secs) (h3 : Stands table secs h ts) :
    ∀ es ∈ ts, ∀ e ∈ es, ∀ k s, e.body = .text k s → ∃ cs, IsText s cs := by
  refine stands_utf8 h3 fun c hc l hl => lines_utf8 h1 ht l ?_
  obtain ⟨skipped, e, _⟩ := h2.all
  rw [e]
  exact List.mem_append_right _ (List.mem_flatten.2 ⟨c, hc, hl⟩)

theorem repeatable_utf8 {table : List (String × Lib.Manufacturer)} {text : Bytes} {cs : List Char} (ht : IsText text cs) {h : Header} {ts : List (List Event)}
    (hr : Repeatable table text h ts) : ∀ es ∈ ts, ∀ e ∈ es, ∀ k s, e.body = .text k s → ∃ cs, IsText s cs := by
  obtain ⟨lines, secs, h1, h2, h3⟩ := hr.states
  exact C175_texts table text cs ht lines secs _ ts h1 h2 h3

/-- **C175.** From a text in UTF-8 to JSON: the text is assembled to a file, the file exported and the export assembled, and the result is the same file. -/
theorem C175_text_to_json (table : List (String × Lib.Manufacturer)) (htab : ∀ e, e ∈ table ↔ e ∈ Lib.manufacturers) (text : Bytes) (cs : List Char)
    (ht : IsText text cs) (h : Header) (ts : List (List Event)) (hr : Repeatable table text h ts) (b : Bytes) (hb : assembleText table text = .ok b)
    (hlen : b.length < 2 ^ 32) (spare : Bytes) (mc mc' : MiddleC) : ∃ smf, decode mc spare b = .ok smf ∧ assembleJsonText mc' (exportText smf) = .ok b :=
  C169_text_to_json table htab text h ts hr (repeatable_utf8 ht hr) b hb hlen spare mc mc'

/-- **C175.** The same with the program, in three runs. -/
theorem C175_text_to_json_runs (w : World) (args argv args' argv' args'' argv'' : List Bytes) (s s' s'' : List (Bytes × FlagValue)) (r r' r'' : List Bytes)
    (hi : Invokes .assemble args argv) (hl : CommandLine (options .assemble) args s r)
    (hi' : Invokes .export_ args' argv') (hl' : CommandLine (options .export_) args' s' r')
    (hi'' : Invokes .assemble args'' argv'') (hl'' : CommandLine (options .assemble) args'' s'' r'')
    (text : Bytes) (cs : List Char) (hcs : IsText text cs) (hr : r.headD [] ≠ []) (hrd : w.read (r.headD []) = some text)
    (hext : extPath (r.headD []) ≠ str ".json") (h : Header) (ts : List (List Event)) (ht : Repeatable Lib.manufacturers text h ts) (hne : ts ≠ [])
    (b : Bytes) (hb : assembleText Lib.manufacturers text = .ok b) (hlen : b.length < 2 ^ 32)
    (mid : Bytes) (ho : Output s mid) (hc : w.create mid = true)
    (hr' : r'.headD [] = mid) (doc : Bytes) (ho' : Output s' doc) (hc' : w.create doc = true)
    (hr'' : r''.headD [] = doc) (hext' : extPath doc = str ".json") (out : Bytes) (ho'' : Output s'' out) (hc'' : w.create out = true) :
    midiasm w argv = ⟨[(mid, b)], [], .success⟩ ∧
    midiasm ((w.after (midiasm w argv)).after (midiasm (w.after (midiasm w argv)) argv')) argv'' = ⟨[(out, b)], [], .success⟩ :=
  C169_text_to_json_runs w args argv args' argv' args'' argv'' s s' s'' r r' r'' hi hl hi' hl' hi'' hl'' text hr hrd hext h ts ht hne
    (repeatable_utf8 hcs ht) b hb hlen mid ho hc hr' doc ho' hc' hr'' hext' out ho'' hc''

/-- C175: a text in UTF-8 that meets the hypotheses. -/
example : ∃ cs, IsText noteAndMessage cs ∧ Repeatable Lib.manufacturers noteAndMessage ⟨0, 1, 96⟩ [noteAndMessageEvents] :=
  ⟨_, rfl, noteAndMessage_repeatable⟩

end Midiasm
