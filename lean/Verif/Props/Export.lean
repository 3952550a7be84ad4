import Verif.Spec.Export
import Verif.Props.FileSays
import Verif.Props.JsonText
import Verif.Props.Printed
import Verif.Props.Tsv
import Verif.Props.WhatCommandsDo

/-!
The exact text of the exported document.
-/

set_option linter.unusedSimpArgs false

namespace Midiasm
open Spec

/-! ### Strings -/

theorem unicodeEscape_eq (n : Nat) (h : n < 65536) : unicodeEscape n = str ("\\u" ++ hexDigits n) := by
  have hd : ∀ d : Fin 16, [lowerHex d.val] = String.utf8EncodeChar ("0123456789abcdef".toList.getD d.val '0') := by decide +kernel
  have hd : ∀ d, d < 16 → String.utf8EncodeChar ("0123456789abcdef".toList.getD d '0') = [lowerHex d] := fun d h => (hd ⟨d, h⟩).symm
  have e : n / 4096 % 16 = n / 4096 := by omega
  rw [str_append, hexDigits, str, str, unicodeEscape, e]
  simp only [String.toList_ofList, List.map_cons, List.map_nil, List.flatMap_cons, List.flatMap_nil, List.append_nil]
  rw [hd _ (by omega), hd _ (by omega), hd _ (by omega), hd _ (by omega)]
  rfl

theorem writeRune_escaped (c : Char) : writeRune c.val.toNat = str (escaped c) := by
  have hc := char_scalar c
  unfold writeRune escaped
  have key : ∀ x : Char, (c.val.toNat = x.val.toNat) ↔ c = x := by
    intro x
    constructor
    · intro h
      exact Char.ext (UInt32.toNat_inj.1 h)
    · rintro rfl; rfl
  have kv : ∀ x : UInt32, (c.val.toNat = x.toNat) ↔ c.val = x := fun x => UInt32.toNat_inj
  have h34 := key '"'
  have h92 := key '\\'
  have h10 := key '\n'
  have h13 := key '\r'
  have h9 := key '\t'
  have h60 := key '<'
  have h62 := key '>'
  have h38 := key '&'
  have h2028 := key '\u2028'
  have h2029 := key '\u2029'
  have h8 := kv 8
  have h12 := kv 12
  have h32 : c.val.toNat < 32 ↔ c.val < 32 := by rw [UInt32.lt_iff_toNat_lt]; rfl
  change (c.val.toNat = 34 ↔ _) at h34
  change (c.val.toNat = 92 ↔ _) at h92
  change (c.val.toNat = 10 ↔ _) at h10
  change (c.val.toNat = 13 ↔ _) at h13
  change (c.val.toNat = 9 ↔ _) at h9
  change (c.val.toNat = 60 ↔ _) at h60
  change (c.val.toNat = 62 ↔ _) at h62
  change (c.val.toNat = 38 ↔ _) at h38
  change (c.val.toNat = 0x2028 ↔ _) at h2028
  change (c.val.toNat = 0x2029 ↔ _) at h2029
  change (c.val.toNat = 8 ↔ _) at h8
  change (c.val.toNat = 12 ↔ _) at h12
  have hn : ¬ c.val.toNat = noRune := by
    intro h
    rw [h] at hc
    rcases hc with h | h <;> unfold noRune at h <;> omega
  have hm : c ∈ ['<', '>', '&', '\u2028', '\u2029'] ↔ (c = '<' ∨ c = '>' ∨ c = '&' ∨ c = '\u2028' ∨ c = '\u2029') := by simp
  simp only [h34, h92, h8, h12, h10, h13, h9, h32, h60, h62, h38, h2028, h2029, hn, hm, if_false]
  split; · decide +kernel
  split; · decide +kernel
  split; · decide +kernel
  split; · decide +kernel
  split; · decide +kernel
  split; · decide +kernel
  split; · decide +kernel
  split
  · apply unicodeEscape_eq
    rename_i h
    rw [← h32, ← h60, ← h62, ← h38, ← h2028, ← h2029] at h
    omega
  · rw [encodeRune_char, str]
    simp

theorem str_join (l : List String) : str (String.join l) = l.flatMap str := by
  induction l with
  | nil => rfl
  | cons s l ih => rw [String.join_cons, str_append, ih]; rfl

theorem writeString_text_eq (s : String) : writeString (runes (str s)) = str ("\"" ++ escapedText s ++ "\"") := by
  rw [str_append, str_append, escapedText, str_join, writeString, str, runes_chars, List.flatMap_map, List.flatMap_map]
  congr 2
  exact List.flatMap_congr fun c _ => writeRune_escaped c

theorem quoted_exists (s : Bytes) : ∃ t, Quoted s t ∧ str t = (runesWith noRune s).flatMap writeRune := by
  unfold runesWith
  have : ∀ n (s : Bytes), s.length ≤ n → ∃ t, Quoted s t ∧ str t = (runesWithAux noRune n s).flatMap writeRune := by
    intro n
    induction n with
    | zero =>
      intro s hs
      have : s = [] := List.eq_nil_of_length_eq_zero (by omega)
      subst this
      exact ⟨"", .done, rfl⟩
    | succ n ih =>
      intro s hs
      cases s with
      | nil => exact ⟨"", .done, rfl⟩
      | cons b rest =>
        have hl := drop_decode_length b rest
        obtain ⟨t, h1, h2⟩ := ih (rest.drop (decodeRune b rest).2) (by simp at hs; simp at hl ⊢; omega)
        rw [runesWithAux, List.flatMap_cons]
        rcases decodeRune_valid b rest with ⟨hd, hge⟩ | ⟨u, hu, he⟩
        · refine ⟨"\\ufffd" ++ t, .bad b rest t ?_ ?_, ?_⟩
          · rintro c ⟨v, hv⟩
            obtain ⟨b', rest', e1, e2⟩ := decode_encode c.val.toNat (char_scalar c) v
            rw [encodeRune_char] at e1
            rw [e1, List.cons_append] at hv
            injection hv with hv1 hv2
            subst hv1 hv2
            rw [hd] at e2
            injection e2 with e2 e3
            have hnil : rest' = [] := List.eq_nil_of_length_eq_zero e3.symm
            rw [← encodeRune_char, ← e2, hnil] at e1
            revert e1
            have : (encodeRune runeError).length = 3 := by decide
            intro e1
            rw [e1] at this
            cases this
          · rw [hd] at h1; exact h1
          · rw [hd, if_pos ⟨rfl, rfl⟩, str_append, h2, hd]
            congr 1
        · obtain ⟨c, hc⟩ := exists_char (decodeRune_scalar b rest)
          have hcons : b :: rest = String.utf8EncodeChar c ++ rest.drop (decodeRune b rest).2 := by
            rw [← encodeRune_char, hc, ← he, List.cons_append, ← hu]
          refine ⟨escaped c ++ t, hcons ▸ .char c _ t h1, ?_⟩
          rw [str_append, ← writeRune_escaped, h2, hc, if_neg]
          rintro ⟨k1, k2⟩
          rw [k2, List.drop_zero] at hu
          have hu' : u = [] := by simpa using hu
          rw [k1, hu'] at he
          have : (encodeRune runeError).length = 3 := by decide
          rw [← he] at this
          cases this
  exact this s.length s (Nat.le_refl _)

theorem utf8EncodeChar_ne (c : Char) : String.utf8EncodeChar c ≠ [] := by
  intro h
  have hp := String.length_utf8EncodeChar c
  have := Char.utf8Size_pos c
  rw [h] at hp
  simp at hp
  omega

/-- Bytes are quoted in one way. -/
theorem C144_quoted_unique {s : Bytes} {t t' : String} (h : Quoted s t) (h' : Quoted s t') : t = t' := by
  induction h generalizing t' with
  | done =>
    generalize hs : ([] : Bytes) = s at h'
    cases h' with
    | done => rfl
    | char c s t _ => simp [utf8EncodeChar_ne c] at hs
    | bad => cases hs
  | char c s t _ ih =>
    generalize hs : String.utf8EncodeChar c ++ s = s' at h'
    cases h' with
    | done => simp [utf8EncodeChar_ne c] at hs
    | char c' s' t' h' =>
      have hr := congrArg runes hs
      rw [← encodeRune_char, ← encodeRune_char, runes_encode_append _ (char_scalar c), runes_encode_append _ (char_scalar c')] at hr
      injection hr with hr _
      have : c = c' := Char.ext (UInt32.toNat_inj.1 hr)
      subst this
      rw [ih (List.append_cancel_left hs ▸ h')]
    | bad b s' t' hb h' => exact absurd ⟨s, hs⟩ (hb c)
  | bad b s t hb _ ih =>
    generalize hs : b :: s = s' at h'
    cases h' with
    | done => cases hs
    | char c' s' t' h' => exact absurd ⟨s', hs.symm⟩ (hb c')
    | bad b' s' t' hb' h' =>
      injection hs with h1 h2
      subst h1 h2
      rw [ih h']

/-! ### Lines -/

/-- Lines, each followed by the indentation of the next. -/
def laidLines (d : Nat) : List String → Bytes
  | [] => []
  | l :: ls => str l ++ ls.flatMap fun l => newline d ++ str l

/-- The value is written in these lines. -/
def InLines (j : Json) (ls : List String) : Prop := ls ≠ [] ∧ ∀ d, writeJson d j = laidLines d ls

theorem lines_after (d : Nat) {ls : List String} (h : ls ≠ []) : (ls.flatMap fun l => newline d ++ str l) = newline d ++ laidLines d ls := by
  cases ls with
  | nil => exact absurd rfl h
  | cons l ls => simp [laidLines]

theorem lines_indented (d : Nat) (ls : List String) :
    ((ls.map ("  " ++ ·)).flatMap fun l => newline d ++ str l) = ls.flatMap fun l => newline (d + 1) ++ str l := by
  rw [List.flatMap_map]
  apply List.flatMap_congr
  intro l _
  rw [str_append, newline, newline, show str "  " = [32, 32] by decide +kernel, show 2 * (d + 1) = 2 * d + 2 by omega,
    ← List.replicate_append_replicate]
  simp [List.replicate]

theorem laid_withComma (d : Nat) {ls : List String} (h : ls ≠ []) : laidLines d (withComma ls) = laidLines d ls ++ [44] := by
  have key : ∀ ls : List String, ls ≠ [] → ((withComma ls).flatMap fun l => newline d ++ str l) = (ls.flatMap fun l => newline d ++ str l) ++ [44] := by
    intro ls
    induction ls with
    | nil => intro h; exact absurd rfl h
    | cons l ls ih =>
      intro _
      cases ls with
      | nil => simp [withComma, str_append, show str "," = [44] by decide +kernel]
      | cons l' ls => rw [withComma, List.flatMap_cons, ih (by simp)]; simp; simp
  cases ls with
  | nil => exact absurd rfl h
  | cons l ls =>
    cases ls with
    | nil => simp [withComma, laidLines, str_append, show str "," = [44] by decide +kernel]
    | cons l' ls =>
      rw [withComma, laidLines, key _ (by simp), laidLines]
      · simp
      · simp

theorem withComma_ne {ls : List String} (h : ls ≠ []) : withComma ls ≠ [] := by
  cases ls with
  | nil => exact absurd rfl h
  | cons l ls => cases ls <;> simp [withComma]

/-- Two lists correspond. -/
def Pairs {α β : Type} (R : α → β → Prop) : List α → List β → Prop
  | [], [] => True
  | a :: as, b :: bs => R a b ∧ Pairs R as bs
  | _, _ => False

theorem Pairs.map {α β γ δ : Type} {R : α → β → Prop} {S : γ → δ → Prop} (f : α → γ) (g : β → δ) (h : ∀ a b, R a b → S (f a) (g b)) :
    ∀ {as : List α} {bs : List β}, Pairs R as bs → Pairs S (as.map f) (bs.map g)
  | [], [], _ => trivial
  | _ :: _, _ :: _, hp => ⟨h _ _ hp.1, Pairs.map f g h hp.2⟩

theorem Pairs.of_map {α γ δ : Type} {S : γ → δ → Prop} (f : α → γ) (g : α → δ) (as : List α) (h : ∀ a ∈ as, S (f a) (g a)) :
    Pairs S (as.map f) (as.map g) := by
  induction as with
  | nil => trivial
  | cons a as ih => exact ⟨h a (by simp), ih fun a ha => h a (by simp [ha])⟩

theorem Pairs.append {α β : Type} {R : α → β → Prop} : ∀ {as as' : List α} {bs bs' : List β}, Pairs R as bs → Pairs R as' bs' →
    Pairs R (as ++ as') (bs ++ bs')
  | [], _, [], _, _, h => h
  | _ :: _, _, _ :: _, _, hp, h => ⟨hp.1, Pairs.append hp.2 h⟩

theorem listed_elements (d : Nat) (j : Json) (js : List Json) (L : List String) (Ls : List (List String)) (h : InLines j L) (hs : Pairs InLines js Ls) :
    ((listed (L :: Ls)).flatMap fun l => newline d ++ str l) = newline d ++ writeJson d j ++ writeElements d js := by
  induction Ls generalizing j js L with
  | nil =>
    cases js with
    | nil => rw [listed, lines_after d h.1, h.2, writeElements]; simp
    | cons => cases hs
  | cons L' Ls ih =>
    cases js with
    | nil => cases hs
    | cons j' js =>
      rw [listed, List.flatMap_append, ih j' js L' hs.1 hs.2, lines_after d (withComma_ne h.1), laid_withComma d h.1, h.2, writeElements]
      · simp
      · simp

theorem laid_bracketed (d : Nat) (l r : String) (v : List String) (vs : List (List String)) :
    laidLines d (bracketed l r (v :: vs)) = str l ++ ((listed (v :: vs)).flatMap fun l => newline (d + 1) ++ str l) ++ newline d ++ str r := by
  rw [← lines_indented]
  simp [bracketed, laidLines]

theorem inLines_arr (js : List Json) (Ls : List (List String)) (h : Pairs InLines js Ls) : InLines (.arr js) (arrayLines Ls) := by
  cases js with
  | nil =>
    cases Ls with
    | nil => exact ⟨by simp [arrayLines, bracketed], fun d => by rw [writeJson]; simp [arrayLines, bracketed, laidLines]⟩
    | cons => cases h
  | cons j js =>
    cases Ls with
    | nil => cases h
    | cons L Ls =>
      refine ⟨by simp [arrayLines, bracketed], fun d => ?_⟩
      rw [writeJson, arrayLines, laid_bracketed, listed_elements (d + 1) j js L Ls h.1 h.2]
      simp [show str "[" = [91] by decide +kernel, show str "]" = [93] by decide +kernel]

/-- A name that is written as it is. -/
def PlainName (s : String) : Prop := escapedText s = s

/-- The member is written in these lines. -/
def MemberInLines (m : String × Json) (l : String × List String) : Prop := m.1 = l.1 ∧ PlainName m.1 ∧ InLines m.2 l.2

theorem memberLines_ne {l : String × List String} (h : l.2 ≠ []) : memberLines l ≠ [] := by
  unfold memberLines
  split
  · contradiction
  · simp

theorem laid_memberLines (d : Nat) {m : String × Json} {l : String × List String} (h : MemberInLines m l) :
    laidLines d (memberLines l) = writeString (runes (str m.1)) ++ [58, 32] ++ writeJson d m.2 := by
  obtain ⟨h1, h2, h3, h4⟩ := h
  rw [writeString_text_eq, h2, h4, h1]
  obtain ⟨k, ls⟩ := l
  cases ls with
  | nil => exact absurd rfl h3
  | cons x ls => simp [memberLines, laidLines, str_append, show str "\": " = [34, 58, 32] by decide +kernel, show str "\"" = [34] by decide +kernel]

theorem listed_members (d : Nat) (m : String × Json) (ms : List (String × Json)) (L : String × List String) (Ls : List (String × List String))
    (h : MemberInLines m L) (hs : Pairs MemberInLines ms Ls) :
    ((listed ((L :: Ls).map memberLines)).flatMap fun l => newline d ++ str l) =
      newline d ++ writeString (runes (str m.1)) ++ [58, 32] ++ writeJson d m.2 ++ writeMembers d (ms.map fun m => (runes (str m.1), m.2)) := by
  induction Ls generalizing m ms L with
  | nil =>
    cases ms with
    | nil => rw [List.map_cons, List.map_nil, listed, lines_after d (memberLines_ne h.2.2.1), laid_memberLines d h, List.map_nil, writeMembers]; simp
    | cons => cases hs
  | cons L' Ls ih =>
    cases ms with
    | nil => cases hs
    | cons m' ms =>
      rw [List.map_cons, List.map_cons, listed, List.flatMap_append, ← List.map_cons, ih m' ms L' hs.1 hs.2,
        lines_after d (withComma_ne (memberLines_ne h.2.2.1)), laid_withComma d (memberLines_ne h.2.2.1), laid_memberLines d h, List.map_cons, writeMembers]
      · simp
      · simp

theorem inLines_obj (ms : List (String × Json)) (Ls : List (String × List String)) (h : Pairs MemberInLines ms Ls) :
    InLines (jobj ms) (objectLines Ls) := by
  cases ms with
  | nil =>
    cases Ls with
    | nil => exact ⟨by simp [objectLines, bracketed], fun d => by rw [jobj, List.map_nil, writeJson]; simp [objectLines, bracketed, laidLines]⟩
    | cons => cases h
  | cons m ms =>
    cases Ls with
    | nil => cases h
    | cons L Ls =>
      refine ⟨by simp [objectLines, bracketed], fun d => ?_⟩
      rw [jobj, List.map_cons, writeJson, objectLines, List.map_cons, laid_bracketed, ← List.map_cons, listed_members (d + 1) m ms L Ls h.1 h.2]
      simp [show str "{" = [123] by decide +kernel, show str "}" = [125] by decide +kernel]

/-! ### Values -/

theorem inLines_jnum (n : Nat) : InLines (jnum n) (numberLines n) :=
  ⟨by simp [numberLines], fun d => by rw [jnum, writeJson, dec_eq_repr]; simp [numberLines, laidLines]⟩

theorem inLines_jint (n : Int) : InLines (jint n) [toString n] := by
  refine ⟨by simp, fun d => ?_⟩
  rw [jint, writeJson]
  simp only [laidLines, List.flatMap_nil, List.append_nil]
  cases n with
  | ofNat n => rw [if_neg (by simp)]; exact dec_eq_repr n
  | negSucc n =>
    rw [if_pos (Int.negSucc_lt_zero n)]
    show 45 :: dec (n + 1) = str ("-" ++ toString (n + 1))
    rw [str_append, dec_eq_repr]
    rfl

theorem inLines_jstr (s : String) : InLines (jstr (str s)) (textLines s) :=
  ⟨by simp [textLines], fun d => by rw [jstr, writeJson, writeString_text_eq]; simp [textLines, laidLines]⟩

theorem inLines_bool (b : Bool) : InLines (.bool b) (boolLines b) :=
  ⟨by simp [boolLines], fun d => by rw [writeJson]; cases b <;> simp [boolLines, laidLines]⟩

theorem inLines_bytes (bs : Bytes) : InLines (.arr (bs.map fun b => jnum b.toNat)) (bytesLines bs) :=
  inLines_arr _ _ (Pairs.of_map _ _ bs fun _ _ => inLines_jnum _)

/-! ### Events -/

theorem inLines_member {k : String} {j : Json} {L : List String} (hk : PlainName k) (h : InLines j L) : MemberInLines (k, j) (k, L) := ⟨rfl, hk, h⟩

theorem plain_names : ∀ k ∈ ["id", "region", "name", "value", "alias", "sequence-number", "text", "copyright", "lyric", "marker", "cuepoint", "channel",
    "port", "tempo", "hour", "minute", "second", "frame-rate", "frames", "fractional-frames", "numerator", "denominator", "ticks-per-click",
    "thirty-seconds-per-quarter", "accidentals", "key-type", "key", "manufacturer", "data", "note", "velocity", "pressure", "controller", "bank",
    "program", "bend", "single", "end", "tag", "delta", "status", "type", "event", "Tag", "Length", "Format", "Tracks", "Division", "PPQN",
    "SMPTETimeCode", "SubFrames", "FPS", "DropFrame", "track-number", "events", "header", "tracks"], escapedText k = k := by decide +kernel

/-- Members with plain names, one after the other. -/
macro "members" : tactic => `(tactic|
  repeat' (first
    | exact trivial
    | exact inLines_jnum _
    | exact inLines_jint _
    | exact inLines_jstr _
    | exact inLines_bool _
    | exact inLines_bytes _
    | refine ⟨inLines_member (plain_names _ (by simp)) ?_, ?_⟩))

theorem inLines_manufacturer (m : Lib.Manufacturer) : InLines (manufacturerToJson m) (makerObject m.id [m.region, m.name]) := by
  refine inLines_obj _ _ ?_
  members

theorem inLines_note (n : NoteVal) : InLines (noteToJson n) (noteObject n.value.toNat [n.name, n.alias]) := by
  refine inLines_obj _ _ ?_
  members

theorem inLines_controller (c : Lib.Controller) :
    InLines (controllerToJson c) (objectLines [("id", numberLines c.id.toNat), ("name", textLines c.name)]) := by
  refine inLines_obj _ _ ?_
  members

theorem inLines_quoted {q : Bytes → String} (hq : ∀ s, str (q s) = (runesWith noRune s).flatMap writeRune) (s : Bytes) :
    InLines (jstrWith noRune s) (one ("\"" ++ q s ++ "\"")) := by
  refine ⟨by simp, fun d => ?_⟩
  rw [jstrWith, writeJson, writeString, ← hq]
  simp [laidLines, str_append, show str "\"" = [34] by decide +kernel]

theorem inLines_members {q : Bytes → String} (hq : ∀ s, str (q s) = (runesWith noRune s).flatMap writeRune) (b : Body) (hb : b.Made) :
    Pairs MemberInLines (b.membersWith noRune) (fieldsOf q b.names b.bank b.view) := by
  cases b with
  | text k s =>
    cases k <;> exact ⟨inLines_member (plain_names _ (by simp [TextKind.field])) (inLines_quoted hq s), trivial⟩
  | sysExContinuation data e =>
    have : e = false := hb
    subst this
    members
  | sequencerSpecific m data => exact ⟨inLines_member (plain_names _ (by simp)) (inLines_manufacturer m), by members⟩
  | sysExMessage m data single => exact ⟨inLines_member (plain_names _ (by simp)) (inLines_manufacturer m), by members⟩
  | noteOn ch n v =>
    exact ⟨inLines_member (plain_names _ (by simp)) (inLines_jnum _), inLines_member (plain_names _ (by simp)) (inLines_note n), by members⟩
  | noteOff ch n v =>
    exact ⟨inLines_member (plain_names _ (by simp)) (inLines_jnum _), inLines_member (plain_names _ (by simp)) (inLines_note n), by members⟩
  | controller ch c v =>
    exact ⟨inLines_member (plain_names _ (by simp)) (inLines_jnum _), inLines_member (plain_names _ (by simp)) (inLines_controller c), by members⟩
  | _ => members

theorem tagOf_view (b : Body) : tagOf b.view = b.tag := by
  cases b with
  | text k s => cases k <;> rfl
  | _ => rfl

theorem channel_status : ∀ ch : UInt8, ch ≤ 15 → (0x80 ||| ch).toNat = 0x80 + ch.toNat ∧ (0x90 ||| ch).toNat = 0x90 + ch.toNat ∧
    (0xA0 ||| (ch &&& 0x0f)).toNat = 0xa0 + ch.toNat ∧ (0xb0 ||| (ch &&& 0x0f)).toNat = 0xb0 + ch.toNat ∧
    (0xc0 ||| (ch &&& 0x0f)).toNat = 0xc0 + ch.toNat ∧ (0xD0 ||| (ch &&& 0x0f)).toNat = 0xd0 + ch.toNat ∧
    (0xe0 ||| ch).toNat = 0xe0 + ch.toNat := by
  apply all8
  decide +kernel

theorem statusByteOf_view (b : Body) (hb : b.Made) : statusByteOf b.view = b.status.toNat := by
  cases b with
  | noteOff ch n v => exact (channel_status ch hb.1).1.symm
  | noteOn ch n v => exact (channel_status ch hb.1).2.1.symm
  | polyphonicPressure ch p => exact (channel_status ch hb.1).2.2.1.symm
  | controller ch c v => exact (channel_status ch hb.1).2.2.2.1.symm
  | programChange ch b p => exact (channel_status ch hb).2.2.2.2.1.symm
  | channelPressure ch p => exact (channel_status ch hb.1).2.2.2.2.2.1.symm
  | pitchBend ch b => exact (channel_status ch hb).2.2.2.2.2.2.symm
  | _ => rfl

theorem metaTypeOf_view (b : Body) : metaTypeOf b.view = if b.isMeta then some b.metaType.toNat else none := by
  cases b <;> rfl

theorem inLines_event {q : Bytes → String} (hq : ∀ s, str (q s) = (runesWith noRune s).flatMap writeRune) (e : Event) (he : e.body.Made) :
    InLines (jobj [("event", eventToJsonWith noRune e)]) (eventObject q e.entry) := by
  refine inLines_obj _ _ ⟨inLines_member (plain_names _ (by simp)) (inLines_obj _ _ (Pairs.append (Pairs.append ?_ ?_) ?_)), trivial⟩
  · simp only [Event.entry, tagOf_view, statusByteOf_view _ he]
    members
  · simp only [Event.entry, metaTypeOf_view]
    cases e.body.isMeta with
    | true => simp only [if_true]; members
    | false => exact trivial
  · exact inLines_members hq e.body he

/-! ### Documents -/

theorem inLines_track {q : Bytes → String} (hq : ∀ s, str (q s) = (runesWith noRune s).flatMap writeRune) (t : MTrk) (ht : t.tag = tagMTrk)
    (he : ∀ e ∈ t.events, e.body.Made) : InLines (trackToJsonWith noRune t) (trackObject q t.entry) := by
  refine inLines_obj _ _ ⟨inLines_member (plain_names _ (by simp)) ?_, inLines_member (plain_names _ (by simp)) (inLines_jnum _),
    inLines_member (plain_names _ (by simp)) ?_, trivial⟩
  · rw [ht]
    exact inLines_jstr "MTrk"
  · apply inLines_arr
    simp only [MTrk.entry, List.map_map]
    exact Pairs.of_map _ _ _ fun e hm => inLines_event hq e (he e hm)

theorem inLines_header (m : MThd) (h : Header) (hs : m.Shows h) : InLines (headerToJsonWith noRune m) (headerObject h) := by
  obtain ⟨s1, s2, s3, s4, s5, s6, s7⟩ := hs
  have htag : InLines (jstrWith noRune m.tag) (textLines "MThd") := by
    rw [s1]
    exact inLines_jstr "MThd"
  have hlen : m.length.toNat = 6 := by rw [s2]; rfl
  unfold headerToJsonWith headerObject
  rw [hlen, s3, s4, s5]
  by_cases hd : h.division < 32768
  · obtain ⟨p1, p2, p3, p4, p5⟩ := s6 hd
    rw [if_pos hd, p1, p2, p3, p4, p5]
    refine inLines_obj _ _ ⟨inLines_member (plain_names _ (by simp)) htag, ?_⟩
    members
  · obtain ⟨p1, p2, p3, p4⟩ := s7 (by omega)
    rw [if_neg hd, p1, p2, p3, p4]
    refine inLines_obj _ _ ⟨inLines_member (plain_names _ (by simp)) htag, ?_⟩
    members

/-- The text of lines. -/
theorem laid_text {ls : List String} (h : ls ≠ []) : laidLines 0 ls = str ("\n".intercalate ls) := by
  cases ls with
  | nil => exact absurd rfl h
  | cons l ls =>
    rw [laidLines]
    induction ls generalizing l with
    | nil => simp
    | cons l' ls ih => rw [String.intercalate_cons_cons, str_append, str_append, List.flatMap_cons, ← ih l' (by simp)]; simp [newline]; rfl

theorem exported_text {q : Bytes → String} (hq : ∀ s, str (q s) = (runesWith noRune s).flatMap writeRune) {mc : MiddleC} {spare bytes : Bytes}
    {smf : SMF} (hd : decode mc spare bytes = .ok smf) (h : Header) (ts : List TrackEntry) (hs : smf.ShowsFile h ts) :
    exportText smf = str ("\n".intercalate (documentLines q h ts)) := by
  obtain ⟨⟨m, h1, h2, _⟩, h3⟩ := hs
  have key : InLines (exportJsonWith noRune smf) (documentLines q h ts) := by
    refine inLines_obj _ _ ⟨inLines_member (plain_names _ (by simp)) ?_, inLines_member (plain_names _ (by simp)) ?_, trivial⟩
    · rw [h1]
      exact inLines_header m h h2
    · have hm := decoded_made hd
      have ht : ∀ t ∈ smf.tracks, t.tag = tagMTrk := by
        intro t ht
        obtain ⟨i, ch, hwf, htag, _, hu⟩ := decode_track hd ht
        exact ((unmarshalMTrk_ok mc spare i ch hwf htag t).1 hu).2.1
      subst h3
      generalize smf.tracks = tracks at *
      cases tracks with
      | nil => exact ⟨by simp, fun d => by simp [tracksToJsonWith, writeJson, laidLines]⟩
      | cons t tracks =>
        rw [if_neg (by simp)]
        apply inLines_arr
        rw [List.map_map]
        exact Pairs.of_map _ _ _ fun t hmem => inLines_track hq t (ht t hmem) (hm t hmem)
  rw [exportText, key.2, laid_text key.1]

/-- **C144.** The exact text of the exported document: for every sequence of bytes that stands for a file, the document shows the header and
each event of each track, member by member and line by line. -/
theorem C144_export_text (mc : MiddleC) (spare bytes : Bytes) (h : Header) (ts : List TrackEntry) (hf : FileSays (octaveOffset mc) bytes h ts) :
    ∃ smf q, decode mc spare bytes = .ok smf ∧ (∀ s, Quoted s (q s)) ∧ exportText smf = str ("\n".intercalate (documentLines q h ts)) := by
  obtain ⟨smf, hd, hs⟩ := (C143_decoding mc spare bytes h ts).2 hf
  exact ⟨smf, fun s => Classical.choose (quoted_exists s), hd, fun s => (Classical.choose_spec (quoted_exists s)).1,
    exported_text (fun s => (Classical.choose_spec (quoted_exists s)).2) hd h ts hs⟩

/-- **C144.** The command `export`: what it prints, or writes to the file named, for the bytes of the file given, whatever the file holds. -/
theorem C144_export_command (w : World) (args argv : List Bytes) (s : List (Bytes × FlagValue)) (r : List Bytes) (hi : Invokes .export_ args argv)
    (hl : CommandLine (options .export_) args s r) (hr : r.headD [] ≠ []) (bytes : Bytes) (hb : w.read (r.headD []) = some bytes) (mc : MiddleC)
    (hmc : Naming s mc) (h : Header) (ts : List TrackEntry) (hf : FileSays (octaveOffset mc) bytes h ts) (ht : ¬ (h.format = 1 ∧ h.tracks = 0)) :
    ∃ q, (∀ s, Quoted s (q s)) ∧ Delivers w s (str ("\n".intercalate (documentLines q h ts))) (midiasm w argv) := by
  obtain ⟨smf, hd, hs⟩ := (C143_decoding mc w.spare bytes h ts).2 hf
  have htext := exported_text (fun s => (Classical.choose_spec (quoted_exists s)).2) hd h ts hs
  refine ⟨fun s => Classical.choose (quoted_exists s), fun s => (Classical.choose_spec (quoted_exists s)).1, ?_⟩
  rw [← htext]
  refine C116_export w args argv s r hi hl smf ⟨hr, bytes, mc, hb, hmc, hd⟩ ?_
  rintro ⟨m, m1, m2, m3⟩
  obtain ⟨⟨m', n1, n2, _⟩, n3⟩ := hs
  rw [m1] at n1
  injection n1 with n1
  subst n1
  obtain ⟨_, _, _, _, _, _, hlen, _⟩ := hf
  refine ht ⟨by rw [← n2.2.2.1]; exact m2, ?_⟩
  rw [← hlen, ← n3, m3]
  rfl

/-- A text with markup, a letter that is not ASCII, a replacement character and a byte that is not UTF-8. -/
example : Quoted [60, 0xc3, 0xa9, 0xef, 0xbf, 0xbd, 0xe9] "\\u003cé\uFFFD\\ufffd" :=
  .char '<' _ _ (.char 'é' _ _ (.char '\uFFFD' _ _ (.bad 0xe9 [] _ (by
    rintro c ⟨t, ht⟩
    have hl := String.length_utf8EncodeChar c
    obtain ⟨b, rest, e1, e2⟩ := decode_encode c.val.toNat (char_scalar c) t
    rw [encodeRune_char] at e1
    rw [e1, List.cons_append] at ht
    injection ht with h1 h2
    subst h1
    rw [h2] at e2
    have h3 : decodeRune 0xe9 [] = (runeError, 0) := rfl
    rw [h3] at e2
    injection e2 with h4 h5
    have h6 : c = '\uFFFD' := Char.ext (UInt32.toNat_inj.1 h4.symm)
    subst h6
    revert e1
    have : String.utf8EncodeChar '\uFFFD' = [0xef, 0xbf, 0xbd] := by decide +kernel
    rw [this]
    intro e1
    cases e1) .done)))

/-- The lines of the document of a file with a text and a program change. -/
def sampleLines : List String := ["{", "  \"header\": {", "    \"Tag\": \"MThd\",", "    \"Length\": 6,", "    \"Format\": 0,",
  "    \"Tracks\": 1,", "    \"Division\": 96,", "    \"PPQN\": 96,", "    \"SMPTETimeCode\": false,", "    \"SubFrames\": 0,",
  "    \"FPS\": 0,", "    \"DropFrame\": false", "  },", "  \"tracks\": [", "    {", "      \"tag\": \"MTrk\",",
  "      \"track-number\": 0,", "      \"events\": [", "        {", "          \"event\": {", "            \"tag\": \"Text\",",
  "            \"delta\": 0,", "            \"status\": 255,", "            \"type\": 1,", "            \"text\": \"\\u003c\\ufffd\"",
  "          }", "        },", "        {", "          \"event\": {", "            \"tag\": \"ProgramChange\",", "            \"delta\": 0,",
  "            \"status\": 195,", "            \"channel\": 3,", "            \"bank\": 0,", "            \"program\": 9", "          }",
  "        }", "      ]", "    }", "  ]", "}"]

example : ∃ h ts smf, FileSays 1 (oneTrack [0, 0xff, 1, 2, 60, 0xe9, 0, 0xc3, 9]) h ts ∧
    decode .c3 [] (oneTrack [0, 0xff, 1, 2, 60, 0xe9, 0, 0xc3, 9]) = .ok smf ∧ exportText smf = List.intercalate [10] (sampleLines.map str) := by
  obtain ⟨smf, h1, h2⟩ := Outcome.of_test (o := decode .c3 [] (oneTrack [0, 0xff, 1, 2, 60, 0xe9, 0, 0xc3, 9]))
    (p := fun smf => decide (exportText smf = List.intercalate [10] (sampleLines.map str))) (by decide +kernel)
  obtain ⟨h, ts, f1, _⟩ := C143_total .c3 [] _ smf h1
  exact ⟨h, ts, smf, f1, h1, of_decide_eq_true h2⟩

end Midiasm
