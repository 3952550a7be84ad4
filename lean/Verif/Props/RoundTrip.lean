import Verif.Lemmas.Encode
import Verif.Lemmas.Unique

/-!
C15, C16, C18 to C23, C68: single events written and read back.
-/

set_option linter.unusedSimpArgs false

namespace Midiasm
open Spec

/-- The event `b`, written with any delta time below 2^28, is read back by the track parser as an event with the same delta
time and the field values `c`, in any state of the parser in which no SysEx message is unterminated (`pending = false`) or one
is (`pending = true`), at any tick and followed by any bytes, which are left unread. -/
def ReadsBackAs (pending : Bool) (b : Body) (c : Content) : Prop :=
  ∃ bs, b.marshal = .ok bs ∧
    ∀ (d : UInt32), d.toNat < 2 ^ 28 → ∀ (mc : MiddleC) (spare rest : Bytes) (tick : UInt32) (ctx : Context),
      GoodRS ctx.runningStatus → ctx.casio = pending →
      ∃ e ctx', parseEvent mc (deltaMarshal d ++ bs ++ rest) spare tick ctx = .ok (e, rest, ctx') ∧ e.delta = d ∧
        e.body.view = c

/-- Written and read back unchanged. -/
def ReadsBack (pending : Bool) (b : Body) : Prop := ReadsBackAs pending b b.view

theorem readsBack_of_framed {pending : Bool} {b : Body} {bs : Bytes} {raw : Raw} {c : Content} (hm : b.marshal = .ok bs)
    (hfr : ∀ rs, ∃ rs', Framed 1 rs raw bs rs') (hme : meaning pending raw = some c) : ReadsBackAs pending b (asShown c) := by
  refine ⟨bs, hm, fun d hd mc spare rest tick ctx _ hc => ?_⟩
  obtain ⟨rs', hf⟩ := hfr (rsOf ctx.runningStatus)
  have hp := parseEvent_framed mc spare rest tick ctx ⟨d, raw, deltaMarshal d ++ bs⟩ rs' ⟨_, _, rfl, quantity_delta d hd, hf⟩
  obtain ⟨b', hb', hv⟩ := (body_meaning mc pending raw (wfRaw_of_framed hf)).1 c hme
  simp only at hp
  rw [hc, hb', Outcome.bind_ok] at hp
  exact ⟨_, _, hp, rfl, hv⟩

/-- Faithful events read back unchanged. -/
theorem readsBack_faithful (pending : Bool) (b : Body) (hb : b.Faithful) (ho : b.InOrder pending) : ReadsBack pending b := by
  obtain ⟨bs, hm, hcase⟩ := marshal_faithful b hb
  obtain ⟨h1, _, h3⟩ := meaning_faithful b hb pending ho
  have := readsBack_of_framed (raw := b.wire) (c := b.view) hm ?_ h1
  · rwa [h3] at this
  · intro rs
    rcases hcase with ⟨s, data, hw, hbs, hs, hlen, _⟩ | ⟨hfr, _⟩
    · exact ⟨some s, by rw [hw, hbs]; exact .full hs hlen⟩
    · exact ⟨none, hfr rs⟩

/-- Conversely, what was read back determines the wire form. -/
theorem framed_of_readsBack {pending : Bool} {b : Body} {c : Content} (h : ReadsBackAs pending b c) :
    ∃ bs raw rs' c', b.marshal = .ok bs ∧ Framed 1 none raw bs rs' ∧ meaning pending raw = some c' ∧ asShown c' = c := by
  obtain ⟨bs, hm, h⟩ := h
  let ctx : Context := { newContext with casio := pending }
  have hg : GoodRS ctx.runningStatus := Or.inl (show newContext.runningStatus.toNat < 0x80 by decide)
  obtain ⟨e, ctx', hp, hd, hv⟩ := h 0 (by decide) .c3 [] [] 0 ctx hg rfl
  have hdelta : deltaMarshal 0 = [0] := by decide
  rw [hdelta, List.append_nil] at hp
  rcases parseEvent_cases .c3 [] 0 ctx hg ([0] ++ bs) with ⟨i, rest, rs', hb, hf⟩ | ⟨_, h⟩ | ⟨_, h⟩ | ⟨_, h⟩
  · have hp' := parseEvent_framed .c3 [] rest 0 ctx i rs' hf
    rw [← hb, hp] at hp'
    cases hbo : bodyOutcome .c3 ctx.casio i.raw with
    | ok b' =>
      rw [hbo, Outcome.bind_ok] at hp'
      injection hp' with hp'
      injection hp' with h1 h2
      injection h2 with h2 h3
      subst h2
      rw [List.append_nil] at hb
      obtain ⟨db, eb, hi, hq, hfr⟩ := hf
      -- the delta time is the single byte 0
      rw [hi] at hb
      have hdb : db = [0] ∧ eb = bs := by
        have ht : Terminated [(0 : UInt8)] := ⟨[], 0, rfl, by simp, by decide⟩
        obtain ⟨a1, a2⟩ := terminated_prefix_unique ht hq.1 hb
        exact ⟨a1.symm, a2.symm⟩
      rw [hdb.2] at hfr
      have hwf := wfRaw_of_framed hfr
      obtain ⟨m1, m2⟩ := body_meaning .c3 pending i.raw hwf
      cases hme : meaning pending i.raw with
      | none =>
        rcases m2 hme with ⟨_, h⟩ | ⟨_, h⟩
        · rw [show pending = ctx.casio from rfl, hbo] at h; cases h
        · rw [show pending = ctx.casio from rfl, hbo] at h; cases h
      | some c' =>
        obtain ⟨b'', hb'', hv''⟩ := m1 c' hme
        rw [show pending = ctx.casio from rfl, hbo] at hb''
        injection hb'' with hb''
        subst hb''
        refine ⟨bs, i.raw, rs', c', hm, hfr, hme, ?_⟩
        rw [← hv, h1, mkEvent, hv'']
    | err e => rw [hbo] at hp'; cases hp'
    | panic => rw [hbo] at hp'; cases hp'
    | diverge => rw [hbo] at hp'; cases hp'
  · rw [hp] at h; cases h
  · rw [hp] at h; cases h
  · rw [hp] at h; cases h

/-- Contents of channel messages. -/
def isChan : Content → Bool
  | .noteOff _ _ _ | .noteOn _ _ _ | .polyPressure _ _ _ | .controller _ _ _ | .program _ _ | .channelPressure _ _
  | .pitchBend _ _ => true
  | _ => false

/-- Contents of system exclusive packets. -/
def isSysex : Content → Bool
  | .sysex _ _ _ | .continuation _ | .escape _ => true
  | _ => false

theorem isChan_asShown (c : Content) : isChan (asShown c) = isChan c := by cases c <;> rfl
theorem isSysex_asShown (c : Content) : isSysex (asShown c) = isSysex c := by cases c <;> rfl

theorem chanMeaning_kind {s : UInt8} {d : Bytes} {c : Content} (h : chanMeaning s d = some c) :
    isChan c = true ∧ isSysex c = false := by
  unfold chanMeaning at h
  simp only at h
  split at h <;> first | (simp at h; done) | (split at h <;> first | (simp at h; done) | (injection h with h; subst h; exact ⟨rfl, rfl⟩)) | (injection h with h; subst h; exact ⟨rfl, rfl⟩)

macro "kinds" h:ident : tactic => `(tactic|
  first
    | (injection $h with h; subst h; exact ⟨rfl, rfl⟩)
    | (split at $h:ident <;> first
        | (cases $h:ident; done)
        | (injection $h with h; subst h; exact ⟨rfl, rfl⟩)
        | (split at $h:ident <;> first | (cases $h:ident; done) | (injection $h with h; subst h; exact ⟨rfl, rfl⟩))))

theorem metaMeaning_kind {t : Nat} {d : Bytes} {c : Content} (h : metaMeaning t d = some c) :
    isChan c = false ∧ isSysex c = false := by
  unfold metaMeaning at h
  by_cases hc : t = 0x00
  · rw [if_pos hc] at h; clear hc; try simp only at h
    kinds h
  rw [if_neg hc] at h; clear hc
  by_cases hc : 1 ≤ t ∧ t ≤ 9
  · rw [if_pos hc] at h; clear hc; try simp only at h
    kinds h
  rw [if_neg hc] at h; clear hc
  by_cases hc : t = 0x20
  · rw [if_pos hc] at h; clear hc; try simp only at h
    kinds h
  rw [if_neg hc] at h; clear hc
  by_cases hc : t = 0x21
  · rw [if_pos hc] at h; clear hc; try simp only at h
    kinds h
  rw [if_neg hc] at h; clear hc
  by_cases hc : t = 0x2f
  · rw [if_pos hc] at h; clear hc; try simp only at h
    kinds h
  rw [if_neg hc] at h; clear hc
  by_cases hc : t = 0x51
  · rw [if_pos hc] at h; clear hc; try simp only at h
    kinds h
  rw [if_neg hc] at h; clear hc
  by_cases hc : t = 0x54
  · rw [if_pos hc] at h; clear hc; try simp only at h
    kinds h
  rw [if_neg hc] at h; clear hc
  by_cases hc : t = 0x58
  · rw [if_pos hc] at h; clear hc; try simp only at h
    kinds h
  rw [if_neg hc] at h; clear hc
  by_cases hc : t = 0x59
  · rw [if_pos hc] at h; clear hc; try simp only at h
    kinds h
  rw [if_neg hc] at h; clear hc
  by_cases hc : t = 0x7f
  · rw [if_pos hc] at h; clear hc; try simp only at h
    kinds h
  rw [if_neg hc] at h; clear hc
  cases h

theorem sysexMeaning_kind {p : Bool} {s : UInt8} {d : Bytes} {c : Content} (h : sysexMeaning p s d = some c) :
    isChan c = false ∧ isSysex c = true := by
  unfold sysexMeaning at h
  repeat' split at h
  all_goals first | (simp at h; done) | (injection h with h; subst h; exact ⟨rfl, rfl⟩)

theorem meaning_kind {p : Bool} {raw : Raw} {c : Content} (h : meaning p raw = some c) :
    (isChan c = true → ∃ s d, raw = .chan s d) ∧ (isSysex c = true → ∃ s d, raw = .sysex s d) ∧
    (isChan c = false → isSysex c = false → ∃ t d, raw = .metaEvent t d) := by
  cases raw with
  | chan s d =>
    obtain ⟨h1, h2⟩ := chanMeaning_kind h
    exact ⟨fun _ => ⟨_, _, rfl⟩, fun h => by simp [h2] at h, fun h => by simp [h1] at h⟩
  | metaEvent t d =>
    obtain ⟨h1, h2⟩ := metaMeaning_kind h
    exact ⟨fun h => by simp [h1] at h, fun h => by simp [h2] at h, fun _ _ => ⟨_, _, rfl⟩⟩
  | sysex s d =>
    obtain ⟨h1, h2⟩ := sysexMeaning_kind h
    exact ⟨fun h => by simp [h1] at h, fun _ => ⟨_, _, rfl⟩, fun _ h => by simp [h2] at h⟩

/-- Channel messages written in full. -/
theorem framed_chan_inv {s : UInt8} {d bs : Bytes} {rs' : Option UInt8} (h : Framed 1 none (.chan s d) bs rs') : bs = s :: d := by
  cases h
  rfl

/-- Meta events with a one byte length. -/
theorem framed_meta_inv {t : UInt8} {d bs : Bytes} {rs' : Option UInt8} (h : Framed 1 none (.metaEvent t d) bs rs') :
    ∃ len, bs = 0xff :: t :: (len ++ d) ∧ Quantity len d.length := by
  cases h with
  | metaEvent h => exact ⟨_, rfl, h⟩

theorem framed_meta_inv1 {t t' n : UInt8} {d p : Bytes} {rs' : Option UInt8}
    (h : Framed 1 none (.metaEvent t d) (0xff :: t' :: n :: p) rs') (hn : n.toNat < 128) : t = t' ∧ d = p ∧ p.length = n.toNat := by
  obtain ⟨len, h1, h2⟩ := framed_meta_inv h
  simp at h1
  obtain ⟨rfl, h1⟩ := h1
  have hq : Quantity [n] n.toNat := ⟨⟨[], n, rfl, by simp, hn⟩, by simp [value128]; omega⟩
  obtain ⟨rfl, rfl, h⟩ := quantity_unique (x := p) (y := d) hq h2 h1
  exact ⟨rfl, rfl, h.symm⟩

theorem framed_sysex_inv {s s' : UInt8} {d p : Bytes} {rs' : Option UInt8} (hp : p.length < 2 ^ 28)
    (h : Framed 1 none (.sysex s d) (s' :: vlf2bin p) rs') : s = s' ∧ d = p := by
  generalize hb : s' :: vlf2bin p = bs at h
  cases h with
  | sysex h1 h2 =>
    injection hb with hb1 hb2
    rw [vlf2bin] at hb2
    obtain ⟨_, h, _⟩ := quantity_unique (quantity_vlq _ hp) h2 hb2
    exact ⟨hb1.symm, h.symm⟩

/-- The payload of an event value, in bytes. -/
def Body.payload : Body → Nat
  | .text _ s => s.length
  | .sequencerSpecific m d => m.id.length + d.length
  | .sysExMessage m d _ => m.id.length + d.length + 1
  | .sysExContinuation d _ => d.length + 1
  | .sysExEscape d => d.length
  | _ => 0

theorem smpteRateBits_inv (r h : UInt8) (rate : Nat)
    (hr : smpteRate ((smpteRateBits r ||| (h &&& 0x1f)).toNat / 32 % 4) = rate)
    (e2 : rate = r.toNat) :
    (r = 24 ∨ r = 25 ∨ r = 29 ∨ r = 30) := by
  have key : ∀ h : UInt8, smpteRate (((0x00 : UInt8) ||| (h &&& 0x1f)).toNat / 32 % 4) = 24 := 
    all8 (P := fun h => smpteRate (((0x00 : UInt8) ||| (h &&& 0x1f)).toNat / 32 % 4) = 24) (by decide +kernel)
  by_cases h24 : r = 24
  · exact Or.inl h24
  by_cases h25 : r = 25
  · exact Or.inr (Or.inl h25)
  by_cases h29 : r = 29
  · exact Or.inr (Or.inr (Or.inl h29))
  by_cases h30 : r = 30
  · exact Or.inr (Or.inr (Or.inr h30))
  have hz : smpteRateBits r = 0 := by simp [smpteRateBits, h24, h25, h29, h30]
  rw [hz, key h] at hr
  exact absurd (u8_ext (by rw [← e2, ← hr]; rfl)) h24

theorem chanMeaning_inv {s : UInt8} {d : Bytes} {c : Content} (h : chanMeaning s d = some c) :
    (∃ n v, d = [n, v] ∧ s.toNat / 16 = 8 ∧ v.toNat < 128 ∧ c = .noteOff (s.toNat % 16) n.toNat v.toNat) ∨
    (∃ n v, d = [n, v] ∧ s.toNat / 16 = 9 ∧ v.toNat < 128 ∧ c = .noteOn (s.toNat % 16) n.toNat v.toNat) ∨
    (∃ v, d = [v] ∧ s.toNat / 16 = 10 ∧ v.toNat < 128 ∧ c = .polyPressure (s.toNat % 16) none v.toNat) ∨
    (∃ k v, d = [k, v] ∧ s.toNat / 16 = 10 ∧ v.toNat < 128 ∧ c = .polyPressure (s.toNat % 16) (some k.toNat) v.toNat) ∨
    (∃ n v, d = [n, v] ∧ s.toNat / 16 = 11 ∧ c = .controller (s.toNat % 16) n.toNat v.toNat) ∨
    (∃ v, d = [v] ∧ s.toNat / 16 = 12 ∧ c = .program (s.toNat % 16) v.toNat) ∨
    (∃ v, d = [v] ∧ s.toNat / 16 = 13 ∧ v.toNat < 128 ∧ c = .channelPressure (s.toNat % 16) v.toNat) ∨
    (∃ a b, d = [a, b] ∧ s.toNat / 16 = 14 ∧ c = .pitchBend (s.toNat % 16) (a.toNat * 128 + b.toNat % 128)) := by
  unfold chanMeaning at h
  simp only at h
  split at h
  all_goals
    first
      | (cases h; done)
      | (split at h <;> first | (cases h; done) | (injection h with h; subst h; simp_all; try exact ⟨_, _, ⟨rfl, rfl⟩, by assumption, rfl, rfl⟩))
      | (injection h with h; subst h; simp_all; try first | exact ⟨_, _, ⟨rfl, rfl⟩, rfl, rfl⟩ | exact ⟨_, _, ⟨rfl, rfl⟩, rfl⟩)

/-- C68: an event value whose payload is shorter than 2^28 bytes is written and read back unchanged exactly when it is
faithful and its packet is in order. -/
theorem C68_survives_iff (pending : Bool) (b : Body) (hp : b.payload < 2 ^ 28) :
    ReadsBack pending b ↔ b.Faithful ∧ b.InOrder pending := by
  refine ⟨fun h => ?_, fun h => readsBack_faithful pending b h.1 h.2⟩
  obtain ⟨bs, raw, rs', c, hm, hf, hme, hc⟩ := framed_of_readsBack h
  obtain ⟨k1, k2, k3⟩ := meaning_kind hme
  rw [← isChan_asShown, hc] at k1 k3
  rw [← isSysex_asShown, hc] at k2 k3
  cases b with
  | sequenceNumber n => exact ⟨trivial, trivial⟩
  | text k s =>
    refine ⟨?_, trivial⟩
    simp only [Body.Faithful]
    split
    · simpa [Body.payload] using hp
    · rename_i hk
      obtain ⟨t, d, rfl⟩ := k3 rfl rfl
      have hbs : bs = 0xff :: k.type :: UInt8.ofNat s.length :: s := by
        have : Body.marshal (.text k s) = .ok (0xff :: k.type :: UInt8.ofNat s.length :: s) := by
          cases k <;> first | rfl | exact absurd rfl hk
        rw [this] at hm; injection hm with hm; exact hm.symm
      obtain ⟨len, h1, h2⟩ := framed_meta_inv hf
      rw [hbs] at h1
      simp at h1
      obtain ⟨rfl, h1⟩ := h1
      obtain ⟨r1, r2⟩ := textKind_range k
      rw [meaning, metaMeaning.eq_def, Nat.mod_eq_of_lt (by omega), if_neg (by omega), if_pos ⟨r1, r2⟩] at hme
      injection hme with hme
      subst hme
      simp [asShown, Body.view] at hc
      subst hc
      cases len with
      | nil => obtain ⟨_, _, h, _⟩ := h2.1; simp at h
      | cons x xs =>
        simp at h1
        have : xs = [] := by
          have := congrArg List.length h1.2
          simp at this
          exact this
        subst this
        obtain ⟨⟨pre, last, e, _, hlt⟩, hv⟩ := h2
        cases pre with
        | cons => simp at e
        | nil =>
          simp at e
          subst e
          simp [value128] at hv
          have := x.toNat_lt
          omega
  | midiChannelPrefix ch =>
    refine ⟨?_, trivial⟩
    obtain ⟨t, d, rfl⟩ := k3 rfl rfl
    simp only [Body.marshal] at hm
    injection hm with hm
    subst hm
    obtain ⟨rfl, rfl, _⟩ := framed_meta_inv1 hf (by decide)
    simp [meaning, metaMeaning] at hme
    simp only [Body.Faithful]
    omega
  | midiPort p =>
    refine ⟨?_, trivial⟩
    obtain ⟨t, d, rfl⟩ := k3 rfl rfl
    simp only [Body.marshal] at hm
    injection hm with hm
    subst hm
    obtain ⟨rfl, rfl, _⟩ := framed_meta_inv1 hf (by decide)
    simp [meaning, metaMeaning] at hme
    simp only [Body.Faithful]
    omega
  | endOfTrack => exact ⟨trivial, trivial⟩
  | tempo t =>
    refine ⟨?_, trivial⟩
    obtain ⟨ty, d, rfl⟩ := k3 rfl rfl
    simp only [Body.marshal] at hm
    injection hm with hm
    subst hm
    obtain ⟨rfl, rfl, _⟩ := framed_meta_inv1 hf (by decide)
    simp only [meaning, metaMeaning] at hme
    rw [if_neg (by decide), if_neg (by decide), if_neg (by decide), if_neg (by decide), if_neg (by decide), if_pos (by decide)] at hme
    injection hme with hme
    subst hme
    simp only [asShown, Body.view] at hc
    injection hc with hc
    simp only [Body.Faithful]
    have h1 := (t >>> 16 &&& 0xff).toUInt8.toNat_lt
    have h2 := (t >>> 8 &&& 0xff).toUInt8.toNat_lt
    have h3 := (t >>> 0 &&& 0xff).toUInt8.toNat_lt
    omega
  | smpteOffset hr m s r f ff =>
    refine ⟨?_, trivial⟩
    obtain ⟨ty, d, rfl⟩ := k3 rfl rfl
    simp only [Body.marshal] at hm
    injection hm with hm
    subst hm
    obtain ⟨rfl, rfl, _⟩ := framed_meta_inv1 hf (by decide)
    simp only [meaning, metaMeaning] at hme
    rw [if_neg (by decide), if_neg (by decide), if_neg (by decide), if_neg (by decide), if_neg (by decide), if_neg (by decide), if_pos (by decide)] at hme
    split at hme
    · rename_i hrr
      injection hme with hme
      subst hme
      simp only [asShown, Body.view] at hc
      injection hc with c1 c2 c3 c4 c5 c6
      obtain ⟨r1, r2, r3, r4, r5⟩ := hrr
      exact ⟨by omega, r2, r3, smpteRateBits_inv r hr _ rfl c4, by omega, r5⟩
    · cases hme
  | timeSignature n d c t =>
    refine ⟨?_, trivial⟩
    obtain ⟨ty, dd, rfl⟩ := k3 rfl rfl
    simp only [Body.marshal] at hm
    rcases Nat.lt_or_ge 128 d.toNat with h | h
    · rw [(denomLoop_value d).2 h] at hm; cases hm
    · obtain ⟨e, he, h7, _, _⟩ := (denomLoop_value d).1 h
      rw [he, Outcome.bind_ok] at hm
      injection hm with hm
      subst hm
      obtain ⟨rfl, rfl, _⟩ := framed_meta_inv1 hf (by decide)
      simp only [meaning, metaMeaning] at hme
      rw [if_neg (by decide), if_neg (by decide), if_neg (by decide), if_neg (by decide), if_neg (by decide), if_neg (by decide), if_neg (by decide), if_pos (by decide)] at hme
      injection hme with hme
      subst hme
      simp only [asShown, Body.view] at hc
      injection hc with c1 c2 c3 c4
      have h1 : (UInt8.ofNat e).toNat = e := by simp; omega
      rw [h1] at c2
      refine ⟨e, h7, ?_⟩
      rw [← c2, Nat.mod_eq_of_lt]
      calc 2 ^ e ≤ 2 ^ 7 := Nat.pow_le_pow_right (by decide) h7
        _ < 256 := by decide
  | keySignature a k name =>
    refine ⟨?_, trivial⟩
    obtain ⟨ty, d, rfl⟩ := k3 rfl rfl
    simp only [Body.marshal] at hm
    injection hm with hm
    subst hm
    obtain ⟨rfl, rfl, _⟩ := framed_meta_inv1 hf (by decide)
    simp only [meaning, metaMeaning] at hme
    rw [if_neg (by decide), if_neg (by decide), if_neg (by decide), if_neg (by decide), if_neg (by decide), if_neg (by decide), if_neg (by decide), if_neg (by decide), if_pos (by decide)] at hme
    split at hme
    · rename_i hr
      injection hme with hme
      subst hme
      simp only [asShown, Body.view] at hc
      injection hc with c1 c2
      simp only [Body.Faithful, ← c1]
      exact hr
    · cases hme
  | sequencerSpecific m data =>
    refine ⟨?_, trivial⟩
    obtain ⟨ty, d, rfl⟩ := k3 rfl rfl
    simp only [Body.marshal] at hm
    injection hm with hm
    subst hm
    obtain ⟨len, h1, h2⟩ := framed_meta_inv hf
    simp at h1
    obtain ⟨rfl, h1⟩ := h1
    simp only [meaning, metaMeaning] at hme
    rw [if_neg (by decide), if_neg (by decide), if_neg (by decide), if_neg (by decide), if_neg (by decide), if_neg (by decide), if_neg (by decide), if_neg (by decide), if_neg (by decide), if_pos (by decide)] at hme
    have hid : ∃ id, d = id ++ data ∧ id.length = m.id.length ∧ ((id = m.id ∧ m.id ≠ [0x7f]) ∨ (id = [0x7f] ∧ m.id = [0x7e])) ∧
        ((∃ b, id = [b] ∧ b ≠ 0) ∨ ∃ b c, id = [0, b, c]) := by
      split at hme
      · injection hme with hme
        subst hme
        simp [asShown, Body.view] at hc
        obtain ⟨c1, rfl⟩ := hc
        exact ⟨_, rfl, by rw [← c1], Or.inl ⟨c1, by rw [← c1]; simp⟩, Or.inr ⟨_, _, rfl⟩⟩
      · split at hme
        · cases hme
        · rename_i b d' _ hb0
          injection hme with hme
          subst hme
          simp only [asShown, Body.view] at hc
          injection hc with c1 c2
          subst c2
          refine ⟨[b], rfl, ?_, ?_, Or.inl ⟨_, rfl, hb0⟩⟩
          · rw [← c1]; split <;> rfl
          · by_cases h7 : b = 0x7f
            · rw [if_pos (by rw [h7])] at c1
              exact Or.inr ⟨by rw [h7], c1.symm⟩
            · rw [if_neg (by simpa using h7)] at c1
              exact Or.inl ⟨c1, by rw [← c1]; simpa using h7⟩
      · cases hme
    obtain ⟨id, rfl, hlen, hids, hform⟩ := hid
    -- the length is one byte
    have hl1 : len.length = 1 := by
      have := congrArg List.length h1
      simp at this
      omega
    obtain ⟨x, rfl⟩ : ∃ x, len = [x] := by
      match len, hl1 with
      | [x], _ => exact ⟨x, rfl⟩
    simp at h1
    obtain ⟨hx, h1⟩ := h1
    obtain ⟨⟨pre, last, e, _, hlt⟩, hv⟩ := h2
    have hxl : x = last := by
      cases pre with
      | cons => simp at e
      | nil => simpa using e
    rw [← hxl] at hlt
    simp [value128] at hv
    have := x.toNat_lt
    subst h1
    rcases hids with ⟨hi, hne⟩ | ⟨hi, he⟩
    · refine ⟨?_, by omega⟩
      rcases hform with ⟨b, hb, hb0⟩ | h
      · exact Or.inl ⟨b, hb, hb0, fun h7 => hne (by rw [hb, h7])⟩
      · exact Or.inr h
    · rw [hi] at he; simp at he
  | noteOff ch n v =>
    refine ⟨?_, trivial⟩
    obtain ⟨st, d, rfl⟩ := k1 rfl
    simp only [meaning] at hme
    rcases chanMeaning_inv hme with ⟨a, b, _, g1, g2, rfl⟩ | ⟨a, b, _, g1, g2, rfl⟩ | ⟨a, _, g1, g2, rfl⟩ | ⟨a, b, _, g1, g2, rfl⟩ |
      ⟨a, b, _, g1, rfl⟩ | ⟨a, _, g1, rfl⟩ | ⟨a, _, g1, g2, rfl⟩ | ⟨a, b, _, g1, rfl⟩ <;> simp [asShown, Body.view] at hc
    exact ⟨by omega, by omega⟩
  | noteOn ch n v =>
    refine ⟨?_, trivial⟩
    obtain ⟨st, d, rfl⟩ := k1 rfl
    simp only [meaning] at hme
    rcases chanMeaning_inv hme with ⟨a, b, _, g1, g2, rfl⟩ | ⟨a, b, _, g1, g2, rfl⟩ | ⟨a, _, g1, g2, rfl⟩ | ⟨a, b, _, g1, g2, rfl⟩ |
      ⟨a, b, _, g1, rfl⟩ | ⟨a, _, g1, rfl⟩ | ⟨a, _, g1, g2, rfl⟩ | ⟨a, b, _, g1, rfl⟩ <;> simp [asShown, Body.view] at hc
    exact ⟨by omega, by omega⟩
  | polyphonicPressure ch v =>
    refine ⟨?_, trivial⟩
    obtain ⟨st, d, rfl⟩ := k1 rfl
    simp only [meaning] at hme
    rcases chanMeaning_inv hme with ⟨a, b, _, g1, g2, rfl⟩ | ⟨a, b, _, g1, g2, rfl⟩ | ⟨a, _, g1, g2, rfl⟩ | ⟨a, b, _, g1, g2, rfl⟩ |
      ⟨a, b, _, g1, rfl⟩ | ⟨a, _, g1, rfl⟩ | ⟨a, _, g1, g2, rfl⟩ | ⟨a, b, _, g1, rfl⟩ <;> simp [asShown, Body.view] at hc
    exact ⟨by omega, by omega⟩
  | controller ch n v =>
    refine ⟨?_, trivial⟩
    obtain ⟨st, d, rfl⟩ := k1 rfl
    simp only [meaning] at hme
    rcases chanMeaning_inv hme with ⟨a, b, _, g1, g2, rfl⟩ | ⟨a, b, _, g1, g2, rfl⟩ | ⟨a, _, g1, g2, rfl⟩ | ⟨a, b, _, g1, g2, rfl⟩ |
      ⟨a, b, _, g1, rfl⟩ | ⟨a, _, g1, rfl⟩ | ⟨a, _, g1, g2, rfl⟩ | ⟨a, b, _, g1, rfl⟩ <;> simp [asShown, Body.view] at hc
    simp only [Body.Faithful]
    omega
  | programChange ch bank v =>
    refine ⟨?_, trivial⟩
    obtain ⟨st, d, rfl⟩ := k1 rfl
    simp only [meaning] at hme
    rcases chanMeaning_inv hme with ⟨a, b, _, g1, g2, rfl⟩ | ⟨a, b, _, g1, g2, rfl⟩ | ⟨a, _, g1, g2, rfl⟩ | ⟨a, b, _, g1, g2, rfl⟩ |
      ⟨a, b, _, g1, rfl⟩ | ⟨a, _, g1, rfl⟩ | ⟨a, _, g1, g2, rfl⟩ | ⟨a, b, _, g1, rfl⟩ <;> simp [asShown, Body.view] at hc
    simp only [Body.Faithful]
    omega
  | channelPressure ch v =>
    refine ⟨?_, trivial⟩
    obtain ⟨st, d, rfl⟩ := k1 rfl
    simp only [meaning] at hme
    rcases chanMeaning_inv hme with ⟨a, b, _, g1, g2, rfl⟩ | ⟨a, b, _, g1, g2, rfl⟩ | ⟨a, _, g1, g2, rfl⟩ | ⟨a, b, _, g1, g2, rfl⟩ |
      ⟨a, b, _, g1, rfl⟩ | ⟨a, _, g1, rfl⟩ | ⟨a, _, g1, g2, rfl⟩ | ⟨a, b, _, g1, rfl⟩ <;> simp [asShown, Body.view] at hc
    exact ⟨by omega, by omega⟩
  | pitchBend ch bend =>
    refine ⟨?_, trivial⟩
    obtain ⟨st, d, rfl⟩ := k1 rfl
    simp only [meaning] at hme
    have hbs := framed_chan_inv hf
    simp only [Body.marshal] at hm
    injection hm with hm
    rw [hbs] at hm
    rcases chanMeaning_inv hme with ⟨a, b, _, g1, g2, rfl⟩ | ⟨a, b, _, g1, g2, rfl⟩ | ⟨a, _, g1, g2, rfl⟩ | ⟨a, b, _, g1, g2, rfl⟩ |
      ⟨a, b, _, g1, rfl⟩ | ⟨a, _, g1, rfl⟩ | ⟨a, _, g1, g2, rfl⟩ | ⟨a, b, rfl, g1, rfl⟩ <;> simp only [asShown, Body.view] at hc <;>
      first | (cases hc; done) | skip
    injection hc with c1 c2
    injection hm with _ hm
    injection hm with e1 hm
    injection hm with e2 _
    have e1 := congrArg UInt8.toNat e1
    have e2 := congrArg UInt8.toNat e2
    rw [byte16 _ 8 (by decide)] at e1
    rw [byte16 _ 0 (by decide)] at e2
    simp only [UInt16.reduceToNat] at e1 e2
    have := bend.toNat_lt
    exact ⟨by omega, by omega⟩
  | sysExMessage m data single =>
    obtain ⟨st, d, rfl⟩ := k2 rfl
    simp only [Body.payload] at hp
    simp only [Body.marshal] at hm
    injection hm with hm
    subst hm
    obtain ⟨rfl, rfl⟩ := framed_sysex_inv (by cases single <;> simp <;> omega) hf
    simp only [meaning, sysexMeaning, if_true] at hme
    split at hme
    · rename_i id b dd heq
      split at hme
      · cases hme
      · rename_i hpend
        injection hme with hme
        subst hme
        simp only [asShown, Body.view] at hc
        injection hc with c1 c2 c3
        have hml : m.id.length = 1 := by rw [← c1]; split <;> rfl
        obtain ⟨x, hx⟩ : ∃ x, m.id = [x] := by
          match hmm : m.id, hml with
          | [x], _ => exact ⟨x, rfl⟩
        rw [hx] at heq
        simp only [List.cons_append, List.nil_append, List.append_assoc] at heq
        injection heq with e1 e2
        subst e1
        have h7 : x ≠ 0x7f := by
          intro h
          rw [if_pos (by rw [h]), hx, h] at c1
          simp at c1
        refine ⟨⟨⟨x, hx, h7⟩, ?_, ?_⟩, ?_⟩
        · rw [hx] at hp; simp at hp; omega
        · intro hs
          subst hs
          simp at e2
          constructor
          · rw [e2]; simp
          · rw [e2]
            simpa using c3
        · simpa [Body.InOrder] using hpend
    · cases hme
  | sysExContinuation data end_ =>
    obtain ⟨st, d, rfl⟩ := k2 rfl
    simp only [Body.payload] at hp
    simp only [Body.marshal] at hm
    injection hm with hm
    subst hm
    obtain ⟨rfl, rfl⟩ := framed_sysex_inv (by cases end_ <;> simp <;> omega) hf
    simp only [meaning, sysexMeaning] at hme
    rw [if_neg (by decide)] at hme
    split at hme
    · rename_i hpend
      injection hme with hme
      subst hme
      simp only [asShown, Body.view] at hc
      injection hc with c1
      refine ⟨⟨by omega, ?_⟩, hpend⟩
      intro he
      subst he
      intro hl
      simp [unterminated, hl] at c1
      have := congrArg List.length c1
      have hne : data ≠ [] := by rintro rfl; simp at hl
      have := List.length_pos_iff.2 hne
      simp at *
      omega
    · injection hme with hme
      subst hme
      simp [asShown, Body.view] at hc
  | sysExEscape data =>
    obtain ⟨st, d, rfl⟩ := k2 rfl
    simp only [Body.payload] at hp
    simp only [Body.marshal] at hm
    injection hm with hm
    subst hm
    obtain ⟨rfl, rfl⟩ := framed_sysex_inv hp hf
    simp only [meaning, sysexMeaning] at hme
    rw [if_neg (by decide)] at hme
    split at hme
    · injection hme with hme
      subst hme
      simp [asShown, Body.view] at hc
    · rename_i hpend
      exact ⟨hp, by simpa [Body.InOrder] using hpend⟩

end Midiasm
