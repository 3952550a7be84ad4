import Verif.Props.TrackEvents

/-!
Facts about every decoded file.
-/

set_option linter.unusedSimpArgs false

namespace Midiasm
open Spec

/-- A decoded file has a valid header that counts its tracks, and every track comes from a track chunk. -/
theorem decode_ok {mc : MiddleC} {spare file : Bytes} {smf : SMF} (hd : decode mc spare file = .ok smf) :
    ∃ (m : MThd) (h : Header), smf.mthd = some m ∧ m.Shows h ∧ h.Valid ∧ h.tracks = smf.tracks.length ∧
      ∀ i t, smf.tracks[i]? = some t → ∃ ch : Chunk, ch.Wf ∧ ch.tag = tagMTrk ∧ ch.body.length + 8 ≤ file.length ∧
        unmarshalMTrk mc spare i ch.bytes = .ok t := by
  obtain ⟨cs, tail, rfl, wf, htail⟩ := split_file file
  rcases htail with htail | htail
  · cases cs with
    | nil =>
      rw [decode, (chunkLoop_file [] (by simp) tail).1 htail] at hd
      cases hd
    | cons c cs =>
      have wc := wf c (by simp)
      have wcs : ∀ c ∈ cs, c.Wf := fun c hc => wf c (by simp [hc])
      rw [decode_chunks mc spare c cs wf tail htail] at hd
      obtain ⟨_, k2, k3⟩ := C05_header_acceptance c wc
      by_cases hv : ∃ h : Header, h.Valid ∧ c = h.chunk
      · obtain ⟨h, hv, hc⟩ := hv
        obtain ⟨m, hm, hs⟩ := k2 h hv hc
        rw [hm, Outcome.bind_ok] at hd
        cases hts : decodeTracks mc spare (cs.map Chunk.bytes) 0 with
        | ok ts =>
          rw [hts, Outcome.bind_ok] at hd
          split at hd
          · cases hd
          · rename_i hn
            injection hd with hd
            subst hd
            have hn' : ts.length = m.tracks.toNat := by simpa using hn
            obtain ⟨d1, d2⟩ := (decodeTracks_ok mc spare cs wcs 0 ts).1 hts
            refine ⟨m, h, rfl, hs, hv, by rw [hn']; exact hs.2.2.2.1.symm, ?_⟩
            intro i t hit
            simp only at hit
            have hi : i < ts.length := (List.getElem?_eq_some_iff.1 hit).1
            have hic : i < (trackChunks cs).length := by omega
            have hu := d2 i (trackChunks cs)[i] t (by simp [hic]) hit
            have hmem : (trackChunks cs)[i] ∈ trackChunks cs := List.getElem_mem hic
            generalize (trackChunks cs)[i] = ch at hu hmem
            have hchs : ch ∈ cs := (List.mem_filter.1 hmem).1
            have htag : ch.tag = tagMTrk := by simpa using (List.mem_filter.1 hmem).2
            have hwf := wcs ch hchs
            have hlen : ch.body.length + 8 ≤ (fileBytes (c :: cs) ++ tail).length := by
              obtain ⟨l, r, hlr⟩ := List.append_of_mem hchs
              have := chunk_length ch hwf
              rw [hlr]
              simp only [fileBytes, List.map_append, List.map_cons, List.flatten_cons, List.flatten_append, List.length_append]
              omega
            exact ⟨ch, hwf, htag, hlen, by rw [Nat.zero_add] at hu; exact hu⟩
        | err e => rw [hts] at hd; cases hd
        | panic => rw [hts] at hd; cases hd
        | diverge => rw [hts] at hd; cases hd
      · rw [k3 hv] at hd
        cases hd
  · rw [decode, (chunkLoop_file cs wf tail).2 htail] at hd
    cases hd

theorem decode_track {mc : MiddleC} {spare file : Bytes} {smf : SMF} (hd : decode mc spare file = .ok smf) {t : MTrk}
    (ht : t ∈ smf.tracks) : ∃ (i : Nat) (ch : Chunk), ch.Wf ∧ ch.tag = tagMTrk ∧ ch.body.length + 8 ≤ file.length ∧
        unmarshalMTrk mc spare i ch.bytes = .ok t := by
  obtain ⟨_, _, _, _, _, _, h⟩ := decode_ok hd
  obtain ⟨i, hi, hit⟩ := List.mem_iff_getElem.1 ht
  obtain ⟨ch, hc⟩ := h i t (by simp [hi, hit])
  exact ⟨i, ch, hc⟩

theorem meanings_mem {pending : Bool} {raws : List Raw} {cs : List Content} (h : meanings pending raws = some cs) :
    ∀ c ∈ cs, ∃ p r, meaning p r = some c := by
  induction raws generalizing pending cs with
  | nil => simp [meanings] at h; subst h; simp
  | cons r raws ih =>
    simp only [meanings] at h
    split at h
    · rename_i c cs' h1 h2
      simp at h
      subst h
      intro x hx
      rcases List.mem_cons.1 hx with rfl | hx
      · exact ⟨_, _, h1⟩
      · exact ih h2 x hx
    · cases h

/-- Every decoded event is the meaning of some event bytes. -/
theorem decode_view {mc : MiddleC} {spare file : Bytes} {smf : SMF} (hd : decode mc spare file = .ok smf) {t : MTrk}
    (ht : t ∈ smf.tracks) {e : Event} (he : e ∈ t.events) : ∃ p r c, meaning p r = some c ∧ e.body.view = asShown c := by
  obtain ⟨i, ch, wf, htag, _, hu⟩ := decode_track hd ht
  obtain ⟨_, _, _, cs, _, _, _, hms, _, hv, _⟩ := track_decomposition mc spare i ch wf htag t hu
  have : e.body.view ∈ cs.map asShown := by rw [← hv]; exact List.mem_map.2 ⟨e, he, rfl⟩
  obtain ⟨c, hc, hce⟩ := List.mem_map.1 this
  obtain ⟨p, r, hm⟩ := meanings_mem hms c hc
  exact ⟨p, r, c, hm, hce.symm⟩

/-- What a meta event looks like, by its meaning. -/
def metaShape (t : Nat) (d : Bytes) : Content → Prop
  | .sequenceNumber n => t = 0x00 ∧ ∃ a b : UInt8, d = [a, b] ∧ n = a.toNat * 256 + b.toNat
  | .text ty s => 1 ≤ t ∧ t ≤ 9 ∧ ty = t ∧ s = d
  | .channelPrefix n => t = 0x20 ∧ ∃ a : UInt8, d = [a] ∧ a.toNat ≤ 15 ∧ n = a.toNat
  | .port n => t = 0x21 ∧ ∃ a : UInt8, d = [a] ∧ a.toNat ≤ 127 ∧ n = a.toNat
  | .endOfTrack => t = 0x2f
  | .tempo n => t = 0x51 ∧ ∃ a b c : UInt8, d = [a, b, c] ∧ n = a.toNat * 65536 + b.toNat * 256 + c.toNat
  | .smpteOffset h m s r f ff => t = 0x54 ∧ ∃ a b c e g : UInt8, d = [a, b, c, e, g] ∧ h = a.toNat % 32 ∧ m = b.toNat ∧ s = c.toNat ∧
      r = smpteRate (a.toNat / 32 % 4) ∧ f = e.toNat ∧ ff = g.toNat ∧ h ≤ 24 ∧ m ≤ 59 ∧ s ≤ 59 ∧ f < r ∧ ff ≤ 100
  | .timeSignature n den c q => t = 0x58 ∧ ∃ a e b g : UInt8, d = [a, e, b, g] ∧ n = a.toNat ∧ den = 2 ^ e.toNat % 256 ∧ c = b.toNat ∧
      q = g.toNat
  | .keySignature a m => t = 0x59 ∧ ∃ x y : UInt8, d = [x, y] ∧ a = signed x ∧ m = y.toNat ∧ -7 ≤ a ∧ a ≤ 7 ∧ m ≤ 1
  | .sequencerSpecific id data => t = 0x7f ∧ ((∃ b c, d = 0 :: b :: c :: data ∧ id = [0, b, c]) ∨ ∃ b, b ≠ 0 ∧ d = b :: data ∧ id = [b])
  | _ => False

macro "metaCase" h:ident hc:ident : tactic => `(tactic|
  first
    | (injection $h with h; subst h; first | exact $hc | exact ⟨$hc, rfl, rfl⟩ | exact ⟨And.left $hc, And.right $hc, rfl, rfl⟩)
    | (split at $h:ident <;> first
        | (cases $h:ident; done)
        | (injection $h with h; subst h; first
            | exact ⟨$hc, _, _, rfl, rfl⟩ | exact ⟨$hc, _, _, _, rfl, rfl⟩ | exact ⟨$hc, _, _, _, _, rfl, rfl, rfl, rfl, rfl⟩
            | exact ⟨$hc, Or.inl ⟨_, _, rfl, rfl⟩⟩)
        | (split at $h:ident <;> first
            | (cases $h:ident; done)
            | (injection $h with h; subst h; first
                | exact ⟨$hc, _, rfl, by assumption, rfl⟩
                | exact ⟨$hc, _, _, rfl, rfl, rfl, by assumption⟩
                | exact ⟨$hc, Or.inr ⟨_, by assumption, rfl, rfl⟩⟩
                | exact ⟨$hc, _, _, _, _, _, rfl, rfl, rfl, rfl, rfl, rfl, rfl, by assumption⟩))))

theorem metaMeaning_inv {t : Nat} {d : Bytes} {c : Content} (h : metaMeaning t d = some c) : metaShape t d c := by
  unfold metaMeaning at h
  by_cases hc : t = 0x00
  · rw [if_pos hc] at h; try simp only at h
    metaCase h hc
  rw [if_neg hc] at h; clear hc
  by_cases hc : 1 ≤ t ∧ t ≤ 9
  · rw [if_pos hc] at h; try simp only at h
    metaCase h hc
  rw [if_neg hc] at h; clear hc
  by_cases hc : t = 0x20
  · rw [if_pos hc] at h; try simp only at h
    metaCase h hc
  rw [if_neg hc] at h; clear hc
  by_cases hc : t = 0x21
  · rw [if_pos hc] at h; try simp only at h
    metaCase h hc
  rw [if_neg hc] at h; clear hc
  by_cases hc : t = 0x2f
  · rw [if_pos hc] at h; try simp only at h
    metaCase h hc
  rw [if_neg hc] at h; clear hc
  by_cases hc : t = 0x51
  · rw [if_pos hc] at h; try simp only at h
    metaCase h hc
  rw [if_neg hc] at h; clear hc
  by_cases hc : t = 0x54
  · rw [if_pos hc] at h; try simp only at h
    metaCase h hc
  rw [if_neg hc] at h; clear hc
  by_cases hc : t = 0x58
  · rw [if_pos hc] at h; try simp only at h
    metaCase h hc
  rw [if_neg hc] at h; clear hc
  by_cases hc : t = 0x59
  · rw [if_pos hc] at h; try simp only at h
    metaCase h hc
  rw [if_neg hc] at h; clear hc
  by_cases hc : t = 0x7f
  · rw [if_pos hc] at h; try simp only at h
    metaCase h hc
  rw [if_neg hc] at h; clear hc
  cases h

end Midiasm
