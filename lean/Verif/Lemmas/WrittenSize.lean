import Verif.Spec.Written
import Verif.Spec.Decoded

/-!
How long a file becomes when it is written again.
-/

set_option linter.unusedSimpArgs false
set_option linter.unusedTactic false
set_option linter.unreachableTactic false
set_option linter.unnecessarySeqFocus false

namespace Midiasm
open Spec

/-- The number of bytes of a text, of the data of a manufacturer, of system exclusive data. -/
def payload : Content → Nat
  | .text _ s => s.length
  | .sequencerSpecific id d => id.length + d.length
  | .sysex id d _ => id.length + d.length
  | .continuation d => d.length
  | .escape d => d.length
  | _ => 0

theorem payload_moved (n : Int) (c : Content) : payload (moved n c) = payload c := by
  cases c <;> rfl

theorem payload_shown (c : Content) : payload (asShown c) = payload c := by
  cases c <;> simp only [asShown, payload]
  all_goals
    split
    · rename_i h
      subst h
      rfl
    · rfl

theorem unterminated_le (d : Bytes) : (unterminated d).length ≤ d.length := by
  unfold unterminated
  split <;> simp

/-- The data bytes of an event. -/
def dataOf : Raw → Bytes
  | .chan _ d => d
  | .metaEvent _ d => d
  | .sysex _ d => d

theorem meaning_payload {p : Bool} {raw : Raw} {c : Content} (h : meaning p raw = some c) : payload c ≤ (dataOf raw).length := by
  cases raw with
  | chan s d =>
    simp only [meaning, chanMeaning] at h
    repeat' split at h
    all_goals first | (cases h; done) | (injection h with h; subst h; exact Nat.zero_le _)
  | metaEvent t d =>
    simp only [meaning, dataOf] at h ⊢
    generalize t.toNat % 128 = ty at h
    unfold metaMeaning at h
    by_cases hc : ty = 0x00
    · rw [if_pos hc] at h; clear hc; try simp only at h
      repeat' split at h
      all_goals first | (cases h; done) | (injection h with h; subst h; simp [payload] <;> omega)
    rw [if_neg hc] at h; clear hc
    by_cases hc : 1 ≤ ty ∧ ty ≤ 9
    · rw [if_pos hc] at h; clear hc; try simp only at h
      repeat' split at h
      all_goals first | (cases h; done) | (injection h with h; subst h; simp [payload] <;> omega)
    rw [if_neg hc] at h; clear hc
    by_cases hc : ty = 0x20
    · rw [if_pos hc] at h; clear hc; try simp only at h
      repeat' split at h
      all_goals first | (cases h; done) | (injection h with h; subst h; simp [payload] <;> omega)
    rw [if_neg hc] at h; clear hc
    by_cases hc : ty = 0x21
    · rw [if_pos hc] at h; clear hc; try simp only at h
      repeat' split at h
      all_goals first | (cases h; done) | (injection h with h; subst h; simp [payload] <;> omega)
    rw [if_neg hc] at h; clear hc
    by_cases hc : ty = 0x2f
    · rw [if_pos hc] at h; clear hc; try simp only at h
      repeat' split at h
      all_goals first | (cases h; done) | (injection h with h; subst h; simp [payload] <;> omega)
    rw [if_neg hc] at h; clear hc
    by_cases hc : ty = 0x51
    · rw [if_pos hc] at h; clear hc; try simp only at h
      repeat' split at h
      all_goals first | (cases h; done) | (injection h with h; subst h; simp [payload] <;> omega)
    rw [if_neg hc] at h; clear hc
    by_cases hc : ty = 0x54
    · rw [if_pos hc] at h; clear hc; try simp only at h
      repeat' split at h
      all_goals first | (cases h; done) | (injection h with h; subst h; simp [payload] <;> omega)
    rw [if_neg hc] at h; clear hc
    by_cases hc : ty = 0x58
    · rw [if_pos hc] at h; clear hc; try simp only at h
      repeat' split at h
      all_goals first | (cases h; done) | (injection h with h; subst h; simp [payload] <;> omega)
    rw [if_neg hc] at h; clear hc
    by_cases hc : ty = 0x59
    · rw [if_pos hc] at h; clear hc; try simp only at h
      repeat' split at h
      all_goals first | (cases h; done) | (injection h with h; subst h; simp [payload] <;> omega)
    rw [if_neg hc] at h; clear hc
    by_cases hc : ty = 0x7f
    · rw [if_pos hc] at h; clear hc; try simp only at h
      repeat' split at h
      all_goals first | (cases h; done) | (injection h with h; subst h; simp [payload] <;> omega)
    rw [if_neg hc] at h; clear hc
    cases h
  | sysex s d =>
    simp only [meaning, sysexMeaning, dataOf] at h ⊢
    repeat' split at h
    all_goals first | (cases h; done) | (injection h with h; subst h; simp only [payload, List.length_cons, List.length_nil])
    · rename_i id b d' _
      have := unterminated_le (b :: d')
      simp only [List.length_cons] at this
      omega
    · exact unterminated_le _
    · exact Nat.le_refl _

theorem quantityBytes_le (n : Nat) : (quantityBytes n).length ≤ 5 := by
  unfold quantityBytes
  repeat' split
  all_goals simp

theorem contentBytes_le (c : Content) : (contentBytes c).length ≤ payload c + 8 := by
  have q := fun n => quantityBytes_le n
  cases c <;> simp only [contentBytes, payload, metaBytes, sized, be16, List.length_cons, List.length_nil, List.length_append]
  case text t s =>
    split
    · have := q (s.length % 2 ^ 32)
      simp only [List.length_cons, List.length_append]
      omega
    · simp only [List.length_cons, List.length_append, List.length_nil]
      omega
  case sysex id d t =>
    have h1 := q ((id.length + d.length + (if t then [0xf7] else [] : List UInt8).length) % 2 ^ 32)
    have h2 : (if t then [0xf7] else [] : List UInt8).length ≤ 1 := by split <;> simp
    omega
  case continuation d =>
    have := q (d.length % 2 ^ 32)
    omega
  case escape d =>
    have := q (d.length % 2 ^ 32)
    omega
  all_goals omega

/-- What a track takes at most. -/
def roomFor (es : List (Nat × Content)) : Nat := (es.map fun e => 13 + payload e.2).sum

theorem thinned_le (es : List (Nat × Content)) : ∀ p,
    ((List.zipWith (fun d w => d ++ w) (es.map fun e => quantityBytes e.1) (thinnedBytes p (es.map fun e => contentBytes e.2))).flatten).length ≤ roomFor es := by
  induction es with
  | nil => intro p; simp [thinnedBytes]
  | cons e es ih =>
    intro p
    have h1 := quantityBytes_le e.1
    have h2 := contentBytes_le e.2
    have hs : roomFor (e :: es) = 13 + payload e.2 + roomFor es := by simp [roomFor]
    rw [hs, List.map_cons, List.map_cons]
    cases hc : contentBytes e.2 with
    | nil =>
      have := ih none
      rw [thinnedBytes, List.zipWith_cons_cons, List.flatten_cons, List.length_append, List.length_append]
      simp only [List.length_nil]
      omega
    | cons s t =>
      rw [hc, List.length_cons] at h2
      rw [thinnedBytes]
      split
      · have := ih t.head?
        rw [List.zipWith_cons_cons, List.flatten_cons, List.length_append, List.length_append]
        omega
      · have := ih (some s)
        rw [List.zipWith_cons_cons, List.flatten_cons, List.length_append, List.length_append, List.length_cons]
        omega

theorem writtenTrack_le (es : List (Nat × Content)) : (writtenTrack es).length ≤ 8 + roomFor es := by
  have := thinned_le es none
  unfold writtenTrack
  simp only [List.length_append, be32, List.length_cons, List.length_nil]
  have h : (str "MTrk").length = 4 := by decide +kernel
  omega

/-- Framed events are at least two bytes long, and contain their data. -/
theorem framed_item_le {rs rs' : Option UInt8} {i : Spec.Item} (h : FramedItem 1 rs i rs') : 2 ≤ i.bytes.length ∧ (dataOf i.raw).length ≤ i.bytes.length := by
  obtain ⟨db, eb, h1, ⟨h2, _⟩, h3⟩ := h
  have h4 : 1 ≤ db.length := by
    cases db with
    | nil =>
      obtain ⟨x, y, hx, _⟩ := h2
      cases x <;> cases hx
    | cons _ _ => simp
  have h5 : 1 ≤ eb.length ∧ (dataOf i.raw).length ≤ eb.length := by
    revert h3
    generalize i.raw = raw
    intro h3
    cases h3 <;> simp [dataOf] <;> omega
  rw [h1, List.length_append]
  omega

theorem entries_room (f : Content → Content) (hf : ∀ c, payload (f c) = payload c) (offset : Int) {rs rs' : Option UInt8} {items : List Spec.Item}
    (ht : FramedTrack 1 rs items rs') : ∀ (p : Bool) (cs past : List Content) (el : Nat), meanings p (items.map Spec.Item.raw) = some cs →
      roomFor ((entries offset past el (items.zip cs)).map fun e => (e.delta, f e.content)) ≤ 8 * (trackBytes items).length := by
  induction ht with
  | nil =>
    intro p cs past el h
    simp [entries, roomFor]
  | cons hi ht ih =>
    rename_i rs rs' rs'' i is
    intro p cs past el h
    simp only [List.map_cons, meanings] at h
    split at h
    · rename_i c cs' h1 h2
      injection h with h
      subst h
      have hp := meaning_payload h1
      obtain ⟨g1, g2⟩ := framed_item_le hi
      have := ih (pendingAfter p i.raw) cs' (asShown c :: past) (el + i.delta.toNat) h2
      rw [List.zip_cons_cons, entries, List.map_cons]
      have e1 : ∀ x xs, roomFor (x :: xs) = 13 + payload x.2 + roomFor xs := fun x xs => by simp [roomFor]
      have e2 : (trackBytes (i :: is)).length = i.bytes.length + (trackBytes is).length := by simp [trackBytes]
      rw [e1, e2]
      simp only [hf, payload_shown]
      omega
    · cases h

theorem sum_le {α β : Type} (f : α → Nat) (g : β → Nat) : ∀ (l : List α) (m : List β), l.length = m.length →
    (∀ (i : Nat) a b, l[i]? = some a → m[i]? = some b → f a ≤ g b) → (l.map f).sum ≤ (m.map g).sum := by
  intro l
  induction l with
  | nil => intro m _ _; simp
  | cons a l ih =>
    intro m hl h
    cases m with
    | nil => cases hl
    | cons b m =>
      have h1 := h 0 a b rfl rfl
      have h2 := ih m (by simpa using hl) fun i x y hx hy => h (i + 1) x y hx hy
      simp only [List.map_cons, List.sum_cons]
      omega

theorem sum_filter_le {α : Type} (p : α → Bool) (f : α → Nat) (l : List α) : ((l.filter p).map f).sum ≤ (l.map f).sum := by
  induction l with
  | nil => simp
  | cons a l ih =>
    rw [List.filter_cons]
    split <;> simp only [List.map_cons, List.sum_cons] <;> omega

/-- A file is written in at most eight times its length. -/
theorem writtenFile_le (f : Content → Content) (hf : ∀ c, payload (f c) = payload c) (offset : Int) (bytes : Bytes) (h : Header) (ts : List TrackEntry)
    (hs : FileSays offset bytes h ts) : (writtenFile h (contentsOf f ts)).length ≤ 8 * bytes.length := by
  obtain ⟨cs, tail, rfl, hv, hwf, _, h1, h2, h3⟩ := hs
  have key := sum_le (fun t : TrackEntry => (writtenTrack (t.events.map fun e => (e.delta, f e.content))).length) (fun c : Chunk => 8 * c.bytes.length)
    ts (cs.filter fun c => c.tag == tagMTrk) (by omega) (by
      intro i t c ht hc
      obtain ⟨items, tl, rs', ms, k1, k2, _, k4, k5⟩ := h3 i c t hc ht
      have a1 := writtenTrack_le (t.events.map fun e => (e.delta, f e.content))
      have a2 := entries_room f hf offset k2 false ms [] 0 k4
      have a3 : t.events = entries offset [] 0 (items.zip ms) := by rw [k5]
      rw [← a3] at a2
      have a4 : c.bytes.length = c.tag.length + 4 + c.body.length := by
        simp only [Chunk.bytes, be32, List.length_append, List.length_cons, List.length_nil]
      have a6 := (hwf c (List.mem_filter.1 (List.mem_of_getElem? hc)).1).1
      have a5 : (trackBytes items).length ≤ c.body.length := by rw [k1]; simp
      show (writtenTrack (t.events.map fun e => (e.delta, f e.content))).length ≤ 8 * c.bytes.length
      omega)
  have h4 := sum_filter_le (fun c : Chunk => c.tag == tagMTrk) (fun c : Chunk => 8 * c.bytes.length) cs
  have h5 : ∀ l : List Chunk, (l.map fun c => 8 * c.bytes.length).sum = 8 * (fileBytes l).length := by
    intro l
    induction l with
    | nil => rfl
    | cons c l ih =>
      simp only [List.map_cons, List.sum_cons, ih, fileBytes, List.flatten_cons, List.length_append]
      omega
  have h6 : (fileBytes (h.chunk :: cs) ++ tail).length = h.chunk.bytes.length + (fileBytes cs).length + tail.length := by
    simp [fileBytes, Nat.add_assoc]
  have h7 : (writtenFile h (contentsOf f ts)).length = h.chunk.bytes.length +
      (ts.map fun t : TrackEntry => (writtenTrack (t.events.map fun e => (e.delta, f e.content))).length).sum := by
    simp only [writtenFile, contentsOf, List.length_append, List.length_flatten, List.map_map, Function.comp_def]
  rw [h5 cs] at h4
  rw [h6, h7]
  omega

end Midiasm
