import Verif.Model.JsonText
import Verif.Lemmas.Text

/-!
The exported document as a reader of the text sees it, and with its strings as they are written.
-/

set_option linter.unusedSimpArgs false

namespace Midiasm
open Spec

theorem runesWithAux_error (fuel : Nat) (s : Bytes) : runesWithAux runeError fuel s = runesAux fuel s := by
  induction fuel generalizing s with
  | zero => cases s <;> rfl
  | succ n ih =>
    cases s with
    | nil => rfl
    | cons b rest =>
      rw [runesWithAux, runesAux, ih]
      congr 1
      split
      · rename_i h; exact h.1.symm
      · rfl

theorem jstrWith_error (s : Bytes) : jstrWith runeError s = jstr s := by
  rw [jstrWith, jstr, runesWith, runes, runesWithAux_error]

theorem headerToJson_eq (h : MThd) : headerToJson h =
    jobj [("Tag", jstr h.tag), ("Length", jnum h.length.toNat), ("Format", jnum h.format.toNat), ("Tracks", jnum h.tracks.toNat),
      ("Division", jnum h.division.toNat), ("PPQN", jnum h.ppqn.toNat), ("SMPTETimeCode", .bool h.smpte), ("SubFrames", jnum h.subFrames.toNat),
      ("FPS", jnum h.fps.toNat), ("DropFrame", .bool h.dropFrame)] := by
  rw [headerToJson, headerToJsonWith, jstrWith_error]

theorem trackToJson_eq (t : MTrk) : trackToJson t =
    jobj [("tag", jstr t.tag), ("track-number", jnum t.trackNumber),
      ("events", .arr (t.events.map fun e => jobj [("event", eventToJson e)]))] := by
  rw [trackToJson, trackToJsonWith, jstrWith_error]; rfl

theorem exportJson_eq (smf : SMF) : exportJson smf =
    jobj [("header", match smf.mthd with
      | none => .null
      | some h => headerToJson h), ("tracks", tracksToJson smf.tracks)] := rfl

/-! ### Reading what is written -/

/-- What a reader makes of a character as it is written. -/
def seenRune (r : Nat) : Nat := if r = noRune then runeError else r

mutual
/-- What a reader makes of a value as it is written: the stand-ins for bytes that are not UTF-8 become replacement characters. -/
def seen : Json → Json
  | .str rs => .str (rs.map seenRune)
  | .arr l => .arr (seenElements l)
  | .obj ms => .obj (seenMembers ms)
  | j => j
/-- The elements of an array. -/
def seenElements : List Json → List Json
  | [] => []
  | j :: js => seen j :: seenElements js
/-- The members of an object. -/
def seenMembers : List (List Nat × Json) → List (List Nat × Json)
  | [] => []
  | (k, j) :: ms => (k, seen j) :: seenMembers ms
end

theorem seenRune_scalar {r : Nat} (h : Scalar r) : seenRune r = r := by
  unfold seenRune
  rw [if_neg]
  rintro rfl
  rcases h with h | h <;> unfold noRune at h <;> omega

theorem seenElements_eq (l : List Json) : seenElements l = l.map seen := by
  induction l with
  | nil => rw [seenElements]; rfl
  | cons j js ih => rw [seenElements, ih]; rfl

theorem seen_arr (l : List Json) : seen (.arr l) = .arr (l.map seen) := by rw [seen, seenElements_eq]

theorem seen_jobj (ms : List (String × Json)) : seen (jobj ms) = jobj (ms.map fun m => (m.1, seen m.2)) := by
  rw [jobj, seen, jobj]
  congr 1
  induction ms with
  | nil => rw [List.map_nil, seenMembers]; rfl
  | cons m ms ih => rw [List.map_cons, seenMembers, ih]; rfl

theorem seen_null : seen .null = .null := by rw [seen] <;> simp
theorem seen_bool (b : Bool) : seen (.bool b) = .bool b := by rw [seen] <;> simp
theorem seen_num (l : Bytes) : seen (.num l) = .num l := by rw [seen] <;> simp
theorem seen_jnum (n : Nat) : seen (jnum n) = jnum n := seen_num _
theorem seen_jint (n : Int) : seen (jint n) = jint n := seen_num _

theorem seen_jstr (s : Bytes) : seen (jstr s) = jstr s := by
  rw [jstr, seen]
  congr 1
  conv => rhs; rw [← List.map_id (runes s)]
  exact List.map_congr_left fun r hr => seenRune_scalar (runes_scalar s r hr)

theorem seen_runesAux (fuel : Nat) (s : Bytes) : (runesWithAux noRune fuel s).map seenRune = runesAux fuel s := by
  induction fuel generalizing s with
  | zero => cases s <;> rfl
  | succ n ih =>
    cases s with
    | nil => rfl
    | cons b rest =>
      rw [runesWithAux, runesAux, List.map_cons, ih]
      congr 1
      split
      · rename_i h; rw [h.1]; rfl
      · exact seenRune_scalar (decodeRune_scalar b rest)

theorem seen_jstrWith (s : Bytes) : seen (jstrWith noRune s) = jstr s := by
  rw [jstrWith, seen, jstr, runesWith, seen_runesAux]; rfl

theorem seen_bytes (bs : Bytes) : seen (.arr (bs.map fun b => jnum b.toNat)) = .arr (bs.map fun b => jnum b.toNat) := by
  rw [seen_arr, List.map_map]
  congr 1

theorem seen_members (b : Body) : ((b.membersWith noRune).map fun m => (m.1, seen m.2)) = b.members := by
  cases b <;> simp [Body.members, Body.membersWith, seen_jnum, seen_jint, seen_jstr, seen_jstrWith, jstrWith_error, seen_bool,
    manufacturerToJson, hexToJson, seen_bytes, noteToJson, controllerToJson, seen_jobj]

theorem seen_event (e : Event) : seen (eventToJsonWith noRune e) = eventToJson e := by
  rw [eventToJsonWith, seen_jobj, eventToJson, eventToJsonWith]
  simp only [List.map_append, seen_members, List.map_cons, List.map_nil, seen_jstr, seen_jnum]
  congr 3
  split
  · simp [seen_jnum]
  · rfl

theorem seen_track (t : MTrk) : seen (trackToJsonWith noRune t) = trackToJson t := by
  rw [trackToJsonWith, seen_jobj, trackToJson_eq]
  simp only [List.map_cons, List.map_nil, seen_jnum, seen_jstrWith, seen_arr, List.map_map]
  congr 6
  apply List.map_congr_left
  intro e _
  simp [seen_jobj, seen_event]

theorem seen_tracks (ts : List MTrk) : seen (tracksToJsonWith noRune ts) = tracksToJson ts := by
  cases ts with
  | nil => exact seen_null
  | cons t ts =>
    rw [tracksToJsonWith, seen_arr, tracksToJson, tracksToJsonWith, List.map_map]
    · congr 1
      exact List.map_congr_left fun t _ => seen_track t
    · simp
    · simp

/-- Written with stand-ins and read again, the document is what a reader sees. -/
theorem seen_export (smf : SMF) : seen (exportJsonWith noRune smf) = exportJson smf := by
  rw [exportJsonWith, seen_jobj, exportJson_eq]
  simp only [List.map_cons, List.map_nil, seen_tracks]
  cases smf.mthd with
  | none => simp only [seen_null]
  | some h =>
    simp only [headerToJsonWith, headerToJson_eq, seen_jobj, List.map_cons, List.map_nil, seen_jstrWith, seen_jnum, seen_bool]

end Midiasm
