import Verif.Props.JsonFate

/-!
C104: what the JSON assembler accepts, and the shape of the file it makes.
-/

set_option linter.unusedSimpArgs false

namespace Midiasm
open Spec

/-- There is only one last member. -/
theorem last_unique {name : String} {j v w : Json} (hv : Last name j v) (hw : Last name j w) : v = w := by
  obtain ⟨a, k, b, rfl, h1, _, h2⟩ := hv
  obtain ⟨a', k', b', he, h1', _, h2'⟩ := hw
  injection he with he
  rcases List.append_eq_append_iff.mp he with ⟨c, rfl, hc⟩ | ⟨c, rfl, hc⟩
  · cases c with
    | nil => injection hc with hc; injection hc
    | cons x c =>
      injection hc with hx hc
      subst hc
      exact absurd h1' (h2 (k', w) (by simp))
  · cases c with
    | nil => injection hc with hc; injection hc with _ hc; exact hc.symm
    | cons x c =>
      injection hc with hx hc
      subst hc
      exact absurd h1 (h2' (k, v) (by simp))

theorem last_member {name : String} {j v : Json} (hv : Last name j v) : Member name j v := by
  obtain ⟨a, k, b, rfl, h1, _⟩ := hv
  exact ⟨_, k, rfl, by simp, h1⟩

/-- Every member of the name is read. -/
theorem field_all {α : Type} (d : α → Json → Outcome α) (name : String) (cur r : α) (j : Json) (h : field d name cur j = .ok r) :
    ∀ v, Member name j v → ∃ a b, d a v = .ok b := by
  rintro v ⟨ms, key, rfl, hm, hs⟩
  simp only [field] at h
  have hmem : (key, v) ∈ ms.filter fun m => keyIs name m.1 := List.mem_filter.mpr ⟨hm, (keyIs_iff _ _).mpr hs⟩
  revert hmem
  generalize ms.filter (fun m => keyIs name m.1) = l at h
  intro hmem
  induction l generalizing cur with
  | nil => cases hmem
  | cons m l ih =>
    rw [List.foldlM_cons] at h
    obtain ⟨c, hc, h⟩ := bound_ok h
    rcases List.mem_cons.mp hmem with rfl | hmem
    · exact ⟨cur, c, hc⟩
    · exact ih _ h hmem

theorem headerFields_ok (cur r : HeaderFields) (j : Json) (h : headerFields cur j = .ok r) :
    (j = .null ∨ j = .obj (membersOf j)) ∧
    field (ptrJson stringJson []) "tag" cur.tag (.obj (membersOf j)) = .ok r.tag ∧
    field (ptrJson (uintJson 16) 0) "format" cur.format (.obj (membersOf j)) = .ok r.format ∧
    field (ptrJson (uintJson 16) 0) "PPQN" cur.ppqn (.obj (membersOf j)) = .ok r.ppqn := by
  unfold headerFields at h
  obtain ⟨a, ha, h⟩ := bound_ok h
  obtain ⟨b, hb, h⟩ := bound_ok h
  obtain ⟨c, hc, h⟩ := bound_ok h
  injection h with h
  subst h
  exact ⟨(field_members _ _ _ _ _ ha).2, (field_members _ _ _ _ _ ha).1, (field_members _ _ _ _ _ hb).1, (field_members _ _ _ _ _ hc).1⟩

/-- The fields of the header come from all the members `header` taken together. -/
theorem header_fields (j : Json) (r : HeaderFields) (h : field headerFields "header" ⟨none, none, none⟩ j = .ok r) :
    field (ptrJson stringJson []) "tag" none (headerOf j) = .ok r.tag ∧
    field (ptrJson (uintJson 16) 0) "format" none (headerOf j) = .ok r.format ∧
    field (ptrJson (uintJson 16) 0) "PPQN" none (headerOf j) = .ok r.ppqn := by
  obtain ⟨h, _⟩ := field_members _ _ _ _ _ h
  simp only [field] at h
  have he : ((membersOf j).filter fun m => keyIs "header" m.1) = (membersOf j).filter fun m => SameName "header" m.1 := by
    apply List.filter_congr
    intro m _
    rw [Bool.eq_iff_iff, keyIs_iff, decide_eq_true_eq]
  rw [he] at h
  unfold headerOf
  revert h
  generalize (membersOf j).filter (fun m => SameName "header" m.1) = l
  have key : ∀ (l : List (List Nat × Json)) (cur : HeaderFields), l.foldlM (fun a m => headerFields a m.2) cur = .ok r →
      field (ptrJson stringJson []) "tag" cur.tag (.obj (l.map fun m => membersOf m.2).flatten) = .ok r.tag ∧
      field (ptrJson (uintJson 16) 0) "format" cur.format (.obj (l.map fun m => membersOf m.2).flatten) = .ok r.format ∧
      field (ptrJson (uintJson 16) 0) "PPQN" cur.ppqn (.obj (l.map fun m => membersOf m.2).flatten) = .ok r.ppqn := by
    intro l
    induction l with
    | nil =>
      intro cur h
      injection h with h
      subst h
      exact ⟨rfl, rfl, rfl⟩
    | cons m l ih =>
      intro cur h
      rw [List.foldlM_cons] at h
      obtain ⟨c, hc, h⟩ := bound_ok h
      obtain ⟨_, h1, h2, h3⟩ := headerFields_ok _ _ _ hc
      obtain ⟨i1, i2, i3⟩ := ih c h
      rw [List.map_cons, List.flatten_cons, field_append, field_append, field_append, h1, h2, h3]
      exact ⟨i1, i2, i3⟩
  exact key l ⟨none, none, none⟩

theorem ptr_text (name text : String) (j : Json) (h : field (ptrJson stringJson []) name none j = .ok (some (str text))) : LastText name text j := by
  rcases field_latest (fun _ => False) _ name none j _ (by simp) h with ⟨v, a, h1, h2⟩ | ⟨h1, _⟩
  · cases v with
    | str s =>
      injection h2 with h2
      injection h2 with h2
      exact ⟨s, h1, h2⟩
    | _ => cases h2
  · cases h1

theorem ptr_number (name : String) (n : Nat) (j : Json) (h : field (ptrJson (uintJson 16) 0) name none j = .ok (some n)) :
    LastNumber name n j ∧ n < 65536 := by
  rcases field_latest (fun _ => False) _ name none j _ (by simp) h with ⟨v, a, h1, h2⟩ | ⟨h1, _⟩
  · cases v with
    | num lit =>
      obtain ⟨x, hx, h2⟩ := bound_ok h2
      injection h2 with h2
      injection h2 with h2
      subst h2
      obtain ⟨q1, q2⟩ := parseUint_numeral hx
      exact ⟨⟨lit, h1, q1⟩, q2⟩
    | _ => cases h2
  · cases h1

theorem ptr_numbers (name : String) (r : Option Nat) (j : Json) (h : field (ptrJson (uintJson 16) 0) name none j = .ok r) : Numbers16 name j := by
  intro v hv
  obtain ⟨a, b, hd⟩ := field_all _ _ _ _ _ h v hv
  cases v with
  | null => exact Or.inl rfl
  | num lit =>
    obtain ⟨x, hx, _⟩ := bound_ok hd
    obtain ⟨q1, q2⟩ := parseUint_numeral hx
    exact Or.inr ⟨lit, x, rfl, q1, q2⟩
  | _ => cases hd

theorem accepted_header (h : HeaderFields) (m : MThd) (hh : parseJsonMThd h = .ok m) :
    h.tag = some (str "MThd") ∧ ∃ f d, h.format = some f ∧ h.ppqn = some d ∧ f ≤ 2 ∧
      (d < 65536 → (Header.mk f 0 d).Valid ∧ ∀ n : UInt16, ({ m with tracks := n } : MThd).marshal = (Header.mk f n.toNat d).chunk.bytes ∧ m.tracks = 0) := by
  unfold parseJsonMThd at hh
  split at hh
  · cases hh
  rename_i ht
  rw [ne_eq, Classical.not_not] at ht
  split at hh
  · cases hh
  rename_i f hf
  split at hh
  · cases hh
  rename_i hf3
  split at hh
  · cases hh
  rename_i d hd
  refine ⟨ht, f, d, hf, hd, by omega, fun hlt => ?_⟩
  simp only at hh
  have hdn : (UInt16.ofNat d).toNat = d := by rw [UInt16.toNat_ofNat', Nat.mod_eq_of_lt hlt]
  have hfn : (UInt16.ofNat f).toNat = f := by rw [UInt16.toNat_ofNat', Nat.mod_eq_of_lt (by omega)]
  split at hh
  · cases hh
  rename_i hb
  have hv : (Header.mk (UInt16.ofNat f).toNat (0 : UInt16).toNat (UInt16.ofNat d).toNat).Valid := by
    rw [hdn, hfn]
    refine ⟨by show f ≤ 2; omega, by show (0 : UInt16).toNat < 65536; decide, hlt, ?_⟩
    show d < 32768 ∨ _
    by_cases h15 : d < 32768
    · exact Or.inl h15
    · right
      have h0 : ¬ UInt16.ofNat d &&& 0x8000 = 0 := fun e => h15 (by rw [u16_and8000, hdn] at e; exact e)
      have hfps : fpsOf (UInt16.ofNat d) ≠ none := fun e => hb ⟨division_smpte _ h0, e⟩
      rw [fpsOf_eq, hdn] at hfps
      show (frameRate (d / 256)).isSome = true
      cases hr : frameRate (d / 256) with
      | none => rw [hr] at hfps; exact absurd rfl hfps
      | some _ => rfl
  refine ⟨by rw [hdn, hfn] at hv; exact hv, fun n => ?_⟩
  rw [makeMThd_eq _ _ _ _ hv] at hh
  have key : m.tag = tagMThd ∧ m.length = 6 ∧ m.format = UInt16.ofNat f ∧ m.tracks = 0 ∧ m.division = UInt16.ofNat d := by
    split at hh
    · injection hh with hh
      subst hh
      exact ⟨rfl, rfl, rfl, rfl, rfl⟩
    · split at hh
      · cases hh
      · injection hh with hh
        subst hh
        exact ⟨rfl, rfl, rfl, rfl, rfl⟩
  obtain ⟨k1, k2, k3, k4, k5⟩ := key
  refine ⟨?_, k4⟩
  simp only [MThd.marshal, Header.chunk, Chunk.bytes, putUint16_eq, putUint32_eq, k1, k2, k3, k5, hdn, hfn]
  simp [be16, be32]

/-- The track chunk with that body. -/
def trackChunk (body : Bytes) : Bytes := tagMTrk ++ be32 (body.length % 2 ^ 32) ++ body

theorem accepted_track (mc : MiddleC) (t : TrackFields) (m : MTrk) (h : parseJsonMTrk mc t = .ok m) :
    t.tag = some (str "MTrk") ∧ t.events ≠ [] ∧ m.tag = str "MTrk" := by
  unfold parseJsonMTrk at h
  split at h
  · cases h
  rename_i ht
  rw [ne_eq, Classical.not_not] at ht
  obtain ⟨es, h1, h⟩ := bound_ok h
  obtain ⟨es', h2, h⟩ := bound_ok h
  injection h with h
  refine ⟨ht, fun he => ?_, by rw [← h]⟩
  rw [he] at h1
  injection h1 with h1
  subst h1
  cases h2

theorem accepted_tracks (mc : MiddleC) (ts : List TrackFields) (h : MThd) (done : List MTrk) (smf : SMF) (hp : parseJsonTracks mc ts h done = .ok smf) :
    (∀ t ∈ ts, t.tag = some (str "MTrk") ∧ t.events ≠ []) ∧ smf.tracks.length = done.length + ts.length ∧
      ((∀ t ∈ done, t.tag = str "MTrk") → ∀ t ∈ smf.tracks, t.tag = str "MTrk") ∧ ∃ n, smf.mthd = some { h with tracks := n } := by
  induction ts generalizing h done with
  | nil =>
    injection hp with hp
    subst hp
    exact ⟨by simp, by simp, id, h.tracks, rfl⟩
  | cons t ts ih =>
    rw [parseJsonTracks] at hp
    obtain ⟨m, hm, hp⟩ := bound_ok hp
    obtain ⟨k1, k2, k3⟩ := accepted_track mc t m hm
    obtain ⟨i1, i2, i3, n, i4⟩ := ih _ _ hp
    refine ⟨?_, ?_, fun hd => i3 ?_, n, i4⟩
    · intro x hx
      rcases List.mem_cons.mp hx with rfl | hx
      · exact ⟨k1, k2⟩
      · exact i1 x hx
    · rw [i2]; simp; omega
    · intro x hx
      rcases List.mem_append.mp hx with hx | hx
      · exact hd x hx
      · rw [List.mem_singleton] at hx
        subst hx
        exact k3

theorem encodeTracks_chunks (ts : List MTrk) (bs : Bytes) (ht : ∀ t ∈ ts, t.tag = str "MTrk") (h : encodeTracks ts = .ok bs) :
    ∃ bodies : List Bytes, bodies.length = ts.length ∧ bs = (bodies.map trackChunk).flatten := by
  induction ts generalizing bs with
  | nil =>
    injection h with h
    subst h
    exact ⟨[], rfl, rfl⟩
  | cons t ts ih =>
    rw [encodeTracks] at h
    obtain ⟨b, hb, h⟩ := bound_ok h
    obtain ⟨bs', hbs, h⟩ := bound_ok h
    injection h with h
    subst h
    obtain ⟨bodies, h1, h2⟩ := ih _ (fun x hx => ht x (by simp [hx])) hbs
    have hw : ∀ e ∈ t.events, e.body.Writable := by
      apply Classical.byContradiction
      intro hn
      rw [(encodeMTrk_cases t).2 hn] at hb
      cases hb
    obtain ⟨_, cs', _, _, _, _, _, _, _, h8⟩ := (encodeMTrk_cases t).1 hw
    rw [hb] at h8
    injection h8 with h8
    refine ⟨(cs'.map (fun c => c.1 ++ c.2)).flatten :: bodies, by simp [h1], ?_⟩
    rw [List.map_cons, List.flatten_cons, ← h2, h8, ht t (by simp), trackChunk]
    have : str "MTrk" = tagMTrk := by decide +kernel
    rw [this]

/-- C104: a JSON document that assembles has a header, made up of its members `header` together, whose last `tag` is `MThd`, whose last
`format` is 0, 1 or 2 and whose last `PPQN` is a division; every track has `MTrk` for its last `tag` and at least one event; `format`,
`PPQN` and `tracknumber` are numbers of 16 bits throughout.  The file starts with a header chunk of that format and division, with the
number of the tracks, and one track chunk for each track follows; nothing else does. -/
theorem C104_json_accepted (mc : MiddleC) (j : Json) (bs : Bytes) (h : assembleJson mc j = .ok bs) :
    ∃ (f d : Nat) (ts : List Json) (bodies : List Bytes), ts = tracksOf j ∧ (Header.mk f ts.length d).Valid ∧
      LastText "tag" "MThd" (headerOf j) ∧ LastNumber "format" f (headerOf j) ∧ LastNumber "PPQN" d (headerOf j) ∧
      Numbers16 "format" (headerOf j) ∧ Numbers16 "PPQN" (headerOf j) ∧
      (∀ t ∈ ts, LastText "tag" "MTrk" t ∧ ¬ Eventless t ∧ Numbers16 "tracknumber" t) ∧
      bodies.length = ts.length ∧ bs = (Header.mk f ts.length d).chunk.bytes ++ (bodies.map trackChunk).flatten := by
  unfold assembleJson at h
  obtain ⟨header, hh, h⟩ := bound_ok h
  obtain ⟨tracks, ht, h⟩ := bound_ok h
  obtain ⟨m, hm, h⟩ := bound_ok h
  obtain ⟨smf, hs, h⟩ := bound_ok h
  obtain ⟨f1, f2, f3⟩ := header_fields j header hh
  obtain ⟨m1, f, d, m2, m3, m4, m5⟩ := accepted_header _ _ hm
  obtain ⟨p1, p2, p3, n, p4⟩ := accepted_tracks mc tracks.els m [] smf hs
  have p3 := p3 (by simp)
  have hpq := ptr_numbers _ _ _ f3
  have hfm := ptr_numbers _ _ _ f2
  rw [m1] at f1
  rw [m2] at f2
  rw [m3] at f3
  obtain ⟨f3, hd⟩ := ptr_number _ _ _ f3
  obtain ⟨f2, _⟩ := ptr_number _ _ _ f2
  obtain ⟨m5, m6⟩ := m5 hd
  have hts2 := tracks_read j tracks ht
  generalize hts1 : tracksOf j = ts at hts2
  have hlen : ts.length = tracks.els.length := hts2.length_eq
  unfold encode at h
  rw [p4] at h
  simp only at h
  split at h
  · cases h
  rename_i hn
  rw [Classical.not_not, p2] at hn
  obtain ⟨bs', hb, h⟩ := bound_ok h
  injection h with h
  obtain ⟨bodies, b1, b2⟩ := encodeTracks_chunks smf.tracks bs' p3 hb
  have hn : n.toNat = ts.length := by rw [hn, hlen]; simp
  refine ⟨f, d, ts, bodies, rfl, ⟨m5.1, ?_, m5.2.2⟩, ptr_text _ _ _ f1, f2, f3, hfm, hpq, ?_, by rw [b1, p2, hlen]; simp, ?_⟩
  · show ts.length < 65536
    rw [← hn]
    exact n.toNat_lt
  · intro t ht
    obtain ⟨i, hi, rfl⟩ := List.mem_iff_getElem.mp ht
    have hget : trackFields ⟨none, []⟩ ts[i] = .ok (tracks.els[i]'(by omega)) := hts2.get hi (by omega)
    obtain ⟨q1, q2⟩ := p1 _ (List.getElem_mem (l := tracks.els) (by omega : i < tracks.els.length))
    generalize tracks.els[i]'(by omega) = t at *
    generalize ts[i] = tj at *
    refine ⟨?_, ?_, ?_⟩
    · unfold trackFields at hget
      obtain ⟨a, ha, hget⟩ := bound_ok hget
      obtain ⟨b, hb, hget⟩ := bound_ok hget
      obtain ⟨c, hc, hget⟩ := bound_ok hget
      injection hget with hget
      rw [← hget] at q1
      simp only at q1
      rw [q1] at ha
      exact ptr_text _ _ _ ha
    · rcases trackFields_events tj t hget with ⟨r1, _⟩ | ⟨es, r1, r2⟩
      · exact absurd r1 q2
      · subst r1
        rintro (r3 | r3 | r3)
        · exact r3 _ (last_member r2)
        · cases last_unique r2 r3
        · have := last_unique r2 r3
          injection this with this
          exact q2 this
    · unfold trackFields at hget
      obtain ⟨a, ha, hget⟩ := bound_ok hget
      obtain ⟨b, hb, hget⟩ := bound_ok hget
      exact ptr_numbers _ _ _ hb
  · rw [← h, (m6 n).1, hn, b2]

/-- A document that assembles, with two headers: the second overrides the format. -/
example : ∃ bs, assembleJson .c4 (jobj [("header", jobj [("tag", jstr (str "MThd")), ("Format", jnum 0), ("ppqn", jnum 480)]),
    ("HEADER", jobj [("format", jnum 1)]),
    ("tracks", .arr [jobj [("tag", jstr (str "MTrk")), ("events", .arr [jobj [("event", jobj [("tag", jstr (str "EndOfTrack"))])]])]])]) = .ok bs ∧
      bs = (Header.mk 1 1 480).chunk.bytes ++ ([[0, 0xff, 0x2f, 0]].map trackChunk).flatten := by
  obtain ⟨bs, h1, h2⟩ := Outcome.of_test (o := assembleJson .c4 (jobj [("header", jobj [("tag", jstr (str "MThd")), ("Format", jnum 0), ("ppqn", jnum 480)]),
    ("HEADER", jobj [("format", jnum 1)]),
    ("tracks", .arr [jobj [("tag", jstr (str "MTrk")), ("events", .arr [jobj [("event", jobj [("tag", jstr (str "EndOfTrack"))])]])]])]))
    (p := fun bs => bs == (Header.mk 1 1 480).chunk.bytes ++ ([[0, 0xff, 0x2f, 0]].map trackChunk).flatten) (by decide +kernel)
  exact ⟨bs, h1, eq_of_beq h2⟩

/-- A document with two members `tracks`: the first has the tag of the track, the second its events. -/
def twoTracks : Json :=
  jobj [("header", jobj [("tag", jstr (str "MThd")), ("format", jnum 0), ("PPQN", jnum 480)]),
    ("tracks", .arr [jobj [("tag", jstr (str "MTrk"))], jobj [("tag", jstr (str "left over"))]]),
    ("tracks", .arr [jobj [("events", .arr [jobj [("event", jobj [("tag", jstr (str "EndOfTrack"))])]])]])]

example : ∃ bs, assembleJson .c4 twoTracks = .ok bs ∧ bs = (Header.mk 0 1 480).chunk.bytes ++ ([[0, 0xff, 0x2f, 0]].map trackChunk).flatten := by
  obtain ⟨bs, h1, h2⟩ := Outcome.of_test (o := assembleJson .c4 twoTracks)
    (p := fun bs => bs == (Header.mk 0 1 480).chunk.bytes ++ ([[0, 0xff, 0x2f, 0]].map trackChunk).flatten) (by decide +kernel)
  exact ⟨bs, h1, eq_of_beq h2⟩

example : (tracksOf twoTracks).length = 1 := by decide +kernel

/-- `null` after a tag takes the tag away. -/
example (mc : MiddleC) (ms : List (List Nat × Json)) (bs : Bytes) :
    assembleJson mc (.obj (ms ++ [(runes (str "header"), jobj [("tag", .null)])])) ≠ .ok bs := by
  intro h
  obtain ⟨_, _, _, _, _, _, ⟨s, hl, _⟩, _⟩ := C104_json_accepted _ _ _ h
  have : Last "tag" (headerOf (.obj (ms ++ [(runes (str "header"), jobj [("tag", .null)])]))) .null := by
    unfold headerOf membersOf
    simp only [List.filter_append]
    rw [show ([(runes (str "header"), jobj [("tag", Json.null)])].filter fun m => decide (SameName "header" m.1)) =
      [(runes (str "header"), jobj [("tag", Json.null)])] from by
        rw [List.filter_cons_of_pos (by decide +kernel)]; rfl]
    simp only [List.map_append, List.flatten_append]
    exact ⟨_, runes (str "tag"), [], rfl, by decide +kernel, id, by simp⟩
  cases last_unique hl this

end Midiasm
