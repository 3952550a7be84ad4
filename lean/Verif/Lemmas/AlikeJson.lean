import Verif.Lemmas.Alike

/-!
Assembling JSON does not depend on the naming of notes.
-/

set_option linter.unusedSimpArgs false

namespace Midiasm

theorem isContinuation_nameless (b : Body) : b.nameless.isContinuation = b.isContinuation := by cases b <;> rfl

theorem fixMessages_nameless : ∀ es : List Event, fixMessages (es.map Event.nameless) = (fixMessages es).map Event.nameless
  | [] => rfl
  | [_] => rfl
  | a :: b :: rest => by
    have ih := fixMessages_nameless (b :: rest)
    simp only [List.map_cons, fixMessages] at ih ⊢
    rw [ih]
    congr 1
    have hb : b.nameless.body.isContinuation = b.body.isContinuation := isContinuation_nameless b.body
    rw [hb]
    obtain ⟨_, _, _, body⟩ := a
    cases body <;> first
      | rfl
      | (cases b.body.isContinuation <;> rfl)

theorem fixContinuations_nameless : ∀ es : List Event, fixContinuations (es.map Event.nameless) = (fixContinuations es).map Event.nameless
  | [] => rfl
  | [_] => rfl
  | a :: b :: rest => by
    have ih := fixContinuations_nameless (b :: rest)
    simp only [List.map_cons, fixContinuations] at ih ⊢
    rw [ih]
    congr 1
    have hb : b.nameless.body.isContinuation = b.body.isContinuation := isContinuation_nameless b.body
    rw [hb]
    obtain ⟨_, _, _, body⟩ := a
    cases body <;> first
      | rfl
      | (cases b.body.isContinuation <;> rfl)

theorem fixups_alike {es es' : List Event} (h : es.map Event.nameless = es'.map Event.nameless) :
    Outcome.Rel (fun a b => List.map Event.nameless a = List.map Event.nameless b) (fixups es) (fixups es') := by
  have key : (fixContinuations (fixMessages es)).map Event.nameless = (fixContinuations (fixMessages es')).map Event.nameless := by
    rw [← fixContinuations_nameless, ← fixMessages_nameless, h, fixMessages_nameless, fixContinuations_nameless]
  cases es <;> cases es' <;> simp only [List.map_nil, List.map_cons] at h <;> first
    | (cases h; done)
    | trivial
    | exact key

/-- Delta time and event. -/
def JsonAlike (a b : UInt32 × Body) : Prop := a.1 = b.1 ∧ a.2.nameless = b.2.nameless

theorem jsonNoteOff_alike (mc mc' : MiddleC) (j : Json) : Outcome.Rel JsonAlike (jsonNoteOff mc j) (jsonNoteOff mc' j) := by
  unfold jsonNoteOff
  refine Outcome.Rel.bind (R := Eq) (Outcome.Rel.refl (fun _ => rfl) _) ?_
  rintro delta _ rfl
  refine Outcome.Rel.bind (R := Eq) (Outcome.Rel.refl (fun _ => rfl) _) ?_
  rintro ch _ rfl
  refine Outcome.Rel.bind (R := Eq) (Outcome.Rel.refl (fun _ => rfl) _) ?_
  rintro n _ rfl
  refine Outcome.Rel.bind (R := Eq) (Outcome.Rel.refl (fun _ => rfl) _) ?_
  rintro v _ rfl
  exact ⟨rfl, rfl⟩

theorem jsonNoteOn_alike (mc mc' : MiddleC) (j : Json) : Outcome.Rel JsonAlike (jsonNoteOn mc j) (jsonNoteOn mc' j) := by
  unfold jsonNoteOn
  refine Outcome.Rel.bind (R := Eq) (Outcome.Rel.refl (fun _ => rfl) _) ?_
  rintro delta _ rfl
  refine Outcome.Rel.bind (R := Eq) (Outcome.Rel.refl (fun _ => rfl) _) ?_
  rintro ch _ rfl
  refine Outcome.Rel.bind (R := Eq) (Outcome.Rel.refl (fun _ => rfl) _) ?_
  rintro n _ rfl
  refine Outcome.Rel.bind (R := Eq) (Outcome.Rel.refl (fun _ => rfl) _) ?_
  rintro v _ rfl
  unfold makeNoteOn
  refine Outcome.Rel.bind (R := fun a b => Body.nameless a = Body.nameless b) ?_ fun a b h => ⟨rfl, h⟩
  repeat' split
  all_goals first | rfl | trivial | skip

/-- Cases for the same tag with results that are alike. -/
inductive CasesAlike : List (String × (Json → Outcome (UInt32 × Body))) → List (String × (Json → Outcome (UInt32 × Body))) → Prop
  | nil : CasesAlike [] []
  | cons (name f g l l') : (∀ j, Outcome.Rel JsonAlike (f j) (g j)) → CasesAlike l l' → CasesAlike ((name, f) :: l) ((name, g) :: l')

theorem CasesAlike.refl : ∀ l, CasesAlike l l
  | [] => .nil
  | (n, f) :: l => .cons n f f l l (fun _ => Outcome.Rel.refl (fun _ => ⟨rfl, rfl⟩) _) (CasesAlike.refl l)

theorem jsonCases_alike (mc mc' : MiddleC) : CasesAlike (jsonCases mc) (jsonCases mc') := by
  unfold jsonCases
  have same : ∀ (f : Json → Outcome (UInt32 × Body)) (j : Json), Outcome.Rel JsonAlike (f j) (f j) :=
    fun _ _ => Outcome.Rel.refl (fun _ => ⟨rfl, rfl⟩) _
  iterate 18 refine CasesAlike.cons _ _ _ _ _ (same _) ?_
  refine CasesAlike.cons _ _ _ _ _ (jsonNoteOff_alike mc mc') ?_
  refine CasesAlike.cons _ _ _ _ _ (jsonNoteOn_alike mc mc') ?_
  exact CasesAlike.refl _

theorem caseOf_alike {l l' : List (String × (Json → Outcome (UInt32 × Body)))} (h : CasesAlike l l') (tag : Bytes) :
    (l.find? (fun c => tag == str c.1) = none ∧ l'.find? (fun c => tag == str c.1) = none) ∨
    ∃ c c', l.find? (fun c => tag == str c.1) = some c ∧ l'.find? (fun c => tag == str c.1) = some c' ∧
      ∀ j, Outcome.Rel JsonAlike (c.2 j) (c'.2 j) := by
  induction h with
  | nil => exact Or.inl ⟨rfl, rfl⟩
  | cons name f g l l' hf _ ih =>
    simp only [List.find?_cons]
    cases tag == str name with
    | true => exact Or.inr ⟨_, _, rfl, rfl, hf⟩
    | false => exact ih

theorem eventOfJson_alike (mc mc' : MiddleC) (j : Json) : Outcome.Rel EventAlike (eventOfJson mc j) (eventOfJson mc' j) := by
  unfold eventOfJson
  refine Outcome.Rel.bind (R := Eq) (Outcome.Rel.refl (fun _ => rfl) _) ?_
  rintro raw _ rfl
  cases raw with
  | none => rfl
  | some ev =>
    simp only
    refine Outcome.Rel.bind (R := Eq) (Outcome.Rel.refl (fun _ => rfl) _) ?_
    rintro tag _ rfl
    rcases caseOf_alike (jsonCases_alike mc mc') tag with ⟨h1, h2⟩ | ⟨c, c', h1, h2, h3⟩
    · rw [h1, h2]
      rfl
    · rw [h1, h2]
      simp only
      refine Outcome.Rel.bind (h3 ev) ?_
      rintro ⟨d, b⟩ ⟨d', b'⟩ ⟨h4, h5⟩
      simp only at h4 h5
      simp only [Outcome.Rel, EventAlike, Event.nameless, h4, h5]

theorem parseJsonEvents_alike (mc mc' : MiddleC) : ∀ js : List Json,
    Outcome.Rel (fun a b => List.map Event.nameless a = List.map Event.nameless b) (parseJsonEvents mc js) (parseJsonEvents mc' js)
  | [] => rfl
  | j :: js => by
    rw [parseJsonEvents, parseJsonEvents]
    refine Outcome.Rel.bind (eventOfJson_alike mc mc' j) fun a b h => ?_
    refine Outcome.Rel.bind (parseJsonEvents_alike mc mc' js) fun x y hxy => ?_
    have h' : a.nameless = b.nameless := h
    simp only [Outcome.Rel, List.map_cons, h', hxy]

theorem parseJsonMTrk_alike (mc mc' : MiddleC) (t : TrackFields) :
    Outcome.Rel (fun a b => MTrk.nameless a = MTrk.nameless b) (parseJsonMTrk mc t) (parseJsonMTrk mc' t) := by
  unfold parseJsonMTrk
  split
  · rfl
  · refine Outcome.Rel.bind (parseJsonEvents_alike mc mc' _) fun a b h => ?_
    refine Outcome.Rel.bind (fixups_alike h) fun x y hxy => ?_
    simp only [Outcome.Rel, MTrk.nameless, hxy]

theorem parseJsonTracks_alike (mc mc' : MiddleC) : ∀ (ts : List TrackFields) (h : MThd) (acc acc' : List MTrk),
    acc.map MTrk.nameless = acc'.map MTrk.nameless →
    Outcome.Rel (fun a b => SMF.nameless a = SMF.nameless b) (parseJsonTracks mc ts h acc) (parseJsonTracks mc' ts h acc')
  | [], h, acc, acc', hacc => by
    simp only [parseJsonTracks, Outcome.Rel, SMF.nameless, hacc]
  | t :: ts, h, acc, acc', hacc => by
    rw [parseJsonTracks, parseJsonTracks]
    refine Outcome.Rel.bind (parseJsonMTrk_alike mc mc' t) fun a b hab => ?_
    apply parseJsonTracks_alike
    have hl : acc.length = acc'.length := by simpa using congrArg List.length hacc
    simp only [MTrk.nameless, MTrk.mk.injEq] at hab
    simp only [List.map_append, List.map_cons, List.map_nil, hacc, hl]
    congr 2
    simp only [MTrk.nameless, hab]

theorem assembleJson_alike (mc mc' : MiddleC) (j : Json) : assembleJson mc j = assembleJson mc' j := by
  apply Outcome.rel_eq
  unfold assembleJson
  refine Outcome.Rel.bind (R := Eq) (Outcome.Rel.refl (fun _ => rfl) _) ?_
  rintro header _ rfl
  refine Outcome.Rel.bind (R := Eq) (Outcome.Rel.refl (fun _ => rfl) _) ?_
  rintro tracks _ rfl
  refine Outcome.Rel.bind (R := Eq) (Outcome.Rel.refl (fun _ => rfl) _) ?_
  rintro h _ rfl
  refine Outcome.Rel.bind (parseJsonTracks_alike mc mc' tracks.els h [] [] rfl) fun a b hab => ?_
  rw [encode_alike hab]
  exact Outcome.Rel.refl (fun _ => rfl) _

end Midiasm
