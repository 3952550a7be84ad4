import Verif.Props.Crashes

/-!
Properties C161 and C162: what can differ between two runs of the same command on the same files.
-/

set_option linter.unusedSimpArgs false

namespace Midiasm
open Spec

/-- The same files and permissions; the content of fresh memory and the order of iteration over maps may differ. -/
def SameSystem (w w' : World) : Prop :=
  w.read = w'.read ∧ w.create = w'.create ∧ w.mkdirAll = w'.mkdirAll ∧ w.isDir = w'.isDir ∧ w.superuser = w'.superuser ∧ w.templates = w'.templates

theorem same_system {w w' : World} (h : SameSystem w w') : w' = { w with spare := w'.spare, order := w'.order } := by
  obtain ⟨h1, h2, h3, h4, h5, h6⟩ := h
  cases w
  cases w'
  simp only at h1 h2 h3 h4 h5 h6
  subst h1 h2 h3 h4 h5 h6
  rfl

/-! ### Memory -/

theorem vlfSlice_spare {r : Bytes} {d rest : Bytes} (h : readVLF r = .ok (d, rest)) :
    ∃ front, r = front ++ rest ∧ ∀ spare, vlfSlice front spare = .ok d := by
  rcases readVLF_cases r with ⟨len, data, rest', rfl, hl⟩ | ⟨he, _⟩
  · rw [readVLF_quantity hl] at h
    injection h with h
    injection h with h1 h2
    subst h1 h2
    exact ⟨len ++ data, rfl, vlfSlice_quantity hl⟩
  · rw [he] at h
    cases h

theorem metaParse_spare (tick : UInt64) {db r d rest : Bytes} {delta : UInt32} (hq : Quantity db delta.toNat) (b t : UInt8)
    (h : readVLF r = .ok (d, rest)) (spare spare' : Bytes) :
    metaParse tick (consumed (db ++ b :: t :: r) rest) spare = metaParse tick (consumed (db ++ b :: t :: r) rest) spare' := by
  obtain ⟨front, rfl, hv⟩ := vlfSlice_spare h
  have hc : consumed (db ++ b :: t :: (front ++ rest)) rest = db ++ b :: t :: front := by
    have := consumed_append (db ++ b :: t :: front) rest
    simpa using this
  rw [hc, metaParse, metaParse, vlqSlice_quantity hq]
  simp only [Outcome.bind_ok, hv]

theorem sysexParse_spare (tick : UInt64) (casio : Bool) {db r d rest : Bytes} {delta : UInt32} (hq : Quantity db delta.toNat) (b : UInt8)
    (h : readVLF r = .ok (d, rest)) (spare spare' : Bytes) :
    sysexParse tick casio (consumed (db ++ b :: r) rest) spare = sysexParse tick casio (consumed (db ++ b :: r) rest) spare' := by
  obtain ⟨front, rfl, hv⟩ := vlfSlice_spare h
  have hc : consumed (db ++ b :: (front ++ rest)) rest = db ++ b :: front := by
    have := consumed_append (db ++ b :: front) rest
    simpa using this
  rw [hc, sysexParse, sysexParse, vlqSlice_quantity hq]
  simp only [Outcome.bind_ok, hv]

theorem parseEvent_spare (mc : MiddleC) (inp spare spare' : Bytes) (tick : UInt32) (ctx : Context) (hrs : GoodRS ctx.runningStatus) :
    parseEvent mc inp spare tick ctx = parseEvent mc inp spare' tick ctx := by
  rcases split_terminated inp with ⟨db, r, rfl, ht⟩ | h
  · have hq := quantity_of_terminated ht
    generalize UInt32.ofNat (value128 db) = delta at hq
    rw [parseEvent, parseEvent, readVLQ_quantity hq]
    simp only [Outcome.bind_ok]
    cases r with
    | nil => rfl
    | cons b r =>
      simp only
      by_cases hb : b < 0x80
      · by_cases hr : ctx.runningStatus < 0x80
        · simp only [hb, hr, and_self, if_true, Outcome.bind_err]
        · have hs : IsChannelStatus ctx.runningStatus := by
            rcases hrs with h | h
            · exact absurd ((u8_lt_80 _).2 h) hr
            · exact h
          obtain ⟨h1, h2, h3, h4, h5⟩ := channelStatus_facts _ hs
          simp only [hb, hr, and_false, if_false, if_true, Outcome.bind_ok, h2, h3, h4, or_self]
      · simp only [hb, false_and, if_false, Outcome.bind_ok]
        by_cases hff : b = 0xff
        · subst hff
          simp only [if_true]
          cases r with
          | nil => rfl
          | cons t r =>
            simp only
            cases hv : readVLF r with
            | ok p =>
              obtain ⟨d, rest⟩ := p
              simp only [Outcome.bind_ok]
              rw [metaParse_spare _ hq _ _ hv spare spare']
            | err e => rfl
            | panic => rfl
            | diverge => rfl
        · rw [if_neg hff, if_neg hff]
          by_cases hsx : b = 0xf0 ∨ b = 0xf7
          · rw [if_pos hsx, if_pos hsx]
            cases hv : readVLF r with
            | ok p =>
              obtain ⟨d, rest⟩ := p
              simp only [Outcome.bind_ok]
              rw [sysexParse_spare _ _ hq _ hv spare spare']
            | err e => rfl
            | panic => rfl
            | diverge => rfl
          · rw [if_neg hsx, if_neg hsx]
  · rw [parseEvent, parseEvent, readVLQ_unterminated h]
    rfl

theorem trackLoop_spare (mc : MiddleC) (spare spare' : Bytes) (fuel : Nat) : ∀ (inp : Bytes) (tick : UInt32) (ctx : Context),
    GoodRS ctx.runningStatus → trackLoop mc spare fuel inp tick ctx = trackLoop mc spare' fuel inp tick ctx := by
  induction fuel with
  | zero => exact fun _ _ _ _ => rfl
  | succ fuel ih =>
    intro inp tick ctx hrs
    rw [trackLoop.eq_def, trackLoop.eq_def mc spare']
    simp only
    rw [parseEvent_spare mc inp spare spare' tick ctx hrs]
    cases h1 : parseEvent mc inp spare' tick ctx with
    | ok p =>
      obtain ⟨e, rest, c⟩ := p
      simp only
      have hc : GoodRS c.runningStatus := by
        rcases parseEvent_cases mc spare' tick ctx hrs inp with ⟨i, rest', rs', rfl, hi⟩ | ⟨_, h⟩ | ⟨_, h⟩ | ⟨_, h⟩
        · rw [parseEvent_framed mc spare' rest' tick ctx i rs' hi] at h1
          obtain ⟨b, hb, h1⟩ := bound_ok h1
          injection h1 with h1
          injection h1 with _ h1
          injection h1 with _ h1
          obtain ⟨db, eb, hb, hq, hf⟩ := hi
          rw [← h1]
          exact (framed_rs hf ctx).1
        all_goals
          rw [h] at h1
          cases h1
      rw [ih rest (tick + e.delta) (applyContext mc c e).2 (by rw [(applyContext_ctx mc c e).1]; exact hc)]
    | err e => cases e <;> rfl
    | panic => rfl
    | diverge => rfl

theorem unmarshalMTrk_spare (mc : MiddleC) (spare spare' : Bytes) (n : Nat) (data : Bytes) : unmarshalMTrk mc spare n data = unmarshalMTrk mc spare' n data := by
  have h := fun body : Bytes => trackLoop_spare mc spare spare' (body.length + 1) body 0 newContext (Or.inl (by decide))
  unfold unmarshalMTrk
  simp only [h]

theorem decodeTracks_spare (mc : MiddleC) (spare spare' : Bytes) (cs : List Bytes) : ∀ n, decodeTracks mc spare cs n = decodeTracks mc spare' cs n := by
  induction cs with
  | nil => exact fun _ => rfl
  | cons c cs ih =>
    intro n
    rw [decodeTracks, decodeTracks]
    simp only [unmarshalMTrk_spare mc spare spare', ih]

/-- What a file decodes to does not depend on the content of fresh memory. -/
theorem decode_spare (mc : MiddleC) (spare spare' file : Bytes) : decode mc spare file = decode mc spare' file := by
  unfold decode
  simp only [decodeTracks_spare mc spare spare']

/-! ### Commands -/

theorem splitTracks_world (w : World) (spare : Bytes) (order : Nat → MapOrder) (fresh : Bool) (p : Printer) (dir base : Bytes) (ts : List MTrk) :
    splitTracks { w with spare := spare, order := order } fresh p dir base ts = splitTracks w fresh p dir base ts := by
  induction ts with
  | nil => rfl
  | cons t ts ih =>
    rw [splitTracks, splitTracks, ih]
    rfl

theorem load_world (w : World) (spare : Bytes) (order : Nat → MapOrder) (mc : MiddleC) (file : Bytes) :
    load { w with spare := spare, order := order } mc file = load w mc file := by
  unfold load
  show (match w.file file with | none => _ | some bytes => _) = _
  cases w.file file with
  | none => rfl
  | some bytes =>
    simp only
    rw [decode_spare mc spare w.spare]

theorem withFile_world (w : World) (spare : Bytes) (order : Nat → MapOrder) (mc : MiddleC) (file : Bytes) (f g : SMF → RunResult)
    (h : ∀ smf, load w mc file = .ok smf → f smf = g smf) : withFile { w with spare := spare, order := order } mc file f = withFile w mc file g := by
  unfold withFile
  rw [load_world]
  cases hl : load w mc file with
  | ok smf => exact h smf hl
  | _ => rfl

theorem execute_world (w : World) (spare : Bytes) (order : Nat → MapOrder) (c : Command) (hc : c ≠ .notes) (s : List (Bytes × FlagValue)) (r : List Bytes) :
    execute { w with spare := spare, order := order } c s r = execute w c s r := by
  cases c with
  | notes => exact absurd rfl hc
  | disassemble =>
    simp only [execute, runDisassemble]
    refine withFile_world w _ _ _ _ _ _ fun smf _ => ?_
    show (match printerFor w _ with | none => _ | some p => _) = _
    cases printerFor w (stringFlag s "templates") with
    | none => rfl
    | some p =>
      simp only [separate, splitTracks_world]
      rfl
  | assemble => rfl
  | export_ => exact withFile_world w _ _ _ _ _ _ fun smf _ => rfl
  | transpose => exact withFile_world w _ _ _ _ _ _ fun smf _ => rfl
  | tsv => exact withFile_world w _ _ _ _ _ _ fun smf _ => rfl
  | click => exact withFile_world w _ _ _ _ _ _ fun smf _ => rfl
  | humanise => exact withFile_world w _ _ _ _ _ _ fun smf _ => rfl
  | help => rfl
  | version => rfl

/-- **C161, except for `notes`.** Two runs of the same command line on the same files give the same result, whatever the content of fresh memory
and the order of iteration over maps.  Missing: `notes`, of which this is false (`C161_repeatable_fails`, and `C162` for what is true). -/
theorem C161_repeatable_partial (w w' : World) (h : SameSystem w w') (c : Command) (args argv : List Bytes) (hi : Invokes c args argv) (hc : c ≠ .notes) :
    midiasm w argv = midiasm w' argv := by
  rw [same_system h, midiasm_invoked hi, midiasm_invoked hi]
  cases parseFlags (commandFlags c) args with
  | ok s r => exact (execute_world w _ _ c hc s r).symm
  | help => rfl
  | bad => rfl

/-- Two notes of a channel that are never ended. -/
def twoHanging : Bytes :=
  [0x4d, 0x54, 0x68, 0x64, 0, 0, 0, 6, 0, 1, 0, 2, 0, 96] ++ [0x4d, 0x54, 0x72, 0x6b, 0, 0, 0, 4, 0, 0xff, 0x2f, 0] ++
  [0x4d, 0x54, 0x72, 0x6b, 0, 0, 0, 11, 0, 0x90, 0x3c, 0x40, 0, 0x3e, 0x40, 0x60, 0xff, 0x2f, 0]

/-- A directory with that file. -/
def demoHanging : World := { demo with read := fun name => if name = str "in.mid" then some twoHanging else none }

/-- The same, and maps are iterated over in the opposite order. -/
def demoReversed : World := { demoHanging with order := fun _ => ⟨fun _ _ l => l.reverse, fun _ _ l => List.reverse_perm l⟩ }

/-- **C161 is false of `notes`**: the notes that end with the track are listed in the order of iteration over a map. -/
theorem C161_repeatable_fails : ∃ (w w' : World) (argv : List Bytes), SameSystem w w' ∧ (midiasm w argv).status = .success ∧
    (midiasm w argv).stdout ≠ (midiasm w' argv).stdout :=
  ⟨demoHanging, demoReversed, [str "notes", str "in.mid"], ⟨rfl, rfl, rfl, rfl, rfl, rfl⟩, by decide +kernel, by decide +kernel⟩

/-! ### Notes -/

theorem spans_perm {cs : List Content} {ps qs : List Span} (h1 : SpansOf cs ps) (h2 : SpansOf cs qs) : ps.Perm qs :=
  (List.perm_ext_iff_of_nodup h1.1 h2.1).2 fun p => (h1.2.1 p).trans (h2.2.1 p).symm

/-- No two notes of one channel end with the same event. -/
def EndApart (cs : List Content) : Prop := ∀ p q, IsSpan cs p → IsSpan cs q → p.last = q.last → p.ch = q.ch → p = q

theorem spans_equal {cs : List Content} (h : EndApart cs) {ps qs : List Span} (h1 : SpansOf cs ps) (h2 : SpansOf cs qs) : ps = qs := by
  refine (spans_perm h1 h2).eq_of_pairwise ?_ h1.2.2 h2.2.2
  intro p q hp hq hpq hqp
  refine h p q ((h1.2.1 p).1 hp) ((h2.2.1 q).1 hq) ?_ ?_
  · rcases hpq with a | a <;> rcases hqp with b | b <;> omega
  · rcases hpq with a | a <;> rcases hqp with b | b <;> omega

theorem runNotes_world (w w' : World) (h : SameSystem w w') (mc : MiddleC) (s : List (Bytes × FlagValue)) (file : Bytes)
    (he : ∀ smf, load w mc file = .ok smf → extractNotes mc w.order (intFlag s "transpose") smf = extractNotes mc w'.order (intFlag s "transpose") smf) :
    runNotes w' mc s file = runNotes w mc s file := by
  have e := same_system h
  rw [e]
  refine withFile_world w _ _ _ _ _ _ fun smf hl => ?_
  show emit w _ _ = emit w _ _
  simp only [he smf hl]

theorem status_world {w w' : World} (h : SameSystem w w') {args argv : List Bytes} {s : List (Bytes × FlagValue)} {r : List Bytes}
    (hi : Invokes .notes args argv) (hl : CommandLine (options .notes) args s r) : (midiasm w argv).status = (midiasm w' argv).status := by
  have hm : ReadsMidi .notes := by simp [ReadsMidi]
  have hw := same_system h
  generalize w'.spare = spare at hw
  generalize w'.order = order at hw
  subst hw
  obtain ⟨a1, a2⟩ := C158_crashes w .notes args argv s r hi hl hm
  obtain ⟨b1, b2⟩ := C158_crashes { w with spare := spare, order := order } .notes args argv s r hi hl hm
  have ht : ∀ args' s' r', Invokes .disassemble args' argv → CommandLine (options .disassemble) args' s' r' → NoText s' "templates" := by
    intro args' s' r' hi'
    obtain ⟨c, a, _, hu⟩ := C92_one_command argv
    have e1 := hu _ _ hi
    have e2 := hu _ _ hi'
    rw [← e1.1] at e2
    cases e2.1
  have c1 := C157_success w argv ht
  have c2 := C157_success { w with spare := spare, order := order } argv ht
  have hs : (midiasm w argv).status = .success ↔ (midiasm { w with spare := spare, order := order } argv).status = .success := by
    rw [c1, c2]
    rfl
  have hp : (midiasm w argv).status = .panicked ↔ (midiasm { w with spare := spare, order := order } argv).status = .panicked := by
    rw [a2, b2]
    rfl
  revert a1 b1 hs hp
  generalize (midiasm w argv).status = x
  generalize (midiasm { w with spare := spare, order := order } argv).status = y
  intro a1 b1 hs hp
  cases x <;> cases y <;> simp at *

/-- A result lists notes, as text or as JSON. -/
def Lists (w : World) (s : List (Bytes × FlagValue)) (ns : List Note) (result : RunResult) : Prop :=
  (¬ Given s "json" (.bool true) → Delivers w s (ns.flatMap fun x => str (noteLine x) ++ str "\n") result) ∧
  (Given s "json" (.bool true) → ∃ j text, JsonText Chars j text ∧ NotesDocument NearlySeconds ns j ∧ LaidOut .code 10 0 text ∧ Delivers w s text result)

/-- **C162.** Two runs of `notes` on the same files end in the same way.  The notes that they list for a track are the same, in the order in which
they end and by channel if they end together; and if no two notes of one channel end with the same event then the results are equal. -/
theorem C162_notes (w w' : World) (hw : SameSystem w w') (args argv : List Bytes) (s : List (Bytes × FlagValue)) (r : List Bytes)
    (hi : Invokes .notes args argv) (hl : CommandLine (options .notes) args s r) :
    (midiasm w argv).status = (midiasm w' argv).status ∧
    ∀ (bytes : Bytes) (mc : MiddleC) (h : Header) (ts : List TrackEntry) (n : Int), r.headD [] ≠ [] → w.read (r.headD []) = some bytes → Naming s mc →
      FileSays (octaveOffset mc) bytes h ts → 0 < h.division ∧ h.division < 32768 → ts ≠ [] → (∀ t ∈ ts, Brief t) → Number s "transpose" n → Fits n →
      (∃ pss pss',
        List.Forall₂ (fun (t : TrackEntry) ps => SpansOf (t.events.map (·.content)) ps) (ts.drop 1) pss ∧
        List.Forall₂ (fun (t : TrackEntry) ps => SpansOf (t.events.map (·.content)) ps) (ts.drop 1) pss' ∧ List.Forall₂ List.Perm pss pss' ∧
        Lists w s (fileNotes (octaveOffset mc) n h.division ts pss) (midiasm w argv) ∧
        Lists w' s (fileNotes (octaveOffset mc) n h.division ts pss') (midiasm w' argv)) ∧
      ((∀ t ∈ ts.drop 1, EndApart (t.events.map (·.content))) → midiasm w argv = midiasm w' argv) := by
  refine ⟨status_world hw hi hl, ?_⟩
  intro bytes mc h ts n hr hb hn hf hd hts hbr hnum hfit
  have hb' : w'.read (r.headD []) = some bytes := by rw [← hw.1]; exact hb
  constructor
  · obtain ⟨pss, h1, h2⟩ := C148_notes_command w args argv s r hi hl hr bytes hb mc hn h ts hf hd hts hbr n hnum hfit
    obtain ⟨pss', h1', h2'⟩ := C148_notes_command w' args argv s r hi hl hr bytes hb' mc hn h ts hf hd hts hbr n hnum hfit
    refine ⟨pss, pss', h1, h1', ?_, h2, h2'⟩
    clear h2 h2'
    generalize ts.drop 1 = l at h1 h1'
    induction h1 generalizing pss' with
    | nil =>
      cases h1'
      exact .nil
    | cons a _ ih =>
      cases h1' with
      | cons b h1' => exact .cons (spans_perm a b) (by apply ih; exact h1')
  · intro ha
    rw [midiasm_runs hi hl, midiasm_runs hi hl]
    simp only [execute, ← middleC.eq_def]
    have hmc := (naming_iff s mc).1 hn
    subst hmc
    refine (runNotes_world w w' hw _ s _ ?_).symm
    intro smf hload
    have hn' : intFlag s "transpose" = n := number_flag hnum
    rw [hn']
    have hdec : decode (middleC s) w.spare bytes = .ok smf := by
      unfold load at hload
      rw [file_some.2 ⟨hr, hb⟩] at hload
      simp only at hload
      obtain ⟨smf0, k1, k2⟩ := bound_ok hload
      obtain ⟨_, _, k2⟩ := bound_ok k2
      injection k2 with k2
      rw [k1, k2]
    obtain ⟨smf1, pss, g1, g2, g3⟩ := C148_notes (middleC s) w.spare bytes h ts hf hd hts hbr w.order n hfit
    obtain ⟨smf2, pss', g1', g2', g3'⟩ := C148_notes (middleC s) w.spare bytes h ts hf hd hts hbr w'.order n hfit
    rw [hdec] at g1 g1'
    injection g1 with g1
    injection g1' with g1'
    subst g1 g1'
    rw [g3, g3']
    have : pss = pss' := by
      clear g3 g3'
      revert ha
      generalize ts.drop 1 = l at g2 g2'
      intro ha
      induction g2 generalizing pss' with
      | nil =>
        cases g2'
        rfl
      | cons a _ ih =>
        cases g2' with
        | cons b g2' =>
          rw [spans_equal (ha _ (by simp)) a b, ih _ g2' fun t ht => ha t (by simp [ht])]
    rw [this]

/-- Two notes of different channels that end with the track. -/
example : EndApart [.noteOn 0 60 64, .noteOn 1 60 64, .endOfTrack] := by
  rintro ⟨c, k, f, l⟩ ⟨c', k', f', l'⟩ ⟨⟨x, h1, v, hv, rfl⟩, _⟩ ⟨⟨x', h1', v', hv', rfl⟩, _⟩ hl hc
  simp only at h1 h1' hl hc
  subst hl hc
  match f, f', h1, h1' with
  | 0, 0, h1, h1' => simp at h1 h1'; simp [← h1.2.1, ← h1'.2.1]
  | 0, 1, h1, h1' => simp at h1 h1'; omega
  | 1, 0, h1, h1' => simp at h1 h1'; omega
  | 1, 1, h1, h1' => simp at h1 h1'; simp [← h1.2.1, ← h1'.2.1]
  | 2, _, h1, _ => simp at h1
  | _, 2, _, h1' => simp at h1'
  | n + 3, _, h1, _ => simp at h1
  | _, n + 3, _, h1' => simp at h1'

end Midiasm
