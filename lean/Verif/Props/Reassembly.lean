import Verif.Props.NeverMisread

/-!
Property C115: exactly what assembling a disassembly gives, for files with tidy contents.
-/

set_option linter.unusedSimpArgs false

namespace Midiasm
open Spec

/-! ### Tracks of which some are refused -/

/-- What the assembler does with the lines of a track, whatever follows them. -/
def Acts (table : List (String × Lib.Manufacturer)) (chunk : List Bytes) (g : SMF → Outcome SMF) : Prop :=
  ∀ tail : List Bytes, (∀ l ∈ tail, l = []) → ∀ smf, assembleLines table (chunk ++ tail) (chunk ++ tail) smf = g smf

/-- The actions one after the other. -/
def actAll : List (SMF → Outcome SMF) → SMF → Outcome SMF
  | [], smf => .ok smf
  | g :: gs, smf => do
    let smf ← g smf
    actAll gs smf

theorem act_tracks (table : List (String × Lib.Manufacturer)) (ps : List ((MTrk × List Bytes) × (SMF → Outcome SMF)))
    (hps : ∀ p ∈ ps, p.1.1.tag = str "MTrk" ∧ (∀ l ∈ p.1.2, isTag l = false) ∧ Acts table (trackLine p.1.1 :: p.1.2) p.2)
    (chunk : List Bytes) (hne : chunk ≠ []) (g : SMF → Outcome SMF) (hg : Acts table chunk g) (smf : SMF) :
    assembleChunks table (chunkifyFrom chunk ((ps.map Prod.fst).flatMap trackLines)) smf = (do
      let smf ← g smf
      actAll (ps.map Prod.snd) smf) := by
  have hempty : isTag [] = false := by decide +kernel
  induction ps generalizing chunk g smf with
  | nil =>
    have h0 := hg [] (by simp)
    simp only [List.append_nil] at h0
    simp only [List.map_nil, List.flatMap_nil, chunkifyFrom, if_neg hne, assembleChunks, h0, actAll]
  | cons p ps ih =>
    obtain ⟨h1, h2, h3⟩ := hps p (by simp)
    have htag := (trackLine_tag p.1.1 h1).2.2.1
    have hstep : chunkifyFrom chunk (((p :: ps).map Prod.fst).flatMap trackLines) =
        (chunk ++ [[]]) :: chunkifyFrom (trackLine p.1.1 :: p.1.2) ((ps.map Prod.fst).flatMap trackLines) := by
      simp only [List.map_cons, List.flatMap_cons, trackLines, List.cons_append]
      rw [chunkifyFrom, if_neg (by simp [hempty]), chunkifyFrom, if_pos htag, chunkifyFrom_run p.1.2 h2]
      rfl
    rw [hstep, assembleChunks, hg [[]] (by simp)]
    cases hgs : g smf with
    | ok s =>
      simp only [Outcome.bind_ok]
      rw [ih (fun q hq => hps q (by simp [hq])) (trackLine p.1.1 :: p.1.2) (by simp) p.2 h3 s]
      rfl
    | err x => rfl
    | panic => rfl
    | diverge => rfl

/-- The lines of a track: what the assembler does with them follows from what the events are read as. -/
theorem act_track (table : List (String × Lib.Manufacturer)) (t : MTrk) (ht : t.tag = str "MTrk") (ls : List Bytes)
    (hls : ∀ l ∈ ls, isTag l = false) (r : Outcome (List Event))
    (hr : ∀ tail : List Bytes, (∀ l ∈ tail, l = []) → parseEvents table (ls ++ tail) = r) :
    Acts table (trackLine t :: ls) (fun smf => do
      let es ← r
      let fixed ← fixups es
      addTrack fixed smf) := by
  intro tail htail smf
  beta_reduce
  obtain ⟨h1, h2, _, h4⟩ := trackLine_tag t ht
  have hempty : isTag [] = false ∧ isBlank [] = true := by decide +kernel
  have hparse : parseMTrk table (trackLine t :: ls ++ tail) = (do
      let es ← r
      let fixed ← fixups es
      .ok (madeTrack 0 fixed)) := by
    unfold parseMTrk
    rw [List.cons_append, List.dropWhile_cons_of_neg (by simp [h1])]
    simp only
    rw [hr tail htail]
    rfl
  have hfirst : assembleLine table (trackLine t :: ls ++ tail) smf (trackLine t) = (do
      let es ← r
      let fixed ← fixups es
      addTrack fixed smf) := by
    unfold assembleLine
    rw [h4, h2, h1, hparse]
    simp only [Bool.false_eq_true, if_false, if_true, Outcome.bind_ok]
    cases r with
    | ok es =>
      simp only [Outcome.bind_ok]
      cases fixups es with
      | ok fixed =>
        simp only [Outcome.bind_ok]
        unfold addTrack
        cases smf.mthd <;> rfl
      | err x => rfl
      | panic => rfl
      | diverge => rfl
    | err x => rfl
    | panic => rfl
    | diverge => rfl
  have hstep : assembleLines table (trackLine t :: ls ++ tail) (trackLine t :: ls ++ tail) smf =
      (do let s ← assembleLine table (trackLine t :: ls ++ tail) smf (trackLine t)
          assembleLines table (trackLine t :: ls ++ tail) (ls ++ tail) s) := rfl
  rw [hstep, hfirst]
  generalize hres : (do
      let es ← r
      let fixed ← fixups es
      addTrack fixed smf : Outcome SMF) = res
  cases res with
  | ok s =>
    rw [Outcome.bind_ok]
    refine assembleLines_rest table _ _ ?_ s
    intro l hl'
    rcases List.mem_append.1 hl' with hl' | hl'
    · exact hls l hl'
    · rw [htail l hl']; exact hempty.1
  | err x => rfl
  | panic => rfl
  | diverge => rfl

/-! ### Tidy contents -/

/-- Texts without newline, leading blank, final carriage return and names of events and chunks; SysEx messages in one packet.  Nothing is
asked of notes, time signatures and manufacturers. -/
def Body.Tidy : Body → Prop
  | .text k s => 10 ∉ s ∧ (∀ b, s.head? = some b → b ∉ blanks) ∧ s.getLast? ≠ some 13 ∧ Unambiguous k.tag s ∧ ¬ Occurs "MThd" s ∧ ¬ Occurs "MTrk" s
  | .sysExMessage _ _ terminated => terminated = true
  | .sysExContinuation _ _ => False
  | _ => True

/-- Events that can be read back: notes 12 to 131, known manufacturers, time signatures whose numbers the patterns accept. -/
def Body.Known : Body → Prop
  | .timeSignature _ d _ t => d ≠ 0 ∧ t ≠ 0 ∧ (10 ≤ t → t % 10 ≠ 9) ∧ (100 ≤ t → t / 10 % 10 ≠ 9)
  | .sequencerSpecific m _ => m.name ≠ "<unknown>"
  | .noteOff _ n _ => 12 ≤ n.value ∧ n.value ≤ 131
  | .noteOn _ n _ => 12 ≤ n.value ∧ n.value ≤ 131
  | .sysExMessage m _ _ => m.name ≠ "<unknown>"
  | _ => True

theorem tidy_plain (b : Body) (ht : b.Tidy) : b.Plain ↔ b.Known := by
  cases b with
  | text k s => exact ⟨fun _ => trivial, fun _ => ht⟩
  | sysExMessage m d s => exact ⟨fun h => h.1, fun h => ⟨h, ht⟩⟩
  | sysExContinuation d s => exact ht.elim
  | _ => exact Iff.rfl

/-- The events of a decoded file that are not known are not readable. -/
theorem known_readable {spare file : Bytes} {smf : SMF} (hd : decode .c3 spare file = .ok smf) (table : List (String × Lib.Manufacturer))
    (htab : ∀ e, e ∈ table ↔ e ∈ Lib.manufacturers) (t : MTrk) (ht : t ∈ smf.tracks) (e : Event) (he : e ∈ t.events) (htidy : e.body.Tidy) :
    e.body.Readable table ↔ e.body.Known := by
  have hmade := decoded_made hd t ht e he
  have hnamed := decoded_named hd t ht e he
  have hmfr : ∀ id, (Lib.lookupManufacturer id).name = "<unknown>" → ¬ Findable table (Lib.lookupManufacturer id) := by
    intro id hn hf
    obtain ⟨key, hk⟩ := hf.1
    have := builtin_known _ ((htab _).1 hk)
    rw [hn] at this
    revert this
    decide +kernel
  cases hb : e.body with
  | timeSignature n d c q =>
    rw [hb] at hmade
    have h1 : (1 : UInt8) ≤ d ↔ d ≠ 0 := by
      rw [Ne, ← UInt8.toNat_inj, UInt8.le_iff_toNat_le]
      show 1 ≤ d.toNat ↔ ¬ d.toNat = 0
      omega
    exact ⟨fun h => ⟨h1.1 h.1, h.2.2⟩, fun h => ⟨h1.2 h.1, hmade, h.2⟩⟩
  | sequencerSpecific m data =>
    rw [hb] at hmade
    obtain ⟨id, rfl⟩ := hmade
    refine ⟨fun h hn => hmfr id hn h.1, fun h => ?_⟩
    obtain ⟨f1, f2⟩ := builtin_findable table htab id h
    exact ⟨f1, fun l r hlr x hx => f2 x (by rw [hlr]; simp [hx])⟩
  | sysExMessage m data single =>
    rw [hb] at hmade
    obtain ⟨id, rfl⟩ := hmade
    refine ⟨fun h hn => hmfr id hn h.1, fun h => ?_⟩
    obtain ⟨f1, f2⟩ := builtin_findable table htab id h
    exact ⟨f1, fun l r hlr x hx => f2 x (by rw [hlr]; simp [hx])⟩
  | noteOff ch n v =>
    rw [hb] at hmade
    exact ⟨fun h => ⟨h.2.2.1, h.2.2.2.1⟩, fun h => ⟨hmade.1, hmade.2, h.1, h.2, hnamed ch v n (Or.inr hb)⟩⟩
  | noteOn ch n v =>
    rw [hb] at hmade
    exact ⟨fun h => ⟨h.2.2.1, h.2.2.2.1⟩, fun h => ⟨hmade.1, hmade.2, h.1, h.2, hnamed ch v n (Or.inl hb)⟩⟩
  | text k s => rw [hb] at htidy; exact ⟨fun _ => trivial, fun _ => ⟨htidy.1, htidy.2.1, htidy.2.2.2.1⟩⟩
  | sysExContinuation d s => rw [hb] at htidy; exact htidy.elim
  | sequenceNumber n => exact ⟨fun _ => trivial, fun _ => trivial⟩
  | endOfTrack => exact ⟨fun _ => trivial, fun _ => trivial⟩
  | tempo n => exact ⟨fun _ => trivial, fun _ => trivial⟩
  | sysExEscape _ => exact ⟨fun _ => trivial, fun _ => trivial⟩
  | _ => rw [hb] at hmade; exact ⟨fun _ => trivial, fun _ => hmade⟩

theorem contained_of_tidy {spare file : Bytes} {smf : SMF} (hd : decode .c3 spare file = .ok smf) (t : MTrk) (ht : t ∈ smf.tracks) (e : Event)
    (he : e ∈ t.events) (htidy : e.body.Tidy) : e.body.Contained := by
  have hmade := decoded_made hd t ht e he
  have hmfr : ∀ id, ¬ Occurs "MThd" (str (Lib.lookupManufacturer id).name) ∧ ¬ Occurs "MTrk" (str (Lib.lookupManufacturer id).name) := by
    intro id
    by_cases hn : (Lib.lookupManufacturer id).name = "<unknown>"
    · rw [hn]
      constructor
      · intro h; have := (contains_iff _ _).mpr h; revert this; decide +kernel
      · intro h; have := (contains_iff _ _).mpr h; revert this; decide +kernel
    · obtain ⟨_, f2⟩ := builtin_findable Lib.manufacturers (fun _ => Iff.rfl) id hn
      exact ⟨f2 _ (by simp), f2 _ (by simp)⟩
  cases hb : e.body with
  | text k s => rw [hb] at htidy; exact ⟨htidy.2.2.1, htidy.2.2.2.2⟩
  | sequencerSpecific m data => rw [hb] at hmade; obtain ⟨id, rfl⟩ := hmade; exact hmfr id
  | sysExMessage m data single => rw [hb] at hmade; obtain ⟨id, rfl⟩ := hmade; exact hmfr id
  | _ => trivial

/-- The line of a tidy event is one line that starts no chunk and is no comment. -/
theorem tidy_line {spare file : Bytes} {smf : SMF} (hd : decode .c3 spare file = .ok smf) (t : MTrk) (ht : t ∈ smf.tracks) (e : Event)
    (he : e ∈ t.events) (htidy : e.body.Tidy) (line : Bytes) (hp : printEvent e = .ok line) :
    isTag line = false ∧ isComment line = false ∧ isBlank line = false ∧ 10 ∉ line ∧ line.getLast? ≠ some 13 := by
  have hc := contained_of_tidy hd t ht e he htidy
  by_cases hr : e.body.Readable Lib.manufacturers
  · exact event_line Lib.manufacturers e line hp hr hc
  have hk : ¬ e.body.Known := fun h => hr ((known_readable hd _ (fun _ => Iff.rfl) t ht e he htidy).2 h)
  have hmade := decoded_made hd t ht e he
  have hnamed := decoded_named hd t ht e he
  have hoccurs : ∀ (w : String) (s : Bytes), ¬ Occurs w s → contains s (str w) = false := by
    intro w s h
    rw [Bool.eq_false_iff]
    exact fun hh => h ((contains_iff _ _).mp hh)
  have fin : ∀ {s : Bytes}, Clean s → 10 ∉ s ∧ s.getLast? ≠ some 13 := fun h => ⟨fun e => (h 10 e).1 rfl, clean_last h⟩
  have hword : ∀ w ∈ ["MThd", "MTrk"], Word w := fun w hw => words w (List.mem_append_right _ hw)
  have hnotes : ∀ ch n v, e.body = .noteOn ch n v ∨ e.body = .noteOff ch n v →
      (∀ w ∈ ["MThd", "MTrk"], contains (shownFields e.body) (str w) = false) ∧ 10 ∉ shownFields e.body ∧ (shownFields e.body).getLast? ≠ some 13 := by
    intro ch n v hb
    obtain ⟨flats, p, hp1, hp, _, _⟩ := hnamed ch v n hb
    have hlt := n.value.toNat_lt
    have ht : ∀ p ∈ pitchNames, ∀ o : Fin 22, ∀ c ∈ str (p ++ toString ((o.val : Int) - 1)), c ∈ noteAlphabet := by
      decide +kernel
    have ha : ∀ c ∈ str n.name, c ∈ noteAlphabet := by
      rw [hp1]
      exact ht p (pitchClass_mem p _ hp) ⟨n.value.toNat / 12, by omega⟩
    have hfields : shownFields e.body =
        str "channel:" ++ (pad 2 (dec ch.toNat) ++ ([32] ++ (str "note:" ++ (str n.name ++ (str ", velocity:" ++ dec v.toNat))))) := by
      rcases hb with hb | hb <;> rw [hb] <;> rfl
    rw [hfields]
    refine ⟨fun w hw => contains_note ch v n.name ha w (hword w hw), fin ?_⟩
    exact clean_app (clean_str _ (by decide +kernel)) (clean_app (clean_low (pad_low _ _)) (clean_app (clean_low sp_low)
      (clean_app (clean_str _ (by decide +kernel)) (clean_app (clean_of ha (by decide +kernel)) (clean_app (clean_str _ (by decide +kernel)) (clean_dec _))))))
  have hdata : ∀ name data, shownFields e.body = str name ++ (str ", " ++ hexString data) → ¬ Occurs "MThd" (str name) ∧ ¬ Occurs "MTrk" (str name) →
      10 ∉ str name →
      (∀ w ∈ ["MThd", "MTrk"], contains (shownFields e.body) (str w) = false) ∧ 10 ∉ shownFields e.body ∧ (shownFields e.body).getLast? ≠ some 13 := by
    intro name data hf ho h10
    rw [hf]
    refine ⟨fun w hw => ?_, ?_, last_data _ _⟩
    · rw [contains_data _ _ w (hword w hw)]
      simp at hw
      rcases hw with rfl | rfl
      · exact hoccurs _ _ ho.1
      · exact hoccurs _ _ ho.2
    · intro h
      rcases List.mem_append.mp h with h | h
      · exact h10 h
      · exact (clean_app (clean_str _ (by decide +kernel)) (clean_hex data) 10 h).1 rfl
  have key : (∀ w ∈ ["MThd", "MTrk"], contains (shownFields e.body) (str w) = false) ∧ 10 ∉ shownFields e.body ∧ (shownFields e.body).getLast? ≠ some 13 := by
    cases hb : e.body with
    | noteOn ch n v => rw [← hb]; exact hnotes ch n v (Or.inl hb)
    | noteOff ch n v => rw [← hb]; exact hnotes ch n v (Or.inr hb)
    | timeSignature n d c q =>
      have hlow := (app_low (dec_low n.toNat) (app_low (by decide +kernel : ∀ c ∈ str "/", c ∈ lowAlphabet) (app_low (dec_low d.toNat)
        (app_low (by decide +kernel : ∀ c ∈ str ", ", c ∈ lowAlphabet) (app_low (dec_low c.toNat)
        (app_low (by decide +kernel : ∀ c ∈ str " ticks per click, ", c ∈ lowAlphabet) (app_low (dec_low q.toNat)
          (by decide +kernel : ∀ c ∈ str "/32 per quarter", c ∈ lowAlphabet))))))))
      exact ⟨fun w hw => contains_low _ hlow w (hword w hw), fin (clean_low hlow)⟩
    | sequencerSpecific m data =>
      rw [hb] at hk hc hmade
      have hn : m.name = "<unknown>" := by
        by_contra hx; exact hk hx
      rw [← hb]
      exact hdata m.name data (by rw [hb]; rfl) hc (by rw [hn]; decide +kernel)
    | sysExMessage m data single =>
      rw [hb] at hk hc hmade
      have hn : m.name = "<unknown>" := by
        by_contra hx; exact hk hx
      rw [← hb]
      exact hdata m.name data (by rw [hb]; rfl) hc (by rw [hn]; decide +kernel)
    | text k s => rw [hb] at hk; exact absurd trivial hk
    | sysExContinuation d s => rw [hb] at htidy; exact htidy.elim
    | _ => rw [hb] at hk; exact absurd trivial hk
  exact event_line_of e line hp key.1 key.2

/-- Reading the lines of tidy events: all the events if all are known, otherwise an error. -/
theorem tidy_lines {spare file : Bytes} {smf : SMF} (hd : decode .c3 spare file = .ok smf) (table : List (String × Lib.Manufacturer))
    (htab : ∀ e, e ∈ table ↔ e ∈ Lib.manufacturers) (t : MTrk) (ht : t ∈ smf.tracks) (es : List Event) (hes : ∀ e ∈ es, e ∈ t.events ∧ e.body.Tidy)
    (ls : List Bytes) (hl : es.map printEvent = ls.map .ok) (tail : List Bytes) (htail : ∀ l ∈ tail, l = []) :
    ((∀ e ∈ es, e.body.Known) → parseEvents table (ls ++ tail) = .ok (asReadEvents es)) ∧
    ((∃ e ∈ es, ¬ e.body.Known) → parseEvents table (ls ++ tail) = .err .other) := by
  have hblank : isBlank [] = true := by decide +kernel
  have htl : parseEvents table tail = .ok [] := by
    clear hl
    induction tail with
    | nil => rfl
    | cons l tail ih =>
      rw [parseEvents, if_pos (by rw [htail l (by simp), hblank]; simp)]
      exact ih (fun l hl => htail l (by simp [hl]))
  induction es generalizing ls with
  | nil =>
    have : ls = [] := by simpa using hl.symm
    subst this
    rw [List.nil_append, htl]
    exact ⟨fun _ => rfl, fun ⟨e, he, _⟩ => by cases he⟩
  | cons e es ih =>
    cases ls with
    | nil => simp at hl
    | cons l ls =>
      simp only [List.map_cons, List.cons.injEq] at hl
      obtain ⟨hm, htidy⟩ := hes e (by simp)
      obtain ⟨_, l2, l3, _, _⟩ := tidy_line hd t ht e hm htidy l hl.1
      obtain ⟨ih1, ih2⟩ := ih (fun e he => hes e (by simp [he])) ls hl.2
      have hstep : parseEvents table (l :: ls ++ tail) = (do
          let e ← readEvent table l
          let es ← parseEvents table (ls ++ tail)
          .ok (e :: es)) := by
        rw [List.cons_append, parseEvents, if_neg (by simp [l2, l3])]
      have hkr := known_readable hd table htab t ht e hm htidy
      constructor
      · intro h
        rw [hstep, C80_line_reads_back table e l hl.1 (hkr.2 (h e (by simp))), Outcome.bind_ok, ih1 (fun e he => h e (by simp [he])), Outcome.bind_ok]
        rfl
      · rintro ⟨b, hb, hbk⟩
        by_cases hk : e.body.Known
        · have hb' : b ∈ es := by
            rcases List.mem_cons.1 hb with rfl | hb
            · exact absurd hk hbk
            · exact hb
          rw [hstep, C80_line_reads_back table e l hl.1 (hkr.2 hk), Outcome.bind_ok, ih2 ⟨b, hb', hbk⟩]
          rfl
        · have hno : ∀ k s, e.body ≠ .text k s := by
            intro k s he
            rw [he] at hk
            exact hk trivial
          rcases C114_never_misread table htab spare file smf hd t ht e hm hno l hl.1 with h | h
          · exfalso
            have := ((C111_exactly_readable table (by
              intro x hx
              obtain ⟨⟨key, hk⟩, b, c⟩ := builtin_tellable x ((htab x).1 hx)
              exact ⟨⟨key, (htab _).2 hk⟩, fun e he => b e ((htab e).1 he), c⟩) e l hl.1).1 h)
            exact hk (hkr.1 this)
          · rw [hstep, h]
            rfl

/-! ### The header of a file with SMPTE time -/

/-- The line printed for the header of a file with SMPTE time, without newline. -/
def smpteLine (h : MThd) : Bytes :=
  pad 42 (ellipsize (hexString h.bytes) 42) ++ str "  " ++ h.tag ++ str " length:" ++ dec h.length.toNat ++ str ", format:" ++
    dec h.format.toNat ++ str ", tracks:" ++ dec h.tracks.toNat ++ str ", " ++
    (str "SMPTE:" ++ dec h.fps.toNat ++ str " fps," ++ dec h.subFrames.toNat ++ str " sub-frames")

theorem printMThd_smpte (h : MThd) (hs : h.smpte = true) : printMThd h = smpteLine h ++ [10] := by
  unfold printMThd smpteLine
  rw [hs]
  rfl

/-- Bytes of that line. -/
def smpteAlphabet : Bytes := hexAlphabet ++ str "MThd length:, format:tracks:SMPTE fps,sub-frames0123456789"

theorem smpteLine_alphabet (h : MThd) (ht : h.tag = str "MThd") : ∀ c ∈ smpteLine h, c ∈ smpteAlphabet := by
  have hd : ∀ n, ∀ c ∈ dec n, c ∈ smpteAlphabet := by
    intro n c hc
    have h7 : ∀ c ∈ str "0123456789", c ∈ smpteAlphabet := by decide +kernel
    exact h7 c (dec_alphabet _ c hc)
  have hs : ∀ w ∈ ["  ", "MThd", " length:", ", format:", ", tracks:", ", ", "SMPTE:", " fps,", " sub-frames"], ∀ c ∈ str w, c ∈ smpteAlphabet := by
    decide +kernel
  intro c hc
  unfold smpteLine at hc
  rw [ht] at hc
  simp only [List.mem_append, or_assoc] at hc
  rcases hc with hc | hc | hc | hc | hc | hc | hc | hc | hc | hc | hc | hc | hc | hc | hc
  · exact List.mem_append_left _ (column_alphabet _ _ _ c hc)
  · exact hs _ (by simp) c hc
  · exact hs _ (by simp) c hc
  · exact hs _ (by simp) c hc
  · exact hd _ c hc
  · exact hs _ (by simp) c hc
  · exact hd _ c hc
  · exact hs _ (by simp) c hc
  · exact hd _ c hc
  · exact hs _ (by simp) c hc
  · exact hs _ (by simp) c hc
  · exact hd _ c hc
  · exact hs _ (by simp) c hc
  · exact hd _ c hc
  · exact hs _ (by simp) c hc

theorem smpteLine_tag (h : MThd) (ht : h.tag = str "MThd") :
    isMThd (smpteLine h) = true ∧ isComment (smpteLine h) = false ∧ Clean (smpteLine h) := by
  refine ⟨(contains_iff _ _).mpr ?_, ?_, clean_of (smpteLine_alphabet h ht) (by decide +kernel)⟩
  · unfold smpteLine
    rw [ht]
    refine ⟨pad 42 (ellipsize (hexString h.bytes) 42) ++ str "  ", str " length:" ++ dec h.length.toNat ++ str ", format:" ++
      dec h.format.toNat ++ str ", tracks:" ++ dec h.tracks.toNat ++ str ", " ++
      (str "SMPTE:" ++ dec h.fps.toNat ++ str " fps," ++ dec h.subFrames.toNat ++ str " sub-frames"), ?_⟩
    simp only [List.append_assoc]
  · rw [Bool.eq_false_iff]
    intro hc
    exact absurd (smpteLine_alphabet h ht 37 (List.mem_of_head? (comment_head _ hc))) (by decide +kernel)

/-- The division pattern needs the word `metrical`, which the line of a file with SMPTE time does not have. -/
theorem smpteLine_division (h : MThd) (ht : h.tag = str "MThd") : findSubmatch divisionPattern (smpteLine h) = none := by
  cases hf : findSubmatch divisionPattern (smpteLine h) with
  | none => rfl
  | some gs =>
    exfalso
    obtain ⟨a, u, v, o, hl, hr⟩ := findSubmatch_runs _ _ _ hf
    unfold divisionPattern at hr
    simp only [List.append_assoc] at hr
    obtain ⟨u1, u2, c1, rfl, hr1, _⟩ := runs_append _ _ _ _ _ hr
    obtain ⟨hm, _⟩ := runs_lit "metrical" hr1
    have hi : [(105 : UInt8)] ∈ u1 := by
      have hw : str "metrical" = [109, 101, 116, 114, 105, 99, 97, 108] := by decide +kernel
      rw [hw] at hm
      have h4 : ∀ (l : List (Tok → Bool)) (s : List Tok), Matches l s → charTok 105 ∈ l → [(105 : UInt8)] ∈ s := by
        intro l
        induction l with
        | nil => intro s _ h; cases h
        | cons q l ih =>
          intro s hs hq
          cases s with
          | nil => cases hs
          | cons t s =>
            obtain ⟨ht, hs⟩ := hs
            rcases List.mem_cons.1 hq with hq | hq
            · rw [← hq] at ht
              match t, ht with
              | [b], ht =>
                simp only [charTok, decide_eq_true_eq] at ht
                rw [ht]
                simp
            · exact List.mem_cons_of_mem _ (ih s hs hq)
      exact h4 _ _ hm (by simp)
    have : (105 : UInt8) ∈ smpteLine h := mem_toks _ [105] 105 (by rw [hl]; simp [hi]) (by simp)
    exact absurd (smpteLine_alphabet h ht _ this) (by decide +kernel)

theorem parse_smpteLine (m : MThd) (ht : m.tag = str "MThd") (tail : List Bytes) : parseMThd (smpteLine m :: tail) = .err .other := by
  unfold parseMThd
  rw [List.find?_cons_of_pos (smpteLine_tag m ht).1]
  simp only [smpteLine_division m ht]
  split
  · rename_i f _
    cases hu : parseUint f 16 with
    | ok v => rfl
    | err x =>
      have : x = .other := by
        unfold parseUint at hu
        repeat' split at hu
        all_goals first | cases hu; rfl | cases hu
      rw [this]
      rfl
    | panic =>
      unfold parseUint at hu
      repeat' split at hu
      all_goals cases hu
    | diverge =>
      unfold parseUint at hu
      repeat' split at hu
      all_goals cases hu
  · rfl

/-! ### The whole file -/

theorem actAll_append (a b : List (SMF → Outcome SMF)) (smf : SMF) : actAll (a ++ b) smf = (do
    let smf ← actAll a smf
    actAll b smf) := by
  induction a generalizing smf with
  | nil => rfl
  | cons g a ih =>
    rw [List.cons_append, actAll, actAll]
    cases g smf with
    | ok s => rw [Outcome.bind_ok, Outcome.bind_ok, ih]
    | err x => rfl
    | panic => rfl
    | diverge => rfl

/-- What becomes of a track. -/
noncomputable def trackAct (t : MTrk) (smf : SMF) : Outcome SMF := do
  let es ← (open Classical in if ∀ e ∈ t.events, e.body.Known then .ok (asReadEvents t.events) else .err .other)
  let fixed ← fixups es
  addTrack fixed smf

theorem trackAct_ok (ts : List MTrk) (ht : ∀ t ∈ ts, t.events ≠ [] ∧ ∀ e ∈ t.events, e.body.Known) (m : MThd) (us : List MTrk) :
    ∃ m' us', actAll (ts.map trackAct) ⟨some m, us⟩ = .ok ⟨some m', us'⟩ := by
  induction ts generalizing m us with
  | nil => exact ⟨m, us, rfl⟩
  | cons t ts ih =>
    obtain ⟨h1, h2⟩ := ht t (by simp)
    have hne : asReadEvents t.events ≠ [] := by
      cases he : t.events with
      | nil => exact absurd he h1
      | cons a l => simp [asReadEvents]
    obtain ⟨fixed, hf, _⟩ := (C73_fixups_exact _).2 hne
    rw [List.map_cons, actAll]
    have : trackAct t ⟨some m, us⟩ = .ok ⟨some { m with tracks := m.tracks + 1 }, us ++ [madeTrack us.length fixed]⟩ := by
      unfold trackAct
      rw [if_pos h2, Outcome.bind_ok, hf, Outcome.bind_ok]
      rfl
    rw [this, Outcome.bind_ok]
    exact ih (fun t h => ht t (by simp [h])) _ _

/-- The chunks of the text printed for a file with tidy contents. -/
theorem tidy_chunks {spare file : Bytes} {smf : SMF} (hd : decode .c3 spare file = .ok smf) (table : List (String × Lib.Manufacturer))
    (htab : ∀ e, e ∈ table ↔ e ∈ Lib.manufacturers) (ht : ∀ t ∈ smf.tracks, ∀ e ∈ t.events, e.body.Tidy) (m : MThd) (hm : smf.mthd = some m)
    (L : Bytes) (hL : printMThd m = L ++ [10]) (hclean : Clean L) (htag : isMThd L = true) (text : Bytes) (hp : printSMF smf = .ok text)
    (hshort : ShortLines text) (g : SMF → Outcome SMF) (hg : Acts table [L] g) :
    (readChunks text >>= fun chunks => assembleChunks table chunks ⟨none, []⟩) =
      g ⟨none, []⟩ >>= fun smf' => actAll (smf.tracks.map trackAct) smf' := by
  have htagt : tagMTrk = str "MTrk" := by decide +kernel
  have htags : ∀ t ∈ smf.tracks, t.tag = str "MTrk" := by
    intro t htm
    obtain ⟨i, ch, hwf, htag, _, hu⟩ := decode_track hd htm
    rw [((unmarshalMTrk_ok .c3 spare i ch hwf htag t).1 hu).2.1, htagt]
  unfold printSMF at hp
  rw [hm] at hp
  simp only at hp
  obtain ⟨tt, hpt, hp⟩ := bound_ok hp
  replace hp := Outcome.ok.inj hp
  obtain ⟨ps, p1, p2, p3⟩ := printTracks_lines _ _ hpt
  have htext : text = unlines (L :: ps.flatMap trackLines) := by
    rw [← hp, hL, p3]
    simp [unlines]
  have hmem : ∀ p ∈ ps, p.1 ∈ smf.tracks := fun p hp => by rw [← p1]; exact List.mem_map.2 ⟨p, hp, rfl⟩
  have hline : ∀ p ∈ ps, ∀ l ∈ p.2, isTag l = false ∧ 10 ∉ l ∧ l.getLast? ≠ some 13 := by
    intro p hpp l hl
    have : (.ok l : Outcome Bytes) ∈ p.1.events.map printEvent := by
      rw [p2 p hpp]
      exact List.mem_map.2 ⟨l, hl, rfl⟩
    obtain ⟨e, he, hpe⟩ := List.mem_map.1 this
    obtain ⟨l1, _, _, l4⟩ := tidy_line hd p.1 (hmem p hpp) e he (ht _ (hmem p hpp) e he) l hpe
    exact ⟨l1, l4⟩
  have hplain : ∀ l ∈ L :: ps.flatMap trackLines, Plain l := by
    intro l hl
    have h2 : 10 ∉ l ∧ l.getLast? ≠ some 13 := by
      rcases List.mem_cons.1 hl with hl | hl
      · rw [hl]
        exact ⟨fun e => (hclean 10 e).1 rfl, clean_last hclean⟩
      · obtain ⟨p, hpp, hlp⟩ := List.mem_flatMap.1 hl
        simp only [trackLines, List.mem_cons] at hlp
        rcases hlp with hlp | hlp | hlp
        · rw [hlp]; simp
        · have : Clean (trackLine p.1) := clean_of (trackLine_alphabet p.1 (htags _ (hmem p hpp))) (by decide +kernel)
          rw [hlp]
          exact ⟨fun e => (this 10 e).1 rfl, clean_last this⟩
        · exact (hline p hpp l hlp).2
    exact ⟨h2.1, h2.2, short_line _ (by rw [← htext]; exact hshort) l hl h2.1⟩
  have hread : readChunks text = .ok (chunkifyFrom [L] (((ps.map fun p => (p, trackAct p.1)).map Prod.fst).flatMap trackLines)) := by
    unfold readChunks
    have hid : (ps.map fun p => (p, trackAct p.1)).map Prod.fst = ps := by
      rw [List.map_map]
      exact List.map_id _
    rw [htext, scan_unlines _ hplain, hid]
    simp only [Bool.false_eq_true, if_false]
    rw [chunkify, if_pos htag]
  rw [hread, Outcome.bind_ok, act_tracks table _ ?_ [L] (by simp) g hg]
  · have hacts : (ps.map fun p => (p, trackAct p.1)).map Prod.snd = smf.tracks.map trackAct := by
      rw [List.map_map, ← p1, List.map_map]
      apply List.map_congr_left
      intro p _
      rfl
    rw [hacts]
  · intro q hq
    obtain ⟨p, hpp, rfl⟩ := List.mem_map.1 hq
    refine ⟨htags _ (hmem p hpp), fun l hl => (hline p hpp l hl).1, ?_⟩
    refine act_track table p.1 (htags _ (hmem p hpp)) p.2 (fun l hl => (hline p hpp l hl).1) _ ?_
    intro tail htail
    obtain ⟨t1, t2⟩ := tidy_lines hd table htab p.1 (hmem p hpp) p.1.events (fun e he => ⟨he, ht _ (hmem p hpp) e he⟩) p.2 (p2 p hpp) tail htail
    by_cases hk : ∀ e ∈ p.1.events, e.body.Known
    · rw [t1 hk, if_pos hk]
    · rw [if_neg hk]
      apply t2
      simpa only [not_forall, exists_prop] using hk

/-- **C115.** Exactly what assembling a disassembly gives, for a decoded file with tidy contents and no line of 64 kB or more:
* with SMPTE time, always an error;
* with metrical time, if no track is empty and all events are known, the bytes of the decoded file;
* with metrical time, otherwise, what the first track that is empty or has an event that is not known gives: a crash if it is empty, an
  error if it has such an event. -/
theorem C115_reassembly (table : List (String × Lib.Manufacturer)) (htab : ∀ e, e ∈ table ↔ e ∈ Lib.manufacturers) (spare file : Bytes)
    (smf : SMF) (hd : decode .c3 spare file = .ok smf) (m : MThd) (hm : smf.mthd = some m)
    (ht : ∀ t ∈ smf.tracks, (∀ last, t.events.getLast? = some last → ¬ last.body.IsMessage) ∧ ∀ e ∈ t.events, e.body.Tidy)
    (text : Bytes) (hp : printSMF smf = .ok text) (hshort : ShortLines text) :
    (32768 ≤ m.division.toNat → assembleText table text = .err .other) ∧
    (m.division.toNat < 32768 →
      ((∀ t ∈ smf.tracks, t.events ≠ [] ∧ ∀ e ∈ t.events, e.body.Known) → assembleText table text = encode smf) ∧
      (∀ before t after, smf.tracks = before ++ t :: after → (∀ u ∈ before, u.events ≠ [] ∧ ∀ e ∈ u.events, e.body.Known) →
        (t.events = [] → assembleText table text = .panic) ∧
        ((∃ e ∈ t.events, ¬ e.body.Known) → assembleText table text = .err .other))) := by
  obtain ⟨m', h, hm', hs, hv, hn, htr⟩ := decode_ok hd
  rw [hm] at hm'
  injection hm' with hm'
  subst hm'
  obtain ⟨s1, s2, s3, s4, s5, s6, s7⟩ := hs
  have htagh : tagMThd = str "MThd" := by decide +kernel
  have hmt : m.tag = str "MThd" := by rw [s1, htagh]
  have hempty : isTag [] = false := by decide +kernel
  have hbind : assembleText table text = (readChunks text >>= fun chunks => assembleChunks table chunks ⟨none, []⟩) >>= encode := by
    unfold assembleText
    cases readChunks text <;> rfl
  have hstart : ∀ (L : Bytes) (r : Outcome MThd), isMThd L = true → isComment L = false → (∀ tail, parseMThd (L :: tail) = r) →
      Acts table [L] (fun smf => do
        let m ← r
        .ok ⟨some m, smf.tracks⟩) := by
    intro L r h1 h2 h3 tail htl smf
    have hstep : assembleLines table ([L] ++ tail) ([L] ++ tail) smf = (do
        let s ← assembleLine table ([L] ++ tail) smf L
        assembleLines table ([L] ++ tail) tail s) := rfl
    have hfirst : assembleLine table ([L] ++ tail) smf L = (do
        let m ← r
        .ok ⟨some m, smf.tracks⟩) := by
      unfold assembleLine
      rw [h1, h2, List.singleton_append, h3 tail]
      rfl
    rw [hstep, hfirst]
    cases r with
    | ok m' => exact assembleLines_rest table _ _ (fun l hl => by rw [htl l hl]; exact hempty) _
    | err x => rfl
    | panic => rfl
    | diverge => rfl
  have htidy : ∀ t ∈ smf.tracks, ∀ e ∈ t.events, e.body.Tidy := fun t h => (ht t h).2
  constructor
  · intro hdiv
    obtain ⟨_, q2, _⟩ := s7 (by rw [← s5]; exact hdiv)
    obtain ⟨g1, g2, g3⟩ := smpteLine_tag m hmt
    rw [hbind, tidy_chunks hd table htab htidy m hm _ (printMThd_smpte m q2) g3 g1 text hp hshort _
      (hstart _ _ g1 g2 (parse_smpteLine m hmt))]
    rfl
  · intro hdiv
    obtain ⟨q1, q2, _⟩ := s6 (by rw [← s5]; exact hdiv)
    constructor
    · intro hk
      obtain ⟨text', hp', hrt⟩ := C83_disassembly_assembles table htab spare file smf hd m hm hdiv (by
        intro t htm
        refine ⟨?_, fun e he => (tidy_plain _ (htidy t htm e he)).2 ((hk t htm).2 e he)⟩
        cases hl : t.events.getLast? with
        | none => exact absurd (List.getLast?_eq_none_iff.1 hl) (hk t htm).1
        | some last => exact ⟨last, rfl, (ht t htm).1 last hl⟩)
      rw [hp] at hp'
      injection hp' with hp'
      subst hp'
      exact hrt hshort
    · intro before t after hsplit hbefore
      have hpp : ∀ tail, parseMThd (headerLine m :: tail) = .ok ⟨str "MThd", 6, m.format, 0, m.ppqn, m.ppqn &&& 0x7fff, false, 0, 0, false, []⟩ :=
        parse_headerLine m hmt (by rw [s3]; exact hv.1) (by rw [q1, ← s5]; exact hdiv)
      have key := tidy_chunks hd table htab htidy m hm _ (printMThd_line m q2) (headerLine_clean m hmt) (headerLine_tag m hmt).1 text hp hshort _
        (hstart _ _ (headerLine_tag m hmt).1 (headerLine_tag m hmt).2 hpp)
      rw [Outcome.bind_ok, Outcome.bind_ok, hsplit, List.map_append, actAll_append] at key
      obtain ⟨m1, us1, hb⟩ := trackAct_ok before hbefore ⟨str "MThd", 6, m.format, 0, m.ppqn, m.ppqn &&& 0x7fff, false, 0, 0, false, []⟩ []
      rw [hb, Outcome.bind_ok, List.map_cons, actAll] at key
      rw [hbind, key]
      constructor
      · intro he
        have : trackAct t ⟨some m1, us1⟩ = .panic := by
          unfold trackAct
          rw [if_pos (by rw [he]; simp), he]
          rfl
        rw [this]
        rfl
      · rintro ⟨e, he, hke⟩
        have : trackAct t ⟨some m1, us1⟩ = .err .other := by
          unfold trackAct
          rw [if_neg (fun h => hke (h e he))]
          rfl
        rw [this]
        rfl

/-- **C115.** Assembling the disassembly of a file with tidy contents never gives another file: it gives the bytes of the decoded file, or
an error, or crashes. -/
theorem C115_never_another (table : List (String × Lib.Manufacturer)) (htab : ∀ e, e ∈ table ↔ e ∈ Lib.manufacturers) (spare file : Bytes)
    (smf : SMF) (hd : decode .c3 spare file = .ok smf)
    (ht : ∀ t ∈ smf.tracks, (∀ last, t.events.getLast? = some last → ¬ last.body.IsMessage) ∧ ∀ e ∈ t.events, e.body.Tidy)
    (text : Bytes) (hp : printSMF smf = .ok text) (hshort : ShortLines text) (out : Bytes) (ho : assembleText table text = .ok out) :
    encode smf = .ok out := by
  obtain ⟨m, h, hm, _⟩ := decode_ok hd
  obtain ⟨h1, h2⟩ := C115_reassembly table htab spare file smf hd m hm ht text hp hshort
  by_cases hdiv : m.division.toNat < 32768
  · obtain ⟨h2, h3⟩ := h2 hdiv
    have key : (∀ t ∈ smf.tracks, t.events ≠ [] ∧ ∀ e ∈ t.events, e.body.Known) ∨ ∃ before t after, smf.tracks = before ++ t :: after ∧
        (∀ u ∈ before, u.events ≠ [] ∧ ∀ e ∈ u.events, e.body.Known) ∧ ¬ (t.events ≠ [] ∧ ∀ e ∈ t.events, e.body.Known) := by
      clear h1 h2 h3 ho hp ht hd
      induction smf.tracks with
      | nil => exact Or.inl (by simp)
      | cons t ts ih =>
        by_cases hk : t.events ≠ [] ∧ ∀ e ∈ t.events, e.body.Known
        · rcases ih with ih | ⟨b, u, a, e, hb, hu⟩
          · left
            intro x hx
            rcases List.mem_cons.1 hx with rfl | hx
            · exact hk
            · exact ih x hx
          · right
            refine ⟨t :: b, u, a, by rw [e]; rfl, ?_, hu⟩
            intro x hx
            rcases List.mem_cons.1 hx with rfl | hx
            · exact hk
            · exact hb x hx
        · exact Or.inr ⟨[], t, ts, rfl, by simp, hk⟩
    rcases key with hk | ⟨before, t, after, hs, hb, hbad⟩
    · rw [← h2 hk, ho]
    · obtain ⟨c1, c2⟩ := h3 before t after hs hb
      by_cases he : t.events = []
      · rw [c1 he] at ho; cases ho
      · have : ∃ e ∈ t.events, ¬ e.body.Known := by
          have : ¬ ∀ e ∈ t.events, e.body.Known := fun h => hbad ⟨he, h⟩
          simpa only [not_forall, exists_prop] using this
        rw [c2 this] at ho; cases ho
  · rw [h1 (by omega)] at ho; cases ho

/-! ### Files that meet the hypotheses -/

/-- A test for `Body.Tidy`. -/
def tidyTest : Body → Bool
  | .text k s => plainTest (.text k s)
  | .sysExMessage _ _ terminated => terminated
  | .sysExContinuation _ _ => false
  | _ => true

theorem tidy_of_test (b : Body) (h : tidyTest b = true) : b.Tidy := by
  cases b with
  | text k s => exact plain_of_test (.text k s) h
  | sysExMessage _ _ _ => exact h
  | sysExContinuation _ _ => cases h
  | _ => trivial

/-- A test for the hypotheses of `C115_reassembly`. -/
def tidySMF (smf : SMF) : Bool :=
  (smf.tracks.all fun t => (match t.events.getLast? with | some ⟨_, _, _, .endOfTrack⟩ => true | none => true | _ => false) &&
    t.events.all fun e => tidyTest e.body) &&
  (match printSMF smf with | .ok text => decide (text.length < 65536) | _ => false)

theorem tidySMF_ok (smf : SMF) (h : tidySMF smf = true) :
    (∀ t ∈ smf.tracks, (∀ last, t.events.getLast? = some last → ¬ last.body.IsMessage) ∧ ∀ e ∈ t.events, e.body.Tidy) ∧
    ∃ text, printSMF smf = .ok text ∧ ShortLines text := by
  simp only [tidySMF, Bool.and_eq_true, List.all_eq_true] at h
  obtain ⟨h1, h2⟩ := h
  constructor
  · intro t ht
    obtain ⟨a, b⟩ := h1 t ht
    refine ⟨?_, fun e he => tidy_of_test _ (b e he)⟩
    intro last hl
    rw [hl] at a
    split at a
    · rename_i hx
      injection hx with hx
      subst hx
      rintro ⟨_, _, _, h⟩
      cases h
    · rename_i hx; cases hx
    · cases a
  · split at h2
    · rename_i text ht
      exact ⟨text, ht, short_text text (by simpa using h2)⟩
    · cases h2

/-- The header of a file with metrical time. -/
def metricalHeader (tracks : UInt8) : Bytes := [0x4d, 0x54, 0x68, 0x64, 0, 0, 0, 6, 0, 1, 0, tracks, 1, 0xe0]

/-- The header of a file with 25 frames per second. -/
def smpteHeader (tracks : UInt8) : Bytes := [0x4d, 0x54, 0x68, 0x64, 0, 0, 0, 6, 0, 1, 0, tracks, 0xe7, 0x28]

/-- A track with two notes: `low` is the lower of them. -/
def notesTrack (low : UInt8) : Bytes :=
  [0x4d, 0x54, 0x72, 0x6b, 0, 0, 0, 0x0c] ++ [0x00, 0x90, 0x3c, 0x40] ++ [0x05, 0x90, low, 0x40] ++ [0x00, 0xff, 0x2f, 0x00]

/-- A track without events. -/
def emptyTrack : Bytes := [0x4d, 0x54, 0x72, 0x6b, 0, 0, 0, 0]

/-- A note that is too low: an error. -/
example : ∃ smf text, decode .c3 [] (metricalHeader 2 ++ notesTrack 48 ++ notesTrack 5) = .ok smf ∧ printSMF smf = .ok text ∧
    assembleText Lib.manufacturers text = .err .other := by
  obtain ⟨smf, h1, h2⟩ := Outcome.of_test (o := decode .c3 [] (metricalHeader 2 ++ notesTrack 48 ++ notesTrack 5))
    (p := fun smf => tidySMF smf && (match smf with
      | ⟨some m, [⟨_, _, _, _, [⟨_, _, _, .noteOn _ n1 _⟩, ⟨_, _, _, .noteOn _ n2 _⟩, ⟨_, _, _, .endOfTrack⟩], _⟩,
          ⟨_, _, _, _, [_, ⟨_, _, _, .noteOn _ n _⟩, _], _⟩]⟩ => decide (m.division.toNat < 32768) &&
            decide (12 ≤ n1.value ∧ n1.value ≤ 131) && decide (12 ≤ n2.value ∧ n2.value ≤ 131) && decide (¬ 12 ≤ n.value)
      | _ => false)) (by decide +kernel)
  simp only [Bool.and_eq_true] at h2
  obtain ⟨h2, h3⟩ := h2
  obtain ⟨ht, text, hp, hs⟩ := tidySMF_ok smf h2
  split at h3
  · rename_i m t1 n1 n2 e1 n e3
    simp only [Bool.and_eq_true, decide_eq_true_eq] at h3
    refine ⟨_, text, h1, hp, ?_⟩
    refine (((C115_reassembly Lib.manufacturers (fun _ => Iff.rfl) [] _ _ h1 _ rfl ht text hp hs).2 h3.1.1.1).2 [_] _ [] rfl ?_).2 ?_
    · intro u hu
      obtain rfl := List.mem_singleton.1 hu
      refine ⟨by simp, ?_⟩
      intro e he
      simp only [List.mem_cons, List.not_mem_nil, or_false] at he
      rcases he with rfl | rfl | rfl
      · exact h3.1.1.2
      · exact h3.1.2
      · trivial
    · exact ⟨_, List.mem_cons_of_mem _ (List.mem_cons_self ..), fun h => h3.2 h.1⟩
  · cases h3

/-- SMPTE time: an error. -/
example : ∃ smf text, decode .c3 [] (smpteHeader 1 ++ notesTrack 48) = .ok smf ∧ printSMF smf = .ok text ∧
    assembleText Lib.manufacturers text = .err .other := by
  obtain ⟨smf, h1, h2⟩ := Outcome.of_test (o := decode .c3 [] (smpteHeader 1 ++ notesTrack 48))
    (p := fun smf => tidySMF smf && (match smf.mthd with | some m => decide (32768 ≤ m.division.toNat) | none => false)) (by decide +kernel)
  simp only [Bool.and_eq_true] at h2
  obtain ⟨h2, h3⟩ := h2
  obtain ⟨ht, text, hp, hs⟩ := tidySMF_ok smf h2
  split at h3
  · rename_i m hm
    exact ⟨smf, text, h1, hp, (C115_reassembly Lib.manufacturers (fun _ => Iff.rfl) [] _ _ h1 m hm ht text hp hs).1 (by simpa using h3)⟩
  · cases h3

/-- A track without events: a crash. -/
example : ∃ smf text, decode .c3 [] (metricalHeader 2 ++ emptyTrack ++ notesTrack 5) = .ok smf ∧ printSMF smf = .ok text ∧
    assembleText Lib.manufacturers text = .panic := by
  obtain ⟨smf, h1, h2⟩ := Outcome.of_test (o := decode .c3 [] (metricalHeader 2 ++ emptyTrack ++ notesTrack 5))
    (p := fun smf => tidySMF smf && (match smf with
      | ⟨some m, ⟨_, _, _, _, [], _⟩ :: _⟩ => decide (m.division.toNat < 32768)
      | _ => false)) (by decide +kernel)
  simp only [Bool.and_eq_true] at h2
  obtain ⟨h2, h3⟩ := h2
  obtain ⟨ht, text, hp, hs⟩ := tidySMF_ok smf h2
  split at h3
  · simp only [decide_eq_true_eq] at h3
    refine ⟨_, text, h1, hp, ?_⟩
    exact (((C115_reassembly Lib.manufacturers (fun _ => Iff.rfl) [] _ _ h1 _ rfl ht text hp hs).2 h3).2 [] _ _ rfl (by simp)).1 rfl
  · cases h3

end Midiasm
