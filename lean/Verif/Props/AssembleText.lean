import Verif.Lemmas.Assembled

/-!
C82: a printed file is assembled to the file the encoder writes.
-/

set_option linter.unusedSimpArgs false

namespace Midiasm
open Spec

/-! ### Terminators -/

/-- SysEx packets are terminated exactly when an event other than a continuation packet follows. -/
def Ended (es : List Event) : Prop :=
  ∀ (i : Nat) (e : Event), es[i]? = some e → (e.body.IsMessage ∨ e.body.IsPacket) →
    (e.body.Terminated ↔ ∃ n, es[i + 1]? = some n ∧ ¬ n.body.IsPacket)

theorem asRead_packet (b : Body) : b.asRead.isContinuation = b.isContinuation := by cases b <;> rfl

theorem fixed_marshal (e : Event) (next : Option Event)
    (h : (e.body.IsMessage ∨ e.body.IsPacket) → (e.body.Terminated ↔ ∃ n, next = some n ∧ ¬ n.body.IsPacket)) :
    (fixOne ⟨0, e.delta, [], e.body.asRead⟩ (next.map fun e => ⟨0, e.delta, [], e.body.asRead⟩)).delta = e.delta ∧
    (fixOne ⟨0, e.delta, [], e.body.asRead⟩ (next.map fun e => ⟨0, e.delta, [], e.body.asRead⟩)).body.marshal = e.body.marshal := by
  cases next with
  | none =>
    refine ⟨rfl, ?_⟩
    simp only [Option.map_none, fixOne]
    cases hb : e.body with
    | sysExMessage m d s =>
      rw [hb] at h
      have := h (Or.inl ⟨m, d, s, rfl⟩)
      cases s <;> simp [Body.Terminated] at this
      rfl
    | sysExContinuation d s =>
      rw [hb] at h
      have := h (Or.inr ⟨d, s, rfl⟩)
      cases s <;> simp [Body.Terminated] at this
      rfl
    | _ => rfl
  | some n =>
    simp only [Option.map_some, fixOne, asRead_packet]
    cases hn : n.body.isContinuation with
    | true =>
      have hp : n.body.IsPacket := (isContinuation_iff _).mp hn
      refine ⟨rfl, ?_⟩
      cases hb : e.body with
      | sysExMessage m d s =>
        rw [hb] at h
        have := h (Or.inl ⟨m, d, s, rfl⟩)
        cases s <;> simp [Body.Terminated, hp] at this
        rfl
      | sysExContinuation d s =>
        rw [hb] at h
        have := h (Or.inr ⟨d, s, rfl⟩)
        cases s <;> simp [Body.Terminated, hp] at this
        rfl
      | _ => rfl
    | false =>
      have hp : ¬ n.body.IsPacket := by rw [← isContinuation_iff, hn]; simp
      cases hb : e.body with
      | sysExMessage m d s =>
        rw [hb] at h
        have := h (Or.inl ⟨m, d, s, rfl⟩)
        cases s <;> simp [Body.Terminated, hp] at this
        exact ⟨rfl, rfl⟩
      | sysExContinuation d s =>
        rw [hb] at h
        have := h (Or.inr ⟨d, s, rfl⟩)
        cases s <;> simp [Body.Terminated, hp] at this
        exact ⟨rfl, rfl⟩
      | _ => exact ⟨rfl, rfl⟩

theorem encodeEvents_congr (es es' : List Event)
    (h : es'.map (fun e => (e.delta, e.body.marshal)) = es.map (fun e => (e.delta, e.body.marshal))) : encodeEvents es' = encodeEvents es := by
  induction es generalizing es' with
  | nil =>
    have : es' = [] := by simpa using h
    rw [this]
  | cons e es ih =>
    cases es' with
    | nil => simp at h
    | cons e' es' =>
      simp only [List.map_cons, List.cons.injEq, Prod.mk.injEq] at h
      rw [encodeEvents, encodeEvents, h.1.1, h.1.2, ih es' h.2]

/-- What the assembler makes of the events read from the lines of a track is written as the events of the track. -/
theorem fixed_track (es : List Event) (hne : es ≠ []) (he : Ended es) :
    ∃ fixed, fixups (asReadEvents es) = .ok fixed ∧ encodeEvents fixed = encodeEvents es := by
  have hne' : asReadEvents es ≠ [] := by cases es with
    | nil => exact absurd rfl hne
    | cons a l => simp [asReadEvents]
  obtain ⟨fixed, hf, hlen, _⟩ := (C73_fixups_exact _).2 hne'
  refine ⟨fixed, hf, encodeEvents_congr es fixed ?_⟩
  apply List.ext_getElem?
  intro i
  rw [List.getElem?_map, List.getElem?_map]
  cases hi : es[i]? with
  | none =>
    have : fixed[i]? = none := by
      rw [List.getElem?_eq_none_iff] at hi ⊢
      rw [hlen]
      simpa [asReadEvents] using hi
    rw [this]
  | some e =>
    have h1 : (asReadEvents es)[i]? = some ⟨0, e.delta, [], e.body.asRead⟩ := by simp [asReadEvents, hi]
    have h2 : (asReadEvents es)[i + 1]? = es[i + 1]?.map fun e => ⟨0, e.delta, [], e.body.asRead⟩ := by simp [asReadEvents]
    rw [fixups_get hf i _ h1, h2]
    obtain ⟨g1, g2⟩ := fixed_marshal e es[i + 1]? (he i e hi)
    simp only [Option.map_some, g1, g2]

/-! ### Chunks -/

/-- The tracks added one after the other. -/
def addTracks : List (List Event) → SMF → Outcome SMF
  | [], smf => .ok smf
  | es :: rest, smf => do
    let smf ← addTrack es smf
    addTracks rest smf

/-- A track whose lines are read back as its events. -/
structure Restored (table : List (String × Lib.Manufacturer)) (p : MTrk × List Bytes) (fixed : List Event) : Prop where
  tag : p.1.tag = str "MTrk"
  lines : p.1.events.map printEvent = p.2.map .ok
  readable : ∀ e ∈ p.1.events, e.body.Readable table ∧ e.body.Contained
  fixups : fixups (asReadEvents p.1.events) = .ok fixed

theorem assemble_tracks (table : List (String × Lib.Manufacturer)) (ps : List ((MTrk × List Bytes) × List Event))
    (hps : ∀ p ∈ ps, Restored table p.1 p.2) (chunk : List Bytes) (hne : chunk ≠ []) (g : SMF → Outcome SMF)
    (hg : ∀ tail : List Bytes, (∀ l ∈ tail, l = []) → ∀ smf, assembleLines table (chunk ++ tail) (chunk ++ tail) smf = g smf) (smf : SMF) :
    assembleChunks table (chunkifyFrom chunk ((ps.map Prod.fst).flatMap trackLines)) smf = (do
      let smf ← g smf
      addTracks (ps.map Prod.snd) smf) := by
  have hempty : isTag [] = false := by decide +kernel
  induction ps generalizing chunk g smf with
  | nil =>
    have h0 := hg [] (by simp)
    simp only [List.append_nil] at h0
    simp only [List.map_nil, List.flatMap_nil, chunkifyFrom, if_neg hne, assembleChunks, h0, addTracks]
  | cons p ps ih =>
    obtain ⟨h1, h2, h3, h4⟩ := hps p (by simp)
    have htag := (trackLine_tag p.1.1 h1).2.2.1
    have hstep : chunkifyFrom chunk (((p :: ps).map Prod.fst).flatMap trackLines) =
        (chunk ++ [[]]) :: chunkifyFrom (trackLine p.1.1 :: p.1.2) ((ps.map Prod.fst).flatMap trackLines) := by
      simp only [List.map_cons, List.flatMap_cons, trackLines, List.cons_append]
      rw [chunkifyFrom, if_neg (by simp [hempty]), chunkifyFrom, if_pos htag,
        chunkifyFrom_run p.1.2 (fun l hl => (lines_tags table p.1.1.events p.1.2 h2 h3 l hl).1)]
      rfl
    rw [hstep, assembleChunks, hg [[]] (by simp)]
    cases hgs : g smf with
    | ok s =>
      simp only [Outcome.bind_ok]
      have := ih (fun q hq => hps q (by simp [hq])) (trackLine p.1.1 :: p.1.2) (by simp) (addTrack p.2)
        (fun tail ht smf => assemble_track table p.1.1 h1 p.1.2 tail h2 h3 ht p.2 h4 smf) s
      rw [this]
      rfl
    | err x => rfl
    | panic => rfl
    | diverge => rfl

/-! ### The header -/

theorem parse_headerLine (m : MThd) (ht : m.tag = str "MThd") (hf : m.format.toNat ≤ 2) (hp : m.ppqn.toNat < 32768) (tail : List Bytes) :
    parseMThd (headerLine m :: tail) = .ok ⟨str "MThd", 6, m.format, 0, m.ppqn, m.ppqn &&& 0x7fff, false, 0, 0, false, []⟩ := by
  have hm : m.ppqn &&& 0x8000 = 0 := by
    rw [← UInt16.toNat_inj, UInt16.toNat_and]
    show m.ppqn.toNat &&& 2 ^ 15 = 0
    apply Nat.eq_of_testBit_eq
    intro i
    rw [Nat.testBit_and, Nat.testBit_two_pow, Nat.zero_testBit]
    by_cases hi : 15 = i
    · subst hi
      rw [Nat.testBit_lt_two_pow hp]
      rfl
    · simp [hi]
  have hformat : ¬ (m.format ≠ 0 ∧ m.format ≠ 1 ∧ m.format ≠ 2) := by
    rintro ⟨h0, h1, h2⟩
    have a0 : m.format.toNat ≠ 0 := fun e => h0 (UInt16.toNat_inj.mp e)
    have a1 : m.format.toNat ≠ 1 := fun e => h1 (UInt16.toNat_inj.mp e)
    have a2 : m.format.toNat ≠ 2 := fun e => h2 (UInt16.toNat_inj.mp e)
    omega
  unfold parseMThd
  rw [List.find?_cons_of_pos (headerLine_tag m ht).1]
  simp only [headerLine_format m ht hf, headerLine_division m ht, parseUint16_dec, Outcome.bind_ok, UInt16.ofNat_toNat, hm]
  rw [if_neg (by simp)]
  unfold makeMThd
  rw [if_neg hformat, if_pos hm]

theorem headerLine_clean (m : MThd) (ht : m.tag = str "MThd") : Clean (headerLine m) := by
  obtain ⟨pre, hpre, _, he⟩ := headerLine_parts m ht
  rw [he]
  exact clean_app (clean_of hpre (by decide +kernel)) (clean_app (clean_str _ (by decide +kernel)) (clean_app (clean_dec _)
    (clean_app (clean_str _ (by decide +kernel)) (clean_app (clean_dec _) (clean_app (clean_str _ (by decide +kernel))
    (clean_app (clean_str _ (by decide +kernel)) (clean_app (clean_dec _) (clean_str _ (by decide +kernel)))))))))

/-! ### The whole file -/

/-- No stretch of the text without a newline is 64 kB or longer. -/
def ShortLines (text : Bytes) : Prop := ∀ a l b, text = a ++ (l ++ b) → 10 ∉ l → l.length < 65536

theorem short_line (ls : List Bytes) (h : ShortLines (unlines ls)) : ∀ l ∈ ls, 10 ∉ l → l.length < 65536 := by
  intro l hl hn
  obtain ⟨a, b, rfl⟩ := List.append_of_mem hl
  refine h (unlines a) l ([10] ++ unlines b) ?_ hn
  simp [unlines]

theorem addTracks_ok (fs : List (List Event)) (m : MThd) (ts : List MTrk) :
    addTracks fs ⟨some m, ts⟩ = .ok ⟨some { m with tracks := m.tracks + UInt16.ofNat fs.length },
      ts ++ fs.mapIdx fun i es => madeTrack (ts.length + i) es⟩ := by
  induction fs generalizing m ts with
  | nil => simp [addTracks]
  | cons f fs ih =>
    have hstep : addTrack f ⟨some m, ts⟩ = .ok ⟨some { m with tracks := m.tracks + 1 }, ts ++ [madeTrack ts.length f]⟩ := rfl
    rw [addTracks, hstep, Outcome.bind_ok, ih]
    congr 2
    · congr 2
      rw [UInt16.add_assoc]
      congr 1
      rw [← UInt16.toNat_inj]
      simp [Nat.add_comm]
    · rw [List.mapIdx_cons, List.append_assoc]
      simp [Nat.add_assoc, Nat.add_comm 1]

theorem encodeTracks_congr (ts ts' : List MTrk)
    (h : ts'.map (fun t => (t.tag, encodeEvents t.events)) = ts.map (fun t => (t.tag, encodeEvents t.events))) : encodeTracks ts' = encodeTracks ts := by
  induction ts generalizing ts' with
  | nil =>
    have : ts' = [] := by simpa using h
    rw [this]
  | cons t ts ih =>
    cases ts' with
    | nil => simp at h
    | cons t' ts' =>
      simp only [List.map_cons, List.cons.injEq, Prod.mk.injEq] at h
      rw [encodeTracks, encodeTracks, ih ts' h.2, encodeMTrk, encodeMTrk, h.1.1, h.1.2]

/-- A list with a companion for each element. -/
theorem companions {α β : Type} {P : α → β → Prop} (l : List α) (h : ∀ a ∈ l, ∃ b, P a b) :
    ∃ ps : List (α × β), ps.map Prod.fst = l ∧ ∀ p ∈ ps, P p.1 p.2 := by
  induction l with
  | nil => exact ⟨[], rfl, by simp⟩
  | cons a l ih =>
    obtain ⟨b, hb⟩ := h a (by simp)
    obtain ⟨ps, h1, h2⟩ := ih (fun a ha => h a (by simp [ha]))
    refine ⟨(a, b) :: ps, by simp [h1], ?_⟩
    intro p hp
    rcases List.mem_cons.1 hp with rfl | hp
    · exact hb
    · exact h2 p hp

/-- **C82.** Disassembling and assembling: take a file with metrical time whose header states its tracks, with at least one event in each track;
every event printed on a line that can be read back, no text or manufacturer name containing the chunk tags or ending in a carriage return, no line of
64 kB; SysEx packets terminated exactly when no continuation packet follows.  The printed text assembles to the very bytes the encoder writes for the
file. -/
theorem C82_text_roundtrip (table : List (String × Lib.Manufacturer)) (smf : SMF) (m : MThd) (hm : smf.mthd = some m) (h : Header) (hs : m.Shows h)
    (hv : h.Valid) (hmetrical : h.division < 32768) (hn : h.tracks = smf.tracks.length)
    (ht : ∀ t ∈ smf.tracks, t.tag = tagMTrk ∧ t.events ≠ [] ∧ Ended t.events ∧ ∀ e ∈ t.events, e.body.Readable table ∧ e.body.Contained)
    (text : Bytes) (hp : printSMF smf = .ok text) (hshort : ShortLines text) : assembleText table text = encode smf := by
  obtain ⟨s1, s2, s3, s4, s5, s6, _⟩ := hs
  obtain ⟨q1, q2, _⟩ := s6 hmetrical
  have htagh : tagMThd = str "MThd" := by decide +kernel
  have htagt : tagMTrk = str "MTrk" := by decide +kernel
  have hmt : m.tag = str "MThd" := by rw [s1, htagh]
  -- the lines of the text
  unfold printSMF at hp
  rw [hm] at hp
  simp only at hp
  cases hpt : printTracks smf.tracks with
  | err x => rw [hpt] at hp; cases hp
  | panic => rw [hpt] at hp; cases hp
  | diverge => rw [hpt] at hp; cases hp
  | ok tt =>
    rw [hpt, Outcome.bind_ok] at hp
    replace hp := Outcome.ok.inj hp
    obtain ⟨ps, p1, p2, p3⟩ := printTracks_lines _ _ hpt
    have htext : text = unlines (headerLine m :: ps.flatMap trackLines) := by
      rw [← hp, printMThd_line m q2, p3]
      simp [unlines]
    have hmem : ∀ p ∈ ps, p.1 ∈ smf.tracks := fun p hp => by rw [← p1]; exact List.mem_map.2 ⟨p, hp, rfl⟩
    -- what becomes of the tracks
    obtain ⟨qs, c1, c2⟩ := companions (P := fun p fixed => Restored table p fixed ∧ encodeEvents fixed = encodeEvents p.1.events) ps (by
      intro p hpp
      obtain ⟨t1, t2, t3, t4⟩ := ht p.1 (hmem p hpp)
      obtain ⟨fixed, f1, f2⟩ := fixed_track p.1.events t2 t3
      exact ⟨fixed, ⟨by rw [t1, htagt], p2 p hpp, t4, f1⟩, f2⟩)
    -- scanning
    have hplain : ∀ l ∈ headerLine m :: ps.flatMap trackLines, Plain l := by
      intro l hl
      have h2 : 10 ∉ l ∧ l.getLast? ≠ some 13 := by
        rcases List.mem_cons.1 hl with hl | hl
        · have := headerLine_clean m hmt
          rw [hl]
          exact ⟨fun e => (this 10 e).1 rfl, clean_last this⟩
        · obtain ⟨p, hpp, hlp⟩ := List.mem_flatMap.1 hl
          obtain ⟨t1, _, _, t4⟩ := ht p.1 (hmem p hpp)
          simp only [trackLines, List.mem_cons] at hlp
          rcases hlp with hlp | hlp | hlp
          · rw [hlp]; simp
          · have : Clean (trackLine p.1) := clean_of (trackLine_alphabet p.1 (by rw [t1, htagt])) (by decide +kernel)
            rw [hlp]
            exact ⟨fun e => (this 10 e).1 rfl, clean_last this⟩
          · exact (lines_tags table p.1.events p.2 (p2 p hpp) t4 l hlp).2
      exact ⟨h2.1, h2.2, short_line _ (by rw [← htext]; exact hshort) l hl h2.1⟩
    have hread : readChunks text = .ok (chunkifyFrom [headerLine m] ((qs.map Prod.fst).flatMap trackLines)) := by
      unfold readChunks
      rw [htext, scan_unlines _ hplain, c1]
      simp only [Bool.false_eq_true, if_false]
      rw [chunkify, if_pos (headerLine_tag m hmt).1]
    -- the header
    have hempty : isTag [] = false := by decide +kernel
    have hhead : ∀ tail : List Bytes, (∀ l ∈ tail, l = []) → ∀ smf : SMF,
        assembleLines table ([headerLine m] ++ tail) ([headerLine m] ++ tail) smf =
          .ok ⟨some ⟨str "MThd", 6, m.format, 0, m.ppqn, m.ppqn &&& 0x7fff, false, 0, 0, false, []⟩, smf.tracks⟩ := by
      intro tail htl smf
      have hstep : assembleLines table ([headerLine m] ++ tail) ([headerLine m] ++ tail) smf = (do
          let s ← assembleLine table ([headerLine m] ++ tail) smf (headerLine m)
          assembleLines table ([headerLine m] ++ tail) tail s) := rfl
      have hfirst : assembleLine table ([headerLine m] ++ tail) smf (headerLine m) =
          .ok ⟨some ⟨str "MThd", 6, m.format, 0, m.ppqn, m.ppqn &&& 0x7fff, false, 0, 0, false, []⟩, smf.tracks⟩ := by
        unfold assembleLine
        rw [(headerLine_tag m hmt).1, (headerLine_tag m hmt).2, List.singleton_append,
          parse_headerLine m hmt (by rw [s3]; exact hv.1) (by rw [q1]; exact hmetrical) tail]
        rfl
      rw [hstep, hfirst, Outcome.bind_ok]
      exact assembleLines_rest table _ _ (fun l hl => by rw [htl l hl]; exact hempty) _
    unfold assembleText
    rw [hread, Outcome.bind_ok, assemble_tracks table qs (fun q hq => (c2 q hq).1) [headerLine m] (by simp) _ hhead, Outcome.bind_ok, addTracks_ok,
      Outcome.bind_ok]
    -- encoding
    have hlen : qs.length = smf.tracks.length := by
      have h1 := congrArg List.length c1
      have h2 := congrArg List.length p1
      simp at h1 h2
      omega
    have htr : m.tracks.toNat = smf.tracks.length := by rw [s4, hn]
    have hlt : smf.tracks.length < 65536 := by rw [← htr]; exact m.tracks.toNat_lt
    have hcount : (0 : UInt16) + UInt16.ofNat (qs.map Prod.snd).length = m.tracks := by
      rw [← UInt16.toNat_inj]
      simp only [UInt16.zero_add, List.length_map, UInt16.toNat_ofNat', hlen, htr]
      omega
    have hpp : m.ppqn = m.division := by rw [← UInt16.toNat_inj, q1, s5]
    unfold encode
    rw [hm]
    rw [hcount]
    simp only [List.nil_append, List.length_nil, List.length_mapIdx, List.length_map, hlen]
    rw [if_neg (by omega), if_neg (by omega)]
    have htracks : encodeTracks ((qs.map Prod.snd).mapIdx fun i es => madeTrack (0 + i) es) = encodeTracks smf.tracks := by
      apply encodeTracks_congr
      apply List.ext_getElem?
      intro i
      rw [List.getElem?_map, List.getElem?_mapIdx, List.getElem?_map, List.getElem?_map]
      have hfst : smf.tracks = qs.map (fun q => q.1.1) := by rw [← p1, ← c1, List.map_map]; rfl
      rw [hfst, List.getElem?_map]
      cases hq : qs[i]? with
      | none => rfl
      | some q =>
        obtain ⟨r1, r2⟩ := c2 q (List.mem_of_getElem? hq)
        simp only [Option.map_some, madeTrack, r1.tag, r2]
    rw [htracks]
    simp only [MThd.marshal, hmt, s2, hpp]

end Midiasm
