import Verif.Props.Formats
import Verif.Props.Disassembly
import Verif.Props.Written

/-!
C170: the parts of disassembled files can be put together anew.
-/

set_option linter.unusedSimpArgs false

namespace Midiasm
open Spec

/-- What is asked of one track to print and assemble it, up to the names of notes (as `plain_tracks`). -/
theorem plain_track {mc : MiddleC} (table : List (String × Lib.Manufacturer)) (htab : ∀ e, e ∈ table ↔ e ∈ Lib.manufacturers) {spare file : Bytes}
    {smf : SMF} (hd : decode mc spare file = .ok smf) (t : MTrk) (htm : t ∈ smf.tracks)
    (ht : (∃ last, t.events.getLast? = some last ∧ ¬ last.body.IsMessage) ∧ ∀ e ∈ t.events, e.body.Plain) :
    t.tag = tagMTrk ∧ t.events ≠ [] ∧ Ended t.events ∧ ∀ e ∈ t.events, e.body.Contained ∧
      (∀ ch n v, e.body = .noteOn ch n v ∨ e.body = .noteOff ch n v → ch ≤ 15 ∧ v ≤ 127 ∧ 12 ≤ n.value ∧ n.value ≤ 131) ∧
      ((∀ ch n v, ¬ (e.body = .noteOn ch n v ∨ e.body = .noteOff ch n v)) → e.body.Readable table) := by
  obtain ⟨⟨last, hl1, hl2⟩, hpl⟩ := ht
  refine ⟨?_, ?_, ?_, ?_⟩
  · obtain ⟨i, ch, hwf, htag, _, hu⟩ := decode_track hd htm
    exact ((unmarshalMTrk_ok mc spare i ch hwf htag t).1 hu).2.1
  · intro he; rw [he] at hl1; cases hl1
  · intro i e hi hk
    have hpe := hpl e (List.mem_of_getElem? hi)
    rcases hk with ⟨mm, d, s, hb⟩ | ⟨d, s, hb⟩
    · rw [hb] at hpe ⊢
      refine ⟨fun _ => ?_, fun _ => hpe.2⟩
      have hlt : i + 1 < t.events.length := by
        have h1 := (List.getElem?_eq_some_iff.1 hi).1
        apply Nat.lt_of_le_of_ne h1
        intro heq
        rw [List.getLast?_eq_getElem?, ← heq] at hl1
        rw [show i.succ - 1 = i from rfl, hi] at hl1
        injection hl1 with hl1
        exact hl2 (hl1 ▸ ⟨mm, d, s, hb⟩)
      refine ⟨t.events[i + 1], by simp [hlt], ?_⟩
      rintro ⟨d', e', hb'⟩
      have := hpl _ (List.getElem_mem hlt)
      rw [hb'] at this
      exact this
    · rw [hb] at hpe
      exact hpe.elim
  · intro e he
    have hpe := hpl e he
    have hmd := decoded_made hd t htm e he
    have key : ∀ b, b = e.body → (∀ ch n v, b ≠ .noteOn ch n v ∧ b ≠ .noteOff ch n v) → b.Readable table ∧ b.Contained := by
      intro b hb hno
      rw [← hb] at hpe hmd
      cases b
      case sequenceNumber => exact ⟨trivial, trivial⟩
      case text k s => exact ⟨⟨hpe.1, hpe.2.1, hpe.2.2.2.1⟩, hpe.2.2.1, hpe.2.2.2.2⟩
      case timeSignature n d c q =>
        refine ⟨⟨?_, hmd, hpe.2.1, hpe.2.2⟩, trivial⟩
        have := hpe.1
        rw [Ne, ← UInt8.toNat_inj] at this
        rw [UInt8.le_iff_toNat_le]
        show 1 ≤ _
        have h0 : (0 : UInt8).toNat = 0 := rfl
        omega
      case sequencerSpecific mm d =>
        obtain ⟨id, rfl⟩ := hmd
        obtain ⟨f1, f2⟩ := builtin_findable table htab id hpe
        exact ⟨⟨f1, fun l r hlr x hx => f2 x (by rw [hlr]; simp [hx])⟩, f2 _ (by simp), f2 _ (by simp)⟩
      case sysExMessage mm d s =>
        obtain ⟨id, rfl⟩ := hmd
        obtain ⟨f1, f2⟩ := builtin_findable table htab id hpe.1
        exact ⟨⟨f1, fun l r hlr x hx => f2 x (by rw [hlr]; simp [hx])⟩, f2 _ (by simp), f2 _ (by simp)⟩
      case noteOn ch n v => exact absurd rfl (hno ch n v).1
      case noteOff ch n v => exact absurd rfl (hno ch n v).2
      all_goals first | exact ⟨hmd, trivial⟩ | exact ⟨trivial, trivial⟩
    have hnote : ∀ ch n v, e.body = .noteOn ch n v ∨ e.body = .noteOff ch n v → e.body.Contained ∧ ch ≤ 15 ∧ v ≤ 127 ∧ 12 ≤ n.value ∧ n.value ≤ 131 := by
      intro ch n v hb
      rcases hb with hb | hb <;> rw [hb] at hpe hmd ⊢ <;> exact ⟨trivial, hmd.1, hmd.2, hpe.1, hpe.2⟩
    refine ⟨?_, fun ch n v hb => (hnote ch n v hb).2, fun hno => (key _ rfl (fun ch n v => ⟨fun h => hno ch n v (Or.inl h), fun h => hno ch n v (Or.inr h)⟩)).1⟩
    by_cases hx : ∃ ch n v, e.body = .noteOn ch n v ∨ e.body = .noteOff ch n v
    · obtain ⟨ch, n, v, hx⟩ := hx
      exact (hnote ch n v hx).1
    · exact (key _ rfl (fun ch n v => ⟨fun h => hx ⟨ch, n, v, Or.inl h⟩, fun h => hx ⟨ch, n, v, Or.inr h⟩⟩)).2

/-- The lines of a header and of tracks, one after the other, are assembled to a file with these tracks. -/
theorem assembled_together (table : List (String × Lib.Manufacturer)) (chosen : List MTrk) (m : MThd) (h : Header) (hs : m.Shows h)
    (hv : h.Valid) (hmetrical : h.division < 32768) (hlen : chosen.length < 65536)
    (ht : ∀ t ∈ chosen, t.tag = tagMTrk ∧ t.events ≠ [] ∧ Ended t.events ∧ ∀ e ∈ t.events, e.body.Readable table ∧ e.body.Contained)
    (tt text : Bytes) (hpt : printTracks chosen = .ok tt) (htx : text = printMThd m ++ tt) (hshort : ShortLines text) :
    assembleText table text = encode ⟨some { m with tracks := UInt16.ofNat chosen.length }, chosen⟩ := by
  obtain ⟨s1, s2, s3, s4, s5, s6, _⟩ := hs
  obtain ⟨q1, q2, _⟩ := s6 hmetrical
  have htagh : tagMThd = str "MThd" := by decide +kernel
  have htagt : tagMTrk = str "MTrk" := by decide +kernel
  have hmt : m.tag = str "MThd" := by rw [s1, htagh]
  obtain ⟨ps, p1, p2, p3⟩ := printTracks_lines _ _ hpt
  have htext : text = unlines (headerLine m :: ps.flatMap trackLines) := by
    rw [htx, printMThd_line m q2, p3]
    simp [unlines]
  have hmem : ∀ p ∈ ps, p.1 ∈ chosen := fun p hp => by rw [← p1]; exact List.mem_map.2 ⟨p, hp, rfl⟩
  -- what becomes of the tracks
  obtain ⟨qs, c1, c2⟩ := companions (P := fun p fixed => Restored table p fixed ∧ encodeEvents fixed = encodeEvents p.1.events) ps (by
    intro p hpp
    obtain ⟨t1, t2, t3, t4⟩ := ht p.1 (hmem p hpp)
    obtain ⟨fixed, f1, f2⟩ := fixed_track p.1.events t2 t3
    exact ⟨fixed, ⟨by rw [t1, htagt], p2 p hpp, t4, f1⟩, f2⟩)
  -- scanning
  have hplain : ∀ l ∈ headerLine m :: ps.flatMap trackLines, Plain l := by
    intro l hl
    have h2 : 10 ∉ l ∧ l.getLast? ≠ some 13 := by
      rcases List.mem_cons.1 hl with hl | hl
      · have := headerLine_clean m hmt
        rw [hl]
        exact ⟨fun e => (this 10 e).1 rfl, clean_last this⟩
      · obtain ⟨p, hpp, hlp⟩ := List.mem_flatMap.1 hl
        obtain ⟨t1, _, _, t4⟩ := ht p.1 (hmem p hpp)
        simp only [trackLines, List.mem_cons] at hlp
        rcases hlp with hlp | hlp | hlp
        · rw [hlp]; simp
        · have : Clean (trackLine p.1) := clean_of (trackLine_alphabet p.1 (by rw [t1, htagt])) (by decide +kernel)
          rw [hlp]
          exact ⟨fun e => (this 10 e).1 rfl, clean_last this⟩
        · exact (lines_tags table p.1.events p.2 (p2 p hpp) t4 l hlp).2
    exact ⟨h2.1, h2.2, short_line _ (by rw [← htext]; exact hshort) l hl h2.1⟩
  have hread : readChunks text = .ok (chunkifyFrom [headerLine m] ((qs.map Prod.fst).flatMap trackLines)) := by
    unfold readChunks
    rw [htext, scan_unlines _ hplain, c1]
    simp only [Bool.false_eq_true, if_false]
    rw [chunkify, if_pos (headerLine_tag m hmt).1]
  -- the header
  have hempty : isTag [] = false := by decide +kernel
  have hhead : ∀ tail : List Bytes, (∀ l ∈ tail, l = []) → ∀ smf : SMF,
      assembleLines table ([headerLine m] ++ tail) ([headerLine m] ++ tail) smf =
        .ok ⟨some ⟨str "MThd", 6, m.format, 0, m.ppqn, m.ppqn &&& 0x7fff, false, 0, 0, false, []⟩, smf.tracks⟩ := by
    intro tail htl smf
    have hstep : assembleLines table ([headerLine m] ++ tail) ([headerLine m] ++ tail) smf = (do
        let s ← assembleLine table ([headerLine m] ++ tail) smf (headerLine m)
        assembleLines table ([headerLine m] ++ tail) tail s) := rfl
    have hfirst : assembleLine table ([headerLine m] ++ tail) smf (headerLine m) =
        .ok ⟨some ⟨str "MThd", 6, m.format, 0, m.ppqn, m.ppqn &&& 0x7fff, false, 0, 0, false, []⟩, smf.tracks⟩ := by
      unfold assembleLine
      rw [(headerLine_tag m hmt).1, (headerLine_tag m hmt).2, List.singleton_append,
        parse_headerLine m hmt (by rw [s3]; exact hv.1) (by rw [q1]; exact hmetrical) tail]
      rfl
    rw [hstep, hfirst, Outcome.bind_ok]
    exact assembleLines_rest table _ _ (fun l hl => by rw [htl l hl]; exact hempty) _
  unfold assembleText
  rw [hread, Outcome.bind_ok, assemble_tracks table qs (fun q hq => (c2 q hq).1) [headerLine m] (by simp) _ hhead, Outcome.bind_ok, addTracks_ok,
    Outcome.bind_ok]
  -- encoding
  have hql : qs.length = chosen.length := by
    have h1 := congrArg List.length c1
    have h2 := congrArg List.length p1
    simp at h1 h2
    omega
  have hcount : (0 : UInt16) + UInt16.ofNat (qs.map Prod.snd).length = UInt16.ofNat chosen.length := by
    rw [UInt16.zero_add, List.length_map, hql]
  have hnat : (UInt16.ofNat chosen.length).toNat = chosen.length := by
    rw [UInt16.toNat_ofNat']
    omega
  have hpp : m.ppqn = m.division := by rw [← UInt16.toNat_inj, q1, s5]
  unfold encode
  rw [hcount]
  simp only [List.nil_append, List.length_nil, List.length_mapIdx, List.length_map, hql]
  rw [if_neg (by omega), if_neg (by omega)]
  have htracks : encodeTracks ((qs.map Prod.snd).mapIdx fun i es => madeTrack (0 + i) es) = encodeTracks chosen := by
    apply encodeTracks_congr
    apply List.ext_getElem?
    intro i
    rw [List.getElem?_map, List.getElem?_mapIdx, List.getElem?_map, List.getElem?_map]
    have hfst : chosen = qs.map (fun q => q.1.1) := by rw [← p1, ← c1, List.map_map]; rfl
    rw [hfst, List.getElem?_map]
    cases hq : qs[i]? with
    | none => rfl
    | some q =>
      obtain ⟨r1, r2⟩ := c2 q (List.mem_of_getElem? hq)
      simp only [Option.map_some, madeTrack, r1.tag, r2]
  rw [htracks]
  simp only [MThd.marshal, hmt, s2, hpp]

/-- A track of a file that decodes, with plain contents and an end that is not a SysEx message. -/
def Separable (t : MTrk) : Prop :=
  ∃ spare file smf, decode .c3 spare file = .ok smf ∧ t ∈ smf.tracks ∧ (∃ last, t.events.getLast? = some last ∧ ¬ last.body.IsMessage) ∧
    ∀ e ∈ t.events, e.body.Plain

/-- **C170.** The lines of the header of a file, followed by the lines of tracks, whichever, in any order, of this file or of others, are assembled to the
file with this header, as many tracks as were given, and the contents of these tracks in this order. -/
theorem C170_put_together (table : List (String × Lib.Manufacturer)) (htab : ∀ e, e ∈ table ↔ e ∈ Lib.manufacturers) (file : Bytes) (h : Header)
    (ts : List TrackEntry) (hf : FileSays 1 file h ts) (hmetrical : h.division < 32768) (chosen : List MTrk) (hc : ∀ t ∈ chosen, Separable t)
    (hlen : chosen.length < 65536) (text : Bytes) (htx : text = lineTexts [headerRow h] ++ chosen.flatMap fun t => lineTexts (trackRows t.entry))
    (hshort : ShortLines text) :
    assembleText table text =
      .ok (writtenFile { h with tracks := chosen.length } (chosen.map fun t => t.events.map fun e => (e.delta.toNat, e.body.view))) := by
  obtain ⟨smf, hd, ⟨m, m1, m2, m3⟩, _⟩ := (C143_decoding .c3 [] file h ts).2 hf
  have hval : h.Valid := by
    obtain ⟨_, _, _, hv, _⟩ := hf
    exact hv
  have hrows : printTracks chosen = .ok (lineTexts ((chosen.map MTrk.entry).flatMap trackRows)) := by
    refine printTracks_rows chosen fun t ht => ?_
    obtain ⟨_, _, _, d, htm, _⟩ := hc t ht
    exact decoded_rows d t htm
  rw [assembled_together table chosen m h m2 hval hmetrical hlen ?_ _ text hrows ?_ hshort]
  · refine file_written _ { m with tracks := UInt16.ofNat chosen.length } _ rfl ?_ rfl ?_ ?_
    · obtain ⟨s1, s2, s3, s4, s5, s6, s7⟩ := m2
      refine ⟨s1, s2, s3, ?_, s5, s6, s7⟩
      show (UInt16.ofNat chosen.length).toNat = chosen.length
      rw [UInt16.toNat_ofNat']
      omega
    · intro t ht
      obtain ⟨_, _, _, d, htm, _⟩ := hc t ht
      exact decoded_tags d t htm
    · intro t ht e he
      obtain ⟨_, _, _, d, htm, _⟩ := hc t ht
      exact ⟨decoded_ranged d htm he, made_writes (decoded_made d t htm e he)⟩
  · intro t ht
    obtain ⟨_, _, _, d, htm, hpl⟩ := hc t ht
    obtain ⟨h1, h2, h3, h4⟩ := plain_track table htab d t htm hpl
    refine ⟨h1, h2, h3, fun e he => ?_⟩
    obtain ⟨h5, h6, h7⟩ := h4 e he
    refine ⟨?_, h5⟩
    by_cases hx : ∃ ch n v, e.body = .noteOn ch n v ∨ e.body = .noteOff ch n v
    · obtain ⟨ch, n, v, hx⟩ := hx
      obtain ⟨q1, q2, q3, q4⟩ := h6 ch n v hx
      have hnm := decoded_named d t htm e he ch v n hx
      rcases hx with hx | hx <;> rw [hx] <;> exact ⟨q1, q2, q3, q4, hnm⟩
    · exact h7 fun ch n v hb => hx ⟨ch, n, v, hb⟩
  · rw [htx, printMThd_row m h m2 m3]
    simp [lineTexts, List.flatMap_assoc, List.flatMap_map]

/-- The contents of the files that a run has written. -/
def RunResult.parts (r : RunResult) : List Bytes := r.files.map (·.2)

/-- **C170.** The same with the program.  A file is disassembled with `--split`.  The file of the header followed by files of tracks, whichever and in any
order, are put together in a file, and this file is assembled. -/
theorem C170_split_together (w w' : World) (args argv args' argv' : List Bytes) (s s' : List (Bytes × FlagValue)) (r r' : List Bytes)
    (hi : Invokes .disassemble args argv) (hl : CommandLine (options .disassemble) args s r)
    (hi' : Invokes .assemble args' argv') (hl' : CommandLine (options .assemble) args' s' r')
    (hr : r.headD [] ≠ []) (bytes : Bytes) (hby : w.read (r.headD []) = some bytes) (hC4 : ¬ Given s "C4" (.bool true)) (h : Header)
    (ts : List TrackEntry) (hf : FileSays 1 bytes h ts) (hmetrical : h.division < 32768)
    (ht : ¬ (h.format = 1 ∧ h.tracks = 0)) (hp : NoText s "templates")
    (hs : Given s "split" (.bool true)) (dir x base : Bytes) (hdir : SplitDirectory s (r.headD []) dir) (hx : NamedAfter s (r.headD []) x)
    (hb : Stem x base) (hc : ∀ name, w.create name = true) (hm : w.mkdirAll dir = true)
    (hex : NoText s "out" ∨ w.isDir dir = true ∨ w.superuser = true)
    (smf : SMF) (hd : decode .c3 w.spare bytes = .ok smf) (chosen : List Nat) (hlen : chosen.length < 65536)
    (hch : ∀ i ∈ chosen, ∃ t, smf.tracks[i]? = some t ∧ (∃ last, t.events.getLast? = some last ∧ ¬ last.body.IsMessage) ∧ ∀ e ∈ t.events, e.body.Plain)
    (text : Bytes) (htx : text = (midiasm w argv).parts.headD [] ++ chosen.flatMap fun i => (midiasm w argv).parts.getD (i + 1) [])
    (hshort : ShortLines text) (hr' : r'.headD [] ≠ []) (hread : w'.read (r'.headD []) = some text) (hext : extPath (r'.headD []) ≠ str ".json")
    (out : Bytes) (ho : Output s' out) (hco : w'.create out = true) :
    midiasm w' argv' = ⟨[(out, writtenFile { h with tracks := chosen.length } (chosen.map fun i => (contentsOf id ts).getD i []))], [], .success⟩ := by
  have hrun := C145_split_command w args argv s r hi hl hr bytes hby .c3 (Or.inr ⟨rfl, hC4⟩) h ts hf ht hp hs dir x base hdir hx hb hc hm hex
  obtain ⟨smf', hd', hsh⟩ := (C143_decoding .c3 w.spare bytes h ts).2 hf
  rw [hd] at hd'
  injection hd' with hd'
  subst hd'
  have hts : smf.tracks.map MTrk.entry = ts := hsh.2
  have hparts : (midiasm w argv).parts = lineTexts [headerRow h] :: ts.map fun t => lineTexts (trackRows t) := by
    rw [RunResult.parts, hrun]
    simp only [List.map_cons, List.cons.injEq, true_and]
    apply List.ext_getElem?
    intro i
    simp only [List.getElem?_map, List.getElem?_mapIdx, Option.map_map]
    rfl
  obtain ⟨sel, hsel, hmem⟩ : ∃ sel : List MTrk, List.Forall₂ (fun i t => smf.tracks[i]? = some t) chosen sel ∧ ∀ t ∈ sel, Separable t := by
    clear htx hlen hshort
    induction chosen with
    | nil => exact ⟨[], .nil, by simp⟩
    | cons i is ih =>
      obtain ⟨t, h1, h2, h3⟩ := hch i (by simp)
      obtain ⟨sel, g1, g2⟩ := ih fun j hj => hch j (by simp [hj])
      refine ⟨t :: sel, .cons h1 g1, ?_⟩
      intro y hy
      rcases List.mem_cons.1 hy with rfl | hy
      · exact ⟨w.spare, bytes, smf, hd, List.mem_of_getElem? h1, h2, h3⟩
      · exact g2 y hy
  have hsl : chosen.length = sel.length := hsel.length_eq
  have htext : text = lineTexts [headerRow h] ++ sel.flatMap fun t => lineTexts (trackRows t.entry) := by
    rw [htx, hparts, List.headD_cons]
    congr 1
    clear htx hlen hshort hch hmem hsl
    induction hsel with
    | nil => rfl
    | cons h1 _ ih =>
      rw [List.flatMap_cons, List.flatMap_cons, ih, List.getD_cons_succ, ← hts]
      simp [List.getD_eq_getElem?_getD, h1]
  have hcont : (chosen.map fun i => (contentsOf id ts).getD i []) = sel.map fun t => t.events.map fun e => (e.delta.toNat, e.body.view) := by
    clear htx hlen hshort hch hmem hsl htext
    induction hsel with
    | nil => rfl
    | cons h1 _ ih =>
      rw [List.map_cons, List.map_cons, ih, ← hts]
      simp [List.getD_eq_getElem?_getD, contentsOf, h1, MTrk.entry, Event.entry, Function.comp_def]
  have := C170_put_together Lib.manufacturers (fun _ => Iff.rfl) bytes h ts hf hmetrical sel hmem (by omega) text htext hshort
  rw [midiasm_runs hi' hl', does_assemble hr' hread, if_neg hext, this, hcont, hsl]
  exact save_ok_out ho hco

/-! ### Example -/

/-- A file with a track of a text and a note, and a track of a controller. -/
def twoParts : Bytes :=
  [0x4d, 0x54, 0x68, 0x64, 0, 0, 0, 6, 0, 1, 0, 2, 1, 0xe0] ++
  [0x4d, 0x54, 0x72, 0x6b, 0, 0, 0, 0x16] ++ [0x00, 0xff, 0x03, 0x04, 0x54, 0x65, 0x73, 0x74] ++ [0x81, 0x70, 0x90, 0x3d, 0x48] ++ [0x83, 0x60, 0x80, 0x3d, 0x40] ++
  [0x00, 0xff, 0x2f, 0x00] ++
  [0x4d, 0x54, 0x72, 0x6b, 0, 0, 0, 0x08] ++ [0x00, 0xb0, 0x07, 0x64] ++ [0x00, 0xff, 0x2f, 0x00]

/-- C170: the second track, the first one and the second one again. -/
example : ∃ smf h ts, decode .c3 [] twoParts = .ok smf ∧ FileSays 1 twoParts h ts ∧ h.division < 32768 ∧ ¬ (h.format = 1 ∧ h.tracks = 0) ∧
    (∀ i ∈ [1, 0, 1], ∃ t, smf.tracks[i]? = some t ∧ (∃ last, t.events.getLast? = some last ∧ ¬ last.body.IsMessage) ∧ ∀ e ∈ t.events, e.body.Plain) ∧
    ShortLines (lineTexts [headerRow h] ++ [1, 0, 1].flatMap fun i => ((ts.map fun t => lineTexts (trackRows t)).getD i [])) := by
  obtain ⟨smf, h1, h2⟩ := Outcome.of_test (o := decode .c3 [] twoParts)
    (p := fun smf => (match smf.mthd with | some m => decide (m.division.toNat < 32768) && decide (m.tracks.toNat = 2) | none => false) &&
      decide (smf.tracks.length = 2) &&
      (smf.tracks.all fun t => (match t.events.getLast? with | some ⟨_, _, _, .endOfTrack⟩ => true | _ => false) && t.events.all fun e => plainTest e.body) &&
      (match printSMF smf with | .ok text => decide (text.length < 2000) | _ => false)) (by decide +kernel)
  simp only [Bool.and_eq_true, List.all_eq_true, decide_eq_true_eq] at h2
  obtain ⟨⟨⟨q1, q2⟩, q3⟩, q4⟩ := h2
  obtain ⟨h, ts, f1, f2⟩ := C143_total .c3 [] _ smf h1
  rw [disassembled_text h1 h ts f2] at q4
  simp only [decide_eq_true_eq] at q4
  obtain ⟨⟨m, m1, m2, _⟩, rfl⟩ := f2
  rw [m1] at q1
  simp only [Bool.and_eq_true, decide_eq_true_eq] at q1
  have hdiv : h.division < 32768 := by rw [← m2.2.2.2.2.1]; exact q1.1
  have htr : h.tracks = 2 := by rw [← m2.2.2.2.1]; exact q1.2
  refine ⟨smf, h, _, h1, f1, hdiv, by omega, ?_, ?_⟩
  · have hall : ∀ i, i < 2 → ∃ t, smf.tracks[i]? = some t ∧ (∃ last, t.events.getLast? = some last ∧ ¬ last.body.IsMessage) ∧
        ∀ e ∈ t.events, e.body.Plain := by
      intro i hi
      refine ⟨smf.tracks[i], List.getElem?_eq_getElem _, ?_⟩
      obtain ⟨a, b⟩ := q3 smf.tracks[i] (List.getElem_mem _)
      refine ⟨?_, fun e he => plain_of_test _ (b e he)⟩
      split at a
      · rename_i hl
        exact ⟨_, hl, by rintro ⟨_, _, _, h⟩; cases h⟩
      · cases a
    intro i hi
    apply hall
    simp only [List.mem_cons, List.not_mem_nil, or_false] at hi
    omega
  · apply short_text
    match hs : smf.tracks, q2 with
    | [a, b], _ =>
      rw [hs] at q4
      simp [disassembled, lineTexts] at q4 ⊢
      omega

end Midiasm
