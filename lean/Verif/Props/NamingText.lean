import Verif.Spec.Naming
import Verif.Props.Naming

/-!
Assembling a disassembly made with `--C4`.
-/

set_option linter.unusedSimpArgs false

namespace Midiasm
open Spec

/-- A note with the number twelve below and the same name. -/
def NoteVal.lowered (n : NoteVal) : NoteVal := ⟨n.value - 12, n.name, n.alias⟩

def Body.lowered : Body → Body
  | .noteOff ch n v => .noteOff ch n.lowered v
  | .noteOn ch n v => .noteOn ch n.lowered v
  | b => b

def Event.lowered (e : Event) : Event := { e with body := e.body.lowered }

def MTrk.lowered (t : MTrk) : MTrk := { t with events := t.events.map Event.lowered }

def SMF.lowered (smf : SMF) : SMF := { smf with tracks := smf.tracks.map MTrk.lowered }

theorem printBody_lowered (b : Body) : printBody b.lowered = printBody b := by cases b <;> rfl

theorem printEvents_lowered (es : List Event) : printEvents (es.map Event.lowered) = printEvents es := by
  induction es with
  | nil => rfl
  | cons e es ih =>
    simp only [List.map_cons, printEvents, ih]
    have : printEvent e.lowered = printEvent e := by
      unfold printEvent
      simp only [Event.lowered, printBody_lowered]
    rw [this]

theorem printSMF_lowered (smf : SMF) : printSMF smf.lowered = printSMF smf := by
  have key : ∀ ts : List MTrk, printTracks (ts.map MTrk.lowered) = printTracks ts := by
    intro ts
    induction ts with
    | nil => rfl
    | cons t ts ih =>
      simp only [List.map_cons, printTracks, ih]
      have : printMTrk t.lowered = printMTrk t := by
        unfold printMTrk
        simp only [MTrk.lowered, printEvents_lowered]
      rw [this]
  unfold printSMF
  simp only [SMF.lowered, key]

theorem lowered_message (b : Body) : (b.lowered.IsMessage ↔ b.IsMessage) ∧ (b.lowered.IsPacket ↔ b.IsPacket) ∧ (b.lowered.Terminated ↔ b.Terminated) := by
  cases b <;> simp [Body.lowered, Body.IsMessage, Body.IsPacket, Body.Terminated]

theorem ended_lowered {es : List Event} (h : Ended es) : Ended (es.map Event.lowered) := by
  intro i e he hk
  rw [List.getElem?_map] at he
  cases hi : es[i]? with
  | none => rw [hi] at he; cases he
  | some x =>
    rw [hi] at he
    simp only [Option.map_some, Option.some.injEq] at he
    subst he
    obtain ⟨k1, k2, k3⟩ := lowered_message x.body
    have := h i x hi (by
      rcases hk with hk | hk
      · exact Or.inl (k1.mp hk)
      · exact Or.inr (k2.mp hk))
    show x.body.lowered.Terminated ↔ _
    rw [k3, this]
    rw [List.getElem?_map]
    constructor
    · rintro ⟨n, hn, hp⟩
      exact ⟨n.lowered, by rw [hn]; rfl, fun h => hp ((lowered_message n.body).2.1.mp h)⟩
    · rintro ⟨n, hn, hp⟩
      cases hn1 : es[i + 1]? with
      | none => rw [hn1] at hn; cases hn
      | some y =>
        rw [hn1] at hn
        simp only [Option.map_some, Option.some.injEq] at hn
        subst hn
        exact ⟨y, rfl, fun h => hp ((lowered_message y.body).2.1.mpr h)⟩

theorem names_lowered {flats : Prop} {name : String} {n : UInt8} (hn : 12 ≤ n) (h : Names flats 2 name n.toNat) :
    Names flats 1 name (n - 12).toNat := by
  obtain ⟨p, h1, h2, h3⟩ := h
  have h12 : (12 : UInt8).toNat = 12 := rfl
  have hv : (n - 12).toNat = n.toNat - 12 := by rw [UInt8.toNat_sub_of_le _ _ hn, h12]
  have hle : 12 ≤ n.toNat := by rw [UInt8.le_iff_toNat_le] at hn; omega
  refine ⟨p, ?_, ?_, h3⟩
  · rw [h1, hv]
    congr 2
    omega
  · rw [h2, hv]
    congr 1
    omega

theorem view_lowered (b : Body) (h : ∀ ch n v, b = .noteOn ch n v ∨ b = .noteOff ch n v → 12 ≤ n.value) : b.lowered.view = octaveLower b.view := by
  have key : ∀ n : NoteVal, 12 ≤ n.value → (n.value - 12).toNat = n.value.toNat - 12 := by
    intro n hn
    rw [UInt8.toNat_sub_of_le _ _ hn]
    rfl
  cases b
  case noteOn ch n v => simp only [Body.lowered, Body.view, octaveLower, NoteVal.lowered, key n (h _ _ _ (Or.inl rfl))]
  case noteOff ch n v => simp only [Body.lowered, Body.view, octaveLower, NoteVal.lowered, key n (h _ _ _ (Or.inr rfl))]
  all_goals rfl

theorem faithful_lowered (b : Body) (h : b.Faithful) (hk : b.KeyOk) (hl : ∀ ch n v, b = .noteOn ch n v ∨ b = .noteOff ch n v → 12 ≤ n.value) :
    b.lowered.Faithful ∧ b.lowered.KeyOk := by
  have key : ∀ n : NoteVal, 12 ≤ n.value → n.value.toNat ≤ 127 → (n.value - 12).toNat ≤ 127 := by
    intro n hn h
    rw [UInt8.toNat_sub_of_le _ _ hn]
    omega
  cases b
  case noteOn ch n v => exact ⟨h, key n (hl _ _ _ (Or.inl rfl)) hk⟩
  case noteOff ch n v => exact ⟨h, key n (hl _ _ _ (Or.inr rfl)) hk⟩
  all_goals exact ⟨h, hk⟩

theorem ordered_lowered (p : Bool) (bs : List Body) (h : sysexOrdered p bs) : sysexOrdered p (bs.map Body.lowered) := by
  induction bs generalizing p with
  | nil => trivial
  | cons b bs ih =>
    obtain ⟨h1, h2⟩ := h
    have e1 : b.lowered.InOrder p ↔ b.InOrder p := by cases b <;> exact Iff.rfl
    have e2 : b.lowered.pendingNext p = b.pendingNext p := by cases b <;> rfl
    exact ⟨e1.mpr h1, by rw [e2]; exact ih _ h2⟩

/-- C102: assembling a disassembly made with `--C4` gives the music an octave lower.  For the files of C83 without notes below 24. -/
theorem C102_octave_lower (spare file : Bytes) (smf : SMF) (hd : decode .c4 spare file = .ok smf) (m : MThd) (hm : smf.mthd = some m)
    (hmetrical : m.division.toNat < 32768) (hl : file.length < 2 ^ 28)
    (ht : ∀ t ∈ smf.tracks, (∃ last, t.events.getLast? = some last ∧ ¬ last.body.IsMessage) ∧
      ∀ e ∈ t.events, e.body.Plain ∧ Rewritable e.body.view ∧ e.delta.toNat < 2 ^ 28 ∧
        ∀ ch k v, e.body.view = .noteOn ch k v ∨ e.body.view = .noteOff ch k v → 24 ≤ k)
    (text : Bytes) (hp : printSMF smf = .ok text) (hshort : ShortLines text) :
    ∃ bs, assembleText Lib.manufacturers text = .ok bs ∧ (bs.length < 2 ^ 32 → ∀ mc spare, ∃ smf' m', decode mc spare bs = .ok smf' ∧
      smf'.mthd = some m' ∧ m'.SameAs m ∧ smf'.events = smf.events.map (fun t => t.map fun e => (e.1, octaveLower e.2))) := by
  obtain ⟨m', h, hm', hs, hv, hn, htr⟩ := decode_ok hd
  rw [hm] at hm'
  injection hm' with hm'
  subst hm'
  have hdiv : h.division < 32768 := by rw [← hs.2.2.2.2.1]; exact hmetrical
  have h24 : ∀ t ∈ smf.tracks, ∀ e ∈ t.events, ∀ ch n v, e.body = .noteOn ch n v ∨ e.body = .noteOff ch n v → 24 ≤ n.value := by
    intro t htm e he ch n v hb
    have := ((ht t htm).2 e he).2.2.2 ch.toNat n.value.toNat v.toNat (by
      rcases hb with hb | hb <;> rw [hb]
      · exact Or.inl rfl
      · exact Or.inr rfl)
    rw [UInt8.le_iff_toNat_le]
    exact this
  have h12 : ∀ n : UInt8, 24 ≤ n → 12 ≤ n ∧ 12 ≤ n - 12 ∧ n - 12 ≤ n := by
    intro n hn
    rw [UInt8.le_iff_toNat_le] at hn
    have e24 : (24 : UInt8).toNat = 24 := rfl
    have e12 : (12 : UInt8).toNat = 12 := rfl
    have h0 : (12 : UInt8) ≤ n := by rw [UInt8.le_iff_toNat_le]; omega
    refine ⟨h0, ?_, ?_⟩ <;> rw [UInt8.le_iff_toNat_le, UInt8.toNat_sub_of_le _ _ h0] <;> omega
  have hpt := plain_tracks Lib.manufacturers (fun _ => Iff.rfl) hd (fun t htm => ⟨(ht t htm).1, fun e he => ((ht t htm).2 e he).1⟩)
  have hasm : assembleText Lib.manufacturers text = encode smf.lowered := by
    refine C82_text_roundtrip Lib.manufacturers smf.lowered m hm h hs hv hdiv (by simpa [SMF.lowered] using hn) ?_ text
      (by rw [printSMF_lowered, hp]) hshort
    intro t' ht'
    simp only [SMF.lowered, List.mem_map] at ht'
    obtain ⟨t, htm, rfl⟩ := ht'
    obtain ⟨h1, h2, h3, h4⟩ := hpt t htm
    refine ⟨h1, by simpa [MTrk.lowered] using h2, ended_lowered h3, ?_⟩
    intro e' he'
    simp only [MTrk.lowered, List.mem_map] at he'
    obtain ⟨e, he, rfl⟩ := he'
    obtain ⟨h5, h6, h7⟩ := h4 e he
    have hc : e.body.lowered.Contained := by
      cases hb : e.body <;> rw [hb] at h5 <;> exact h5
    refine ⟨?_, hc⟩
    by_cases hx : ∃ ch n v, e.body = .noteOn ch n v ∨ e.body = .noteOff ch n v
    · obtain ⟨ch, n, v, hx⟩ := hx
      obtain ⟨q1, q2, q3, q4⟩ := h6 ch n v hx
      obtain ⟨fl, hnm⟩ := decoded_named_as hd t htm e he ch v n hx
      obtain ⟨n1, n2, n3⟩ := h12 _ (h24 t htm e he ch n v hx)
      have n4 : n.value - 12 ≤ 131 := UInt8.le_trans n3 q4
      have hnm' : ∃ flats, Names flats 1 n.name (n.value - 12).toNat := ⟨fl, names_lowered n1 hnm⟩
      rcases hx with hx | hx <;> simp only [Event.lowered, hx] <;> exact ⟨q1, q2, n2, n4, hnm'⟩
    · have : e.body.lowered = e.body := by
        cases hb : e.body
        case noteOn ch n v => exact absurd ⟨ch, n, v, Or.inl hb⟩ hx
        case noteOff ch n v => exact absurd ⟨ch, n, v, Or.inr hb⟩ hx
        all_goals rfl
      simp only [Event.lowered, this]
      exact h7 fun ch n v hb => hx ⟨ch, n, v, hb⟩
  have hf := decoded_tracks_faithful .c4 spare file smf hd hl (fun t htm e he => ⟨((ht t htm).2 e he).2.1, ((ht t htm).2 e he).2.2.1⟩)
  obtain ⟨bs, hbs, hback⟩ := C24_roundtrip_partial smf.lowered m hm h hs hv (by simpa [SMF.lowered] using hn) (by
    intro t' ht'
    simp only [SMF.lowered, List.mem_map] at ht'
    obtain ⟨t, htm, rfl⟩ := ht'
    obtain ⟨f1, f2, f3⟩ := hf t htm
    refine ⟨f1, ?_, ?_⟩
    · intro e' he'
      simp only [MTrk.lowered, List.mem_map] at he'
      obtain ⟨e, he, rfl⟩ := he'
      obtain ⟨g1, g2, g3⟩ := f2 e he
      obtain ⟨k1, k2⟩ := faithful_lowered e.body g1 g2 (fun ch n v hb => (h12 _ (h24 t htm e he ch n v hb)).1)
      exact ⟨k1, k2, g3⟩
    · have := ordered_lowered false _ f3
      simpa [MTrk.lowered, List.map_map, Function.comp_def, Event.lowered] using this)
  refine ⟨bs, by rw [hasm, hbs], fun hlen mc sp => ?_⟩
  obtain ⟨smf', m', hdec, hm', hsame, hev⟩ := hback hlen mc sp
  refine ⟨smf', m', hdec, hm', hsame, ?_⟩
  rw [SMF.events, hev, SMF.events]
  simp only [SMF.lowered, List.map_map]
  apply List.map_congr_left
  intro t htm
  simp only [Function.comp_def, MTrk.lowered, List.map_map]
  apply List.map_congr_left
  intro e he
  simp only [Function.comp_def, Event.lowered]
  rw [view_lowered e.body (fun ch n v hb => (h12 _ (h24 t htm e he ch n v hb)).1)]

/-- C102 is false: a disassembly made with `--C4` and assembled, with or without `--C4`, gives a file an octave lower. -/
theorem C102_disassembly_fails (w : World) (args argv args' argv' : List Bytes) (s s' : List (Bytes × FlagValue)) (r r' : List Bytes)
    (hi : Invokes .disassemble args argv) (hl : CommandLine (options .disassemble) args s r)
    (hi' : Invokes .assemble args' argv') (hl' : CommandLine (options .assemble) args' s' r')
    (smf : SMF) (hd : Decodes w s (r.headD []) smf) (hlen : ∀ b, w.read (r.headD []) = some b → b.length < 2 ^ 28)
    (hp : NoText s "templates") (hs : ¬ Given s "split" (.bool true))
    (hC4 : Given s "C4" (.bool true)) (text : Bytes) (ho : Output s text) (hc : w.create text = true)
    (hr : r'.headD [] = text) (hext : extPath text ≠ str ".json") (mid : Bytes) (ho' : Output s' mid) (hc' : w.create mid = true)
    (m : MThd) (hm : smf.mthd = some m) (hmetrical : m.division.toNat < 32768) (hne : smf.tracks ≠ [])
    (ht : ∀ t ∈ smf.tracks, (∃ last, t.events.getLast? = some last ∧ ¬ last.body.IsMessage) ∧
      ∀ e ∈ t.events, e.body.Plain ∧ Rewritable e.body.view ∧ e.delta.toNat < 2 ^ 28 ∧
        ∀ ch k v, e.body.view = .noteOn ch k v ∨ e.body.view = .noteOff ch k v → 24 ≤ k)
    (hshort : ∀ t, (midiasm w argv).files = [(text, t)] → ShortLines t) :
    ∃ bs, midiasm (w.after (midiasm w argv)) argv' = ⟨[(mid, bs)], [], .success⟩ ∧
      (bs.length < 2 ^ 32 → ∀ mc spare, ∃ smf' m', decode mc spare bs = .ok smf' ∧
        smf'.mthd = some m' ∧ m'.SameAs m ∧ smf'.events = smf.events.map (fun t => t.map fun e => (e.1, octaveLower e.2))) := by
  have ht1 : ¬ Trackless1 smf := fun ⟨_, _, _, h⟩ => hne h
  obtain ⟨t, hprint, _, h2, _⟩ := does_disassemble hd ht1 hp hs
  have e1 : midiasm w argv = ⟨[(text, t)], [], .success⟩ := by rw [midiasm_runs hi hl, h2 text ho hc]
  obtain ⟨_, bs, mc, hrd, hn, hdec⟩ := id hd
  have hmc : mc = .c4 := by
    rcases hn with ⟨h, _⟩ | ⟨_, h⟩
    · exact h
    · exact absurd hC4 h
  subst hmc
  obtain ⟨bytes, has, hback⟩ := C102_octave_lower w.spare bs smf hdec m hm hmetrical (hlen bs hrd) ht t hprint (hshort t (by rw [e1]))
  refine ⟨bytes, ?_, hback⟩
  have hrd' : (w.after (midiasm w argv)).read (r'.headD []) = some t := by rw [hr, e1, after_read]
  rw [midiasm_runs hi' hl', does_assemble (by rw [hr]; exact (out_given.mp ho).1) hrd', hr, if_neg hext, has]
  exact save_ok_out ho' (by exact hc')

/-- A test for the hypotheses on events. -/
def lowerTest (e : Event) : Bool :=
  plainTest e.body && decide (e.delta.toNat < 2 ^ 28) && (match e.body with
    | .text _ s => decide (s.length < 128)
    | .sequencerSpecific m d => decide (m.id.length + d.length < 128)
    | .pitchBend _ b => decide (b.toNat < 128)
    | .noteOn _ n _ => decide (24 ≤ n.value.toNat ∧ n.value.toNat < 128)
    | .noteOff _ n _ => decide (24 ≤ n.value.toNat ∧ n.value.toNat < 128)
    | _ => true)

theorem lower_of_test (e : Event) (h : lowerTest e = true) : e.body.Plain ∧ Rewritable e.body.view ∧ e.delta.toNat < 2 ^ 28 ∧
    ∀ ch k v, e.body.view = .noteOn ch k v ∨ e.body.view = .noteOff ch k v → 24 ≤ k := by
  simp only [lowerTest, Bool.and_eq_true, decide_eq_true_eq] at h
  obtain ⟨⟨h1, h2⟩, h3⟩ := h
  have hp := plain_of_test _ h1
  refine ⟨hp, ?_, h2, ?_⟩
  · cases hb : e.body <;> rw [hb] at h3 hp <;> simp only [decide_eq_true_eq] at h3
    case text k s => exact Or.inr h3
    case timeSignature n d c q =>
      intro h0
      exact hp.1 (UInt8.toNat_inj.mp h0)
    case sequencerSpecific => exact h3
    case noteOn ch n v => exact h3.2
    case noteOff ch n v => exact h3.2
    case pitchBend => exact h3
    case sysExContinuation => exact hp
    all_goals trivial
  · intro ch k v hv
    cases hb : e.body <;> rw [hb] at h3 hv <;> simp only [Body.view, decide_eq_true_eq] at h3 hv <;> rcases hv with hv | hv <;> first
      | (cases hv; done)
      | (injection hv with _ hv _; omega)

/-- `midiasm --C4 --out in.txt in.mid` and `midiasm assemble --C4 --out out.mid in.txt`. -/
example : ∃ smf bs, decode .c4 [] plainFile = .ok smf ∧
    midiasm (demo.after (midiasm demo [str "--C4", str "--out", str "in.txt", str "in.mid"]))
      [str "assemble", str "--C4", str "--out", str "out.mid", str "in.txt"] = ⟨[(str "out.mid", bs)], [], .success⟩ ∧
      (bs.length < 2 ^ 32 → ∀ mc spare, ∃ smf', decode mc spare bs = .ok smf' ∧
        smf'.events = smf.events.map (fun t => t.map fun e => (e.1, octaveLower e.2))) := by
  obtain ⟨smf, h1, h2⟩ := Outcome.of_test (o := decode .c4 [] plainFile)
    (p := fun smf => (match smf.mthd with | some m => decide (m.division.toNat < 32768) | none => false) &&
      (smf.tracks.all fun t => (match t.events.getLast? with | some ⟨_, _, _, .endOfTrack⟩ => true | _ => false) && t.events.all lowerTest) &&
      (match printSMF smf with | .ok text => decide (text.length < 65536) | _ => false) && !smf.tracks.isEmpty)
    (by decide +kernel)
  simp only [Bool.and_eq_true, List.all_eq_true] at h2
  obtain ⟨⟨⟨q1, q2⟩, q4⟩, q5⟩ := h2
  have hne : smf.tracks ≠ [] := by simpa using q5
  split at q1
  · rename_i m hm
    have hi : Invokes .disassemble [str "--C4", str "--out", str "in.txt", str "in.mid"] [str "--C4", str "--out", str "in.txt", str "in.mid"] := by
      refine Or.inr ⟨rfl, rfl, ?_⟩
      intro a ha c
      simp only [List.head?_cons, Option.some.injEq] at ha
      subst ha
      cases c <;> decide +kernel
    have hl : CommandLine (options .disassemble) [str "--C4", str "--out", str "in.txt", str "in.mid"]
        [(str "C4", .bool true), (str "out", .string (str "in.txt"))] [str "in.mid"] := by_parse (by decide +kernel)
    have hC4 : Given [(str "C4", .bool true), (str "out", .string (str "in.txt"))] "C4" (.bool true) :=
      (boolFlag_given _ _).mp (by decide +kernel)
    have hD : Decodes demo [(str "C4", .bool true), (str "out", .string (str "in.txt"))] (str "in.mid") smf :=
      ⟨by decide +kernel, plainFile, .c4, by simp [demo], Or.inl ⟨rfl, hC4⟩, h1⟩
    have ho : Output [(str "C4", .bool true), (str "out", .string (str "in.txt"))] (str "in.txt") :=
      out_given.mpr ⟨by decide +kernel, by decide +kernel⟩
    have hT : NoText [(str "C4", .bool true), (str "out", .string (str "in.txt"))] "templates" := out_empty.mp (by decide +kernel)
    have hS : ¬ Given [(str "C4", .bool true), (str "out", .string (str "in.txt"))] "split" (.bool true) := not_given (by decide +kernel)
    obtain ⟨bs, hr, hback⟩ := C102_disassembly_fails demo _ _ [str "--C4", str "--out", str "out.mid", str "in.txt"]
      [str "assemble", str "--C4", str "--out", str "out.mid", str "in.txt"] _ [(str "C4", .bool true), (str "out", .string (str "out.mid"))] _
      [str "in.txt"] hi hl (Or.inl rfl) (by_parse (by decide +kernel)) smf hD (by
        intro b hb
        simp only [List.headD_cons, demo, if_true, Option.some.injEq] at hb
        subst hb
        decide +kernel) hT hS hC4 (str "in.txt") ho rfl rfl (by decide +kernel) (str "out.mid")
      (out_given.mpr ⟨by decide +kernel, by decide +kernel⟩) rfl m hm (by simpa using q1) hne (by
        intro t htm
        obtain ⟨a, b⟩ := q2 t htm
        refine ⟨?_, fun e he => lower_of_test _ (b e he)⟩
        split at a
        · rename_i hl
          exact ⟨_, hl, by rintro ⟨_, _, _, h⟩; cases h⟩
        · cases a) (by
        intro t hf
        obtain ⟨text, h2, _, h3, _⟩ := does_disassemble (r := [str "in.mid"]) hD (fun ⟨_, _, _, h⟩ => hne h) hT hS
        rw [midiasm_runs hi hl, h3 _ ho rfl] at hf
        simp only [List.cons.injEq, Prod.mk.injEq, true_and, and_true] at hf
        subst hf
        rw [h2] at q4
        exact short_text _ (by simpa using q4))
    refine ⟨smf, bs, h1, hr, fun hb mc spare => ?_⟩
    obtain ⟨smf', _, g1, _, _, g2⟩ := hback hb mc spare
    exact ⟨smf', g1, g2⟩
  · cases q1

end Midiasm
