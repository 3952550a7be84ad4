import Verif.Model.Track
import Verif.Spec.Wire
import Verif.Lemmas.Basic

/-!
What one call of the event parser does on any input, in terms of the wire format of `Spec/Wire.lean`.
-/

set_option linter.unusedSimpArgs false

namespace Midiasm
open Spec

/-- An error becomes a panic (`NewEvent` of a nil event). -/
def errPanics {α : Type} (r : Outcome α) : Outcome α :=
  match r with
  | .err _ => .panic
  | r => r

/-- The body the parser makes of a framed event. -/
def bodyOutcome (mc : MiddleC) (casio : Bool) : Raw → Outcome Body
  | .chan status data => errPanics (midiUnmarshal mc status data)
  | .metaEvent type data => errPanics (metaUnmarshal (type &&& 0x7f) data)
  | .sysex status data =>
    if status = 0xf0 ∧ casio = true then .err .other
    else if status = 0xf0 then unmarshalSysExMessage data
    else if casio then unmarshalSysExContinuation data
    else unmarshalSysExEscape data

/-- The context after a framed event (before the track loop updates it further). -/
def ctxAfter (ctx : Context) : Raw → Context
  | .chan status _ => { ctx with runningStatus := status }
  | .metaEvent _ _ => { ctx with runningStatus := 0x00 }
  | .sysex status data => { ctx with runningStatus := 0x00, casio := pendingAfter ctx.casio (.sysex status data) }

/-- Running statuses the parser can be left with. -/
def GoodRS (rs : UInt8) : Prop := rs.toNat < 0x80 ∨ IsChannelStatus rs

/-- The running status in the sense of the wire format. -/
def rsOf (rs : UInt8) : Option UInt8 := if rs.toNat < 0x80 then none else some rs

theorem u8_lt_80 (b : UInt8) : b < 0x80 ↔ b.toNat < 0x80 := by
  rw [UInt8.lt_iff_toNat_lt]; rfl

theorem consumed_append (a b : Bytes) : consumed (a ++ b) b = a := by
  simp [consumed]

theorem quantity_u32 {bs : Bytes} {n : UInt32} (h : Quantity bs n.toNat) : UInt32.ofNat (value128 bs) = n := by
  apply u32_ext
  have := h.2
  simp only [UInt32.toNat_ofNat', this]

theorem readVLQ_quantity {bs : Bytes} {n : UInt32} (h : Quantity bs n.toNat) (rest : Bytes) :
    readVLQ (bs ++ rest) = .ok (n, rest) := by
  rw [readVLQ_terminated h.1, quantity_u32 h]

theorem vlqSlice_quantity {bs : Bytes} {n : UInt32} (h : Quantity bs n.toNat) (rest : Bytes) :
    vlqSlice (bs ++ rest) = .ok (n, rest) := by
  rw [vlqSlice_terminated h.1, quantity_u32 h]

theorem quantity_len {len data : Bytes} (h : Quantity len data.length) :
    Quantity len (UInt32.ofNat data.length).toNat := by
  refine ⟨h.1, ?_⟩
  have h2 := h.2
  rw [UInt32.toNat_ofNat', h2, Nat.mod_eq_of_lt]
  omega

theorem quantity_len_toNat {len data : Bytes} (h : Quantity len data.length) :
    (UInt32.ofNat data.length).toNat = data.length := by
  have h2 := h.2
  rw [UInt32.toNat_ofNat', Nat.mod_eq_of_lt]
  omega

theorem readVLF_quantity {len data : Bytes} (h : Quantity len data.length) (rest : Bytes) :
    readVLF (len ++ data ++ rest) = .ok (data, rest) := by
  have h2 := readVLQ_quantity (quantity_len h) (data ++ rest)
  have h3 := quantity_len_toNat h
  rw [readVLF, List.append_assoc, h2]
  simp only [Outcome.bind_ok, h3]
  simp

theorem vlfSlice_quantity {len data : Bytes} (h : Quantity len data.length) (spare : Bytes) :
    vlfSlice (len ++ data) spare = .ok data := by
  have h2 := vlqSlice_quantity (quantity_len h) data
  have h3 := quantity_len_toNat h
  rw [vlfSlice, h2]
  simp only [Outcome.bind_ok, h3, sliceTo]
  simp

theorem readBytes_append (data rest : Bytes) : readBytes data.length (data ++ rest) = .ok rest := by
  induction data with
  | nil => rfl
  | cons d data ih => simpa [readBytes] using ih

theorem channelStatus_facts (s : UInt8) : IsChannelStatus s →
    ¬ s < 0x80 ∧ s ≠ 0xff ∧ s ≠ 0xf0 ∧ s ≠ 0xf7 ∧ midiDataLength s = dataLen 1 s := by
  have := all8 (P := fun s => 0x80 ≤ s.toNat ∧ s.toNat < 0xf0 →
    ¬ s < 0x80 ∧ s ≠ 0xff ∧ s ≠ 0xf0 ∧ s ≠ 0xf7 ∧ midiDataLength s = dataLen 1 s) (by decide +kernel) s
  exact this

theorem terminated_last {bs : Bytes} (h : Terminated bs) : ∃ b, bs.getLast? = some b ∧ b.toNat < 128 := by
  obtain ⟨i, l, rfl, _, hl⟩ := h
  exact ⟨l, by simp, hl⟩

theorem lastByte_eq {len data : Bytes} (pre : Bytes) (h : Terminated len) :
    ((pre ++ (len ++ data)).getLast? = some 0xf7) ↔ data.getLast? = some 0xf7 := by
  obtain ⟨b, hb, hlt⟩ := terminated_last h
  rw [List.getLast?_append, List.getLast?_append, hb]
  cases hd : data.getLast? with
  | none =>
    simp
    intro h; rw [h] at hlt; simp at hlt
  | some x => simp

theorem bind_errPanics (r : Outcome Body) (f : Body → Event) :
    newEventOrPanic (r >>= fun b => .ok (f b)) = errPanics r >>= fun b => .ok (f b) := by
  cases r <;> rfl

/-- The event made from a body. -/
def mkEvent (tick : UInt32) (i : Item) (b : Body) : Event :=
  ⟨tick.toUInt64 + i.delta.toUInt64, i.delta, i.bytes, b⟩

/-- The parser on a framed event followed by anything. -/
theorem parseEvent_framed (mc : MiddleC) (spare rest : Bytes) (tick : UInt32) (ctx : Context) (i : Item) (rs' : Option UInt8)
    (h : FramedItem 1 (rsOf ctx.runningStatus) i rs') :
    parseEvent mc (i.bytes ++ rest) spare tick ctx =
      bodyOutcome mc ctx.casio i.raw >>= fun b => .ok (mkEvent tick i b, rest, ctxAfter ctx i.raw) := by
  obtain ⟨delta, raw, bytes⟩ := i
  obtain ⟨db, eb, hb, hq, hf⟩ := h
  simp only at hb hq hf ⊢
  subst hb
  rw [parseEvent, List.append_assoc, readVLQ_quantity hq]
  simp only [Outcome.bind_ok]
  generalize hrs : rsOf ctx.runningStatus = ors at hf
  have hpair : ∀ x : Bytes, consumed (db ++ (eb ++ x)) x = db ++ eb := by
    intro x; rw [← List.append_assoc, consumed_append]
  cases hf with
  | @full rs status data hs hlen =>
    obtain ⟨h1, h2, h3, h4, h5⟩ := channelStatus_facts status hs
    simp only [List.cons_append]
    simp only [h1, false_and, if_false, Outcome.bind_ok, h2, h3, h4, or_self]
    rw [h5, ← hlen, readBytes_append]
    simp only [Outcome.bind_ok]
    have := hpair rest
    simp only [List.cons_append] at this
    rw [this, midiParse, vlqSlice_quantity hq]
    simp only [Outcome.bind_ok, h1, if_false]
    rw [bind_errPanics]
    simp only [bodyOutcome]
    cases midiUnmarshal mc status data <;> rfl
  | @running status d data hs hlen hd =>
    obtain ⟨h1, h2, h3, h4, h5⟩ := channelStatus_facts status hs
    have hd' : d < 0x80 := (u8_lt_80 d).2 hd
    have hrs' : ctx.runningStatus = status := by
      rw [rsOf] at hrs
      split at hrs
      · simp at hrs
      · simpa using hrs
    simp only [List.cons_append, hrs']
    simp only [hd', h1, and_false, if_false, if_true, Outcome.bind_ok, h2, h3, h4, or_self]
    have hr := readBytes_append (d :: data) rest
    simp only [List.cons_append] at hr
    rw [h5, ← hlen, hr]
    simp only [Outcome.bind_ok]
    have := hpair rest
    simp only [List.cons_append] at this
    rw [this, midiParse, vlqSlice_quantity hq]
    simp only [Outcome.bind_ok, hd', if_true]
    rw [bind_errPanics]
    simp only [bodyOutcome]
    cases midiUnmarshal mc status (d :: data) <;> rfl
  | @metaEvent rs type len data hl =>
    have hp := hpair rest
    simp only [List.cons_append] at hp
    have h1 : ¬ ((0xff : UInt8) < 0x80) := by decide
    simp only [List.cons_append, h1, false_and, if_false, Outcome.bind_ok, if_true]
    rw [readVLF_quantity hl]
    simp only [Outcome.bind_ok]
    rw [hp, metaParse, vlqSlice_quantity hq]
    simp only [Outcome.bind_ok, ne_eq, not_true_eq_false, if_false]
    rw [vlfSlice_quantity hl]
    simp only [Outcome.bind_ok]
    rw [bind_errPanics]
    simp only [bodyOutcome]
    cases metaUnmarshal (type &&& 0x7f) data <;> rfl
  | @sysex rs status len data hst hl =>
    have hp := hpair rest
    simp only [List.cons_append] at hp
    have h1 : ¬ (status < 0x80) := by rcases hst with rfl | rfl <;> decide
    have h2 : status ≠ 0xff := by rcases hst with rfl | rfl <;> decide
    simp only [List.cons_append, h1, false_and, if_false, Outcome.bind_ok, h2, hst, if_true]
    rw [readVLF_quantity hl]
    simp only [Outcome.bind_ok, bodyOutcome]
    split
    · rfl
    · rename_i hc
      rw [hp, sysexParse, vlqSlice_quantity hq]
      have h3 : ¬ (status ≠ 0xf0 ∧ status ≠ 0xf7) := by
        rcases hst with rfl | rfl <;> simp
      simp only [Outcome.bind_ok, h3, if_false]
      rw [vlfSlice_quantity hl]
      simp only [Outcome.bind_ok]
      have hcas : nextCasio ctx.casio status (db ++ status :: (len ++ data)) =
          pendingAfter ctx.casio (.sysex status data) := by
        have hlast := lastByte_eq (data := data) (db ++ [status]) hl.1
        rw [List.append_assoc, List.singleton_append] at hlast
        simp only [nextCasio, pendingAfter]
        generalize (db ++ status :: (len ++ data)).getLast? = x at hlast
        generalize data.getLast? = y at hlast
        have hbeq : (y != some 0xf7) = decide (y ≠ some 0xf7) := by
          by_cases h : y = some 0xf7 <;> simp [h]
        rw [hbeq]
        by_cases h : y = some 0xf7
        · have h' := hlast.2 h
          rcases hst with rfl | rfl <;> cases ctx.casio <;> simp [h, h']
        · have h' : x ≠ some 0xf7 := fun x => h (hlast.1 x)
          rcases hst with rfl | rfl <;> cases ctx.casio <;> simp [h, h']
      rw [hcas]
      simp only [ctxAfter]
      split
      · cases unmarshalSysExMessage data <;> rfl
      · split
        · cases unmarshalSysExContinuation data <;> rfl
        · cases unmarshalSysExEscape data <;> rfl

/-! ### Arbitrary input -/

theorem quantity_of_terminated {db : Bytes} (h : Terminated db) : Quantity db (UInt32.ofNat (value128 db)).toNat :=
  ⟨h, by rw [UInt32.toNat_ofNat']⟩

/-- Extending a string of continuation bytes to a complete quantity. -/
theorem terminated_extend {db : Bytes} (h : ∀ b ∈ db, 128 ≤ b.toNat) : Terminated (db ++ [0]) :=
  ⟨db, 0, rfl, h, by decide⟩

theorem readBytes_short (n : Nat) (r : Bytes) (h : r.length < n) : readBytes n r = .err .eof := by
  induction n generalizing r with
  | zero => omega
  | succ n ih =>
    cases r with
    | nil => rfl
    | cons b r => rw [readBytes]; exact ih r (by simpa using h)

theorem readVLF_cases (r : Bytes) :
    (∃ len data rest, r = len ++ data ++ rest ∧ Quantity len data.length) ∨
    (readVLF r = .err .eof ∧ ∃ ext len data, ext ≠ [] ∧ r ++ ext = len ++ data ∧ Quantity len data.length) := by
  rcases split_terminated r with ⟨p, rest, rfl, ht⟩ | h
  · have hq := quantity_of_terminated ht
    generalize UInt32.ofNat (value128 p) = n at hq
    by_cases hn : n.toNat ≤ rest.length
    · left
      refine ⟨p, rest.take n.toNat, rest.drop n.toNat, by simp, ?_⟩
      rw [List.length_take, Nat.min_eq_left hn]
      exact hq
    · right
      constructor
      · rw [readVLF, readVLQ_quantity hq]
        simp only [Outcome.bind_ok, if_neg hn]
      · refine ⟨List.replicate (n.toNat - rest.length) 0, p, rest ++ List.replicate (n.toNat - rest.length) 0, ?_, ?_, ?_⟩
        · intro h
          have := congrArg List.length h
          simp at this
          omega
        · simp
        · simp
          have : rest.length + (n.toNat - rest.length) = n.toNat := by omega
          rw [this]
          exact hq
  · right
    constructor
    · rw [readVLF, readVLQ_unterminated h]; rfl
    · -- the quantity's digits followed by 0 have some value; supply that many bytes
      have ht := terminated_extend h
      refine ⟨0 :: List.replicate (value128 (r ++ [0]) % 2 ^ 32) 0, r ++ [0],
        List.replicate (value128 (r ++ [0]) % 2 ^ 32) 0, by simp, by simp, ht, by simp⟩

theorem rsOf_eq {rs : UInt8} (h : ¬ rs < 0x80) : rsOf rs = some rs := by
  rw [rsOf, if_neg]; rwa [← u8_lt_80]

theorem systemStatus_facts (s : UInt8) : 0xf0 < s.toNat → s.toNat < 0xff → s.toNat ≠ 0xf7 →
    ¬ s < 0x80 ∧ s ≠ 0xff ∧ s ≠ 0xf0 ∧ s ≠ 0xf7 ∧ midiDataLength s = 0 ∧
      (s &&& 0xf0 ≠ 0x80 ∧ s &&& 0xf0 ≠ 0x90 ∧ s &&& 0xf0 ≠ 0xa0 ∧ s &&& 0xf0 ≠ 0xb0 ∧ s &&& 0xf0 ≠ 0xc0 ∧
        s &&& 0xf0 ≠ 0xd0 ∧ s &&& 0xf0 ≠ 0xe0) := by
  have := all8 (P := fun s => 0xf0 < s.toNat → s.toNat < 0xff → s.toNat ≠ 0xf7 →
    ¬ s < 0x80 ∧ s ≠ 0xff ∧ s ≠ 0xf0 ∧ s ≠ 0xf7 ∧ midiDataLength s = 0 ∧
      (s &&& 0xf0 ≠ 0x80 ∧ s &&& 0xf0 ≠ 0x90 ∧ s &&& 0xf0 ≠ 0xa0 ∧ s &&& 0xf0 ≠ 0xb0 ∧ s &&& 0xf0 ≠ 0xc0 ∧
        s &&& 0xf0 ≠ 0xd0 ∧ s &&& 0xf0 ≠ 0xe0)) (by decide +kernel) s
  exact this

/-- Data bytes for a channel message that has not ended yet. -/
theorem data_extend (status : UInt8) (r : Bytes) (h : r.length < dataLen 1 status) :
    ∃ ext, ext ≠ [] ∧ (r ++ ext).length = dataLen 1 status := by
  refine ⟨List.replicate (dataLen 1 status - r.length) 0, ?_, ?_⟩
  · intro hh
    have := congrArg List.length hh
    simp at this
    omega
  · simp; omega

/-- Every input is a framed event followed by something, or cut short (the parser reports end of input), or starts with a
data byte without running status (the parser reports an error), or with an unsupported status (the parser panics). -/
theorem parseEvent_cases (mc : MiddleC) (spare : Bytes) (tick : UInt32) (ctx : Context) (hrs : GoodRS ctx.runningStatus)
    (inp : Bytes) :
    (∃ i rest rs', inp = i.bytes ++ rest ∧ FramedItem 1 (rsOf ctx.runningStatus) i rs') ∨
    (Truncated 1 (rsOf ctx.runningStatus) inp ∧ parseEvent mc inp spare tick ctx = .err .eof) ∨
    (Orphan (rsOf ctx.runningStatus) inp ∧ parseEvent mc inp spare tick ctx = .err .other) ∨
    (SystemStatus inp ∧ parseEvent mc inp spare tick ctx = .panic) := by
  rcases split_terminated inp with ⟨db, r, rfl, ht⟩ | h
  · have hq := quantity_of_terminated ht
    generalize UInt32.ofNat (value128 db) = delta at hq
    -- the event bytes
    have trunc : ∀ (ext eb : Bytes) raw rs', ext ≠ [] → r ++ ext = eb →
        Framed 1 (rsOf ctx.runningStatus) raw eb rs' → Truncated 1 (rsOf ctx.runningStatus) (db ++ r) := by
      intro ext eb raw rs' h1 h2 h3
      exact ⟨ext, ⟨delta, raw, db ++ eb⟩, rs', h1, ⟨db, eb, rfl, hq, h3⟩, by rw [← h2, List.append_assoc]⟩
    have found : ∀ (eb rest : Bytes) raw rs', r = eb ++ rest → Framed 1 (rsOf ctx.runningStatus) raw eb rs' →
        ∃ i rest rs', db ++ r = i.bytes ++ rest ∧ FramedItem 1 (rsOf ctx.runningStatus) i rs' := by
      intro eb rest raw rs' h1 h2
      exact ⟨⟨delta, raw, db ++ eb⟩, rest, rs', by rw [h1, List.append_assoc], ⟨db, eb, rfl, hq, h2⟩⟩
    cases r with
    | nil =>
      right; left
      constructor
      · exact trunc [0xff, 0x2f, 0x00] _ (.metaEvent 0x2f []) none (by simp) rfl
          (Framed.metaEvent (len := [0]) (data := []) ⟨⟨[], 0, rfl, by simp, by decide⟩, rfl⟩)
      · rw [parseEvent, readVLQ_quantity hq]; rfl
    | cons b r =>
      by_cases hb : b < 0x80
      · by_cases hr : ctx.runningStatus < 0x80
        · right; right; left
          refine ⟨⟨?_, db, b, r, rfl, ht, (u8_lt_80 b).1 hb⟩, ?_⟩
          · rw [rsOf, if_pos ((u8_lt_80 _).1 hr)]
          · rw [parseEvent, readVLQ_quantity hq]
            simp only [Outcome.bind_ok, hb, hr, and_self, if_true, Outcome.bind_err]
        · have hs : IsChannelStatus ctx.runningStatus := by
            rcases hrs with h | h
            · exact absurd ((u8_lt_80 _).2 h) hr
            · exact h
          obtain ⟨h1, h2, h3, h4, h5⟩ := channelStatus_facts _ hs
          by_cases hl : dataLen 1 ctx.runningStatus ≤ (b :: r).length
          · left
            have hpos : 0 < dataLen 1 ctx.runningStatus := by
              have := all8 (P := fun s => 0x80 ≤ s.toNat ∧ s.toNat < 0xf0 → 0 < dataLen 1 s) (by decide +kernel)
                ctx.runningStatus hs
              exact this
            obtain ⟨n, hn⟩ : ∃ n, dataLen 1 ctx.runningStatus = n + 1 := ⟨_, (Nat.succ_pred_eq_of_pos hpos).symm⟩
            have hln : n ≤ r.length := by simp at hl; omega
            refine found (b :: r.take n) (r.drop n) (.chan ctx.runningStatus (b :: r.take n)) (some ctx.runningStatus)
              (by simp) ?_
            rw [rsOf_eq hr]
            exact Framed.running hs (by simp [hn]; omega) ((u8_lt_80 b).1 hb)
          · right; left
            obtain ⟨ext, he1, he2⟩ := data_extend ctx.runningStatus (b :: r) (by omega)
            constructor
            · refine trunc ext (b :: (r ++ ext)) (.chan ctx.runningStatus (b :: (r ++ ext))) (some ctx.runningStatus) he1
                (by simp) ?_
              rw [rsOf_eq hr]
              exact Framed.running hs (by simpa using he2) ((u8_lt_80 b).1 hb)
            · rw [parseEvent, readVLQ_quantity hq]
              simp only [Outcome.bind_ok, hb, h1, and_false, if_false, if_true, h2, h3, h4, or_self]
              rw [h5, readBytes_short _ _ (by omega)]
              rfl
      · have hbn : 0x80 ≤ b.toNat := by rw [u8_lt_80] at hb; omega
        by_cases hc : b.toNat < 0xf0
        · have hs : IsChannelStatus b := ⟨hbn, hc⟩
          obtain ⟨h1, h2, h3, h4, h5⟩ := channelStatus_facts _ hs
          by_cases hl : dataLen 1 b ≤ r.length
          · left
            exact found (b :: r.take (dataLen 1 b)) (r.drop (dataLen 1 b)) (.chan b (r.take (dataLen 1 b))) (some b)
              (by simp) (Framed.full hs (by simp; omega))
          · right; left
            obtain ⟨ext, he1, he2⟩ := data_extend b r (by omega)
            constructor
            · exact trunc ext (b :: (r ++ ext)) (.chan b (r ++ ext)) (some b) he1 (by simp) (Framed.full hs he2)
            · rw [parseEvent, readVLQ_quantity hq]
              simp only [Outcome.bind_ok, h1, false_and, if_false, h2, h3, h4, or_self]
              rw [h5, readBytes_short _ _ (by omega)]
              rfl
        · by_cases hff : b = 0xff
          · subst hff
            have h1 : ¬ ((0xff : UInt8) < 0x80) := by decide
            cases r with
            | nil =>
              right; left
              constructor
              · exact trunc [0x2f, 0x00] _ (.metaEvent 0x2f []) none (by simp) rfl
                  (Framed.metaEvent (len := [0]) (data := []) ⟨⟨[], 0, rfl, by simp, by decide⟩, rfl⟩)
              · rw [parseEvent, readVLQ_quantity hq]
                simp only [Outcome.bind_ok, h1, false_and, if_false, if_true]
            | cons t r =>
              rcases readVLF_cases r with ⟨len, data, rest, rfl, hl⟩ | ⟨he, ext, len, data, hx, heq, hl⟩
              · left
                exact found (0xff :: t :: (len ++ data)) rest (.metaEvent t data) none (by simp) (Framed.metaEvent hl)
              · right; left
                constructor
                · exact trunc ext (0xff :: t :: (len ++ data)) (.metaEvent t data) none hx (by simp [heq])
                    (Framed.metaEvent hl)
                · rw [parseEvent, readVLQ_quantity hq]
                  simp only [Outcome.bind_ok, h1, false_and, if_false, if_true, he, Outcome.bind_err]
          · by_cases hsx : b = 0xf0 ∨ b = 0xf7
            · have h1 : ¬ (b < 0x80) := hb
              rcases readVLF_cases r with ⟨len, data, rest, rfl, hl⟩ | ⟨he, ext, len, data, hx, heq, hl⟩
              · left
                exact found (b :: (len ++ data)) rest (.sysex b data) none (by simp) (Framed.sysex hsx hl)
              · right; left
                constructor
                · exact trunc ext (b :: (len ++ data)) (.sysex b data) none hx (by simp [heq])
                    (Framed.sysex hsx hl)
                · rw [parseEvent, readVLQ_quantity hq]
                  simp only [Outcome.bind_ok, h1, false_and, if_false, if_true, hff, hsx, he, Outcome.bind_err]
            · right; right; right
              have hb1 : 0xf0 < b.toNat := by
                have : b.toNat ≠ 0xf0 := fun h => hsx (Or.inl (u8_ext (by simpa using h)))
                omega
              have hb2 : b.toNat < 0xff := by
                have : b.toNat ≠ 0xff := fun h => hff (u8_ext (by simpa using h))
                have := b.toNat_lt
                omega
              have hb3 : b.toNat ≠ 0xf7 := fun h => hsx (Or.inr (u8_ext (by simpa using h)))
              refine ⟨⟨db, b, r, rfl, ht, hb1, hb2, hb3⟩, ?_⟩
              obtain ⟨h1, h2, h3, h4, h5, h6, h7, h8, h9, h10, h11, h12⟩ := systemStatus_facts b hb1 hb2 hb3
              rw [parseEvent, readVLQ_quantity hq]
              simp only [Outcome.bind_ok, h1, false_and, if_false, h2, h3, h4, or_self]
              rw [h5, readBytes]
              simp only [Outcome.bind_ok]
              have hp : consumed (db ++ b :: r) r = db ++ [b] := by
                have := consumed_append (db ++ [b]) r
                simpa using this
              rw [hp, midiParse, vlqSlice_quantity hq]
              simp only [Outcome.bind_ok, h1, if_false, midiUnmarshal, h6, h7, h8, h9, h10, h11, h12, Outcome.bind_err]
              rfl
  · right; left
    constructor
    · have ht := terminated_extend h
      have hq := quantity_of_terminated ht
      refine ⟨[0, 0xff, 0x2f, 0x00], ⟨UInt32.ofNat (value128 (inp ++ [0])), .metaEvent 0x2f [], (inp ++ [0]) ++ [0xff, 0x2f, 0x00]⟩, none, by simp,
        ⟨inp ++ [0], [0xff, 0x2f, 0x00], rfl, hq, ?_⟩, by simp⟩
      exact Framed.metaEvent (len := [0]) (data := []) ⟨⟨[], 0, rfl, by simp, by decide⟩, rfl⟩
    · rw [parseEvent, readVLQ_unterminated h]; rfl

/-- A body is never refused with an end-of-input error. -/
theorem unmarshalSysEx_err (data : Bytes) (e : Err) (h : unmarshalSysExMessage data = .err e) : e = .other := by
  rw [unmarshalSysExMessage] at h
  split at h
  · simpa using h.symm
  · unfold sysExFromData at h
    split at h
    · simp at h
    · split at h
      · simp at h
      · split at h <;> simp at h

theorem bodyOutcome_err (mc : MiddleC) (casio : Bool) (raw : Raw) (e : Err) (h : bodyOutcome mc casio raw = .err e) :
    e = .other := by
  cases raw with
  | chan s d => simp only [bodyOutcome, errPanics] at h; split at h <;> simp_all
  | metaEvent t d => simp only [bodyOutcome, errPanics] at h; split at h <;> simp_all
  | sysex s d =>
    simp only [bodyOutcome] at h
    split at h
    · simpa using h.symm
    · split at h
      · exact unmarshalSysEx_err d e h
      · split at h <;> simp [unmarshalSysExContinuation, unmarshalSysExEscape] at h

end Midiasm
