import Verif.Lemmas.Flags

/-!
Command lines are read according to their grammar.
-/

set_option linter.unusedSimpArgs false

namespace Midiasm
open Spec

/-- The options can be written: distinct names which are not empty, do not start with a dash and contain no equals sign. -/
def Writable (opts : List (String × FlagKind)) : Prop :=
  (opts.map fun o => str o.1).Nodup ∧ ∀ o ∈ opts, str o.1 ≠ [] ∧ (str o.1).head? ≠ some 45 ∧ 61 ∉ str o.1

instance (opts : List (String × FlagKind)) : Decidable (Writable opts) := by unfold Writable; infer_instance

/-- The options registered for a command are those of the specification. -/
theorem commandFlags_options (c : Command) : commandFlags c = (options c).map fun o => (str o.1, o.2) := by
  cases c <;> rfl

theorem options_writable (c : Command) : Writable (options c) := by
  cases c <;> decide +kernel

theorem lookup_options {opts : List (String × FlagKind)} (h : (opts.map fun o => str o.1).Nodup) (n : Bytes) (k : FlagKind) :
    (opts.map fun o => (str o.1, o.2)).lookup n = some k ↔ ∃ name, (name, k) ∈ opts ∧ str name = n := by
  induction opts with
  | nil => simp
  | cons o opts ih =>
    simp only [List.map_cons, List.nodup_cons, List.mem_map, not_exists, not_and] at h
    rw [List.map_cons, List.lookup_cons]
    by_cases hn : n = str o.1
    · subst hn
      rw [show (str o.1 == str o.1) = true from by simp]
      simp only [Option.some.injEq]
      constructor
      · rintro rfl
        exact ⟨o.1, by simp, rfl⟩
      · rintro ⟨name, hm, hs⟩
        rcases List.mem_cons.mp hm with rfl | hm
        · rfl
        · exact absurd hs (h.1 _ hm)
    · rw [show (n == str o.1) = false from by simpa using hn]
      simp only
      rw [ih h.2]
      constructor
      · rintro ⟨name, hm, hs⟩
        exact ⟨name, by simp [hm], hs⟩
      · rintro ⟨name, hm, hs⟩
        rcases List.mem_cons.mp hm with rfl | hm
        · exact absurd hs.symm hn
        · exact ⟨name, hm, hs⟩

theorem drop_none {n : Bytes} (he : 61 ∉ n) : n.dropWhile (· != 61) = [] := by
  have ha : ∀ x ∈ n, (x != 61) = true := fun x hx => by
    have : x ≠ 61 := by rintro rfl; exact he hx
    simpa using this
  have := List.dropWhile_append_of_pos (l₂ := []) ha
  simpa using this

theorem splitFlag_name {n : Bytes} (hn : n ≠ []) (he : 61 ∉ n) : splitFlag n = (n, none) := by
  cases n with
  | nil => cases hn rfl
  | cons c n => simp [splitFlag, drop_none (fun h => he (List.mem_cons_of_mem _ h))]

theorem splitFlag_value {n v : Bytes} (hn : n ≠ []) (he : 61 ∉ n) : splitFlag (n ++ 61 :: v) = (n, some v) := by
  cases n with
  | nil => cases hn rfl
  | cons c n =>
    have ha : ∀ x ∈ n, (x != 61) = true := fun x hx => by
      have : x ≠ 61 := by rintro rfl; exact he (by simp [hx])
      simpa using this
    simp [splitFlag, List.takeWhile_append_of_pos ha, List.dropWhile_append_of_pos ha]

theorem splitFlag_sound (b : Bytes) :
    b = (splitFlag b).1 ++ (match (splitFlag b).2 with
      | none => []
      | some v => 61 :: v) := by
  cases b with
  | nil => rfl
  | cons c rest =>
    have hs := List.takeWhile_append_dropWhile (p := (· != (61 : UInt8))) (l := rest)
    rw [splitFlag]
    split
    · rename_i x value heq
      have hx : x = 61 := by
        have := List.head?_dropWhile_not (p := (· != (61 : UInt8))) (l := rest)
        rw [heq] at this
        simpa using this
      subst hx
      simp only [List.cons_append, List.cons.injEq, true_and]
      rw [← heq, hs]
    · simp

theorem cons_ok {p : Parsed} {x : Bytes × FlagValue} {s : List (Bytes × FlagValue)} {r : List Bytes} :
    p.cons x = .ok s r ↔ ∃ s', s = x :: s' ∧ p = .ok s' r := by
  cases p with
  | ok a b =>
    simp only [Parsed.cons, Parsed.ok.injEq]
    constructor
    · rintro ⟨rfl, rfl⟩; exact ⟨a, rfl, rfl, rfl⟩
    · rintro ⟨s', rfl, rfl, rfl⟩; exact ⟨rfl, rfl⟩
  | help => simp [Parsed.cons]
  | bad => simp [Parsed.cons]

/-- An argument starting with dashes. -/
theorem dashed_cases {a n : Bytes} {c : UInt8} {more : Bytes} (ha : a = 45 :: c :: more) (hb : (if c = 45 then more else c :: more) = n) :
    a = str "-" ++ n ∨ a = str "--" ++ n := by
  have e1 : str "-" = [45] := by decide
  have e2 : str "--" = [45, 45] := by decide
  rw [e1, e2]
  split at hb
  · rename_i h; subst h hb ha; right; rfl
  · subst hb ha; left; rfl

theorem parse_sound {opts : List (String × FlagKind)} (hw : Writable opts) :
    ∀ (k : Nat) (args : List Bytes), args.length ≤ k → ∀ s r, parseFlags (opts.map fun o => (str o.1, o.2)) args = .ok s r →
      CommandLine opts args s r
  | _, [], _, s, r, h => by
      rw [parseFlags] at h
      cases h
      exact .nothing
  | 0, _ :: _, hk, _, _, _ => by simp at hk
  | k + 1, a :: args, hk, s, r, h => by
      rw [parseFlags.eq_def] at h
      simp only at h
      split at h
      · rename_i c more
        split at h
        · rename_i hdd
          obtain ⟨rfl, rfl⟩ := hdd
          cases h
          exact .dashes _
        · rename_i hdd
          generalize hb : (if c = 45 then more else c :: more) = body at h
          split at h
          · cases h
          · have hsound := splitFlag_sound body
            generalize splitFlag body = p at h hsound
            obtain ⟨name, value⟩ := p
            simp only at h hsound
            split at h
            · split at h <;> cases h
            · rename_i kind hl
              obtain ⟨nm, hm, rfl⟩ := (lookup_options hw.1 _ _).mp hl
              split at h
              · rename_i v
                simp only at hsound
                have hd := dashed_cases rfl (hb.trans hsound)
                split at h
                · cases h
                · rename_i x hx
                  obtain ⟨s', rfl, hp⟩ := cons_ok.mp h
                  have ih := parse_sound hw k args (by simpa using hk) s' r hp
                  have e : str "=" = [61] := by decide
                  rcases hd with hd | hd
                  · have : 45 :: c :: more = str "-" ++ str nm ++ str "=" ++ v := by rw [hd, e]; simp
                    rw [this]
                    exact .joined nm kind _ v x args s' r hm (Or.inl rfl) ((setFlag_iff _ _ _).mp hx) ih
                  · have : 45 :: c :: more = str "--" ++ str nm ++ str "=" ++ v := by rw [hd, e]; simp
                    rw [this]
                    exact .joined nm kind _ v x args s' r hm (Or.inr rfl) ((setFlag_iff _ _ _).mp hx) ih
              · simp only [List.append_nil] at hsound
                have hd := dashed_cases rfl (hb.trans hsound)
                split at h
                · rename_i hk2
                  subst hk2
                  obtain ⟨s', rfl, hp⟩ := cons_ok.mp h
                  exact .switch nm _ args s' r hm hd (parse_sound hw k args (by simpa using hk) s' r hp)
                · rename_i hk2
                  split at h
                  · cases h
                  · rename_i v args' 
                    split at h
                    · cases h
                    · rename_i x hx
                      obtain ⟨s', rfl, hp⟩ := cons_ok.mp h
                      refine .separate nm kind _ v x args' s' r hm hk2 hd ((setFlag_iff _ _ _).mp hx)
                        (parse_sound hw k args' ?_ s' r hp)
                      simp at hk
                      omega
      · rename_i hno
        cases h
        refine .operand a args ?_
        cases a with
        | nil => left; simp
        | cons c t =>
          by_cases hc : c = 45
          · subst hc
            cases t with
            | nil => right; rfl
            | cons d t => exact absurd rfl (hno d t)
          · left; simpa using hc

theorem parse_option {opts : List (String × FlagKind)} (hw : Writable opts) {name : String} {kind : FlagKind} (hm : (name, kind) ∈ opts)
    {a : Bytes} (hd : Dashed name a) (tail : Bytes) (value : Option Bytes)
    (hsplit : splitFlag (str name ++ tail) = (str name, value)) (args : List Bytes) :
    parseFlags (opts.map fun o => (str o.1, o.2)) ((a ++ tail) :: args) =
      match (generalizing := false) value with
      | some v =>
          match setFlag kind v with
          | none => .bad
          | some x => (parseFlags (opts.map fun o => (str o.1, o.2)) args).cons (str name, x)
      | none =>
          if kind = .bool then (parseFlags (opts.map fun o => (str o.1, o.2)) args).cons (str name, .bool true)
          else
            match args with
            | [] => .bad
            | v :: args' =>
                match setFlag kind v with
                | none => .bad
                | some x => (parseFlags (opts.map fun o => (str o.1, o.2)) args').cons (str name, x) := by
  obtain ⟨h1, h2, h3⟩ := hw.2 _ hm
  have e1 : str "-" = [45] := by decide
  have e2 : str "--" = [45, 45] := by decide
  have hl := (lookup_options hw.1 (str name) kind).mpr ⟨name, hm, rfl⟩
  obtain ⟨c, t, hct⟩ : ∃ c t, str name = c :: t := by
    cases h : str name with
    | nil => exact absurd h h1
    | cons c t => exact ⟨c, t, rfl⟩
  have hc45 : c ≠ 45 := by rw [hct] at h2; simpa using h2
  have hc61 : c ≠ 61 := by rw [hct] at h3; rintro rfl; simp at h3
  have hhead : ¬ ((str name ++ tail).head? = some 45 ∨ (str name ++ tail).head? = some 61) := by
    rw [hct]; simp [hc45, hc61]
  rcases hd with rfl | rfl
  · have e : str "-" ++ str name ++ tail = 45 :: c :: (t ++ tail) := by rw [e1, hct]; rfl
    have e' : c :: (t ++ tail) = str name ++ tail := by rw [hct]; rfl
    rw [e, parseFlags.eq_def]
    simp only
    rw [if_neg (by simp [hc45])]
    simp only [if_neg hc45, e', if_neg hhead, hsplit, hl]
    cases value <;> rfl
  · have e : str "--" ++ str name ++ tail = 45 :: 45 :: (str name ++ tail) := by rw [e2]; simp
    rw [e, parseFlags.eq_def]
    simp only
    rw [if_neg (by rw [hct]; simp)]
    simp only [if_true, if_neg hhead, hsplit, hl]
    cases value <;> rfl

theorem parse_complete {opts : List (String × FlagKind)} (hw : Writable opts) {args : List Bytes} {s : List (Bytes × FlagValue)}
    {r : List Bytes} (h : CommandLine opts args s r) : parseFlags (opts.map fun o => (str o.1, o.2)) args = .ok s r := by
  have e3 : str "=" = [61] := by decide
  induction h with
  | nothing => rfl
  | operand a rest ha =>
    rw [parseFlags.eq_def]
    simp only
    split
    · rename_i c more
      rcases ha with h | h <;> simp at h
    · rfl
  | dashes rest =>
    have e2 : str "--" = [45, 45] := by decide
    rw [e2, parseFlags.eq_def]
    simp
  | switch name a rest s r hm hd _ ih =>
    obtain ⟨h1, h2, h3⟩ := hw.2 _ hm
    have := parse_option hw hm hd [] none (by rw [List.append_nil]; exact splitFlag_name h1 h3) rest
    rw [List.append_nil] at this
    rw [this]
    simp [ih, Parsed.cons]
  | joined name kind a v x rest s r hm hd hv _ ih =>
    obtain ⟨h1, h2, h3⟩ := hw.2 _ hm
    have := parse_option hw hm hd (61 :: v) (some v) (splitFlag_value h1 h3) rest
    have e : a ++ str "=" ++ v = a ++ 61 :: v := by rw [e3]; simp
    rw [e, this]
    simp [(setFlag_iff _ _ _).mpr hv, ih, Parsed.cons]
  | separate name kind a v x rest s r hm hk hd hv _ ih =>
    obtain ⟨h1, h2, h3⟩ := hw.2 _ hm
    have := parse_option hw hm hd [] none (by rw [List.append_nil]; exact splitFlag_name h1 h3) (v :: rest)
    rw [List.append_nil] at this
    rw [this]
    simp [(setFlag_iff _ _ _).mpr hv, ih, Parsed.cons, hk]

theorem cons_help {p : Parsed} {x : Bytes × FlagValue} : p.cons x = .help ↔ p = .help := by
  cases p <;> simp [Parsed.cons]

theorem lookup_help {opts : List (String × FlagKind)} (hh : ∀ o ∈ opts, str o.1 ≠ str "h" ∧ str o.1 ≠ str "help") {n : Bytes}
    (hn : n = str "h" ∨ n = str "help") : (opts.map fun o => (str o.1, o.2)).lookup n = none := by
  induction opts with
  | nil => rfl
  | cons o opts ih =>
    have h1 := hh o (by simp)
    rw [List.map_cons, List.lookup_cons]
    have : (n == str o.1) = false := by
      rcases hn with rfl | rfl
      · simpa using fun h => h1.1 h.symm
      · simpa using fun h => h1.2 h.symm
    rw [this]
    exact ih fun o ho => hh o (by simp [ho])

theorem parse_help_sound {opts : List (String × FlagKind)} (hw : Writable opts) :
    ∀ (k : Nat) (args : List Bytes), args.length ≤ k → parseFlags (opts.map fun o => (str o.1, o.2)) args = .help →
      AsksHelp opts args
  | _, [], _, h => by
      rw [parseFlags] at h
      cases h
  | 0, _ :: _, hk, _ => by simp at hk
  | k + 1, a :: args, hk, h => by
      have e : str "=" = [61] := by decide
      rw [parseFlags.eq_def] at h
      simp only at h
      split at h
      · rename_i c more
        split at h
        · cases h
        · rename_i hdd
          generalize hb : (if c = 45 then more else c :: more) = body at h
          split at h
          · cases h
          · have hsound := splitFlag_sound body
            generalize splitFlag body = p at h hsound
            obtain ⟨name, value⟩ := p
            simp only at h hsound
            have hargs : ∀ nm v, name = str nm → value = some v → (45 :: c :: more = str "-" ++ str nm ++ str "=" ++ v ∨
                45 :: c :: more = str "--" ++ str nm ++ str "=" ++ v) := by
              rintro nm v rfl rfl
              simp only at hsound
              have hd := dashed_cases rfl (hb.trans hsound)
              rcases hd with hd | hd
              · left; rw [hd, e]; simp
              · right; rw [hd, e]; simp
            have hargn : ∀ nm, name = str nm → value = none → Dashed nm (45 :: c :: more) := by
              rintro nm rfl rfl
              simp only [List.append_nil] at hsound
              exact dashed_cases rfl (hb.trans hsound)
            split at h
            · split at h
              · rename_i hname
                have main : ∀ nm, nm ∈ ["h", "help"] → name = str nm → AsksHelp opts ((45 :: c :: more) :: args) := by
                  intro nm hmem hnm
                  cases value with
                  | none => exact .here nm _ args hmem (hargn nm hnm rfl)
                  | some v =>
                    rcases hargs nm v hnm rfl with h | h
                    · rw [h]; exact .hereJoined nm _ v args hmem (Or.inl rfl)
                    · rw [h]; exact .hereJoined nm _ v args hmem (Or.inr rfl)
                rcases hname with hname | hname
                · exact main "help" (by decide) hname
                · exact main "h" (by decide) hname
              · cases h
            · rename_i kind hl
              obtain ⟨nm, hm, hnm⟩ := (lookup_options hw.1 _ _).mp hl
              split at h
              · rename_i v
                split at h
                · cases h
                · rename_i x hx
                  have ih := parse_help_sound hw k args (by simpa using hk) (cons_help.mp h)
                  rcases hargs nm v hnm.symm rfl with h | h
                  · rw [h]; exact .joined nm kind _ v x args hm (Or.inl rfl) ((setFlag_iff _ _ _).mp hx) ih
                  · rw [h]; exact .joined nm kind _ v x args hm (Or.inr rfl) ((setFlag_iff _ _ _).mp hx) ih
              · have hd := hargn nm hnm.symm rfl
                split at h
                · rename_i hk2
                  subst hk2
                  exact .switch nm _ args hm hd (parse_help_sound hw k args (by simpa using hk) (cons_help.mp h))
                · rename_i hk2
                  split at h
                  · cases h
                  · rename_i v args'
                    split at h
                    · cases h
                    · rename_i x hx
                      refine .separate nm kind _ v x args' hm hk2 hd ((setFlag_iff _ _ _).mp hx)
                        (parse_help_sound hw k args' ?_ (cons_help.mp h))
                      simp at hk
                      omega
      · cases h

theorem parse_help_complete {opts : List (String × FlagKind)} (hw : Writable opts)
    (hh : ∀ o ∈ opts, str o.1 ≠ str "h" ∧ str o.1 ≠ str "help") {args : List Bytes}
    (h : AsksHelp opts args) : parseFlags (opts.map fun o => (str o.1, o.2)) args = .help := by
  have e1 : str "-" = [45] := by decide
  have e2 : str "--" = [45, 45] := by decide
  have e3 : str "=" = [61] := by decide
  have hbase : ∀ (nm : String) (a tail : Bytes) (value : Option Bytes) (rest : List Bytes), nm ∈ ["h", "help"] → Dashed nm a →
      splitFlag (str nm ++ tail) = (str nm, value) → parseFlags (opts.map fun o => (str o.1, o.2)) ((a ++ tail) :: rest) = .help := by
    intro nm a tail value rest hmem hd hs
    have hl : (opts.map fun o => (str o.1, o.2)).lookup (str nm) = none := by
      apply lookup_help hh
      simp only [List.mem_cons, List.not_mem_nil, or_false] at hmem
      rcases hmem with rfl | rfl
      · exact Or.inl rfl
      · exact Or.inr rfl
    obtain ⟨t, hct⟩ : ∃ t, str nm = 104 :: t := by
      simp only [List.mem_cons, List.not_mem_nil, or_false] at hmem
      rcases hmem with rfl | rfl
      · exact ⟨_, rfl⟩
      · exact ⟨_, rfl⟩
    have hname : str nm = str "help" ∨ str nm = str "h" := by
      simp only [List.mem_cons, List.not_mem_nil, or_false] at hmem
      rcases hmem with rfl | rfl
      · exact Or.inr rfl
      · exact Or.inl rfl
    have hhead : ¬ ((str nm ++ tail).head? = some 45 ∨ (str nm ++ tail).head? = some 61) := by
      rw [hct]; simp
    rcases hd with rfl | rfl
    · have e : str "-" ++ str nm ++ tail = 45 :: 104 :: (t ++ tail) := by rw [e1, hct]; rfl
      have e' : 104 :: (t ++ tail) = str nm ++ tail := by rw [hct]; rfl
      rw [e, parseFlags.eq_def]
      simp only
      rw [if_neg (by simp)]
      simp only [show ¬ ((104 : UInt8) = 45) by decide, if_false, e', if_neg hhead, hs, hl, if_pos hname]
    · have e : str "--" ++ str nm ++ tail = 45 :: 45 :: (str nm ++ tail) := by rw [e2]; simp
      rw [e, parseFlags.eq_def]
      simp only
      rw [if_neg (by rw [hct]; simp)]
      simp only [if_true, if_neg hhead, hs, hl, if_pos hname]
  have hnames : ∀ nm : String, nm ∈ ["h", "help"] → str nm ≠ [] ∧ 61 ∉ str nm := by
    intro nm hmem
    simp only [List.mem_cons, List.not_mem_nil, or_false] at hmem
    rcases hmem with rfl | rfl <;> decide +kernel
  induction h with
  | here name a rest hmem hd =>
    have := hbase name a [] none rest hmem hd (by rw [List.append_nil]; exact splitFlag_name (hnames _ hmem).1 (hnames _ hmem).2)
    rwa [List.append_nil] at this
  | hereJoined name a v rest hmem hd =>
    have := hbase name a (61 :: v) (some v) rest hmem hd (splitFlag_value (hnames _ hmem).1 (hnames _ hmem).2)
    rw [e3, List.append_assoc]
    exact this
  | switch name a rest hm hd _ ih =>
    obtain ⟨h1, h2, h3⟩ := hw.2 _ hm
    have := parse_option hw hm hd [] none (by rw [List.append_nil]; exact splitFlag_name h1 h3) rest
    rw [List.append_nil] at this
    rw [this]
    simp [ih, Parsed.cons]
  | joined name kind a v x rest hm hd hv _ ih =>
    obtain ⟨h1, h2, h3⟩ := hw.2 _ hm
    have := parse_option hw hm hd (61 :: v) (some v) (splitFlag_value h1 h3) rest
    have e : a ++ str "=" ++ v = a ++ 61 :: v := by rw [e3]; simp
    rw [e, this]
    simp [(setFlag_iff _ _ _).mpr hv, ih, Parsed.cons]
  | separate name kind a v x rest hm hk hd hv _ ih =>
    obtain ⟨h1, h2, h3⟩ := hw.2 _ hm
    have := parse_option hw hm hd [] none (by rw [List.append_nil]; exact splitFlag_name h1 h3) (v :: rest)
    rw [List.append_nil] at this
    rw [this]
    simp [(setFlag_iff _ _ _).mpr hv, ih, Parsed.cons, hk]

theorem parse_help_iff (c : Command) (args : List Bytes) : parseFlags (commandFlags c) args = .help ↔ AsksHelp (options c) args := by
  rw [commandFlags_options]
  refine ⟨parse_help_sound (options_writable c) _ args (Nat.le_refl _), parse_help_complete (options_writable c) ?_⟩
  cases c <;> decide +kernel

/-- Command lines are read exactly by the grammar. -/
theorem parse_iff (c : Command) (args : List Bytes) (s : List (Bytes × FlagValue)) (r : List Bytes) :
    parseFlags (commandFlags c) args = .ok s r ↔ CommandLine (options c) args s r := by
  rw [commandFlags_options]
  exact ⟨parse_sound (options_writable c) _ args (Nat.le_refl _) s r, parse_complete (options_writable c)⟩

end Midiasm
