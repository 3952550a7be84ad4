import Verif.Props.Split
import Verif.Spec.Paths

/-!
Property C119: where files are written.
-/

set_option linter.unusedSimpArgs false

namespace Midiasm
open Spec

theorem dot_bytes : str "." = [46] := by decide +kernel
theorem dots_bytes : str ".." = [46, 46] := by decide +kernel

theorem walk_split (p : Bytes) (at_ : List Bytes) (cur : Bytes) :
    ∃ e es, splitPath p = e :: es ∧ walk at_ cur p = es.foldl enter (enter at_ (cur.reverse ++ e)) := by
  induction p generalizing at_ cur with
  | nil => exact ⟨[], [], rfl, by simp [walk]⟩
  | cons c p ih =>
    by_cases hc : c = 47
    · obtain ⟨e, es, h1, h2⟩ := ih (enter at_ cur.reverse) []
      refine ⟨[], e :: es, by rw [splitPath, if_pos hc, h1], ?_⟩
      rw [walk, if_pos hc, h2]
      simp
    · obtain ⟨e, es, h1, h2⟩ := ih at_ (c :: cur)
      refine ⟨c :: e, es, by rw [splitPath, if_neg hc, h1], ?_⟩
      rw [walk, if_neg hc, h2]
      simp

theorem walk_elements (p : Bytes) (at_ : List Bytes) : walk at_ [] p = (splitPath p).foldl enter at_ := by
  obtain ⟨e, es, h1, h2⟩ := walk_split p at_ []
  rw [h2, h1]
  rfl

theorem split_slash (p : Bytes) : ∀ e ∈ splitPath p, 47 ∉ e := by
  induction p with
  | nil => simp [splitPath]
  | cons c p ih =>
    rw [splitPath]
    split
    · intro e he
      rcases List.mem_cons.mp he with rfl | he
      · simp
      · exact ih e he
    · rename_i hc
      split
      · simp; exact fun h => hc h.symm
      · rename_i e es h
        rw [h] at ih
        intro x hx
        rcases List.mem_cons.mp hx with rfl | hx
        · simp only [List.mem_cons, not_or]
          exact ⟨fun h => hc h.symm, ih e (by simp)⟩
        · exact ih x (by simp [hx])

theorem split_element (e : Bytes) (h : 47 ∉ e) (rest : Bytes) : splitPath e = [e] ∧ splitPath (e ++ 47 :: rest) = e :: splitPath rest := by
  induction e with
  | nil => exact ⟨rfl, by rw [List.nil_append, splitPath, if_pos rfl]⟩
  | cons c e ih =>
    simp only [List.mem_cons, not_or] at h
    obtain ⟨h1, h2⟩ := ih h.2
    constructor
    · rw [splitPath, if_neg (fun x => h.1 x.symm), h1]
    · rw [List.cons_append, splitPath, if_neg (fun x => h.1 x.symm), h2]

theorem split_join (es : List Bytes) (hne : es ≠ []) (h : ∀ e ∈ es, 47 ∉ e) : splitPath (List.intercalate [47] es) = es := by
  induction es with
  | nil => exact absurd rfl hne
  | cons e es ih =>
    cases es with
    | nil => simpa [List.intercalate] using (split_element e (h e (by simp)) []).1
    | cons f fs =>
      have := ih (by simp) (fun x hx => h x (by simp [hx]))
      have hi : List.intercalate [47] (e :: f :: fs) = e ++ 47 :: List.intercalate [47] (f :: fs) := by
        simp [List.intercalate, List.intersperse]
      rw [hi, (split_element e (h e (by simp)) _).2, this]

/-- Cleaning keeps what the elements name. -/
theorem clean_elements (rooted : Bool) (at_ : List Bytes) (hr : rooted = true → at_ = []) (es out : List Bytes)
    (hout : ∀ e ∈ out, e ≠ [] ∧ e ≠ [46]) (hslash : (∀ e ∈ out, 47 ∉ e) ∧ ∀ e ∈ es, 47 ∉ e) :
    (es.foldl (cleanStep rooted) out).reverse.foldl enter at_ = es.foldl enter (out.reverse.foldl enter at_) ∧
    (∀ e ∈ es.foldl (cleanStep rooted) out, e ≠ [] ∧ e ≠ [46] ∧ 47 ∉ e) := by
  induction es generalizing out with
  | nil => exact ⟨rfl, fun e he => ⟨(hout e he).1, (hout e he).2, hslash.1 e he⟩⟩
  | cons e es ih =>
    rw [List.foldl_cons, List.foldl_cons]
    have hstep : (cleanStep rooted out e).reverse.foldl enter at_ = enter (out.reverse.foldl enter at_) e ∧
        (∀ x ∈ cleanStep rooted out e, x ≠ [] ∧ x ≠ [46]) ∧ ∀ x ∈ cleanStep rooted out e, 47 ∉ x := by
      unfold cleanStep
      by_cases h1 : e = [] ∨ e = [46]
      · rw [if_pos h1]
        refine ⟨?_, hout, hslash.1⟩
        rw [enter, if_pos (by rw [dot_bytes]; exact h1)]
      · rw [if_neg h1]
        have h1' : ¬ (e = [] ∨ e = str ".") := by rw [dot_bytes]; exact h1
        by_cases h2 : e = [46, 46]
        · rw [if_pos h2]
          have h47 : (47 : UInt8) ∉ e := by rw [h2]; decide
          cases out with
          | nil =>
            cases rooted with
            | true =>
              rw [hr rfl]
              simp only [if_true]
              refine ⟨?_, by simp, by simp⟩
              rw [enter, if_neg h1', if_pos (by rw [dots_bytes]; exact h2)]
              rfl
            | false =>
              refine ⟨rfl, ?_, ?_⟩
              · intro x hx
                simp only [Bool.false_eq_true, if_false, List.mem_cons, List.not_mem_nil, or_false] at hx
                subst hx
                exact not_or.mp h1
              · intro x hx
                simp only [Bool.false_eq_true, if_false, List.mem_cons, List.not_mem_nil, or_false] at hx
                subst hx
                exact h47
          | cons last rest =>
            simp only
            by_cases h3 : last = [46, 46]
            · rw [if_pos h3]
              refine ⟨by rw [List.reverse_cons, List.foldl_append]; rfl, ?_, ?_⟩
              · intro x hx
                rcases List.mem_cons.mp hx with rfl | hx
                · exact not_or.mp h1
                · exact hout x hx
              · intro x hx
                rcases List.mem_cons.mp hx with rfl | hx
                · exact h47
                · exact hslash.1 x hx
            · rw [if_neg h3]
              refine ⟨?_, fun x hx => hout x (by simp [hx]), fun x hx => hslash.1 x (by simp [hx])⟩
              have hl := hout last (by simp)
              rw [List.reverse_cons, List.foldl_append, List.foldl_cons, List.foldl_nil]
              have : enter (rest.reverse.foldl enter at_) last = last :: rest.reverse.foldl enter at_ := by
                rw [enter, if_neg (by rw [dot_bytes]; exact not_or.mpr hl), if_neg (by rw [dots_bytes]; exact h3)]
              rw [this, enter, if_neg h1', if_pos (by rw [dots_bytes]; exact h2)]
              rfl
        · rw [if_neg h2]
          refine ⟨by rw [List.reverse_cons, List.foldl_append]; rfl, ?_, ?_⟩
          · intro x hx
            rcases List.mem_cons.mp hx with rfl | hx
            · exact not_or.mp h1
            · exact hout x hx
          · intro x hx
            rcases List.mem_cons.mp hx with rfl | hx
            · exact hslash.2 _ (by simp)
            · exact hslash.1 x hx
    have := ih (cleanStep rooted out e) hstep.2.1 ⟨hstep.2.2, fun x hx => hslash.2 x (by simp [hx])⟩
    rw [hstep.1] at this
    exact this

/-- **C119.** Cleaning a path does not change what it names. -/
theorem C119_clean (cwd : List Bytes) (p : Bytes) : place cwd (cleanPath p) = place cwd p := by
  unfold cleanPath
  by_cases hr : p.head? = some 47
  · simp only [hr, decide_true, if_true]
    obtain ⟨h1, h2⟩ := clean_elements true [] (fun _ => rfl) (splitPath p) [] (by simp) ⟨by simp, split_slash p⟩
    unfold place
    rw [if_pos (by rfl), if_pos hr, walk_elements, walk_elements, splitPath, if_pos rfl, List.foldl_cons]
    rw [show enter [] [] = [] by rfl]
    simp only [List.reverse_nil, List.foldl_nil] at h1
    rw [← h1]
    by_cases h0 : (splitPath p).foldl (cleanStep true) [] = []
    · rw [h0]
      rfl
    · rw [split_join]
      · simpa using h0
      · intro e he
        exact (h2 e (by simpa using he)).2.2
  · simp only [hr, decide_false, Bool.false_eq_true, if_false]
    obtain ⟨h1, h2⟩ := clean_elements false cwd (fun h => by cases h) (splitPath p) [] (by simp) ⟨by simp, split_slash p⟩
    simp only [List.reverse_nil, List.foldl_nil] at h1
    by_cases h0 : (splitPath p).foldl (cleanStep false) [] = []
    · rw [h0] at h1 ⊢
      rw [if_pos (show List.intercalate [47] ([] : List Bytes).reverse = [] from rfl)]
      unfold place
      rw [if_neg hr, walk_elements p, ← h1]
      rfl
    · have hj : splitPath (List.intercalate [47] ((splitPath p).foldl (cleanStep false) []).reverse) =
          ((splitPath p).foldl (cleanStep false) []).reverse := by
        apply split_join
        · simpa using h0
        · intro e he
          exact (h2 e (by simpa using he)).2.2
      have hhead : List.intercalate [47] ((splitPath p).foldl (cleanStep false) []).reverse ≠ [] ∧
          (List.intercalate [47] ((splitPath p).foldl (cleanStep false) []).reverse).head? ≠ some 47 := by
        cases hx : ((splitPath p).foldl (cleanStep false) []).reverse with
        | nil => exact absurd (by simpa using hx) h0
        | cons e es =>
          have he := h2 e (by rw [← List.mem_reverse, hx]; simp)
          cases e with
          | nil => exact absurd rfl he.1
          | cons c e =>
            have hc : c ≠ 47 := fun h => he.2.2 (by rw [h]; simp)
            cases es with
            | nil => simp [List.intercalate, hc]
            | cons f fs => simp [List.intercalate, List.intersperse, hc]
      rw [if_neg hhead.1]
      unfold place
      rw [if_neg hhead.2, if_neg hr, walk_elements, walk_elements, hj, h1]

theorem split_append (a b : Bytes) : splitPath (a ++ 47 :: b) = splitPath a ++ splitPath b := by
  induction a with
  | nil => exact (split_element [] (by simp) b).2
  | cons c a ih =>
    rw [List.cons_append, splitPath, splitPath]
    by_cases hc : c = 47
    · rw [if_pos hc, if_pos hc, ih]
      rfl
    · rw [if_neg hc, if_neg hc, ih]
      cases h : splitPath a with
      | nil => exact absurd h (splitPath_ne a)
      | cons e es => rfl

/-- **C119.** Joining names what the second path names in the directory named by the first. -/
theorem C119_join (cwd : List Bytes) (d b : Bytes) (hb : b.head? ≠ some 47) : place cwd (joinPath d b) = place (place cwd d) b := by
  have hnil : ∀ at_, place at_ [] = at_ := fun at_ => rfl
  unfold joinPath
  split
  · rename_i h
    rw [h.1, h.2]
    rfl
  · split
    · rename_i h
      rw [h, C119_clean, hnil]
    · rename_i hd
      split
      · rename_i h
        rw [h, C119_clean, hnil]
      · rw [C119_clean]
        have hh : (d ++ [47] ++ b).head? = d.head? := by
          cases d with
          | nil => exact absurd rfl hd
          | cons c d => rfl
        unfold place
        rw [hh, if_neg hb, walk_elements, walk_elements, walk_elements, List.append_assoc, List.singleton_append, split_append, List.foldl_append]

/-- **C119.** The directory of a path is the directory in which it names something. -/
theorem C119_directory (cwd : List Bytes) (p dir x : Bytes) (hp : p = dir ++ x) (hd : dir = [] ∨ ∃ d, dir = d ++ [47]) (hx : 47 ∉ x)
    (hn : x ≠ [] ∧ x ≠ str "." ∧ x ≠ str "..") : place cwd p = x :: place cwd (dirPath p) := by
  have hall : ∀ c ∈ x.reverse, (c != 47) = true := by
    intro c hc
    rw [List.mem_reverse] at hc
    simp only [bne_iff_ne]
    rintro rfl
    exact hx hc
  have hdir : (p.reverse.dropWhile (· != 47)).reverse = dir := by
    rw [hp, List.reverse_append, List.dropWhile_append_of_pos hall]
    rcases hd with rfl | ⟨d, rfl⟩ <;> simp
  rw [dirPath, C119_clean, hdir]
  have hlast : ∀ at_, enter at_ x = x :: at_ := by
    intro at_
    rw [enter, if_neg (not_or.mpr ⟨hn.1, hn.2.1⟩), if_neg hn.2.2]
  rcases hd with rfl | ⟨d, rfl⟩
  · rw [List.nil_append] at hp
    have hh : p.head? ≠ some 47 := by
      rw [hp]
      cases x with
      | nil => simp
      | cons c x => simp only [List.head?_cons, ne_eq, Option.some.injEq]; rintro rfl; exact hx (by simp)
    unfold place
    rw [if_neg hh, walk_elements, hp, (split_element x hx []).1]
    exact hlast cwd
  · have hh : p.head? = (d ++ [47]).head? := by
      rw [hp]
      cases d <;> rfl
    unfold place
    rw [hh, walk_elements, walk_elements, hp, List.append_assoc, List.singleton_append, split_append, split_append, (split_element x hx []).1]
    simp only [List.foldl_append, List.foldl_cons, List.foldl_nil, hlast]
    rfl

/-- A file name in a directory. -/
theorem place_name (at_ : List Bytes) (e : Bytes) (h : 47 ∉ e) (hl : 3 ≤ e.length) : place at_ e = e :: at_ ∧ e.head? ≠ some 47 := by
  have hh : e.head? ≠ some 47 := by
    cases e with
    | nil => simp
    | cons c x => simp only [List.head?_cons, ne_eq, Option.some.injEq]; rintro rfl; exact h (by simp)
  refine ⟨?_, hh⟩
  unfold place
  rw [if_neg hh, walk_elements, (split_element e h []).1, List.foldl_cons, List.foldl_nil, enter, if_neg, if_neg]
  · rintro rfl
    revert hl
    decide +kernel
  · rintro (rfl | rfl)
    · simp at hl
    · revert hl
      decide +kernel

/-- **C119.** The files of a split disassembly are in the directory given as output, whatever the form of its path; without one they are beside
the file that is disassembled. -/
theorem C119_split (w : World) (args argv : List Bytes) (s : List (Bytes × FlagValue)) (r : List Bytes) (hi : Invokes .disassemble args argv)
    (hl : CommandLine (options .disassemble) args s r) (smf : SMF) (hd : Decodes w s (r.headD []) smf) (ht : ¬ Trackless1 smf)
    (hp : NoText s "templates") (hs : Given s "split" (.bool true)) (x base : Bytes) (hx : NamedAfter s (r.headD []) x) (hb : Stem x base)
    (hc : ∀ name, w.create name = true) (hm : ∀ dir, w.mkdirAll dir = true)
    (hex : ∀ dir, Output s dir → w.isDir dir = true ∨ w.superuser = true) (cwd at_ : List Bytes)
    (hat : (∃ dir, Output s dir ∧ at_ = place cwd dir) ∨
      (NoText s "out" ∧ (∀ d, r.headD [] ∉ [str ".", str "..", d ++ str "/.", d ++ str "/.."]) ∧ ∃ name, place cwd (r.headD []) = name :: at_)) :
    (midiasm w argv).files.map (fun f => place cwd f.1) =
      ((base ++ str ".MThd") :: at_) :: (List.range smf.tracks.length).map fun i => (base ++ str "-" ++ dec i ++ str ".MTrk") :: at_ := by
  obtain ⟨dir, hdir, hplace, hex'⟩ : ∃ dir, SplitDirectory s (r.headD []) dir ∧ place cwd dir = at_ ∧
      (NoText s "out" ∨ w.isDir dir = true ∨ w.superuser = true) := by
    rcases hat with ⟨dir, h1, h2⟩ | ⟨h1, h2, name, h3⟩
    · exact ⟨dir, Or.inl h1, h2.symm, Or.inr (hex dir h1)⟩
    · refine ⟨dirPath (r.headD []), Or.inr ⟨h1, rfl⟩, ?_, Or.inl h1⟩
      have hxf : x = r.headD [] := by
        rcases hx with h | ⟨_, h⟩
        · obtain ⟨g1, g2⟩ := out_given.mp h
          rw [out_empty.mpr h1] at g2
          exact absurd g2.symm g1
        · exact h
      obtain ⟨dir, ext, e1, e2, e3, e4, e5⟩ := id hb
      rw [hxf, List.append_assoc] at e1
      have hslash : str "/." = [47] ++ str "." ∧ str "/.." = [47] ++ str ".." := by decide +kernel
      have hno : ∀ y, (y = str "." ∨ y = str "..") → base ++ ext ≠ y := by
        intro y hy he
        rw [he] at e1
        rcases e2 with rfl | ⟨d, rfl⟩
        · apply h2 []
          rw [e1]
          rcases hy with rfl | rfl <;> simp
        · apply h2 d
          rw [e1, hslash.1, hslash.2]
          rcases hy with rfl | rfl <;> simp
      have := C119_directory cwd (r.headD []) dir (base ++ ext) e1 e2 (by
        simp only [List.mem_append, not_or]
        refine ⟨e3, ?_⟩
        rcases e5 with ⟨rfl, _⟩ | ⟨e, rfl, _, he⟩
        · simp
        · simp only [List.mem_cons, not_or]
          exact ⟨by decide, he⟩) ⟨e4, hno _ (Or.inl rfl), hno _ (Or.inr rfl)⟩
      rw [h3] at this
      exact (List.cons.inj this).2.symm
  obtain ⟨text, header, tracks, _, _, hlen, _, _, hfiles, _⟩ := C100_split w args argv s r hi hl smf hd ht hp hs dir x base hdir hx hb hc (hm dir) hex'
  have hbase : (47 : UInt8) ∉ base := by
    obtain ⟨_, _, _, _, h, _⟩ := hb
    exact h
  have hname : ∀ e : Bytes, 47 ∉ e → 3 ≤ e.length → place cwd (joinPath dir e) = e :: at_ := by
    intro e h1 h2
    rw [C119_join cwd dir e (place_name [] e h1 h2).2, (place_name _ e h1 h2).1, hplace]
  rw [hfiles, List.map_cons, hname _ (by simp only [List.mem_append, not_or]; exact ⟨hbase, by decide +kernel⟩)
    (by simp only [List.length_append, show (str ".MThd").length = 5 by decide +kernel]; omega), ← hlen]
  congr 1
  apply List.ext_getElem?
  intro i
  simp only [List.getElem?_map, List.getElem?_mapIdx]
  rcases Nat.lt_or_ge i tracks.length with h | h
  · rw [List.getElem?_eq_getElem h, List.getElem?_range h]
    simp only [Option.map_some]
    have h47 := slash_free i
    simp only [List.mem_append, not_or] at h47
    rw [hname]
    · simp only [List.mem_append, not_or]
      exact ⟨⟨⟨hbase, h47.1⟩, h47.2.1⟩, h47.2.2⟩
    · simp only [List.length_append, show (str ".MTrk").length = 5 by decide +kernel]
      omega
  · rw [List.getElem?_eq_none h, List.getElem?_eq_none (by simpa using h)]
    rfl

/-- Forms of one path, and a path with more steps up than down. -/
example : place [str "b", str "a"] (str "../c//./d/x.mid") = [str "x.mid", str "d", str "c", str "a"] ∧
    cleanPath (str "../c//./d/../x.mid") = str "../c/x.mid" ∧ dirPath (str "../../x.mid") = str "../.." ∧
    joinPath (str "out/../..") (str "x.MThd") = str "../x.MThd" ∧ place [str "b", str "a"] (str "../x.MThd") = [str "x.MThd", str "a"] := by
  decide +kernel

end Midiasm
