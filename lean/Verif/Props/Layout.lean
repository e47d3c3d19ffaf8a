import Verif.Lemmas.Layout5
import Verif.Props.ProtoText
/-!
C07 on whole files: layout has no influence on the scene read.
-/
namespace Verif.Layout
open Verif.Peg Verif.Grammar Verif.Lin Verif.TextOut

variable {F : Type}

/-- **C07** The scene that a text is read as depends on its words, brackets, braces and strings only, not on blanks, commas,
line ends and comments between them; and so does whether it can be read. -/
theorem C07_layout_irrelevant {lk : Text → Option (Class F)} {fl : Floats F} (hfl : PyFloat fl) {hdr a b : Text} (hh : '\n' ∉ hdr)
    (hab : SameTokens ('\n' :: a) ('\n' :: b)) (sc : Scene F) : Reads lk fl (hdr ++ '\n' :: a) sc ↔ Reads lk fl (hdr ++ '\n' :: b) sc := by
  have key : ∀ a b, SameTokens ('\n' :: a) ('\n' :: b) → Reads lk fl (hdr ++ '\n' :: a) sc → Reads lk fl (hdr ++ '\n' :: b) sc := by
    rintro a b hab ⟨h, s, e, m, n, hd, hdisp⟩
    obtain ⟨h', sm, k, e', sm', k', m', hts, hd', hw, hw', hn⟩ := file_sim hh hab hd
    cases hts
    refine ⟨_, _, _, _, n, hd', ?_⟩
    have hwf : ∀ m k, WFs k → WF (.node .vrmlScene m k) := fun m k h => ⟨(fun h => by cases h), (fun h => by cases h), h⟩
    rw [← disp_same hfl lk (hwf sm k hw) (hwf sm' k' hw') (by simp [norm, isLeaf, isValue, hn])]
    exact hdisp
  exact ⟨key a b hab, key b a hab.symm⟩

/-- **C07** The same for files with prototypes. -/
theorem C07_layout_irrelevant_prototypes {base : Text → Option (Class F)} {fl : Floats F} (hfl : PyFloat fl) {hdr a b : Text} (hh : '\n' ∉ hdr)
    (hab : SameTokens ('\n' :: a) ('\n' :: b)) (f : FSt F) : ReadsFile base fl (hdr ++ '\n' :: a) f ↔ ReadsFile base fl (hdr ++ '\n' :: b) f := by
  have key : ∀ a b, SameTokens ('\n' :: a) ('\n' :: b) → ReadsFile base fl (hdr ++ '\n' :: a) f → ReadsFile base fl (hdr ++ '\n' :: b) f := by
    rintro a b hab ⟨h, sm0, kids, e, m, hd, hread⟩
    obtain ⟨h', sm, k, e', sm', k', m', hts, hd', hw, hw', hn⟩ := file_sim hh hab hd
    cases hts
    refine ⟨_, _, _, _, _, hd', ?_⟩
    rw [← readItems_norm hfl base hw', ← hn, readItems_norm hfl base hw]
    exact hread
  exact ⟨key a b hab, key b a hab.symm⟩

/-- **C07** The header line has no influence either, whatever it is. -/
theorem C07_header_irrelevant {lk : Text → Option (Class F)} {fl : Floats F} {hdr hdr' a : Text} (hh : '\n' ∉ hdr) (hh' : '\n' ∉ hdr') (sc : Scene F) :
    Reads lk fl (hdr ++ '\n' :: a) sc ↔ Reads lk fl (hdr' ++ '\n' :: a) sc := by
  have key : ∀ hdr hdr', '\n' ∉ hdr → '\n' ∉ hdr' → Reads lk fl (hdr ++ '\n' :: a) sc → Reads lk fl (hdr' ++ '\n' :: a) sc := by
    rintro hdr hdr' hh hh' ⟨h, s, e, m, n, hd, hdisp⟩
    obtain ⟨h1, h2⟩ : ∃ m, Der gram (gram .vrmlFile) (hdr' ++ '\n' :: a) (.ok [.node .header hdr' [], s, e] m []) := by
      generalize hts : [h, s, e] = ts at hd
      cases hd with
      | @seq _ _ _ t1 m1 r1 t2 m2 _ h1 h2 =>
        have := h1.det _ (header_der hh)
        cases this
        have e2 : t2 = [s, e] := by simp only [List.cons_append, List.nil_append, List.cons.injEq] at hts; exact hts.2.symm
        subst e2
        exact ⟨_, .seq (header_der hh') h2⟩
    exact ⟨_, _, _, _, n, h2, hdisp⟩
  exact ⟨key hdr hdr' hh hh', key hdr' hdr hh' hh⟩

theorem exFloats_py : PyFloat exFloats := fun _ h => int_bad h

theorem word_same (s : List Char) {a b} (hs : ∀ c ∈ s, c ∉ specials) (h : SameTokens a b) : SameTokens (s ++ a) (s ++ b) := by
  induction s with
  | nil => exact h
  | cons c s ih => exact .char (hs c (by simp)) (ih (fun d hd => hs d (by simp [hd])))

theorem mark_same (c : Char) (hc : c ∈ ['[', ']', '{', '}']) (b b' : List Char) (hb : Ignorable b) (hb' : Ignorable b') {r r'} (h : SameTokens r r') :
    SameTokens (c :: (b ++ r)) (c :: (b' ++ r')) := .mark (a := []) (a' := []) (.bracket hc) .nil .nil hb hb' h

theorem blank_ign (s : List Char) (h : ∀ c ∈ s, c ∈ [' ', ',', '\t', '\n', '\x0b', '\x0c', '\r']) : Ignorable s := by
  induction s with
  | nil => exact .nil
  | cons c s ih => exact .blank (h c (by simp)) (ih (fun d hd => h d (by simp [hd])))

def exTight : Text := chars "Group{children[]}"
def exSpaced : Text := chars " # a group {\n Group{\n\tchildren[ , # none\n]}\r\n"

/-- two texts of the same words, brackets and braces -/
theorem exLayout_same : SameTokens ('\n' :: exTight) ('\n' :: exSpaced) := by
  have b1 : Ignorable ('\n' :: chars " # a group {\n ") :=
    .blank (by decide) (.blank (by decide) (.comment (body := chars " a group {") (by decide) (.blank (by decide) .nil)))
  have b2 : Ignorable (chars " , # none\n") :=
    .blank (by decide) (.blank (by decide) (.blank (by decide) (.comment (body := chars " none") (by decide) .nil)))
  exact .gap (w := ['\n']) (w' := '\n' :: chars " # a group {\n ") (blank_ign _ (by decide)) b1 (by simp) (by simp)
    (word_same (chars "Group") (by decide)
      (mark_same '{' (by decide) [] (chars "\n\t") .nil (blank_ign _ (by decide))
        (word_same (chars "children") (by decide)
          (mark_same '[' (by decide) [] (chars " , # none\n") .nil b2
            (mark_same ']' (by decide) [] [] .nil .nil
              (mark_same '}' (by decide) [] (chars "\r\n") .nil (blank_ign _ (by decide)) (.same [])))))))

example : ∃ sc, Reads exLookup exFloats (chars "#VRML V2.0 utf8" ++ '\n' :: exTight) sc ∧ Reads exLookup exFloats (chars "#VRML V2.0 utf8" ++ '\n' :: exSpaced) sc := by
  obtain ⟨sc, h⟩ := (reads_fact (lk := exLookup) (fl := exFloats) (fuel := 300) (text := chars "#VRML V2.0 utf8" ++ '\n' :: exTight)
    (f := fun s => s.children) (x := [0]) (by decide +kernel)).1
  exact ⟨sc, h, (C07_layout_irrelevant exFloats_py (by decide) exLayout_same sc).1 h⟩

end Verif.Layout
