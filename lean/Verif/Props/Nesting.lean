import Verif.Lemmas.Nesting
import Verif.Model.Lineariser
/-!
C72: the texts the parser accepts are properly nested.
-/
namespace Verif.Nesting
open Verif.Peg Verif.Grammar Verif.TextOut Verif.Lin

/-! ### Specification -/

/-- The text from the end of its first line on (the parser takes the first line for the header). -/
def body (text : Text) : Text := text.dropWhile (fun c => c != '\n')

/-- The parser accepts the whole text as a file. -/
def Accepted (text : Text) : Prop := ∃ t m, Der gram (gram .vrmlFile) text (.ok t m [])

/-! ### Proofs -/

/-- `Occurs`, computed -/
def occursB (w : Text) : Mode → Text → Bool
  | m, [] => decide (m = .plain ∧ w = [])
  | m, c :: t => (decide (m = .plain) && w.isPrefixOf (c :: t)) || occursB w (modeStep m c) t

theorem occursB_of : ∀ (pre : Text) (w suf : Text) (m : Mode), mode m pre = .plain → occursB w m (pre ++ (w ++ suf)) = true := by
  intro pre
  induction pre with
  | nil =>
    intro w suf m hm
    have hm : m = .plain := hm
    rw [List.nil_append]
    cases h : w ++ suf with
    | nil => simp [occursB, hm, (List.append_eq_nil_iff.1 h).1]
    | cons c t => simp only [occursB, hm, decide_true, Bool.true_and, Bool.or_eq_true]; left; rw [← h]; simp
  | cons c pre ih =>
    intro w suf m hm
    simp only [List.cons_append, occursB, Bool.or_eq_true]
    exact .inr (ih w suf _ hm)

theorem not_occurs {w t : Text} (h : occursB w .plain t = false) : ¬ Occurs w t := by
  rintro ⟨pre, suf, rfl, hp⟩
  rw [occursB_of pre w suf _ hp] at h; cases h

theorem dropWhile_line {hdr r : Text} (hh : '\n' ∉ hdr) (hr : r = [] ∨ ∃ s, r = '\n' :: s) : body (hdr ++ r) = r := by
  induction hdr with
  | nil => rcases hr with rfl | ⟨s, rfl⟩ <;> simp [body]
  | cons c hdr ih =>
    have h1 : c ≠ '\n' := fun e => hh (by simp [e])
    have h2 := ih (fun e => hh (by simp [e]))
    simp only [body, List.cons_append, List.dropWhile_cons] at h2 ⊢
    simp [h1, h2]

/-! ### C72 -/

/-- **Accepted texts are nested**: for every text the parser accepts and in which the word EXTERNPROTO does not occur (outside strings
and comments), after the first line every bracket and brace that is opened is closed, in order, and every string and every
comment is ended. -/
theorem C72_accepted_nested {text : Text} (h : Accepted text) (hx : ¬ Occurs (chars "EXTERNPROTO") (body text)) :
    Nested (body text) := by
  obtain ⟨t, m, h⟩ := h
  obtain ⟨hdr, b, ts, rfl, h1, h2, h3⟩ := file_split h
  rw [dropWhile_line h1 h2] at hx ⊢
  exact scene_nested h3 hx

/-- Conversely, a text that is not nested is a syntax error. -/
theorem C72_unnested_rejected {text : Text} (hn : ¬ Nested (body text)) (hx : ¬ Occurs (chars "EXTERNPROTO") (body text)) :
    Der gram (gram .vrmlFile) text .err := by
  rcases C08_file_all_or_error text with h | h
  · obtain ⟨ts, h⟩ := h
    cases h with
    | nt h => exact absurd (C72_accepted_nested ⟨_, _, h⟩ hx) hn
  · cases h with
    | ntErr h => exact h

/-- A file with a string and a comment containing brackets. -/
def exNested : Text := chars "#VRML V2.0 utf8\nGroup { children [ Text { string [ \"a]\\\"\" ] } # }}\n ] }\n"

example : Accepted exNested ∧ ¬ Occurs (chars "EXTERNPROTO") (body exNested) :=
  ⟨⟨_, _, run_sound 90 _ _ _ (by rfl)⟩, not_occurs (by decide)⟩

/-- One closing bracket is missing. -/
def exOpen : Text := chars "#VRML V2.0 utf8\nGroup { children [ Text { string [ \"a]\" } ] }\n"

example : Der gram (gram .vrmlFile) exOpen .err :=
  C72_unnested_rejected (by unfold Nested; decide) (not_occurs (by decide))

/-- An EXTERNPROTO whose list of addresses is opened and not closed. -/
def exExtern : Text := chars "#VRML V2.0 utf8\nEXTERNPROTO A [ ] [ \"u\" "

/-- The restriction is needed: the addresses of an EXTERNPROTO may be opened without being closed. -/
theorem C72_refuted_externproto : Accepted exExtern ∧ ¬ Nested (body exExtern) :=
  ⟨⟨_, _, run_sound 90 _ _ _ (by rfl)⟩, by unfold Nested; decide⟩

end Verif.Nesting
