import Verif.Props.Number
import Mathlib.Data.List.Forall2
/-
C02, C04, C05: text forms of lists are read back.
-/
namespace Verif.ListText
open Verif.Peg Verif.Grammar Verif.TextOut Verif.ParseVal Verif.Text Verif.Number

/-! ### Separated texts (specification) -/

/-- `SepText S l m`: the text `m` is the texts of `l`, in order, with a separator satisfying `S` between
neighbours and nothing else. -/
inductive SepText (S : List Char → Prop) : List (List Char) → List Char → Prop
  | nil : SepText S [] []
  | one (t) : SepText S [t] t
  | cons {t s u l m} : S s → SepText S (u :: l) m → SepText S (t :: u :: l) (t ++ (s ++ m))

theorem SepText.join {S : List Char → Prop} {sep : List Char} (hs : S sep) (l : List (List Char)) :
    SepText S l (pyJoin sep l) := by
  induction l with
  | nil => exact .nil
  | cons a l ih => cases l with
    | nil => exact .one a
    | cons b l => exact .cons hs ih

theorem SepText.append {S : List Char → Prop} {s : List Char} (hs : S s) {l1 m1 l2 m2} (h1 : SepText S l1 m1)
    (h2 : SepText S l2 m2) (n1 : l1 ≠ []) (n2 : l2 ≠ []) : SepText S (l1 ++ l2) (m1 ++ (s ++ m2)) := by
  induction h1 with
  | nil => exact absurd rfl n1
  | one t =>
    cases l2 with
    | nil => exact absurd rfl n2
    | cons u l => exact .cons hs h2
  | @cons t s' u l m hs' _ ih =>
    have := ih (by simp)
    rw [List.append_assoc, List.append_assoc]
    exact .cons hs' this

/-- joining the texts of non-empty groups -/
theorem SepText.joins {S : List Char → Prop} {s : List Char} (hs : S s) :
    ∀ {gs : List (List (List Char))} {ms : List (List Char)},
      List.Forall₂ (fun g m => g ≠ [] ∧ SepText S g m) gs ms → SepText S gs.flatten (pyJoin s ms) := by
  intro gs ms h
  induction h with
  | nil => exact .nil
  | @cons g m gs ms h hs' ih =>
    cases hs' with
    | nil => simpa [pyJoin] using h.2
    | @cons g' m' gs' ms' h' hs'' =>
      simp only [List.flatten_cons, pyJoin] at ih ⊢
      exact SepText.append hs h.2 ih h.1 (by simp [h'.1])

theorem SepText.mono {S S' : List Char → Prop} (h : ∀ s, S s → S' s) {l m} (hs : SepText S l m) : SepText S' l m := by
  induction hs with
  | nil => exact .nil
  | one t => exact .one t
  | cons hs _ ih => exact .cons (h _ hs) ih

/-- what the chunking loop produces: consecutive non-empty groups, each joined -/
theorem chunkJoin_spec (n : Nat) (hn : 0 < n) (sep : List Char) : ∀ (k : Nat) (l : List (List Char)), l.length ≤ k →
    ∃ gs out, chunkJoin n sep l = some out ∧ gs.flatten = l ∧
      List.Forall₂ (fun g m => g ≠ [] ∧ m = pyJoin sep g) gs out := by
  obtain ⟨m, rfl⟩ : ∃ m, n = m + 1 := ⟨n - 1, by omega⟩
  intro k
  induction k with
  | zero =>
    intro l hl
    have : l = [] := List.eq_nil_of_length_eq_zero (by omega)
    subst this
    exact ⟨[], [], by simp [chunkJoin], rfl, .nil⟩
  | succ k ih =>
    intro l hl
    cases l with
    | nil => exact ⟨[], [], by simp [chunkJoin], rfl, .nil⟩
    | cons a l =>
      obtain ⟨gs, out, h1, h2, h3⟩ := ih (l.drop m) (by simp at hl ⊢; omega)
      refine ⟨(a :: l).take (m + 1) :: gs, _, by simp only [chunkJoin, h1], ?_, .cons ⟨by simp, rfl⟩ h3⟩
      simp [h2]

/-! ### Reading runs of items -/

/-- `t` is read by `a` as one tree satisfying `Q`, before any text satisfying `End`. -/
structure Item (a : E) (End : List Char → Prop) (Q : Tree NT → Prop) (t : List Char) : Prop where
  mean : ∀ r, Meaningful (t ++ r)
  ne : t ≠ []
  der : ∀ r, End r → ∃ tr, Der gram a (t ++ r) (.ok [tr] t r) ∧ Q tr

/-- A run of items followed by ignorable text and something that is not an item. -/
theorem star_list {a : E} {S End : List Char → Prop} {Q : List Char → Tree NT → Prop}
    (hS : ∀ s, S s → Ignorable s) (hE : ∀ s r, S s → Meaningful r → End (s ++ r))
    {w rest : List Char} (hw : Ignorable w) (hrest : Meaningful rest) (hEnd : End (w ++ rest))
    (hfail : Der gram a rest .fail) {l m} (h : SepText S l m) :
    (∀ t ∈ l, Item a End (Q t) t) → l ≠ [] →
    ∃ kids, Der gram (.star (.seq a ws)) (m ++ (w ++ rest)) (.ok kids (m ++ w) rest) ∧ List.Forall₂ Q l kids ∧
      Meaningful (m ++ (w ++ rest)) := by
  induction h with
  | nil => intro _ h; exact absurd rfl h
  | one t =>
    intro hi _
    have ht := hi t (by simp)
    obtain ⟨tr, h1, h2⟩ := ht.der _ hEnd
    have h3 : Der gram (.seq a ws) (t ++ (w ++ rest)) _ := .seq h1 (C07_ignorable_skipped hw hrest)
    have h4 := Der.starCons h3 (by simp [ht.ne]) (.starNil (.seqFail1 hfail))
    exact ⟨[tr], by simpa using h4, .cons h2 .nil, ht.mean _⟩
  | @cons t s u l m hs _ ih =>
    intro hi _
    obtain ⟨kids, h1, h2, h3⟩ := ih (fun x hx => hi x (by simp [hx])) (by simp)
    have ht := hi t (by simp)
    obtain ⟨tr, h4, h5⟩ := ht.der _ (hE s _ hs h3)
    have h6 : Der gram (.seq a ws) (t ++ (s ++ (m ++ (w ++ rest)))) _ := .seq h4 (C07_ignorable_skipped (hS s hs) h3)
    have h7 := Der.starCons h6 (by simp [ht.ne]) h1
    exact ⟨tr :: kids, by simpa using h7, .cons h5 h2, by simpa using ht.mean _⟩

theorem plus_of_star {a : E} {i ts m r} (h : Der gram (.star a) i (.ok ts m r)) (h0 : m ≠ []) :
    Der gram (.plus a) i (.ok ts m r) := by
  cases h with
  | starNil => exact absurd rfl h0
  | starCons h1 _ h2 => exact .seq h1 h2

/-- a text starting with a given character -/
theorem meaningful_head {c : Char} {s : List Char} (h1 : isBlank c = false) (h2 : c ≠ '#') : Meaningful (c :: s) := by
  constructor
  · intro d t h
    cases h
    intro hc
    rw [(isBlank_iff c).2 hc] at h1
    cases h1
  · intro t h; cases h; exact absurd rfl h2

theorem meaningful_nil : Meaningful [] := by
  constructor
  · intro d t h; cases h
  · intro t h; cases h

theorem item_fail_bracket (s : List Char) : Der gram fieldItem (']' :: s) .fail := run_sound 30 _ _ _ (by rfl)

/-- A bracketed field value. -/
theorem field_bracketed {S End : List Char → Prop} {Q : List Char → Tree NT → Prop}
    (hS : ∀ s, S s → Ignorable s) (hE : ∀ s r, S s → Meaningful r → End (s ++ r))
    {w0 w1 w r : List Char} (hw0 : Ignorable w0) (hw1 : Ignorable w1) (hw : Ignorable w) (hr : Meaningful r)
    (hEnd : ∀ r, End (w1 ++ ']' :: r)) {l m} (h : SepText S l m)
    (hi : ∀ t ∈ l, Item fieldItem End (Q t) t) :
    ∃ kids, Der gram (.nt .field) ('[' :: (w0 ++ (m ++ (w1 ++ (']' :: (w ++ r))))))
      (.ok [.node .field ('[' :: (w0 ++ (m ++ (w1 ++ (']' :: w))))) kids]
        ('[' :: (w0 ++ (m ++ (w1 ++ (']' :: w))))) r) ∧ List.Forall₂ Q l kids := by
  have hbm : ∀ s, Meaningful (']' :: s) := fun s => meaningful_head (by decide) (by decide)
  obtain ⟨kids, w0', m', hd, hq, hw0', hm, hcat⟩ : ∃ kids w0' m',
      Der gram (.star (.seq fieldItem ws)) (m' ++ (']' :: (w ++ r))) (.ok kids m' (']' :: (w ++ r))) ∧
      List.Forall₂ Q l kids ∧ Ignorable w0' ∧ Meaningful (m' ++ (']' :: (w ++ r))) ∧ w0' ++ m' = w0 ++ (m ++ w1) := by
    by_cases hl : l = []
    · subst hl
      cases h
      exact ⟨[], w0 ++ w1, [], .starNil (.seqFail1 (item_fail_bracket _)), .nil, hw0.append hw1, hbm _, by simp⟩
    · obtain ⟨kids, h1, h2, h3⟩ := star_list hS hE hw1 (hbm (w ++ r)) (hEnd _) (item_fail_bracket _) h hi hl
      exact ⟨kids, w0, m ++ w1, by simpa using h1, h2, hw0, by simpa using h3, by simp⟩
  have h1 : Der gram (gram .field) (['['] ++ (w0' ++ (m' ++ ([']'] ++ (w ++ r))))) _ :=
    .altL (.seq (.lit ['['] _) (.seq (C07_ignorable_skipped hw0' hm) (.seq hd
      (.seq (.cut (.lit [']'] _)) (C07_ignorable_skipped hw hr)))))
  have h2 := Der.nt (g := gram) (n := NT.field) h1
  refine ⟨kids, ?_, hq⟩
  have e1 : ∀ x, w0' ++ (m' ++ x) = w0 ++ (m ++ (w1 ++ x)) := by
    intro x
    have := congrArg (· ++ x) hcat
    simpa using this
  simp only [List.nil_append, List.append_nil, List.cons_append, e1] at h2
  exact h2

/-- An unbracketed field value, before a text that is not a value. -/
theorem field_plain {S End : List Char → Prop} {Q : List Char → Tree NT → Prop}
    (hS : ∀ s, S s → Ignorable s) (hE : ∀ s r, S s → Meaningful r → End (s ++ r))
    {w r : List Char} (hw : Ignorable w) (hr : Meaningful r) (hno : Der gram fieldItem1 r .fail)
    (hEnd : End (w ++ r)) {l m} (h : SepText S l m) (hl : l ≠ [])
    (hi : ∀ t ∈ l, Item fieldItem1 End (Q t) t) (hb : ∀ t, m ≠ '[' :: t) (hm0 : m ≠ []) :
    ∃ kids, Der gram (.nt .field) (m ++ (w ++ r)) (.ok [.node .field (m ++ w) kids] (m ++ w) r) ∧ List.Forall₂ Q l kids := by
  obtain ⟨kids, h1, h2, h3⟩ := star_list hS hE hw hr hEnd hno h hi hl
  have hp := plus_of_star h1 (by simp [hm0])
  have hf : Der gram (gram .field) (m ++ (w ++ r)) (.ok kids (m ++ w) r) := by
    refine .altR (.seqFail1 ?_) hp
    cases m with
    | nil => exact absurd rfl hm0
    | cons c t => exact lit_fail1 (fun hc => hb t (by rw [hc]))
  exact ⟨kids, Der.nt (g := gram) (n := NT.field) hf, h2⟩

/-! ### Items -/

theorem expChar_props {c : Char} (h : isExpChar c = true) : isBlank c = false ∧ c ≠ '#' ∧ c ≠ '[' ∧ c ≠ '"' := by
  refine ⟨?_, ?_, ?_, ?_⟩
  · cases hb : isBlank c with
    | false => rfl
    | true =>
      have := (isBlank_iff c).1 hb
      simp only [List.mem_cons, List.not_mem_nil, or_false] at this
      rcases this with rfl | rfl | rfl | rfl | rfl | rfl | rfl <;> exact absurd h (by decide)
  all_goals (intro hc; subst hc; exact absurd h (by decide))

theorem num_mean {t : List Char} (h : NumTok t) (r : List Char) : Meaningful (t ++ r) := by
  obtain ⟨c, s, rfl, hc⟩ := h.head
  exact meaningful_head (expChar_props hc).1 (expChar_props hc).2.1

/-- a number, in brackets -/
theorem num_item {t : List Char} (h : NumTok t) : Item fieldItem NumEnd (fun tr => tr = .node .sfNumber t []) t := by
  refine ⟨num_mean h, h.ne_nil, fun r hr => ⟨_, .altR ?_ (.altL (sfNumber_der h hr)), rfl⟩⟩
  obtain ⟨c, s, rfl, hc⟩ := h.head
  exact .ntFail (.seqFail1 (lit_fail1 (Ne.symm (expChar_props hc).2.2.1)))

/-- a number, without brackets -/
theorem num_item1 {t : List Char} (h : NumTok t) : Item fieldItem1 NumEnd (fun tr => tr = .node .sfNumber t []) t :=
  ⟨num_mean h, h.ne_nil, fun _ hr => ⟨_, .altL (sfNumber_der h hr), rfl⟩⟩

theorem str_head (s : List Char) : ∃ t, sfStringStr s = '"' :: t := by
  rw [sfStringStr_eq]; exact ⟨_, rfl⟩

theorem str_item (s : List Char) :
    Item fieldItem (fun _ => True) (fun tr => decodeString (ParseVal.Tree.kids tr) = s ∧ ParseVal.Tree.tag tr = .sfString) (sfStringStr s) := by
  refine ⟨?_, ?_, ?_⟩
  · intro r
    obtain ⟨t, ht⟩ := str_head s
    rw [ht]; exact meaningful_head (by decide) (by decide)
  · obtain ⟨t, ht⟩ := str_head s
    simp [ht]
  · intro r _
    obtain ⟨kids, h1, h2⟩ := sfString_der s r
    refine ⟨_, .altR ?_ (.altR ?_ (.altR ?_ (.altL h1))), h2, rfl⟩ <;>
    · obtain ⟨t, ht⟩ := str_head s
      rw [ht]
      exact run_sound 20 _ _ _ (by rfl)

theorem str_item1 (s : List Char) :
    Item fieldItem1 (fun _ => True) (fun tr => decodeString (ParseVal.Tree.kids tr) = s ∧ ParseVal.Tree.tag tr = .sfString) (sfStringStr s) := by
  refine ⟨(str_item s).mean, (str_item s).ne, ?_⟩
  intro r _
  obtain ⟨kids, h1, h2⟩ := sfString_der s r
  refine ⟨_, .altR ?_ (.altR ?_ (.altR ?_ (.altL h1))), h2, rfl⟩ <;>
  · obtain ⟨t, ht⟩ := str_head s
    rw [ht]
    exact run_sound 20 _ _ _ (by rfl)

/-- separators between numbers: ignorable and not empty -/
def NumSep (s : List Char) : Prop := Ignorable s ∧ s ≠ []

theorem numEnd_of_ignorable {s r : List Char} (h : Ignorable s) (h0 : s ≠ []) : NumEnd (s ++ r) := by
  cases h with
  | nil => exact absurd rfl h0
  | blank hc _ =>
    intro d t ht
    simp at ht
    rw [← ht.1]
    simp only [List.mem_cons, List.not_mem_nil, or_false] at hc
    rcases hc with rfl | rfl | rfl | rfl | rfl | rfl | rfl <;> decide
  | comment _ _ =>
    intro d t ht
    simp at ht
    rw [← ht.1]
    decide

/-! ### MFString -/

/-- Formatting options made of ignorable text. -/
structure PlainOptions (lv : LinValues) : Prop where
  subelspacer : Ignorable lv.subelspacer
  curindent : Ignorable lv.curindent
  indent : Ignorable lv.indent
  numsep : Ignorable lv.numsep
  fullSep : Ignorable lv.fullSep
  courtesyspace : Ignorable lv.courtesyspace
  numsep_ne : lv.numsep ≠ []
  subelspacer_ne : lv.subelspacer ≠ []

theorem plain_defaults : PlainOptions defaults := by
  refine ⟨?_, ?_, ?_, ?_, ?_, ?_, ?_, ?_⟩ <;>
    first | decide | exact .nil | exact .blank (by decide) .nil | exact .blank (by decide) (.blank (by decide) .nil)

theorem plain_minimal1 : PlainOptions minimal1 := by
  refine ⟨?_, ?_, ?_, ?_, ?_, ?_, ?_, ?_⟩ <;>
    first | decide | exact .nil | exact .blank (by decide) .nil | exact .blank (by decide) (.blank (by decide) .nil)

theorem forall2_strings {value : List (List Char)} {kids : List (Tree NT)}
    (h : List.Forall₂ (fun t tr => ∃ s, t = sfStringStr s ∧ decodeString (ParseVal.Tree.kids tr) = s ∧ ParseVal.Tree.tag tr = .sfString)
      (value.map sfStringStr) kids) : ParseVal.mfString kids = value := by
  induction value generalizing kids with
  | nil => cases h; rfl
  | cons s value ih =>
    cases h with
    | cons h1 h2 =>
      obtain ⟨s', e1, e2, -⟩ := h1
      have : s = s' := (C01_sfstring_selfdelimiting (r := []) (r' := []) (by rw [e1])).1
      subst this
      simp only [ParseVal.mfString, List.map_cons, e2] at ih ⊢
      rw [ih h2]

theorem strings_item (value : List (List Char)) (t) (ht : t ∈ value.map sfStringStr) :
    Item fieldItem (fun _ => True) (fun tr => ∃ s, t = sfStringStr s ∧ decodeString (ParseVal.Tree.kids tr) = s ∧ ParseVal.Tree.tag tr = .sfString) t := by
  obtain ⟨s, -, rfl⟩ := List.mem_map.1 ht
  have := str_item s
  exact ⟨this.mean, this.ne, fun r hr => by obtain ⟨tr, h1, h2⟩ := this.der r hr; exact ⟨tr, h1, s, rfl, h2⟩⟩

theorem strings_item1 (value : List (List Char)) (t) (ht : t ∈ value.map sfStringStr) :
    Item fieldItem1 (fun _ => True) (fun tr => ∃ s, t = sfStringStr s ∧ decodeString (ParseVal.Tree.kids tr) = s ∧ ParseVal.Tree.tag tr = .sfString) t := by
  obtain ⟨s, -, rfl⟩ := List.mem_map.1 ht
  have := str_item1 s
  exact ⟨this.mean, this.ne, fun r hr => by obtain ⟨tr, h1, h2⟩ := this.der r hr; exact ⟨tr, h1, s, rfl, h2⟩⟩

theorem sp_ign : Ignorable [' '] := .blank (by decide) .nil
theorem nl_ign : Ignorable ['\n'] := .blank (by decide) .nil

/-- every element preceded by the separator -/
theorem sepText_prefixed {sep : List Char} (hs : Ignorable sep) (l : List (List Char)) (hl : l ≠ []) :
    ∃ m, (l.map (fun el => sep ++ el)).flatten = sep ++ m ∧ SepText Ignorable l m := by
  cases l with
  | nil => exact absurd rfl hl
  | cons a l =>
    induction l generalizing a with
    | nil => exact ⟨a, by simp, .one a⟩
    | cons b l ih =>
      obtain ⟨m, h1, h2⟩ := ih b (by simp)
      refine ⟨a ++ (sep ++ m), ?_, .cons hs h2⟩
      simp only [List.map_cons, List.flatten_cons] at h1 ⊢
      rw [h1]; simp

/-- the trees are strings -/
theorem forall2_tags {l : List (List Char)} {kids : List (Tree NT)}
    (h : List.Forall₂ (fun t tr => ∃ s, t = sfStringStr s ∧ decodeString (ParseVal.Tree.kids tr) = s ∧ ParseVal.Tree.tag tr = .sfString) l kids) :
    ∀ k ∈ kids, ParseVal.Tree.tag k = .sfString := by
  induction h with
  | nil => simp
  | cons h1 _ ih =>
    obtain ⟨s, -, -, h4⟩ := h1
    intro k hk
    rcases List.mem_cons.1 hk with rfl | hk
    · exact h4
    · exact ih k hk

/-- The text of a list of strings is read back, as a field of strings. -/
theorem mfstring_der {lv : LinValues} (hlv : PlainOptions lv) (value : List (List Char))
    {w r : List Char} (hw : Ignorable w) (hr : Meaningful r)
    (hno : value.length = 1 → Der gram fieldItem1 r .fail) : ∃ t,
    Der gram (.nt .field) (mfStringStr lv value ++ (w ++ r)) (.ok [t] (mfStringStr lv value ++ w) r) ∧
    ParseVal.mfString (ParseVal.Tree.kids t) = value ∧ ∀ k ∈ ParseVal.Tree.kids t, ParseVal.Tree.tag k = .sfString := by
  have hbr : ∀ {w0 w1 w2 m}, Ignorable w0 → Ignorable w1 → Ignorable w2 → SepText Ignorable (value.map sfStringStr) m →
      ∃ t, Der gram (.nt .field) ('[' :: (w0 ++ (m ++ (w1 ++ (']' :: w2)))) ++ (w ++ r))
        (.ok [t] ('[' :: (w0 ++ (m ++ (w1 ++ (']' :: w2)))) ++ w) r) ∧ ParseVal.mfString (ParseVal.Tree.kids t) = value ∧ ∀ k ∈ ParseVal.Tree.kids t, ParseVal.Tree.tag k = .sfString := by
    intro w0 w1 w2 m h0 h1 h2 hm
    obtain ⟨kids, hd, hq⟩ := field_bracketed (S := Ignorable) (End := fun _ => True) (fun _ h => h) (fun _ _ _ _ => trivial)
      h0 h1 (h2.append hw) hr (fun _ => trivial) hm (strings_item value)
    refine ⟨_, by simpa using hd, ?_⟩
    exact ⟨forall2_strings hq, forall2_tags hq⟩
  have hpl : ∀ s, value = [s] → ∃ t,
      Der gram (.nt .field) (sfStringStr s ++ (w ++ r)) (.ok [t] (sfStringStr s ++ w) r) ∧
      ParseVal.mfString (ParseVal.Tree.kids t) = value ∧ ∀ k ∈ ParseVal.Tree.kids t, ParseVal.Tree.tag k = .sfString := by
    intro s hs
    subst hs
    obtain ⟨t0, ht0⟩ := str_head s
    obtain ⟨kids, hd, hq⟩ := field_plain (S := Ignorable) (End := fun _ => True) (fun _ h => h) (fun _ _ _ _ => trivial)
      hw hr (hno rfl) trivial (SepText.one (sfStringStr s)) (by simp) (strings_item1 [s]) (by rw [ht0]; simp) (by simp [ht0])
    exact ⟨_, hd, forall2_strings (value := [s]) hq, forall2_tags hq⟩
  unfold mfStringStr
  split
  · rename_i h0
    have hm : SepText Ignorable (value.map sfStringStr) [] := by subst h0; exact .nil
    simpa using hbr (w0 := [' ']) (w1 := []) (w2 := []) sp_ign .nil .nil hm
  · rename_i h0
    simp only
    split
    · split
      · rename_i h1
        have hsep : Ignorable (lv.subelspacer ++ ['\n'] ++ lv.curindent ++ lv.indent) :=
          ((hlv.subelspacer.append nl_ign).append hlv.curindent).append hlv.indent
        obtain ⟨m, e1, e2⟩ := sepText_prefixed hsep (value.map sfStringStr) (by simpa using h0)
        have := hbr hsep (nl_ign.append hlv.curindent) nl_ign e2
        rw [e1]
        simpa using this
      · rename_i h1
        obtain ⟨s, hs⟩ : ∃ s, value = [s] := by
          simp only [List.length_map, gt_iff_lt, not_lt] at h1
          cases hv : value with
          | nil => exact absurd hv h0
          | cons a l => cases l with
            | nil => exact ⟨a, rfl⟩
            | cons b l => rw [hv] at h1; simp at h1
        have := hpl s hs
        rw [hs] at this ⊢
        simpa using this
    · split
      · rename_i h1
        have := hbr sp_ign sp_ign .nil (SepText.join hlv.subelspacer (value.map sfStringStr))
        simpa using this
      · rename_i h1
        obtain ⟨s, hs⟩ : ∃ s, value = [s] := by
          simp only [List.length_map, gt_iff_lt, not_lt] at h1
          cases hv : value with
          | nil => exact absurd hv h0
          | cons a l => cases l with
            | nil => exact ⟨a, rfl⟩
            | cons b l => rw [hv] at h1; simp at h1
        have := hpl s hs
        rw [hs] at this ⊢
        simpa [pyJoin] using this

/-- **C02** For every list of strings and every formatting options made of ignorable text, the field rule
followed by the MFString conversion gives back the list, consuming exactly the written text and the ignorable
text `w` after it.  A single string is written without brackets, where the rule would go on reading values: the
text that follows must not be another value. -/
theorem C02_mfstring_roundtrip {lv : LinValues} (hlv : PlainOptions lv) (value : List (List Char))
    {w r : List Char} (hw : Ignorable w) (hr : Meaningful r)
    (hno : value.length = 1 → Der gram fieldItem1 r .fail) : ∃ t,
    Der gram (.nt .field) (mfStringStr lv value ++ (w ++ r)) (.ok [t] (mfStringStr lv value ++ w) r) ∧
    ParseVal.mfString (ParseVal.Tree.kids t) = value := by
  obtain ⟨t, h1, h2, -⟩ := mfstring_der hlv value hw hr hno
  exact ⟨t, h1, h2⟩

/-- a text that starts no value: used to instantiate the last hypothesis of C02 -/
theorem no_value_brace (s : List Char) : Der gram fieldItem1 ('}' :: s) .fail := run_sound 30 _ _ _ (by rfl)
theorem no_value_end : Der gram fieldItem1 [] .fail := run_sound 30 _ _ _ (by rfl)

example : mfStringStr defaults [['a'], ['b', '"']] = ['[', ' ', '"', 'a', '"', ',', ' ', '"', 'b', '\\', '"', '"', ' ', ']'] := by
  decide

/-! ### Lists of numbers -/

theorem allSome_map {α β γ : Type} {f : β → Option γ} {g : α → β} (l : List α) :
    allSome f (l.map g) = allSome (fun a => f (g a)) l := by
  induction l with
  | nil => rfl
  | cons a l ih => simp [allSome, ih]

theorem allSome_of {α β : Type} {f : α → Option β} {g : β → α} (h : ∀ b, f (g b) = some b) (l : List β) :
    allSome (fun b => f (g b)) l = some l := by
  induction l with
  | nil => rfl
  | cons a l ih => simp only [allSome, ih]; simp only [h]

theorem allSome_on {α β : Type} {f : α → Option β} {g : β → α} (l : List β) (h : ∀ b ∈ l, f (g b) = some b) :
    allSome (fun b => f (g b)) l = some l := by
  induction l with
  | nil => rfl
  | cons a l ih => simp only [allSome, ih (fun b hb => h b (by simp [hb]))]; simp only [h a (by simp)]

theorem forall2_numbers {l : List (List Char)} {kids : List (Tree NT)}
    (h : List.Forall₂ (fun t tr => tr = .node .sfNumber t []) l kids) : kids = l.map (fun t => .node .sfNumber t []) := by
  induction h with
  | nil => rfl
  | cons h1 _ ih => simp [h1, ih]

/-- Reading a bracketed, separated list of number texts. -/
theorem numbers_der {w0 w1 w2 w r m : List Char} {l : List (List Char)} (h0 : Ignorable w0) (h1 : Ignorable w1)
    (h2 : Ignorable w2) (hw : Ignorable w) (hr : Meaningful r) (hm : SepText NumSep l m) (hl : ∀ t ∈ l, NumTok t) :
    ∃ t, Der gram (.nt .field) ('[' :: (w0 ++ (m ++ (w1 ++ (']' :: w2)))) ++ (w ++ r))
        (.ok [t] ('[' :: (w0 ++ (m ++ (w1 ++ (']' :: w2)))) ++ w) r) ∧
      ParseVal.Tree.kids t = l.map (fun t => .node .sfNumber t []) := by
  obtain ⟨kids, hd, hq⟩ := field_bracketed (S := NumSep) (End := NumEnd) (Q := fun t tr => tr = .node .sfNumber t [])
    (fun _ h => h.1) (fun s r hs _ => numEnd_of_ignorable hs.1 hs.2)
    h0 h1 (h2.append hw) hr (by
      intro r'
      by_cases he : w1 = []
      · subst he; intro c s hc; simp at hc; rw [← hc.1]; decide
      · exact numEnd_of_ignorable h1 he) hm (fun t ht => num_item (hl t ht))
  exact ⟨.node .field ('[' :: (w0 ++ (m ++ (w1 ++ (']' :: (w2 ++ w)))))) kids, by simpa using hd, forall2_numbers hq⟩

/-- Specification of the text of a list of numbers: brackets around the number texts, in order, separated. -/
def ListForm (l : List (List Char)) (text : List Char) : Prop :=
  ∃ w0 m w1, text = '[' :: (w0 ++ (m ++ (w1 ++ [']']))) ∧ Ignorable w0 ∧ Ignorable w1 ∧ SepText NumSep l m

theorem ListForm.read {l : List (List Char)} {text w r : List Char} (h : ListForm l text) (hl : ∀ t ∈ l, NumTok t)
    (hw : Ignorable w) (hr : Meaningful r) : ∃ t,
      Der gram (.nt .field) (text ++ (w ++ r)) (.ok [t] (text ++ w) r) ∧
      ParseVal.Tree.kids t = l.map (fun t => .node .sfNumber t []) := by
  obtain ⟨w0, m, w1, rfl, h0, h1, hm⟩ := h
  exact numbers_der h0 h1 .nil hw hr hm hl

/-- The chunked layout is a separated text of the whole list. -/
theorem chunk_form {n : Nat} (hn : 0 < n) {sep : List Char} (hs : NumSep sep) (l : List (List Char)) :
    ∃ out, chunkJoin n sep l = some out ∧ SepText NumSep l (pyJoin ['\n'] out) := by
  obtain ⟨gs, out, h1, rfl, h3⟩ := chunkJoin_spec n hn sep l.length l (Nat.le_refl _)
  refine ⟨out, h1, SepText.joins ⟨nl_ign, by simp⟩ ?_⟩
  exact h3.imp (fun g m h => ⟨h.1, by rw [h.2]; exact SepText.join hs g⟩)

/-- The text of a flat list is always produced and has the list form. -/
theorem mfSimple_form {lv : LinValues} (hlv : PlainOptions lv) (l : List (List Char)) :
    ∃ text, mfSimpleStr lv l = some text ∧ ListForm l text := by
  obtain ⟨out, h1, h2⟩ := chunk_form (n := 100) (by decide) ⟨hlv.numsep, hlv.numsep_ne⟩ l
  exact ⟨['[', ' '] ++ pyJoin ['\n'] out ++ [' ', ']'], by simp only [mfSimpleStr, h1], [' '], _, [' '], by simp, sp_ign, sp_ign, h2⟩

/-- **C04** For every list of integers, of any length, the text of an MFInt32 value is read back by the field rule
and the MFInt32 conversion as the same integers in the same order. -/
theorem C04_mfint32_roundtrip {lv : LinValues} (hlv : PlainOptions lv) (value : List Int)
    {w r : List Char} (hw : Ignorable w) (hr : Meaningful r) : ∃ text t,
    mfSimpleStr lv (value.map intStr) = some text ∧
    Der gram (.nt .field) (text ++ (w ++ r)) (.ok [t] (text ++ w) r) ∧
    ParseVal.mfInt32 (ParseVal.Tree.kids t) = some value := by
  obtain ⟨text, h1, h2⟩ := mfSimple_form hlv (value.map intStr)
  obtain ⟨t, h3, h4⟩ := h2.read (by
    intro t ht; obtain ⟨n, -, rfl⟩ := List.mem_map.1 ht; exact intStr_numTok n) hw hr
  refine ⟨text, t, h1, h3, ?_⟩
  rw [h4]
  simp only [ParseVal.mfInt32, allSome_map, ParseVal.Tree.text]
  exact allSome_of intBase0_intStr value

/-- **C04** The same for lists of floats, given the text of each float, for any reading function that inverts
`str` on them (Python guarantees `float(str(x)) == x`). -/
theorem C04_mffloat_roundtrip {F : Type} {str : F → List Char} {float : List Char → Option F}
    {lv : LinValues} (hlv : PlainOptions lv) (value : List F) (hstr : ∀ x ∈ value, NumTok (str x)) (hinv : ∀ x ∈ value, float (str x) = some x)
    {w r : List Char} (hw : Ignorable w) (hr : Meaningful r) : ∃ text t,
    mfSimpleStr lv (value.map str) = some text ∧
    Der gram (.nt .field) (text ++ (w ++ r)) (.ok [t] (text ++ w) r) ∧
    ParseVal.mfFloat float (ParseVal.Tree.kids t) = some value := by
  obtain ⟨text, h1, h2⟩ := mfSimple_form hlv (value.map str)
  obtain ⟨t, h3, h4⟩ := h2.read (by
    intro t ht; obtain ⟨n, hn, rfl⟩ := List.mem_map.1 ht; exact hstr n hn) hw hr
  refine ⟨text, t, h1, h3, ?_⟩
  rw [h4]
  simp only [ParseVal.mfFloat, allSome_map, ParseVal.Tree.text]
  exact allSome_on value hinv

/-- Regrouping a flat list into rows of `k` (`reshape(value, (-1, k))`). -/
def regroup {α : Type} (k : Nat) : Nat → List α → List (List α)
  | 0, _ => []
  | n + 1, l => l.take k :: regroup k n (l.drop k)

theorem regroup_flatten {α : Type} (k : Nat) (rows : List (List α)) (h : ∀ row ∈ rows, row.length = k) :
    regroup k rows.length rows.flatten = rows := by
  induction rows with
  | nil => rfl
  | cons row rows ih =>
    have hr : row.length = k := h row (by simp)
    simp only [List.length_cons, regroup, List.flatten_cons]
    rw [List.take_left' hr, List.drop_left' hr, ih (fun x hx => h x (by simp [hx]))]

theorem mfVec_form {lv : LinValues} (hlv : PlainOptions lv) {k : Nat} (hk1 : 1 ≤ k) (hk2 : k ≤ 100)
    (rows : List (List (List Char))) (hrows : ∀ row ∈ rows, row ≠ []) :
    ∃ text, mfVecStr lv k rows = some text ∧ ListForm rows.flatten text := by
  have hset : ∀ {gs : List (List (List Char))}, (∀ g ∈ gs, g ≠ []) →
      List.Forall₂ (fun g m => g ≠ [] ∧ SepText NumSep g m) gs (gs.map (pyJoin lv.numsep)) := by
    intro gs
    induction gs with
    | nil => intro _; exact .nil
    | cons g gs ih =>
      intro h
      exact .cons ⟨h g (by simp), SepText.join ⟨hlv.numsep, hlv.numsep_ne⟩ g⟩ (ih (fun x hx => h x (by simp [hx])))
  unfold mfVecStr
  split
  · rename_i h0
    subst h0
    exact ⟨_, rfl, [' '], [], [], by simp, sp_ign, .nil, .nil⟩
  · simp only
    split
    · exact ⟨_, rfl, [], _, [], by simp, .nil, .nil, SepText.joins ⟨hlv.subelspacer, hlv.subelspacer_ne⟩ (hset hrows)⟩
    · have hpos : 0 < 100 / k := Nat.div_pos hk2 hk1
      obtain ⟨gs, out, h1, h2, h3⟩ := chunkJoin_spec (100 / k) hpos lv.subelspacer _ (rows.map (pyJoin lv.numsep)) (Nat.le_refl _)
      refine ⟨['['] ++ pyJoin ['\n'] out ++ [']'], by simp only [h1], [], pyJoin ['\n'] out, [], by simp, .nil, .nil, ?_⟩
      -- split the rows along the groups
      have key : ∀ {gs : List (List (List Char))} {out : List (List Char)} {rows : List (List (List Char))},
          gs.flatten = rows.map (pyJoin lv.numsep) → (∀ row ∈ rows, row ≠ []) →
          List.Forall₂ (fun g m => g ≠ [] ∧ m = pyJoin lv.subelspacer g) gs out →
          ∃ rss : List (List (List (List Char))), rss.flatten = rows ∧
            List.Forall₂ (fun rs m => rs ≠ [] ∧ SepText NumSep rs m) (rss.map List.flatten) out := by
        intro gs out rows hg hrows h3
        induction h3 generalizing rows with
        | nil =>
          simp at hg
          exact ⟨[], by simp [hg], .nil⟩
        | @cons g m gs out hgm _ ih =>
          simp only [List.flatten_cons] at hg
          have e1 : (rows.take g.length).map (pyJoin lv.numsep) = g := by
            rw [List.map_take, ← hg]; simp
          have e2 : gs.flatten = (rows.drop g.length).map (pyJoin lv.numsep) := by
            rw [List.map_drop, ← hg]; simp
          obtain ⟨rss, h5, h6⟩ := ih e2 (fun row hrow => hrows row (List.mem_of_mem_drop hrow))
          have hne : rows.take g.length ≠ [] := by
            intro he; rw [he] at e1; exact hgm.1 (by simpa using e1.symm)
          have hne2 : ∀ row ∈ rows.take g.length, row ≠ [] := fun row hrow => hrows row (List.mem_of_mem_take hrow)
          refine ⟨rows.take g.length :: rss, by simp [h5], .cons ⟨?_, ?_⟩ h6⟩
          · cases ht : rows.take g.length with
            | nil => exact absurd ht hne
            | cons a l =>
              have := hne2 a (by simp [ht])
              simp [this]
          · have e3 : m = pyJoin lv.subelspacer ((rows.take g.length).map (pyJoin lv.numsep)) := by rw [e1]; exact hgm.2
            rw [e3]
            exact SepText.joins ⟨hlv.subelspacer, hlv.subelspacer_ne⟩ (hset hne2)
      obtain ⟨rss, h5, h6⟩ := key h2 hrows h3
      have := SepText.joins ⟨nl_ign, by simp⟩ h6
      rw [← h5]
      simpa [List.flatten_flatten] using this

/-- **C05** The text of a list of rows contains every component of every row, in order, each a separate text. -/
theorem C05_every_component_written {lv : LinValues} (hlv : PlainOptions lv) {k : Nat} (hk1 : 1 ≤ k) (hk2 : k ≤ 100)
    (rows : List (List (List Char))) (hrows : ∀ row ∈ rows, row.length = k) :
    ∃ text, mfVecStr lv k rows = some text ∧ ListForm rows.flatten text :=
  mfVec_form hlv hk1 hk2 rows (fun row hrow => by
    have := hrows row hrow
    intro he; subst he; simp at this; omega)

/-- **C05** Reading the text back: the numbers read, regrouped by the row length, are the rows. -/
theorem C05_rows_roundtrip {F : Type} {str : F → List Char} {float : List Char → Option F}
    {lv : LinValues} (hlv : PlainOptions lv) {k : Nat} (hk1 : 1 ≤ k) (hk2 : k ≤ 100)
    (rows : List (List F)) (hrows : ∀ row ∈ rows, row.length = k)
    (hstr : ∀ row ∈ rows, ∀ x ∈ row, NumTok (str x)) (hinv : ∀ row ∈ rows, ∀ x ∈ row, float (str x) = some x)
    {w r : List Char} (hw : Ignorable w) (hr : Meaningful r) : ∃ text t nums,
    mfVecStr lv k (rows.map (List.map str)) = some text ∧
    Der gram (.nt .field) (text ++ (w ++ r)) (.ok [t] (text ++ w) r) ∧
    ParseVal.mfFloat float (ParseVal.Tree.kids t) = some nums ∧
    regroup k rows.length nums = rows := by
  obtain ⟨text, h1, h2⟩ := C05_every_component_written hlv hk1 hk2 (rows.map (List.map str)) (by
    intro row hrow
    obtain ⟨row', h, rfl⟩ := List.mem_map.1 hrow
    simpa using hrows row' h)
  obtain ⟨t, h3, h4⟩ := h2.read (by
    intro t ht
    obtain ⟨row, hrow, ht⟩ := List.mem_flatten.1 ht
    obtain ⟨row', hrow', rfl⟩ := List.mem_map.1 hrow
    obtain ⟨x, hx, rfl⟩ := List.mem_map.1 ht
    exact hstr row' hrow' x hx) hw hr
  refine ⟨text, t, rows.flatten, h1, h3, ?_, regroup_flatten k rows hrows⟩
  rw [h4]
  simp only [ParseVal.mfFloat, allSome_map, ParseVal.Tree.text]
  rw [← List.map_flatten, allSome_map]
  exact allSome_on _ (fun x hx => by obtain ⟨row, hr, hx⟩ := List.mem_flatten.1 hx; exact hinv row hr x hx)

/-- **C05** Rows of more than 100 components cannot be written at all: the writer's loop never ends. -/
theorem C05_long_rows_never_written {lv : LinValues} {k : Nat} (hk : 100 < k) (rows : List (List (List Char)))
    (h0 : rows ≠ []) : mfVecStr lv k rows = none := by
  have : 100 / k = 0 := Nat.div_eq_of_lt hk
  cases rows with
  | nil => exact absurd rfl h0
  | cons a l => simp [mfVecStr, this, chunkJoin]

example : mfVecStr defaults 2 [[['1'], ['2']], [['3'], ['4']]] = some ['[', '1', ',', '2', ',', ' ', '3', ',', '4', ']'] := by
  decide
example : mfVecStr minimal1 50 (List.replicate 3 [['1']]) = some ['[', '1', ',', ' ', '1', '\n', '1', ']'] := by
  simp [mfVecStr, chunkJoin, pyJoin, minimal1, List.replicate]

/-- **C05** The text of a vector (SFVec2f, SFVec3f, SFColor, SFRotation, SFVec4f): read back as the same numbers, in
order.  `str` gives Python's `str` of a component, `sfFloatStr` shortens it, and `float` must give the value back
from the shortened text (it does: C03 shows that shortening keeps the decimal value). -/
theorem C05_sfvec_roundtrip {F : Type} {str : F → List Char} {float : List Char → Option F}
    {lv : LinValues} (hlv : PlainOptions lv) (value : List F) (h0 : value ≠ [])
    (hstr : ∀ x ∈ value, PyRepr (str x)) (hinv : ∀ x ∈ value, float (sfFloatStr (str x)) = some x)
    {w r : List Char} (hw : Ignorable w) (hr : Meaningful r) (hno : Der gram fieldItem1 r .fail) (hend : NumEnd (w ++ r)) :
    ∃ t, Der gram (.nt .field) (sfVecStr lv (value.map str) ++ (w ++ r)) (.ok [t] (sfVecStr lv (value.map str) ++ w) r) ∧
      ParseVal.mfFloat float (ParseVal.Tree.kids t) = some value := by
  have htok : ∀ x ∈ value, NumTok (sfFloatStr (str x)) := fun x hx => (compact (str x) (hstr x hx)).1
  have hsep := SepText.join (S := NumSep) (sep := lv.numsep) ⟨hlv.numsep, hlv.numsep_ne⟩ ((value.map str).map sfFloatStr)
  have hhead : ∃ c s, sfVecStr lv (value.map str) = c :: s ∧ isExpChar c = true := by
    cases value with
    | nil => exact absurd rfl h0
    | cons x value =>
      obtain ⟨c, s, hs, hc⟩ := (htok x (by simp)).head
      cases value with
      | nil => exact ⟨c, s, by simpa [sfVecStr, pyJoin] using hs, hc⟩
      | cons y value => exact ⟨c, _, by simp [sfVecStr, pyJoin, hs]; rfl, hc⟩
  obtain ⟨c, s, hs, hc⟩ := hhead
  obtain ⟨kids, hd, hq⟩ := field_plain (S := NumSep) (End := NumEnd) (Q := fun t tr => tr = .node .sfNumber t [])
    (fun _ h => h.1) (fun s r hs _ => numEnd_of_ignorable hs.1 hs.2) hw hr hno hend hsep (by simpa using h0)
    (by
      intro t ht
      simp only [List.map_map, List.mem_map, Function.comp] at ht
      obtain ⟨x, hx, rfl⟩ := ht
      exact num_item1 (htok x hx))
    (by
      intro t ht
      rw [show pyJoin lv.numsep ((value.map str).map sfFloatStr) = c :: s from hs] at ht
      cases ht
      exact absurd hc (by decide))
    (by rw [show pyJoin lv.numsep ((value.map str).map sfFloatStr) = c :: s from hs]; simp)
  refine ⟨_, hd, ?_⟩
  simp only [ParseVal.Tree.kids, forall2_numbers hq, ParseVal.mfFloat, allSome_map, ParseVal.Tree.text]
  exact allSome_on value hinv

/-- The reading hypotheses of C04 and C05 are met, for instance by integer-valued components. -/
example : (∀ x : Int, NumTok (intStr x)) ∧ ∀ x : Int, intBase0 (intStr x) = some x :=
  ⟨intStr_numTok, intBase0_intStr⟩

/-- The hypotheses of `C05_sfvec_roundtrip` are met, for instance by the two values 1.0 and -0.25. -/
def exStr : Bool → List Char | true => ['1', '.', '0'] | false => ['-', '0', '.', '2', '5']
def exFloat (t : List Char) : Option Bool :=
  if t = ['1'] then some true else if t = ['-', '.', '2', '5'] then some false else none
example : (∀ x, PyRepr (exStr x)) ∧ ∀ x, exFloat (sfFloatStr (exStr x)) = some x := by
  constructor
  · intro x
    cases x
    · exact ⟨['-'], ['0'], ['.', '2', '5'], [], rfl, .inr rfl, ⟨by simp, by decide⟩, .inr ⟨['2', '5'], rfl, by simp, by decide⟩, .inl rfl⟩
    · exact ⟨[], ['1'], ['.', '0'], [], rfl, .inl rfl, ⟨by simp, by decide⟩, .inr ⟨['0'], rfl, by simp, by decide⟩, .inl rfl⟩
  · decide

end Verif.ListText
