import Verif.Props.ListText
import Verif.Model.SceneRead
/-!
Reading the pieces of scene texts: names, USE, nodes, attributes, fields, routes.
-/
namespace Verif.SceneText
open Verif.Peg Verif.Grammar Verif.TextOut Verif.Text Verif.ListText

/-! ### Names (specification) -/

/-- A text the grammar accepts as a name. -/
def LegalName (nm : List Char) : Prop :=
  ∃ c s, nm = c :: s ∧ isNameStart c = true ∧ ∀ d ∈ s, isNameRest d = true

/-- Words the grammar looks for where a name may also stand.  They are recognised even when they are only the
beginning of a longer word. -/
def keywords : List (List Char) :=
  [['T', 'R', 'U', 'E'], ['F', 'A', 'L', 'S', 'E'], ['N', 'U', 'L', 'L'], ['U', 'S', 'E'], ['D', 'E', 'F'],
   ['S', 'c', 'r', 'i', 'p', 't'], ['P', 'R', 'O', 'T', 'O'], ['E', 'X', 'T', 'E', 'R', 'N', 'P', 'R', 'O', 'T', 'O'],
   ['R', 'O', 'U', 'T', 'E'], ['I', 'S']]

/-- A legal name that does not begin with a sign or a keyword. -/
def SafeName (nm : List Char) : Prop :=
  LegalName nm ∧ (∀ c s, nm = c :: s → isSign c = false) ∧ ∀ k ∈ keywords, ¬ k <+: nm

instance (nm : List Char) : Decidable (LegalName nm) :=
  match nm with
  | [] => .isFalse (by rintro ⟨c, s, h, -⟩; simp at h)
  | c :: s =>
    if h : isNameStart c = true ∧ ∀ d ∈ s, isNameRest d = true then .isTrue ⟨c, s, rfl, h⟩
    else .isFalse (by rintro ⟨c', s', h', h1⟩; cases h'; exact h h1)

instance (nm : List Char) : Decidable (SafeName nm) :=
  match nm with
  | [] => .isFalse (by rintro ⟨⟨c, s, h, -⟩, -⟩; simp at h)
  | c :: s =>
    if h : LegalName (c :: s) ∧ isSign c = false ∧ ∀ k ∈ keywords, ¬ k <+: (c :: s) then
      .isTrue ⟨h.1, by rintro _ _ h'; cases h'; exact h.2.1, h.2.2⟩
    else .isFalse (by rintro ⟨h1, h2, h3⟩; exact h ⟨h1, h2 c s rfl, h3⟩)

/-! ### Names -/

/-- the text does not continue a name -/
def NameEnd (r : List Char) : Prop := ∀ c s, r = c :: s → isNameRest c = false

theorem nameEnd_cons {c : Char} {s : List Char} (h : isNameRest c = false) : NameEnd (c :: s) := by
  intro d t ht; cases ht; exact h

theorem nameEnd_ign {w r : List Char} (hw : Ignorable w) (h0 : w ≠ []) : NameEnd (w ++ r) := by
  cases hw with
  | nil => exact absurd rfl h0
  | blank hc _ =>
    refine nameEnd_cons ?_
    simp only [List.mem_cons, List.not_mem_nil, or_false] at hc
    rcases hc with rfl | rfl | rfl | rfl | rfl | rfl | rfl <;> decide
  | comment _ _ => exact nameEnd_cons (by decide)

theorem name_der {nm r : List Char} (h : LegalName nm) (hr : NameEnd r) :
    Der gram (.nt .name) (nm ++ r) (.ok [.node .name nm []] nm r) := by
  obtain ⟨c, s, rfl, hc, hs⟩ := h
  have h1 : Der gram (gram .name) (c :: (s ++ r)) (.ok ([] ++ []) ([c] ++ s) r) :=
    .seq (.cls hc) (starCls_der hs (fun d t hd => hr d t hd))
  exact Der.nt (g := gram) (n := NT.name) h1

theorem legal_head {nm : List Char} (h : LegalName nm) : ∃ c s, nm = c :: s ∧ isNameStart c = true := by
  obtain ⟨c, s, rfl, hc, -⟩ := h; exact ⟨c, s, rfl, hc⟩

theorem LegalName.ne_nil {nm : List Char} (h : LegalName nm) : nm ≠ [] := by
  obtain ⟨c, s, rfl, -⟩ := h; simp

theorem nameStart_props {c : Char} (h : isNameStart c = true) :
    isBlank c = false ∧ c ≠ '#' ∧ c ≠ '[' ∧ c ≠ ']' ∧ c ≠ '"' ∧ c ≠ '{' ∧ c ≠ '}' ∧ isDigDot c = false := by
  have key : ∀ d : Char, isNameStart d = false → c ≠ d := by
    intro d hd he; subst he; rw [h] at hd; cases hd
  refine ⟨?_, key _ (by decide), key _ (by decide), key _ (by decide), key _ (by decide), key _ (by decide), key _ (by decide), ?_⟩
  · cases hb : isBlank c with
    | false => rfl
    | true =>
      have := (isBlank_iff c).1 hb
      simp only [List.mem_cons, List.not_mem_nil, or_false] at this
      rcases this with rfl | rfl | rfl | rfl | rfl | rfl | rfl <;> exact absurd h (by decide)
  · cases hd : isDigDot c with
    | false => rfl
    | true =>
      simp only [isDigDot, Bool.or_eq_true, beq_iff_eq] at hd
      rcases hd with hd | rfl
      · simp [isNameStart, hd] at h
      · exact absurd h (by decide)

theorem legal_mean {nm : List Char} (h : LegalName nm) (r : List Char) : Meaningful (nm ++ r) := by
  obtain ⟨c, s, rfl, hc, -⟩ := h
  exact meaningful_head (nameStart_props hc).1 (nameStart_props hc).2.1

theorem legal_no_nl {nm : List Char} (h : LegalName nm) : '\n' ∉ nm := by
  obtain ⟨c, s, rfl, hc, hs⟩ := h
  intro hn
  rcases List.mem_cons.1 hn with h1 | h1
  · rw [← h1] at hc; exact absurd hc (by decide)
  · exact absurd (hs _ h1) (by decide)

/-- A keyword made of name characters is not found at a name that does not start with it. -/
theorem prefix_name : ∀ {k nm r : List Char}, (∀ c ∈ k, isNameRest c = true) → ¬ k <+: nm → NameEnd r → ¬ k <+: nm ++ r := by
  intro k
  induction k with
  | nil => intro nm r _ h _; exact absurd List.nil_prefix h
  | cons a k ih =>
    intro nm r hk hn hr hp
    cases nm with
    | nil =>
      obtain ⟨t, ht⟩ := hp
      have := hr a (k ++ t) (by simpa using ht.symm)
      rw [hk a (by simp)] at this
      cases this
    | cons b nm =>
      simp only [List.cons_append, List.cons_prefix_cons] at hp hn
      exact ih (fun c hc => hk c (by simp [hc])) (fun h => hn ⟨hp.1, h⟩) hr hp.2

theorem keyword_rest : ∀ k ∈ keywords, ∀ c ∈ k, isNameRest c = true := by decide

theorem safe_no {nm r k : List Char} (h : SafeName nm) (hr : NameEnd r) (hk : k ∈ keywords) : Der gram (.lit k) (nm ++ r) .fail :=
  .litFail (prefix_name (keyword_rest k hk) (h.2.2 k hk) hr)

/-! ### What is not a number, boolean, string -/

theorem starSign_nil {i : List Char} (h : ∀ c s, i = c :: s → isSign c = false) :
    Der gram (.star (.cls isSign)) i (.ok [] [] i) := by
  refine .starNil ?_
  cases i with
  | nil => exact .clsEnd
  | cons c s => exact .clsFail (h c s rfl)

theorem number_fail {c : Char} {s : List Char} (h1 : isSign c = false) (h2 : isDigDot c = false) :
    Der gram (.nt .sfNumber) (c :: s) .fail := by
  have hd : c ≠ '0' := by intro h; subst h; exact absurd h2 (by decide)
  refine .ntFail (.seqFail2 (starSign_nil (i := c :: s) (by intro d t h; cases h; exact h1)) (.altR (.seqFail1 ?_) (.seqFail1 (.seqFail1 (.clsFail h2)))))
  exact lit_fail1 (Ne.symm hd)

/-- Where a node text starts (`USE`, `DEF` or a safe type name), nothing else can be read. -/
structure Start (T : List Char) : Prop where
  mean : ∀ r, Meaningful (T ++ r)
  head : ∃ c s, T = c :: s ∧ c ≠ '{' ∧ c ≠ '['
  noVector : ∀ r, Der gram (.nt .vector) (T ++ r) .fail
  noNumber : ∀ r, Der gram (.nt .sfNumber) (T ++ r) .fail
  noBool : ∀ r, Der gram (.nt .sfBool) (T ++ r) .fail
  noNull : ∀ r, Der gram (.nt .sfNull) (T ++ r) .fail
  noString : ∀ r, Der gram (.nt .sfString) (T ++ r) .fail
  noProto : ∀ r, Der gram (.nt .proto) (T ++ r) .fail
  noExtern : ∀ r, Der gram (.nt .externProto) (T ++ r) .fail
  noRoute : ∀ r, Der gram (.nt .route) (T ++ r) .fail
  noIs : ∀ r, Der gram (kw "IS") (T ++ r) .fail

theorem Start.append {T U : List Char} (h : Start T) : Start (T ++ U) := by
  obtain ⟨c, s, rfl, h1, h2⟩ := h.head
  refine ⟨?_, ⟨c, s ++ U, rfl, h1, h2⟩, ?_, ?_, ?_, ?_, ?_, ?_, ?_, ?_, ?_⟩ <;> (intro r; rw [List.append_assoc])
  · exact h.mean _
  · exact h.noVector _
  · exact h.noNumber _
  · exact h.noBool _
  · exact h.noNull _
  · exact h.noString _
  · exact h.noProto _
  · exact h.noExtern _
  · exact h.noRoute _
  · exact h.noIs _

theorem start_use : Start ['U', 'S', 'E', ' '] := by
  refine ⟨fun r => meaningful_head (by decide) (by decide), ⟨_, _, rfl, by decide, by decide⟩, ?_, ?_, ?_, ?_, ?_, ?_, ?_, ?_, ?_⟩ <;>
    exact fun r => run_sound 30 _ _ _ (by rfl)

theorem start_def : Start ['D', 'E', 'F', ' '] := by
  refine ⟨fun r => meaningful_head (by decide) (by decide), ⟨_, _, rfl, by decide, by decide⟩, ?_, ?_, ?_, ?_, ?_, ?_, ?_, ?_, ?_⟩ <;>
    exact fun r => run_sound 30 _ _ _ (by rfl)

theorem start_script : Start ['S', 'c', 'r', 'i', 'p', 't', ' '] := by
  refine ⟨fun r => meaningful_head (by decide) (by decide), ⟨_, _, rfl, by decide, by decide⟩, ?_, ?_, ?_, ?_, ?_, ?_, ?_, ?_, ?_⟩ <;>
    exact fun r => run_sound 30 _ _ _ (by rfl)

theorem start_safe {nm r0 : List Char} (h : SafeName nm) (hr0 : NameEnd r0) (h0 : r0 ≠ []) : Start (nm ++ r0) := by
  have hr : ∀ r, NameEnd (r0 ++ r) := by
    intro r
    cases r0 with
    | nil => exact absurd rfl h0
    | cons c s => exact nameEnd_cons (hr0 c s rfl)
  have hk : ∀ k ∈ keywords, ∀ r, Der gram (.lit k) (nm ++ r0 ++ r) .fail := by
    intro k hk r; rw [List.append_assoc]; exact safe_no h (hr r) hk
  obtain ⟨c, s, rfl, hc⟩ := legal_head h.1
  have hp := nameStart_props hc
  have hs := h.2.1 c s rfl
  refine ⟨fun r => ?_, ⟨c, s ++ r0, rfl, hp.2.2.2.2.2.1, hp.2.2.1⟩, ?_, ?_, ?_, ?_, ?_, ?_, ?_, ?_, ?_⟩
  · exact meaningful_head hp.1 hp.2.1
  · exact fun r => .ntFail (.seqFail1 (lit_fail1 (Ne.symm hp.2.2.1)))
  · exact fun r => number_fail hs hp.2.2.2.2.2.2.2
  · exact fun r => .ntFail (.altR (hk _ (by decide) r) (hk _ (by decide) r))
  · exact fun r => .ntFail (.seqFail1 (hk _ (by decide) r))
  · exact fun r => .ntFail (.seqFail1 (lit_fail1 (Ne.symm hp.2.2.2.2.1)))
  · exact fun r => .ntFail (.seqFail1 (hk _ (by decide) r))
  · exact fun r => .ntFail (.seqFail1 (hk _ (by decide) r))
  · exact fun r => .ntFail (.seqFail1 (hk _ (by decide) r))
  · exact fun r => hk _ (by decide) r

/-! ### Nodes -/

/-- the common end of the alternatives for field items and root items -/
def X : E := .alt useGroup (.alt (.nt .script) (.nt .node))

theorem fieldItem_X {T r : List Char} (h : Start T) {o} (hX : Der gram X (T ++ r) o) : Der gram fieldItem (T ++ r) o :=
  .altR (h.noVector r) (.altR (h.noNumber r) (.altR (h.noBool r) (.altR (h.noString r) hX)))

theorem fieldItem1_X {T r : List Char} (h : Start T) {o} (hX : Der gram X (T ++ r) o) : Der gram fieldItem1 (T ++ r) o :=
  .altR (h.noNumber r) (.altR (h.noBool r) (.altR (h.noNull r) (.altR (h.noString r) hX)))

theorem use_der {nm w r : List Char} (h : LegalName nm) (hw : Ignorable w) (h0 : w ≠ []) (hr : Meaningful r) :
    Der gram X (['U', 'S', 'E', ' '] ++ nm ++ (w ++ r))
      (.ok [.node .use nm [.node .name nm []]] (['U', 'S', 'E', ' '] ++ nm ++ w) r) := by
  have h1 : Der gram useGroup (['U', 'S', 'E'] ++ ([' '] ++ (nm ++ (w ++ r)))) _ :=
    .seq (.lit _ _) (.seq (C07_ignorable_skipped sp_ign (legal_mean h _))
      (.seq (Der.nt (g := gram) (n := NT.use) (name_der h (nameEnd_ign hw h0))) (C07_ignorable_skipped hw hr)))
  have h2 : Der gram X _ _ := .altL h1
  simpa using h2

/-- the items of a node's body -/
def bodyItem : E := .alts [.nt .proto, .nt .externProto, .nt .route, .nt .attr]

/-- the text of `DEF name ` or nothing -/
def defText (d : List Char) : List Char := if d = [] then [] else ['D', 'E', 'F', ' '] ++ d ++ [' ']
/-- its trees -/
def defTrees (d : List Char) : List (Tree NT) := if d = [] then [] else [.node .name d []]

theorem def_der {d p r : List Char} (hd : d = [] ∨ LegalName d) (hp : SafeName p) (hr : NameEnd r) :
    Der gram defGroup (defText d ++ (p ++ r)) (.ok (defTrees d) (defText d) (p ++ r)) := by
  by_cases h0 : d = []
  · subst h0
    simp only [defText, defTrees, if_true, List.nil_append]
    exact .altR (.seqFail1 (safe_no hp hr (by decide))) (.eps _)
  · have hl : LegalName d := hd.resolve_left h0
    simp only [defText, defTrees, if_neg h0]
    have h1 : Der gram defGroup (['D', 'E', 'F'] ++ ([' '] ++ (d ++ ([' '] ++ (p ++ r))))) _ :=
      .altL (.seq (.lit _ _) (.seq (C07_ignorable_skipped sp_ign (legal_mean hl _))
        (.seq (.cut (name_der hl (nameEnd_cons (by decide)))) (.cut (C07_ignorable_skipped sp_ign (legal_mean hp.1 _))))))
    simpa using h1

theorem def_start {d p r : List Char} (hp : SafeName p) (hr : NameEnd r) (h0 : r ≠ []) : Start (defText d ++ (p ++ r)) := by
  by_cases h : d = []
  · simp only [defText, h, if_true, List.nil_append]; exact start_safe hp hr h0
  · simp only [defText, if_neg h]
    have := start_def.append (U := d ++ ' ' :: (p ++ r))
    simpa using this

/-- A node: optional DEF name, type, `{`, attributes, `}` and what may be ignored after it. -/
theorem node_der {d p w0 body w r : List Char} {ts : List (Tree NT)} (hd : d = [] ∨ LegalName d) (hp : SafeName p)
    (hw0 : Ignorable w0) (hb : Meaningful (body ++ '}' :: (w ++ r)))
    (hstar : Der gram (.star bodyItem) (body ++ '}' :: (w ++ r)) (.ok ts body ('}' :: (w ++ r))))
    (hw : Ignorable w) (hr : Meaningful r) :
    ∃ m, Der gram X (defText d ++ (p ++ ([' ', '{'] ++ (w0 ++ (body ++ '}' :: (w ++ r))))))
      (.ok [.node .node m (defTrees d ++ (.node .nodegi p [.node .name p []] :: ts))]
        (defText d ++ (p ++ ([' ', '{'] ++ (w0 ++ (body ++ '}' :: w))))) r) := by
  have hsp : ∀ z, NameEnd ([' ', '{'] ++ z) := fun z => nameEnd_cons (by decide)
  have hnode : Der gram (gram .node) (defText d ++ (p ++ ([' '] ++ (['{'] ++ (w0 ++ (body ++ ([] ++ (['}'] ++ (w ++ r)))))))))
      (.ok (defTrees d ++ ([.node .nodegi p [.node .name p []]] ++ ([] ++ ([] ++ ([] ++ (ts ++ ([] ++ ([] ++ []))))))))
        (defText d ++ (p ++ ([' '] ++ (['{'] ++ (w0 ++ (body ++ ([] ++ (['}'] ++ w)))))))) r) :=
    .seq (def_der hd hp (hsp _)) (.seq (Der.nt (g := gram) (n := NT.nodegi) (name_der hp.1 (hsp _)))
      (.seq (C07_ignorable_skipped sp_ign (meaningful_head (by decide) (by decide)))
        (.seq (.lit _ _) (.seq (C07_ignorable_skipped hw0 hb) (.seq hstar
          (.seq (C07_ignorable_skipped .nil (meaningful_head (by decide) (by decide)))
            (.seq (.cut (.lit _ _)) (.cut (C07_ignorable_skipped hw hr)))))))))
  have hscript : Der gram (.nt .script) (defText d ++ (p ++ ([' '] ++ (['{'] ++ (w0 ++ (body ++ ([] ++ (['}'] ++ (w ++ r))))))))) .fail :=
    .ntFail (.seqFail2 (def_der hd hp (hsp _)) (.seqFail1 (safe_no hp (hsp _) (by decide))))
  have huse : Der gram useGroup (defText d ++ (p ++ ([' '] ++ (['{'] ++ (w0 ++ (body ++ ([] ++ (['}'] ++ (w ++ r))))))))) .fail := by
    by_cases h0 : d = []
    · simp only [defText, h0, if_true, List.nil_append]
      exact .seqFail1 (safe_no hp (hsp _) (by decide))
    · simp only [defText, if_neg h0]
      exact .seqFail1 (lit_fail1 (by decide))
  have h1 : Der gram X _ _ := .altR huse (.altR hscript (Der.nt (g := gram) (n := NT.node) hnode))
  exact ⟨_, by simpa using h1⟩

/-! ### Scripts -/

/-- the items of a Script's body -/
def scriptItem : E := .alts [.nt .scriptFieldDecl, .nt .scriptEventDecl, .nt .proto, .nt .externProto, .nt .route, .nt .attr]

/-- `DEF name ` and another blank, or nothing -/
def scriptDef (d : List Char) : List Char := if d = [] then [] else ['D', 'E', 'F', ' '] ++ d ++ [' ', ' ']

theorem scriptItem_brace (s : List Char) : Der gram scriptItem ('}' :: s) .fail := run_sound 30 _ _ _ (by rfl)

theorem script_start {d r : List Char} : Start (scriptDef d ++ (['S', 'c', 'r', 'i', 'p', 't', ' '] ++ r)) := by
  by_cases h : d = []
  · simp only [scriptDef, h, if_true, List.nil_append]; exact start_script.append
  · simp only [scriptDef, if_neg h]
    have := start_def.append (U := d ++ ([' ', ' '] ++ (['S', 'c', 'r', 'i', 'p', 't', ' '] ++ r)))
    simpa using this

/-- A Script: optional DEF name, `Script {`, items, `}` and what may be ignored after it. -/
theorem script_der {d w0 body w r : List Char} {ts : List (Tree NT)} (hd : d = [] ∨ LegalName d)
    (hw0 : Ignorable w0) (hb : Meaningful (body ++ '}' :: (w ++ r)))
    (hstar : Der gram (.star scriptItem) (body ++ '}' :: (w ++ r)) (.ok ts body ('}' :: (w ++ r))))
    (hw : Ignorable w) (hr : Meaningful r) :
    ∃ m, Der gram X (scriptDef d ++ (['S', 'c', 'r', 'i', 'p', 't'] ++ ([' ', '{'] ++ (w0 ++ (body ++ '}' :: (w ++ r))))))
      (.ok [.node .script m (defTrees d ++ ts)]
        (scriptDef d ++ (['S', 'c', 'r', 'i', 'p', 't'] ++ ([' ', '{'] ++ (w0 ++ (body ++ '}' :: w))))) r) := by
  have hdef : ∀ z, Der gram defGroup (scriptDef d ++ (['S', 'c', 'r', 'i', 'p', 't'] ++ z)) (.ok (defTrees d) (scriptDef d) (['S', 'c', 'r', 'i', 'p', 't'] ++ z)) := by
    intro z
    by_cases h0 : d = []
    · subst h0
      simp only [scriptDef, defTrees, if_true, List.nil_append]
      exact .altR (.seqFail1 (lit_fail1 (by decide))) (.eps _)
    · have hl : LegalName d := hd.resolve_left h0
      simp only [scriptDef, defTrees, if_neg h0]
      have h2 : Ignorable [' ', ' '] := sp_ign.append sp_ign
      have h1 : Der gram defGroup (['D', 'E', 'F'] ++ ([' '] ++ (d ++ ([' ', ' '] ++ (['S', 'c', 'r', 'i', 'p', 't'] ++ z))))) _ :=
        .altL (.seq (.lit _ _) (.seq (C07_ignorable_skipped sp_ign (legal_mean hl _))
          (.seq (.cut (name_der hl (nameEnd_cons (by decide)))) (.cut (C07_ignorable_skipped h2 (meaningful_head (by decide) (by decide)))))))
      simpa using h1
  have hscript : Der gram (gram .script) (scriptDef d ++ (['S', 'c', 'r', 'i', 'p', 't'] ++ ([' '] ++ (['{'] ++ (w0 ++ (body ++ ([] ++ (['}'] ++ (w ++ r)))))))))
      (.ok (defTrees d ++ ([] ++ ([] ++ ([] ++ ([] ++ (ts ++ ([] ++ ([] ++ []))))))))
        (scriptDef d ++ (['S', 'c', 'r', 'i', 'p', 't'] ++ ([' '] ++ (['{'] ++ (w0 ++ (body ++ ([] ++ (['}'] ++ w)))))))) r) :=
    .seq (hdef _) (.seq (.lit _ _)
      (.seq (C07_ignorable_skipped sp_ign (meaningful_head (by decide) (by decide)))
        (.seq (.cut (.lit _ _)) (.seq (.cut (C07_ignorable_skipped hw0 hb)) (.seq (.cut hstar)
          (.seq (.cut (C07_ignorable_skipped .nil (meaningful_head (by decide) (by decide))))
            (.seq (.cut (.lit _ _)) (.cut (C07_ignorable_skipped hw hr)))))))))
  have huse : Der gram useGroup (scriptDef d ++ (['S', 'c', 'r', 'i', 'p', 't'] ++ ([' '] ++ (['{'] ++ (w0 ++ (body ++ ([] ++ (['}'] ++ (w ++ r))))))))) .fail := by
    by_cases h0 : d = []
    · simp only [scriptDef, h0, if_true, List.nil_append]
      exact .seqFail1 (lit_fail1 (by decide))
    · simp only [scriptDef, if_neg h0]
      exact .seqFail1 (lit_fail1 (by decide))
  have h1 : Der gram X _ _ := .altR huse (.altL (Der.nt (g := gram) (n := NT.script) hscript))
  exact ⟨_, by simpa using h1⟩

/-! ### Attributes -/

/-- Item `It` reads an attribute named `nm` as an attribute. -/
def ReadsAttr (It : E) (nm : List Char) : Prop := ∀ z o, NameEnd z → Der gram (.nt .attr) (nm ++ z) o → Der gram It (nm ++ z) o

theorem body_attr {nm : List Char} (h : SafeName nm) : ReadsAttr bodyItem nm := by
  intro z o he hd
  have hkw : ∀ k ∈ keywords, Der gram (.lit k) (nm ++ z) .fail := fun k hk => safe_no h he hk
  exact .altR (.ntFail (.seqFail1 (hkw _ (by decide)))) (.altR (.ntFail (.seqFail1 (hkw _ (by decide))))
    (.altR (.ntFail (.seqFail1 (hkw _ (by decide)))) hd))

theorem script_attr {nm : List Char} (h : SafeName nm) (hm : nm ∈ Verif.Lin.scriptAttrs) : ReadsAttr scriptItem nm := by
  intro z o he hd
  have h1 : Der gram (.nt .scriptFieldDecl) (nm ++ z) .fail ∧ Der gram (.nt .scriptEventDecl) (nm ++ z) .fail := by
    simp only [Verif.Lin.scriptAttrs, List.mem_cons, List.not_mem_nil, or_false] at hm
    rcases hm with rfl | rfl | rfl <;> exact ⟨run_sound 30 _ _ _ (by rfl), run_sound 30 _ _ _ (by rfl)⟩
  exact .altR h1.1 (.altR h1.2 (body_attr h z o he hd))

/-- the text after an attribute's value: meaningful, and not itself a value -/
def Next (r : List Char) : Prop := Meaningful r ∧ Der gram fieldItem1 r .fail

theorem next_brace (s : List Char) : Next ('}' :: s) := ⟨meaningful_head (by decide) (by decide), no_value_brace s⟩

/-- X does not read a safe name that is not followed by `{`. -/
theorem X_fail_name {nm w : List Char} {c : Char} {s : List Char} (h : SafeName nm) (hw : Ignorable w) (h0 : w ≠ [])
    (hc : isBlank c = false) (hc' : c ≠ '#') (hb : c ≠ '{') : Der gram X (nm ++ (w ++ (c :: s))) .fail := by
  have hr := nameEnd_ign (r := c :: s) hw h0
  have hd : Der gram defGroup (nm ++ (w ++ (c :: s))) (.ok [] [] (nm ++ (w ++ (c :: s)))) :=
    .altR (.seqFail1 (safe_no h hr (by decide))) (.eps _)
  refine .altR (.seqFail1 (safe_no h hr (by decide))) (.altR (.ntFail ?_) (.ntFail ?_))
  · exact .seqFail2 hd (.seqFail1 (safe_no h hr (by decide)))
  · exact .seqFail2 hd (.seqFail2 (Der.nt (g := gram) (n := NT.nodegi) (name_der h.1 hr))
      (.seqFail2 (C07_ignorable_skipped hw (meaningful_head hc hc')) (.seqFail1 (lit_fail1 (Ne.symm hb)))))

/-- The next attribute is not a value. -/
theorem next_attr {nm w : List Char} {c : Char} {s : List Char} (h : SafeName nm) (hw : Ignorable w) (h0 : w ≠ [])
    (hc : isBlank c = false) (hc' : c ≠ '#') (hb : c ≠ '{') : Next (nm ++ (w ++ (c :: s))) := by
  have hs := start_safe h (nameEnd_ign (r := c :: s) hw h0) (by simp)
  refine ⟨legal_mean h.1 _, ?_⟩
  have := fieldItem1_X (T := nm ++ (w ++ (c :: s))) (r := []) hs (o := .fail) (by
    simpa using X_fail_name (s := s) h hw h0 hc hc' hb)
  simpa using this

/-- One attribute: name, separator, value. -/
theorem attr_der {It : E} {nm w : List Char} {v m r : List Char} {t : Tree NT} (hIt : ReadsAttr It nm) (h : SafeName nm) (hw : Ignorable w) (h0 : w ≠ [])
    (hv : Meaningful v) (his : Der gram (kw "IS") v .fail) (hf : Der gram (.nt .field) v (.ok [t] m r)) (hr : Meaningful r) :
    Der gram It (nm ++ (w ++ v)) (.ok [.node .attr (nm ++ (w ++ m)) [.node .name nm [], t]] (nm ++ (w ++ m)) r) := by
  have he := nameEnd_ign (r := v) hw h0
  have h1 : Der gram (gram .attr) (nm ++ (w ++ v)) (.ok ([.node .name nm []] ++ ([] ++ ([t] ++ []))) (nm ++ (w ++ (m ++ []))) r) :=
    .seq (name_der h.1 he) (.seq (C07_ignorable_skipped hw hv) (.seq (.altR (.seqFail1 his) hf)
      (C07_ignorable_skipped (s := []) .nil hr)))
  have h2 := Der.nt (g := gram) (n := NT.attr) h1
  simp only [List.append_nil, List.nil_append, List.cons_append] at h2
  exact hIt _ _ he h2

/-- An attribute declared with IS. -/
theorem attr_is_der {It : E} {nm im w w1 w2 r : List Char} (hIt : ReadsAttr It nm) (h : SafeName nm) (hi : LegalName im) (hw : Ignorable w) (h0 : w ≠ [])
    (hw1 : Ignorable w1) (hw2 : Ignorable w2) (h2 : w2 ≠ []) (hr : Meaningful r) :
    Der gram It (nm ++ (w ++ (['I', 'S'] ++ (w1 ++ (im ++ (w2 ++ r))))))
      (.ok [.node .attr (nm ++ (w ++ (['I', 'S'] ++ (w1 ++ (im ++ w2))))) [.node .name nm [], .node .is im [.node .name im []]]]
        (nm ++ (w ++ (['I', 'S'] ++ (w1 ++ (im ++ w2))))) r) := by
  have he := nameEnd_ign (r := ['I', 'S'] ++ (w1 ++ (im ++ (w2 ++ r)))) hw h0
  have hg : Der gram isGroup (['I', 'S'] ++ (w1 ++ (im ++ (w2 ++ r)))) _ :=
    .seq (.lit _ _) (.seq (C07_ignorable_skipped hw1 (legal_mean hi _))
      (.seq (Der.nt (g := gram) (n := NT.is) (name_der hi (nameEnd_ign hw2 h2))) (C07_ignorable_skipped hw2 hr)))
  have h1 : Der gram (gram .attr) (nm ++ (w ++ (['I', 'S'] ++ (w1 ++ (im ++ (w2 ++ r)))))) _ :=
    .seq (name_der h.1 he) (.seq (C07_ignorable_skipped hw (meaningful_head (by decide) (by decide))) (.seq (.altL hg)
      (C07_ignorable_skipped (s := []) .nil hr)))
  have h2 := Der.nt (g := gram) (n := NT.attr) h1
  exact hIt _ _ he (by simpa using h2)

theorem bodyItem_brace (s : List Char) : Der gram bodyItem ('}' :: s) .fail := run_sound 30 _ _ _ (by rfl)

/-! ### Field values -/

/-- A field holding one item that brings its own trailing separator. -/
theorem field_one {T w r : List Char} {t : Tree NT} (hb : ∃ c s, T = c :: s ∧ c ≠ '[') (hr : Next r)
    (h : Der gram fieldItem1 (T ++ (w ++ r)) (.ok [t] (T ++ w) r)) :
    Der gram (.nt .field) (T ++ (w ++ r)) (.ok [.node .field (T ++ w) [t]] (T ++ w) r) := by
  obtain ⟨c, s, rfl, hc⟩ := hb
  have h1 : Der gram (.seq fieldItem1 ws) (c :: s ++ (w ++ r)) (.ok ([t] ++ []) (c :: s ++ w ++ []) r) :=
    .seq h (C07_ignorable_skipped (s := []) .nil hr.1)
  have h2 : Der gram (gram .field) (c :: s ++ (w ++ r)) (.ok ([t] ++ [] ++ []) (c :: s ++ w ++ [] ++ []) r) :=
    .altR (.seqFail1 (lit_fail1 (Ne.symm hc))) (.seq h1 (.starNil (.seqFail1 hr.2)))
  have h3 := Der.nt (g := gram) (n := NT.field) h2
  simpa using h3

theorem field_null {w r : List Char} (hw : Ignorable w) (hr : Next r) :
    Der gram (.nt .field) (['N', 'U', 'L', 'L'] ++ (w ++ r))
      (.ok [.node .field (['N', 'U', 'L', 'L'] ++ w) [.node .sfNull (['N', 'U', 'L', 'L'] ++ w) []]] (['N', 'U', 'L', 'L'] ++ w) r) := by
  refine field_one ⟨_, _, rfl, by decide⟩ hr (.altR ?_ (.altR ?_ (.altL ?_)))
  · exact run_sound 30 _ _ _ (by rfl)
  · exact run_sound 30 _ _ _ (by rfl)
  · have h1 : Der gram (gram .sfNull) (['N', 'U', 'L', 'L'] ++ (w ++ r)) _ := .seq (.lit _ _) (C07_ignorable_skipped hw hr.1)
    have h2 := Der.nt (g := gram) (n := NT.sfNull) h1
    simpa using h2

theorem field_bool {b : Bool} {w r : List Char} (hw : Ignorable w) (hr : Next r) :
    Der gram (.nt .field) (sfBoolStr b ++ (w ++ r))
      (.ok [.node .field (sfBoolStr b ++ w) [.node .sfBool (sfBoolStr b) []]] (sfBoolStr b ++ w) r) := by
  obtain ⟨kids, h1, h2⟩ := field_plain (S := fun _ => True ∧ False) (End := fun _ => True)
    (Q := fun t tr => tr = .node .sfBool t []) (fun _ h => h.2.elim) (fun _ _ _ _ => trivial) hw hr.1 hr.2 trivial
    (.one (sfBoolStr b)) (by simp) (by
      intro t ht
      simp only [List.mem_singleton] at ht
      subst ht
      refine ⟨fun r => ?_, ?_, fun r _ => ⟨_, .altR ?_ (.altL ?_), rfl⟩⟩
      · cases b <;> exact meaningful_head (by decide) (by decide)
      · cases b <;> simp [sfBoolStr]
      · cases b <;> exact run_sound 30 _ _ _ (by rfl)
      · cases b
        · exact Der.nt (g := gram) (n := NT.sfBool) (.altR (lit_fail1 (by decide)) (.lit _ _))
        · exact Der.nt (g := gram) (n := NT.sfBool) (.altL (.lit _ _))) (by cases b <;> simp [sfBoolStr]) (by cases b <;> simp [sfBoolStr])
  cases h2 with
  | cons h3 h4 => cases h4; rw [h3] at h1; exact h1

theorem field_string {s w r : List Char} (hw : Ignorable w) (hr : Next r) : ∃ t kids,
    Der gram (.nt .field) (sfStringStr s ++ (w ++ r)) (.ok [.node .field (sfStringStr s ++ w) [.node .sfString t kids]] (sfStringStr s ++ w) r) ∧
      ParseVal.decodeString kids = s := by
  obtain ⟨c, hc⟩ := str_head s
  obtain ⟨kids, h1, h2⟩ := field_plain (S := fun _ => True ∧ False) (End := fun _ => True)
    (Q := fun _ tr => ParseVal.decodeString (ParseVal.Tree.kids tr) = s ∧ ParseVal.Tree.tag tr = .sfString)
    (fun _ h => h.2.elim) (fun _ _ _ _ => trivial) hw hr.1 hr.2 trivial
    (.one (sfStringStr s)) (by simp) (by
      intro t ht
      simp only [List.mem_singleton] at ht
      subst ht
      exact str_item1 s) (by rw [hc]; simp) (by rw [hc]; simp)
  cases h2 with
  | @cons _ tr _ _ h3 h4 =>
    cases h4
    obtain ⟨tg, m, k⟩ := tr
    obtain ⟨h5, h6⟩ := h3
    simp only [ParseVal.Tree.tag] at h6
    subst h6
    exact ⟨m, k, h1, h5⟩

/-- Unbracketed numbers. -/
theorem field_numbers {lv : LinValues} (hlv : PlainOptions lv) (l : List (List Char)) (h0 : l ≠ []) (hl : ∀ t ∈ l, NumTok t)
    {w r : List Char} (hw : Ignorable w) (hw0 : w ≠ []) (hr : Next r) :
    Der gram (.nt .field) (pyJoin lv.numsep l ++ (w ++ r))
      (.ok [.node .field (pyJoin lv.numsep l ++ w) (l.map (fun t => .node .sfNumber t []))] (pyJoin lv.numsep l ++ w) r) ∧
    ∃ c s, pyJoin lv.numsep l = c :: s ∧ isExpChar c = true := by
  have hsep := SepText.join (S := NumSep) (sep := lv.numsep) ⟨hlv.numsep, hlv.numsep_ne⟩ l
  have hhead : ∃ c s, pyJoin lv.numsep l = c :: s ∧ isExpChar c = true := by
    cases l with
    | nil => exact absurd rfl h0
    | cons x l =>
      obtain ⟨c, s, hs, hc⟩ := (hl x (by simp)).head
      cases l with
      | nil => exact ⟨c, s, by simpa [pyJoin] using hs, hc⟩
      | cons y l => exact ⟨c, _, by simp [pyJoin, hs]; rfl, hc⟩
  obtain ⟨c, s, hs, hc⟩ := hhead
  obtain ⟨kids, hd, hq⟩ := field_plain (S := NumSep) (End := NumEnd) (Q := fun t tr => tr = .node .sfNumber t [])
    (fun _ h => h.1) (fun s r hs _ => numEnd_of_ignorable hs.1 hs.2) hw hr.1 hr.2 (numEnd_of_ignorable hw hw0) hsep h0
    (fun t ht => num_item1 (hl t ht))
    (by
      intro t ht
      rw [hs] at ht
      cases ht
      exact absurd hc (by decide))
    (by rw [hs]; simp)
  rw [forall2_numbers hq] at hd
  exact ⟨hd, c, s, hs, hc⟩

/-- An empty list. -/
theorem field_empty {cs w r : List Char} (hcs : Ignorable cs) (hw : Ignorable w) (hr : Next r) :
    Der gram (.nt .field) (['['] ++ cs ++ [']'] ++ (w ++ r))
      (.ok [.node .field (['['] ++ cs ++ [']'] ++ w) []] (['['] ++ cs ++ [']'] ++ w) r) := by
  obtain ⟨kids, h1, h2⟩ := field_bracketed (S := fun _ => True ∧ False) (End := fun _ => True)
    (Q := fun (_ : List Char) (_ : Tree NT) => True) (fun _ h => h.2.elim) (fun _ _ _ _ => trivial) hcs .nil hw hr.1
    (fun _ => trivial) .nil (by simp)
  cases h2
  simpa using h1

/-! ### Routes -/

theorem name_dot {nm r : List Char} (h : LegalName nm) : Der gram (.nt .name) (nm ++ ('.' :: r)) (.ok [.node .name nm []] nm ('.' :: r)) :=
  name_der h (nameEnd_cons (by decide))

theorem route_der {s sf d df w r : List Char} (hs : LegalName s) (hsf : LegalName sf) (hd : LegalName d) (hdf : LegalName df)
    (hw : Ignorable w) (hr : Meaningful r) (he : NameEnd (w ++ r)) :
    ∃ m, Der gram (.nt .route) (['R', 'O', 'U', 'T', 'E', ' '] ++ s ++ ['.'] ++ sf ++ [' ', 'T', 'O', ' '] ++ d ++ ['.'] ++ df ++ (w ++ r))
      (.ok [.node .route m [.node .name s [], .node .name sf [], .node .name d [], .node .name df []]]
        (['R', 'O', 'U', 'T', 'E', ' '] ++ s ++ ['.'] ++ sf ++ [' ', 'T', 'O', ' '] ++ d ++ ['.'] ++ df ++ w) r) := by
  have h1 : Der gram (gram .route) (['R', 'O', 'U', 'T', 'E'] ++ ([' '] ++ (s ++ (['.'] ++ (sf ++ ([' '] ++ (['T', 'O'] ++ ([' '] ++ (d ++ (['.'] ++ (df ++ (w ++ r)))))))))))) _ :=
    .seq (.lit _ _) (.seq (C07_ignorable_skipped sp_ign (legal_mean hs _)) (.seq (.cut (name_dot hs)) (.seq (.cut (.lit _ _))
      (.seq (.cut (name_der hsf (nameEnd_cons (by decide)))) (.seq (.cut (C07_ignorable_skipped sp_ign (meaningful_head (by decide) (by decide))))
        (.seq (.cut (.lit _ _)) (.seq (.cut (C07_ignorable_skipped sp_ign (legal_mean hd _))) (.seq (.cut (name_dot hd)) (.seq (.cut (.lit _ _))
          (.seq (.cut (name_der hdf he)) (.cut (C07_ignorable_skipped hw hr))))))))))))
  have h2 := Der.nt (g := gram) (n := NT.route) h1
  exact ⟨_, by simpa using h2⟩

/-! ### Root items -/

/-- the alternatives of a root item -/
def rootAlt : E := .alts [.nt .proto, .nt .externProto, .nt .route, useGroup, .nt .script, .nt .node]

theorem rootAlt_X {T r : List Char} (h : Start T) {o} (hX : Der gram X (T ++ r) o) : Der gram rootAlt (T ++ r) o :=
  .altR (h.noProto r) (.altR (h.noExtern r) (.altR (h.noRoute r) hX))

theorem rootItem_der {w0 i m r : List Char} {ts : List (Tree NT)} (hw0 : Ignorable w0) (hi : Meaningful i)
    (h : Der gram rootAlt i (.ok ts m r)) (hr : Meaningful r) :
    Der gram (.nt .rootItem) (w0 ++ i) (.ok [.node .rootItem (w0 ++ m) ts] (w0 ++ m) r) := by
  have h1 : Der gram (gram .rootItem) (w0 ++ i) (.ok ([] ++ (ts ++ [])) (w0 ++ (m ++ [])) r) :=
    .seq (C07_ignorable_skipped hw0 hi) (.seq h (C07_ignorable_skipped (s := []) .nil hr))
  have h2 := Der.nt (g := gram) (n := NT.rootItem) h1
  simpa using h2

theorem rootItem_end : Der gram (.nt .rootItem) [] .fail := run_sound 30 _ _ _ (by rfl)

end Verif.SceneText
