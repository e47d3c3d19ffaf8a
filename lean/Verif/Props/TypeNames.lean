import Verif.Props.Lineariser
/-!
C57: which type names and DEF names can be read.  The text of one node with no attributes, at the top level of a file.
-/
namespace Verif.Lin
open Verif.Peg Verif.Grammar Verif.TextOut Verif.Text Verif.SceneText Verif.ListText
variable {F : Type}

/-! ### Specification -/

/-- A file with one node: an optional `DEF name`, the type name, braces, and ignorable text between them. -/
def oneNodeFile (d p w0 w1 w2 : Text) : Text := header ++ (defText d ++ (p ++ (w0 ++ '{' :: (w1 ++ '}' :: w2))))

/-- The scene graph consists of one node of class `c` with the name `d` and no field set. -/
def IsOneNode (sc : Scene F) (c : Class F) (d : Text) : Prop :=
  ∃ i n, sc.children = [i] ∧ sc.heap i = some n ∧ n.cls = c ∧ n.DEF = d ∧ (∀ f, n.dict f = none) ∧ (d ≠ [] → sc.getDEF d = some i)

/-- Type names that are taken for something else.  After `DEF name` it is only those that begin with `Script`;
otherwise also those that begin with another keyword.  `USE` is harmless unless a name follows it at once. -/
def Misread (d p : Text) : Prop :=
  chars "Script" <+: p ∨
  (d = [] ∧ (chars "PROTO" <+: p ∨ chars "EXTERNPROTO" <+: p ∨ chars "ROUTE" <+: p ∨ chars "DEF" <+: p ∨ ∃ q, LegalName q ∧ p = chars "USE" ++ q))

/-! ### Proof -/

section
variable {d p w0 w1 w2 : Text}

/-- what follows the type name -/
local notation "TL" => (w0 ++ '{' :: (w1 ++ '}' :: w2))

theorem tl_end (hw0 : Ignorable w0) (s : Text) : NameEnd (w0 ++ '{' :: s) := by
  by_cases h : w0 = []
  · subst h; exact nameEnd_cons (by decide)
  · exact nameEnd_ign hw0 h

theorem mean_brace (s : Text) : Meaningful ('{' :: s) := meaningful_head (by decide) (by decide)

theorem no_kw {k p r : Text} (hk : k ∈ keywords) (h : ¬ k <+: p) (hr : NameEnd r) : Der gram (.lit k) (p ++ r) .fail :=
  .litFail (prefix_name (keyword_rest k hk) h hr)

theorem mean_nil : Meaningful [] := by
  exact ListText.meaningful_nil

theorem body_empty (s : Text) : Der gram (.star bodyItem) ('}' :: s) (.ok [] [] ('}' :: s)) := .starNil (run_sound 30 _ _ _ (by rfl))

theorem def_der' {d p r : List Char} (hd : d = [] ∨ LegalName d) (hp : LegalName p) (hdef : d = [] → ¬ chars "DEF" <+: p) (hr : NameEnd r) :
    Der gram defGroup (defText d ++ (p ++ r)) (.ok (defTrees d) (defText d) (p ++ r)) := by
  by_cases h0 : d = []
  · subst h0
    simp only [defText, defTrees, if_true, List.nil_append]
    exact .altR (.seqFail1 (no_kw (by decide) (hdef rfl) hr)) (.eps _)
  · have hl : LegalName d := hd.resolve_left h0
    simp only [defText, defTrees, if_neg h0]
    have h1 : Der gram defGroup (['D', 'E', 'F'] ++ ([' '] ++ (d ++ ([' '] ++ (p ++ r))))) _ :=
      .altL (.seq (.lit _ _) (.seq (C07_ignorable_skipped sp_ign (legal_mean hl _))
        (.seq (.cut (name_der hl (nameEnd_cons (by decide)))) (.cut (C07_ignorable_skipped sp_ign (legal_mean hp _))))))
    simpa using h1

/-- the node itself -/
theorem oneNode_node (hd : d = [] ∨ LegalName d) (hp : LegalName p) (hdef : d = [] → ¬ chars "DEF" <+: p)
    (hw0 : Ignorable w0) (hw1 : Ignorable w1) (hw2 : Ignorable w2) :
    ∃ m, Der gram (.nt .node) (defText d ++ (p ++ TL)) (.ok [.node .node m (defTrees d ++ [.node .nodegi p [.node .name p []]])] (defText d ++ (p ++ TL)) []) := by
  have he := tl_end hw0 (w1 ++ '}' :: w2)
  have hnode : Der gram (gram .node) (defText d ++ (p ++ (w0 ++ (['{'] ++ (w1 ++ (([] : Text) ++ (([] : Text) ++ (['}'] ++ (w2 ++ [])))))))))
      (.ok (defTrees d ++ ([.node .nodegi p [.node .name p []]] ++ ([] ++ ([] ++ ([] ++ ([] ++ ([] ++ ([] ++ []))))))))
        (defText d ++ (p ++ (w0 ++ (['{'] ++ (w1 ++ (([] : Text) ++ (([] : Text) ++ (['}'] ++ w2)))))))) []) :=
    .seq (def_der' hd hp hdef (by simpa using he)) (.seq (Der.nt (g := gram) (n := NT.nodegi) (name_der hp (by simpa using he)))
      (.seq (C07_ignorable_skipped hw0 (mean_brace _))
        (.seq (.lit _ _) (.seq (C07_ignorable_skipped hw1 (meaningful_head (by decide) (by decide))) (.seq (body_empty _)
          (.seq (C07_ignorable_skipped .nil (meaningful_head (by decide) (by decide)))
            (.seq (.cut (.lit _ _)) (.cut (C07_ignorable_skipped hw2 mean_nil)))))))))
  have := Der.nt (g := gram) (n := NT.node) hnode
  exact ⟨_, by simpa using this⟩

/-- a file whose only item is read completely -/
theorem file_one {i : Text} {ts : List PTree} (hi : Meaningful i) (h : Der gram rootAlt i (.ok ts i [])) :
    ∃ a m eof, Der gram (gram .vrmlFile) (header ++ i) (.ok [a, .node .vrmlScene m [.node .rootItem m ts], eof] (header ++ i) []) := by
  have hh : Der gram (.nt .header) (chars "#VRML V2.0 utf8" ++ (['\n'] ++ i)) (.ok [.node .header (chars "#VRML V2.0 utf8") []] (chars "#VRML V2.0 utf8") (['\n'] ++ i)) :=
    Der.nt (g := gram) (n := NT.header) (run_sound 30 _ _ _ (by rfl))
  have hitem := rootItem_der (w0 := ['\n']) (.blank (by decide) .nil) hi h mean_nil
  have hsc := Der.nt (g := gram) (n := NT.vrmlScene) (.starCons hitem (by simp) (.starNil rootItem_end))
  have h1 : Der gram (gram .vrmlFile) _ _ := .seq hh (.seq hsc (.cut (Der.nt (g := gram) (n := NT.eof) .eof)))
  refine ⟨.node .header (chars "#VRML V2.0 utf8") [], ['\n'] ++ i, .node .eof [] [], ?_⟩
  simpa [header] using h1

/-- a file whose first item raises an error -/
theorem file_bad {i : Text} (hi : Meaningful i) (h : Der gram rootAlt i .err) : Der gram (gram .vrmlFile) (header ++ i) .err := by
  have hh : Der gram (.nt .header) (chars "#VRML V2.0 utf8" ++ (['\n'] ++ i)) (.ok [.node .header (chars "#VRML V2.0 utf8") []] (chars "#VRML V2.0 utf8") (['\n'] ++ i)) :=
    Der.nt (g := gram) (n := NT.header) (run_sound 30 _ _ _ (by rfl))
  have h1 : Der gram (gram .vrmlFile) _ _ := .seqErr2 hh (.seqErr1 (.ntErr (.starErr1 (.ntErr (.seqErr2 (C07_ignorable_skipped (s := ['\n']) (r := i) (.blank (by decide) .nil) hi) (.seqErr1 h))))))
  simpa [header] using h1

/-- a file whose first item cannot be read -/
theorem file_none {i : Text} (hi : Meaningful i) (h : Der gram rootAlt i .fail) : Der gram (gram .vrmlFile) (header ++ i) .err := by
  have hh : Der gram (.nt .header) (chars "#VRML V2.0 utf8" ++ (['\n'] ++ i)) (.ok [.node .header (chars "#VRML V2.0 utf8") []] (chars "#VRML V2.0 utf8") (['\n'] ++ i)) :=
    Der.nt (g := gram) (n := NT.header) (run_sound 30 _ _ _ (by rfl))
  have h1 : Der gram (gram .vrmlFile) _ _ := .seqErr2 hh (.seqErr2 (Der.nt (g := gram) (n := NT.vrmlScene) (.starNil (.ntFail (.seqFail2 (C07_ignorable_skipped (s := ['\n']) (r := i) (.blank (by decide) .nil) hi) (.seqFail1 h)))))
    (.cutFail (.ntFail .eofFail)))
  simpa [header] using h1

theorem rootItem_brace (s : Text) : Der gram (.nt .rootItem) ('{' :: s) .fail := run_sound 30 _ _ _ (by rfl)

/-- a file whose first item ends before a brace -/
theorem file_rest {i m s : Text} {ts : List PTree} (hi : Meaningful i) (h : Der gram rootAlt i (.ok ts m ('{' :: s))) : Der gram (gram .vrmlFile) (header ++ i) .err := by
  have hh : Der gram (.nt .header) (chars "#VRML V2.0 utf8" ++ (['\n'] ++ i)) (.ok [.node .header (chars "#VRML V2.0 utf8") []] (chars "#VRML V2.0 utf8") (['\n'] ++ i)) :=
    Der.nt (g := gram) (n := NT.header) (run_sound 30 _ _ _ (by rfl))
  have hitem := rootItem_der (w0 := ['\n']) (.blank (by decide) .nil) hi h (mean_brace s)
  have hsc := Der.nt (g := gram) (n := NT.vrmlScene) (.starCons hitem (by simp) (.starNil (rootItem_brace s)))
  have h1 : Der gram (gram .vrmlFile) _ _ := .seqErr2 hh (.seqErr2 hsc (.cutFail (.ntFail .eofFail)))
  simpa [header] using h1

theorem defText_mean (hp : LegalName p) (r : Text) : Meaningful (defText d ++ (p ++ r)) := by
  by_cases h : d = []
  · simp only [defText, h, if_true, List.nil_append]; exact legal_mean hp _
  · simp only [defText, if_neg h]; exact meaningful_head (by decide) (by decide)

/-- a keyword other than DEF is not found at `DEF name` or at a type name that does not begin with it -/
theorem kw_fail {k : Text} (hk : k ∈ keywords) (hk' : k.head? ≠ some 'D') (hn : d = [] → ¬ k <+: p) {r : Text} (hr : NameEnd r) :
    Der gram (.lit k) (defText d ++ (p ++ r)) .fail := by
  by_cases h : d = []
  · simp only [defText, h, if_true, List.nil_append]
    exact no_kw hk (hn h) hr
  · simp only [defText, if_neg h]
    cases k with
    | nil => exact absurd hk (by decide)
    | cons c k => exact lit_fail1 (by simpa using hk')

theorem use_fail (hp : LegalName p) (hn : ∀ q, LegalName q → p ≠ chars "USE" ++ q) (hw0 : Ignorable w0) (s : Text) :
    Der gram useGroup (p ++ (w0 ++ '{' :: s)) .fail := by
  by_cases h : chars "USE" <+: p
  · obtain ⟨q, rfl⟩ := h
    rw [List.append_assoc]
    refine .seqFail2 (.lit _ _) ?_
    have hq : ∀ c t, q = c :: t → isNameStart c = false := by
      rintro c t rfl
      cases hc : isNameStart c with
      | false => rfl
      | true =>
        refine absurd rfl (hn (c :: t) ⟨c, t, rfl, hc, fun x hx => ?_⟩)
        obtain ⟨_, _, he, -, hr⟩ := hp
        cases he
        exact hr x (by simp [hx])
    cases q with
    | nil => exact .seqFail2 (C07_ignorable_skipped (s := w0) (r := '{' :: s) hw0 (mean_brace s)) (.seqFail1 (.ntFail (.ntFail (.seqFail1 (.clsFail (by decide))))))
    | cons c t =>
      have hrest : isNameRest c = true := by
        obtain ⟨_, _, he, -, hr⟩ := hp
        cases he
        exact hr c (by simp)
      have hm : Meaningful (c :: t ++ (w0 ++ '{' :: s)) := by
        refine meaningful_head ?_ (by rintro rfl; exact absurd hrest (by decide))
        cases hb : isBlank c with
        | false => rfl
        | true =>
          have := (isBlank_iff c).1 hb
          simp only [List.mem_cons, List.not_mem_nil, or_false] at this
          rcases this with rfl | rfl | rfl | rfl | rfl | rfl | rfl <;> exact absurd hrest (by decide)
      exact .seqFail2 (C07_ignorable_skipped (s := []) .nil hm) (.seqFail1 (.ntFail (.ntFail (.seqFail1 (.clsFail (hq c t rfl))))))
  · exact .seqFail1 (no_kw (by decide) h (tl_end hw0 s))

/-- Where the type name is not mistaken for something else, the file is read as one node. -/
theorem oneNode_read {lk : Text → Option (Class F)} {fl : Floats F} {c : Class F} (hlk : lk p = some c) (hd : d = [] ∨ LegalName d) (hp : LegalName p)
    (hm : ¬ Misread d p) (hw0 : Ignorable w0) (hw1 : Ignorable w1) (hw2 : Ignorable w2) :
    ∃ sc, Reads lk fl (oneNodeFile d p w0 w1 w2) sc ∧ IsOneNode sc c d := by
  simp only [Misread, not_or, not_and, not_exists] at hm
  obtain ⟨hs, hm⟩ := hm
  have he := tl_end hw0 (w1 ++ '}' :: w2)
  obtain ⟨m, hnode⟩ := oneNode_node hd hp (fun h => (hm h).2.2.2.1) hw0 hw1 hw2
  have huse : Der gram useGroup (defText d ++ (p ++ TL)) .fail := by
    by_cases h : d = []
    · have := use_fail hp (hm h).2.2.2.2 hw0 (w1 ++ '}' :: w2)
      simpa only [defText, h, if_true, List.nil_append] using this
    · simp only [defText, if_neg h]; exact .seqFail1 (lit_fail1 (by decide))
  have hroot : Der gram rootAlt (defText d ++ (p ++ TL)) _ :=
    .altR (.ntFail (.seqFail1 (kw_fail (by decide) (by decide) (fun h => (hm h).1) he)))
      (.altR (.ntFail (.seqFail1 (kw_fail (by decide) (by decide) (fun h => (hm h).2.1) he)))
        (.altR (.ntFail (.seqFail1 (kw_fail (by decide) (by decide) (fun h => (hm h).2.2.1) he)))
          (.altR huse (.altR (.ntFail (.seqFail2 (def_der' hd hp (fun h => (hm h).2.2.2.1) he) (.seqFail1 (no_kw (by decide) hs he)))) hnode))))
  obtain ⟨a, m', eof, hfile⟩ := file_one (defText_mean hp _) hroot
  refine ⟨{ (RSt.newNode ⟨Scene.empty, 0⟩ c d).sc with children := [0] }, ⟨a, _, eof, _, 1, hfile, ?_⟩, ?_⟩
  · by_cases h : d = []
    · simp [disp, dispList, defTrees, h, hlk, RSt.newNode, Scene.empty, Scene.regDefName]
    · simp [disp, dispList, defTrees, h, hlk, RSt.newNode, Scene.empty, Scene.regDefName]
  · by_cases h : d = []
    · subst h
      exact ⟨0, ⟨c, [], fun _ => none⟩, rfl, by simp [RSt.newNode, Scene.regDefName, Scene.empty], rfl, rfl, fun _ => rfl, fun h => absurd rfl h⟩
    · refine ⟨0, ⟨c, d, fun _ => none⟩, rfl, by simp [RSt.newNode, Scene.regDefName, Scene.empty, h], rfl, rfl, fun _ => rfl, fun _ => ?_⟩
      simp [RSt.newNode, h, Scene.getDEF, Scene.regDefName]

theorem rest_char {k q : Text} (hp : LegalName (k ++ q)) (hk : k ≠ []) : ∀ x ∈ q, isNameRest x = true := by
  intro x hx
  cases k with
  | nil => exact absurd rfl hk
  | cons a k =>
    obtain ⟨_, _, he, -, hr⟩ := hp
    cases he
    exact hr x (by simp [hx])

theorem rest_mean {c : Char} (hr : isNameRest c = true) (s : Text) : Meaningful (c :: s) := by
  refine meaningful_head ?_ (by rintro rfl; exact absurd hr (by decide))
  cases hb : isBlank c with
  | false => rfl
  | true =>
    have := (isBlank_iff c).1 hb
    simp only [List.mem_cons, List.not_mem_nil, or_false] at this
    rcases this with rfl | rfl | rfl | rfl | rfl | rfl | rfl <;> exact absurd hr (by decide)

/-- What follows a keyword at the beginning of a type name is a name or cannot begin one. -/
theorem rest_cases {k q : Text} (hp : LegalName (k ++ q)) (hk : k ≠ []) (hw0 : Ignorable w0) (s : Text) :
    (LegalName q ∧ Der gram ws (q ++ (w0 ++ '{' :: s)) (.ok [] [] (q ++ (w0 ++ '{' :: s))) ∧
      Der gram (.nt .name) (q ++ (w0 ++ '{' :: s)) (.ok [.node .name q []] q (w0 ++ '{' :: s))) ∨
    (¬ LegalName q ∧ ∃ m r, Der gram ws (q ++ (w0 ++ '{' :: s)) (.ok [] m r) ∧ Der gram (.nt .name) r .fail) := by
  have hrest := rest_char hp hk
  by_cases hq : LegalName q
  · exact .inl ⟨hq, C07_ignorable_skipped (s := []) .nil (legal_mean hq _), name_der hq (tl_end hw0 s)⟩
  · refine .inr ⟨hq, ?_⟩
    cases q with
    | nil => exact ⟨w0, '{' :: s, C07_ignorable_skipped hw0 (mean_brace s), .ntFail (.seqFail1 (.clsFail (by decide)))⟩
    | cons c t =>
      have hc : isNameStart c = false := by
        cases h : isNameStart c with
        | false => rfl
        | true => exact absurd ⟨c, t, rfl, h, fun x hx => hrest x (by simp [hx])⟩ hq
      have hm := rest_mean (hrest c (by simp)) (t ++ (w0 ++ '{' :: s))
      exact ⟨[], _, C07_ignorable_skipped (s := []) .nil hm, .ntFail (.seqFail1 (.clsFail hc))⟩

/-- The keywords begin with different letters. -/
theorem other_kw {k k' : Text} (hk : k ∈ keywords) (hk' : k' ∈ keywords) (hne : k ≠ k') (r : Text) : Der gram (.lit k) (k' ++ r) .fail := by
  refine .litFail ?_
  have hall : ∀ k ∈ keywords, ∀ k' ∈ keywords, k ≠ k' → k.take 1 ≠ k'.take 1 := by decide
  have hlen : ∀ k ∈ keywords, 1 ≤ k.length := by decide
  rintro ⟨t, ht⟩
  refine hall k hk k' hk' hne ?_
  have := congrArg (List.take 1) ht
  rwa [List.take_append_of_le_length (hlen k hk), List.take_append_of_le_length (hlen k' hk')] at this

/-- Where it is mistaken, the file is rejected. -/
theorem oneNode_bad (hd : d = [] ∨ LegalName d) (hp : LegalName p) (hns : p ≠ chars "Script") (hm : Misread d p) (hw0 : Ignorable w0) :
    Der gram (gram .vrmlFile) (oneNodeFile d p w0 w1 w2) .err := by
  have hmean := defText_mean (d := d) hp TL
  have hKW : ∀ k k' q : Text, k ∈ keywords → k' ∈ keywords → k ≠ k' → k.head? ≠ some 'D' → Der gram (.lit k) (defText d ++ ((k' ++ q) ++ TL)) .fail := by
    intro k k' q hk hk' hne hD
    by_cases h : d = []
    · simp only [defText, h, if_true, List.nil_append]
      rw [List.append_assoc]; exact other_kw hk hk' hne _
    · simp only [defText, if_neg h]
      cases k with
      | nil => exact absurd hk (by decide)
      | cons c k => exact lit_fail1 (by simpa using hD)
  have h1 : ∀ {e : E} {k k' q : Text}, k ∈ keywords → k' ∈ keywords → k ≠ k' → k.head? ≠ some 'D' → Der gram (.seq (.lit k) e) (defText d ++ ((k' ++ q) ++ TL)) .fail :=
    fun hk hk' hne hD => .seqFail1 (hKW _ _ _ hk hk' hne hD)
  rcases hm with ⟨q, rfl⟩ | ⟨rfl, ⟨q, rfl⟩ | ⟨q, rfl⟩ | ⟨q, rfl⟩ | ⟨q, rfl⟩ | ⟨q, hq, rfl⟩⟩
  · refine file_bad hmean ?_
    have he := tl_end hw0 (w1 ++ '}' :: w2)
    have hdef := def_der' (r := TL) hd hp (fun _ h => by simp at h) he
    refine .altR (.ntFail (h1 (by decide) (by decide) (by decide) (by decide))) (.altR (.ntFail (h1 (by decide) (by decide) (by decide) (by decide)))
      (.altR (.ntFail (h1 (by decide) (by decide) (by decide) (by decide))) (.altR (h1 (by decide) (by decide) (by decide) (by decide)) (.altErr (.ntErr ?_)))))
    rw [List.append_assoc] at hdef ⊢
    refine .seqErr2 hdef (.seqErr2 (.lit _ _) ?_)
    rcases rest_cases hp (by simp) hw0 (w1 ++ '}' :: w2) with ⟨hq, e1, e2⟩ | ⟨hq, m, r, e1, e2⟩
    · refine .seqErr2 e1 (.seqErr1 (.cutFail ?_))
      obtain ⟨c, t, rfl, hc⟩ := legal_head hq
      exact lit_fail1 (Ne.symm (nameStart_props hc).2.2.2.2.2.1)
    · cases q with
      | nil => exact absurd rfl hns
      | cons c t =>
        have hr := rest_char hp (by simp) c (by simp)
        exact .seqErr2 (C07_ignorable_skipped (s := []) .nil (rest_mean hr _)) (.seqErr1 (.cutFail (lit_fail1 (by rintro rfl; exact absurd hr (by decide)))))
  · refine file_bad hmean (.altErr (.ntErr ?_))
    simp only [defText, if_true, List.nil_append, List.append_assoc]
    refine .seqErr2 (.lit _ _) ?_
    rcases rest_cases hp (by simp) hw0 (w1 ++ '}' :: w2) with ⟨hq, e1, e2⟩ | ⟨hq, m, r, e1, e2⟩
    · exact .seqErr2 e1 (.seqErr2 (.cut (Der.nt (g := gram) (n := NT.nodegi) e2)) (.seqErr2 (.cut (C07_ignorable_skipped hw0 (mean_brace _))) (.seqErr1 (.cutFail (lit_fail1 (by decide))))))
    · exact .seqErr2 e1 (.seqErr1 (.cutFail (.ntFail e2)))
  · refine file_bad hmean (.altR (.ntFail (h1 (by decide) (by decide) (by decide) (by decide))) (.altErr (.ntErr ?_)))
    simp only [defText, if_true, List.nil_append, List.append_assoc]
    refine .seqErr2 (.lit _ _) ?_
    rcases rest_cases hp (by simp) hw0 (w1 ++ '}' :: w2) with ⟨hq, e1, e2⟩ | ⟨hq, m, r, e1, e2⟩
    · exact .seqErr2 e1 (.seqErr2 (.cut (Der.nt (g := gram) (n := NT.nodegi) e2)) (.seqErr2 (.cut (C07_ignorable_skipped hw0 (mean_brace _))) (.seqErr1 (.cutFail (lit_fail1 (by decide))))))
    · exact .seqErr2 e1 (.seqErr1 (.cutFail (.ntFail e2)))
  · refine file_bad hmean (.altR (.ntFail (h1 (by decide) (by decide) (by decide) (by decide))) (.altR (.ntFail (h1 (by decide) (by decide) (by decide) (by decide))) (.altErr (.ntErr ?_))))
    simp only [defText, if_true, List.nil_append, List.append_assoc]
    refine .seqErr2 (.lit _ _) ?_
    rcases rest_cases hp (by simp) hw0 (w1 ++ '}' :: w2) with ⟨hq, e1, e2⟩ | ⟨hq, m, r, e1, e2⟩
    · refine .seqErr2 e1 (.seqErr2 (.cut e2) (.seqErr1 (.cutFail (.litFail ?_))))
      cases hw0 with
      | nil => simp
      | blank hc _ => rintro ⟨t, ht⟩; cases ht; exact absurd hc (by decide)
      | comment _ _ => simp
    · exact .seqErr2 e1 (.seqErr1 (.cutFail e2))
  · rcases rest_cases hp (by simp) hw0 (w1 ++ '}' :: w2) with ⟨hq, e1, e2⟩ | ⟨hq, m, r, e1, e2⟩
    · refine file_none hmean ?_
      have hdef : Der gram defGroup (chars "DEF" ++ (q ++ TL)) _ := .altL (.seq (.lit _ _) (.seq e1 (.seq (.cut e2) (.cut (C07_ignorable_skipped hw0 (mean_brace _))))))
      refine .altR (.ntFail (h1 (by decide) (by decide) (by decide) (by decide))) (.altR (.ntFail (h1 (by decide) (by decide) (by decide) (by decide))) (.altR (.ntFail (h1 (by decide) (by decide) (by decide) (by decide)))
        (.altR (h1 (by decide) (by decide) (by decide) (by decide)) ?_)))
      simp only [defText, if_true, List.nil_append, List.append_assoc]
      exact .altR (.ntFail (.seqFail2 hdef (.seqFail1 (lit_fail1 (by decide))))) (.ntFail (.seqFail2 hdef (.seqFail1 (.ntFail (.ntFail (.seqFail1 (.clsFail (by decide))))))))
    · refine file_bad hmean ?_
      refine .altR (.ntFail (h1 (by decide) (by decide) (by decide) (by decide))) (.altR (.ntFail (h1 (by decide) (by decide) (by decide) (by decide))) (.altR (.ntFail (h1 (by decide) (by decide) (by decide) (by decide)))
        (.altR (h1 (by decide) (by decide) (by decide) (by decide)) (.altErr (.ntErr (.seqErr1 (.altErr ?_)))))))
      simp only [defText, if_true, List.nil_append, List.append_assoc]
      exact .seqErr2 (.lit _ _) (.seqErr2 e1 (.seqErr1 (.cutFail e2)))
  · have e1 : Der gram ws (q ++ TL) (.ok [] [] (q ++ TL)) := C07_ignorable_skipped (s := []) .nil (legal_mean hq _)
    have huse : Der gram useGroup (chars "USE" ++ (q ++ TL)) _ :=
      .seq (.lit _ _) (.seq e1 (.seq (Der.nt (g := gram) (n := NT.use) (name_der hq (tl_end hw0 _))) (C07_ignorable_skipped hw0 (mean_brace _))))
    refine file_rest (s := w1 ++ '}' :: w2) (m := chars "USE" ++ (q ++ w0)) (ts := [.node .use q [.node .name q []]]) hmean (.altR (.ntFail (h1 (by decide) (by decide) (by decide) (by decide))) (.altR (.ntFail (h1 (by decide) (by decide) (by decide) (by decide))) (.altR (.ntFail (h1 (by decide) (by decide) (by decide) (by decide)))
        (.altL ?_))))
    simpa [defText] using huse

/-- **Exactly which names can be read.**  A file with one node of a known type, with or without a DEF name, is read as
one node of that type and name if and only if the type name is not one of those taken for something else.  In
particular every legal DEF name is read back.  (The type name `Script` itself starts a script, which is not modelled.) -/
theorem C57_exact {lk : Text → Option (Class F)} {fl : Floats F} {c : Class F} (hlk : lk p = some c) (hd : d = [] ∨ LegalName d) (hp : LegalName p)
    (hns : p ≠ chars "Script") (hw0 : Ignorable w0) (hw1 : Ignorable w1) (hw2 : Ignorable w2) :
    (∃ sc, Reads lk fl (oneNodeFile d p w0 w1 w2) sc ∧ IsOneNode sc c d) ↔ ¬ Misread d p := by
  constructor
  · rintro ⟨sc, ⟨_, _, _, _, _, h, -⟩, -⟩ hm
    cases h.det _ (oneNode_bad hd hp hns hm hw0)
  · exact fun hm => oneNode_read hlk hd hp hm hw0 hw1 hw2

/-- The unrestricted claim is false: for every legal name made of a keyword and more characters the file is rejected
outright, although the type is known. -/
theorem C57_refuted_keyword_prefix (lk : Text → Option (Class F)) (fl : Floats F) {k q : Text} (hk : k ∈ [chars "PROTO", chars "EXTERNPROTO", chars "ROUTE", chars "DEF", chars "Script"])
    (hp : LegalName (k ++ q)) (hq : q ≠ []) (hw0 : Ignorable w0) : ∀ sc, ¬ Reads lk fl (oneNodeFile [] (k ++ q) w0 w1 w2) sc := by
  rintro sc ⟨_, _, _, _, _, h, -⟩
  refine absurd (h.det _ (oneNode_bad (.inl rfl) hp ?_ ?_ hw0)) (by simp)
  · intro he
    simp only [List.mem_cons, List.not_mem_nil, or_false] at hk
    rcases hk with rfl | rfl | rfl | rfl | rfl <;> simp at he
    exact hq he
  · simp only [List.mem_cons, List.not_mem_nil, or_false] at hk
    rcases hk with rfl | rfl | rfl | rfl | rfl
    · exact .inr ⟨rfl, .inl (List.prefix_append _ _)⟩
    · exact .inr ⟨rfl, .inr (.inl (List.prefix_append _ _))⟩
    · exact .inr ⟨rfl, .inr (.inr (.inl (List.prefix_append _ _)))⟩
    · exact .inr ⟨rfl, .inr (.inr (.inr (.inl (List.prefix_append _ _))))⟩
    · exact .inl (List.prefix_append _ _)

end

/-! ### Examples -/

example : ∀ sc, ¬ Reads exLookup exFloats (oneNodeFile [] (chars "ROUTEr") [] [] []) sc :=
  C57_refuted_keyword_prefix (k := chars "ROUTE") (q := chars "r") _ _ (by decide) (by decide) (by decide) .nil

example : ∃ sc, Reads exLookup exFloats (oneNodeFile (chars "ROUTEr") (chars "Group") [' '] [] ['\n']) sc ∧ IsOneNode sc exClass (chars "ROUTEr") :=
  (C57_exact (fl := exFloats) rfl (.inr (by decide)) (by decide) (by decide) (.blank (by decide) .nil) .nil (.blank (by decide) .nil)).2 (by
    rintro (⟨q, hq⟩ | ⟨hq, -⟩)
    · cases hq
    · cases hq)

end Verif.Lin
