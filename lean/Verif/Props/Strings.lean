import Verif.Props.Lineariser
import Verif.Props.Nesting
import Verif.Lemmas.Balance2
/-!
C56: string lists in written scenes.
-/
namespace Verif.Lin
open Verif.Peg Verif.Grammar Verif.TextOut Verif.Text Verif.SceneText Verif.ListText Verif.Nesting
variable {F : Type}

/-- The text of a list of at least two strings: a bracket, something ignorable, a quote. -/
theorem strs_form {lv : LinValues} (hlv : PlainOptions lv) {a b : Text} {l : List Text} :
    ∃ w t, Ignorable w ∧ mfStringStr lv (a :: b :: l) = '[' :: (w ++ '"' :: t) := by
  obtain ⟨t, ht⟩ := str_head a
  simp only [mfStringStr, reduceCtorEq, if_false, List.map_cons, List.length_cons]
  split
  · rw [if_pos (by omega)]
    refine ⟨lv.subelspacer ++ ['\n'] ++ lv.curindent ++ lv.indent, t ++ (((sfStringStr b :: l.map sfStringStr).map
        (fun el => lv.subelspacer ++ ['\n'] ++ lv.curindent ++ lv.indent ++ el)).flatten ++ (['\n'] ++ lv.curindent ++ [']', '\n'])),
      ((hlv.subelspacer.append (.blank (by decide) .nil)).append hlv.curindent).append hlv.indent, ?_⟩
    simp [ht]
  · rw [if_pos (by omega)]
    refine ⟨[' '], t ++ (lv.subelspacer ++ pyJoin lv.subelspacer (sfStringStr b :: l.map sfStringStr)) ++ [' ', ']'], .blank (by decide) .nil, ?_⟩
    simp [pyJoin, ht]

/-- The text of one string. -/
theorem strs_one (lv : LinValues) (a : Text) : mfStringStr lv [a] = sfStringStr a := by
  simp [mfStringStr, pyJoin]

theorem vector_quote {w t : Text} (hw : Ignorable w) : Der gram (.nt .vector) ('[' :: (w ++ '"' :: t)) .fail := by
  have hm : Meaningful ('"' :: t) := meaningful_head (by decide) (by decide)
  refine .ntFail ?_
  have h1 : Der gram (.lit ['[']) ('[' :: (w ++ '"' :: t)) (.ok [] ['['] (w ++ '"' :: t)) := .lit _ _
  refine .seqFail2 h1 (.seqFail2 (C07_ignorable_skipped hw hm) (.seqFail2 (r1 := '"' :: t) (.starNil (.seqFail1 (.altR ?_ ?_))) (lit_fail1 (by decide))))
  · exact run_sound 30 _ _ _ (by rfl)
  · exact run_sound 30 _ _ _ (by rfl)

/-- **Every** non-empty list of strings: what the writer writes for the attribute is a syntax error, before any text
that cannot be part of a list. -/
theorem C56_field_rejected {lv : LinValues} (hlv : PlainOptions lv) (s : Text) (l : List Text) {w0 w r : Text} (hw0 : Ignorable w0) (hw : Ignorable w)
    (hr : Meaningful r) (hitem : Der gram fieldItem r .fail) (hend : ∀ t, r ≠ ']' :: t) :
    Der gram (.nt .field) (['[', ' '] ++ w0 ++ mfStringStr lv (s :: l) ++ (w ++ r)) .err := by
  have hbr : Der gram (.lit [']']) r .fail := by
    cases r with
    | nil => exact lit_fail_nil
    | cons c t => exact lit_fail1 (fun h => hend t (by rw [h]))
  have hopen : ∀ x, Der gram (.lit ['[']) ('[' :: x) (.ok [] ['['] x) := fun x => .lit _ _
  have hw1 : Ignorable (' ' :: w0) := .blank (by decide) hw0
  refine .ntErr (.altErr ?_)
  cases l with
  | nil =>
    rw [strs_one]
    obtain ⟨tr, hd, -⟩ := (str_item s).der (w ++ r) trivial
    have h1 : Der gram (.star (.seq fieldItem ws)) (sfStringStr s ++ (w ++ r)) (.ok ([tr] ++ [] ++ []) (sfStringStr s ++ w ++ []) r) :=
      .starCons (.seq hd (C07_ignorable_skipped hw hr)) (by have := (str_item s).ne; simp [this]) (.starNil (.seqFail1 hitem))
    have h2 := Der.seqErr2 (hopen _) (Der.seqErr2 (C07_ignorable_skipped hw1 ((str_item s).mean (w ++ r))) (.seqErr2 h1 (.seqErr1 (b := ws) (.cutFail hbr))))
    simpa [Exp.seqs, List.append_assoc] using h2
  | cons b l =>
    obtain ⟨w2, t, hw2, ht⟩ := strs_form hlv (a := s) (b := b) (l := l)
    rw [ht]
    have hfail : Der gram fieldItem ('[' :: (w2 ++ '"' :: t) ++ (w ++ r)) .fail := by
      have h1 : Der gram (.nt .vector) ('[' :: (w2 ++ '"' :: t) ++ (w ++ r)) .fail := by
        have := vector_quote (t := t ++ (w ++ r)) hw2
        simpa using this
      refine .altR h1 ?_
      exact run_sound 30 _ _ _ (by rfl)
    have h2 := Der.seqErr2 (hopen _) (Der.seqErr2 (C07_ignorable_skipped hw1 (r := '[' :: (w2 ++ '"' :: t) ++ (w ++ r)) (meaningful_head (by decide) (by decide)))
      (.seqErr2 (.starNil (.seqFail1 (b := ws) hfail)) (.seqErr1 (b := ws) (.cutFail (lit_fail1 (c := ']') (d := '[') (s := []) (by decide))))))
    simpa [Exp.seqs, List.append_assoc] using h2

/-! ### Whole files -/

/-- A scene with one node, of a class with one string-list field. -/
def oneStrings (p DEF f : Text) (str : F → Text) (conv : F → F) (strings : List Text) : Scene F :=
  ⟨fun i => if i = 0 then some ⟨⟨p, [⟨f, chars "MFString", .mfString, str, conv, .list (.strs [])⟩], [], [], []⟩, DEF,
    fun g => if g = f then some (.strs strings) else none⟩ else none, [0], [], [], none⟩

theorem closing_form (lv : LinValues) (st : St) (n : Node F) (start : Nat) (hp : n.cls.proto ≠ scriptName) : ∃ t, closing lv st n start false = lv.fullSep ++ st.cur lv ++ '}' :: t := by
  simp only [closing, if_neg hp, Bool.false_eq_true, if_false]
  cases lv.endComments with
  | none => exact ⟨[], by simp⟩
  | some k =>
    dsimp only
    split
    · exact ⟨chars " #EndNode " ++ (if n.DEF = [] then n.cls.proto else n.DEF), by simp⟩
    · exact ⟨[], by simp⟩

/-- What the writer writes for such a scene. -/
theorem oneStrings_text {fl : Floats F} {lv : LinValues} {p DEF f : Text} (hp : p ≠ scriptName) (hf : SafeName f) (str : F → Text) (conv : F → F) (s : Text) (l : List Text) (fuel : Nat) :
    ∃ cur t, linearise lv fl (oneStrings p DEF f str conv (s :: l)) (fuel + 1) =
      .ok (header ++ (defText DEF ++ (p ++ ([' ', '{'] ++ (lv.fullSep ++ lv.indent ++ lv.indent ++ (f ++ (['\t'] ++ (['[', ' '] ++
        (lv.fullSep ++ lv.indent ++ lv.indent ++ lv.indent) ++ mfStringStr { lv with curindent := cur } (s :: l) ++
        (lv.fullSep ++ cur ++ '}' :: t)))))))), oneStrings p DEF f str conv (s :: l)) ∧ cur = lv.indent ++ lv.indent := by
  have hattr : attrFields (⟨p, [⟨f, chars "MFString", .mfString, str, conv, .list (.strs [])⟩], [], [], []⟩ : Class F) = [⟨f, chars "MFString", .mfString, str, conv, .list (.strs [])⟩] := by
    obtain ⟨c, t, rfl, hc⟩ := legal_head hf.1
    have : c ≠ ' ' := by rintro rfl; exact absurd hc (by decide)
    simp [attrFields, sortBy, insertBy, this, hp, shownName]
  have hpre : preroute (oneStrings p DEF f str conv (s :: l)) = oneStrings p DEF f str conv (s :: l) := rfl
  refine ⟨lv.indent ++ lv.indent, ?_⟩
  simp only [linearise, hpre]
  simp only [linBody, oneStrings, linChildren, linNode, linBegin, if_neg hp, if_true, St.look, List.lookup, hattr, linAttrs, Scene.isOf, FieldDecl.read, omitted, Val.eq, linField]
  have : ((([] : List Text) == s :: l)) = false := rfl
  simp only [this, St.write, List.length_append, List.length_cons, List.length_nil, List.nil_append, List.foldl_nil]
  have hcl : ∀ (st : St) (n : Node F) (start : Nat) (b : Bool), n.cls.proto ≠ scriptName → b = false → st.level = 2 →
      ∃ t, closing lv st n start b = lv.fullSep ++ (lv.indent ++ lv.indent) ++ '}' :: t := by
    intro st n start b hn hb hl
    subst hb
    obtain ⟨t, ht⟩ := closing_form lv st n start hn
    exact ⟨t, by rw [ht]; simp [St.cur, hl, List.replicate_succ]⟩
  have hcur1 : ∀ o d w, St.cur lv ⟨o, d, 0 + 1, w⟩ = lv.indent := by intro o d w; simp [St.cur]
  have hcur2 : ∀ o d w, St.cur lv ⟨o, d, 0 + 1 + 1, w⟩ = lv.indent ++ lv.indent := by intro o d w; simp [St.cur, List.replicate_succ]
  simp only [hcur1, hcur2]
  generalize hK : closing lv _ _ _ _ = K
  obtain ⟨t, ht⟩ : ∃ t, K = lv.fullSep ++ (lv.indent ++ lv.indent) ++ '}' :: t := by
    rw [← hK]; exact hcl _ _ _ _ hp rfl rfl
  refine ⟨t ++ lv.fullSep, ?_, trivial⟩
  rw [ht]
  simp [textOf, Chunk.toText, defText, defPart, hp]

theorem item_fail_brace (s : Text) : Der gram fieldItem ('}' :: s) .fail := run_sound 30 _ _ _ (by rfl)

/-- A syntax error in the first attribute of the first node is a syntax error of the file. -/
theorem file_err {d p w0 nm w v : Text} (hd : d = [] ∨ LegalName d) (hp : SafeName p) (hw0 : Ignorable w0) (hnm : SafeName nm) (hw : Ignorable w) (hne : w ≠ [])
    (hv : Meaningful v) (his : Der gram isGroup v .fail) (hf : Der gram (.nt .field) v .err) :
    Der gram (gram .vrmlFile) (header ++ (defText d ++ (p ++ ([' ', '{'] ++ (w0 ++ (nm ++ (w ++ v))))))) .err := by
  have he := nameEnd_ign (r := v) hw hne
  have hkw : ∀ k ∈ keywords, Der gram (.lit k) (nm ++ (w ++ v)) .fail := fun k hk => safe_no hnm he hk
  have h1 : Der gram bodyItem (nm ++ (w ++ v)) .err :=
    .altR (.ntFail (.seqFail1 (hkw _ (by decide)))) (.altR (.ntFail (.seqFail1 (hkw _ (by decide))))
      (.altR (.ntFail (.seqFail1 (hkw _ (by decide)))) (.ntErr
        (.seqErr2 (name_der hnm.1 he) (.seqErr2 (C07_ignorable_skipped hw hv) (.seqErr1 (.altR his hf)))))))
  have hsp : ∀ z, NameEnd ([' ', '{'] ++ z) := fun z => nameEnd_cons (by decide)
  have hnode : Der gram (.nt .node) (defText d ++ (p ++ ([' '] ++ (['{'] ++ (w0 ++ (nm ++ (w ++ v))))))) .err :=
    .ntErr (.seqErr2 (def_der hd hp (hsp _)) (.seqErr2 (Der.nt (g := gram) (n := NT.nodegi) (name_der hp.1 (hsp _)))
      (.seqErr2 (C07_ignorable_skipped sp_ign (meaningful_head (by decide) (by decide)))
        (.seqErr2 (.lit _ _) (.seqErr2 (C07_ignorable_skipped hw0 (legal_mean hnm.1 _)) (.seqErr1 (.starErr1 h1)))))))
  have hscript : Der gram (.nt .script) (defText d ++ (p ++ ([' '] ++ (['{'] ++ (w0 ++ (nm ++ (w ++ v))))))) .fail :=
    .ntFail (.seqFail2 (def_der hd hp (hsp _)) (.seqFail1 (safe_no hp (hsp _) (by decide))))
  have huse : Der gram useGroup (defText d ++ (p ++ ([' '] ++ (['{'] ++ (w0 ++ (nm ++ (w ++ v))))))) .fail := by
    by_cases h0 : d = []
    · simp only [defText, h0, if_true, List.nil_append]
      exact .seqFail1 (safe_no hp (hsp _) (by decide))
    · simp only [defText, if_neg h0]
      exact .seqFail1 (lit_fail1 (by decide))
  have hX : Der gram X (defText d ++ (p ++ ([' '] ++ (['{'] ++ (w0 ++ (nm ++ (w ++ v))))))) .err := .altR huse (.altR hscript hnode)
  have hstart : Start (defText d ++ (p ++ ([' '] ++ (['{'] ++ (w0 ++ (nm ++ (w ++ v))))))) := def_start hp (hsp _) (by simp)
  have hroot : Der gram rootAlt (defText d ++ (p ++ ([' '] ++ (['{'] ++ (w0 ++ (nm ++ (w ++ v))))))) .err := by
    have := rootAlt_X hstart (r := []) (o := .err) (by simpa using hX)
    simpa using this
  have hmean := hstart.mean []
  rw [List.append_nil] at hmean
  have hh : Der gram (.nt .header) (chars "#VRML V2.0 utf8" ++ (['\n'] ++ (defText d ++ (p ++ ([' '] ++ (['{'] ++ (w0 ++ (nm ++ (w ++ v))))))))) (.ok _ (chars "#VRML V2.0 utf8") _) :=
    Der.nt (g := gram) (n := NT.header) (run_sound 30 _ _ _ (by rfl))
  have h2 : Der gram (gram .vrmlFile) _ _ := .seqErr2 hh (.seqErr1 (.ntErr (.starErr1 (.ntErr (.seqErr2 (C07_ignorable_skipped (s := ['\n']) (r := defText d ++ (p ++ ([' '] ++ (['{'] ++ (w0 ++ (nm ++ (w ++ v))))))) (.blank (by decide) .nil) hmean) (.seqErr1 hroot))))))
  have e : header ++ (defText d ++ (p ++ ([' ', '{'] ++ (w0 ++ (nm ++ (w ++ v)))))) =
    chars "#VRML V2.0 utf8" ++ (['\n'] ++ (defText d ++ (p ++ ([' '] ++ (['{'] ++ (w0 ++ (nm ++ (w ++ v)))))))) := by simp [header]
  rw [e]
  exact h2

/-- **Every** non-empty list of strings makes the file unreadable: a scene with one node whose string-list field is not
empty is written, without complaint, as a text with unbalanced brackets that is rejected by the parser. -/
theorem C56_file_rejected (lk : Text → Option (Class F)) (fl : Floats F) {lv : LinValues} (hlv : GoodOptions lv) {p DEF f : Text} (hp : SafeName p)
    (hD : DEF = [] ∨ LegalName DEF) (hf : SafeName f) (str : F → Text) (conv : F → F) (s : Text) (l : List Text) (fuel : Nat) :
    ∃ text, linearise lv fl (oneStrings p DEF f str conv (s :: l)) (fuel + 1) = .ok (text, oneStrings p DEF f str conv (s :: l)) ∧ ∀ sc, ¬ Reads lk fl text sc := by
  obtain ⟨cur, t, h1, hcur⟩ := oneStrings_text (fl := fl) (lv := lv) (p := p) (DEF := DEF) (safe_ne_script hp) hf str conv s l fuel
  refine ⟨_, h1, ?_⟩
  rintro sc ⟨hdr, scene, eof, m, n, hder, -⟩
  have hind := hlv.plain.indent
  have hcur' : Ignorable cur := hcur ▸ hind.append hind
  have hlv' : PlainOptions { lv with curindent := cur } := ⟨hlv.plain.subelspacer, hcur', hind, hlv.plain.numsep, hlv.plain.fullSep, hlv.plain.courtesyspace,
    hlv.plain.numsep_ne, hlv.plain.subelspacer_ne⟩
  have hfield := C56_field_rejected hlv' s l (w0 := lv.fullSep ++ lv.indent ++ lv.indent ++ lv.indent) (w := lv.fullSep ++ cur) (r := '}' :: t)
    (((hlv.plain.fullSep.append hind).append hind).append hind) (hlv.plain.fullSep.append hcur') (meaningful_head (by decide) (by decide)) (item_fail_brace t) (by simp)
  have herr := file_err hD hp ((hlv.plain.fullSep.append hind).append hind) hf (w := ['\t']) (.blank (by decide) .nil) (by simp)
    (meaningful_head (by decide) (by decide)) (run_sound 30 _ _ _ (by rfl)) hfield
  have := hder.det _ herr
  cases this

example : ∃ text, linearise defaults exFloats (oneStrings (chars "Text") [] (chars "string") intStr id [chars "hello", chars "world"]) 1 =
    .ok (text, oneStrings (chars "Text") [] (chars "string") intStr id [chars "hello", chars "world"]) ∧ ∀ sc, ¬ Reads exLookup exFloats text sc :=
  C56_file_rejected _ _ goodDefaults (by decide) (.inl rfl) (by decide) _ _ _ _ 0

/-! ### Any scene -/

theorem Renamed.writtenAttr {fl : Floats F} {a b : Scene F} (h : Renamed a b) {i : Nat} {n m : Node F} (hn : a.heap i = some n) (hm : b.heap i = some m) {d : FieldDecl F} {v : Val F}
    (hw : WrittenAttr fl a i n d v) : WrittenAttr fl b i m d v := by
  rcases h.node i with ⟨e, -⟩ | ⟨n', m', e1, e2, e3, e4, -⟩
  · rw [hn] at e; cases e
  · rw [hn] at e1; cases e1
    rw [hm] at e2; cases e2
    exact ⟨by rw [e3]; exact hw.mem, h.shown.2 hw.shown, by rw [e3]; exact hw.own, by rw [read_congr e4]; exact hw.read, hw.differs⟩

theorem Renamed.some {a b : Scene F} (h : Renamed a b) {i : Nat} {n : Node F} (hn : a.heap i = some n) : ∃ m, b.heap i = some m ∧ m.cls = n.cls := by
  rcases h.node i with ⟨e, -⟩ | ⟨n', m', e1, e2, e3, -⟩
  · rw [hn] at e; cases e
  · rw [hn] at e1; cases e1; exact ⟨m', e2, e3⟩

theorem Renamed.written {fl : Floats F} {a b : Scene F} (h : Renamed a b) {i : Nat} (hi : Written fl a i) : Written fl b i := by
  induction hi with
  | child hi => exact .child (by rw [h.children]; exact hi)
  | attr _ hn hw hj ih =>
    obtain ⟨m, hm, -⟩ := h.some hn
    exact .attr ih hm (h.writtenAttr hn hm hw) hj
  | decl _ hn hd hv hdec hdf hj ih =>
    obtain ⟨m, hm, e⟩ := h.some hn
    exact .decl ih hm (by rw [e]; exact hd) hv (by rw [e]; exact hdec) hdf hj

theorem cleanPreroute {sc : Scene F} (h : CleanScene sc) : CleanScene (preroute sc) := by
  have hr := C11_only_names_added sc
  refine ⟨fun i m hm => ?_, by rw [hr.routes]; exact h.routes, fun i f nm hi => h.is i f nm ?_⟩
  · rcases hr.node i with ⟨-, e⟩ | ⟨n, m', e1, e2, e3, e4, e5⟩
    · rw [hm] at e; cases e
    · rw [hm] at e2; cases e2
      have hn := h.nodes i n e1
      refine ⟨by rw [e3]; exact hn.proto, ?_, by rw [e3]; exact hn.fields, by rw [e3]; exact hn.events⟩
      by_cases h0 : n.DEF = []
      · by_cases h1 : m.DEF = []
        · rw [h1]; exact clean_dec (by decide)
        · obtain ⟨-, k, hk⟩ := C11_given_name_unique sc e1 h0 hm h1
          rw [hk]
          exact (hn.proto.append (clean_dec (by decide))).append (nat_clean k)
      · rw [e5 h0]; exact hn.DEF
  · obtain ⟨dict, l, h1, h2⟩ := hi
    exact ⟨dict, l, by rw [← hr.is]; exact h1, h2⟩

theorem header_occurs {w t : Text} (h : ¬ Occurs w (header ++ t)) (hw : ∃ c s, w = c :: s ∧ c ≠ '\n') : ¬ Occurs w ('\n' :: t) := by
  rintro ⟨pre, suf, e, hp⟩
  obtain ⟨c, s, rfl, hc⟩ := hw
  cases pre with
  | nil => simp only [List.nil_append, List.cons_append, List.cons.injEq] at e; exact hc e.1.symm
  | cons x p =>
    simp only [List.cons_append, List.cons.injEq] at e
    obtain ⟨rfl, e⟩ := e
    have hp' : mode .plain p = .plain := hp
    have hh : mode .plain header = .plain := by decide
    exact h ⟨header ++ p, suf, by rw [e]; simp, by rw [mode_append, hh, hp']⟩

/-- **Any scene with strings is written as a text that cannot be read**: whatever the scene (shared, cyclic, unnamed nodes, routes,
Scripts), if one of the nodes that are written has a string-list attribute with at least one string in it (not equal to its
default), then the text, if the writer produces one, is rejected by the parser as a syntax error.  Names must not contain
brackets, quotes or `#`; separators are blank and contain a newline; the word EXTERNPROTO must not occur outside strings and
comments. -/
theorem C56_scene_rejected {lv : LinValues} (hlv : PlainOptions lv) (hline : '\n' ∈ lv.fullSep) {fl : Floats F} {sc named : Scene F} (hc : CleanScene sc) {i : Nat}
    (hi : Written fl sc i) (hs : HasStrings fl sc i) {fuel : Nat} {text : Text} (h : linearise lv fl sc fuel = .ok (text, named))
    (hx : ¬ Occurs (chars "EXTERNPROTO") text) :
    Der gram (gram .vrmlFile) text .err ∧ ∀ lk fl' sc', ¬ Reads (F := F) lk fl' text sc' := by
  have hr := C11_only_names_added sc
  have herr : Der gram (gram .vrmlFile) text .err := by
    unfold linearise at h
    cases hb : linBody lv fl (preroute sc) fuel with
    | error e => simp [hb] at h
    | ok st =>
      simp only [hb, Except.ok.injEq, Prod.mk.injEq] at h
      obtain ⟨rfl, -⟩ := h
      obtain ⟨hw, hch⟩ := wr_body ⟨hlv, hline⟩ (cleanPreroute hc) hb
      have hdone := written_done hw hch (hr.written hi)
      have hs' : HasStrings fl (preroute sc) i := by
        obtain ⟨n, d, s, l, hn, hwa⟩ := hs
        obtain ⟨m, hm, -⟩ := hr.some hn
        exact ⟨m, d, s, l, hm, hr.writtenAttr hn hm hwa⟩
      have h0 : ¬ Done ⟨[], [], 0, false⟩ i := by rintro ⟨x, hx⟩; simp [St.look] at hx
      have hpos := hw.bad i hs' h0 hdone
      have hbody : body (header ++ textOf st.out) = '\n' :: textOf st.out := by
        have := dropWhile_line (hdr := chars "#VRML V2.0 utf8") (r := '\n' :: textOf st.out) (by decide) (.inr ⟨_, rfl⟩)
        simpa [header] using this
      have hx' : ¬ Occurs (chars "EXTERNPROTO") (body (header ++ textOf st.out)) := by
        rw [hbody]; exact header_occurs hx ⟨'E', _, rfl, by decide⟩
      refine C72_unnested_rejected (fun hn => ?_) hx'
      have := Nested.bal hn
      rw [hbody] at this
      have e1 : bal .plain ('\n' :: textOf st.out) = bal .plain (textOf st.out) := by
        show 0 + bal .plain (textOf st.out) = _; omega
      have e2 : (⟨[], [], 0, false⟩ : St).B = 0 := rfl
      have e3 : st.B = bal .plain (textOf st.out) := rfl
      omega
  refine ⟨herr, ?_⟩
  rintro lk fl' sc' ⟨hdr, scene, eof, m, n, hder, -⟩
  have := hder.det _ herr
  cases this

/-- A Script with a url, in a group that holds it twice; a node is routed to itself. -/
def exStrings : Scene Int :=
  ⟨fun i => if i = 0 then some (exNode [] 0 [] (some 1))
      else if i = 1 then some ⟨⟨chars "Script", [⟨chars "url", chars "MFString", .mfString, intStr, id, .list (.strs [])⟩], [], [], []⟩, [],
        fun f => if f = chars "url" then some (.strs [chars "a.py"]) else none⟩
      else none,
    [0, 1, 0], [⟨0, chars "x", 0, chars "y"⟩], [], none⟩

/-- what the writer writes for it -/
def exStringsText : Text := chars "#VRML V2.0 utf8\nDEF Group_0 Group {\n\t\tgeo\t Script {\n\t\t\turl\t[ \n\t\t\t\t\"a.py\"\n\t\t\t}#Script\n\t\t}\n#WARNING HERE -- USE of node with no DEF name, Node duplicated\n Script {\n\t\t\turl\t[ \n\t\t\t\t\"a.py\"\n\t\t\t}#Script\nUSE Group_0\n\nROUTE Group_0.x TO Group_0.y"

theorem exStrings_clean : CleanScene exStrings := by
  have hint : ∀ x, Clean (intStr x) := int_clean
  refine ⟨fun i n hn => ?_, ?_, ?_⟩
  · simp only [exStrings] at hn
    split at hn
    · cases hn
      refine ⟨clean_dec (by decide), clean_dec (by decide), fun d hd => ?_, by simp [exNode, exClass]⟩
      simp only [exNode, exClass, List.mem_cons, List.not_mem_nil, or_false] at hd
      rcases hd with rfl | rfl | rfl <;> exact ⟨clean_dec (by decide), clean_dec (by decide), hint⟩
    split at hn
    · cases hn
      refine ⟨clean_dec (by decide), clean_dec (by decide), fun d hd => ?_, by simp⟩
      simp only [List.mem_cons, List.not_mem_nil, or_false] at hd
      subst hd
      exact ⟨clean_dec (by decide), clean_dec (by decide), hint⟩
    · cases hn
  · simp only [exStrings, List.mem_cons, List.not_mem_nil, or_false, forall_eq]
    exact ⟨clean_dec (by decide), clean_dec (by decide)⟩
  · rintro i f nm ⟨dict, l, h, -⟩; cases h

/-- The node is reached through an attribute of another, and the text is rejected. -/
example : Der gram (gram .vrmlFile) exStringsText .err ∧ ∀ lk fl' sc', ¬ Reads (F := Int) lk fl' exStringsText sc' := by
  have hgeo : WrittenAttr exFloats exStrings 0 (exNode [] 0 [] (some 1)) ⟨chars "geo", chars "SFNode", .sfNode, intStr, id, .null⟩ (.ref (some 1)) :=
    ⟨by simp [exNode, exClass], ⟨⟨by simp, by simp⟩, by rintro nm ⟨dict, l, h, -⟩; cases h⟩, by rintro ⟨h, -⟩; exact absurd h (by decide), rfl, rfl⟩
  have hwr : Written exFloats exStrings 1 := .attr (.child (i := 0) (by decide)) rfl hgeo (by decide)
  have hs : HasStrings exFloats exStrings 1 :=
    ⟨_, ⟨chars "url", chars "MFString", .mfString, intStr, id, .list (.strs [])⟩, chars "a.py", [], rfl,
      by simp, ⟨⟨by simp, by simp⟩, by rintro nm ⟨dict, l, h, -⟩; cases h⟩, by rintro ⟨-, h, -⟩; exact absurd rfl h, rfl, rfl⟩
  exact C56_scene_rejected plain_defaults (by decide) exStrings_clean hwr hs (linearise_of_text (fuel := 3) (by decide +kernel)) (not_occurs (by decide +kernel))

end Verif.Lin
