import Verif.Lemmas.ProtoText2
/-!
Lemmas for C67, continued: the text of a prototype, and of a whole file.
-/
namespace Verif.Lin
open Verif.Peg Verif.Grammar Verif.TextOut Verif.Text Verif.SceneText Verif.ListText
variable {F : Type}
variable {lk lk0 : Text → Option (Class F)} {fl : Floats F} {lv : LinValues} {fuel : Nat}

/-! ### Bodies -/

theorem rootItem_close (s : Text) : Der gram (.nt .rootItem) ('}' :: s) .fail := run_sound 30 _ _ _ (by rfl)

/-- A scene without children has no text. -/
theorem empty_body {sc : Scene F} {st : St} (h : linBody lv fl sc fuel = .ok st) (hc : sc.children = []) (hr : ∀ r ∈ sc.routes, Reach sc r.src) :
    st.out = [] ∧ sc.routes = [] ∧ st.done = [] := by
  have h0 : ∀ i, ¬ Reach sc i := by
    intro i hi
    induction hi with
    | child h => rw [hc] at h; cases h
    | field _ _ _ _ _ _ ih => exact ih
  have h1 : sc.routes = [] := by
    cases hrs : sc.routes with
    | nil => rfl
    | cons r l => exact absurd (hr r (by simp [hrs])) (h0 _)
  simp only [linBody, hc, linChildren, h1, List.foldl_nil, Except.ok.injEq] at h
  subst h
  exact ⟨rfl, h1, rfl⟩

theorem not_reach_empty {sc : Scene F} (hc : sc.children = []) : ∀ i, ¬ Reach sc i := by
  intro i hi
  induction hi with
  | child h => rw [hc] at h; cases h
  | field _ _ _ _ _ _ ih => exact ih

/-- The text of a body is read back, whether or not it is empty. -/
theorem body_read_any (hlv : GoodOptions lv) {sc : Scene F} {st : St} (h : linBody lv fl sc fuel = .ok st) (hw : st.warned = false)
    (hh : GoodHeap lk fl sc (Reach sc)) (hsl : ScriptLines lv sc)
    (hr : ∀ r ∈ sc.routes, (Reach sc r.src ∧ LegalName (sc.defOf r.src)) ∧ (Reach sc r.dst ∧ LegalName (sc.defOf r.dst)) ∧ LegalName r.srcField ∧ LegalName r.dstField)
    {b : Bool} (hb : (∃ i f nm, IsMapped sc i f nm) → b = true)
    {w2 z : Text} (hw2 : Ignorable w2) (hz : Meaningful z) (hzf : Der gram (.nt .rootItem) z .fail) (hze : NameEnd (w2 ++ z)) :
    (∀ i, Reach sc i ↔ Done st i) ∧
    ∃ w0 B ts, textOf st.out ++ (w2 ++ z) = w0 ++ (B ++ z) ∧ Ignorable w0 ∧ Meaningful (B ++ z) ∧
      Der gram (.star (.nt .rootItem)) (B ++ z) (.ok ts B z) ∧
      ∃ vs rs φ, dispList lk fl ts none none (RSt.start b) = some (vs, rs) ∧ SameScene sc rs.sc φ ∧ IsCovered sc rs.sc φ := by
  by_cases hc : sc.children = []
  · obtain ⟨h1, h2, h3⟩ := empty_body h hc (fun r hrr => (hr r hrr).1.1)
    have h0 := not_reach_empty hc
    refine ⟨fun i => ⟨fun hi => absurd hi (h0 i), fun ⟨x, hx⟩ => by simp [St.look, h3] at hx⟩,
      w2, [], [], by simp [h1, textOf_nil], hw2, hz, .starNil hzf, [], RSt.start b, id, rfl, ?_, ?_⟩
    · exact ⟨fun i hi => absurd hi (h0 i), fun i hi => absurd hi (h0 i), fun i j hi => absurd hi (h0 i), by simp [RSt.start, Scene.empty, hc], by simp [RSt.start, Scene.empty, h2]⟩
    · constructor
      · rintro j f nm ⟨dict, l, e1, e2, -⟩
        simp only [RSt.start] at e1
        split at e1
        · simp only [Option.some.injEq] at e1; subst e1; cases e2
        · cases e1
      · intro dict nm l e1 e2
        simp only [RSt.start] at e1
        split at e1
        · simp only [Option.some.injEq] at e1; subst e1; cases e2
        · cases e1
  · obtain ⟨h2, pre, B, h1, hpre, hm, h5⟩ := body_read hlv h hw hh hsl hc hr hb hw2 hz hzf hze
    obtain ⟨ts, h3, h4⟩ := h5 [] .nil
    exact ⟨h2, pre, B ++ w2, ts, by simp [h1], hpre, by simpa using hm (w2 ++ z), by simpa using h3, h4⟩

/-! ### A prototype -/

theorem protoText_eq (x decls body : Text) (hx : LegalName x) : ∃ e, protoText lv x decls body = chars "PROTO " ++ x ++ [' ', '['] ++ decls ++ ['\n', ']', ' ', '{', '\n'] ++ body ++ ['\n', '}'] ++ e ∧
    ∀ w, Ignorable w → Ignorable (e ++ w) := by
  have h1 : ∀ w, Ignorable w → Ignorable (['\n'] ++ w) := fun w hw => nl_ign.append hw
  have h2 : ∀ w, Ignorable w → Ignorable (chars "#End PROTO " ++ x ++ ['\n'] ++ w) := by
    intro w hw
    have := comment_ign (b := chars "End PROTO " ++ x) (w := ['\n'] ++ w) (by simp [legal_no_nl hx]) (h1 w hw) (by simp)
    simpa using this
  cases he : lv.endComments with
  | none => exact ⟨['\n'], by simp [protoText, he], h1⟩
  | some k =>
    by_cases hk : k * 60 < (chars "PROTO " ++ x ++ [' ', '['] ++ decls ++ ['\n', ']', ' ', '{', '\n'] ++ body).length
    · refine ⟨chars "#End PROTO " ++ x ++ ['\n'], ?_, h2⟩
      simp only [protoText, he, if_pos hk]
      simp
    · refine ⟨['\n'], ?_, h1⟩
      simp only [protoText, he, if_neg hk]
      simp

theorem proto_der {x w0 m wb B w r : Text} {ts sts : List PTree} (hx : LegalName x) (hw0 : Ignorable w0) (hm : Meaningful (m ++ ']' :: ([' ', '{', '\n'] ++ (wb ++ (B ++ '}' :: (w ++ r))))))
    (hstar : Der gram (.star declItem) (m ++ ']' :: ([' ', '{', '\n'] ++ (wb ++ (B ++ '}' :: (w ++ r))))) (.ok ts m (']' :: ([' ', '{', '\n'] ++ (wb ++ (B ++ '}' :: (w ++ r)))))))
    (hwb : Ignorable wb) (hB : Meaningful (B ++ '}' :: (w ++ r)))
    (hsc : Der gram (.star (.nt .rootItem)) (B ++ '}' :: (w ++ r)) (.ok sts B ('}' :: (w ++ r)))) (hw : Ignorable w) (hr : Meaningful r) :
    ∃ pm k sm, Der gram rootAlt (chars "PROTO " ++ (x ++ ([' ', '['] ++ (w0 ++ (m ++ ']' :: ([' ', '{', '\n'] ++ (wb ++ (B ++ '}' :: (w ++ r)))))))))
      (.ok [.node .proto pm (.node .nodegi x k :: (ts ++ [.node .vrmlScene sm sts]))]
        (chars "PROTO " ++ (x ++ ([' ', '['] ++ (w0 ++ (m ++ ']' :: ([' ', '{', '\n'] ++ (wb ++ (B ++ '}' :: w)))))))) r) := by
  have h1 : Der gram (gram .proto) (chars "PROTO" ++ ([' '] ++ (x ++ ([' '] ++ (['['] ++ (w0 ++ (m ++ ([']'] ++ ([' '] ++ (['{'] ++ ((['\n'] ++ wb) ++ (B ++ ([] ++ (['}'] ++ (w ++ r))))))))))))))) _ :=
    .seq (.lit _ _) (.seq (C07_ignorable_skipped sp_ign (legal_mean hx _))
      (.seq (.cut (Der.nt (g := gram) (n := NT.nodegi) (name_der hx (nameEnd_cons (by decide)))))
      (.seq (.cut (C07_ignorable_skipped sp_ign (meaningful_head (by decide) (by decide))))
      (.seq (.cut (.lit _ _)) (.seq (.cut (C07_ignorable_skipped hw0 (by simpa using hm)))
      (.seq (.cut (by simpa [declItem] using hstar)) (.seq (.cut (.lit _ _)) (.seq (.cut (C07_ignorable_skipped sp_ign (meaningful_head (by decide) (by decide))))
      (.seq (.cut (.lit _ _)) (.seq (.cut (C07_ignorable_skipped (nl_ign.append hwb) (by simpa using hB)))
      (.seq (.cut (Der.nt (g := gram) (n := NT.vrmlScene) (r := '}' :: (w ++ r)) hsc))
      (.seq (.cut (C07_ignorable_skipped (s := []) .nil (meaningful_head (by decide) (by decide)))) (.seq (.cut (.lit _ _)) (.cut (C07_ignorable_skipped hw hr)))))))))))))))
  have h2 : Der gram rootAlt _ _ := .altL (Der.nt (g := gram) (n := NT.proto) h1)
  exact ⟨_, _, _, by simpa using h2⟩

/-- `t` is the text of prototype `p`. -/
def IsPiece (lv : LinValues) (fl : Floats F) (fuel : Nat) (p : ProtoDef F) (t : Text) : Prop :=
  ∃ ft b st, fieldsText lv (declFields p.fields) = .ok ft ∧ p.body = some b ∧ linBody lv fl (preroute b) fuel = .ok st ∧
    t = protoText lv p.name (eventsText lv lv.indent p.events ++ ft) (textOf st.out)

theorem readDecls_scene {rs : RSt F} {sm : Text} {sts : List PTree} {q : ProtoDef F} {vs : List (RVal F)} {rs' : RSt F}
    (hq : coreName q.name = false) (h : dispList lk fl sts none none (RSt.start true) = some (vs, rs')) :
    readDecls lk fl rs [.node .vrmlScene sm sts] q = some { q with body := some rs'.sc } := by
  have h' : dispList lk fl sts none none ⟨{ (Scene.empty : Scene F) with is := some [] }, 0⟩ = some (vs, rs') := h
  simp [readDecls, disp, h', hq]

/-- The text of a good prototype is read back as the same prototype. -/
theorem proto_read (hlv : GoodOptions lv) {x : Text} {p : ProtoDef F} (hg : GoodProto lk0 fl fuel x p)
    (hlk : ∀ b all, p.body = some b → GoodBody lk0 fl b all → GoodBody lk fl b all) (hsl : ∀ b, p.body = some b → ScriptLines lv b) {t : Text} (ht : IsPiece lv fl fuel p t) :
    (∃ s, t = 'P' :: s) ∧ ∀ w r, Ignorable w → Meaningful r → ∃ pm k rest p', Der gram rootAlt (t ++ (w ++ r)) (.ok [.node .proto pm (.node .nodegi x k :: rest)] (t ++ w) r) ∧
      (∀ rs, readDecls lk fl rs rest (ProtoDef.new x) = some p') ∧ SameProto p p' ∧ p'.usable = true ∧ p'.cls.Distinct ∧ p'.url = .declared := by
  obtain ⟨ft, b, st, h1, h2, h3, rfl⟩ := ht
  obtain ⟨ft', g1, g2⟩ := decls_read (lk := lk) hlv hg
  rw [h1] at g1
  cases g1
  obtain ⟨b', all, e1, e2, e3, e4, e5⟩ := hg.body
  rw [h2] at e1
  cases e1
  have hb := hlk b all h2 e3
  obtain ⟨st', f1, f2, f3⟩ := body_good hlv hb e4
  rw [h3] at f1
  cases f1
  have hren := C11_only_names_added b
  obtain ⟨e, he, hign⟩ := protoText_eq (lv := lv) x (eventsText lv lv.indent p.events ++ ft) (textOf st.out) hg.legal
  rw [hg.name, he]
  refine ⟨⟨_, by simp; rfl⟩, fun w r hw hr => ?_⟩
  have hew := hign w hw
  obtain ⟨-, wb, B, sts, a1, a2, a3, a4, vs, rs', φ, a5, a6, a7⟩ := body_read_any (b := true) hlv h3 f2 (goodHeap_of hb) (hren.scriptLines (hsl b h2)) f3 (fun _ => rfl)
    (w2 := ['\n']) (z := '}' :: ((e ++ w) ++ r)) nl_ign (meaningful_head (by decide) (by decide)) (rootItem_close _) (nameEnd_cons (by decide))
  obtain ⟨w0, m, ts, q, c1, c2, c3, c4, c5, c6⟩ := g2 ['\n'] ([' ', '{', '\n'] ++ (wb ++ (B ++ '}' :: ((e ++ w) ++ r)))) nl_ign (by simp)
  obtain ⟨pm, k, sm, d1⟩ := proto_der hg.legal c2 c3 c4 a2 a3 a4 hew hr
  obtain ⟨s1, s2, s3⟩ := sameProto_of hg c6 h2 e3.nodes e5 hren a6 a7
  refine ⟨pm, k, ts ++ [.node .vrmlScene sm sts], { q with body := some rs'.sc }, ?_, fun rs => by rw [c5 rs]; exact readDecls_scene (by rw [c6.name, hg.name]; exact hg.core) a5, s1, s2, s3, c6.url⟩
  have t1 : chars "PROTO " ++ x ++ [' ', '['] ++ (eventsText lv lv.indent p.events ++ ft) ++ ['\n', ']', ' ', '{', '\n'] ++ textOf st.out ++ ['\n', '}'] ++ e ++ (w ++ r)
      = chars "PROTO " ++ (x ++ ([' ', '['] ++ (w0 ++ (m ++ ']' :: ([' ', '{', '\n'] ++ (wb ++ (B ++ '}' :: ((e ++ w) ++ r)))))))) := by
    rw [← c1, ← a1]; simp
  have t2 : chars "PROTO " ++ x ++ [' ', '['] ++ (eventsText lv lv.indent p.events ++ ft) ++ ['\n', ']', ' ', '{', '\n'] ++ textOf st.out ++ ['\n', '}'] ++ e ++ w
      = chars "PROTO " ++ (x ++ ([' ', '['] ++ (w0 ++ (m ++ ']' :: ([' ', '{', '\n'] ++ (wb ++ (B ++ '}' :: (e ++ w)))))))) := by
    have : (chars "PROTO " ++ x ++ [' ', '['] ++ (eventsText lv lv.indent p.events ++ ft) ++ ['\n', ']', ' ', '{', '\n'] ++ textOf st.out ++ ['\n', '}'] ++ e ++ w) ++ r
        = (chars "PROTO " ++ (x ++ ([' ', '['] ++ (w0 ++ (m ++ ']' :: ([' ', '{', '\n'] ++ (wb ++ (B ++ '}' :: (e ++ w))))))))) ++ r := by
      have := t1
      simp only [List.append_assoc, List.cons_append, List.nil_append] at this ⊢
      exact this
    exact List.append_cancel_right this
  rw [t1, t2]
  exact d1

/-! ### Class tables -/

theorem SameType.trans {a b c : FieldDecl F} (h1 : SameType a b) (h2 : SameType b c) : SameType a c :=
  ⟨h2.name.trans h1.name, h2.cls.trans h1.cls, h2.kind.trans h1.kind, h2.str.trans h1.str, h2.conv.trans h1.conv⟩

theorem SameField.trans {a b c : FieldDecl F} (h1 : SameField a b) (h2 : SameField b c) : SameField a c :=
  ⟨h1.toSameType.trans h2.toSameType, h2.dflt.trans h1.dflt⟩

theorem SameType.visible {a b : FieldDecl F} (h : SameType a b) : Visible b ↔ Visible a := by
  rw [Visible, Visible, h.name]

theorem SameClass.trans {a b c : Class F} (h1 : SameClass a b) (h2 : SameClass b c) : SameClass a c := by
  have hdec : ∀ {d d' : FieldDecl F}, SameType d d' → (Declared b d'.name ↔ Declared a d.name) := by
    intro d d' h
    rw [Declared, Declared, h1.proto, h.name]
  refine ⟨h2.proto.trans h1.proto, fun d hd hv => ?_, fun d hd hv => ?_, fun f => (h2.mapped f).trans (h1.mapped f), fun d hd hv => ?_, fun e he => (h2.events e he).trans (h1.events e he)⟩
  · obtain ⟨d', e1, e2, e2'⟩ := h1.fields d hd hv
    obtain ⟨d'', e3, e4, e4'⟩ := h2.fields d' e1 (e2.visible.2 hv)
    exact ⟨d'', e3, e2.trans e4, fun h => (e2' h).trans (e4' (fun h' => h ((hdec e2).1 h')))⟩
  · obtain ⟨d', e1, e2, e2'⟩ := h2.back d hd hv
    obtain ⟨d'', e3, e4, e4'⟩ := h1.back d' e1 (e2.visible.1 hv)
    exact ⟨d'', e3, e4.trans e2, fun h => (e4' h).trans (e2' (fun h' => h ((hdec e4).1 h')))⟩
  · obtain ⟨d', e1, e2, e2'⟩ := h1.fields d hd hv
    rw [← h1.exposed d hd hv, ← e2.name]
    exact h2.exposed d' e1 (e2.visible.2 hv)

/-- The classes of one table are, for the types in use, those of the other. -/
theorem GoodBody.of_lk {b : Scene F} {all : List Nat} (h : GoodBody lk0 fl b all)
    (hlk : ∀ x c, Uses b x → lk0 x = some c → ∃ c', lk x = some c' ∧ SameClass c c' ∧ (c.Distinct → c'.Distinct)) : GoodBody lk fl b all := by
  refine ⟨fun i n hi hn => ?_, h.writable, h.shared, h.registered, h.routes⟩
  have hg := h.nodes i n hi hn
  by_cases hs : n.cls.proto = chars "Script"
  · rcases hg.cls with ⟨h0, -⟩ | h0
    · rw [hs] at h0; exact absurd h0 (by decide)
    · exact { hg with cls := .inr h0 }
  · rcases hg.cls with ⟨h0, c, h1, h2, h3⟩ | h0
    · obtain ⟨c', e1, e2, e3⟩ := hlk _ c ⟨hs, i, n, hi, hn, rfl⟩ h1
      exact { hg with cls := .inl ⟨h0, c', e1, h2.trans e2, e3 h3⟩ }
    · exact absurd h0.proto hs

/-! ### The types of the nodes written -/

/-- Openings in the output belong to known nodes. -/
def HeadInv (heap : Nat → Option (Node F)) (st : St) : Prop :=
  ∀ i d p, Chunk.head i d p ∈ st.out → Done st i ∧ ∃ n, heap i = some n ∧ n.cls.proto = p

theorem look_cons_self (l : List (Nat × (Nat × Option Nat))) (i : Nat) (v : Nat × Option Nat) : List.lookup i ((i, v) :: l) = some v := by
  exact List.lookup_cons_self

theorem look_cons_ne (l : List (Nat × (Nat × Option Nat))) (i : Nat) (v : Nat × Option Nat) {j : Nat} (h : j ≠ i) : List.lookup j ((i, v) :: l) = List.lookup j l := by
  simp [List.lookup, beq_false_of_ne h]

theorem headSteps (heap : Nat → Option (Node F)) : NodeSteps heap (fun a b => (∀ i, Done a i → Done b i) ∧ (HeadInv heap a → HeadInv heap b)) where
  refl _ := ⟨fun _ h => h, id⟩
  trans h1 h2 := ⟨fun i h => h2.1 i (h1.1 i h), h2.2 ∘ h1.2⟩
  write a t := ⟨fun _ h => h, fun h i d p hm => by
    simp only [St.write, List.mem_append, List.mem_singleton, reduceCtorEq, or_false] at hm
    exact h i d p hm⟩
  level a k := ⟨fun _ h => h, fun h => h⟩
  use st i n x hn hx hD := ⟨fun _ h => h, fun h j d p hm => by
    simp only [List.mem_append, List.mem_singleton, reduceCtorEq, or_false] at hm
    exact h j d p hm⟩
  copy st i n start stop hn hx hD := ⟨fun _ h => h, fun h j d p hm => by
    simp only [List.mem_append, List.mem_singleton, reduceCtorEq, or_false] at hm
    rcases hm with hm | hm
    · exact h j d p hm
    · exact h j d p (List.mem_of_mem_take (List.mem_of_mem_drop hm))⟩
  error st i n start hn hx hD := ⟨fun _ h => h, fun h j d p hm => by
    simp only [List.mem_append, List.mem_singleton, reduceCtorEq, or_false] at hm
    exact h j d p hm⟩
  opening st i n hn hx := by
    have hup : ∀ j, Done st j → Done { st with done := (i, (st.out.length, none)) :: st.done, out := st.out ++ [Chunk.head i n.DEF n.cls.proto] } j := by
      rintro j ⟨x, hx⟩
      by_cases hj : j = i
      · subst hj; exact ⟨_, look_cons_self _ _ _⟩
      · exact ⟨x, (look_cons_ne _ _ _ hj).trans hx⟩
    refine ⟨hup, fun h j d p hm => ?_⟩
    simp only [List.mem_append, List.mem_singleton] at hm
    rcases hm with hm | hm
    · obtain ⟨h1, h2⟩ := h j d p hm
      exact ⟨hup j h1, h2⟩
    · cases hm
      exact ⟨⟨_, look_cons_self _ _ _⟩, n, hn, rfl⟩
  closed st st1 i n hn hx hr := by
    have hup : ∀ (s : St) (v : Nat × Option Nat) j, Done s j → Done { s with done := (i, v) :: s.done } j := by
      rintro s v j ⟨x, hx⟩
      by_cases hj : j = i
      · subst hj; exact ⟨_, look_cons_self _ _ _⟩
      · exact ⟨x, (look_cons_ne _ _ _ hj).trans hx⟩
    exact ⟨fun j hj => hup st1 _ j hj, fun h j d p hm => by
      obtain ⟨h1, h2⟩ := h j d p hm
      exact ⟨hup st1 _ j h1, h2⟩⟩

end Verif.Lin
