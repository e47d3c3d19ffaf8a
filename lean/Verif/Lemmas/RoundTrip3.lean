import Verif.Lemmas.RoundTrip2
/-!
Lemmas for C09, continued: whole files.
-/
namespace Verif.Lin
open Verif.Peg Verif.Grammar Verif.TextOut Verif.Text Verif.SceneText Verif.ListText
variable {F : Type}
variable {lk : Text → Option (Class F)} {fl : Floats F} {src : Scene F} {P : Nat → Prop} {lv : LinValues} {lin : St → Nat → Res St}

/-- Only nodes, names and the counter of the reader state matter. -/
theorem Inv.of_heap {st : St} {rs rs' : RSt F} {φ : Nat → Nat} (h : Inv src P st rs φ) (h1 : rs'.sc.heap = rs.sc.heap)
    (h2 : rs'.sc.defs = rs.sc.defs) (h3 : rs'.next = rs.next) (h4 : rs'.sc.is = rs.sc.is) : Inv src P st rs' φ := by
  refine ⟨fun i x hx => ?_, h.inj, fun i x hx hx2 f nm => by rw [isMapped_congr h4]; exact h.is i x hx hx2 f nm,
    fun j f nm hm => h.cover j f nm ((isMapped_congr h4).1 hm), fun dict nm l hd => h.full dict nm l (by rw [← h4]; exact hd), fun hb => by rw [h4]; exact h.body hb⟩
  obtain ⟨hP, n, m, g1, g2, g4, g5, g6, g7⟩ := h.node i x hx
  exact ⟨hP, n, m, g1, by rw [h1]; exact g2, g4, by rw [h3]; exact g5, by simpa [Scene.getDEF, h2] using g6, g7⟩

section
variable (lk fl src P)
/-- Reading the text of the children. -/
def ChildrenEff (st st' : St) (l : List Nat) (ts : List PTree) : Prop :=
  ∀ rs φ, Inv src P st rs φ → ∃ rs' φ' vs, dispList lk fl ts none none rs = some (vs, rs') ∧ Inv src P st' rs' φ' ∧ Ext st φ φ' ∧
    rs'.sc.children = rs.sc.children ++ l.map φ' ∧ rs'.sc.routes = rs.sc.routes
end

theorem children_read (hmono : Mono lin) (hl : Good lk fl src P lv lin) : ∀ (l : List Nat) (st st' : St), l ≠ [] → (∀ j ∈ l, P j) →
    linChildren lv lin st l = .ok st' → st'.warned = false →
    Grow st st' ∧ (∀ j ∈ l, Done st' j) ∧ ∃ C pre B, st'.out = st.out ++ C ∧ textOf C = pre ++ (B ++ lv.fullSep) ∧ Ignorable pre ∧ Start B ∧
      ∀ w1 rest ts2 m2 z, Ignorable w1 → Meaningful rest → Der gram (.star (.nt .rootItem)) rest (.ok ts2 m2 z) → ∀ w0, Ignorable w0 →
        ∃ ts, Der gram (.star (.nt .rootItem)) (w0 ++ (B ++ ((lv.fullSep ++ w1) ++ rest))) (.ok (ts ++ ts2) (w0 ++ (B ++ ((lv.fullSep ++ w1) ++ m2))) z) ∧
          ChildrenEff lk fl src P st st' l ts := by
  intro l
  induction l with
  | nil => intro st st' h; exact absurd rfl h
  | cons i l ih =>
    intro st st' _ hP h hw
    simp only [linChildren] at h
    cases hlin : lin st i with
    | error e => rw [hlin] at h; cases h
    | ok st1 =>
      rw [hlin] at h
      simp only at h
      have hd1 : (st1.write lv.fullSep).done = st1.done := rfl
      have hgr1 : Grow st1 (st1.write lv.fullSep) := Grow.of_done hd1
      -- one child
      have one : ∀ V, Start V → (∀ w r, Sep lv w → Meaningful r → ∃ t, Der gram X (V ++ (w ++ r)) (.ok [t] (V ++ w) r) ∧
          isNodeTag (ParseVal.Tree.tag t) = true ∧ NodeEff lk fl src P st st1 i t) → ∀ w r w0, Sep lv w → Meaningful r → Ignorable w0 →
          ∃ t, Der gram (.nt .rootItem) (w0 ++ (V ++ (w ++ r))) (.ok [t] (w0 ++ (V ++ w)) r) ∧
            (∀ rs φ, Inv src P st rs φ → ∃ rs' φ', disp lk fl t none none rs = some (.nothing, rs') ∧ Inv src P st1 rs' φ' ∧ Ext st φ φ' ∧
              rs'.sc.children = rs.sc.children ++ [φ' i] ∧ rs'.sc.routes = rs.sc.routes) := by
        intro V hs hX w r w0 hw' hr hw0
        obtain ⟨t, h1, h2, h3⟩ := hX w r hw' hr
        refine ⟨_, rootItem_der hw0 (hs.mean _) (rootAlt_X hs h1) hr, fun rs φ hi => ?_⟩
        obtain ⟨rs', φ', e1, e2, e3, e4⟩ := h3 none none rs φ hi
        refine ⟨{ rs' with sc := { rs'.sc with children := rs'.sc.children ++ [φ' i] } }, φ', ?_, e2.of_heap rfl rfl rfl rfl, e3, ?_, ?_⟩
        · simp [disp, dispList, e1]
        · simp [e4.children]
        · simp [e4.routes]
      cases l with
      | nil =>
        simp only [linChildren, Except.ok.injEq] at h
        subst h
        obtain ⟨h1, h2, h3, C, pre, V, h4, hp, hpi, h5, h6⟩ := hl _ _ _ (hP i (by simp)) hlin hw
        refine ⟨h2.trans hgr1, by simpa using hgr1.done h3, C ++ [Chunk.text lv.fullSep], pre, V, by simp [St.write, h4], by simp [textOf_append, textOf_text, hp], hpi, h5, ?_⟩
        intro w1 rest ts2 m2 z hw1 hrest hder w0 hw0
        obtain ⟨t, c1, c2⟩ := one V h5 h6 (lv.fullSep ++ w1) rest w0 ⟨w1, rfl, hw1⟩ hrest hw0
        have c3 := Der.starCons c1 (by obtain ⟨c, s, hcs, -⟩ := h5.head; simp [hcs]) hder
        refine ⟨[t], by simpa using c3, fun rs φ hi => ?_⟩
        obtain ⟨rs', φ', e1, e2, e3, e4, e5⟩ := c2 rs φ hi
        exact ⟨rs', φ', _, by simp [dispList, e1]; rfl, e2.of_done rfl, e3, by simpa using e4, e5⟩
      | cons i2 l2 =>
        have hw1 : st1.warned = false := by
          cases hx : st1.warned with
          | false => rfl
          | true =>
            have : ∀ l st st', linChildren lv lin st l = .ok st' → st.warned = true → st'.warned = true := by
              intro l
              induction l with
              | nil => intro st st' h hw; simp only [linChildren, Except.ok.injEq] at h; subst h; exact hw
              | cons a l ih =>
                intro st st' h hw
                simp only [linChildren] at h
                split at h
                · cases h
                · rename_i h1
                  have := (hmono _ _ _ h1).1 hw
                  exact ih _ _ h this
            rw [this _ _ _ h hx] at hw; cases hw
        obtain ⟨h1, h2, h3, C, pre, V, h4, hp, hpi, h5, h6⟩ := hl _ _ _ (hP i (by simp)) hlin hw1
        obtain ⟨a2, a3, C2, pre2, B2, a4, a5, a5', a6, a7⟩ := ih (st1.write lv.fullSep) st' (by simp) (fun j hj => hP j (List.mem_cons_of_mem _ hj)) h hw
        refine ⟨(h2.trans hgr1).trans a2, ?_, C ++ [Chunk.text lv.fullSep] ++ C2, pre, V ++ (lv.fullSep ++ (pre2 ++ B2)), by rw [a4]; simp [St.write, h4],
          by simp [textOf_append, textOf_cons, Chunk.toText, a5, hp], hpi, h5.append, ?_⟩
        · intro j hj
          rcases List.mem_cons.1 hj with rfl | hj
          · exact a2.done (hgr1.done h3)
          · exact a3 j hj
        · intro w1 rest ts2 m2 z hw1 hrest hder w0 hw0
          obtain ⟨ts, b1, b2⟩ := a7 w1 rest ts2 m2 z hw1 hrest hder [] .nil
          obtain ⟨t, c1, c2⟩ := one V h5 h6 (lv.fullSep ++ pre2) (B2 ++ ((lv.fullSep ++ w1) ++ rest)) w0 ⟨pre2, rfl, a5'⟩ (a6.mean _) hw0
          have c3 := Der.starCons c1 (by obtain ⟨c, s, hcs, -⟩ := h5.head; simp [hcs]) (by simpa using b1)
          refine ⟨t :: ts, by simpa using c3, fun rs φ hi => ?_⟩
          obtain ⟨rs1, φ1, e1, e2, e3, e4, e5⟩ := c2 rs φ hi
          obtain ⟨rs2, φ2, vs, f1, f2, f3, f4, f5⟩ := b2 rs1 φ1 (e2.of_done rfl)
          refine ⟨rs2, φ2, _, dispList_cons lk fl e1 f1, f2, Ext.trans h2 e3 (fun j hj => f3 j (hgr1.done hj)), ?_, f5.trans e5⟩
          rw [f4, e4, List.map_cons (l := i2 :: l2), f3 i (hgr1.done h3)]
          simp

/-! ### Routes -/

/-- the text of a route without the separator before it -/
def routeBody (defOf : Nat → Text) (r : Rt) : Text :=
  ['R', 'O', 'U', 'T', 'E', ' '] ++ defOf r.src ++ ['.'] ++ r.srcField ++ [' ', 'T', 'O', ' '] ++ defOf r.dst ++ ['.'] ++ r.dstField

theorem routeText_eq (defOf : Nat → Text) (r : Rt) : routeText lv defOf r = lv.fullSep ++ routeBody defOf r := by
  simp [routeText, routeBody]

/-- A route whose ends are known and whose names can be read. -/
structure RouteOk (a : Scene F) (defOf : Nat → Text) (st : St) (r : Rt) : Prop where
  src : Done st r.src ∧ ∃ n, a.heap r.src = some n ∧ n.DEF = defOf r.src ∧ LegalName n.DEF
  dst : Done st r.dst ∧ ∃ n, a.heap r.dst = some n ∧ n.DEF = defOf r.dst ∧ LegalName n.DEF
  names : LegalName r.srcField ∧ LegalName r.dstField

theorem routes_read (hlv : GoodOptions lv) {defOf : Nat → Text} {st : St} : ∀ (l : List Rt), (∀ r ∈ l, RouteOk src defOf st r) → ∀ w2 z, Ignorable w2 → Meaningful z →
    Der gram (.nt .rootItem) z .fail → NameEnd (w2 ++ z) →
    ∃ w1 rest m ts, (l.map (routeText lv defOf)).flatten ++ (w2 ++ z) = w1 ++ rest ∧ rest = m ++ z ∧ Ignorable w1 ∧ Meaningful rest ∧
      Der gram (.star (.nt .rootItem)) rest (.ok ts m z) ∧ ∀ rs φ, Inv src P st rs φ → ∃ vs,
        dispList lk fl ts none none rs = some (vs, { rs with sc := { rs.sc with routes := rs.sc.routes ++ l.map (fun r => ⟨φ r.src, r.srcField, φ r.dst, r.dstField⟩) } }) := by
  intro l
  induction l with
  | nil =>
    intro _ w2 z hw2 hz hzf _
    refine ⟨w2, z, [], [], rfl, rfl, hw2, hz, .starNil hzf, fun rs φ _ => ⟨[], ?_⟩⟩
    simp [dispList]
  | cons r l ih =>
    intro hr w2 z hw2 hz hzf hze
    obtain ⟨w1, rest, m2, ts, h1, h1', h2, h3, h4, h5⟩ := ih (fun x hx => hr x (by simp [hx])) w2 z hw2 hz hzf hze
    obtain ⟨⟨hs1, ns, hs2, hs3, hs4⟩, ⟨hd1, nd, hd2, hd3, hd4⟩, hf1, hf2⟩ := hr r (by simp)
    have hend : NameEnd (w1 ++ rest) := by
      rw [← h1]
      cases l with
      | nil => simpa using hze
      | cons r' l =>
        rw [List.map_cons, List.flatten_cons, routeText_eq, List.append_assoc, List.append_assoc]
        exact nameEnd_ign hlv.plain.fullSep hlv.sep
    obtain ⟨m, hder⟩ := route_der (s := defOf r.src) (sf := r.srcField) (d := defOf r.dst) (df := r.dstField) (w := w1) (r := rest)
      (hs3 ▸ hs4) hf1 (hd3 ▸ hd4) hf2 h2 h3 hend
    have hroot : Der gram rootAlt (routeBody defOf r ++ (w1 ++ rest)) (.ok [.node .route m [.node .name (defOf r.src) [], .node .name r.srcField [], .node .name (defOf r.dst) [], .node .name r.dstField []]] (routeBody defOf r ++ w1) rest) := by
      refine .altR ?_ (.altR ?_ (.altL hder))
      · exact .ntFail (.seqFail1 (lit_fail1 (by decide)))
      · exact .ntFail (.seqFail1 (lit_fail1 (by decide)))
    have hmean : Meaningful (routeBody defOf r ++ (w1 ++ rest)) := meaningful_head (by decide) (by decide)
    have hitem := rootItem_der (w0 := []) .nil hmean hroot h3
    have hstar := Der.starCons hitem (by simp [routeBody]) h4
    refine ⟨lv.fullSep, routeBody defOf r ++ (w1 ++ rest), routeBody defOf r ++ (w1 ++ m2), _, ?_, by simp [h1'], hlv.plain.fullSep, hmean, by simpa using hstar, ?_⟩
    · rw [List.map_cons, List.flatten_cons, List.append_assoc, h1, routeText_eq]; simp
    · intro rs φ hi
      obtain ⟨xs, hxs⟩ := hs1
      obtain ⟨xd, hxd⟩ := hd1
      obtain ⟨-, n1, m1, g1, -, -, -, g2, -⟩ := hi.node _ _ hxs
      obtain ⟨-, n2, m2, g3, -, -, -, g4, -⟩ := hi.node _ _ hxd
      rw [hs2] at g1; cases g1
      rw [hd2] at g3; cases g3
      have e1 := g2 hs4.ne_nil
      have e2 := g4 hd4.ne_nil
      rw [hs3] at e1
      rw [hd3] at e2
      have hi2 : Inv src P st ({ rs with sc := { rs.sc with routes := rs.sc.routes ++ [⟨φ r.src, r.srcField, φ r.dst, r.dstField⟩] } }) φ := hi.of_heap rfl rfl rfl rfl
      obtain ⟨vs, h6⟩ := h5 _ φ hi2
      refine ⟨.nothing :: vs, ?_⟩
      have : disp lk fl (.node .rootItem (routeBody defOf r ++ w1) [.node .route m [.node .name (defOf r.src) [], .node .name r.srcField [], .node .name (defOf r.dst) [], .node .name r.dstField []]]) none none rs
          = some (.nothing, { rs with sc := { rs.sc with routes := rs.sc.routes ++ [⟨φ r.src, r.srcField, φ r.dst, r.dstField⟩] } }) := by
        simp [disp, dispList, e1, e2]
      rw [dispList_cons lk fl this h6]
      simp

theorem write_routes (defOf : Nat → Text) : ∀ (l : List Rt) (st : St), (l.foldl (fun st r => st.write (routeText lv defOf r)) st).out
      = st.out ++ l.map (fun r => Chunk.text (routeText lv defOf r)) ∧ (l.foldl (fun st r => st.write (routeText lv defOf r)) st).done = st.done ∧
      (l.foldl (fun st r => st.write (routeText lv defOf r)) st).warned = st.warned := by
  intro l
  induction l with
  | nil => intro st; simp
  | cons r l ih =>
    intro st
    obtain ⟨h1, h2, h3⟩ := ih (st.write (routeText lv defOf r))
    simp only [List.foldl_cons, h1, h2, h3]
    simp [St.write]

theorem dispList_append {xs ys : List PTree} {cur : Option Nat} {k : Option Kind} : ∀ {rs rs1 rs2 : RSt F} {v1 v2 : List (RVal F)},
    dispList lk fl xs cur k rs = some (v1, rs1) → dispList lk fl ys cur k rs1 = some (v2, rs2) → dispList lk fl (xs ++ ys) cur k rs = some (v1 ++ v2, rs2) := by
  induction xs with
  | nil => intro rs rs1 rs2 v1 v2 h1 h2; simp only [dispList, Option.some.injEq, Prod.mk.injEq] at h1; obtain ⟨rfl, rfl⟩ := h1; simpa using h2
  | cons x xs ih =>
    intro rs rs1 rs2 v1 v2 h1 h2
    simp only [dispList] at h1
    cases hx : disp lk fl x cur k rs with
    | none => rw [hx] at h1; cases h1
    | some p =>
      rw [hx] at h1
      simp only at h1
      cases hxs : dispList lk fl xs cur k p.2 with
      | none => rw [hxs] at h1; cases h1
      | some q =>
        rw [hxs] at h1
        simp only [Option.some.injEq, Prod.mk.injEq] at h1
        obtain ⟨rfl, rfl⟩ := h1
        exact dispList_cons lk fl hx (ih hxs h2)

/-- The start of a scene: nothing in it, in a prototype or not. -/
def RSt.start (b : Bool) : RSt F := ⟨{ (Scene.empty : Scene F) with is := if b then some [] else none }, 0⟩

/-- Every IS declaration of `b` belongs to a node paired with a node of `a`, and every name has one. -/
structure IsCovered (a b : Scene F) (φ : Nat → Nat) : Prop where
  cover : ∀ j f nm, IsMapped b j f nm → ∃ i, Reach a i ∧ j = φ i
  full : ∀ dict nm l, b.is = some dict → (nm, l) ∈ dict → l ≠ []

/-- The text of the children and routes of a scene, followed by something that ends a scene, is read back as the same
scene. -/
theorem body_read (hlv : GoodOptions lv) {sc : Scene F} {fuel : Nat} {st : St} (h : linBody lv fl sc fuel = .ok st) (hw : st.warned = false)
    (hh : GoodHeap lk fl sc (Reach sc)) (hsl : ScriptLines lv sc) (hc : sc.children ≠ [])
    (hr : ∀ r ∈ sc.routes, (Reach sc r.src ∧ LegalName (sc.defOf r.src)) ∧ (Reach sc r.dst ∧ LegalName (sc.defOf r.dst)) ∧ LegalName r.srcField ∧ LegalName r.dstField)
    {b : Bool} (hb : (∃ i f nm, IsMapped sc i f nm) → b = true)
    {w2 z : Text} (hw2 : Ignorable w2) (hz : Meaningful z) (hzf : Der gram (.nt .rootItem) z .fail) (hze : NameEnd (w2 ++ z)) :
    (∀ i, Reach sc i ↔ Done st i) ∧ ∃ pre B, textOf st.out = pre ++ B ∧ Ignorable pre ∧ (∀ r, Meaningful (B ++ r)) ∧ ∀ w0, Ignorable w0 →
    ∃ ts, Der gram (.star (.nt .rootItem)) (w0 ++ (B ++ (w2 ++ z))) (.ok ts (w0 ++ (B ++ w2)) z) ∧
      ∃ vs rs φ, dispList lk fl ts none none (RSt.start b) = some (vs, rs) ∧ SameScene sc rs.sc φ ∧ IsCovered sc rs.sc φ := by
  simp only [linBody] at h
  cases hch : linChildren lv (linNode lv fl sc fuel) ⟨[], [], 0, false⟩ sc.children with
  | error e => rw [hch] at h; cases h
  | ok st1 =>
    rw [hch] at h
    simp only [Except.ok.injEq] at h
    obtain ⟨o1, o2, o3⟩ := write_routes (lv := lv) sc.defOf sc.routes st1
    rw [h] at o1 o2 o3
    obtain ⟨a1, a2, C, pre, B, a3, a4, a4', a5, a6⟩ := children_read (lk := lk) (mono_node fuel) (node_read hlv hh hsl fuel) sc.children _ _ hc (fun j hj => .child hj) hch (by rw [← o3]; exact hw)
    have hfin : ∀ i x, st1.look i = some x → x.2 ≠ none := fun i x hx => a1.2 i rfl x hx
    have hnomap : ∀ j f nm, ¬ IsMapped (RSt.start b : RSt F).sc j f nm := by
      rintro j f nm ⟨d, l, h1, h2, -⟩
      cases b
      · simp [RSt.start] at h1
      · simp only [RSt.start, if_true, Option.some.injEq] at h1; subst h1; cases h2
    -- an initial reader state
    have hinit : Inv sc (Reach sc) ⟨[], [], 0, false⟩ (RSt.start b : RSt F) id := by
      refine ⟨fun i x hx => ?_, fun i j hi => ?_, fun i x hx => ?_, fun j f nm hm => absurd hm (hnomap j f nm), fun d nm l h1 h2 => ?_, fun he => ?_⟩
      · simp [St.look] at hx
      · obtain ⟨x, hx⟩ := hi; simp [St.look] at hx
      · simp [St.look] at hx
      · cases b
        · simp [RSt.start] at h1
        · simp only [RSt.start, if_true, Option.some.injEq] at h1; subst h1; cases h2
      · rw [hb he]; simp [RSt.start]
    -- every reachable node was written
    have hdone : ∀ rs φ, Inv sc (Reach sc) st1 rs φ → ∀ i, Reach sc i → Done st1 i := by
      intro rs φ hi i hri
      induction hri with
      | child h => exact a2 _ h
      | @field a j n d v hra hn hd hv hrd hj ih =>
        obtain ⟨x, hx⟩ := ih
        obtain ⟨-, n', m, g1, -, -, -, -, g7⟩ := hi.node a x hx
        rw [hn] at g1; cases g1
        obtain ⟨v', e1, e2, -⟩ := (g7 (hfin a x hx)).2 d hd hv
        rw [hrd] at e1; cases e1
        exact e2 j hj
    -- reading the children on their own, to learn that every reachable node was written
    obtain ⟨ts0, -, eff0⟩ := a6 [] [] [] _ _ .nil ⟨by simp, by simp⟩ (.starNil rootItem_end) [] .nil
    obtain ⟨rs0, φ0, -, -, inv0, -⟩ := eff0 _ _ hinit
    have hall := hdone rs0 φ0 inv0
    have hro : ∀ r ∈ sc.routes, RouteOk sc sc.defOf st1 r := by
      have key : ∀ i, Reach sc i → LegalName (sc.defOf i) → Done st1 i ∧ ∃ n, sc.heap i = some n ∧ n.DEF = sc.defOf i ∧ LegalName n.DEF := by
        intro i h1 h2
        obtain ⟨x, hx⟩ := hall i h1
        obtain ⟨-, n, -, hn, -⟩ := inv0.node i x hx
        have : sc.defOf i = n.DEF := by simp [Scene.defOf, hn]
        exact ⟨⟨x, hx⟩, n, hn, this.symm, this ▸ h2⟩
      intro r hrr
      obtain ⟨⟨h1, h2⟩, ⟨h3, h4⟩, h5⟩ := hr r hrr
      exact ⟨key _ h1 h2, key _ h3 h4, h5⟩
    obtain ⟨w1, rest, m2, tsr, b1, b1', b2, b3, b4, b5⟩ := routes_read (lk := lk) (fl := fl) (P := Reach sc) hlv sc.routes hro w2 z hw2 hz hzf hze
    have htr : textOf st.out = pre ++ (B ++ (lv.fullSep ++ (sc.routes.map (routeText lv sc.defOf)).flatten)) := by
      rw [o1, textOf_append, a3]
      have : textOf (sc.routes.map (fun r => Chunk.text (routeText lv sc.defOf r))) = (sc.routes.map (routeText lv sc.defOf)).flatten := by
        rw [textOf, List.map_map]; rfl
      rw [this]
      simp [a4]
    generalize hR : (sc.routes.map (routeText lv sc.defOf)).flatten = R at *
    have htext : (B ++ (lv.fullSep ++ R)) ++ (w2 ++ z) = B ++ ((lv.fullSep ++ w1) ++ rest) := by
      simp [b1]
    have htext2 : (B ++ (lv.fullSep ++ R)) ++ w2 = B ++ ((lv.fullSep ++ w1) ++ m2) := by
      have : ((B ++ (lv.fullSep ++ R)) ++ w2) ++ z = (B ++ ((lv.fullSep ++ w1) ++ m2)) ++ z := by
        rw [List.append_assoc, htext, b1']; simp
      exact List.append_cancel_right this
    refine ⟨fun i => ⟨fun hi => (Grow.of_done o2).done (hall i hi), fun ⟨x, hx⟩ => (inv0.node i x (by simpa [St.look, o2] using hx)).1⟩,
      pre, _, htr, a4', fun r => a5.append.mean r, fun w0 hw0 => ?_⟩
    obtain ⟨ts, c1, c2⟩ := a6 w1 rest tsr m2 z b2 b3 b4 w0 hw0
    obtain ⟨rs1, φ, vs1, d1, d2, -, d3, d4⟩ := c2 _ _ hinit
    obtain ⟨vs2, d5⟩ := b5 rs1 φ d2
    refine ⟨ts ++ tsr, by rw [htext, htext2]; simpa using c1, vs1 ++ vs2, _, φ, dispList_append d1 d5, ?_, ?_⟩
    · refine ⟨fun i hi => ?_, fun i hi f nm => ?_, fun i j hi hj => d2.inj i j (hall i hi) (hall j hj), ?_, ?_⟩
      · obtain ⟨x, hx⟩ := hall i hi
        obtain ⟨-, n, m, g1, g2, g4, -, -, g7⟩ := d2.node i x hx
        obtain ⟨g3, g7⟩ := g7 (hfin i x hx)
        refine ⟨n, m, g1, g2, g3.1, g4, fun d hd hv d' hd' hne => ?_⟩
        obtain ⟨v, e1, -, e3⟩ := g7 d hd hv
        obtain ⟨e4, e5⟩ := e3 d' hd' hne
        exact ⟨by rw [e1, e4]; rfl, fun hdec => by obtain ⟨e6, e7⟩ := e5 hdec; rw [e6, e7]; rfl⟩
      · obtain ⟨x, hx⟩ := hall i hi
        rw [← d2.is i x hx (hfin i x hx) f nm]
        exact isMapped_congr rfl
      · simpa [Scene.empty, RSt.start] using d3
      · simp [d4, Scene.empty, RSt.start]
    · refine ⟨fun j f nm hm => ?_, fun dict nm l hd => d2.full dict nm l hd⟩
      obtain ⟨i, ⟨x, hx⟩, h2⟩ := d2.cover j f nm ((isMapped_congr (b := rs1.sc) rfl).1 hm)
      exact ⟨i, (d2.node i x hx).1, h2⟩

/-- The text of a scene is read back as the same scene. -/
theorem scene_read (hlv : GoodOptions lv) {sc : Scene F} {fuel : Nat} {st : St} (h : linBody lv fl sc fuel = .ok st) (hw : st.warned = false)
    (hh : GoodHeap lk fl sc (Reach sc)) (hsl : ScriptLines lv sc) (hc : sc.children ≠ []) (his : sc.is = none)
    (hr : ∀ r ∈ sc.routes, (Reach sc r.src ∧ LegalName (sc.defOf r.src)) ∧ (Reach sc r.dst ∧ LegalName (sc.defOf r.dst)) ∧ LegalName r.srcField ∧ LegalName r.dstField) :
    ∃ sc' φ, Reads lk fl (header ++ textOf st.out) sc' ∧ SameScene sc sc' φ := by
  obtain ⟨-, pre, B, hB, hpre, -, hbr⟩ := body_read (w2 := []) (z := []) (b := false) hlv h hw hh hsl hc hr
    (by rintro ⟨i, f, nm, d, l, h1, -⟩; rw [his] at h1; cases h1) .nil ⟨by simp, by simp⟩ rootItem_end (by intro c s h; simp at h)
  obtain ⟨ts, c1, vs, rs, φ, d1, d2, -⟩ := hbr (['\n'] ++ pre) (nl_ign.append hpre)
  refine ⟨rs.sc, φ, ?_, d2⟩
  have htext : header ++ textOf st.out = (chars "#VRML V2.0 utf8") ++ (['\n'] ++ textOf st.out) := by simp [header]
  rw [htext]
  have hh1 : Der gram (gram .header) (chars "#VRML V2.0 utf8" ++ (['\n'] ++ textOf st.out)) (.ok [] (chars "#VRML V2.0 utf8") (['\n'] ++ textOf st.out)) :=
    run_sound 30 _ _ _ (by rfl)
  have hh2 := Der.nt (g := gram) (n := NT.header) hh1
  simp only [List.append_nil, List.append_assoc, ← hB] at c1
  have hh3 := Der.nt (g := gram) (n := NT.vrmlScene) c1
  have hh4 : Der gram (gram .vrmlFile) _ _ := .seq hh2 (.seq hh3 (.cut (Der.nt (g := gram) (n := NT.eof) .eof)))
  refine ⟨_, _, _, _, rs.next, hh4, ?_⟩
  have : (RSt.start false : RSt F) = ⟨Scene.empty, 0⟩ := rfl
  rw [this] at d1
  simp only [disp, d1]
end Verif.Lin
