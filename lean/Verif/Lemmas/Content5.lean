import Verif.Lemmas.Content4
/-!
The reader does what the file says: induction over the parse tree.
-/
namespace Verif.Full
open Verif.Peg Verif.Grammar Verif.TextOut Verif.SceneText Verif.Reader Verif.Scopes Verif.Shape
open Verif.Lin hiding disp dispList dispDecls dispAttrs disp_node disp_attr
variable {F : Type} {base : Text → Option (Class F)} {fl : Floats F}

section main
variable (hb : PlainBase base) (hty : ∀ ty v, (fl.types.dflt ty).value = some v → v.nodes = []) (hname : ∀ t c, base t = some c → c.proto = t) (plain : Bool)
include hb hty hname

/-- A ROUTE. -/
theorem route_tells {m x xf y yf a c d e} {ss ps : List Nat} {si di} {w : World F} {st : Names} {cur : Option Nat} (h1 : w.getDEF (ss.headD 0) x = some si) (h2 : w.getDEF (ss.headD 0) y = some di)
    (l1 : LegalName xf) (l2 : LegalName yf) (hs : ss ≠ []) (hw : Inv base w ps) (ha : Agree fl plain ss ps w st) :
    ∃ st', Tells (builtinOf base) plain cur (.node .route m [.node .name x a, .node .name xf c, .node .name y d, .node .name yf e]) st [] none st' ∧
      Agree fl plain ss ps (w.addRoute (ss.headD 0) ⟨si, xf, di, yf⟩) st' ∧ st.ifaces <+: st'.ifaces := by
  have hr : Run base fl plain ss ps [.route x xf y yf] w (w.addRoute (ss.headD 0) ⟨si, xf, di, yf⟩) := .route h1 h2 l1 l2
  obtain ⟨st', h3, h4⟩ := hr.names hb hname st hs hw ha
  refine ⟨st', .route ?_, h4, run_ifaces h3⟩
  cases plain
  · simpa [follow, typeMarks, Names.run] using h3
  · simp only [follow, if_true, Names.run] at h3
    simp only [if_true]
    cases hst : st.step (builtinOf base) (.route x xf y yf) with
    | none => rw [hst] at h3; cases h3
    | some s => rw [hst] at h3; exact h3

set_option maxRecDepth 4000 in
set_option maxHeartbeats 3200000 in
mutual
theorem disp_tells : ∀ (t : PTree) (ss ps cur fd) (w : World F) (v w'), disp base fl t ss ps cur fd w = some (v, w') → ParseVal.Tree.tag t ≠ .field → Inv base w ps → Named t → Shaped t → Cur cur w →
    Fresh w → (plain = true → plainDefaults t = true) → ss ≠ [] → ∀ st, Agree fl plain ss ps w st → ∀ cur' : Option Nat, (cur' = cur ∨ NoAttr t) →
    ∃ l r st', Tells (builtinOf base) plain cur' t st l r st' ∧ Agree fl plain ss ps w' st' ∧ st.ifaces <+: st'.ifaces ∧ Res v r ∧ Effect fl NoNode (fun i => cur' = some i) l w w'
  | t, ss, ps, cur, fd, w, v, w', h, htag, hw, hn, hsh, hc, hfr, hp, hs, st, ha, cur', hcur => by
    unfold disp at h
    split at h
    · -- root item
      next m kids =>
      split at h
      · cases h
      · next items w1 h1 =>
        cases h
        have hk := item_kids hsh
        simp only [Shaped] at hsh
        simp only [Named] at hn
        obtain ⟨l, rs, st1, t1, a1, p1, r1, e1⟩ := dispList_tells kids _ _ _ _ _ _ _ h1 (fun t ht => (hk t ht).1) hw hn.2 hsh.2 hc hfr
          (fun hpl => by have := hp hpl; simp only [plainDefaults, Bool.and_eq_true] at this; exact this.2) hs st ha cur' (.inr (fun t ht => (hk t ht).2))
        obtain ⟨i1, x1, o1⟩ := dispList_keeps hb hty h1 hw hn.2 hc
        refine ⟨_, _, _, .item t1, ?_, p1, .inl ⟨rfl, rfl⟩, ?_⟩
        · refine Run.step0 hb hname (.children (fun i hi => ?_)) hs i1 a1
          obtain ⟨x, hx, hxi⟩ := List.mem_filterMap.1 hi
          split at hxi
          · cases hxi; exact ref_lt (o1 _ hx) rfl
          · cases hxi
        · have hh := res_nodes r1
          rw [a1.here hs, ← hh]
          exact e1.trans (children_effect (C := fun i => cur' = some i) (a1.lt hs) _) (fun _ h => .inl h)
    · -- PROTO
      next m nm a rest =>
      split at h
      · cases h
      · split at h
        · cases h
        · next w1 h1 =>
          cases h
          simp only [Shaped, Shapeds] at hsh
          simp only [Named, Nameds] at hn
          have hb1 := ha.beginProto nm rest
          obtain ⟨l, st1, t1, a1, p1, e1⟩ := dispProto_tells rest _ _ _ _ _ h1 (hw.newClass nm).1 hn.2.2 hsh.2.2 ((newClass_effect (fl := fl) (C := NoNode) hfr nm).fresh hfr)
            (fun hpl => by have := hp hpl; simp only [plainDefaults, allPlain, Bool.and_eq_true] at this; exact this.2.2) hs _ hb1
          obtain ⟨s, ss', rfl⟩ := List.exists_cons_of_ne_nil hs
          refine ⟨l, _, { st1.onScope (fun c => { c with protos := (nm, w.nclasses) :: c.protos }) with pending := ps }, .proto (s1 := _) (s2 := st1) rfl (by rw [← ha.np] at t1; exact t1) (by simp only [Names.step, a1.pending]), ?_, ?_, .inl ⟨rfl, rfl⟩, ?_⟩
          · exact ha.endProto a1 p1 (dispProto_declared h1)
          · refine List.IsPrefix.trans ?_ (List.IsPrefix.trans (List.prefix_append _ [rest]) (p1.trans ?_))
            · exact List.prefix_rfl
            · exact List.prefix_rfl
          · have := ((newClass_effect (fl := fl) (C := NoNode) hfr nm).trans e1 (fun _ h => .inl h)).trans (addProto_effect (C := NoNode) w1 s nm w.nclasses) (fun _ h => .inl h)
            simp only [List.nil_append, List.append_nil] at this
            exact this.more (fun _ h => h.elim)
    · -- EXTERNPROTO
      next m nm a rest =>
      split at h
      · cases h
      · split at h
        · cases h
        · next w1 h1 =>
          cases h
          simp only [Shaped, Shapeds] at hsh
          simp only [Named, Nameds] at hn
          have hb1 := ha.beginProto nm rest
          obtain ⟨l, st1, t1, a1, p1, e1⟩ := dispProto_tells rest _ _ _ _ _ h1 (hw.newClass nm).1 hn.2.2 hsh.2.2 ((newClass_effect (fl := fl) (C := NoNode) hfr nm).fresh hfr)
            (fun hpl => by have := hp hpl; simp only [plainDefaults, allPlain, Bool.and_eq_true] at this; exact this.2.2) hs _ hb1
          obtain ⟨s, ss', rfl⟩ := List.exists_cons_of_ne_nil hs
          refine ⟨l, _, { st1.onScope (fun c => { c with protos := (nm, w.nclasses) :: c.protos }) with pending := ps }, .extern (s1 := _) (s2 := st1) rfl (by rw [← ha.np] at t1; exact t1) (by simp only [Names.step, a1.pending]), ?_, ?_, .inl ⟨rfl, rfl⟩, ?_⟩
          · exact ha.endProto a1 p1 (dispProto_declared h1)
          · refine List.IsPrefix.trans ?_ (List.IsPrefix.trans (List.prefix_append _ [rest]) (p1.trans ?_))
            · exact List.prefix_rfl
            · exact List.prefix_rfl
          · have := ((newClass_effect (fl := fl) (C := NoNode) hfr nm).trans e1 (fun _ h => .inl h)).trans (addProto_effect (C := NoNode) w1 s nm w.nclasses) (fun _ h => .inl h)
            simp only [List.nil_append, List.append_nil] at this
            exact this.more (fun _ h => h.elim)
    · -- node with a name
      next m nm a gi b rest =>
      split at h
      · cases h
      · next w1 h1 =>
        split at h
        · cases h
        · next vs w2 h2 =>
          cases h
          have hk := node_kids hsh
          simp only [Shaped, Shapeds] at hsh
          simp only [Named, Nameds] at hn
          obtain ⟨i1, c, k, n1, -⟩ := create_inv hb hw h1
          obtain ⟨st1, s1, a1, p1⟩ := Run.step1 hb hname (Run.create (fl := fl) (plain := plain) (ps := ps) (.inr (hn.2.1.1 trivial)) h1) hs hw ha (by simp) (by simp)
          have e0 := create_effect (fl := fl) (C := fun i => cur' = some i) hw.unused h1
          obtain ⟨l, rs, st2, t2, a2, p2, r2, e2⟩ := dispList_tells rest _ _ _ _ _ _ _ h2 (fun t ht => hk t (by simp [ht])) i1 hn.2.2.2 hsh.2.2.2
            (fun i hi => by cases hi; obtain ⟨n, hn, -⟩ := n1.cur; exact ⟨n, hn⟩) (e0.fresh hfr)
            (fun hpl => by have := hp hpl; simp only [plainDefaults, allPlain, Bool.and_eq_true] at this; exact this.2.2.2) hs st1 a1 (some w.next) (.inl rfl)
          refine ⟨l, _, st2, .defNode s1 (by rw [ha.len]; exact t2), a2, p1.trans p2, .inr ⟨some w.next, rfl, by rw [ha.len]⟩, ?_⟩
          exact e0.trans e2 (fun i hi => .inr (by cases hi; exact le_rfl))
    · -- node
      next m gi b rest =>
      split at h
      · cases h
      · next w1 h1 =>
        split at h
        · cases h
        · next vs w2 h2 =>
          cases h
          have hk := node_kids hsh
          simp only [Shaped, Shapeds] at hsh
          simp only [Named, Nameds] at hn
          obtain ⟨i1, c, k, n1, -⟩ := create_inv hb hw h1
          obtain ⟨st1, s1, a1, p1⟩ := Run.step1 hb hname (Run.create (fl := fl) (plain := plain) (ps := ps) (.inl rfl) h1) hs hw ha (by simp) (by simp)
          have e0 := create_effect (fl := fl) (C := fun i => cur' = some i) hw.unused h1
          obtain ⟨l, rs, st2, t2, a2, p2, r2, e2⟩ := dispList_tells rest _ _ _ _ _ _ _ h2 (fun t ht => hk t (by simp [ht])) i1 hn.2.2 hsh.2.2
            (fun i hi => by cases hi; obtain ⟨n, hn, -⟩ := n1.cur; exact ⟨n, hn⟩) (e0.fresh hfr)
            (fun hpl => by have := hp hpl; simp only [plainDefaults, allPlain, Bool.and_eq_true] at this; exact this.2.2) hs st1 a1 (some w.next) (.inl rfl)
          refine ⟨l, _, st2, .node s1 (by rw [ha.len]; exact t2), a2, p1.trans p2, .inr ⟨some w.next, rfl, by rw [ha.len]⟩, ?_⟩
          exact e0.trans e2 (fun i hi => .inr (by cases hi; exact le_rfl))
    · -- Script with a name
      next m nm a rest =>
      split at h
      · cases h
      · next w1 h1 =>
        split at h
        · cases h
        · next is w2 h2 =>
          split at h
          · cases h
          · next w3 h3 =>
            split at h
            · cases h
            · next w4 h4 =>
              cases h
              simp only [Shaped, Shapeds] at hsh
              simp only [Named, Nameds] at hn
              have hpl : plain = true → allPlain rest = true := fun hpl => by have := hp hpl; simp only [plainDefaults, allPlain, Bool.and_eq_true] at this; exact this.2.2
              obtain ⟨i1, n1⟩ := script_inv hw h1
              obtain ⟨n, hnn, hnc, -⟩ := n1.cur
              have hi : IsScript w1 w.next := ⟨⟨n, hnn, by rw [hnc]; rfl⟩, by rw [n1.inst, if_pos rfl]⟩
              have hpf : PFields (scriptProto : ProtoDef F) w1.next := fun f hf j hj => by
                rw [scriptProto_fields f.decl (by simp only [ProtoDef.cls]; exact List.mem_map.2 ⟨f, hf, rfl⟩)] at hj; cases hj
              obtain ⟨st1, s1, a1, p1⟩ := Run.step1 hb hname (Run.script (base := base) (fl := fl) (plain := plain) (ps := ps) (.inr (hn.2.1.1 trivial)) h1) hs hw ha (by simp) (by simp)
              have e0 := newNode_effect (fl := fl) (C := fun i => cur' = some i) hw.unused h1
              obtain ⟨l, new, p', st2, hnew, t2, a2, p2, eD, hcl, hpn, hSH, hO⟩ := dispDecls_tells rest ss ps w.next scriptProto [] is w1 w2 h2 i1 hn.2.2 hsh.2.2 (e0.fresh hfr) hpl hs hi .start hpf
                (by simp only [clsAt, hnn, Option.map_some, hnc]) (fun hne hps => hne (addAllIs_none (by rw [hps] at h3; exact h3))) st1 a1
              rw [List.nil_append] at hnew
              subst hnew
              obtain ⟨i2, e2⟩ := dispDecls_keeps hb hty h2 i1 hn.2.2 hi .start hpf
              have hcur2 : Cur (some w.next) w2 := Cur.ext (fun i hi => by cases hi; exact ⟨n, hnn⟩) e2
              have r2 := addAllIs_run (fl := fl) (plain := plain) (ss := ss) hb _ w2 w3 i2 hcur2 h3
              have a3 := r2.step0 hb hname hs i2 a2
              obtain ⟨i3, e3⟩ := r2.inv hb i2
              have eI : Effect fl NoNode NoNode (is.map (fun e => Said.is (ps.headD 0) e.1 w.next e.2)) w2 w3 := by
                cases hps : ps with
                | nil =>
                  rw [hps] at h3
                  have h0 := addAllIs_none h3
                  subst h0
                  cases h3
                  exact .refl _ _ _
                | cons k ps' => rw [hps] at h3; exact addAllIs_effect is w2 w3 (i2.stack k (by simp [hps])) h3
              obtain ⟨l', st3, t3, a4, p3, eA⟩ := dispAttrs_tells rest ss ps w.next fd w3 w' h4 i3 hn.2.2 hsh.2.2 (eI.fresh (eD.fresh (e0.fresh hfr))) hpl hs (hcur2.ext e3) st2 a3
              refine ⟨_, _, st3, .defScript s1 (by rw [ha.len]; exact t2) (by rw [ha.len]; exact t3), a4, p1.trans (p2.trans p3), .inr ⟨some w.next, rfl, by rw [ha.len]⟩, ?_⟩
              rw [ha.len]
              exact script_effect rfl (by have := n1.next; omega) e0 eD hcl (scriptAs_of hpn (fun x => by have := hSH x none ⟨rfl, rfl⟩; rwa [Option.or_none] at this)) hO eI (by simp) eA
    · -- Script
      next m rest _ =>
      split at h
      · cases h
      · next w1 h1 =>
        split at h
        · cases h
        · next is w2 h2 =>
          split at h
          · cases h
          · next w3 h3 =>
            split at h
            · cases h
            · next w4 h4 =>
              cases h
              simp only [Shaped] at hsh
              simp only [Named] at hn
              have hpl : plain = true → allPlain rest = true := fun hpl => by have := hp hpl; simp only [plainDefaults, Bool.and_eq_true] at this; exact this.2
              obtain ⟨i1, n1⟩ := script_inv hw h1
              obtain ⟨n, hnn, hnc, -⟩ := n1.cur
              have hi : IsScript w1 w.next := ⟨⟨n, hnn, by rw [hnc]; rfl⟩, by rw [n1.inst, if_pos rfl]⟩
              have hpf : PFields (scriptProto : ProtoDef F) w1.next := fun f hf j hj => by
                rw [scriptProto_fields f.decl (by simp only [ProtoDef.cls]; exact List.mem_map.2 ⟨f, hf, rfl⟩)] at hj; cases hj
              obtain ⟨st1, s1, a1, p1⟩ := Run.step1 hb hname (Run.script (base := base) (fl := fl) (plain := plain) (ps := ps) (.inl rfl) h1) hs hw ha (by simp) (by simp)
              have e0 := newNode_effect (fl := fl) (C := fun i => cur' = some i) hw.unused h1
              obtain ⟨l, new, p', st2, hnew, t2, a2, p2, eD, hcl, hpn, hSH, hO⟩ := dispDecls_tells rest ss ps w.next scriptProto [] is w1 w2 h2 i1 hn.2 hsh.2 (e0.fresh hfr) hpl hs hi .start hpf
                (by simp only [clsAt, hnn, Option.map_some, hnc]) (fun hne hps => hne (addAllIs_none (by rw [hps] at h3; exact h3))) st1 a1
              rw [List.nil_append] at hnew
              subst hnew
              obtain ⟨i2, e2⟩ := dispDecls_keeps hb hty h2 i1 hn.2 hi .start hpf
              have hcur2 : Cur (some w.next) w2 := Cur.ext (fun i hi => by cases hi; exact ⟨n, hnn⟩) e2
              have r2 := addAllIs_run (fl := fl) (plain := plain) (ss := ss) hb _ w2 w3 i2 hcur2 h3
              have a3 := r2.step0 hb hname hs i2 a2
              obtain ⟨i3, e3⟩ := r2.inv hb i2
              have eI : Effect fl NoNode NoNode (is.map (fun e => Said.is (ps.headD 0) e.1 w.next e.2)) w2 w3 := by
                cases hps : ps with
                | nil =>
                  rw [hps] at h3
                  have h0 := addAllIs_none h3
                  subst h0
                  cases h3
                  exact .refl _ _ _
                | cons k ps' => rw [hps] at h3; exact addAllIs_effect is w2 w3 (i2.stack k (by simp [hps])) h3
              obtain ⟨l', st3, t3, a4, p3, eA⟩ := dispAttrs_tells rest ss ps w.next fd w3 w' h4 i3 hn.2 hsh.2 (eI.fresh (eD.fresh (e0.fresh hfr))) hpl hs (hcur2.ext e3) st2 a3
              refine ⟨_, _, st3, .script s1 (by rw [ha.len]; exact t2) (by rw [ha.len]; exact t3), a4, p1.trans (p2.trans p3), .inr ⟨some w.next, rfl, by rw [ha.len]⟩, ?_⟩
              rw [ha.len]
              exact script_effect rfl (by have := n1.next; omega) e0 eD hcl (scriptAs_of hpn (fun x => by have := hSH x none ⟨rfl, rfl⟩; rwa [Option.or_none] at this)) hO eI (by simp) eA
    · cases h; exact ⟨_, _, _, .null, ha, List.prefix_rfl, .inr ⟨_, rfl, rfl⟩, .refl _ _ _⟩
    · -- USE
      split at h
      · cases h
      · next i hi =>
        cases h
        refine ⟨_, _, st, .use (fun hpl => ?_), ha, List.prefix_rfl, .inr ⟨_, rfl, rfl⟩, .refl _ _ _⟩
        obtain ⟨s, ss', rfl⟩ := List.exists_cons_of_ne_nil hs
        rw [named_eq ha hpl]; exact hi
    · -- ROUTE
      split at h
      · next si di h1 h2 =>
        cases h
        simp only [Named, Nameds] at hn
        obtain ⟨st', t1, a1, p1⟩ := route_tells hb hty hname plain (cur := cur') h1 h2 (hn.2.2.1.1 trivial) (hn.2.2.2.2.1.1 trivial) hs hw ha
        exact ⟨_, _, st', t1, a1, p1, .inl ⟨rfl, rfl⟩, addRoute_effect _ _ _⟩
      · cases h
    · -- attribute
      next m nm a value i =>
      have hcc : cur' = some i := by
        rcases hcur with h1 | h1
        · exact h1
        · exact absurd rfl h1.1
      subst hcc
      split at h
      · cases h
      · next n hnn =>
        split at h
        · cases h
        · next m' _ hm =>
          split at h
          · cases h
          · next w1 h1 =>
            cases h
            obtain ⟨k, rfl⟩ := isTarget_some hm
            cases hps : ps with
            | nil => rw [hps] at h1; cases h1
            | cons c ps' =>
              subst hps
              refine ⟨_, _, st, .isAttr (k := c) (by rw [ha.pending]; rfl), ?_, List.prefix_rfl, .inl ⟨rfl, rfl⟩, addIs_effect (hw.stack c (by simp)) h1⟩
              exact Run.step0 hb hname (.is hnn h1) hs hw ha
        · cases h
        · next d hd hm =>
          split at h
          · cases h
          · next v1 w1 h1 =>
            split at h
            · cases h
            · next v2 hv2 =>
              split at h
              · cases h
              · next w2 h2 =>
                cases h
                obtain ⟨m', kids, rfl⟩ := attr_value hsh hm
                simp only [Named, Nameds] at hn
                have hn1 : Named (.node .field m' kids) := by simp only [Named]; exact hn.2.2.1
                simp only [Shaped, Shapeds] at hsh
                obtain ⟨l, g, st1, t1, a1, p1, g1, e1⟩ := disp_value m' kids ss ps (some i) d.kind w v1 v2 w1 h1 hv2 hw hn1 (by simp only [Shaped]; exact hsh.2.2.1)
                  (fun j hj => by cases hj; exact ⟨n, hnn⟩) hfr
                  (fun hpl => by have := hp hpl; simp only [plainDefaults, allPlain, Bool.and_eq_true] at this; exact this.2.2.1.2) hs st ha
                obtain ⟨i1, x1, o1⟩ := disp_keeps hb hty h1 hw hn1 (fun j hj => by cases hj; exact ⟨n, hnn⟩)
                have hi : i < w.next := (hw.ids i).1 (by rw [hnn]; rfl)
                have hcl := e1.cls i hi id
                obtain ⟨n', hn', hnc⟩ := Option.map_eq_some_iff.1 (hcl.trans (by rw [clsAt, hnn]; rfl))
                refine ⟨_, _, st1, .attr t1, ?_, p1, .inl ⟨rfl, rfl⟩, ?_⟩
                · refine Run.step0 hb hname (.attr hn' ?_ (o1 v2 hv2) h2) hs i1 a1
                  rw [hnc]; exact .inl (getField_mem hd)
                · refine (e1.more (D := fun j => some i = some j) (fun _ h => h.elim)).trans (attr_effect (hi.trans_le e1.next) hn' (by rw [hnc]; exact hd) g1 h2) (fun j hj => .inl (by rw [hj]))
    · exact absurd rfl htag
    · cases h
termination_by t => sizeOf t
theorem disp_value : ∀ (m : Text) (kids : List PTree) (ss ps cur) (k : Kind) (w : World F) (v : RVal F) (u : Val F) (w'), disp base fl (.node .field m kids) ss ps cur (some k) w = some (v, w') → v.toVal = some u →
    Inv base w ps → Named (.node .field m kids) → Shaped (.node .field m kids) → Cur cur w → Fresh w → (plain = true → allPlain kids = true) → ss ≠ [] → ∀ st, Agree fl plain ss ps w st →
    ∃ l g st', TellsValue (builtinOf base) plain (.node .field m kids) st l g st' ∧ Agree fl plain ss ps w' st' ∧ st.ifaces <+: st'.ifaces ∧ meant fl k g = some u ∧ Effect fl NoNode NoNode l w w'
  | m, kids, ss, ps, cur, k, w, v, u, w', h, hv, hw, hn, hsh, hc, hfr, hp, hs, st, ha => by
    unfold disp at h
    split at h
    · split at h
      · next hk => cases h; cases hv; exact ⟨_, _, st, .text (by simp), ha, List.prefix_rfl, by simp [meant, hk], .refl _ _ _⟩
      · next hk =>
        split at h
        · cases h
        · next u' hu' => cases h; cases hv; exact ⟨_, _, st, .text (by simp), ha, List.prefix_rfl, by simp [meant, hk, hu'], .refl _ _ _⟩
    · next t' m' tk rest =>
      have hkid := field_kids hsh
      simp only [Named, Nameds] at hn
      simp only [Shaped, Shapeds] at hsh
      split at h
      · next ht =>
        split at h
        · next hk =>
          obtain ⟨l, r, st1, t1, a1, p1, r1, e1⟩ := disp_tells _ _ _ _ _ _ _ _ h (hkid _ (by simp)).1 hw (by simp only [Named]; exact hn.2.1) (by simp only [Shaped]; exact hsh.2.1) hc hfr
            (fun hpl => by have := hp hpl; simp only [allPlain, Bool.and_eq_true] at this; exact this.1) hs st ha none (.inr (hkid _ (by simp)).2)
          rcases r1 with ⟨rfl, -⟩ | ⟨o, rfl, rfl⟩
          · cases hv
          · cases hv
            exact ⟨l, .one o, st1, .one (nodeTag_entry ht) t1, a1, p1, by simp [meant, hk], e1.more (fun _ h => by cases h)⟩
        · next hk =>
          split at h
          · cases h
          · next vs w2 h2 =>
            cases h
            obtain ⟨l, rs, st1, t1, a1, p1, r1, e1⟩ := dispList_tells _ _ _ _ _ _ _ _ h2 (fun t ht => (hkid t ht).1) hw (by simp only [Nameds, Named]; exact hn.2) (by simp only [Shapeds, Shaped]; exact hsh.2) hc hfr
              hp hs st ha none (.inr (fun t ht => (hkid t ht).2))
            obtain ⟨os, ho, rfl⟩ := Option.map_eq_some_iff.1 hv
            rw [res_refs r1 ho] at t1
            exact ⟨l, .all os, st1, .all (nodeTag_entry ht) t1, a1, p1, by simp [meant, hk], e1.more (fun _ h => by cases h)⟩
      · next ht =>
        split at h
        · next hk => cases h; cases hv; exact ⟨_, _, st, .text (by simp; exact not_nodeTag_entry ht), ha, List.prefix_rfl, by simp [meant, hk], .refl _ _ _⟩
        · next hk =>
          split at h
          · cases h
          · next u' hu' => cases h; cases hv; exact ⟨_, _, st, .text (by simp; exact not_nodeTag_entry ht), ha, List.prefix_rfl, by simp [meant, hk, hu'], .refl _ _ _⟩
termination_by m kids => sizeOf (Tree.node NT.field m kids)
theorem dispList_tells : ∀ (ts : List PTree) (ss ps cur fd) (w : World F) (vs w'), dispList base fl ts ss ps cur fd w = some (vs, w') → (∀ t ∈ ts, ParseVal.Tree.tag t ≠ .field) → Inv base w ps → Nameds ts → Shapeds ts →
    Cur cur w → Fresh w → (plain = true → allPlain ts = true) → ss ≠ [] → ∀ st, Agree fl plain ss ps w st → ∀ cur' : Option Nat, (cur' = cur ∨ ∀ t ∈ ts, NoAttr t) →
    ∃ l rs st', TellsAll (builtinOf base) plain cur' ts st l rs st' ∧ Agree fl plain ss ps w' st' ∧ st.ifaces <+: st'.ifaces ∧ List.Forall₂ Res vs rs ∧ Effect fl NoNode (fun i => cur' = some i) l w w'
  | [], ss, ps, cur, fd, w, vs, w', h, htag, hw, hn, hsh, hc, hfr, hp, hs, st, ha, cur', hcur => by
    unfold dispList at h; cases h
    exact ⟨_, _, st, .nil, ha, List.prefix_rfl, .nil, .refl _ _ _⟩
  | t :: ts, ss, ps, cur, fd, w, vs, w', h, htag, hw, hn, hsh, hc, hfr, hp, hs, st, ha, cur', hcur => by
    unfold dispList at h
    split at h
    · cases h
    · next v1 w1 h1 =>
      split at h
      · cases h
      · next vs1 w2 h2 =>
        cases h
        simp only [Nameds] at hn
        simp only [Shapeds] at hsh
        obtain ⟨l, r, st1, t1, a1, p1, r1, e1⟩ := disp_tells t _ _ _ _ _ _ _ h1 (htag t (by simp)) hw hn.1 hsh.1 hc hfr
          (fun hpl => by have := hp hpl; simp only [allPlain, Bool.and_eq_true] at this; exact this.1) hs st ha cur' (hcur.imp_right (fun h => h t (by simp)))
        obtain ⟨i1, x1, o1⟩ := disp_keeps hb hty h1 hw hn.1 hc
        obtain ⟨l', rs, st2, t2, a2, p2, r2, e2⟩ := dispList_tells ts _ _ _ _ _ _ _ h2 (fun t ht => htag t (by simp [ht])) i1 hn.2 hsh.2 (hc.ext x1) (e1.fresh hfr)
          (fun hpl => by have := hp hpl; simp only [allPlain, Bool.and_eq_true] at this; exact this.2) hs st1 a1 cur' (hcur.imp_right (fun h t ht => h t (by simp [ht])))
        exact ⟨_, _, st2, .cons t1 t2, a2, p1.trans p2, .cons r1 r2, e1.trans e2 (fun _ h => .inl h)⟩
termination_by ts => sizeOf ts
theorem dispProto_tells : ∀ (ts : List PTree) (ss ps : List Nat) (c : Nat) (w w' : World F), dispProto base fl ts ss (c :: ps) c w = some w' → Inv base w (c :: ps) → Nameds ts → Shapeds ts → Fresh w →
    (plain = true → allPlain ts = true) → ss ≠ [] → ∀ st, Agree fl plain ss (c :: ps) w st →
    ∃ l st', TellsParts (builtinOf base) plain c ts st l st' ∧ Agree fl plain ss (c :: ps) w' st' ∧ st.ifaces <+: st'.ifaces ∧ Effect fl NoNode NoNode l w w'
  | ts, ss, ps, c, w, w', h, hw, hn, hsh, hfr, hp, hs, st, ha => by
    unfold dispProto at h
    split at h
    · -- body
      next ss c w _ _ _ _ _ m kids =>
      split at h
      · cases h
      · next vs w1 h1 =>
        cases h
        simp only [Nameds, Named] at hn
        have hk := scene_kids hsh.1
        simp only [Shapeds, Shaped] at hsh
        have e0 := newScene_effect (fl := fl) (C := NoNode) hfr (some (ss.headD 0))
        obtain ⟨l, rs, st1, t1, a1, p1, r1, e1⟩ := dispList_tells kids _ _ _ _ _ _ _ h1 hk (hw.newScene _).1 hn.1.2 hsh.1.2 (fun i hi => by cases hi) (e0.fresh hfr)
          (fun hpl => by have := hp hpl; simp only [plainDefaults, allPlain, Bool.and_eq_true] at this; exact this.1.2) (by simp) _ ha.openBody none (.inl rfl)
        obtain ⟨i1, x1, o1⟩ := dispList_keeps hb hty h1 (hw.newScene _).1 hn.1.2 (fun i hi => by cases hi)
        obtain ⟨x, la, hx, hxs⟩ := a1.head
        refine ⟨l, _, .body rfl t1 (by simp only [Names.step, hx, a1.pending]), a1.closeBody (i1.stack c (by simp)) hx, p1, ?_⟩
        have := (e0.trans (e1.more (D := NoNode) (fun _ h => by cases h)) (fun _ h => .inl h)).trans (setBody_effect (C := NoNode) w1 c w.nscenes) (fun _ h => .inl h)
        simpa using this
    · -- URLs
      next ss c w _ _ _ _ _ m kids =>
      cases h
      refine ⟨_, st, .urls, ?_, List.prefix_rfl, ?_⟩
      · refine Run.step0 hb hname (.decl rfl (fun f hf => ?_)) hs hw ha
        rcases setURL_fields hf with h1 | rfl
        · exact .inl h1
        · exact .inr ⟨fun j hj => by {rw [externalURL_nodes] at hj; cases hj}, fun _ => rfl⟩
      · exact onCls_effect (fl := fl) rfl [] (by simp) (fun f hf => setURL_fields hf)
    · -- field
      next ss c w _ _ _ _ _ m ex _ ty _ nm _ value ts =>
      split at h
      · cases h
      · next ft hft =>
        split at h
        · cases h
        · next v1 w1 h1 =>
          split at h
          · cases h
          · next v2 hv2 =>
            split at h
            · cases h
            · next f hf =>
              simp only [Nameds] at hn
              obtain ⟨m', kids, rfl⟩ := fieldDecl_value hsh.1
              simp only [Named, Nameds] at hn
              simp only [Shapeds, Shaped] at hsh
              have hn1 : Named (.node .field m' kids) := by simp only [Named]; exact hn.1.2.2.2.2.1
              obtain ⟨l, g, st1, t1, a1, p1, g1, e1⟩ := disp_value m' kids ss _ none ft.kind w v1 v2 w1 h1 hv2 hw hn1 (by simp only [Shaped]; exact hsh.1.2.2.2.2.1)
                (fun j hj => by cases hj) hfr
                (fun hpl => by have := hp hpl; simp only [plainDefaults, allPlain, Bool.and_eq_true] at this; exact this.1.2.2.2.2.1.2) hs st ha
              obtain ⟨i1, x1, o1⟩ := disp_keeps hb hty h1 hw hn1 (fun j hj => by cases hj)
              have r2 : Run base fl plain ss (c :: ps) [] w1 (w1.onDecl c (·.addField f)) := by
                refine .decl rfl (fun g hg => ?_)
                rcases addField_fields hg with h3 | rfl
                · exact .inl h3
                · refine .inr ⟨fun j hj => ?_, fun hpl => ?_⟩
                  · rw [mkField_nodes hf] at hj; exact o1 v2 hv2 j hj
                  · rw [mkField_nodes hf]
                    have := hp hpl
                    simp only [allPlain, plainDefaults, nodesFree, Bool.and_eq_true] at this
                    have hfree : nodeFree (.node .field m' kids) = true := by
                      have := this.1.1
                      simp at this
                      exact this.2.2.2
                    refine List.eq_nil_iff_forall_not_mem.2 (fun j hj => ?_)
                    exact absurd (disp_free _ _ _ _ _ _ _ _ hfree h1 v2 hv2 j hj) (by omega)
              have i2 := (r2.inv hb i1).1
              have a2 := r2.step0 hb hname hs i1 a1
              obtain ⟨hfn, hsaid⟩ := mkField_said hft g1 hf
              have e2 : Effect fl NoNode NoNode [.dflt c nm (some g)] w1 (w1.onDecl c (·.addField f)) := by
                rw [← hfn]
                exact onCls_effect rfl _ (by simp) (addField_dflt hsaid)
              obtain ⟨l', st2, t3, a3, p3, e3⟩ := dispProto_tells ts _ _ _ _ _ h i2 hn.2 hsh.2 (e2.fresh (e1.fresh hfr))
                (fun hpl => by have := hp hpl; simp only [allPlain, Bool.and_eq_true] at this; exact this.2) hs st1 a2
              refine ⟨_, st2, .field t1 t3, a3, p1.trans p3, ?_⟩
              exact e1.trans (e2.trans e3 (fun _ h => .inl h)) (fun _ h => .inl h)
    · -- field without default
      next ss c w _ _ _ _ _ m ex _ ty _ nm _ ts =>
      split at h
      · cases h
      · next f hf =>
        simp only [Nameds] at hn
        simp only [Shapeds] at hsh
        have r2 : Run base fl plain ss (c :: ps) [] w (w.onDecl c (·.addField f)) := by
          refine .decl rfl (fun g hg => ?_)
          rcases addField_fields hg with h3 | rfl
          · exact .inl h3
          · exact .inr ⟨fun j hj => by {rw [mkField_nodes' hty hf] at hj; cases hj}, fun _ => mkField_nodes' hty hf⟩
        have i2 := (r2.inv hb hw).1
        have a2 := r2.step0 hb hname hs hw ha
        obtain ⟨hfn, hsaid⟩ := mkField_said_none hf
        have e2 : Effect fl NoNode NoNode [.dflt c nm none] w (w.onDecl c (·.addField f)) := by
          rw [← hfn]
          exact onCls_effect rfl _ (by simp) (addField_dflt hsaid)
        obtain ⟨l', st2, t3, a3, p3, e3⟩ := dispProto_tells ts _ _ _ _ _ h i2 hn.2 hsh.2 (e2.fresh hfr)
          (fun hpl => by have := hp hpl; simp only [allPlain, Bool.and_eq_true] at this; exact this.2) hs st a2
        exact ⟨_, st2, .extField t3, a3, p3, e2.trans e3 (fun _ h => .inl h)⟩
    · -- event
      next ss c w _ _ _ _ _ m dir _ ty _ nm _ ts =>
      split at h
      · cases h
      · next e he =>
        simp only [Nameds] at hn
        simp only [Shapeds] at hsh
        have r2 : Run base fl plain ss (c :: ps) [] w (w.onDecl c (·.addEvent e)) := .decl rfl (fun g hg => .inl (addEvent_fields hg))
        have i2 := (r2.inv hb hw).1
        have a2 := r2.step0 hb hname hs hw ha
        have e2 : Effect fl NoNode NoNode [] w (w.onDecl c (·.addEvent e)) := onCls_effect rfl [] (by simp) (fun f hf => .inl (addEvent_fields hf))
        obtain ⟨l', st2, t3, a3, p3, e3⟩ := dispProto_tells ts _ _ _ _ _ h i2 hn.2 hsh.2 (e2.fresh hfr)
          (fun hpl => by have := hp hpl; simp only [allPlain, Bool.and_eq_true] at this; exact this.2) hs st a2
        exact ⟨_, st2, .event t3, a3, p3, e2.trans e3 (fun _ h => .inl h)⟩
    · cases h
termination_by ts => sizeOf ts
theorem dispDecls_tells : ∀ (ts : List PTree) (ss ps : List Nat) (i : Nat) (p : ProtoDef F) (is is' : List (Text × Text)) (w w' : World F),
    dispDecls base fl ts ss ps i p is w = some (is', w') → Inv base w ps → Nameds ts → Shapeds ts → Fresh w → (plain = true → allPlain ts = true) → ss ≠ [] → IsScript w i → ScriptLike fl p → PFields p w.next →
    clsAt w i = some p.cls → (is' ≠ [] → ps ≠ []) → ∀ st, Agree fl plain ss ps w st →
    ∃ l new p' st', is' = is ++ new ∧ TellsDecls (builtinOf base) plain i ts st l (new.map (fun e => Said.is (ps.headD 0) e.1 i e.2)) st' ∧ Agree fl plain ss ps w' st' ∧ st.ifaces <+: st'.ifaces ∧
      Effect fl (fun j => j = i) NoNode l w w' ∧ clsAt w' i = some p'.cls ∧ p'.name = scriptName ∧ (∀ x o, SHas fl x o p → SHas fl x ((lastItem ts x).or o) p') ∧ OwnP fl i l p p'
  | [], ss, ps, i, p, is, is', w, w', h, hw, hn, hsh, hfr, hp, hs, hi, hpn, hpf, hcl, hne, st, ha => by
    unfold dispDecls at h; cases h
    exact ⟨[], [], p, st, by simp, .nil, ha, List.prefix_rfl, .refl _ _ _, hcl, hpn.name, fun x o h => h, fun f hf => hf⟩
  | t :: ts, ss, ps, i, p, is, is', w, w', h, hw, hn, hsh, hfr, hp, hs, hi, hpn, hpf, hcl, hne, st, ha => by
    simp only [Nameds] at hn
    have hsht := hsh
    simp only [Shapeds] at hsh
    have hpts : plain = true → allPlain ts = true := fun hpl => by have := hp hpl; simp only [allPlain, Bool.and_eq_true] at this; exact this.2
    have hpt : plain = true → plainDefaults t = true := fun hpl => by have := hp hpl; simp only [allPlain, Bool.and_eq_true] at this; exact this.1
    have hil : ∀ {w : World F} {i}, Inv base w ps → IsScript w i → i < w.next := fun {w i} hw hi => by
      obtain ⟨n0, hn0, -⟩ := hi.node
      exact (hw.ids _).1 (by rw [hn0]; rfl)
    have hset : ∀ {w : World F} {i} {c : Class F}, IsScript w i → clsAt (w.setClass i c) i = some c := fun {w i c} hi => by
      obtain ⟨n0, hn0, -⟩ := hi.node
      simp [clsAt, World.setClass, hn0]
    unfold dispDecls at h
    split at h
    · cases ‹_ = []›
    · -- field
      next ss ps i p is w _ _ _ _ _ _ _ m ex _ ty _ nm _ value ts' heq =>
      cases heq
      split at h
      · cases h
      · next ft hft =>
        split at h
        · next m' hm =>
          split at h
          · cases h
          · next f hf =>
            have hpf' : PFields (p.addField f) w.next := fun g hg j hj => by
              rcases addField_fields hg with h3 | rfl
              · exact hpf g h3 j hj
              · rw [mkField_nodes' hty hf] at hj; cases hj
            have hpn' : ScriptLike fl (p.addField f) := hpn.addField (by simp only [Named, Nameds] at hn; exact hn.1.2.2.2.1.1 trivial) hf
            have r2 := script_decl (base := base) (fl := fl) (plain := plain) (ss := ss) (ps := ps) hi (p := p.addField f) hpn' hpf'
            obtain ⟨i2, e2⟩ := r2.inv hb hw
            have a2 := r2.step0 hb hname hs hw ha
            obtain ⟨hfn, hsaid⟩ := mkField_said_none hf
            have es := setClass_effect (fl := fl) (hil hw hi) (p.addField f).cls [.own i nm none] (by simp)
            obtain ⟨l, new, p', st', q1, q2, q3, q4, q5, q6, q7, q8, q9⟩ := dispDecls_tells ts _ _ _ _ _ _ _ _ h i2 hn.2 hsh.2 (es.fresh hfr) hpts hs (hi.ext hw e2) hpn' (hpf'.mono e2.next) (hset hi) hne st a2
            obtain ⟨k, rfl⟩ := isTarget_some hm
            obtain ⟨c, ps', rfl⟩ := List.exists_cons_of_ne_nil (hne (by rw [q1]; simp))
            refine ⟨_, (m', nm) :: new, p', st', by rw [q1]; simp, .isField (k := c) (by rw [ha.pending]; rfl) q2, q3, q4, es.trans q5 (fun _ h => .inl h), q6, q7, fun x o hx => ?_, ?_⟩
            · have := q8 x _ (addField_shas (mkField_as (value := none) hft rfl hf) hx)
              rw [lastItem_cons, Option.or_assoc]
              exact this
            · have h3 := addField_own (i := i) (p := p) hsaid
              rw [hfn] at h3
              exact h3.trans q9
        · next hm =>
          split at h
          · cases h
          · next v1 w1 h1 =>
            split at h
            · cases h
            · next v2 hv2 =>
              split at h
              · cases h
              · next f hf =>
                obtain ⟨m', kids, rfl⟩ := scriptField_value hsh.1 hm
                simp only [Named, Nameds] at hn
                simp only [Shaped, Shapeds] at hsh
                obtain ⟨n0, hn0, -⟩ := hi.node
                have hn1 : Named (.node .field m' kids) := by simp only [Named]; exact hn.1.2.2.2.2.1
                obtain ⟨l0, g, st1, t1, a1, p1, g1, e1⟩ := disp_value m' kids ss _ (some i) ft.kind w v1 v2 w1 h1 hv2 hw hn1 (by simp only [Shaped]; exact hsh.1.2.2.2.2.1)
                  (fun j hj => by cases hj; exact ⟨n0, hn0⟩) hfr
                  (fun hpl => by have := hpt hpl; simp only [plainDefaults, allPlain, Bool.and_eq_true] at this; exact this.2.2.2.2.1.2) hs st ha
                obtain ⟨i1, x1, o1⟩ := disp_keeps hb hty h1 hw hn1 (fun j hj => by cases hj; exact ⟨n0, hn0⟩)
                have hpf' : PFields (p.addField f) w1.next := fun g hg j hj => by
                  rcases addField_fields hg with h3 | rfl
                  · exact hpf.mono x1.next g h3 j hj
                  · rw [mkField_nodes hf] at hj; exact o1 v2 hv2 j hj
                have hi1 := hi.ext hw x1
                have hpn' : ScriptLike fl (p.addField f) := hpn.addField (hn.1.2.2.2.1.1 trivial) hf
                have r2 := script_decl (base := base) (fl := fl) (plain := plain) (ss := ss) (ps := ps) hi1 (p := p.addField f) hpn' hpf'
                obtain ⟨i2, e2⟩ := r2.inv hb i1
                have a2 := r2.step0 hb hname hs i1 a1
                obtain ⟨hfn, hsaid⟩ := mkField_said hft g1 hf
                have es := setClass_effect (fl := fl) (hil i1 hi1) (p.addField f).cls [.own i nm (some g)] (by simp)
                obtain ⟨l, new, p', st', q1, q2, q3, q4, q5, q6, q7, q8, q9⟩ := dispDecls_tells ts _ _ _ _ _ _ _ _ h i2 hn.2 hsh.2 (es.fresh (e1.fresh hfr)) hpts hs (hi1.ext i1 e2) hpn' (hpf'.mono e2.next) (hset hi1) hne st1 a2
                have ew := e1.weaken (Y := fun j => j = i) (fun _ h => h.elim) (fun j hj => ⟨by subst hj; exact hil hw hi, id⟩)
                refine ⟨_, new, p', st', q1, .field t1 q2, q3, p1.trans q4, ew.trans (es.trans q5 (fun _ h => .inl h)) (fun _ h => .inl h), q6, q7, fun x o hx => ?_, ?_⟩
                · have := q8 x _ (addField_shas (mkField_as (value := some (.node .field m' kids)) hft (disp_default h1 hv2) hf) hx)
                  rw [lastItem_cons, scriptWritten_field rfl, Option.or_assoc]
                  exact this
                · have h3 := addField_own (i := i) (p := p) hsaid
                  rw [hfn] at h3
                  refine (h3.trans q9).skip (fun nm g hg => ?_)
                  rcases (e1.own _ _ _ hg).1 with h4 | h4
                  · exact absurd (hil hw hi) (by omega)
                  · exact h4
    · -- event
      next ss ps i p is w _ _ _ _ _ _ _ m dir k1 ty k2 nm k3 rest ts' heq =>
      cases heq
      split at h
      · cases h
      · next e he =>
        obtain ⟨he1, -, he3⟩ := mkEvent_as he
        have hpf' : PFields (p.addEvent e) w.next := fun g hg j hj => hpf g (addEvent_fields hg) j hj
        have hpn' : ScriptLike fl (p.addEvent e) := hpn.addEvent (by simp only [Named, Nameds] at hn; exact hn.1.2.2.2.1.1 trivial) he
        have r2 := script_decl (base := base) (fl := fl) (plain := plain) (ss := ss) (ps := ps) hi (p := p.addEvent e) hpn' hpf'
        obtain ⟨i2, e2⟩ := r2.inv hb hw
        have a2 := r2.step0 hb hname hs hw ha
        have es := setClass_effect (fl := fl) (hil hw hi) (p.addEvent e).cls [] (by simp)
        have key : ∀ {l : List Said} {p' : ProtoDef F}, (∀ x o, SHas fl x o (p.addEvent e) → SHas fl x ((lastItem ts x).or o) p') → OwnP fl i l (p.addEvent e) p' →
            (∀ x o, SHas fl x o p → SHas fl x ((lastItem (.node .scriptEventDecl m (.node .eventDirection dir k1 :: .node .dataType ty k2 :: .node .name nm k3 :: rest) :: ts) x).or o) p') ∧ OwnP fl i l p p' := by
          intro l p' q8 q9
          refine ⟨fun x o hx => ?_, (addEvent_own (i := i) (p := p) (e := e)).trans q9⟩
          have := q8 x _ (he1 ▸ addEvent_shas (word := dir) he3 hx)
          rw [lastItem_cons, Option.or_assoc]
          exact this
        split at h
        · obtain ⟨l, new, p', st', q1, q2, q3, q4, q5, q6, q7, q8, q9⟩ := dispDecls_tells ts _ _ _ _ _ _ _ _ h i2 hn.2 hsh.2 (es.fresh hfr) hpts hs (hi.ext hw e2) hpn' (hpf'.mono e2.next) (hset hi) hne st a2
          exact ⟨_, new, p', st', q1, .event q2, q3, q4, es.trans q5 (fun _ h => .inl h), q6, q7, (key q8 q9).1, (key q8 q9).2⟩
        · next t' _ =>
          split at h
          · next m' hm =>
            obtain ⟨l, new, p', st', q1, q2, q3, q4, q5, q6, q7, q8, q9⟩ := dispDecls_tells ts _ _ _ _ _ _ _ _ h i2 hn.2 hsh.2 (es.fresh hfr) hpts hs (hi.ext hw e2) hpn' (hpf'.mono e2.next) (hset hi) hne st a2
            obtain ⟨k, rfl⟩ := isTarget_some hm
            obtain ⟨c, ps', rfl⟩ := List.exists_cons_of_ne_nil (hne (by rw [q1]; simp))
            exact ⟨_, (m', nm) :: new, p', st', by rw [q1]; simp, .isEvent (k := c) (by rw [ha.pending]; rfl) q2, q3, q4, es.trans q5 (fun _ h => .inl h), q6, q7, (key q8 q9).1, (key q8 q9).2⟩
          · cases h
    · -- attribute
      next ss ps i p is w _ _ _ _ _ _ _ m kids ts' heq =>
      cases heq
      obtain ⟨l, new, p', st', q1, q2, q3, q4, q5, q6, q7, q8, q9⟩ := dispDecls_tells ts _ _ _ _ _ _ _ _ h hw hn.2 hsh.2 hfr hpts hs hi hpn hpf hcl hne st ha
      exact ⟨_, new, p', st', q1, .attr q2, q3, q4, q5, q6, q7, fun x o hx => by rw [lastItem_cons]; exact (by simpa [scriptWritten] using q8 x o hx), q9⟩
    · next ss ps i p is w _ _ _ _ _ _ _ m kids ts' heq =>
      cases heq
      split at h
      · cases h
      · next v1 w1 h1 =>
        obtain ⟨n0, hn0, -⟩ := hi.node
        obtain ⟨l0, r, st1, t1, a1, p1, r1, e1⟩ := disp_tells (.node .proto m kids) _ _ _ _ _ _ _ h1 (fun h => by cases h) hw hn.1 hsh.1 (fun j hj => by cases hj; exact ⟨n0, hn0⟩) hfr hpt hs st ha none (.inr ⟨fun h => by {cases h}, fun h => by {cases h}⟩)
        have hr : r = none := by cases t1 <;> rfl
        subst hr
        obtain ⟨i1, x1, o1⟩ := disp_keeps hb hty h1 hw hn.1 (fun j hj => by cases hj; exact ⟨n0, hn0⟩)
        have ew := (e1.more (D := NoNode) (fun _ h => by cases h)).weaken (Y := fun j => j = i) (fun _ h => h.elim) (fun j hj => ⟨by subst hj; exact hil hw hi, id⟩)
        obtain ⟨l, new, p', st', q1, q2, q3, q4, q5, q6, q7, q8, q9⟩ := dispDecls_tells ts _ _ _ _ _ _ _ _ h i1 hn.2 hsh.2 (e1.fresh hfr) hpts hs (hi.ext hw x1) hpn (hpf.mono x1.next)
          ((e1.cls i (hil hw hi) id).trans hcl) hne st1 a1
        refine ⟨_, new, p', st', q1, .other (.inl rfl) t1 q2, q3, p1.trans q4, ew.trans q5 (fun _ h => .inl h), q6, q7, fun x o hx => by rw [lastItem_cons]; exact (by simpa [scriptWritten] using q8 x o hx), q9.skip (fun nm g hg => ?_)⟩
        rcases (e1.own _ _ _ hg).1 with h4 | h4
        · exact absurd (hil hw hi) (by omega)
        · exact h4
    · next ss ps i p is w _ _ _ _ _ _ _ m kids ts' heq =>
      cases heq
      split at h
      · cases h
      · next v1 w1 h1 =>
        obtain ⟨n0, hn0, -⟩ := hi.node
        obtain ⟨l0, r, st1, t1, a1, p1, r1, e1⟩ := disp_tells (.node .externProto m kids) _ _ _ _ _ _ _ h1 (fun h => by cases h) hw hn.1 hsh.1 (fun j hj => by cases hj; exact ⟨n0, hn0⟩) hfr hpt hs st ha none (.inr ⟨fun h => by {cases h}, fun h => by {cases h}⟩)
        have hr : r = none := by cases t1 <;> rfl
        subst hr
        obtain ⟨i1, x1, o1⟩ := disp_keeps hb hty h1 hw hn.1 (fun j hj => by cases hj; exact ⟨n0, hn0⟩)
        have ew := (e1.more (D := NoNode) (fun _ h => by cases h)).weaken (Y := fun j => j = i) (fun _ h => h.elim) (fun j hj => ⟨by subst hj; exact hil hw hi, id⟩)
        obtain ⟨l, new, p', st', q1, q2, q3, q4, q5, q6, q7, q8, q9⟩ := dispDecls_tells ts _ _ _ _ _ _ _ _ h i1 hn.2 hsh.2 (e1.fresh hfr) hpts hs (hi.ext hw x1) hpn (hpf.mono x1.next)
          ((e1.cls i (hil hw hi) id).trans hcl) hne st1 a1
        refine ⟨_, new, p', st', q1, .other (.inr (.inl rfl)) t1 q2, q3, p1.trans q4, ew.trans q5 (fun _ h => .inl h), q6, q7, fun x o hx => by rw [lastItem_cons]; exact (by simpa [scriptWritten] using q8 x o hx), q9.skip (fun nm g hg => ?_)⟩
        rcases (e1.own _ _ _ hg).1 with h4 | h4
        · exact absurd (hil hw hi) (by omega)
        · exact h4
    · next ss ps i p is w _ _ _ _ _ _ _ m kids ts' heq =>
      cases heq
      split at h
      · cases h
      · next v1 w1 h1 =>
        obtain ⟨n0, hn0, -⟩ := hi.node
        obtain ⟨l0, r, st1, t1, a1, p1, r1, e1⟩ := disp_tells (.node .route m kids) _ _ _ _ _ _ _ h1 (fun h => by cases h) hw hn.1 hsh.1 (fun j hj => by cases hj; exact ⟨n0, hn0⟩) hfr hpt hs st ha none (.inr ⟨fun h => by {cases h}, fun h => by {cases h}⟩)
        have hr : r = none := by cases t1 <;> rfl
        subst hr
        obtain ⟨i1, x1, o1⟩ := disp_keeps hb hty h1 hw hn.1 (fun j hj => by cases hj; exact ⟨n0, hn0⟩)
        have ew := (e1.more (D := NoNode) (fun _ h => by cases h)).weaken (Y := fun j => j = i) (fun _ h => h.elim) (fun j hj => ⟨by subst hj; exact hil hw hi, id⟩)
        obtain ⟨l, new, p', st', q1, q2, q3, q4, q5, q6, q7, q8, q9⟩ := dispDecls_tells ts _ _ _ _ _ _ _ _ h i1 hn.2 hsh.2 (e1.fresh hfr) hpts hs (hi.ext hw x1) hpn (hpf.mono x1.next)
          ((e1.cls i (hil hw hi) id).trans hcl) hne st1 a1
        refine ⟨_, new, p', st', q1, .other (.inr (.inr rfl)) t1 q2, q3, p1.trans q4, ew.trans q5 (fun _ h => .inl h), q6, q7, fun x o hx => by rw [lastItem_cons]; exact (by simpa [scriptWritten] using q8 x o hx), q9.skip (fun nm g hg => ?_)⟩
        rcases (e1.own _ _ _ hg).1 with h4 | h4
        · exact absurd (hil hw hi) (by omega)
        · exact h4
    · cases h
termination_by ts => sizeOf ts
theorem dispAttrs_tells : ∀ (ts : List PTree) (ss ps : List Nat) (i : Nat) (fd) (w w' : World F), dispAttrs base fl ts ss ps i fd w = some w' → Inv base w ps → Nameds ts → Shapeds ts → Fresh w →
    (plain = true → allPlain ts = true) → ss ≠ [] → Cur (some i) w → ∀ st, Agree fl plain ss ps w st →
    ∃ l st', TellsAttrs (builtinOf base) plain i ts st l st' ∧ Agree fl plain ss ps w' st' ∧ st.ifaces <+: st'.ifaces ∧ Effect fl NoNode (fun j => j = i) l w w'
  | [], ss, ps, i, fd, w, w', h, hw, hn, hsh, hfr, hp, hs, hc, st, ha => by
    unfold dispAttrs at h; cases h; exact ⟨_, st, .nil, ha, List.prefix_rfl, .refl _ _ _⟩
  | t :: ts, ss, ps, i, fd, w, w', h, hw, hn, hsh, hfr, hp, hs, hc, st, ha => by
    simp only [Nameds] at hn
    simp only [Shapeds] at hsh
    have hpts : plain = true → allPlain ts = true := fun hpl => by have := hp hpl; simp only [allPlain, Bool.and_eq_true] at this; exact this.2
    have hpt : plain = true → plainDefaults t = true := fun hpl => by have := hp hpl; simp only [allPlain, Bool.and_eq_true] at this; exact this.1
    unfold dispAttrs at h
    split at h
    · next ht =>
      split at h
      · cases h
      · next v1 w1 h1 =>
        obtain ⟨l, r, st1, t1, a1, p1, r1, e1⟩ := disp_tells t _ _ _ _ _ _ _ h1 (by rw [ht]; decide) hw hn.1 hsh.1 hc hfr hpt hs st ha (some i) (.inl rfl)
        obtain ⟨i1, x1, o1⟩ := disp_keeps hb hty h1 hw hn.1 hc
        have e1' := e1.more (D := fun j => j = i) (fun j hj => by cases hj; rfl)
        obtain ⟨l', st2, t2, a2, p2, e2⟩ := dispAttrs_tells ts _ _ _ _ _ _ h i1 hn.2 hsh.2 (e1.fresh hfr) hpts hs (hc.ext x1) st1 a1
        obtain ⟨tag, m, kids⟩ := t
        change tag = .attr at ht
        subst ht
        exact ⟨_, st2, .attr t1 t2, a2, p1.trans p2, e1'.trans e2 (fun _ h => .inl h)⟩
    · next ht =>
      obtain ⟨l', st2, t2, a2, p2, e2⟩ := dispAttrs_tells ts _ _ _ _ _ _ h hw hn.2 hsh.2 hfr hpts hs hc st ha
      exact ⟨_, st2, .other (fun m kids he => ht (by rw [he]; rfl)) t2, a2, p2, e2⟩
termination_by ts => sizeOf ts
end
end main

end Verif.Full
