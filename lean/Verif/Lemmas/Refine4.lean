import Verif.Lemmas.Refine3
/-!
The two readers side by side: reading a scene.
-/
namespace Verif.Full
open Verif.Peg Verif.Grammar Verif.TextOut Verif.SceneText Verif.Reader
open Verif.Lin hiding disp dispList dispDecls dispAttrs disp_node disp_attr
variable {F : Type} {base : Text → Option (Class F)}

theorem legal_ne {m : Text} (h : LegalName m) : m ≠ [] := by
  obtain ⟨c, cs, rfl, -⟩ := h; simp

theorem create_sim {ρ X s ss ps lk} {rs : RSt F} {w : World F} (hw : Inv base w ps) (hs : Sim ρ X s ps rs w) (hl : Look base ρ w (s :: ss) lk) {gi DEF : Text} {c : Class F} (hc : lk gi = some c) :
    ∃ w', w.create base (s :: ss) gi DEF = some w' ∧ Step base ρ X s ps (rs.newNode c DEF) w w' ∧ NoWires ρ w w' ∧ Quiets ρ w' rs.next := by
  obtain ⟨k, hk⟩ := hl gi c hc
  have hkn : ∀ k', k = some k' → Known w k' ∧ c = (w.cls k').cls := fun k' h => by
    obtain ⟨t, ht⟩ := getProto_mem (hk.proto.trans h)
    exact ⟨⟨t, gi, ht⟩, (hk.cls k' h).symm⟩
  obtain ⟨w', h1, h2, h3, h4, -⟩ := newNode_sim (DEF := DEF) (ss := ss) hw hs hk.plain hk.ok hk.foreign hkn (fun h => .inl ⟨gi, hk.builtin h⟩) hk.mapped
  refine ⟨w', ?_, h2, h3, h4⟩
  unfold World.create
  rw [hk.proto]
  cases k with
  | none => simp only [hk.builtin rfl]; exact h1
  | some k' => simp only [← (hkn k' rfl).2]; exact h1

/-- the node in a result -/
def childRef : RVal F → Option Nat
  | .ref (some i) => some i
  | _ => none

theorem childNodes_gen (ρ : Nat → Nat) : ∀ (l : List (RVal F)) (f g : RVal F → Option Nat), (∀ v, f v = childRef v) → (∀ v, g v = childRef v) → (rrenames ρ l).filterMap f = (l.filterMap g).map ρ
  | [], _, _, _, _ => rfl
  | v :: l, f, g, hf, hg => by
    have ih := childNodes_gen ρ l f g hf hg
    cases v with
    | ref o => cases o <;> simp [rrenames, rrename, hf, hg, childRef, ih]
    | _ => simp [rrenames, rrename, hf, hg, childRef, ih]

section main
variable {fl : Floats F} (hb : PlainBase base) (hty : ∀ ty v, (fl.types.dflt ty).value = some v → v.nodes = []) {ρ : Nat → Nat} {s : Nat} {ss ps : List Nat} {lk : Text → Option (Class F)}
include hb hty

/-- the value read stays within the store -/
theorem value_lt {t : PTree} {ss ps cur fd} {w w' : World F} {v : RVal F} {u : Val F} (h : disp base fl t ss ps cur fd w = some (rrename ρ v, w')) (hw : Inv base w ps) (hn : Named t) (hc : Cur cur w)
    (hu : v.toVal = some u) : ∀ j ∈ (u.rename ρ).nodes, j < w'.next := by
  obtain ⟨-, -, -, ho⟩ := disp_run hb hty false t ss ps cur fd w _ w' h hw hn hc (fun h => by cases h)
  exact ho _ (by rw [toVal_rename, hu]; rfl)

theorem cur_of {cur : Option Nat} {w : World F} (h : ∀ i, cur = some i → Quiets ρ w i) : Cur (cur.map ρ) w := by
  intro i hi
  obtain ⟨j, hj, rfl⟩ := Option.map_eq_some_iff.1 hi
  exact (h j hj).node

set_option maxHeartbeats 1600000 in
mutual
theorem disp_sim : ∀ (t : PTree) (X : Nat → Option (Class F)) (cur fd) (rs : RSt F) (v rs') (w : World F), Lin.disp lk fl t cur fd rs = some (v, rs') → Shaped t → Named t →
    ParseVal.Tree.tag t ≠ .vrmlScene → (ParseVal.Tree.tag t = .attr → ∀ i, cur = some i → X i = none) → Sim ρ X s ps rs w → Inv base w ps → Look base ρ w (s :: ss) lk →
    (∀ i, cur = some i → Quiets ρ w i) →
    ∃ w', disp base fl t (s :: ss) ps (cur.map ρ) fd w = some (rrename ρ v, w') ∧ Step base ρ X s ps rs' w w' ∧ (cur ≠ none → NoWires ρ w w')
  | t, X, cur, fd, rs, v, rs', w, h, hsh, hn, htag, hX, hs, hw, hl, hq => by
    unfold Lin.disp at h
    split at h
    · -- root item
      next m kids =>
      split at h
      · cases h
      · next items rs1 h1 =>
        cases h
        simp only [Named] at hn
        simp only [Shaped] at hsh
        obtain ⟨w1, a1, a2, a3⟩ := dispList_sim kids X _ _ _ _ _ w h1 hsh.2.2 hn.2 (fun t ht => ⟨fun e => by have := hsh.2.1 t ht; rw [e] at this; revert this; decide, fun e => by have := hsh.2.1 t ht; rw [e] at this; exact absurd this (by decide)⟩) hs hw hl hq
        refine ⟨_, ?_, a2.trans hw (children_sim a2.inv a2.sim _ ?_), fun hc => (a3 hc).trans a2.frame.next (fun x hx => .inl hx)⟩
        · simp only [disp, a1, rrename, List.headD_cons]
          exact congrArg (fun l => some (RVal.nothing, { w1 with scene := upd w1.scene s (fun o => { o with children := o.children ++ l }) }))
            (childNodes_gen ρ items _ _ (fun v => by cases v with | ref o => cases o <;> rfl | _ => rfl) (fun v => by cases v with | ref o => cases o <;> rfl | _ => rfl))
        · obtain ⟨-, -, -, ho⟩ := dispList_run hb hty false kids _ _ _ _ _ _ _ a1 hw hn.2 (cur_of hb hty hq) (fun h => by cases h)
          intro i hi
          rw [← childNodes_gen ρ items childRef _ (fun _ => rfl) (fun v => by cases v with | ref o => cases o <;> rfl | _ => rfl)] at hi
          obtain ⟨x, hx, hxi⟩ := List.mem_filterMap.1 hi
          cases x with
          | ref o => cases o with
            | none => cases hxi
            | some k => cases hxi; exact ref_lt (ho _ hx) rfl
          | _ => cases hxi
    · exact absurd rfl htag
    · -- named node
      next m nm a gi b rest =>
      split at h
      · cases h
      · next c hc =>
        split at h
        · cases h
        · next vs rs1 h1 =>
          cases h
          simp only [Named, Nameds] at hn
          simp only [Shaped, Shapeds] at hsh
          obtain ⟨w1, a1, a2, a3, a4⟩ := create_sim (DEF := nm) hw hs hl hc
          obtain ⟨w2, b1, b2, b3⟩ := dispList_sim rest X (some rs.next) fd _ _ _ w1 h1 hsh.2.2.2.2 hn.2.2.2
            (fun t ht => ⟨fun e => by have := hsh.2.1 t (by simp [ht]); rw [e] at this; revert this; decide, fun _ i hi => by cases hi; exact hs.fresh _ le_rfl⟩) a2.sim a2.inv (hl.frame hw a2.frame) (fun i hi => by cases hi; exact a4)
          refine ⟨w2, ?_, a2.trans hw b2, fun _ => a3.trans a2.frame.next (b3 (by simp))⟩
          rw [Option.map_some, hs.next0] at b1
          simp only [disp, a1, b1, rrename, Option.map_some, hs.next0]
    · -- node
      next m gi b rest =>
      split at h
      · cases h
      · next c hc =>
        split at h
        · cases h
        · next vs rs1 h1 =>
          cases h
          simp only [Named, Nameds] at hn
          simp only [Shaped, Shapeds] at hsh
          obtain ⟨w1, a1, a2, a3, a4⟩ := create_sim (DEF := []) hw hs hl hc
          obtain ⟨w2, b1, b2, b3⟩ := dispList_sim rest X (some rs.next) fd _ _ _ w1 h1 hsh.2.2.2 hn.2.2
            (fun t ht => ⟨fun e => by have := hsh.2.1 t (by simp [ht]); rw [e] at this; revert this; decide, fun _ i hi => by cases hi; exact hs.fresh _ le_rfl⟩) a2.sim a2.inv (hl.frame hw a2.frame) (fun i hi => by cases hi; exact a4)
          refine ⟨w2, ?_, a2.trans hw b2, fun _ => a3.trans a2.frame.next (b3 (by simp))⟩
          rw [Option.map_some, hs.next0] at b1
          simp only [disp, a1, b1, rrename, Option.map_some, hs.next0]
    · -- named Script
      next m nm a rest =>
      split at h
      · cases h
      · next p is rs1 h1 =>
        split at h
        · cases h
        · next rs2 h2 =>
          split at h
          · cases h
          · next rs3 h3 =>
            cases h
            simp only [Named, Nameds] at hn
            simp only [Shaped, Shapeds] at hsh
            obtain ⟨w', b1, b2, b3⟩ := script_sim rest X nm fd rs p is rs1 rs2 _ w h1 h2 h3 hsh.2.2.2 hn.2.2 (fun t ht => hsh.2.1 t (by simp [ht])) hs hw hl
            obtain ⟨w1, w2, w3, c1, c2, c3, c4⟩ := b1
            refine ⟨w', ?_, b2, fun _ => b3⟩
            simp only [disp, c1, c2, c3, c4, rrename, Option.map_some, hs.next0]
    · -- Script
      next m rest hno =>
      split at h
      · cases h
      · next p is rs1 h1 =>
        split at h
        · cases h
        · next rs2 h2 =>
          split at h
          · cases h
          · next rs3 h3 =>
            cases h
            simp only [Named] at hn
            simp only [Shaped] at hsh
            obtain ⟨w', b1, b2, b3⟩ := script_sim rest X [] fd rs p is rs1 rs2 _ w h1 h2 h3 hsh.2.2 hn.2 (fun t ht => hsh.2.1 t ht) hs hw hl
            obtain ⟨w1, w2, w3, c1, c2, c3, c4⟩ := b1
            refine ⟨w', ?_, b2, fun _ => b3⟩
            rw [disp]
            · simp only [c1, c2, c3, c4, rrename, Option.map_some, hs.next0]
            · exact hno
    · -- NULL
      cases h
      exact ⟨w, by simp only [disp, rrename, Option.map_none], .refl hs hw, fun _ => .refl _ _⟩
    · -- USE
      next m a =>
      split at h
      · cases h
      · next i hi =>
        cases h
        simp only [Shaped] at hsh
        have hget : w.getDEF s m = some (ρ i) := by
          change (w.scene s).defs.lookup m = _
          rw [hs.defs m (hsh.1 trivial)]
          exact congrArg _ hi
        exact ⟨w, by simp only [disp, List.headD_cons, hget, rrename, Option.map_some], .refl hs hw, fun _ => .refl _ _⟩
    · -- ROUTE
      next m a _ af _ b _ bf _ =>
      split at h
      · next si di h1 h2 =>
        cases h
        simp only [Named, Nameds] at hn
        obtain ⟨g1, g2, g3⟩ := route_sim (af := af) (bf := bf) hw hs (legal_ne (hn.2.1.1 trivial)) (legal_ne (hn.2.2.2.1.1 trivial)) h1 h2
        exact ⟨_, by simp only [disp, List.headD_cons, g1, g2, rrename], g3, fun hc => absurd rfl hc⟩
      · cases h
    · -- attribute
      next m nm a value i =>
      split at h
      · cases h
      · next n hin =>
        have hXi := hX rfl i rfl
        obtain ⟨n', a1, a2, a3, a4⟩ := hs.node i n hin
        rw [hXi, Option.getD_none] at a2
        simp only [Named, Nameds] at hn
        simp only [Shaped, Shapeds] at hsh
        split at h
        · cases h
        · next p m' hp hm =>
          split at h
          · cases h
          · next dict hd =>
            cases h
            obtain ⟨w1, b1, b2, b3⟩ := addIs_sim hw hs hin hd m' nm
            refine ⟨w1, ?_, b2, fun _ => b3⟩
            simp only [disp, Option.map_some, a1, a2, getField_rename, hp, hm, b1, rrename]
        · cases h
        · next d hd hm =>
          split at h
          · cases h
          · next hmap =>
            split at h
            · cases h
            · next rv rs1 h1 =>
              split at h
              · cases h
              · next u hu =>
                split at h
                · cases h
                · next rs2 h2 =>
                  cases h
                  obtain ⟨w1, b1, b2, b3⟩ := disp_sim value X (some i) (some d.kind) rs rv rs1 w h1 hsh.2.2.2.1 hn.2.2.1
                    (fun e => by have := hsh.2.1 value (by simp); rw [e] at this; revert this; decide) (fun _ i hi => by cases hi; exact hXi) hs hw hl hq
                  have hq1 := (hq i rfl).step (rs := rs) hw b2 (b3 (by simp))
                  obtain ⟨n1, hn1⟩ : ∃ n1, rs1.sc.heap i = some n1 := by
                    obtain ⟨m1, hm1⟩ := hq1.node
                    have := b2.sim.lt.2 ((b2.inv.ids _).1 (by rw [hm1]; rfl))
                    exact Option.isSome_iff_exists.1 ((b2.sim.ids i).2 this)
                  have hd' : n'.cls.getField nm = some (.inl (d.rename ρ)) := by rw [a2, getField_rename, hd]; rfl
                  have hout : (w1.inst (ρ i)).isSome = true → w1.out (ρ i) d.name = [] := by
                    intro hk
                    obtain ⟨k, hk⟩ := Option.isSome_iff_exists.1 hk
                    have hk0 := hk
                    rw [b2.frame.inst _ ((hw.ids _).1 (by rw [a1]; rfl))] at hk0
                    obtain ⟨-, hkps, m2, hm2, hm3⟩ := hw.inst _ k hk0
                    rw [a1] at hm2; cases hm2
                    have hk1 : (w1.cls k).cls = n'.cls := by rw [b2.frame.cls k hkps]; exact hm3.symm
                    exact hq1.out k hk nm (d.rename ρ) (by rw [hk1]; exact hd') (by rw [hk1, a2]; exact hmap)
                  have hmem : ∀ m, w1.heap (ρ i) = some m → d.rename ρ ∈ m.cls.fields ∨ m.cls.proto = scriptName := by
                    intro m hm
                    obtain ⟨m1, c1, -, c3, c4⟩ := b2.ext.node _ n' a1
                    rw [hm] at c1; cases c1
                    by_cases hsn : n'.cls.proto = scriptName
                    · exact .inr (c3.trans hsn)
                    · rw [c4 hsn]; exact .inl (getField_mem hd')
                  obtain ⟨w2, d1, d2, d3⟩ := store_sim b2.inv b2.sim hn1 hout hmem (value_lt hb hty b1 hw hn.2.2.1 (cur_of hb hty hq) hu) h2
                  refine ⟨w2, ?_, b2.trans hw d2, fun _ => (b3 (by simp)).trans b2.frame.next d3⟩
                  simp only [Option.map_some] at b1
                  have hk : (d.rename ρ).kind = d.kind := rfl
                  simp only [disp, Option.map_some, a1, a2, getField_rename, hd, hm, prename, hk, b1, toVal_rename, hu, d1, rrename]
    · -- field
      next m kids k =>
      simp only [Named] at hn
      simp only [Shaped] at hsh
      have htags : ∀ t ∈ kids, ParseVal.Tree.tag t ≠ .vrmlScene ∧ (ParseVal.Tree.tag t = .attr → ∀ i, cur = some i → X i = none) := fun t ht =>
        ⟨fun e => by have := hsh.2.1 t ht; rw [e] at this; revert this; decide, fun e => by have := hsh.2.1 t ht; rw [e] at this; exact absurd this (by decide)⟩
      have hval : ∀ {kids : List PTree} {v}, simpleValue fl k kids = some v → v.rename ρ = v := fun h => val_plain ρ (simpleValue_nodes h)
      split at h
      · split at h
        · next hk =>
          cases h
          exact ⟨w, by simp only [disp, hk, if_true, rrename]; rfl, .refl hs hw, fun _ => .refl _ _⟩
        · next hk =>
          split at h
          · cases h
          · next u hu =>
            cases h
            exact ⟨w, by simp only [disp, hk, if_false, hu, rrename, hval hu], .refl hs hw, fun _ => .refl _ _⟩
      · next t m' tk rest =>
        split at h
        · next htn =>
          split at h
          · next hk =>
            obtain ⟨w1, a1, a2, a3⟩ := disp_sim (.node t m' tk) X cur (some k) rs v rs' w h hsh.2.2.1 hn.2.1 (htags _ (by simp)).1 (htags _ (by simp)).2 hs hw hl hq
            exact ⟨w1, by simp only [disp, htn, if_true, hk] at a1 ⊢; exact a1, a2, a3⟩
          · next hk =>
            split at h
            · cases h
            · next vs rs1 h1 =>
              cases h
              obtain ⟨w1, a1, a2, a3⟩ := dispList_sim (.node t m' tk :: rest) X cur (some k) rs vs _ w h1 hsh.2.2 hn.2 htags hs hw hl hq
              exact ⟨w1, by simp only [disp, htn, if_true, hk, if_false, a1, rrename], a2, a3⟩
        · next htn =>
          split at h
          · next hk =>
            cases h
            exact ⟨w, by simp only [disp, htn, hk, if_true, rrename]; rfl, .refl hs hw, fun _ => .refl _ _⟩
          · next hk =>
            split at h
            · cases h
            · next u hu =>
              cases h
              exact ⟨w, by simp only [disp, htn, hk, if_false, hu, rrename, hval hu]; rfl, .refl hs hw, fun _ => .refl _ _⟩
    · cases h
termination_by t => sizeOf t
theorem dispList_sim : ∀ (ts : List PTree) (X : Nat → Option (Class F)) (cur fd) (rs : RSt F) (vs rs') (w : World F), Lin.dispList lk fl ts cur fd rs = some (vs, rs') → Shapeds ts → Nameds ts →
    (∀ t ∈ ts, ParseVal.Tree.tag t ≠ .vrmlScene ∧ (ParseVal.Tree.tag t = .attr → ∀ i, cur = some i → X i = none)) → Sim ρ X s ps rs w → Inv base w ps → Look base ρ w (s :: ss) lk →
    (∀ i, cur = some i → Quiets ρ w i) →
    ∃ w', dispList base fl ts (s :: ss) ps (cur.map ρ) fd w = some (rrenames ρ vs, w') ∧ Step base ρ X s ps rs' w w' ∧ (cur ≠ none → NoWires ρ w w')
  | [], X, cur, fd, rs, vs, rs', w, h, hsh, hn, htag, hs, hw, hl, hq => by
    unfold Lin.dispList at h; cases h
    exact ⟨w, by simp only [dispList, rrenames], .refl hs hw, fun _ => .refl _ _⟩
  | t :: ts, X, cur, fd, rs, vs, rs', w, h, hsh, hn, htag, hs, hw, hl, hq => by
    unfold Lin.dispList at h
    simp only [Nameds] at hn
    simp only [Shapeds] at hsh
    split at h
    · cases h
    · next v rs1 h1 =>
      split at h
      · cases h
      · next vs' rs2 h2 =>
        cases h
        obtain ⟨w1, a1, a2, a3⟩ := disp_sim t X cur fd rs v rs1 w h1 hsh.1 hn.1 (htag t (by simp)).1 (htag t (by simp)).2 hs hw hl hq
        obtain ⟨w2, b1, b2, b3⟩ := dispList_sim ts X cur fd rs1 vs' _ w1 h2 hsh.2 hn.2 (fun t ht => htag t (by simp [ht])) a2.sim a2.inv (hl.frame hw a2.frame)
          (fun i hi => (hq i hi).step (rs := rs) hw a2 (a3 (by rw [hi]; simp)))
        exact ⟨w2, by simp only [dispList, a1, b1, rrenames], a2.trans hw b2, fun hc => (a3 hc).trans a2.frame.next (b3 hc)⟩
termination_by ts => sizeOf ts
theorem script_sim : ∀ (rest : List PTree) (X : Nat → Option (Class F)) (DEF : Text) (fd) (rs : RSt F) (p : ProtoDef F) (is rs1 rs2 rs') (w : World F),
    Lin.dispDecls lk fl rest rs.next scriptProto [] (rs.newNode scriptProto.cls DEF) = some (p, is, rs1) → (rs1.setClass rs.next p.cls).addIs rs.next is = some rs2 →
    Lin.dispAttrs lk fl rest rs.next fd rs2 = some rs' → Shapeds rest → Nameds rest → (∀ t ∈ rest, ParseVal.Tree.tag t ∈ tops (gram .script)) → Sim ρ X s ps rs w → Inv base w ps → Look base ρ w (s :: ss) lk →
    ∃ w', (∃ w1 w2 w3, w.newNode (s :: ss) scriptProto.cls none DEF = some w1 ∧ dispDecls base fl rest (s :: ss) ps w.next scriptProto [] w1 = some (is, w2) ∧ w2.addAllIs ps w.next is = some w3 ∧
      dispAttrs base fl rest (s :: ss) ps w.next fd w3 = some w') ∧ Step base ρ X s ps rs' w w' ∧ NoWires ρ w w'
  | rest, X, DEF, fd, rs, p, is, rs1, rs2, rs', w, h1, h2, h3, hsh, hn, htag, hs, hw, hl => by
    have hX0 : X rs.next = none := hs.fresh _ le_rfl
    obtain ⟨w1, a1, a2, a3, a4, ⟨n1, a5, a6⟩, a7⟩ := newNode_sim (DEF := DEF) (ss := ss) (k := none) hw hs scriptProto_fields (fun e he => by cases he) (fun e he => by cases he) (fun _ h => by cases h) (fun _ => .inr rfl) (fun e he => by cases he)
    have hsn : (scriptProto : ProtoDef F).cls.rename ρ = scriptProto.cls := class_plain ρ scriptProto_fields
    have e2 := (newNode_spec rs scriptProto.cls DEF).2.1
    have hnode : (rs.newNode scriptProto.cls DEF).sc.heap rs.next = some ⟨scriptProto.cls, DEF, fun _ => none⟩ := by rw [e2, if_pos rfl]
    have s1 : Sim ρ (fun j => if j = rs.next then some (scriptProto.cls.rename ρ) else X j) s ps (rs.newNode scriptProto.cls DEF) w1 := by
      refine { a2.sim with node := fun j n hn => ?_, fresh := fun j hj => ?_ }
      · obtain ⟨n', b1, b2, b3⟩ := a2.sim.node j n hn
        by_cases hj : j = rs.next
        · subst hj
          rw [hs.next0, a5] at b1; cases b1
          exact ⟨n1, by rw [hs.next0]; exact a5, by simp only [if_true, Option.getD_some, hsn]; exact a6, b3⟩
        · exact ⟨n', b1, by simp only [if_neg hj]; exact b2, b3⟩
      · have h0 := (newNode_spec rs scriptProto.cls DEF).1
        rw [h0] at hj
        rw [if_neg (by omega)]
        exact hs.fresh j (by omega)
    have hisS : IsScript w1 (ρ rs.next) := by rw [hs.next0]; exact ⟨⟨n1, a5, by rw [a6]; rfl⟩, a7⟩
    have hpf : PFields (drename ρ (scriptProto : ProtoDef F)) w1.next := by
      rw [drename_script]
      intro f hf j hj
      rw [scriptProto_fields f.decl (List.mem_map_of_mem hf)] at hj; cases hj
    obtain ⟨w2, b1, b2, b3, b4, b5⟩ := dispDecls_sim rest _ rs.next scriptProto [] _ p is rs1 w1 h1 hsh hn htag (by simp) rfl rfl s1 a2.inv (hl.frame hw a2.frame) a4 hisS hpf
    rw [drename_script, hs.next0] at b1
    have b2' : Step base ρ (fun j => if j = rs.next then some (p.cls.rename ρ) else X j) s ps rs1 w1 w2 := by
      have : (fun j => if j = rs.next then some (p.cls.rename ρ) else (fun j => if j = rs.next then some ((scriptProto : ProtoDef F).cls.rename ρ) else X j) j) = (fun j => if j = rs.next then some (p.cls.rename ρ) else X j) := by
        funext j; by_cases hj : j = rs.next <;> simp [hj]
      rw [this] at b2; exact b2
    have q2 := a4.step (rs := rs) a2.inv b2' b3
    obtain ⟨n2, hn2⟩ : ∃ n2, rs1.sc.heap rs.next = some n2 := by
      obtain ⟨m1, hm1⟩ := q2.node
      have := b2'.sim.lt.2 ((b2'.inv.ids _).1 (by rw [hm1]; rfl))
      exact Option.isSome_iff_exists.1 ((b2'.sim.ids _).2 this)
    have s2 : Sim ρ X s ps (rs1.setClass rs.next p.cls) w2 := b2'.sim.declared hn2 hX0
    obtain ⟨w3, c1, c2, c3⟩ := addAllIs_sim (i := rs.next) (n := { n2 with cls := p.cls }) is b2'.inv s2 (by simp [RSt.setClass, hn2]) h2
    rw [hs.next0] at c1
    have l2 := (hl.frame hw a2.frame).frame a2.inv b2'.frame
    obtain ⟨w4, d1, d2, d3⟩ := dispAttrs_sim rest X rs.next fd rs2 rs' w3 h3 hsh hn hX0 c2.sim c2.inv (l2.frame b2'.inv c2.frame) (q2.step (rs := rs) b2'.inv c2 c3)
    rw [hs.next0] at d1
    exact ⟨w4, ⟨w1, w2, w3, a1, b1, c1, d1⟩, a2.trans hw (b2'.trans a2.inv (c2.trans b2'.inv d2)), a3.trans a2.frame.next (b3.trans b2'.frame.next (c3.trans c2.frame.next d3))⟩
termination_by rest => sizeOf rest + 1
theorem dispDecls_sim : ∀ (ts : List PTree) (X : Nat → Option (Class F)) (i : Nat) (p : ProtoDef F) (is : List (Text × Text)) (rs : RSt F) (p' is' rs') (w : World F),
    Lin.dispDecls lk fl ts i p is rs = some (p', is', rs') → Shapeds ts → Nameds ts → (∀ t ∈ ts, ParseVal.Tree.tag t ∈ tops (gram .script)) → X i = some (p.cls.rename ρ) → p.body = none → p.name = scriptName → Sim ρ X s ps rs w → Inv base w ps → Look base ρ w (s :: ss) lk →
    Quiets ρ w i → IsScript w (ρ i) → PFields (drename ρ p) w.next →
    ∃ w' , dispDecls base fl ts (s :: ss) ps (ρ i) (drename ρ p) is w = some (is', w') ∧ Step base ρ (fun j => if j = i then some (p'.cls.rename ρ) else X j) s ps rs' w w' ∧ NoWires ρ w w' ∧
      IsScript w' (ρ i) ∧ p'.body = none
  | [], X, i, p, is, rs, p', is', rs', w, h, hsh, hn, htag, hX, hpb, hpn, hs, hw, hl, hq, hi, hpf => by
    unfold Lin.dispDecls at h; cases h
    have : (fun j => if j = i then some (p.cls.rename ρ) else X j) = X := by
      funext j; by_cases hj : j = i
      · subst hj; simp [hX]
      · simp [hj]
    rw [this]
    exact ⟨w, by simp only [dispDecls], .refl hs hw, .refl _ _, hi, hpb⟩
  | t :: ts, X, i, p, is, rs, p', is', rs', w, h, hsh, hn, htag, hX, hpb, hpn, hs, hw, hl, hq, hi, hpf => by
    simp only [Nameds] at hn
    simp only [Shapeds] at hsh
    obtain ⟨n0, hn0⟩ : ∃ n0, rs.sc.heap i = some n0 := by
      obtain ⟨m1, hm1⟩ := hq.node
      exact Option.isSome_iff_exists.1 ((hs.ids _).2 (hs.lt.2 ((hw.ids _).1 (by rw [hm1]; rfl))))
    -- one declaration, then the others
    have decl : ∀ (q : ProtoDef F) (is1 : List (Text × Text)) (rs1 : RSt F) (w1 : World F), Step base ρ X s ps rs1 w w1 → NoWires ρ w w1 → Lin.dispDecls lk fl ts i q is1 rs1 = some (p', is', rs') →
        q.body = none → q.name = scriptName → PFields (drename ρ q) w1.next →
        ∃ w', dispDecls base fl ts (s :: ss) ps (ρ i) (drename ρ q) is1 (w1.setClass (ρ i) (drename ρ q).cls) = some (is', w') ∧ Step base ρ (fun j => if j = i then some (p'.cls.rename ρ) else X j) s ps rs' w w' ∧ NoWires ρ w w' ∧
          IsScript w' (ρ i) ∧ p'.body = none := by
      intro q is1 rs1 w1 st nw hd hqb hqn hqf
      have q1 := hq.step (rs := rs) hw st nw
      obtain ⟨n1, hn1⟩ : ∃ n1, rs1.sc.heap i = some n1 := by
        obtain ⟨m1, hm1⟩ := q1.node
        exact Option.isSome_iff_exists.1 ((st.sim.ids _).2 (st.sim.lt.2 ((st.inv.ids _).1 (by rw [hm1]; rfl))))
      obtain ⟨c1, c2, c3⟩ := setClass_sim st.inv hb st.sim hn1 (hi.ext hw st.ext) (p := drename ρ q) hqn hqf
      rw [drename_cls ρ hqb] at c1 c2 c3 ⊢
      obtain ⟨w', d1, d2, d3, d4, d5⟩ := dispDecls_sim ts _ i q is1 rs1 p' is' rs' _ hd hsh.2 hn.2 (fun t ht => htag t (by simp [ht])) (by simp) hqb hqn c1.sim c1.inv
        ((hl.frame hw st.frame).frame st.inv c1.frame) (q1.step (rs := rs) st.inv c1 c2) c3 (hqf.mono c1.frame.next)
      have : (fun j => if j = i then some (p'.cls.rename ρ) else (fun j => if j = i then some (q.cls.rename ρ) else X j) j) = (fun j => if j = i then some (p'.cls.rename ρ) else X j) := by
        funext j; by_cases hj : j = i <;> simp [hj]
      rw [this] at d2
      exact ⟨w', d1, st.trans hw (c1.trans st.inv d2), nw.trans st.frame.next (c2.trans c1.frame.next d3), d4, d5⟩
    unfold Lin.dispDecls at h
    split at h
    · cases ‹_ = []›
    · -- field
      next i p is rs _ _ _ _ _ m ex _ ty _ nm _ value ts' heq =>
      cases heq
      split at h
      · cases h
      · next hres =>
        split at h
        · cases h
        · next ft hft =>
          simp only [Named, Nameds] at hn
          simp only [Shaped, Shapeds] at hsh
          have hmk : ∀ dflt, mkField fl ex ty nm dflt = some (⟨⟨nm, ty, ft.kind, ft.str, ft.conv, dflt⟩, decide (ex = chars "exposedField")⟩ : PField F) := by
            intro dflt
            simp only [mkField, hres, hft, Option.map_some]; rfl
          split at h
          · next m' hm =>
            obtain ⟨w', d1, d2, d3, d4, d5⟩ := decl _ _ rs w (.refl hs hw) (.refl _ _) h hpb hpn (by
              rw [drename_addField]
              intro f hf j hj
              rcases addField_fields hf with hf | rfl
              · exact hpf f hf j hj
              · have : ((⟨nm, ty, ft.kind, ft.str, ft.conv, fl.types.dflt ty⟩ : FieldDecl F).rename ρ).dfltNodes = [] := by
                  have h0 : (⟨nm, ty, ft.kind, ft.str, ft.conv, fl.types.dflt ty⟩ : FieldDecl F).dfltNodes = [] := mkField_nodes' hty (hmk _)
                  rw [field_plain ρ h0]; exact h0
                rw [this] at hj; cases hj)
            refine ⟨w', ?_, d2, d3, d4, d5⟩
            have hpl : (⟨nm, ty, ft.kind, ft.str, ft.conv, fl.types.dflt ty⟩ : FieldDecl F).rename ρ = ⟨nm, ty, ft.kind, ft.str, ft.conv, fl.types.dflt ty⟩ := field_plain ρ (mkField_nodes' hty (hmk _))
            rw [drename_addField] at d1
            simp only [hpl] at d1
            simp only [dispDecls, hft, hm, hmk, d1]
          · next hm =>
            split at h
            · cases h
            · next rv rs1 h1 =>
              split at h
              · cases h
              · next u hu =>
                obtain ⟨w1, b1, b2, b3⟩ := disp_sim value X (some i) (some ft.kind) rs rv rs1 w h1 hsh.1.2.2.2.2.2.1 hn.1.2.2.2.2.1
                  (fun e => by have := hsh.1.2.1 value (by simp); rw [e] at this; revert this; decide) (fun e => by have := hsh.1.2.1 value (by simp); rw [e] at this; exact absurd this (by decide))
                  hs hw hl (fun j hj => by cases hj; exact hq)
                have hvl := value_lt hb hty b1 hw hn.1.2.2.2.2.1 (cur_of hb hty (fun j hj => by cases hj; exact hq)) hu
                obtain ⟨w', d1, d2, d3, d4, d5⟩ := decl _ _ rs1 w1 b2 (b3 (by simp)) h hpb hpn (by
                  rw [drename_addField]
                  intro f hf j hj
                  rcases addField_fields hf with hf | rfl
                  · exact lt_of_lt_of_le (hpf f hf j hj) b2.frame.next
                  · have : ((⟨nm, ty, ft.kind, ft.str, ft.conv, dfltOf u⟩ : FieldDecl F).rename ρ).dfltNodes = (u.rename ρ).nodes := by
                      simp only [FieldDecl.rename, ← dfltOf_rename, FieldDecl.dfltNodes, Lin.dfltOf_value]; rfl
                    rw [this] at hj; exact hvl j hj)
                refine ⟨w', ?_, d2, d3, d4, d5⟩
                rw [drename_addField] at d1
                simp only [FieldDecl.rename, ← dfltOf_rename] at d1
                simp only [Option.map_some] at b1
                simp only [dispDecls, hft, hm, b1, toVal_rename, hu, Option.map_some, hmk, d1]
    · -- event
      next i p is rs _ _ _ _ _ m dir _ ty _ nm _ rest ts' heq =>
      cases heq
      split at h
      · cases h
      · next hres =>
        split at h
        · next hev =>
          have hmk : mkEvent fl dir ty nm = some ⟨nm, ty, decide (dir = chars "eventOut")⟩ := by
            simp only [mkEvent, hres, hev]; rfl
          have hpf' : PFields (drename ρ (p.addEvent ⟨nm, ty, decide (dir = chars "eventOut")⟩)) w.next := by
            rw [drename_addEvent]
            exact fun f hf j hj => hpf f (addEvent_fields hf) j hj
          split at h
          · obtain ⟨w', d1, d2, d3, d4, d5⟩ := decl _ _ rs w (.refl hs hw) (.refl _ _) h hpb hpn hpf'
            refine ⟨w', ?_, d2, d3, d4, d5⟩
            rw [drename_addEvent] at d1
            simp only [dispDecls, hmk, d1]
          · next t' _ =>
            split at h
            · next m' hm =>
              obtain ⟨w', d1, d2, d3, d4, d5⟩ := decl _ _ rs w (.refl hs hw) (.refl _ _) h hpb hpn hpf'
              refine ⟨w', ?_, d2, d3, d4, d5⟩
              rw [drename_addEvent] at d1
              simp only [dispDecls, hmk, hm, d1]
            · cases h
        · cases h
    · -- attribute
      next i p is rs _ _ _ _ _ m k ts' heq =>
      cases heq
      obtain ⟨w', d1, d2⟩ := dispDecls_sim ts X i p is rs p' is' rs' w h hsh.2 hn.2 (fun t ht => htag t (by simp [ht])) hX hpb hpn hs hw hl hq hi hpf
      exact ⟨w', by simp only [dispDecls, d1], d2⟩
    · cases h
termination_by ts => sizeOf ts
theorem dispAttrs_sim : ∀ (ts : List PTree) (X : Nat → Option (Class F)) (i : Nat) (fd) (rs : RSt F) (rs') (w : World F),
    Lin.dispAttrs lk fl ts i fd rs = some rs' → Shapeds ts → Nameds ts → X i = none → Sim ρ X s ps rs w → Inv base w ps → Look base ρ w (s :: ss) lk →
    Quiets ρ w i →
    ∃ w', dispAttrs base fl ts (s :: ss) ps (ρ i) fd w = some w' ∧ Step base ρ X s ps rs' w w' ∧ NoWires ρ w w'
  | [], X, i, fd, rs, rs', w, h, hsh, hn, hX, hs, hw, hl, hq => by
    unfold Lin.dispAttrs at h; cases h
    exact ⟨w, by simp only [dispAttrs], .refl hs hw, .refl _ _⟩
  | t :: ts, X, i, fd, rs, rs', w, h, hsh, hn, hX, hs, hw, hl, hq => by
    unfold Lin.dispAttrs at h
    simp only [Nameds] at hn
    simp only [Shapeds] at hsh
    split at h
    · next ht =>
      split at h
      · cases h
      · next v rs1 h1 =>
        obtain ⟨w1, a1, a2, a3⟩ := disp_sim t X (some i) fd rs v rs1 w h1 hsh.1 hn.1 (by rw [ht]; decide) (fun _ j hj => by cases hj; exact hX) hs hw hl (fun j hj => by cases hj; exact hq)
        obtain ⟨w2, b1, b2, b3⟩ := dispAttrs_sim ts X i fd rs1 rs' w1 h hsh.2 hn.2 hX a2.sim a2.inv (hl.frame hw a2.frame) (hq.step (rs := rs) hw a2 (a3 (by simp)))
        exact ⟨w2, by simp only [Option.map_some] at a1; simp only [dispAttrs, ht, if_true, a1, b1], a2.trans hw b2, (a3 (by simp)).trans a2.frame.next b3⟩
    · next ht =>
      obtain ⟨w2, b1, b2, b3⟩ := dispAttrs_sim ts X i fd rs rs' w h hsh.2 hn.2 hX hs hw hl hq
      exact ⟨w2, by simp only [dispAttrs, ht, if_false, b1], b2, b3⟩
termination_by ts => sizeOf ts
end
end main

end Verif.Full
