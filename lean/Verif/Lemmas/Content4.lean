import Verif.Lemmas.Content3
/-!
The reader does what the file says.
-/
namespace Verif.Full
open Verif.Peg Verif.Grammar Verif.TextOut Verif.SceneText Verif.Reader Verif.Scopes Verif.Shape
open Verif.Lin hiding disp dispList dispDecls dispAttrs disp_node disp_attr
variable {F : Type} {base : Text → Option (Class F)} {fl : Floats F}

abbrev NoNode : Nat → Prop := fun _ => False

/-- what stands at an entry -/
def Res (v : RVal F) (r : Option (Option Nat)) : Prop := (v = .nothing ∧ r = none) ∨ ∃ o, v = .ref o ∧ r = some o

/-- entries that are read alike inside any node -/
def NoAttr (t : PTree) : Prop := ParseVal.Tree.tag t ≠ .attr ∧ ParseVal.Tree.tag t ≠ .rootItem

theorem res_refs : ∀ {vs : List (RVal F)} {rs os}, List.Forall₂ Res vs rs → refList vs = some os → rs = os.map some
  | [], _, os, .nil, h => by cases h; rfl
  | v :: vs, _, os, .cons h1 h2, h => by
    rcases h1 with ⟨rfl, rfl⟩ | ⟨o, rfl, rfl⟩
    · cases h
    · simp only [refList] at h
      obtain ⟨os', h3, rfl⟩ := Option.map_eq_some_iff.1 h
      rw [res_refs h2 h3]; rfl

theorem res_nodes : ∀ {vs : List (RVal F)} {rs}, List.Forall₂ Res vs rs →
    vs.filterMap (fun v => match v with | .ref (some i) => some i | _ => none) = rs.filterMap Option.join
  | [], _, .nil => rfl
  | v :: vs, _, .cons h1 h2 => by
    rcases h1 with ⟨rfl, rfl⟩ | ⟨o, rfl, rfl⟩
    · simpa [List.filterMap_cons] using res_nodes h2
    · cases o <;> simpa [List.filterMap_cons] using res_nodes h2

/-! ### Names -/

theorem Run.step1 (hb : PlainBase base) (hname : ∀ t c, base t = some c → c.proto = t) {plain : Bool} {ss ps m} {w w' : World F} (hr : Run base fl plain ss ps [m] w w') {st : Names}
    (hs : ss ≠ []) (hw : Inv base w ps) (ha : Agree fl plain ss ps w st) (h : ∀ nm, m ≠ .use nm) (h' : ∀ a b c d, m ≠ .route a b c d) :
    ∃ st', st.step (builtinOf base) m = some st' ∧ Agree fl plain ss ps w' st' ∧ st.ifaces <+: st'.ifaces := by
  obtain ⟨st', h1, h2⟩ := hr.names hb hname st hs hw ha
  rw [follow_cons h h'] at h1
  have hf : follow plain [] = [] := by cases plain <;> rfl
  rw [hf] at h1
  simp only [Names.run] at h1
  cases hst : st.step (builtinOf base) m with
  | none => rw [hst] at h1; cases h1
  | some st1 =>
    rw [hst] at h1
    cases h1
    exact ⟨_, rfl, h2, step_ifaces hst⟩

theorem Run.step0 (hb : PlainBase base) (hname : ∀ t c, base t = some c → c.proto = t) {plain : Bool} {ss ps} {w w' : World F} (hr : Run base fl plain ss ps [] w w') {st : Names}
    (hs : ss ≠ []) (hw : Inv base w ps) (ha : Agree fl plain ss ps w st) : Agree fl plain ss ps w' st := by
  obtain ⟨st', h1, h2⟩ := hr.names hb hname st hs hw ha
  have hf : follow plain [] = [] := by cases plain <;> rfl
  rw [hf] at h1
  cases h1
  exact h2

theorem Agree.here {plain : Bool} {ss ps st} {w : World F} (h : Agree fl plain ss ps w st) (hs : ss ≠ []) : st.here = ss.headD 0 := by
  obtain ⟨s, ss', rfl⟩ := List.exists_cons_of_ne_nil hs
  obtain ⟨x, la, hx, hxs⟩ := h.head
  simp [Names.here, hx, hxs]

theorem Agree.lt {plain : Bool} {ss ps st} {w : World F} (h : Agree fl plain ss ps w st) (hs : ss ≠ []) : ss.headD 0 < w.nscenes := by
  obtain ⟨s, ss', rfl⟩ := List.exists_cons_of_ne_nil hs
  obtain ⟨x, la, hx, hxs⟩ := h.head
  have := h.below x (by simp [hx])
  simpa [← hxs] using this

/-! ### Invariants -/
section inv
variable (hb : PlainBase base) (hty : ∀ ty v, (fl.types.dflt ty).value = some v → v.nodes = [])
include hb hty

theorem disp_keeps {t : PTree} {ss ps cur fd} {w : World F} {v w'} (h : disp base fl t ss ps cur fd w = some (v, w')) (hw : Inv base w ps) (hn : Named t) (hc : Cur cur w) :
    Inv base w' ps ∧ Ext ps w w' ∧ okVal v w'.next := by
  obtain ⟨l, _, r, o⟩ := disp_run hb hty false t ss ps cur fd w v w' h hw hn hc (by simp)
  exact ⟨(r.inv hb hw).1, (r.inv hb hw).2, o⟩

theorem dispList_keeps {t : List PTree} {ss ps cur fd} {w : World F} {v w'} (h : dispList base fl t ss ps cur fd w = some (v, w')) (hw : Inv base w ps) (hn : Nameds t) (hc : Cur cur w) :
    Inv base w' ps ∧ Ext ps w w' ∧ ∀ x ∈ v, okVal x w'.next := by
  obtain ⟨l, _, r, o⟩ := dispList_run hb hty false t ss ps cur fd w v w' h hw hn hc (by simp)
  exact ⟨(r.inv hb hw).1, (r.inv hb hw).2, o⟩

theorem dispDecls_keeps {ts : List PTree} {ss ps : List Nat} {i : Nat} {p : ProtoDef F} {is is' : List (Text × Text)} {w w' : World F}
    (h : dispDecls base fl ts ss ps i p is w = some (is', w')) (hw : Inv base w ps) (hn : Nameds ts) (hi : IsScript w i) (hpn : ScriptLike fl p) (hpf : PFields p w.next) :
    Inv base w' ps ∧ Ext ps w w' := by
  obtain ⟨l, _, r⟩ := dispDecls_run hb hty false ts ss ps i p is is' w w' h hw hn (by simp) hi hpn hpf
  exact r.inv hb hw
end inv

theorem addAllIs_none {i : Nat} {l : List (Text × Text)} {w w' : World F} (h : w.addAllIs [] i l = some w') : l = [] := by
  cases l with
  | nil => rfl
  | cons e l => simp [World.addAllIs, World.addIs] at h

theorem addAllIs_effect {C : Nat → Prop} {ps : List Nat} {k i : Nat} : ∀ (l : List (Text × Text)) (w w' : World F), k < w.nclasses → w.addAllIs (k :: ps) i l = some w' →
    Effect fl NoNode C (l.map (fun e => .is k e.1 i e.2)) w w'
  | [], w, w', _, h => by cases h; exact .refl _ _ _
  | e :: l, w, w', hk, h => by
    unfold World.addAllIs at h
    rw [List.foldlM_cons] at h
    cases h1 : w.addIs (k :: ps) e.1 i e.2 with
    | none => rw [h1] at h; cases h
    | some w1 =>
      rw [h1] at h
      have hk1 : k < w1.nclasses := by cases h1; exact hk
      exact (addIs_effect (C := C) hk h1).trans (addAllIs_effect (C := C) l w1 w' hk1 h) (fun _ h => .inl h)

/-- a Script is complete -/
theorem Effect.addScript {C : Nat → Prop} {a b : World F} {l : List Said} (h : Effect fl NoNode C l a b) {i : Nat} {items : List PTree} {c : Class F} (h1 : a.next ≤ i) (h2 : i < b.next)
    (h3 : clsAt b i = some c) (h4 : ScriptAs fl items c) (h5 : OwnSaid fl i l c) : Effect fl NoNode C (l ++ [.script i items]) a b := by
  have h6 : ∀ j nm, lastOwn j nm (l ++ [.script i items]) = lastOwn j nm l := fun j nm => by rw [lastOwn_append]; rfl
  refine ⟨h.wires, h.next, h.cls, h.fresh, fun s => ?_, fun k nm => ?_, fun j nm g hm => ?_, fun j f hc => ?_, fun k f hf => ?_, fun j nm g hm => ?_, fun j items' hm => ?_⟩
  · rw [h.children, childrenIn_append]; simp [childrenIn]
  · rw [h.is, mappedTo_append]; simp [mappedTo]
  · exact h.entries j nm g (by simpa using hm)
  · rw [valuesFor_append, show valuesFor b j f [.script i items] = [] from rfl, List.append_nil]; exact h.value j f hc
  · rw [lastDflt_append]; exact h.dflt k f hf
  · exact h.own j nm g (by simpa using hm)
  · rcases List.mem_append.1 hm with hm | hm
    · obtain ⟨g1, g2, g3, c', g4, g5, g6⟩ := h.script j items' hm
      exact ⟨g1, g2, g3, c', g4, g5, fun d hd => by rw [h6]; exact g6 d hd⟩
    · simp only [List.mem_singleton, Said.script.injEq] at hm
      obtain ⟨rfl, rfl⟩ := hm
      exact ⟨h1, id, h2, c, h3, h4, fun d hd => by rw [h6]; exact h5 d hd⟩

theorem script_effect {C : Nat → Prop} {w w1 w2 w3 w4 : World F} {i : Nat} {l l1 l' : List Said} {items : List PTree} {p : ProtoDef F} (hi : i = w.next) (hi1 : i < w1.next)
    (e0 : Effect fl NoNode C [] w w1) (eD : Effect fl (fun j => j = i) NoNode l w1 w2) (hcl : clsAt w2 i = some p.cls) (hS : ScriptAs fl items p.cls) (hO : OwnP fl i l scriptProto p)
    (eI : Effect fl NoNode NoNode l1 w2 w3) (hl1 : ∀ nm g, .own i nm g ∉ l1) (eA : Effect fl NoNode (fun j => j = i) l' w3 w4) :
    Effect fl NoNode C (l ++ l1 ++ .script i items :: l') w w4 := by
  have e1 : Effect fl NoNode C l w w2 := e0.close eD (fun j hj => by subst hj; omega) (fun _ h => h.elim)
  have e2 := e1.trans eI (fun _ h => h.elim)
  have hi2 : i < w2.next := hi1.trans_le eD.next
  have e3 := e2.addScript (items := items) (i := i) (c := p.cls) (by omega) (hi2.trans_le eI.next) ((eI.cls i hi2 id).trans hcl) hS (fun d hd => by
    rw [lastOwn_append, lastOwn_none (fun g => hl1 _ g), Option.none_or]
    exact ownSaid_of hO d hd)
  have e4 := e3.trans eA (fun j hj => .inr (by omega))
  simpa using e4

/-! ### Shapes -/

theorem tags_mem {k : List PTree} {P : NT → Prop} (h : ∀ n ∈ k.map ParseVal.Tree.tag, P n) : ∀ t ∈ k, P (ParseVal.Tree.tag t) := fun t ht => h _ (List.mem_map.2 ⟨t, ht, rfl⟩)

theorem item_kids {m kids} (h : Shaped (.node .rootItem m kids)) : ∀ t ∈ kids, ParseVal.Tree.tag t ≠ .field ∧ NoAttr t := by
  simp only [Shaped] at h
  obtain ⟨n, h1, h2⟩ := rootItem_tags h.1
  refine tags_mem (P := fun n => n ≠ .field ∧ n ≠ .attr ∧ n ≠ .rootItem) (fun n hn => ?_)
  rw [h1] at hn
  simp only [List.mem_singleton] at hn
  subst hn
  cases n <;> first | decide | cases h2

theorem field_kids {m kids} (h : Shaped (.node .field m kids)) : ∀ t ∈ kids, ParseVal.Tree.tag t ≠ .field ∧ NoAttr t := by
  simp only [Shaped] at h
  have h1 := field_tags h.1
  refine tags_mem (P := fun n => n ≠ .field ∧ n ≠ .attr ∧ n ≠ .rootItem) (fun n hn => ?_)
  have h2 := h1 n hn
  cases n <;> first | decide | cases h2

theorem scene_kids {m kids} (h : Shaped (.node .vrmlScene m kids)) : ∀ t ∈ kids, ParseVal.Tree.tag t ≠ .field := by
  simp only [Shaped] at h
  have h1 := scene_tags h.1
  refine tags_mem (P := fun n => n ≠ .field) (fun n hn => ?_)
  rw [h1 n hn]; decide

theorem node_kids {m kids} (h : Shaped (.node .node m kids)) : ∀ t ∈ kids, ParseVal.Tree.tag t ≠ .field := by
  simp only [Shaped] at h
  obtain ⟨d, l, h1, h2, h3⟩ := node_tags h.1
  refine tags_mem (P := fun n => n ≠ .field) (fun n hn => ?_)
  rw [h1] at hn
  rcases List.mem_append.1 hn with hn | hn
  · rcases h2 with rfl | rfl
    · cases hn
    · simp at hn; subst hn; decide
  · rcases List.mem_cons.1 hn with rfl | hn
    · decide
    · have := h3 n hn
      intro e; subst e; cases this

theorem attr_value {m nm a value} (h : Shaped (.node .attr m [.node .name nm a, value])) (hi : isTarget value = none) : ∃ m' kids, value = .node .field m' kids := by
  simp only [Shaped] at h
  obtain ⟨t, x, k⟩ := value
  rcases attr_tags h.1 with h1 | h1
  · simp [ParseVal.Tree.tag] at h1
    subst h1; cases hi
  · simp [ParseVal.Tree.tag] at h1
    subst h1; exact ⟨_, _, rfl⟩

theorem fieldDecl_value {m a b c} {value : PTree} (h : Shaped (.node .fieldDecl m [a, b, c, value])) : ∃ m' kids, value = .node .field m' kids := by
  simp only [Shaped] at h
  obtain ⟨t, x, k⟩ := value
  have h1 := fieldDecl_tags h.1
  simp [ParseVal.Tree.tag] at h1
  obtain ⟨-, -, -, h1⟩ := h1
  subst h1; exact ⟨_, _, rfl⟩

theorem scriptField_value {m a b c} {value : PTree} (h : Shaped (.node .scriptFieldDecl m [a, b, c, value])) (hi : isTarget value = none) : ∃ m' kids, value = .node .field m' kids := by
  simp only [Shaped] at h
  obtain ⟨t, x, k⟩ := value
  rcases scriptFieldDecl_tags h.1 with h1 | h1
  · simp [ParseVal.Tree.tag] at h1
    obtain ⟨-, -, -, h1⟩ := h1
    subst h1; cases hi
  · simp [ParseVal.Tree.tag] at h1
    obtain ⟨-, -, -, h1⟩ := h1
    subst h1; exact ⟨_, _, rfl⟩

end Verif.Full
