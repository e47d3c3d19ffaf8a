import Verif.Spec.Same
import Verif.Lemmas.FullRun4
/-!
Renumbering nodes commutes with what the reader does; the shape of parse trees.
-/
namespace Verif.Full
open Verif.Peg Verif.Grammar Verif.TextOut Verif.SceneText Verif.Reader
open Verif.Lin hiding disp dispList dispDecls dispAttrs disp_node disp_attr
variable {F : Type}

/-! ### Shapes -/

/-- the reported productions of an expression -/
def tops : E → List NT
  | .seq a b | .alt a b => tops a ++ tops b
  | .star a | .cut a => tops a
  | .nt n => [n]
  | _ => []

/-- only `ts` is not reported -/
def onlyTs : E → Bool
  | .seq a b | .alt a b => onlyTs a && onlyTs b
  | .star a | .cut a => onlyTs a
  | .silent n => n == .ts
  | _ => true

theorem gram_onlyTs (n : NT) : onlyTs (gram n) = true := by cases n <;> rfl

mutual
/-- the entries stand where the grammar allows them, and names in USE are not empty -/
def Shaped : PTree → Prop
  | .node n m k => (n = .use → m ≠ []) ∧ (∀ t ∈ k, ParseVal.Tree.tag t ∈ tops (gram n)) ∧ Shapeds k
def Shapeds : List PTree → Prop
  | [] => True
  | t :: l => Shaped t ∧ Shapeds l
end

theorem Shapeds_append {a b : List PTree} : Shapeds (a ++ b) ↔ Shapeds a ∧ Shapeds b := by
  induction a with
  | nil => simp [Shapeds]
  | cons t a ih => simp [Shapeds, ih, and_assoc]

theorem Shapeds.mem {l : List PTree} (h : Shapeds l) {t} (ht : t ∈ l) : Shaped t := by
  induction l with
  | nil => cases ht
  | cons a l ih =>
    rcases List.mem_cons.1 ht with rfl | ht
    · exact h.1
    · exact ih h.2 ht

theorem der_shaped {e i o} (h : Der gram e i o) : onlyTs e = true → ∀ t m r, o = .ok t m r → Shapeds t ∧ ∀ x ∈ t, ParseVal.Tree.tag x ∈ tops e := by
  induction h with
  | seq _ _ ih1 ih2 =>
    intro he t m r ho; cases ho
    simp only [onlyTs, Bool.and_eq_true] at he
    obtain ⟨a1, a2⟩ := ih1 he.1 _ _ _ rfl
    obtain ⟨b1, b2⟩ := ih2 he.2 _ _ _ rfl
    refine ⟨Shapeds_append.2 ⟨a1, b1⟩, fun x hx => ?_⟩
    simp only [tops, List.mem_append]
    exact (List.mem_append.1 hx).imp (a2 x) (b2 x)
  | altL _ ih =>
    intro he t m r ho; cases ho
    simp only [onlyTs, Bool.and_eq_true] at he
    obtain ⟨a1, a2⟩ := ih he.1 _ _ _ rfl
    exact ⟨a1, fun x hx => by simp only [tops, List.mem_append]; exact .inl (a2 x hx)⟩
  | altR _ _ _ ih =>
    intro he t m r ho; cases ho
    simp only [onlyTs, Bool.and_eq_true] at he
    obtain ⟨a1, a2⟩ := ih he.2 _ _ _ rfl
    exact ⟨a1, fun x hx => by simp only [tops, List.mem_append]; exact .inr (a2 x hx)⟩
  | starCons _ _ _ ih1 ih2 =>
    intro he t m r ho; cases ho
    obtain ⟨a1, a2⟩ := ih1 (by simpa only [onlyTs] using he) _ _ _ rfl
    obtain ⟨b1, b2⟩ := ih2 he _ _ _ rfl
    refine ⟨Shapeds_append.2 ⟨a1, b1⟩, fun x hx => ?_⟩
    rcases List.mem_append.1 hx with hx | hx
    · exact a2 x hx
    · exact b2 x hx
  | starNil _ _ => intro _ t m r ho; cases ho; exact ⟨trivial, by simp⟩
  | nt h ih =>
    intro he t' m' r' ho
    cases ho
    obtain ⟨a1, a2⟩ := ih (gram_onlyTs _) _ _ _ rfl
    refine ⟨⟨⟨?_, a2, a1⟩, trivial⟩, by simp [tops, ParseVal.Tree.tag]⟩
    rintro rfl hm
    subst hm
    cases h with
    | nt h => obtain ⟨c, cs, hm, -⟩ := name_legal h; cases hm
  | silent h ih =>
    intro he t m r ho; cases ho
    simp only [onlyTs, beq_iff_eq] at he
    subst he
    obtain ⟨a1, a2⟩ := ih (gram_onlyTs _) _ _ _ rfl
    exact ⟨a1, fun x hx => absurd (a2 x hx) (by simp [gram, tops, Exp.plus, Exp.seqs])⟩
  | cut _ ih => intro he t m r ho; cases ho; exact ih (by simpa only [onlyTs] using he) _ _ _ rfl
  | eps | lit | cls | eof => intro _ t m r ho; cases ho; exact ⟨trivial, by simp⟩
  | _ => intro _ t m r ho; cases ho

/-! ### Renumbering -/

mutual
def rrename (ρ : Nat → Nat) : RVal F → RVal F
  | .nothing => .nothing
  | .ref o => .ref (o.map ρ)
  | .val v => .val (v.rename ρ)
  | .vals l => .vals (rrenames ρ l)
def rrenames (ρ : Nat → Nat) : List (RVal F) → List (RVal F)
  | [] => []
  | v :: l => rrename ρ v :: rrenames ρ l
end

variable (ρ : Nat → Nat)

theorem refList_rename : ∀ l : List (RVal F), refList (rrenames ρ l) = (refList l).map (List.map (Option.map ρ))
  | [] => rfl
  | .ref o :: l => by
    simp only [rrenames, rrename, refList, refList_rename l, Option.map_map]; rfl
  | .nothing :: l => by simp [rrenames, rrename, refList]
  | .val _ :: l => by simp [rrenames, rrename, refList]
  | .vals _ :: l => by simp [rrenames, rrename, refList]

theorem toVal_rename (v : RVal F) : (rrename ρ v).toVal = v.toVal.map (Val.rename ρ) := by
  cases v with
  | nothing => rfl
  | ref o => rfl
  | val v => rfl
  | vals l => simp only [rrename, RVal.toVal, refList_rename, Option.map_map]; rfl

theorem childNodes_rename : ∀ l : List (RVal F), (rrenames ρ l).filterMap (fun v => match v with | .ref (some i) => some i | _ => none) =
    (l.filterMap (fun v => match v with | .ref (some i) => some i | _ => none)).map ρ
  | [] => rfl
  | .ref none :: l => by simp [rrenames, rrename, childNodes_rename l]
  | .ref (some i) :: l => by simp [rrenames, rrename, childNodes_rename l]
  | .nothing :: l => by simp [rrenames, rrename, childNodes_rename l]
  | .val _ :: l => by simp [rrenames, rrename, childNodes_rename l]
  | .vals _ :: l => by simp [rrenames, rrename, childNodes_rename l]

theorem coerce_rename (k : Kind) (conv : F → F) (v : Val F) : coerce k conv (v.rename ρ) = (coerce k conv v).map (Val.rename ρ) := by
  cases v with
  | refs l =>
    have hs : ∀ o : Option Nat, nodeStr (o.map ρ) = nodeStr o := fun o => by cases o <;> rfl
    cases k <;> simp only [Val.rename, coerce, Option.map_some, Option.map_none]
    case sfBool => cases l <;> rfl
    case mfString => simp [hs]
    all_goals match l with
    | [] => rfl
    | [o] => cases o <;> rfl
    | _ :: _ :: _ => rfl
  | ref o => cases k <;> simp only [Val.rename, coerce, Option.map_some, Option.map_none] <;> (cases o <;> rfl)
  | nums l => cases k <;> simp only [Val.rename, coerce, Option.map_none] <;> (try split) <;> simp [Val.rename]
  | rows l => cases k <;> simp only [Val.rename, coerce, Option.map_none] <;> (try split) <;> simp [Val.rename]
  | _ => simp only [Val.rename, coerce]; split <;> simp [Val.rename]

theorem val_plain {v : Val F} (h : v.nodes = []) : v.rename ρ = v := by
  cases v with
  | ref o => cases o with | none => rfl | some i => simp [Val.nodes] at h
  | refs l =>
    simp only [Val.nodes] at h
    simp only [Val.rename, Val.refs.injEq]
    induction l with
    | nil => rfl
    | cons o l ih =>
      cases o with
      | none => simp only [List.map_cons, Option.map_none, ih (by simpa using h)]
      | some i => simp at h
  | _ => rfl

theorem val_congr {ρ ρ' : Nat → Nat} {v : Val F} (h : ∀ j ∈ v.nodes, ρ j = ρ' j) : v.rename ρ = v.rename ρ' := by
  cases v with
  | ref o => cases o with | none => rfl | some i => simp only [Val.rename, Option.map_some]; rw [h i (by simp [Val.nodes])]
  | refs l =>
    simp only [Val.rename, Val.refs.injEq]
    refine List.map_congr_left (fun o ho => ?_)
    cases o with
    | none => rfl
    | some i => simp only [Option.map_some]; rw [h i (by simp [Val.nodes]; exact ho)]
  | _ => rfl

theorem value_rename (d : Dflt F) : (d.rename ρ).value = d.value.map (Val.rename ρ) := by cases d <;> rfl

theorem dflt_plain {d : Dflt F} (h : ∀ v, d.value = some v → v.nodes = []) : d.rename ρ = d := by
  cases d <;> simp only [Dflt.rename] <;> rw [val_plain ρ (h _ rfl)]

theorem dflt_congr {ρ ρ' : Nat → Nat} {d : Dflt F} (h : ∀ v, d.value = some v → ∀ j ∈ v.nodes, ρ j = ρ' j) : d.rename ρ = d.rename ρ' := by
  cases d <;> simp only [Dflt.rename] <;> rw [val_congr (h _ rfl)]

theorem dfltNodes_value {d : FieldDecl F} {v : Val F} (h : d.dflt.value = some v) : d.dfltNodes = v.nodes := by simp [FieldDecl.dfltNodes, h]

theorem field_plain {d : FieldDecl F} (h : d.dfltNodes = []) : d.rename ρ = d := by
  simp only [FieldDecl.rename]
  rw [dflt_plain ρ (fun v hv => by rw [← dfltNodes_value hv]; exact h)]

theorem class_plain {c : Class F} (h : ∀ d ∈ c.fields, d.dfltNodes = []) : c.rename ρ = c := by
  have : c.fields.map (FieldDecl.rename ρ) = c.fields := by
    conv => rhs; rw [← List.map_id c.fields]
    exact List.map_congr_left (fun d hd => field_plain ρ (h d hd))
  simp only [Class.rename, this]

theorem class_congr {ρ ρ' : Nat → Nat} {c : Class F} (h : ∀ d ∈ c.fields, ∀ j ∈ d.dfltNodes, ρ j = ρ' j) : c.rename ρ = c.rename ρ' := by
  have : c.fields.map (FieldDecl.rename ρ) = c.fields.map (FieldDecl.rename ρ') := by
    refine List.map_congr_left (fun d hd => ?_)
    simp only [FieldDecl.rename]
    rw [dflt_congr (fun v hv j hj => h d hd j (by rw [dfltNodes_value hv]; exact hj))]
  simp only [Class.rename, this]

/-- renumbering a field, leaving events alone -/
def prename (ρ : Nat → Nat) : FieldDecl F ⊕ EventDecl → FieldDecl F ⊕ EventDecl
  | .inl d => .inl (d.rename ρ)
  | .inr e => .inr e

theorem resolveName_map {α β : Type} (f : α → β) (k : Text → Option α) (k' : Text → Option β) (h : ∀ nm, k' nm = (k nm).map f) :
    ∀ (N : Nat) (nm : Text), nm.length < N → resolveName k' nm = (resolveName k nm).map f
  | 0, nm, hn => by omega
  | N + 1, nm, hn => by
    rw [resolveName.eq_def k', resolveName.eq_def k, h nm]
    cases hk : k nm with
    | some a => rfl
    | none =>
      simp only [Option.map_none]
      split
      · next h1 =>
        obtain ⟨t, rfl⟩ := List.isPrefixOf_iff_prefix.mp h1
        exact resolveName_map f k k' h N _ (by simp at hn ⊢; omega)
      · split
        · next h1 =>
          obtain ⟨t, rfl⟩ := List.isSuffixOf_iff_suffix.mp h1
          exact resolveName_map f k k' h N _ (by simp at hn ⊢; omega)
        · rfl

theorem port_rename (c : Class F) (nm : Text) : (c.rename ρ).port nm = (c.port nm).map (prename ρ) := by
  simp only [Class.port, Class.rename]
  cases c.events.find? (fun e => e.name == nm) with
  | some e => rfl
  | none =>
    simp only [List.find?_map, Option.map_map]
    have : (fun d : FieldDecl F => d.name == nm) ∘ FieldDecl.rename ρ = fun d => d.name == nm := rfl
    rw [this]
    rfl

theorem getField_rename (c : Class F) (nm : Text) : (c.rename ρ).getField nm = (c.getField nm).map (prename ρ) :=
  resolveName_map (prename ρ) _ _ (port_rename ρ c) _ nm (Nat.lt_succ_self _)

theorem isAppend_rename (nm : Text) (i : Nat) (f : Text) : ∀ l, isAppend nm (ρ i, f) (renameIs ρ l) = renameIs ρ (isAppend nm (i, f) l)
  | [] => rfl
  | (k, l) :: d => by
    simp only [renameIs, List.map_cons, isAppend]
    split
    · simp
    · simp only [List.map_cons, List.cons.injEq, true_and]
      exact isAppend_rename nm i f d

/-- an interface renumbered (without body) -/
def drename (ρ : Nat → Nat) (p : ProtoDef F) : ProtoDef F := { p with fields := p.fields.map (fun f => { f with decl := f.decl.rename ρ }) }

theorem drename_addField (p : ProtoDef F) (f : PField F) : drename ρ (p.addField f) = (drename ρ p).addField { f with decl := f.decl.rename ρ } := by
  simp only [drename, ProtoDef.addField, List.map_append, List.map_cons, List.map_nil, List.filter_map]
  rfl

theorem drename_addEvent (p : ProtoDef F) (e : EventDecl) : drename ρ (p.addEvent e) = (drename ρ p).addEvent e := by
  simp only [drename, ProtoDef.addEvent, List.filter_map]
  rfl

theorem drename_cls {p : ProtoDef F} (h : p.body = none) : (drename ρ p).cls = p.cls.rename ρ := by
  simp only [ProtoDef.cls, drename, Class.rename, mapped_nil h, List.map_map, Class.mk.injEq, true_and, and_true]
  refine ⟨rfl, mapped_nil h, ?_⟩
  simp only [List.filter_map, List.map_map]; rfl

theorem drename_script : drename ρ (scriptProto : ProtoDef F) = scriptProto := rfl

theorem dfltOf_rename (v : Val F) : dfltOf (v.rename ρ) = (dfltOf v).rename ρ := by
  cases v with
  | ref o => cases o <;> rfl
  | _ => rfl

theorem getField_name {c : Class F} {nm : Text} {d : FieldDecl F} (h : c.getField nm = some (.inl d)) : c.port d.name = some (.inl d) := by
  obtain ⟨nm', h'⟩ := resolveName_known c.port _ nm _ (Nat.lt_succ_self _) h
  have : d.name = nm' := by
    simp only [Class.port] at h'
    split at h'
    · cases h'
    · obtain ⟨d', h1, h2⟩ := Option.map_eq_some_iff.1 h'
      cases h2
      simpa using List.find?_some h1
  rw [this]; exact h'

theorem getField_event {c : Class F} {nm : Text} {e : EventDecl} (h : c.getField nm = some (.inr e)) : c.port e.name = some (.inr e) := by
  obtain ⟨nm', h'⟩ := resolveName_known c.port _ nm _ (Nat.lt_succ_self _) h
  have : e.name = nm' := by
    simp only [Class.port] at h'
    split at h'
    · next e' he => cases h'; simpa using List.find?_some he
    · obtain ⟨d', h1, h2⟩ := Option.map_eq_some_iff.1 h'
      cases h2
  rw [this]; exact h'

end Verif.Full
