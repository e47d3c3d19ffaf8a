import Verif.Model.ParseVal
import Verif.Model.Grammar
/-!
Which productions occur inside which: the shape of parse trees.
-/
namespace Verif.Shape
open Verif.Peg Verif.Grammar Verif.ParseVal

/-- the sequences of productions that an expression can report -/
def Tags : E → List NT → Prop
  | .eps, l => l = []
  | .lit _, l => l = []
  | .cls _, l => l = []
  | .seq a b, l => ∃ l1 l2, l = l1 ++ l2 ∧ Tags a l1 ∧ Tags b l2
  | .alt a b, l => Tags a l ∨ Tags b l
  | .star a, l => ∃ ls : List (List NT), l = ls.flatten ∧ ∀ x ∈ ls, Tags a x
  | .nt n, l => l = [n]
  | .silent n, l => n = .ts → l = []
  | .cut a, l => Tags a l
  | .eof, l => l = []

theorem flat_nil {ls : List (List NT)} (h : ∀ x ∈ ls, x = []) : ls.flatten = [] := by
  simpa using h

/-- blanks and comments are not reported -/
theorem ts_tags {l : List NT} (h : Tags (gram .ts) l) : l = [] := by
  obtain ⟨ls, rfl, h⟩ := h
  refine flat_nil (fun x hx => ?_)
  rcases h x hx with h | h
  · obtain ⟨l1, l2, rfl, h1, ls, rfl, h2⟩ := h
    rw [h1, flat_nil h2]; rfl
  · have key : ∀ y, Tags (.seqs [kw "#", .star (.cls notNl), kw "\n"]) y → y = [] := by
      rintro y ⟨l1, l2, rfl, h1, l3, l4, rfl, ⟨ls, rfl, h2⟩, h3⟩
      rw [h1, flat_nil h2, h3]; rfl
    obtain ⟨l1, l2, rfl, h1, ls, rfl, h2⟩ := h
    rw [key l1 h1, flat_nil (fun y hy => key y (h2 y hy))]; rfl

mutual
/-- every entry of the tree has the entries that its production reports -/
def Shaped : Tree NT → Prop
  | .node n _ k => Tags (gram n) (k.map Tree.tag) ∧ Shapeds k
def Shapeds : List (Tree NT) → Prop
  | [] => True
  | t :: l => Shaped t ∧ Shapeds l
end

theorem Shapeds_append {a b : List (Tree NT)} : Shapeds (a ++ b) ↔ Shapeds a ∧ Shapeds b := by
  induction a with
  | nil => simp [Shapeds]
  | cons t a ih => simp [Shapeds, ih, and_assoc]

theorem Shapeds_mem {l : List (Tree NT)} (h : Shapeds l) : ∀ t ∈ l, Shaped t := by
  induction l with
  | nil => simp
  | cons t l ih =>
    intro x hx
    rcases List.mem_cons.1 hx with rfl | hx
    · exact h.1
    · exact ih h.2 x hx

theorem der_shape {e i o} (h : Der gram e i o) : ∀ t m r, o = .ok t m r → Tags e (t.map Tree.tag) ∧ Shapeds t := by
  induction h with
  | seq _ _ ih1 ih2 =>
    intro t m r ho; cases ho
    obtain ⟨a1, a2⟩ := ih1 _ _ _ rfl
    obtain ⟨b1, b2⟩ := ih2 _ _ _ rfl
    exact ⟨⟨_, _, List.map_append, a1, b1⟩, Shapeds_append.2 ⟨a2, b2⟩⟩
  | altL _ ih => intro t m r ho; cases ho; exact ⟨.inl (ih _ _ _ rfl).1, (ih _ _ _ rfl).2⟩
  | altR _ _ _ ih => intro t m r ho; exact ⟨.inr (ih _ _ _ ho).1, (ih _ _ _ ho).2⟩
  | starCons _ _ _ ih1 ih2 =>
    intro t m r ho; cases ho
    obtain ⟨a1, a2⟩ := ih1 _ _ _ rfl
    obtain ⟨⟨ls, e, b1⟩, b2⟩ := ih2 _ _ _ rfl
    refine ⟨⟨_ :: ls, by rw [List.map_append, e]; rfl, fun x hx => ?_⟩, Shapeds_append.2 ⟨a2, b2⟩⟩
    rcases List.mem_cons.1 hx with rfl | hx
    · exact a1
    · exact b1 x hx
  | starNil _ _ => intro t m r ho; cases ho; exact ⟨⟨[], rfl, by simp⟩, trivial⟩
  | nt h ih =>
    intro t m r ho
    cases ho
    exact ⟨rfl, ih _ _ _ rfl, trivial⟩
  | silent _ ih =>
    intro t m r ho; cases ho
    refine ⟨?_, (ih _ _ _ rfl).2⟩
    rintro rfl
    exact ts_tags (ih _ _ _ rfl).1
  | cut _ ih => intro t m r ho; cases ho; exact ih _ _ _ rfl
  | eps | lit _ _ | cls _ | eof => intro t m r ho; cases ho; exact ⟨rfl, trivial⟩
  | _ => intro t m r ho; cases ho

/-! ### The single productions -/

section
variable {k : List NT}

theorem ws_tags {l : List NT} (h : Tags ws l) : l = [] := h rfl

theorem attr_tags (h : Tags (gram .attr) k) : k = [.name, .is] ∨ k = [.name, .field] := by
  simp only [gram, Exp.seqs, isGroup, Tags, ws, true_imp_iff] at h
  obtain ⟨_, _, rfl, rfl, _, _, rfl, rfl, _, _, rfl, h | h, rfl⟩ := h
  · obtain ⟨_, _, rfl, rfl, _, _, rfl, rfl, _, _, rfl, rfl, rfl⟩ := h
    left; rfl
  · subst h; right; rfl

/-- what stands in a field -/
def fieldTag : NT → Bool
  | .vector | .sfNumber | .sfBool | .sfString | .use | .script | .node | .sfNull => true
  | _ => false

theorem item_tags {l : List NT} (h : Tags (.seq fieldItem ws) l) : ∀ n ∈ l, fieldTag n = true := by
  simp only [fieldItem, Exp.alts, useGroup, Exp.seqs, Tags, ws, true_imp_iff] at h
  obtain ⟨_, _, rfl, h, rfl⟩ := h
  rcases h with h | h | h | h | h | h | h
  all_goals first
    | (subst h; simp [fieldTag])
    | (obtain ⟨_, _, rfl, rfl, _, _, rfl, rfl, _, _, rfl, rfl, rfl⟩ := h; simp [fieldTag])

theorem item1_tags {l : List NT} (h : Tags (.seq fieldItem1 ws) l) : ∀ n ∈ l, fieldTag n = true := by
  simp only [fieldItem1, Exp.alts, useGroup, Exp.seqs, Tags, ws, true_imp_iff] at h
  obtain ⟨_, _, rfl, h, rfl⟩ := h
  rcases h with h | h | h | h | h | h | h
  all_goals first
    | (subst h; simp [fieldTag])
    | (obtain ⟨_, _, rfl, rfl, _, _, rfl, rfl, _, _, rfl, rfl, rfl⟩ := h; simp [fieldTag])

theorem flat_tags {P : NT → Prop} {ls : List (List NT)} (h : ∀ x ∈ ls, ∀ n ∈ x, P n) : ∀ n ∈ ls.flatten, P n := by
  intro n hn
  obtain ⟨x, hx, hn⟩ := List.mem_flatten.1 hn
  exact h x hx n hn

theorem field_tags (h : Tags (gram .field) k) : ∀ n ∈ k, fieldTag n = true := by
  rcases h with h | h
  · obtain ⟨_, _, rfl, rfl, _, _, rfl, h1, _, _, rfl, ⟨ls, rfl, h2⟩, _, _, rfl, h3, h4⟩ := h
    rw [ws_tags h1, show _ = [] from h3, ws_tags h4]
    simpa using flat_tags (fun x hx => item_tags (h2 x hx))
  · obtain ⟨_, _, rfl, h1, ls, rfl, h2⟩ := h
    intro n hn
    rcases List.mem_append.1 hn with hn | hn
    · exact item1_tags h1 n hn
    · exact flat_tags (fun x hx => item1_tags (h2 x hx)) n hn

/-- what stands at the top of a file or of the body of a PROTO -/
def rootTag : NT → Bool
  | .proto | .externProto | .route | .use | .script | .node => true
  | _ => false

theorem rootItem_tags (h : Tags (gram .rootItem) k) : ∃ n, k = [n] ∧ rootTag n = true := by
  simp only [gram, Exp.seqs, Exp.alts, useGroup, Tags, ws, true_imp_iff] at h
  obtain ⟨_, _, rfl, rfl, _, _, rfl, h, rfl⟩ := h
  rcases h with h | h | h | h | h | h
  all_goals first
    | (subst h; exact ⟨_, rfl, rfl⟩)
    | (obtain ⟨_, _, rfl, rfl, _, _, rfl, rfl, _, _, rfl, rfl, rfl⟩ := h; exact ⟨_, rfl, rfl⟩)

theorem scene_tags (h : Tags (gram .vrmlScene) k) : ∀ n ∈ k, n = .rootItem := by
  obtain ⟨ls, rfl, h⟩ := h
  refine flat_tags (fun x hx n hn => ?_)
  rw [show x = [.rootItem] from h x hx] at hn
  simpa using hn

theorem fieldDecl_tags (h : Tags (gram .fieldDecl) k) : k = [.fieldExposure, .dataType, .name, .field] := by
  simp only [gram, Exp.seqs, afterCut, List.map_cons, List.map_nil, List.cons_append, List.nil_append, Tags, ws, true_imp_iff] at h
  obtain ⟨_, _, rfl, rfl, _, _, rfl, rfl, _, _, rfl, rfl, _, _, rfl, rfl, _, _, rfl, rfl, _, _, rfl, rfl, _, _, rfl, rfl, rfl⟩ := h
  rfl

theorem scriptFieldDecl_tags (h : Tags (gram .scriptFieldDecl) k) : k = [.fieldExposure, .dataType, .name, .is] ∨ k = [.fieldExposure, .dataType, .name, .field] := by
  simp only [gram, Exp.seqs, isGroupCut, afterCut, List.map_cons, List.map_nil, List.cons_append, List.nil_append, Tags, ws, true_imp_iff] at h
  obtain ⟨_, _, rfl, rfl, _, _, rfl, rfl, _, _, rfl, rfl, _, _, rfl, rfl, _, _, rfl, rfl, _, _, rfl, rfl, _, _, rfl, h | h, rfl⟩ := h
  · obtain ⟨_, _, rfl, rfl, _, _, rfl, rfl, _, _, rfl, rfl, rfl⟩ := h
    left; rfl
  · subst h; right; rfl

/-- what stands inside the braces of a node -/
def nodeTag : NT → Bool
  | .proto | .externProto | .route | .attr => true
  | _ => false

theorem defGroup_tags {l : List NT} (h : Tags defGroup l) : l = [] ∨ l = [.name] := by
  simp only [defGroup, Exp.opt, Exp.seqs, afterCut, List.map_cons, List.map_nil, List.cons_append, List.nil_append, Tags, ws, true_imp_iff] at h
  rcases h with h | h
  · obtain ⟨_, _, rfl, rfl, _, _, rfl, rfl, _, _, rfl, rfl, rfl⟩ := h
    right; rfl
  · exact .inl h

theorem node_tags (h : Tags (gram .node) k) : ∃ d l, k = d ++ .nodegi :: l ∧ (d = [] ∨ d = [.name]) ∧ ∀ n ∈ l, nodeTag n = true := by
  obtain ⟨d, _, rfl, hd, _, _, rfl, rfl, _, _, rfl, h1, _, _, rfl, rfl, _, _, rfl, h2, _, _, rfl, ⟨ls, rfl, h3⟩, _, _, rfl, h4, _, _, rfl, h5, h6⟩ := h
  have h5' : _ = [] := h5
  have h6' : _ = [] := ws_tags h6
  refine ⟨d, ls.flatten, ?_, defGroup_tags hd, flat_tags (fun x hx n hn => ?_)⟩
  · rw [ws_tags h1, ws_tags h2, ws_tags h4, h5', h6']; simp
  · simp only [Exp.alts, Tags] at h3
    rcases h3 x hx with h | h | h | h <;> · subst h; simp at hn; subst hn; rfl

/-- what stands inside the braces of a Script -/
def scriptTag : NT → Bool
  | .scriptFieldDecl | .scriptEventDecl | .proto | .externProto | .route | .attr => true
  | _ => false

theorem script_tags (h : Tags (gram .script) k) : ∃ d l, k = d ++ l ∧ (d = [] ∨ d = [.name]) ∧ ∀ n ∈ l, scriptTag n = true := by
  obtain ⟨d, _, rfl, hd, _, _, rfl, rfl, _, _, rfl, h1, _, _, rfl, h0, _, _, rfl, h2, _, _, rfl, ⟨ls, rfl, h3⟩, _, _, rfl, h4, _, _, rfl, h5, h6⟩ := h
  have h0' : _ = [] := h0
  have h5' : _ = [] := h5
  have h6' : _ = [] := ws_tags h6
  have h2' : _ = [] := ws_tags h2
  have h4' : _ = [] := ws_tags h4
  refine ⟨d, ls.flatten, ?_, defGroup_tags hd, flat_tags (fun x hx n hn => ?_)⟩
  · rw [ws_tags h1, h2', h4', h5', h6', h0']; simp
  · simp only [Exp.alts, Tags] at h3
    rcases h3 x hx with h | h | h | h | h | h <;> · subst h; simp at hn; subst hn; rfl

end
end Verif.Shape
