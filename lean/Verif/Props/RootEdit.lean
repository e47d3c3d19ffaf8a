import Verif.Model.RootEdit
import Verif.Props.Scene
/-
C85: nodes that are put into a scene get its root scene graph.
-/
namespace Verif.Scene
variable {N : Type} [DecidableEq N]

/-- `x` stands in a node field of `c`. -/
def Graph.Holds (g : Graph N) (c x : Nat) : Prop := ∃ f ∈ g.fields c, x ∈ f.nodes

/-- Every node that stands in a field of a node with a root has a root. -/
def Graph.Rooted (null : Nat) (g : Graph N) : Prop :=
  ∀ c x, g.Holds c x → x ≠ null → g.st.root c ≠ none → g.st.root x ≠ none

/-- The node the assignment changes, and the nodes it puts there. -/
def Assign.at : Assign → Nat
  | .sf c _ _ => c
  | .mf c _ _ => c
  | .raw c _ _ => c

def Assign.value : Assign → FieldVal
  | .sf _ _ x => .sf x
  | .mf _ _ xs => .mf xs
  | .raw _ _ v => v

def Assign.field : Assign → Nat
  | .sf _ k _ => k
  | .mf _ k _ => k
  | .raw _ k _ => k

/-- it goes through `fset` -/
def Assign.isFset : Assign → Prop
  | .raw _ _ _ => False
  | _ => True

theorem reach_trans {fields : Nat → List FieldVal} {a b c : Nat} (h : Reach fields a b) (h' : Reach fields b c) : Reach fields a c := by
  induction h with
  | refl => exact h'
  | step h1 h2 _ ih => exact .step h1 h2 (ih h')

/-- what giving a root to some nodes does -/
structure Given (fields : Nat → List FieldVal) (sg : Nat) (s s' : RootSt N) (xs : List Nat) : Prop where
  rooted : ∀ x ∈ xs, s'.root x ≠ none
  kept : ∀ y, s.root y ≠ none → s'.root y ≠ none
  new : ∀ y, s'.root y ≠ s.root y → s'.root y = some sg ∧ ∃ x ∈ xs, s.root x = none ∧ Reach fields x y ∧ ∀ z, Reach fields y z → s'.root z ≠ none

theorem giveRoot_given {fields : Nat → List FieldVal} {sg fuel : Nat} {s s' : RootSt N} {x : Nat} (h : giveRoot fields sg fuel s x = some s') :
    Given fields sg s s' [x] := by
  unfold giveRoot at h
  split at h
  · rename_i r hr
    cases h
    exact ⟨by simp [hr], fun _ h => h, fun y h => absurd rfl h⟩
  · rename_i hr
    obtain ⟨h1, h2, -⟩ := C54_root_propagation fields sg fuel s s' x h
    refine ⟨?_, ?_, ?_⟩
    · simp [h1 x (.refl x)]
    · intro y hy
      by_cases hR : Reach fields x y
      · simp [h1 y hR]
      · rwa [h2 y hR]
    · intro y hy
      by_cases hR : Reach fields x y
      · exact ⟨h1 y hR, x, by simp, hr, hR, fun z hz => by simp [h1 z (reach_trans hR hz)]⟩
      · exact absurd (h2 y hR) hy

theorem giveRoots_given {fields : Nat → List FieldVal} {sg fuel : Nat} : ∀ {xs : List Nat} {s s' : RootSt N},
    xs.foldlM (giveRoot fields sg fuel) s = some s' → Given fields sg s s' xs
  | [], s, s', h => by
    simp only [List.foldlM_nil, Option.pure_def, Option.some.injEq] at h
    subst h
    exact ⟨by simp, fun _ h => h, fun y h => absurd rfl h⟩
  | x :: xs, s, s', h => by
    simp only [List.foldlM_cons, Option.bind_eq_bind, Option.bind_eq_some_iff] at h
    obtain ⟨s1, h1, h2⟩ := h
    have g1 := giveRoot_given h1
    have g2 := giveRoots_given h2
    refine ⟨?_, fun y hy => g2.kept y (g1.kept y hy), ?_⟩
    · intro y hy
      rcases List.mem_cons.mp hy with rfl | hy
      · exact g2.kept _ (g1.rooted _ (by simp))
      · exact g2.rooted y hy
    · intro y hy
      by_cases e : s'.root y = s1.root y
      · obtain ⟨e1, x', hx', h0, hR, hz⟩ := g1.new y (by rw [← e]; exact hy)
        exact ⟨by rw [e, e1], x', List.mem_cons.mpr (.inl (by simpa using hx')), h0, hR, fun z hzz => g2.kept z (hz z hzz)⟩
      · obtain ⟨e1, x', hx', h0, hR, hz⟩ := g2.new y e
        refine ⟨e1, x', List.mem_cons_of_mem _ hx', ?_, hR, hz⟩
        cases hr : s.root x' with
        | none => rfl
        | some r => exact absurd h0 (g1.kept x' (by simp [hr]))

theorem holds_edit {g : Graph N} {c k : Nat} {v : FieldVal} {n x : Nat} (h : (g.edit c k v).Holds n x) :
    g.Holds n x ∨ (n = c ∧ x ∈ v.nodes) := by
  obtain ⟨f, hf, hx⟩ := h
  simp only [Graph.edit] at hf
  split at hf
  · rename_i e
    rcases List.mem_or_eq_of_mem_set hf with h1 | rfl
    · exact .inl ⟨f, e ▸ h1, hx⟩
    · exact .inr ⟨e, hx⟩
  · exact .inl ⟨f, hf, hx⟩

/-- the assigned node, and what it does to the roots -/
theorem assign_given {null fuel : Nat} {g g' : Graph N} {a : Assign} (h : g.assign null fuel a = some g') :
    g'.fields = (g.edit a.at a.field a.value).fields ∧
    ((g'.st = g.st ∧ (a.isFset → g.st.root a.at = none ∨ a.value = .sf null)) ∨
      ∃ sg, g.st.root a.at = some sg ∧ a.isFset ∧ Given g'.fields sg g.st g'.st a.value.nodes) := by
  cases a with
  | raw c k v => simp only [Graph.assign, Option.some.injEq] at h; subst h; exact ⟨rfl, .inl ⟨rfl, fun h => h.elim⟩⟩
  | sf c k x =>
    simp only [Graph.assign] at h
    split at h
    · rename_i e
      cases h
      exact ⟨rfl, .inl ⟨rfl, fun _ => .inr (by simp [Assign.value, e])⟩⟩
    · split at h
      · rename_i e
        cases h
        exact ⟨rfl, .inl ⟨rfl, fun _ => .inl e⟩⟩
      · rename_i sg e
        obtain ⟨s', hs, rfl⟩ := Option.map_eq_some_iff.mp h
        exact ⟨rfl, .inr ⟨sg, e, trivial, giveRoot_given hs⟩⟩
  | mf c k xs =>
    simp only [Graph.assign] at h
    split at h
    · rename_i e
      cases h
      exact ⟨rfl, .inl ⟨rfl, fun _ => .inl e⟩⟩
    · rename_i sg e
      obtain ⟨s', hs, rfl⟩ := Option.map_eq_some_iff.mp h
      exact ⟨rfl, .inr ⟨sg, e, trivial, giveRoots_given hs⟩⟩

theorem assign_rooted {null fuel : Nat} {g g' : Graph N} {a : Assign} (hr : g.Rooted null) (hf : a.isFset)
    (h : g.assign null fuel a = some g') : g'.Rooted null := by
  obtain ⟨hfl, hc⟩ := assign_given h
  intro n x hh hx hn
  have hh' : (g.edit a.at a.field a.value).Holds n x := by
    obtain ⟨f, h1, h2⟩ := hh
    exact ⟨f, hfl ▸ h1, h2⟩
  rcases hc with ⟨hst, hcase⟩ | ⟨sg, hsg, -, hG⟩
  · rw [hst] at hn ⊢
    rcases holds_edit hh' with h1 | ⟨rfl, h1⟩
    · exact hr n x h1 hx hn
    · rcases hcase hf with h2 | h2
      · exact absurd h2 hn
      · rw [h2] at h1
        simp only [FieldVal.nodes, List.mem_singleton] at h1
        exact absurd h1 hx
  · by_cases e : g'.st.root n = g.st.root n
    · rcases holds_edit hh' with h1 | ⟨rfl, h1⟩
      · exact hG.kept x (hr n x h1 hx (e ▸ hn))
      · exact hG.rooted x h1
    · obtain ⟨-, -, -, -, -, hz⟩ := hG.new n e
      obtain ⟨f, h1, h2⟩ := hh
      exact hz x (.step h1 h2 (.refl x))

/-- **C85** However a graph is built through `fset` (and the constructor and the parser), in whatever order: every node that stands in a field of a node with a root scene graph has a root scene graph. -/
theorem C85_rooted (null fuel : Nat) (g : Graph N) (h0 : g.Rooted null) (l : List Assign) (hl : ∀ a ∈ l, a.isFset) (g' : Graph N)
    (h : g.assigns null fuel l = some g') : g'.Rooted null := by
  induction l generalizing g with
  | nil => simp only [Graph.assigns, List.foldlM_nil, Option.pure_def, Option.some.injEq] at h; subst h; exact h0
  | cons a l ih =>
    simp only [Graph.assigns, List.foldlM_cons, Option.bind_eq_bind, Option.bind_eq_some_iff] at h
    obtain ⟨g1, h1, h2⟩ := h
    exact ih g1 (assign_rooted h0 (hl a (by simp)) h1) (fun b hb => hl b (by simp [hb])) h2

/-- **C85** One assignment: only nodes at or below a node put in that had no root change their root, they get the root of the
node assigned to, and all of them do; a node put in that has a root keeps it unless it also stands below one that had none. -/
theorem C85_changes (null fuel : Nat) (g g' : Graph N) (a : Assign) (h : g.assign null fuel a = some g') :
    (∀ y, g'.st.root y ≠ g.st.root y →
      a.isFset ∧ g'.st.root y = g.st.root a.at ∧ ∃ x ∈ a.value.nodes, g.st.root x = none ∧ Reach g'.fields x y) ∧
    (a.isFset → g.st.root a.at ≠ none → ∀ x ∈ a.value.nodes, x ≠ null → g'.st.root x ≠ none) ∧
    (∀ c x k, a = .sf c k x → x ≠ null → g.st.root c ≠ none → g.st.root x = none → ∀ y, Reach g'.fields x y → g'.st.root y = g.st.root c) := by
  obtain ⟨hfl, hc⟩ := assign_given h
  refine ⟨?_, ?_, ?_⟩
  · intro y hy
    rcases hc with ⟨hst, -⟩ | ⟨sg, hsg, hf, hG⟩
    · exact absurd (by rw [hst]) hy
    · obtain ⟨e1, x, hx, h0, hR, -⟩ := hG.new y hy
      exact ⟨hf, by rw [e1, hsg], x, hx, h0, hR⟩
  · intro hf hn x hx hnull
    rcases hc with ⟨hst, hcase⟩ | ⟨sg, hsg, -, hG⟩
    · rcases hcase hf with h1 | h1
      · exact absurd h1 hn
      · rw [h1] at hx
        simp only [FieldVal.nodes, List.mem_singleton] at hx
        exact absurd hx hnull
    · exact hG.rooted x hx
  · rintro c x k rfl hnull hn h0 y hR
    simp only [Graph.assign, if_neg hnull] at h
    split at h
    · rename_i e
      exact absurd e hn
    · rename_i sg e
      obtain ⟨s', hs, rfl⟩ := Option.map_eq_some_iff.mp h
      have e' : g.st.root c = some sg := e
      rw [e']
      unfold giveRoot at hs
      have e0 : (g.edit c k (.sf x)).st.root x = none := h0
      rw [e0] at hs
      exact (C54_root_propagation _ _ _ _ _ _ hs).1 y hR

/-- **C85** In a graph without cycles every assignment completes. -/
theorem C85_completes (null : Nat) (g : Graph N) (a : Assign) (rank : Nat → Nat)
    (hr : ∀ c f y, f ∈ (g.edit a.at a.field a.value).fields c → y ∈ f.nodes → rank y < rank c) :
    ∃ fuel g', g.assign null fuel a = some g' := by
  have main : ∀ (fields : Nat → List FieldVal) (sg : Nat), (∀ c f y, f ∈ fields c → y ∈ f.nodes → rank y < rank c) →
      ∀ (xs : List Nat) (m : Nat), (∀ x ∈ xs, rank x < m) → ∀ s : RootSt N, ∃ s', xs.foldlM (giveRoot fields sg m) s = some s' := by
    intro fields sg hr xs m
    have one : ∀ x, rank x < m → ∀ s : RootSt N, ∃ s', rootSet fields sg m s x = some s' := by
      intro x hx s
      exact rootSet_completes fields sg rank hr m s x hx
    induction xs with
    | nil => intro _ s; exact ⟨s, rfl⟩
    | cons x xs ih =>
      intro hm s
      have : ∃ s1, giveRoot fields sg m s x = some s1 := by
        unfold giveRoot
        split
        · exact ⟨s, rfl⟩
        · exact one x (hm x (by simp)) s
      obtain ⟨s1, h1⟩ := this
      obtain ⟨s2, h2⟩ := ih (fun y hy => hm y (by simp [hy])) s1
      exact ⟨s2, by simp [List.foldlM_cons, h1, h2]⟩
  have bound : ∀ l : List Nat, ∃ m, ∀ x ∈ l, rank x < m := by
    intro l
    induction l with
    | nil => exact ⟨0, by simp⟩
    | cons x l ih =>
      obtain ⟨m, hm⟩ := ih
      exact ⟨max m (rank x + 1), by
        intro y hy
        rcases List.mem_cons.mp hy with rfl | hy
        · omega
        · have := hm y hy; omega⟩
  cases a with
  | raw c k v => exact ⟨0, _, rfl⟩
  | sf c k x =>
    by_cases hx : x = null
    · exact ⟨0, g.edit c k (.sf x), by simp only [Graph.assign, if_pos hx]⟩
    · cases e : (g.edit c k (.sf x)).st.root c with
      | none => exact ⟨0, g.edit c k (.sf x), by simp only [Graph.assign, if_neg hx, e]⟩
      | some sg =>
        obtain ⟨s', hs⟩ := main (g.edit c k (.sf x)).fields sg hr [x] (rank x + 1) (by simp) (g.edit c k (.sf x)).st
        simp only [List.foldlM_cons, List.foldlM_nil, Option.bind_eq_bind, Option.pure_def, Option.bind_eq_some_iff] at hs
        obtain ⟨s1, hs, -⟩ := hs
        exact ⟨rank x + 1, { g.edit c k (.sf x) with st := s1 }, by simp only [Graph.assign, if_neg hx, e, hs, Option.map_some]⟩
  | mf c k xs =>
    cases e : (g.edit c k (.mf xs)).st.root c with
    | none => exact ⟨0, g.edit c k (.mf xs), by simp only [Graph.assign, e]⟩
    | some sg =>
      obtain ⟨m, hm⟩ := bound xs
      obtain ⟨s', hs⟩ := main (g.edit c k (.mf xs)).fields sg hr xs m hm (g.edit c k (.mf xs)).st
      exact ⟨m, { g.edit c k (.mf xs) with st := s' }, by simp only [Graph.assign, e, hs, Option.map_some]⟩

/-- Nodes 1, 2, ... with one child list each; node 0 is NULL, node 1 has the root 9, node 3 has the root 8 and stands below node 2,
which has none. -/
def exGraph : Graph Nat :=
  ⟨fun n => if n = 2 then [.deff, .mf [3]] else [.deff, .mf []], ⟨fun n => if n = 1 then some 9 else if n = 3 then some 8 else none,
    ⟨fun n => n, fun _ => []⟩⟩⟩

/-- **C85** "Only updates root if there is no current root" holds for the node put in, not for the nodes below it: node 3 had a
root and gets another one. -/
theorem C85_refuted_current_root_kept : ∃ g', exGraph.assign 0 5 (.mf 1 1 [2]) = some g' ∧
    exGraph.st.root 3 = some 8 ∧ g'.st.root 3 = some 9 ∧ g'.st.root 2 = some 9 := by
  have h : (exGraph.assign 0 5 (.mf 1 1 [2])).map (fun g => (g.st.root 3, g.st.root 2)) = some (some 9, some 9) := by
    simp [exGraph, Graph.assign, Graph.edit, giveRoot, rootSet, rootFields, rootChildren]
  obtain ⟨g', h1, h2⟩ := Option.map_eq_some_iff.mp h
  simp only [Prod.mk.injEq] at h2
  exact ⟨g', h1, rfl, h2.1, h2.2⟩

/-- **C85** A node appended to a child list, or assigned as an attribute (`c.field = x`), gets no root. -/
theorem C85_refuted_append (null fuel : Nat) (g : Graph N) (c k : Nat) (v : FieldVal) :
    ∃ g', g.assign null fuel (.raw c k v) = some g' ∧ ∀ y, g'.st.root y = g.st.root y := ⟨_, rfl, fun _ => rfl⟩

/-- **C85** Every assignment stores the value in the field, and changes no other field of any node. -/
theorem C85_stores (null fuel : Nat) (g g' : Graph N) (a : Assign) (h : g.assign null fuel a = some g') :
    (a.field < (g.fields a.at).length → (g'.fields a.at)[a.field]? = some a.value) ∧ (∀ k, k ≠ a.field → (g'.fields a.at)[k]? = (g.fields a.at)[k]?) ∧ ∀ c, c ≠ a.at → g'.fields c = g.fields c := by
  obtain ⟨hfl, -⟩ := assign_given h
  rw [hfl]
  refine ⟨fun hk => ?_, fun k hk => ?_, fun c hc => if_neg hc⟩
  · show (if a.at = a.at then (g.fields a.at).set a.field a.value else _)[a.field]? = _
    rw [if_pos rfl, List.getElem?_set_self hk]
  · show (if a.at = a.at then (g.fields a.at).set a.field a.value else _)[k]? = _
    rw [if_pos rfl, List.getElem?_set_ne (Ne.symm hk)]

/-- A new scene graph, number 1, and new nodes. -/
def exNew : Graph Nat := ⟨fun _ => [.deff, .mf []], ⟨fun n => if n = 1 then some 1 else none, ⟨fun n => n, fun _ => []⟩⟩⟩

/-- The hypotheses of `C85_rooted`: a scene put together from below. -/
example : exNew.Rooted 0 ∧ ∃ g', exNew.assigns 0 9 [.mf 3 1 [4, 5], .mf 2 1 [3], .mf 1 1 [2, 6]] = some g' ∧
    g'.st.root 5 = some 1 ∧ g'.st.root 6 = some 1 := by
  constructor
  · rintro c x ⟨f, hf, hx⟩
    simp only [exNew, List.mem_cons, List.not_mem_nil, or_false] at hf
    rcases hf with rfl | rfl <;> simp [FieldVal.nodes] at hx
  · have h : (exNew.assigns 0 9 [.mf 3 1 [4, 5], .mf 2 1 [3], .mf 1 1 [2, 6]]).map (fun g => (g.st.root 5, g.st.root 6)) =
        some (some 1, some 1) := by
      simp [exNew, Graph.assigns, Graph.assign, Graph.edit, giveRoot, rootSet, rootFields, rootChildren]
    obtain ⟨g', h1, h2⟩ := Option.map_eq_some_iff.mp h
    simp only [Prod.mk.injEq] at h2
    exact ⟨g', h1, h2.1, h2.2⟩

end Verif.Scene
