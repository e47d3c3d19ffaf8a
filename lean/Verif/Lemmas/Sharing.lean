import Verif.Props.Content
/-!
Which nodes a file puts in several places: for C91.
-/
namespace Verif.Scopes
open Verif.Peg Verif.Grammar Verif.TextOut

/-- The nodes of a value. -/
def Given.nodes : Given → List Nat
  | .text _ => []
  | .one o => o.toList
  | .all l => l.filterMap id

/-- The nodes that a statement puts somewhere. -/
def Said.nodes : Said → List Nat
  | .value _ _ g => g.nodes
  | .child _ i => [i]
  | .dflt _ _ (some g) => g.nodes
  | .own _ _ (some g) => g.nodes
  | _ => []

/-- The nodes that statements put somewhere. -/
def held (l : List Said) : List Nat := l.flatMap Said.nodes

theorem held_append (l l' : List Said) : held (l ++ l') = held l ++ held l' := by simp [held]
theorem held_cons (e : Said) (l : List Said) : held (e :: l) = e.nodes ++ held l := by simp [held]

/-- Node `j` has a DEF name. -/
def NamedIn (s : Names) (j : Nat) : Prop := ∃ x, s.nodes[j]? = some x ∧ x.DEF ≠ []

/-- the DEF names in scopes are those of nodes -/
def Tidy (s : Names) : Prop := ∀ c ∈ s.around, ∀ nm i, c.defs.lookup nm = some i → NamedIn s i

/-- Between `s` and `s'`, the nodes `l` are put somewhere: new nodes once, old ones only if they have names. -/
structure Holding (s s' : Names) (l : List Nat) : Prop where
  nodes : s.nodes <+: s'.nodes
  named : ∀ j ∈ l, NamedIn s' j ∨ (s.nodes.length ≤ j ∧ j < s'.nodes.length)
  once : ∀ j, ¬ NamedIn s' j → l.count j ≤ 1
  tidy : Tidy s'

theorem NamedIn.mono {s s' : Names} (h : s.nodes <+: s'.nodes) {j : Nat} (hj : NamedIn s j) : NamedIn s' j := by
  obtain ⟨x, h1, h2⟩ := hj
  refine ⟨x, ?_, h2⟩
  obtain ⟨t, ht⟩ := h
  rw [← ht, List.getElem?_append_left (List.getElem?_eq_some_iff.1 h1).1]
  exact h1

theorem Holding.refl {s : Names} (h : Tidy s) : Holding s s [] := ⟨List.prefix_rfl, by simp, by simp, h⟩

theorem Holding.trans {a b c : Names} {l l' : List Nat} (h : Holding a b l) (h' : Holding b c l') : Holding a c (l ++ l') := by
  have hab := h.nodes.length_le
  have hbc := h'.nodes.length_le
  refine ⟨h.nodes.trans h'.nodes, fun j hj => ?_, fun j hj => ?_, h'.tidy⟩
  · rcases List.mem_append.1 hj with hj | hj
    · rcases h.named j hj with h1 | h1
      · exact .inl (h1.mono h'.nodes)
      · exact .inr ⟨h1.1, by omega⟩
    · rcases h'.named j hj with h1 | h1
      · exact .inl h1
      · exact .inr ⟨by omega, h1.2⟩
  · have hb : ¬ NamedIn b j := fun hn => hj (hn.mono h'.nodes)
    rw [List.count_append]
    have h1 := h.once j hb
    have h2 := h'.once j hj
    by_cases hl : j ∈ l
    · by_cases hl' : j ∈ l'
      · have h3 := (h.named j hl).resolve_left hb
        have h4 := (h'.named j hl').resolve_left hj
        omega
      · rw [List.count_eq_zero.2 hl']; omega
    · rw [List.count_eq_zero.2 hl]; omega

theorem Holding.perm {a b : Names} {l l' : List Nat} (h : Holding a b l) (hp : l.Perm l') : Holding a b l' :=
  ⟨h.nodes, fun j hj => h.named j (hp.mem_iff.2 hj), fun j hj => by rw [← hp.count_eq]; exact h.once j hj, h.tidy⟩

theorem Holding.sub {a b : Names} {l l' : List Nat} (h : Holding a b l) (hp : l'.Sublist l) : Holding a b l' :=
  ⟨h.nodes, fun j hj => h.named j (hp.subset hj), fun j hj => (hp.count_le j).trans (h.once j hj), h.tidy⟩

/-! ### Steps -/

/-- a step that makes no node -/
theorem Holding.silent {s s' : Names} (h : Tidy s) (hn : s'.nodes = s.nodes) (hc : ∀ c ∈ s'.around, c.defs = [] ∨ ∃ c' ∈ s.around, c.defs = c'.defs) : Holding s s' [] := by
  refine ⟨by rw [hn], by simp, by simp, fun c hm nm i hi => ?_⟩
  rcases hc c hm with h1 | ⟨c', h1, h2⟩
  · rw [h1] at hi; cases hi
  · rw [h2] at hi
    obtain ⟨x, h3, h4⟩ := h c' h1 nm i hi
    exact ⟨x, by rw [hn]; exact h3, h4⟩

theorem onScope_defs {s : Names} {f : Scope → Scope} (hf : ∀ c, (f c).defs = c.defs) : ∀ c ∈ (s.onScope f).around, c.defs = [] ∨ ∃ c' ∈ s.around, c.defs = c'.defs := by
  intro c hc
  right
  simp only [Names.onScope] at hc
  split at hc
  · cases hc
  · next c0 l h =>
    rcases List.mem_cons.1 hc with rfl | hc
    · exact ⟨c0, by rw [h]; simp, hf _⟩
    · exact ⟨c, by rw [h]; simp [hc], rfl⟩

theorem addNode_nodes (s : Names) (gi p DEF) : (s.addNode gi p DEF).nodes = s.nodes ++ [⟨gi, p, DEF⟩] := by
  unfold Names.addNode
  simp only
  split <;> rfl

theorem addNode_tidy {s : Names} (h : Tidy s) (gi p DEF) : Tidy (s.addNode gi p DEF) := by
  have hpre : s.nodes <+: (s.addNode gi p DEF).nodes := by rw [addNode_nodes]; exact List.prefix_append _ _
  intro c hc nm i hi
  by_cases hD : DEF = []
  · have : (s.addNode gi p DEF).around = s.around := by simp [Names.addNode, hD]
    rw [this] at hc
    exact (h c hc nm i hi).mono hpre
  · simp only [Names.addNode, hD, if_false, Names.onScope] at hc
    cases hs : s.around with
    | nil => rw [hs] at hc; cases hc
    | cons c0 l =>
      rw [hs] at hc
      rcases List.mem_cons.1 hc with rfl | hc
      · simp only [List.lookup] at hi
        split at hi
        · cases hi
          exact ⟨⟨gi, p, DEF⟩, by rw [addNode_nodes]; simp, hD⟩
        · exact (h c0 (by rw [hs]; simp) nm i hi).mono hpre
      · exact (h c (by rw [hs]; simp [hc]) nm i hi).mono hpre

/-- a step that makes a node -/
theorem node_holding {s : Names} (h : Tidy s) (gi p DEF) : Holding s (s.addNode gi p DEF) [s.nodes.length] :=
  ⟨by rw [addNode_nodes]; exact List.prefix_append _ _, fun j hj => by
    rw [List.mem_singleton] at hj
    subst hj
    exact .inr ⟨le_rfl, by rw [addNode_nodes]; simp⟩, fun j _ => List.count_le_length.trans (by simp), addNode_tidy h _ _ _⟩

theorem step_node {b : Text → Bool} {s s1 : Names} {gi DEF : Text} (h : s.step b (.node gi DEF) = some s1) (ht : Tidy s) : Holding s s1 [s.nodes.length] := by
  simp only [Names.step] at h
  split at h
  · cases h; exact node_holding ht _ _ _
  · split at h
    · cases h; exact node_holding ht _ _ _
    · cases h

theorem step_script {b : Text → Bool} {s s1 : Names} {DEF : Text} (h : s.step b (.script DEF) = some s1) (ht : Tidy s) : Holding s s1 [s.nodes.length] := by
  simp only [Names.step] at h
  cases h; exact node_holding ht _ _ _

theorem step_other {b : Text → Bool} {s s1 : Names} {m : Mark} (h : s.step b m = some s1) (ht : Tidy s) (hn : ∀ gi DEF, m ≠ .node gi DEF) (hs : ∀ DEF, m ≠ .script DEF) : Holding s s1 [] := by
  cases m with
  | node gi DEF => exact absurd rfl (hn _ _)
  | script DEF => exact absurd rfl (hs _)
  | use nm =>
    simp only [Names.step] at h
    split at h <;> cases h
    exact .refl ht
  | route a sf c df =>
    simp only [Names.step] at h
    split at h <;> cases h
    exact .silent ht rfl (onScope_defs (fun _ => rfl))
  | proto rest =>
    simp only [Names.step] at h
    cases h
    exact .silent ht rfl (fun c hc => .inr ⟨c, hc, rfl⟩)
  | openBody =>
    simp only [Names.step] at h
    cases h
    refine .silent ht rfl (fun c hc => ?_)
    rcases List.mem_cons.1 hc with rfl | hc
    · exact .inl rfl
    · exact .inr ⟨c, hc, rfl⟩
  | closeBody =>
    simp only [Names.step] at h
    split at h
    · next c l k r h1 h2 =>
      cases h
      exact .silent ht rfl (fun c' hc => .inr ⟨c', by rw [h1]; simp [hc], rfl⟩)
    · cases h
  | endProto nm =>
    simp only [Names.step] at h
    split at h
    · cases h
    · cases h
      refine .silent ht rfl ?_
      exact onScope_defs (s := s) (f := fun c => { c with protos := (nm, _) :: c.protos }) (fun _ => rfl)

theorem look_named {s : Names} (ht : Tidy s) {nm : Text} {i : Nat} (h : s.look true nm i) : NamedIn s i := by
  have h := h rfl
  unfold Names.named at h
  cases hs : s.around with
  | nil => rw [hs] at h; cases h
  | cons c l =>
    rw [hs] at h
    exact ht c (by rw [hs]; simp) nm i h

/-! ### Statements -/

/-- the nodes among results -/
def results (rs : List (Option (Option Nat))) : List Nat := rs.filterMap Option.join

theorem results_some (os : List (Option Nat)) : results (os.map some) = os.filterMap id := by
  simp [results, List.filterMap_map]

theorem held_child (t : Nat) (l : List Nat) : held (l.map (Said.child t)) = l := by
  simp [held, List.flatMap_map, Said.nodes]

theorem perm_mid {A B C D : List Nat} : (A ++ B ++ (C ++ D)).Perm (A ++ C ++ (B ++ D)) := by
  rw [List.append_assoc, List.append_assoc]
  refine List.Perm.append_left A ?_
  rw [← List.append_assoc, ← List.append_assoc]
  exact List.Perm.append_right D List.perm_append_comm

mutual
theorem tells_holding {b : Text → Bool} {cur t s l r s'} (h : Tells b true cur t s l r s') (ht : Tidy s) : Holding s s' (held l ++ results [r]) := by
  cases h with
  | item h1 =>
    have := tellsAll_holding h1 ht
    rw [held_append, held_child]
    simpa [results] using this
  | proto h1 h2 h3 =>
    have e1 := step_other h1 ht (by simp) (by simp)
    have e2 := tellsParts_holding h2 e1.tidy
    have e3 := step_other h3 e2.tidy (by simp) (by simp)
    simpa [results] using (e1.trans e2).trans e3
  | extern h1 h2 h3 =>
    have e1 := step_other h1 ht (by simp) (by simp)
    have e2 := tellsParts_holding h2 e1.tidy
    have e3 := step_other h3 e2.tidy (by simp) (by simp)
    simpa [results] using (e1.trans e2).trans e3
  | node h1 h2 =>
    have e1 := step_node h1 ht
    have e2 := (tellsAll_holding h2 e1.tidy).sub (List.sublist_append_left _ _)
    exact (e1.trans e2).perm (List.perm_append_comm)
  | defNode h1 h2 =>
    have e1 := step_node h1 ht
    have e2 := (tellsAll_holding h2 e1.tidy).sub (List.sublist_append_left _ _)
    exact (e1.trans e2).perm (List.perm_append_comm)
  | script h1 h2 h3 =>
    have e1 := step_script h1 ht
    have e2 := tellsDecls_holding h2 e1.tidy
    have e3 := tellsAttrs_holding h3 e2.tidy
    have e := (e1.trans (e2.trans e3)).perm List.perm_append_comm
    simp only [held_append, held_cons, Said.nodes, List.nil_append]
    simpa [results, List.append_assoc] using e
  | defScript h1 h2 h3 =>
    have e1 := step_script h1 ht
    have e2 := tellsDecls_holding h2 e1.tidy
    have e3 := tellsAttrs_holding h3 e2.tidy
    have e := (e1.trans (e2.trans e3)).perm List.perm_append_comm
    simp only [held_append, held_cons, Said.nodes, List.nil_append]
    simpa [results, List.append_assoc] using e
  | null => exact .refl ht
  | use h1 =>
    refine ⟨List.prefix_rfl, fun j hj => .inl ?_, fun j _ => List.count_le_length.trans (by simp [held, results]), ht⟩
    simp only [held, List.flatMap_nil, results, List.filterMap_cons, Option.join, Option.bind_some, id, List.filterMap_nil, List.nil_append, List.mem_singleton] at hj
    subst hj
    exact look_named ht h1
  | route h1 =>
    rw [if_pos rfl] at h1
    exact step_other h1 ht (by simp) (by simp)
  | isAttr _ => exact .refl ht
  | attr h1 =>
    have := tellsValue_holding h1 ht
    rw [held_append]
    simpa [results, held, Said.nodes] using this
theorem tellsAll_holding {b : Text → Bool} {cur ts s l rs s'} (h : TellsAll b true cur ts s l rs s') (ht : Tidy s) : Holding s s' (held l ++ results rs) := by
  cases h with
  | nil => exact .refl ht
  | @cons _ _ _ _ l r _ l' rs _ h1 h2 =>
    have e1 := tells_holding h1 ht
    have e2 := tellsAll_holding h2 e1.tidy
    rw [held_append, show results (r :: rs) = results [r] ++ results rs from by simp only [results]; rw [← List.filterMap_append]; rfl]
    exact (e1.trans e2).perm perm_mid
theorem tellsValue_holding {b : Text → Bool} {v s l g s'} (h : TellsValue b true v s l g s') (ht : Tidy s) : Holding s s' (held l ++ g.nodes) := by
  cases h with
  | text _ => exact .refl ht
  | one _ h1 =>
    have := tells_holding h1 ht
    rename_i o _
    cases o <;> exact this
  | all _ h1 =>
    have := tellsAll_holding h1 ht
    rw [results_some] at this
    exact this
theorem tellsParts_holding {b : Text → Bool} {k ts s l s'} (h : TellsParts b true k ts s l s') (ht : Tidy s) : Holding s s' (held l) := by
  cases h with
  | body h1 h2 h3 =>
    have e1 := step_other h1 ht (by simp) (by simp)
    have e2 := (tellsAll_holding h2 e1.tidy).sub (List.sublist_append_left _ _)
    have e3 := step_other h3 e2.tidy (by simp) (by simp)
    simpa using (e1.trans e2).trans e3
  | urls => exact .refl ht
  | field h1 h2 =>
    have e1 := tellsValue_holding h1 ht
    have e2 := tellsParts_holding h2 e1.tidy
    rw [held_append, held_cons]
    simpa [Said.nodes] using e1.trans e2
  | extField h1 => simpa [held_cons, Said.nodes] using tellsParts_holding h1 ht
  | event h1 => exact tellsParts_holding h1 ht
theorem tellsDecls_holding {b : Text → Bool} {k ts s l l1 s'} (h : TellsDecls b true k ts s l l1 s') (ht : Tidy s) : Holding s s' (held l ++ held l1) := by
  cases h with
  | nil => exact .refl ht
  | field h1 h2 =>
    have e1 := tellsValue_holding h1 ht
    have e2 := tellsDecls_holding h2 e1.tidy
    rw [held_append, held_cons]
    simpa [Said.nodes] using e1.trans e2
  | isField _ h1 => simpa [held_cons, Said.nodes] using tellsDecls_holding h1 ht
  | event h1 => exact tellsDecls_holding h1 ht
  | isEvent _ h1 => simpa [held_cons, Said.nodes] using tellsDecls_holding h1 ht
  | attr h1 => exact tellsDecls_holding h1 ht
  | other _ h1 h2 =>
    have e1 := tells_holding h1 ht
    have e2 := tellsDecls_holding h2 e1.tidy
    rw [held_append]
    simpa [results] using e1.trans e2
theorem tellsAttrs_holding {b : Text → Bool} {k ts s l s'} (h : TellsAttrs b true k ts s l s') (ht : Tidy s) : Holding s s' (held l) := by
  cases h with
  | nil => exact .refl ht
  | attr h1 h2 =>
    have e1 := (tells_holding h1 ht).sub (List.sublist_append_left _ _)
    have e2 := tellsAttrs_holding h2 e1.tidy
    rw [held_append]
    exact e1.trans e2
  | other _ h1 => exact tellsAttrs_holding h1 ht
end

/-! ### Scripts -/

/-- the name of Scripts -/
def script : Text := ['S', 'c', 'r', 'i', 'p', 't']

/-- Every new Script is said to be one. -/
structure Scripts (s s' : Names) (l : List Said) : Prop where
  nodes : s.nodes <+: s'.nodes
  said : ∀ i x, s.nodes.length ≤ i → s'.nodes[i]? = some x → x.gi = script → x.proto = none → ∃ items, Said.script i items ∈ l

theorem Scripts.refl (s : Names) (l) : Scripts s s l := ⟨List.prefix_rfl, fun i x h1 h2 => by
  have := (List.getElem?_eq_some_iff.1 h2).1
  omega⟩

theorem Scripts.same {s s' : Names} (h : s'.nodes = s.nodes) (l) : Scripts s s' l := ⟨by rw [h], fun i x h1 h2 => by
  have := (List.getElem?_eq_some_iff.1 h2).1
  rw [h] at this
  omega⟩

theorem Scripts.more {s s' : Names} {l l'} (h : Scripts s s' l) (hl : ∀ e ∈ l, e ∈ l') : Scripts s s' l' :=
  ⟨h.nodes, fun i x h1 h2 h3 h4 => (h.said i x h1 h2 h3 h4).imp (fun _ h => hl _ h)⟩

theorem Scripts.trans {a b c : Names} {l} (h : Scripts a b l) (h' : Scripts b c l) : Scripts a c l := by
  refine ⟨h.nodes.trans h'.nodes, fun i x h1 h2 h3 h4 => ?_⟩
  by_cases hi : b.nodes.length ≤ i
  · exact h'.said i x hi h2 h3 h4
  · obtain ⟨t, ht⟩ := h'.nodes
    rw [← ht, List.getElem?_append_left (by omega)] at h2
    exact h.said i x h1 h2 h3 h4

theorem step_node_scripts {b : Text → Bool} (hb : b script = false) {s s1 : Names} {gi DEF : Text} (h : s.step b (.node gi DEF) = some s1) (l) : Scripts s s1 l := by
  have key : ∀ p, (p = none → gi ≠ script) → Scripts s (s.addNode gi p DEF) l := fun p hp => by
    refine ⟨by rw [addNode_nodes]; exact List.prefix_append _ _, fun i x h1 h2 h3 h4 => ?_⟩
    rw [addNode_nodes] at h2
    have hi := (List.getElem?_eq_some_iff.1 h2).1
    simp only [List.length_append, List.length_singleton] at hi
    have : i = s.nodes.length := by omega
    subst this
    simp only [List.getElem?_concat_length, Option.some.injEq] at h2
    subst h2
    exact absurd h3 (hp h4)
  simp only [Names.step] at h
  split at h
  · cases h; exact key _ (by simp)
  · split at h
    · next hbg => cases h; exact key _ (fun _ hg => by rw [hg, hb] at hbg; cases hbg)
    · cases h

theorem step_script_scripts {b : Text → Bool} {s s1 : Names} {DEF : Text} (h : s.step b (.script DEF) = some s1) {l} {items} (hl : Said.script s.nodes.length items ∈ l) : Scripts s s1 l := by
  simp only [Names.step] at h
  cases h
  refine ⟨by rw [addNode_nodes]; exact List.prefix_append _ _, fun i x h1 h2 h3 h4 => ?_⟩
  rw [addNode_nodes] at h2
  have hi := (List.getElem?_eq_some_iff.1 h2).1
  simp only [List.length_append, List.length_singleton] at hi
  have : i = s.nodes.length := by omega
  subst this
  exact ⟨items, hl⟩

theorem step_other_scripts {b : Text → Bool} {s s1 : Names} {m : Mark} (h : s.step b m = some s1) (hn : ∀ gi DEF, m ≠ .node gi DEF) (hs : ∀ DEF, m ≠ .script DEF) (l) : Scripts s s1 l := by
  apply Scripts.same
  cases m with
  | node gi DEF => exact absurd rfl (hn _ _)
  | script DEF => exact absurd rfl (hs _)
  | _ => 
    simp only [Names.step] at h
    first
      | (cases h; rfl)
      | (split at h <;> cases h <;> rfl)

mutual
theorem tells_scripts {b : Text → Bool} {names cur t s l r s'} (h : Tells b names cur t s l r s') {L : List Said} (hL : l ⊆ L) (hb : b script = false) : Scripts s s' L := by
  cases h with
  | item h1 => exact tellsAll_scripts h1 (List.append_subset.1 hL).1 hb
  | proto h1 h2 h3 => exact ((step_other_scripts h1 (by simp) (by simp) _).trans (tellsParts_scripts h2 hL hb)).trans (step_other_scripts h3 (by simp) (by simp) _)
  | extern h1 h2 h3 => exact ((step_other_scripts h1 (by simp) (by simp) _).trans (tellsParts_scripts h2 hL hb)).trans (step_other_scripts h3 (by simp) (by simp) _)
  | node h1 h2 => exact (step_node_scripts hb h1 _).trans (tellsAll_scripts h2 hL hb)
  | defNode h1 h2 => exact (step_node_scripts hb h1 _).trans (tellsAll_scripts h2 hL hb)
  | script h1 h2 h3 =>
    obtain ⟨k1, k2⟩ := List.append_subset.1 hL
    obtain ⟨k3, k4⟩ := List.cons_subset.1 k2
    exact ((step_script_scripts h1 k3).trans (tellsDecls_scripts h2 (List.append_subset.1 k1).1 hb)).trans (tellsAttrs_scripts h3 k4 hb)
  | defScript h1 h2 h3 =>
    obtain ⟨k1, k2⟩ := List.append_subset.1 hL
    obtain ⟨k3, k4⟩ := List.cons_subset.1 k2
    exact ((step_script_scripts h1 k3).trans (tellsDecls_scripts h2 (List.append_subset.1 k1).1 hb)).trans (tellsAttrs_scripts h3 k4 hb)
  | null => exact .refl _ _
  | use h1 => exact .refl _ _
  | route h1 =>
    split at h1
    · exact step_other_scripts h1 (by simp) (by simp) _
    · cases h1; exact .refl _ _
  | isAttr _ => exact .refl _ _
  | attr h1 => exact tellsValue_scripts h1 (List.append_subset.1 hL).1 hb
theorem tellsAll_scripts {b : Text → Bool} {names cur ts s l rs s'} (h : TellsAll b names cur ts s l rs s') {L : List Said} (hL : l ⊆ L) (hb : b script = false) : Scripts s s' L := by
  cases h with
  | nil => exact .refl _ _
  | cons h1 h2 => exact (tells_scripts h1 (List.append_subset.1 hL).1 hb).trans (tellsAll_scripts h2 (List.append_subset.1 hL).2 hb)
theorem tellsValue_scripts {b : Text → Bool} {names v s l g s'} (h : TellsValue b names v s l g s') {L : List Said} (hL : l ⊆ L) (hb : b script = false) : Scripts s s' L := by
  cases h with
  | text _ => exact .refl _ _
  | one _ h1 => exact tells_scripts h1 hL hb
  | all _ h1 => exact tellsAll_scripts h1 hL hb
theorem tellsParts_scripts {b : Text → Bool} {names k ts s l s'} (h : TellsParts b names k ts s l s') {L : List Said} (hL : l ⊆ L) (hb : b script = false) : Scripts s s' L := by
  cases h with
  | body h1 h2 h3 => exact ((step_other_scripts h1 (by simp) (by simp) _).trans (tellsAll_scripts h2 hL hb)).trans (step_other_scripts h3 (by simp) (by simp) _)
  | urls => exact .refl _ _
  | field h1 h2 => exact (tellsValue_scripts h1 (List.append_subset.1 hL).1 hb).trans (tellsParts_scripts h2 (List.cons_subset.1 (List.append_subset.1 hL).2).2 hb)
  | extField h1 => exact tellsParts_scripts h1 (List.cons_subset.1 hL).2 hb
  | event h1 => exact tellsParts_scripts h1 hL hb
theorem tellsDecls_scripts {b : Text → Bool} {names k ts s l l1 s'} (h : TellsDecls b names k ts s l l1 s') {L : List Said} (hL : l ⊆ L) (hb : b script = false) : Scripts s s' L := by
  cases h with
  | nil => exact .refl _ _
  | field h1 h2 => exact (tellsValue_scripts h1 (List.append_subset.1 hL).1 hb).trans (tellsDecls_scripts h2 (List.cons_subset.1 (List.append_subset.1 hL).2).2 hb)
  | isField _ h1 => exact tellsDecls_scripts h1 (List.cons_subset.1 hL).2 hb
  | event h1 => exact tellsDecls_scripts h1 hL hb
  | isEvent _ h1 => exact tellsDecls_scripts h1 hL hb
  | attr h1 => exact tellsDecls_scripts h1 hL hb
  | other _ h1 h2 => exact (tells_scripts h1 (List.append_subset.1 hL).1 hb).trans (tellsDecls_scripts h2 (List.append_subset.1 hL).2 hb)
theorem tellsAttrs_scripts {b : Text → Bool} {names k ts s l s'} (h : TellsAttrs b names k ts s l s') {L : List Said} (hL : l ⊆ L) (hb : b script = false) : Scripts s s' L := by
  cases h with
  | nil => exact .refl _ _
  | attr h1 h2 => exact (tells_scripts h1 (List.append_subset.1 hL).1 hb).trans (tellsAttrs_scripts h2 (List.append_subset.1 hL).2 hb)
  | other _ h1 => exact tellsAttrs_scripts h1 hL hb
end

/-! ### Entries -/

theorem entry_count {α : Type} (f : α → List Nat) (j : Nat) {e : α} : ∀ {l : List α}, e ∈ l → (f e).count j ≤ (l.flatMap f).count j
  | x :: l, h => by
    rw [List.flatMap_cons, List.count_append]
    rcases List.mem_cons.1 h with rfl | h
    · omega
    · have := entry_count f j h; omega

/-- two entries that hold the same node -/
theorem entry_unique {α : Type} (f : α → List Nat) (j : Nat) {e e' : α} : ∀ {l : List α}, (l.flatMap f).count j ≤ 1 → e ∈ l → e' ∈ l → j ∈ f e → j ∈ f e' → e = e'
  | x :: l, hc, h, h', hj, hj' => by
    rw [List.flatMap_cons, List.count_append] at hc
    have c1 : 0 < (f e).count j := List.count_pos_iff.2 hj
    have c2 : 0 < (f e').count j := List.count_pos_iff.2 hj'
    rcases List.mem_cons.1 h with rfl | h <;> rcases List.mem_cons.1 h' with rfl | h'
    · rfl
    · have := entry_count f j h'; omega
    · next h0 => have := entry_count f j h0; omega
    · exact entry_unique f j (by omega) h h' hj hj'

/-- two positions of the same node -/
theorem pos_unique {j : Nat} : ∀ {l : List Nat} {p q : Nat}, l.count j ≤ 1 → l[p]? = some j → l[q]? = some j → p = q
  | [], p, q, _, h, _ => by simp at h
  | x :: l, 0, 0, _, _, _ => rfl
  | x :: l, p + 1, q + 1, hc, h, h' => by
    simp only [List.getElem?_cons_succ] at h h'
    rw [pos_unique (l := l) ((List.count_le_count_cons).trans hc) h h']
  | x :: l, 0, q + 1, hc, h, h' => by
    simp only [List.getElem?_cons_zero, Option.some.injEq, List.getElem?_cons_succ] at h h'
    subst h
    have := List.count_pos_iff.2 (List.mem_of_getElem? h')
    rw [List.count_cons_self] at hc
    omega
  | x :: l, p + 1, 0, hc, h, h' => by
    simp only [List.getElem?_cons_zero, Option.some.injEq, List.getElem?_cons_succ] at h h'
    subst h'
    have := List.count_pos_iff.2 (List.mem_of_getElem? h)
    rw [List.count_cons_self] at hc
    omega

theorem childrenIn_count (s j : Nat) : ∀ l : List Said, (childrenIn s l).count j ≤ (held l).count j
  | [] => by simp [childrenIn]
  | e :: l => by
    have ih := childrenIn_count s j l
    rw [held_cons, List.count_append]
    cases e with
    | child t i =>
      by_cases h : t = s
      · rw [show childrenIn s (Said.child t i :: l) = i :: childrenIn s l from by simp [childrenIn, h], show (Said.child t i).nodes = [i] from rfl]
        rw [← List.singleton_append, List.count_append]; omega
      · rw [show childrenIn s (Said.child t i :: l) = childrenIn s l from by simp [childrenIn, h]]; omega
    | _ => exact ih.trans (Nat.le_add_left _ _)

theorem childrenIn_mem {s j : Nat} {l : List Said} (h : j ∈ childrenIn s l) : Said.child s j ∈ l := by
  simp only [childrenIn, List.mem_filterMap] at h
  obtain ⟨e, he, h⟩ := h
  split at h
  · split at h
    · next hs => cases h; subst hs; exact he
    · cases h
  · cases h

end Verif.Scopes
