import Verif.Lemmas.Accept
/-!
Which files are read: the induction.
-/
namespace Verif.Full
open Verif.Peg Verif.Grammar Verif.TextOut Verif.SceneText Verif.Reader Verif.Scopes Verif.Shape
open Verif.Lin hiding disp dispList dispDecls dispAttrs disp_node disp_attr
variable {F : Type} {base : Text → Option (Class F)} {fl : Floats F}

def After (w w' : World F) (s' : List Text) : Prop := Ok w' s' ∧ Stay w w'

theorem After.trans {a b c : World F} {s s' : List Text} (h : After a b s) (h' : After b c s') : After a c s' := ⟨h'.1, h.2.trans h'.2⟩

/-! ### Shapes -/

theorem tag_split {t : PTree} {n : NT} (h : ParseVal.Tree.tag t = n) : ∃ m k, t = .node n m k := by
  obtain ⟨n', m, k⟩ := t
  change n' = n at h
  subst h
  exact ⟨m, k, rfl⟩

theorem node_split {m kids} (h : Shaped (.node .node m kids)) :
    (∃ gi a rest, kids = .node .nodegi gi a :: rest ∧ ∀ t ∈ rest, nodeTag (ParseVal.Tree.tag t) = true) ∨
    (∃ DEF a gi b rest, kids = .node .name DEF a :: .node .nodegi gi b :: rest ∧ ∀ t ∈ rest, nodeTag (ParseVal.Tree.tag t) = true) := by
  simp only [Shaped] at h
  obtain ⟨d, l, h1, h2, h3⟩ := node_tags h.1
  rcases h2 with rfl | rfl
  · left
    obtain ⟨t, rest, rfl, h4, h5⟩ := List.map_eq_cons_iff.1 h1
    obtain ⟨gi, a, rfl⟩ := tag_split h4
    exact ⟨gi, a, rest, rfl, fun t ht => h3 _ (by rw [← h5]; exact List.mem_map.2 ⟨t, ht, rfl⟩)⟩
  · right
    obtain ⟨t, rest, rfl, h4, h5⟩ := List.map_eq_cons_iff.1 h1
    obtain ⟨t', rest', rfl, h6, h7⟩ := List.map_eq_cons_iff.1 h5
    obtain ⟨DEF, a, rfl⟩ := tag_split h4
    obtain ⟨gi, b, rfl⟩ := tag_split h6
    exact ⟨DEF, a, gi, b, rest', rfl, fun t ht => h3 _ (by rw [← h7]; exact List.mem_map.2 ⟨t, ht, rfl⟩)⟩

theorem script_split {m kids} (h : Shaped (.node .script m kids)) :
    (∀ t ∈ kids, scriptTag (ParseVal.Tree.tag t) = true) ∨
    (∃ DEF a rest, kids = .node .name DEF a :: rest ∧ ∀ t ∈ rest, scriptTag (ParseVal.Tree.tag t) = true) := by
  simp only [Shaped] at h
  obtain ⟨d, l, h1, h2, h3⟩ := script_tags h.1
  rcases h2 with rfl | rfl
  · left
    intro t ht
    exact h3 _ (by rw [← (show _ = l from h1)]; exact List.mem_map.2 ⟨t, ht, rfl⟩)
  · right
    obtain ⟨t, rest, rfl, h4, h5⟩ := List.map_eq_cons_iff.1 h1
    obtain ⟨DEF, a, rfl⟩ := tag_split h4
    exact ⟨DEF, a, rest, rfl, fun t ht => h3 _ (by rw [← (show _ = l from h5)]; exact List.mem_map.2 ⟨t, ht, rfl⟩)⟩

theorem attr_split {m kids} (h : Shaped (.node .attr m kids)) : ∃ nm a, (∃ m' k, kids = [.node .name nm a, .node .is m' k]) ∨ (∃ m' k, kids = [.node .name nm a, .node .field m' k]) := by
  simp only [Shaped] at h
  rcases attr_tags h.1 with h1 | h1
  all_goals
    obtain ⟨t, rest, rfl, h4, h5⟩ := List.map_eq_cons_iff.1 h1
    obtain ⟨t', rest', rfl, h6, h7⟩ := List.map_eq_cons_iff.1 h5
    obtain ⟨nm, a, rfl⟩ := tag_split h4
    obtain ⟨m', k, rfl⟩ := tag_split h6
    rw [List.map_eq_nil_iff.1 h7]
  · exact ⟨nm, a, .inl ⟨_, _, rfl⟩⟩
  · exact ⟨nm, a, .inr ⟨_, _, rfl⟩⟩

theorem scriptField_split {m kids} (h : Shaped (.node .scriptFieldDecl m kids)) : ∃ ex a ty b nm c, (∃ m' k, kids = [.node .fieldExposure ex a, .node .dataType ty b, .node .name nm c, .node .is m' k]) ∨
    (∃ m' k, kids = [.node .fieldExposure ex a, .node .dataType ty b, .node .name nm c, .node .field m' k]) := by
  simp only [Shaped] at h
  rcases scriptFieldDecl_tags h.1 with h1 | h1
  all_goals
    obtain ⟨t, _, rfl, h4, h2⟩ := List.map_eq_cons_iff.1 h1
    obtain ⟨ex, a, rfl⟩ := tag_split h4
    obtain ⟨t, _, rfl, h5, h3⟩ := List.map_eq_cons_iff.1 h2
    obtain ⟨ty, b, rfl⟩ := tag_split h5
    obtain ⟨t, _, rfl, h6, h7⟩ := List.map_eq_cons_iff.1 h3
    obtain ⟨nm, c, rfl⟩ := tag_split h6
    obtain ⟨t, _, rfl, h8, h9⟩ := List.map_eq_cons_iff.1 h7
    obtain ⟨m', k, rfl⟩ := tag_split h8
    rw [List.map_eq_nil_iff.1 h9]
  · exact ⟨ex, a, ty, b, nm, c, .inl ⟨_, _, rfl⟩⟩
  · exact ⟨ex, a, ty, b, nm, c, .inr ⟨_, _, rfl⟩⟩

/-! ### Entries that are never read -/

def readTag : NT → Bool
  | .rootItem | .node | .script | .sfNull | .use | .route => true
  | _ => false

theorem disp_other {t m kids ss ps cur fd} {w : World F} (h : readTag t = false) (h1 : t ≠ .field) (h2 : t ≠ .attr) (h3 : t ≠ .proto) (h4 : t ≠ .externProto) :
    disp base fl (.node t m kids) ss ps cur fd w = none := by
  cases t <;> first | exact absurd rfl h1 | exact absurd rfl h2 | exact absurd rfl h3 | exact absurd rfl h4 | (unfold disp; rfl) | cases h

theorem fine_other {t m kids s s'} (h : readTag t = false) : ¬ Fine base fl (.node t m kids) s s' := by
  intro h'; cases h' <;> cases h

theorem entry_read {t m kids} (h : nodeEntry (.node t m kids) = true) : readTag t = true := by cases t <;> first | rfl | cases h

/-! ### ROUTEs -/

theorem route_acc {m kids cur fd} {w : World F} {s} (hw : Ok w s) :
    Sync (disp base fl (.node .route m kids) [0] [] cur fd w) (Fine base fl (.node .route m kids) s) (fun x s' => After w x.2 s' ∧ x.1 = .nothing) := by
  by_cases hk : ∃ x a xf c y d yf e, kids = [.node .name x a, .node .name xf c, .node .name y d, .node .name yf e]
  · obtain ⟨x, a, xf, c, y, d, yf, e, rfl⟩ := hk
    have hf : ∀ s', Fine base fl (.node .route m [.node .name x a, .node .name xf c, .node .name y d, .node .name yf e]) s s' ↔ (x ∈ s ∧ y ∈ s ∧ s' = s) :=
      fun s' => ⟨fun h => by cases h with | route h1 h2 => exact ⟨h1, h2, rfl⟩, fun ⟨h1, h2, h3⟩ => by subst h3; exact .route h1 h2⟩
    have hx := hw.names x
    have hy := hw.names y
    rw [disp]
    simp only [List.headD_cons]
    cases h1 : w.getDEF 0 x with
    | none =>
      rw [h1] at hx
      refine Sync.never (fun s' h => ?_)
      have := hx.2 ((hf s').1 h).1
      cases this
    | some si =>
      cases h2 : w.getDEF 0 y with
      | none =>
        rw [h2] at hy
        refine Sync.never (fun s' h => ?_)
        have := hy.2 ((hf s').1 h).2.1
        cases this
      | some di =>
        rw [h1] at hx
        rw [h2] at hy
        refine Sync.only (s := s) (fun s' => ?_) ⟨⟨addRoute_ok hw _, addRoute_stay _ _⟩, rfl⟩
        rw [hf]
        exact ⟨fun h => h.2.2, fun h => ⟨hx.1 rfl, hy.1 rfl, h⟩⟩
  · have h1 : disp base fl (.node .route m kids) [0] [] cur fd w = none := by
      unfold disp
      split
      all_goals first
        | rfl
        | (exfalso; simp_all; done)
        | (rename_i heq; cases heq; exact absurd ⟨_, _, _, _, _, _, _, _, rfl⟩ hk)
        | exact absurd ⟨_, _, _, _, _, _, _, _, rfl⟩ hk
    rw [h1]
    refine Sync.never (fun s' h => ?_)
    cases h
    exact hk ⟨_, _, _, _, _, _, _, _, rfl⟩

/-! ### Attributes -/

/-- the value of a field, if it is accepted -/
def valueOf (base : Text → Option (Class F)) (fl : Floats F) (t : PTree) (cur : Option Nat) (k : Kind) (conv : Option (F → F)) (w : World F) : Option (Val F × World F) :=
  (disp base fl t [0] [] cur (some k) w).bind (fun x => x.1.toVal.bind (fun u => if accepted k conv u = true then some (u, x.2) else none))

def ValueAcc (base : Text → Option (Class F)) (fl : Floats F) (t : PTree) : Prop :=
  ∀ (cur : Option Nat) (k : Kind) (conv : Option (F → F)) (w : World F) (s : List Text), Ok w s →
    Sync (valueOf base fl t cur k conv w) (FineValue base fl k conv t s) (fun x s' => After w x.2 s' ∧ accepted k conv x.1 = true)

theorem attr_acc {m kids i fd c} {ports : Text → Option (PortKind F)} {w : World F} {s} (hw : Ok w s) (hsh : Shaped (.node .attr m kids)) (hc : clsAt w i = some c) (hp : ∀ x, ports x = classPorts c x)
    (hv : ∀ m' k, .node .field m' k ∈ kids → ValueAcc base fl (.node .field m' k)) :
    Sync (disp base fl (.node .attr m kids) [0] [] (some i) fd w)
      (fun s' => ∃ nm a v k conv, kids = [.node .name nm a, v] ∧ resolveName ports nm = some (.field k conv) ∧ FineValue base fl k (some conv) v s s') (fun x s' => After w x.2 s') := by
  obtain ⟨n, hn, hnc⟩ := Option.map_eq_some_iff.1 hc
  obtain ⟨nm, a, ⟨m', k, rfl⟩ | ⟨m', k, rfl⟩⟩ := attr_split hsh
  · have h1 : disp base fl (.node .attr m [.node .name nm a, .node .is m' k]) [0] [] (some i) fd w = none := by
      rw [disp, hn]
      simp only [isTarget]
      cases n.cls.getField nm <;> rfl
    rw [h1]
    refine Sync.never (fun s' ⟨_, _, _, _, _, h2, _, h3⟩ => ?_)
    cases h2
    cases h3
  · have hr : resolveName ports nm = (n.cls.getField nm).map portKind := by
      rw [resolveName_congr hp, classPorts_eq, hnc]
    rw [disp, hn]
    simp only [isTarget]
    cases hg : n.cls.getField nm with
    | none =>
      refine Sync.never (fun s' ⟨_, _, _, _, _, h2, h4, h3⟩ => ?_)
      cases h2
      rw [hr, hg] at h4; cases h4
    | some p =>
      cases p with
      | inr e =>
        refine Sync.never (fun s' ⟨_, _, _, _, _, h2, h4, h3⟩ => ?_)
        cases h2
        rw [hr, hg] at h4; cases h4
      | inl d =>
        have h1 := hv m' k (by simp) (some i) d.kind (some d.conv) w s hw
        have h2 : Sync ((valueOf base fl (.node .field m' k) (some i) d.kind (some d.conv) w).bind (fun x => (coerce d.kind d.conv x.1).map (fun u => ((.nothing : RVal F), x.2.setField i d.name u))))
            (FineValue base fl d.kind (some d.conv) (.node .field m' k) s) (fun x s' => After w x.2 s') := by
          refine ⟨fun y hy => ?_, fun s' hs => ?_⟩
          · obtain ⟨x, hx, hxy⟩ := Option.bind_eq_some_iff.1 hy
            obtain ⟨u, hu, rfl⟩ := Option.map_eq_some_iff.1 hxy
            obtain ⟨s', q1, q2, q3⟩ := h1.1 x hx
            exact ⟨s', q1, setField_ok q2.1 _ _ _, q2.2.trans (setField_stay _ _ _ _)⟩
          · obtain ⟨x, hx, q2, q3⟩ := h1.2 s' hs
            obtain ⟨u, hu⟩ := Option.isSome_iff_exists.1 (show (coerce d.kind d.conv x.1).isSome = true from q3)
            exact ⟨(.nothing, x.2.setField i d.name u), by rw [hx]; simp [hu], setField_ok q2.1 _ _ _, q2.2.trans (setField_stay _ _ _ _)⟩
        have h3 : (match disp base fl (.node .field m' k) [0] [] (some i) (some d.kind) w with
              | none => none
              | some (v, w) =>
                match v.toVal with
                | none => none
                | some v =>
                  match w.setAttr i d v with
                  | none => none
                  | some w => some ((.nothing : RVal F), w)) =
            (valueOf base fl (.node .field m' k) (some i) d.kind (some d.conv) w).bind (fun x => (coerce d.kind d.conv x.1).map (fun u => ((.nothing : RVal F), x.2.setField i d.name u))) := by
          unfold valueOf
          cases hd : disp base fl (.node .field m' k) [0] [] (some i) (some d.kind) w with
          | none => rfl
          | some x =>
            obtain ⟨v, w1⟩ := x
            simp only [Option.bind_some]
            cases hu : v.toVal with
            | none => rfl
            | some u =>
              simp only [Option.bind_some]
              cases hco : coerce d.kind d.conv u with
              | none => simp [World.setAttr, hco, accepted]
              | some u' =>
                have hacc : accepted d.kind (some d.conv) u = true := by simp [accepted, hco]
                obtain ⟨s', -, q2, -⟩ := h1.1 (u, w1) (by simp [valueOf, hd, hu, hacc])
                have hok : (w1.setField i d.name u').inst i = none := q2.1.inst i
                simp [World.setAttr, hco, hacc, hok]
        refine Sync.iff (P := FineValue base fl d.kind (some d.conv) (.node .field m' k) s) ?_ (fun s' => ⟨?_, ?_⟩)
        · rw [← h3] at h2; exact h2
        · rintro ⟨_, _, _, _, _, h2, h4, h5⟩
          cases h2
          rw [hr, hg] at h4; cases h4; exact h5
        · intro h5
          exact ⟨_, _, _, _, _, rfl, by rw [hr, hg]; rfl, h5⟩

end Verif.Full
