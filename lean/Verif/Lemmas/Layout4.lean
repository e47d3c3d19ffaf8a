import Verif.Lemmas.Layout3
import Verif.Lemmas.ScriptView
/-!
Dispatching a tree gives the same as dispatching the tree without layout.
-/
namespace Verif.Layout
open Verif.Peg Verif.Grammar Verif.Lin Verif.TextOut

variable {F : Type}

/-- name, type and rest of a node's entries -/
def nodeHead : List PTree → Option (List Char × List Char × List PTree)
  | .node .name nm _ :: .node .nodegi gi _ :: rest => some (nm, gi, rest)
  | .node .nodegi gi _ :: rest => some ([], gi, rest)
  | _ => none

theorem nodeHead_norms (k : List PTree) : nodeHead (norms k) = (nodeHead k).map (fun x => (x.1, x.2.1, norms x.2.2)) := by
  match k with
  | [] => rfl
  | .node n m k :: [] => cases n <;> rfl
  | .node n m k :: .node n2 m2 k2 :: l =>
    cases n
    case name => cases n2 <;> rfl
    all_goals rfl

theorem nodeHead_suffix {k nm gi rest} (h : nodeHead k = some (nm, gi, rest)) : ∃ l, k = l ++ rest ∧ l ≠ [] := by
  match k with
  | [] => cases h
  | .node n m k :: [] => cases n <;> first | (cases h; exact ⟨[_], rfl, by simp⟩) | cases h
  | .node n m k :: .node n2 m2 k2 :: l =>
    cases n
    case name => cases n2 <;> first | (cases h; exact ⟨[_, _], rfl, by simp⟩) | cases h
    all_goals first | (cases h; exact ⟨[_], rfl, by simp⟩) | cases h

theorem disp_node (lk : Text → Option (Class F)) (fl : Floats F) (m k cur fd rs) :
    disp lk fl (.node .node m k) cur fd rs = match nodeHead k with
      | none => none
      | some (nm, gi, rest) => match lk gi with
        | none => none
        | some c => match dispList lk fl rest (some rs.next) fd (rs.newNode c nm) with
          | none => none
          | some (_, rs') => some (.ref (some rs.next), rs') := by
  match k with
  | [] => simp [disp, nodeHead]
  | .node n m k :: [] => cases n <;> simp [disp, nodeHead] <;> (cases lk m <;> rfl)
  | .node n m k :: .node n2 m2 k2 :: l =>
    cases n
    case name => cases n2 <;> simp [disp, nodeHead] <;> (cases lk m2 <;> rfl)
    all_goals (simp [disp, nodeHead] <;> (cases lk m <;> rfl))

/-- the four names of a route -/
def routeNames : List PTree → Option (List Char × List Char × List Char × List Char)
  | [.node .name s _, .node .name sf _, .node .name d _, .node .name df _] => some (s, sf, d, df)
  | _ => none

theorem norm_name_iff (t : PTree) : (∃ m k, norm t = .node .name m k) ↔ ∃ m k, t = .node .name m k := by
  obtain ⟨n, m, k⟩ := t
  cases n <;> simp [norm, isLeaf]

theorem routeNames_norms (k : List PTree) : routeNames (norms k) = routeNames k := by
  match k with
  | [] => rfl
  | [_] => simp [norms, routeNames]
  | [_, _] => simp [norms, routeNames]
  | [_, _, _] => simp [norms, routeNames]
  | _ :: _ :: _ :: _ :: _ :: _ => simp [norms, routeNames]
  | [.node n1 m1 k1, .node n2 m2 k2, .node n3 m3 k3, .node n4 m4 k4] =>
    cases n1
    case name =>
      cases n2
      case name =>
        cases n3
        case name => cases n4 <;> rfl
        all_goals simp [norms, norm, isLeaf, routeNames]
      all_goals simp [norms, norm, isLeaf, routeNames]
    all_goals simp [norms, norm, isLeaf, routeNames]

theorem disp_route (lk : Text → Option (Class F)) (fl : Floats F) (m k cur fd rs) :
    disp lk fl (.node .route m k) cur fd rs = match cur, routeNames k with
      | none, some (s, sf, d, df) => match rs.sc.getDEF s, rs.sc.getDEF d with
        | some si, some di => some (.nothing, { rs with sc := { rs.sc with routes := rs.sc.routes ++ [⟨si, sf, di, df⟩] } })
        | _, _ => none
      | _, _ => none := by
  cases cur with
  | some i => simp only [disp]
  | none =>
    match k with
    | [] => simp [disp, routeNames]
    | [_] => simp [disp, routeNames]
    | [_, _] => simp [disp, routeNames]
    | [_, _, _] => simp [disp, routeNames]
    | _ :: _ :: _ :: _ :: _ :: _ => simp [disp, routeNames]
    | [.node n1 m1 k1, .node n2 m2 k2, .node n3 m3 k3, .node n4 m4 k4] =>
      cases n1
      case name =>
        cases n2
        case name =>
          cases n3
          case name => cases n4 <;> simp [disp, routeNames] <;> rfl
          all_goals simp [disp, routeNames]
        all_goals simp [disp, routeNames]
      all_goals simp [disp, routeNames]

/-- name and value of an attribute -/
def attrParts : List PTree → Option (List Char × PTree)
  | [.node .name nm _, v] => some (nm, v)
  | _ => none

theorem attrParts_norms (k : List PTree) : attrParts (norms k) = (attrParts k).map (fun x => (x.1, norm x.2)) := by
  match k with
  | [] => rfl
  | [_] => simp [norms, attrParts]
  | _ :: _ :: _ :: _ => simp [norms, attrParts]
  | [.node n1 m1 k1, v] => cases n1 <;> rfl

theorem attrParts_eq {k nm v} (h : attrParts k = some (nm, v)) : ∃ t, k = [t, v] := by
  match k with
  | [] => cases h
  | [_] => simp [attrParts] at h
  | _ :: _ :: _ :: _ => simp [attrParts] at h
  | [.node n1 m1 k1, v] => cases n1 <;> simp [attrParts] at h; exact ⟨_, by rw [h.2]⟩

theorem disp_attr (lk : Text → Option (Class F)) (fl : Floats F) (m k i fd rs) :
    disp lk fl (.node .attr m k) (some i) fd rs = match attrParts k with
      | none => none
      | some (nm, value) =>
        match rs.sc.heap i with
        | none => none
        | some n =>
          match n.cls.getField nm, isTarget value with
          | none, _ => none
          | some _, some m =>
              match rs.sc.is with
              | none => none
              | some dict => some (.nothing, { rs with sc := { rs.sc with is := some (isAppend m (i, nm) dict) } })
          | some (.inr _), none => none
          | some (.inl d), none =>
              if d.name ∈ n.cls.mapped then none
              else match disp lk fl value (some i) (some d.kind) rs with
                | none => none
                | some (v, rs) =>
                  match v.toVal with
                  | none => none
                  | some v =>
                    match rs.store i d v with
                    | none => none
                    | some rs => some (.nothing, rs) := by
  match k with
  | [] => simp [disp, attrParts]
  | [_] => simp [disp, attrParts]
  | _ :: _ :: _ :: _ => simp [disp, attrParts]
  | [.node n1 m1 k1, v] =>
    cases n1
    case name =>
      simp only [attrParts]
      rw [disp]
      rfl
    all_goals simp [disp, attrParts]

theorem disp_attr_none (lk : Text → Option (Class F)) (fl : Floats F) (m k fd rs) :
    disp lk fl (.node .attr m k) none fd rs = none := by
  match k with
  | [] => simp [disp]
  | [_] => simp [disp]
  | _ :: _ :: _ :: _ => simp [disp]
  | [.node n1 m1 k1, v] => cases n1 <;> simp [disp]

theorem isTarget_norm (t : PTree) : isTarget (norm t) = isTarget t := by
  obtain ⟨n, m, k⟩ := t
  cases n <;> rfl

theorem WFs_drop {a b : List PTree} (h : WFs (a ++ b)) : WFs b := (WFs_append.1 h).2

theorem sizeOf_append_lt {a b : List PTree} (h : a ≠ []) : sizeOf b < sizeOf (a ++ b) := by
  induction a with
  | nil => cases h rfl
  | cons x a ih =>
    simp only [List.cons_append, List.cons.sizeOf_spec]
    by_cases ha : a = []
    · subst ha; simp; omega
    · have := ih ha; omega

/-- an item of a Script without layout -/
def normItem : DItem → DItem
  | .field ex ty nm v => .field ex ty nm (norm v)
  | .event dir ty nm rest => .event dir ty nm (norms rest)
  | .attr => .attr
  | .bad => .bad

theorem ditem_norm (t : PTree) : ditem (norm t) = normItem (ditem t) := by
  obtain ⟨n, m, k⟩ := t
  cases n
  case scriptFieldDecl =>
    match k with
    | [] => rfl
    | [_] => simp [norm, isLeaf, norms, ditem, normItem]
    | [_, _] => simp [norm, isLeaf, norms, ditem, normItem]
    | [_, _, _] => simp [norm, isLeaf, norms, ditem, normItem]
    | _ :: _ :: _ :: _ :: _ :: _ => simp [norm, isLeaf, norms, ditem, normItem]
    | [.node n1 m1 k1, .node n2 m2 k2, .node n3 m3 k3, v] =>
      cases n1
      case fieldExposure =>
        cases n2
        case dataType =>
          cases n3
          case name => rfl
          all_goals simp [norm, norms, isLeaf, ditem, normItem]
        all_goals simp [norm, norms, isLeaf, ditem, normItem]
      all_goals simp [norm, norms, isLeaf, ditem, normItem]
  case scriptEventDecl =>
    match k with
    | [] => rfl
    | [_] => simp [norm, isLeaf, norms, ditem, normItem]
    | [_, _] => simp [norm, isLeaf, norms, ditem, normItem]
    | .node n1 m1 k1 :: .node n2 m2 k2 :: .node n3 m3 k3 :: v =>
      cases n1
      case eventDirection =>
        cases n2
        case dataType =>
          cases n3
          case name => rfl
          all_goals simp [norm, norms, isLeaf, ditem, normItem]
        all_goals simp [norm, norms, isLeaf, ditem, normItem]
      all_goals simp [norm, norms, isLeaf, ditem, normItem]
  all_goals rfl

theorem ditem_wf {t : PTree} (hw : WF t) {ex ty nm v} (h : ditem t = .field ex ty nm v) : WF v ∧ sizeOf v < sizeOf t := by
  obtain ⟨n, m, k⟩ := t
  cases n
  case scriptFieldDecl =>
    match k, hw with
    | [], _ => cases h
    | [_], _ => simp [ditem] at h
    | [_, _], _ => simp [ditem] at h
    | [_, _, _], _ => simp [ditem] at h
    | _ :: _ :: _ :: _ :: _ :: _, _ => simp [ditem] at h
    | [.node n1 m1 k1, .node n2 m2 k2, .node n3 m3 k3, v], hw =>
      cases n1
      case fieldExposure =>
        cases n2
        case dataType =>
          cases n3
          case name => cases h; exact ⟨hw.2.2.2.2.2.1, by simp; omega⟩
          all_goals simp [ditem] at h
        all_goals simp [ditem] at h
      all_goals simp [ditem] at h
  case scriptEventDecl =>
    match k with
    | [] => cases h
    | [_] => simp [ditem] at h
    | [_, _] => simp [ditem] at h
    | .node n1 m1 k1 :: .node n2 m2 k2 :: .node n3 m3 k3 :: v =>
      cases n1
      case eventDirection =>
        cases n2
        case dataType => cases n3 <;> simp [ditem] at h
        all_goals simp [ditem] at h
      all_goals simp [ditem] at h
  all_goals cases h

theorem scriptHead_norms (k : List PTree) : scriptHead (norms k) = ((scriptHead k).1, norms (scriptHead k).2) := by
  match k with
  | [] => rfl
  | .node n m k :: l => cases n <;> rfl

theorem scriptHead_suffix (k : List PTree) : ∃ l, k = l ++ (scriptHead k).2 := by
  match k with
  | [] => exact ⟨[], rfl⟩
  | .node n m k :: l => cases n <;> first | exact ⟨[], rfl⟩ | exact ⟨[_], rfl⟩

theorem sizeOf_append_le {a b : List PTree} : sizeOf b ≤ sizeOf (a ++ b) := by
  by_cases h : a = []
  · subst h; exact Nat.le_refl _
  · exact Nat.le_of_lt (sizeOf_append_lt h)

theorem tag_norm (t : PTree) : ParseVal.Tree.tag (norm t) = ParseVal.Tree.tag t := by
  obtain ⟨n, m, k⟩ := t
  simp only [norm]; split <;> rfl

theorem norm_disp {fl : Floats F} (hfl : PyFloat fl) (lk : Text → Option (Class F)) : ∀ N,
    (∀ t : PTree, sizeOf t < N → WF t → ∀ cur fd rs, disp lk fl (norm t) cur fd rs = disp lk fl t cur fd rs) ∧
    (∀ l : List PTree, sizeOf l < N → WFs l → ∀ cur fd rs, dispList lk fl (norms l) cur fd rs = dispList lk fl l cur fd rs) ∧
    (∀ l : List PTree, sizeOf l < N → WFs l → ∀ i p is rs, dispDecls lk fl (norms l) i p is rs = dispDecls lk fl l i p is rs) ∧
    (∀ l : List PTree, sizeOf l < N → WFs l → ∀ i fd rs, dispAttrs lk fl (norms l) i fd rs = dispAttrs lk fl l i fd rs) := by
  intro N
  induction N with
  | zero => exact ⟨fun _ h => absurd h (by omega), fun _ h => absurd h (by omega), fun _ h => absurd h (by omega), fun _ h => absurd h (by omega)⟩
  | succ N ih =>
    obtain ⟨iht, ihl, ihd, iha⟩ := ih
    refine ⟨?_, ?_, ?_, ?_⟩
    · rintro ⟨n, m, k⟩ hs hw cur fd rs
      simp only [Tree.node.sizeOf_spec] at hs
      have hk : ∀ cur fd rs, dispList lk fl (norms k) cur fd rs = dispList lk fl k cur fd rs := ihl k (by omega) hw.2.2
      cases hl : isLeaf n with
      | true => simp [norm, hl]
      | false =>
        simp only [norm, hl, Bool.false_eq_true, if_false]
        cases n
        case rootItem => simp only [disp, hk]
        case vrmlScene => simp only [disp, hk]
        case node =>
          rw [disp_node, disp_node, nodeHead_norms]
          cases h : nodeHead k with
          | none => rfl
          | some x =>
            obtain ⟨nm, gi, rest⟩ := x
            obtain ⟨l, rfl, hl⟩ := nodeHead_suffix h
            have := ihl rest (by have := sizeOf_append_lt (b := rest) hl; omega) (WFs_drop hw.2.2)
            simp only [Option.map_some, this]
        case script =>
          obtain ⟨l, hl⟩ := scriptHead_suffix k
          have h1 : sizeOf (scriptHead k).2 ≤ sizeOf k := by
            conv => rhs; rw [hl]
            exact sizeOf_append_le
          have h2 : WFs (scriptHead k).2 := by
            have := hw.2.2
            rw [hl] at this; exact WFs_drop this
          rw [disp_scriptView, disp_scriptView, scriptHead_norms]
          simp only [ihd _ (by omega : sizeOf (scriptHead k).2 < N) h2, iha _ (by omega : sizeOf (scriptHead k).2 < N) h2]
        case route => rw [disp_route, disp_route, routeNames_norms]
        case attr =>
          cases cur with
          | none => rw [disp_attr_none, disp_attr_none]
          | some i =>
            rw [disp_attr, disp_attr, attrParts_norms]
            cases h : attrParts k with
            | none => rfl
            | some x =>
              obtain ⟨nm, v⟩ := x
              obtain ⟨t, rfl⟩ := attrParts_eq h
              have := iht v (by simp at hs; omega) hw.2.2.2.1
              simp only [Option.map_some, this, isTarget_norm]
        case field =>
          cases fd with
          | none => simp only [disp]
          | some kd =>
            have hkt := hw.2.1 rfl
            cases k with
            | nil => simp only [norms, disp]
            | cons t rest =>
              obtain ⟨n, m, tk⟩ := t
              have hsv := simpleValue_norm hfl kd hw.2.2 hkt
              have h1 : ∃ m' tk', norm (.node n m tk) = .node n m' tk' := by
                simp only [norm]; split <;> exact ⟨_, _, rfl⟩
              obtain ⟨m', tk', h1⟩ := h1
              have hh := iht (.node n m tk) (by simp at hs; simp; omega) hw.2.2.1 cur (some kd) rs
              have hll := hk cur (some kd) rs
              simp only [norms, h1] at hsv hll hh ⊢
              simp only [disp, hh, hll, hsv]
        all_goals first | (simp only [disp]; done) | (simp [isLeaf] at hl; done)
    · rintro (_ | ⟨t, l⟩) hs hw cur fd rs
      · rfl
      · simp at hs
        simp only [norms, dispList]
        rw [iht t (by omega) hw.1]
        cases disp lk fl t cur fd rs with
        | none => rfl
        | some x => simp only [ihl l (by omega) hw.2]
    · rintro (_ | ⟨t, l⟩) hs hw i p is rs
      · rfl
      · simp at hs
        simp only [norms]
        rw [dispDecls_cons, dispDecls_cons, ditem_norm]
        cases hd : ditem t with
        | field ex ty nm v =>
          obtain ⟨h1, h2⟩ := ditem_wf hw.1 hd
          simp only [normItem, isTarget_norm, iht v (by omega) h1, ihd l (by omega) hw.2]
        | event dir ty nm rest =>
          cases rest with
          | nil => simp only [normItem, norms, ihd l (by omega) hw.2]
          | cons a rest => simp only [normItem, norms, isTarget_norm, ihd l (by omega) hw.2]
        | attr => simp only [normItem, ihd l (by omega) hw.2]
        | bad => rfl
    · rintro (_ | ⟨t, l⟩) hs hw i fd rs
      · rfl
      · simp at hs
        simp only [norms, dispAttrs, tag_norm, iht t (by omega) hw.1, iha l (by omega) hw.2]

theorem disp_same {fl : Floats F} (hfl : PyFloat fl) (lk : Text → Option (Class F)) {t t' : PTree} (hw : WF t) (hw' : WF t') (h : norm t = norm t') (cur fd rs) :
    disp lk fl t cur fd rs = disp lk fl t' cur fd rs := by
  rw [← (norm_disp hfl lk (sizeOf t + 1)).1 t (by omega) hw, ← (norm_disp hfl lk (sizeOf t' + 1)).1 t' (by omega) hw', h]

end Verif.Layout
