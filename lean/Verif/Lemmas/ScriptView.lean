import Verif.Model.SceneRead
/-!
The reader's functions for Scripts, by the shape of the entries.
-/
namespace Verif.Lin
open Verif.Peg Verif.Grammar Verif.TextOut
variable {F : Type}

/-- name and items of a Script -/
def scriptHead : List PTree → Text × List PTree
  | .node .name nm _ :: rest => (nm, rest)
  | rest => ([], rest)

/-- what an item of a Script is -/
inductive DItem
  | field (ex ty nm : Text) (value : PTree)
  | event (dir ty nm : Text) (rest : List PTree)
  | attr
  | bad

/-- what an item of a Script is -/
def ditem : PTree → DItem
  | .node .scriptFieldDecl _ [.node .fieldExposure ex _, .node .dataType ty _, .node .name nm _, value] => .field ex ty nm value
  | .node .scriptEventDecl _ (.node .eventDirection dir _ :: .node .dataType ty _ :: .node .name nm _ :: rest) => .event dir ty nm rest
  | .node .attr _ _ => .attr
  | _ => .bad

theorem disp_scriptView (lk : Text → Option (Class F)) (fl : Floats F) (m k cur fd rs) :
    disp lk fl (.node .script m k) cur fd rs =
      match dispDecls lk fl (scriptHead k).2 rs.next scriptProto [] (rs.newNode scriptProto.cls (scriptHead k).1) with
      | none => none
      | some (p, is, rs1) =>
        match (rs1.setClass rs.next p.cls).addIs rs.next is with
        | none => none
        | some rs2 =>
          match dispAttrs lk fl (scriptHead k).2 rs.next fd rs2 with
          | none => none
          | some rs' => some (.ref (some rs.next), rs') := by
  match k with
  | [] => simp only [disp, scriptHead]; rfl
  | .node n m k :: l => cases n <;> (simp only [disp, scriptHead]; rfl)

/-- one item in the first pass -/
theorem dispDecls_cons (lk : Text → Option (Class F)) (fl : Floats F) (t : PTree) (ts i p is rs) :
    dispDecls lk fl (t :: ts) i p is rs = match ditem t with
      | .field ex ty nm value =>
        if reserved nm then none
        else match fl.types.field ty with
          | none => none
          | some ft =>
            match isTarget value with
            | some m =>
              dispDecls lk fl ts i (p.addField ⟨⟨nm, ty, ft.kind, ft.str, ft.conv, fl.types.dflt ty⟩, decide (ex = chars "exposedField")⟩) (is ++ [(m, nm)]) rs
            | none =>
              match disp lk fl value (some i) (some ft.kind) rs with
              | none => none
              | some (v, rs) =>
                match v.toVal with
                | none => none
                | some v => dispDecls lk fl ts i (p.addField ⟨⟨nm, ty, ft.kind, ft.str, ft.conv, dfltOf v⟩, decide (ex = chars "exposedField")⟩) is rs
      | .event dir ty nm rest =>
        if reserved nm || nm == chars "externalURL" then none
        else if fl.types.event ty then
          match rest with
          | [] => dispDecls lk fl ts i (p.addEvent ⟨nm, ty, decide (dir = chars "eventOut")⟩) is rs
          | t :: _ => match isTarget t with
            | some m => dispDecls lk fl ts i (p.addEvent ⟨nm, ty, decide (dir = chars "eventOut")⟩) (is ++ [(m, nm)]) rs
            | none => none
        else none
      | .attr => dispDecls lk fl ts i p is rs
      | .bad => none := by
  obtain ⟨n, m, k⟩ := t
  cases n
  case scriptFieldDecl =>
    match k with
    | [] => simp [dispDecls, ditem]
    | [_] => simp [dispDecls, ditem]
    | [_, _] => simp [dispDecls, ditem]
    | [_, _, _] => simp [dispDecls, ditem]
    | _ :: _ :: _ :: _ :: _ :: _ => simp [dispDecls, ditem]
    | [.node n1 m1 k1, .node n2 m2 k2, .node n3 m3 k3, v] =>
      cases n1
      case fieldExposure =>
        cases n2
        case dataType =>
          cases n3
          case name => simp only [dispDecls, ditem]; rfl
          all_goals simp [dispDecls, ditem]
        all_goals simp [dispDecls, ditem]
      all_goals simp [dispDecls, ditem]
  case scriptEventDecl =>
    match k with
    | [] => simp [dispDecls, ditem]
    | [_] => simp [dispDecls, ditem]
    | [_, _] => simp [dispDecls, ditem]
    | .node n1 m1 k1 :: .node n2 m2 k2 :: .node n3 m3 k3 :: v =>
      cases n1
      case eventDirection =>
        cases n2
        case dataType =>
          cases n3
          case name => simp only [dispDecls, ditem]; rfl
          all_goals simp [dispDecls, ditem]
        all_goals simp [dispDecls, ditem]
      all_goals simp [dispDecls, ditem]
  case attr => simp only [dispDecls, ditem]
  all_goals simp [dispDecls, ditem]

end Verif.Lin
