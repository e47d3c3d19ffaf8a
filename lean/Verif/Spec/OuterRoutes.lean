import Verif.Spec.Accept
/-!
Specification for C93 and C95 with Scripts: files whose ROUTEs stand outside the nodes.
-/
namespace Verif.Full
open Verif.TextOut
open Verif.Lin hiding disp dispList dispDecls dispAttrs

mutual
/-- no ROUTE, PROTO or EXTERNPROTO stands in it -/
def noRoutes : PTree → Bool
  | .node t _ kids => t != .route && t != .proto && t != .externProto && noRoutesAll kids
def noRoutesAll : List PTree → Bool
  | [] => true
  | t :: ts => noRoutes t && noRoutesAll ts
end

/-- a ROUTE, or something without ROUTEs in it -/
def outerItem : PTree → Bool
  | .node t _ kids => t == .route || noRoutes (.node t [] kids)

/-- Every ROUTE of the file stands outside the nodes (and there are no prototypes). -/
def outerRoutes (kids : List PTree) : Bool := kids.all (fun t => match t with
  | .node .rootItem _ ks => ks.all outerItem
  | _ => false)

end Verif.Full
