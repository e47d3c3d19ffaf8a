import Verif.Model.Grammar
import Verif.Model.TextOut
/-!
Specification for C73 and C74: the scopes of names in VRML files.

A file is seen as the sequence of the places where names are declared or used, in the order in which they are read.
The names of prototypes are visible from the end of their declaration to the end of the scene (the file, or the body
of a PROTO) they are declared in, and in the bodies of the PROTOs inside; DEF names are visible only in their own
scene; the latest declaration of a name counts.
-/
namespace Verif.Scopes
open Verif.Peg Verif.Grammar Verif.TextOut

/-- Places where names are declared or used. -/
inductive Mark
  /-- a node of type `gi`, with DEF name `DEF` (empty: none), begins -/
  | node (gi DEF : Text)
  /-- a Script begins -/
  | script (DEF : Text)
  /-- a USE -/
  | use (name : Text)
  /-- a ROUTE from field `sf` of `s` to field `df` of `d` -/
  | route (s sf d df : Text)
  /-- a PROTO or EXTERNPROTO begins, with this interface -/
  | proto (iface : List (Tree NT))
  /-- the body of a PROTO begins, and ends -/
  | openBody
  | closeBody
  /-- a PROTO or EXTERNPROTO ends -/
  | endProto (name : Text)

/-- Entries of a field value that are nodes. -/
def nodeEntry : Tree NT → Bool
  | .node .use _ _ | .node .script _ _ | .node .node _ _ | .node .sfNull _ _ => true
  | _ => false

mutual
/-- `Places t l`: reading the entry `t` of the parse tree passes the places `l`.  Of several nodes given as value of a field,
all are read or (if the field holds a single node) only the first. -/
inductive Places : Tree NT → List Mark → Prop
  | item {m kids l} : PlacesAll kids l → Places (.node .rootItem m kids) l
  | proto {m nm a rest l} : Parts rest l → Places (.node .proto m (.node .nodegi nm a :: rest)) (.proto rest :: (l ++ [.endProto nm]))
  | extern {m nm a rest l} : Parts rest l → Places (.node .externProto m (.node .nodegi nm a :: rest)) (.proto rest :: (l ++ [.endProto nm]))
  | node {m gi a rest l} : PlacesAll rest l → Places (.node .node m (.node .nodegi gi a :: rest)) (.node gi [] :: l)
  | defNode {m DEF a gi b rest l} : PlacesAll rest l → Places (.node .node m (.node .name DEF a :: .node .nodegi gi b :: rest)) (.node gi DEF :: l)
  | script {m rest l l'} : Decls rest l → Attrs rest l' → Places (.node .script m rest) (.script [] :: (l ++ l'))
  | defScript {m DEF a rest l l'} : Decls rest l → Attrs rest l' → Places (.node .script m (.node .name DEF a :: rest)) (.script DEF :: (l ++ l'))
  | null {m kids} : Places (.node .sfNull m kids) []
  | use {nm kids} : Places (.node .use nm kids) [.use nm]
  | route {m s sf d df a b c e} : Places (.node .route m [.node .name s a, .node .name sf b, .node .name d c, .node .name df e]) [.route s sf d df]
  | isAttr {m nm a x kids} : Places (.node .attr m [.node .name nm a, .node .is x kids]) []
  | attr {m nm a v l} : Places v l → Places (.node .attr m [.node .name nm a, v]) l
  | allNodes {m kids l} : PlacesAll kids l → Places (.node .field m kids) l
  | firstNode {m t kids l} : nodeEntry t = true → Places t l → Places (.node .field m (t :: kids)) l
  | simple {m kids} : (∀ t ∈ kids.head?, nodeEntry t = false) → Places (.node .field m kids) []
/-- entries in order -/
inductive PlacesAll : List (Tree NT) → List Mark → Prop
  | nil : PlacesAll [] []
  | cons {t ts l l'} : Places t l → PlacesAll ts l' → PlacesAll (t :: ts) (l ++ l')
/-- the interface of a prototype, and its body -/
inductive Parts : List (Tree NT) → List Mark → Prop
  | body {m kids l} : PlacesAll kids l → Parts [.node .vrmlScene m kids] (.openBody :: (l ++ [.closeBody]))
  | urls {m kids} : Parts [.node .extProtoURL m kids] []
  | field {m a b c v ts l l'} : Places v l → Parts ts l' → Parts (.node .fieldDecl m [a, b, c, v] :: ts) (l ++ l')
  | extField {m kids ts l} : Parts ts l → Parts (.node .extFieldDecl m kids :: ts) l
  | event {m kids ts l} : Parts ts l → Parts (.node .eventDecl m kids :: ts) l
/-- the items of a Script except attributes: they are read first -/
inductive Decls : List (Tree NT) → List Mark → Prop
  | nil : Decls [] []
  | field {m a b c v ts l l'} : Places v l → Decls ts l' → Decls (.node .scriptFieldDecl m [a, b, c, v] :: ts) (l ++ l')
  | isField {m a b c x kids ts l} : Decls ts l → Decls (.node .scriptFieldDecl m [a, b, c, .node .is x kids] :: ts) l
  | event {m kids ts l} : Decls ts l → Decls (.node .scriptEventDecl m kids :: ts) l
  | attr {m kids ts l} : Decls ts l → Decls (.node .attr m kids :: ts) l
  | proto {m kids ts l l'} : Places (.node .proto m kids) l → Decls ts l' → Decls (.node .proto m kids :: ts) (l ++ l')
  | extern {m kids ts l l'} : Places (.node .externProto m kids) l → Decls ts l' → Decls (.node .externProto m kids :: ts) (l ++ l')
  | route {m kids ts l l'} : Places (.node .route m kids) l → Decls ts l' → Decls (.node .route m kids :: ts) (l ++ l')
/-- the attributes of a Script: they are read last -/
inductive Attrs : List (Tree NT) → List Mark → Prop
  | nil : Attrs [] []
  | attr {m kids ts l l'} : Places (.node .attr m kids) l → Attrs ts l' → Attrs (.node .attr m kids :: ts) (l ++ l')
  | other {t ts l} : (∀ m kids, t ≠ .node .attr m kids) → Attrs ts l → Attrs (t :: ts) l
end

mutual
/-- no nodes, Scripts or USEs in the entry -/
def nodeFree : Tree NT → Bool
  | .node t _ kids => t != .node && t != .script && t != .use && nodesFree kids
def nodesFree : List (Tree NT) → Bool
  | [] => true
  | t :: l => nodeFree t && nodesFree l
end

mutual
/-- The default values in interfaces of PROTOs contain no nodes. -/
def plainDefaults : Tree NT → Bool
  | .node t _ kids => (t != .fieldDecl || nodesFree kids) && allPlain kids
def allPlain : List (Tree NT) → Bool
  | [] => true
  | t :: l => plainDefaults t && allPlain l
end

/-! ### What names mean -/

/-- A connection between two nodes. -/
structure Link where
  src : Nat
  srcField : Text
  dst : Nat
  dstField : Text
deriving DecidableEq, Repr

/-- One scene: the names declared in it, latest first (prototypes and nodes, by number), and its ROUTEs. -/
structure Scope where
  scene : Nat
  protos : List (Text × Nat)
  defs : List (Text × Nat)
  routes : List Link
deriving DecidableEq, Repr

/-- A node: its type name, the prototype that is (none: built in), and its DEF name. -/
structure NodeInfo where
  gi : Text
  proto : Option Nat
  DEF : Text
deriving DecidableEq, Repr

/-- The scopes around the current place (innermost first), those already closed, the prototypes that are being declared,
how many prototypes and scenes there are so far, the nodes so far, in order, the interfaces of the prototypes so far, in order, and the scenes that are
the bodies of prototypes. -/
structure Names where
  around : List Scope
  closed : List Scope
  pending : List Nat
  nprotos : Nat
  nscenes : Nat
  nodes : List NodeInfo
  ifaces : List (List (Tree NT))
  bodies : List (Nat × Nat)

/-- The prototype that a type name denotes: the latest declaration in the innermost scope that has one. -/
def Names.proto (s : Names) (gi : Text) : Option Nat := s.around.findSome? (fun c => c.protos.lookup gi)

/-- The node that a name denotes: the latest node of that name in the innermost scope. -/
def Names.named (s : Names) (nm : Text) : Option Nat := s.around.head?.bind (fun c => c.defs.lookup nm)

/-- change the innermost scope -/
def Names.onScope (s : Names) (f : Scope → Scope) : Names := { s with around := match s.around with | [] => [] | c :: l => f c :: l }

/-- A new node, known in the innermost scope under its DEF name. -/
def Names.addNode (s : Names) (gi : Text) (proto : Option Nat) (DEF : Text) : Names :=
  let s' := { s with nodes := s.nodes ++ [⟨gi, proto, DEF⟩] }
  if DEF = [] then s' else s'.onScope (fun c => { c with defs := (DEF, s.nodes.length) :: c.defs })

/-- One place; `none`: the name is not declared.  `builtin` are the names of built-in node types. -/
def Names.step (builtin : Text → Bool) (s : Names) : Mark → Option Names
  | .node gi DEF =>
    match s.proto gi with
    | some k => some (s.addNode gi (some k) DEF)
    | none => if builtin gi then some (s.addNode gi none DEF) else none
  | .script DEF => some (s.addNode ['S', 'c', 'r', 'i', 'p', 't'] none DEF)
  | .use nm => if (s.named nm).isSome then some s else none
  | .route a sf b df =>
    match s.named a, s.named b with
    | some i, some j => some (s.onScope (fun c => { c with routes := c.routes ++ [⟨i, sf, j, df⟩] }))
    | _, _ => none
  | .proto rest => some { s with pending := s.nprotos :: s.pending, nprotos := s.nprotos + 1, ifaces := s.ifaces ++ [rest] }
  | .openBody => some { s with around := ⟨s.nscenes, [], [], []⟩ :: s.around, nscenes := s.nscenes + 1 }
  | .closeBody => match s.around, s.pending with
    | c :: l, k :: _ => some { s with around := l, closed := c :: s.closed, bodies := (k, c.scene) :: s.bodies }
    | _, _ => none
  | .endProto nm => match s.pending with
    | [] => none
    | k :: l => some { s.onScope (fun c => { c with protos := (nm, k) :: c.protos }) with pending := l }

/-- All places, in order. -/
def Names.run (builtin : Text → Bool) : List Mark → Names → Option Names
  | [], s => some s
  | m :: l, s => match s.step builtin m with
    | none => none
    | some s => Names.run builtin l s

/-- The places without those where DEF names are used. -/
def typeMarks (l : List Mark) : List Mark := l.filter (fun m => match m with | .use _ | .route .. => false | _ => true)

/-- Before a file is read: the scope of the file, scene number 0. -/
def Names.start : Names := ⟨[⟨0, [], [], []⟩], [], [], 0, 1, [], [], []⟩

end Verif.Scopes
