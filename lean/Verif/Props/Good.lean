import Verif.Lemmas.Good6
import Verif.Props.Accept
/-!
C90: files with prototypes that follow the rules of `Spec/Good` are read.
-/
namespace Verif.Full
open Verif.Peg Verif.Grammar Verif.TextOut Verif.SceneText Verif.Reader Verif.Scopes
open Verif.Lin hiding disp dispList dispDecls dispAttrs disp_node disp_attr
variable {F : Type}

theorem init_sim (fl : Floats F) : GSim [] [Scope.empty] (fun _ => none) [0] [] (World.init fl) :=
  ⟨fun _ _ => rfl, fun _ _ => rfl, fun x hx => by (cases hx), .cons ⟨Nat.zero_lt_one, rfl, fun nm p h => by (cases h), .nil⟩ .nil, by simp, by simp, .nil⟩

theorem items_good {base : Text → Option (Class F)} {fl : Floats F} (hB : Builtins base fl) {kids : List PTree} {e' : List (Scope F)} (h : GoodAll base fl none kids [Scope.empty] e') :
    ∃ vs w, dispList base fl kids [0] [] none none (World.init fl) = some (vs, w) ∧ GSim [] e' (fun _ => none) [0] [] w := by
  obtain ⟨vs, w, h1, h2, -⟩ := good_all hB.plain hB.types h [] _ _ _ _ none none rfl (init_sim fl) (.inr rfl)
  exact ⟨vs, w, h1, h2⟩

/-- **C90** A file, with or without prototypes, that follows the rules `Good` is read. -/
theorem C90_accepted {base : Text → Option (Class F)} {fl : Floats F} (hB : Builtins base fl) {text : Text} {kids : List PTree} (hk : ItemsOf text kids)
    (h : ∃ e', GoodAll base fl none kids [Scope.empty] e') : ∃ w, ReadsWorld base fl text w := by
  obtain ⟨e', h⟩ := h
  obtain ⟨hdr, sm, eof, m, hd⟩ := hk
  obtain ⟨vs, w, h1, -⟩ := items_good hB h
  exact ⟨w, hdr, sm, kids, eof, m, vs, hd, h1⟩

/-- **C90** After such a file has been read, every name that the rules say is given by DEF denotes a node with the fields and events that they say; and the prototypes of
the file's scene are those that they say, in this order (latest first), with these interfaces. -/
theorem C90_known {base : Text → Option (Class F)} {fl : Floats F} (hB : Builtins base fl) {text : Text} {kids : List PTree} (hk : ItemsOf text kids) {s : Scope F}
    (h : GoodAll base fl none kids [Scope.empty] [s]) {w : World F} (hr : ReadsWorld base fl text w) :
    (∀ nm p, s.names.lookup nm = some p → ∃ i n, w.getDEF 0 nm = some i ∧ w.heap i = some n ∧ classPorts n.cls = p) ∧
    List.Forall₂ (fun (a : Text × Ports F) (b : Text × Nat) => a.1 = b.1 ∧ classPorts (w.cls b.2).cls = a.2) s.protos (w.scene 0).protos := by
  obtain ⟨hdr, sm, kids', eof, m, vs, hd, hr⟩ := hr
  obtain ⟨hdr', sm', eof', m', hd'⟩ := hk
  cases hd.det _ hd'
  obtain ⟨vs', w', h1, h2⟩ := items_good hB h
  rw [hr] at h1
  cases h1
  cases h2.scopes with
  | cons h3 _ =>
    refine ⟨fun nm p hp => ?_, h3.protos.imp (fun a b hab => ⟨hab.1, hab.2.ports⟩)⟩
    obtain ⟨i, q1, q2⟩ := h3.names nm p hp
    obtain ⟨c, q3, q4⟩ := portsAt_none q2
    obtain ⟨n, q5, rfl⟩ := Option.map_eq_some_iff.1 q3
    exact ⟨i, n, q1, q5, q4⟩

/-! ### Examples -/

def exProtos : Text := file (chars "PROTO P [ field SFFloat c 7 eventIn SFTime t ] { DEF B Group { x IS c } ROUTE B.x TO B.x } DEF A P { c 3 } ROUTE A.c TO A.c Group { children [ USE A P { } ] }")

/-- the items of `exProtos` -/
def exProtosItems : List PTree := [
    .node .rootItem (chars "\nPROTO P [ field SFFloat c 7 eventIn SFTime t ] { DEF B Group { x IS c } ROUTE B.x TO B.x } ") [.node .proto (chars "PROTO P [ field SFFloat c 7 eventIn SFTime t ] { DEF B Group { x IS c } ROUTE B.x TO B.x } ") [.node .nodegi (chars "P") [.node .name (chars "P") []], .node .fieldDecl (chars "field SFFloat c 7 ") [.node .fieldExposure (chars "field") [], .node .dataType (chars "SFFloat") [.node .name (chars "Float") []], .node .name (chars "c") [], .node .field (chars "7 ") [.node .sfNumber (chars "7") []]], .node .eventDecl (chars "eventIn SFTime t ") [.node .eventDirection (chars "eventIn") [], .node .dataType (chars "SFTime") [.node .name (chars "Time") []], .node .name (chars "t") []], .node .vrmlScene (chars "DEF B Group { x IS c } ROUTE B.x TO B.x ") [.node .rootItem (chars "DEF B Group { x IS c } ") [.node .node (chars "DEF B Group { x IS c } ") [.node .name (chars "B") [], .node .nodegi (chars "Group") [.node .name (chars "Group") []], .node .attr (chars "x IS c ") [.node .name (chars "x") [], .node .is (chars "c") [.node .name (chars "c") []]]]], .node .rootItem (chars "ROUTE B.x TO B.x ") [.node .route (chars "ROUTE B.x TO B.x ") [.node .name (chars "B") [], .node .name (chars "x") [], .node .name (chars "B") [], .node .name (chars "x") []]]]]],
    .node .rootItem (chars "DEF A P { c 3 } ") [.node .node (chars "DEF A P { c 3 } ") [.node .name (chars "A") [], .node .nodegi (chars "P") [.node .name (chars "P") []], .node .attr (chars "c 3 ") [.node .name (chars "c") [], .node .field (chars "3 ") [.node .sfNumber (chars "3") []]]]],
    .node .rootItem (chars "ROUTE A.c TO A.c ") [.node .route (chars "ROUTE A.c TO A.c ") [.node .name (chars "A") [], .node .name (chars "c") [], .node .name (chars "A") [], .node .name (chars "c") []]],
    .node .rootItem (chars "Group { children [ USE A P { } ] }") [.node .node (chars "Group { children [ USE A P { } ] }") [.node .nodegi (chars "Group") [.node .name (chars "Group") []], .node .attr (chars "children [ USE A P { } ] ") [.node .name (chars "children") [], .node .field (chars "[ USE A P { } ] ") [.node .use (chars "A") [.node .name (chars "A") []], .node .node (chars "P { } ") [.node .nodegi (chars "P") [.node .name (chars "P") []]]]]]]]

set_option maxRecDepth 8000 in
theorem exProtos_items : ItemsOf exProtos exProtosItems := ⟨_, _, _, _, run_sound 400 _ _ _ (by rfl)⟩

/-- `PROTO P [ field SFFloat c 7 eventIn SFTime t ] { DEF B Group { x IS c } ROUTE B.x TO B.x } DEF A P { c 3 } ROUTE A.c TO A.c Group { children [ USE A P { } ] }` follows the rules; it
declares P and gives the name A. -/
example : ∃ s, GoodAll exLookup exFloats none exProtosItems [Scope.empty] [s] ∧ s.names.map Prod.fst = [chars "A"] ∧ s.protos.map Prod.fst = [chars "P"] := by
  refine ⟨_, .cons (.item (.cons (.proto (by decide) (.field (ft := ⟨.sfFloat, intStr, id⟩) rfl (by decide) (.text (v := .num 7) (by simp [nodeEntry]) rfl (by decide)) (.event (by decide) (by decide) (by decide) (.body
    (.cons (.item (.cons (.defNode (p := classPorts exClass) (by decide) rfl (.is ⟨_, .field .sfFloat id, .field .sfFloat id, rfl, resolveName_exact rfl, resolveName_exact rfl, rfl⟩ .nil)) .nil))
    (.cons (.item (.cons (.route rfl rfl (fun k conv h => ⟨conv, h⟩)) .nil)) .nil)))))) .nil))
    (.cons (.item (.cons (.defNode (by decide) rfl (.attr (k := .sfFloat) (conv := id) (resolveName_exact rfl) (.text (v := .num 3) (by simp [nodeEntry]) rfl (by decide)) .nil)) .nil))
    (.cons (.item (.cons (.route rfl rfl (fun k conv h => ⟨conv, h⟩)) .nil))
    (.cons (.item (.cons (.node (p := classPorts exClass) rfl (.attr (k := .mfNode) (conv := id) (resolveName_exact rfl) (.all (by decide) (.inl (.inl rfl)) (by simp [nodeEntry])
      (.cons (.use rfl) (.cons (.node rfl .nil) .nil))) .nil)) .nil)) .nil))), rfl, rfl⟩

def exInner : Text := file (chars "DEF A Group { PROTO Q [ ] { } ROUTE A.x TO A.x children Q { } x 3 } Q { }")

/-- the items of `exInner` -/
def exInnerItems : List PTree := [
    .node .rootItem (chars "\nDEF A Group { PROTO Q [ ] { } ROUTE A.x TO A.x children Q { } x 3 } ") [.node .node (chars "DEF A Group { PROTO Q [ ] { } ROUTE A.x TO A.x children Q { } x 3 } ") [.node .name (chars "A") [], .node .nodegi (chars "Group") [.node .name (chars "Group") []],
      .node .proto (chars "PROTO Q [ ] { } ") [.node .nodegi (chars "Q") [.node .name (chars "Q") []], .node .vrmlScene (chars "") []],
      .node .route (chars "ROUTE A.x TO A.x ") [.node .name (chars "A") [], .node .name (chars "x") [], .node .name (chars "A") [], .node .name (chars "x") []],
      .node .attr (chars "children Q { } ") [.node .name (chars "children") [], .node .field (chars "Q { } ") [.node .node (chars "Q { } ") [.node .nodegi (chars "Q") [.node .name (chars "Q") []]]]],
      .node .attr (chars "x 3 ") [.node .name (chars "x") [], .node .field (chars "3 ") [.node .sfNumber (chars "3") []]]]],
    .node .rootItem (chars "Q { }") [.node .node (chars "Q { }") [.node .nodegi (chars "Q") [.node .name (chars "Q") []]]]]

set_option maxRecDepth 8000 in
theorem exInner_items : ItemsOf exInner exInnerItems := ⟨_, _, _, _, run_sound 400 _ _ _ (by rfl)⟩

/-- `DEF A Group { PROTO Q [ ] { } ROUTE A.x TO A.x children Q { } x 3 } Q { }` follows the rules: the prototype is declared in the braces of the node, and known after it. -/
example : ∃ s, GoodAll exLookup exFloats none exInnerItems [Scope.empty] [s] ∧ s.names.map Prod.fst = [chars "A"] ∧ s.protos.map Prod.fst = [chars "Q"] := by
  refine ⟨_, .cons (.item (.cons (.defNode (p := classPorts exClass) (by decide) rfl
    (.entry (.inr (.inl rfl)) (.proto (by decide) (.body .nil))
    (.entry (.inl rfl) (.route rfl rfl (fun k conv h => ⟨conv, h⟩))
    (.attr (k := .mfNode) (conv := id) (resolveName_exact rfl) (.all (by decide) (.inl (.inl rfl)) (by simp [nodeEntry]) (.cons (.node rfl .nil) .nil))
    (.attr (k := .sfFloat) (conv := id) (resolveName_exact rfl) (.text (v := .num 3) (by simp [nodeEntry]) rfl (by decide)) .nil))))) .nil))
    (.cons (.item (.cons (.node rfl .nil) .nil)) .nil), rfl, rfl⟩

/-- Files that break the rules and are not read: a value for an event, IS with another kind of field, a prototype used in its own body, IS with a name that is not in the
interface, and a value of the wrong kind. -/
example : [chars "PROTO P [ eventIn SFTime t ] { } P { t 1 }", chars "PROTO P [ field SFFloat c 7 ] { Group { children IS c } } P { }", chars "PROTO P [ ] { P { } }", chars "PROTO P [ field SFFloat c 7 ] { Group { x IS d } } P { }",
    chars "PROTO P [ field SFFloat c 7 ] { Group { } } P { c TRUE }"].all
    (fun s => refuses exLookup exFloats 400 (file s)) = true := by decide +kernel

end Verif.Full
