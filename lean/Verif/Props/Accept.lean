import Verif.Lemmas.Accept3
import Verif.Props.Content
/-!
C80: which files without prototypes are read.
-/
namespace Verif.Full
open Verif.Peg Verif.Grammar Verif.TextOut Verif.SceneText Verif.Reader Verif.Scopes
open Verif.Lin hiding disp dispList dispDecls dispAttrs disp_node disp_attr
variable {F : Type}

theorem items_acc {base : Text → Option (Class F)} {fl : Floats F} (hB : Builtins base fl) {text : Text} {kids : List PTree} (hk : ItemsOf text kids) (hp : noProtosAll kids = true) :
    Sync (dispList base fl kids [0] [] none none (World.init fl)) (FineAll base fl kids []) (fun x s' => Ok x.2 s') := by
  obtain ⟨hdr, sm, eof, m, hd⟩ := hk
  have hn := (der_named hd _ _ _ rfl).2.1.2
  have hsh := (Shape.der_shape hd _ _ _ rfl).2
  simp only [Shape.Shapeds, Shape.Shaped] at hsh
  refine (dispList_acc hB.plain kids none none (World.init fl) [] init_ok hn hsh.2.1.2 hp (fun t ht => ?_)).weaken (fun x s' hq => hq.1.1)
  have := Shape.scene_tags hsh.2.1.1 (ParseVal.Tree.tag t) (List.mem_map.2 ⟨t, ht, rfl⟩)
  rw [this]
  decide

/-- **C80** A file without prototypes is read exactly if it follows the rules `Fine`: every node is of a built-in type, every attribute is for a field of that type and its
value can be read as a value of the field, every declaration in a Script is of a known type, and every name in USE and ROUTE was given by DEF before. -/
theorem C80_accepted_iff_fine {base : Text → Option (Class F)} {fl : Floats F} (hB : Builtins base fl) {text : Text} {kids : List PTree} (hk : ItemsOf text kids) (hp : noProtosAll kids = true) :
    (∃ w, ReadsWorld base fl text w) ↔ ∃ s', FineAll base fl kids [] s' := by
  have h := items_acc hB hk hp
  constructor
  · rintro ⟨w, hdr, sm, kids', eof, m, vs, hd, hr⟩
    obtain ⟨hdr', sm', eof', m', hd'⟩ := hk
    cases hd.det _ hd'
    obtain ⟨s', h1, -⟩ := h.1 _ hr
    exact ⟨s', h1⟩
  · rintro ⟨s', hs⟩
    obtain ⟨⟨vs, w⟩, hx, -⟩ := h.2 s' hs
    obtain ⟨hdr, sm, eof, m, hd⟩ := hk
    exact ⟨w, hdr, sm, kids, eof, m, vs, hd, hx⟩

/-- **C80** The names known after reading are those that the rules collect. -/
theorem C80_known_names {base : Text → Option (Class F)} {fl : Floats F} (hB : Builtins base fl) {text : Text} {w : World F} (h : ReadsWorld base fl text w) {kids : List PTree}
    (hk : ItemsOf text kids) (hp : noProtosAll kids = true) : ∃ s', FineAll base fl kids [] s' ∧ ∀ nm, (∃ i, w.getDEF 0 nm = some i) ↔ nm ∈ s' := by
  obtain ⟨hdr, sm, kids', eof, m, vs, hd, hr⟩ := h
  have h := items_acc hB hk hp
  obtain ⟨hdr', sm', eof', m', hd'⟩ := hk
  cases hd.det _ hd'
  obtain ⟨s', h1, h2⟩ := h.1 _ hr
  exact ⟨s', h1, fun nm => by rw [← h2.names nm, Option.isSome_iff_exists]⟩

/-! ### More names do no harm -/

mutual
theorem Fine.more {base : Text → Option (Class F)} {fl : Floats F} : ∀ {t s s'}, Fine base fl t s s' → ∀ {S : List Text}, s ⊆ S → ∃ S', Fine base fl t S S' ∧ s' ⊆ S'
  | _, _, _, .item h, S, hS => by obtain ⟨S', h1, h2⟩ := FineAll.more h hS; exact ⟨S', .item h1, h2⟩
  | _, _, _, .null, S, hS => ⟨S, .null, hS⟩
  | _, _, _, .use h, S, hS => ⟨S, .use (hS h), hS⟩
  | _, _, _, .route h h', S, hS => ⟨S, .route (hS h) (hS h'), hS⟩
  | _, _, _, .node h h', S, hS => by obtain ⟨S', h1, h2⟩ := FineAttrs.more h' hS; exact ⟨S', .node h h1, h2⟩
  | _, _, _, .defNode h h', S, hS => by obtain ⟨S', h1, h2⟩ := FineAttrs.more h' (List.cons_subset_cons _ hS); exact ⟨S', .defNode h h1, h2⟩
  | _, _, _, .script h h1 h2, S, hS => by
    obtain ⟨S1, g1, g2⟩ := FineDecls.more h1 hS
    obtain ⟨S2, g3, g4⟩ := FineLater.more h2 g2
    exact ⟨S2, .script h g1 g3, g4⟩
  | _, _, _, .defScript h1 h2, S, hS => by
    obtain ⟨S1, g1, g2⟩ := FineDecls.more h1 (List.cons_subset_cons _ hS)
    obtain ⟨S2, g3, g4⟩ := FineLater.more h2 g2
    exact ⟨S2, .defScript g1 g3, g4⟩
theorem FineAll.more {base : Text → Option (Class F)} {fl : Floats F} : ∀ {t s s'}, FineAll base fl t s s' → ∀ {S : List Text}, s ⊆ S → ∃ S', FineAll base fl t S S' ∧ s' ⊆ S'
  | _, _, _, .nil, S, hS => ⟨S, .nil, hS⟩
  | _, _, _, .cons h1 h2, S, hS => by
    obtain ⟨S1, g1, g2⟩ := Fine.more h1 hS
    obtain ⟨S2, g3, g4⟩ := FineAll.more h2 g2
    exact ⟨S2, .cons g1 g3, g4⟩
theorem FineValue.more {base : Text → Option (Class F)} {fl : Floats F} : ∀ {k conv t s s'}, FineValue base fl k conv t s s' → ∀ {S : List Text}, s ⊆ S → ∃ S', FineValue base fl k conv t S S' ∧ s' ⊆ S'
  | _, _, _, _, _, .text h h1 h2, S, hS => ⟨S, .text h h1 h2, hS⟩
  | _, _, _, _, _, .one h h1 h2, S, hS => by obtain ⟨S', g1, g2⟩ := Fine.more h2 hS; exact ⟨S', .one h h1 g1, g2⟩
  | _, _, _, _, _, .all h h1 h2, S, hS => by obtain ⟨S', g1, g2⟩ := FineAll.more h2 hS; exact ⟨S', .all h h1 g1, g2⟩
theorem FineAttrs.more {base : Text → Option (Class F)} {fl : Floats F} : ∀ {ports t s s'}, FineAttrs base fl ports t s s' → ∀ {S : List Text}, s ⊆ S → ∃ S', FineAttrs base fl ports t S S' ∧ s' ⊆ S'
  | _, _, _, _, .nil, S, hS => ⟨S, .nil, hS⟩
  | _, _, _, _, .attr h h1 h2, S, hS => by
    obtain ⟨S1, g1, g2⟩ := FineValue.more h1 hS
    obtain ⟨S2, g3, g4⟩ := FineAttrs.more h2 g2
    exact ⟨S2, .attr h g1 g3, g4⟩
  | _, _, _, _, .route h1 h2, S, hS => by
    obtain ⟨S1, g1, g2⟩ := Fine.more h1 hS
    obtain ⟨S2, g3, g4⟩ := FineAttrs.more h2 g2
    exact ⟨S2, .route g1 g3, g4⟩
theorem FineDecls.more {base : Text → Option (Class F)} {fl : Floats F} : ∀ {t s s'}, FineDecls base fl t s s' → ∀ {S : List Text}, s ⊆ S → ∃ S', FineDecls base fl t S S' ∧ s' ⊆ S'
  | _, _, _, .nil, S, hS => ⟨S, .nil, hS⟩
  | _, _, _, .field h h' h1 h2, S, hS => by
    obtain ⟨S1, g1, g2⟩ := FineValue.more h1 hS
    obtain ⟨S2, g3, g4⟩ := FineDecls.more h2 g2
    exact ⟨S2, .field h h' g1 g3, g4⟩
  | _, _, _, .event h h' h'' h2, S, hS => by
    obtain ⟨S2, g3, g4⟩ := FineDecls.more h2 hS
    exact ⟨S2, .event h h' h'' g3, g4⟩
  | _, _, _, .attr h2, S, hS => by
    obtain ⟨S2, g3, g4⟩ := FineDecls.more h2 hS
    exact ⟨S2, .attr g3, g4⟩
  | _, _, _, .route h1 h2, S, hS => by
    obtain ⟨S1, g1, g2⟩ := Fine.more h1 hS
    obtain ⟨S2, g3, g4⟩ := FineDecls.more h2 g2
    exact ⟨S2, .route g1 g3, g4⟩
theorem FineLater.more {base : Text → Option (Class F)} {fl : Floats F} : ∀ {ports t s s'}, FineLater base fl ports t s s' → ∀ {S : List Text}, s ⊆ S → ∃ S', FineLater base fl ports t S S' ∧ s' ⊆ S'
  | _, _, _, _, .nil, S, hS => ⟨S, .nil, hS⟩
  | _, _, _, _, .attr h h1 h2, S, hS => by
    obtain ⟨S1, g1, g2⟩ := FineValue.more h1 hS
    obtain ⟨S2, g3, g4⟩ := FineLater.more h2 g2
    exact ⟨S2, .attr h g1 g3, g4⟩
  | _, _, _, _, .other h h2, S, hS => by
    obtain ⟨S2, g3, g4⟩ := FineLater.more h2 hS
    exact ⟨S2, .other h g3, g4⟩
end

theorem fineAll_append {base : Text → Option (Class F)} {fl : Floats F} : ∀ {a b : List PTree} {s s'}, FineAll base fl (a ++ b) s s' ↔ ∃ s1, FineAll base fl a s s1 ∧ FineAll base fl b s1 s'
  | [], b, s, s' => ⟨fun h => ⟨s, .nil, h⟩, fun ⟨s1, h, h'⟩ => by cases h; exact h'⟩
  | t :: a, b, s, s' => by
    constructor
    · intro h
      cases h with
      | cons h1 h2 =>
        obtain ⟨s1, h3, h4⟩ := fineAll_append.1 h2
        exact ⟨s1, .cons h1 h3, h4⟩
    · rintro ⟨s1, h, h'⟩
      cases h with
      | cons h1 h2 => exact .cons h1 (fineAll_append.2 ⟨s1, h2, h'⟩)

theorem noProtosAll_append {a b : List PTree} : noProtosAll (a ++ b) = (noProtosAll a && noProtosAll b) := by
  induction a with
  | nil => rfl
  | cons t a ih => simp [noProtosAll, ih, Bool.and_assoc]

/-- **C80** If two files without prototypes are read, so is the file that contains the items of the one and then those of the other. -/
theorem C80_joined_files {base : Text → Option (Class F)} {fl : Floats F} (hB : Builtins base fl) {text1 text2 text : Text} {kids1 kids2 : List PTree}
    (hk1 : ItemsOf text1 kids1) (hk2 : ItemsOf text2 kids2) (hk : ItemsOf text (kids1 ++ kids2)) (hp1 : noProtosAll kids1 = true) (hp2 : noProtosAll kids2 = true)
    (h1 : ∃ w, ReadsWorld base fl text1 w) (h2 : ∃ w, ReadsWorld base fl text2 w) : ∃ w, ReadsWorld base fl text w := by
  rw [C80_accepted_iff_fine hB hk1 hp1] at h1
  rw [C80_accepted_iff_fine hB hk2 hp2] at h2
  rw [C80_accepted_iff_fine hB hk (by rw [noProtosAll_append, hp1, hp2]; rfl)]
  obtain ⟨s1, h1⟩ := h1
  obtain ⟨s2, h2⟩ := h2
  obtain ⟨s3, h3, -⟩ := h2.more (List.nil_subset s1)
  exact ⟨s3, fineAll_append.2 ⟨s1, h1, h3⟩⟩

/-- **C80** If a file without prototypes is read, so is every file that contains only its first items. -/
theorem C80_first_items {base : Text → Option (Class F)} {fl : Floats F} (hB : Builtins base fl) {text1 text : Text} {kids1 kids2 : List PTree}
    (hk1 : ItemsOf text1 kids1) (hk : ItemsOf text (kids1 ++ kids2)) (hp : noProtosAll (kids1 ++ kids2) = true) (h : ∃ w, ReadsWorld base fl text w) : ∃ w, ReadsWorld base fl text1 w := by
  rw [C80_accepted_iff_fine hB hk hp] at h
  rw [noProtosAll_append, Bool.and_eq_true] at hp
  rw [C80_accepted_iff_fine hB hk1 hp.1]
  obtain ⟨s, h⟩ := h
  obtain ⟨s1, h1, -⟩ := fineAll_append.1 h
  exact ⟨s1, h1⟩

/-! ### Examples -/

/-- `DEF A Group { x 1 children [ Group { x 2 } USE A ] }` follows the rules, and makes the name A known. -/
example : FineAll exLookup exFloats
      [.node .rootItem [] [.node .node [] [.node .name (chars "A") [], .node .nodegi (chars "Group") [], attrTree (chars "x") (numTree ['1']),
        attrTree (chars "children") (.node .field [] [.node .node [] [.node .nodegi (chars "Group") [], attrTree (chars "x") (numTree ['2'])], .node .use (chars "A") []])]]] [] [chars "A"] := by
  refine .cons (.item (.cons (.defNode (c := exClass) rfl (.attr (k := .sfFloat) (conv := id) (resolveName_exact rfl) (.text (v := .num 1) (by simp [nodeEntry]) rfl (by decide))
    (.attr (k := .mfNode) (conv := id) (resolveName_exact rfl) (.all (.inl (.inl rfl)) (by simp [nodeEntry])
      (.cons (.node (c := exClass) rfl (.attr (k := .sfFloat) (conv := id) (resolveName_exact rfl) (.text (v := .num 2) (by simp [nodeEntry]) rfl (by decide)) .nil)) (.cons (.use (by simp)) .nil))) .nil))) .nil)) .nil

/-- Files of this kind that are read, and files that are not: an unknown type, an unknown field, a name that is given only later, a value of the wrong type, and an IS outside prototypes. -/
def exFine : Text := file (chars "DEF A Group { x 1 children [ Group { x 2 } USE A ] } ROUTE A.y TO A.z Script { field SFFloat s 5 s 6 }")
example : (∃ w, ReadsWorld exLookup exFloats exFine w) ∧ ∀ kids, ItemsOf exFine kids → noProtosAll kids = true := by
  obtain ⟨w, h1, -⟩ := world_fact (base := exLookup) (fl := exFloats) (fuel := 400) (text := exFine) (f := fun w => w.next) (x := 3) (by decide +kernel)
  exact ⟨⟨w, h1⟩, fun kids hk => items_fact (fuel := 400) (P := noProtosAll) (by decide +kernel) hk⟩
example : [chars "DEF A Grop { }", chars "Group { y 1 }", chars "Group { children [ USE A ] } DEF A Group { }", chars "Group { x TRUE }", chars "Group { x Group { } }", chars "Group { x IS y }", chars "Group { children [ Group { } 1 ] }",
    chars "Script { field SFFloat s 5 t 6 }"].all (fun s => refuses exLookup exFloats 400 (file s)) = true := by decide +kernel

/-- Nodes where TRUE or FALSE, or a text, is expected are let pass. -/
example : ∃ w, ReadsWorld exLookup exFloats (file (chars "Script { directOutput Group { } url [ Group { } ] }")) w := by
  obtain ⟨w, h1, -⟩ := world_fact (base := exLookup) (fl := exFloats) (fuel := 400) (text := file (chars "Script { directOutput Group { } url [ Group { } ] }")) (f := fun w => w.next) (x := 3) (by decide +kernel)
  exact ⟨w, h1⟩

end Verif.Full
