import Verif.Props.Animate
import Verif.Lemmas.OuterRoutes
/-!
C93 for files whose ROUTEs stand outside the nodes: they may start at Scripts.
-/
namespace Verif.Full
open Verif.Peg Verif.Grammar Verif.TextOut Verif.SceneText Verif.Reader Verif.Scopes
open Verif.Lin hiding disp dispList dispDecls dispAttrs disp_node disp_attr
variable {F : Type}

/-- reading a file whose ROUTEs stand outside the nodes -/
theorem reads_settled {base : Text → Option (Class F)} {fl : Floats F} (hB : Builtins base fl) {text : Text} {w : World F} (h : ReadsWorld base fl text w)
    {kids : List PTree} (hk : ItemsOf text kids) (ho : outerRoutes kids = true) : Settled w := by
  obtain ⟨hdr, sm, kids', eof, m, vs, hd, hr⟩ := h
  obtain ⟨hdr', sm', eof', m', hd'⟩ := hk
  have hn := (der_named hd _ _ _ rfl).2.1.2
  cases hd'.det _ hd
  exact (file_settled hB.plain hB.types rfl _ _ _ _ ho hr hn init_inv init_bare init_settled).2

/-- **C93** In a file whose ROUTEs stand outside the nodes (and without prototypes), values spread along the ROUTEs of the file and nothing else, also when ROUTEs start at Scripts. -/
theorem C93_linked_by_outer_routes {base : Text → Option (Class F)} {fl : Floats F} (hB : Builtins base fl) {text : Text} {w : World F} (h : ReadsWorld base fl text w)
    {kids : List PTree} (hk : ItemsOf text kids) (ho : outerRoutes kids = true) {p q : Place} :
    Linked w p q ↔ Relation.ReflTransGen (Routed w) p q := by
  have hS := reads_settled hB h hk ho
  constructor
  · intro hl
    induction hl with
    | start => exact .refl
    | @step q x d h1 h2 h3 h4 ih =>
      have h0 : ∃ r a, r ∈ w.file.routes ∧ PortAt w r.src r.srcField a ∧ x = ⟨r.src, portName a, r.dst, r.dstField⟩ := by
        obtain ⟨s, r, a, k1, k2, k3⟩ := hS.made x h2
        by_cases hs : s = 0
        · subst hs
          exact ⟨r, a, k1, k2, k3⟩
        · rw [hS.zero s hs] at k1; cases k1
      obtain ⟨r, a, k2, k3, rfl⟩ := h0
      rw [← h3] at ih
      exact ih.tail (.route k2 k3 h4)
  · intro hl
    induction hl with
    | refl => exact .start
    | tail _ h2 ih =>
      cases h2 with
      | @route r a d k1 k2 k3 => exact .step ih (hS.done 0 r a k1 k2) rfl k3

end Verif.Full
