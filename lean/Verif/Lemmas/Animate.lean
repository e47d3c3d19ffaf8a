import Verif.Lemmas.Forward
import Verif.Lemmas.FullLoops
import Verif.Spec.Animate
/-!
What forwarding stores when connections may also end at events.
-/
namespace Verif.Full
open Verif.Peg Verif.Grammar Verif.TextOut Verif.SceneText
open Verif.Lin hiding disp dispList dispDecls dispAttrs disp_node disp_attr
variable {F : Type}

theorem resolves_not_event {w : World F} {i f} {d : FieldDecl F} (h : Resolves w i f d) : ¬ EventAt w (i, d.name) := by
  rintro ⟨n, e, h1, h2, h3⟩
  obtain ⟨n', h4, h5⟩ := h
  rw [h1] at h4; cases h4
  exact getField_no_event h5 e h2 h3

/-- what forwarding from a visited set to another does -/
structure FwdE (w : World F) (L : Set Place) (vis vis' : List Place) : Prop where
  sub : ∀ q ∈ vis, q ∈ vis'
  inside : ∀ q ∈ vis', q ∈ vis ∨ EventAt w q ∨ q ∈ L
  closed : ∀ q ∈ vis', q ∉ vis → ∀ r, Next w q r → r ∈ vis'

/-- the fields among places -/
def fieldsIn (w : World F) (vis : List Place) : Set Place := {q | q ∈ vis ∧ ¬ EventAt w q}

theorem portE {w : World F} {i f} {e : EventDecl} (h : PortAt w i f (.inr e)) : (w.heap i).bind (fun n => n.cls.getField f) = some (.inr e) := by
  obtain ⟨n, h1, h2⟩ := h
  rw [h1]; exact h2

section
variable {w : World F} {v u : Val F} {L : Set Place}
variable (hL : ∀ x ∈ w.wires, (x.src, x.srcField) ∈ L →
  (∃ d, Resolves w x.dst x.dstField d ∧ coerce d.kind d.conv v = some u ∧ coerce d.kind d.conv u = some u ∧ (x.dst, d.name) ∈ L) ∨
  ∃ e, PortAt w x.dst x.dstField (.inr e) ∧ ∀ y ∈ w.wires, (y.src, y.srcField) ≠ (x.dst, e.name))
include hL

/-- one connection -/
theorem forward_wire (fuel : Nat) (ih : ∀ (vis : List Place) (S : Set Place) (i : Nat) (f : Text) (d : FieldDecl F) (x : Val F), Resolves w i f d → coerce d.kind d.conv x = some u →
    (i, d.name) ∈ L → (i, d.name) ∈ ends w → (fieldsIn w vis ⊆ S) → left w vis < fuel →
    ∃ vis', forward fuel vis (w.store S u) i f (some x) = some (vis', w.store (S ∪ fieldsIn w vis') u) ∧ (i, d.name) ∈ vis' ∧ FwdE w L vis vis')
    {x : Wire} (hx : x ∈ w.wires) (hp : (x.src, x.srcField) ∈ L) {y : Val F} (hy : y = v ∨ y = u) {vis : List Place} {S : Set Place} (hS : fieldsIn w vis ⊆ S) (hf : left w vis < fuel) :
    ∃ vis', forward fuel vis (w.store S u) x.dst x.dstField (some y) = some (vis', w.store (S ∪ fieldsIn w vis') u) ∧ (∀ d, Resolves w x.dst x.dstField d → (x.dst, d.name) ∈ vis') ∧ FwdE w L vis vis' := by
  rcases hL x hx hp with ⟨d, hd, hc, hc', hp'⟩ | ⟨e, he, hout⟩
  · obtain ⟨vis', h1, h2, h3⟩ := ih vis S x.dst x.dstField d y hd (by rcases hy with rfl | rfl <;> assumption) hp' (end_mem hx hd) hS hf
    exact ⟨vis', h1, fun d' hd' => by cases hd.inj hd'; exact h2, h3⟩
  · obtain ⟨fuel, rfl⟩ : ∃ k, fuel = k + 1 := ⟨fuel - 1, by omega⟩
    have ho : w.out x.dst e.name = [] := by
      rw [List.eq_nil_iff_forall_not_mem]
      intro z hz
      exact hout z (mem_out.1 hz).1 (mem_out.1 hz).2
    have hev : EventAt w (x.dst, e.name) := by
      obtain ⟨n, h1, h2⟩ := he
      exact ⟨n, e, h1, getField_inr h2, rfl⟩
    have hno : ∀ d, ¬ Resolves w x.dst x.dstField d := fun d hd => by
      have := (resolves_port hd).symm.trans (portE he); cases this
    by_cases hv : (x.dst, e.name) ∈ vis
    · refine ⟨vis, ?_, fun d hd => absurd hd (hno d), ⟨fun _ h => h, fun _ h => .inl h, fun q h h' => absurd h h'⟩⟩
      simp only [forward, store_port, portE he, if_pos hv]
      rw [Set.union_eq_self_of_subset_right hS]
    · refine ⟨(x.dst, e.name) :: vis, ?_, fun d hd => absurd hd (hno d), ⟨fun _ h => List.mem_cons_of_mem _ h, fun q h => ?_, fun q h h' r hr => ?_⟩⟩
      · simp only [forward, store_port, portE he, if_neg hv, store_out, ho, List.foldlM_nil]
        have : S ∪ fieldsIn w ((x.dst, e.name) :: vis) = S := by
          refine Set.union_eq_self_of_subset_right fun q hq => ?_
          rcases List.mem_cons.1 hq.1 with rfl | h
          · exact absurd hev hq.2
          · exact hS ⟨h, hq.2⟩
        rw [this]; rfl
      · rcases List.mem_cons.1 h with rfl | h
        · exact .inr (.inl hev)
        · exact .inl h
      · rcases List.mem_cons.1 h with rfl | h
        · obtain ⟨z, d, z1, z2, -⟩ := hr
          exact absurd z2 (hout z z1)
        · exact absurd h h'

theorem forward_carry : ∀ (fuel : Nat) (vis : List Place) (S : Set Place) (i : Nat) (f : Text) (d : FieldDecl F) (y : Val F), Resolves w i f d → coerce d.kind d.conv y = some u →
    (i, d.name) ∈ L → (i, d.name) ∈ ends w → (fieldsIn w vis ⊆ S) → left w vis < fuel →
    ∃ vis', forward fuel vis (w.store S u) i f (some y) = some (vis', w.store (S ∪ fieldsIn w vis') u) ∧ (i, d.name) ∈ vis' ∧ FwdE w L vis vis'
  | 0, _, _, _, _, _, _, _, _, _, _, _, h => by omega
  | fuel + 1, vis, S, i, f, d, y, hd, hc, hp, he, hS, hf => by
    simp only [forward, store_port, resolves_port hd]
    by_cases hv : (i, d.name) ∈ vis
    · rw [if_pos hv]
      refine ⟨vis, ?_, hv, ⟨fun _ h => h, fun _ h => .inl h, fun q h h' => absurd h h'⟩⟩
      rw [Set.union_eq_self_of_subset_right hS]
    · rw [if_neg hv]
      simp only [World.take, Option.bind_some, hc, store_set, store_out, Option.some_or]
      have hlt := left_cons he hv
      have key : ∀ (l : List Wire) (vis1 : List Place) (S1 : Set Place), (∀ x ∈ l, x ∈ w.wires ∧ (x.src, x.srcField) = (i, d.name)) → (fieldsIn w vis1 ⊆ S1) →
          (∀ q ∈ (i, d.name) :: vis, q ∈ vis1) →
          ∃ vis', l.foldlM (fun (p : List Place × World F) x => forward fuel p.1 p.2 x.dst x.dstField (some u)) (vis1, w.store S1 u) = some (vis', w.store (S1 ∪ fieldsIn w vis') u) ∧
            FwdE w L vis1 vis' ∧ ∀ x ∈ l, ∀ d', Resolves w x.dst x.dstField d' → (x.dst, d'.name) ∈ vis' := by
        intro l
        induction l with
        | nil =>
          intro vis1 S1 _ hS1 _
          refine ⟨vis1, ?_, ⟨fun _ h => h, fun _ h => .inl h, fun q h h' => absurd h h'⟩, by simp⟩
          rw [Set.union_eq_self_of_subset_right hS1]; rfl
        | cons x l ih =>
          intro vis1 S1 hl hS1 hv1
          obtain ⟨hx1, hx2⟩ := hl x (by simp)
          obtain ⟨vis2, e2, m2, f2⟩ := forward_wire hL fuel (fun vis S i f d y => forward_carry fuel vis S i f d y) hx1 (by rw [hx2]; exact hp) (.inr rfl) hS1
            (lt_of_le_of_lt (left_mono hv1) (by omega))
          obtain ⟨vis3, e3, f3, m3⟩ := ih vis2 (S1 ∪ fieldsIn w vis2) (fun y hy => hl y (by simp [hy])) (fun q hq => .inr hq) (fun q hq => f2.sub q (hv1 q hq))
          refine ⟨vis3, ?_, ⟨fun q hq => f3.sub q (f2.sub q hq), fun q hq => ?_, fun q hq hq1 r hr => ?_⟩, fun y hy d2 hd2 => ?_⟩
          · rw [List.foldlM_cons, e2]
            simp only [Option.bind_eq_bind, Option.bind_some, e3]
            have : S1 ∪ fieldsIn w vis2 ∪ fieldsIn w vis3 = S1 ∪ fieldsIn w vis3 := by
              rw [Set.union_assoc]
              congr 1
              exact Set.union_eq_self_of_subset_left (fun q hq => ⟨f3.sub q hq.1, hq.2⟩)
            rw [this]
          · rcases f3.inside q hq with h | h
            · exact f2.inside q h
            · exact .inr h
          · by_cases hq2 : q ∈ vis2
            · exact f3.sub r (f2.closed q hq2 hq1 r hr)
            · exact f3.closed q hq hq2 r hr
          · rcases List.mem_cons.1 hy with rfl | hy
            · exact f3.sub _ (m2 d2 hd2)
            · exact m3 y hy d2 hd2
      have hne := resolves_not_event hd
      obtain ⟨vis', e1, f1, m1⟩ := key (w.out i d.name) ((i, d.name) :: vis) (insert (i, d.name) S) (fun x hx => mem_out.1 hx)
        (fun q hq => by rcases List.mem_cons.1 hq.1 with rfl | h; exacts [Set.mem_insert _ _, Set.mem_insert_of_mem _ (hS ⟨h, hq.2⟩)]) (fun q hq => hq)
      have hpv : (i, d.name) ∈ vis' := f1.sub _ (by simp)
      refine ⟨vis', ?_, hpv, ⟨fun q hq => f1.sub q (by simp [hq]), fun q hq => ?_, fun q hq hqv r hr => ?_⟩⟩
      · rw [e1]
        have : insert (i, d.name) S ∪ fieldsIn w vis' = S ∪ fieldsIn w vis' := by
          ext q
          simp only [Set.mem_union, Set.mem_insert_iff]
          constructor
          · rintro ((rfl | h) | h)
            · exact .inr ⟨hpv, hne⟩
            · exact .inl h
            · exact .inr h
          · rintro (h | h)
            · exact .inl (.inr h)
            · exact .inr h
        rw [this]
      · rcases f1.inside q hq with h | h
        · rcases List.mem_cons.1 h with rfl | h
          · exact .inr (.inr hp)
          · exact .inl h
        · exact .inr h
      · by_cases hq1 : q = (i, d.name)
        · subst hq1
          obtain ⟨x, d', h1, h2, h3, rfl⟩ := hr
          exact m1 x (mem_out.2 ⟨h1, h2⟩) d' h3
        · exact f1.closed q hq (by simp [hq1, hqv]) r hr

end

/-- all connections from one place, each as a new event -/
theorem spread_carry {w : World F} {v u : Val F} {i : Nat} {f : Text} (hK : KeepsValue w (i, f) v u) {y : Val F} (hy : y = v ∨ y = u) {S0 : Set Place} (h0 : ∀ q ∈ S0, q = (i, f)) :
    ∃ S, (w.store S0 u).spread i f y = some (w.store S u) ∧ (∀ q ∈ S0, q ∈ S) ∧ (∀ q ∈ S, q ∈ S0 ∨ ¬ EventAt w q) ∧ ∀ q, q ≠ (i, f) → (q ∈ S ↔ Linked w (i, f) q) := by
  have hL : ∀ x ∈ w.wires, (x.src, x.srcField) ∈ {q | Linked w (i, f) q} →
      (∃ d, Resolves w x.dst x.dstField d ∧ coerce d.kind d.conv v = some u ∧ coerce d.kind d.conv u = some u ∧ (x.dst, d.name) ∈ {q | Linked w (i, f) q}) ∨
      ∃ e, PortAt w x.dst x.dstField (.inr e) ∧ ∀ y ∈ w.wires, (y.src, y.srcField) ≠ (x.dst, e.name) := by
    intro x hx hl
    rcases hK x hx hl with ⟨d, h1, h2, h3⟩ | h
    · exact .inl ⟨d, h1, h2, h3, Linked.step hl hx rfl h1⟩
    · exact .inr h
  have hdepth : left w [] < w.depth := by
    have := ends_card w
    have : left w [] ≤ (ends w).card := Finset.card_le_card Finset.sdiff_subset
    have : w.wires.length + 1 ≤ w.depth := Nat.le_mul_of_pos_left _ (by omega)
    omega
  have key : ∀ (l : List Wire) (S : Set Place), (∀ x ∈ l, x ∈ w.wires ∧ (x.src, x.srcField) = (i, f)) → (∀ q ∈ S, Linked w (i, f) q ∧ (q ∈ S0 ∨ ¬ EventAt w q)) →
      (∀ q ∈ S, q ≠ (i, f) → ∀ r, Next w q r → r ∈ S) →
      ∃ S', l.foldlM (fun (a : World F) x => (forward w.depth [] a x.dst x.dstField (some y)).map Prod.snd) (w.store S u) = some (w.store S' u) ∧
        (∀ q ∈ S', Linked w (i, f) q ∧ (q ∈ S0 ∨ ¬ EventAt w q)) ∧ (∀ q ∈ S', q ≠ (i, f) → ∀ r, Next w q r → r ∈ S') ∧ (∀ q ∈ S, q ∈ S') ∧
        ∀ x ∈ l, ∀ d', Resolves w x.dst x.dstField d' → (x.dst, d'.name) ∈ S' := by
    intro l
    induction l with
    | nil => intro S _ h1 h2; exact ⟨S, rfl, h1, h2, fun _ h => h, by simp⟩
    | cons x l ih =>
      intro S hl h1 h2
      obtain ⟨hx1, hx2⟩ := hl x (by simp)
      obtain ⟨vis, e1, m1, f1⟩ := forward_wire hL w.depth (fun vis S i f d y => forward_carry hL w.depth vis S i f d y) hx1 (by rw [hx2]; exact Linked.start) hy
        (vis := []) (S := S) (by intro q hq; cases hq.1) hdepth
      obtain ⟨S', e2, g1, g2, g3, g4⟩ := ih (S ∪ fieldsIn w vis) (fun y hy => hl y (by simp [hy]))
        (fun q hq => by
          rcases hq with hq | hq
          · exact h1 q hq
          · rcases f1.inside q hq.1 with h | h | h
            · cases h
            · exact absurd h hq.2
            · exact ⟨h, .inr hq.2⟩)
        (fun q hq hne r hr => by
          rcases hq with hq | hq
          · exact .inl (h2 q hq hne r hr)
          · refine .inr ⟨f1.closed q hq.1 (by simp) r hr, ?_⟩
            obtain ⟨z, d, -, -, z3, rfl⟩ := hr
            exact resolves_not_event z3)
      refine ⟨S', ?_, g1, g2, fun q hq => g3 q (.inl hq), fun y hy d2 hd2 => ?_⟩
      · rw [List.foldlM_cons]
        simp only [e1, Option.map_some, Option.bind_eq_bind, Option.bind_some]
        exact e2
      · rcases List.mem_cons.1 hy with rfl | hy
        · exact g3 _ (.inr ⟨m1 d2 hd2, resolves_not_event hd2⟩)
        · exact g4 y hy d2 hd2
  obtain ⟨S, e, g1, g2, g3, g4⟩ := key (w.out i f) S0 (fun x hx => mem_out.1 hx) (fun q hq => ⟨by rw [h0 q hq]; exact .start, .inl hq⟩)
    (fun q hq hne => absurd (h0 q hq) hne)
  refine ⟨S, e, g3, fun q hq => (g1 q hq).2, fun q hq => ⟨fun h => (g1 q h).1, fun h => ?_⟩⟩
  have := linked_closed (S := S ∪ {(i, f)}) (.inr rfl) (fun q hq r hr => .inl (by
    by_cases hqi : q = (i, f)
    · subst hqi
      obtain ⟨x, d', h1, h2, h3, rfl⟩ := hr
      exact g4 x (mem_out.2 ⟨h1, h2⟩) d' h3
    · exact g2 q (hq.resolve_right hqi) hqi r hr)) h
  exact this.resolve_right hq

end Verif.Full
