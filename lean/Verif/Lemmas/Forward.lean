import Verif.Spec.Links
import Verif.Lemmas.FullRun
import Mathlib.Data.Finset.Card
/-!
Forwarding stores the value in all connected fields.
-/
namespace Verif.Full
open Verif.Peg Verif.Grammar Verif.TextOut Verif.SceneText Verif.Reader
open Verif.Lin hiding disp dispList dispDecls dispAttrs disp_node disp_attr
open Classical
variable {F : Type}

/-- the store with `u` in all fields of `S` -/
noncomputable def World.store (w : World F) (S : Set Place) (u : Val F) : World F :=
  { w with heap := fun j => (w.heap j).map (fun n => { n with dict := fun g => if (j, g) ∈ S then some u else n.dict g }) }

theorem store_empty (w : World F) (u : Val F) : w.store ∅ u = w := by
  have : (w.store ∅ u).heap = w.heap := by
    funext j
    simp only [World.store, Set.mem_empty_iff_false, if_false]
    cases w.heap j <;> rfl
  cases w; simp only [World.store] at this ⊢; rw [this]

theorem store_set (w : World F) (S : Set Place) (u : Val F) (i : Nat) (g : Text) : (w.store S u).setField i g u = w.store (insert (i, g) S) u := by
  have : ((w.store S u).setField i g u).heap = (w.store (insert (i, g) S) u).heap := by
    funext j
    simp only [World.setField, World.store]
    by_cases hj : j = i
    · subst hj
      rw [if_pos rfl]
      cases w.heap j with
      | none => rfl
      | some n =>
        simp only [Option.map_some, Node.set, Option.some.injEq, Node.mk.injEq, true_and]
        funext h
        by_cases hh : h = g
        · subst hh; simp
        · have : (j, h) ∈ insert (j, g) S ↔ (j, h) ∈ S := by simp [hh]
          simp only [if_neg hh, this]
    · rw [if_neg hj]
      cases w.heap j with
      | none => rfl
      | some n =>
        simp only [Option.map_some, Option.some.injEq, Node.mk.injEq, true_and]
        funext h
        have : (j, h) ∈ insert (i, g) S ↔ (j, h) ∈ S := by simp [hj]
        simp only [this]
  simp only [World.store, World.setField] at this ⊢
  rw [this]

theorem store_port (w : World F) (S : Set Place) (u : Val F) (i : Nat) (f : Text) :
    ((w.store S u).heap i).bind (fun n => n.cls.getField f) = (w.heap i).bind (fun n => n.cls.getField f) := by
  simp only [World.store]
  cases w.heap i <;> rfl

theorem store_out (w : World F) (S : Set Place) (u : Val F) (i : Nat) (f : Text) : (w.store S u).out i f = w.out i f := rfl

theorem resolves_port {w : World F} {i f} {d : FieldDecl F} (h : Resolves w i f d) : (w.heap i).bind (fun n => n.cls.getField f) = some (.inl d) := by
  obtain ⟨n, h1, h2⟩ := h
  rw [h1]; exact h2

theorem mem_out {w : World F} {i f x} : x ∈ w.out i f ↔ x ∈ w.wires ∧ (x.src, x.srcField) = (i, f) := by
  simp [World.out, Prod.ext_iff]

/-- the field at the end of a connection -/
noncomputable def endOf (w : World F) (x : Wire) : Option Place :=
  match (w.heap x.dst).bind (fun n => n.cls.getField x.dstField) with
  | some (.inl d) => some (x.dst, d.name)
  | _ => none

/-- the ends of all connections -/
noncomputable def ends (w : World F) : Finset Place := (w.wires.filterMap (endOf w)).toFinset

theorem ends_card (w : World F) : (ends w).card ≤ w.wires.length :=
  (List.toFinset_card_le _).trans (List.length_filterMap_le _ _)

theorem end_mem {w : World F} {x : Wire} {d} (hx : x ∈ w.wires) (h : Resolves w x.dst x.dstField d) : (x.dst, d.name) ∈ ends w := by
  simp only [ends, List.mem_toFinset, List.mem_filterMap]
  exact ⟨x, hx, by simp only [endOf, resolves_port h]⟩

/-- fields not yet visited -/
noncomputable def left (w : World F) (vis : List Place) : Nat := (ends w \ vis.toFinset).card

theorem left_mono {w : World F} {vis vis' : List Place} (h : ∀ p ∈ vis, p ∈ vis') : left w vis' ≤ left w vis := by
  refine Finset.card_le_card (fun q hq => ?_)
  simp only [Finset.mem_sdiff, List.mem_toFinset] at hq ⊢
  exact ⟨hq.1, fun hv => hq.2 (h q hv)⟩

theorem left_cons {w : World F} {vis : List Place} {p} (hp : p ∈ ends w) (hv : p ∉ vis) : left w (p :: vis) < left w vis := by
  refine Finset.card_lt_card ⟨fun q hq => ?_, fun hs => ?_⟩
  · simp only [Finset.mem_sdiff, List.mem_toFinset, List.mem_cons, not_or] at hq ⊢
    exact ⟨hq.1, hq.2.2⟩
  · have := hs (Finset.mem_sdiff.2 ⟨hp, by simpa using hv⟩)
    simp at this

/-- successors -/
def Next (w : World F) (p q : Place) : Prop := ∃ x d, x ∈ w.wires ∧ (x.src, x.srcField) = p ∧ Resolves w x.dst x.dstField d ∧ q = (x.dst, d.name)

theorem Resolves.inj {w : World F} {i f} {d d' : FieldDecl F} (h : Resolves w i f d) (h' : Resolves w i f d') : d = d' := by
  have := (resolves_port h).symm.trans (resolves_port h')
  cases this; rfl

/-- what forwarding from a visited set to another does -/
structure Fwd (w : World F) (L : Set Place) (vis vis' : List Place) : Prop where
  sub : ∀ q ∈ vis, q ∈ vis'
  inside : ∀ q ∈ vis', q ∈ vis ∨ q ∈ L
  closed : ∀ q ∈ vis', q ∉ vis → ∀ r, Next w q r → r ∈ vis'

section
variable {w : World F} {u : Val F} {L : Set Place}
variable (hL : ∀ x ∈ w.wires, (x.src, x.srcField) ∈ L → ∃ d, Resolves w x.dst x.dstField d ∧ coerce d.kind d.conv u = some u ∧ (x.dst, d.name) ∈ L)
include hL

theorem forward_all : ∀ (fuel : Nat) (vis : List Place) (S : Set Place) (i : Nat) (f : Text) (d : FieldDecl F), Resolves w i f d → coerce d.kind d.conv u = some u →
    (i, d.name) ∈ L → (i, d.name) ∈ ends w → (∀ q ∈ vis, q ∈ S) → left w vis < fuel →
    ∃ vis', forward fuel vis (w.store S u) i f (some u) = some (vis', w.store (S ∪ {q | q ∈ vis'}) u) ∧ (i, d.name) ∈ vis' ∧ Fwd w L vis vis'
  | 0, _, _, _, _, _, _, _, _, _, _, h => by omega
  | fuel + 1, vis, S, i, f, d, hd, hc, hp, he, hS, hf => by
    simp only [forward, store_port, resolves_port hd]
    by_cases hv : (i, d.name) ∈ vis
    · rw [if_pos hv]
      refine ⟨vis, ?_, hv, ⟨fun _ h => h, fun _ h => .inl h, fun q h h' => absurd h h'⟩⟩
      have : S ∪ {q | q ∈ vis} = S := Set.union_eq_self_of_subset_right (fun q hq => hS q hq)
      rw [this]
    · rw [if_neg hv]
      simp only [World.take, Option.bind_some, hc, store_set, store_out, Option.some_or]
      have hlt := left_cons he hv
      -- the connections from here, one after another
      have key : ∀ (l : List Wire) (vis1 : List Place) (S1 : Set Place), (∀ x ∈ l, x ∈ w.wires ∧ (x.src, x.srcField) = (i, d.name)) → (∀ q ∈ vis1, q ∈ S1) →
          (∀ q ∈ (i, d.name) :: vis, q ∈ vis1) →
          ∃ vis', l.foldlM (fun (p : List Place × World F) x => forward fuel p.1 p.2 x.dst x.dstField (some u)) (vis1, w.store S1 u) = some (vis', w.store (S1 ∪ {q | q ∈ vis'}) u) ∧
            Fwd w L vis1 vis' ∧ ∀ x ∈ l, ∀ d', Resolves w x.dst x.dstField d' → (x.dst, d'.name) ∈ vis' := by
        intro l
        induction l with
        | nil =>
          intro vis1 S1 _ hS1 _
          refine ⟨vis1, ?_, ⟨fun _ h => h, fun _ h => .inl h, fun q h h' => absurd h h'⟩, by simp⟩
          have : S1 ∪ {q | q ∈ vis1} = S1 := Set.union_eq_self_of_subset_right (fun q hq => hS1 q hq)
          rw [this]; rfl
        | cons x l ih =>
          intro vis1 S1 hl hS1 hv1
          obtain ⟨hx1, hx2⟩ := hl x (by simp)
          obtain ⟨d', hd', hc', hp'⟩ := hL x hx1 (by rw [hx2]; exact hp)
          obtain ⟨vis2, e2, m2, f2⟩ := forward_all fuel vis1 S1 x.dst x.dstField d' hd' hc' hp' (end_mem hx1 hd') hS1
            (lt_of_le_of_lt (left_mono hv1) (by omega))
          obtain ⟨vis3, e3, f3, m3⟩ := ih vis2 (S1 ∪ {q | q ∈ vis2}) (fun y hy => hl y (by simp [hy])) (fun q hq => .inr hq) (fun q hq => f2.sub q (hv1 q hq))
          refine ⟨vis3, ?_, ⟨fun q hq => f3.sub q (f2.sub q hq), fun q hq => ?_, fun q hq hq1 r hr => ?_⟩, fun y hy d2 hd2 => ?_⟩
          · rw [List.foldlM_cons, e2]
            simp only [Option.bind_eq_bind, Option.bind_some, e3]
            have : S1 ∪ {q | q ∈ vis2} ∪ {q | q ∈ vis3} = S1 ∪ {q | q ∈ vis3} := by
              rw [Set.union_assoc]
              congr 1
              exact Set.union_eq_self_of_subset_left (fun q hq => f3.sub q hq)
            rw [this]
          · rcases f3.inside q hq with h | h
            · exact f2.inside q h
            · exact .inr h
          · by_cases hq2 : q ∈ vis2
            · exact f3.sub r (f2.closed q hq2 hq1 r hr)
            · exact f3.closed q hq hq2 r hr
          · rcases List.mem_cons.1 hy with rfl | hy
            · cases hd'.inj hd2
              exact f3.sub _ m2
            · exact m3 y hy d2 hd2
      obtain ⟨vis', e1, f1, m1⟩ := key (w.out i d.name) ((i, d.name) :: vis) (insert (i, d.name) S) (fun x hx => mem_out.1 hx)
        (fun q hq => by rcases List.mem_cons.1 hq with rfl | hq; exacts [Set.mem_insert _ _, Set.mem_insert_of_mem _ (hS q hq)]) (fun q hq => hq)
      have hpv : (i, d.name) ∈ vis' := f1.sub _ (by simp)
      refine ⟨vis', ?_, hpv, ⟨fun q hq => f1.sub q (by simp [hq]), fun q hq => ?_, fun q hq hqv r hr => ?_⟩⟩
      · rw [e1]
        have : insert (i, d.name) S ∪ {q | q ∈ vis'} = S ∪ {q | q ∈ vis'} := by
          ext q
          simp only [Set.mem_union, Set.mem_insert_iff, Set.mem_setOf_eq]
          constructor
          · rintro ((rfl | h) | h)
            · exact .inr hpv
            · exact .inl h
            · exact .inr h
          · rintro (h | h)
            · exact .inl (.inr h)
            · exact .inr h
        rw [this]
      · rcases f1.inside q hq with h | h
        · rcases List.mem_cons.1 h with rfl | h
          · exact .inr hp
          · exact .inl h
        · exact .inr h
      · by_cases hq1 : q = (i, d.name)
        · subst hq1
          obtain ⟨x, d', h1, h2, h3, rfl⟩ := hr
          exact m1 x (mem_out.2 ⟨h1, h2⟩) d' h3
        · exact f1.closed q hq (by simp [hq1, hqv]) r hr
end

theorem linked_next {w : World F} {p q r : Place} (h : Linked w p q) (hr : Next w q r) : Linked w p r := by
  obtain ⟨x, d, h1, h2, h3, rfl⟩ := hr
  exact .step h h1 h2 h3

theorem linked_closed {w : World F} {p q : Place} {S : Set Place} (hp : p ∈ S) (hS : ∀ q ∈ S, ∀ r, Next w q r → r ∈ S) (h : Linked w p q) : q ∈ S := by
  induction h with
  | start => exact hp
  | step _ h1 h2 h3 ih => exact hS _ ih _ ⟨_, _, h1, h2, h3, rfl⟩

/-- setting a field of an instance of a prototype -/
theorem setAttr_all {w : World F} {i : Nat} {d : FieldDecl F} {v u : Val F} (hi : (w.inst i).isSome = true) (hk : d.kind ≠ .mfNode) (hu : coerce d.kind d.conv v = some u)
    (hL : ∀ x ∈ w.wires, Linked w (i, d.name) (x.src, x.srcField) → ∃ d', Resolves w x.dst x.dstField d' ∧ coerce d'.kind d'.conv u = some u) :
    w.setAttr i d v = some (w.store {q | Linked w (i, d.name) q} u) := by
  have hL' : ∀ x ∈ w.wires, (x.src, x.srcField) ∈ {q | Linked w (i, d.name) q} → ∃ d', Resolves w x.dst x.dstField d' ∧ coerce d'.kind d'.conv u = some u ∧
      (x.dst, d'.name) ∈ {q | Linked w (i, d.name) q} := by
    intro x hx hl
    obtain ⟨d', h1, h2⟩ := hL x hx hl
    exact ⟨d', h1, h2, Linked.step hl hx rfl h1⟩
  have h0 : w.setField i d.name u = w.store {(i, d.name)} u := by
    have := store_set w ∅ u i d.name
    rw [store_empty] at this
    rw [this]; simp
  have key : ∀ (l : List Wire) (S : Set Place), (∀ x ∈ l, x ∈ w.wires ∧ (x.src, x.srcField) = (i, d.name)) → (∀ q ∈ S, Linked w (i, d.name) q) →
      (∀ q ∈ S, q ≠ (i, d.name) → ∀ r, Next w q r → r ∈ S) → (i, d.name) ∈ S →
      ∃ S', l.foldlM (fun (a : World F) x => (forward a.depth [] a x.dst x.dstField (some u)).map Prod.snd) (w.store S u) = some (w.store S' u) ∧
        (∀ q ∈ S', Linked w (i, d.name) q) ∧ (∀ q ∈ S', q ≠ (i, d.name) → ∀ r, Next w q r → r ∈ S') ∧ (∀ q ∈ S, q ∈ S') ∧
        ∀ x ∈ l, ∀ d', Resolves w x.dst x.dstField d' → (x.dst, d'.name) ∈ S' := by
    intro l
    induction l with
    | nil => intro S _ h1 h2 _; exact ⟨S, rfl, h1, h2, fun _ h => h, by simp⟩
    | cons x l ih =>
      intro S hl h1 h2 h3
      obtain ⟨hx1, hx2⟩ := hl x (by simp)
      obtain ⟨d', hd', hc', hp'⟩ := hL' x hx1 (by rw [hx2]; exact Linked.start)
      obtain ⟨vis, e1, m1, f1⟩ := forward_all hL' w.depth [] S x.dst x.dstField d' hd' hc' hp' (end_mem hx1 hd') (by simp)
        (by have := ends_card w; have : left w [] ≤ (ends w).card := Finset.card_le_card Finset.sdiff_subset; have : w.wires.length + 1 ≤ w.depth := Nat.le_mul_of_pos_left _ (by omega); omega)
      obtain ⟨S', e2, g1, g2, g3, g4⟩ := ih (S ∪ {q | q ∈ vis}) (fun y hy => hl y (by simp [hy]))
        (fun q hq => by
          rcases hq with hq | hq
          · exact h1 q hq
          · rcases f1.inside q hq with h | h
            · cases h
            · exact h)
        (fun q hq hne r hr => by
          rcases hq with hq | hq
          · exact .inl (h2 q hq hne r hr)
          · exact .inr (f1.closed q hq (by simp) r hr)) (.inl h3)
      refine ⟨S', ?_, g1, g2, fun q hq => g3 q (.inl hq), fun y hy d2 hd2 => ?_⟩
      · rw [List.foldlM_cons]
        have : (w.store S u).depth = w.depth := rfl
        simp only [this, e1, Option.map_some, Option.bind_eq_bind, Option.bind_some]
        exact e2
      · rcases List.mem_cons.1 hy with rfl | hy
        · cases hd'.inj hd2
          exact g3 _ (.inr m1)
        · exact g4 y hy d2 hd2
  obtain ⟨S', e, g1, g2, g3, g4⟩ := key (w.out i d.name) {(i, d.name)} (fun x hx => mem_out.1 hx) (fun q hq => by cases hq; exact .start)
    (fun q hq hne => absurd hq hne) rfl
  have hS : S' = {q | Linked w (i, d.name) q} := by
    ext q
    refine ⟨fun hq => g1 q hq, fun hq => linked_closed (g3 _ rfl) (fun q hq r hr => ?_) hq⟩
    by_cases hqi : q = (i, d.name)
    · subst hqi
      obtain ⟨x, d', h1, h2, h3, rfl⟩ := hr
      exact g4 x (mem_out.2 ⟨h1, h2⟩) d' h3
    · exact g2 q hq hqi r hr
  unfold World.setAttr
  simp only [hu, h0]
  have hb : (((w.store {(i, d.name)} u).inst i).isSome && d.kind != .mfNode) = true := by
    have : (w.store {(i, d.name)} u).inst i = w.inst i := rfl
    simp [this, hi, hk]
  rw [if_pos hb, store_out, e, hS]

end Verif.Full
