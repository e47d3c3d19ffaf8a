import Verif.Lemmas.Accept3
import Verif.Lemmas.FullLoops
import Verif.Lemmas.Wires
import Verif.Props.FullLoops
import Verif.Spec.Good
/-!
Files with prototypes that are read: values that are passed on.
-/
namespace Verif.Full
open Verif.Peg Verif.Grammar Verif.TextOut Verif.SceneText Verif.Reader Verif.Scopes Verif.Shape
open Verif.Lin hiding disp dispList dispDecls dispAttrs disp_node disp_attr
variable {F : Type} {base : Text → Option (Class F)} {fl : Floats F}

/-- the value can be stored in fields of this kind -/
def Fit (k : Kind) (v : Val F) : Prop := ∀ conv : F → F, (coerce k conv v).isSome = true

theorem coerce_isSome {k : Kind} (c c' : F → F) (v : Val F) (h : (coerce k c v).isSome = true) : (coerce k c' v).isSome = true := by
  cases v <;> cases k <;> simp_all [coerce] <;> split <;> simp_all

theorem Fit.of {k : Kind} {c : F → F} {v u : Val F} (h : coerce k c v = some u) : Fit k v := fun c' => coerce_isSome c c' v (by rw [h]; rfl)

theorem Fit.typed {k : Kind} {u : Val F} (h : HasType k u) : Fit k u := by
  intro c
  cases u <;> cases k <;> simp_all [coerce, HasType]

theorem Fit.out {k : Kind} {c : F → F} {v u : Val F} (h : coerce k c v = some u) : Fit k u := Fit.typed (coerce_type h)

/-! ### Names of fields -/

theorem port_inl {c : Class F} {nm : Text} {d : FieldDecl F} (h : c.port nm = some (.inl d)) : d.name = nm := by
  unfold Class.port at h
  split at h
  · cases h
  · obtain ⟨d', h1, h2⟩ := Option.map_eq_some_iff.1 h
    cases h2
    simpa using List.find?_some h1

theorem port_inr {c : Class F} {nm : Text} {e : EventDecl} (h : c.port nm = some (.inr e)) : e.name = nm := by
  unfold Class.port at h
  split at h
  · next e' he => cases h; simpa using List.find?_some he
  · obtain ⟨d', h1, h2⟩ := Option.map_eq_some_iff.1 h
    cases h2

theorem getField_port {c : Class F} {nm : Text} {d : FieldDecl F} (h : c.getField nm = some (.inl d)) : c.port d.name = some (.inl d) := by
  obtain ⟨nm', h⟩ := resolveName_known _ _ _ _ (Nat.lt_succ_self _) h
  rw [port_inl h]; exact h

theorem getField_event {c : Class F} {nm : Text} {e : EventDecl} (h : c.getField nm = some (.inr e)) : c.port e.name = some (.inr e) := by
  obtain ⟨nm', h⟩ := resolveName_known _ _ _ _ (Nat.lt_succ_self _) h
  rw [port_inr h]; exact h

/-! ### Connections -/

/-- A connection from a field leads to a field of the same kind. -/
def WireOK (w : World F) (x : Wire) : Prop :=
  ∃ c c', clsAt w x.src = some c ∧ clsAt w x.dst = some c' ∧ ∀ d, c.port x.srcField = some (.inl d) → ∃ d', c'.getField x.dstField = some (.inl d') ∧ d'.kind = d.kind

theorem portAt_of {w : World F} {i : Nat} {c : Class F} (h : clsAt w i = some c) {f p} (hp : c.getField f = some p) : PortAt w i f p := by
  obtain ⟨n, h1, rfl⟩ := Option.map_eq_some_iff.1 h
  exact ⟨n, h1, hp⟩

theorem take_fit {w : World F} {d : FieldDecl F} {v : Val F} (h : Fit d.kind v) : ∃ u, w.take d (some v) = some (some u) ∧ Fit d.kind u := by
  obtain ⟨u, hu⟩ := Option.isSome_iff_exists.1 (h d.conv)
  exact ⟨u, by simp [World.take, hu], Fit.out hu⟩

theorem mem_outs {w : World F} {i : Nat} {f : Text} {x : Wire} (h : x ∈ w.out i f) : x ∈ w.wires ∧ x.src = i ∧ x.srcField = f := by
  simp only [World.out, List.mem_filter, Bool.and_eq_true, beq_iff_eq] at h
  exact ⟨h.1, h.2.1, h.2.2⟩

theorem setField_like {w0 w : World F} (h : Like w0 w) (i f v) : Like w0 (w.setField i f v) := (setField_quiet w i f v).like rfl h

/-- Passing a value on to a field that can take it comes to an end, without an error. -/
theorem forward_fit {w0 : World F} (hW : ∀ x ∈ w0.wires, WireOK w0 x) : ∀ (fuel : Nat) (vis : List Place) (w : World F) (i : Nat) (f : Text) (d : FieldDecl F) (v : Val F), Like w0 w →
    PortAt w0 i f (.inl d) → Fit d.kind v → (i, d.name) ∈ w0.ends → w0.unvisited vis < fuel → ∃ r, forward fuel vis w i f (some v) = some r ∧ Like w0 r.2 ∧ ∀ q ∈ vis, q ∈ r.1
  | 0, _, _, _, _, _, _, _, _, _, _, hf => absurd hf (Nat.not_lt_zero _)
  | fuel + 1, vis, w, i, f, d, v, hl, hp, hv, he, hf => by
    rw [forward]
    simp only [hl.port.2 hp]
    by_cases hvis : (i, d.name) ∈ vis
    · rw [if_pos hvis]; exact ⟨_, rfl, hl, fun _ h => h⟩
    · rw [if_neg hvis]
      obtain ⟨u, hu, hfu⟩ := take_fit (w := w) hv
      rw [hu]
      simp only
      have hlt := unvisited_lt hvis he
      have : ∀ (l : List Wire) (a : List Place × World F), (∀ x ∈ l, x ∈ w0.out i d.name) → Like w0 a.2 → (∀ q ∈ (i, d.name) :: vis, q ∈ a.1) →
          ∃ r, l.foldlM (fun (p : List Place × World F) x => forward fuel p.1 p.2 x.dst x.dstField (some u)) a = some r ∧ Like w0 r.2 ∧ ∀ q ∈ (i, d.name) :: vis, q ∈ r.1 := by
        intro l
        induction l with
        | nil => exact fun a _ h1 h2 => ⟨a, rfl, h1, h2⟩
        | cons x l ih =>
          intro a hm h1 h2
          obtain ⟨hx, hs, hsf⟩ := mem_outs (hm x (by simp))
          obtain ⟨c, c', hc, hc', hd⟩ := hW x hx
          obtain ⟨n, hn, hnf⟩ := hp
          have hcn : c = n.cls := by
            rw [hs] at hc
            simp only [clsAt, hn, Option.map_some, Option.some.injEq] at hc
            exact hc.symm
          obtain ⟨d', hd', hk⟩ := hd d (by rw [hsf, hcn]; exact getField_port hnf)
          have hpd := portAt_of hc' hd'
          obtain ⟨r, hr, hrl, hrv⟩ := forward_fit hW fuel a.1 a.2 x.dst x.dstField d' u h1 hpd (by rw [hk]; exact hfu) (mem_ends hx hpd) (by
            have := unvisited_mono (w := w0) h2
            omega)
          obtain ⟨r', hr', q1, q2⟩ := ih r (fun y hy => hm y (by simp [hy])) hrl (fun q hq => hrv q (h2 q hq))
          refine ⟨r', ?_, q1, q2⟩
          rw [List.foldlM_cons, hr]
          exact hr'
      obtain ⟨r, h1, h2, h3⟩ := this (w.out i d.name) ((i, d.name) :: vis, w.setField i d.name u) (fun x hx => by rw [← hl.out]; exact hx) (setField_like hl _ _ _) (fun _ h => h)
      exact ⟨r, h1, h2, fun q hq => h3 q (by simp [hq])⟩

/-- A value of the field's kind can be stored in any node. -/
theorem setAttr_fit {w : World F} (hW : ∀ x ∈ w.wires, WireOK w x) {i : Nat} {f : Text} {d : FieldDecl F} {v : Val F} (hp : PortAt w i f (.inl d)) (hv : (coerce d.kind d.conv v).isSome = true) :
    ∃ w', w.setAttr i d v = some w' ∧ w'.wires = w.wires := by
  obtain ⟨u, hu⟩ := Option.isSome_iff_exists.1 hv
  by_cases hi : (w.inst i).isSome = true ∧ d.kind ≠ .mfNode
  · rw [setAttr_inst hi.1 hi.2 hu]
    have : ∀ (l : List Wire) (a : World F), (∀ x ∈ l, x ∈ w.out i d.name) → Like w a →
        ∃ r, l.foldlM (fun a x => (forward w.depth [] a x.dst x.dstField (some u)).map Prod.snd) a = some r ∧ Like w r := by
      intro l
      induction l with
      | nil => exact fun a _ h => ⟨a, rfl, h⟩
      | cons x l ih =>
        intro a hm h1
        obtain ⟨hx, hs, hsf⟩ := mem_outs (hm x (by simp))
        obtain ⟨c, c', hc, hc', hd⟩ := hW x hx
        obtain ⟨n, hn, hnf⟩ := hp
        have hcn : c = n.cls := by
          rw [hs] at hc
          simp only [clsAt, hn, Option.map_some, Option.some.injEq] at hc
          exact hc.symm
        obtain ⟨d', hd', hk⟩ := hd d (by rw [hsf, hcn]; exact getField_port hnf)
        have hpd := portAt_of hc' hd'
        obtain ⟨r, hr, hrl, -⟩ := forward_fit hW w.depth [] a x.dst x.dstField d' u h1 hpd (by rw [hk]; exact Fit.out hu) (mem_ends hx hpd) (by
          have := unvisited_le w []
          exact this.trans_lt ((Nat.lt_succ_self _).trans_le (Nat.le_mul_of_pos_right _ (Nat.succ_pos _))))
        obtain ⟨r', hr', q⟩ := ih r.2 (fun y hy => hm y (by simp [hy])) hrl
        refine ⟨r', ?_, q⟩
        rw [List.foldlM_cons, hr]
        exact hr'
    obtain ⟨r, h1, h2⟩ := this _ _ (fun x h => h) (setField_like (Like.refl w) i d.name u)
    exact ⟨r, h1, h2.wires⟩
  · refine ⟨w.setField i d.name u, ?_, rfl⟩
    unfold World.setAttr
    simp only [hu]
    rw [if_neg]
    intro h
    rw [Bool.and_eq_true] at h
    exact hi ⟨h.1, by simpa using h.2⟩

end Verif.Full
