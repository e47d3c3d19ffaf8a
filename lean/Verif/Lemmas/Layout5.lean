import Verif.Lemmas.Layout4
/-!
Whole files.
-/
namespace Verif.Layout
open Verif.Peg Verif.Grammar Verif.Lin Verif.TextOut

variable {F : Type}

theorem same_nil {j} (h : SameTokens [] j) : Ignorable j := by
  generalize hi : ([] : List Char) = i at h
  cases h with
  | same s => subst hi; exact .nil
  | char _ _ => cases hi
  | gap _ _ hne _ _ =>
    have := hi.symm; simp only [List.append_eq_nil_iff] at this; exact absurd this.1 hne
  | mark hk _ _ _ _ _ =>
    have := hi.symm; simp only [List.append_eq_nil_iff] at this
    obtain ⟨c, s, rfl, -⟩ := mark_head hk
    cases this.2.1
  | ending _ hw' => exact hw'

theorem item_mean {i t m r} (h : Der gram (.nt .rootItem) i (.ok t m r)) : Meaningful r := by
  cases h with
  | nt h => cases h with
    | seq _ h => cases h with
      | seq _ h => exact (C07_only_ignorable_skipped h).2.2

theorem items_mean {i o} {e : E} (h : Der gram e i o) : e = .star (.nt .rootItem) → ∀ t m r, o = .ok t m r → t = [] ∧ m = [] ∨ t ≠ [] ∧ Meaningful r := by
  induction h with
  | @starCons a i t m r t' m' r' h1 _ h2 _ ih =>
    intro he t m r ho
    cases he
    cases ho
    right
    cases h1 with
    | nt h =>
      refine ⟨by simp, ?_⟩
      rcases ih rfl _ _ _ rfl with ⟨rfl, rfl⟩ | h'
      · have := h2.append
        simp at this; subst this
        exact item_mean (Der.nt (g := gram) (n := NT.rootItem) h)
      · exact h'.2
  | starNil _ _ => intro _ t m r ho; cases ho; exact .inl ⟨rfl, rfl⟩
  | starErr1 | starErr2 => intro _ t m r ho; cases ho
  | _ => intro he; cases he

theorem norms_nil {k : List PTree} (h : norms k = []) : k = [] := by
  cases k with
  | nil => rfl
  | cons a k => cases h

theorem header_der {hdr a : List Char} (h : '\n' ∉ hdr) : Der gram (.nt .header) (hdr ++ '\n' :: a) (.ok [.node .header hdr []] hdr ('\n' :: a)) := by
  refine Der.nt (g := gram) (n := NT.header) (starCls_der ?_ ?_)
  · intro c hc
    have : c ≠ '\n' := by rintro rfl; exact h hc
    simp [notNl, this]
  · intro c x hx; cases hx; rfl

theorem file_sim {hdr a b : List Char} (hh : '\n' ∉ hdr) (hg : SameTokens ('\n' :: a) ('\n' :: b)) {ts m} (h : Der gram (gram .vrmlFile) (hdr ++ '\n' :: a) (.ok ts m [])) :
    ∃ h sm k e sm' k' m', ts = [h, .node .vrmlScene sm k, e] ∧ Der gram (gram .vrmlFile) (hdr ++ '\n' :: b) (.ok [h, .node .vrmlScene sm' k', e] m' []) ∧ WFs k ∧ WFs k' ∧ norms k = norms k' := by
  cases h with
  | seq h1 h2 =>
    cases h1.det _ (header_der hh)
    cases h2 with
    | seq h2 h3 =>
      cases h3 with
      | cut h3 =>
        cases h3 with
        | nt h3 =>
          cases h3
          cases h2 with
          | @nt _ _ k sm _ h2 =>
            obtain ⟨o', hd, hsim⟩ := sim (Der.nt (g := gram) (n := NT.vrmlScene) h2) .word .loose _ (by rfl) hg
            obtain ⟨t', m', r', rfl, hn, hr, -⟩ := hsim.ok_inv
            cases hd with
            | @nt _ _ k' sm' _ hd =>
              have hn' : norms k = norms k' := by simpa [norms, norm, isLeaf] using hn
              have hk : k ≠ [] := by
                rcases items_mean h2 rfl _ _ _ rfl with ⟨-, rfl⟩ | h
                · have := h2.append; cases this
                · exact h.1
              have hk' : k' ≠ [] := by
                rintro rfl
                exact hk (norms_nil hn')
              have hm : Meaningful r' := by
                rcases items_mean hd rfl _ _ _ rfl with ⟨h, -⟩ | h
                · exact absurd h hk'
                · exact h.2
              obtain ⟨w, w', r, r2, e1, rfl, hw, hw', hr⟩ := hr
              have e1' := e1.symm
              simp only [List.append_eq_nil_iff] at e1'
              obtain ⟨rfl, rfl⟩ := e1'
              have hi := hw'.append (same_nil hr)
              have hnil := gap_not_mean (r := []) hi (by simpa using hm)
              rw [hnil] at hd
              have := Der.seq (header_der (a := b) hh) (Der.seq (Der.nt (g := gram) (n := NT.vrmlScene) hd) (Der.cut (Der.nt (g := gram) (n := NT.eof) .eof)))
              exact ⟨_, _, _, _, _, _, _, rfl, this, der_wf h2 _ _ _ rfl, der_wf hd _ _ _ rfl, hn'⟩

/-! ### Prototypes -/

theorem readDecl_norm {fl : Floats F} (hfl : PyFloat fl) (lk : Text → Option (Class F)) (rs : RSt F) (p : ProtoDef F) {t : PTree} (hw : WF t) :
    readDecl lk fl rs p (norm t) = readDecl lk fl rs p t := by
  obtain ⟨n, m, k⟩ := t
  cases n
  case fieldDecl =>
    match k, hw with
    | [], _ => simp [norm, isLeaf, norms, readDecl]
    | [_], _ => simp [norm, isLeaf, norms, readDecl]
    | [_, _], _ => simp [norm, isLeaf, norms, readDecl]
    | [_, _, _], _ => simp [norm, isLeaf, norms, readDecl]
    | _ :: _ :: _ :: _ :: _ :: _, _ => simp [norm, isLeaf, norms, readDecl]
    | [.node n1 m1 k1, .node n2 m2 k2, .node n3 m3 k3, v], hw =>
      have hv : WF v := hw.2.2.2.2.2.1
      have := fun fd rs => (norm_disp hfl lk (sizeOf v + 1)).1 v (by omega) hv none fd rs
      cases n1
      case fieldExposure =>
        cases n2
        case dataType =>
          cases n3
          case name => simp [norm, norms, isLeaf, readDecl, this]
          all_goals simp [norm, norms, isLeaf, readDecl]
        all_goals simp [norm, norms, isLeaf, readDecl]
      all_goals simp [norm, norms, isLeaf, readDecl]
  case eventDecl =>
    match k with
    | [] => simp [norm, isLeaf, norms, readDecl]
    | [_] => simp [norm, isLeaf, norms, readDecl]
    | [_, _] => simp [norm, isLeaf, norms, readDecl]
    | _ :: _ :: _ :: _ :: _ => simp [norm, isLeaf, norms, readDecl]
    | [.node n1 m1 k1, .node n2 m2 k2, .node n3 m3 k3] =>
      cases n1
      case eventDirection =>
        cases n2
        case dataType =>
          cases n3
          case name => rfl
          all_goals simp [norm, norms, isLeaf, readDecl]
        all_goals simp [norm, norms, isLeaf, readDecl]
      all_goals simp [norm, norms, isLeaf, readDecl]
  all_goals simp [norm, isLeaf, readDecl]

theorem norm_tag (t : PTree) : tagOf (norm t) = tagOf t := by
  obtain ⟨n, m, k⟩ := t
  simp only [norm]; split <;> rfl

/-- is it a scene alone? -/
def soleScene : List PTree → Option PTree
  | [.node .vrmlScene m k] => some (.node .vrmlScene m k)
  | _ => none

theorem soleScene_norms (l : List PTree) : soleScene (norms l) = (soleScene l).map norm := by
  match l with
  | [] => rfl
  | _ :: _ :: _ => simp [norms, soleScene]
  | [.node n m k] => cases n <;> rfl

theorem readDecls_eq (lk : Text → Option (Class F)) (fl : Floats F) (rs : RSt F) (l : List PTree) (p : ProtoDef F) :
    readDecls lk fl rs l p = match soleScene l with
      | some s => if coreName p.name then none else match disp lk fl s none none ⟨{ (Scene.empty : Scene F) with is := some [] }, 0⟩ with
        | none => none
        | some (_, rs) => some { p with body := some rs.sc }
      | none => match l with
        | [] => none
        | t :: ts => match readDecl lk fl rs p t with
          | none => none
          | some p => readDecls lk fl rs ts p := by
  match l with
  | [] => simp [readDecls, soleScene]
  | _ :: _ :: _ => rw [readDecls]; simp only [soleScene]; rfl; simp
  | [.node n m k] => 
    cases n
    case vrmlScene => rw [readDecls]; rfl
    all_goals (rw [readDecls]; rfl; simp)

theorem soleScene_eq {l s} (h : soleScene l = some s) : l = [s] := by
  match l with
  | [] => cases h
  | _ :: _ :: _ => simp [soleScene] at h
  | [.node n m k] => cases n <;> simp [soleScene] at h; rw [h]

theorem readDecls_norm {fl : Floats F} (hfl : PyFloat fl) (lk : Text → Option (Class F)) (rs : RSt F) {l : List PTree} (hw : WFs l) :
    ∀ p, readDecls lk fl rs (norms l) p = readDecls lk fl rs l p := by
  induction l with
  | nil => intro p; rfl
  | cons t l ih =>
    intro p
    rw [readDecls_eq, readDecls_eq lk fl rs (t :: l), soleScene_norms]
    cases h : soleScene (t :: l) with
    | some s =>
      have := soleScene_eq h
      cases this
      simp only [Option.map_some]
      rw [(norm_disp hfl lk (sizeOf t + 1)).1 t (by omega) hw.1]
    | none =>
      simp only [Option.map_none, norms]
      rw [readDecl_norm hfl lk rs p hw.1]
      cases readDecl lk fl rs p t with
      | none => rfl
      | some p => exact ih hw.2 p

/-- is it the item of a prototype? -/
def protoItem : PTree → Option (List Char × List PTree)
  | .node .rootItem _ [.node .proto _ (.node .nodegi nm _ :: rest)] => some (nm, rest)
  | _ => none

theorem protoItem_norm (t : PTree) : protoItem (norm t) = (protoItem t).map (fun x => (x.1, norms x.2)) := by
  obtain ⟨n, m, k⟩ := t
  cases n
  case rootItem =>
    match k with
    | [] => rfl
    | _ :: _ :: _ => simp [norm, isLeaf, norms, protoItem]
    | [.node n2 m2 k2] =>
      cases n2
      case proto =>
        match k2 with
        | [] => rfl
        | .node n3 m3 k3 :: l => cases n3 <;> rfl
      all_goals rfl
  all_goals rfl

theorem protoItem_wf {t : PTree} (hw : WF t) {nm rest} (h : protoItem t = some (nm, rest)) : WFs rest := by
  obtain ⟨n, m, k⟩ := t
  cases n
  case rootItem =>
    match k, hw with
    | [], _ => cases h
    | _ :: _ :: _, _ => simp [protoItem] at h
    | [.node n2 m2 k2], hw =>
      cases n2
      case proto =>
        match k2, hw with
        | [], _ => cases h
        | .node n3 m3 k3 :: l, hw =>
          cases n3
          case nodegi => cases h; exact hw.2.2.1.2.2.2
          all_goals cases h
      all_goals cases h
  all_goals cases h

theorem readItems_eq (base : Text → Option (Class F)) (fl : Floats F) (t : PTree) (ts : List PTree) (f : FSt F) :
    readItems base fl (t :: ts) f = match protoItem t with
      | some (nm, rest) => match readDecls (FSt.lookup base f.protos) fl f.rs rest (ProtoDef.new nm) with
        | none => none
        | some p => readItems base fl ts { f with protos := (nm, p) :: f.protos }
      | none => match disp (FSt.lookup base f.protos) fl t none none f.rs with
        | none => none
        | some (_, rs) => readItems base fl ts { f with rs := rs } := by
  obtain ⟨n, m, k⟩ := t
  cases n
  case rootItem =>
    match k with
    | [] => simp only [readItems, protoItem]; rfl
    | _ :: _ :: _ => rw [readItems]; simp only [protoItem]; rfl; simp
    | [.node n2 m2 k2] =>
      cases n2
      case proto =>
        match k2 with
        | [] => simp only [readItems, protoItem]; rfl
        | .node n3 m3 k3 :: l =>
          cases n3
          case nodegi => rw [readItems]; rfl
          all_goals (rw [readItems]; rfl; simp)
      all_goals (rw [readItems]; rfl; simp)
  all_goals (simp only [readItems, protoItem]; rfl)

theorem readItems_norm {fl : Floats F} (hfl : PyFloat fl) (base : Text → Option (Class F)) {l : List PTree} (hw : WFs l) :
    ∀ f, readItems base fl (norms l) f = readItems base fl l f := by
  induction l with
  | nil => intro f; rfl
  | cons t l ih =>
    intro f
    simp only [norms]
    rw [readItems_eq, readItems_eq base fl t, protoItem_norm]
    cases h : protoItem t with
    | some x =>
      obtain ⟨nm, rest⟩ := x
      simp only [Option.map_some]
      rw [readDecls_norm hfl _ _ (protoItem_wf hw.1 h)]
      cases readDecls (FSt.lookup base f.protos) fl f.rs rest (ProtoDef.new nm) with
      | none => rfl
      | some p => exact ih hw.2 _
    | none =>
      simp only [Option.map_none]
      rw [(norm_disp hfl _ (sizeOf t + 1)).1 t (by omega) hw.1]
      cases disp (FSt.lookup base f.protos) fl t none none f.rs with
      | none => rfl
      | some p => exact ih hw.2 _

end Verif.Layout
