import Verif.Model.Copy
import Verif.Props.Route
/-
C50 (copying a node), C51 (prototype instances).
-/
namespace Verif.Copy
open Verif.PyDict

variable {N I E : Type} [DecidableEq N]

/-- a stored value fits the kind of its field and points into the heap -/
def Typed (h : Heap N I E) : Kind → Val I → Prop
  | .share, .imm _ => True
  | .share, .node _ => True
  | .data, .obj i => ∃ l, h[i]? = some (.data l)
  | .nodes, .obj i => ∃ b l, h[i]? = some (.nodes b l)
  | .weak, .weak _ => True
  | .weak, .node _ => True
  | .weak, .imm _ => True
  | _, _ => False

/-- every node of the heap stores, for the fields of its class, values that fit -/
def WF (fields : Nat → List (N × Kind)) (h : Heap N I E) : Prop :=
  ∀ (n : Nat) cls d, h[n]? = some (.node cls d) →
    (∀ k kind v, (k, kind) ∈ fields cls → get? d k = some v → Typed h kind v)
    ∧ (∀ k v, get? d k = some v → k ∈ (fields cls).map Prod.fst)

theorem see_append (h ext : Heap N I E) (kind : Kind) (v : Val I) (ht : Typed h kind v) :
    see (h ++ ext) v = see h v := by
  cases v with
  | imm => rfl
  | node => rfl
  | weak => rfl
  | obj i =>
    have hi : i < h.length := by
      cases kind <;> simp only [Typed] at ht
      · obtain ⟨l, hl⟩ := ht
        exact (List.getElem?_eq_some_iff.1 hl).1
      · obtain ⟨b, l, hl⟩ := ht
        exact (List.getElem?_eq_some_iff.1 hl).1
    simp only [see, List.getElem?_append_left hi]

/-- what one copied value satisfies: the heap only grew, the contents are the same, and mutable objects
are new; MFNode values are plain lists -/
structure CopySpec (h h' : Heap N I E) (kind : Kind) (v v' : Val I) : Prop where
  grew : ∃ ext, h' = h ++ ext
  same : see h' v' = see h v
  typed : Typed h' kind v'
  fresh : ∀ j, v' = .obj j → h.length ≤ j
  plain : kind = .nodes → ∃ j l, v' = .obj j ∧ h'[j]? = some (.nodes false l)

theorem copyValue_spec (h : Heap N I E) (kind : Kind) (v : Val I) (ht : Typed h kind v) :
    CopySpec h (copyValue h kind v).1 kind v (copyValue h kind v).2 := by
  cases kind <;> cases v <;> simp only [Typed] at ht
  · exact ⟨⟨[], by simp [copyValue]⟩, rfl, trivial, by simp [copyValue], by simp⟩
  · exact ⟨⟨[], by simp [copyValue]⟩, rfl, trivial, by simp [copyValue], by simp⟩
  · obtain ⟨l, hl⟩ := ht
    rename_i i0
    have e : copyValue h .data (.obj i0) = (h ++ [.data l], Val.obj (I := I) h.length) := by
      simp only [copyValue, hl]
    rw [e]
    refine ⟨⟨_, rfl⟩, ?_, ⟨l, by simp⟩, ?_, by simp⟩
    · simp [see, hl]
    · rintro j hj; cases hj; exact Nat.le_refl _
  · obtain ⟨b, l, hl⟩ := ht
    rename_i i0
    have e : copyValue h .nodes (.obj i0) = (h ++ [.nodes false l], Val.obj (I := I) h.length) := by
      simp only [copyValue, hl]
    rw [e]
    refine ⟨⟨_, rfl⟩, ?_, ⟨false, l, by simp⟩, ?_, fun _ => ⟨_, l, rfl, by simp⟩⟩
    · simp [see, hl]
    · rintro j hj; cases hj; exact Nat.le_refl _
  · exact ⟨⟨[], by simp [copyValue]⟩, rfl, trivial, by simp [copyValue], by simp⟩
  · exact ⟨⟨[], by simp [copyValue]⟩, rfl, trivial, by simp [copyValue], by simp⟩
  · exact ⟨⟨[], by simp [copyValue]⟩, rfl, trivial, by simp [copyValue], by simp⟩

theorem Typed.append {h : Heap N I E} {kind : Kind} {v : Val I} (ht : Typed h kind v) (ext : Heap N I E) :
    Typed (h ++ ext) kind v := by
  cases kind <;> cases v <;> simp only [Typed] at ht ⊢
  · obtain ⟨l, hl⟩ := ht
    exact ⟨l, by rw [List.getElem?_append_left (List.getElem?_eq_some_iff.1 hl).1, hl]⟩
  · obtain ⟨b, l, hl⟩ := ht
    exact ⟨b, l, by rw [List.getElem?_append_left (List.getElem?_eq_some_iff.1 hl).1, hl]⟩

theorem CopySpec.later {h h1 : Heap N I E} {kind : Kind} {v v' : Val I} (c : CopySpec h h1 kind v v')
    (ext : Heap N I E) : CopySpec h (h1 ++ ext) kind v v' := by
  obtain ⟨e0, he⟩ := c.grew
  refine ⟨⟨e0 ++ ext, by rw [he, List.append_assoc]⟩, ?_, c.typed.append ext, c.fresh, ?_⟩
  · rw [see_append _ _ kind _ c.typed, c.same]
  · intro hk
    obtain ⟨j, l, e1, e2⟩ := c.plain hk
    exact ⟨j, l, e1, by rw [List.getElem?_append_left (List.getElem?_eq_some_iff.1 e2).1, e2]⟩

theorem copyFields_spec (dict : Dict N (Val I)) (l : List (N × Kind)) :
    ∀ h : Heap N I E, (∀ k kind v, (k, kind) ∈ l → get? dict k = some v → Typed h kind v) →
    (l.map Prod.fst).Nodup →
    (∃ ext, (copyFields h dict l).1 = h ++ ext)
    ∧ (∀ k kind, (k, kind) ∈ l →
        match get? dict k with
        | none => get? (copyFields h dict l).2 k = none
        | some v => ∃ v', get? (copyFields h dict l).2 k = some v'
            ∧ CopySpec h (copyFields h dict l).1 kind v v')
    ∧ (∀ k, k ∉ l.map Prod.fst → get? (copyFields h dict l).2 k = none) := by
  induction l with
  | nil => intro h _ _; exact ⟨⟨[], by simp [copyFields]⟩, by simp, by simp [copyFields, get?]⟩
  | cons p l ih =>
    obtain ⟨k0, kind0⟩ := p
    intro h hty hnd
    simp only [List.map_cons, List.nodup_cons] at hnd
    cases hd : get? dict k0 with
    | none =>
      have e : copyFields h dict ((k0, kind0) :: l) = copyFields h dict l := by simp [copyFields, hd]
      rw [e]
      obtain ⟨i1, i2, i3⟩ := ih h (fun k kind v hm hg => hty k kind v (by simp [hm]) hg) hnd.2
      refine ⟨i1, ?_, ?_⟩
      · intro k kind hm
        rcases List.mem_cons.1 hm with hm | hm
        · cases hm; rw [hd]; exact i3 k0 hnd.1
        · exact i2 k kind hm
      · intro k hk
        simp only [List.map_cons, List.mem_cons, not_or] at hk
        exact i3 k hk.2
    | some v =>
      have hv := hty k0 kind0 v (by simp) hd
      have cs := copyValue_spec h kind0 v hv
      have e : copyFields h dict ((k0, kind0) :: l)
          = ((copyFields (copyValue h kind0 v).1 dict l).1,
             (k0, (copyValue h kind0 v).2) :: (copyFields (copyValue h kind0 v).1 dict l).2) := by
        simp [copyFields, hd]
      rw [e]
      obtain ⟨e0, he0⟩ := cs.grew
      obtain ⟨⟨e1, he1⟩, i2, i3⟩ := ih (copyValue h kind0 v).1
        (fun k kind v hm hg => by rw [he0]; exact (hty k kind v (by simp [hm]) hg).append e0) hnd.2
      refine ⟨⟨e0 ++ e1, by simp only [he1]; rw [he0, List.append_assoc]⟩, ?_, ?_⟩
      · intro k kind hm
        rcases List.mem_cons.1 hm with hm | hm
        · cases hm
          rw [hd]
          refine ⟨(copyValue h kind0 v).2, by simp [get?], ?_⟩
          simp only [he1]
          exact cs.later e1
        · have hne : ¬ k0 = k := by
            rintro rfl; exact hnd.1 (List.mem_map.2 ⟨_, hm, rfl⟩)
          have := i2 k kind hm
          cases hg : get? dict k with
          | none => rw [hg] at this; simpa [get?, hne] using this
          | some w =>
            rw [hg] at this
            obtain ⟨v', h1, h2⟩ := this
            refine ⟨v', by simpa [get?, hne] using h1, ?_⟩
            simp only [he1] at h2 ⊢
            have hw := hty k kind w (by simp [hm]) hg
            refine ⟨⟨e0 ++ e1, by rw [he0, List.append_assoc]⟩, ?_, h2.typed, ?_, h2.plain⟩
            · rw [h2.same, he0, see_append _ _ kind _ hw]
            · intro j hj
              have := h2.fresh j hj
              rw [he0] at this; simp at this; omega
      · intro k hk
        simp only [List.map_cons, List.mem_cons, not_or] at hk
        have hne : ¬ k0 = k := fun h => hk.1 h.symm
        simpa [get?, hne] using i3 k hk.2

/-- Everything about one copy. -/
theorem copyNode_spec (fields : Nat → List (N × Kind)) (hnd : ∀ c, ((fields c).map Prod.fst).Nodup)
    (h : Heap N I E) (hwf : WF fields h) (memo : Dict Nat Nat) (n cls : Nat) (d : Dict N (Val I))
    (hn : h[n]? = some (.node cls d)) (hm : get? memo n = none) :
    ∃ (ext : Heap N I E) (d' : Dict N (Val I)), copyNode fields h memo n = (h ++ ext ++ [.node cls d'], set memo n (h ++ ext).length, (h ++ ext).length)
      ∧ ∀ k kind, (k, kind) ∈ fields cls →
        match get? d k with
        | none => get? d' k = none
        | some v => ∃ v', get? d' k = some v' ∧ CopySpec h (h ++ ext) kind v v' := by
  obtain ⟨⟨ext, he⟩, h2, -⟩ := copyFields_spec d (fields cls) h
    (fun k kind v hm hg => (hwf n cls d hn).1 k kind v hm hg) (hnd cls)
  refine ⟨ext, (copyFields h d (fields cls)).2, ?_, ?_⟩
  · simp only [copyNode, hm, hn, he]
  · intro k kind hk
    have := h2 k kind hk
    rw [he] at this
    exact this

/-- C50: copying a node gives a new object of the same class on which every field of the class reads the
same (same value, array contents, list contents, and the very same nodes in node fields), and no
existing object changes. -/
theorem C50_copy_reads_same (fields : Nat → List (N × Kind)) (hnd : ∀ c, ((fields c).map Prod.fst).Nodup)
    (h : Heap N I E) (hwf : WF fields h) (memo : Dict Nat Nat) (n cls : Nat) (d : Dict N (Val I))
    (hn : h[n]? = some (.node cls d)) (hm : get? memo n = none)
    (h' : Heap N I E) (memo' : Dict Nat Nat) (m : Nat) (hc : copyNode fields h memo n = (h', memo', m)) :
    h.length ≤ m ∧ (∃ d', h'[m]? = some (.node cls d'))
    ∧ (∀ i, i < h.length → h'[i]? = h[i]?)
    ∧ (∀ k, k ∈ (fields cls).map Prod.fst → read h' m k = read h n k) := by
  obtain ⟨ext, d', e, hs⟩ := copyNode_spec fields hnd h hwf memo n cls d hn hm
  rw [e] at hc
  simp only [Prod.mk.injEq] at hc
  obtain ⟨rfl, rfl, rfl⟩ := hc
  have hget : (h ++ ext ++ [Obj.node cls d'])[(h ++ ext).length]? = some (.node cls d') := by simp
  refine ⟨by simp, ⟨d', hget⟩, ?_, ?_⟩
  · intro i hi
    rw [List.getElem?_append_left (by simp; omega), List.getElem?_append_left hi]
  · intro k hk
    obtain ⟨⟨k', kind⟩, hmem, rfl⟩ := List.mem_map.1 hk
    have := hs k' kind hmem
    simp only [read, hget, hn]
    cases hg : get? d k' with
    | none => rw [hg] at this; simp [this]
    | some v =>
      rw [hg] at this
      obtain ⟨v', h1, h2⟩ := this
      simp only [h1]
      rw [see_append _ _ kind _ h2.typed, h2.same]

/-- C50: a node reached again during the same copying pass is not copied again: the same copy is returned
and nothing changes, whatever else was done in between. -/
theorem C50_copied_once (fields : Nat → List (N × Kind))
    (h : Heap N I E) (memo : Dict Nat Nat) (n cls : Nat) (d : Dict N (Val I))
    (hn : h[n]? = some (.node cls d)) :
    ∀ h' memo' m, copyNode fields h memo n = (h', memo', m) →
      ∀ h'' : Heap N I E, copyNode fields h'' memo' n = (h'', memo', m) := by
  intro h' memo' m hc h''
  cases hm : get? memo n with
  | some m0 =>
    simp only [copyNode, hm, Prod.mk.injEq] at hc
    obtain ⟨rfl, rfl, rfl⟩ := hc
    simp [copyNode, hm]
  | none =>
    simp only [copyNode, hm, hn, Prod.mk.injEq] at hc
    obtain ⟨rfl, rfl, rfl⟩ := hc
    simp [copyNode, get?_set]

/-- C50: original and copy are independent: replacing the contents of any object that existed before the
copy (the original's attribute dictionary, its arrays, its lists, by anything) does not change what the
copy reads; replacing the contents of any object made by the copy does not change what any older node
reads. Only the nodes that node fields refer to are shared. -/
theorem C50_independent (fields : Nat → List (N × Kind)) (hnd : ∀ c, ((fields c).map Prod.fst).Nodup)
    (h : Heap N I E) (hwf : WF fields h) (memo : Dict Nat Nat) (n cls : Nat) (d : Dict N (Val I))
    (hn : h[n]? = some (.node cls d)) (hm : get? memo n = none)
    (h' : Heap N I E) (memo' : Dict Nat Nat) (m : Nat) (hc : copyNode fields h memo n = (h', memo', m)) :
    (∀ i o k, i < h.length → k ∈ (fields cls).map Prod.fst → read (h'.set i o) m k = read h' m k)
    ∧ (∀ i o x k cls' d', h.length ≤ i → h[x]? = some (.node cls' d') → k ∈ (fields cls').map Prod.fst →
        read (h'.set i o) x k = read h' x k) := by
  obtain ⟨ext, d', e, hs⟩ := copyNode_spec fields hnd h hwf memo n cls d hn hm
  rw [e] at hc
  simp only [Prod.mk.injEq] at hc
  obtain ⟨rfl, rfl, rfl⟩ := hc
  have hget : (h ++ ext ++ [Obj.node cls d'])[(h ++ ext).length]? = some (.node cls d') := by simp
  have hobj : ∀ (H : Heap N I E) i o j, i ≠ j → see (H.set i o) (Val.obj (I := I) j) = see H (.obj j) := by
    intro H i o j hij
    simp only [see, List.getElem?_set_ne hij]
  constructor
  · intro i o k hi hk
    obtain ⟨⟨k', kind⟩, hmem, rfl⟩ := List.mem_map.1 hk
    have hthis := hs k' kind hmem
    have hne : i ≠ (h ++ ext).length := by simp; omega
    simp only [read, List.getElem?_set_ne hne, hget]
    cases hg : get? d k' with
    | none => rw [hg] at hthis; simp [hthis]
    | some v =>
      rw [hg] at hthis
      obtain ⟨v', h1, h2⟩ := hthis
      simp only [h1]
      cases v' with
      | obj j => exact hobj _ i o j (by have := h2.fresh j rfl; omega)
      | _ => rfl
  · intro i o x k cls' dx hi hx hk
    have hxl : x < h.length := (List.getElem?_eq_some_iff.1 hx).1
    obtain ⟨⟨k', kind⟩, hmem, rfl⟩ := List.mem_map.1 hk
    have hx' : (h ++ ext ++ [Obj.node cls d'])[x]? = some (.node cls' dx) := by
      rw [List.getElem?_append_left (by simp; omega), List.getElem?_append_left hxl, hx]
    simp only [read, List.getElem?_set_ne (show i ≠ x by omega), hx']
    cases hg : get? dx k' with
    | none => rfl
    | some v =>
      have ht := (hwf x cls' dx hx).1 k' kind v hmem hg
      cases v with
      | obj j =>
        refine hobj _ i o j ?_
        have : j < h.length := by
          cases kind <;> simp only [Typed] at ht
          · obtain ⟨l, hl⟩ := ht
            exact (List.getElem?_eq_some_iff.1 hl).1
          · obtain ⟨b, l, hl⟩ := ht
            exact (List.getElem?_eq_some_iff.1 hl).1
        omega
      | _ => rfl

/-- C50, refuted part ("the copy behaves like the original"): whatever list an MFNode field of the
original holds, the copy holds a plain list in that field, so later changes of the copy's child list send
no notifications. -/
theorem C50_refuted_child_list_observable (fields : Nat → List (N × Kind))
    (hnd : ∀ c, ((fields c).map Prod.fst).Nodup)
    (h : Heap N I E) (hwf : WF fields h) (memo : Dict Nat Nat) (n cls : Nat) (d : Dict N (Val I))
    (hn : h[n]? = some (.node cls d)) (hm : get? memo n = none) (k : N) (v : Val I)
    (hk : (k, Kind.nodes) ∈ fields cls) (hv : get? d k = some v)
    (h' : Heap N I E) (memo' : Dict Nat Nat) (m : Nat) (hc : copyNode fields h memo n = (h', memo', m)) :
    ∃ d' j l, h'[m]? = some (.node cls d') ∧ get? d' k = some (.obj j) ∧ h'[j]? = some (.nodes false l) := by
  obtain ⟨ext, d', e, hs⟩ := copyNode_spec fields hnd h hwf memo n cls d hn hm
  rw [e] at hc
  simp only [Prod.mk.injEq] at hc
  obtain ⟨rfl, rfl, rfl⟩ := hc
  have := hs k .nodes hk
  rw [hv] at this
  obtain ⟨v', h1, h2⟩ := this
  obtain ⟨j, l, rfl, h3⟩ := h2.plain rfl
  refine ⟨d', j, l, by simp, h1, ?_⟩
  rw [List.getElem?_append_left (List.getElem?_eq_some_iff.1 h3).1, h3]

/-- Non-vacuity: a group node (class 1) with a DEF, a bounding box array and children. -/
def exFields : Nat → List (String × Kind)
  | 1 => [("DEF", .share), ("box", .data), ("children", .nodes), ("root", .weak)]
  | _ => [("DEF", .share)]
def exHeap : Heap String String Nat :=
  [.node 1 [("DEF", .imm "g"), ("box", .obj 1), ("children", .obj 2), ("root", .weak 4)], .data [1, 2, 3], .nodes true [3],
   .node 0 [("DEF", .imm "leaf")], .node 0 []]
example : ∀ c, ((exFields c).map Prod.fst).Nodup := by
  intro c; unfold exFields; split <;> simp
example : WF exFields exHeap := by
  intro n cls d h
  have hn : n < 5 := (List.getElem?_eq_some_iff.1 h).1
  match n, hn with
  | 0, _ =>
    simp [exHeap] at h; obtain ⟨rfl, rfl⟩ := h
    constructor
    · intro k kind v hm hg
      simp [exFields] at hm
      rcases hm with ⟨rfl, rfl⟩ | ⟨rfl, rfl⟩ | ⟨rfl, rfl⟩ | ⟨rfl, rfl⟩ <;>
        simp [get?] at hg <;> subst hg <;> simp [Typed, exHeap]
    · intro k v hg
      have := get?_mem _ _ _ hg
      simp at this
      rcases this with ⟨rfl, _⟩ | ⟨rfl, _⟩ | ⟨rfl, _⟩ | ⟨rfl, _⟩ <;> simp [exFields]
  | 1, _ => simp [exHeap] at h
  | 2, _ => simp [exHeap] at h
  | 3, _ =>
    simp [exHeap] at h; obtain ⟨rfl, rfl⟩ := h
    constructor
    · intro k kind v hm hg
      simp [exFields] at hm
      rcases hm with ⟨rfl, rfl⟩
      simp [get?] at hg; subst hg; simp [Typed]
    · intro k v hg
      have := get?_mem _ _ _ hg
      simp at this
      rcases this with ⟨rfl, _⟩; simp [exFields]
  | 4, _ =>
    simp [exHeap] at h; obtain ⟨rfl, rfl⟩ := h
    constructor
    · intro k kind v hm hg; simp [get?] at hg
    · intro k v hg; simp [get?] at hg

/-- C50, refuted part for scene graphs: the copy of a scene graph registers copies of the DEF'd nodes but
its children are the original nodes: a DEF name that gave a child of the original gives a node that is not a
child of the copy. -/
theorem C50_refuted_scene_copy :
    ∃ (fields : Nat → List (String × Kind)) (h : Heap String String Nat) (sg : Nat) (defs : Dict String Nat),
      (∃ x l, get? defs "A" = some x ∧ read h sg "children" = .nodes l ∧ x ∈ l)
      ∧ (∃ y l, get? (copyScene fields "" h sg defs).2.2 "A" = some y
          ∧ read (copyScene fields "" h sg defs).1 (copyScene fields "" h sg defs).2.1 "children" = .nodes l
          ∧ y ∉ l) := by
  refine ⟨fun c => if c = 1 then [("children", .nodes)] else [("DEF", .share)],
    [.node 1 [("children", .obj 1)], .nodes true [2], .node 0 [("DEF", .imm "A")]], 0, [("A", 2)],
    ⟨2, [2], rfl, by decide, by decide⟩, ⟨3, [2], ?_, ?_, by decide⟩⟩
  · decide
  · decide

/-! ### A scene graph in its own DEF table -/

theorem copyNode_keeps (fields : Nat → List (N × Kind)) {h : Heap N I E} {memo : Dict Nat Nat} {n : Nat} {h' : Heap N I E} {memo' : Dict Nat Nat} {m : Nat}
    (hc : copyNode fields h memo n = (h', memo', m)) {x y : Nat} (hx : get? memo x = some y) : get? memo' x = some y := by
  unfold copyNode at hc
  split at hc
  · cases hc; exact hx
  · next hn =>
    split at hc
    · cases hc
      rw [get?_set]
      split
      · next he => subst he; rw [hn] at hx; cases hx
      · exact hx
    · cases hc; exact hx

theorem copyFields_grows (dict : Dict N (Val I)) : ∀ (l : List (N × Kind)) (h : Heap N I E), h <+: (copyFields h dict l).1 := by
  have hv : ∀ (h : Heap N I E) k v, h <+: (copyValue h k v).1 := by
    intro h k v
    unfold copyValue
    split
    · split
      · exact List.prefix_append _ _
      · exact List.prefix_refl _
    · split
      · exact List.prefix_append _ _
      · exact List.prefix_refl _
    · exact List.prefix_refl _
    · exact List.prefix_refl _
  intro l
  induction l with
  | nil => intro h; exact List.prefix_refl _
  | cons e l ih =>
    intro h
    obtain ⟨k, kind⟩ := e
    unfold copyFields
    split
    · exact ih h
    · exact (hv _ _ _).trans (ih _)

theorem copyNode_grows (fields : Nat → List (N × Kind)) {h : Heap N I E} {memo : Dict Nat Nat} {n : Nat} {h' : Heap N I E} {memo' : Dict Nat Nat} {m : Nat}
    (hc : copyNode fields h memo n = (h', memo', m)) : h <+: h' := by
  unfold copyNode at hc
  split at hc
  · cases hc; exact List.prefix_refl _
  · split at hc
    · next c dict _ =>
      have := copyFields_grows dict (fields c) h
      cases hc
      exact this.trans (List.prefix_append _ _)
    · cases hc; exact List.prefix_refl _

theorem copyDefs_entry (fields : Nat → List (N × Kind)) (empty : N) {k : N} (hk : k ≠ empty) {sg c : Nat} {dict : Dict N (Val I)} : ∀ (defs : Dict N Nat) (h : Heap N I E) (memo : Dict Nat Nat)
    (h' : Heap N I E) (memo' : Dict Nat Nat) (d : Dict N Nat), copyDefs fields empty h memo defs = (h', memo', d) →
    (∀ x y, get? memo x = some y → get? memo' x = some y) ∧ (get? defs k = some sg → h[sg]? = some (.node c dict) → ∃ m, get? memo' sg = some m ∧ get? d k = some m) := by
  intro defs
  induction defs with
  | nil => intro h memo h' memo' d hc; cases hc; exact ⟨fun _ _ hx => hx, fun hg => by cases hg⟩
  | cons e l ih =>
    obtain ⟨k', v⟩ := e
    intro h memo h' memo' d hc
    unfold copyDefs at hc
    split at hc
    · next he =>
      obtain ⟨h1, h2⟩ := ih _ _ _ _ _ hc
      refine ⟨h1, fun hg hn => h2 ?_ hn⟩
      simp only [get?, he, hk.symm, if_false] at hg
      exact hg
    · next he =>
      simp only at hc
      generalize hc1 : copyNode fields h memo v = r1 at hc
      obtain ⟨h1, memo1, m1⟩ := r1
      simp only at hc
      generalize hc2 : copyDefs fields empty h1 memo1 l = r2 at hc
      obtain ⟨h2, memo2, d2⟩ := r2
      simp only [Prod.mk.injEq] at hc
      obtain ⟨rfl, rfl, rfl⟩ := hc
      obtain ⟨g1, g2⟩ := ih _ _ _ _ _ hc2
      refine ⟨fun x y hx => g1 x y (copyNode_keeps fields hc1 hx), fun hg hn => ?_⟩
      by_cases hkk : k' = k
      · subst hkk
        simp only [get?, if_true, Option.some.injEq] at hg
        subst hg
        have := C50_copied_once fields h memo v c dict hn _ _ _ hc1 []
        refine ⟨m1, g1 _ _ ?_, by simp [get?]⟩
        cases hm : get? memo1 v with
        | some y => simp only [copyNode, hm, Prod.mk.injEq, true_and] at this; rw [this]
        | none =>
          exfalso
          unfold copyNode at hc1
          split at hc1
          · next y hy => cases hc1; rw [hm] at hy; cases hy
          · split at hc1
            · cases hc1; rw [get?_set, if_pos rfl] at hm; cases hm
            · next hne => exact hne _ _ hn
      · simp only [get?, if_neg hkk] at hg ⊢
        refine g2 hg ?_
        obtain ⟨ext, rfl⟩ := copyNode_grows fields hc1
        rw [List.getElem?_append_left (List.getElem?_eq_some_iff.1 hn).1]
        exact hn

/-- C50: a scene graph that is named in its own DEF table: the copy's table has the copy under that name. -/
theorem C50_scene_in_own_table (fields : Nat → List (N × Kind)) (empty : N) {k : N} (hk : k ≠ empty) {h : Heap N I E} {sg c : Nat} {dict : Dict N (Val I)} (hn : h[sg]? = some (.node c dict))
    {defs : Dict N Nat} (hd : get? defs k = some sg) {h' : Heap N I E} {sg' : Nat} {defs' : Dict N Nat} (hc : copyScene fields empty h sg defs = (h', sg', defs')) : get? defs' k = some sg' := by
  unfold copyScene at hc
  generalize hc1 : copyDefs fields empty h [] defs = r1 at hc
  obtain ⟨h1, memo1, d⟩ := r1
  obtain ⟨m, e1, e2⟩ := (copyDefs_entry fields empty hk defs _ _ _ _ _ hc1).2 hd hn
  simp only [copyNode, e1, Prod.mk.injEq] at hc
  obtain ⟨-, rfl, rfl⟩ := hc
  exact e2

/-! ## C51 -/

section C51
open Verif.Route
variable {V : Type}

/-- `net` contains the IS connections of instance `i` of the PROTO -/
def Instantiated (ip : InstPort) (P : Proto V) (net : Net V) (i : Nat) : Prop :=
  ∀ r ∈ isRoutes ip P i, r ∈ net.routes

/-- C51: instantiation makes the IS connections of the new instance, and the other instances keep theirs. -/
theorem C51_instantiate_connects (ip : InstPort) (P : Proto V) (net net' : Net V) (st st' : St V) (i : Nat)
    (h : instantiate ip P net st i = some (net', st')) :
    Instantiated ip P net' i ∧ (∀ j, Instantiated ip P net j → Instantiated ip P net' j) := by
  unfold instantiate at h
  cases hp : pushDefaults net.coerce P P.maps st.store with
  | none => rw [hp] at h; cases h
  | some s =>
    rw [hp] at h
    simp only [Option.some.injEq, Prod.mk.injEq] at h
    obtain ⟨rfl, rfl⟩ := h
    exact ⟨fun r hr => by simp [hr], fun j hj r hr => by simp [hj r hr]⟩

theorem mem_isRoutes (ip : InstPort) (P : Proto V) (i f d : Nat) (ds : List Nat) (hm : (f, ds) ∈ P.maps)
    (hd : d ∈ ds) : (ip i f, d) ∈ isRoutes ip P i ∧ (d, ip i f) ∈ isRoutes ip P i := by
  constructor <;>
    exact List.mem_flatMap.2 ⟨(f, ds), hm, List.mem_flatMap.2 ⟨d, hd, by simp⟩⟩

/-- C51: for *every* PROTO field mapped by IS and *any* two instances, a value set on the field of
one instance (stored as `w`, which the fields that are reached from there keep) ends up in the same field of the other instance
and in the shared node of the rendering subgraph.  (`EventsAreEnds` holds when no event port is involved.) -/
theorem C51_instances_linked (ip : InstPort) (P : Proto V) (net : Net V) (hN : EventsAreEnds net)
    (a b f d : Nat) (ds : List Nat) (hm : (f, ds) ∈ P.maps) (hd : d ∈ ds)
    (ha : Instantiated ip P net a) (hb : Instantiated ip P net b)
    (s : St V) (v w : V) (hw : net.accepted (ip a f) v = some w)
    (hc : ∀ x q, (ip a f, x) ∈ net.routes → Reach net x q → net.isEvent q = false → net.coerce q w = some w) :
    ∃ r, (∀ fuel, net.routes.length < fuel → setPort net fuel s (ip a f) v = some r)
      ∧ r.store (ip b f) = some w ∧ r.store d = some w := by
  obtain ⟨r, h1, _⟩ := C43_terminates net hN s (ip a f) v
  refine ⟨r, h1, ?_, ?_⟩
  · have := (C44_same_type net hN s r (ip a f) v w _ hw hc (h1 (net.routes.length + 1) (by omega)) (ip b f)).1
    apply this
    refine ⟨d, ha _ (mem_isRoutes ip P a f d ds hm hd).1, ?_⟩
    exact Reach.step (hb _ (mem_isRoutes ip P b f d ds hm hd).2) (Reach.refl _)
  · have := (C44_same_type net hN s r (ip a f) v w _ hw hc (h1 (net.routes.length + 1) (by omega)) d).1
    apply this
    exact ⟨d, ha _ (mem_isRoutes ip P a f d ds hm hd).1, Reach.refl d⟩

/-- C51: a field that no IS mention maps (and that has no other route) is independent: setting it on
one instance changes only that field of that instance. -/
theorem C51_unmapped_fields (ip : InstPort) (P : Proto V) (net : Net V) (routes0 : List (Nat × Nat))
    (insts : List Nat) (hr : net.routes = routes0 ++ insts.flatMap (isRoutes ip P))
    (hinj : ∀ i f j g, ip i f = ip j g → i = j ∧ f = g)
    (hdis : ∀ m ∈ P.maps, ∀ d ∈ m.2, ∀ i f, ip i f ≠ d)
    (a f : Nat) (hf : ∀ m ∈ P.maps, m.1 ≠ f) (h0 : ∀ r ∈ routes0, r.1 ≠ ip a f)
    (s : St V) (v w : V) (he : net.isEvent (ip a f) = false) (hw : net.coerce (ip a f) v = some w) (fuel : Nat) :
    setPort net fuel s (ip a f) v
      = some { s with store := fun q => if q = ip a f then some w else s.store q } := by
  have hout : net.out (ip a f) = [] := by
    rw [List.eq_nil_iff_forall_not_mem]
    intro q hq
    have hq := mem_out.1 hq
    rw [hr] at hq
    rcases List.mem_append.1 hq with hq | hq
    · exact h0 _ hq rfl
    · obtain ⟨i, -, hq⟩ := List.mem_flatMap.1 hq
      obtain ⟨m, hm, hq⟩ := List.mem_flatMap.1 hq
      obtain ⟨d, hd, hq⟩ := List.mem_flatMap.1 hq
      simp only [List.mem_cons, Prod.mk.injEq, List.not_mem_nil, or_false] at hq
      rcases hq with ⟨h1, -⟩ | ⟨h1, -⟩
      · exact hf m hm (hinj _ _ _ _ h1).2.symm
      · exact hdis m hm d hd a f h1
  simp [setPort, he, hw, hout]

/-- Instantiation gives the default of a mapped field to the last node it is mapped to (unless a later
mapping ends in the same port). -/
theorem C51_default_reaches_last (ip : InstPort) (P : Proto V) (net net' : Net V) (st st' : St V) (i : Nat)
    (h : instantiate ip P net st i = some (net', st')) (pre post : List (Nat × List Nat)) (f : Nat) (ds : List Nat)
    (hm : P.maps = pre ++ (f, ds) :: post) (hpost : ∀ m ∈ post, m.2.getLast? ≠ ds.getLast?)
    (d : Nat) (hd : ds.getLast? = some d) (v : V) (hv : P.default f = some v) :
    ∃ w, net.coerce d v = some w ∧ st'.store d = some w := by
  have hpost' : ∀ (l : List (Nat × List Nat)) (s s' : Nat → Option V), (∀ m ∈ l, m.2.getLast? ≠ some d) →
      pushDefaults net.coerce P l s = some s' → s' d = s d := by
    intro l
    induction l with
    | nil => intro s s' _ h; simp [pushDefaults] at h; rw [h]
    | cons m l ih =>
      intro s s' hl h
      have hl' : ∀ m ∈ l, m.2.getLast? ≠ some d := fun x hx => hl x (by simp [hx])
      have hm := hl m (by simp)
      simp only [pushDefaults] at h
      split at h
      · split at h
        · rw [ih _ s' hl' h]
          rename_i d' _ heq _ _ _
          have : ¬ d = d' := by rintro rfl; exact hm heq
          simp [this]
        · cases h
      · exact ih _ s' hl' h
  have main : ∀ (pre : List (Nat × List Nat)) (s s' : Nat → Option V),
      pushDefaults net.coerce P (pre ++ (f, ds) :: post) s = some s' →
      ∃ w, net.coerce d v = some w ∧ s' d = some w := by
    intro pre
    induction pre with
    | nil =>
      intro s s' h
      simp only [List.nil_append, pushDefaults, hv, hd] at h
      cases hc : net.coerce d v with
      | none => rw [hc] at h; cases h
      | some w =>
        rw [hc] at h
        exact ⟨w, rfl, by rw [hpost' post _ s' (fun m hm => by rw [← hd]; exact hpost m hm) h]; simp⟩
    | cons m pre ih =>
      intro s s' h
      simp only [List.cons_append, pushDefaults] at h
      split at h
      · split at h
        · exact ih _ s' h
        · cases h
      · exact ih _ s' h
  unfold instantiate at h
  cases hp : pushDefaults net.coerce P P.maps st.store with
  | none => rw [hp] at h; cases h
  | some s' =>
    rw [hp] at h
    simp only [Option.some.injEq, Prod.mk.injEq] at h
    obtain ⟨-, rfl⟩ := h
    rw [hm] at hp
    exact main pre _ s' hp

/-- C51, refuted: when a field is mapped to two nodes only the last receives the default on instantiation;
and creating a second instance resets the shared node although the first instance still has its value. -/
theorem C51_refuted_defaults :
    (∃ (P : Proto Nat) (net : Net Nat) (r : Net Nat × St Nat), (0, [1, 3]) ∈ P.maps ∧ P.default 0 = some 5
        ∧ instantiate (fun i f => 2 * (i + 2 * f)) P net ⟨fun _ => none, []⟩ 0 = some r
        ∧ r.2.store 3 = some 5 ∧ r.2.store 1 = none)
    ∧ (∃ (P : Proto Nat) (net1 : Net Nat) (st1 st2 : St Nat) (r : Net Nat × St Nat),
        instantiate (fun i f => 2 * (i + 2 * f)) P ⟨[], fun _ => false, fun _ v => some v, 0⟩ ⟨fun _ => none, []⟩ 0
          = some (net1, st1)
        ∧ setPort net1 9 st1 0 7 = some st2 ∧ st2.store 0 = some 7 ∧ st2.store 1 = some 7
        ∧ instantiate (fun i f => 2 * (i + 2 * f)) P net1 st2 1 = some r
        ∧ r.2.store 0 = some 7 ∧ r.2.store 1 = some 5) := by
  constructor
  · refine ⟨⟨[(0, [1, 3])], fun _ => some 5⟩, ⟨[], fun _ => false, fun _ v => some v, 0⟩, _, by simp, rfl, rfl, ?_, ?_⟩ <;> rfl
  · refine ⟨⟨[(0, [1])], fun _ => some 5⟩, _, _, _, _, rfl, rfl, ?_, ?_, rfl, ?_, ?_⟩ <;> rfl

/-- Non-vacuity for the linked-instances theorem: two instances of a one-field PROTO. -/
example : ∃ net : Net Nat, (∀ q, net.isEvent q = false) ∧ (∀ q, net.coerce q 7 = some 7)
    ∧ Instantiated (fun i f => 2 * (i + 2 * f)) (⟨[(0, [1])], fun _ => some 5⟩ : Proto Nat) net 0
    ∧ Instantiated (fun i f => 2 * (i + 2 * f)) (⟨[(0, [1])], fun _ => some 5⟩ : Proto Nat) net 1 :=
  ⟨⟨[(0, 1), (1, 0), (2, 1), (1, 2)], fun _ => false, fun _ v => some v, 0⟩, fun _ => rfl, fun _ => rfl,
    by unfold Instantiated; decide, by unfold Instantiated; decide⟩

end C51
end Verif.Copy
