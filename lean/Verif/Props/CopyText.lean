import Verif.Lemmas.CopyText
/-!
C89: copies are saved as the same text.
-/
namespace Verif.CopyText
open Verif.TextOut Verif.PyDict
open Verif.Lin hiding Kind Val
open Verif.Copy (copyNode copyDefs copyScene copyFields read see WF Typed Kind Obj)
variable {F E : Type} {cls : Nat → Class F} {arr : Nat → Text → List E → Lin.Val F} {fields : Nat → List (Text × Kind)}

/-- what is read of old nodes does not depend on new objects -/
theorem read_old {h h' : Heap F E} (hwf : WF fields h) (hs : ∀ i, i < h.length → h'[i]? = h[i]?) {i : Nat} (hi : i < h.length) (k : Text) : read h' i k = read h i k := by
  simp only [Copy.read, hs i hi]
  cases ho : h[i]? with
  | none => rfl
  | some o =>
    cases o with
    | node c d =>
      simp only
      cases hg : get? d k with
      | none => rfl
      | some v =>
        obtain ⟨w1, w2⟩ := hwf i c d ho
        obtain ⟨⟨k', kind⟩, hm, rfl⟩ := List.mem_map.1 (w2 k v hg)
        have ht := w1 _ _ _ hm hg
        simp only
        cases v with
        | obj j =>
          have hj : j < h.length := by
            cases kind <;> simp only [Typed] at ht
            · obtain ⟨l, hl⟩ := ht; exact (List.getElem?_eq_some_iff.1 hl).1
            · obtain ⟨b, l, hl⟩ := ht; exact (List.getElem?_eq_some_iff.1 hl).1
          simp only [see, hs j hj]
        | _ => rfl
    | _ => rfl

theorem nodeAt_old {h h' : Heap F E} (hwf : WF fields h) (hs : ∀ i, i < h.length → h'[i]? = h[i]?) {i : Nat} (hi : i < h.length) : nodeAt cls arr h' i = nodeAt cls arr h i := by
  simp only [nodeAt, hs i hi, read_old hwf hs hi]

theorem nodeAt_lt {h : Heap F E} {i : Nat} {n : Node F} (hn : nodeAt cls arr h i = some n) : i < h.length := by
  unfold nodeAt at hn
  split at hn
  · rename_i c d ho; exact (List.getElem?_eq_some_iff.1 ho).1
  · cases hn

theorem Below.trans' {nodes : Nat → Option (Node F)} {i j k : Nat} {n : Node F} : Below nodes i j → nodes j = some n → Refs n k → Below nodes i k
  | .one h1 h2, hj, hk => .more h1 h2 (.one hj hk)
  | .more h1 h2 h3, hj, hk => .more h1 h2 (Below.trans' h3 hj hk)

/-- **C89**, nodes: two nodes of the same class with the same name that show the same values are written as the same text, if the first is not below itself
and the nodes below it are the same. -/
theorem nodeText_same {lv : LinValues} {fl : Floats F} {nodes nodes' : Nat → Option (Node F)} {i i' : Nat} {n n' : Node F} (hi : nodes i = some n) (hi' : nodes' i' = some n')
    (hc : n'.cls = n.cls) (hD : n'.DEF = n.DEF) (hd : ∀ d ∈ n.cls.fields, n'.dict d.name = n.dict d.name)
    (hcyc : ¬ Below nodes i i) (hnew : ∀ j, Below nodes i j → j ≠ i') (hbelow : ∀ j, Below nodes i j → ∃ m, nodes j = some m ∧ nodes' j = some m) (fuel : Nat) :
    nodeText lv fl nodes' fuel i' = nodeText lv fl nodes fuel i := by
  let φ : Nat → Nat := fun j => if j = i then i' else j
  have hφ : ∀ j, Below nodes i j → φ j = j := fun j hj => if_neg (fun (e : j = i) => hcyc (e ▸ hj))
  have hφi : φ i = i' := if_pos rfl
  have hs : SceneRel fl φ (fun j => j = i ∨ Below nodes i j) (⟨nodes, [], [], [], none⟩ : Scene F) ⟨nodes', [], [], [], none⟩ := by
    refine ⟨?_, ⟨rfl, rfl⟩, ?_, rfl, fun _ h => (by cases h), rfl, fun _ h => (by cases h)⟩
    · rintro j (rfl | hj)
      · refine ⟨n, n', hi, by rw [hφi]; exact hi', nodeRel_same hc hD hd (fun k hk => ?_)⟩
        have : Below nodes j k := .one hi hk
        exact ⟨.inr this, hφ k this⟩
      · obtain ⟨m, h1, h2⟩ := hbelow j hj
        refine ⟨m, m, h1, by rw [hφ j hj]; exact h2, nodeRel_same rfl rfl (fun _ _ => rfl) (fun k hk => ?_)⟩
        have := Below.trans' hj h1 hk
        exact ⟨.inr this, hφ k this⟩
    · rintro j k (rfl | hj) (rfl | hk) e
      · rfl
      · rw [hφi, hφ k hk] at e; exact absurd e.symm (hnew k hk)
      · rw [hφi, hφ j hj] at e; exact absurd e (hnew j hj)
      · rwa [hφ j hj, hφ k hk] at e
  have h0 : StRel φ (fun j => j = i ∨ Below nodes i j) (⟨[], [], 0, false⟩ : St) ⟨[], [], 0, false⟩ := ⟨rfl, rfl, rfl, rfl, fun _ h => (by cases h)⟩
  have := node_rel (lv := lv) hs fuel _ _ i h0 (.inl rfl)
  rw [hφi] at this
  unfold nodeText
  rcases this.split with ⟨e, e1, e2⟩ | ⟨s, s', e1, e2, hss⟩
  · simp only [e1, e2]
  · simp only [e1, e2]
    rw [hss.out, rename_textOf]

/-- the fields that appear in files, and the name, are among those that are copied -/
def Shown (cls : Nat → Class F) (fields : Nat → List (Text × Kind)) (c : Nat) : Prop :=
  defKey ∈ (fields c).map Prod.fst ∧ ∀ d ∈ (cls c).fields, d.name ∈ (fields c).map Prod.fst

/-- **C89** A copy of a node is saved as the same text as the node, whatever the options, if the node is not below itself. -/
theorem C89_node {lv : LinValues} {fl : Floats F} (hnd : ∀ c, ((fields c).map Prod.fst).Nodup) {h : Heap F E} (hwf : WF fields h) {n c : Nat} {d : Dict Text (Copy.Val (Lin.Val F))}
    (hn : h[n]? = some (.node c d)) (hsh : Shown cls fields c) (hcyc : ¬ Below (nodeAt cls arr h) n n) (hthere : ∀ j, Below (nodeAt cls arr h) n j → (nodeAt cls arr h j).isSome)
    {h' : Heap F E} {memo' : Dict Nat Nat} {m : Nat} (hc : copyNode fields h [] n = (h', memo', m)) (fuel : Nat) :
    nodeText lv fl (nodeAt cls arr h') fuel m = nodeText lv fl (nodeAt cls arr h) fuel n := by
  obtain ⟨h1, ⟨d', h2⟩, h3, h4⟩ := Copy.C50_copy_reads_same fields hnd h hwf [] n c d hn rfl h' memo' m hc
  have e1 : nodeAt cls arr h n = some ⟨cls c, nameOf (read h n defKey), fun f => valOf (arr c f) (read h n f)⟩ := by simp only [nodeAt, hn]
  have e2 : nodeAt cls arr h' m = some ⟨cls c, nameOf (read h' m defKey), fun f => valOf (arr c f) (read h' m f)⟩ := by simp only [nodeAt, h2]
  refine nodeText_same e1 e2 rfl (by simp only [h4 _ hsh.1]) (fun f hf => by simp only [h4 _ (hsh.2 f hf)]) hcyc (fun j hj => ?_) (fun j hj => ?_) fuel
  · obtain ⟨x, hx⟩ := Option.isSome_iff_exists.1 (hthere j hj)
    have := nodeAt_lt hx
    omega
  · obtain ⟨x, hx⟩ := Option.isSome_iff_exists.1 (hthere j hj)
    exact ⟨x, hx, by rw [nodeAt_old hwf h3 (nodeAt_lt hx)]; exact hx⟩

/-- nodes outside of what changed are written as before -/
theorem nodeText_old {lv : LinValues} {fl : Floats F} {nodes nodes' : Nat → Option (Node F)} {i : Nat} (hi : nodes' i = nodes i) (hbelow : ∀ j, Below nodes i j → ∃ m, nodes j = some m ∧ nodes' j = some m) (fuel : Nat) :
    nodeText lv fl nodes' fuel i = nodeText lv fl nodes fuel i := by
  cases hn : nodes i with
  | none =>
    rw [hn] at hi
    cases fuel <;> simp [nodeText, linNode, hn, hi]
  | some n =>
    rw [hn] at hi
    have ha : Alike (fun j => j = i ∨ Below nodes i j) (⟨nodes, [i], [], [], none⟩ : Scene F) ⟨nodes', [i], [], [], none⟩ := by
      refine ⟨?_, ⟨rfl, rfl⟩, rfl, fun j hj => .inl (by simpa using hj), rfl, fun _ h => (by cases h), fun _ _ => Iff.rfl⟩
      rintro j (rfl | hj)
      · exact ⟨n, hn, hi, fun k hk => .inr (.one hn hk)⟩
      · obtain ⟨m, h1, h2⟩ := hbelow j hj
        exact ⟨m, h1, h2, fun k hk => .inr (Below.trans' hj h1 hk)⟩
    have hs : SceneRel fl id (fun j => j = i ∨ Below nodes i j) (⟨nodes, [], [], [], none⟩ : Scene F) ⟨nodes', [], [], [], none⟩ := by
      have := ha.rel (fl := fl)
      exact ⟨this.node, ⟨rfl, rfl⟩, this.inj, rfl, fun _ h => (by cases h), rfl, fun _ h => (by cases h)⟩
    have h0 : StRel id (fun j => j = i ∨ Below nodes i j) (⟨[], [], 0, false⟩ : St) ⟨[], [], 0, false⟩ := ⟨rfl, rfl, rfl, rfl, fun _ h => (by cases h)⟩
    have := node_rel (lv := lv) hs fuel _ _ i h0 (.inl rfl)
    unfold nodeText
    rcases this.split with ⟨e, e1, e2⟩ | ⟨s, s', e1, e2, hss⟩
    · simp only [id] at e2; simp only [e1, e2]
    · simp only [id] at e2; simp only [e1, e2]
      rw [hss.out, rename_textOf]

/-- **C89** Whatever is done to the copy afterwards (any object that came with the copy is given other contents), the original is saved as before. -/
theorem C89_original_stays {lv : LinValues} {fl : Floats F} (hnd : ∀ c, ((fields c).map Prod.fst).Nodup) {h : Heap F E} (hwf : WF fields h) {n c : Nat} {d : Dict Text (Copy.Val (Lin.Val F))}
    (hn : h[n]? = some (.node c d)) (hthere : ∀ j, Below (nodeAt cls arr h) n j → (nodeAt cls arr h j).isSome)
    {h' : Heap F E} {memo' : Dict Nat Nat} {m : Nat} (hc : copyNode fields h [] n = (h', memo', m)) {h'' : Heap F E} (hed : ∀ i, i < h.length → h''[i]? = h'[i]?) (fuel : Nat) :
    nodeText lv fl (nodeAt cls arr h'') fuel n = nodeText lv fl (nodeAt cls arr h) fuel n := by
  obtain ⟨h1, -, h3, -⟩ := Copy.C50_copy_reads_same fields hnd h hwf [] n c d hn rfl h' memo' m hc
  have hs : ∀ i, i < h.length → h''[i]? = h[i]? := fun i hi => by rw [hed i hi, h3 i hi]
  refine nodeText_old (nodeAt_old hwf hs (List.getElem?_eq_some_iff.1 hn).1) (fun j hj => ?_) fuel
  obtain ⟨x, hx⟩ := Option.isSome_iff_exists.1 (hthere j hj)
  exact ⟨x, hx, by rw [nodeAt_old hwf hs (nodeAt_lt hx)]; exact hx⟩

/-- the heap only grows while the DEF table is copied, the names are the same, and other nodes are not yet copied -/
theorem copyDefs_spec (hnd : ∀ c, ((fields c).map Prod.fst).Nodup) {h : Heap F E} (hwf : WF fields h) {sg : Nat} : ∀ (defs : Dict Text Nat) (ext : Heap F E) (memo : Dict Nat Nat),
    (∀ p ∈ defs, p.1 ≠ [] → p.2 < h.length ∧ p.2 ≠ sg) → get? memo sg = none →
    ∃ ext', (copyDefs fields [] (h ++ ext) memo defs).1 = h ++ ext' ∧ get? (copyDefs fields [] (h ++ ext) memo defs).2.1 sg = none ∧
      ∀ nm, nm ≠ [] → ((copyDefs fields [] (h ++ ext) memo defs).2.2.lookup nm = none ↔ List.lookup nm defs = none)
  | [], ext, memo, _, hm => ⟨ext, rfl, hm, fun _ _ => Iff.rfl⟩
  | (k, v) :: defs, ext, memo, hd, hm => by
    by_cases hk : k = []
    · subst hk
      simp only [copyDefs, if_true]
      obtain ⟨ext', i1, i2, i3⟩ := copyDefs_spec hnd hwf defs ext memo (fun p hp => hd p (by simp [hp])) hm
      refine ⟨ext', i1, i2, fun nm hnm => ?_⟩
      rw [i3 nm hnm, List.lookup_cons]
      have : (nm == ([] : Text)) = false := by simpa using hnm
      rw [this]
    · obtain ⟨v1, v2⟩ := hd (k, v) (by simp) hk
      have hone : ∃ ext1, (copyNode fields (h ++ ext) memo v).1 = h ++ ext1 ∧ get? (copyNode fields (h ++ ext) memo v).2.1 sg = none := by
        unfold copyNode
        split
        · exact ⟨ext, rfl, hm⟩
        · split
          · rename_i c d ho
            rw [List.getElem?_append_left v1] at ho
            obtain ⟨⟨e1, he⟩, -, -⟩ := Copy.copyFields_spec d (fields c) (h ++ ext) (fun k kind v hm hg => ((hwf _ c d ho).1 k kind v hm hg).append ext) (hnd c)
            simp only [he]
            refine ⟨ext ++ e1 ++ [Obj.node c (copyFields (h ++ ext) d (fields c)).2], by simp, ?_⟩
            rw [get?_set, if_neg v2]
            exact hm
          · exact ⟨ext, rfl, hm⟩
      obtain ⟨ext1, e1, e2⟩ := hone
      obtain ⟨ext', i1, i2, i3⟩ := copyDefs_spec hnd hwf defs ext1 _ (fun p hp => hd p (by simp [hp])) e2
      simp only [copyDefs, if_neg hk, e1]
      refine ⟨ext', i1, i2, fun nm hnm => ?_⟩
      rw [List.lookup_cons, List.lookup_cons]
      cases hb : (nm == k) with
      | true => simp
      | false => exact i3 nm hnm

/-- **C89** A copy of a scene graph is saved as the same text, whatever the options. -/
theorem C89_scene {lv : LinValues} {fl : Floats F} (hnd : ∀ c, ((fields c).map Prod.fst).Nodup) {h : Heap F E} (hwf : WF fields h) {sg c : Nat} {d : Dict Text (Copy.Val (Lin.Val F))}
    (hsg : h[sg]? = some (.node c d)) (hch : chars "children" ∈ (fields c).map Prod.fst) (hro : chars "routes" ∈ (fields c).map Prod.fst)
    {defs : Dict Text Nat} (hdefs : ∀ p ∈ defs, p.1 ≠ [] → p.2 < h.length ∧ p.2 ≠ sg)
    (hchildren : ∀ i ∈ listAt h sg (chars "children"), (nodeAt cls arr h i).isSome)
    (hroutes : ∀ r ∈ listAt h sg (chars "routes"), r < h.length ∧ ∀ t, routeAt h r = some t → (nodeAt cls arr h t.src).isSome ∧ (nodeAt cls arr h t.dst).isSome)
    (hthere : ∀ i n, nodeAt cls arr h i = some n → ∀ j, Refs n j → (nodeAt cls arr h j).isSome)
    {h' : Heap F E} {sg' : Nat} {defs' : Dict Text Nat} (hc : copyScene fields [] h sg defs = (h', sg', defs')) (fuel : Nat) :
    sceneText lv fl (sceneAt cls arr h' sg' defs') fuel = sceneText lv fl (sceneAt cls arr h sg defs) fuel := by
  obtain ⟨ext, i1, i2, i3⟩ := copyDefs_spec hnd hwf defs [] [] hdefs rfl
  rw [List.append_nil] at i1 i2 i3
  simp only [copyScene, i1] at hc
  have hlt := (List.getElem?_eq_some_iff.1 hsg).1
  have hs0 : (h ++ ext)[sg]? = some (.node c d) := by rw [List.getElem?_append_left hlt, hsg]
  obtain ⟨⟨e1, he⟩, hf, -⟩ := Copy.copyFields_spec d (fields c) (h ++ ext) (fun k kind v hm hg => ((hwf _ c d hsg).1 k kind v hm hg).append ext) (hnd c)
  simp only [copyNode, i2, hs0, he, Prod.mk.injEq] at hc
  obtain ⟨rfl, rfl, rfl⟩ := hc
  generalize hd' : (copyFields (h ++ ext) d (fields c)).2 = d' at hf
  rw [he] at hf
  have hold : ∀ i, i < h.length → (h ++ ext ++ e1 ++ [Obj.node c d'])[i]? = h[i]? := fun i hi => by
    rw [List.append_assoc, List.append_assoc, List.getElem?_append_left hi]
  have hget : (h ++ ext ++ e1 ++ [Obj.node c d'])[(h ++ ext ++ e1).length]? = some (.node c d') := by simp
  have hread : ∀ k, k ∈ (fields c).map Prod.fst → read (h ++ ext ++ e1 ++ [Obj.node c d']) (h ++ ext ++ e1).length k = read h sg k := by
    intro k hk
    obtain ⟨⟨k, kind⟩, hmem, rfl⟩ := List.mem_map.1 hk
    have := hf k kind hmem
    simp only [Copy.read, hget, hsg]
    cases hg : get? d k with
    | none => rw [hg] at this; simp [this]
    | some v =>
      rw [hg] at this
      obtain ⟨v', h1, h2⟩ := this
      simp only [h1]
      rw [Copy.see_append _ _ kind _ h2.typed, h2.same, Copy.see_append _ _ kind _ ((hwf _ c d hsg).1 k kind v hmem hg)]
  have hl1 : listAt (h ++ ext ++ e1 ++ [Obj.node c d']) (h ++ ext ++ e1).length (chars "children") = listAt h sg (chars "children") := by
    simp only [listAt, hread _ hch]
  have hl2 : (listAt (h ++ ext ++ e1 ++ [Obj.node c d']) (h ++ ext ++ e1).length (chars "routes")).filterMap (routeAt (h ++ ext ++ e1 ++ [Obj.node c d']))
      = (listAt h sg (chars "routes")).filterMap (routeAt h) := by
    have : listAt (h ++ ext ++ e1 ++ [Obj.node c d']) (h ++ ext ++ e1).length (chars "routes") = listAt h sg (chars "routes") := by simp only [listAt, hread _ hro]
    rw [this]
    refine List.filterMap_congr (fun r hr => ?_)
    have hr' := (hroutes r hr).1
    simp only [routeAt, read_old hwf hold hr']
  refine Alike.text (R := fun i => (nodeAt cls arr h i).isSome) (a := sceneAt cls arr h sg defs) (b := sceneAt cls arr _ _ _) ⟨fun i hi => ?_, ⟨rfl, rfl⟩, hl1, hchildren, hl2, fun r hr => ?_, fun nm hn => (i3 nm hn).symm⟩ fuel
  · obtain ⟨n, hn⟩ := Option.isSome_iff_exists.1 hi
    exact ⟨n, hn, by rw [← hn]; exact nodeAt_old hwf hold (nodeAt_lt hn), fun j hj => hthere i n hn j hj⟩
  · obtain ⟨x, hx, hrx⟩ := List.mem_filterMap.1 hr
    exact (hroutes x hx).2 r hrx

/-! ### Examples -/

/-- classes: 0 is a Group, 1 a scene graph, 2 a ROUTE -/
def tCls : Nat → Class Int := fun c => if c = 0 then ⟨chars "Group", [⟨chars "children", chars "MFNode", .mfNode, intStr, id, .list (.refs [])⟩], [], [], []⟩ else ⟨[], [], [], [], []⟩
def tArr : Nat → Text → List Nat → Lin.Val Int := fun _ _ _ => .ints []
def tFields : Nat → List (Text × Kind) := fun c =>
  if c = 0 then [(defKey, .share), (chars "children", .nodes)]
  else if c = 1 then [(chars "children", .nodes), (chars "routes", .nodes)]
  else [(chars "source", .share), (chars "sourceField", .share), (chars "destination", .share), (chars "destinationField", .share)]

/-- a named Group (0) with an unnamed one (2) in it; a scene graph (3) with both, and a ROUTE (6) between them -/
def tHeap : Heap Int Nat :=
  [.node 0 [(defKey, .imm (.str (chars "A"))), (chars "children", .obj 1)], .nodes true [2], .node 0 [],
   .node 1 [(chars "children", .obj 4), (chars "routes", .obj 5)], .nodes true [0, 2], .nodes true [6],
   .node 2 [(chars "source", .node 0), (chars "sourceField", .imm (.str (chars "x"))), (chars "destination", .node 2), (chars "destinationField", .imm (.str (chars "y")))]]

example : ∀ c, ((tFields c).map Prod.fst).Nodup := by
  intro c; unfold tFields; split
  · decide
  · split <;> decide

theorem tWF : WF tFields tHeap := by
  intro n cls d h
  have hn : n < 7 := (List.getElem?_eq_some_iff.1 h).1
  match n, hn with
  | 0, _ =>
    simp [tHeap] at h; obtain ⟨rfl, rfl⟩ := h
    refine ⟨fun k kind v hm hg => ?_, fun k v hg => ?_⟩
    · simp [tFields] at hm
      rcases hm with ⟨rfl, rfl⟩ | ⟨rfl, rfl⟩ <;> simp [get?, defKey] at hg <;> subst hg <;> simp [Typed, tHeap]
    · have := get?_mem _ _ _ hg
      simp at this
      rcases this with ⟨rfl, _⟩ | ⟨rfl, _⟩ <;> simp [tFields]
  | 1, _ => simp [tHeap] at h
  | 2, _ =>
    simp [tHeap] at h; obtain ⟨rfl, rfl⟩ := h
    exact ⟨fun k kind v hm hg => by simp [get?] at hg, fun k v hg => by simp [get?] at hg⟩
  | 3, _ =>
    simp [tHeap] at h; obtain ⟨rfl, rfl⟩ := h
    refine ⟨fun k kind v hm hg => ?_, fun k v hg => ?_⟩
    · simp [tFields] at hm
      rcases hm with ⟨rfl, rfl⟩ | ⟨rfl, rfl⟩ <;> simp [get?] at hg <;> subst hg <;> simp [Typed, tHeap]
    · have := get?_mem _ _ _ hg
      simp at this
      rcases this with ⟨rfl, _⟩ | ⟨rfl, _⟩ <;> simp [tFields]
  | 4, _ => simp [tHeap] at h
  | 5, _ => simp [tHeap] at h
  | 6, _ =>
    simp [tHeap] at h; obtain ⟨rfl, rfl⟩ := h
    refine ⟨fun k kind v hm hg => ?_, fun k v hg => ?_⟩
    · simp [tFields] at hm
      rcases hm with ⟨rfl, rfl⟩ | ⟨rfl, rfl⟩ | ⟨rfl, rfl⟩ | ⟨rfl, rfl⟩ <;> simp [get?] at hg <;> subst hg <;> simp [Typed]
    · have := get?_mem _ _ _ hg
      simp at this
      rcases this with ⟨rfl, _⟩ | ⟨rfl, _⟩ | ⟨rfl, _⟩ | ⟨rfl, _⟩ <;> simp [tFields]

/-- the text, if one is written -/
def text? (r : Res Text) : Option Text := match r with | .ok t => some t | .error _ => none

/-- The scene graph of the example and its copy are written as the same text: the ROUTE's end gets a name in both. -/
example : text? (sceneText defaults exFloats (sceneAt tCls tArr tHeap 3 [(chars "A", 0)]) 10) =
      some (header ++ chars "DEF A Group {\n\t\tchildren\t[ \n\t\t\tDEF Group_0 Group { }\n\t\t]\n\t}\nUSE Group_0\n\nROUTE A.x TO Group_0.y") ∧
    (copyScene tFields [] tHeap 3 [(chars "A", 0)]).2.1 = 11 ∧
    text? (sceneText defaults exFloats (sceneAt tCls tArr (copyScene tFields [] tHeap 3 [(chars "A", 0)]).1 11 (copyScene tFields [] tHeap 3 [(chars "A", 0)]).2.2) 10) =
      some (header ++ chars "DEF A Group {\n\t\tchildren\t[ \n\t\t\tDEF Group_0 Group { }\n\t\t]\n\t}\nUSE Group_0\n\nROUTE A.x TO Group_0.y") := by
  decide +kernel

/-- a Group whose only child has it as a child again -/
def tLoop : Heap Int Nat := [.node 0 [(chars "children", .obj 1)], .nodes true [2], .node 0 [(chars "children", .obj 3)], .nodes true [0]]

/-- **C89** What is written of a node are the values that a program reads: an immutable value as it is, the contents of an array or list of strings, the nodes; nothing for what is not set. -/
theorem C89_written_is_read {h : Heap F E} {n c : Nat} {d : Dict Text (Copy.Val (Lin.Val F))} (hn : h[n]? = some (.node c d)) :
    ∃ x, nodeAt cls arr h n = some x ∧ x.cls = cls c ∧ (∀ s, read h n defKey = .imm (.str s) → x.DEF = s) ∧
      ∀ f, (∀ v, read h n f = .imm v → x.dict f = some v) ∧ (∀ l, read h n f = .data l → x.dict f = some (arr c f l)) ∧
        (∀ i, read h n f = .node i → x.dict f = some (.ref (some i))) ∧ (∀ l, read h n f = .nodes l → x.dict f = some (.refs (l.map some))) ∧ (read h n f = .unset → x.dict f = none) := by
  refine ⟨⟨cls c, nameOf (read h n defKey), fun f => valOf (arr c f) (read h n f)⟩, by simp only [nodeAt, hn], rfl, fun s hs => by simp only [hs, nameOf], fun f => ⟨fun v hv => ?_, fun l hv => ?_, fun i hv => ?_, fun l hv => ?_, fun hv => ?_⟩⟩ <;>
    simp only [hv, valOf]

/-- **C89** The children and ROUTEs that are written are those that a program reads from the scene graph. -/
theorem C89_written_lists {h : Heap F E} {sg : Nat} {defs : Dict Text Nat} {ch ro : List Nat} (h1 : read h sg (chars "children") = .nodes ch) (h2 : read h sg (chars "routes") = .nodes ro) :
    (sceneAt cls arr h sg defs).children = ch ∧ (sceneAt cls arr h sg defs).routes = ro.filterMap (routeAt h) ∧ (sceneAt cls arr h sg defs).defs = defs := by
  simp only [sceneAt, listAt, h1, h2]; exact ⟨trivial, trivial, trivial⟩

/-- **C89** A ROUTE is written with the nodes and field names that a program reads from it. -/
theorem C89_written_routes {h : Heap F E} {r s d : Nat} {sf df : Text} (h1 : read h r (chars "source") = .node s) (h2 : read h r (chars "destination") = .node d)
    (h3 : read h r (chars "sourceField") = .imm (.str sf)) (h4 : read h r (chars "destinationField") = .imm (.str df)) : routeAt h r = some ⟨s, sf, d, df⟩ := by
  simp only [routeAt, h1, h2, h3, h4, nameOf]

/-- **C89** The text of a single node is a VRML97 text. -/
theorem C89_node_text_header {lv : LinValues} {fl : Floats F} {nodes : Nat → Option (Node F)} {fuel i : Nat} {t : Text} (h : nodeText lv fl nodes fuel i = .ok t) : ∃ rest, t = chars "#VRML V2.0 utf8\n" ++ rest := by
  unfold nodeText at h
  split at h
  · cases h
  · cases h; exact ⟨_, rfl⟩

/-- **C89**, refuted without the condition: a node that is below itself and its copy are written as different texts. -/
theorem C89_refuted_below_itself : text? (nodeText defaults exFloats (nodeAt tCls tArr tLoop) 10 0) ≠ none ∧
    text? (nodeText defaults exFloats (nodeAt tCls tArr (copyNode tFields tLoop [] 0).1) 10 (copyNode tFields tLoop [] 0).2.2) ≠ text? (nodeText defaults exFloats (nodeAt tCls tArr tLoop) 10 0) := by
  decide +kernel

end Verif.CopyText
