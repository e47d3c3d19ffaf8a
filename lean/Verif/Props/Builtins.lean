import Verif.Model.NodeCoerce
import Verif.Props.Coerce
import Verif.Lemmas.SceneText
/-!
C58, C59 (built-in nodes), C18 and C19 for node fields.
-/
namespace Verif.Builtin
open Verif.Coerce Verif.SceneText

variable (P : Prims) (isNode : Nat → Bool)

/-! ## Node fields: C18, C19 -/

/-- The result of an SFNode coercion is a node. -/
theorem C19_sfnode (h0 : isNode 0 = true) (v r : Py) (h : sfNode isNode v = .ok r) : ∃ i t, r = .obj i t ∧ isNode i = true := by
  fun_induction sfNode isNode v with
  | case1 i t hi => cases h; exact ⟨i, t, rfl, hi⟩
  | case2 => cases h
  | case3 => cases h; exact ⟨0, false, rfl, h0⟩
  | case4 x ih => exact ih h
  | case5 x ih => exact ih h
  | case6 => cases h

/-- Coercing a node gives the node itself. -/
theorem C18_sfnode (h0 : isNode 0 = true) (v r : Py) (h : sfNode isNode v = .ok r) : sfNode isNode r = .ok r := by
  obtain ⟨i, t, rfl, hi⟩ := C19_sfnode isNode h0 v r h
  simp [sfNode, hi]

theorem mapE_ok {f : α → Except Err β} : ∀ {l : List α} {r : List β}, mapE f l = .ok r → List.Forall₂ (fun a b => f a = .ok b) l r := by
  intro l
  induction l with
  | nil => intro r h; cases h; exact .nil
  | cons a l ih =>
    intro r h
    simp only [mapE] at h
    split at h
    · cases h
    · next y hy =>
      split at h
      · cases h
      · next ys hys => cases h; exact .cons hy (ih hys)

/-- The result of an MFNode coercion is a list of nodes, as many as were given (one for a single node, none for any
other false value). -/
theorem C19_mfnode (h0 : isNode 0 = true) (v r : Py) (h : mfNode isNode v = .ok r) :
    ∃ l, r = .list l ∧ (∀ x ∈ l, ∃ i t, x = .obj i t ∧ isNode i = true) ∧
      (∀ items, (v = .list items ∨ v = .tuple items) → l.length = items.length) := by
  have key : ∀ items : List Py, (mapE (sfNode isNode) items).map Py.list = .ok r →
      ∃ l, r = .list l ∧ (∀ x ∈ l, ∃ i t, x = .obj i t ∧ isNode i = true) ∧ l.length = items.length := by
    intro items h
    cases hl : mapE (sfNode isNode) items with
    | error e => rw [hl] at h; cases h
    | ok l =>
      rw [hl] at h
      cases h
      have hf := mapE_ok hl
      refine ⟨l, rfl, fun x hx => ?_, hf.length_eq.symm⟩
      obtain ⟨a, _, ha⟩ : ∃ a ∈ items, sfNode isNode a = .ok x := by
        clear hl h
        induction hf with
        | nil => cases hx
        | @cons a b _ _ h1 _ ih =>
          rcases List.mem_cons.1 hx with rfl | hx
          · exact ⟨a, by simp, h1⟩
          · obtain ⟨a', h1, h2⟩ := ih hx; exact ⟨a', by simp [h1], h2⟩
      exact C19_sfnode isNode h0 _ _ ha
  have rest : mfRest isNode v = .ok r → ∃ l, r = .list l ∧ (∀ x ∈ l, ∃ i t, x = .obj i t ∧ isNode i = true) ∧
      (∀ items, (v = .list items ∨ v = .tuple items) → l.length = items.length) := by
    intro h
    unfold mfRest at h
    split at h
    · cases h
    · next ht =>
      cases h
      refine ⟨[], rfl, by simp, ?_⟩
      rintro items (rfl | rfl) <;> simp only [truth, Except.ok.injEq, Bool.not_eq_false', List.isEmpty_iff] at ht <;> simp [ht]
    · split at h
      · obtain ⟨l, h1, h2, h3⟩ := key _ h
        exact ⟨l, h1, h2, by rintro items (he | he) <;> cases he <;> exact h3⟩
      · obtain ⟨l, h1, h2, h3⟩ := key _ h
        exact ⟨l, h1, h2, by rintro items (he | he) <;> cases he <;> exact h3⟩
      · cases h
  unfold mfNode at h
  split at h
  · next i t =>
    by_cases hi : isNode i = true
    · rw [if_pos hi] at h
      cases h; exact ⟨_, rfl, fun x hx => ⟨i, t, by simpa using hx, hi⟩, by rintro items (he | he) <;> cases he⟩
    · rw [if_neg hi] at h; exact rest h
  · exact rest h

theorem C18_mfnode (h0 : isNode 0 = true) (v r : Py) (h : mfNode isNode v = .ok r) : mfNode isNode r = .ok r := by
  obtain ⟨l, rfl, hl, -⟩ := C19_mfnode isNode h0 v r h
  cases l with
  | nil => rfl
  | cons a l =>
    have : mapE (sfNode isNode) (a :: l) = .ok (a :: l) := by
      generalize a :: l = l at hl
      clear h
      induction l with
      | nil => rfl
      | cons a l ih =>
        obtain ⟨i, t, rfl, hi⟩ := hl a (by simp)
        simp [mapE, sfNode, hi, ih (fun x hx => hl x (by simp [hx]))]
    simp [mfNode, mfRest, truth, this, Except.map]

/-! ## C58 -/

/-- A default the type accepts, by inspection. -/
def okFor : FT → Dflt → Bool
  | .bool, .int _ | .bool, .bool _ | .int32, .int _ | .float, .float _ | .string, .str _ | .mstring, .str _ | .mstring, .strs _ => true
  | .mstring, .empty | .mint _, .empty | .mfloat _, .empty | .array _, .empty | .mcolor, .empty => true
  | .mvec _ dim, .empty => dim.prod != 0
  | .mfloat _, .floats _ => true
  | .vec _ [n], .floats l => l.length == n
  | .color, .floats l => l.length == 3
  | .mint t, .ints l => l.all (inRange t)
  | .mvec _ [n], .rows l => n != 0 && l.all (fun r => r.length == n)
  | .mcolor, .rows l => l.all (fun r => r.length == 3)
  | _, _ => false

theorem mapE_pyInt (l : List Int) : mapE (pyInt P) (l.map .int) = .ok l := by
  induction l with
  | nil => rfl
  | cons a l ih => simp [mapE, pyInt, ih]

theorem mapE_str (l : List String) : mapE (sfString P) (l.map (fun s => .str s.toList)) = .ok (l.map (fun s => .str s.toList)) := by
  induction l with
  | nil => rfl
  | cons a l ih => simp [mapE, sfString, ih]

theorem clip_ok {e : Except Err Py} {v : Py} (h : e = .ok v) : ∃ w, clipArr e = .ok w := by
  subst h
  cases v <;> exact ⟨_, rfl⟩

theorem floats_map (l : List (Int × Nat)) : l.map (fun q => Py.float (.num (dec q))) = (l.map (fun q => Flt.num (dec q))).map Py.float := by
  simp [List.map_map, Function.comp_def]

theorem rows_value {l : List (List (Int × Nat))} : (Dflt.rows l).value = .list ((l.map (fun r => r.map (fun q => Flt.num (dec q)))).map (fun r => .list (r.map .float))) := by
  simp [Dflt.value, Function.comp_def]

theorem ok_sound {ft : FT} {d : Dflt} (h : okFor ft d = true) : ∃ v, ft.coerce P d.value = .ok v := by
  unfold okFor at h
  split at h
  case h_1 n =>
    simp only [FT.coerce, Dflt.value, sfBool, truth]
    cases n != 0 <;> exact ⟨_, rfl⟩
  case h_2 b => cases b <;> exact ⟨_, rfl⟩
  case h_7 l => exact ⟨.list (l.map (fun s => .str s.toList)), by simp [FT.coerce, Dflt.value, mfString, iter, mapE_str]⟩
  all_goals try exact ⟨_, rfl⟩
  case h_10 t => exact ⟨.arr (fltArray P t []), by simp [FT.coerce, Dflt.value, mfFloat, collapse, mapE]⟩
  case h_13 t dim => exact ⟨.arr ⟨t, 0 :: dim, []⟩, by simp_all [FT.coerce, Dflt.value, mfVec, sfArrayWith, npArray, npArray.rows, Arr.reshapeRows]⟩
  case h_14 t l =>
    have hc : collapse ((l.map (fun q => Flt.num (dec q))).map Py.float) = (l.map (fun q => Flt.num (dec q))).map Py.float := C21_flat_unchanged _ (by
      intro x hx; obtain ⟨y, _, rfl⟩ := List.mem_map.1 hx; rfl)
    simp only [FT.coerce, Dflt.value, mfFloat, floats_map, hc, mapE_float]
    exact ⟨_, rfl⟩
  case h_15 t n l =>
    simp only [beq_iff_eq] at h
    simp only [FT.coerce, Dflt.value, floats_map]
    exact ⟨_, (C23_vec_accepts t n _ (by simpa using h)).1⟩
  case h_16 l =>
    simp only [beq_iff_eq] at h
    simp only [FT.coerce, Dflt.value, floats_map, sfColor]
    exact clip_ok (C23_vec_accepts .f 3 _ (by simpa using h)).1
  case h_17 t l =>
    simp only [FT.coerce, Dflt.value, mfInt, mfIntBody, mapE_pyInt, intArray, h, if_true]
    exact ⟨_, rfl⟩
  case h_18 t n l =>
    simp only [bne_iff_ne, ne_eq, Bool.and_eq_true, List.all_eq_true, beq_iff_eq] at h
    rw [rows_value]
    exact ⟨_, C23_mfvec_rows t n (by simpa using h.1) _ (by
      intro r hr; obtain ⟨x, hx, rfl⟩ := List.mem_map.1 hr; simpa using h.2 x hx)⟩
  case h_19 l =>
    simp only [List.all_eq_true, beq_iff_eq] at h
    obtain ⟨w, hw⟩ := clip_ok (C23_mfvec_rows (P := P) .f 3 (by decide) (l.map (fun r => r.map (fun q => Flt.num (dec q)))) (by
      intro r hr; obtain ⟨x, hx, rfl⟩ := List.mem_map.1 hr; simpa using h x hx))
    refine ⟨w, ?_⟩
    rw [rows_value]
    simp only [FT.coerce, mfColor, hw]
  case h_20 => cases h

/-- what the declaration's type accepts, by inspection -/
def okDecl (d : Decl) : Bool :=
  if d.ty = "SFNode" then d.dflt == .null
  else if d.ty = "MFNode" then d.dflt == .empty
  else match fieldTypes.find? (fun e => e.1 == d.ty) with
    | some e => okFor e.2 d.dflt
    | none => false

theorem okDecl_sound (h0 : isNode 0 = true) {d : Decl} (h : okDecl d = true) :
    ∃ c, coerceOf P isNode d.ty = some c ∧ ∃ v, c d.dflt.value = .ok v := by
  unfold okDecl at h
  unfold coerceOf
  split at h
  · next ht =>
    simp only [beq_iff_eq] at h
    rw [if_pos ht, h]
    exact ⟨_, rfl, NULL, by simp [Dflt.value, NULL, sfNode, h0]⟩
  · next ht =>
    rw [if_neg ht]
    split at h
    · next ht =>
      simp only [beq_iff_eq] at h
      rw [if_pos ht, h]
      exact ⟨_, rfl, .list [], rfl⟩
    · next ht =>
      rw [if_neg ht]
      split at h
      · next e he => rw [he]; exact ⟨_, rfl, ok_sound P h⟩
      · cases h

theorem table_ok : (fieldDecls.filter (fun d => !okDecl d)) = [⟨"ShaderGeometry", "appearance", "SFNode", true, .empty⟩] := by decide +kernel

/-- **C58.** Every field of every built-in node except one has a registered type, and that type accepts its default, in
whatever way numpy stores numbers: reading the unset field succeeds. -/
theorem C58_defaults_accepted (h0 : isNode 0 = true) : ∀ d ∈ fieldDecls, (d.cls, d.name) ≠ ("ShaderGeometry", "appearance") →
    ∃ c, coerceOf P isNode d.ty = some c ∧ ∃ v, c d.dflt.value = .ok v := by
  intro d hd hne
  refine okDecl_sound P isNode h0 ?_
  cases h : okDecl d with
  | true => rfl
  | false =>
    have : d ∈ fieldDecls.filter (fun d => !okDecl d) := by simp [hd, h]
    rw [table_ok] at this
    simp only [List.mem_singleton] at this
    subst this
    exact absurd rfl hne

/-- The exception: the default of ShaderGeometry.appearance is a list, its type takes a node, and reading it raises
ValueError. -/
theorem C58_refuted_shader_appearance : ∃ d ∈ fieldDecls, d.cls = "ShaderGeometry" ∧ d.name = "appearance" ∧
    ∃ c, coerceOf P isNode d.ty = some c ∧ c d.dflt.value = .error .value := by
  refine ⟨⟨"ShaderGeometry", "appearance", "SFNode", true, .empty⟩, by
    have : (⟨"ShaderGeometry", "appearance", "SFNode", true, .empty⟩ : Decl) ∈ fieldDecls.filter (fun d => !okDecl d) := by rw [table_ok]; simp
    exact (List.mem_filter.1 this).1, rfl, rfl, sfNode isNode, rfl, ?_⟩
  simp [Dflt.value, sfNode]

/-! ## C59 -/

/-- **C59.** The fields of built-in nodes whose values can be read from a file are exactly those whose type is not
SFUInt32 or SFArray32; for those two the parser has no method and raises AttributeError. -/
theorem C59_exact : ∀ d ∈ fieldDecls, (d.ty ∈ parsable ↔ d.ty ≠ "SFUInt32" ∧ d.ty ≠ "SFArray32") := by
  have h : fieldDecls.all (fun d => decide (d.ty ∈ parsable ↔ d.ty ≠ "SFUInt32" ∧ d.ty ≠ "SFArray32")) = true := by decide +kernel
  intro d hd
  exact of_decide_eq_true (List.all_eq_true.1 h d hd)

/-- The seven fields that cannot be given in a file. -/
theorem C59_refuted_fields : (fieldDecls.filter (fun d => !parsable.contains d.ty)).map (fun d => (d.cls, d.name, d.ty)) =
    [("ShaderSlice", "offset", "SFUInt32"), ("ShaderSlice", "count", "SFUInt32"), ("ShaderAttribute", "offset", "SFUInt32"),
     ("ShaderAttribute", "stride", "SFUInt32"), ("ShaderAttribute", "size", "SFUInt32"), ("ShaderBuffer", "buffer", "SFArray32"),
     ("FloatUniform", "value", "SFArray32")] := by decide +kernel

/-- All events of built-in nodes have readable types. -/
theorem C59_events : ∀ e ∈ eventDecls, e.2.2.1 ∈ parsable := by
  have h : eventDecls.all (fun e => decide (e.2.2.1 ∈ parsable)) = true := by decide +kernel
  intro e he
  simpa using List.all_eq_true.1 h e he

/-- Of all registered field types, those usable in a PROTO declaration but without a method in the parser. -/
theorem C59_registered : (fieldTypes.filter (fun e => !parsable.contains e.1)).map Prod.fst =
    ["SFUInt32", "SFVec4f", "SFVec2d", "SFVec3d", "SFVec4d", "SFMatrix3f", "SFMatrix4f", "SFMatrix3d", "SFMatrix4d", "SFArray32",
     "MFVec4f", "MFVec2d", "MFVec3d", "MFVec4d", "MFMatrix3f", "MFMatrix4f", "MFMatrix3d", "MFMatrix4d"] := by decide +kernel

/-! ## Names of built-in nodes and fields (the hypotheses of C09) -/

/-- Every built-in type name and field name is a name the parser reads back in every position, and no class declares two
fields of the same name. -/
theorem C09_builtin_names : (∀ d ∈ fieldDecls, SafeName d.name.toList ∧ SafeName d.cls.toList) ∧
    (fieldDecls.map (fun d => (d.cls, d.name))).Nodup := by
  constructor
  · have h : fieldDecls.all (fun d => decide (SafeName d.name.toList ∧ SafeName d.cls.toList)) = true := by decide +kernel
    intro d hd
    simpa using List.all_eq_true.1 h d hd
  · decide +kernel

end Verif.Builtin
