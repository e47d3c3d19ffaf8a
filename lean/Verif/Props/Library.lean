import Verif.Spec.Library
import Verif.Props.Builtins
import Verif.Props.Refine
/-!
C81: the built-in node types meet what the theorems about files ask of node types.
-/
namespace Verif.Library
open Verif.TextOut Verif.Text Verif.SceneText Verif.Coerce Verif.Builtin Verif.Full
open Verif.Lin hiding disp dispList dispDecls dispAttrs disp_node disp_attr
variable {F : Type}

theorem dflt_nodes (N : Num F) (k : Kind) (b : Builtin.Dflt) : ((dflt N k b).value.map Val.nodes).getD [] = [] := by
  cases b <;> simp only [dflt] <;> (repeat' split) <;> simp [Lin.Dflt.value, Val.nodes]

theorem field_of {N : Num F} {d : Decl} {f : FieldDecl F} (h : field N d = some f) : ∃ t, typeOf N d.ty = some t ∧
    f = ⟨d.name.toList, d.ty.toList, t.kind, t.str, t.conv, dflt N t.kind d.dflt⟩ := by
  unfold field at h
  cases ht : typeOf N d.ty with
  | none => rw [ht] at h; cases h
  | some t => rw [ht] at h; cases h; exact ⟨t, rfl, rfl⟩

theorem fields_of {N : Num F} {c : String} {f : FieldDecl F} (h : f ∈ (nodeClass N c).fields) : f = externalURL.decl ∨ ∃ d ∈ fieldDecls, d.cls = c ∧ field N d = some f := by
  simp only [nodeClass, List.mem_cons, List.mem_filterMap, declsOf, List.mem_filter, beq_iff_eq] at h
  rcases h with h | ⟨d, ⟨h1, h2⟩, h3⟩
  · exact .inl h
  · exact .inr ⟨d, h1, h2, h3⟩

theorem library_of {N : Num F} {t : Text} {c : Class F} (h : library N t = some c) : String.ofList t ∈ baseNames ∧ c = nodeClass N (String.ofList t) := by
  unfold library at h
  split at h
  · rename_i hc
    cases h
    exact ⟨by simpa using hc, rfl⟩
  · cases h

/-- **C81** The built-in node types and field types are what the theorems about files (C69, C73–C80) ask for. -/
theorem C81_builtins (N : Num F) : Builtins (library N) (floats N) where
  name t c h := by rw [(library_of h).2]; exact String.toList_ofList
  plain t c h d hd := by
    rw [(library_of h).2] at hd
    rcases fields_of hd with rfl | ⟨e, -, -, h⟩
    · rfl
    · obtain ⟨t, -, rfl⟩ := field_of h
      exact dflt_nodes N _ _
  types ty v h := by
    simp only [floats, typeDflt] at h
    split at h <;> simp only [Lin.Dflt.value, Option.some.injEq, reduceCtorEq] at h <;> subst h <;> rfl

/-! ### The table -/

/-- the kind of a field class -/
def ftKind : FT → Option Kind
  | .bool => some .sfBool
  | .int32 => some .sfInt32
  | .float => some .sfFloat
  | .string => some .sfString
  | .mstring => some .mfString
  | .mint t => some (.mfInt (t == .i))
  | .mfloat _ => some .mfFloat
  | .vec _ [n] => some (.sfVec n)
  | .mvec _ [n] => some (.mfVec n)
  | .color => some (.sfVec 3)
  | .mcolor => some (.mfVec 3)
  | _ => none

/-- the kind of a field type -/
def tyKind (ty : String) : Option Kind :=
  if ty = "SFNode" then some .sfNode
  else if ty = "MFNode" then some .mfNode
  else if parsable.contains ty then (fieldTypes.lookup ty).bind ftKind else none

/-- numbers of this field type are written and converted in one of three ways -/
def Way (N : Num F) (t : FieldType F) : Prop :=
  (t.str = N.str ∧ t.conv = id) ∨ (t.str = N.str32 ∧ t.conv = N.round32) ∨ (t.str = N.str32 ∧ t.conv = fun x => N.clip (N.round32 x))

theorem fieldType_facts (N : Num F) (ft : FT) : (fieldType N ft).map FieldType.kind = ftKind ft ∧ ∀ t, fieldType N ft = some t →
    (t.kind ≠ .mfString → Way N t) ∧ (t.kind = .sfFloat → t.conv = id) := by
  cases ft with
  | mfloat t => cases t <;> simp [fieldType, ftKind, Way, Num.strOf, Num.conv]
  | vec t l => rcases l with _ | ⟨n, _ | ⟨m, l⟩⟩ <;> cases t <;> simp [fieldType, ftKind, Way, Num.strOf, Num.conv]
  | mvec t l => rcases l with _ | ⟨n, _ | ⟨m, l⟩⟩ <;> cases t <;> simp [fieldType, ftKind, Way, Num.strOf, Num.conv]
  | _ => simp [fieldType, ftKind, Way]

theorem typeOf_kind (N : Num F) (ty : String) : (typeOf N ty).map FieldType.kind = tyKind ty := by
  unfold typeOf tyKind
  split
  · rfl
  split
  · rfl
  split
  · cases h : List.lookup ty fieldTypes with
    | none => rfl
    | some ft => exact (fieldType_facts N ft).1
  · rfl

theorem typeOf_way {N : Num F} {ty : String} {t : FieldType F} (h : typeOf N ty = some t) : (t.kind ≠ .mfString → Way N t) ∧ (t.kind = .sfFloat → t.conv = id) := by
  unfold typeOf at h
  split at h
  · cases h; exact ⟨fun _ => .inl ⟨rfl, rfl⟩, fun _ => rfl⟩
  split at h
  · cases h; exact ⟨fun _ => .inl ⟨rfl, rfl⟩, fun _ => rfl⟩
  split at h
  · cases hl : List.lookup ty fieldTypes with
    | none => rw [hl] at h; cases h
    | some ft => rw [hl] at h; exact (fieldType_facts N ft).2 t h
  · cases h

/-- vectors have 1 to 100 components -/
def saneKind : Kind → Bool
  | .sfVec n => 1 ≤ n && n ≤ 100
  | .mfVec n => 1 ≤ n && n ≤ 100
  | _ => true

theorem tyKind_sane {ty : String} {k : Kind} (h : tyKind ty = some k) : saneKind k = true := by
  have hall : fieldTypes.all (fun e => (ftKind e.2).all saneKind) = true := by decide +kernel
  unfold tyKind at h
  split at h
  · cases h; rfl
  split at h
  · cases h; rfl
  split at h
  · cases hl : List.lookup ty fieldTypes with
    | none => rw [hl] at h; cases h
    | some ft =>
      rw [hl] at h
      have := List.all_eq_true.1 hall _ (lookup_mem hl)
      simp only [Option.bind_some] at h
      rw [h] at this
      exact this
  · cases h

/-- the default is of the kind -/
def okDflt (k : Kind) : Builtin.Dflt → Bool
  | .null => k == .sfNode
  | .empty => match k with
    | .mfString | .mfNode | .mfInt _ | .mfFloat | .mfVec _ => true
    | _ => false
  | .bool _ => k == .sfBool
  | .int _ => k == .sfBool || k == .sfInt32
  | .float _ => k == .sfFloat
  | .str _ => k == .sfString
  | .ints l => match k with
    | .mfInt s => l.all (fun n => decide (In32 s n))
    | _ => false
  | .floats l => k == .mfFloat || k == .sfVec l.length
  | .strs _ => k == .mfString
  | .rows l => match k with
    | .mfVec n => l.all (fun r => r.length == n)
    | _ => false

theorem table_kinds : ∀ d ∈ fieldDecls, d.cls ∈ baseNames → ∃ k, tyKind d.ty = some k ∧ ((d.cls, d.name) ≠ ("FontStyle", "family") → okDflt k d.dflt = true) := by
  have h : fieldDecls.all (fun d => !baseNames.contains d.cls || match tyKind d.ty with
    | some k => (d.cls, d.name) == ("FontStyle", "family") || okDflt k d.dflt
    | none => false) = true := by decide +kernel
  intro d hd hc
  have := List.all_eq_true.1 h d hd
  rw [show baseNames.contains d.cls = true by simpa using hc] at this
  simp only [Bool.not_true, Bool.false_or] at this
  split at this
  · rename_i k hk
    refine ⟨k, hk, fun hne => ?_⟩
    rw [Bool.or_eq_true] at this
    rcases this with h | h
    · exact absurd (by simpa using h) hne
    · exact h
  · cases this

theorem way_survives {N : Num F} (hN : GoodNum N) {t : FieldType F} (h : Way N t) {q : Int × Nat} (hq : q ∈ literals) : Survives N t.str t.conv (t.conv (N.lit q)) := by
  rcases h with ⟨h1, h2⟩ | ⟨h1, h2⟩ | ⟨h1, h2⟩ <;> rw [h1, h2]
  · exact hN.lit q hq
  · exact hN.lit32 q hq
  · exact hN.color q hq

/-- The default of every built-in field, but one, is a value that fits. -/
theorem default_fits {N : Num F} (hN : GoodNum N) {d : Decl} (hd : d ∈ fieldDecls) {t : FieldType F} (ht : typeOf N d.ty = some t) (hk : okDflt t.kind d.dflt = true) :
    ∃ v, FieldDecl.default ⟨d.name.toList, d.ty.toList, t.kind, t.str, t.conv, dflt N t.kind d.dflt⟩ = some v ∧
      Fits N ⟨d.name.toList, d.ty.toList, t.kind, t.str, t.conv, dflt N t.kind d.dflt⟩ v := by
  obtain ⟨hw, hf⟩ := typeOf_way ht
  have hs := tyKind_sane (k := t.kind) (by rw [← typeOf_kind N, ht]; rfl)
  have hl : ∀ q ∈ numbers d.dflt, q ∈ literals := fun q hq => List.mem_flatMap.2 ⟨d, hd, hq⟩
  cases hb : d.dflt with
  | null => 
    rw [hb] at hk
    have : t.kind = .sfNode := by simpa [okDflt] using hk
    simp [FieldDecl.default, dflt, Lin.Dflt.value, coerce, this, Fits]
  | empty =>
    rw [hb] at hk
    obtain ⟨k, str, conv⟩ := t
    cases k <;> simp only [okDflt, Bool.false_eq_true] at hk <;> simp only [FieldDecl.default, dflt, Lin.Dflt.value, Option.bind_some, coerce]
    · exact ⟨_, rfl, _, rfl, by simp⟩
    · exact ⟨_, rfl, .inl rfl, by simp⟩
    · rename_i n
      simp only [saneKind, Bool.and_eq_true, decide_eq_true_eq] at hs
      refine ⟨.rows [], ?_, n, rfl, by simp⟩
      simp only [List.length_nil, Nat.zero_mod, List.map_nil, Nat.zero_div, toRows]
      rw [if_pos ⟨by omega, trivial⟩]
    · exact ⟨_, rfl, rfl, .inl rfl⟩
    · exact ⟨_, rfl, rfl, by simp⟩
  | bool b =>
    rw [hb] at hk
    have : t.kind = .sfBool := by simpa [okDflt] using hk
    simp [FieldDecl.default, dflt, Lin.Dflt.value, coerce, this, Fits]
  | int n =>
    rw [hb] at hk
    have : t.kind = .sfBool ∨ t.kind = .sfInt32 := by simpa [okDflt] using hk
    rcases this with h | h <;> simp [FieldDecl.default, dflt, Lin.Dflt.value, coerce, h, Fits]
  | float q =>
    rw [hb] at hk
    have h : t.kind = .sfFloat := by simpa [okDflt] using hk
    have := way_survives hN (hw (by rw [h]; simp)) (hl q (by rw [hb]; simp [numbers]))
    refine ⟨.num (t.conv (N.lit q)), by simp [FieldDecl.default, dflt, Lin.Dflt.value, coerce, h], h, this, fun y hy _ => ?_⟩
    rw [hf h]
    simp only [dflt, Lin.Dflt.scalar.injEq, Val.num.injEq] at hy
    exact hy
  | str s =>
    rw [hb] at hk
    have h : t.kind = .sfString := by simpa [okDflt] using hk
    simp [FieldDecl.default, dflt, Lin.Dflt.value, coerce, h, Fits]
  | ints l =>
    rw [hb] at hk
    cases h : t.kind <;> simp [okDflt, h] at hk
    rename_i s
    refine ⟨.ints l, ?_, s, rfl, hk⟩
    simpa [FieldDecl.default, dflt, Lin.Dflt.value, coerce, h] using hk
  | strs l =>
    rw [hb] at hk
    have h : t.kind = .mfString := by simpa [okDflt] using hk
    simp [FieldDecl.default, dflt, Lin.Dflt.value, coerce, h, Fits]
  | floats l =>
    rw [hb] at hk
    have h : t.kind = .mfFloat ∨ t.kind = .sfVec l.length := by simpa [okDflt] using hk
    have hne : t.kind ≠ .mfString := by rcases h with h | h <;> rw [h] <;> simp
    refine ⟨.nums ((l.map N.lit).map t.conv), ?_, ?_, ?_⟩
    · rcases h with h | h <;> simp [FieldDecl.default, dflt, Lin.Dflt.value, coerce, h]
    · rcases h with h | h <;> simp [h]
    · intro x hx
      simp only [List.mem_map] at hx
      obtain ⟨y, ⟨q, hq, rfl⟩, rfl⟩ := hx
      exact way_survives hN (hw hne) (hl q (by rw [hb]; exact hq))
  | rows l =>
    rw [hb] at hk
    unfold okDflt at hk
    simp only at hk
    split at hk
    · rename_i n hn
      have hr : ∀ r ∈ l, r.length = n := fun r hr => by simpa using List.all_eq_true.1 hk r hr
      refine ⟨.rows ((l.map (List.map N.lit)).map (List.map t.conv)), ?_, n, hn, ?_⟩
      · simp only [FieldDecl.default, dflt, Lin.Dflt.value, Option.bind_some, coerce, hn]
        rw [if_pos]
        simp only [List.all_map, List.all_eq_true, Function.comp_apply, List.length_map, beq_iff_eq]
        exact hr
      · intro row hrow
        simp only [List.mem_map] at hrow
        obtain ⟨r', ⟨r, hr', rfl⟩, rfl⟩ := hrow
        refine ⟨by simpa using hr r hr', fun x hx => ?_⟩
        simp only [List.mem_map] at hx
        obtain ⟨y, ⟨q, hq, rfl⟩, rfl⟩ := hx
        exact way_survives hN (hw (by rw [hn]; simp)) (hl q (by rw [hb]; exact List.mem_flatten.2 ⟨r, hr', hq⟩))
    · cases hk

/-! ### Nodes -/

theorem url_fits (N : Num F) : FieldDecl.default (externalURL : PField F).decl = some (.strs []) ∧ Fits N (externalURL : PField F).decl (.strs []) :=
  ⟨rfl, rfl, .inl rfl⟩

theorem base_names : ∀ c ∈ baseNames, SafeName c.toList ∧ c ≠ "Script" ∧
    (chars "externalURL" :: (declsOf c).map (fun d => d.name.toList) ++ (eventsOf c).map (fun e => e.2.1.toList)).Nodup := by
  have h : baseNames.all (fun c => decide (SafeName c.toList) && decide (c ≠ "Script") &&
    decide (chars "externalURL" :: (declsOf c).map (fun d => d.name.toList) ++ (eventsOf c).map (fun e => e.2.1.toList)).Nodup) = true := by decide +kernel
  intro c hc
  have := List.all_eq_true.1 h c hc
  simp only [Bool.and_eq_true, decide_eq_true_eq] at this
  exact ⟨this.1.1, this.1.2, this.2⟩

theorem known_type {d : Decl} (hd : d ∈ fieldDecls) (hc : d.cls ∈ baseNames) (N : Num F) : ∃ t, typeOf N d.ty = some t := by
  obtain ⟨k, hk, -⟩ := table_kinds d hd hc
  rw [← typeOf_kind N] at hk
  cases h : typeOf N d.ty with
  | none => rw [h] at hk; cases hk
  | some t => exact ⟨t, rfl⟩

/-- **C81** No declaration is lost: a built-in type has a field for each declaration in the source, with its name and type; the exposed ones are those declared so (and
`externalURL`), and the events, with name, type and direction, are those declared. -/
theorem C81_all_fields (N : Num F) : ∀ c ∈ baseNames, ∃ cl, library N c.toList = some cl ∧ cl.fields.map (fun d => (d.name, d.cls)) =
    (chars "externalURL", chars "MFString") :: (fieldDecls.filter (fun d => d.cls == c)).map (fun d => (d.name.toList, d.ty.toList)) ∧
    (∀ nm, nm ∈ cl.exposed ↔ nm = chars "externalURL" ∨ ∃ d ∈ fieldDecls, d.cls = c ∧ d.name.toList = nm ∧ d.exposed = true) ∧
    (∀ nm ty out, (⟨nm, ty, out⟩ : EventDecl) ∈ cl.events ↔ ∃ e ∈ eventDecls, e.1 = c ∧ e.2.1.toList = nm ∧ e.2.2.1.toList = ty ∧ e.2.2.2 = out) := by
  intro c hc
  refine ⟨nodeClass N c, by simp [library, String.ofList_toList, hc], ?_, fun nm => ?_, fun nm ty out => ?_⟩
  rotate_left
  · simp only [nodeClass, List.mem_cons, List.mem_map, List.mem_filter, declsOf, beq_iff_eq]
    refine or_congr Iff.rfl ⟨?_, ?_⟩
    · rintro ⟨d, ⟨⟨h1, h2⟩, h3⟩, h4⟩; exact ⟨d, h1, h2, h4, h3⟩
    · rintro ⟨d, h1, h2, h4, h3⟩; exact ⟨d, ⟨⟨h1, h2⟩, h3⟩, h4⟩
  · simp only [nodeClass, List.mem_map, eventsOf, List.mem_filter, beq_iff_eq, EventDecl.mk.injEq]
    refine ⟨?_, ?_⟩
    · rintro ⟨e, ⟨h1, h2⟩, h3, h4, h5⟩; exact ⟨e, h1, h2, h3, h4, h5⟩
    · rintro ⟨e, h1, h2, h3, h4, h5⟩; exact ⟨e, ⟨h1, h2⟩, h3, h4, h5⟩
  simp only [nodeClass, List.map_cons]
  congr 1
  have : ∀ l : List Decl, (∀ d ∈ l, d ∈ fieldDecls ∧ d.cls ∈ baseNames) →
      (l.filterMap (field N)).map (fun d => (d.name, d.cls)) = l.map (fun d => (d.name.toList, d.ty.toList)) := by
    intro l
    induction l with
    | nil => intro _; rfl
    | cons d l ih =>
      intro h
      obtain ⟨h1, h2⟩ := h d (by simp)
      obtain ⟨t, ht⟩ := known_type h1 h2 N
      rw [List.filterMap_cons, field, ht]
      simp only [Option.map_some, List.map_cons]
      rw [ih (fun x hx => h x (by simp [hx]))]
  refine this _ (fun d hd => ?_)
  simp only [declsOf, List.mem_filter, beq_iff_eq] at hd
  exact ⟨hd.1, hd.2 ▸ hc⟩

/-- **C81** In PROTO interfaces and Scripts an event may be of every type that a field may be of, and of the type of every event of the built-in nodes. -/
theorem C81_event_types (N : Num F) : (∀ ty, ((floats N).types.field ty).isSome → (floats N).types.event ty = true) ∧
    ∀ t c, library N t = some c → ∀ e ∈ c.events, (floats N).types.event e.type = true := by
  constructor
  · intro ty h
    simp only [floats, typeOf] at h
    simp only [floats, eventType, Bool.or_eq_true, beq_iff_eq]
    split at h
    · exact .inl (.inl ‹_›)
    split at h
    · exact .inl (.inr ‹_›)
    split at h
    · right
      cases hl : List.lookup (String.ofList ty) fieldTypes with
      | none => rw [hl] at h; cases h
      | some _ => rfl
    · cases h
  · intro t c h e he
    obtain ⟨-, rfl⟩ := library_of h
    simp only [nodeClass, List.mem_map] at he
    obtain ⟨d, hd, rfl⟩ := he
    have hall : ∀ d ∈ eventDecls, eventType d.2.2.1 = true := by decide +kernel
    simpa only [floats, String.ofList_toList] using hall d (List.mem_filter.1 hd).1

/-- **C81** A field declared without a default (in an EXTERNPROTO, or by a Script with IS) has a default that its type accepts: false, zero, zeros, or empty. -/
theorem C81_type_defaults (N : Num F) {ty : String} {t : FieldType F} (h : typeOf N ty = some t) : ∃ v u, ((floats N).types.dflt ty.toList).value = some v ∧
    Lin.coerce t.kind t.conv v = some u ∧ EmptyValue N t u := by
  have hw := (typeOf_way h).2
  obtain ⟨k, s, c⟩ := t
  have hd : (floats N).types.dflt ty.toList = typeDflt N ty := by simp [floats, String.ofList_toList]
  rw [hd]
  simp only [typeDflt, h, Option.map_some]
  have hk := tyKind_sane (typeOf_kind N ty ▸ (by rw [h]; rfl : (typeOf N ty).map FieldType.kind = some k))
  cases k <;> simp [Lin.Dflt.value, Lin.coerce, EmptyValue]
  · exact congrFun (hw rfl) _
  · refine ⟨?_, rfl⟩
    simp only [saneKind, Bool.and_eq_true, decide_eq_true_eq] at hk
    omega

theorem class_names {N : Num F} {t : Text} {c : Class F} (h : library N t = some c) :
    SafeName c.proto ∧ c.proto ≠ chars "Script" ∧ c.Distinct ∧ ∀ d ∈ c.fields, SafeName d.name := by
  obtain ⟨h1, rfl⟩ := library_of h
  obtain ⟨g1, g2, g3⟩ := base_names _ h1
  refine ⟨g1, fun hs => g2 ?_, ?_, fun d hd => ?_⟩
  · have := congrArg String.ofList (show (String.ofList t).toList = chars "Script" from hs)
    rw [String.ofList_toList] at this
    rw [this]
  · obtain ⟨cl, k1, k2⟩ := C81_all_fields N _ h1
    rw [(library_of k1).2, String.ofList_toList] at k2
    have k3 := congrArg (List.map Prod.fst) k2.1
    simp only [List.map_map, List.map_cons] at k3
    unfold Class.Distinct
    have e1 : List.map FieldDecl.name (nodeClass N (String.ofList t)).fields = chars "externalURL" :: (declsOf (String.ofList t)).map (fun d => d.name.toList) := k3
    have e2 : List.map EventDecl.name (nodeClass N (String.ofList t)).events = (eventsOf (String.ofList t)).map (fun e => e.2.1.toList) := by
      simp [nodeClass, Function.comp_def]
    rw [e1, e2]
    exact g3
  · rcases fields_of hd with rfl | ⟨e, he, -, hf⟩
    · show SafeName (chars "externalURL")
      decide +kernel
    · obtain ⟨ty, -, rfl⟩ := field_of hf
      exact (C09_builtin_names.1 e he).1

/-- defaults that are single values, lists of strings, or never compare equal -/
def plainDflt : Lin.Dflt F → Prop
  | .array _ => False
  | .scalar v => match v with
    | .bool _ | .int _ | .num _ | .str _ => True
    | _ => False
  | .list v => ∃ l, v = .strs l
  | _ => True

/-- What the fields of a built-in type are like. -/
structure FieldFacts (N : Num F) (d : FieldDecl F) : Prop where
  sane : saneKind d.kind = true
  float : d.kind = .sfFloat → d.conv = id
  dflt : plainDflt d.dflt

theorem field_facts {N : Num F} {t : Text} {c : Class F} (h : library N t = some c) {d : FieldDecl F} (hd : d ∈ c.fields) : FieldFacts N d := by
  obtain ⟨h1, rfl⟩ := library_of h
  rcases fields_of hd with rfl | ⟨e, he, hc, hf⟩
  · exact ⟨rfl, (fun h => by cases h), ⟨_, rfl⟩⟩
  · obtain ⟨ty, hty, rfl⟩ := field_of hf
    refine ⟨tyKind_sane (ty := e.ty) (by rw [← typeOf_kind N, hty]; rfl), (typeOf_way hty).2, ?_⟩
    simp only
    cases e.dflt <;> simp only [dflt] <;> (repeat' split) <;> simp_all [plainDflt]

theorem omitted_cases {N : Num F} {d : FieldDecl F} {v : Val F} (hf : FieldFacts N d) (hv : Fits N d v) :
    (omitted (floats N) d.dflt v = some true → d.default = some v ∧ v.nodes = []) ∧ (omitted (floats N) d.dflt v = some false → Readable (floats N) d v) ∧
    ∃ b, omitted (floats N) d.dflt v = some b := by
  obtain ⟨hs, hc, hd⟩ := hf
  refine ⟨fun h => ?_, fun h => ?_, ?_⟩
  · cases hdf : d.dflt with
    | none => rw [hdf] at h; cases h
    | array xs => rw [hdf] at hd; cases hd
    | other w => rw [hdf] at h; cases h
    | null => rw [hdf] at h; cases h
    | list w =>
      rw [hdf] at h hd
      obtain ⟨l, rfl⟩ := hd
      cases v <;> simp only [omitted, Val.eq, Option.some.injEq, Bool.false_eq_true, beq_iff_eq] at h
      subst h
      simp only [Fits] at hv
      exact ⟨by simp [FieldDecl.default, hdf, Lin.Dflt.value, coerce, hv.1], rfl⟩
    | scalar w =>
      rw [hdf] at h hd
      cases w <;> simp only [plainDflt] at hd <;> cases v <;> simp only [omitted, Val.eq, Option.some.injEq, Bool.false_eq_true, beq_iff_eq] at h
      · subst h
        simp only [Fits] at hv
        exact ⟨by simp [FieldDecl.default, hdf, Lin.Dflt.value, coerce, hv], rfl⟩
      · subst h
        simp only [Fits] at hv
        exact ⟨by simp [FieldDecl.default, hdf, Lin.Dflt.value, coerce, hv], rfl⟩
      · simp only [Fits] at hv
        have := hv.2.2 _ hdf h
        subst this
        exact ⟨by simp [FieldDecl.default, hdf, Lin.Dflt.value, coerce, hv.1, hc hv.1], rfl⟩
      · subst h
        simp only [Fits] at hv
        exact ⟨by simp [FieldDecl.default, hdf, Lin.Dflt.value, coerce, hv], rfl⟩
  · cases v with
    | bool b => exact hv
    | int n => exact hv
    | str b => exact hv
    | ints n => exact hv
    | ref n => exact hv
    | refs n => exact hv
    | num x => exact ⟨hv.1, hv.2.1.1⟩
    | nums l =>
      rcases hv.1 with hk | hk
      · exact .inl ⟨hk, fun x hx => (hv.2 x hx).2⟩
      · refine .inr ⟨hk, fun hl => ?_, fun x hx => (hv.2 x hx).1⟩
        rw [hk, hl] at hs
        cases hs
    | rows l =>
      obtain ⟨n, hk, hv⟩ := hv
      rw [hk] at hs
      simp only [saneKind, Bool.and_eq_true, decide_eq_true_eq] at hs
      exact ⟨n, hk, hs.1, hs.2, fun row hr => ⟨(hv row hr).1, fun x hx => ((hv row hr).2 x hx).2⟩⟩
    | strs l =>
      refine ⟨hv.1, ?_⟩
      rcases hv.2 with h' | h'
      · exact h'
      · rw [h'] at h
        simp [omitted, Val.eq] at h
  · cases hdf : d.dflt with
    | array xs => rw [hdf] at hd; cases hd
    | _ => exact ⟨_, rfl⟩

/-- The value of every field of a built-in node fits. -/
theorem read_fits {N : Num F} (hN : GoodNum N) {n : Node F} (h : LibraryNode N n) {d : FieldDecl F} (hd : d ∈ n.cls.fields) : ∃ v, d.read n = some v ∧ Fits N d v := by
  unfold FieldDecl.read
  cases hdict : n.dict d.name with
  | some v => exact ⟨v, rfl, h.values d hd v hdict⟩
  | none =>
    have key : ∃ v, d.default = some v ∧ Fits N d v := by
      have hcls := h.cls
      obtain ⟨h1, h2⟩ := library_of hcls
      rw [h2] at hd
      rcases fields_of hd with rfl | ⟨e, he, hc, hf⟩
      · exact ⟨_, url_fits N⟩
      · obtain ⟨ty, hty, rfl⟩ := field_of hf
        obtain ⟨k, hk, hok⟩ := table_kinds e he (hc ▸ h1)
        rw [← typeOf_kind N, hty] at hk
        cases hk
        refine default_fits hN he hty (hok (fun hne => ?_))
        have e1 : e.cls = "FontStyle" := congrArg Prod.fst hne
        have e2 : e.name = "family" := congrArg Prod.snd hne
        have := h.fonts (by
          rw [hc] at e1
          have := congrArg String.toList e1
          rw [String.toList_ofList] at this
          rw [this]
          rfl)
        simp only [e2] at hdict
        rw [show ("family" : String).toList = chars "family" from rfl] at hdict
        rw [hdict] at this
        cases this
    obtain ⟨v, h1, h2⟩ := key
    refine ⟨v, ?_, h2⟩
    unfold FieldDecl.default at h1
    cases hv : d.dflt.value with
    | none => rw [hv] at h1; cases h1
    | some u => rw [hv] at h1; exact h1

theorem sameClass_refl (c : Class F) : SameClass c c :=
  ⟨rfl, fun d hd _ => ⟨d, hd, ⟨rfl, rfl, rfl, rfl, rfl⟩, fun _ => ⟨⟨rfl, rfl, rfl, rfl, rfl⟩, rfl⟩⟩, fun d hd _ => ⟨d, hd, ⟨rfl, rfl, rfl, rfl, rfl⟩, fun _ => ⟨⟨rfl, rfl, rfl, rfl, rfl⟩, rfl⟩⟩,
    fun _ => Iff.rfl, fun _ _ _ => Iff.rfl, fun _ _ => Iff.rfl⟩

theorem good_node {N : Num F} (hN : GoodNum N) {sc : Scene F} (his : sc.is = none) {i : Nat} {n : Node F} (h : LibraryNode N n) : GoodNode (library N) (floats N) sc i n := by
  obtain ⟨g1, g2, g3, g4⟩ := class_names h.cls
  have noIs : ∀ f nm, ¬ IsMapped sc i f nm := by rintro f nm ⟨d, l, hd, -⟩; rw [his] at hd; cases hd
  have key : ∀ d ∈ n.cls.fields, ∀ v, d.read n = some v → Fits N d v := by
    intro d hd v hv
    obtain ⟨u, h1, h2⟩ := read_fits hN h hd
    rw [h1] at hv; cases hv
    exact h2
  refine ⟨.inl ⟨g1, n.cls, h.cls, sameClass_refl _, g3⟩, h.DEF, (List.nodup_append.1 g3).1, fun d hd _ _ => g4 d hd, fun d hd _ _ v hv ho => ?_, fun d hd _ _ v hv ho => ?_,
    fun f nm hm => absurd hm (noIs f nm), fun f nm _ hm => absurd hm (noIs f nm), fun d hd hm => ?_⟩
  · exact (omitted_cases (field_facts h.cls hd) (key d hd v hv)).1 ho
  · exact (omitted_cases (field_facts h.cls hd) (key d hd v hv)).2.1 ho
  · rw [(library_of h.cls).2] at hm
    cases hm

theorem good_scene {N : Num F} (hN : GoodNum N) {sc : Scene F} {all : List Nat} (h : LibraryScene N sc all) : GoodScene (library N) (floats N) sc all where
  nodes i n hi hn := by
    obtain ⟨m, hm, hl⟩ := h.nodes i hi
    rw [hn] at hm; cases hm
    exact good_node hN h.file hl
  writable := ⟨h.finite, fun i hi => by
    obtain ⟨n, hn, hl⟩ := h.nodes i hi
    refine ⟨n, hn, fun d hd _ => ?_⟩
    obtain ⟨v, h1, h2⟩ := read_fits hN hl hd
    exact ⟨v, h1, fun _ _ => (omitted_cases (field_facts hl.cls hd) h2).2.2⟩⟩
  shared := h.shared
  registered := h.registered
  routes := h.routes
  children := h.children
  file := h.file

theorem no_scripts {N : Num F} {sc : Scene F} {all : List Nat} (h : LibraryScene N sc all) (lv : LinValues) : ScriptLines lv sc := by
  intro i n hi hn hs
  obtain ⟨m, hm, hl⟩ := h.nodes i hi
  rw [hn] at hm; cases hm
  exact absurd hs (class_names hl.cls).2.1

/-- **C81** A scene made of built-in nodes, of any size, depth and sharing, with values that fit in their fields, survives writing and reading, with all
formatting options under which texts can be read.  Nothing is assumed about the node types; about floats it is assumed that the numbers in the
scene and in the built-in defaults survive as text. -/
theorem C81_round_trip {N : Num F} (hN : GoodNum N) {lv : LinValues} (hlv : GoodOptions lv) {sc : Scene F} {all : List Nat} (h : LibraryScene N sc all) {fuel : Nat} (hf : all.length < fuel) :
    ∃ text named w φ, linearise lv (floats N) sc fuel = .ok (text, named) ∧ Renamed sc named ∧ ReadsWorld (library N) (floats N) text w ∧ SameScene named w.file φ ∧
      (w.scene 0).protos = [] :=
  C76_scene_round_trip (C81_builtins N) hlv (good_scene hN h) (no_scripts h lv) hf

/-- A scene with one fresh node of a built-in type. -/
def fresh (N : Num F) (c : String) : Scene F := ⟨fun i => if i = 0 then some ⟨nodeClass N c, [], fun _ => none⟩ else none, [0], [], [], none⟩

theorem fresh_reach {N : Num F} {c : String} (hc : c ∈ baseNames) {i : Nat} (h : Reach (fresh N c) i) : i = 0 := by
  cases h with
  | child h => simpa [fresh] using h
  | @field j _ n d v h1 h2 h3 h4 h5 h6 =>
    exfalso
    simp only [fresh] at h2
    split at h2
    · cases h2
      have hp := (C81_builtins N).plain c.toList (nodeClass N c) (by simp [library, String.ofList_toList, hc]) d h3
      unfold FieldDecl.read at h5
      unfold FieldDecl.dfltNodes at hp
      simp only at h5
      split at h5
      · rename_i u hu
        rw [hu] at hp
        have := Reader.coerce_nodes h5 i h6
        rw [show u.nodes = [] from hp] at this
        cases this
      · cases h5
    · cases h2

/-- **C81** A new node of every built-in type except FontStyle, written to a file and read, comes back as a new node of that type. -/
theorem C81_new_nodes {N : Num F} (hN : GoodNum N) {lv : LinValues} (hlv : GoodOptions lv) {c : String} (hc : c ∈ baseNames) (hne : c ≠ "FontStyle") :
    ∃ text named w φ, linearise lv (floats N) (fresh N c) 2 = .ok (text, named) ∧ Renamed (fresh N c) named ∧ ReadsWorld (library N) (floats N) text w ∧ SameScene named w.file φ := by
  have hl : library N c.toList = some (nodeClass N c) := by simp [library, String.ofList_toList, hc]
  have h : LibraryScene N (fresh N c) [0] := {
    finite := fun i hi => by simp [fresh_reach hc hi]
    nodes := fun i hi => by
      cases fresh_reach hc hi
      refine ⟨_, rfl, hl, .inl rfl, (fun d hd v hv => by cases hv), fun hp => absurd ?_ hne⟩
      have := congrArg String.ofList (show c.toList = chars "FontStyle" from hp)
      rw [String.ofList_toList] at this
      rw [this]
    shared := fun j n l l' hl hl' hn hD hr => by
      have hr : ∀ {l j}, Refers (fresh N c) l j → l = .child 0 := by
        intro l j hl
        cases hl with
        | @child k j h =>
          cases k with
          | zero => rfl
          | succ k => simp [fresh] at h
        | @field i n d v p j h1 h2 h3 h4 h5 h6 =>
          exfalso
          have h7 := fresh_reach hc (.field h1 h2 h3 h4 h5 (List.mem_of_getElem? h6))
          subst h7
          cases fresh_reach hc h1
          simp only [fresh] at h2
          cases h2
          have hp := (C81_builtins N).plain c.toList (nodeClass N c) (by simp [library, String.ofList_toList, hc]) d h3
          unfold FieldDecl.read at h5
          unfold FieldDecl.dfltNodes at hp
          simp only at h5
          split at h5
          · rename_i u hu
            rw [hu] at hp
            have := Reader.coerce_nodes h5 _ (List.mem_of_getElem? h6)
            rw [show u.nodes = [] from hp] at this
            cases this
          · cases h5
      rw [hr hl, hr hl']
    registered := fun i n hi hn hD => by
      cases fresh_reach hc hi
      cases hn
      exact absurd rfl hD
    routes := fun r hr => by cases hr
    children := by simp [fresh]
    file := rfl }
  obtain ⟨t, n, w, φ, h1, h2, h3, h4, -⟩ := C81_round_trip hN hlv h (fuel := 2) (by decide)
  exact ⟨t, n, w, φ, h1, h2, h3, h4⟩

/-! ### Examples -/

/-- integers in place of floats -/
def exNum : Num Int := ⟨fun a b => a == b, ParseVal.intBase0, intStr, intStr, id, id, fun q => q.1 / 10 ^ q.2, fun _ _ _ => some none⟩

theorem exSurvives (x : Int) : Survives exNum intStr id x :=
  ⟨exRestored x, intStr_numTok x, x, intBase0_intStr x, rfl⟩

theorem exGoodNum : GoodNum exNum := ⟨fun _ _ => exSurvives _, fun _ _ => exSurvives _, fun _ _ => exSurvives _⟩

/-- `Fits`, computed, for integers -/
def fitsB (d : FieldDecl Int) : Val Int → Bool
  | .bool _ => d.kind == .sfBool
  | .int _ => d.kind == .sfInt32
  | .num _ => d.kind == .sfFloat
  | .str _ => d.kind == .sfString
  | .ints l => match d.kind with
    | .mfInt s => l.all (fun n => decide (In32 s n))
    | _ => false
  | .nums l => d.kind == .mfFloat || d.kind == .sfVec l.length
  | .rows l => match d.kind with
    | .mfVec n => l.all (fun r => r.length == n)
    | _ => false
  | .strs l => d.kind == .mfString && l == []
  | .ref _ => d.kind == .sfNode
  | .refs l => d.kind == .mfNode && !l.contains none

theorem fits_of_int {d : FieldDecl Int} (hs : d.kind ≠ .mfString → d.str = intStr ∧ d.conv = id) {v : Val Int} (hv : fitsB d v = true) : Fits exNum d v := by
  have hsur : d.kind ≠ .mfString → ∀ x, Survives exNum d.str d.conv x := fun hk x => by rw [(hs hk).1, (hs hk).2]; exact exSurvives x
  cases v <;> simp only [fitsB, beq_iff_eq, Bool.or_eq_true, Bool.and_eq_true, Bool.not_eq_true', List.contains_eq_mem, decide_eq_false_iff_not] at hv
  case num x => exact ⟨hv, hsur (by rw [hv]; simp) x, fun y _ hy => (of_decide_eq_true (show decide (y = x) = true from hy)).symm⟩
  case nums l => exact ⟨hv, fun x _ => hsur (by rcases hv with h | h <;> rw [h] <;> simp) x⟩
  case rows l =>
    split at hv
    · rename_i n hn
      exact ⟨n, hn, fun row hr => ⟨by simpa using List.all_eq_true.1 hv row hr, fun x _ => hsur (by rw [hn]; simp) x⟩⟩
    · cases hv
  case strs l => exact ⟨hv.1, .inl hv.2⟩
  case ints l =>
    split at hv
    · rename_i s hk
      exact ⟨s, hk, by simpa using hv⟩
    · cases hv
  all_goals exact hv

theorem fits_of {t : Text} {c : Class Int} (h : library exNum t = some c) {d : FieldDecl Int} (hd : d ∈ c.fields) {v : Val Int} (hv : fitsB d v = true) : Fits exNum d v := by
  refine fits_of_int ?_ hv
  obtain ⟨-, rfl⟩ := library_of h
  intro hk
  rcases fields_of hd with rfl | ⟨e, he, hc, hf⟩
  · exact absurd rfl hk
  · obtain ⟨ty, hty, rfl⟩ := field_of hf
    rcases (typeOf_way hty).1 hk with h | h | h <;> exact h

/-- a node of a built-in type with some values -/
def mk (c : String) (DEF : Text) (vals : List (Text × Val Int)) : Node Int := ⟨nodeClass exNum c, DEF, fun f => vals.lookup f⟩

theorem mk_good {c : String} {DEF : Text} {vals : List (Text × Val Int)} (hc : baseNames.contains c = true) (hD : DEF = [] ∨ LegalName DEF)
    (hv : (nodeClass exNum c).fields.all (fun d => match vals.lookup d.name with
      | none => true
      | some v => fitsB d v) = true) (hf : c ≠ "FontStyle") : LibraryNode exNum (mk c DEF vals) := by
  have hcls : library exNum c.toList = some (nodeClass exNum c) := by
    unfold library
    rw [String.ofList_toList, if_pos hc]
  refine ⟨hcls, hD, fun d hd v hvd => fits_of hcls hd ?_, fun hp => absurd ?_ hf⟩
  · have := List.all_eq_true.1 hv d hd
    rw [show vals.lookup d.name = some v from hvd] at this
    exact this
  · have := congrArg String.ofList (show c.toList = chars "FontStyle" from hp)
    rw [String.ofList_toList] at this
    rw [this]

/-- A transformed box, standing twice in the scene. -/
def exBox : Scene Int :=
  ⟨fun i => if i = 0 then some (mk "Transform" (chars "T") [(chars "translation", .nums [1, 2, 3]), (chars "children", .refs [some 1])])
      else if i = 1 then some (mk "Shape" [] [(chars "geometry", .ref (some 2))])
      else if i = 2 then some (mk "Box" [] [(chars "size", .nums [2, 3, 4])]) else none,
    [0, 0], [], [(chars "T", 0)], none⟩

theorem exBox_node {i : Nat} {n : Node Int} (h : exBox.heap i = some n) : LibraryNode exNum n := by
  simp only [exBox] at h
  split at h
  · cases h; exact mk_good (by decide +kernel) (by decide) (by decide +kernel) (by decide)
  split at h
  · cases h; exact mk_good (by decide +kernel) (by decide) (by decide +kernel) (by decide)
  split at h
  · cases h; exact mk_good (by decide +kernel) (by decide) (by decide +kernel) (by decide)
  · cases h

/-- nodes in fields are stored ones -/
theorem stored {i : Nat} {n : Node Int} (h : exBox.heap i = some n) {d : FieldDecl Int} (hd : d ∈ n.cls.fields) {v : Val Int} (hv : d.read n = some v) {p j : Nat} (hj : v.nodes[p]? = some j) :
    (i = 0 ∧ d.name = chars "children" ∧ p = 0 ∧ j = 1) ∨ (i = 1 ∧ d.name = chars "geometry" ∧ p = 0 ∧ j = 2) := by
  have hl := exBox_node h
  have hdict : n.dict d.name = some v := by
    unfold FieldDecl.read at hv
    cases hd' : n.dict d.name with
    | some u => rw [hd'] at hv; exact hv
    | none =>
      rw [hd'] at hv
      have hp := (C81_builtins exNum).plain _ _ hl.cls d hd
      simp only at hv
      split at hv
      · rename_i u hu
        unfold FieldDecl.dfltNodes at hp
        rw [hu] at hp
        have hn : v.nodes = [] := by
          have hp : u.nodes = [] := hp
          refine List.eq_nil_iff_forall_not_mem.2 (fun j hj => ?_)
          have := Reader.coerce_nodes hv j hj
          rw [hp] at this
          cases this
        rw [hn] at hj
        simp at hj
      · cases hv
  simp only [exBox] at h
  split at h
  · rename_i hi
    cases h
    left
    simp only [mk, List.lookup] at hdict
    split at hdict
    · cases hdict; simp [Val.nodes] at hj
    · split at hdict
      · rename_i hx
        cases hdict
        cases p with
        | zero => simp [Val.nodes] at hj; exact ⟨hi, by simpa using hx, rfl, hj.symm⟩
        | succ p => simp [Val.nodes] at hj
      · cases hdict
  split at h
  · rename_i hi
    cases h
    right
    simp only [mk, List.lookup] at hdict
    split at hdict
    · rename_i hx
      cases hdict
      cases p with
      | zero => simp [Val.nodes] at hj; exact ⟨hi, by simpa using hx, rfl, hj.symm⟩
      | succ p => simp [Val.nodes] at hj
    · cases hdict
  split at h
  · cases h
    simp only [mk, List.lookup] at hdict
    split at hdict
    · cases hdict; simp [Val.nodes] at hj
    · cases hdict
  · cases h

theorem exBox_reach {i : Nat} (h : Reach exBox i) : i = 0 ∨ i = 1 ∨ i = 2 := by
  cases h with
  | child h => simp [exBox] at h; exact .inl h
  | field h1 h2 h3 h4 h5 h6 =>
    obtain ⟨p, hp⟩ := List.mem_iff_getElem?.1 h6
    rcases stored h2 h3 h5 hp with ⟨-, -, -, h⟩ | ⟨-, -, -, h⟩ <;> simp [h]

theorem exBoxGood : LibraryScene exNum exBox [0, 1, 2] where
  finite i hi := by simpa using exBox_reach hi
  nodes i hi := by
    rcases exBox_reach hi with rfl | rfl | rfl
    · exact ⟨_, rfl, exBox_node (i := 0) rfl⟩
    · exact ⟨_, rfl, exBox_node (i := 1) rfl⟩
    · exact ⟨_, rfl, exBox_node (i := 2) rfl⟩
  shared j n l l' hl hl' hn hD hr := by
    cases hl with
    | child h =>
      have h0 := List.mem_of_getElem? h
      simp only [exBox, List.mem_cons, List.not_mem_nil, or_false, or_self] at h0
      subst h0
      cases hn
      cases hD
    | field h1 h2 h3 h4 h5 h6 =>
      cases hl' with
      | child h =>
        have h0 := List.mem_of_getElem? h
        simp only [exBox, List.mem_cons, List.not_mem_nil, or_false, or_self] at h0
        subst h0
        cases hn
        cases hD
      | field g1 g2 g3 g4 g5 g6 =>
        rcases stored h2 h3 h5 h6 with ⟨rfl, e1, rfl, rfl⟩ | ⟨rfl, e1, rfl, rfl⟩ <;> rcases stored g2 g3 g5 g6 with ⟨rfl, e2, rfl, e⟩ | ⟨rfl, e2, rfl, e⟩
        · rw [e1, e2]
        · cases e
        · cases e
        · rw [e1, e2]
  registered i n hi hn hD := by rcases exBox_reach hi with rfl | rfl | rfl <;> cases hn <;> first | rfl | exact absurd rfl hD
  routes r hr := by cases hr
  children := by simp [exBox]
  file := rfl

example : ∃ text named w φ, linearise defaults (floats exNum) exBox 4 = .ok (text, named) ∧ Renamed exBox named ∧ ReadsWorld (library exNum) (floats exNum) text w ∧
    SameScene named w.file φ ∧ (w.scene 0).protos = [] := C81_round_trip exGoodNum goodDefaults exBoxGood (by decide)

example : (typeOf exNum "SFColor").isSome ∧ (typeOf exNum "MFVec3f").isSome ∧ (typeOf exNum "MFNode").isSome := by decide +kernel

/-- A FontStyle, nothing stored in it. -/
def exFont : Scene Int := ⟨fun i => if i = 0 then some (mk "FontStyle" [] []) else none, [0], [], [], none⟩

/-- **C81** A FontStyle with its default values, though a built-in node, is written as a text that is no VRML file. -/
theorem C81_refuted_font_style : ∃ text, linearise defaults (floats exNum) exFont 2 = .ok (text, preroute exFont) ∧ ∀ {G : Type} (base : Text → Option (Class G)) fl w, ¬ ReadsWorld base fl text w := by
  refine ⟨header ++ chars "FontStyle {\n\t\tfamily\t[ \n\t\t\t\"SERIF\"\n\t\t}\n", linearise_of_text (by decide +kernel), ?_⟩
  rintro G base fl w ⟨h1, s1, e1, m1, n1, d1, h2, -⟩
  have : Peg.Der Grammar.gram (Grammar.gram .vrmlFile) (header ++ chars "FontStyle {\n\t\tfamily\t[ \n\t\t\t\"SERIF\"\n\t\t}\n") .err := Peg.run_sound 200 _ _ _ (by rfl)
  cases h2.det _ this

end Verif.Library
