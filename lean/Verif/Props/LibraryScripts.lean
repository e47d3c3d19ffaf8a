import Verif.Spec.LibraryScripts
import Verif.Lemmas.LoadedScripts
import Verif.Props.Loaded
import Verif.Props.SavedScripts
/-!
C81, C88 and C91 for scenes of built-in nodes and Scripts.
-/
namespace Verif.Library
open Verif.Peg Verif.Grammar Verif.TextOut Verif.Text Verif.SceneText Verif.Reader Verif.Full Verif.Coerce
open Verif.Lin hiding disp dispList dispDecls dispAttrs disp_node disp_attr
variable {F : Type}

theorem type_names : ∀ p ∈ ("SFNode", FT.bool) :: ("MFNode", FT.bool) :: fieldTypes, (p.1.toList.take 2 = ['S', 'F'] ∨ p.1.toList.take 2 = ['M', 'F']) ∧ LegalName (p.1.toList.drop 2) := by decide +kernel

theorem typeName_of {ty : String} (h : ty = "SFNode" ∨ ty = "MFNode" ∨ (fieldTypes.lookup ty).isSome) : TypeName ty.toList := by
  obtain ⟨p, hp, rfl⟩ : ∃ p ∈ ("SFNode", FT.bool) :: ("MFNode", FT.bool) :: fieldTypes, p.1 = ty := by
    rcases h with rfl | rfl | h
    · exact ⟨_, .head _, rfl⟩
    · exact ⟨_, .tail _ (.head _), rfl⟩
    · obtain ⟨ft, hl⟩ := Option.isSome_iff_exists.1 h
      exact ⟨_, .tail _ (.tail _ (lookup_mem hl)), rfl⟩
  obtain ⟨h1, h2⟩ := type_names p hp
  exact ⟨_, h2, h1.imp (fun h => by rw [← h, List.take_append_drop]) (fun h => by rw [← h, List.take_append_drop])⟩

theorem event_typeName {N : Num F} {ty : Text} (h : (floats N).types.event ty = true) : TypeName ty := by
  have h : eventType (String.ofList ty) = true := h
  simp only [eventType, Bool.or_eq_true, beq_iff_eq] at h
  have := typeName_of (ty := String.ofList ty) (by rcases h with (h | h) | h; exact .inl h; exact .inr (.inl h); exact .inr (.inr h))
  rwa [String.toList_ofList] at this

theorem field_typeName {N : Num F} {ty : Text} {t : FieldType F} (h : (floats N).types.field ty = some t) : TypeName ty :=
  event_typeName ((C81_event_types N).1 ty (by rw [h]; rfl))

/-- a declared value can be written and read -/
theorem declared_readable {N : Num F} {d : FieldDecl F} (hk : (floats N).types.field d.cls = some ⟨d.kind, d.str, d.conv⟩) {v : Val F} (ht : HasType d.kind v) (hv : Declarable N d v) :
    (∃ l, v = .strs l ∧ d.kind = .mfString) ∨ Readable (floats N) d v := by
  have hs : saneKind d.kind = true := by
    have hk : typeOf N (String.ofList d.cls) = some ⟨d.kind, d.str, d.conv⟩ := hk
    exact tyKind_sane (ty := String.ofList d.cls) (by rw [← typeOf_kind N, hk]; rfl)
  cases v with
  | strs l => exact .inl ⟨l, rfl, by cases hkk : d.kind <;> rw [hkk] at ht <;> first | rfl | cases ht⟩
  | bool b => exact .inr (by show d.kind = _; cases hkk : d.kind <;> rw [hkk] at ht <;> first | rfl | cases ht)
  | int b => exact .inr (by show d.kind = _; cases hkk : d.kind <;> rw [hkk] at ht <;> first | rfl | cases ht)
  | str b => exact .inr (by show d.kind = _; cases hkk : d.kind <;> rw [hkk] at ht <;> first | rfl | cases ht)
  | ref b => exact .inr (by show d.kind = _; cases hkk : d.kind <;> rw [hkk] at ht <;> first | rfl | cases ht)
  | refs b => exact .inr ⟨(by cases hkk : d.kind <;> rw [hkk] at ht <;> first | rfl | cases ht), hv⟩
  | num x => exact .inr ⟨(by cases hkk : d.kind <;> rw [hkk] at ht <;> first | rfl | cases ht), hv.1⟩
  | ints l =>
    refine .inr ?_
    show ∃ s, d.kind = .mfInt s ∧ _
    cases hkk : d.kind <;> rw [hkk] at ht <;> first | (cases ht; done) | exact ⟨_, rfl, ht⟩
  | nums l =>
    refine .inr ?_
    show (d.kind = .mfFloat ∧ _) ∨ (d.kind = .sfVec l.length ∧ l ≠ [] ∧ _)
    cases hkk : d.kind with
    | mfFloat => exact .inl ⟨rfl, fun x hx => (hv x hx).2⟩
    | sfVec n =>
      rw [hkk] at ht hs
      have ht : l.length = n := ht
      refine .inr ⟨by rw [ht], fun he => ?_, fun x hx => (hv x hx).1⟩
      rw [he] at ht
      rw [← ht] at hs
      cases hs
    | _ => rw [hkk] at ht; cases ht
  | rows l =>
    refine .inr ?_
    show ∃ n, d.kind = .mfVec n ∧ _
    cases hkk : d.kind with
    | mfVec n =>
      rw [hkk] at ht hs
      simp only [saneKind, Bool.and_eq_true, decide_eq_true_eq] at hs
      exact ⟨n, rfl, hs.1, hs.2, fun row hr => ⟨ht row hr, fun x hx => (hv row hr x hx).2⟩⟩
    | _ => rw [hkk] at ht; cases ht

/-- the fields of a Script that are not declared in it -/
theorem script_common {N : Num F} {n : Node F} (h : LibraryScriptNode N n) {d : FieldDecl F} (hd : d ∈ n.cls.fields) (hnd : ¬ Declared n.cls d.name) :
    SafeName d.name ∧ d ∈ (scriptProto : ProtoDef F).cls.fields ∧ ∃ v, d.read n = some v ∧ (omitted (floats N) d.dflt v = some true → d.default = some v ∧ v.nodes = []) ∧ (omitted (floats N) d.dflt v = some false → Readable (floats N) d v) ∧
      ∃ b, omitted (floats N) d.dflt v = some b := by
  have hnm : d.name = chars "url" ∨ d.name = chars "directOutput" ∨ d.name = chars "mustEvaluate" := by
    by_contra hc
    simp only [not_or] at hc
    exact hnd ⟨h.proto, hc.1, hc.2.1, hc.2.2⟩
  have huniq : ∀ e ∈ n.cls.fields, e.name = d.name → d = e := fun e he hx => List.inj_on_of_nodup_map (List.nodup_append.1 h.distinct).1 hd he hx.symm
  have hbool : ∀ b : Bool, ∀ nm : Text, ∃ v : Val F, some (Val.bool b) = some v ∧ (omitted (floats N) (.scalar (.bool false)) v = some true → some (Val.bool false) = some v ∧ v.nodes = []) ∧
      (omitted (floats N) (.scalar (.bool false)) v = some false → Readable (floats N) ⟨nm, chars "SFBool", .sfBool, fun _ => [], id, .scalar (.bool false)⟩ v) ∧ ∃ b, omitted (floats N) (.scalar (.bool false)) v = some b := by
    intro b nm
    refine ⟨_, rfl, fun ho => ?_, fun _ => rfl, ⟨_, rfl⟩⟩
    cases b
    · exact ⟨rfl, rfl⟩
    · cases ho
  rcases hnm with hnm | hnm | hnm
  · have := huniq _ (h.common ⟨⟨chars "url", chars "MFString", .mfString, fun _ => [], id, .list (.strs [])⟩, true⟩ (by simp [scriptProto]) (show chars "url" ≠ chars "externalURL" by decide)).1 hnm.symm
    subst this
    refine ⟨(show SafeName (chars "url") by decide), by simp [ProtoDef.cls, scriptProto], .strs [], ?_, fun _ => ⟨rfl, rfl⟩, fun _ => ⟨rfl, rfl⟩, ⟨_, rfl⟩⟩
    simp only [FieldDecl.read]
    cases hdv : n.dict (chars "url") with
    | some v => rw [h.url v hdv]
    | none => rfl
  · have := huniq _ (h.common ⟨⟨chars "directOutput", chars "SFBool", .sfBool, fun _ => [], id, .scalar (.bool false)⟩, false⟩ (by simp [scriptProto]) (show chars "directOutput" ≠ chars "externalURL" by decide)).1 hnm.symm
    subst this
    refine ⟨(show SafeName (chars "directOutput") by decide), by simp [ProtoDef.cls, scriptProto], ?_⟩
    simp only [FieldDecl.read]
    cases hdv : n.dict (chars "directOutput") with
    | some v =>
      obtain ⟨b, rfl⟩ := h.flags _ (by simp) v hdv
      exact hbool b _
    | none => exact hbool false _
  · have := huniq _ (h.common ⟨⟨chars "mustEvaluate", chars "SFBool", .sfBool, fun _ => [], id, .scalar (.bool false)⟩, false⟩ (by simp [scriptProto]) (show chars "mustEvaluate" ≠ chars "externalURL" by decide)).1 hnm.symm
    subst this
    refine ⟨(show SafeName (chars "mustEvaluate") by decide), by simp [ProtoDef.cls, scriptProto], ?_⟩
    simp only [FieldDecl.read]
    cases hdv : n.dict (chars "mustEvaluate") with
    | some v =>
      obtain ⟨b, rfl⟩ := h.flags _ (by simp) v hdv
      exact hbool b _
    | none => exact hbool false _

theorem good_script {N : Num F} {n : Node F} (h : LibraryScriptNode N n) : GoodScript (floats N) n where
  proto := h.proto
  common g hg := by
    by_cases he : g.decl.name = chars "externalURL"
    · obtain ⟨d, hd, hx⟩ := h.external
      exact ⟨d, hd, by rw [hx, he], fun hc => absurd he hc⟩
    · obtain ⟨h1, h2⟩ := h.common g hg he
      exact ⟨_, h1, rfl, fun _ => ⟨⟨⟨rfl, rfl, rfl, rfl, rfl⟩, rfl⟩, h2⟩⟩
  mapped := h.mapped
  decls d hd _ hdec := by
    obtain ⟨k1, k2, k3⟩ := h.fields d hd hdec
    obtain ⟨v, k4, k5, k6, k7⟩ := h.declared d hd hdec
    exact ⟨k1, k2, field_typeName k3, k3, v, k4, k5, declared_readable k3 k6 k7⟩
  events e he _ := by
    obtain ⟨k1, k2, k3⟩ := h.events e he
    exact ⟨k1, k2, event_typeName k3, k3⟩
  distinct e he d hd hx := (List.nodup_append.1 h.distinct).2.2 _ (List.mem_map_of_mem hd) _ (List.mem_map_of_mem he) hx
  events_distinct := (List.nodup_append.1 h.distinct).2.1

theorem good_script_node {N : Num F} {sc : Scene F} (his : sc.is = none) {i : Nat} {n : Node F} (h : LibraryScriptNode N n) : GoodNode (library N) (floats N) sc i n := by
  have noIs : ∀ f nm, ¬ IsMapped sc i f nm := by rintro f nm ⟨d, l, hd, -⟩; rw [his] at hd; cases hd
  refine ⟨.inr (good_script h), h.DEF, (List.nodup_append.1 h.distinct).1, fun d hd _ hnd => (script_common h hd hnd).1, fun d hd _ hnd v hv ho => ?_, fun d hd _ hnd v hv ho => ?_,
    fun f nm hm => absurd hm (noIs f nm), fun f nm _ hm => absurd hm (noIs f nm), fun d hd hm => ?_⟩
  · obtain ⟨-, -, u, k1, k2, -⟩ := script_common h hd hnd
    rw [k1] at hv; cases hv
    exact k2 ho
  · obtain ⟨-, -, u, k1, -, k2, -⟩ := script_common h hd hnd
    rw [k1] at hv; cases hv
    exact k2 ho
  · rw [h.mapped] at hm; cases hm

theorem good_script_scene {N : Num F} (hN : GoodNum N) {sc : Scene F} {all : List Nat} (h : ScriptScene N sc all) : GoodScene (library N) (floats N) sc all where
  nodes i n hi hn := by
    obtain ⟨m, hm, hl⟩ := h.nodes i hi
    rw [hn] at hm; cases hm
    rcases hl with hl | hl
    · exact good_node hN h.file hl
    · exact good_script_node h.file hl
  writable := ⟨h.finite, fun i hi => by
    obtain ⟨n, hn, hl⟩ := h.nodes i hi
    refine ⟨n, hn, fun d hd _ => ?_⟩
    rcases hl with hl | hl
    · obtain ⟨v, h1, h2⟩ := read_fits hN hl hd
      exact ⟨v, h1, fun _ _ => (omitted_cases (field_facts hl.cls hd) h2).2.2⟩
    · by_cases hdec : Declared n.cls d.name
      · obtain ⟨v, -, k5, -⟩ := hl.declared d hd hdec
        exact ⟨v, k5, fun _ hc => absurd hdec hc⟩
      · obtain ⟨-, -, v, k1, -, -, k4⟩ := script_common hl hd hdec
        exact ⟨v, k1, fun _ _ => k4⟩⟩
  shared := h.shared
  registered := h.registered
  routes := h.routes
  children := h.children
  file := h.file

theorem script_kinds {N : Num F} {sc : Scene F} {all : List Nat} (h : ScriptScene N sc all) : ∀ i n, Reach sc i → sc.heap i = some n → BuiltinOrScript (library N) n := by
  intro i n hi hn
  obtain ⟨m, hm, hl⟩ := h.nodes i hi
  rw [hn] at hm; cases hm
  rcases hl with hl | hl
  · exact .inl ⟨hl.cls, (class_names hl.cls).2.1⟩
  · refine .inr ⟨hl.proto, fun d hd hnm => (script_common hl hd (fun hdec => ?_)).2.1⟩
    simp only [List.mem_cons, List.not_mem_nil, or_false] at hnm
    rcases hnm with hnm | hnm | hnm
    · exact hdec.2.1 hnm
    · exact hdec.2.2.2 hnm
    · exact hdec.2.2.1 hnm

/-- **C81** With Scripts: a scene of built-in nodes and Scripts survives writing and reading. (With Scripts, the separator must end lines.) -/
theorem C81_scripts_round_trip {N : Num F} (hN : GoodNum N) {lv : LinValues} (hlv : GoodOptions lv) {sc : Scene F} {all : List Nat} (h : ScriptScene N sc all) (hl : ScriptLines lv sc) {fuel : Nat} (hf : all.length < fuel) :
    ∃ text named w φ, linearise lv (floats N) sc fuel = .ok (text, named) ∧ Renamed sc named ∧ ReadsWorld (library N) (floats N) text w ∧ SameScene named w.file φ ∧
      (w.scene 0).protos = [] :=
  C76_scene_round_trip (C81_builtins N) hlv (good_script_scene hN h) hl hf

/-- **C88** With Scripts, over the built-in node types: saving what was loaded gives the same text. -/
theorem C88_library_scripts {N : Num F} (hN : GoodNum N) {lv : LinValues} (hlv : GoodOptions lv) {sc : Scene F} {all : List Nat} (h : ScriptScene N sc all) (hl : ScriptLines lv sc) {fuel : Nat} (hf : all.length < fuel) :
    ∃ text named, linearise lv (floats N) sc fuel = .ok (text, named) ∧ (∃ w, ReadsWorld (library N) (floats N) text w) ∧
      ∀ w, ReadsWorld (library N) (floats N) text w → linearise lv (floats N) w.file fuel = .ok (text, w.file) :=
  C88_scripts_saved_again (C81_builtins N) (C88_library_standard N).2 (C88_library_standard N).1 hlv (good_script_scene hN h) hl (script_kinds h) hf

/-! ### Loaded Scripts -/

theorem nodup_of_filter {α : Type} {f : α → Text} {l : List α} (h : ∀ x, (l.filter (fun d => f d == x)).length ≤ 1) : (l.map f).Nodup := by
  rw [List.nodup_iff_count_le_one]
  intro x
  have := h x
  rwa [List.count_eq_countP, List.countP_map, List.countP_eq_length_filter]

theorem script_distinct {fl : Floats F} {items : List PTree} {c : Class F} (h : ScriptAs fl items c) : (c.fields.map FieldDecl.name ++ c.events.map EventDecl.name).Nodup := by
  refine List.nodup_append.2 ⟨nodup_of_filter (fun x => ?_), nodup_of_filter (fun x => ?_), fun x hx y hy hxy => ?_⟩
  · have hx := h.2 x
    split at hx
    · rw [hx.1]
      have hn : ((scriptProto : ProtoDef F).cls.fields.map FieldDecl.name).Nodup := scriptProto_names
      have := List.nodup_iff_count_le_one.1 hn x
      rwa [List.count_eq_countP, List.countP_map, List.countP_eq_length_filter] at this
    · obtain ⟨⟨f, hf, -⟩, -⟩ := hx
      rw [hf]; rfl
    · have : c.fields.filter (fun d => d.name == x) = [] := List.filter_eq_nil_iff.2 (fun d hd he => hx.1 d hd (by simpa using he))
      rw [this]; exact Nat.zero_le _
  · have hx := h.2 x
    have none : (∀ e ∈ c.events, e.name ≠ x) → (c.events.filter (fun e => e.name == x)).length ≤ 1 := fun hx => by
      have : c.events.filter (fun d => d.name == x) = [] := List.filter_eq_nil_iff.2 (fun d hd he => hx d hd (by simpa using he))
      rw [this]; exact Nat.zero_le _
    split at hx
    · exact none hx.2.2
    · exact none hx.2
    · rw [hx.2.1]; rfl
  · obtain ⟨d, hd, rfl⟩ := List.mem_map.1 hx
    obtain ⟨e, he, rfl⟩ := List.mem_map.1 hy
    have hx := h.2 d.name
    split at hx
    · exact hx.2.2 e he hxy.symm
    · exact hx.2 e he hxy.symm
    · exact hx.1 d hd rfl

theorem loaded_script {N : Num F} {text : Text} {w : World F} (h : ReadsWorld (library N) (floats N) text w) (hi : ∀ i, w.inst i = none) {i : Nat} {n : Node F} (hn : w.heap i = some n)
    (hs : n.cls.proto = chars "Script") (hv : ScriptValues N n) : LibraryScriptNode N n := by
  have hB := C81_builtins N
  have hS := no_script_class N
  have hc := reads_scripts hB hS h i n hn hs (hi i)
  obtain ⟨items, log, has, -, -⟩ := script_read hB hS h hi hn hs
  refine { toScriptValues := hv, proto := hs, DEF := (C69_legal_names hB h).1 i n hn, mapped := hc.mapped, external := hc.external, distinct := script_distinct has, fields := fun d hd hdec => ?_, events := hc.events }
  rcases hc.fields d hd with hp | hp
  · simp only [ProtoDef.cls, scriptProto, List.map_cons, List.map_nil, List.mem_cons, List.not_mem_nil, or_false] at hp
    rcases hp with rfl | rfl | rfl | rfl
    · exact ⟨show LegalName (chars "externalURL") by decide, show reserved (chars "externalURL") = false by decide, rfl⟩
    · exact absurd rfl hdec.2.1
    · exact absurd rfl hdec.2.2.1
    · exact absurd rfl hdec.2.2.2
  · exact hp

/-- nodes that the scene reaches exist -/
theorem reach_exists {base : Text → Option (Class F)} {fl : Floats F} (hB : Builtins base fl) {text : Text} {w : World F} (h : ReadsWorld base fl text w) : ∀ i, Reach w.file i → i < w.next := by
  obtain ⟨g1, g2, g3, g4, g5, g6, g7, -⟩ := C69_world_well_formed hB h
  intro i hi
  induction hi with
  | child h => exact g6 0 _ h
  | @field i j n d v h1 h2 h3 h4 h5 h6 ih =>
    have h2 : w.heap i = some n := h2
    cases hd : n.dict d.name with
    | some v' =>
      simp only [FieldDecl.read, hd, Option.some.injEq] at h5
      subst h5
      exact g2 i n _ _ h2 hd j h6
    | none =>
      simp only [FieldDecl.read, hd] at h5
      cases hdv : d.dflt.value with
      | none => rw [hdv] at h5; cases h5
      | some v0 =>
        rw [hdv] at h5
        simp only at h5
        have := g4 i n h2 d h3
        simp only [FieldDecl.dfltNodes, hdv, Option.map_some, Option.getD_some] at this
        rcases coerce_keeps h5 with h' | h'
        · rw [h'] at h6; exact this j h6
        · rw [h'] at h6; cases h6

theorem loaded_script_scene {N : Num F} {text : Text} {w : World F} (h : ReadsWorld (library N) (floats N) text w) {kids : List PTree} (hk : ItemsOf text kids) (hp : noProtosAll kids = true)
    (hs : SavableScripts N w) : ScriptScene N w.file (List.range w.next) := by
  have hB := C81_builtins N
  obtain ⟨f1, f2, f3, f4⟩ := reads_flat hB h hk hp
  obtain ⟨l1, l2⟩ := C69_legal_names hB h
  obtain ⟨g1, g2, g3, g4, g5, g6, g7, -⟩ := C69_world_well_formed hB h
  have hex := reach_exists hB h
  refine ⟨fun i hi => List.mem_range.2 (hex i hi), fun i hi => ?_, fun j n l l' hl hl' hn hD _ => ?_, fun i n hi hn hD => ?_, fun r hr => ?_, hs.children, rfl⟩
  · obtain ⟨n, hn⟩ := Option.isSome_iff_exists.1 ((g1 i).2 (hex i hi))
    refine ⟨n, hn, ?_⟩
    by_cases hscr : n.cls.proto = chars "Script"
    · exact .inr (loaded_script h f1 hn hscr (hs.scripts i n hi hn hscr))
    · have hcls := (f4 i n hn).resolve_right hscr
      refine .inl ⟨hcls, l1 i n hn, fun d hd v hv => ?_, hs.fonts i n hi hn⟩
      obtain ⟨d', hd', hname, ht⟩ := g3 i n d.name v hn hscr hv
      have : d' = d := List.inj_on_of_nodup_map (List.nodup_append.1 (class_names hcls).2.2.1).1 hd' hd hname
      subst this
      exact fits_of_storable ht (hs.values i n hi hn hscr _ hd v hv)
  · exact C91_shared_only_by_name hB (no_script_class N) h hk (items_plain hk hp) f1 hl hl' hn hD
  · obtain ⟨j, hj⟩ := f3 i n hn hD
    obtain ⟨-, m, hm, hmD⟩ := g5 0 _ _ hj
    have := hs.names i j n m hn hm hD hmD.symm
    rw [this]
    exact hj
  · obtain ⟨h1, h2, -⟩ := l2 0 r hr
    exact ⟨(hs.routes r hr).1, (hs.routes r hr).2, h1, h2⟩

/-- **C91** With Scripts: load, save, load. -/
theorem C91_loaded_scripts_saved {N : Num F} (hN : GoodNum N) {lv : LinValues} (hlv : GoodOptions lv) {text : Text} {w : World F} (h : ReadsWorld (library N) (floats N) text w)
    {kids : List PTree} (hk : ItemsOf text kids) (hp : noProtosAll kids = true) (hs : SavableScripts N w) (hl : ScriptLines lv w.file) {fuel : Nat} (hf : w.next < fuel) :
    ∃ saved w' φ, linearise lv (floats N) w.file fuel = .ok (saved, w.file) ∧ ReadsWorld (library N) (floats N) saved w' ∧ SameScene w.file w'.file φ ∧
      linearise lv (floats N) w'.file fuel = .ok (saved, w'.file) := by
  have hls := loaded_script_scene h hk hp hs
  have hfu : (List.range w.next).length < fuel := by rw [List.length_range]; exact hf
  obtain ⟨saved, named, w', φ, h1, h2, h3, h4, -⟩ := C81_scripts_round_trip hN hlv hls hl hfu
  have hnm : named = w.file := by
    have hpre : preroute w.file = w.file := preroute_named (fun r hr m hm => by
      obtain ⟨-, -, ⟨n, k1, k2⟩, n', k3, k4⟩ := (C69_legal_names (C81_builtins N) h).2 0 r hr
      rcases hm with hm | hm
      · have hm : w.heap r.src = some m := hm
        rw [k1] at hm; cases hm; exact k2
      · have hm : w.heap r.dst = some m := hm
        rw [k3] at hm; cases hm; exact k4)
    have h1 := h1
    unfold linearise at h1
    dsimp only at h1
    split at h1
    · cases h1
    · cases h1; exact hpre
  subst hnm
  obtain ⟨saved', named', k1, -, k3⟩ := C88_library_scripts hN hlv hls hl hfu
  rw [h1] at k1
  cases k1
  exact ⟨saved, w', φ, h1, h3, h4, k3 w' h3⟩

/-! ### The theorems apply -/

theorem hasType_of_fits {N : Num F} {d : FieldDecl F} {v : Val F} (h : Fits N d v) : HasType d.kind v := by
  cases v <;> simp only [Fits] at h
  case num => rw [h.1]; trivial
  case nums => rcases h.1 with h | h <;> rw [h] <;> first | trivial | rfl
  case rows => obtain ⟨n, h, h'⟩ := h; rw [h]; exact fun r hr => (h' r hr).1
  case strs => rw [h.1]; trivial
  case refs => rw [h.1]; trivial
  case ints => obtain ⟨s, h, h'⟩ := h; rw [h]; exact h'
  all_goals rw [h]; trivial

theorem declarable_of_fits {N : Num F} {d : FieldDecl F} {v : Val F} (h : Fits N d v) : Declarable N d v := by
  cases v <;> simp only [Fits] at h <;> simp only [Declarable]
  case num => exact h.2.1
  case nums => exact h.2
  case rows => obtain ⟨n, -, h⟩ := h; exact fun r hr => (h r hr).2
  case refs => exact h.2

/-- `ScriptValues`, computed, for integers -/
def scriptValuesB (n : Node Int) : Bool :=
  n.cls.fields.any (fun d => d.name == chars "url" && d.cls == chars "MFString" && (match d.dflt with | .list (.strs []) => true | _ => false)) &&
  [chars "directOutput", chars "mustEvaluate"].all (fun x => n.cls.fields.any (fun d => d.name == x && d.kind == .sfBool && d.str 0 == [])) &&
  n.cls.exposed.contains (chars "url") && !n.cls.exposed.contains (chars "directOutput") && !n.cls.exposed.contains (chars "mustEvaluate") &&
  (match n.dict (chars "url") with | none => true | some (.strs []) => true | _ => false) &&
  [chars "directOutput", chars "mustEvaluate"].all (fun x => match n.dict x with | none => true | some (.bool _) => true | _ => false) &&
  n.cls.fields.all (fun d => [chars "url", chars "directOutput", chars "mustEvaluate"].contains d.name || ((n.dict d.name).isNone && (match d.default with | none => false | some v => fitsB d v)))

theorem registered_int {d : FieldDecl Int} (h : (floats exNum).types.field d.cls = some ⟨d.kind, d.str, d.conv⟩) : d.kind ≠ .mfString → d.str = intStr ∧ d.conv = id := by
  intro hk
  have h : typeOf exNum (String.ofList d.cls) = some ⟨d.kind, d.str, d.conv⟩ := h
  rcases (typeOf_way h).1 hk with h | h | h <;> exact h

theorem registered_strings {d : FieldDecl Int} (hc : d.cls = chars "MFString") (h : (floats exNum).types.field d.cls = some ⟨d.kind, d.str, d.conv⟩) : d.kind = .mfString ∧ d.str = (fun _ => []) ∧ d.conv = id := by
  have h : typeOf exNum (String.ofList d.cls) = some ⟨d.kind, d.str, d.conv⟩ := h
  rw [hc] at h
  have h2 : typeOf exNum (String.ofList (chars "MFString")) = some ⟨.mfString, fun _ => [], id⟩ := rfl
  rw [h2] at h
  simp only [Option.some.injEq, FieldType.mk.injEq] at h
  exact ⟨h.1.symm, h.2.1.symm, h.2.2.symm⟩

theorem script_values_of {n : Node Int} (hc : Full.ScriptClass (floats exNum) n.cls) (h : scriptValuesB n = true) : ScriptValues exNum n := by
  simp only [scriptValuesB, Bool.and_eq_true] at h
  obtain ⟨⟨⟨⟨⟨⟨⟨h1, h2⟩, h3⟩, h4⟩, h5⟩, h6⟩, h7⟩, h8⟩ := h
  simp only [List.all_cons, List.all_nil, Bool.and_true, Bool.and_eq_true] at h2 h7
  have flag : ∀ x, n.cls.fields.any (fun d => d.name == x && d.kind == .sfBool && d.str 0 == []) = true → ∃ d ∈ n.cls.fields, d.name = x ∧ d ∈ (scriptProto : ProtoDef Int).cls.fields := by
    intro x hx
    obtain ⟨d, hd, hx⟩ := List.any_eq_true.1 hx
    simp only [Bool.and_eq_true, beq_iff_eq] at hx
    obtain ⟨⟨k1, k2⟩, k3⟩ := hx
    refine ⟨d, hd, k1, (hc.fields d hd).resolve_right (fun hr => ?_)⟩
    rw [(registered_int hr.2.2 (by rw [k2]; simp)).1] at k3
    revert k3
    decide +kernel
  refine ⟨fun g hg he => ?_, fun v hv => ?_, fun f hf v hv => ?_, fun d hd hdec => ?_⟩
  · simp only [scriptProto, List.mem_cons, List.not_mem_nil, or_false] at hg
    rcases hg with rfl | rfl | rfl | rfl
    · exact absurd rfl he
    · refine ⟨?_, by simpa using h3⟩
      obtain ⟨d, hd, hx⟩ := List.any_eq_true.1 h1
      simp only [Bool.and_eq_true, beq_iff_eq] at hx
      obtain ⟨⟨k1, k2⟩, k3⟩ := hx
      have hdf : d.dflt = .list (.strs []) := by
        split at k3
        · assumption
        · cases k3
      rcases hc.fields d hd with hp | hp
      · simp only [ProtoDef.cls, scriptProto, List.map_cons, List.map_nil, List.mem_cons, List.not_mem_nil, or_false] at hp
        rcases hp with rfl | rfl | rfl | rfl
        · exact absurd k1 (show chars "externalURL" ≠ chars "url" by decide)
        · exact hd
        · exact absurd k1 (show chars "directOutput" ≠ chars "url" by decide)
        · exact absurd k1 (show chars "mustEvaluate" ≠ chars "url" by decide)
      · obtain ⟨e1, e2, e3⟩ := registered_strings k2 hp.2.2
        obtain ⟨a, b, c, d', e, f⟩ := d
        simp only at k1 k2 hdf e1 e2 e3
        subst k1 k2 hdf e1 e2 e3
        exact hd
    · refine ⟨?_, by simpa using h4⟩
      obtain ⟨d, hd, k1, hp⟩ := flag _ h2.1
      simp only [ProtoDef.cls, scriptProto, List.map_cons, List.map_nil, List.mem_cons, List.not_mem_nil, or_false] at hp
      rcases hp with rfl | rfl | rfl | rfl
      · exact absurd k1 (show chars "externalURL" ≠ chars "directOutput" by decide)
      · exact absurd k1 (show chars "url" ≠ chars "directOutput" by decide)
      · exact hd
      · exact absurd k1 (show chars "mustEvaluate" ≠ chars "directOutput" by decide)
    · refine ⟨?_, by simpa using h5⟩
      obtain ⟨d, hd, k1, hp⟩ := flag _ h2.2
      simp only [ProtoDef.cls, scriptProto, List.map_cons, List.map_nil, List.mem_cons, List.not_mem_nil, or_false] at hp
      rcases hp with rfl | rfl | rfl | rfl
      · exact absurd k1 (show chars "externalURL" ≠ chars "mustEvaluate" by decide)
      · exact absurd k1 (show chars "url" ≠ chars "mustEvaluate" by decide)
      · exact absurd k1 (show chars "directOutput" ≠ chars "mustEvaluate" by decide)
      · exact hd
  · rw [hv] at h6
    split at h6
    · next h => cases h
    · next h => cases h; rfl
    · cases h6
  · have hx : (match n.dict f with | none => true | some (.bool _) => true | _ => false) = true := by
      simp only [List.mem_cons, List.not_mem_nil, or_false] at hf
      rcases hf with rfl | rfl
      · exact h7.1
      · exact h7.2
    rw [hv] at hx
    split at hx
    · next h => cases h
    · next h => cases h; exact ⟨_, rfl⟩
    · cases hx
  · have hx := List.all_eq_true.1 h8 d hd
    simp only [Bool.or_eq_true, List.contains_eq_mem, decide_eq_true_eq, List.mem_cons, List.not_mem_nil, or_false, Bool.and_eq_true, Option.isNone_iff_eq_none] at hx
    rcases hx with (hx | hx | hx) | ⟨hx, hy⟩
    · exact absurd hx hdec.2.1
    · exact absurd hx hdec.2.2.1
    · exact absurd hx hdec.2.2.2
    · cases hdf : d.default with
      | none => rw [hdf] at hy; cases hy
      | some v =>
        rw [hdf] at hy
        have hfit : Fits exNum d v := fits_of_int (by
          rcases hc.fields d hd with hp | hp
          · simp only [ProtoDef.cls, scriptProto, List.map_cons, List.map_nil, List.mem_cons, List.not_mem_nil, or_false] at hp
            rcases hp with rfl | rfl | rfl | rfl
            · exact fun hk => absurd rfl hk
            · exact absurd rfl hdec.2.1
            · exact absurd rfl hdec.2.2.1
            · exact absurd rfl hdec.2.2.2
          · exact registered_int hp.2.2) hy
        refine ⟨v, rfl, ?_, hasType_of_fits hfit, declarable_of_fits hfit⟩
        rw [← hdf]
        simp only [FieldDecl.read, hx, FieldDecl.default]
        cases d.dflt.value <;> rfl

/-- `SavableScripts`, computed, for integers -/
def savableScriptsB (w : World Int) : Bool :=
  w.file.children ≠ [] && w.file.routes.all (fun r => w.file.children.contains r.src && w.file.children.contains r.dst) &&
  (List.range w.next).all (fun i => match w.heap i with
    | none => true
    | some n => (if n.cls.proto = chars "Script" then scriptValuesB n else n.cls.fields.all (fun d => match n.dict d.name with
        | none => true
        | some v => fitsB d v)) && n.cls.proto ≠ chars "FontStyle" &&
      (List.range w.next).all (fun j => match w.heap j with
        | none => true
        | some m => n.DEF = [] || n.DEF ≠ m.DEF || i = j))

theorem savable_scripts_of {text : Text} {w : World Int} (h : ReadsWorld (library exNum) (floats exNum) text w) {kids : List PTree} (hk : ItemsOf text kids) (hp : noProtosAll kids = true)
    (hs : savableScriptsB w = true) : SavableScripts exNum w := by
  obtain ⟨f1, -, -, f4⟩ := reads_flat (C81_builtins exNum) h hk hp
  obtain ⟨g1, -⟩ := C69_world_well_formed (C81_builtins exNum) h
  simp only [savableScriptsB, Bool.and_eq_true, List.all_eq_true, decide_eq_true_eq, List.mem_range, List.contains_eq_mem] at hs
  obtain ⟨⟨h1, h2⟩, h3⟩ := hs
  have hn : ∀ i n, w.heap i = some n → (if n.cls.proto = chars "Script" then scriptValuesB n else n.cls.fields.all (fun d => match n.dict d.name with | none => true | some v => fitsB d v)) = true ∧
      n.cls.proto ≠ chars "FontStyle" ∧ ∀ j m, w.heap j = some m → n.DEF ≠ [] → n.DEF = m.DEF → i = j := by
    intro i n hi
    have := h3 i ((g1 i).1 (by rw [hi]; rfl))
    rw [hi] at this
    simp only [Bool.and_eq_true, List.all_eq_true, decide_eq_true_eq, List.mem_range] at this
    obtain ⟨⟨k1, k2⟩, k4⟩ := this
    refine ⟨?_, k2, fun j m hj hD he => ?_⟩
    · simpa only [List.all_eq_true] using k1
    · have := k4 j ((g1 j).1 (by rw [hj]; rfl))
      rw [hj] at this
      simp only [Bool.or_eq_true, decide_eq_true_eq] at this
      rcases this with (h | h) | h
      · exact absurd h hD
      · exact absurd he h
      · exact h
  refine ⟨h1, fun i j n m hi hj => (hn i n hi).2.2 j m hj, fun i n _ hi hscr => ?_, fun i n _ hi hscr d hd v hv => ?_, fun i n _ hi hf => absurd hf (hn i n hi).2.1,
    fun r hr => ⟨.child (h2 r hr).1, .child (h2 r hr).2⟩⟩
  · have := (hn i n hi).1
    rw [if_pos hscr] at this
    exact script_values_of (reads_scripts (C81_builtins exNum) (no_script_class exNum) h i n hi hscr (f1 i)) this
  · have := (hn i n hi).1
    rw [if_neg hscr] at this
    have := List.all_eq_true.1 this d hd
    rw [hv] at this
    exact storable_of_fits (fits_of ((f4 i n hi).resolve_right hscr) hd this)

/-- a file with a Script that declares fields, one with a node, and events; and a ROUTE between its events -/
def exScripts : Text := file (chars "DEF S Script { directOutput TRUE eventIn SFBool set_on field SFFloat limit 7 exposedField MFNode parts [ Box { size 2 3 4 } ] eventOut SFTime done field SFString note \"x y\" } Shape { } ROUTE S.done TO S.set_on")

/-- the hypotheses of `C91_loaded_scripts_saved`, and what it says of this file; the saved scene, a `ScriptScene`, is an example for C81 and C88 with Scripts -/
example : ∃ w, ReadsWorld (library exNum) (floats exNum) exScripts w ∧ w.next = 3 ∧ (w.heap 0).map (fun n => n.cls.proto) = some (chars "Script") ∧
    (∀ kids, ItemsOf exScripts kids → noProtosAll kids = true ∧ SavableScripts exNum w) ∧ ScriptScene exNum w.file (List.range w.next) ∧
    ∃ saved w' φ, linearise defaults (floats exNum) w.file 5 = .ok (saved, w.file) ∧ ReadsWorld (library exNum) (floats exNum) saved w' ∧ SameScene w.file w'.file φ ∧
      linearise defaults (floats exNum) w'.file 5 = .ok (saved, w'.file) := by
  obtain ⟨w, h1, h2⟩ := world_fact (base := library exNum) (fl := floats exNum) (fuel := 600) (text := exScripts) (f := fun w => (w.next, (w.heap 0).map (fun n => n.cls.proto), savableScriptsB w))
    (x := (3, some (chars "Script"), true)) (by decide +kernel)
  simp only [Prod.mk.injEq] at h2
  have hp : ∀ kids, ItemsOf exScripts kids → noProtosAll kids = true := fun kids hk => items_fact (fuel := 600) (P := noProtosAll) (by decide +kernel) hk
  have hk : ∃ kids, ItemsOf exScripts kids := by
    obtain ⟨hdr, sm, kids, eof, m, vs, hd, hr⟩ := id h1
    exact ⟨kids, hdr, sm, eof, m, hd⟩
  obtain ⟨kids, hk⟩ := hk
  have hs := savable_scripts_of h1 hk (hp kids hk) h2.2.2
  exact ⟨w, h1, h2.1, h2.2.1, fun kids hk => ⟨hp kids hk, hs⟩, loaded_script_scene h1 hk (hp kids hk) hs,
    C91_loaded_scripts_saved exGoodNum goodDefaults h1 hk (hp kids hk) hs (fun _ _ _ _ _ => by decide) (by omega)⟩

end Verif.Library
