import Verif.Lemmas.SameText2
import Verif.Props.Sharing
import Verif.Props.Order
/-!
Writing what was read, with Scripts: a Script that is read corresponds to the one that was written.
-/
namespace Verif.Lin
open Verif.TextOut Verif.Text Verif.SceneText
variable {F : Type}

/-! ### Sorting related lists -/

theorem insertBy_forall₂ {α : Type} {le : α → α → Bool} {Q : α → α → Prop} (hle : ∀ a b a' b', Q a a' → Q b b' → le a' b' = le a b) {a a' : α} (ha : Q a a') :
    ∀ {l l' : List α}, List.Forall₂ Q l l' → List.Forall₂ Q (insertBy le a l) (insertBy le a' l')
  | [], [], _ => .cons ha .nil
  | b :: l, b' :: l', .cons h1 h2 => by
    simp only [insertBy, hle a b a' b' ha h1]
    split
    · exact .cons ha (.cons h1 h2)
    · exact .cons h1 (insertBy_forall₂ hle ha h2)

theorem sortBy_forall₂ {α : Type} {le : α → α → Bool} {Q : α → α → Prop} (hle : ∀ a b a' b', Q a a' → Q b b' → le a' b' = le a b) {l l' : List α} (h : List.Forall₂ Q l l') :
    List.Forall₂ Q (sortBy le l) (sortBy le l') := by
  induction h with
  | nil => exact .nil
  | cons h1 _ ih => exact insertBy_forall₂ hle h1 ih

/-- lists with distinct keys whose elements correspond are sorted alike -/
theorem sorted_pairs {α : Type} {key : α → Text} {le : α → α → Bool} (tot : ∀ a b, le a b = true ∨ le b a = true) (tr : ∀ a b c, le a b = true → le b c = true → le a c = true)
    (anti : ∀ a b, le a b = true → le b a = true → key a = key b) {l l' : List α} (hl : (l.map key).Nodup) (hl' : (l'.map key).Nodup) {Q : α → α → Prop}
    (h1 : ∀ a ∈ l, ∃ b ∈ l', Q a b) (h2 : ∀ b ∈ l', ∃ a ∈ l, Q a b) (hk : ∀ a b, Q a b → key b = key a) (hle : ∀ a b a' b', Q a a' → Q b b' → le a' b' = le a b) :
    List.Forall₂ Q (sortBy le l) (sortBy le l') := by
  have h1' : ∀ a, ∃ b, a ∈ l → b ∈ l' ∧ Q a b := fun a => by
    by_cases ha : a ∈ l
    · obtain ⟨b, hb, hq⟩ := h1 a ha
      exact ⟨b, fun _ => ⟨hb, hq⟩⟩
    · exact ⟨a, fun h => absurd h ha⟩
  choose g hg using h1'
  have hkeys : (l.map g).map key = l.map key := by
    rw [List.map_map]
    exact List.map_congr_left (fun a ha => hk a (g a) (hg a ha).2)
  have hnd : (l.map g).Nodup := List.Nodup.of_map key (by rw [hkeys]; exact hl)
  have hperm : l'.Perm (l.map g) := by
    refine (List.perm_ext_iff_of_nodup (List.Nodup.of_map key hl') hnd).2 (fun b => ⟨fun hb => ?_, fun hb => ?_⟩)
    · obtain ⟨a, ha, hq⟩ := h2 b hb
      have hga := hg a ha
      rw [eq_of_key hl' hb hga.1 ((hk a b hq).trans (hk a _ hga.2).symm)]
      exact List.mem_map_of_mem ha
    · obtain ⟨a, ha, rfl⟩ := List.mem_map.1 hb
      exact (hg a ha).1
  rw [sortBy_ordered tot tr hperm (fun a ha b hb hab hba => eq_of_key (by rw [hkeys]; exact hl) ha hb (anti a b hab hba))]
  refine sortBy_forall₂ hle ?_
  have : ∀ k : List α, (∀ a ∈ k, a ∈ l) → List.Forall₂ Q k (k.map g) := by
    intro k
    induction k with
    | nil => exact fun _ => .nil
    | cons a k ih => exact fun h => .cons (hg a (h a (by simp))).2 (ih (fun x hx => h x (by simp [hx])))
  exact this l (fun _ h => h)

theorem nodup_of_filter {α : Type} {f : α → Text} {l : List α} (h : ∀ x, (l.filter (fun d => f d == x)).length ≤ 1) : (l.map f).Nodup := by
  rw [List.nodup_iff_count_le_one]
  intro x
  rw [List.count_eq_countP, List.countP_map, List.countP_eq_length_filter]
  exact h x

end Verif.Lin

namespace Verif.Scopes
open Verif.Peg Verif.Grammar Verif.TextOut

/-! ### What is said of Scripts -/

/-- a list of nodes that is said to be the value of a declaration is not empty -/
def Filled (l : List Said) : Prop := ∀ i nm os, Said.own i nm (some (.all os)) ∈ l → os ≠ []

theorem Filled.nil : Filled [] := fun _ _ _ h => by cases h
theorem Filled.append {l l' : List Said} (h : Filled l) (h' : Filled l') : Filled (l ++ l') := fun i nm os hm => by
  rcases List.mem_append.1 hm with hm | hm
  · exact h i nm os hm
  · exact h' i nm os hm
theorem Filled.cons {e : Said} {l : List Said} (he : ∀ i nm os, e = .own i nm (some (.all os)) → os ≠ []) (h : Filled l) : Filled (e :: l) := fun i nm os hm => by
  rcases List.mem_cons.1 hm with hm | hm
  · exact he i nm os hm.symm
  · exact h i nm os hm

theorem tellsAll_length {b : Text → Bool} {names cur ts s l rs s'} (h : TellsAll b names cur ts s l rs s') : rs.length = ts.length := by
  induction ts generalizing s l rs with
  | nil => cases h; rfl
  | cons t ts ih =>
    cases h with
    | cons h1 h2 => simp [ih h2]

mutual
theorem tells_filled {b : Text → Bool} {names cur t s l r s'} (h : Tells b names cur t s l r s') : Filled l := by
  cases h with
  | item h1 => exact (tellsAll_filled h1).append (fun i nm os hm => by simp at hm)
  | proto h1 h2 h3 => exact tellsParts_filled h2
  | extern h1 h2 h3 => exact tellsParts_filled h2
  | node h1 h2 => exact tellsAll_filled h2
  | defNode h1 h2 => exact tellsAll_filled h2
  | script h1 h2 h3 => exact ((tellsDecls_filled h2).1.append (tellsDecls_filled h2).2).append (.cons (fun _ _ _ h => by cases h) (tellsAttrs_filled h3))
  | defScript h1 h2 h3 => exact ((tellsDecls_filled h2).1.append (tellsDecls_filled h2).2).append (.cons (fun _ _ _ h => by cases h) (tellsAttrs_filled h3))
  | null => exact .nil
  | use h1 => exact .nil
  | route h1 => exact .nil
  | isAttr _ => exact .cons (fun _ _ _ h => by cases h) .nil
  | attr h1 => exact (tellsValue_filled h1).1.append (.cons (fun _ _ _ h => by cases h) .nil)
theorem tellsAll_filled {b : Text → Bool} {names cur ts s l rs s'} (h : TellsAll b names cur ts s l rs s') : Filled l := by
  cases h with
  | nil => exact .nil
  | cons h1 h2 => exact (tells_filled h1).append (tellsAll_filled h2)
theorem tellsValue_filled {b : Text → Bool} {names v s l g s'} (h : TellsValue b names v s l g s') : Filled l ∧ ∀ os, g = .all os → os ≠ [] := by
  cases h with
  | text _ => exact ⟨.nil, fun _ h => by cases h⟩
  | one _ h1 => exact ⟨tells_filled h1, fun _ h => by cases h⟩
  | all _ h1 =>
    refine ⟨tellsAll_filled h1, fun os h => ?_⟩
    cases h
    have := tellsAll_length h1
    rintro rfl
    simp at this
theorem tellsParts_filled {b : Text → Bool} {names k ts s l s'} (h : TellsParts b names k ts s l s') : Filled l := by
  cases h with
  | body h1 h2 h3 => exact tellsAll_filled h2
  | urls => exact .nil
  | field h1 h2 => exact (tellsValue_filled h1).1.append (.cons (fun _ _ _ h => by cases h) (tellsParts_filled h2))
  | extField h1 => exact .cons (fun _ _ _ h => by cases h) (tellsParts_filled h1)
  | event h1 => exact tellsParts_filled h1
theorem tellsDecls_filled {b : Text → Bool} {names k ts s l l1 s'} (h : TellsDecls b names k ts s l l1 s') : Filled l ∧ Filled l1 := by
  cases h with
  | nil => exact ⟨.nil, .nil⟩
  | field h1 h2 => exact ⟨(tellsValue_filled h1).1.append (.cons (fun _ _ os h => by cases h; exact (tellsValue_filled h1).2 os rfl) (tellsDecls_filled h2).1), (tellsDecls_filled h2).2⟩
  | isField _ h1 => exact ⟨.cons (fun _ _ _ h => by cases h) (tellsDecls_filled h1).1, .cons (fun _ _ _ h => by cases h) (tellsDecls_filled h1).2⟩
  | event h1 => exact tellsDecls_filled h1
  | isEvent _ h1 => exact ⟨(tellsDecls_filled h1).1, .cons (fun _ _ _ h => by cases h) (tellsDecls_filled h1).2⟩
  | attr h1 => exact tellsDecls_filled h1
  | other _ h1 h2 => exact ⟨(tells_filled h1).append (tellsDecls_filled h2).1, (tellsDecls_filled h2).2⟩
theorem tellsAttrs_filled {b : Text → Bool} {names k ts s l s'} (h : TellsAttrs b names k ts s l s') : Filled l := by
  cases h with
  | nil => exact .nil
  | attr h1 h2 => exact (tells_filled h1).append (tellsAttrs_filled h2)
  | other _ h1 => exact tellsAttrs_filled h1
end

end Verif.Scopes

namespace Verif.Full
open Verif.Peg Verif.Grammar Verif.TextOut Verif.SceneText Verif.Reader Verif.Scopes
open Verif.Lin hiding disp dispList dispDecls dispAttrs disp_node disp_attr
variable {F : Type} {base : Text → Option (Class F)} {fl : Floats F}

/-- in a world without prototypes there are no instances -/
theorem reads_no_instances (hB : Builtins base fl) {text : Text} {w : World F} (h : ReadsWorld base fl text w) (hp : ∀ s, (w.scene s).protos = []) (i : Nat) : w.inst i = none := by
  obtain ⟨l, r⟩ := reads_steps hB h
  have hinv := (r.inv hB.plain init_inv).1
  have hnp : ¬ HasProto w := fun ⟨s, _, h⟩ => h (hp s)
  have hc : w.nclasses = 0 := by
    by_contra hc
    exact hnp ((r.hasProto hB.plain init_inv (by simp [World.init])).2 (by simpa [World.init] using hc))
  cases hi : w.inst i with
  | none => rfl
  | some k => have := (hinv.inst i k hi).1; omega

/-- what a Script that was read is like -/
theorem script_read (hB : Builtins base fl) (hS : base scriptName = none) {text : Text} {w : World F} (h : ReadsWorld base fl text w) (hi : ∀ i, w.inst i = none) {i : Nat} {n : Node F}
    (hn : w.heap i = some n) (hs : n.cls.proto = scriptName) : ∃ items log, ScriptAs fl items n.cls ∧ OwnSaid fl i log n.cls ∧ Filled log := by
  obtain ⟨hdr, sm, kids, eof, m, vs, hd, hr⟩ := id h
  have hk : ItemsOf text kids := ⟨hdr, sm, eof, m, hd⟩
  obtain ⟨log, rs, st, h1, h2, -, h4⟩ := C78_content_as_written hB h hk false (fun h => by cases h)
  have hsc := tellsAll_scripts h1 (List.Subset.refl log) (by simp only [show script = scriptName from rfl, hS]; rfl)
  obtain ⟨_, _, _, _, _, hinv⟩ := reads_run hB false h hk (by simp)
  have hlt : i < st.nodes.length := by rw [h2.nodes]; exact (hinv.ids i).1 (by rw [hn]; rfl)
  obtain ⟨n', hn', hgi, -, hpr, -, -⟩ := h2.type i _ (List.getElem?_eq_getElem hlt)
  rw [hn] at hn'
  cases hn'
  obtain ⟨items, hit⟩ := hsc.said i _ (by simp [Names.start]) (List.getElem?_eq_getElem hlt) (hgi.symm.trans hs) (by rw [← hpr]; exact hi i)
  obtain ⟨n'', hn'', h5, h6⟩ := h4.script i items hit
  rw [hn] at hn''
  cases hn''
  exact ⟨items, log, h5, h6, tellsAll_filled h1⟩

theorem scriptProto_names : ((scriptProto : ProtoDef F).cls.fields.map FieldDecl.name).Nodup := by
  show [chars "externalURL", chars "url", chars "directOutput", chars "mustEvaluate"].Nodup
  decide

theorem filter_le_one {α : Type} {f : α → Text} {l : List α} (h : (l.map f).Nodup) (x : Text) : (l.filter (fun d => f d == x)).length ≤ 1 := by
  rw [List.nodup_iff_count_le_one] at h
  have := h x
  rwa [List.count_eq_countP, List.countP_map, List.countP_eq_length_filter] at this

theorem ScriptAs.fields_nodup {items : List PTree} {c : Class F} (h : ScriptAs fl items c) : (c.fields.map FieldDecl.name).Nodup := by
  refine nodup_of_filter (fun x => ?_)
  have := h.2 x
  split at this
  · rw [this.1]; exact filter_le_one scriptProto_names x
  · obtain ⟨⟨f, h1, -⟩, -⟩ := this
    rw [h1]; rfl
  · rw [List.filter_eq_nil_iff.2 (fun d hd => by simpa using this.1 d hd)]; exact Nat.zero_le _

theorem ScriptAs.events_nodup {items : List PTree} {c : Class F} (h : ScriptAs fl items c) : (c.events.map EventDecl.name).Nodup := by
  refine nodup_of_filter (fun x => ?_)
  have := h.2 x
  split at this
  · rw [List.filter_eq_nil_iff.2 (fun d hd => by simpa using this.2.2 d hd)]; exact Nat.zero_le _
  · rw [List.filter_eq_nil_iff.2 (fun d hd => by simpa using this.2 d hd)]; exact Nat.zero_le _
  · rw [this.2.1]; rfl

/-- the defaults of fields declared without one -/
structure StandardDefaults (fl : Floats F) : Prop where
  strings : fl.types.dflt (chars "MFString") = .list (.strs [])
  bool : fl.types.dflt (chars "SFBool") = .scalar (.bool false)

/-- whatever was said of a field common to all Scripts: if its default is that of the library, the field is left out for the same values -/
theorem common_omitted (hT : StandardDefaults fl) {i : Nat} {log : List Said} (hlog : Filled log) {c : Class F} (h : OwnSaid fl i log c) {g d : FieldDecl F} (hg : g ∈ (scriptProto : ProtoDef F).cls.fields)
    (hd : d ∈ c.fields) (hs : SameField g d) (v : Val F) : Lin.omitted fl d.dflt v = Lin.omitted fl g.dflt v := by
  have ho := h d hd
  cases hl : lastOwn i d.name log with
  | none =>
    rw [hl] at ho
    rw [eq_of_key scriptProto_names ho hg hs.name]
  | some q =>
    rw [hl] at ho
    have hgs : (g.cls = chars "MFString" ∧ g.kind = .mfString ∧ g.dflt = .list (.strs []) ∧ g.default = some (.strs [])) ∨ (g.cls = chars "SFBool" ∧ g.kind = .sfBool ∧ g.dflt = .scalar (.bool false) ∧ g.default = some (.bool false)) := by
      simp only [ProtoDef.cls, scriptProto, externalURL, List.map_cons, List.map_nil, List.mem_cons, List.not_mem_nil, or_false] at hg
      rcases hg with rfl | rfl | rfl | rfl
      · exact .inl ⟨rfl, rfl, rfl, rfl⟩
      · exact .inl ⟨rfl, rfl, rfl, rfl⟩
      · exact .inr ⟨rfl, rfl, rfl, rfl⟩
      · exact .inr ⟨rfl, rfl, rfl, rfl⟩
    have : d.dflt = g.dflt := by
      cases q with
      | none =>
        simp only [DfltSaid] at ho
        rw [ho, hs.cls]
        rcases hgs with ⟨e1, -, e2, -⟩ | ⟨e1, -, e2, -⟩
        · rw [e1, e2, hT.strings]
        · rw [e1, e2, hT.bool]
      | some q =>
        obtain ⟨u, h1, h2⟩ := ho
        have hdef : coerce d.kind d.conv u = g.default := by
          rw [← hs.dflt]
          simp only [FieldDecl.default, h2, dfltOf_value, Option.bind_some]
        rw [hs.kind] at h1 hdef
        rw [h2]
        rcases hgs with ⟨-, e1, e2, e3⟩ | ⟨-, e1, e2, e3⟩
        · rw [e1] at h1 hdef
          rw [e3] at hdef
          cases q with
          | text kids =>
            simp only [meant, simpleValue, reduceCtorEq, if_false, Option.some.injEq] at h1
            subst h1
            simp only [coerce, if_true, Option.some.injEq] at hdef
            rw [hdef, e2]; rfl
          | one o => simp [meant] at h1
          | all os =>
            simp only [meant, reduceCtorEq, if_false, Option.some.injEq] at h1
            subst h1
            have := hlog i d.name os (lastOwn_mem hl)
            simp only [coerce, Option.some.injEq, Val.strs.injEq, List.map_eq_nil_iff] at hdef
            exact absurd hdef this
        · rw [e1] at h1 hdef
          rw [e3] at hdef
          cases q with
          | text kids =>
            simp only [meant, simpleValue, reduceCtorEq, if_false, Option.map_eq_some_iff] at h1
            obtain ⟨b, -, rfl⟩ := h1
            simp only [coerce, if_true, Option.some.injEq] at hdef
            rw [hdef, e2]; rfl
          | one o => simp [meant] at h1
          | all os =>
            simp only [meant, reduceCtorEq, if_false, Option.some.injEq] at h1
            subst h1
            have := hlog i d.name os (lastOwn_mem hl)
            cases os with
            | nil => exact absurd rfl this
            | cons o os => simp [coerce] at hdef
    rw [this]

theorem common_plain {g : FieldDecl F} (hg : g ∈ (scriptProto : ProtoDef F).cls.fields) : g.dfltNodes = [] := scriptProto_fields g hg

/-- A Script that was read is written like the one it comes from. -/
theorem script_rel (hT : StandardDefaults fl) {φ : Nat → Nat} {R : Nat → Prop} {n m : Node F} (hc : SameClass n.cls m.cls) (hD : m.DEF = n.DEF) (hs : n.cls.proto = scriptName)
    (hnd : (n.cls.fields.map FieldDecl.name).Nodup) (hne : (n.cls.events.map EventDecl.name).Nodup)
    (hcommon : ∀ d ∈ n.cls.fields, d.name ∈ scriptAttrs → d ∈ (scriptProto : ProtoDef F).cls.fields)
    {i : Nat} {items : List PTree} {log : List Said} (hA : ScriptAs fl items m.cls) (hO : OwnSaid fl i log m.cls) (hF : Filled log)
    (hv : ∀ d ∈ n.cls.fields, Visible d → ∀ d' ∈ m.cls.fields, d'.name = d.name → d'.read m = (d.read n).map (Val.mapRef φ) ∧ (Declared n.cls d.name → d'.default = d.default.map (Val.mapRef φ)))
    (hr : ∀ d ∈ n.cls.fields, Visible d → ∀ v, d.read n = some v → ∀ j ∈ v.nodes, R j)
    (hdf : ∀ d ∈ n.cls.fields, Visible d → Declared n.cls d.name → ∃ v, d.default = some v ∧ d.read n = some v) : NodeRel fl φ R n m := by
  have hms : m.cls.proto = scriptName := hc.proto.trans hs
  have hmnd := hA.fields_nodup
  have hmne := hA.events_nodup
  have attr : ∀ d ∈ n.cls.fields, ∀ d' ∈ m.cls.fields, d.name ∈ scriptAttrs → SameField d d' → AttrRel fl φ R n m d d' := by
    intro d hd d' hd' hn hsf
    have hvis : Visible d := (visible_iff d).1 (scriptAttrs_visible hn)
    exact ⟨hsf.toSameType, (hv d hd hvis d' hd' hsf.name).1, fun v _ => by
      rw [common_omitted hT hF hO (hcommon d hd hn) hd' hsf]
      exact omitted_mapRef (common_plain (hcommon d hd hn)) v, hr d hd hvis⟩
  have notDecl : ∀ {f : Text}, f ∈ scriptAttrs → ¬ Declared n.cls f := fun h hd => by
    have := (declared_iff hs).1 hd
    simp only [List.contains_iff_mem.2 h] at this
    cases this
  refine ⟨hc.proto, hD, ?_, fun _ => ?_, fun _ => ?_⟩
  · unfold attrFields
    simp only [hs, hms, if_true]
    refine sorted_pairs (key := FieldDecl.name) fieldLe_total (fun _ _ _ => fieldLe_trans) (fun _ _ => fieldLe_antisymm) (hnd.sublist (List.filter_sublist.map _)) (hmnd.sublist (List.filter_sublist.map _)) (fun d hd => ?_) (fun d' hd' => ?_) (fun d d' h => h.type.name)
      (fun a b a' b' ha hb => by unfold Lin.fieldLe; rw [ha.type.cls, ha.type.name, hb.type.cls, hb.type.name])
    · obtain ⟨hd, hn⟩ := List.mem_filter.1 hd
      have hn := List.contains_iff_mem.1 hn
      obtain ⟨d', h1, h2, h3⟩ := hc.fields d hd ((visible_iff d).1 (scriptAttrs_visible hn))
      exact ⟨d', List.mem_filter.2 ⟨h1, by rw [h2.name]; exact List.contains_iff_mem.2 hn⟩, attr d hd d' h1 hn (h3 (notDecl hn))⟩
    · obtain ⟨hd', hn⟩ := List.mem_filter.1 hd'
      have hn := List.contains_iff_mem.1 hn
      obtain ⟨d, h1, h2, h3⟩ := hc.back d' hd' ((visible_iff d').1 (scriptAttrs_visible hn))
      rw [h2.name] at hn
      exact ⟨d, List.mem_filter.2 ⟨h1, List.contains_iff_mem.2 hn⟩, attr d h1 d' hd' hn (h3 (notDecl hn))⟩
  · have := sorted_pairs (key := EventDecl.name) (le := fun a b : EventDecl => textLe a.name b.name) (Q := Eq) (l := n.cls.events.filter (fun e => shownName e.name)) (l' := m.cls.events.filter (fun e => shownName e.name))
      (fun a b => textLe_total _ _) (fun _ _ _ => textLe_trans) (fun _ _ => textLe_antisymm) (hne.sublist (List.filter_sublist.map _)) (hmne.sublist (List.filter_sublist.map _)) (fun e he => ?_) (fun e he => ?_) (fun a b h => by rw [h])
      (fun a b a' b' ha hb => by rw [ha, hb])
    · exact (List.forall₂_eq_eq_eq ▸ this).symm
    · obtain ⟨h1, h2⟩ := List.mem_filter.1 he
      exact ⟨e, List.mem_filter.2 ⟨(hc.events e ((shownName_iff e.name).1 h2)).2 h1, h2⟩, rfl⟩
    · obtain ⟨h1, h2⟩ := List.mem_filter.1 he
      exact ⟨e, List.mem_filter.2 ⟨(hc.events e ((shownName_iff e.name).1 h2)).1 h1, h2⟩, rfl⟩
  · unfold scriptFields
    rw [List.forall₂_map_left_iff, List.forall₂_map_right_iff]
    have decl : ∀ d ∈ n.cls.fields, ∀ d' ∈ m.cls.fields, Visible d → scriptAttrs.contains d.name = false → SameType d d' →
        DeclRel φ R ⟨d, n.cls.exposed.contains d.name⟩ ⟨d', m.cls.exposed.contains d'.name⟩ := by
      intro d hd d' hd' hvis hn hty
      have hdec := (declared_iff hs).2 hn
      obtain ⟨v, q1, q2⟩ := hdf d hd hvis hdec
      refine ⟨?_, hty, (hv d hd hvis d' hd' hty.name).2 hdec, fun u hu j hj => hr d hd hvis v q2 j ?_⟩
      · have := hc.exposed d hd hvis
        simp only
        rw [hty.name, Bool.eq_iff_iff, List.contains_iff_mem, List.contains_iff_mem]
        exact this
      · simp only at hu
        rw [q1] at hu; cases hu; exact hj
    refine sorted_pairs (key := FieldDecl.name) (le := fun a b : FieldDecl F => textLe a.name b.name) (fun a b => textLe_total _ _) (fun _ _ _ => textLe_trans) (fun _ _ => textLe_antisymm) (hnd.sublist (List.filter_sublist.map _)) (hmnd.sublist (List.filter_sublist.map _)) (fun d hd => ?_) (fun d' hd' => ?_)
      (fun d d' h => h.type.name) (fun a b a' b' ha hb => by
        have h1 := ha.type.name
        have h2 := hb.type.name
        simp only at h1 h2 ⊢
        rw [h1, h2])
    · obtain ⟨hd, hn⟩ := List.mem_filter.1 hd
      rw [Bool.and_eq_true, Bool.not_eq_true'] at hn
      have hvis := (visible_iff d).1 hn.2
      obtain ⟨d', h1, h2, -⟩ := hc.fields d hd hvis
      refine ⟨d', List.mem_filter.2 ⟨h1, ?_⟩, decl d hd d' h1 hvis hn.1 h2⟩
      rw [h2.name, Bool.and_eq_true, Bool.not_eq_true']
      exact hn
    · obtain ⟨hd', hn⟩ := List.mem_filter.1 hd'
      rw [Bool.and_eq_true, Bool.not_eq_true'] at hn
      obtain ⟨d, h1, h2, -⟩ := hc.back d' hd' ((visible_iff d').1 hn.2)
      rw [h2.name] at hn
      refine ⟨d, List.mem_filter.2 ⟨h1, ?_⟩, decl d h1 d' hd' ((visible_iff d).1 hn.2) hn.1 h2⟩
      rw [Bool.and_eq_true, Bool.not_eq_true']
      exact hn

end Verif.Full
