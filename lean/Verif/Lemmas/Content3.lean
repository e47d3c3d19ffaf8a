import Verif.Lemmas.Content2
/-!
The interfaces that Scripts declare.
-/
namespace Verif.Full
open Verif.Peg Verif.Grammar Verif.TextOut Verif.SceneText Verif.Reader Verif.Scopes
open Verif.Lin hiding disp dispList dispDecls dispAttrs disp_node disp_attr
variable {F : Type} {base : Text → Option (Class F)} {fl : Floats F}

/-- what `ScriptAs` says about one name -/
def SHas (fl : Floats F) (x : Text) (o : Option Written) (p : ProtoDef F) : Prop :=
  match o with
  | none => p.fields.filter (fun g => g.decl.name == x) = (scriptProto : ProtoDef F).fields.filter (fun g => g.decl.name == x) ∧ p.events.filter (fun e => e.name == x) = []
  | some (.field word ty nm value) => Has fl x (some (.field word ty nm value)) p
  | some (.event word ty nm) => Has fl x (some (.event word ty nm)) p

theorem shas_of {x : Text} {o : Option Written} {p p' : ProtoDef F} (h : SHas fl x o p) (hf : p'.fields.filter (fun g => g.decl.name == x) = p.fields.filter (fun g => g.decl.name == x))
    (he : p'.events.filter (fun g => g.name == x) = p.events.filter (fun g => g.name == x)) : SHas fl x o p' := by
  unfold SHas at h ⊢
  split
  · rw [hf, he]; exact h
  · exact has_of h hf he
  · exact has_of h hf he

theorem lastItem_cons (t : PTree) (ts : List PTree) (x : Text) :
    lastItem (t :: ts) x = (lastItem ts x).or ((scriptWritten t).filter (fun d => d.name == x)) := by
  unfold lastItem
  cases h : scriptWritten t with
  | none => rw [List.filterMap_cons_none h]; simp
  | some d =>
    rw [List.filterMap_cons_some h]
    by_cases hx : d.name = x
    · simp only [List.filter_cons, hx, beq_self_eq_true, if_true, Option.filter, List.getLast?_cons]
      cases (List.filter (fun d => d.name == x) (List.filterMap scriptWritten ts)).getLast? <;> rfl
    · have : (d.name == x) = false := by simpa using hx
      simp [this, Option.filter]

/-- a name that is declared -/
theorem addField_here {p : ProtoDef F} {word ty nm value} {f : PField F} (hf : FieldAs fl word ty nm value f) : Has fl nm (some (.field word ty nm value)) (p.addField f) := by
  have hn : f.decl.name = nm := hf.1
  refine ⟨⟨f, ?_, hf⟩, fun e he => ?_⟩
  · simp only [ProtoDef.addField, List.filter_append, List.filter_filter, hn]
    rw [List.filter_eq_nil_iff.2 (fun a _ => by simp), List.nil_append, List.filter_cons, if_pos (by simp [hn]), List.filter_nil]
  · simp only [ProtoDef.addField, List.mem_filter, hn] at he
    simpa using he.2

theorem addField_shas {x : Text} {o : Option Written} {p : ProtoDef F} {word ty nm value} {f : PField F} (hf : FieldAs fl word ty nm value f) (h : SHas fl x o p) :
    SHas fl x (((some (Written.field word ty nm value)).filter (fun d => d.name == x)).or o) (p.addField f) := by
  have hn : f.decl.name = nm := hf.1
  by_cases hx : nm = x
  · subst hx
    simp only [Option.filter, Written.name, beq_self_eq_true, if_true, Option.or, SHas]
    exact addField_here hf
  · have hb : (nm == x) = false := by simpa using hx
    simp only [Option.filter, Written.name, hb, Bool.false_eq_true, if_false, Option.none_or]
    refine shas_of h ?_ ?_
    · simp only [ProtoDef.addField, List.filter_append, List.filter_filter, hn]
      rw [List.filter_cons, if_neg (by simp [hn, hx]), List.filter_nil, List.append_nil]
      refine List.filter_congr (fun a _ => ?_)
      by_cases ha : a.decl.name = x
      · simp [ha, Ne.symm hx]
      · simp [ha]
    · simp only [ProtoDef.addField, List.filter_filter, hn]
      refine List.filter_congr (fun a _ => ?_)
      by_cases ha : a.name = x
      · simp [ha, Ne.symm hx]
      · simp [ha]

theorem addEvent_shas {x : Text} {o : Option Written} {p : ProtoDef F} {word ty nm} (hty : fl.types.event ty = true) (h : SHas fl x o p) :
    SHas fl x (((some (Written.event word ty nm)).filter (fun d => d.name == x)).or o) (p.addEvent ⟨nm, ty, decide (word = chars "eventOut")⟩) := by
  by_cases hx : nm = x
  · subst hx
    simp only [Option.filter, Written.name, beq_self_eq_true, if_true, Option.or, SHas, Has]
    refine ⟨fun e he => ?_, ?_, hty⟩
    · simp only [ProtoDef.addEvent, List.mem_filter] at he
      simpa using he.2
    · simp only [ProtoDef.addEvent, List.filter_append, List.filter_filter]
      rw [List.filter_eq_nil_iff.2 (fun a _ => by simp), List.nil_append, List.filter_cons, if_pos (by simp), List.filter_nil]
  · have hb : (nm == x) = false := by simpa using hx
    simp only [Option.filter, Written.name, hb, Bool.false_eq_true, if_false, Option.none_or]
    refine shas_of h ?_ ?_
    · simp only [ProtoDef.addEvent, List.filter_filter]
      refine List.filter_congr (fun a _ => ?_)
      by_cases ha : a.decl.name = x
      · simp [ha, Ne.symm hx]
      · simp [ha]
    · simp only [ProtoDef.addEvent, List.filter_append, List.filter_filter]
      rw [List.filter_cons, if_neg (by simp [hx]), List.filter_nil, List.append_nil]
      refine List.filter_congr (fun a _ => ?_)
      by_cases ha : a.name = x
      · simp [ha, Ne.symm hx]
      · simp [ha]

theorem mem_exposed {p : ProtoDef F} {x : Text} : x ∈ p.cls.exposed ↔ ∃ f ∈ p.fields.filter (fun g => g.decl.name == x), f.exposed = true := by
  simp only [ProtoDef.cls, List.mem_map, List.mem_filter, beq_iff_eq]
  exact ⟨fun ⟨f, ⟨h1, h2⟩, h3⟩ => ⟨f, ⟨h1, h3⟩, h2⟩, fun ⟨f, ⟨h1, h3⟩, h2⟩ => ⟨f, ⟨h1, h2⟩, h3⟩⟩

theorem cls_filter {p : ProtoDef F} {x : Text} : p.cls.fields.filter (fun d => d.name == x) = (p.fields.filter (fun g => g.decl.name == x)).map PField.decl := by
  simp only [ProtoDef.cls, List.filter_map]; rfl

theorem scriptAs_of {items : List PTree} {p : ProtoDef F} (hn : p.name = scriptName) (h : ∀ x, SHas fl x (lastItem items x) p) : ScriptAs fl items p.cls := by
  refine ⟨hn, fun x => ?_⟩
  have hx := h x
  generalize lastItem items x = o at hx
  rcases o with _ | ⟨word, ty, nm, value⟩ | ⟨word, ty, nm⟩
  · obtain ⟨h1, h2⟩ := hx
    refine ⟨by rw [cls_filter, cls_filter, h1], by rw [mem_exposed, mem_exposed, h1], fun e he hxe => ?_⟩
    have : e ∈ p.events.filter (fun e => e.name == x) := List.mem_filter.2 ⟨he, by simp [hxe]⟩
    rw [h2] at this; cases this
  · obtain ⟨⟨f, h1, h2⟩, h3⟩ := hx
    exact ⟨⟨f, by rw [cls_filter, h1]; rfl, h2, by rw [mem_exposed, h1]; simpa using h2.2.2.1⟩, h3⟩
  · obtain ⟨h1, h2, h3⟩ := hx
    refine ⟨fun d hd => ?_, h2, h3⟩
    obtain ⟨f, hf, rfl⟩ := cls_fields hd
    exact h1 f hf

/-- the fields of the interface of Script `i` have the values that are said -/
def OwnP (fl : Floats F) (i : Nat) (log : List Said) (p p' : ProtoDef F) : Prop :=
  ∀ f ∈ p'.fields, match lastOwn i f.decl.name log with
    | none => f ∈ p.fields
    | some g => DfltSaid fl f.decl g

theorem OwnP.trans {i : Nat} {l l' : List Said} {p q r : ProtoDef F} (h : OwnP fl i l p q) (h' : OwnP fl i l' q r) : OwnP fl i (l ++ l') p r := by
  intro f hf
  have h2 := h' f hf
  rw [lastOwn_append]
  cases hl : lastOwn i f.decl.name l' with
  | some g => rw [hl] at h2; exact h2
  | none => rw [hl] at h2; exact h f h2

theorem OwnP.skip {i : Nat} {l l' : List Said} {p q : ProtoDef F} (h : OwnP fl i l p q) (hl : ∀ nm g, .own i nm g ∉ l') : OwnP fl i (l' ++ l) p q := by
  intro f hf
  have h2 := h f hf
  rw [lastOwn_append, lastOwn_none (fun g => hl _ g), Option.or_none]
  exact h2

theorem lastOwn_one (i : Nat) (x nm : Text) (g : Option Given) : lastOwn i x [.own i nm g] = if nm = x then some g else none := by
  simp only [lastOwn]
  by_cases h : nm = x <;> simp [h]

theorem addField_own {i : Nat} {p : ProtoDef F} {f : PField F} {g : Option Given} (h : DfltSaid fl f.decl g) : OwnP fl i [.own i f.decl.name g] p (p.addField f) := by
  intro f' hf'
  rw [lastOwn_one]
  simp only [ProtoDef.addField, List.mem_append, List.mem_filter, List.mem_singleton] at hf'
  rcases hf' with ⟨h1, h2⟩ | rfl
  · rw [if_neg (Ne.symm (by simpa using h2))]; exact h1
  · rw [if_pos rfl]; exact h

theorem addEvent_own {i : Nat} {p : ProtoDef F} {e : EventDecl} : OwnP fl i [] p (p.addEvent e) := fun _ hf => addEvent_fields hf

theorem ownSaid_of {i : Nat} {l : List Said} {p : ProtoDef F} (h : OwnP fl i l scriptProto p) : OwnSaid fl i l p.cls := by
  intro d hd
  obtain ⟨f, hf, rfl⟩ := cls_fields hd
  have := h f hf
  cases hl : lastOwn i f.decl.name l with
  | some g => rw [hl] at this; exact this
  | none => rw [hl] at this; exact List.mem_map.2 ⟨f, this, rfl⟩

theorem scriptWritten_field {m ex a ty b nm c} {value : PTree} (h : isTarget value = none) :
    scriptWritten (.node .scriptFieldDecl m [.node .fieldExposure ex a, .node .dataType ty b, .node .name nm c, value]) = some (.field ex ty nm (some value)) := by
  obtain ⟨t, x, k⟩ := value
  cases t <;> first | rfl | cases h

/-- the value of a declared field, as said -/
theorem mkField_said {ex ty nm : Text} {f : PField F} {v : Val F} {ft} {g : Given} (hft : fl.types.field ty = some ft) (hm : meant fl ft.kind g = some v) (h : mkField fl ex ty nm (dfltOf v) = some f) :
    f.decl.name = nm ∧ DfltSaid fl f.decl (some g) := by
  unfold mkField at h
  split at h
  · cases h
  · rw [hft] at h
    cases h
    exact ⟨rfl, v, hm, rfl⟩

theorem mkField_said_none {ex ty nm : Text} {f : PField F} (h : mkField fl ex ty nm (fl.types.dflt ty) = some f) : f.decl.name = nm ∧ DfltSaid fl f.decl none := by
  unfold mkField at h
  split at h
  · cases h
  · obtain ⟨ft, -, rfl⟩ := Option.map_eq_some_iff.1 h
    exact ⟨rfl, rfl⟩

theorem addField_dflt {k : Nat} {p : ProtoDef F} {f : PField F} {g : Option Given} (h : DfltSaid fl f.decl g) : ∀ f' ∈ (p.addField f).fields,
    match lastDflt k f'.decl.name [.dflt k f.decl.name g] with
    | none => f' ∈ p.fields ∨ f' = externalURL
    | some g => DfltSaid fl f'.decl g ∨ f' = externalURL := by
  intro f' hf'
  have key : lastDflt k f'.decl.name [.dflt k f.decl.name g] = if f.decl.name = f'.decl.name then some g else none := by
    simp only [lastDflt]
    by_cases h : f.decl.name = f'.decl.name <;> simp [h]
  rw [key]
  simp only [ProtoDef.addField, List.mem_append, List.mem_filter, List.mem_singleton] at hf'
  rcases hf' with ⟨h1, h2⟩ | rfl
  · rw [if_neg (Ne.symm (by simpa using h2))]; exact .inl h1
  · rw [if_pos rfl]; exact .inl h

end Verif.Full
