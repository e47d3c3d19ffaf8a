import Verif.Props.Lineariser
/-!
C71: Script nodes.
-/
namespace Verif.Lin
open Verif.TextOut Verif.Text Verif.SceneText Verif.ListText Verif.Peg Verif.Grammar
variable {F : Type}

/-- **C71** The interface of a Script survives writing and reading: in every good scene, every Script comes back as a Script with
the same DEF name, the same events, and, for every field it declares, one with the same name, type and exposure, whose default and
value are the old ones (nodes in them being the nodes read for them). -/
theorem C71_interface_round_trip {lk : Text → Option (Class F)} {fl : Floats F} {lv : LinValues} {sc : Scene F} {all : List Nat} {fuel : Nat}
    (hlv : GoodOptions lv) (h : GoodScene lk fl sc all) (hsl : ScriptLines lv sc) (hf : all.length < fuel) :
    ∃ text named read φ, linearise lv fl sc fuel = .ok (text, named) ∧ Reads lk fl text read ∧
      ∀ i n, Reach sc i → sc.heap i = some n → n.cls.proto = chars "Script" →
        ∃ m, read.heap (φ i) = some m ∧ m.cls.proto = chars "Script" ∧ (n.DEF ≠ [] → m.DEF = n.DEF) ∧
          (∀ e : EventDecl, e.Visible → (e ∈ m.cls.events ↔ e ∈ n.cls.events)) ∧
          ∀ d ∈ n.cls.fields, Visible d → Declared n.cls d.name → ∃ d' ∈ m.cls.fields, d'.name = d.name ∧ d'.cls = d.cls ∧ d'.kind = d.kind ∧
            (d.name ∈ m.cls.exposed ↔ d.name ∈ n.cls.exposed) ∧
            ∃ v, d.default = some v ∧ d'.default = some (v.mapRef φ) ∧ d'.read m = some (v.mapRef φ) := by
  obtain ⟨text, named, read, φ, h1, h2, h3, h4⟩ := C09_round_trip hlv h hsl hf
  refine ⟨text, named, read, φ, h1, h3, fun i n hi hn hp => ?_⟩
  obtain ⟨n', m, hn', hm, hcls, hdef, hfields⟩ := h4.nodes i (h2.reach hi)
  rcases h2.node i with ⟨e1, -⟩ | ⟨n1, m1, e1, e2, e3, e4, e5⟩
  · rw [hn] at e1; cases e1
  rw [hn] at e1; cases e1
  rw [hn'] at e2; cases e2
  rw [e3] at hcls hfields
  refine ⟨m, hm, hcls.proto.trans hp, fun hne => by rw [hdef, e5 hne], hcls.events, fun d hd hv hdecl => ?_⟩
  obtain ⟨d', hd', hs, -⟩ := hcls.fields d hd hv
  have hgood := h.nodes i n hi hn
  obtain ⟨hsh, v, hdv, hrv⟩ := hgood.plain.decls d hd hv hdecl
  have hsh' : Shown named i d := ⟨hv, fun nm hmap => hsh.2 nm (by
    obtain ⟨dict, l, q1, q2, q3⟩ := hmap
    exact ⟨dict, l, by rw [← h2.is]; exact q1, q2, q3⟩)⟩
  obtain ⟨r1, r2⟩ := hfields d hd hsh' d' hd' hs.name
  refine ⟨d', hd', hs.name, hs.cls, hs.kind, hcls.exposed d hd hv, v, hdv, ?_, ?_⟩
  · rw [r2 hdecl, hdv]; rfl
  · rw [r1]
    have : d.read n' = some v := by
      rw [← hrv]; simp only [FieldDecl.read, e4]
    rw [this]; rfl

/-! ### A scene with a Script -/

/-- The class of a Script with three fields and two events. -/
def exScriptClass : Class Int :=
  ⟨chars "Script", (scriptProto : ProtoDef Int).fields.map PField.decl ++
    [⟨chars "limit", chars "SFFloat", .sfFloat, intStr, id, .scalar (.num 5)⟩,
     ⟨chars "words", chars "MFString", .mfString, fun _ => [], id, .list (.strs [chars "a b", chars "say \"c\""])⟩,
     ⟨chars "targets", chars "MFNode", .mfNode, intStr, id, .list (.refs [some 1, some 0])⟩],
    [], [chars "externalURL", chars "url"], [⟨chars "start", chars "SFTime", false⟩, ⟨chars "done", chars "SFTime", true⟩]⟩

/-- A Script that refers to a node and to itself, and a route to it. -/
def exScript : Scene Int :=
  ⟨fun i => if i = 0 then some ⟨exScriptClass, chars "S", fun _ => none⟩ else if i = 1 then some (exNode [] 5 [] none) else none,
    [0], [⟨1, chars "x", 0, chars "limit"⟩], [(chars "S", 0)], none⟩

theorem exScript_reach {i : Nat} (h : Reach exScript i) : i = 0 ∨ i = 1 := by
  induction h with
  | child h => simp [exScript] at h; exact .inl h
  | @field i j n d v _ hn hd hv hr hj ih =>
    rcases ih with rfl | rfl <;> cases hn
    · simp only [exScriptClass, scriptProto, externalURL, List.map_cons, List.map_nil, List.cons_append, List.nil_append, List.mem_cons, List.not_mem_nil, or_false] at hd
      rcases hd with rfl | rfl | rfl | rfl | rfl | rfl | rfl <;> (cases hr; simp [Val.nodes] at hj; try omega)
    · simp only [exNode, exClass, List.mem_cons, List.not_mem_nil, or_false] at hd
      rcases hd with rfl | rfl | rfl <;> (cases hr; simp [Val.nodes] at hj; try omega)

theorem exScript_good : GoodScene exLookup exFloats exScript [0, 1] := by
  have r0 : Reach exScript 0 := .child (by simp [exScript])
  have hno : ∀ i f nm, ¬ IsMapped exScript i f nm := by rintro i f nm ⟨d, l, h1, -⟩; cases h1
  have hread : Reach exScript 1 := .field r0 rfl (d := ⟨chars "targets", chars "MFNode", .mfNode, intStr, id, .list (.refs [some 1, some 0])⟩)
    (by simp [exScriptClass]) ⟨⟨by decide, fun s => by simp⟩, hno _ _⟩ rfl (by simp [Val.nodes])
  have hfields : ∀ d ∈ exScriptClass.fields, d ∈ [(externalURL : PField Int).decl, ⟨chars "url", chars "MFString", .mfString, fun _ => [], id, .list (.strs [])⟩,
      ⟨chars "directOutput", chars "SFBool", .sfBool, fun _ => [], id, .scalar (.bool false)⟩, ⟨chars "mustEvaluate", chars "SFBool", .sfBool, fun _ => [], id, .scalar (.bool false)⟩,
      ⟨chars "limit", chars "SFFloat", .sfFloat, intStr, id, .scalar (.num 5)⟩,
      ⟨chars "words", chars "MFString", .mfString, fun _ => [], id, .list (.strs [chars "a b", chars "say \"c\""])⟩,
      ⟨chars "targets", chars "MFNode", .mfNode, intStr, id, .list (.refs [some 1, some 0])⟩] := fun d hd => hd
  refine ⟨⟨?_, ⟨fun i hi => by simpa using exScript_reach hi, ?_⟩, ?_, ?_, ?_⟩, by simp [exScript], rfl⟩
  · intro i n hi hn
    rcases exScript_reach hi with rfl | rfl <;> cases hn
    · refine ⟨.inr ⟨rfl, ?_, rfl, ?_, ?_, ?_, ?_⟩, .inr (by decide), show (exScriptClass.fields.map FieldDecl.name).Nodup by decide, ?_, ?_, ?_,
        fun f nm h => absurd h (hno 0 f nm), fun f nm nm' h => absurd h (hno 0 f nm), fun d _ hin => absurd hin (List.not_mem_nil)⟩
      · intro g hg
        refine ⟨g.decl, List.mem_append_left _ (List.mem_map_of_mem hg), rfl, fun _ => ⟨⟨⟨rfl, rfl, rfl, rfl, rfl⟩, rfl⟩, ?_⟩⟩
        simp only [scriptProto, List.mem_cons, List.not_mem_nil, or_false] at hg
        rcases hg with rfl | rfl | rfl | rfl <;> decide
      · intro d hd _ hdecl
        have hd := hfields d hd
        simp only [List.mem_cons, List.not_mem_nil, or_false] at hd
        rcases hd with rfl | rfl | rfl | rfl | rfl | rfl | rfl
        · exact ⟨by decide, by decide, ⟨chars "String", by decide, .inr rfl⟩, rfl, _, rfl, rfl, .inl ⟨_, rfl, rfl⟩⟩
        · exact absurd rfl hdecl.2.1
        · exact absurd rfl hdecl.2.2.1
        · exact absurd rfl hdecl.2.2.2
        · exact ⟨by decide, by decide, ⟨chars "Float", by decide, .inl rfl⟩, rfl, _, rfl, rfl, .inr ⟨rfl, exRestored 5⟩⟩
        · exact ⟨by decide, by decide, ⟨chars "String", by decide, .inr rfl⟩, rfl, _, rfl, rfl, .inl ⟨_, rfl, rfl⟩⟩
        · exact ⟨by decide, by decide, ⟨chars "Node", by decide, .inr rfl⟩, rfl, _, rfl, rfl, .inr ⟨rfl, by decide⟩⟩
      · intro e he _
        simp only [exScriptClass, List.mem_cons, List.not_mem_nil, or_false] at he
        rcases he with rfl | rfl <;> exact ⟨by decide, by decide, ⟨chars "Time", by decide, .inl rfl⟩, by decide⟩
      · intro e he d hd
        have hd := hfields d hd
        simp only [List.mem_cons, List.not_mem_nil, or_false] at hd
        simp only [exScriptClass, List.mem_cons, List.not_mem_nil, or_false] at he
        rcases he with rfl | rfl <;> rcases hd with rfl | rfl | rfl | rfl | rfl | rfl | rfl <;> decide
      · decide
      · intro d hd _ hnd
        have hd := hfields d hd
        simp only [List.mem_cons, List.not_mem_nil, or_false] at hd
        rcases hd with rfl | rfl | rfl | rfl | rfl | rfl | rfl <;> first | decide | exact absurd ⟨rfl, by decide, by decide, by decide⟩ hnd
      · intro d hd _ hnd v hr ho
        have hd := hfields d hd
        simp only [List.mem_cons, List.not_mem_nil, or_false] at hd
        rcases hd with rfl | rfl | rfl | rfl | rfl | rfl | rfl <;> first | (cases hr; exact ⟨rfl, rfl⟩) | exact absurd ⟨rfl, by decide, by decide, by decide⟩ hnd
      · intro d hd _ hnd v hr ho
        have hd := hfields d hd
        simp only [List.mem_cons, List.not_mem_nil, or_false] at hd
        rcases hd with rfl | rfl | rfl | rfl | rfl | rfl | rfl <;> first | (cases hr; cases ho) | exact absurd ⟨rfl, by decide, by decide, by decide⟩ hnd
    · exact exGood rfl _ _ _ _ _ (by decide) (by decide)
  · intro i hi
    rcases exScript_reach hi with rfl | rfl
    · refine ⟨_, rfl, fun d hd _ => ?_⟩
      have hd := hfields d hd
      simp only [List.mem_cons, List.not_mem_nil, or_false] at hd
      rcases hd with rfl | rfl | rfl | rfl | rfl | rfl | rfl <;> exact ⟨_, rfl, fun _ _ => ⟨_, rfl⟩⟩
    · refine ⟨_, rfl, fun d hd _ => ?_⟩
      simp only [exNode, exClass, List.mem_cons, List.not_mem_nil, or_false] at hd
      rcases hd with rfl | rfl | rfl <;> exact ⟨_, rfl, fun _ _ => ⟨_, rfl⟩⟩
  · intro j n l l' hl hl' hn hD hr
    have hj : Reach exScript j := by
      cases hl with
      | child h => exact .child (List.mem_of_getElem? h)
      | field h1 h2 h3 h4 h5 h6 => exact .field h1 h2 h3 h4 h5 (List.mem_of_getElem? h6)
    rcases exScript_reach hj with rfl | rfl
    · cases hn; cases hD
    · exact absurd rfl (hr ⟨1, chars "x", 0, chars "limit"⟩ (by simp [exScript])).1
  · intro i n hi hn hD
    rcases exScript_reach hi with rfl | rfl <;> cases hn
    · rfl
    · exact absurd rfl hD
  · intro r hr
    simp only [exScript, List.mem_cons, List.not_mem_nil, or_false] at hr
    subst hr
    exact ⟨hread, r0, by decide, by decide⟩

example : ∃ text named read φ, linearise defaults exFloats exScript 3 = .ok (text, named) ∧ Renamed exScript named ∧
    Reads exLookup exFloats text read ∧ SameScene named read φ := C09_round_trip goodDefaults exScript_good (fun _ _ _ _ _ => by decide) (by decide)

/-- The text, as the writer of the repository writes it. -/
def exScriptText : Text := header ++ chars "DEF S  Script {\n\t\teventOut SFTime done\n\t\teventIn SFTime start\n\t\texposedField MFString externalURL [ ]\n\t\tfield SFFloat limit 5\n\t\tfield MFNode targets [ \n\t\t\t\tDEF Group_0 Group {\n\t\t\t\t\tx\t5\n\t\t\t\t\tgeo\tNULL\n\t\t\t\t}\n\t\t\t\tUSE S\n\t\t\t]\n\t\tfield MFString words [ \"a b\", \"say \\\"c\\\"\" ]\n\t}#DEF S \n\nROUTE Group_0.x TO S.limit"

example : writtenText defaults exFloats exScript 3 = some exScriptText := by decide +kernel

/-! ### What does not survive -/

/-- `b` differs from `a` only in the values of fields that Scripts declare, and in the IS declarations of such fields. -/
structure SameButDeclared (a b : Scene F) : Prop where
  children : b.children = a.children
  routes : b.routes = a.routes
  defs : b.defs = a.defs
  is : b.is = a.is ∨ (b.is = none ∧ ∀ i f nm, IsMapped a i f nm → ∃ n, a.heap i = some n ∧ Declared n.cls f)
  node : ∀ i, (a.heap i = none ∧ b.heap i = none) ∨ ∃ n m, a.heap i = some n ∧ b.heap i = some m ∧ m.cls = n.cls ∧ m.DEF = n.DEF ∧
    ∀ f, ¬ Declared n.cls f → m.dict f = n.dict f

theorem isLookup_skip {i : Nat} {f : Text} : ∀ {l : List (Text × List (Nat × Text))} {cur}, (∀ nm l', (nm, l') ∈ l → (i, f) ∉ l') → isLookup i f cur l = cur := by
  intro l
  induction l with
  | nil => intro cur _; rfl
  | cons p l ih =>
    intro cur h
    obtain ⟨nm, l'⟩ := p
    have : l'.contains (i, f) = false := by
      have := h nm l' (by simp)
      simpa using this
    simp only [isLookup, this]
    exact ih (fun nm l' hl => h nm l' (by simp [hl]))

theorem SameButDeclared.isOf {a b : Scene F} (h : SameButDeclared a b) {i n f} (hn : a.heap i = some n) (hd : ¬ Declared n.cls f) : b.isOf i f = a.isOf i f := by
  rcases h.is with h1 | ⟨h1, h2⟩
  · simp only [Scene.isOf, h1]
  · simp only [Scene.isOf, h1]
    cases ha : a.is with
    | none => rfl
    | some dict =>
      simp only
      refine (isLookup_skip fun nm l' hl hin => ?_).symm
      obtain ⟨n', e1, e2⟩ := h2 i f nm ⟨dict, l', ha, hl, hin⟩
      rw [hn] at e1; cases e1
      exact hd e2

theorem attrFields_plain {c : Class F} {d : FieldDecl F} (h : d ∈ attrFields c) : ¬ Declared c d.name := by
  have := (sortBy_perm _ _).mem_iff.1 h
  rintro ⟨h1, h2, h3, h4⟩
  have h5 := (List.mem_filter.1 this).2
  have h1' : c.proto = scriptName := h1
  simp only [h1', if_true, scriptAttrs, List.contains_eq_mem, List.mem_cons, List.not_mem_nil, or_false, decide_eq_true_eq] at h5
  rcases h5 with h5 | h5 | h5
  · exact h2 h5
  · exact h4 h5
  · exact h3 h5

theorem linAttrs_congr {lv : LinValues} {fl : Floats F} {lin : St → Nat → Res St} {n m : Node F} {isn isn' : Text → Option Text} :
    ∀ {l : List (FieldDecl F)} {st : St}, (∀ d ∈ l, m.dict d.name = n.dict d.name ∧ isn' d.name = isn d.name) →
      linAttrs lv fl lin m isn' st l = linAttrs lv fl lin n isn st l := by
  intro l
  induction l with
  | nil => intro st _; rfl
  | cons d l ih =>
    intro st h
    obtain ⟨h1, h2⟩ := h d (by simp)
    have hr : d.read m = d.read n := by simp only [FieldDecl.read, h1]
    have ih' := fun st => ih (st := st) (fun d hd => h d (by simp [hd]))
    simp only [linAttrs, hr, h2, ih']

theorem linNode_congr {lv : LinValues} {fl : Floats F} {a b : Scene F} (h : SameButDeclared a b) : ∀ fuel st i, linNode lv fl b fuel st i = linNode lv fl a fuel st i := by
  intro fuel
  induction fuel with
  | zero => intro st i; rfl
  | succ fuel ih =>
    intro st i
    have hf : linNode lv fl b fuel = linNode lv fl a fuel := by funext st i; exact ih st i
    rcases h.node i with ⟨h1, h2⟩ | ⟨n, m, h1, h2, h3, h4, h5⟩
    · simp only [linNode, h1, h2]
    · have hattr : ∀ st, linAttrs lv fl (linNode lv fl a fuel) m (b.isOf i) st (attrFields n.cls) = linAttrs lv fl (linNode lv fl a fuel) n (a.isOf i) st (attrFields n.cls) :=
        fun st => linAttrs_congr (fun d hd => ⟨h5 _ (attrFields_plain hd), h.isOf h1 (attrFields_plain hd)⟩)
      have hclose : ∀ st start k, closing lv st m start k = closing lv st n start k := by intro st start k; simp only [closing, h3, h4]
      simp only [linNode, h1, h2, h3, h4, hf, hattr, hclose]

theorem nameEnd_congr {a b : Scene F} (h : SameButDeclared a b) (i : Nat) : SameButDeclared (nameEnd a i) (nameEnd b i) := by
  rcases h.node i with ⟨h1, h2⟩ | ⟨n, m, h1, h2, h3, h4, h5⟩
  · simpa only [nameEnd, h1, h2] using h
  · simp only [nameEnd, h1, h2, h3, h4, h.defs]
    split
    · exact h
    · have hfree : ∀ fuel k, freeName b n.cls.proto fuel k = freeName a n.cls.proto fuel k := by
        intro fuel
        induction fuel with
        | zero => intro k; rfl
        | succ fuel ih => intro k; simp only [freeName, Scene.getDEF, h.defs, ih]; congr
      rw [hfree]
      split
      · rename_i name _
        have hdef : b.defOf i = a.defOf i := by simp [Scene.defOf, h1, h2, h4]
        refine ⟨h.children, h.routes, by simp only [Scene.regDefName, hdef, h.defs], ?_, fun j => ?_⟩
        · rcases h.is with q | ⟨q1, q2⟩
          · exact .inl q
          · refine .inr ⟨q1, fun j f nm hj => ?_⟩
            obtain ⟨n', e1, e2⟩ := q2 j f nm hj
            by_cases hji : j = i
            · subst hji
              rw [h1] at e1; cases e1
              exact ⟨{ n with DEF := name }, by simp [Scene.regDefName, h1], e2⟩
            · exact ⟨n', by simp [Scene.regDefName, hji, e1], e2⟩
        · by_cases hji : j = i
          · subst hji
            exact .inr ⟨{ n with DEF := name }, { m with DEF := name }, by simp [Scene.regDefName, h1], by simp [Scene.regDefName, h2], h3, rfl, h5⟩
          · simpa [Scene.regDefName, hji] using h.node j
      · exact h

theorem preroute_congr {a b : Scene F} (h : SameButDeclared a b) : SameButDeclared (preroute a) (preroute b) := by
  unfold preroute
  rw [h.routes]
  generalize a.routes = l
  induction l generalizing a b with
  | nil => exact h
  | cons r l ih => exact ih (nameEnd_congr (nameEnd_congr h _) _)

/-- **C71** (finding) The writer looks neither at the values of the fields a Script declares nor at IS declarations of such fields:
scenes that differ only there are written as the same text (or fail both).  So a value that is not the default is lost, and so is
the connection of a Script in a prototype with the prototype's interface. -/
theorem C71_refuted_values_survive {lv : LinValues} {fl : Floats F} {a b : Scene F} (h : SameButDeclared a b) (fuel : Nat) :
    (linearise lv fl b fuel).map Prod.fst = (linearise lv fl a fuel).map Prod.fst ∧ (linBody lv fl b fuel).map (fun st => textOf st.out) = (linBody lv fl a fuel).map (fun st => textOf st.out) := by
  have key : ∀ {a b : Scene F}, SameButDeclared a b → linBody lv fl b fuel = linBody lv fl a fuel := by
    intro a b h
    have hf : linNode lv fl b fuel = linNode lv fl a fuel := by funext st i; exact linNode_congr h fuel st i
    have hd : b.defOf = a.defOf := by
      funext i
      rcases h.node i with ⟨h1, h2⟩ | ⟨n, m, h1, h2, h3, h4, h5⟩
      · simp [Scene.defOf, h1, h2]
      · simp [Scene.defOf, h1, h2, h4]
    simp only [linBody, hf, h.children, h.routes, hd]
  refine ⟨?_, by rw [key h]⟩
  simp only [linearise, key (preroute_congr h)]
  cases linBody lv fl (preroute a) fuel <;> rfl

/-- the number, if it is one -/
def Val.number : Val F → Option F
  | .num x => some x
  | _ => none

/-- The Script of `exScript` with another value for `limit`. -/
def exScript7 : Scene Int := { exScript with heap := fun i => if i = 0 then some ⟨exScriptClass, chars "S", fun f => if f = chars "limit" then some (.num 7) else none⟩ else exScript.heap i }

theorem exScript7_same : SameButDeclared exScript exScript7 := by
  refine ⟨rfl, rfl, rfl, .inl rfl, fun i => ?_⟩
  by_cases h0 : i = 0
  · subst h0
    refine .inr ⟨_, _, rfl, rfl, rfl, rfl, fun f hf => ?_⟩
    by_cases hl : f = chars "limit"
    · subst hl; exact absurd ⟨rfl, by decide, by decide, by decide⟩ hf
    · simp [hl]
  · by_cases h1 : i = 1
    · subst h1; exact .inr ⟨_, _, rfl, rfl, rfl, rfl, fun f hf => rfl⟩
    · exact .inl ⟨by simp [exScript, h0, h1], by simp [exScript7, exScript, h0, h1]⟩

/-- **C71** (finding) A Script whose field has a value other than its default: written, read, and the value is the default. -/
theorem C71_refuted_value_lost : writtenText defaults exFloats exScript7 3 = some exScriptText ∧ (∃ read, Reads exLookup exFloats exScriptText read) ∧
    ∀ read, Reads exLookup exFloats exScriptText read → read.children = [0] ∧
      ((read.heap 0).bind (fun n => (n.cls.fields.find? (fun d => d.name == chars "limit")).bind (fun d => d.read n))).bind Val.number = some 5 := by
  have h := reads_fact (lk := exLookup) (fl := exFloats) (fuel := 600) (text := exScriptText)
    (f := fun s => (s.children, ((s.heap 0).bind (fun n => (n.cls.fields.find? (fun d => d.name == chars "limit")).bind (fun d => d.read n))).bind Val.number))
    (x := ([0], some 5)) (by decide +kernel)
  exact ⟨by decide +kernel, h.1, fun read hr => by simpa using h.2 read hr⟩

/-- A Script in the body of a prototype, its field `limit` declared as `limit IS max`. -/
def exScriptIs : Scene Int := { exScript with is := some [(chars "max", [(0, chars "limit")])] }

example : SameButDeclared exScriptIs exScript := by
  refine ⟨rfl, rfl, rfl, .inr ⟨rfl, ?_⟩, fun i => ?_⟩
  · rintro i f nm ⟨dict, l, h1, h2, h3⟩
    cases h1
    simp only [List.mem_singleton, Prod.mk.injEq] at h2
    obtain ⟨-, rfl⟩ := h2
    simp only [List.mem_singleton, Prod.mk.injEq] at h3
    obtain ⟨rfl, rfl⟩ := h3
    exact ⟨_, rfl, rfl, by decide, by decide, by decide⟩
  · cases h : exScript.heap i with
    | none => exact .inl ⟨h, rfl⟩
    | some n => exact .inr ⟨n, n, h, rfl, rfl, rfl, fun _ _ => rfl⟩

/-- **C71** The names that no declaration may have: those that node classes use for something else, and those that begin with two underscores. -/
theorem C71_reserved_names (nm : Text) : reserved nm = true ↔ nm = chars "DEF" ∨ nm = chars "PROTO" ∨ nm = chars "scenegraph" ∨ nm = chars "rootSceneGraph" ∨ nm = chars "copy" ∨
    nm = chars "toString" ∨ nm = chars "instantiate" ∨ nm = chars "renderedChildren" ∨ ∃ r, nm = '_' :: '_' :: r := by
  have hp : List.isPrefixOf ['_', '_'] nm = true ↔ ∃ r, nm = '_' :: '_' :: r := by
    rw [List.isPrefixOf_iff_prefix]
    exact ⟨fun ⟨r, h⟩ => ⟨r, h.symm⟩, fun ⟨r, h⟩ => ⟨r, h.symm⟩⟩
  simp only [reserved, Bool.or_eq_true, hp, List.contains_eq_mem, List.mem_cons, List.not_mem_nil, or_false, decide_eq_true_eq, or_assoc]

end Verif.Lin
