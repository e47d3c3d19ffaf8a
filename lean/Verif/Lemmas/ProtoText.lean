import Verif.Spec.ProtoTrip
import Verif.Lemmas.Decls
import Verif.Props.Lineariser
/-!
Lemmas for C67: reading the declarations of a prototype.
-/
namespace Verif.Lin
open Verif.Peg Verif.Grammar Verif.TextOut Verif.Text Verif.SceneText Verif.ListText
variable {F : Type}

/-! ### Declarations: the grammar -/

/-- one declaration -/
def declItem : E := .alt (.nt .fieldDecl) (.nt .eventDecl)

theorem event_der {e : EventDecl} {w r : Text} (hn : LegalName e.name) (ht : TypeName e.type) (hw : Ignorable w) (h0 : w ≠ []) (hr : Meaningful r) :
    ∃ m k1 k2 k3, Der gram declItem (eventText e ++ (w ++ r))
      (.ok [.node .eventDecl m [.node .eventDirection (if e.out then chars "eventOut" else chars "eventIn") k1, .node .dataType e.type k2, .node .name e.name k3]]
        (eventText e ++ w) r) := by
  obtain ⟨k2, hk⟩ := dataType_der (r := [' '] ++ (e.name ++ (w ++ r))) ht (nameEnd_cons (by decide))
  have main : ∀ dir : Text, Der gram (gram .eventDirection) (dir ++ ([' '] ++ (e.type ++ ([' '] ++ (e.name ++ (w ++ r)))))) (.ok [] dir ([' '] ++ (e.type ++ ([' '] ++ (e.name ++ (w ++ r)))))) →
      Der gram (gram .eventDecl) (dir ++ ([' '] ++ (e.type ++ ([' '] ++ (e.name ++ (w ++ r)))))) _ := fun dir hd =>
    .seq (Der.nt (g := gram) (n := NT.eventDirection) hd) (.seq (C07_ignorable_skipped sp_ign (type_mean ht _)) (.seq (.cut hk)
      (.seq (.cut (C07_ignorable_skipped sp_ign (legal_mean hn _))) (.seq (.cut (name_der hn (nameEnd_ign hw h0))) (.cut (C07_ignorable_skipped hw hr))))))
  have hfail : ∀ s : Text, Der gram (.nt .fieldDecl) ('e' :: 'v' :: s) .fail := fun s => run_sound 20 _ _ _ (by rfl)
  cases ho : e.out with
  | false =>
    have h1 := main (chars "eventIn") (.altL (.lit _ _))
    have h2 : Der gram declItem _ _ := .altR (hfail _) (Der.nt (g := gram) (n := NT.eventDecl) h1)
    exact ⟨_, _, _, _, by simpa [eventText, ho] using h2⟩
  | true =>
    have h1 := main (chars "eventOut") (.altR (.litFail (by simp)) (.lit _ _))
    have h2 : Der gram declItem _ _ := .altR (hfail _) (Der.nt (g := gram) (n := NT.eventDecl) h1)
    exact ⟨_, _, _, _, by simpa [eventText, ho] using h2⟩

theorem field_der {f : PField F} {pre V w r : Text} {t : PTree} (hn : LegalName f.decl.name) (ht : TypeName f.decl.cls) (hpre : Ignorable pre) (hV : VStart V)
    (hf : Der gram (.nt .field) (V ++ (w ++ r)) (.ok [t] (V ++ w) r)) (hr : Meaningful r) :
    ∃ m k1 k2 k3, Der gram declItem (fieldHead f ++ (pre ++ V) ++ (w ++ r))
      (.ok [.node .fieldDecl m [.node .fieldExposure (if f.exposed then chars "exposedField" else chars "field") k1, .node .dataType f.decl.cls k2, .node .name f.decl.name k3, t]]
        (fieldHead f ++ (pre ++ V) ++ w) r) := by
  obtain ⟨k2, hk⟩ := dataType_der (r := [' '] ++ (f.decl.name ++ (([' '] ++ pre) ++ (V ++ (w ++ r))))) ht (nameEnd_cons (by decide))
  have main : ∀ dir : Text, Der gram (gram .fieldExposure) (dir ++ ([' '] ++ (f.decl.cls ++ ([' '] ++ (f.decl.name ++ (([' '] ++ pre) ++ (V ++ (w ++ r)))))))) (.ok [] dir ([' '] ++ (f.decl.cls ++ ([' '] ++ (f.decl.name ++ (([' '] ++ pre) ++ (V ++ (w ++ r)))))))) →
      Der gram (gram .fieldDecl) (dir ++ ([' '] ++ (f.decl.cls ++ ([' '] ++ (f.decl.name ++ (([' '] ++ pre) ++ (V ++ (w ++ r)))))))) _ := fun dir hd =>
    .seq (Der.nt (g := gram) (n := NT.fieldExposure) hd) (.seq (C07_ignorable_skipped sp_ign (type_mean ht _)) (.seq (.cut hk)
      (.seq (.cut (C07_ignorable_skipped sp_ign (legal_mean hn _))) (.seq (.cut (name_der hn (nameEnd_cons (by decide))))
        (.seq (.cut (C07_ignorable_skipped (sp_ign.append hpre) (hV.mean _))) (.seq (.cut hf) (.cut (C07_ignorable_skipped (s := []) .nil hr))))))))
  cases ho : f.exposed with
  | false =>
    have h1 := main (chars "field") (.altL (.lit _ _))
    have h2 : Der gram declItem _ _ := .altL (Der.nt (g := gram) (n := NT.fieldDecl) h1)
    exact ⟨_, _, _, _, by simpa [fieldHead, ho] using h2⟩
  | true =>
    have h1 := main (chars "exposedField") (.altR (lit_fail1 (by decide)) (.lit _ _))
    have h2 : Der gram declItem _ _ := .altL (Der.nt (g := gram) (n := NT.fieldDecl) h1)
    exact ⟨_, _, _, _, by simpa [fieldHead, ho] using h2⟩

theorem declItem_bracket (s : Text) : Der gram declItem (']' :: s) .fail := run_sound 30 _ _ _ (by rfl)
theorem next_bracket (s : Text) : Next (']' :: s) := ⟨meaningful_head (by decide) (by decide), run_sound 30 _ _ _ (by rfl)⟩

/-! ### Declarations: their effect -/

section
variable (lk : Text → Option (Class F)) (fl : Floats F)
/-- `T` is read as a declaration with one of the effects `U`. -/
def DeclText (T : Text) (U : (ProtoDef F → ProtoDef F) → Prop) : Prop :=
  (∀ r, Next (T ++ r)) ∧ ∀ w r, Ignorable w → w ≠ [] → Next r → ∃ t upd, Der gram declItem (T ++ (w ++ r)) (.ok [t] (T ++ w) r) ∧ U upd ∧
    ∀ rs p, readDecl lk fl rs p t = some (upd p)
end

variable {lk : Text → Option (Class F)} {fl : Floats F} {lv : LinValues}

theorem event_text {e : EventDecl} (hn : LegalName e.name) (ht : TypeName e.type) (h1 : reserved e.name = false) (h2 : fl.types.event e.type = true)
    (h3 : e.name ≠ chars "externalURL") : DeclText lk fl (eventText e) (fun u => u = fun p => p.addEvent e) := by
  constructor
  · intro r
    have := next_decl (k := if e.out then chars "eventOut" else chars "eventIn") (r := [' '] ++ e.name ++ r) (by split <;> simp) ht
    simpa [eventText] using this
  · intro w r hw h0 hr
    obtain ⟨m, k1, k2, k3, hd⟩ := event_der (e := e) hn ht hw h0 hr.1
    refine ⟨_, _, hd, rfl, fun rs p => ?_⟩
    obtain ⟨nm, ty, o⟩ := e
    simp only [readDecl, h1, h2, Bool.false_or, beq_iff_eq, if_neg h3]
    cases o <;> rfl

/-- The same interface field. -/
structure SamePField (f f' : PField F) : Prop where
  decl : SameField f.decl f'.decl
  exposed : f'.exposed = f.exposed

theorem plain_indent (hlv : GoodOptions lv) : PlainOptions { lv with curindent := lv.indent } :=
  ⟨hlv.plain.subelspacer, hlv.plain.indent, hlv.plain.indent, hlv.plain.numsep, hlv.plain.fullSep, hlv.plain.courtesyspace, hlv.plain.numsep_ne, hlv.plain.subelspacer_ne⟩

theorem simpleValue_plain {k : Kind} {kids : List PTree} {u : Val F} (h : simpleValue fl k kids = some u) : u.plain = true := by
  unfold simpleValue at h
  split at h
  all_goals first
    | (simp only [Option.map_eq_some_iff] at h; obtain ⟨x, -, rfl⟩ := h; rfl)
    | (simp only [Option.some.injEq] at h; subst h; rfl)
    | cases h

theorem field_text (hlv : GoodOptions lv) {f : PField F} (hn : LegalName f.decl.name) (h1 : reserved f.decl.name = false) (ht : TypeName f.decl.cls)
    (h2 : fl.types.field f.decl.cls = some ⟨f.decl.kind, f.decl.str, f.decl.conv⟩) (hd : GoodDefault fl f.decl) :
    ∃ T, defaultText lv f.decl = .ok T ∧ DeclText lk fl (fieldHead f ++ T) (fun u => ∃ f', u = (fun p => p.addField f') ∧ SamePField f f') := by
  obtain ⟨v, hv, hg⟩ := hd
  obtain ⟨u0, hu0, hc0⟩ := Option.bind_eq_some_iff.1 hv
  -- from a text of the value to the declaration
  have key : ∀ T pre V, T = pre ++ V → Ignorable pre → VStart V → (∀ w r, Ignorable w → w ≠ [] → Next r → ∃ t, Der gram (.nt .field) (V ++ (w ++ r)) (.ok [t] (V ++ w) r) ∧
      ∃ rv u, (∀ rs : RSt F, disp lk fl t none (some f.decl.kind) rs = some (rv, rs)) ∧ rv.toVal = some u ∧ u.plain = true ∧
        coerce f.decl.kind f.decl.conv u = some v) →
      DeclText lk fl (fieldHead f ++ T) (fun u => ∃ f', u = (fun p => p.addField f') ∧ SamePField f f') := by
    rintro T pre V rfl hpre hV h
    constructor
    · intro r
      have := next_decl (k := if f.exposed then chars "exposedField" else chars "field") (r := [' '] ++ f.decl.name ++ [' '] ++ (pre ++ V) ++ r) (by split <;> simp) ht
      simpa [fieldHead] using this
    · intro w r hw h0 hr
      obtain ⟨t, e1, rv, u, e2, e3, e4, e6⟩ := h w r hw h0 hr
      obtain ⟨m, k1, k2, k3, hd⟩ := field_der (f := f) hn ht hpre hV e1 hr.1
      refine ⟨_, _, hd, ⟨⟨⟨f.decl.name, f.decl.cls, f.decl.kind, f.decl.str, f.decl.conv, dfltOf u⟩, f.exposed⟩, rfl, ⟨⟨⟨rfl, rfl, rfl, rfl, rfl⟩, ?_⟩, rfl⟩⟩, fun rs p => ?_⟩
      · rw [hv]; simp only [FieldDecl.default, dfltOf_value, Option.bind_some, e6]
      · have he : decide ((if f.exposed = true then chars "exposedField" else chars "field") = chars "exposedField") = f.exposed := by cases f.exposed <;> decide
        simp only [readDecl, h1, h2, e2 rs, e3, e4, Bool.false_eq_true, if_false, if_true, he]
  have simple : (∀ o, v ≠ .ref o) → (∀ l, v ≠ .refs l) → (∀ l, v ≠ .strs l) → Readable fl f.decl v → defaultText lv f.decl = simpleText lv f.decl v →
      ∃ T, defaultText lv f.decl = .ok T ∧ DeclText lk fl (fieldHead f ++ T) (fun u => ∃ f', u = (fun p => p.addField f') ∧ SamePField f f') := by
    intro g1 g2 g3 hread htext
    obtain ⟨T, e1, e2, e3⟩ := simple_read hlv hread g1 g2 g3
    refine ⟨T, by rw [htext, e1], key T [] T rfl .nil e2 (fun w r hw h0 hr => ?_)⟩
    obtain ⟨m, kids, a1, a2, a3, a4, u, a5, a6⟩ := e3 w r hw h0 hr
    exact ⟨_, a1, .val u, u, fun rs => disp_field_simple lk fl a2 a3 a5, rfl, simpleValue_plain a5, a6⟩
  cases v with
  | ref o =>
    obtain ⟨rfl, hk⟩ := hg
    refine ⟨['N', 'U', 'L', 'L'], by simp only [defaultText, hu0, hc0], key _ [] _ rfl .nil (vstart_char (by decide) (by decide) (by decide) (by decide)) (fun w r hw h0 hr => ?_)⟩
    refine ⟨_, field_null hw hr, .ref none, .ref none, fun rs => ?_, rfl, rfl, by simp [coerce, hk]⟩
    rw [hk, disp_field_one lk fl (by rfl)]; simp [disp]
  | refs l =>
    obtain ⟨rfl, hk⟩ := hg
    refine ⟨[' ', '['] ++ lv.courtesyspace ++ [']'], by simp only [defaultText, hu0, hc0], key _ [' '] (['['] ++ lv.courtesyspace ++ [']']) (by simp) sp_ign
      (vstart_char (by decide) (by decide) (by decide) (by decide)) (fun w r hw h0 hr => ?_)⟩
    refine ⟨_, field_empty hlv.plain.courtesyspace hw hr, .val (.refs []), .refs [], fun rs => ?_, rfl, rfl, by simp [coerce, hk]⟩
    rw [hk]; exact disp_field_none lk fl
  | strs l =>
    refine ⟨mfStringStr { lv with curindent := lv.indent } l, by simp only [defaultText, hu0, hc0], key _ [] _ rfl .nil (mfString_vstart _ l) (fun w r hw h0 hr => ?_)⟩
    obtain ⟨t, a1, a2, a3⟩ := mfstring_der (plain_indent hlv) l hw hr.1 (fun _ => hr.2)
    have hk : f.decl.kind = .mfString := hg
    obtain ⟨m, kids, rfl⟩ : ∃ m kids, t = .node .field m kids := by cases a1; exact ⟨_, _, rfl⟩
    refine ⟨_, a1, .val (.strs l), .strs l, fun rs => ?_, rfl, rfl, by simp [coerce, hk]⟩
    refine disp_field_simple lk fl (fun k hkk => by rw [a3 k hkk]; rfl) (by simp [hk]) ?_
    rw [hk]
    simp only [ParseVal.Tree.kids] at a2
    simp only [simpleValue, a2]
  | bool b => exact simple (by simp) (by simp) (by simp) hg (by simp only [defaultText, hu0, hc0])
  | int b => exact simple (by simp) (by simp) (by simp) hg (by simp only [defaultText, hu0, hc0])
  | num b => exact simple (by simp) (by simp) (by simp) hg (by simp only [defaultText, hu0, hc0])
  | str b => exact simple (by simp) (by simp) (by simp) hg (by simp only [defaultText, hu0, hc0])
  | ints b => exact simple (by simp) (by simp) (by simp) hg (by simp only [defaultText, hu0, hc0])
  | nums b => exact simple (by simp) (by simp) (by simp) hg (by simp only [defaultText, hu0, hc0])
  | rows b => exact simple (by simp) (by simp) (by simp) hg (by simp only [defaultText, hu0, hc0])

/-! ### All declarations -/

/-- the effect of declaring field `f` -/
def FieldUpd (f : PField F) (u : ProtoDef F → ProtoDef F) : Prop := ∃ f', u = (fun p => p.addField f') ∧ SamePField f f'
/-- the effect of declaring event `e` -/
def EventUpd (e : EventDecl) (u : ProtoDef F → ProtoDef F) : Prop := u = fun p => p.addEvent e

/-- separator between declarations -/
def declSep (lv : LinValues) : Text := lv.fullSep ++ lv.indent

theorem fields_texts (hlv : GoodOptions lv) : ∀ l : List (PField F), (∀ f ∈ l, LegalName f.decl.name ∧ reserved f.decl.name = false ∧ TypeName f.decl.cls ∧
      fl.types.field f.decl.cls = some ⟨f.decl.kind, f.decl.str, f.decl.conv⟩ ∧ GoodDefault fl f.decl) →
    ∃ Ts : List Text, fieldsText lv l = .ok ((Ts.map (declSep lv ++ ·)).flatten) ∧ List.Forall₂ (fun U T => DeclText lk fl T U) (l.map FieldUpd) Ts := by
  intro l
  induction l with
  | nil => intro _; exact ⟨[], rfl, .nil⟩
  | cons f l ih =>
    intro h
    obtain ⟨h1, h2, h3, h4, h5⟩ := h f (by simp)
    obtain ⟨T, e1, e2⟩ := field_text (lk := lk) hlv h1 h2 h3 h4 h5
    obtain ⟨Ts, e3, e4⟩ := ih (fun g hg => h g (by simp [hg]))
    refine ⟨(fieldHead f ++ T) :: Ts, ?_, .cons e2 e4⟩
    simp only [fieldsText, e1, e3, declSep]
    simp

theorem readDecls_cons {rs : RSt F} {t x : PTree} {ts : List PTree} {p p' : ProtoDef F} (h : readDecl lk fl rs p t = some p') :
    readDecls lk fl rs (t :: (ts ++ [x])) p = readDecls lk fl rs (ts ++ [x]) p' := by
  cases ts with
  | nil => simp only [List.nil_append, readDecls, h]
  | cons a ts => simp only [List.cons_append, readDecls, h]

theorem decls_star {sep : Text} (hsep : Ignorable sep) (hsep0 : sep ≠ []) : ∀ (Us : List ((ProtoDef F → ProtoDef F) → Prop)) (Ts : List Text),
    List.Forall₂ (fun U T => DeclText lk fl T U) Us Ts → ∀ w r, Ignorable w → w ≠ [] →
    ∃ w0 m ts ups, (Ts.map (sep ++ ·)).flatten ++ (w ++ ']' :: r) = w0 ++ (m ++ ']' :: r) ∧ Ignorable w0 ∧ w0 ≠ [] ∧ Next (m ++ ']' :: r) ∧
      Der gram (.star declItem) (m ++ ']' :: r) (.ok ts m (']' :: r)) ∧ List.Forall₂ (fun U u => U u) Us ups ∧
      ∀ rs p x, readDecls lk fl rs (ts ++ [x]) p = readDecls lk fl rs [x] (ups.foldl (fun p u => u p) p) := by
  intro Us Ts h
  induction h with
  | nil =>
    intro w r hw h0
    exact ⟨w, [], [], [], by simp, hw, h0, next_bracket r, .starNil (declItem_bracket r), .nil, fun rs p x => rfl⟩
  | @cons U T Us Ts hU _ ih =>
    intro w r hw h0
    obtain ⟨w0, m, ts, ups, e1, e2, e3, e4, e5, e6, e7⟩ := ih w r hw h0
    obtain ⟨t, upd, d1, d2, d3⟩ := hU.2 w0 (m ++ ']' :: r) e2 e3 e4
    have hne : T ++ w0 ≠ [] := by simp [e3]
    have hstar := Der.starCons d1 (by simpa using hne) e5
    refine ⟨sep, T ++ (w0 ++ m), t :: ts, upd :: ups, ?_, hsep, hsep0, ?_, by simpa using hstar, .cons d2 e6, fun rs p x => ?_⟩
    · simp only [List.map_cons, List.flatten_cons, List.append_assoc] at e1 ⊢
      rw [e1]
    · have := hU.1 (w0 ++ (m ++ ']' :: r))
      simpa using this
    · rw [List.cons_append, readDecls_cons (d3 rs p), e7]; rfl

theorem upds_events : ∀ (Es : List EventDecl) (ups : List (ProtoDef F → ProtoDef F)), List.Forall₂ (fun U u => U u) (Es.map EventUpd) ups →
    ups = Es.map (fun e p => p.addEvent e) := by
  intro Es
  induction Es with
  | nil => intro ups h; cases h; rfl
  | cons e Es ih =>
    intro ups h
    cases h with
    | cons h1 h2 => simp only [List.map_cons]; rw [← ih _ h2, h1]

theorem upds_fields : ∀ (Fs : List (PField F)) (ups : List (ProtoDef F → ProtoDef F)), List.Forall₂ (fun U u => U u) (Fs.map FieldUpd) ups →
    ∃ Gs, ups = Gs.map (fun f p => p.addField f) ∧ List.Forall₂ SamePField Fs Gs := by
  intro Fs
  induction Fs with
  | nil => intro ups h; cases h; exact ⟨[], rfl, .nil⟩
  | cons e Es ih =>
    intro ups h
    cases h with
    | cons h1 h2 =>
      obtain ⟨f', rfl, h3⟩ := h1
      obtain ⟨Gs, rfl, h4⟩ := ih _ h2
      exact ⟨f' :: Gs, rfl, .cons h3 h4⟩

end Verif.Lin
