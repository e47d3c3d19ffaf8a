import Verif.Props.ProtoText
/-!
C68: what becomes of external prototypes.
-/
namespace Verif.Lin
open Verif.Peg Verif.Grammar Verif.TextOut Verif.Text Verif.SceneText Verif.ListText
variable {F : Type}
variable {base : Text → Option (Class F)} {fl : Floats F} {lv : LinValues} {fuel depth : Nat}

/-- an interface declaration of an external prototype -/
def extItem : E := .alt (.nt .extFieldDecl) (.nt .eventDecl)

theorem ext_event {e : EventDecl} {w r : Text} (hn : LegalName e.name) (ht : TypeName e.type) (hw : Ignorable w) (h0 : w ≠ []) (hr : Meaningful r) :
    ∃ ts, Der gram extItem (eventText e ++ (w ++ r)) (.ok ts (eventText e ++ w) r) := by
  obtain ⟨m, k1, k2, k3, h⟩ := event_der (e := e) hn ht hw h0 hr
  have hfail : ∀ s : Text, Der gram (.nt .fieldDecl) ('e' :: 'v' :: s) .fail := fun s => run_sound 20 _ _ _ (by rfl)
  have hfail' : ∀ s : Text, Der gram (.nt .extFieldDecl) ('e' :: 'v' :: s) .fail := fun s => run_sound 20 _ _ _ (by rfl)
  obtain ⟨s, hs⟩ : ∃ s, eventText e ++ (w ++ r) = 'e' :: 'v' :: s := by
    unfold eventText
    cases e.out
    · exact ⟨_, by simp; rfl⟩
    · exact ⟨_, by simp; rfl⟩
  cases h with
  | altL h => rw [hs] at h; cases h.det _ (hfail s)
  | altR _ h => exact ⟨_, .altR (hs ▸ hfail' s) h⟩

theorem ext_events {sep Z mZ rZ : Text} {tsZ : List PTree} (hsep : Ignorable sep) (hsep0 : sep ≠ []) (hZ : Meaningful Z)
    (hd : Der gram (.star extItem) Z (.ok tsZ mZ rZ)) : ∀ l : List EventDecl, (∀ e ∈ l, LegalName e.name ∧ TypeName e.type) →
    ∃ Y m ts, (l.map (fun e => sep ++ eventText e)).flatten ++ (sep ++ Z) = sep ++ Y ∧ Meaningful Y ∧ Der gram (.star extItem) Y (.ok ts m rZ) := by
  intro l
  induction l with
  | nil => intro _; exact ⟨Z, mZ, tsZ, by simp, hZ, hd⟩
  | cons e l ih =>
    intro h
    obtain ⟨h1, h2⟩ := h e (by simp)
    obtain ⟨Y, m, ts, e1, e2, e3⟩ := ih (fun e he => h e (by simp [he]))
    obtain ⟨ts', hder⟩ := ext_event (r := Y) h1 h2 hsep hsep0 e2
    refine ⟨eventText e ++ (sep ++ Y), _, _, by simp [← e1], ?_, .starCons hder ?_ e3⟩
    · unfold eventText
      cases e.out <;> exact meaningful_head (by decide) (by decide)
    · unfold eventText
      cases e.out <;> simp

/-- A text at which the declarations of an external prototype cannot go on or end. -/
def Stuck (V : Text) : Prop := ∃ c s, V = c :: s ∧ isBlank c = false ∧ c ≠ '#' ∧ c ≠ ']' ∧ c ≠ 'e' ∧ c ≠ 'f'

theorem Stuck.mean {V : Text} (h : Stuck V) (r : Text) : Meaningful (V ++ r) := by
  obtain ⟨c, s, rfl, h1, h2, -⟩ := h
  exact meaningful_head h1 h2

theorem Stuck.item {V : Text} (h : Stuck V) (r : Text) : Der gram extItem (V ++ r) .fail := by
  obtain ⟨c, s, rfl, h1, h2, h3, h4, h5⟩ := h
  refine .altR (.ntFail (.seqFail1 (.ntFail (.altR (lit_fail1 h5.symm) (lit_fail1 h4.symm))))) (.ntFail (.seqFail1 (.ntFail ?_)))
  exact .altR (lit_fail1 h4.symm) (lit_fail1 h4.symm)

theorem Stuck.bracket {V : Text} (h : Stuck V) (r : Text) : Der gram (kw "]") (V ++ r) .fail := by
  obtain ⟨c, s, rfl, h1, h2, h3, h4, h5⟩ := h
  exact lit_fail1 h3.symm

theorem ext_field {f : PField F} {pre V r : Text} (hn : LegalName f.decl.name) (ht : TypeName f.decl.cls) (hpre : Ignorable pre) (hV : Stuck V) :
    ∃ m ts, Der gram (.star extItem) (fieldHead f ++ (pre ++ V) ++ r) (.ok ts m (V ++ r)) := by
  obtain ⟨k2, hk⟩ := dataType_der (r := [' '] ++ (f.decl.name ++ (([' '] ++ pre) ++ (V ++ r)))) ht (nameEnd_cons (by decide))
  have main : ∀ dir : Text, Der gram (gram .fieldExposure) (dir ++ ([' '] ++ (f.decl.cls ++ ([' '] ++ (f.decl.name ++ (([' '] ++ pre) ++ (V ++ r))))))) (.ok [] dir ([' '] ++ (f.decl.cls ++ ([' '] ++ (f.decl.name ++ (([' '] ++ pre) ++ (V ++ r))))))) →
      Der gram (gram .extFieldDecl) (dir ++ ([' '] ++ (f.decl.cls ++ ([' '] ++ (f.decl.name ++ (([' '] ++ pre) ++ (V ++ r))))))) _ := fun dir hd =>
    .seq (Der.nt (g := gram) (n := NT.fieldExposure) hd) (.seq (C07_ignorable_skipped sp_ign (type_mean ht _)) (.seq (.cut hk)
      (.seq (.cut (C07_ignorable_skipped sp_ign (legal_mean hn _))) (.seq (.cut (name_der hn (nameEnd_cons (by decide))))
        (.cut (C07_ignorable_skipped (sp_ign.append hpre) (hV.mean _)))))))
  cases ho : f.exposed with
  | false =>
    have h1 := main (chars "field") (.altL (.lit _ _))
    have h2 : Der gram extItem _ _ := .altL (Der.nt (g := gram) (n := NT.extFieldDecl) h1)
    have h3 := Der.starCons h2 (by simp) (.starNil (hV.item r))
    exact ⟨_, _, by simpa [fieldHead, ho] using h3⟩
  | true =>
    have h1 := main (chars "exposedField") (.altR (lit_fail1 (by decide)) (.lit _ _))
    have h2 : Der gram extItem _ _ := .altL (Der.nt (g := gram) (n := NT.extFieldDecl) h1)
    have h3 := Der.starCons h2 (by simp) (.starNil (hV.item r))
    exact ⟨_, _, by simpa [fieldHead, ho] using h3⟩

theorem stuck_num {c : Char} {s : Text} (h : isExpChar c = true) : Stuck (c :: s) := by
  have := expChar_props h
  exact ⟨c, s, rfl, this.1, this.2.1, by rintro rfl; exact absurd h (by decide), by rintro rfl; exact absurd h (by decide), by rintro rfl; exact absurd h (by decide)⟩

theorem stuck_char {c : Char} {s : Text} (h : c ∈ ['"', '[', 'T', 'F', 'N']) : Stuck (c :: s) := by
  simp only [List.mem_cons, List.not_mem_nil, or_false] at h
  rcases h with rfl | rfl | rfl | rfl | rfl <;> exact ⟨_, _, rfl, by decide, by decide, by decide, by decide, by decide⟩

theorem simple_stuck (hlv : GoodOptions lv) {d : FieldDecl F} {v : Val F} (hv : Readable fl d v)
    (hr : ∀ o, v ≠ .ref o) (hrs : ∀ l, v ≠ .refs l) (hstr : ∀ l, v ≠ .strs l) : ∃ T, simpleText lv d v = .ok T ∧ Stuck T := by
  cases v with
  | ref o => exact absurd rfl (hr o)
  | refs l => exact absurd rfl (hrs l)
  | strs l => exact absurd rfl (hstr l)
  | bool b => exact ⟨sfBoolStr b, rfl, by cases b <;> exact stuck_char (by decide)⟩
  | int n =>
    obtain ⟨c, s, hs, hc⟩ := (intStr_numTok n).head
    exact ⟨sfInt32Str n, rfl, by simp only [sfInt32Str, hs]; exact stuck_num hc⟩
  | num x =>
    obtain ⟨hk, htok, y, hy, hc⟩ := hv
    obtain ⟨c, s, hs, hc'⟩ := htok.head
    exact ⟨sfFloatStr (d.str x), rfl, by rw [hs]; exact stuck_num hc'⟩
  | str s =>
    obtain ⟨t, ht⟩ := str_head s
    exact ⟨sfStringStr s, rfl, by rw [ht]; exact stuck_char (by decide)⟩
  | ints l =>
    obtain ⟨text, h1, h2⟩ := mfSimple_form hlv.plain (l.map intStr)
    refine ⟨text, by simp [simpleText, h1], ?_⟩
    obtain ⟨w0, m, w1, rfl, -⟩ := h2
    exact stuck_char (by decide)
  | nums l =>
    rcases hv with ⟨hk, hl⟩ | ⟨hk, h0, hl⟩
    · obtain ⟨text, h1, h2⟩ := mfSimple_form hlv.plain (l.map d.str)
      refine ⟨text, by simp [simpleText, hk, h1], ?_⟩
      obtain ⟨w0, m, w1, rfl, -⟩ := h2
      exact stuck_char (by decide)
    · have hh := fun w r hw hr => field_numbers hlv.plain (l.map (fun x => sfFloatStr (d.str x))) (by simpa using h0) (restored_tok l hl) (w := w) (r := r) hw hr
      refine ⟨pyJoin lv.numsep (l.map (fun x => sfFloatStr (d.str x))), by simp [simpleText, hk, sfVecStr, Function.comp_def], ?_⟩
      obtain ⟨-, c, s, hs, hc⟩ := hh lv.fullSep ['}'] hlv.plain.fullSep hlv.sep (next_brace [])
      rw [hs]; exact stuck_num hc
  | rows l =>
    obtain ⟨n, hk, hn1, hn2, hl⟩ := hv
    obtain ⟨text, h1, h2⟩ := C05_every_component_written hlv.plain hn1 hn2 (l.map (List.map d.str)) (by
      intro row hrow
      obtain ⟨row', h, rfl⟩ := List.mem_map.1 hrow
      simpa using (hl row' h).1)
    refine ⟨text, by simp [simpleText, hk, h1], ?_⟩
    obtain ⟨w0, m, w1, rfl, -⟩ := h2
    exact stuck_char (by decide)

theorem mfString_stuck (lv : LinValues) (l : List Text) : Stuck (mfStringStr lv l) := by
  have hb : ∀ s, Stuck ('[' :: s) := fun s => stuck_char (by decide)
  have hq : ∀ s, Stuck (sfStringStr s) := fun s => by
    obtain ⟨t, ht⟩ := str_head s
    rw [ht]; exact stuck_char (by decide)
  have one : l ≠ [] → ¬ (l.map sfStringStr).length > 1 → ∃ s, l = [s] := by
    intro h1 h2
    cases l with
    | nil => exact absurd rfl h1
    | cons a l => cases l with
      | nil => exact ⟨a, rfl⟩
      | cons b l => simp at h2
  unfold mfStringStr
  split
  · exact hb _
  · rename_i h0
    simp only
    split
    · split
      · simp only [List.append_assoc, List.cons_append, List.nil_append]; exact hb _
      · rename_i h1
        obtain ⟨s, rfl⟩ := one h0 h1
        simpa using hq s
    · split
      · simp only [List.append_assoc, List.cons_append, List.nil_append]; exact hb _
      · rename_i h1
        obtain ⟨s, rfl⟩ := one h0 h1
        simpa [pyJoin] using hq s

/-- The text of a default is not what the declarations of an external prototype allow. -/
theorem default_stuck (hlv : GoodOptions lv) {d : FieldDecl F} (hd : GoodDefault fl d) :
    ∃ pre V, defaultText lv d = .ok (pre ++ V) ∧ Ignorable pre ∧ Stuck V := by
  obtain ⟨v, hv, hg⟩ := hd
  obtain ⟨u0, hu0, hc0⟩ := Option.bind_eq_some_iff.1 hv
  have simple : (∀ o, v ≠ .ref o) → (∀ l, v ≠ .refs l) → (∀ l, v ≠ .strs l) → Readable fl d v → defaultText lv d = simpleText lv d v →
      ∃ pre V, defaultText lv d = .ok (pre ++ V) ∧ Ignorable pre ∧ Stuck V := by
    intro g1 g2 g3 hr ht
    obtain ⟨T, e1, e2⟩ := simple_stuck hlv hr g1 g2 g3
    exact ⟨[], T, by rw [ht, e1]; rfl, .nil, e2⟩
  cases v with
  | ref o =>
    obtain ⟨rfl, hk⟩ := hg
    exact ⟨[], _, by simp only [defaultText, hu0, hc0]; rfl, .nil, stuck_char (c := 'N') (s := ['U', 'L', 'L']) (by decide)⟩
  | refs l =>
    obtain ⟨rfl, hk⟩ := hg
    exact ⟨[' '], ['['] ++ lv.courtesyspace ++ [']'], by simp only [defaultText, hu0, hc0]; simp, sp_ign, stuck_char (by decide)⟩
  | strs l => exact ⟨[], _, by simp only [defaultText, hu0, hc0]; rfl, .nil, mfString_stuck _ l⟩
  | bool b => exact simple (by simp) (by simp) (by simp) hg (by simp only [defaultText, hu0, hc0])
  | int b => exact simple (by simp) (by simp) (by simp) hg (by simp only [defaultText, hu0, hc0])
  | num b => exact simple (by simp) (by simp) (by simp) hg (by simp only [defaultText, hu0, hc0])
  | str b => exact simple (by simp) (by simp) (by simp) hg (by simp only [defaultText, hu0, hc0])
  | ints b => exact simple (by simp) (by simp) (by simp) hg (by simp only [defaultText, hu0, hc0])
  | nums b => exact simple (by simp) (by simp) (by simp) hg (by simp only [defaultText, hu0, hc0])
  | rows b => exact simple (by simp) (by simp) (by simp) hg (by simp only [defaultText, hu0, hc0])

/-- An interface that can be written: legal names, type names, defaults; the field `externalURL` every class inherits. -/
structure GoodInterface (fl : Floats F) (p : ProtoDef F) : Prop where
  legal : LegalName p.name
  fields : ∀ f ∈ p.fields, Visible f.decl → LegalName f.decl.name ∧ TypeName f.decl.cls ∧ GoodDefault fl f.decl
  events : ∀ e ∈ p.events, e.Visible → LegalName e.name ∧ TypeName e.type
  inherited : externalURL ∈ p.fields

theorem GoodProto.interface {lk : Text → Option (Class F)} {x : Text} {p : ProtoDef F} (h : GoodProto lk fl fuel x p) : GoodInterface fl p :=
  ⟨h.name ▸ h.legal, fun f hf hv => ⟨(h.fields f hf hv).1, (h.fields f hf hv).2.2.1, (h.fields f hf hv).2.2.2.2⟩,
    fun e he hv => ⟨(h.events e he hv).1, (h.events e he hv).2.2.1⟩, h.inherited⟩

/-- The declarations are written, and the reader stops at the first default. -/
theorem interface_text (hlv : GoodOptions lv) {p : ProtoDef F} (h : GoodInterface fl p) : ∃ ft, fieldsText lv (declFields p.fields) = .ok ft ∧
    ∀ r, ∃ Y ts m V r', eventsText lv lv.indent p.events ++ ft ++ r = declSep lv ++ Y ∧ Meaningful Y ∧ Der gram (.star extItem) Y (.ok ts m (V ++ r')) ∧ Stuck V := by
  have hin : externalURL ∈ declFields p.fields := by
    simp only [declFields, (sortBy_perm _ _).mem_iff, List.mem_filter]
    exact ⟨h.inherited, rfl⟩
  have hall : ∀ f ∈ declFields p.fields, LegalName f.decl.name ∧ TypeName f.decl.cls ∧ GoodDefault fl f.decl := by
    intro f hf
    simp only [declFields, (sortBy_perm _ _).mem_iff, List.mem_filter, Bool.and_eq_true, shownName_iff] at hf
    exact h.fields f hf.1 hf.2.2
  have hft : ∀ l : List (PField F), (∀ f ∈ l, GoodDefault fl f.decl) → ∃ ft, fieldsText lv l = .ok ft := by
    intro l
    induction l with
    | nil => intro _; exact ⟨[], rfl⟩
    | cons f l ih =>
      intro hl
      obtain ⟨pre, V, e1, -⟩ := default_stuck hlv (hl f (by simp))
      obtain ⟨ft, e2⟩ := ih (fun f hf => hl f (by simp [hf]))
      exact ⟨_, by simp only [fieldsText, e1, e2]; rfl⟩
  cases hl : declFields p.fields with
  | nil => rw [hl] at hin; cases hin
  | cons f l =>
    rw [hl] at hall
    obtain ⟨g1, g2, g3⟩ := hall f (by simp)
    obtain ⟨pre, V, e1, e2, e3⟩ := default_stuck hlv g3
    obtain ⟨ft, e4⟩ := hft l (fun f hf => (hall f (by simp [hf])).2.2)
    refine ⟨_, by simp only [fieldsText, e1, e4]; rfl, fun r => ?_⟩
    obtain ⟨m, ts, d1⟩ := ext_field (r := ft ++ r) g1 g2 e2 e3
    have hm : Meaningful (fieldHead f ++ (pre ++ V) ++ (ft ++ r)) := by
      unfold fieldHead
      cases f.exposed <;> exact meaningful_head (by decide) (by decide)
    obtain ⟨Y, m', ts', e5, e6, e7⟩ := ext_events (sep := declSep lv) (hlv.plain.fullSep.append hlv.plain.indent) (by simp [declSep, hlv.sep]) hm d1
      (sortBy (fun a b => textLe a.name b.name) (p.events.filter (fun e => shownName e.name))) (by
        intro e he
        simp only [(sortBy_perm _ _).mem_iff, List.mem_filter, shownName_iff] at he
        exact h.events e he.1 he.2)
    refine ⟨Y, ts', m', V, ft ++ r, ?_, e6, e7, e3⟩
    rw [← e5]
    simp [eventsText, declEvents, declSep]

/-- **A file cannot be read if its first prototype is external**, however it goes on. -/
theorem extern_err (hlv : GoodOptions lv) {p : ProtoDef F} (h : GoodInterface fl p) {urls : List Text} {ft : Text} (hft : fieldsText lv (declFields p.fields) = .ok ft) (rest : Text) :
    Der gram (gram .vrmlFile) (header ++ (externText lv p.name (eventsText lv lv.indent p.events ++ ft) urls ++ rest)) .err := by
  obtain ⟨ft', e1, e2⟩ := interface_text hlv h
  rw [hft] at e1
  cases e1
  obtain ⟨Y, ts, m, V, r', e3, e4, e5, e6⟩ := e2 (['\n', ']', ' '] ++ mfStringStr { lv with curindent := [] } urls ++ ['\n'] ++ rest)
  have htext : header ++ (externText lv p.name (eventsText lv lv.indent p.events ++ ft) urls ++ rest) =
      chars "#VRML V2.0 utf8" ++ (['\n'] ++ (chars "EXTERNPROTO" ++ ([' '] ++ (p.name ++ ([' '] ++ (['['] ++ (declSep lv ++ Y))))))) := by
    rw [← e3]; simp [externText, header]
  rw [htext]
  have hsep : Ignorable (declSep lv) := hlv.plain.fullSep.append hlv.plain.indent
  have h1 : Der gram (gram .externProto) (chars "EXTERNPROTO" ++ ([' '] ++ (p.name ++ ([' '] ++ (['['] ++ (declSep lv ++ Y)))))) .err :=
    .seqErr2 (.lit _ _) (.seqErr2 (C07_ignorable_skipped sp_ign (legal_mean h.legal _))
      (.seqErr2 (.cut (Der.nt (g := gram) (n := NT.nodegi) (name_der h.legal (nameEnd_cons (by decide)))))
      (.seqErr2 (.cut (C07_ignorable_skipped sp_ign (meaningful_head (by decide) (by decide))))
      (.seqErr2 (.cut (.lit _ _)) (.seqErr2 (.cut (C07_ignorable_skipped hsep e4)) (.seqErr2 (.cut (by simpa [extItem] using e5)) (.seqErr1 (.cutFail (e6.bracket _)))))))))
  have hproto : Der gram (.nt .proto) (chars "EXTERNPROTO" ++ ([' '] ++ (p.name ++ ([' '] ++ (['['] ++ (declSep lv ++ Y)))))) .fail :=
    .ntFail (.seqFail1 (lit_fail1 (by decide)))
  have h2 : Der gram (gram .rootItem) (['\n'] ++ (chars "EXTERNPROTO" ++ ([' '] ++ (p.name ++ ([' '] ++ (['['] ++ (declSep lv ++ Y))))))) .err :=
    .seqErr2 (C07_ignorable_skipped nl_ign (meaningful_head (by decide) (by decide))) (.seqErr1 (.altR hproto (.altErr (.ntErr h1))))
  have hh1 : Der gram (gram .header) (chars "#VRML V2.0 utf8" ++ (['\n'] ++ (chars "EXTERNPROTO" ++ ([' '] ++ (p.name ++ ([' '] ++ (['['] ++ (declSep lv ++ Y)))))))) (.ok [] (chars "#VRML V2.0 utf8") _) :=
    run_sound 30 _ _ _ (by rfl)
  exact .seqErr2 (Der.nt (g := gram) (n := NT.header) hh1) (.seqErr1 (.ntErr (.starErr1 (.ntErr h2))))

theorem fold_prefix {g : PSt → Text → Res PSt} (hg : ∀ ps x ps', g ps x = .ok ps' → ps.out <+: ps'.out) : ∀ (l : List Text) (ps ps' : PSt), foldRes g ps l = .ok ps' → ps.out <+: ps'.out := by
  intro l
  induction l with
  | nil => intro ps ps' h; cases h; exact List.prefix_rfl
  | cons x l ih =>
    intro ps ps' h
    simp only [foldRes] at h
    split at h
    · cases h
    · rename_i ps1 h1
      exact (hg _ _ _ h1).trans (ih _ _ h)

theorem write_prefix (protos : Text → Option (ProtoDef F)) : ∀ (k : Nat) (ps : PSt) (x : Text) (ps' : PSt), writeProto lv fl protos fuel k ps x = .ok ps' → ps.out <+: ps'.out := by
  intro k
  induction k with
  | zero =>
    intro ps x ps' h
    simp only [writeProto] at h
    split at h <;> cases h
    exact List.prefix_rfl
  | succ k ih =>
    intro ps x ps' h
    simp only [writeProto] at h
    split at h
    · cases h; exact List.prefix_rfl
    · split at h
      · cases h; exact List.prefix_rfl
      · split at h
        · cases h
        · split at h
          · cases h
          · cases h; exact List.prefix_append _ _
          · split at h
            · cases h
            · split at h
              · cases h
              · split at h
                · cases h
                · rename_i ps2 h2
                  cases h
                  exact (fold_prefix ih _ _ _ h2).trans (List.prefix_append _ _)

theorem fold_builtin {protos : Text → Option (ProtoDef F)} {k : Nat} {post : List Text} : ∀ (pre : List Text) (ps : PSt), (∀ y ∈ pre, protos y = none) →
    foldRes (writeProto lv fl protos fuel k) ps (pre ++ post) = foldRes (writeProto lv fl protos fuel k) ps post := by
  intro pre
  induction pre with
  | nil => intro ps _; rfl
  | cons y pre ih =>
    intro ps h
    have hy := h y (by simp)
    have : writeProto lv fl protos fuel k ps y = .ok ps := by
      cases k <;> simp [writeProto, hy]
    simp only [List.cons_append, foldRes, this]
    exact ih ps (fun y hy => h y (by simp [hy]))

/-- **External prototypes are lost**: if the first prototype a file needs is external, the text written cannot be read.  (The
writer gives each interface field its default, which the grammar does not allow; there is always such a field, because
every class inherits `externalURL`.) -/
theorem C68_extern_unreadable (hlv : GoodOptions lv) {f : File F} {st : St} {pre post : List Text} {x : Text} {p : ProtoDef F} {u : Text} {us : List Text} {text : Text} {named : Scene F}
    (hst : linBody lv fl (preroute f.scene) fuel = .ok st) (hl : f.free ++ headProtos st.out = pre ++ x :: post) (hpre : ∀ y ∈ pre, f.protos y = none)
    (hx : f.protos x = some p) (hu : p.url = .urls (u :: us)) (hp : GoodInterface fl p) (h : lineariseFile lv fl f fuel depth = .ok (text, named)) :
    ∀ read, ¬ ReadsFile base fl text read := by
  obtain ⟨ft, hft, -⟩ := interface_text hlv hp
  simp only [lineariseFile, hst, hl, fold_builtin pre _ hpre] at h
  simp only [foldRes] at h
  cases hw : writeProto lv fl f.protos fuel depth ⟨[], []⟩ x with
  | error e => rw [hw] at h; cases h
  | ok ps =>
    rw [hw] at h
    have hout : ps.out = [(x, externText lv p.name (eventsText lv lv.indent p.events ++ ft) (u :: us))] := by
      cases depth with
      | zero => simp [writeProto, hx] at hw
      | succ k =>
        simp [writeProto, hx, hft, hu] at hw
        rw [← hw]
    simp only at h
    split at h
    · cases h
    · rename_i ps' hf
      cases h
      obtain ⟨more, hm⟩ := fold_prefix (write_prefix f.protos depth) _ _ _ hf
      rintro read ⟨hdr, sm, kids, eof, m, d1, -⟩
      have d2 := extern_err hlv hp (urls := u :: us) hft ((more.map Prod.snd).flatten ++ textOf st.out)
      have : header ++ (ps'.out.map Prod.snd).flatten ++ textOf st.out = header ++ (externText lv p.name (eventsText lv lv.indent p.events ++ ft) (u :: us) ++ ((more.map Prod.snd).flatten ++ textOf st.out)) := by
        rw [← hm, hout]; simp
      rw [this] at d1
      cases d1.det _ d2

/-! ### Files without prototypes -/

theorem file_shape {text m : Text} {hdr scene eof : PTree} (h : Der gram (gram .vrmlFile) text (.ok [hdr, scene, eof] m [])) : ∃ sm kids, scene = .node .vrmlScene sm kids := by
  generalize hts : [hdr, scene, eof] = ts at h
  generalize ([] : Text) = r at h
  cases h with
  | seq a b =>
    cases a with
    | nt a =>
      cases b with
      | seq b c =>
        cases b with
        | nt b =>
          simp only [List.cons_append, List.nil_append, List.cons.injEq] at hts
          exact ⟨_, _, hts.2.1⟩

/-- an item of a file is a prototype or not -/
theorem readItems_cons (t : PTree) (ts : List PTree) (a b : FSt F) (h : readItems base fl (t :: ts) a = some b) :
    (∃ x p, readItems base fl ts { a with protos := (x, p) :: a.protos } = some b) ∨
    ∃ v rs, disp (FSt.lookup base a.protos) fl t none none a.rs = some (v, rs) ∧ readItems base fl ts { a with rs := rs } = some b := by
  by_cases ht : ∃ m pm nm k rest, t = .node .rootItem m [.node .proto pm (.node .nodegi nm k :: rest)]
  · obtain ⟨m, pm, nm, k, rest, rfl⟩ := ht
    simp only [readItems] at h
    split at h
    · cases h
    · exact .inl ⟨_, _, h⟩
  · rw [readItems] at h
    · split at h
      · cases h
      · rename_i v rs h1
        exact .inr ⟨v, rs, h1, h⟩
    · intro m pm nm k rest he
      exact ht ⟨m, pm, nm, k, rest, he⟩

theorem readItems_grows : ∀ (ts : List PTree) (a b : FSt F), readItems base fl ts a = some b → a.protos.length ≤ b.protos.length := by
  intro ts
  induction ts with
  | nil => intro a b h; simp only [readItems, Option.some.injEq] at h; subst h; exact le_refl _
  | cons t ts ih =>
    intro a b h
    rcases readItems_cons t ts a b h with ⟨x, p, h⟩ | ⟨v, rs, -, h⟩
    · have := ih _ _ h
      simp only [List.length_cons] at this
      omega
    · exact (ih { a with rs := rs } _ h :)

theorem readItems_plain : ∀ (ts : List PTree) (rs rs' : RSt F), readItems base fl ts ⟨[], rs⟩ = some ⟨[], rs'⟩ →
    ∃ vs, dispList (FSt.lookup base []) fl ts none none rs = some (vs, rs') := by
  intro ts
  induction ts with
  | nil => intro rs rs' h; simp only [readItems, Option.some.injEq, FSt.mk.injEq, true_and] at h; subst h; exact ⟨[], rfl⟩
  | cons t ts ih =>
    intro rs rs' h
    rcases readItems_cons t ts _ _ h with ⟨x, p, h⟩ | ⟨v, rs1, h1, h⟩
    · have := readItems_grows _ _ _ h
      simp at this
    · obtain ⟨vs, hv⟩ := ih _ _ h
      exact ⟨v :: vs, by simp only [dispList, h1, hv]⟩

/-- Without prototypes the writer of files is the writer of scenes (C09), and what the reader of scenes reads, the reader of
files reads. -/
theorem C67_without_prototypes {f : File F} (h : ∀ x, f.protos x = none) :
    lineariseFile lv fl f fuel depth = linearise lv fl f.scene fuel ∧
    ∀ text sc, Reads base fl text sc ↔ ∃ n, ReadsFile base fl text ⟨[], ⟨sc, n⟩⟩ := by
  constructor
  · simp only [lineariseFile, linearise]
    split
    · rename_i e he; simp only [he]
    · rename_i st hst
      have := fold_builtin (lv := lv) (fl := fl) (fuel := fuel) (k := depth) (post := []) (f.free ++ headProtos st.out) ⟨[], []⟩ (fun y _ => h y)
      simp only [List.append_nil] at this
      simp only [this, foldRes, List.map_nil, List.flatten_nil, List.append_nil, hst]
  · have hlk : FSt.lookup base ([] : List (Text × ProtoDef F)) = base := rfl
    intro text sc
    constructor
    · rintro ⟨hdr, scene, eof, m, n, d1, d2⟩
      obtain ⟨sm, kids, rfl⟩ := file_shape d1
      simp only [disp] at d2
      split at d2
      · cases d2
      · rename_i vs rs h1
        cases d2
        exact ⟨n, hdr, sm, kids, eof, m, d1, readItems_disp _ _ vs _ (by rw [hlk]; exact h1)⟩
    · rintro ⟨n, hdr, sm, kids, eof, m, d1, d2⟩
      obtain ⟨vs, h1⟩ := readItems_plain kids _ _ d2
      exact ⟨hdr, _, eof, m, n, d1, by simp only [disp]; rw [hlk] at h1; rw [h1]⟩

/-- A file the theorem applies to: one node of an external prototype. -/
def exExtern : ProtoDef Int := ⟨chars "Far", [externalURL], [⟨chars "go", chars "SFTime", false⟩], .urls [chars "far.wrl"], none, []⟩
def exExternFile : File Int := ⟨exOne (exInstance exExtern) none, fun t => if t = chars "Far" then some exExtern else none, []⟩

theorem exExtern_interface : GoodInterface exFloats exExtern := by
  refine ⟨by decide, ?_, ?_, List.mem_cons_self⟩
  · intro f hf _
    simp only [exExtern, List.mem_cons, List.not_mem_nil, or_false] at hf
    subst hf
    exact ⟨by decide, ⟨chars "String", by decide, .inr rfl⟩, .strs [], rfl, rfl⟩
  · intro e he _
    simp only [exExtern, List.mem_cons, List.not_mem_nil, or_false] at he
    subst he
    exact ⟨by decide, ⟨chars "Time", by decide, .inl rfl⟩⟩

example : ∃ text named, lineariseFile defaults exFloats exExternFile 2 1 = .ok (text, named) ∧
    ∀ read, ¬ ReadsFile exLookup exFloats text read :=
  ⟨_, _, rfl, C68_extern_unreadable (f := exExternFile) (fuel := 2) (depth := 1) (pre := []) (post := []) (x := chars "Far") (st := ⟨_, _, _, _⟩) goodDefaults rfl rfl (by simp) rfl rfl exExtern_interface rfl⟩

end Verif.Lin
