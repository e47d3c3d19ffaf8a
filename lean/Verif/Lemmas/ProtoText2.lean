import Verif.Lemmas.ProtoText
import Verif.Props.Use
/-!
Lemmas for C67, continued: a whole prototype.
-/
namespace Verif.Lin
open Verif.Peg Verif.Grammar Verif.TextOut Verif.Text Verif.SceneText Verif.ListText
variable {F : Type}
variable {lk lk0 : Text → Option (Class F)} {fl : Floats F} {lv : LinValues} {fuel : Nat}

/-! ### The interface -/

/-- The interface of `q` is the visible interface of `p`. -/
structure SameDecls (p q : ProtoDef F) : Prop where
  name : q.name = p.name
  fields : ∀ f ∈ p.fields, Visible f.decl → ∃ f' ∈ q.fields, SamePField f f'
  back : ∀ f' ∈ q.fields, ∃ f ∈ p.fields, Visible f.decl ∧ SamePField f f'
  events : ∀ e, e ∈ q.events ↔ e ∈ p.events ∧ e.Visible
  distinct : (q.fields.map (fun f => f.decl.name) ++ q.events.map EventDecl.name).Nodup
  url : q.url = .declared
  free : q.free = []

theorem mem_declFields {l : List (PField F)} {f : PField F} (hr : ∀ g ∈ l, Visible g.decl → reserved g.decl.name = false) : f ∈ declFields l ↔ f ∈ l ∧ Visible f.decl := by
  simp only [declFields, (sortBy_perm _ _).mem_iff, List.mem_filter, Bool.and_eq_true, bne_iff_ne, ne_eq, shownName_iff]
  constructor
  · rintro ⟨h1, h2, h3⟩; exact ⟨h1, h3⟩
  · rintro ⟨h1, h3⟩
    refine ⟨h1, fun h => ?_, h3⟩
    have := hr f h1 h3
    rw [h] at this
    revert this
    decide

theorem forall2_names {l m : List (PField F)} (h : List.Forall₂ SamePField l m) : m.map (fun f => f.decl.name) = l.map (fun f => f.decl.name) := by
  induction h with
  | nil => rfl
  | cons h _ ih => simp [ih, h.decl.name]

theorem decls_read (hlv : GoodOptions lv) {x : Text} {p : ProtoDef F} (hg : GoodProto lk0 fl fuel x p) :
    ∃ ft, fieldsText lv (declFields p.fields) = .ok ft ∧ ∀ w r, Ignorable w → w ≠ [] → ∃ w0 m ts q,
      (eventsText lv lv.indent p.events ++ ft) ++ (w ++ ']' :: r) = w0 ++ (m ++ ']' :: r) ∧ Ignorable w0 ∧ Meaningful (m ++ ']' :: r) ∧
      Der gram (.star declItem) (m ++ ']' :: r) (.ok ts m (']' :: r)) ∧
      (∀ rs y, readDecls lk fl rs (ts ++ [y]) (ProtoDef.new x) = readDecls lk fl rs [y] q) ∧ SameDecls p q := by
  have hres : ∀ g ∈ p.fields, Visible g.decl → reserved g.decl.name = false := fun g hg1 hv => (hg.fields g hg1 hv).2.1
  obtain ⟨Ts, e1, e2⟩ := fields_texts (lk := lk) (fl := fl) hlv (declFields p.fields) (fun f hf => by
    obtain ⟨h1, h2⟩ := (mem_declFields hres).1 hf
    exact hg.fields f h1 h2)
  -- events
  let Es := sortBy (fun a b => textLe a.name b.name) (p.events.filter (fun e => shownName e.name))
  have hEs : ∀ e, e ∈ Es ↔ e ∈ p.events ∧ e.Visible := by
    intro e
    simp only [Es, (sortBy_perm _ _).mem_iff, List.mem_filter, shownName_iff, EventDecl.Visible]
  have hdis := List.nodup_append.1 hg.distinct
  have hext : ∀ e ∈ p.events, e.name ≠ chars "externalURL" := by
    intro e he hn
    exact hdis.2.2 (chars "externalURL") (List.mem_map.2 ⟨_, hg.inherited, rfl⟩) (chars "externalURL") (List.mem_map.2 ⟨e, he, hn⟩) rfl
  have f2 : List.Forall₂ (fun U T => DeclText lk fl T U) (Es.map EventUpd) (Es.map eventText) := by
    have : ∀ l : List EventDecl, (∀ e ∈ l, e ∈ Es) → List.Forall₂ (fun U T => DeclText lk fl T U) (l.map EventUpd) (l.map eventText) := by
      intro l
      induction l with
      | nil => intro _; exact .nil
      | cons e l ih =>
        intro h
        obtain ⟨h1, h2⟩ := (hEs e).1 (h e (by simp))
        obtain ⟨a1, a2, a3, a4⟩ := hg.events e h1 h2
        exact .cons (event_text a1 a3 a2 a4 (hext e h1)) (ih (fun e he => h e (by simp [he])))
    exact this Es (fun _ h => h)
  have hsep : Ignorable (declSep lv) := hlv.plain.fullSep.append hlv.plain.indent
  have hsep0 : declSep lv ≠ [] := by simp [declSep, hlv.sep]
  refine ⟨_, e1, fun w r hw h0 => ?_⟩
  obtain ⟨w0, m, ts, ups, a1, a2, -, a4, a5, a6, a7⟩ := decls_star hsep hsep0 _ _ (forall2_join f2 e2) w r hw h0
  obtain ⟨u1, u2, rfl, b1, b2⟩ := forall2_split _ _ _ a6
  have b3 := upds_events _ _ b1
  obtain ⟨Gs, b4, b5⟩ := upds_fields _ _ b2
  subst b3 b4
  have hnames := forall2_names b5
  have hnF : ((declFields p.fields).map (fun f => f.decl.name)).Nodup := by
    have : ((declFields p.fields).map (fun f => f.decl.name)).Perm ((p.fields.filter (fun f => f.decl.name != chars "DEF" && shownName f.decl.name)).map (fun f => f.decl.name)) :=
      (sortBy_perm _ _).map _
    rw [this.nodup_iff]
    exact hdis.1.sublist (List.filter_sublist.map _)
  have hnE : (Es.map EventDecl.name).Nodup := by
    have : (Es.map EventDecl.name).Perm ((p.events.filter (fun e => shownName e.name)).map EventDecl.name) := (sortBy_perm _ _).map _
    rw [this.nodup_iff]
    exact hdis.2.1.sublist (List.filter_sublist.map _)
  refine ⟨w0, m, ts, _, ?_, a2, a4.1, a5, fun rs y => a7 rs _ y, ?_⟩
  · rw [← a1]
    simp only [eventsText, declSep, List.map_append, List.flatten_append, List.map_map]
    congr 1
  · rw [List.foldl_append]
    obtain ⟨c1, c2, c3, c4, c5, c6⟩ := fold_events Es (ProtoDef.new x) hnE
    obtain ⟨d1, d2, d3, d4, d5, d6⟩ := fold_fields Gs ((Es.map (fun e (p : ProtoDef F) => p.addEvent e)).foldl (fun p u => u p) (ProtoDef.new x)) (by rw [hnames]; exact hnF)
    have hextmem : chars "externalURL" ∈ Gs.map (fun f => f.decl.name) := by
      rw [hnames]
      refine List.mem_map.2 ⟨externalURL, (mem_declFields hres).2 ⟨hg.inherited, ?_⟩, rfl⟩
      simp [Visible, externalURL]
    have hfields : (((Es.map (fun e (p : ProtoDef F) => p.addEvent e)).foldl (fun p u => u p) (ProtoDef.new x)).fields.filter
        (fun g => !(Gs.map (fun f => f.decl.name)).contains g.decl.name)) = [] := by
      rw [c1]
      apply List.filter_eq_nil_iff.2
      intro g hg1
      have : g = externalURL := by simpa [ProtoDef.new] using (List.mem_filter.1 hg1).1
      subst this
      have : (Gs.map (fun f => f.decl.name)).contains (chars "externalURL") = true := by
        rw [List.contains_iff_mem]; exact hextmem
      simp only [Bool.not_eq_true, Bool.not_eq_false']
      exact this
    rw [hfields, List.nil_append] at d1
    refine ⟨by rw [d3, c3, hg.name]; rfl, ?_, ?_, ?_, ?_, ?_, by rw [d5, c5]; rfl⟩
    · intro f hf hv
      rw [d1]
      exact forall2_mem_left b5 f ((mem_declFields hres).2 ⟨hf, hv⟩)
    · intro f' hf'
      rw [d1] at hf'
      obtain ⟨f, h1, h2⟩ := forall2_mem_right b5 f' hf'
      obtain ⟨h3, h4⟩ := (mem_declFields hres).1 h1
      exact ⟨f, h3, h4, h2⟩
    · intro e
      rw [d2, c2, ← hEs]
      simp only [ProtoDef.new, List.filter_nil, List.nil_append, List.mem_filter]
      constructor
      · exact fun h => h.1
      · intro h
        refine ⟨h, ?_⟩
        have : ¬ (Gs.map (fun f => f.decl.name)).contains e.name = true := by
          rw [List.contains_iff_mem, hnames]
          intro hm
          obtain ⟨f, hf, hfn⟩ := List.mem_map.1 hm
          exact hdis.2.2 _ (List.mem_map.2 ⟨f, ((mem_declFields hres).1 hf).1, rfl⟩) _ (List.mem_map.2 ⟨e, ((hEs e).1 h).1, rfl⟩) hfn
        simpa using this
    · have hq2 := d2
      rw [c2, show (ProtoDef.new x : ProtoDef F).events = [] from rfl, List.filter_nil, List.nil_append] at hq2
      rw [hq2, d1, hnames]
      refine List.nodup_append.2 ⟨hnF, hnE.sublist (List.filter_sublist.map _), ?_⟩
      intro a ha b hb hab
      obtain ⟨f, hf, rfl⟩ := List.mem_map.1 ha
      obtain ⟨e, he, rfl⟩ := List.mem_map.1 hb
      exact hdis.2.2 _ (List.mem_map.2 ⟨f, ((mem_declFields hres).1 hf).1, rfl⟩) _ (List.mem_map.2 ⟨e, ((hEs e).1 (List.mem_filter.1 he).1).1, rfl⟩) hab
    · rw [d6, if_pos hextmem]

/-! ### IS declarations -/

theorem resolve_exact {α : Type} {known : Text → Option α} {nm : Text} {a : α} (h : known nm = some a) : resolveName known nm = some a := by
  rw [resolveName, h]

theorem port_event {p : ProtoDef F} {nm : Text} (h : ∃ e ∈ p.events, e.name = nm) : ∃ e, p.port nm = some (.inr e) := by
  obtain ⟨e, he, hn⟩ := h
  cases hf : p.events.find? (fun e => e.name == nm) with
  | none => exact absurd (List.find?_eq_none.1 hf e he) (by simp [hn])
  | some e' => exact ⟨e', by simp [ProtoDef.port, hf]⟩

theorem port_field {p : ProtoDef F} {nm : Text} (h : ¬ ∃ e ∈ p.events, e.name = nm) {g : PField F} (hg : g ∈ p.fields) (hn : g.decl.name = nm) :
    ∃ d, p.port nm = some (.inl d) := by
  have h1 : p.events.find? (fun e => e.name == nm) = none := by
    apply List.find?_eq_none.2
    intro e he hx
    exact h ⟨e, he, by simpa using hx⟩
  cases hf : (p.fields.map PField.decl).find? (fun d => d.name == nm) with
  | none => exact absurd (List.find?_eq_none.1 hf g.decl (List.mem_map.2 ⟨g, hg, rfl⟩)) (by simp [hn])
  | some d => exact ⟨d, by simp [ProtoDef.port, h1, hf]⟩

theorem port_inl {p : ProtoDef F} {nm : Text} {d : FieldDecl F} (h : p.port nm = some (.inl d)) :
    (¬ ∃ e ∈ p.events, e.name = nm) ∧ d.name = nm ∧ ∃ g ∈ p.fields, g.decl = d := by
  simp only [ProtoDef.port] at h
  cases hf : p.events.find? (fun e => e.name == nm) with
  | some e => rw [hf] at h; simp at h
  | none =>
    rw [hf] at h
    simp only [Option.map_eq_some_iff, Sum.inl.injEq, exists_eq_right] at h
    refine ⟨?_, ?_, ?_⟩
    · rintro ⟨e, he, hn⟩
      exact absurd (List.find?_eq_none.1 hf e he) (by simp [hn])
    · simpa using List.find?_some h
    · obtain ⟨g, hg, hd⟩ := List.mem_map.1 (List.mem_of_find?_eq_some h)
      exact ⟨g, hg, hd⟩

/-- The mapped fields, when all names are in the interface. -/
theorem mem_mapped {p : ProtoDef F} {b : Scene F} (hb : p.body = some b) (h : ∀ i g nm, IsMapped b i g nm → ∃ a, p.port nm = some a) (f : Text) :
    f ∈ p.mapped ↔ (∃ i g, IsMapped b i g f) ∧ ∃ d, p.port f = some (.inl d) := by
  have hdict : ∀ e, e ∈ p.isMaps ↔ ∃ dict, b.is = some dict ∧ e ∈ dict := by
    intro e
    simp only [ProtoDef.isMaps, hb]
    cases b.is with
    | none => simp
    | some dict => simp
  simp only [ProtoDef.mapped, List.mem_filterMap]
  constructor
  · rintro ⟨⟨nm, l⟩, he, hx⟩
    obtain ⟨dict, h1, h2⟩ := (hdict _).1 he
    cases hl : l with
    | nil => 
      subst hl
      simp only at hx
      split at hx
      · simp at hx
      · simp at hx
    | cons e0 l0 =>
      have hm : IsMapped b e0.1 e0.2 nm := ⟨dict, l, h1, h2, by simp [hl]⟩
      obtain ⟨a, ha⟩ := h _ _ _ hm
      simp only [resolve_exact ha] at hx
      cases a with
      | inr e => simp at hx
      | inl d =>
        simp only [hl, reduceCtorEq, if_false, Option.some.injEq] at hx
        have hn := (port_inl ha).2.1
        rw [hn] at hx
        subst hx
        exact ⟨⟨_, _, hm⟩, d, ha⟩
  · rintro ⟨⟨i, g, dict, l, h1, h2, h3⟩, d, hd⟩
    refine ⟨(f, l), (hdict _).2 ⟨dict, h1, h2⟩, ?_⟩
    simp only [resolve_exact hd]
    rw [if_neg (by rintro rfl; cases h3), (port_inl hd).2.1]

theorem coerce_conv {k : Kind} {c c' : F → F} {u v : Val F} (h : coerce k c u = some v) : (coerce k c' u).isSome = true := by
  cases u <;> cases k <;> simp_all [coerce] <;> (try split) <;> simp_all <;> (try (split at h <;> simp_all))

theorem sameProto_of {x : Text} {p q : ProtoDef F} (hg : GoodProto lk0 fl fuel x p) (hs : SameDecls p q) {b named b' : Scene F} {φ : Nat → Nat}
    (hb : p.body = some b) (hgood : ∀ i n, Reach b i → b.heap i = some n → GoodNode lk0 fl b i n)
    (hmap : ∀ i f nm, IsMapped b i f nm → Reach b i ∧ ((∃ e ∈ p.events, e.name = nm) ∨
      ∃ g ∈ p.fields, g.decl.name = nm ∧ ∀ n d, b.heap i = some n → d ∈ n.cls.fields → d.name = f → d.kind = g.decl.kind))
    (hren : Renamed b named) (hsame : SameScene named b' φ) (hcov : IsCovered named b' φ) :
    SameProto p { q with body := some b' } ∧ ProtoDef.usable { q with body := some b' } = true ∧
      ({ q with body := some b' } : ProtoDef F).cls.Distinct := by
  -- IS declarations correspond
  have hreach : ∀ i, Reach named i ↔ Reach b i := fun i => hren.reach_iff
  have hnamed : ∀ i f nm, IsMapped named i f nm ↔ IsMapped b i f nm := fun i f nm => isMapped_congr hren.is
  have back : ∀ j f nm, IsMapped b' j f nm → ∃ i, Reach b i ∧ j = φ i ∧ IsMapped b i f nm := by
    intro j f nm hm
    obtain ⟨i, h1, rfl⟩ := hcov.cover j f nm hm
    exact ⟨i, (hreach i).1 h1, rfl, (hnamed i f nm).1 ((hsame.is i h1 f nm).1 hm)⟩
  have forth : ∀ i f nm, IsMapped b i f nm → IsMapped b' (φ i) f nm := by
    intro i f nm hm
    exact (hsame.is i ((hreach i).2 (hmap i f nm hm).1) f nm).2 ((hnamed i f nm).2 hm)
  have hlegal : ∀ i f nm, IsMapped b i f nm → LegalName nm ∧ ∃ n, b.heap i = some n ∧ ∃ d ∈ n.cls.fields, Visible d ∧ d.name = f := by
    intro i f nm hm
    have hr := (hmap i f nm hm).1
    obtain ⟨n, m, h1, -⟩ := hsame.nodes i ((hreach i).2 hr)
    rcases hren.node i with ⟨-, h2⟩ | ⟨n0, m0, h2, h3, h4, -⟩
    · rw [h1] at h2; cases h2
    · obtain ⟨g1, g2⟩ := (hgood i n0 hr h2).isField f nm hm
      obtain ⟨d, k1, k2, -, k3⟩ := g2
      exact ⟨g1, n0, h2, d, k1, k2, k3⟩
  have vis : ∀ {nm : Text}, LegalName nm → nm ≠ [] ∧ ∀ s, nm ≠ ' ' :: s := by
    intro nm hnm
    obtain ⟨c, s, rfl, hc⟩ := legal_head hnm
    refine ⟨by simp, fun t ht => ?_⟩
    cases ht
    exact absurd hc (by decide)
  have hev : ∀ nm, LegalName nm → ((∃ e ∈ q.events, e.name = nm) ↔ ∃ e ∈ p.events, e.name = nm) := by
    intro nm hnm
    constructor
    · rintro ⟨e, he, hn⟩; exact ⟨e, ((hs.events e).1 he).1, hn⟩
    · rintro ⟨e, he, hn⟩; exact ⟨e, (hs.events e).2 ⟨he, by rw [EventDecl.Visible, hn]; exact vis hnm⟩, hn⟩
  -- ports
  have pport : ∀ i g nm, IsMapped b i g nm → ∃ a, p.port nm = some a := by
    intro i g nm hm
    by_cases he : ∃ e ∈ p.events, e.name = nm
    · obtain ⟨e, h⟩ := port_event he; exact ⟨_, h⟩
    · obtain ⟨f, hf, hn, -⟩ := (hmap i g nm hm).2.resolve_left he
      obtain ⟨d, h⟩ := port_field he hf hn; exact ⟨_, h⟩
  have fieldTo : ∀ nm, LegalName nm → (∃ d, p.port nm = some (.inl d)) → ∃ d, ({ q with body := some b' } : ProtoDef F).port nm = some (.inl d) := by
    rintro nm hnm ⟨d, hd⟩
    obtain ⟨h1, h2, g, h3, rfl⟩ := port_inl hd
    obtain ⟨f', h4, h5⟩ := hs.fields g h3 (by rw [Visible, h2]; exact vis hnm)
    exact port_field (p := { q with body := some b' }) (fun h => h1 ((hev nm hnm).1 h)) h4 (by rw [h5.decl.name, h2])
  have fieldFrom : ∀ nm, LegalName nm → (∃ d, ({ q with body := some b' } : ProtoDef F).port nm = some (.inl d)) → ∃ d, p.port nm = some (.inl d) := by
    rintro nm hnm ⟨d, hd⟩
    obtain ⟨h1, h2, g, h3, rfl⟩ := port_inl hd
    obtain ⟨f, h4, h5, h6⟩ := hs.back g h3
    exact port_field (fun h => h1 ((hev nm hnm).2 h)) h4 (by rw [← h6.decl.name, h2])
  have qport : ∀ j g nm, IsMapped b' j g nm → ∃ a, ({ q with body := some b' } : ProtoDef F).port nm = some a := by
    intro j g nm hm
    obtain ⟨i, h1, h2, h3⟩ := back j g nm hm
    have hl := (hlegal _ _ _ h3).1
    by_cases he : ∃ e ∈ q.events, e.name = nm
    · obtain ⟨e, h⟩ := port_event (p := { q with body := some b' }) he; exact ⟨_, h⟩
    · obtain ⟨a, ha⟩ := pport _ _ _ h3
      cases a with
      | inr e =>
        have : ∃ e ∈ p.events, e.name = nm := by
          by_contra hne
          obtain ⟨f, hf, hn, -⟩ := (hmap i g nm h3).2.resolve_left hne
          obtain ⟨d, hd⟩ := port_field hne hf hn
          rw [ha] at hd; cases hd
        exact absurd ((hev nm hl).2 this) he
      | inl d =>
        obtain ⟨d', hd'⟩ := fieldTo nm hl ⟨d, ha⟩
        exact ⟨_, hd'⟩
  have hcls : SameClass p.cls ({ q with body := some b' } : ProtoDef F).cls := by
    refine ⟨hs.name, ?_, ?_, ?_, ?_, ?_⟩
    · intro d hd hv
      obtain ⟨f, hf, rfl⟩ := List.mem_map.1 hd
      obtain ⟨f', h1, h2⟩ := hs.fields f hf hv
      exact ⟨f'.decl, List.mem_map.2 ⟨f', h1, rfl⟩, h2.decl.toSameType, fun _ => h2.decl⟩
    · intro d hd _
      obtain ⟨f', hf', rfl⟩ := List.mem_map.1 hd
      obtain ⟨f, h1, -, h2⟩ := hs.back f' hf'
      exact ⟨f.decl, List.mem_map.2 ⟨f, h1, rfl⟩, h2.decl.toSameType, fun _ => h2.decl⟩
    · intro f
      show f ∈ ({ q with body := some b' } : ProtoDef F).mapped ↔ f ∈ p.mapped
      rw [mem_mapped hb pport, mem_mapped (b := b') rfl qport]
      constructor
      · rintro ⟨⟨j, g, hm⟩, hd⟩
        obtain ⟨i, -, -, h3⟩ := back j g f hm
        exact ⟨⟨i, g, h3⟩, fieldFrom f (hlegal _ _ _ h3).1 hd⟩
      · rintro ⟨⟨i, g, hm⟩, hd⟩
        exact ⟨⟨φ i, g, forth i g f hm⟩, fieldTo f (hlegal _ _ _ hm).1 hd⟩
    · intro d hd hv
      obtain ⟨f, hf, rfl⟩ := List.mem_map.1 hd
      obtain ⟨f', h1, h2⟩ := hs.fields f hf hv
      have e1 : f.decl.name ∈ p.cls.exposed ↔ f.exposed = true := by
        simp only [ProtoDef.cls, List.mem_map, List.mem_filter]
        constructor
        · rintro ⟨g, ⟨k1, k2⟩, k3⟩
          rwa [← List.inj_on_of_nodup_map (List.nodup_append.1 hg.distinct).1 k1 hf k3]
        · exact fun h => ⟨f, ⟨hf, h⟩, rfl⟩
      have e2 : f.decl.name ∈ ({ q with body := some b' } : ProtoDef F).cls.exposed ↔ f'.exposed = true := by
        simp only [ProtoDef.cls, List.mem_map, List.mem_filter]
        constructor
        · rintro ⟨g, ⟨k1, k2⟩, k3⟩
          rwa [← List.inj_on_of_nodup_map (List.nodup_append.1 hs.distinct).1 k1 h1 (k3.trans h2.decl.name.symm)]
        · exact fun h => ⟨f', ⟨h1, h⟩, h2.decl.name⟩
      rw [e1, e2, h2.exposed]
    · intro e he
      exact ⟨fun h => ((hs.events e).1 h).1, fun h => (hs.events e).2 ⟨h, he⟩⟩
  refine ⟨⟨hs.name, hcls, ?_, ?_, ⟨b, b', named, φ, hb, rfl, hren, hsame⟩⟩, ?_, ?_⟩
  · intro f hf hv f' hf' hn
    obtain ⟨f2, h1, h2⟩ := hs.fields f hf hv
    have : f2 = f' := by
      have hnd := hs.distinct
      have h3 : f2.decl.name = f'.decl.name := by rw [h2.decl.name, hn]
      exact List.inj_on_of_nodup_map (List.nodup_append.1 hnd).1 h1 hf' h3
    subst this
    exact h2.exposed
  · intro e he
    rw [show ({ q with body := some b' } : ProtoDef F).events = q.events from rfl, hs.events e]
    exact ⟨fun h => h.1, fun h => ⟨h, he⟩⟩
  · simp only [ProtoDef.usable, List.all_eq_true]
    rintro ⟨nm, l⟩ he
    have hmem : ∃ dict, b'.is = some dict ∧ (nm, l) ∈ dict := by
      simp only [ProtoDef.isMaps] at he
      cases hi : b'.is with
      | none => rw [hi] at he; simp at he
      | some dict => rw [hi] at he; exact ⟨dict, rfl, by simpa using he⟩
    obtain ⟨dict, h1, h2⟩ := hmem
    have hne := hcov.full dict nm l h1 h2
    obtain ⟨⟨j, f⟩, hlast⟩ : ∃ e, l.getLast? = some e := by
      cases hl : l.getLast? with
      | none => exact absurd (List.getLast?_eq_none_iff.1 hl) hne
      | some e => exact ⟨e, rfl⟩
    have hm : IsMapped b' j f nm := ⟨dict, l, h1, h2, List.mem_of_getLast? hlast⟩
    obtain ⟨a, ha⟩ := qport _ _ _ hm
    simp only [resolve_exact ha]
    cases a with
    | inr e => rfl
    | inl d =>
      simp only [hlast]
      obtain ⟨i, hri, rfl, hmi⟩ := back j f nm hm
      obtain ⟨hlg, n0, hn0, -⟩ := hlegal _ _ _ hmi
      obtain ⟨n, m, hn, hmh, hsc, -⟩ := hsame.nodes i ((hreach i).2 hri)
      rw [hmh]
      simp only
      cases hgf : m.cls.getField f with
      | none => rfl
      | some port2 =>
       cases port2 with
       | inr _ => rfl
       | inl d2 =>
        simp only
        -- the interface field
        obtain ⟨hnoev, hdn, g', hg', rfl⟩ := port_inl ha
        obtain ⟨g, hgp, hgv, hgs⟩ := hs.back g' hg'
        have hnoev' : ¬ ∃ e ∈ p.events, e.name = nm := fun h => hnoev ((hev nm hlg).2 h)
        obtain ⟨g2, hg2, hg2n, hg2k⟩ := (hmap i f nm hmi).2.resolve_left hnoev'
        have hgg : g2 = g := by
          have hnd := (List.nodup_append.1 hg.distinct).1
          refine List.inj_on_of_nodup_map hnd hg2 hgp ?_
          show g2.decl.name = g.decl.name
          rw [hg2n, ← hgs.decl.name, hdn]
        subst hgg
        obtain ⟨-, -, -, -, v, hv, -⟩ := hg.fields g2 hgp hgv
        have hdf := hgs.decl.dflt
        rw [hv] at hdf
        obtain ⟨u, hu1, hu2⟩ := Option.bind_eq_some_iff.1 hdf
        rw [hu1]
        -- the field of the body
        have hk : d2.kind = g'.decl.kind := by
          rcases hren.node i with ⟨-, e2⟩ | ⟨n1, m1, e1, e2, e3, -⟩
          · rw [hn] at e2; cases e2
          · rw [hn0] at e1; cases e1
            rw [hn] at e2; cases e2
            obtain ⟨d0, hd0, hv0, -, hf0⟩ := ((hgood i n0 hri hn0).isField f nm hmi).2
            obtain ⟨d0', hd0', hs0, -⟩ := hsc.fields d0 (by rw [e3]; exact hd0) hv0
            have hname : d2.name = f ∧ d2 ∈ m.cls.fields := by
              rw [Class.getField, resolveName, Class.port] at hgf
              cases hfind : m.cls.fields.find? (fun d => d.name == f) with
              | none => exact absurd (List.find?_eq_none.1 hfind d0' hd0') (by simp [hs0.name, hf0])
              | some d3 =>
                rw [hfind] at hgf
                have : d3 = d2 := by
                  cases hef : m.cls.events.find? (fun e => e.name == f) with
                  | some e => rw [hef] at hgf; simp at hgf
                  | none => rw [hef] at hgf; simpa using hgf
                subst this
                exact ⟨by simpa using List.find?_some hfind, List.mem_of_find?_eq_some hfind⟩
            have hvis : Visible d2 := by
              rw [Visible, hname.1, ← hf0]; exact hv0
            obtain ⟨d4, hd4, hs4, -⟩ := hsc.back d2 hname.2 hvis
            rw [e3] at hd4
            have := hg2k n0 d4 hn0 hd4 (by rw [← hs4.name, hname.1])
            rw [hs4.kind, this, hgs.decl.kind]
        rw [hk]
        exact coerce_conv hu2
  · show ((q.fields.map PField.decl).map FieldDecl.name ++ q.events.map EventDecl.name).Nodup
    rw [List.map_map]
    exact hs.distinct

end Verif.Lin
