import Verif.Props.Sharing
import Verif.Props.Accept
import Verif.Props.SavedAgain
/-!
Files without prototypes: for C91.
-/
namespace Verif.Shape
open Verif.Peg Verif.Grammar Verif.ParseVal

/-- the production occurs in the expression -/
def mentions (t : NT) : E → Bool
  | .seq a b => mentions t a || mentions t b
  | .alt a b => mentions t a || mentions t b
  | .star a => mentions t a
  | .nt n => n == t
  | .silent n => n != .ts
  | .cut a => mentions t a
  | _ => false

theorem tags_mentions {t : NT} : ∀ {e : E} {l : List NT}, Tags e l → t ∈ l → mentions t e = true
  | .eps, l, h, ht => by rw [show l = [] from h] at ht; cases ht
  | .lit _, l, h, ht => by rw [show l = [] from h] at ht; cases ht
  | .cls _, l, h, ht => by rw [show l = [] from h] at ht; cases ht
  | .eof, l, h, ht => by rw [show l = [] from h] at ht; cases ht
  | .seq a b, l, h, ht => by
    obtain ⟨l1, l2, rfl, h1, h2⟩ := h
    simp only [mentions, Bool.or_eq_true]
    exact (List.mem_append.1 ht).imp (tags_mentions h1) (tags_mentions h2)
  | .alt a b, l, h, ht => by
    simp only [mentions, Bool.or_eq_true]
    exact h.imp (fun h => tags_mentions h ht) (fun h => tags_mentions h ht)
  | .star a, l, h, ht => by
    obtain ⟨ls, rfl, h⟩ := h
    obtain ⟨x, hx, hm⟩ := List.mem_flatten.1 ht
    exact tags_mentions (e := a) (h x hx) hm
  | .nt n, l, h, ht => by
    rw [show l = [n] from h, List.mem_singleton] at ht
    simp [mentions, ht]
  | .silent n, l, h, ht => by
    simp only [mentions, bne_iff_ne, ne_eq]
    intro hn
    rw [h hn] at ht; cases ht
  | .cut a, l, h, ht => tags_mentions (e := a) h ht

/-- field declarations stand in PROTOs only -/
theorem fieldDecl_in_proto {n : NT} {l : List NT} (h : Tags (gram n) l) (hl : NT.fieldDecl ∈ l) : n = .proto := by
  have := tags_mentions h hl
  revert this
  cases n <;> decide +kernel

end Verif.Shape

namespace Verif.Full
open Verif.Peg Verif.Grammar Verif.TextOut Verif.SceneText Verif.Reader Verif.Scopes
open Verif.Lin hiding disp dispList dispDecls dispAttrs disp_node disp_attr
variable {F : Type} {base : Text → Option (Class F)} {fl : Floats F}

mutual
theorem plain_of_noProtos : ∀ {t : PTree}, noProtos t = true → Shape.Shaped t → ParseVal.Tree.tag t ≠ NT.fieldDecl → plainDefaults t = true
  | .node n m k, h, hs, hn => by
    simp only [noProtos, Bool.and_eq_true, bne_iff_ne, ne_eq] at h
    simp only [ParseVal.Tree.tag, ne_eq] at hn
    simp only [Shape.Shaped] at hs
    simp only [plainDefaults, Bool.and_eq_true, Bool.or_eq_true, bne_iff_ne, ne_eq]
    exact ⟨.inl hn, allPlain_of_noProtos h.2 hs.2 (fun t ht hf => h.1.1 (Shape.fieldDecl_in_proto hs.1 (List.mem_map.2 ⟨t, ht, hf⟩)))⟩
theorem allPlain_of_noProtos : ∀ {l : List PTree}, noProtosAll l = true → Shape.Shapeds l → (∀ t ∈ l, ParseVal.Tree.tag t ≠ NT.fieldDecl) → allPlain l = true
  | [], _, _, _ => rfl
  | t :: l, h, hs, hn => by
    simp only [noProtosAll, Bool.and_eq_true] at h
    simp only [Shape.Shapeds] at hs
    simp only [allPlain, Bool.and_eq_true]
    exact ⟨plain_of_noProtos h.1 hs.1 (hn t (by simp)), allPlain_of_noProtos h.2 hs.2 (fun x hx => hn x (by simp [hx]))⟩
end

theorem items_plain {text : Text} {kids : List PTree} (hk : ItemsOf text kids) (hp : noProtosAll kids = true) : allPlain kids = true := by
  obtain ⟨hdr, sm, eof, m, hd⟩ := hk
  have hsh := (Shape.der_shape hd _ _ _ rfl).2
  simp only [Shape.Shapeds, Shape.Shaped] at hsh
  exact allPlain_of_noProtos hp hsh.2.1.2 (fun t ht hf => by have := Shape.fieldDecl_in_proto hsh.2.1.1 (List.mem_map.2 ⟨t, ht, hf⟩); cases this)

/-- a place that is not about prototypes -/
def Mark.ordinary : Mark → Bool
  | .node .. | .script _ | .use _ | .route .. => true
  | _ => false

mutual
theorem places_ordinary {t : PTree} {l : List Mark} (h : Places t l) (hp : noProtos t = true) : ∀ m ∈ l, Mark.ordinary m = true := by
  cases h with
  | item h => simp only [noProtos, Bool.and_eq_true] at hp; exact placesAll_ordinary h hp.2
  | proto _ => simp [noProtos] at hp
  | extern _ => simp [noProtos] at hp
  | node h =>
    simp only [noProtos, noProtosAll, Bool.and_eq_true] at hp
    exact List.forall_mem_cons.2 ⟨rfl, placesAll_ordinary h hp.2.2⟩
  | defNode h =>
    simp only [noProtos, noProtosAll, Bool.and_eq_true] at hp
    exact List.forall_mem_cons.2 ⟨rfl, placesAll_ordinary h hp.2.2.2⟩
  | script h h' =>
    simp only [noProtos, Bool.and_eq_true] at hp
    exact List.forall_mem_cons.2 ⟨rfl, List.forall_mem_append.2 ⟨decls_ordinary h hp.2, attrs_ordinary h' hp.2⟩⟩
  | defScript h h' =>
    simp only [noProtos, noProtosAll, Bool.and_eq_true] at hp
    exact List.forall_mem_cons.2 ⟨rfl, List.forall_mem_append.2 ⟨decls_ordinary h hp.2.2, attrs_ordinary h' hp.2.2⟩⟩
  | null => simp
  | use => simp [Mark.ordinary]
  | route => simp [Mark.ordinary]
  | isAttr => simp
  | attr h =>
    simp only [noProtos, noProtosAll, Bool.and_eq_true] at hp
    exact places_ordinary h hp.2.2.1
  | allNodes h => simp only [noProtos, Bool.and_eq_true] at hp; exact placesAll_ordinary h hp.2
  | firstNode _ h =>
    simp only [noProtos, noProtosAll, Bool.and_eq_true] at hp
    exact places_ordinary h hp.2.1
  | simple _ => simp
theorem placesAll_ordinary {ts : List PTree} {l : List Mark} (h : PlacesAll ts l) (hp : noProtosAll ts = true) : ∀ m ∈ l, Mark.ordinary m = true := by
  cases h with
  | nil => simp
  | cons h h' =>
    simp only [noProtosAll, Bool.and_eq_true] at hp
    exact List.forall_mem_append.2 ⟨places_ordinary h hp.1, placesAll_ordinary h' hp.2⟩
theorem decls_ordinary {ts : List PTree} {l : List Mark} (h : Decls ts l) (hp : noProtosAll ts = true) : ∀ m ∈ l, Mark.ordinary m = true := by
  cases h with
  | nil => simp
  | field h h' =>
    simp only [noProtos, noProtosAll, Bool.and_eq_true] at hp
    exact List.forall_mem_append.2 ⟨places_ordinary h hp.1.2.2.2.2.1, decls_ordinary h' hp.2⟩
  | isField h => simp only [noProtosAll, Bool.and_eq_true] at hp; exact decls_ordinary h hp.2
  | event h => simp only [noProtosAll, Bool.and_eq_true] at hp; exact decls_ordinary h hp.2
  | attr h => simp only [noProtosAll, Bool.and_eq_true] at hp; exact decls_ordinary h hp.2
  | proto _ _ => simp [noProtosAll, noProtos] at hp
  | extern _ _ => simp [noProtosAll, noProtos] at hp
  | route h h' =>
    simp only [noProtosAll, Bool.and_eq_true] at hp
    exact List.forall_mem_append.2 ⟨places_ordinary h hp.1, decls_ordinary h' hp.2⟩
theorem attrs_ordinary {ts : List PTree} {l : List Mark} (h : Attrs ts l) (hp : noProtosAll ts = true) : ∀ m ∈ l, Mark.ordinary m = true := by
  cases h with
  | nil => simp
  | attr h h' =>
    simp only [noProtosAll, Bool.and_eq_true] at hp
    exact List.forall_mem_append.2 ⟨places_ordinary h hp.1, attrs_ordinary h' hp.2⟩
  | other _ h => simp only [noProtosAll, Bool.and_eq_true] at hp; exact attrs_ordinary h hp.2
end

/-- the scopes of a file without prototypes -/
structure Flat (s : Names) : Prop where
  one : ∃ c, s.around = [c] ∧ c.scene = 0 ∧ c.protos = [] ∧ ∀ (i : Nat) (x : NodeInfo), s.nodes[i]? = some x → x.DEF ≠ [] → (c.defs.lookup x.DEF).isSome
  closed : s.closed = []
  protos : s.nprotos = 0
  scenes : s.nscenes = 1
  proto : ∀ (i : Nat) (x : NodeInfo), s.nodes[i]? = some x → x.proto = none

theorem addNode_flat {s : Names} (h : Flat s) (gi DEF : Text) : Flat (s.addNode gi none DEF) := by
  obtain ⟨⟨c, h1, h2, h3, h4⟩, h5, h6, h7, h8⟩ := h
  have hx : ∀ (i : Nat) (x : NodeInfo), (s.nodes ++ [(⟨gi, none, DEF⟩ : NodeInfo)])[i]? = some x → s.nodes[i]? = some x ∨ x = (⟨gi, none, DEF⟩ : NodeInfo) := by
    intro i x hx
    have := List.mem_of_getElem? hx
    by_cases hi : i < s.nodes.length
    · rw [List.getElem?_append_left hi] at hx; exact .inl hx
    · right
      have hi' := (List.getElem?_eq_some_iff.1 hx).1
      simp only [List.length_append, List.length_singleton] at hi'
      have : i = s.nodes.length := by omega
      subst this
      simp only [List.getElem?_concat_length, Option.some.injEq] at hx
      exact hx.symm
  have hnode : ∀ (i : Nat) (x : NodeInfo), (s.addNode gi none DEF).nodes[i]? = some x → x.proto = none := by
    intro i x h
    rw [addNode_nodes] at h
    rcases hx i x h with h | rfl
    · exact h8 i x h
    · rfl
  by_cases hD : DEF = []
  · refine ⟨⟨c, by simp [Names.addNode, hD, h1], h2, h3, fun i x h hne => ?_⟩, by simp [Names.addNode, hD, h5], by simp [Names.addNode, hD, h6], by simp [Names.addNode, hD, h7], hnode⟩
    rw [addNode_nodes] at h
    rcases hx i x h with h | rfl
    · exact h4 i x h hne
    · exact absurd hD hne
  · refine ⟨⟨{ c with defs := (DEF, s.nodes.length) :: c.defs }, by simp [Names.addNode, hD, Names.onScope, h1], h2, h3, fun i x h hne => ?_⟩, by simp [Names.addNode, hD, Names.onScope, h5],
      by simp [Names.addNode, hD, Names.onScope, h6], by simp [Names.addNode, hD, Names.onScope, h7], hnode⟩
    rw [addNode_nodes] at h
    simp only [List.lookup]
    split
    · rfl
    · next hb =>
      rcases hx i x h with h | rfl
      · exact h4 i x h hne
      · simp at hb

theorem step_flat {b : Text → Bool} {s s' : Names} {m : Mark} (hm : Mark.ordinary m = true) (h : s.step b m = some s') (hf : Flat s) : Flat s' := by
  cases m with
  | node gi DEF =>
    simp only [Names.step] at h
    have : s.proto gi = none := by
      obtain ⟨c, h1, -, h3, -⟩ := hf.one
      simp [Names.proto, h1, h3, List.lookup]
    rw [this] at h
    simp only at h
    split at h <;> cases h
    exact addNode_flat hf _ _
  | script DEF => simp only [Names.step] at h; cases h; exact addNode_flat hf _ _
  | use nm =>
    simp only [Names.step] at h
    split at h <;> cases h
    exact hf
  | route a sf c df =>
    simp only [Names.step] at h
    split at h <;> cases h
    obtain ⟨⟨c, h1, h2, h3, h4⟩, h5, h6, h7, h8⟩ := hf
    refine ⟨⟨_, by simp only [Names.onScope, h1]; rfl, ?_, ?_, ?_⟩, h5, h6, h7, h8⟩
    · exact h2
    · exact h3
    · exact h4
  | _ => cases hm

theorem run_flat {b : Text → Bool} : ∀ {l : List Mark} {s s' : Names}, (∀ m ∈ l, Mark.ordinary m = true) → Names.run b l s = some s' → Flat s → Flat s'
  | [], s, s', _, h, hf => by cases h; exact hf
  | m :: l, s, s', hm, h, hf => by
    simp only [Names.run] at h
    split at h
    · cases h
    · next s1 h1 => exact run_flat (fun x hx => hm x (by simp [hx])) h (step_flat (hm m (by simp)) h1 hf)

theorem start_flat : Flat Names.start := ⟨⟨_, rfl, rfl, rfl, by simp [Names.start]⟩, rfl, rfl, rfl, by simp [Names.start]⟩

/-- What is read from a file without prototypes. -/
theorem reads_flat (hB : Builtins base fl) {text : Text} {w : World F} (h : ReadsWorld base fl text w) {kids : List PTree} (hk : ItemsOf text kids) (hp : noProtosAll kids = true) :
    (∀ i, w.inst i = none) ∧ w.nclasses = 0 ∧ (∀ i n, w.heap i = some n → n.DEF ≠ [] → ∃ j, w.getDEF 0 n.DEF = some j) ∧
    ∀ i n, w.heap i = some n → base n.cls.proto = some n.cls ∨ n.cls.proto = scriptName := by
  obtain ⟨l, st, h1, h2, h3, h4⟩ := C74_def_scopes hB h hk (items_plain hk hp)
  have hf := run_flat (placesAll_ordinary h1 hp) h2 start_flat
  obtain ⟨_, _, _, _, _, hinv⟩ := reads_run hB false h hk (by simp)
  have hlt : ∀ i n, w.heap i = some n → ∃ x, st.nodes[i]? = some x := fun i n hi => by
    have : i < st.nodes.length := by rw [h3.nodes]; exact (hinv.ids i).1 (by rw [hi]; rfl)
    exact ⟨_, List.getElem?_eq_getElem this⟩
  refine ⟨fun i => ?_, h3.protos ▸ hf.protos, fun i n hi hD => ?_, fun i n hi => ?_⟩
  · cases hw : w.heap i with
    | none =>
      cases hk : w.inst i with
      | none => rfl
      | some k =>
        obtain ⟨-, -, n, hn, -⟩ := hinv.inst i k hk
        rw [hw] at hn; cases hn
    | some n =>
      obtain ⟨x, hx⟩ := hlt i n hw
      obtain ⟨_, _, _, _, h5, _⟩ := h3.type i x hx
      rw [h5]; exact hf.proto i x hx
  · obtain ⟨x, hx⟩ := hlt i n hi
    obtain ⟨n', hn', -, h5, -⟩ := h3.type i x hx
    rw [hi] at hn'; cases hn'
    obtain ⟨c, hc, hcs, hdef, -⟩ := h4.defs 0 (by rw [← h3.scenes, hf.scenes]; omega)
    obtain ⟨c', k1, k2, k3, k4⟩ := hf.one
    rw [k1, hf.closed] at hc
    simp only [List.append_nil, List.mem_singleton] at hc
    subst hc
    rw [h5]
    have := k4 i x hx (h5 ▸ hD)
    rw [← hdef] at this
    exact Option.isSome_iff_exists.1 this
  · obtain ⟨x, hx⟩ := hlt i n hi
    obtain ⟨n', hn', h5, -, -, -, h6⟩ := h3.type i x hx
    rw [hi] at hn'; cases hn'
    rw [h5]
    exact h6 (hf.proto i x hx)

/-! ### Names are legal -/

/-- The node has a DEF name. -/
def HasName (w : World F) (i : Nat) : Prop := ∃ n, w.heap i = some n ∧ n.DEF ≠ []

/-- DEF names and the field names of ROUTEs are names of the grammar; the ends of ROUTEs have DEF names. -/
def LegalInv (w : World F) : Prop := (∀ i n, w.heap i = some n → n.DEF = [] ∨ LegalName n.DEF) ∧
  ∀ s, ∀ r ∈ (w.scene s).routes, LegalName r.srcField ∧ LegalName r.dstField ∧ HasName w r.src ∧ HasName w r.dst

theorem HasName.mono {w w' : World F} (h : ∀ i n, w.heap i = some n → ∃ n', w'.heap i = some n' ∧ n'.DEF = n.DEF) {i : Nat} (hi : HasName w i) : HasName w' i := by
  obtain ⟨n, h1, h2⟩ := hi
  obtain ⟨n', h3, h4⟩ := h i n h1
  exact ⟨n', h3, h4 ▸ h2⟩

theorem LegalInv.of {w w' : World F} (h : LegalInv w) (hn : ∀ i n', w'.heap i = some n' → ∃ n, w.heap i = some n ∧ n'.DEF = n.DEF)
    (hk : ∀ i n, w.heap i = some n → ∃ n', w'.heap i = some n' ∧ n'.DEF = n.DEF) (hr : ∀ s, ∀ r ∈ (w'.scene s).routes, ∃ t, r ∈ (w.scene t).routes) : LegalInv w' :=
  ⟨fun i n' hi => by obtain ⟨n, h1, h2⟩ := hn i n' hi; rw [h2]; exact h.1 i n h1, fun s r hs => by
    obtain ⟨t, ht⟩ := hr s r hs
    obtain ⟨h1, h2, h3, h4⟩ := h.2 t r ht
    exact ⟨h1, h2, h3.mono hk, h4.mono hk⟩⟩

theorem Quiet.legal {w w' : World F} (h : Quiet w w') (hl : LegalInv w) : LegalInv w' := by
  refine hl.of (fun i n' hi => ?_) (fun i n hi => ?_) (fun s r hr => ⟨s, by rw [h.scene] at hr; exact hr⟩)
  · have := h.node i
    rw [hi] at this
    obtain ⟨n, h1, h2⟩ := Option.map_eq_some_iff.1 this.symm
    exact ⟨n, h1, (Prod.ext_iff.1 h2).2.symm⟩
  · have := h.node i
    rw [hi] at this
    obtain ⟨n, h1, h2⟩ := Option.map_eq_some_iff.1 this
    exact ⟨n, h1, (Prod.ext_iff.1 h2).2⟩

theorem New.legal {ss ps c k DEF} {w w' : World F} (h : New ss c k DEF w w') (he : Ext ps w w') (hD : DEF = [] ∨ LegalName DEF) (hl : LegalInv w) : LegalInv w' := by
  refine ⟨fun i n' hi => ?_, fun s r hr => ?_⟩
  · have := h.node i
    rw [hi] at this
    split at this
    · simp only [Option.map_some, Option.some.injEq, Prod.mk.injEq] at this
      rw [this.2]; exact hD
    · obtain ⟨n, h1, h2⟩ := Option.map_eq_some_iff.1 this.symm
      have h3 := (Prod.ext_iff.1 h2).2
      simp only at h3
      rw [← h3]; exact hl.1 i n h1
  · obtain ⟨h1, h2, h3, h4⟩ := hl.2 s r (by rw [(h.same s).2.2.1] at hr; exact hr)
    have hk : ∀ i n, w.heap i = some n → ∃ n', w'.heap i = some n' ∧ n'.DEF = n.DEF := fun i n hi => by
      obtain ⟨n', k1, k2, -⟩ := he.node i n hi
      exact ⟨n', k1, k2⟩
    exact ⟨h1, h2, h3.mono hk, h4.mono hk⟩

theorem Run.legal (hb : PlainBase base) {plain : Bool} {ss ps l} {w w' : World F} (hr : Run base fl plain ss ps l w w') : Inv base w ps → LegalInv w → LegalInv w' := by
  induction hr with
  | nil => exact fun _ h => h
  | trans r1 r2 ih1 ih2 => exact fun hw h => ih2 (r1.inv hb hw).1 (ih1 hw h)
  | @create ss ps gi DEF w w' hD hc =>
    intro hw h
    obtain ⟨-, c, k0, hnew, -⟩ := create_inv hb hw hc
    exact hnew.legal ((Run.create (fl := fl) (plain := plain) hD hc).inv hb hw).2 hD h
  | @script ss ps DEF w w' hD hc => exact fun hw h => (script_inv hw hc).2.legal ((Run.script (fl := fl) (plain := plain) hD hc).inv hb hw).2 hD h
  | @setClass ss ps w i n c h1 h2 h3 h4 h5 _ =>
    intro hw h
    refine h.of (fun j n' hj => ?_) (fun j n' hj => ?_) (fun s r hr => ⟨s, hr⟩)
    · simp only [World.setClass] at hj
      split at hj
      · next hji =>
        subst hji
        obtain ⟨n0, h6, rfl⟩ := Option.map_eq_some_iff.1 hj
        exact ⟨n0, h6, rfl⟩
      · exact ⟨n', hj, rfl⟩
    · simp only [World.setClass]
      split
      · next hji => subst hji; rw [hj]; exact ⟨_, rfl, rfl⟩
      · exact ⟨n', hj, rfl⟩
  | use _ => exact fun _ h => h
  | @route ss ps s sf d df si di w h1 h2 h3 h4 =>
    intro hw h
    have hq := (bind_quiet w si sf di df).legal h
    have named : ∀ {nm i}, w.getDEF (ss.headD 0) nm = some i → HasName (w.bind si sf di df) i := by
      intro nm i hi
      obtain ⟨k1, n, k2, k3⟩ := hw.table _ _ _ hi
      have := (bind_quiet w si sf di df).node i
      rw [k2] at this
      obtain ⟨n', h5, h6⟩ := Option.map_eq_some_iff.1 this
      have h7 := (Prod.ext_iff.1 h6).2
      simp only at h7
      exact ⟨n', h5, by rw [h7, k3]; exact k1⟩
    refine ⟨hq.1, fun t r hr => ?_⟩
    simp only [World.addRoute, upd] at hr
    split at hr
    · rcases List.mem_append.1 hr with hr | hr
      · exact hq.2 _ r hr
      · rw [List.mem_singleton] at hr; subst hr; exact ⟨h3, h4, named h1, named h2⟩
    · exact hq.2 t r hr
  | @is ss ps m i n nm w w' h1 h2 =>
    intro hw h
    unfold World.addIs at h2
    split at h2
    · cases h2
    · cases h2; exact h
  | @attr ss ps i n d v w w' h1 h2 h3 h4 => exact fun hw h => (setAttr_quiet h4).legal h
  | @children ss ps l w _ =>
    intro hw h
    refine h.of (fun i n hi => ⟨n, hi, rfl⟩) (fun i n hi => ⟨n, hi, rfl⟩) (fun s r hr => ?_)
    simp only [upd] at hr
    split at hr
    · exact ⟨_, hr⟩
    · exact ⟨_, hr⟩
  | decl _ _ => exact fun _ h => h
  | @body ss ps c l w w' r ih =>
    intro hw h
    have h0 : LegalInv (w.newScene (some (ss.headD 0))) := by
      refine h.of (fun i n hi => ⟨n, hi, rfl⟩) (fun i n hi => ⟨n, hi, rfl⟩) (fun s r hr => ?_)
      simp only [World.newScene, upd] at hr
      split at hr
      · cases hr
      · exact ⟨_, hr⟩
    exact ih (hw.newScene _).1 h0
  | @proto ss ps nm rest l w w' r hd ih =>
    intro hw h
    refine (ih (hw.newClass _).1 h).of (fun i n hi => ⟨n, hi, rfl⟩) (fun i n hi => ⟨n, hi, rfl⟩) (fun s r hr => ?_)
    simp only [World.addProto, upd] at hr
    split at hr
    · exact ⟨_, hr⟩
    · exact ⟨_, hr⟩

theorem reads_legal (hB : Builtins base fl) {text : Text} {w : World F} (h : ReadsWorld base fl text w) : LegalInv w := by
  obtain ⟨l, r⟩ := reads_steps hB h
  exact r.legal hB.plain init_inv ⟨fun i n hi => by simp [World.init] at hi, fun s r hr => by simp [World.init, SceneObj.new] at hr⟩

end Verif.Full
