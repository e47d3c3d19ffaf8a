import Verif.Lemmas.ProtoText3
import Verif.Props.Use
/-!
Lemmas for C67, continued: which prototypes are written.
-/
namespace Verif.Lin
open Verif.Peg Verif.Grammar Verif.TextOut Verif.Text Verif.SceneText Verif.ListText
variable {F : Type}
variable {lk : Text → Option (Class F)} {fl : Floats F} {lv : LinValues} {fuel : Nat}

theorem mem_headProtos {out : List Chunk} {x : Text} : x ∈ headProtos out ↔ x ≠ chars "Script" ∧ ∃ i d, Chunk.head i d x ∈ out := by
  simp only [headProtos, List.mem_filterMap]
  constructor
  · rintro ⟨c, h1, h2⟩
    cases c <;> simp at h2
    obtain ⟨h2, rfl⟩ := h2
    exact ⟨h2, _, _, h1⟩
  · rintro ⟨hx, i, d, h⟩
    exact ⟨_, h, if_neg hx⟩

/-- The types of the nodes written are those of the nodes in the scene. -/
theorem heads (hlv : GoodOptions lv) {sc : Scene F} {all : List Nat} (h : GoodBody lk fl sc all) (hsl : ScriptLines lv sc) (hf : all.length < fuel) {st : St}
    (hst : linBody lv fl (preroute sc) fuel = .ok st) (x : Text) : x ∈ headProtos st.out ↔ Uses sc x := by
  obtain ⟨st', h1, h2, h3⟩ := body_good hlv h hf
  rw [hst] at h1
  cases h1
  have hren := C11_only_names_added sc
  obtain ⟨hd, -⟩ := body_read_any (b := true) hlv hst h2 (goodHeap_of h) (hren.scriptLines hsl) h3 (fun _ => rfl) (w2 := []) (z := []) .nil ⟨by simp, by simp⟩ rootItem_end (by intro c s h; simp at h)
  have hi : HeadInv (preroute sc).heap st := ((headSteps _).body hst).2 (by intro i d p hm; simp at hm)
  have hu : UseInv (preroute sc).heap st := ((useSteps _).body hst).2 ⟨by intro pre post i d he; simp at he, by intro i n x _ hx; simp [St.look] at hx⟩
  rw [mem_headProtos]
  constructor
  · rintro ⟨hx, i, d, hm⟩
    obtain ⟨e1, m, e2, e3⟩ := hi i d x hm
    rcases hren.node i with ⟨-, e4⟩ | ⟨n, m', e4, e5, e6, -, -⟩
    · rw [e2] at e4; cases e4
    · rw [e2] at e5; cases e5
      exact ⟨hx, i, n, hren.reach_iff.1 ((hd i).2 e1), e4, by rw [← e6]; exact e3⟩
  · rintro ⟨hx, i, n, e1, e2, e3⟩
    rcases hren.node i with ⟨e4, -⟩ | ⟨n', m, e4, e5, e6, -, -⟩
    · rw [e2] at e4; cases e4
    · rw [e2] at e4; cases e4
      obtain ⟨y, hy⟩ := (hd i).1 (hren.reach_iff.2 e1)
      exact ⟨hx, i, m.DEF, by rw [← e3, ← e6]; exact hu.2 i m y e5 hy⟩

/-! ### The prototypes written -/

def PSt.names (ps : PSt) : List Text := ps.out.map Prod.fst

/-- Pieces of prototypes: each name once, prototypes needed in front. -/
inductive Pieces (lv : LinValues) (fl : Floats F) (fuel : Nat) (f : File F) : List (Text × Text) → Prop
  | nil : Pieces lv fl fuel f []
  | snoc {out x p t} : Pieces lv fl fuel f out → x ∉ out.map Prod.fst → Needed f x → f.protos x = some p → IsPiece lv fl fuel p t →
      (∀ y, Dep f.protos x y → y ∈ out.map Prod.fst) → Pieces lv fl fuel f (out ++ [(x, t)])

/-- What a call of the writer for prototypes does. -/
structure Wrote (lv : LinValues) (fl : Floats F) (fuel : Nat) (f : File F) (ps ps' : PSt) : Prop where
  pieces : Pieces lv fl fuel f ps'.out
  pre : ps.out <+: ps'.out
  known : ∀ y ∈ ps'.names, y ∈ ps'.done
  done : ∀ y ∈ ps'.done, y ∈ ps.done ∨ y ∈ ps'.names
  pending : ∀ y ∈ ps.done, y ∉ ps.names → y ∉ ps'.names
  mono : ∀ y ∈ ps.done, y ∈ ps'.done

theorem Wrote.refl {f : File F} {ps : PSt} (h : Pieces lv fl fuel f ps.out) (hk : ∀ y ∈ ps.names, y ∈ ps.done) : Wrote lv fl fuel f ps ps :=
  ⟨h, List.prefix_rfl, hk, fun _ h => .inl h, fun _ _ h => h, fun _ h => h⟩

theorem Wrote.names {f : File F} {ps ps' : PSt} (h : Wrote lv fl fuel f ps ps') : ∀ y ∈ ps.names, y ∈ ps'.names := by
  intro y hy
  obtain ⟨t, ht⟩ := h.pre
  simp only [PSt.names, ← ht, List.map_append, List.mem_append]
  exact .inl hy

theorem Wrote.pend {f : File F} {ps ps' : PSt} (h : Wrote lv fl fuel f ps ps') : ∀ y ∈ ps'.done, y ∉ ps'.names → y ∈ ps.done ∧ y ∉ ps.names :=
  fun y h1 h2 => ⟨(h.done y h1).resolve_right h2, fun h3 => h2 (h.names y h3)⟩

theorem fold_wrote {f : File F} {g : PSt → Text → Res PSt} {ok : PSt → Text → Prop} (hok : ∀ ps ps' x, Wrote lv fl fuel f ps ps' → ok ps x → ok ps' x)
    (hg : ∀ ps x, Pieces lv fl fuel f ps.out → (∀ y ∈ ps.names, y ∈ ps.done) → ok ps x →
      ∃ ps', g ps x = .ok ps' ∧ Wrote lv fl fuel f ps ps' ∧ (f.protos x ≠ none → x ∈ ps'.names)) :
    ∀ (l : List Text) (ps : PSt), Pieces lv fl fuel f ps.out → (∀ y ∈ ps.names, y ∈ ps.done) → (∀ x ∈ l, ok ps x) →
      ∃ ps', foldRes g ps l = .ok ps' ∧ Wrote lv fl fuel f ps ps' ∧ ∀ x ∈ l, f.protos x ≠ none → x ∈ ps'.names := by
  intro l
  induction l with
  | nil => intro ps h1 h2 _; exact ⟨ps, rfl, .refl h1 h2, by simp⟩
  | cons x l ih =>
    intro ps h1 h2 h3
    obtain ⟨ps1, e1, e2, e3⟩ := hg ps x h1 h2 (h3 x (by simp))
    obtain ⟨ps2, e4, e5, e6⟩ := ih ps1 e2.pieces e2.known (fun y hy => hok _ _ _ e2 (h3 y (by simp [hy])))
    refine ⟨ps2, by simp only [foldRes, e1, e4], ⟨e5.pieces, e2.pre.trans e5.pre, e5.known, fun y hy => ?_, fun y hy hn => e5.pending y (e2.mono y hy) (e2.pending y hy hn), fun y hy => e5.mono y (e2.mono y hy)⟩, ?_⟩
    · rcases e5.done y hy with h | h
      · rcases e2.done y h with h | h
        · exact .inl h
        · exact .inr (e5.names y h)
      · exact .inr h
    · intro y hy hp
      rcases List.mem_cons.1 hy with rfl | hy
      · exact e5.names _ (e3 hp)
      · exact e6 y hy hp

theorem GoodProto.isPiece {lk0 : Text → Option (Class F)} {x : Text} {p : ProtoDef F} (hlv : GoodOptions lv) (hg : GoodProto lk0 fl fuel x p) (hsl : ∀ b, p.body = some b → ScriptLines lv b) :
    ∃ ft b st, fieldsText lv (declFields p.fields) = .ok ft ∧ p.body = some b ∧ linBody lv fl (preroute b) fuel = .ok st ∧
      ∀ y, y ∈ headProtos st.out ↔ Uses b y := by
  obtain ⟨ft, h1, -⟩ := decls_read (lk := lk0) hlv hg
  obtain ⟨b, all, e1, e2, e3, e4, e5⟩ := hg.body
  obtain ⟨st, f1, -, -⟩ := body_good hlv e3 e4
  exact ⟨ft, b, st, h1, e1, f1, heads hlv e3 (hsl b e1) e4 f1⟩

theorem write_one (hlv : GoodOptions lv) {lk0 : Text → Option (Class F)} {f : File F} (hp : ∀ x p, Needed f x → f.protos x = some p → GoodProto lk0 fl fuel x p)
    (hsl : ∀ x p b, Needed f x → f.protos x = some p → p.body = some b → ScriptLines lv b)
    {rank : Text → Nat} (hrank : ∀ x y, Needed f x → Dep f.protos x y → rank y < rank x) :
    ∀ (k : Nat) (ps : PSt) (x : Text), Pieces lv fl fuel f ps.out → (∀ y ∈ ps.names, y ∈ ps.done) →
      (f.protos x ≠ none → Needed f x ∧ rank x < k ∧ ∀ y ∈ ps.done, y ∉ ps.names → rank x < rank y) →
      ∃ ps', writeProto lv fl f.protos fuel k ps x = .ok ps' ∧ Wrote lv fl fuel f ps ps' ∧ (f.protos x ≠ none → x ∈ ps'.names) := by
  intro k
  induction k with
  | zero =>
    intro ps x h1 h2 h3
    have hn : f.protos x = none := by
      by_contra h; exact absurd (h3 h).2.1 (by omega)
    exact ⟨ps, by simp [writeProto, hn], .refl h1 h2, fun h => absurd hn h⟩
  | succ k ih =>
    intro ps x h1 h2 h3
    cases hx : f.protos x with
    | none => exact ⟨ps, by simp [writeProto, hx], .refl h1 h2, fun h => absurd rfl h⟩
    | some p =>
      obtain ⟨n1, n2, n3⟩ := h3 (by simp [hx])
      by_cases hd : x ∈ ps.done
      · refine ⟨ps, by simp [writeProto, hx, hd], .refl h1 h2, fun _ => ?_⟩
        by_contra hc
        exact absurd (n3 x hd hc) (by omega)
      · have hg := hp x p n1 hx
        obtain ⟨ft, b, st, e1, e2, e3, e4⟩ := hg.isPiece hlv (fun b hb => hsl x p b n1 hx hb)
        have hxn : x ∉ ps.names := fun h => hd (h2 x h)
        have hdep : ∀ y ∈ p.free ++ headProtos st.out, f.protos y ≠ none → Dep f.protos x y := by
          intro y hy hyp
          obtain ⟨q, hq⟩ := Option.ne_none_iff_exists'.1 hyp
          refine ⟨p, q, hx, hq, ?_⟩
          rcases List.mem_append.1 hy with h | h
          · exact .inl h
          · exact .inr ⟨b, e2, (e4 y).1 h⟩
        obtain ⟨ps', g1, g2, g3⟩ := fold_wrote (lv := lv) (fl := fl) (fuel := fuel) (f := f) (g := writeProto lv fl f.protos fuel k)
          (ok := fun ps x => f.protos x ≠ none → Needed f x ∧ rank x < k ∧ ∀ y ∈ ps.done, y ∉ ps.names → rank x < rank y)
          (by
            intro ps ps' x hw hok hne
            obtain ⟨a1, a2, a3⟩ := hok hne
            refine ⟨a1, a2, fun y hy hn => ?_⟩
            obtain ⟨b1, b2⟩ := hw.pend y hy hn
            exact a3 y b1 b2) ih (p.free ++ headProtos st.out) { ps with done := x :: ps.done } h1
          (fun y hy => List.mem_cons_of_mem _ (h2 y hy))
          (by
            intro y hy hyp
            have hyd := hdep y hy hyp
            have hr := hrank x y n1 hyd
            refine ⟨.dep n1 hyd, by omega, fun z hz hzn => ?_⟩
            rcases List.mem_cons.1 hz with rfl | hz
            · exact hr
            · exact lt_trans hr (n3 z hz hzn))
        have hxn' : x ∉ ps'.names := g2.pending x (by simp) hxn
        refine ⟨{ ps' with out := ps'.out ++ [(x, protoText lv p.name (eventsText lv lv.indent p.events ++ ft) (textOf st.out))] }, ?_, ⟨?_, ?_, ?_, ?_, ?_, ?_⟩, ?_⟩
        · simp only [writeProto, hx, hd, if_false, e1, e2, e3, g1]
          rcases hg.url with h | h <;> simp only [h]
        · refine .snoc g2.pieces hxn' n1 hx ⟨ft, b, st, e1, e2, e3, rfl⟩ fun y hy => ?_
          obtain ⟨p', q, i1, i2, i3⟩ := hy
          rw [hx] at i1
          cases i1
          refine g3 y ?_ (by simp [i2])
          rcases i3 with h | ⟨b', h4, h5⟩
          · exact List.mem_append_left _ h
          · rw [e2] at h4
            cases h4
            exact List.mem_append_right _ ((e4 y).2 h5)
        · exact g2.pre.trans (List.prefix_append _ _)
        · intro y hy
          simp only [PSt.names, List.map_append, List.mem_append, List.map_cons, List.map_nil, List.mem_singleton] at hy
          rcases hy with hy | rfl
          · exact g2.known y hy
          · exact g2.mono y (by simp)
        · intro y hy
          simp only [PSt.names, List.map_append, List.mem_append, List.map_cons, List.map_nil, List.mem_singleton]
          rcases g2.done y hy with h | h
          · rcases List.mem_cons.1 h with rfl | h
            · exact .inr (.inr rfl)
            · exact .inl h
          · exact .inr (.inl h)
        · intro y hy hn
          simp only [PSt.names, List.map_append, List.mem_append, List.map_cons, List.map_nil, List.mem_singleton, not_or]
          exact ⟨g2.pending y (by simp [hy]) hn, fun h => hd (h ▸ hy)⟩
        · exact fun y hy => g2.mono y (by simp [hy])
        · intro _
          simp [PSt.names]

theorem Pieces.needed {f : File F} {out : List (Text × Text)} (h : Pieces lv fl fuel f out) : ∀ x ∈ out.map Prod.fst, Needed f x := by
  induction h with
  | nil => simp
  | snoc _ _ hn _ _ _ ih =>
    intro y hy
    simp only [List.map_append, List.mem_append, List.map_cons, List.map_nil, List.mem_singleton] at hy
    rcases hy with hy | rfl
    · exact ih y hy
    · exact hn

theorem Pieces.closed {f : File F} {out : List (Text × Text)} (h : Pieces lv fl fuel f out) : ∀ x ∈ out.map Prod.fst, ∀ y, Dep f.protos x y → y ∈ out.map Prod.fst := by
  induction h with
  | nil => simp
  | snoc _ _ _ _ _ hc ih =>
    intro y hy z hz
    simp only [List.map_append, List.mem_append, List.map_cons, List.map_nil, List.mem_singleton] at hy ⊢
    rcases hy with hy | rfl
    · exact .inl (ih y hy z hz)
    · exact .inl (hc z hz)

/-- The prototypes written for a file are those it needs, each after those it needs itself. -/
theorem write_protos (hlv : GoodOptions lv) {lk0 : Text → Option (Class F)} {f : File F} {depth : Nat} (hp : ∀ x p, Needed f x → f.protos x = some p → GoodProto lk0 fl fuel x p)
    (hsl : ∀ x p b, Needed f x → f.protos x = some p → p.body = some b → ScriptLines lv b)
    {rank : Text → Nat} (hrank : ∀ x y, Needed f x → Dep f.protos x y → rank y < rank x) (hdepth : ∀ x, Needed f x → rank x < depth)
    {st : St} (hst : ∀ y, y ∈ headProtos st.out ↔ Uses f.scene y) :
    ∃ ps, foldRes (writeProto lv fl f.protos fuel depth) ⟨[], []⟩ (f.free ++ headProtos st.out) = .ok ps ∧ Pieces lv fl fuel f ps.out ∧ ∀ x, Needed f x ↔ x ∈ ps.names := by
  have hn : ∀ y ∈ f.free ++ headProtos st.out, f.protos y ≠ none → Needed f y := by
    intro y hy hyp
    obtain ⟨q, hq⟩ := Option.ne_none_iff_exists'.1 hyp
    rcases List.mem_append.1 hy with h | h
    · exact .free h hq
    · exact .used ((hst y).1 h) hq
  obtain ⟨ps', g1, g2, g3⟩ := fold_wrote (lv := lv) (fl := fl) (fuel := fuel) (f := f) (g := writeProto lv fl f.protos fuel depth)
    (ok := fun ps x => f.protos x ≠ none → Needed f x ∧ rank x < depth ∧ ∀ y ∈ ps.done, y ∉ ps.names → rank x < rank y)
    (by
      intro ps ps' x hw hok hne
      obtain ⟨a1, a2, a3⟩ := hok hne
      refine ⟨a1, a2, fun y hy hn => ?_⟩
      obtain ⟨b1, b2⟩ := hw.pend y hy hn
      exact a3 y b1 b2) (write_one hlv hp hsl hrank depth) (f.free ++ headProtos st.out) ⟨[], []⟩ .nil (by simp [PSt.names])
    (fun y hy hyp => ⟨hn y hy hyp, hdepth y (hn y hy hyp), by simp⟩)
  refine ⟨ps', g1, g2.pieces, fun x => ⟨fun h => ?_, g2.pieces.needed x⟩⟩
  induction h with
  | free h1 h2 => exact g3 _ (List.mem_append_left _ h1) (by simp [h2])
  | used h1 h2 => exact g3 _ (List.mem_append_right _ ((hst _).2 h1)) (by simp [h2])
  | dep _ hd ih => exact g2.pieces.closed _ ih _ hd

end Verif.Lin
