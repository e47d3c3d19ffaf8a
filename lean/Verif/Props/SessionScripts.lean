import Verif.Props.Session
import Verif.Props.EditScripts
import Verif.Props.OuterRoutes
import Verif.Spec.SessionScripts
/-!
C95 with Scripts.
-/
namespace Verif.Editing
open Verif.TextOut Verif.Text Verif.SceneText Verif.Reader Verif.Full Verif.Library
open Verif.Lin hiding disp dispList dispDecls dispAttrs disp_node disp_attr
variable {F : Type}

theorem node_distinct {N : Num F} {n : Node F} (h : NodeInOrder N n) : (n.cls.fields.map FieldDecl.name ++ n.cls.events.map EventDecl.name).Nodup := by
  rcases h with ⟨h, -⟩ | h
  · exact (class_names h).2.2.1
  · exact h.distinct

theorem port_of_distinct {c : Class F} (h : (c.fields.map FieldDecl.name ++ c.events.map EventDecl.name).Nodup) {d : FieldDecl F} (hd : d ∈ c.fields) : c.port d.name = some (.inl d) := by
  obtain ⟨h1, -, h3⟩ := List.nodup_append.1 h
  unfold Class.port
  have he : c.events.find? (fun e => e.name == d.name) = none := by
    rw [List.find?_eq_none]
    intro e hm hb
    exact h3 _ (List.mem_map_of_mem hd) _ (List.mem_map_of_mem hm) (by simpa using hb : e.name = d.name).symm
  rw [he]
  have hf : c.fields.find? (fun x => x.name == d.name) = some d := by
    cases hx : c.fields.find? (fun x => x.name == d.name) with
    | none => exact absurd (List.find?_eq_none.1 hx d hd) (by simp)
    | some x =>
      have : x = d := List.inj_on_of_nodup_map h1 (List.mem_of_find?_eq_some hx) hd (by simpa using List.find?_some hx)
      rw [this]
  simp [hf]

/-- a field that is led to stores a value that its type makes -/
theorem leads_coerced {N : Num F} {w : Work F} {i : Nat} {f : Text} {v u : Val F} (hs : Starts (objects N w) i f v u) (hK : KeepsValue (objects N w) (i, f) v u) {j : Nat} {n : Node F}
    (hn : w.scene.heap j = some n) (hdis : (n.cls.fields.map FieldDecl.name ++ n.cls.events.map EventDecl.name).Nodup) {d : FieldDecl F} (hd : d ∈ n.cls.fields) (hl : Leads w (i, f) (j, d.name)) :
    ∃ x, coerce d.kind d.conv x = some u := by
  rcases Relation.ReflTransGen.cases_tail hl with he | ⟨q, hq, hr⟩
  · cases he
    obtain ⟨n', h1, h2⟩ := hs
    have h1 : w.scene.heap i = some n' := h1
    rw [hn] at h1; cases h1
    rw [port_of_distinct hdis hd] at h2
    rcases h2 with ⟨d', h2, h3⟩ | ⟨e, h2⟩
    · cases h2; exact ⟨v, h3⟩
    · cases h2
  · generalize hx : (j, d.name) = x at hr
    cases hr with
    | @route r n' a m d' h1 h2 h3 h4 h5 =>
      injection hx with hx1 hx2
      subst hx1
      rw [hn] at h4; cases h4
      have hw : (⟨r.src, portName a, r.dst, r.dstField⟩ : Wire) ∈ (objects N w).wires := objects_wires.2 ⟨r, h1, n', a, h2, h3, rfl⟩
      have : d' = d := List.inj_on_of_nodup_map (List.nodup_append.1 hdis).1 (Reader.getField_mem h5) hd hx2.symm
      subst this
      rcases hK _ hw (C95_connections.2 hq) with ⟨e, ⟨m, k1, k2⟩, k3, -⟩ | ⟨e, ⟨m, k1, k2⟩, -⟩
      · have k1 : w.scene.heap r.dst = some m := k1
        rw [hn] at k1; cases k1
        rw [h5] at k2; cases k2
        exact ⟨v, k3⟩
      · have k1 : w.scene.heap r.dst = some m := k1
        rw [hn] at k1; cases k1
        rw [h5] at k2; cases k2

/-- what an allowed assignment does -/
theorem assign_does_s {N : Num F} {w : Work F} (ho : ScriptsInOrder N w) {i : Nat} {f : Text} {v u : Val F} (ha : AssignableS N w i f v u) :
    ∃ heap, act N w (.assign i f v) = some { w with scene := { w.scene with heap := heap } } ∧
      (∀ j, (heap j).map (fun n => (n.cls, n.DEF)) = (w.scene.heap j).map (fun n => (n.cls, n.DEF))) ∧
      ∀ j ∈ w.live, ∀ n m, w.scene.heap j = some n → heap j = some m → ∀ d ∈ n.cls.fields,
        (Leads w (i, f) (j, d.name) → m.dict d.name = some u) ∧ (¬ Leads w (i, f) (j, d.name) → m.dict d.name = n.dict d.name) := by
  obtain ⟨w', h1, h2, h3⟩ := C93_assignment_spreads ha.starts ha.keeps
  refine ⟨w'.heap, by simp only [act, h1, Option.map_some], h2.nodes, fun j hj n m hn hm d hd => ?_⟩
  obtain ⟨n', e1, e2⟩ := ho.nodes j hj
  rw [hn] at e1; cases e1
  have hat := h3 j d.name ⟨n, d, hn, port_of_distinct (node_distinct e2) hd⟩
  rw [C95_connections] at hat
  have hold : (objects N w).at j d.name = n.dict d.name := by
    show (w.scene.heap j).bind _ = _
    rw [hn]; rfl
  have hnew : w'.at j d.name = m.dict d.name := by
    simp only [World.at, hm, Option.bind_some]
  rw [hold, hnew] at hat
  exact hat

/-- a Script some of whose fields get new values -/
theorem script_update {N : Num F} {n m : Node F} (h : LibraryScriptNode N { n with DEF := [] }) (hc : m.cls = n.cls)
    (hv : ∀ d ∈ n.cls.fields, m.dict d.name = n.dict d.name ∨ ∃ u x, m.dict d.name = some u ∧ ScriptMay d.name u ∧ coerce d.kind d.conv x = some u) : LibraryScriptNode N { m with DEF := [] } := by
  have hcom := h.common
  have hF := h.fields
  have hE := h.events
  have hC := h.common
  dsimp only at hF hE hC
  rw [← hc] at hF hE hC
  refine {
    proto := (show m.cls.proto = _ from hc ▸ h.proto), DEF := .inl rfl, mapped := (show m.cls.mapped = _ from hc ▸ h.mapped), external := (show ∃ d ∈ m.cls.fields, d.name = chars "externalURL" from hc ▸ h.external),
    distinct := (show (m.cls.fields.map FieldDecl.name ++ m.cls.events.map EventDecl.name).Nodup from hc ▸ h.distinct), fields := hF, events := hE, common := hC,
    url := fun v hvv => ?_, flags := fun f hf v hvv => ?_, declared := ?_ }
  · have hd := (hcom ⟨⟨chars "url", chars "MFString", .mfString, fun _ => [], id, .list (.strs [])⟩, true⟩ (by simp [scriptProto]) (show chars "url" ≠ chars "externalURL" by decide)).1
    rcases hv _ hd with e | ⟨u, x, e1, e2, -⟩
    · exact h.url v (e.symm.trans hvv)
    · have hvv : m.dict (chars "url") = some v := hvv
      rw [show m.dict (chars "url") = some u from e1] at hvv; cases hvv
      rcases e2 with e2 | e2 | e2
      · exact absurd e2 (show chars "url" ≠ chars "directOutput" by decide)
      · exact absurd e2 (show chars "url" ≠ chars "mustEvaluate" by decide)
      · exact e2.2
  · have hd : ∃ d ∈ n.cls.fields, d.name = f := by
      simp only [List.mem_cons, List.not_mem_nil, or_false] at hf
      rcases hf with rfl | rfl
      · exact ⟨_, (hcom ⟨⟨chars "directOutput", chars "SFBool", .sfBool, fun _ => [], id, .scalar (.bool false)⟩, false⟩ (by simp [scriptProto]) (show chars "directOutput" ≠ chars "externalURL" by decide)).1, rfl⟩
      · exact ⟨_, (hcom ⟨⟨chars "mustEvaluate", chars "SFBool", .sfBool, fun _ => [], id, .scalar (.bool false)⟩, false⟩ (by simp [scriptProto]) (show chars "mustEvaluate" ≠ chars "externalURL" by decide)).1, rfl⟩
    obtain ⟨d, hd, rfl⟩ := hd
    have hvv : m.dict d.name = some v := hvv
    rcases hv d hd with e | ⟨u, x, e1, e2, e3⟩
    · exact h.flags _ hf v (e.symm.trans hvv)
    · rw [e1] at hvv; cases hvv
      have hf' : d.name = chars "url" ∨ d.name = chars "directOutput" ∨ d.name = chars "mustEvaluate" := by
        simp only [List.mem_cons, List.not_mem_nil, or_false] at hf; exact .inr hf
      rcases script_field h hf' hd rfl with ⟨k, -⟩ | ⟨-, k⟩
      · exfalso
        rw [k] at hf
        revert hf; decide
      · rw [k] at e3
        have ht := coerce_type e3
        cases v <;> first | exact ⟨_, rfl⟩ | cases ht
  · show ∀ d ∈ m.cls.fields, Declared m.cls d.name → _
    rw [hc]
    intro d hd hdec
    obtain ⟨v, k1, k2, k3⟩ := h.declared d hd hdec
    refine ⟨v, k1, ?_, k3⟩
    rcases hv d hd with e | ⟨u, x, -, e2, -⟩
    · rw [← k2]
      simp only [FieldDecl.read, e]
    · exfalso
      rcases e2 with e2 | e2 | e2
      · exact hdec.2.2.1 e2
      · exact hdec.2.2.2 e2
      · exact hdec.2.1 e2.1

theorem assign_scripts {N : Num F} {w : Work F} (ho : ScriptsInOrder N w) {i : Nat} {f : Text} {v u : Val F} (ha : AssignableS N w i f v u) {w' : Work F} (h : act N w (.assign i f v) = some w') :
    ScriptsInOrder N w' := by
  obtain ⟨heap, h1, h2, h3⟩ := assign_does_s ho ha
  rw [h1] at h; cases h
  have hback : ∀ k m, heap k = some m → ∃ n, w.scene.heap k = some n ∧ m.cls = n.cls ∧ m.DEF = n.DEF := by
    intro k m hm
    have := h2 k
    rw [hm] at this
    cases hn : w.scene.heap k with
    | none => rw [hn] at this; cases this
    | some n =>
      rw [hn] at this
      simp only [Option.map_some, Option.some.injEq, Prod.mk.injEq] at this
      exact ⟨n, rfl, this.1, this.2⟩
  have hold : ∀ l j, Holds ⟨{ w.scene with heap := heap }, w.live⟩ l j → Holds w l j ∨ j ∈ u.nodes := by
    intro l j h
    cases h with
    | child h => exact .inl (.child h)
    | @field k m d v' p _ g1 g2 g3 g4 g5 =>
      obtain ⟨n, hn, e1, -⟩ := hback k m g2
      rw [e1] at g3
      obtain ⟨k1, k2⟩ := h3 k g1 n m hn g2 d g3
      by_cases hl : Leads w (i, f) (k, d.name)
      · right
        simp only [FieldDecl.read, k1 hl, Option.some.injEq] at g4
        subst g4
        exact List.mem_of_getElem? g5
      · left
        refine .field g1 hn g3 ?_ g5
        simpa only [FieldDecl.read, k2 hl] using g4
  refine ⟨fun k hk => ?_, fun k hk m hm => ?_, fun l j h => ?_, fun j m l l' hm hD g1 g2 => ?_, fun k hk m hm hD => ?_, ho.routes, ho.file⟩
  · obtain ⟨n, e1, e2⟩ := ho.nodes k hk
    have := h2 k
    rw [e1] at this
    cases hm : heap k with
    | none => rw [hm] at this; cases this
    | some m =>
      rw [hm] at this
      simp only [Option.map_some, Option.some.injEq, Prod.mk.injEq] at this
      refine ⟨m, hm, ?_⟩
      have hdis := node_distinct e2
      rcases e2 with ⟨e2, e3⟩ | e2
      · refine .inl ⟨by rw [this.1]; exact e2, fun d hd v' hv => ?_⟩
        rw [this.1] at hd
        obtain ⟨k1, k2⟩ := h3 k hk n m e1 hm d hd
        by_cases hl : Leads w (i, f) (k, d.name)
        · rw [k1 hl] at hv; cases hv
          have hfit := ha.fits k n d hk e1 hd hl
          rwa [if_neg (fun hs => by rw [hs, show chars "Script" = scriptName from rfl, no_script_class] at e2; cases e2)] at hfit
        · rw [k2 hl] at hv
          exact e3 d hd v' hv
      · refine .inr (script_update e2 this.1 fun d hd => ?_)
        obtain ⟨k1, k2⟩ := h3 k hk n m e1 hm d hd
        by_cases hl : Leads w (i, f) (k, d.name)
        · have hfit := ha.fits k n d hk e1 hd hl
          rw [if_pos e2.proto] at hfit
          obtain ⟨x, hx⟩ := leads_coerced ha.starts ha.keeps e1 hdis hd hl
          exact .inr ⟨u, x, k1 hl, hfit, hx⟩
        · exact .inl (k2 hl)
  · obtain ⟨n, hn, -, e2⟩ := hback k m hm
    rw [e2]; exact ho.DEF k hk n hn
  · rcases hold l j h with h | h
    · exact ho.closed l j h
    · exact (ha.named j h).1
  · obtain ⟨n, hn, -, e2⟩ := hback j m hm
    have hno : j ∉ u.nodes := fun hj => (ha.named j hj).2 n hn (e2.symm.trans hD)
    exact ho.once j n l l' hn (e2.symm.trans hD) ((hold l j g1).resolve_right hno) ((hold l' j g2).resolve_right hno)
  · obtain ⟨n, hn, -, e2⟩ := hback k m hm
    rw [e2] at hD ⊢
    exact ho.registered k hk n hn hD

/-! ### Programs -/

theorem act_scripts {N : Num F} {w : Work F} (ho : ScriptsInOrder N w) {a : Act F} (ha : AllowedActS N w a) {w' : Work F} (h : act N w a = some w') : ScriptsInOrder N w' := by
  cases a with
  | edit e =>
    cases h
    exact apply_scripts ho ha.1
  | assign i f v =>
    obtain ⟨u, hu⟩ := ha
    exact assign_scripts ho hu h

theorem act_keeps_s {N : Num F} {w : Work F} (ho : ScriptsInOrder N w) {a : Act F} (ha : AllowedActS N w a) {w' : Work F} (h : act N w a = some w') {j : Nat} (hj : j ∈ w.live) {n : Node F}
    (hn : w.scene.heap j = some n) :
    j ∈ w'.live ∧ ∃ m, w'.scene.heap j = some m ∧ m.cls = n.cls ∧ ∀ d ∈ n.cls.fields, ¬ Changes w (j, d.name) a → m.dict d.name = n.dict d.name := by
  cases a with
  | edit e =>
    cases h
    obtain ⟨h1, m, h2, h3, h4, -⟩ := apply_keeps_s ho ha.1 hj hn
    exact ⟨h1, m, h2, h3, fun d _ hd => h4 d.name hd⟩
  | assign i f v =>
    obtain ⟨u, hu⟩ := ha
    obtain ⟨heap, h1, h2, h3⟩ := assign_does_s ho hu
    rw [h1] at h; cases h
    have := h2 j
    rw [hn] at this
    cases hm : heap j with
    | none => rw [hm] at this; cases this
    | some m =>
      rw [hm] at this
      simp only [Option.map_some, Option.some.injEq, Prod.mk.injEq] at this
      exact ⟨hj, m, hm, this.1, fun d hd hc => (h3 j hj n m hn hm d hd).2 hc⟩

theorem session_scripts {N : Num F} {l : List (Act F)} : ∀ {w : Work F}, ScriptsInOrder N w → AllowedSessionS N w l → ∃ w', session N w l = some w' ∧ ScriptsInOrder N w' := by
  induction l with
  | nil => intro w ho _; exact ⟨w, rfl, ho⟩
  | cons a l ih =>
    intro w ho h
    cases h with
    | cons h1 h2 h3 =>
      obtain ⟨w', e1, e2⟩ := ih (act_scripts ho h1 h2) h3
      exact ⟨w', by simp only [session, List.foldlM_cons, h2, Option.bind_eq_bind, Option.bind_some]; exact e1, e2⟩

theorem session_keeps_s {N : Num F} {l : List (Act F)} : ∀ {w : Work F}, ScriptsInOrder N w → AllowedSessionS N w l → ∀ {w' : Work F}, session N w l = some w' → ∀ {j : Nat}, j ∈ w.live → ∀ {n : Node F},
    w.scene.heap j = some n → ∃ m, w'.scene.heap j = some m ∧ m.cls = n.cls ∧ ∀ d ∈ n.cls.fields, Untouched N (j, d.name) w l → m.dict d.name = n.dict d.name := by
  induction l with
  | nil => intro w _ _ w' h j _ n hn; cases h; exact ⟨n, hn, rfl, fun _ _ _ => rfl⟩
  | cons a l ih =>
    intro w ho h w' hs j hj n hn
    cases h with
    | @cons _ _ w1 _ h1 h2 h3 =>
      simp only [session, List.foldlM_cons, h2, Option.bind_eq_bind, Option.bind_some] at hs
      obtain ⟨hj', m, k1, k2, k3⟩ := act_keeps_s ho h1 h2 hj hn
      obtain ⟨m', g1, g2, g3⟩ := ih (act_scripts ho h1 h2) h3 hs hj' k1
      refine ⟨m', g1, g2.trans k2, fun d hd hu => ?_⟩
      cases hu with
      | cons u1 u2 u3 =>
        rw [h2] at u2; cases u2
        rw [g3 d (by rw [k2]; exact hd) u3, k3 d hd u1]

/-- **C95** With Scripts: every action succeeds, the scene can be saved at any time, and what is loaded is the scene as it is then, which saves as the same text. -/
theorem C95_scripts_session_saved {N : Num F} (hN : GoodNum N) {lv : LinValues} (hlv : GoodOptions lv) {w : Work F} (ho : ScriptsInOrder N w) {l : List (Act F)} (ha : AllowedSessionS N w l) :
    ∃ now, session N w l = some now ∧ (Finished now → ScriptLines lv now.scene → ∀ fuel, now.live.length < fuel →
      ∃ text named w' φ, linearise lv (floats N) now.scene fuel = .ok (text, named) ∧ Renamed now.scene named ∧
        ReadsWorld (library N) (floats N) text w' ∧ SameScene named w'.file φ ∧ linearise lv (floats N) w'.file fuel = .ok (text, w'.file)) := by
  obtain ⟨now, h1, h2⟩ := session_scripts ho ha
  exact ⟨now, h1, fun hf hl fuel hfu => C92_scripts_edited_saved (es := []) hN hlv h2 .nil hf hl hfu⟩

theorem session_split_s {N : Num F} {b : List (Act F)} {a : Act F} : ∀ {l : List (Act F)} {w w' : Work F}, AllowedSessionS N w (l ++ a :: b) → session N w (l ++ a :: b) = some w' →
    ∃ w1 w2, session N w l = some w1 ∧ AllowedSessionS N w l ∧ AllowedActS N w1 a ∧ act N w1 a = some w2 ∧ AllowedSessionS N w2 b ∧ session N w2 b = some w' := by
  intro l
  induction l with
  | nil =>
    intro w w' h hs
    cases h with
    | cons h1 h2 h3 =>
      refine ⟨w, _, rfl, .nil, h1, h2, h3, ?_⟩
      simpa only [session, List.nil_append, List.foldlM_cons, h2, Option.bind_eq_bind, Option.bind_some] using hs
  | cons x l ih =>
    intro w w' h hs
    cases h with
    | cons h1 h2 h3 =>
      simp only [session, List.cons_append, List.foldlM_cons, h2, Option.bind_eq_bind, Option.bind_some] at hs
      obtain ⟨w1, w2, e1, e2, e3, e4, e5, e6⟩ := ih h3 hs
      exact ⟨w1, w2, by simp only [session, List.foldlM_cons, h2, Option.bind_eq_bind, Option.bind_some]; exact e1, .cons h1 h2 e2, e3, e4, e5, e6⟩

theorem saved_field_s {N : Num F} (hN : GoodNum N) {lv : LinValues} (hlv : GoodOptions lv) {now : Work F} (ho : ScriptsInOrder N now) (hf : Finished now) (hsl : ScriptLines lv now.scene) {fuel : Nat}
    (hfu : now.live.length < fuel) :
    ∃ text named w' φ, linearise lv (floats N) now.scene fuel = .ok (text, named) ∧ ReadsWorld (library N) (floats N) text w' ∧ SameScene named w'.file φ ∧
      ∀ j n, Reach now.scene j → now.scene.heap j = some n → ∃ m, w'.heap (φ j) = some m ∧ m.cls.proto = n.cls.proto ∧
        ∀ d ∈ n.cls.fields, ∃ d' ∈ m.cls.fields, d'.name = d.name ∧ d'.read m = (d.read n).map (Val.mapRef φ) := by
  obtain ⟨text, named, w', φ, hw, hr, hrd, hs, -⟩ := C92_scripts_edited_saved (es := []) hN hlv ho .nil hf hsl hfu
  refine ⟨text, named, w', φ, hw, hrd, hs, fun j n hj hn => ?_⟩
  obtain ⟨m, k1, k2, -, k4⟩ := loaded_node hr hs ho.file hj hn
  refine ⟨m, k1, k2, fun d hd => k4 d hd ?_⟩
  obtain ⟨n', e1, e2⟩ := ho.nodes j (reach_live_s ho hj)
  rw [hn] at e1; cases e1
  exact (node_names e2).2 d hd

/-- **C95** With Scripts: a value assigned to a field, or to an event (say, what a Script computed), is saved with every field that the ROUTEs led to when it was assigned, unless the field was changed again. -/
theorem C95_scripts_routed_value_saved {N : Num F} (hN : GoodNum N) {lv : LinValues} (hlv : GoodOptions lv) {w : Work F} (ho : ScriptsInOrder N w) {before after : List (Act F)} {i : Nat} {f : Text} {v u : Val F}
    (ha : AllowedSessionS N w (before ++ .assign i f v :: after)) {now : Work F} (hs : session N w (before ++ .assign i f v :: after) = some now) (hf : Finished now) (hsl : ScriptLines lv now.scene)
    {fuel : Nat} (hfu : now.live.length < fuel) {w1 w2 : Work F} (h1 : session N w before = some w1) (h2 : act N w1 (.assign i f v) = some w2) (hu : AssignableS N w1 i f v u) :
    ∃ text named w' φ, linearise lv (floats N) now.scene fuel = .ok (text, named) ∧ ReadsWorld (library N) (floats N) text w' ∧ SameScene named w'.file φ ∧
      ∀ j n, j ∈ w1.live → Reach now.scene j → w1.scene.heap j = some n → ∃ m, w'.heap (φ j) = some m ∧ m.cls.proto = n.cls.proto ∧
        ∀ d ∈ n.cls.fields, Leads w1 (i, f) (j, d.name) → Untouched N (j, d.name) w2 after → ∃ d' ∈ m.cls.fields, d'.name = d.name ∧ d'.read m = some (u.mapRef φ) := by
  obtain ⟨x1, x2, e1, e2, e3, e4, e5, e6⟩ := session_split_s ha hs
  rw [h1] at e1; cases e1
  rw [h2] at e4; cases e4
  obtain ⟨y1, g1, ho1⟩ := session_scripts ho e2
  rw [h1] at g1; cases g1
  have ho2 := act_scripts ho1 e3 h2
  obtain ⟨y2, g2, ho3⟩ := session_scripts ho2 e5
  rw [e6] at g2; cases g2
  obtain ⟨text, named, w', φ, k1, k2, k3, k4⟩ := saved_field_s hN hlv ho3 hf hsl hfu
  refine ⟨text, named, w', φ, k1, k2, k3, fun j n hj hr hn => ?_⟩
  obtain ⟨heap, q1, -, q3⟩ := assign_does_s ho1 hu
  obtain ⟨hj2, n2, r1, r2, -⟩ := act_keeps_s ho1 e3 h2 hj hn
  obtain ⟨n3, s1, s2, s3⟩ := session_keeps_s ho2 e5 e6 hj2 r1
  obtain ⟨m, t1, t2, t3⟩ := k4 j n3 hr s1
  refine ⟨m, t1, by rw [t2, s2, r2], fun d hd hl hun => ?_⟩
  obtain ⟨d', b1, b2, b3⟩ := t3 d (by rw [s2, r2]; exact hd)
  refine ⟨d', b1, b2, ?_⟩
  have hv2 : n2.dict d.name = some u := by
    rw [h2] at q1; cases q1
    exact (q3 j hj n n2 hn r1 d hd).1 hl
  have hv3 : n3.dict d.name = some u := by rw [s3 d (by rw [r2]; exact hd) hun, hv2]
  rw [b3, FieldDecl.read, hv3]; rfl

/-- **C95** With Scripts: a field that no action changed is saved as it was. -/
theorem C95_scripts_untouched_saved {N : Num F} (hN : GoodNum N) {lv : LinValues} (hlv : GoodOptions lv) {w : Work F} (ho : ScriptsInOrder N w) {l : List (Act F)} (ha : AllowedSessionS N w l) {now : Work F}
    (hs : session N w l = some now) (hf : Finished now) (hsl : ScriptLines lv now.scene) {fuel : Nat} (hfu : now.live.length < fuel) :
    ∃ text named w' φ, linearise lv (floats N) now.scene fuel = .ok (text, named) ∧ ReadsWorld (library N) (floats N) text w' ∧ SameScene named w'.file φ ∧
      ∀ j n, j ∈ w.live → Reach now.scene j → w.scene.heap j = some n → ∃ m, w'.heap (φ j) = some m ∧ m.cls.proto = n.cls.proto ∧
        ∀ d ∈ n.cls.fields, Untouched N (j, d.name) w l → ∃ d' ∈ m.cls.fields, d'.name = d.name ∧ d'.read m = (d.read n).map (Val.mapRef φ) := by
  obtain ⟨y, g, ho3⟩ := session_scripts ho ha
  rw [hs] at g; cases g
  obtain ⟨text, named, w', φ, k1, k2, k3, k4⟩ := saved_field_s hN hlv ho3 hf hsl hfu
  refine ⟨text, named, w', φ, k1, k2, k3, fun j n hj hr hn => ?_⟩
  obtain ⟨n3, s1, s2, s3⟩ := session_keeps_s ho ha hs hj hn
  obtain ⟨m, t1, t2, t3⟩ := k4 j n3 hr s1
  refine ⟨m, t1, by rw [t2, s2], fun d hd hun => ?_⟩
  obtain ⟨d', b1, b2, b3⟩ := t3 d (by rw [s2]; exact hd)
  exact ⟨d', b1, b2, by rw [b3, FieldDecl.read, FieldDecl.read, s3 d hd hun]⟩

/-- **C95** The program may start with a file with Scripts that it has loaded (without prototypes); if the ROUTEs of the file do not start at Scripts, they are the connections that reading it has made. -/
theorem C95_scripts_opened {N : Num F} {text : Text} {w : World F} (h : ReadsWorld (library N) (floats N) text w) {kids : List PTree} (hk : ItemsOf text kids) (hp : noProtosAll kids = true) (hs : SavableScripts N w) :
    ScriptsInOrder N (opened w) ∧ ((∀ r ∈ w.file.routes, ∀ n, w.heap r.src = some n → n.cls.proto ≠ chars "Script") → ∀ p q, Leads (opened w) p q ↔ Linked w p q) := by
  refine ⟨opened_scripts h hk hp hs, fun hsc p q => ?_⟩
  rw [C93_linked_by_routes (C81_builtins N) h hk hp hsc]
  refine ⟨fun hl => Relation.ReflTransGen.mono (fun a b hab => ?_) _ _ hl, fun hl => Relation.ReflTransGen.mono (fun a b hab => ?_) _ _ hl⟩
  · cases hab with
    | route h1 h2 h3 h4 h5 => exact .route h1 ⟨_, h2, h3⟩ ⟨_, h4, h5⟩
  · cases hab with
    | route h1 h2 h3 =>
      obtain ⟨n, e1, e2⟩ := h2
      obtain ⟨m, e3, e4⟩ := h3
      exact .route h1 e1 e2 e3 e4

/-- **C95** If the ROUTEs of the file stand outside the nodes, they are the connections that reading it has made, also where they start at Scripts. -/
theorem C95_scripts_opened_outer {N : Num F} {text : Text} {w : World F} (h : ReadsWorld (library N) (floats N) text w) {kids : List PTree} (hk : ItemsOf text kids) (ho : outerRoutes kids = true) (p q : Place) :
    Leads (opened w) p q ↔ Linked w p q := by
  rw [C93_linked_by_outer_routes (C81_builtins N) h hk ho]
  refine ⟨fun hl => Relation.ReflTransGen.mono (fun a b hab => ?_) _ _ hl, fun hl => Relation.ReflTransGen.mono (fun a b hab => ?_) _ _ hl⟩
  · cases hab with
    | route h1 h2 h3 h4 h5 => exact .route h1 ⟨_, h2, h3⟩ ⟨_, h4, h5⟩
  · cases hab with
    | route h1 h2 h3 =>
      obtain ⟨n, e1, e2⟩ := h2
      obtain ⟨m, e3, e4⟩ := h3
      exact .route h1 e1 e2 e3 e4

/-! ### The theorems apply -/

/-- the field or event `f` of node `i` takes the vector `l`, and so do all fields (of nodes, not of Scripts) to which ROUTEs lead; no ROUTE starts at an event that one leads to -/
def assignSB (sc : Scene Int) (i : Nat) (f : Text) (l : List Int) : Bool :=
  (match sc.heap i with
    | none => false
    | some n => match n.cls.port f with
      | some (.inl d) => eatsB d l && n.cls.proto != chars "Script"
      | some (.inr _) => true
      | none => false) &&
  sc.routes.all (fun r => match sc.heap r.dst with
    | none => false
    | some n => match n.cls.getField r.dstField with
      | some (.inl d) => eatsB d l && n.cls.proto != chars "Script"
      | some (.inr e) => sc.routes.all (fun y => y.src != r.dst || match sc.heap y.src with
        | none => true
        | some k => match k.cls.getField y.srcField with
          | none => true
          | some a => portName a != e.name)
      | none => false)

theorem assignS_of {w : Work Int} (ho : ScriptsInOrder exNum w) {i : Nat} (hi : i ∈ w.live) {f : Text} {l : List Int} (h : assignSB w.scene i f l = true) :
    AssignableS exNum w i f (.nums l) (.nums l) := by
  simp only [assignSB, Bool.and_eq_true, List.all_eq_true] at h
  obtain ⟨h2, h3⟩ := h
  split at h2
  · cases h2
  rename_i n hn
  have hr : ∀ r ∈ w.scene.routes, ∃ m, w.scene.heap r.dst = some m ∧ ((∃ e, m.cls.getField r.dstField = some (.inl e) ∧ eatsB e l = true ∧ m.cls.proto ≠ chars "Script") ∨
      ∃ e, m.cls.getField r.dstField = some (.inr e) ∧ ∀ y ∈ w.scene.routes, y.src = r.dst → ∀ a, m.cls.getField y.srcField = some a → portName a ≠ e.name) := by
    intro r hr
    have h4 := h3 r hr
    split at h4
    · cases h4
    rename_i m hm
    refine ⟨m, hm, ?_⟩
    split at h4
    · rename_i e he
      simp only [Bool.and_eq_true, bne_iff_ne, ne_eq] at h4
      exact .inl ⟨e, he, h4.1, h4.2⟩
    · rename_i e he
      refine .inr ⟨e, he, fun y hy hyd a ha => ?_⟩
      simp only [List.all_eq_true] at h4
      have h5 := h4 y hy
      simp only [hyd, bne_self_eq_false, Bool.false_or, hm, ha, bne_iff_ne, ne_eq] at h5
      exact h5
    · cases h4
  refine ⟨hi, ⟨n, hn, ?_⟩, fun x hx _ => ?_, fun j m e hj hm he hl => ?_, fun j hj => by cases hj⟩
  · split at h2
    · rename_i d hd
      simp only [Bool.and_eq_true] at h2
      exact .inl ⟨d, hd, eats_coerce h2.1⟩
    · rename_i e he
      exact .inr ⟨e, he⟩
    · cases h2
  · obtain ⟨r, h4, -, -, -, -, rfl⟩ := objects_wires.1 hx
    obtain ⟨m, k1, ⟨e, k2, k3, -⟩ | ⟨e, k2, k3⟩⟩ := hr r h4
    · exact .inl ⟨e, ⟨m, k1, k2⟩, eats_coerce k3, eats_coerce k3⟩
    · refine .inr ⟨e, ⟨m, k1, k2⟩, fun y hy hne => ?_⟩
      obtain ⟨r', g1, n', a, g2, g3, rfl⟩ := objects_wires.1 hy
      injection hne with q1 q2
      have q1 : r'.src = r.dst := q1
      rw [q1, k1] at g2; cases g2
      exact k3 r' g1 q1 a g3 q2
  · obtain ⟨m', g1, g2⟩ := ho.nodes j hj
    rw [hm] at g1; cases g1
    have hdis := node_distinct g2
    have hsame : ∀ e' ∈ m.cls.fields, e'.name = e.name → e' = e := fun e' he' hne =>
      List.inj_on_of_nodup_map (List.nodup_append.1 hdis).1 he' he hne
    have key : eatsB e l = true ∧ m.cls.proto ≠ chars "Script" := by
      rcases Relation.ReflTransGen.cases_tail hl with hl | ⟨q, -, hl⟩
      · cases hl
        rw [hn] at hm; cases hm
        rw [port_of_distinct hdis he] at h2
        simp only [Bool.and_eq_true, bne_iff_ne, ne_eq] at h2
        exact h2
      · generalize hq : (j, e.name) = q' at hl
        cases hl with
        | @route r n' a m' d' k1 k2 k3 k4 k5 =>
          injection hq with q1 q2
          subst q1
          rw [hm] at k4; cases k4
          obtain ⟨m2, b1, ⟨e2, b2, b3, b4⟩ | ⟨e2, b2, -⟩⟩ := hr r k1
          · rw [hm] at b1; cases b1
            rw [k5] at b2; cases b2
            have := hsame d' (Reader.getField_mem k5) q2.symm
            subst this
            exact ⟨b3, b4⟩
          · rw [hm] at b1; cases b1
            rw [k5] at b2; cases b2
    rw [if_neg key.2]
    rcases g2 with ⟨g2, -⟩ | g2
    · have := key.1
      simp only [eatsB, Bool.and_eq_true] at this
      exact fits_of g2 he this.1
    · exact absurd g2.proto key.2

/-- A Script between two Transforms. -/
def exFlow : Text := file (chars "DEF S Script { eventIn SFVec3f in eventOut SFVec3f out } DEF A Transform { } DEF B Transform { } ROUTE A.translation TO S.in ROUTE S.out TO B.set_translation")

/-- the Script's event leads to the translation of the second Transform -/
def flowB (sc : Scene Int) : Bool :=
  sc.routes.contains ⟨0, chars "out", 2, chars "set_translation"⟩ &&
  (match sc.heap 0 with
    | none => false
    | some n => match n.cls.getField (chars "out") with
      | some a => portName a == chars "out"
      | none => false) &&
  match sc.heap 2 with
    | none => false
    | some n => n.cls.proto == chars "Transform" && match n.cls.getField (chars "set_translation") with
      | some (.inl d) => d.name == chars "translation"
      | _ => false

/-- The file is loaded, the Script produces a value, and the scene is saved: the second Transform is where the Script has moved it. -/
example : ∃ w kids now, ReadsWorld (library exNum) (floats exNum) exFlow w ∧ ItemsOf exFlow kids ∧ outerRoutes kids = true ∧ ScriptsInOrder exNum (opened w) ∧
    Linked w (0, chars "out") (2, chars "translation") ∧ session exNum (opened w) [.assign 0 (chars "out") (.nums [1, 2, 3])] = some now ∧
    ∃ text named w' φ, linearise defaults (floats exNum) now.scene 5 = .ok (text, named) ∧ ReadsWorld (library exNum) (floats exNum) text w' ∧ SameScene named w'.file φ ∧
      ∃ m, w'.heap (φ 2) = some m ∧ m.cls.proto = chars "Transform" ∧ ∃ d ∈ m.cls.fields, d.name = chars "translation" ∧ d.read m = some (.nums [1, 2, 3]) := by
  obtain ⟨w, h1, h2⟩ := world_fact (base := library exNum) (fl := floats exNum) (fuel := 900) (text := exFlow)
    (f := fun w => w.next == 3 && savableScriptsB w && w.file.children == [0, 1, 2] && flowB w.file && assignSB w.file 0 (chars "out") [1, 2, 3] &&
      (List.range w.next).all (fun i => (w.heap i).map (fun n => n.cls.proto) != some (chars "FontStyle"))) (x := true) (by decide +kernel)
  simp only [Bool.and_eq_true, beq_iff_eq] at h2
  obtain ⟨⟨⟨⟨⟨e1, e3⟩, e4⟩, e5⟩, e7⟩, e6⟩ := h2
  obtain ⟨hdr, sm, kids, eof, m, vs, hd, hr⟩ := id h1
  have hk : ItemsOf exFlow kids := ⟨hdr, sm, eof, m, hd⟩
  have hp : noProtosAll kids = true := items_fact (fuel := 900) (P := noProtosAll) (by decide +kernel) hk
  have hout : outerRoutes kids = true := items_fact (fuel := 900) (P := outerRoutes) (by decide +kernel) hk
  have hs := savable_scripts_of h1 hk hp e3
  have ho := opened_scripts h1 hk hp hs
  have hlive : ∀ i, Reach w.file i → i ∈ (opened w).live := fun i hi => by
    simp only [opened, List.mem_filter, decide_eq_true_eq]
    exact ⟨List.mem_range.2 (reach_exists (C81_builtins exNum) h1 i hi), hi⟩
  have h0 : (0 : Nat) ∈ (opened w).live := hlive 0 (.child (by rw [e4]; simp))
  have hl2 : (2 : Nat) ∈ (opened w).live := hlive 2 (.child (by rw [e4]; simp))
  simp only [flowB, Bool.and_eq_true, List.contains_eq_mem, decide_eq_true_eq] at e5
  obtain ⟨⟨f1, f2⟩, f3⟩ := e5
  split at f2
  · cases f2
  rename_i n0 hn0
  split at f2
  case h_2 => cases f2
  rename_i a ha
  split at f3
  · cases f3
  rename_i n2 hn2
  simp only [Bool.and_eq_true, beq_iff_eq] at f3
  obtain ⟨f3, f4⟩ := f3
  split at f4
  case h_2 => cases f4
  rename_i d hd2
  have hlead : Leads (opened w) (0, chars "out") (2, chars "translation") := by
    have := RoutedNow.route (w := opened w) f1 hn0 ha hn2 hd2
    rw [beq_iff_eq.1 f2, beq_iff_eq.1 f4] at this
    exact .single this
  have hA : AssignableS exNum (opened w) 0 (chars "out") (.nums [1, 2, 3]) (.nums [1, 2, 3]) := assignS_of ho h0 e7
  obtain ⟨heap, q1, q2, -⟩ := assign_does_s ho hA
  have hall : AllowedSessionS exNum (opened w) ([] ++ .assign 0 (chars "out") (.nums [1, 2, 3]) :: []) := .cons ⟨_, hA⟩ q1 .nil
  have hrun : session exNum (opened w) ([] ++ .assign 0 (chars "out") (.nums [1, 2, 3]) :: []) = some { opened w with scene := { (opened w).scene with heap := heap } } := by
    simp only [session, List.nil_append, List.foldlM_cons, q1, Option.bind_eq_bind, Option.bind_some]; rfl
  have hfin : Finished { opened w with scene := { (opened w).scene with heap := heap } } := by
    refine ⟨by show w.file.children ≠ []; rw [e4]; simp, fun r hr => ?_, fun i n' hi hn' hf => ?_⟩
    · simp only [savableScriptsB, Bool.and_eq_true, List.all_eq_true, List.contains_eq_mem, decide_eq_true_eq] at e3
      exact ⟨.child (e3.1.2 r hr).1, .child (e3.1.2 r hr).2⟩
    · have := q2 i
      rw [show heap i = some n' from hn'] at this
      obtain ⟨n, hn, hc⟩ : ∃ n, w.heap i = some n ∧ n'.cls = n.cls := by
        cases hw : w.heap i with
        | none => rw [show (opened w).scene.heap i = none from hw] at this; cases this
        | some n =>
          rw [show (opened w).scene.heap i = some n from hw] at this
          simp only [Option.map_some, Option.some.injEq, Prod.mk.injEq] at this
          exact ⟨n, rfl, this.1⟩
      have hb := List.all_eq_true.1 e6 i (List.mem_range.2 (((C69_world_well_formed (C81_builtins exNum) h1).1 i).1 (by rw [hn]; rfl)))
      rw [hn, Option.map_some, ← hc, hf] at hb
      exact absurd hb (by decide)
  obtain ⟨text, named, w', φ, g1, g2, g3, g4⟩ := C95_scripts_routed_value_saved exGoodNum goodDefaults ho hall hrun hfin (fun _ _ _ _ _ => by decide) (fuel := 5)
    (by
      refine Nat.lt_of_le_of_lt (List.length_filter_le _ _) ?_
      rw [List.length_range, e1]
      decide) rfl q1 hA
  obtain ⟨m, b1, b2, b3⟩ := g4 2 n2 hl2 (.child (by show (2 : Nat) ∈ w.file.children; rw [e4]; simp)) hn2
  obtain ⟨d', c1, c2, c3⟩ := b3 d (Reader.getField_mem hd2) (by rw [beq_iff_eq.1 f4]; exact hlead) .nil
  exact ⟨w, kids, _, h1, hk, hout, ho, (C95_scripts_opened_outer h1 hk hout _ _).1 hlead, hrun, text, named, w', φ, g1, g2, g3, m, b1, b2.trans f3, d', c1, c2.trans (beq_iff_eq.1 f4), c3⟩

end Verif.Editing
