import Verif.Lemmas.Good2
/-!
Files with prototypes that are read: the steps of the reader.
-/
namespace Verif.Full
open Verif.Peg Verif.Grammar Verif.TextOut Verif.SceneText Verif.Reader Verif.Scopes Verif.Shape
open Verif.Lin hiding disp dispList dispDecls dispAttrs disp_node disp_attr
variable {F : Type} {base : Text → Option (Class F)} {fl : Floats F}

theorem lookup_pairs {α : Type} {R : α → Nat → Prop} {nm : Text} : ∀ {l : List (Text × α)} {l' : List (Text × Nat)}, List.Forall₂ (fun a b => a.1 = b.1 ∧ R a.2 b.2) l l' →
    (l.lookup nm = none → l'.lookup nm = none) ∧ ∀ p, l.lookup nm = some p → ∃ k, l'.lookup nm = some k ∧ R p k
  | _, _, .nil => ⟨fun _ => rfl, fun p h => by cases h⟩
  | _, _, .cons (a := a) (b := b) (l₁ := l) (l₂ := l') h t => by
    obtain ⟨x, y⟩ := a
    obtain ⟨x', k⟩ := b
    obtain ⟨rfl, hr⟩ := (h : x = x' ∧ R y k)
    simp only [List.lookup_cons]
    by_cases hx : nm = x
    · subst hx
      simp only [beq_self_eq_true]
      exact ⟨fun h => (by cases h), fun p hp => by cases hp; exact ⟨k, rfl, hr⟩⟩
    · have hb : (nm == x) = false := by simpa using hx
      rw [hb]
      exact lookup_pairs t

theorem getProto_sim {w : World F} {pend ps gi} : ∀ {e : List (Scope F)} {ss : List Nat}, List.Forall₂ (ScopeOK w pend ps) e ss →
    (e.findSome? (fun s => s.protos.lookup gi) = none → w.getProto ss gi = none) ∧
    ∀ p, e.findSome? (fun s => s.protos.lookup gi) = some p → ∃ k, w.getProto ss gi = some k ∧ ProtoOK w pend ps k p
  | _, _, .nil => ⟨fun _ => rfl, fun p h => by cases h⟩
  | _, _, .cons (a := sc) (b := s) (l₁ := e) (l₂ := ss) h t => by
    obtain ⟨h1, h2⟩ := lookup_pairs (R := fun p k => ProtoOK w pend ps k p) (nm := gi) h.protos
    obtain ⟨t1, t2⟩ := getProto_sim (gi := gi) t
    simp only [World.getProto, List.findSome?_cons] at t1 t2 ⊢
    cases hl : sc.protos.lookup gi with
    | none =>
      rw [h1 hl]
      exact ⟨t1, t2⟩
    | some q =>
      obtain ⟨k, hk, hok⟩ := h2 q hl
      rw [hk]
      exact ⟨fun h => (by cases h), fun p hp => by cases hp; exact ⟨k, rfl, hok⟩⟩

theorem GSim.create (hb : PlainBase base) {Is e pend ss ps} {w : World F} (h : GSim Is e pend ss ps w) {gi : Text} {p : Ports F} (ht : typeOf base e gi = some p) :
    ∃ c w1, (∀ DEF, w.create base ss gi DEF = some (if DEF = [] then w1 else w1.regDef (ss.headD 0) DEF w.next)) ∧ GSim Is e pend ss ps w1 ∧ w1.heap w.next = some ⟨c, [], fun _ => none⟩ ∧
      w1.next = w.next + 1 ∧ Stay w w1 ∧ classPorts c = p := by
  obtain ⟨g1, g2⟩ := getProto_sim (gi := gi) h.scopes
  unfold typeOf at ht
  cases hf : e.findSome? (fun s => s.protos.lookup gi) with
  | some q =>
    rw [hf] at ht
    cases ht
    obtain ⟨k, hk, hok⟩ := g2 _ hf
    obtain ⟨w1, q1, q2⟩ := h.fresh_node (w.cls k).cls (some k) (fun _ _ => rfl) hok.plain (fun k' hk' => by
      cases hk'
      exact ⟨h.later _ le_rfl, fun en hen => by rw [hok.ports]; exact hok.is en hen, hok.fits⟩)
    refine ⟨_, w1, fun DEF => ?_, q2.1, q2.2.1, q2.2.2.1, q2.2.2.2, hok.ports⟩
    rw [World.create, hk]
    exact q1 DEF
  | none =>
    rw [hf] at ht
    obtain ⟨c, hc, rfl⟩ := Option.map_eq_some_iff.1 ht
    obtain ⟨w1, q1, q2⟩ := h.fresh_node c none (fun _ _ => rfl) (hb gi c hc) (fun k' hk' => by cases hk')
    refine ⟨_, w1, fun DEF => ?_, q2.1, q2.2.1, q2.2.2.1, q2.2.2.2, rfl⟩
    rw [World.create, g1 hf]
    simp only [hc]
    exact q1 DEF

/-! ### Prototypes being read -/

theorem CurOK.same {w w' : World F} {pend I c} (hh : w'.heap = w.heap) (hn : w'.nclasses = w.nclasses) (hc : w'.cls c = w.cls c) (h : CurOK w pend I c) : CurOK w' pend I c := by
  cases I with
  | none => exact Nat.lt_of_lt_of_eq h hn.symm
  | some P =>
    obtain ⟨q1, q2, q3, q4, q5, q6⟩ := h
    simp only [CurOK, hc]
    exact ⟨Nat.lt_of_lt_of_eq q1 hn.symm, q2, q3, q4, q5, fun e he => (q6 e he).mono (keeps_of (fun i => by simp only [clsAt, hh])) (fun _ _ h => h)⟩

/-- a change of the prototype that is being read -/
theorem GSim.clsChange {I I' Is e pend ss c ps} {w : World F} (h : GSim (I :: Is) e pend ss (c :: ps) w) {g : ClassObj F → ClassObj F} (hg : CurOK { w with cls := upd w.cls c g } pend I' c) :
    GSim (I' :: Is) e pend ss (c :: ps) { w with cls := upd w.cls c g } := by
  have hnd := h.psd
  rw [List.nodup_cons] at hnd
  have hk : Keeps pend w { w with cls := upd w.cls c g } := fun _ _ h _ => h
  cases h.cur with
  | cons h1 h2 =>
    refine ⟨h.fresh, h.later, h.wires, h.scopes.imp (fun sc s hs => ⟨hs.lt, hs.noEmpty, hs.names, hs.protos.imp (fun a b hab => ?_)⟩), h.ssd, h.psd, .cons hg (Forall₂.imp_mem h2 (fun I c' hc' hco => ?_))⟩
    · have : c' ≠ c := by rintro rfl; exact hnd.1 hc'
      exact CurOK.same (w := w) rfl rfl (by simp only [upd, if_neg this]) hco
    · have : b.2 ≠ c := by intro hb; exact hab.2.free (by simp [hb])
      exact ⟨hab.1, hab.2.mono hk (fun _ _ h => h) (by simp only [upd, if_neg this]) le_rfl⟩

theorem isAppend_entries {w : World F} {pend P nm} {i : Nat} {f : Text} : ∀ {l : List (Text × List (Nat × Text))}, (∀ e ∈ l, IsEntry w pend P e) → IsEntry w pend P (nm, [(i, f)]) →
    ∀ e ∈ isAppend nm (i, f) l, IsEntry w pend P e
  | [], _, h, e, he => by
    simp only [isAppend, List.mem_singleton] at he
    subst he; exact h
  | (k, l) :: d, hl, h, e, he => by
    simp only [isAppend] at he
    split at he
    · next hk =>
      subst hk
      rcases List.mem_cons.1 he with rfl | he
      · obtain ⟨a, h1, h2⟩ := hl (k, l) (by simp)
        obtain ⟨a', h3, h4⟩ := h
        refine ⟨a, h1, fun x hx => ?_⟩
        rcases List.mem_append.1 hx with hx | hx
        · exact h2 x hx
        · have : a = a' := by
            have := h1.symm.trans h3
            exact Option.some.inj this
          rw [this]
          exact h4 x hx
      · exact hl e (by simp [he])
    · rcases List.mem_cons.1 he with rfl | he
      · exact hl _ (by simp)
      · exact isAppend_entries (fun e he => hl e (by simp [he])) h e he

theorem GSim.addIs {Is e pend ss ps} {w : World F} (h : GSim Is e pend ss ps w) {i : Nat} {c : Class F} (pi : pend i = none) (hc : clsAt w i = some c) {nm x : Text}
    (hm : MayBe Is.head?.join (classPorts c) nm x) : ∃ w', w.addIs ps x i nm = some w' ∧ GSim Is e pend ss ps w' ∧ w'.heap = w.heap ∧ w'.next = w.next := by
  obtain ⟨P, a, b, h1, h2, h3, h4⟩ := hm
  cases Is with
  | nil => cases h1
  | cons I Is =>
    simp only [List.head?_cons, Option.join_some] at h1
    subst h1
    obtain ⟨k, ps', rfl⟩ : ∃ k ps', ps = k :: ps' := by
      cases h.cur with
      | cons => exact ⟨_, _, rfl⟩
    refine ⟨_, rfl, h.clsChange ?_, rfl, rfl⟩
    cases h.cur with
    | cons q _ =>
      obtain ⟨q1, q2, q3, q4, q5, q6⟩ := q
      simp only [CurOK, upd, if_true]
      exact ⟨q1, q2, q3, q4, q5, isAppend_entries q6 ⟨a, h2, fun y hy => by
        simp only [List.mem_singleton] at hy
        subst hy
        exact ⟨pi, c, b, hc, h3, h4⟩⟩⟩

theorem addAllIs_gsim {Is e pend ss ps} {i : Nat} {c : Class F} (pi : pend i = none) : ∀ (l : List (Text × Text)) (w : World F), GSim Is e pend ss ps w → clsAt w i = some c →
    (∀ y ∈ l, MayBe Is.head?.join (classPorts c) y.2 y.1) → ∃ w', w.addAllIs ps i l = some w' ∧ GSim Is e pend ss ps w' ∧ w'.heap = w.heap ∧ w'.next = w.next
  | [], w, h, _, _ => ⟨w, rfl, h, rfl, rfl⟩
  | y :: l, w, h, hc, hl => by
    obtain ⟨w1, h1, h2, h3, h4⟩ := h.addIs pi hc (hl y (by simp))
    obtain ⟨w2, h5, h6, h7, h8⟩ := addAllIs_gsim pi l w1 h2 (by simpa only [clsAt, h3] using hc) (fun z hz => hl z (by simp [hz]))
    refine ⟨w2, ?_, h6, h7.trans h3, h8.trans h4⟩
    rw [World.addAllIs, List.foldlM_cons, h1]
    exact h5

theorem GSim.newClass {Is e pend ss ps} {w : World F} (h : GSim Is e pend ss ps w) (nm : Text) : GSim (none :: Is) e pend ss (w.nclasses :: ps) (w.newClass nm) := by
  have hk : Keeps pend w (w.newClass nm) := fun _ _ h _ => h
  have hcls : ∀ k < w.nclasses, (w.newClass nm).cls k = w.cls k := fun k hk => by
    simp only [World.newClass, upd, if_neg (Nat.ne_of_lt hk)]
  have h' : GSim Is e pend ss ps (w.newClass nm) := h.keep hk h.fresh le_rfl (fun _ _ => ⟨rfl, rfl⟩) le_rfl hcls (Nat.le_succ _) (fun x hx => .inl hx)
  have hlt : ∀ c ∈ ps, c < w.nclasses := fun c hc => by
    obtain ⟨I, -, hI⟩ := Forall₂.right h.cur c hc
    cases I with
    | none => exact hI
    | some P => exact hI.1
  refine ⟨h'.fresh, h'.later, h'.wires, h.scopes.imp (fun sc s hs => ⟨hs.lt, hs.noEmpty, hs.names, hs.protos.imp (fun a b hab => ⟨hab.1, ?_⟩)⟩), h.ssd,
    List.nodup_cons.2 ⟨fun hc => absurd (hlt _ hc) (Nat.lt_irrefl _), h.psd⟩, .cons (Nat.lt_succ_self _) h'.cur⟩
  have h2 := hab.2.mono hk (fun _ _ h => h) (hcls _ hab.2.lt) (Nat.le_succ w.nclasses)
  exact ⟨h2.lt, fun hc => by
    rcases List.mem_cons.1 hc with hc | hc
    · exact absurd hab.2.lt (by rw [hc]; exact Nat.lt_irrefl _)
    · exact hab.2.free hc, h2.ports, h2.plain, h2.fits, h2.is⟩

theorem GSim.newScene {Is e pend ss ps} {w : World F} (h : GSim Is e pend ss ps w) (o : Option Nat) : GSim Is (Scope.empty :: e) pend (w.nscenes :: ss) ps (w.newScene o) := by
  have hlt : ∀ s ∈ ss, s < w.nscenes := fun s hs => by
    obtain ⟨sc, -, hsc⟩ := Forall₂.right h.scopes s hs
    exact hsc.lt
  have h' : GSim Is e pend ss ps (w.newScene o) := h.keep (fun _ _ h _ => h) h.fresh le_rfl (fun s hs => by
    simp only [World.newScene, upd, if_neg (Nat.ne_of_lt (hlt s hs)), and_self]) (Nat.le_succ _) (fun _ _ => rfl) le_rfl (fun x hx => .inl hx)
  refine ⟨h'.fresh, h'.later, h'.wires, .cons ⟨Nat.lt_succ_self _, ?_, fun nm p hp => (by cases hp), ?_⟩ h'.scopes, List.nodup_cons.2 ⟨fun hc => absurd (hlt _ hc) (Nat.lt_irrefl _), h.ssd⟩, h.psd, h'.cur⟩
  · simp [World.newScene, upd, SceneObj.new]
  · simp only [World.newScene, upd, if_true, SceneObj.new, Scope.empty]
    exact .nil

theorem GSim.popScene {Is sc e pend s ss ps} {w : World F} (h : GSim Is (sc :: e) pend (s :: ss) ps w) : GSim Is e pend ss ps w := by
  cases h.scopes with
  | cons _ h2 => exact ⟨h.fresh, h.later, h.wires, h2, (List.nodup_cons.1 h.ssd).2, h.psd, h.cur⟩

theorem GSim.popClass {I Is e pend ss c ps} {w : World F} (h : GSim (I :: Is) e pend ss (c :: ps) w) : GSim Is e pend ss ps w := by
  cases h.cur with
  | cons _ h2 =>
    refine ⟨h.fresh, h.later, h.wires, h.scopes.imp (fun sc s hs => ⟨hs.lt, hs.noEmpty, hs.names, hs.protos.imp (fun a b hab => ⟨hab.1, hab.2.lt, fun hc => hab.2.free (by simp [hc]), hab.2.ports, hab.2.plain, hab.2.fits, hab.2.is⟩)⟩),
      h.ssd, (List.nodup_cons.1 h.psd).2, h2⟩

theorem classObj_ports {o : ClassObj F} (h : ∀ l, o.decl.url ≠ .urls l) : classPorts o.cls = classPorts o.decl.cls := by
  funext x
  simp only [classPorts, Class.port, ClassObj.cls, ProtoDef.cls]

/-- the body of a prototype has been read -/
theorem GSim.endBody {P : Ports F} {Is sc e pend s ss c ps} {w : World F} (h : GSim (some P :: Is) (sc :: e) pend (s :: ss) (c :: ps) w) :
    GSim Is e pend ss ps (w.setBody c s) ∧ ProtoOK (w.setBody c s) pend ps c P := by
  have hnd := (List.nodup_cons.1 h.psd).1
  cases h.cur with
  | cons hc _ =>
    obtain ⟨q1, q2, q3, q4, q5, q6⟩ := hc
    have h1 : GSim (none :: Is) (sc :: e) pend (s :: ss) (c :: ps) (w.setBody c s) := h.clsChange (by exact q1)
    have hd : ((w.setBody c s).cls c).decl = (w.cls c).decl := by simp [World.setBody, upd]
    have his : ((w.setBody c s).cls c).isMaps = (w.cls c).is := by simp [World.setBody, upd, ClassObj.isMaps]
    refine ⟨h1.popScene.popClass, q1, hnd, ?_, fun d hd' => ?_, fun _ d hd' => ?_, ?_⟩
    · rw [classObj_ports (by rw [hd]; exact q3), hd]; exact q4
    · obtain ⟨f, hf, rfl⟩ := classObj_fields hd'
      rw [hd] at hf
      exact (q5 f hf).1
    · obtain ⟨f, hf, rfl⟩ := classObj_fields hd'
      rw [hd] at hf
      exact (q5 f hf).2
    · rw [his]
      exact fun e he => (q6 e he).mono (fun _ _ h _ => h) (fun _ _ h => h)

theorem GSim.addProto {Is sc e pend s ss ps} {w : World F} (h : GSim Is (sc :: e) pend (s :: ss) ps w) {k : Nat} {P : Ports F} (hp : ProtoOK w pend ps k P) (nm : Text) :
    GSim Is (sc.proto nm P :: e) pend (s :: ss) ps (w.addProto s nm k) := by
  have hk : Keeps pend w (w.addProto s nm k) := fun _ _ h _ => h
  have hm : ∀ {k' : Nat} {P' : Ports F}, ProtoOK w pend ps k' P' → ProtoOK (w.addProto s nm k) pend ps k' P' := fun h => h.mono hk (fun _ _ h => h) rfl le_rfl
  have hnd := (List.nodup_cons.1 h.ssd).1
  cases h.scopes with
  | cons h1 h2 =>
    refine ⟨h.fresh, h.later, h.wires, .cons ⟨h1.lt, ?_, fun nm' p hp' => ?_, ?_⟩ (Forall₂.imp_mem h2 (fun a b hb hab => ?_)), h.ssd, h.psd, h.cur.imp (fun I c hc => hc.same rfl rfl rfl)⟩
    · simpa [World.addProto, upd] using h1.noEmpty
    · have : ((w.addProto s nm k).scene s).defs = (w.scene s).defs := by simp [World.addProto, upd]
      rw [this]
      exact h1.names nm' p hp'
    · have : ((w.addProto s nm k).scene s).protos = (nm, k) :: (w.scene s).protos := by simp [World.addProto, upd]
      rw [this]
      exact .cons ⟨rfl, hm hp⟩ (h1.protos.imp (fun a b hab => ⟨hab.1, hm hab.2⟩))
    · have hb' : b ≠ s := by rintro rfl; exact hnd hb
      have : (w.addProto s nm k).scene b = w.scene b := by simp [World.addProto, upd, hb']
      exact ⟨hab.lt, by rw [this]; exact hab.noEmpty, by rw [this]; exact hab.names, by rw [this]; exact hab.protos.imp (fun a b hab => ⟨hab.1, hm hab.2⟩)⟩

/-! ### Scripts being read -/

theorem setClass_clsAt (w : World F) (i j : Nat) (c : Class F) (h : j ≠ i) : clsAt (w.setClass i c) j = clsAt w j := by
  simp [clsAt, World.setClass, h]

theorem setClass_self {w : World F} {i : Nat} {c c' : Class F} (h : clsAt w i = some c) : clsAt (w.setClass i c') i = some c' := by
  obtain ⟨n0, hn0, -⟩ := Option.map_eq_some_iff.1 h
  simp [clsAt, World.setClass, hn0]

theorem GSim.setClass {Is e pend ss ps} {w : World F} (h : GSim Is e pend ss ps w) {i : Nat} {P : Ports F} (hp : pend i = some P) (c : Class F) : GSim Is e pend ss ps (w.setClass i c) := by
  refine h.keep (fun j c' hc hj => ?_) (fun j hj => ?_) le_rfl (fun _ _ => ⟨rfl, rfl⟩) le_rfl (fun _ _ => rfl) le_rfl (fun x hx => .inl hx)
  · have : j ≠ i := by rintro rfl; rw [hp] at hj; cases hj
    rw [setClass_clsAt _ _ _ _ this, hc]
  · have hj' := h.fresh j hj
    simp only [World.setClass]
    split
    · next hji => subst hji; rw [hj']; rfl
    · exact hj'

theorem GSim.settle {Is e pend pend' ss ps} {w : World F} (h : GSim Is e pend ss ps w) {i : Nat} (hp : ∀ j, j ≠ i → pend' j = pend j) (hi : pend' i = none) {c : Class F} (hc : clsAt w i = some c)
    (hpi : pend i = some (classPorts c)) : GSim Is e pend' ss ps w := by
  have h0 : ∀ j, pend j = none → pend' j = none := fun j hj => by
    by_cases hji : j = i
    · subst hji; exact hi
    · rw [hp j hji, hj]
  have hpo : ∀ j p, portsAt pend w j = some p → portsAt pend' w j = some p := fun j p hj => by
    by_cases hji : j = i
    · subst hji
      simp only [portsAt, hpi] at hj
      simp only [portsAt, hi, hc]
      exact hj
    · simpa only [portsAt, hp j hji] using hj
  have hkk : Keeps pend w w := fun _ _ h _ => h
  refine ⟨h.fresh, fun j hj => h0 j (h.later j hj), fun x hx => ⟨(h.wires x hx).1, h0 _ (h.wires x hx).2.1, h0 _ (h.wires x hx).2.2⟩,
    h.scopes.imp (fun sc s hs => ⟨hs.lt, hs.noEmpty, fun nm p hnm => ?_, hs.protos.imp (fun a b hab => ⟨hab.1, hab.2.mono hkk (fun j _ => h0 j) rfl le_rfl⟩)⟩), h.ssd, h.psd, h.cur.imp (fun I c' hco => ?_)⟩
  · cases I with
    | none => exact hco
    | some P =>
      obtain ⟨q1, q2, q3, q4, q5, q6⟩ := hco
      exact ⟨q1, q2, q3, q4, q5, fun e he => (q6 e he).mono hkk (fun j _ => h0 j)⟩
  · obtain ⟨j, q1, q2⟩ := hs.names nm p hnm
    exact ⟨j, q1, hpo j p q2⟩

/-! ### Scenes -/

theorem GSim.sceneChange {Is e pend ss ps} {w : World F} (h : GSim Is e pend ss ps w) (s : Nat) {g : SceneObj → SceneObj} (hg : ∀ o, (g o).defs = o.defs ∧ (g o).protos = o.protos) :
    GSim Is e pend ss ps { w with scene := upd w.scene s g } := by
  refine h.keep (fun _ _ h _ => h) h.fresh le_rfl (fun t _ => ?_) le_rfl (fun _ _ => rfl) le_rfl (fun x hx => .inl hx)
  simp only [upd]
  split
  · next ht => subst ht; exact hg _
  · exact ⟨rfl, rfl⟩

theorem GSim.addRoute {Is e pend ss ps} {w : World F} (h : GSim Is e pend ss ps w) (s : Nat) {r : Rt} {c c' : Class F} (hi : clsAt w r.src = some c) (hj : clsAt w r.dst = some c') (pi : pend r.src = none)
    (pj : pend r.dst = none) (hm : MayRoute (classPorts c) r.srcField (classPorts c') r.dstField) : GSim Is e pend ss ps (w.addRoute s r) := by
  refine (h.bind hi hj pi pj (fun d hd => ?_)).sceneChange s (g := fun o => { o with routes := o.routes ++ [r] }) (fun _ => ⟨rfl, rfl⟩)
  obtain ⟨conv', hq⟩ := hm d.kind d.conv (by rw [classPorts_eq, hd]; rfl)
  obtain ⟨p, hp, hpk⟩ := getField_of hq
  obtain ⟨d', rfl, hk, -⟩ := portKind_field hpk
  exact ⟨d', hp, hk⟩

end Verif.Full
