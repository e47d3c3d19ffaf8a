import Verif.Lemmas.FullRun3
/-!
Reading an interface gives what it declares.
-/
namespace Verif.Full
open Verif.Peg Verif.Grammar Verif.TextOut Verif.SceneText Verif.Reader Verif.Scopes
open Verif.Lin hiding disp dispList dispDecls dispAttrs disp_node disp_attr
variable {F : Type} {base : Text → Option (Class F)} {fl : Floats F}

/-! ### Finished interfaces stay -/

/-- No class changes. -/
def Still (w w' : World F) : Prop := w'.cls = w.cls ∧ w'.nclasses = w.nclasses

theorem Still.trans {a b c : World F} (h : Still a b) (h' : Still b c) : Still a c := ⟨h'.1.trans h.1, h'.2.trans h.2⟩
theorem Quiet.still {w w' : World F} (h : Quiet w w') : Still w w' := ⟨h.cls, h.nclasses⟩

theorem rootSet_still (s : Nat) : ∀ (fuel : Nat) (w w' : World F) (i : Nat), rootSet s fuel w i = some w' → Still w w'
  | 0, _, _, _, h => by cases h
  | fuel + 1, w, w', i, h => by
    unfold rootSet at h
    split at h
    · cases h
    · refine foldlM_inv (P := fun p => Still w p) (fun x _ a b ha hb => ha.trans (rootSet_still s fuel _ _ _ hb)) ?_ h
      split <;> exact ⟨rfl, rfl⟩

theorem newNode_still {w w' : World F} {ss : List Nat} {c : Class F} {k DEF} (h : w.newNode ss c k DEF = some w') : Still w w' := by
  unfold World.newNode at h
  simp only at h
  split at h
  · cases h
  · next w1 h1 =>
    split at h
    · cases h
    · next w2 h2 =>
      cases h
      have a : Still w w1 := by
        refine foldlM_inv (P := fun p => Still w p) (fun x _ a b ha hb => ?_) ?_ h1
        · exact ha.trans (bindIs_quiet hb).still
        · exact ⟨rfl, rfl⟩
      refine a.trans ((rootSet_still _ _ _ _ _ h2).trans ?_)
      split <;> exact ⟨rfl, rfl⟩

theorem create_still {w w' : World F} {ss : List Nat} {gi DEF} (h : w.create base ss gi DEF = some w') : Still w w' := by
  unfold World.create at h
  split at h
  · exact newNode_still h
  · split at h
    · cases h
    · exact newNode_still h

/-- The interfaces of the classes there are stay, except (if given) that of `x`. -/
def Kept (x : Option Nat) (w w' : World F) : Prop := w.nclasses ≤ w'.nclasses ∧ ∀ c, c < w.nclasses → some c ≠ x → (w'.cls c).decl = (w.cls c).decl

theorem Kept.refl (x : Option Nat) (w : World F) : Kept x w w := ⟨le_rfl, fun _ _ _ => rfl⟩
theorem Kept.trans {x : Option Nat} {a b c : World F} (h : Kept x a b) (h' : Kept x b c) : Kept x a c :=
  ⟨h.1.trans h'.1, fun k hk hx => (h'.2 k (lt_of_lt_of_le hk h.1) hx).trans (h.2 k hk hx)⟩
theorem Kept.weaken {a b : World F} (h : Kept none a b) (x : Option Nat) : Kept x a b := ⟨h.1, fun c hc _ => h.2 c hc (by simp)⟩
theorem Still.kept {w w' : World F} (h : Still w w') (x : Option Nat) : Kept x w w' := ⟨h.2.ge, fun c _ _ => by rw [h.1]⟩

theorem setClass_kept (w : World F) (i : Nat) (c : Class F) : Kept none w (w.setClass i c) := Still.kept ⟨rfl, rfl⟩ _

theorem addIs_kept {w w' : World F} {ps nm i f} (h : w.addIs ps nm i f = some w') : Kept none w w' := by
  unfold World.addIs at h
  split at h
  · cases h
  · cases h
    refine ⟨le_rfl, fun c _ _ => ?_⟩
    simp only [upd]
    split
    · subst_vars; rfl
    · rfl

theorem addAllIs_kept {ps i} : ∀ (l : List (Text × Text)) (w w' : World F), w.addAllIs ps i l = some w' → Kept none w w' := by
  intro l w w' h
  unfold World.addAllIs at h
  exact foldlM_inv (P := fun p => Kept none w p) (fun x _ a b ha hb => ha.trans (addIs_kept hb)) (.refl _ _) h

theorem onDecl_kept (w : World F) (c : Nat) (g : ProtoDef F → ProtoDef F) : Kept (some c) w (w.onDecl c g) := by
  refine ⟨le_rfl, fun k _ hk => ?_⟩
  simp only [World.onDecl, upd]
  split
  · subst_vars; exact absurd rfl hk
  · rfl

theorem setBody_kept (w : World F) (c s : Nat) : Kept none w (w.setBody c s) := by
  refine ⟨le_rfl, fun k _ hk => ?_⟩
  simp only [World.setBody, upd]
  split
  · subst_vars; rfl
  · rfl

theorem newProto_kept {w w' : World F} {nm s} (h : Kept (some w.nclasses) (w.newClass nm) w') : Kept none w (w'.addProto s nm w.nclasses) := by
  refine ⟨(Nat.le_succ _).trans h.1, fun c hc _ => ?_⟩
  have := h.2 c (Nat.lt_succ_of_lt hc) (fun e => by cases e; omega)
  refine this.trans ?_
  simp only [World.newClass, upd]
  rw [if_neg (by omega)]

/-! ### Interfaces as they are read -/

/-- The declarations of an interface, one by one. -/
inductive IfaceRead (fl : Floats F) : List PTree → ProtoDef F → ProtoDef F → Prop
  | body {m kids p} : IfaceRead fl [.node .vrmlScene m kids] p p
  | urls {m kids p} : IfaceRead fl [.node .extProtoURL m kids] p (ProtoDef.setURL p (ParseVal.mfString kids))
  | field {t ts p p' word ty nm value f} : written t = some (.field word ty nm value) → FieldAs fl word ty nm value f → IfaceRead fl ts (p.addField f) p' → IfaceRead fl (t :: ts) p p'
  | event {t ts p p' word ty nm} : written t = some (.event word ty nm) → nm ≠ chars "externalURL" → fl.types.event ty = true → IfaceRead fl ts (p.addEvent ⟨nm, ty, decide (word = chars "eventOut")⟩) p' →
      IfaceRead fl (t :: ts) p p'

/-- what `AsDeclared` says about one name -/
def Has (fl : Floats F) (x : Text) (o : Option Written) (p : ProtoDef F) : Prop :=
  match o with
  | none => (∀ f ∈ p.fields, f.decl.name ≠ x) ∧ (∀ e ∈ p.events, e.name ≠ x)
  | some (.field word ty _ value) => (∃ f, p.fields.filter (fun g => g.decl.name == x) = [f] ∧ FieldAs fl word ty x value f) ∧ (∀ e ∈ p.events, e.name ≠ x)
  | some (.event word ty _) => (∀ f ∈ p.fields, f.decl.name ≠ x) ∧ p.events.filter (fun e => e.name == x) = [⟨x, ty, decide (word = chars "eventOut")⟩] ∧ fl.types.event ty = true

theorem has_of {x : Text} {o : Option Written} {p p' : ProtoDef F} (h : Has fl x o p) (hf : p'.fields.filter (fun g => g.decl.name == x) = p.fields.filter (fun g => g.decl.name == x))
    (he : p'.events.filter (fun g => g.name == x) = p.events.filter (fun g => g.name == x)) : Has fl x o p' := by
  have key : ∀ {q : ProtoDef F}, (∀ f ∈ q.fields, f.decl.name ≠ x) ↔ q.fields.filter (fun g => g.decl.name == x) = [] := by
    intro q; simp [List.filter_eq_nil_iff]
  have key' : ∀ {q : ProtoDef F}, (∀ e ∈ q.events, e.name ≠ x) ↔ q.events.filter (fun g => g.name == x) = [] := by
    intro q; simp [List.filter_eq_nil_iff]
  unfold Has at h ⊢
  split
  · rw [key, key', hf, he, ← key, ← key']; exact h
  · rw [key', hf, he, ← key']; exact h
  · rw [key, hf, he, ← key]; exact h

theorem lastDecl_cons (t : PTree) (ts : List PTree) (x : Text) :
    lastDecl (t :: ts) x = (lastDecl ts x).or ((written t).filter (fun d => d.name == x)) := by
  unfold lastDecl
  cases h : written t with
  | none => rw [List.filterMap_cons_none h]; simp
  | some d =>
    rw [List.filterMap_cons_some h]
    by_cases hx : d.name = x
    · simp only [List.filter_cons, hx, beq_self_eq_true, if_true, Option.filter, List.getLast?_cons]
      cases (List.filter (fun d => d.name == x) (List.filterMap written ts)).getLast? <;> rfl
    · have : (d.name == x) = false := by simpa using hx
      simp [this, Option.filter]

theorem addField_has {x : Text} {o : Option Written} {p : ProtoDef F} {word ty nm value} {f : PField F} (hf : FieldAs fl word ty nm value f) (h : Has fl x o p) :
    Has fl x (((some (Written.field word ty nm value)).filter (fun d => d.name == x)).or o) (p.addField f) := by
  have hn : f.decl.name = nm := hf.1
  by_cases hx : nm = x
  · subst hx
    simp only [Option.filter, Written.name, beq_self_eq_true, if_true, Option.or, Has]
    refine ⟨⟨f, ?_, hf⟩, fun e he => ?_⟩
    · simp only [ProtoDef.addField, List.filter_append, List.filter_filter, hn]
      rw [List.filter_eq_nil_iff.2 (fun a _ => by simp), List.nil_append, List.filter_cons, if_pos (by simp [hn]), List.filter_nil]
    · simp only [ProtoDef.addField, List.mem_filter, hn] at he
      simpa using he.2
  · have hb : (nm == x) = false := by simpa using hx
    simp only [Option.filter, Written.name, hb, Bool.false_eq_true, if_false, Option.none_or]
    refine has_of h ?_ ?_
    · simp only [ProtoDef.addField, List.filter_append, List.filter_filter, hn]
      rw [List.filter_cons, if_neg (by simp [hn, hx]), List.filter_nil, List.append_nil]
      refine List.filter_congr (fun a _ => ?_)
      by_cases ha : a.decl.name = x
      · simp [ha, Ne.symm hx]
      · simp [ha]
    · simp only [ProtoDef.addField, List.filter_filter, hn]
      refine List.filter_congr (fun a _ => ?_)
      by_cases ha : a.name = x
      · simp [ha, Ne.symm hx]
      · simp [ha]

theorem addEvent_has {x : Text} {o : Option Written} {p : ProtoDef F} {word ty nm} (hty : fl.types.event ty = true) (h : Has fl x o p) :
    Has fl x (((some (Written.event word ty nm)).filter (fun d => d.name == x)).or o) (p.addEvent ⟨nm, ty, decide (word = chars "eventOut")⟩) := by
  by_cases hx : nm = x
  · subst hx
    simp only [Option.filter, Written.name, beq_self_eq_true, if_true, Option.or, Has]
    refine ⟨fun e he => ?_, ?_, hty⟩
    · simp only [ProtoDef.addEvent, List.mem_filter] at he
      simpa using he.2
    · simp only [ProtoDef.addEvent, List.filter_append, List.filter_filter]
      rw [List.filter_eq_nil_iff.2 (fun a _ => by simp), List.nil_append, List.filter_cons, if_pos (by simp), List.filter_nil]
  · have hb : (nm == x) = false := by simpa using hx
    simp only [Option.filter, Written.name, hb, Bool.false_eq_true, if_false, Option.none_or]
    refine has_of h ?_ ?_
    · simp only [ProtoDef.addEvent, List.filter_filter]
      refine List.filter_congr (fun a _ => ?_)
      by_cases ha : a.decl.name = x
      · simp [ha, Ne.symm hx]
      · simp [ha]
    · simp only [ProtoDef.addEvent, List.filter_append, List.filter_filter]
      rw [List.filter_cons, if_neg (by simp [hx]), List.filter_nil, List.append_nil]
      refine List.filter_congr (fun a _ => ?_)
      by_cases ha : a.name = x
      · simp [ha, Ne.symm hx]
      · simp [ha]

theorem declared_has {ts : List PTree} {p p' : ProtoDef F} (h : IfaceRead fl ts p p') {x : Text} (hx : x ≠ chars "externalURL") : ∀ {o : Option Written}, Has fl x o p → Has fl x ((lastDecl ts x).or o) p' := by
  induction h with
  | body => intro o h; rw [lastDecl_cons]; exact h
  | @urls m kids p =>
    intro o h
    rw [lastDecl_cons]
    refine has_of h ?_ rfl
    have h1 : ¬ ((externalURL : PField F).decl.name == x) = true := by simpa [externalURL] using Ne.symm hx
    simp only [ProtoDef.setURL, List.filter_cons, if_neg h1, List.filter_filter]
    refine List.filter_congr (fun a _ => ?_)
    by_cases ha : a.decl.name = x
    · simp [ha, hx]
    · simp [ha]
  | field hw hf _ ih =>
    intro o h
    rw [lastDecl_cons, hw, Option.or_assoc]
    exact ih (addField_has hf h)
  | event hw hn hty _ ih =>
    intro o h
    rw [lastDecl_cons, hw, Option.or_assoc]
    exact ih (addEvent_has hty h)

theorem declared_urls {ts : List PTree} {p p' : ProtoDef F} (h : IfaceRead fl ts p p') :
    (∀ m kids, ts.getLast? = some (.node .extProtoURL m kids) → p'.url = .urls (ParseVal.mfString kids)) ∧
    (lastDecl ts (chars "externalURL") = none → (∀ m kids, ts.getLast? ≠ some (.node .extProtoURL m kids)) → p'.url = p.url) := by
  induction h with
  | body => exact ⟨fun m kids h => (by cases h), fun _ _ => rfl⟩
  | urls => exact ⟨fun m kids h => (by cases h; rfl), fun _ h => absurd rfl (h _ _)⟩
  | @field t ts p p' word ty nm value f hw hf hd ih =>
    cases hts : ts with
    | nil => rw [hts] at hd; cases hd
    | cons a l =>
      rw [← hts]
      have hl : (t :: ts).getLast? = ts.getLast? := by rw [hts]; rfl
      rw [hl]
      refine ⟨ih.1, fun h1 h2 => ?_⟩
      rw [lastDecl_cons, hw, Option.or_eq_none_iff] at h1
      rw [ih.2 h1.1 h2]
      have : nm ≠ chars "externalURL" := fun e => by
        have := h1.2; rw [e] at this; simp [Option.filter, Written.name] at this
      simp only [ProtoDef.addField, hf.1, if_neg this]
  | @event t ts p p' word ty nm hw hn hty hd ih =>
    cases hts : ts with
    | nil => rw [hts] at hd; cases hd
    | cons a l =>
      rw [← hts]
      have hl : (t :: ts).getLast? = ts.getLast? := by rw [hts]; rfl
      rw [hl]
      refine ⟨ih.1, fun h1 h2 => ?_⟩
      rw [lastDecl_cons, hw, Option.or_eq_none_iff] at h1
      rw [ih.2 h1.1 h2]; rfl

theorem declared_asDeclared {ts : List PTree} {nm : Text} {p : ProtoDef F} (h : IfaceRead fl ts (ProtoDef.new nm) p) : AsDeclared fl ts p := by
  refine ⟨fun x hx => ?_, (declared_urls h).1, (declared_urls h).2⟩
  have h0 : Has fl x none (ProtoDef.new nm) := by
    refine ⟨fun f hf => ?_, fun e he => by cases he⟩
    simp only [ProtoDef.new, List.mem_singleton] at hf
    subst hf
    exact Ne.symm hx
  have := declared_has h hx h0
  rw [Option.or_none] at this
  exact this

/-! ### The reader -/

theorem mkField_as {ex ty nm f value} {d : Dflt F} {ft} (hft : fl.types.field ty = some ft) (hd : DefaultAs fl ty ft.kind value d) (h : mkField fl ex ty nm d = some f) : FieldAs fl ex ty nm value f := by
  unfold mkField at h
  split at h
  · cases h
  · rw [hft] at h
    cases h
    exact ⟨rfl, rfl, by simp, ⟨ft, hft, rfl, rfl, rfl⟩, hd⟩

theorem mkEvent_as {dir ty nm e} (h : mkEvent fl dir ty nm = some e) : e = ⟨nm, ty, decide (dir = chars "eventOut")⟩ ∧ nm ≠ chars "externalURL" ∧ fl.types.event ty = true := by
  unfold mkEvent at h
  split at h
  · cases h
  · next h1 =>
    split at h
    · next h2 => cases h; exact ⟨rfl, fun e => h1 (by simp [e]), h2⟩
    · cases h

theorem disp_default {t : PTree} {ss ps cur k} {w w' : World F} {v u} {ty} (h : disp base fl t ss ps cur (some k) w = some (v, w')) (hv : v.toVal = some u) : DefaultAs fl ty k (some t) (dfltOf u) := by
  intro m kids ht
  subst ht
  unfold disp at h
  split at h
  · split at h
    · next hk => cases h; cases hv; exact ⟨fun _ h => absurd hk h, fun _ _ => rfl, fun _ h => (by obtain ⟨_, _, _, h⟩ := h; cases h)⟩
    · next hk =>
      split at h
      · cases h
      · next u' hu' => cases h; cases hv; exact ⟨fun _ _ _ => ⟨_, hu', rfl⟩, fun h => absurd h hk, fun _ h => (by obtain ⟨_, _, _, h⟩ := h; cases h)⟩
  · next t m tk rest =>
    split at h
    · next htag =>
      have hentry : nodeEntry (.node t m tk) = true := by cases t <;> first | rfl | cases htag
      refine ⟨fun _ _ h => ?_, fun _ h => ?_, fun hk hn => ?_⟩
      · have := h _ rfl; rw [hentry] at this; cases this
      · have := h _ rfl; rw [hentry] at this; cases this
      · obtain ⟨a, b, rest', hh⟩ := hn
        cases hh
        rw [if_pos hk] at h
        unfold disp at h
        cases h; cases hv; rfl
    · next htag =>
      split at h
      · next hk => cases h; cases hv; exact ⟨fun _ h => absurd hk h, fun _ _ => rfl, fun h => by rw [h] at hk; cases hk⟩
      · next hk =>
        split at h
        · cases h
        · next u' hu' =>
          cases h; cases hv
          refine ⟨fun _ _ _ => ⟨_, hu', rfl⟩, fun h => absurd h hk, fun _ h => ?_⟩
          obtain ⟨_, _, _, h⟩ := h
          cases h
          exact absurd rfl htag

set_option maxHeartbeats 1600000 in
mutual
theorem disp_kept : ∀ (t : PTree) (ss ps cur fd) (w : World F) (v w'), disp base fl t ss ps cur fd w = some (v, w') → Kept none w w'
  | t, ss, ps, cur, fd, w, v, w', h => by
    unfold disp at h
    split at h
    · split at h
      · cases h
      · next items w1 h1 =>
        cases h
        exact (dispList_kept _ _ _ _ _ _ _ _ h1).trans (Still.kept ⟨rfl, rfl⟩ _)
    · split at h
      · cases h
      · split at h
        · cases h
        · next w1 h1 =>
          cases h
          exact newProto_kept (dispProto_kept _ _ _ _ _ _ h1).1
    · split at h
      · cases h
      · split at h
        · cases h
        · next w1 h1 =>
          cases h
          exact newProto_kept (dispProto_kept _ _ _ _ _ _ h1).1
    · split at h
      · cases h
      · next w1 h1 =>
        split at h
        · cases h
        · next vs w2 h2 =>
          cases h
          exact ((create_still h1).kept _).trans (dispList_kept _ _ _ _ _ _ _ _ h2)
    · split at h
      · cases h
      · next w1 h1 =>
        split at h
        · cases h
        · next vs w2 h2 =>
          cases h
          exact ((create_still h1).kept _).trans (dispList_kept _ _ _ _ _ _ _ _ h2)
    · split at h
      · cases h
      · next w1 h1 =>
        split at h
        · cases h
        · next is w2 h2 =>
          split at h
          · cases h
          · next w3 h3 =>
            split at h
            · cases h
            · next w4 h4 =>
              cases h
              exact ((newNode_still h1).kept _).trans ((dispDecls_kept _ _ _ _ _ _ _ _ _ h2).trans ((addAllIs_kept _ _ _ h3).trans (dispAttrs_kept _ _ _ _ _ _ _ h4)))
    · split at h
      · cases h
      · next w1 h1 =>
        split at h
        · cases h
        · next is w2 h2 =>
          split at h
          · cases h
          · next w3 h3 =>
            split at h
            · cases h
            · next w4 h4 =>
              cases h
              exact ((newNode_still h1).kept _).trans ((dispDecls_kept _ _ _ _ _ _ _ _ _ h2).trans ((addAllIs_kept _ _ _ h3).trans (dispAttrs_kept _ _ _ _ _ _ _ h4)))
    · cases h; exact .refl _ _
    · split at h
      · cases h
      · cases h; exact .refl _ _
    · split at h
      · cases h
        exact ((bind_quiet _ _ _ _ _).still.kept _)
      · cases h
    · split at h
      · cases h
      · split at h
        · cases h
        · split at h
          · cases h
          · next h2 => cases h; exact addIs_kept h2
        · cases h
        · split at h
          · cases h
          · next h1 =>
            split at h
            · cases h
            · split at h
              · cases h
              · next h2 =>
                cases h
                exact (disp_kept _ _ _ _ _ _ _ _ h1).trans ((setAttr_quiet h2).still.kept _)
    · split at h
      · split at h
        · cases h; exact .refl _ _
        · split at h
          · cases h
          · cases h; exact .refl _ _
      · split at h
        · split at h
          · exact disp_kept _ _ _ _ _ _ _ _ h
          · split at h
            · cases h
            · next h1 => cases h; exact dispList_kept _ _ _ _ _ _ _ _ h1
        · split at h
          · cases h; exact .refl _ _
          · split at h
            · cases h
            · cases h; exact .refl _ _
    · cases h
termination_by t => sizeOf t
theorem dispList_kept : ∀ (ts : List PTree) (ss ps cur fd) (w : World F) (vs w'), dispList base fl ts ss ps cur fd w = some (vs, w') → Kept none w w'
  | [], ss, ps, cur, fd, w, vs, w', h => by unfold dispList at h; cases h; exact .refl _ _
  | t :: ts, ss, ps, cur, fd, w, vs, w', h => by
    unfold dispList at h
    split at h
    · cases h
    · next v1 w1 h1 =>
      split at h
      · cases h
      · next vs1 w2 h2 =>
        cases h
        exact (disp_kept t _ _ _ _ _ _ _ h1).trans (dispList_kept ts _ _ _ _ _ _ _ h2)
termination_by ts => sizeOf ts
theorem dispProto_kept : ∀ (ts : List PTree) (ss ps : List Nat) (c : Nat) (w w' : World F), dispProto base fl ts ss ps c w = some w' → Kept (some c) w w' ∧ (c < w.nclasses → IfaceRead fl ts (w.cls c).decl (w'.cls c).decl)
  | ts, ss, ps, c, w, w', h => by
    unfold dispProto at h
    split at h
    · split at h
      · cases h
      · next vs w1 h1 =>
        cases h
        have k1 : Kept none (w.newScene (some (ss.headD 0))) (w1.setBody c w.nscenes) := (dispList_kept _ _ _ _ _ _ _ _ h1).trans (setBody_kept _ _ _)
        have k2 : Kept none w (w1.setBody c w.nscenes) := Kept.trans (Still.kept ⟨rfl, rfl⟩ _) k1
        exact ⟨k2.weaken _, fun hc => by rw [k2.2 c hc (by simp)]; exact .body⟩
    · cases h
      refine ⟨onDecl_kept _ _ _, fun hc => ?_⟩
      simp only [World.onDecl, upd, if_true]
      exact .urls
    · next m ex _ ty _ nm _ value ts =>
      split at h
      · cases h
      · next ft hft =>
        split at h
        · cases h
        · next v1 w1 h1 =>
          split at h
          · cases h
          · next v2 hv2 =>
            split at h
            · cases h
            · next f hf =>
              have k1 := disp_kept _ _ _ _ _ _ _ _ h1
              obtain ⟨k2, d2⟩ := dispProto_kept ts _ _ _ _ _ h
              refine ⟨(k1.weaken _).trans ((onDecl_kept _ _ _).trans k2), fun hc => ?_⟩
              have hd := d2 (lt_of_lt_of_le hc k1.1)
              simp only [World.onDecl, upd, if_true] at hd
              rw [← k1.2 c hc (by simp)]
              exact .field rfl (mkField_as hft (disp_default h1 hv2) hf) hd
    · next m ex _ ty _ nm _ ts =>
      split at h
      · cases h
      · next f hf =>
        obtain ⟨k2, d2⟩ := dispProto_kept ts _ _ _ _ _ h
        refine ⟨(onDecl_kept _ _ _).trans k2, fun hc => ?_⟩
        have hd := d2 hc
        simp only [World.onDecl, upd, if_true] at hd
        have hft : ∃ ft, fl.types.field ty = some ft := by
          unfold mkField at hf
          split at hf
          · cases hf
          · obtain ⟨ft, h1, -⟩ := Option.map_eq_some_iff.1 hf
            exact ⟨ft, h1⟩
        obtain ⟨ft, hft⟩ := hft
        exact .field rfl (mkField_as hft (rfl : DefaultAs fl ty ft.kind none _) hf) hd
    · next m dir _ ty _ nm _ ts =>
      split at h
      · cases h
      · next e he =>
        obtain ⟨k2, d2⟩ := dispProto_kept ts _ _ _ _ _ h
        refine ⟨(onDecl_kept _ _ _).trans k2, fun hc => ?_⟩
        have hd := d2 hc
        simp only [World.onDecl, upd, if_true] at hd
        obtain ⟨rfl, h1, h2⟩ := mkEvent_as he
        exact .event rfl h1 h2 hd
    · cases h
termination_by ts => sizeOf ts
theorem dispDecls_kept : ∀ (ts : List PTree) (ss ps : List Nat) (i : Nat) (p : ProtoDef F) (is is' : List (Text × Text)) (w w' : World F),
    dispDecls base fl ts ss ps i p is w = some (is', w') → Kept none w w'
  | ts, ss, ps, i, p, is, is', w, w', h => by
    unfold dispDecls at h
    split at h
    · cases h; exact .refl _ _
    · split at h
      · cases h
      · split at h
        · split at h
          · cases h
          · exact Kept.trans (setClass_kept _ _ _) (dispDecls_kept _ _ _ _ _ _ _ _ _ h)
        · split at h
          · cases h
          · next h1 =>
            split at h
            · cases h
            · split at h
              · cases h
              · exact (disp_kept _ _ _ _ _ _ _ _ h1).trans (Kept.trans (setClass_kept _ _ _) (dispDecls_kept _ _ _ _ _ _ _ _ _ h))
    · split at h
      · cases h
      · split at h
        · exact Kept.trans (setClass_kept _ _ _) (dispDecls_kept _ _ _ _ _ _ _ _ _ h)
        · split at h
          · exact Kept.trans (setClass_kept _ _ _) (dispDecls_kept _ _ _ _ _ _ _ _ _ h)
          · cases h
    · exact dispDecls_kept _ _ _ _ _ _ _ _ _ h
    · split at h
      · cases h
      · next h1 => exact (disp_kept _ _ _ _ _ _ _ _ h1).trans (dispDecls_kept _ _ _ _ _ _ _ _ _ h)
    · split at h
      · cases h
      · next h1 => exact (disp_kept _ _ _ _ _ _ _ _ h1).trans (dispDecls_kept _ _ _ _ _ _ _ _ _ h)
    · split at h
      · cases h
      · next h1 => exact (disp_kept _ _ _ _ _ _ _ _ h1).trans (dispDecls_kept _ _ _ _ _ _ _ _ _ h)
    · cases h
termination_by ts => sizeOf ts
theorem dispAttrs_kept : ∀ (ts : List PTree) (ss ps : List Nat) (i : Nat) (fd) (w w' : World F), dispAttrs base fl ts ss ps i fd w = some w' → Kept none w w'
  | [], ss, ps, i, fd, w, w', h => by unfold dispAttrs at h; cases h; exact .refl _ _
  | t :: ts, ss, ps, i, fd, w, w', h => by
    unfold dispAttrs at h
    split at h
    · split at h
      · cases h
      · next h1 => exact (disp_kept _ _ _ _ _ _ _ _ h1).trans (dispAttrs_kept _ _ _ _ _ _ _ h)
    · exact dispAttrs_kept _ _ _ _ _ _ _ h
termination_by ts => sizeOf ts
end

/-- a whole declaration -/
theorem dispProto_declared {ts : List PTree} {ss ps : List Nat} {nm : Text} {w w' : World F} (h : dispProto base fl ts ss ps w.nclasses (w.newClass nm) = some w') :
    AsDeclared fl ts (w'.cls w.nclasses).decl := by
  have := (dispProto_kept _ _ _ _ _ _ h).2 (Nat.lt_succ_self _)
  simp only [World.newClass, upd, if_true] at this
  exact declared_asDeclared this

end Verif.Full
