import Verif.Lemmas.Watch
import Verif.Props.Matrix
/-!
**C94** Every change is signalled, and matrices follow ROUTEs.
-/
namespace Verif.Full
open Verif.Peg Verif.Grammar Verif.TextOut Verif.SceneText Verif.Reader Verif.Scopes
open Verif.Library
open Verif.Lin hiding disp dispList dispDecls dispAttrs disp_node disp_attr
variable {F : Type}

theorem replay_at {w : World F} : ∀ (l : List (Note F)), (∀ n ∈ l, (w.heap n.node).isSome) → ∀ j g, Told l (j, g) (w.at j g) ((replay w l).at j g) := by
  intro l
  induction l using List.reverseRecOn with
  | nil => intro _ j g; exact .quiet (by simp)
  | append_singleton l n ih =>
    intro hn j g
    have ih := ih (fun m hm => hn m (by simp [hm])) j g
    rw [replay_append]
    obtain ⟨i, f, u⟩ := n
    -- the last signal does not change the field
    have keep : ∀ x, ((i, f) = (j, g) → u = none) → Told l (j, g) (w.at j g) x → Told (l ++ [⟨i, f, u⟩]) (j, g) (w.at j g) x := by
      intro x hu h
      cases h with
      | quiet h =>
        exact .quiet (fun m hm hp => by
          rcases List.mem_append.1 hm with hm | hm
          · exact h m hm hp
          · cases List.mem_singleton.1 hm; exact hu hp)
      | told e h1 h2 h3 =>
        refine .told (by rw [e, List.append_assoc, List.cons_append]) h1 h2 (fun m hm hp => ?_)
        rcases List.mem_append.1 hm with hm | hm
        · exact h3 m hm hp
        · cases List.mem_singleton.1 hm; exact hu hp
    cases u with
    | none => exact keep _ (fun _ => rfl) ih
    | some u =>
      change Told _ _ _ (((replay w l).setField i f u).at j g)
      by_cases hq : (i, f) = (j, g)
      · cases hq
        have hlike := (replay_like l (.refl w)).cls j
        obtain ⟨m, hm⟩ := Option.isSome_iff_exists.1 (hn ⟨j, g, some u⟩ (by simp))
        change w.heap j = some m at hm
        rw [hm] at hlike
        have : ((replay w l).setField j g u).at j g = some u := by
          simp only [World.at, World.setField, if_true]
          cases hy : (replay w l).heap j with
          | none => rw [hy] at hlike; cases hlike
          | some y => simp [Node.set]
        rw [this]
        exact .told rfl rfl rfl (by simp)
      · have : ((replay w l).setField i f u).at j g = (replay w l).at j g := by
          simp only [World.at, World.setField]
          by_cases hj : j = i
          · subst hj
            simp only [if_true]
            cases (replay w l).heap j with
            | none => rfl
            | some y =>
              simp only [Option.map_some, Option.bind_some, Node.set]
              exact if_neg (fun e => hq (by rw [e]))
          · rw [if_neg hj]
        rw [this]
        exact keep _ (fun e => absurd e hq) ih

/-- **C94** Whatever an assignment changes, near or far along ROUTEs, is signalled by the field that changes: the value a field has afterwards is the one its last
signal told of, and a field that told of none has its old value.  Only declared fields to which connections lead from the assigned field or event send signals. -/
theorem C94_changes_signalled {w w' : World F} {i : Nat} {f : Text} {v : Val F} {log : List (Note F)} (h : w.assignS i f v = some (log, w')) :
    (∀ j g, Told log (j, g) (w.at j g) (w'.at j g)) ∧ ∀ n ∈ log, DeclaredAt w n.place ∧ Onwards w (i, f) n.place := by
  obtain ⟨new, e1, e2, e3⟩ := assignS_adds h
  simp only [List.nil_append] at e1 e2
  subst e1 e2
  refine ⟨fun j g => replay_at _ (fun n hn => ?_) j g, fun n hn => ⟨(e3 n hn).2, (e3 n hn).1⟩⟩
  obtain ⟨-, m, d, hm, -⟩ := e3 n hn
  exact Option.isSome_iff_exists.2 ⟨m, hm⟩

/-- **C94** The assigned field itself tells first, of the value that its type made of the one given. -/
theorem C94_assigned_field_signals {w w' : World F} {i : Nat} {f : Text} {v u : Val F} {n : Node F} {d : FieldDecl F} {log : List (Note F)} (hn : w.heap i = some n) (hd : n.cls.port f = some (.inl d))
    (hc : coerce d.kind d.conv v = some u) (h : w.assignS i f v = some (log, w')) : ∃ rest, log = ⟨i, f, some u⟩ :: rest := by
  obtain ⟨e, -, -⟩ := port_is_field hd
  subst e
  simp only [World.assignS, hn, Option.bind_some, hd, World.take, hc] at h
  obtain ⟨new, e1, -, -⟩ := spreadS_adds ((setField_quiet w i d.name u).like rfl (.refl w)) h
  exact ⟨new, e1⟩

/-- **C94** Listening changes nothing: with signals or without, an assignment does the same and fails in the same cases. -/
theorem C94_same_assignment (w : World F) (i : Nat) (f : Text) (v : Val F) : (∀ log w', w.assignS i f v = some (log, w') → w.assign i f v = some w') ∧
    ∀ w', w.assign i f v = some w' → ∃ log, w.assignS i f v = some (log, w') := by
  have h := assignS_erase w i f v
  refine ⟨fun log w' h' => by rw [← h, h']; rfl, fun w' h' => ?_⟩
  rw [h'] at h
  obtain ⟨⟨log, w1⟩, h1, h2⟩ := Option.map_eq_some_iff.1 h
  cases h2
  exact ⟨log, h1⟩

variable {M : Type}

/-- **C94** In a program that loads a scene, assigns fields and events (each of which may spread along ROUTEs), reads fields, makes paths, asks for matrices and uses the cache in other
ways, in any order: asking a node for its matrices gives those computed from the fields it has now. -/
theorem C94_matrices_follow {P : TCache.Params (Val F) M} (hD : TCache.DefaultsNeutral P) {isT : Nat → Bool} {w : World F} {acts : List (Act F M)} {s : Live F M}
    (h : (Live.load isT w).run acts = some s) {i : Nat} (hi : i < w.next) (ha : (TCache.sysRun P s.evs).cache.alive i = true) (fl : TCache.Flags) :
    (TCache.sysRun P (s.evs ++ [.askLocal i fl])).cache.getData i (.loc fl) = some (.pair (s.world.matrices P fl i)) := by
  have hk := run_keepsUp hD h (load_keepsUp hD isT w)
  rw [TCache.C34_local_matrices_current P hD s.evs i fl ha, hk.matrices hD hi ha]

/-- **C94** The same of the matrix of a path (scaling is not asked for without rotation, C35). -/
theorem C94_path_matrix_follows {P : TCache.Params (Val F) M} (hD : TCache.DefaultsNeutral P) {isT : Nat → Bool} {w : World F} {acts : List (Act F M)} {s : Live F M}
    (h : (Live.load isT w).run acts = some s) {p : Nat} (hp : (TCache.sysRun P s.evs).cache.alive p = true) {nodes : List Nat} (hn : (TCache.sysRun P s.evs).items p = nodes)
    (hi : ∀ i ∈ nodes, i < w.next) (inverse : Bool) (fl : TCache.Flags) (hfl : fl.scale = true → fl.rotate = true) :
    (TCache.sysRun P (s.evs ++ [.askPath p inverse fl])).cache.getData p (.path inverse fl) = some (.mat (s.world.pathMatrix P fl inverse (nodes.filter isT))) := by
  have hk := run_keepsUp hD h (load_keepsUp hD isT w)
  have hv := TCache.sinv_run hD s.evs
  rw [TCache.C35_path_matrix_current P hD s.evs p inverse fl hfl hp]
  have hf : (nodes.filter (TCache.sysRun P s.evs).isT) = nodes.filter isT := List.filter_congr (fun i hm => hk.isT i (hi i hm))
  have hm : ∀ i ∈ nodes.filter isT, TCache.nodeNow P (TCache.sysRun P s.evs) i fl = s.world.matrices P fl i := fun i hm => by
    have hm := (List.mem_filter.1 hm).1
    exact hk.matrices hD (hi i hm) (hv.path.live p hp i (by rw [hn]; exact hm)) fl
  simp only [TCache.pathNow, World.pathMatrix, hn, hf]
  cases inverse with
  | false =>
    simp only [Bool.false_eq_true, if_false]
    rw [List.map_congr_left (fun i hi => by rw [hm i hi])]
  | true =>
    simp only [if_true]
    rw [List.map_congr_left (fun i hi => by rw [hm i (List.mem_reverse.1 hi)])]

/-! ### Nodes that nothing collects are alive -/

/-- the action does not collect anything -/
def Act.keeps : Act F M → Bool
  | .other _ => false
  | _ => true

theorem alive_alloc {c : Cache.St TCache.Key (TCache.Dat M)} {a t} {i : Nat} (h : c.alive i = true) : (Cache.step c (.alloc a t)).alive i = true := by
  simp only [Cache.step]; split
  · exact h
  · obtain ⟨x, hx, hxa⟩ := Cache.alive_iff.1 h
    exact Cache.alive_iff.2 ⟨x, by rw [List.getElem?_append_left (List.getElem?_eq_some_iff.1 hx).1]; exact hx, hxa⟩

theorem alive_stays {P : TCache.Params V M} {S : TCache.Sys V M} (hS : TCache.SInv P S) {e : TCache.Ev V M} (he : ∀ o, e = .other o → ∃ n f, o = .fire n f) {i : Nat} (h : S.cache.alive i = true) :
    (TCache.sysStep P S e).cache.alive i = true := by
  have q : ∀ (S' : TCache.Sys V M), S'.cache.objs = S.cache.objs → S'.cache.alive i = true := fun S' h' => by unfold Cache.St.alive at h ⊢; rw [h']; exact h
  cases e with
  | newNode a t =>
    simp only [TCache.sysStep]; split
    · exact h
    · exact alive_alloc h
  | newPath a l =>
    simp only [TCache.sysStep]; split
    · exact h
    · split
      · exact alive_alloc h
      · exact h
  | change n f v =>
    simp only [TCache.sysStep]; split
    · simp only [TCache.alive_fire]; exact h
    · exact h
  | readDefault n f => exact h
  | askLocal n fl =>
    simp only [TCache.sysStep]; split
    · next h' => exact q _ (TCache.queryLocal_spec hS.loc h' fl).1.objs
    · exact h
  | askPath p i fl =>
    simp only [TCache.sysStep]; split
    · next h' => exact q _ (TCache.queryPath_spec hS.loc hS.path h' i fl).2.2.1
    · exact h
  | other o =>
    obtain ⟨n, f, rfl⟩ := he o rfl
    simp only [TCache.sysStep]; split
    · simp only [TCache.alive_fire]; exact h
    · exact h

theorem alive_all {P : TCache.Params V M} (hD : TCache.DefaultsNeutral P) {i : Nat} : ∀ (l : List (TCache.Ev V M)) {S : TCache.Sys V M}, TCache.SInv P S → (∀ e ∈ l, ∀ o, e = .other o → ∃ n f, o = .fire n f) →
    S.cache.alive i = true → (l.foldl (TCache.sysStep P) S).cache.alive i = true
  | [], _, _, _, h => h
  | e :: l, _, hS, he, h => alive_all hD l (TCache.sinv_step hD hS e) (fun e' h' => he e' (by simp [h'])) (alive_stays hS (he e (by simp)) h)

/-- **C94** Nodes stay as long as the program does not give them up: the nodes of the scene are there for `C94_matrices_follow`. -/
theorem C94_nodes_stay {P : TCache.Params (Val F) M} (hD : TCache.DefaultsNeutral P) {isT : Nat → Bool} {w : World F} {acts : List (Act F M)} (hacts : ∀ a ∈ acts, a.keeps = true) {s : Live F M}
    (h : (Live.load isT w).run acts = some s) {i : Nat} (hi : i < w.next) : (TCache.sysRun P s.evs).cache.alive i = true := by
  have h0 : (TCache.sysRun P (Live.load isT w).evs).cache.alive i = true := by
    obtain ⟨h1, -⟩ := load_nodes P isT w.next
    have : (TCache.sysRun P ((List.range w.next).map (fun i => TCache.Ev.newNode (V := Val F) (M := M) i (isT i)))).cache.alive i = true := by
      unfold Cache.St.alive
      rw [TCache.sysRun, h1]
      simp [List.getElem?_range hi]
    simp only [TCache.sysRun, Live.load, List.foldl_append] at this ⊢
    refine alive_all hD _ (TCache.sinv_run hD _) (fun e he o ho => ?_) this
    subst ho
    obtain ⟨j, -, hj⟩ := List.mem_flatMap.1 he
    obtain ⟨g, -, hg⟩ := List.mem_map.1 hj
    cases hg
  have one : ∀ (evs : List (TCache.Ev (Val F) M)) l, TCache.sysRun P (evs ++ l) = l.foldl (TCache.sysStep P) (TCache.sysRun P evs) := fun evs l => by simp [TCache.sysRun, List.foldl_append]
  refine foldlM_inv (P := fun (s : Live F M) => (TCache.sysRun P s.evs).cache.alive i = true) (fun a ha s1 s2 h1 h2 => ?_) h0 h
  have hk := hacts a ha
  cases a with
  | assign j f v =>
    obtain ⟨r, hr, rfl⟩ := Option.map_eq_some_iff.1 h2
    rw [one]
    refine alive_all hD _ (TCache.sinv_run hD _) (fun e he o ho => ?_) h1
    obtain ⟨n, -, hn⟩ := List.mem_map.1 he
    rw [ho] at hn
    unfold heard at hn
    split at hn
    · cases hn
    · exact ⟨_, _, (TCache.Ev.other.inj hn).symm⟩
  | ask j fl => cases h2; rw [one]; exact alive_all hD _ (TCache.sinv_run hD _) (by simp) h1
  | path l => cases h2; rw [one]; exact alive_all hD _ (TCache.sinv_run hD _) (by simp) h1
  | askPath p j fl => cases h2; rw [one]; exact alive_all hD _ (TCache.sinv_run hD _) (by simp) h1
  | read j f => cases h2; rw [one]; exact alive_all hD _ (TCache.sinv_run hD _) (by simp) h1
  | other o => cases hk

/-- **C94** Together with C93: after an assignment that spreads, every node that it reaches has matrices made with the assigned value in the fields reached and its
other fields as they were, even if its matrices had been asked for (and so cached) before. -/
theorem C94_routed_value_in_matrices {P : TCache.Params (Val F) M} (hD : TCache.DefaultsNeutral P) {isT : Nat → Bool} {w : World F} {acts : List (Act F M)} (hacts : ∀ a ∈ acts, a.keeps = true) {s : Live F M}
    (h : (Live.load isT w).run acts = some s) {a : Asg F} (ha : a.Good s.world) :
    ∃ s', (Live.load isT w).run (acts ++ [.assign a.i a.f a.v]) = some s' ∧
      ∀ i, i < w.next → ∀ fl, (TCache.sysRun P (s'.evs ++ [.askLocal i fl])).cache.getData i (.loc fl) = some (.pair (s'.world.matrices P fl i)) ∧
        ∀ g, FieldAt s.world (i, g) → (Linked s.world a.place (i, g) → s'.world.at i g = some a.u) ∧ (¬ Linked s.world a.place (i, g) → s'.world.at i g = s.world.at i g) := by
  obtain ⟨w', h1, -, h3⟩ := C93_assignment_spreads ha.1 ha.2
  obtain ⟨log, h4⟩ := (C94_same_assignment _ _ _ _).2 _ h1
  have hrun : (Live.load isT w).run (acts ++ [.assign a.i a.f a.v]) = some ⟨w', s.evs ++ log.map heard⟩ := by
    simp only [Live.run] at h ⊢
    rw [List.foldlM_append, h]
    simp [Live.act, h4]
  refine ⟨_, hrun, fun i hi fl => ⟨C94_matrices_follow hD hrun hi (C94_nodes_stay hD (fun b hb => ?_) hrun hi) fl, fun g hg => h3 i g hg⟩⟩
  rcases List.mem_append.1 hb with hb | hb
  · exact hacts b hb
  · cases List.mem_singleton.1 hb; rfl

/-! ### The real matrices -/

/-- the numbers of a field value, as `transformmatrix` takes them -/
def rotOf (num : F → ℝ) : Val F → Mx.Rot
  | .nums [x, y, z] => ⟨num x, num y, num z, 0⟩
  | .nums [x, y, z, a] => ⟨num x, num y, num z, num a⟩
  | _ => ⟨0, 0, 0, 0⟩

/-- `realParams` (Props/Matrix) on field values; `zero` and `one` are the numbers in the defaults of Transform. -/
noncomputable def fieldParams (num : F → ℝ) (zero one : F) : TCache.Params (Val F) (Option Mx.M4) where
  loc := fun v => Mx.realParams.loc (fun k => (v k).map (rotOf num))
  compress := Mx.realParams.compress
  dflt := fun k => if k = 2 then .nums [one, one, one] else if k = 3 ∨ k = 4 then .nums [zero, zero, one, zero] else .nums [zero, zero, zero]

theorem fieldParams_neutral {num : F → ℝ} {zero one : F} (h0 : num zero = 0) (h1 : num one = 1) : TCache.DefaultsNeutral (fieldParams num zero one) := by
  intro v f hv
  have := Mx.real_defaults_neutral (fun k => (v k).map (rotOf num)) f (by simp [hv])
  simp only [fieldParams]
  rw [← this]
  congr 1
  funext g
  by_cases hg : g = f
  · subst hg
    simp only [if_true, Option.map_some, Mx.realParams]
    split
    · simp [rotOf, h1]
    · split <;> simp [rotOf, h0, h1]
  · simp only [if_neg hg]

/-- **C94** with the real matrices: what `localMatrices` returns is what `transformmatrix.localMatrices` makes of the numbers in the fields now. -/
theorem C94_real_matrices_follow {num : F → ℝ} {zero one : F} (h0 : num zero = 0) (h1 : num one = 1) {isT : Nat → Bool} {w : World F} {acts : List (Act F (Option Mx.M4))}
    (hacts : ∀ a ∈ acts, a.keeps = true) {s : Live F (Option Mx.M4)} (h : (Live.load isT w).run acts = some s) {i : Nat} (hi : i < w.next) (fl : TCache.Flags) :
    let vec := fun (on : Bool) (g : Text) => if on then (s.world.at i g).map (fun v => Mx.toV3 (rotOf num v)) else none
    let rot := fun (on : Bool) (g : Text) => if on then (s.world.at i g).map (rotOf num) else none
    (TCache.sysRun (fieldParams num zero one) (s.evs ++ [.askLocal i fl])).cache.getData i (.loc fl) =
      some (.pair (Mx.localMatrices ⟨vec fl.translate (chars "translation"), vec (fl.scale || fl.rotate) (chars "center"), rot fl.rotate (chars "rotation"), vec fl.scale (chars "scale"),
        rot fl.scale (chars "scaleOrientation")⟩)) := by
  intro vec rot
  have hD := fieldParams_neutral (F := F) h0 h1
  rw [C94_matrices_follow hD h hi (C94_nodes_stay hD hacts h hi) fl]
  obtain ⟨t, sc, r⟩ := fl
  cases t <;> cases sc <;> cases r <;> simp [World.matrices, fieldParams, Mx.realParams, Uses, World.matrixField, vec, rot, Option.map_map, Function.comp_def]

/-! ### Examples -/

/-- a program that has asked for matrices before -/
def exActs {M : Type} : List (Act Int M) := [.ask 1 ⟨true, true, true⟩, .path [0, 1], .askPath 3 false ⟨true, true, true⟩, .read 1 (chars "center")]

/-- `A.translation` is assigned after `B`'s matrices were cached: `B` gets the translation along the ROUTE, keeps its scale, and its matrices are made of both. -/
example : ∃ w s, ReadsWorld (library exNum) (floats exNum) exRouted w ∧ (Live.load (fun _ => true) w).run (exActs ++ [.assign 0 (chars "translation") (exVal [1, 2, 3])]) = some s ∧
    s.world.at 1 (chars "translation") = some (exVal [1, 2, 3]) ∧ s.world.at 1 (chars "scale") = w.at 1 (chars "scale") ∧
    (TCache.sysRun (fieldParams (fun n : Int => (n : ℝ)) 0 1) (s.evs ++ [.askLocal 1 ⟨true, true, true⟩])).cache.getData 1 (.loc ⟨true, true, true⟩) =
      some (.pair (s.world.matrices (fieldParams (fun n : Int => (n : ℝ)) 0 1) ⟨true, true, true⟩ 1)) := by
  obtain ⟨w, kids, h1, h2, h3, h4, h5, h6, h7, h8⟩ := exWorld
  have hid := (C69_world_well_formed (C81_builtins exNum) h1).1
  have hg := (exGood h6 h5 hid h8 (a := ⟨0, chars "translation", exVal [1, 2, 3], exVal [1, 2, 3]⟩) (by simp [exAsgs])).1
  obtain ⟨s, k1, k2⟩ := C94_routed_value_in_matrices (P := fieldParams (fun n : Int => (n : ℝ)) 0 1) (fieldParams_neutral (by simp) (by simp)) (isT := fun _ => true) (w := w) (acts := exActs) (by simp [exActs, Act.keeps])
    (s := ⟨w, _⟩) rfl hg
  obtain ⟨m, hm⟩ := Option.isSome_iff_exists.1 ((hid 1).2 (by omega))
  obtain ⟨m0, hm0⟩ := Option.isSome_iff_exists.1 ((hid 0).2 (by omega))
  have hf : ∀ g, (∃ d, (nodeClass exNum "Transform").port g = some (.inl d)) → FieldAt w (1, g) := fun g ⟨d, hd⟩ => ⟨m, d, hm, by rw [h8 1 m hm]; exact hd⟩
  have ht : ∃ d, (nodeClass exNum "Transform").port (chars "translation") = some (.inl d) := by
    have : ((nodeClass exNum "Transform").port (chars "translation")).elim false Sum.isLeft = true := by decide +kernel
    rcases hp : (nodeClass exNum "Transform").port (chars "translation") with _ | d | e
    · rw [hp] at this; cases this
    · exact ⟨d, rfl⟩
    · rw [hp] at this; cases this
  have hs : ∃ d, (nodeClass exNum "Transform").port (chars "scale") = some (.inl d) := by
    have : ((nodeClass exNum "Transform").port (chars "scale")).elim false Sum.isLeft = true := by decide +kernel
    rcases hp : (nodeClass exNum "Transform").port (chars "scale") with _ | d | e
    · rw [hp] at this; cases this
    · exact ⟨d, rfl⟩
    · rw [hp] at this; cases this
  have hex := exKeeps_of (f := chars "set_translation") (u := exVal [1, 2, 3]) (by decide +kernel)
  obtain ⟨d, d1, d2, d3⟩ := hex
  have hname : d.name = chars "translation" := by
    have : (match (nodeClass exNum "Transform").getField (chars "set_translation") with
      | some (.inl d) => decide (d.name = chars "translation")
      | _ => false) = true := by decide +kernel
    rw [d1] at this
    simpa using this
  refine ⟨w, s, h1, k1, ((k2 1 (by omega) ⟨true, true, true⟩).2 _ (hf _ ht)).1 ?_, ((k2 1 (by omega) ⟨true, true, true⟩).2 _ (hf _ hs)).2 ?_, (k2 1 (by omega) _).1⟩
  · have := Linked.step (x := ⟨0, chars "translation", 1, chars "set_translation"⟩) (d := d) (Linked.start (w := w) (p := (0, chars "translation"))) (by rw [h6]; simp) rfl ⟨m, hm, by rw [h8 1 m hm]; exact d1⟩
    rw [hname] at this
    exact this
  · intro hl
    have : ∀ q, Linked w (0, chars "translation") q → q.1 = 1 → q.2 = chars "translation" := by
      intro q hq
      cases hq with
      | start => intro h; cases h
      | @step _ x d' _ hx _ hr =>
        intro h'
        rw [h6] at hx
        simp only [List.mem_cons, List.not_mem_nil, or_false] at hx
        rcases hx with rfl | rfl | rfl
        · obtain ⟨n, e1, e2⟩ := hr
          rw [h8 _ n e1, d1] at e2
          cases e2; exact hname
        · cases h'
        · cases h'
    have := this _ hl rfl
    revert this; decide

/-- what listeners hear of that assignment: the three fields of the circle, the first of them twice -/
example : ∃ w w' log, ReadsWorld (library exNum) (floats exNum) exRouted w ∧ w.assignS 0 (chars "translation") (exVal [1, 2, 3]) = some (log, w') ∧
    log.map Note.place = [(0, chars "translation"), (1, chars "translation"), (2, chars "scale"), (0, chars "translation")] := by
  obtain ⟨w, h1, h2⟩ := world_fact (base := library exNum) (fl := floats exNum) (fuel := 600) (text := exRouted)
    (f := fun (w : World Int) => (w.assignS 0 (chars "translation") (exVal [1, 2, 3])).map (fun p => p.1.map Note.place))
    (x := (some [(0, chars "translation"), (1, chars "translation"), (2, chars "scale"), (0, chars "translation")] : Option (List Place))) (by decide +kernel)
  obtain ⟨⟨log, w'⟩, h3, h4⟩ := Option.map_eq_some_iff.1 h2
  exact ⟨w, w', log, h1, h3, h4⟩

end Verif.Full
