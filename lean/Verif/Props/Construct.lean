import Verif.Model.Construct
import Mathlib.Data.List.Forall2
import Mathlib.Tactic.Tauto
/-!
C65: building a node from keyword arguments.  C66: adding routes to a scene graph.
-/
namespace Verif.Construct
open Verif.Proto Verif.PyDict
variable {V : Type}

/-! ### C65: specification -/

/-- The keyword `k` stands for field object `id`, stored under `s` (C46 says which that is: the most derived
attribute of that name, else the field without `set_` or `_changed`). -/
def Means (c : Cls) (k : Name) (id : Nat) (s : Name) : Prop := getField c k = .obj (.field id s)

/-- An argument the constructor accepts: it names a field, and the field accepts the value. -/
def Accepted (coerce : Nat → V → Option V) (c : Cls) (a : Name × V) : Prop :=
  ∃ id s w, Means c a.1 id s ∧ coerce id a.2 = some w

/-- The new node before any argument: nothing stored, nothing sent. -/
def blank : Obj V := ⟨fun _ => none, []⟩

/-! ### C65: proofs -/

theorem setArg_ok (coerce : Nat → V → Option V) (c : Cls) (o o' : Obj V) (k : Name) (v : V) :
    setArg coerce c o k v = .ok o' ↔ ∃ id s w, Means c k id s ∧ coerce id v = some w ∧
      o' = ⟨fun t => if t = s then some w else o.dict t, o.sent ++ [(id, w)]⟩ := by
  unfold setArg Means
  split
  · rename_i h; simp [h]
  · rename_i h; simp [h]
  · rename_i h; simp [h]
  · rename_i h; simp [h]
  · rename_i id s h
    simp only [h, Obj.fset]
    cases hc : coerce id v with
    | none =>
      simp only [reduceCtorEq, false_iff]
      rintro ⟨id', s', w, he, hw, _⟩
      cases he
      rw [hc] at hw; cases hw
    | some w =>
      simp only [Except.ok.injEq]
      constructor
      · rintro rfl; exact ⟨id, s, w, rfl, hc, rfl⟩
      · rintro ⟨id', s', w', he, hw, rfl⟩
        cases he
        rw [hc] at hw; cases hw; rfl

theorem setArg_accepted (coerce : Nat → V → Option V) (c : Cls) (o : Obj V) (k : Name) (v : V) :
    (∃ o', setArg coerce c o k v = .ok o') ↔ Accepted coerce c (k, v) := by
  constructor
  · rintro ⟨o', h⟩
    obtain ⟨id, s, w, h1, h2, _⟩ := (setArg_ok ..).mp h
    exact ⟨id, s, w, h1, h2⟩
  · rintro ⟨id, s, w, h1, h2⟩
    exact ⟨_, (setArg_ok ..).mpr ⟨id, s, w, h1, h2, rfl⟩⟩

/-- A node is built exactly when every argument is accepted. -/
theorem C65_builds_iff (coerce : Nat → V → Option V) (c : Cls) (o : Obj V) (args : List (Name × V)) :
    (∃ o', construct coerce c o args = .ok o') ↔ ∀ a ∈ args, Accepted coerce c a := by
  induction args generalizing o with
  | nil => simp [construct]
  | cons a args ih =>
    obtain ⟨k, v⟩ := a
    simp only [construct, List.mem_cons, forall_eq_or_imp]
    cases h : setArg coerce c o k v with
    | error e =>
      have : ¬ Accepted coerce c (k, v) := by
        rw [← setArg_accepted coerce c o]; rintro ⟨o', h'⟩; rw [h] at h'; cases h'
      simp [this]
    | ok o1 =>
      have : Accepted coerce c (k, v) := (setArg_accepted coerce c o k v).mp ⟨o1, h⟩
      simp only [this, true_and]
      exact ih o1

/-- The value of every field of a built node: the coerced value of the *last* argument that stands for it, and unset
(the default) if there is none.  (`x=1, set_x=2` are two arguments for `x`.) -/
theorem C65_values (coerce : Nat → V → Option V) (c : Cls) (o o' : Obj V) (args : List (Name × V))
    (h : construct coerce c o args = .ok o') (t : Name) :
    (∃ before k v after id w, args = before ++ (k, v) :: after ∧ Means c k id t ∧ coerce id v = some w ∧
      o'.dict t = some w ∧ ∀ a ∈ after, ∀ id', ¬ Means c a.1 id' t)
    ∨ ((∀ a ∈ args, ∀ id', ¬ Means c a.1 id' t) ∧ o'.dict t = o.dict t) := by
  induction args generalizing o with
  | nil => simp only [construct, Except.ok.injEq] at h; subst h; exact Or.inr ⟨by simp, rfl⟩
  | cons a args ih =>
    obtain ⟨k, v⟩ := a
    rw [construct] at h
    cases h1 : setArg coerce c o k v with
    | error e => rw [h1] at h; cases h
    | ok o1 =>
      rw [h1] at h
      obtain ⟨id, s, w, hm, hw, rfl⟩ := (setArg_ok ..).mp h1
      rcases ih _ h with ⟨b, k', v', af, id', w', rfl, hm', hw', hd, ha⟩ | ⟨hn, hd⟩
      · exact Or.inl ⟨(k, v) :: b, k', v', af, id', w', rfl, hm', hw', hd, ha⟩
      · by_cases hs : t = s
        · subst hs
          refine Or.inl ⟨[], k, v, args, id, w, rfl, hm, hw, ?_, hn⟩
          simpa using hd
        · refine Or.inr ⟨?_, by simpa [hs] using hd⟩
          intro a ha id'
          rcases List.mem_cons.mp ha with rfl | ha
          · intro hm'
            unfold Means at hm hm'
            rw [hm] at hm'
            injection hm' with hm'; injection hm' with _ hm'
            exact hs hm'.symm
          · exact hn a ha id'

/-- Building sends one `set` notification per argument, in the order of the call, with the stored value. -/
theorem C65_notifications (coerce : Nat → V → Option V) (c : Cls) (o o' : Obj V) (args : List (Name × V))
    (h : construct coerce c o args = .ok o') :
    ∃ l, o'.sent = o.sent ++ l ∧
      List.Forall₂ (fun (a : Name × V) (n : Nat × V) => (∃ s, Means c a.1 n.1 s) ∧ coerce n.1 a.2 = some n.2) args l := by
  induction args generalizing o with
  | nil => simp only [construct, Except.ok.injEq] at h; subst h; exact ⟨[], by simp, .nil⟩
  | cons a args ih =>
    obtain ⟨k, v⟩ := a
    rw [construct] at h
    cases h1 : setArg coerce c o k v with
    | error e => rw [h1] at h; cases h
    | ok o1 =>
      rw [h1] at h
      obtain ⟨id, s, w, hm, hw, rfl⟩ := (setArg_ok ..).mp h1
      obtain ⟨l, hl, hf⟩ := ih _ h
      exact ⟨(id, w) :: l, by simp [hl], .cons ⟨⟨s, hm⟩, hw⟩ hf⟩

/-- The exception is that of the first argument that is not accepted: AttributeError for a name the class does not
know and for events, TypeError for attributes that are not fields (and for storage names), ValueError for a value the
field refuses. -/
theorem C65_error (coerce : Nat → V → Option V) (c : Cls) (o : Obj V) (args : List (Name × V)) (e : Exc)
    (h : construct coerce c o args = .error e) :
    ∃ before k v after, args = before ++ (k, v) :: after ∧ (∀ a ∈ before, Accepted coerce c a) ∧ ¬ Accepted coerce c (k, v) ∧
      (e = .attributeError ↔ (getField c k = .attributeError ∨ ∃ id s, getField c k = .obj (.event id s))) ∧
      (e = .typeError ↔ ((∃ n, getField c k = .str n) ∨ ∃ id, getField c k = .obj (.other id))) ∧
      (e = .valueError ↔ ∃ id s, Means c k id s ∧ coerce id v = none) := by
  induction args generalizing o with
  | nil => simp [construct] at h
  | cons a args ih =>
    obtain ⟨k, v⟩ := a
    rw [construct] at h
    cases h1 : setArg coerce c o k v with
    | ok o1 =>
      rw [h1] at h
      obtain ⟨b, k', v', af, rfl, hb, hrest⟩ := ih _ h
      refine ⟨(k, v) :: b, k', v', af, rfl, ?_, hrest⟩
      intro a ha
      rcases List.mem_cons.mp ha with rfl | ha
      · exact (setArg_accepted coerce c o k v).mp ⟨o1, h1⟩
      · exact hb a ha
    | error e' =>
      rw [h1] at h
      simp only [Except.error.injEq] at h
      subst h
      refine ⟨[], k, v, args, rfl, by simp, ?_, ?_⟩
      · rw [← setArg_accepted coerce c o]; rintro ⟨o', h'⟩; rw [h1] at h'; cases h'
      · unfold setArg at h1
        unfold Means
        cases hg : getField c k with
        | attributeError => rw [hg] at h1; cases h1; simp
        | str n => rw [hg] at h1; cases h1; simp
        | obj a =>
          rw [hg] at h1
          cases a with
          | other id => cases h1; simp
          | event id s => cases h1; simp
          | field id s =>
            simp only [Obj.fset] at h1
            cases hc : coerce id v with
            | some w => rw [hc] at h1; cases h1
            | none => rw [hc] at h1; cases h1; simp [hc]

/-- The DEF name of a node cannot be given under its storage name, only as `DEF`. -/
theorem C65_storage_name_refused : ∃ (c : Cls) (coerce : Nat → Nat → Option Nat),
    construct coerce c blank [([' ', 'D', 'E', 'F'], 7)] = .error .typeError ∧
    ∃ o, construct coerce c blank [(['D', 'E', 'F'], 7)] = .ok o ∧ o.dict [' ', 'D', 'E', 'F'] = some 7 := by
  refine ⟨[[(['D', 'E', 'F'], .field 0 [' ', 'D', 'E', 'F'])]], fun _ v => some v, ?_, ?_⟩
  · have h : getField [[(['D', 'E', 'F'], .field 0 [' ', 'D', 'E', 'F'])]] [' ', 'D', 'E', 'F'] = .str [' ', 'D', 'E', 'F'] := by
      decide +kernel
    simp [construct, setArg, h]
  · have h : getField [[(['D', 'E', 'F'], .field 0 [' ', 'D', 'E', 'F'])]] ['D', 'E', 'F'] = .obj (.field 0 [' ', 'D', 'E', 'F']) := by
      decide +kernel
    simp [construct, setArg, h, Obj.fset]

/-- A class with two fields; one argument goes by the event name, the other is coerced. -/
example : let c : Cls := [[(['x'], .field 1 ['x']), (['y'], .field 2 ['y'])]]
    (∀ a ∈ [(['x'], 1), (['s', 'e', 't', '_', 'x'], 2), (['y'], 5)], Accepted (fun _ (v : Nat) => some (v + 10)) c a) ∧
    ∃ o, construct (fun _ v => some (v + 10)) c blank [(['x'], 1), (['s', 'e', 't', '_', 'x'], 2), (['y'], 5)] = .ok o ∧
      o.dict ['x'] = some 12 ∧ o.dict ['y'] = some 15 ∧ o.dict ['z'] = none ∧ o.sent = [(1, 11), (1, 12), (2, 15)] := by
  intro c
  have h1 : getField c ['x'] = .obj (.field 1 ['x']) := by decide +kernel
  have h2 : getField c ['s', 'e', 't', '_', 'x'] = .obj (.field 1 ['x']) := by decide +kernel
  have h3 : getField c ['y'] = .obj (.field 2 ['y']) := by decide +kernel
  refine ⟨?_, ?_⟩
  · intro a ha
    simp only [List.mem_cons, List.not_mem_nil, or_false] at ha
    rcases ha with rfl | rfl | rfl
    · exact ⟨1, ['x'], 11, h1, rfl⟩
    · exact ⟨1, ['x'], 12, h2, rfl⟩
    · exact ⟨2, ['y'], 15, h3, rfl⟩
  · simp [construct, setArg, h1, h2, h3, Obj.fset, blank]
example : construct (fun _ (v : Nat) => if v < 3 then some v else none) [[(['x'], .field 1 ['x'])]] blank [(['x'], 1), (['x'], 4), (['q'], 1)]
    = .error .valueError := by
  have h1 : getField [[(['x'], .field 1 ['x'])]] ['x'] = .obj (.field 1 ['x']) := by decide +kernel
  simp [construct, setArg, h1, Obj.fset]

/-! ### C66 -/

theorem mem_connect (l : Conns) (k : Signal × Attr × Nat) (r : Receiver) (c : (Signal × Attr × Nat) × Receiver) :
    c ∈ connect l k r ↔ c ∈ l ∨ c = (k, r) := by
  unfold connect
  simp only [List.mem_append, List.mem_filter, bne_iff_ne, ne_eq, List.mem_singleton]
  tauto

/-- `r` is called when field object `a` of node `i` sends signal `sig`. -/
def Hears (g : SG) (r : Receiver) (sig : Signal) (a : Attr) (i : Nat) : Prop := r ∈ receivers g.conns sig a i

theorem hears_iff (g : SG) (r : Receiver) (sig : Signal) (a : Attr) (i : Nat) :
    Hears g r sig a i ↔ ((sig, a, i), r) ∈ g.conns := by
  unfold Hears receivers
  simp only [List.mem_map, List.mem_filter, beq_iff_eq, Prod.exists, exists_eq_right]

/-- The four-part form: one ROUTE is added at the end of the routes, its ends are the nodes given or the nodes
registered under the DEF names given (NULL if there is none), nothing else of the scene graph changes, and the call
never fails. -/
theorem C66_four_parts (clsOf : Nat → Cls) (g : SG) (s d : End) (sf df : Name) :
    ∃ g' r, g.addRoute clsOf (.four s sf d df) = some g' ∧ g'.routes = g.routes ++ [.route r] ∧ g'.defs = g.defs ∧
      r.srcField = sf ∧ r.dstField = df ∧
      (∀ i, r.src = some i ↔ s = .node i ∨ ∃ n, s = .name n ∧ get? g.defs n = some i) ∧
      (∀ i, r.dst = some i ↔ d = .node i ∨ ∃ n, d = .name n ∧ get? g.defs n = some i) := by
  have res : ∀ (e : End) (i : Nat), g.resolve e = some i ↔ e = .node i ∨ ∃ n, e = .name n ∧ get? g.defs n = some i := by
    intro e i
    cases e with
    | node j => simp [SG.resolve]
    | name n => simp [SG.resolve]
  exact ⟨_, _, rfl, rfl, rfl, rfl, rfl, res s, res d⟩

theorem bind_mem (clsOf : Nat → Cls) (l : Conns) (r : RouteObj) (c : (Signal × Attr × Nat) × Receiver) :
    c ∈ bind clsOf l r ↔ c ∈ l ∨ ∃ i a sig, r.src = some i ∧ r.srcField ≠ [] ∧ getField (clsOf i) r.srcField = .obj a ∧
      c = ((sig, a, i), .route r.id) := by
  unfold bind
  cases hs : r.src with
  | none => simp
  | some i =>
    simp only [Option.some.injEq]
    by_cases hf : r.srcField = []
    · simp [hf]
    · rw [if_neg hf]
      cases hg : getField (clsOf i) r.srcField with
      | attributeError =>
        constructor
        · exact Or.inl
        · rintro (h | ⟨j, a, sig, rfl, _, h, _⟩)
          · exact h
          · rw [hg] at h; cases h
      | str n =>
        constructor
        · exact Or.inl
        · rintro (h | ⟨j, a, sig, rfl, _, h, _⟩)
          · exact h
          · rw [hg] at h; cases h
      | obj a =>
        simp only [mem_connect]
        constructor
        · rintro (((h | h) | h) | h)
          · exact Or.inl h
          · exact Or.inr ⟨i, a, .set, rfl, hf, hg, h⟩
          · exact Or.inr ⟨i, a, .del, rfl, hf, hg, h⟩
          · exact Or.inr ⟨i, a, .route, rfl, hf, hg, h⟩
        · rintro (h | ⟨j, a', sig, rfl, _, h, rfl⟩)
          · exact Or.inl (Or.inl (Or.inl h))
          · rw [hg] at h; cases h
            cases sig
            · exact Or.inl (Or.inl (Or.inr rfl))
            · exact Or.inl (Or.inr rfl)
            · exact Or.inr rfl

/-- What the new route hears: all three signals of the source field, if the source exists and has such a field or
event; and nothing at all otherwise.  Nobody else is connected or disconnected. -/
theorem C66_new_route_hears (clsOf : Nat → Cls) (g g' : SG) (s d : End) (sf df : Name)
    (h : g.addRoute clsOf (.four s sf d df) = some g') (fresh : ∀ c ∈ g.conns, c.2 ≠ .route g.next) :
    ∃ r, g'.routes = g.routes ++ [.route r] ∧
      (∀ sig a i, Hears g' (.route r.id) sig a i ↔ r.src = some i ∧ sf ≠ [] ∧ getField (clsOf i) sf = .obj a) ∧
      (∀ q sig a i, q ≠ .route r.id → (Hears g' q sig a i ↔ Hears g q sig a i)) := by
  simp only [SG.addRoute, Option.some.injEq] at h
  subst h
  refine ⟨_, rfl, ?_, ?_⟩
  · intro sig a i
    rw [hears_iff, bind_mem]
    constructor
    · rintro (h | ⟨j, a', sig', h1, h2, h3, h4⟩)
      · exact absurd rfl (fresh _ h)
      · simp only [Prod.mk.injEq] at h4
        obtain ⟨⟨rfl, rfl, rfl⟩, _⟩ := h4
        exact ⟨h1, h2, h3⟩
    · rintro ⟨h1, h2, h3⟩
      exact Or.inr ⟨i, a, sig, h1, h2, h3, rfl⟩
  · intro q sig a i hq
    rw [hears_iff, hears_iff, bind_mem]
    constructor
    · rintro (h | ⟨j, a', sig', h1, h2, h3, h4⟩)
      · exact h
      · simp only [Prod.mk.injEq] at h4
        exact absurd h4.2 hq
    · exact Or.inl

/-- The three-part form succeeds exactly when the target is callable and the source exists and has such a field or
event; the function then hears the field being set and deleted — but not values arriving through routes. -/
theorem C66_function (clsOf : Nat → Cls) (g : SG) (s : End) (sf : Name) (t : Option Nat) (g' : SG) :
    g.addRoute clsOf (.three s sf t) = some g' ↔ ∃ f i a, t = some f ∧ g.resolve s = some i ∧
      getField (clsOf i) sf = .obj a ∧ (∀ id, a ≠ .other id) ∧
      g' = { g with routes := g.routes ++ [.tuple s sf t], conns := watch g.conns a i f } := by
  unfold SG.addRoute
  cases t with
  | none => simp
  | some f =>
    cases hs : g.resolve s with
    | none => simp [hs]
    | some i =>
      simp only [hs]
      cases hg : getField (clsOf i) sf with
      | attributeError => simp [hg]
      | str n => simp [hg]
      | obj a =>
        cases a with
        | other id => simp [hg]
        | field id st => simp [hg, eq_comm]
        | event id st => simp [hg, eq_comm]

theorem C66_function_hears (clsOf : Nat → Cls) (g g' : SG) (s : End) (sf : Name) (f : Nat)
    (h : g.addRoute clsOf (.three s sf (some f)) = some g') (new : ∀ c ∈ g.conns, c.2 ≠ .func f) :
    ∃ i a, g.resolve s = some i ∧ getField (clsOf i) sf = .obj a ∧
      (∀ sig a' i', Hears g' (.func f) sig a' i' ↔ a' = a ∧ i' = i ∧ sig ≠ .route) ∧
      (∀ q sig a' i', q ≠ .func f → (Hears g' q sig a' i' ↔ Hears g q sig a' i')) := by
  obtain ⟨f', i, a, hf, hr, hg, _, rfl⟩ := (C66_function ..).mp h
  cases hf
  refine ⟨i, a, hr, hg, ?_, ?_⟩
  · intro sig a' i'
    rw [hears_iff]
    simp only [watch, mem_connect, Prod.mk.injEq, and_true]
    constructor
    · rintro ((h | ⟨rfl, rfl, rfl⟩) | ⟨rfl, rfl, rfl⟩)
      · exact absurd rfl (new _ h)
      · exact ⟨rfl, rfl, by decide⟩
      · exact ⟨rfl, rfl, by decide⟩
    · rintro ⟨rfl, rfl, hs⟩
      cases sig
      · exact Or.inl (Or.inr ⟨rfl, rfl, rfl⟩)
      · exact Or.inr ⟨rfl, rfl, rfl⟩
      · exact absurd rfl hs
  · intro q sig a' i' hq
    rw [hears_iff, hears_iff]
    simp only [watch, mem_connect, Prod.mk.injEq]
    constructor
    · rintro ((h | ⟨_, rfl⟩) | ⟨_, rfl⟩)
      · exact h
      · exact absurd rfl hq
      · exact absurd rfl hq
    · exact fun h => Or.inl (Or.inl h)

/-- Adding a function leaves a tuple among the routes, and from then on the scene graph cannot be written: naming the
ends of the routes fails, whatever else is added later. -/
theorem C66_refuted_still_writable (clsOf : Nat → Cls) (g g' : SG) (s : End) (sf : Name) (t : Option Nat)
    (h : g.addRoute clsOf (.three s sf t) = some g') (more : List RouteArg) (g'' : SG)
    (hm : more.foldlM (fun g a => g.addRoute clsOf a) g' = some g'') : g''.prerouteOk = false := by
  have bad : ∀ (l : List RouteArg) (g g'' : SG), g.prerouteOk = false →
      l.foldlM (fun g a => g.addRoute clsOf a) g = some g'' → g''.prerouteOk = false := by
    intro l
    induction l with
    | nil =>
      intro g g'' h0 h1
      simp only [List.foldlM_nil, pure, Option.some.injEq] at h1
      subst h1; exact h0
    | cons a l ih =>
      intro g g'' h0 h1
      simp only [List.foldlM_cons, Option.bind_eq_bind] at h1
      cases ha : g.addRoute clsOf a with
      | none => rw [ha] at h1; cases h1
      | some g1 =>
        rw [ha] at h1
        refine ih g1 g'' ?_ h1
        have : ∃ e, g1.routes = g.routes ++ [e] := by
          cases a with
          | route r => simp only [SG.addRoute, Option.some.injEq] at ha; subst ha; exact ⟨_, rfl⟩
          | four s sf d df => simp only [SG.addRoute, Option.some.injEq] at ha; subst ha; exact ⟨_, rfl⟩
          | three s sf t =>
            obtain ⟨_, _, _, _, _, _, _, rfl⟩ := (C66_function ..).mp ha
            exact ⟨_, rfl⟩
        obtain ⟨e, he⟩ := this
        unfold SG.prerouteOk at h0 ⊢
        rw [he, List.all_append, h0, Bool.false_and]
  refine bad more g' g'' ?_ hm
  obtain ⟨_, _, _, _, _, _, _, rfl⟩ := (C66_function ..).mp h
  simp [SG.prerouteOk]

/-- Without functions, a scene graph built by `addRoute` can always have its routes' ends named. -/
theorem C66_routes_only (clsOf : Nat → Cls) (g g' : SG) (a : RouteArg) (h0 : g.prerouteOk = true)
    (h : g.addRoute clsOf a = some g') (hn : ∀ s sf t, a ≠ .three s sf t) : g'.prerouteOk = true := by
  cases a with
  | route r => simp only [SG.addRoute, Option.some.injEq] at h; subst h; simpa [SG.prerouteOk] using h0
  | four s sf d df => simp only [SG.addRoute, Option.some.injEq] at h; subst h; simpa [SG.prerouteOk] using h0
  | three s sf t => exact absurd rfl (hn s sf t)

/-- A route by DEF names, one of them unknown; and a function on a field of a named node. -/
example : let clsOf : Nat → Cls := fun _ => [[(['x'], .field 1 ['x'])]]
    let g : SG := ⟨[(['A'], 3)], [], [], 0⟩
    (∀ c ∈ g.conns, c.2 ≠ .route g.next) ∧ (∀ c ∈ g.conns, c.2 ≠ .func 5) ∧
    (∃ g', g.addRoute clsOf (.four (.name ['A']) ['x'] (.name ['B']) ['y']) = some g' ∧
      g'.routes = [.route ⟨0, some 3, ['x'], none, ['y']⟩] ∧ Hears g' (.route 0) .del (.field 1 ['x']) 3) ∧
    (∃ g', g.addRoute clsOf (.four (.name ['B']) ['x'] (.name ['A']) ['x']) = some g' ∧ g'.conns = []) ∧
    (∃ g', g.addRoute clsOf (.three (.name ['A']) ['x'] (some 5)) = some g' ∧ Hears g' (.func 5) .set (.field 1 ['x']) 3 ∧
      ¬ Hears g' (.func 5) .route (.field 1 ['x']) 3) := by
  intro clsOf g
  have h1 : ∀ i, getField (clsOf i) ['x'] = .obj (.field 1 ['x']) := by intro i; decide +kernel
  refine ⟨by simp [g], by simp [g], ⟨_, rfl, rfl, ?_⟩, ⟨_, rfl, rfl⟩, ?_⟩
  · rw [hears_iff, bind_mem]
    exact Or.inr ⟨3, .field 1 ['x'], .del, rfl, by simp, h1 3, rfl⟩
  · refine ⟨_, (C66_function ..).mpr ⟨5, 3, .field 1 ['x'], rfl, rfl, h1 3, by simp, rfl⟩, ?_, ?_⟩
    · rw [hears_iff]; decide
    · rw [hears_iff]; decide

end Verif.Construct
