import Verif.Model.Proto
/-
C46 (field lookup), C47 (field enumeration), C62 (adding and removing fields).
-/
namespace Verif.Proto
open Verif.PyDict

/-! ## Specification of names -/

/-- `n` is an attribute of some class of the MRO. -/
def Known (c : Cls) (n : Name) : Prop := ∃ d ∈ c, ∃ a, get? d n = some a

/-- the first class of the MRO that has `n` at all has `a` there -/
def MostDerived (c : Cls) (n : Name) (a : Attr) : Prop :=
  ∃ pre d post, c = pre ++ d :: post ∧ (∀ e ∈ pre, get? e n = none) ∧ get? d n = some a

/-- the first class of the MRO that has a *wanted* attribute under `n` has `a` there -/
def MostDerivedWanted (events : Bool) (c : Cls) (n : Name) (a : Attr) : Prop :=
  ∃ pre d post, c = pre ++ d :: post
    ∧ (∀ e ∈ pre, ∀ b, get? e n = some b → isWanted events b = false)
    ∧ get? d n = some a ∧ isWanted events a = true

/-- Python dictionaries have distinct keys. -/
def WF (c : Cls) : Prop := ∀ d ∈ c, (keys d).Nodup

/-- One step of the VRML event-name convention, as an inductive relation on names. -/
inductive Step : Name → Name → Prop
  | set {n m : Name} : n = setPrefix ++ m → Step n m
  | changed {n m : Name} : n = m ++ changedSuffix → (∀ k, n ≠ setPrefix ++ k) → Step n m

/-- Zero or more steps through names the class does not know. -/
inductive Reduces (c : Cls) : Name → Name → Prop
  | refl (n) : Reduces c n n
  | step {n m k} : ¬ Known c n → hasStorage c n = false → Step n m → Reduces c m k → Reduces c n k

/-! ## lookups -/

theorem getattr_some (c : Cls) (n : Name) (a : Attr) : getattr c n = some a ↔ MostDerived c n a := by
  induction c with
  | nil => simp [getattr, MostDerived]
  | cons d c ih =>
    cases h : get? d n with
    | some b =>
      simp only [getattr, h]
      constructor
      · intro e; cases e
        exact ⟨[], d, c, rfl, by simp, h⟩
      · rintro ⟨pre, d', post, e, hp, hd⟩
        cases pre with
        | nil => simp at e; rw [← e.1] at hd; rw [← hd, h]
        | cons x pre =>
          simp at e
          have := hp x (by simp)
          rw [← e.1, h] at this; cases this
    | none =>
      simp only [getattr, h, ih]
      constructor
      · rintro ⟨pre, d', post, e, hp, hd⟩
        refine ⟨d :: pre, d', post, by simp [e], ?_, hd⟩
        intro x hx
        rcases List.mem_cons.1 hx with e | e
        · rw [e]; exact h
        · exact hp x e
      · rintro ⟨pre, d', post, e, hp, hd⟩
        cases pre with
        | nil => simp at e; rw [← e.1, h] at hd; cases hd
        | cons x pre =>
          simp at e
          exact ⟨pre, d', post, e.2, fun y hy => hp y (by simp [hy]), hd⟩

theorem getattr_none (c : Cls) (n : Name) : getattr c n = none ↔ ¬ Known c n := by
  induction c with
  | nil => simp [getattr, Known]
  | cons d c ih =>
    cases h : get? d n with
    | some b => simp [getattr, h, Known]
    | none => simp only [getattr, h, ih]; simp [Known, h]

theorem getattr_isSome (c : Cls) (n : Name) : (∃ a, getattr c n = some a) ↔ Known c n := by
  cases h : getattr c n with
  | none => have := (getattr_none c n).1 h; simp [this]
  | some a =>
    simp only [Option.some.injEq, exists_eq', true_iff]
    exact Classical.byContradiction fun hn => by rw [← getattr_none, h] at hn; cases hn

theorem drop_set (m : Name) : (setPrefix ++ m).drop 4 = m := rfl

theorem take_changed (m : Name) :
    (m ++ changedSuffix).take ((m ++ changedSuffix).length - 8) = m := by
  have : (m ++ changedSuffix).length - 8 = m.length := by
    simp only [List.length_append, changedSuffix, List.length_cons, List.length_nil]; omega
  rw [this, List.take_left]

theorem step_set (n : Name) (h : startsSet n = true) : Step n (n.drop 4) := by
  obtain ⟨m, hm⟩ := List.isPrefixOf_iff_prefix.1 h
  refine Step.set ?_
  rw [← hm, drop_set]

theorem step_changed (n : Name) (hs : startsSet n = false) (h : endsChanged n = true) :
    Step n (n.take (n.length - 8)) := by
  obtain ⟨m, hm⟩ := List.isSuffixOf_iff_suffix.1 h
  refine Step.changed ?_ ?_
  · rw [← hm, take_changed]
  · intro k hk
    have : startsSet n = true := by
      rw [hk]; exact List.isPrefixOf_iff_prefix.2 ⟨k, rfl⟩
    rw [this] at hs; cases hs

theorem startsSet_append (m : Name) : startsSet (setPrefix ++ m) = true :=
  List.isPrefixOf_iff_prefix.2 ⟨m, rfl⟩

theorem endsChanged_append (m : Name) : endsChanged (m ++ changedSuffix) = true :=
  List.isSuffixOf_iff_suffix.2 ⟨m, rfl⟩

theorem startsSet_false {n : Name} (h : ∀ k, n ≠ setPrefix ++ k) : startsSet n = false := by
  cases hs : startsSet n with
  | false => rfl
  | true =>
    obtain ⟨k, hk⟩ := List.isPrefixOf_iff_prefix.1 hs
    exact absurd hk.symm (h k)

/-- an unknown name with a stripped form resolves as the stripped form -/
theorem getField_step (c : Cls) {n m : Name} (hk : ¬ Known c n) (hs : hasStorage c n = false)
    (h : Step n m) : getField c n = getField c m := by
  have hn := (getattr_none c n).2 hk
  cases h with
  | set e =>
    have h1 : startsSet n = true := e ▸ startsSet_append m
    have h2 : n.drop 4 = m := e ▸ drop_set m
    rw [getField, hn]
    simp only [hs, h1, h2, dite_true, Bool.false_eq_true, if_false]
  | changed e h =>
    have h1 : endsChanged n = true := e ▸ endsChanged_append m
    have h2 : n.take (n.length - 8) = m := e ▸ take_changed m
    rw [getField, hn]
    simp only [hs, startsSet_false h, h1, h2, dite_true, Bool.false_eq_true, if_false, dite_false]

/-- no stripped form: AttributeError -/
theorem getField_stuck (c : Cls) {n : Name} (hk : ¬ Known c n) (hs : hasStorage c n = false)
    (h : ∀ m, ¬ Step n m) : getField c n = .attributeError := by
  have hn := (getattr_none c n).2 hk
  rw [getField, hn]
  cases h1 : startsSet n with
  | true => exact absurd (step_set n h1) (h _)
  | false =>
    cases h2 : endsChanged n with
    | true => exact absurd (step_changed n h1 h2) (h _)
    | false => simp [hs]

/-! ## C46 -/

/-- C46, exact names: whatever the prefix or suffix, a name that is an attribute of the class (or
of a base) gives the most derived attribute of that very name. -/
theorem C46_exact_name_wins (c : Cls) (n : Name) (a : Attr) (h : MostDerived c n a) :
    getField c n = .obj a := by
  rw [getField, (getattr_some c n a).2 h]

/-- C46, event names: `set_NAME` and `NAME_changed` give what `NAME` gives, unless the class itself
defines an attribute or a storage name of that very spelling. -/
theorem C46_event_names (c : Cls) (n : Name) :
    (¬ Known c (setPrefix ++ n) → hasStorage c (setPrefix ++ n) = false →
        getField c (setPrefix ++ n) = getField c n)
    ∧ (¬ Known c (n ++ changedSuffix) → hasStorage c (n ++ changedSuffix) = false →
        (∀ k, n ++ changedSuffix ≠ setPrefix ++ k) →
        getField c (n ++ changedSuffix) = getField c n) :=
  ⟨fun h1 h2 => getField_step c h1 h2 (Step.set rfl),
   fun h1 h2 h3 => getField_step c h1 h2 (Step.changed rfl h3)⟩

/-- C46, complete description of lookup: the name is reduced by stripping `set_` / `_changed` until
it is known; the result is the most derived attribute of the name reached, the *string* itself when
the name reached is only a storage name, and AttributeError when no name on the way is known. -/
theorem C46_lookup_complete (c : Cls) (n : Name) (r : Res) :
    getField c n = r ↔
      ((∃ m a, Reduces c n m ∧ MostDerived c m a ∧ r = .obj a)
        ∨ (∃ m, Reduces c n m ∧ ¬ Known c m ∧ hasStorage c m = true ∧ r = .str m)
        ∨ ((∀ m, Reduces c n m → ¬ Known c m ∧ hasStorage c m = false) ∧ r = .attributeError)) := by
  have key : ∀ N (n : Name), n.length ≤ N →
      ((∃ m a, Reduces c n m ∧ MostDerived c m a ∧ getField c n = .obj a)
        ∨ (∃ m, Reduces c n m ∧ ¬ Known c m ∧ hasStorage c m = true ∧ getField c n = .str m)
        ∨ ((∀ m, Reduces c n m → ¬ Known c m ∧ hasStorage c m = false)
            ∧ getField c n = .attributeError)) := by
    intro N
    induction N with
    | zero =>
      intro n hn
      have : n = [] := List.length_eq_zero_iff.1 (Nat.le_zero.1 hn)
      subst this
      cases h : getattr c [] with
      | some a =>
        exact Or.inl ⟨[], a, .refl _, (getattr_some c [] a).1 h, C46_exact_name_wins c [] a ((getattr_some c [] a).1 h)⟩
      | none =>
        have hk := (getattr_none c []).1 h
        cases hs : hasStorage c [] with
        | true => exact Or.inr (Or.inl ⟨[], .refl _, hk, hs, by rw [getField, h]; simp [hs]⟩)
        | false =>
          have nostep : ∀ m, ¬ Step [] m := by
            intro m hm
            cases hm with
            | set hq => simp [setPrefix] at hq
            | changed hq _ => simp [changedSuffix] at hq
          refine Or.inr (Or.inr ⟨?_, getField_stuck c hk hs nostep⟩)
          intro m hm
          cases hm with
          | refl => exact ⟨hk, hs⟩
          | step _ _ h _ => exact absurd h (nostep _)
    | succ N ih =>
      intro n hn
      cases h : getattr c n with
      | some a =>
        exact Or.inl ⟨n, a, .refl _, (getattr_some c n a).1 h, C46_exact_name_wins c n a ((getattr_some c n a).1 h)⟩
      | none =>
        have hk := (getattr_none c n).1 h
        cases hs : hasStorage c n with
        | true => exact Or.inr (Or.inl ⟨n, .refl _, hk, hs, by rw [getField, h]; simp [hs]⟩)
        | false =>
          by_cases hst : ∃ m, Step n m
          · obtain ⟨m, hm⟩ := hst
            have hl : m.length ≤ N := by
              cases hm with
              | set e => rw [e] at hn; simp [setPrefix] at hn; omega
              | changed e _ => rw [e] at hn; simp [changedSuffix] at hn; omega
            have uniq : ∀ m', Step n m' → m' = m := by
              intro m' hm'
              cases hm with
              | set e =>
                cases hm' with
                | set e' => exact List.append_cancel_left (e'.symm.trans e)
                | changed e' hk' => exact absurd e (hk' m)
              | changed e hmm =>
                cases hm' with
                | set e' => exact absurd e' (hmm m')
                | changed e' hk' => exact List.append_cancel_right (e'.symm.trans e)
            have e := getField_step c hk hs hm
            rcases ih m hl with ⟨k, a, h1, h2, h3⟩ | ⟨k, h1, h2, h3, h4⟩ | ⟨h1, h2⟩
            · exact Or.inl ⟨k, a, .step hk hs hm h1, h2, by rw [e, h3]⟩
            · exact Or.inr (Or.inl ⟨k, .step hk hs hm h1, h2, h3, by rw [e, h4]⟩)
            · refine Or.inr (Or.inr ⟨?_, by rw [e, h2]⟩)
              intro k hkk
              cases hkk with
              | refl => exact ⟨hk, hs⟩
              | step _ _ h' hr => rw [uniq _ h'] at hr; exact h1 k hr
          · have nostep : ∀ m, ¬ Step n m := fun m hm => hst ⟨m, hm⟩
            refine Or.inr (Or.inr ⟨?_, getField_stuck c hk hs nostep⟩)
            intro m hm
            cases hm with
            | refl => exact ⟨hk, hs⟩
            | step _ _ h _ => exact absurd h (nostep _)
  have k0 := key n.length n (Nat.le_refl _)
  constructor
  · intro h
    subst h
    rcases k0 with ⟨m, a, h⟩ | ⟨m, h⟩ | h
    · exact Or.inl ⟨m, a, h.1, h.2.1, h.2.2⟩
    · exact Or.inr (Or.inl ⟨m, h⟩)
    · exact Or.inr (Or.inr h)
  · intro h
    -- uniqueness: every result described is the computed one
    have red : ∀ {n m}, Reduces c n m → getField c n = getField c m := by
      intro n m h
      induction h with
      | refl => rfl
      | step hk hs hst _ ih => rw [getField_step c hk hs hst, ih]
    rcases h with ⟨m, a, h1, h2, h3⟩ | ⟨m, h1, h2, h3, h4⟩ | ⟨h1, h2⟩
    · rw [h3, red h1, C46_exact_name_wins c m a h2]
    · rw [h4, red h1, getField, (getattr_none c m).2 h2]; simp [h3]
    · rw [h2]
      rcases k0 with ⟨m, a, h⟩ | ⟨m, h⟩ | h
      · exact absurd ((getattr_isSome c m).1 ⟨a, (getattr_some c m a).2 h.2.1⟩) (h1 m h.1).1
      · have := (h1 m h.1).2; rw [h.2.2.1] at this; cases this
      · exact h.2

/-- C46, unknown names raise: if neither the name nor any name obtained by stripping is known (as
attribute or storage name), lookup raises AttributeError. -/
theorem C46_unknown_raises (c : Cls) (n : Name)
    (h : ∀ m, Reduces c n m → ¬ Known c m ∧ hasStorage c m = false) :
    getField c n = .attributeError :=
  (C46_lookup_complete c n _).2 (Or.inr (Or.inr ⟨h, rfl⟩))

/-- C46, refuted part: looking up by the "storage" name of a field, which the documentation says
gives that field, returns the name string, never the field (here a node class with its `DEF` field
stored under ' DEF'). -/
theorem C46_refuted_storage_name :
    ∃ (c : Cls) (n : Name) (a : Attr), WF c ∧ a ∈ getFields c ∧ storage? a = some n
      ∧ getField c n = .str n := by
  refine ⟨[[("DEF".toList, .field 1 " DEF".toList)]], " DEF".toList, .field 1 " DEF".toList, ?_, ?_, ?_, ?_⟩
  · intro d hd; simp at hd; subst hd; simp [keys]
  · decide
  · rfl
  · rw [getField]
    have h1 : getattr [[("DEF".toList, Attr.field 1 " DEF".toList)]] " DEF".toList = none := by decide
    have h2 : hasStorage [[("DEF".toList, Attr.field 1 " DEF".toList)]] " DEF".toList = true := by decide
    rw [h1, h2]; rfl

/-- Non-vacuity: a Transform-like class over a Node-like base. -/
def exCls : Cls :=
  [ [("translation".toList, .field 1 "translation".toList), ("copy".toList, .other 2),
     ("bind".toList, .event 3 "bind".toList)],
    [("DEF".toList, .field 4 " DEF".toList), ("translation".toList, .field 5 "translation".toList)] ]

example : MostDerived exCls "translation".toList (.field 1 "translation".toList) :=
  ⟨[], _, _, rfl, by simp, by decide⟩

example : ¬ Known exCls (setPrefix ++ "translation".toList)
    ∧ hasStorage exCls (setPrefix ++ "translation".toList) = false
    ∧ ¬ Known exCls ("translation".toList ++ changedSuffix)
    ∧ hasStorage exCls ("translation".toList ++ changedSuffix) = false := by
  simp only [← getattr_none]; decide

example : getField exCls "set_translation".toList = .obj (.field 1 "translation".toList) := by
  have := (C46_event_names exCls "translation".toList).1
    ((getattr_none _ _).1 (by decide)) (by decide)
  exact this.trans (C46_exact_name_wins _ _ _ ⟨[], _, _, rfl, by simp, by decide⟩)

example : getField exCls "nonsense".toList = .attributeError := by
  refine getField_stuck _ ((getattr_none _ _).1 (by decide)) (by decide) ?_
  intro m h
  cases h with
  | set hq => simp [setPrefix] at hq
  | changed hq _ =>
    have := congrArg List.reverse hq
    simp [changedSuffix] at this

/-! ## C47 -/

theorem itemsOf_cons (d : Dict Name Attr) (c : Cls) (ev : Bool) :
    itemsOf (d :: c) ev = update (itemsOf c ev) (d.filter (fun p => isWanted ev p.2)) := by
  simp [itemsOf, List.foldl_append]

theorem nodup_items (c : Cls) (ev : Bool) : (keys (itemsOf c ev)).Nodup := by
  induction c with
  | nil => simp [itemsOf, keys]
  | cons d c ih => rw [itemsOf_cons]; exact nodup_update _ _ ih

theorem get?_filter (d : Dict Name Attr) (hn : (keys d).Nodup) (P : Attr → Bool) (n : Name) :
    get? (d.filter (fun p => P p.2)) n = (get? d n).filter P := by
  induction d with
  | nil => simp [get?]
  | cons p d ih =>
    obtain ⟨a, b⟩ := p
    simp only [keys, List.map_cons, List.nodup_cons] at hn
    have hnone : a = n → get? d n = none := by
      rintro rfl; exact (get?_none _ _).2 hn.1
    by_cases hb : P b = true
    · simp only [List.filter_cons, hb, if_true, get?]
      by_cases h : a = n
      · simp [h, Option.filter, hb]
      · simp only [h, if_false]; exact ih hn.2
    · simp only [List.filter_cons, hb, get?]
      by_cases h : a = n
      · simp [h, Option.filter, hb, ih hn.2, hnone h]
      · simp only [h, if_false]; exact ih hn.2

theorem nodup_filter (d : Dict Name Attr) (hn : (keys d).Nodup) (P : Name × Attr → Bool) :
    (keys (d.filter P)).Nodup := by
  induction d with
  | nil => simp [keys]
  | cons p d ih =>
    simp only [keys, List.map_cons, List.nodup_cons] at hn
    by_cases h : P p = true
    · simp only [List.filter_cons, h, if_true, keys, List.map_cons, List.nodup_cons]
      refine ⟨?_, ih hn.2⟩
      intro hm
      obtain ⟨q, hq, e⟩ := List.mem_map.1 hm
      exact hn.1 (List.mem_map.2 ⟨q, (List.mem_filter.1 hq).1, e⟩)
    · simp only [List.filter_cons, h]; exact ih hn.2

theorem get?_items (c : Cls) (hc : WF c) (ev : Bool) (n : Name) (a : Attr) :
    get? (itemsOf c ev) n = some a ↔ MostDerivedWanted ev c n a := by
  induction c with
  | nil => simp [itemsOf, get?, MostDerivedWanted]
  | cons d c ih =>
    have hd := hc d (by simp)
    have ih := ih (fun e he => hc e (by simp [he]))
    rw [itemsOf_cons, get?_update, get?_reverse _ (nodup_filter d hd _), get?_filter d hd]
    cases h : (get? d n).filter (isWanted ev) with
    | some b =>
      obtain ⟨h1, h2⟩ := Option.filter_eq_some_iff.1 h
      simp only [Option.or]
      constructor
      · intro e; cases e
        exact ⟨[], d, c, rfl, by simp, h1, h2⟩
      · rintro ⟨pre, d', post, e, hp, hd', hw⟩
        cases pre with
        | nil => simp at e; rw [← e.1, h1] at hd'; exact hd'
        | cons x pre =>
          simp at e
          have := hp x (by simp) b (by rw [← e.1, h1])
          rw [h2] at this; cases this
    | none =>
      have hno : ∀ b, get? d n = some b → isWanted ev b = false := by
        intro b hb
        rw [hb] at h
        cases hw : isWanted ev b with
        | false => rfl
        | true => simp [Option.filter, hw] at h
      simp only [Option.or, ih]
      constructor
      · rintro ⟨pre, d', post, e, hp, hd'⟩
        refine ⟨d :: pre, d', post, by simp [e], ?_, hd'⟩
        intro x hx
        rcases List.mem_cons.1 hx with e | e
        · rw [e]; exact hno
        · exact hp x e
      · rintro ⟨pre, d', post, e, hp, hd', hw⟩
        cases pre with
        | nil =>
          simp at e; rw [← e.1] at hd'
          rw [hno a hd'] at hw; cases hw
        | cons x pre =>
          simp at e
          exact ⟨pre, d', post, e.2, fun y hy => hp y (by simp [hy]), hd', hw⟩

/-- C47: the enumeration is a list `l` of (attribute name, field) pairs without repeated names that
contains exactly, for each attribute name, the field of the first class in the MRO that defines a
field under that name; the values of the list are what `getFields` returns. The same holds for
events. -/
theorem C47_enumeration (c : Cls) (hc : WF c) (ev : Bool) :
    ∃ l : List (Name × Attr), getFields c ev = l.map Prod.snd
      ∧ (l.map Prod.fst).Nodup
      ∧ ∀ n a, (n, a) ∈ l ↔ MostDerivedWanted ev c n a := by
  refine ⟨itemsOf c ev, rfl, nodup_items c ev, ?_⟩
  intro n a
  rw [← get?_items c hc ev]
  exact ⟨fun h => get?_of_mem _ (nodup_items c ev) _ _ h, fun h => get?_mem _ _ _ h⟩

/-- C47: asking for fields gives fields only, asking for events gives events only. -/
theorem C47_kinds (c : Cls) (hc : WF c) (a : Attr) :
    (a ∈ getFields c false → ∃ i s, a = .field i s) ∧ (a ∈ getFields c true → ∃ i s, a = .event i s) := by
  have key : ∀ ev, a ∈ getFields c ev → isWanted ev a = true := by
    intro ev h
    obtain ⟨l, e, _, hl⟩ := C47_enumeration c hc ev
    rw [e] at h
    obtain ⟨⟨n, b⟩, hm, rfl⟩ := List.mem_map.1 h
    obtain ⟨_, _, _, _, _, _, hw⟩ := (hl n b).1 hm
    exact hw
  constructor <;> intro h <;> have := key _ h <;> cases a <;> simp_all [isWanted]

/-- C47: a field (event) defined in some class of the MRO and not redefined by a more derived class is listed among
the fields (events). -/
theorem C47_listed (c pre post : Cls) (d : PyDict.Dict Name Attr) (hc : WF c) (e : c = pre ++ d :: post) (n : Name) (a : Attr)
    (hpre : ∀ x ∈ pre, get? x n = none) (h : get? d n = some a) :
    (∀ i s, a = .field i s → a ∈ getFields c false) ∧ (∀ i s, a = .event i s → a ∈ getFields c true) := by
  have key : ∀ ev, isWanted ev a = true → a ∈ getFields c ev := by
    intro ev hw
    obtain ⟨l, e', _, hl⟩ := C47_enumeration c hc ev
    have : (n, a) ∈ l := (hl n a).2 ⟨pre, d, post, e, (fun x hx b hb => by rw [hpre x hx] at hb; cases hb), h, hw⟩
    rw [e']
    exact List.mem_map.2 ⟨_, this, rfl⟩
  constructor
  · rintro i s rfl; exact key false rfl
  · rintro i s rfl; exact key true rfl

/-- C47: as long as no class redefines a field name with something else, every enumerated field is
the one that lookup by its attribute name gives, and every field found by exact lookup is
enumerated. -/
theorem C47_agrees_with_lookup (c : Cls) (hc : WF c)
    (hover : ∀ d ∈ c, ∀ n a, get? d n = some a → (∃ b, MostDerivedWanted false c n b) →
      isWanted false a = true) (n : Name) (a : Attr) :
    MostDerivedWanted false c n a ↔ (getField c n = .obj a ∧ MostDerived c n a ∧ isWanted false a = true) := by
  constructor
  · intro h
    obtain ⟨pre, d, post, e, hp, hd, hw⟩ := h
    have hm : MostDerived c n a := by
      refine ⟨pre, d, post, e, ?_, hd⟩
      intro x hx
      cases hg : get? x n with
      | none => rfl
      | some b =>
        have h1 := hp x hx b hg
        have h2 := hover x (by rw [e]; simp [hx]) n b hg ⟨a, pre, d, post, e, hp, hd, hw⟩
        rw [h1] at h2; cases h2
    exact ⟨C46_exact_name_wins c n a hm, hm, hw⟩
  · rintro ⟨-, ⟨pre, d, post, e, hp, hd⟩, hw⟩
    exact ⟨pre, d, post, e, fun x hx b hb => (by rw [hp x hx] at hb; cases hb), hd, hw⟩

/-- C47, boundary: a derived class that hides a base field behind a non-field still enumerates the
base field although lookup no longer gives it. -/
theorem C47_hidden_field_still_listed :
    ∃ (c : Cls) (n : Name) (a : Attr), WF c ∧ a ∈ getFields c ∧ MostDerivedWanted false c n a
      ∧ getField c n ≠ .obj a := by
  refine ⟨[[("x".toList, .other 0)], [("x".toList, .field 1 "x".toList)]], "x".toList, .field 1 "x".toList,
    ?_, by decide, ?_, ?_⟩
  · intro d hd; simp at hd; rcases hd with rfl | rfl <;> simp [keys]
  · refine ⟨[[("x".toList, .other 0)]], _, [], rfl, ?_, by decide, by decide⟩
    intro e he b hb
    simp at he; subst he
    simp [get?] at hb; subst hb; rfl
  · rw [getField]; simp [getattr, get?]

example : WF exCls := by
  intro d hd; simp [exCls] at hd; rcases hd with rfl | rfl <;> simp [keys]
example : MostDerivedWanted false exCls "DEF".toList (.field 4 " DEF".toList) := by
  refine ⟨[_], _, [], rfl, ?_, by decide, by decide⟩
  intro e he b hb; simp at he; subst he; simp [get?] at hb

/-! ## C62: adding and removing fields -/

/-- C62: after adding a field or event to a class, lookup by its name gives it; every other
attribute name resolves as before. -/
theorem C62_add_then_lookup (d : Dict Name Attr) (c : Cls) (a : Attr) (s : Name)
    (hs : storage? a = some s) :
    getField (addField (d :: c) a) s = .obj a
      ∧ ∀ n b, n ≠ s → (MostDerived (addField (d :: c) a) n b ↔ MostDerived (d :: c) n b) := by
  have e : addField (d :: c) a = set d s a :: c := by simp [addField, hs]
  refine ⟨?_, ?_⟩
  · rw [e, getField]; simp [getattr, get?_set]
  · intro n b hn
    rw [e, ← getattr_some, ← getattr_some]
    have : ¬ s = n := fun h => hn h.symm
    simp [getattr, get?_set, this]

/-- C62: the added field is enumerated under its name and enumeration of other names does not change. -/
theorem C62_add_then_enumerate (d : Dict Name Attr) (c : Cls) (hc : WF (d :: c)) (a : Attr) (s : Name)
    (ev : Bool) (hs : storage? a = some s) (hw : isWanted ev a = true) (n : Name) (b : Attr) :
    MostDerivedWanted ev (addField (d :: c) a) n b
      ↔ if n = s then b = a else MostDerivedWanted ev (d :: c) n b := by
  have e : addField (d :: c) a = set d s a :: c := by simp [addField, hs]
  have hwf : WF (set d s a :: c) := by
    intro x hx
    rcases List.mem_cons.1 hx with rfl | h
    · exact nodup_set _ _ _ (hc d (by simp))
    · exact hc x (by simp [h])
  rw [e, ← get?_items _ hwf, ← get?_items _ hc, itemsOf_cons, itemsOf_cons,
    get?_update, get?_reverse _ (nodup_filter _ (hwf _ (by simp)) _), get?_filter _ (hwf _ (by simp)),
    get?_update, get?_reverse _ (nodup_filter _ (hc _ (by simp)) _), get?_filter _ (hc _ (by simp)), get?_set]
  by_cases h : n = s
  · subst h; simp [Option.filter, hw, eq_comm]
  · have : ¬ s = n := fun h' => h h'.symm
    simp [h, this]

/-- C62: removing a field just added to a class that had no such attribute of its own restores
every lookup; removing a name the class does not define itself (even if a base does) raises. -/
theorem C62_remove (d : Dict Name Attr) (c : Cls) :
    (∀ a s, storage? a = some s → get? d s = none →
      ∃ c', removeField (addField (d :: c) a) s = some c' ∧ ∀ n b, MostDerived c' n b ↔ MostDerived (d :: c) n b)
    ∧ ∀ n, get? d n = none → removeField (d :: c) n = none := by
  constructor
  · intro a s hs hn
    have e : addField (d :: c) a = set d s a :: c := by simp [addField, hs]
    refine ⟨erase (set d s a) s :: c, by simp [e, removeField, get?_set], ?_⟩
    intro n b
    rw [← getattr_some, ← getattr_some]
    simp only [getattr, get?_erase, get?_set]
    by_cases h : s = n
    · subst h; simp [hn]
    · simp [h]
  · intro n hn; simp [removeField, hn]

example : ∃ c', removeField (addField exCls (.field 9 "extra".toList)) "extra".toList = some c' :=
  ⟨_, rfl⟩

end Verif.Proto
