import Verif.Model.Field
/-!
C12–C17 – field descriptors (vrml/field.py, accelerate/src/fieldaccel2.pyx).
-/
set_option linter.unusedSimpArgs false
namespace Verif.Field
variable {V : Type}

/-- The operation works on the storage of field `f` of node `n`. -/
def Op.on (n : Nat) (k : String) : Op V → Prop
  | .get n' f => n' = n ∧ f.name = k
  | .set n' f _ => n' = n ∧ f.name = k
  | .fset n' f _ _ => n' = n ∧ f.name = k
  | .delete n' f => n' = n ∧ f.name = k
  | .fdel n' f _ => n' = n ∧ f.name = k

/-- The operation only reads. -/
def Op.isGet : Op V → Prop
  | .get _ _ => True
  | _ => False

/-- The operation deletes. -/
def Op.isDel : Op V → Prop
  | .delete _ _ => True
  | .fdel _ _ _ => True
  | _ => False

theorem rawSet_store {s s' : St V} {n : Nat} {f : FieldDef V} {v w : V} (h : rawSet s n f v = .ok (s', w)) :
    f.coerce v = .ok w ∧ s' = s.put n f.name w := by
  unfold rawSet at h
  split at h
  · simp at h
  · simp at h
  · simp at h
  · simp only [Except.ok.injEq, Prod.mk.injEq] at h
    obtain ⟨h1, h2⟩ := h
    subst h2
    exact ⟨‹_›, h1.symm⟩

/-! ### The two implementations of get and set agree, step by step -/

theorem accelSet_eq (s : St V) (n : Nat) (f : FieldDef V) (v : V) (b : Bool) : accelSet s n f v b = fset s n f v b := by
  unfold accelSet fset rawSet
  rcases hc : f.coerce v with e | w
  · cases e <;> simp
  · rfl

theorem accelGet_eq (s : St V) (n : Nat) (f : FieldDef V) : accelGet s n f = fget s n f := by
  unfold accelGet fget getDefault
  rcases s.store n f.name with _ | v
  · simp only [accelSet_eq, fset]
    rcases rawSet s n f f.default with e | ⟨s', w⟩ <;> simp
  · rfl

theorem step_get (impl : Impl) (s : St V) (n : Nat) (f : FieldDef V) : step impl s (.get n f) = fget s n f := by
  cases impl
  · rfl
  · exact accelGet_eq s n f

theorem step_fset (impl : Impl) (s : St V) (n : Nat) (f : FieldDef V) (v : V) (b : Bool) :
    step impl s (.fset n f v b) = fset s n f v b := by
  cases impl
  · rfl
  · exact accelSet_eq s n f v b

theorem step_set (impl : Impl) (s : St V) (n : Nat) (f : FieldDef V) (v : V) :
    step impl s (.set n f v) = (fset s n f v true).noValue := by
  cases impl
  · simp only [step, dunderSet, fset, Out.noValue]
    rcases rawSet s n f v with e | ⟨s', w⟩ <;> simp
  · simp only [step, accelSet_eq]

theorem step_delete (impl : Impl) (s : St V) (n : Nat) (f : FieldDef V) :
    step impl s (.delete n f) = match impl with | .pure => delete s n f | .accel => (accelDel s n f true).noValue := by
  cases impl <;> rfl

theorem step_fdel (impl : Impl) (s : St V) (n : Nat) (f : FieldDef V) (b : Bool) :
    step impl s (.fdel n f b) = match impl with | .pure => fdel s n f b | .accel => accelDel s n f b := by
  cases impl <;> rfl

theorem get_set (impl : Impl) (s : St V) (n : Nat) (f : FieldDef V) (w : V) (h : s.store n f.name = some w) :
    step impl s (.get n f) = ⟨s, .ok (some w)⟩ := by
  simp only [step_get, step_set, step_fset, step_delete, step_fdel, Out.noValue, accelDel, fget, h]

/-- One operation touches at most the storage it is on. -/
theorem step_frame (impl : Impl) (s : St V) (o : Op V) (n : Nat) (k : String) (h : ¬ o.on n k) :
    (step impl s o).st.store n k = s.store n k := by
  have hput : ∀ n' (f : FieldDef V) w, ¬ (n' = n ∧ f.name = k) → (s.put n' f.name w).store n k = s.store n k := by
    intro n' f w hne
    simp only [St.put]
    split
    · rename_i hh; exact absurd ⟨hh.1.symm, hh.2.symm⟩ hne
    · rfl
  have hera : ∀ n' (f : FieldDef V), ¬ (n' = n ∧ f.name = k) → (s.erase n' f.name).store n k = s.store n k := by
    intro n' f hne
    simp only [St.erase]
    split
    · rename_i hh; exact absurd ⟨hh.1.symm, hh.2.symm⟩ hne
    · rfl
  have hfset : ∀ n' (f : FieldDef V) v b, ¬ (n' = n ∧ f.name = k) →
      (fset s n' f v b).st.store n k = s.store n k := by
    intro n' f v b hne
    simp only [fset]
    rcases hr : rawSet s n' f v with e | ⟨s', w⟩
    · rfl
    · obtain ⟨_, rfl⟩ := rawSet_store hr
      cases b <;> simpa [St.send] using hput n' f w hne
  cases o with
  | get n' f =>
    simp only [step_get, step_set, step_fset, step_delete, step_fdel, Out.noValue, accelDel, fget]
    rcases hs : s.store n' f.name with _ | v
    · simp only [getDefault]
      rcases hr : rawSet s n' f f.default with e | ⟨s', w⟩
      · rfl
      · obtain ⟨_, rfl⟩ := rawSet_store hr
        exact hput n' f w h
    · rfl
  | set n' f v =>
    have := hfset n' f v true h
    simp only [step_get, step_set, step_fset, Out.noValue]
    rcases hf : fset s n' f v true with ⟨s', r⟩
    rw [hf] at this
    cases r <;> exact this
  | fset n' f v b => rw [step_fset]; exact hfset n' f v b h
  | delete n' f =>
    have := hera n' f h
    cases impl <;> rcases hs : s.store n' f.name with _ | v <;> simp_all [step_delete, delete, accelDel, Out.noValue, St.send]
  | fdel n' f b =>
    have := hera n' f h
    cases impl <;> cases b <;> rcases hs : s.store n' f.name with _ | v <;> simp_all [step_fdel, fdel, delete, accelDel, St.send]

theorem run_frame (impl : Impl) (s : St V) (ops : List (Op V)) (n : Nat) (k : String) (h : ∀ o ∈ ops, ¬ o.on n k) :
    (run impl s ops).1.store n k = s.store n k := by
  induction ops generalizing s with
  | nil => rfl
  | cons o os ih =>
    simp only [run]
    rw [ih _ (fun o ho => h o (by simp [ho])), step_frame impl s o n k (h o (by simp))]

/-! ### C12 -/

/-- **C12.** Assigning an acceptable value: one notification with the coerced value is added to the log, the
next read (also after any operations on other fields or nodes) returns exactly that value and changes
nothing, and every other stored value is untouched. Holds for both implementations. -/
theorem C12_set_get (impl : Impl) (s : St V) (n : Nat) (f : FieldDef V) (v w : V) (hc : f.coerce v = .ok w)
    (others : List (Op V)) (ho : ∀ o ∈ others, ¬ o.on n f.name) :
    let s1 := (step impl s (.set n f v)).st
    (∃ r, (step impl s (.set n f v)).res = .ok r) ∧
    s1.log = s.log ++ [⟨.set, n, f.name, some w⟩] ∧
    (∀ n' k, ¬ (n' = n ∧ k = f.name) → s1.store n' k = s.store n' k) ∧
    (step impl (run impl s1 others).1 (.get n f)).res = .ok (some w) ∧
    (step impl (run impl s1 others).1 (.get n f)).st = (run impl s1 others).1 := by
  have e : rawSet s n f v = .ok (s.put n f.name w, w) := by simp [rawSet, hc]
  have e2 : fset s n f v true = ⟨(s.put n f.name w).send ⟨.set, n, f.name, some w⟩, .ok (some w)⟩ := by
    simp [fset, e]
  have e3 : step impl s (.set n f v) = ⟨(s.put n f.name w).send ⟨.set, n, f.name, some w⟩, .ok none⟩ := by
    simp [step_get, step_set, step_fset, step_delete, step_fdel, Out.noValue, accelDel, e2]
  have hst : (run impl (step impl s (.set n f v)).st others).1.store n f.name = some w := by
    rw [run_frame impl _ others n f.name ho, e3]; simp [St.send, St.put]
  refine ⟨⟨none, by rw [e3]⟩, by rw [e3]; simp [St.send, St.put], ?_, ?_, ?_⟩
  · intro n' k hne
    rw [e3]; simp [St.send, St.put, hne]
  · rw [get_set _ _ _ _ _ hst]
  · rw [get_set _ _ _ _ _ hst]

/-- The notifications a sequence of assignments and reads must produce, according to the property: one per
accepted notifying assignment, in order, nothing else. -/
def expectedNotes : List (Op V) → List (Note V)
  | [] => []
  | .set n f v :: os =>
    (match f.coerce v with | .ok w => [⟨.set, n, f.name, some w⟩] | .error _ => []) ++ expectedNotes os
  | .fset n f v true :: os =>
    (match f.coerce v with | .ok w => [⟨.set, n, f.name, some w⟩] | .error _ => []) ++ expectedNotes os
  | _ :: os => expectedNotes os

theorem fset_log (s : St V) (n : Nat) (f : FieldDef V) (v : V) (b : Bool) :
    (fset s n f v b).st.log = s.log ++
      (match b, f.coerce v with | true, .ok w => [⟨.set, n, f.name, some w⟩] | _, _ => []) := by
  unfold fset rawSet
  rcases hc : f.coerce v with e | w
  · cases e <;> cases b <;> simp
  · cases b <;> simp [St.send, St.put]

/-- **C12.** Over any history of reads, assignments and quiet assignments on any nodes and fields, the
notifications sent are exactly one per accepted notifying assignment, in program order. -/
theorem C12_notifications_exact (impl : Impl) (s : St V) (ops : List (Op V)) (h : ∀ o ∈ ops, ¬ o.isDel) :
    (run impl s ops).1.log = s.log ++ expectedNotes ops := by
  induction ops generalizing s with
  | nil => simp [run, expectedNotes]
  | cons o os ih =>
    simp only [run]
    rw [ih _ (fun o ho => h o (by simp [ho]))]
    have hlog : (step impl s o).st.log = s.log ++ expectedNotes [o] := by
      cases o with
      | get n f =>
        simp only [step_get, step_set, step_fset, step_delete, step_fdel, Out.noValue, accelDel, fget, expectedNotes]
        rcases s.store n f.name with _ | v
        · simp only [getDefault]
          rcases hr : rawSet s n f f.default with e | ⟨s', w⟩
          · simp
          · obtain ⟨_, rfl⟩ := rawSet_store hr
            simp [St.put]
        · simp
      | set n f v =>
        have := fset_log s n f v true
        simp only [step_get, step_set, step_fset, step_delete, step_fdel, Out.noValue, accelDel, expectedNotes]
        rcases hf : fset s n f v true with ⟨s', r⟩
        rw [hf] at this
        rcases hc : f.coerce v with e | w <;> cases r <;> simp_all
      | fset n f v b =>
        have := fset_log s n f v b
        simp only [step_get, step_set, step_fset, Out.noValue]
        rw [this]
        cases b <;> rcases hc : f.coerce v with e | w <;> simp [expectedNotes, hc]
      | delete n f => exact absurd trivial (h (.delete n f) (by simp))
      | fdel n f b => exact absurd trivial (h (.fdel n f b) (by simp))
    rw [hlog, List.append_assoc]
    congr 1
    cases o with
    | get n f => simp [expectedNotes]
    | set n f v => simp [expectedNotes]
    | fset n f v b => cases b <;> simp [expectedNotes]
    | delete n f => exact absurd trivial (h (.delete n f) (by simp))
    | fdel n f b => exact absurd trivial (h (.fdel n f b) (by simp))

/-- An integer field that accepts 0..255 and whose default is 7, for the examples. -/
def exField : FieldDef Int :=
  { name := "byte", coerce := fun v => if v < 0 then .error .valueError else if v > 255 then .error .typeError else .ok (v % 16)
    default := 7 }

/-- An empty world. -/
def emptySt : St Int := ⟨fun _ _ => none, []⟩

example : exField.coerce 20 = .ok 4 := by rfl
example : ∀ o ∈ [(Op.set 2 exField 3 : Op Int), .get 2 exField, .delete 2 exField], ¬ o.on 1 exField.name := by
  simp [Op.on]
example : (run .pure emptySt [.set 1 exField 20, .set 2 exField 300, .get 3 exField, .set 1 exField 5]).1.log
    = [⟨.set, 1, "byte", some 4⟩, ⟨.set, 1, "byte", some 5⟩] := by
  rw [C12_notifications_exact _ _ _ (by simp [Op.isDel])]; decide

/-! ### C13 -/

/-- **C13.** A value rejected by the coercion (with ValueError or TypeError) makes the assignment raise
ValueError, by attribute or by `fset`, notifying or not, and the whole state – every stored value and the
notification log – is unchanged. -/
theorem C13_rejected_set (impl : Impl) (s : St V) (n : Nat) (f : FieldDef V) (v : V) (b : Bool)
    (hc : f.coerce v = .error .valueError ∨ f.coerce v = .error .typeError) :
    step impl s (.set n f v) = ⟨s, .error .valueError⟩ ∧
    step impl s (.fset n f v b) = ⟨s, .error .valueError⟩ := by
  rcases hc with hc | hc <;> simp [step_get, step_set, step_fset, step_delete, step_fdel, Out.noValue, accelDel, fset, rawSet, hc]

/-- Any other exception of the coercion comes through unchanged, and the state is unchanged as well. -/
theorem C13_other_exception (impl : Impl) (s : St V) (n : Nat) (f : FieldDef V) (v : V) (b : Bool) (e : Exn)
    (hc : f.coerce v = .error e) :
    (step impl s (.set n f v)).st = s ∧ (step impl s (.fset n f v b)).st = s ∧
    ∃ e', (step impl s (.set n f v)).res = .error e' := by
  cases e <;> simp [step_get, step_set, step_fset, step_delete, step_fdel, Out.noValue, accelDel, fset, rawSet, hc]

example : exField.coerce (-1) = .error .valueError ∧ exField.coerce 300 = .error .typeError := ⟨rfl, rfl⟩

/-! ### C14 -/

/-- **C14.** Reading an unset field whose default `w` is acceptable returns the coerced default, sends nothing,
changes no other stored value, and after any later history that does not assign or delete that field
(reads of it are allowed) reading it still returns the same value, silently. -/
theorem C14_default_read (impl : Impl) (s : St V) (n : Nat) (f : FieldDef V) (w : V)
    (hu : s.store n f.name = none) (hd : f.coerce f.default = .ok w)
    (later : List (Op V)) (hl : ∀ o ∈ later, o.on n f.name → o = .get n f) :
    let r := step impl s (.get n f)
    r.res = .ok (some w) ∧ r.st.log = s.log ∧
    (∀ n' k, ¬ (n' = n ∧ k = f.name) → r.st.store n' k = s.store n' k) ∧
    (step impl (run impl r.st later).1 (.get n f)).res = .ok (some w) ∧
    (step impl (run impl r.st later).1 (.get n f)).st = (run impl r.st later).1 := by
  have e : rawSet s n f f.default = .ok (s.put n f.name w, w) := by simp [rawSet, hd]
  have e1 : step impl s (.get n f) = ⟨s.put n f.name w, .ok (some w)⟩ := by
    simp [step_get, step_set, step_fset, step_delete, step_fdel, Out.noValue, accelDel, fget, hu, getDefault, e]
  have keep : ∀ (ops : List (Op V)) (s : St V), (∀ o ∈ ops, o.on n f.name → o = .get n f) →
      s.store n f.name = some w → (run impl s ops).1.store n f.name = some w := by
    intro ops
    induction ops with
    | nil => intro s _ h; exact h
    | cons o os ih =>
      intro s ho hs
      simp only [run]
      apply ih _ (fun o ho' => ho o (by simp [ho']))
      by_cases hon : o.on n f.name
      · have := ho o (by simp) hon
        subst this
        simp [step_get, step_set, step_fset, step_delete, step_fdel, Out.noValue, accelDel, fget, hs]
      · rw [step_frame impl s o n f.name hon]; exact hs
  have hst := keep later (s.put n f.name w) hl (by simp [St.put])
  refine ⟨by rw [e1], by rw [e1]; rfl, ?_, ?_, ?_⟩
  · intro n' k hne; rw [e1]; simp [St.put, hne]
  · rw [e1]; simp only [step_get, step_set, step_fset, step_delete, step_fdel, Out.noValue, accelDel, fget, hst]
  · rw [e1]; simp only [step_get, step_set, step_fset, step_delete, step_fdel, Out.noValue, accelDel, fget, hst]

/-- If the default is not acceptable to the field's own type, reading the unset field raises ValueError (see
C58 for the built-in nodes). -/
theorem C14_bad_default (impl : Impl) (s : St V) (n : Nat) (f : FieldDef V)
    (hu : s.store n f.name = none)
    (hd : f.coerce f.default = .error .valueError ∨ f.coerce f.default = .error .typeError) :
    step impl s (.get n f) = ⟨s, .error .valueError⟩ := by
  rcases hd with hd | hd <;> simp [step_get, step_set, step_fset, step_delete, step_fdel, Out.noValue, accelDel, fget, hu, getDefault, rawSet, hd]

example : emptySt.store 1 exField.name = none ∧ exField.coerce exField.default = .ok 7 := ⟨rfl, rfl⟩

/-! ### C15 -/

/-- **C15.** With the accelerated implementation, after `del node.f` or `fdel` the next read returns
the (coerced) default, and exactly one 'del' notification was sent (for `fdel`: if requested); `fdel` returns the value
removed.  For the pure-Python implementation the claim is false: `C15_refuted_pure`. -/
theorem C15_delete_restores_default (s : St V) (n : Nat) (f : FieldDef V) (v w : V) (b : Bool)
    (hs : s.store n f.name = some v) (hd : f.coerce f.default = .ok w) :
    (step .accel (step .accel s (.delete n f)).st (.get n f)).res = .ok (some w) ∧
    (step .accel s (.delete n f)).st.log = s.log ++ [⟨.del, n, f.name, none⟩] ∧
    (step .accel (step .accel s (.fdel n f b)).st (.get n f)).res = .ok (some w) ∧
    (step .accel s (.fdel n f b)).st.log = s.log ++ (if b then [⟨.del, n, f.name, none⟩] else []) ∧
    (step .accel s (.fdel n f b)).res = .ok (some v) := by
  have hr : ∀ s : St V, rawSet s n f f.default = .ok (s.put n f.name w, w) := by intro s; simp [rawSet, hd]
  refine ⟨?_, ?_, ?_, ?_, by simp [step_fdel, accelDel, hs]⟩
  · simp [step_get, step_set, step_fset, step_delete, step_fdel, Out.noValue, accelDel, delete, hs, fget, St.send, St.erase, getDefault, hr]
  · simp [step_get, step_set, step_fset, step_delete, step_fdel, Out.noValue, accelDel, delete, hs, St.send, St.erase]
  · cases b <;> simp [step_get, step_set, step_fset, step_delete, step_fdel, Out.noValue, accelDel, fdel, hs, fget, St.send, St.erase, getDefault, hr]
  · cases b <;> simp [step_get, step_set, step_fset, step_delete, step_fdel, Out.noValue, accelDel, fdel, hs, St.send, St.erase]

/-- **C15 refuted for pure Python**, in every state: after deleting a set field, by either route, the next read
still returns the old value. -/
theorem C15_refuted_pure (s : St V) (n : Nat) (f : FieldDef V) (v : V) (b : Bool)
    (hs : s.store n f.name = some v) :
    (step .pure s (.delete n f)).res = .ok none ∧
    (step .pure (step .pure s (.delete n f)).st (.get n f)).res = .ok (some v) ∧
    (step .pure (step .pure s (.fdel n f b)).st (.get n f)).res = .ok (some v) := by
  refine ⟨by simp [step_get, step_set, step_fset, step_delete, step_fdel, Out.noValue, accelDel, delete, hs], by simp [step_get, step_set, step_fset, step_delete, step_fdel, Out.noValue, accelDel, delete, hs, fget], ?_⟩
  cases b <;> simp [step_get, step_set, step_fset, step_delete, step_fdel, Out.noValue, accelDel, fdel, delete, hs, fget, St.send]

/-- Deleting an unset field raises AttributeError and changes nothing, in both implementations. -/
theorem C15_delete_unset (impl : Impl) (s : St V) (n : Nat) (f : FieldDef V) (b : Bool) (hs : s.store n f.name = none) :
    step impl s (.delete n f) = ⟨s, .error .attributeError⟩ ∧
    step impl s (.fdel n f b) = ⟨s, .error .attributeError⟩ := by
  cases impl <;> simp [step_get, step_set, step_fset, step_delete, step_fdel, Out.noValue, accelDel, delete, fdel, hs]

/-- **C15.** "Has an explicit value" (`fhas`) in the accelerated implementation: true after an accepted assignment,
false after a deletion, false for a node on which the field was neither set nor read, and not changed by what happens
to other fields or nodes. (A read through the default makes it true: `C14_default_read`.) -/
theorem C15_fhas_tracks (s : St V) (n : Nat) (f : FieldDef V) (v w : V) (b : Bool) (hc : f.coerce v = .ok w) :
    fhas (step .accel s (.fset n f v b)).st n f = true ∧
    fhas (step .accel (step .accel s (.fset n f v b)).st (.delete n f)).st n f = false ∧
    fhas (step .accel (step .accel s (.fset n f v b)).st (.fdel n f b)).st n f = false ∧
    (s.store n f.name = none → fhas s n f = false) ∧
    (∀ m g, (m ≠ n ∨ g.name ≠ f.name) → fhas (step .accel s (.fset n f v b)).st m g = fhas s m g ∧
      fhas (step .accel s (.delete n f)).st m g = fhas s m g) := by
  refine ⟨?_, ?_, ?_, ?_, ?_⟩
  · cases b <;> simp [step_get, step_set, step_fset, step_delete, step_fdel, Out.noValue, accelDel, fset, rawSet, hc, fhas, St.put, St.send]
  · cases b <;> simp [step_get, step_set, step_fset, step_delete, step_fdel, Out.noValue, accelDel, fset, rawSet, hc, fhas, St.put, St.send, delete, St.erase]
  · cases b <;> simp [step_get, step_set, step_fset, step_delete, step_fdel, Out.noValue, accelDel, fset, rawSet, hc, fhas, St.put, St.send, fdel, St.erase]
  · intro h; simp [fhas, h]
  · intro m g h
    have h' : ¬ (m = n ∧ g.name = f.name) := by
      rintro ⟨h1, h2⟩; rcases h with h | h <;> contradiction
    constructor
    · cases b <;> simp [step_get, step_set, step_fset, step_delete, step_fdel, Out.noValue, accelDel, fset, rawSet, hc, fhas, St.put, St.send, h']
    · simp only [step_get, step_set, step_fset, step_delete, step_fdel, Out.noValue, accelDel, delete, fhas]
      cases s.store n f.name <;> simp [St.send, St.erase, h']

example : (step .accel emptySt (.set 1 exField 20)).st.store 1 exField.name = some 4 := by
  simp [step_get, step_set, step_fset, step_delete, step_fdel, Out.noValue, accelDel, fset, rawSet, emptySt, exField, St.put, St.send]

/-! ### C16 -/

/-- **C16.** Every history without deletions gives the same results, the same stored values and the
same notifications with both implementations, from every state.  (Histories with deletions differ:
`C16_refuted_delete`.) -/
theorem C16_pure_accel_agree (s : St V) (ops : List (Op V)) (h : ∀ o ∈ ops, ¬ o.isDel) :
    run .pure s ops = run .accel s ops := by
  induction ops generalizing s with
  | nil => rfl
  | cons o os ih =>
    have hs : step .pure s o = step .accel s o := by
      cases o with
      | get n f => rw [step_get, step_get]
      | set n f v => rw [step_set, step_set]
      | fset n f v b => rw [step_fset, step_fset]
      | delete n f => exact absurd trivial (h (.delete n f) (by simp))
      | fdel n f b => exact absurd trivial (h (.fdel n f b) (by simp))
    simp only [run, hs]
    rw [ih _ (fun o ho => h o (by simp [ho]))]

/-- The implementations differ on every deletion of a set field: the pure one keeps the value, and its attribute
deletion sends nothing. -/
theorem C16_refuted_delete (s : St V) (n : Nat) (f : FieldDef V) (v : V) (hs : s.store n f.name = some v) :
    (step .pure s (.delete n f)).st.store n f.name = some v ∧
    (step .accel s (.delete n f)).st.store n f.name = none ∧
    (step .pure s (.delete n f)).st.log = s.log ∧
    (step .accel s (.delete n f)).st.log = s.log ++ [⟨.del, n, f.name, none⟩] := by
  simp [step_get, step_set, step_fset, step_delete, step_fdel, Out.noValue, accelDel, delete, hs, St.send, St.erase]

example : ∀ o ∈ [(Op.set 1 exField 3 : Op Int), .get 1 exField, .fset 2 exField (-4) false], ¬ o.isDel := by
  simp [Op.isDel]

/-! ### C17 -/

/-- The referent of every live answer is alive. -/
def Live (s : WSt) : WRes → Prop
  | .node o => o ∈ s.alive
  | .null => True
  | .none => True
  | .rawRef _ => False
  | .attributeError => False

/-- **C17.** In every state, hence after every history of assignments, reads, births and deaths, reading a weak
field through `fget` gives None, the NULL default, or a node that is alive at that moment – never a dead
node, a raw reference or an exception – with both implementations. -/
theorem C17_never_dead (impl : Impl) (s : WSt) (h : List WAct) :
    Live (wrun impl s h) (wfget impl (wrun impl s h)).2 := by
  generalize wrun impl s h = t
  unfold wfget
  rcases hs : t.slot with _ | (_ | o)
  · trivial
  · trivial
  · simp only
    split
    · assumption
    · simp [wfdel, hs, Live]

/-- **C17.** After assigning a live node it is what `fget` returns, as long as it lives and the field is not
assigned again; once it dies `fget` returns None. -/
theorem C17_tracks_life (impl : Impl) (s : WSt) (o : Nat) (b : Bool) (ha : o ∈ s.alive) (h : List WAct)
    (hq : ∀ a ∈ h, (∃ o', a = .born o') ∨ a = .fget ∨ a = .attr ∨ (∃ o', o' ≠ o ∧ a = .die o')) :
    let t := wrun impl (wfset impl s (.node o) b).1 h
    (wfget impl t).2 = .node o ∧ (wfget impl (wact impl t (.die o))).2 = .none := by
  intro t
  have key : ∀ (h : List WAct) (s : WSt),
      (∀ a ∈ h, (∃ o', a = .born o') ∨ a = .fget ∨ a = .attr ∨ (∃ o', o' ≠ o ∧ a = .die o')) →
      s.slot = some (.ref o) → o ∈ s.alive →
      (wrun impl s h).slot = some (.ref o) ∧ o ∈ (wrun impl s h).alive := by
    intro h
    induction h with
    | nil => intro s _ h1 h2; exact ⟨h1, h2⟩
    | cons a as ih =>
      intro s hq h1 h2
      have hq' := fun a ha => hq a (List.mem_cons_of_mem _ ha)
      show (wrun impl (wact impl s a) as).slot = _ ∧ _ ∈ (wrun impl (wact impl s a) as).alive
      rcases hq a (by simp) with ⟨o', rfl⟩ | rfl | rfl | ⟨o', hne, rfl⟩
      · exact ih _ hq' h1 (by simp [wact, h2])
      · apply ih _ hq' <;> simp [wact, wfget, h1, h2]
      · apply ih _ hq' <;> simp [wact, wattr, h1, h2]
      · refine ih _ hq' h1 ?_
        simp only [wact, List.mem_filter, h2, true_and]
        simpa using fun e => hne e.symm
  have h0 : (wfset impl s (.node o) b).1.slot = some (.ref o) ∧ o ∈ (wfset impl s (.node o) b).1.alive := by
    cases b <;> simp [wfset, ha]
  obtain ⟨h1, h2⟩ := key h _ hq h0.1 h0.2
  refine ⟨by simp [t, wfget, h1, h2], ?_⟩
  have h1' : (wact impl t (.die o)).slot = some (.ref o) := h1
  have h3 : o ∉ (wact impl t (.die o)).alive := by simp [wact]
  simp [wfget, h1', h3, wfdel]

example : (wfget .pure (wrun .pure ⟨[1, 2], none, []⟩
    [.fset (.node 1) true, .fget, .die 2, .attr])).2 = .node 1 := by decide

/-- The reference of a dead node is forgotten by the accelerated implementation (the next read gives the NULL
default again) but kept by the pure one, and assigning None does not clear a pure weak field. -/
theorem C17_forgetting (s : WSt) (o : Nat) (hs : s.slot = some (.ref o)) :
    (o ∉ s.alive → (wfget .accel s).1.slot = none ∧ (wfget .pure s).1.slot = some (.ref o)) ∧
    (o ∈ s.alive → (wfget .pure (wfset .pure s .falsy true).1).2 = .node o ∧
      (wfget .accel (wfset .accel s .falsy true).1).2 = .null) := by
  constructor
  · intro h; simp [wfget, hs, h, wfdel]
  · intro h; simp [wfget, wfset, hs, h, wfdel]

/-- **C17.** What is signalled: assigning a live node with notification sends one 'set', assigning anything else with notification one 'del' if there was something to
forget; reading, also when it forgets a dead node, and births and deaths send nothing. -/
theorem C17_signals (impl : Impl) (s : WSt) :
    (∀ a o, (a = .node o ∨ a = .weak o) → o ∈ s.alive → (wact impl s (.fset a true)).log = s.log ++ [true]) ∧
    (∀ a, (∀ o, (a = .node o ∨ a = .weak o) → o ∉ s.alive) →
      (s.slot ≠ none → (wact impl s (.fset a true)).log = s.log ++ [false]) ∧ (s.slot = none → (wact impl s (.fset a true)).log = s.log)) ∧
    (∀ a, (∀ x, a ≠ .fset x true) → (wact impl s a).log = s.log) := by
  refine ⟨fun a o ha ho => ?_, fun a ha => ?_, fun a ha => ?_⟩
  · rcases ha with rfl | rfl <;> simp [wact, wfset, ho]
  · constructor <;> intro hs
    · obtain ⟨x, hx⟩ := Option.ne_none_iff_exists'.1 hs
      cases a with
      | node o => have := ha o (.inl rfl); cases impl <;> simp [wact, wfset, this, wfdel, hx]
      | weak o => have := ha o (.inr rfl); cases impl <;> simp [wact, wfset, this, wfdel, hx]
      | falsy => cases impl <;> simp [wact, wfset, wfdel, hx]
    · cases a with
      | node o => have := ha o (.inl rfl); simp [wact, wfset, this, wfdel, hs]
      | weak o => have := ha o (.inr rfl); simp [wact, wfset, this, wfdel, hs]
      | falsy => simp [wact, wfset, wfdel, hs]
  · cases a with
    | fset x n =>
      cases n with
      | true => exact absurd rfl (ha x)
      | false =>
        simp only [wact, wfset]
        split
        · unfold wfdel
          cases s.slot <;> cases impl <;> simp
        · simp
    | fget =>
      simp only [wact, wfget]
      split
      · rfl
      · rfl
      · split
        · rfl
        · unfold wfdel
          cases s.slot <;> cases impl <;> simp
    | attr => simp only [wact, wattr]; split <;> rfl
    | born o => rfl
    | die o => rfl

example : (wact .accel ⟨[3], some (.ref 3), []⟩ (.fset .falsy true)).log = [false] := by decide

/-- **C17.** Assigning a weak reference is the same as assigning what it refers to: the node while that is alive (also
for the notification and the result), None once it is dead; and the result of an assignment is the node that the
next read gives. -/
theorem C17_assign_reference (impl : Impl) (s : WSt) (o : Nat) (b : Bool) :
    (o ∈ s.alive → wfset impl s (.weak o) b = wfset impl s (.node o) b ∧
      (wfset impl s (.weak o) b).2 = .node o ∧ (wfget impl (wfset impl s (.weak o) b).1).2 = .node o ∧
      (wfset impl s (.weak o) b).1.log = s.log ++ (if b then [true] else [])) ∧
    (o ∉ s.alive → wfset impl s (.weak o) b = wfset impl s .falsy b ∧ ∀ x, (wfset impl s (.weak o) b).2 ≠ .node x) := by
  constructor
  · intro h
    cases b <;> simp [wfset, wfget, h]
  · intro h
    simp only [wfset, h, if_false, true_and]
    intro x
    generalize wfdel impl s b = r
    rcases r with ⟨s', _ | _⟩ <;> simp

example : (wfset .accel ⟨[1, 2], some (.ref 2), []⟩ (.weak 1) true).2 = .node 1 ∧
    (wfset .accel ⟨[2], some (.ref 2), []⟩ (.weak 1) true).2 = .none := by decide

end Verif.Field
