import Verif.Model.MFNode
import Verif.Props.OList
/-!
C27 – child-list changes notify watchers of the node (vrml/node.py `_MFNode`, vrml/olist.py).
-/
namespace Verif.MFNode
open Verif.OList Verif.PyList

/-- Number of ('set', f) notifications in a log. -/
def setCount (log : List Note) (f : Nat) : Nat := log.countP (fun m => m.field = f)

/-- Number of child events ('new' or 'del') an operation on a list sends. -/
def childEvents (items : List Nat) (o : OList.Op Nat) : Nat :=
  (OList.step items o).events.countP (fun e => e.sig = .new ∨ e.sig = .del)

/-- The operation replaces the list object of `f`. -/
def Op.replaces (f : Nat) : Op → Prop
  | .attrSet g _ => g = f
  | _ => False

/-- The list of `f` is wired: it sends from the node and a closure for `f` is connected. -/
def Wired (s : St) (f : Nat) : Prop := (∃ items, s.slots f = some ⟨items, true⟩) ∧ f ∈ s.conns

theorem read_put_wired {s : St} {f g : Nat} {l : MList} (h : Wired s f) (hl : g = f → l.sender = true) (c : List Nat) (lg : List Note) :
    Wired { (s.put g l) with log := lg, conns := s.conns ++ c } f := by
  obtain ⟨⟨items, h1⟩, h2⟩ := h
  refine ⟨?_, by simp [h2]⟩
  by_cases hg : g = f
  · subst hg
    exact ⟨l.items, by simp [St.put]; cases l; simp_all⟩
  · exact ⟨items, by simp [St.put, Ne.symm hg, h1]⟩

theorem wired_read {s : St} {f g : Nat} (h : Wired s f) : Wired (read s g) f := by
  unfold read
  rcases hg : s.slots g with _ | l
  · obtain ⟨⟨items, h1⟩, h2⟩ := h
    refine ⟨⟨items, ?_⟩, h2⟩
    have : f ≠ g := by rintro rfl; rw [h1] at hg; simp at hg
    simp [St.put, this, h1]
  · exact h

theorem wired_step {s : St} {f : Nat} (o : Op) (h : Wired s f) (ho : ¬ o.replaces f) : Wired (step s o) f := by
  cases o with
  | attrSet g vs =>
    have := read_put_wired (l := ⟨vs, false⟩) (g := g) h (fun e => absurd e ho) [] ((s.put g ⟨vs, false⟩).log ++ [⟨g, .list vs⟩])
    simpa [step, St.put] using this
  | fset g vs notify =>
    simp only [step]
    rcases hg : s.slots g with _ | l
    · obtain ⟨⟨items, h1⟩, h2⟩ := h
      have : f ≠ g := by rintro rfl; rw [h1] at hg; simp at hg
      exact ⟨⟨items, by simp [St.put, this, h1]⟩, by simp [St.put, h2]⟩
    · obtain ⟨⟨items, h1⟩, h2⟩ := h
      by_cases hfg : f = g
      · subst hfg
        rw [h1] at hg; injection hg with hg; subst hg
        exact ⟨⟨(OList.setSlice items {} vs).items, by simp [St.put]⟩, by simpa [St.put] using h2⟩
      · exact ⟨⟨items, by simp [St.put, hfg, h1]⟩, by simpa [St.put] using h2⟩
  | read g => exact wired_read h
  | mutate g o =>
    have hr := wired_read (g := g) h
    simp only [step]
    rcases hg : (read s g).slots g with _ | l
    · exact hr
    · obtain ⟨⟨items, h1⟩, h2⟩ := hr
      by_cases hfg : f = g
      · subst hfg
        rw [h1] at hg; injection hg with hg; subst hg
        exact ⟨⟨(OList.step items o).items, by simp [St.put]⟩, by simpa [St.put] using h2⟩
      · exact ⟨⟨items, by simp [St.put, hfg, h1]⟩, by simpa [St.put] using h2⟩

theorem wired_run {s : St} {f : Nat} (ops : List Op) (h : Wired s f) (ho : ∀ o ∈ ops, ¬ o.replaces f) :
    Wired (run s ops) f := by
  induction ops generalizing s with
  | nil => exact h
  | cons o os ih => exact ih (wired_step o h (ho o (by simp))) (fun o' h' => ho o' (by simp [h']))

theorem setCount_changeNotes (conns : List Nat) (evs : List (Ev Nat)) (f : Nat) (hf : f ∈ conns) :
    evs.countP (fun e => e.sig = .new ∨ e.sig = .del) ≤ setCount (changeNotes conns true evs) f := by
  unfold changeNotes setCount
  simp only [if_true]
  rw [List.countP_eq_length_filter]
  generalize evs.filter _ = l
  have hone : 1 ≤ (conns.map (fun f => (⟨f, .theNode⟩ : Note))).countP (fun m => m.field = f) := by
    have : 0 < (conns.map (fun f => (⟨f, .theNode⟩ : Note))).countP (fun m => m.field = f) := by
      rw [List.countP_pos_iff]
      exact ⟨⟨f, .theNode⟩, List.mem_map_of_mem hf, by simp⟩
    omega
  induction l with
  | nil => simp
  | cons e es ih => rw [List.flatMap_cons, List.countP_append, List.length_cons]; omega

/-- **C27.** If the child list came from the constructor, the parser or `fset` while the field held
nothing, then after any history that never assigns the attribute directly (`node.f = …`), every mutation of the
list sends, from the node, at least one ('set', f) notification per added and per removed child.
Excluded: lists that came from reading the default or from attribute assignment – see
`C27_refuted_default` and `C27_refuted_attr`. -/
theorem C27_child_change_notifies (s : St) (f : Nat) (vs : List Nat) (notify : Bool) (h0 : s.slots f = none)
    (later : List Op) (hl : ∀ o ∈ later, ¬ o.replaces f) (o : OList.Op Nat) :
    let t := run (step s (.fset f vs notify)) later
    ∃ items, t.slots f = some ⟨items, true⟩ ∧
      setCount t.log f + childEvents items o ≤ setCount (step t (.mutate f o)).log f := by
  have hw : Wired (step s (.fset f vs notify)) f := by
    simp only [step, h0]
    exact ⟨⟨vs, by simp [St.put]⟩, by simp⟩
  have hwr := wired_run later hw hl
  intro t
  change Wired t f at hwr
  generalize t = t at hwr ⊢
  obtain ⟨⟨items, h1⟩, h2⟩ := hwr
  refine ⟨items, h1, ?_⟩
  have hread : read t f = t := by unfold read; rw [h1]
  simp only [step, hread, h1]
  show _ ≤ setCount (t.log ++ changeNotes _ true _) f
  have := setCount_changeNotes t.conns (OList.step items o).events f h2
  unfold setCount at this ⊢
  rw [List.countP_append]
  simp only [St.put, childEvents]
  omega

/-- Adding a child to such a list is a child event, so a dependent of the field is told. -/
theorem C27_append_notifies (s : St) (f : Nat) (vs : List Nat) (notify : Bool) (h0 : s.slots f = none)
    (later : List Op) (hl : ∀ o ∈ later, ¬ o.replaces f) (x : Nat) :
    let t := run (step s (.fset f vs notify)) later
    setCount t.log f < setCount (step t (.mutate f (.append x))).log f := by
  intro t
  obtain ⟨items, _, h⟩ := C27_child_change_notifies s f vs notify h0 later hl (.append x)
  have : childEvents items (.append x) = 1 := by
    simp [childEvents, OList.step, OList.append, sendAdded]
  show setCount (run (step s (.fset f vs notify)) later).log f < _
  rw [this] at h
  exact h

-- non-vacuity
example : init.slots 0 = none ∧ (∀ o ∈ ([.fset 0 [4, 5] true, .mutate 0 (.pop none), .attrSet 1 [3]] : List Op), ¬ o.replaces 0) ∧
    (run (step init (.fset 0 [1] true)) [.fset 0 [4, 5] true, .mutate 0 (.pop none), .attrSet 1 [3]]).log =
      [⟨0, .list [1]⟩, ⟨0, .theNode⟩, ⟨0, .theNode⟩, ⟨0, .theNode⟩, ⟨0, .theNode⟩, ⟨1, .list [3]⟩] := by
  refine ⟨rfl, by simp [Op.replaces], by decide⟩

/-- A list obtained by reading the unset field is never wired: whatever is appended, no notification is sent. -/
theorem C27_refuted_default (s : St) (f : Nat) (h0 : s.slots f = none) (xs : List Nat) :
    (run (step s (.read f)) (xs.map (fun x => .mutate f (.append x)))).log = s.log ∧
    (run (step s (.read f)) (xs.map (fun x => .mutate f (.append x)))).slots f = some ⟨xs, false⟩ := by
  have key : ∀ (xs : List Nat) (t : St) (ys : List Nat), t.slots f = some ⟨ys, false⟩ →
      (run t (xs.map (fun x => .mutate f (.append x)))).log = t.log ∧
      (run t (xs.map (fun x => .mutate f (.append x)))).slots f = some ⟨ys ++ xs, false⟩ := by
    intro xs
    induction xs with
    | nil => intro t ys h; simp [run, h]
    | cons x xs ih =>
      intro t ys h
      have hr : read t f = t := by unfold read; rw [h]
      have := ih (step t (.mutate f (.append x))) (ys ++ [x]) (by simp [step, hr, h, St.put, OList.step, OList.append])
      show (run (step t (.mutate f (.append x))) _).log = _ ∧ (run (step t (.mutate f (.append x))) _).slots f = _
      rw [this.1, this.2]
      constructor
      · simp [step, hr, h, St.put, changeNotes]
      · simp
  have := key xs (step s (.read f)) [] (by simp [step, read, h0, St.put])
  rw [this.1, this.2]
  constructor
  · simp [step, read, h0, St.put]
  · simp

/-- After `node.f = vs` the new list is not wired either: a later append is silent, even if the field was
wired before. -/
theorem C27_refuted_attr (s : St) (f : Nat) (vs : List Nat) (x : Nat) :
    (step (step s (.attrSet f vs)) (.mutate f (.append x))).log = s.log ++ [⟨f, .list vs⟩] := by
  simp [step, read, St.put, changeNotes]

/-- **C27** The first `fset` of a field stores the list, and sends one signal with the list if it was asked to notify, none if not. -/
theorem C27_first_fset (s : St) (f : Nat) (vs : List Nat) (h0 : s.slots f = none) :
    (step s (.fset f vs false)).log = s.log ∧ (step s (.fset f vs true)).log = s.log ++ [⟨f, .list vs⟩] ∧
    ∀ notify, (step s (.fset f vs notify)).slots f = some ⟨vs, true⟩ ∧ ∀ g, g ≠ f → (step s (.fset f vs notify)).slots g = s.slots g := by
  refine ⟨?_, ?_, fun notify => ⟨?_, fun g hg => ?_⟩⟩ <;> simp only [step, h0, St.put]
  · simp
  · simp
  · simp
  · simp [hg]

/-- Re-assigning through `fset` when the field holds an unwired list sends nothing at all, although the
contents change. -/
theorem C27_refuted_fset_silent (s : St) (f : Nat) (items vs : List Nat) (h : s.slots f = some ⟨items, false⟩) :
    (step s (.fset f vs true)).log = s.log ∧ (step s (.fset f vs true)).slots f = some ⟨vs, false⟩ := by
  have hs : (OList.setSlice items {} vs).items = vs := by
    have := OList.step_plain items (.setSlice {} vs) (by simp [OList.IsDelItem])
    have hp : PyList.setSlice items {} vs = .ok vs := by
      unfold PyList.setSlice
      have hi : ({} : Slice).indices items.length = some (0, (items.length : Int), 1) := by
        simp [Slice.indices]
      have hm : (max (0 : Int) (items.length : Int)).toNat = items.length := by omega
      simp [hi, hm]
    simp only [OList.plainStep, hp, OList.step] at this
    exact this.2
  simp [step, h, St.put, changeNotes, hs]

end Verif.MFNode
