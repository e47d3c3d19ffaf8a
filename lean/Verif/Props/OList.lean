import Verif.Model.OList
import Verif.Lemmas.PyList
/-!
C24, C25, C26 – the observable list (vrml/olist.py).
-/
namespace Verif.OList
open Verif.PyList
variable {α : Type} [DecidableEq α]

/-! ### Specification: a plain Python list -/

/-- What a plain `list` does for the same operation (contents, or the exception). -/
def plainStep (l : List α) : Op α → Except Err (List α)
  | .append v => .ok (l ++ [v])
  | .insert i v => .ok (PyList.insert l i v)
  | .pop none => (PyList.pop l (-1)).map Prod.fst
  | .pop (some i) => (PyList.pop l i).map Prod.fst
  | .remove v => PyList.remove l v
  | .delSlice s => PyList.delSlice l s
  | .delItem i => PyList.delItem l i
  | .setSlice s vs => PyList.setSlice l s vs
  | .setItem i v => PyList.setItem l i v
  | .extend vs => .ok (l ++ vs)
  | .clear => .ok []
  | .reverse => .ok l.reverse

/-- A sequence of operations on a plain list; an operation that raises changes nothing. -/
def plainRun : List α → List (Op α) → List α × List (Option Err)
  | l, [] => (l, [])
  | l, o :: os =>
    match plainStep l o with
    | .ok l' => let r := plainRun l' os; (r.1, none :: r.2)
    | .error e => let r := plainRun l os; (r.1, some e :: r.2)

/-- Number of 'new' events minus number of 'del' events about `x`. -/
def net (evs : List (Ev α)) (x : α) : Int :=
  (evs.countP (fun e => e.sig = .new ∧ e.child = x) : Int)
    - (evs.countP (fun e => e.sig = .del ∧ e.child = x) : Int)

/-- Deleting one item by index, `del l[i]`. -/
def IsDelItem : Op α → Prop
  | .delItem _ => True
  | _ => False

/-! ### C24 -/

theorem step_plain (l : List α) (o : Op α) (ho : ¬ IsDelItem o) :
    match plainStep l o with
    | .ok l' => (step l o).err = none ∧ (step l o).items = l'
    | .error e => (step l o).err = some e ∧ (step l o).items = l := by
  cases o with
  | append v => simp [plainStep, step, append]
  | insert i v => simp [plainStep, step, insert]
  | pop i =>
    cases i with
    | none =>
      have e : normIdx l.length ((l.length : Int) - 1) = normIdx l.length (-1) := by
        unfold normIdx; simp only
        cases l with
        | nil => simp
        | cons a t => 
          have : ¬ ((((a :: t).length : Nat) : Int) - 1 < 0) := by simp only [List.length_cons]; omega
          simp only [if_neg this]
          have e2 : (((a :: t).length : Nat) : Int) - 1 = -1 + (((a :: t).length : Nat) : Int) := by omega
          rw [e2]; simp
      have e' : PyList.pop l ((l.length : Int) - 1) = PyList.pop l (-1) := by
        simp only [PyList.pop, e]
      simp only [plainStep, step, pop, e']
      rcases PyList.pop l (-1) with e | ⟨l', v⟩ <;> simp [Except.map]
    | some i =>
      simp only [plainStep, step, pop]
      rcases PyList.pop l i with e | ⟨l', v⟩ <;> simp [Except.map]
  | remove v =>
    simp only [plainStep, step, remove]
    rcases PyList.remove l v with e | l' <;> simp
  | delSlice s =>
    simp only [plainStep, step, delSlice, getSlice, PyList.delSlice]
    rcases s.positions l.length with _ | ps <;> simp
  | delItem i => exact absurd trivial ho
  | setSlice s vs =>
    simp only [plainStep, step, setSlice]
    rcases hg : getSlice l s with e | prev
    · have : PyList.setSlice l s vs = .error e := by
        unfold getSlice Slice.positions at hg
        unfold PyList.setSlice
        rcases hi : s.indices l.length with _ | ⟨a, b, st⟩
        · simp [hi] at hg ⊢; exact hg
        · simp [hi] at hg
      simp [this]
    · rcases PyList.setSlice l s vs with e | l' <;> simp
  | setItem i v =>
    simp only [plainStep, step, setItem]
    rcases hg : getItem l i with e | cur
    · have : PyList.setItem l i v = .error e := by
        unfold getItem at hg
        unfold PyList.setItem
        rcases hn : normIdx l.length i with _ | k
        · simp [hn] at hg ⊢; exact hg
        · simp [hn] at hg
          have := normIdx_lt hn
          simp [this] at hg
      simp [this]
    · rcases PyList.setItem l i v with e | l' <;> simp
  | extend vs =>
    have hi : ({ start := some (l.length : Int), stop := some (l.length : Int) } : Slice).indices l.length
        = some ((l.length : Int), (l.length : Int), 1) := by
      have hn : ¬ ((l.length : Int) < 0) := by omega
      simp [Slice.indices, adjust, hn]
    have h2 : PyList.setSlice l { start := some (l.length : Int), stop := some (l.length : Int) } vs
        = .ok (l ++ vs) := by
      unfold PyList.setSlice; simp [hi]
    have h1 : ∃ p, getSlice l { start := some (l.length : Int), stop := some (l.length : Int) } = .ok p := by
      unfold getSlice Slice.positions; simp [hi]
    obtain ⟨p, h1⟩ := h1
    simp [plainStep, step, extend, setSlice, h1, h2]
  | clear => simp [plainStep, step]
  | reverse => simp [plainStep, step]

/-- **C24.** For every list and every sequence of operations that contains no `del l[i]`,
the observable list has the contents of, and raises the same exceptions as, a plain list.
Excluded: `del l[i]` — see `C24_refuted_delItem`. -/
theorem C24_contents (l : List α) (ops : List (Op α)) (h : ∀ o ∈ ops, ¬ IsDelItem o) :
    ((run l ops).1, (run l ops).2.1) = plainRun l ops := by
  induction ops generalizing l with
  | nil => simp [run, plainRun]
  | cons o os ih =>
    have hs := step_plain l o (h o (by simp))
    have ih' := fun l => ih l (fun o ho => h o (by simp [ho]))
    simp only [run, plainRun]
    rcases hp : plainStep l o with e | l'
    · simp [hp] at hs; simp [hs, ← ih']
    · simp [hp] at hs; simp [hs, ← ih']

theorem insertIdx_take_drop {α : Type} (v : α) : ∀ (l : List α) (k : Nat), k ≤ l.length → l.insertIdx k v = l.take k ++ v :: l.drop k
  | l, 0, _ => by simp
  | [], k + 1, h => by simp at h
  | a :: l, k + 1, h => by
    simp only [List.insertIdx_succ_cons, List.take_succ_cons, List.drop_succ_cons, List.cons_append]
    rw [insertIdx_take_drop v l k (by simpa using h)]

/-- **C24.** What the plain-list operations do, spelled out with `take` and `drop`: insertion at a position counted
from either end and clamped to the list, item removal and replacement, removal of the first equal item, contiguous
slices. -/
theorem C24_plain_operations (l : List α) :
    (∀ k v, k ≤ l.length → plainStep l (.insert k v) = .ok (l.take k ++ v :: l.drop k)) ∧
    (∀ (k : Nat) v, 0 < k → k ≤ l.length →
      plainStep l (.insert (-(k : Int)) v) = .ok (l.take (l.length - k) ++ v :: l.drop (l.length - k))) ∧
    (∀ (k : Nat) v, l.length < k → plainStep l (.insert k v) = .ok (l ++ [v])) ∧
    (∀ (k : Nat) v, l.length < k → plainStep l (.insert (-(k : Int)) v) = .ok (v :: l)) ∧
    (∀ a v b, v ∉ a → l = a ++ v :: b → plainStep l (.remove v) = .ok (a ++ b)) ∧
    (∀ a v w b, l = a ++ v :: b → plainStep l (.setItem a.length w) = .ok (a ++ w :: b)) ∧
    (∀ a v b, l = a ++ v :: b → plainStep l (.pop (some a.length)) = .ok (a ++ b)) ∧
    (∀ a v b, l = a ++ v :: b → plainStep l (.delItem a.length) = .ok (a ++ b)) ∧
    (∀ a m b vs, l = a ++ m ++ b →
      plainStep l (.setSlice { start := some a.length, stop := some (a.length + m.length : Nat) } vs) = .ok (a ++ vs ++ b)) := by
  have hidx : ∀ (a : List α) v b, l = a ++ v :: b → normIdx l.length (a.length : Int) = some a.length := by
    intro a v b h
    have h1 : ¬ ((a.length : Int) < 0) := by omega
    have h2 : (a.length : Int) < l.length := by subst h; simp; omega
    simp [normIdx, h1, h2]
  refine ⟨?_, ?_, ?_, ?_, ?_, ?_, ?_, ?_, ?_⟩
  · intro k v hk
    have h1 : ¬ ((k : Int) < 0) := by omega
    have h2 : ¬ ((l.length : Int) < k) := by omega
    simp only [plainStep, PyList.insert, insertIdx, h1, h2, if_false, Int.toNat_natCast]
    rw [insertIdx_take_drop v l k hk]
  · intro k v h0 hk
    have h1 : (-(k : Int)) < 0 := by omega
    have h2 : ¬ (-(k : Int) + l.length < 0) := by omega
    have h3 : ¬ ((l.length : Int) < -(k : Int) + l.length) := by omega
    have h4 : (-(k : Int) + l.length).toNat = l.length - k := by omega
    simp only [plainStep, PyList.insert, insertIdx, h1, h2, h3, h4, if_true, if_false]
    rw [insertIdx_take_drop v l _ (by first | omega | simp)]
    try simp
  · intro k v hk
    have h1 : ¬ ((k : Int) < 0) := by omega
    have h2 : (l.length : Int) < k := by omega
    simp only [plainStep, PyList.insert, insertIdx, h1, h2, if_true, if_false]
    rw [insertIdx_take_drop v l _ (by first | omega | simp)]
    try simp
  · intro k v hk
    have h1 : (-(k : Int)) < 0 := by omega
    have h2 : -(k : Int) + l.length < 0 := by omega
    simp only [plainStep, PyList.insert, insertIdx, h1, h2, if_true]
    rw [insertIdx_take_drop v l _ (by first | omega | simp)]
    try simp
  · intro a v b hv h
    subst h
    simp [plainStep, PyList.remove, List.erase_append_right, hv]
  · intro a v w b h
    simp only [plainStep, PyList.setItem, hidx a v b h]
    subst h; simp
  · intro a v b h
    simp only [plainStep, PyList.pop, hidx a v b h]
    subst h
    simp [Except.map, List.eraseIdx_append_of_length_le]
  · intro a v b h
    simp only [plainStep, PyList.delItem, hidx a v b h]
    subst h
    simp [List.eraseIdx_append_of_length_le]
  · intro a m b vs h
    subst h
    have h1 : ¬ ((a.length : Int) < 0) := by omega
    have h2 : ¬ ((a.length : Int) + m.length < 0) := by omega
    have h3 : ¬ ((a.length : Int) + (m.length + b.length) < a.length) := by omega
    have h4 : ¬ ((a.length : Int) + (m.length + b.length) < (a.length : Int) + m.length) := by omega
    have h5 : max (a.length : Int) ((a.length : Int) + m.length) = (a.length : Int) + m.length := by omega
    have h6 : ((a.length : Int) + m.length).toNat = a.length + m.length := by omega
    simp [plainStep, PyList.setSlice, Slice.indices, adjust, h1, h2, h3, h4, h5, h6, List.take_append, List.drop_append]

/-- The full C24 claim is false of the code: `del l[i]` on an observable list removes nothing
(olist.py:89-92). -/
theorem C24_refuted_delItem :
    ¬ ∀ (l : List Nat) (ops : List (Op Nat)), ((run l ops).1, (run l ops).2.1) = plainRun l ops := by
  intro h
  have := h [1, 2] [.delItem 0]
  revert this; decide

/-- Precisely: whenever the index is valid `del l[i]` leaves the observable list unchanged while a plain
list gets shorter. -/
theorem C24_delItem_never_deletes (l : List α) (i : Int) :
    (step l (.delItem i)).items = l ∧
    (∀ l', plainStep l (.delItem i) = .ok l' → l'.length + 1 = l.length) := by
  constructor
  · simp only [step, delItem]; rcases getItem l i with _ | _ <;> simp
  · intro l' h
    simp only [plainStep, PyList.delItem] at h
    split at h
    · simp at h
    · rename_i k hk
      have := normIdx_lt hk
      simp at h; subst h
      rw [List.length_eraseIdx]; simp [this]; omega

-- non-vacuity: a sequence using every kind of operation, no `del l[i]`
example : (∀ o ∈ ([.append 3, .insert (-1) 7, .pop none, .setSlice { start := some 0, stop := some 2 } [9, 9, 9],
      .setItem (-1) 4, .delSlice { step := some 2 }, .remove 9, .extend [5, 6], .pop (some 7)] : List (Op Nat)),
      ¬ IsDelItem o) ∧
    (run [1, 2] ([.append 3, .insert (-1) 7, .pop none, .setSlice { start := some 0, stop := some 2 } [9, 9, 9],
      .setItem (-1) 4, .delSlice { step := some 2 }, .remove 9, .extend [5, 6], .pop (some 7)] : List (Op Nat))).1
      = [4, 5, 6] := by
  constructor
  · simp [IsDelItem]
  · decide

/-! ### C25 -/

omit [DecidableEq α] in
theorem net_nil [DecidableEq α] (x : α) : net ([] : List (Ev α)) x = 0 := by simp [net]
theorem net_append (a b : List (Ev α)) (x : α) : net (a ++ b) x = net a x + net b x := by
  simp only [net, List.countP_append]; omega
theorem net_added (cur : List α) (v x : α) : net (sendAdded cur v) x = if v = x then 1 else 0 := by
  by_cases h : v = x <;> simp [net, sendAdded, h]
theorem net_removed (cur : List α) (v x : α) : net (sendRemoved cur v) x = if v = x then -1 else 0 := by
  by_cases h : v = x <;> simp [net, sendRemoved, h]
theorem net_flatRemoved (cur vs : List α) (x : α) :
    net (vs.flatMap (sendRemoved cur)) x = - (vs.count x : Int) := by
  induction vs with
  | nil => simp [net]
  | cons v vs ih =>
    rw [List.flatMap_cons, net_append, ih, net_removed, List.count_cons]
    by_cases h : v = x <;> simp [h]; omega

theorem sliceLoop_net (seen currents : List α) (x : α) : ∀ (vs prev : List α),
    net (sliceLoop seen currents vs prev).1 x = (if x ∈ currents then 0 else (vs.count x : Int)) ∧
    (sliceLoop seen currents vs prev).2.count x
      = if x ∈ currents then prev.count x - vs.count x else prev.count x := by
  intro vs
  induction vs with
  | nil => intro prev; simp [sliceLoop, net_nil]
  | cons v vs ih =>
    intro prev
    unfold sliceLoop
    by_cases hv : v ∈ currents
    · simp only [hv, if_true]
      have := ih (prev.erase v)
      rw [this.1, this.2, List.count_cons, List.count_erase]
      by_cases hx : v = x
      · subst hx; simp [hv]; omega
      · simp [hx]
    · simp only [hv, if_false]
      have := ih prev
      rw [net_append, this.1, this.2, net_added, List.count_cons]
      by_cases hx : v = x
      · subst hx; simp [hv]; omega
      · simp [hx]

/-- Exactly what slice assignment announces, for every object. -/
theorem setSlice_net {l vs prev l' : List α} {s : Slice} (hg : getSlice l s = .ok prev)
    (hs : PyList.setSlice l s vs = .ok l') (x : α) :
    net (setSlice l s vs).events x =
      if x ∈ prev then ((min (prev.count x) (vs.count x) : Nat) : Int) - prev.count x else vs.count x := by
  have := sliceLoop_net l' prev x vs prev
  simp only [setSlice, hg, hs, net_append, net_flatRemoved, this.1, this.2]
  by_cases hx : x ∈ prev
  · simp [hx]; omega
  · simp [hx, List.count_eq_zero_of_not_mem hx]

/-- The operations for which the announced events account for the change. -/
def Accounted (l : List α) : Op α → Prop
  | .delItem i => ∃ e, getItem l i = .error e        -- an index error sends nothing
  | .clear => l = []
  | .setSlice s vs => ∀ prev l', getSlice l s = .ok prev → PyList.setSlice l s vs = .ok l' →
      ∀ x ∈ prev, vs.count x ≤ prev.count x         -- no replaced item is put back more often than before
  | _ => True

/-- One step reconciles exactly for the accounted operations. -/
theorem C25_step_iff (l : List α) (o : Op α) :
    (∀ x, net (step l o).events x = ((step l o).items.count x : Int) - l.count x) ↔ Accounted l o := by
  cases o with
  | append v =>
    simp only [Accounted, iff_true]
    intro x
    simp only [step, append, net_added, List.count_append, List.count_cons, List.count_nil]
    by_cases h : v = x <;> simp [h]
    omega
  | insert i v =>
    simp only [Accounted, iff_true]
    intro x
    have hle : insertIdx l.length i ≤ l.length := by
      unfold insertIdx; simp only; split <;> split <;> (try split) <;> omega
    have : (PyList.insert l i v).count x = l.count x + if v = x then 1 else 0 := by
      unfold PyList.insert
      have := (List.perm_insertIdx v l hle).count_eq x
      rw [this, List.count_cons]; simp
    simp only [step, insert, net_added, this]
    by_cases h : v = x <;> simp [h]; omega
  | pop i =>
    simp only [Accounted, iff_true]
    intro x
    simp only [step, pop, PyList.pop]
    rcases hn : normIdx l.length _ with _ | k
    · simp [net_nil]
    · have hk := normIdx_lt hn
      have := count_eraseIdx l k hk x
      simp [List.getElem?_eq_getElem hk, net_removed]
      by_cases h : l[k] = x <;> simp [h] at this ⊢ <;> omega
  | remove v =>
    simp only [Accounted, iff_true]
    intro x
    simp only [step, remove, PyList.remove]
    by_cases hv : v ∈ l
    · simp only [hv, if_true, net_removed, List.count_erase]
      by_cases h : v = x
      · subst h
        have := List.count_pos_iff.2 hv
        simp; omega
      · simp [h]
    · simp [hv, net_nil]
  | delSlice s =>
    simp only [Accounted, iff_true]
    intro x
    simp only [step, delSlice]
    rcases hg : getSlice l s with e | cur
    · simp [net_nil]
    · rcases hd : PyList.delSlice l s with e | l'
      · unfold getSlice at hg; unfold PyList.delSlice at hd
        rcases hp : s.positions l.length with _ | ps <;> simp [hp] at hg hd
      · have := count_delSlice hg hd x
        simp only [net_flatRemoved]; omega
  | delItem i =>
    simp only [Accounted, step, delItem]
    rcases hg : getItem l i with e | v
    · simp [net_nil]
    · simp only [net_removed]
      constructor
      · intro h; have := h v; simp at this
      · simp
  | setSlice s vs =>
    simp only [Accounted]
    rcases hg : getSlice l s with e | prev
    · simp [step, setSlice, hg, net_nil]
    · rcases hs : PyList.setSlice l s vs with e | l'
      · simp [step, setSlice, hg, hs, net_nil]
      · have hitems : (setSlice l s vs).items = l' := by simp [setSlice, hg, hs]
        constructor
        · rintro h prev' l'' rfl' _ x hx
          injection rfl' with e1; subst e1
          have h1 := h x
          have h2 := count_setSlice hg hs x
          simp only [step] at h1
          rw [setSlice_net hg hs x, hitems, if_pos hx] at h1
          omega
        · intro h x
          have h2 := count_setSlice hg hs x
          simp only [step]
          rw [setSlice_net hg hs x, hitems]
          by_cases hx : x ∈ prev
          · have := h prev l' rfl rfl x hx
            rw [if_pos hx]; omega
          · rw [if_neg hx]
            have := List.count_eq_zero_of_not_mem hx
            omega
  | setItem i v =>
    simp only [Accounted, iff_true]
    intro x
    simp only [step, setItem]
    rcases hg : getItem l i with e | cur
    · simp [net_nil]
    · obtain ⟨k, hk, hn, hc⟩ := mem_of_getItem hg
      simp only [PyList.setItem, hn]
      have := count_set l k hk v x
      rw [hc] at this
      by_cases hcv : cur = v
      · subst hcv; simp [net_nil]; split at this <;> omega
      · simp only [hcv, if_false, net_append, net_removed, net_added]
        split at this <;> split at this <;> simp_all <;> omega
  | extend vs =>
    simp only [Accounted, iff_true]
    intro x
    have hi : ({ start := some (l.length : Int), stop := some (l.length : Int) } : Slice).indices l.length
        = some ((l.length : Int), (l.length : Int), 1) := by
      have hn : ¬ ((l.length : Int) < 0) := by omega
      simp [Slice.indices, adjust, hn]
    have h2 : PyList.setSlice l { start := some (l.length : Int), stop := some (l.length : Int) } vs
        = .ok (l ++ vs) := by
      unfold PyList.setSlice; simp [hi]
    have h1 : getSlice l { start := some (l.length : Int), stop := some (l.length : Int) } = .ok [] := by
      unfold getSlice Slice.positions; simp [hi]
      rw [pick_rangeIdx_one] <;> simp
    have := setSlice_net h1 h2 x
    simp only [step, extend]
    rw [this]
    simp [setSlice, h1, h2]
    omega
  | clear =>
    simp only [Accounted, step, net_nil]
    constructor
    · intro h
      cases l with
      | nil => rfl
      | cons a t => have := h a; simp at this; omega
    · rintro rfl; simp
  | reverse =>
    simp [Accounted, step, net_nil]

/-- Every step of the run is an accounted one. -/
def AllAccounted : List α → List (Op α) → Prop
  | _, [] => True
  | l, o :: os => Accounted l o ∧ AllAccounted (step l o).items os

/-- **C25.** Over any sequence of accounted operations, for every object the number of
'new' events minus the number of 'del' events is the change in its multiplicity.  Excluded: `del l[i]`,
`clear`, and slice assignments that repeat a replaced item more often than it was there
(`C25_step_iff` shows these always break the claim; `C25_refuted` gives witnesses). -/
theorem C25_reconcile (l : List α) (ops : List (Op α)) (h : AllAccounted l ops) (x : α) :
    net (run l ops).2.2 x = ((run l ops).1.count x : Int) - l.count x := by
  induction ops generalizing l with
  | nil => simp [run, net_nil]
  | cons o os ih =>
    have h1 := (C25_step_iff l o).2 h.1 x
    have h2 := ih _ h.2
    simp only [run, net_append]
    omega

/-- Witnesses against the full C25 claim: `del l[i]`, `clear()` and a duplicating slice assignment. -/
theorem C25_refuted :
    (∃ x, net (run [1, 2] [.delItem 0]).2.2 x ≠ (((run [1, 2] [.delItem 0]).1.count x : Nat) : Int) - ([1,2] : List Nat).count x) ∧
    (∃ x, net (run [1, 2] [.clear]).2.2 x ≠ (((run [1, 2] [.clear]).1.count x : Nat) : Int) - ([1,2] : List Nat).count x) ∧
    (∃ x, net (run [1, 2] [.setSlice {} [1, 1]]).2.2 x
      ≠ (((run [1, 2] [.setSlice {} [1, 1]]).1.count x : Nat) : Int) - ([1,2] : List Nat).count x) := by
  refine ⟨⟨1, by decide⟩, ⟨1, by decide⟩, ⟨1, by decide⟩⟩

/-- Every announcement comes in a pair — the list's own event about a child, then the child's event
about its parent — and a 'new' event is sent when the child is already in the list. -/
def Paired : List (Ev α) → Prop
  | [] => True
  | a :: b :: rest =>
    ((a.sig = .new ∧ b.sig = .added ∧ a.child ∈ a.seen) ∨ (a.sig = .del ∧ b.sig = .removed))
      ∧ a.child = b.child ∧ a.seen = b.seen ∧ Paired rest
  | [_] => False

omit [DecidableEq α] in
theorem paired_append (a b : List (Ev α)) (ha : Paired a) (hb : Paired b) : Paired (a ++ b) := by
  match a, ha with
  | [], _ => simpa
  | x :: y :: rest, h =>
    simp only [Paired] at h
    simp only [List.cons_append, Paired]
    exact ⟨h.1, h.2.1, h.2.2.1, paired_append rest b h.2.2.2 hb⟩

omit [DecidableEq α] in
theorem paired_added (cur : List α) (v : α) (h : v ∈ cur) : Paired (sendAdded cur v) := by
  simp [sendAdded, Paired, h]
omit [DecidableEq α] in
theorem paired_removed (cur : List α) (v : α) : Paired (sendRemoved cur v) := by
  simp [sendRemoved, Paired]
omit [DecidableEq α] in
theorem paired_flatRemoved (cur vs : List α) : Paired (vs.flatMap (sendRemoved cur)) := by
  induction vs with
  | nil => simp [Paired]
  | cons v vs ih => rw [List.flatMap_cons]; exact paired_append _ _ (paired_removed _ _) ih

theorem sliceLoop_paired (seen currents : List α) : ∀ (vs prev : List α), (∀ v ∈ vs, v ∉ currents → v ∈ seen) →
    Paired (sliceLoop seen currents vs prev).1 := by
  intro vs
  induction vs with
  | nil => intro prev _; simp [sliceLoop, Paired]
  | cons v vs ih =>
    intro prev h
    unfold sliceLoop
    split
    · exact ih _ (fun w hw => h w (by simp [hw]))
    · exact paired_append _ _ (paired_added _ _ (h v (by simp) ‹_›)) (ih _ (fun w hw => h w (by simp [hw])))

theorem step_paired (l : List α) (o : Op α) : Paired (step l o).events := by
  have hset : ∀ s vs, Paired (setSlice l s vs).events := by
    intro s vs
    simp only [setSlice]
    rcases hg : getSlice l s with e | prev
    · simp [Paired]
    · rcases hs : PyList.setSlice l s vs with e | l'
      · simp [Paired]
      · refine paired_append _ _ (sliceLoop_paired _ _ _ _ ?_) (paired_flatRemoved _ _)
        intro v hv hnp
        have := count_setSlice hg hs v
        have h1 := List.count_pos_iff.2 hv
        have h2 := List.count_eq_zero_of_not_mem hnp
        exact List.count_pos_iff.1 (by omega)
  cases o with
  | append v => exact paired_added _ _ (by simp)
  | insert i v =>
    refine paired_added _ _ ?_
    have hle : insertIdx l.length i ≤ l.length := by
      unfold insertIdx; simp only; split <;> split <;> (try split) <;> omega
    exact (List.perm_insertIdx v l hle).mem_iff.2 (by simp)
  | pop i =>
    simp only [step, pop]
    rcases PyList.pop l _ with e | ⟨l', v⟩
    · simp [Paired]
    · exact paired_removed _ _
  | remove v =>
    simp only [step, remove]
    rcases PyList.remove l v with e | l'
    · simp [Paired]
    · exact paired_removed _ _
  | delSlice s =>
    simp only [step, delSlice]
    rcases getSlice l s with e | cur
    · simp [Paired]
    · rcases PyList.delSlice l s with e | l' <;> exact paired_flatRemoved _ _
  | delItem i =>
    simp only [step, delItem]
    rcases getItem l i with e | v
    · simp [Paired]
    · exact paired_removed _ _
  | setSlice s vs => exact hset s vs
  | setItem i v =>
    simp only [step, setItem]
    rcases hg : getItem l i with e | cur
    · simp [Paired]
    · obtain ⟨k, hk, hn, hc⟩ := mem_of_getItem hg
      simp only [PyList.setItem, hn]
      split
      · simp [Paired]
      · exact paired_append _ _ (paired_removed _ _) (paired_added _ _ (List.mem_set hk v))
  | extend vs => exact hset _ vs
  | clear => simp [step, Paired]
  | reverse => simp [step, Paired]

/-- **C25 (pairing).** In every history, with no exception, events come in parent/child pairs and a
'new' event is only sent once the child is in the list. -/
theorem C25_events_paired (l : List α) (ops : List (Op α)) : Paired (run l ops).2.2 := by
  induction ops generalizing l with
  | nil => simp [run, Paired]
  | cons o os ih => exact paired_append _ _ (step_paired l o) (ih _)

-- non-vacuity of C25_reconcile: duplicates, slices, replacement
example : AllAccounted [1, 2, 2] ([.setSlice {} [2, 2, 3, 3], .append 1, .delSlice { start := some 1 }, .reverse,
    .setItem 0 8] : List (Op Nat)) ∧
    net (run [1, 2, 2] ([.setSlice {} [2, 2, 3, 3], .append 1, .delSlice { start := some 1 }, .reverse,
    .setItem 0 8] : List (Op Nat))).2.2 2 = -2 := by
  refine ⟨⟨?_, trivial, trivial, trivial, trivial, trivial⟩, by decide⟩
  intro prev l' h1 h2 x hx
  have : getSlice [1, 2, 2] {} = .ok [1, 2, 2] := by rfl
  rw [this] at h1; injection h1 with h1; subst h1
  simp only [List.mem_cons, List.not_mem_nil, or_false] at hx
  rcases hx with rfl | rfl | rfl <;> decide

/-! ### C26 -/

/-- **C26.** The list object itself is extended as a plain list is: the previous items
followed by the new ones, each new item announced once. Excluded: what the attribute refers to afterwards,
see `C26_refuted_rebind`. -/
theorem C26_extend_contents (l vs : List α) :
    (extend l vs).items = l ++ vs ∧ (extend l vs).err = none ∧
    ∀ x, net (extend l vs).events x = vs.count x := by
  have h := step_plain l (.extend vs) (by simp [IsDelItem])
  simp only [plainStep] at h
  refine ⟨h.2, h.1, ?_⟩
  intro x
  have h3 := (C25_step_iff l (.extend vs)).2 trivial x
  rw [h.2] at h3
  simp only [step] at h3
  rw [h3, List.count_append]; omega

/-- The full C26 claim is false for every list: after `x.f += vs` the attribute no longer holds the
observable list, and unless the list was empty it does not hold the previous items either. -/
theorem C26_refuted_rebind (l vs : List α) :
    (iaddAttr l vs).2.2 = false ∧ ((iaddAttr l vs).2.1 = l ++ vs ↔ l = []) := by
  simp [iaddAttr, extendResult]

end Verif.OList
