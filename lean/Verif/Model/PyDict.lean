/-
Python `dict` as an insertion-ordered association list.
Models the operations the repository uses on plain dictionaries:
`d.get(k)`, `d[k] = v`, `del d[k]`, `d.update(items)`, `d.values()`
(e.g. /repo/vrml/protofunctions.py:162-175, /repo/vrml/vrml97/scenegraph.py:87-105).
Keys are compared with decidable equality (Python `==`/`hash` on strings).
-/
namespace Verif.PyDict

/-- An insertion ordered dictionary (CPython >= 3.7 `dict`). -/
abbrev Dict (κ ν : Type _) := List (κ × ν)

variable {κ ν : Type _} [DecidableEq κ]

/-- `d.get(k)`. -/
def get? : Dict κ ν → κ → Option ν
  | [], _ => none
  | (k', v) :: d, k => if k' = k then some v else get? d k

/-- `d[k] = v`: overwrite in place, else append at the end. -/
def set : Dict κ ν → κ → ν → Dict κ ν
  | [], k, v => [(k, v)]
  | (k', v') :: d, k, v => if k' = k then (k', v) :: d else (k', v') :: set d k v

/-- `del d[k]` (no-op here when absent; callers test presence first). -/
def erase (d : Dict κ ν) (k : κ) : Dict κ ν := d.filter (fun p => decide (p.1 ≠ k))

/-- `d.update(e)` for a sequence of pairs. -/
def update (d : Dict κ ν) (e : List (κ × ν)) : Dict κ ν := e.foldl (fun d p => set d p.1 p.2) d

/-- `list(d.values())`. -/
def values (d : Dict κ ν) : List ν := d.map Prod.snd

/-- keys in insertion order. -/
def keys (d : Dict κ ν) : List κ := d.map Prod.fst

theorem get?_set (d : Dict κ ν) (k k' : κ) (v : ν) :
    get? (set d k v) k' = if k = k' then some v else get? d k' := by
  induction d with
  | nil => simp [set, get?]
  | cons p d ih =>
    obtain ⟨a, b⟩ := p
    by_cases h : a = k
    · subst h
      by_cases h' : a = k' <;> simp [set, get?, h']
    · by_cases h' : a = k'
      · subst h'
        have : ¬ k = a := fun e => h e.symm
        simp [set, get?, h, this]
      · simp [set, get?, h, h', ih]

theorem get?_erase (d : Dict κ ν) (k k' : κ) :
    get? (erase d k) k' = if k = k' then none else get? d k' := by
  induction d with
  | nil => simp [erase, get?]
  | cons p d ih =>
    obtain ⟨a, b⟩ := p
    unfold erase at ih ⊢
    by_cases h : a = k
    · subst h
      by_cases h' : a = k'
      · simp [get?, h'] at ih ⊢; exact ih
      · simp [get?, h'] at ih ⊢; exact ih
    · by_cases h' : a = k'
      · subst h'
        have : ¬ k = a := fun e => h e.symm
        simp [h, get?, this]
      · simp [h, get?, h'] at ih ⊢; exact ih

theorem mem_keys_set (d : Dict κ ν) (k : κ) (v : ν) (x : κ) :
    x ∈ keys (set d k v) ↔ x = k ∨ x ∈ keys d := by
  induction d with
  | nil => simp [set, keys]
  | cons p d ih =>
    obtain ⟨a, b⟩ := p
    by_cases h : a = k
    · subst h; simp [set, keys]
    · simp only [set, h, if_false, keys, List.map_cons, List.mem_cons] at ih ⊢
      rw [ih]; constructor <;> (intro h; rcases h with h | h | h <;> simp [h])

theorem nodup_set (d : Dict κ ν) (k : κ) (v : ν) (h : (keys d).Nodup) :
    (keys (set d k v)).Nodup := by
  induction d with
  | nil => simp [set, keys]
  | cons p d ih =>
    obtain ⟨a, b⟩ := p
    simp only [keys, List.map_cons, List.nodup_cons] at h
    by_cases hk : a = k
    · subst hk; simpa [set, keys] using h
    · simp only [set, hk, if_false, keys, List.map_cons, List.nodup_cons]
      refine ⟨?_, ih h.2⟩
      intro hm
      rcases (mem_keys_set d k v a).1 hm with e | e
      · exact hk e
      · exact h.1 e

theorem nodup_update (d : Dict κ ν) (e : List (κ × ν)) (h : (keys d).Nodup) :
    (keys (update d e)).Nodup := by
  induction e generalizing d with
  | nil => simpa [update]
  | cons p e ih => exact ih _ (nodup_set d p.1 p.2 h)

theorem get?_none (d : Dict κ ν) (k : κ) : get? d k = none ↔ k ∉ keys d := by
  induction d with
  | nil => simp [get?, keys]
  | cons p d ih =>
    obtain ⟨a, b⟩ := p
    by_cases h : a = k
    · subst h; simp [get?, keys]
    · simp only [get?, h, if_false, ih, keys, List.map_cons, List.mem_cons, not_or]
      constructor
      · exact fun x => ⟨fun e => h e.symm, x⟩
      · exact fun x => x.2

theorem get?_mem (d : Dict κ ν) (k : κ) (v : ν) (h : get? d k = some v) : (k, v) ∈ d := by
  induction d with
  | nil => simp [get?] at h
  | cons p d ih =>
    obtain ⟨a, b⟩ := p
    by_cases hk : a = k
    · subst hk; simp [get?] at h; simp [h]
    · simp [get?, hk] at h; exact List.mem_cons_of_mem _ (ih h)

theorem get?_of_mem (d : Dict κ ν) (hn : (keys d).Nodup) (k : κ) (v : ν) (h : (k, v) ∈ d) :
    get? d k = some v := by
  induction d with
  | nil => simp at h
  | cons p d ih =>
    obtain ⟨a, b⟩ := p
    simp only [keys, List.map_cons, List.nodup_cons] at hn
    rcases List.mem_cons.1 h with e | e
    · cases e; simp [get?]
    · have : a ≠ k := by
        rintro rfl
        exact hn.1 (List.mem_map.2 ⟨_, e, rfl⟩)
      simp [get?, this, ih hn.2 e]

/-- last binding of `k` in a list of pairs wins in `update`. -/
theorem get?_update (d : Dict κ ν) (e : List (κ × ν)) (k : κ) :
    get? (update d e) k = (get? e.reverse k).or (get? d k) := by
  induction e generalizing d with
  | nil => simp [update, get?]
  | cons p e ih =>
    have step : update d (p :: e) = update (set d p.1 p.2) e := rfl
    rw [step, ih, get?_set]
    have app : ∀ (l : Dict κ ν), get? (l ++ [p]) k
        = (get? l k).or (if p.1 = k then some p.2 else none) := by
      intro l
      induction l with
      | nil => simp [get?]
      | cons q l ih =>
        obtain ⟨a, b⟩ := q
        by_cases h : a = k <;> simp [get?, h, ih]
    rw [List.reverse_cons, app]
    by_cases h : p.1 = k <;> simp [h]

theorem get?_reverse (d : Dict κ ν) (hn : (keys d).Nodup) (k : κ) :
    get? d.reverse k = get? d k := by
  have hr : (keys d.reverse).Nodup := by
    simp only [keys, List.map_reverse]
    exact List.pairwise_reverse.2 (List.Pairwise.imp Ne.symm hn)
  cases h : get? d k with
  | none =>
    rw [get?_none] at h ⊢
    simpa [keys] using h
  | some v => exact get?_of_mem _ hr _ _ (by simpa using get?_mem _ _ _ h)

end Verif.PyDict
