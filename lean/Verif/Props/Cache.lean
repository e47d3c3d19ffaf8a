import Verif.Model.Cache
/-!
C30, C31, C32, C33 – the per-node data cache (vrml/cache.py), for every history of allocations, deaths, holder
creations, data updates, dependencies, notifications and removals.
-/
namespace Verif.Cache
variable {K D : Type} [DecidableEq K]

/-! ### Dictionary lemmas -/

theorem dget_dset (m : List (K × Hid)) (k k' : K) (h : Hid) : dget (dset m k h) k' = if k' = k then some h else dget m k' := by
  unfold dget dset
  by_cases hk : k' = k
  · subst hk; simp
  · rw [if_neg hk]
    have hk' : ¬ k = k' := fun e => hk e.symm
    simp only [List.find?_cons, beq_iff_eq, hk', beq_eq_false_iff_ne.2 hk']
    congr 1
    induction m with
    | nil => rfl
    | cons p m ih =>
      simp only [List.filter_cons]
      by_cases hp : p.1 = k
      · have : ¬ p.1 = k' := fun e => hk (e.symm.trans hp)
        simp [hp, ih, List.find?_cons, beq_eq_false_iff_ne.2 hk']
      · simp only [beq_eq_false_iff_ne.2 hp, Bool.not_false, if_true, List.find?_cons, ih]

theorem dget_ddel (m : List (K × Hid)) (k k' : K) : dget (ddel m k) k' = if k' = k then none else dget m k' := by
  unfold dget ddel
  by_cases hk : k' = k
  · subst hk
    simp only [if_true, Option.map_eq_none_iff, List.find?_eq_none, List.mem_filter]
    rintro p ⟨_, hp⟩; simpa using hp
  · rw [if_neg hk]
    congr 1
    induction m with
    | nil => rfl
    | cons p m ih =>
      simp only [List.filter_cons]
      by_cases hp : p.1 = k
      · have hk' : ¬ k = k' := fun e => hk e.symm
        simp [hp, ih, List.find?_cons, beq_eq_false_iff_ne.2 hk']
      · simp only [beq_eq_false_iff_ne.2 hp, Bool.not_false, if_true, List.find?_cons, ih]

theorem dget_mem {m : List (K × Hid)} {k : K} {h : Hid} (e : dget m k = some h) : (k, h) ∈ m := by
  unfold dget at e
  rcases hf : m.find? (fun p => p.1 == k) with _ | p
  · simp [hf] at e
  · simp only [hf, Option.map_some] at e
    injection e with e
    have h1 := List.find?_some hf
    have h2 := List.mem_of_find?_eq_some hf
    simp only [beq_iff_eq] at h1
    obtain ⟨a, b⟩ := p
    simp only at h1 e; subst h1; subst e; exact h2

/-! ### Holder table lemmas -/

theorem holder?_setHolder (s : St K D) (h h' : Hid) (x : Holder K D) :
    (s.setHolder h x).holder? h' = if h' = h ∧ h < s.holders.length then some x else s.holder? h' := by
  unfold St.setHolder St.holder?
  simp only [List.getElem?_set]
  by_cases hh : h = h'
  · subst hh
    by_cases hl : h < s.holders.length
    · simp [hl]
    · simp [hl]
  · have : ¬ h' = h := fun e => hh e.symm
    simp [hh, this]

theorem holder?_lt {s : St K D} {h : Hid} {x : Holder K D} (e : s.holder? h = some x) : h < s.holders.length := by
  unfold St.holder? at e
  rcases hl : s.holders[h]? with _ | y
  · simp [hl] at e
  · exact (List.getElem?_eq_some_iff.1 hl).1

/-! ### The invariant -/

/-- Living objects have different addresses, and each dictionary in the cache belongs to one living object: all its
holders are alive, were made for that object and are filed under their own key. -/
structure Inv (s : St K D) : Prop where
  addr : ∀ (i j : Oid) (x y : Obj), s.objs[i]? = some x → s.objs[j]? = some y → x.alive = true → y.alive = true → x.addr = y.addr → i = j
  own : ∀ a m, s.cache a = some m → ∃ (o : Oid) (x : Obj), s.objs[o]? = some x ∧ x.alive = true ∧ x.addr = a ∧
    ∀ p ∈ m, ∃ y, s.holder? p.2 = some y ∧ y.client = o ∧ y.key = p.1
  ne : ∀ a m, s.cache a = some m → m ≠ []

/-- The entry for a living client is a holder made for exactly that client and key. -/
theorem Inv.getHolder_own {s : St K D} (hI : Inv s) {c : Oid} {k : K} {h : Hid} (hc : s.alive c = true)
    (e : s.getHolder c k = some h) : ∃ y, s.holder? h = some y ∧ y.client = c ∧ y.key = k := by
  unfold St.alive at hc
  unfold St.getHolder at e
  rcases ho : s.objs[c]? with _ | x
  · simp [ho] at e
  · simp only [ho] at e hc
    rcases hm : s.cache x.addr with _ | m
    · simp [hm] at e
    · simp only [hm] at e
      obtain ⟨o, x', h1, h2, h3, h4⟩ := hI.own _ _ hm
      have : c = o := hI.addr c o x x' ho h1 hc h2 h3.symm
      subst this
      exact h4 _ (dget_mem e)

/-- What a holder call, a clear, or a series of them with holders `T`, may change. -/
structure Shrink (T : Hid → Prop) (s s' : St K D) : Prop where
  objs : s'.objs = s.objs
  conns : s'.conns = s.conns
  len : s'.holders.length = s.holders.length
  inv : Inv s → Inv s'
  ids : ∀ h y, s.holder? h = some y → ∃ y', s'.holder? h = some y' ∧ y'.client = y.client ∧ y'.key = y.key ∧
    (y'.data = y.data ∨ y'.data = none) ∧ (¬ T h → y' = y)
  new : ∀ h, s.holder? h = none → s'.holder? h = none
  get : Inv s → ∀ c k, s.alive c = true → s'.getHolder c k = s.getHolder c k ∨ s'.getHolder c k = none
  frame : Inv s → ∀ c k, s.alive c = true → (∀ h y, T h → s.holder? h = some y → ¬ (y.client = c ∧ y.key = k)) →
    s'.getHolder c k = s.getHolder c k

theorem Shrink.alive {T : Hid → Prop} {s s' : St K D} (h : Shrink T s s') (c : Oid) : s'.alive c = s.alive c := by
  unfold St.alive; rw [h.objs]

theorem Shrink.refl (T : Hid → Prop) (s : St K D) : Shrink T s s where
  objs := rfl
  conns := rfl
  len := rfl
  inv := id
  ids := fun h y e => ⟨y, e, rfl, rfl, .inl rfl, fun _ => rfl⟩
  new := fun _ e => e
  get := fun _ _ _ _ => .inl rfl
  frame := fun _ _ _ _ _ => rfl

theorem Shrink.trans {T : Hid → Prop} {s s1 s2 : St K D} (a : Shrink T s s1) (b : Shrink T s1 s2) : Shrink T s s2 where
  objs := b.objs.trans a.objs
  conns := b.conns.trans a.conns
  len := b.len.trans a.len
  inv := b.inv ∘ a.inv
  ids := fun h y e => by
    obtain ⟨y1, e1, c1, k1, d1, f1⟩ := a.ids h y e
    obtain ⟨y2, e2, c2, k2, d2, f2⟩ := b.ids h y1 e1
    refine ⟨y2, e2, c2.trans c1, k2.trans k1, ?_, fun hn => (f2 hn).trans (f1 hn)⟩
    rcases d2 with d2 | d2
    · rw [d2]; exact d1
    · exact .inr d2
  new := fun h e => b.new h (a.new h e)
  get := fun hI c k hc => by
    rcases b.get (a.inv hI) c k (a.alive c ▸ hc) with h | h
    · rw [h]; exact a.get hI c k hc
    · exact .inr h
  frame := fun hI c k hc hT => by
    rw [b.frame (a.inv hI) c k (a.alive c ▸ hc), a.frame hI c k hc hT]
    intro h y1 hTh e1
    rcases e : s.holder? h with _ | y
    · rw [a.new h e] at e1; cases e1
    · obtain ⟨y1', e1', c1, k1, _⟩ := a.ids h y e
      rw [e1] at e1'; injection e1' with e1'; subst e1'
      rw [c1, k1]; exact hT h y hTh e

theorem Shrink.mono {T T' : Hid → Prop} {s s' : St K D} (hTT : ∀ h, T h → T' h) (a : Shrink T s s') : Shrink T' s s' where
  objs := a.objs
  conns := a.conns
  len := a.len
  inv := a.inv
  ids := fun h y e => by
    obtain ⟨y1, e1, c1, k1, d1, f1⟩ := a.ids h y e
    exact ⟨y1, e1, c1, k1, d1, fun hn => f1 (fun hT => hn (hTT h hT))⟩
  new := a.new
  get := a.get
  frame := fun hI c k hc hT => a.frame hI c k hc (fun h y hTh => hT h y (hTT h hTh))

/-- Updating a holder's data or dependency list. -/
theorem Inv.setHolder {s : St K D} (hI : Inv s) {h : Hid} {x x' : Holder K D} (e : s.holder? h = some x)
    (hc : x'.client = x.client) (hk : x'.key = x.key) : Inv (s.setHolder h x') := by
  refine ⟨hI.addr, ?_, hI.ne⟩
  intro a m hm
  obtain ⟨o, z, h1, h2, h3, h4⟩ := hI.own a m hm
  refine ⟨o, z, h1, h2, h3, fun p hp => ?_⟩
  obtain ⟨y, e1, e2, e3⟩ := h4 p hp
  rw [holder?_setHolder]
  by_cases hp : p.2 = h
  · rw [if_pos ⟨hp, holder?_lt e⟩]
    rw [hp, e] at e1; injection e1 with e1; subst e1
    exact ⟨x', rfl, hc.trans e2, hk.trans e3⟩
  · rw [if_neg (fun hh => hp hh.1)]
    exact ⟨y, e1, e2, e3⟩

theorem shrink_setHolder {s : St K D} {h : Hid} {x x' : Holder K D} (e : s.holder? h = some x)
    (hc : x'.client = x.client) (hk : x'.key = x.key) (hd : x'.data = none) : Shrink (· = h) s (s.setHolder h x') where
  objs := rfl
  conns := rfl
  len := by simp [St.setHolder]
  inv := fun hI => hI.setHolder e hc hk
  ids := fun h' y e' => by
    rw [holder?_setHolder]
    by_cases hh : h' = h
    · rw [if_pos ⟨hh, holder?_lt e⟩]
      rw [hh, e] at e'; injection e' with e'; subst e'
      exact ⟨x', rfl, hc, hk, .inr hd, fun hn => absurd hh hn⟩
    · rw [if_neg (fun k => hh k.1)]
      exact ⟨y, e', rfl, rfl, .inl rfl, fun _ => rfl⟩
  new := fun h' e' => by
    rw [holder?_setHolder, if_neg]
    · exact e'
    · rintro ⟨rfl, _⟩; rw [e] at e'; cases e'
  get := fun _ _ _ _ => .inl rfl
  frame := fun _ _ _ _ _ => rfl

/-- Deleting one key from a living object's dictionary. -/
def delEntry (s : St K D) (a : Addr) (m : List (K × Hid)) (k : K) : St K D :=
  { s with cache := fun b => if b = a then (if (ddel m k).isEmpty then none else some (ddel m k)) else s.cache b }

theorem getHolder_delEntry {s : St K D} {a : Addr} {m : List (K × Hid)} {k : K} (hm : s.cache a = some m) (c : Oid) (k' : K) :
    (delEntry s a m k).getHolder c k' =
      if (∃ x, s.objs[c]? = some x ∧ x.addr = a) ∧ k' = k then none else s.getHolder c k' := by
  unfold St.getHolder delEntry
  simp only
  rcases ho : s.objs[c]? with _ | x
  · simp
  · by_cases ha : x.addr = a
    · have hex : (∃ x', some x = some x' ∧ x'.addr = a) := ⟨x, rfl, ha⟩
      simp only [ha, if_true, hm]
      by_cases hemp : (ddel m k).isEmpty = true
      · have hd := dget_ddel m k k'
        rw [List.isEmpty_iff.1 hemp] at hd
        by_cases hk : k' = k
        · simp [hemp, hk, ha]
        · rw [if_neg hk] at hd; simp only [hemp, if_true, hk, and_false, if_false, ← hd]; rfl
      · by_cases hk : k' = k
        · simp [hemp, hk, dget_ddel, ha]
        · simp [hemp, hk, dget_ddel]
    · have hex : ¬ ∃ x', x = x' ∧ x'.addr = a := by rintro ⟨_, rfl, h⟩; exact ha h
      simp [ha]

theorem shrink_call (s : St K D) (h : Hid) : Shrink (· = h) s (call s h) := by
  unfold call
  rcases e : s.holder? h with _ | x
  · exact Shrink.refl _ s
  simp only
  rcases ho : s.objs[x.client]? with _ | o
  · exact Shrink.refl _ s
  simp only
  by_cases hal : o.alive = true
  · simp only [hal, if_true]
    have e1 := shrink_setHolder (x' := { x with data := none }) e rfl rfl rfl
    rcases hm : (s.setHolder h { x with data := none }).cache o.addr with _ | m
    · exact e1
    simp only
    rcases hg : dget m x.key with _ | h'
    · exact e1
    simp only
    refine e1.trans ?_
    generalize hs1 : s.setHolder h { x with data := none } = s1 at *
    have ho1 : s1.objs[x.client]? = some o := by rw [e1.objs]; exact ho
    have eh1 : s1.holder? h = some { x with data := none } := by
      rw [← hs1, holder?_setHolder, if_pos ⟨rfl, holder?_lt e⟩]
    have e2 : Shrink (· = h) s1 (delEntry s1 o.addr m x.key) := {
      objs := rfl
      conns := rfl
      len := rfl
      inv := fun hI => by
        refine ⟨hI.addr, ?own, ?ne⟩
        case ne =>
          intro a m' hm'
          simp only [delEntry] at hm'
          split at hm'
          · split at hm'
            · cases hm'
            · rename_i hemp
              injection hm' with hm'; subst hm'
              simpa using hemp
          · exact hI.ne a m' hm'
        intro a m' hm'
        simp only [delEntry] at hm'
        by_cases ha : a = o.addr
        · subst ha
          simp only [if_true] at hm'
          split at hm'
          · cases hm'
          · injection hm' with hm'; subst hm'
            obtain ⟨c, z, h1, h2, h3, h4⟩ := hI.own _ _ hm
            exact ⟨c, z, h1, h2, h3, fun p hp => h4 p (List.mem_filter.1 hp).1⟩
        · simp only [ha, if_false] at hm'
          exact hI.own a m' hm'
      ids := fun h y e => ⟨y, e, rfl, rfl, .inl rfl, fun _ => rfl⟩
      new := fun _ e => e
      get := fun _ c k _ => by rw [getHolder_delEntry hm]; split <;> simp
      frame := fun hI c k hc hT => by
        rw [getHolder_delEntry hm, if_neg]
        rintro ⟨⟨z, hz, hza⟩, rfl⟩
        refine hT h _ rfl eh1 ⟨?_, rfl⟩
        have hz1 : z.alive = true := by simpa [St.alive, hz] using hc
        exact hI.addr _ _ o z ho1 hz hal hz1 hza.symm }
    exact e2.trans (shrink_setHolder (s := delEntry s1 o.addr m x.key) (x := { x with data := none }) eh1 rfl rfl rfl)
  · simp only [hal]; exact Shrink.refl _ s

theorem shrink_clear (s : St K D) (h : Hid) : Shrink (· = h) s (clear s h) := by
  unfold clear
  rcases e : s.holder? h with _ | x
  · exact Shrink.refl _ s
  simp only
  rcases ho : s.objs[x.client]? with _ | o
  · exact Shrink.refl _ s
  simp only
  by_cases ht : (o.alive && o.truthy) = true
  · simp only [ht, if_true]; exact shrink_setHolder e rfl rfl rfl
  · simp only [ht]; exact shrink_call s h

theorem shrink_fold (f : St K D → Hid → St K D) (hf : ∀ s h, Shrink (· = h) s (f s h)) :
    ∀ (l : List Hid) (s : St K D), Shrink (· ∈ l) s (l.foldl f s) := by
  intro l
  induction l with
  | nil => intro s; exact Shrink.refl _ s
  | cons h l ih =>
    intro s
    exact ((hf s h).mono (by rintro _ rfl; simp)).trans ((ih (f s h)).mono (by intro h hh; simp [hh]))

/-- A missing value stays missing. -/
theorem Shrink.none {T : Hid → Prop} {s s' : St K D} (a : Shrink T s s') (hI : Inv s) {c : Oid} {k : K} (hc : s.alive c = true)
    (hn : s.getData c k = none) : s'.getData c k = none := by
  unfold St.getData at hn ⊢
  rcases a.get hI c k hc with h | h
  · rw [h]
    rcases hg : s.getHolder c k with _ | h0
    · rfl
    · simp only [hg] at hn ⊢
      rcases e : s.holder? h0 with _ | y
      · rw [a.new h0 e]
      · obtain ⟨y', e', _, _, d, _⟩ := a.ids h0 y e
        simp only [e] at hn
        simp only [e']
        rcases d with d | d
        · rw [d, hn]
        · exact d
  · rw [h]

/-- A client and key no affected holder belongs to keep their data. -/
theorem Shrink.data_frame {T : Hid → Prop} {s s' : St K D} (a : Shrink T s s') (hI : Inv s) {c : Oid} {k : K}
    (hc : s.alive c = true) (hT : ∀ h y, T h → s.holder? h = some y → ¬ (y.client = c ∧ y.key = k)) :
    s'.getHolder c k = s.getHolder c k ∧ s'.getData c k = s.getData c k := by
  have hg := a.frame hI c k hc hT
  refine ⟨hg, ?_⟩
  unfold St.getData
  rw [hg]
  rcases hh : s.getHolder c k with _ | h0
  · rfl
  · simp only
    obtain ⟨y, e, e1, e2⟩ := hI.getHolder_own hc hh
    obtain ⟨y', e', _, _, _, f⟩ := a.ids h0 y e
    rw [e, e', f (fun hTh => hT h0 y hTh e ⟨e1, e2⟩)]

/-! ### The invariant holds in every reachable state -/

theorem Inv.init : Inv (St.init : St K D) := ⟨by simp [St.init], by simp [St.init], by simp [St.init]⟩

theorem inv_newHolder {s : St K D} (hI : Inv s) (c : Oid) (k : K) (d : Option D) : Inv (newHolder s c k d) := by
  unfold newHolder
  rcases ho : s.objs[c]? with _ | o
  · exact hI
  simp only
  by_cases hal : o.alive = true
  · simp only [hal, if_true]
    refine ⟨hI.addr, ?own, ?ne⟩
    case ne =>
      intro a m hm
      simp only at hm
      split at hm
      · injection hm with hm; subst hm; simp [dset]
      · exact hI.ne a m hm
    have hold : ∀ h y, s.holder? h = some y → ((s.holders ++ [some ⟨c, k, d, []⟩])[h]?).join = some y := by
      intro h y e
      rw [List.getElem?_append_left (holder?_lt e)]; exact e
    intro a m hm
    simp only at hm
    by_cases ha : a = o.addr
    · subst ha
      simp only [if_true] at hm
      injection hm with hm; subst hm
      refine ⟨c, o, ho, hal, rfl, fun p hp => ?_⟩
      simp only [dset, List.mem_cons] at hp
      rcases hp with rfl | hp
      · refine ⟨⟨c, k, d, []⟩, ?_, rfl, rfl⟩
        simp [St.holder?]
      · have hp := (List.mem_filter.1 hp).1
        rcases hm : s.cache o.addr with _ | m
        · simp [hm] at hp
        · simp only [hm, Option.getD_some] at hp
          obtain ⟨o', x', h1, h2, h3, h4⟩ := hI.own _ _ hm
          have : c = o' := hI.addr _ _ _ _ ho h1 hal h2 h3.symm
          subst this
          obtain ⟨y, e, e1, e2⟩ := h4 p hp
          exact ⟨y, hold _ _ e, e1, e2⟩
    · simp only [ha, if_false] at hm
      obtain ⟨o', x', h1, h2, h3, h4⟩ := hI.own _ _ hm
      refine ⟨o', x', h1, h2, h3, fun p hp => ?_⟩
      obtain ⟨y, e, e1, e2⟩ := h4 p hp
      exact ⟨y, hold _ _ e, e1, e2⟩
  · simp only [hal]; exact hI

/-- The state right after an object's death, before its watchers are called. -/
def dieCore (s : St K D) (o : Oid) (x : Obj) : St K D :=
  let s1 := { s with objs := s.objs.set o { x with alive := false } }
  if s.holders.any (fun h => match h with | some y => y.client == o | none => false) then clean s1 x.addr else s1

theorem objs_set_alive {s : St K D} {o : Oid} {x : Obj} (ho : s.objs[o]? = some x) (i : Oid) (z : Obj)
    (h : (s.objs.set o { x with alive := false })[i]? = some z) (hz : z.alive = true) : i ≠ o ∧ s.objs[i]? = some z := by
  rw [List.getElem?_set] at h
  by_cases hi : o = i
  · subst hi
    have hl : o < s.objs.length := (List.getElem?_eq_some_iff.1 ho).1
    simp [hl] at h; subst h; simp at hz
  · simp only [hi, if_false] at h
    exact ⟨fun e => hi e.symm, h⟩

theorem inv_dieCore {s : St K D} (hI : Inv s) {o : Oid} {x : Obj} (ho : s.objs[o]? = some x) (hal : x.alive = true) :
    Inv (dieCore s o x) := by
  have haddr : ∀ (i j : Oid) (z y : Obj), (s.objs.set o { x with alive := false })[i]? = some z → (s.objs.set o { x with alive := false })[j]? = some y →
      z.alive = true → y.alive = true → z.addr = y.addr → i = j := by
    intro i j z y hi hj hz hy
    exact hI.addr i j z y (objs_set_alive ho i z hi hz).2 (objs_set_alive ho j y hj hy).2 hz hy
  have key : ∀ a m, s.cache a = some m → a ≠ x.addr → ∃ (o' : Oid) (z : Obj), (s.objs.set o { x with alive := false })[o']? = some z ∧ z.alive = true ∧
      z.addr = a ∧ ∀ p ∈ m, ∃ y, s.holder? p.2 = some y ∧ y.client = o' ∧ y.key = p.1 := by
    intro a m hm ha
    obtain ⟨o', z, h1, h2, h3, h4⟩ := hI.own a m hm
    refine ⟨o', z, ?_, h2, h3, h4⟩
    rw [List.getElem?_set]
    by_cases hoo : o = o'
    · subst hoo; rw [ho] at h1; injection h1 with h1; subst h1; exact absurd h3.symm ha
    · simp [hoo, h1]
  unfold dieCore
  by_cases hany : s.holders.any (fun h => match h with | some y => y.client == o | none => false) = true
  · simp only [hany, if_true]
    refine ⟨haddr, ?own, ?ne⟩
    case ne =>
      intro a m hm
      simp only [clean] at hm
      split at hm
      · cases hm
      · exact hI.ne a m hm
    intro a m hm
    simp only [clean] at hm
    by_cases ha : a = x.addr
    · simp [ha] at hm
    · simp only [ha, if_false] at hm
      exact key a m hm ha
  · simp only [hany]
    refine ⟨haddr, ?_, hI.ne⟩
    intro a m hm
    by_cases ha : a = x.addr
    · -- no holder belongs to o, so its dictionary has no entries
      obtain ⟨o', z, h1, h2, h3, h4⟩ := hI.own a m hm
      have hoo : o = o' := hI.addr _ _ _ _ ho h1 hal h2 (by rw [h3, ha])
      subst hoo
      cases m with
      | nil => exact absurd rfl (hI.ne a [] hm)
      | cons p m =>
        obtain ⟨y, e, e1, _⟩ := h4 p (by simp)
        exfalso; apply hany
        rw [List.any_eq_true]
        refine ⟨some y, ?_, by simp [e1]⟩
        unfold St.holder? at e
        rcases hl : s.holders[p.2]? with _ | w
        · simp [hl] at e
        · simp only [hl, Option.join_some] at e; subst e
          exact List.mem_of_getElem? hl
    · exact key a m hm ha


theorem alive_iff {s : St K D} {c : Oid} : s.alive c = true ↔ ∃ x, s.objs[c]? = some x ∧ x.alive = true := by
  unfold St.alive
  rcases s.objs[c]? with _ | x <;> simp

theorem step_die {s : St K D} {o : Oid} {x : Obj} (ho : s.objs[o]? = some x) (hal : x.alive = true) :
    step s (.die o) = ((dieCore s o x).watching (.obj o)).foldl call (dieCore s o x) := by
  simp only [step, ho, hal, if_true, dieCore]; rfl

/-- The state right after a holder was freed, before its watchers are called. -/
def releaseCore (s : St K D) (h : Hid) : St K D := { s with holders := s.holders.set h none }

theorem holder?_release (s : St K D) (h h' : Hid) :
    (releaseCore s h).holder? h' = if h' = h then none else s.holder? h' := by
  unfold releaseCore St.holder?
  simp only [List.getElem?_set]
  by_cases hh : h = h'
  · subst hh
    by_cases hl : h < s.holders.length <;> simp [hl]
  · have : ¬ h' = h := fun e => hh e.symm
    simp [hh, this]

theorem not_stored {s : St K D} (hI : Inv s) {h : Hid} (hs : ¬ s.stored h = true) {a : Addr} {m : List (K × Hid)}
    (hm : s.cache a = some m) {p : K × Hid} (hp : p ∈ m) : p.2 ≠ h := by
  rintro rfl
  apply hs
  obtain ⟨o, x, h1, _, h3, _⟩ := hI.own a m hm
  unfold St.stored
  rw [List.any_eq_true]
  refine ⟨x, List.mem_of_getElem? h1, ?_⟩
  simp only [h3, hm, List.any_eq_true]
  exact ⟨p, hp, by simp⟩

theorem inv_release {s : St K D} (hI : Inv s) {h : Hid} (hs : ¬ s.stored h = true) : Inv (releaseCore s h) := by
  refine ⟨hI.addr, ?_, hI.ne⟩
  intro a m hm
  obtain ⟨o, x, h1, h2, h3, h4⟩ := hI.own a m hm
  refine ⟨o, x, h1, h2, h3, fun p hp => ?_⟩
  rw [holder?_release, if_neg (not_stored hI hs hm hp)]
  exact h4 p hp

theorem inv_step {s : St K D} (hI : Inv s) (o : Op K D) : Inv (step s o) := by
  cases o with
  | alloc a t =>
    simp only [step]
    split
    · exact hI
    · rename_i hfree
      have hlive : ∀ (i : Oid) (x : Obj), s.objs[i]? = some x → x.alive = true → x.addr ≠ a := by
        intro i x hx hal ha
        apply hfree
        rw [List.any_eq_true]
        exact ⟨x, List.mem_of_getElem? hx, by simp [hal, ha]⟩
      have hget : ∀ (i : Oid) (x : Obj), (s.objs ++ [(⟨a, true, t⟩ : Obj)])[i]? = some x →
          s.objs[i]? = some x ∨ (i = s.objs.length ∧ x = ⟨a, true, t⟩) := by
        intro i x hx
        rw [List.getElem?_append] at hx
        split at hx
        · exact .inl hx
        · have hi := (List.getElem?_eq_some_iff.1 hx).1
          simp at hi
          rename_i hge
          have : i = s.objs.length := Nat.le_antisymm (Nat.le_of_sub_eq_zero hi) (Nat.le_of_not_lt hge)
          subst this
          simp at hx
          exact .inr ⟨rfl, hx.symm⟩
      refine ⟨?_, ?_, hI.ne⟩
      · intro i j x y hi hj hx hy hxy
        rcases hget i x hi with h1 | ⟨h1, rfl⟩ <;> rcases hget j y hj with h2 | ⟨h2, rfl⟩
        · exact hI.addr i j x y h1 h2 hx hy hxy
        · exact absurd hxy (hlive i x h1 hx)
        · exact absurd hxy.symm (hlive j y h2 hy)
        · rw [h1, h2]
      · intro b m hm
        obtain ⟨o, x, h1, h⟩ := hI.own b m hm
        refine ⟨o, x, ?_, h⟩
        have := (List.getElem?_eq_some_iff.1 h1).1
        simp only
        rw [List.getElem?_append_left this]; exact h1
  | setTruthy o b =>
    simp only [step]
    rcases ho : s.objs[o]? with _ | x
    · exact hI
    · simp only
      have hl := (List.getElem?_eq_some_iff.1 ho).1
      have hget : ∀ (i : Oid) (z : Obj), (s.objs.set o { x with truthy := b })[i]? = some z →
          ∃ z', s.objs[i]? = some z' ∧ z'.alive = z.alive ∧ z'.addr = z.addr := by
        intro i z hz
        rw [List.getElem?_set] at hz
        split at hz
        · subst_vars
          injection hz with hz; subst hz
          exact ⟨x, ho, rfl, rfl⟩
        · exact ⟨z, hz, rfl, rfl⟩
      refine ⟨?_, ?_, hI.ne⟩
      · intro i j z y hi hj hz hy hzy
        obtain ⟨z', h1, h2, h3⟩ := hget i z hi
        obtain ⟨y', k1, k2, k3⟩ := hget j y hj
        exact hI.addr i j z' y' h1 k1 (h2.trans hz) (k2.trans hy) (by rw [h3, k3, hzy])
      · intro a m hm
        obtain ⟨o', z, h1, h2, h3, h4⟩ := hI.own a m hm
        by_cases hoo : o = o'
        · subst hoo
          rw [ho] at h1; injection h1 with h1; subst h1
          exact ⟨o, { x with truthy := b }, by simp [hl], h2, h3, h4⟩
        · exact ⟨o', z, by simp [hoo, h1], h2, h3, h4⟩
  | newHolder c k d => exact inv_newHolder hI c k d
  | setData h d =>
    simp only [step]
    rcases e : s.holder? h with _ | x
    · exact hI
    · exact hI.setHolder e rfl rfl
  | depend h n f =>
    simp only [step]
    rcases e : s.holder? h with _ | x
    · exact hI
    · simp only
      split
      · exact ⟨hI.addr, hI.own, hI.ne⟩
      · exact hI
  | dependObj h r =>
    simp only [step]
    rcases e : s.holder? h with _ | x
    · exact hI
    · exact hI.setHolder e rfl rfl
  | fire n f =>
    simp only [step]
    split
    · exact (shrink_fold clear shrink_clear _ s).inv hI
    · exact hI
  | call h => exact (shrink_call s h).inv hI
  | die o =>
    rcases ho : s.objs[o]? with _ | x
    · simp only [step, ho]; exact hI
    · by_cases hal : x.alive = true
      · rw [step_die ho hal]
        exact (shrink_fold call shrink_call _ _).inv (inv_dieCore hI ho hal)
      · simp only [step, ho, hal]; exact hI
  | release h =>
    simp only [step]
    rcases e : s.holder? h with _ | x
    · exact hI
    · simp only
      split
      · exact hI
      · rename_i hs
        exact (shrink_fold call shrink_call _ _).inv (inv_release hI hs)

theorem run_append (a b : List (Op K D)) : run (a ++ b) = b.foldl step (run a) := by
  simp [run, List.foldl_append]

theorem inv_run (ops : List (Op K D)) : Inv (run ops) := by
  suffices ∀ s : St K D, Inv s → Inv (ops.foldl step s) from this _ Inv.init
  induction ops with
  | nil => intro s hs; exact hs
  | cons o ops ih => intro s hs; exact ih _ (inv_step hs o)

/-! ### Specification vocabulary -/

/-- Operation `o`, performed in state `s`, concerns the cached data of client `c` under key `k`: it creates a holder
for them, sets the data of their holder, removes a holder of theirs, is a change of a field some holder of theirs
depends on, or is the death of an object (or holder) some holder of theirs depends on – or of `c` itself. -/
def Touches (s : St K D) (c : Oid) (k : K) : Op K D → Prop
  | .alloc _ _ => False
  | .setTruthy _ _ => False
  | .newHolder c' k' _ => c' = c ∧ k' = k
  | .setData h _ => s.getHolder c k = some h
  | .depend _ _ _ => False
  | .dependObj _ _ => False
  | .fire n f => ∃ h y, ((n, f), h) ∈ s.conns ∧ s.holder? h = some y ∧ y.client = c ∧ y.key = k
  | .call h => ∃ y, s.holder? h = some y ∧ y.client = c ∧ y.key = k
  | .die o => o = c ∨ ∃ h y, s.holder? h = some y ∧ Ref.obj o ∈ y.nodeDeps ∧ y.client = c ∧ y.key = k
  | .release h' => ∃ h y, s.holder? h = some y ∧ Ref.holder h' ∈ y.nodeDeps ∧ y.client = c ∧ y.key = k

/-- No operation of the history `ops`, started in `s`, concerns `c` under `k`. -/
def Untouched (c : Oid) (k : K) : St K D → List (Op K D) → Prop
  | _, [] => True
  | s, o :: ops => ¬ Touches s c k o ∧ Untouched c k (step s o) ops

/-! ### C30 -/

theorem frame_core {s s' : St K D} {c : Oid} {k : K} (hg : s'.getHolder c k = s.getHolder c k)
    (hd : ∀ h, s.getHolder c k = some h → s'.holder? h = s.holder? h) :
    s'.getHolder c k = s.getHolder c k ∧ s'.getData c k = s.getData c k := by
  refine ⟨hg, ?_⟩
  unfold St.getData
  rw [hg]
  rcases hh : s.getHolder c k with _ | h
  · rfl
  · simp only [hd h hh]

theorem watching_mem {s : St K D} {r : Ref} {h : Hid} (hm : h ∈ s.watching r) :
    ∃ y, s.holder? h = some y ∧ r ∈ y.nodeDeps := by
  unfold St.watching at hm
  have := (List.mem_filter.1 hm).2
  rcases e : s.holder? h with _ | y
  · simp [e] at this
  · simp only [e, decide_eq_true_eq] at this
    exact ⟨y, rfl, this⟩

/-- The frame property for one step from any state satisfying the invariant. -/
theorem frame_step {s : St K D} (hI : Inv s) (o : Op K D) (c : Oid) (k : K) (hc : s.alive c = true)
    (ht : ¬ Touches s c k o) :
    (step s o).alive c = true ∧ (step s o).getHolder c k = s.getHolder c k ∧ (step s o).getData c k = s.getData c k := by
  obtain ⟨x, hx, hxa⟩ := alive_iff.1 hc
  have hxl := (List.getElem?_eq_some_iff.1 hx).1
  cases o with
  | alloc a t =>
    simp only [step]
    split
    · exact ⟨hc, rfl, rfl⟩
    · have hob : (s.objs ++ [(⟨a, true, t⟩ : Obj)])[c]? = some x := by rw [List.getElem?_append_left hxl]; exact hx
      refine ⟨alive_iff.2 ⟨x, hob, hxa⟩, ?_⟩
      apply frame_core
      · simp only [St.getHolder, hob, hx]
      · intro h _; rfl
  | setTruthy o b =>
    simp only [step]
    rcases ho : s.objs[o]? with _ | z
    · exact ⟨hc, rfl, rfl⟩
    · simp only
      have hob : ∃ x', (s.objs.set o { z with truthy := b })[c]? = some x' ∧ x'.addr = x.addr ∧ x'.alive = x.alive := by
        rw [List.getElem?_set]
        split
        · subst_vars
          rw [ho] at hx; injection hx with hx; subst hx
          exact ⟨_, if_pos hxl, rfl, rfl⟩
        · exact ⟨x, hx, rfl, rfl⟩
      obtain ⟨x', h1, h2, h3⟩ := hob
      refine ⟨alive_iff.2 ⟨x', h1, h3.trans hxa⟩, ?_⟩
      apply frame_core
      · simp only [St.getHolder, h1, hx, h2]
      · intro h _; rfl
  | newHolder c' k' d =>
    simp only [step, newHolder]
    rcases ho : s.objs[c']? with _ | o
    · exact ⟨hc, rfl, rfl⟩
    · simp only
      by_cases hal : o.alive = true
      · simp only [hal, if_true]
        refine ⟨hc, ?_⟩
        apply frame_core
        · simp only [St.getHolder, hx]
          by_cases ha : x.addr = o.addr
          · have hcc : c = c' := hI.addr _ _ _ _ hx ho hxa hal ha
            have hkk : ¬ k = k' := fun e => ht ⟨hcc.symm, e.symm⟩
            simp only [ha, if_true, dget_dset, hkk, if_false]
            rcases s.cache o.addr with _ | m <;> simp [dget]
          · simp only [ha, if_false]
        · intro h hh
          obtain ⟨y, e, _⟩ := hI.getHolder_own hc hh
          simp only [St.holder?]
          rw [List.getElem?_append_left (holder?_lt e)]
      · simp only [hal]; exact ⟨hc, rfl, rfl⟩
  | setData h d =>
    simp only [step]
    rcases e : s.holder? h with _ | y
    · exact ⟨hc, rfl, rfl⟩
    · refine ⟨hc, ?_⟩
      apply frame_core
      · rfl
      · intro h' hh'
        rw [holder?_setHolder, if_neg]
        rintro ⟨rfl, _⟩; exact ht hh'
  | depend h n f =>
    simp only [step]
    rcases e : s.holder? h with _ | y
    · exact ⟨hc, rfl, rfl⟩
    · simp only
      split <;> exact ⟨hc, rfl, rfl⟩
  | dependObj h r =>
    simp only [step]
    rcases e : s.holder? h with _ | y
    · exact ⟨hc, rfl, rfl⟩
    · refine ⟨hc, rfl, ?_⟩
      simp only [St.getData]
      have : (s.setHolder h { y with nodeDeps := y.nodeDeps ++ [r] }).getHolder c k = s.getHolder c k := rfl
      rw [this]
      rcases s.getHolder c k with _ | h'
      · rfl
      · simp only [holder?_setHolder]
        by_cases hh : h' = h
        · subst hh; simp [holder?_lt e, e]
        · simp [hh]
  | fire n f =>
    simp only [step]
    split
    · have hs := shrink_fold clear shrink_clear ((s.conns.filter (fun c => c.1 == (n, f))).map Prod.snd) s
      refine ⟨by rw [hs.alive]; exact hc, ?_⟩
      apply hs.data_frame hI hc
      rintro h y hm e ⟨e1, e2⟩
      obtain ⟨⟨a, b⟩, hab, rfl⟩ := List.mem_map.1 hm
      obtain ⟨h1, h2⟩ := List.mem_filter.1 hab
      simp only [beq_iff_eq] at h2; subst h2
      exact ht ⟨b, y, h1, e, e1, e2⟩
    · exact ⟨hc, rfl, rfl⟩
  | call h =>
    have hs := shrink_call s h
    refine ⟨by simp only [step]; rw [hs.alive]; exact hc, ?_⟩
    apply hs.data_frame hI hc
    rintro h' y rfl e ⟨e1, e2⟩
    exact ht ⟨y, e, e1, e2⟩
  | die o =>
    rcases ho : s.objs[o]? with _ | z
    · simp [step, ho, hc]
    · by_cases hal : z.alive = true
      · rw [step_die ho hal]
        have hoc : o ≠ c := fun e => ht (.inl e)
        have hI1 := inv_dieCore hI ho hal
        have hobjs : (dieCore s o z).objs = s.objs.set o { z with alive := false } := by
          unfold dieCore; dsimp only; split <;> rfl
        have hhol : ∀ h, (dieCore s o z).holder? h = s.holder? h := by
          intro h; unfold dieCore; dsimp only; split <;> rfl
        have hx1 : (dieCore s o z).objs[c]? = some x := by
          rw [hobjs, List.getElem?_set, if_neg hoc]; exact hx
        have hc1 : (dieCore s o z).alive c = true := alive_iff.2 ⟨x, hx1, hxa⟩
        have hg1 : (dieCore s o z).getHolder c k = s.getHolder c k := by
          have haz : x.addr ≠ z.addr := fun e => hoc (hI.addr _ _ _ _ ho hx hal hxa e.symm)
          have hca : (dieCore s o z).cache x.addr = s.cache x.addr := by
            unfold dieCore; dsimp only; split
            · simp [clean, haz]
            · rfl
          simp only [St.getHolder, hx1, hx, hca]
        have hs := shrink_fold call shrink_call ((dieCore s o z).watching (.obj o)) (dieCore s o z)
        refine ⟨by rw [hs.alive]; exact hc1, ?_⟩
        have h1 := frame_core (s := s) (s' := dieCore s o z) (c := c) (k := k) hg1 (fun h _ => hhol h)
        have h2 := hs.data_frame hI1 (c := c) (k := k) hc1 (by
          rintro h y hm e ⟨e1, e2⟩
          obtain ⟨y', e', hd⟩ := watching_mem hm
          rw [e] at e'; injection e' with e'; subst e'
          rw [hhol] at e
          exact ht (.inr ⟨h, y, e, hd, e1, e2⟩))
        exact ⟨h2.1.trans h1.1, h2.2.trans h1.2⟩
      · simp [step, ho, hal, hc]
  | release h' =>
    simp only [step]
    rcases e : s.holder? h' with _ | y'
    · exact ⟨hc, rfl, rfl⟩
    · simp only
      split
      · exact ⟨hc, rfl, rfl⟩
      · rename_i hst
        have hI1 := inv_release hI hst
        have hc1 : (releaseCore s h').alive c = true := hc
        have hs := shrink_fold call shrink_call ((releaseCore s h').watching (.holder h')) (releaseCore s h')
        refine ⟨(hs.alive c).trans hc1, ?_⟩
        have h1 := frame_core (s := s) (s' := releaseCore s h') (c := c) (k := k) rfl (fun h hh => by
          rw [holder?_release, if_neg]
          simp only [St.getHolder, hx] at hh
          rcases hm : s.cache x.addr with _ | m
          · simp [hm] at hh
          · simp only [hm] at hh
            exact not_stored hI hst hm (dget_mem hh))
        have h2 := hs.data_frame hI1 (c := c) (k := k) hc1 (by
          rintro h y hm e ⟨e1, e2⟩
          obtain ⟨y', e', hd⟩ := watching_mem hm
          rw [e] at e'; injection e' with e'; subst e'
          rw [holder?_release] at e
          split at e
          · cases e
          · exact ht ⟨h, y, e, hd, e1, e2⟩)
        exact ⟨h2.1.trans h1.1, h2.2.trans h1.2⟩

/-- **C30 (frame).** In every reachable state, an operation that does not concern client `c` and key `k` leaves the
client alive and leaves its holder and data under that key exactly as they were. -/
theorem C30_frame (pre : List (Op K D)) (o : Op K D) (c : Oid) (k : K) (hc : (run pre).alive c = true)
    (ht : ¬ Touches (run pre) c k o) :
    (step (run pre) o).alive c = true ∧
    (step (run pre) o).getHolder c k = (run pre).getHolder c k ∧
    (step (run pre) o).getData c k = (run pre).getData c k :=
  frame_step (inv_run pre) o c k hc ht

theorem untouched_run (c : Oid) (k : K) : ∀ (post pre : List (Op K D)), (run pre).alive c = true →
    Untouched c k (run pre) post →
    (run (pre ++ post)).alive c = true ∧ (run (pre ++ post)).getHolder c k = (run pre).getHolder c k ∧
    (run (pre ++ post)).getData c k = (run pre).getData c k := by
  intro post
  induction post with
  | nil => intro pre hc _; simp [hc]
  | cons o post ih =>
    intro pre hc hu
    obtain ⟨h1, h2, h3⟩ := C30_frame pre o c k hc hu.1
    have hrun : run (pre ++ [o]) = step (run pre) o := by rw [run_append]; rfl
    obtain ⟨k1, k2, k3⟩ := ih (pre ++ [o]) (by rw [hrun]; exact h1) (by rw [hrun]; exact hu.2)
    rw [List.append_assoc] at k1 k2 k3
    exact ⟨k1, by rw [← h2, ← hrun]; exact k2, by rw [← h3, ← hrun]; exact k3⟩

theorem newHolder_get (s : St K D) (c : Oid) (k : K) (d : Option D) (hc : s.alive c = true) :
    (newHolder s c k d).alive c = true ∧ (newHolder s c k d).getHolder c k = some s.holders.length ∧
    (newHolder s c k d).getData c k = d := by
  obtain ⟨x, hx, hxa⟩ := alive_iff.1 hc
  have h1 : (newHolder s c k d).getHolder c k = some s.holders.length := by
    simp [newHolder, hx, hxa, St.getHolder, dget_dset]
  refine ⟨?_, h1, ?_⟩
  · simp only [newHolder, hx, hxa, if_true]; exact hc
  · unfold St.getData
    rw [h1]
    simp [newHolder, hx, hxa, St.holder?]

/-- **C30.** After any history, creating a holder for a living client and key and then doing anything that does not
concern that client and key (spelled out in `Touches`), `getData` returns the data given to that holder. -/
theorem C30_latest (pre post : List (Op K D)) (c : Oid) (k : K) (d : Option D) (hc : (run pre).alive c = true)
    (hu : Untouched c k (step (run pre) (.newHolder c k d)) post) :
    (run (pre ++ .newHolder c k d :: post)).getData c k = d := by
  obtain ⟨h1, h2, h3⟩ := newHolder_get (run pre) c k d hc
  have hrun : run (pre ++ [.newHolder c k d]) = newHolder (run pre) c k d := by rw [run_append]; rfl
  have := (untouched_run c k post (pre ++ [.newHolder c k d]) (by rw [hrun]; exact h1) (by rw [hrun]; exact hu)).2.2
  rw [List.append_assoc] at this
  simpa [hrun, h3] using this

/-- **C30 (data set later).** Setting the data of the current holder is what `getData` returns afterwards. -/
theorem C30_latest_set (pre post : List (Op K D)) (c : Oid) (k : K) (h : Hid) (d : Option D) (hc : (run pre).alive c = true)
    (hh : (run pre).getHolder c k = some h) (hu : Untouched c k (step (run pre) (.setData h d)) post) :
    (run (pre ++ .setData h d :: post)).getData c k = d := by
  obtain ⟨y, e, _⟩ := (inv_run pre).getHolder_own hc hh
  have hstep : step (run pre) (.setData h d) = (run pre).setHolder h { y with data := d } := by simp only [step, e]
  have hrun : run (pre ++ [.setData h d]) = step (run pre) (.setData h d) := by rw [run_append]; rfl
  have h1 : (step (run pre) (.setData h d)).getData c k = d := by
    rw [hstep]
    have : ((run pre).setHolder h { y with data := d }).getHolder c k = some h := hh
    simp only [St.getData, this, holder?_setHolder, true_and, holder?_lt e, if_true]
  have := (untouched_run c k post (pre ++ [.setData h d]) (by rw [hrun, hstep]; exact hc) (by rw [hrun]; exact hu)).2.2
  rw [List.append_assoc] at this
  simpa [hrun, h1] using this

/-! ### C31 -/

theorem call_own {s : St K D} (hI : Inv s) {h : Hid} {c : Oid} {k : K} (hc : s.alive c = true)
    (hh : s.getHolder c k = some h) : (call s h).getHolder c k = none := by
  obtain ⟨y, e, e1, e2⟩ := hI.getHolder_own hc hh
  obtain ⟨x, hx, hxa⟩ := alive_iff.1 hc
  subst e1; subst e2
  unfold call
  simp only [e, hx, hxa, if_true]
  have hg := hh
  simp only [St.getHolder, hx] at hg
  rcases hm : s.cache x.addr with _ | m
  · simp [hm] at hg
  · have hm' : (s.setHolder h { y with data := none }).cache x.addr = some m := hm
    simp only [hm] at hg
    simp only [hm', hg]
    have : (delEntry (s.setHolder h { y with data := none }) x.addr m y.key).getHolder y.client y.key = none := by
      rw [getHolder_delEntry hm', if_pos ⟨⟨x, hx, rfl⟩, rfl⟩]
    exact this

theorem fold_clear_none {c : Oid} {k : K} {h : Hid} : ∀ (l : List Hid) (s : St K D), Inv s → s.alive c = true → h ∈ l →
    s.getHolder c k = some h → (l.foldl clear s).getData c k = none := by
  intro l
  induction l with
  | nil => intro s _ _ hm; simp at hm
  | cons a l ih =>
    intro s hI hc hm hg
    have hs := shrink_clear s a
    have hc' : (clear s a).alive c = true := by rw [hs.alive]; exact hc
    have hrest := shrink_fold clear shrink_clear l (clear s a)
    simp only [List.foldl_cons]
    by_cases ha : a = h
    · -- this call itself empties the entry
      subst ha
      apply hrest.none (hs.inv hI) hc'
      obtain ⟨y, e, e1, e2⟩ := hI.getHolder_own hc hg
      obtain ⟨x, hx, hxa⟩ := alive_iff.1 hc
      have hset : ∀ (z : Holder K D) (t : St K D), z.data = none → t.getHolder c k = some a → a < t.holders.length →
          (t.setHolder a z).getData c k = none := by
        intro z t hz ht hl
        have : (t.setHolder a z).getHolder c k = some a := ht
        simp only [St.getData, this, holder?_setHolder, true_and, hl, if_true, hz]
      unfold clear
      subst e1
      simp only [e, hx]
      split
      · exact hset _ _ rfl hg (holder?_lt e)
      · have := call_own hI hc hg
        simp [St.getData, this]
    · rcases hs.get hI c k hc with h1 | h1
      · exact ih _ (hs.inv hI) hc' (by rcases List.mem_cons.1 hm with e | e; exact absurd e.symm ha; exact e) (h1.trans hg)
      · exact hrest.none (hs.inv hI) hc' (by simp [St.getData, h1])

theorem conns_step (s : St K D) (o : Op K D) (x : (Oid × Nat) × Hid) (h : x ∈ s.conns) : x ∈ (step s o).conns := by
  cases o with
  | alloc a t => simp only [step]; split <;> exact h
  | setTruthy o b => simp only [step]; split <;> exact h
  | newHolder c k d => simp only [step, newHolder]; split; split; exact h; exact h; exact h
  | setData h' d => simp only [step]; split <;> exact h
  | depend h' n f =>
    simp only [step]; split
    · split
      · simp [h]
      · exact h
    · exact h
  | dependObj h' r => simp only [step]; split <;> exact h
  | fire n f =>
    simp only [step]; split
    · rw [(shrink_fold clear shrink_clear _ s).conns]; exact h
    · exact h
  | call h' => simp only [step]; rw [(shrink_call s h').conns]; exact h
  | die o =>
    simp only [step]; split
    · exact h
    · split
      · rw [(shrink_fold call shrink_call _ _).conns]; split <;> exact h
      · exact h
  | release h' =>
    simp only [step]; split
    · exact h
    · split
      · exact h
      · rw [(shrink_fold call shrink_call _ _).conns]; exact h

theorem alive_step {s : St K D} {o : Op K D} {c : Oid} (hl : c < s.objs.length) (h : (step s o).alive c = true) :
    s.alive c = true := by
  cases o with
  | alloc a t =>
    simp only [step] at h; split at h
    · exact h
    · obtain ⟨x, hx, hxa⟩ := alive_iff.1 h
      rw [List.getElem?_append_left hl] at hx
      exact alive_iff.2 ⟨x, hx, hxa⟩
  | setTruthy o b =>
    simp only [step] at h; split at h
    · rename_i x ho
      obtain ⟨z, hz, hza⟩ := alive_iff.1 h
      rw [List.getElem?_set] at hz
      split at hz
      · subst_vars
        rw [if_pos hl] at hz; injection hz with hz; subst hz
        exact alive_iff.2 ⟨x, ho, hza⟩
      · exact alive_iff.2 ⟨z, hz, hza⟩
    · exact h
  | newHolder c' k d => simp only [step, newHolder] at h; split at h; split at h; exact h; exact h; exact h
  | setData h' d => simp only [step] at h; split at h <;> exact h
  | depend h' n f => simp only [step] at h; split at h; split at h <;> exact h; exact h
  | dependObj h' r => simp only [step] at h; split at h <;> exact h
  | fire n f =>
    simp only [step] at h; split at h
    · rw [(shrink_fold clear shrink_clear _ s).alive] at h; exact h
    · exact h
  | call h' => simp only [step] at h; rw [(shrink_call s h').alive] at h; exact h
  | die o =>
    simp only [step] at h; split at h
    · exact h
    · rename_i x ho
      split at h
      · rename_i hal
        rw [(shrink_fold call shrink_call _ _).alive] at h
        have h' : St.alive { s with objs := s.objs.set o { x with alive := false } } c = true := by
          split at h <;> exact h
        obtain ⟨z, hz, hza⟩ := alive_iff.1 h'
        exact alive_iff.2 ⟨z, (objs_set_alive ho c z hz hza).2, hza⟩
      · exact h
  | release h' =>
    simp only [step] at h; split at h
    · exact h
    · split at h
      · exact h
      · rw [(shrink_fold call shrink_call _ _).alive] at h; exact h

theorem foldl_conns (ops : List (Op K D)) : ∀ (s : St K D) (x), x ∈ s.conns → x ∈ (ops.foldl step s).conns := by
  induction ops with
  | nil => intro s x h; exact h
  | cons o ops ih => intro s x h; exact ih _ x (conns_step s o x h)

/-- **C31.** Once a living holder has been made to depend on a field of a living node, then as long as the holder is
the current one for its client and key, any later set, deletion or routed update of that field (`fire`) makes
`getData` return None, whatever happened in between. -/
theorem C31_invalidates (pre mid : List (Op K D)) (h : Hid) (n : Oid) (f : Nat) (c : Oid) (k : K)
    (h0 : (run pre).holder? h ≠ none) (hn0 : (run pre).alive n = true)
    (hn : (run (pre ++ .depend h n f :: mid)).alive n = true)
    (hc : (run (pre ++ .depend h n f :: mid)).alive c = true)
    (hh : (run (pre ++ .depend h n f :: mid)).getHolder c k = some h) :
    (run (pre ++ .depend h n f :: mid ++ [.fire n f])).getData c k = none := by
  have hconn : ((n, f), h) ∈ (run (pre ++ .depend h n f :: mid)).conns := by
    rw [run_append, List.foldl_cons]
    apply foldl_conns
    rcases e : (run pre).holder? h with _ | y
    · exact absurd e h0
    · simp [step, e, hn0]
  rw [run_append _ [.fire n f]]
  have hI := inv_run (pre ++ .depend h n f :: mid)
  generalize run (pre ++ .depend h n f :: mid) = s at *
  simp only [List.foldl_cons, List.foldl_nil, step, hn, if_true]
  apply fold_clear_none _ s hI hc _ hh
  exact List.mem_map.2 ⟨((n, f), h), List.mem_filter.2 ⟨hconn, by simp⟩, rfl⟩

theorem Shrink.data_some {T : Hid → Prop} {s s' : St K D} (a : Shrink T s s') (hI : Inv s) {c : Oid} {k : K}
    (hc : s.alive c = true) :
    (∀ h, s'.getHolder c k = some h → s.getHolder c k = some h) ∧ (∀ d, s'.getData c k = some d → s.getData c k = some d) := by
  have hget : ∀ h, s'.getHolder c k = some h → s.getHolder c k = some h := by
    intro h hh
    rcases a.get hI c k hc with e | e
    · rw [← e]; exact hh
    · rw [hh] at e; cases e
  refine ⟨hget, fun d hd => ?_⟩
  unfold St.getData at hd ⊢
  rcases hh : s'.getHolder c k with _ | h
  · simp [hh] at hd
  · simp only [hh] at hd
    rw [hget h hh]
    simp only
    rcases e : s.holder? h with _ | y
    · rw [a.new h e] at hd; simp at hd
    · obtain ⟨y', e', _, _, dd, _⟩ := a.ids h y e
      simp only [e'] at hd
      simp only
      rcases dd with dd | dd
      · rw [← dd]; exact hd
      · rw [dd] at hd; cases hd

/-- A step other than creating a holder for `(c, k)` or setting the data of their holder never adds a holder or
data for them. -/
theorem weaken_step {s : St K D} (hI : Inv s) (o : Op K D) (c : Oid) (k : K) (hc : s.alive c = true)
    (hc' : (step s o).alive c = true) (hnew : ∀ d, o ≠ .newHolder c k d)
    (hset : ∀ h d, o = .setData h d → s.getHolder c k ≠ some h) :
    (∀ h, (step s o).getHolder c k = some h → s.getHolder c k = some h) ∧
    (∀ d, (step s o).getData c k = some d → s.getData c k = some d) := by
  by_cases ht : Touches s c k o
  · cases o with
    | alloc a t => exact ht.elim
    | setTruthy o b => exact ht.elim
    | newHolder c' k' d => obtain ⟨rfl, rfl⟩ := ht; exact absurd rfl (hnew d)
    | setData h d => exact absurd ht (hset h d rfl)
    | depend h n f => exact ht.elim
    | dependObj h r => exact ht.elim
    | fire n f =>
      simp only [step]
      split
      · exact (shrink_fold clear shrink_clear _ s).data_some hI hc
      · exact ⟨fun _ h => h, fun _ h => h⟩
    | call h => exact (shrink_call s h).data_some hI hc
    | die o =>
      rcases ho : s.objs[o]? with _ | z
      · simp only [step, ho]; exact ⟨fun _ h => h, fun _ h => h⟩
      · by_cases hal : z.alive = true
        · rw [step_die ho hal] at hc' ⊢
          have hsh := shrink_fold call shrink_call ((dieCore s o z).watching (.obj o)) (dieCore s o z)
          rw [hsh.alive] at hc'
          obtain ⟨x, hx, hxa⟩ := alive_iff.1 hc'
          have hobjs : (dieCore s o z).objs = s.objs.set o { z with alive := false } := by
            unfold dieCore; dsimp only; split <;> rfl
          have hhol : ∀ h, (dieCore s o z).holder? h = s.holder? h := by
            intro h; unfold dieCore; dsimp only; split <;> rfl
          have hx' := hx
          rw [hobjs] at hx'
          obtain ⟨hco, hx0⟩ := objs_set_alive ho c x hx' hxa
          have haz : x.addr ≠ z.addr := fun e => hco (hI.addr _ _ _ _ hx0 ho hxa hal e)
          have hca : (dieCore s o z).cache x.addr = s.cache x.addr := by
            unfold dieCore; dsimp only; split
            · simp [clean, haz]
            · rfl
          have hg : (dieCore s o z).getHolder c k = s.getHolder c k := by simp only [St.getHolder, hx, hx0, hca]
          have h1 := frame_core hg (fun h _ => hhol h)
          have h2 := hsh.data_some (inv_dieCore hI ho hal) (k := k) hc'
          rw [h1.1, h1.2] at h2
          exact h2
        · simp only [step, ho, hal]; exact ⟨fun _ h => h, fun _ h => h⟩
    | release h' =>
      simp only [step]
      rcases e : s.holder? h' with _ | y'
      · exact ⟨fun _ h => h, fun _ h => h⟩
      · simp only
        split
        · exact ⟨fun _ h => h, fun _ h => h⟩
        · rename_i hst
          have hsh := shrink_fold call shrink_call ((releaseCore s h').watching (.holder h')) (releaseCore s h')
          obtain ⟨h1, h2⟩ := hsh.data_some (inv_release hI hst) (c := c) (k := k) hc
          refine ⟨h1, fun d hd => ?_⟩
          have hd := h2 d hd
          unfold St.getData at hd ⊢
          have hg : (releaseCore s h').getHolder c k = s.getHolder c k := rfl
          rw [hg] at hd
          rcases hh : s.getHolder c k with _ | h
          · simp [hh] at hd
          · simp only [hh] at hd ⊢
            rw [holder?_release] at hd
            by_cases hhh : h = h'
            · simp [hhh] at hd
            · simpa [hhh] using hd
  · obtain ⟨_, h2, h3⟩ := frame_step hI o c k hc ht
    rw [h2, h3]; exact ⟨fun _ h => h, fun _ h => h⟩

/-- **C31 (until new data is stored).** Once missing, the data stays missing under every operation except creating a
holder for that client and key or setting the data of their holder. -/
theorem C31_stays_invalid (pre : List (Op K D)) (o : Op K D) (c : Oid) (k : K) (hc : (run pre).alive c = true)
    (hc' : (step (run pre) o).alive c = true)
    (hn : (run pre).getData c k = none)
    (hnew : ∀ d, o ≠ .newHolder c k d) (hset : ∀ h d, o = .setData h d → (run pre).getHolder c k ≠ some h) :
    (step (run pre) o).getData c k = none := by
  rcases e : (step (run pre) o).getData c k with _ | d
  · rfl
  · have := (weaken_step (inv_run pre) o c k hc hc' hnew hset).2 d e
    rw [hn] at this; cases this

/-- **C31 (nothing else).** A change of a field no holder of client `c`, key `k` depends on leaves their data alone. -/
theorem C31_other_fields (pre : List (Op K D)) (n : Oid) (f : Nat) (c : Oid) (k : K) (hc : (run pre).alive c = true)
    (hnone : ∀ h y, ((n, f), h) ∈ (run pre).conns → (run pre).holder? h = some y → ¬ (y.client = c ∧ y.key = k)) :
    (step (run pre) (.fire n f)).getData c k = (run pre).getData c k :=
  (C30_frame pre (.fire n f) c k hc (by rintro ⟨h, y, h1, h2, h3, h4⟩; exact hnone h y h1 h2 ⟨h3, h4⟩)).2.2

/-- **C31 (dropped).** A holder that removed the entry of its client and key no longer watches any object: the deaths of the
objects it depended on do not reach it, so they do not disturb the holder stored later under the same client and key. -/
theorem C31_dropped_watches_nothing (pre : List (Op K D)) (h h0 : Hid) (y : Holder K D) (e : (run pre).holder? h = some y) (hc : (run pre).alive y.client = true)
    (hh : (run pre).getHolder y.client y.key = some h0) (r : Ref) : h ∉ (step (run pre) (.call h)).watching r := by
  generalize run pre = s at *
  obtain ⟨o, ho, hal⟩ : ∃ o, s.objs[y.client]? = some o ∧ o.alive = true := by
    unfold St.alive at hc
    cases ho : s.objs[y.client]? with
    | none => simp [ho] at hc
    | some o => simp only [ho] at hc; exact ⟨o, rfl, hc⟩
  obtain ⟨m, hm, hd⟩ : ∃ m, s.cache o.addr = some m ∧ dget m y.key = some h0 := by
    unfold St.getHolder at hh
    simp only [ho] at hh
    cases hm : s.cache o.addr with
    | none => simp [hm] at hh
    | some m => simp only [hm] at hh; exact ⟨m, rfl, hh⟩
  have hlt := holder?_lt e
  have hx : (step s (.call h)).holder? h = some { y with data := none, nodeDeps := [] } := by
    have hm' : (s.setHolder h { y with data := none }).cache o.addr = some m := hm
    simp only [step, call, e, ho, hal, if_true, hm', hd]
    rw [holder?_setHolder, if_pos ⟨rfl, by simpa [St.setHolder] using hlt⟩]
  simp only [St.watching, List.mem_filter, not_and]
  intro _
  rw [hx]
  simp

/-- A holder that watches an object and then drops its entry. -/
example : let s : St Nat Nat := run [.alloc 5 true, .alloc 6 true, .newHolder 0 3 (some 7), .dependObj 0 (.obj 1)]
    s.alive 0 = true ∧ s.getHolder 0 3 = some 0 ∧ s.watching (.obj 1) = [0] ∧ (step s (.call 0)).watching (.obj 1) = [] := by decide

/-! ### C32 -/

/-- **C32 (no leak).** In every reachable state, what the cache holds for a living object was stored for that very
object and key – never for an earlier object that had the same id. -/
theorem C32_no_leak (ops : List (Op K D)) (c : Oid) (k : K) (h : Hid) (hc : (run ops).alive c = true)
    (hh : (run ops).getHolder c k = some h) : ∃ y, (run ops).holder? h = some y ∧ y.client = c ∧ y.key = k :=
  (inv_run ops).getHolder_own hc hh

/-- **C32 (fresh object).** A newly created object has no cached data under any key, whatever the address it was
given had been used for before. -/
theorem C32_fresh (ops : List (Op K D)) (a : Addr) (t : Bool) (k : K)
    (hfree : ∀ x ∈ (run ops).objs, x.alive = true → x.addr ≠ a) :
    (step (run ops) (.alloc a t)).alive (run ops).objs.length = true ∧
    (step (run ops) (.alloc a t)).getHolder (run ops).objs.length k = none ∧
    (step (run ops) (.alloc a t)).getData (run ops).objs.length k = none := by
  have hI := inv_run ops
  generalize run ops = s at *
  have hany : ¬ s.objs.any (fun o => o.alive && o.addr == a) = true := by
    rw [List.any_eq_true]
    rintro ⟨x, hx, h⟩
    simp only [Bool.and_eq_true, beq_iff_eq] at h
    exact hfree x hx h.1 h.2
  have hg : (step s (.alloc a t)).getHolder s.objs.length k = none := by
    simp only [step, hany, St.getHolder]
    rw [if_neg (by simp)]
    simp only [List.getElem?_concat_length]
    rcases hm : s.cache a with _ | m
    · rfl
    · obtain ⟨o, x, h1, h2, h3, _⟩ := hI.own a m hm
      exact absurd h3 (hfree x (List.mem_of_getElem? h1) h2)
  refine ⟨?_, hg, by simp [St.getData, hg]⟩
  simp only [step, hany, St.alive]
  rw [if_neg (by simp)]
  simp

/-- **C32 (gone).** When a client dies, its dictionary is removed from the cache. -/
theorem C32_death_clears (ops : List (Op K D)) (c : Oid) (x : Obj) (hx : (run ops).objs[c]? = some x) (hal : x.alive = true) :
    (step (run ops) (.die c)).cache x.addr = none := by
  have hI := inv_step (inv_run ops) (.die c)
  have hI0 := inv_run ops
  rcases hm : (step (run ops) (.die c)).cache x.addr with _ | m
  · rfl
  · exfalso
    obtain ⟨o, z, h1, h2, h3, _⟩ := hI.own _ _ hm
    rw [step_die hx hal] at h1
    rw [(shrink_fold call shrink_call _ _).objs] at h1
    have hobjs : (dieCore (run ops) c x).objs = (run ops).objs.set c { x with alive := false } := by
      unfold dieCore; dsimp only; split <;> rfl
    rw [hobjs] at h1
    obtain ⟨hne, h1⟩ := objs_set_alive hx o z h1 h2
    exact hne (hI0.addr _ _ _ _ h1 hx h2 hal h3)

/-! ### C33 -/

/-- **C33.** Calling a holder changes nothing for any client and key other than the holder's own.
Excluded: that it leaves a newer holder for the same client and key alone – false, see `C33_refuted_stale`. -/
theorem C33_only_own_entry (pre : List (Op K D)) (h : Hid) (y : Holder K D) (hy : (run pre).holder? h = some y)
    (c : Oid) (k : K) (hc : (run pre).alive c = true) (hne : ¬ (y.client = c ∧ y.key = k)) :
    (run (pre ++ [.call h])).getHolder c k = (run pre).getHolder c k ∧
    (run (pre ++ [.call h])).getData c k = (run pre).getData c k := by
  have := C30_frame pre (.call h) c k hc (by
    rintro ⟨y', e, h2⟩
    rw [hy] at e; injection e with e; subst e
    exact hne h2)
  rw [run_append]
  exact this.2

/-- **C33 (own entry).** Calling the current holder removes its entry. -/
theorem C33_removes_own (pre : List (Op K D)) (h : Hid) (c : Oid) (k : K) (hc : (run pre).alive c = true)
    (hh : (run pre).getHolder c k = some h) : (run (pre ++ [.call h])).getHolder c k = none := by
  rw [run_append]
  have hI := inv_run pre
  generalize run pre = s at *
  simp only [List.foldl_cons, List.foldl_nil, step]
  exact call_own hI hc hh

/-- **C33 refuted.** A holder that has been superseded by a newer one for the same client and key still removes the
entry when called: `__call__` deletes `current[self.key]` without checking that the entry is itself
(cache.py:235). -/
theorem C33_refuted_stale :
    let pre : List (Op Nat Nat) := [.alloc 100 true, .newHolder 0 7 (some 1), .newHolder 0 7 (some 2)]
    (run pre).getHolder 0 7 = some 1 ∧ (run pre).getData 0 7 = some 2 ∧
    (run (pre ++ [.call 0])).getHolder 0 7 = none := by
  decide

/-! ### Non-vacuity -/

/-- A history with two clients, an address reuse, dependencies and a notification. -/
def demo : List (Op Nat Nat) :=
  [.alloc 100 true, .alloc 200 true, .newHolder 0 1 (some 10), .newHolder 0 2 (some 20), .newHolder 1 1 (some 30),
   .depend 0 1 5, .dependObj 2 (.obj 0)]

example : (run demo).getData 0 1 = some 10 ∧ (run demo).getData 1 1 = some 30 ∧
    (run (demo ++ [.fire 1 5])).getData 0 1 = none ∧ (run (demo ++ [.fire 1 5])).getData 0 2 = some 20 ∧
    -- object 0 dies: its data goes, and so does the holder that depended on it; address 100 is reused
    (run (demo ++ [.die 0, .alloc 100 true])).getData 2 1 = none ∧
    (run (demo ++ [.die 0])).getData 1 1 = none ∧
    (run demo).alive 0 = true ∧ (run demo).alive 1 = true := by decide

example : Untouched 0 1 (run demo) [.newHolder 0 2 (some 9), .fire 1 6, .call 2] := by
  refine ⟨by simp [Touches], ?_, ?_, trivial⟩
  · rintro ⟨h, y, hm, _⟩; revert hm; simp [step, demo, run, newHolder, St.init, St.holder?, St.alive, dset, St.setHolder]
  · rintro ⟨y, hy, h1, h2⟩
    have : (step (step (run demo) (.newHolder 0 2 (some 9))) (.fire 1 6)).holder? 2 = some ⟨1, 1, some 30, [.obj 0]⟩ := by decide
    rw [this] at hy; injection hy with hy; subst hy; simp at h1

end Verif.Cache
