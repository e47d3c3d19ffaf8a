import Verif.Lemmas.Sharing
/-!
C91: in a loaded file, a node stands in several places only if USE says so.
-/
namespace Verif.Full
open Verif.Peg Verif.Grammar Verif.TextOut Verif.SceneText Verif.Reader Verif.Scopes
open Verif.Lin hiding disp dispList dispDecls dispAttrs disp_node disp_attr
variable {F : Type} {base : Text → Option (Class F)} {fl : Floats F}

theorem coerce_keeps {k : Kind} {conv : F → F} {v u : Val F} (h : coerce k conv v = some u) : u.nodes = v.nodes ∨ u.nodes = [] := by
  cases v with
  | ref o =>
    cases k <;> simp only [coerce, reduceCtorEq] at h
    · cases h; exact .inl rfl
    · cases o <;> cases h <;> exact .inl rfl
  | refs l =>
    cases k <;> simp only [coerce, reduceCtorEq] at h
    · cases h; exact .inr rfl
    · split at h <;> cases h <;> exact .inr rfl
    · cases h; exact .inr rfl
    · split at h
      · next o => cases h; left; cases o <;> rfl
      · cases h
    · cases h; exact .inl rfl
  | _ =>
    refine .inr ?_
    cases k <;> simp only [coerce, reduceCtorEq, if_false, if_true] at h <;> (try split at h) <;> cases h <;> rfl

theorem meant_keeps {k : Kind} {g : Given} {v : Val F} (h : meant fl k g = some v) : v.nodes = g.nodes ∨ v.nodes = [] := by
  cases g with
  | text kids =>
    right
    simp only [meant] at h
    split at h
    · cases h; rfl
    · exact simpleValue_nodes h
  | one o =>
    simp only [meant] at h
    split at h
    · cases h; left; cases o <;> rfl
    · cases h
  | all l =>
    simp only [meant] at h
    split at h
    · cases h
    · cases h; exact .inl rfl

theorem said_keeps {k : Kind} {conv : F → F} {g : Given} {v u : Val F} (h : meant fl k g = some v) (hu : coerce k conv v = some u) (hne : u.nodes ≠ []) : u.nodes = g.nodes := by
  rcases coerce_keeps hu with h1 | h1
  · rcases meant_keeps h with h2 | h2
    · rw [h1, h2]
    · rw [h1, h2] at hne; exact absurd rfl hne
  · exact absurd h1 hne

/-- a value said for a field -/
theorem valuesFor_mem {w : World F} {i : Nat} {f : Text} {log : List Said} {d : FieldDecl F} {g : Given} (h : (d, g) ∈ valuesFor w i f log) :
    ∃ nm, Said.value i nm g ∈ log ∧ fieldAt w i nm = some d ∧ d.name = f := by
  simp only [valuesFor, List.mem_filterMap] at h
  obtain ⟨e, he, h⟩ := h
  split at h
  · split at h
    · next hj =>
      subst hj
      obtain ⟨d', h1, h2⟩ := Option.bind_eq_some_iff.1 h
      split at h2
      · next hf => cases h2; exact ⟨_, he, h1, hf⟩
      · cases h2
    · cases h
  · cases h

theorem lastOwn_mem {i : Nat} {nm : Text} {log : List Said} {g : Option Given} (h : lastOwn i nm log = some g) : Said.own i nm g ∈ log := by
  have := List.mem_of_getLast? h
  simp only [List.mem_filterMap] at this
  obtain ⟨e, he, h'⟩ := this
  split at h'
  · split at h'
    · next hj => obtain ⟨rfl, rfl⟩ := hj; cases h'; exact he
    · cases h'
  · cases h'

theorem scriptProto_plain : ∀ d ∈ (scriptProto : ProtoDef F).cls.fields, (d.dflt.value.map Val.nodes).getD [] = [] := by
  intro d hd
  simp only [scriptProto, ProtoDef.cls, List.map_cons, List.map_nil, List.mem_cons, List.not_mem_nil, or_false] at hd
  rcases hd with rfl | rfl | rfl | rfl <;> rfl

/-- What a place holds is said. -/
def HeldAt (w : World F) (s : Nat) (log : List Said) (j : Nat) : Loc → Said → Prop
  | .child k, e => e = .child s j ∧ (childrenIn s log)[k]? = some j
  | .field i f p, e => e.nodes[p]? = some j ∧ ((∃ nm g d, e = .value i nm g ∧ fieldAt w i nm = some d ∧ d.name = f) ∨ ∃ g, e = .own i f g)

theorem dfltOf_value (v : Val F) : (dfltOf v).value = some v := by cases v <;> first | rfl | (rename_i o; cases o <;> rfl)

theorem place_said (hB : Builtins base fl) (hS : base scriptName = none) {log : List Said} {st : Names} {w : World F} (hT : SameTypes base st w)
    (hs : ∀ i x, st.nodes[i]? = some x → x.gi = script → x.proto = none → ∃ items, Said.script i items ∈ log) (hC : Content fl log w)
    (hv : ∀ i n f, w.heap i = some n → match (valuesFor w i f log).getLast? with
        | none => n.dict f = none
        | some (d, g) => ∃ v u, meant fl d.kind g = some v ∧ coerce d.kind d.conv v = some u ∧ n.dict f = some u)
    (hi : ∀ i, w.inst i = none) (hinv : ∀ i n, w.heap i = some n → i < w.next) {s : Nat} {l : Loc} {j : Nat} (h : Refers (w.view s none) l j) : ∃ e ∈ log, HeldAt w s log j l e := by
  cases h with
  | @child k _ h =>
    have : (childrenIn s log)[k]? = some j := by rw [← hC.children s]; exact h
    exact ⟨_, childrenIn_mem (List.mem_of_getElem? this), rfl, this⟩
  | @field i n d v p _ _ hn hd _ hr hp =>
    have hn : w.heap i = some n := hn
    have hne : v.nodes ≠ [] := fun h => by rw [h] at hp; simp at hp
    have h1 := hv i n d.name hn
    cases hl : (valuesFor w i d.name log).getLast? with
    | some q =>
      obtain ⟨d', g⟩ := q
      rw [hl] at h1
      obtain ⟨v', u, h2, h3, h4⟩ := h1
      obtain ⟨nm, h5, h6, h7⟩ := valuesFor_mem (List.mem_of_getLast? hl)
      simp only [FieldDecl.read, h4, Option.some.injEq] at hr
      subst hr
      refine ⟨_, h5, ?_, .inl ⟨nm, g, d', rfl, h6, h7⟩⟩
      show g.nodes[p]? = some j
      rw [← said_keeps h2 h3 hne]; exact hp
    | none =>
      rw [hl] at h1
      simp only [FieldDecl.read, h1] at hr
      cases hdv : d.dflt.value with
      | none => rw [hdv] at hr; cases hr
      | some v0 =>
        rw [hdv] at hr
        simp only at hr
        have hv0 : v0.nodes ≠ [] := fun h => by
          rcases coerce_keeps hr with h' | h'
          · rw [h', h] at hne; exact hne rfl
          · exact hne h'
        have hlt : i < st.nodes.length := by rw [hT.nodes]; exact hinv i n hn
        obtain ⟨n', hn', hgi, -, hpr, -, hcls⟩ := hT.type i _ (List.getElem?_eq_getElem hlt)
        rw [hn] at hn'
        cases hn'
        have hpn : (st.nodes[i]).proto = none := by rw [← hpr]; exact hi i
        rcases hcls hpn with hb | hb
        · have := hB.plain _ _ hb d hd
          simp only [FieldDecl.dfltNodes, hdv, Option.map_some, Option.getD_some] at this
          exact absurd this hv0
        · obtain ⟨items, hit⟩ := hs i _ (List.getElem?_eq_getElem hlt) hb hpn
          obtain ⟨n'', hn'', -, hown⟩ := hC.script i items hit
          rw [hn] at hn''
          cases hn''
          have ho := hown d hd
          cases hlo : lastOwn i d.name log with
          | none =>
            rw [hlo] at ho
            have := scriptProto_plain d ho
            simp only [hdv, Option.map_some, Option.getD_some] at this
            exact absurd this hv0
          | some g =>
            rw [hlo] at ho
            cases g with
            | none =>
              simp only [DfltSaid] at ho
              rw [ho] at hdv
              exact absurd (hB.types _ _ hdv) hv0
            | some g =>
              obtain ⟨v', h2, h3⟩ := ho
              rw [h3, dfltOf_value] at hdv
              cases hdv
              refine ⟨_, lastOwn_mem hlo, ?_, .inr ⟨_, rfl⟩⟩
              show g.nodes[p]? = some j
              rw [← said_keeps h2 hr hne]; exact hp

theorem held_unique {w : World F} {s : Nat} {log : List Said} {j : Nat} (hc : (held log).count j ≤ 1) {l l' : Loc} {e e' : Said} (he : e ∈ log) (he' : e' ∈ log)
    (h : HeldAt w s log j l e) (h' : HeldAt w s log j l' e') : l = l' := by
  have mem : ∀ {l e}, HeldAt w s log j l e → j ∈ e.nodes := by
    intro l e h
    cases l with
    | child k => rw [h.1]; simp [Said.nodes]
    | field i f p => exact List.mem_of_getElem? h.1
  have heq := entry_unique Said.nodes j hc he he' (mem h) (mem h')
  subst heq
  have hec := (entry_count Said.nodes j he).trans hc
  cases l with
  | child k =>
    cases l' with
    | child k' => rw [pos_unique ((childrenIn_count s j log).trans hc) h.2 h'.2]
    | field i f p =>
      obtain ⟨rfl, -⟩ := h
      rcases h'.2 with ⟨_, _, _, h1, _⟩ | ⟨_, h1⟩ <;> cases h1
  | field i f p =>
    cases l' with
    | child k' =>
      obtain ⟨rfl, -⟩ := h'
      rcases h.2 with ⟨_, _, _, h1, _⟩ | ⟨_, h1⟩ <;> cases h1
    | field i' f' p' =>
      have hp := pos_unique hec h.1 h'.1
      subst hp
      rcases h.2 with ⟨nm, g, d, h1, h2, h3⟩ | ⟨g, h1⟩
      · subst h1
        rcases h'.2 with ⟨nm', g', d', h4, h5, h6⟩ | ⟨g', h4⟩
        · cases h4
          rw [h2] at h5
          cases h5
          rw [← h3, ← h6]
        · cases h4
      · subst h1
        rcases h'.2 with ⟨nm', g', d', h4, h5, h6⟩ | ⟨g', h4⟩
        · cases h4
        · cases h4; rfl

/-- **C91** Nodes are shared only by USE: in a file in which no node is of a prototyped type, a node without a DEF name stands in one place only (as a child of the scene, or in
one field of one node, once). -/
theorem C91_shared_only_by_name (hB : Builtins base fl) (hS : base scriptName = none) {text : Text} {w : World F} (h : ReadsWorld base fl text w) {kids : List PTree} (hk : ItemsOf text kids)
    (hp : allPlain kids = true) (hi : ∀ i, w.inst i = none) {s j : Nat} {n : Node F} {l l' : Loc} (hl : Refers (w.view s none) l j) (hl' : Refers (w.view s none) l' j)
    (hn : w.heap j = some n) (hD : n.DEF = []) : l = l' := by
  obtain ⟨log, rs, st, h1, h2, -, h4, h5⟩ := C78_values_without_instances hB h hk true (fun _ => hp) hi
  have ht : Tidy Names.start := by
    intro c hc nm i hi
    simp only [Names.start, List.mem_singleton] at hc
    subst hc; cases hi
  have hh := tellsAll_holding h1 ht
  have hsc := tellsAll_scripts h1 (List.Subset.refl log) (by simp only [show script = scriptName from rfl, hS]; rfl)
  obtain ⟨_, _, _, _, _, hinv⟩ := reads_run hB false h hk (by simp)
  have hlt : ∀ i n, w.heap i = some n → i < w.next := fun i n hi => (hinv.ids i).1 (by rw [hi]; rfl)
  have hnj : ¬ NamedIn st j := fun ⟨x, hx, hxD⟩ => by
    obtain ⟨n', hn', -, hn2, -⟩ := h2.type j x hx
    rw [hn] at hn'; cases hn'
    exact hxD (hn2 ▸ hD)
  have hc : (held log).count j ≤ 1 := by
    have := hh.once j hnj
    rw [List.count_append] at this
    omega
  have hs : ∀ i x, st.nodes[i]? = some x → x.gi = script → x.proto = none → ∃ items, Said.script i items ∈ log := fun i x => hsc.said i x (by simp [Names.start])
  obtain ⟨e, he, k⟩ := place_said hB hS h2 hs h4 h5 hi hlt hl
  obtain ⟨e', he', k'⟩ := place_said hB hS h2 hs h4 h5 hi hlt hl'
  exact held_unique hc he he' k k'

end Verif.Full
