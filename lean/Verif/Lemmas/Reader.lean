import Verif.Spec.Reader
import Verif.Lemmas.RoundTrip2
import Verif.Lemmas.Layout5
import Verif.Lemmas.ScriptView
/-!
The reader keeps the scene without loose ends.
-/
namespace Verif.Reader
open Verif.TextOut Verif.SceneText Verif.Peg Verif.Grammar Verif.Layout
open Verif.Lin hiding PTree disp_node disp_attr
variable {F : Type}

/-! ### Names in parse trees -/

mutual
/-- every name in the tree is legal -/
def Named : PTree → Prop
  | .node n m k => (n = .name → LegalName m) ∧ Nameds k
def Nameds : List PTree → Prop
  | [] => True
  | t :: l => Named t ∧ Nameds l
end

theorem Nameds_append {a b : List PTree} : Nameds (a ++ b) ↔ Nameds a ∧ Nameds b := by
  induction a with
  | nil => simp [Nameds]
  | cons t a ih => simp [Nameds, ih, and_assoc]

theorem star_cls {f : Char → Bool} {e i o} (h : Der gram e i o) : e = .star (.cls f) → ∀ t m r, o = .ok t m r → ∀ c ∈ m, f c = true := by
  induction h with
  | starCons h1 _ h2 _ ih =>
    intro he t m r ho c hc
    cases he
    cases ho
    rcases List.mem_append.1 hc with hc | hc
    · cases h1 with
      | cls hf => simp at hc; subst hc; exact hf
    · exact ih rfl _ _ _ rfl c hc
  | starNil _ _ => intro _ t m r ho c hc; cases ho; cases hc
  | starErr1 | starErr2 => intro _ t m r ho; cases ho
  | _ => intro he; cases he

theorem name_legal {i t m r} (h : Der gram (gram .name) i (.ok t m r)) : LegalName m := by
  cases h with
  | seq h1 h2 => cases h1 with
    | cls hf => exact ⟨_, _, rfl, hf, star_cls h2 rfl _ _ _ rfl⟩

theorem der_named {e i o} (h : Der gram e i o) : ∀ t m r, o = .ok t m r → Nameds t := by
  induction h with
  | seq _ _ ih1 ih2 => intro t m r ho; cases ho; exact Nameds_append.2 ⟨ih1 _ _ _ rfl, ih2 _ _ _ rfl⟩
  | altL _ ih => intro t m r ho; cases ho; exact ih _ _ _ rfl
  | altR _ _ _ ih => intro t m r ho; exact ih _ _ _ ho
  | starCons _ _ _ ih1 ih2 => intro t m r ho; cases ho; exact Nameds_append.2 ⟨ih1 _ _ _ rfl, ih2 _ _ _ rfl⟩
  | starNil _ _ => intro t m r ho; cases ho; trivial
  | nt h ih =>
    intro t' m' r' ho
    cases ho
    refine ⟨⟨?_, ih _ _ _ rfl⟩, trivial⟩
    rintro rfl
    exact name_legal h
  | silent _ ih => intro t m r ho; cases ho; exact ih _ _ _ rfl
  | cut _ ih => intro t m r ho; cases ho; exact ih _ _ _ rfl
  | eps | lit | cls | eof => intro t m r ho; cases ho; trivial
  | _ => intro t m r ho; cases ho

/-! ### The invariant -/

structure RInv (known : Class F → Prop) (rs : RSt F) : Prop where
  ids : ∀ i, (rs.sc.heap i).isSome ↔ i < rs.next
  wf : WellFormed known rs.sc

/-- nodes stay, with their class and name -/
structure REx (a b : RSt F) : Prop where
  next : a.next ≤ b.next
  node : ∀ i n, a.sc.heap i = some n → ∃ n', b.sc.heap i = some n' ∧ n'.cls = n.cls ∧ n'.DEF = n.DEF
  is : a.sc.is = none → b.sc.is = none

theorem REx.refl (a : RSt F) : REx a a := ⟨by omega, fun i n h => ⟨n, h, rfl, rfl⟩, id⟩
theorem REx.trans {a b c : RSt F} (h : REx a b) (h' : REx b c) : REx a c := by
  refine ⟨by have := h.next; have := h'.next; omega, fun i n hn => ?_, fun hi => h'.is (h.is hi)⟩
  obtain ⟨n1, h1, h2, h3⟩ := h.node i n hn
  obtain ⟨n2, h4, h5, h6⟩ := h'.node i n1 h1
  exact ⟨n2, h4, h5.trans h2, h6.trans h3⟩

/-- the nodes of a result exist -/
def okVal (v : RVal F) (N : Nat) : Prop := ∀ w, v.toVal = some w → ∀ j ∈ w.nodes, j < N

theorem okVal.mono {v : RVal F} {N M : Nat} (h : okVal v N) (hl : N ≤ M) : okVal v M := fun w hw j hj => by
  have := h w hw j hj; omega

theorem okVal_vals {l : List (RVal F)} {N} (h : ∀ v ∈ l, okVal v N) : okVal (.vals l) N := by
  have key : ∀ (l : List (RVal F)), (∀ v ∈ l, okVal v N) → ∀ r, refList l = some r → ∀ j, some j ∈ r → j < N := by
    intro l
    induction l with
    | nil => intro _ r hr j hj; cases hr; cases hj
    | cons v l ih =>
      intro h r hr j hj
      cases v with
      | ref o =>
        simp only [refList, Option.map_eq_some_iff] at hr
        obtain ⟨r', hr', rfl⟩ := hr
        rcases List.mem_cons.1 hj with rfl | hj
        · exact h (.ref (some j)) (by simp) _ rfl j (by simp [Val.nodes])
        · exact ih (fun v hv => h v (by simp [hv])) r' hr' j hj
      | nothing => cases hr
      | val _ => cases hr
      | vals _ => cases hr
  intro w hw j hj
  simp only [RVal.toVal, Option.map_eq_some_iff] at hw
  obtain ⟨r, hr, rfl⟩ := hw
  simp only [Val.nodes, List.mem_filterMap, id] at hj
  obtain ⟨o, ho, rfl⟩ := hj
  exact key l h r hr j ho

theorem toRows_length {α : Type} {k : Nat} : ∀ {n : Nat} {l : List α}, l.length = n * k → ∀ r ∈ toRows k n l, r.length = k
  | 0, _, _, _, hr => by cases hr
  | n + 1, l, hl, r, hr => by
    have e : l.length = n * k + k := by rw [hl, Nat.succ_mul]
    simp only [toRows, List.mem_cons] at hr
    rcases hr with rfl | hr
    · simp; omega
    · exact toRows_length (n := n) (by simp; omega) r hr

theorem coerce_type {k : Kind} {conv : F → F} {v w : Val F} (h : coerce k conv v = some w) : HasType k w := by
  cases v with
  | nums l =>
    cases k <;> simp only [coerce] at h <;> first | cases h | skip
    · split at h
      · cases h; simpa [HasType]
      · cases h
    · trivial
    · split at h
      · cases h
        rename_i n hn
        intro r hr
        refine toRows_length ?_ r hr
        simp only [List.length_map]
        have := Nat.div_add_mod l.length n
        rw [hn.2, Nat.mul_comm] at this
        omega
      · cases h
  | rows l =>
    cases k <;> simp only [coerce] at h <;> first | cases h | skip
    split at h
    · cases h
      rename_i hall
      intro r hr
      simp only [List.mem_map] at hr
      obtain ⟨r, hr, rfl⟩ := hr
      simpa using List.all_eq_true.1 hall r hr
    · cases h
  | ref o =>
    cases k <;> simp only [coerce] at h <;> first | cases h | skip
    · trivial
    · split at h <;> cases h <;> trivial
  | refs l =>
    cases k <;> simp only [coerce] at h <;> first | (cases h; trivial) | cases h | (split at h <;> cases h <;> trivial)
  | ints l =>
    cases k <;> simp only [coerce] at h <;> first | cases h | skip
    split at h
    · cases h; rename_i hin; simpa [HasType] using hin
    · cases h
  | _ =>
    simp only [coerce] at h
    split at h
    · rename_i hk; subst hk; cases h; trivial
    · cases h

theorem coerce_nodes {k : Kind} {conv : F → F} {v w : Val F} (h : coerce k conv v = some w) : ∀ j ∈ w.nodes, j ∈ v.nodes := by
  intro j hj
  cases v with
  | nums l =>
    cases k <;> simp only [coerce] at h <;> first | cases h | skip
    · split at h
      · cases h; exact hj
      · cases h
    · exact hj
    · split at h
      · cases h; exact hj
      · cases h
  | rows l =>
    cases k <;> simp only [coerce] at h <;> first | cases h | skip
    split at h
    · cases h; exact hj
    · cases h
  | ref o =>
    cases k <;> simp only [coerce] at h <;> first | cases h | skip
    · exact hj
    · split at h <;> cases h <;> simpa [Val.nodes] using hj
  | refs l =>
    cases k <;> simp only [coerce] at h <;> first | (cases h; first | exact hj | (simp [Val.nodes] at hj; done)) | cases h | skip
    · split at h
      · cases h; simp [Val.nodes] at hj
      · cases h; simp [Val.nodes] at hj
      · cases h
    · split at h
      · cases h
        rename_i o
        cases o <;> simpa [Val.nodes] using hj
      · cases h
  | ints l =>
    cases k <;> simp only [coerce] at h <;> first | cases h | skip
    split at h
    · cases h; exact hj
    · cases h
  | _ =>
    simp only [coerce] at h
    split at h
    · cases h; exact hj
    · cases h

theorem resolveName_known {α : Type} (known : Text → Option α) : ∀ (k : Nat) (nm : Text) (a : α), nm.length < k → resolveName known nm = some a → ∃ nm', known nm' = some a := by
  intro k
  induction k with
  | zero => intro nm d h; omega
  | succ k ih =>
    intro nm d hk h
    unfold resolveName at h
    split at h
    · rename_i d' hd
      cases h
      exact ⟨_, hd⟩
    · split at h
      · rename_i hp
        obtain ⟨t, ht⟩ := List.isPrefixOf_iff_prefix.mp hp
        have : nm.length = 4 + t.length := by rw [← ht]; simp; omega
        exact ih _ _ (by simp; omega) h
      · split at h
        · rename_i hp
          obtain ⟨t, ht⟩ := List.isSuffixOf_iff_suffix.mp hp
          have : nm.length = t.length + 8 := by rw [← ht]; simp
          exact ih _ _ (by simp; omega) h
        · cases h

theorem getField_mem {c : Class F} {nm : Text} {d : FieldDecl F} (h : c.getField nm = some (.inl d)) : d ∈ c.fields := by
  obtain ⟨nm', h⟩ := resolveName_known _ _ _ _ (Nat.lt_succ_self _) h
  rw [Class.port] at h
  split at h
  · cases h
  · obtain ⟨d', h1, h2⟩ := Option.map_eq_some_iff.1 h
    cases h2
    exact List.mem_of_find?_eq_some h1

theorem store_inv {known : Class F → Prop} {rs rs' : RSt F} (h : RInv known rs) {i n d v} (hn : rs.sc.heap i = some n) (hd : d ∈ n.cls.fields)
    (hv : ∀ j ∈ v.nodes, j < rs.next) (hs : rs.store i d v = some rs') : RInv known rs' ∧ REx rs rs' := by
  simp only [RSt.store] at hs
  split at hs
  · cases hs
  · rename_i w hw
    cases hs
    have hget : ∀ j m', (if j = i then (rs.sc.heap i).map (fun n => n.set d.name w) else rs.sc.heap j) = some m' →
        ∃ m, rs.sc.heap j = some m ∧ m'.cls = m.cls ∧ m'.DEF = m.DEF ∧ ∀ f u, m'.dict f = some u → (j = i ∧ f = d.name ∧ u = w) ∨ m.dict f = some u := by
      intro j m' hm
      split at hm
      · rename_i hj
        subst hj
        rw [hn] at hm
        cases hm
        refine ⟨n, hn, rfl, rfl, fun f u hu => ?_⟩
        simp only [Node.set] at hu
        split at hu
        · cases hu; exact .inl ⟨rfl, ‹_›, rfl⟩
        · exact .inr hu
      · exact ⟨m', hm, rfl, rfl, fun f u hu => .inr hu⟩
    have hsome : ∀ j, (if j = i then (rs.sc.heap i).map (fun n => n.set d.name w) else rs.sc.heap j).isSome = (rs.sc.heap j).isSome := by
      intro j
      split
      · rename_i hj; subst hj; rw [hn]; rfl
      · rfl
    have hfwd : ∀ j m, rs.sc.heap j = some m → ∃ m', (if j = i then (rs.sc.heap i).map (fun n => n.set d.name w) else rs.sc.heap j) = some m' ∧ m'.cls = m.cls ∧ m'.DEF = m.DEF := by
      intro j m hm
      by_cases hj : j = i
      · subst hj; rw [hn] at hm; cases hm
        exact ⟨n.set d.name w, by simp [hn], rfl, rfl⟩
      · exact ⟨m, by simp [hj, hm], rfl, rfl⟩
    refine ⟨⟨fun j => ?_, ?_⟩, ⟨Nat.le_refl _, hfwd, id⟩⟩
    · simp only [hsome]; exact h.ids j
    · refine ⟨?_, ?_, ?_, ?_, ?_, ?_, ?_, ?_, ?_, ?_⟩
      · intro j m' hm
        obtain ⟨m, h1, h2, -⟩ := hget j m' hm
        rw [h2]; exact h.wf.cls j m h1
      · intro j m' f u hm hu
        obtain ⟨m, h1, h2, -, h4⟩ := hget j m' hm
        simp only [hsome]
        rw [h2]
        rcases h4 f u hu with ⟨rfl, rfl, rfl⟩ | hu
        · rw [hn] at h1; cases h1
          refine ⟨d, hd, rfl, coerce_type hw, fun k hk => ?_⟩
          exact (h.ids k).2 (hv k (coerce_nodes hw k hk))
        · exact h.wf.value j m f u h1 hu
      · intro j m' hm g hg k hk
        obtain ⟨m, h1, h2, -⟩ := hget j m' hm
        simp only [hsome]
        rw [h2] at hg
        exact h.wf.dflts j m h1 g hg k hk
      · intro j m' hm
        obtain ⟨m, h1, h2, h3, -⟩ := hget j m' hm
        rw [h3]; exact h.wf.name j m h1
      · intro nm j hj
        obtain ⟨m, h1, h2⟩ := h.wf.table nm j hj
        obtain ⟨m', h3, h4, h5⟩ := hfwd j m h1
        exact ⟨m', h3, h5.trans h2⟩
      · intro j m' hm hne
        obtain ⟨m, h1, h2, h3, -⟩ := hget j m' hm
        rw [h3] at hne ⊢
        exact h.wf.latest j m h1 hne
      · intro j hj
        simp only [hsome]; exact h.wf.children j hj
      · intro r hr
        obtain ⟨⟨m1, h1, h1'⟩, ⟨m2, h2, h2'⟩, h3⟩ := h.wf.routes r hr
        obtain ⟨m1', a1, -, a2⟩ := hfwd _ _ h1
        obtain ⟨m2', b1, -, b2⟩ := hfwd _ _ h2
        exact ⟨⟨m1', a1, a2 ▸ h1'⟩, ⟨m2', b1, b2 ▸ h2'⟩, h3⟩
      · intro dict nm l j f h1 h2 h3
        simp only [hsome]; exact h.wf.is dict nm l j f h1 h2 h3
      · exact ⟨rs.next, fun j => by simp only [hsome]; exact h.ids j⟩

theorem lookup_filter {k x : Text} {l : List (Text × Nat)} : (l.filter (fun p => p.1 != x)).lookup k = if k = x then none else l.lookup k := by
  induction l with
  | nil => simp
  | cons p l ih =>
    obtain ⟨a, b⟩ := p
    by_cases ha : a = x
    · subst ha
      simp only [bne_self_eq_false, Bool.false_eq_true, not_false_eq_true, List.filter_cons_of_neg, ih, List.lookup_cons]
      by_cases hk : k = a
      · simp [hk]
      · have : (k == a) = false := by simpa using hk
        simp [hk, this]
    · have h1 : (a != x) = true := by simpa using ha
      simp only [h1, List.filter_cons_of_pos, List.lookup_cons, ih]
      by_cases hk : k = a
      · subst hk; simp [ha]
      · have : (k == a) = false := by simpa using hk
        simp [this]

/-- the DEF table after a new node -/
theorem newNode_getDEF {rs : RSt F} {c DEF} (nm : Text) :
    (rs.newNode c DEF).sc.getDEF nm = if nm = DEF then some rs.next else if nm = [] then none else rs.sc.getDEF nm := by
  obtain ⟨-, -, -, -, -, h1, h2⟩ := newNode_spec rs c DEF
  by_cases hn : nm = []
  · subst hn
    generalize hsc : ({ rs.sc with heap := fun j => if j = rs.next then some ⟨c, [], fun _ => none⟩ else rs.sc.heap j } : Scene F) = sc
    have hnew : rs.newNode c DEF = ⟨if DEF = [] then sc.regDefName [] rs.next else (sc.regDefName [] rs.next).regDefName DEF rs.next, rs.next + 1⟩ := by
      subst hsc; rfl
    have hdef1 : (sc.regDefName [] rs.next).defOf rs.next = [] := by
      subst hsc
      simp [Scene.defOf, Scene.regDefName]
    rw [hnew]
    by_cases hd : DEF = []
    · subst hd; simp only [if_true]; exact reg_self _ _ _
    · rw [if_neg hd, if_neg (fun h => hd h.symm), if_pos rfl]
      have h0 : ([] == DEF) = false := by cases DEF with | nil => exact absurd rfl hd | cons _ _ => rfl
      have := reg_self sc [] rs.next
      simp only [Scene.getDEF] at this
      simp only [Scene.getDEF, Scene.regDefName.eq_def (sc := sc.regDefName [] rs.next), hdef1, this, if_true, List.lookup_cons, h0, lookup_filter]
      simp
  · by_cases hd : nm = DEF
    · subst hd; rw [if_pos rfl]; exact h1 hn
    · rw [if_neg hd, if_neg hn]; exact h2 nm hn hd

theorem newNode_inv {known : Class F → Prop} {rs : RSt F} (h : RInv known rs) {c DEF} (hc : known c) (hp : ∀ d ∈ c.fields, d.dfltNodes = []) (hD : DEF = [] ∨ LegalName DEF) :
    RInv known (rs.newNode c DEF) ∧ REx rs (rs.newNode c DEF) := by
  obtain ⟨hnext, hheap, hch, hrt, his, -, -⟩ := newNode_spec rs c DEF
  have hnone : rs.sc.heap rs.next = none := by
    cases hh : rs.sc.heap rs.next with
    | none => rfl
    | some n => have := (h.ids rs.next).1 (by rw [hh]; rfl); omega
  have hold : ∀ i n, rs.sc.heap i = some n → (rs.newNode c DEF).sc.heap i = some n := by
    intro i n hn
    rw [hheap, if_neg]
    · exact hn
    · rintro rfl; rw [hnone] at hn; cases hn
  have hsome : ∀ i, (rs.sc.heap i).isSome → ((rs.newNode c DEF).sc.heap i).isSome := by
    intro i hi
    obtain ⟨n, hn⟩ := Option.isSome_iff_exists.1 hi
    rw [hold i n hn]; rfl
  have hids : ∀ i, ((rs.newNode c DEF).sc.heap i).isSome ↔ i < rs.next + 1 := by
    intro i
    rw [hheap]
    split
    · rename_i hi; subst hi; simp
    · rw [h.ids]; omega
  have hinv : ∀ i n, (rs.newNode c DEF).sc.heap i = some n → (i = rs.next ∧ n = ⟨c, DEF, fun _ => none⟩) ∨ (i ≠ rs.next ∧ rs.sc.heap i = some n) := by
    intro i n hn
    rw [hheap] at hn
    split at hn
    · cases hn; exact .inl ⟨‹_›, rfl⟩
    · exact .inr ⟨‹_›, hn⟩
  refine ⟨⟨fun i => by rw [hnext]; exact hids i, ?_⟩, ⟨by omega, fun i n hn => ⟨n, hold i n hn, rfl, rfl⟩, fun hi => by rw [his]; exact hi⟩⟩
  refine ⟨?_, ?_, ?_, ?_, ?_, ?_, ?_, ?_, ?_, ⟨_, hids⟩⟩
  · intro i n hn
    rcases hinv i n hn with ⟨-, rfl⟩ | ⟨-, hn⟩
    · exact hc
    · exact h.wf.cls i n hn
  · intro i n f v hn hv
    rcases hinv i n hn with ⟨-, rfl⟩ | ⟨-, hn⟩
    · cases hv
    · obtain ⟨d, h1, h2, h3, h4⟩ := h.wf.value i n f v hn hv
      exact ⟨d, h1, h2, h3, fun j hj => hsome j (h4 j hj)⟩
  · intro i n hn d hd j hj
    rcases hinv i n hn with ⟨-, rfl⟩ | ⟨-, hn⟩
    · rw [hp d hd] at hj; cases hj
    · exact hsome j (h.wf.dflts i n hn d hd j hj)
  · intro i n hn
    rcases hinv i n hn with ⟨-, rfl⟩ | ⟨-, hn⟩
    · exact hD
    · exact h.wf.name i n hn
  · intro nm i hi
    rw [newNode_getDEF] at hi
    split at hi
    · rename_i hnm; cases hi; subst hnm
      exact ⟨_, by rw [hheap, if_pos rfl], rfl⟩
    · split at hi
      · cases hi
      · obtain ⟨n, hn, h1⟩ := h.wf.table nm i hi
        exact ⟨n, hold i n hn, h1⟩
  · intro i n hn hne
    rw [newNode_getDEF]
    have hlt : i < rs.next + 1 := (hids i).1 (by rw [hn]; rfl)
    split
    · exact ⟨rs.next, by omega, rfl⟩
    · rename_i hD'
      rcases hinv i n hn with ⟨-, rfl⟩ | ⟨-, hn⟩
      · exact absurd rfl hD'
      · exact h.wf.latest i n hn hne
  · intro i hi
    rw [hch] at hi
    exact hsome i (h.wf.children i hi)
  · intro r hr
    rw [hrt] at hr
    obtain ⟨⟨m1, h1, h1'⟩, ⟨m2, h2, h2'⟩, h3⟩ := h.wf.routes r hr
    exact ⟨⟨m1, hold _ _ h1, h1'⟩, ⟨m2, hold _ _ h2, h2'⟩, h3⟩
  · intro dict nm l i f h1 h2 h3
    rw [his] at h1
    exact hsome i (h.wf.is dict nm l i f h1 h2 h3)

theorem isAppend_mem' {nm : Text} {e : Nat × Text} {dict : List (Text × List (Nat × Text))} : ∀ {k l}, (k, l) ∈ isAppend nm e dict →
    ∀ x ∈ l, x = e ∨ ∃ l', (k, l') ∈ dict ∧ x ∈ l' := by
  induction dict with
  | nil => intro k l h x hx; simp only [isAppend, List.mem_singleton, Prod.mk.injEq] at h; obtain ⟨-, rfl⟩ := h; simp at hx; exact .inl hx
  | cons p dict ih =>
    obtain ⟨a, b⟩ := p
    intro k l h x hx
    simp only [isAppend] at h
    split at h
    · rcases List.mem_cons.1 h with h | h
      · cases h
        rcases List.mem_append.1 hx with hx | hx
        · exact .inr ⟨b, by simp, hx⟩
        · simp at hx; exact .inl hx
      · exact .inr ⟨l, by simp [h], hx⟩
    · rcases List.mem_cons.1 h with h | h
      · cases h; exact .inr ⟨_, by simp, hx⟩
      · rcases ih h x hx with h | ⟨l', h1, h2⟩
        · exact .inl h
        · exact .inr ⟨l', by simp [h1], h2⟩

theorem nodeHead_named {k nm gi rest} (hk : Nameds k) (h : nodeHead k = some (nm, gi, rest)) : (nm = [] ∨ LegalName nm) ∧ Nameds rest := by
  match k, hk with
  | [], _ => cases h
  | .node n m k :: [], _ => cases n <;> first | (cases h; exact ⟨.inl rfl, trivial⟩) | cases h
  | .node n m k :: .node n2 m2 k2 :: l, hk =>
    cases n
    case name =>
      cases n2 <;> first | (cases h; exact ⟨.inr (hk.1.1 rfl), hk.2.2⟩) | cases h
    all_goals first | (cases h; exact ⟨.inl rfl, hk.2⟩) | cases h

theorem routeNames_named {k s sf d df} (hk : Nameds k) (h : routeNames k = some (s, sf, d, df)) : LegalName s ∧ LegalName sf ∧ LegalName d ∧ LegalName df := by
  match k, hk with
  | [], _ => cases h
  | [_], _ => simp [routeNames] at h
  | [_, _], _ => simp [routeNames] at h
  | [_, _, _], _ => simp [routeNames] at h
  | _ :: _ :: _ :: _ :: _ :: _, _ => simp [routeNames] at h
  | [.node n1 m1 k1, .node n2 m2 k2, .node n3 m3 k3, .node n4 m4 k4], hk =>
    cases n1
    case name =>
      cases n2
      case name =>
        cases n3
        case name =>
          cases n4
          case name => cases h; exact ⟨hk.1.1 rfl, hk.2.1.1 rfl, hk.2.2.1.1 rfl, hk.2.2.2.1.1 rfl⟩
          all_goals simp [routeNames] at h
        all_goals simp [routeNames] at h
      all_goals simp [routeNames] at h
    all_goals simp [routeNames] at h

theorem simpleValue_nodes {fl : Floats F} {k : Kind} {kids : List PTree} {v : Val F} (h : simpleValue fl k kids = some v) : v.nodes = [] := by
  cases k <;> simp only [simpleValue, Option.map_eq_some_iff] at h <;> first | (obtain ⟨x, -, rfl⟩ := h; rfl) | (cases h; rfl) | cases h

/-! ### What reading leaves alone -/

theorem refList_all {l : List (RVal F)} {r} (h : refList l = some r) : ∀ v ∈ l, v.toVal ≠ none := by
  induction l generalizing r with
  | nil => intro v hv; cases hv
  | cons x l ih =>
    intro v hv
    cases x with
    | ref o =>
      simp only [refList, Option.map_eq_some_iff] at h
      obtain ⟨r', hr', -⟩ := h
      rcases List.mem_cons.1 hv with rfl | hv
      · simp [RVal.toVal]
      · exact ih hr' v hv
    | nothing => cases h
    | val _ => cases h
    | vals _ => cases h

theorem scriptHead_size (k : List PTree) : sizeOf (scriptHead k).2 ≤ sizeOf k := by
  match k with
  | [] => simp [scriptHead]
  | .node n m k :: l => cases n <;> (simp only [scriptHead]; simp; try omega)

theorem ditem_size {t : PTree} {ex ty nm value} (h : ditem t = .field ex ty nm value) : sizeOf value < sizeOf t := by
  unfold ditem at h
  split at h <;> first | cases h | skip
  simp; omega

theorem store_frame {rs rs' : RSt F} {i d v} (h : rs.store i d v = some rs') : rs'.next = rs.next ∧ ∀ j, j ≠ i → rs'.sc.heap j = rs.sc.heap j := by
  simp only [RSt.store] at h
  split at h
  · cases h
  · cases h
    exact ⟨rfl, fun j hj => by simp [hj]⟩

theorem addIs_frame {rs rs' : RSt F} {i l} (h : rs.addIs i l = some rs') : rs'.next = rs.next ∧ rs'.sc.heap = rs.sc.heap := by
  simp only [RSt.addIs] at h
  split at h
  · cases h; exact ⟨rfl, rfl⟩
  · split at h
    · cases h
    · cases h; exact ⟨rfl, rfl⟩

/-- Dispatching an entry changes no node that exists already, except the one on top of the node stack; and that one
only if the entry is no value. -/
theorem disp_frame {fl : Floats F} (lk : Text → Option (Class F)) : ∀ N,
    (∀ t : PTree, sizeOf t < N → ∀ cur fd rs v rs', disp lk fl t cur fd rs = some (v, rs') → rs.next ≤ rs'.next ∧
      ∀ j < rs.next, (cur ≠ some j ∨ v.toVal ≠ none) → rs'.sc.heap j = rs.sc.heap j) ∧
    (∀ l : List PTree, sizeOf l < N → ∀ cur fd rs vs rs', dispList lk fl l cur fd rs = some (vs, rs') → rs.next ≤ rs'.next ∧
      ∀ j < rs.next, (cur ≠ some j ∨ ∀ v ∈ vs, v.toVal ≠ none) → rs'.sc.heap j = rs.sc.heap j) ∧
    (∀ l : List PTree, sizeOf l < N → ∀ i p is rs p' is' rs', dispDecls lk fl l i p is rs = some (p', is', rs') → rs.next ≤ rs'.next ∧
      ∀ j < rs.next, rs'.sc.heap j = rs.sc.heap j) ∧
    (∀ l : List PTree, sizeOf l < N → ∀ i fd rs rs', dispAttrs lk fl l i fd rs = some rs' → rs.next ≤ rs'.next ∧
      ∀ j < rs.next, j ≠ i → rs'.sc.heap j = rs.sc.heap j) := by
  intro N
  induction N with
  | zero => exact ⟨fun _ h => absurd h (by omega), fun _ h => absurd h (by omega), fun _ h => absurd h (by omega), fun _ h => absurd h (by omega)⟩
  | succ N ih =>
    obtain ⟨iht, ihl, ihd, iha⟩ := ih
    refine ⟨?_, ?_, ?_, ?_⟩
    · rintro ⟨n, m, k⟩ hs cur fd rs v rs' hd
      simp only [Tree.node.sizeOf_spec] at hs
      have hk := ihl k (by omega)
      cases n
      case rootItem =>
        simp only [disp] at hd
        split at hd
        · cases hd
        · rename_i items rs1 h1
          cases hd
          obtain ⟨h2, h3⟩ := hk _ _ _ _ _ h1
          exact ⟨h2, fun j hj hc => h3 j hj (hc.imp_right (fun h => absurd rfl h))⟩
      case vrmlScene =>
        simp only [disp] at hd
        split at hd
        · cases hd
        · rename_i items rs1 h1
          cases hd
          obtain ⟨h2, h3⟩ := hk _ _ _ _ _ h1
          exact ⟨h2, fun j hj hc => h3 j hj (hc.imp_right (fun h => absurd rfl h))⟩
      case node =>
        rw [Layout.disp_node] at hd
        split at hd
        · cases hd
        · rename_i nm gi rest hh
          split at hd
          · cases hd
          · rename_i c hc
            split at hd
            · cases hd
            · rename_i vs rs1 h1
              cases hd
              obtain ⟨l, rfl, hl⟩ := nodeHead_suffix hh
              obtain ⟨h2, h3⟩ := ihl rest (by have := sizeOf_append_lt (b := rest) hl; omega) _ _ _ _ _ h1
              obtain ⟨q1, q2, -⟩ := newNode_spec rs c nm
              refine ⟨by omega, fun j hj _ => ?_⟩
              rw [h3 j (by omega) (.inl (by simp; omega)), q2, if_neg (by omega)]
      case script =>
        rw [disp_scriptView] at hd
        have hsz := scriptHead_size k
        split at hd
        · cases hd
        · rename_i p is rs1 h1
          split at hd
          · cases hd
          · rename_i rs2 h2
            split at hd
            · cases hd
            · rename_i rs3 h3
              cases hd
              obtain ⟨q1, q2, -⟩ := newNode_spec rs (scriptProto : ProtoDef F).cls (scriptHead k).1
              obtain ⟨a1, a2⟩ := ihd _ (by omega) _ _ _ _ _ _ _ h1
              obtain ⟨b1, b2⟩ := addIs_frame h2
              obtain ⟨c1, c2⟩ := iha _ (by omega) _ _ _ _ h3
              have e1 : (rs1.setClass rs.next p.cls).next = rs1.next := rfl
              refine ⟨by omega, fun j hj _ => ?_⟩
              rw [c2 j (by omega) (by omega), b2]
              show (if j = rs.next then _ else rs1.sc.heap j) = _
              rw [if_neg (by omega), a2 j (by omega), q2, if_neg (by omega)]
      case sfNull => simp only [disp] at hd; cases hd; exact ⟨Nat.le_refl _, fun _ _ _ => rfl⟩
      case use =>
        simp only [disp] at hd
        split at hd
        · cases hd
        · cases hd; exact ⟨Nat.le_refl _, fun _ _ _ => rfl⟩
      case route =>
        rw [disp_route] at hd
        split at hd
        · split at hd
          · cases hd; exact ⟨Nat.le_refl _, fun _ _ _ => rfl⟩
          · cases hd
        · cases hd
      case attr =>
        cases cur with
        | none => rw [disp_attr_none] at hd; cases hd
        | some i =>
          rw [Layout.disp_attr] at hd
          split at hd
          · cases hd
          · rename_i nm value hh
            obtain ⟨t, rfl⟩ := attrParts_eq hh
            split at hd
            · cases hd
            · split at hd
              · cases hd
              · split at hd
                · cases hd
                · cases hd; exact ⟨Nat.le_refl _, fun _ _ _ => rfl⟩
              · cases hd
              · · split at hd
                  · cases hd
                  · split at hd
                    · cases hd
                    · rename_i v1 rs1 h1
                      split at hd
                      · cases hd
                      · split at hd
                        · cases hd
                        · rename_i rs2 h2
                          cases hd
                          obtain ⟨a1, a2⟩ := iht value (by simp at hs; omega) _ _ _ _ _ h1
                          obtain ⟨b1, b2⟩ := store_frame h2
                          refine ⟨by omega, fun j hj hc => ?_⟩
                          have hij : i ≠ j := by
                            rcases hc with hc | hc
                            · simpa using hc
                            · exact absurd rfl hc
                          rw [b2 j hij.symm, a2 j hj (.inl (by simpa using hij))]
      case field =>
        cases fd with
        | none => simp only [disp] at hd; cases hd
        | some kd =>
          cases k with
          | nil =>
            simp only [disp] at hd
            split at hd
            · cases hd; exact ⟨Nat.le_refl _, fun _ _ _ => rfl⟩
            · split at hd
              · cases hd
              · cases hd; exact ⟨Nat.le_refl _, fun _ _ _ => rfl⟩
          | cons t rest =>
            obtain ⟨n, m, tk⟩ := t
            simp only [disp] at hd
            split at hd
            · split at hd
              · exact iht _ (by simp at hs; simp; omega) _ _ _ _ _ hd
              · split at hd
                · cases hd
                · rename_i vs rs1 h1
                  cases hd
                  obtain ⟨h2, h3⟩ := hk _ _ _ _ _ h1
                  refine ⟨h2, fun j hj hc => h3 j hj (hc.imp_right (fun h => ?_))⟩
                  cases hr : refList vs with
                  | none => simp [RVal.toVal, hr] at h
                  | some r => exact refList_all hr
            · split at hd
              · cases hd; exact ⟨Nat.le_refl _, fun _ _ _ => rfl⟩
              · split at hd
                · cases hd
                · cases hd; exact ⟨Nat.le_refl _, fun _ _ _ => rfl⟩
      all_goals (simp only [disp] at hd; cases hd)
    · rintro (_ | ⟨t, l⟩) hs cur fd rs vs rs' hd
      · simp only [dispList] at hd; cases hd
        exact ⟨Nat.le_refl _, fun _ _ _ => rfl⟩
      · simp at hs
        simp only [dispList] at hd
        split at hd
        · cases hd
        · rename_i v rs1 h1
          split at hd
          · cases hd
          · rename_i vs1 rs2 h2
            cases hd
            obtain ⟨a1, a2⟩ := iht t (by omega) _ _ _ _ _ h1
            obtain ⟨b1, b2⟩ := ihl l (by omega) _ _ _ _ _ h2
            refine ⟨by omega, fun j hj hc => ?_⟩
            rw [b2 j (by omega) (hc.imp_right (fun h v hv => h v (by simp [hv]))), a2 j hj (hc.imp_right (fun h => h v (by simp)))]
    · rintro (_ | ⟨t, l⟩) hs i p is rs p' is' rs' hd
      · simp only [dispDecls] at hd; cases hd
        exact ⟨Nat.le_refl _, fun _ _ => rfl⟩
      · simp at hs
        rw [dispDecls_cons] at hd
        have hl := ihd l (by omega)
        split at hd
        · rename_i ex ty nm value hit
          have hsz := ditem_size hit
          split at hd
          · cases hd
          · split at hd
            · cases hd
            · split at hd
              · exact hl _ _ _ _ _ _ _ hd
              · split at hd
                · cases hd
                · rename_i v rs1 h1
                  split at hd
                  · cases hd
                  · rename_i w hw
                    obtain ⟨a1, a2⟩ := iht value (by omega) _ _ _ _ _ h1
                    obtain ⟨b1, b2⟩ := hl _ _ _ _ _ _ _ hd
                    refine ⟨by omega, fun j hj => ?_⟩
                    rw [b2 j (by omega), a2 j hj (.inr (by rw [hw]; simp))]
        · split at hd
          · cases hd
          · split at hd
            · split at hd
              · exact hl _ _ _ _ _ _ _ hd
              · split at hd
                · exact hl _ _ _ _ _ _ _ hd
                · cases hd
            · cases hd
        · exact hl _ _ _ _ _ _ _ hd
        · cases hd
    · rintro (_ | ⟨t, l⟩) hs i fd rs rs' hd
      · simp only [dispAttrs] at hd; cases hd
        exact ⟨Nat.le_refl _, fun _ _ _ => rfl⟩
      · simp at hs
        simp only [dispAttrs] at hd
        split at hd
        · split at hd
          · cases hd
          · rename_i v rs1 h1
            obtain ⟨a1, a2⟩ := iht t (by omega) _ _ _ _ _ h1
            obtain ⟨b1, b2⟩ := iha l (by omega) _ _ _ _ hd
            refine ⟨by omega, fun j hj hi => ?_⟩
            rw [b2 j (by omega) hi, a2 j hj (.inl (by simpa using Ne.symm hi))]
        · exact iha l (by omega) _ _ _ _ hd

/-! ### The classes of Scripts -/

/-- what the first pass over a Script keeps -/
structure PInv (fl : Floats F) (p : ProtoDef F) (N : Nat) : Prop where
  cls : ScriptClass fl p.cls
  body : p.body = none
  dflts : ∀ f ∈ p.fields, ∀ j ∈ f.decl.dfltNodes, j < N

theorem PInv.mono {fl : Floats F} {p : ProtoDef F} {N M : Nat} (h : PInv fl p N) (hl : N ≤ M) : PInv fl p M :=
  ⟨h.cls, h.body, fun f hf j hj => by have := h.dflts f hf j hj; omega⟩

theorem mapped_nil {p : ProtoDef F} (h : p.body = none) : p.mapped = [] := by simp [ProtoDef.mapped, ProtoDef.isMaps, h]

theorem dfltOf_value (v : Val F) : (dfltOf v).value = some v := by
  cases v with
  | ref o => cases o <;> rfl
  | _ => rfl

theorem scriptProto_inv (fl : Floats F) : PInv fl (scriptProto : ProtoDef F) 0 := by
  refine ⟨⟨rfl, fun d hd => .inl hd, (fun e he => by cases he), ?_, rfl⟩, rfl, ?_⟩
  · show [chars "externalURL", chars "url", chars "directOutput", chars "mustEvaluate"].Nodup
    decide
  · intro f hf j hj
    simp only [scriptProto, List.mem_cons, List.not_mem_nil, or_false] at hf
    rcases hf with rfl | rfl | rfl | rfl <;> simp [FieldDecl.dfltNodes, externalURL, Dflt.value, Val.nodes] at hj

theorem addField_inv {fl : Floats F} {p : ProtoDef F} {N} (h : PInv fl p N) {f : PField F} (hr : reserved f.decl.name = false)
    (ht : fl.types.field f.decl.cls = some ⟨f.decl.kind, f.decl.str, f.decl.conv⟩) (hd : ∀ j ∈ f.decl.dfltNodes, j < N) : PInv fl (p.addField f) N := by
  refine ⟨⟨h.cls.proto, ?_, ?_, ?_, ?_⟩, h.body, ?_⟩
  · intro d hd
    simp only [ProtoDef.cls, ProtoDef.addField, List.map_append, List.mem_append, List.mem_map, List.mem_filter, List.map_cons, List.map_nil, List.mem_singleton] at hd
    rcases hd with ⟨g, ⟨hg, -⟩, rfl⟩ | rfl
    · exact h.cls.fields _ (List.mem_map.2 ⟨g, hg, rfl⟩)
    · exact .inr ⟨hr, ht⟩
  · intro e he
    exact h.cls.events e (List.mem_filter.1 he).1
  · have hn := h.cls.distinct
    simp only [ProtoDef.cls, List.map_map] at hn
    show (List.map FieldDecl.name (List.map PField.decl (_ ++ [f])) ++ _).Nodup
    rw [List.nodup_append] at hn ⊢
    obtain ⟨h1, h2, h3⟩ := hn
    simp only [List.map_append, List.map_map, List.map_cons, List.map_nil]
    have hsub : (List.map (FieldDecl.name ∘ PField.decl) (p.fields.filter (fun g => g.decl.name != f.decl.name))).Sublist (List.map (FieldDecl.name ∘ PField.decl) p.fields) :=
      List.Sublist.map _ List.filter_sublist
    have hsub2 : (List.map EventDecl.name (p.events.filter (fun e => e.name != f.decl.name))).Sublist (List.map EventDecl.name p.events) :=
      List.Sublist.map _ List.filter_sublist
    refine ⟨?_, hsub2.nodup h2, ?_⟩
    · rw [List.nodup_append]
      refine ⟨hsub.nodup h1, by simp, ?_⟩
      intro a ha b hb
      simp only [List.mem_singleton] at hb
      subst hb
      simp only [List.mem_map, List.mem_filter] at ha
      obtain ⟨g, ⟨-, hg⟩, rfl⟩ := ha
      simpa using hg
    · intro a ha b hb
      rcases List.mem_append.1 ha with ha | ha
      · exact h3 a (hsub.subset ha) b (hsub2.subset hb)
      · simp only [List.mem_singleton] at ha
        subst ha
        obtain ⟨g, hg, rfl⟩ := List.mem_map.1 hb
        have := (List.mem_filter.1 hg).2
        intro e
        simp [e] at this
  · exact mapped_nil (p := p.addField f) h.body
  · intro g hg
    simp only [ProtoDef.addField, List.mem_append, List.mem_filter, List.mem_singleton] at hg
    rcases hg with ⟨hg, -⟩ | rfl
    · exact h.dflts g hg
    · exact hd

theorem addEvent_inv {fl : Floats F} {p : ProtoDef F} {N} (h : PInv fl p N) {e : EventDecl} (hr : reserved e.name = false)
    (ht : fl.types.event e.type = true) : PInv fl (p.addEvent e) N := by
  refine ⟨⟨h.cls.proto, ?_, ?_, ?_, ?_⟩, h.body, ?_⟩
  · intro d hd
    simp only [ProtoDef.cls, ProtoDef.addEvent, List.mem_map, List.mem_filter] at hd
    obtain ⟨g, ⟨hg, -⟩, rfl⟩ := hd
    exact h.cls.fields _ (List.mem_map.2 ⟨g, hg, rfl⟩)
  · intro g hg
    simp only [ProtoDef.cls, ProtoDef.addEvent, List.mem_append, List.mem_filter, List.mem_singleton] at hg
    rcases hg with ⟨hg, -⟩ | rfl
    · exact h.cls.events g hg
    · exact ⟨hr, ht⟩
  · have hn := h.cls.distinct
    simp only [ProtoDef.cls, List.map_map] at hn
    show (List.map FieldDecl.name (List.map PField.decl _) ++ List.map EventDecl.name (_ ++ [e])).Nodup
    rw [List.nodup_append] at hn ⊢
    obtain ⟨h1, h2, h3⟩ := hn
    simp only [List.map_append, List.map_map, List.map_cons, List.map_nil]
    have hsub : (List.map (FieldDecl.name ∘ PField.decl) (p.addEvent e).fields).Sublist (List.map (FieldDecl.name ∘ PField.decl) p.fields) :=
      List.Sublist.map _ List.filter_sublist
    have hsub2 : (List.map EventDecl.name (p.events.filter (fun g => g.name != e.name))).Sublist (List.map EventDecl.name p.events) :=
      List.Sublist.map _ List.filter_sublist
    refine ⟨hsub.nodup h1, ?_, ?_⟩
    · rw [List.nodup_append]
      refine ⟨hsub2.nodup h2, by simp, ?_⟩
      intro a ha b hb
      simp only [List.mem_singleton] at hb
      subst hb
      simp only [List.mem_map, List.mem_filter] at ha
      obtain ⟨g, ⟨-, hg⟩, rfl⟩ := ha
      simpa using hg
    · intro a ha b hb
      rcases List.mem_append.1 hb with hb | hb
      · exact h3 a (hsub.subset ha) b (hsub2.subset hb)
      · simp only [List.mem_singleton] at hb
        subst hb
        simp only [ProtoDef.addEvent, List.mem_map, List.mem_filter] at ha
        obtain ⟨g, ⟨-, hg⟩, rfl⟩ := ha
        simpa using hg
  · exact mapped_nil (p := p.addEvent e) h.body
  · intro g hg
    simp only [ProtoDef.addEvent, List.mem_filter] at hg
    exact h.dflts g hg.1

theorem scriptHead_named {k : List PTree} (hk : Nameds k) : ((scriptHead k).1 = [] ∨ LegalName (scriptHead k).1) ∧ Nameds (scriptHead k).2 := by
  match k, hk with
  | [], _ => exact ⟨.inl rfl, trivial⟩
  | .node n m k :: l, hk =>
    cases n
    case name => exact ⟨.inr (hk.1.1 rfl), hk.2⟩
    all_goals exact ⟨.inl rfl, hk⟩

theorem ditem_named {t : PTree} (ht : Named t) {ex ty nm value} (h : ditem t = .field ex ty nm value) : Named value := by
  unfold ditem at h
  split at h <;> first | cases h | skip
  exact ht.2.2.2.2.1

/-- a new class for a node without values -/
theorem setClass_inv {known : Class F → Prop} {rs : RSt F} (h : RInv known rs) {i c DEF c'} (hi : rs.sc.heap i = some ⟨c, DEF, fun _ => none⟩) (hc : known c')
    (hd : ∀ d ∈ c'.fields, ∀ j ∈ d.dfltNodes, j < rs.next) : RInv known (rs.setClass i c') := by
  have hheap : ∀ j, (rs.setClass i c').sc.heap j = if j = i then some ⟨c', DEF, fun _ => none⟩ else rs.sc.heap j := by
    intro j; simp [RSt.setClass, hi]
  have hsome : ∀ j, ((rs.setClass i c').sc.heap j).isSome = (rs.sc.heap j).isSome := by
    intro j; rw [hheap]; split
    · rename_i e; subst e; rw [hi]; rfl
    · rfl
  have hget : ∀ j m', (rs.setClass i c').sc.heap j = some m' → ∃ m, rs.sc.heap j = some m ∧ m'.DEF = m.DEF ∧ (m' = m ∨ m' = ⟨c', DEF, fun _ => none⟩) := by
    intro j m' hm
    rw [hheap] at hm
    split at hm
    · rename_i e; subst e; cases hm; exact ⟨_, hi, rfl, .inr rfl⟩
    · exact ⟨m', hm, rfl, .inl rfl⟩
  have hfwd : ∀ j m, rs.sc.heap j = some m → ∃ m', (rs.setClass i c').sc.heap j = some m' ∧ m'.DEF = m.DEF := by
    intro j m hm
    rw [hheap]; split
    · rename_i e; subst e; rw [hi] at hm; cases hm; exact ⟨_, rfl, rfl⟩
    · exact ⟨m, hm, rfl⟩
  refine ⟨fun j => by rw [hsome]; exact h.ids j, ?_⟩
  refine ⟨?_, ?_, ?_, ?_, ?_, ?_, ?_, ?_, ?_, ⟨rs.next, fun j => by rw [hsome]; exact h.ids j⟩⟩
  · intro j m' hm
    obtain ⟨m, h1, -, rfl | rfl⟩ := hget j m' hm
    · exact h.wf.cls j _ h1
    · exact hc
  · intro j m' f u hm hu
    obtain ⟨m, h1, -, rfl | rfl⟩ := hget j m' hm
    · simp only [hsome]; exact h.wf.value j _ f u h1 hu
    · cases hu
  · intro j m' hm d hdm k hk
    obtain ⟨m, h1, -, rfl | rfl⟩ := hget j m' hm
    · rw [hsome]; exact h.wf.dflts j _ h1 d hdm k hk
    · rw [hsome]; exact (h.ids k).2 (hd d hdm k hk)
  · intro j m' hm
    obtain ⟨m, h1, h2, -⟩ := hget j m' hm
    rw [h2]; exact h.wf.name j m h1
  · intro nm j hj
    obtain ⟨m, h1, h2⟩ := h.wf.table nm j hj
    obtain ⟨m', h3, h4⟩ := hfwd j m h1
    exact ⟨m', h3, h4.trans h2⟩
  · intro j m' hm hne
    obtain ⟨m, h1, h2, -⟩ := hget j m' hm
    rw [h2] at hne ⊢
    exact h.wf.latest j m h1 hne
  · intro j hj
    rw [hsome]; exact h.wf.children j hj
  · intro r hr
    obtain ⟨⟨m1, h1, h1'⟩, ⟨m2, h2, h2'⟩, h3⟩ := h.wf.routes r hr
    obtain ⟨m1', a1, a2⟩ := hfwd _ _ h1
    obtain ⟨m2', b1, b2⟩ := hfwd _ _ h2
    exact ⟨⟨m1', a1, a2 ▸ h1'⟩, ⟨m2', b1, b2 ▸ h2'⟩, h3⟩
  · intro dict nm l j f h1 h2 h3
    rw [hsome]; exact h.wf.is dict nm l j f h1 h2 h3

theorem addIs_inv {known : Class F → Prop} {rs rs' : RSt F} (h : RInv known rs) {i l} (hi : (rs.sc.heap i).isSome) (ha : rs.addIs i l = some rs') :
    RInv known rs' ∧ REx rs rs' := by
  simp only [RSt.addIs] at ha
  split at ha
  · cases ha; exact ⟨h, .refl _⟩
  · split at ha
    · cases ha
    · rename_i dict hdict
      cases ha
      refine ⟨⟨h.ids, h.wf.cls, h.wf.value, h.wf.dflts, h.wf.name, h.wf.table, h.wf.latest, h.wf.children, h.wf.routes, ?_, h.wf.finite⟩,
        ⟨Nat.le_refl _, (REx.refl rs).node, fun hi => by rw [hdict] at hi; cases hi⟩⟩
      have key : ∀ (l : List (Text × Text)) (dict : List (Text × List (Nat × Text))), (∀ nm l j f, (nm, l) ∈ dict → (j, f) ∈ l → (rs.sc.heap j).isSome) →
          ∀ nm l' j f, (nm, l') ∈ l.foldl (fun d e => isAppend e.1 (i, e.2) d) dict → (j, f) ∈ l' → (rs.sc.heap j).isSome := by
        intro l
        induction l with
        | nil => intro dict h; exact h
        | cons e l ih =>
          intro dict h
          refine ih _ ?_
          intro nm l' j f h1 h2
          rcases isAppend_mem' h1 _ h2 with h3 | ⟨l2, h3, h4⟩
          · cases h3; exact hi
          · exact h _ _ _ _ h3 h4
      intro dict' nm l' j f e1 e2 e3
      cases e1
      exact key l dict (fun nm l j f => h.wf.is dict nm l j f hdict) nm l' j f e2 e3

/-- what dispatching keeps -/
def Keeps (known : Class F → Prop) (rs rs' : RSt F) : Prop := RInv known rs' ∧ REx rs rs'

theorem disp_inv {fl : Floats F} {known : Class F → Prop} (lk : Text → Option (Class F)) (hlk : ∀ t c, lk t = some c → known c ∧ ∀ d ∈ c.fields, d.dfltNodes = [])
    (hscr : ∀ c, ScriptClass fl c → known c) (hty : ∀ ty v, (fl.types.dflt ty).value = some v → v.nodes = []) : ∀ N,
    (∀ t : PTree, sizeOf t < N → Named t → ∀ cur fd rs v rs', RInv known rs → disp lk fl t cur fd rs = some (v, rs') → Keeps known rs rs' ∧ okVal v rs'.next) ∧
    (∀ l : List PTree, sizeOf l < N → Nameds l → ∀ cur fd rs vs rs', RInv known rs → dispList lk fl l cur fd rs = some (vs, rs') → Keeps known rs rs' ∧ ∀ v ∈ vs, okVal v rs'.next) ∧
    (∀ l : List PTree, sizeOf l < N → Nameds l → ∀ i p is rs p' is' rs', RInv known rs → PInv fl p rs.next → dispDecls lk fl l i p is rs = some (p', is', rs') →
      Keeps known rs rs' ∧ PInv fl p' rs'.next) ∧
    (∀ l : List PTree, sizeOf l < N → Nameds l → ∀ i fd rs rs', RInv known rs → dispAttrs lk fl l i fd rs = some rs' → Keeps known rs rs') := by
  intro N
  induction N with
  | zero => exact ⟨fun _ h => absurd h (by omega), fun _ h => absurd h (by omega), fun _ h => absurd h (by omega), fun _ h => absurd h (by omega)⟩
  | succ N ih =>
    obtain ⟨iht, ihl, ihd, iha⟩ := ih
    have hnothing : ∀ N, okVal (RVal.nothing : RVal F) N := by intro N w hw; cases hw
    refine ⟨?_, ?_, ?_, ?_⟩
    · rintro ⟨n, m, k⟩ hs hw cur fd rs v rs' hinv hd
      simp only [Tree.node.sizeOf_spec] at hs
      have hk := ihl k (by omega) hw.2
      cases n
      case rootItem =>
        simp only [disp] at hd
        split at hd
        · cases hd
        · rename_i items rs1 h1
          cases hd
          obtain ⟨⟨h2, h3⟩, h4⟩ := hk _ _ _ _ _ hinv h1
          refine ⟨⟨⟨h2.ids, h2.wf.cls, h2.wf.value, h2.wf.dflts, h2.wf.name, h2.wf.table, h2.wf.latest, ?_, h2.wf.routes, h2.wf.is, h2.wf.finite⟩, ⟨h3.next, h3.node, h3.is⟩⟩, hnothing _⟩
          intro i hi
          rcases List.mem_append.1 hi with hi | hi
          · exact h2.wf.children i hi
          · simp only [List.mem_filterMap] at hi
            obtain ⟨x, hx, hx'⟩ := hi
            split at hx'
            · cases hx'
              exact (h2.ids i).2 (h4 _ hx _ rfl i (by simp [Val.nodes]))
            · cases hx'
      case vrmlScene =>
        simp only [disp] at hd
        split at hd
        · cases hd
        · rename_i items rs1 h1
          cases hd
          obtain ⟨h2, h4⟩ := hk _ _ _ _ _ hinv h1
          exact ⟨h2, hnothing _⟩
      case node =>
        rw [Layout.disp_node] at hd
        split at hd
        · cases hd
        · rename_i nm gi rest hh
          split at hd
          · cases hd
          · rename_i c hc
            split at hd
            · cases hd
            · rename_i vs rs1 h1
              cases hd
              obtain ⟨l, rfl, hl⟩ := nodeHead_suffix hh
              obtain ⟨hn, hr⟩ := nodeHead_named hw.2 hh
              obtain ⟨hi, he⟩ := newNode_inv hinv (hlk _ _ hc).1 (hlk _ _ hc).2 hn
              obtain ⟨⟨h2, h3⟩, -⟩ := ihl rest (by have := sizeOf_append_lt (b := rest) hl; omega) hr _ _ _ _ _ hi h1
              refine ⟨⟨h2, he.trans h3⟩, ?_⟩
              intro w hw j hj
              cases hw
              simp [Val.nodes] at hj; subst hj
              have := h3.next
              have := (newNode_spec rs c nm).1
              omega
      case script =>
        rw [disp_scriptView] at hd
        have hsz := scriptHead_size k
        obtain ⟨hn, hr⟩ := scriptHead_named hw.2
        split at hd
        · cases hd
        · rename_i p is rs1 h1
          split at hd
          · cases hd
          · rename_i rs2 h2
            split at hd
            · cases hd
            · rename_i rs3 h3
              cases hd
              have hsp := scriptProto_inv fl
              obtain ⟨q1, q2, -⟩ := newNode_spec rs (scriptProto : ProtoDef F).cls (scriptHead k).1
              obtain ⟨hi, he⟩ := newNode_inv (c := (scriptProto : ProtoDef F).cls) hinv (hscr _ hsp.cls) (fun d hd => by
                obtain ⟨f, hf, rfl⟩ := List.mem_map.1 hd
                exact List.eq_nil_iff_forall_not_mem.2 (fun j hj => absurd (hsp.dflts f hf j hj) (by omega))) hn
              obtain ⟨⟨a1, a2⟩, a3⟩ := ihd _ (by omega) hr _ _ _ _ _ _ _ hi (hsp.mono (by omega)) h1
              obtain ⟨a4, a5⟩ := (disp_frame (fl := fl) lk (N + 1)).2.2.1 _ (by omega) _ _ _ _ _ _ _ h1
              have hnew : rs1.sc.heap rs.next = some ⟨(scriptProto : ProtoDef F).cls, (scriptHead k).1, fun _ => none⟩ := by
                rw [a5 _ (by omega), q2, if_pos rfl]
              have hb := setClass_inv a1 hnew (hscr _ a3.cls) (fun d hd j hj => by
                obtain ⟨f, hf, rfl⟩ := List.mem_map.1 hd
                exact a3.dflts f hf j hj)
              obtain ⟨c1, c2⟩ := addIs_inv hb (by simp [RSt.setClass, hnew]) h2
              obtain ⟨d1, d2⟩ := iha _ (by omega) hr _ _ _ _ c1 h3
              have e1 : (rs1.setClass rs.next p.cls).next = rs1.next := rfl
              have hb2 : REx rs (rs1.setClass rs.next p.cls) := by
                refine ⟨by omega, fun i n hin => ?_, fun his => ?_⟩
                · obtain ⟨n', b1, b2⟩ := (he.trans a2).node i n hin
                  have hne : i ≠ rs.next := by
                    rintro rfl
                    have := (hinv.ids rs.next).1 (by rw [hin]; rfl)
                    omega
                  exact ⟨n', by simpa [RSt.setClass, hne] using b1, b2⟩
                · exact (he.trans a2).is his
              refine ⟨⟨d1, (hb2.trans c2).trans d2⟩, ?_⟩
              intro w hw j hj
              cases hw
              simp [Val.nodes] at hj; subst hj
              have := c2.next
              have := d2.next
              omega
      case sfNull =>
        simp only [disp] at hd
        cases hd
        exact ⟨⟨hinv, .refl _⟩, fun w hw j hj => by cases hw; simp [Val.nodes] at hj⟩
      case use =>
        simp only [disp] at hd
        split at hd
        · cases hd
        · rename_i i hi
          cases hd
          refine ⟨⟨hinv, .refl _⟩, fun w hw j hj => ?_⟩
          cases hw
          simp [Val.nodes] at hj; subst hj
          obtain ⟨n, hn, -⟩ := hinv.wf.table _ _ hi
          exact (hinv.ids _).1 (by rw [hn]; rfl)
      case route =>
        rw [disp_route] at hd
        split at hd
        · rename_i s sf d df hh
          split at hd
          · rename_i si di h1 h2
            cases hd
            obtain ⟨q1, q2, q3, q4⟩ := routeNames_named hw.2 hh
            refine ⟨⟨⟨hinv.ids, hinv.wf.cls, hinv.wf.value, hinv.wf.dflts, hinv.wf.name, hinv.wf.table, hinv.wf.latest, hinv.wf.children, ?_, hinv.wf.is, hinv.wf.finite⟩, ⟨Nat.le_refl _, (REx.refl rs).node, id⟩⟩, hnothing _⟩
            intro r hr
            rcases List.mem_append.1 hr with hr | hr
            · exact hinv.wf.routes r hr
            · simp at hr; subst hr
              obtain ⟨n1, a1, a2⟩ := hinv.wf.table _ _ h1
              obtain ⟨n2, b1, b2⟩ := hinv.wf.table _ _ h2
              exact ⟨⟨n1, a1, a2 ▸ q1⟩, ⟨n2, b1, b2 ▸ q3⟩, q2, q4⟩
          · cases hd
        · cases hd
      case attr =>
        cases cur with
        | none => rw [disp_attr_none] at hd; cases hd
        | some i =>
          rw [Layout.disp_attr] at hd
          split at hd
          · cases hd
          · rename_i nm value hh
            obtain ⟨t, rfl⟩ := attrParts_eq hh
            split at hd
            · cases hd
            · rename_i n hn
              split at hd
              · cases hd
              · · split at hd
                  · cases hd
                  · rename_i dict hdict
                    cases hd
                    refine ⟨⟨⟨hinv.ids, hinv.wf.cls, hinv.wf.value, hinv.wf.dflts, hinv.wf.name, hinv.wf.table, hinv.wf.latest, hinv.wf.children, hinv.wf.routes, ?_, hinv.wf.finite⟩, ⟨Nat.le_refl _, (REx.refl rs).node, fun hi => by rw [hdict] at hi; cases hi⟩⟩, hnothing _⟩
                    intro dict' nm' l' i' f' e1 e2 e3
                    cases e1
                    rcases isAppend_mem' e2 _ e3 with h | ⟨l2, h1, h2⟩
                    · cases h; show (rs.sc.heap i).isSome = true; rw [hn]; rfl
                    · exact hinv.wf.is dict _ _ _ _ hdict h1 h2
              · cases hd
              · rename_i d hdd _
                have hmem := getField_mem hdd
                · split at hd
                  · cases hd
                  · split at hd
                    · cases hd
                    · rename_i v1 rs1 h1
                      split at hd
                      · cases hd
                      · rename_i w hw1
                        split at hd
                        · cases hd
                        · rename_i rs2 h2
                          cases hd
                          obtain ⟨⟨h3, h4⟩, h5⟩ := iht value (by simp at hs; omega) hw.2.2.1 _ _ _ _ _ hinv h1
                          obtain ⟨n', e1, e2, e3⟩ := h4.node i n hn
                          obtain ⟨h6, h7⟩ := store_inv h3 e1 (by rw [e2]; exact hmem) (h5 w hw1) h2
                          exact ⟨⟨h6, h4.trans h7⟩, hnothing _⟩
      case field =>
        have hsimple : ∀ kd kids u, simpleValue fl kd kids = some u → ∀ N, okVal (.val u) N := by
          intro kd kids u hu N w hw j hj
          cases hw
          rw [simpleValue_nodes hu] at hj; cases hj
        have hempty : ∀ N, okVal (.val (.refs []) : RVal F) N := by
          intro N w hw j hj; cases hw; cases hj
        cases fd with
        | none => simp only [disp] at hd; cases hd
        | some kd =>
          cases k with
          | nil =>
            simp only [disp] at hd
            split at hd
            · cases hd; exact ⟨⟨hinv, .refl _⟩, hempty _⟩
            · split at hd
              · cases hd
              · cases hd; exact ⟨⟨hinv, .refl _⟩, hsimple _ _ _ ‹_› _⟩
          | cons t rest =>
            obtain ⟨n, m, tk⟩ := t
            simp only [disp] at hd
            split at hd
            · split at hd
              · exact iht _ (by simp at hs; simp; omega) hw.2.1 _ _ _ _ _ hinv hd
              · split at hd
                · cases hd
                · rename_i vs rs1 h1
                  cases hd
                  obtain ⟨h2, h3⟩ := hk _ _ _ _ _ hinv h1
                  exact ⟨h2, okVal_vals h3⟩
            · split at hd
              · cases hd; exact ⟨⟨hinv, .refl _⟩, hempty _⟩
              · split at hd
                · cases hd
                · cases hd; exact ⟨⟨hinv, .refl _⟩, hsimple _ _ _ ‹_› _⟩
      all_goals (simp only [disp] at hd; cases hd)
    · rintro (_ | ⟨t, l⟩) hs hw cur fd rs vs rs' hinv hd
      · simp only [dispList] at hd; cases hd
        exact ⟨⟨hinv, .refl _⟩, fun v hv => by cases hv⟩
      · simp at hs
        simp only [dispList] at hd
        split at hd
        · cases hd
        · rename_i v rs1 h1
          split at hd
          · cases hd
          · rename_i vs1 rs2 h2
            cases hd
            obtain ⟨⟨h3, h4⟩, h5⟩ := iht t (by omega) hw.1 _ _ _ _ _ hinv h1
            obtain ⟨⟨h6, h7⟩, h8⟩ := ihl l (by omega) hw.2 _ _ _ _ _ h3 h2
            refine ⟨⟨h6, h4.trans h7⟩, fun x hx => ?_⟩
            rcases List.mem_cons.1 hx with rfl | hx
            · exact h5.mono h7.next
            · exact h8 x hx
    · rintro (_ | ⟨t, l⟩) hs hw i p is rs p' is' rs' hinv hp hd
      · simp only [dispDecls] at hd; cases hd
        exact ⟨⟨hinv, .refl _⟩, hp⟩
      · simp at hs
        rw [dispDecls_cons] at hd
        have hl := ihd l (by omega) hw.2
        split at hd
        · rename_i ex ty nm value hit
          have hsz := ditem_size hit
          split at hd
          · cases hd
          · rename_i hres
            split at hd
            · cases hd
            · rename_i ft hft
              split at hd
              · refine hl _ _ _ _ _ _ _ hinv (addField_inv hp (by simpa using hres) hft ?_) hd
                intro j hj
                simp only [FieldDecl.dfltNodes] at hj
                cases hv : (fl.types.dflt ty).value with
                | none => simp [hv] at hj
                | some v => simp [hv, hty _ _ hv] at hj
              · split at hd
                · cases hd
                · rename_i v rs1 h1
                  split at hd
                  · cases hd
                  · rename_i w hw1
                    obtain ⟨⟨h3, h4⟩, h5⟩ := iht value (by omega) (ditem_named hw.1 hit) _ _ _ _ _ hinv h1
                    obtain ⟨⟨h6, h7⟩, h8⟩ := hl _ _ _ _ _ _ _ h3 (addField_inv (hp.mono h4.next) (by simpa using hres) hft (fun j hj => by
                      simp only [FieldDecl.dfltNodes, dfltOf_value] at hj
                      exact h5 w hw1 j hj)) hd
                    exact ⟨⟨h6, h4.trans h7⟩, h8⟩
        · split at hd
          · cases hd
          · rename_i hres
            simp only [Bool.or_eq_true, not_or, Bool.not_eq_true] at hres
            split at hd
            · rename_i hev
              split at hd
              · exact hl _ _ _ _ _ _ _ hinv (addEvent_inv hp hres.1 hev) hd
              · split at hd
                · exact hl _ _ _ _ _ _ _ hinv (addEvent_inv hp hres.1 hev) hd
                · cases hd
            · cases hd
        · exact hl _ _ _ _ _ _ _ hinv hp hd
        · cases hd
    · rintro (_ | ⟨t, l⟩) hs hw i fd rs rs' hinv hd
      · simp only [dispAttrs] at hd; cases hd
        exact ⟨hinv, .refl _⟩
      · simp at hs
        simp only [dispAttrs] at hd
        split at hd
        · split at hd
          · cases hd
          · rename_i v rs1 h1
            obtain ⟨⟨h3, h4⟩, -⟩ := iht t (by omega) hw.1 _ _ _ _ _ hinv h1
            obtain ⟨h6, h7⟩ := iha l (by omega) hw.2 _ _ _ _ h3 hd
            exact ⟨h6, h4.trans h7⟩
        · exact iha l (by omega) hw.2 _ _ _ _ hinv hd

theorem empty_inv (known : Class F → Prop) (is : Option (List (Text × List (Nat × Text)))) (h : is = none ∨ is = some []) :
    RInv known ⟨{ (Scene.empty : Scene F) with is := is }, 0⟩ := by
  refine ⟨fun i => by simp [Scene.empty], ⟨?_, ?_, ?_, ?_, ?_, ?_, ?_, ?_, ?_, ⟨0, fun i => by simp [Scene.empty]⟩⟩⟩
  · intro i n hn; cases hn
  · intro i n f v hn; cases hn
  · intro i n hn; cases hn
  · intro i n hn; cases hn
  · intro nm i hi; cases hi
  · intro i n hn; cases hn
  · intro i hi; cases hi
  · intro i hi; cases hi
  · intro dict nm l i f h1 h2
    rcases h with rfl | rfl <;> cases h1
    cases h2

/-! ### Files with prototypes -/

theorem wf_mono {k k' : Class F → Prop} (h : ∀ c, k c → k' c) {sc : Scene F} (hw : WellFormed k sc) : WellFormed k' sc :=
  { hw with cls := fun i n hn => h _ (hw.cls i n hn) }

theorem rinv_mono {k k' : Class F → Prop} (h : ∀ c, k c → k' c) {rs : RSt F} (hw : RInv k rs) : RInv k' rs := ⟨hw.ids, wf_mono h hw.wf⟩

/-- classes of a file: built-in ones, those of Scripts, and those of its prototypes -/
def fileClass (fl : Floats F) (base : Text → Option (Class F)) (protos : List (Text × ProtoDef F)) (c : Class F) : Prop :=
  (∃ t, base t = some c) ∨ ScriptClass fl c ∨ ∃ x ∈ protos, x.2.cls = c

theorem lookup_class {fl : Floats F} {base : Text → Option (Class F)} {protos : List (Text × ProtoDef F)} {t c} (h : FSt.lookup base protos t = some c) : fileClass fl base protos c ∧ ((∃ t, base t = some c) ∨ ∃ x ∈ protos, x.2.cls = c) := by
  refine (fun h' => ⟨h'.elim .inl (fun h => .inr (.inr h)), h'⟩) ?_
  simp only [FSt.lookup] at h
  split at h
  · rename_i p hp
    split at h
    · cases h
      exact .inr ⟨(t, p), by
        have : ∀ l : List (Text × ProtoDef F), l.lookup t = some p → (t, p) ∈ l := by
          intro l
          induction l with
          | nil => intro h; cases h
          | cons q l ih =>
            obtain ⟨a, b⟩ := q
            intro h
            rw [List.lookup_cons] at h
            split at h
            · rename_i he
              cases h
              have := beq_iff_eq.1 he
              subst this; simp
            · exact List.mem_cons_of_mem _ (ih h)
        exact this _ hp, rfl⟩
    · cases h
  · exact .inl ⟨t, h⟩

theorem readDecl_body {lk : Text → Option (Class F)} {fl : Floats F} {rs : RSt F} {p q : ProtoDef F} {t : PTree} (h : readDecl lk fl rs p t = some q) : q.name = p.name ∧
    ((∀ f ∈ p.fields, f.decl.dfltNodes = []) → ∀ f ∈ q.fields, f.decl.dfltNodes = []) := by
  have hplain : ∀ v : Val F, v.plain = true → v.nodes = [] := by
    intro v hv
    match v, hv with
    | .ref none, _ => rfl
    | .ref (some _), hv => cases hv
    | .refs [], _ => rfl
    | .refs (_ :: _), hv => cases hv
    | .bool _, _ | .int _, _ | .num _, _ | .str _, _ | .ints _, _ | .nums _, _ | .rows _, _ | .strs _, _ => rfl
  revert h
  unfold readDecl
  split
  · split
    · intro h; cases h
    · split
      · intro h; cases h
      · split
        · intro h; cases h
        · split
          · intro h; cases h
          · split
            · rename_i hpl
              intro h; cases h
              refine ⟨rfl, fun hp f hf => ?_⟩
              simp only [ProtoDef.addField, List.mem_append, List.mem_filter, List.mem_singleton] at hf
              rcases hf with ⟨hf, -⟩ | rfl
              · exact hp f hf
              · simp [FieldDecl.dfltNodes, dfltOf_value, hplain _ hpl]
            · intro h; cases h
  · split
    · intro h; cases h
    · split
      · intro h; cases h
        exact ⟨rfl, fun hp f hf => hp f (List.mem_filter.1 hf).1⟩
      · intro h; cases h
  · intro h; cases h

theorem readDecls_inv {lk : Text → Option (Class F)} {fl : Floats F} {known : Class F → Prop} (hlk : ∀ t c, lk t = some c → known c ∧ ∀ d ∈ c.fields, d.dfltNodes = [])
    (hscr : ∀ c, ScriptClass fl c → known c) (hty : ∀ ty v, (fl.types.dflt ty).value = some v → v.nodes = [])
    {rs : RSt F} {l : List PTree} (hn : Nameds l) : ∀ {p q}, (∀ f ∈ p.fields, f.decl.dfltNodes = []) → readDecls lk fl rs l p = some q →
      q.name = p.name ∧ (∀ f ∈ q.fields, f.decl.dfltNodes = []) ∧ ∃ b, q.body = some b ∧ WellFormed known b := by
  induction l with
  | nil => intro p q _ h; cases h
  | cons t l ih =>
    intro p q hp h
    rw [readDecls_eq] at h
    cases hs : soleScene (t :: l) with
    | some s =>
      have := soleScene_eq hs
      cases this
      rw [hs] at h
      simp only at h
      split at h
      · cases h
      split at h
      · cases h
      · rename_i v rs1 h1
        cases h
        obtain ⟨⟨h2, -⟩, -⟩ := (disp_inv lk hlk hscr hty (sizeOf t + 1)).1 t (by omega) hn.1 _ _ _ _ _ (empty_inv known (some []) (.inr rfl)) h1
        exact ⟨rfl, hp, _, rfl, h2.wf⟩
    | none =>
      rw [hs] at h
      simp only at h
      split at h
      · cases h
      · rename_i p1 h1
        obtain ⟨h2, h3⟩ := ih hn.2 ((readDecl_body h1).2 hp) h
        exact ⟨h2.trans (readDecl_body h1).1, h3⟩

theorem protoItem_named {t : PTree} (hw : Named t) {nm rest} (h : protoItem t = some (nm, rest)) : Nameds rest := by
  obtain ⟨n, m, k⟩ := t
  cases n
  case rootItem =>
    match k, hw with
    | [], _ => cases h
    | _ :: _ :: _, _ => simp [protoItem] at h
    | [.node n2 m2 k2], hw =>
      cases n2
      case proto =>
        match k2, hw with
        | [], _ => cases h
        | .node n3 m3 k3 :: l, hw =>
          cases n3
          case nodegi => cases h; exact hw.2.1.2.2
          all_goals cases h
      all_goals cases h
  all_goals cases h

structure FInv (fl : Floats F) (base : Text → Option (Class F)) (f : FSt F) : Prop where
  rs : RInv (fileClass fl base f.protos) f.rs
  is : f.rs.sc.is = none
  protos : ∀ x ∈ f.protos, x.2.name = x.1 ∧ (∀ f ∈ x.2.fields, f.decl.dfltNodes = []) ∧ ∃ b, x.2.body = some b ∧ WellFormed (fileClass fl base f.protos) b

theorem readItems_inv {base : Text → Option (Class F)} {fl : Floats F} (hbase : ∀ t c, base t = some c → ∀ d ∈ c.fields, d.dfltNodes = [])
    (hty : ∀ ty v, (fl.types.dflt ty).value = some v → v.nodes = []) {l : List PTree} (hn : Nameds l) :
    ∀ {f f'}, FInv fl base f → readItems base fl l f = some f' → FInv fl base f' := by
  induction l with
  | nil => intro f f' h hr; cases hr; exact h
  | cons t l ih =>
    intro f f' h hr
    rw [readItems_eq] at hr
    have hlk : ∀ t c, FSt.lookup base f.protos t = some c → fileClass fl base f.protos c ∧ ∀ d ∈ c.fields, d.dfltNodes = [] := by
      intro t c hc
      obtain ⟨h1, h2⟩ := lookup_class (fl := fl) hc
      refine ⟨h1, ?_⟩
      rcases h2 with ⟨t, ht⟩ | ⟨x, hx, rfl⟩
      · exact hbase t c ht
      · intro d hd
        obtain ⟨g, hg, rfl⟩ := List.mem_map.1 hd
        exact (h.protos x hx).2.1 g hg
    have hscr : ∀ c, ScriptClass fl c → fileClass fl base f.protos c := fun c hc => .inr (.inl hc)
    split at hr
    · rename_i nm rest hp
      split at hr
      · cases hr
      · rename_i p h1
        refine ih hn.2 ?_ hr
        have hm : ∀ c, fileClass fl base f.protos c → fileClass fl base ((nm, p) :: f.protos) c := by
          rintro c (hc | hc | ⟨x, hx, hc⟩)
          · exact .inl hc
          · exact .inr (.inl hc)
          · exact .inr (.inr ⟨x, by simp [hx], hc⟩)
        obtain ⟨h2, h2', b, h3, h4⟩ := readDecls_inv hlk hscr hty (protoItem_named hn.1 hp) (fun f hf => by
          simp only [ProtoDef.new, List.mem_singleton] at hf
          subst hf
          simp [FieldDecl.dfltNodes, externalURL, Dflt.value, Val.nodes]) h1
        refine ⟨rinv_mono hm h.rs, h.is, fun x hx => ?_⟩
        rcases List.mem_cons.1 hx with rfl | hx
        · exact ⟨h2, h2', b, h3, wf_mono hm h4⟩
        · obtain ⟨a, a', b, c, d⟩ := h.protos x hx
          exact ⟨a, a', b, c, wf_mono hm d⟩
    · split at hr
      · cases hr
      · rename_i v rs1 h1
        obtain ⟨⟨h2, h3⟩, -⟩ := (disp_inv _ hlk hscr hty (sizeOf t + 1)).1 t (by omega) hn.1 _ _ _ _ _ h.rs h1
        exact ih (f := { f with rs := rs1 }) hn.2 ⟨h2, h3.is h.is, h.protos⟩ hr

end Verif.Reader
