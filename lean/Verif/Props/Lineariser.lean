import Verif.Lemmas.Names
/-!
C09, C11: writing a scene and reading it back.
-/
namespace Verif.Lin
open Verif.Peg Verif.Grammar Verif.TextOut Verif.Text Verif.SceneText Verif.ListText
variable {F : Type}

/-! ## C11: names of routed nodes -/

/-- Both ends of every route have a name after the names are given. -/
theorem C11_ends_named (sc : Scene F) : ∀ r ∈ sc.routes, ∀ m, ((preroute sc).heap r.src = some m ∨ (preroute sc).heap r.dst = some m) → m.DEF ≠ [] :=
  (named_all (fun _ => True) sc.routes sc).2.2.1

/-- Nothing but the names of unnamed nodes changes: named nodes keep their names, and every node keeps its class and
its fields. -/
theorem C11_only_names_added (sc : Scene F) : Renamed sc (preroute sc) := (named_all (fun _ => True) sc.routes sc).1

/-- A node that got its name from the writer is the one the scene graph knows under that name, so no other registered
node has it; the name is the type name, an underscore and a number. -/
theorem C11_given_name_unique (sc : Scene F) {i : Nat} {n m : Node F} (hn : sc.heap i = some n) (h0 : n.DEF = [])
    (hm : (preroute sc).heap i = some m) (h1 : m.DEF ≠ []) :
    (preroute sc).getDEF m.DEF = some i ∧ ∃ k, m.DEF = n.cls.proto ++ ['_'] ++ natStr k := by
  obtain ⟨-, h2, -, h4⟩ := named_all (fun j => ∀ n, sc.heap j = some n → n.DEF = []) sc.routes sc
  refine ⟨h4 (fun j n hj hn hne => absurd (hj n hn) hne) i m (fun x hx => by rw [hn] at hx; cases hx; exact h0) hm h1, ?_⟩
  rcases h2 i n m hn hm with h | ⟨-, k, hk⟩
  · rw [h, h0] at h1; exact absurd rfl h1
  · exact ⟨k, hk⟩

/-- If the scene graph knows every named node of the scene under its name, it does so afterwards, and no two nodes of
the scene share a name. -/
theorem C11_unique (sc : Scene F) (h : Registered sc) :
    Registered (preroute sc) ∧ ∀ i j n m, Reach sc i → Reach sc j → (preroute sc).heap i = some n → (preroute sc).heap j = some m →
      n.DEF ≠ [] → n.DEF = m.DEF → i = j := by
  have hren := C11_only_names_added sc
  have hreg : Registered (preroute sc) := by
    intro i n hi hn hne
    exact (named_all (Reach sc) sc.routes sc).2.2.2 h i n (hren.reach_iff.1 hi) hn hne
  refine ⟨hreg, fun i j n m hi hj hn hm hne heq => ?_⟩
  have h1 := hreg i n (hren.reach hi) hn hne
  have h2 := hreg j m (hren.reach hj) hm (heq ▸ hne)
  rw [heq, h2] at h1
  cases h1; rfl

/-- Giving names a second time changes nothing. -/
theorem C11_idempotent (sc : Scene F) : preroute (preroute sc) = preroute sc := by
  have hnamed := C11_ends_named sc
  have hr : (preroute sc).routes = sc.routes := (C11_only_names_added sc).routes
  have key : ∀ (l : List Rt) (s : Scene F), (∀ r ∈ l, ∀ m, (s.heap r.src = some m ∨ s.heap r.dst = some m) → m.DEF ≠ []) →
      l.foldl (fun sc r => nameEnd (nameEnd sc r.src) r.dst) s = s := by
    intro l
    induction l with
    | nil => intro s _; rfl
    | cons r l ih =>
      intro s h
      have one : ∀ i, (∀ m, s.heap i = some m → m.DEF ≠ []) → nameEnd s i = s := by
        intro i hi
        rcases nameEnd_cases s i with ⟨h, -⟩ | ⟨n, k, hn, hD, -⟩
        · exact h
        · exact absurd hD (hi n hn)
      rw [List.foldl_cons, one r.src (fun m hm => h r (by simp) m (.inl hm)), one r.dst (fun m hm => h r (by simp) m (.inr hm))]
      exact ih s (fun x hx => h x (by simp [hx]))
  show ((preroute sc).routes).foldl _ (preroute sc) = _
  rw [hr]
  exact key sc.routes (preroute sc) hnamed

/-- A class for the examples. -/
def exClass : Class Int := ⟨chars "Group", [⟨chars "x", chars "SFFloat", .sfFloat, intStr, id, .scalar (.num 0)⟩,
  ⟨chars "children", chars "MFNode", .mfNode, intStr, id, .list (.refs [])⟩, ⟨chars "geo", chars "SFNode", .sfNode, intStr, id, .null⟩], [], [], []⟩

/-- a node of it -/
def exNode (d : Text) (x : Int) (ch : List (Option Nat)) (g : Option Nat) : Node Int :=
  ⟨exClass, d, fun f => if f = chars "x" then some (.num x) else if f = chars "children" then some (.refs ch) else if f = chars "geo" then some (.ref g) else none⟩

/-- Two nodes with the name `A` (both registered under it, the later one last), a route from the first. -/
def exTwice : Scene Int :=
  ⟨fun i => if i = 0 then some (exNode (chars "A") 0 [] none) else if i = 1 then some (exNode (chars "A") 0 [] none) else none,
    [0, 1], [⟨0, chars "x", 1, chars "x"⟩], [(chars "A", 1)], none⟩

/-- The unrestricted claim fails: a routed node that already has a name keeps it even if another registered node has
the same name. -/
theorem C11_refuted_duplicate_names : ∃ n m, (preroute exTwice).heap 0 = some n ∧ (preroute exTwice).heap 1 = some m ∧ n.DEF = m.DEF ∧
    n.DEF ≠ [] ∧ (preroute exTwice).getDEF n.DEF = some 1 :=
  ⟨_, _, rfl, rfl, rfl, by simp [exNode], rfl⟩

/-! ## C09: the round trip -/

theorem goodHeap_of {lk : Text → Option (Class F)} {fl : Floats F} {sc : Scene F} {all : List Nat} (h : GoodBody lk fl sc all) :
    GoodHeap lk fl (preroute sc) (Reach (preroute sc)) := by
  have hren := C11_only_names_added sc
  obtain ⟨-, huni⟩ := C11_unique sc h.registered
  refine ⟨fun i m hi hm => ?_, fun i n hi hn d hd hv v hr j hj => .field hi hn hd hv hr hj,
    fun i j n m hi hj hn hm hne heq => huni i j n m (hren.reach_iff.1 hi) (hren.reach_iff.1 hj) hn hm hne heq⟩
  rcases hren.node i with ⟨-, e1⟩ | ⟨n, m', e1, e2, e3, e4, -⟩
  · rw [hm] at e1; cases e1
  · rw [hm] at e2; cases e2
    have hg := h.nodes i n (hren.reach_iff.1 hi) e1
    have hcls := hg.cls
    refine ⟨?_, ?_, by rw [e3]; exact hg.distinct, by rw [e3]; exact hg.names, ?_, ?_, ?_, ?_, ?_⟩
    · rcases hcls with h' | hs
      · exact .inl (by rw [e3]; exact h')
      · refine .inr ⟨by rw [e3]; exact hs.proto, by rw [e3]; exact hs.common, by rw [e3]; exact hs.mapped, fun d hd hv hdec => ?_, by rw [e3]; exact hs.events,
          by rw [e3]; exact hs.distinct, by rw [e3]; exact hs.events_distinct⟩
        rw [e3] at hd hdec
        obtain ⟨a1, a2, a3, a4, v, a5, a6, a7⟩ := hs.decls d hd hv hdec
        exact ⟨a1, a2, a3, a4, v, a5, by rw [read_congr e4]; exact a6, a7⟩
    · rcases (named_all (fun _ => True) sc.routes sc).2.1 i n m e1 hm with h' | ⟨-, k, hk⟩
      · rw [h']; exact hg.DEF
      · rw [hk]
        refine .inr (legal_cand ?_ k)
        rcases hcls with h' | hs
        · exact h'.1.1
        · rw [hs.proto]; decide
    · intro d hd hv hnd v hr
      rw [e3] at hd hnd; rw [read_congr e4] at hr
      exact hg.omitted d hd (hren.shown.1 hv) hnd v hr
    · intro d hd hv hnd v hr
      rw [e3] at hd hnd; rw [read_congr e4] at hr
      exact hg.written d hd (hren.shown.1 hv) hnd v hr
    · intro f nm hm
      rw [e3]
      exact hg.isField f nm ((isMapped_congr hren.is).1 hm)
    · intro f nm nm' hm hm'
      exact hg.isOne f nm nm' ((isMapped_congr hren.is).1 hm) ((isMapped_congr hren.is).1 hm')
    · intro d hd hin hv v hr
      rw [e3] at hd hin; rw [read_congr e4] at hr
      exact hg.forwarded d hd hin (hren.shown.1 hv) v hr

theorem writable_of {fl : Floats F} {sc : Scene F} {all : List Nat} (h : Writable fl sc all) : Writable fl (preroute sc) all := by
  have hren := C11_only_names_added sc
  refine ⟨fun i hi => h.finite i (hren.reach_iff.1 hi), fun i hi => ?_⟩
  obtain ⟨n, hn, hf⟩ := h.node i (hren.reach_iff.1 hi)
  rcases hren.node i with ⟨e1, -⟩ | ⟨n', m, e1, e2, e3, e4, -⟩
  · rw [hn] at e1; cases e1
  · rw [hn] at e1; cases e1
    refine ⟨m, e2, fun d hd hv => ?_⟩
    rw [e3] at hd
    rw [read_congr e4]
    obtain ⟨v, h1, h2⟩ := hf d hd hv
    exact ⟨v, h1, fun hs hd => h2 (hren.shown.1 hs) (by rw [← e3]; exact hd)⟩

/-- A scene that can be written and read back is written without warnings, and the reader finds what it needs. -/
theorem body_good {lk : Text → Option (Class F)} {fl : Floats F} {lv : LinValues} {sc : Scene F} {all : List Nat} {fuel : Nat}
    (hlv : GoodOptions lv) (h : GoodBody lk fl sc all) (hf : all.length < fuel) :
    ∃ st, linBody lv fl (preroute sc) fuel = .ok st ∧ st.warned = false ∧ ∀ r ∈ (preroute sc).routes,
      (Reach (preroute sc) r.src ∧ LegalName ((preroute sc).defOf r.src)) ∧ (Reach (preroute sc) r.dst ∧ LegalName ((preroute sc).defOf r.dst)) ∧
      LegalName r.srcField ∧ LegalName r.dstField := by
  have hren := C11_only_names_added sc
  have hh := goodHeap_of h
  obtain ⟨st, hst⟩ := body_succeeds hlv hh (writable_of h.writable) hf
  have hends := C11_ends_named sc
  have hnw : st.warned = false := by
    refine body_nowarn (fun i n hi hn => (hh.good i n hi hn).plain) (fun j m l l' hl hl' hm hD => ?_) hst
    rcases hren.node j with ⟨-, e1⟩ | ⟨n, m', e1, e2, e3, e4, e5⟩
    · rw [hm] at e1; cases e1
    · rw [hm] at e2; cases e2
      refine h.shared j n l l' (hren.refers hl) (hren.refers hl') e1 ?_ ?_
      · by_cases hne : n.DEF = []
        · exact hne
        · rw [e5 hne] at hD; exact absurd hD hne
      · intro r hr
        refine ⟨?_, ?_⟩ <;> rintro rfl
        · exact hends r hr m (.inl hm) hD
        · exact hends r hr m (.inr hm) hD
  refine ⟨st, hst, hnw, ?_⟩
  intro r hr
  rw [hren.routes] at hr
  obtain ⟨h1, h2, h3⟩ := h.routes r hr
  have key : ∀ i, Reach sc i → (∀ m, (preroute sc).heap i = some m → m.DEF ≠ []) → LegalName ((preroute sc).defOf i) := by
    intro i hi hne
    obtain ⟨m, hm, -⟩ := (writable_of h.writable).node i (hren.reach hi)
    have := (hh.good i m (hren.reach hi) hm).DEF.resolve_left (hne m hm)
    simpa [Scene.defOf, hm] using this
  exact ⟨⟨hren.reach h1, key _ h1 (fun m hm => hends r hr m (.inl hm))⟩, ⟨hren.reach h2, key _ h2 (fun m hm => hends r hr m (.inr hm))⟩, h3⟩

theorem Renamed.scriptLines {lv : LinValues} {a b : Scene F} (h : Renamed a b) (hs : ScriptLines lv a) : ScriptLines lv b := by
  intro i m hi hm hp
  rcases h.node i with ⟨-, e1⟩ | ⟨n, m', e1, e2, e3, -, -⟩
  · rw [hm] at e1; cases e1
  · rw [hm] at e2; cases e2
    exact hs i n (h.reach_iff.1 hi) e1 (by rw [← e3]; exact hp)

/-- **Writing and reading back.**  For every scene of any size, depth and sharing that satisfies `GoodScene`, with any
formatting options made of ignorable text: the writer succeeds with a depth of one more than the number of nodes; it
only gives names to nodes; and its text is read back as the same scene, node for node, Scripts with their interfaces.
What `GoodScene` excludes does not survive: see the refutations below, C56 (string lists), C57 (type names), C05 (long rows), and C71
(values and IS of a Script's fields).  Files with prototypes: C67. -/
theorem C09_round_trip {lk : Text → Option (Class F)} {fl : Floats F} {lv : LinValues} {sc : Scene F} {all : List Nat} {fuel : Nat}
    (hlv : GoodOptions lv) (h : GoodScene lk fl sc all) (hsl : ScriptLines lv sc) (hf : all.length < fuel) :
    ∃ text named read φ, linearise lv fl sc fuel = .ok (text, named) ∧ Renamed sc named ∧ Reads lk fl text read ∧ SameScene named read φ := by
  have hren := C11_only_names_added sc
  obtain ⟨st, hst, hnw, hroutes⟩ := body_good hlv h.toGoodBody hf
  obtain ⟨read, φ, h1, h2⟩ := scene_read hlv hst hnw (goodHeap_of h.toGoodBody) (hren.scriptLines hsl) (by rw [hren.children]; exact h.children) (hren.is.trans h.file) hroutes
  exact ⟨_, _, read, φ, by simp only [linearise, hst], hren, h1, h2⟩

/-! ### A scene the theorem applies to -/

/-- integers in place of floats -/
def exTypes : Types Int :=
  ⟨fun t => if t = chars "SFFloat" then some ⟨.sfFloat, intStr, id⟩ else if t = chars "MFString" then some ⟨.mfString, fun _ => [], id⟩
      else if t = chars "SFNode" then some ⟨.sfNode, intStr, id⟩ else if t = chars "MFNode" then some ⟨.mfNode, intStr, id⟩ else none,
    fun t => t = chars "SFTime", fun t => if t = chars "MFString" then .list (.strs []) else if t = chars "SFBool" then .scalar (.bool false) else .none⟩
def exFloats : Floats Int := ⟨fun a b => a == b, ParseVal.intBase0, exTypes, fun _ _ _ => some none⟩
def exLookup : Text → Option (Class Int) := fun t => if t = chars "Group" then some exClass else none

/-- Node 0 is named, holds itself and twice node 1; node 1 has no name, holds node 0, is the end of a route. -/
def exScene : Scene Int :=
  ⟨fun i => if i = 0 then some (exNode (chars "A") 5 [some 1, some 1, some 0] none) else if i = 1 then some (exNode [] 0 [] (some 0)) else none,
    [0, 1], [⟨0, chars "x", 1, chars "x"⟩], [(chars "A", 0)], none⟩

theorem exReach {i : Nat} (h : Reach exScene i) : i = 0 ∨ i = 1 := by
  induction h with
  | child h => simpa [exScene] using h
  | @field i j n d v _ hn hd hv hr hj ih =>
    rcases ih with rfl | rfl <;>
    · cases hn
      simp only [exNode, exClass, List.mem_cons, List.not_mem_nil, or_false] at hd
      rcases hd with rfl | rfl | rfl <;> (cases hr; simp [Val.nodes] at hj; try omega)

theorem exRestored (x : Int) : Restored exFloats id (sfFloatStr (intStr x)) x := by
  have h : sfFloatStr (intStr x) = intStr x := by
    have hno : '.' ∉ intStr x := by
      have := intStr_numTok x
      intro hd
      unfold intStr at hd
      split at hd
      · rcases List.mem_cons.1 hd with h | h
        · exact absurd h (by decide)
        · have := natStr_digit _ _ h
          simp [isDigit] at this
      · have := natStr_digit _ _ hd
        simp [isDigit] at this
    unfold sfFloatStr
    split
    · next h => rw [h] at hno; simp at hno
    split
    · next h => exact absurd (List.mem_of_mem_take (i := 2) (h ▸ by simp)) hno
    split
    · next h => exact absurd (List.mem_of_mem_take (i := 3) (h ▸ by simp)) hno
    split
    · next h => exact absurd (List.mem_of_mem_drop (i := (intStr x).length - 2) (h ▸ by simp)) hno
    rfl
  rw [h]
  exact ⟨intStr_numTok x, x, intBase0_intStr x, rfl⟩

theorem exGood {sc : Scene Int} (his : sc.is = none) (i : Nat) (DEF : Text) (x : Int) (ch : List (Option Nat)) (g : Option Nat) (hD : DEF = [] ∨ LegalName DEF) (hch : none ∉ ch) :
    GoodNode exLookup exFloats sc i (exNode DEF x ch g) := by
  have hno : ∀ f nm, ¬ IsMapped sc i f nm := by rintro f nm ⟨d, l, h1, -⟩; rw [his] at h1; cases h1
  refine ⟨.inl ⟨show SafeName (chars "Group") by decide, exClass, rfl, .refl _, by decide⟩, hD, show (exClass.fields.map FieldDecl.name).Nodup by decide, ?_, ?_, ?_,
    fun f nm h => absurd h (hno f nm), fun f nm nm' h => absurd h (hno f nm), fun d _ hin => absurd hin (List.not_mem_nil)⟩
  · intro d hd _ _
    simp only [exNode, exClass, List.mem_cons, List.not_mem_nil, or_false] at hd
    rcases hd with rfl | rfl | rfl <;> decide
  · intro d hd _ _ v hr ho
    simp only [exNode, exClass, List.mem_cons, List.not_mem_nil, or_false] at hd
    rcases hd with rfl | rfl | rfl <;> cases hr
    · simp [omitted, Val.eq, exFloats] at ho
      subst ho; exact ⟨rfl, rfl⟩
    · simp [omitted, Val.eq, exFloats] at ho
      subst ho; exact ⟨rfl, rfl⟩
    · simp [omitted] at ho
  · intro d hd _ _ v hr ho
    simp only [exNode, exClass, List.mem_cons, List.not_mem_nil, or_false] at hd
    rcases hd with rfl | rfl | rfl <;> cases hr
    · exact ⟨rfl, exRestored x⟩
    · exact ⟨rfl, hch⟩
    · exact rfl

theorem exGoodScene : GoodScene exLookup exFloats exScene [0, 1] := by
  have r0 : Reach exScene 0 := .child (by simp [exScene])
  have r1 : Reach exScene 1 := .child (by simp [exScene])
  refine ⟨⟨?_, ⟨fun i hi => by simpa using exReach hi, ?_⟩, ?_, ?_, ?_⟩, by simp [exScene], rfl⟩
  · intro i n hi hn
    rcases exReach hi with rfl | rfl <;> cases hn <;> exact exGood rfl _ _ _ _ _ (by decide) (by decide)
  · intro i hi
    rcases exReach hi with rfl | rfl
    all_goals
      refine ⟨_, rfl, fun d hd _ => ?_⟩
      simp only [exNode, exClass, List.mem_cons, List.not_mem_nil, or_false] at hd
      rcases hd with rfl | rfl | rfl <;> exact ⟨_, rfl, fun _ _ => ⟨_, rfl⟩⟩
  · intro j n l l' hl hl' hn hD hr
    have hj : Reach exScene j := by
      cases hl with
      | child h => exact .child (List.mem_of_getElem? h)
      | field h1 h2 h3 h4 h5 h6 => exact .field h1 h2 h3 h4 h5 (List.mem_of_getElem? h6)
    rcases exReach hj with rfl | rfl
    · cases hn; simp [exNode] at hD
    · exact absurd rfl (hr ⟨0, chars "x", 1, chars "x"⟩ (by simp [exScene])).2
  · intro i n hi hn hD
    rcases exReach hi with rfl | rfl <;> cases hn
    · rfl
    · exact absurd rfl hD
  · intro r hr
    simp only [exScene, List.mem_cons, List.not_mem_nil, or_false] at hr
    subst hr
    exact ⟨r0, r1, by decide, by decide⟩

theorem goodDefaults : GoodOptions defaults := ⟨plain_defaults, by decide, .inr (by decide)⟩

example : ∃ text named read φ, linearise defaults exFloats exScene 3 = .ok (text, named) ∧ Renamed exScene named ∧
    Reads exLookup exFloats text read ∧ SameScene named read φ := C09_round_trip goodDefaults exGoodScene (fun _ _ _ _ _ => by decide) (by decide)

/-! ### Where the round trip fails -/

/-- A text is read in one way only. -/
theorem reads_unique {lk : Text → Option (Class F)} {fl : Floats F} {text : Text} {a b : Scene F} (ha : Reads lk fl text a) (hb : Reads lk fl text b) : a = b := by
  obtain ⟨h1, s1, e1, m1, n1, d1, r1⟩ := ha
  obtain ⟨h2, s2, e2, m2, n2, d2, r2⟩ := hb
  have := d1.det _ d2
  cases this
  rw [r1] at r2
  cases r2; rfl

/-- The whole reader, computed. -/
def readText (lk : Text → Option (Class F)) (fl : Floats F) (fuel : Nat) (text : Text) : Option (Scene F) :=
  match run gram fuel (gram .vrmlFile) text with
  | some (.ok [_, s, _] _ []) => match disp lk fl s none none ⟨Scene.empty, 0⟩ with
    | some (.nothing, ⟨sc, _⟩) => some sc
    | _ => none
  | _ => none

theorem reads_of_readText {lk : Text → Option (Class F)} {fl : Floats F} {fuel : Nat} {text : Text} {sc : Scene F}
    (h : readText lk fl fuel text = some sc) : Reads lk fl text sc := by
  unfold readText at h
  split at h
  · next hd s e m hrun =>
    split at h
    · next sc' n hdisp =>
      cases h
      exact ⟨_, s, _, m, n, run_sound _ _ _ _ hrun, hdisp⟩
    · cases h
  · cases h

/-- An empty scene is written as a text that cannot be read. -/
theorem C09_refuted_empty_scene (lk : Text → Option (Class F)) (fl : Floats F) (lv : LinValues) (heap : Nat → Option (Node F)) (defs) (is) (fuel : Nat) :
    linearise lv fl ⟨heap, [], [], defs, is⟩ fuel = .ok (header, ⟨heap, [], [], defs, is⟩) ∧ ∀ sc, ¬ Reads lk fl header sc := by
  refine ⟨rfl, ?_⟩
  rintro sc ⟨h1, s1, e1, m1, n1, d1, -⟩
  have : Der gram (gram .vrmlFile) header .err := run_sound 40 _ _ _ (by rfl)
  cases d1.det _ this

/-- An unnamed node held in two places. -/
def exShared : Scene Int := ⟨fun i => if i = 0 then some (exNode [] 0 [] none) else none, [0, 0], [], [], none⟩


/-- the text alone -/
def writtenText (lv : LinValues) (fl : Floats F) (sc : Scene F) (fuel : Nat) : Option Text :=
  match linearise lv fl sc fuel with | .ok (t, _) => some t | .error _ => none

theorem linearise_of_text {lv : LinValues} {fl : Floats F} {sc : Scene F} {fuel : Nat} {t : Text} (h : writtenText lv fl sc fuel = some t) :
    linearise lv fl sc fuel = .ok (t, preroute sc) := by
  unfold writtenText at h
  unfold linearise at h ⊢
  cases hb : linBody lv fl (preroute sc) fuel with
  | error e => simp [hb] at h
  | ok st => simp [hb] at h ⊢; exact h

/-- What every reading of a text looks like, from one computation. -/
theorem reads_fact {α : Type} {lk : Text → Option (Class F)} {fl : Floats F} {fuel : Nat} {text : Text} {f : Scene F → α} {x : α}
    (h : (readText lk fl fuel text).map f = some x) : (∃ sc, Reads lk fl text sc) ∧ ∀ sc, Reads lk fl text sc → f sc = x := by
  cases hr : readText lk fl fuel text with
  | none => rw [hr] at h; cases h
  | some sc =>
    rw [hr] at h
    refine ⟨⟨sc, reads_of_readText hr⟩, fun sc' h' => ?_⟩
    rw [reads_unique h' (reads_of_readText hr)]
    simpa using h

def exSharedText : Text := header ++ chars "Group {\n\t\tgeo\tNULL\n\t}\n#WARNING HERE -- USE of node with no DEF name, Node duplicated\nGroup {\n\t\tgeo\tNULL\n\t}\n"

/-- A node without a name that is held in two places is written twice and read as two nodes. -/
theorem C09_refuted_unnamed_sharing : linearise defaults exFloats exShared 2 = .ok (exSharedText, exShared) ∧
    (∃ read, Reads exLookup exFloats exSharedText read) ∧
    ∀ read, Reads exLookup exFloats exSharedText read → ∀ φ, ¬ SameScene exShared read φ := by
  have h := reads_fact (lk := exLookup) (fl := exFloats) (fuel := 300) (text := exSharedText) (f := fun s => s.children) (x := [0, 1]) (by decide +kernel)
  refine ⟨linearise_of_text (by decide +kernel), h.1, fun read hr φ hs => ?_⟩
  have h1 := hs.children
  rw [h.2 read hr] at h1
  simp only [exShared, List.map_cons, List.map_nil, List.cons.injEq, and_true] at h1
  omega

/-- A class with a vector. -/
def exVecField : FieldDecl Int := ⟨chars "size", chars "SFVec3f", .sfVec 3, intStr, id, .array [0, 0, 0]⟩
def exVecClass : Class Int := ⟨chars "Box", [exVecField], [], [], []⟩
def exVecLookup : Text → Option (Class Int) := fun t => if t = chars "Box" then some exVecClass else none
/-- One node whose vector has one component in common with the default. -/
def exVec : Scene Int := ⟨fun i => if i = 0 then some ⟨exVecClass, [], fun f => if f = chars "size" then some (.nums [0, 5, 5]) else none⟩ else none, [0], [], [], none⟩
def exVecText : Text := header ++ chars "Box { }\n"

/-- An array attribute is left out as soon as one component equals the default; its value is lost. -/
theorem C09_refuted_array_default : linearise defaults exFloats exVec 2 = .ok (exVecText, exVec) ∧
    (∃ read, Reads exVecLookup exFloats exVecText read) ∧
    ∀ read, Reads exVecLookup exFloats exVecText read → ∀ φ, ¬ SameScene exVec read φ := by
  have h := reads_fact (lk := exVecLookup) (fl := exFloats) (fuel := 300) (text := exVecText)
    (f := fun s => (s.children, ((s.heap 0).bind exVecField.read).bind Val.flat)) (x := ([0], some [0, 0, 0])) (by decide +kernel)
  refine ⟨linearise_of_text (by decide +kernel), h.1, fun read hr φ hs => ?_⟩
  have h1 := hs.children
  have h2 := h.2 read hr
  simp only [Prod.mk.injEq] at h2
  rw [h2.1] at h1
  have h3 : φ 0 = 0 := by simp [exVec] at h1; exact h1.symm
  obtain ⟨n, m, hn, hm, hcls, -, hf⟩ := hs.nodes 0 (.child (by simp [exVec]))
  cases hn
  obtain ⟨d', hd', hsame⟩ := hcls.fields exVecField (by simp [exVecClass]) ⟨by decide, fun s => by simp [exVecField]⟩
  have h4 := hf exVecField (by simp [exVecClass]) ⟨⟨by decide, fun s => by simp [exVecField]⟩, by rintro nm ⟨d, l, h, -⟩; cases h⟩ d' hd' hsame.1.name |>.1
  rw [(hsame.2 (fun h => absurd h.1 (by decide))).read] at h4
  rw [h3] at hm
  rw [hm] at h2
  have h5 := h2.2
  simp only [Option.bind_some, h4] at h5
  revert h5
  simp [exVecField, FieldDecl.read, Val.mapRef, Val.flat]

/-- A list of nodes that contains NULL. -/
def exNull : Scene Int := ⟨fun i => if i = 0 then some (exNode [] 0 [none] none) else none, [0], [], [], none⟩
def exNullText : Text := header ++ chars "Group {\n\t\tchildren\t[ \n\t\t\tNULL\n\t\t]\n\t\tgeo\tNULL\n\t}\n"

/-- NULL in a list of nodes is written, but the text cannot be read. -/
theorem C09_refuted_null_in_list : linearise defaults exFloats exNull 2 = .ok (exNullText, exNull) ∧ ∀ lk (fl : Floats Int) sc, ¬ Reads lk fl exNullText sc := by
  refine ⟨linearise_of_text (by decide +kernel), ?_⟩
  rintro lk fl sc ⟨h1, s1, e1, m1, n1, d1, -⟩
  have : Der gram (gram .vrmlFile) exNullText .err := run_sound 200 _ _ _ (by rfl)
  cases d1.det _ this

def exTwiceText : Text := header ++ chars "DEF A Group {\n\t\tgeo\tNULL\n\t}\nDEF A Group {\n\t\tgeo\tNULL\n\t}\n\nROUTE A.x TO A.x"

/-- Two nodes with one name: the route's source is read as the other node. -/
theorem C09_refuted_duplicate_names : linearise defaults exFloats exTwice 2 = .ok (exTwiceText, exTwice) ∧
    (∃ read, Reads exLookup exFloats exTwiceText read) ∧
    ∀ read, Reads exLookup exFloats exTwiceText read → ∀ φ, ¬ SameScene exTwice read φ := by
  have h := reads_fact (lk := exLookup) (fl := exFloats) (fuel := 300) (text := exTwiceText) (f := fun s => (s.children, s.routes))
    (x := ([0, 1], [⟨1, chars "x", 1, chars "x"⟩])) (by decide +kernel)
  refine ⟨linearise_of_text (by decide +kernel), h.1, fun read hr φ hs => ?_⟩
  have h1 := hs.children
  have h2 := h.2 read hr
  have h3 := hs.routes
  simp only [Prod.mk.injEq] at h2
  rw [h2.1] at h1
  rw [h2.2] at h3
  simp [exTwice] at h1 h3
  omega

/-! ## Writing twice -/

/-- Writing a scene changes it at most by naming nodes, and writing the result again gives the same text. -/
theorem C11_text_repeats {lv : LinValues} {fl : Floats F} {sc named : Scene F} {fuel : Nat} {text : Text}
    (h : linearise lv fl sc fuel = .ok (text, named)) : linearise lv fl named fuel = .ok (text, named) := by
  have hn : named = preroute sc := by
    unfold linearise at h
    dsimp only at h
    split at h
    · cases h
    · cases h; rfl
  unfold linearise at h ⊢
  rw [hn, C11_idempotent]
  rw [hn] at h
  exact h

end Verif.Lin
