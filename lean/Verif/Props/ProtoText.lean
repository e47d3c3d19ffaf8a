import Verif.Lemmas.ProtoText5
/-!
C67: files with prototypes survive writing and reading.
-/
namespace Verif.Lin
open Verif.Peg Verif.Grammar Verif.TextOut Verif.Text Verif.SceneText Verif.ListText
variable {F : Type}
variable {base : Text → Option (Class F)} {fl : Floats F} {lv : LinValues} {fuel depth : Nat}

/-- The text of a file is made of the header, items and the scene. -/
theorem file_der {Z : Text} {ts : List PTree} (h : Der gram (.star (.nt .rootItem)) (['\n'] ++ Z) (.ok ts (['\n'] ++ Z) [])) :
    ∃ hdr sm eof m, Der gram (gram .vrmlFile) (header ++ Z) (.ok [hdr, .node .vrmlScene sm ts, eof] m []) := by
  have htext : header ++ Z = (chars "#VRML V2.0 utf8") ++ (['\n'] ++ Z) := by simp [header]
  rw [htext]
  have hh1 : Der gram (gram .header) (chars "#VRML V2.0 utf8" ++ (['\n'] ++ Z)) (.ok [] (chars "#VRML V2.0 utf8") (['\n'] ++ Z)) :=
    run_sound 30 _ _ _ (by rfl)
  have hh2 := Der.nt (g := gram) (n := NT.header) hh1
  have hh3 := Der.nt (g := gram) (n := NT.vrmlScene) h
  have hh4 : Der gram (gram .vrmlFile) _ _ := .seq hh2 (.seq hh3 (.cut (Der.nt (g := gram) (n := NT.eof) .eof)))
  exact ⟨_, _, _, _, hh4⟩

/-- The ignorable text in front of a meaningful text is determined. -/
theorem ign_unique {a b c d z : Text} (h : a ++ (b ++ z) = c ++ (d ++ z)) (ha : Ignorable a) (hb : Meaningful (b ++ z)) (hc : Ignorable c) (hd : Meaningful (d ++ z)) :
    a = c ∧ b = d := by
  have h1 := C07_ignorable_skipped ha hb
  rw [h] at h1
  have h2 := h1.det _ (C07_ignorable_skipped hc hd)
  simp only [Out.ok.injEq] at h2
  exact ⟨h2.2.1, List.append_cancel_right h2.2.2⟩

/-- Writing and reading a file. -/
theorem file_read {f : File F} {all : List Nat} (hlv : GoodOptions lv) (h : GoodFile base fl f all fuel depth) (hsl : FileLines lv f) :
    ∃ text named read φ, lineariseFile lv fl f fuel depth = .ok (text, named) ∧ Renamed f.scene named ∧
      ReadsFile base fl text read ∧ SameScene named read.rs.sc φ ∧
      (∀ x, Needed f x → ∃ p p', f.protos x = some p ∧ read.protos.lookup x = some p' ∧ SameProto p p' ∧ p'.usable = true ∧ p'.url = .declared) ∧
      ∀ x, ¬ Needed f x → read.protos.lookup x = none := by
  obtain ⟨rank, hr1, hr2⟩ := h.order
  have hren := C11_only_names_added f.scene
  obtain ⟨st, hst, hnw, hroutes⟩ := body_good hlv h.scene h.size
  obtain ⟨ps, hps, hP, hN⟩ := write_protos hlv h.protos hsl.protos hr1 hr2 (heads hlv h.scene hsl.scene h.size hst)
  have hsl' := hren.scriptLines hsl.scene
  have hlin : lineariseFile lv fl f fuel depth = .ok (header ++ (ps.out.map Prod.snd).flatten ++ textOf st.out, preroute f.scene) := by
    simp only [lineariseFile, hst, hps]
  have hwrap : ∀ tbl : List (Text × ProtoDef F), TblInv f ps.names tbl →
      (∀ x, Needed f x → ∃ p p', f.protos x = some p ∧ tbl.lookup x = some p' ∧ SameProto p p' ∧ p'.usable = true ∧ p'.url = .declared) ∧
      ∀ x, ¬ Needed f x → tbl.lookup x = none := by
    intro tbl hT
    refine ⟨fun x hx => ?_, fun x hx => hT.other x (fun hm => hx ((hN x).2 hm))⟩
    obtain ⟨p, p', h1, h2, h3, h4, -, h5⟩ := hT.known x ((hN x).1 hx)
    exact ⟨p, p', h1, h2, h3, h4, h5⟩
  have hgood : ∀ tbl : List (Text × ProtoDef F), TblInv f ps.names tbl → GoodBody (FSt.lookup base tbl) fl f.scene all :=
    fun tbl hT => hT.good (fun x p hx hp => (hN x).1 (.used hx hp)) h.scene
  have hb0 : (∃ i f' nm, IsMapped (preroute f.scene) i f' nm) → false = true := by
    rintro ⟨i, f', nm, d, l, h1, -⟩; rw [hren.is, h.file] at h1; cases h1
  have hnil : Meaningful ([] : Text) := ⟨by simp, by simp⟩
  have hend : NameEnd (([] : Text) ++ []) := by intro c s h; simp at h
  by_cases ho : ps.out = []
  · have hc : f.scene.children ≠ [] := by
      rcases h.content with h | ⟨x, hx⟩
      · exact h
      · have := (hN x).1 hx; simp [PSt.names, ho] at this
    have hT : TblInv f ps.names ([] : List (Text × ProtoDef F)) := ⟨by simp [PSt.names, ho], fun _ _ => rfl⟩
    obtain ⟨-, pre, B, hB, hpre, -, hbr⟩ := body_read (w2 := []) (z := []) (b := false) hlv hst hnw (goodHeap_of (hgood _ hT)) hsl'
      (by rw [hren.children]; exact hc) hroutes hb0 .nil hnil rootItem_end hend
    obtain ⟨ts, c1, vs, rs, φ, d1, d2, -⟩ := hbr (['\n'] ++ pre) (nl_ign.append hpre)
    simp only [List.append_nil, List.append_assoc, ← hB] at c1
    obtain ⟨hdr, sm, eof, m, hder⟩ := file_der c1
    refine ⟨_, _, ⟨[], rs⟩, φ, hlin, hren, ⟨hdr, sm, ts, eof, m, by simpa [ho] using hder, readItems_disp _ _ _ _ d1⟩, d2, hwrap _ hT⟩
  · -- the scene is read with the table that the prototypes produce, but its tree does not depend on it
    have htbl : ∃ tbl, TblInv f ps.names tbl := by
      obtain ⟨ts, tbl, -, -, hT, -⟩ := read_protos (base := base) (wm := []) (Z := []) hlv h.protos hsl.protos .nil hnil (.starNil rootItem_end) ps.out [] ['\n'] []
        (.blank (by decide) .nil) ho (by simpa using hP) ⟨by simp, fun _ _ => rfl⟩
      exact ⟨tbl, hT⟩
    obtain ⟨tbl0, hT0⟩ := htbl
    have hbody := fun tbl hT => (body_read_any (w2 := []) (z := []) (b := false) hlv hst hnw (goodHeap_of (hgood tbl hT)) hsl' hroutes hb0 .nil hnil rootItem_end hend).2
    obtain ⟨wm, B, tsZ, b1, b2, b3, b4, -⟩ := hbody tbl0 hT0
    obtain ⟨ts, tbl, d1, -, hT, hr⟩ := read_protos (base := base) hlv h.protos hsl.protos b2 b3 b4 ps.out [] ['\n'] []
      (.blank (by decide) .nil) ho (by simpa using hP) ⟨by simp, fun _ _ => rfl⟩
    obtain ⟨wm', B', tsZ', b1', b2', b3', b4', vs, rs, φ, d2, d3, -⟩ := hbody tbl hT
    have hts : tsZ' = tsZ := by
      obtain ⟨e1, e2⟩ := ign_unique (b1'.symm.trans b1) b2' b3' b2 b3
      rw [e2] at b4'
      cases b4'.det _ b4; rfl
    subst hts
    have d1' : Der gram (.star (.nt .rootItem)) (['\n'] ++ ((ps.out.map Prod.snd).flatten ++ textOf st.out)) (.ok (ts ++ tsZ') (['\n'] ++ ((ps.out.map Prod.snd).flatten ++ textOf st.out)) []) := by
      simp only [List.append_nil] at b1 d1
      rw [b1]; exact d1
    obtain ⟨hdr, sm, eof, m, hder⟩ := file_der d1'
    refine ⟨_, _, ⟨tbl, rs⟩, φ, hlin, hren, ⟨hdr, sm, ts ++ tsZ', eof, m, by rw [List.append_assoc]; exact hder, ?_⟩, d3, hwrap _ hT⟩
    rw [hr]
    exact readItems_disp _ _ _ _ d2

/-- **A file with prototypes survives writing and reading**: it can be written; the text is read back; the scene is the same
up to the identity of nodes and names for unnamed nodes; the prototypes read are those needed, and each is the same
prototype, of which instances can be made. -/
theorem C67_round_trip {f : File F} {all : List Nat} (hlv : GoodOptions lv) (h : GoodFile base fl f all fuel depth) (hsl : FileLines lv f) :
    ∃ text named read φ, lineariseFile lv fl f fuel depth = .ok (text, named) ∧ Renamed f.scene named ∧
      ReadsFile base fl text read ∧ SameScene named read.rs.sc φ ∧
      (∀ x, Needed f x → ∃ p p', f.protos x = some p ∧ read.protos.lookup x = some p' ∧ SameProto p p' ∧ p'.usable = true) ∧
      ∀ x, ¬ Needed f x → read.protos.lookup x = none := by
  obtain ⟨text, named, read, φ, h1, h2, h3, h4, h5, h6⟩ := file_read hlv h hsl
  refine ⟨text, named, read, φ, h1, h2, h3, h4, fun x hx => ?_, h6⟩
  obtain ⟨p, p', e1, e2, e3, e4, -⟩ := h5 x hx
  exact ⟨p, p', e1, e2, e3, e4⟩

/-- A text is read in one way only. -/
theorem readsFile_unique {text : Text} {a b : FSt F} (ha : ReadsFile base fl text a) (hb : ReadsFile base fl text b) : a = b := by
  obtain ⟨h1, s1, k1, e1, m1, d1, r1⟩ := ha
  obtain ⟨h2, s2, k2, e2, m2, d2, r2⟩ := hb
  cases d1.det _ d2
  rw [r1] at r2
  cases r2; rfl

/-- A file that registers a prototype with a field `externalURL` of its own is never written. -/
theorem declared_raises {f : File F} {x : Text} {p : ProtoDef F} (hx : x ∈ f.free) (hp : f.protos x = some p) (hu : p.url = .declared) :
    ∀ r, lineariseFile lv fl f fuel depth ≠ .ok r := by
  -- as long as `x` is not done it stays so
  have one : ∀ k ps y ps', x ∉ ps.done → writeProto lv fl f.protos fuel k ps y = .ok ps' → x ∉ ps'.done ∧ y ≠ x := by
    intro k
    induction k with
    | zero =>
      intro ps y ps' hn h
      simp only [writeProto] at h
      split at h
      · rename_i hno
        cases h
        refine ⟨hn, ?_⟩
        rintro rfl
        rw [hp] at hno; cases hno
      · cases h
    | succ k ih =>
      have fold : ∀ (l : List Text) ps ps', x ∉ ps.done → foldRes (writeProto lv fl f.protos fuel k) ps l = .ok ps' → x ∉ ps'.done := by
        intro l
        induction l with
        | nil => intro ps ps' hn h; cases h; exact hn
        | cons a l ihl =>
          intro ps ps' hn h
          simp only [foldRes] at h
          split at h
          · cases h
          · rename_i ps1 h1
            exact ihl _ _ (ih _ _ _ hn h1).1 h
      intro ps y ps' hn h
      simp only [writeProto] at h
      split at h
      · rename_i hno
        cases h
        exact ⟨hn, by rintro rfl; rw [hp] at hno; cases hno⟩
      · rename_i q hq
        by_cases hxy : y = x
        · subst hxy
          rw [hp] at hq; cases hq
          rw [if_neg hn] at h
          split at h
          · cases h
          · rw [hu] at h; cases h
        · refine ⟨?_, hxy⟩
          split at h
          · cases h; exact hn
          · have hn' : x ∉ y :: ps.done := by
              simp only [List.mem_cons, not_or]; exact ⟨fun h => hxy h.symm, hn⟩
            split at h
            · cases h
            · split at h
              · cases h
              · cases h; exact hn'
              · split at h
                · cases h
                · split at h
                  · cases h
                  · split at h
                    · cases h
                    · rename_i ps2 h2
                      cases h
                      exact (fold _ _ ps2 hn' h2 : x ∉ ps2.done)
  have fold : ∀ (l : List Text) ps ps', x ∉ ps.done → foldRes (writeProto lv fl f.protos fuel depth) ps l = .ok ps' → x ∉ l := by
    intro l
    induction l with
    | nil => intro ps ps' _ _; simp
    | cons a l ihl =>
      intro ps ps' hn h
      simp only [foldRes] at h
      split at h
      · cases h
      · rename_i ps1 h1
        obtain ⟨e1, e2⟩ := one _ _ _ _ hn h1
        simp only [List.mem_cons, not_or]
        exact ⟨Ne.symm e2, ihl _ _ e1 h⟩
  intro r h
  simp only [lineariseFile] at h
  split at h
  · cases h
  · split at h
    · cases h
    · rename_i ps h1
      exact fold _ _ _ (by simp) h1 (List.mem_append_left _ hx)

/-- **But only once**: whatever good file with prototypes is written and read, the scene graph read cannot be written again.
(Each declaration written contains the inherited field `externalURL`; the class read has a field object of that name, which
the writer takes for the list of URLs.) -/
theorem C67_refuted_write_again {f : File F} {all : List Nat} (hlv : GoodOptions lv) (h : GoodFile base fl f all fuel depth) (hsl : FileLines lv f) {x : Text} (hx : Needed f x) :
    ∃ text named read, lineariseFile lv fl f fuel depth = .ok (text, named) ∧ ReadsFile base fl text read ∧
      ∀ g : File F, g.scene = read.rs.sc → (∀ t, g.protos t = read.protos.lookup t) → (∀ t, read.protos.lookup t ≠ none → t ∈ g.free) →
        ∀ lv fuel depth r, lineariseFile lv fl g fuel depth ≠ .ok r := by
  obtain ⟨text, named, read, φ, h1, h2, h3, h4, h5, h6⟩ := file_read hlv h hsl
  obtain ⟨p, p', e1, e2, e3, e4, e5⟩ := h5 x hx
  refine ⟨text, named, read, h1, h3, fun g hg1 hg2 hg3 lv fuel depth r => ?_⟩
  exact declared_raises (hg3 x (by simp [e2])) (by rw [hg2, e2]) e5 r

/-! ### A file the theorem applies to -/

def exPortField : FieldDecl Int := ⟨chars "width", chars "SFFloat", .sfFloat, intStr, id, .scalar (.num 3)⟩

/-- a scene with one node -/
def exOne (n : Node Int) (is : Option (List (Text × List (Nat × Text)))) : Scene Int := ⟨fun i => if i = 0 then some n else none, [0], [], [], is⟩

/-- `PROTO Inner [ eventIn SFTime go  field SFFloat width 3 ] { Group { x IS width } }` -/
def exInner : ProtoDef Int :=
  ⟨chars "Inner", [externalURL, ⟨exPortField, false⟩], [⟨chars "go", chars "SFTime", false⟩], .inherited,
    some (exOne (exNode [] 0 [] none) (some [(chars "width", [(0, chars "x")])])), []⟩

/-- an instance without values of its own -/
def exInstance (p : ProtoDef Int) : Node Int := ⟨p.cls, [], fun _ => none⟩

/-- `PROTO Outer [ ] { Inner { } }` -/
def exOuter : ProtoDef Int := ⟨chars "Outer", [externalURL], [], .inherited, some (exOne (exInstance exInner) (some [])), []⟩

/-- A file with one instance of `Outer`. -/
def exFile : File Int :=
  ⟨exOne (exInstance exOuter) none, fun t => if t = chars "Inner" then some exInner else if t = chars "Outer" then some exOuter else none, []⟩

theorem one_reach {n : Node Int} {is} (hn : ∀ d ∈ n.cls.fields, ∀ v, d.read n = some v → v.nodes = []) {i : Nat} (h : Reach (exOne n is) i) : i = 0 := by
  cases h with
  | child h => simpa [exOne] using h
  | @field i j m d v hi hm hd hs hr hj =>
    by_cases h0 : i = 0
    · subst h0
      have : m = n := by simp [exOne] at hm; exact hm.symm
      subst this
      rw [hn d hd v hr] at hj; cases hj
    · simp [exOne, h0] at hm

theorem one_good {lk : Text → Option (Class Int)} {n : Node Int} {is} (hn : ∀ d ∈ n.cls.fields, ∃ v, d.read n = some v ∧ v.nodes = [] ∧ ∃ b, omitted exFloats d.dflt v = some b)
    (hD : n.DEF = []) (hg : GoodNode lk exFloats (exOne n is) 0 n) : GoodBody lk exFloats (exOne n is) [0] := by
  have hno : ∀ d ∈ n.cls.fields, ∀ v, d.read n = some v → v.nodes = [] := by
    intro d hd v hv
    obtain ⟨v', h1, h2, -⟩ := hn d hd
    rw [h1] at hv; cases hv; exact h2
  have h0 : (exOne n is).heap 0 = some n := by simp [exOne]
  refine ⟨fun i m hi hm => ?_, ⟨fun i hi => by simp [one_reach hno hi], fun i hi => ?_⟩, ?_, ?_, by simp [exOne]⟩
  · cases one_reach hno hi
    rw [h0] at hm; cases hm
    exact hg
  · cases one_reach hno hi
    refine ⟨n, h0, fun d hd _ => ?_⟩
    obtain ⟨v, h1, -, h2⟩ := hn d hd
    exact ⟨v, h1, fun _ _ => h2⟩
  · intro j m l l' hl hl' _ _ _
    have key : ∀ l, Refers (exOne n is) l j → l = .child 0 := by
      intro l hl
      cases hl with
      | @child k _ h =>
        rcases k with _ | k
        · rfl
        · simp [exOne] at h
      | field h1 h2 h3 h4 h5 h6 =>
        cases one_reach hno h1
        rw [h0] at h2; cases h2
        rw [hno _ h3 _ h5] at h6; cases h6
    rw [key l hl, key l' hl']
  · intro i m hi hm hne
    cases one_reach hno hi
    rw [h0] at hm; cases hm
    exact absurd hD hne

/-- the names of the example's prototypes -/
theorem exFile_needed {x : Text} (h : Needed exFile x) : x = chars "Inner" ∨ x = chars "Outer" := by
  have key : ∀ x p, exFile.protos x = some p → x = chars "Inner" ∨ x = chars "Outer" := by
    intro x p h
    simp only [exFile] at h
    split at h
    · exact .inl ‹_›
    · split at h
      · exact .inr ‹_›
      · cases h
  cases h with
  | free _ h => exact key _ _ h
  | used _ h => exact key _ _ h
  | dep _ h => obtain ⟨_, _, _, h, _⟩ := h; exact key _ _ h

theorem exInstance_good {p : ProtoDef Int} {is} {lk : Text → Option (Class Int)} (h1 : lk p.cls.proto = some p.cls) (h2 : SafeName p.cls.proto) (h3 : p.cls.Distinct)
    (h4 : ∀ d ∈ p.cls.fields, SafeName d.name) (h5 : ∀ d ∈ p.cls.fields, ∃ v, d.read (exInstance p) = some v ∧ v.nodes = [] ∧
      d.dflt.value.bind (coerce d.kind d.conv) = some v ∧ omitted exFloats d.dflt v = some true)
    (his : ∀ i f nm, ¬ IsMapped (exOne (exInstance p) is) i f nm) : GoodBody lk exFloats (exOne (exInstance p) is) [0] := by
  refine one_good (fun d hd => ?_) rfl ⟨.inl ⟨h2, p.cls, h1, .refl _, h3⟩, .inl rfl, h3.fields, fun d hd _ _ => h4 d hd, ?_, ?_, fun f nm h => absurd h (his _ f nm), fun f nm nm' h => absurd h (his _ f nm), ?_⟩
  · obtain ⟨v, e1, e2, -, e3⟩ := h5 d hd
    exact ⟨v, e1, e2, _, e3⟩
  · intro d hd _ _ v hr _
    obtain ⟨v', e1, e2, e3, -⟩ := h5 d hd
    rw [e1] at hr; cases hr
    exact ⟨e3, e2⟩
  · intro d hd _ _ v hr ho
    obtain ⟨v', e1, e2, e3, e4⟩ := h5 d hd
    rw [e1] at hr; cases hr
    rw [e4] at ho; cases ho
  · intro d hd _ _ v hr ho
    obtain ⟨v', e1, e2, e3, e4⟩ := h5 d hd
    rw [e1] at hr; cases hr
    rw [e4] at ho; cases ho

theorem exInner_mapped {i : Nat} {f nm : Text} (h : IsMapped (exOne (exNode [] 0 [] none) (some [(chars "width", [(0, chars "x")])])) i f nm) :
    i = 0 ∧ f = chars "x" ∧ nm = chars "width" := by
  obtain ⟨d, l, h1, h2, h3⟩ := h
  simp only [exOne, Option.some.injEq] at h1
  subst h1
  simp only [List.mem_singleton, Prod.mk.injEq] at h2
  obtain ⟨rfl, rfl⟩ := h2
  simp only [List.mem_singleton, Prod.mk.injEq] at h3
  exact ⟨h3.1, h3.2, rfl⟩

theorem exInner_body : GoodBody (Known exFile.protos exLookup) exFloats (exOne (exNode [] 0 [] none) (some [(chars "width", [(0, chars "x")])])) [0] := by
  have hlk : Known exFile.protos exLookup (chars "Group") = some exClass := rfl
  refine one_good ?_ rfl ⟨.inl ⟨show SafeName (chars "Group") by decide, exClass, hlk, .refl _, by decide⟩, .inl rfl, show (exClass.fields.map FieldDecl.name).Nodup by decide, ?_, ?_, ?_,
    fun f nm h => ?_, fun f nm nm' h h' => ?_, fun d _ hin => absurd hin (List.not_mem_nil)⟩
  · intro d hd
    simp only [exNode, exClass, List.mem_cons, List.not_mem_nil, or_false] at hd
    rcases hd with rfl | rfl | rfl <;> exact ⟨_, rfl, rfl, _, rfl⟩
  · intro d hd _ _
    simp only [exNode, exClass, List.mem_cons, List.not_mem_nil, or_false] at hd
    rcases hd with rfl | rfl | rfl <;> decide
  · intro d hd _ _ v hr ho
    simp only [exNode, exClass, List.mem_cons, List.not_mem_nil, or_false] at hd
    rcases hd with rfl | rfl | rfl <;> cases hr
    · exact ⟨rfl, rfl⟩
    · exact ⟨rfl, rfl⟩
    · simp [omitted] at ho
  · intro d hd _ _ v hr ho
    simp only [exNode, exClass, List.mem_cons, List.not_mem_nil, or_false] at hd
    rcases hd with rfl | rfl | rfl <;> cases hr
    · exact ⟨rfl, exRestored 0⟩
    · exact ⟨rfl, by simp⟩
    · exact rfl
  · obtain ⟨-, rfl, rfl⟩ := exInner_mapped h
    exact ⟨by decide, _, List.mem_cons_self, ⟨by decide, by intro s h; cases h⟩, fun h => absurd h.1 (by decide), rfl⟩
  · rw [(exInner_mapped h).2.2, (exInner_mapped h').2.2]

theorem exFile_good : GoodFile exLookup exFloats exFile [0] 2 2 := by
  have hkI : Known exFile.protos exLookup (chars "Inner") = some exInner.cls := by rfl
  have hkO : Known exFile.protos exLookup (chars "Outer") = some exOuter.cls := by rfl
  have hno : ∀ (n : Node Int) i f nm, ¬ IsMapped (exOne n (some [])) i f nm := by
    rintro n i f nm ⟨d, l, h1, h2, -⟩
    simp only [exOne, Option.some.injEq] at h1
    subst h1; cases h2
  have hno' : ∀ (n : Node Int) i f nm, ¬ IsMapped (exOne n none) i f nm := by
    rintro n i f nm ⟨d, l, h1, h2, -⟩
    cases h1
  have hrest : Restored exFloats id (sfFloatStr (intStr 3)) 3 := exRestored 3
  have hO : GoodBody (Known exFile.protos exLookup) exFloats (exOne (exInstance exInner) (some [])) [0] := by
    refine exInstance_good hkI (by decide) (by decide) ?_ ?_ (hno _)
    · intro d hd
      simp only [ProtoDef.cls, exInner, List.map_cons, List.map_nil, List.mem_cons, List.not_mem_nil, or_false] at hd
      rcases hd with rfl | rfl <;> decide
    · intro d hd
      simp only [ProtoDef.cls, exInner, List.map_cons, List.map_nil, List.mem_cons, List.not_mem_nil, or_false] at hd
      rcases hd with rfl | rfl <;> exact ⟨_, rfl, rfl, rfl, rfl⟩
  have hS : GoodBody (Known exFile.protos exLookup) exFloats (exOne (exInstance exOuter) none) [0] := by
    refine exInstance_good hkO (by decide) (by decide) ?_ ?_ (hno' _)
    · intro d hd
      simp only [ProtoDef.cls, exOuter, List.map_cons, List.map_nil, List.mem_cons, List.not_mem_nil, or_false] at hd
      subst hd; decide
    · intro d hd
      simp only [ProtoDef.cls, exOuter, List.map_cons, List.map_nil, List.mem_cons, List.not_mem_nil, or_false] at hd
      subst hd; exact ⟨_, rfl, rfl, rfl, rfl⟩
  have hI : GoodProto (Known exFile.protos exLookup) exFloats 2 (chars "Inner") exInner := by
    refine ⟨rfl, by decide, by decide, ?_, ?_, by decide, List.mem_cons_self, .inl rfl, ⟨_, [0], rfl, by simp [exOne], exInner_body, by decide, ?_⟩⟩
    · intro f hf _
      simp only [exInner, List.mem_cons, List.not_mem_nil, or_false] at hf
      rcases hf with rfl | rfl
      · exact ⟨by decide, by decide, ⟨chars "String", by decide, .inr rfl⟩, rfl, .strs [], rfl, rfl⟩
      · exact ⟨by decide, by decide, ⟨chars "Float", by decide, .inl rfl⟩, rfl, .num 3, rfl, rfl, hrest⟩
    · intro e he _
      simp only [exInner, List.mem_cons, List.not_mem_nil, or_false] at he
      subst he
      exact ⟨by decide, by decide, ⟨chars "Time", by decide, .inl rfl⟩, by decide⟩
    · intro i f nm hm
      obtain ⟨rfl, rfl, rfl⟩ := exInner_mapped hm
      refine ⟨.child (by simp [exOne]), .inr ⟨⟨exPortField, false⟩, by simp [exInner], rfl, ?_⟩⟩
      intro n d hn hd hdn
      have : n = exNode [] 0 [] none := by simp [exOne] at hn; exact hn.symm
      subst this
      simp only [exNode, exClass, List.mem_cons, List.not_mem_nil, or_false] at hd
      rcases hd with rfl | rfl | rfl
      · rfl
      · cases hdn
      · cases hdn
  have hOu : GoodProto (Known exFile.protos exLookup) exFloats 2 (chars "Outer") exOuter := by
    refine ⟨rfl, by decide, by decide, ?_, (fun e he => absurd he (List.not_mem_nil)), by decide, List.mem_cons_self, .inl rfl, ⟨_, [0], rfl, by simp [exOne], hO, by decide, fun i f nm hm => absurd hm (hno _ _ _ _)⟩⟩
    intro f hf _
    simp only [exOuter, List.mem_cons, List.not_mem_nil, or_false] at hf
    subst hf
    exact ⟨by decide, by decide, ⟨chars "String", by decide, .inr rfl⟩, rfl, .strs [], rfl, rfl⟩
  have hnI : ∀ x p, exFile.protos x = some p → (x = chars "Inner" ∧ p = exInner) ∨ (x = chars "Outer" ∧ p = exOuter) := by
    intro x p h
    simp only [exFile] at h
    split at h
    · cases h; exact .inl ⟨‹_›, rfl⟩
    · split at h
      · cases h; exact .inr ⟨‹_›, rfl⟩
      · cases h
  refine ⟨hS, by decide, rfl, .inl (by simp [exFile, exOne]), ?_, ⟨fun t => if t = chars "Outer" then 1 else 0, ?_, ?_⟩⟩
  · intro x p _ hp
    rcases hnI x p hp with ⟨rfl, rfl⟩ | ⟨rfl, rfl⟩
    · exact hI
    · exact hOu
  · rintro x y _ ⟨p, q, h1, h2, h3⟩
    have huse : ∀ (n : Node Int) is, (∀ d ∈ n.cls.fields, ∀ v, d.read n = some v → v.nodes = []) → Uses (exOne n is) y → y = n.cls.proto := by
      rintro n is hn ⟨-, i, m, hi, hm, hp⟩
      cases one_reach hn hi
      have : m = n := by simp [exOne] at hm; exact hm.symm
      subst this; exact hp.symm
    have hnone : ∀ q : ProtoDef Int, (∀ f ∈ q.fields, f.decl.read (exInstance q) = some (.strs []) ∨ f.decl.read (exInstance q) = some (.num 3)) →
        ∀ d ∈ (exInstance q).cls.fields, ∀ v, d.read (exInstance q) = some v → v.nodes = [] := by
      intro q hq d hd v hv
      simp only [exInstance, ProtoDef.cls, List.mem_map] at hd
      obtain ⟨f, hf, rfl⟩ := hd
      rcases hq f hf with h | h <;> rw [h] at hv <;> cases hv <;> rfl
    rcases hnI x p h1 with ⟨rfl, rfl⟩ | ⟨rfl, rfl⟩
    · rcases h3 with h3 | ⟨b, hb, hu⟩
      · cases h3
      · cases hb
        have := huse _ _ (by
          intro d hd v hv
          simp only [exNode, exClass, List.mem_cons, List.not_mem_nil, or_false] at hd
          rcases hd with rfl | rfl | rfl <;> cases hv <;> rfl) hu
        subst this
        cases h2
    · rcases h3 with h3 | ⟨b, hb, hu⟩
      · cases h3
      · cases hb
        have := huse _ _ (hnone exInner (by
          intro f hf
          simp only [exInner, List.mem_cons, List.not_mem_nil, or_false] at hf
          rcases hf with rfl | rfl
          · exact .inl rfl
          · exact .inr rfl)) hu
        subst this
        decide
  · intro x _
    show (if x = chars "Outer" then 1 else 0) < 2
    split <;> omega

theorem exFile_lines : FileLines defaults exFile :=
  ⟨fun _ _ _ _ _ => by decide, fun _ _ _ _ _ _ _ _ _ _ _ => by decide⟩

example : ∃ text named read φ, lineariseFile defaults exFloats exFile 2 2 = .ok (text, named) ∧ Renamed exFile.scene named ∧
    ReadsFile exLookup exFloats text read ∧ SameScene named read.rs.sc φ ∧
    (∀ x, Needed exFile x → ∃ p p', exFile.protos x = some p ∧ read.protos.lookup x = some p' ∧ SameProto p p' ∧ p'.usable = true) ∧
    ∀ x, ¬ Needed exFile x → read.protos.lookup x = none := C67_round_trip goodDefaults exFile_good exFile_lines

end Verif.Lin
