import Verif.Lemmas.Loaded
/-!
What the Scripts in a loaded file are like.
-/
namespace Verif.Full
open Verif.Peg Verif.Grammar Verif.TextOut Verif.SceneText Verif.Reader Verif.Scopes
open Verif.Lin hiding disp dispList dispDecls dispAttrs disp_node disp_attr
variable {F : Type} {base : Text → Option (Class F)} {fl : Floats F}

/-- Scripts have the classes of Scripts. -/
def ScriptInv (fl : Floats F) (w : World F) : Prop := ∀ i n, w.heap i = some n → n.cls.proto = scriptName → w.inst i = none → ScriptClass fl n.cls

theorem ScriptInv.of {w w' : World F} (h : ScriptInv fl w) (hi : w'.inst = w.inst) (hn : ∀ i n', w'.heap i = some n' → ∃ n, w.heap i = some n ∧ n'.cls = n.cls) : ScriptInv fl w' := fun i n' h1 h2 h3 => by
  obtain ⟨n, k1, k2⟩ := hn i n' h1
  rw [k2] at h2 ⊢
  exact h i n k1 h2 (by rw [← hi]; exact h3)

theorem Quiet.scripts {w w' : World F} (h : Quiet w w') (hl : ScriptInv fl w) : ScriptInv fl w' := hl.of h.inst (fun i n' hi => by
  have := h.node i
  rw [hi] at this
  obtain ⟨n, k1, k2⟩ := Option.map_eq_some_iff.1 this.symm
  exact ⟨n, k1, (Prod.ext_iff.1 k2).1.symm⟩)

theorem New.scripts {ss c k DEF} {w w' : World F} (h : New ss c k DEF w w') (hc : c.proto = scriptName → k = none → ScriptClass fl c) (hl : ScriptInv fl w) : ScriptInv fl w' := by
  intro i n' h1 h2 h3
  have hn := h.node i
  rw [h1] at hn
  rw [h.inst] at h3
  split at hn
  · next e =>
    rw [if_pos e] at h3
    have : n'.cls = c := (Prod.ext_iff.1 (Option.some.inj hn)).1
    rw [this] at h2 ⊢
    exact hc h2 h3
  · next e =>
    rw [if_neg e] at h3
    obtain ⟨n, k1, k2⟩ := Option.map_eq_some_iff.1 hn.symm
    have : n.cls = n'.cls := (Prod.ext_iff.1 k2).1
    rw [← this] at h2 ⊢
    exact hl i n k1 h2 h3

theorem Run.scripts (hB : Builtins base fl) (hS : base scriptName = none) {plain : Bool} {ss ps l} {w w' : World F} (hr : Run base fl plain ss ps l w w') : Inv base w ps → ScriptInv fl w → ScriptInv fl w' := by
  induction hr with
  | nil => exact fun _ h => h
  | trans r1 r2 ih1 ih2 => exact fun hw h => ih2 (r1.inv hB.plain hw).1 (ih1 hw h)
  | @create ss ps gi DEF w w' hD hc =>
    intro hw h
    obtain ⟨-, c, k0, hnew, -, hk⟩ := create_inv hB.plain hw hc
    refine hnew.scripts (fun hp hn => ?_) h
    rcases hk with ⟨k', rfl, -⟩ | ⟨-, hb⟩
    · cases hn
    · have := hB.name _ _ hb
      rw [hp] at this
      rw [← this, hS] at hb
      cases hb
  | @script ss ps DEF w w' hD hc => exact fun hw h => (script_inv hw hc).2.scripts (fun _ _ => ScriptLike.start.cls) h
  | @setClass ss ps w i n c h1 h2 h3 h4 h5 h6 =>
    intro hw h j n' hj hp hn
    simp only [World.setClass] at hj
    split at hj
    · next hji =>
      subst hji
      obtain ⟨n0, -, rfl⟩ := Option.map_eq_some_iff.1 hj
      exact h6
    · exact h j n' hj hp hn
  | use _ => exact fun _ h => h
  | @route ss ps s sf d df si di w h1 h2 h3 h4 => exact fun hw h => (((bind_quiet w si sf di df).scripts h).of rfl (fun i n hi => ⟨n, hi, rfl⟩))
  | @is ss ps m i n nm w w' h1 h2 =>
    intro hw h
    unfold World.addIs at h2
    split at h2
    · cases h2
    · cases h2; exact h
  | @attr ss ps i n d v w w' h1 h2 h3 h4 => exact fun hw h => (setAttr_quiet h4).scripts h
  | @children ss ps l w _ => exact fun _ h => h
  | decl _ _ => exact fun _ h => h
  | @body ss ps c l w w' r ih => exact fun hw h => ih (hw.newScene _).1 h
  | @proto ss ps nm rest l w w' r hd ih => exact fun hw h => ih (hw.newClass _).1 h

/-- The Scripts of a loaded file. -/
theorem reads_scripts (hB : Builtins base fl) (hS : base scriptName = none) {text : Text} {w : World F} (h : ReadsWorld base fl text w) : ScriptInv fl w := by
  obtain ⟨l, r⟩ := reads_steps hB h
  exact r.scripts hB hS init_inv (fun i n hi => by simp [World.init] at hi)

end Verif.Full
