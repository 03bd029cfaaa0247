import Verif.Lemmas.SubstitutorSpec

/-!
The tool that replaces integer variables: what it prints for a constraint.
-/

namespace Slugs.Model.Substitutor

open Slugs.Spec Slugs.Spec.Structured
open Slugs.Model.Structured

variable {rs : List Shift} {S : SSpec}

/-- The Boolean propositions that the tool finds: apart from comments, those of the specification. -/
structure BoolsOk (S : SSpec) (T : List Word) : Prop where
  same : ∀ w, '#' ∉ w → (w ∈ T ↔ w ∈ S.bools)
  closed : ∀ x ∈ T, '\'' ∉ x → prime x ∈ T

theorem nameLike_hash {w : Word} (h : NameLike w) : '#' ∉ w := name_hash h.2.1

theorem vars_bools {s : Section} {x : Word} (h : x ∈ usable s (SSpec.boolsOf S.inputs) (SSpec.boolsOf S.outputs)) : x ∈ S.bools := by
  have e : SSpec.boolsOf (S.inputs ++ S.outputs) = SSpec.boolsOf S.inputs ++ SSpec.boolsOf S.outputs := by simp [SSpec.boolsOf]
  have := usable_names h
  rw [SSpec.bools, e]
  simp only [List.mem_append, List.map_append] at this ⊢
  tauto

theorem subst_constraint (h : Setup rs S) {T : List Word} (hT : BoolsOk S T) {s : Section} {line out : List Char} {c : Constraint} (hl : OutLine line)
    (hi : isItem line = true) (hn : NoEnd line) (hc : IsConstraint S.bools line c) (hu : S.Uses s c) (ho : substProperty (rs.flatMap entriesOf) T line = .ok out) :
    OutLine out ∧ isItem out = true ∧ NoEnd out ∧ ∃ c', IsConstraint S.bools out c' ∧ (bare rs S).Allows s c' ∧ SameHolds h.ok c c' := by
  have hh : line.take 1 ≠ txt!"#" := by
    have := (isItem_iff.mp hi).2
    cases line with
    | nil => simp
    | cons d l => simpa using this
  have hbb : ∀ {f : SFml}, (∀ x ∈ f.atoms false, x ∈ S.bools) → f.Proper (bare rs S).bounds false → ∀ p q : Pos S.In S.Out,
      f.holds (bare rs S).bounds (fun x => decide ((bare rs S).look (embPos (eIn h.ok) (eOut h.ok) p) (embPos (eIn h.ok) (eOut h.ok) q) x = 1))
        ((bare rs S).look (embPos (eIn h.ok) (eOut h.ok) p) (embPos (eIn h.ok) (eOut h.ok) q)) =
      f.holds (bare rs S).bounds (fun x => decide (S.look p q x = 1)) ((bare rs S).look (embPos (eIn h.ok) (eOut h.ok) p) (embPos (eIn h.ok) (eOut h.ok) q)) := by
    intro f ha hp p q
    exact holds_congr (B := fun x => decide ((bare rs S).look (embPos (eIn h.ok) (eOut h.ok) p) (embPos (eIn h.ok) (eOut h.ok) q) x = 1))
      (B' := fun x => decide (S.look p q x = 1)) f false hp fun x hx => by simp only [h.lookBool p q (ha x hx)]
  rw [substProperty, hl.tight.strip, if_neg hh] at ho
  by_cases hp : isPrefixLine T (split txt!" " line) = true
  · rw [if_pos hp] at ho
    cases ho
    refine ⟨hl, hi, hn, c, hc, ?_⟩
    cases hc with
    | @«infix» f hf =>
      obtain ⟨ts, h1, h2⟩ := hf
      have hhash := lexes_hash h1 fun t ht => (infix_tokens h2 t ht).1
      rw [isPrefix_same hT.same hhash] at hp
      obtain ⟨ts', hs⟩ := isPrefix_simple h.nameLike h.unprimed ⟨ts, h1, h2⟩ hp
      have ha := atoms_bools (S := S) ⟨ts, h1, h2⟩ (simple_proper hs S.bounds).1
      refine ⟨⟨(simple_proper hs _).1, fun x hx => h.usableBool (ha x hx) (hu.2.1 x hx), ?_⟩, ?_⟩
      · rw [(simple_proper hs S.bounds).2]
        simp
      · intro p q
        rw [SSpec.holds, SSpec.holds, hbb ha (simple_proper hs _).1 p q, simple_holds hs (bare rs S).bounds S.bounds _ _ (S.look p q)]
    | @plain φ hr hs =>
      refine ⟨⟨hu.1, ?_⟩, ?_⟩
      · intro x hx
        have := hu.2 x hx
        rw [← boolsOf_shift (rs := rs) S.inputs, ← boolsOf_shift (rs := rs) S.outputs] at this
        exact this
      · intro p q
        rw [SSpec.holds, SSpec.holds, Fml.eval_congr φ [] fun x hx => ?_]
        rw [h.lookBool p q (vars_bools (hu.2 x hx))]
  · rw [if_neg hp] at ho
    cases hc with
    | @«infix» f hf =>
      have hm : ∀ w, (∀ c ∈ w, nameChar c = true) → (w ∈ S.bools ↔ w ∈ T) := fun w hw => (hT.same w (name_hash hw)).symm
      have hf' := isFormula_same hm hf
      have htx : TextsOk rs T := by
        refine ⟨h.fit.once, fun r hr => h.x hr, fun r hr => ⟨h.y hr, ?_, ?_⟩, h.fit.number⟩
        · rw [hT.same _ (nameLike_hash (nameLike_tidy (h.y hr)))]; exact (h.fresh hr).1
        · rw [hT.same _ (nameLike_hash (nameLike_prime (nameLike_tidy (h.y hr)) (h.y hr).2.2.1))]; exact (h.fresh hr).2
      have hsol := solid_line (texts_solid htx) hf' hu.1 ho
      obtain ⟨f', k1, k2⟩ := substLine_right (texts_terms htx) hT.closed hf' hu.1 ho
      have k1 := isFormula_same (fun w hw => (hm w hw).symm) k1
      obtain ⟨o1, o2⟩ := outLine_of hsol.head hsol.last hsol.line.1 hsol.ne
      have hprop : f'.Proper (bare rs S).bounds false := k2.proper _ fun x hx => by
        obtain ⟨u1, u2⟩ := hu.2.2 x hx
        obtain ⟨d, hd, lo, hi, hr, e⟩ := h.number u1 u2
        exact h.properAt hd hr e
      have ha := atoms_bools (S := S) k1 hprop
      refine ⟨o1, o2, hsol.line, .infix f', .infix k1, ⟨hprop, fun x hx => h.usableBool (ha x hx) (hu.2.1 x (k2.atoms x hx)), ?_⟩, ?_⟩
      · intro y hy
        obtain ⟨x, hx, hxy⟩ := k2.numbers y hy
        obtain ⟨u1, u2⟩ := hu.2.2 x hx
        obtain ⟨d, hd, lo, hi, hr, e⟩ := h.number u1 u2
        exact h.names hd e u1 y hxy
      · intro p q
        rw [SSpec.holds, SSpec.holds, hbb ha hprop p q]
        have hfit : ∀ x ∈ f.numbers false, FitsAt (termsOf rs) (bare rs S).bounds (S.look p q)
            ((bare rs S).look (embPos (eIn h.ok) (eOut h.ok) p) (embPos (eIn h.ok) (eOut h.ok) q)) x := by
          intro x hx
          obtain ⟨u1, u2⟩ := hu.2.2 x hx
          obtain ⟨d, hd, lo, hi, hr, e⟩ := h.number u1 u2
          exact h.fits p q hd e
        rw [k2.holds S.bounds (bare rs S).bounds (fun x => decide (S.look p q x = 1)) (S.look p q) _ hfit]
        rfl
    | @plain φ hr hs =>
      refine absurd (isPrefix_plain hr (fun c hc hsp => hs c hc (isSpace_py hsp)) hu.1 fun x hx => ?_) hp
      have := h.unprimed x (vars_bools (hu.2 x hx))
      exact (hT.same _ (nameLike_hash (h.nameLike _ this))).mpr this

end Slugs.Model.Substitutor
