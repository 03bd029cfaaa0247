import Verif.Lemmas.InteractiveVars

/-! The letters that explain values in the answers of the interactive shell. -/

namespace Slugs.Model

open Slugs.Spec

variable {I O : Type}

/-- Pairs of positions. -/
abbrev W2 (I O : Type) := Pos I O × Pos I O

open Classical in
/-- As `letterOf`, with `.` for values that are not fixed. -/
noncomputable def partLetter {W : Type} (bits : W → List Bool) : List (Char × (W → Prop)) → Nat → Bool → Char
  | [], _, _ => '.'
  | (c, P) :: Ps, k, b => if FixedBit bits P k then (if b then c.toUpper else c) else partLetter bits Ps k b

/-- Letters that can be told from `.`. -/
def Letters {W : Type} (Ps : List (Char × (W → Prop))) : Prop := ∀ P ∈ Ps, P.1 ≠ '.' ∧ P.1.toUpper ≠ '.'

open Classical in
theorem partLetter_snoc {W : Type} (bits : W → List Bool) (Ps : List (Char × (W → Prop))) (hP : Letters Ps) (c : Char) (P : W → Prop)
    (k : Nat) (b : Bool) :
    partLetter bits (Ps ++ [(c, P)]) k b =
      if partLetter bits Ps k b = '.' then (if FixedBit bits P k then (if b then c.toUpper else c) else '.') else partLetter bits Ps k b := by
  induction Ps with
  | nil => simp [partLetter]
  | cons a Ps ih =>
    obtain ⟨a1, a2⟩ := a
    have h1 := hP (a1, a2) (by simp)
    have ih := ih fun Q hQ => hP Q (List.mem_cons_of_mem _ hQ)
    simp only [List.cons_append, partLetter]
    by_cases hf : FixedBit bits a2 k
    · simp only [if_pos hf]
      cases b <;> simp [h1.1, h1.2]
    · simp only [if_neg hf, ih]

theorem letterOf_part {W : Type} (bits : W → List Bool) (Ps : List (Char × (W → Prop))) (hP : Letters Ps) (k : Nat) (b : Bool) :
    letterOf bits Ps k b = if partLetter bits Ps k b = '.' then (if b then '1' else '0') else partLetter bits Ps k b := by
  classical
  induction Ps with
  | nil => simp [partLetter, letterOf]
  | cons a Ps ih =>
    obtain ⟨a1, a2⟩ := a
    have h1 := hP (a1, a2) (by simp)
    have ih := ih fun Q hQ => hP Q (List.mem_cons_of_mem _ hQ)
    simp only [letterOf, partLetter]
    by_cases hf : FixedBit bits a2 k
    · simp only [if_pos hf]
      cases b <;> simp [h1.1, h1.2]
    · simp only [if_neg hf, ih]

theorem partLetter_fixed {W : Type} (bits : W → List Bool) (Ps : List (Char × (W → Prop))) {k : Nat} {b : Bool}
    (h : partLetter bits Ps k b ≠ '.') : ∃ P ∈ Ps, FixedBit bits P.2 k := by
  classical
  induction Ps with
  | nil => exact absurd rfl h
  | cons a Ps ih =>
    obtain ⟨a1, a2⟩ := a
    simp only [partLetter] at h
    by_cases hf : FixedBit bits a2 k
    · exact ⟨(a1, a2), by simp, hf⟩
    · rw [if_neg hf] at h
      obtain ⟨P, hP, hf'⟩ := ih h
      exact ⟨P, List.mem_cons_of_mem _ hP, hf'⟩

/-- `bits` are the values of the variables. -/
def BitsOf (vs : List (Name × T I O)) (bits : W2 I O → List Bool) : Prop :=
  ∀ (w : W2 I O) (k : Nat) (b : Bool), (bits w)[k]? = some b ↔ ∃ v : Name × T I O, vs[k]? = some v ∧ (b = true ↔ v.2 w.1 w.2)

theorem BitsOf.get {vs : List (Name × T I O)} {bits : W2 I O → List Bool} (hb : BitsOf vs bits) (w : W2 I O) (k : Nat) :
    open Classical in (bits w)[k]? = vs[k]?.map fun v => decide (v.2 w.1 w.2) := by
  classical
  cases hv : vs[k]? with
  | none =>
    cases h : (bits w)[k]? with
    | none => rfl
    | some b =>
      obtain ⟨v, h', _⟩ := (hb w k b).mp h
      rw [hv] at h'; cases h'
  | some v => exact (hb w k _).mpr ⟨v, hv, by simp⟩

/-- The intermediate results. -/
def Marked (bits : W2 I O → List Bool) (Ps : List (Char × (W2 I O → Prop))) (w : W2 I O) (res : List Char) : Prop :=
  res = (bits w).mapIdx (partLetter bits Ps)

theorem marked_start {vs : List (Name × T I O)} {bits : W2 I O → List Bool} (hb : BitsOf vs bits) (w : W2 I O) :
    Marked bits [] w (List.replicate vs.length '.') := by
  classical
  rw [Marked]
  have hl : (bits w).length = vs.length := by
    apply Nat.le_antisymm
    · by_contra hlt
      push Not at hlt
      have h1 := hb.get w vs.length
      rw [List.getElem?_eq_none (Nat.le_refl _), List.getElem?_eq_getElem hlt] at h1
      cases h1
    · by_contra hlt
      push Not at hlt
      have h1 := hb.get w (bits w).length
      rw [List.getElem?_eq_none (Nat.le_refl _), List.getElem?_eq_getElem hlt] at h1
      cases h1
  apply List.ext_getElem
  · simp [hl]
  · intro k h1 h2
    simp [partLetter]

theorem zip_marked {vs : List (Name × T I O)} {bits : W2 I O → List Bool} (hb : BitsOf vs bits) {Ps Qs : List (Char × (W2 I O → Prop))}
    {w : W2 I O} {res : List Char} (h : Marked bits Ps w res) (F : (Name × T I O) → Char → Char)
    (hF : ∀ k v b, vs[k]? = some v → (b = true ↔ v.2 w.1 w.2) → F v (partLetter bits Ps k b) = partLetter bits Qs k b) :
    Marked bits Qs w (List.zipWith F vs res) := by
  classical
  rw [Marked] at h ⊢
  apply List.ext_getElem?
  intro k
  rw [List.getElem?_zipWith', h, List.getElem?_mapIdx, List.getElem?_mapIdx]
  have hk := hb.get w k
  cases hv : vs[k]? with
  | none => rw [hv] at hk; simp [hk]
  | some v =>
    rw [hv] at hk
    simp only [hk, Option.map_some]
    simp [hF k v _ hv (by simp : decide (v.2 w.1 w.2) = true ↔ _)]

theorem mark_marked {vs : List (Name × T I O)} {bits : W2 I O → List Bool} (hb : BitsOf vs bits) {Ps : List (Char × (W2 I O → Prop))}
    (hP : Letters Ps) (c : Char) {f : T I O} {w : W2 I O} (hw : f w.1 w.2) {res : List Char} (h : Marked bits Ps w res) :
    Marked bits (Ps ++ [(c, fun w => f w.1 w.2)]) w (mark (semMgr I O) c c.toUpper f vs res) ∧
    Marked bits (Ps ++ [(c, fun w => f w.1 w.2)]) w (markUp (semMgr I O) c c.toUpper f vs res) := by
  classical
  have hff : ∀ g : T I O, g = (semMgr I O).ff ↔ ∀ w : W2 I O, ¬ g w.1 w.2 := (semReading I O).ff
  have hfix : ∀ k v, vs[k]? = some v → (FixedBit bits (fun w => f w.1 w.2) k ↔
      (∀ w : W2 I O, f w.1 w.2 → ¬ v.2 w.1 w.2) ∨ ∀ w : W2 I O, f w.1 w.2 → v.2 w.1 w.2) := by
    intro k v hv
    have hg : ∀ w, (bits w)[k]? = some (decide (v.2 w.1 w.2)) := fun w => by rw [hb.get w k, hv]; rfl
    constructor
    · intro h
      by_cases hvw : v.2 w.1 w.2
      · refine .inr fun w' hw' => ?_
        have := h w' w hw' hw
        simpa [hg, hvw] using this
      · refine .inl fun w' hw' => ?_
        have := h w' w hw' hw
        simpa [hg, hvw] using this
    · rintro (h | h) w1 w2 h1 h2
      · simp [hg, h w1 h1, h w2 h2]
      · simp [hg, h w1 h1, h w2 h2]
  have hl : ∀ v : Name × T I O, (semMgr I O).and f v.2 = (semMgr I O).ff ↔ ∀ w : W2 I O, f w.1 w.2 → ¬ v.2 w.1 w.2 := fun v =>
    (hff _).trans (forall_congr' fun w => not_and)
  have hu : ∀ v : Name × T I O, (semMgr I O).and f ((semMgr I O).not v.2) = (semMgr I O).ff ↔ ∀ w : W2 I O, f w.1 w.2 → v.2 w.1 w.2 := fun v =>
    (hff _).trans (forall_congr' fun w => by
      change ¬ (f w.1 w.2 ∧ ¬ v.2 w.1 w.2) ↔ _
      tauto)
  constructor
  · refine zip_marked hb h _ fun k v b hv hbv => ?_
    rw [partLetter_snoc bits Ps hP]
    by_cases hd : partLetter bits Ps k b = '.'
    · rw [if_pos hd, if_pos hd]
      by_cases h1 : (semMgr I O).and f v.2 = (semMgr I O).ff
      · rw [if_pos h1, if_pos ((hfix k v hv).mpr (.inl ((hl v).mp h1)))]
        have : b = false := by
          have := (hl v).mp h1 w hw
          rw [← hbv] at this; simpa using this
        simp [this]
      · rw [if_neg h1]
        by_cases h2 : (semMgr I O).and f ((semMgr I O).not v.2) = (semMgr I O).ff
        · rw [if_pos h2, if_pos ((hfix k v hv).mpr (.inr ((hu v).mp h2)))]
          rw [if_pos (hbv.mpr ((hu v).mp h2 w hw))]
        · rw [if_neg h2, if_neg]
          rw [hfix k v hv]
          rintro (h3 | h3)
          · exact h1 ((hl v).mpr h3)
          · exact h2 ((hu v).mpr h3)
    · rw [if_neg hd, if_neg hd]
  · refine zip_marked hb h _ fun k v b hv hbv => ?_
    rw [partLetter_snoc bits Ps hP]
    by_cases hd : partLetter bits Ps k b = '.'
    · rw [if_pos hd, if_pos hd]
      by_cases h1 : (semMgr I O).and f ((semMgr I O).not v.2) = (semMgr I O).ff
      · rw [if_pos h1, if_pos ((hfix k v hv).mpr (.inr ((hu v).mp h1)))]
        rw [if_pos (hbv.mpr ((hu v).mp h1 w hw))]
      · rw [if_neg h1]
        by_cases h2 : (semMgr I O).and f v.2 = (semMgr I O).ff
        · rw [if_pos h2, if_pos ((hfix k v hv).mpr (.inl ((hl v).mp h2)))]
          have : b = false := by
            have := (hl v).mp h2 w hw
            rw [← hbv] at this; simpa using this
          simp [this]
        · rw [if_neg h2, if_neg]
          rw [hfix k v hv]
          rintro (h3 | h3)
          · exact h2 ((hl v).mpr h3)
          · exact h1 ((hu v).mpr h3)
    · rw [if_neg hd, if_neg hd]

open Classical in
/-- The letters with the open ones filled in. -/
noncomputable def filled (vs : List (Name × T I O)) (res : List Char) (w : W2 I O) : List Char :=
  List.zipWith (fun v r => if r = '.' then (if v.2 w.1 w.2 then '1' else '0') else r) vs res

theorem concretize_filled : ∀ (vs : List (Name × T I O)) (res : List Char) (f : T I O), (∃ w : W2 I O, f w.1 w.2) →
    ∃ l f', concretize (semMgr I O) vs res f = some (l, f') ∧ (∃ w : W2 I O, f' w.1 w.2) ∧
      ∀ w : W2 I O, f' w.1 w.2 ↔ f w.1 w.2 ∧ filled vs res w = l := by
  classical
  intro vs
  induction vs with
  | nil => intro res f hf; exact ⟨[], f, by rw [concretize.eq_def], hf, fun w => by simp [filled]⟩
  | cons v vs ih =>
    intro res f hf
    cases res with
    | nil => exact ⟨[], f, by rw [concretize.eq_def], hf, fun w => by simp [filled]⟩
    | cons r rs =>
      have hff : ∀ g : T I O, g ≠ (semMgr I O).ff ↔ ∃ w : W2 I O, g w.1 w.2 := by
        intro g
        rw [ne_eq, (semReading I O).ff]
        push Not
        rfl
      rw [concretize]
      by_cases hr : r = '.'
      · rw [if_pos hr]
        by_cases h0 : (semMgr I O).and f ((semMgr I O).not v.2) ≠ (semMgr I O).ff
        · rw [if_pos h0]
          obtain ⟨l, f', h1, h2, h3⟩ := ih rs ((semMgr I O).and f ((semMgr I O).not v.2)) ((hff _).mp h0)
          refine ⟨'0' :: l, f', by rw [h1], h2, fun w => ?_⟩
          rw [h3 w]
          change ((f w.1 w.2 ∧ ¬ v.2 w.1 w.2) ∧ _) ↔ _
          simp only [filled, List.zipWith_cons_cons, hr, if_true, List.cons.injEq]
          by_cases hvw : v.2 w.1 w.2 <;> simp [hvw]
        · rw [if_neg h0]
          have h0' : ∀ w : W2 I O, f w.1 w.2 → v.2 w.1 w.2 := by
            intro w hw
            by_contra hvw
            exact h0 ((hff _).mpr ⟨w, hw, hvw⟩)
          obtain ⟨w0, hw0⟩ := hf
          have h1 : (semMgr I O).and f v.2 ≠ (semMgr I O).ff := (hff _).mpr ⟨w0, hw0, h0' w0 hw0⟩
          rw [if_pos h1]
          obtain ⟨l, f', h1, h2, h3⟩ := ih rs ((semMgr I O).and f v.2) ((hff _).mp h1)
          refine ⟨'1' :: l, f', by rw [h1], h2, fun w => ?_⟩
          rw [h3 w]
          change ((f w.1 w.2 ∧ v.2 w.1 w.2) ∧ _) ↔ _
          simp only [filled, List.zipWith_cons_cons, hr, if_true, List.cons.injEq]
          by_cases hvw : v.2 w.1 w.2 <;> simp [hvw]
      · rw [if_neg hr]
        obtain ⟨l, f', h1, h2, h3⟩ := ih rs f hf
        refine ⟨r :: l, f', by rw [h1], h2, fun w => ?_⟩
        rw [h3 w]
        simp [filled, hr]

theorem filled_marked {vs : List (Name × T I O)} {bits : W2 I O → List Bool} (hb : BitsOf vs bits) {Ps : List (Char × (W2 I O → Prop))}
    (hP : Letters Ps) {w : W2 I O} {res : List Char} (h : Marked bits Ps w res) : filled vs res w = lettersOf bits Ps w := by
  classical
  rw [filled, lettersOf]
  rw [Marked] at h
  apply List.ext_getElem?
  intro k
  rw [List.getElem?_zipWith', h, List.getElem?_mapIdx, List.getElem?_mapIdx]
  have hk := hb.get w k
  cases hv : vs[k]? with
  | none => rw [hv] at hk; simp [hk]
  | some v =>
    rw [hv] at hk
    simp only [hk, Option.map_some]
    rw [letterOf_part bits Ps hP]
    simp

/-- The letters of an answer, and the transitions they stand for. -/
theorem concretize_letters {vs : List (Name × T I O)} {bits : W2 I O → List Bool} (hb : BitsOf vs bits) {Ps : List (Char × (W2 I O → Prop))}
    (hP : Letters Ps) {f : T I O} (hf : ∃ w : W2 I O, f w.1 w.2) (hsub : ∀ P ∈ Ps, ∀ w : W2 I O, f w.1 w.2 → P.2 w) {res : List Char}
    (h : ∀ w : W2 I O, f w.1 w.2 → Marked bits Ps w res) :
    ∃ l f', concretize (semMgr I O) vs res f = some (l, f') ∧ (∃ w : W2 I O, f' w.1 w.2) ∧
      ∀ w : W2 I O, f' w.1 w.2 → f w.1 w.2 ∧ l = lettersOf bits Ps w ∧ ∀ w' : W2 I O, f' w'.1 w'.2 ↔ f w'.1 w'.2 ∧ bits w' = bits w := by
  classical
  obtain ⟨l, f', h1, h2, h3⟩ := concretize_filled vs res f hf
  refine ⟨l, f', h1, h2, fun w hw => ?_⟩
  obtain ⟨hfw, hl⟩ := (h3 w).mp hw
  have hlw : l = lettersOf bits Ps w := by rw [← hl, filled_marked hb hP (h w hfw)]
  refine ⟨hfw, hlw, fun w' => ?_⟩
  rw [h3 w']
  refine and_congr_right fun hfw' => ?_
  rw [filled_marked hb hP (h w' hfw'), hlw]
  constructor
  · intro he
    apply List.ext_getElem?
    intro k
    have hk := congrArg (fun l => l[k]?) he
    simp only [lettersOf, List.getElem?_mapIdx] at hk
    have g1 := hb.get w k
    have g2 := hb.get w' k
    cases hv : vs[k]? with
    | none => rw [hv] at g1 g2; rw [g1, g2]; rfl
    | some v =>
      rw [hv] at g1 g2
      rw [g1, g2] at hk
      simp only [Option.map_some, Option.some.injEq] at hk
      rw [letterOf_part bits Ps hP, letterOf_part bits Ps hP] at hk
      -- the intermediate letters are the same
      have hres : partLetter bits Ps k (decide (v.2 w.1 w.2)) = partLetter bits Ps k (decide (v.2 w'.1 w'.2)) := by
        have := (h w hfw).symm.trans (h w' hfw')
        have := congrArg (fun l => l[k]?) this
        simp only [List.getElem?_mapIdx, g1, g2] at this
        simpa using this
      by_cases hd : partLetter bits Ps k (decide (v.2 w.1 w.2)) = '.'
      · rw [if_pos hd, if_pos (hres ▸ hd)] at hk
        rw [g1, g2]
        by_cases a : v.2 w.1 w.2 <;> by_cases b : v.2 w'.1 w'.2 <;> simp [a, b] at hk ⊢
      · obtain ⟨P, hPm, hfix⟩ := partLetter_fixed bits Ps hd
        exact hfix w' w (hsub P hPm w' hfw') (hsub P hPm w hfw)
  · intro he
    rw [lettersOf, lettersOf, he]

end Slugs.Model
