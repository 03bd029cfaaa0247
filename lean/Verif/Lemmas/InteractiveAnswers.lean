import Verif.Lemmas.InteractiveMoves

/-! `XCOMPLETEINIT` and `XSTRATEGYTRANSITION`. -/

namespace Slugs.Model

open Slugs.Spec Slugs.Props

/-! ### Letters of positions -/

theorem fixedBit_fst {I O : Type} (bits : Pos I O → List Bool) (P : Pos I O → Prop) (k : Nat) :
    FixedBit (fun w : W2 I O => bits w.1) (fun w => P w.1) k ↔ FixedBit bits P k :=
  ⟨fun h p q hp hq => h (p, p) (q, q) hp hq, fun h w w' hw hw' => h w.1 w'.1 hw hw'⟩

theorem letterOf_fst {I O : Type} (bits : Pos I O → List Bool) (k : Nat) (b : Bool) : ∀ Ps : List (Char × (Pos I O → Prop)),
    letterOf (fun w : W2 I O => bits w.1) (Ps.map fun P => (P.1, fun w => P.2 w.1)) k b = letterOf bits Ps k b
  | [] => rfl
  | P :: Ps => by
    classical
    simp only [List.map_cons, letterOf]
    rw [letterOf_fst bits k b Ps]
    by_cases h : FixedBit bits P.2 k
    · rw [if_pos h, if_pos ((fixedBit_fst bits P.2 k).mpr h)]
    · rw [if_neg h, if_neg (fun h' => h ((fixedBit_fst bits P.2 k).mp h'))]

theorem lettersOf_fst {I O : Type} (bits : Pos I O → List Bool) (Ps : List (Char × (Pos I O → Prop))) (w : W2 I O) :
    lettersOf (fun w : W2 I O => bits w.1) (Ps.map fun P => (P.1, fun w => P.2 w.1)) w = lettersOf bits Ps w.1 := by
  rw [lettersOf, lettersOf]
  congr 1
  funext k b
  exact letterOf_fst bits k b Ps

/-! ### Chains of sets -/

theorem letter_a : 'a' ≠ '.' ∧ 'a'.toUpper ≠ '.' := by decide

section
variable {I O : Type} {vs : List (Name × T I O)} {bits : W2 I O → List Bool} (hb : BitsOf vs bits)
include hb

theorem mark1 (f1 : T I O) : ∀ w : W2 I O, f1 w.1 w.2 →
    Marked bits [('a', fun w => f1 w.1 w.2)] w (mark (semMgr I O) 'a' 'A' f1 vs (List.replicate vs.length '.')) := fun w hw =>
  (mark_marked hb (Ps := []) (fun _ h => by cases h) 'a' hw (marked_start hb w)).1

theorem mark2 {f1 f2 : T I O} (h : ∀ s t, f2 s t → f1 s t) (c : Char) : ∀ w : W2 I O, f2 w.1 w.2 →
    Marked bits [('a', fun w => f1 w.1 w.2), (c, fun w => f2 w.1 w.2)] w
      (mark (semMgr I O) c c.toUpper f2 vs (mark (semMgr I O) 'a' 'A' f1 vs (List.replicate vs.length '.'))) ∧
    Marked bits [('a', fun w => f1 w.1 w.2), (c, fun w => f2 w.1 w.2)] w
      (markUp (semMgr I O) c c.toUpper f2 vs (mark (semMgr I O) 'a' 'A' f1 vs (List.replicate vs.length '.'))) := fun w hw =>
  mark_marked hb (Ps := [('a', fun w => f1 w.1 w.2)]) (by intro P hP; simp at hP; subst hP; exact letter_a) c hw (mark1 hb f1 w (h _ _ hw))

theorem letters1 {f1 : T I O} (h1 : ∃ s t, f1 s t) :
    ∃ l f', concretize (semMgr I O) vs (mark (semMgr I O) 'a' 'A' f1 vs (List.replicate vs.length '.')) f1 = some (l, f') ∧
      ∃ w : W2 I O, f1 w.1 w.2 ∧ l = lettersOf bits [('a', fun w => f1 w.1 w.2)] w := by
  obtain ⟨s, t, hst⟩ := h1
  obtain ⟨l, f', h1, ⟨w, hw⟩, h3⟩ := concretize_letters hb (Ps := [('a', fun w => f1 w.1 w.2)]) (f := f1)
    (by intro P hP; simp at hP; subst hP; exact letter_a) ⟨(s, t), hst⟩ (by intro P hP; simp at hP; subst hP; exact fun w h => h) (mark1 hb f1)
  exact ⟨l, f', h1, w, (h3 w hw).1, (h3 w hw).2.1⟩

theorem letters2 {f1 f2 : T I O} (h : ∀ s t, f2 s t → f1 s t) {c : Char} (hc : c ≠ '.' ∧ c.toUpper ≠ '.') (h2 : ∃ s t, f2 s t) {res : List Char}
    (hres : ∀ w : W2 I O, f2 w.1 w.2 → Marked bits [('a', fun w => f1 w.1 w.2), (c, fun w => f2 w.1 w.2)] w res) :
    ∃ l f', concretize (semMgr I O) vs res f2 = some (l, f') ∧
      ∃ w : W2 I O, f2 w.1 w.2 ∧ l = lettersOf bits [('a', fun w => f1 w.1 w.2), (c, fun w => f2 w.1 w.2)] w := by
  obtain ⟨s, t, hst⟩ := h2
  obtain ⟨l, f', h1, ⟨w, hw⟩, h3⟩ := concretize_letters hb (Ps := [('a', fun w => f1 w.1 w.2), (c, fun w => f2 w.1 w.2)]) (f := f2)
    (by
      intro P hP
      simp only [List.mem_cons, List.not_mem_nil, or_false] at hP
      rcases hP with rfl | rfl
      · exact letter_a
      · exact hc) ⟨(s, t), hst⟩
    (by
      intro P hP
      simp only [List.mem_cons, List.not_mem_nil, or_false] at hP
      rcases hP with rfl | rfl
      · exact fun w hw => h _ _ hw
      · exact fun w hw => hw) hres
  exact ⟨l, f', h1, w, (h3 w hw).1, (h3 w hw).2.1⟩

theorem letters3 {f1 f2 f3 f4 : T I O} (h : ∀ s t, f2 s t → f1 s t) (h' : ∀ s t, f3 s t → f2 s t) (h'' : ∀ s t, f4 s t → f3 s t)
    {c d : Char} (hc : c ≠ '.' ∧ c.toUpper ≠ '.') (hd : d ≠ '.' ∧ d.toUpper ≠ '.') (h4 : ∃ s t, f4 s t) {res : List Char}
    (hres : ∀ w : W2 I O, f2 w.1 w.2 → Marked bits [('a', fun w => f1 w.1 w.2), (c, fun w => f2 w.1 w.2)] w res) :
    ∃ l f', concretize (semMgr I O) vs (mark (semMgr I O) d d.toUpper f3 vs res) f4 = some (l, f') ∧
      ∃ w : W2 I O, f4 w.1 w.2 ∧ l = lettersOf bits [('a', fun w => f1 w.1 w.2), (c, fun w => f2 w.1 w.2), (d, fun w => f3 w.1 w.2)] w ∧
        ∀ w' : W2 I O, f' w'.1 w'.2 ↔ f4 w'.1 w'.2 ∧ bits w' = bits w := by
  obtain ⟨s, t, hst⟩ := h4
  have hm : ∀ w : W2 I O, f4 w.1 w.2 → Marked bits [('a', fun w => f1 w.1 w.2), (c, fun w => f2 w.1 w.2), (d, fun w => f3 w.1 w.2)] w
      (mark (semMgr I O) d d.toUpper f3 vs res) := fun w hw =>
    (mark_marked hb (Ps := [('a', fun w => f1 w.1 w.2), (c, fun w => f2 w.1 w.2)])
      (by
        intro P hP
        simp only [List.mem_cons, List.not_mem_nil, or_false] at hP
        rcases hP with rfl | rfl
        · exact letter_a
        · exact hc) d (h'' _ _ hw) (hres w (h' _ _ (h'' _ _ hw)))).1
  obtain ⟨l, f', h1, ⟨w, hw⟩, h3⟩ := concretize_letters hb
    (Ps := [('a', fun w => f1 w.1 w.2), (c, fun w => f2 w.1 w.2), (d, fun w => f3 w.1 w.2)]) (f := f4)
    (by
      intro P hP
      simp only [List.mem_cons, List.not_mem_nil, or_false] at hP
      rcases hP with rfl | rfl | rfl
      · exact letter_a
      · exact hc
      · exact hd) ⟨(s, t), hst⟩
    (by
      intro P hP
      simp only [List.mem_cons, List.not_mem_nil, or_false] at hP
      rcases hP with rfl | rfl | rfl
      · exact fun w hw => h _ _ (h' _ _ (h'' _ _ hw))
      · exact fun w hw => h' _ _ (h'' _ _ hw)
      · exact fun w hw => h'' _ _ hw) hm
  exact ⟨l, f', h1, w, (h3 w hw).1, (h3 w hw).2.1, (h3 w hw).2.2⟩

end

variable {sp : SpecFile} {vs : IVars (T sp.In sp.Out)} (hv : IVarsOK sp vs)

/-- The positions considered by `XCOMPLETEINIT` at first. -/
def inits (sp : SpecFile) (typed : List Char) : Set (Pos sp.In sp.Out) := {p | sp.game.initEnv p.1 ∧ Fits typed (bitsOf sp p)}

/-- The positions considered then. -/
def within {α : Type} (A : Set α) (P : α → Prop) : Set α := {p | p ∈ A ∧ P p}

include hv

/-- The answer to `XCOMPLETEINIT`, for realizable and unrealizable specifications. -/
theorem completeInit_answer {sh : Shell (T sp.In sp.Out)}
    (hw : sh.winning = pre {s | if sh.realizable = true then sp.game.SysWins s else ¬ sp.game.SysWins s})
    {typed : List Char} {forced : T sp.In sp.Out} (hf : ∀ s t, forced s t ↔ Fits typed (bitsOf sp s)) :
    ∃ a, completeInitAnswer (semMgr sp.In sp.Out) (gameCtx (padGame sp.game)) vs sh forced = some a ∧ InitAnswer sp sh.realizable typed a := by
  have hb : BitsOf (vs.preIn ++ vs.preOut) (fun w : W2 sp.In sp.Out => bitsOf sp w.1) := fun w k b => hv.pre_bits w.1 w.2 k b
  have e1 : (semMgr sp.In sp.Out).and (gameCtx (padGame sp.game)).initEnv forced = pre (inits sp typed) := by
    funext s t
    rw [eq_iff_iff]
    exact and_congr Iff.rfl (hf s t)
  have hand : ∀ (A : Set (Pos sp.In sp.Out)) (f : T sp.In sp.Out) (P : Pos sp.In sp.Out → Prop), (∀ s t, f s t ↔ P s) →
      (semMgr sp.In sp.Out).and (pre A) f = pre (within A P) := by
    intro A f P h
    funext s t
    rw [eq_iff_iff]
    exact and_congr Iff.rfl (h s t)
  have hff : ∀ A : Set (Pos sp.In sp.Out), (pre A : T sp.In sp.Out) = (semMgr sp.In sp.Out).ff ↔ ¬ ∃ p, p ∈ A := by
    intro A
    rw [ff_iff]
    exact not_congr ⟨fun ⟨s, _, h⟩ => ⟨s, h⟩, fun ⟨s, h⟩ => ⟨s, s, h⟩⟩
  have hne : ∀ A : Set (Pos sp.In sp.Out), (∃ p, p ∈ A) → ∃ s t, (pre A : T sp.In sp.Out) s t := fun A ⟨p, h⟩ => ⟨p, p, h⟩
  have hsys : ∀ s t, (gameCtx (padGame sp.game)).initSys s t ↔ sp.game.initSys s := fun _ _ => Iff.rfl
  have htt : forced = (semMgr sp.In sp.Out).tt ↔ ∀ p, Fits typed (bitsOf sp p) := by
    constructor
    · intro h p
      rw [← hf p p, h]; trivial
    · intro h
      funext s t
      exact eq_true ((hf s t).mpr (h s))
  rw [completeInitAnswer]
  dsimp only
  rw [e1]
  by_cases h1 : ∃ p, p ∈ inits sp typed
  · rw [if_neg (fun h => (hff _).mp h h1)]
    cases hreal : sh.realizable with
    | true =>
      simp only [if_true, true_or]
      have hwin : ∀ s t, sh.winning s t ↔ sp.game.SysWins s := by
        intro s t; rw [hw, hreal]; exact Iff.rfl
      rw [hand _ _ _ hsys, hand _ _ _ hwin]
      by_cases h2 : ∃ p, p ∈ within (inits sp typed) sp.game.initSys
      · rw [if_neg (fun h => (hff _).mp h h2)]
        by_cases h3 : ∃ p, p ∈ within (within (inits sp typed) sp.game.initSys) sp.game.SysWins
        · rw [if_neg (fun h => (hff _).mp h h3)]
          obtain ⟨l, f', a1, w, a2, a3, _⟩ := letters3 hb (f1 := pre (inits sp typed)) (f2 := pre (within (inits sp typed) sp.game.initSys)) (f3 := pre (within (within (inits sp typed) sp.game.initSys) sp.game.SysWins)) (f4 := pre (within (within (inits sp typed) sp.game.initSys) sp.game.SysWins))
            (fun _ _ h => And.left h) (fun _ _ h => And.left h) (fun _ _ h => h) (c := 'g') (d := 's') (by decide) (by decide) (hne _ h3)
            (fun w hw => (mark2 hb (f1 := pre (inits sp typed)) (f2 := pre (within (inits sp typed) sp.game.initSys)) (fun _ _ h => And.left h) 'g' w hw).2)
          refine ⟨_, congrArg (Option.map _) a1, w.1, a2, ?_⟩
          exact a3.trans (lettersOf_fst (bitsOf sp) [('a', _), ('g', _), ('s', _)] w)
        · rw [if_pos ((hff _).mpr h3)]
          exact ⟨_, rfl, h2, h3⟩
      · rw [if_pos ((hff _).mpr h2)]
        obtain ⟨l, f', a1, w, a2, a3⟩ := letters1 hb (f1 := pre _) (hne _ h1)
        refine ⟨_, congrArg (Option.map _) a1, h2, w.1, a2, ?_⟩
        exact a3.trans (lettersOf_fst (bitsOf sp) [('a', _)] w)
    | false =>
      simp only [Bool.false_eq_true, if_false, false_or]
      have hwin : ∀ s t, sh.winning s t ↔ ¬ sp.game.SysWins s := by
        intro s t; rw [hw, hreal]; exact Iff.rfl
      rw [hand _ _ _ hwin, hand _ _ _ hsys]
      by_cases h2 : ∃ p, p ∈ within (inits sp typed) fun p => ¬ sp.game.SysWins p
      · rw [if_neg (fun h => (hff _).mp h h2)]
        by_cases h3 : ∃ p, p ∈ within (within (inits sp typed) fun p => ¬ sp.game.SysWins p) sp.game.initSys
        · rw [if_neg (fun h => (hff _).mp h h3)]
          obtain ⟨l, f', a1, w, a2, a3, _⟩ := letters3 hb (f1 := pre (inits sp typed)) (f2 := pre (within (inits sp typed) fun p => ¬ sp.game.SysWins p)) (f3 := pre (within (within (inits sp typed) fun p => ¬ sp.game.SysWins p) sp.game.initSys)) (f4 := pre (within (within (inits sp typed) fun p => ¬ sp.game.SysWins p) sp.game.initSys))
            (fun _ _ h => And.left h) (fun _ _ h => And.left h) (fun _ _ h => h) (c := 's') (d := 'g') (by decide) (by decide) (hne _ h3)
            (fun w hw => (mark2 hb (f1 := pre (inits sp typed)) (f2 := pre (within (inits sp typed) fun p => ¬ sp.game.SysWins p)) (fun _ _ h => And.left h) 's' w hw).2)
          refine ⟨_, congrArg (Option.map _) a1, w.1, a2, ?_⟩
          exact a3.trans (lettersOf_fst (bitsOf sp) [('a', _), ('s', _), ('g', _)] w)
        · rw [if_pos ((hff _).mpr h3)]
          obtain ⟨l, f', a1, w, a2, a3⟩ := letters2 hb (f1 := pre (inits sp typed)) (f2 := pre (within (inits sp typed) fun p => ¬ sp.game.SysWins p))
            (fun _ _ h => And.left h) (c := 's') (by decide) (hne _ h2)
            (fun w hw => (mark2 hb (f1 := pre (inits sp typed)) (f2 := pre (within (inits sp typed) fun p => ¬ sp.game.SysWins p)) (fun _ _ h => And.left h) 's' w hw).2)
          refine ⟨_, congrArg (Option.map _) a1, .inr ⟨h3, w.1, a2, ?_⟩⟩
          exact a3.trans (lettersOf_fst (bitsOf sp) [('a', _), ('s', _)] w)
      · rw [if_pos ((hff _).mpr h2)]
        by_cases ht : forced = (semMgr sp.In sp.Out).tt
        · rw [if_pos ht]
          obtain ⟨l, f', a1, w, a2, a3⟩ := letters1 hb (f1 := pre _) (hne _ h1)
          refine ⟨_, congrArg (Option.map _) a1, .inl ⟨h2, htt.mp ht, w.1, a2, ?_⟩⟩
          exact a3.trans (lettersOf_fst (bitsOf sp) [('a', _)] w)
        · rw [if_neg ht]
          exact ⟨_, rfl, h1, h2, fun h => ht (htt.mpr h)⟩
  · rw [if_pos ((hff _).mpr h1)]
    exact ⟨_, rfl, h1⟩

/-! ### Transitions -/

/-- What a computation of an answer should yield: an answer with a property, or undefined behaviour in a certain case. -/
def AnswerResult.OK (P : Answer (Nat × Nat) → Prop) (bad : Prop) : AnswerResult → Prop
  | .answer a => P a
  | .ub => bad
  | .thrown => False

omit hv in
theorem strictlyBelow_iff {I O : Type} (a b : T I O) :
    strictlyBelow (semMgr I O) a b = true ↔ (∀ s t, a s t → b s t) ∧ ∃ s t, b s t ∧ ¬ a s t := by
  rw [strictlyBelow, decide_eq_true_iff, ff_iff]
  have h1 : (¬ ∃ s t, (semMgr I O).and a ((semMgr I O).not b) s t) ↔ ∀ s t, a s t → b s t := by
    constructor
    · intro h s t ha
      by_contra hb
      exact h ⟨s, t, ha, hb⟩
    · rintro h ⟨s, t, ha, hb⟩
      exact hb (h s t ha)
  rw [h1]
  refine and_congr_right fun h => ?_
  constructor
  · intro hne
    by_contra hno
    push Not at hno
    exact hne (funext fun s => funext fun t => propext ⟨h s t, hno s t⟩)
  · rintro ⟨s, t, hb, ha⟩ rfl
    exact ha hb

omit hv in
theorem after_eq (n j : Nat) (b : Bool) (P : Prop) (h : b = true ↔ P) : (if b = true then j + 1 else j) % n = after n j P := by
  classical
  rw [after]
  by_cases hp : P
  · rw [if_pos (h.mpr hp), if_pos hp]
  · rw [if_neg fun hb => hp (h.mp hb), if_neg hp]

omit hv in
theorem part_congr {I O : Type} {P : W2 I O → Prop} {w : W2 I O} {f R R' : T I O} (hf : ∀ w' : W2 I O, f w'.1 w'.2 ↔ P w' ∧ w'.2 = w.2)
    (hR : ∀ s t, R s t ↔ R' s t) : strictlyBelow (semMgr I O) f R = true ↔
      (∀ s, P (s, w.2) → R' s w.2) ∧ ∃ w' : W2 I O, R' w'.1 w'.2 ∧ ¬ (P w' ∧ w'.2 = w.2) := by
  rw [strictlyBelow_iff]
  refine and_congr ⟨fun h s hs => ?_, fun h s t hst => ?_⟩ ⟨?_, ?_⟩
  · exact (hR _ _).mp (h s w.2 ((hf (s, w.2)).mpr ⟨hs, rfl⟩))
  · obtain ⟨h1, h2⟩ := (hf (s, t)).mp hst
    dsimp only at h2
    subst h2
    exact (hR _ _).mpr (h s h1)
  · rintro ⟨s, t, h1, h2⟩
    exact ⟨(s, t), (hR _ _).mp h1, fun h => h2 ((hf (s, t)).mpr h)⟩
  · rintro ⟨w', h1, h2⟩
    exact ⟨w'.1, w'.2, (hR _ _).mpr h1, fun h => h2 ((hf w').mp h)⟩

/-- The answer to `XSTRATEGYTRANSITION`. -/
theorem strategyTransition_answer {sh : Shell (T sp.In sp.Out)} {S : Nat → T sp.In sp.Out}
    (hs : sh.strategies = (List.range (if sh.realizable = true then sp.goals else sp.hopes)).map S)
    {src typed : List Char} {start forced : T sp.In sp.Out} (hsrc : ∀ s t, start s t ↔ Fits src (bitsOf sp s))
    (hf : ∀ s t, forced s t ↔ Fits typed (bitsOf sp t)) (la lg : Nat) :
    (strategyTransitionAnswer (semMgr sp.In sp.Out) (gameCtx (padGame sp.game)) vs sh start forced la lg).OK
      (TransitionAnswer sp sh.realizable (S (if sh.realizable = true then lg else la)) (PrintedNumbers sp la lg) src typed la lg)
      (sp.hopes ≤ la ∨ sp.goals ≤ lg) := by
  have hb : BitsOf (vs.postIn ++ vs.postOut) (fun w : W2 sp.In sp.Out => bitsOf sp w.2) := fun w k b => hv.post_bits w.1 w.2 k b
  let f1 : T sp.In sp.Out := fun s t => Fits src (bitsOf sp s) ∧ sp.game.safetyEnv s t.1 ∧ Fits typed (bitsOf sp t)
  have e1 : (semMgr sp.In sp.Out).and ((semMgr sp.In sp.Out).and start (gameCtx (padGame sp.game)).safetyEnv) forced = f1 := by
    funext s t
    rw [eq_iff_iff]
    constructor
    · rintro ⟨⟨a, b⟩, c⟩; exact ⟨(hsrc s t).mp a, b, (hf s t).mp c⟩
    · rintro ⟨a, b, c⟩; exact ⟨⟨(hsrc s t).mpr a, b⟩, (hf s t).mpr c⟩
  have hlA : (gameCtx (padGame sp.game)).livenessAssumptions.length = sp.hopes := hopes_padGame sp
  have hlG : (gameCtx (padGame sp.game)).livenessGuarantees.length = sp.goals := goals_padGame sp
  -- the last part
  have last : ∀ (f3 : T sp.In sp.Out) (l : List Char) (f' : T sp.In sp.Out) (w : W2 sp.In sp.Out) (Q : Answer (Nat × Nat) → Prop),
      (∀ w' : W2 sp.In sp.Out, f' w'.1 w'.2 ↔ f3 w'.1 w'.2 ∧ w'.2 = w.2) →
      (∀ next, PrintedNumbers sp la lg (fun w => f3 w.1 w.2) w next → Q (.found l next)) →
      (nextNumbers (semMgr sp.In sp.Out) (gameCtx (padGame sp.game)) la lg (some (l, f'))).OK Q (sp.hopes ≤ la ∨ sp.goals ≤ lg) := by
    intro f3 l f' w Q hf' hQ
    rw [nextNumbers]
    by_cases h1 : la < sp.hopes
    · by_cases h2 : lg < sp.goals
      · have g1 := List.getElem?_eq_getElem (l := (gameCtx (padGame sp.game)).livenessAssumptions) (i := la) (by rw [hlA]; exact h1)
        have g2 := List.getElem?_eq_getElem (l := (gameCtx (padGame sp.game)).livenessGuarantees) (i := lg) (by rw [hlG]; exact h2)
        generalize (gameCtx (padGame sp.game)).livenessAssumptions[la] = Ag at g1
        generalize (gameCtx (padGame sp.game)).livenessGuarantees[lg] = Gg at g2
        rw [g1, g2]
        refine hQ _ ?_
        rw [PrintedNumbers, hlA, hlG]
        refine Prod.ext ?_ ?_
        · refine after_eq _ _ _ _ (part_congr hf' fun s t => ?_)
          rw [← hopeAt_padGame sp h1]
          constructor
          · intro h; exact ⟨_, g1, h⟩
          · rintro ⟨A, hA, h⟩
            have := g1.symm.trans hA
            cases this
            exact h
        · refine after_eq _ _ _ _ (part_congr hf' fun s t => ?_)
          rw [← goalAt_padGame sp h2]
          constructor
          · intro h; exact ⟨_, g2, h⟩
          · rintro ⟨A, hA, h⟩
            have := g2.symm.trans hA
            cases this
            exact h
      · have g2 := List.getElem?_eq_none (l := (gameCtx (padGame sp.game)).livenessGuarantees) (i := lg) (by rw [hlG]; omega)
        rw [g2]
        split
        · rename_i h; cases h
        · right; omega
    · have g1 := List.getElem?_eq_none (l := (gameCtx (padGame sp.game)).livenessAssumptions) (i := la) (by rw [hlA]; omega)
      rw [g1]
      split
      · rename_i h _; cases h
      · left; omega
  -- the choice between the transitions with and without a continuation
  have choice : ∀ (f1 f2 f3 : T sp.In sp.Out) (c d : Char) (res : List Char) (Q : Answer (Nat × Nat) → Prop), (∃ s t, f3 s t) →
      (∀ s t, f2 s t → f1 s t) → (∀ s t, f3 s t → f2 s t) → c ≠ '.' ∧ c.toUpper ≠ '.' → d ≠ '.' ∧ d.toUpper ≠ '.' →
      (∀ w : W2 sp.In sp.Out, f2 w.1 w.2 → Marked (fun w : W2 sp.In sp.Out => bitsOf sp w.2) [('a', fun w => f1 w.1 w.2), (c, fun w => f2 w.1 w.2)] w res) →
      (∀ w l next, f3 w.1 w.2 → ((∃ w' : W2 sp.In sp.Out, f3 w'.1 w'.2 ∧ GoesOn sp w'.2) → GoesOn sp w.2) →
        PrintedNumbers sp la lg (fun w => f3 w.1 w.2) w next →
        l = lettersOf (fun w : W2 sp.In sp.Out => bitsOf sp w.2) [('a', fun w => f1 w.1 w.2), (c, fun w => f2 w.1 w.2), (d, fun w => f3 w.1 w.2)] w →
        Q (.found l next)) →
      (nextNumbers (semMgr sp.In sp.Out) (gameCtx (padGame sp.game)) la lg (concretize (semMgr sp.In sp.Out) (vs.postIn ++ vs.postOut)
        (mark (semMgr sp.In sp.Out) d d.toUpper f3 (vs.postIn ++ vs.postOut) res)
        (if (semMgr sp.In sp.Out).and ((semMgr sp.In sp.Out).swap ((semMgr sp.In sp.Out).exPost ((semMgr sp.In sp.Out).and
            (gameCtx (padGame sp.game)).safetySys (gameCtx (padGame sp.game)).safetyEnv))) f3 ≠ (semMgr sp.In sp.Out).ff then
          (semMgr sp.In sp.Out).and ((semMgr sp.In sp.Out).swap ((semMgr sp.In sp.Out).exPost ((semMgr sp.In sp.Out).and
            (gameCtx (padGame sp.game)).safetySys (gameCtx (padGame sp.game)).safetyEnv))) f3 else f3))).OK Q (sp.hopes ≤ la ∨ sp.goals ≤ lg) := by
    intro f1 f2 f3 c d res Q h3 h12 h23 hc hd hres hQ
    let cand : T sp.In sp.Out := fun s t => GoesOn sp t ∧ f3 s t
    have ecand : (semMgr sp.In sp.Out).and ((semMgr sp.In sp.Out).swap ((semMgr sp.In sp.Out).exPost ((semMgr sp.In sp.Out).and
        (gameCtx (padGame sp.game)).safetySys (gameCtx (padGame sp.game)).safetyEnv))) f3 = cand := by
      funext s t
      rw [eq_iff_iff]
      refine and_congr ?_ Iff.rfl
      exact ⟨fun ⟨u, a, b⟩ => ⟨u, b, a⟩, fun ⟨u, b, a⟩ => ⟨u, a, b⟩⟩
    rw [ecand]
    have hinj : ∀ w w' : W2 sp.In sp.Out, bitsOf sp w'.2 = bitsOf sp w.2 ↔ w'.2 = w.2 := fun w w' =>
      ⟨fun h => by rw [← hv.posOfBits_bitsOf w'.2, h, hv.posOfBits_bitsOf], fun h => by rw [h]⟩
    by_cases hcand : cand = (semMgr sp.In sp.Out).ff
    · rw [if_neg (not_not.mpr hcand)]
      obtain ⟨l, f', a1, w, a2, a3, a4⟩ := letters3 hb h12 h23 (f4 := f3) (fun _ _ h => h) hc hd h3 hres
      rw [a1]
      refine last f3 l f' w Q (fun w' => (a4 w').trans (and_congr Iff.rfl (hinj w w'))) fun next hn => ?_
      refine hQ w l next a2 ?_ hn a3
      rintro ⟨w', h1, h2⟩
      exact absurd ⟨w'.1, w'.2, h2, h1⟩ ((ff_iff _).mp hcand)
    · rw [if_pos hcand]
      rw [ff_iff, not_not] at hcand
      obtain ⟨l, f', a1, w, a2, a3, a4⟩ := letters3 hb h12 h23 (f4 := cand) (fun _ _ h => h.2) hc hd hcand hres
      rw [a1]
      refine last f3 l f' w Q (fun w' => (a4 w').trans ?_) fun next hn => ?_
      · rw [hinj w w']
        refine and_congr_left fun he => ⟨fun h => h.2, fun h => ⟨?_, h⟩⟩
        rw [he]; exact a2.1
      · exact hQ w l next a2.2 (fun _ => a2.1) hn a3
  rw [strategyTransitionAnswer]
  dsimp only
  rw [e1]
  by_cases h1 : f1 = (semMgr sp.In sp.Out).ff
  · rw [if_pos h1]
    rw [ff_iff] at h1
    exact fun ⟨w, hw⟩ => h1 ⟨w.1, w.2, hw⟩
  · rw [if_neg h1]
    rw [ff_iff, not_not] at h1
    cases hreal : sh.realizable with
    | true =>
      simp only [if_true]
      rw [hreal] at hs
      simp only [if_true] at hs
      let f2 : T sp.In sp.Out := fun s t => f1 s t ∧ sp.game.safetySys s t
      have e2 : (semMgr sp.In sp.Out).and f1 (gameCtx (padGame sp.game)).safetySys = f2 := rfl
      rw [e2]
      by_cases h2 : f2 = (semMgr sp.In sp.Out).ff
      · rw [if_pos h2]
        rw [ff_iff] at h2
        obtain ⟨l, f', a1, w, a2, a3⟩ := letters1 hb h1
        rw [a1, hlA, hlG]
        exact ⟨rfl, fun ⟨w, hw⟩ => h2 ⟨w.1, w.2, hw⟩, w, a2, a3⟩
      · rw [if_neg h2]
        rw [ff_iff, not_not] at h2
        by_cases hlg : lg < sp.goals
        · have hget : sh.strategies[lg]? = some (S lg) := by
            rw [hs, List.getElem?_map, List.getElem?_range hlg]; rfl
          rw [hget]
          dsimp only
          let f3 : T sp.In sp.Out := fun s t => f2 s t ∧ S lg s t
          have e3 : (semMgr sp.In sp.Out).and f2 (S lg) = f3 := rfl
          rw [e3]
          by_cases h3 : f3 = (semMgr sp.In sp.Out).ff
          · rw [if_pos h3]
            rw [ff_iff] at h3
            obtain ⟨s, t, hst⟩ := h2
            exact ⟨⟨(s, t), hst⟩, fun ⟨w, hw⟩ => h3 ⟨w.1, w.2, hw⟩⟩
          · rw [if_neg h3]
            rw [ff_iff, not_not] at h3
            refine choice f1 f2 f3 'g' 's' _ _ h3 (fun _ _ h => h.1) (fun _ _ h => h.1) (by decide) (by decide)
              (fun w hw => (mark2 hb (fun _ _ h => h.1) 'g' w hw).1) fun w l next b1 b2 b3 b4 => ?_
            exact ⟨w, b1, b2, b3, b4⟩
        · have hget : sh.strategies[lg]? = none := by
            rw [hs]; exact List.getElem?_eq_none (by simpa using hlg)
          rw [hget]
          exact .inr (by omega)
    | false =>
      simp only [Bool.false_eq_true, if_false]
      rw [hreal] at hs
      simp only [Bool.false_eq_true, if_false] at hs
      by_cases hla : la < sp.hopes
      · have hget : sh.strategies[la]? = some (S la) := by
          rw [hs, List.getElem?_map, List.getElem?_range hla]; rfl
        rw [hget]
        dsimp only
        let f2 : T sp.In sp.Out := fun s t => f1 s t ∧ S la s t
        have e2 : (semMgr sp.In sp.Out).and f1 (S la) = f2 := rfl
        rw [e2]
        by_cases h2 : f2 = (semMgr sp.In sp.Out).ff
        · rw [if_pos h2]
          rw [ff_iff] at h2
          obtain ⟨s, t, hst⟩ := h1
          exact ⟨⟨(s, t), hst⟩, fun ⟨w, hw⟩ => h2 ⟨w.1, w.2, hw⟩⟩
        · rw [if_neg h2]
          rw [ff_iff, not_not] at h2
          let f3 : T sp.In sp.Out := fun s t => f2 s t ∧ sp.game.safetySys s t
          have e3 : (semMgr sp.In sp.Out).and f2 (gameCtx (padGame sp.game)).safetySys = f3 := rfl
          rw [e3]
          by_cases h3 : f3 = (semMgr sp.In sp.Out).ff
          · rw [if_pos h3]
            rw [ff_iff] at h3
            obtain ⟨l, f', a1, w, a2, a3⟩ := letters2 hb (f1 := f1) (f2 := f2) (fun _ _ h => h.1) (c := 's') (by decide) h2
              (fun w hw => (mark2 hb (fun _ _ h => h.1) 's' w hw).1)
            have a1' : concretize (semMgr sp.In sp.Out) (vs.postIn ++ vs.postOut) (mark (semMgr sp.In sp.Out) 's' 'S' f2 (vs.postIn ++ vs.postOut)
              (mark (semMgr sp.In sp.Out) 'a' 'A' f1 (vs.postIn ++ vs.postOut) (List.replicate (vs.postIn ++ vs.postOut).length '.'))) f2 = some (l, f') := a1
            rw [a1', hlA, hlG]
            exact ⟨rfl, fun ⟨w, hw⟩ => h3 ⟨w.1, w.2, hw⟩, w, a2, a3⟩
          · rw [if_neg h3]
            rw [ff_iff, not_not] at h3
            refine choice f1 f2 f3 's' 'g' _ _ h3 (fun _ _ h => h.1) (fun _ _ h => h.1) (by decide) (by decide)
              (fun w hw => (mark2 hb (fun _ _ h => h.1) 's' w hw).1) fun w l next b1 b2 b3 b4 => ?_
            exact ⟨w, b1, b2, b3, b4⟩
      · have hget : sh.strategies[la]? = none := by
          rw [hs]; exact List.getElem?_eq_none (by simpa using hla)
        rw [hget]
        exact .inl (by omega)

end Slugs.Model
