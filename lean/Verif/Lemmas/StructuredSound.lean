import Verif.Lemmas.StructuredTree

/-!
The trees of the structured slugs compiler stand for the formulas in infix notation that have been read, and all formulas in infix notation have such trees.
-/

namespace Slugs.Model.Structured

open Slugs.Spec (Word isDigit digitsVal)
open Slugs.Spec.Structured

theorem FML.up {n : Nat} {c' : Tree} {ts : List Tok} (hn : n < 5) (h : FML (n + 1) c' ts) : FML n c' ts :=
  ⟨h.1, fun f hf => by obtain ⟨g, h1, h2⟩ := h.2 f hf; exact ⟨g, .up hn h1, h2⟩⟩

theorem FS.up {n : Nat} {c : Tree} {ts : List Tok} (hn : n < 5) (h : FS (n + 1) c ts) : FS n c ts := by
  obtain ⟨c', h1, h2⟩ := h
  exact ⟨c', h1, h2.up hn⟩

variable {rhs : List Sym} {cs : List Tree} {ts : List Tok}

theorem bind_some {A B : Type} {x : Option A} {f : A → Option B} {b : B} (h : x.bind f = some b) : ∃ a, x = some a ∧ f a = some b := by
  cases x with
  | none => cases h
  | some a => exact ⟨a, rfl, h⟩

theorem map_some {A B : Type} {x : Option A} {f : A → B} {b : B} (h : x.map f = some b) : ∃ a, x = some a ∧ f a = b := by
  cases x with
  | none => cases h
  | some a => cases h; exact ⟨a, rfl, rfl⟩

/-- A tree that is not simplified. -/
theorem FS.skip {n : Nat} {X : NT} {c : Tree} (h : FS n c ts) (hX : cleanNode X [c] [clean c] = clean c) : FS n (.node X [c]) ts := by
  obtain ⟨c', h1, h2⟩ := h
  exact ⟨c', by rw [clean, cleanAll, cleanAll, hX, h1], h2⟩

theorem NS.skip {R : List Tok → NExp → Prop} {X : NT} {c : Tree} (h : NS R c ts) (hX : cleanNode X [c] [clean c] = clean c) : NS R (.node X [c]) ts := by
  obtain ⟨c', h1, h2⟩ := h
  exact ⟨c', by rw [clean, cleanAll, cleanAll, hX, h1], h2⟩

theorem NS.mono {R R' : List Tok → NExp → Prop} {c : Tree} (h : NS R c ts) (hR : ∀ a, R ts a → R' ts a) : NS R' c ts := by
  obtain ⟨c', h1, h2⟩ := h
  exact ⟨c', h1, fun a ha => hR a (h2 a ha)⟩

theorem clean_binary {X : NT} {c1 c2 c3 c1' c3' : Tree} (hX : X = .Implication ∨ X = .Conjunction ∨ X = .Biimplication ∨ X = .Disjunction ∨ X = .Xor)
    (h1 : clean c1 = some c1') (h3 : clean c3 = some c3') : clean (.node X [c1, c2, c3]) = some (.node X [c1', c3']) := by
  simp only [clean, cleanAll]
  rcases hX with rfl | rfl | rfl | rfl | rfl <;> simp [cleanNode, h1, h3]

theorem solid_node {X : NT} {c : Tree} {cs : List Tree} : Solid (.node X (c :: cs)) := by
  intro Y h
  injection h with _ h
  cases h

theorem s_Formula (hr : (NT.Formula, rhs) ∈ rules) (ha : SoundAll rhs cs ts) : Sound (.n .Formula) (.node .Formula cs) ts := by
  have hr : rhs = [.n .Biimplication] := by simpa [rules] using hr
  subst hr
  obtain ⟨c, rfl, c', h1, h2⟩ := ha.one
  refine ⟨c', ?_, h2⟩
  rw [clean, cleanAll, cleanAll, h1]
  rfl

theorem s_Biimplication (hr : (NT.Biimplication, rhs) ∈ rules) (ha : SoundAll rhs cs ts) : Sound (.n .Biimplication) (.node .Biimplication cs) ts := by
  have hr : rhs = [.n .Implication] ∨ rhs = [.n .Biimplication, .n .BiimplicationOperator, .n .Implication] := by simpa [rules] using hr
  rcases hr with rfl | rfl
  · obtain ⟨c, rfl, h⟩ := ha.one
    exact (FS.up (by decide) h).skip rfl
  · obtain ⟨c1, c2, c3, t1, t2, t3, rfl, rfl, ⟨c1', h1, h1'⟩, h2, ⟨c3', h3, h3'⟩⟩ := ha.three
    refine ⟨_, clean_binary (by simp) h1 h3, solid_node, fun f hf => ?_⟩
    obtain ⟨f1, e1, hf⟩ := bind_some (x := flatFml (flatten c1')) hf
    obtain ⟨f2, e2, rfl⟩ := map_some (x := flatFml (flatten c3')) hf
    obtain ⟨g1, i1, j1⟩ := h1'.2 f1 e1
    obtain ⟨g2, i2, j2⟩ := h3'.2 f2 e2
    refine ⟨.iff g1 g2, .iff i1 ?_ i2, j1.iff j2⟩
    have h2 : OpS .BiimplicationOperator c2 t2 := h2
    have := kinds_of h2 (l := [[.less, .minus, .greater], [.less, .minus, .minus, .greater]]) (by decide)
    simpa using this

theorem s_Implication (hr : (NT.Implication, rhs) ∈ rules) (ha : SoundAll rhs cs ts) : Sound (.n .Implication) (.node .Implication cs) ts := by
  have hr : rhs = [.n .Xor] ∨ rhs = [.n .Implication, .n .ImplicationOperator, .n .Xor] := by simpa [rules] using hr
  rcases hr with rfl | rfl
  · obtain ⟨c, rfl, h⟩ := ha.one
    exact (FS.up (by decide) h).skip rfl
  · obtain ⟨c1, c2, c3, t1, t2, t3, rfl, rfl, ⟨c1', h1, h1'⟩, h2, ⟨c3', h3, h3'⟩⟩ := ha.three
    refine ⟨_, clean_binary (by simp) h1 h3, solid_node, fun f hf => ?_⟩
    obtain ⟨f1, e1, hf⟩ := bind_some (x := flatFml (flatten c1')) hf
    obtain ⟨f2, e2, rfl⟩ := map_some (x := flatFml (flatten c3')) hf
    obtain ⟨g1, i1, j1⟩ := h1'.2 f1 e1
    obtain ⟨g2, i2, j2⟩ := h3'.2 f2 e2
    refine ⟨.imp g1 g2, .imp i1 ?_ i2, j1.imp j2⟩
    have h2 : OpS .ImplicationOperator c2 t2 := h2
    have := kinds_of h2 (l := [[.minus, .greater], [.minus, .minus, .greater]]) (by decide)
    simpa using this

theorem s_Xor (hr : (NT.Xor, rhs) ∈ rules) (ha : SoundAll rhs cs ts) : Sound (.n .Xor) (.node .Xor cs) ts := by
  have hr : rhs = [.n .Disjunction] ∨ rhs = [.n .Xor, .n .XorOperator, .n .Disjunction] := by simpa [rules] using hr
  rcases hr with rfl | rfl
  · obtain ⟨c, rfl, h⟩ := ha.one
    exact FS.skip h rfl
  · obtain ⟨c1, c2, c3, t1, t2, t3, rfl, rfl, ⟨c1', h1, h1'⟩, h2, ⟨c3', h3, h3'⟩⟩ := ha.three
    refine ⟨_, clean_binary (by simp) h1 h3, solid_splice h1'.1, fun f hf => ?_⟩
    cases hf

theorem s_Disjunction (hr : (NT.Disjunction, rhs) ∈ rules) (ha : SoundAll rhs cs ts) : Sound (.n .Disjunction) (.node .Disjunction cs) ts := by
  have hr : rhs = [.n .Conjunction] ∨ rhs = [.n .Disjunction, .n .DisjunctionOperator, .n .Conjunction] := by simpa [rules] using hr
  rcases hr with rfl | rfl
  · obtain ⟨c, rfl, h⟩ := ha.one
    exact (FS.up (by decide) h).skip rfl
  · obtain ⟨c1, c2, c3, t1, t2, t3, rfl, rfl, ⟨c1', h1, h1'⟩, h2, ⟨c3', h3, h3'⟩⟩ := ha.three
    refine ⟨_, clean_binary (by simp) h1 h3, solid_splice h1'.1, fun f hf => ?_⟩
    obtain ⟨f1, f2, e1, e2, e3⟩ := (flat_or h1'.1 h3'.1).2 f hf
    obtain ⟨g1, i1, j1⟩ := h1'.2 f1 e1
    obtain ⟨g2, i2, j2⟩ := h3'.2 f2 e2
    refine ⟨.or g1 g2, .or i1 ?_ i2, e3.trans (j1.or j2)⟩
    have h2 : OpS .DisjunctionOperator c2 t2 := h2
    have := kinds_of h2 (l := [[.bar], [.bar, .bar], [.backslash, .slash]]) (by decide)
    simpa using this

theorem s_Conjunction (hr : (NT.Conjunction, rhs) ∈ rules) (ha : SoundAll rhs cs ts) : Sound (.n .Conjunction) (.node .Conjunction cs) ts := by
  have hr : rhs = [.n .BinaryTemporalFormula] ∨ rhs = [.n .Conjunction, .n .ConjunctionOperator, .n .BinaryTemporalFormula] := by simpa [rules] using hr
  rcases hr with rfl | rfl
  · obtain ⟨c, rfl, h⟩ := ha.one
    exact (FS.up (by decide) h).skip rfl
  · obtain ⟨c1, c2, c3, t1, t2, t3, rfl, rfl, ⟨c1', h1, h1'⟩, h2, ⟨c3', h3, h3'⟩⟩ := ha.three
    refine ⟨_, clean_binary (by simp) h1 h3, solid_splice h1'.1, fun f hf => ?_⟩
    obtain ⟨f1, f2, e1, e2, e3⟩ := (flat_and h1'.1 h3'.1).2 f hf
    obtain ⟨g1, i1, j1⟩ := h1'.2 f1 e1
    obtain ⟨g2, i2, j2⟩ := h3'.2 f2 e2
    refine ⟨.and g1 g2, .and i1 ?_ i2, e3.trans (j1.and j2)⟩
    have h2 : OpS .ConjunctionOperator c2 t2 := h2
    have := kinds_of h2 (l := [[.amp], [.amp, .amp], [.slash, .backslash]]) (by decide)
    simpa using this

theorem clean_triple {X : NT} {c1 c2 c3 c1' c2' c3' : Tree} (hX : X = .BinaryTemporalFormula ∨ X = .MultiplicativeNumber ∨ X = .NumberExpression)
    (h1 : clean c1 = some c1') (h2 : clean c2 = some c2') (h3 : clean c3 = some c3') : clean (.node X [c1, c2, c3]) = some (.node X [c1', c2', c3']) := by
  simp only [clean, cleanAll]
  rcases hX with rfl | rfl | rfl <;> simp [cleanNode, h1, h2, h3]

theorem s_BinaryTemporalFormula (hr : (NT.BinaryTemporalFormula, rhs) ∈ rules) (ha : SoundAll rhs cs ts) :
    Sound (.n .BinaryTemporalFormula) (.node .BinaryTemporalFormula cs) ts := by
  have hr : rhs = [.n .UnaryFormula] ∨ rhs = [.n .BinaryTemporalFormula, .n .BinaryTemporalOperator, .n .UnaryFormula] := by simpa [rules] using hr
  rcases hr with rfl | rfl
  · obtain ⟨c, rfl, h⟩ := ha.one
    exact FS.skip h rfl
  · obtain ⟨c1, c2, c3, t1, t2, t3, rfl, rfl, ⟨c1', h1, h1'⟩, ⟨Y, d, rfl, h2⟩, ⟨c3', h3, h3'⟩⟩ := ha.three
    have hd : clean (.node .BinaryTemporalOperator [d]) = some d := by rw [clean, cleanAll, h2.clean]; rfl
    refine ⟨_, clean_triple (by simp) h1 hd h3, solid_node, fun f hf => ?_⟩
    cases hf

theorem s_UnaryFormula (hr : (NT.UnaryFormula, rhs) ∈ rules) (ha : SoundAll rhs cs ts) : Sound (.n .UnaryFormula) (.node .UnaryFormula cs) ts := by
  have hr : rhs = [.n .AtomicFormula] ∨ rhs = [.n .UnaryTemporalOperator, .n .UnaryFormula] := by simpa [rules] using hr
  rcases hr with rfl | rfl
  · obtain ⟨c, rfl, h⟩ := ha.one
    exact (FS.up (by decide) h).skip rfl
  · obtain ⟨c1, c2, t1, t2, rfl, rfl, ⟨Y, d, hY, rfl, h1⟩, ⟨c2', h2, h2'⟩⟩ := ha.two
    have hd : clean (.node .UnaryTemporalOperator [d]) = some d := by rw [clean, cleanAll, h1.clean]; rfl
    have hc : clean (.node .UnaryFormula [.node .UnaryTemporalOperator [d], c2]) = some (.node .UnaryFormula [d, c2']) := by
      rw [clean, cleanAll, cleanAll, hd, h2]; rfl
    refine ⟨_, hc, solid_node, fun f hf => ?_⟩
    obtain ⟨_, rfl, _⟩ := id h1
    simp only [unaries, List.mem_cons, List.not_mem_nil, or_false] at hY
    rcases hY with rfl | rfl | rfl | rfl
    · cases hf
    · obtain ⟨f', e, rfl⟩ := map_some (x := flatFml (flatten c2')) hf
      obtain ⟨g, i1, i2⟩ := h2'.2 f' e
      refine ⟨.next g, .next ?_ i1, i2.next⟩
      have := kinds_of h1 (l := [[.next], [.X], [.lpar, .rpar]]) (by decide)
      simpa using this
    · cases hf
    · obtain ⟨f', e, rfl⟩ := map_some (x := flatFml (flatten c2')) hf
      obtain ⟨g, i1, i2⟩ := h2'.2 f' e
      have := kinds_of h1 (l := [[.bang], [.tilde]]) (by decide)
      obtain ⟨op, rfl, hop⟩ : ∃ op, t1 = [op] ∧ (op.kind = .bang ∨ op.kind = .tilde) := by
        cases t1 with
        | nil => simp at this
        | cons op t =>
          cases t with
          | nil => exact ⟨op, rfl, by simpa using this⟩
          | cons _ _ => simp at this
      exact ⟨.not g, .not hop i1, i2.not⟩

theorem FS.leaf {X : NT} {tok : Tok} {f : SFml} (hX : X = .AtomicFormula) (h : flatFml (.leaf tok) = some f) (hi : Infix 5 [tok] f) :
    FS 5 (.node X [.leaf tok]) [tok] := by
  subst hX
  refine ⟨.leaf tok, rfl, fun Y h => (by cases h), fun g hg => ?_⟩
  have : some f = some g := h.symm.trans hg
  cases this
  exact ⟨f, hi, SEquiv.refl f⟩

theorem s_AtomicFormula (hr : (NT.AtomicFormula, rhs) ∈ rules) (ha : SoundAll rhs cs ts) : Sound (.n .AtomicFormula) (.node .AtomicFormula cs) ts := by
  have hr : rhs = [.t .FALSE] ∨ rhs = [.t .TRUE] ∨ rhs = [.n .Brackets] ∨ rhs = [.n .BooleanAtomicFormula] := by simpa [rules] using hr
  rcases hr with rfl | rfl | rfl | rfl
  · obtain ⟨c, rfl, tok, rfl, rfl, hk⟩ := ha.one
    exact FS.leaf rfl (by rw [flatFml, hk]; rfl) (.ff hk)
  · obtain ⟨c, rfl, tok, rfl, rfl, hk⟩ := ha.one
    exact FS.leaf rfl (by rw [flatFml, hk]; rfl) (.tt hk)
  · obtain ⟨c, rfl, h⟩ := ha.one
    exact FS.skip h rfl
  · obtain ⟨c, rfl, h⟩ := ha.one
    exact FS.skip h rfl

theorem s_Brackets (hr : (NT.Brackets, rhs) ∈ rules) (ha : SoundAll rhs cs ts) : Sound (.n .Brackets) (.node .Brackets cs) ts := by
  have hr : rhs = [.t .lpar, .n .Biimplication, .t .rpar] ∨ rhs = [.t .lbrack, .n .Biimplication, .t .rbrack] := by simpa [rules] using hr
  have key : ∀ l r : Tok, ∀ c t2, (l.kind = .lpar ∧ r.kind = .rpar ∨ l.kind = .lbrack ∧ r.kind = .rbrack) → FS 0 c t2 →
      FS 5 (.node .Brackets [.leaf l, c, .leaf r]) ([l] ++ t2 ++ [r]) := by
    rintro l r c t2 hk ⟨c', h1, h2⟩
    refine ⟨c', by rw [clean, cleanAll, cleanAll, h1]; rfl, h2.1, fun f hf => ?_⟩
    obtain ⟨g, i1, i2⟩ := h2.2 f hf
    exact ⟨g, .brackets hk i1, i2⟩
  rcases hr with rfl | rfl
  · obtain ⟨c1, c2, c3, t1, t2, t3, rfl, rfl, ⟨l, rfl, rfl, k1⟩, h2, ⟨r, rfl, rfl, k3⟩⟩ := ha.three
    exact key l r c2 t2 (.inl ⟨k1, k3⟩) h2
  · obtain ⟨c1, c2, c3, t1, t2, t3, rfl, rfl, ⟨l, rfl, rfl, k1⟩, h2, ⟨r, rfl, rfl, k3⟩⟩ := ha.three
    exact key l r c2 t2 (.inr ⟨k1, k3⟩) h2

theorem s_BooleanAtomicFormula (hr : (NT.BooleanAtomicFormula, rhs) ∈ rules) (ha : SoundAll rhs cs ts) :
    Sound (.n .BooleanAtomicFormula) (.node .BooleanAtomicFormula cs) ts := by
  have hr : rhs = [.n .Assignment] ∨ rhs = [.n .CalculationSubformula] := by simpa [rules] using hr
  rcases hr with rfl | rfl <;> (obtain ⟨c, rfl, h⟩ := ha.one; exact FS.skip h rfl)

theorem s_Assignment (hr : (NT.Assignment, rhs) ∈ rules) (ha : SoundAll rhs cs ts) : Sound (.n .Assignment) (.node .Assignment cs) ts := by
  have hr : rhs = [.t .boolID] := by simpa [rules] using hr
  subst hr
  obtain ⟨c, rfl, tok, rfl, rfl, hk⟩ := ha.one
  refine ⟨.node .Assignment [.leaf tok], rfl, solid_node, fun f hf => ?_⟩
  cases hf
  exact ⟨_, .atom hk, SEquiv.refl _⟩

/-- The comparison that an operator stands for. -/
theorem comparison_of {Y : NT} {d : Tree} {t2 : List Tok} (hY : Y ∈ comparisons) (h : OpS Y d t2) {o : Cmp}
    (ho : cmpOf (.node .NumberComparisonOperator [flatten d]) = some o) : t2.map Tok.kind = o.kinds := by
  obtain ⟨_, rfl, _⟩ := id h
  simp only [comparisons, List.mem_cons, List.not_mem_nil, or_false] at hY
  rcases hY with rfl | rfl | rfl | rfl | rfl | rfl
  · cases ho; exact List.mem_singleton.mp (kinds_of h (l := [[.greater]]) (by decide))
  · cases ho; exact List.mem_singleton.mp (kinds_of h (l := [[.greater, .equal]]) (by decide))
  · cases ho; exact List.mem_singleton.mp (kinds_of h (l := [[.less]]) (by decide))
  · cases ho; exact List.mem_singleton.mp (kinds_of h (l := [[.less, .equal]]) (by decide))
  · cases ho; exact List.mem_singleton.mp (kinds_of h (l := [[.equal]]) (by decide))
  · cases ho; exact List.mem_singleton.mp (kinds_of h (l := [[.bang, .equal]]) (by decide))

theorem s_CalculationSubformula (hr : (NT.CalculationSubformula, rhs) ∈ rules) (ha : SoundAll rhs cs ts) :
    Sound (.n .CalculationSubformula) (.node .CalculationSubformula cs) ts := by
  have hr : rhs = [.n .NumberExpression, .n .NumberComparisonOperator, .n .NumberExpression] := by simpa [rules] using hr
  subst hr
  obtain ⟨c1, c2, c3, t1, t2, t3, rfl, rfl, ⟨c1', h1, h1'⟩, ⟨Y, d, hY, rfl, h2⟩, ⟨c3', h3, h3'⟩⟩ := ha.three
  have hd : clean (.node .NumberComparisonOperator [d]) = some (.node .NumberComparisonOperator [d]) := by
    rw [clean, cleanAll, h2.clean]; rfl
  have hc : clean (.node .CalculationSubformula [c1, .node .NumberComparisonOperator [d], c3]) =
      some (.node .CalculationSubformula [c1', .node .NumberComparisonOperator [d], c3']) := by
    rw [clean, cleanAll, cleanAll, cleanAll, h1, hd, h3]; rfl
  refine ⟨_, hc, solid_node, fun f hf => ?_⟩
  obtain ⟨o, e2, hf⟩ := bind_some (x := cmpOf (.node .NumberComparisonOperator [flatten d])) hf
  obtain ⟨a, e1, hf⟩ := bind_some (x := numOf (flatten c1')) hf
  obtain ⟨b, e3, rfl⟩ := map_some (x := numOf (flatten c3')) hf
  exact ⟨_, .cmp o (h1' a e1) (comparison_of hY h2 e2) (h3' b e3), SEquiv.refl _⟩

theorem s_NumberExpression (hr : (NT.NumberExpression, rhs) ∈ rules) (ha : SoundAll rhs cs ts) :
    Sound (.n .NumberExpression) (.node .NumberExpression cs) ts := by
  have hr : rhs = [.n .MultiplicativeNumber] ∨ rhs = [.n .MultiplicativeNumber, .n .AdditionOperator, .n .NumberExpression] ∨
    rhs = [.n .MultiplicativeNumber, .t .subtraction, .n .NumberExpression] := by simpa [rules] using hr
  rcases hr with rfl | rfl | rfl
  · obtain ⟨c, rfl, h⟩ := ha.one
    exact (NS.mono h fun a => .one).skip rfl
  · obtain ⟨c1, c2, c3, t1, t2, t3, rfl, rfl, ⟨c1', h1, h1'⟩, h2, ⟨c3', h3, h3'⟩⟩ := ha.three
    have h2 : OpS .AdditionOperator c2 t2 := h2
    refine ⟨_, clean_triple (by simp) h1 h2.clean h3, fun x hx => ?_⟩
    obtain ⟨_, rfl, _⟩ := id h2
    obtain ⟨a, e1, hx⟩ := bind_some (x := numOf (flatten c1')) hx
    obtain ⟨b, e3, rfl⟩ := map_some (x := numOf (flatten c3')) hx
    have := kinds_of h2 (l := [[.plus]]) (by decide)
    obtain ⟨op, rfl, hop⟩ : ∃ op, t2 = [op] ∧ op.kind = .plus := by
      cases t2 with
      | nil => simp at this
      | cons op t =>
        cases t with
        | nil => exact ⟨op, rfl, by simpa using this⟩
        | cons _ _ => simp at this
    rw [List.append_assoc]
    exact .add (h1' a e1) hop (h3' b e3)
  · obtain ⟨c1, c2, c3, t1, t2, t3, rfl, rfl, ⟨c1', h1, h1'⟩, ⟨tok, rfl, rfl, _⟩, ⟨c3', h3, h3'⟩⟩ := ha.three
    refine ⟨_, clean_triple (by simp) h1 rfl h3, fun x hx => ?_⟩
    cases hx

theorem s_MultiplicativeNumber (hr : (NT.MultiplicativeNumber, rhs) ∈ rules) (ha : SoundAll rhs cs ts) :
    Sound (.n .MultiplicativeNumber) (.node .MultiplicativeNumber cs) ts := by
  have hr : rhs = [.n .LeastSignificantBitOverwriteExpression] ∨
    rhs = [.n .LeastSignificantBitOverwriteExpression, .n .MultiplicationOperator, .n .LeastSignificantBitOverwriteExpression] := by
    simpa [rules] using hr
  rcases hr with rfl | rfl
  · obtain ⟨c, rfl, h⟩ := ha.one
    exact NS.skip h rfl
  · obtain ⟨c1, c2, c3, t1, t2, t3, rfl, rfl, ⟨c1', h1, h1'⟩, h2, ⟨c3', h3, h3'⟩⟩ := ha.three
    have h2 : OpS .MultiplicationOperator c2 t2 := h2
    refine ⟨_, clean_triple (by simp) h1 h2.clean h3, fun x hx => ?_⟩
    cases hx

theorem s_LSB (hr : (NT.LeastSignificantBitOverwriteExpression, rhs) ∈ rules) (ha : SoundAll rhs cs ts) :
    Sound (.n .LeastSignificantBitOverwriteExpression) (.node .LeastSignificantBitOverwriteExpression cs) ts := by
  have hr : rhs = [.n .AtomicNumberExpression] ∨
    rhs = [.n .AtomicNumberExpression, .n .LeastSignificantBitOverwriteOperator, .n .AtomicNumberExpression] := by simpa [rules] using hr
  rcases hr with rfl | rfl
  · obtain ⟨c, rfl, h⟩ := ha.one
    exact (NS.mono h fun a => .one).skip rfl
  · obtain ⟨c1, c2, c3, t1, t2, t3, rfl, rfl, ⟨c1', h1, h1'⟩, h2, ⟨c3', h3, h3'⟩⟩ := ha.three
    have h2 : OpS .LeastSignificantBitOverwriteOperator c2 t2 := h2
    have hc : clean (.node .LeastSignificantBitOverwriteExpression [c1, c2, c3]) = some (.node .LeastSignificantBitOverwriteExpression [c1', c2, c3']) := by
      rw [clean, cleanAll, cleanAll, cleanAll, h1, h2.clean, h3]; rfl
    refine ⟨_, hc, fun x hx => ?_⟩
    obtain ⟨a, e1, hx⟩ := bind_some (x := numOf (flatten c1')) hx
    obtain ⟨b, e3, rfl⟩ := map_some (x := numOf (flatten c3')) hx
    have := kinds_of h2 (l := [[.LSB]]) (by decide)
    obtain ⟨op, rfl, hop⟩ : ∃ op, t2 = [op] ∧ op.kind = .LSB := by
      cases t2 with
      | nil => simp at this
      | cons op t =>
        cases t with
        | nil => exact ⟨op, rfl, by simpa using this⟩
        | cons _ _ => simp at this
    rw [List.append_assoc]
    exact .overwrite (h1' a e1) hop (h3' b e3)

theorem s_AtomicNumberExpression (hd : Digits ts) (hr : (NT.AtomicNumberExpression, rhs) ∈ rules) (ha : SoundAll rhs cs ts) :
    Sound (.n .AtomicNumberExpression) (.node .AtomicNumberExpression cs) ts := by
  have hr : rhs = [.t .numID] ∨ rhs = [.t .numeral] ∨ rhs = [.n .NumberBrackets] := by simpa [rules] using hr
  rcases hr with rfl | rfl | rfl
  · obtain ⟨c, rfl, tok, rfl, rfl, hk⟩ := ha.one
    refine ⟨.leaf tok, rfl, fun a h => ?_⟩
    have e : numOf (.leaf tok) = some (.var tok.text) := by rw [numOf, hk]; rfl
    have : some (NExp.var tok.text) = some a := e.symm.trans h
    cases this
    exact .var hk
  · obtain ⟨c, rfl, tok, rfl, rfl, hk⟩ := ha.one
    refine ⟨.leaf tok, rfl, fun a h => ?_⟩
    obtain ⟨h1, h2⟩ := hd tok (by simp) hk
    have e : numOf (.leaf tok) = some (.num (digitsVal tok.text)) := by rw [numOf, if_pos hk, toInt_digits h1 h2]
    have : some (NExp.num (digitsVal tok.text)) = some a := e.symm.trans h
    cases this
    exact .num hk
  · obtain ⟨c, rfl, h⟩ := ha.one
    exact NS.skip h rfl

theorem s_NumberBrackets (hr : (NT.NumberBrackets, rhs) ∈ rules) (ha : SoundAll rhs cs ts) :
    Sound (.n .NumberBrackets) (.node .NumberBrackets cs) ts := by
  have hr : rhs = [.t .lpar, .n .NumberExpression, .t .rpar] := by simpa [rules] using hr
  subst hr
  obtain ⟨c1, c2, c3, t1, t2, t3, rfl, rfl, ⟨l, rfl, rfl, k1⟩, ⟨c', h2, h2'⟩, ⟨r, rfl, rfl, k3⟩⟩ := ha.three
  have hc : clean (.node .NumberBrackets [.leaf l, c2, .leaf r]) = some (.node .NumberBrackets [.leaf l, c', .leaf r]) := by
    rw [clean, cleanAll, cleanAll, h2]; rfl
  refine ⟨_, hc, fun a h => ?_⟩
  have e : numOf (flatten (.node .NumberBrackets [.leaf l, c', .leaf r])) = numOf (flatten c') := if_pos ⟨k1, k3⟩
  rw [e] at h
  exact .brackets k1 (h2' a h) k3

theorem s_NumberComparisonOperator (hr : (NT.NumberComparisonOperator, rhs) ∈ rules) (ha : SoundAll rhs cs ts) :
    Sound (.n .NumberComparisonOperator) (.node .NumberComparisonOperator cs) ts := by
  have hr : rhs = [.n .GreaterOperator] ∨ rhs = [.n .EqualOperator] ∨ rhs = [.n .UnequalOperator] ∨ rhs = [.n .GreaterEqualOperator] ∨
    rhs = [.n .SmallerEqualOperator] ∨ rhs = [.n .SmallerOperator] := by simpa [rules] using hr
  rcases hr with rfl | rfl | rfl | rfl | rfl | rfl <;> (obtain ⟨c, rfl, h⟩ := ha.one; exact ⟨_, c, by decide, rfl, h⟩)

theorem s_UnaryTemporalOperator (hr : (NT.UnaryTemporalOperator, rhs) ∈ rules) (ha : SoundAll rhs cs ts) :
    Sound (.n .UnaryTemporalOperator) (.node .UnaryTemporalOperator cs) ts := by
  have hr : rhs = [.n .FinallyOperator] ∨ rhs = [.n .NextOperator] ∨ rhs = [.n .GloballyOperator] ∨ rhs = [.n .NotOperator] := by
    simpa [rules] using hr
  rcases hr with rfl | rfl | rfl | rfl <;> (obtain ⟨c, rfl, h⟩ := ha.one; exact ⟨_, c, by decide, rfl, h⟩)

theorem s_BinaryTemporalOperator (hr : (NT.BinaryTemporalOperator, rhs) ∈ rules) (ha : SoundAll rhs cs ts) :
    Sound (.n .BinaryTemporalOperator) (.node .BinaryTemporalOperator cs) ts := by
  have hr : rhs = [.n .UntilOperator] ∨ rhs = [.n .WeakUntilOperator] := by simpa [rules] using hr
  rcases hr with rfl | rfl <;> (obtain ⟨c, rfl, h⟩ := ha.one; exact ⟨_, c, rfl, h⟩)

theorem sound_node {X : NT} (hd : Digits ts) (hr : (X, rhs) ∈ rules) (ha : SoundAll rhs cs ts) : Sound (.n X) (.node X cs) ts := by
  cases X
  case Formula => exact s_Formula hr ha
  case Biimplication => exact s_Biimplication hr ha
  case Implication => exact s_Implication hr ha
  case Xor => exact s_Xor hr ha
  case Disjunction => exact s_Disjunction hr ha
  case Conjunction => exact s_Conjunction hr ha
  case BinaryTemporalFormula => exact s_BinaryTemporalFormula hr ha
  case UnaryFormula => exact s_UnaryFormula hr ha
  case AtomicFormula => exact s_AtomicFormula hr ha
  case Brackets => exact s_Brackets hr ha
  case BooleanAtomicFormula => exact s_BooleanAtomicFormula hr ha
  case Assignment => exact s_Assignment hr ha
  case CalculationSubformula => exact s_CalculationSubformula hr ha
  case NumberExpression => exact s_NumberExpression hr ha
  case MultiplicativeNumber => exact s_MultiplicativeNumber hr ha
  case LeastSignificantBitOverwriteExpression => exact s_LSB hr ha
  case AtomicNumberExpression => exact s_AtomicNumberExpression hd hr ha
  case NumberBrackets => exact s_NumberBrackets hr ha
  case NumberComparisonOperator => exact s_NumberComparisonOperator hr ha
  case UnaryTemporalOperator => exact s_UnaryTemporalOperator hr ha
  case BinaryTemporalOperator => exact s_BinaryTemporalOperator hr ha
  all_goals exact sound_op rfl hr ha

theorem derives_sound {s : Sym} {c : Tree} (h : Derives s c ts) (hd : Digits ts) : Sound s c ts := by
  revert hd
  refine Derives.rec (motive_1 := fun s c ts _ => Digits ts → Sound s c ts) (motive_2 := fun ss cs ts _ => Digits ts → SoundAll ss cs ts)
    ?_ ?_ ?_ ?_ h
  · exact fun {t} _ => ⟨t, rfl, rfl, rfl⟩
  · exact fun {X rhs cs ts} hr _ ih hd => sound_node hd hr (ih hd)
  · exact fun _ => .nil
  · exact fun {s ss c cs ts us} _ _ i1 i2 hd => .cons (i1 fun t ht => hd t (by simp [ht])) (i2 fun t ht => hd t (by simp [ht]))

/-! ### Completeness -/

theorem derives_one {X : NT} {s : Sym} {c : Tree} (hr : (X, [s]) ∈ rules) (h : Derives s c ts) : Derives (.n X) (.node X [c]) ts := by
  have := DerivesAll.cons h .nil
  rw [List.append_nil] at this
  exact .node hr this

theorem derives_two {X : NT} {s1 s2 : Sym} {c1 c2 : Tree} {t1 t2 : List Tok} (hr : (X, [s1, s2]) ∈ rules) (h1 : Derives s1 c1 t1)
    (h2 : Derives s2 c2 t2) : Derives (.n X) (.node X [c1, c2]) (t1 ++ t2) := by
  have := DerivesAll.cons h1 (.cons h2 .nil)
  rw [List.append_nil] at this
  exact .node hr this

theorem derives_three {X : NT} {s1 s2 s3 : Sym} {c1 c2 c3 : Tree} {t1 t2 t3 : List Tok} (hr : (X, [s1, s2, s3]) ∈ rules) (h1 : Derives s1 c1 t1)
    (h2 : Derives s2 c2 t2) (h3 : Derives s3 c3 t3) : Derives (.n X) (.node X [c1, c2, c3]) (t1 ++ t2 ++ t3) := by
  have := DerivesAll.cons h1 (.cons h2 (.cons h3 .nil))
  rw [List.append_nil, ← List.append_assoc] at this
  exact .node hr this

theorem derivesAll_leaves (ts : List Tok) : DerivesAll (ts.map fun t => Sym.t t.kind) (ts.map .leaf) ts := by
  induction ts with
  | nil => exact .nil
  | cons t ts ih => exact .cons (ts := [t]) .leaf ih

/-- An operator. -/
theorem derives_op {X : NT} {k : List Term} (hX : isOp X = true) (hr : (X, k.map Sym.t) ∈ rules) (hk : ts.map Tok.kind = k) :
    Derives (.n X) (.node X (ts.map .leaf)) ts ∧ OpS X (.node X (ts.map .leaf)) ts := by
  have e : (ts.map fun t => Sym.t t.kind) = k.map Sym.t := by rw [← hk, List.map_map]; rfl
  rw [← e] at hr
  exact ⟨.node hr (derivesAll_leaves ts), hX, rfl, hr⟩

/-- The variable is declared. -/
def Declared (nm : Names) (x : Word) : Prop := ∃ q, nm.limits (if endsWithPrime x then x.dropLast else x) = some q

/-- There is a tree for the number. -/
def CN (X : NT) (ts : List Tok) (a : NExp) : Prop :=
  ∃ c c', Derives (.n X) c ts ∧ clean c = some c' ∧ numOf (flatten c') = some a ∧
    ∀ nm, NExpAll (Declared nm) a → ∃ T', addMinimum nm (flatten c') = some T'

theorem addMinimum_op {nm : Names} {X : NT} {t : Tok} (h : t.kind ≠ .numID) : addMinimum nm (.node X ([t].map .leaf)) = some (.node X ([t].map .leaf)) := by
  rw [List.map_cons, List.map_nil, addMinimum, addMinimumAll, addMinimumAll, addMinimum, if_neg h]
  rfl

theorem addMinimum_three {nm : Names} {X : NT} {a b c a' b' c' : Tree} (h1 : addMinimum nm a = some a') (h2 : addMinimum nm b = some b')
    (h3 : addMinimum nm c = some c') : addMinimum nm (.node X [a, b, c]) = some (.node X [a', b', c']) := by
  rw [addMinimum, addMinimumAll, addMinimumAll, addMinimumAll, addMinimumAll, h1, h2, h3]
  rfl

/-- If the variables of the numbers in the tree are declared then their lower bounds can be added. -/
def GoodT (nm : Names) (T : Tree) : Prop := ∀ a, numOf T = some a → NExpAll (Declared nm) a → ∃ T', addMinimum nm T = some T'

mutual

def Fit (nm : Names) : Tree → Prop
  | .leaf _ => True
  | .node X cs => if X = .CalculationSubformula then ∀ a op b, cs = [a, op, b] → GoodT nm a ∧ GoodT nm b else FitAll nm cs

def FitAll (nm : Names) : List Tree → Prop
  | [] => True
  | c :: cs => Fit nm c ∧ FitAll nm cs

end

theorem fitAll_append {nm : Names} {l1 l2 : List Tree} (h1 : FitAll nm l1) (h2 : FitAll nm l2) : FitAll nm (l1 ++ l2) := by
  induction l1 with
  | nil => exact h2
  | cons c l ih => exact ⟨h1.1, ih h1.2⟩

theorem fit_splice {nm : Names} {X : NT} (hX : X ≠ .CalculationSubformula) {l : List Tree} (h : FitAll nm l) : FitAll nm (splice X l) := by
  induction l with
  | nil => exact h
  | cons c l ih =>
    cases c with
    | leaf t => exact ⟨trivial, ih h.2⟩
    | node Y ds =>
      rw [splice]
      by_cases hY : Y = X
      · rw [if_pos hY]
        refine fitAll_append ?_ (ih h.2)
        have := h.1
        rw [Fit, if_neg (by rw [hY]; exact hX)] at this
        exact this
      · rw [if_neg hY]
        exact ⟨h.1, ih h.2⟩

theorem fit_spliced {nm : Names} {X : NT} (hX : X ≠ .CalculationSubformula) {a b : Tree} (h1 : Fit nm a) (h2 : Fit nm b) :
    Fit nm (.node X (splice X [a, b])) := by
  rw [Fit, if_neg hX]
  exact fit_splice hX ⟨h1, h2, trivial⟩

theorem fit_two {nm : Names} {X : NT} (hX : X ≠ .CalculationSubformula) {a b : Tree} (h1 : Fit nm a) (h2 : Fit nm b) :
    Fit nm (.node X [a, b]) := by
  rw [Fit, if_neg hX]
  exact ⟨h1, h2, trivial⟩

theorem fitAll_leaves {nm : Names} (ts : List Tok) : FitAll nm (ts.map .leaf) := by
  induction ts with
  | nil => trivial
  | cons t ts ih => exact ⟨trivial, ih⟩

theorem fit_op {nm : Names} {X : NT} (hX : X ≠ .CalculationSubformula) (ts : List Tok) : Fit nm (.node X (ts.map .leaf)) := by
  rw [Fit, if_neg hX]
  exact fitAll_leaves ts

theorem flattenAll_leaves (ts : List Tok) : flattenAll (ts.map .leaf) = ts.map .leaf := by
  induction ts with
  | nil => rfl
  | cons t ts ih => rw [List.map_cons, flattenAll, ih]; rfl

theorem CN.skip {X Y : NT} {a : NExp} (h : CN X ts a) (hr : (Y, [.n X]) ∈ rules) (hY : ∀ c, cleanNode Y [c] [clean c] = clean c) : CN Y ts a := by
  obtain ⟨c, c', h1, h2, h3⟩ := h
  exact ⟨_, c', derives_one hr h1, by rw [clean, cleanAll, cleanAll, hY, h2], h3⟩

theorem complete_sum {a : NExp} (h : InfixSum ts a) (hd : Digits ts) : CN .NumberExpression ts a := by
  revert hd
  refine InfixSum.rec (motive_1 := fun ts a _ => Digits ts → CN .NumberExpression ts a)
    (motive_2 := fun ts a _ => Digits ts → CN .LeastSignificantBitOverwriteExpression ts a)
    (motive_3 := fun ts a _ => Digits ts → CN .AtomicNumberExpression ts a) ?_ ?_ ?_ ?_ ?_ ?_ ?_ h
  · exact fun {ts a} _ ih hd => ((ih hd).skip (Y := .MultiplicativeNumber) (by decide) fun _ => rfl).skip (by decide) fun _ => rfl
  · intro ts us a b op _ hop _ i1 i2 hd
    obtain ⟨c1, c1', h1, h2, h3, h6⟩ := (i1 fun t ht => hd t (by simp [ht])).skip (Y := .MultiplicativeNumber) (by decide) fun _ => rfl
    obtain ⟨c3, c3', k1, k2, k3, k6⟩ := i2 fun t ht => hd t (by simp [ht])
    obtain ⟨o1, o2⟩ := derives_op (X := .AdditionOperator) (ts := [op]) (k := [.plus]) rfl (by decide) (by rw [List.map_cons, hop]; rfl)
    refine ⟨_, _, ?_, clean_triple (X := .NumberExpression) (by simp) h2 o2.clean k2, ?_, fun nm ha => ?_⟩
    · have := derives_three (X := .NumberExpression) (by decide) h1 o1 k1
      rw [List.append_assoc] at this
      exact this
    · have : numOf (flatten (.node .NumberExpression [c1', .node .AdditionOperator ([op].map .leaf), c3'])) =
        (numOf (flatten c1')).bind fun x => (numOf (flatten c3')).map fun y => .add x y := rfl
      rw [this, h3, k3]
      rfl
    · obtain ⟨T1, e1⟩ := h6 nm ha.1
      obtain ⟨T3, e3⟩ := k6 nm ha.2
      exact ⟨_, addMinimum_three e1 (addMinimum_op (by rw [hop]; decide)) e3⟩
  · exact fun {ts a} _ ih hd => (ih hd).skip (by decide) fun _ => rfl
  · intro ts us a b op _ hop _ i1 i2 hd
    obtain ⟨c1, c1', h1, h2, h3, h6⟩ := i1 fun t ht => hd t (by simp [ht])
    obtain ⟨c3, c3', k1, k2, k3, k6⟩ := i2 fun t ht => hd t (by simp [ht])
    obtain ⟨o1, o2⟩ := derives_op (X := .LeastSignificantBitOverwriteOperator) (ts := [op]) (k := [.LSB]) rfl (by decide) (by rw [List.map_cons, hop]; rfl)
    refine ⟨.node .LeastSignificantBitOverwriteExpression [c1, .node .LeastSignificantBitOverwriteOperator ([op].map .leaf), c3],
      .node .LeastSignificantBitOverwriteExpression [c1', .node .LeastSignificantBitOverwriteOperator ([op].map .leaf), c3'], ?_, ?_, ?_, fun nm ha => ?_⟩
    · have := derives_three (X := .LeastSignificantBitOverwriteExpression) (by decide) h1 o1 k1
      rw [List.append_assoc] at this
      exact this
    · rw [clean, cleanAll, cleanAll, cleanAll, h2, o2.clean, k2]; rfl
    · have : numOf (flatten (.node .LeastSignificantBitOverwriteExpression [c1', .node .LeastSignificantBitOverwriteOperator ([op].map .leaf), c3'])) =
        (numOf (flatten c1')).bind fun x => (numOf (flatten c3')).map fun y => .overwrite x y := rfl
      rw [this, h3, k3]
      rfl
    · obtain ⟨T1, e1⟩ := h6 nm ha.1
      obtain ⟨T3, e3⟩ := k6 nm ha.2
      exact ⟨_, addMinimum_three e1 (addMinimum_op (by rw [hop]; decide)) e3⟩
  · intro t hk hd
    have hl : Derives (.t .numID) (.leaf t) [t] := hk ▸ .leaf
    have e : numOf (.leaf t) = some (.var t.text) := by rw [numOf, hk]; rfl
    refine ⟨_, .leaf t, derives_one (by decide) hl, rfl, e, fun nm ha => ?_⟩
    obtain ⟨⟨lo, hi⟩, hq⟩ := ha
    have e' : addMinimum nm (.leaf t) = if lo = 0 then some (.leaf t)
        else some (.node .NumberExpression [.leaf t, .node .AdditionOperator [], .leaf ⟨.numeral, strInt lo⟩]) := by
      rw [addMinimum, if_pos hk, hq]
    by_cases h0 : lo = 0
    · exact ⟨_, e'.trans (if_pos h0)⟩
    · exact ⟨_, e'.trans (if_neg h0)⟩
  · intro t hk hd
    have hl : Derives (.t .numeral) (.leaf t) [t] := hk ▸ .leaf
    obtain ⟨h1, h2⟩ := hd t (by simp) hk
    have e : numOf (.leaf t) = some (.num (digitsVal t.text)) := by rw [numOf, if_pos hk, toInt_digits h1 h2]
    refine ⟨_, .leaf t, derives_one (by decide) hl, rfl, e, fun nm ha => ⟨.leaf t, ?_⟩⟩
    have e' : addMinimum nm (.leaf t) = some (.leaf t) := by rw [addMinimum, if_neg (by rw [hk]; decide)]
    exact e'
  · intro l r ts a k1 _ k3 ih hd
    have hl : Derives (.t .lpar) (.leaf l) [l] := k1 ▸ .leaf
    have hr : Derives (.t .rpar) (.leaf r) [r] := k3 ▸ .leaf
    obtain ⟨c, c', h1, h2, h3, h6⟩ := ih fun t ht => hd t (by simp [ht])
    refine CN.skip (X := .NumberBrackets) ⟨_, .node .NumberBrackets [.leaf l, c', .leaf r], derives_three (by decide) hl h1 hr, ?_, ?_, fun nm ha => ?_⟩
      (by decide) fun _ => rfl
    · rw [clean, cleanAll, cleanAll, h2]; rfl
    · have e : numOf (flatten (.node .NumberBrackets [.leaf l, c', .leaf r])) = numOf (flatten c') := if_pos ⟨k1, k3⟩
      rw [e, h3]
    · obtain ⟨T, e⟩ := h6 nm ha
      have e1 : addMinimum nm (.leaf l) = some (.leaf l) := by rw [addMinimum, if_neg (by rw [k1]; decide)]
      have e2 : addMinimum nm (.leaf r) = some (.leaf r) := by rw [addMinimum, if_neg (by rw [k3]; decide)]
      exact ⟨_, addMinimum_three e1 e e2⟩

/-- The syntactic category of a level. -/
def category : Nat → NT
  | 0 => .Biimplication
  | 1 => .Implication
  | 2 => .Disjunction
  | 3 => .Conjunction
  | 4 => .UnaryFormula
  | _ => .AtomicFormula

/-- There is a tree for the formula. -/
def CF (X : NT) (ts : List Tok) (g : SFml) : Prop :=
  ∃ c c' f, Derives (.n X) c ts ∧ clean c = some c' ∧ Solid (flatten c') ∧ flatFml (flatten c') = some f ∧ SEquiv f g ∧ ∀ nm, Fit nm (flatten c')

theorem CF.skip {X Y : NT} {a : SFml} (h : CF X ts a) (hr : (Y, [.n X]) ∈ rules) (hY : ∀ c, cleanNode Y [c] [clean c] = clean c) : CF Y ts a := by
  obtain ⟨c, c', f, h1, h2, h3⟩ := h
  exact ⟨_, c', f, derives_one hr h1, by rw [clean, cleanAll, cleanAll, hY, h2], h3⟩

theorem complete_infix {n : Nat} {g : SFml} (h : Infix n ts g) (hd : Digits ts) : CF (category n) ts g := by
  induction h with
  | @up n ts f hn _ ih =>
    have ih := ih hd
    match n, hn with
    | 0, _ => exact ih.skip (by decide) fun _ => rfl
    | 1, _ => exact (ih.skip (Y := .Xor) (by decide) fun _ => rfl).skip (by decide) fun _ => rfl
    | 2, _ => exact ih.skip (by decide) fun _ => rfl
    | 3, _ => exact (ih.skip (Y := .BinaryTemporalFormula) (by decide) fun _ => rfl).skip (by decide) fun _ => rfl
    | 4, _ => exact ih.skip (by decide) fun _ => rfl
  | @iff ts op us f g _ hop _ i1 i2 =>
    obtain ⟨c1, c1', f1, h1, h2, h3, h4, h5, h6⟩ := i1 fun t ht => hd t (by simp [ht])
    obtain ⟨c3, c3', f3, k1, k2, k3, k4, k5, k6⟩ := i2 fun t ht => hd t (by simp [ht])
    obtain ⟨c2, o1⟩ : ∃ c2, Derives (.n .BiimplicationOperator) c2 op := by
      rcases hop with hop | hop
      · exact ⟨_, (derives_op rfl (by decide) hop).1⟩
      · exact ⟨_, (derives_op rfl (by decide) hop).1⟩
    refine ⟨_, _, .iff f1 f3, derives_three (by decide) h1 o1 k1, clean_binary (by simp [category]) h2 k2, solid_node, ?_, h5.iff k5, fun nm => fit_two (by decide) (h6 nm) (k6 nm)⟩
    have : flatFml (flatten (.node (category 0) [c1', c3'])) = (flatFml (flatten c1')).bind fun f => (flatFml (flatten c3')).map fun g => .iff f g := rfl
    rw [this, h4, k4]
    rfl
  | @imp ts op us f g _ hop _ i1 i2 =>
    obtain ⟨c1, c1', f1, h1, h2, h3, h4, h5, h6⟩ := i1 fun t ht => hd t (by simp [ht])
    obtain ⟨c3, c3', f3, k1, k2, k3, k4, k5, k6⟩ := (i2 fun t ht => hd t (by simp [ht])).skip (Y := .Xor) (by decide) fun _ => rfl
    obtain ⟨c2, o1⟩ : ∃ c2, Derives (.n .ImplicationOperator) c2 op := by
      rcases hop with hop | hop
      · exact ⟨_, (derives_op rfl (by decide) hop).1⟩
      · exact ⟨_, (derives_op rfl (by decide) hop).1⟩
    refine ⟨_, _, .imp f1 f3, derives_three (by decide) h1 o1 k1, clean_binary (by simp [category]) h2 k2, solid_node, ?_, h5.imp k5, fun nm => fit_two (by decide) (h6 nm) (k6 nm)⟩
    have : flatFml (flatten (.node (category 1) [c1', c3'])) = (flatFml (flatten c1')).bind fun f => (flatFml (flatten c3')).map fun g => .imp f g := rfl
    rw [this, h4, k4]
    rfl
  | @or ts op us f g _ hop _ i1 i2 =>
    obtain ⟨c1, c1', f1, h1, h2, h3, h4, h5, h6⟩ := i1 fun t ht => hd t (by simp [ht])
    obtain ⟨c3, c3', f3, k1, k2, k3, k4, k5, k6⟩ := i2 fun t ht => hd t (by simp [ht])
    obtain ⟨c2, o1⟩ : ∃ c2, Derives (.n .DisjunctionOperator) c2 op := by
      rcases hop with hop | hop | hop
      · exact ⟨_, (derives_op rfl (by decide) hop).1⟩
      · exact ⟨_, (derives_op rfl (by decide) hop).1⟩
      · exact ⟨_, (derives_op rfl (by decide) hop).1⟩
    obtain ⟨e, e1, e2⟩ := (flat_or h3 k3).1 f1 f3 h4 k4
    exact ⟨_, _, e, derives_three (by decide) h1 o1 k1, clean_binary (by simp [category]) h2 k2, solid_splice h3, e1, e2.trans (h5.or k5),
      fun nm => fit_spliced (by decide) (h6 nm) (k6 nm)⟩
  | @and ts op us f g _ hop _ i1 i2 =>
    obtain ⟨c1, c1', f1, h1, h2, h3, h4, h5, h6⟩ := i1 fun t ht => hd t (by simp [ht])
    obtain ⟨c3, c3', f3, k1, k2, k3, k4, k5, k6⟩ := (i2 fun t ht => hd t (by simp [ht])).skip (Y := .BinaryTemporalFormula) (by decide) fun _ => rfl
    obtain ⟨c2, o1⟩ : ∃ c2, Derives (.n .ConjunctionOperator) c2 op := by
      rcases hop with hop | hop | hop
      · exact ⟨_, (derives_op rfl (by decide) hop).1⟩
      · exact ⟨_, (derives_op rfl (by decide) hop).1⟩
      · exact ⟨_, (derives_op rfl (by decide) hop).1⟩
    obtain ⟨e, e1, e2⟩ := (flat_and h3 k3).1 f1 f3 h4 k4
    exact ⟨_, _, e, derives_three (by decide) h1 o1 k1, clean_binary (by simp [category]) h2 k2, solid_splice h3, e1, e2.trans (h5.and k5),
      fun nm => fit_spliced (by decide) (h6 nm) (k6 nm)⟩
  | @not op us f hop _ ih =>
    obtain ⟨c, c', f', h1, h2, h3, h4, h5, h6⟩ := ih fun t ht => hd t (by simp [ht])
    obtain ⟨o1, o2⟩ : Derives (.n .NotOperator) (.node .NotOperator ([op].map .leaf)) [op] ∧ OpS .NotOperator (.node .NotOperator ([op].map .leaf)) [op] := by
      rcases hop with hop | hop
      · exact derives_op (k := [.bang]) rfl (by decide) (by rw [List.map_cons, hop]; rfl)
      · exact derives_op (k := [.tilde]) rfl (by decide) (by rw [List.map_cons, hop]; rfl)
    have o3 := derives_one (X := .UnaryTemporalOperator) (by decide) o1
    refine ⟨_, .node .UnaryFormula [.node .NotOperator ([op].map .leaf), c'], .not f', derives_two (X := .UnaryFormula) (by decide) o3 h1, ?_, solid_node, ?_, h5.not,
      fun nm => fit_two (by decide) (fit_op (by decide) [op]) (h6 nm)⟩
    · have hc : clean (.node .UnaryTemporalOperator [.node .NotOperator ([op].map .leaf)]) = some (.node .NotOperator ([op].map .leaf)) := by
        rw [clean, cleanAll, o2.clean]; rfl
      rw [clean, cleanAll, cleanAll, hc, h2]; rfl
    · have : flatFml (flatten (.node .UnaryFormula [.node .NotOperator ([op].map .leaf), c'])) = (flatFml (flatten c')).map .not := rfl
      rw [this, h4]
      rfl
  | @next op us f hop _ ih =>
    obtain ⟨c, c', f', h1, h2, h3, h4, h5, h6⟩ := ih fun t ht => hd t (by simp [ht])
    obtain ⟨o1, o2⟩ : Derives (.n .NextOperator) (.node .NextOperator (op.map .leaf)) op ∧ OpS .NextOperator (.node .NextOperator (op.map .leaf)) op := by
      rcases hop with hop | hop | hop
      · exact derives_op rfl (by decide) hop
      · exact derives_op rfl (by decide) hop
      · exact derives_op rfl (by decide) hop
    have o3 := derives_one (X := .UnaryTemporalOperator) (by decide) o1
    refine ⟨_, .node .UnaryFormula [.node .NextOperator (op.map .leaf), c'], .next f', derives_two (X := .UnaryFormula) (by decide) o3 h1, ?_, solid_node, ?_, h5.next,
      fun nm => fit_two (by decide) (by rw [flatten, flattenAll_leaves]; exact fit_op (by decide) op) (h6 nm)⟩
    · have hc : clean (.node .UnaryTemporalOperator [.node .NextOperator (op.map .leaf)]) = some (.node .NextOperator (op.map .leaf)) := by
        rw [clean, cleanAll, o2.clean]; rfl
      rw [clean, cleanAll, cleanAll, hc, h2]; rfl
    · have : flatFml (flatten (.node .UnaryFormula [.node .NextOperator (op.map .leaf), c'])) = (flatFml (flatten c')).map .next := rfl
      rw [this, h4]
      rfl
  | @tt t hk =>
    have hl : Derives (.t .TRUE) (.leaf t) [t] := hk ▸ .leaf
    refine ⟨_, .leaf t, .tt, derives_one (by decide) hl, rfl, fun Y h => (by cases h), ?_, SEquiv.refl _, fun nm => trivial⟩
    have : flatFml (.leaf t) = some .tt := by rw [flatFml, if_pos hk]
    exact this
  | @ff t hk =>
    have hl : Derives (.t .FALSE) (.leaf t) [t] := hk ▸ .leaf
    refine ⟨_, .leaf t, .ff, derives_one (by decide) hl, rfl, fun Y h => (by cases h), ?_, SEquiv.refl _, fun nm => trivial⟩
    have : flatFml (.leaf t) = some .ff := by rw [flatFml, hk]; rfl
    exact this
  | @atom t hk =>
    have hl : Derives (.t .boolID) (.leaf t) [t] := hk ▸ .leaf
    exact CF.skip (X := .BooleanAtomicFormula) (CF.skip (X := .Assignment) ⟨_, .node .Assignment [.leaf t], .atom t.text, derives_one (by decide) hl, rfl, solid_node, rfl,
      SEquiv.refl _, fun nm => fit_op (by decide) [t]⟩ (by decide) fun _ => rfl) (by decide) fun _ => rfl
  | @cmp ts op us a b o ha hop hb =>
    obtain ⟨c1, c1', h1, h2, h3, h6⟩ := complete_sum ha fun t ht => hd t (by simp [ht])
    obtain ⟨c3, c3', k1, k2, k3, k6⟩ := complete_sum hb fun t ht => hd t (by simp [ht])
    obtain ⟨d, o1, o2, o3⟩ : ∃ d, Derives (.n .NumberComparisonOperator) (.node .NumberComparisonOperator [d]) op ∧
        clean (.node .NumberComparisonOperator [d]) = some (.node .NumberComparisonOperator [d]) ∧
        cmpOf (flatten (.node .NumberComparisonOperator [d])) = some o := by
      cases o with
      | gt =>
        obtain ⟨j1, j2⟩ := derives_op (X := .GreaterOperator) rfl (by decide) hop
        exact ⟨_, derives_one (by decide) j1, by rw [clean, cleanAll, j2.clean]; rfl, rfl⟩
      | ge =>
        obtain ⟨j1, j2⟩ := derives_op (X := .GreaterEqualOperator) rfl (by decide) hop
        exact ⟨_, derives_one (by decide) j1, by rw [clean, cleanAll, j2.clean]; rfl, rfl⟩
      | lt =>
        obtain ⟨j1, j2⟩ := derives_op (X := .SmallerOperator) rfl (by decide) hop
        exact ⟨_, derives_one (by decide) j1, by rw [clean, cleanAll, j2.clean]; rfl, rfl⟩
      | le =>
        obtain ⟨j1, j2⟩ := derives_op (X := .SmallerEqualOperator) rfl (by decide) hop
        exact ⟨_, derives_one (by decide) j1, by rw [clean, cleanAll, j2.clean]; rfl, rfl⟩
      | eq =>
        obtain ⟨j1, j2⟩ := derives_op (X := .EqualOperator) rfl (by decide) hop
        exact ⟨_, derives_one (by decide) j1, by rw [clean, cleanAll, j2.clean]; rfl, rfl⟩
      | ne =>
        obtain ⟨j1, j2⟩ := derives_op (X := .UnequalOperator) rfl (by decide) hop
        exact ⟨_, derives_one (by decide) j1, by rw [clean, cleanAll, j2.clean]; rfl, rfl⟩
    refine CF.skip (X := .BooleanAtomicFormula) (CF.skip (X := .CalculationSubformula)
      ⟨_, .node .CalculationSubformula [c1', .node .NumberComparisonOperator [d], c3'], .cmp o a b, derives_three (by decide) h1 o1 k1, ?_, solid_node, ?_, SEquiv.refl _, fun nm => ?_⟩
      (by decide) fun _ => rfl) (by decide) fun _ => rfl
    · rw [clean, cleanAll, cleanAll, cleanAll, h2, o2, k2]; rfl
    · have : flatFml (flatten (.node .CalculationSubformula [c1', .node .NumberComparisonOperator [d], c3'])) =
        (cmpOf (flatten (.node .NumberComparisonOperator [d]))).bind fun o => (numOf (flatten c1')).bind fun x => (numOf (flatten c3')).map fun y => .cmp o x y := rfl
      rw [this, o3, h3, k3]
      rfl
    · have : Fit nm (.node .CalculationSubformula [flatten c1', flatten (.node .NumberComparisonOperator [d]), flatten c3']) := by
        rw [Fit, if_pos rfl]
        intro x o' y e
        simp only [List.cons.injEq, and_true] at e
        obtain ⟨rfl, _, rfl⟩ := e
        refine ⟨fun z e1 e2 => h6 nm ?_, fun z e1 e2 => k6 nm ?_⟩
        · rw [h3] at e1; cases e1; exact e2
        · rw [k3] at e1; cases e1; exact e2
      exact this
  | @brackets l r ts f hk _ ih =>
    obtain ⟨c, c', f', h1, h2, h3, h4, h5, h6⟩ := ih fun t ht => hd t (by simp [ht])
    have key : Derives (.n .Brackets) (.node .Brackets [.leaf l, c, .leaf r]) ([l] ++ ts ++ [r]) := by
      rcases hk with ⟨k1, k2⟩ | ⟨k1, k2⟩
      · have hl : Derives (.t .lpar) (.leaf l) [l] := k1 ▸ .leaf
        have hr : Derives (.t .rpar) (.leaf r) [r] := k2 ▸ .leaf
        exact derives_three (by decide) hl h1 hr
      · have hl : Derives (.t .lbrack) (.leaf l) [l] := k1 ▸ .leaf
        have hr : Derives (.t .rbrack) (.leaf r) [r] := k2 ▸ .leaf
        exact derives_three (by decide) hl h1 hr
    exact CF.skip (X := .Brackets) ⟨_, c', f', key, by rw [clean, cleanAll, cleanAll, h2]; rfl, h3, h4, h5, h6⟩ (by decide) fun _ => rfl

/-- The formulas that the simplified tree of a line stands for. -/
def LineFml (bools : List Word) (line : List Char) (f : SFml) : Prop :=
  ∃ t t', parse (tokenize bools line) = .tree t ∧ clean t = some t' ∧ flatFml (flatten t') = some f

theorem Lexes.digits {bools : List Word} {line : List Char} (h : Lexes bools line ts) : Digits ts :=
  fun t ht hk => (Lexes.ok h t ht).numeral hk

/-- What is read is what has been written. -/
theorem lineFml_sound {bools : List Word} {line : List Char} {f : SFml} (h : LineFml bools line f) : ∃ g, IsFormula bools line g ∧ SEquiv f g := by
  obtain ⟨t, t', h1, h2, h3⟩ := h
  have hl := tokenize_lexes bools line
  have hs := derives_sound (parse_sound (fun t ht => (Lexes.ok hl t ht).eof) h1) (Lexes.digits hl)
  obtain ⟨c', k1, k2, k3⟩ := hs
  rw [h2] at k1
  cases k1
  obtain ⟨g, i1, i2⟩ := k3 f h3
  exact ⟨g, ⟨_, hl, i1⟩, i2⟩

theorem lineFml_complete {bools : List Word} {line : List Char} {g : SFml} (h : IsFormula bools line g) :
    ∃ t t' f, parse (tokenize bools line) = .tree t ∧ clean t = some t' ∧ flatFml (flatten t') = some f ∧ SEquiv f g ∧ ∀ nm, Fit nm (flatten t') := by
  obtain ⟨ts, hl, hi⟩ := h
  have e := (lexes_iff _ _ _).mp hl
  obtain ⟨c, c', f, h1, h2, h3, h4, h5, h6⟩ := complete_infix hi (Lexes.digits hl)
  have hf := derives_one (X := .Formula) (by decide) h1
  refine ⟨_, .node .Formula [c'], f, by rw [e]; exact parse_complete hf, ?_, h4, h5, fun nm => ?_⟩
  · rw [clean, cleanAll, cleanAll, h2]
    rfl
  · have : Fit nm (.node .Formula [flatten c']) := by
      rw [Fit, if_neg (by decide)]
      exact ⟨h6 nm, trivial⟩
    exact this

/-- Two formulas that are written in the same way have the same meaning. -/
theorem isFormula_unique {bools : List Word} {line : List Char} {g g' : SFml} (h : IsFormula bools line g) (h' : IsFormula bools line g') : SEquiv g g' := by
  obtain ⟨t, t', f, h1, h2, h3, h4, _⟩ := lineFml_complete h
  obtain ⟨u, u', f', k1, k2, k3, k4, _⟩ := lineFml_complete h'
  rw [h1] at k1
  cases k1
  rw [h2] at k2
  cases k2
  rw [h3] at k3
  cases k3
  exact h4.symm.trans k4

end Slugs.Model.Structured
