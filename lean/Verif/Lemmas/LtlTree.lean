import Verif.Lemmas.LtlLex

/-!
The simplified trees stand for the formulas in infix notation that have been read, and all formulas in infix notation have such trees.
-/

namespace Slugs.Model.LtlText

open Slugs.Spec (Word)
open Slugs.Spec.LtlText

/-- The children that stand for an operand of an operator that is flattened. -/
def Part (X : NT) (R : Tree → Prop) (cs : List Tree) : Prop := R (.node X cs) ∨ ∃ v, cs = [v] ∧ R v ∧ ∀ ds, v ≠ .node X ds

/-- The simplified tree stands for the formula. -/
def Reps : Ltl → Tree → Prop
  | .tt, u => ∃ t, u = .leaf t ∧ t.kind = .TRUE
  | .ff, u => ∃ t, u = .leaf t ∧ t.kind = .FALSE
  | .lit x v, u => ∃ t rest, u = .node .Assignment (.leaf t :: rest) ∧ t.text = x ∧
      (v = none ∧ rest = [] ∨ ∃ e w, rest = [e, .leaf w] ∧ (v = some false ∧ w.kind = .zero ∨ v = some true ∧ w.kind = .one))
  | .not f, u => ∃ os c, u = .node .UnaryFormula [.node .NotOperator os, c] ∧ Reps f c
  | .next f, u => ∃ os c, u = .node .UnaryFormula [.node .NextOperator os, c] ∧ Reps f c
  | .eventually f, u => ∃ os c, u = .node .UnaryFormula [.node .FinallyOperator os, c] ∧ Reps f c
  | .globally f, u => ∃ os c, u = .node .UnaryFormula [.node .GloballyOperator os, c] ∧ Reps f c
  | .and f g, u => ∃ cs ds, u = .node .Conjunction (cs ++ ds) ∧ Part .Conjunction (Reps f) cs ∧ Part .Conjunction (Reps g) ds
  | .or f g, u => ∃ cs ds, u = .node .Disjunction (cs ++ ds) ∧ Part .Disjunction (Reps f) cs ∧ Part .Disjunction (Reps g) ds
  | .xor f g, u => ∃ cs ds, u = .node .Xor (cs ++ ds) ∧ Part .Xor (Reps f) cs ∧ Part .Xor (Reps g) ds
  | .imp f g, u => ∃ a b, u = .node .Implication [a, b] ∧ Reps f a ∧ Reps g b
  | .iff f g, u => ∃ a b, u = .node .Biimplication [a, b] ∧ Reps f a ∧ Reps g b
  | .strongUntil f g, u => ∃ a o b, u = .node .BinaryTemporalFormula [a, o, b] ∧ Reps f a ∧ Reps g b
  | .weakUntil f g, u => ∃ a o b, u = .node .BinaryTemporalFormula [a, o, b] ∧ Reps f a ∧ Reps g b

/-- The tree is simplified to one that stands for the formula. -/
def Stands (t : Tree) (f : Ltl) : Prop := ∃ u, clean t = some u ∧ Reps f (flatten u)

theorem part_splice {X : NT} {R : Tree → Prop} {A : Tree} (h : R A) : Part X R (splice X [A]) := by
  cases A with
  | leaf t => exact .inr ⟨_, rfl, h, fun ds e => by cases e⟩
  | node Y ds =>
    by_cases hY : Y = X
    · subst hY
      simp only [splice, if_pos, List.append_nil]
      exact .inl h
    · simp only [splice, if_neg hY]
      exact .inr ⟨_, rfl, h, fun es e => hY (by injection e)⟩

theorem splice_two (X : NT) (T1 T2 : Tree) : splice X [T1, T2] = splice X [T1] ++ splice X [T2] := by
  cases T1 with
  | leaf t => rfl
  | node Y ds =>
    simp only [splice]
    split <;> simp

theorem flatten_spliced {X : NT} (hX : X = .Conjunction ∨ X = .Disjunction ∨ X = .Xor) (a b : Tree) :
    flatten (.node X [a, b]) = .node X (splice X [flatten a] ++ splice X [flatten b]) := by
  rw [← splice_two]
  rcases hX with rfl | rfl | rfl <;> rfl

theorem clean_binary {X : NT} {c1 c2 c3 c1' c3' : Tree} (hX : X = .Implication ∨ X = .Conjunction ∨ X = .Biimplication ∨ X = .Disjunction ∨ X = .Xor)
    (h1 : clean c1 = some c1') (h3 : clean c3 = some c3') : clean (.node X [c1, c2, c3]) = some (.node X [c1', c3']) := by
  simp only [clean, cleanAll]
  rcases hX with rfl | rfl | rfl | rfl | rfl <;> simp [cleanNode, h1, h3]

namespace Stands

variable {c c1 c2 c3 : Tree} {f g : Ltl}

theorem skip {X : NT} (h : Stands c f) (hX : cleanNode X [c] [clean c] = clean c) : Stands (.node X [c]) f := by
  obtain ⟨c', h1, h2⟩ := h
  exact ⟨c', by rw [clean, cleanAll, cleanAll, hX, h1], h2⟩

theorem iff (h1 : Stands c1 f) (h3 : Stands c3 g) : Stands (.node .Biimplication [c1, c2, c3]) (.iff f g) := by
  obtain ⟨u1, e1, r1⟩ := h1
  obtain ⟨u3, e3, r3⟩ := h3
  exact ⟨_, clean_binary (by simp) e1 e3, _, _, rfl, r1, r3⟩

theorem imp (h1 : Stands c1 f) (h3 : Stands c3 g) : Stands (.node .Implication [c1, c2, c3]) (.imp f g) := by
  obtain ⟨u1, e1, r1⟩ := h1
  obtain ⟨u3, e3, r3⟩ := h3
  exact ⟨_, clean_binary (by simp) e1 e3, _, _, rfl, r1, r3⟩

theorem and (h1 : Stands c1 f) (h3 : Stands c3 g) : Stands (.node .Conjunction [c1, c2, c3]) (.and f g) := by
  obtain ⟨u1, e1, r1⟩ := h1
  obtain ⟨u3, e3, r3⟩ := h3
  exact ⟨_, clean_binary (by simp) e1 e3, _, _, flatten_spliced (by simp) _ _, part_splice r1, part_splice r3⟩

theorem or (h1 : Stands c1 f) (h3 : Stands c3 g) : Stands (.node .Disjunction [c1, c2, c3]) (.or f g) := by
  obtain ⟨u1, e1, r1⟩ := h1
  obtain ⟨u3, e3, r3⟩ := h3
  exact ⟨_, clean_binary (by simp) e1 e3, _, _, flatten_spliced (by simp) _ _, part_splice r1, part_splice r3⟩

theorem xor (h1 : Stands c1 f) (h3 : Stands c3 g) : Stands (.node .Xor [c1, c2, c3]) (.xor f g) := by
  obtain ⟨u1, e1, r1⟩ := h1
  obtain ⟨u3, e3, r3⟩ := h3
  exact ⟨_, clean_binary (by simp) e1 e3, _, _, flatten_spliced (by simp) _ _, part_splice r1, part_splice r3⟩

theorem brackets {l r : Tree} (h : Stands c f) : Stands (.node .Brackets [l, c, r]) f := by
  obtain ⟨u, e, h⟩ := h
  exact ⟨u, by simp only [clean, cleanAll, cleanNode, e]; rfl, h⟩

end Stands

/-- The categories of operators. -/
def isOp : NT → Bool
  | .UntilOperator | .WeakUntilOperator | .ImplicationOperator | .BiimplicationOperator | .DisjunctionOperator | .ConjunctionOperator | .XorOperator
  | .FinallyOperator | .NextOperator | .GloballyOperator | .NotOperator => true
  | _ => false

/-- A tree for an operator. -/
def OpS (X : NT) (c : Tree) (ts : List Tok) : Prop := isOp X = true ∧ c = .node X (ts.map .leaf) ∧ (X, ts.map fun t => Sym.t t.kind) ∈ rules

theorem cleanAll_leaves (ts : List Tok) : cleanAll (ts.map .leaf) = ts.map fun t => some (.leaf t) := by
  induction ts with
  | nil => rfl
  | cons t ts ih => rw [List.map_cons, cleanAll, ih]; rfl

theorem mapM_leaves (ts : List Tok) : ((ts.map fun t => some (Tree.leaf t)).mapM id : Option (List Tree)) = some (ts.map .leaf) := by
  induction ts with
  | nil => rfl
  | cons t ts ih => rw [List.map_cons, List.mapM_cons, ih]; rfl

theorem flattenAll_leaves (ts : List Tok) : flattenAll (ts.map .leaf) = ts.map .leaf := by
  induction ts with
  | nil => rfl
  | cons t ts ih => rw [List.map_cons, flattenAll, ih]; rfl

theorem OpS.clean {X : NT} {c : Tree} {ts : List Tok} (h : OpS X c ts) : clean c = some c := by
  obtain ⟨h1, rfl, _⟩ := h
  rw [LtlText.clean, cleanAll_leaves]
  cases X <;> first | exact absurd h1 (by decide) | (simp only [cleanNode, mapM_leaves]; rfl)

theorem OpS.flatten {X : NT} {c : Tree} {ts : List Tok} (h : OpS X c ts) : flatten c = .node X (ts.map .leaf) := by
  obtain ⟨h1, rfl, _⟩ := h
  rw [LtlText.flatten, flattenAll_leaves]
  cases X <;> first | exact absurd h1 (by decide) | rfl

theorem kinds_of {X : NT} {c : Tree} {ts : List Tok} (h : OpS X c ts) {l : List (List Term)} (hl : ∀ r ∈ rules, r.1 = X → r.2 ∈ l.map (List.map Sym.t)) :
    ts.map Tok.kind ∈ l := by
  obtain ⟨_, _, h3⟩ := h
  obtain ⟨k, hk, e⟩ := List.mem_map.mp (hl _ h3 rfl)
  have : k = ts.map Tok.kind := by
    have hi : Function.Injective (List.map Sym.t) := List.map_injective_iff.mpr fun a b h => by injection h
    apply hi
    rw [e, List.map_map]
    rfl
  rw [← this]
  exact hk

theorem Stands.unary {Y : NT} {d c : Tree} {t1 : List Tok} (hd : OpS Y d t1) {u : Tree} (h2 : clean c = some u) :
    ∃ v, clean (.node .UnaryFormula [.node .UnaryTemporalOperator [d], c]) = some v ∧ flatten v = .node .UnaryFormula [.node Y (t1.map .leaf), flatten u] := by
  have h1 : LtlText.clean (.node .UnaryTemporalOperator [d]) = some d := by rw [LtlText.clean, cleanAll, hd.clean]; rfl
  refine ⟨.node .UnaryFormula [d, u], by rw [LtlText.clean, cleanAll, cleanAll, h1, h2]; rfl, ?_⟩
  rw [LtlText.flatten, flattenAll, flattenAll, hd.flatten]
  rfl

theorem Stands.binary {Y : NT} {d c1 c3 : Tree} {t1 : List Tok} (hd : OpS Y d t1) {u1 u3 : Tree} (h1 : clean c1 = some u1) (h3 : clean c3 = some u3) :
    ∃ v, clean (.node .BinaryTemporalFormula [c1, .node .BinaryTemporalOperator [d], c3]) = some v ∧
      flatten v = .node .BinaryTemporalFormula [flatten u1, .node Y (t1.map .leaf), flatten u3] := by
  have h2 : LtlText.clean (.node .BinaryTemporalOperator [d]) = some d := by rw [LtlText.clean, cleanAll, hd.clean]; rfl
  refine ⟨.node .BinaryTemporalFormula [u1, d, u3], by rw [LtlText.clean, cleanAll, cleanAll, cleanAll, h1, h2, h3]; rfl, ?_⟩
  rw [LtlText.flatten, flattenAll, flattenAll, hd.flatten]
  rfl

/-! ### Soundness -/

/-- There is a formula in infix notation that the tree stands for. -/
def SF (n : Nat) (c : Tree) (ts : List Tok) : Prop := ∃ f, Infix n ts f ∧ Stands c f

/-- What is known about the tree of a symbol. -/
def Sound : Sym → Tree → List Tok → Prop
  | .t k, c, ts => ∃ tok, c = .leaf tok ∧ ts = [tok] ∧ tok.kind = k
  | .n X, c, ts =>
    match X with
    | .Biimplication => SF 0 c ts
    | .Implication => SF 1 c ts
    | .Xor => SF 2 c ts
    | .Disjunction => SF 3 c ts
    | .Conjunction => SF 4 c ts
    | .BinaryTemporalFormula => SF 5 c ts
    | .UnaryFormula => SF 6 c ts
    | .AtomicFormula | .Brackets | .Assignment => SF 7 c ts
    | .Formula => ∃ f us e u, ts = us ++ [e] ∧ e.kind = .semi ∧ Infix 0 us f ∧ clean c = some (.node .Formula [u, .leaf e]) ∧ Reps f (flatten u)
    | .BinaryTemporalOperator => ∃ Y d, Y ∈ [NT.UntilOperator, .WeakUntilOperator] ∧ c = .node .BinaryTemporalOperator [d] ∧ OpS Y d ts
    | .UnaryTemporalOperator => ∃ Y d, Y ∈ [NT.FinallyOperator, .NextOperator, .GloballyOperator, .NotOperator] ∧ c = .node .UnaryTemporalOperator [d] ∧ OpS Y d ts
    | X => OpS X c ts

inductive SoundAll : List Sym → List Tree → List Tok → Prop
  | nil : SoundAll [] [] []
  | cons {s ss c cs ts us} : Sound s c ts → SoundAll ss cs us → SoundAll (s :: ss) (c :: cs) (ts ++ us)

variable {rhs : List Sym} {cs : List Tree} {ts : List Tok}

theorem SoundAll.one {s : Sym} (h : SoundAll [s] cs ts) : ∃ c, cs = [c] ∧ Sound s c ts := by
  cases h with
  | cons h1 h2 => cases h2; exact ⟨_, rfl, by simpa using h1⟩

theorem SoundAll.two {s1 s2 : Sym} (h : SoundAll [s1, s2] cs ts) : ∃ c1 c2 t1 t2, cs = [c1, c2] ∧ ts = t1 ++ t2 ∧ Sound s1 c1 t1 ∧ Sound s2 c2 t2 := by
  cases h with
  | cons h1 h2 =>
    obtain ⟨c, rfl, h⟩ := h2.one
    exact ⟨_, _, _, _, rfl, rfl, h1, h⟩

theorem SoundAll.three {s1 s2 s3 : Sym} (h : SoundAll [s1, s2, s3] cs ts) :
    ∃ c1 c2 c3 t1 t2 t3, cs = [c1, c2, c3] ∧ ts = t1 ++ t2 ++ t3 ∧ Sound s1 c1 t1 ∧ Sound s2 c2 t2 ∧ Sound s3 c3 t3 := by
  cases h with
  | cons h1 h2 =>
    obtain ⟨_, _, _, _, rfl, rfl, h3, h4⟩ := h2.two
    exact ⟨_, _, _, _, _, _, rfl, by simp, h1, h3, h4⟩

theorem SF.up {n : Nat} {c : Tree} {X : NT} (hn : n < 7) (hX : cleanNode X [c] [clean c] = clean c) (h : SF (n + 1) c ts) : SF n (.node X [c]) ts := by
  obtain ⟨f, h1, h2⟩ := h
  exact ⟨f, .up hn h1, h2.skip hX⟩

theorem SF.same {n : Nat} {c : Tree} {X : NT} (hX : cleanNode X [c] [clean c] = clean c) (h : SF n c ts) : SF n (.node X [c]) ts := by
  obtain ⟨f, h1, h2⟩ := h
  exact ⟨f, h1, h2.skip hX⟩

theorem soundAll_leaves : ∀ {ks : List Term} {cs : List Tree} {ts : List Tok}, SoundAll (ks.map Sym.t) cs ts → cs = ts.map .leaf ∧ ts.map Tok.kind = ks
  | [], _, _, h => by cases h; exact ⟨rfl, rfl⟩
  | k :: ks, _, _, h => by
    cases h with
    | cons h1 h2 =>
      obtain ⟨tok, rfl, rfl, hk⟩ := h1
      obtain ⟨e1, e2⟩ := soundAll_leaves h2
      exact ⟨by rw [e1]; rfl, by simp [hk, e2]⟩

theorem sound_op {X : NT} (hX : isOp X = true) (hr : (X, rhs) ∈ rules) (ha : SoundAll rhs cs ts) : OpS X (.node X cs) ts := by
  have hk : ∃ ks : List Term, rhs = ks.map Sym.t := by
    have : ∀ r ∈ rules, isOp r.1 = true → ∃ ks ∈ ([[.U], [.W], [.minus, .minus, .greater], [.minus, .greater], [.less, .minus, .minus, .greater], [.less, .minus, .greater],
        [.plus], [.backslash, .slash], [.bar], [.bar, .bar], [.star], [.slash, .backslash], [.amp], [.amp, .amp], [.caret], [.less, .greater], [.F], [.lpar, .rpar], [.next], [.X],
        [.lbrack, .rbrack], [.G], [.bang], [.tilde]] : List (List Term)), r.2 = ks.map Sym.t := by decide
    obtain ⟨ks, _, h⟩ := this _ hr hX
    exact ⟨ks, h⟩
  obtain ⟨ks, rfl⟩ := hk
  obtain ⟨rfl, rfl⟩ := soundAll_leaves ha
  exact ⟨hX, rfl, by simpa [List.map_map, Function.comp_def] using hr⟩

theorem sound_node {X : NT} (hr : (X, rhs) ∈ rules) (ha : SoundAll rhs cs ts) : Sound (.n X) (.node X cs) ts := by
  cases X
  case Formula =>
    have hr : rhs = [.n .Biimplication, .t .semi] := by simpa [rules] using hr
    subst hr
    obtain ⟨c1, c2, t1, t2, rfl, rfl, ⟨f, h1, u, h2, h3⟩, ⟨e, rfl, rfl, hk⟩⟩ := ha.two
    exact ⟨f, t1, e, u, rfl, hk, h1, by rw [clean, cleanAll, cleanAll, h2]; rfl, h3⟩
  case Biimplication =>
    have hr : rhs = [.n .Implication] ∨ rhs = [.n .Biimplication, .n .BiimplicationOperator, .n .Implication] := by simpa [rules] using hr
    rcases hr with rfl | rfl
    · obtain ⟨c, rfl, h⟩ := ha.one
      exact SF.up (by decide) rfl h
    · obtain ⟨c1, c2, c3, t1, t2, t3, rfl, rfl, ⟨f, i1, h1⟩, h2, ⟨g, i3, h3⟩⟩ := ha.three
      exact ⟨_, .iff i1 (kinds_of (show OpS .BiimplicationOperator c2 t2 from h2) (by decide)) i3, h1.iff h3⟩
  case Implication =>
    have hr : rhs = [.n .Xor] ∨ rhs = [.n .Implication, .n .ImplicationOperator, .n .Xor] := by simpa [rules] using hr
    rcases hr with rfl | rfl
    · obtain ⟨c, rfl, h⟩ := ha.one
      exact SF.up (by decide) rfl h
    · obtain ⟨c1, c2, c3, t1, t2, t3, rfl, rfl, ⟨f, i1, h1⟩, h2, ⟨g, i3, h3⟩⟩ := ha.three
      exact ⟨_, .imp i1 (kinds_of (show OpS .ImplicationOperator c2 t2 from h2) (by decide)) i3, h1.imp h3⟩
  case Xor =>
    have hr : rhs = [.n .Disjunction] ∨ rhs = [.n .Xor, .n .XorOperator, .n .Disjunction] := by simpa [rules] using hr
    rcases hr with rfl | rfl
    · obtain ⟨c, rfl, h⟩ := ha.one
      exact SF.up (by decide) rfl h
    · obtain ⟨c1, c2, c3, t1, t2, t3, rfl, rfl, ⟨f, i1, h1⟩, h2, ⟨g, i3, h3⟩⟩ := ha.three
      exact ⟨_, .xor i1 (List.mem_singleton.mp (kinds_of (show OpS .XorOperator c2 t2 from h2) (l := [[.caret]]) (by decide))) i3, h1.xor h3⟩
  case Disjunction =>
    have hr : rhs = [.n .Conjunction] ∨ rhs = [.n .Disjunction, .n .DisjunctionOperator, .n .Conjunction] := by simpa [rules] using hr
    rcases hr with rfl | rfl
    · obtain ⟨c, rfl, h⟩ := ha.one
      exact SF.up (by decide) rfl h
    · obtain ⟨c1, c2, c3, t1, t2, t3, rfl, rfl, ⟨f, i1, h1⟩, h2, ⟨g, i3, h3⟩⟩ := ha.three
      exact ⟨_, .or i1 (kinds_of (show OpS .DisjunctionOperator c2 t2 from h2) (by decide)) i3, h1.or h3⟩
  case Conjunction =>
    have hr : rhs = [.n .BinaryTemporalFormula] ∨ rhs = [.n .Conjunction, .n .ConjunctionOperator, .n .BinaryTemporalFormula] := by simpa [rules] using hr
    rcases hr with rfl | rfl
    · obtain ⟨c, rfl, h⟩ := ha.one
      exact SF.up (by decide) rfl h
    · obtain ⟨c1, c2, c3, t1, t2, t3, rfl, rfl, ⟨f, i1, h1⟩, h2, ⟨g, i3, h3⟩⟩ := ha.three
      exact ⟨_, .and i1 (kinds_of (show OpS .ConjunctionOperator c2 t2 from h2) (by decide)) i3, h1.and h3⟩
  case BinaryTemporalFormula =>
    have hr : rhs = [.n .UnaryFormula] ∨ rhs = [.n .BinaryTemporalFormula, .n .BinaryTemporalOperator, .n .UnaryFormula] := by simpa [rules] using hr
    rcases hr with rfl | rfl
    · obtain ⟨c, rfl, h⟩ := ha.one
      exact SF.up (by decide) rfl h
    · obtain ⟨c1, c2, c3, t1, t2, t3, rfl, rfl, ⟨f, i1, u1, e1, h1⟩, ⟨Y, d, hY, rfl, h2⟩, ⟨g, i3, u3, e3, h3⟩⟩ := ha.three
      obtain ⟨v, hv, hf⟩ := Stands.binary h2 e1 e3
      simp only [List.mem_cons, List.not_mem_nil, or_false] at hY
      rcases hY with rfl | rfl
      · exact ⟨_, .strongUntil i1 (List.mem_singleton.mp (kinds_of h2 (l := [[.U]]) (by decide))) i3, v, hv, _, _, _, hf, h1, h3⟩
      · exact ⟨_, .weakUntil i1 (List.mem_singleton.mp (kinds_of h2 (l := [[.W]]) (by decide))) i3, v, hv, _, _, _, hf, h1, h3⟩
  case UnaryFormula =>
    have hr : rhs = [.n .AtomicFormula] ∨ rhs = [.n .UnaryTemporalOperator, .n .UnaryFormula] := by simpa [rules] using hr
    rcases hr with rfl | rfl
    · obtain ⟨c, rfl, h⟩ := ha.one
      exact SF.up (by decide) rfl h
    · obtain ⟨c1, c2, t1, t2, rfl, rfl, ⟨Y, d, hY, rfl, h1⟩, ⟨f, i2, u, e2, h2⟩⟩ := ha.two
      obtain ⟨v, hv, hf⟩ := Stands.unary h1 e2
      simp only [List.mem_cons, List.not_mem_nil, or_false] at hY
      rcases hY with rfl | rfl | rfl | rfl
      · exact ⟨_, .eventually (kinds_of h1 (by decide)) i2, v, hv, _, _, hf, h2⟩
      · exact ⟨_, .next (kinds_of h1 (by decide)) i2, v, hv, _, _, hf, h2⟩
      · exact ⟨_, .globally (kinds_of h1 (by decide)) i2, v, hv, _, _, hf, h2⟩
      · exact ⟨_, .not (kinds_of h1 (by decide)) i2, v, hv, _, _, hf, h2⟩
  case AtomicFormula =>
    have hr : rhs = [.t .FALSE] ∨ rhs = [.t .TRUE] ∨ rhs = [.n .Brackets] ∨ rhs = [.n .Assignment] := by simpa [rules] using hr
    rcases hr with rfl | rfl | rfl | rfl
    · obtain ⟨c, rfl, tok, rfl, rfl, hk⟩ := ha.one
      exact ⟨_, .ff hk, _, rfl, tok, rfl, hk⟩
    · obtain ⟨c, rfl, tok, rfl, rfl, hk⟩ := ha.one
      exact ⟨_, .tt hk, _, rfl, tok, rfl, hk⟩
    · obtain ⟨c, rfl, h⟩ := ha.one
      exact SF.same rfl h
    · obtain ⟨c, rfl, h⟩ := ha.one
      exact SF.same rfl h
  case Brackets =>
    have hr : rhs = [.t .lpar, .n .Biimplication, .t .rpar] ∨ rhs = [.t .lbrack, .n .Biimplication, .t .rbrack] := by simpa [rules] using hr
    rcases hr with rfl | rfl
    · obtain ⟨c1, c2, c3, t1, t2, t3, rfl, rfl, ⟨l, rfl, rfl, k1⟩, ⟨f, i2, h2⟩, ⟨r, rfl, rfl, k3⟩⟩ := ha.three
      exact ⟨f, .brackets (.inl ⟨k1, k3⟩) i2, h2.brackets⟩
    · obtain ⟨c1, c2, c3, t1, t2, t3, rfl, rfl, ⟨l, rfl, rfl, k1⟩, ⟨f, i2, h2⟩, ⟨r, rfl, rfl, k3⟩⟩ := ha.three
      exact ⟨f, .brackets (.inr ⟨k1, k3⟩) i2, h2.brackets⟩
  case Assignment =>
    have hr : rhs = [.t .id] ∨ rhs = [.t .id, .t .equal, .t .zero] ∨ rhs = [.t .id, .t .equal, .t .one] := by simpa [rules] using hr
    rcases hr with rfl | rfl | rfl
    · obtain ⟨c, rfl, tok, rfl, rfl, hk⟩ := ha.one
      exact ⟨_, .name hk, _, rfl, tok, [], rfl, rfl, .inl ⟨rfl, rfl⟩⟩
    · obtain ⟨c1, c2, c3, t1, t2, t3, rfl, rfl, ⟨l, rfl, rfl, k1⟩, ⟨m, rfl, rfl, k2⟩, ⟨r, rfl, rfl, k3⟩⟩ := ha.three
      exact ⟨_, .isZero k1 k2 k3, _, rfl, l, _, rfl, rfl, .inr ⟨_, r, rfl, .inl ⟨rfl, k3⟩⟩⟩
    · obtain ⟨c1, c2, c3, t1, t2, t3, rfl, rfl, ⟨l, rfl, rfl, k1⟩, ⟨m, rfl, rfl, k2⟩, ⟨r, rfl, rfl, k3⟩⟩ := ha.three
      exact ⟨_, .isOne k1 k2 k3, _, rfl, l, _, rfl, rfl, .inr ⟨_, r, rfl, .inr ⟨rfl, k3⟩⟩⟩
  case UnaryTemporalOperator =>
    have hr : rhs = [.n .FinallyOperator] ∨ rhs = [.n .NextOperator] ∨ rhs = [.n .GloballyOperator] ∨ rhs = [.n .NotOperator] := by simpa [rules] using hr
    rcases hr with rfl | rfl | rfl | rfl <;> (obtain ⟨c, rfl, h⟩ := ha.one; exact ⟨_, c, by decide, rfl, h⟩)
  case BinaryTemporalOperator =>
    have hr : rhs = [.n .UntilOperator] ∨ rhs = [.n .WeakUntilOperator] := by simpa [rules] using hr
    rcases hr with rfl | rfl <;> (obtain ⟨c, rfl, h⟩ := ha.one; exact ⟨_, c, by decide, rfl, h⟩)
  all_goals exact sound_op rfl hr ha

theorem derives_sound {s : Sym} {c : Tree} (h : Derives s c ts) : Sound s c ts := by
  refine Derives.rec (motive_1 := fun s c ts _ => Sound s c ts) (motive_2 := fun ss cs ts _ => SoundAll ss cs ts) ?_ ?_ ?_ ?_ h
  · exact fun {t} => ⟨t, rfl, rfl, rfl⟩
  · exact fun {X rhs cs ts} hr _ ih => sound_node hr ih
  · exact .nil
  · exact fun {s ss c cs ts us} _ _ i1 i2 => .cons i1 i2

/-! ### Completeness -/

theorem derives_one {X : NT} {s : Sym} {c : Tree} (hr : (X, [s]) ∈ rules) (h : Derives s c ts) : Derives (.n X) (.node X [c]) ts := by
  have := DerivesAll.cons h .nil
  rw [List.append_nil] at this
  exact .node hr this

theorem derives_two {X : NT} {s1 s2 : Sym} {c1 c2 : Tree} {t1 t2 : List Tok} (hr : (X, [s1, s2]) ∈ rules) (h1 : Derives s1 c1 t1)
    (h2 : Derives s2 c2 t2) : Derives (.n X) (.node X [c1, c2]) (t1 ++ t2) := by
  have := DerivesAll.cons h1 (.cons h2 .nil)
  rw [List.append_nil] at this
  exact .node hr this

theorem derives_three {X : NT} {s1 s2 s3 : Sym} {c1 c2 c3 : Tree} {t1 t2 t3 : List Tok} (hr : (X, [s1, s2, s3]) ∈ rules) (h1 : Derives s1 c1 t1)
    (h2 : Derives s2 c2 t2) (h3 : Derives s3 c3 t3) : Derives (.n X) (.node X [c1, c2, c3]) (t1 ++ t2 ++ t3) := by
  have := DerivesAll.cons h1 (.cons h2 (.cons h3 .nil))
  rw [List.append_nil, ← List.append_assoc] at this
  exact .node hr this

theorem derivesAll_leaves (ts : List Tok) : DerivesAll (ts.map fun t => Sym.t t.kind) (ts.map .leaf) ts := by
  induction ts with
  | nil => exact .nil
  | cons t ts ih => exact .cons (ts := [t]) .leaf ih

/-- An operator. -/
theorem derives_op {X : NT} {ks : List (List Term)} (hX : isOp X = true) (hr : ∀ k ∈ ks, (X, k.map Sym.t) ∈ rules) (hk : ts.map Tok.kind ∈ ks) :
    ∃ c, Derives (.n X) c ts ∧ OpS X c ts := by
  have h := hr _ hk
  rw [List.map_map] at h
  exact ⟨_, .node h (derivesAll_leaves ts), hX, rfl, h⟩

/-- The syntactic categories of the levels. -/
def category : Nat → NT
  | 0 => .Biimplication
  | 1 => .Implication
  | 2 => .Xor
  | 3 => .Disjunction
  | 4 => .Conjunction
  | 5 => .BinaryTemporalFormula
  | 6 => .UnaryFormula
  | _ => .AtomicFormula

/-- There is a tree for the formula. -/
def CF (X : NT) (ts : List Tok) (f : Ltl) : Prop := ∃ c, Derives (.n X) c ts ∧ Stands c f

theorem CF.skip {X Y : NT} {f : Ltl} (h : CF X ts f) (hr : (Y, [.n X]) ∈ rules) (hY : ∀ c, cleanNode Y [c] [clean c] = clean c) : CF Y ts f := by
  obtain ⟨c, h1, h2⟩ := h
  exact ⟨_, derives_one hr h1, h2.skip (hY c)⟩

theorem complete_infix {n : Nat} {f : Ltl} (h : Infix n ts f) : CF (category n) ts f := by
  induction h with
  | @up n ts f hn _ ih =>
    match n, hn with
    | 0, _ => exact ih.skip (by decide) fun _ => rfl
    | 1, _ => exact ih.skip (by decide) fun _ => rfl
    | 2, _ => exact ih.skip (by decide) fun _ => rfl
    | 3, _ => exact ih.skip (by decide) fun _ => rfl
    | 4, _ => exact ih.skip (by decide) fun _ => rfl
    | 5, _ => exact ih.skip (by decide) fun _ => rfl
    | 6, _ => exact ih.skip (by decide) fun _ => rfl
  | iff _ hop _ i1 i2 =>
    obtain ⟨c1, d1, s1⟩ := i1
    obtain ⟨c3, d3, s3⟩ := i2
    obtain ⟨c2, d2, _⟩ := derives_op (X := .BiimplicationOperator) rfl (by decide) hop
    exact ⟨_, derives_three (by decide) d1 d2 d3, s1.iff s3⟩
  | imp _ hop _ i1 i2 =>
    obtain ⟨c1, d1, s1⟩ := i1
    obtain ⟨c3, d3, s3⟩ := i2
    obtain ⟨c2, d2, _⟩ := derives_op (X := .ImplicationOperator) rfl (by decide) hop
    exact ⟨_, derives_three (by decide) d1 d2 d3, s1.imp s3⟩
  | xor _ hop _ i1 i2 =>
    obtain ⟨c1, d1, s1⟩ := i1
    obtain ⟨c3, d3, s3⟩ := i2
    obtain ⟨c2, d2, _⟩ := derives_op (X := .XorOperator) rfl (ks := [[.caret]]) (by decide) (List.mem_singleton.mpr hop)
    exact ⟨_, derives_three (by decide) d1 d2 d3, s1.xor s3⟩
  | or _ hop _ i1 i2 =>
    obtain ⟨c1, d1, s1⟩ := i1
    obtain ⟨c3, d3, s3⟩ := i2
    obtain ⟨c2, d2, _⟩ := derives_op (X := .DisjunctionOperator) rfl (by decide) hop
    exact ⟨_, derives_three (by decide) d1 d2 d3, s1.or s3⟩
  | and _ hop _ i1 i2 =>
    obtain ⟨c1, d1, s1⟩ := i1
    obtain ⟨c3, d3, s3⟩ := i2
    obtain ⟨c2, d2, _⟩ := derives_op (X := .ConjunctionOperator) rfl (by decide) hop
    exact ⟨_, derives_three (by decide) d1 d2 d3, s1.and s3⟩
  | strongUntil _ hop _ i1 i2 =>
    obtain ⟨c1, d1, u1, e1, s1⟩ := i1
    obtain ⟨c3, d3, u3, e3, s3⟩ := i2
    obtain ⟨c2, d2, o2⟩ := derives_op (X := .UntilOperator) rfl (ks := [[.U]]) (by decide) (List.mem_singleton.mpr hop)
    obtain ⟨v, hv, hf⟩ := Stands.binary o2 e1 e3
    exact ⟨_, derives_three (by decide) d1 (derives_one (X := .BinaryTemporalOperator) (by decide) d2) d3, v, hv, _, _, _, hf, s1, s3⟩
  | weakUntil _ hop _ i1 i2 =>
    obtain ⟨c1, d1, u1, e1, s1⟩ := i1
    obtain ⟨c3, d3, u3, e3, s3⟩ := i2
    obtain ⟨c2, d2, o2⟩ := derives_op (X := .WeakUntilOperator) rfl (ks := [[.W]]) (by decide) (List.mem_singleton.mpr hop)
    obtain ⟨v, hv, hf⟩ := Stands.binary o2 e1 e3
    exact ⟨_, derives_three (by decide) d1 (derives_one (X := .BinaryTemporalOperator) (by decide) d2) d3, v, hv, _, _, _, hf, s1, s3⟩
  | not hop _ ih =>
    obtain ⟨c, d, u, e, s⟩ := ih
    obtain ⟨c2, d2, o2⟩ := derives_op (X := .NotOperator) rfl (by decide) hop
    obtain ⟨v, hv, hf⟩ := Stands.unary o2 e
    exact ⟨_, derives_two (by decide) (derives_one (X := .UnaryTemporalOperator) (by decide) d2) d, v, hv, _, _, hf, s⟩
  | next hop _ ih =>
    obtain ⟨c, d, u, e, s⟩ := ih
    obtain ⟨c2, d2, o2⟩ := derives_op (X := .NextOperator) rfl (by decide) hop
    obtain ⟨v, hv, hf⟩ := Stands.unary o2 e
    exact ⟨_, derives_two (by decide) (derives_one (X := .UnaryTemporalOperator) (by decide) d2) d, v, hv, _, _, hf, s⟩
  | eventually hop _ ih =>
    obtain ⟨c, d, u, e, s⟩ := ih
    obtain ⟨c2, d2, o2⟩ := derives_op (X := .FinallyOperator) rfl (by decide) hop
    obtain ⟨v, hv, hf⟩ := Stands.unary o2 e
    exact ⟨_, derives_two (by decide) (derives_one (X := .UnaryTemporalOperator) (by decide) d2) d, v, hv, _, _, hf, s⟩
  | globally hop _ ih =>
    obtain ⟨c, d, u, e, s⟩ := ih
    obtain ⟨c2, d2, o2⟩ := derives_op (X := .GloballyOperator) rfl (by decide) hop
    obtain ⟨v, hv, hf⟩ := Stands.unary o2 e
    exact ⟨_, derives_two (by decide) (derives_one (X := .UnaryTemporalOperator) (by decide) d2) d, v, hv, _, _, hf, s⟩
  | @tt t hk => exact ⟨_, derives_one (by decide) (hk ▸ (.leaf : Derives (.t t.kind) (.leaf t) [t])), _, rfl, t, rfl, hk⟩
  | @ff t hk => exact ⟨_, derives_one (by decide) (hk ▸ (.leaf : Derives (.t t.kind) (.leaf t) [t])), _, rfl, t, rfl, hk⟩
  | @name t hk =>
    have d := derives_one (X := .Assignment) (by decide) (hk ▸ (.leaf : Derives (.t t.kind) (.leaf t) [t]))
    exact ⟨_, derives_one (X := .AtomicFormula) (by decide) d, _, rfl, t, [], rfl, rfl, .inl ⟨rfl, rfl⟩⟩
  | @isZero t e v h1 h2 h3 =>
    have d := derives_three (X := .Assignment) (by decide) (h1 ▸ (.leaf : Derives (.t t.kind) (.leaf t) [t])) (h2 ▸ (.leaf : Derives (.t e.kind) (.leaf e) [e]))
      (h3 ▸ (.leaf : Derives (.t v.kind) (.leaf v) [v]))
    exact ⟨_, derives_one (X := .AtomicFormula) (by decide) d, _, rfl, t, _, rfl, rfl, .inr ⟨_, v, rfl, .inl ⟨rfl, h3⟩⟩⟩
  | @isOne t e v h1 h2 h3 =>
    have d := derives_three (X := .Assignment) (by decide) (h1 ▸ (.leaf : Derives (.t t.kind) (.leaf t) [t])) (h2 ▸ (.leaf : Derives (.t e.kind) (.leaf e) [e]))
      (h3 ▸ (.leaf : Derives (.t v.kind) (.leaf v) [v]))
    exact ⟨_, derives_one (X := .AtomicFormula) (by decide) d, _, rfl, t, _, rfl, rfl, .inr ⟨_, v, rfl, .inr ⟨rfl, h3⟩⟩⟩
  | @brackets l r ts f hk _ ih =>
    obtain ⟨c, d, s⟩ := ih
    have key : Derives (.n .Brackets) (.node .Brackets [.leaf l, c, .leaf r]) ([l] ++ ts ++ [r]) := by
      rcases hk with ⟨k1, k2⟩ | ⟨k1, k2⟩ <;>
        exact derives_three (by decide) (k1 ▸ (.leaf : Derives (.t l.kind) (.leaf l) [l])) d (k2 ▸ (.leaf : Derives (.t r.kind) (.leaf r) [r]))
    exact ⟨_, derives_one (X := .AtomicFormula) (by decide) key, s.brackets.skip rfl⟩

/-! ### Formulas -/

/-- The tree of a formula that is followed by a semicolon. -/
def FormulaTree (f : Ltl) (T : Tree) : Prop := ∃ V e, T = .node .Formula [V, .leaf e] ∧ Reps f V

theorem parseLTL_complete {text : List Char} {f : Ltl} (h : IsFormula text f) : ∃ T, parseLTL text = some T ∧ FormulaTree f T := by
  obtain ⟨ts, e, h1, h2, h3, h4⟩ := h
  have hp : PlainNames (ts ++ [e]) := by
    intro t ht hk
    rcases List.mem_append.mp ht with ht | ht
    · exact h2 t ht hk
    · rw [List.mem_singleton.mp ht, h4] at hk; cases hk
  obtain ⟨c, d, u, s1, s2⟩ := complete_infix h3
  have hd := derives_two (X := .Formula) (by decide) d (h4 ▸ (.leaf : Derives (.t e.kind) (.leaf e) [e]))
  have hc : clean (.node .Formula [c, .leaf e]) = some (.node .Formula [u, .leaf e]) := by rw [clean, cleanAll, cleanAll, s1]; rfl
  refine ⟨flatten (.node .Formula [u, .leaf e]), ?_, flatten u, e, rfl, s2⟩
  rw [parseLTL, lexes_tokenize h1 hp, parse_complete hd]
  simp only [hc, Option.map_some]

theorem parseLTL_sound {text : List Char} {ts : List Tok} (hl : Lexes text ts) (hp : PlainNames ts) {T : Tree} (h : parseLTL text = some T) :
    ∃ f, IsFormula text f ∧ FormulaTree f T := by
  rw [parseLTL, lexes_tokenize hl hp] at h
  cases hk : parse ts with
  | tree t =>
    rw [hk] at h
    obtain ⟨f, us, e, u, rfl, h1, h2, h3, h4⟩ := derives_sound (parse_sound (lexes_kind hl) hk)
    simp only [h3, Option.map_some, Option.some.injEq] at h
    exact ⟨f, ⟨us, e, hl, fun t ht => hp t (by simp [ht]), h2, h1⟩, flatten u, e, h.symm, h4⟩
  | _ => rw [hk] at h; cases h

end Slugs.Model.LtlText
