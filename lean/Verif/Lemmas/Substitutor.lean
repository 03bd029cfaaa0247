import Verif.Model.Substitutor
import Verif.Spec.Substitution
import Verif.Lemmas.StructuredSound

/-!
What the tool that replaces integer variables prints has the meaning of the line it has read.
-/

namespace Slugs.Model.Substitutor

open Slugs.Spec (Word isDigit digitsVal)
open Slugs.Spec.Structured
open Slugs.Model.Structured

/-! ### Symbols -/

theorem substWord_token (bools : List Word) (w : Word) (h : (nameTok bools w).kind ≠ .LSB) :
    (if w ∈ substKeywords then (⟨termOf w, w⟩ : Tok) else if w ∈ bools then ⟨.boolID, w⟩ else ⟨.numID, w⟩) = nameTok bools w := by
  by_cases hl : w = txt!"LEASTSIGNIFICANTBITOVERWRITES"
  · subst hl
    exact absurd rfl h
  · have : (w ∈ substKeywords) ↔ w ∈ Structured.keywords := by
      simp only [substKeywords, Structured.keywords, List.mem_cons, List.not_mem_nil, or_false]
      tauto
    rw [← word_token]
    simp only [this]

theorem lexes_substTokenizeAux {bools : List Word} {s : List Char} {ts : List Tok} (h : Lexes bools s ts) (hl : ∀ t ∈ ts, t.kind ≠ .LSB) :
    ∀ n, s.length ≤ n → substTokenizeAux bools n s = ts := by
  induction h with
  | nil => intro n _; cases n <;> rfl
  | @space c cs ts hc _ ih =>
    intro n hn
    obtain ⟨n, rfl⟩ : ∃ m, n = m + 1 := ⟨n - 1, by simp at hn; omega⟩
    rw [substTokenizeAux.eq_def]
    dsimp only
    rw [if_pos (by rw [isspace_eq]; exact hc)]
    exact ih hl n (by simpa using hn)
  | @name c w rest ts hc hw hr _ ih =>
    intro n hn
    obtain ⟨n, rfl⟩ : ∃ m, n = m + 1 := ⟨n - 1, by simp at hn; omega⟩
    have hc' : wordStart c = true := hc
    obtain ⟨e1, e2⟩ := takeWhile_exact (p := wordChar) (w := c :: w) (rest := rest)
      (by
        intro d hd
        rcases List.mem_cons.mp hd with rfl | hd
        · exact wordStart_char hc'
        · rw [wordChar_eq]; exact hw d hd)
      (fun d hd => by rw [wordChar_eq]; exact hr d hd)
    rw [List.cons_append] at e1 e2 hn ⊢
    rw [substTokenizeAux.eq_def]
    dsimp only
    rw [if_neg (by rw [name_not_space hc]; simp), if_pos hc', takeWhile_more (fun _ => wordStart_char), dropWhile_more (fun _ => wordStart_char),
      e1, e2, ih (fun t ht => hl t (by simp [ht])) n (by simp at hn; omega), substWord_token _ _ (hl _ (by simp))]
  | @number w rest ts hw hd hr _ ih =>
    intro n hn
    obtain ⟨c, w, rfl⟩ := List.exists_cons_of_ne_nil hw
    obtain ⟨n, rfl⟩ : ∃ m, n = m + 1 := ⟨n - 1, by simp at hn; omega⟩
    have hc := hd c (by simp)
    obtain ⟨e1, e2⟩ := takeWhile_exact (p := digitChar) (w := c :: w) (rest := rest) hd hr
    rw [List.cons_append] at e1 e2 hn ⊢
    rw [substTokenizeAux.eq_def]
    dsimp only
    rw [if_neg (by rw [digit_not_space hc]; simp), if_neg (by rw [wordStart_eq, digit_not_name hc]; simp), if_pos (by rw [digitChar_eq]; exact hc),
      e1, e2, ih (fun t ht => hl t (by simp [ht])) n (by simp at hn; omega)]
  | @char c cs ts h1 h2 h3 _ ih =>
    intro n hn
    obtain ⟨n, rfl⟩ : ∃ m, n = m + 1 := ⟨n - 1, by simp at hn; omega⟩
    rw [substTokenizeAux.eq_def]
    dsimp only
    rw [if_neg (by rw [isspace_eq, h1]; simp), if_neg (by rw [wordStart_eq, h2]; simp), if_neg (by rw [digitChar_eq, h3]; simp), char_token h2,
      ih (fun t ht => hl t (by simp [ht])) n (by simpa using hn)]

/-- Texts that are joined where no name or number goes on. -/
theorem lexes_append {bools : List Word} {xs ys : List Char} {ts us : List Tok} {c : Char} (h : Lexes bools xs ts) (hc : nameChar c = false)
    (h' : Lexes bools (c :: ys) us) : Lexes bools (xs ++ c :: ys) (ts ++ us) := by
  have hd : isDigit c = false := by
    rw [nameChar, Bool.or_eq_false_iff] at hc
    exact hc.2
  have head : ∀ (p : Char → Bool) (rest : List Char), p c = false → (∀ d, rest.head? = some d → p d = false) →
      ∀ d, (rest ++ c :: ys).head? = some d → p d = false := by
    intro p rest h1 h2 d hd
    cases rest with
    | nil => cases hd; exact h1
    | cons e rest => exact h2 d hd
  induction h with
  | nil => exact h'
  | space h1 _ ih => exact .space h1 ih
  | @name c' w rest ts h1 h2 h3 _ ih =>
    have := Lexes.name (bools := bools) (c := c') (w := w) (rest := rest ++ c :: ys) h1 h2 (head _ _ hc h3) ih
    rw [List.append_assoc]
    exact this
  | @number w rest ts h1 h2 h3 _ ih =>
    have := Lexes.number (bools := bools) (w := w) (rest := rest ++ c :: ys) h1 h2 (head _ _ hd h3) ih
    rw [List.append_assoc]
    exact this
  | char h1 h2 h3 _ ih => exact .char h1 h2 h3 ih

/-- A character that is a symbol. -/
theorem lexes_char {bools : List Word} {c : Char} {xs : List Char} {ts : List Tok} (hc : (pySpace c || nameStart c || isDigit c) = false) (h : Lexes bools xs ts) :
    Lexes bools (c :: xs) (charTok c :: ts) := by
  simp only [Bool.or_eq_false_iff] at hc
  exact .char hc.1.1 hc.1.2 hc.2 h

theorem lexes_brackets {bools : List Word} {xs ys : List Char} {ts us : List Tok} (h : Lexes bools xs ts) (h' : Lexes bools ys us) :
    Lexes bools ('(' :: xs ++ ')' :: ys) (⟨.lpar, txt!"("⟩ :: ts ++ ⟨.rpar, txt!")"⟩ :: us) := by
  have := lexes_char (c := '(') (by decide) (lexes_append h (by decide) (lexes_char (c := ')') (by decide) h'))
  exact this

/-! ### Numbers and formulas without `LEASTSIGNIFICANTBITOVERWRITES` -/

theorem no_lsb_kinds {op : List Tok} {l : List Term} (h : op.map Tok.kind = l) (hl : Term.LSB ∉ l) : ∀ t ∈ op, t.kind ≠ .LSB := by
  intro t ht e
  refine hl ?_
  rw [← h, ← e]
  exact List.mem_map_of_mem ht

theorem no_lsb_append {l1 l2 : List Tok} (h1 : ∀ t ∈ l1, t.kind ≠ .LSB) (h2 : ∀ t ∈ l2, t.kind ≠ .LSB) : ∀ t ∈ l1 ++ l2, t.kind ≠ .LSB := by
  intro t ht
  rcases List.mem_append.mp ht with ht | ht
  · exact h1 t ht
  · exact h2 t ht

theorem no_lsb_cons {l : List Tok} {t : Tok} (h1 : t.kind ≠ .LSB) (h2 : ∀ t ∈ l, t.kind ≠ .LSB) : ∀ u ∈ t :: l, u.kind ≠ .LSB := by
  intro u hu
  rcases List.mem_cons.mp hu with rfl | hu
  · exact h1
  · exact h2 u hu

theorem no_lsb_nil : ∀ u ∈ ([] : List Tok), u.kind ≠ .LSB := by simp

theorem no_lsb_sum {ts : List Tok} {a : NExp} (h : InfixSum ts a) (hp : a.Plain) : ∀ t ∈ ts, t.kind ≠ .LSB := by
  revert hp
  refine InfixSum.rec (motive_1 := fun ts a _ => a.Plain → ∀ t ∈ ts, t.kind ≠ .LSB) (motive_2 := fun ts a _ => a.Plain → ∀ t ∈ ts, t.kind ≠ .LSB)
    (motive_3 := fun ts a _ => a.Plain → ∀ t ∈ ts, t.kind ≠ .LSB) ?_ ?_ ?_ ?_ ?_ ?_ ?_ h
  · exact fun _ ih => ih
  · exact fun _ ho _ i1 i2 hp => no_lsb_append (i1 hp.1) (no_lsb_cons (by rw [ho]; decide) (i2 hp.2))
  · exact fun _ ih => ih
  · exact fun _ _ _ _ _ hp => hp.elim
  · exact fun hk _ => no_lsb_cons (by rw [hk]; decide) no_lsb_nil
  · exact fun hk _ => no_lsb_cons (by rw [hk]; decide) no_lsb_nil
  · exact fun k1 _ k2 ih hp => no_lsb_append (no_lsb_cons (by rw [k1]; decide) (ih hp)) (no_lsb_cons (by rw [k2]; decide) no_lsb_nil)

theorem no_lsb_infix {n : Nat} {ts : List Tok} {g : SFml} (h : Infix n ts g) (hp : g.Plain) : ∀ t ∈ ts, t.kind ≠ .LSB := by
  induction h with
  | up _ _ ih => exact ih hp
  | iff _ ho _ i1 i2 =>
    refine no_lsb_append (no_lsb_append (i1 hp.1) ?_) (i2 hp.2)
    rcases ho with ho | ho <;> exact no_lsb_kinds ho (by decide)
  | imp _ ho _ i1 i2 =>
    refine no_lsb_append (no_lsb_append (i1 hp.1) ?_) (i2 hp.2)
    rcases ho with ho | ho <;> exact no_lsb_kinds ho (by decide)
  | or _ ho _ i1 i2 =>
    refine no_lsb_append (no_lsb_append (i1 hp.1) ?_) (i2 hp.2)
    rcases ho with ho | ho | ho <;> exact no_lsb_kinds ho (by decide)
  | and _ ho _ i1 i2 =>
    refine no_lsb_append (no_lsb_append (i1 hp.1) ?_) (i2 hp.2)
    rcases ho with ho | ho | ho <;> exact no_lsb_kinds ho (by decide)
  | not ho _ ih =>
    refine no_lsb_cons ?_ (ih hp)
    rcases ho with ho | ho <;> rw [ho] <;> decide
  | next ho _ ih =>
    refine no_lsb_append ?_ (ih hp)
    rcases ho with ho | ho | ho <;> exact no_lsb_kinds ho (by decide)
  | tt hk => exact no_lsb_cons (by rw [hk]; decide) no_lsb_nil
  | ff hk => exact no_lsb_cons (by rw [hk]; decide) no_lsb_nil
  | atom hk => exact no_lsb_cons (by rw [hk]; decide) no_lsb_nil
  | cmp o ha ho hb => exact no_lsb_append (no_lsb_append (no_lsb_sum ha hp.1) (no_lsb_kinds ho (by cases o <;> decide))) (no_lsb_sum hb hp.2)
  | brackets hk _ ih =>
    refine no_lsb_append (no_lsb_cons ?_ (ih hp)) (no_lsb_cons ?_ no_lsb_nil)
    · rcases hk with ⟨k, _⟩ | ⟨k, _⟩ <;> rw [k] <;> decide
    · rcases hk with ⟨_, k⟩ | ⟨_, k⟩ <;> rw [k] <;> decide

/-! ### The trees of formulas -/

/-- What names and numbers look like. -/
structure Shaped (bools : List Word) (t : Tok) : Prop where
  name : t.kind = .boolID ∨ t.kind = .numID → ∃ c w, nameStart c = true ∧ (∀ d ∈ w, nameChar d = true) ∧ t = nameTok bools (c :: w)
  numeral : t.kind = .numeral → t = ⟨.numeral, t.text⟩ ∧ t.text ≠ [] ∧ ∀ d ∈ t.text, isDigit d = true

theorem lexes_shaped {bools : List Word} {s : List Char} {ts : List Tok} (h : Lexes bools s ts) : ∀ t ∈ ts, Shaped bools t := by
  induction h with
  | nil => intro t ht; cases ht
  | space _ _ ih => exact ih
  | @name c w rest ts hc hw hr _ ih =>
    intro t ht
    rcases List.mem_cons.mp ht with rfl | ht
    · exact ⟨fun _ => ⟨c, w, hc, hw, rfl⟩, fun h => absurd h (nameTok_kind _ _).2⟩
    · exact ih t ht
  | @number w rest ts hw hd hr _ ih =>
    intro t ht
    rcases List.mem_cons.mp ht with rfl | ht
    · exact ⟨fun h => (by rcases h with h | h <;> cases h), fun _ => ⟨rfl, hw, hd⟩⟩
    · exact ih t ht
  | @char c cs ts h1 h2 h3 _ ih =>
    intro t ht
    rcases List.mem_cons.mp ht with rfl | ht
    · obtain ⟨k1, k2, k3, k4⟩ := charTok_kind c
      exact ⟨fun h => (by rcases h with h | h; exact absurd h k3; exact absurd h k4), fun h => absurd h k2⟩
    · exact ih t ht

/-- Names and numbers are found again. -/
theorem Shaped.lexes {bools : List Word} {t : Tok} (h : Shaped bools t) (hk : t.kind = .boolID ∨ t.kind = .numID ∨ t.kind = .numeral) :
    Lexes bools t.text [t] := by
  have key : t.kind = .boolID ∨ t.kind = .numID → Lexes bools t.text [t] := by
    intro hk
    obtain ⟨c, w, h1, h2, h3⟩ := h.name hk
    have := Lexes.name (bools := bools) (c := c) (w := w) (rest := []) h1 h2 (fun d hd => by cases hd) .nil
    rw [List.append_nil] at this
    rw [h3, nameTok_text]
    exact this
  rcases hk with hk | hk | hk
  · exact key (.inl hk)
  · exact key (.inr hk)
  · obtain ⟨h1, h2, h3⟩ := h.numeral hk
    have := Lexes.number (bools := bools) (w := t.text) (rest := []) h2 h3 (fun d hd => by cases hd) .nil
    rw [List.append_nil, ← h1] at this
    exact this

inductive NumTree (bools : List Word) : Tree → NExp → Prop
  | var {t : Tok} : Shaped bools t → t.kind = .numID → NumTree bools (.leaf t) (.var t.text)
  | num {t : Tok} : Shaped bools t → t.kind = .numeral → NumTree bools (.leaf t) (.num (digitsVal t.text))
  | single {T a} : NumTree bools T a → NumTree bools (.node .LeastSignificantBitOverwriteExpression [T]) a
  | add {T1 T2 a b cs} : NumTree bools T1 a → NumTree bools T2 b → NumTree bools (.node .NumberExpression [T1, .node .AdditionOperator cs, T2]) (.add a b)
  | brackets {T a l r} : l.kind = .lpar → NumTree bools T a → NumTree bools (.node .NumberBrackets [.leaf l, T, .leaf r]) a

/-- The name of the operator. -/
def cmpCat : Cmp → NT
  | .gt => .GreaterOperator
  | .ge => .GreaterEqualOperator
  | .lt => .SmallerOperator
  | .le => .SmallerEqualOperator
  | .eq => .EqualOperator
  | .ne => .UnequalOperator

inductive FmlTree (bools : List Word) : Tree → SFml → Prop
  | tt {t : Tok} : t.kind = .TRUE → FmlTree bools (.leaf t) .tt
  | ff {t : Tok} : t.kind = .FALSE → FmlTree bools (.leaf t) .ff
  | atom {t : Tok} : Shaped bools t → t.kind = .boolID → FmlTree bools (.node .Assignment [.leaf t]) (.atom t.text)
  | cmp {T1 T2 a b cs} (o : Cmp) : NumTree bools T1 a → NumTree bools T2 b →
      FmlTree bools (.node .CalculationSubformula [T1, .node .NumberComparisonOperator [.node (cmpCat o) cs], T2]) (.cmp o a b)
  | not {T f cs} : FmlTree bools T f → FmlTree bools (.node .UnaryFormula [.node .NotOperator cs, T]) (.not f)
  | next {T f cs} : FmlTree bools T f → FmlTree bools (.node .UnaryFormula [.node .NextOperator cs, T]) (.next f)
  | and {T1 T2 f g} : FmlTree bools T1 f → FmlTree bools T2 g → FmlTree bools (.node .Conjunction (splice .Conjunction [T1, T2])) (.and f g)
  | or {T1 T2 f g} : FmlTree bools T1 f → FmlTree bools T2 g → FmlTree bools (.node .Disjunction (splice .Disjunction [T1, T2])) (.or f g)
  | imp {T1 T2 f g} : FmlTree bools T1 f → FmlTree bools T2 g → FmlTree bools (.node .Implication [T1, T2]) (.imp f g)
  | iff {T1 T2 f g} : FmlTree bools T1 f → FmlTree bools T2 g → FmlTree bools (.node .Biimplication [T1, T2]) (.iff f g)

def CN' (bools : List Word) (X : NT) (ts : List Tok) (a : NExp) : Prop := ∃ c c', Derives (.n X) c ts ∧ clean' c = some c' ∧ NumTree bools (flatten c') a

def CF' (bools : List Word) (X : NT) (ts : List Tok) (g : SFml) : Prop := ∃ c c', Derives (.n X) c ts ∧ clean' c = some c' ∧ FmlTree bools (flatten c') g

theorem CN'.skip {bools : List Word} {X Y : NT} {ts : List Tok} {a : NExp} (h : CN' bools X ts a) (hr : (Y, [.n X]) ∈ rules) (hY : ∀ c, cleanNode' Y [c] [clean' c] = clean' c) :
    CN' bools Y ts a := by
  obtain ⟨c, c', h1, h2, h3⟩ := h
  exact ⟨_, c', derives_one hr h1, by rw [clean', cleanAll', cleanAll', hY, h2], h3⟩

theorem CF'.skip {bools : List Word} {X Y : NT} {ts : List Tok} {a : SFml} (h : CF' bools X ts a) (hr : (Y, [.n X]) ∈ rules) (hY : ∀ c, cleanNode' Y [c] [clean' c] = clean' c) :
    CF' bools Y ts a := by
  obtain ⟨c, c', h1, h2, h3⟩ := h
  exact ⟨_, c', derives_one hr h1, by rw [clean', cleanAll', cleanAll', hY, h2], h3⟩

theorem cleanAll'_leaves (ts : List Tok) : cleanAll' (ts.map .leaf) = ts.map fun t => some (Tree.leaf t) := by
  induction ts with
  | nil => rfl
  | cons t ts ih => rw [List.map_cons, cleanAll', ih]; rfl

theorem clean'_op {X : NT} {c : Tree} {ts : List Tok} (h : OpS X c ts) : clean' c = some c := by
  obtain ⟨h1, rfl, _⟩ := h
  rw [clean', cleanAll'_leaves]
  have : cleanNode' X (ts.map Tree.leaf) (ts.map fun t => some (Tree.leaf t)) = ((ts.map fun t => some (Tree.leaf t)).mapM id).map (.node X) := by
    cases X <;> first | rfl | cases h1
  rw [this, mapM_leaves]
  rfl

theorem clean'_binary {X : NT} {c1 c2 c3 c1' c3' : Tree} (hX : X = .Implication ∨ X = .Conjunction ∨ X = .Biimplication ∨ X = .Disjunction)
    (h1 : clean' c1 = some c1') (h3 : clean' c3 = some c3') : clean' (.node X [c1, c2, c3]) = some (.node X [c1', c3']) := by
  simp only [clean', cleanAll']
  rcases hX with rfl | rfl | rfl | rfl <;> simp [cleanNode', cleanNode, h1, h3]

theorem tree_sum {bools : List Word} {ts : List Tok} {a : NExp} (h : InfixSum ts a) (hs : ∀ t ∈ ts, Shaped bools t) (hp : a.Plain) : CN' bools .NumberExpression ts a := by
  revert hs hp
  refine InfixSum.rec (motive_1 := fun ts a _ => (∀ t ∈ ts, Shaped bools t) → a.Plain → CN' bools .NumberExpression ts a)
    (motive_2 := fun ts a _ => (∀ t ∈ ts, Shaped bools t) → a.Plain → CN' bools .LeastSignificantBitOverwriteExpression ts a)
    (motive_3 := fun ts a _ => (∀ t ∈ ts, Shaped bools t) → a.Plain → CN' bools .AtomicNumberExpression ts a) ?_ ?_ ?_ ?_ ?_ ?_ ?_ h
  · exact fun {ts a} _ ih hs hp => ((ih hs hp).skip (Y := .MultiplicativeNumber) (by decide) fun _ => rfl).skip (by decide) fun _ => rfl
  · intro ts us a b op _ hop _ i1 i2 hs hp
    obtain ⟨c1, c1', h1, h2, h3⟩ := (i1 (fun t ht => hs t (by simp [ht])) hp.1).skip (Y := .MultiplicativeNumber) (by decide) fun _ => rfl
    obtain ⟨c3, c3', k1, k2, k3⟩ := i2 (fun t ht => hs t (by simp [ht])) hp.2
    obtain ⟨o1, o2⟩ := derives_op (X := .AdditionOperator) (ts := [op]) (k := [.plus]) rfl (by decide) (by rw [List.map_cons, hop]; rfl)
    refine ⟨.node .NumberExpression [c1, .node .AdditionOperator ([op].map .leaf), c3],
      .node .NumberExpression [c1', .node .AdditionOperator ([op].map .leaf), c3'], ?_, ?_, .add h3 k3⟩
    · have := derives_three (X := .NumberExpression) (by decide) h1 o1 k1
      rw [List.append_assoc] at this
      exact this
    · rw [clean', cleanAll', cleanAll', cleanAll', h2, clean'_op o2, k2]; rfl
  · intro ts a _ ih hs hp
    obtain ⟨c, c', h1, h2, h3⟩ := ih hs hp
    exact ⟨_, .node .LeastSignificantBitOverwriteExpression [c'], derives_one (by decide) h1, by rw [clean', cleanAll', cleanAll', h2]; rfl, .single h3⟩
  · exact fun _ _ _ _ _ _ hp => hp.elim
  · intro t hk hs _
    have hl : Derives (.t .numID) (.leaf t) [t] := hk ▸ .leaf
    exact ⟨_, .leaf t, derives_one (by decide) hl, rfl, .var (hs t (by simp)) hk⟩
  · intro t hk hs _
    have hl : Derives (.t .numeral) (.leaf t) [t] := hk ▸ .leaf
    exact ⟨_, .leaf t, derives_one (by decide) hl, rfl, .num (hs t (by simp)) hk⟩
  · intro l r ts a k1 _ k3 ih hs hp
    have hl : Derives (.t .lpar) (.leaf l) [l] := k1 ▸ .leaf
    have hr : Derives (.t .rpar) (.leaf r) [r] := k3 ▸ .leaf
    obtain ⟨c, c', h1, h2, h3⟩ := ih (fun t ht => hs t (by simp [ht])) hp
    refine CN'.skip (X := .NumberBrackets) ⟨_, .node .NumberBrackets [.leaf l, c', .leaf r], derives_three (by decide) hl h1 hr, ?_, .brackets k1 h3⟩
      (by decide) fun _ => rfl
    rw [clean', cleanAll', cleanAll', h2]; rfl

theorem tree_infix {bools : List Word} {n : Nat} {ts : List Tok} {g : SFml} (h : Infix n ts g) (hs : ∀ t ∈ ts, Shaped bools t) (hp : g.Plain) : CF' bools (category n) ts g := by
  induction h with
  | @up n ts f hn _ ih =>
    have ih := ih hs hp
    match n, hn with
    | 0, _ => exact ih.skip (by decide) fun _ => rfl
    | 1, _ => exact (ih.skip (Y := .Xor) (by decide) fun _ => rfl).skip (by decide) fun _ => rfl
    | 2, _ => exact ih.skip (by decide) fun _ => rfl
    | 3, _ => exact (ih.skip (Y := .BinaryTemporalFormula) (by decide) fun _ => rfl).skip (by decide) fun _ => rfl
    | 4, _ => exact ih.skip (by decide) fun _ => rfl
  | @iff ts op us f g _ hop _ i1 i2 =>
    obtain ⟨c1, c1', h1, h2, h3⟩ := i1 (fun t ht => hs t (by simp [ht])) hp.1
    obtain ⟨c3, c3', k1, k2, k3⟩ := i2 (fun t ht => hs t (by simp [ht])) hp.2
    obtain ⟨c2, o1⟩ : ∃ c2, Derives (.n .BiimplicationOperator) c2 op := by
      rcases hop with hop | hop
      · exact ⟨_, (derives_op rfl (by decide) hop).1⟩
      · exact ⟨_, (derives_op rfl (by decide) hop).1⟩
    exact ⟨_, _, derives_three (by decide) h1 o1 k1, clean'_binary (by simp [category]) h2 k2, .iff h3 k3⟩
  | @imp ts op us f g _ hop _ i1 i2 =>
    obtain ⟨c1, c1', h1, h2, h3⟩ := i1 (fun t ht => hs t (by simp [ht])) hp.1
    obtain ⟨c3, c3', k1, k2, k3⟩ := (i2 (fun t ht => hs t (by simp [ht])) hp.2).skip (Y := .Xor) (by decide) fun _ => rfl
    obtain ⟨c2, o1⟩ : ∃ c2, Derives (.n .ImplicationOperator) c2 op := by
      rcases hop with hop | hop
      · exact ⟨_, (derives_op rfl (by decide) hop).1⟩
      · exact ⟨_, (derives_op rfl (by decide) hop).1⟩
    exact ⟨_, _, derives_three (by decide) h1 o1 k1, clean'_binary (by simp [category]) h2 k2, .imp h3 k3⟩
  | @or ts op us f g _ hop _ i1 i2 =>
    obtain ⟨c1, c1', h1, h2, h3⟩ := i1 (fun t ht => hs t (by simp [ht])) hp.1
    obtain ⟨c3, c3', k1, k2, k3⟩ := i2 (fun t ht => hs t (by simp [ht])) hp.2
    obtain ⟨c2, o1⟩ : ∃ c2, Derives (.n .DisjunctionOperator) c2 op := by
      rcases hop with hop | hop | hop
      · exact ⟨_, (derives_op rfl (by decide) hop).1⟩
      · exact ⟨_, (derives_op rfl (by decide) hop).1⟩
      · exact ⟨_, (derives_op rfl (by decide) hop).1⟩
    exact ⟨_, _, derives_three (by decide) h1 o1 k1, clean'_binary (by simp [category]) h2 k2, .or h3 k3⟩
  | @and ts op us f g _ hop _ i1 i2 =>
    obtain ⟨c1, c1', h1, h2, h3⟩ := i1 (fun t ht => hs t (by simp [ht])) hp.1
    obtain ⟨c3, c3', k1, k2, k3⟩ := (i2 (fun t ht => hs t (by simp [ht])) hp.2).skip (Y := .BinaryTemporalFormula) (by decide) fun _ => rfl
    obtain ⟨c2, o1⟩ : ∃ c2, Derives (.n .ConjunctionOperator) c2 op := by
      rcases hop with hop | hop | hop
      · exact ⟨_, (derives_op rfl (by decide) hop).1⟩
      · exact ⟨_, (derives_op rfl (by decide) hop).1⟩
      · exact ⟨_, (derives_op rfl (by decide) hop).1⟩
    exact ⟨_, _, derives_three (by decide) h1 o1 k1, clean'_binary (by simp [category]) h2 k2, .and h3 k3⟩
  | @not op us f hop _ ih =>
    obtain ⟨c, c', h1, h2, h3⟩ := ih (fun t ht => hs t (by simp [ht])) hp
    obtain ⟨o1, o2⟩ : Derives (.n .NotOperator) (.node .NotOperator ([op].map .leaf)) [op] ∧ OpS .NotOperator (.node .NotOperator ([op].map .leaf)) [op] := by
      rcases hop with hop | hop
      · exact derives_op (k := [.bang]) rfl (by decide) (by rw [List.map_cons, hop]; rfl)
      · exact derives_op (k := [.tilde]) rfl (by decide) (by rw [List.map_cons, hop]; rfl)
    have o3 := derives_one (X := .UnaryTemporalOperator) (by decide) o1
    refine ⟨_, .node .UnaryFormula [.node .NotOperator ([op].map .leaf), c'], derives_two (X := .UnaryFormula) (by decide) o3 h1, ?_, ?_⟩
    · have hc : clean' (.node .UnaryTemporalOperator [.node .NotOperator ([op].map .leaf)]) = some (.node .NotOperator ([op].map .leaf)) := by
        rw [clean', cleanAll', clean'_op o2]; rfl
      rw [clean', cleanAll', cleanAll', hc, h2]; rfl
    · exact .not h3
  | @next op us f hop _ ih =>
    obtain ⟨c, c', h1, h2, h3⟩ := ih (fun t ht => hs t (by simp [ht])) hp
    obtain ⟨o1, o2⟩ : Derives (.n .NextOperator) (.node .NextOperator (op.map .leaf)) op ∧ OpS .NextOperator (.node .NextOperator (op.map .leaf)) op := by
      rcases hop with hop | hop | hop
      · exact derives_op rfl (by decide) hop
      · exact derives_op rfl (by decide) hop
      · exact derives_op rfl (by decide) hop
    have o3 := derives_one (X := .UnaryTemporalOperator) (by decide) o1
    refine ⟨_, .node .UnaryFormula [.node .NextOperator (op.map .leaf), c'], derives_two (X := .UnaryFormula) (by decide) o3 h1, ?_, ?_⟩
    · have hc : clean' (.node .UnaryTemporalOperator [.node .NextOperator (op.map .leaf)]) = some (.node .NextOperator (op.map .leaf)) := by
        rw [clean', cleanAll', clean'_op o2]; rfl
      rw [clean', cleanAll', cleanAll', hc, h2]; rfl
    · exact .next h3
  | @tt t hk =>
    have hl : Derives (.t .TRUE) (.leaf t) [t] := hk ▸ .leaf
    exact ⟨_, .leaf t, derives_one (by decide) hl, rfl, .tt hk⟩
  | @ff t hk =>
    have hl : Derives (.t .FALSE) (.leaf t) [t] := hk ▸ .leaf
    exact ⟨_, .leaf t, derives_one (by decide) hl, rfl, .ff hk⟩
  | @atom t hk =>
    have hl : Derives (.t .boolID) (.leaf t) [t] := hk ▸ .leaf
    exact CF'.skip (X := .BooleanAtomicFormula) (CF'.skip (X := .Assignment) ⟨_, .node .Assignment [.leaf t], derives_one (by decide) hl, rfl, .atom (hs t (by simp)) hk⟩
      (by decide) fun _ => rfl) (by decide) fun _ => rfl
  | @cmp ts op us a b o ha hop hb =>
    obtain ⟨c1, c1', h1, h2, h3⟩ := tree_sum ha (fun t ht => hs t (by simp [ht])) hp.1
    obtain ⟨c3, c3', k1, k2, k3⟩ := tree_sum hb (fun t ht => hs t (by simp [ht])) hp.2
    obtain ⟨d, o1, o2, cs, o3⟩ : ∃ d, Derives (.n .NumberComparisonOperator) (.node .NumberComparisonOperator [d]) op ∧
        clean' (.node .NumberComparisonOperator [d]) = some (.node .NumberComparisonOperator [d]) ∧ ∃ cs, flatten d = .node (cmpCat o) cs := by
      cases o with
      | gt =>
        obtain ⟨j1, j2⟩ := derives_op (X := .GreaterOperator) rfl (by decide) hop
        exact ⟨_, derives_one (by decide) j1, by rw [clean', cleanAll', clean'_op j2]; rfl, _, rfl⟩
      | ge =>
        obtain ⟨j1, j2⟩ := derives_op (X := .GreaterEqualOperator) rfl (by decide) hop
        exact ⟨_, derives_one (by decide) j1, by rw [clean', cleanAll', clean'_op j2]; rfl, _, rfl⟩
      | lt =>
        obtain ⟨j1, j2⟩ := derives_op (X := .SmallerOperator) rfl (by decide) hop
        exact ⟨_, derives_one (by decide) j1, by rw [clean', cleanAll', clean'_op j2]; rfl, _, rfl⟩
      | le =>
        obtain ⟨j1, j2⟩ := derives_op (X := .SmallerEqualOperator) rfl (by decide) hop
        exact ⟨_, derives_one (by decide) j1, by rw [clean', cleanAll', clean'_op j2]; rfl, _, rfl⟩
      | eq =>
        obtain ⟨j1, j2⟩ := derives_op (X := .EqualOperator) rfl (by decide) hop
        exact ⟨_, derives_one (by decide) j1, by rw [clean', cleanAll', clean'_op j2]; rfl, _, rfl⟩
      | ne =>
        obtain ⟨j1, j2⟩ := derives_op (X := .UnequalOperator) rfl (by decide) hop
        exact ⟨_, derives_one (by decide) j1, by rw [clean', cleanAll', clean'_op j2]; rfl, _, rfl⟩
    refine CF'.skip (X := .BooleanAtomicFormula) (CF'.skip (X := .CalculationSubformula)
      ⟨_, .node .CalculationSubformula [c1', .node .NumberComparisonOperator [d], c3'], derives_three (by decide) h1 o1 k1, ?_, ?_⟩
      (by decide) fun _ => rfl) (by decide) fun _ => rfl
    · rw [clean', cleanAll', cleanAll', cleanAll', h2, o2, k2]; rfl
    · have : flatten (.node .CalculationSubformula [c1', .node .NumberComparisonOperator [d], c3']) =
        .node .CalculationSubformula [flatten c1', .node .NumberComparisonOperator [flatten d], flatten c3'] := rfl
      rw [this, o3]
      exact .cmp o h3 k3
  | @brackets l r ts f hk _ ih =>
    obtain ⟨c, c', h1, h2, h3⟩ := ih (fun t ht => hs t (by simp [ht])) hp
    have key : Derives (.n .Brackets) (.node .Brackets [.leaf l, c, .leaf r]) ([l] ++ ts ++ [r]) := by
      rcases hk with ⟨k1, k2⟩ | ⟨k1, k2⟩
      · have hl : Derives (.t .lpar) (.leaf l) [l] := k1 ▸ .leaf
        have hr : Derives (.t .rpar) (.leaf r) [r] := k2 ▸ .leaf
        exact derives_three (by decide) hl h1 hr
      · have hl : Derives (.t .lbrack) (.leaf l) [l] := k1 ▸ .leaf
        have hr : Derives (.t .rbrack) (.leaf r) [r] := k2 ▸ .leaf
        exact derives_three (by decide) hl h1 hr
    exact CF'.skip (X := .Brackets) ⟨_, c', key, by rw [clean', cleanAll', cleanAll', h2]; rfl, h3⟩ (by decide) fun _ => rfl

theorem treeReplace_other {repl : Replacements} {X : NT} {cs : List Tree} (h1 : X ≠ .CalculationSubformula) (h2 : X ≠ .Assignment) :
    treeReplace repl (.node X cs) = (treeReplaceAll repl cs).map (.node X) := by
  rw [treeReplace.eq_def]
  dsimp only
  rw [if_neg h1, if_neg h2]

/-- What has been parsed. -/
theorem substLine_tree {repl : Replacements} {bools : List Word} {line s : List Char} {g : SFml} (hg : IsFormula bools line g) (hp : g.Plain)
    (h : substLine repl bools line = .ok s) : ∃ T T', FmlTree bools T g ∧ treeReplace repl T = some T' ∧ printTree T' false = some s := by
  obtain ⟨ts, hl, hi⟩ := hg
  have e : substTokenize bools line = ts := lexes_substTokenizeAux hl (no_lsb_infix hi hp) _ le_rfl
  obtain ⟨c, c', h1, h2, h3⟩ := tree_infix hi (lexes_shaped hl) hp
  have hf := derives_one (X := .Formula) (by decide) h1
  have hc : clean' (.node .Formula [c]) = some (.node .Formula [c']) := by
    rw [clean', cleanAll', cleanAll', h2]
    rfl
  rw [substLine, e, parse_complete hf] at h
  dsimp only at h
  rw [hc] at h
  have e2 : flatten (.node .Formula [c']) = .node .Formula [flatten c'] := rfl
  have h : (Py.ofOption (treeReplace repl (flatten (.node .Formula [c'])))).bind (fun t'' => Py.ofOption (printTree t'' false)) = .ok s := h
  rw [e2, treeReplace_other (by decide) (by decide), treeReplaceAll, treeReplaceAll] at h
  cases hr : treeReplace repl (flatten c') with
  | none => rw [hr] at h; cases h
  | some T' =>
    rw [hr] at h
    have h : Py.ofOption (printTree (.node .Formula [T']) false) = .ok s := h
    rw [printTree] at h
    have h : Py.ofOption (printTree T' false) = .ok s := h
    refine ⟨_, T', h3, hr, ?_⟩
    cases hq : printTree T' false with
    | none => rw [hq] at h; cases h
    | some q => rw [hq] at h; cases h; rfl

end Slugs.Model.Substitutor
