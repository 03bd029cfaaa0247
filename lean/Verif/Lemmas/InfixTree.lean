import Verif.Lemmas.CinderellaFile

/-! A way to show that texts are formulas by computation. -/

namespace Slugs.Model.InfixTree

open Slugs.Spec Slugs.Spec.Structured Slugs.Model.Structured Slugs.Model.Cinderella

/-! ### Texts -/

inductive Piece where
  | sp
  | ch (c : Char)
  | name (w : Word)
  | num (k : Nat)

def pText : List Piece → List Char
  | [] => []
  | .sp :: ps => ' ' :: pText ps
  | .ch c :: ps => c :: pText ps
  | .name w :: ps => w ++ pText ps
  | .num k :: ps => strNat k ++ pText ps

def pToks (bools : List Word) : List Piece → List Tok
  | [] => []
  | .sp :: ps => pToks bools ps
  | .ch c :: ps => charTok c :: pToks bools ps
  | .name w :: ps => nameTok bools w :: pToks bools ps
  | .num k :: ps => numT k :: pToks bools ps

def pFree : List Piece → Bool
  | .name _ :: _ => false
  | .num _ :: _ => false
  | _ => true

def isName : Word → Bool
  | [] => false
  | c :: w => nameStart c && w.all nameChar

def pOk : List Piece → Bool
  | [] => true
  | .sp :: ps => pOk ps
  | .ch c :: ps => !(pySpace c || nameStart c || isDigit c) && pOk ps
  | .name w :: ps => isName w && (pFree ps && pOk ps)
  | .num _ :: ps => pFree ps && pOk ps

theorem pFree_free : ∀ {ps : List Piece}, pFree ps = true → pOk ps = true → Free (pText ps)
  | [], _, _ => free_nil
  | .sp :: _, _, _ => free_cons (by decide)
  | .ch c :: _, _, h => by
    refine free_cons ?_
    simp only [pOk, Bool.and_eq_true, Bool.not_eq_true', Bool.or_eq_false_iff] at h
    simp [nameChar, h.1.1.2, h.1.2]
  | .name _ :: _, h, _ => by simp [pFree] at h
  | .num _ :: _, h, _ => by simp [pFree] at h

theorem pLexes (bools : List Word) : ∀ {ps : List Piece}, pOk ps = true → Lexes bools (pText ps) (pToks bools ps)
  | [], _ => .nil
  | .sp :: ps, h => .space (by decide) (pLexes bools h)
  | .ch c :: ps, h => by
    simp only [pOk, Bool.and_eq_true, Bool.not_eq_true', Bool.or_eq_false_iff] at h
    exact .char h.1.1.1 h.1.1.2 h.1.2 (pLexes bools h.2)
  | .name w :: ps, h => by
    simp only [pOk, Bool.and_eq_true] at h
    cases w with
    | nil => simp [isName] at h
    | cons c w =>
      simp only [isName, Bool.and_eq_true, List.all_eq_true] at h
      exact Lexes.name h.1.1 h.1.2 (pFree_free h.2.1 h.2.2) (pLexes bools h.2.2)
  | .num k :: ps, h => by
    simp only [pOk, Bool.and_eq_true] at h
    exact Lexes.number (strNat_ne k) (strNat_digits k) (pFree_free h.1 h.2).digit (pLexes bools h.2)

/-! ### Formulas -/

inductive FTree where
  | atom (x : Word)
  | cmp (o : Cmp) (a b : NExp)
  | not (t : FTree)
  | and (t u : FTree)
  | or (t u : FTree)
  | imp (t u : FTree)
  | iff (t u : FTree)
  | par (t : FTree)

def FTree.fml : FTree → SFml
  | .atom x => .atom x
  | .cmp o a b => .cmp o a b
  | .not t => .not t.fml
  | .and t u => .and t.fml u.fml
  | .or t u => .or t.fml u.fml
  | .imp t u => .imp t.fml u.fml
  | .iff t u => .iff t.fml u.fml
  | .par t => t.fml

def nToks (bools : List Word) : NExp → List Tok
  | .num k => [numT k]
  | .var x => [nameTok bools x]
  | .add a b => nToks bools a ++ charTok '+' :: nToks bools b
  | .overwrite _ _ => []

def isOne (bools : List Word) : NExp → Bool
  | .num _ => true
  | .var x => (nameTok bools x).kind == .numID
  | _ => false

def nOk (bools : List Word) : NExp → Bool
  | .add a b => isOne bools a && isOne bools b
  | a => isOne bools a

def cmpToks : Cmp → List Tok
  | .gt => [charTok '>']
  | .ge => [charTok '>', charTok '=']
  | .lt => [charTok '<']
  | .le => [charTok '<', charTok '=']
  | .eq => [charTok '=']
  | .ne => [charTok '!', charTok '=']

def FTree.toks (bools : List Word) : FTree → List Tok
  | .atom x => [nameTok bools x]
  | .cmp o a b => nToks bools a ++ cmpToks o ++ nToks bools b
  | .not t => charTok '!' :: t.toks bools
  | .and t u => t.toks bools ++ [charTok '&'] ++ u.toks bools
  | .or t u => t.toks bools ++ [charTok '|'] ++ u.toks bools
  | .imp t u => t.toks bools ++ [charTok '-', charTok '>'] ++ u.toks bools
  | .iff t u => t.toks bools ++ [charTok '<', charTok '-', charTok '>'] ++ u.toks bools
  | .par t => charTok '(' :: t.toks bools ++ [charTok ')']

def FTree.ok (bools : List Word) : Nat → FTree → Bool
  | n, .atom x => decide (n ≤ 5) && (nameTok bools x).kind == .boolID
  | n, .cmp _ a b => decide (n ≤ 5) && (nOk bools a && nOk bools b)
  | n, .not t => decide (n ≤ 4) && t.ok bools 4
  | n, .and t u => decide (n ≤ 3) && (t.ok bools 3 && u.ok bools 4)
  | n, .or t u => decide (n ≤ 2) && (t.ok bools 2 && u.ok bools 3)
  | n, .imp t u => decide (n ≤ 1) && (t.ok bools 1 && u.ok bools 2)
  | n, .iff t u => decide (n ≤ 0) && (t.ok bools 0 && u.ok bools 1)
  | n, .par t => decide (n ≤ 5) && t.ok bools 0

theorem nameTok_text (bools : List Word) (w : Word) : (nameTok bools w).text = w := by
  unfold nameTok
  repeat' split
  all_goals rfl

theorem isOne_infix {bools : List Word} {a : NExp} (h : isOne bools a = true) : InfixNumber (nToks bools a) a := by
  cases a with
  | num k => exact number_num k
  | var x =>
    have := InfixNumber.var (t := nameTok bools x) (by simpa [isOne] using h)
    rwa [nameTok_text] at this
  | add => simp [isOne] at h
  | overwrite => simp [isOne] at h

theorem nOk_infix {bools : List Word} {a : NExp} (h : nOk bools a = true) : InfixSum (nToks bools a) a := by
  cases a with
  | num k => exact .one (.one (isOne_infix h))
  | var x => exact .one (.one (isOne_infix h))
  | add a b =>
    simp only [nOk, Bool.and_eq_true] at h
    exact .add (.one (isOne_infix h.1)) rfl (.one (.one (isOne_infix h.2)))
  | overwrite => simp [nOk, isOne] at h

theorem cmpToks_kinds (o : Cmp) : (cmpToks o).map Tok.kind = o.kinds := by
  cases o <;> rfl

theorem FTree.infix {bools : List Word} : ∀ {t : FTree} {n : Nat}, t.ok bools n = true → Infix n (t.toks bools) t.fml
  | .atom x, n, h => by
    simp only [ok, Bool.and_eq_true, decide_eq_true_eq, beq_iff_eq] at h
    have := Infix.atom (t := nameTok bools x) h.2
    rw [nameTok_text] at this
    exact infix_up (by decide) this h.1
  | .cmp o a b, n, h => by
    simp only [ok, Bool.and_eq_true, decide_eq_true_eq] at h
    exact infix_up (by decide) (Infix.cmp o (nOk_infix h.2.1) (cmpToks_kinds o) (nOk_infix h.2.2)) h.1
  | .not t, n, h => by
    simp only [ok, Bool.and_eq_true, decide_eq_true_eq] at h
    exact infix_up (by decide) (Infix.not (.inl rfl) (FTree.infix h.2)) h.1
  | .and t u, n, h => by
    simp only [ok, Bool.and_eq_true, decide_eq_true_eq] at h
    exact infix_up (by decide) (Infix.and (FTree.infix h.2.1) (.inl rfl) (FTree.infix h.2.2)) h.1
  | .or t u, n, h => by
    simp only [ok, Bool.and_eq_true, decide_eq_true_eq] at h
    exact infix_up (by decide) (Infix.or (FTree.infix h.2.1) (.inl rfl) (FTree.infix h.2.2)) h.1
  | .imp t u, n, h => by
    simp only [ok, Bool.and_eq_true, decide_eq_true_eq] at h
    exact infix_up (by decide) (Infix.imp (FTree.infix h.2.1) (.inl rfl) (FTree.infix h.2.2)) h.1
  | .iff t u, n, h => by
    simp only [ok, Bool.and_eq_true, decide_eq_true_eq] at h
    exact infix_up (by decide) (Infix.iff (FTree.infix h.2.1) (.inl rfl) (FTree.infix h.2.2)) h.1
  | .par t, n, h => by
    simp only [ok, Bool.and_eq_true, decide_eq_true_eq] at h
    exact infix_up (by decide) (Infix.brackets (.inl ⟨rfl, rfl⟩) (FTree.infix h.2)) h.1

/-- The text is the formula. -/
theorem isFormula_tree {bools : List Word} {ps : List Piece} {t : FTree} (h1 : pOk ps = true) (h2 : t.ok bools 0 = true) (h3 : pToks bools ps = t.toks bools) :
    IsFormula bools (pText ps) t.fml :=
  ⟨_, h3 ▸ pLexes bools h1, FTree.infix h2⟩

/-! ### Proper formulas -/

def nProper (ints : List Word) : NExp → Bool
  | .num _ => true
  | .var x => decide (unprimed x ∈ ints)
  | .add a b => nProper ints a && nProper ints b
  | .overwrite _ _ => false

def FTree.proper (ints : List Word) : FTree → Bool
  | .atom _ => true
  | .cmp _ a b => nProper ints a && nProper ints b
  | .not t => t.proper ints
  | .and t u => t.proper ints && u.proper ints
  | .or t u => t.proper ints && u.proper ints
  | .imp t u => t.proper ints && u.proper ints
  | .iff t u => t.proper ints && u.proper ints
  | .par t => t.proper ints

theorem nProper_spec {bounds : Bounds} {ints : List Word} (hb : ∀ x ∈ ints, ∃ lo hi, bounds x = some (lo, hi) ∧ 0 ≤ lo) :
    ∀ {a : NExp}, nProper ints a = true → a.Proper bounds false
  | .num _, _ => trivial
  | .var x, h => ⟨hb _ (by simpa [nProper] using h), by simp⟩
  | .add a b, h => by
    simp only [nProper, Bool.and_eq_true] at h
    exact ⟨nProper_spec hb h.1, nProper_spec hb h.2⟩
  | .overwrite _ _, h => by simp [nProper] at h

theorem FTree.proper_spec {bounds : Bounds} {ints : List Word} (hb : ∀ x ∈ ints, ∃ lo hi, bounds x = some (lo, hi) ∧ 0 ≤ lo) :
    ∀ {t : FTree}, t.proper ints = true → t.fml.Proper bounds false
  | .atom _, _ => fun h => by simp at h
  | .cmp _ a b, h => by
    simp only [proper, Bool.and_eq_true] at h
    exact ⟨nProper_spec hb h.1, nProper_spec hb h.2⟩
  | .not t, h => FTree.proper_spec hb (t := t) h
  | .and t u, h => by
    simp only [proper, Bool.and_eq_true] at h
    exact ⟨FTree.proper_spec hb h.1, FTree.proper_spec hb h.2⟩
  | .or t u, h => by
    simp only [proper, Bool.and_eq_true] at h
    exact ⟨FTree.proper_spec hb h.1, FTree.proper_spec hb h.2⟩
  | .imp t u, h => by
    simp only [proper, Bool.and_eq_true] at h
    exact ⟨FTree.proper_spec hb h.1, FTree.proper_spec hb h.2⟩
  | .iff t u, h => by
    simp only [proper, Bool.and_eq_true] at h
    exact ⟨FTree.proper_spec hb h.1, FTree.proper_spec hb h.2⟩
  | .par t, h => FTree.proper_spec hb (t := t) h

/-- The constraint can be used in the section. -/
theorem allows_tree {S : SSpec} {s : Section} {ins outs ints : List Word} (hi : S.inputNames = ins) (ho : S.outputNames = outs)
    (hb : ∀ x ∈ ints, ∃ lo hi, S.bounds x = some (lo, hi) ∧ 0 ≤ lo) {t : FTree} (h1 : t.proper ints = true)
    (h2 : ((t.fml.atoms false ++ t.fml.numbers false).all fun x => decide (x ∈ usable s ins outs)) = true) : S.Allows s (.infix t.fml) := by
  rw [List.all_eq_true] at h2
  refine ⟨FTree.proper_spec hb h1, fun x hx => ?_, fun x hx => ?_⟩
  · rw [hi, ho]; simpa using h2 x (List.mem_append_left _ hx)
  · rw [hi, ho]; simpa using h2 x (List.mem_append_right _ hx)

end Slugs.Model.InfixTree
