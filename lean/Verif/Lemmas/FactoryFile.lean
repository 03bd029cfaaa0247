import Verif.Spec.Factory
import Verif.Model.Factory
import Verif.Lemmas.EvasionFile

/-! What the file with the benchmark about the assembly line denotes (C89). -/

namespace Slugs.Model.Factory

open Slugs.Spec Slugs.Spec.Structured Slugs.Model.Structured Slugs.Model.Cinderella Slugs.Model.InfixTree Slugs.Model.Evasion

/-! ### Names -/

def mc : Word := txt!"movingcounter"
def mcN : Word := txt!"movingcounter'"
def er : Word := txt!"errorCount"
def erN : Word := txt!"errorCount'"
def a1 : Word := txt!"arm1"
def a1N : Word := txt!"arm1'"
def a2 : Word := txt!"arm2"
def a2N : Word := txt!"arm2'"
def o1 : Word := txt!"arm1op"
def o2 : Word := txt!"arm2op"

theorem mem_positions {n m : Nat} {x : Word} : x ∈ positions n m ↔ ∃ i < n, ∃ j < m, x = pName i j := by
  simp only [positions, List.mem_flatMap, List.mem_range, List.mem_map]
  constructor
  · rintro ⟨i, hi, j, hj, rfl⟩; exact ⟨i, hi, j, hj, rfl⟩
  · rintro ⟨i, hi, j, hj, rfl⟩; exact ⟨i, hi, j, hj, rfl⟩

theorem pName_inj {i j i' j' : Nat} (h : pName i j = pName i' j') : i = i' ∧ j = j' := by
  have h : strNat i ++ '_' :: strNat j = strNat i' ++ '_' :: strNat j' := by simpa [pName] using h
  have key : ∀ a b, (strNat a ++ '_' :: strNat b).takeWhile isDigit = strNat a := by
    intro a b
    rw [List.takeWhile_append_of_pos (strNat_digits a), List.takeWhile_cons, if_neg (by decide), List.append_nil]
  have h1 := congrArg (List.takeWhile isDigit) h
  rw [key, key] at h1
  rw [h1] at h
  have h2 := List.append_cancel_left h
  exact ⟨strNat_inj h1, strNat_inj (by simpa using h2)⟩

theorem positions_nodup (n m : Nat) : (positions n m).Nodup := by
  rw [positions, List.nodup_flatMap]
  refine ⟨fun i _ => List.nodup_range.map fun j j' h => (pName_inj h).2, ?_⟩
  refine List.nodup_range.imp ?_
  intro i i' hne
  rw [Function.onFun, List.disjoint_left]
  intro x hx hx'
  obtain ⟨j, _, rfl⟩ := List.mem_map.mp hx
  obtain ⟨j', _, h⟩ := List.mem_map.mp hx'
  exact hne (pName_inj h).1.symm

theorem p_chars (i j : Nat) : ∀ c ∈ pName i j, c = 'p' ∨ c = '_' ∨ isDigit c = true := by
  intro c hc
  simp only [pName, List.mem_cons, List.mem_append] at hc
  rcases hc with h | h | h | h
  · exact .inl h
  · exact .inr (.inr (strNat_digits i c h))
  · exact .inr (.inl h)
  · exact .inr (.inr (strNat_digits j c h))

theorem p_tidy (i j : Nat) : Tidy (pName i j) := by
  refine ⟨⟨'p', rfl, by decide⟩, ?_, ?_, ?_, ?_⟩
  · intro c hc
    rcases p_chars i j c hc with rfl | rfl | h
    · decide
    · decide
    · exact digit_nameChar h
  · intro hc
    have := p_chars i j _ hc
    revert this; decide
  · intro hc
    have := p_chars i j _ hc
    revert this; decide
  · simp [pName, Slugs.Spec.Structured.keywords]

theorem isName_p (i j : Nat) : isName (pName i j) = true := by
  have := (p_tidy i j).2.1
  rw [pName, isName, Bool.and_eq_true, List.all_eq_true]
  exact ⟨by decide, fun c hc => this c (List.mem_cons_of_mem _ hc)⟩

theorem isName_q (i j : Nat) : isName (prime (pName i j)) = true := by
  have := (p_tidy i j).2.1
  rw [prime, pName, List.cons_append, isName, Bool.and_eq_true, List.all_eq_true]
  refine ⟨by decide, fun c hc => ?_⟩
  rcases List.mem_append.mp hc with hc | hc
  · exact this c (List.mem_cons_of_mem _ hc)
  · rw [List.mem_singleton.mp hc]; decide

theorem all_p (i j : Nat) : (pName i j).all okChar = true := by
  simp [pName, all_strNat, okChar]

theorem all_q (i j : Nat) : (prime (pName i j)).all okChar = true := by
  simp [prime, pName, all_strNat, okChar]

theorem good_p (i j : Nat) : GoodLine (pName i j) :=
  ⟨all_p i j, ⟨'p', rfl, by decide, by decide, by decide⟩, last_cons (by simp) (last_append (by simp) (last_cons (strNat_ne _) (last_strNat _)))⟩

def theBools (n m : Nat) : List Word := positions n m ++ (positions n m).map prime

theorem bools_head {n m : Nat} {x : Word} (h : x ∈ theBools n m) : x.head? = some 'p' := by
  rcases List.mem_append.mp h with h | h
  · obtain ⟨i, _, j, _, rfl⟩ := mem_positions.mp h; rfl
  · obtain ⟨y, hy, rfl⟩ := List.mem_map.mp h
    obtain ⟨i, _, j, _, rfl⟩ := mem_positions.mp hy; rfl

theorem kind_int {n m : Nat} {x : Word} (h1 : x.head? ≠ some 'p') (h2 : x ∉ Slugs.Spec.Structured.keywords) : (nameTok (theBools n m) x).kind = .numID := by
  have h3 : x ∉ theBools n m := fun h => h1 (bools_head h)
  simp only [Slugs.Spec.Structured.keywords, List.mem_cons, List.not_mem_nil, or_false, not_or] at h2
  simp [nameTok, h2, h3]

theorem kind_bool {n m : Nat} {x : Word} (h : x ∈ theBools n m) : (nameTok (theBools n m) x).kind = .boolID := by
  have h1 := bools_head h
  have h2 : x ∉ Slugs.Spec.Structured.keywords := by
    cases x with
    | nil => cases h1
    | cons c x =>
      have : c = 'p' := by simpa using h1
      subst this
      simp [Slugs.Spec.Structured.keywords]
  simp only [Slugs.Spec.Structured.keywords, List.mem_cons, List.not_mem_nil, or_false, not_or] at h2
  simp [nameTok, h2, h]

theorem kind_p {n m i j : Nat} (hi : i < n) (hj : j < m) : (nameTok (theBools n m) (pName i j)).kind = .boolID :=
  kind_bool (List.mem_append_left _ (mem_positions.mpr ⟨i, hi, j, hj, rfl⟩))
theorem kind_q {n m i j : Nat} (hi : i < n) (hj : j < m) : (nameTok (theBools n m) (prime (pName i j))).kind = .boolID :=
  kind_bool (List.mem_append_right _ (List.mem_map_of_mem (mem_positions.mpr ⟨i, hi, j, hj, rfl⟩)))

theorem k_mc {n m : Nat} : (nameTok (theBools n m) mc).kind = .numID := kind_int (by decide) (by decide)
theorem k_mcN {n m : Nat} : (nameTok (theBools n m) mcN).kind = .numID := kind_int (by decide) (by decide)
theorem k_er {n m : Nat} : (nameTok (theBools n m) er).kind = .numID := kind_int (by decide) (by decide)
theorem k_erN {n m : Nat} : (nameTok (theBools n m) erN).kind = .numID := kind_int (by decide) (by decide)
theorem k_a1 {n m : Nat} : (nameTok (theBools n m) a1).kind = .numID := kind_int (by decide) (by decide)
theorem k_a1N {n m : Nat} : (nameTok (theBools n m) a1N).kind = .numID := kind_int (by decide) (by decide)
theorem k_a2 {n m : Nat} : (nameTok (theBools n m) a2).kind = .numID := kind_int (by decide) (by decide)
theorem k_a2N {n m : Nat} : (nameTok (theBools n m) a2N).kind = .numID := kind_int (by decide) (by decide)
theorem k_o1 {n m : Nat} : (nameTok (theBools n m) o1).kind = .numID := kind_int (by decide) (by decide)
theorem k_o2 {n m : Nat} : (nameTok (theBools n m) o2).kind = .numID := kind_int (by decide) (by decide)

/-! ### The constraints -/

def p_er2 : List Piece :=
  [.name erN, .sp, .ch '>', .ch '=', .sp, .name er]

def t_er2 : FTree :=
  .cmp .ge (.var erN) (.var er)

def p_first (j : Nat) : List Piece :=
  [.name mcN, .ch '!', .ch '=', .num 0, .sp, .ch '-', .ch '>', .sp, .ch '(', .name (prime (pName 0 j)), .sp, .ch '<', .ch '-', .ch '>', .sp, .name (pName 0 j), .sp, .ch '&', .sp, .ch '(', .name mcN, .ch '!', .ch '=', .num 0, .ch ')', .sp, .ch '|', .sp, .name a1, .ch '=', .num 0, .sp, .ch '&', .sp, .name o1, .ch '=', .num (j), .sp, .ch '|', .sp, .name a2, .ch '=', .num 0, .sp, .ch '&', .sp, .name o2, .ch '=', .num (j), .ch ')']

def t_first (j : Nat) : FTree :=
  .imp (.cmp .ne (.var mcN) (.num 0)) (.par (.iff (.atom (prime (pName 0 j))) (.or (.or (.and (.atom (pName 0 j)) (.par (.cmp .ne (.var mcN) (.num 0)))) (.and (.cmp .eq (.var a1) (.num 0)) (.cmp .eq (.var o1) (.num j)))) (.and (.cmp .eq (.var a2) (.num 0)) (.cmp .eq (.var o2) (.num j))))))

def p_other (i j : Nat) : List Piece :=
  [.name (prime (pName (i + 1) j)), .sp, .ch '<', .ch '-', .ch '>', .sp, .ch '(', .name (pName (i + 1) j), .sp, .ch '&', .sp, .ch '(', .name mcN, .ch '!', .ch '=', .num 0, .ch ')', .sp, .ch '|', .sp, .name a1, .ch '=', .num (i + 1), .sp, .ch '&', .sp, .name o1, .ch '=', .num (j), .sp, .ch '|', .sp, .name a2, .ch '=', .num (i + 1), .sp, .ch '&', .sp, .name o2, .ch '=', .num (j), .sp, .ch '|', .sp, .ch '(', .name (pName i j), .sp, .ch '&', .sp, .name mcN, .ch '=', .num 0, .ch ')', .ch ')']

def t_other (i j : Nat) : FTree :=
  .iff (.atom (prime (pName (i + 1) j))) (.par (.or (.or (.or (.and (.atom (pName (i + 1) j)) (.par (.cmp .ne (.var mcN) (.num 0)))) (.and (.cmp .eq (.var a1) (.num (i + 1))) (.cmp .eq (.var o1) (.num j)))) (.and (.cmp .eq (.var a2) (.num (i + 1))) (.cmp .eq (.var o2) (.num j)))) (.par (.and (.atom (pName i j)) (.cmp .eq (.var mcN) (.num 0))))))

def p_cnt1 (k : Nat) : List Piece :=
  [.ch '(', .name mc, .ch '<', .num (k - 1), .ch ')', .sp, .ch '-', .ch '>', .sp, .ch '(', .name mcN, .sp, .ch '=', .sp, .name mc, .ch '+', .num 1, .ch ')']

def t_cnt1 (k : Nat) : FTree :=
  .imp (.par (.cmp .lt (.var mc) (.num (k - 1)))) (.par (.cmp .eq (.var mcN) (.add (.var mc) (.num 1))))

def p_cnt2 (k : Nat) : List Piece :=
  [.ch '(', .name mc, .ch '=', .num (k - 1), .ch ')', .sp, .ch '-', .ch '>', .sp, .ch '(', .name mcN, .sp, .ch '=', .sp, .num 0, .ch ')']

def t_cnt2 (k : Nat) : FTree :=
  .imp (.par (.cmp .eq (.var mc) (.num (k - 1)))) (.par (.cmp .eq (.var mcN) (.num 0)))

def p_st1 : List Piece :=
  [.name a1N, .sp, .ch '<', .sp, .name a2N]

def t_st1 : FTree :=
  .cmp .lt (.var a1N) (.var a2N)

def p_st2 : List Piece :=
  [.name a1N, .sp, .ch '<', .ch '=', .sp, .name a1, .ch '+', .num 1]

def t_st2 : FTree :=
  .cmp .le (.var a1N) (.add (.var a1) (.num 1))

def p_st3 : List Piece :=
  [.name a1, .sp, .ch '<', .ch '=', .sp, .name a1N, .ch '+', .num 1]

def t_st3 : FTree :=
  .cmp .le (.var a1) (.add (.var a1N) (.num 1))

def p_st4 : List Piece :=
  [.name a2N, .sp, .ch '<', .ch '=', .sp, .name a2, .ch '+', .num 1]

def t_st4 : FTree :=
  .cmp .le (.var a2N) (.add (.var a2) (.num 1))

def p_st5 : List Piece :=
  [.name a2, .sp, .ch '<', .ch '=', .sp, .name a2N, .ch '+', .num 1]

def t_st5 : FTree :=
  .cmp .le (.var a2) (.add (.var a2N) (.num 1))

def p_safe (n j : Nat) : List Piece :=
  [.ch '!', .ch '(', .ch '!', .name (pName (n - 1) j), .sp, .ch '&', .sp, .name mcN, .ch '=', .num 0, .ch ')']

def t_safe (n j : Nat) : FTree :=
  .not (.par (.and (.not (.atom (pName (n - 1) j))) (.cmp .eq (.var mcN) (.num 0))))

def p_ei : List Piece :=
  [.name mc, .sp, .ch '=', .sp, .num 0]

def t_ei : FTree :=
  .cmp .eq (.var mc) (.num 0)

def p_si1 : List Piece :=
  [.name a1, .sp, .ch '=', .sp, .num 0]

def t_si1 : FTree :=
  .cmp .eq (.var a1) (.num 0)

def p_si2 : List Piece :=
  [.name a2, .sp, .ch '=', .sp, .num 2]

def t_si2 : FTree :=
  .cmp .eq (.var a2) (.num 2)

def p_si3 : List Piece :=
  [.name o1, .sp, .ch '=', .sp, .num 0]

def t_si3 : FTree :=
  .cmp .eq (.var o1) (.num 0)

def p_si4 : List Piece :=
  [.name o2, .sp, .ch '=', .sp, .num 0]

def t_si4 : FTree :=
  .cmp .eq (.var o2) (.num 0)


/-- The rest of the constraint on new objects. -/
def p_tail : List Nat → List Piece
  | [] => [.ch ')', .sp, .ch '|', .sp, .name erN, .sp, .ch '>', .sp, .name er, .ch ')']
  | j :: js => .sp :: .ch '|' :: .sp :: .name (prime (pName 0 j)) :: p_tail js

def p_some (j : Nat) (js : List Nat) : List Piece :=
  .name mcN :: .ch '=' :: .num 0 :: .sp :: .ch '-' :: .ch '>' :: .sp :: .ch '(' :: .ch '(' :: .name (prime (pName 0 j)) :: p_tail js

def someTree (t : FTree) : List Nat → FTree
  | [] => t
  | j :: js => someTree (.or t (.atom (prime (pName 0 j)))) js

def t_some (j : Nat) (js : List Nat) : FTree :=
  .imp (.cmp .eq (.var mcN) (.num 0)) (.par (.or (.par (someTree (.atom (prime (pName 0 j))) js)) (.cmp .gt (.var erN) (.var er))))

theorem tail_text : ∀ (j : Nat) (js : List Nat), prime (pName 0 j) ++ pText (p_tail js) =
    joined txt!" | " ((j :: js).map fun j => pName 0 j ++ txt!"'") ++ txt!") | errorCount' > errorCount)"
  | j, [] => by simp [p_tail, pText, joined, prime, erN, er]
  | j, j' :: js => by
    have := tail_text j' js
    simp only [p_tail, pText, List.map_cons, joined] at this ⊢
    rw [this]
    simp [prime]

theorem some_text (j : Nat) (js : List Nat) : pText (p_some j js) =
    txt!"movingcounter'=0 -> ((" ++ (joined txt!" | " ((j :: js).map fun j => pName 0 j ++ txt!"'") ++ txt!") | errorCount' > errorCount)") := by
  rw [← tail_text]
  rfl

theorem tail_ok : ∀ (js : List Nat), pFree (p_tail js) = true ∧ pOk (p_tail js) = true
  | [] => ⟨rfl, rfl⟩
  | j :: js => by
    obtain ⟨h1, h2⟩ := tail_ok js
    refine ⟨rfl, ?_⟩
    simp only [p_tail, pOk, isName_q, h1, h2]
    rfl

theorem some_ok (j : Nat) (js : List Nat) : pOk (p_some j js) = true := by
  obtain ⟨h1, h2⟩ := tail_ok js
  simp only [p_some, pOk, isName_q, h1, h2]
  rfl

theorem tail_toks (bools : List Word) : ∀ (js : List Nat), pToks bools (p_tail js) = js.flatMap (fun j => [charTok '|', nameTok bools (prime (pName 0 j))]) ++ pToks bools (p_tail [])
  | [] => rfl
  | j :: js => by
    show charTok '|' :: nameTok bools (prime (pName 0 j)) :: pToks bools (p_tail js) = _
    rw [tail_toks bools js]
    rfl

theorem tree_toks (bools : List Word) : ∀ (js : List Nat) (t : FTree), (someTree t js).toks bools = t.toks bools ++ js.flatMap (fun j => [charTok '|', nameTok bools (prime (pName 0 j))])
  | [], t => by simp [someTree]
  | j :: js, t => by
    rw [someTree, tree_toks bools js, FTree.toks, FTree.toks]
    simp

theorem some_toks (bools : List Word) (j : Nat) (js : List Nat) : pToks bools (p_some j js) = (t_some j js).toks bools := by
  simp only [p_some, t_some, pToks, FTree.toks, tail_toks bools js, tree_toks]
  simp [p_tail, pToks, nToks, cmpToks]

theorem tree_ok {n m : Nat} (hn : 0 < n) : ∀ (js : List Nat) (t : FTree), (∀ j ∈ js, j < m) → t.ok (theBools n m) 2 = true → t.ok (theBools n m) 0 = true →
    (someTree t js).ok (theBools n m) 0 = true
  | [], t, _, _, h => h
  | j :: js, t, hj, h2, h0 => by
    rw [List.forall_mem_cons] at hj
    exact tree_ok hn js _ hj.2 (by simp [FTree.ok, h2, kind_q hn hj.1]) (by simp [FTree.ok, h2, kind_q hn hj.1])

theorem some_tok {n m : Nat} (hn : 0 < n) {j : Nat} {js : List Nat} (hj : ∀ x ∈ j :: js, x < m) : (t_some j js).ok (theBools n m) 0 = true := by
  rw [List.forall_mem_cons] at hj
  have := tree_ok (n := n) hn js (.atom (prime (pName 0 j))) hj.2 (by simp [FTree.ok, kind_q hn hj.1]) (by simp [FTree.ok, kind_q hn hj.1])
  simp [t_some, FTree.ok, this, nOk, isOne, k_mcN, k_erN, k_er]

theorem tail_last : ∀ (js : List Nat), lastOk (p_tail js) = true
  | [] => rfl
  | j :: js => by
    have := tail_last js
    rw [p_tail]
    cases h : p_tail js with
    | nil => rw [h] at this; cases this
    | cons q qs => rw [h] at this; exact this

theorem tail_ends : ∀ (js : List Nat), (p_tail js).all endsOk = true
  | [] => rfl
  | j :: js => by
    simp only [p_tail, List.all_cons, endsOk, all_q, tail_ends js]
    rfl

theorem some_good (j : Nat) (js : List Nat) : pGood (p_some j js) = true := by
  have h := tail_last js
  have : lastOk (p_some j js) = true := by
    rw [p_some]
    cases hh : p_tail js with
    | nil => rw [hh] at h; cases h
    | cons q qs => rw [hh] at h; exact h
  rw [pGood, this]
  simp only [p_some, List.all_cons, endsOk, all_q, tail_ends js]
  rfl

/-! ### The file -/

variable (n m k most : Nat)

def declText (x : Word) (b : Nat) : List Char := x ++ (txt!":0..." ++ strNat b)

def outsT : List (List Char) := [declText a1 (n - 1), declText a2 (n - 1), declText o1 (m - 1), declText o2 (m - 1)]

def newLine : List Char := txt!"movingcounter'=0 -> ((" ++ (someNext m ++ txt!") | errorCount' > errorCount)")

def note1 : List Char := txt!"# The moving counter counts module"
def note2 : List Char := txt!"# Everything must be done one step *before* the items are moved away."

def fileLines : List (List Char) :=
  txt!"[INPUT]" :: ([declText mc (k - 1)] ++ (positions n m ++ ([declText er most] ++ ([] :: txt!"[OUTPUT]" :: (outsT n m ++ ([] :: txt!"[ENV_TRANS]" ::
    ([newLine m, pText p_er2] ++ ([] :: [] :: (firstLines m ++ ([] :: (otherLines n m ++ ([] :: note1 :: ([p_cnt1 k, p_cnt2 k].map pText ++ ([] :: txt!"[SYS_TRANS]" ::
    ([p_st1, p_st2, p_st3, p_st4, p_st5].map pText ++ ([] :: note2 :: (safeLines n m ++ ([] :: txt!"[ENV_INIT]" :: ([p_ei].map pText ++ (positions n m ++ ([] ::
    txt!"[SYS_INIT]" :: ([p_si1, p_si2, p_si3, p_si4].map pText ++ []))))))))))))))))))))))

theorem flat_ne {n m : Nat} (hn : 1 ≤ n) (hm : 1 ≤ m) (f : Nat → Nat → List Char) : ((List.range n).flatMap fun i => (List.range m).map fun j => f i j) ≠ [] := by
  intro h
  rw [List.flatMap_eq_nil_iff] at h
  exact map_ne hm _ (h 0 (List.mem_range.mpr hn))

set_option maxRecDepth 20000 in
theorem benchmark_lines (hn : 3 ≤ n) (hm : 1 ≤ m) (hk : 1 ≤ k) : benchmark n m k most = printLines (fileLines n m k most) := by
  have e0 : strNat 0 = txt!"0" := rfl
  have e1 : strNat 1 = txt!"1" := rfl
  have e2 : strNat 2 = txt!"2" := rfl
  have j1 : ∀ rest, joined txt!"\n" (positions n m) ++ '\n' :: rest = _ := joined_lines (flat_ne (by omega) hm _)
  have j2 : ∀ rest, joined txt!"\n" (firstLines m) ++ '\n' :: rest = _ := joined_lines (map_ne hm _)
  have j3 : ∀ rest, joined txt!"\n" (otherLines n m) ++ '\n' :: rest = _ := joined_lines (flat_ne (by omega) hm _)
  have j4 : ∀ rest, joined txt!"\n" (safeLines n m) ++ '\n' :: rest = _ := joined_lines (map_ne hm _)
  unfold benchmark
  rw [strInt_pred hk, strInt_pred hm, strInt_pred (show 1 ≤ n by omega)]
  simp only [fileLines, outsT, declText, newLine, note1, note2, p_er2, p_cnt1, p_cnt2, p_st1, p_st2, p_st3, p_st4, p_st5, p_ei, p_si1, p_si2, p_si3, p_si4,
    mc, mcN, er, erN, a1, a1N, a2, a2N, o1, o2, printLines_append, printLines, pText, List.map_cons, List.map_nil, List.cons_append, List.nil_append, List.append_nil,
    List.append_assoc, e0, e1, e2, j1, j2, j3, j4]

theorem first_text (j : Nat) : txt!"movingcounter'!=0 -> (" ++ (pName 0 j ++ (txt!"' <-> " ++ (pName 0 j ++ (txt!" & (movingcounter'!=0) | arm1=0 & arm1op=" ++ (strNat j ++
    (txt!" | arm2=0 & arm2op=" ++ (strNat j ++ txt!")"))))))) = pText (p_first j) := by
  have e0 : strNat 0 = txt!"0" := rfl
  simp only [p_first, pText, prime, mcN, a1, a2, o1, o2, e0, List.append_assoc, List.cons_append, List.nil_append]

theorem other_text (i j : Nat) : pName (i + 1) j ++ (txt!"' <-> (" ++ (pName (i + 1) j ++ (txt!" & (movingcounter'!=0) | arm1=" ++ (strNat (i + 1) ++ (txt!" & arm1op=" ++ (strNat j ++
    (txt!" | arm2=" ++ (strNat (i + 1) ++ (txt!" & arm2op=" ++ (strNat j ++ (txt!" | (" ++ (pName i j ++ txt!" & movingcounter'=0))")))))))))))) = pText (p_other i j) := by
  have e0 : strNat 0 = txt!"0" := rfl
  simp only [p_other, pText, prime, mcN, a1, a2, o1, o2, e0, List.append_assoc, List.cons_append, List.nil_append]

theorem safe_text (j : Nat) : txt!"!(!" ++ (pName (n - 1) j ++ txt!" & movingcounter'=0)") = pText (p_safe n j) := by
  have e0 : strNat 0 = txt!"0" := rfl
  simp only [p_safe, pText, mcN, e0, List.cons_append, List.nil_append]

theorem first_good (j : Nat) : pGood (p_first j) = true := by
  simp only [pGood, p_first, List.all_cons, endsOk, all_p, all_q]
  rfl

theorem other_good (i j : Nat) : pGood (p_other i j) = true := by
  simp only [pGood, p_other, List.all_cons, endsOk, all_p, all_q]
  rfl

theorem safe_good (j : Nat) : pGood (p_safe n j) = true := by
  simp only [pGood, p_safe, List.all_cons, endsOk, all_p]
  rfl

variable {n m k most}

theorem decl_good {x : Word} (hx : pGood [.name x] = true) (b : Nat) : GoodLine (declText x b) := by
  have h0 := good_spec hx
  simp only [pText, List.append_nil] at h0
  refine ⟨by simp [declText, h0.ends, all_strNat, okChar], ?_, last_append (by simp) (last_append (strNat_ne _) (last_strNat _))⟩
  obtain ⟨c, hc, h⟩ := h0.head
  exact ⟨c, by simp [declText, hc], h⟩

theorem good_outs {l : List Char} (h : l ∈ outsT n m) : GoodLine l := by
  simp only [outsT, List.mem_cons, List.not_mem_nil, or_false] at h
  rcases h with rfl | rfl | rfl | rfl <;> exact decl_good rfl _

theorem good_positions {l : List Char} (h : l ∈ positions n m) : GoodLine l := by
  obtain ⟨i, _, j, _, rfl⟩ := mem_positions.mp h
  exact good_p i j

theorem newLine_eq (hm : 1 ≤ m) : ∃ j js, List.range m = j :: js ∧ newLine m = pText (p_some j js) := by
  cases h : List.range m with
  | nil => rw [List.range_eq_nil] at h; omega
  | cons j js => exact ⟨j, js, rfl, by rw [some_text, newLine, someNext, h]⟩

theorem good_new (hm : 1 ≤ m) {l : List Char} (h : l ∈ [newLine m, pText p_er2]) : GoodLine l := by
  simp only [List.mem_cons, List.not_mem_nil, or_false] at h
  rcases h with rfl | rfl
  · obtain ⟨j, js, _, h⟩ := newLine_eq hm
    rw [h]
    exact good_spec (some_good j js)
  · exact good_spec rfl

theorem good_first {l : List Char} (h : l ∈ firstLines m) : GoodLine l := by
  obtain ⟨j, _, rfl⟩ := List.mem_map.mp h
  rw [first_text]
  exact good_spec (first_good j)

theorem good_other {l : List Char} (h : l ∈ otherLines n m) : GoodLine l := by
  obtain ⟨i, _, h⟩ := List.mem_flatMap.mp h
  obtain ⟨j, _, rfl⟩ := List.mem_map.mp h
  rw [other_text]
  exact good_spec (other_good i j)

theorem good_safe {l : List Char} (h : l ∈ safeLines n m) : GoodLine l := by
  obtain ⟨j, _, rfl⟩ := List.mem_map.mp h
  rw [safe_text]
  exact good_spec (safe_good n j)

variable (n m k most)

abbrev tag (s : Section) (L : List (List Char)) : List (Section × List Char) := L.map fun l => (s, l)

def fileItems : List (Section × List Char) :=
  tag .input [declText mc (k - 1)] ++ (tag .input (positions n m) ++ (tag .input [declText er most] ++ (tag .output (outsT n m) ++ (tag .envTrans [newLine m, pText p_er2] ++
    (tag .envTrans (firstLines m) ++ (tag .envTrans (otherLines n m) ++ (tag .envTrans ([p_cnt1 k, p_cnt2 k].map pText) ++
    (tag .sysTrans ([p_st1, p_st2, p_st3, p_st4, p_st5].map pText) ++ (tag .sysTrans (safeLines n m) ++ (tag .envInit ([p_ei].map pText) ++
    (tag .envInit (positions n m) ++ (tag .sysInit ([p_si1, p_si2, p_si3, p_si4].map pText) ++ []))))))))))))

theorem good_one {x : Word} (hx : pGood [.name x] = true) (b : Nat) : ∀ l ∈ [declText x b], GoodLine l := by
  intro l hl
  rw [List.mem_singleton.mp hl]
  exact decl_good hx b

theorem file_content (hm : 1 ≤ m) : SContent none (fileLines n m k most) (fileItems n m k most) := by
  refine .header .input (by decide) (content_items (content_items (content_items ?_ (good_one rfl _)) fun l h => good_positions h) (good_one rfl _))
  refine .skip (.inl rfl) (.header .output (by decide) (content_items ?_ fun l h => good_outs h))
  refine .skip (.inl rfl) (.header .envTrans (by decide) (content_items ?_ fun l h => good_new hm h))
  refine .skip (.inl rfl) (.skip (.inl rfl) (content_items ?_ fun l h => good_first h))
  refine .skip (.inl rfl) (content_items ?_ fun l h => good_other h)
  refine .skip (.inl rfl) (.skip (.inr (by decide)) (content_items ?_ (good_map rfl)))
  refine .skip (.inl rfl) (.header .sysTrans (by decide) (content_items ?_ (good_map rfl)))
  refine .skip (.inl rfl) (.skip (.inr (by decide)) (content_items ?_ fun l h => good_safe h))
  refine .skip (.inl rfl) (.header .envInit (by decide) (content_items (content_items ?_ fun l h => good_positions h) (good_map rfl)))
  exact .skip (.inl rfl) (.header .sysInit (by decide) (content_items .nil (good_map rfl)))

theorem file_ok (hm : 1 ≤ m) : ∀ l ∈ fileLines n m k most, l.all okChar = true := by
  have g : ∀ {ps : List (List Piece)}, ps.all pGood = true → ∀ l ∈ ps.map pText, l.all okChar = true := fun h l hl => (good_map h l hl).ends
  intro l hl
  rw [fileLines] at hl
  repeat' first
    | (rw [List.mem_append] at hl; rcases hl with hl | hl)
    | (rw [List.mem_cons] at hl; rcases hl with rfl | hl)
  all_goals first
    | exact (good_positions hl).ends
    | exact (good_outs hl).ends
    | exact (good_first hl).ends
    | exact (good_other hl).ends
    | exact (good_safe hl).ends
    | exact (good_new hm hl).ends
    | exact (good_new hm (List.mem_cons_self)).ends
    | exact (decl_good (x := mc) rfl _).ends
    | exact (decl_good (x := er) rfl _).ends
    | exact g (ps := [p_cnt1 k, p_cnt2 k]) rfl l hl
    | exact g (ps := [p_st1, p_st2, p_st3, p_st4, p_st5]) rfl l hl
    | exact g (ps := [p_ei]) rfl l hl
    | exact g (ps := [p_si1, p_si2, p_si3, p_si4]) rfl l hl
    | exact (good_spec (ps := p_er2) rfl).ends
    | decide
    | cases hl

theorem benchmark_split (hn : 3 ≤ n) (hm : 1 ≤ m) (hk : 1 ≤ k) : splitLines (universal (benchmark n m k most)) = fileLines n m k most := by
  have ho := file_ok n m k most hm
  rw [benchmark_lines n m k most hn hm hk, StuckAt.universal_self (printLines_chars ho), splitLines_printLines _ fun l h => okChar_line (ho l h)]

end Slugs.Model.Factory
