import Verif.Lemmas.LtlTables
import Mathlib.Data.List.Basic
import Mathlib.Tactic

/-!
The parser of the translators from LTL is right: it finds a parse tree if there is one, and only then, and there is only one.
-/

namespace Slugs.Model.LtlText

open Slugs.Spec.LtlText Slugs.Spec

/-! ### Tables -/

theorem lookup_mem {A B : Type} [DecidableEq A] {a : A} {b : B} : ∀ {l : List (A × B)}, lookup a l = some b → (a, b) ∈ l
  | [], h => by simp [lookup] at h
  | (x, y) :: l, h => by
    rw [lookup] at h
    split at h
    · next hx => cases h; simp [hx]
    · exact List.mem_cons_of_mem _ (lookup_mem h)

/-- A transition of the automaton. -/
def trans (s : Nat) : Sym → Option Nat
  | .t a => shift s a
  | .n X => goto s X

def past (s : Nat) : List Sym := (lookup s pastRows).getD []

def itemsAt (s : Nat) : List (Nat × Nat × Nat) := (lookup s itemRows).getD []

theorem shift_mem {s k : Nat} {a : Term} (h : shift s a = some k) : ∃ r ∈ shiftRows, r.1 = s ∧ (a, k) ∈ r.2 := by
  rw [shift] at h
  cases hr : lookup s shiftRows with
  | none => rw [hr] at h; cases h
  | some row => rw [hr] at h; exact ⟨_, lookup_mem hr, rfl, lookup_mem h⟩

theorem goto_mem {s k : Nat} {X : NT} (h : goto s X = some k) : ∃ r ∈ gotoRows, r.1 = s ∧ (X, k) ∈ r.2 := by
  rw [goto] at h
  cases hr : lookup s gotoRows with
  | none => rw [hr] at h; cases h
  | some row => rw [hr] at h; exact ⟨_, lookup_mem hr, rfl, lookup_mem h⟩

theorem reduce_mem {s n : Nat} {a : Term} {X : NT} (h : reduce s a = some (X, n)) : ∃ r ∈ reduceRows, r.1 = s ∧ r.2.2 = (X, n) := by
  rw [reduce] at h
  cases hr : reduceRows.find? fun r => r.1 = s && r.2.1.contains a with
  | none => rw [hr] at h; cases h
  | some row =>
    rw [hr] at h
    have := List.find?_some hr
    simp only [Bool.and_eq_true, decide_eq_true_eq] at this
    exact ⟨_, List.mem_of_find?_eq_some hr, this.1, by simpa using h⟩

theorem shift_past_check : ∀ r ∈ shiftRows, ∀ e ∈ r.2, past e.2 <+: .t e.1 :: past r.1 := by decide +kernel

theorem goto_past_check : ∀ r ∈ gotoRows, ∀ e ∈ r.2, past e.2 <+: .n e.1 :: past r.1 := by decide +kernel

theorem reduce_check : ∀ r ∈ reduceRows, 0 < r.2.2.2 ∧ r.2.2.2 ≤ (past r.1).length ∧
    (r.2.2.1, ((past r.1).take r.2.2.2).reverse) ∈ rules := by decide +kernel

theorem shift_special_check : ∀ r ∈ shiftRows, ∀ e ∈ r.2, e.2 ≠ 0 ∧ e.2 ≠ 1 ∧ (e.2 = 77 → r.1 = 1 ∧ e.1 = .eof) := by decide +kernel

theorem goto_special_check : ∀ r ∈ gotoRows, ∀ e ∈ r.2, e.2 ≠ 0 ∧ e.2 ≠ 77 ∧ (e.2 = 1 → r.1 = 0 ∧ e.1 = .Formula) := by decide +kernel

theorem trans_past {s k : Nat} {X : Sym} (h : trans s X = some k) : past k <+: X :: past s := by
  cases X with
  | t a => obtain ⟨r, hr, rfl, he⟩ := shift_mem h; exact shift_past_check r hr _ he
  | n X => obtain ⟨r, hr, rfl, he⟩ := goto_mem h; exact goto_past_check r hr _ he

theorem trans_zero {s : Nat} {X : Sym} (h : trans s X = some 0) : False := by
  cases X with
  | t a => obtain ⟨r, hr, rfl, he⟩ := shift_mem h; exact (shift_special_check r hr _ he).1 rfl
  | n X => obtain ⟨r, hr, rfl, he⟩ := goto_mem h; exact (goto_special_check r hr _ he).1 rfl

theorem trans_one {s : Nat} {X : Sym} (h : trans s X = some 1) : s = 0 ∧ X = .n .Formula := by
  cases X with
  | t a => obtain ⟨r, hr, rfl, he⟩ := shift_mem h; exact absurd rfl (shift_special_check r hr _ he).2.1
  | n X =>
    obtain ⟨r, hr, rfl, he⟩ := goto_mem h
    obtain ⟨h1, h2⟩ := (goto_special_check r hr _ he).2.2 rfl
    exact ⟨h1, by simpa using h2⟩

theorem trans_halting {s : Nat} {X : Sym} (h : trans s X = some 77) : s = 1 ∧ X = .t .eof := by
  cases X with
  | t a =>
    obtain ⟨r, hr, rfl, he⟩ := shift_mem h
    obtain ⟨h1, h2⟩ := (shift_special_check r hr _ he).2.2 rfl
    exact ⟨h1, by simpa using h2⟩
  | n X => obtain ⟨r, hr, rfl, he⟩ := goto_mem h; exact absurd rfl (goto_special_check r hr _ he).2.1

/-! ### Trees on the stack -/

/-- The symbol at the root. -/
def Tree.sym : Tree → Sym
  | .leaf t => .t t.kind
  | .node X _ => .n X

theorem derives_sym {X : Sym} {t : Tree} {ts : List Tok} (h : Derives X t ts) : X = Tree.sym t := by
  cases h <;> rfl

theorem derivesAll_length {Xs : List Sym} {cs : List Tree} {ts : List Tok} (h : DerivesAll Xs cs ts) : Xs.length = cs.length := by
  induction cs generalizing Xs ts with
  | nil => cases h; rfl
  | cons c cs ih => cases h with | cons _ h => simp [ih h]

theorem derivesAll_snoc : ∀ {Xs : List Sym} {cs : List Tree} {ts us : List Tok} {X : Sym} {c : Tree}, DerivesAll Xs cs ts → Derives X c us →
    DerivesAll (Xs ++ [X]) (cs ++ [c]) (ts ++ us)
  | _, [], _, us, X, c, h, h' => by
    cases h
    have := DerivesAll.cons h' .nil
    simpa using this
  | _, d :: cs, _, us, X, c, h, h' => by
    cases h with
    | cons h1 h2 => rw [List.append_assoc]; exact .cons h1 (derivesAll_snoc h2 h')

/-- The states and trees on the stack fit together. -/
inductive Ok : Nat → Stack → List Tok → Prop
  | nil : Ok 0 [] []
  | cons {s k st X t ts us} : Ok s st ts → Derives X t us → trans s X = some k → Ok k ((s, t) :: st) (ts ++ us)

theorem Ok.past {k : Nat} {st : Stack} {ts : List Tok} (h : Ok k st ts) : past k <+: st.map fun e => Tree.sym e.2 := by
  induction h with
  | nil => exact List.prefix_rfl.trans (by decide +kernel)
  | cons h1 h2 h3 ih =>
    refine (trans_past h3).trans ?_
    rw [derives_sym h2]
    exact (List.prefix_cons_inj _).mpr ih

theorem Ok.pop : ∀ (n : Nat) {k : Nat} {st : Stack} {ts : List Tok}, Ok k st ts → n ≤ st.length → ∃ s ts1 ts2, ts = ts1 ++ ts2 ∧ Ok s (st.drop n) ts1 ∧
    DerivesAll ((st.take n).reverse.map fun e => Tree.sym e.2) ((st.take n).reverse.map Prod.snd) ts2 ∧
    (n ≠ 0 → (st.drop (n - 1)).head?.map Prod.fst = some s) ∧ (n = 0 → s = k)
  | 0, k, st, ts, h, _ => ⟨k, ts, [], by simp, by simpa using h, by simpa using .nil, by simp, by simp⟩
  | n + 1, _, _, _, .nil, hn => by simp at hn
  | n + 1, _, _, _, .cons (s := s) (t := t) h1 h2 h3, hn => by
    obtain ⟨s', ts1, ts2, rfl, ho, hd, h4, h5⟩ := Ok.pop n h1 (by simpa using hn)
    refine ⟨s', ts1, ts2 ++ _, (List.append_assoc _ _ _), by simpa using ho, ?_, ?_, by simp⟩
    · have := derivesAll_snoc hd h2
      rw [derives_sym h2] at this
      simpa using this
    · intro _
      cases n with
      | zero => simp [h5 rfl]
      | succ n => simpa using h4 (by simp)

theorem lrLoop_sound : ∀ {fuel s : Nat} {st : Stack} {ts input : List Tok} {t : Tree}, Ok s st ts → lrLoop fuel s st input = .tree t →
    ∃ pre e post, ts ++ input = pre ++ e :: post ∧ e.kind = .eof ∧ Derives (.n .Formula) t pre
  | 0, _, _, _, _, _, _, h => by cases h
  | fuel + 1, s, st, ts, input, t, ho, h => by
    rw [lrLoop.eq_def] at h
    dsimp only at h
    split at h
    · next hs =>
      subst hs
      cases ho with
      | cons h1 h2 h3 =>
        obtain ⟨rfl, rfl⟩ := trans_halting h3
        cases h1 with
        | cons h4 h5 h6 =>
          obtain ⟨rfl, rfl⟩ := trans_one h6
          cases h4 with
          | cons _ _ h7 => exact (trans_zero h7).elim
          | nil =>
            simp only [List.getLast?_cons_cons, List.getLast?_singleton, Parsed.tree.injEq] at h
            subst h
            generalize hE : Sym.t Term.eof = E at h2
            cases h2 with
            | node => cases hE
            | leaf =>
              simp only [Sym.t.injEq] at hE
              exact ⟨_, _, input, by simp, hE.symm, h5⟩
    · cases input with
      | nil => cases h
      | cons a rest =>
        simp only at h
        cases hs : shift s a.kind with
        | some k =>
          rw [hs] at h
          have := lrLoop_sound (.cons ho (.leaf (t := a)) (show trans s (.t a.kind) = some k from hs)) h
          simpa using this
        | none =>
          rw [hs] at h
          simp only at h
          cases hr : reduce s a.kind with
          | none => rw [hr] at h; cases h
          | some r =>
            obtain ⟨X, n⟩ := r
            rw [hr] at h
            simp only at h
            obtain ⟨row, hrow, rfl, hx⟩ := reduce_mem hr
            obtain ⟨h1, h2, h3⟩ := reduce_check row hrow
            rw [hx] at h1 h2 h3
            simp only at h1 h2 h3
            have hp := ho.past
            have hn : n ≤ st.length := by
              have := hp.length_le
              rw [List.length_map] at this
              omega
            obtain ⟨s', ts1, ts2, rfl, ho', hd, h4, _⟩ := Ok.pop n ho hn
            have hs' : (if n = 0 then row.1 else ((st.drop (n - 1)).head?.map Prod.fst).getD row.1) = s' := by
              rw [if_neg (by omega), h4 (by omega)]; rfl
            rw [hs'] at h
            cases hg : goto s' X with
            | none => rw [hg] at h; cases h
            | some k =>
              rw [hg] at h
              simp only at h
              have htake : (past row.1).take n = (st.take n).map fun e => Tree.sym e.2 := by
                obtain ⟨u, hu⟩ := hp
                rw [List.map_take, ← hu, List.take_append_of_le_length h2]
              rw [htake] at h3
              have hd' : Derives (.n X) (.node X ((st.take n).reverse.map Prod.snd)) ts2 :=
                .node h3 (by rw [← List.map_reverse]; exact hd)
              exact lrLoop_sound (.cons ho' hd' (show trans s' (.n X) = some k from hg)) h

/-! ### The loop ends -/

def symRank : Sym → Nat
  | .t _ => 20
  | .n X => rankNT X

def rankOk (r : NT × List Sym) : Bool :=
  match r.2 with
  | [Y] => rankNT r.1 < symRank Y
  | _ => true

theorem rank_check : ∀ r ∈ rules, ∀ Y, r.2 = [Y] → rankNT r.1 < symRank Y := by
  have : ∀ r ∈ rules, rankOk r = true := by decide +kernel
  intro r hr Y hY
  have := this r hr
  rw [rankOk, hY] at this
  simpa using this

theorem symRank_le (X : Sym) : symRank X ≤ 20 := by
  cases X with
  | t => exact le_rfl
  | n X => cases X <;> decide

def topRank : Stack → Nat
  | [] => 0
  | e :: _ => symRank (Tree.sym e.2)

theorem topRank_le (st : Stack) : topRank st ≤ 20 := by
  cases st with
  | nil => exact Nat.zero_le _
  | cons e st => exact symRank_le _

theorem lrLoop_ends : ∀ {fuel s : Nat} {st : Stack} {ts input : List Tok}, Ok s st ts →
    42 * input.length + 21 * st.length + topRank st < fuel → lrLoop fuel s st input ≠ .running
  | 0, _, _, _, _, _, h => by omega
  | fuel + 1, s, st, ts, input, ho, hf => by
    rw [lrLoop.eq_def]
    dsimp only
    split
    · cases st.getLast? <;> simp
    · cases input with
      | nil => simp
      | cons a rest =>
        simp only
        cases hs : shift s a.kind with
        | some k =>
          refine lrLoop_ends (.cons ho (.leaf (t := a)) (show trans s (.t a.kind) = some k from hs)) ?_
          have : topRank ((s, Spec.LtlText.Tree.leaf a) :: st) = 20 := rfl
          rw [this]
          simp only [List.length_cons] at hf ⊢
          omega
        | none =>
          cases hr : reduce s a.kind with
          | none => simp
          | some r =>
            obtain ⟨X, n⟩ := r
            simp only
            obtain ⟨row, hrow, rfl, hx⟩ := reduce_mem hr
            obtain ⟨h1, h2, h3⟩ := reduce_check row hrow
            rw [hx] at h1 h2 h3
            simp only at h1 h2 h3
            have hp := ho.past
            have hn : n ≤ st.length := by
              have := hp.length_le
              rw [List.length_map] at this
              omega
            obtain ⟨s', ts1, ts2, rfl, ho', hd, h4, _⟩ := Ok.pop n ho hn
            have hs' : (if n = 0 then row.1 else ((st.drop (n - 1)).head?.map Prod.fst).getD row.1) = s' := by
              rw [if_neg (by omega), h4 (by omega)]; rfl
            rw [hs']
            cases hg : goto s' X with
            | none => simp
            | some k =>
              simp only
              have htake : (past row.1).take n = (st.take n).map fun e => Tree.sym e.2 := by
                obtain ⟨u, hu⟩ := hp
                rw [List.map_take, ← hu, List.take_append_of_le_length h2]
              rw [htake] at h3
              have hd' : Derives (.n X) (.node X ((st.take n).reverse.map Prod.snd)) ts2 :=
                .node h3 (by rw [← List.map_reverse]; exact hd)
              refine lrLoop_ends (.cons ho' hd' (show trans s' (.n X) = some k from hg)) ?_
              have hk : topRank ((s', Spec.LtlText.Tree.node X ((st.take n).reverse.map Prod.snd)) :: st.drop n) = rankNT X := rfl
              rw [hk]
              have hX : rankNT X ≤ 20 := symRank_le (.n X)
              simp only [List.length_cons, List.length_drop] at hf ⊢
              by_cases h : n = 1
              · subst h
                cases st with
                | nil => simp at hn
                | cons e st =>
                  have := rank_check _ h3 (Tree.sym e.2) (by simp)
                  have ht : topRank (e :: st) = symRank (Tree.sym e.2) := rfl
                  rw [ht] at hf
                  simp only [List.length_cons] at hf ⊢
                  simp only at this
                  omega
              · omega

theorem parse_total (toks : List Tok) : parse toks ≠ .running := by
  refine lrLoop_ends .nil ?_
  simp only [List.length_append, List.length_cons, List.length_nil, topRank]
  omega

/-- What the parser returns is a parse tree. -/
theorem parse_sound {toks : List Tok} {t : Tree} (hk : ∀ a ∈ toks, a.kind ≠ .eof) (h : parse toks = .tree t) : Derives (.n .Formula) t toks := by
  obtain ⟨pre, e, post, h1, h2, h3⟩ := lrLoop_sound .nil h
  have : pre = toks := by
    rw [List.nil_append] at h1
    rcases List.append_eq_append_iff.mp h1 with ⟨u, rfl, hu⟩ | ⟨u, rfl, hu⟩
    · cases u with
      | nil => simp
      | cons x u => simp at hu
    · cases u with
      | nil => simp
      | cons x u =>
        simp only [List.cons_append, List.cons.injEq] at hu
        exact absurd h2 (hk e (by simp [hu.1]))
  exact this ▸ h3

/-! ### Completeness -/

def termBit (a : Term) : Nat := a.ctorIdx

def firstSet : Sym → Nat
  | .t a => 2 ^ termBit a
  | .n X => firstNT X

def allTerms : List Term := [.bang, .amp, .lpar, .rpar, .star, .plus, .minus, .slash, .zero, .one, .semi, .less, .equal, .greater, .F, .FALSE, .G, .TRUE,
  .U, .W, .X, .lbrack, .backslash, .rbrack, .caret, .id, .next, .bar, .tilde, .eof, .other]

theorem mem_allTerms (a : Term) : a ∈ allTerms := by cases a <;> decide

def sub (m n : Nat) : Bool := m &&& n == m

theorem sub_bit {m n i : Nat} (h : sub m n = true) (hi : m.testBit i = true) : n.testBit i = true := by
  have : m &&& n = m := by simpa [sub] using h
  rw [← this, Nat.testBit_and] at hi
  simp_all

theorem first_check : ∀ r ∈ rules, ∀ Y ∈ r.2.head?, sub (firstSet Y) (firstNT r.1) = true := by decide +kernel

theorem rules_ne_check : ∀ r ∈ rules, r.2 ≠ [] := by decide +kernel

mutual

theorem derives_first : ∀ {X : Sym} {t : Tree} {ts : List Tok}, Derives X t ts → ∃ a us, ts = a :: us ∧ (firstSet X).testBit (termBit a.kind) = true
  | _, _, _, .leaf (t := t) => ⟨t, [], rfl, by simp [firstSet]⟩
  | _, _, _, .node (X := X) (rhs := rhs) hr h => by
    cases rhs with
    | nil => exact absurd rfl (rules_ne_check _ hr)
    | cons Y Ys =>
      obtain ⟨a, us, rfl, h1⟩ := derivesAll_first h
      exact ⟨a, us, rfl, sub_bit (first_check _ hr Y (by simp)) h1⟩

theorem derivesAll_first : ∀ {X : Sym} {Xs : List Sym} {cs : List Tree} {ts : List Tok}, DerivesAll (X :: Xs) cs ts →
    ∃ a us, ts = a :: us ∧ (firstSet X).testBit (termBit a.kind) = true
  | _, _, _, _, .cons h _ => by
    obtain ⟨a, us, rfl, h1⟩ := derives_first h
    exact ⟨a, _, rfl, h1⟩

end

/-- The check of one item. -/
def itemOk (s : Nat) (its : List (Nat × Nat × Nat)) (it : Nat × Nat × Nat) : Bool :=
  match rules[it.1]? with
  | none => false
  | some (X, rhs) =>
    match rhs[it.2.1]? with
    | none => it.2.1 == rhs.length && allTerms.all fun a => !it.2.2.testBit (termBit a) || (shift s a == none && reduce s a == some (X, rhs.length))
    | some Y =>
      (match trans s Y with
        | none => false
        | some k => (itemsAt k).any fun i => i.1 == it.1 && i.2.1 == it.2.1 + 1 && sub it.2.2 i.2.2) &&
      (match Y with
        | .t _ => true
        | .n Y =>
          let la := match rhs[it.2.1 + 1]? with
            | none => it.2.2
            | some Z => firstSet Z
          (List.range rules.length).all fun j =>
            match rules[j]? with
            | none => true
            | some (Y', _) => Y' != Y || its.any fun i => i.1 == j && i.2.1 == 0 && sub la i.2.2)

theorem items_check : ∀ r ∈ itemRows, r.1 ≠ haltingState ∧ ∀ it ∈ r.2, itemOk r.1 r.2 it = true := by decide +kernel

theorem itemsAt_row {s : Nat} {it : Nat × Nat × Nat} (h : it ∈ itemsAt s) : s ≠ haltingState ∧ itemOk s (itemsAt s) it = true := by
  rw [itemsAt] at h ⊢
  cases hr : lookup s itemRows with
  | none => rw [hr] at h; simp at h
  | some row =>
    rw [hr] at h
    obtain ⟨h1, h2⟩ := items_check _ (lookup_mem hr)
    exact ⟨h1, h2 it h⟩

theorem item_next {s r d L : Nat} {X : NT} {rhs : List Sym} {Y : Sym} (h : (r, d, L) ∈ itemsAt s) (hr : rules[r]? = some (X, rhs))
    (hY : rhs[d]? = some Y) : ∃ k L', trans s Y = some k ∧ (r, d + 1, L') ∈ itemsAt k ∧ sub L L' = true := by
  have := (itemsAt_row h).2
  simp only [itemOk, hr, hY, Bool.and_eq_true] at this
  have h1 := this.1
  cases hk : trans s Y with
  | none => rw [hk] at h1; cases h1
  | some k =>
    rw [hk] at h1
    simp only [List.any_eq_true, Bool.and_eq_true, beq_iff_eq] at h1
    obtain ⟨⟨r', d', L'⟩, h2, ⟨h3, h4⟩, h5⟩ := h1
    simp only at h3 h4 h5
    subst h3 h4
    exact ⟨k, L', rfl, h2, h5⟩

theorem item_closure {s r d L : Nat} {X Z : NT} {rhs rhs' : List Sym} {j : Nat} (h : (r, d, L) ∈ itemsAt s) (hr : rules[r]? = some (X, rhs))
    (hY : rhs[d]? = some (.n Z)) (hj : rules[j]? = some (Z, rhs')) : ∃ L', (j, 0, L') ∈ itemsAt s ∧
      sub (match rhs[d + 1]? with | none => L | some W => firstSet W) L' = true := by
  have := (itemsAt_row h).2
  simp only [itemOk, hr, hY, Bool.and_eq_true] at this
  have h1 := List.all_eq_true.mp this.2 j (List.mem_range.mpr (List.getElem?_eq_some_iff.mp hj).1)
  rw [hj] at h1
  simp only [bne_self_eq_false, Bool.false_or, List.any_eq_true, Bool.and_eq_true, beq_iff_eq] at h1
  obtain ⟨⟨r', d', L'⟩, h2, ⟨h3, h4⟩, h5⟩ := h1
  simp only at h3 h4 h5
  subst h3 h4
  exact ⟨L', h2, h5⟩

theorem item_reduce {s r d L : Nat} {X : NT} {rhs : List Sym} {a : Term} (h : (r, d, L) ∈ itemsAt s) (hr : rules[r]? = some (X, rhs))
    (hd : d = rhs.length) (ha : L.testBit (termBit a) = true) : shift s a = none ∧ reduce s a = some (X, rhs.length) := by
  have := (itemsAt_row h).2
  simp only [itemOk, hr] at this
  rw [List.getElem?_eq_none (by omega)] at this
  simp only [Bool.and_eq_true, List.all_eq_true] at this
  have := this.2 a (mem_allTerms a)
  simpa [ha] using this

/-- Every rule for the category can be used in the state, with the symbol ahead. -/
def Ready (s : Nat) (X : Sym) (b : Term) : Prop :=
  match X with
  | .t _ => True
  | .n X => ∀ j rhs, rules[j]? = some (X, rhs) → ∃ L, (j, 0, L) ∈ itemsAt s ∧ L.testBit (termBit b) = true

mutual

theorem derives_complete : ∀ {X : Sym} {t : Tree} {ts : List Tok}, Derives X t ts → ∀ {s k : Nat} (st : Stack) (b : Tok) (rest : List Tok),
    trans s X = some k → s ≠ haltingState → Ready s X b.kind →
    ∃ m, ∀ fuel, lrLoop (fuel + m) s st (ts ++ b :: rest) = lrLoop fuel k ((s, t) :: st) (b :: rest)
  | _, _, _, .leaf (t := t), s, k, st, b, rest, hk, hs, _ => by
    refine ⟨1, fun fuel => ?_⟩
    have hk' : shift s t.kind = some k := hk
    rw [lrLoop.eq_def]
    dsimp only
    rw [if_neg hs]
    simp only [List.cons_append, List.nil_append, hk']
  | _, _, _, .node (X := X) (rhs := rhs) (cs := cs) hr h, s, k, st, b, rest, hk, hs, hb => by
    obtain ⟨j, hj⟩ := List.mem_iff_getElem?.mp hr
    obtain ⟨L, h1, h2⟩ := hb j rhs hj
    obtain ⟨m, s', L', pushed, h3, h4, h5, h6, h7⟩ := derivesAll_complete h st b rest hj (by simp) h1 h2
    obtain ⟨h8, h9⟩ := item_reduce h3 hj rfl h4
    have hlen : pushed.length = rhs.length := by
      rw [derivesAll_length h, ← h5]; simp
    have hne : rhs ≠ [] := rules_ne_check _ hr
    have hlen0 : rhs.length ≠ 0 := by simpa using hne
    refine ⟨m + 1, fun fuel => ?_⟩
    rw [show fuel + (m + 1) = (fuel + 1) + m by omega, h7, lrLoop.eq_def]
    dsimp only
    rw [if_neg (itemsAt_row h3).1]
    simp only [h8, h9, if_neg hlen0]
    have hst : ((pushed ++ st).drop (rhs.length - 1)).head?.map Prod.fst = some s := by
      have hp : pushed ≠ [] := by intro h; rw [h] at hlen; exact hlen0 hlen.symm
      have := h6 hp
      rw [← hlen, List.drop_append_of_le_length (by omega)]
      rw [List.head?_append]
      have hd : (pushed.drop (pushed.length - 1)) = [pushed.getLast hp] := List.drop_length_sub_one hp
      rw [hd]
      rw [List.getLast?_eq_getLast_of_ne_nil hp] at this
      simpa using this
    rw [hst]
    have hk' : goto s X = some k := hk
    simp only [Option.getD_some, hk']
    rw [← hlen, List.take_left, List.drop_left, h5]

theorem derivesAll_complete : ∀ {Ys : List Sym} {cs : List Tree} {ts : List Tok}, DerivesAll Ys cs ts → ∀ {r d s L : Nat} {X : NT} {rhs : List Sym}
    (st : Stack) (b : Tok) (rest : List Tok), rules[r]? = some (X, rhs) → rhs.drop d = Ys → (r, d, L) ∈ itemsAt s → L.testBit (termBit b.kind) = true →
    ∃ m s' L' pushed, (r, rhs.length, L') ∈ itemsAt s' ∧ L'.testBit (termBit b.kind) = true ∧ pushed.reverse.map Prod.snd = cs ∧
      (pushed ≠ [] → pushed.getLast?.map Prod.fst = some s) ∧
      ∀ fuel, lrLoop (fuel + m) s st (ts ++ b :: rest) = lrLoop fuel s' (pushed ++ st) (b :: rest)
  | _, _, _, .nil, r, d, s, L, X, rhs, st, b, rest, hr, hd, hi, hL => by
    refine ⟨0, s, L, [], ?_, hL, rfl, by simp, fun fuel => rfl⟩
    have h1 : rhs.length ≤ d := by simpa using hd
    have h2 := (itemsAt_row hi).2
    simp only [itemOk, hr] at h2
    rw [List.getElem?_eq_none h1] at h2
    simp only [Bool.and_eq_true, beq_iff_eq] at h2
    rw [← h2.1]; exact hi
  | _, _, _, .cons (s := Y) (ss := Ys) (c := c) (cs := cs) (ts := ts) (us := us) h1 h2, r, d, s, L, X, rhs, st, b, rest, hr, hd, hi, hL => by
    have hY : rhs[d]? = some Y := by
      have : (rhs.drop d)[0]? = some Y := by rw [hd]; rfl
      simpa using this
    have hd' : rhs.drop (d + 1) = Ys := by
      rw [← List.drop_drop, hd]; rfl
    obtain ⟨k, L', h3, h4, h5⟩ := item_next hi hr hY
    -- the symbol after the first tree
    obtain ⟨b', rest', hb', hready⟩ : ∃ b' rest', us ++ b :: rest = b' :: rest' ∧ Ready s Y b'.kind := by
      cases h2 with
      | nil =>
        refine ⟨b, rest, rfl, ?_⟩
        cases Y with
        | t => trivial
        | n Z =>
          intro j rhs' hj
          obtain ⟨L2, h6, h7⟩ := item_closure hi hr hY hj
          rw [List.getElem?_eq_none (by simpa using hd')] at h7
          exact ⟨L2, h6, sub_bit h7 hL⟩
      | cons h2 h3 =>
        rename_i W Ws c' cs' ts' us'
        obtain ⟨a, vs, hvs, h8⟩ := derives_first h2
        refine ⟨a, vs ++ us' ++ b :: rest, by rw [hvs]; simp, ?_⟩
        cases Y with
        | t => trivial
        | n Z =>
          intro j rhs' hj
          obtain ⟨L2, h6, h7⟩ := item_closure hi hr hY hj
          have hW : rhs[d + 1]? = some W := by
            have : (rhs.drop (d + 1))[0]? = some W := by rw [hd']; rfl
            simpa using this
          rw [hW] at h7
          exact ⟨L2, h6, sub_bit h7 h8⟩
    obtain ⟨m1, hm1⟩ := derives_complete h1 st b' rest' h3 (itemsAt_row hi).1 hready
    obtain ⟨m2, s', L2, pushed, h6, h7, h8, h9, h10⟩ := derivesAll_complete h2 ((s, c) :: st) b rest hr hd' h4 (sub_bit h5 hL)
    refine ⟨m2 + m1, s', L2, pushed ++ [(s, c)], h6, h7, by simpa using h8, fun _ => by simp, fun fuel => ?_⟩
    rw [List.append_assoc, hb', ← Nat.add_assoc, hm1, ← hb', h10, List.append_assoc]
    rfl

end

theorem start_check : ∀ j ∈ List.range rules.length, ∀ r ∈ rules[j]?, r.1 = .Formula →
    ((itemsAt 0).any fun i => i.1 == j && i.2.1 == 0 && i.2.2.testBit (termBit .eof)) = true := by decide +kernel

theorem lrLoop_more : ∀ {m n s : Nat} {st : Stack} {input : List Tok} {p : Parsed}, m ≤ n → lrLoop m s st input = p → p ≠ .running →
    lrLoop n s st input = p
  | 0, _, _, _, _, p, _, h, hp => absurd h.symm hp
  | m + 1, 0, _, _, _, _, hmn, _, _ => by omega
  | m + 1, n + 1, s, st, input, p, hmn, h, hp => by
    rw [lrLoop.eq_def] at h ⊢
    dsimp only at h ⊢
    split
    · next hs => rwa [if_pos hs] at h
    · next hs =>
      rw [if_neg hs] at h
      cases input with
      | nil => exact h
      | cons a rest =>
        simp only at h ⊢
        cases hsh : shift s a.kind with
        | some k => rw [hsh] at h; exact lrLoop_more (by omega) h hp
        | none =>
          rw [hsh] at h
          simp only at h ⊢
          cases hr : reduce s a.kind with
          | none => rw [hr] at h; exact h
          | some r =>
            rw [hr] at h
            simp only at h ⊢
            generalize (if r.2 = 0 then s else _) = s' at h ⊢
            cases hg : goto s' r.1 with
            | none => rw [hg] at h; exact h
            | some k => rw [hg] at h; exact lrLoop_more (by omega) h hp

/-- The parser finds every parse tree. -/
theorem parse_complete {toks : List Tok} {t : Tree} (h : Derives (.n .Formula) t toks) : parse toks = .tree t := by
  obtain ⟨m, hm⟩ := derives_complete h (s := 0) (k := 1) [] ⟨.eof, []⟩ [] (by decide +kernel) (by decide) (by
    intro j rhs hj
    have := start_check j (List.mem_range.mpr (List.getElem?_eq_some_iff.mp hj).1) _ hj rfl
    simp only [List.any_eq_true, Bool.and_eq_true, beq_iff_eq] at this
    obtain ⟨⟨r', d', L'⟩, h2, ⟨h3, h4⟩, h5⟩ := this
    simp only at h3 h4 h5
    subst h3 h4
    exact ⟨L', h2, h5⟩)
  have h1 := hm 2
  have h2 : lrLoop 2 1 [(0, t)] [⟨.eof, []⟩] = .tree t := by rfl
  rw [h2] at h1
  have h3 := parse_total toks
  rw [parse] at h3 ⊢
  rcases Nat.le_total (64 * toks.length + 200) (2 + m) with hle | hle
  · have := lrLoop_more hle rfl h3
    rw [← this]; exact h1
  · exact lrLoop_more hle h1 (by simp)

/-- There is at most one parse tree. -/
theorem derives_unique {toks : List Tok} {t t' : Tree} (h : Derives (.n .Formula) t toks) (h' : Derives (.n .Formula) t' toks) : t = t' := by
  have := (parse_complete h).symm.trans (parse_complete h')
  simpa using this

end Slugs.Model.LtlText
