import Verif.Lemmas.Substitutor

/-!
The tool that replaces integer variables: the meaning of what it prints for a line.
-/

namespace Slugs.Model.Substitutor

open Slugs.Spec (Word isDigit digitsVal prime)
open Slugs.Spec.Structured
open Slugs.Model.Structured

/-! ### Sums -/

structure IsAdd (a b c : NExp) : Prop where
  value : ∀ bounds val, c.value bounds val = a.value bounds val + b.value bounds val
  proper : ∀ bounds nx, a.Proper bounds nx → b.Proper bounds nx → c.Proper bounds nx
  names : ∀ x ∈ c.names, x ∈ a.names ∨ x ∈ b.names

theorem isAdd_add (a b : NExp) : IsAdd a b (.add a b) := ⟨fun _ _ => rfl, fun _ _ h1 h2 => ⟨h1, h2⟩, fun _ hx => List.mem_append.mp hx⟩

theorem infixSum_add {ts us : List Tok} {a b : NExp} {op : Tok} (h : InfixSum ts a) (ho : op.kind = .plus) (h' : InfixSum us b) :
    ∃ c, InfixSum (ts ++ op :: us) c ∧ IsAdd a b c := by
  refine InfixSum.rec (motive_1 := fun ts a _ => ∃ c, InfixSum (ts ++ op :: us) c ∧ IsAdd a b c) (motive_2 := fun _ _ _ => True) (motive_3 := fun _ _ _ => True)
    ?_ ?_ ?_ ?_ ?_ ?_ ?_ h
  · exact fun {ts a} hf _ => ⟨_, .add hf ho h', isAdd_add a b⟩
  · rintro ts vs a1 a2 op1 h1 h2 _ _ ⟨c, k1, k2⟩
    refine ⟨.add a1 c, by rw [List.append_assoc]; exact .add h1 h2 k1, ?_, ?_, ?_⟩
    · intro bounds val
      simp only [NExp.value, k2.value]
      omega
    · exact fun bounds nx p q => ⟨p.1, k2.proper _ _ p.2 q⟩
    · intro x hx
      simp only [NExp.names, List.mem_append] at hx ⊢
      rcases hx with hx | hx
      · exact .inl (.inl hx)
      · rcases k2.names x hx with hx | hx
        · exact .inl (.inr hx)
        · exact .inr hx
  all_goals intros; trivial

theorem isSum_bracket {bools : List Word} {s : List Char} {e : NExp} {ys : List Char} {us : List Tok} (h : IsSum bools s e) (h' : Lexes bools ys us) :
    ∃ ts, Lexes bools ('(' :: s ++ ')' :: ys) (ts ++ us) ∧ InfixNumber ts e := by
  obtain ⟨ts, h1, h2⟩ := h
  refine ⟨⟨.lpar, txt!"("⟩ :: ts ++ [⟨.rpar, txt!")"⟩], ?_, .brackets rfl h2 rfl⟩
  have := lexes_brackets h1 h'
  simpa using this

/-- `((a)+(b))`. -/
theorem isSum_plus {bools : List Word} {s t : List Char} {a b : NExp} (h : IsSum bools s a) (h' : IsSum bools t b) :
    IsSum bools (txt!"((" ++ s ++ txt!")+(" ++ t ++ txt!"))") (.add a b) := by
  obtain ⟨u2, k1, k2⟩ := isSum_bracket (ys := []) (us := []) h' .nil
  obtain ⟨u1, j1, j2⟩ := isSum_bracket (ys := '+' :: ('(' :: t ++ ')' :: [])) h (lexes_char (c := '+') (by decide) k1)
  have hs : InfixSum (u1 ++ charTok '+' :: u2) (.add a b) := .add (.one j2) rfl (.one (.one k2))
  rw [List.append_nil] at j1
  obtain ⟨u3, i1, i2⟩ := isSum_bracket (ys := []) (us := []) ⟨_, j1, hs⟩ .nil
  refine ⟨u3, ?_, .one (.one i2)⟩
  simpa using i1

/-- `"+".join(...)`. -/
theorem isSum_join {bools : List Word} : ∀ {bs : List (List Char)} {es : List NExp}, List.Forall₂ (IsSum bools) bs es → bs ≠ [] →
    ∃ c, IsSum bools (plusJoin bs) c ∧ (∀ bounds val, c.value bounds val = (es.map fun e => e.value bounds val).sum) ∧
      (∀ bounds nx, (∀ e ∈ es, e.Proper bounds nx) → c.Proper bounds nx) ∧ ∀ x ∈ c.names, ∃ e ∈ es, x ∈ e.names
  | [], _, _, hn => absurd rfl hn
  | [b], _, h, _ => by
    cases h with
    | @cons _ e _ es h1 h2 =>
      cases h2
      exact ⟨e, h1, fun _ _ => by simp, fun _ _ h => h e (by simp), fun x hx => ⟨e, by simp, hx⟩⟩
  | b :: b' :: bs, _, h, _ => by
    cases h with
    | @cons _ e _ es h1 h2 =>
      obtain ⟨c, ⟨us, k1, k2⟩, k3, k4, k5⟩ := isSum_join h2 (by simp)
      obtain ⟨ts, h1, h1'⟩ := h1
      obtain ⟨d, j1, j2⟩ := infixSum_add (op := charTok '+') h1' rfl k2
      refine ⟨d, ⟨_, lexes_append h1 (by decide) (lexes_char (c := '+') (by decide) k1), j1⟩, fun bounds val => ?_, fun bounds nx hp => ?_, fun x hx => ?_⟩
      · rw [j2.value, k3]; simp
      · exact j2.proper _ _ (hp e (by simp)) (k4 _ _ fun e he => hp e (by simp [he]))
      · rcases j2.names x hx with hx | hx
        · exact ⟨e, by simp, hx⟩
        · obtain ⟨e', he, hx⟩ := k5 x hx
          exact ⟨e', by simp [he], hx⟩

/-! ### What the new numbers and formulas mean -/

/-- The values of the names, or their next values. -/
def pr {A : Type} (p : Bool) (v : Word → A) : Word → A := if p then fun x => v (prime x) else v

structure NRel (R : Terms) (p : Bool) (a a' : NExp) (es : List NExp) : Prop where
  value : ∀ bounds bounds' val val', (∀ x ∈ a.names, FitsAt R bounds' val val' x) →
    a'.value bounds' val' = a.value bounds (pr p val) + (es.map fun e => e.value bounds' val').sum
  proper : ∀ bounds', (∀ x ∈ a.names, ProperAt R bounds' x) → a'.Proper bounds' false ∧ ∀ e ∈ es, e.Proper bounds' false
  names : (∀ y ∈ a'.names, ∃ x ∈ a.names, y ∈ namesFor R x) ∧ ∀ e ∈ es, ∀ y ∈ e.names, ∃ x ∈ a.names, y ∈ namesFor R x
  next : p = true → a.names = []

structure FRel (R : Terms) (p : Bool) (g g' : SFml) : Prop where
  holds : ∀ bounds bounds' b val val', (∀ x ∈ g.numbers p, FitsAt R bounds' val val' x) → g'.holds bounds' b val' = g.holds bounds (pr p b) (pr p val)
  proper : ∀ bounds', (∀ x ∈ g.numbers p, ProperAt R bounds' x) → g'.Proper bounds' false
  atoms : ∀ y ∈ g'.atoms false, y ∈ g.atoms p
  numbers : ∀ y ∈ g'.numbers false, ∃ x ∈ g.numbers p, y ∈ namesFor R x

theorem FRel.congr {R : Terms} {p : Bool} {g g' g'' : SFml} (h : FRel R p g g') (e : SEquiv g'' g') : FRel R p g g'' where
  holds bounds bounds' b val val' hf := (e.holds _ _ _).trans (h.holds bounds bounds' b val val' hf)
  proper bounds' hf := (e.proper _ _).mpr (h.proper bounds' hf)
  atoms y hy := h.atoms y (by rw [← e.atoms]; exact hy)
  numbers y hy := h.numbers y (by rw [← e.numbers]; exact hy)

/-- Operators on formulas. -/
structure Con (op : SFml → SFml → SFml) (v : Bool → Bool → Bool) : Prop where
  holds : ∀ f g bounds b val, (op f g).holds bounds b val = v (f.holds bounds b val) (g.holds bounds b val)
  proper : ∀ f g bounds nx, (op f g).Proper bounds nx ↔ f.Proper bounds nx ∧ g.Proper bounds nx
  atoms : ∀ f g nx, (op f g).atoms nx = f.atoms nx ++ g.atoms nx
  numbers : ∀ f g nx, (op f g).numbers nx = f.numbers nx ++ g.numbers nx

theorem con_and : Con .and (· && ·) := ⟨fun _ _ _ _ _ => rfl, fun _ _ _ _ => Iff.rfl, fun _ _ _ => rfl, fun _ _ _ => rfl⟩

theorem con_or : Con .or (· || ·) := ⟨fun _ _ _ _ _ => rfl, fun _ _ _ _ => Iff.rfl, fun _ _ _ => rfl, fun _ _ _ => rfl⟩

theorem con_imp : Con .imp (fun a b => !a || b) := ⟨fun _ _ _ _ _ => rfl, fun _ _ _ _ => Iff.rfl, fun _ _ _ => rfl, fun _ _ _ => rfl⟩

theorem con_iff : Con .iff (fun a b => a == b) := ⟨fun _ _ _ _ _ => rfl, fun _ _ _ _ => Iff.rfl, fun _ _ _ => rfl, fun _ _ _ => rfl⟩

theorem Con.rel {op : SFml → SFml → SFml} {v : Bool → Bool → Bool} (c : Con op v) {R : Terms} {p : Bool} {f g f' g' : SFml} (h1 : FRel R p f f')
    (h2 : FRel R p g g') : FRel R p (op f g) (op f' g') where
  holds bounds bounds' b val val' hf := by
    rw [c.numbers] at hf
    rw [c.holds, c.holds, h1.holds bounds bounds' b val val' fun x hx => hf x (by simp [hx]), h2.holds bounds bounds' b val val' fun x hx => hf x (by simp [hx])]
  proper bounds' hf := by
    rw [c.numbers] at hf
    exact (c.proper _ _ _ _).mpr ⟨h1.proper _ fun x hx => hf x (by simp [hx]), h2.proper _ fun x hx => hf x (by simp [hx])⟩
  atoms y hy := by
    rw [c.atoms, List.mem_append] at hy
    rw [c.atoms, List.mem_append]
    exact hy.imp (h1.atoms y) (h2.atoms y)
  numbers y hy := by
    rw [c.numbers, List.mem_append] at hy
    rw [c.numbers]
    rcases hy with hy | hy
    · obtain ⟨x, hx, h⟩ := h1.numbers y hy
      exact ⟨x, by simp [hx], h⟩
    · obtain ⟨x, hx, h⟩ := h2.numbers y hy
      exact ⟨x, by simp [hx], h⟩

/-! ### Joined formulas -/

/-- The text is a formula that can be negated. -/
def IsUnary (bools : List Word) (s : List Char) (g : SFml) : Prop := ∃ ts, Lexes bools s ts ∧ Infix 4 ts g

theorem infix_down {n m : Nat} {ts : List Tok} {f : SFml} (h : Infix m ts f) (hn : n ≤ m) (hm : m ≤ 5) : Infix n ts f := by
  obtain ⟨k, rfl⟩ := Nat.exists_eq_add_of_le hn
  induction k with
  | zero => exact h
  | succ k ih => exact ih (.up (by omega) h) (by omega) (by omega)

theorem unary_bracket {bools : List Word} {s : List Char} {g : SFml} {ys : List Char} {us : List Tok} (h : IsUnary bools s g) (h' : Lexes bools ys us) :
    ∃ ts, Lexes bools ('(' :: s ++ ')' :: ys) (ts ++ us) ∧ Infix 5 ts g := by
  obtain ⟨ts, h1, h2⟩ := h
  refine ⟨⟨.lpar, txt!"("⟩ :: ts ++ [⟨.rpar, txt!")"⟩], ?_, .brackets (.inl ⟨rfl, rfl⟩) (infix_down h2 (by decide) (by decide))⟩
  have := lexes_brackets h1 h'
  simpa using this

/-- An operator that is written with one character. -/
structure Sign (c : Char) (n : Nat) (op : SFml → SFml → SFml) : Prop where
  level : n ≤ 3
  char : (pySpace c || nameStart c || isDigit c) = false
  apply : ∀ {ts us f g}, Infix n ts f → Infix 5 us g → Infix n (ts ++ [charTok c] ++ us) (op f g)

theorem sign_and : Sign '&' 3 .and := ⟨by decide, by decide, fun h1 h2 => .and h1 (.inl rfl) (.up (by decide) h2)⟩

theorem sign_or : Sign '|' 2 .or := ⟨by decide, by decide, fun h1 h2 => .or h1 (.inl rfl) (.up (by decide) (.up (by decide) h2))⟩

theorem bracketJoin_cons (c : Char) (w : List Char) (ws : List (List Char)) :
    bracketJoin [c] (w :: ws) = ('(' :: w ++ txt!")") ++ ws.flatMap fun w => c :: '(' :: w ++ txt!")" := by
  induction ws generalizing w with
  | nil => simp [bracketJoin]
  | cons w' ws ih => rw [bracketJoin, ih, List.flatMap_cons]; simp; simp

theorem joined {bools : List Word} {c : Char} {n : Nat} {op : SFml → SFml → SFml} (hs : Sign c n op) : ∀ {ws : List (List Char)} {gs : List SFml},
    List.Forall₂ (IsUnary bools) ws gs → ∀ {s : List Char} {ts : List Tok} {f : SFml}, Lexes bools s ts → Infix n ts f →
    ∃ us, Lexes bools (s ++ ws.flatMap fun w => c :: '(' :: w ++ txt!")") us ∧ Infix n us (gs.foldl op f) := by
  intro ws gs h
  have hc : nameChar c = false := by
    have := hs.char
    simp only [Bool.or_eq_false_iff] at this
    rw [nameChar, this.1.2, this.2]
    rfl
  induction h with
  | nil => intro s ts f h1 h2; exact ⟨ts, by simpa using h1, h2⟩
  | @cons w g ws gs h _ ih =>
    intro s ts f h1 h2
    obtain ⟨us, k1, k2⟩ := unary_bracket (ys := []) (us := []) h .nil
    rw [List.append_nil] at k1
    have k3 := lexes_append h1 hc (lexes_char hs.char k1)
    obtain ⟨vs, j1, j2⟩ := ih k3 (by simpa using hs.apply h2 k2)
    refine ⟨vs, ?_, j2⟩
    simpa using j1

theorem bracketJoin_unary {bools : List Word} {c : Char} {n : Nat} {op : SFml → SFml → SFml} (hs : Sign c n op) {ws : List (List Char)} {g : SFml} {gs : List SFml}
    (h : List.Forall₂ (IsUnary bools) ws (g :: gs)) : IsUnary bools ('(' :: bracketJoin [c] ws ++ txt!")") (gs.foldl op g) := by
  cases h with
  | @cons w _ ws _ h1 h2 =>
    obtain ⟨us, k1, k2⟩ := unary_bracket (ys := []) (us := []) h1 .nil
    rw [List.append_nil] at k1
    obtain ⟨vs, j1, j2⟩ := joined hs h2 k1 (infix_down k2 (le_trans hs.level (by decide)) le_rfl)
    rw [bracketJoin_cons]
    refine ⟨⟨.lpar, txt!"("⟩ :: vs ++ [⟨.rpar, txt!")"⟩], ?_, .up (by decide) (.brackets (.inl ⟨rfl, rfl⟩) (infix_down j2 (by omega) (le_trans hs.level (by decide))))⟩
    have := lexes_brackets j1 .nil
    simpa using this

/-- `((a) <-> (b))` and `((a) -> (b))`. -/
theorem binary_unary {bools : List Word} {o : List Char} {ops : List Tok} {n : Nat} {op : SFml → SFml → SFml} {s t : List Char} {f g : SFml}
    (ho : ∀ ys us, Lexes bools ys us → Lexes bools (o ++ ys) (ops ++ us))
    (hi : ∀ {ts us f g}, Infix 5 ts f → Infix 5 us g → Infix n (ts ++ ops ++ us) (op f g)) (hn : n ≤ 5)
    (h1 : IsUnary bools s f) (h2 : IsUnary bools t g) : IsUnary bools (txt!"((" ++ s ++ txt!")" ++ o ++ txt!"(" ++ t ++ txt!"))") (op f g) := by
  obtain ⟨u2, k1, k2⟩ := unary_bracket (ys := []) (us := []) h2 .nil
  obtain ⟨u1, j1, j2⟩ := unary_bracket h1 (ho _ _ k1)
  rw [List.append_nil] at j1
  refine ⟨⟨.lpar, txt!"("⟩ :: (u1 ++ (ops ++ u2)) ++ [⟨.rpar, txt!")"⟩], ?_, .up (by decide) (.brackets (.inl ⟨rfl, rfl⟩) (infix_down ?_ (Nat.zero_le n) hn))⟩
  · have := lexes_brackets j1 .nil
    simpa using this
  · have := hi j2 k2
    simpa using this

/-! ### Numbers -/

section

variable {bools : List Word} {repl : Replacements} {R : Terms}

theorem replaceExprAll_three {a b c : Tree} {L : List Tree} {bs : List (List Char)} (h : replaceExprAll repl [a, b, c] = some (L, bs)) :
    ∃ a' b' c' b1 b2 b3, replaceExpr repl a = some (a', b1) ∧ replaceExpr repl b = some (b', b2) ∧ replaceExpr repl c = some (c', b3) ∧ L = [a', b', c'] ∧
      bs = b1 ++ (b2 ++ b3) := by
  simp only [replaceExprAll] at h
  obtain ⟨⟨a', b1⟩, h1, h⟩ := bind_some h
  obtain ⟨⟨L1, bs1⟩, h2, h⟩ := map_some h
  obtain ⟨⟨b', b2⟩, h3, h2⟩ := bind_some h2
  obtain ⟨⟨L2, bs2⟩, h4, h2⟩ := map_some h2
  obtain ⟨⟨c', b3⟩, h5, h4⟩ := bind_some h4
  cases h
  cases h2
  cases h4
  exact ⟨a', b', c', b1, b2, b3, h1, h3, h5, rfl, by simp⟩

/-- What is printed for a number. -/
theorem number_printed (hR : TermsFor bools repl R) {T : Tree} {a : NExp} (h : NumTree bools T a) :
    ∀ {T' : Tree} {bs : List (List Char)}, replaceExpr repl T = some (T', bs) → ∀ {p : Bool} {s : List Char}, printTree T' p = some s →
      ∃ a' es, IsSum bools s a' ∧ List.Forall₂ (IsSum bools) bs es ∧ NRel R p a a' es := by
  induction h with
  | @var t ht hk =>
    intro T' bs h p s hs
    rw [replaceExpr, if_neg (by rw [hk]; decide), if_pos hk] at h
    rcases hR t.text with ⟨e1, e2⟩ | ⟨w, v, a, b, e1, e2, e3, e4⟩
    · rw [e1] at h
      cases h
      rw [printTree, hk] at hs
      cases p with
      | true => cases hs
      | false =>
        cases hs
        refine ⟨.var t.text, [], ⟨[t], ht.lexes (.inr (.inl hk)), .one (.one (.var hk))⟩, .nil, ?_, ?_, ?_, fun h => by cases h⟩
        · intro bounds bounds' val val' hf
          have := hf t.text (by simp [NExp.names])
          rw [FitsAt, e2] at this
          simpa [NExp.value, pr] using this
        · intro bounds' hf
          have := hf t.text (by simp [NExp.names])
          rw [ProperAt, e2] at this
          exact ⟨this, by simp⟩
        · refine ⟨fun y hy => ⟨t.text, by simp [NExp.names], ?_⟩, by simp⟩
          rw [namesFor, e2]
          exact hy
    · rw [e1] at h
      cases h
      cases p with
      | true => cases hs
      | false =>
        cases hs
        refine ⟨a, [b], e3, .cons e4 .nil, ?_, ?_, ?_, fun h => by cases h⟩
        · intro bounds bounds' val val' hf
          have := hf t.text (by simp [NExp.names])
          rw [FitsAt, e2] at this
          simp only at this
          simp only [NExp.value, pr, List.map_cons, List.map_nil, List.sum_cons, List.sum_nil, Bool.false_eq_true, if_false]
          omega
        · intro bounds' hf
          have := hf t.text (by simp [NExp.names])
          rw [ProperAt, e2] at this
          exact ⟨this.1, by simpa using this.2⟩
        · refine ⟨fun y hy => ⟨t.text, by simp [NExp.names], ?_⟩, fun e he y hy => ⟨t.text, by simp [NExp.names], ?_⟩⟩
          · rw [namesFor, e2]
            exact List.mem_append_left _ hy
          · rw [namesFor, e2]
            rw [List.mem_singleton] at he
            subst he
            exact List.mem_append_right _ hy
  | @num t ht hk =>
    intro T' bs h p s hs
    rw [replaceExpr, if_pos hk] at h
    cases h
    rw [printTree, hk] at hs
    cases hs
    exact ⟨.num (digitsVal t.text), [], ⟨[t], ht.lexes (.inr (.inr hk)), .one (.one (.num hk))⟩, .nil, fun _ _ _ _ _ => by simp [NExp.value],
      fun _ _ => ⟨trivial, by simp⟩, ⟨fun y hy => (by cases hy), by simp⟩, fun _ => rfl⟩
  | @single T a _ ih =>
    intro T' bs h p s hs
    rw [replaceExpr, if_neg (by decide), replaceExprAll, replaceExprAll] at h
    cases hr : replaceExpr repl T with
    | none => rw [hr] at h; cases h
    | some q =>
      obtain ⟨c, b⟩ := q
      rw [hr] at h
      have h : some (c, b ++ []) = some (T', bs) := h
      rw [List.append_nil] at h
      cases h
      exact ih hr hs
  | @add T1 T2 a b cs _ _ i1 i2 =>
    intro T' bs h p s hs
    rw [replaceExpr, if_neg (by decide)] at h
    obtain ⟨⟨L, bs'⟩, h1, h2⟩ := map_some (x := replaceExprAll repl _) h
    cases h2
    obtain ⟨T1', op, T2', b1, b2, b3, k1, k2, k3, rfl, rfl⟩ := replaceExprAll_three h1
    rw [replaceExpr, if_pos rfl] at k2
    cases k2
    obtain ⟨s1, e1, hs⟩ := bind_some (x := printTree T1' p) hs
    obtain ⟨s2, e2, rfl⟩ := map_some (x := printTree T2' p) hs
    obtain ⟨a1, es1, j1, j2, j3⟩ := i1 k1 e1
    obtain ⟨a2, es2, l1, l2, l3⟩ := i2 k3 e2
    refine ⟨.add a1 a2, es1 ++ es2, isSum_plus j1 l1, ?_, ?_, ?_, ?_, ?_⟩
    · exact List.rel_append j2 l2
    · intro bounds bounds' val val' hf
      simp only [NExp.value]
      rw [j3.value bounds bounds' val val' fun x hx => hf x (by simp [NExp.names, hx]),
        l3.value bounds bounds' val val' fun x hx => hf x (by simp [NExp.names, hx]), List.map_append, List.sum_append]
      omega
    · intro bounds' hf
      obtain ⟨q1, q2⟩ := j3.proper bounds' fun x hx => hf x (by simp [NExp.names, hx])
      obtain ⟨q3, q4⟩ := l3.proper bounds' fun x hx => hf x (by simp [NExp.names, hx])
      refine ⟨⟨q1, q3⟩, fun e he => ?_⟩
      rcases List.mem_append.mp he with he | he
      · exact q2 e he
      · exact q4 e he
    · refine ⟨fun y hy => ?_, fun e he y hy => ?_⟩
      · rcases List.mem_append.mp hy with hy | hy
        · obtain ⟨x, hx, h⟩ := j3.names.1 y hy
          exact ⟨x, by simp [NExp.names, hx], h⟩
        · obtain ⟨x, hx, h⟩ := l3.names.1 y hy
          exact ⟨x, by simp [NExp.names, hx], h⟩
      · rcases List.mem_append.mp he with he | he
        · obtain ⟨x, hx, h⟩ := j3.names.2 e he y hy
          exact ⟨x, by simp [NExp.names, hx], h⟩
        · obtain ⟨x, hx, h⟩ := l3.names.2 e he y hy
          exact ⟨x, by simp [NExp.names, hx], h⟩
    · intro hp
      rw [NExp.names, j3.next hp, l3.next hp]
      rfl
  | @brackets T a l r hk _ _ =>
    intro T' bs h p s hs
    rw [replaceExpr, if_neg (by decide), replaceExprAll, replaceExpr, if_neg (by rw [hk]; decide), if_neg (by rw [hk]; decide)] at h
    cases h

/-- What is printed for a side of a comparison. -/
theorem side_printed {T : Tree} {bs : List (List Char)} {p : Bool} {s : List Char} (h : printTree (withAdded T bs) p = some s) :
    ∃ s0, printTree T p = some s0 ∧ (bs = [] ∧ s = s0 ∨ bs ≠ [] ∧ s = txt!"((" ++ s0 ++ txt!")+(" ++ plusJoin bs ++ txt!"))") := by
  rw [withAdded] at h
  by_cases hl : bs.length = 0
  · rw [if_pos hl] at h
    exact ⟨s, h, .inl ⟨List.length_eq_zero_iff.mp hl, rfl⟩⟩
  · rw [if_neg hl] at h
    obtain ⟨s1, e1, h⟩ := bind_some (x := printTree T p) h
    obtain ⟨s2, e2, rfl⟩ := map_some (x := printTree (.leaf ⟨.numID, plusJoin bs⟩) p) h
    cases p with
    | true => cases e2
    | false =>
      cases e2
      exact ⟨s1, e1, .inr ⟨fun h => hl (by rw [h]; rfl), rfl⟩⟩

theorem side_sum {bs : List (List Char)} {es : List NExp} {s s0 : List Char} {a : NExp} (hb : List.Forall₂ (IsSum bools) bs es) (ha : IsSum bools s0 a)
    (h : bs = [] ∧ s = s0 ∨ bs ≠ [] ∧ s = txt!"((" ++ s0 ++ txt!")+(" ++ plusJoin bs ++ txt!"))") :
    ∃ c, IsSum bools s c ∧ (∀ bounds val, c.value bounds val = a.value bounds val + (es.map fun e => e.value bounds val).sum) ∧
      (∀ bounds nx, a.Proper bounds nx → (∀ e ∈ es, e.Proper bounds nx) → c.Proper bounds nx) ∧ ∀ x ∈ c.names, x ∈ a.names ∨ ∃ e ∈ es, x ∈ e.names := by
  rcases h with ⟨rfl, rfl⟩ | ⟨hne, rfl⟩
  · cases hb
    exact ⟨a, ha, fun _ _ => by simp, fun _ _ h _ => h, fun x hx => .inl hx⟩
  · obtain ⟨c, k1, k2, k3, k4⟩ := isSum_join hb hne
    refine ⟨_, isSum_plus ha k1, fun bounds val => ?_, fun bounds nx h1 h2 => ⟨h1, k3 _ _ h2⟩, fun x hx => ?_⟩
    · rw [NExp.value, k2]
    · exact (List.mem_append.mp hx).imp id (k4 x)

theorem cmp_shift (o : Cmp) (x y k l : Int) : o.holds (x + k + l) (y + l + k) = o.holds x y := by
  cases o <;> simp only [Cmp.holds, decide_eq_decide] <;> omega

theorem opText_cat (o : Cmp) (cs : List Tree) (s t : List Char) {a b : NExp} (h1 : IsSum bools s a) (h2 : IsSum bools t b) :
    ∃ w, opText (.node .NumberComparisonOperator [.node (cmpCat o) cs]) = some w ∧ IsUnary bools (s ++ w ++ t) (.cmp o a b) := by
  obtain ⟨ts, j1, j2⟩ := h1
  obtain ⟨us, k1, k2⟩ := h2
  have one : ∀ c : Char, (pySpace c || nameStart c || isDigit c) = false → nameChar c = false → [charTok c].map Tok.kind = o.kinds →
      IsUnary bools (s ++ [c] ++ t) (.cmp o a b) := by
    intro c h h' hk
    refine ⟨ts ++ [charTok c] ++ us, ?_, .up (by decide) (.cmp o j2 hk k2)⟩
    have := lexes_append j1 h' (lexes_char h k1)
    simpa using this
  have two : ∀ c d : Char, (pySpace c || nameStart c || isDigit c) = false → nameChar c = false → (pySpace d || nameStart d || isDigit d) = false →
      [charTok c, charTok d].map Tok.kind = o.kinds → IsUnary bools (s ++ [c, d] ++ t) (.cmp o a b) := by
    intro c d h h' h'' hk
    refine ⟨ts ++ [charTok c, charTok d] ++ us, ?_, .up (by decide) (.cmp o j2 hk k2)⟩
    have := lexes_append j1 h' (lexes_char h (lexes_char h'' k1))
    simpa using this
  cases o with
  | gt => exact ⟨_, rfl, one '>' (by decide) (by decide) rfl⟩
  | ge => exact ⟨_, rfl, two '>' '=' (by decide) (by decide) (by decide) rfl⟩
  | lt => exact ⟨_, rfl, one '<' (by decide) (by decide) rfl⟩
  | le => exact ⟨_, rfl, two '<' '=' (by decide) (by decide) (by decide) rfl⟩
  | eq => exact ⟨_, rfl, one '=' (by decide) (by decide) rfl⟩
  | ne => exact ⟨_, rfl, two '!' '=' (by decide) (by decide) (by decide) rfl⟩

/-! ### Formulas -/

/-- What is printed for a tree. -/
def Main (bools : List Word) (repl : Replacements) (R : Terms) (T : Tree) (g : SFml) : Prop :=
  ∀ T', treeReplace repl T = some T' → ∀ p s, printTree T' p = some s → ∃ g', IsUnary bools s g' ∧ FRel R p g g'

/-- What is printed for a list of trees that are joined by an operator. -/
def MainList (bools : List Word) (repl : Replacements) (R : Terms) (op : SFml → SFml → SFml) (L : List Tree) (g : SFml) : Prop :=
  ∀ L', treeReplaceAll repl L = some L' → ∀ p ws, (printTrees L' p).mapM id = some ws →
    ∃ g0 gs, List.Forall₂ (IsUnary bools) ws (g0 :: gs) ∧ FRel R p g (gs.foldl op g0)

theorem Main.list {op : SFml → SFml → SFml} {T : Tree} {g : SFml} (h : Main bools repl R T g) : MainList bools repl R op [T] g := by
  intro L' hL p ws hw
  rw [treeReplaceAll, treeReplaceAll] at hL
  obtain ⟨T', h1, hL⟩ := bind_some hL
  cases hL
  have hw : (printTree T' p).bind (fun w => some [w]) = some ws := by
    have := hw
    simp only [printTrees, List.mapM_cons, List.mapM_nil] at this
    exact this
  obtain ⟨w, h2, hw⟩ := bind_some hw
  cases hw
  obtain ⟨g', k1, k2⟩ := h T' h1 p w h2
  exact ⟨g', [], .cons k1 .nil, k2⟩

theorem treeReplaceAll_append {l1 l2 L : List Tree} (h : treeReplaceAll repl (l1 ++ l2) = some L) :
    ∃ L1 L2, treeReplaceAll repl l1 = some L1 ∧ treeReplaceAll repl l2 = some L2 ∧ L = L1 ++ L2 := by
  induction l1 generalizing L with
  | nil => exact ⟨[], L, rfl, h, rfl⟩
  | cons c l ih =>
    rw [List.cons_append, treeReplaceAll] at h
    obtain ⟨c', h1, h⟩ := bind_some h
    obtain ⟨L0, h2, rfl⟩ := map_some h
    obtain ⟨L1, L2, k1, k2, rfl⟩ := ih h2
    exact ⟨c' :: L1, L2, by rw [treeReplaceAll, h1, k1]; rfl, k2, rfl⟩

theorem printTrees_append (l1 l2 : List Tree) (p : Bool) : printTrees (l1 ++ l2) p = printTrees l1 p ++ printTrees l2 p := by
  induction l1 with
  | nil => rw [List.nil_append, printTrees]; rfl
  | cons c l ih => rw [List.cons_append, printTrees, printTrees, ih]; rfl

theorem foldl_congr {op : SFml → SFml → SFml} (ho : Assoc op) : ∀ (l : List SFml) {f g : SFml}, SEquiv f g → SEquiv (l.foldl op f) (l.foldl op g)
  | [], _, _, h => h
  | k :: l, _, _, h => foldl_congr ho l (ho.congr h (SEquiv.refl k))

theorem foldl_assoc {op : SFml → SFml → SFml} (ho : Assoc op) (f : SFml) : ∀ (l : List SFml) (h : SFml), SEquiv (l.foldl op (op f h)) (op f (l.foldl op h))
  | [], _ => SEquiv.refl _
  | k :: l, h => (foldl_congr ho l (ho.assoc f h k)).trans (foldl_assoc ho f l (op h k))

theorem MainList.append {op : SFml → SFml → SFml} {v : Bool → Bool → Bool} (c : Con op v) (ho : Assoc op) {L1 L2 : List Tree} {f g : SFml}
    (h1 : MainList bools repl R op L1 f) (h2 : MainList bools repl R op L2 g) : MainList bools repl R op (L1 ++ L2) (op f g) := by
  intro L' hL p ws hw
  obtain ⟨L1', L2', k1, k2, rfl⟩ := treeReplaceAll_append hL
  rw [printTrees_append, List.mapM_append] at hw
  obtain ⟨w1, e1, hw⟩ := bind_some (x := (printTrees L1' p).mapM id) hw
  obtain ⟨w2, e2, hw⟩ := bind_some (x := (printTrees L2' p).mapM id) hw
  cases hw
  obtain ⟨g1, gs1, i1, i2⟩ := h1 L1' k1 p w1 e1
  obtain ⟨g2, gs2, j1, j2⟩ := h2 L2' k2 p w2 e2
  refine ⟨g1, gs1 ++ g2 :: gs2, List.rel_append i1 j1, (c.rel i2 j2).congr ?_⟩
  rw [List.foldl_append]
  exact foldl_assoc ho _ gs2 g2

theorem spliced_two {X : NT} {T1 T2 : Tree} : splice X [.node X (splice X [T1, T2])] = splice X [T1] ++ splice X [T2] := by
  rw [← splice_two]
  simp [splice]

/-- Main and the lists for conjunctions and disjunctions. -/
def MainAll (bools : List Word) (repl : Replacements) (R : Terms) (T : Tree) (g : SFml) : Prop :=
  Main bools repl R T g ∧ MainList bools repl R .and (splice .Conjunction [T]) g ∧ MainList bools repl R .or (splice .Disjunction [T]) g

theorem Main.all {T : Tree} {g : SFml} (h : Main bools repl R T g) (h1 : splice .Conjunction [T] = [T]) (h2 : splice .Disjunction [T] = [T]) :
    MainAll bools repl R T g := ⟨h, by rw [h1]; exact h.list, by rw [h2]; exact h.list⟩

/-- A node with two children. -/
theorem replace_two {X : NT} {T1 T2 T' : Tree} (h1 : X ≠ .CalculationSubformula) (h2 : X ≠ .Assignment) (h : treeReplace repl (.node X [T1, T2]) = some T') :
    ∃ T1' T2', treeReplace repl T1 = some T1' ∧ treeReplace repl T2 = some T2' ∧ T' = .node X [T1', T2'] := by
  rw [treeReplace_other h1 h2, treeReplaceAll, treeReplaceAll, treeReplaceAll] at h
  obtain ⟨L, h3, rfl⟩ := map_some h
  obtain ⟨T1', e1, h4⟩ := bind_some h3
  obtain ⟨L', h5, rfl⟩ := map_some h4
  obtain ⟨T2', e2, h6⟩ := bind_some h5
  cases h6
  exact ⟨T1', T2', e1, e2, rfl⟩

theorem replace_op {X : NT} {cs : List Tree} {T' : Tree} (h1 : X ≠ .CalculationSubformula) (h2 : X ≠ .Assignment)
    (h : treeReplace repl (.node X cs) = some T') : ∃ cs', T' = .node X cs' := by
  rw [treeReplace_other h1 h2] at h
  obtain ⟨L, _, rfl⟩ := map_some h
  exact ⟨L, rfl⟩

theorem nameTok_primed {x : Word} (h : prime x ∈ bools) : nameTok bools (prime x) = ⟨.boolID, prime x⟩ := by
  have key : ∀ w : Word, '\'' ∉ w → prime x ≠ w := by
    rintro w hw rfl
    exact hw (by simp [prime])
  rw [nameTok, if_neg (key _ (by decide)), if_neg (key _ (by decide)), if_neg (key _ (by decide)), if_neg (key _ (by decide)), if_neg (key _ (by decide)),
    if_neg (key _ (by decide)), if_neg (key _ (by decide)), if_neg (key _ (by decide)), if_neg (key _ (by decide)), if_pos h]

theorem main_joined {c : Char} {n : Nat} {op : SFml → SFml → SFml} {X : NT} (hs : Sign c n op) (h1 : X ≠ .CalculationSubformula) (h2 : X ≠ .Assignment)
    (hX : ∀ (cs : List Tree) (p : Bool), printTree (.node X cs) p = ((printTrees cs p).mapM id).map fun ws => '(' :: bracketJoin [c] ws ++ txt!")")
    {L : List Tree} {g : SFml} (h : MainList bools repl R op L g) : Main bools repl R (.node X L) g := by
  intro T' hT p s hp
  rw [treeReplace_other h1 h2] at hT
  obtain ⟨L', hL, rfl⟩ := map_some hT
  rw [hX] at hp
  obtain ⟨ws, hw, rfl⟩ := map_some hp
  obtain ⟨g0, gs, k1, k2⟩ := h L' hL p ws hw
  exact ⟨_, bracketJoin_unary hs k1, k2⟩

/-- What is printed for a formula. -/
theorem formula_printed (hR : TermsFor bools repl R) (hc : ∀ x ∈ bools, '\'' ∉ x → prime x ∈ bools) {T : Tree} {g : SFml} (h : FmlTree bools T g) :
    MainAll bools repl R T g := by
  induction h with
  | @tt t hk =>
    refine Main.all ?_ rfl rfl
    intro T' h p s hs
    cases h
    rw [printTree, if_pos hk] at hs
    cases hs
    exact ⟨.tt, ⟨_, Lexes.name (c := 'T') (w := txt!"RUE") (rest := []) (by decide) (by decide) (by simp) .nil, .up (by decide) (.tt rfl)⟩,
      fun _ _ _ _ _ _ => rfl, fun _ _ => trivial, fun _ h => (by cases h), fun _ h => (by cases h)⟩
  | @ff t hk =>
    refine Main.all ?_ rfl rfl
    intro T' h p s hs
    cases h
    rw [printTree, if_neg (by rw [hk]; decide), if_pos hk] at hs
    cases hs
    exact ⟨.ff, ⟨_, Lexes.name (c := 'F') (w := txt!"ALSE") (rest := []) (by decide) (by decide) (by simp) .nil, .up (by decide) (.ff rfl)⟩,
      fun _ _ _ _ _ _ => rfl, fun _ _ => trivial, fun _ h => (by cases h), fun _ h => (by cases h)⟩
  | @atom t ht hk =>
    refine Main.all ?_ rfl rfl
    intro T' h p s hs
    have h : some (Spec.Structured.Tree.node .Assignment [.leaf t]) = some T' := h
    cases h
    have hs : (if p then if '\'' ∈ t.text then none else some (t.text ++ txt!"'") else some t.text) = some s := hs
    cases p with
    | false =>
      cases hs
      exact ⟨.atom t.text, ⟨[t], ht.lexes (.inl hk), .up (by decide) (.atom hk)⟩, fun _ _ _ _ _ _ => rfl, fun _ _ h => (by cases h), fun _ h => h,
        fun _ h => (by cases h)⟩
    | true =>
      rw [if_pos rfl] at hs
      by_cases hq : '\'' ∈ t.text
      · rw [if_pos hq] at hs; cases hs
      · rw [if_neg hq] at hs
        cases hs
        obtain ⟨c, w, k1, k2, k3⟩ := ht.name (.inl hk)
        have ht' : t.text = c :: w := by rw [k3, nameTok_text]
        have hb : t.text ∈ bools := by
          rw [k3] at hk
          rw [ht']
          exact nameTok_bool hk
        have hp := hc _ hb hq
        have hl : Lexes bools (t.text ++ txt!"'") [nameTok bools (prime t.text)] := by
          have := Lexes.name (bools := bools) (c := c) (w := w ++ txt!"'") (rest := []) k1
            (by
              intro d hd
              rcases List.mem_append.mp hd with hd | hd
              · exact k2 d hd
              · rw [List.mem_singleton] at hd
                subst hd
                decide)
            (by simp) .nil
          rw [List.append_nil] at this
          rw [prime, ht']
          exact this
        rw [nameTok_primed hp] at hl
        exact ⟨.atom (prime t.text), ⟨_, hl, .up (by decide) (.atom rfl)⟩, fun _ _ _ _ _ _ => rfl, fun _ _ h => (by cases h), fun _ h => h,
          fun _ h => (by cases h)⟩
  | @cmp T1 T2 a b cs o h1 h2 =>
    refine Main.all ?_ rfl rfl
    intro T' h p s hs
    rw [treeReplace, if_pos rfl] at h
    obtain ⟨⟨T1', bs1⟩, e1, h⟩ := bind_some (x := replaceExpr repl T1) h
    obtain ⟨⟨T2', bs2⟩, e2, h⟩ := map_some (x := replaceExpr repl T2) h
    subst h
    obtain ⟨s1, p1, hs⟩ := bind_some (x := printTree (withAdded T1' bs2) p) hs
    obtain ⟨s2, p2, hs⟩ := bind_some (x := printTree (withAdded T2' bs1) p) hs
    obtain ⟨w, p3, rfl⟩ := map_some hs
    obtain ⟨q1, r1, t1⟩ := side_printed p1
    obtain ⟨q2, r2, t2⟩ := side_printed p2
    obtain ⟨a1, es1, u1, v1, n1⟩ := number_printed hR h1 e1 r1
    obtain ⟨a2, es2, u2, v2, n2⟩ := number_printed hR h2 e2 r2
    obtain ⟨c1, i1, j1, k1, l1⟩ := side_sum v2 u1 t1
    obtain ⟨c2, i2, j2, k2, l2⟩ := side_sum v1 u2 t2
    obtain ⟨w', f1, f2⟩ := opText_cat o cs s1 s2 i1 i2
    have p3 : opText (.node .NumberComparisonOperator [.node (cmpCat o) cs]) = some w := p3
    rw [f1] at p3
    cases p3
    have hnum : ∀ x, x ∈ a.names ∨ x ∈ b.names → x ∈ (SFml.cmp o a b).numbers p := by
      intro x hx
      cases p with
      | false => simpa [SFml.numbers] using hx
      | true => rw [n1.next rfl, n2.next rfl] at hx; simp at hx
    have hnames : ∀ y, y ∈ (SFml.cmp o c1 c2).numbers false → y ∈ c1.names ∨ y ∈ c2.names := by
      intro y hy
      simpa [SFml.numbers] using hy
    refine ⟨_, f2, ?_, ?_, fun y hy => (by cases hy), ?_⟩
    · intro bounds bounds' b' val val' hf
      simp only [SFml.holds]
      rw [j1, j2, n1.value bounds bounds' val val' fun x hx => hf x (hnum x (.inl hx)), n2.value bounds bounds' val val' fun x hx => hf x (hnum x (.inr hx))]
      exact cmp_shift o _ _ _ _
    · intro bounds' hf
      obtain ⟨x1, x2⟩ := n1.proper bounds' fun x hx => hf x (hnum x (.inl hx))
      obtain ⟨y1, y2⟩ := n2.proper bounds' fun x hx => hf x (hnum x (.inr hx))
      exact ⟨k1 _ _ x1 y2, k2 _ _ y1 x2⟩
    · intro y hy
      rcases hnames y hy with hy | hy
      · rcases l1 y hy with hy | ⟨e, he, hy⟩
        · obtain ⟨x, hx, hh⟩ := n1.names.1 y hy
          exact ⟨x, hnum x (.inl hx), hh⟩
        · obtain ⟨x, hx, hh⟩ := n2.names.2 e he y hy
          exact ⟨x, hnum x (.inr hx), hh⟩
      · rcases l2 y hy with hy | ⟨e, he, hy⟩
        · obtain ⟨x, hx, hh⟩ := n2.names.1 y hy
          exact ⟨x, hnum x (.inr hx), hh⟩
        · obtain ⟨x, hx, hh⟩ := n1.names.2 e he y hy
          exact ⟨x, hnum x (.inl hx), hh⟩
  | @not T f cs _ ih =>
    refine Main.all ?_ rfl rfl
    intro T' h p s hs
    obtain ⟨op', T2, h1, h2, rfl⟩ := replace_two (by decide) (by decide) h
    obtain ⟨cs', rfl⟩ := replace_op (by decide) (by decide) h1
    obtain ⟨w, hw, rfl⟩ := map_some (x := printTree T2 p) hs
    obtain ⟨g', ⟨ts, k1, k2⟩, k3⟩ := ih.1 T2 h2 p w hw
    refine ⟨.not g', ⟨charTok '!' :: ts, lexes_char (c := '!') (by decide) (.space (c := ' ') (by decide) k1), .not (.inl rfl) k2⟩, ?_, ?_, k3.atoms, k3.numbers⟩
    · intro bounds bounds' b val val' hf
      simp only [SFml.holds]
      rw [k3.holds bounds bounds' b val val' hf]
    · exact fun bounds' hf => k3.proper bounds' hf
  | @next T f cs _ ih =>
    refine Main.all ?_ rfl rfl
    intro T' h p s hs
    obtain ⟨op', T2, h1, h2, rfl⟩ := replace_two (by decide) (by decide) h
    obtain ⟨cs', rfl⟩ := replace_op (by decide) (by decide) h1
    cases p with
    | true => cases hs
    | false =>
      have hs : printTree T2 true = some s := hs
      obtain ⟨g', k1, k3⟩ := ih.1 T2 h2 true s hs
      exact ⟨g', k1, fun bounds bounds' b val val' hf => k3.holds bounds bounds' b val val' hf, fun bounds' hf => k3.proper bounds' hf, k3.atoms, k3.numbers⟩
  | @and T1 T2 f g _ _ i1 i2 =>
    have hL := MainList.append con_and assoc_and i1.2.1 i2.2.1
    have hm : Main bools repl R (.node .Conjunction (splice .Conjunction [T1, T2])) (.and f g) :=
      main_joined sign_and (by decide) (by decide) (fun cs p => by rw [printTree]; rfl) (by rw [splice_two]; exact hL)
    exact ⟨hm, by rw [spliced_two]; exact hL, Main.list hm⟩
  | @or T1 T2 f g _ _ i1 i2 =>
    have hL := MainList.append con_or assoc_or i1.2.2 i2.2.2
    have hm : Main bools repl R (.node .Disjunction (splice .Disjunction [T1, T2])) (.or f g) :=
      main_joined sign_or (by decide) (by decide) (fun cs p => by rw [printTree]; rfl) (by rw [splice_two]; exact hL)
    exact ⟨hm, Main.list hm, by rw [spliced_two]; exact hL⟩
  | @imp T1 T2 f g _ _ i1 i2 =>
    refine Main.all ?_ rfl rfl
    intro T' h p s hs
    obtain ⟨T1', T2', h1, h2, rfl⟩ := replace_two (by decide) (by decide) h
    obtain ⟨s1, e1, hs⟩ := bind_some (x := printTree T1' p) hs
    obtain ⟨s2, e2, rfl⟩ := map_some (x := printTree T2' p) hs
    obtain ⟨g1, j1, j2⟩ := i1.1 T1' h1 p s1 e1
    obtain ⟨g2, k1, k2⟩ := i2.1 T2' h2 p s2 e2
    refine ⟨.imp g1 g2, ?_, con_imp.rel j2 k2⟩
    have := binary_unary (o := txt!" -> ") (ops := [charTok '-', charTok '>']) (n := 1) (op := .imp)
      (fun ys us hl => .space (c := ' ') (by decide) (lexes_char (c := '-') (by decide) (lexes_char (c := '>') (by decide) (.space (c := ' ') (by decide) hl))))
      (fun h1 h2 => .imp (infix_down h1 (by decide) (by decide)) (.inl rfl) (infix_down h2 (by decide) (by decide))) (by decide) j1 k1
    simpa using this
  | @iff T1 T2 f g _ _ i1 i2 =>
    refine Main.all ?_ rfl rfl
    intro T' h p s hs
    obtain ⟨T1', T2', h1, h2, rfl⟩ := replace_two (by decide) (by decide) h
    obtain ⟨s1, e1, hs⟩ := bind_some (x := printTree T1' p) hs
    obtain ⟨s2, e2, rfl⟩ := map_some (x := printTree T2' p) hs
    obtain ⟨g1, j1, j2⟩ := i1.1 T1' h1 p s1 e1
    obtain ⟨g2, k1, k2⟩ := i2.1 T2' h2 p s2 e2
    refine ⟨.iff g1 g2, ?_, con_iff.rel j2 k2⟩
    have := binary_unary (o := txt!" <-> ") (ops := [charTok '<', charTok '-', charTok '>']) (n := 0) (op := .iff)
      (fun ys us hl => .space (c := ' ') (by decide) (lexes_char (c := '<') (by decide) (lexes_char (c := '-') (by decide) (lexes_char (c := '>') (by decide)
        (.space (c := ' ') (by decide) hl)))))
      (fun h1 h2 => .iff (infix_down h1 (by decide) (by decide)) (.inl rfl) (infix_down h2 (by decide) (by decide))) (by decide) j1 k1
    simpa using this

end

/-- What is printed for a line. -/
theorem substLine_right {repl : Replacements} {R : Terms} {bools : List Word} (hR : TermsFor bools repl R) (hc : ∀ x ∈ bools, '\'' ∉ x → prime x ∈ bools)
    {line s : List Char} {g : SFml} (hg : IsFormula bools line g) (hp : g.Plain) (h : substLine repl bools line = .ok s) :
    ∃ g', IsFormula bools s g' ∧ FRel R false g g' := by
  obtain ⟨T, T', h1, h2, h3⟩ := substLine_tree hg hp h
  obtain ⟨g', ⟨ts, k1, k2⟩, k3⟩ := (formula_printed hR hc h1).1 T' h2 false s h3
  exact ⟨g', ⟨ts, k1, infix_down k2 (by decide) (by decide)⟩, k3⟩

end Slugs.Model.Substitutor
