import Verif.Lemmas.StructuredSound
import Verif.Lemmas.Stream

/-!
The translation of simplified trees, as a translation of formulas.
-/

namespace Slugs.Model.Structured

open Slugs.Spec (Word isDigit digitsVal)
open Slugs.Spec.Structured

theorem Py.bind_ok {A B : Type} {x : Py A} {f : A → Py B} {b : B} : x.bind f = .ok b ↔ ∃ a, x = .ok a ∧ f a = .ok b := by
  cases x with
  | ok a => simp [Py.bind]
  | exc => simp [Py.bind]
  | loops => simp [Py.bind]

theorem Py.ofOption_ok {A : Type} {x : Option A} {a : A} : Py.ofOption x = .ok a ↔ x = some a := by
  cases x <;> simp [Py.ofOption]

/-! ### Numbers -/

theorem strNat_digits (n : Nat) : strNat n ≠ [] ∧ ∀ c ∈ strNat n, isDigit c = true :=
  ⟨decimal_ne_nil n, fun c hc => decimal_digits n c hc⟩

theorem toInt_strInt (z : Int) : toInt (strInt z) = some z := by
  cases z with
  | ofNat n =>
    have := toInt_digits (strNat_digits n).1 (strNat_digits n).2
    rw [strInt, this]
    congr 2
    exact digitsVal_decimal n
  | negSucc n =>
    have h := strNat_digits (n + 1)
    have hs : ∀ c ∈ '-' :: strNat (n + 1), isspace c = false := by
      intro c hc
      rcases List.mem_cons.mp hc with rfl | hc
      · decide
      · exact digit_not_space (h.2 c hc)
    rw [strInt, toInt, strip_word hs]
    have e : digitsAux 0 false (strNat (n + 1)) = some (digitsVal (strNat (n + 1))) := digitsAux_digits _ 0 false (.inr h.1) h.2
    simp only [e, Option.map_some]
    have : digitsVal (strNat (n + 1)) = n + 1 := digitsVal_decimal (n + 1)
    rw [this]
    rfl

/-- The bits of a variable, with its lower bound added. -/
def varParts (nm : Names) (p : Bool) (x : Word) (mem : Parts) : Py (List (List Char) × Parts) :=
  match nm.limits (if endsWithPrime x then x.dropLast else x) with
  | none => .exc
  | some (lo, _) =>
    (numIDBits nm p x).bind fun b =>
      if lo = 0 then .ok (b, mem)
      else
        match lo with
        | .ofNat n => .ok (addBits b (numeralBits (n + 1) n) mem)
        | .negSucc _ => .loops

/-- `recurse` (after `addMinimum`), for the number that a tree stands for. -/
def recN (nm : Names) (p : Bool) : NExp → Parts → Py (List (List Char) × Parts)
  | .num n, mem => .ok (numeralBits (n + 1) n, mem)
  | .var x, mem => varParts nm p x mem
  | .add a b, mem => (recN nm p a mem).bind fun r1 => (recN nm p b r1.2).bind fun r2 => .ok (addBits r1.1 r2.1 r2.2)
  | .overwrite a b, mem =>
    (recN nm p a mem).bind fun r1 => (recN nm p b r1.2).bind fun r2 =>
      if r1.1.length < r2.1.length then .ok (r1.1 ++ r2.1.drop r1.1.length, r2.2) else .exc

def RecP (nm : Names) (p : Bool) (T : Tree) : Prop :=
  ∀ T', addMinimum nm T = some T' → ∀ mem r, recurse nm p T' mem = .ok r ↔ ∃ a, numOf T = some a ∧ recN nm p a mem = .ok r

theorem rec_leaf (nm : Names) (p : Bool) (t : Tok) : RecP nm p (.leaf t) := by
  intro T' hT mem r
  by_cases h1 : t.kind = .numeral
  · have hne : t.kind ≠ .numID := by rw [h1]; decide
    rw [addMinimum, if_neg hne] at hT
    cases hT
    rw [numOf, if_pos h1, recurse, if_pos h1, numeralOf]
    cases h : toInt t.text with
    | none => simp [Py.bind]
    | some z =>
      cases z with
      | ofNat n => simp [Py.bind, recN]
      | negSucc n => simp [Py.bind]
  · by_cases h2 : t.kind = .numID
    · rw [addMinimum, if_pos h2] at hT
      rw [numOf, if_neg h1, if_pos h2]
      simp only [Option.some.injEq, exists_eq_left']
      rw [recN, varParts]
      cases hl : nm.limits (if endsWithPrime t.text then t.text.dropLast else t.text) with
      | none => rw [hl] at hT; cases hT
      | some q =>
        obtain ⟨lo, hi⟩ := q
        rw [hl] at hT
        dsimp only at hT ⊢
        by_cases h0 : lo = 0
        · rw [if_pos h0] at hT
          cases hT
          simp only [if_pos h0]
          rw [recurse, if_neg h1, if_pos h2]
        · rw [if_neg h0] at hT
          cases hT
          simp only [if_neg h0]
          rw [recurse]
          have e1 : recurse nm p (.leaf t) mem = (numIDBits nm p t.text).bind fun q => .ok (q, mem) := by rw [recurse, if_neg h1, if_pos h2]
          rw [e1]
          cases hb : numIDBits nm p t.text with
          | exc => simp [Py.bind]
          | loops => simp [Py.bind]
          | ok b =>
            simp only [Py.bind]
            have e2 : recurse nm p (.leaf ⟨.numeral, strInt lo⟩) mem = (numeralOf (strInt lo)).bind fun q => .ok (q, mem) := by rw [recurse, if_pos rfl]
            rw [e2, numeralOf, toInt_strInt]
            cases lo with
            | ofNat n => simp [Py.bind]
            | negSucc n => simp [Py.bind]
    · rw [addMinimum, if_neg h2] at hT
      cases hT
      rw [numOf, if_neg h1, if_neg h2, recurse, if_neg h1, if_neg h2]
      simp

theorem addMinimum_node {nm : Names} {X : NT} {cs : List Tree} {T' : Tree} :
    addMinimum nm (.node X cs) = some T' ↔ ∃ cs', List.Forall₂ (fun c c' => addMinimum nm c = some c') cs cs' ∧ T' = .node X cs' := by
  have key : ∀ cs cs', addMinimumAll nm cs = some cs' ↔ List.Forall₂ (fun c c' => addMinimum nm c = some c') cs cs' := by
    intro cs
    induction cs with
    | nil => intro cs'; rw [addMinimumAll]; cases cs' <;> simp
    | cons c cs ih =>
      intro cs'
      rw [addMinimumAll]
      constructor
      · intro h
        obtain ⟨c', h1, h2⟩ := Option.bind_eq_some_iff.mp h
        obtain ⟨ds, h3, rfl⟩ := Option.map_eq_some_iff.mp h2
        exact .cons h1 ((ih ds).mp h3)
      · rintro (_ | ⟨h1, h2⟩)
        rw [h1, (ih _).mpr h2]
        rfl
  rw [addMinimum, Option.map_eq_some_iff]
  constructor
  · rintro ⟨cs', h, rfl⟩; exact ⟨cs', (key _ _).mp h, rfl⟩
  · rintro ⟨cs', h, rfl⟩; exact ⟨cs', (key _ _).mpr h, rfl⟩

theorem rec_bind {nm : Names} {p : Bool} {a b a' b' : Tree} (ha : RecP nm p a) (hb : RecP nm p b) (h1 : addMinimum nm a = some a')
    (h2 : addMinimum nm b = some b') {C : Type} (mem : Parts) (r : C) (k : List (List Char) × Parts → List (List Char) × Parts → Py C) :
    ((recurse nm p a' mem).bind fun r1 => (recurse nm p b' r1.2).bind fun r2 => k r1 r2) = .ok r ↔
      ∃ x y, numOf a = some x ∧ numOf b = some y ∧ ((recN nm p x mem).bind fun r1 => (recN nm p y r1.2).bind fun r2 => k r1 r2) = .ok r := by
  simp only [Py.bind_ok]
  constructor
  · rintro ⟨r1, e1, r2, e2, e3⟩
    obtain ⟨x, i1, i2⟩ := (ha _ h1 _ _).mp e1
    obtain ⟨y, j1, j2⟩ := (hb _ h2 _ _).mp e2
    exact ⟨x, y, i1, j1, r1, i2, r2, j2, e3⟩
  · rintro ⟨x, y, i1, j1, r1, i2, r2, j2, e3⟩
    exact ⟨r1, (ha _ h1 _ _).mpr ⟨x, i1, i2⟩, r2, (hb _ h2 _ _).mpr ⟨y, j1, j2⟩, e3⟩

theorem leaf_of_addMinimum {nm : Names} {t : Tok} {c : Tree} (h : addMinimum nm c = some (.leaf t)) : c = .leaf t := by
  cases c with
  | leaf u =>
    rw [addMinimum] at h
    by_cases h2 : u.kind = .numID
    · rw [if_pos h2] at h
      cases hl : nm.limits (if endsWithPrime u.text then u.text.dropLast else u.text) with
      | none => rw [hl] at h; cases h
      | some q =>
        rw [hl] at h
        dsimp only at h
        by_cases h0 : q.1 = 0
        · rw [if_pos h0] at h; cases h; rfl
        · rw [if_neg h0] at h; cases h
    · rw [if_neg h2] at h; cases h; rfl
  | node X cs => obtain ⟨_, _, h⟩ := addMinimum_node.mp h; cases h

theorem rec_node (nm : Names) (p : Bool) (X : NT) (cs : List Tree) (ih : ∀ c ∈ cs, RecP nm p c) : RecP nm p (.node X cs) := by
  intro T' hT mem r
  obtain ⟨cs', hcs, rfl⟩ := addMinimum_node.mp hT
  by_cases hX : X = .NumberExpression
  · subst hX
    match cs, hcs with
    | [], .nil => simp [recurse, numOf]
    | [_], .cons _ .nil => simp [recurse, numOf]
    | [_, _], .cons _ (.cons _ .nil) => simp [recurse, numOf]
    | _ :: _ :: _ :: _ :: _, .cons _ (.cons _ (.cons _ (.cons _ _))) => simp [recurse, numOf]
    | [a, op, b], .cons (b := a') h1 (.cons (b := op') h2 (.cons (b := b') h3 .nil)) =>
      have ia := ih a (by simp)
      have ib := ih b (by simp)
      by_cases ho : ∃ ds, op = .node .AdditionOperator ds
      · obtain ⟨ds, rfl⟩ := ho
        obtain ⟨ds', _, rfl⟩ := addMinimum_node.mp h2
        rw [recurse, numOf]
        refine (rec_bind ia ib h1 h3 mem r fun r1 r2 => .ok (addBits r1.1 r2.1 r2.2)).trans ?_
        constructor
        · rintro ⟨x, y, e1, e2, e3⟩
          exact ⟨.add x y, by rw [e1, e2]; rfl, e3⟩
        · rintro ⟨z, e1, e2⟩
          obtain ⟨x, i1, e1⟩ := Option.bind_eq_some_iff.mp e1
          obtain ⟨y, i2, rfl⟩ := Option.map_eq_some_iff.mp e1
          exact ⟨x, y, i1, i2, e2⟩
      · have hn : ∀ ds, op' ≠ .node .AdditionOperator ds := by
          rintro ds rfl
          cases op with
          | leaf t =>
            rw [addMinimum] at h2
            split at h2
            · split at h2
              · cases h2
              · split at h2 <;> cases h2
            · cases h2
          | node Y ds =>
            obtain ⟨_, _, e⟩ := addMinimum_node.mp h2
            cases e
            exact ho ⟨ds, rfl⟩
        constructor
        · intro h
          rw [recurse] at h
          obtain ⟨r1, e1, h⟩ := Py.bind_ok.mp h
          obtain ⟨r2, e2, h⟩ := Py.bind_ok.mp h
          dsimp only at h
          split at h
          · exact absurd rfl (hn _)
          · cases h
        · rintro ⟨z, e1, e2⟩
          rw [numOf] at e1
          · cases e1
          · exact fun ds e => ho ⟨ds, e⟩
  by_cases hX : X = .NumberBrackets
  · subst hX
    match cs, hcs with
    | [], .nil => simp [recurse, numOf]
    | [_], .cons _ .nil => simp [recurse, numOf]
    | [_, _], .cons _ (.cons _ .nil) => simp [recurse, numOf]
    | _ :: _ :: _ :: _ :: _, .cons _ (.cons _ (.cons _ (.cons _ _))) => simp [recurse, numOf]
    | [l, a, r0], .cons (b := l') h1 (.cons (b := a') h2 (.cons (b := r') h3 .nil)) =>
      have ia := ih a (by simp)
      have hl : ∀ t : Tok, t.kind ≠ .numID → (l = .leaf t ↔ l' = .leaf t) := by
        intro t ht
        constructor
        · rintro rfl; rw [addMinimum, if_neg ht] at h1; cases h1; rfl
        · rintro rfl; exact leaf_of_addMinimum h1
      have hr : ∀ t : Tok, t.kind ≠ .numID → (r0 = .leaf t ↔ r' = .leaf t) := by
        intro t ht
        constructor
        · rintro rfl; rw [addMinimum, if_neg ht] at h3; cases h3; rfl
        · rintro rfl; exact leaf_of_addMinimum h3
      by_cases hk : ∃ t u : Tok, l = .leaf t ∧ r0 = .leaf u ∧ t.kind = .lpar ∧ u.kind = .rpar
      · obtain ⟨t, u, rfl, rfl, k1, k2⟩ := hk
        have e1 := (hl t (by rw [k1]; decide)).mp rfl
        have e2 := (hr u (by rw [k2]; decide)).mp rfl
        subst e1; subst e2
        rw [recurse, numOf, if_pos ⟨k1, k2⟩, if_pos ⟨k1, k2⟩]
        exact ia _ h2 mem r
      · constructor
        · intro h
          cases l' with
          | node _ _ => simp [recurse] at h
          | leaf t =>
            cases r' with
            | node _ _ => simp [recurse] at h
            | leaf u =>
              rw [recurse] at h
              split at h
              · next hk' => exact absurd ⟨t, u, leaf_of_addMinimum h1, leaf_of_addMinimum h3, hk'.1, hk'.2⟩ hk
              · cases h
        · rintro ⟨z, e1, e2⟩
          cases l with
          | node _ _ => simp [numOf] at e1
          | leaf t =>
            cases r0 with
            | node _ _ => simp [numOf] at e1
            | leaf u =>
              rw [numOf] at e1
              split at e1
              · next hk' => exact absurd ⟨t, u, rfl, rfl, hk'.1, hk'.2⟩ hk
              · cases e1
  by_cases hX : X = .LeastSignificantBitOverwriteExpression
  · subst hX
    match cs, hcs with
    | [], .nil => simp [recurse, numOf]
    | [_], .cons _ .nil => simp [recurse, numOf]
    | [_, _], .cons _ (.cons _ .nil) => simp [recurse, numOf]
    | a :: op :: b :: rest, .cons (b := a') h1 (.cons (b := op') h2 (.cons (b := b') h3 _)) =>
      have ia := ih a (by simp)
      have ib := ih b (by simp)
      rw [recurse, numOf]
      refine (rec_bind ia ib h1 h3 mem r fun r1 r2 => if r1.1.length < r2.1.length then .ok (r1.1 ++ r2.1.drop r1.1.length, r2.2) else .exc).trans ?_
      constructor
      · rintro ⟨x, y, e1, e2, e3⟩
        exact ⟨.overwrite x y, by rw [e1, e2]; rfl, e3⟩
      · rintro ⟨z, e1, e2⟩
        obtain ⟨x, i1, e1⟩ := Option.bind_eq_some_iff.mp e1
        obtain ⟨y, i2, rfl⟩ := Option.map_eq_some_iff.mp e1
        exact ⟨x, y, i1, i2, e2⟩
  · have e1 : recurse nm p (.node X cs') mem = .exc := by cases X <;> first | rfl | contradiction
    have e2 : numOf (.node X cs) = none := by cases X <;> first | rfl | contradiction
    rw [e1, e2]
    simp

mutual

theorem rec_tree (nm : Names) (p : Bool) : (T : Tree) → RecP nm p T
  | .leaf t => rec_leaf nm p t
  | .node X cs => rec_node nm p X cs (rec_all nm p cs)

theorem rec_all (nm : Names) (p : Bool) : (cs : List Tree) → ∀ c ∈ cs, RecP nm p c
  | [], _, h => absurd h (by simp)
  | c :: cs, d, h => by
    rcases List.mem_cons.mp h with h | h
    · rw [h]; exact rec_tree nm p c
    · exact rec_all nm p cs d h

end

theorem recN_declared {nm : Names} {p : Bool} : ∀ {a : NExp} {mem : Parts} {r : List (List Char) × Parts}, recN nm p a mem = .ok r → NExpAll (Declared nm) a
  | .num _, _, _, _ => trivial
  | .var x, mem, r, h => by
    rw [recN, varParts] at h
    cases hl : nm.limits (if endsWithPrime x then x.dropLast else x) with
    | none => rw [hl] at h; cases h
    | some q => exact ⟨q, hl⟩
  | .add a b, mem, r, h => by
    rw [recN] at h
    obtain ⟨r1, e1, h⟩ := Py.bind_ok.mp h
    obtain ⟨r2, e2, h⟩ := Py.bind_ok.mp h
    exact ⟨recN_declared e1, recN_declared e2⟩
  | .overwrite a b, mem, r, h => by
    rw [recN] at h
    obtain ⟨r1, e1, h⟩ := Py.bind_ok.mp h
    obtain ⟨r2, e2, h⟩ := Py.bind_ok.mp h
    exact ⟨recN_declared e1, recN_declared e2⟩

/-! ### Formulas -/

def cmpParts : Cmp → List (List Char) → List (List Char) → List (List Char)
  | .gt, p1, p2 => greaterParts true p1 p2
  | .ge, p1, p2 => greaterParts false p1 p2
  | .lt, p1, p2 => smallerParts true p1 p2
  | .le, p1, p2 => smallerParts false p1 p2
  | .eq, p1, p2 => equalParts p1 p2
  | .ne, p1, p2 => txt!"!" :: equalParts p1 p2

theorem comparison_eq (op : Tree) (p1 p2 : List (List Char)) : comparison op p1 p2 = (cmpOf op).map fun o => cmpParts o p1 p2 := by
  match op with
  | .leaf _ => rfl
  | .node Y [] => cases Y <;> rfl
  | .node Y (.leaf _ :: _) => cases Y <;> rfl
  | .node Y (.node Z ds :: rest) =>
    by_cases hY : Y = .NumberComparisonOperator
    · subst hY; cases Z <;> rfl
    · have e1 : comparison (.node Y (.node Z ds :: rest)) p1 p2 = none := by cases Y <;> first | rfl | contradiction
      have e2 : cmpOf (.node Y (.node Z ds :: rest)) = none := by cases Y <;> first | rfl | contradiction
      rw [e1, e2]; rfl

/-- `simple`, for the formula that a tree stands for. -/
def cmpl (nm : Names) : SFml → Bool → Py (List (List Char))
  | .tt, _ => .ok [txt!"1"]
  | .ff, _ => .ok [txt!"0"]
  | .atom x, p => if p then if '\'' ∈ x then .exc else .ok [x ++ txt!"'"] else .ok [x]
  | .cmp o a b, p =>
    (recN nm p a []).bind fun r1 => (recN nm p b r1.2).bind fun r2 =>
      .ok ([txt!"$", strNat (r2.2 ++ [cmpParts o r1.1 r2.1]).length] ++ (r2.2 ++ [cmpParts o r1.1 r2.1]).flatten)
  | .not f, p => (cmpl nm f p).bind fun b => .ok ([txt!"!"] ++ b)
  | .next f, p => if p then .exc else cmpl nm f true
  | .and f g, p => (cmpl nm f p).bind fun x => (cmpl nm g p).bind fun y => .ok ([txt!"&"] ++ x ++ y)
  | .or f g, p => (cmpl nm f p).bind fun x => (cmpl nm g p).bind fun y => .ok ([txt!"|"] ++ x ++ y)
  | .imp f g, p => (cmpl nm f p).bind fun x => (cmpl nm g p).bind fun y => .ok ([txt!"|", txt!"!"] ++ x ++ y)
  | .iff f g, p => (cmpl nm f p).bind fun x => (cmpl nm g p).bind fun y =>
      .ok ([txt!"|", txt!"&", txt!"!"] ++ x ++ [txt!"!"] ++ y ++ [txt!"&"] ++ x ++ y)

def SimpleP (nm : Names) (T : Tree) : Prop :=
  ∀ p toks, (simple nm T p = .ok toks → ∃ f, flatFml T = some f ∧ cmpl nm f p = .ok toks) ∧
    (Fit nm T → ∀ f, flatFml T = some f → cmpl nm f p = .ok toks → simple nm T p = .ok toks)

theorem simpleAll_eq (nm : Names) (cs : List Tree) (p : Bool) : simpleAll nm cs p = cs.map fun c => simple nm c p := by
  induction cs with
  | nil => rfl
  | cons c cs ih => rw [simpleAll, ih]; rfl

theorem flatAll_eq (cs : List Tree) : flatAll cs = cs.map flatFml := by
  induction cs with
  | nil => rfl
  | cons c cs ih => rw [flatAll, ih]; rfl

theorem fitAll_iff {nm : Names} {cs : List Tree} : FitAll nm cs ↔ ∀ c ∈ cs, Fit nm c := by
  induction cs with
  | nil => simp [FitAll]
  | cons c cs ih => rw [FitAll, ih]; simp

theorem foldOp_iff {nm : Names} {op : List Char} {opF : SFml → SFml → SFml} {p : Bool}
    (ho : ∀ f g, cmpl nm (opF f g) p = (cmpl nm f p).bind fun x => (cmpl nm g p).bind fun y => .ok ([op] ++ x ++ y))
    (cs : List Tree) (ih : ∀ c ∈ cs, SimpleP nm c) (toks : List (List Char)) :
    (foldOp op (cs.map fun c => simple nm c p) = .ok toks → ∃ f, foldFml opF (cs.map flatFml) = some f ∧ cmpl nm f p = .ok toks) ∧
    ((∀ c ∈ cs, Fit nm c) → ∀ f, foldFml opF (cs.map flatFml) = some f → cmpl nm f p = .ok toks → foldOp op (cs.map fun c => simple nm c p) = .ok toks) := by
  have key : ∀ (cs : List Tree) (ih : ∀ c ∈ cs, SimpleP nm c) (acc : Py (List (List Char))) (accF : Option SFml),
      ((∀ x, acc = .ok x → ∃ f, accF = some f ∧ cmpl nm f p = .ok x) → ∀ toks,
        (cs.map fun c => simple nm c p).foldl (fun ret a => ret.bind fun x => a.bind fun y => .ok ([op] ++ x ++ y)) acc = .ok toks →
        ∃ f, (cs.map flatFml).foldl (fun x y => x.bind fun f => y.map fun g => opF f g) accF = some f ∧ cmpl nm f p = .ok toks) ∧
      ((∀ c ∈ cs, Fit nm c) → (∀ f x, accF = some f → cmpl nm f p = .ok x → acc = .ok x) → ∀ toks f,
        (cs.map flatFml).foldl (fun x y => x.bind fun f => y.map fun g => opF f g) accF = some f → cmpl nm f p = .ok toks →
        (cs.map fun c => simple nm c p).foldl (fun ret a => ret.bind fun x => a.bind fun y => .ok ([op] ++ x ++ y)) acc = .ok toks) := by
    intro cs
    induction cs with
    | nil => exact fun _ acc accF => ⟨fun h toks => h toks, fun _ h toks f => h f toks⟩
    | cons c cs ihl =>
      intro ih acc accF
      have hc := ih c (by simp)
      obtain ⟨k1, k2⟩ := ihl (fun d hd => ih d (by simp [hd])) (acc.bind fun x => (simple nm c p).bind fun y => .ok ([op] ++ x ++ y))
        (accF.bind fun f => (flatFml c).map fun g => opF f g)
      refine ⟨fun h => k1 fun x hx => ?_, fun hfit h => k2 (fun d hd => hfit d (by simp [hd])) fun f x hf hx => ?_⟩
      · obtain ⟨x1, e1, hx⟩ := Py.bind_ok.mp hx
        obtain ⟨x2, e2, hx⟩ := Py.bind_ok.mp hx
        obtain ⟨f, i1, i2⟩ := h x1 e1
        obtain ⟨g, j1, j2⟩ := (hc p x2).1 e2
        refine ⟨opF f g, by rw [i1, j1]; rfl, ?_⟩
        rw [ho, i2, j2]
        exact hx
      · obtain ⟨f1, i1, hf⟩ := Option.bind_eq_some_iff.mp hf
        obtain ⟨g, j1, rfl⟩ := Option.map_eq_some_iff.mp hf
        rw [ho] at hx
        obtain ⟨x1, e1, hx⟩ := Py.bind_ok.mp hx
        obtain ⟨x2, e2, hx⟩ := Py.bind_ok.mp hx
        rw [h f1 x1 i1 e1, (hc p x2).2 (hfit c (by simp)) g j1 e2]
        exact hx
  cases cs with
  | nil => exact ⟨fun h => (by cases h), fun _ f h => (by cases h)⟩
  | cons c cs =>
    have hc := ih c (by simp)
    obtain ⟨k1, k2⟩ := key cs (fun d hd => ih d (by simp [hd])) (simple nm c p) (flatFml c)
    exact ⟨k1 (fun x hx => (hc p x).1 hx) toks, fun hfit f => k2 (fun d hd => hfit d (by simp [hd]))
      (fun f x hf hx => (hc p x).2 (hfit c (by simp)) f hf hx) toks f⟩

theorem simple_calculation {nm : Names} (a op b : Tree) (p : Bool) (toks : List (List Char)) :
    (calculation nm p a op b = .ok toks → ∃ o x y, cmpOf op = some o ∧ numOf a = some x ∧ numOf b = some y ∧ cmpl nm (.cmp o x y) p = .ok toks) ∧
    (GoodT nm a → GoodT nm b → ∀ o x y, cmpOf op = some o → numOf a = some x → numOf b = some y → cmpl nm (.cmp o x y) p = .ok toks →
      calculation nm p a op b = .ok toks) := by
  constructor
  · intro h
    rw [calculation] at h
    obtain ⟨a', ha, h⟩ := Py.bind_ok.mp h
    obtain ⟨⟨p1, mem1⟩, h1, h⟩ := Py.bind_ok.mp h
    dsimp only at h
    obtain ⟨b', hb, h⟩ := Py.bind_ok.mp h
    obtain ⟨⟨p2, mem2⟩, h2, h⟩ := Py.bind_ok.mp h
    dsimp only at h
    rw [comparison_eq] at h
    obtain ⟨x, i1, i2⟩ := (rec_tree nm p a _ (Py.ofOption_ok.mp ha) _ _).mp h1
    obtain ⟨y, j1, j2⟩ := (rec_tree nm p b _ (Py.ofOption_ok.mp hb) _ _).mp h2
    cases ho : cmpOf op with
    | none => rw [ho] at h; cases h
    | some o =>
      refine ⟨o, x, y, rfl, i1, j1, ?_⟩
      rw [ho] at h
      rw [cmpl, i2]
      simp only [Py.bind]
      rw [j2]
      exact h
  · intro ga gb o x y ho hx hy h
    rw [cmpl] at h
    obtain ⟨⟨p1, mem1⟩, h1, h⟩ := Py.bind_ok.mp h
    obtain ⟨⟨p2, mem2⟩, h2, h⟩ := Py.bind_ok.mp h
    obtain ⟨a', ha⟩ := ga x hx (recN_declared h1)
    obtain ⟨b', hb⟩ := gb y hy (recN_declared h2)
    have e1 := (rec_tree nm p a _ ha _ _).mpr ⟨x, hx, h1⟩
    have e2 := (rec_tree nm p b _ hb _ _).mpr ⟨y, hy, h2⟩
    rw [calculation, ha, hb]
    simp only [Py.ofOption, Py.bind, e1, e2]
    rw [comparison_eq, ho]
    exact h

theorem getD_simple {nm : Names} {cs : List Tree} {p : Bool} {i : Nat} {x : List (List Char)} (h : ((simpleAll nm cs p)[i]?).getD .exc = .ok x) :
    ∃ c, cs[i]? = some c ∧ simple nm c p = .ok x := by
  rw [simpleAll_eq, List.getElem?_map] at h
  cases hc : cs[i]? with
  | none => rw [hc] at h; cases h
  | some c => rw [hc] at h; exact ⟨c, rfl, h⟩

theorem getD_simple' {nm : Names} {cs : List Tree} {p : Bool} {i : Nat} {c : Tree} (h : cs[i]? = some c) :
    ((simpleAll nm cs p)[i]?).getD .exc = simple nm c p := by
  rw [simpleAll_eq, List.getElem?_map, h]
  rfl

theorem join_flat {cs : List Tree} {i : Nat} {f : SFml} : ((flatAll cs)[i]?).join = some f ↔ ∃ c, cs[i]? = some c ∧ flatFml c = some f := by
  rw [flatAll_eq, List.getElem?_map]
  cases cs[i]? with
  | none => simp
  | some c => simp

theorem simple_node (nm : Names) (X : NT) (cs : List Tree) (ih : ∀ c ∈ cs, SimpleP nm c) : SimpleP nm (.node X cs) := by
  intro p toks
  have mem : ∀ {i c}, cs[i]? = some c → c ∈ cs := fun h => List.mem_of_getElem? h
  have fit : ∀ {X : NT}, X ≠ .CalculationSubformula → Fit nm (.node X cs) → ∀ c ∈ cs, Fit nm c := by
    intro X hX h
    rw [Fit, if_neg hX] at h
    exact fitAll_iff.mp h
  rw [simple, flatFml]
  cases X with
  | Formula =>
    simp only [simpleNode, flatNode]
    by_cases hl : cs.length = 1
    · rw [if_pos hl, if_pos hl]
      constructor
      · intro h
        obtain ⟨c, hc, h⟩ := getD_simple h
        obtain ⟨f, h1, h2⟩ := (ih c (mem hc) _ _).1 h
        exact ⟨f, join_flat.mpr ⟨c, hc, h1⟩, h2⟩
      · intro hf f h1 h2
        obtain ⟨c, hc, h1⟩ := join_flat.mp h1
        rw [getD_simple' hc]
        exact (ih c (mem hc) _ _).2 (fit (by decide) hf c (mem hc)) f h1 h2
    · rw [if_neg hl, if_neg hl]
      exact ⟨fun h => (by cases h), fun _ f h => (by cases h)⟩
  | Biimplication =>
    simp only [simpleNode, flatNode]
    constructor
    · intro h
      obtain ⟨x1, e1, h⟩ := Py.bind_ok.mp h
      obtain ⟨x2, e2, h⟩ := Py.bind_ok.mp h
      obtain ⟨c1, hc1, e1⟩ := getD_simple e1
      obtain ⟨c2, hc2, e2⟩ := getD_simple e2
      obtain ⟨f, i1, i2⟩ := (ih c1 (mem hc1) _ _).1 e1
      obtain ⟨g, j1, j2⟩ := (ih c2 (mem hc2) _ _).1 e2
      refine ⟨.iff f g, by rw [join_flat.mpr ⟨c1, hc1, i1⟩, join_flat.mpr ⟨c2, hc2, j1⟩]; rfl, ?_⟩
      rw [cmpl, i2, j2]
      exact h
    · intro hf e h1 h2
      obtain ⟨f, i1, h1⟩ := Option.bind_eq_some_iff.mp h1
      obtain ⟨g, j1, rfl⟩ := Option.map_eq_some_iff.mp h1
      obtain ⟨c1, hc1, i1⟩ := join_flat.mp i1
      obtain ⟨c2, hc2, j1⟩ := join_flat.mp j1
      rw [cmpl] at h2
      obtain ⟨x1, e1, h⟩ := Py.bind_ok.mp h2
      obtain ⟨x2, e2, h⟩ := Py.bind_ok.mp h
      rw [getD_simple' hc1, getD_simple' hc2, (ih c1 (mem hc1) _ _).2 (fit (by decide) hf c1 (mem hc1)) f i1 e1,
        (ih c2 (mem hc2) _ _).2 (fit (by decide) hf c2 (mem hc2)) g j1 e2]
      exact h
  | Implication =>
    simp only [simpleNode, flatNode]
    constructor
    · intro h
      obtain ⟨x1, e1, h⟩ := Py.bind_ok.mp h
      obtain ⟨x2, e2, h⟩ := Py.bind_ok.mp h
      obtain ⟨c1, hc1, e1⟩ := getD_simple e1
      obtain ⟨c2, hc2, e2⟩ := getD_simple e2
      obtain ⟨f, i1, i2⟩ := (ih c1 (mem hc1) _ _).1 e1
      obtain ⟨g, j1, j2⟩ := (ih c2 (mem hc2) _ _).1 e2
      refine ⟨.imp f g, by rw [join_flat.mpr ⟨c1, hc1, i1⟩, join_flat.mpr ⟨c2, hc2, j1⟩]; rfl, ?_⟩
      rw [cmpl, i2, j2]
      exact h
    · intro hf e h1 h2
      obtain ⟨f, i1, h1⟩ := Option.bind_eq_some_iff.mp h1
      obtain ⟨g, j1, rfl⟩ := Option.map_eq_some_iff.mp h1
      obtain ⟨c1, hc1, i1⟩ := join_flat.mp i1
      obtain ⟨c2, hc2, j1⟩ := join_flat.mp j1
      rw [cmpl] at h2
      obtain ⟨x1, e1, h⟩ := Py.bind_ok.mp h2
      obtain ⟨x2, e2, h⟩ := Py.bind_ok.mp h
      rw [getD_simple' hc1, getD_simple' hc2, (ih c1 (mem hc1) _ _).2 (fit (by decide) hf c1 (mem hc1)) f i1 e1,
        (ih c2 (mem hc2) _ _).2 (fit (by decide) hf c2 (mem hc2)) g j1 e2]
      exact h
  | Conjunction =>
    simp only [simpleNode, flatNode]
    rw [simpleAll_eq, flatAll_eq]
    obtain ⟨k1, k2⟩ := foldOp_iff (nm := nm) (op := txt!"&") (opF := .and) (p := p) (fun f g => by rw [cmpl]) cs ih toks
    exact ⟨k1, fun hf => k2 (fit (by decide) hf)⟩
  | Disjunction =>
    simp only [simpleNode, flatNode]
    rw [simpleAll_eq, flatAll_eq]
    obtain ⟨k1, k2⟩ := foldOp_iff (nm := nm) (op := txt!"|") (opF := .or) (p := p) (fun f g => by rw [cmpl]) cs ih toks
    exact ⟨k1, fun hf => k2 (fit (by decide) hf)⟩
  | UnaryFormula =>
    by_cases h1 : ∃ ds rest, cs = .node .NotOperator ds :: rest
    · obtain ⟨ds, rest, rfl⟩ := h1
      simp only [simpleNode, flatNode]
      constructor
      · intro h
        obtain ⟨x1, e1, h⟩ := Py.bind_ok.mp h
        obtain ⟨c1, hc1, e1⟩ := getD_simple e1
        obtain ⟨f, i1, i2⟩ := (ih c1 (mem hc1) _ _).1 e1
        refine ⟨.not f, by rw [join_flat.mpr ⟨c1, hc1, i1⟩]; rfl, ?_⟩
        rw [cmpl, i2]
        exact h
      · intro hf e h1 h2
        obtain ⟨f, i1, rfl⟩ := Option.map_eq_some_iff.mp h1
        obtain ⟨c1, hc1, i1⟩ := join_flat.mp i1
        rw [cmpl] at h2
        obtain ⟨x1, e1, h⟩ := Py.bind_ok.mp h2
        rw [getD_simple' hc1, (ih c1 (mem hc1) _ _).2 (fit (by decide) hf c1 (mem hc1)) f i1 e1]
        exact h
    by_cases h2 : ∃ ds rest, cs = .node .NextOperator ds :: rest
    · obtain ⟨ds, rest, rfl⟩ := h2
      simp only [simpleNode, flatNode]
      constructor
      · intro h
        cases p with
        | true => cases h
        | false =>
          obtain ⟨c1, hc1, e1⟩ := getD_simple h
          obtain ⟨f, i1, i2⟩ := (ih c1 (mem hc1) _ _).1 e1
          exact ⟨.next f, by rw [join_flat.mpr ⟨c1, hc1, i1⟩]; rfl, i2⟩
      · intro hf e h1 h2
        obtain ⟨f, i1, rfl⟩ := Option.map_eq_some_iff.mp h1
        obtain ⟨c1, hc1, i1⟩ := join_flat.mp i1
        cases p with
        | true => cases h2
        | false =>
          have e2 := (ih c1 (mem hc1) _ _).2 (fit (by decide) hf c1 (mem hc1)) f i1 h2
          rw [← getD_simple' hc1] at e2
          exact e2
    · have e1 : simpleNode nm .UnaryFormula cs (simpleAll nm cs) p = .exc := by
        unfold simpleNode
        dsimp only
        split
        · exact absurd ⟨_, _, rfl⟩ h1
        · exact absurd ⟨_, _, rfl⟩ h2
        · rfl
      have e2 : flatNode .UnaryFormula cs (flatAll cs) = none := by
        unfold flatNode
        dsimp only
        split
        · exact absurd ⟨_, _, rfl⟩ h1
        · exact absurd ⟨_, _, rfl⟩ h2
        · rfl
      rw [e1, e2]
      exact ⟨fun h => (by cases h), fun _ f h => (by cases h)⟩
  | Assignment =>
    match cs with
    | [] => exact ⟨fun h => (by cases h), fun _ f h => (by cases h)⟩
    | .node _ _ :: _ => exact ⟨fun h => (by cases h), fun _ f h => (by cases h)⟩
    | .leaf t :: _ =>
      constructor
      · intro h
        exact ⟨.atom t.text, rfl, h⟩
      · intro _ f h1 h2
        cases h1
        exact h2
  | CalculationSubformula =>
    clear fit mem ih
    match cs with
    | [] => exact ⟨fun h => (by cases h), fun _ f h => (by cases h)⟩
    | [_] => exact ⟨fun h => (by cases h), fun _ f h => (by cases h)⟩
    | [_, _] => exact ⟨fun h => (by cases h), fun _ f h => (by cases h)⟩
    | _ :: _ :: _ :: _ :: _ => exact ⟨fun h => (by cases h), fun _ f h => (by cases h)⟩
    | [a, op, b] =>
      obtain ⟨k1, k2⟩ := simple_calculation (nm := nm) a op b p toks
      constructor
      · intro h
        obtain ⟨o, x, y, h1, h2, h3, h4⟩ := k1 h
        refine ⟨.cmp o x y, ?_, h4⟩
        simp only [flatNode, h1, h2, h3]
        rfl
      · intro hf f h1 h2
        rw [Fit, if_pos rfl] at hf
        obtain ⟨ga, gb⟩ := hf a op b rfl
        simp only [flatNode] at h1
        obtain ⟨o, i1, h1⟩ := Option.bind_eq_some_iff.mp h1
        obtain ⟨x, i2, h1⟩ := Option.bind_eq_some_iff.mp h1
        obtain ⟨y, i3, rfl⟩ := Option.map_eq_some_iff.mp h1
        exact k2 ga gb o x y i1 i2 i3 h2
  | _ => exact ⟨fun h => (by cases h), fun _ f h => (by cases h)⟩

mutual

theorem simple_tree (nm : Names) : (T : Tree) → SimpleP nm T
  | .leaf t => by
    intro p toks
    rw [simple, flatFml]
    by_cases h1 : t.kind = .TRUE
    · rw [if_pos h1, if_pos h1]
      exact ⟨fun h => ⟨.tt, rfl, h⟩, fun _ f h1 h2 => by cases h1; exact h2⟩
    · rw [if_neg h1, if_neg h1]
      by_cases h2 : t.kind = .FALSE
      · rw [if_pos h2, if_pos h2]
        exact ⟨fun h => ⟨.ff, rfl, h⟩, fun _ f h1 h2 => by cases h1; exact h2⟩
      · rw [if_neg h2, if_neg h2]
        exact ⟨fun h => (by cases h), fun _ f h => (by cases h)⟩
  | .node X cs => simple_node nm X cs (simple_all nm cs)

theorem simple_all (nm : Names) : (cs : List Tree) → ∀ c ∈ cs, SimpleP nm c
  | [], _, h => absurd h (by simp)
  | c :: cs, d, h => by
    rcases List.mem_cons.mp h with h | h
    · rw [h]; exact simple_tree nm c
    · exact simple_all nm cs d h

end

/-- A line is translated exactly if it is a formula whose translation succeeds. -/
theorem translateLine_sound {nm : Names} {bools : List Word} {line out : List Char} (h : translateLine nm bools line = .ok out) :
    ∃ g f toks, IsFormula bools line g ∧ SEquiv f g ∧ cmpl nm f false = .ok toks ∧ out = join toks := by
  rw [translateLine] at h
  cases hp : parse (tokenize bools line) with
  | error => rw [hp] at h; cases h
  | running => rw [hp] at h; cases h
  | tree t =>
    rw [hp] at h
    obtain ⟨t', h1, h⟩ := Py.bind_ok.mp h
    obtain ⟨toks, h2, h⟩ := Py.bind_ok.mp h
    obtain ⟨f, h3, h4⟩ := (simple_tree nm _ false toks).1 h2
    obtain ⟨g, h5, h6⟩ := lineFml_sound ⟨t, t', hp, Py.ofOption_ok.mp h1, h3⟩
    cases h
    exact ⟨g, f, toks, h5, h6, h4, rfl⟩

theorem translateLine_complete {bools : List Word} {line : List Char} {g : SFml} (h : IsFormula bools line g) :
    ∃ f, SEquiv f g ∧ ∀ nm toks, cmpl nm f false = .ok toks → translateLine nm bools line = .ok (join toks) := by
  obtain ⟨t, t', f, h1, h2, h3, h4, h5⟩ := lineFml_complete h
  refine ⟨f, h4, fun nm toks ht => ?_⟩
  have := (simple_tree nm _ false toks).2 (h5 nm) f h3 ht
  rw [translateLine, h1]
  simp only [h2, Py.ofOption, Py.bind, this]

end Slugs.Model.Structured
