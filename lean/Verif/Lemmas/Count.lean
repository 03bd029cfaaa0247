import Verif.Model.Count
import Verif.Spec.Count
import Mathlib.Data.Fintype.Pi
import Mathlib.Data.Set.Card
import Mathlib.Tactic.Common
import Mathlib.Data.List.Nodup

/-! Decision diagrams with complement edges are canonical; counting is exact. -/

namespace Slugs.Model

open Slugs.Spec

variable {dd : Dd}

/-! ### Evaluation -/

theorem Ref.xor_addr (r : Ref) (b : Bool) : (r.xor b).addr = r.addr := rfl
theorem Ref.xor_neg (r : Ref) (b : Bool) : (r.xor b).neg = (r.neg != b) := rfl

theorem Dd.evalN_xor (n : Nat) (r : Ref) (b : Bool) (hr : dd.Valid r) (h : dd.Ok) (hn : r.addr ≤ n) (a : Asg) :
    dd.evalN n (r.xor b) a = (dd.evalN n r a != b) := by
  obtain ⟨neg, k⟩ := r
  cases k with
  | zero => cases n <;> cases neg <;> cases b <;> rfl
  | succ k =>
    cases n with
    | zero => simp at hn
    | succ n =>
      simp only [Ref.xor, Dd.evalN]
      have hk : k < dd.nodes.length := by simpa [Dd.Valid] using hr
      rw [List.getElem?_eq_getElem hk]
      simp only
      generalize (if a _ = true then _ else _ : Bool) = x
      cases x <;> cases neg <;> cases b <;> rfl

theorem Dd.evalN_more (h : dd.Ok) : ∀ (n : Nat) (r : Ref) (a : Asg), r.addr ≤ n → dd.evalN n r a = dd.eval r a := by
  have key : ∀ (m n : Nat) (r : Ref) (a : Asg), r.addr ≤ m → r.addr ≤ n → dd.evalN n r a = dd.evalN m r a := by
    intro m
    induction m with
    | zero =>
      rintro n ⟨neg, k⟩ a h1 h2
      simp only [Nat.le_zero] at h1
      subst h1
      cases n <;> rfl
    | succ m ih =>
      rintro n ⟨neg, k⟩ a h1 h2
      cases k with
      | zero => cases n <;> rfl
      | succ k =>
        cases n with
        | zero => simp at h2
        | succ n =>
          simp only at h1 h2
          simp only [Dd.evalN]
          cases hk : dd.nodes[k]? with
          | none => rfl
          | some nd =>
            simp only
            have ht := h.t_lt k nd hk
            have he := h.e_lt k nd hk
            rw [ih n nd.t a (by omega) (by omega), ih n nd.e a (by omega) (by omega)]
  intro n r a hn
  exact key r.addr n r a (Nat.le_refl _) hn

theorem Dd.eval_one (neg : Bool) (a : Asg) : dd.eval ⟨neg, 0⟩ a = !neg := rfl

theorem Dd.eval_node (h : dd.Ok) {neg : Bool} {k : Nat} {nd : DdNode} (hk : dd.nodes[k]? = some nd) (a : Asg) :
    dd.eval ⟨neg, k + 1⟩ a = ((if a nd.index then dd.eval nd.t a else dd.eval nd.e a) != neg) := by
  simp only [Dd.eval, Dd.evalN, hk]
  rw [Dd.evalN_more h k nd.t a (h.t_lt k nd hk), Dd.evalN_more h k nd.e a (h.e_lt k nd hk)]
  rfl

theorem Dd.Valid.xor {r : Ref} (h : dd.Valid r) (b : Bool) : dd.Valid (r.xor b) := h

theorem Dd.eval_xor (h : dd.Ok) {r : Ref} (hr : dd.Valid r) (b : Bool) (a : Asg) : dd.eval (r.xor b) a = (dd.eval r a != b) :=
  Dd.evalN_xor r.addr r b hr h (Nat.le_refl _) a

theorem Dd.Valid.get {neg : Bool} {k : Nat} (h : dd.Valid ⟨neg, k + 1⟩) : ∃ nd, dd.nodes[k]? = some nd := by
  have hk : k < dd.nodes.length := by simpa [Dd.Valid] using h
  exact ⟨_, List.getElem?_eq_getElem hk⟩

theorem Dd.Valid.of_get {neg : Bool} {k : Nat} {nd : DdNode} (h : dd.nodes[k]? = some nd) : dd.Valid ⟨neg, k + 1⟩ := by
  have := (List.getElem?_eq_some_iff.mp h).1
  exact this

theorem Dd.Ok.t_valid (h : dd.Ok) {k : Nat} {nd : DdNode} (hk : dd.nodes[k]? = some nd) : dd.Valid nd.t := by
  have h1 := h.t_lt k nd hk
  have h2 := (List.getElem?_eq_some_iff.mp hk).1
  simp only [Dd.Valid]; omega

theorem Dd.Ok.e_valid (h : dd.Ok) {k : Nat} {nd : DdNode} (hk : dd.nodes[k]? = some nd) : dd.Valid nd.e := by
  have h1 := h.e_lt k nd hk
  have h2 := (List.getElem?_eq_some_iff.mp hk).1
  simp only [Dd.Valid]; omega

/-! ### The variables below a node -/

/-- All variables of the diagram have at least this level. -/
def Dd.From (dd : Dd) (l : Nat) (r : Ref) : Prop :=
  match r.addr with
  | 0 => True
  | k + 1 => ∀ nd, dd.nodes[k]? = some nd → l ≤ dd.level nd.index

theorem Dd.From.mono {l l' : Nat} {r : Ref} (h : dd.From l r) (hl : l' ≤ l) : dd.From l' r := by
  obtain ⟨neg, k⟩ := r
  cases k with
  | zero => trivial
  | succ k => exact fun nd hnd => Nat.le_trans hl (h nd hnd)

theorem Dd.Ok.t_from (h : dd.Ok) {k : Nat} {nd : DdNode} (hk : dd.nodes[k]? = some nd) : dd.From (dd.level nd.index + 1) nd.t := by
  simp only [Dd.From]
  cases ha : nd.t.addr with
  | zero => trivial
  | succ m => exact fun nd' hnd' => h.t_order k nd m nd' hk ha hnd'

theorem Dd.Ok.e_from (h : dd.Ok) {k : Nat} {nd : DdNode} (hk : dd.nodes[k]? = some nd) : dd.From (dd.level nd.index + 1) nd.e := by
  simp only [Dd.From]
  cases ha : nd.e.addr with
  | zero => trivial
  | succ m => exact fun nd' hnd' => h.e_order k nd m nd' hk ha hnd'

/-- The function only depends on variables from the given level on. -/
theorem Dd.eval_from (h : dd.Ok) : ∀ (n : Nat) (r : Ref) (l : Nat), r.addr ≤ n → dd.Valid r → dd.From l r → ∀ a a' : Asg,
    (∀ v, l ≤ dd.level v → a v = a' v) → dd.eval r a = dd.eval r a' := by
  intro n
  induction n with
  | zero =>
    rintro ⟨neg, k⟩ l h1 _ _ a a' _
    simp only [Nat.le_zero] at h1
    subst h1; rfl
  | succ n ih =>
    rintro ⟨neg, k⟩ l h1 hv hf a a' ha
    cases k with
    | zero => rfl
    | succ k =>
      obtain ⟨nd, hk⟩ := hv.get
      simp only at h1
      have hl := hf nd hk
      have ht := h.t_lt k nd hk
      have he := h.e_lt k nd hk
      rw [Dd.eval_node h hk, Dd.eval_node h hk, ha nd.index hl,
        ih nd.t l (by omega) (h.t_valid hk) ((h.t_from hk).mono (by omega)) a a' ha,
        ih nd.e l (by omega) (h.e_valid hk) ((h.e_from hk).mono (by omega)) a a' ha]

/-- Setting a variable. -/
def setVar (a : Asg) (v : Nat) (b : Bool) : Asg := fun i => if i = v then b else a i

theorem setVar_same (a : Asg) (v : Nat) (b : Bool) : setVar a v b v = b := by simp [setVar]
theorem setVar_other (a : Asg) {v i : Nat} (b : Bool) (h : i ≠ v) : setVar a v b i = a i := by simp [setVar, h]
theorem setVar_self (a : Asg) (v : Nat) : setVar a v (a v) = a := by
  funext i; by_cases h : i = v
  · subst h; simp [setVar]
  · simp [setVar, h]

/-- A function from a level on does not depend on variables above this level. -/
theorem Dd.eval_setVar (h : dd.Ok) {r : Ref} {v : Nat} (hr : dd.Valid r) (hf : dd.From (dd.level v + 1) r) (a : Asg) (b : Bool) :
    dd.eval r (setVar a v b) = dd.eval r a := by
  refine Dd.eval_from h r.addr r _ (Nat.le_refl _) hr hf _ _ fun i hi => ?_
  refine setVar_other a b fun e => ?_
  subst e; omega

/-! ### Canonicity -/

/-- An uncomplemented pointer is true if all variables are. -/
theorem Dd.eval_true (h : dd.Ok) : ∀ (n : Nat) (r : Ref), r.addr ≤ n → dd.Valid r → dd.eval r (fun _ => true) = !r.neg := by
  intro n
  induction n with
  | zero =>
    rintro ⟨neg, k⟩ h1 _
    simp only [Nat.le_zero] at h1
    subst h1; rfl
  | succ n ih =>
    rintro ⟨neg, k⟩ h1 hv
    cases k with
    | zero => rfl
    | succ k =>
      obtain ⟨nd, hk⟩ := hv.get
      have ht := h.t_lt k nd hk
      simp only at h1
      rw [Dd.eval_node h hk, if_pos rfl, ih nd.t (by omega) (h.t_valid hk), h.t_regular k nd hk]
      cases neg <;> rfl

/-- Equal functions have equal pointers. -/
theorem Dd.canonical (h : dd.Ok) {r r' : Ref} (hr : dd.Valid r) (hr' : dd.Valid r') (he : ∀ a, dd.eval r a = dd.eval r' a) : r = r' := by
  have key : ∀ (n : Nat) (r r' : Ref), r.addr + r'.addr ≤ n → dd.Valid r → dd.Valid r' → (∀ a, dd.eval r a = dd.eval r' a) → r = r' := by
    intro n
    induction n with
    | zero =>
      rintro ⟨neg, k⟩ ⟨neg', k'⟩ h1 _ _ he
      simp only [Nat.le_zero, Nat.add_eq_zero_iff] at h1
      obtain ⟨rfl, rfl⟩ := h1
      have := he fun _ => true
      rw [Dd.eval_one, Dd.eval_one] at this
      rw [Bool.not_inj this]
    | succ n ih =>
      -- a node is not constant on its variable
      have noconst : ∀ (neg : Bool) (k : Nat) (nd : DdNode) (r' : Ref), k + 1 ≤ n + 1 → dd.nodes[k]? = some nd → dd.Valid r' →
          dd.From (dd.level nd.index + 1) r' → k + 1 + r'.addr ≤ n + 1 → ¬ ∀ a, dd.eval ⟨neg, k + 1⟩ a = dd.eval r' a := by
        intro neg k nd r' _ hk hr' hf hle he
        have ht := h.t_lt k nd hk
        have hel := h.e_lt k nd hk
        have e1 : ∀ a, (dd.eval nd.t a != neg) = dd.eval r' a := by
          intro a
          have := he (setVar a nd.index true)
          rw [Dd.eval_node h hk, if_pos (setVar_same _ _ _), Dd.eval_setVar h (h.t_valid hk) (h.t_from hk),
            Dd.eval_setVar h hr' hf] at this
          exact this
        have e2 : ∀ a, (dd.eval nd.e a != neg) = dd.eval r' a := by
          intro a
          have := he (setVar a nd.index false)
          rw [Dd.eval_node h hk, if_neg (by rw [setVar_same]; simp), Dd.eval_setVar h (h.e_valid hk) (h.e_from hk),
            Dd.eval_setVar h hr' hf] at this
          exact this
        have e3 : nd.t.xor neg = r' := ih _ _ (by rw [Ref.xor_addr]; omega) ((h.t_valid hk).xor neg) hr' fun a => by
          rw [Dd.eval_xor h (h.t_valid hk)]; exact e1 a
        have e4 : nd.e.xor neg = r' := ih _ _ (by rw [Ref.xor_addr]; omega) ((h.e_valid hk).xor neg) hr' fun a => by
          rw [Dd.eval_xor h (h.e_valid hk)]; exact e2 a
        apply h.reduced k nd hk
        have e5 := e3.trans e4.symm
        have h1 := congrArg Ref.addr e5
        have h2 := congrArg Ref.neg e5
        rw [Ref.xor_addr, Ref.xor_addr] at h1
        rw [Ref.xor_neg, Ref.xor_neg] at h2
        obtain ⟨⟨a, b⟩, hb⟩ : ∃ x, nd.t = x := ⟨_, rfl⟩
        obtain ⟨⟨a', b'⟩, hb'⟩ : ∃ x, nd.e = x := ⟨_, rfl⟩
        rw [hb, hb'] at h1 h2
        rw [hb, hb']
        simp only at h1 h2
        subst h1
        congr 1
        cases a <;> cases a' <;> cases neg <;> simp_all
      rintro ⟨neg, k⟩ ⟨neg', k'⟩ h1 hr hr' he
      simp only at h1
      cases k with
      | zero =>
        cases k' with
        | zero =>
          have := he fun _ => true
          rw [Dd.eval_one, Dd.eval_one] at this
          rw [Bool.not_inj this]
        | succ k' =>
          obtain ⟨nd, hk⟩ := hr'.get
          exact absurd (fun a => (he a).symm) (noconst neg' k' nd ⟨neg, 0⟩ (by omega) hk hr trivial (by simp only; omega))
      | succ k =>
        obtain ⟨nd, hk⟩ := hr.get
        cases k' with
        | zero => exact absurd he (noconst neg k nd ⟨neg', 0⟩ (by omega) hk hr' trivial (by simp only; omega))
        | succ k' =>
          obtain ⟨nd', hk'⟩ := hr'.get
          have hneg : neg = neg' := by
            have := he fun _ => true
            rw [Dd.eval_true h _ _ (Nat.le_refl _) hr, Dd.eval_true h _ _ (Nat.le_refl _) hr'] at this
            exact Bool.not_inj this
          subst hneg
          rcases Nat.lt_trichotomy (dd.level nd.index) (dd.level nd'.index) with hlt | heq | hlt
          · refine absurd he (noconst neg k nd ⟨neg, k' + 1⟩ (by omega) hk hr' ?_ (by simp only; omega))
            intro nd'' hnd''
            rw [hk'] at hnd''; cases hnd''; omega
          · have hix := h.level_inj _ _ heq
            have ht := h.t_lt k nd hk
            have hel := h.e_lt k nd hk
            have ht' := h.t_lt k' nd' hk'
            have hel' := h.e_lt k' nd' hk'
            have bneq : ∀ x y z : Bool, (x != z) = (y != z) → x = y := by decide
            have e1 : nd.t = nd'.t := by
              refine ih _ _ (by omega) (h.t_valid hk) (h.t_valid hk') fun a => ?_
              have := he (setVar a nd.index true)
              rw [Dd.eval_node h hk, Dd.eval_node h hk', ← hix, if_pos (setVar_same _ _ _), if_pos (setVar_same _ _ _),
                Dd.eval_setVar h (h.t_valid hk) (h.t_from hk), hix, Dd.eval_setVar h (h.t_valid hk') (h.t_from hk')] at this
              exact bneq _ _ _ this
            have e2 : nd.e = nd'.e := by
              refine ih _ _ (by omega) (h.e_valid hk) (h.e_valid hk') fun a => ?_
              have := he (setVar a nd.index false)
              rw [Dd.eval_node h hk, Dd.eval_node h hk', ← hix, if_neg (by rw [setVar_same]; simp), if_neg (by rw [setVar_same]; simp),
                Dd.eval_setVar h (h.e_valid hk) (h.e_from hk), hix, Dd.eval_setVar h (h.e_valid hk') (h.e_from hk')] at this
              exact bneq _ _ _ this
            have e3 : nd = nd' := by
              obtain ⟨x, y, z⟩ := nd
              obtain ⟨x', y', z'⟩ := nd'
              simp only at hix e1 e2
              subst hix e1 e2; rfl
            subst e3
            rw [h.unique k k' nd hk hk']
          · refine absurd (fun a => (he a).symm) (noconst neg k' nd' ⟨neg, k + 1⟩ (by omega) hk' hr ?_ (by simp only; omega))
            intro nd'' hnd''
            rw [hk] at hnd''; cases hnd''; omega
  exact key _ r r' (Nat.le_refl _) hr hr' he

/-! ### Counting -/

/-- Fixing a variable. -/
def cof (f : Asg → Bool) (v : Nat) (b : Bool) : Asg → Bool := fun a => f (setVar a v b)

theorem satCount_nil (f : Asg → Bool) : satCount [] f = if f (fun _ => false) then 1 else 0 := by
  have he : ∀ a : {v // v ∈ ([] : List Nat)} → Bool, extend [] a = fun _ => false := by
    intro a; funext v; simp [extend]
  have : IsEmpty {v // v ∈ ([] : List Nat)} := ⟨fun x => by simpa using x.2⟩
  rw [satCount]
  split
  · rename_i h
    refine Nat.card_eq_one_iff_unique.mpr ⟨⟨fun x y => Subtype.ext (Subsingleton.elim _ _)⟩, ⟨⟨fun x => isEmptyElim x, ?_⟩⟩⟩
    rw [he]; exact h
  · rename_i h
    have : IsEmpty {a : {v // v ∈ ([] : List Nat)} → Bool // f (extend [] a) = true} := ⟨fun x => h (by
      have := x.2; rwa [he] at this)⟩
    exact Nat.card_of_isEmpty

theorem satCount_cons {v : Nat} {vs : List Nat} (hv : v ∉ vs) (f : Asg → Bool) :
    satCount (v :: vs) f = satCount vs (cof f v true) + satCount vs (cof f v false) := by
  have hsum : Nat.card ({a : {v // v ∈ vs} → Bool // cof f v true (extend vs a) = true} ⊕
      {a : {v // v ∈ vs} → Bool // cof f v false (extend vs a) = true}) =
      satCount vs (cof f v true) + satCount vs (cof f v false) := Nat.card_sum
  rw [← hsum, satCount]
  refine Nat.card_congr ?_
  let glue : Bool → ({x // x ∈ vs} → Bool) → {x // x ∈ v :: vs} → Bool := fun b a x =>
    if hx : x.1 ∈ vs then a ⟨x.1, hx⟩ else b
  let rest : ({x // x ∈ v :: vs} → Bool) → {x // x ∈ vs} → Bool := fun a x => a ⟨x.1, List.mem_cons_of_mem _ x.2⟩
  have hglue : ∀ b a, extend (v :: vs) (glue b a) = setVar (extend vs a) v b := by
    intro b a; funext x
    by_cases hx : x = v
    · subst hx; simp [extend, glue, hv, setVar]
    · by_cases hm : x ∈ vs
      · simp [extend, glue, hm, setVar, hx]
      · simp [extend, hm, setVar, hx]
  have hrest : ∀ a, glue (a ⟨v, List.mem_cons_self⟩) (rest a) = a := by
    intro a; funext ⟨x, hx⟩
    by_cases hm : x ∈ vs
    · simp [glue, rest, hm]
    · obtain rfl : x = v := by simpa [hm] using hx
      simp [glue, hm]
  have hrest' : ∀ b a, rest (glue b a) = a := by
    intro b a; funext ⟨x, hx⟩; simp [glue, rest, hx]
  have hhead : ∀ b a, glue b a ⟨v, List.mem_cons_self⟩ = b := by intro b a; simp [glue, hv]
  refine
    { toFun := fun a => if hb : a.1 ⟨v, List.mem_cons_self⟩ = true then .inl ⟨rest a.1, ?_⟩ else .inr ⟨rest a.1, ?_⟩
      invFun := fun x => match x with
        | .inl a => ⟨glue true a.1, ?_⟩
        | .inr a => ⟨glue false a.1, ?_⟩
      left_inv := ?_
      right_inv := ?_ }
  · have h2 := a.2
    rw [← hrest a.1, hglue, hb] at h2; exact h2
  · have h2 := a.2
    have hb' : a.1 ⟨v, List.mem_cons_self⟩ = false := by simpa using hb
    rw [← hrest a.1, hglue, hb'] at h2; exact h2
  · rw [hglue]; exact a.2
  · rw [hglue]; exact a.2
  · rintro ⟨a, ha⟩
    dsimp only
    split
    · rename_i a' hb
      split at hb
      · rename_i hb'
        cases hb
        refine Subtype.ext ?_
        have := hrest a
        rw [hb'] at this
        exact this
      · cases hb
    · rename_i a' hb
      split at hb
      · cases hb
      · rename_i hb'
        cases hb
        refine Subtype.ext ?_
        have := hrest a
        rw [show a ⟨v, List.mem_cons_self⟩ = false by simpa using hb'] at this
        exact this
  · rintro (⟨a, ha⟩ | ⟨a, ha⟩)
    · dsimp only
      rw [dif_pos (hhead true a)]
      exact congrArg Sum.inl (Subtype.ext (hrest' true a))
    · dsimp only
      rw [dif_neg (by rw [hhead]; simp)]
      exact congrArg Sum.inr (Subtype.ext (hrest' false a))

theorem onlyDependsOn_cons {v : Nat} {vs : List Nat} (hv : v ∉ vs) (f : Asg → Bool) :
    OnlyDependsOn (v :: vs) f ↔ OnlyDependsOn vs (cof f v true) ∧ OnlyDependsOn vs (cof f v false) := by
  constructor
  · intro h
    constructor <;>
    · intro a a' ha
      refine h _ _ fun x hx => ?_
      by_cases hxv : x = v
      · subst hxv; rw [setVar_same, setVar_same]
      · rw [setVar_other _ _ hxv, setVar_other _ _ hxv]
        exact ha x (by simpa [hxv] using hx)
  · rintro ⟨h1, h2⟩ a a' ha
    have hav := ha v List.mem_cons_self
    rw [← setVar_self a v, ← setVar_self a' v, ← hav]
    cases a v
    · exact h2 a a' fun x hx => ha x (List.mem_cons_of_mem _ hx)
    · exact h1 a a' fun x hx => ha x (List.mem_cons_of_mem _ hx)

open Classical in
/-- The number of satisfying assignments, if the function only depends on the given variables. -/
noncomputable def specCount (vs : List Nat) (f : Asg → Bool) : Option Nat := if OnlyDependsOn vs f then some (satCount vs f) else none

theorem specCount_cons {v : Nat} {vs : List Nat} (hv : v ∉ vs) (f : Asg → Bool) :
    specCount (v :: vs) f = plus (specCount vs (cof f v true)) (specCount vs (cof f v false)) := by
  have h := onlyDependsOn_cons hv f
  simp only [specCount, satCount_cons hv]
  by_cases h1 : OnlyDependsOn vs (cof f v true) <;> by_cases h2 : OnlyDependsOn vs (cof f v false) <;> simp [h, h1, h2, plus]

theorem specCount_indep {v : Nat} {vs : List Nat} (hv : v ∉ vs) {f : Asg → Bool} (hf : ∀ a b, f (setVar a v b) = f a) :
    specCount (v :: vs) f = (specCount vs f).map (2 * ·) := by
  have e : ∀ b, cof f v b = f := fun b => funext fun a => hf a b
  rw [specCount_cons hv, e, e]
  cases specCount vs f with
  | none => rfl
  | some n => simp [plus]; omega

/-! ### The cube -/

/-- The chain of nodes that represents a conjunction of variables. -/
inductive IsCube (dd : Dd) : Ref → List Nat → Prop
  | nil : IsCube dd ⟨false, 0⟩ []
  | cons {k nd vs} : dd.nodes[k]? = some nd → nd.e = ⟨true, 0⟩ → IsCube dd nd.t vs → IsCube dd ⟨false, k + 1⟩ (nd.index :: vs)

theorem IsCube.neg {c : Ref} {vs : List Nat} (h : IsCube dd c vs) : c.neg = false := by cases h <;> rfl

theorem IsCube.levels (hok : dd.Ok) {c : Ref} {vs : List Nat} (h : IsCube dd c vs) {l : Nat} (hf : dd.From l c) : ∀ v ∈ vs, l ≤ dd.level v := by
  induction h generalizing l with
  | nil => simp
  | @cons k nd vs hk he _ ih =>
    intro v hv
    have hl := hf nd hk
    rcases List.mem_cons.mp hv with rfl | hv
    · exact hl
    · exact Nat.le_trans hl (Nat.le_trans (Nat.le_succ _) (ih (hok.t_from hk) v hv))

theorem IsCube.nodup (hok : dd.Ok) {c : Ref} {vs : List Nat} (h : IsCube dd c vs) : vs.Nodup := by
  induction h with
  | nil => exact List.nodup_nil
  | @cons k nd vs hk he ht ih =>
    refine List.nodup_cons.mpr ⟨fun hm => ?_, ih⟩
    have := ht.levels hok (hok.t_from hk) _ hm
    omega

/-- The diagram of a conjunction of variables is a chain. -/
theorem isCube_of_conj (h : dd.Ok) : ∀ (n : Nat) (c : Ref) (vs : List Nat), c.addr ≤ n → dd.Valid c →
    (∀ a, dd.eval c a = true ↔ ∀ v ∈ vs, a v = true) → ∃ us, IsCube dd c us ∧ ∀ v, v ∈ us ↔ v ∈ vs := by
  intro n
  induction n with
  | zero =>
    rintro ⟨neg, k⟩ vs h1 _ he
    simp only [Nat.le_zero] at h1
    subst h1
    have hneg : neg = false := by
      have := (he fun _ => true).mpr fun _ _ => rfl
      rw [Dd.eval_one] at this; simpa using this
    subst hneg
    refine ⟨[], .nil, fun v => Iff.intro (fun hv => by cases hv) fun hv => ?_⟩
    have := (he fun _ => false).mp rfl v hv
    cases this
  | succ n ih =>
    rintro ⟨neg, k⟩ vs h1 hv he
    cases k with
    | zero =>
      exact ih ⟨neg, 0⟩ vs (Nat.zero_le _) hv he
    | succ k =>
      obtain ⟨nd, hk⟩ := hv.get
      have hneg : neg = false := by
        have := (he fun _ => true).mpr fun _ _ => rfl
        rw [Dd.eval_true h _ _ (Nat.le_refl _) hv] at this; simpa using this
      subst hneg
      have hlt := h.t_lt k nd hk
      have bf : ∀ x : Bool, (x != false) = x := by decide
      have ev : ∀ a, dd.eval ⟨false, k + 1⟩ a = if a nd.index then dd.eval nd.t a else dd.eval nd.e a := fun a => by
        rw [Dd.eval_node h hk, bf]
      have e1 : ∀ a, dd.eval nd.t a = true ↔ ∀ v ∈ vs.filter (· ≠ nd.index), a v = true := by
        intro a
        have := he (setVar a nd.index true)
        rw [ev, if_pos (setVar_same _ _ _), Dd.eval_setVar h (h.t_valid hk) (h.t_from hk)] at this
        rw [this]
        simp only [List.mem_filter, decide_eq_true_eq, and_imp]
        refine forall_congr' fun v => imp_congr_right fun hv => ?_
        by_cases hx : v = nd.index
        · subst hx; simp [setVar_same]
        · simp [setVar_other _ _ hx, hx]
      -- the variable occurs
      have hmem : nd.index ∈ vs := by
        by_contra hn
        refine h.reduced k nd hk (Dd.canonical h (h.t_valid hk) (h.e_valid hk) fun a => ?_)
        have := he (setVar a nd.index true)
        have this2 := he (setVar a nd.index false)
        rw [ev, if_pos (setVar_same _ _ _), Dd.eval_setVar h (h.t_valid hk) (h.t_from hk)] at this
        rw [ev, if_neg (by rw [setVar_same]; simp), Dd.eval_setVar h (h.e_valid hk) (h.e_from hk)] at this2
        rw [Bool.eq_iff_iff, this, this2]
        refine forall_congr' fun v => imp_congr_right fun hv => ?_
        rw [setVar_other _ _ (fun e : v = nd.index => hn (e ▸ hv)), setVar_other _ _ (fun e : v = nd.index => hn (e ▸ hv))]
      have e2 : nd.e = ⟨true, 0⟩ := by
        refine Dd.canonical h (h.e_valid hk) (Nat.zero_le _) fun a => ?_
        have := he (setVar a nd.index false)
        rw [ev, if_neg (by rw [setVar_same]; simp), Dd.eval_setVar h (h.e_valid hk) (h.e_from hk)] at this
        rw [Dd.eval_one]
        refine Bool.eq_false_iff.mpr fun ht => ?_
        have := this.mp ht _ hmem
        rw [setVar_same] at this; cases this
      obtain ⟨us, hus, hus'⟩ := ih nd.t _ (by simp only at h1; omega) (h.t_valid hk) e1
      refine ⟨nd.index :: us, .cons hk e2 hus, fun v => ?_⟩
      rw [List.mem_cons, hus' v]
      simp only [List.mem_filter, decide_eq_true_eq]
      constructor
      · rintro (rfl | h); exacts [hmem, h.1]
      · intro hv
        by_cases hx : v = nd.index
        · exact .inl hx
        · exact .inr ⟨hv, hx⟩

/-! ### The recursion -/

/-- Everything in the buffer is right. -/
def BufferOK (dd : Dd) (all : List Nat) (buffer : CountBuffer) : Prop :=
  ∀ r c, buffer.lookup r = some c → ∃ v vs, (v :: vs) <:+ all ∧
    (∃ k nd, r.addr = k + 1 ∧ dd.nodes[k]? = some nd ∧ nd.index = v) ∧ c = specCount (v :: vs) (dd.eval r)

theorem suffix_unique {all : List Nat} (hn : all.Nodup) {v : Nat} {vs vs' : List Nat} (h : (v :: vs) <:+ all) (h' : (v :: vs') <:+ all) :
    vs = vs' := by
  obtain ⟨p, hp⟩ := h
  obtain ⟨p', hp'⟩ := h'
  have e : p ++ v :: vs = p' ++ v :: vs' := hp.trans hp'.symm
  have hn1 : (p ++ v :: vs).Nodup := hp ▸ hn
  have hn2 : (p' ++ v :: vs').Nodup := hp' ▸ hn
  have key : ∀ (p p' : List Nat), p ++ v :: vs = p' ++ v :: vs' → (p ++ v :: vs).Nodup → (p' ++ v :: vs').Nodup → vs = vs' := by
    intro p
    induction p with
    | nil =>
      intro p' e h1 h2
      cases p' with
      | nil => simpa using e
      | cons x p' =>
        simp only [List.nil_append, List.cons_append, List.cons.injEq] at e
        obtain ⟨rfl, e⟩ := e
        rw [List.cons_append, List.nodup_cons] at h2
        exact absurd (by simp) h2.1
    | cons x p ih =>
      intro p' e h1 h2
      cases p' with
      | nil =>
        simp only [List.nil_append, List.cons_append, List.cons.injEq] at e
        obtain ⟨rfl, e⟩ := e
        rw [List.cons_append, List.nodup_cons] at h1
        exact absurd (by simp) h1.1
      | cons y p' =>
        simp only [List.cons_append, List.cons.injEq] at e
        rw [List.cons_append, List.nodup_cons] at h1 h2
        exact ih p' e.2 h1.2 h2.2
  exact key p p' e hn1 hn2

theorem countRec_spec (h : dd.Ok) {all : List Nat} (hall : all.Nodup) : ∀ (n : Nat) (orig cube : Ref) (vs : List Nat) (buffer : CountBuffer),
    cube.addr < n → dd.Valid orig → IsCube dd cube vs → vs <:+ all → BufferOK dd all buffer →
    ∃ buffer', countRec dd n orig cube buffer = .val (specCount vs (dd.eval orig)) buffer' ∧ BufferOK dd all buffer' := by
  intro n
  induction n with
  | zero => intro _ _ _ _ hn; omega
  | succ n ih =>
    intro orig cube vs buffer hn hv hc hsuf hb
    have hnodup := hc.nodup h
    rw [countRec, hc.neg, if_neg (by simp)]
    obtain ⟨neg, k⟩ := orig
    cases k with
    | zero =>
      simp only
      cases hc with
      | nil =>
        refine ⟨buffer, ?_, hb⟩
        simp only
        congr 1
        have ho : OnlyDependsOn [] (dd.eval ⟨neg, 0⟩) := fun a a' _ => by rw [Dd.eval_one, Dd.eval_one]
        rw [specCount, if_pos ho, satCount_nil, Dd.eval_one]
        cases neg <;> simp
      | @cons k nd vs hk he ht =>
        simp only [hk]
        have hlt := h.t_lt k nd hk
        obtain ⟨b', h1, h2⟩ := ih ⟨neg, 0⟩ nd.t vs buffer (by simp only at hn; omega) hv ht ((List.suffix_cons _ _).trans hsuf) hb
        refine ⟨b', ?_, h2⟩
        rw [h1, twice, specCount_indep (List.nodup_cons.mp hnodup).1 (fun a b => by rw [Dd.eval_one, Dd.eval_one])]
    | succ m =>
      obtain ⟨nd, hm⟩ := hv.get
      simp only [hm]
      -- the function depends on the variable
      have hdep : ∀ vs : List Nat, nd.index ∉ vs → ¬ OnlyDependsOn vs (dd.eval ⟨neg, m + 1⟩) := by
        intro vs hvs hd
        refine h.reduced m nd hm (Dd.canonical h (h.t_valid hm) (h.e_valid hm) fun a => ?_)
        have := hd (setVar a nd.index true) (setVar a nd.index false) fun v hv => by
          rw [setVar_other _ _ (fun e : v = nd.index => hvs (e ▸ hv)), setVar_other _ _ (fun e : v = nd.index => hvs (e ▸ hv))]
        rw [Dd.eval_node h hm, Dd.eval_node h hm, if_pos (setVar_same _ _ _), if_neg (by rw [setVar_same]; simp),
          Dd.eval_setVar h (h.t_valid hm) (h.t_from hm), Dd.eval_setVar h (h.e_valid hm) (h.e_from hm)] at this
        have bneq : ∀ x y z : Bool, (x != z) = (y != z) → x = y := by decide
        exact bneq _ _ _ this
      cases hc with
      | nil =>
        refine ⟨buffer, ?_, hb⟩
        simp only
        rw [specCount, if_neg (hdep [] (by simp))]
      | @cons k c vs hk he ht =>
        simp only [hk]
        have hlt := h.t_lt k c hk
        have hsuf' := (List.suffix_cons _ _).trans hsuf
        simp only at hn
        by_cases h1 : dd.level c.index < dd.level nd.index
        · rw [if_pos h1]
          obtain ⟨b', h2, h3⟩ := ih ⟨neg, m + 1⟩ c.t vs buffer (by omega) hv ht hsuf' hb
          refine ⟨b', ?_, h3⟩
          rw [h2, twice, specCount_indep (List.nodup_cons.mp hnodup).1 (fun a b => Dd.eval_setVar h hv (fun nd' hnd' => by
            rw [hm] at hnd'; cases hnd'; exact h1) a b)]
        · rw [if_neg h1]
          by_cases h2 : dd.level c.index > dd.level nd.index
          · rw [if_pos h2]
            refine ⟨buffer, ?_, hb⟩
            rw [specCount, if_neg (hdep _ fun hmem => ?_)]
            have hcube : IsCube dd ⟨false, k + 1⟩ (c.index :: vs) := .cons hk he ht
            have := hcube.levels h (l := dd.level c.index) (fun nd' hnd' => by rw [hk] at hnd'; cases hnd'; exact Nat.le_refl _) _ hmem
            omega
          · rw [if_neg h2]
            have hix : c.index = nd.index := h.level_inj _ _ (by omega)
            have e1 : cof (dd.eval ⟨neg, m + 1⟩) c.index true = dd.eval (nd.t.xor neg) := by
              funext a
              rw [cof, Dd.eval_node h hm, hix, if_pos (setVar_same _ _ _), Dd.eval_setVar h (h.t_valid hm) (h.t_from hm),
                Dd.eval_xor h (h.t_valid hm)]
            have e2 : cof (dd.eval ⟨neg, m + 1⟩) c.index false = dd.eval (nd.e.xor neg) := by
              funext a
              rw [cof, Dd.eval_node h hm, hix, if_neg (by rw [setVar_same]; simp), Dd.eval_setVar h (h.e_valid hm) (h.e_from hm),
                Dd.eval_xor h (h.e_valid hm)]
            cases hl : buffer.lookup ⟨neg, m + 1⟩ with
            | some v =>
              refine ⟨buffer, ?_, hb⟩
              simp only
              obtain ⟨w, ws, h3, ⟨k', nd', h4, h5, h6⟩, h7⟩ := hb _ _ hl
              simp only [Nat.add_right_cancel_iff] at h4
              subst h4
              rw [hm] at h5; cases h5
              have hw : w = c.index := h6.symm.trans hix.symm
              subst hw
              rw [h7, suffix_unique hall h3 hsuf]
            | none =>
              simp only
              obtain ⟨b1, h3, h4⟩ := ih (nd.t.xor neg) c.t vs buffer (by omega) ((h.t_valid hm).xor neg) ht hsuf' hb
              obtain ⟨b2, h5, h6⟩ := ih (nd.e.xor neg) c.t vs b1 (by omega) ((h.e_valid hm).xor neg) ht hsuf' h4
              rw [h3]
              simp only
              rw [h5]
              simp only
              have e3 : plus (specCount vs (dd.eval (nd.t.xor neg))) (specCount vs (dd.eval (nd.e.xor neg))) =
                  specCount (c.index :: vs) (dd.eval ⟨neg, m + 1⟩) := by
                rw [specCount_cons (List.nodup_cons.mp hnodup).1, e1, e2]
              rw [e3]
              refine ⟨_, rfl, fun r v hr => ?_⟩
              rw [List.lookup_cons] at hr
              split at hr
              · rename_i heq
                have heq := eq_of_beq heq
                subst heq
                cases hr
                exact ⟨c.index, vs, hsuf, ⟨m, nd, rfl, hm, hix.symm⟩, rfl⟩
              · exact h6 r v hr

/-- The order of the variables and repetitions do not matter. -/
theorem satCount_congr {vs us : List Nat} (h : ∀ v, v ∈ us ↔ v ∈ vs) (f : Asg → Bool) : satCount us f = satCount vs f := by
  refine Nat.card_congr
    { toFun := fun a => ⟨fun x => a.1 ⟨x.1, (h _).mpr x.2⟩, ?_⟩
      invFun := fun a => ⟨fun x => a.1 ⟨x.1, (h _).mp x.2⟩, ?_⟩
      left_inv := fun a => rfl
      right_inv := fun a => rfl }
  · rw [show extend vs (fun x => a.1 ⟨x.1, (h _).mpr x.2⟩) = extend us a.1 from ?_]
    · exact a.2
    · funext v; simp [extend, h v]
  · rw [show extend us (fun x => a.1 ⟨x.1, (h _).mp x.2⟩) = extend vs a.1 from ?_]
    · exact a.2
    · funext v; simp [extend, h v]

theorem onlyDependsOn_congr {vs us : List Nat} (h : ∀ v, v ∈ us ↔ v ∈ vs) (f : Asg → Bool) : OnlyDependsOn us f ↔ OnlyDependsOn vs f := by
  simp only [OnlyDependsOn, h]

theorem getNof_spec (h : dd.Ok) {node cube : Ref} {vs : List Nat} (hn : dd.Valid node) (hc : dd.Valid cube)
    (hcube : ∀ a, dd.eval cube a = true ↔ ∀ v ∈ vs, a v = true) {depth : Nat} (hd : dd.nodes.length < depth) :
    ∃ buffer, getNofSatisfyingAssignments dd depth node cube = .val (specCount vs (dd.eval node)) buffer := by
  obtain ⟨us, hus, hm⟩ := isCube_of_conj h _ cube vs (Nat.le_refl _) hc hcube
  obtain ⟨b, hb, -⟩ := countRec_spec h (hus.nodup h) depth node cube us [] (Nat.lt_of_le_of_lt hc hd) hn hus (List.suffix_refl _)
    (fun r c hr => by cases hr)
  refine ⟨b, ?_⟩
  rw [getNofSatisfyingAssignments, hb, specCount, specCount, satCount_congr hm]
  have := onlyDependsOn_congr hm (dd.eval node)
  by_cases h1 : OnlyDependsOn vs (dd.eval node)
  · rw [if_pos h1, if_pos (this.mpr h1)]
  · rw [if_neg h1, if_neg (fun h2 => h1 (this.mp h2))]

end Slugs.Model
