import Verif.Model.BDD
import Mathlib.Tactic.Common

/-!
An implementation of the BDD contract by reduced ordered binary decision diagrams (without sharing, so that
structural equality is node equality).  It shows that the contract can be met and makes the model executable.
-/

namespace Slugs.Model

/-- Decision trees. -/
inductive BDT where
  | leaf (b : Bool)
  | node (v : Nat) (hi lo : BDT)
  deriving DecidableEq, Repr

namespace BDT

def eval : BDT → Asg → Bool
  | leaf b, _ => b
  | node v h l, a => if a v then h.eval a else l.eval a

/-- Ordered (all variables at least `k`, increasing along paths) and reduced. -/
def ok : Nat → BDT → Prop
  | _, leaf _ => True
  | k, node v h l => k ≤ v ∧ h ≠ l ∧ ok (v + 1) h ∧ ok (v + 1) l

instance okDec : ∀ k t, Decidable (ok k t)
  | _, leaf _ => isTrue trivial
  | k, node v h l =>
    have := okDec (v + 1) h
    have := okDec (v + 1) l
    inferInstanceAs (Decidable (k ≤ v ∧ h ≠ l ∧ ok (v + 1) h ∧ ok (v + 1) l))

theorem ok_mono {k k' : Nat} {t : BDT} (h : ok k t) (hk : k' ≤ k) : ok k' t := by
  cases t with
  | leaf => trivial
  | node v hi lo => exact ⟨Nat.le_trans hk h.1, h.2⟩

/-- The value only depends on the variables from `k` on. -/
theorem eval_congr {k : Nat} {t : BDT} (h : ok k t) {a a' : Asg} (ha : ∀ i, k ≤ i → a i = a' i) :
    t.eval a = t.eval a' := by
  induction t generalizing k with
  | leaf => rfl
  | node v hi lo ihh ihl =>
    obtain ⟨h1, _, h3, h4⟩ := h
    simp only [eval, ha v h1]
    rw [ihh h3 (fun i hi => ha i (by omega)), ihl h4 (fun i hi => ha i (by omega))]

def setv (a : Asg) (v : Nat) (b : Bool) : Asg := fun i => if i = v then b else a i

theorem eval_set {t : BDT} {v : Nat} (h : ok (v + 1) t) (a : Asg) (b : Bool) : t.eval (setv a v b) = t.eval a :=
  eval_congr h (fun i hi => by simp [setv]; omega)

/-- Canonicity. -/
theorem canonical : ∀ {t t' : BDT} {k : Nat}, ok k t → ok k t' → (∀ a, t.eval a = t'.eval a) → t = t' := by
  have key : ∀ (n : Nat) (t t' : BDT) (k : Nat), sizeOf t + sizeOf t' ≤ n → ok k t → ok k t' →
      (∀ a, t.eval a = t'.eval a) → t = t' := by
    intro n
    induction n with
    | zero => intro t t' k hs; cases t <;> simp at hs
    | succ n ih =>
      intro t t' k hs ht ht' he
      match t, t' with
      | leaf b, leaf b' => have := he (fun _ => false); simp [eval] at this; rw [this]
      | leaf b, node v h l =>
        obtain ⟨_, hne, h3, h4⟩ := ht'
        refine absurd (ih h l (v + 1) (by simp at hs ⊢; omega) h3 h4 ?_) hne
        intro a
        have h1 := he (setv a v true)
        have h2 := he (setv a v false)
        simp only [eval] at h1 h2
        rw [show setv a v true v = true by simp [setv], if_pos rfl, eval_set h3] at h1
        rw [show setv a v false v = false by simp [setv], if_neg (by simp), eval_set h4] at h2
        rw [← h1, ← h2]
      | node v h l, leaf b =>
        obtain ⟨_, hne, h3, h4⟩ := ht
        refine absurd (ih h l (v + 1) (by simp at hs ⊢; omega) h3 h4 ?_) hne
        intro a
        have h1 := he (setv a v true)
        have h2 := he (setv a v false)
        simp only [eval] at h1 h2
        rw [show setv a v true v = true by simp [setv], if_pos rfl, eval_set h3] at h1
        rw [show setv a v false v = false by simp [setv], if_neg (by simp), eval_set h4] at h2
        rw [h1, h2]
      | node v h l, node w h' l' =>
        obtain ⟨hk1, hne, h3, h4⟩ := ht
        obtain ⟨hk2, hne', h3', h4'⟩ := ht'
        rcases Nat.lt_trichotomy v w with hvw | hvw | hvw
        · exfalso
          refine hne (ih h l (v + 1) (by simp at hs ⊢; omega) h3 h4 ?_)
          intro a
          have hok : ok (v + 1) (node w h' l') := ⟨hvw, hne', h3', h4'⟩
          have h1 := he (setv a v true)
          have h2 := he (setv a v false)
          rw [eval_set hok] at h1 h2
          rw [eval, show setv a v true v = true by simp [setv], if_pos rfl, eval_set h3] at h1
          rw [eval, show setv a v false v = false by simp [setv], if_neg (by simp), eval_set h4] at h2
          rw [h1, h2]
        · subst hvw
          have hh : h = h' := by
            refine ih h h' (v + 1) (by simp at hs ⊢; omega) h3 h3' ?_
            intro a
            have h1 := he (setv a v true)
            rw [eval, eval, show setv a v true v = true by simp [setv], if_pos rfl, if_pos rfl, eval_set h3,
              eval_set h3'] at h1
            exact h1
          have hl : l = l' := by
            refine ih l l' (v + 1) (by simp at hs ⊢; omega) h4 h4' ?_
            intro a
            have h1 := he (setv a v false)
            rw [eval, eval, show setv a v false v = false by simp [setv], if_neg (by simp), if_neg (by simp),
              eval_set h4, eval_set h4'] at h1
            exact h1
          rw [hh, hl]
        · exfalso
          refine hne' (ih h' l' (w + 1) (by simp at hs ⊢; omega) h3' h4' ?_)
          intro a
          have hok : ok (w + 1) (node v h l) := ⟨hvw, hne, h3, h4⟩
          have h1 := he (setv a w true)
          have h2 := he (setv a w false)
          rw [eval_set hok] at h1 h2
          rw [eval.eq_2 _ w, show setv a w true w = true by simp [setv], if_pos rfl, eval_set h3'] at h1
          rw [eval.eq_2 _ w, show setv a w false w = false by simp [setv], if_neg (by simp), eval_set h4'] at h2
          rw [← h1, ← h2]
  intro t t' k h h' he
  exact key _ t t' k (Nat.le_refl _) h h' he

/-- Reduced node construction. -/
def mk (v : Nat) (h l : BDT) : BDT := if h = l then h else node v h l

theorem eval_mk (v : Nat) (h l : BDT) (a : Asg) : (mk v h l).eval a = if a v then h.eval a else l.eval a := by
  unfold mk
  split
  · subst_vars; simp
  · rfl

theorem ok_mk {k v : Nat} {h l : BDT} (hk : k ≤ v) (hh : ok (v + 1) h) (hl : ok (v + 1) l) : ok k (mk v h l) := by
  unfold mk
  split
  · exact ok_mono hh (by omega)
  · exact ⟨hk, ‹_›, hh, hl⟩

def size : BDT → Nat
  | leaf _ => 1
  | node _ h l => h.size + l.size + 1

/-- Binary operations; the first argument bounds the recursion depth. -/
def apply (op : Bool → Bool → Bool) : Nat → BDT → BDT → BDT
  | _, leaf x, leaf y => leaf (op x y)
  | 0, _, _ => leaf false
  | n + 1, node v h l, leaf y => mk v (apply op n h (leaf y)) (apply op n l (leaf y))
  | n + 1, leaf x, node w h l => mk w (apply op n (leaf x) h) (apply op n (leaf x) l)
  | n + 1, node v h l, node w h' l' =>
    if v < w then mk v (apply op n h (node w h' l')) (apply op n l (node w h' l'))
    else if w < v then mk w (apply op n (node v h l) h') (apply op n (node v h l) l')
    else mk v (apply op n h h') (apply op n l l')

theorem apply_spec (op : Bool → Bool → Bool) : ∀ (n : Nat) (s t : BDT) (k : Nat), s.size + t.size ≤ n → ok k s → ok k t →
    ok k (apply op n s t) ∧ ∀ a, (apply op n s t).eval a = op (s.eval a) (t.eval a) := by
  intro n
  induction n with
  | zero => intro s t k hs; cases s <;> simp [size] at hs
  | succ n ih =>
    intro s t k hs hks hkt
    match s, t with
    | leaf x, leaf y => exact ⟨trivial, fun a => rfl⟩
    | node v h l, leaf y =>
      obtain ⟨h1, h2, h3, h4⟩ := hks
      obtain ⟨o1, e1⟩ := ih h (leaf y) (v + 1) (by simp [size] at hs ⊢; omega) h3 trivial
      obtain ⟨o2, e2⟩ := ih l (leaf y) (v + 1) (by simp [size] at hs ⊢; omega) h4 trivial
      refine ⟨ok_mk h1 o1 o2, fun a => ?_⟩
      rw [apply, eval_mk, e1, e2]
      simp only [eval]
      split <;> rfl
    | leaf x, node w h l =>
      obtain ⟨h1, h2, h3, h4⟩ := hkt
      obtain ⟨o1, e1⟩ := ih (leaf x) h (w + 1) (by simp [size] at hs ⊢; omega) trivial h3
      obtain ⟨o2, e2⟩ := ih (leaf x) l (w + 1) (by simp [size] at hs ⊢; omega) trivial h4
      refine ⟨ok_mk h1 o1 o2, fun a => ?_⟩
      rw [apply, eval_mk, e1, e2]
      simp only [eval]
      split <;> rfl
    | node v h l, node w h' l' =>
      obtain ⟨h1, h2, h3, h4⟩ := hks
      obtain ⟨g1, g2, g3, g4⟩ := hkt
      rw [apply]
      by_cases hvw : v < w
      · rw [if_pos hvw]
        have hok : ok (v + 1) (node w h' l') := ⟨hvw, g2, g3, g4⟩
        obtain ⟨o1, e1⟩ := ih h _ (v + 1) (by simp [size] at hs ⊢; omega) h3 hok
        obtain ⟨o2, e2⟩ := ih l _ (v + 1) (by simp [size] at hs ⊢; omega) h4 hok
        refine ⟨ok_mk h1 o1 o2, fun a => ?_⟩
        rw [eval_mk, e1, e2, eval.eq_2 a v]
        split <;> rfl
      · rw [if_neg hvw]
        by_cases hwv : w < v
        · rw [if_pos hwv]
          have hok : ok (w + 1) (node v h l) := ⟨hwv, h2, h3, h4⟩
          obtain ⟨o1, e1⟩ := ih _ h' (w + 1) (by simp [size] at hs ⊢; omega) hok g3
          obtain ⟨o2, e2⟩ := ih _ l' (w + 1) (by simp [size] at hs ⊢; omega) hok g4
          refine ⟨ok_mk g1 o1 o2, fun a => ?_⟩
          rw [eval_mk, e1, e2, eval.eq_2 a w]
          split <;> rfl
        · rw [if_neg hwv]
          have : v = w := by omega
          subst this
          obtain ⟨o1, e1⟩ := ih h h' (v + 1) (by simp [size] at hs ⊢; omega) h3 g3
          obtain ⟨o2, e2⟩ := ih l l' (v + 1) (by simp [size] at hs ⊢; omega) h4 g4
          refine ⟨ok_mk h1 o1 o2, fun a => ?_⟩
          rw [eval_mk, e1, e2]
          simp only [eval]
          split <;> rfl

def app (op : Bool → Bool → Bool) (s t : BDT) : BDT := apply op (s.size + t.size) s t

theorem app_ok {op : Bool → Bool → Bool} {s t : BDT} {k : Nat} (hs : ok k s) (ht : ok k t) : ok k (app op s t) :=
  (apply_spec op _ s t k (Nat.le_refl _) hs ht).1

theorem app_eval {op : Bool → Bool → Bool} {s t : BDT} {k : Nat} (hs : ok k s) (ht : ok k t) (a : Asg) :
    (app op s t).eval a = op (s.eval a) (t.eval a) :=
  (apply_spec op _ s t k (Nat.le_refl _) hs ht).2 a

def neg : BDT → BDT
  | leaf b => leaf !b
  | node v h l => node v h.neg l.neg

theorem neg_inj : ∀ {s t : BDT}, neg s = neg t → s = t
  | leaf _, leaf _, h => by simp [neg] at h; rw [h]
  | leaf _, node _ _ _, h => by simp [neg] at h
  | node _ _ _, leaf _, h => by simp [neg] at h
  | node _ _ _, node _ _ _, h => by
    simp only [neg, node.injEq] at h
    rw [h.1, neg_inj h.2.1, neg_inj h.2.2]

theorem neg_ok : ∀ {t : BDT} {k : Nat}, ok k t → ok k (neg t)
  | leaf _, _, _ => trivial
  | node _ _ _, _, h => ⟨h.1, fun he => h.2.1 (neg_inj he), neg_ok h.2.2.1, neg_ok h.2.2.2⟩

theorem neg_eval : ∀ (t : BDT) (a : Asg), (neg t).eval a = !t.eval a
  | leaf _, _ => rfl
  | node v h l, a => by simp only [neg, eval, neg_eval h a, neg_eval l a]; split <;> rfl

/-- Existential quantification. -/
def ex (vs : List Nat) : BDT → BDT
  | leaf b => leaf b
  | node v h l => if v ∈ vs then app (· || ·) (ex vs h) (ex vs l) else mk v (ex vs h) (ex vs l)

theorem ex_spec (vs : List Nat) : ∀ (t : BDT) (k : Nat), ok k t →
    ok k (ex vs t) ∧ ∀ a, (ex vs t).eval a = true ↔ ∃ w, AgreeOff vs a w ∧ t.eval w = true := by
  intro t
  induction t with
  | leaf b =>
    intro k _
    refine ⟨trivial, fun a => ?_⟩
    simp only [ex, eval]
    exact ⟨fun h => ⟨a, fun _ _ => rfl, h⟩, fun ⟨_, _, h⟩ => h⟩
  | node v h l ihh ihl =>
    intro k hk
    obtain ⟨h1, h2, h3, h4⟩ := hk
    obtain ⟨o1, e1⟩ := ihh (v + 1) h3
    obtain ⟨o2, e2⟩ := ihl (v + 1) h4
    rw [ex]
    by_cases hv : v ∈ vs
    · rw [if_pos hv]
      refine ⟨ok_mono (app_ok o1 o2) (by omega), fun a => ?_⟩
      rw [app_eval o1 o2, Bool.or_eq_true, e1, e2]
      constructor
      · rintro (⟨w, hw, he⟩ | ⟨w, hw, he⟩)
        · refine ⟨setv w v true, ?_, ?_⟩
          · intro i hi
            have : i ≠ v := fun h => hi (h ▸ hv)
            simp [setv, this, hw i hi]
          · rw [eval, show setv w v true v = true by simp [setv], if_pos rfl, eval_set h3]; exact he
        · refine ⟨setv w v false, ?_, ?_⟩
          · intro i hi
            have : i ≠ v := fun h => hi (h ▸ hv)
            simp [setv, this, hw i hi]
          · rw [eval, show setv w v false v = false by simp [setv], if_neg (by simp), eval_set h4]; exact he
      · rintro ⟨w, hw, he⟩
        rw [eval] at he
        split at he
        · exact .inl ⟨w, hw, he⟩
        · exact .inr ⟨w, hw, he⟩
    · rw [if_neg hv]
      refine ⟨ok_mk h1 o1 o2, fun a => ?_⟩
      rw [eval_mk]
      constructor
      · intro he
        split at he
        · obtain ⟨w, hw, he⟩ := (e1 a).mp he
          refine ⟨w, hw, ?_⟩
          rw [eval, ← hw v hv, if_pos ‹_›]; exact he
        · obtain ⟨w, hw, he⟩ := (e2 a).mp he
          refine ⟨w, hw, ?_⟩
          rw [eval, ← hw v hv, if_neg ‹_›]; exact he
      · rintro ⟨w, hw, he⟩
        rw [eval, ← hw v hv] at he
        split at he
        · rw [if_pos ‹_›]; exact (e1 a).mpr ⟨w, hw, he⟩
        · rw [if_neg ‹_›]; exact (e2 a).mpr ⟨w, hw, he⟩

/-- Renaming of variables: `if (p v) then h else l`, rebuilt with the Boolean operations. -/
def ren (p : Nat → Nat) : BDT → BDT
  | leaf b => leaf b
  | node v h l =>
    app (· || ·) (app (· && ·) (node (p v) (leaf true) (leaf false)) (ren p h))
      (app (· && ·) (node (p v) (leaf false) (leaf true)) (ren p l))

theorem ren_spec (p : Nat → Nat) : ∀ t : BDT, ok 0 (ren p t) ∧ ∀ a, (ren p t).eval a = t.eval (fun i => a (p i)) := by
  intro t
  induction t with
  | leaf b => exact ⟨trivial, fun _ => rfl⟩
  | node v h l ihh ihl =>
    have ov : ok 0 (node (p v) (leaf true) (leaf false)) := ⟨Nat.zero_le _, by simp, trivial, trivial⟩
    have ov' : ok 0 (node (p v) (leaf false) (leaf true)) := ⟨Nat.zero_le _, by simp, trivial, trivial⟩
    refine ⟨app_ok (app_ok ov ihh.1) (app_ok ov' ihl.1), fun a => ?_⟩
    rw [ren, app_eval (app_ok ov ihh.1) (app_ok ov' ihl.1), app_eval ov ihh.1, app_eval ov' ihl.1, ihh.2, ihl.2]
    simp only [eval]
    by_cases hp : a (p v) = true <;> simp [hp]

end BDT

/-- Reduced ordered decision diagrams. -/
def ROBDD := {t : BDT // t.ok 0}

instance : DecidableEq ROBDD := inferInstanceAs (DecidableEq {t : BDT // t.ok 0})

/-- Reduced ordered decision diagrams meet the contract. -/
instance : BddLib ROBDD where
  eval b a := b.1.eval a
  tt := ⟨.leaf true, trivial⟩
  ff := ⟨.leaf false, trivial⟩
  var k := ⟨.node k (.leaf true) (.leaf false), Nat.zero_le _, by simp, trivial, trivial⟩
  and a b := ⟨BDT.app (· && ·) a.1 b.1, BDT.app_ok a.2 b.2⟩
  or a b := ⟨BDT.app (· || ·) a.1 b.1, BDT.app_ok a.2 b.2⟩
  xor a b := ⟨BDT.app (· != ·) a.1 b.1, BDT.app_ok a.2 b.2⟩
  not a := ⟨a.1.neg, BDT.neg_ok a.2⟩
  exist vs a := ⟨a.1.ex vs, (BDT.ex_spec vs a.1 0 a.2).1⟩
  univ vs a := ⟨(a.1.neg.ex vs).neg, BDT.neg_ok (BDT.ex_spec vs _ 0 (BDT.neg_ok a.2)).1⟩
  swap xs ys a := ⟨a.1.ren (swapPerm xs ys id), (BDT.ren_spec _ a.1).1⟩
  eval_inj a b h := Subtype.ext (BDT.canonical a.2 b.2 h)
  eval_tt _ := rfl
  eval_ff _ := rfl
  eval_var k v := by simp only [BDT.eval]; cases v k <;> rfl
  eval_and a b v := BDT.app_eval a.2 b.2 v
  eval_or a b v := BDT.app_eval a.2 b.2 v
  eval_xor a b v := BDT.app_eval a.2 b.2 v
  eval_not a v := BDT.neg_eval a.1 v
  eval_exist vs a v := (BDT.ex_spec vs a.1 0 a.2).2 v
  eval_univ vs a v := by
    rw [BDT.neg_eval, Bool.not_eq_true', ← Bool.not_eq_true, (BDT.ex_spec vs _ 0 (BDT.neg_ok a.2)).2 v]
    simp only [BDT.neg_eval, Bool.not_eq_true', not_exists, not_and, Bool.not_eq_false]
  eval_swap xs ys a v := (BDT.ren_spec _ a.1).2 v

end Slugs.Model
