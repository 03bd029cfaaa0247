import Verif.Lemmas.Hom
import Verif.Lemmas.Bdd
import Verif.Model.Vars

/-!
Boolean functions over numbered variables represent predicates on pairs of positions.
-/

namespace Slugs.Model

open Slugs.Spec

/-- The roles of BDD variables: current/next input/output. -/
inductive Slot (X Y : Type) where
  | ci (x : X)
  | co (y : Y)
  | ni (x : X)
  | no (y : Y)

/-- How the variables of the roles are numbered. -/
structure Layout (X Y : Type) (types : List VarType) where
  code : Slot X Y → Nat
  inj : Function.Injective code
  bound : ∀ z, code z < types.length
  preInput : ∀ k, k ∈ varsOfType types .preInput ↔ ∃ x, code (.ci x) = k
  preOutput : ∀ k, k ∈ varsOfType types .preOutput ↔ ∃ x, code (.co x) = k
  postInput : ∀ k, k ∈ varsOfType types .postInput ↔ ∃ x, code (.ni x) = k
  postOutput : ∀ k, k ∈ varsOfType types .postOutput ↔ ∃ x, code (.no x) = k
  swap_ci : ∀ x, swapPerm (varsOfTypes types [.preInput, .preOutput]) (varsOfTypes types [.postInput, .postOutput]) id
    (code (.ci x)) = code (.ni x)
  swap_co : ∀ x, swapPerm (varsOfTypes types [.preInput, .preOutput]) (varsOfTypes types [.postInput, .postOutput]) id
    (code (.co x)) = code (.no x)
  swap_ni : ∀ x, swapPerm (varsOfTypes types [.preInput, .preOutput]) (varsOfTypes types [.postInput, .postOutput]) id
    (code (.ni x)) = code (.ci x)
  swap_no : ∀ x, swapPerm (varsOfTypes types [.preInput, .preOutput]) (varsOfTypes types [.postInput, .postOutput]) id
    (code (.no x)) = code (.co x)

/-- The current position given values for the roles. -/
def curPos {X Y : Type} (u : Slot X Y → Bool) : Pos (X → Bool) (Y → Bool) := (fun x => u (.ci x), fun y => u (.co y))

/-- The next position given values for the roles. -/
def nxtPos {X Y : Type} (u : Slot X Y → Bool) : Pos (X → Bool) (Y → Bool) := (fun x => u (.ni x), fun y => u (.no y))

/-- The values of the roles given two positions. -/
def slots {X Y : Type} (s t : Pos (X → Bool) (Y → Bool)) : Slot X Y → Bool
  | .ci x => s.1 x
  | .co y => s.2 y
  | .ni x => t.1 x
  | .no y => t.2 y

namespace Layout

variable {X Y : Type} {types : List VarType} (lay : Layout X Y types)

/-- Values of the roles under an assignment. -/
def get (a : Asg) : Slot X Y → Bool := fun z => a (lay.code z)

open Classical in
/-- An assignment with given values of the roles. -/
noncomputable def put (u : Slot X Y → Bool) (a : Asg) : Asg :=
  fun k => if h : ∃ z, lay.code z = k then u h.choose else a k

theorem get_put (u : Slot X Y → Bool) (a : Asg) : lay.get (lay.put u a) = u := by
  funext z
  have h : ∃ z', lay.code z' = lay.code z := ⟨z, rfl⟩
  simp only [get, put, h, dif_pos]
  rw [lay.inj h.choose_spec]

/-- Quantification over a set of roles. -/
theorem exists_agree (vs : List Nat) (S : Slot X Y → Prop) (hvs : ∀ k, k ∈ vs ↔ ∃ z, S z ∧ lay.code z = k)
    (v : Asg) (P : (Slot X Y → Bool) → Prop) :
    (∃ w, AgreeOff vs v w ∧ P (lay.get w)) ↔ ∃ u, (∀ z, ¬ S z → u z = lay.get v z) ∧ P u := by
  constructor
  · rintro ⟨w, hw, hP⟩
    refine ⟨lay.get w, fun z hz => ?_, hP⟩
    refine (hw (lay.code z) fun hm => ?_).symm
    obtain ⟨z', hz', he⟩ := (hvs _).mp hm
    exact hz (lay.inj he ▸ hz')
  · rintro ⟨u, hu, hP⟩
    refine ⟨lay.put u v, fun k hk => ?_, by rw [lay.get_put]; exact hP⟩
    by_cases h : ∃ z, lay.code z = k
    · obtain ⟨z, rfl⟩ := h
      have : lay.put u v (lay.code z) = u z := congrFun (lay.get_put u v) z
      rw [this, hu z (fun hs => hk ((hvs _).mpr ⟨z, hs, rfl⟩))]
      rfl
    · simp only [put, h, dif_neg, not_false_iff]

variable (B : Type) [DecidableEq B] [L : BddLib B]

open Classical in
theorem exists_enc (f : T (X → Bool) (Y → Bool)) :
    ∃ b : B, ∀ a, L.eval b a = decide (f (curPos (lay.get a)) (nxtPos (lay.get a))) := by
  refine exists_bdd types.length _ fun a a' h => ?_
  have : lay.get a = lay.get a' := by
    funext z; exact h _ (lay.bound z)
  rw [this]

/-- The BDD of a predicate on pairs of positions. -/
noncomputable def enc (f : T (X → Bool) (Y → Bool)) : B := (lay.exists_enc B f).choose

theorem eval_enc (f : T (X → Bool) (Y → Bool)) (a : Asg) :
    L.eval (lay.enc B f) a = true ↔ f (curPos (lay.get a)) (nxtPos (lay.get a)) := by
  rw [enc, (lay.exists_enc B f).choose_spec a]; simp

theorem eq_enc {b : B} {f : T (X → Bool) (Y → Bool)}
    (h : ∀ a, L.eval b a = true ↔ f (curPos (lay.get a)) (nxtPos (lay.get a))) : b = lay.enc B f := by
  refine L.eval_inj _ _ fun v => ?_
  rw [Bool.eq_iff_iff, h, lay.eval_enc]

theorem enc_inj : Function.Injective (lay.enc B) := by
  intro f g h
  funext s t
  have := congrArg (fun b => L.eval b (lay.put (slots s t) (fun _ => false)) = true) h
  simp only [eq_iff_iff, lay.eval_enc, lay.get_put] at this
  exact propext this

theorem exist_enc (vs : List Nat) (S : Slot X Y → Prop) (hvs : ∀ k, k ∈ vs ↔ ∃ z, S z ∧ lay.code z = k)
    (f g : T (X → Bool) (Y → Bool))
    (h : ∀ v : Slot X Y → Bool, (∃ u : Slot X Y → Bool, (∀ z, ¬ S z → u z = v z) ∧ f (curPos u) (nxtPos u)) ↔
      g (curPos v) (nxtPos v)) : L.exist vs (lay.enc B f) = lay.enc B g := by
  apply lay.eq_enc
  intro a
  rw [L.eval_exist, ← h]
  simp only [lay.eval_enc]
  exact lay.exists_agree vs S hvs a (fun u => f (curPos u) (nxtPos u))

theorem not_enc (f : T (X → Bool) (Y → Bool)) : L.not (lay.enc B f) = lay.enc B (fun s t => ¬ f s t) := by
  apply lay.eq_enc
  intro a
  rw [L.eval_not, ← lay.eval_enc B f]
  simp

theorem univ_enc (vs : List Nat) (S : Slot X Y → Prop) (hvs : ∀ k, k ∈ vs ↔ ∃ z, S z ∧ lay.code z = k)
    (f g : T (X → Bool) (Y → Bool))
    (h : ∀ v : Slot X Y → Bool, (∃ u : Slot X Y → Bool, (∀ z, ¬ S z → u z = v z) ∧ ¬ f (curPos u) (nxtPos u)) ↔
      ¬ g (curPos v) (nxtPos v)) : L.univ vs (lay.enc B f) = lay.enc B g := by
  have e : L.univ vs (lay.enc B f) = L.not (L.exist vs (L.not (lay.enc B f))) := by
    refine L.eval_inj _ _ fun v => ?_
    rw [Bool.eq_iff_iff, L.eval_univ, L.eval_not, Bool.not_eq_true', ← Bool.not_eq_true, L.eval_exist]
    simp only [L.eval_not, Bool.not_eq_true', not_exists, not_and, Bool.not_eq_false]
  rw [e, lay.not_enc, lay.exist_enc B vs S hvs _ (fun s t => ¬ g s t) h, lay.not_enc]
  simp

theorem mem_vars {k : Nat} :
    (k ∈ varsOfTypes types [.preInput] ↔ ∃ z, (∃ x, z = Slot.ci x) ∧ lay.code z = k) ∧
    (k ∈ varsOfTypes types [.preOutput] ↔ ∃ z, (∃ x, z = Slot.co x) ∧ lay.code z = k) ∧
    (k ∈ varsOfTypes types [.postInput] ↔ ∃ z, (∃ x, z = Slot.ni x) ∧ lay.code z = k) ∧
    (k ∈ varsOfTypes types [.postOutput] ↔ ∃ z, (∃ x, z = Slot.no x) ∧ lay.code z = k) ∧
    (k ∈ varsOfTypes types [.preOutput, .preInput] ↔ ∃ z, ((∃ x, z = Slot.ci x) ∨ ∃ x, z = Slot.co x) ∧ lay.code z = k) ∧
    (k ∈ varsOfTypes types [.postOutput, .postInput] ↔
      ∃ z, ((∃ x, z = Slot.ni x) ∨ ∃ x, z = Slot.no x) ∧ lay.code z = k) := by
  simp only [varsOfTypes, List.flatMap_cons, List.flatMap_nil, List.append_nil, List.mem_append, lay.preInput,
    lay.preOutput, lay.postInput, lay.postOutput]
  refine ⟨?_, ?_, ?_, ?_, ?_, ?_⟩ <;> aesop

/-- The BDD operations represent the semantic operations. -/
theorem hom : MgrHom (semMgr (X → Bool) (Y → Bool)) (bddMgr B types) (lay.enc B) where
  inj := lay.enc_inj B
  tt := lay.eq_enc B fun a => by simp [bddMgr, semMgr, L.eval_tt]
  ff := lay.eq_enc B fun a => by simp [bddMgr, semMgr, L.eval_ff]
  and f g := lay.eq_enc B fun a => by simp [bddMgr, semMgr, L.eval_and, lay.eval_enc]
  or f g := lay.eq_enc B fun a => by simp [bddMgr, semMgr, L.eval_or, lay.eval_enc]
  not f := lay.not_enc B f
  swap f := lay.eq_enc B fun a => by
    simp only [bddMgr, semMgr, L.eval_swap, lay.eval_enc]
    have : ∀ (p : Asg), (∀ x, p (lay.code (.ci x)) = a (lay.code (.ni x))) →
        (∀ x, p (lay.code (.co x)) = a (lay.code (.no x))) →
        (∀ x, p (lay.code (.ni x)) = a (lay.code (.ci x))) →
        (∀ x, p (lay.code (.no x)) = a (lay.code (.co x))) →
        curPos (lay.get p) = nxtPos (lay.get a) ∧ nxtPos (lay.get p) = curPos (lay.get a) := by
      intro p h1 h2 h3 h4
      exact ⟨Prod.ext (funext h1) (funext h2), Prod.ext (funext h3) (funext h4)⟩
    obtain ⟨h1, h2⟩ := this (fun k => a (swapPerm (varsOfTypes types [.preInput, .preOutput])
      (varsOfTypes types [.postInput, .postOutput]) id k))
      (fun x => congrArg a (lay.swap_ci x)) (fun x => congrArg a (lay.swap_co x))
      (fun x => congrArg a (lay.swap_ni x)) (fun x => congrArg a (lay.swap_no x))
    rw [h1, h2]
  exPostOutput f := by
    refine lay.exist_enc B _ _ (fun k => lay.mem_vars.2.2.2.1) f _ fun v => ⟨?_, ?_⟩
    · rintro ⟨u, hu, hf⟩
      refine ⟨(nxtPos u).2, ?_⟩
      have h1 : curPos u = curPos v := Prod.ext (funext fun x => hu _ (by simp)) (funext fun x => hu _ (by simp))
      have h2 : (nxtPos u).1 = (nxtPos v).1 := funext fun x => hu _ (by simp)
      rw [← h1, ← h2]; exact hf
    · rintro ⟨o, ho⟩
      refine ⟨slots (curPos v) ((nxtPos v).1, o), ?_, ho⟩
      rintro (x | x | x | x) h <;> first | rfl | exact absurd ⟨x, rfl⟩ h
  exPostInput f := by
    refine lay.exist_enc B _ _ (fun k => lay.mem_vars.2.2.1) f _ fun v => ⟨?_, ?_⟩
    · rintro ⟨u, hu, hf⟩
      refine ⟨(nxtPos u).1, ?_⟩
      have h1 : curPos u = curPos v := Prod.ext (funext fun x => hu _ (by simp)) (funext fun x => hu _ (by simp))
      have h2 : (nxtPos u).2 = (nxtPos v).2 := funext fun x => hu _ (by simp)
      rw [← h1, ← h2]; exact hf
    · rintro ⟨o, ho⟩
      refine ⟨slots (curPos v) (o, (nxtPos v).2), ?_, ho⟩
      rintro (x | x | x | x) h <;> first | rfl | exact absurd ⟨x, rfl⟩ h
  exPost f := by
    refine lay.exist_enc B _ _ (fun k => lay.mem_vars.2.2.2.2.2) f _ fun v => ⟨?_, ?_⟩
    · rintro ⟨u, hu, hf⟩
      refine ⟨nxtPos u, ?_⟩
      have h1 : curPos u = curPos v := Prod.ext (funext fun x => hu _ (by simp)) (funext fun x => hu _ (by simp))
      rw [← h1]; exact hf
    · rintro ⟨o, ho⟩
      refine ⟨slots (curPos v) o, ?_, ho⟩
      rintro (x | x | x | x) h <;> first | rfl | exact (h (.inl ⟨x, rfl⟩)).elim | exact (h (.inr ⟨x, rfl⟩)).elim
  exPre f := by
    refine lay.exist_enc B _ _ (fun k => lay.mem_vars.2.2.2.2.1) f _ fun v => ⟨?_, ?_⟩
    · rintro ⟨u, hu, hf⟩
      refine ⟨curPos u, ?_⟩
      have h1 : nxtPos u = nxtPos v := Prod.ext (funext fun x => hu _ (by simp)) (funext fun x => hu _ (by simp))
      rw [← h1]; exact hf
    · rintro ⟨o, ho⟩
      refine ⟨slots o (nxtPos v), ?_, ho⟩
      rintro (x | x | x | x) h <;> first | rfl | exact (h (.inl ⟨x, rfl⟩)).elim | exact (h (.inr ⟨x, rfl⟩)).elim
  exPreOutput f := by
    refine lay.exist_enc B _ _ (fun k => lay.mem_vars.2.1) f _ fun v => ⟨?_, ?_⟩
    · rintro ⟨u, hu, hf⟩
      refine ⟨(curPos u).2, ?_⟩
      have h1 : nxtPos u = nxtPos v := Prod.ext (funext fun x => hu _ (by simp)) (funext fun x => hu _ (by simp))
      have h2 : (curPos u).1 = (curPos v).1 := funext fun x => hu _ (by simp)
      rw [← h1, ← h2]; exact hf
    · rintro ⟨o, ho⟩
      refine ⟨slots ((curPos v).1, o) (nxtPos v), ?_, ho⟩
      rintro (x | x | x | x) h <;> first | rfl | exact absurd ⟨x, rfl⟩ h
  exPreInput f := by
    refine lay.exist_enc B _ _ (fun k => lay.mem_vars.1) f _ fun v => ⟨?_, ?_⟩
    · rintro ⟨u, hu, hf⟩
      refine ⟨(curPos u).1, ?_⟩
      have h1 : nxtPos u = nxtPos v := Prod.ext (funext fun x => hu _ (by simp)) (funext fun x => hu _ (by simp))
      have h2 : (curPos u).2 = (curPos v).2 := funext fun x => hu _ (by simp)
      rw [← h1, ← h2]; exact hf
    · rintro ⟨o, ho⟩
      refine ⟨slots (o, (curPos v).2) (nxtPos v), ?_, ho⟩
      rintro (x | x | x | x) h <;> first | rfl | exact absurd ⟨x, rfl⟩ h
  allPostInput f := by
    refine lay.univ_enc B _ _ (fun k => lay.mem_vars.2.2.1) f _ fun v => ?_
    simp only [semMgr, not_forall]
    constructor
    · rintro ⟨u, hu, hf⟩
      refine ⟨(nxtPos u).1, ?_⟩
      have h1 : curPos u = curPos v := Prod.ext (funext fun x => hu _ (by simp)) (funext fun x => hu _ (by simp))
      have h2 : (nxtPos u).2 = (nxtPos v).2 := funext fun x => hu _ (by simp)
      rw [← h1, ← h2]; exact hf
    · rintro ⟨o, ho⟩
      refine ⟨slots (curPos v) (o, (nxtPos v).2), ?_, ho⟩
      rintro (x | x | x | x) h <;> first | rfl | exact absurd ⟨x, rfl⟩ h
  allPostOutput f := by
    refine lay.univ_enc B _ _ (fun k => lay.mem_vars.2.2.2.1) f _ fun v => ?_
    simp only [semMgr, not_forall]
    constructor
    · rintro ⟨u, hu, hf⟩
      refine ⟨(nxtPos u).2, ?_⟩
      have h1 : curPos u = curPos v := Prod.ext (funext fun x => hu _ (by simp)) (funext fun x => hu _ (by simp))
      have h2 : (nxtPos u).1 = (nxtPos v).1 := funext fun x => hu _ (by simp)
      rw [← h1, ← h2]; exact hf
    · rintro ⟨o, ho⟩
      refine ⟨slots (curPos v) ((nxtPos v).1, o), ?_, ho⟩
      rintro (x | x | x | x) h <;> first | rfl | exact absurd ⟨x, rfl⟩ h
  allPreInput f := by
    refine lay.univ_enc B _ _ (fun k => lay.mem_vars.1) f _ fun v => ?_
    simp only [semMgr, not_forall]
    constructor
    · rintro ⟨u, hu, hf⟩
      refine ⟨(curPos u).1, ?_⟩
      have h1 : nxtPos u = nxtPos v := Prod.ext (funext fun x => hu _ (by simp)) (funext fun x => hu _ (by simp))
      have h2 : (curPos u).2 = (curPos v).2 := funext fun x => hu _ (by simp)
      rw [← h1, ← h2]; exact hf
    · rintro ⟨o, ho⟩
      refine ⟨slots (o, (curPos v).2) (nxtPos v), ?_, ho⟩
      rintro (x | x | x | x) h <;> first | rfl | exact absurd ⟨x, rfl⟩ h
  allPreOutput f := by
    refine lay.univ_enc B _ _ (fun k => lay.mem_vars.2.1) f _ fun v => ?_
    simp only [semMgr, not_forall]
    constructor
    · rintro ⟨u, hu, hf⟩
      refine ⟨(curPos u).2, ?_⟩
      have h1 : nxtPos u = nxtPos v := Prod.ext (funext fun x => hu _ (by simp)) (funext fun x => hu _ (by simp))
      have h2 : (curPos u).1 = (curPos v).1 := funext fun x => hu _ (by simp)
      rw [← h1, ← h2]; exact hf
    · rintro ⟨o, ho⟩
      refine ⟨slots ((curPos v).1, o) (nxtPos v), ?_, ho⟩
      rintro (x | x | x | x) h <;> first | rfl | exact absurd ⟨x, rfl⟩ h

end Layout

end Slugs.Model
