import Verif.Lemmas.StuckAt

/-!
The constraints with which `analyzeStuckAtConstant.py` fixes a value, and the games of the modified files.
-/

namespace Slugs.Model.StuckAt

open Slugs.Spec Slugs.Spec.Structured Slugs.Model Slugs.Model.Structured Slugs.Model.Core

variable {S : SSpec}

/-- The line which says that `x` (the variable or its next value) has the value `v`. -/
def fixLine (d : Decl) (x : Word) (v : Int) : List Char :=
  match d.range with
  | none => if v = 0 then txt!"! " ++ x else x
  | some _ => x ++ txt!"=" ++ strInt v

/-- The constraint of the line. -/
def fixing (d : Decl) (x : Word) (v : Int) : Constraint :=
  .infix (match d.range with
    | none => if v = 0 then .not (.atom x) else .atom x
    | some _ => .cmp .eq (.var x) (.num v.toNat))

/-- The variable or its next value. -/
def Of (d : Decl) (x : Word) : Prop := x = d.name ∨ x = prime d.name

theorem of_nameLike (hok : DeclsOk (S.inputs ++ S.outputs)) {d : Decl} (hd : d ∈ S.inputs ++ S.outputs) {x : Word} (hx : Of d x) : NameLike x := by
  have ht := hok.tidy d hd
  rcases hx with rfl | rfl
  · exact nameLike_tidy ht
  · exact nameLike_prime (nameLike_tidy ht) ht.2.2.1

theorem mem_boolsOf {ds : List Decl} {x : Word} : x ∈ SSpec.boolsOf ds ↔ ∃ d ∈ ds, d.range = none ∧ d.name = x := by
  simp [SSpec.boolsOf, and_assoc]

theorem prime_inj {x y : Word} (h : prime x = prime y) : x = y := by
  simpa [prime] using h

theorem of_bools (hok : DeclsOk (S.inputs ++ S.outputs)) {d : Decl} (hd : d ∈ S.inputs ++ S.outputs) {x : Word} (hx : Of d x) : x ∈ S.bools ↔ d.range = none := by
  rw [SSpec.bools, List.mem_append, List.mem_map]
  constructor
  · rintro (h | ⟨y, h, e⟩)
    · obtain ⟨e, he, h1, h2⟩ := mem_boolsOf.mp h
      rcases hx with rfl | rfl
      · rw [← hok.same he hd h2]; exact h1
      · exact absurd (h2 ▸ List.mem_map_of_mem he) (name_prime hok d.name)
    · obtain ⟨e', he, h1, h2⟩ := mem_boolsOf.mp h
      rcases hx with rfl | rfl
      · exact absurd (e ▸ List.mem_map_of_mem hd) (name_prime hok y)
      · rw [← hok.same he hd (h2.trans (prime_inj e))]; exact h1
  · intro h
    have hb : d.name ∈ SSpec.boolsOf (S.inputs ++ S.outputs) := mem_boolsOf.mpr ⟨d, hd, h, rfl⟩
    rcases hx with rfl | rfl
    · exact .inl hb
    · exact .inr ⟨_, hb, rfl⟩

theorem mem_values {d : Decl} {v : Int} : v ∈ d.values ↔ d.Ok v := by
  unfold Decl.values Decl.Ok
  cases d.range with
  | none => simp
  | some r =>
    obtain ⟨lo, hi⟩ := r
    simp only [List.mem_map, List.mem_range]
    constructor
    · rintro ⟨k, h, rfl⟩
      omega
    · rintro ⟨h1, h2⟩
      exact ⟨(v - lo).toNat, by omega, by omega⟩

theorem values_nonneg (hok : DeclsOk (S.inputs ++ S.outputs)) {d : Decl} (hd : d ∈ S.inputs ++ S.outputs) {v : Int} (hv : v ∈ d.values) : 0 ≤ v := by
  rw [mem_values, Decl.Ok] at hv
  cases hr : d.range with
  | none => rw [hr] at hv; dsimp only at hv; omega
  | some r =>
    obtain ⟨lo, hi⟩ := r
    rw [hr] at hv
    dsimp only at hv
    have := hok.range d hd lo hi hr
    omega

theorem fix_constraint (hok : DeclsOk (S.inputs ++ S.outputs)) {d : Decl} (hd : d ∈ S.inputs ++ S.outputs) {x : Word} (hx : Of d x) {v : Int} (hv : v ∈ d.values) :
    IsConstraint S.bools (fixLine d x v) (fixing d x v) := by
  have hn := of_nameLike hok hd hx
  have hb := of_bools hok hd hx
  refine .infix ?_
  unfold fixLine
  cases hr : d.range with
  | none =>
    have hm := hb.mpr hr
    dsimp only
    split
    · exact formula_not hn hm
    · exact formula_atom hn hm
  | some r =>
    have hm : x ∉ S.bools := fun h => by rw [hb.mp h] at hr; cases hr
    have := formula_eq hn hm v.toNat
    rw [strNat_eq, digitsVal_decimal, ← strNat_eq] at this
    dsimp only
    rw [Decoder.strInt_nonneg (values_nonneg hok hd hv)]
    exact this

theorem nameLike_char {x : Word} (h : NameLike x) : ∀ c ∈ x, pySpace c = false ∧ c ≠ '#' ∧ c ≠ '[' := by
  intro c hc
  have hn := h.2.1 c hc
  refine ⟨?_, ?_, ?_⟩
  · rw [nameChar, Bool.or_eq_true] at hn
    rcases hn with hn | hn
    · have := name_not_space hn; rwa [isspace_pySpace] at this
    · exact digit_not_py hn
  · rintro rfl; revert hn; decide
  · rintro rfl; revert hn; decide

theorem allows_fix (hok : DeclsOk (S.inputs ++ S.outputs)) {d : Decl} (hd : d ∈ S.inputs ++ S.outputs) {x : Word} (hx : Of d x) {v : Int} {s : Section}
    (hu : x ∈ usable s S.inputNames S.outputNames) : S.Allows s (fixing d x v) := by
  have hun : unprimed x = d.name := by
    have ht := (hok.tidy d hd).2.2.1
    rcases hx with rfl | rfl
    · rw [unprimed, if_neg]
      simp only [isPrimed, beq_iff_eq]
      exact fun h => ht (List.mem_of_getLast? h)
    · simp [unprimed, isPrimed, prime]
  unfold fixing
  cases hr : d.range with
  | none =>
    dsimp only
    split <;> exact ⟨by simp [SFml.Proper], by simpa [SFml.atoms] using hu, by simp [SFml.numbers]⟩
  | some r =>
    obtain ⟨lo, hi⟩ := r
    refine ⟨⟨⟨⟨lo, hi, ?_, (hok.range d hd lo hi hr).1⟩, by simp⟩, trivial⟩, by simp [SFml.atoms], by simpa [SFml.numbers, NExp.names] using hu⟩
    rw [SSpec.bounds, hun, find_name hok hd]
    exact hr

theorem holds_fix {d : Decl} {x : Word} {v : Int} (hv : d.Ok v) (h0 : 0 ≤ v) {p q : Pos S.In S.Out} (ho : d.Ok (S.look p q x)) :
    S.holds p q (fixing d x v) ↔ S.look p q x = v := by
  unfold fixing
  unfold Decl.Ok at hv ho
  cases hr : d.range with
  | none =>
    rw [hr] at hv ho
    dsimp only at hv ho ⊢
    split
    · rename_i e
      subst e
      simp only [SSpec.holds, SFml.holds, Bool.not_eq_true', decide_eq_false_iff_not]
      omega
    · simp only [SSpec.holds, SFml.holds, decide_eq_true_eq]
      omega
  | some r =>
    simp only [SSpec.holds, SFml.holds, NExp.value, Cmp.holds, decide_eq_true_eq, Int.toNat_of_nonneg h0]

/-- The file in which an output always has the value `v`. -/
theorem game_output (hok : DeclsOk (S.inputs ++ S.outputs)) {d : Decl} (hd : d ∈ S.outputs) {v : Int} (hv : v ∈ d.values) :
    (addTo (addTo S .sysTrans (fixing d (prime d.name) v)) .sysInit (fixing d d.name v)).game.Realizable ↔ (S.fixOutput d.name v).Realizable := by
  have hm : d ∈ S.inputs ++ S.outputs := List.mem_append_right _ hd
  have h0 := values_nonneg hok hm hv
  have hn : d.name ∈ S.names := List.mem_append_right _ (List.mem_map_of_mem hd)
  have k1 : ∀ p, S.holds p p (fixing d d.name v) ↔ p.2.1 d.name = v := fun p => by
    have e := (spec_look hok p p hn).1
    rw [holds_fix (mem_values.mp hv) h0 (by rw [e]; exact now_ok hok p d hm), e, now_output hok p hd]
  have k2 : ∀ p q, S.holds p q (fixing d (prime d.name) v) ↔ q.2.1 d.name = v := fun p q => by
    have e := (spec_look hok p q hn).2
    rw [holds_fix (mem_values.mp hv) h0 (by rw [e]; exact now_ok hok q d hm), e, now_output hok q hd]
  have e1 : (fun p => ∀ c ∈ S.sysInit ++ [fixing d d.name v], S.holds p p c) = fun p => (∀ c ∈ S.sysInit, S.holds p p c) ∧ p.2.1 d.name = v := by
    funext p
    simp only [List.mem_append, List.mem_singleton, or_imp, forall_and, forall_eq, k1]
  have e2 : (fun p q => ∀ c ∈ S.sysTrans ++ [fixing d (prime d.name) v], S.holds p q c) = fun p q => (∀ c ∈ S.sysTrans, S.holds p q c) ∧ q.2.1 d.name = v := by
    funext p q
    simp only [List.mem_append, List.mem_singleton, or_imp, forall_and, forall_eq, k2]
  have : (addTo (addTo S .sysTrans (fixing d (prime d.name) v)) .sysInit (fixing d d.name v)) =
      { S with sysInit := S.sysInit ++ [fixing d d.name v], sysTrans := S.sysTrans ++ [fixing d (prime d.name) v] } := by
    simp [addTo]
  rw [this]
  change Game.Realizable ({ S.game with
    initSys := fun p => ∀ c ∈ S.sysInit ++ [fixing d d.name v], S.holds p p c
    safetySys := fun p q => ∀ c ∈ S.sysTrans ++ [fixing d (prime d.name) v], S.holds p q c } : Game S.In S.Out) ↔ _
  rw [e1, e2]
  exact Iff.rfl

/-- The file in which an input always has the value `v`. -/
theorem game_input (hok : DeclsOk (S.inputs ++ S.outputs)) {d : Decl} (hd : d ∈ S.inputs) {v : Int} (hv : v ∈ d.values) :
    (addTo (addTo S .envTrans (fixing d (prime d.name) v)) .envInit (fixing d d.name v)).game.Realizable ↔ (S.fixInput d.name v).Realizable := by
  have hm : d ∈ S.inputs ++ S.outputs := List.mem_append_left _ hd
  have h0 := values_nonneg hok hm hv
  have hn : d.name ∈ S.names := List.mem_append_left _ (List.mem_map_of_mem hd)
  have o := someValue S.outputs hok.right
  have k1 : ∀ i, (∀ o, S.holds (i, o) (i, o) (fixing d d.name v)) ↔ i.1 d.name = v := fun i => by
    have : ∀ o, S.holds (i, o) (i, o) (fixing d d.name v) ↔ i.1 d.name = v := fun o => by
      have e := (spec_look hok (i, o) (i, o) hn).1
      rw [holds_fix (mem_values.mp hv) h0 (by rw [e]; exact now_ok hok _ d hm), e, now_input hok _ hd]
    exact ⟨fun h => (this o).mp (h o), fun h o => (this o).mpr h⟩
  have k2 : ∀ p i, (∀ o, S.holds p (i, o) (fixing d (prime d.name) v)) ↔ i.1 d.name = v := fun p i => by
    have : ∀ o, S.holds p (i, o) (fixing d (prime d.name) v) ↔ i.1 d.name = v := fun o => by
      have e := (spec_look hok p (i, o) hn).2
      rw [holds_fix (mem_values.mp hv) h0 (by rw [e]; exact now_ok hok _ d hm), e, now_input hok _ hd]
    exact ⟨fun h => (this o).mp (h o), fun h o => (this o).mpr h⟩
  have e1 : (fun i => ∀ c ∈ S.envInit ++ [fixing d d.name v], ∀ o, S.holds (i, o) (i, o) c) =
      fun i => (∀ c ∈ S.envInit, ∀ o, S.holds (i, o) (i, o) c) ∧ i.1 d.name = v := by
    funext i
    simp only [List.mem_append, List.mem_singleton, or_imp, forall_and, forall_eq, k1]
  have e2 : (fun p i => ∀ c ∈ S.envTrans ++ [fixing d (prime d.name) v], ∀ o, S.holds p (i, o) c) =
      fun p i => (∀ c ∈ S.envTrans, ∀ o, S.holds p (i, o) c) ∧ i.1 d.name = v := by
    funext p i
    simp only [List.mem_append, List.mem_singleton, or_imp, forall_and, forall_eq, k2]
  have : (addTo (addTo S .envTrans (fixing d (prime d.name) v)) .envInit (fixing d d.name v)) =
      { S with envInit := S.envInit ++ [fixing d d.name v], envTrans := S.envTrans ++ [fixing d (prime d.name) v] } := by
    simp [addTo]
  rw [this]
  change Game.Realizable ({ S.game with
    initEnv := fun i => ∀ c ∈ S.envInit ++ [fixing d d.name v], ∀ o, S.holds (i, o) (i, o) c
    safetyEnv := fun p i => ∀ c ∈ S.envTrans ++ [fixing d (prime d.name) v], ∀ o, S.holds p (i, o) c } : Game S.In S.Out) ↔ _
  rw [e1, e2]
  exact Iff.rfl

end Slugs.Model.StuckAt
