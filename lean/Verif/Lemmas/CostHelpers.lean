import Verif.Lemmas.CostLayout

/-!
The additional variables of `--twoDimensionalCost` as predicates on positions.
-/

namespace Slugs.Model

open Slugs.Spec

/-! ### What a BDD depends on -/

section Dep

variable {B : Type} [DecidableEq B] [L : BddLib B]

/-- The BDD depends only on the variables in `S`. -/
def DepOn (S : Nat → Prop) (b : B) : Prop := ∀ a a', (∀ k, S k → a k = a' k) → L.eval b a = L.eval b a'

theorem DepOn.mono {S S' : Nat → Prop} {b : B} (h : DepOn S b) (hs : ∀ k, S k → S' k) : DepOn S' b :=
  fun a a' ha => h a a' fun k hk => ha k (hs k hk)

theorem depOn_tt (S : Nat → Prop) : DepOn S (L.tt : B) := fun a a' _ => by rw [L.eval_tt, L.eval_tt]

theorem depOn_var {S : Nat → Prop} {k : Nat} (h : S k) : DepOn S (L.var k : B) := fun a a' ha => by rw [L.eval_var, L.eval_var, ha k h]

theorem DepOn.not {S : Nat → Prop} {b : B} (h : DepOn S b) : DepOn S (L.not b) := fun a a' ha => by rw [L.eval_not, L.eval_not, h a a' ha]

theorem DepOn.and {S : Nat → Prop} {b c : B} (h : DepOn S b) (h' : DepOn S c) : DepOn S (L.and b c) := fun a a' ha => by
  rw [L.eval_and, L.eval_and, h a a' ha, h' a a' ha]

open Classical in
theorem DepOn.exist {S S' : Nat → Prop} {b : B} (vs : List Nat) (h : DepOn S b) (hs : ∀ k, S k → k ∈ vs ∨ S' k) : DepOn S' (L.exist vs b) := by
  have key : ∀ a a', (∀ k, S' k → a k = a' k) → L.eval (L.exist vs b) a = true → L.eval (L.exist vs b) a' = true := by
    intro a a' ha he
    obtain ⟨w, hw, hb⟩ := (L.eval_exist vs b a).mp he
    refine (L.eval_exist vs b a').mpr ⟨fun k => if k ∈ vs then w k else a' k, fun k hk => by simp [hk], ?_⟩
    rw [← hb]
    refine h _ _ fun k hk => ?_
    by_cases hv : k ∈ vs
    · simp [hv]
    · simp only [hv, if_false]
      rw [← ha k ((hs k hk).resolve_left hv)]
      exact hw k hv
  intro a a' ha
  exact Bool.eq_iff_iff.mpr ⟨key a a' ha, key a' a fun k hk => (ha k hk).symm⟩

theorem DepOn.swap {S S' : Nat → Prop} {b : B} (xs ys : List Nat) (h : DepOn S b) (hs : ∀ k, S k → S' (swapPerm xs ys id k)) :
    DepOn S' (L.swap xs ys b) := fun a a' ha => by
  rw [L.eval_swap, L.eval_swap]
  exact h _ _ fun k hk => ha _ (hs k hk)

theorem swapPerm_range : ∀ (xs ys : List Nat) (p : Nat → Nat) (k : Nat), swapPerm xs ys p k = p k ∨ swapPerm xs ys p k ∈ xs ∨ swapPerm xs ys p k ∈ ys
  | [], _, _, _ => .inl (by simp [swapPerm])
  | _ :: _, [], _, _ => .inl (by simp [swapPerm])
  | x :: xs, y :: ys, p, k => by
    rw [swapPerm]
    rcases swapPerm_range xs ys (fun k => if k = y then x else if k = x then y else p k) k with h | h | h
    · rw [h]
      split
      · exact .inr (.inl (by simp))
      · split
        · exact .inr (.inr (by simp))
        · exact .inl rfl
    · exact .inr (.inl (by simp [h]))
    · exact .inr (.inr (by simp [h]))

theorem depOn_encode {S : Nat → Prop} : ∀ (vs : List Nat) (n : Nat), (∀ v ∈ vs, S v) → DepOn S (encode vs n : B)
  | [], _, _ => depOn_tt S
  | v :: vs, n, h => by
    rw [encode]
    refine DepOn.and ?_ (depOn_encode vs (n / 2) fun w hw => h w (List.mem_cons_of_mem _ hw))
    split
    · exact depOn_var (h v (by simp))
    · exact (depOn_var (h v (by simp))).not

end Dep

/-! ### Reading a BDD as a predicate -/

namespace Layout

variable {X Y : Type} {types : List VarType} (lay : Layout X Y types) (B : Type) [DecidableEq B] [L : BddLib B]

/-- The variables that have a role. -/
def Code (k : Nat) : Prop := ∃ z, lay.code z = k

/-- The variables of the current position. -/
def Cur (k : Nat) : Prop := (∃ x, lay.code (.ci x) = k) ∨ ∃ y, lay.code (.co y) = k

/-- The predicate that a BDD represents. -/
noncomputable def dec (b : B) : T (X → Bool) (Y → Bool) := fun s t => L.eval b (lay.put (slots s t) fun _ => false) = true

theorem enc_dec {b : B} (h : DepOn lay.Code b) : lay.enc B (lay.dec B b) = b := by
  symm
  refine lay.eq_enc B fun a => ?_
  rw [dec, slots_pos]
  refine iff_of_eq (congrArg (· = true) (h _ _ fun k hk => ?_))
  obtain ⟨z, rfl⟩ := hk
  exact (congrFun (lay.get_put (lay.get a) fun _ => false) z).symm

theorem dec_enc (f : T (X → Bool) (Y → Bool)) : lay.dec B (lay.enc B f) = f := by
  funext s t
  rw [dec, lay.eval_enc, lay.get_put]
  rfl

theorem depOn_enc (f : T (X → Bool) (Y → Bool)) : DepOn lay.Code (lay.enc B f) := by
  intro a a' h
  have : lay.get a = lay.get a' := funext fun z => h _ ⟨z, rfl⟩
  rw [Bool.eq_iff_iff, lay.eval_enc, lay.eval_enc, this]

theorem dec_cur {b : B} (h : DepOn lay.Cur b) (s t t' : Pos (X → Bool) (Y → Bool)) : lay.dec B b s t ↔ lay.dec B b s t' := by
  refine iff_of_eq (congrArg (· = true) (h _ _ fun k hk => ?_))
  rcases hk with ⟨x, rfl⟩ | ⟨x, rfl⟩
  · exact (congrFun (lay.get_put (slots s t) fun _ => false) (.ci x)).trans (congrFun (lay.get_put (slots s t') fun _ => false) (.ci x)).symm
  · exact (congrFun (lay.get_put (slots s t) fun _ => false) (.co x)).trans (congrFun (lay.get_put (slots s t') fun _ => false) (.co x)).symm

/-- The BDD of a predicate that depends on the current position only. -/
theorem depOn_cur_enc {f : T (X → Bool) (Y → Bool)} (hf : ∀ s t t', f s t ↔ f s t') : DepOn lay.Cur (lay.enc B f) := by
  intro a a' h
  have : curPos (lay.get a) = curPos (lay.get a') := Prod.ext (funext fun x => h _ (.inl ⟨x, rfl⟩)) (funext fun x => h _ (.inr ⟨x, rfl⟩))
  rw [Bool.eq_iff_iff, lay.eval_enc, lay.eval_enc, this]
  exact hf _ _ _

end Layout

/-! ### Helpers -/

/-- `h` respects what the search uses of the additional variables. -/
structure HelpersHom {A B : Type} (h : A → B) (E : Helpers A) (F : Helpers B) : Prop where
  zeroPre : F.zeroPre = h E.zeroPre
  nonPre : ∀ i, F.nonPre i = h (E.nonPre i)
  nonPost : ∀ i, F.nonPost i = h (E.nonPost i)
  infPre : F.infPre = h E.infPre
  infPost : F.infPost = h E.infPost
  forget : ∀ a, F.forget (h a) = h (E.forget a)
  compose : ∀ a, F.compose (h a) = h (E.compose a)
  bits : List.Forall₂ (fun (e : A × (A → A)) (f : B × (B → B)) => f.1 = h e.1 ∧ ∀ a, f.2 (h a) = h (e.2 a)) E.bits F.bits
  forgetAll : ∀ a, F.forgetAll (h a) = h (E.forgetAll a)

/-- The position without the additional bits. -/
def basePos {X Y F : Type} (s : Pos (X → Bool) (Y ⊕ F → Bool)) : Pos (X → Bool) (Y → Bool) := (s.1, fun y => s.2 (.inl y))

/-- A predicate that does not depend on the additional bits. -/
def extLift {X Y F : Type} (f : T (X → Bool) (Y → Bool)) : T (X → Bool) (Y ⊕ F → Bool) := fun s t => f (basePos s) (basePos t)

/-- What the proofs use of the additional variables. -/
structure HelpersOK {X Y F : Type} (E : Helpers (T (X → Bool) (Y ⊕ F → Bool))) : Prop where
  zeroPre : ∀ s t t', E.zeroPre s t ↔ E.zeroPre s t'
  infPre : ∀ s t t', E.infPre s t ↔ E.infPre s t'
  forget : ∀ f s t, E.forget f s t → ∃ s', basePos s' = basePos s ∧ f s' t
  bits : ∀ e ∈ E.bits, (∀ s t t', e.1 s t ↔ e.1 s t') ∧ ∀ f, (∀ s t t', f s t ↔ f s t') → ∀ s t t', e.2 f s t ↔ e.2 f s t'
  forgetAll : ∀ f, (∀ s t t', f s t ↔ f s t') → ∀ s t t', E.forgetAll f s t ↔ E.forgetAll f s t'

variable (B : Type) [DecidableEq B] [L : BddLib B]

/-- The additional variables as predicates. -/
noncomputable def semHelpers (ds : Decls) (hn : (tableOf ds).names.Nodup) (m p : Nat) : Helpers (T (ExtX ds → Bool) (ExtY ds m → Bool)) :=
  let lay := extLayout ds hn m p
  let F := helpersOf B (extTypes ds m p)
  { zeroPre := lay.dec B F.zeroPre
    nonPre := fun i => lay.dec B (F.nonPre i)
    nonPost := fun i => lay.dec B (F.nonPost i)
    infPre := lay.dec B F.infPre
    infPost := lay.dec B F.infPost
    forget := fun f => lay.dec B (F.forget (lay.enc B f))
    compose := fun f => lay.dec B (F.compose (lay.enc B f))
    bits := F.bits.map fun e => (lay.dec B e.1, fun f => lay.dec B (e.2 (lay.enc B f)))
    forgetAll := fun f => lay.dec B (F.forgetAll (lay.enc B f)) }

variable {ds : Decls} (hn : (tableOf ds).names.Nodup) (m p : Nat)

theorem counterPre_ext (k : Nat) :
    k ∈ varsOfType (extTypes ds m p) .currentLivenessAssumptionCounterPre ↔ ∃ j : Fin (m + 1), j.val < m ∧ extCode ds m (.co (.inr j)) = k := by
  rw [varsOfType_ext _ _ _ _ (by decide), (varsOfType_bits m).2.2.2.2.2.2.1]
  have : varsOfType (tableOf ds).types .currentLivenessAssumptionCounterPre = [] := by
    rw [List.eq_nil_iff_forall_not_mem]
    intro k hk
    obtain ⟨t, h1, h2⟩ := (mem_typed _ _ _).mp hk
    have := List.mem_of_getElem? h1
    obtain ⟨e, he, rfl⟩ := List.mem_map.mp this
    obtain ⟨z, rfl⟩ := mem_entriesOf.mp he
    rcases z with z | z | z | z <;> simp only [slotEntry] at h2 <;> exact absurd h2 (by decide)
  rw [this]
  simp only [List.nil_append, List.mem_map, List.mem_range, extCode]
  constructor
  · rintro ⟨_, ⟨j, hj, rfl⟩, rfl⟩
    exact ⟨⟨j, by omega⟩, hj, rfl⟩
  · rintro ⟨j, hj, rfl⟩
    exact ⟨_, ⟨j, hj, rfl⟩, rfl⟩

theorem counterPost_ext (k : Nat) :
    k ∈ varsOfType (extTypes ds m p) .currentLivenessAssumptionCounterPost ↔ ∃ j : Fin (m + 1), j.val < m ∧ extCode ds m (.no (.inr j)) = k := by
  rw [varsOfType_ext _ _ _ _ (by decide), (varsOfType_bits m).2.2.2.2.2.2.2.1]
  have : varsOfType (tableOf ds).types .currentLivenessAssumptionCounterPost = [] := by
    rw [List.eq_nil_iff_forall_not_mem]
    intro k hk
    obtain ⟨t, h1, h2⟩ := (mem_typed _ _ _).mp hk
    have := List.mem_of_getElem? h1
    obtain ⟨e, he, rfl⟩ := List.mem_map.mp this
    obtain ⟨z, rfl⟩ := mem_entriesOf.mp he
    rcases z with z | z | z | z <;> simp only [slotEntry] at h2 <;> exact absurd h2 (by decide)
  rw [this]
  simp only [List.nil_append, List.mem_map, List.mem_range, extCode]
  constructor
  · rintro ⟨_, ⟨j, hj, rfl⟩, rfl⟩
    exact ⟨⟨j, by omega⟩, hj, rfl⟩
  · rintro ⟨j, hj, rfl⟩
    exact ⟨_, ⟨j, hj, rfl⟩, rfl⟩

theorem inf_ext :
    varsOfType (extTypes ds m p) .isInftyCostPre = [extCode ds m (.co (.inr (Fin.last m)))] ∧
    varsOfType (extTypes ds m p) .isInftyCostPost = [extCode ds m (.no (.inr (Fin.last m)))] := by
  rw [varsOfType_ext _ _ _ _ (by decide), varsOfType_ext _ _ _ _ (by decide), (varsOfType_bits m).2.2.2.2.2.2.2.2.1, (varsOfType_bits m).2.2.2.2.2.2.2.2.2.1]
  have : ∀ ty, (∀ z : DSlot ds, ty ∉ (slotEntry z).2.closure) → varsOfType (tableOf ds).types ty = [] := by
    intro ty hty
    rw [List.eq_nil_iff_forall_not_mem]
    intro k hk
    obtain ⟨t, h1, h2⟩ := (mem_typed _ _ _).mp hk
    have := List.mem_of_getElem? h1
    obtain ⟨e, he, rfl⟩ := List.mem_map.mp this
    obtain ⟨z, rfl⟩ := mem_entriesOf.mp he
    exact hty z h2
  rw [this _ (by rintro (z | z | z | z) <;> simp only [slotEntry] <;> decide), this _ (by rintro (z | z | z | z) <;> simp only [slotEntry] <;> decide)]
  exact ⟨rfl, rfl⟩

theorem trans_ext (k : Nat) (hk : k ∈ varsOfType (extTypes ds m p) .transitiveClosureIntermediateVariables) : ¬ (extLayout ds hn m p).Code k := by
  obtain ⟨t, h1, h2⟩ := (mem_typed _ _ _).mp hk
  have ht : t = .transitiveClosureIntermediateVariables := by
    revert h2; cases t <;> decide
  subst ht
  rintro ⟨z, hz⟩
  have hm : ∃ ty : VarType, ty ∉ VarType.closure .transitiveClosureIntermediateVariables ∧ k ∈ varsOfType (extTypes ds m p) ty := by
    rcases z with x | x | x | x
    · exact ⟨.preInput, by decide, ((extLayout ds hn m p).preInput k).mpr ⟨x, hz⟩⟩
    · exact ⟨.preOutput, by decide, ((extLayout ds hn m p).preOutput k).mpr ⟨x, hz⟩⟩
    · exact ⟨.postInput, by decide, ((extLayout ds hn m p).postInput k).mpr ⟨x, hz⟩⟩
    · exact ⟨.postOutput, by decide, ((extLayout ds hn m p).postOutput k).mpr ⟨x, hz⟩⟩
  obtain ⟨ty, h3, h4⟩ := hm
  obtain ⟨t, h5, h6⟩ := (mem_typed _ _ _).mp h4
  rw [h1] at h5
  cases h5
  exact h3 h6

theorem swapped_code (types : List VarType) {X Y : Type} (lay : Layout X Y types) (k : Nat)
    (h : k ∈ varsOfTypes types [.preInput, .preOutput] ∨ k ∈ varsOfTypes types [.postInput, .postOutput]) : lay.Code k := by
  simp only [varsOfTypes, List.flatMap_cons, List.flatMap_nil, List.append_nil, List.mem_append, lay.preInput, lay.preOutput, lay.postInput, lay.postOutput] at h
  rcases h with (⟨x, h⟩ | ⟨x, h⟩) | (⟨x, h⟩ | ⟨x, h⟩) <;> exact ⟨_, h⟩

/-- The variables of `addedHelperBitsInImplementationPreVars`. -/
theorem ext_bits_cur (k : Nat)
    (h : k ∈ varsOfType (extTypes ds m p) .currentLivenessAssumptionCounterPre ++ varsOfType (extTypes ds m p) .isInftyCostPre) : (extLayout ds hn m p).Cur k := by
  rcases List.mem_append.mp h with h | h
  · obtain ⟨j, _, hj⟩ := (counterPre_ext m p k).mp h
    exact .inr ⟨.inr j, hj⟩
  · rw [(inf_ext m p).1, List.mem_singleton] at h
    exact .inr ⟨.inr (Fin.last m), h.symm⟩

theorem Layout.cur_code {X Y : Type} {types : List VarType} (lay : Layout X Y types) (k : Nat) (h : lay.Cur k) : lay.Code k :=
  h.elim (fun ⟨_, h⟩ => ⟨_, h⟩) fun ⟨_, h⟩ => ⟨_, h⟩

theorem depOn_helpers :
    let lay := extLayout ds hn m p
    let F := helpersOf B (extTypes ds m p)
    DepOn lay.Cur F.zeroPre ∧ (∀ i, DepOn lay.Cur (F.nonPre i)) ∧ (∀ i, DepOn lay.Code (F.nonPost i)) ∧ DepOn lay.Cur F.infPre ∧ DepOn lay.Code F.infPost ∧
    (∀ b, DepOn lay.Code b → DepOn lay.Code (F.forget b)) ∧ (∀ b, DepOn lay.Code b → DepOn lay.Code (F.compose b)) ∧
    (∀ e ∈ F.bits, DepOn lay.Cur e.1 ∧ (∀ b, DepOn lay.Code b → DepOn lay.Code (e.2 b)) ∧ ∀ b, DepOn lay.Cur b → DepOn lay.Cur (e.2 b)) ∧
    (∀ b, DepOn lay.Code b → DepOn lay.Code (F.forgetAll b)) ∧ ∀ b, DepOn lay.Cur b → DepOn lay.Cur (F.forgetAll b) := by
  intro lay F
  have hc : ∀ k ∈ varsOfType (extTypes ds m p) .currentLivenessAssumptionCounterPre, lay.Cur k := fun k hk => ext_bits_cur hn m p k (List.mem_append.mpr (.inl hk))
  refine ⟨depOn_encode _ _ hc, fun i => depOn_encode _ _ hc, fun i => depOn_encode _ _ ?_, depOn_var ?_, depOn_var ?_, ?_, ?_, ?_, ?_, ?_⟩
  · intro k hk
    obtain ⟨j, _, hj⟩ := (counterPost_ext m p k).mp hk
    exact ⟨.no (.inr j), hj⟩
  · rw [(inf_ext m p).1]; exact .inr ⟨.inr (Fin.last m), rfl⟩
  · rw [(inf_ext m p).2]; exact ⟨.no (.inr (Fin.last m)), rfl⟩
  · intro b hb
    exact (hb.exist _ fun k hk => .inr hk).exist _ fun k hk => .inr hk
  · intro b hb
    have hs : ∀ xs, (∀ k ∈ xs, lay.Code k) →
        DepOn (fun k => lay.Code k ∨ k ∈ varsOfType (extTypes ds m p) .transitiveClosureIntermediateVariables)
          (L.swap xs (varsOfType (extTypes ds m p) .transitiveClosureIntermediateVariables) b) := by
      intro xs hxs
      refine hb.swap _ _ fun k hk => ?_
      rcases swapPerm_range xs (varsOfType (extTypes ds m p) .transitiveClosureIntermediateVariables) id k with h | h | h
      · rw [h]; exact .inl hk
      · exact .inl (hxs _ h)
      · exact .inr h
    refine DepOn.exist _ ((hs _ fun k hk => swapped_code _ lay k (.inr hk)).and (hs _ fun k hk => swapped_code _ lay k (.inl hk))) ?_
    rintro k (hk | hk)
    · exact .inr hk
    · exact .inl hk
  · intro e he
    obtain ⟨k, hk, rfl⟩ := List.mem_map.mp he
    exact ⟨depOn_var (ext_bits_cur hn m p k hk), fun b hb => hb.exist _ fun k hk => .inr hk, fun b hb => hb.exist _ fun k hk => .inr hk⟩
  · exact fun b hb => hb.exist _ fun k hk => .inr hk
  · exact fun b hb => hb.exist _ fun k hk => .inr hk

theorem helpers_hom : HelpersHom ((extLayout ds hn m p).enc B) (semHelpers B ds hn m p) (helpersOf B (extTypes ds m p)) := by
  obtain ⟨h1, h2, h3, h4, h5, h6, h7, h8, h9, -⟩ := depOn_helpers B hn m p
  have hcc := (extLayout ds hn m p).cur_code
  have hd := (extLayout ds hn m p).depOn_enc B
  refine ⟨?_, ?_, ?_, ?_, ?_, ?_, ?_, ?_, ?_⟩
  · exact ((extLayout ds hn m p).enc_dec B (h1.mono hcc)).symm
  · exact fun i => ((extLayout ds hn m p).enc_dec B ((h2 i).mono hcc)).symm
  · exact fun i => ((extLayout ds hn m p).enc_dec B (h3 i)).symm
  · exact ((extLayout ds hn m p).enc_dec B (h4.mono hcc)).symm
  · exact ((extLayout ds hn m p).enc_dec B h5).symm
  · exact fun a => ((extLayout ds hn m p).enc_dec B (h6 _ (hd a))).symm
  · exact fun a => ((extLayout ds hn m p).enc_dec B (h7 _ (hd a))).symm
  · simp only [semHelpers, List.forall₂_map_left_iff]
    refine List.forall₂_same.mpr fun e he => ⟨?_, fun a => ?_⟩
    · exact ((extLayout ds hn m p).enc_dec B ((h8 e he).1.mono hcc)).symm
    · exact ((extLayout ds hn m p).enc_dec B ((h8 e he).2.1 _ (hd a))).symm
  · exact fun a => ((extLayout ds hn m p).enc_dec B (h9 _ (hd a))).symm

theorem semHelpers_ok : HelpersOK (semHelpers B ds hn m p) := by
  obtain ⟨h1, h2, h3, h4, h5, h6, h7, h8, h9, h10⟩ := depOn_helpers B hn m p
  refine ⟨fun s t t' => (extLayout ds hn m p).dec_cur B h1 s t t', fun s t t' => (extLayout ds hn m p).dec_cur B h4 s t t', ?_, ?_, ?_⟩
  · intro f s t h
    simp only [semHelpers, helpersOf, Layout.dec] at h
    rw [(inf_ext m p).1, List.headD_cons] at h
    obtain ⟨w, hw, h⟩ := (L.eval_exist _ _ _).mp h
    obtain ⟨w', hw', h⟩ := (L.eval_exist _ _ _).mp h
    rw [(extLayout ds hn m p).eval_enc] at h
    have hg := (extLayout ds hn m p).get_put (slots s t) fun _ => false
    have key : ∀ z : Slot (ExtX ds) (ExtY ds m), (∀ j, z ≠ .co (.inr j)) → (extLayout ds hn m p).get w' z = slots s t z := by
      intro z hz
      rw [← congrFun hg z]
      refine ((hw _ ?_).trans (hw' _ ?_)).symm
      · intro hm
        exact hz _ ((extLayout ds hn m p).inj (List.mem_singleton.mp hm))
      · intro hm
        obtain ⟨j, _, hj⟩ := (counterPre_ext m p _).mp hm
        exact hz j (extCode_inj hn m hj).symm
    refine ⟨curPos ((extLayout ds hn m p).get w'), ?_, ?_⟩
    · refine Prod.ext (funext fun x => key _ (by simp)) (funext fun x => key _ (by simp))
    · have : nxtPos ((extLayout ds hn m p).get w') = t := Prod.ext (funext fun x => key _ (by simp)) (funext fun x => key _ (by simp))
      rw [← this]; exact h
  · intro e he
    obtain ⟨e', he', rfl⟩ := List.mem_map.mp he
    exact ⟨(extLayout ds hn m p).dec_cur B (h8 e' he').1, fun f hf =>
      (extLayout ds hn m p).dec_cur B ((h8 e' he').2.2 _ ((extLayout ds hn m p).depOn_cur_enc B hf))⟩
  · intro f hf
    exact (extLayout ds hn m p).dec_cur B (h10 _ ((extLayout ds hn m p).depOn_cur_enc B hf))

/-- A BDD over the declared variables. -/
theorem enc_ext (f : T ({x // x ∈ inputsOf ds} → Bool) ({x // x ∈ outputsOf ds} → Bool)) :
    (tableLayout ds hn).enc B f = (extLayout ds hn m p).enc B (extLift f) := by
  refine (extLayout ds hn m p).eq_enc B fun a => ?_
  rw [(tableLayout ds hn).eval_enc]
  rfl

/-! ### The variables of the strategy -/

/-- The variables as predicates. -/
noncomputable def extVars (tab : VarTable) : Vars (T (ExtX ds → Bool) (ExtY ds m → Bool)) where
  preVars := (varsOfType (extTypes ds m p) .pre).map fun k => (extLayout ds hn m p).dec B (L.var k)
  postVars := (varsOfType (extTypes ds m p) .post).map fun k => (extLayout ds hn m p).dec B (L.var k)
  labels := (varsOfType (extTypes ds m p) .pre).map fun k => (tab.names.getD k [], (extLayout ds hn m p).dec B (L.var k))

theorem mem_ext_pre (k : Nat) : k ∈ varsOfType (extTypes ds m p) .pre ↔ (extLayout ds hn m p).Cur k := by
  rw [varsOfType_ext _ _ _ _ (by decide), (varsOfType_bits m).2.2.2.2.1, List.mem_append, mem_pre hn]
  simp only [List.mem_map, List.mem_range, Layout.Cur, extLayout, Sum.exists, or_assoc]
  refine or_congr Iff.rfl (or_congr Iff.rfl ?_)
  constructor
  · rintro ⟨_, ⟨j, hj, rfl⟩, rfl⟩
    exact ⟨⟨j, hj⟩, rfl⟩
  · rintro ⟨j, rfl⟩
    exact ⟨_, ⟨j, j.2, rfl⟩, rfl⟩

theorem mem_ext_post (k : Nat) :
    k ∈ varsOfType (extTypes ds m p) .post ↔ (∃ x, (extLayout ds hn m p).code (.ni x) = k) ∨ ∃ x, (extLayout ds hn m p).code (.no x) = k := by
  rw [varsOfType_ext _ _ _ _ (by decide), (varsOfType_bits m).2.2.2.2.2.1, List.mem_append, mem_post hn]
  simp only [List.mem_map, List.mem_range, extLayout, Sum.exists, or_assoc]
  refine or_congr Iff.rfl (or_congr Iff.rfl ?_)
  constructor
  · rintro ⟨_, ⟨j, hj, rfl⟩, rfl⟩
    exact ⟨⟨j, hj⟩, rfl⟩
  · rintro ⟨j, rfl⟩
    exact ⟨_, ⟨j, j.2, rfl⟩, rfl⟩

theorem dec_var (z : Slot (ExtX ds) (ExtY ds m)) (s t : Pos (ExtX ds → Bool) (ExtY ds m → Bool)) :
    (extLayout ds hn m p).dec B (L.var ((extLayout ds hn m p).code z)) s t ↔ slots s t z = true := by
  rw [Layout.dec, L.eval_var]
  exact iff_of_eq (congrArg (· = true) (congrFun ((extLayout ds hn m p).get_put (slots s t) fun _ => false) z))

theorem extVars_ok (tab : VarTable) : VarsOK (extVars B hn m p tab) where
  pre_indep := by
    intro v hv s t t'
    obtain ⟨k, hk, rfl⟩ := List.mem_map.mp hv
    exact (extLayout ds hn m p).dec_cur B (depOn_var ((mem_ext_pre hn m p k).mp hk)) s t t'
  pre_sep := by
    intro s s' t t' h
    have key : ∀ z : Slot (ExtX ds) (ExtY ds m), (∃ x, z = .ci x) ∨ (∃ x, z = .co x) → slots s t z = slots s' t' z := by
      intro z hz
      have := h _ (List.mem_map.mpr ⟨(extLayout ds hn m p).code z, (mem_ext_pre hn m p _).mpr (hz.imp (fun ⟨x, h⟩ => ⟨x, by rw [h]⟩)
        (fun ⟨x, h⟩ => ⟨x, by rw [h]⟩)), rfl⟩)
      rw [dec_var, dec_var] at this
      exact Bool.eq_iff_iff.mpr this
    refine Prod.ext ?_ ?_
    · funext x; exact key (.ci x) (.inl ⟨x, rfl⟩)
    · funext x; exact key (.co x) (.inr ⟨x, rfl⟩)
  post_sep := by
    intro s t t' h
    have key : ∀ z : Slot (ExtX ds) (ExtY ds m), (∃ x, z = .ni x) ∨ (∃ x, z = .no x) → slots s t z = slots s t' z := by
      intro z hz
      have := h _ (List.mem_map.mpr ⟨(extLayout ds hn m p).code z, (mem_ext_post hn m p _).mpr (hz.imp (fun ⟨x, h⟩ => ⟨x, by rw [h]⟩)
        (fun ⟨x, h⟩ => ⟨x, by rw [h]⟩)), rfl⟩)
      rw [dec_var, dec_var] at this
      exact Bool.eq_iff_iff.mpr this
    refine Prod.ext ?_ ?_
    · funext x; exact key (.ni x) (.inl ⟨x, rfl⟩)
    · funext x; exact key (.no x) (.inr ⟨x, rfl⟩)
  label_indep := by
    intro v hv s t t'
    obtain ⟨k, hk, rfl⟩ := List.mem_map.mp hv
    exact (extLayout ds hn m p).dec_cur B (depOn_var ((mem_ext_pre hn m p k).mp hk)) s t t'

theorem extVars_eq (tab : VarTable) (ht : tab.types = extTypes ds m p) : tableVars B tab = (extVars B hn m p tab).map ((extLayout ds hn m p).enc B) := by
  have hpre : ∀ k ∈ varsOfType (extTypes ds m p) .pre, L.var k = (extLayout ds hn m p).enc B ((extLayout ds hn m p).dec B (L.var k)) := fun k hk =>
    ((extLayout ds hn m p).enc_dec B (depOn_var ((extLayout ds hn m p).cur_code k ((mem_ext_pre hn m p k).mp hk)))).symm
  have hpost : ∀ k ∈ varsOfType (extTypes ds m p) .post, L.var k = (extLayout ds hn m p).enc B ((extLayout ds hn m p).dec B (L.var k)) := by
    intro k hk
    refine ((extLayout ds hn m p).enc_dec B (depOn_var ?_)).symm
    rcases (mem_ext_post hn m p k).mp hk with ⟨x, h⟩ | ⟨x, h⟩ <;> exact ⟨_, h⟩
  simp only [tableVars, extVars, Vars.map, List.map_map, Vars.mk.injEq, ht]
  exact ⟨List.map_congr_left hpre, List.map_congr_left hpost,
    List.map_congr_left fun k hk => Prod.ext rfl (hpre k hk)⟩

end Slugs.Model
