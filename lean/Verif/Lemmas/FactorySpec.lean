import Verif.Lemmas.FactoryFile

/-! The specification in the file with the benchmark about the assembly line (C89). -/

namespace Slugs.Model.Factory

open Slugs.Spec Slugs.Spec.Structured Slugs.Model.Structured Slugs.Model.Cinderella Slugs.Model.InfixTree Slugs.Model.Evasion

variable (n m k most : Nat)

/-- The constraint on new objects. -/
def newTree : FTree := t_some (List.range m).head! (List.range m).tail

def others : List FTree := (List.range (n - 1)).flatMap fun i => (List.range m).map fun j => t_other i j

def con (t : FTree) : Constraint := .infix t.fml

def theSpec : SSpec where
  inputs := ⟨mc, some (0, ((k - 1 : Nat) : Int))⟩ :: ((positions n m).map (fun x => ⟨x, none⟩) ++ [⟨er, some (0, (most : Int))⟩])
  outputs := [⟨a1, some (0, ((n - 1 : Nat) : Int))⟩, ⟨a2, some (0, ((n - 1 : Nat) : Int))⟩, ⟨o1, some (0, ((m - 1 : Nat) : Int))⟩, ⟨o2, some (0, ((m - 1 : Nat) : Int))⟩]
  envInit := con t_ei :: (positions n m).map fun x => con (.atom x)
  sysInit := [con t_si1, con t_si2, con t_si3, con t_si4]
  envTrans := [con (newTree m), con t_er2] ++ ((List.range m).map (fun j => con (t_first j)) ++ ((others n m).map con ++ [con (t_cnt1 k), con (t_cnt2 k)]))
  sysTrans := [con t_st1, con t_st2, con t_st3, con t_st4, con t_st5] ++ (List.range m).map fun j => con (t_safe n j)
  envLiveness := []
  sysLiveness := []

def inNames : List Word := mc :: (positions n m ++ [er])
def outNames : List Word := [a1, a2, o1, o2]
def intNames : List Word := [mc, er, a1, a2, o1, o2]

theorem theSpec_inputs : (theSpec n m k most).inputNames = inNames n m := by
  simp [SSpec.inputNames, theSpec, inNames, Function.comp_def]

theorem theSpec_outputs : (theSpec n m k most).outputNames = outNames := rfl

theorem theSpec_bools : (theSpec n m k most).bools = theBools n m := by
  simp [SSpec.bools, SSpec.boolsOf, theSpec, theBools, List.filter_append, List.filter_map, Function.comp_def]

theorem names_nodup : (inNames n m ++ outNames).Nodup := by
  have hp : ∀ x ∈ positions n m, x.head? = some 'p' := fun x hx => bools_head (List.mem_append_left _ hx)
  have hne : ∀ x, x.head? ≠ some 'p' → x ∉ positions n m := fun x h hx => h (hp x hx)
  have h1 := hne mc (by decide)
  have h2 := hne er (by decide)
  rw [List.nodup_append, inNames, List.nodup_cons, List.nodup_append]
  refine ⟨⟨?_, positions_nodup n m, by simp, ?_⟩, by decide, ?_⟩
  · simp only [List.mem_append, List.mem_singleton, h1, false_or]
    decide
  · intro a ha b hb hab
    rw [List.mem_singleton] at hb
    subst hab; subst hb
    exact h2 ha
  · intro a ha b hb hab
    subst hab
    simp only [List.mem_cons, List.mem_append, List.not_mem_nil, or_false] at ha
    rcases ha with rfl | ha | rfl
    · revert hb; decide
    · have : ∀ x ∈ outNames, x.head? ≠ some 'p' := by decide
      exact this a hb (hp a ha)
    · revert hb; decide

theorem tidy_int : ∀ x ∈ intNames, Tidy x := by
  intro x hx
  simp only [intNames, List.mem_cons, List.not_mem_nil, or_false] at hx
  rcases hx with rfl | rfl | rfl | rfl | rfl | rfl <;> exact tidy_of rfl (by decide)

theorem theSpec_decls : DeclsOk ((theSpec n m k most).inputs ++ (theSpec n m k most).outputs) where
  tidy := by
    intro d hd
    simp only [theSpec, List.mem_append, List.mem_map, List.mem_cons, List.not_mem_nil, or_false] at hd
    rcases hd with (rfl | ⟨x, hx, rfl⟩ | rfl) | rfl | rfl | rfl | rfl
    · exact tidy_int mc (by decide)
    · obtain ⟨i, _, j, _, rfl⟩ := mem_positions.mp hx
      exact p_tidy i j
    · exact tidy_int er (by decide)
    · exact tidy_int a1 (by decide)
    · exact tidy_int a2 (by decide)
    · exact tidy_int o1 (by decide)
    · exact tidy_int o2 (by decide)
  nodup := by
    rw [List.map_append]
    have := names_nodup n m
    rw [← theSpec_inputs n m k most, ← theSpec_outputs n m k most] at this
    exact this
  range := by
    intro d hd lo hi hr
    simp only [theSpec, List.mem_append, List.mem_map, List.mem_cons, List.not_mem_nil, or_false] at hd
    rcases hd with (rfl | ⟨x, hx, rfl⟩ | rfl) | rfl | rfl | rfl | rfl <;> cases hr <;> simp

theorem theSpec_bounds : ∀ x ∈ intNames, ∃ lo hi, (theSpec n m k most).bounds x = some (lo, hi) ∧ 0 ≤ lo := by
  have key : ∀ (x : Word) (b : Nat), (⟨x, some (0, (b : Int))⟩ : Decl) ∈ (theSpec n m k most).inputs ++ (theSpec n m k most).outputs →
      ∃ lo hi, (theSpec n m k most).bounds x = some (lo, hi) ∧ 0 ≤ lo := fun x b h =>
    ⟨0, b, bounds_of (theSpec_decls n m k most) (d := ⟨x, some (0, (b : Int))⟩) h, Int.le_refl 0⟩
  intro x hx
  simp only [intNames, List.mem_cons, List.not_mem_nil, or_false] at hx
  rcases hx with rfl | rfl | rfl | rfl | rfl | rfl
  · exact key _ (k - 1) (by simp [theSpec])
  · exact key _ most (by simp [theSpec])
  · exact key _ (n - 1) (by simp [theSpec])
  · exact key _ (n - 1) (by simp [theSpec])
  · exact key _ (m - 1) (by simp [theSpec])
  · exact key _ (m - 1) (by simp [theSpec])

variable {n m k most}

theorem allowsT {s : Section} {t : FTree} (h1 : t.proper intNames = true) (h2 : ∀ x ∈ t.fml.atoms false ++ t.fml.numbers false, x ∈ usable s (inNames n m) outNames) :
    (theSpec n m k most).Allows s (con t) :=
  allows_tree (theSpec_inputs n m k most) (theSpec_outputs n m k most) (theSpec_bounds n m k most) h1 (by rw [List.all_eq_true]; intro x hx; simpa using h2 x hx)

theorem mc_in : mc ∈ inNames n m := by simp [inNames]
theorem er_in : er ∈ inNames n m := by simp [inNames]
theorem p_in {i j : Nat} (hi : i < n) (hj : j < m) : pName i j ∈ inNames n m := by
  have := mem_positions.mpr ⟨i, hi, j, hj, rfl⟩
  simp [inNames, this]
theorem mcN_in : mcN ∈ (inNames n m).map prime := List.mem_map.mpr ⟨mc, mc_in, rfl⟩
theorem erN_in : erN ∈ (inNames n m).map prime := List.mem_map.mpr ⟨er, er_in, rfl⟩
theorem q_in {i j : Nat} (hi : i < n) (hj : j < m) : prime (pName i j) ∈ (inNames n m).map prime := List.mem_map.mpr ⟨_, p_in hi hj, rfl⟩
theorem a1_out : a1 ∈ outNames := by decide
theorem a2_out : a2 ∈ outNames := by decide
theorem o1_out : o1 ∈ outNames := by decide
theorem o2_out : o2 ∈ outNames := by decide
theorem a1N_out : a1N ∈ outNames.map prime := by decide
theorem a2N_out : a2N ∈ outNames.map prime := by decide

/-- Names that can be used in formulas. -/
theorem use_env {x : Word} (h : x ∈ inNames n m ∨ x ∈ outNames ∨ x ∈ (inNames n m).map prime) : x ∈ usable .envTrans (inNames n m) outNames := by
  simp only [usable, List.mem_append]; tauto
theorem use_sys {x : Word} (h : x ∈ inNames n m ∨ x ∈ outNames ∨ x ∈ (inNames n m).map prime ∨ x ∈ outNames.map prime) : x ∈ usable .sysTrans (inNames n m) outNames := by
  simp only [usable, List.mem_append]; tauto

theorem tree_atoms : ∀ (js : List Nat) (t : FTree), (someTree t js).fml.atoms false ++ (someTree t js).fml.numbers false =
    (t.fml.atoms false ++ js.map fun j => prime (pName 0 j)) ++ t.fml.numbers false
  | [], t => by simp [someTree]
  | j :: js, t => by
    rw [someTree, tree_atoms js]
    simp [FTree.fml, SFml.atoms, SFml.numbers]

theorem tree_names {js : List Nat} {j : Nat} {x : Word} (h : x ∈ (someTree (.atom (prime (pName 0 j))) js).fml.atoms false ∨
    x ∈ (someTree (.atom (prime (pName 0 j))) js).fml.numbers false) : ∃ i ∈ j :: js, x = prime (pName 0 i) := by
  rw [← List.mem_append, tree_atoms] at h
  simp only [FTree.fml, SFml.atoms, SFml.numbers, List.append_nil, Bool.false_eq_true, if_false, List.singleton_append, List.mem_cons, List.mem_map] at h
  rcases h with rfl | ⟨i, hi, rfl⟩
  · exact ⟨j, by simp, rfl⟩
  · exact ⟨i, by simp [hi], rfl⟩

theorem tree_proper {ints : List Word} : ∀ (js : List Nat) (t : FTree), t.proper ints = true → (someTree t js).proper ints = true
  | [], _, h => h
  | j :: js, t, h => tree_proper js _ (by simp [FTree.proper, h])

theorem range_cons (hm : 1 ≤ m) : List.range m = (List.range m).head! :: (List.range m).tail := by
  cases h : List.range m with
  | nil => rw [List.range_eq_nil] at h; omega
  | cons j js => rfl

theorem allows_new (hn : 3 ≤ n) (hm : 1 ≤ m) : (theSpec n m k most).Allows .envTrans (con (newTree m)) := by
  refine allowsT ?_ ?_
  · rw [newTree, t_some]
    simp only [FTree.proper, tree_proper (ints := intNames) (List.range m).tail (.atom (prime (pName 0 (List.range m).head!))) rfl]
    decide
  · intro x hx
    rw [newTree, t_some] at hx
    simp only [FTree.fml, SFml.atoms, SFml.numbers, NExp.names, List.append_nil, List.nil_append, Bool.false_eq_true, if_false, List.map_id', List.mem_append, List.mem_cons,
      List.not_mem_nil, or_false, List.map_cons, List.map_nil, or_assoc] at hx
    have key : (∃ i ∈ (List.range m).head! :: (List.range m).tail, x = prime (pName 0 i)) → x ∈ usable .envTrans (inNames n m) outNames := by
      rintro ⟨i, hi, rfl⟩
      rw [← range_cons hm, List.mem_range] at hi
      exact use_env (.inr (.inr (q_in (by omega) hi)))
    rcases hx with hx | rfl | hx | rfl | rfl
    · exact key (tree_names (.inl hx))
    · exact use_env (.inr (.inr mcN_in))
    · exact key (tree_names (.inr hx))
    · exact use_env (.inr (.inr erN_in))
    · exact use_env (.inl er_in)

macro "names_at" h:ident : tactic =>
  `(tactic| simp only [FTree.fml, SFml.atoms, SFml.numbers, NExp.names, List.append_nil, List.nil_append, Bool.false_eq_true, if_false, List.map_id', List.mem_append, List.mem_cons,
      List.not_mem_nil, or_false, List.map_cons, List.map_nil, or_assoc, List.cons_append] at $h:ident)

theorem allows_first (hn : 3 ≤ n) {j : Nat} (hj : j < m) : (theSpec n m k most).Allows .envTrans (con (t_first j)) := by
  have hp := p_in (n := n) (i := 0) (by omega) hj
  have hq := q_in (n := n) (i := 0) (by omega) hj
  refine allowsT rfl fun x hx => use_env ?_
  rw [t_first] at hx
  names_at hx
  rcases hx with rfl | rfl | rfl | rfl | rfl | rfl | rfl | rfl <;> first
    | exact .inl hp
    | exact .inr (.inr hq)
    | exact .inr (.inr mcN_in)
    | exact .inr (.inl (by decide))

theorem allows_other {i j : Nat} (hi : i + 1 < n) (hj : j < m) : (theSpec n m k most).Allows .envTrans (con (t_other i j)) := by
  have hp := p_in (n := n) hi hj
  have hr := p_in (n := n) (i := i) (by omega) hj
  have hq := q_in (n := n) hi hj
  refine allowsT rfl fun x hx => use_env ?_
  rw [t_other] at hx
  names_at hx
  rcases hx with rfl | rfl | rfl | rfl | rfl | rfl | rfl | rfl | rfl <;> first
    | exact .inl hp
    | exact .inl hr
    | exact .inr (.inr hq)
    | exact .inr (.inr mcN_in)
    | exact .inr (.inl (by decide))

theorem allows_safe (hn : 3 ≤ n) {j : Nat} (hj : j < m) : (theSpec n m k most).Allows .sysTrans (con (t_safe n j)) := by
  have hp := p_in (n := n) (i := n - 1) (by omega) hj
  refine allowsT rfl fun x hx => use_sys ?_
  rw [t_safe] at hx
  names_at hx
  rcases hx with rfl | rfl
  · exact .inl hp
  · exact .inr (.inr (.inl mcN_in))

theorem mem_others {t : FTree} : t ∈ others n m ↔ ∃ i, i + 1 < n ∧ ∃ j < m, t = t_other i j := by
  simp only [others, List.mem_flatMap, List.mem_range, List.mem_map]
  constructor
  · rintro ⟨i, hi, j, hj, rfl⟩; exact ⟨i, by omega, j, hj, rfl⟩
  · rintro ⟨i, hi, j, hj, rfl⟩; exact ⟨i, by omega, j, hj, rfl⟩

theorem conT {ps : List Piece} {t : FTree} (h1 : pOk ps = true) (h2 : t.ok (theBools n m) 0 = true) (h3 : pToks (theBools n m) ps = t.toks (theBools n m)) :
    IsConstraint (theBools n m) (pText ps) (con t) :=
  .infix (isFormula_tree h1 h2 h3)

macro "tree_ok" : tactic => `(tactic| simp [FTree.ok, nOk, isOne, k_mc, k_mcN, k_er, k_erN, k_a1, k_a1N, k_a2, k_a2N, k_o1, k_o2])

theorem con_pos {x : Word} (h : x ∈ positions n m) : IsConstraint (theBools n m) x (con (.atom x)) := by
  obtain ⟨i, hi, j, hj, rfl⟩ := mem_positions.mp h
  have := conT (n := n) (m := m) (ps := [.name (pName i j)]) (t := .atom (pName i j)) (by simp [pOk, isName_p, pFree]) (by simp [FTree.ok, kind_p hi hj]) rfl
  simpa [pText] using this

theorem con_new (hn : 3 ≤ n) (hm : 1 ≤ m) : IsConstraint (theBools n m) (newLine m) (con (newTree m)) := by
  obtain ⟨j, js, h1, h2⟩ := newLine_eq hm
  rw [h2, newTree, h1]
  exact conT (some_ok j js) (some_tok (by omega) fun x hx => List.mem_range.mp (h1 ▸ hx)) (some_toks _ j js)

theorem con_first (hn : 3 ≤ n) {j : Nat} (hj : j < m) : IsConstraint (theBools n m) (pText (p_first j)) (con (t_first j)) := by
  refine conT ?_ ?_ rfl
  · simp only [p_first, pOk, isName_p, isName_q]; rfl
  · simp [t_first, FTree.ok, nOk, isOne, k_mcN, k_a1, k_a2, k_o1, k_o2, kind_p (n := n) (i := 0) (by omega) hj, kind_q (n := n) (i := 0) (by omega) hj]

theorem con_other {i j : Nat} (hi : i + 1 < n) (hj : j < m) : IsConstraint (theBools n m) (pText (p_other i j)) (con (t_other i j)) := by
  refine conT ?_ ?_ rfl
  · simp only [p_other, pOk, isName_p, isName_q]; rfl
  · simp [t_other, FTree.ok, nOk, isOne, k_mcN, k_a1, k_a2, k_o1, k_o2, kind_p hi hj, kind_q hi hj, kind_p (n := n) (i := i) (by omega) hj]

theorem con_safe (hn : 3 ≤ n) {j : Nat} (hj : j < m) : IsConstraint (theBools n m) (pText (p_safe n j)) (con (t_safe n j)) := by
  refine conT ?_ ?_ rfl
  · simp only [p_safe, pOk, isName_p]; rfl
  · simp [t_safe, FTree.ok, nOk, isOne, k_mcN, kind_p (n := n) (i := n - 1) (by omega) hj]

theorem forall2_mem {A B : Type} {C : Type} {R : A → B → Prop} {f : C → A} {g : C → B} : ∀ {L : List C}, (∀ i ∈ L, R (f i) (g i)) → List.Forall₂ R (L.map f) (L.map g)
  | [], _ => .nil
  | i :: L, h => .cons (h i (by simp)) (forall2_mem fun x hx => h x (by simp [hx]))

theorem forall2_flat {A B : Type} {R : A → B → Prop} {f : Nat → Nat → A} {g : Nat → Nat → B} {m : Nat} : ∀ {L : List Nat}, (∀ i ∈ L, ∀ j < m, R (f i j) (g i j)) →
    List.Forall₂ R (L.flatMap fun i => (List.range m).map fun j => f i j) (L.flatMap fun i => (List.range m).map fun j => g i j)
  | [], _ => .nil
  | i :: L, h => by
    rw [List.flatMap_cons, List.flatMap_cons]
    exact List.rel_append (forall2_mem fun j hj => h i (by simp) j (List.mem_range.mp hj)) (forall2_flat fun x hx => h x (by simp [hx]))

theorem benchmark_denotes (hn : 3 ≤ n) (hm : 1 ≤ m) (hk : 1 ≤ k) : SDenotes (benchmark n m k most) (theSpec n m k most) where
  content := by
    refine ⟨fileItems n m k most, ?_, ?_⟩
    · rw [benchmark_split n m k most hn hm hk]
      exact file_content n m k most hm
    · rw [theSpec_bools]
      simp only [fileItems, tag, items_append, itemsOf_tagged]
      simp only [reduceCtorEq, if_true, if_false, List.append_nil, List.nil_append, show ∀ s, itemsOf s [] = [] from fun _ => rfl]
      refine ⟨?_, ?_, ?_, ?_, ?_, ?_, .nil, .nil⟩
      · have := forall2_mem (L := positions n m) (R := IsDecl) (f := id) (g := fun x => ⟨x, none⟩) (fun x hx => by
          obtain ⟨i, _, j, _, rfl⟩ := mem_positions.mp hx
          exact .bool (p_tidy i j))
        rw [List.map_id] at this
        exact .cons (isDecl_range (tidy_int mc (by decide)) _) (List.rel_append this (.cons (isDecl_range (tidy_int er (by decide)) _) .nil))
      · exact .cons (isDecl_range (tidy_of rfl (by decide)) _) (.cons (isDecl_range (tidy_of rfl (by decide)) _) (.cons (isDecl_range (tidy_of rfl (by decide)) _)
          (.cons (isDecl_range (tidy_of rfl (by decide)) _) .nil)))
      · refine .cons (conT rfl (by rw [t_ei]; tree_ok) rfl) ?_
        have := forall2_mem (L := positions n m) (R := IsConstraint (theBools n m)) (f := id) (g := fun x => con (.atom x)) (fun x hx => con_pos hx)
        rwa [List.map_id] at this
      · exact .cons (conT rfl (by rw [t_si1]; tree_ok) rfl) (.cons (conT rfl (by rw [t_si2]; tree_ok) rfl) (.cons (conT rfl (by rw [t_si3]; tree_ok) rfl)
          (.cons (conT rfl (by rw [t_si4]; tree_ok) rfl) .nil)))
      · have f1 : List.Forall₂ (IsConstraint (theBools n m)) (firstLines m) ((List.range m).map fun j => con (t_first j)) :=
          forall2_mem fun j hj => by rw [first_text]; exact con_first hn (List.mem_range.mp hj)
        have f2 : List.Forall₂ (IsConstraint (theBools n m)) (otherLines n m) ((others n m).map con) := by
          rw [others, List.map_flatMap]
          simp only [List.map_map, Function.comp_def]
          exact forall2_flat fun i hi j hj => by rw [other_text]; exact con_other (by have := List.mem_range.mp hi; omega) hj
        have f3 : IsConstraint (theBools n m) (pText (p_cnt1 k)) (con (t_cnt1 k)) := conT rfl (by rw [t_cnt1]; tree_ok) rfl
        have f4 : IsConstraint (theBools n m) (pText (p_cnt2 k)) (con (t_cnt2 k)) := conT rfl (by rw [t_cnt2]; tree_ok) rfl
        exact .cons (con_new hn hm) (.cons (conT rfl (by rw [t_er2]; tree_ok) rfl) (List.rel_append f1 (List.rel_append f2 (.cons f3 (.cons f4 .nil)))))
      · refine List.rel_append (.cons (conT rfl (by rw [t_st1]; tree_ok) rfl) (.cons (conT rfl (by rw [t_st2]; tree_ok) rfl) (.cons (conT rfl (by rw [t_st3]; tree_ok) rfl)
          (.cons (conT rfl (by rw [t_st4]; tree_ok) rfl) (.cons (conT rfl (by rw [t_st5]; tree_ok) rfl) .nil))))) ?_
        exact forall2_mem fun j hj => by rw [safe_text]; exact con_safe hn (List.mem_range.mp hj)
  nodup := by
    rw [SSpec.names, theSpec_inputs, theSpec_outputs]
    exact names_nodup n m
  envInit := by
    intro c hc
    rcases List.mem_cons.mp hc with rfl | hc
    · refine allowsT rfl fun x hx => ?_
      rw [t_ei] at hx
      names_at hx
      subst hx
      exact mc_in
    · obtain ⟨y, hy, rfl⟩ := List.mem_map.mp hc
      refine allowsT rfl fun x hx => ?_
      names_at hx
      subst hx
      obtain ⟨i, hi, j, hj, rfl⟩ := mem_positions.mp hy
      exact p_in hi hj
  sysInit := by
    intro c hc
    simp only [theSpec, List.mem_cons, List.not_mem_nil, or_false] at hc
    rcases hc with rfl | rfl | rfl | rfl <;> refine allowsT rfl fun x hx => List.mem_append_right _ ?_
    · rw [t_si1] at hx; names_at hx; subst hx; decide
    · rw [t_si2] at hx; names_at hx; subst hx; decide
    · rw [t_si3] at hx; names_at hx; subst hx; decide
    · rw [t_si4] at hx; names_at hx; subst hx; decide
  envTrans := by
    intro c hc
    simp only [theSpec, List.mem_append, List.mem_cons, List.mem_map, List.not_mem_nil, or_false] at hc
    rcases hc with (rfl | rfl) | ⟨j, hj, rfl⟩ | ⟨t, ht, rfl⟩ | rfl | rfl
    · exact allows_new hn hm
    · refine allowsT rfl fun x hx => use_env ?_
      rw [t_er2] at hx; names_at hx
      rcases hx with rfl | rfl
      · exact .inr (.inr erN_in)
      · exact .inl er_in
    · exact allows_first hn (List.mem_range.mp hj)
    · obtain ⟨i, hi, j, hj, rfl⟩ := mem_others.mp ht
      exact allows_other hi hj
    · refine allowsT rfl fun x hx => use_env ?_
      rw [t_cnt1] at hx; names_at hx
      rcases hx with rfl | rfl | rfl
      · exact .inl mc_in
      · exact .inr (.inr mcN_in)
      · exact .inl mc_in
    · refine allowsT rfl fun x hx => use_env ?_
      rw [t_cnt2] at hx; names_at hx
      rcases hx with rfl | rfl
      · exact .inl mc_in
      · exact .inr (.inr mcN_in)
  sysTrans := by
    intro c hc
    simp only [theSpec, List.mem_append, List.mem_cons, List.mem_map, List.not_mem_nil, or_false] at hc
    rcases hc with (rfl | rfl | rfl | rfl | rfl) | ⟨j, hj, rfl⟩
    · refine allowsT rfl fun x hx => use_sys ?_
      rw [t_st1] at hx; names_at hx
      rcases hx with rfl | rfl
      · exact .inr (.inr (.inr a1N_out))
      · exact .inr (.inr (.inr a2N_out))
    · refine allowsT rfl fun x hx => use_sys ?_
      rw [t_st2] at hx; names_at hx
      rcases hx with rfl | rfl
      · exact .inr (.inr (.inr a1N_out))
      · exact .inr (.inl a1_out)
    · refine allowsT rfl fun x hx => use_sys ?_
      rw [t_st3] at hx; names_at hx
      rcases hx with rfl | rfl
      · exact .inr (.inl a1_out)
      · exact .inr (.inr (.inr a1N_out))
    · refine allowsT rfl fun x hx => use_sys ?_
      rw [t_st4] at hx; names_at hx
      rcases hx with rfl | rfl
      · exact .inr (.inr (.inr a2N_out))
      · exact .inr (.inl a2_out)
    · refine allowsT rfl fun x hx => use_sys ?_
      rw [t_st5] at hx; names_at hx
      rcases hx with rfl | rfl
      · exact .inr (.inl a2_out)
      · exact .inr (.inr (.inr a2N_out))
    · exact allows_safe hn (List.mem_range.mp hj)
  envLiveness := by intro c hc; cases hc
  sysLiveness := by intro c hc; cases hc

end Slugs.Model.Factory
