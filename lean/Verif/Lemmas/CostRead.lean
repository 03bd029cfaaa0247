import Verif.Lemmas.CostHom
import Verif.Lemmas.Order
import Verif.Spec.Cost

/-! Reading the cost file. -/

namespace Slugs.Model

open Slugs.Spec

variable {D : Type} [LinearOrder D]

/-! ### The map from costs to transitions -/

section Costs

variable {I O : Type}

/-- What the map means. -/
structure CostsMean (l : List (D × T I O)) (P : D → T I O) : Prop where
  sorted : l.Pairwise fun u u' => u.1 < u'.1
  means : ∀ v s t, (∃ u ∈ l, u.1 = v ∧ u.2 s t) ↔ P v s t

omit [LinearOrder D] in
theorem CostsMean.nil [LinearOrder D] : CostsMean ([] : List (D × T I O)) fun _ _ _ => False :=
  ⟨.nil, fun _ _ _ => ⟨fun ⟨_, h, _⟩ => (List.not_mem_nil h).elim, fun h => h.elim⟩⟩

theorem costInsert_keys (l : List (D × T I O)) (v : D) (f : T I O) : ∀ k, k ∈ (costInsert (semMgr I O) l v f).map Prod.fst ↔ k = v ∨ k ∈ l.map Prod.fst := by
  induction l with
  | nil => intro k; simp [costInsert]
  | cons u us ih =>
    obtain ⟨w, g⟩ := u
    intro k
    rw [costInsert]
    split
    · simp
    · split
      · rw [List.map_cons, List.mem_cons, ih, List.map_cons, List.mem_cons]; tauto
      · have : v = w := le_antisymm (not_lt.mp ‹_›) (not_lt.mp ‹_›)
        subst this
        simp

theorem CostsMean.insert {l : List (D × T I O)} {P : D → T I O} (h : CostsMean l P) (v : D) (f : T I O) :
    CostsMean (costInsert (semMgr I O) l v f) fun w s t => P w s t ∨ (w = v ∧ f s t) := by
  constructor
  · have hs := h.sorted
    clear h
    induction l with
    | nil => simp [costInsert]
    | cons u us ih =>
      obtain ⟨w, g⟩ := u
      rw [List.pairwise_cons] at hs
      rw [costInsert]
      split
      · rename_i hv
        refine List.pairwise_cons.mpr ⟨?_, List.pairwise_cons.mpr hs⟩
        intro u' hu'
        rcases List.mem_cons.mp hu' with rfl | hu'
        · exact hv
        · exact lt_trans hv (hs.1 u' hu')
      · split
        · rename_i hv
          refine List.pairwise_cons.mpr ⟨fun u' hu' => ?_, ih hs.2⟩
          rcases (costInsert_keys us v f u'.1).mp (List.mem_map_of_mem hu') with h | h
          · exact h ▸ hv
          · obtain ⟨u'', h1, h2⟩ := List.mem_map.mp h
            exact h2 ▸ hs.1 u'' h1
        · exact List.pairwise_cons.mpr hs
  · have key : ∀ (l : List (D × T I O)) (w : D) s t, (∃ u ∈ costInsert (semMgr I O) l v f, u.1 = w ∧ u.2 s t) ↔
        (∃ u ∈ l, u.1 = w ∧ u.2 s t) ∨ (w = v ∧ f s t) := by
      intro l w s t
      induction l with
      | nil => simp only [costInsert, List.mem_singleton, exists_eq_left, List.not_mem_nil, false_and, exists_false, false_or]; exact and_congr_left' eq_comm
      | cons u us ih =>
        obtain ⟨x, g⟩ := u
        rw [costInsert]
        split
        · simp only [List.mem_cons, exists_eq_or_imp]
          rw [or_comm, eq_comm (a := v)]
        · split
          · simp only [List.mem_cons, exists_eq_or_imp]
            rw [ih, or_assoc]
          · have : v = x := le_antisymm (not_lt.mp ‹_›) (not_lt.mp ‹_›)
            subst this
            simp only [List.mem_cons, exists_eq_or_imp]
            have : (semMgr I O).or g f s t ↔ g s t ∨ f s t := Iff.rfl
            rw [this, eq_comm (a := v), and_or_left, or_assoc, or_assoc]
            exact or_congr Iff.rfl or_comm
    intro w s t
    rw [key, h.means]

theorem overlapping_iff {l : List (D × T I O)} {P : D → T I O} (h : CostsMean l P) :
    overlapping (semMgr I O) l = true ↔ ∃ v w, v ≠ w ∧ ∃ s t, P v s t ∧ P w s t := by
  have key : ∀ l : List (D × T I O), l.Pairwise (fun u u' => u.1 < u'.1) →
      (overlapping (semMgr I O) l = true ↔ ∃ u ∈ l, ∃ u' ∈ l, u.1 < u'.1 ∧ ∃ s t, u.2 s t ∧ u'.2 s t) := by
    intro l
    induction l with
    | nil => simp [overlapping]
    | cons e us ih =>
      obtain ⟨v, f⟩ := e
      intro hs
      rw [List.pairwise_cons] at hs
      rw [overlapping, Bool.or_eq_true, ih hs.2, List.any_eq_true]
      have hne : ∀ f' : T I O, decide ((semMgr I O).and f f' ≠ (semMgr I O).ff) = true ↔ ∃ s t, f s t ∧ f' s t := by
        intro f'
        rw [decide_eq_true_iff]
        constructor
        · intro h
          by_contra hc
          push Not at hc
          exact h (funext fun s => funext fun t => eq_false fun h => hc s t h.1 h.2)
        · rintro ⟨s, t, h1, h2⟩ he
          exact (iff_of_eq (congrFun (congrFun he s) t)).mp ⟨h1, h2⟩
      constructor
      · rintro (⟨u, hu, h⟩ | ⟨u, hu, u', hu', h⟩)
        · exact ⟨(v, f), by simp, u, List.mem_cons_of_mem _ hu, hs.1 u hu, (hne u.2).mp h⟩
        · exact ⟨u, List.mem_cons_of_mem _ hu, u', List.mem_cons_of_mem _ hu', h⟩
      · rintro ⟨u, hu, u', hu', hlt, h⟩
        rcases List.mem_cons.mp hu with rfl | hu
        · rcases List.mem_cons.mp hu' with rfl | hu'
          · exact absurd hlt (lt_irrefl _)
          · exact .inl ⟨u', hu', (hne u'.2).mpr h⟩
        · rcases List.mem_cons.mp hu' with rfl | hu'
          · exact absurd (lt_trans hlt (hs.1 u hu)) (lt_irrefl _)
          · exact .inr ⟨u, hu, u', hu', hlt, h⟩
  rw [key l h.sorted]
  constructor
  · rintro ⟨u, hu, u', hu', hlt, s, t, h1, h2⟩
    exact ⟨u.1, u'.1, ne_of_lt hlt, s, t, (h.means _ s t).mp ⟨u, hu, rfl, h1⟩, (h.means _ s t).mp ⟨u', hu', rfl, h2⟩⟩
  · rintro ⟨v, w, hne, s, t, h1, h2⟩
    obtain ⟨u, hu, rfl, h3⟩ := (h.means v s t).mpr h1
    obtain ⟨u', hu', rfl, h4⟩ := (h.means w s t).mpr h2
    rcases lt_or_gt_of_ne hne with h | h
    · exact ⟨u, hu, u', hu', h, s, t, h3, h4⟩
    · exact ⟨u', hu', u, hu, h, s, t, h4, h3⟩

end Costs

/-! ### The text -/

section Text

variable {B : Type} [DecidableEq B] [L : BddLib B] {N : Doubles D}

theorem readPreference_iff {line : List Char} {p : Preference D} : readPreference N line = some p ↔ FirstLine N.read line p.waiting p.action p.waitingPreferred := by
  constructor
  · intro h
    rw [readPreference] at h
    cases h1 : N.read line with
    | none => rw [h1] at h; cases h
    | some r =>
      obtain ⟨w, r1⟩ := r
      rw [h1] at h
      simp only at h
      cases h2 : N.read r1 with
      | none => rw [h2] at h; cases h
      | some r =>
        obtain ⟨a, r2⟩ := r
        rw [h2] at h
        simp only at h
        split at h
        · rename_i r3 h3
          cases h
          exact .mk h1 h2 h3 (.inl rfl)
        · rename_i r3 h3
          cases h
          exact .mk h1 h2 h3 (.inr rfl)
        · cases h
  · intro h
    obtain ⟨w, a, pr⟩ := p
    cases h with
    | mk h1 h2 h3 h4 =>
      rw [readPreference, h1]
      simp only
      rw [h2]
      simp only
      rcases h4 with rfl | rfl
      · rw [h3]; rfl
      · rw [h3]; rfl

/-- The BFs of the costs, for the entries that were read. -/
structure CostInv (ds : Decls) (F : Section → List Fml) (hn : (tableOf ds).names.Nodup) (costs : List (D × B)) (entries : List (D × Fml)) : Prop where
  sem : ∃ l, costs = mapVals ((tableLayout ds hn).enc B) l ∧ CostsMean l fun v s t => ∃ e ∈ entries, e.1 = v ∧ (specOf ds F).holds s t e.2
  keys : ∀ u ∈ costs, ∃ e ∈ entries, e.1 = u.1

theorem costInsert_from {A : Type} (M : Mgr A) : ∀ (l : List (D × A)) (v : D) (f : A), ∀ u ∈ costInsert M l v f, u.1 = v ∨ ∃ u' ∈ l, u'.1 = u.1
  | [], v, f, u, h => .inl (by rw [costInsert, List.mem_singleton] at h; rw [h])
  | (w, g) :: l, v, f, u, h => by
    rw [costInsert] at h
    split at h
    · rcases List.mem_cons.mp h with rfl | h
      · exact .inl rfl
      · exact .inr ⟨u, h, rfl⟩
    · split at h
      · rcases List.mem_cons.mp h with rfl | h
        · exact .inr ⟨_, List.mem_cons_self, rfl⟩
        · exact (costInsert_from M l v f u h).imp id fun ⟨u', h1, h2⟩ => ⟨u', List.mem_cons_of_mem _ h1, h2⟩
      · rcases List.mem_cons.mp h with rfl | h
        · exact .inr ⟨_, List.mem_cons_self, rfl⟩
        · exact .inr ⟨u, List.mem_cons_of_mem _ h, rfl⟩

theorem takeWhile_split {line : List Char} (h : ' ' ∈ line) :
    line = line.takeWhile (· ≠ ' ') ++ ' ' :: (line.dropWhile (· ≠ ' ')).drop 1 ∧ ' ' ∉ line.takeWhile (· ≠ ' ') := by
  constructor
  · induction line with
    | nil => cases h
    | cons c cs ih =>
      by_cases hc : c = ' '
      · subst hc; simp
      · rcases List.mem_cons.mp h with h | h
        · exact absurd h.symm hc
        · rw [List.takeWhile_cons_of_pos (by simpa using hc), List.dropWhile_cons_of_pos (by simpa using hc), List.cons_append, ← ih h]
  · intro hm
    have := List.mem_takeWhile_imp hm
    simp at this

theorem takeWhile_of_not_mem {line : List Char} (h : ' ' ∉ line) : line.takeWhile (· ≠ ' ') = line := by
  rw [List.takeWhile_eq_self_iff]
  intro c hc
  simp only [ne_eq, decide_not, Bool.not_eq_true', decide_eq_false_iff_not]
  rintro rfl
  exact h hc

theorem takeWhile_append_space {num fml : List Char} (h : ' ' ∉ num) :
    (num ++ ' ' :: fml).takeWhile (· ≠ ' ') = num ∧ ((num ++ ' ' :: fml).dropWhile (· ≠ ' ')).drop 1 = fml := by
  have hall : ∀ c ∈ num, decide (c ≠ ' ') = true := by
    intro c hc
    simp only [ne_eq, decide_not, Bool.not_eq_true', decide_eq_false_iff_not]
    rintro rfl
    exact h hc
  constructor
  · rw [List.takeWhile_append_of_pos hall]; simp
  · rw [List.dropWhile_append_of_pos hall]; simp

variable {ds : Decls} {F : Section → List Fml} {hn : (tableOf ds).names.Nodup} {cap : Nat} {order : List Char → Bool}

theorem CostInv.insert {costs : List (D × B)} {entries : List (D × Fml)} (h : CostInv ds F hn costs entries) (v : D) {f : B} {φ : Fml}
    (hd : ∀ x ∈ φ.vars, Declared (tableOf ds) [.preInput, .preOutput, .postInput, .postOutput] x)
    (he : ∀ a, φ.eval (nameVal (tableOf ds) a) [] = some (L.eval f a)) :
    CostInv ds F hn (costInsert (bddMgr B (tableOf ds).types) costs v f) (entries ++ [(v, φ)]) := by
  obtain ⟨l, rfl, hl⟩ := h.sem
  have hf : f = (tableLayout ds hn).enc B fun s t => (specOf ds F).holds s t φ := by
    refine (tableLayout ds hn).eq_enc B fun a => ?_
    have e := eval_slots F hn hd a (curPos ((tableLayout ds hn).get a)) (nxtPos ((tableLayout ds hn).get a)) fun z _ => congrFun (slots_pos _) z
    rw [he a] at e
    exact ⟨fun h => e.symm.trans (congrArg some h), fun h => Option.some.inj (e.trans h)⟩
  rw [hf]
  refine ⟨⟨_, costInsert_hom ((tableLayout ds hn).hom B) v _ l, ?_⟩, fun u hu => ?_⟩
  swap
  · rcases costInsert_from _ _ _ _ u hu with h1 | ⟨u', h1, h2⟩
    · exact ⟨(v, φ), by simp, h1.symm⟩
    · obtain ⟨e, h3, h4⟩ := h.keys u' h1
      exact ⟨e, List.mem_append_left _ h3, h4.trans h2⟩
  have := hl.insert v fun s t => (specOf ds F).holds s t φ
  refine ⟨this.sorted, fun w s t => (this.means w s t).trans ?_⟩
  constructor
  · rintro (⟨e, h1, h2⟩ | ⟨rfl, h2⟩)
    · exact ⟨e, List.mem_append_left _ h1, h2⟩
    · exact ⟨(w, φ), by simp, rfl, h2⟩
  · rintro ⟨e, h1, h2⟩
    rcases List.mem_append.mp h1 with h1 | h1
    · exact .inl ⟨e, h1, h2⟩
    · rw [List.mem_singleton.mp h1] at h2
      exact .inr ⟨h2.1.symm, h2.2⟩

theorem costLine_sound {costs costs' : List (D × B)} {entries : List (D × Fml)} (hi : CostInv ds F hn costs entries) {line : List Char}
    (h : costLine N (tableOf ds) cap order costs line = .ok costs') :
    ∃ o, CostLine N.read line o ∧ CostInv ds F hn costs' (entries ++ o.toList) := by
  cases line with
  | nil =>
    cases h
    exact ⟨none, .empty, by simpa using hi⟩
  | cons c cs =>
    rw [costLine] at h
    split at h
    · rename_i hc
      subst hc
      cases h
      exact ⟨none, .comment, by simpa using hi⟩
    · rename_i hc
      cases h1 : N.read ((c :: cs).takeWhile (· ≠ ' ')) with
      | none => rw [h1] at h; cases h
      | some r =>
        obtain ⟨v, rest⟩ := r
        rw [h1] at h
        simp only at h
        cases h2 : parseFormula (B := B) (tableOf ds) [.preInput, .preOutput, .postInput, .postOutput] cap order
            (if ' ' ∈ c :: cs then ((c :: cs).dropWhile (· ≠ ' ')).drop 1 else c :: cs) with
        | err e => rw [h2] at h; cases h
        | ub => rw [h2] at h; cases h
        | stuck => rw [h2] at h; cases h
        | ok o =>
          cases o with
          | none => rw [h2] at h; cases h
          | some f =>
            rw [h2] at h
            cases h
            obtain ⟨φ, h3, h4, h5⟩ := parseFormula_sound h2
            refine ⟨some (v, φ), ?_, hi.insert v h4 h5⟩
            by_cases hs : ' ' ∈ c :: cs
            · obtain ⟨e, hns⟩ := takeWhile_split hs
              rw [if_pos hs] at h3
              have := CostLine.cost hns (by rw [← e]; simpa using hc) h1 h3
              rwa [← e] at this
            · rw [if_neg hs] at h3
              rw [takeWhile_of_not_mem hs] at h1
              exact .both (by simp) hs (by simpa using hc) h1 h3

theorem costLines_sound : ∀ (lines : List (List Char)) {costs costs' : List (D × B)} {entries : List (D × Fml)}, CostInv ds F hn costs entries →
    costLines N (tableOf ds) cap order costs lines = .ok costs' →
    ∃ os, List.Forall₂ (CostLine N.read) lines os ∧ CostInv ds F hn costs' (entries ++ os.filterMap id)
  | [], _, _, _, hi, h => by
    cases h
    exact ⟨[], .nil, by simpa using hi⟩
  | l :: ls, costs, costs', entries, hi, h => by
    rw [costLines] at h
    cases h1 : costLine N (tableOf ds) cap order costs l with
    | err e => rw [h1] at h; cases h
    | ub => rw [h1] at h; cases h
    | stuck => rw [h1] at h; cases h
    | ok c1 =>
      rw [h1] at h
      obtain ⟨o, h2, h3⟩ := costLine_sound hi h1
      obtain ⟨os, h4, h5⟩ := costLines_sound ls h3 h
      refine ⟨o :: os, .cons h2 h4, ?_⟩
      cases o
      · simpa using h5
      · simpa using h5

theorem CostInv.nil : CostInv (D := D) (B := B) ds F hn [] [] :=
  ⟨⟨[], rfl, ⟨.nil, fun _ _ _ => ⟨fun ⟨_, h, _⟩ => (List.not_mem_nil h).elim, fun ⟨_, h, _⟩ => (List.not_mem_nil h).elim⟩⟩⟩, fun _ h => (List.not_mem_nil h).elim⟩

theorem readCosts_sound {text : List Char} {p : Preference D} {costs : List (D × B)} (h : readCosts N (tableOf ds) cap order text = .ok (p, costs)) :
    ∃ entries, CostText N.read text p.waiting p.action p.waitingPreferred entries ∧ CostInv ds F hn costs entries := by
  rw [readCosts] at h
  cases h1 : readPreference N ((splitLines text).headD []) with
  | none => rw [h1] at h; cases h
  | some q =>
    rw [h1] at h
    simp only at h
    cases h2 : costLines (B := B) N (tableOf ds) cap order [] (splitLines text).tail with
    | err e => rw [h2] at h; cases h
    | ub => rw [h2] at h; cases h
    | stuck => rw [h2] at h; cases h
    | ok c =>
      rw [h2] at h
      cases h
      obtain ⟨os, h3, h4⟩ := costLines_sound (F := F) (hn := hn) _ CostInv.nil h2
      exact ⟨os.filterMap id, ⟨readPreference_iff.mp h1, os, h3, rfl⟩, by simpa using h4⟩

/-! ### Proper cost files are accepted -/

theorem costLine_complete {sp : SpecFile} (hsp : sp = specOf ds F) {line : List Char} {o : Option (D × Fml)} (h : CostLine N.read line o)
    (hcap : line.length ≤ cap) (hw : ∀ e ∈ o, e.2.Wf 0 ∧ ∀ x ∈ e.2.vars, x ∈ sp.names) (costs : List (D × B)) :
    ∃ costs', costLine N (tableOf ds) cap order costs line = .ok costs' := by
  have hdecl : ∀ x ∈ sp.names, Declared (tableOf ds) [.preInput, .preOutput, .postInput, .postOutput] x := by
    intro x hx
    rw [hsp] at hx
    have := (names_perm ds F).mem_iff.mp hx
    refine ⟨List.idxOf_lt_length_of_mem this, ?_⟩
    have hlt : (tableOf ds).names.idxOf x < (tableOf ds).types.length := by
      have := List.idxOf_lt_length_of_mem this
      simpa [tableOf] using this
    refine ⟨_, List.getElem?_eq_getElem hlt, ?_⟩
    have hm : (tableOf ds).types[(tableOf ds).names.idxOf x] ∈ (entriesOf ds).map Prod.snd := List.getElem_mem hlt
    obtain ⟨e, he, he'⟩ := List.mem_map.mp hm
    rw [← he']
    obtain ⟨d, _, hd⟩ := List.mem_flatMap.mp he
    simp only [declPair] at hd
    split at hd <;> simp at hd <;> rcases hd with rfl | rfl <;> simp
  cases h with
  | empty => exact ⟨_, rfl⟩
  | comment => exact ⟨costs, by rw [costLine, if_pos rfl]⟩
  | @cost num fml v rest φ h1 h2 h3 h4 =>
    obtain ⟨hwf, hvars⟩ := hw _ rfl
    have hlen : fml.length ≤ cap := by
      simp only [List.length_append, List.length_cons] at hcap
      omega
    obtain ⟨b, hb⟩ := parseFormula_complete (B := B) (order := order) h4 hwf (fun x hx => hdecl x (hvars x hx)) hlen
    obtain ⟨e1, e2⟩ := takeWhile_append_space (fml := fml) h1
    generalize hl : num ++ ' ' :: fml = line at *
    cases line with
    | nil => simp at hl
    | cons c cs =>
      have hc : c ≠ '#' := by simpa using h2
      have hs : ' ' ∈ c :: cs := by rw [← hl]; simp
      refine ⟨costInsert (bddMgr B (tableOf ds).types) costs v b, ?_⟩
      rw [costLine, if_neg hc, e1, h3]
      simp only
      rw [if_pos hs, e2, hb]
  | @both line v rest φ h0 h1 h2 h3 h4 =>
    obtain ⟨hwf, hvars⟩ := hw _ rfl
    obtain ⟨b, hb⟩ := parseFormula_complete (B := B) (order := order) h4 hwf (fun x hx => hdecl x (hvars x hx)) hcap
    cases line with
    | nil => exact absurd rfl h0
    | cons c cs =>
      have hc : c ≠ '#' := by simpa using h2
      refine ⟨costInsert (bddMgr B (tableOf ds).types) costs v b, ?_⟩
      rw [costLine, if_neg hc, takeWhile_of_not_mem h1, h3]
      simp only
      rw [if_neg h1, hb]

theorem readCosts_complete {sp : SpecFile} (hsp : sp = specOf ds F) {text : List Char} {w a : D} {pr : Bool} {entries : List (D × Fml)}
    (h : CostText N.read text w a pr entries) (hcap : ∀ l ∈ (splitLines text).tail, l.length ≤ cap)
    (hw : ∀ e ∈ entries, e.2.Wf 0 ∧ ∀ x ∈ e.2.vars, x ∈ sp.names) :
    ∃ costs : List (D × B), readCosts N (tableOf ds) cap order text = .ok ({ waiting := w, action := a, waitingPreferred := pr }, costs) := by
  obtain ⟨h1, os, h2, rfl⟩ := h
  have h3 := (readPreference_iff (p := { waiting := w, action := a, waitingPreferred := pr })).mpr h1
  rw [readCosts, h3]
  simp only
  have key : ∀ (ls : List (List Char)) (os : List (Option (D × Fml))), List.Forall₂ (CostLine N.read) ls os → (∀ l ∈ ls, l.length ≤ cap) →
      (∀ e ∈ os.filterMap id, e.2.Wf 0 ∧ ∀ x ∈ e.2.vars, x ∈ sp.names) → ∀ costs : List (D × B), ∃ costs', costLines N (tableOf ds) cap order costs ls = .ok costs' := by
    intro ls os hf
    induction hf with
    | nil => exact fun _ _ costs => ⟨costs, rfl⟩
    | @cons l o ls os h1 _ ih =>
      intro hc hw costs
      obtain ⟨c1, hc1⟩ := costLine_complete (B := B) (order := order) hsp h1 (hc l (by simp))
        (fun e he => hw e (by rw [Option.mem_def.mp he]; simp)) costs
      obtain ⟨c2, hc2⟩ := ih (fun l hl => hc l (List.mem_cons_of_mem _ hl))
        (fun e he => hw e (by obtain ⟨o', h3, h4⟩ := List.mem_filterMap.mp he; exact List.mem_filterMap.mpr ⟨o', List.mem_cons_of_mem _ h3, h4⟩)) c1
      exact ⟨c2, by rw [costLines, hc1]; exact hc2⟩
  obtain ⟨c, hc⟩ := key _ _ h2 hcap hw ([] : List (D × B))
  exact ⟨c, by rw [hc]⟩

/-- A text denotes one list of costs only. -/
theorem CostLine.det {read : List Char → Option (D × List Char)} {line : List Char} {o o' : Option (D × Fml)} (h : CostLine read line o) (h' : CostLine read line o') :
    o = o' := by
  generalize hl : line = line' at h'
  cases h with
  | empty =>
    subst hl
    generalize hl : ([] : List Char) = line' at h'
    cases h' with
    | empty => rfl
    | comment => cases hl
    | cost => simp at hl
    | both h0 => exact absurd hl.symm h0
  | comment =>
    cases h' with
    | empty => cases hl
    | comment => rfl
    | cost _ h2 => rw [← hl] at h2; simp at h2
    | both _ _ h2 => rw [← hl] at h2; simp at h2
  | cost h1 h2 h3 h4 =>
    cases h' with
    | empty => simp at hl
    | comment => rw [hl] at h2; simp at h2
    | cost h1' h2' h3' h4' =>
      obtain ⟨e1, e2⟩ := takeWhile_append_space h1
      obtain ⟨e1', e2'⟩ := takeWhile_append_space h1'
      rw [hl, e1'] at e1
      rw [hl, e2'] at e2
      subst e1
      subst e2
      rw [h3] at h3'
      cases h3'
      rw [ReadsLine.det h4 h4']
    | both _ hs => rw [← hl] at hs; simp at hs
  | both h0 h1 h2 h3 h4 =>
    subst hl
    cases h' with
    | empty => exact absurd rfl h0
    | comment => simp at h2
    | cost => simp at h1
    | both _ _ _ h3' h4' =>
      rw [h3] at h3'
      cases h3'
      rw [ReadsLine.det h4 h4']

theorem CostText.det {read : List Char → Option (D × List Char)} {text : List Char} {w a w' a' : D} {pr pr' : Bool} {es es' : List (D × Fml)}
    (h : CostText read text w a pr es) (h' : CostText read text w' a' pr' es') : w = w' ∧ a = a' ∧ pr = pr' ∧ es = es' := by
  obtain ⟨h1, os, h2, rfl⟩ := h
  obtain ⟨h1', os', h2', rfl⟩ := h'
  have e : os = os' := by
    have key : ∀ {ls : List (List Char)} {os os' : List (Option (D × Fml))}, List.Forall₂ (CostLine read) ls os → List.Forall₂ (CostLine read) ls os' → os = os' := by
      intro ls os os' h
      induction h generalizing os' with
      | nil => intro h; cases h; rfl
      | cons h1 _ ih =>
        intro h
        cases h with
        | cons h2 h3 => rw [CostLine.det h1 h2, ih h3]
    exact key h2 h2'
  subst e
  cases h1 with
  | mk a1 a2 a3 a4 =>
    generalize hx : (splitLines text).headD [] = x at *
    cases h1' with
    | mk b1 b2 b3 b4 =>
      rw [a1] at b1; cases b1
      rw [a2] at b2; cases b2
      rw [a3] at b3; cases b3
      exact ⟨rfl, rfl, rfl, rfl⟩

end Text

/-- Reading a cost file does not report costs that overlap. -/
theorem readCosts_not_overlap {B : Type} [DecidableEq B] [BddLib B] {N : Doubles D} {tab : VarTable} {cap : Nat} {order : List Char → Bool} {text : List Char} {e : CostErr}
    (h : readCosts (B := B) N tab cap order text = .err e) : e ≠ .overlap := by
  have key : ∀ (ls : List (List Char)) (costs : List (D × B)) (e : CostErr), costLines N tab cap order costs ls = .err e → e ≠ .overlap := by
    intro ls
    induction ls with
    | nil => intro costs e h; cases h
    | cons l ls ih =>
      intro costs e h
      rw [costLines] at h
      cases h1 : costLine N tab cap order costs l with
      | ok c => rw [h1] at h; exact ih c e h
      | ub => rw [h1] at h; cases h
      | stuck => rw [h1] at h; cases h
      | err e' =>
        rw [h1] at h
        cases h
        unfold costLine at h1
        split at h1
        · cases h1
        · split at h1
          · cases h1
          · split at h1
            · cases h1; simp
            · split at h1 <;> cases h1
              simp
  rw [readCosts] at h
  split at h
  · cases h; simp
  · split at h
    · cases h
    · rename_i h1
      cases h
      exact key _ _ _ h1
    · cases h
    · cases h

end Slugs.Model
