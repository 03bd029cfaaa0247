import Verif.Lemmas.CounterLoop

/-! The main loop of the extraction of explicit counterstrategies. -/

namespace Slugs.Model

open Slugs.Spec

variable {I O : Type}

/-- The values printed for an input. -/
noncomputable def inputLabelAt (vs : CVars (T I O)) (i : I) : List (Name × Bool) :=
  vs.inputLabels.map fun v => (v.1, by classical exact decide (∃ s t, s.1 = i ∧ v.2 s t))

theorem inputLabelOf_eq (vs : CVars (T I O)) (i : I) :
    inputLabelOf (semMgr I O) vs (cbf (.input i)) = inputLabelAt vs i := by
  classical
  rw [inputLabelOf, inputLabelAt]
  refine List.map_congr_left fun v _ => ?_
  refine Prod.ext rfl ?_
  by_cases h : ∃ s t, s.1 = i ∧ v.2 s t
  · rw [if_neg (fun e => by
      obtain ⟨s, t, h1, h2⟩ := h
      have := congrFun (congrFun e s) t
      simp only [semMgr, cbf, pre, Set.mem_ofPred_eq, eq_iff_iff] at this
      exact this.mp ⟨h1, h2⟩)]
    simp only [h, decide_true]
  · rw [if_pos (by
      funext s t
      simp only [semMgr, cbf, pre, Set.mem_ofPred_eq, eq_iff_iff, iff_false]
      rintro ⟨h1, h2⟩
      exact h ⟨s, t, h1, h2⟩)]
    simp only [h, decide_false]

open Classical in
/-- What is printed for a key. -/
def CStateOK (g : Game I O) (vs : CVars (T I O)) (strategy : Nat → Nat → T I O) (ks : List (CKey I O)) :
    CKey I O → CState → Prop
  | (.pos s, r), st => st.num = ks.idxOf (.pos s, r) ∧ st.rank = r ∧ st.label = labelAt vs.toVars s ∧ ∃ i, g.safetyEnv s i ∧
      (((∀ o, ¬ g.safetySys s (i, o)) ∧ (CPlace.input i, r) ∈ ks ∧ st.succ = some [ks.idxOf (.input i, r)]) ∨
        ((∃ o, g.safetySys s (i, o)) ∧ (∀ o, strategy r.1 r.2 s (i, o)) ∧
          ∃ ts : List (Pos I O × Rk), st.succ = some (ts.map fun t => ks.idxOf (nk t)) ∧ (∀ t ∈ ts, nk t ∈ ks) ∧
            CSuccOK g s r i {t | t.1 = i} ts))
  | (.input i, r), st => st.num = ks.idxOf (.input i, r) ∧ st.rank = r ∧ st.label = inputLabelAt vs i ∧ st.succ = none

theorem CStateOK.append {g : Game I O} {vs : CVars (T I O)} {strategy : Nat → Nat → T I O} {ks : List (CKey I O)} {k : CKey I O}
    {st : CState} (hk : k ∈ ks) (h : CStateOK g vs strategy ks k st) (ks' : List (CKey I O)) :
    CStateOK g vs strategy (ks ++ ks') k st := by
  classical
  obtain ⟨s | i, r⟩ := k
  · obtain ⟨h1, h2, h3, i, h4, h5⟩ := h
    refine ⟨by rw [List.idxOf_append_of_mem hk]; exact h1, h2, h3, i, h4, ?_⟩
    rcases h5 with ⟨h5, h6, h7⟩ | ⟨h5, h6, ts, h7, h8, h9⟩
    · exact .inl ⟨h5, List.mem_append_left _ h6, by rw [List.idxOf_append_of_mem h6]; exact h7⟩
    · refine .inr ⟨h5, h6, ts, ?_, fun t ht => List.mem_append_left _ (h8 t ht), h9⟩
      rw [h7]
      congr 1
      refine List.map_congr_left fun t ht => ?_
      rw [List.idxOf_append_of_mem (h8 t ht)]
  · obtain ⟨h1, h2⟩ := h
    exact ⟨by rw [List.idxOf_append_of_mem hk]; exact h1, h2⟩

theorem length_le_of_nodupC [Finite I] [Finite O] {ks : List (Pos I O × Rk)} (h : ks.Nodup) {na ng : Nat}
    (hr : ∀ k ∈ ks, k.2.1 < na ∧ k.2.2 < ng) : ks.length ≤ Nat.card (Pos I O) * (na * ng) := by
  classical
  have : Fintype (Pos I O) := Fintype.ofFinite _
  have h1 : ks.toFinset ⊆ Finset.univ ×ˢ (Finset.range na ×ˢ Finset.range ng) := by
    intro k hk
    simp only [List.mem_toFinset] at hk
    simp [hr k hk]
  have h2 := Finset.card_le_card h1
  rw [List.toFinset_card_of_nodup h, Finset.card_product, Finset.card_product, Finset.card_range, Finset.card_range, Finset.card_univ] at h2
  rw [Nat.card_eq_fintype_card]
  exact h2

/-- The part of the tables and of the output that has been produced: `l` lists the printed states with their keys, `dn` the positions among them. -/
structure OutOK (g : Game I O) (vs : CVars (T I O)) (strategy : Nat → Nat → T I O) (ks : List (CKey I O)) (dn td : List (Pos I O × Rk))
    (l : List (CKey I O × CState)) : Prop where
  perm : (l.map Prod.fst ++ td.map nk).Perm ks
  nodup : (dn ++ td).Nodup
  pos : ∀ k, nk k ∈ ks ↔ k ∈ dn ++ td
  ok : ∀ e ∈ l, CStateOK g vs strategy ks e.1 e.2

theorem from1_dead (g : Game I O) (s : Pos I O) :
    (semMgr I O).allPostOutput ((semMgr I O).and ((semMgr I O).and (pre {s}) (gameCtx g).safetyEnv) ((semMgr I O).not (gameCtx g).safetySys)) =
      from1 s {t | g.safetyEnv s t.1 ∧ ∀ o, ¬ g.safetySys s (t.1, o)} := by
  funext s' t'
  simp only [semMgr, pre, from1, gameCtx, Set.mem_singleton_iff, Set.mem_ofPred_eq, eq_iff_iff]
  constructor
  · intro h
    obtain rfl := (h t'.2).1.1
    exact ⟨rfl, (h t'.2).1.2, fun o => (h o).2⟩
  · rintro ⟨rfl, h1, h2⟩ o
    exact ⟨⟨rfl, h1⟩, h2 o⟩

theorem from1_eq_ff {s : Pos I O} {Q : Set (Pos I O)} : from1 s Q = (semMgr I O).ff ↔ Q = ∅ := by
  constructor
  · intro h
    ext t
    have := congrFun (congrFun h s) t
    simpa [from1, semMgr] using this
  · rintro rfl
    funext s t
    simp [from1, semMgr]

open Classical in
theorem extractLoopC_spec [Finite I] [Finite O] [Nontrivial O] (g : Game I O) {vs : CVars (T I O)} (hv : CVarsOK vs)
    (strategy : Nat → Nat → T I O) (hind : ∀ a b s i o o', strategy a b s (i, o) → strategy a b s (i, o'))
    (P : Pos I O × Rk → Prop)
    (hP : ∀ k, P k → k.2.1 < g.assumptions.length ∧ k.2.2 < g.guarantees.length)
    (hPe : ∀ k, P k → ∃ t, strategy k.2.1 k.2.2 k.1 t)
    (hPa : ∀ k, P k → ∀ t, strategy k.2.1 k.2.2 k.1 t → g.safetyEnv k.1 t.1)
    (hPs : ∀ k, P k → ∀ t, strategy k.2.1 k.2.2 k.1 t → g.safetySys k.1 t → ∀ r : Rk, GoalStep (assGame g) k.1 t k.2.1 r.1 →
      GoalStep g k.1 t k.2.2 r.2 → r.1 < g.assumptions.length → r.2 < g.guarantees.length → P (t, r))
    (fuel : Nat) (hfuel : Nat.card (Pos I O) < fuel) :
    ∀ (n : Nat) (ks : List (CKey I O)) (dn td : List (Pos I O × Rk)) (w : Work (T I O) Rk) (l : List (CKey I O × CState)),
      Nat.card (Pos I O) * (g.assumptions.length * g.guarantees.length) - dn.length < n →
      CWorkInv ks td w → OutOK g vs strategy ks dn td l → (∀ k ∈ dn ++ td, P k) →
      ∃ (ks' : List (CKey I O)) (dn' : List (Pos I O × Rk)) (l' : List (CKey I O × CState)),
        extractLoopC (semMgr I O) (gameCtx g) vs strategy fuel n w (l.map Prod.snd) = some (l'.map Prod.snd) ∧
        (ks ++ ks').Nodup ∧ OutOK g vs strategy (ks ++ ks') dn' [] l' ∧ ∀ k ∈ dn', P k := by
  intro n
  induction n with
  | zero => intro ks dn td w l h; omega
  | succ n ih =>
    intro ks dn td w l hn hw ho hPk
    rw [extractLoopC, hw.todo]
    cases td with
    | nil =>
      exact ⟨[], dn, l, rfl, by simpa using hw.nodup, by simpa using ho, by simpa using hPk⟩
    | cons k td =>
      have hlen : (dn ++ k :: td).length ≤ Nat.card (Pos I O) * (g.assumptions.length * g.guarantees.length) :=
        length_le_of_nodupC ho.nodup fun k' hk' => hP k' (hPk k' hk')
      rw [List.map_cons]
      dsimp only
      have hmem : nk k ∈ ks := (ho.pos k).mpr (by simp)
      have hPkk := hPk k (by simp)
      have hw' : CWorkInv ks td { w with todo := td.map fun k => ckey (nk k) } := ⟨hw.nodup, hw.find, hw.bfs, rfl⟩
      rw [hw'.num hmem]
      have hidx : ks.idxOf (nk k) < ks.length := List.idxOf_lt_length_of_mem hmem
      have hget : w.bfs[ks.idxOf (nk k)]? = some (pre {k.1}) := by
        rw [hw.bfs, List.getElem?_map, List.getElem?_eq_getElem hidx, List.getElem_idxOf]; rfl
      rw [hget]
      dsimp only
      rw [from1_dead, show (ckey (nk k)).2 = k.2 from rfl, labelOf_eq hv.base]
      have hdn : (dn ++ [k] ++ td).Nodup := by simpa using ho.nodup
      have hperm : (l.map Prod.fst ++ [nk k] ++ td.map nk).Perm ks := by simpa using ho.perm
      -- the keys of printed states are in the table
      have hlk : ∀ e ∈ l, e.1 ∈ ks := fun e he => ho.perm.subset (List.mem_append_left _ (List.mem_map.mpr ⟨e, he, rfl⟩))
      by_cases hD : {t : Pos I O | g.safetyEnv k.1 t.1 ∧ ∀ o, ¬ g.safetySys k.1 (t.1, o)} = ∅
      · rw [if_neg (by simpa using from1_eq_ff.mpr hD)]
        have hD' : ∀ i, g.safetyEnv k.1 i → ∃ o, g.safetySys k.1 (i, o) := by
          intro i hi
          by_contra hno
          have : (i, k.1.2) ∈ {t : Pos I O | g.safetyEnv k.1 t.1 ∧ ∀ o, ¬ g.safetySys k.1 (t.1, o)} :=
            ⟨hi, fun o ho => hno ⟨o, ho⟩⟩
          rw [hD] at this
          exact Set.notMem_empty _ this
        have efrom : (semMgr I O).and (pre {k.1}) (strategy k.2.1 k.2.2) = from1 k.1 {t | t.1 ∈ {i | ∃ o, strategy k.2.1 k.2.2 k.1 (i, o)}} := by
          funext s' t'
          simp only [semMgr, pre, from1, Set.mem_singleton_iff, Set.mem_ofPred_eq, eq_iff_iff]
          constructor
          · rintro ⟨rfl, h⟩; exact ⟨rfl, t'.2, h⟩
          · rintro ⟨rfl, o, h⟩; exact ⟨rfl, hind _ _ _ _ o t'.2 h⟩
        obtain ⟨t0, ht0⟩ := hPe k hPkk
        obtain ⟨i, ⟨o1, hio⟩, hdet⟩ := det_in hv k.1 (J := {i | ∃ o, strategy k.2.1 k.2.2 k.1 (i, o)}) ⟨t0.1, t0.2, ht0⟩ k.1.2
        rw [efrom, hdet]
        obtain ⟨new, ts, w1, h1, h2, h3, h4, h5⟩ := succLoopC_spec g hv (hP k hPkk).1 (hP k hPkk).2 k.1 i fuel {t | t.1 = i} ks td _ []
          (lt_of_le_of_lt (Set.ncard_le_card _) hfuel) (fun t ht => ht) hw'
        rw [h1]
        dsimp only
        have hmem' : nk k ∈ ks ++ new.map nk := List.mem_append_left _ hmem
        have hnew : ∀ k' ∈ new, k' ∉ dn ++ k :: td := fun k' hk' h => by
          have h6 := (ho.pos k').mpr h
          exact (List.nodup_append.mp h2.nodup).2.2 _ h6 _ (List.mem_map.mpr ⟨k', hk', rfl⟩) rfl
        obtain ⟨ks', dn', l', h6, h7, h8, h9⟩ := ih (ks ++ new.map nk) (dn ++ [k]) (td ++ new) w1
          (l ++ [(nk k, { num := (ks ++ new.map nk).idxOf (nk k), rank := k.2, label := labelAt vs.toVars k.1,
                          succ := some ([] ++ ts.map fun t => (ks ++ new.map nk).idxOf (nk t)) })])
          (by simp only [List.length_append, List.length_cons, List.length_nil] at hlen ⊢; omega)
          h2
          { perm := by
              simp only [List.map_append, List.map_cons, List.map_nil, ← List.append_assoc]
              exact hperm.append_right _
            nodup := by
              rw [← List.append_assoc]
              refine List.nodup_append.mpr ⟨hdn, List.Nodup.of_map nk (List.nodup_append.mp h2.nodup).2.1, ?_⟩
              rintro a ha b hb rfl
              exact hnew a hb (by simpa using ha)
            pos := by
              intro k'
              rw [List.mem_append, ho.pos, List.mem_map]
              constructor
              · rintro (h | ⟨k'', hk'', e⟩)
                · simp only [List.mem_append, List.mem_cons] at h ⊢; tauto
                · rw [← nk_inj e]; simp [hk'']
              · intro h
                by_cases hk' : k' ∈ new
                · exact .inr ⟨k', hk', rfl⟩
                · left; simp only [List.mem_append, List.mem_cons, List.not_mem_nil, or_false, hk'] at h ⊢; tauto
            ok := by
              intro e he
              rcases List.mem_append.mp he with he | he
              · exact (ho.ok e he).append (hlk e he) _
              · simp only [List.mem_singleton] at he
                subst he
                refine ⟨rfl, rfl, rfl, i, hPa k hPkk _ hio, .inr ⟨hD' i (hPa k hPkk _ hio), fun o => hind _ _ _ _ _ _ hio, ts, by simp, h4, h5⟩⟩ }
          (by
            intro k' hk'
            rw [List.append_assoc, ← List.append_assoc [k]] at hk'
            rcases List.mem_append.mp hk' with hk' | hk'
            · exact hPk k' (List.mem_append_left _ hk')
            · rcases List.mem_append.mp hk' with hk' | hk'
              · exact hPk k' (List.mem_append_right _ hk')
              · have ht := h3 k' hk'
                have hin := h5.input k' ht
                exact hPs k hPkk k'.1 (by
                  have := hind _ _ _ _ _ k'.1.2 hio
                  rw [← hin] at this
                  exact this) (h5.sys k' ht) k'.2 (h5.stepA k' ht) (h5.stepG k' ht) (h5.rankA k' ht) (h5.rankG k' ht))
        refine ⟨new.map nk ++ ks', dn', l', ?_, by rw [← List.append_assoc]; exact h7, by rw [← List.append_assoc]; exact h8, h9⟩
        rw [← h6, List.map_append, List.idxOf_append_of_mem hmem]
        rfl
      · rw [if_pos (by simpa using fun h => hD (from1_eq_ff.mp h))]
        obtain ⟨t, ht, hdet⟩ := det_post hv.base k.1 (Set.nonempty_iff_ne_empty.mpr hD)
        have etarget : ((semMgr I O).swap ((semMgr I O).exPre ((semMgr I O).exPostOutput (from1 k.1 {t}))), k.2) =
            ckey (.input t.1, k.2) := by
          refine Prod.ext ?_ rfl
          funext s' t'
          simp only [semMgr, from1, ckey, cbf, pre, Set.mem_singleton_iff, Set.mem_ofPred_eq, eq_iff_iff]
          constructor
          · rintro ⟨s'', o, _, h⟩; rw [← h]
          · intro h; exact ⟨_, t.2, rfl, by rw [h]⟩
        have hbf : ∀ i : I, (ckey ((.input i, k.2) : CKey I O)).1 = cbf (.input i) := fun _ => rfl
        rw [addDeadlocked, hdet]
        dsimp only
        rw [etarget, show (semMgr I O).swap ((semMgr I O).exPre ((semMgr I O).exPostOutput (from1 k.1 {t}))) = cbf (.input t.1) from
          congrArg Prod.fst etarget, inputLabelOf_eq]
        have hstep : ∀ (new : List (CKey I O)) (w1 : Work (T I O) Rk) (l1 : List (CKey I O × CState)), CWorkInv (ks ++ new) td w1 →
            (.input t.1, k.2) ∈ ks ++ new → l1.map Prod.fst = new → (∀ e ∈ new, e = (.input t.1, k.2)) →
            (∀ e ∈ l1, CStateOK g vs strategy (ks ++ new) e.1 e.2) →
            ∃ (ks' : List (CKey I O)) (dn' : List (Pos I O × Rk)) (l' : List (CKey I O × CState)),
              extractLoopC (semMgr I O) (gameCtx g) vs strategy fuel n w1
                (l.map Prod.snd ++ [{ num := ks.idxOf (nk k), rank := k.2, label := labelAt vs.toVars k.1, succ := some [(ks ++ new).idxOf (.input t.1, k.2)] }] ++ l1.map Prod.snd) = some (l'.map Prod.snd) ∧
              (ks ++ ks').Nodup ∧ OutOK g vs strategy (ks ++ ks') dn' [] l' ∧ ∀ k ∈ dn', P k := by
          intro new w1 l1 hw1 hin hl1 hnew hok
          obtain ⟨ks', dn', l', h6, h7, h8, h9⟩ := ih (ks ++ new) (dn ++ [k]) td w1
            (l ++ [(nk k, { num := ks.idxOf (nk k), rank := k.2, label := labelAt vs.toVars k.1, succ := some [(ks ++ new).idxOf (.input t.1, k.2)] })] ++ l1)
            (by simp only [List.length_append, List.length_cons, List.length_nil] at hlen ⊢; omega)
            hw1
            { perm := by
                simp only [List.map_append, List.map_cons, List.map_nil, hl1]
                refine List.Perm.trans ?_ (hperm.append_right new)
                simp only [List.append_assoc]
                exact (List.perm_append_comm).append_left _ |>.append_left _
              nodup := hdn
              pos := by
                intro k'
                rw [List.mem_append, ho.pos]
                constructor
                · rintro (h | h)
                  · simpa using h
                  · cases hnew _ h
                · intro h; left; simpa using h
              ok := by
                intro e he
                rcases List.mem_append.mp he with he | he
                · rcases List.mem_append.mp he with he | he
                  · exact (ho.ok e he).append (hlk e he) _
                  · simp only [List.mem_singleton] at he
                    subst he
                    refine ⟨?_, rfl, rfl, t.1, ht.1, .inl ⟨ht.2, hin, rfl⟩⟩
                    exact (List.idxOf_append_of_mem hmem).symm
                · exact hok e he }
            (by intro k' hk'; exact hPk k' (by simpa using hk'))
          refine ⟨new ++ ks', dn', l', ?_, by rw [← List.append_assoc]; exact h7, by rw [← List.append_assoc]; exact h8, h9⟩
          rw [← h6, List.map_append, List.map_append]
          rfl
        rw [hw'.find]
        by_cases hin : (CPlace.input t.1, k.2) ∈ ks
        · rw [if_pos hin, if_neg (by simp)]
          have := hstep [] _ [] (by simpa using hw') (by simpa using hin) rfl (by simp) (by simp)
          simp only [List.map_nil, List.append_nil] at this
          dsimp only
          rw [hw'.num hin, List.append_nil]
          exact this
        · rw [if_neg hin, if_pos rfl]
          have hw1 := hw'.enterDead hin
          have hin1 : (CPlace.input t.1, k.2) ∈ ks ++ [(CPlace.input t.1, k.2)] := by simp
          have := hstep [(.input t.1, k.2)] _ [((.input t.1, k.2), { num := (ks ++ [(CPlace.input t.1, k.2)]).idxOf (CPlace.input t.1, k.2), rank := k.2, label := inputLabelAt vs t.1, succ := none })] hw1 hin1 rfl (by simp) (by
              intro e he
              simp only [List.mem_singleton] at he
              subst he
              exact ⟨rfl, rfl, rfl, rfl⟩)
          dsimp only
          rw [hw1.num hin1]
          exact this

end Slugs.Model
