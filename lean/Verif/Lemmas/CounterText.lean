import Verif.Lemmas.CounterSpec
import Verif.Lemmas.CounterHom
import Verif.Lemmas.ExplicitSpec

/-! What the extraction of explicit counterstrategies yields, in terms of the file. -/

namespace Slugs.Model

open Slugs.Spec

/-! ### The variables of a table -/

def semCVars (ds : Decls) : CVars (T ({x // x ∈ inputsOf ds} → Bool) ({x // x ∈ outputsOf ds} → Bool)) where
  toVars := semVars ds
  postInputVars := (varsOfType (tableOf ds).types .postInput).map (codeVar ds)
  postOutputVars := (varsOfType (tableOf ds).types .postOutput).map (codeVar ds)
  inputLabels := (varsOfType (tableOf ds).types .preInput).map fun k => ((tableOf ds).names.getD k [], codeVar ds k)

theorem mem_postInput {ds : Decls} (hn : (tableOf ds).names.Nodup) {k : Nat} :
    k ∈ varsOfType (tableOf ds).types .postInput ↔ ∃ x, slotCode (.ni x : DSlot ds) = k := by
  rw [mem_varsOfType hn]
  constructor
  · rintro ⟨z | z | z | z, h, h'⟩
    · exact absurd h' (by simp only [slotEntry]; decide)
    · exact absurd h' (by simp only [slotEntry]; decide)
    · exact ⟨z, h⟩
    · exact absurd h' (by simp only [slotEntry]; decide)
  · rintro ⟨x, h⟩
    exact ⟨_, h, by simp only [slotEntry]; decide⟩

theorem mem_postOutput {ds : Decls} (hn : (tableOf ds).names.Nodup) {k : Nat} :
    k ∈ varsOfType (tableOf ds).types .postOutput ↔ ∃ x, slotCode (.no x : DSlot ds) = k := by
  rw [mem_varsOfType hn]
  constructor
  · rintro ⟨z | z | z | z, h, h'⟩
    · exact absurd h' (by simp only [slotEntry]; decide)
    · exact absurd h' (by simp only [slotEntry]; decide)
    · exact absurd h' (by simp only [slotEntry]; decide)
    · exact ⟨z, h⟩
  · rintro ⟨x, h⟩
    exact ⟨_, h, by simp only [slotEntry]; decide⟩

theorem mem_preInput {ds : Decls} (hn : (tableOf ds).names.Nodup) {k : Nat} :
    k ∈ varsOfType (tableOf ds).types .preInput ↔ ∃ x, slotCode (.ci x : DSlot ds) = k := by
  rw [mem_varsOfType hn]
  constructor
  · rintro ⟨z | z | z | z, h, h'⟩
    · exact ⟨z, h⟩
    · exact absurd h' (by simp only [slotEntry]; decide)
    · exact absurd h' (by simp only [slotEntry]; decide)
    · exact absurd h' (by simp only [slotEntry]; decide)
  · rintro ⟨x, h⟩
    exact ⟨_, h, by simp only [slotEntry]; decide⟩

theorem semCVars_ok {ds : Decls} (hn : (tableOf ds).names.Nodup) : CVarsOK (semCVars ds) where
  base := semVars_ok hn
  in_indep := by
    intro v hv s t t' h
    obtain ⟨k, hk, rfl⟩ := List.mem_map.mp hv
    obtain ⟨x, rfl⟩ := (mem_postInput hn).mp hk
    rw [codeVar_slot hn, codeVar_slot hn]
    exact iff_of_eq (congrArg (· = true) (congrFun h x))
  in_sep := by
    intro s t t' h
    funext x
    have := h (codeVar ds (slotCode (.ni x))) (List.mem_map.mpr ⟨_, (mem_postInput hn).mpr ⟨x, rfl⟩, rfl⟩)
    rw [codeVar_slot hn, codeVar_slot hn] at this
    exact Bool.eq_iff_iff.mpr this
  out_sep := by
    intro s t t' h1 h
    refine Prod.ext h1 ?_
    funext x
    have := h (codeVar ds (slotCode (.no x))) (List.mem_map.mpr ⟨_, (mem_postOutput hn).mpr ⟨x, rfl⟩, rfl⟩)
    rw [codeVar_slot hn, codeVar_slot hn] at this
    exact Bool.eq_iff_iff.mpr this
  label_in := by
    intro v hv s s' t t' h
    obtain ⟨k, hk, rfl⟩ := List.mem_map.mp hv
    obtain ⟨x, rfl⟩ := (mem_preInput hn).mp hk
    change codeVar ds _ s t ↔ codeVar ds _ s' t'
    rw [codeVar_slot hn, codeVar_slot hn]
    exact iff_of_eq (congrArg (· = true) (congrFun h x))

theorem tableCVars_eq (B : Type) [DecidableEq B] [L : BddLib B] {ds : Decls} (hn : (tableOf ds).names.Nodup) :
    tableCVars B (tableOf ds) = (semCVars ds).map ((tableLayout ds hn).enc B) := by
  have hz : ∀ z : DSlot ds, L.var (slotCode z) = (tableLayout ds hn).enc B (codeVar ds (slotCode z)) := by
    intro z
    refine (tableLayout ds hn).eq_enc B fun a => ?_
    rw [codeVar_slot hn, L.eval_var, congrFun (slots_pos _) z]
    rfl
  simp only [tableCVars, semCVars, CVars.map, List.map_map, CVars.mk.injEq]
  refine ⟨tableVars_eq B hn, List.map_congr_left fun k hk => ?_, List.map_congr_left fun k hk => ?_, List.map_congr_left fun k hk => ?_⟩
  · obtain ⟨x, rfl⟩ := (mem_postInput hn).mp hk; exact hz _
  · obtain ⟨x, rfl⟩ := (mem_postOutput hn).mp hk; exact hz _
  · obtain ⟨x, rfl⟩ := (mem_preInput hn).mp hk; exact Prod.ext rfl (hz _)

/-! ### Labels -/

theorem inputLabel_names {ds : Decls} (F : Section → List Fml) (hn : (tableOf ds).names.Nodup) (i : {x // x ∈ inputsOf ds} → Bool) :
    ((inputLabelAt (semCVars ds) i).map Prod.fst).Perm (specOf ds F).inputs := by
  have e : (inputLabelAt (semCVars ds) i).map Prod.fst =
      (varsOfType (tableOf ds).types .preInput).map fun k => (tableOf ds).names.getD k [] := by
    simp [inputLabelAt, semCVars, Function.comp_def]
  rw [e]
  have hall : (specOf ds F).names.Nodup := (names_perm ds F).nodup_iff.mpr hn
  have h2 : (specOf ds F).inputs.Nodup := by
    rw [SpecFile.names, List.append_assoc, List.append_assoc] at hall
    exact (List.nodup_append.mp hall).1
  have h1 : ((varsOfType (tableOf ds).types .preInput).map fun k => (tableOf ds).names.getD k []).Nodup := by
    refine List.Nodup.map_on ?_ (List.Nodup.filter _ List.nodup_range)
    intro k hk k' hk' he
    obtain ⟨x, rfl⟩ := (mem_preInput hn).mp hk
    obtain ⟨x', rfl⟩ := (mem_preInput hn).mp hk'
    rw [getD_slot hn, getD_slot hn] at he
    rw [slotName_inj hn he]
  rw [List.perm_ext_iff_of_nodup h1 h2]
  intro x
  simp only [List.mem_map]
  constructor
  · rintro ⟨k, hk, rfl⟩
    obtain ⟨y, rfl⟩ := (mem_preInput hn).mp hk
    rw [getD_slot hn]
    exact y.2
  · intro hx
    exact ⟨_, (mem_preInput hn).mpr ⟨⟨x, hx⟩, rfl⟩, getD_slot hn _⟩

theorem inputLabel_pos {ds : Decls} (F : Section → List Fml) (hn : (tableOf ds).names.Nodup) {st : CState}
    {i : {x // x ∈ inputsOf ds} → Bool} (h : st.label = inputLabelAt (semCVars ds) i) : (st.pos (specOf ds F)).1 = i := by
  classical
  have hall : (specOf ds F).names.Nodup := (names_perm ds F).nodup_iff.mpr hn
  have h2 : (specOf ds F).inputs.Nodup := by
    rw [SpecFile.names, List.append_assoc, List.append_assoc] at hall
    exact (List.nodup_append.mp hall).1
  have h1 := (inputLabel_names F hn i).nodup_iff.mpr h2
  funext x
  have hm : (x.1, i x) ∈ inputLabelAt (semCVars ds) i := by
    simp only [inputLabelAt, semCVars, List.map_map, List.mem_map]
    refine ⟨slotCode (.ci x : DSlot ds), (mem_preInput hn).mpr ⟨x, rfl⟩, ?_⟩
    refine Prod.ext (getD_slot hn (.ci x : DSlot ds)) ?_
    rw [Bool.eq_iff_iff]
    refine (@decide_eq_true_iff _ (Classical.propDecidable _)).trans ⟨?_, fun hx => ?_⟩
    · rintro ⟨s, t, rfl, hst⟩
      exact (codeVar_slot hn _ s t).mp hst
    · exact ⟨(i, fun _ => false), (i, fun _ => false), rfl, (codeVar_slot hn _ _ _).mpr hx⟩
  change (st.label.lookup x.1 == some true) = i x
  rw [h, lookup_of_mem h1 hm]
  cases i x <;> rfl

theorem clabel_pos {ds : Decls} (F : Section → List Fml) (hn : (tableOf ds).names.Nodup) {st : CState}
    {s : Pos ({x // x ∈ inputsOf ds} → Bool) ({x // x ∈ outputsOf ds} → Bool)} (h : st.label = labelAt (semVars ds) s) :
    st.pos (specOf ds F) = s :=
  label_pos F hn (st := { num := 0, rank := 0, label := st.label, succ := [] }) h

/-! ### The printed counterstrategy -/

/-- What is known about the printed states. -/
structure CPrinted (sp : SpecFile) (sts : List CState) : Prop where
  wf : CWellFormed sp sts
  win : ∀ st ∈ sts, st.succ ≠ none → ¬ sp.game.SysWins (st.pos sp)
  start : ∀ s, ¬ sp.game.SysWins s → sp.game.initEnv s.1 → sp.game.initSys s → ∃ st ∈ sts, st.succ ≠ none ∧ st.pos sp = s
  stuck : NeverStuck sp sts
  live : sp.game.guarantees.length ≤ 1 → LosingRuns sp sts

theorem cprinted_of_extracted {ds : Decls} (F : Section → List Fml) (hn : (tableOf ds).names.Nodup)
    {rounds : List (CDump (T (specOf ds F).In (specOf ds F).Out))} {ks : List (CKey (specOf ds F).In (specOf ds F).Out)}
    {dn : List (Pos (specOf ds F).In (specOf ds F).Out × Rk)} {l : List (CKey (specOf ds F).In (specOf ds F).Out × CState)}
    (hr : Rounds (padGame (specOf ds F).game) rounds)
    (hZ : ∀ s, s ∈ nuZ (padGame (specOf ds F).game) ↔ (specOf ds F).game.SysWins s)
    (h : CExtracted (padGame (specOf ds F).game) (semCVars ds) rounds ks dn l) :
    CPrinted (specOf ds F) (l.map Prod.snd) := by
  classical
  have hnod : (l.map Prod.fst).Nodup := by
    have := h.out.perm.nodup_iff.mpr h.nodup
    simpa using this
  have hmemks : ∀ e ∈ l, e.1 ∈ ks := fun e he => h.out.perm.subset (List.mem_append_left _ (List.mem_map.mpr ⟨e, he, rfl⟩))
  have hkey : ∀ k ∈ ks, ∃ st, (k, st) ∈ l := by
    intro k hk
    have := h.out.perm.mem_iff.mpr hk
    simp only [List.map_nil, List.append_nil, List.mem_map] at this
    obtain ⟨e, he, rfl⟩ := this
    exact ⟨e.2, he⟩
  have hidx : ∀ e ∈ l, e.2.num = ks.idxOf e.1 := by
    rintro ⟨⟨s | i, r⟩, st⟩ he
    · obtain ⟨h1, _⟩ := h.out.ok _ he; rw [h1]
    · obtain ⟨h1, _⟩ := h.out.ok _ he; rw [h1]
  have huniq : ∀ e ∈ l, ∀ k ∈ ks, e.2.num = ks.idxOf k → e.1 = k := by
    intro e he k hk hnum
    rw [hidx e he] at hnum
    exact (List.idxOf_inj (hmemks e he)).mp hnum
  have hpos : ∀ s r st, ((CPlace.pos s, r), st) ∈ l → st.rank = r ∧ st.pos (specOf ds F) = s ∧ st.Complete (specOf ds F) := by
    intro s r st he
    obtain ⟨_, h2, h3, _⟩ := h.out.ok _ he
    refine ⟨h2, clabel_pos F hn h3, ?_⟩
    rw [CState.Complete, h3]
    exact label_names F hn s
  have hlive : ∀ s r st, ((CPlace.pos s, r), st) ∈ l → st.succ ≠ none := by
    intro s r st he hnone
    obtain ⟨_, _, _, i, _, ⟨_, _, h4⟩ | ⟨_, _, ts, h4, _⟩⟩ := h.out.ok _ he <;>
    · dsimp only at h4; rw [hnone] at h4; cases h4
  have hdead : ∀ i r st, ((CPlace.input i, r), st) ∈ l → st.succ = none ∧ (st.pos (specOf ds F)).1 = i ∧ st.OnlyInputs (specOf ds F) := by
    intro i r st he
    obtain ⟨_, _, h3, h4⟩ := h.out.ok _ he
    refine ⟨h4, inputLabel_pos F hn h3, ?_⟩
    rw [CState.OnlyInputs, h3]
    exact inputLabel_names F hn i
  -- edges
  have hmem : ∀ {st}, st ∈ l.map Prod.snd → ∃ k, (k, st) ∈ l := by
    intro st hst
    obtain ⟨e, he, rfl⟩ := List.mem_map.mp hst
    exact ⟨e.1, he⟩
  have hedge : ∀ {s r st st'}, ((CPlace.pos s, r), st) ∈ l → CEdge (l.map Prod.snd) st st' →
      (∃ i, (padGame (specOf ds F).game).safetyEnv s i ∧ (∀ o, ¬ (padGame (specOf ds F).game).safetySys s (i, o)) ∧ ((.input i, r), st') ∈ l) ∨
      ∃ s' r' i ts, (nk (s', r'), st') ∈ l ∧ (∀ o, stratE (entriesC rounds.flatten r.1 r.2) s (i, o)) ∧ (s', r') ∈ ts ∧
        CSuccOK (padGame (specOf ds F).game) s r i {t | t.1 = i} ts := by
    rintro s r st st' he ⟨_, h2, L, hL, hnum⟩
    obtain ⟨k', he'⟩ := hmem h2
    obtain ⟨_, _, _, i, h3, ⟨h4, h5, h6⟩ | ⟨h4, h5, ts, h6, h7, h8⟩⟩ := h.out.ok _ he
    · left
      refine ⟨i, h3, h4, ?_⟩
      dsimp only at h6
      rw [hL] at h6
      cases h6
      simp only [List.mem_singleton] at hnum
      have := huniq _ he' _ h5 (hnum.trans (by congr!))
      dsimp only at this
      rw [← this]; exact he'
    · right
      dsimp only at h6
      rw [hL] at h6
      cases h6
      obtain ⟨t, ht, he2⟩ := List.mem_map.mp hnum
      have := huniq _ he' _ (h7 t ht) (he2.symm.trans (by congr!))
      dsimp only at this
      exact ⟨t.1, t.2, i, ts, by rw [← show k' = nk (t.1, t.2) from this]; exact he', h5, ht, h8⟩
  constructor
  · constructor
    · rw [List.map_map]
      refine List.Nodup.map_on ?_ (List.Nodup.of_map _ hnod)
      intro e he e' he' hnum
      have h1 : e.1 = e'.1 := huniq e he e'.1 (hmemks e' he') ((show e.2.num = e'.2.num from hnum).trans (hidx e' he'))
      exact List.inj_on_of_nodup_map hnod he he' h1
    · intro st hst L hL n hnL
      obtain ⟨⟨s | i, r⟩, he⟩ := hmem hst
      · obtain ⟨_, _, _, i, h3, ⟨h4, h5, h6⟩ | ⟨h4, h5, ts, h6, h7, h8⟩⟩ := h.out.ok _ he
        · dsimp only at h6
          rw [hL] at h6
          cases h6
          simp only [List.mem_singleton] at hnL
          obtain ⟨st', he'⟩ := hkey _ h5
          refine ⟨st', List.mem_map.mpr ⟨_, he', rfl⟩, (hidx _ he').trans ?_⟩
          rw [hnL]
        · dsimp only at h6
          rw [hL] at h6
          cases h6
          obtain ⟨t, ht, he2⟩ := List.mem_map.mp hnL
          obtain ⟨st', he'⟩ := hkey _ (h7 t ht)
          refine ⟨st', List.mem_map.mpr ⟨_, he', rfl⟩, (hidx _ he').trans ?_⟩
          rw [← he2]
      · rw [(hdead i r st he).1] at hL; cases hL
    · intro st hst
      obtain ⟨⟨s | i, r⟩, he⟩ := hmem hst
      · rw [if_neg (hlive s r st he)]; exact (hpos s r st he).2.2
      · rw [if_pos (hdead i r st he).1]; exact (hdead i r st he).2.2
  · intro st hst hne
    obtain ⟨⟨s | i, r⟩, he⟩ := hmem hst
    · rw [(hpos s r st he).2.1, ← hZ]
      have hdn : (s, r) ∈ dn := by
        have := (h.out.pos (s, r)).mp (hmemks _ he)
        simpa using this
      exact (h.inv _ hdn).win
    · exact absurd (hdead i r st he).1 hne
  · intro s hs hi hsys
    obtain ⟨j, hj⟩ := h.start s (fun hz => hs ((hZ s).mp hz)) hi hsys
    obtain ⟨st, he⟩ := hkey (nk (s, (0, j))) ((h.out.pos _).mpr (by simpa using hj))
    exact ⟨st, List.mem_map.mpr ⟨_, he, rfl⟩, hlive _ _ _ he, (hpos _ _ _ he).2.1⟩
  · intro st hst hne
    obtain ⟨⟨s | i, r⟩, he⟩ := hmem hst
    swap
    · exact absurd (hdead i r st he).1 hne
    rw [(hpos s r st he).2.1]
    obtain ⟨_, _, _, i, h3, ⟨h4, h5, h6⟩ | ⟨h4, h5, ts, h6, h7, h8⟩⟩ := h.out.ok _ he
    · refine ⟨i, h3, .inl ⟨h4, ?_, ?_⟩⟩
      · obtain ⟨st', he'⟩ := hkey _ h5
        refine ⟨st', hst, List.mem_map.mpr ⟨_, he', rfl⟩, _, h6, ?_⟩
        simp only [List.mem_singleton]
        exact (hidx _ he').trans (by congr!)
      · rintro st' ⟨_, hst', L, hL, hnum⟩
        obtain ⟨k', he'⟩ := hmem hst'
        dsimp only at h6
        rw [hL] at h6
        cases h6
        simp only [List.mem_singleton] at hnum
        have := huniq _ he' _ h5 (hnum.trans (by congr!))
        dsimp only at this
        subst this
        exact ⟨(hdead _ _ _ he').1, (hdead _ _ _ he').2.1⟩
    · refine ⟨i, h3, .inr ⟨h4, ?_, ?_⟩⟩
      · rintro st' ⟨_, hst', L, hL, hnum⟩
        obtain ⟨k', he'⟩ := hmem hst'
        dsimp only at h6
        rw [hL] at h6
        cases h6
        obtain ⟨t, ht, he2⟩ := List.mem_map.mp hnum
        have := huniq _ he' _ (h7 t ht) (he2.symm.trans (by congr!))
        dsimp only at this
        subst this
        rw [(hpos _ _ _ he').2.1]
        exact ⟨hlive _ _ _ he', h8.input t ht, h8.sys t ht⟩
      · intro o ho
        obtain ⟨t, ht, he2⟩ := h8.all (i, o) rfl ho
        obtain ⟨st', he'⟩ := hkey _ (h7 t ht)
        refine ⟨st', ⟨hst, List.mem_map.mpr ⟨_, he', rfl⟩, _, h6, ?_⟩, ?_⟩
        · rw [show st'.num = ks.idxOf (nk t) from hidx _ he']
          exact List.mem_map.mpr ⟨t, ht, by congr!⟩
        · rw [(hpos _ _ _ he').2.1]; exact he2
  · intro hone r hrun
    rw [← padGame_live]
    obtain ⟨G, hG⟩ : ∃ G, (padGame (specOf ds F).game).guarantees = [G] := by
      simp only [padGame]
      cases hg : (specOf ds F).game.guarantees with
      | nil => exact ⟨_, rfl⟩
      | cons G gs =>
        rw [hg] at hone
        cases gs with
        | nil => exact ⟨_, rfl⟩
        | cons _ _ => simp at hone
    -- every state of an infinite run is a position
    have hall : ∀ n, ∃ s rk, ((CPlace.pos s, rk), r n) ∈ l := by
      intro n
      obtain ⟨⟨s | i, rk⟩, he⟩ := hmem (hrun n).1
      · exact ⟨s, rk, he⟩
      · obtain ⟨_, _, L, hL, _⟩ := hrun n
        rw [(hdead _ _ _ he).1] at hL; cases hL
    choose s rk he using hall
    have hinv : ∀ n, CInv (padGame (specOf ds F).game) rounds (s n, rk n) := by
      intro n
      refine h.inv _ ?_
      have := (h.out.pos (s n, rk n)).mp (hmemks _ (he n))
      simpa using this
    have hlinj : ∀ {k k' st}, (k, st) ∈ l → (k', st) ∈ l → k = k' := by
      intro k k' st h1 h2
      exact huniq _ h1 _ (hmemks _ h2) (hidx _ h2)
    have hmove : ∀ n, stratE (entriesC rounds.flatten (rk n).1 (rk n).2) (s n) (s (n + 1)) ∧
        (padGame (specOf ds F).game).safetySys (s n) (s (n + 1)) ∧
        GoalStep (assGame (padGame (specOf ds F).game)) (s n) (s (n + 1)) (rk n).1 (rk (n + 1)).1 := by
      intro n
      rcases hedge (he n) (hrun n) with ⟨i, _, _, h3⟩ | ⟨s', r', i, ts, h1, h2, h3, h4⟩
      · cases hlinj h3 (he (n + 1))
      · cases hlinj h1 (he (n + 1))
        have hin := h4.input _ h3
        dsimp only at hin
        refine ⟨?_, h4.sys _ h3, h4.stepA _ h3⟩
        have := h2 (s (n + 1)).2
        rw [← hin] at this
        exact this
    have hj0 : ∀ n, (rk n).2 = 0 := by
      intro n
      have := (hinv n).rankG
      rw [hG] at this
      simpa using this
    have hp : (fun n => (r n).pos (specOf ds F)) = s := by
      funext n
      exact (hpos _ _ _ (he n)).2.1
    rw [hp]
    refine counter_live hr hG s (fun n => (rk n).1) (fun n => (hinv n).rankA) (fun n => ?_) (fun n => (hmove n).2.1) (fun n => (hmove n).2.2)
    have := (hmove n).1
    rw [hj0 n] at this
    exact this

end Slugs.Model
