import Verif.Lemmas.TraceText
import Verif.Props.Explicit
import Verif.Props.Counterstrategy

/-!
# C31: abstract traces to a win in finite time

`runTrace` is the model of a complete run with `--computeAbstractWinningTrace`.  `Spec/Trace.lean` says what winning in finite time means and what the
entries of the tables mean.
-/

namespace Slugs.Props

open Slugs.Spec Slugs.Model

variable {B : Type} [DecidableEq B] [L : BddLib B]

/-! ### What the tables say -/

/-- What a table for the environment says, for `n` rounds: column 0 shows an initial position from which the environment wins within `n` rounds; from all
positions that a column shows, the environment can force the next position to be one that the next column shows, or to win at once; each column
only shows positions from which the remaining number of rounds suffices; the last column shows an input with which the environment wins in all
positions of the column before, or nothing if there is no such input; and no variable can be fixed further in any column. -/
structure EnvTable (sp : SpecFile) (n : Nat) (names : List Name) (cols : List (List Cell)) (s : Pos sp.In sp.Out) (Ss : List (Set (Pos sp.In sp.Out)))
    (L : Set (Pos sp.In sp.Out)) : Prop where
  rows : names = sp.inputs ++ sp.outputs
  initial : sp.game.initEnv s.1 ∧ sp.game.initSys s ∧ sp.game.EnvForces n s
  columns : Ss.length + 1 = n
  shown : List.Forall₂ (ShowsColumn sp) ({s} :: Ss ++ [L]) cols
  leads : LeadsAlong sp.game.EnvLeads {s} (Ss ++ [∅])
  forces : ∀ k S, Ss[k]? = some S → ∀ p ∈ S, sp.game.EnvForces (n - 1 - k) p
  last : (L = ∅ ∧ sp.game.Blocking ((({s} : Set (Pos sp.In sp.Out)) :: Ss).getLast (by simp)) = ∅) ∨
    ∃ i ∈ sp.game.Blocking ((({s} : Set (Pos sp.In sp.Out)) :: Ss).getLast (by simp)), L = {p | p.1 = i}
  tight : Tight sp sp.game.EnvLeads {s} (Ss ++ [∅])

/-- What a table for the system says, for `n` rounds.  The last column is empty. -/
structure SysTable (sp : SpecFile) (n : Nat) (names : List Name) (cols : List (List Cell)) (s : Pos sp.In sp.Out) (Ss : List (Set (Pos sp.In sp.Out))) :
    Prop where
  rows : names = sp.inputs ++ sp.outputs
  initial : sp.game.initEnv s.1 ∧ sp.game.initSys s ∧ sp.game.SysForces n s
  columns : Ss.length + 1 = n
  shown : List.Forall₂ (ShowsColumn sp) ({s} :: Ss ++ [∅]) cols
  leads : LeadsAlong sp.game.SysLeads {s} (Ss ++ [∅])
  forces : ∀ k S, Ss[k]? = some S → ∀ p ∈ S, sp.game.SysForces (n - 1 - k) p
  tight : Tight sp sp.game.SysLeads {s} (Ss ++ [∅])

/-- Every initial input has an allowed initial output. -/
def InitAnswer {I O : Type} (g : Game I O) : Prop := ∀ i, ∃ o, g.initSys (i, o)

/-- What is said by the output about the environment. -/
def EnvReport (sp : SpecFile) : TraceReport → Prop
  | .nothing => InitAnswer sp.game ∧ ∀ n, ¬ sp.game.EnvForcesInit n
  | .noStrategy => ¬ InitAnswer sp.game ∧ ∀ s, sp.game.initEnv s.1 → sp.game.initSys s → ¬ sp.game.EnvForces 1 s
  | .table names cols => ∃ n s Ss L, EnvTable sp n names cols s Ss L ∧
      (InitAnswer sp.game → sp.game.EnvForcesInit n ∧ ∀ m, m < n → ¬ sp.game.EnvForcesInit m)

/-- What is said by the output about the system. -/
def SysReport (sp : SpecFile) : TraceReport → Prop
  | .nothing => ∀ n, ¬ sp.game.SysForcesInit n
  | .noStrategy => ¬ ∃ i, sp.game.initEnv i
  | .table names cols => ∃ n s Ss, SysTable sp n names cols s Ss ∧ sp.game.SysForcesInit n ∧ ∀ m, m < n → ¬ sp.game.SysForcesInit m

/-! ### From the sets to the tables -/

theorem now_slot {ds : Decls} (F : Section → List Fml) (hn : (tableOf ds).names.Nodup) (p : Pos (specOf ds F).In (specOf ds F).Out) (z : DSlot ds)
    (hz : (slotEntry z).1 ∈ (specOf ds F).inputs ++ (specOf ds F).outputs) : (specOf ds F).now p.1 p.2 (slotEntry z).1 = slots p p z := by
  rw [← look_slot F hn, SpecFile.look, if_pos hz]

theorem column_shown {ds : Decls} (F : Section → List Fml) (hn : (tableOf ds).names.Nodup) (S : Set (Pos (specOf ds F).In (specOf ds F).Out)) :
    ShowsColumn (specOf ds F) S ((semTraceVars ds).rows.map fun r => cellOf (semMgr _ _) (pre S) r.2) := by
  have hr : ∀ r ∈ (semTraceVars ds).rows, Shows S (fun p => (specOf ds F).now p.1 p.2 r.1) (cellOf (semMgr _ _) (pre S) r.2) := by
    intro r hr
    obtain ⟨k, hk, rfl⟩ := List.mem_map.mp hr
    have key : ∀ z : DSlot ds, (slotEntry z).1 ∈ (specOf ds F).inputs ++ (specOf ds F).outputs →
        (∀ (p t t' : Pos (specOf ds F).In (specOf ds F).Out), slots p t z = slots p t' z) →
        Shows S (fun p => (specOf ds F).now p.1 p.2 ((tableOf ds).names.getD (slotCode z) [])) (cellOf (semMgr _ _) (pre S) (codeVar ds (slotCode z))) := by
      intro z hz hi
      refine cellOf_sem S fun p t => ?_
      rw [getD_slot hn, now_slot F hn p z hz]
      exact (codeVar_slot hn z p t).trans (iff_of_eq (congrArg (· = true) (hi p t p)))
    rcases List.mem_append.mp hk with hk | hk
    · obtain ⟨x, rfl⟩ := (mem_preInput hn).mp hk
      exact key (.ci x) (List.mem_append_left _ x.2) fun _ _ _ => rfl
    · obtain ⟨x, rfl⟩ := (mem_preOutput hn).mp hk
      exact key (.co x) (List.mem_append_right _ x.2) fun _ _ _ => rfl
  have e : (specOf ds F).inputs ++ (specOf ds F).outputs = (semTraceVars ds).rows.map Prod.fst := (rows_names ds).symm
  rw [ShowsColumn, e, List.forall₂_map_left_iff, List.forall₂_map_right_iff, List.forall₂_same]
  exact hr

theorem leads_of_chain {I O : Type} (g : Game I O) (env : Bool) : ∀ (Ss : List (Set (Pos I O))) (Q : Set (Pos I O)), ForceChain g env Q Ss →
    LeadsAlong (if env then g.EnvLeads else g.SysLeads) Q Ss
  | [], _, _ => trivial
  | S :: Ss, Q, h => by
    refine ⟨?_, leads_of_chain g env Ss S h.2⟩
    cases env
    · exact fun s hs => h.1 hs
    · exact fun s hs => h.1 hs

theorem tight_of_chain {ds : Decls} (F : Section → List Fml) (hn : (tableOf ds).names.Nodup) (env : Bool) :
    ∀ (Ss : List (Set (Pos (specOf ds F).In (specOf ds F).Out))) (Q : Set (Pos (specOf ds F).In (specOf ds F).Out)),
    TightChain (specOf ds F).game env (semTraceVars ds).preVars Q Ss →
    Tight (specOf ds F) (if env then (specOf ds F).game.EnvLeads else (specOf ds F).game.SysLeads) Q Ss
  | [], _, _ => trivial
  | S :: Ss, Q, h => by
    refine ⟨fun x hx b hb hl => ?_, tight_of_chain F hn env Ss S h.2⟩
    obtain ⟨z, hz, rfl, hi⟩ : ∃ z : DSlot ds, slotCode z ∈ varsOfType (tableOf ds).types .pre ∧ (slotEntry z).1 = x ∧
        (∀ (p t t' : Pos (specOf ds F).In (specOf ds F).Out), slots p t z = slots p t' z) := by
      rcases List.mem_append.mp hx with hx | hx
      · exact ⟨.ci ⟨x, hx⟩, (mem_pre hn).mpr (.inl ⟨_, rfl⟩), rfl, fun _ _ _ => rfl⟩
      · exact ⟨.co ⟨x, hx⟩, (mem_pre hn).mpr (.inr ⟨_, rfl⟩), rfl, fun _ _ _ => rfl⟩
    have ht := h.1 (codeVar ds (slotCode z)) (List.mem_map.mpr ⟨_, hz, rfl⟩)
    have hsub : Q ⊆ fpre (specOf ds F).game env {p | p ∈ S ∧ (specOf ds F).now p.1 p.2 (slotEntry z).1 = b} := by
      intro s hs
      cases env
      · exact hl s hs
      · exact hl s hs
    have hne : ({p | p ∈ S ∧ (specOf ds F).now p.1 p.2 (slotEntry z).1 = b} : Set (Pos (specOf ds F).In (specOf ds F).Out)) ≠ S := by
      intro e
      obtain ⟨p, hp, hpb⟩ := hb
      rw [← e] at hp
      exact hpb hp.2
    cases b
    · have e : ({p | p ∈ S ∧ (specOf ds F).now p.1 p.2 (slotEntry z).1 = false} : Set (Pos (specOf ds F).In (specOf ds F).Out)) =
          {p | p ∈ S ∧ ((semMgr _ _).not (codeVar ds (slotCode z)) : T _ _) p p} := by
        ext p
        refine and_congr_right fun _ => ?_
        rw [now_slot F hn p z hx]
        exact (Bool.not_eq_true _).symm.to_iff.trans (not_congr (codeVar_slot hn z p p)).symm
      exact ht.2 ⟨e ▸ hsub, e ▸ hne⟩
    · have e : ({p | p ∈ S ∧ (specOf ds F).now p.1 p.2 (slotEntry z).1 = true} : Set (Pos (specOf ds F).In (specOf ds F).Out)) =
          {p | p ∈ S ∧ (codeVar ds (slotCode z) : T _ _) p p} := by
        ext p
        refine and_congr_right fun _ => ?_
        rw [now_slot F hn p z hx]
        exact (codeVar_slot hn z p p).symm
      exact ht.1 ⟨e ▸ hsub, e ▸ hne⟩

theorem sub_stages {I O : Type} {g : Game I O} {env : Bool} : ∀ {n : Nat} {Ss : List (Set (Pos I O))},
    List.Forall₂ (· ⊆ ·) Ss (stages g env n) → ∀ k S, Ss[k]? = some S → S ⊆ stage g env (n - 1 - k)
  | 0, _, h, _, _, hk => by cases h; cases hk
  | n + 1, _, h, k, S, hk => by
    cases h with
    | cons h1 h2 =>
      cases k with
      | zero =>
        cases hk
        exact h1
      | succ k =>
        have := sub_stages h2 k S hk
        rwa [show n + 1 - 1 - (k + 1) = n - 1 - k by omega]

theorem starts_env {I O : Type} (g : Game I O) (n : Nat) : Starts g true (stage g true n) ↔ g.EnvForcesInit n ∨ ¬ InitAnswer g := by
  simp only [Starts, if_true, stage_env]
  constructor
  · rintro ⟨i, hi⟩
    by_cases ha : ∃ o, g.initSys (i, o)
    · obtain ⟨o, ho⟩ := ha
      exact .inl ⟨i, (hi o ho).1, fun o ho => (hi o ho).2⟩
    · exact .inr fun h => ha (h i)
  · rintro (⟨i, h1, h2⟩ | h)
    · exact ⟨i, fun o ho => ⟨h1, h2 o ho⟩⟩
    · simp only [InitAnswer, not_forall] at h
      obtain ⟨i, hi⟩ := h
      exact ⟨i, fun o ho => absurd ⟨o, ho⟩ hi⟩

theorem starts_sys {I O : Type} [Nonempty O] (g : Game I O) (n : Nat) : Starts g false (stage g false n) ↔ g.SysForcesInit n := by
  simp only [Starts, Bool.false_eq_true, if_false, stage_sys, Game.SysForcesInit]

theorem envForcesInit_mono {I O : Type} {g : Game I O} {n m : Nat} (h : n ≤ m) (hn : g.EnvForcesInit n) : g.EnvForcesInit m := by
  obtain ⟨i, h1, h2⟩ := hn
  exact ⟨i, h1, fun o ho => (stage_env g m _).mp (stage_mono g true h ((stage_env g n _).mpr (h2 o ho)))⟩

theorem sysForcesInit_mono {I O : Type} [Nonempty O] {g : Game I O} {n m : Nat} (h : n ≤ m) (hn : g.SysForcesInit n) : g.SysForcesInit m := by
  intro i hi
  obtain ⟨o, h1, h2⟩ := hn i hi
  exact ⟨o, h1, (stage_sys g m _).mp (stage_mono g false h ((stage_sys g n _).mpr h2))⟩

theorem not_envForces_zero {I O : Type} {g : Game I O} {s : Pos I O} : ¬ g.EnvForces 0 s := fun h => ((stage_env g 0 s).mpr h).elim

theorem not_sysForces_zero {I O : Type} [Nonempty O] {g : Game I O} {s : Pos I O} : ¬ g.SysForces 0 s := fun h => ((stage_sys g 0 s).mpr h).elim

theorem traceReports (ds : Decls) (F : Section → List Fml) (hn : (tableOf ds).names.Nodup) (fuel : Nat)
    (hf : (Nat.card (Pos (specOf ds F).In (specOf ds F).Out) + 1) * (Nat.card (Pos (specOf ds F).In (specOf ds F).Out) + 1) + 1 < fuel) :
    (∃ r, computeTrace (semMgr _ _) (gameCtx (specOf ds F).game) (semTraceVars ds) true fuel = some r ∧ EnvReport (specOf ds F) r) ∧
    (∃ r, computeTrace (semMgr _ _) (gameCtx (specOf ds F).game) (semTraceVars ds) false fuel = some r ∧ SysReport (specOf ds F) r) := by
  have hok := semTraceVars_ok hn
  have hshown : ∀ Cs : List (Set (Pos (specOf ds F).In (specOf ds F).Out)), List.Forall₂ (ShowsColumn (specOf ds F)) Cs
      (Cs.map fun S => (semTraceVars ds).rows.map fun r => cellOf (semMgr _ _) (pre S) r.2) := by
    intro Cs
    rw [List.forall₂_map_right_iff, List.forall₂_same]
    exact fun S _ => column_shown F hn S
  have hforce : ∀ {env : Bool} {n : Nat} {Ss : List (Set (Pos (specOf ds F).In (specOf ds F).Out))},
      List.Forall₂ (· ⊆ ·) (Ss ++ [∅]) (stages (specOf ds F).game env n) → ∀ k S, Ss[k]? = some S → S ⊆ stage (specOf ds F).game env (n - 1 - k) := by
    intro env n Ss h k S hk
    refine sub_stages h k S ?_
    have : k < Ss.length := by
      by_contra hge
      rw [List.getElem?_eq_none (by omega)] at hk
      cases hk
    rw [List.getElem?_append_left this, hk]
  constructor
  · rcases computeTrace_sem (specOf ds F).game hok true fuel hf with ⟨n, s, Ss, L, hfr, ht, hl, e⟩ | ⟨n, hfr, hno, e⟩ | ⟨hno, e⟩
    · refine ⟨_, e, n, s, Ss, L, ?_, fun ha => ?_⟩
      · refine ⟨rows_names ds, ⟨ht.init.1, ht.init.2, (stage_env _ _ _).mp ht.win⟩, ht.length, hshown _, leads_of_chain _ true _ _ ht.chain,
          fun k S hk p hp => (stage_env _ _ _).mp (hforce ht.sub k S hk hp), ?_, tight_of_chain F hn true _ _ ht.tight⟩
        rw [if_pos rfl] at hl
        cases hl with
        | none h => exact .inl ⟨rfl, h⟩
        | input i h => exact .inr ⟨i, h, rfl⟩
      · have h1 := (starts_env _ _).mp hfr.2.1
        refine ⟨h1.resolve_right (not_not_intro ha), fun m hm hw => ?_⟩
        rcases Nat.eq_zero_or_pos m with rfl | hp
        · obtain ⟨i, _, hi⟩ := hw
          obtain ⟨o, ho⟩ := ha i
          exact not_envForces_zero (hi o ho)
        · exact hfr.2.2 m hp hm ((starts_env _ _).mpr (.inl hw))
    · refine ⟨_, e, ?_⟩
      have hna : ¬ InitAnswer (specOf ds F).game := by
        intro ha
        obtain ⟨i, hi, hw⟩ := ((starts_env _ _).mp hfr.2.1).resolve_right (not_not_intro ha)
        obtain ⟨o, ho⟩ := ha i
        exact hno (i, o) hi ho ((stage_env _ _ _).mpr (hw o ho))
      have h1 : n = 1 := by
        by_contra hne
        have := hfr.1
        exact hfr.2.2 1 (Nat.le_refl 1) (by omega) ((starts_env _ _).mpr (.inr hna))
      subst h1
      exact ⟨hna, fun s h1 h2 h3 => hno s h1 h2 ((stage_env _ _ _).mpr h3)⟩
    · refine ⟨_, e, ?_⟩
      have ha : InitAnswer (specOf ds F).game := by
        by_contra hna
        exact hno 1 (Nat.le_refl 1) ((starts_env _ _).mpr (.inr hna))
      exact ⟨ha, fun n hw => hno (n + 1) (by omega) ((starts_env _ _).mpr (.inl (envForcesInit_mono (Nat.le_succ n) hw)))⟩
  · rcases computeTrace_sem (specOf ds F).game hok false fuel hf with ⟨n, s, Ss, L, hfr, ht, hl, e⟩ | ⟨n, hfr, hno, e⟩ | ⟨hno, e⟩
    · have hl' : L = ∅ := hl
      subst hl'
      refine ⟨_, e, n, s, Ss, ?_, (starts_sys _ _).mp hfr.2.1, fun m hm hw => ?_⟩
      · exact ⟨rows_names ds, ⟨ht.init.1, ht.init.2, (stage_sys _ _ _).mp ht.win⟩, ht.length, hshown _, leads_of_chain _ false _ _ ht.chain,
          fun k S hk p hp => (stage_sys _ _ _).mp (hforce ht.sub k S hk hp), tight_of_chain F hn false _ _ ht.tight⟩
      · rcases Nat.eq_zero_or_pos m with rfl | hp
        · obtain ⟨o, _, ho⟩ := hw s.1 ht.init.1
          exact not_sysForces_zero ho
        · exact hfr.2.2 m hp hm ((starts_sys _ _).mpr hw)
    · refine ⟨_, e, fun ⟨i, hi⟩ => ?_⟩
      obtain ⟨o, h1, h2⟩ := (starts_sys _ _).mp hfr.2.1 i hi
      exact hno (i, o) hi h1 ((stage_sys _ _ _).mpr h2)
    · exact ⟨_, e, fun n hw => hno (n + 1) (by omega) ((starts_sys _ _).mpr (sysForcesInit_mono (Nat.le_succ n) hw))⟩

/-! ### Complete runs -/

/-- No declared name contains `@`. -/
def NoGroups (sp : SpecFile) : Prop := ∀ x ∈ sp.inputs ++ sp.outputs, '@' ∉ x

theorem noGroups_iff {ds : Decls} (F : Section → List Fml) (hn : (tableOf ds).names.Nodup) :
    (((varsOfType (tableOf ds).types .pre).map fun k => (tableOf ds).names.getD k []).any fun x => x.contains '@') = false ↔
      NoGroups (specOf ds F) := by
  have hp := label_names F hn (fun _ => false, fun _ => false)
  have e : (labelAt (semVars ds) (fun _ => false, fun _ => false)).map Prod.fst =
      (varsOfType (tableOf ds).types .pre).map fun k => (tableOf ds).names.getD k [] := by
    simp [labelAt, semVars, Function.comp_def]
  rw [e] at hp
  rw [NoGroups, List.any_eq_false]
  constructor
  · intro h x hx hc
    exact h x (hp.mem_iff.mpr hx) (by simpa using hc)
  · intro h x hx hc
    exact h x (hp.mem_iff.mp hx) (by simpa using hc)

theorem runTrace_sem {cap : Nat} {order : List Char → Bool} {text : List Char} {tab : VarTable} {c : Ctx B}
    (h : initContext cap order text = .ok (tab, c)) {sp : SpecFile} (hd : Denotes text sp) (hg : NoGroups sp)
    (fuel : Nat) (hf : (Nat.card (Pos sp.In sp.Out) + 1) * (Nat.card (Pos sp.In sp.Out) + 1) + 1 < fuel) :
    ∃ e s, runTrace B cap order fuel text = .reports e s ∧ EnvReport sp e ∧ SysReport sp s := by
  obtain ⟨ds, F, hn, rfl, hd', _, _, _, hc⟩ := initContext_spec h
  have := Denotes.det hd hd'
  subst this
  obtain ⟨⟨e, e1, r1⟩, ⟨s, e2, r2⟩⟩ := traceReports ds F hn fuel hf
  have key : ∀ env, computeTrace (bddMgr B (tableOf ds).types) c (traceVars B (tableOf ds)) env fuel =
      computeTrace (semMgr _ _) (gameCtx (specOf ds F).game) (semTraceVars ds) env fuel := by
    intro env
    rw [hc, traceVars_eq B hn]
    refine (computeTrace_hom ((tableLayout ds hn).hom B) (gameCtx (padGame (specOf ds F).game)) (semTraceVars ds) env fuel).trans ?_
    refine (computeTrace_bare _ _ _ _ _).symm.trans ?_
    exact computeTrace_bare (semMgr (specOf ds F).In (specOf ds F).Out) (gameCtx (specOf ds F).game) (semTraceVars ds) env fuel
  refine ⟨e, s, ?_, r1, r2⟩
  rw [runTrace, h]
  simp only
  rw [(noGroups_iff F hn).mpr hg, key true, key false, e1, e2]
  rfl

theorem runTrace_more {cap : Nat} {order : List Char → Bool} {text : List Char} {n n' : Nat} (hn : n ≤ n') {e s : TraceReport}
    (h : runTrace B cap order n text = .reports e s) : runTrace B cap order n' text = .reports e s := by
  rw [runTrace] at h ⊢
  cases hi : initContext (B := B) cap order text with
  | err _ => rw [hi] at h; cases h
  | ub => rw [hi] at h; cases h
  | stuck => rw [hi] at h; cases h
  | ok r =>
    obtain ⟨tab, c⟩ := r
    rw [hi] at h
    simp only at h ⊢
    by_cases hc : (((varsOfType tab.types .pre).map fun k => tab.names.getD k []).any fun x => x.contains '@') = true
    · rw [if_pos hc] at h; cases h
    · rw [if_neg hc] at h ⊢
      rcases h1 : computeTrace (bddMgr B tab.types) c (traceVars B tab) true n with _ | r1
      · rw [h1] at h; cases h
      · rcases h2 : computeTrace (bddMgr B tab.types) c (traceVars B tab) false n with _ | r2
        · rw [h1, h2] at h; cases h
        · rw [h1, h2] at h
          rw [computeTrace_more hn h1, computeTrace_more hn h2]
          exact h

/-- **C31**, termination: on every accepted file in which no name contains `@`, both tables are computed after finitely many rounds. -/
theorem C31_terminates {cap : Nat} {order : List Char → Bool} {text : List Char} {tab : VarTable} {c : Ctx B}
    (h : initContext cap order text = .ok (tab, c)) {sp : SpecFile} (hd : Denotes text sp) (hg : NoGroups sp)
    (fuel : Nat) (hf : (Nat.card (Pos sp.In sp.Out) + 1) * (Nat.card (Pos sp.In sp.Out) + 1) + 1 < fuel) :
    ∃ e s, runTrace B cap order fuel text = .reports e s := by
  obtain ⟨e, s, h1, _⟩ := runTrace_sem (B := B) h hd hg fuel hf
  exact ⟨e, s, h1⟩

/-- Whatever is printed is described by `EnvReport` and `SysReport`. -/
theorem trace_printed {cap : Nat} {order : List Char → Bool} {text : List Char} {fuel : Nat} {e s : TraceReport}
    (h : runTrace B cap order fuel text = .reports e s) {sp : SpecFile} (hd : Denotes text sp) : EnvReport sp e ∧ SysReport sp s := by
  cases hi : initContext (B := B) cap order text with
  | err _ => rw [runTrace, hi] at h; cases h
  | ub => rw [runTrace, hi] at h; cases h
  | stuck => rw [runTrace, hi] at h; cases h
  | ok r =>
    obtain ⟨tab, c⟩ := r
    have hg : NoGroups sp := by
      obtain ⟨ds, F, hn, rfl, hd', _⟩ := initContext_spec hi
      have := Denotes.det hd hd'
      subst this
      rw [← noGroups_iff F hn]
      by_contra hne
      rw [runTrace, hi] at h
      simp only at h
      rw [if_pos (by simpa using hne)] at h
      cases h
    have hmore := runTrace_more (n' := fuel + ((Nat.card (Pos sp.In sp.Out) + 1) * (Nat.card (Pos sp.In sp.Out) + 1) + 2)) (Nat.le_add_right _ _) h
    obtain ⟨e', s', h1, h2, h3⟩ := runTrace_sem (B := B) hi hd hg
      (fuel + ((Nat.card (Pos sp.In sp.Out) + 1) * (Nat.card (Pos sp.In sp.Out) + 1) + 2)) (by omega)
    rw [hmore] at h1
    cases h1
    exact ⟨h2, h3⟩

/-- **C31** for the system, exactly.  Nothing is printed if and only if the system cannot force a violation of the safety assumptions in finite time; that
there is no strategy from an initial position is printed if and only if there is no initial input at all; otherwise a table is printed, it has the
least possible number of rounds, and it is as `SysTable` says. -/
theorem C31_system_trace {cap : Nat} {order : List Char → Bool} {text : List Char} {fuel : Nat} {e r : TraceReport}
    (h : runTrace B cap order fuel text = .reports e r) {sp : SpecFile} (hd : Denotes text sp) :
    (r = .nothing ↔ ∀ n, ¬ sp.game.SysForcesInit n) ∧ (r = .noStrategy ↔ ¬ ∃ i, sp.game.initEnv i) ∧
    ∀ names cols, r = .table names cols → ∃ n s Ss, cols.length = n + 1 ∧ SysTable sp n names cols s Ss ∧ sp.game.SysForcesInit n ∧
      ∀ m, m < n → ¬ sp.game.SysForcesInit m := by
  have hr := (trace_printed h hd).2
  cases r with
  | nothing =>
    refine ⟨⟨fun _ => hr, fun _ => rfl⟩, ⟨nofun, fun hno => ?_⟩, nofun⟩
    exact absurd (fun i hi => absurd ⟨i, hi⟩ hno) (hr 0)
  | noStrategy =>
    refine ⟨⟨nofun, fun hno => ?_⟩, ⟨fun _ => hr, fun _ => rfl⟩, nofun⟩
    exact absurd (fun i hi => absurd ⟨i, hi⟩ hr) (hno 0)
  | table names cols =>
    obtain ⟨n, s, Ss, h1, h2, h3⟩ := hr
    refine ⟨⟨nofun, fun hno => absurd h2 (hno n)⟩, ⟨nofun, fun hno => absurd ⟨_, h1.initial.1⟩ hno⟩, ?_⟩
    rintro names' cols' e
    cases e
    refine ⟨n, s, Ss, ?_, h1, h2, h3⟩
    have hl := h1.shown.length_eq
    have h4 := h1.columns
    simp only [List.cons_append, List.length_cons, List.length_append, List.length_nil] at hl
    omega

/-- **C31** for the environment, in part.  If every initial input has an allowed initial output: nothing is printed if and only if the environment cannot
force a violation of the safety guarantees in finite time; the message that there is no strategy is never printed; and a table has the least possible
number of rounds and is as `EnvTable` says.  Missing: the case that some initial input has no allowed initial output, see
`C31_environment_trace_violated`. -/
theorem C31_environment_trace_partial {cap : Nat} {order : List Char → Bool} {text : List Char} {fuel : Nat} {r s : TraceReport}
    (h : runTrace B cap order fuel text = .reports r s) {sp : SpecFile} (hd : Denotes text sp) (ha : InitAnswer sp.game) :
    (r = .nothing ↔ ∀ n, ¬ sp.game.EnvForcesInit n) ∧ r ≠ .noStrategy ∧
    ∀ names cols, r = .table names cols → ∃ n s Ss L, cols.length = n + 1 ∧ EnvTable sp n names cols s Ss L ∧ sp.game.EnvForcesInit n ∧
      ∀ m, m < n → ¬ sp.game.EnvForcesInit m := by
  have hr := (trace_printed h hd).1
  cases r with
  | nothing => exact ⟨⟨fun _ => hr.2, fun _ => rfl⟩, nofun, nofun⟩
  | noStrategy => exact absurd ha hr.1
  | table names cols =>
    obtain ⟨n, s, Ss, L, h1, h2⟩ := hr
    refine ⟨⟨nofun, fun hno => absurd (h2 ha).1 (hno n)⟩, nofun, ?_⟩
    rintro names' cols' e
    cases e
    refine ⟨n, s, Ss, L, ?_, h1, h2 ha⟩
    have hl := h1.shown.length_eq
    have h4 := h1.columns
    simp only [List.cons_append, List.length_cons, List.length_append, List.length_nil] at hl
    omega

/-- **C31** for the environment, without any condition: a table that is printed is always as `EnvTable` says, and if nothing is printed, then
the environment cannot force a violation of the safety guarantees in finite time. -/
theorem C31_environment_table_sound {cap : Nat} {order : List Char → Bool} {text : List Char} {fuel : Nat} {r s : TraceReport}
    (h : runTrace B cap order fuel text = .reports r s) {sp : SpecFile} (hd : Denotes text sp) :
    (r = .nothing → ∀ n, ¬ sp.game.EnvForcesInit n) ∧
    ∀ names cols, r = .table names cols → ∃ n s Ss L, cols.length = n + 1 ∧ EnvTable sp n names cols s Ss L := by
  have hr := (trace_printed h hd).1
  cases r with
  | nothing => exact ⟨fun _ => hr.2, nofun⟩
  | noStrategy => exact ⟨nofun, nofun⟩
  | table names cols =>
    obtain ⟨n, s, Ss, L, h1, _⟩ := hr
    refine ⟨nofun, ?_⟩
    rintro names' cols' e
    cases e
    refine ⟨n, s, Ss, L, ?_, h1⟩
    have hl := h1.shown.length_eq
    have h4 := h1.columns
    simp only [List.cons_append, List.length_cons, List.length_append, List.length_nil] at hl
    omega

/-! ### Concrete files -/

/-- The environment wins in two rounds: it makes `a` true, and then the system is stuck. -/
def trapText : List Char := txt!"[INPUT]\na\n[OUTPUT]\nx\n[ENV_INIT]\n! a\n[SYS_INIT]\n! x\n[SYS_TRANS]\n! a"

def trap : SpecFile where
  inputs := [txt!"a"]
  outputs := [txt!"x"]
  envInit := [.not (.var txt!"a")]
  sysInit := [.not (.var txt!"x")]
  envTrans := []
  sysTrans := [.not (.var txt!"a")]
  envLiveness := []
  sysLiveness := []

theorem trap_denotes : Denotes trapText trap := by
  refine ⟨[(.input, txt!"a"), (.output, txt!"x"), (.envInit, txt!"! a"), (.sysInit, txt!"! x"), (.sysTrans, txt!"! a")], ?_, by decide, by decide,
    ?_, ?_, ?_, ?_, ?_, ?_⟩
  · have : splitLines trapText = [txt!"[INPUT]", txt!"a", txt!"[OUTPUT]", txt!"x", txt!"[ENV_INIT]", txt!"! a", txt!"[SYS_INIT]", txt!"! x",
      txt!"[SYS_TRANS]", txt!"! a"] := by decide
    rw [this]
    refine .header .input (by decide) (.item (by decide) (by decide) (by decide) ?_)
    refine .header .output (by decide) (.item (by decide) (by decide) (by decide) ?_)
    refine .header .envInit (by decide) (.item (by decide) (by decide) (by decide) ?_)
    refine .header .sysInit (by decide) (.item (by decide) (by decide) (by decide) ?_)
    exact .header .sysTrans (by decide) (.item (by decide) (by decide) (by decide) .nil)
  all_goals
    simp only [trap, itemsOf]
  · exact .cons (reads_text (.not (.var txt!"a")) (by simp [Fml.Wf]) (by decide) (by decide)) .nil
  · exact .cons (reads_text (.not (.var txt!"x")) (by simp [Fml.Wf]) (by decide) (by decide)) .nil
  · exact .nil
  · exact .cons (reads_text (.not (.var txt!"a")) (by simp [Fml.Wf]) (by decide) (by decide)) .nil
  · exact .nil
  · exact .nil

theorem trap_run : runTrace ROBDD 1000 (fun _ => true) 30 trapText =
    .reports (.table [txt!"a", txt!"x"] [[.zero, .zero], [.one, .star], [.zero, .star]]) .nothing := by rfl

/-- A file and a run that meet the hypotheses of `C31_environment_trace_partial`, with a table of three columns. -/
example : ∃ n s Ss L, [[Cell.zero, .zero], [.one, .star], [.zero, .star]].length = n + 1 ∧
    EnvTable trap n [txt!"a", txt!"x"] [[.zero, .zero], [.one, .star], [.zero, .star]] s Ss L ∧ trap.game.EnvForcesInit n ∧
    ∀ m, m < n → ¬ trap.game.EnvForcesInit m := by
  refine (C31_environment_trace_partial trap_run trap_denotes fun i => ⟨fun _ => false, fun φ hφ => ?_⟩).2.2 _ _ rfl
  obtain rfl : φ = .not (.var txt!"x") := List.mem_singleton.mp hφ
  rfl

/-- The system wins in two rounds: it makes `x` true, and then the environment is stuck. -/
def trapEnvText : List Char := txt!"[INPUT]\na\n[OUTPUT]\nx\n[ENV_INIT]\n! a\n[SYS_INIT]\n! x\n[ENV_TRANS]\n! x"

theorem trapEnv_run : runTrace ROBDD 1000 (fun _ => true) 30 trapEnvText =
    .reports .nothing (.table [txt!"a", txt!"x"] [[.zero, .zero], [.star, .one], [.X, .X]]) := by rfl

/-- A file and a run that meet the hypotheses of `C31_system_trace`, with a table of three columns. -/
example : ∃ sp n s Ss, Denotes trapEnvText sp ∧ [[Cell.zero, .zero], [.star, .one], [.X, .X]].length = n + 1 ∧
    SysTable sp n [txt!"a", txt!"x"] [[.zero, .zero], [.star, .one], [.X, .X]] s Ss ∧ sp.game.SysForcesInit n ∧
    ∀ m, m < n → ¬ sp.game.SysForcesInit m := by
  obtain ⟨r, hr⟩ : ∃ r, initContext (B := ROBDD) 1000 (fun _ => true) trapEnvText = .ok r := ⟨_, rfl⟩
  obtain ⟨sp, hd, _⟩ := C24_accepted_denotes (tab := r.1) (c := r.2) hr
  obtain ⟨n, s, Ss, h⟩ := (C31_system_trace trapEnv_run hd).2.2 _ _ rfl
  exact ⟨sp, n, s, Ss, hd, h⟩

/-- As `trapText`, but with an initial guarantee that excludes what the initial assumption excludes already. -/
def missedText : List Char := txt!"[INPUT]\na\n[OUTPUT]\nx\n[ENV_INIT]\n! a\n[SYS_INIT]\n! a\n[SYS_TRANS]\n! a"

def missed : SpecFile where
  inputs := [txt!"a"]
  outputs := [txt!"x"]
  envInit := [.not (.var txt!"a")]
  sysInit := [.not (.var txt!"a")]
  envTrans := []
  sysTrans := [.not (.var txt!"a")]
  envLiveness := []
  sysLiveness := []

theorem missed_denotes : Denotes missedText missed := by
  refine ⟨[(.input, txt!"a"), (.output, txt!"x"), (.envInit, txt!"! a"), (.sysInit, txt!"! a"), (.sysTrans, txt!"! a")], ?_, by decide, by decide,
    ?_, ?_, ?_, ?_, ?_, ?_⟩
  · have : splitLines missedText = [txt!"[INPUT]", txt!"a", txt!"[OUTPUT]", txt!"x", txt!"[ENV_INIT]", txt!"! a", txt!"[SYS_INIT]", txt!"! a",
      txt!"[SYS_TRANS]", txt!"! a"] := by decide
    rw [this]
    refine .header .input (by decide) (.item (by decide) (by decide) (by decide) ?_)
    refine .header .output (by decide) (.item (by decide) (by decide) (by decide) ?_)
    refine .header .envInit (by decide) (.item (by decide) (by decide) (by decide) ?_)
    refine .header .sysInit (by decide) (.item (by decide) (by decide) (by decide) ?_)
    exact .header .sysTrans (by decide) (.item (by decide) (by decide) (by decide) .nil)
  all_goals
    simp only [missed, itemsOf]
  · exact .cons (reads_text (.not (.var txt!"a")) (by simp [Fml.Wf]) (by decide) (by decide)) .nil
  · exact .cons (reads_text (.not (.var txt!"a")) (by simp [Fml.Wf]) (by decide) (by decide)) .nil
  · exact .nil
  · exact .cons (reads_text (.not (.var txt!"a")) (by simp [Fml.Wf]) (by decide) (by decide)) .nil
  · exact .nil
  · exact .nil

theorem missed_run : runTrace ROBDD 1000 (fun _ => true) 30 missedText = .reports .noStrategy .nothing := by rfl

theorem missed_forces : missed.game.EnvForcesInit 2 := by
  refine ⟨fun _ => false, fun φ hφ => ?_, fun o _ => (stage_env _ _ _).mp ?_⟩
  · obtain rfl : φ = .not (.var txt!"a") := List.mem_singleton.mp hφ
    rfl
  · refine ⟨fun _ => true, fun φ hφ => absurd hφ (List.not_mem_nil (a := φ)), fun o' _ => ?_⟩
    refine ⟨fun _ => true, fun φ hφ => absurd hφ (List.not_mem_nil (a := φ)), fun o'' h => ?_⟩
    have := h (.not (.var txt!"a")) (List.mem_singleton.mpr rfl)
    cases this

/-- **C31** does not hold for the environment in general: the test whether the environment wins from the initial positions
(`extensionAbstractWinningTraceGenerator.hpp:121-122`) succeeds too early if some initial input, even one that is not allowed, has no allowed initial
output.  Then it is printed that the environment has no strategy from an initial position although it wins within two rounds. -/
theorem C31_environment_trace_violated : ∃ (text : List Char) (sp : SpecFile) (s : TraceReport),
    runTrace ROBDD 1000 (fun _ => true) 30 text = .reports .noStrategy s ∧ Denotes text sp ∧ (∃ p, sp.game.initEnv p.1 ∧ sp.game.initSys p) ∧
    sp.game.EnvForcesInit 2 := by
  refine ⟨missedText, missed, _, missed_run, missed_denotes, ⟨(fun _ => false, fun _ => false), fun φ hφ => ?_, fun φ hφ => ?_⟩, missed_forces⟩
  · obtain rfl : φ = .not (.var txt!"a") := List.mem_singleton.mp hφ
    rfl
  · obtain rfl : φ = .not (.var txt!"a") := List.mem_singleton.mp hφ
    rfl

end Slugs.Props
