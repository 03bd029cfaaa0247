import Verif.Lemmas.InteractiveLetters
import Verif.Props.Symbolic

/-! The commands of the interactive shell in a session with a realizable specification, in terms of the game. -/

namespace Slugs.Model

open Slugs.Spec Slugs.Props

/-! ### Generalities -/

section
variable {I O : Type}

theorem ff_iff (f : T I O) : f = (semMgr I O).ff ↔ ¬ ∃ s t, f s t := by
  rw [(semReading I O).ff]
  constructor
  · rintro h ⟨s, t, hst⟩; exact h (s, t) hst
  · intro h w hw; exact h ⟨_, _, hw⟩

theorem isDet_post {vars : List (T I O)} (hv : ∀ s t t', (∀ v ∈ vars, (v s t ↔ v s t')) → t = t') (s : Pos I O) {R : Set (Pos I O)} {r : T I O}
    (hd : IsDet (fun f (w : Pos I O × Pos I O) => f w.1 w.2) vars (from1 s R) r) (hR : R.Nonempty) :
    ∃ t ∈ R, r = from1 s {t} := by
  obtain ⟨t0, ht0⟩ := hR
  obtain ⟨⟨s1, t⟩, hst⟩ := hd.nonempty ⟨(s, t0), rfl, ht0⟩
  obtain ⟨h1, h2⟩ := hd.sub _ hst
  dsimp only at h1 h2
  subst h1
  refine ⟨t, h2, ?_⟩
  funext s' t'
  rw [eq_iff_iff]
  constructor
  · intro h
    obtain ⟨h3, h4⟩ := hd.sub (s', t') h
    dsimp only at h3 h4
    subst h3
    refine ⟨rfl, hv s' _ _ fun v hvm => ?_⟩
    rcases hd.fixed v hvm with h1 | h1
    · exact iff_of_true (h1 (_, t') h) (h1 (_, t) hst)
    · exact iff_of_false (h1 (_, t') h) (h1 (_, t) hst)
  · rintro ⟨rfl, rfl⟩
    exact hst

theorem isDet_ff {vars : List (T I O)} {r : T I O} (hd : IsDet (fun f (w : Pos I O × Pos I O) => f w.1 w.2) vars (semMgr I O).ff r) :
    r = (semMgr I O).ff := by
  rw [ff_iff]
  rintro ⟨s, t, h⟩
  exact hd.sub (s, t) h

/-- The goal after a step, whatever the transitions are. -/
theorem goalJump_total (goals : List (T I O)) (comb : T I O) {cur : Nat} (hcur : cur < goals.length) :
    ∀ (k l : Nat), l + k = goals.length + 1 → l ≤ goals.length →
      ∃ next < goals.length, goalJump (semMgr I O) goals comb cur k ((cur + l) % goals.length) (decide (l = 0)) = some next := by
  intro k
  induction k with
  | zero => intro l h1 h2; omega
  | succ k ih =>
    intro l h1 h2
    have hlt : (cur + l) % goals.length < goals.length := Nat.mod_lt _ (by omega)
    rw [goalJump]
    by_cases hc : (cur + l) % goals.length ≠ cur ∨ decide (l = 0) = true
    · rw [if_pos hc, List.getElem?_eq_getElem hlt]
      dsimp only
      by_cases hG : (semMgr I O).and (goals[(cur + l) % goals.length]) comb = (semMgr I O).ff
      · rw [if_pos hG]; exact ⟨_, hlt, rfl⟩
      · rw [if_neg hG]
        have hln : l < goals.length := by
          by_contra hge
          have : l = goals.length := by omega
          subst this
          rw [Nat.add_mod_right, Nat.mod_eq_of_lt hcur] at hc
          simp at hc
          rw [hc] at hcur; simp at hcur
        have e : ((cur + l) % goals.length + 1) % goals.length = (cur + (l + 1)) % goals.length := by
          rw [Nat.mod_add_mod]; rfl
        rw [e]
        simpa using ih (l + 1) (by omega) (by omega)
    · rw [if_neg hc]; exact ⟨_, hlt, rfl⟩

theorem goalJump_some (goals : List (T I O)) (comb : T I O) {cur : Nat} (hcur : cur < goals.length) :
    ∃ next < goals.length, goalJump (semMgr I O) goals comb cur (goals.length + 1) cur true = some next := by
  have := goalJump_total goals comb hcur (goals.length + 1) 0 (by omega) (by omega)
  simpa [Nat.mod_eq_of_lt hcur] using this

theorem mem_meeting (l : List (T I O)) (f : T I O) (k : Nat) :
    k ∈ meeting (semMgr I O) l f ↔ ∃ b, l[k]? = some b ∧ ∃ s t, b s t ∧ f s t := by
  rw [meeting, List.mem_filter, List.mem_range]
  constructor
  · rintro ⟨h1, h2⟩
    rw [List.getElem?_eq_getElem h1] at h2 ⊢
    simp only [ne_eq, decide_not, Bool.not_eq_eq_eq_not, Bool.not_true, decide_eq_false_iff_not] at h2
    rw [ff_iff, not_not] at h2
    exact ⟨_, rfl, h2⟩
  · rintro ⟨b, hb, h⟩
    have hk := (List.getElem?_eq_some_iff.mp hb).1
    refine ⟨hk, ?_⟩
    rw [hb]
    simp only [ne_eq, decide_not, Bool.not_eq_eq_eq_not, Bool.not_true, decide_eq_false_iff_not]
    rw [ff_iff, not_not]
    exact h

end

/-! ### The data of a session -/

variable {sp : SpecFile}

theorem hopes_padGame (sp : SpecFile) : (padGame sp.game).assumptions.length = sp.hopes := by
  have : sp.envLiveness.length = sp.game.assumptions.length := by simp [SpecFile.game]
  rw [SpecFile.hopes, this]
  simp only [padGame]
  cases sp.game.assumptions <;> simp [padLive]

theorem hopeAt_padGame (sp : SpecFile) {j : Nat} (hj : j < sp.hopes) (s t : Pos sp.In sp.Out) :
    (∃ A, (padGame sp.game).assumptions[j]? = some A ∧ A s t) ↔ sp.Fulfils j s t := by
  rw [← hopes_padGame] at hj
  simp only [padGame] at hj
  simp only [SpecFile.Fulfils, padGame]
  generalize sp.game.assumptions = gs at hj ⊢
  cases gs with
  | nil =>
    simp only [padLive, List.length_singleton] at hj
    have : j = 0 := by omega
    subst this
    simp [padLive]
  | cons a l =>
    simp only [padLive] at hj ⊢
    rw [List.getElem?_eq_getElem hj]
    simp

/-- What is computed before a session with a realizable specification. -/
structure ShellOK (sp : SpecFile) (sh : Shell (T sp.In sp.Out)) (S : Nat → T sp.In sp.Out) : Prop where
  real : sh.realizable = true
  winning : sh.winning = pre {s | sp.game.SysWins s}
  strategies : sh.strategies = (List.range sp.goals).map S
  moves : SystemMoves sp S

theorem advance_of_step {s t : Pos sp.In sp.Out} {j j' : Nat} (hj : j < sp.goals) :
    GoalStep (padGame sp.game) s t j j' ↔ Advance sp s t j j' := by
  have hpos : 0 < sp.goals := by omega
  rw [GoalStep, Advance, goalAt_padGame sp hj, goals_padGame]
  refine and_congr Iff.rfl (imp_congr Iff.rfl (exists_congr fun k => and_congr Iff.rfl (and_congr Iff.rfl (and_congr Iff.rfl ?_))))
  exact forall_congr' fun l => imp_congr Iff.rfl (goalAt_padGame sp (Nat.mod_lt _ hpos) s t)

/-- The strategies from a family of preferred transitions. -/
theorem family_moves {lists : Nat → List (T sp.In sp.Out)} (hf : Family (padGame sp.game) {s | sp.game.SysWins s} lists) :
    SystemMoves sp fun j => strat (lists j) where
  safe j hj s t h := by
    rw [← goals_padGame] at hj
    have hg := hf j _ (List.getElem?_eq_getElem hj)
    exact ⟨hg.safe (strat_mem h), hg.stays (strat_mem h)⟩
  total j hj s i hs hi := by
    rw [← goals_padGame] at hj
    have hg := hf j _ (List.getElem?_eq_getElem hj)
    exact strat_exists (padGame sp.game) (hg.covers hs) hi
  live p j h0 hj h := by
    rw [← padGame_live]
    refine family_live (padGame sp.game) hf p j (fun n => by rw [goals_padGame]; exact hj n) h0 (fun n => ?_) fun n => ?_
    · exact strat_used (h n).2.1 (h n).1
    · exact (advance_of_step (hj n)).mpr (h n).2.2

/-- What is known during a session. -/
structure Inv (sp : SpecFile) (st : ShellState (T sp.In sp.Out)) (past : List Exchange) : Prop where
  goal : st.goal < sp.goals
  fresh : (∀ x ∈ past, x.advances = false) → st.goal = 0
  here : ∀ p k rest, playOf sp past = (p, k) :: rest →
    st.cur = pre {p} ∨ (st.cur = (semMgr sp.In sp.Out).ff ∧ ¬ FromWinning sp (playOf sp past))
  won : ∀ p k rest, playOf sp past = (p, k) :: rest → FromWinning sp (playOf sp past) → sp.game.SysWins p ∧ (rest ≠ [] → k = st.goal)

theorem playOf_snoc (sp : SpecFile) (past : List Exchange) (e : Exchange) : playOf sp (past ++ [e]) = follow sp (playOf sp past) e := by
  simp [playOf]

theorem fresh_snoc {past : List Exchange} {e : Exchange} (h : ∀ x ∈ past ++ [e], x.advances = false) :
    (∀ x ∈ past, x.advances = false) ∧ e.advances = false :=
  ⟨fun x hx => h x (by simp [hx]), h e (by simp)⟩

theorem fromWinning_single {sp : SpecFile} {p : Pos sp.In sp.Out} {k : Nat} : FromWinning sp [(p, k)] ↔ sp.game.SysWins p := by
  simp [FromWinning]

theorem fromWinning_cons {sp : SpecFile} {e : Pos sp.In sp.Out × Nat} {play : List (Pos sp.In sp.Out × Nat)} (h : play ≠ []) :
    FromWinning sp (e :: play) ↔ FromWinning sp play := by
  cases play with
  | nil => exact absurd rfl h
  | cons a l => simp [FromWinning, List.getLast?_cons_cons]

/-- Exchanges that leave the state alone. -/
theorem Inv.same {st : ShellState (T sp.In sp.Out)} {past : List Exchange} (h : Inv sp st past) {e : Exchange}
    (he : follow sp (playOf sp past) e = playOf sp past) (ha : e.advances = false) : Inv sp st (past ++ [e]) where
  goal := h.goal
  fresh hf := h.fresh (fresh_snoc hf).1
  here p k rest hp := by rw [playOf_snoc, he] at hp ⊢; exact h.here p k rest hp
  won p k rest hp := by rw [playOf_snoc, he] at hp ⊢; exact h.won p k rest hp

/-- Exchanges that start a play. -/
theorem Inv.restart {st : ShellState (T sp.In sp.Out)} {past : List Exchange} (h : Inv sp st past) {e : Exchange} (ha : e.advances = false)
    {cur : T sp.In sp.Out}
    (he : follow sp (playOf sp past) e = [] ∨ ∃ p k, follow sp (playOf sp past) e = [(p, k)] ∧ cur = pre {p}) :
    Inv sp { st with cur := cur } (past ++ [e]) where
  goal := h.goal
  fresh hf := h.fresh (fresh_snoc hf).1
  here p k rest hp := by
    rw [playOf_snoc] at hp
    rcases he with he | ⟨p', k', he, hc⟩
    · rw [he] at hp; cases hp
    · rw [he] at hp; cases hp; exact .inl hc
  won p k rest hp hw := by
    rw [playOf_snoc] at hp hw
    rcases he with he | ⟨p', k', he, hc⟩
    · rw [he] at hp; cases hp
    · rw [he] at hp hw; cases hp
      exact ⟨fromWinning_single.mp hw, fun h => absurd rfl h⟩

section
variable {vs : IVars (T sp.In sp.Out)} (hv : IVarsOK sp vs) {sh : Shell (T sp.In sp.Out)} {S : Nat → T sp.In sp.Out} (hs : ShellOK sp sh S)
include hv hs

/-! ### First positions -/

omit hs in
/-- The first position that is chosen; `W` are the winning positions. -/
theorem init_of {W : Set (Pos sp.In sp.Out)} (hw : sh.winning = pre W) :
    (∃ p, (sp.game.initEnv p.1 ∧ sp.game.initSys p ∧ p ∈ W) ∧ determinize (semMgr sp.In sp.Out) (vs.pre.map Prod.snd)
      ((semMgr sp.In sp.Out).and ((semMgr sp.In sp.Out).and sh.winning (gameCtx (padGame sp.game)).initEnv) (gameCtx (padGame sp.game)).initSys) = pre {p}) ∨
    ((¬ ∃ p, sp.game.initEnv p.1 ∧ sp.game.initSys p ∧ p ∈ W) ∧ determinize (semMgr sp.In sp.Out) (vs.pre.map Prod.snd)
      ((semMgr sp.In sp.Out).and ((semMgr sp.In sp.Out).and sh.winning (gameCtx (padGame sp.game)).initEnv) (gameCtx (padGame sp.game)).initSys) =
        (semMgr sp.In sp.Out).ff) := by
  have e : (semMgr sp.In sp.Out).and ((semMgr sp.In sp.Out).and sh.winning (gameCtx (padGame sp.game)).initEnv) (gameCtx (padGame sp.game)).initSys =
      pre {p | sp.game.initEnv p.1 ∧ sp.game.initSys p ∧ p ∈ W} := by
    rw [hw]
    funext s t
    simp only [semMgr, pre, gameCtx, padGame, Set.mem_ofPred_eq, eq_iff_iff]
    constructor
    · rintro ⟨⟨a, b⟩, c⟩; exact ⟨b, c, a⟩
    · rintro ⟨b, c, a⟩; exact ⟨⟨a, b⟩, c⟩
  rw [e]
  by_cases h : ∃ p, sp.game.initEnv p.1 ∧ sp.game.initSys p ∧ p ∈ W
  · obtain ⟨p, hp, he⟩ := det_pre hv.vars_ok (S := {p | sp.game.initEnv p.1 ∧ sp.game.initSys p ∧ p ∈ W}) h
    exact .inl ⟨p, hp, he⟩
  · refine .inr ⟨h, ?_⟩
    have : (pre {p | sp.game.initEnv p.1 ∧ sp.game.initSys p ∧ p ∈ W} : T sp.In sp.Out) = (semMgr sp.In sp.Out).ff := by
      rw [ff_iff]
      rintro ⟨s, t, hst⟩
      exact h ⟨s, hst⟩
    rw [this]
    exact isDet_ff (determinize_isDet (semReading _ _) _ _)

theorem init_pos : (∃ p, Start sp p ∧ determinize (semMgr sp.In sp.Out) (vs.pre.map Prod.snd)
      ((semMgr sp.In sp.Out).and ((semMgr sp.In sp.Out).and sh.winning (gameCtx (padGame sp.game)).initEnv) (gameCtx (padGame sp.game)).initSys) = pre {p}) ∨
    ((¬ ∃ p, Start sp p) ∧ determinize (semMgr sp.In sp.Out) (vs.pre.map Prod.snd)
      ((semMgr sp.In sp.Out).and ((semMgr sp.In sp.Out).and sh.winning (gameCtx (padGame sp.game)).initEnv) (gameCtx (padGame sp.game)).initSys) =
        (semMgr sp.In sp.Out).ff) := init_of hv hs.winning

omit hs in
/-- The label printed for a position. -/
theorem label_of (p : Pos sp.In sp.Out) :
    posOfLabel sp (vs.pre.map fun v => (v.1, if (semMgr sp.In sp.Out).and v.2 (pre {p}) = (semMgr sp.In sp.Out).ff then false else true)) = p := by
  symm
  refine (hv.label_iff (by simp) p p).mp ?_
  rw [List.forall₂_map_left_iff]
  refine List.forall₂_same.mpr fun v hvm => ?_
  have hind := hv.vars_ok.label_indep v hvm
  by_cases h : v.2 p p
  · rw [if_neg]
    · simp [h]
    · rw [ff_iff, not_not]
      exact ⟨p, p, h, rfl⟩
  · rw [if_pos]
    · simp [h]
    · rw [ff_iff]
      rintro ⟨s, t, h1, h2⟩
      cases h2
      exact h ((hind _ _ _).mp h1)

theorem startPos_right {st st' : ShellState (T sp.In sp.Out)} {i i' : Stdin} {rnd rnd' : List Bool} {past : List Exchange} {e : Exchange}
    (hI : Inv sp st past) (h : execCmd (semMgr sp.In sp.Out) (gameCtx (padGame sp.game)) vs sh st i rnd .startPos = .next st' i' rnd' e) :
    Right sp S past e ∧ Inv sp st' (past ++ [e]) := by
  rw [execCmd] at h
  cases h
  rcases init_pos hv hs with ⟨p, hp, he⟩ | ⟨hno, he⟩
  · rw [he]
    refine ⟨⟨?_, ?_⟩, hI.restart rfl (.inr ⟨p, 0, ?_, rfl⟩)⟩
    · rw [List.map_map]; exact hv.pre_names
    · rw [label_of hv]; exact fun _ => hp
    · simp only [follow, label_of hv]
      rw [if_pos (by rw [label_of hv]; exact hp)]
  · rw [he]
    refine ⟨⟨?_, fun h => absurd h hno⟩, hI.restart rfl (.inl ?_)⟩
    · rw [List.map_map]; exact hv.pre_names
    · simp only [follow]
      rw [if_neg fun hp => hno ⟨_, hp⟩]

theorem getInit_right {st st' : ShellState (T sp.In sp.Out)} {i i' : Stdin} {rnd rnd' : List Bool} {past : List Exchange} {e : Exchange}
    (hI : Inv sp st past) (h : execCmd (semMgr sp.In sp.Out) (gameCtx (padGame sp.game)) vs sh st i rnd .getInit = .next st' i' rnd' e) :
    Right sp S past e ∧ Inv sp st' (past ++ [e]) := by
  rw [execCmd] at h
  cases h
  rcases init_pos hv hs with ⟨p, hp, he⟩ | ⟨hno, he⟩
  · rw [he, hv.bits_single]
    refine ⟨⟨rfl, fun _ => ⟨p, hp, rfl⟩⟩, hI.restart rfl (.inr ⟨p, 0, ?_, rfl⟩)⟩
    simp only [follow, hv.posOfBits_bitsOf]
    rw [if_pos (by rw [hv.posOfBits_bitsOf]; exact hp)]
  · rw [he, hv.bits_none]
    refine ⟨⟨rfl, fun h => absurd h hno⟩, hI.restart rfl (.inl ?_)⟩
    simp only [follow]
    rw [if_neg fun hp => hno ⟨_, hp⟩]

omit hs in
theorem setPos_right {st st' : ShellState (T sp.In sp.Out)} {i i' : Stdin} {rnd rnd' : List Bool} {past : List Exchange} {e : Exchange}
    (hI : Inv sp st past) (h : execCmd (semMgr sp.In sp.Out) (gameCtx (padGame sp.game)) vs sh st i rnd .setPos = .next st' i' rnd' e) :
    Right sp S past e ∧ Inv sp st' (past ++ [e]) := by
  rw [execCmd] at h
  cases h
  obtain ⟨h1, h2⟩ := readValues_sem vs.pre i (semMgr sp.In sp.Out).tt
  refine ⟨?_, hI.restart rfl (.inr ⟨_, 0, rfl, ?_⟩)⟩
  · show (List.map _ _).Perm _
    rw [h1]; exact hv.pre_names
  · funext s t
    rw [eq_iff_iff, h2 s t, hv.label_iff h1]
    exact ⟨fun h => h.2, fun h => ⟨trivial, h⟩⟩

/-! ### Transitions -/

theorem makeTrans_right {random : Bool} {st st' : ShellState (T sp.In sp.Out)} {i i' : Stdin} {rnd rnd' : List Bool} {past : List Exchange} {e : Exchange}
    (hI : Inv sp st past)
    (h : execMakeTrans (semMgr sp.In sp.Out) (gameCtx (padGame sp.game)) vs sh random st i rnd = .next st' i' rnd' e) :
    Right sp S past e ∧ Inv sp st' (past ++ [e]) := by
  rw [execMakeTrans] at h
  rw [if_neg (by rw [hs.real]; simp)] at h
  cases hr : readForced (semMgr sp.In sp.Out) vs.postIn i (semMgr sp.In sp.Out).tt with
  | none => rw [hr] at h; cases h
  | some r =>
    obtain ⟨typed, postInput, i1⟩ := r
    rw [hr] at h
    dsimp only at h
    obtain ⟨hlen, hpi⟩ := readForced_sem _ _ _ hr
    have hlen' : typed.length = sp.inputs.length := hlen.trans hv.length_postIn
    have hpi' : ∀ s t, postInput s t ↔ Fits typed (bitsOf sp t) := fun s t => by
      rw [hpi, hv.lits_postIn hlen]
      exact ⟨fun h => h.2, fun h => ⟨trivial, h⟩⟩
    by_cases htr : (semMgr sp.In sp.Out).and ((semMgr sp.In sp.Out).and st.cur postInput) (gameCtx (padGame sp.game)).safetyEnv = (semMgr sp.In sp.Out).ff
    · rw [if_pos htr] at h
      cases h
      refine ⟨⟨hlen', fun p k rest hp hw => ?_⟩, hI.same rfl rfl⟩
      rintro ⟨t, ht, hf⟩
      rcases hI.here p k rest hp with hc | ⟨_, hc⟩
      · rw [ff_iff] at htr
        exact htr ⟨p, t, ⟨by rw [hc]; rfl, (hpi' _ _).mpr hf⟩, ht⟩
      · exact hc hw
    · rw [if_neg htr] at h
      have hget : sh.strategies[st.goal]? = some (S st.goal) := by
        rw [hs.strategies, List.getElem?_map, List.getElem?_range hI.goal]; rfl
      rw [hget] at h
      dsimp only at h
      have hgoal : st.goal < (gameCtx (padGame sp.game)).livenessGuarantees.length := by
        show _ < (padGame sp.game).guarantees.length
        rw [goals_padGame]; exact hI.goal
      generalize hcomb : (if random = true then determinizeRandomized (semMgr sp.In sp.Out) rnd (vs.post.map Prod.snd)
          ((semMgr sp.In sp.Out).and ((semMgr sp.In sp.Out).and ((semMgr sp.In sp.Out).and st.cur postInput) (gameCtx (padGame sp.game)).safetyEnv) (S st.goal))
        else determinize (semMgr sp.In sp.Out) (vs.post.map Prod.snd)
          ((semMgr sp.In sp.Out).and ((semMgr sp.In sp.Out).and ((semMgr sp.In sp.Out).and st.cur postInput) (gameCtx (padGame sp.game)).safetyEnv) (S st.goal)))
        = comb at h
      obtain ⟨next, hnext, hj⟩ := goalJump_some (gameCtx (padGame sp.game)).livenessGuarantees comb hgoal
      have hnext' : next < sp.goals := by rw [← goals_padGame]; exact hnext
      rw [hj] at h
      cases h
      have hdet : IsDet (fun f (w : Pos sp.In sp.Out × Pos sp.In sp.Out) => f w.1 w.2) (vs.post.map Prod.snd)
          ((semMgr sp.In sp.Out).and ((semMgr sp.In sp.Out).and ((semMgr sp.In sp.Out).and st.cur postInput) (gameCtx (padGame sp.game)).safetyEnv) (S st.goal)) comb := by
        rw [← hcomb]
        cases random
        · exact determinize_isDet (semReading _ _) _ _
        · exact determinizeRandomized_isDet (semReading _ _) _ _ _
      -- the transitions from a single position
      have key : ∀ p, st.cur = pre {p} →
          (semMgr sp.In sp.Out).and ((semMgr sp.In sp.Out).and ((semMgr sp.In sp.Out).and st.cur postInput) (gameCtx (padGame sp.game)).safetyEnv) (S st.goal) =
            from1 p {t | Fits typed (bitsOf sp t) ∧ sp.game.safetyEnv p t.1 ∧ S st.goal p t} := by
        intro p hc
        funext s t
        rw [eq_iff_iff]
        constructor
        · rintro ⟨⟨⟨h1, h2⟩, h3⟩, h4⟩
          rw [hc] at h1
          cases h1
          exact ⟨rfl, (hpi' _ _).mp h2, h3, h4⟩
        · rintro ⟨rfl, h2, h3, h4⟩
          exact ⟨⟨⟨by rw [hc]; rfl, (hpi' _ _).mpr h2⟩, h3⟩, h4⟩
      have hswap : ∀ p t : Pos sp.In sp.Out, (semMgr sp.In sp.Out).swap ((semMgr sp.In sp.Out).exPre (from1 p {t})) = pre {t} := by
        intro p t
        funext s u
        simp [semMgr, from1, pre]
      -- a step from a single position
      have step : ∀ p, st.cur = pre {p} → (∃ t, Fits typed (bitsOf sp t) ∧ sp.game.safetyEnv p t.1 ∧ S st.goal p t) →
          ∃ t, Fits typed (bitsOf sp t) ∧ sp.game.safetyEnv p t.1 ∧ S st.goal p t ∧ comb = from1 p {t} ∧
            (semMgr sp.In sp.Out).swap ((semMgr sp.In sp.Out).exPre comb) = pre {t} ∧ Advance sp p t st.goal next := by
        rintro p hc ⟨t0, ht0⟩
        rw [key p hc] at hdet
        obtain ⟨t, ⟨h1, h2, h3⟩, hcb⟩ := isDet_post hv.vars_ok.post_sep p hdet ⟨t0, ht0⟩
        refine ⟨t, h1, h2, h3, hcb, by rw [hcb, hswap], ?_⟩
        obtain ⟨next', hn1, hn2, _⟩ := goalJump_eq (padGame sp.game) (s := p) (t := t) hgoal
        rw [hcb] at hj
        rw [show next = next' from Option.some.inj (hj.symm.trans hn1)]
        exact (advance_of_step hI.goal).mp hn2
      have hsome : ∀ p, st.cur = pre {p} → sp.game.SysWins p → ∃ t, Fits typed (bitsOf sp t) ∧ sp.game.safetyEnv p t.1 ∧ S st.goal p t := by
        intro p hc hw
        rw [ff_iff, not_not] at htr
        obtain ⟨s, t, ⟨h1, h2⟩, h3⟩ := htr
        rw [hc] at h1
        cases h1
        obtain ⟨o, ho⟩ := hs.moves.total _ hI.goal p t.1 hw h3
        refine ⟨(t.1, o), ?_, h3, ho⟩
        -- only the inputs have been typed
        have := (hpi' p t).mp h2
        intro k c b hk hb
        have hki : k < sp.inputs.length := by rw [← hlen']; exact (List.getElem?_eq_some_iff.mp hk).1
        refine this k c b hk ?_
        rw [bitsOf, List.getElem?_append_left (by simpa using hki)] at hb ⊢
        exact hb
      refine ⟨⟨hlen', fun p k rest hp hw => ?_⟩, ?_⟩
      · obtain ⟨hwin, hk⟩ := hI.won p k rest hp hw
        rcases hI.here p k rest hp with hc | ⟨_, hc⟩
        · obtain ⟨t, h1, h2, h3, h4, h5, h6⟩ := step p hc (hsome p hc hwin)
          refine ⟨t, ?_, h2, h1, st.goal, hI.goal, fun hne => (hk hne).symm, hI.fresh, h3, hnext', h6⟩
          rw [h5, hv.bits_single]
        · exact absurd hw hc
      · refine ⟨hnext', fun hf => ?_, ?_, ?_⟩
        · exact absurd (fresh_snoc hf).2 (by simp [Exchange.advances])
        · intro p' k' rest' hp'
          rw [playOf_snoc, follow] at hp' ⊢
          by_cases he : playOf sp past = []
          · rw [if_pos he] at hp'; cases hp'
          · rw [if_neg he] at hp' ⊢
            cases hp'
            rw [fromWinning_cons he]
            obtain ⟨p, k, rest, hp⟩ : ∃ p k rest, playOf sp past = (p, k) :: rest := by
              cases hq : playOf sp past with
              | nil => exact absurd hq he
              | cons a l => exact ⟨_, _, _, rfl⟩
            rcases hI.here p k rest hp with hc | ⟨hc, hw⟩
            · by_cases hex : ∃ t, Fits typed (bitsOf sp t) ∧ sp.game.safetyEnv p t.1 ∧ S st.goal p t
              · obtain ⟨t, _, _, _, _, h5, _⟩ := step p hc hex
                left
                dsimp only
                rw [h5, hv.bits_single, hv.posOfBits_bitsOf]
              · right
                refine ⟨?_, fun hw => hex (hsome p hc (hI.won p k rest hp hw).1)⟩
                dsimp only
                have h0 : (semMgr sp.In sp.Out).and ((semMgr sp.In sp.Out).and ((semMgr sp.In sp.Out).and st.cur postInput) (gameCtx (padGame sp.game)).safetyEnv) (S st.goal) =
                    (semMgr sp.In sp.Out).ff := by
                  rw [key p hc, ff_iff]
                  rintro ⟨s, t, _, h2⟩
                  exact hex ⟨t, h2⟩
                rw [h0] at hdet
                rw [isDet_ff hdet, ff_iff]
                rintro ⟨s, t, u, hu⟩
                exact hu
            · exfalso
              apply htr
              rw [ff_iff, hc]
              rintro ⟨s, t, ⟨h1, _⟩, _⟩
              exact h1
        · intro p' k' rest' hp' hw'
          rw [playOf_snoc, follow] at hp' hw'
          by_cases he : playOf sp past = []
          · rw [if_pos he] at hp'; cases hp'
          · rw [if_neg he] at hp' hw'
            cases hp'
            rw [fromWinning_cons he] at hw'
            obtain ⟨p, k, rest, hp⟩ : ∃ p k rest, playOf sp past = (p, k) :: rest := by
              cases hq : playOf sp past with
              | nil => exact absurd hq he
              | cons a l => exact ⟨_, _, _, rfl⟩
            refine ⟨?_, fun _ => rfl⟩
            rcases hI.here p k rest hp with hc | ⟨_, hc⟩
            · obtain ⟨t, _, _, h3, _, h5, _⟩ := step p hc (hsome p hc (hI.won p k rest hp hw').1)
              rw [h5, hv.bits_single, hv.posOfBits_bitsOf]
              exact (hs.moves.safe _ hI.goal p t h3).2
            · exact absurd hw' hc

end

end Slugs.Model
