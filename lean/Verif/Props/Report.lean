import Verif.Lemmas.ReportFile
import Verif.Lemmas.ReportText
import Verif.Props.Analyze
import Verif.Props.StuckAt

/-!
# C82: specification reports

`Report.createReport` is the model of `createSpecificationReport.py`, which calls the structured slugs compiler, slugs and `analyzeStuckAtConstant.py`.
`Spec/Report.lean` says which positions are winning by environment falsification, which lines of the specification are shown, and what a text in an HTML file is.
-/

namespace Slugs.Spec

variable {I O I' O' : Type}

theorem Embeds.initEnv_iff {g : Game I O} {g' : Game I' O'} {eI : I → I'} {eO : O → O'} (h : Embeds g g' eI eO) (i : I) : g'.initEnv (eI i) ↔ g.initEnv i := by
  rw [h.initEnv]
  exact ⟨fun ⟨j, e, hj⟩ => h.injI e ▸ hj, fun hi => ⟨i, rfl, hi⟩⟩

theorem Embeds.initSys_iff {g : Game I O} {g' : Game I' O'} {eI : I → I'} {eO : O → O'} (h : Embeds g g' eI eO) (p : Pos I O) :
    g'.initSys (embPos eI eO p) ↔ g.initSys p := by
  rw [embPos, h.initSys]
  exact ⟨fun ⟨j, e, hj⟩ => by rw [← h.injO e] at hj; exact hj, fun hi => ⟨p.2, rfl, hi⟩⟩

/-- The reachable positions of the larger game encode those of the game. -/
theorem Embeds.reachable {g : Game I O} {g' : Game I' O'} {eI : I → I'} {eO : O → O'} (h : Embeds g g' eI eO) (p' : Pos I' O') :
    g'.Reachable p' ↔ ∃ p, p' = embPos eI eO p ∧ g.Reachable p := by
  constructor
  · intro hr
    induction hr with
    | @start s h1 h2 =>
      obtain ⟨i', o'⟩ := s
      obtain ⟨i, rfl, h3⟩ := (h.initEnv _).mp h1
      obtain ⟨o, rfl, h4⟩ := (h.initSys _ _).mp h2
      exact ⟨(i, o), rfl, .start h3 h4⟩
    | @step s t _ h2 h3 ih =>
      obtain ⟨p, rfl, hp⟩ := ih
      obtain ⟨i', o'⟩ := t
      obtain ⟨i, rfl, h4⟩ := (h.safetyEnv _ _).mp h2
      obtain ⟨o, rfl, h5⟩ := (h.safetySys _ _ _).mp h3
      exact ⟨(i, o), rfl, .step hp h4 h5⟩
  · rintro ⟨p, rfl, hp⟩
    induction hp with
    | start h1 h2 => exact .start ((h.initEnv_iff _).mpr h1) ((h.initSys_iff _).mpr h2)
    | @step s t _ h2 h3 ih => exact .step ih ((h.safetyEnv _ _).mpr ⟨t.1, rfl, h2⟩) ((h.safetySys _ _ _).mpr ⟨t.2, rfl, h3⟩)

theorem card_image {X X' : Type} {e : X → X'} (he : Function.Injective e) {P : X → Prop} {P' : X' → Prop} (h : ∀ x', P' x' ↔ ∃ x, x' = e x ∧ P x) :
    Nat.card {x' // P' x'} = Nat.card {x // P x} := by
  refine (Nat.card_congr (Equiv.ofBijective (fun x : {x // P x} => (⟨e x.1, (h _).mpr ⟨x.1, rfl, x.2⟩⟩ : {x' // P' x'})) ⟨fun x y hxy => ?_, fun y => ?_⟩)).symm
  · exact Subtype.ext (he (congrArg Subtype.val hxy))
  · obtain ⟨x, hx, hp⟩ := (h y.1).mp y.2
    exact ⟨⟨x, hp⟩, Subtype.ext hx.symm⟩

theorem card_image_and {X X' : Type} {e : X → X'} (he : Function.Injective e) {P Q : X → Prop} {P' Q' : X' → Prop} (h : ∀ x', P' x' ↔ ∃ x, x' = e x ∧ P x)
    (hq : ∀ x, Q' (e x) ↔ Q x) : Nat.card {x' // P' x' ∧ Q' x'} = Nat.card {x // P x ∧ Q x} := by
  refine card_image he fun x' => ?_
  rw [h]
  constructor
  · rintro ⟨⟨x, rfl, h1⟩, h2⟩; exact ⟨x, rfl, h1, (hq x).mp h2⟩
  · rintro ⟨x, rfl, h1, h2⟩; exact ⟨⟨x, rfl, h1⟩, (hq x).mpr h2⟩

end Slugs.Spec

namespace Slugs.Props

open Slugs.Spec Slugs.Spec.Structured Slugs.Model Slugs.Model.Structured Slugs.Model.Report

variable {B : Type} [DecidableEq B] [L : BddLib B]

/-- The numbers that are printed are the numbers of positions and inputs among those in `C`; `W` are the positions that are called winning. -/
structure Counts {I O : Type} (g : Game I O) (C W : Pos I O → Prop) (a : Analysis) : Prop where
  nofPos : a.nofPos = some (Nat.card {p // C p})
  nofPosA : a.nofPosA = some (Nat.card {p : Pos I O // C p ∧ g.initEnv p.1})
  nofPosG : a.nofPosG = some (Nat.card {p // C p ∧ g.initSys p})
  nofPosAG : a.nofPosAG = some (Nat.card {p : Pos I O // C p ∧ g.initEnv p.1 ∧ g.initSys p})
  nofWPos : a.nofWPos = some (Nat.card {p // C p ∧ W p})
  nofWPosA : a.nofWPosA = some (Nat.card {p : Pos I O // C p ∧ g.initEnv p.1 ∧ W p})
  nofWPosG : a.nofWPosG = some (Nat.card {p // C p ∧ g.initSys p ∧ W p})
  nofWPosAG : a.nofWPosAG = some (Nat.card {p : Pos I O // C p ∧ g.initEnv p.1 ∧ g.initSys p ∧ W p})
  nofInputs : a.nofInputs = some (Nat.card {i : I // ∃ o, C (i, o)})
  nofAllowedInitialInputs : a.nofAllowedInitialInputs = some (Nat.card {i : I // (∃ o, C (i, o)) ∧ g.initEnv i})

/-- The inputs after which the system cannot choose a winning initial position. -/
def Forced {I O : Type} (g : Game I O) (W : Pos I O → Prop) (i : I) : Prop := g.initEnv i ∧ ∀ o, g.initSys (i, o) → ¬ W (i, o)

/-- The number of these inputs is printed correctly, or is missing ("nan").  It is missing if and only if there is such an input that is considered with some outputs
and not with others; here, if `spare` holds, there are bit patterns of outputs that are never considered. -/
def CountsLosing {I O : Type} (g : Game I O) (spare : Prop) (C W : Pos I O → Prop) (a : Analysis) : Prop :=
  ((∃ i o, Forced g W i ∧ C (i, o) ∧ (spare ∨ ∃ o', ¬ C (i, o'))) ∧ a.nofInputsSystemLosing = none) ∨
  ((¬ ∃ i o, Forced g W i ∧ C (i, o) ∧ (spare ∨ ∃ o', ¬ C (i, o'))) ∧ a.nofInputsSystemLosing = some (Nat.card {i : I // (∃ o, C (i, o)) ∧ Forced g W i}))

/-- All outputs are Boolean, or have a number of values that is a power of two. -/
def PowersOfTwo (ds : List Decl) : Prop := ∀ d ∈ ds, ∀ lo hi, d.range = some (lo, hi) → ∃ k : Nat, hi - lo + 1 = 2 ^ k

theorem powers_limits {ds : List Decl} (hp : PowersOfTwo ds) (names : Decl → List Word) : limits ds names = [] := by
  rw [limits, List.flatMap_eq_nil_iff]
  intro d hd
  cases hr : d.range with
  | none => rfl
  | some q =>
    obtain ⟨lo, hi⟩ := q
    obtain ⟨k, hk⟩ := hp d hd lo hi hr
    have hpos : 0 < (2 : Nat) ^ k := Nat.pow_pos (by norm_num)
    have e : (hi - lo).toNat = 2 ^ k - 1 := by
      have : ((2 ^ k : Nat) : Int) = 2 ^ k := by norm_cast
      omega
    have e2 : Structured.sizeOf lo hi = 2 ^ k := by
      have : ((2 ^ k : Nat) : Int) = 2 ^ k := by norm_cast
      rw [Structured.sizeOf]; omega
    have e3 : bitsFor (hi - lo) = k := by
      rw [bitsFor, e]
      apply Nat.le_antisymm
      · rw [Nat.size_le]; omega
      · cases k with
        | zero => exact Nat.zero_le _
        | succ k =>
          refine Nat.lt_size.mpr ?_
          have : 0 < 2 ^ k := Nat.pow_pos (by norm_num)
          rw [Nat.pow_succ]; omega
    dsimp only
    rw [if_pos (by rw [e2, e3])]

/-- The positions that are considered are the encodings of positions. -/
theorem considered_iff {S : SSpec} (hok : DeclsOk (S.inputs ++ S.outputs)) {e1 e2 e3 e4 e5 e6 : List Fml}
    (he : Embeds S.game (fullSpec true S e1 e2 e3 e4 e5 e6).game (eI S) (eO S)) (restrict : Bool) (p' : Pos (fullSpec true S e1 e2 e3 e4 e5 e6).In (fullSpec true S e1 e2 e3 e4 e5 e6).Out) :
    (fullSpec true S e1 e2 e3 e4 e5 e6).Considered (limitList S) restrict p' ↔
      ∃ p, p' = embPos (eI S) (eO S) p ∧ (restrict = true → S.game.Reachable p) := by
  obtain ⟨i', o'⟩ := p'
  have hI : ∀ w (hw : w ∈ flatNames S.inputs), (flatSpec S).look (i', o') (i', o') w = i' ⟨w, hw⟩ := fun w hw => by
    rw [look_flat_now (by rw [flatNames_append]; simp [hw]), now_flat_input hw]; rfl
  have hO : ∀ w (hw : w ∈ flatNames S.outputs), (flatSpec S).look (i', o') (i', o') w = o' ⟨w, hw⟩ := fun w hw => by
    rw [look_flat_now (by rw [flatNames_append]; simp [hw]), now_flat_output hok hw]; rfl
  have hl : (∀ φ ∈ limitList S, (fullSpec true S e1 e2 e3 e4 e5 e6).holds (i', o') (i', o') φ) ↔ ∃ p, (i', o') = embPos (eI S) (eO S) p := by
    change (∀ φ ∈ limits S.inputs bitsOf ++ limits S.outputs bitsOf, (flatSpec S).holds (i', o') (i', o') φ) ↔ _
    rw [List.forall_mem_append]
    change (∀ φ ∈ limits S.inputs bitsOf, φ.eval ((flatSpec S).look (i', o') (i', o')) [] = some true) ∧
      (∀ φ ∈ limits S.outputs bitsOf, φ.eval ((flatSpec S).look (i', o') (i', o')) [] = some true) ↔ _
    rw [limits_inRange hok.left, limits_inRange hok.right, enc_exists hok.left i' hI, enc_exists hok.right o' hO]
    constructor
    · rintro ⟨⟨i, hi⟩, o, ho⟩; exact ⟨(i, o), Prod.ext hi ho⟩
    · rintro ⟨p, hp⟩; exact ⟨⟨p.1, congrArg Prod.fst hp⟩, p.2, congrArg Prod.snd hp⟩
  rw [SpecFile.Considered, hl, he.reachable]
  constructor
  · rintro ⟨⟨p, hp⟩, h2⟩
    refine ⟨p, hp, fun hr => ?_⟩
    obtain ⟨q, hq, h3⟩ := h2 hr
    rw [embPos_inj he.injI he.injO (hp.symm.trans hq)]
    exact h3
  · rintro ⟨p, hp, h2⟩
    exact ⟨⟨p, hp⟩, fun hr => ⟨p, hp, h2 hr⟩⟩

theorem binary_ones (n : Nat) : binary (List.replicate n true) + 1 = 2 ^ n := by
  induction n with
  | zero => rfl
  | succ n ih => rw [List.replicate_succ, binary, Nat.pow_succ, ← ih]; simp; omega

/-- If some number of values is not a power of two, then some bit patterns do not encode values. -/
theorem spare_pattern {ds : List Decl} (h : DeclsOk ds) : (∃ f : {x // x ∈ flatNames ds} → Bool, ¬ ∃ v : Valuation ds, f = fun x => enc ds v.1 x.1) ↔ ¬ PowersOfTwo ds := by
  constructor
  · rintro ⟨f, hf⟩ hp
    refine hf ((enc_exists h f (ρ := fun w => if hw : w ∈ flatNames ds then f ⟨w, hw⟩ else false) fun w hw => dif_pos hw).mp ?_)
    rw [← limits_inRange h, powers_limits hp]
    simp
  · intro hp
    refine ⟨fun _ => true, fun hv => hp fun d hd lo hi hr => ?_⟩
    have := (enc_exists h (fun _ => true) (ρ := fun _ => true) fun _ _ => rfl).mpr hv d hd lo hi hr
    have hs := size_bits (h.range d hd lo hi hr).2
    have hc : (bitsOf d).map (fun _ => true) = List.replicate (bitsFor (hi - lo)) true := by rw [List.map_const', bits_length hr]
    rw [hc] at this
    have h1 := binary_ones (bitsFor (hi - lo))
    refine ⟨bitsFor (hi - lo), ?_⟩
    rw [Structured.sizeOf] at hs
    have e : ((2 ^ bitsFor (hi - lo) : Nat) : Int) = 2 ^ bitsFor (hi - lo) := by norm_cast
    rw [← e]
    have := (h.range d hd lo hi hr).2
    omega

/-- The numbers for a file that encodes a structured specification. -/
theorem exact_counts {S : SSpec} (hok : DeclsOk (S.inputs ++ S.outputs)) {e1 e2 e3 e4 e5 e6 : List Fml}
    (he : Embeds S.game (fullSpec true S e1 e2 e3 e4 e5 e6).game (eI S) (eO S)) {restrict : Bool} {a : Analysis}
    (h : Exact (fullSpec true S e1 e2 e3 e4 e5 e6) (limitList S) restrict a)
    (h' : ((∃ i o o', ForcedToLose (fullSpec true S e1 e2 e3 e4 e5 e6) i ∧ (fullSpec true S e1 e2 e3 e4 e5 e6).Considered (limitList S) restrict (i, o) ∧
        ¬ (fullSpec true S e1 e2 e3 e4 e5 e6).Considered (limitList S) restrict (i, o')) ∧ a.nofInputsSystemLosing = none) ∨
      ((¬ ∃ i o o', ForcedToLose (fullSpec true S e1 e2 e3 e4 e5 e6) i ∧ (fullSpec true S e1 e2 e3 e4 e5 e6).Considered (limitList S) restrict (i, o) ∧
        ¬ (fullSpec true S e1 e2 e3 e4 e5 e6).Considered (limitList S) restrict (i, o')) ∧ ExactLosing (fullSpec true S e1 e2 e3 e4 e5 e6) (limitList S) restrict a)) :
    Counts S.game (fun p => restrict = true → S.game.Reachable p) S.game.SysWins a ∧
      CountsLosing S.game (¬ PowersOfTwo S.outputs) (fun p => restrict = true → S.game.Reachable p) S.game.SysWins a := by
  have hc := considered_iff hok he restrict
  have inj := embPos_inj he.injI he.injO
  have A : ∀ p : Pos S.In S.Out, (fullSpec true S e1 e2 e3 e4 e5 e6).game.initEnv (embPos (eI S) (eO S) p).1 ↔ S.game.initEnv p.1 := fun p => he.initEnv_iff p.1
  have G := he.initSys_iff
  have W := he.sysWins
  have hin : ∀ i', (∃ o', (fullSpec true S e1 e2 e3 e4 e5 e6).Considered (limitList S) restrict (i', o')) ↔ ∃ i, i' = eI S i ∧ ∃ o, restrict = true → S.game.Reachable (i, o) := by
    intro i'
    constructor
    · rintro ⟨o', ho⟩
      obtain ⟨p, hp, h1⟩ := (hc _).mp ho
      exact ⟨p.1, congrArg Prod.fst hp, p.2, h1⟩
    · rintro ⟨i, rfl, o, ho⟩
      exact ⟨eO S o, (hc _).mpr ⟨(i, o), rfl, ho⟩⟩
  have F : ∀ i, ForcedToLose (fullSpec true S e1 e2 e3 e4 e5 e6) (eI S i) ↔ Forced S.game S.game.SysWins i := by
    intro i
    rw [Forced]
    change (fullSpec true S e1 e2 e3 e4 e5 e6).game.initEnv (eI S i) ∧ (∀ o', (fullSpec true S e1 e2 e3 e4 e5 e6).game.initSys (eI S i, o') →
      ¬ (fullSpec true S e1 e2 e3 e4 e5 e6).game.SysWins (eI S i, o')) ↔ _
    rw [he.initEnv_iff]
    refine and_congr_right fun _ => ⟨fun h o ho hw => ?_, fun h o' ho' hw => ?_⟩
    · exact h (eO S o) ((G (i, o)).mpr ho) ((W (i, o)).mpr hw)
    · obtain ⟨o, rfl, ho⟩ := (he.initSys _ _).mp ho'
      exact h o ho ((W (i, o)).mp hw)
  constructor
  · exact {
      nofPos := h.nofPos.trans (congrArg some (card_image inj hc))
      nofPosA := h.nofPosA.trans (congrArg some (card_image_and inj hc A))
      nofPosG := h.nofPosG.trans (congrArg some (card_image_and inj hc G))
      nofPosAG := h.nofPosAG.trans (congrArg some (card_image_and inj hc fun p => and_congr (A p) (G p)))
      nofWPos := h.nofWPos.trans (congrArg some (card_image_and inj hc W))
      nofWPosA := h.nofWPosA.trans (congrArg some (card_image_and inj hc fun p => and_congr (A p) (W p)))
      nofWPosG := h.nofWPosG.trans (congrArg some (card_image_and inj hc fun p => and_congr (G p) (W p)))
      nofWPosAG := h.nofWPosAG.trans (congrArg some (card_image_and inj hc fun p => and_congr (A p) (and_congr (G p) (W p))))
      nofInputs := h.nofInputs.trans (congrArg some (card_image he.injI hin))
      nofAllowedInitialInputs := h.nofAllowedInitialInputs.trans (congrArg some (card_image_and he.injI hin he.initEnv_iff)) }
  · have key : (∃ i o o', ForcedToLose (fullSpec true S e1 e2 e3 e4 e5 e6) i ∧ (fullSpec true S e1 e2 e3 e4 e5 e6).Considered (limitList S) restrict (i, o) ∧
        ¬ (fullSpec true S e1 e2 e3 e4 e5 e6).Considered (limitList S) restrict (i, o')) ↔ ∃ i o, Forced S.game S.game.SysWins i ∧
        (restrict = true → S.game.Reachable (i, o)) ∧ (¬ PowersOfTwo S.outputs ∨ ∃ o', ¬ (restrict = true → S.game.Reachable (i, o'))) := by
      constructor
      · rintro ⟨i', o1, o2, h1, h2, h3⟩
        obtain ⟨p, hp, hr⟩ := (hc _).mp h2
        obtain rfl : i' = eI S p.1 := congrArg Prod.fst hp
        refine ⟨p.1, p.2, (F p.1).mp h1, hr, ?_⟩
        by_cases hv : ∃ v : S.Out, o2 = eO S v
        · obtain ⟨v, rfl⟩ := hv
          exact .inr ⟨v, fun hv => h3 ((hc _).mpr ⟨(p.1, v), rfl, hv⟩)⟩
        · exact .inl ((spare_pattern hok.right).mp ⟨o2, hv⟩)
      · rintro ⟨i, o, h1, h2, h3⟩
        refine ⟨eI S i, eO S o, ?_⟩
        rcases h3 with h3 | ⟨o', h3⟩
        · obtain ⟨f, hf⟩ := (spare_pattern hok.right).mpr h3
          refine ⟨f, (F i).mpr h1, (hc _).mpr ⟨(i, o), rfl, h2⟩, fun h4 => ?_⟩
          obtain ⟨p, hp, _⟩ := (hc _).mp h4
          exact hf ⟨p.2, congrArg Prod.snd hp⟩
        · refine ⟨eO S o', (F i).mpr h1, (hc _).mpr ⟨(i, o), rfl, h2⟩, fun h4 => h3 ?_⟩
          obtain ⟨p, hp, h5⟩ := (hc _).mp h4
          obtain rfl : (i, o') = p := inj hp
          exact h5
    rw [key] at h'
    exact h'.imp_right fun h => ⟨h.1, h.2.trans (congrArg some (card_image_and he.injI hin F))⟩

/-- Without guarantees, the system must make the environment fail. -/
theorem noGuarantees_wins (S : SSpec) (p : Pos S.In S.Out) : (noGuarantees S).game.SysWins p ↔ S.game.ForcesFailure p := by
  have hist : ∀ σ h, (noGuarantees S).game.SysHist σ p h ↔ S.game.SysHist σ p h := by
    intro σ h
    constructor <;> intro hh
    · induction hh with
      | start => exact .start
      | step _ h2 ih => exact .step ih h2
    · induction hh with
      | start => exact .start
      | step _ h2 ih => exact .step ih h2
  have live : ∀ q, (noGuarantees S).game.Live q ↔ ∃ a ∈ S.game.assumptions, ¬ InfOften a q := by
    intro q
    rw [Game.Live]
    constructor
    · intro h
      by_contra hc
      push Not at hc
      obtain ⟨m, _, hm⟩ := h hc _ (List.mem_map_of_mem (List.mem_singleton.mpr rfl)) 0
      simp [SSpec.holds, Fml.eval] at hm
    · rintro ⟨a, ha, hn⟩ h
      exact absurd (h a ha) hn
  refine exists_congr fun σ => and_congr ?_ ?_
  · exact forall_congr' fun cur => forall_congr' fun h => forall_congr' fun i => imp_congr (hist σ _) Iff.rfl
  · exact forall_congr' fun q => imp_congr (forall_congr' fun n => hist σ _) (live q)

/-- The numbers for a file that denotes a specification with limits. -/
theorem analyze_counts {S : SSpec} (hok : DeclsOk (S.inputs ++ S.outputs)) {e1 e2 e3 e4 e5 e6 : List Fml} {text : List Char}
    (he : Embeds S.game (fullSpec true S e1 e2 e3 e4 e5 e6).game (eI S) (eO S)) (hd : Denotes text (fullSpec true S e1 e2 e3 e4 e5 e6)) {cap : Nat}
    (hp : ProperFile cap text) (hl : DenotesLimits text (limitList S))
    (hm : ∀ p ∈ markedItems none false (splitLines text), p.1 ≠ .envLiveness ∧ p.1 ≠ .sysLiveness) (order : List Char → Bool) (restrict : Bool) :
    ∃ rounds a, (∀ fuel, rounds ≤ fuel → runAnalyze B restrict cap order fuel text = .numbers a) ∧
      Counts S.game (fun p => restrict = true → S.game.Reachable p) S.game.SysWins a ∧
      CountsLosing S.game (¬ PowersOfTwo S.outputs) (fun p => restrict = true → S.game.Reachable p) S.game.SysWins a := by
  obtain ⟨⟨tab, c⟩, hi⟩ := C24_proper_accepted (B := B) cap order text hp
  obtain ⟨a, ha⟩ := (C36_terminates hi hd restrict _ (Nat.lt_succ_self _)).1 hm
  refine ⟨_, a, fun fuel hf => runAnalyze_more hf ha, ?_⟩
  exact exact_counts hok he (C36_numbers_exact_partial ha hd hl) (C36_losing_inputs_partial ha hd hl)

/-- **C82**, the numbers of the sections 4, 5 and 5b.  For every proper structured specification whose lines do not contain the mark of the compiler, the report counts
positions of the structured specification: section 4 those that are winning for the system, section 5 those from which the system can make the environment fail, and
section 5b the reachable ones among these.  (Partial because of the number of inputs that force the system to lose, which may be missing: `CountsLosing` says when.) -/
theorem C82_positions_partial {cap : Nat} (order : List Char → Bool) {file : List Char} {S : SSpec} (h : SDenotes file S)
    (hm : ∀ l ∈ splitLines (universal file), limitMark.isPrefixOf (pyTrim l) = false)
    (hl : ∀ out, convert true file = .ok out → ∀ l ∈ splitLines out, l.length ≤ cap) (h1 : 1 ≤ cap) (h32 : cap < 2 ^ 32) :
    ∃ rounds out modified a4 a5 a5b, convert true file = .ok out ∧ falsifyFile out = some modified ∧ (∀ fuel, rounds ≤ fuel →
        runAnalyze B false cap order fuel out = .numbers a4 ∧ runAnalyze B false cap order fuel modified = .numbers a5 ∧
        runAnalyze B true cap order fuel modified = .numbers a5b) ∧
      Counts S.game (fun _ => True) S.game.SysWins a4 ∧ Counts S.game (fun _ => True) S.game.ForcesFailure a5 ∧
      Counts S.game S.game.Reachable S.game.ForcesFailure a5b ∧ CountsLosing S.game (¬ PowersOfTwo S.outputs) (fun _ => True) S.game.SysWins a4 ∧
      CountsLosing S.game (¬ PowersOfTwo S.outputs) (fun _ => True) S.game.ForcesFailure a5 ∧
      CountsLosing S.game (¬ PowersOfTwo S.outputs) S.game.Reachable S.game.ForcesFailure a5b := by
  have hok := denotes_decls h
  obtain ⟨J, hJ, hL, hM⟩ := convert_lines true h
  have hM := hM hm
  have hlen : ∀ s, ∀ l ∈ J s, l.length ≤ cap := by
    intro s l hm
    refine hl _ hJ l ?_
    rw [splitLines_printLines _ (block_lines hL.out)]
    refine List.mem_flatMap.mpr ⟨s, by cases s <;> decide, ?_⟩
    rw [block, if_pos (List.length_pos_of_mem hm)]
    simp [hm]
  obtain ⟨e1, e2, e3, e4, e5, e6, d1, d2, d3⟩ := lines_denote true hok hL (text := printLines (outOrder.flatMap fun s => block s (J s))) (pp := properties) (by decide) (by intro s; cases s <;> decide)
    (by rw [splitLines_printLines _ (block_lines hL.out)]; exact content_blocks outOrder (fun s _ => hL.out s) none) hlen h32
  obtain ⟨m1, m2⟩ := lines_limits true hok hM (text := printLines (outOrder.flatMap fun s => block s (J s))) (ss := outOrder) (by decide)
    (by rw [splitLines_printLines _ (block_lines hL.out)]; exact marked_blocks outOrder (fun s _ => hL.out s) none false)
  obtain ⟨r4, a4, n4, c4, p4⟩ := analyze_counts (B := B) hok d3 d1 d2 m1 m2 order false
  have hL' := modified_lines true hL
  have hM' := modified_marked true hM
  have hsl : splitLines (StuckAt.writeSlugsFile (modifiedLines J)) = Core.sectionLines [[]] StuckAt.fileOrder (modifiedLines J) := by
    rw [StuckAt.writeSlugsFile, Core.writeLines_eq, splitLines_printLines]
    intro l hl
    obtain ⟨s, _, hl⟩ := List.mem_flatMap.mp hl
    rcases List.mem_cons.mp hl with rfl | hl
    · exact (Core.header_trim s).2
    · rcases List.mem_append.mp hl with hl | hl
      · exact (hL'.out s l hl).tight.line
      · simp only [List.mem_singleton] at hl; subst hl; simp
  have hlen' : ∀ s, ∀ l ∈ modifiedLines J s, l.length ≤ cap := by
    intro s l hl
    rw [modifiedLines] at hl
    split at hl
    · rw [List.mem_singleton] at hl; subst hl; exact h1
    · exact hlen s l (List.mem_filter.mp hl).1
  obtain ⟨f1, f2, f3, f4, f5, f6, b1, b2, b3⟩ := lines_denote true (S := noGuarantees S) hok hL' (text := StuckAt.writeSlugsFile (modifiedLines J))
    (pp := [.envTrans, .envInit, .sysTrans, .sysInit, .envLiveness, .sysLiveness]) (by decide) (by intro s; cases s <;> decide)
    (by rw [hsl]; exact content_sections StuckAt.fileOrder (fun s _ => hL'.out s) none) hlen' h32
  obtain ⟨k1, k2⟩ := lines_limits true (S := noGuarantees S) hok hM' (text := StuckAt.writeSlugsFile (modifiedLines J)) (ss := StuckAt.fileOrder) (by decide)
    (by rw [hsl]; exact marked_sections StuckAt.fileOrder (fun s _ => hL'.out s) none false)
  obtain ⟨r5, a5, n5, c5, p5⟩ := analyze_counts (B := B) (S := noGuarantees S) hok b3 b1 b2 k1 k2 order false
  obtain ⟨r6, a6, n6, c6, p6⟩ := analyze_counts (B := B) (S := noGuarantees S) hok b3 b1 b2 k1 k2 order true
  have eW : (noGuarantees S).game.SysWins = S.game.ForcesFailure := funext fun p => propext (noGuarantees_wins S p)
  have hre : ∀ p, (noGuarantees S).game.Reachable p ↔ S.game.Reachable p := by
    intro p
    constructor <;> intro hh
    · induction hh with
      | start h1 h2 => exact .start h1 h2
      | step _ h2 h3 ih => exact .step ih h2 h3
    · induction hh with
      | start h1 h2 => exact .start h1 h2
      | step _ h2 h3 ih => exact .step ih h2 h3
  have eC : ∀ {I O : Type} (T : Pos I O → Prop), (fun p => false = true → T p) = fun _ => True := fun T => funext fun p => propext (by simp)
  have eR : (fun p => true = true → (noGuarantees S).game.Reachable p) = S.game.Reachable := funext fun p => propext (by rw [← hre]; simp)
  refine ⟨max r4 (max r5 r6), _, _, a4, a5, a6, hJ, falsifyFile_eq hL.out, fun fuel hf => ?_, ?_, ?_, ?_, ?_, ?_, ?_⟩
  · simp only [max_le_iff] at hf
    exact ⟨n4 fuel hf.1, n5 fuel hf.2.1, n6 fuel hf.2.2⟩
  · rw [eC] at c4; exact c4
  · have : Counts (noGuarantees S).game (fun _ => True) (noGuarantees S).game.SysWins a5 := by rw [eC (noGuarantees S).game.Reachable] at c5; exact c5
    rw [eW] at this
    exact ⟨this.1, this.2, this.3, this.4, this.5, this.6, this.7, this.8, this.9, this.10⟩
  · have : Counts (noGuarantees S).game S.game.Reachable (noGuarantees S).game.SysWins a6 := by rw [eR] at c6; exact c6
    rw [eW] at this
    exact ⟨this.1, this.2, this.3, this.4, this.5, this.6, this.7, this.8, this.9, this.10⟩
  · rw [eC] at p4; exact p4
  · have : CountsLosing (noGuarantees S).game (¬ PowersOfTwo S.outputs) (fun _ => True) (noGuarantees S).game.SysWins a5 := by
      rw [eC (noGuarantees S).game.Reachable] at p5; exact p5
    rw [eW] at this
    exact this
  · have : CountsLosing (noGuarantees S).game (¬ PowersOfTwo S.outputs) S.game.Reachable (noGuarantees S).game.SysWins a6 := by rw [eR] at p6; exact p6
    rw [eW] at this
    exact this

/-- **C82**, section 1.  Whatever the file (if it does not start with more than 10000 blank lines), the lines that the report shall show are shown, one below the other. -/
theorem C82_copy (file : List Char) (h : ((splitLines file).takeWhile blankLine).length ≤ 10000) :
    ∃ tail, (tail = [] ∨ tail = ['\n'] ∨ tail = [' ']) ∧ ShowsText (copySpecification file) ((txt!"\n").intercalate (shownLines file) ++ tail) :=
  copySpecification_shows file h

/-- A text that is shown in an HTML file is determined by the file. -/
theorem C82_shown_unique {h t t' : List Char} (h1 : ShowsText h t) (h2 : ShowsText h t') : t = t' := by
  induction h1 generalizing t' with
  | nil => cases h2; rfl
  | plain a b c _ ih =>
    cases h2 with
    | plain _ _ _ h => rw [ih h]
    | lt h => exact absurd rfl c
    | gt h => exact absurd rfl c
    | amp h => exact absurd rfl c
  | lt _ ih =>
    cases h2 with
    | plain _ _ c _ => exact absurd rfl c
    | lt h => rw [ih h]
  | gt _ ih =>
    cases h2 with
    | plain _ _ c _ => exact absurd rfl c
    | gt h => rw [ih h]
  | amp _ ih =>
    cases h2 with
    | plain _ _ c _ => exact absurd rfl c
    | amp h => rw [ih h]

open Classical in
/-- **C82.** For every proper structured specification (without exotic white space, without the mark of the compiler, and with lines that slugs can handle after
compilation), the report is made.  It shows the specification, tells whether it is realizable, and if so, also whether it is realizable in the robotics semantics.
It counts the winning positions, the positions from which the system can make the environment fail, and the reachable positions among the latter.  It shows the report on stuck signals.
(Partial because of the number of inputs that force the system to lose, which may be missing: `CountsLosing` says when.) -/
theorem C82_report_partial {cap : Nat} (order : List Char → Bool) {file : List Char} {S : SSpec} (h : SDenotes file S)
    (hs : ∀ c ∈ file, pySpace c = true → c = ' ' ∨ c = '\t' ∨ c = '\n') (hb : ((splitLines file).takeWhile blankLine).length ≤ 10000)
    (hm : ∀ l ∈ splitLines file, limitMark.isPrefixOf (trim l) = false)
    (hl : ∀ t ∈ StuckAt.checkedFiles file, ∀ out, convert true t = .ok out → ∀ l ∈ splitLines out, l.length ≤ cap) (h1 : 1 ≤ cap) (h32 : cap < 2 ^ 32) :
    ∃ r rounds, (∀ fuel, rounds ≤ fuel → createReport B cap order fuel file = some r) ∧
      (∃ tail, (tail = [] ∨ tail = ['\n'] ∨ tail = [' ']) ∧ ShowsText r.copy ((txt!"\n").intercalate (shownLines file) ++ tail)) ∧
      (r.realizable = true ↔ S.game.Realizable) ∧
      r.robotics = (if S.game.Realizable then some (decide S.game.RoboticsRealizable) else none) ∧
      Counts S.game (fun _ => True) S.game.SysWins r.positions ∧ Counts S.game (fun _ => True) S.game.ForcesFailure r.falsifying ∧
      Counts S.game S.game.Reachable S.game.ForcesFailure r.falsifyingReachable ∧
      CountsLosing S.game (¬ PowersOfTwo S.outputs) (fun _ => True) S.game.SysWins r.positions ∧
      CountsLosing S.game (¬ PowersOfTwo S.outputs) (fun _ => True) S.game.ForcesFailure r.falsifying ∧
      CountsLosing S.game (¬ PowersOfTwo S.outputs) S.game.Reachable S.game.ForcesFailure r.falsifyingReachable ∧
      ShowsText r.stuck (stuckReport S) := by
  have hsim : StuckAt.Simple file := hs
  have hm' : ∀ l ∈ splitLines (universal file), limitMark.isPrefixOf (pyTrim l) = false := by
    rw [StuckAt.universal_self hsim.no_cr]
    intro l hl
    rw [← (hsim.sub (StuckAt.splitLines_sub hl)).trim]
    exact hm l hl
  have hl0 := hl file (by rw [StuckAt.checkedFiles]; exact List.mem_cons_self)
  obtain ⟨rp, out, modified, a4, a5, a6, k1, k2, k3, c4, c5, c6, l4, l5, l6⟩ := C82_positions_partial (B := B) order h hm' hl0 h1 h32
  obtain ⟨out', o1, o2⟩ := C59_structured_verdict (B := B) true h
  obtain rfl : out = out' := by rw [k1] at o1; cases o1; rfl
  obtain ⟨rv, o3⟩ := o2 .standard cap order (hl0 out k1) h32
  obtain ⟨rs, o4⟩ := C68_stuck_report (B := B) .standard order h hs hl h32
  refine ⟨⟨copySpecification file, decide S.game.Realizable, if S.game.Realizable then some (decide S.game.RoboticsRealizable) else none, a4, a5, a6, escape (stuckReport S)⟩,
    max rp (max rv rs), fun fuel hf => ?_, C82_copy file hb, by simp, rfl, c4, c5, c6, l4, l5, l6, escape_shows _⟩
  simp only [max_le_iff] at hf
  obtain ⟨n4, n5, n6⟩ := k3 fuel hf.1
  obtain ⟨v1, v2, v3, v4⟩ := o3 fuel hf.2.1
  have hv : runSlugs B .standard false cap order fuel out = .result (decide S.game.Realizable) := by
    by_cases hr : S.game.Realizable
    · rw [v1 hr, decide_eq_true hr]
    · rw [v2 hr, decide_eq_false hr]
  have hrob : roboticsPart B cap order fuel out (decide S.game.Realizable) = some (if S.game.Realizable then some (decide S.game.RoboticsRealizable) else none) := by
    rw [roboticsPart]
    by_cases hr : S.game.Realizable
    · rw [if_pos (decide_eq_true hr), if_pos hr]
      by_cases hr' : S.game.RoboticsRealizable
      · rw [v3 hr', decide_eq_true hr']
      · rw [v4 hr', decide_eq_false hr']
    · rw [if_neg (by simpa using hr), if_neg hr]
  rw [createReport, k1]
  dsimp only
  rw [hv]
  dsimp only
  rw [hrob, n4, k2]
  dsimp only
  rw [n5, n6, o4 fuel hf.2.2]

/-! ## Concrete cases -/

/-- The conditions of `C82_report_partial` are met by the counter (`Props/StructuredFiles.lean`), so there is a report on it, which says that it is realizable. -/
example (order : List Char → Bool) : ∃ r rounds, (∀ fuel, rounds ≤ fuel → createReport B 1000 order fuel counterText = some r) ∧ r.realizable = true ∧
    Counts counter.game (fun _ => True) counter.game.SysWins r.positions := by
  have key : (StuckAt.checkedFiles counterText).all (fun t => match convert true t with | .ok out => (splitLines out).all fun l => l.length ≤ 1000 | _ => true) = true := by
    decide +kernel
  obtain ⟨r, rounds, h1, _, h2, _, h3, _⟩ := C82_report_partial (B := B) (cap := 1000) order counter_denotes (by decide +kernel) (by decide +kernel) (by decide +kernel)
    (fun t ht out ho l hl => by
      have := List.all_eq_true.mp key t ht
      rw [ho] at this
      simpa using List.all_eq_true.mp this l hl) (by decide) (by decide)
  exact ⟨r, rounds, h1, h2.mpr counter_realizable, h3⟩

/-- A file with blank lines before it and within it, with HTML control characters, and with the end mark (followed by lines that are not shown). -/
def cutText : List Char :=
  txt!"\n\n[INPUT]\nx\n\n \n[OUTPUT]\ny\n[SYS_TRANS]\ny' <-> (x & y)\n\n # --- End of the specification for the report \n[SYS_LIVENESS]\ny\n"

example : copySpecification cutText = txt!"[INPUT]\nx\n\n\n[OUTPUT]\ny\n[SYS_TRANS]\ny' &lt;-&gt; (x &amp; y)\n" := by decide +kernel

example : shownLines cutText = [txt!"[INPUT]", txt!"x", [], [], txt!"[OUTPUT]", txt!"y", txt!"[SYS_TRANS]", txt!"y' <-> (x & y)"] := by decide +kernel

/-- A constraint on initial positions with the mark of the compiler before it. -/
def markedText : List Char := txt!"[INPUT]\nx\n[OUTPUT]\ny\n[SYS_INIT]\n## Variable limits: y is 1 at first\ny\n"

/-- A goal with the mark of the compiler before it. -/
def brokenText : List Char := txt!"[INPUT]\nx\n[OUTPUT]\ny\n[SYS_LIVENESS]\n## Variable limits: none\ny\n"

/-- The condition that the mark of the compiler does not occur is needed: with it, two positions instead of four are counted, -/
theorem C82_mark_miscounted : (createReport ROBDD 1000 (fun _ => true) 100 markedText).map (fun r => (r.realizable, r.positions.nofPos)) = some (true, some 2) := by decide +kernel

/-- or there is no report. -/
theorem C82_mark_no_report : createReport ROBDD 1000 (fun _ => true) 100 brokenText = none := by decide +kernel

/-- The number of inputs that force the system to lose is missing in section 5 of the report on the counter, although there is one: both inputs are of this kind. -/
theorem C82_missing_number : (createReport ROBDD 1000 (fun _ => true) 100 counterText).map (fun r => (r.positions.nofInputsSystemLosing, r.falsifying.nofInputsSystemLosing)) =
    some (some 0, none) := by decide +kernel

end Slugs.Props
