import Verif.Lemmas.InteractiveRequests
import Verif.Props.Counterstrategy

/-!
# C47–C54: sessions with the interactive shell

`runInteractive` is the model of a complete run with `--interactiveStrategy`.  `Spec/Interactive.lean` says what is visible of a session, what a play
is, and what the answers should be.
-/

namespace Slugs.Props

open Slugs.Spec Slugs.Model

variable {B : Type} [DecidableEq B] [L : BddLib B]

/-- A session that is possible with the given file: the verdict, the requests with their answers, and the end, for some number of rounds granted, some
standard input and some random numbers. -/
def IsSession (B : Type) [DecidableEq B] [BddLib B] (alg : Algorithm) (cap : Nat) (order : List Char → Bool) (text : List Char)
    (real : Bool) (es : List Exchange) (e : SessionEnd) : Prop :=
  ∃ fuel input rnd, runInteractive B alg cap order fuel text input rnd = .session real es e

section
variable {alg : Algorithm} {cap : Nat} {order : List Char → Bool} {text : List Char} {tab : VarTable} {c : Ctx B} {sp : SpecFile}

/-! ### C47 -/

/-- **C47.** A file that is accepted leads to a session, whatever is typed. -/
theorem C47_session (h : initContext cap order text = .ok (tab, c)) (hd : Denotes text sp) (fuel : Nat) (hf : Nat.card (Pos sp.In sp.Out) < fuel)
    (input : List Char) (rnd : List Bool) : ∃ real es e, runInteractive B alg cap order fuel text input rnd = .session real es e := by
  obtain ⟨_, _, h1, _⟩ := interactive_answers (alg := alg) h hd
  exact h1 fuel input rnd hf

/-- **C47.** The verdict is right. -/
theorem C47_verdict (h : initContext cap order text = .ok (tab, c)) (hd : Denotes text sp) {real : Bool} {es : List Exchange} {e : SessionEnd}
    (hs : IsSession B alg cap order text real es e) : real = true ↔ sp.game.Realizable := by
  obtain ⟨_, _, _, _, h1, _⟩ := interactive_answers (alg := alg) h hd
  obtain ⟨fuel, input, rnd, hs⟩ := hs
  exact h1 _ _ _ _ _ _ hs

/-- **C47.** At every moment of every session with a realizable specification: in the play that has been going on since the position was set to a winning one, all steps are allowed for the
environment, satisfy the safety guarantees, and lead to winning positions. -/
theorem C47_play_safe (h : initContext cap order text = .ok (tab, c)) (hd : Denotes text sp) {es1 es2 : List Exchange} {e : SessionEnd}
    (hs : IsSession B alg cap order text true (es1 ++ es2) e) (hw : FromWinning sp (playOf sp es1)) {n : Nat} {p p' : Pos sp.In sp.Out} {k k' : Nat}
    (hp : (playOf sp es1)[n + 1]? = some (p, k)) (hp' : (playOf sp es1)[n]? = some (p', k')) :
    sp.game.safetyEnv p p'.1 ∧ sp.game.safetySys p p' ∧ sp.game.SysWins p' ∧ k' < sp.goals := by
  obtain ⟨vs, hv, _, _, hreal, S, E, hS, _, hr⟩ := interactive_answers (alg := alg) h hd
  obtain ⟨fuel, input, rnd, hs⟩ := hs
  have hR := (hreal _ _ _ _ _ _ hs).mp rfl
  have hl := linked hv es1 (fun a x b he => (hr _ _ _ _ _ _ hs a x (b ++ es2) (by rw [he]; simp)).1 rfl) hw
  obtain ⟨h1, j, hj, _, h2, h3, _⟩ := hl n _ _ hp' hp
  exact ⟨h1, ((hS hR).safe j hj _ _ h2).1, ((hS hR).safe j hj _ _ h2).2, h3⟩

/-- **C47.** `XMAKETRANS` answers "ERROR" exactly if no next input is allowed that agrees with the characters typed, and otherwise takes such an
input. -/
theorem C47_answer (h : initContext cap order text = .ok (tab, c)) (hd : Denotes text sp) {es1 es2 : List Exchange} {e : SessionEnd}
    {random : Bool} {typed : List Char} {answer : Option (List Bool × Nat)}
    (hs : IsSession B alg cap order text true (es1 ++ .makeTrans random typed answer :: es2) e) {p : Pos sp.In sp.Out} {k : Nat}
    {rest : List (Pos sp.In sp.Out × Nat)} (hp : playOf sp es1 = (p, k) :: rest) (hw : FromWinning sp (playOf sp es1)) :
    typed.length = sp.inputs.length ∧
    (answer = none ↔ ¬ ∃ t : Pos sp.In sp.Out, sp.game.safetyEnv p t.1 ∧ Fits typed (bitsOf sp t)) ∧
    ∀ bits goal, answer = some (bits, goal) → ∃ t, bits = bitsOf sp t ∧ sp.game.safetyEnv p t.1 ∧ Fits typed (bitsOf sp t) := by
  obtain ⟨_, _, _, _, _, S, _, _, _, hr⟩ := interactive_answers (alg := alg) h hd
  obtain ⟨fuel, input, rnd, hs⟩ := hs
  obtain ⟨h1, h2⟩ := (hr _ _ _ _ _ _ hs es1 _ es2 rfl).1 rfl
  have h2 := h2 p k rest hp hw
  refine ⟨h1, ?_, ?_⟩
  · cases answer with
    | none => exact iff_of_true rfl h2
    | some a =>
      obtain ⟨t, _, h3, h4, _⟩ := h2
      exact iff_of_false nofun (fun h => h ⟨t, h3, h4⟩)
  · rintro bits goal rfl
    obtain ⟨t, h5, h3, h4, _⟩ := h2
    exact ⟨t, h5, h3, h4⟩

/-- **C47.** `STARTPOS` and `XGETINIT` print a possible first position that is winning if there is one. -/
theorem C47_start (h : initContext cap order text = .ok (tab, c)) (hd : Denotes text sp) {es : List Exchange} {e : SessionEnd}
    (hs : IsSession B alg cap order text true es e) (hex : ∃ p, Start sp p) :
    (∀ label, .startPos label ∈ es → (label.map Prod.fst).Perm (sp.inputs ++ sp.outputs) ∧ Start sp (posOfLabel sp label)) ∧
    ∀ bits goal, .getInit bits goal ∈ es → ∃ p, Start sp p ∧ bits = bitsOf sp p := by
  obtain ⟨_, _, _, _, _, S, _, _, _, hr⟩ := interactive_answers (alg := alg) h hd
  obtain ⟨fuel, input, rnd, hs⟩ := hs
  refine ⟨fun label hm => ?_, fun bits goal hm => ?_⟩
  · obtain ⟨a, b, rfl⟩ := List.append_of_mem hm
    have := (hr _ _ _ _ _ _ hs a _ b rfl).1 rfl
    exact ⟨this.1, this.2 hex⟩
  · obtain ⟨a, b, rfl⟩ := List.append_of_mem hm
    have := (hr _ _ _ _ _ _ hs a _ b rfl).1 rfl
    exact this.2 hex

/-! ### C48 -/

/-- **C48.** A play that is continued forever satisfies the liveness objective: let `p` be an infinite sequence of positions, starting with a winning one, such that every finite beginning of it is the
play at some moment of some session (with the goals `k` printed).  Then `p` satisfies all liveness guarantees infinitely often, or violates some liveness assumption from
some point on. -/
theorem C48_play_live (h : initContext cap order text = .ok (tab, c)) (hd : Denotes text sp) (p : Nat → Pos sp.In sp.Out) (k : Nat → Nat)
    (hw : sp.game.SysWins (p 0))
    (hp : ∀ n, ∃ es1 es2 e, IsSession B alg cap order text true (es1 ++ es2) e ∧
      playOf sp es1 = ((List.range (n + 1)).map fun i => (p i, k i)).reverse) :
    sp.game.Live p := by
  obtain ⟨vs, hv, _, _, hreal, S, E, hS, _, hr⟩ := interactive_answers (alg := alg) h hd
  have hget : ∀ n i, i ≤ n → (((List.range (n + 1)).map fun i => (p i, k i)).reverse)[n - i]? = some (p i, k i) := by
    intro n i hi
    rw [List.getElem?_reverse (by simp), List.getElem?_map]
    simp only [List.length_map, List.length_range]
    rw [List.getElem?_range (by omega)]
    have : n + 1 - 1 - (n - i) = i := by omega
    rw [this]
    rfl
  have hlink : ∀ n, Linked sp S (((List.range (n + 1)).map fun i => (p i, k i)).reverse) := by
    intro n
    obtain ⟨es1, es2, e, ⟨fuel, input, rnd, hs⟩, he⟩ := hp n
    rw [← he]
    refine linked hv es1 (fun a x b hx => (hr _ _ _ _ _ _ hs a x (b ++ es2) (by rw [hx]; simp)).1 rfl) ?_
    intro x hx
    rw [he, List.getLast?_reverse, List.head?_map, List.range_succ_eq_map] at hx
    cases hx
    exact hw
  have hR : sp.game.Realizable := by
    obtain ⟨es1, es2, e, ⟨fuel, input, rnd, hs⟩, _⟩ := hp 0
    exact (hreal _ _ _ _ _ _ hs).mp rfl
  -- the goal that is pursued in the first step
  obtain ⟨g0, j0, hj0, _, hS0, hk1, hA0⟩ := hlink 1 0 _ _ (hget 1 1 le_rfl) (hget 1 0 (by omega))
  have hstep : ∀ n, sp.game.safetyEnv (p (n + 1)) (p (n + 2)).1 ∧ S (k (n + 1)) (p (n + 1)) (p (n + 2)) ∧ k (n + 2) < sp.goals ∧
      Advance sp (p (n + 1)) (p (n + 2)) (k (n + 1)) (k (n + 2)) := by
    intro n
    obtain ⟨g1, j, hj, he, hSj, hk, hA⟩ := hlink (n + 2) 0 _ _ (by have := hget (n + 2) (n + 2) le_rfl; rwa [Nat.sub_self] at this)
      (by have := hget (n + 2) (n + 1) (by omega); rwa [show n + 2 - (n + 1) = 0 + 1 by omega] at this)
    have hj' := he (by simp)
    subst hj'
    exact ⟨g1, hSj, hk, hA⟩
  refine (hS hR).live p (fun n => if n = 0 then j0 else k n) hw ?_ ?_
  · intro n
    match n with
    | 0 => exact hj0
    | 1 => exact hk1
    | n + 2 => exact (hstep n).2.2.1
  · intro n
    match n with
    | 0 => exact ⟨g0, hS0, hA0⟩
    | n + 1 => exact ⟨(hstep n).1, (hstep n).2.1, (hstep n).2.2.2⟩

/-! ### C49 -/

/-- **C49.** All answers to `XCOMPLETEINIT` are right. -/
theorem C49_completeInit (h : initContext cap order text = .ok (tab, c)) (hd : Denotes text sp) {real : Bool} {es : List Exchange} {e : SessionEnd}
    (hs : IsSession B alg cap order text real es e) {typed : List Char} {answer : Answer Unit} (hm : .completeInit typed answer ∈ es) :
    typed.length = sp.inputs.length + sp.outputs.length ∧ InitAnswer sp real typed answer := by
  obtain ⟨_, _, _, _, _, S, _, _, _, hr⟩ := interactive_answers (alg := alg) h hd
  obtain ⟨fuel, input, rnd, hs⟩ := hs
  obtain ⟨a, b, rfl⟩ := List.append_of_mem hm
  have := hr _ _ _ _ _ _ hs a _ b rfl
  cases real with
  | true => exact this.1 rfl
  | false => exact this.2 rfl

/-! ### C50 -/

/-- **C50, partial.** All answers to `XSTRATEGYTRANSITION` are right, except for the numbers printed. -/
theorem C50_strategyTransition_partial (h : initContext cap order text = .ok (tab, c)) (hd : Denotes text sp) :
    ∃ S, (sp.game.Realizable → SystemMoves sp S) ∧ (¬ sp.game.Realizable → EnvironmentMoves sp S) ∧
      ∀ real es e, IsSession B alg cap order text real es e → ∀ src typed la lg answer, .strategyTransition src typed la lg answer ∈ es →
        src.length = sp.inputs.length + sp.outputs.length ∧ typed.length = sp.inputs.length + sp.outputs.length ∧
        TransitionAnswer sp real (S (if real = true then lg else la)) (PrintedNumbers sp la lg) src typed la lg answer := by
  obtain ⟨_, _, _, _, hreal, S, E, hS, hE, hr⟩ := interactive_answers (alg := alg) h hd
  by_cases hR : sp.game.Realizable
  · refine ⟨S, hS, fun hn => absurd hR hn, ?_⟩
    rintro real es e ⟨fuel, input, rnd, hs⟩ src typed la lg answer hm
    obtain ⟨a, b, rfl⟩ := List.append_of_mem hm
    have hb := (hreal _ _ _ _ _ _ hs).mpr hR
    subst hb
    exact (hr _ _ _ _ _ _ hs a _ b rfl).1 rfl
  · refine ⟨E, fun hn => absurd hn hR, hE, ?_⟩
    rintro real es e ⟨fuel, input, rnd, hs⟩ src typed la lg answer hm
    obtain ⟨a, b, rfl⟩ := List.append_of_mem hm
    cases real with
    | true => exact absurd ((hreal _ _ _ _ _ _ hs).mp rfl) hR
    | false => exact (hr _ _ _ _ _ _ hs a _ b rfl).2 rfl

/-- There are at least two transitions with the property. -/
def Twice {sp : SpecFile} (R : Pos sp.In sp.Out → Pos sp.In sp.Out → Prop) : Prop := ∀ w : Pos sp.In sp.Out × Pos sp.In sp.Out, ∃ w', R w'.1 w'.2 ∧ w' ≠ w

/-- **C50, partial.** The numbers are right, too, if all values of the first position are given and the liveness properties are not
satisfied by a single transition only. -/
theorem C50_numbers_partial (h : initContext cap order text = .ok (tab, c)) (hd : Denotes text sp) :
    ∃ S, (sp.game.Realizable → SystemMoves sp S) ∧ (¬ sp.game.Realizable → EnvironmentMoves sp S) ∧
      ∀ real es e, IsSession B alg cap order text real es e → ∀ src typed la lg answer, .strategyTransition src typed la lg answer ∈ es →
        (∀ c ∈ src, c = '0' ∨ c = '1') → Twice (sp.Fulfils la) → Twice (sp.Reaches lg) →
        TransitionAnswer sp real (S (if real = true then lg else la)) (fun _ => RightNumbers sp la lg) src typed la lg answer := by
  obtain ⟨S, h1, h2, h3⟩ := C50_strategyTransition_partial (alg := alg) h hd
  obtain ⟨vs, hv, _⟩ := interactive_answers (alg := alg) h hd
  refine ⟨S, h1, h2, fun real es e hs src typed la lg answer hm hsrc hA hG => ?_⟩
  obtain ⟨hl, _, h4⟩ := h3 real es e hs src typed la lg answer hm
  cases answer with
  | failAssumptions => exact h4
  | failGuarantees letters next => exact h4
  | forcedNonWinning => exact h4
  | found letters next =>
    obtain ⟨w, hw, h5, h6, h7⟩ := h4
    refine ⟨w, hw, h5, ?_, h7⟩
    have hfit : ∀ s : Pos sp.In sp.Out, Fits src (bitsOf sp s) → Fits src (bitsOf sp w.1) → s = w.1 := by
      intro s g1 g2
      rw [← hv.posOfBits_bitsOf s, ← hv.posOfBits_bitsOf w.1]
      refine congrArg _ (List.ext_getElem (by simp [bitsOf]) fun k k1 k2 => ?_)
      have hk : k < src.length := by rw [hl]; simpa [bitsOf] using k1
      have a1 := g1 k _ _ (List.getElem?_eq_getElem hk) (List.getElem?_eq_getElem k1)
      have a2 := g2 k _ _ (List.getElem?_eq_getElem hk) (List.getElem?_eq_getElem k2)
      rcases hsrc _ (List.getElem_mem hk) with hc | hc
      · rw [a1.1 hc, a2.1 hc]
      · rw [a1.2 hc, a2.2 hc]
    have hfits : ∀ w' : Pos sp.In sp.Out × Pos sp.In sp.Out, (if real = true then
        ((Fits src (bitsOf sp w'.1) ∧ sp.game.safetyEnv w'.1 w'.2.1 ∧ Fits typed (bitsOf sp w'.2)) ∧ sp.game.safetySys w'.1 w'.2) ∧
          S (if real = true then lg else la) w'.1 w'.2
      else ((Fits src (bitsOf sp w'.1) ∧ sp.game.safetyEnv w'.1 w'.2.1 ∧ Fits typed (bitsOf sp w'.2)) ∧ S (if real = true then lg else la) w'.1 w'.2) ∧
          sp.game.safetySys w'.1 w'.2) → Fits src (bitsOf sp w'.1) := by
      intro w' hw'
      split at hw'
      · exact hw'.1.1.1
      · exact hw'.1.1.1
    have hpart : ∀ R : Pos sp.In sp.Out → Pos sp.In sp.Out → Prop, Twice R → ∀ P : Pos sp.In sp.Out × Pos sp.In sp.Out → Prop, P w →
        (∀ w', P w' → Fits src (bitsOf sp w'.1)) →
        (((∀ s, P (s, w.2) → R s w.2) ∧ ∃ w', R w'.1 w'.2 ∧ ¬ (P w' ∧ w'.2 = w.2)) ↔ R w.1 w.2) := by
      intro R hR P hP hF
      refine ⟨fun h => h.1 w.1 hP, fun h => ⟨fun s hs => ?_, ?_⟩⟩
      · rw [hfit s (hF _ hs) (hF _ hP)]; exact h
      · obtain ⟨w', g1, g2⟩ := hR w
        exact ⟨w', g1, fun g3 => g2 (Prod.ext (hfit _ (hF _ g3.1) (hF _ hP)) g3.2)⟩
    rw [PrintedNumbers] at h6
    dsimp only at h6
    have e1 := propext (hpart _ hA _ hw hfits)
    have e2 := propext (hpart _ hG _ hw hfits)
    show RightNumbers sp la lg w next
    rw [RightNumbers, h6]
    exact Prod.ext (congrArg (after sp.hopes la) e1) (congrArg (after sp.goals lg) e2)

/-! ### C51 -/

/-- **C51.** All answers to `CHECKTRANS` are right, and so are those to `MOVE` as long as the current position is known (the position is not known after a `MOVE` with
other numbers than 0 and 1). -/
theorem C51_transitions_partial (h : initContext cap order text = .ok (tab, c)) (hd : Denotes text sp) (hR : sp.game.Realizable) :
    ∃ S, SystemMoves sp S ∧ ∀ es1 x es2 e, IsSession B alg cap order text true (es1 ++ x :: es2) e →
      (∀ src dst winning env sys assumptions guarantees strategies, x = .checkTrans src dst winning env sys assumptions guarantees strategies →
        (src.map Prod.fst).Perm (sp.inputs ++ sp.outputs) ∧ (dst.map Prod.fst).Perm ((sp.inputs ++ sp.outputs).map prime) ∧
        let s := posOfLabel sp src
        let t := posOfNextLabel sp dst
        (winning = true ↔ sp.game.SysWins s) ∧ (env = true ↔ sp.game.safetyEnv s t.1) ∧ (sys = true ↔ sp.game.safetySys s t) ∧
          Described sp S s t assumptions guarantees strategies) ∧
      (∀ p k rest, playOf sp es1 = (p, k) :: rest →
        (x = .moveUndefined → ¬ FromWinning sp (playOf sp es1)) ∧
        (x = .moveNoInput → ¬ ∃ i, sp.game.safetyEnv p i) ∧
        (∀ guarantee input warning internal, x = .moveRefused guarantee input warning internal →
          let i := (posOfNextLabel sp (truths input)).1
          guarantee < sp.goals ∧ input.map Prod.fst = sp.inputs.map prime ∧
          (warning = true ↔ ¬ sp.game.safetyEnv p i) ∧ ¬ ∃ o, S guarantee p (i, o)) ∧
        ∀ guarantee input output warning assumptions guarantees strategies,
          x = .moved guarantee input output warning assumptions guarantees strategies →
          let t := posOfNextLabel sp (truths input ++ output)
          guarantee < sp.goals ∧ input.map Prod.fst = sp.inputs.map prime ∧ output.map Prod.fst = sp.outputs.map prime ∧
          (warning = true ↔ ¬ sp.game.safetyEnv p t.1) ∧ S guarantee p t ∧ sp.game.safetySys p t ∧ sp.game.SysWins t ∧
          Described sp S p t assumptions guarantees strategies) := by
  obtain ⟨_, _, _, _, hreal, S, E, hS, hE, hr⟩ := interactive_answers (alg := alg) h hd
  refine ⟨S, hS hR, ?_⟩
  rintro es1 x es2 e ⟨fuel, input, rnd, hs⟩
  have hx := (hr _ _ _ _ _ _ hs es1 x es2 rfl).1 rfl
  refine ⟨?_, fun p k rest hp => ⟨?_, ?_, ?_, ?_⟩⟩
  · rintro src dst winning env sys assumptions guarantees strategies rfl
    exact hx
  · rintro rfl hw
    exact hx ⟨by rw [hp]; simp, hw⟩
  · rintro rfl
    exact hx p k rest hp
  · rintro guarantee input warning internal rfl
    obtain ⟨h1, h2, _, h3⟩ := hx
    exact ⟨h1, h2, h3 p k rest hp⟩
  · rintro guarantee input output warning assumptions guarantees strategies rfl
    obtain ⟨h1, h2, h3, h4⟩ := hx
    obtain ⟨h5, h6, h7⟩ := h4 p k rest hp
    obtain ⟨h8, h9⟩ := (hS hR).safe _ h1 _ _ h6
    exact ⟨h1, h2, h3, h5, h6, h8, h9, h7⟩

/-! ### C52 -/

/-- **C52, partial.** The goal printed is the one that is pursued next, provided that it has been printed by `XMAKETRANS` (or `XMAKETRANSRANDOM`), or by
`XGETINIT` before the first use of `XMAKETRANS`. -/
theorem C52_goal_partial (h : initContext cap order text = .ok (tab, c)) (hd : Denotes text sp) (hR : sp.game.Realizable) :
    ∃ S, SystemMoves sp S ∧ ∀ es1 random typed bits goal es2 e,
      IsSession B alg cap order text true (es1 ++ .makeTrans random typed (some (bits, goal)) :: es2) e →
      ∀ p k rest, playOf sp es1 = (p, k) :: rest → FromWinning sp (playOf sp es1) → rest ≠ [] ∨ (k = 0 ∧ ∀ x ∈ es1, x.advances = false) →
        S k p (posOfBits sp bits) ∧ Advance sp p (posOfBits sp bits) k goal := by
  obtain ⟨_, hv, _, _, hreal, S, E, hS, hE, hr⟩ := interactive_answers (alg := alg) h hd
  refine ⟨S, hS hR, ?_⟩
  rintro es1 random typed bits goal es2 e ⟨fuel, input, rnd, hs⟩ p k rest hp hw hk
  obtain ⟨_, h2⟩ := (hr _ _ _ _ _ _ hs es1 _ es2 rfl).1 rfl
  obtain ⟨t, hb, _, _, j, hj, h3, h4, h5, _, h6⟩ := h2 p k rest hp hw
  have hjk : j = k := by
    rcases hk with hk | ⟨rfl, hk⟩
    · exact h3 hk
    · exact h4 hk
  subst hjk
  rw [hb, hv.posOfBits_bitsOf]
  exact ⟨h5, h6⟩

/-! ### C53 -/

/-- **C53, partial.** Every well-formed request gets exactly one answer, and the session ends with the input or with `QUIT` or `EXIT`, provided that the requests are available: `MOVE` is not considered,
`XMAKETRANS` and `XMAKETRANSRANDOM` are available if the specification is realizable, and `CHECKTRANS` if in addition there are not more liveness guarantees than assumptions. -/
theorem C53_requests_partial (h : initContext cap order text = .ok (tab, c)) (hd : Denotes text sp) {reqs : List Request} {texts : List (List Char)}
    (ht : List.Forall₂ Request.Typed reqs texts) (hs : ∀ r ∈ reqs, r.Suits sp ∧ Available sp sp.game.Realizable r) {ending : List Char} (hend : Ending ending)
    (fuel : Nat) (hf : Nat.card (Pos sp.In sp.Out) < fuel) (rnd : List Bool) :
    ∃ real es, runInteractive B alg cap order fuel text (texts.flatten ++ ending) rnd = .session real es .quit ∧ List.Forall₂ Request.Answered reqs es := by
  obtain ⟨sh, vs, hv, hp, hrun⟩ := interactive_sem (alg := alg) h hd
  have hg : 0 < sp.goals := (inv_start (sp := sp)).goal
  obtain ⟨es, e, h1, h2⟩ := (hrun fuel (texts.flatten ++ ending) rnd).2 ((hrun fuel (texts.flatten ++ ending) rnd).1 hf)
  have key : ∃ es', sessionLoop (semMgr sp.In sp.Out) (gameCtx (padGame sp.game)) vs sh ((texts.flatten ++ ending).length + 1)
      { cur := (semMgr sp.In sp.Out).ff, goal := 0 } { chars := texts.flatten ++ ending, eof := false, fail := false } rnd [] = some ([] ++ es', .quit) ∧
      List.Forall₂ Request.Answered reqs es' := by
    rcases hp with ⟨hR, S, hS⟩ | ⟨hR, E, hE, hm⟩
    · refine session_requests hv hend (S := S) (by rw [hS.winning, hS.real]; rfl) (by rw [hS.strategies, hS.real]; rfl) ht (fun r hr => ⟨(hs r hr).1, ?_⟩)
        _ _ _ _ _ hg (.inl rfl) (by omega)
      have := (hs r hr).2
      cases r <;> first | exact trivial | exact hS.real | exact .inl hS.real
    · refine session_requests hv hend (S := E) (by rw [hE.winning, hE.real]; rfl) (by rw [hE.strategies, hE.real]; rfl) ht (fun r hr => ⟨(hs r hr).1, ?_⟩)
        _ _ _ _ _ hg (.inl rfl) (by omega)
      have := (hs r hr).2
      cases r <;> first | exact trivial | exact absurd this hR | exact .inr (this.resolve_left hR)
  obtain ⟨es', k1, k2⟩ := key
  rw [h2] at k1
  cases k1
  exact ⟨_, _, h1, k2⟩

/-! ### C54 -/

/-- **C54.** If the specification is unrealizable, the session is the environment's: all answers are right for one and the same family of moves with which the
environment wins. -/
theorem C54_lost (h : initContext cap order text = .ok (tab, c)) (hd : Denotes text sp) (hR : ¬ sp.game.Realizable) :
    ∃ E, EnvironmentMoves sp E ∧ ∀ real es e, IsSession B alg cap order text real es e → real = false ∧ ∀ x ∈ es, RightLost sp E x := by
  obtain ⟨_, _, _, _, hreal, S, E, hS, hE, hr⟩ := interactive_answers (alg := alg) h hd
  refine ⟨E, hE hR, ?_⟩
  rintro real es e ⟨fuel, input, rnd, hs⟩
  cases real with
  | true => exact absurd ((hreal _ _ _ _ _ _ hs).mp rfl) hR
  | false =>
    refine ⟨rfl, fun x hx => ?_⟩
    obtain ⟨a, b, rfl⟩ := List.append_of_mem hx
    exact (hr _ _ _ _ _ _ hs a _ b rfl).2 rfl

end

/-! ### Witnesses -/

/-- The output repeats the last input. -/
def echoText : List Char := txt!"[INPUT]\nx\n[OUTPUT]\ny\n[SYS_TRANS]\n! ^ y' x"

def echo : SpecFile where
  inputs := [txt!"x"]
  outputs := [txt!"y"]
  envInit := []
  sysInit := []
  envTrans := []
  sysTrans := [.not (.bin .xor (.var txt!"y'") (.var txt!"x"))]
  envLiveness := []
  sysLiveness := []

theorem echo_denotes : Denotes echoText echo := by
  refine ⟨[(.input, txt!"x"), (.output, txt!"y"), (.sysTrans, txt!"! ^ y' x")], ?_, by decide, by decide, ?_, ?_, ?_, ?_, ?_, ?_⟩
  · have : splitLines echoText = [txt!"[INPUT]", txt!"x", txt!"[OUTPUT]", txt!"y", txt!"[SYS_TRANS]", txt!"! ^ y' x"] := by decide
    rw [this]
    refine .header .input (by decide) (.item (by decide) (by decide) (by decide) ?_)
    refine .header .output (by decide) (.item (by decide) (by decide) (by decide) ?_)
    exact .header .sysTrans (by decide) (.item (by decide) (by decide) (by decide) .nil)
  all_goals
    simp only [echo, itemsOf]
  · exact .nil
  · exact .nil
  · exact .nil
  · exact .cons (reads_text (.not (.bin .xor (.var txt!"y'") (.var txt!"x"))) (by simp [Fml.Wf]) (by decide) (by decide)) .nil
  · exact .nil
  · exact .nil

theorem echo_session : runInteractive ROBDD .standard 1000 (fun _ => true) 50 echoText txt!"SETPOS\n0 0\nMOVE\n0\n2\nMOVE\n0\n0\n" [] =
    .session true [.setPos [(txt!"x", false), (txt!"y", false)], .moved 0 [(txt!"x'", 2)] [(txt!"y'", false)] false [0] [0] [0],
      .moved 0 [(txt!"x'", 0)] [(txt!"y'", false)] false [0] [0] [0]] .quit := by rfl

/-- **C51** does not hold in general: `MOVE` with the number 2 counts as an allowed input (with the value true), but the position afterwards leaves the input open,
`extensionInteractiveStrategy.hpp:331-343`; the next `MOVE` then violates a safety guarantee. -/
theorem C51_move_violated : ∃ (text : List Char) (sp : SpecFile) (x1 : Exchange) (input1 input2 : List (Word × Int)) (output1 output2 : Label),
    Denotes text sp ∧
    IsSession ROBDD .standard 1000 (fun _ => true) text true
      [x1, .moved 0 input1 output1 false [0] [0] [0], .moved 0 input2 output2 false [0] [0] [0]] .quit ∧
    ¬ sp.game.safetySys (posOfNextLabel sp (truths input1 ++ output1)) (posOfNextLabel sp (truths input2 ++ output2)) := by
  refine ⟨echoText, echo, _, _, _, _, _, echo_denotes, ⟨_, _, _, echo_session⟩, fun h => ?_⟩
  have h1 : some false = some true := h (.not (.bin .xor (.var txt!"y'") (.var txt!"x"))) (List.mem_singleton.mpr rfl)
  cases h1

/-- Two goals that cannot be reached at the same time. -/
def flipText : List Char := txt!"[OUTPUT]\ny\n[SYS_LIVENESS]\ny'\n! y'"

def flip : SpecFile where
  inputs := []
  outputs := [txt!"y"]
  envInit := []
  sysInit := []
  envTrans := []
  sysTrans := []
  envLiveness := []
  sysLiveness := [.var txt!"y'", .not (.var txt!"y'")]

theorem flip_denotes : Denotes flipText flip := by
  refine ⟨[(.output, txt!"y"), (.sysLiveness, txt!"y'"), (.sysLiveness, txt!"! y'")], ?_, by decide, by decide, ?_, ?_, ?_, ?_, ?_, ?_⟩
  · have : splitLines flipText = [txt!"[OUTPUT]", txt!"y", txt!"[SYS_LIVENESS]", txt!"y'", txt!"! y'"] := by decide
    rw [this]
    refine .header .output (by decide) (.item (by decide) (by decide) (by decide) ?_)
    exact .header .sysLiveness (by decide) (.item (by decide) (by decide) (by decide) (.item (by decide) (by decide) (by decide) .nil))
  all_goals
    simp only [flip, itemsOf]
  · exact .nil
  · exact .nil
  · exact .nil
  · exact .nil
  · exact .nil
  · exact .cons (reads_text (.var txt!"y'") (by simp [Fml.Wf]) (by decide) (by decide))
      (.cons (reads_text (.not (.var txt!"y'")) (by simp [Fml.Wf]) (by decide) (by decide)) .nil)

theorem flip_session : runInteractive ROBDD .standard 1000 (fun _ => true) 50 flipText txt!"XGETINIT\nXMAKETRANS\nXGETINIT\nXMAKETRANS\n" [] =
    .session true [.getInit [false] 0, .makeTrans false [] (some ([true], 1)), .getInit [false] 0, .makeTrans false [] (some ([false], 0))] .quit := by rfl

theorem flip_accepted : ∃ tab c, initContext (B := ROBDD) 1000 (fun _ => true) flipText = .ok (tab, c) := ⟨_, _, rfl⟩

theorem flip_realizable : flip.game.Realizable := by
  obtain ⟨_, _, h⟩ := flip_accepted
  exact (C47_verdict h flip_denotes ⟨_, _, _, flip_session⟩).mp rfl

theorem flip_start : Start flip (posOfBits flip [false]) := by
  obtain ⟨_, _, h⟩ := flip_accepted
  obtain ⟨o, h1, h2⟩ := flip_realizable (fun _ => false) (fun φ hφ => absurd hφ (List.not_mem_nil (a := φ)))
  obtain ⟨p, h3, h4⟩ := (C47_start h flip_denotes ⟨_, _, _, flip_session⟩ ⟨_, fun φ hφ => absurd hφ (List.not_mem_nil (a := φ)), h1, h2⟩).2 [false] 0 (by simp)
  have : posOfBits flip [false] = p := by
    refine Prod.ext (funext fun x => absurd x.2 List.not_mem_nil) (funext fun y => ?_)
    obtain ⟨y, hy⟩ := y
    obtain rfl : y = txt!"y" := List.mem_singleton.mp hy
    have h5 : [false] = [p.2 ⟨txt!"y", hy⟩] := h4
    exact (List.cons.inj h5).1
  rw [this]
  exact h3

/-- **C52** does not hold in general: `XGETINIT` prints the goal 0, but the goal pursued is still the one from before (`extensionInteractiveStrategy.hpp:569-594`).  Here
the next answer to `XMAKETRANS` does not belong to any way of pursuing the goal printed. -/
theorem C52_goal_violated : ∃ (text : List Char) (sp : SpecFile) (es1 : List Exchange) (bits : List Bool) (goal : Nat) (p : Pos sp.In sp.Out),
    Denotes text sp ∧ sp.game.Realizable ∧
    IsSession ROBDD .standard 1000 (fun _ => true) text true (es1 ++ [.makeTrans false [] (some (bits, goal))]) .quit ∧
    playOf sp es1 = [(p, 0)] ∧ FromWinning sp (playOf sp es1) ∧
    ∀ S, SystemMoves sp S → ¬ (S 0 p (posOfBits sp bits) ∧ Advance sp p (posOfBits sp bits) 0 goal) := by
  have hplay : playOf flip [.getInit [false] 0, .makeTrans false [] (some ([true], 1)), .getInit [false] 0] = [(posOfBits flip [false], 0)] := by
    rw [show [Exchange.getInit [false] 0, .makeTrans false [] (some ([true], 1)), .getInit [false] 0] =
      [.getInit [false] 0, .makeTrans false [] (some ([true], 1))] ++ [.getInit [false] 0] from rfl, playOf_snoc, follow, if_pos flip_start]
  refine ⟨flipText, flip, [.getInit [false] 0, .makeTrans false [] (some ([true], 1)), .getInit [false] 0], [false], 0, posOfBits flip [false], flip_denotes,
    flip_realizable, ⟨_, _, _, flip_session⟩, hplay, ?_, ?_⟩
  · rw [hplay]
    intro e he
    cases he
    exact flip_start.2.2
  · rintro S hS ⟨h1, h2⟩
    have hl := hS.live (fun _ => posOfBits flip [false]) (fun _ => 0) flip_start.2.2 (fun _ => by decide)
      (fun _ => ⟨fun φ hφ => absurd hφ (List.not_mem_nil (a := φ)), h1, h2⟩)
    obtain ⟨n, _, hn⟩ := hl (fun a ha => absurd ha List.not_mem_nil) _ (List.mem_cons_self) 0
    have h3 : some false = some true := hn
    cases h3

/-- The first goal is reached with one transition only. -/
def riseText : List Char := txt!"[OUTPUT]\ny\n[SYS_LIVENESS]\n& ! y y'\n! y"

def rise : SpecFile where
  inputs := []
  outputs := [txt!"y"]
  envInit := []
  sysInit := []
  envTrans := []
  sysTrans := []
  envLiveness := []
  sysLiveness := [.bin .and (.not (.var txt!"y")) (.var txt!"y'"), .not (.var txt!"y")]

theorem rise_denotes : Denotes riseText rise := by
  refine ⟨[(.output, txt!"y"), (.sysLiveness, txt!"& ! y y'"), (.sysLiveness, txt!"! y")], ?_, by decide, by decide, ?_, ?_, ?_, ?_, ?_, ?_⟩
  · have : splitLines riseText = [txt!"[OUTPUT]", txt!"y", txt!"[SYS_LIVENESS]", txt!"& ! y y'", txt!"! y"] := by decide
    rw [this]
    refine .header .output (by decide) (.item (by decide) (by decide) (by decide) ?_)
    exact .header .sysLiveness (by decide) (.item (by decide) (by decide) (by decide) (.item (by decide) (by decide) (by decide) .nil))
  all_goals
    simp only [rise, itemsOf]
  · exact .nil
  · exact .nil
  · exact .nil
  · exact .nil
  · exact .nil
  · exact .cons (reads_text (.bin .and (.not (.var txt!"y")) (.var txt!"y'")) (by simp [Fml.Wf]) (by decide) (by decide))
      (.cons (reads_text (.not (.var txt!"y")) (by simp [Fml.Wf]) (by decide) (by decide)) .nil)

theorem rise_session : runInteractive ROBDD .standard 1000 (fun _ => true) 50 riseText txt!"XSTRATEGYTRANSITION\n0 1 0 0\n" [] =
    .session true [.strategyTransition ['0'] ['1'] 0 0 (.found ['A'] (0, 0))] .quit := by rfl

/-- **C50** does not hold in general: the transition printed reaches goal 0, but the number of the next goal stays the same.  The comparison with `<` in
`extensionInteractiveStrategy.hpp:1046-1053` asks for strict inclusion (`BFCudd.h:125-128`). -/
theorem C50_numbers_violated : ∃ (text : List Char) (sp : SpecFile) (src typed letters : List Char) (next : Nat × Nat),
    Denotes text sp ∧ IsSession ROBDD .standard 1000 (fun _ => true) text true [.strategyTransition src typed 0 0 (.found letters next)] .quit ∧
    ∀ w : Pos sp.In sp.Out × Pos sp.In sp.Out, Fits src (bitsOf sp w.1) → Fits typed (bitsOf sp w.2) → ¬ RightNumbers sp 0 0 w next := by
  refine ⟨riseText, rise, _, _, _, _, rise_denotes, ⟨_, _, _, rise_session⟩, fun w h1 h2 hr => ?_⟩
  have e1 : w.1.2 ⟨txt!"y", by decide⟩ = false := (h1 0 '0' _ rfl rfl).1 rfl
  have e2 : w.2.2 ⟨txt!"y", by decide⟩ = true := (h2 0 '1' _ rfl rfl).2 rfl
  have h3 : rise.Reaches 0 w.1 w.2 := by
    intro b hb
    cases hb
    show some (!w.1.2 ⟨txt!"y", by decide⟩ && w.2.2 ⟨txt!"y", by decide⟩) = some true
    rw [e1, e2]
    rfl
  have h4 : 0 = after rise.goals 0 (rise.Reaches 0 w.1 w.2) := congrArg Prod.snd hr
  rw [after, if_pos h3] at h4
  revert h4
  decide

/-! #### Requests that are not answered -/

/-- The initial conditions cannot be satisfied, and there are more liveness guarantees than assumptions. -/
def blockedText : List Char := txt!"[OUTPUT]\ny\n[SYS_INIT]\ny\n! y\n[SYS_LIVENESS]\ny'\n! y'"

def blockedSpec : SpecFile where
  inputs := []
  outputs := [txt!"y"]
  envInit := []
  sysInit := [.var txt!"y", .not (.var txt!"y")]
  envTrans := []
  sysTrans := []
  envLiveness := []
  sysLiveness := [.var txt!"y'", .not (.var txt!"y'")]

theorem stuck_denotes : Denotes blockedText blockedSpec := by
  refine ⟨[(.output, txt!"y"), (.sysInit, txt!"y"), (.sysInit, txt!"! y"), (.sysLiveness, txt!"y'"), (.sysLiveness, txt!"! y'")], ?_, by decide, by decide,
    ?_, ?_, ?_, ?_, ?_, ?_⟩
  · have : splitLines blockedText = [txt!"[OUTPUT]", txt!"y", txt!"[SYS_INIT]", txt!"y", txt!"! y", txt!"[SYS_LIVENESS]", txt!"y'", txt!"! y'"] := by decide
    rw [this]
    refine .header .output (by decide) (.item (by decide) (by decide) (by decide) ?_)
    refine .header .sysInit (by decide) (.item (by decide) (by decide) (by decide) (.item (by decide) (by decide) (by decide) ?_))
    exact .header .sysLiveness (by decide) (.item (by decide) (by decide) (by decide) (.item (by decide) (by decide) (by decide) .nil))
  all_goals
    simp only [blockedSpec, itemsOf]
  · exact .nil
  · exact .cons (reads_text (.var txt!"y") (by simp [Fml.Wf]) (by decide) (by decide))
      (.cons (reads_text (.not (.var txt!"y")) (by simp [Fml.Wf]) (by decide) (by decide)) .nil)
  · exact .nil
  · exact .nil
  · exact .nil
  · exact .cons (reads_text (.var txt!"y'") (by simp [Fml.Wf]) (by decide) (by decide))
      (.cons (reads_text (.not (.var txt!"y'")) (by simp [Fml.Wf]) (by decide) (by decide)) .nil)

theorem zeros_typed : NumbersText [0, 0] txt!"0 0" :=
  .cons (g := []) (ds := ['0']) (t := [' ', '0']) (by simp) (by simp) (by simp; decide) (by simp; decide)
    (.cons (g := [' ']) (ds := ['0']) (t := []) (by simp; decide) (by simp) (by simp; decide) (by simp) .nil)

/-- **C53** does not hold in general: for an unrealizable specification with more liveness guarantees than assumptions, `CHECKTRANS` accesses strategies that do not exist
(`extensionInteractiveStrategy.hpp:263-269`). -/
theorem C53_checkTrans_violated : ∃ (text : List Char) (sp : SpecFile) (r : Request) (t : List Char), Denotes text sp ∧ r.Typed t ∧ r.Suits sp ∧
    runInteractive ROBDD .standard 1000 (fun _ => true) 50 text t [] = .session false [] .ub :=
  ⟨blockedText, blockedSpec, .checkTrans [0] [0], txt!"CHECKTRANS\n0 0\n", stuck_denotes, ⟨txt!"CHECKTRANS", txt!"0 0", rfl, by decide, by decide +kernel, zeros_typed⟩,
    ⟨rfl, rfl, by decide⟩, by rfl⟩

/-- **C53** does not hold in general: after `MOVE` has been refused, the numbers for the input that are still to be read are taken to be the next command. -/
theorem C53_move_violated : runInteractive ROBDD .standard 1000 (fun _ => true) 50 txt!"[INPUT]\nx\n[OUTPUT]\ny\n[ENV_TRANS]\n! y" txt!"SETPOS\n0 1\nMOVE\n0 1\n" [] =
    .session true [.setPos [(txt!"x", false), (txt!"y", true)], .moveNoInput, .unknown txt!"1"] .quit := by rfl

/-- **C53**: a request that is not well-formed makes the program wait forever: after reading a number has failed, the end of the input is never reached
(`extensionInteractiveStrategy.hpp:146-150`). -/
theorem C53_hang : runInteractive ROBDD .standard 1000 (fun _ => true) 50 flipText txt!"SETPOS\nx\n" [] =
    .session true [.setPos [(txt!"y", false)]] .hang := by rfl

/-- **C53**: numbers out of range lead to an access out of bounds (`extensionInteractiveStrategy.hpp:855-861,956`). -/
theorem C53_outOfRange : runInteractive ROBDD .standard 1000 (fun _ => true) 50 flipText txt!"XSTRATEGYTRANSITION\n0 1 0 2\n" [] =
    .session true [] .ub := by rfl

/-! ### The hypotheses are met -/

/-- A session with a play of three steps: the hypotheses of the theorems of **C47** are met. -/
example : ∃ es e, IsSession ROBDD .standard 1000 (fun _ => true) flipText true (es ++ [.getInit [false] 0, .makeTrans false [] (some ([false], 0))]) e ∧
    FromWinning flip (playOf flip (es ++ [.getInit [false] 0, .makeTrans false [] (some ([false], 0))])) ∧
    (playOf flip (es ++ [.getInit [false] 0, .makeTrans false [] (some ([false], 0))])).length = 2 := by
  refine ⟨[.getInit [false] 0, .makeTrans false [] (some ([true], 1))], .quit, ⟨_, _, _, flip_session⟩, ?_⟩
  have : playOf flip ([.getInit [false] 0, .makeTrans false [] (some ([true], 1))] ++ [.getInit [false] 0, .makeTrans false [] (some ([false], 0))]) =
      [(posOfBits flip [false], 0), (posOfBits flip [false], 0)] := by
    rw [show ([Exchange.getInit [false] 0, .makeTrans false [] (some ([true], 1))] ++ [.getInit [false] 0, .makeTrans false [] (some ([false], 0))]) =
      ([Exchange.getInit [false] 0, .makeTrans false [] (some ([true], 1))] ++ [.getInit [false] 0]) ++ [.makeTrans false [] (some ([false], 0))] from rfl,
      playOf_snoc, playOf_snoc, follow, follow, if_pos flip_start, if_neg (by simp)]
  rw [this]
  refine ⟨fun e he => ?_, rfl⟩
  cases he
  exact flip_start.2.2

theorem flip_loop : ∃ (tab : VarTable) (c : Ctx ROBDD) (sh : Shell ROBDD) (a b : ROBDD),
    initContext (B := ROBDD) 1000 (fun _ => true) flipText = .ok (tab, c) ∧
    prepareShell (bddMgr ROBDD tab.types) c .standard 50 = some (some sh) ∧ sh.realizable = true ∧
    (∀ n st rest es, sessionLoop (bddMgr ROBDD tab.types) c (tableIVars ROBDD tab) sh (n + 1) st (stdin (txt!"XGETINIT\n" ++ rest)) [] es =
      sessionLoop (bddMgr ROBDD tab.types) c (tableIVars ROBDD tab) sh n { cur := a, goal := st.goal } (stdin rest) [] (es ++ [.getInit [false] 0])) ∧
    (∀ n rest es, sessionLoop (bddMgr ROBDD tab.types) c (tableIVars ROBDD tab) sh (n + 1) { cur := a, goal := 0 } (stdin (txt!"XMAKETRANS\n" ++ rest)) [] es =
      sessionLoop (bddMgr ROBDD tab.types) c (tableIVars ROBDD tab) sh n { cur := b, goal := 1 } (stdin rest) [] (es ++ [.makeTrans false [] (some ([true], 1))])) ∧
    (∀ n rest es, sessionLoop (bddMgr ROBDD tab.types) c (tableIVars ROBDD tab) sh (n + 1) { cur := b, goal := 1 } (stdin (txt!"XMAKETRANS\n" ++ rest)) [] es =
      sessionLoop (bddMgr ROBDD tab.types) c (tableIVars ROBDD tab) sh n { cur := a, goal := 0 } (stdin rest) [] (es ++ [.makeTrans false [] (some ([false], 0))])) := by
  refine ⟨_, _, _, _, _, rfl, rfl, rfl, fun _ _ _ _ => rfl, fun _ _ _ => rfl, fun _ _ _ => ?_⟩
  rfl

/-- The exchanges of a session in which `XMAKETRANS` is used `n` times. -/
def flipAnswers (n : Nat) : List Exchange :=
  .getInit [false] 0 :: (List.range n).map fun i => .makeTrans false [] (some ([i % 2 == 0], (i + 1) % 2))

theorem flip_long (n : Nat) : IsSession ROBDD .standard 1000 (fun _ => true) flipText true (flipAnswers n) .quit := by
  obtain ⟨tab, c, sh, a, b, h1, h2, h3, h4, h5, h6⟩ := flip_loop
  have key : ∀ m i N es, (List.replicate m txt!"XMAKETRANS\n").flatten.length < N →
      sessionLoop (bddMgr ROBDD tab.types) c (tableIVars ROBDD tab) sh N (if i % 2 = 0 then { cur := a, goal := 0 } else { cur := b, goal := 1 })
        (stdin (List.replicate m txt!"XMAKETRANS\n").flatten) [] es =
      some (es ++ (List.range m).map (fun j => .makeTrans false [] (some ([(i + j) % 2 == 0], (i + j + 1) % 2))), .quit) := by
    intro m
    induction m with
    | zero =>
      intro i N es hN
      obtain ⟨N, rfl⟩ : ∃ M, N = M + 1 := ⟨N - 1, by omega⟩
      rw [sessionLoop]
      show some (es, SessionEnd.quit) = _
      simp
    | succ m ih =>
      intro i N es hN
      obtain ⟨N, rfl⟩ : ∃ M, N = M + 1 := ⟨N - 1, by omega⟩
      rw [List.replicate_succ, List.flatten_cons] at hN ⊢
      rw [List.length_append] at hN
      have hN' : (List.replicate m txt!"XMAKETRANS\n").flatten.length < N := by
        have : 1 ≤ (txt!"XMAKETRANS\n").length := by decide
        omega
      have hr : (List.range (m + 1)).map (fun j => Exchange.makeTrans false [] (some ([(i + j) % 2 == 0], (i + j + 1) % 2))) =
          .makeTrans false [] (some ([i % 2 == 0], (i + 1) % 2)) ::
            (List.range m).map (fun j => Exchange.makeTrans false [] (some ([(i + 1 + j) % 2 == 0], (i + 1 + j + 1) % 2))) := by
        rw [List.range_succ_eq_map, List.map_cons, List.map_map]
        congr 1
        refine List.map_congr_left fun j _ => ?_
        show Exchange.makeTrans false [] (some ([(i + (j + 1)) % 2 == 0], (i + (j + 1) + 1) % 2)) = _
        rw [show i + (j + 1) = i + 1 + j by omega]
      rw [hr]
      rcases Nat.mod_two_eq_zero_or_one i with hi | hi
      · have := ih (i + 1) N (es ++ [.makeTrans false [] (some ([true], 1))]) hN'
        rw [if_neg (by omega)] at this
        rw [if_pos hi, h5, this, hi, show (i + 1) % 2 = 1 by omega, List.append_assoc]
        rfl
      · have := ih (i + 1) N (es ++ [.makeTrans false [] (some ([false], 0))]) hN'
        rw [if_pos (by omega)] at this
        rw [if_neg (by omega), h6, this, hi, show (i + 1) % 2 = 0 by omega, List.append_assoc]
        rfl
  refine ⟨50, txt!"XGETINIT\n" ++ (List.replicate n txt!"XMAKETRANS\n").flatten, [], ?_⟩
  rw [runInteractive, h1]
  dsimp only
  rw [h2]
  dsimp only
  have := h4 (txt!"XGETINIT\n" ++ (List.replicate n txt!"XMAKETRANS\n").flatten).length { cur := (bddMgr ROBDD tab.types).ff, goal := 0 }
    (List.replicate n txt!"XMAKETRANS\n").flatten []
  have h7 := key n 0 (txt!"XGETINIT\n" ++ (List.replicate n txt!"XMAKETRANS\n").flatten).length [.getInit [false] 0] (by
    rw [List.length_append]
    have : 1 ≤ (txt!"XGETINIT\n").length := by decide
    omega)
  rw [if_pos rfl] at h7
  have h8 := this.trans h7
  rw [stdin] at h8
  rw [h8, h3]
  simp [flipAnswers]

/-- Play without end: the hypotheses of **C48** are met. -/
example : flip.game.Live fun n => posOfBits flip [n % 2 == 1] := by
  obtain ⟨_, _, h⟩ := flip_accepted
  refine C48_play_live (alg := .standard) h flip_denotes _ (fun n => n % 2) flip_start.2.2 fun n => ⟨flipAnswers n, [], .quit, by rw [List.append_nil]; exact flip_long n, ?_⟩
  induction n with
  | zero =>
    rw [show flipAnswers 0 = [] ++ [.getInit [false] 0] from rfl, playOf_snoc, follow, if_pos flip_start]
    rfl
  | succ n ih =>
    have : flipAnswers (n + 1) = flipAnswers n ++ [.makeTrans false [] (some ([n % 2 == 0], (n + 1) % 2))] := by
      simp [flipAnswers, List.range_succ]
    rw [this, playOf_snoc, ih, follow, if_neg (by simp), List.range_succ (n := n + 1), List.map_append, List.reverse_append]
    have hb : (n % 2 == 0) = ((n + 1) % 2 == 1) := by
      rcases Nat.mod_two_eq_zero_or_one n with hi | hi
      · rw [hi, show (n + 1) % 2 = 1 by omega]; rfl
      · rw [hi, show (n + 1) % 2 = 0 by omega]; rfl
    rw [hb]
    rfl

/-- A session with answers of several kinds. -/
theorem echo_answers : IsSession ROBDD .standard 1000 (fun _ => true) echoText true
    [.completeInit ['.', '1'] (.found ['0', 'A'] ()), .strategyTransition ['1', '1'] ['.', '.'] 0 0 (.found ['0', 'G'] (0, 0)),
      .checkTrans [(txt!"x", false), (txt!"y", false)] [(txt!"x'", true), (txt!"y'", true)] true true false [0] [0] []] .quit :=
  ⟨50, txt!"XCOMPLETEINIT\n.1\nXSTRATEGYTRANSITION\n11 .. 0 0\nCHECKTRANS\n0 0 1 1\n", [], by rfl⟩

/-- The hypotheses of the theorems of **C49**, **C50** and **C51** are met. -/
example : InitAnswer echo true ['.', '1'] (.found ['0', 'A'] ()) ∧
    (∃ S, SystemMoves echo S ∧ TransitionAnswer echo true (S 0) (fun _ => RightNumbers echo 0 0) ['1', '1'] ['.', '.'] 0 0 (.found ['0', 'G'] (0, 0))) ∧
    echo.game.SysWins (fun _ => false, fun _ => false) := by
  obtain ⟨tab, c, h⟩ : ∃ tab c, initContext (B := ROBDD) 1000 (fun _ => true) echoText = .ok (tab, c) := ⟨_, _, rfl⟩
  have hR := (C47_verdict h echo_denotes echo_answers).mp rfl
  have hsome : ∀ w : Pos echo.In echo.Out × Pos echo.In echo.Out, ∃ w', w' ≠ w := fun w => by
    refine ⟨((fun x => !w.1.1 x, w.1.2), w.2), fun e => ?_⟩
    have := congrFun (congrArg (fun w => w.1.1) e) ⟨txt!"x", by decide⟩
    simp at this
  refine ⟨(C49_completeInit h echo_denotes echo_answers (by simp)).2, ?_, ?_⟩
  · obtain ⟨S, h1, _, h2⟩ := C50_numbers_partial (alg := .standard) h echo_denotes
    refine ⟨S, h1 hR, h2 _ _ _ echo_answers _ _ 0 0 _ (List.mem_cons_of_mem _ List.mem_cons_self) (by simp) (fun w => ?_) (fun w => ?_)⟩
    · obtain ⟨w', hw⟩ := hsome w
      exact ⟨w', (fun A hA => nomatch hA), hw⟩
    · obtain ⟨w', hw⟩ := hsome w
      exact ⟨w', (fun A hA => nomatch hA), hw⟩
  · obtain ⟨S, h1, h2⟩ := C51_transitions_partial (alg := .standard) h echo_denotes hR
    obtain ⟨_, _, h3, _⟩ := (h2 [.completeInit ['.', '1'] (.found ['0', 'A'] ()), .strategyTransition ['1', '1'] ['.', '.'] 0 0 (.found ['0', 'G'] (0, 0))] _ [] _
      echo_answers).1 _ _ _ _ _ _ _ _ rfl
    have := h3.mp rfl
    have e : posOfLabel echo [(txt!"x", false), (txt!"y", false)] = (fun _ => false, fun _ => false) := by
      refine Prod.ext (funext fun x => ?_) (funext fun y => ?_)
      · obtain ⟨x, hx⟩ := x
        obtain rfl : x = txt!"x" := List.mem_singleton.mp hx
        rfl
      · obtain ⟨y, hy⟩ := y
        obtain rfl : y = txt!"y" := List.mem_singleton.mp hy
        rfl
    rwa [e] at this

/-- The hypotheses of **C52** are met: the first use of `XMAKETRANS` in the session above. -/
example : ∃ S, SystemMoves flip S ∧ S 0 (posOfBits flip [false]) (posOfBits flip [true]) ∧
    Advance flip (posOfBits flip [false]) (posOfBits flip [true]) 0 1 := by
  obtain ⟨_, _, h⟩ := flip_accepted
  obtain ⟨S, h1, h2⟩ := C52_goal_partial (alg := .standard) h flip_denotes flip_realizable
  have hp : playOf flip [.getInit [false] 0] = [(posOfBits flip [false], 0)] := by
    rw [show [Exchange.getInit [false] 0] = [] ++ [.getInit [false] 0] from rfl, playOf_snoc, follow, if_pos flip_start]
  refine ⟨S, h1, h2 [.getInit [false] 0] false [] [true] 1 _ _ ⟨_, _, _, flip_session⟩ _ _ _ hp (by rw [hp]; intro e he; cases he; exact flip_start.2.2)
    (.inr ⟨rfl, by simp [Exchange.advances]⟩)⟩

/-- The hypotheses of **C53** are met. -/
example : ∃ real es, runInteractive ROBDD .standard 1000 (fun _ => true) 50 flipText txt!" SetPos\n1\nXMAKETRANS\n\nCHECKTRANS\n0 0\nexit\nQ" [] =
    .session real es .quit ∧ List.Forall₂ Request.Answered [.setPos [1], .makeTrans false [], .checkTrans [0] [0]] es := by
  obtain ⟨_, _, h⟩ := flip_accepted
  refine C53_requests_partial (alg := .standard) h flip_denotes (reqs := [.setPos [1], .makeTrans false [], .checkTrans [0] [0]])
    (texts := [txt!" SetPos\n1\n", txt!"XMAKETRANS\n\n", txt!"CHECKTRANS\n0 0\n"]) (ending := txt!"exit\nQ")
    (.cons ⟨txt!" SetPos", ['1'], rfl, by decide, by decide +kernel, ?_⟩
      (.cons ⟨txt!"XMAKETRANS", [], rfl, by decide, by decide +kernel, CharsText.nil⟩
      (.cons ⟨txt!"CHECKTRANS", txt!"0 0", rfl, by decide, by decide +kernel, zeros_typed⟩ .nil))) ?_ (.inr ⟨txt!"exit", ['Q'], rfl, by decide, .inr (by decide +kernel)⟩) 50 ?_ []
  · exact .cons (g := []) (ds := ['1']) (t := []) (by simp) (by simp) (by simp; decide) (by simp) .nil
  · simp only [List.mem_cons, List.not_mem_nil, or_false, forall_eq_or_imp, forall_eq]
    exact ⟨⟨⟨rfl, by decide⟩, trivial⟩, ⟨rfl, flip_realizable⟩, ⟨⟨rfl, rfl, by decide⟩, .inl flip_realizable⟩⟩
  · rw [Nat.card_eq_fintype_card]
    decide

/-- The environment decides about `x`, which has to stay false. -/
def bossText : List Char := txt!"[INPUT]\nx\n[OUTPUT]\ny\n[SYS_TRANS]\n! x'"

/-- The hypotheses of **C54** are met: the environment sets `x`. -/
example : ∃ sp E, Denotes bossText sp ∧ EnvironmentMoves sp E ∧
    TransitionAnswer sp false (E 0) (PrintedNumbers sp 0 0) ['0', '1'] ['.', '.'] 0 0 (.failGuarantees ['S', '0'] (0, 0)) := by
  obtain ⟨r, hr⟩ : ∃ r, initContext (B := ROBDD) 1000 (fun _ => true) bossText = .ok r := ⟨_, rfl⟩
  obtain ⟨sp, hd, _⟩ := C24_accepted_denotes (tab := r.1) (c := r.2) hr
  have hs : IsSession ROBDD .standard 1000 (fun _ => true) bossText false
      [.strategyTransition ['0', '1'] ['.', '.'] 0 0 (.failGuarantees ['S', '0'] (0, 0))] .quit := ⟨50, txt!"XSTRATEGYTRANSITION\n01..0 0\n", [], by rfl⟩
  have hR : ¬ sp.game.Realizable := fun hR => by cases (C47_verdict hr hd hs).mpr hR
  obtain ⟨E, h1, h2⟩ := C54_lost (alg := .standard) hr hd hR
  obtain ⟨_, h3⟩ := h2 _ _ _ hs
  exact ⟨sp, E, hd, h1, (h3 _ List.mem_cons_self).2.2⟩

end Slugs.Props
