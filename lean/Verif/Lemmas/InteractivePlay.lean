import Verif.Lemmas.InteractiveText

/-!
Plays, and all answers of a session.

`runInteractive` is the model of a complete run with `--interactiveStrategy`.  `Spec/Interactive.lean` says what is visible of a session, what a play
is, and what the answers should be.
-/

namespace Slugs.Props

open Slugs.Spec Slugs.Model

variable {B : Type} [DecidableEq B] [L : BddLib B]

/-! ### Plays -/

/-- Consecutive positions of a play (most recent first) and the goals printed belong together. -/
def Linked (sp : SpecFile) (S : Nat → Pos sp.In sp.Out → Pos sp.In sp.Out → Prop) (play : List (Pos sp.In sp.Out × Nat)) : Prop :=
  ∀ n e e', play[n]? = some e' → play[n + 1]? = some e → sp.game.safetyEnv e.1 e'.1.1 ∧
    ∃ j < sp.goals, (n + 2 < play.length → j = e.2) ∧ S j e.1 e'.1 ∧ e'.2 < sp.goals ∧ Advance sp e.1 e'.1 j e'.2

open Classical in
theorem linked {sp : SpecFile} {vs : IVars (T sp.In sp.Out)} (hv : IVarsOK sp vs) {S : Nat → Pos sp.In sp.Out → Pos sp.In sp.Out → Prop} (es : List Exchange)
    (hr : ∀ es1 x es2, es = es1 ++ x :: es2 → Right sp S es1 x) (hw : FromWinning sp (playOf sp es)) : Linked sp S (playOf sp es) := by
  induction es using List.reverseRecOn with
  | nil => intro n e e' h; cases h
  | append_singleton es x ih =>
    have hr' : ∀ es1 y es2, es = es1 ++ y :: es2 → Right sp S es1 y := fun es1 y es2 he => hr es1 y (es2 ++ [x]) (by rw [he]; simp)
    have hx := hr es x [] rfl
    have hsingle : ∀ e : Pos sp.In sp.Out × Nat, Linked sp S [e] := by
      intro e n e1 e2 _ h2
      rw [List.getElem?_eq_none (by simp)] at h2
      cases h2
    have hnil : Linked sp S [] := fun n e e' h => by simp at h
    have hite : ∀ (c : Prop) [Decidable c] (e : Pos sp.In sp.Out × Nat), Linked sp S (if c then [e] else []) := by
      intro c _ e
      split
      · exact hsingle e
      · exact hnil
    rw [playOf_snoc] at hw ⊢
    cases x with
    | startPos label => exact hite _ _
    | setPos label => exact hsingle _
    | getInit bits goal => exact hite _ _
    | moved g i o w a gs ss => exact hite _ _
    | makeTrans random typed answer =>
      cases answer with
      | none => exact ih hr' hw
      | some a =>
        obtain ⟨bits, goal⟩ := a
        simp only [follow] at hw ⊢
        split
        · exact hnil
        · rename_i hne
          rw [if_neg hne] at hw
          rw [fromWinning_cons hne] at hw
          have hl := ih hr' hw
          cases hplay : playOf sp es with
          | nil => exact absurd hplay hne
          | cons e0 rest =>
            obtain ⟨p, k⟩ := e0
            obtain ⟨t, hb, h1, _, j, hj, h2, _, h3, h4, h5⟩ := hx.2 p k rest hplay hw
            have ht : posOfBits sp bits = t := by rw [hb, hv.posOfBits_bitsOf]
            rw [ht]
            intro n e e' g1 g2
            cases n with
            | zero =>
              simp only [List.getElem?_cons_zero, Option.some.injEq] at g1
              simp only [List.getElem?_cons_succ, List.getElem?_cons_zero, Option.some.injEq] at g2
              subst g1
              subst g2
              refine ⟨h1, j, hj, fun hlen => h2 ?_, h3, h4, h5⟩
              rintro rfl
              simp at hlen
            | succ n =>
              rw [List.getElem?_cons_succ] at g1 g2
              rw [hplay] at hl
              obtain ⟨a1, j', a2, a3, a4⟩ := hl n e e' g1 g2
              exact ⟨a1, j', a2, fun hlen => a3 (by simp at hlen ⊢; omega), a4⟩
    | _ => exact ih hr' hw

/-! ### All answers -/

theorem interactive_answers {alg : Algorithm} {cap : Nat} {order : List Char → Bool} {text : List Char} {tab : VarTable} {c : Ctx B} {sp : SpecFile}
    (h : initContext cap order text = .ok (tab, c)) (hd : Denotes text sp) :
    ∃ vs : IVars (T sp.In sp.Out), IVarsOK sp vs ∧
    (∀ fuel input rnd, Nat.card (Pos sp.In sp.Out) < fuel → ∃ real es e, runInteractive B alg cap order fuel text input rnd = .session real es e) ∧
    (∀ fuel input rnd, runInteractive B alg cap order fuel text input rnd ≠ .running →
      ∃ real es e, runInteractive B alg cap order fuel text input rnd = .session real es e) ∧
    (∀ fuel input rnd real es e, runInteractive B alg cap order fuel text input rnd = .session real es e → (real = true ↔ sp.game.Realizable)) ∧
    ∃ S E, (sp.game.Realizable → SystemMoves sp S) ∧ (¬ sp.game.Realizable → EnvironmentMoves sp E) ∧
      ∀ fuel input rnd real es e, runInteractive B alg cap order fuel text input rnd = .session real es e →
        ∀ es1 x es2, es = es1 ++ x :: es2 → (real = true → Right sp S es1 x) ∧ (real = false → RightLost sp E x) := by
  obtain ⟨sh, vs, hv, hp, hrun⟩ := interactive_sem (alg := alg) h hd
  have hreal : sh.realizable = true ↔ sp.game.Realizable := by
    rcases hp with ⟨h1, S, hS⟩ | ⟨h1, E, hE, _⟩
    · exact iff_of_true hS.real h1
    · exact iff_of_false (by rw [hE.real]; exact Bool.false_ne_true) h1
  have key : ∀ fuel input rnd real es e, runInteractive B alg cap order fuel text input rnd = .session real es e →
      real = sh.realizable ∧ sessionLoop (semMgr sp.In sp.Out) (gameCtx (padGame sp.game)) vs sh (input.length + 1)
        { cur := (semMgr sp.In sp.Out).ff, goal := 0 } { chars := input, eof := false, fail := false } rnd [] = some (es, e) := by
    intro fuel input rnd real es e hr
    obtain ⟨es', e', h1, h2⟩ := (hrun fuel input rnd).2 (by rw [hr]; exact nofun)
    rw [hr] at h1
    cases h1
    exact ⟨rfl, h2⟩
  refine ⟨vs, hv, fun fuel input rnd hf => ?_, fun fuel input rnd hf => ?_, fun fuel input rnd real es e hr => ?_, ?_⟩
  · obtain ⟨es, e, h1, _⟩ := (hrun fuel input rnd).2 ((hrun fuel input rnd).1 hf)
    exact ⟨_, es, e, h1⟩
  · obtain ⟨es, e, h1, _⟩ := (hrun fuel input rnd).2 hf
    exact ⟨_, es, e, h1⟩
  · rw [(key _ _ _ _ _ _ hr).1]; exact hreal
  · rcases hp with ⟨h1, S, hS⟩ | ⟨h1, E, hE, hm⟩
    · refine ⟨S, fun _ _ _ => True, fun _ => hS.moves, fun hn => absurd h1 hn, fun fuel input rnd real es e hr es1 x es2 he => ⟨fun _ => ?_, fun hf => ?_⟩⟩
      · exact session_right hv hS _ _ _ _ _ inv_start (by simp) (key _ _ _ _ _ _ hr).2 es1 x es2 he
      · rw [(key _ _ _ _ _ _ hr).1, hS.real] at hf; cases hf
    · refine ⟨fun _ _ _ => True, E, fun hn => absurd hn h1, fun _ => hm, fun fuel input rnd real es e hr es1 x es2 he => ⟨fun hf => ?_, fun _ => ?_⟩⟩
      · rw [(key _ _ _ _ _ _ hr).1, hE.real] at hf; cases hf
      · exact session_lost hv hE _ _ _ _ _ (by simp) (key _ _ _ _ _ _ hr).2 x (by rw [he]; simp)

end Slugs.Props
