import Verif.Lemmas.Fuel
import Verif.Lemmas.ExplicitHom

/-! More rounds do not change the result of the extraction. -/

namespace Slugs.Model

open Slugs.Spec

variable {B : Type} [DecidableEq B]

theorem initLoop_more (M : Mgr B) (vs : Vars B) : ∀ {n n' : Nat}, n ≤ n' → ∀ {f : B} {w r : Work B},
    initLoop M vs n f w = some r → initLoop M vs n' f w = some r
  | 0, _, _, _, _, _, h => by simp [initLoop] at h
  | n + 1, 0, h, _, _, _, _ => by omega
  | n + 1, n' + 1, hn, f, w, r, h => by
    rw [initLoop] at h ⊢
    split at h
    · rename_i hf; rw [if_pos hf]; exact h
    · rename_i hf; rw [if_neg hf]; exact initLoop_more M vs (by omega) h

theorem succLoop_more (M : Mgr B) (c : Ctx B) (vs : Vars B) (perm : Bool) (rank : Nat) : ∀ {n n' : Nat}, n ≤ n' →
    ∀ {f : B} {w : Work B} {p : List Nat} {r : Work B × List Nat},
    succLoop M c vs perm rank n f w p = some r → succLoop M c vs perm rank n' f w p = some r
  | 0, _, _, _, _, _, _, h => by simp [succLoop] at h
  | n + 1, 0, h, _, _, _, _, _ => by omega
  | n + 1, n' + 1, hn, f, w, p, r, h => by
    rw [succLoop] at h ⊢
    split at h
    · rename_i hf; rw [if_pos hf]; exact h
    · rename_i hf
      rw [if_neg hf]
      cases hg : goalJump M c.livenessGuarantees (determinize M vs.postVars f) rank (c.livenessGuarantees.length + 1) rank true with
      | none => simp only [hg] at h; cases h
      | some next =>
        simp only [hg] at h ⊢
        exact succLoop_more M c vs perm rank (by omega) h

theorem extractLoop_more (M : Mgr B) (c : Ctx B) (vs : Vars B) (perm recovery : Bool) (strategy : Nat → B) {fuel fuel' : Nat}
    (hfuel : fuel ≤ fuel') : ∀ {n n' : Nat}, n ≤ n' → ∀ {w : Work B} {out r : List PState},
    extractLoop M c vs perm recovery strategy fuel n w out = some r →
    extractLoop M c vs perm recovery strategy fuel' n' w out = some r
  | 0, _, _, _, _, _, h => by simp [extractLoop] at h
  | n + 1, 0, h, _, _, _, _ => by omega
  | n + 1, n' + 1, hn, w, out, r, h => by
    rw [extractLoop] at h ⊢
    cases hw : w.todo with
    | nil => rw [hw] at h; exact h
    | cons cur rest =>
      rw [hw] at h
      simp only at h ⊢
      generalize hb : w.bfs[({ w with todo := rest } : Work B).num cur]? = fo at h ⊢
      cases fo with
      | none => cases h
      | some f =>
        simp only at h ⊢
        generalize hs : succLoop M c vs perm cur.2 fuel
          (if recovery = true then M.and f (strategy cur.2) else M.and (M.and f (strategy cur.2)) c.safetyEnv)
          { w with todo := rest } [] = so at h
        cases so with
        | none => cases h
        | some so =>
          rw [succLoop_more M c vs perm cur.2 hfuel hs]
          exact extractLoop_more M c vs perm recovery strategy hfuel (by omega) h

theorem extractStrategy_more (M : Mgr B) (c : Ctx B) (vs : Vars B) (perm recovery : Bool) {n n' : Nat} (hn : n ≤ n') {W : B}
    {dump : Dump B} {r : List PState} (h : extractStrategy M c vs perm recovery n W dump = some r) :
    extractStrategy M c vs perm recovery n' W dump = some r := by
  rw [extractStrategy] at h ⊢
  generalize hi : initLoop M vs n (if perm = true then W else if recovery = true then M.and W c.initSys
    else M.and (M.and W c.initSys) c.initEnv) { keys := [], bfs := [], todo := [] } = wo at h
  cases wo with
  | none => cases h
  | some w =>
    rw [initLoop_more M vs hn hi]
    exact extractLoop_more M c vs perm recovery _ hn hn h

theorem checkRealizability_more {alg : Algorithm} (M : Mgr B) (c : Ctx B) {n n' : Nat} (hn : n ≤ n') {r : Verdict × B × Dump B}
    (h : checkRealizability alg M c n = some r) : checkRealizability alg M c n' = some r := by
  rw [checkRealizability] at h ⊢
  cases hc : solve alg M c n with
  | none => rw [hc] at h; cases h
  | some r => rw [hc] at h; rw [solve_more _ _ _ hn hc]; exact h

theorem checkRealizabilityRobotics_more {alg : Algorithm} (M : Mgr B) (c : Ctx B) {n n' : Nat} (hn : n ≤ n') {r : Verdict × B × Dump B}
    (h : checkRealizabilityRobotics alg M c n = some r) : checkRealizabilityRobotics alg M c n' = some r := by
  rw [checkRealizabilityRobotics] at h ⊢
  cases hc : solve alg M c n with
  | none => rw [hc] at h; cases h
  | some r => rw [hc] at h; rw [solve_more _ _ _ hn hc]; exact h

theorem runExplicit_more [L : BddLib B] {alg : Algorithm} {robotics perm recovery : Bool} {cap : Nat} {order : List Char → Bool} {n n' : Nat}
    (hn : n ≤ n') {text : List Char} {sts : List PState} (h : runExplicit B alg robotics perm recovery cap order n text = .strategy sts) :
    runExplicit B alg robotics perm recovery cap order n' text = .strategy sts := by
  rw [runExplicit] at h ⊢
  cases hi : initContext (B := B) cap order text with
  | err e => rw [hi] at h; cases h
  | ub => rw [hi] at h; cases h
  | stuck => rw [hi] at h; cases h
  | ok r =>
    obtain ⟨tab, c⟩ := r
    rw [hi] at h
    simp only at h ⊢
    have hmore : ∀ r, (if robotics = true then checkRealizabilityRobotics alg (bddMgr B tab.types) c n
          else checkRealizability alg (bddMgr B tab.types) c n) = some r →
        (if robotics = true then checkRealizabilityRobotics alg (bddMgr B tab.types) c n'
          else checkRealizability alg (bddMgr B tab.types) c n') = some r := by
      intro r hr
      cases robotics
      · exact checkRealizability_more _ _ hn hr
      · exact checkRealizabilityRobotics_more _ _ hn hr
    generalize hr : (if robotics = true then checkRealizabilityRobotics alg (bddMgr B tab.types) c n
          else checkRealizability alg (bddMgr B tab.types) c n) = ro at h hmore
    cases ro with
    | none => cases h
    | some r =>
      rw [hmore r rfl]
      obtain ⟨v, W, dump⟩ := r
      cases v with
      | unrealizable => cases h
      | internalError => cases h
      | realizable =>
        simp only at h ⊢
        generalize he : extractStrategy (bddMgr B tab.types) c (tableVars B tab) perm recovery n W dump = so at h
        cases so with
        | none => cases h
        | some sts' => rw [extractStrategy_more _ _ _ _ _ hn he]; exact h

end Slugs.Model
