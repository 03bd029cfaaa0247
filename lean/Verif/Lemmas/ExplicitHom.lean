import Verif.Lemmas.ExplicitLoop
import Verif.Lemmas.Hom

/-! The extraction of explicit strategies commutes with injective maps that respect the BF operations. -/

namespace Slugs.Model

open Slugs.Spec

variable {A B : Type} [DecidableEq A] [DecidableEq B]

def Vars.map (h : A → B) (vs : Vars A) : Vars B where
  preVars := vs.preVars.map h
  postVars := vs.postVars.map h
  labels := vs.labels.map fun v => (v.1, h v.2)

def mapKey {R : Type} (h : A → B) (k : A × R) : B × R := (h k.1, k.2)

def Work.map {R : Type} (h : A → B) (w : Work A R) : Work B R where
  keys := w.keys.map fun e => (mapKey h e.1, e.2)
  bfs := w.bfs.map h
  todo := w.todo.map (mapKey h)

section
variable {M : Mgr A} {N : Mgr B} {h : A → B} (H : MgrHom M N h)
include H

theorem eq_ff_hom (a : A) : h a = N.ff ↔ a = M.ff := by rw [H.ff]; exact H.inj.eq_iff

theorem mapKey_inj {R : Type} : Function.Injective (mapKey (R := R) h) := by
  rintro ⟨a, i⟩ ⟨b, j⟩ e
  simp only [mapKey, Prod.mk.injEq] at e
  rw [H.inj e.1, e.2]

theorem lookup_hom {R : Type} [DecidableEq R] (keys : List ((A × R) × Nat)) (k : A × R) :
    (keys.map fun e => (mapKey h e.1, e.2)).lookup (mapKey h k) = keys.lookup k := by
  induction keys with
  | nil => rfl
  | cons e keys ih =>
    obtain ⟨e1, e2⟩ := e
    simp only [List.map_cons, List.lookup_cons, ih]
    by_cases hk : k = e1
    · subst hk; simp
    · rw [show (k == e1) = false by simpa using hk,
        show (mapKey h k == mapKey h e1) = false by simpa using fun e => hk (mapKey_inj H e)]

theorem num_hom {R : Type} [DecidableEq R] (w : Work A R) (k : A × R) : (w.map h).num (mapKey h k) = w.num k := by
  rw [Work.num, Work.num, Work.map]
  dsimp only
  rw [lookup_hom H]

omit H [DecidableEq A] [DecidableEq B] in
theorem enter_hom {R : Type} (w : Work A R) (k : A × R) : (w.map h).enter (mapKey h k) = (w.enter k).map h := by
  simp [Work.enter, Work.map, mapKey]

theorem determinize_hom (vs : List A) (f : A) : determinize N (vs.map h) (h f) = h (determinize M vs f) := by
  induction vs generalizing f with
  | nil => rfl
  | cons v vs ih =>
    simp only [List.map_cons, determinize, H.not, H.and]
    simp only [eq_ff_hom H]
    split <;> exact ih _

theorem initLoop_hom (vs : Vars A) : ∀ (n : Nat) (f : A) (w : Work A),
    initLoop N (vs.map h) n (h f) (w.map h) = (initLoop M vs n f w).map (Work.map h) := by
  intro n
  induction n with
  | zero => intro f w; rfl
  | succ n ih =>
    intro f w
    rw [initLoop, initLoop]
    simp only [eq_ff_hom H]
    split
    · rfl
    · rw [show (vs.map h).preVars = vs.preVars.map h from rfl, determinize_hom H, H.not, H.and,
        show (h (determinize M vs.preVars f), 0) = mapKey h (determinize M vs.preVars f, 0) from rfl, enter_hom, ih]

theorem positional_hom (dump : Dump A) (j : Nat) : positional N (dump.map h) j = h (positional M dump j) := by
  have key : ∀ (ds : List A) (st : A × A), (ds.map h).foldl (positionalStep N) (Prod.map h h st) =
      Prod.map h h (ds.foldl (positionalStep M) st) := by
    intro ds
    induction ds with
    | nil => intro st; rfl
    | cons d ds ih =>
      intro st
      simp only [List.map_cons, List.foldl_cons]
      rw [← ih]
      simp [positionalStep, H.exPostOutput, H.not, H.and, H.or]
  rw [positional, positional, H.ff]
  have e : ((dump.map h).filter (fun e => e.1 == j)).map (fun e => e.2) =
      ((dump.filter (fun e => e.1 == j)).map (fun e => e.2)).map h := by
    simp [Dump.map, List.filter_map, Function.comp_def]
  rw [e]
  exact congrArg Prod.snd (key _ (M.ff, M.ff))

theorem permissive_hom (c : Ctx A) (dump : Dump A) (j : Nat) :
    permissive N (c.map h) (dump.map h) j = h (permissive M c dump j) := by
  have key : ∀ (ds : List A) (st : A × A × A), (ds.map h).foldl (permissiveStep N (c.map h)) (Prod.map h (Prod.map h h) st) =
      Prod.map h (Prod.map h h) (ds.foldl (permissiveStep M c) st) := by
    intro ds
    induction ds with
    | nil => intro st; rfl
    | cons d ds ih =>
      intro st
      simp only [List.map_cons, List.foldl_cons]
      rw [← ih]
      simp [permissiveStep, Ctx.map, H.exPostOutput, H.not, H.and, H.or, H.allPostInput]
  rw [permissive, permissive, H.ff]
  have e : ((dump.map h).filter (fun e => e.1 == j)).map (fun e => e.2) =
      ((dump.filter (fun e => e.1 == j)).map (fun e => e.2)).map h := by
    simp [Dump.map, List.filter_map, Function.comp_def]
  rw [e]
  exact congrArg (fun x => x.2.2) (key _ (M.ff, M.ff, M.ff))

theorem goalJump_hom (goals : List A) (comb : A) (cur : Nat) : ∀ (n next : Nat) (first : Bool),
    goalJump N (goals.map h) (h comb) cur n next first = goalJump M goals comb cur n next first := by
  intro n
  induction n with
  | zero => intro next first; rfl
  | succ n ih =>
    intro next first
    rw [goalJump, goalJump, List.getElem?_map]
    cases goals[next]? with
    | none => rfl
    | some G =>
      simp only [Option.map_some, H.and, eq_ff_hom H, List.length_map, ih]

theorem succLoop_hom (c : Ctx A) (vs : Vars A) (perm : Bool) (rank : Nat) : ∀ (n : Nat) (f : A) (w : Work A) (printed : List Nat),
    succLoop N (c.map h) (vs.map h) perm rank n (h f) (w.map h) printed =
      (succLoop M c vs perm rank n f w printed).map (Prod.map (Work.map h) id) := by
  intro n
  induction n with
  | zero => intro f w printed; rfl
  | succ n ih =>
    intro f w printed
    rw [succLoop, succLoop]
    simp only [eq_ff_hom H]
    split
    · rfl
    · rw [show (vs.map h).postVars = vs.postVars.map h from rfl, determinize_hom H,
        show (c.map h).livenessGuarantees = c.livenessGuarantees.map h from rfl, goalJump_hom H, List.length_map]
      cases goalJump M c.livenessGuarantees (determinize M vs.postVars f) rank (c.livenessGuarantees.length + 1) rank true with
      | none => rfl
      | some next =>
        dsimp only
        generalize determinize M vs.postVars f = comb
        rw [H.exPre, H.swap, H.exPostOutput, show (h (M.swap (M.exPre comb)), next) = mapKey h (M.swap (M.exPre comb), next) from rfl]
        have e1 : (if perm = true then h comb else h (M.exPostOutput comb)) = h (if perm = true then comb else M.exPostOutput comb) := by
          split <;> rfl
        rw [e1, H.not, H.and]
        have e2 : (if (w.map h).keys.lookup (mapKey h (M.swap (M.exPre comb), next)) = none then
            (w.map h).enter (mapKey h (M.swap (M.exPre comb), next)) else w.map h) =
            (if w.keys.lookup (M.swap (M.exPre comb), next) = none then w.enter (M.swap (M.exPre comb), next) else w).map h := by
          rw [show (w.map h).keys = w.keys.map fun e => (mapKey h e.1, e.2) from rfl, lookup_hom H]
          split
          · exact enter_hom _ _
          · rfl
        rw [e2, num_hom H, ih]

theorem labelOf_hom (vs : Vars A) (f : A) : labelOf N (vs.map h) (h f) = labelOf M vs f := by
  simp only [labelOf, Vars.map, List.map_map]
  refine List.map_congr_left fun v _ => ?_
  simp only [Function.comp_apply, H.and, eq_ff_hom H]

theorem extractLoop_hom (c : Ctx A) (vs : Vars A) (perm recovery : Bool) (strategy : Nat → A) (strategy' : Nat → B)
    (hs : ∀ j, strategy' j = h (strategy j)) (fuel : Nat) : ∀ (n : Nat) (w : Work A) (out : List PState),
    extractLoop N (c.map h) (vs.map h) perm recovery strategy' fuel n (w.map h) out =
      extractLoop M c vs perm recovery strategy fuel n w out := by
  intro n
  induction n with
  | zero => intro w out; rfl
  | succ n ih =>
    intro w out
    rw [extractLoop, extractLoop]
    rw [show (w.map h).todo = w.todo.map (mapKey h) from rfl]
    cases htodo : w.todo with
    | nil => rfl
    | cons cur rest =>
      simp only [List.map_cons]
      have e0 : ({ w.map h with todo := rest.map (mapKey h) } : Work B) = ({ w with todo := rest } : Work A).map h := rfl
      rw [e0, num_hom H]
      rw [show (w.map h).bfs = w.bfs.map h from rfl, List.getElem?_map]
      cases w.bfs[({ w with todo := rest } : Work A).num cur]? with
      | none => rfl
      | some f =>
        simp only [Option.map_some]
        rw [show (mapKey h cur).2 = cur.2 from rfl, hs, H.and, show (c.map h).safetyEnv = h c.safetyEnv from rfl, H.and]
        have e1 : (if recovery = true then h (M.and f (strategy cur.2)) else h (M.and (M.and f (strategy cur.2)) c.safetyEnv)) =
            h (if recovery = true then M.and f (strategy cur.2) else M.and (M.and f (strategy cur.2)) c.safetyEnv) := by
          split <;> rfl
        rw [e1, succLoop_hom H]
        cases succLoop M c vs perm cur.2 fuel
            (if recovery = true then M.and f (strategy cur.2) else M.and (M.and f (strategy cur.2)) c.safetyEnv)
            { w with todo := rest } [] with
        | none => rfl
        | some r =>
          obtain ⟨w', succ⟩ := r
          simp only [Option.map_some, Prod.map_apply, id, labelOf_hom H, ih]

theorem extractStrategy_hom (c : Ctx A) (vs : Vars A) (perm recovery : Bool) (fuel : Nat) (W : A) (dump : Dump A) :
    extractStrategy N (c.map h) (vs.map h) perm recovery fuel (h W) (dump.map h) =
      extractStrategy M c vs perm recovery fuel W dump := by
  rw [extractStrategy, extractStrategy]
  have e1 : (if perm = true then h W else if recovery = true then N.and (h W) (c.map h).initSys
      else N.and (N.and (h W) (c.map h).initSys) (c.map h).initEnv) =
      h (if perm = true then W else if recovery = true then M.and W c.initSys
      else M.and (M.and W c.initSys) c.initEnv) := by
    simp only [Ctx.map, H.and]
    split
    · rfl
    · split <;> rfl
  have e2 : ({ keys := [], bfs := [], todo := [] } : Work B) = ({ keys := [], bfs := [], todo := [] } : Work A).map h := rfl
  rw [e1, e2, initLoop_hom H]
  cases initLoop M vs fuel (if perm = true then W else if recovery = true then M.and W c.initSys
      else M.and (M.and W c.initSys) c.initEnv) { keys := [], bfs := [], todo := [] } with
  | none => rfl
  | some w =>
    simp only [Option.map_some]
    refine extractLoop_hom H c vs perm recovery _ _ (fun j => ?_) fuel fuel w []
    split
    · exact permissive_hom H c dump j
    · exact positional_hom H dump j

end

end Slugs.Model
