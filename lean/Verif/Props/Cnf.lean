import Verif.Lemmas.CnfText
import Verif.Props.Counterstrategy

/-!
# C27: the export as clauses and cubes

`runCnf` is the model of a complete run with `--computeCNFFormOfTheSpecification`.  `Spec/Cnf.lean` says what the printed lines mean.
-/

namespace Slugs.Props

open Slugs.Spec Slugs.Model

variable {B : Type} [DecidableEq B] [L : BddLib B]

/-- What is printed, in terms of lists of indices and values. -/
structure CnfParts (ds : Decls) (c : Ctx B) (ls : List CnfLine) (k1 k2 k3 : List (List (Nat × Bool)))
    (gs as : List (List (List (Nat × Bool)))) : Prop where
  lines : ls = declsFrom 0 ds ++ k1.map (fun k => CnfLine.clause .safetyGuarantee (clauseLiterals k)) ++
    k2.map (fun k => CnfLine.clause .safetyAssumption (clauseLiterals k)) ++ k3.map (fun k => CnfLine.clause .init (clauseLiterals k)) ++
    gs.map (fun ks => CnfLine.cubes true (ks.map (cubeLiterals (tableOf ds).types))) ++
    as.map (fun ks => CnfLine.cubes false (ks.map (cubeLiterals (tableOf ds).types)))
  safetySys : CubeCover (tableOf ds).types.length (fun w => L.eval c.safetySys w = false) (L.not c.safetySys) k1
  safetyEnv : CubeCover (tableOf ds).types.length (fun w => L.eval c.safetyEnv w = false) (L.not c.safetyEnv) k2
  init : CubeCover (tableOf ds).types.length (fun w => L.eval (L.and c.initEnv c.initSys) w = false) (L.not (L.and c.initEnv c.initSys)) k3
  guarantees : List.Forall₂ (fun ks G => CubeCover (tableOf ds).types.length (fun w => L.eval G w = true) G ks) gs c.livenessGuarantees
  assumptions : List.Forall₂ (fun ks G => CubeCover (tableOf ds).types.length (fun w => L.eval G w = true) G ks) as c.livenessAssumptions

/-- Only the declared variables matter. -/
structure CtxBelow (n : Nat) (c : Ctx B) : Prop where
  safetySys : DependsBelow n (L.eval c.safetySys)
  safetyEnv : DependsBelow n (L.eval c.safetyEnv)
  initEnv : DependsBelow n (L.eval c.initEnv)
  initSys : DependsBelow n (L.eval c.initSys)
  guarantees : ∀ g ∈ c.livenessGuarantees, DependsBelow n (L.eval g)
  assumptions : ∀ g ∈ c.livenessAssumptions, DependsBelow n (L.eval g)

theorem CtxBelow.init {n : Nat} {c : Ctx B} (h : CtxBelow n c) : DependsBelow n (L.eval (L.and c.initEnv c.initSys)) := fun a a' ha => by
  rw [L.eval_and, L.eval_and, h.initEnv a a' ha, h.initSys a a' ha]

theorem executeCnf_spec {ds : Decls} {c : Ctx B} (hc : CtxBelow (tableOf ds).types.length c) (fuel : Nat) {r : Res CnfError (List CnfLine)}
    (h : executeCnf (tableOf ds) c fuel = r) (hne : r ≠ .stuck) : ∃ ls k1 k2 k3 gs as, r = .ok ls ∧ CnfParts ds c ls k1 k2 k3 gs as := by
  rw [executeCnf, zip_table, declLines_eq] at h
  simp only at h
  have s1 : ∀ r', clauseLines (tableOf ds).types fuel .safetyGuarantee c.safetySys = r' → r' ≠ .stuck := by
    rintro r' e rfl; rw [e] at h; exact hne h.symm
  obtain ⟨k1, e1, c1⟩ := clauseLines_ok hc.safetySys rfl (s1 _ rfl)
  rw [e1] at h
  simp only at h
  have s2 : ∀ r', clauseLines (tableOf ds).types fuel .safetyAssumption c.safetyEnv = r' → r' ≠ .stuck := by
    rintro r' e rfl; rw [e] at h; exact hne h.symm
  obtain ⟨k2, e2, c2⟩ := clauseLines_ok hc.safetyEnv rfl (s2 _ rfl)
  rw [e2] at h
  simp only at h
  have s3 : ∀ r', clauseLines (tableOf ds).types fuel .init (L.and c.initEnv c.initSys) = r' → r' ≠ .stuck := by
    rintro r' e rfl; rw [e] at h; exact hne h.symm
  obtain ⟨k3, e3, c3⟩ := clauseLines_ok hc.init rfl (s3 _ rfl)
  rw [e3] at h
  simp only at h
  have s4 : ∀ r', liveLines (tableOf ds).types fuel true c.livenessGuarantees = r' → r' ≠ .stuck := by
    rintro r' e rfl; rw [e] at h; exact hne h.symm
  obtain ⟨gs, e4, c4⟩ := liveLines_ok _ hc.guarantees rfl (s4 _ rfl)
  rw [e4] at h
  simp only at h
  have s5 : ∀ r', liveLines (tableOf ds).types fuel false c.livenessAssumptions = r' → r' ≠ .stuck := by
    rintro r' e rfl; rw [e] at h; exact hne h.symm
  obtain ⟨as, e5, c5⟩ := liveLines_ok _ hc.assumptions rfl (s5 _ rfl)
  rw [e5] at h
  exact ⟨_, k1, k2, k3, gs, as, h.symm, rfl, c1, c2, c3, c4, c5⟩

theorem executeCnf_terminates {ds : Decls} {c : Ctx B} (hc : CtxBelow (tableOf ds).types.length c) {fuel : Nat} (hf : 2 ^ (tableOf ds).types.length < fuel) :
    executeCnf (tableOf ds) c fuel ≠ .stuck := by
  rw [executeCnf, zip_table, declLines_eq]
  simp only
  obtain ⟨k1, e1, _⟩ := clauseLines_ok hc.safetySys rfl (clauseLines_terminates (kind := .safetyGuarantee) hc.safetySys hf)
  obtain ⟨k2, e2, _⟩ := clauseLines_ok hc.safetyEnv rfl (clauseLines_terminates (kind := .safetyAssumption) hc.safetyEnv hf)
  obtain ⟨k3, e3, _⟩ := clauseLines_ok hc.init rfl (clauseLines_terminates (kind := .init) hc.init hf)
  obtain ⟨gs, e4, _⟩ := liveLines_ok _ hc.guarantees rfl (liveLines_terminates (guarantee := true) hf _ hc.guarantees)
  obtain ⟨as, e5, _⟩ := liveLines_ok _ hc.assumptions rfl (liveLines_terminates (guarantee := false) hf _ hc.assumptions)
  rw [e1, e2, e3, e4, e5]
  simp

theorem CnfParts.declares {ds : Decls} {c : Ctx B} {ls : List CnfLine} {k1 k2 k3 : List (List (Nat × Bool))}
    {gs as : List (List (List (Nat × Bool)))} (h : CnfParts ds c ls k1 k2 k3 gs as) : DeclaresOf ls ds := by
  intro x a b
  rw [h.lines]
  simp

theorem CnfParts.mem_clause {ds : Decls} {c : Ctx B} {ls : List CnfLine} {k1 k2 k3 : List (List (Nat × Bool))}
    {gs as : List (List (List (Nat × Bool)))} (h : CnfParts ds c ls k1 k2 k3 gs as) (kind : ClauseKind) (lits : List Int) :
    CnfLine.clause kind lits ∈ ls ↔
      ∃ k ∈ (match kind with | .safetyGuarantee => k1 | .safetyAssumption => k2 | .init => k3), clauseLiterals k = lits := by
  have hd : ∀ i ds, CnfLine.clause kind lits ∉ declsFrom i ds := by
    intro i ds
    induction ds generalizing i with
    | nil => simp [declsFrom]
    | cons d ds ih =>
      obtain ⟨b, x⟩ := d
      cases b <;> simp [declsFrom, ih]
  rw [h.lines]
  cases kind <;> simp [hd]

theorem CnfParts.cubes {ds : Decls} {c : Ctx B} {ls : List CnfLine} {k1 k2 k3 : List (List (Nat × Bool))}
    {gs as : List (List (List (Nat × Bool)))} (h : CnfParts ds c ls k1 k2 k3 gs as) :
    cubeLines true ls = gs.map (fun ks => ks.map (cubeLiterals (tableOf ds).types)) ∧
    cubeLines false ls = as.map (fun ks => ks.map (cubeLiterals (tableOf ds).types)) := by
  have hd : ∀ g i ds, cubeLines g (declsFrom i ds) = [] := by
    intro g i ds
    induction ds generalizing i with
    | nil => rfl
    | cons d ds ih =>
      obtain ⟨b, x⟩ := d
      cases b <;> exact ih (i + 2)
  have happ : ∀ g a b, cubeLines g (a ++ b) = cubeLines g a ++ cubeLines g b := fun g a b => List.filterMap_append ..
  have hcl : ∀ g kind (ks : List (List (Nat × Bool))), cubeLines g (ks.map fun k => CnfLine.clause kind (clauseLiterals k)) = [] := by
    intro g kind ks
    induction ks with
    | nil => rfl
    | cons k ks ih => exact ih
  have hcu : ∀ g g' (ks : List (List (List (Nat × Bool)))), cubeLines g (ks.map fun k => CnfLine.cubes g' (k.map (cubeLiterals (tableOf ds).types))) =
      if g' = g then ks.map (fun ks => ks.map (cubeLiterals (tableOf ds).types)) else [] := by
    intro g g' ks
    induction ks with
    | nil => simp [cubeLines]
    | cons k ks ih =>
      simp only [cubeLines, List.map_cons, List.filterMap_cons] at ih ⊢
      by_cases e : g' = g
      · rw [if_pos e] at ih
        simp only [if_pos e, ih]
      · rw [if_neg e] at ih
        simp [e, ih]
  rw [h.lines]
  simp [happ, hd, hcl, hcu]

theorem CnfParts.names {ds : Decls} {c : Ctx B} {ls : List CnfLine} {k1 k2 k3 : List (List (Nat × Bool))}
    {gs as : List (List (List (Nat × Bool)))} (h : CnfParts ds c ls k1 k2 k3 gs as) : inputLines ls = inputsOf ds ∧ outputLines ls = outputsOf ds := by
  have hd : ∀ i ds, inputLines (declsFrom i ds) = inputsOf ds ∧ outputLines (declsFrom i ds) = outputsOf ds := by
    intro i ds
    induction ds generalizing i with
    | nil => exact ⟨rfl, rfl⟩
    | cons d ds ih =>
      obtain ⟨b, x⟩ := d
      obtain ⟨h1, h2⟩ := ih (i + 2)
      cases b
      · exact ⟨h1, congrArg (x :: ·) h2⟩
      · exact ⟨congrArg (x :: ·) h1, h2⟩
  have happ : ∀ a b, inputLines (a ++ b) = inputLines a ++ inputLines b := fun a b => List.filterMap_append ..
  have happ' : ∀ a b, outputLines (a ++ b) = outputLines a ++ outputLines b := fun a b => List.filterMap_append ..
  have hcl : ∀ kind (ks : List (List (Nat × Bool))), inputLines (ks.map fun k => CnfLine.clause kind (clauseLiterals k)) = [] ∧
      outputLines (ks.map fun k => CnfLine.clause kind (clauseLiterals k)) = [] := by
    intro kind ks
    induction ks with
    | nil => exact ⟨rfl, rfl⟩
    | cons k ks ih => exact ih
  have hcu : ∀ g' (ks : List (List (List (Nat × Bool)))),
      inputLines (ks.map fun k => CnfLine.cubes g' (k.map (cubeLiterals (tableOf ds).types))) = [] ∧
      outputLines (ks.map fun k => CnfLine.cubes g' (k.map (cubeLiterals (tableOf ds).types))) = [] := by
    intro g' ks
    induction ks with
    | nil => exact ⟨rfl, rfl⟩
    | cons k ks ih => exact ih
  rw [h.lines]
  simp [happ, happ', hd, hcl, hcu]

/-! ### Complete runs -/

theorem ctxBelow_enc {ds : Decls} (F : Section → List Fml) (hn : (tableOf ds).names.Nodup) :
    CtxBelow (tableOf ds).types.length ((gameCtx (padGame (specOf ds F).game)).map ((tableLayout ds hn).enc B)) where
  safetySys := enc_depends F hn _
  safetyEnv := enc_depends F hn _
  initEnv := enc_depends F hn _
  initSys := enc_depends F hn _
  guarantees g hg := by
    obtain ⟨G, _, rfl⟩ := List.mem_map.mp hg
    exact enc_depends F hn _
  assumptions g hg := by
    obtain ⟨G, _, rfl⟩ := List.mem_map.mp hg
    exact enc_depends F hn _

theorem Layout_and {X Y : Type} {types : List VarType} (lay : Layout X Y types) (f g : T (X → Bool) (Y → Bool)) :
    L.and (lay.enc B f) (lay.enc B g) = lay.enc B (fun p q => f p q ∧ g p q) :=
  lay.eq_enc B fun a => by rw [L.eval_and, Bool.and_eq_true, lay.eval_enc, lay.eval_enc]

/-- The constraint that a kind of clauses is about. -/
def kindOf {I O : Type} (g : Game I O) : ClauseKind → T I O
  | .safetyGuarantee => g.safetySys
  | .safetyAssumption => fun p q => g.safetyEnv p q.1
  | .init => fun p _ => g.initEnv p.1 ∧ g.initSys p

theorem CnfParts.cover {ds : Decls} {F : Section → List Fml} {hn : (tableOf ds).names.Nodup} {ls : List CnfLine} {k1 k2 k3 : List (List (Nat × Bool))}
    {gs as : List (List (List (Nat × Bool)))}
    (h : CnfParts ds ((gameCtx (padGame (specOf ds F).game)).map ((tableLayout ds hn).enc B)) ls k1 k2 k3 gs as) (kind : ClauseKind) :
    CubeCover (tableOf ds).types.length (fun w => L.eval ((tableLayout ds hn).enc B (kindOf (specOf ds F).game kind)) w = false)
      (L.not ((tableLayout ds hn).enc B (kindOf (specOf ds F).game kind)))
      (match kind with | .safetyGuarantee => k1 | .safetyAssumption => k2 | .init => k3) := by
  cases kind
  · exact h.safetySys
  · exact h.safetyEnv
  · have e := Layout_and (B := B) (tableLayout ds hn) (fun p _ => (specOf ds F).game.initEnv p.1) (fun p _ => (specOf ds F).game.initSys p)
    exact (congrArg (fun b : B => CubeCover (tableOf ds).types.length (fun w => L.eval b w = false) (L.not b) k3) e).mp h.init

/-- The output of a run on an accepted file. -/
theorem cnf_printed {cap : Nat} {order : List Char → Bool} {text : List Char} {fuel : Nat} {ls : List CnfLine}
    (hr : runCnf B cap order fuel text = .prints ls) {sp : SpecFile} (hd : Denotes text sp) :
    ∃ (ds : Decls) (F : Section → List Fml) (hn : (tableOf ds).names.Nodup) (k1 k2 k3 : List (List (Nat × Bool))) (gs as : List (List (List (Nat × Bool)))),
      sp = specOf ds F ∧ CnfParts ds ((gameCtx (padGame (specOf ds F).game)).map ((tableLayout ds hn).enc B)) ls k1 k2 k3 gs as := by
  cases hi : initContext (B := B) cap order text with
  | err _ => rw [runCnf, hi] at hr; cases hr
  | ub => rw [runCnf, hi] at hr; cases hr
  | stuck => rw [runCnf, hi] at hr; cases hr
  | ok r =>
    obtain ⟨tab, c⟩ := r
    obtain ⟨ds, F, hn, rfl, hd', _, _, _, hc⟩ := initContext_spec hi
    rw [runCnf, hi] at hr
    simp only at hr
    cases he : executeCnf (tableOf ds) c fuel with
    | err _ => rw [he] at hr; cases hr
    | ub => rw [he] at hr; cases hr
    | stuck => rw [he] at hr; cases hr
    | ok ls' =>
      rw [he] at hr
      obtain rfl : ls' = ls := by injection hr
      subst hc
      obtain ⟨ls, k1, k2, k3, gs, as, e, hp⟩ := executeCnf_spec (ctxBelow_enc (B := B) F hn) fuel he nofun
      obtain rfl : ls' = ls := by injection e
      exact ⟨ds, F, hn, k1, k2, k3, gs, as, Denotes.det hd hd', hp⟩

theorem types_length : ∀ ds : Decls, (tableOf ds).types.length = 2 * ((inputsOf ds).length + (outputsOf ds).length)
  | [] => rfl
  | (b, x) :: ds => by
    have ih := types_length ds
    simp only [tableOf, inputsOf, outputsOf, List.length_map, entriesOf] at ih ⊢
    cases b <;> simp [declPair] at ih ⊢ <;> omega

/-- **C27**, termination: on every accepted file the export ends and none of its error messages is printed. -/
theorem C27_terminates {cap : Nat} {order : List Char → Bool} {text : List Char} {tab : VarTable} {c : Ctx B}
    (h : initContext cap order text = .ok (tab, c)) {sp : SpecFile} (hd : Denotes text sp)
    (fuel : Nat) (hf : 2 ^ (2 * (sp.inputs.length + sp.outputs.length)) < fuel) : ∃ ls, runCnf B cap order fuel text = .prints ls := by
  obtain ⟨ds, F, hn, rfl, hd', _, _, _, hc⟩ := initContext_spec h
  have := Denotes.det hd hd'
  subst this
  have hf' : 2 ^ (tableOf ds).types.length < fuel := by rw [types_length]; exact hf
  have hb := ctxBelow_enc (B := B) F hn
  rw [← hc] at hb
  obtain ⟨ls, _, _, _, _, _, e, _⟩ := executeCnf_spec hb fuel rfl (executeCnf_terminates hb hf')
  exact ⟨ls, by rw [runCnf, h]; simp only [e]⟩

/-- **C27**, numbers: exactly the declared variables are listed, in order; every number stands for one name, and every name has a number; all literals are
numbers of variables. -/
theorem C27_numbers {cap : Nat} {order : List Char → Bool} {text : List Char} {fuel : Nat} {ls : List CnfLine}
    (hr : runCnf B cap order fuel text = .prints ls) {sp : SpecFile} (hd : Denotes text sp) :
    inputLines ls = sp.inputs ∧ outputLines ls = sp.outputs ∧ (∀ k y y', NumberOf ls k y → NumberOf ls k y' → y = y') ∧
    (∀ k k' y, NumberOf ls k y → NumberOf ls k' y → k = k') ∧ ∀ y ∈ sp.names, ∃ k, 0 < k ∧ NumberOf ls k y := by
  obtain ⟨ds, F, hn, k1, k2, k3, gs, as, rfl, hp⟩ := cnf_printed hr hd
  have hdec := hp.declares
  refine ⟨hp.names.1, hp.names.2, fun k y y' h h' => ?_, fun k k' y h h' => ?_, fun y hy => ?_⟩
  · obtain ⟨i, rfl, hi⟩ := (numberOf_iff hdec).mp h
    obtain ⟨i', e, hi'⟩ := (numberOf_iff hdec).mp h'
    obtain rfl : i = i' := by omega
    rw [hi] at hi'
    exact Option.some.inj hi'
  · obtain ⟨i, rfl, hi⟩ := (numberOf_iff hdec).mp h
    obtain ⟨i', rfl, hi'⟩ := (numberOf_iff hdec).mp h'
    have hlt : i < (tableOf ds).names.length := by
      by_contra hge
      rw [List.getElem?_eq_none (by omega)] at hi
      cases hi
    rw [(List.getElem?_inj hlt hn).mp (hi.trans hi'.symm)]
  · have hy' := (names_perm ds F).mem_iff.mp hy
    obtain ⟨i, hi⟩ := List.getElem?_of_mem hy'
    exact ⟨i + 1, by omega, (numberOf_iff hdec).mpr ⟨i, rfl, hi⟩⟩

/-- **C27**, clauses: the clauses printed for the safety guarantees hold in a transition if and only if the safety guarantees do, and likewise for the safety
assumptions and for the initial constraints. -/
theorem C27_clauses {cap : Nat} {order : List Char → Bool} {text : List Char} {fuel : Nat} {ls : List CnfLine}
    (hr : runCnf B cap order fuel text = .prints ls) {sp : SpecFile} (hd : Denotes text sp) (p q : Pos sp.In sp.Out) :
    (ClausesHold sp ls .safetyGuarantee p q ↔ sp.game.safetySys p q) ∧ (ClausesHold sp ls .safetyAssumption p q ↔ sp.game.safetyEnv p q.1) ∧
    (ClausesHold sp ls .init p q ↔ sp.game.initEnv p.1 ∧ sp.game.initSys p) := by
  obtain ⟨ds, F, hn, k1, k2, k3, gs, as, rfl, hp⟩ := cnf_printed hr hd
  have hall : ∀ kind, ClausesHold (specOf ds F) ls kind p q ↔
      ∀ k ∈ (match kind with | .safetyGuarantee => k1 | .safetyAssumption => k2 | .init => k3), ClauseHolds (specOf ds F) ls p q (clauseLiterals k) := by
    intro kind
    constructor
    · intro h k hk
      exact h _ ((hp.mem_clause kind _).mpr ⟨k, hk, rfl⟩)
    · intro h lits hl
      obtain ⟨k, hk, rfl⟩ := (hp.mem_clause kind lits).mp hl
      exact h k hk
  exact ⟨(hall .safetyGuarantee).trans (clauses_iff F hn hp.declares (hp.cover .safetyGuarantee) p q),
    (hall .safetyAssumption).trans (clauses_iff F hn hp.declares (hp.cover .safetyAssumption) p q),
    (hall .init).trans (clauses_iff F hn hp.declares (hp.cover .init) p q)⟩

/-- **C27**, the clauses are as short as possible: whenever a literal is left out of a clause, the rest does not follow from the constraints any more. -/
theorem C27_prime {cap : Nat} {order : List Char → Bool} {text : List Char} {fuel : Nat} {ls : List CnfLine}
    (hr : runCnf B cap order fuel text = .prints ls) {sp : SpecFile} (hd : Denotes text sp) {kind : ClauseKind} {lits : List Int}
    (hl : CnfLine.clause kind lits ∈ ls) {l : Int} (h : l ∈ lits) :
    ∃ p q, ClausesHold sp ls kind p q ∧ ∀ l' ∈ lits, l' ≠ l → ¬ LiteralHolds sp ls p q l' := by
  have hcl := C27_clauses hr hd
  obtain ⟨ds, F, hn, k1, k2, k3, gs, as, rfl, hp⟩ := cnf_printed hr hd
  obtain ⟨k, hk, rfl⟩ := (hp.mem_clause kind lits).mp hl
  obtain ⟨p, q, h1, h2⟩ := clause_prime F hn hp.declares (hp.cover kind) hk h
  refine ⟨p, q, ?_, h2⟩
  obtain ⟨c1, c2, c3⟩ := hcl p q
  cases kind
  · exact c1.mpr h1
  · exact c2.mpr h1
  · exact c3.mpr h1

/-- **C27**, liveness: there is one line for each liveness guarantee, in order (and a line that is always true if there is none), and in every infinite
sequence of positions one of the cubes on it holds infinitely often if and only if the guarantee does; likewise for the assumptions.  (A cube about next
values only is printed as one about current values.  This does not change what holds infinitely often.) -/
theorem C27_liveness {cap : Nat} {order : List Char → Bool} {text : List Char} {fuel : Nat} {ls : List CnfLine}
    (hr : runCnf B cap order fuel text = .prints ls) {sp : SpecFile} (hd : Denotes text sp) :
    List.Forall₂ (fun cs G => ∀ π, InfOften (fun p q => ∃ c ∈ cs, CubeHolds sp ls p q c) π ↔ InfOften G π) (cubeLines true ls)
      (if sp.game.guarantees = [] then [fun _ _ => True] else sp.game.guarantees) ∧
    List.Forall₂ (fun cs G => ∀ π, InfOften (fun p q => ∃ c ∈ cs, CubeHolds sp ls p q c) π ↔ InfOften G π) (cubeLines false ls)
      (if sp.game.assumptions = [] then [fun _ _ => True] else sp.game.assumptions) := by
  obtain ⟨ds, F, hn, k1, k2, k3, gs, as, rfl, hp⟩ := cnf_printed hr hd
  have hpad : ∀ l : List (T (specOf ds F).In (specOf ds F).Out), (if l = [] then [fun _ _ => True] else l) = padLive l := by
    intro l; cases l <;> rfl
  rw [hpad, hpad, hp.cubes.1, hp.cubes.2]
  have key : ∀ (kss : List (List (List (Nat × Bool)))) (Gs : List (T (specOf ds F).In (specOf ds F).Out)),
      List.Forall₂ (fun ks G => CubeCover (tableOf ds).types.length (fun w => L.eval G w = true) G ks) kss (Gs.map ((tableLayout ds hn).enc B)) →
      List.Forall₂ (fun cs G => ∀ π, InfOften (fun p q => ∃ c ∈ cs, CubeHolds (specOf ds F) ls p q c) π ↔ InfOften G π)
        (kss.map (fun ks => ks.map (cubeLiterals (tableOf ds).types))) Gs := by
    intro kss Gs
    induction Gs generalizing kss with
    | nil =>
      intro h
      cases h
      exact .nil
    | cons G Gs ih =>
      intro h
      rcases h with _ | ⟨h, ht⟩
      exact .cons (cubes_infOften (B := B) F hn hp.declares h) (ih _ ht)
  exact ⟨key _ _ hp.guarantees, key _ _ hp.assumptions⟩

/-! ### A concrete file -/

def exportText : List Char :=
  txt!"[INPUT]\na\n[OUTPUT]\ny\n[SYS_TRANS]\n! ^ y' a'\n[SYS_LIVENESS]\n| y' & a ! y\n[SYS_INIT]\n! y"

/-- The hypotheses are met by this run.  The next value `y'` is printed as `y` in the line of the liveness guarantee. -/
theorem export_run : runCnf ROBDD 1000 (fun _ => true) 300 exportText = .prints
    [.input txt!"a" 1 2, .output txt!"y" 3 4, .clause .safetyGuarantee [2, -4], .clause .safetyGuarantee [-2, 4], .clause .init [-3],
      .cubes true [[3], [1, -3]], .cubes false [[]]] := by rfl

/-- The text that is printed. -/
example : ∃ ls, runCnf ROBDD 1000 (fun _ => true) 300 exportText = .prints ls ∧ ls.flatMap CnfLine.text =
    txt!"Input: a 1 2\nOutput: y 3 4\nSafetyGuarantee: 2 -4 0\nSafetyGuarantee: -2 4 0\nInit: -3 0\nLivenessGuarantee: 3 0 1 -3 0\nLivenessAssumption: 0\n" :=
  ⟨_, export_run, by decide +kernel⟩

/-- The file has a meaning, to which the theorems apply. -/
example : ∃ sp, Denotes exportText sp ∧ sp.inputs = [txt!"a"] ∧ sp.outputs = [txt!"y"] := by
  obtain ⟨r, hr⟩ : ∃ r, initContext (B := ROBDD) 1000 (fun _ => true) exportText = .ok r := ⟨_, rfl⟩
  obtain ⟨ds, F, hn, _, hd, _⟩ := initContext_spec (tab := r.1) (c := r.2) hr
  obtain ⟨h1, h2, _⟩ := C27_numbers export_run hd
  exact ⟨_, hd, h1.symm, h2.symm⟩

end Slugs.Props
