import Verif.Lemmas.LtlFormats
import Verif.Props.Explicit

/-!
C75, C76: the translators from the formats of LTLMop (`tools/translateFromLTLMopLTLFormatToSlugsFormat.py`) and of RATSY
(`tools/translateFromRatsyFormatToSlugsFormat.py`) to `slugsin` files.
-/

namespace Slugs.Props

open Slugs.Spec Slugs.Spec.LtlText Slugs.Model Slugs.Model.LtlText

variable {B : Type} [DecidableEq B] [BddLib B] {alg : Algorithm}

theorem lits_uses (R : Word → Prop) (f : Ltl) : ∀ p : Bool, (∀ u ∈ f.uses p, R u.1) ↔ Lits (fun x _ => R x) f := by
  induction f with
  | tt => simp [Ltl.uses, Lits]
  | ff => simp [Ltl.uses, Lits]
  | lit x v => simp [Ltl.uses, Lits]
  | not f ih => exact ih
  | next f ih => exact fun _ => ih true
  | eventually f ih => exact ih
  | globally f ih => exact ih
  | and f g i1 i2 => intro p; rw [Ltl.uses, List.forall_mem_append, i1, i2, Lits]
  | or f g i1 i2 => intro p; rw [Ltl.uses, List.forall_mem_append, i1, i2, Lits]
  | xor f g i1 i2 => intro p; rw [Ltl.uses, List.forall_mem_append, i1, i2, Lits]
  | imp f g i1 i2 => intro p; rw [Ltl.uses, List.forall_mem_append, i1, i2, Lits]
  | iff f g i1 i2 => intro p; rw [Ltl.uses, List.forall_mem_append, i1, i2, Lits]
  | strongUntil f g i1 i2 => intro p; rw [Ltl.uses, List.forall_mem_append, i1, i2, Lits]
  | weakUntil f g i1 i2 => intro p; rw [Ltl.uses, List.forall_mem_append, i1, i2, Lits]

theorem positive_faithful {f : Ltl} (h : f.Positive) : Faithful ltlmopStyle f := by
  induction f with
  | tt => trivial
  | ff => trivial
  | lit x v =>
    rcases v with _ | _ | _
    · rfl
    · exact absurd rfl h
    · rfl
  | not f ih => exact ih h
  | next f ih => exact ih h
  | eventually f ih => exact ih h
  | globally f ih => exact ih h
  | and f g i1 i2 => exact ⟨i1 h.1, i2 h.2⟩
  | or f g i1 i2 => exact ⟨i1 h.1, i2 h.2⟩
  | xor f g i1 i2 => exact ⟨i1 h.1, i2 h.2⟩
  | imp f g i1 i2 => exact ⟨i1 h.1, i2 h.2⟩
  | iff f g i1 i2 => exact ⟨i1 h.1, i2 h.2⟩
  | strongUntil f g i1 i2 => exact ⟨i1 h.1, i2 h.2⟩
  | weakUntil f g i1 i2 => exact ⟨i1 h.1, i2 h.2⟩

theorem ratsy_faithful (f : Ltl) : Faithful ratsyStyle f := by
  induction f with
  | tt => trivial
  | ff => trivial
  | lit x v => rfl
  | not f ih => exact ih
  | next f ih => exact ih
  | eventually f ih => exact ih
  | globally f ih => exact ih
  | and f g i1 i2 => exact ⟨i1, i2⟩
  | or f g i1 i2 => exact ⟨i1, i2⟩
  | xor f g i1 i2 => exact ⟨i1, i2⟩
  | imp f g i1 i2 => exact ⟨i1, i2⟩
  | iff f g i1 i2 => exact ⟨i1, i2⟩
  | strongUntil f g i1 i2 => exact ⟨i1, i2⟩
  | weakUntil f g i1 i2 => exact ⟨i1, i2⟩

theorem compared_lits (f : Ltl) : f.Compared ↔ Lits ratsyStyle.ok f := by
  induction f with
  | tt => exact Iff.rfl
  | ff => exact Iff.rfl
  | lit x v => exact Iff.rfl
  | not f ih => exact ih
  | next f ih => exact ih
  | eventually f ih => exact ih
  | globally f ih => exact ih
  | and f g i1 i2 => exact and_congr i1 i2
  | or f g i1 i2 => exact and_congr i1 i2
  | xor f g i1 i2 => exact and_congr i1 i2
  | imp f g i1 i2 => exact and_congr i1 i2
  | iff f g i1 i2 => exact and_congr i1 i2
  | strongUntil f g i1 i2 => exact and_congr i1 i2
  | weakUntil f g i1 i2 => exact and_congr i1 i2

theorem prefixed_lits (f : Ltl) : f.Prefixed ↔ Lits ltlmopStyle.ok f := lits_uses (fun x => x[1]? = some '.') f false

/-- What a strategy that slugs prints for the result means for the formulas. -/
theorem strategy_keeps {robotics recovery : Bool} {cap : Nat} {order : List Char → Bool} {fuel : Nat} {out : List Char} {sts : List PState}
    (h : runExplicit B alg robotics false recovery cap order fuel out = .strategy sts) {sp : SpecFile} (hd : Denotes out sp) {ins outs : List Word} {name : Word → Word}
    {φs ψs : List Ltl} (he : Expresses sp ins outs name φs ψs) (r : Nat → PState) (hr : ∀ n, Edge sts (r n) (r (n + 1))) (hi : sp.game.initSys ((r 0).pos sp))
    (ha : ∀ φ ∈ φs, φ.Holds (valuesOf sp name fun n => (r n).pos sp) 0) : ∀ ψ ∈ ψs, ψ.Holds (valuesOf sp name fun n => (r n).pos sp) 0 := by
  obtain ⟨_, hp⟩ := runExplicit_printed h hd
  obtain ⟨e1, e2⟩ := he.2.2 fun n => (r n).pos sp
  obtain ⟨_, a2, a3⟩ := e1.mpr ha
  exact e2.mp ⟨hi, fun n => hp.safe _ _ (hr n), hp.live r hr a2 a3⟩

/-! ### C75: LTLMop -/

theorem bits_self {names : List Word} (h : ∀ x ∈ names, UsableName x) : Bits names names where
  names := List.filter_eq_self.mpr fun x hx => by simpa using (h x hx).1
  tight x hx := (usable_item (h x hx)).tight
  clean x hx := (usable_item (h x hx)).clean

/-- **C75.** Partial: see `C75_zero`.  If the assumptions and the guarantees in the LTL file are formulas in GR(1) form, over the variables that the SMV file declares (with one
character and a dot before their names), then the translator writes a file that slugs reads, and it means the same: it has the declared variables, and in all sequences of
values the environment satisfies its assumptions if and only if the formula for the assumptions holds, and the system satisfies its guarantees if and only if the formula for the
guarantees holds. -/
theorem C75_translated_partial {smv ltl a g : List Char} {inputs outputs : List Word} {φ ψ : Ltl} (hs : SmvDecls none (splitLines smv) inputs outputs) (hl : LtlFile ltl a g)
    (hφ : IsFormula a φ) (hψ : IsFormula g ψ) (hg : φ.Gr1 false ∧ ψ.Gr1 true) (hp : φ.Prefixed ∧ ψ.Prefixed) (hz : φ.Positive ∧ ψ.Positive)
    (hsc : EnvScoped (·.drop 2) inputs outputs φ ∧ SysScoped (·.drop 2) inputs outputs ψ) (hu : UsableNames inputs outputs) :
    ∃ out, fromLtlmop smv ltl = some out ∧ (∀ cap, out.length ≤ cap → ProperFile cap out) ∧
      ∃ sp, Denotes out sp ∧ Expresses sp inputs outputs (·.drop 2) [φ] [ψ] := by
  obtain ⟨as, gs, hl, rfl, rfl⟩ := hl
  obtain ⟨T1, p1, t1⟩ := parseLTL_complete hφ
  obtain ⟨T2, p2, t2⟩ := parseLTL_complete hψ
  have e1 : ltlFile 0 [] [] (Aiger.rawLines ltl) = (as.flatMap (' ' :: ·), gs.flatMap (' ' :: ·)) := ltlFile_spec hl _ (rawLines_map ltl) [] []
  have e2 : smvFile 0 [] [] (Aiger.rawLines smv) = (inputs, outputs) := smvFile_spec hs _ (rawLines_map smv) [] []
  have e3 : fromLtlmop smv ltl = outputText ltlmopAtom inputs outputs [T1] [T2] := by
    rw [fromLtlmop, e1, e2]
    simp only [p1, p2, Option.bind_eq_bind, Option.bind_some]
  rw [e3]
  refine output_spec ltlmop_style (bits_self fun x hx => hu.1 x (List.mem_append_left _ hx)) (bits_self fun x hx => hu.1 x (List.mem_append_right _ hx)) (.cons t1 .nil)
    (.cons t2 .nil) (fun f hf => ?_) (fun f hf => ?_) hu
  · rw [List.mem_singleton] at hf
    subst hf
    exact ⟨hg.1, (prefixed_lits _).mp hp.1, positive_faithful hz.1, hsc.1⟩
  · rw [List.mem_singleton] at hf
    subst hf
    exact ⟨hg.2, (prefixed_lits _).mp hp.2, positive_faithful hz.2, hsc.2⟩

/-- **C75.** Conversely, whatever is translated consists of formulas in GR(1) form.  (`symbols`: the symbols in the texts.) -/
theorem C75_accepted {smv ltl a g out : List Char} (hl : LtlFile ltl a g) (hn : PlainNames (symbols a.length a) ∧ PlainNames (symbols g.length g))
    (h : fromLtlmop smv ltl = some out) :
    ∃ φ ψ, IsFormula a φ ∧ IsFormula g ψ ∧ (φ.Gr1 false ∧ ψ.Gr1 true) ∧ φ.Prefixed ∧ ψ.Prefixed := by
  obtain ⟨as, gs, hl, rfl, rfl⟩ := hl
  have e1 : ltlFile 0 [] [] (Aiger.rawLines ltl) = (as.flatMap (' ' :: ·), gs.flatMap (' ' :: ·)) := ltlFile_spec hl _ (rawLines_map ltl) [] []
  rw [fromLtlmop, e1] at h
  simp only [Option.bind_eq_bind, Option.bind_eq_some_iff] at h
  obtain ⟨T1, p1, T2, p2, h⟩ := h
  obtain ⟨φ, f1, t1⟩ := parseLTL_sound (lexes_symbols _ _ le_rfl) hn.1 p1
  obtain ⟨ψ, f2, t2⟩ := parseLTL_sound (lexes_symbols _ _ le_rfl) hn.2 p2
  obtain ⟨k1, k2⟩ := output_only ltlmop_style (.cons t1 .nil) (.cons t2 .nil) h
  obtain ⟨k1, k1'⟩ := k1 φ (by simp)
  obtain ⟨k2, k2'⟩ := k2 ψ (by simp)
  exact ⟨φ, ψ, f1, f2, ⟨k1, k2⟩, (prefixed_lits _).mpr k1', (prefixed_lits _).mpr k2'⟩

/-- **C75.** The strategies that slugs finds for the translation do what the LTL file asks for. -/
theorem C75_strategies_partial {smv ltl a g : List Char} {inputs outputs : List Word} {φ ψ : Ltl} (hs : SmvDecls none (splitLines smv) inputs outputs) (hl : LtlFile ltl a g)
    (hφ : IsFormula a φ) (hψ : IsFormula g ψ) (hg : φ.Gr1 false ∧ ψ.Gr1 true) (hp : φ.Prefixed ∧ ψ.Prefixed) (hz : φ.Positive ∧ ψ.Positive)
    (hsc : EnvScoped (·.drop 2) inputs outputs φ ∧ SysScoped (·.drop 2) inputs outputs ψ) (hu : UsableNames inputs outputs) :
    ∃ out sp, fromLtlmop smv ltl = some out ∧ Denotes out sp ∧ sp.inputs = inputs ∧ sp.outputs = outputs ∧
      ∀ {robotics recovery : Bool} {cap : Nat} {order : List Char → Bool} {fuel : Nat} {sts : List PState},
        runExplicit B alg robotics false recovery cap order fuel out = .strategy sts → ∀ r : Nat → PState, (∀ n, Edge sts (r n) (r (n + 1))) →
          sp.game.initSys ((r 0).pos sp) → φ.Holds (valuesOf sp (·.drop 2) fun n => (r n).pos sp) 0 → ψ.Holds (valuesOf sp (·.drop 2) fun n => (r n).pos sp) 0 := by
  obtain ⟨out, h1, _, sp, h2, h3⟩ := C75_translated_partial hs hl hφ hψ hg hp hz hsc hu
  refine ⟨out, sp, h1, h2, h3.1, h3.2.1, fun hr r hr1 hr2 ha => ?_⟩
  exact strategy_keeps hr h2 h3 r hr1 hr2 (by simpa using ha) ψ (by simp)

/-! ### C76: RATSY -/

theorem parseAll_complete : ∀ {ps : List (List Char)} {fs : List Ltl}, List.Forall₂ (fun a f => IsFormula (a ++ txt!";") f) ps fs →
    ∃ Ts, ps.mapM (fun a => parseLTL (a ++ txt!";")) = some Ts ∧ List.Forall₂ FormulaTree fs Ts
  | _, _, .nil => ⟨[], rfl, .nil⟩
  | _, _, .cons h1 h2 => by
    obtain ⟨T, e1, t1⟩ := parseLTL_complete h1
    obtain ⟨Ts, e2, t2⟩ := parseAll_complete h2
    exact ⟨T :: Ts, by rw [List.mapM_cons, e1, e2]; rfl, .cons t1 t2⟩

theorem parseAll_sound : ∀ {ps : List (List Char)} {Ts : List LtlText.Tree}, (∀ a ∈ ps, PlainNames (symbols (a ++ txt!";").length (a ++ txt!";"))) →
    ps.mapM (fun a => parseLTL (a ++ txt!";")) = some Ts → ∃ fs, List.Forall₂ (fun a f => IsFormula (a ++ txt!";") f) ps fs ∧ List.Forall₂ FormulaTree fs Ts
  | [], _, _, h => by
    cases h
    exact ⟨[], .nil, .nil⟩
  | a :: ps, Ts, hn, h => by
    rw [List.mapM_cons] at h
    simp only [Option.bind_eq_bind, Option.bind_eq_some_iff] at h
    obtain ⟨T, p1, Ts', p2, h⟩ := h
    cases h
    rw [List.forall_mem_cons] at hn
    obtain ⟨f, f1, t1⟩ := parseLTL_sound (lexes_symbols _ _ le_rfl) hn.1 p1
    obtain ⟨fs, f2, t2⟩ := parseAll_sound hn.2 p2
    exact ⟨f :: fs, .cons f1 f2, .cons t1 t2⟩

/-- **C76.** Partial: see `C76_next_names`.  If the assumptions and the guarantees in the file are formulas in GR(1) form that compare the declared variables with 0 and 1, then the
translator writes a file that slugs reads, and it means the same: it has the declared variables, and in all sequences of values the environment satisfies its assumptions if and
only if all assumptions in the file hold, and the system satisfies its guarantees if and only if all guarantees in the file hold. -/
theorem C76_translated_partial {text : List Char} {part : Section → List (List Char)} {φs ψs : List Ltl} (hf : RatsyFile text part)
    (hφ : List.Forall₂ (fun a φ => IsFormula (a ++ txt!";") φ) (part .envInit ++ part .envTrans ++ part .envLiveness) φs)
    (hψ : List.Forall₂ (fun a ψ => IsFormula (a ++ txt!";") ψ) (part .sysInit ++ part .sysTrans ++ part .sysLiveness) ψs)
    (h1 : ∀ φ ∈ φs, φ.Gr1 false ∧ φ.Compared ∧ EnvScoped id (part .input) (part .output) φ)
    (h2 : ∀ ψ ∈ ψs, ψ.Gr1 true ∧ ψ.Compared ∧ SysScoped id (part .input) (part .output) ψ) (hu : UsableNames (part .input) (part .output)) :
    ∃ out, fromRatsy text = some out ∧ (∀ cap, out.length ≤ cap → ProperFile cap out) ∧
      ∃ sp, Denotes out sp ∧ Expresses sp (part .input) (part .output) id φs ψs := by
  obtain ⟨strings, e, hb⟩ := ratsy_file hf
  obtain ⟨T1, p1, t1⟩ := parseAll_complete hφ
  obtain ⟨T2, p2, t2⟩ := parseAll_complete hψ
  have e1 : parseAll (pieces (strings .envInit) ++ pieces (strings .envTrans) ++ pieces (strings .envLiveness)) = some T1 := by
    rw [parseAll, List.filter_append, List.filter_append, (hb _).names, (hb _).names, (hb _).names]
    exact p1
  have e2 : parseAll (pieces (strings .sysInit) ++ pieces (strings .sysTrans) ++ pieces (strings .sysLiveness)) = some T2 := by
    rw [parseAll, List.filter_append, List.filter_append, (hb _).names, (hb _).names, (hb _).names]
    exact p2
  have e3 : fromRatsy text = outputText ratsyAtom (pieces (strings .input)) (pieces (strings .output)) T1 T2 := by
    rw [fromRatsy, e]
    simp only [Option.bind_eq_bind, Option.bind_some, e1, e2]
  rw [e3]
  exact output_spec ratsy_style (hb .input) (hb .output) t1 t2
    (fun f hm => ⟨(h1 f hm).1, (compared_lits f).mp (h1 f hm).2.1, ratsy_faithful f, (h1 f hm).2.2⟩)
    (fun f hm => ⟨(h2 f hm).1, (compared_lits f).mp (h2 f hm).2.1, ratsy_faithful f, (h2 f hm).2.2⟩) hu

/-- **C76.** Conversely, whatever is translated consists of such parts, which are formulas in GR(1) form. -/
theorem C76_accepted {text out : List Char} {part : Section → List (List Char)} (hf : RatsyFile text part)
    (hn : ∀ s, s ≠ .input → s ≠ .output → ∀ a ∈ part s, PlainNames (symbols (a ++ txt!";").length (a ++ txt!";"))) (h : fromRatsy text = some out) :
    ∃ φs ψs, List.Forall₂ (fun a φ => IsFormula (a ++ txt!";") φ) (part .envInit ++ part .envTrans ++ part .envLiveness) φs ∧
      List.Forall₂ (fun a ψ => IsFormula (a ++ txt!";") ψ) (part .sysInit ++ part .sysTrans ++ part .sysLiveness) ψs ∧
      (∀ φ ∈ φs, φ.Gr1 false ∧ φ.Compared) ∧ ∀ ψ ∈ ψs, ψ.Gr1 true ∧ ψ.Compared := by
  obtain ⟨strings, e, hb⟩ := ratsy_file hf
  rw [fromRatsy, e] at h
  simp only [Option.bind_eq_bind, Option.bind_some, Option.bind_eq_some_iff, parseAll, List.filter_append, (hb _).names] at h
  obtain ⟨T1, p1, T2, p2, h⟩ := h
  have n1 : ∀ a ∈ part .envInit ++ part .envTrans ++ part .envLiveness, PlainNames (symbols (a ++ txt!";").length (a ++ txt!";")) := by
    intro a ha
    simp only [List.mem_append] at ha
    rcases ha with (ha | ha) | ha
    · exact hn .envInit (by decide) (by decide) a ha
    · exact hn .envTrans (by decide) (by decide) a ha
    · exact hn .envLiveness (by decide) (by decide) a ha
  have n2 : ∀ a ∈ part .sysInit ++ part .sysTrans ++ part .sysLiveness, PlainNames (symbols (a ++ txt!";").length (a ++ txt!";")) := by
    intro a ha
    simp only [List.mem_append] at ha
    rcases ha with (ha | ha) | ha
    · exact hn .sysInit (by decide) (by decide) a ha
    · exact hn .sysTrans (by decide) (by decide) a ha
    · exact hn .sysLiveness (by decide) (by decide) a ha
  obtain ⟨φs, f1, t1⟩ := parseAll_sound n1 p1
  obtain ⟨ψs, f2, t2⟩ := parseAll_sound n2 p2
  obtain ⟨k1, k2⟩ := output_only ratsy_style t1 t2 h
  exact ⟨φs, ψs, f1, f2, fun f hm => ⟨(k1 f hm).1, (compared_lits f).mpr (k1 f hm).2⟩, fun f hm => ⟨(k2 f hm).1, (compared_lits f).mpr (k2 f hm).2⟩⟩

/-- **C76.** A file that is translated consists of such parts. -/
theorem C76_format {text out : List Char} (h : fromRatsy text = some out) : ∃ part, RatsyFile text part := by
  rw [fromRatsy] at h
  simp only [Option.bind_eq_bind, Option.bind_eq_some_iff] at h
  obtain ⟨strings, e, _⟩ := h
  obtain ⟨items, hi⟩ := ratsyFile_only _ _ _ e
  have hi' : RatsyContent none (splitLines text) items := ratsyContent_trim hi _ (rawLines_map text).symm
  choose part hp using fun s => semicolons_total (itemsOf s items).flatten
  exact ⟨part, items, hi', hp⟩

/-- **C76.** The strategies that slugs finds for the translation do what the file asks for. -/
theorem C76_strategies_partial {text : List Char} {part : Section → List (List Char)} {φs ψs : List Ltl} (hf : RatsyFile text part)
    (hφ : List.Forall₂ (fun a φ => IsFormula (a ++ txt!";") φ) (part .envInit ++ part .envTrans ++ part .envLiveness) φs)
    (hψ : List.Forall₂ (fun a ψ => IsFormula (a ++ txt!";") ψ) (part .sysInit ++ part .sysTrans ++ part .sysLiveness) ψs)
    (h1 : ∀ φ ∈ φs, φ.Gr1 false ∧ φ.Compared ∧ EnvScoped id (part .input) (part .output) φ)
    (h2 : ∀ ψ ∈ ψs, ψ.Gr1 true ∧ ψ.Compared ∧ SysScoped id (part .input) (part .output) ψ) (hu : UsableNames (part .input) (part .output)) :
    ∃ out sp, fromRatsy text = some out ∧ Denotes out sp ∧ sp.inputs = part .input ∧ sp.outputs = part .output ∧
      ∀ {robotics recovery : Bool} {cap : Nat} {order : List Char → Bool} {fuel : Nat} {sts : List PState},
        runExplicit B alg robotics false recovery cap order fuel out = .strategy sts → ∀ r : Nat → PState, (∀ n, Edge sts (r n) (r (n + 1))) →
          sp.game.initSys ((r 0).pos sp) → (∀ φ ∈ φs, φ.Holds (valuesOf sp id fun n => (r n).pos sp) 0) → ∀ ψ ∈ ψs, ψ.Holds (valuesOf sp id fun n => (r n).pos sp) 0 := by
  obtain ⟨out, h3, _, sp, h4, h5⟩ := C76_translated_partial hf hφ hψ h1 h2 hu
  exact ⟨out, sp, h3, h4, h5.1, h5.2.1, fun hr r hr1 hr2 ha => strategy_keeps hr h4 h5 r hr1 hr2 ha⟩

/-! ### Texts of formulas -/

/-- A formula with all brackets. -/
def full : Ltl → List Tok
  | .tt => [wordTok txt!"TRUE"]
  | .ff => [wordTok txt!"FALSE"]
  | .lit x none => [⟨.id, x⟩]
  | .lit x (some b) => [⟨.id, x⟩, charTok '=', if b then wordTok txt!"1" else wordTok txt!"0"]
  | .not f => charTok '(' :: ([charTok '!'] ++ full f) ++ [charTok ')']
  | .next f => charTok '(' :: ([wordTok txt!"next"] ++ full f) ++ [charTok ')']
  | .eventually f => charTok '(' :: ([charTok '<', charTok '>'] ++ full f) ++ [charTok ')']
  | .globally f => charTok '(' :: ([charTok '[', charTok ']'] ++ full f) ++ [charTok ')']
  | .and f g => charTok '(' :: (full f ++ [charTok '&'] ++ full g) ++ [charTok ')']
  | .or f g => charTok '(' :: (full f ++ [charTok '|'] ++ full g) ++ [charTok ')']
  | .xor f g => charTok '(' :: (full f ++ [charTok '^'] ++ full g) ++ [charTok ')']
  | .imp f g => charTok '(' :: (full f ++ [charTok '-', charTok '>'] ++ full g) ++ [charTok ')']
  | .iff f g => charTok '(' :: (full f ++ [charTok '<', charTok '-', charTok '>'] ++ full g) ++ [charTok ')']
  | .strongUntil f g => charTok '(' :: (full f ++ [wordTok txt!"U"] ++ full g) ++ [charTok ')']
  | .weakUntil f g => charTok '(' :: (full f ++ [wordTok txt!"W"] ++ full g) ++ [charTok ')']

theorem infix_lower {ts : List Tok} {f : Ltl} {n : Nat} (hn : n ≤ 7) (h : Infix 7 ts f) : Infix n ts f := by
  induction k : 7 - n generalizing n with
  | zero =>
    obtain rfl : n = 7 := by omega
    exact h
  | succ k ih => exact .up (by omega) (ih (by omega) (by omega))

theorem infix_to {ts : List Tok} {f : Ltl} : ∀ {n : Nat}, n ≤ 7 → Infix n ts f → Infix 0 ts f
  | 0, _, h => h
  | n + 1, hn, h => infix_to (by omega) (.up (by omega) h)

/-- Every formula can be written. -/
theorem full_infix (f : Ltl) : Infix 7 (full f) f := by
  have br : ∀ {n : Nat} {ts : List Tok} {f : Ltl}, n ≤ 7 → Infix n ts f → Infix 7 (charTok '(' :: ts ++ [charTok ')']) f :=
    fun hn h => .brackets (.inl ⟨rfl, rfl⟩) (infix_to hn h)
  induction f with
  | tt => exact .tt rfl
  | ff => exact .ff rfl
  | lit x v =>
    rcases v with _ | _ | _
    · exact .name rfl
    · exact .isZero rfl rfl rfl
    · exact .isOne rfl rfl rfl
  | not f ih => exact br (n := 6) (by omega) (.not (op := [charTok '!']) (by decide) (infix_lower (by omega) ih))
  | next f ih => exact br (n := 6) (by omega) (.next (op := [wordTok txt!"next"]) (by decide) (infix_lower (by omega) ih))
  | eventually f ih => exact br (n := 6) (by omega) (.eventually (op := [charTok '<', charTok '>']) (by decide) (infix_lower (by omega) ih))
  | globally f ih => exact br (n := 6) (by omega) (.globally (op := [charTok '[', charTok ']']) (by decide) (infix_lower (by omega) ih))
  | and f g i1 i2 => exact br (n := 4) (by omega) (.and (op := [charTok '&']) (infix_lower (by omega) i1) (by decide) (infix_lower (by omega) i2))
  | or f g i1 i2 => exact br (n := 3) (by omega) (.or (op := [charTok '|']) (infix_lower (by omega) i1) (by decide) (infix_lower (by omega) i2))
  | xor f g i1 i2 => exact br (n := 2) (by omega) (.xor (op := [charTok '^']) (infix_lower (by omega) i1) (by decide) (infix_lower (by omega) i2))
  | imp f g i1 i2 => exact br (n := 1) (by omega) (.imp (op := [charTok '-', charTok '>']) (infix_lower (by omega) i1) (by decide) (infix_lower (by omega) i2))
  | iff f g i1 i2 => exact br (n := 0) (by omega) (.iff (op := [charTok '<', charTok '-', charTok '>']) (infix_lower (by omega) i1) (by decide) (infix_lower (by omega) i2))
  | strongUntil f g i1 i2 => exact br (n := 5) (by omega) (.strongUntil (op := [wordTok txt!"U"]) (infix_lower (by omega) i1) (by decide) (infix_lower (by omega) i2))
  | weakUntil f g i1 i2 => exact br (n := 5) (by omega) (.weakUntil (op := [wordTok txt!"W"]) (infix_lower (by omega) i1) (by decide) (infix_lower (by omega) i2))

theorem isFormula_full {text : List Char} {f : Ltl} (h : symbols text.length text = full f ++ [charTok ';']) (hn : PlainNames (full f)) : IsFormula text f :=
  ⟨full f, charTok ';', h ▸ lexes_symbols _ _ le_rfl, hn, infix_lower (by omega) (full_infix f), rfl⟩

/-! ### Concrete files of LTLMop -/

def demoSmv : List Char := txt!"MODULE main\n  VAR\n    e : env();\n    s : sys();\nMODULE env -- inputs\n  VAR\n    x : boolean;\nMODULE sys -- outputs\n  VAR\n    y : boolean;\n"

def demoLtl : List Char := txt!"LTLSPEC -- Assumptions\n  ((!e.x) &\n  ([](<>e.x)));\n\nLTLSPEC -- Guarantees\n  (([]((next s.y) <-> e.x)) &\n  ([](<>s.y)));\n"

def demoAssumption : Ltl := .and (.not (.lit txt!"e.x" none)) (.globally (.eventually (.lit txt!"e.x" none)))

def demoGuarantee : Ltl := .and (.globally (.iff (.next (.lit txt!"s.y" none)) (.lit txt!"e.x" none))) (.globally (.eventually (.lit txt!"s.y" none)))

def demoA : List Char := txt!" ((!e.x) & ([](<>e.x))); "

def demoG : List Char := txt!" (([]((next s.y) <-> e.x)) & ([](<>s.y)));"

set_option maxRecDepth 10000 in
theorem demo_lines : splitLines demoSmv = [txt!"MODULE main", txt!"  VAR", txt!"    e : env();", txt!"    s : sys();", txt!"MODULE env -- inputs", txt!"  VAR", txt!"    x : boolean;",
    txt!"MODULE sys -- outputs", txt!"  VAR", txt!"    y : boolean;"] := by decide +kernel

theorem demo_decls : SmvDecls none (splitLines demoSmv) [txt!"x"] [txt!"y"] := by
  rw [demo_lines]
  refine .skip (by decide) (by decide) (.inr rfl) (.skip (by decide) (by decide) (.inr rfl) (.skip (by decide) (by decide) (.inr rfl) (.skip (by decide) (by decide) (.inr rfl)
    (.env (by decide) (.skip (by decide) (by decide) (.inl (by decide)) (.input (x := txt!"x") (t := txt!"boolean;") (by decide) (by decide) (by decide)
    (.sys (by decide) (.skip (by decide) (by decide) (.inl (by decide)) (.output (x := txt!"y") (t := txt!"boolean;") (by decide) (by decide) (by decide) .nil)))))))))

theorem demo_ltl : LtlFile demoLtl demoA demoG := by
  refine ⟨[txt!"((!e.x) &", txt!"([](<>e.x)));", []], [txt!"(([]((next s.y) <-> e.x)) &", txt!"([](<>s.y)));"], ?_, by decide, by decide⟩
  have e : splitLines demoLtl = [txt!"LTLSPEC -- Assumptions", txt!"  ((!e.x) &", txt!"  ([](<>e.x)));", [], txt!"LTLSPEC -- Guarantees", txt!"  (([]((next s.y) <-> e.x)) &",
    txt!"  ([](<>s.y)));"] := by decide +kernel
  rw [e]
  exact .assumptions (by decide) (.assumption (by decide) (.assumption (by decide) (.assumption (by decide) (.guarantees (by decide) (.guarantee (by decide) (.guarantee (by decide) .nil))))))

theorem demo_usable : UsableNames [txt!"x"] [txt!"y"] := by
  refine ⟨?_, by decide⟩
  unfold UsableName
  decide

/-- The file that is written. -/
def demoOut : List Char := txt!"[INPUT]\nx\n\n[OUTPUT]\ny\n\n[ENV_TRANS]\n\n[ENV_LIVENESS]\nx\n\n[ENV_INIT]\n! x\n\n[SYS_TRANS]\n| & ! y' ! x & y' x\n\n[SYS_LIVENESS]\ny'\n\n[SYS_INIT]\n\n"

theorem demo_out : fromLtlmop demoSmv demoLtl = some demoOut := by decide +kernel

theorem demo_means : ∃ sp, Denotes demoOut sp ∧ Expresses sp [txt!"x"] [txt!"y"] (·.drop 2) [demoAssumption] [demoGuarantee] := by
  obtain ⟨out, h1, _, h2⟩ := C75_translated_partial demo_decls demo_ltl (φ := demoAssumption) (ψ := demoGuarantee) (isFormula_full (by decide +kernel) (by unfold PlainNames; decide))
    (isFormula_full (by decide +kernel) (by unfold PlainNames; decide))
    (by simp [demoAssumption, demoGuarantee, Ltl.Gr1, Ltl.conjuncts, Ltl.role, Ltl.OneStep])
    (by simp [demoAssumption, demoGuarantee, Ltl.Prefixed, Ltl.uses])
    (by simp [demoAssumption, demoGuarantee, Ltl.Positive])
    (by simp [demoAssumption, demoGuarantee, EnvScoped, SysScoped, Ltl.conjuncts, Ltl.role, Ltl.uses]; rintro a; constructor <;> rintro rfl <;> simp) demo_usable
  rw [demo_out, Option.some_inj] at h1
  exact h1 ▸ h2

def zeroLtl : List Char := txt!"LTLSPEC -- Assumptions\nTRUE;\nLTLSPEC -- Guarantees\n([] s.y=0);\n"

def oneLtl : List Char := txt!"LTLSPEC -- Assumptions\nTRUE;\nLTLSPEC -- Guarantees\n([] s.y=1);\n"

/-- **C75** fails in general: comparisons with 0 are translated as if they were comparisons with 1.  The two LTL files ask for opposite values of `y`, and the results are the
same. -/
theorem C75_zero : ∃ ψ ψ' : Ltl, LtlFile zeroLtl txt!" TRUE;" txt!" ([] s.y=0);" ∧ LtlFile oneLtl txt!" TRUE;" txt!" ([] s.y=1);" ∧
    IsFormula txt!" ([] s.y=0);" ψ ∧ IsFormula txt!" ([] s.y=1);" ψ' ∧ (∀ σ, ¬ (ψ.Holds σ 0 ∧ ψ'.Holds σ 0)) ∧
    fromLtlmop demoSmv zeroLtl = fromLtlmop demoSmv oneLtl ∧ (fromLtlmop demoSmv zeroLtl).isSome := by
  refine ⟨.globally (.lit txt!"s.y" (some false)), .globally (.lit txt!"s.y" (some true)), ?_, ?_, isFormula_full (by decide +kernel) (by unfold PlainNames; decide),
    isFormula_full (by decide +kernel) (by unfold PlainNames; decide), ?_, by decide +kernel, by decide +kernel⟩
  · refine ⟨[txt!"TRUE;"], [txt!"([] s.y=0);"], ?_, rfl, rfl⟩
    have e : splitLines zeroLtl = [txt!"LTLSPEC -- Assumptions", txt!"TRUE;", txt!"LTLSPEC -- Guarantees", txt!"([] s.y=0);"] := by decide +kernel
    rw [e]
    exact .assumptions (by decide) (.assumption (by decide) (.guarantees (by decide) (.guarantee (by decide) .nil)))
  · refine ⟨[txt!"TRUE;"], [txt!"([] s.y=1);"], ?_, rfl, rfl⟩
    have e : splitLines oneLtl = [txt!"LTLSPEC -- Assumptions", txt!"TRUE;", txt!"LTLSPEC -- Guarantees", txt!"([] s.y=1);"] := by decide +kernel
    rw [e]
    exact .assumptions (by decide) (.assumption (by decide) (.guarantees (by decide) (.guarantee (by decide) .nil)))
  · rintro σ ⟨h1, h2⟩
    have a := h1 0 (Nat.le_refl 0)
    have b := h2 0 (Nat.le_refl 0)
    simp only [Ltl.Holds, Option.getD_some] at a b
    rw [a] at b
    cases b

/-! ### Concrete files of RATSY -/

def ratsyText : List Char := txt!"[INPUT_VARIABLES]\nx;\n[OUTPUT_VARIABLES]\ny;\n[ENV_INITIAL]\nx=0;\n[ENV_FAIRNESS]\n# comment\n([](<>x=1));\n[SYS_TRANSITIONS]\n([]((next y=1) <-> x=1));\n[SYS_FAIRNESS]\n([](<>y=1));\n"

def ratsyPart : Section → List (List Char)
  | .input => [txt!"x"]
  | .output => [txt!"y"]
  | .envInit => [txt!"x=0"]
  | .envLiveness => [txt!"([](<>x=1))"]
  | .sysTrans => [txt!"([]((next y=1) <-> x=1))"]
  | .sysLiveness => [txt!"([](<>y=1))"]
  | _ => []

def ratsyItems : List (Section × List Char) := [(.input, txt!"x;"), (.output, txt!"y;"), (.envInit, txt!"x=0;"), (.envLiveness, txt!"([](<>x=1));"),
  (.sysTrans, txt!"([]((next y=1) <-> x=1));"), (.sysLiveness, txt!"([](<>y=1));")]

theorem ratsy_demo : RatsyFile ratsyText ratsyPart := by
  refine ⟨ratsyItems, ?_, fun s => ?_⟩
  · have e : splitLines ratsyText = [txt!"[INPUT_VARIABLES]", txt!"x;", txt!"[OUTPUT_VARIABLES]", txt!"y;", txt!"[ENV_INITIAL]", txt!"x=0;", txt!"[ENV_FAIRNESS]", txt!"# comment",
      txt!"([](<>x=1));", txt!"[SYS_TRANSITIONS]", txt!"([]((next y=1) <-> x=1));", txt!"[SYS_FAIRNESS]", txt!"([](<>y=1));"] := by decide +kernel
    rw [e]
    exact .header .input (by decide) (.item (by decide) (by decide) (by decide) (.header .output (by decide) (.item (by decide) (by decide) (by decide)
      (.header .envInit (by decide) (.item (by decide) (by decide) (by decide) (.header .envLiveness (by decide) (.skip (.inr (by decide)) (.item (by decide) (by decide) (by decide)
      (.header .sysTrans (by decide) (.item (by decide) (by decide) (by decide) (.header .sysLiveness (by decide) (.item (by decide) (by decide) (by decide) .nil))))))))))))
  · cases s
    · exact ⟨[txt!"x", []], by decide, by decide, by decide, by decide⟩
    · exact ⟨[txt!"y", []], by decide, by decide, by decide, by decide⟩
    · exact ⟨[txt!"x=0", []], by decide, by decide, by decide, by decide⟩
    · exact ⟨[[]], by decide, by decide, by decide, by decide⟩
    · exact ⟨[[]], by decide, by decide, by decide, by decide⟩
    · exact ⟨[txt!"([]((next y=1) <-> x=1))", []], by decide, by decide, by decide, by decide⟩
    · exact ⟨[txt!"([](<>x=1))", []], by decide, by decide, by decide, by decide⟩
    · exact ⟨[txt!"([](<>y=1))", []], by decide, by decide, by decide, by decide⟩

def ratsyAssumptions : List Ltl := [.lit txt!"x" (some false), .globally (.eventually (.lit txt!"x" (some true)))]

def ratsyGuarantees : List Ltl := [.globally (.iff (.next (.lit txt!"y" (some true))) (.lit txt!"x" (some true))), .globally (.eventually (.lit txt!"y" (some true)))]

def ratsyOut : List Char := txt!"[INPUT]\nx\n\n\n[OUTPUT]\ny\n\n\n[ENV_TRANS]\n\n[ENV_LIVENESS]\nx\n\n[ENV_INIT]\n! x\n\n[SYS_TRANS]\n| & ! y' ! x & y' x\n\n[SYS_LIVENESS]\ny'\n\n[SYS_INIT]\n\n"

theorem ratsy_out : fromRatsy ratsyText = some ratsyOut := by decide +kernel

theorem ratsy_means : ∃ sp, Denotes ratsyOut sp ∧ Expresses sp [txt!"x"] [txt!"y"] id ratsyAssumptions ratsyGuarantees := by
  obtain ⟨out, h1, _, h2⟩ := C76_translated_partial ratsy_demo (φs := ratsyAssumptions) (ψs := ratsyGuarantees)
    (.cons (isFormula_full (by decide +kernel) (by unfold PlainNames; decide)) (.cons (isFormula_full (by decide +kernel) (by unfold PlainNames; decide)) .nil))
    (.cons (isFormula_full (by decide +kernel) (by unfold PlainNames; decide)) (.cons (isFormula_full (by decide +kernel) (by unfold PlainNames; decide)) .nil))
    (by simp [ratsyAssumptions, Ltl.Gr1, Ltl.conjuncts, Ltl.role, Ltl.OneStep, Ltl.Compared, EnvScoped, Ltl.uses, ratsyPart])
    (by simp [ratsyGuarantees, Ltl.Gr1, Ltl.conjuncts, Ltl.role, Ltl.OneStep, Ltl.Compared, SysScoped, Ltl.uses, ratsyPart]; rintro a; constructor <;> rintro rfl <;> simp) demo_usable
  rw [ratsy_out, Option.some_inj] at h1
  exact h1 ▸ h2

def nextNameText : List Char := txt!"[OUTPUT_VARIABLES]\nnext_a;\n_a;\n[SYS_TRANSITIONS]\n([]next_a=1);\n"

def nextValueText : List Char := txt!"[OUTPUT_VARIABLES]\nnext_a;\n_a;\n[SYS_TRANSITIONS]\n([](next _a=1));\n"

/-- **C76** fails in general: a variable whose name starts with `next` is taken for the next value of another variable (the same happens with names that start with `TRUE` and
`FALSE`).  The two files contain different formulas, and the results are the same. -/
theorem C76_next_names : ∃ ψ ψ' : Ltl, (∃ ts, Lexes txt!"([]next_a=1);" (ts ++ [charTok ';']) ∧ Infix 0 ts ψ) ∧ IsFormula txt!"([](next _a=1));" ψ' ∧
    (∃ σ, ψ.Holds σ 0 ∧ ¬ ψ'.Holds σ 0) ∧ fromRatsy nextNameText = fromRatsy nextValueText ∧ (fromRatsy nextNameText).isSome := by
  refine ⟨.globally (.lit txt!"next_a" (some true)), .globally (.next (.lit txt!"_a" (some true))), ⟨_, ?_, infix_lower (by omega) (full_infix _)⟩,
    isFormula_full (by decide +kernel) (by unfold PlainNames; decide), ⟨fun _ x => x == txt!"next_a", ?_, ?_⟩, by decide +kernel, by decide +kernel⟩
  · have e : symbols 100 txt!"([]next_a=1);" = full (.globally (.lit txt!"next_a" (some true))) ++ [charTok ';'] := by decide +kernel
    exact e ▸ lexes_symbols 100 txt!"([]next_a=1);" (by decide)
  · simp [Ltl.Holds]
  · intro h
    have := h 0 (Nat.le_refl 0)
    simp [Ltl.Holds] at this

/-- **C76.** Line breaks within formulas are dropped, not replaced by blanks: a formula that is translated when it is written in one line is rejected, or misread, when there is a line
break between two of its words. -/
theorem C76_line_breaks : (fromRatsy txt!"[OUTPUT_VARIABLES]\na;\n[SYS_FAIRNESS]\nG F(a=1);\n").isSome ∧
    fromRatsy txt!"[OUTPUT_VARIABLES]\na;\n[SYS_FAIRNESS]\nG\nF(a=1);\n" = none := ⟨by decide +kernel, by decide +kernel⟩

end Slugs.Props
