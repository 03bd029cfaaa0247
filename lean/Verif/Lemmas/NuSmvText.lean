import Verif.Lemmas.NuSmvRead

/-!
The text of the instance for NuSMV is the text of a module.
-/

namespace Slugs.Model.NuSmv

open Slugs.Spec Slugs.Spec.Smv Slugs.Model Slugs.Model.Structured Slugs.Model.Decoder
open Slugs.Model.Core (Categories)

/-! ### The module -/

/-- The value of a variable in a state. -/
def value (st : PState) (a : Word) : Bool := st.label.lookup a == some true

def lits (pre : List Char) (names : List Word) (st : PState) : List Test := names.map fun a => .lit (pre ++ a) (value st a)

/-- The transitions, as pairs of numbers. -/
def edges (sts : List PState) : List (Nat × Nat) := sts.zipIdx.flatMap fun e => e.1.succ.map fun k => (e.2, k)

def nth (sts : List PState) (k : Nat) : PState := sts.getD k ⟨0, 0, [], []⟩

/-- The condition for a transition. -/
def edgeTests (inputs : List Word) (sts : List PState) (e : Nat × Nat) : List Test := .at e.1 :: lits txt!"v_" inputs (nth sts e.2)

/-- The condition for an initial state. -/
def startTests (inputs outputs : List Word) (sts : List PState) (st : PState) : List Test :=
  .at sts.length :: (lits txt!"v_" inputs st ++ lits txt!"i_" outputs st)

def edgeBranches {V : Type} (inputs : List Word) (sts : List PState) (res : Nat → V) : List (Branch V) :=
  (edges sts).map fun e => .rule (edgeTests inputs sts e) (.one (res e.2))

def startBranches {V : Type} (inputs outputs : List Word) (sts : List PState) (res : PState → Choice V) : List (Branch V) :=
  sts.map fun st => .rule (startTests inputs outputs sts st) (res st)

/-- The numbers of the states with the same values. -/
def alike (sts : List PState) (st : PState) : List Nat := (sts.zipIdx.filter fun e => sameValues (valuation st) (valuation e.1)).map Prod.snd

def stateBranches (inputs outputs : List Word) (sts : List PState) : List (Branch Nat) :=
  edgeBranches inputs sts id ++ (startBranches inputs outputs sts (fun st => .among txt!"," (alike sts st)) ++
    [.comment txt!"If we are in a non-initialization state if and the environment plays some not-allowed next input, then we may move to any state next.",
      .rule [.below sts.length] (.among txt!", " (List.range sts.length)),
      .comment txt!"If during initization, the environment provides us with some illegal first state, then we must stay in this initial state. Our LTL assumption at the end of this file filter this case out.",
      .rule [.otherwise] (.one sts.length)])

def outputBranches (inputs outputs : List Word) (sts : List PState) (y : Word) : List (Branch Bool) :=
  edgeBranches inputs sts (fun k => value (nth sts k) y) ++ (startBranches inputs outputs sts (fun st => .one (value st y)) ++ [.rule [.otherwise] (.among txt!"," [false, true])])

/-- The formula for a formula. -/
def ltlOf (inputs outputs : List Word) : Fml → Ltl
  | .const b => if b then .tt else .ff
  | .var x =>
    if x ∈ inputs then .var (txt!"v_" ++ x)
    else if x ∈ inputs.map prime then .next (.var (txt!"v_" ++ x.dropLast))
    else if x ∈ outputs then .next (.var (txt!"v_" ++ x))
    else .next (.next (.var (txt!"v_" ++ x.dropLast)))
  | .not f => .not txt!" " (ltlOf inputs outputs f)
  | .bin op f g => if op = .and then .brackets (.and (ltlOf inputs outputs f) (ltlOf inputs outputs g)) else .brackets (.or (ltlOf inputs outputs f) (ltlOf inputs outputs g))
  | _ => .tt

def conj (fs : List Ltl) : Ltl := .brackets (fs.foldl .and .tt)

def allInit (sp : SpecFile) (n : Nat) : Ltl :=
  .brackets (.and (conj ((sp.sysInit ++ sp.envInit).map (ltlOf sp.inputs sp.outputs))) (.brackets (.next (.stateNot n))))

def allSafety (sp : SpecFile) : Ltl := conj (sp.envTrans.map (ltlOf sp.inputs sp.outputs))

def allLiveness (sp : SpecFile) : Ltl := conj (sp.envLiveness.map fun φ => .globally (.eventually (ltlOf sp.inputs sp.outputs φ)))

def safetySpec (sp : SpecFile) (n : Nat) (φ : Fml) : Ltl :=
  .implies (allInit sp n) (.brackets (.releases (.brackets (.not [] (allSafety sp))) (.brackets (.or (ltlOf sp.inputs sp.outputs φ) (.not txt!" " (allSafety sp))))))

def livenessSpec (sp : SpecFile) (n : Nat) (φ : Fml) : Ltl :=
  .implies (.brackets (.and (.and (allInit sp n) (.globally (allSafety sp))) (allLiveness sp))) (.globally (.eventually (ltlOf sp.inputs sp.outputs φ)))

/-- The module that is written. -/
def theModule (sp : SpecFile) (sts : List PState) : Module where
  ivars := sp.inputs.map (txt!"v_" ++ ·) ++ sp.outputs.map (txt!"i_" ++ ·)
  vars := sp.outputs.map (txt!"v_" ++ ·)
  top := sts.length
  init := sts.length
  nextState := stateBranches sp.inputs sp.outputs sts
  nextVars := sp.outputs.map fun y => (txt!"v_" ++ y, outputBranches sp.inputs sp.outputs sts y)
  specs := sp.sysTrans.map (safetySpec sp sts.length) ++ sp.sysLiveness.map (livenessSpec sp sts.length)

/-! ### Lists -/

theorem mapM_eq {A C : Type} {f : A → Option C} {g : A → C} : ∀ {l : List A}, (∀ a ∈ l, f a = some (g a)) → l.mapM f = some (l.map g)
  | [], _ => rfl
  | a :: l, h => by
    rw [List.mapM_cons, h a (by simp), mapM_eq fun b hb => h b (by simp [hb])]
    rfl

theorem sepBy_cons (sep a : List Char) : ∀ l : List (List Char), sepBy sep (a :: l) = a ++ l.flatMap (sep ++ ·)
  | [] => by simp [sepBy]
  | b :: l => by rw [sepBy, sepBy_cons sep b l]; simp

/-! ### Transitions -/

theorem lookup_valuation (st : PState) (a : Word) : (valuation st).lookup a = (st.label.lookup a).map bitInt := by
  rw [valuation]
  generalize st.label = l
  induction l with
  | nil => rfl
  | cons e l ih =>
    rw [List.map_cons, List.lookup_cons, List.lookup_cons, ih]
    split <;> simp_all

theorem lookup_value {st : PState} {a : Word} (h : a ∈ st.label.map Prod.fst) : st.label.lookup a = some (value st a) := by
  rw [value]
  cases hl : st.label.lookup a with
  | none =>
    rw [List.lookup_eq_none_iff] at hl
    obtain ⟨e, he, rfl⟩ := List.mem_map.mp h
    exact absurd (hl e he) (by simp)
  | some b => cases b <;> rfl

theorem lookup_bit {st : PState} {a : Word} (h : a ∈ st.label.map Prod.fst) : (valuation st).lookup a = some (bitInt (value st a)) := by
  rw [lookup_valuation, lookup_value h]; rfl

theorem literals_eq {pre : List Char} {st : PState} : ∀ {names : List Word}, (∀ a ∈ names, a ∈ st.label.map Prod.fst) →
    literals pre (valuation st) names = some (((lits pre names st).map Test.text).flatMap (txt!" & " ++ ·))
  | [], _ => rfl
  | a :: names, h => by
    rw [literals, lookup_bit (h a (by simp)), literals_eq fun b hb => h b (by simp [hb])]
    cases hv : value st a <;> simp [lits, hv, Test.text, bitInt]

theorem item_nat {sts : List PState} {k : Nat} (h : k < sts.length) : item (sts.map astate) (k : Int) = some (astate (nth sts k)) := by
  rw [item, if_pos (by omega)]
  simp [nth, h]

theorem nth_mem {sts : List PState} {k : Nat} (h : k < sts.length) : nth sts k ∈ sts := by
  simp [nth, h]

theorem transitions_eq {V : Type} {inputs : List Word} {sts : List PState} {res : Valuation → Int → Option (List Char)} {val : Nat → V} {show' : V → List Char}
    (hk : ∀ st ∈ sts, ∀ k ∈ st.succ, k < sts.length) (hin : ∀ st ∈ sts, ∀ a ∈ inputs, a ∈ st.label.map Prod.fst)
    (hres : ∀ k < sts.length, res (valuation (nth sts k)) k = some (show' (val k))) :
    transitionsText inputs (sts.map astate) res = some ((edgeBranches inputs sts val).flatMap (Branch.text show')) := by
  have one : ∀ i k, k < sts.length → transitionText inputs (sts.map astate) res i (k : Int) =
      some (Branch.text show' (.rule (edgeTests inputs sts (i, k)) (.one (val k)))) := by
    intro i k h
    rw [transitionText, item_nat h]
    simp only [Option.bind_eq_bind, Option.bind_some, astate]
    rw [literals_eq (hin _ (nth_mem h)), hres k h]
    simp only [Option.bind_some, Branch.text, edgeTests, List.map_cons, sepBy_cons, Test.text, Choice.text, strNat_eq]
    simp
  rw [transitionsText, List.zipIdx_map, List.mapM_map, mapM_eq (g := fun e : PState × Nat => (e.1.succ.map fun k => Branch.text show' (.rule (edgeTests inputs sts (e.2, k)) (.one (val k)))).flatten)]
  · simp only [Option.map_some, edgeBranches, edges, Option.some.injEq]
    rw [List.flatMap_def, List.map_flatMap, List.map_flatMap, List.flatMap_def, List.flatten_flatten]
    simp [Function.comp_def]
  · rintro ⟨st, i⟩ he
    have hst : st ∈ sts := (List.mem_zipIdx' he).2 ▸ List.getElem_mem _
    simp only [Function.comp_apply, Prod.map, id_eq, astate, List.mapM_map]
    rw [mapM_eq (f := transitionText inputs (sts.map astate) res i ∘ fun n : Nat => (n : Int)) (g := fun k => Branch.text show' (.rule (edgeTests inputs sts (i, k)) (.one (val k)))) fun k hk' => one i k (hk st hst k hk')]
    rfl

theorem starts_eq {V : Type} {inputs outputs : List Word} {sts : List PState} {res : Valuation → Option (List Char)} {ch : PState → Choice V} {show' : V → List Char}
    (hin : ∀ st ∈ sts, ∀ a ∈ inputs ++ outputs, a ∈ st.label.map Prod.fst) (hres : ∀ st ∈ sts, res (valuation st) = some ((ch st).text show')) :
    (sts.map astate).mapM (initialText inputs outputs (sts.map astate) res) = some (sts.map fun st => Branch.text show' (.rule (startTests inputs outputs sts st) (ch st))) := by
  rw [List.mapM_map]
  refine mapM_eq fun st hst => ?_
  simp only [Function.comp_apply, initialText, astate]
  rw [literals_eq fun a ha => hin st hst a (by simp [ha]), literals_eq fun a ha => hin st hst a (by simp [ha]), hres st hst]
  simp only [Option.bind_eq_bind, Option.bind_some, Branch.text, startTests, List.map_cons, sepBy_cons, Test.text, strNat_eq, List.length_map, List.map_append, List.flatMap_append]
  simp

theorem possible_eq (sts : List PState) (st : PState) : possibleStates (sts.map astate) (valuation st) = (Choice.among txt!"," (alike sts st)).text decimal := by
  rw [possibleStates, List.zipIdx_map, List.filter_map, List.map_map, Choice.text, alike, List.map_map]
  rfl

theorem truth_eq {st : PState} {y : Word} (h : y ∈ st.label.map Prod.fst) : truthText y (valuation st) = some (showBool (value st y)) := by
  rw [truthText, lookup_bit h]
  cases value st y <;> rfl

/-- What is known about the automaton. -/
structure Fits (sp : SpecFile) (sts : List PState) : Prop where
  labels : ∀ st ∈ sts, st.Complete sp
  targets : ∀ st ∈ sts, ∀ n ∈ st.succ, n < sts.length

theorem Fits.has {sp : SpecFile} {sts : List PState} (h : Fits sp sts) : ∀ st ∈ sts, ∀ a ∈ sp.inputs ++ sp.outputs, a ∈ st.label.map Prod.fst :=
  fun st hst _ ha => (h.labels st hst).mem_iff.mpr ha

set_option maxRecDepth 10000 in
theorem nextState_eq {sp : SpecFile} {sts : List PState} (h : Fits sp sts) :
    nextStateText sp.inputs sp.outputs (sts.map astate) = some (caseText decimal txt!"state" (theModule sp sts).nextState) := by
  rw [nextStateText, transitions_eq (val := id) (show' := decimal) h.targets (fun st hst a ha => h.has st hst a (by simp [ha])) (fun k _ => rfl),
    starts_eq (ch := fun st => .among txt!"," (alike sts st)) (show' := decimal) h.has (fun st _ => by rw [possible_eq])]
  simp only [Option.bind_eq_bind, Option.bind_some, caseText, theModule, stateBranches, startBranches, List.flatMap_append, List.flatMap_map, List.flatMap_cons, List.flatMap_nil,
    Branch.text, Test.text, Choice.text, List.map_cons, List.map_nil, sepBy, List.length_map]
  simp only [← List.flatMap_def, List.append_assoc]
  rfl

theorem nextOutput_eq {sp : SpecFile} {sts : List PState} (h : Fits sp sts) {y : Word} (hy : y ∈ sp.outputs) :
    nextOutputText sp.inputs sp.outputs (sts.map astate) y = some (caseText showBool (txt!"v_" ++ y) (outputBranches sp.inputs sp.outputs sts y)) := by
  rw [nextOutputText, transitions_eq (val := fun k => value (nth sts k) y) (show' := showBool) h.targets (fun st hst a ha => h.has st hst a (by simp [ha]))
      (fun k hk => truth_eq (h.has _ (nth_mem hk) y (by simp [hy]))),
    starts_eq (ch := fun st => .one (value st y)) (show' := showBool) h.has (fun st hst => truth_eq (h.has st hst y (by simp [hy])))]
  simp only [Option.bind_eq_bind, Option.bind_some, caseText, outputBranches, startBranches, List.flatMap_append, List.flatMap_map, List.flatMap_cons, List.flatMap_nil,
    Branch.text, Test.text, Choice.text, List.map_cons, List.map_nil, sepBy]
  simp only [← List.flatMap_def, List.append_assoc]
  rfl

/-! ### Formulas -/

theorem atom_eq {now next op : List Char} {allowed : Bool} : ∀ {l : List Word}, (∀ x ∈ l, x ∉ l.map prime) →
    atom now next allowed op l = if op ∈ l then some (some (now ++ txt!"v_" ++ op))
      else if op ∈ l.map prime then some (if allowed then some (next ++ txt!"v_" ++ op.dropLast) else none) else none
  | [], _ => by simp [atom]
  | a :: l, h => by
    have ih := atom_eq (now := now) (next := next) (op := op) (allowed := allowed) (l := l) fun x hx hm => h x (by simp [hx]) (by simp [hm])
    rw [atom]
    by_cases h1 : a = op
    · rw [if_pos h1, if_pos (by simp [h1])]; simp [h1]
    · rw [if_neg h1]
      by_cases h2 : a ++ txt!"'" = op
      · have h3 : op ∉ a :: l := fun hm => h op hm (by simp [prime, ← h2])
        rw [if_pos h2, if_neg h3, if_pos (show op ∈ (a :: l).map prime by simp [prime, ← h2]), ← h2, List.dropLast_concat]
      · rw [if_neg h2, ih]
        have h3 : (op ∈ a :: l) ↔ op ∈ l := by
          rw [List.mem_cons, or_iff_right]
          exact fun e => h1 e.symm
        have h4 : (op ∈ (a :: l).map prime) ↔ op ∈ l.map prime := by
          rw [List.map_cons, List.mem_cons, or_iff_right]
          exact fun e => h2 e.symm
        simp only [h3, h4]

/-- The words of a formula that can be translated. -/
structure Sayable (trans : Bool) (inputs outputs : List Word) (φ : Fml) : Prop where
  basic : φ.Basic
  words : ∀ x ∈ φ.vars, x ∉ reserved
  scope : ∀ x ∈ φ.vars, x ∈ inputs ++ outputs ∨ (trans = true ∧ x ∈ inputs.map prime ++ outputs.map prime)

theorem words_ne_nil : ∀ φ : Fml, φ.words ≠ []
  | .const b => by cases b <;> simp [Fml.words]
  | .var _ | .not _ | .bin .. | .buffer _ | .recall _ => by simp [Fml.words]

theorem toLtl_words {trans : Bool} {inputs outputs : List Word} (hu : (inputs ++ outputs ++ inputs.map prime ++ outputs.map prime).Nodup) :
    ∀ (φ : Fml) (fuel : Nat) (rest : List Word), Sayable trans inputs outputs φ → φ.words.length < fuel →
      toLtl trans inputs outputs fuel (φ.words ++ rest) = some ((ltlOf inputs outputs φ).text, rest)
  | _, 0, _, _, hl => absurd hl (by omega)
  | .const b, fuel + 1, rest, _, _ => by
    cases b
    · simp [Fml.words, toLtl, ltlOf, Ltl.text]
    · simp [Fml.words, toLtl, ltlOf, Ltl.text]
  | .not f, fuel + 1, rest, h, hl => by
    have ih := toLtl_words hu f fuel rest ⟨h.basic, h.words, h.scope⟩ (by simp [Fml.words] at hl; omega)
    rw [Fml.words, List.cons_append, toLtl, if_neg (by decide), if_pos rfl, ih]
    rfl
  | .bin op f g, fuel + 1, rest, h, hl => by
    obtain ⟨b1, b2, b3⟩ := h.basic
    have hl' : f.words.length + g.words.length + 1 < fuel + 1 := by simpa [Fml.words] using hl
    have ih1 := toLtl_words hu f fuel (g.words ++ rest) ⟨b2, fun x hx => h.words x (by simp [Fml.vars, hx]), fun x hx => h.scope x (by simp [Fml.vars, hx])⟩ (by omega)
    have ih2 := toLtl_words hu g fuel rest ⟨b3, fun x hx => h.words x (by simp [Fml.vars, hx]), fun x hx => h.scope x (by simp [Fml.vars, hx])⟩ (by omega)
    have e : (Fml.bin op f g).words ++ rest = op.word :: (f.words ++ (g.words ++ rest)) := by simp [Fml.words]
    rw [e, toLtl, if_pos (by cases op <;> first | exact absurd rfl b1 | decide), ih1]
    simp only [Option.bind_eq_bind, Option.bind_some, ih2]
    cases op <;> first | exact absurd rfl b1 | simp [ltlOf, Ltl.text, BinOp.word]
  | .var x, fuel + 1, rest, h, _ => by
    have hr : x ∉ reserved := h.words x (by simp [Fml.vars])
    have hs := h.scope x (by simp [Fml.vars])
    have n1 : ¬ (x = txt!"|" ∨ x = txt!"&") := by rintro (rfl | rfl) <;> exact hr (by decide)
    have n2 : x ≠ txt!"!" := by rintro rfl; exact hr (by decide)
    have n3 : x ≠ txt!"1" := by rintro rfl; exact hr (by decide)
    have n4 : x ≠ txt!"0" := by rintro rfl; exact hr (by decide)
    obtain ⟨hu1, _, d1⟩ := List.nodup_append.mp hu
    obtain ⟨hu2, _, d2⟩ := List.nodup_append.mp hu1
    obtain ⟨_, _, d3⟩ := List.nodup_append.mp hu2
    have e1 := atom_eq (now := []) (next := txt!"X ") (op := x) (allowed := trans) (l := inputs) fun y hy hm => d2 y (by simp [hy]) y hm rfl
    have e2 := atom_eq (now := txt!"X ") (next := txt!"X X ") (op := x) (allowed := trans) (l := outputs) fun y hy hm => d1 y (by simp [hy]) y hm rfl
    rw [Fml.words, List.cons_append, List.nil_append, toLtl, if_neg n1, if_neg n2, if_neg n3, if_neg n4, e1]
    by_cases h1 : x ∈ inputs
    · simp [if_pos h1, ltlOf, Ltl.text, h1]
    · simp only [if_neg h1]
      by_cases h2 : x ∈ inputs.map prime
      · have ht : trans = true := by
          rcases hs with hs | hs
          · rcases List.mem_append.mp hs with hs | hs
            · exact absurd hs h1
            · exact absurd rfl (d2 x (by simp [hs]) x h2)
          · exact hs.1
        simp only [if_pos h2, ht, if_true, Option.map_some, ltlOf, if_neg h1, Ltl.text]
        simp
      · simp only [if_neg h2, e2]
        by_cases h3 : x ∈ outputs
        · simp only [if_pos h3, Option.map_some, ltlOf, if_neg h1, if_neg h2, Ltl.text]
          simp
        · have h4 : trans = true ∧ x ∈ outputs.map prime := by
            rcases hs with hs | ⟨ht, hs⟩
            · rcases List.mem_append.mp hs with hs | hs
              · exact absurd hs h1
              · exact absurd hs h3
            · rcases List.mem_append.mp hs with hs | hs
              · exact absurd hs h2
              · exact ⟨ht, hs⟩
          simp only [if_neg h3, if_pos h4.2, h4.1, if_true, Option.map_some, ltlOf, if_neg h1, if_neg h2, Ltl.text]
          simp
  | .buffer _, _ + 1, _, h, _ => absurd h.basic (by simp [Fml.Basic])
  | .recall _, _ + 1, _, h, _ => absurd h.basic (by simp [Fml.Basic])

theorem split_words : ∀ ws : List Word, ws ≠ [] → (∀ w ∈ ws, ' ' ∉ w) → split [' '] (joinWords ws) = ws
  | [], h, _ => absurd rfl h
  | [w], _, h => by rw [joinWords, split_none (h w (by simp))]
  | w :: v :: ws, _, h => by
    have e : joinWords (w :: v :: ws) = w ++ ' ' :: joinWords (v :: ws) := rfl
    rw [e, split_cons (h w (by simp)), split_words (v :: ws) (by simp) fun x hx => h x (by simp [List.mem_cons.mp hx])]

theorem words_no_blank : ∀ φ : Fml, φ.Basic → (∀ x ∈ φ.vars, ' ' ∉ x) → ∀ w ∈ φ.words, ' ' ∉ w
  | .const b, _, _ => by cases b <;> simp [Fml.words]
  | .var x, _, h => by simpa [Fml.words, Fml.vars] using h
  | .not f, hb, h => by
    have := words_no_blank f hb h
    intro w hw
    rcases List.mem_cons.mp hw with rfl | hw
    · decide
    · exact this w hw
  | .bin op f g, hb, h => by
    have h1 := words_no_blank f hb.2.1 fun x hx => h x (by simp [Fml.vars, hx])
    have h2 := words_no_blank g hb.2.2 fun x hx => h x (by simp [Fml.vars, hx])
    intro w hw
    rcases List.mem_cons.mp hw with rfl | hw
    · cases op <;> decide
    · rcases List.mem_append.mp hw with hw | hw
      · exact h1 w hw
      · exact h2 w hw
  | .buffer _, hb, _ => absurd hb (by simp [Fml.Basic])
  | .recall _, hb, _ => absurd hb (by simp [Fml.Basic])

theorem lineLtl_eq {trans : Bool} {inputs outputs : List Word} (hu : (inputs ++ outputs ++ inputs.map prime ++ outputs.map prime).Nodup) {φ : Fml}
    (h : Sayable trans inputs outputs φ) (hb : ∀ x ∈ φ.vars, ' ' ∉ x) : lineLtl trans inputs outputs φ.text = some (ltlOf inputs outputs φ).text := by
  have e : split [' '] φ.text = φ.words := split_words _ (words_ne_nil φ) (words_no_blank φ h.basic hb)
  have := toLtl_words hu φ (φ.words.length + 1) [] h (by omega)
  rw [List.append_nil] at this
  rw [lineLtl, e, this]
  rfl

theorem foldl_text (fs : List Ltl) : ∀ f : Ltl, (fs.foldl Ltl.and f).text = f.text ++ (fs.map Ltl.text).flatMap (txt!" & " ++ ·) := by
  induction fs with
  | nil => intro f; simp
  | cons g fs ih => intro f; rw [List.foldl_cons, ih]; simp [Ltl.text]

theorem conj_text (fs : List Ltl) : (conj fs).text = conjunctionText (fs.map Ltl.text) := by
  rw [conj, Ltl.text, foldl_text, conjunctionText, sepBy_cons]; rfl

/-- What is known about the constraints. -/
structure Lines (sp : SpecFile) : Prop where
  unambiguous : sp.Unambiguous
  wellScoped : sp.WellScoped
  basic : ∀ φ ∈ sp.constraints, φ.Basic
  words : ∀ φ ∈ sp.constraints, ∀ x ∈ φ.vars, x ∉ reserved ∧ ' ' ∉ x

theorem Lines.mapM {sp : SpecFile} (h : Lines sp) {fs : List Fml} (trans : Bool) (hs : ∀ φ ∈ fs, φ ∈ sp.constraints)
    (hv : ∀ φ ∈ fs, ∀ x ∈ φ.vars, x ∈ sp.inputs ++ sp.outputs ∨ (trans = true ∧ x ∈ sp.inputs.map prime ++ sp.outputs.map prime)) :
    (fs.map Fml.text).mapM (lineLtl trans sp.inputs sp.outputs) = some (fs.map fun φ => (ltlOf sp.inputs sp.outputs φ).text) := by
  rw [List.mapM_map]
  exact mapM_eq fun φ hφ => lineLtl_eq h.unambiguous ⟨h.basic φ (hs φ hφ), fun x hx => (h.words φ (hs φ hφ) x hx).1, hv φ hφ⟩ fun x hx => (h.words φ (hs φ hφ) x hx).2

/-- The sections of the file. -/
structure Written (c : Categories) (sp : SpecFile) : Prop where
  inputs : c .input = sp.inputs
  outputs : c .output = sp.outputs
  envInit : c .envInit = sp.envInit.map Fml.text
  sysInit : c .sysInit = sp.sysInit.map Fml.text
  envTrans : c .envTrans = sp.envTrans.map Fml.text
  sysTrans : c .sysTrans = sp.sysTrans.map Fml.text
  envLiveness : c .envLiveness = sp.envLiveness.map Fml.text
  sysLiveness : c .sysLiveness = sp.sysLiveness.map Fml.text

theorem names_or {sp : SpecFile} {x : Word} (h : x ∈ sp.names) : x ∈ sp.inputs ++ sp.outputs ∨ (true = true ∧ x ∈ sp.inputs.map prime ++ sp.outputs.map prime) := by
  simp only [SpecFile.names, List.mem_append] at h ⊢
  tauto

theorem safetySpec_text (sp : SpecFile) (n : Nat) (φ : Fml) : (safetySpec sp n φ).text = (allInit sp n).text ++ (txt!" -> ((!" ++ ((allSafety sp).text ++ (txt!") V (" ++
    ((ltlOf sp.inputs sp.outputs φ).text ++ (txt!" | ! " ++ ((allSafety sp).text ++ txt!"))")))))) := by simp [safetySpec, Ltl.text]

theorem livenessSpec_text (sp : SpecFile) (n : Nat) (φ : Fml) : (livenessSpec sp n φ).text = txt!"(" ++ ((allInit sp n).text ++ (txt!" & G " ++ ((allSafety sp).text ++ (txt!" & " ++
    ((allLiveness sp).text ++ (txt!") -> G F " ++ (ltlOf sp.inputs sp.outputs φ).text)))))) := by simp [livenessSpec, Ltl.text]

theorem specs_eq {c : Categories} {sp : SpecFile} {sts : List PState} (hc : Written c sp) (h : Lines sp) :
    specsText c (sts.map astate) = some ((theModule sp sts).specs.flatMap fun f => txt!"LTLSPEC " ++ f.text ++ txt!";\n") := by
  have hm : ∀ {fs : List Fml}, (∀ φ ∈ fs, φ ∈ sp.envInit ++ sp.sysInit ++ sp.envTrans ++ sp.sysTrans ++ sp.envLiveness ++ sp.sysLiveness) → ∀ φ ∈ fs, φ ∈ sp.constraints := fun h => h
  have m1 := h.mapM (fs := sp.sysInit) false (hm fun φ hφ => by simp [hφ]) fun φ hφ x hx => .inl (h.wellScoped.sysInit φ hφ x hx)
  have m2 := h.mapM (fs := sp.envInit) false (hm fun φ hφ => by simp [hφ]) fun φ hφ x hx => .inl (by simp [h.wellScoped.envInit φ hφ x hx])
  have m3 := h.mapM (fs := sp.envTrans) true (hm fun φ hφ => by simp [hφ]) fun φ hφ x hx => names_or (by
    have := h.wellScoped.envTrans φ hφ x hx
    simp only [SpecFile.names, List.mem_append] at this ⊢
    tauto)
  have m4 := h.mapM (fs := sp.sysTrans) true (hm fun φ hφ => by simp [hφ]) fun φ hφ x hx => names_or (h.wellScoped.sysTrans φ hφ x hx)
  have m5 := h.mapM (fs := sp.envLiveness) true (hm fun φ hφ => by simp [hφ]) fun φ hφ x hx => names_or (h.wellScoped.envLiveness φ hφ x hx)
  have m6 := h.mapM (fs := sp.sysLiveness) true (hm fun φ hφ => by simp [hφ]) fun φ hφ x hx => names_or (h.wellScoped.sysLiveness φ hφ x hx)
  have t1 : (allInit sp sts.length).text = txt!"(" ++ conjunctionText ((sp.sysInit.map fun φ => (ltlOf sp.inputs sp.outputs φ).text) ++ (sp.envInit.map fun φ => (ltlOf sp.inputs sp.outputs φ).text)) ++
      txt!" & (X state!=" ++ strNat sts.length ++ txt!"))" := by
    simp only [allInit, Ltl.text, conj_text, strNat_eq, List.map_map, List.map_append]
    simp [Function.comp_def]
  have t2 : (allSafety sp).text = conjunctionText (sp.envTrans.map fun φ => (ltlOf sp.inputs sp.outputs φ).text) := by
    simp only [allSafety, conj_text, List.map_map]; rfl
  have t3 : (allLiveness sp).text = conjunctionText ((sp.envLiveness.map fun φ => (ltlOf sp.inputs sp.outputs φ).text).map (txt!"G F " ++ ·)) := by
    simp only [allLiveness, conj_text, List.map_map]; rfl
  rw [specsText, hc.inputs, hc.outputs, hc.sysInit, hc.envInit, hc.envTrans, hc.sysTrans, hc.envLiveness, hc.sysLiveness]
  simp only [m1, m2, m3, m4, m5, m6, Option.bind_eq_bind, Option.bind_some, List.length_map, ← t1, ← t2, ← t3, theModule, List.flatMap_append, List.flatMap_map]
  simp only [← List.flatMap_def, Option.some.injEq, safetySpec_text, livenessSpec_text]
  generalize (allInit sp sts.length).text = A
  generalize (allSafety sp).text = S
  generalize (allLiveness sp).text = L
  simp [List.flatMap_map, Function.comp_def]

theorem instance_eq {c : Categories} {sp : SpecFile} {sts : List PState} (hc : Written c sp) (h : Lines sp) (hf : Fits sp sts) :
    instanceText c (sts.map astate) = some (theModule sp sts).text := by
  have ho : sp.outputs.mapM (nextOutputText sp.inputs sp.outputs (sts.map astate)) =
      some (sp.outputs.map fun y => caseText showBool (txt!"v_" ++ y) (outputBranches sp.inputs sp.outputs sts y)) := mapM_eq fun y hy => nextOutput_eq hf hy
  rw [instanceText, specs_eq hc h, hc.inputs, hc.outputs, nextState_eq hf, ho]
  simp only [Option.bind_eq_bind, Option.bind_some, Module.text, declarations, hc.inputs, hc.outputs, List.length_map, strNat_eq]
  simp only [theModule, List.flatMap_append, List.flatMap_map, ← List.flatMap_def, List.append_assoc]
  rfl

end Slugs.Model.NuSmv
