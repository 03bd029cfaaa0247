import Verif.Lemmas.Printing
import Verif.Lemmas.StructuredLines
import Verif.Props.Explicit
import Verif.Props.Counterstrategy

/-!
C61: the texts that are printed for explicit strategies and counterstrategies.
-/

namespace Slugs.Props

open Slugs.Spec Slugs.Model

variable {B : Type} [DecidableEq B] [L : BddLib B] {alg : Algorithm}

/-! ### The names in the labels -/

theorem extractLoop_names (M : Mgr B) (c : Ctx B) (vs : Vars B) (perm recovery : Bool) (strategy : Nat → B) (fuel n : Nat) :
    ∀ (w : Work B) (out sts : List PState), (∀ st ∈ out, st.label.map Prod.fst = vs.labels.map Prod.fst) →
      extractLoop M c vs perm recovery strategy fuel n w out = some sts → ∀ st ∈ sts, st.label.map Prod.fst = vs.labels.map Prod.fst := by
  induction n with
  | zero => intro w out sts _ h; cases h
  | succ n ih =>
    intro w out sts ho h
    rw [extractLoop] at h
    split at h
    · cases h; exact ho
    · dsimp only at h
      split at h
      · cases h
      · split at h
        · cases h
        · refine ih _ _ _ ?_ h
          intro st hst
          rcases List.mem_append.1 hst with hst | hst
          · exact ho st hst
          · rw [List.mem_singleton] at hst
            subst hst
            simp [labelOf, Function.comp_def]

theorem tableVars_names (tab : VarTable) : (tableVars B tab).labels.map Prod.fst = preNames tab := by
  simp [tableVars, preNames, Function.comp_def]

theorem runExplicit_names {robotics perm recovery : Bool} {cap : Nat} {order : List Char → Bool} {fuel : Nat} {text : List Char} {sts : List PState}
    {tab : VarTable} {c : Ctx B} (hi : initContext cap order text = .ok (tab, c))
    (h : runExplicit B alg robotics perm recovery cap order fuel text = .strategy sts) : ∀ st ∈ sts, st.label.map Prod.fst = preNames tab := by
  simp only [runExplicit, hi] at h
  generalize (if robotics = true then checkRealizabilityRobotics alg (bddMgr B tab.types) c fuel else checkRealizability alg (bddMgr B tab.types) c fuel) = r at h
  split at h
  · split at h
    · rename_i he
      cases h
      rw [extractStrategy] at he
      split at he
      · cases he
      · have := extractLoop_names _ _ _ _ _ _ _ _ _ _ _ (by simp) he
        rw [tableVars_names] at this
        exact this
    · cases h
  · cases h

theorem preNames_perm {cap : Nat} {order : List Char → Bool} {text : List Char} {tab : VarTable} {c : Ctx B}
    (hi : initContext cap order text = .ok (tab, c)) {sp : SpecFile} (hd : Denotes text sp) : (preNames tab).Perm (sp.inputs ++ sp.outputs) := by
  obtain ⟨ds, F, hn, rfl, hd', _, _, _, _⟩ := initContext_spec hi
  have := Denotes.det hd hd'
  subst this
  have := label_names F hn (fun _ => false, fun _ => false)
  simpa [labelAt, semVars, preNames, Function.comp_def] using this

/-! ### Runs -/

theorem runPrinted_some {robotics recovery : Bool} {fmt : Format} {cap : Nat} {order : List Char → Bool} {fuel : Nat} {text out : List Char}
    (h : runPrinted B alg robotics recovery fmt cap order fuel text = some out) : ∃ tab c sts, initContext (B := B) cap order text = .ok (tab, c) ∧
      runExplicit B alg robotics (decide (fmt = .permissive)) recovery cap order fuel text = .strategy sts ∧ out = listing (preNames tab) sts fmt := by
  unfold runPrinted at h
  split at h
  · rename_i tab c sts h1 h2
    cases h
    exact ⟨tab, c, sts, h1, h2, rfl⟩
  · cases h

/-- **C61**, when: a text is printed if and only if there is a strategy. -/
theorem C61_printed {robotics recovery : Bool} {fmt : Format} {cap : Nat} {order : List Char → Bool} {fuel : Nat} {text : List Char} :
    (∃ out, runPrinted B alg robotics recovery fmt cap order fuel text = some out) ↔
      ∃ sts, runExplicit B alg robotics (decide (fmt = .permissive)) recovery cap order fuel text = .strategy sts := by
  constructor
  · rintro ⟨out, h⟩
    obtain ⟨_, _, sts, _, h2, _⟩ := runPrinted_some h
    exact ⟨sts, h2⟩
  · rintro ⟨sts, h⟩
    cases hi : initContext (B := B) cap order text with
    | err e => rw [runExplicit, hi] at h; cases h
    | ub => rw [runExplicit, hi] at h; cases h
    | stuck => rw [runExplicit, hi] at h; cases h
    | ok r =>
      obtain ⟨tab, c⟩ := r
      refine ⟨listing (preNames tab) sts fmt, ?_⟩
      unfold runPrinted
      rw [hi, h]

/-- **C61**, JSON.  If the declared names contain no quotation marks, backslashes and control characters, then what is printed with `--jsonOutput` is a JSON
text, and its value is an object with the names of all variables, in some order, and for each state of the strategy its goal, the values of the variables in
this order and the numbers of its successors.  The keys of the states are pairwise different, and nothing else is a value of this text. -/
theorem C61_json_partial {robotics recovery : Bool} {cap : Nat} {order : List Char → Bool} {fuel : Nat} {text out : List Char}
    (h : runPrinted B alg robotics recovery .json cap order fuel text = some out) {sp : SpecFile} (hd : Denotes text sp)
    (hp : ∀ x ∈ sp.inputs ++ sp.outputs, ∀ c ∈ x, 0x20 ≤ c.toNat ∧ c ≠ '"' ∧ c ≠ '\\') :
    ∃ names sts, names.Perm (sp.inputs ++ sp.outputs) ∧ runExplicit B alg robotics false recovery cap order fuel text = .strategy sts ∧
      (∀ st ∈ sts, st.label.map Prod.fst = names) ∧ (sts.map fun st => decimal st.num).Nodup ∧
      JsonText (strategyJson names sts) out ∧ ∀ v, JsonText v out → v = strategyJson names sts := by
  obtain ⟨tab, c, sts, h1, h2, rfl⟩ := runPrinted_some h
  have hperm := preNames_perm h1 hd
  have ht : JsonText (strategyJson (preNames tab) sts) (listing (preNames tab) sts .json) :=
    jsonListing_text (fun x hx => hp x (hperm.mem_iff.1 hx)) sts
  refine ⟨preNames tab, sts, hperm, h2, runExplicit_names h1 h2, ?_, ht, fun v hv => jsonText_unique hv ht⟩
  have hw := (C12_well_formed h2 hd).2.numbers
  have : (sts.map fun st => decimal st.num) = (sts.map PState.num).map decimal := by rw [List.map_map]; rfl
  rw [this, hw]
  exact List.Nodup.map (fun a b => decimal_inj) List.nodup_range

/-- **C61**, JSON: two strategies with the same JSON value are the same, and so are the names. -/
theorem C61_json_determines {names names' : List Word} {sts sts' : List PState} (h1 : ∀ st ∈ sts, st.label.map Prod.fst = names)
    (h2 : ∀ st ∈ sts', st.label.map Prod.fst = names') (h : strategyJson names sts = strategyJson names' sts') : names = names' ∧ sts = sts' :=
  strategyJson_inj h1 h2 h

/-- **C61**, the other formats.  Two runs on the same file that print the same text, possibly with other options, have found the same strategy. -/
theorem C61_text_determines {alg' : Algorithm} {robotics recovery robotics' recovery' : Bool} {fmt : Format} (hf : fmt ≠ .json) {cap : Nat} {order : List Char → Bool}
    {fuel fuel' : Nat} {text out : List Char}
    (h : runPrinted B alg robotics recovery fmt cap order fuel text = some out)
    (h' : runPrinted B alg' robotics' recovery' fmt cap order fuel' text = some out) :
    ∃ sts, runExplicit B alg robotics (decide (fmt = .permissive)) recovery cap order fuel text = .strategy sts ∧
      runExplicit B alg' robotics' (decide (fmt = .permissive)) recovery' cap order fuel' text = .strategy sts := by
  obtain ⟨tab, c, sts, h1, h2, rfl⟩ := runPrinted_some h
  obtain ⟨tab', c', sts', h1', h2', e⟩ := runPrinted_some h'
  have n1 := runExplicit_names h1 h2
  have n2 := runExplicit_names h1' h2'
  have hn : preNames tab = preNames tab' := by
    rw [h1] at h1'
    injection h1' with h1'
    rw [(Prod.mk.inj h1').1]
  refine ⟨sts, h2, ?_⟩
  rw [h2']
  congr 1
  rw [← hn] at n2
  cases fmt with
  | json => exact absurd rfl hf
  | plain =>
    exact (flatten_inj (f := stateText) (P := fun st => st.label.map Prod.fst = preNames tab) (by intro a; simp [stateText])
      (fun a b X Y ha hb => stateText_append (ha.trans hb.symm)) n1 n2 e).symm
  | permissive =>
    exact (flatten_inj (f := permText) (P := fun st => st.label.map Prod.fst = preNames tab) (by intro a; simp [permText])
      (fun a b X Y ha hb => permText_append (ha.trans hb.symm)) n1 n2 e).symm

/-! ### Counterstrategies -/

def preInputNames (tab : VarTable) : List Name := (varsOfType tab.types .preInput).map fun k => tab.names.getD k []

theorem extractLoopC_names (M : Mgr B) (c : Ctx B) (vs : CVars B) (strategy : Nat → Nat → B) (fuel n : Nat) :
    ∀ (w : Work B (Nat × Nat)) (out sts : List CState), (∀ st ∈ out, CNamed (vs.labels.map Prod.fst) (vs.inputLabels.map Prod.fst) st) →
      extractLoopC M c vs strategy fuel n w out = some sts → ∀ st ∈ sts, CNamed (vs.labels.map Prod.fst) (vs.inputLabels.map Prod.fst) st := by
  induction n with
  | zero => intro w out sts _ h; cases h
  | succ n ih =>
    intro w out sts ho h
    rw [extractLoopC] at h
    split at h
    · cases h; exact ho
    · dsimp only at h
      split at h
      · cases h
      · split at h
        · refine ih _ _ _ ?_ h
          intro st hst
          rcases List.mem_append.1 hst with hst | hst
          · rcases List.mem_append.1 hst with hst | hst
            · exact ho st hst
            · rw [List.mem_singleton] at hst
              subst hst
              simp [CNamed, labelOf, Function.comp_def]
          · unfold addDeadlocked at hst
            dsimp only at hst
            split at hst
            · rw [List.mem_singleton] at hst
              subst hst
              simp [CNamed, inputLabelOf, Function.comp_def]
            · cases hst
        · split at h
          · cases h
          · refine ih _ _ _ ?_ h
            intro st hst
            rcases List.mem_append.1 hst with hst | hst
            · exact ho st hst
            · rw [List.mem_singleton] at hst
              subst hst
              simp [CNamed, labelOf, Function.comp_def]

theorem runCounter_names {robotics : Bool} {cap : Nat} {order : List Char → Bool} {fuel : Nat} {text : List Char} {sts : List CState}
    {tab : VarTable} {c : Ctx B} (hi : initContext cap order text = .ok (tab, c))
    (h : runCounter B robotics cap order fuel text = .counterstrategy sts) : ∀ st ∈ sts, CNamed (preNames tab) (preInputNames tab) st := by
  simp only [runCounter, hi] at h
  generalize checkRealizabilityC (bddMgr B tab.types) c robotics fuel = r at h
  split at h
  · split at h
    · rename_i he
      cases h
      rw [extractCounterstrategy] at he
      split at he
      · cases he
      · have := extractLoopC_names _ _ _ _ _ _ _ _ _ (by simp) he
        simpa [tableCVars, tableVars, preNames, preInputNames, Function.comp_def] using this
    · cases h
  · cases h

theorem trim_mem {s : List Char} {c : Char} (h : c ∈ trim s) : c ∈ s := by
  unfold trim at h
  exact (List.dropWhile_suffix _).subset (List.mem_reverse.1 ((List.dropWhile_suffix _).subset (List.mem_reverse.1 h)))

theorem Content.clean {cur : Option Section} {ls : List (List Char)} {items : List (Section × List Char)} (h : Content cur ls items)
    (hl : ∀ l ∈ ls, '\n' ∉ l) : ∀ i ∈ items, '\n' ∉ i.2 := by
  induction h with
  | nil => intro i hi; cases hi
  | skip _ _ ih => exact ih fun l h => hl l (List.mem_cons_of_mem _ h)
  | header _ _ _ ih => exact ih fun l h => hl l (List.mem_cons_of_mem _ h)
  | item _ _ _ _ ih =>
    intro i hi
    rcases List.mem_cons.1 hi with rfl | hi
    · exact fun hm => hl _ List.mem_cons_self (trim_mem hm)
    · exact ih (fun l h => hl l (List.mem_cons_of_mem _ h)) i hi

/-- Names contain no newline. -/
theorem Denotes.clean {text : List Char} {sp : SpecFile} (h : Denotes text sp) : ∀ x ∈ sp.inputs ++ sp.outputs, '\n' ∉ x := by
  obtain ⟨items, hc, h1, h2, _⟩ := h
  have := Content.clean hc (Structured.splitLines_clean text)
  intro x hx
  rw [h1, h2] at hx
  rcases List.mem_append.1 hx with hx | hx <;>
  · obtain ⟨i, hi, rfl⟩ := List.mem_map.1 hx
    exact this i (List.mem_of_mem_filter hi)

theorem preInputNames_perm {cap : Nat} {order : List Char → Bool} {text : List Char} {tab : VarTable} {c : Ctx B}
    (hi : initContext cap order text = .ok (tab, c)) {sp : SpecFile} (hd : Denotes text sp) : (preInputNames tab).Perm sp.inputs := by
  obtain ⟨ds, F, hn, rfl, hd', _, _, _, _⟩ := initContext_spec hi
  have := Denotes.det hd hd'
  subst this
  have := inputLabel_names F hn fun _ => false
  simpa [inputLabelAt, semCVars, preInputNames, Function.comp_def] using this

theorem runCounterPrinted_some {robotics : Bool} {cap : Nat} {order : List Char → Bool} {fuel : Nat} {text out : List Char}
    (h : runCounterPrinted B robotics cap order fuel text = some out) : ∃ tab c sts, initContext (B := B) cap order text = .ok (tab, c) ∧
      runCounter B robotics cap order fuel text = .counterstrategy sts ∧ out = (sts.map cstateText).flatten := by
  unfold runCounterPrinted at h
  split at h
  · rename_i sts h2
    cases h
    cases hi : initContext (B := B) cap order text with
    | err e => rw [runCounter, hi] at h2; cases h2
    | ub => rw [runCounter, hi] at h2; cases h2
    | stuck => rw [runCounter, hi] at h2; cases h2
    | ok r => exact ⟨r.1, r.2, sts, rfl, h2, rfl⟩
  · cases h

/-- **C61**, counterstrategies.  Two runs on the same file that print the same text have found the same counterstrategy. -/
theorem C61_counter_determines {robotics robotics' : Bool} {cap : Nat} {order : List Char → Bool} {fuel fuel' : Nat} {text out : List Char}
    (h : runCounterPrinted B robotics cap order fuel text = some out) (h' : runCounterPrinted B robotics' cap order fuel' text = some out) :
    ∃ sts, runCounter B robotics cap order fuel text = .counterstrategy sts ∧ runCounter B robotics' cap order fuel' text = .counterstrategy sts := by
  obtain ⟨tab, c, sts, h1, h2, rfl⟩ := runCounterPrinted_some h
  obtain ⟨tab', c', sts', h1', h2', e⟩ := runCounterPrinted_some h'
  rw [h1] at h1'
  injection h1' with h1'
  obtain ⟨rfl, rfl⟩ := Prod.mk.inj h1'
  have n1 := runCounter_names h1 h2
  have n2 := runCounter_names h1 h2'
  refine ⟨sts, h2, ?_⟩
  rw [h2']
  congr 1
  obtain ⟨sp, hd⟩ := C24_accepted_denotes (c := c) h1
  have hd := hd.1
  have c1 : ∀ x ∈ preNames tab, '\n' ∉ x := fun x hx => Denotes.clean hd x ((preNames_perm h1 hd).mem_iff.1 hx)
  have c2 : ∀ x ∈ preInputNames tab, '\n' ∉ x := fun x hx => Denotes.clean hd x (List.mem_append_left _ ((preInputNames_perm h1 hd).mem_iff.1 hx))
  exact (flatten_inj (f := cstateText) (P := CNamed (preNames tab) (preInputNames tab)) (by intro a; simp [cstateText])
    (fun a b X Y ha hb => cstateText_append c1 c2 ha hb) n1 n2 e).symm

/-! ### Examples and defects -/

/-- The output must repeat the next input. -/
def tinyText : List Char := txt!"[INPUT]\na\n[OUTPUT]\nx\n[SYS_INIT]\n! x\n[SYS_TRANS]\n! ^ x' a'"

def tinyStates : List PState :=
  [⟨0, 0, [(txt!"a", false), (txt!"x", false)], [0, 2]⟩, ⟨1, 0, [(txt!"a", true), (txt!"x", false)], [0, 2]⟩, ⟨2, 0, [(txt!"a", true), (txt!"x", true)], [0, 2]⟩]

/-- A text to which `C61_text_determines` applies. -/
example : runPrinted ROBDD .standard false false .plain 1000 (fun _ => true) 30 tinyText =
    some txt!"State 0 with rank 0 -> <a:0, x:0>\n\tWith successors : 0, 2\nState 1 with rank 0 -> <a:1, x:0>\n\tWith successors : 0, 2\nState 2 with rank 0 -> <a:1, x:1>\n\tWith successors : 0, 2\n" := by
  decide +kernel

example : runPrinted ROBDD .standard false false .permissive 1000 (fun _ => true) 30 tinyText =
    some txt!"State 0 with rank 0\na:0, x:0\n0\n3\n\nState 1 with rank 0\na:0, x:1\n0\n3\n\nState 2 with rank 0\na:1, x:0\n0\n3\n\nState 3 with rank 0\na:1, x:1\n0\n3\n\n" := by
  decide +kernel

def tinyJson : List Char :=
  txt!"{\"version\": 0,\n \"slugs\": \"0.0.1\",\n\n \"variables\": [\"a\", \"x\"],\n\n \"nodes\": {\n\"0\": {\n\t\"rank\": 0,\n\t\"state\": [0, 0],\n\t\"trans\": [0, 2]\n},\n\n\"1\": {\n\t\"rank\": 0,\n\t\"state\": [1, 0],\n\t\"trans\": [0, 2]\n},\n\n\"2\": {\n\t\"rank\": 0,\n\t\"state\": [1, 1],\n\t\"trans\": [0, 2]\n}\n\n}}\n"

/-- A text to which `C61_json_partial` applies. -/
example : runPrinted ROBDD .standard false false .json 1000 (fun _ => true) 30 tinyText = some tinyJson := by
  decide +kernel

example : JsonText (strategyJson [txt!"a", txt!"x"] tinyStates) tinyJson := by
  have h := jsonListing_text (names := [txt!"a", txt!"x"]) (by decide +kernel) tinyStates
  have e : jsonListing [txt!"a", txt!"x"] tinyStates = tinyJson := by decide +kernel
  rwa [e] at h

/-- Unrealizable: the input can be set, and the output must then be set and not be set. -/
def deadText : List Char := txt!"[INPUT]\na\n[OUTPUT]\nx\n[SYS_TRANS]\n| ! a' & x' ! x'"

/-- A text to which `C61_counter_determines` applies. -/
example : runCounterPrinted ROBDD false 1000 (fun _ => true) 30 deadText = some txt!"State 0 with rank (0,0) -> <a:0, x:0>\n\tWith successors : 4\nState 4 with rank (0,0) -> <a:1>\n\tWith no successors.\nState 1 with rank (0,0) -> <a:0, x:1>\n\tWith successors : 4\nState 2 with rank (0,0) -> <a:1, x:0>\n\tWith successors : 4\nState 3 with rank (0,0) -> <a:1, x:1>\n\tWith successors : 4\n" := by
  decide +kernel

/-- The name of the variable contains a quotation mark. -/
def quoteText : List Char := txt!"[OUTPUT]\na\"b"

def quoteOut : List Char :=
  txt!"{\"version\": 0,\n \"slugs\": \"0.0.1\",\n\n \"variables\": [\"a\"b\"],\n\n \"nodes\": {\n\"0\": {\n\t\"rank\": 0,\n\t\"state\": [0],\n\t\"trans\": [0]\n},\n\n\"1\": {\n\t\"rank\": 0,\n\t\"state\": [1],\n\t\"trans\": [0]\n}\n\n}}\n"

/-- **C61**, defect: there is a file, with a quotation mark in a name, for which a text is printed that is not JSON. -/
theorem C61_not_json : ∃ text out, runPrinted ROBDD .standard false false .json 1000 (fun _ => true) 30 text = some out ∧ ∀ v, ¬ JsonText v out := by
  refine ⟨quoteText, quoteOut, by decide +kernel, fun v h => ?_⟩
  obtain ⟨w, _, e⟩ := readText_complete h
  have : (readText quoteOut).isNone = true := by decide +kernel
  rw [e] at this
  cases this

/-- The name of the variable contains a backslash and the letter n. -/
def backText : List Char := txt!"[OUTPUT]\na\\nb"

def back : SpecFile where
  inputs := []
  outputs := [txt!"a\\nb"]
  envInit := []
  sysInit := []
  envTrans := []
  sysTrans := []
  envLiveness := []
  sysLiveness := []

theorem back_denotes : Denotes backText back := by
  refine ⟨[(.output, txt!"a\\nb")], ?_, by decide, by decide, .nil, .nil, .nil, .nil, .nil, .nil⟩
  have : splitLines backText = [txt!"[OUTPUT]", txt!"a\\nb"] := by decide
  rw [this]
  exact .header .output (by decide) (.item (by decide) (by decide) (by decide) .nil)

def backOut : List Char :=
  txt!"{\"version\": 0,\n \"slugs\": \"0.0.1\",\n\n \"variables\": [\"a\\nb\"],\n\n \"nodes\": {\n\"0\": {\n\t\"rank\": 0,\n\t\"state\": [0],\n\t\"trans\": [0]\n},\n\n\"1\": {\n\t\"rank\": 0,\n\t\"state\": [1],\n\t\"trans\": [0]\n}\n\n}}\n"

/-- The first name in the value of a JSON text. -/
def firstName : Json → Option (List Nat)
  | .obj [_, _, (_, .arr (.str x :: _)), _] => some x
  | _ => none

/-- **C61**, defect: there is a file, with a backslash in a name, for which a JSON text is printed that has another name in it. -/
theorem C61_wrong_name : ∃ text sp out, Denotes text sp ∧ runPrinted ROBDD .standard false false .json 1000 (fun _ => true) 30 text = some out ∧
    ∀ names sts, names.Perm (sp.inputs ++ sp.outputs) → ¬ JsonText (strategyJson names sts) out := by
  refine ⟨backText, back, backOut, back_denotes, by decide +kernel, fun names sts hp h => ?_⟩
  have hn : names = [txt!"a\\nb"] := List.perm_singleton.1 hp
  subst hn
  obtain ⟨w, _, e⟩ := readText_complete h
  have h1 : (readText backOut).map (fun p => firstName p.1) = some (some [97, 10, 98]) := by decide +kernel
  rw [e] at h1
  have h2 : firstName (strategyJson [txt!"a\\nb"] sts) = some [97, 92, 110, 98] := rfl
  simp only [Option.map_some, h2] at h1
  cases h1

end Slugs.Props
