import Verif.Lemmas.LtlFile

/-!
The text that the translators from LTLMop and RATSY write.
-/

namespace Slugs.Model.LtlText

open Slugs.Spec Slugs.Spec.LtlText
open Slugs.Model.Structured (join)
open Slugs.Model.Core (GoodLines Categories specLines writeLines sectionItems)
open Slugs.Props (prime_usable joinWords_clean)
open Slugs.Model.Resilience (blockLines blocks_content itemLine_filter proper_sections)

theorem join_joinWords : ∀ ws : List Word, join ws = joinWords ws
  | [] => rfl
  | [_] => rfl
  | w :: w' :: ws => by rw [join, joinWords, join_joinWords (w' :: ws)] <;> simp

/-- A line of the output. -/
def lineOf (φ : Fml) : List Char := joinWords φ.words

theorem linesOf_props (k : Kind) (qs : List (Ltl × Fml)) : linesOf k (props qs) = (formulasOf k qs).map lineOf := by
  rw [linesOf, props, formulasOf, List.filter_map, List.map_map, List.map_map]
  refine List.map_congr_left fun q _ => ?_
  exact join_joinWords _

/-! ### Lines -/

theorem words_head : ∀ φ : Fml, Structured.Flat φ → ∃ w ws, φ.words = w :: ws ∧ (w ∈ [txt!"1", txt!"0", txt!"!", txt!"|", txt!"&", txt!"^"] ∨ w ∈ φ.vars)
  | .const true, _ => ⟨_, [], rfl, .inl (by decide)⟩
  | .const false, _ => ⟨_, [], rfl, .inl (by decide)⟩
  | .var x, _ => ⟨x, [], rfl, .inr (by simp [Fml.vars])⟩
  | .not f, _ => ⟨_, f.words, rfl, .inl (by decide)⟩
  | .bin op f g, _ => ⟨_, f.words ++ g.words, rfl, .inl (by cases op <;> decide)⟩

theorem usable_item {x : Word} (h : UsableName x) : ItemLine x := by
  refine Resilience.itemLine_of h.1 (fun c hc => ⟨h.2.1 c (List.mem_of_head? hc), ?_, ?_⟩) (fun c hc => h.2.1 c (List.mem_of_getLast? hc)) fun hn => ?_
  · rintro rfl; exact h.2.2.2.1 hc
  · rintro rfl; exact h.2.2.2.2 hc
  · exact absurd (h.2.1 _ hn) (by decide)

theorem usable_value {name : Word → Word} {u : Word × Bool} (h : UsableName (name u.1)) : UsableName (valueName name u) := by
  obtain ⟨x, p⟩ := u
  cases p with
  | false => exact h
  | true =>
    have h1 := prime_usable ⟨⟨h.1, h.2.1⟩, h.2.2.1⟩
    refine ⟨h1.1.1, h1.1.2, h1.2, ?_⟩
    have h2 := h.1
    have h3 := h.2.2.2
    simp only [valueName, if_true, prime] at h2 h3 ⊢
    cases e : name x with
    | nil => exact absurd e h2
    | cons c cs => rw [e] at h3; exact h3

theorem line_item {φ : Fml} (hf : Structured.Flat φ) (hv : ∀ x ∈ φ.vars, UsableName x) : ItemLine (lineOf φ) := by
  have hw := Fml.words_good φ fun x hx => ⟨(hv x hx).1, (hv x hx).2.1⟩
  obtain ⟨h1, h2⟩ := joinWords_clean φ.words hw
  obtain ⟨w, ws, e, h3⟩ := words_head φ hf
  have hne : w ≠ [] := (hw w (by rw [e]; simp)).1
  obtain ⟨c, cs, rfl⟩ := List.exists_cons_of_ne_nil hne
  have hh : (lineOf φ).head? = some c ∧ lineOf φ ≠ [] := by
    rw [lineOf, e]
    cases ws <;> simp [joinWords]
  have hc : isSpace c = false ∧ c ≠ '#' ∧ c ≠ '[' := by
    refine ⟨(hw _ (by rw [e]; exact List.mem_cons_self)).2 c List.mem_cons_self, ?_⟩
    rcases h3 with h3 | h3
    · simp only [List.mem_cons, List.cons.injEq, List.not_mem_nil, or_false] at h3
      rcases h3 with h | h | h | h | h | h <;> (rw [h.1]; decide)
    · have := (hv _ h3).2.2.2
      simp only [List.head?_cons, ne_eq, Option.some.injEq] at this
      exact this
  refine Resilience.itemLine_of hh.2 (fun d hd => ?_) h1 h2
  rw [hh.1, Option.some_inj] at hd
  exact hd ▸ hc

theorem line_reads {φ : Fml} (hf : Structured.Flat φ) (hv : ∀ x ∈ φ.vars, UsableName x) : ReadsLine (lineOf φ) φ :=
  ⟨[], Structured.reads_flat φ hf (Spells.joinWords _ (Fml.words_good φ fun x hx => ⟨(hv x hx).1, (hv x hx).2.1⟩)) fun x hx => (hv x hx).2.2.1, by simp⟩

/-! ### The whole text -/

/-- The lines in the sections. -/
def outLines (ins outs : List Word) (env sys : List (Ltl × Fml)) : Categories
  | .input => ins
  | .output => outs
  | .envInit => (formulasOf .init env).map lineOf
  | .envTrans => (formulasOf .safety env).map lineOf
  | .envLiveness => (formulasOf .liveness env).map lineOf
  | .sysInit => (formulasOf .init sys).map lineOf
  | .sysTrans => (formulasOf .safety sys).map lineOf
  | .sysLiveness => (formulasOf .liveness sys).map lineOf

/-- The order of the sections. -/
def outOrder : List Section := [.input, .output, .envTrans, .envLiveness, .envInit, .sysTrans, .sysLiveness, .sysInit]

/-- The lines that are written, with the variables as they are read. -/
def outBlocks (inBits outBits : List (List Char)) (env sys : List (Ltl × Fml)) : List (Section × List (List Char)) :=
  outOrder.map fun s => (s, outLines inBits outBits env sys s ++ [[]])

theorem sectionText_eq (header : List Char) (ls : List (List Char)) : sectionText header ls = writeLines (header :: (ls ++ [[]])) := by
  simp [sectionText, writeLines]

theorem writeLines_append (a b : List (List Char)) : writeLines (a ++ b) = writeLines a ++ writeLines b := List.flatMap_append

theorem outputText_eq {atoms : Atoms} {inBits outBits : List (List Char)} {as gs : List Tree} {env sys : List (Ltl × Fml)}
    (he : propertiesOf atoms false as = some (props env)) (hs : propertiesOf atoms true gs = some (props sys)) :
    outputText atoms inBits outBits as gs = some (writeLines (blockLines (outBlocks inBits outBits env sys))) := by
  rw [outputText, he, hs]
  simp only [Option.bind_eq_bind, Option.bind_some, sectionText_eq, linesOf_props, Option.some_inj]
  simp only [outBlocks, outOrder, blockLines, List.map_cons, List.map_nil, List.flatMap_cons, List.flatMap_nil, List.append_nil, writeLines_append, List.append_assoc]
  rfl

theorem length_writeLines {l : List Char} : ∀ {ls : List (List Char)}, l ∈ ls → l.length ≤ (writeLines ls).length
  | m :: ls, h => by
    have e : writeLines (m :: ls) = m ++ ['\n'] ++ writeLines ls := by simp [writeLines]
    rw [e]
    rcases List.mem_cons.mp h with rfl | h
    · simp
    · have := length_writeLines h
      simp; omega

/-- The variables as they are read: the names, with empty lines in between. -/
structure Bits (bits : List (List Char)) (names : List Word) : Prop where
  names : bits.filter (· ≠ []) = names
  tight : ∀ b ∈ bits, trim b = b
  clean : ∀ b ∈ bits, '\n' ∉ b

section
variable {st : Style} {ins outs : List Word} {φs ψs : List Ltl} {env sys : List (Ltl × Fml)}

/-- What is known about the variables of the translated conjuncts. -/
structure Scoped (st : Style) (ins outs : List Word) (φs ψs : List Ltl) (env sys : List (Ltl × Fml)) : Prop where
  env : Faith st false φs env
  sys : Faith st true ψs sys
  envScope : ∀ f ∈ φs, EnvScoped st.name ins outs f
  sysScope : ∀ f ∈ ψs, SysScoped st.name ins outs f
  names : UsableNames ins outs

theorem Scoped.envVars (h : Scoped st ins outs φs ψs env sys) {q : Ltl × Fml} (hq : q ∈ env) : ∀ x ∈ q.2.vars, ∃ u, x = valueName st.name u ∧
    match q.1.role.1 with
    | .init => st.name u.1 ∈ ins ∧ u.2 = false
    | .safety => st.name u.1 ∈ ins ∨ st.name u.1 ∈ outs ∧ u.2 = false
    | .liveness => st.name u.1 ∈ ins ++ outs := by
  intro x hx
  obtain ⟨u, hu, e⟩ := ((h.env.translated.tr q hq).vars x).mp hx
  have : later false q.1 = false := by simp [later]
  rw [this] at hu
  obtain ⟨f, hf, hc⟩ := h.env.mem hq
  exact ⟨u, e, h.envScope f hf _ hc u hu⟩

theorem Scoped.sysVars (h : Scoped st ins outs φs ψs env sys) {q : Ltl × Fml} (hq : q ∈ sys) : ∀ x ∈ q.2.vars, ∃ u, x = valueName st.name u ∧
    st.name u.1 ∈ ins ++ outs ∧ (q.1.role.1 = .init → u.2 = false) := by
  intro x hx
  obtain ⟨u, hu, e⟩ := ((h.sys.translated.tr q hq).vars x).mp hx
  obtain ⟨f, hf, hc⟩ := h.sys.mem hq
  refine ⟨u, e, ?_⟩
  by_cases hk : q.1.role.1 = .liveness
  · obtain ⟨v, hv, e'⟩ := uses_any _ _ false u hu
    exact ⟨e' ▸ (h.sysScope f hf _ hc v hv).1, fun hi => by rw [hk] at hi; cases hi⟩
  · have : later true q.1 = false := by simp [later, hk]
    rw [this] at hu
    exact h.sysScope f hf _ hc u hu

theorem Scoped.envUsable (h : Scoped st ins outs φs ψs env sys) {q : Ltl × Fml} (hq : q ∈ env) : ∀ x ∈ q.2.vars, UsableName x := by
  intro x hx
  obtain ⟨u, rfl, hu⟩ := h.envVars hq x hx
  refine usable_value (h.names.1 _ ?_)
  rcases hk : q.1.role.1 <;> rw [hk] at hu
  · exact List.mem_append_left _ hu.1
  · exact List.mem_append.mpr (hu.imp_right And.left)
  · exact hu

theorem Scoped.sysUsable (h : Scoped st ins outs φs ψs env sys) {q : Ltl × Fml} (hq : q ∈ sys) : ∀ x ∈ q.2.vars, UsableName x := by
  intro x hx
  obtain ⟨u, rfl, hu⟩ := h.sysVars hq x hx
  exact usable_value (h.names.1 _ hu.1)

theorem mem_formulas {k : Kind} {qs : List (Ltl × Fml)} {φ : Fml} (h : φ ∈ formulasOf k qs) : ∃ q ∈ qs, q.1.role.1 = k ∧ φ = q.2 := by
  simp only [formulasOf, List.mem_map, List.mem_filter, decide_eq_true_eq] at h
  obtain ⟨q, ⟨h1, h2⟩, rfl⟩ := h
  exact ⟨q, h1, h2, rfl⟩

theorem value_usable {name : Word → Word} {u : Word × Bool} (h : name u.1 ∈ ins ++ outs) : valueName name u ∈ ins ++ outs ++ ins.map prime ++ outs.map prime := by
  obtain ⟨x, p⟩ := u
  cases p with
  | false => exact List.mem_append_left _ (List.mem_append_left _ h)
  | true =>
    rw [List.append_assoc, ← List.map_append]
    exact List.mem_append_right _ (List.mem_map_of_mem h)

/-- The formulas that are written into a section. -/
def sectionFormulas (env sys : List (Ltl × Fml)) : Section → List Fml
  | .input | .output => []
  | .envInit => formulasOf .init env
  | .envTrans => formulasOf .safety env
  | .envLiveness => formulasOf .liveness env
  | .sysInit => formulasOf .init sys
  | .sysTrans => formulasOf .safety sys
  | .sysLiveness => formulasOf .liveness sys

theorem outLines_eq {s : Section} (h1 : s ≠ .input) (h2 : s ≠ .output) : outLines ins outs env sys s = (sectionFormulas env sys s).map lineOf := by
  cases s <;> first | rfl | contradiction

theorem Scoped.formulas (h : Scoped st ins outs φs ψs env sys) (s : Section) : ∀ φ ∈ sectionFormulas env sys s,
    Structured.Flat φ ∧ φ.Wf 0 ∧ (∀ x ∈ φ.vars, UsableName x) ∧ ∀ x ∈ φ.vars, x ∈ usable s ins outs := by
  intro φ hφ
  have key : ∀ q : Ltl × Fml, (q ∈ env ∨ q ∈ sys) → Structured.Flat q.2 ∧ q.2.Wf 0 ∧ ∀ x ∈ q.2.vars, UsableName x := by
    rintro q (hq | hq)
    · exact ⟨(h.env.translated.tr q hq).flat, (h.env.translated.tr q hq).wf, h.envUsable hq⟩
    · exact ⟨(h.sys.translated.tr q hq).flat, (h.sys.translated.tr q hq).wf, h.sysUsable hq⟩
  cases s with
  | input => exact absurd hφ (by simp [sectionFormulas])
  | output => exact absurd hφ (by simp [sectionFormulas])
  | envInit =>
    obtain ⟨q, hq, hk, rfl⟩ := mem_formulas hφ
    obtain ⟨k1, k2, k3⟩ := key q (.inl hq)
    refine ⟨k1, k2, k3, fun x hx => ?_⟩
    obtain ⟨⟨y, p⟩, rfl, hu⟩ := h.envVars hq x hx
    rw [hk] at hu
    obtain ⟨hu, rfl⟩ : st.name y ∈ ins ∧ p = false := hu
    exact hu
  | envTrans =>
    obtain ⟨q, hq, hk, rfl⟩ := mem_formulas hφ
    obtain ⟨k1, k2, k3⟩ := key q (.inl hq)
    refine ⟨k1, k2, k3, fun x hx => ?_⟩
    obtain ⟨⟨y, p⟩, rfl, hu⟩ := h.envVars hq x hx
    rw [hk] at hu
    show _ ∈ ins ++ outs ++ ins.map prime
    have hu' : st.name y ∈ ins ∨ st.name y ∈ outs ∧ p = false := hu
    rcases hu' with hu' | ⟨hu', rfl⟩
    · cases p with
      | false => exact List.mem_append_left _ (List.mem_append_left _ hu')
      | true => exact List.mem_append_right _ (List.mem_map_of_mem hu')
    · exact List.mem_append_left _ (List.mem_append_right _ hu')
  | envLiveness =>
    obtain ⟨q, hq, hk, rfl⟩ := mem_formulas hφ
    obtain ⟨k1, k2, k3⟩ := key q (.inl hq)
    refine ⟨k1, k2, k3, fun x hx => ?_⟩
    obtain ⟨u, rfl, hu⟩ := h.envVars hq x hx
    rw [hk] at hu
    exact value_usable hu
  | sysInit =>
    obtain ⟨q, hq, hk, rfl⟩ := mem_formulas hφ
    obtain ⟨k1, k2, k3⟩ := key q (.inr hq)
    refine ⟨k1, k2, k3, fun x hx => ?_⟩
    obtain ⟨⟨y, p⟩, rfl, hu⟩ := h.sysVars hq x hx
    obtain rfl : p = false := hu.2 hk
    exact hu.1
  | sysTrans =>
    obtain ⟨q, hq, hk, rfl⟩ := mem_formulas hφ
    obtain ⟨k1, k2, k3⟩ := key q (.inr hq)
    refine ⟨k1, k2, k3, fun x hx => ?_⟩
    obtain ⟨u, rfl, hu⟩ := h.sysVars hq x hx
    exact value_usable hu.1
  | sysLiveness =>
    obtain ⟨q, hq, hk, rfl⟩ := mem_formulas hφ
    obtain ⟨k1, k2, k3⟩ := key q (.inr hq)
    refine ⟨k1, k2, k3, fun x hx => ?_⟩
    obtain ⟨u, rfl, hu⟩ := h.sysVars hq x hx
    exact value_usable hu.1

theorem Scoped.items (h : Scoped st ins outs φs ψs env sys) (s : Section) : ∀ l ∈ outLines ins outs env sys s, ItemLine l := by
  by_cases h1 : s = .input
  · subst h1; exact fun l hl => usable_item (h.names.1 l (List.mem_append_left _ hl))
  by_cases h2 : s = .output
  · subst h2; exact fun l hl => usable_item (h.names.1 l (List.mem_append_right _ hl))
  rw [outLines_eq h1 h2]
  intro l hl
  obtain ⟨φ, hφ, rfl⟩ := List.mem_map.mp hl
  exact line_item (h.formulas s φ hφ).1 (h.formulas s φ hφ).2.2.1

theorem Scoped.good (h : Scoped st ins outs φs ψs env sys) {cap : Nat} (hc : ∀ s, s ≠ .input → s ≠ .output → ∀ l ∈ outLines ins outs env sys s, l.length ≤ cap) :
    GoodLines cap (outLines ins outs env sys) where
  line := h.items
  names := h.names.2
  proper s h1 h2 l hl := by
    refine ⟨hc s h1 h2 l hl, ?_⟩
    rw [outLines_eq h1 h2] at hl
    obtain ⟨φ, hφ, rfl⟩ := List.mem_map.mp hl
    obtain ⟨k1, k2, k3, k4⟩ := h.formulas s φ hφ
    exact ⟨φ, line_reads k1 k3, k2, k4⟩

theorem Scoped.reads (h : Scoped st ins outs φs ψs env sys) {s : Section} (h1 : s ≠ .input) (h2 : s ≠ .output) :
    (outLines ins outs env sys s).map Model.rdLine = sectionFormulas env sys s := by
  rw [outLines_eq h1 h2, List.map_map]
  conv_rhs => rw [← List.map_id (sectionFormulas env sys s)]
  refine List.map_congr_left fun φ hφ => ?_
  obtain ⟨k1, _, k3, _⟩ := h.formulas s φ hφ
  exact rdLine_eq (line_reads k1 k3)

theorem Scoped.content (h : Scoped st ins outs φs ψs env sys) {inBits outBits : List (List Char)} (hi : Bits inBits ins) (ho : Bits outBits outs) :
    Content none (splitLines (writeLines (blockLines (outBlocks inBits outBits env sys)))) (sectionItems outOrder (outLines ins outs env sys)) := by
  have e : (outBlocks inBits outBits env sys).map Prod.fst = outOrder := by simp [outBlocks, Function.comp_def]
  have bits : ∀ {bits names}, Bits bits names → ((bits ++ [[]]).map trim).filter (· ≠ []) = names := by
    intro bits names hb
    rw [List.map_append, List.map_congr_left (g := id) fun b h => hb.tight b h, List.map_id, List.filter_append, hb.names]
    simp [show trim [] = [] from rfl]
  have hb : ∀ s, ((outLines inBits outBits env sys s ++ [[]]).map trim).filter (· ≠ []) = outLines ins outs env sys s := by
    intro s
    by_cases h1 : s = .input
    · subst h1; exact bits hi
    by_cases h2 : s = .output
    · subst h2; exact bits ho
    have := h.items s
    rw [outLines_eq h1 h2] at this ⊢
    rw [outLines_eq h1 h2, List.map_append, List.filter_append, itemLine_filter this]
    simp [show trim [] = [] from rfl]
  have := blocks_content (J := outLines ins outs env sys) h.items (bs := outBlocks inBits outBits env sys) ?_ ?_
  · rwa [e] at this
  · intro b hm
    obtain ⟨s, _, rfl⟩ := List.mem_map.mp hm
    exact hb s
  · intro b hm l hl
    obtain ⟨s, _, rfl⟩ := List.mem_map.mp hm
    rcases List.mem_append.mp hl with hl | hl
    · by_cases h1 : s = .input
      · subst h1; exact hi.clean l hl
      by_cases h2 : s = .output
      · subst h2; exact ho.clean l hl
      have := h.items s
      rw [outLines_eq h1 h2] at this hl
      exact (this l hl).clean
    · simp only [List.mem_singleton] at hl
      simp [hl]

theorem Scoped.result (h : Scoped st ins outs φs ψs env sys) {inBits outBits : List (List Char)} (hi : Bits inBits ins) (ho : Bits outBits outs)
    {out : List Char} (e : out = writeLines (blockLines (outBlocks inBits outBits env sys))) :
    (∀ cap, out.length ≤ cap → ProperFile cap out) ∧ ∃ sp, Denotes out sp ∧ Expresses sp ins outs st.name φs ψs := by
  have hc := h.content hi ho
  rw [← e] at hc
  have hl : ∀ s, s ≠ .input → s ≠ .output → ∀ l ∈ outLines ins outs env sys s, l.length ≤ out.length := by
    intro s h1 h2 l hl
    rw [e]
    refine length_writeLines (List.mem_flatMap.mpr ⟨(s, outLines inBits outBits env sys s ++ [[]]), List.mem_map.mpr ⟨s, by cases s <;> decide, rfl⟩, ?_⟩)
    rw [outLines_eq h1 h2] at hl ⊢
    exact List.mem_cons_of_mem _ (List.mem_append_left _ hl)
  have hord : outOrder.Nodup ∧ ∀ s, s ∈ outOrder := ⟨by decide, fun s => by cases s <;> decide⟩
  refine ⟨fun cap hcap => ?_, specLines (outLines ins outs env sys), ?_, rfl, rfl, fun r => ⟨?_, ?_⟩⟩
  · exact proper_sections (h.good fun s h1 h2 l hm => (hl s h1 h2 l hm).trans hcap) (.inl ⟨rfl, rfl⟩) hord.1 hord.2 hc
  · exact (h.good hl).denotesItems hc fun s => Core.itemsOf_sections hord.1 (hord.2 s)
  · exact env_keeps (sp := specLines (outLines ins outs env sys)) h.env h.names.2 h.envScope (h.reads (s := .envInit) (by decide) (by decide)) (h.reads (s := .envTrans) (by decide) (by decide))
      (h.reads (s := .envLiveness) (by decide) (by decide)) r
  · exact sys_keeps (sp := specLines (outLines ins outs env sys)) h.sys h.names.2 h.sysScope (h.reads (s := .sysInit) (by decide) (by decide)) (h.reads (s := .sysTrans) (by decide) (by decide))
      (h.reads (s := .sysLiveness) (by decide) (by decide)) r

end

/-! ### Both directions -/

theorem output_spec {st : Style} {atoms : Atoms} (hs : st.Of atoms) {ins outs : List Word} {inBits outBits : List (List Char)} (hi : Bits inBits ins) (ho : Bits outBits outs)
    {φs ψs : List Ltl} {as gs : List Tree} (ha : List.Forall₂ FormulaTree φs as) (hg : List.Forall₂ FormulaTree ψs gs)
    (h1 : ∀ f ∈ φs, f.Gr1 false ∧ Lits st.ok f ∧ Faithful st f ∧ EnvScoped st.name ins outs f)
    (h2 : ∀ f ∈ ψs, f.Gr1 true ∧ Lits st.ok f ∧ Faithful st f ∧ SysScoped st.name ins outs f) (hu : UsableNames ins outs) :
    ∃ out, outputText atoms inBits outBits as gs = some out ∧ (∀ cap, out.length ≤ cap → ProperFile cap out) ∧
      ∃ sp, Denotes out sp ∧ Expresses sp ins outs st.name φs ψs := by
  have c1 := (can_all st false φs).mpr fun f hf => ⟨(h1 f hf).1, (h1 f hf).2.1⟩
  have c2 := (can_all st true ψs).mpr fun f hf => ⟨(h2 f hf).1, (h2 f hf).2.1⟩
  rcases propertiesOf_spec hs false ha with ⟨_, env, t1, e1⟩ | ⟨⟨c, hc, hn⟩, _⟩
  · rcases propertiesOf_spec hs true hg with ⟨_, sys, t2, e2⟩ | ⟨⟨c, hc, hn⟩, _⟩
    · refine ⟨_, outputText_eq e1 e2, ?_⟩
      have : Scoped st ins outs φs ψs env sys := ⟨⟨t1, fun f hf => (h1 f hf).1, fun f hf => (h1 f hf).2.2.1⟩,
        ⟨t2, fun f hf => (h2 f hf).1, fun f hf => (h2 f hf).2.2.1⟩, fun f hf => (h1 f hf).2.2.2, fun f hf => (h2 f hf).2.2.2, hu⟩
      exact this.result hi ho rfl
    · exact absurd (c2 c hc) hn
  · exact absurd (c1 c hc) hn

theorem output_only {st : Style} {atoms : Atoms} (hs : st.Of atoms) {inBits outBits : List (List Char)}
    {φs ψs : List Ltl} {as gs : List Tree} (ha : List.Forall₂ FormulaTree φs as) (hg : List.Forall₂ FormulaTree ψs gs) {out : List Char}
    (h : outputText atoms inBits outBits as gs = some out) :
    (∀ f ∈ φs, f.Gr1 false ∧ Lits st.ok f) ∧ ∀ f ∈ ψs, f.Gr1 true ∧ Lits st.ok f := by
  rcases propertiesOf_spec hs false ha with ⟨c1, env, t1, e1⟩ | ⟨_, e1⟩
  · rcases propertiesOf_spec hs true hg with ⟨c2, sys, t2, e2⟩ | ⟨_, e2⟩
    · exact ⟨(can_all st false φs).mp c1, (can_all st true ψs).mp c2⟩
    · rw [outputText, e1, e2] at h; cases h
  · rw [outputText, e1] at h; cases h

end Slugs.Model.LtlText
