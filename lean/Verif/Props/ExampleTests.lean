import Verif.Model.ExampleTests
import Verif.Lemmas.ReportText
import Verif.Props.StructuredFiles
import Verif.Props.Search
import Verif.Props.Aiger

/-!
# C88: the script that tests the examples

`runTests` is the model of `tools/testSomeExamples.py`.
-/

namespace Slugs.Props

open Slugs.Spec Slugs.Spec.Structured Slugs.Spec.ExampleTests Slugs.Model Slugs.Model.Structured Slugs.Model.Search Slugs.Model.ExampleTests

variable {B : Type} [DecidableEq B] [L : BddLib B]

/-- `slugs` tells what slugs prints for each file. -/
def IsSlugs (B : Type) [DecidableEq B] [BddLib B] (alg : Algorithm) (cap : Nat) (order : List Char → Bool) (slugs : List Char → Call) : Prop :=
  ∀ text, ∃ rounds, ∀ fuel, rounds ≤ fuel → Prints (runSlugs B alg false cap order fuel text) (slugs text)

/-- A file that slugs can read, if need be after compiling it. -/
def ProperExample (cap : Nat) (e : Example) : Prop :=
  if e.structured then (∃ S, SDenotes e.text S) ∧ ∀ out, convert false e.text = .ok out → ∀ l ∈ splitLines out, l.length ≤ cap else ProperFile cap e.text

/-! ### The copy of the compiled file -/

theorem copied_content {R L : List (List Char)} (h : Report.Ended R L) : ∀ {cur items}, Content cur L items →
    Content cur (splitLines ((R.map (· ++ ['\n'])).flatten)) items := by
  have add : ∀ {cur l L M items}, Content cur (l :: L) items → (∀ {cur items}, Content cur L items → Content cur M items) → Content cur (l :: M) items := by
    intro cur l L M items h hM
    cases h with
    | skip h1 h2 => exact .skip h1 (hM h2)
    | header s h1 h2 => exact .header s h1 (hM h2)
    | item h1 h2 h3 h4 => exact .item h1 h2 h3 (hM h4)
  induction h with
  | nil => intro cur items h; exact h
  | @last l _ hl =>
    intro cur items h
    have : splitLines (([l].map (· ++ ['\n'])).flatten) = [l] := by
      simp only [List.map_cons, List.map_nil, List.flatten_cons, List.flatten_nil, List.append_nil, splitLines]
      rw [splitLinesAux_line l [] [] hl]; rfl
    rw [this]
    exact h
  | @cons l R L hl _ ih =>
    intro cur items h
    have : splitLines ((((l ++ ['\n']) :: R).map (· ++ ['\n'])).flatten) = l :: [] :: splitLines ((R.map (· ++ ['\n'])).flatten) := by
      simp only [List.map_cons, List.flatten_cons, splitLines, List.append_assoc, List.singleton_append, List.cons_append, List.nil_append]
      rw [splitLinesAux_line l _ [] hl]
      rfl
    rw [this]
    exact add h fun h' => .skip (.inl rfl) (ih h')

theorem copied_denotes {out : List Char} {sp : SpecFile} (h : Denotes out sp) : Denotes (copied out) sp := by
  obtain ⟨items, h1, h2⟩ := h
  exact ⟨items, copied_content (Report.rawLines_ended out [] (by simp)) h1, h2⟩

theorem copied_proper {cap : Nat} {out : List Char} (h : ProperFile cap out) : ProperFile cap (copied out) := by
  obtain ⟨items, h1, h2⟩ := h
  exact ⟨items, copied_content (Report.rawLines_ended out [] (by simp)) h1, h2⟩

/-! ### The result of a call -/

theorem check_result {c : Call} {b : Bool} (h : Prints (.result b) c) : Search.checkRealizability c = some b := by
  obtain ⟨h1, h2⟩ := h
  rw [C64_script_verdict]
  refine ⟨h1, [txt!"SLUGS: SmaLl bUt complete Gr(1) Synthesis tool (see the documentation for an author list).\n"], [], _, h2, ?_, ?_⟩
  · cases b <;> decide
  · intro x hx
    simp only [List.append_nil, List.mem_singleton] at hx
    subst hx
    exact ⟨by decide, by decide⟩

/-- The result for a proper file in the format of slugs. -/
theorem check_plain {alg : Algorithm} {cap : Nat} {order : List Char → Bool} {slugs : List Char → Call} (hs : IsSlugs B alg cap order slugs) {text : List Char}
    {sp : SpecFile} (hp : ProperFile cap text) (hd : Denotes text sp) {b : Bool} (hb : b = true ↔ sp.game.Realizable) : Search.checkRealizability (slugs text) = some b := by
  obtain ⟨⟨tab, c⟩, hi⟩ := C24_proper_accepted (B := B) cap order text hp
  obtain ⟨rounds, hr⟩ := hs text
  have h1 := hr (max rounds (Nat.card (Pos sp.In sp.Out) + 1)) (Nat.le_max_left _ _)
  have h2 := C24_text_to_verdict alg hi sp hd _ (Nat.le_max_right rounds _)
  refine check_result ?_
  cases b with
  | true => rwa [h2.1 (hb.mp rfl)] at h1
  | false => rwa [h2.2.1 fun h => by have := hb.mpr h; cases this] at h1

theorem check_iff {alg : Algorithm} {cap : Nat} {order : List Char → Bool} {slugs : List Char → Call} (hs : IsSlugs B alg cap order slugs) (h32 : cap < 2 ^ 32)
    {e : Example} (hp : ProperExample cap e) : ∃ b, check slugs e = some b ∧ (b = true ↔ e.IsRealizable) := by
  classical
  refine ⟨decide e.IsRealizable, ?_, by simp⟩
  rcases e with ⟨str, text⟩
  cases str with
  | true =>
    obtain ⟨⟨S, hS⟩, hl⟩ := hp
    obtain ⟨out, h1, h2⟩ := convert_denotes false hS
    obtain ⟨sp, hd, hpf, ⟨f, g, he, _⟩, _⟩ := h2 cap (hl out h1) h32
    simp only [check, if_true, h1]
    refine check_plain hs (copied_proper hpf) (copied_denotes hd) ?_
    rw [decide_eq_true_eq, he.realizable]
    refine ⟨?_, fun h => ⟨S, hS, h⟩⟩
    rintro ⟨S', hS', h⟩
    obtain ⟨out', h1', h2'⟩ := convert_denotes false hS'
    have : out' = out := by rw [h1] at h1'; cases h1'; rfl
    subst this
    obtain ⟨sp', hd', _, ⟨f', g', he', _⟩, _⟩ := h2' cap (hl _ h1) h32
    rw [← he.realizable, ← Denotes.det hd' hd, he'.realizable]
    exact h
  | false =>
    have hp : ProperFile cap text := hp
    obtain ⟨⟨tab, c⟩, hi⟩ := C24_proper_accepted (B := B) cap order text hp
    obtain ⟨sp, hd, hu, _⟩ := C24_accepted_denotes hi
    simp only [check, Bool.false_eq_true, if_false]
    refine check_plain hs hp hd ?_
    rw [decide_eq_true_eq]
    exact ⟨fun ⟨sp', hd', h⟩ => hu sp' hd' ▸ h, fun h => ⟨sp, hd, h⟩⟩

/-! ### The script -/

/-- **C88.** If the files are proper, the script ends with "Done!" exactly if every example listed as realizable is realizable, and every example listed as unrealizable is
unrealizable.  This also holds for the structured examples, which are compiled and copied line by line. -/
theorem C88_done {alg : Algorithm} {cap : Nat} {order : List Char → Bool} {slugs : List Char → Call} (hs : IsSlugs B alg cap order slugs) (h32 : cap < 2 ^ 32)
    (realizable unrealizable : List Example) (hp : ∀ e ∈ realizable ++ unrealizable, ProperExample cap e) :
    runTests slugs (tests realizable unrealizable) = .done ↔ (∀ e ∈ realizable, e.IsRealizable) ∧ ∀ e ∈ unrealizable, ¬ e.IsRealizable := by
  have key : ∀ ts : List Test, (∀ t ∈ ts, ProperExample cap t.file) → (runTests slugs ts = .done ↔ ∀ t ∈ ts, t.Right) := by
    intro ts
    induction ts with
    | nil => intro _; simp [runTests]
    | cons t ts ih =>
      intro h
      obtain ⟨b, h1, h2⟩ := check_iff hs h32 (h t (List.mem_cons_self ..))
      rw [runTests, h1, List.forall_mem_cons, ← ih fun t ht => h t (List.mem_cons_of_mem _ ht), Test.Right, ← h2]
      by_cases hb : b = t.expected
      · simp [hb]
      · have : ¬ (t.expected = true ↔ b = true) := fun h => hb (Bool.eq_iff_iff.mpr h.symm)
        simp [hb, this]
  rw [key _ ?_, tests]
  · simp only [List.forall_mem_append, List.forall_mem_map, Test.Right, true_iff, Bool.false_eq_true, false_iff]
    exact and_comm
  · intro t ht
    rw [tests, List.mem_append, List.mem_map, List.mem_map] at ht
    rcases ht with ⟨e, he, rfl⟩ | ⟨e, he, rfl⟩
    · exact hp e (List.mem_append_right _ he)
    · exact hp e (List.mem_append_left _ he)

/-- **C88**, errors: the example that is reported is the first with an unexpected result, and the result that is reported is the right one. -/
theorem C88_failed {alg : Algorithm} {cap : Nat} {order : List Char → Bool} {slugs : List Char → Call} (hs : IsSlugs B alg cap order slugs) (h32 : cap < 2 ^ 32)
    {ts : List Test} (hp : ∀ t ∈ ts, ProperExample cap t.file) {t : Test} {found : Option Bool} (h : runTests slugs ts = .failed t found) :
    ∃ before after, ts = before ++ t :: after ∧ (∀ t' ∈ before, t'.Right) ∧ ¬ t.Right ∧ found = some (!t.expected) := by
  induction ts with
  | nil => rw [runTests] at h; cases h
  | cons t' ts ih =>
    obtain ⟨b, h1, h2⟩ := check_iff hs h32 (hp t' (List.mem_cons_self ..))
    rw [runTests, h1] at h
    split at h
    · rename_i hb
      cases h
      have hb : b ≠ t.expected := fun e => hb (by rw [e])
      refine ⟨[], ts, rfl, by simp, ?_, ?_⟩
      · rw [Test.Right, ← h2]
        exact fun h => hb (Bool.eq_iff_iff.mpr h.symm)
      · cases b <;> cases ht : t.expected <;> simp_all
    · rename_i hb
      obtain ⟨l, r, h3, h4, h5⟩ := ih (fun t ht => hp t (List.mem_cons_of_mem _ ht)) h
      have hb : b = t'.expected := by simpa using hb
      refine ⟨t' :: l, r, by rw [h3]; rfl, ?_, h5⟩
      intro x hx
      rcases List.mem_cons.mp hx with rfl | hx
      · rw [Test.Right, ← h2, hb]
      · exact h4 x hx

/-- **C88**, files that cannot be read: if the compiler fails for a structured example, or slugs refuses a file, the script does not end with "Done!". -/
theorem C88_refused {alg : Algorithm} {cap : Nat} {order : List Char → Bool} {slugs : List Char → Call} (hs : IsSlugs B alg cap order slugs) {ts : List Test} {t : Test}
    (ht : t ∈ ts) (h : (t.file.structured = true ∧ convert false t.file.text = .exc) ∨
      (t.file.structured = false ∧ ∃ err, initContext (B := B) cap order t.file.text = .err err)) : runTests slugs ts ≠ .done := by
  have hc : check slugs t.file = none := by
    rcases h with ⟨h1, h2⟩ | ⟨h1, err, h2⟩
    · rw [check, if_pos h1, h2]
    · rw [check, h1]
      simp only [Bool.false_eq_true, if_false]
      obtain ⟨rounds, hr⟩ := hs t.file.text
      have := hr rounds (Nat.le_refl _)
      rw [runSlugs, h2] at this
      have : (slugs t.file.text).code = 1 := this
      rw [Search.checkRealizability]
      simp [this]
  induction ts with
  | nil => cases ht
  | cons t' ts ih =>
    rw [runTests]
    rcases List.mem_cons.mp ht with rfl | ht
    · simp [hc]
    · split
      · exact fun h => by cases h
      · exact ih ht

/-- There is such a function: for every file, slugs has one outcome from some number of rounds on. -/
theorem exists_slugs (alg : Algorithm) (cap : Nat) (order : List Char → Bool) : ∃ slugs, IsSlugs B alg cap order slugs := by
  have key : ∀ text, ∃ c : Call, ∃ rounds, ∀ fuel, rounds ≤ fuel → Prints (runSlugs B alg false cap order fuel text) c := by
    intro text
    cases hi : initContext (B := B) cap order text with
    | ok r =>
      obtain ⟨tab, c⟩ := r
      obtain ⟨sp, hd, _⟩ := C24_accepted_denotes hi
      by_cases hr : sp.game.Realizable
      · refine ⟨⟨[txt!"SLUGS: SmaLl bUt complete Gr(1) Synthesis tool (see the documentation for an author list).\n", txt!"RESULT: Specification is realizable.\n"], 0⟩, Nat.card (Pos sp.In sp.Out) + 1, fun fuel hf => ?_⟩
        rw [(C24_text_to_verdict alg hi sp hd fuel hf).1 hr]
        exact ⟨rfl, rfl⟩
      · refine ⟨⟨[txt!"SLUGS: SmaLl bUt complete Gr(1) Synthesis tool (see the documentation for an author list).\n", txt!"RESULT: Specification is unrealizable.\n"], 0⟩, Nat.card (Pos sp.In sp.Out) + 1, fun fuel hf => ?_⟩
        rw [(C24_text_to_verdict alg hi sp hd fuel hf).2.1 hr]
        exact ⟨rfl, rfl⟩
    | err e => exact ⟨⟨[], 1⟩, 0, fun fuel _ => by rw [runSlugs, hi]; rfl⟩
    | ub => exact ⟨⟨[], 1⟩, 0, fun fuel _ => by rw [runSlugs, hi]; trivial⟩
    | stuck => exact ⟨⟨[], 1⟩, 0, fun fuel _ => by rw [runSlugs, hi]; trivial⟩
  exact ⟨fun text => Classical.choose (key text), fun text => Classical.choose_spec (key text)⟩

/-! ### Examples -/

theorem counter_example : ProperExample 1000 ⟨true, counterText⟩ ∧ (⟨true, counterText⟩ : Example).IsRealizable :=
  ⟨⟨⟨counter, counter_denotes⟩, fun out h => by
    rw [counter_out] at h
    cases h
    decide +kernel⟩, counter, counter_denotes, counter_realizable⟩

theorem unlucky_example : ProperExample 1000 ⟨false, unluckyText⟩ ∧ ¬ (⟨false, unluckyText⟩ : Example).IsRealizable := by
  refine ⟨unlucky_proper, ?_⟩
  rintro ⟨sp, hd, h⟩
  rw [Denotes.det hd unlucky_denotes] at h
  obtain ⟨_, _, _, _, h'⟩ := C69_controllable_input
  exact h' h

/-- The script ends with "Done!" for a realizable structured example and an unrealizable one. -/
example {slugs : List Char → Call} (hs : IsSlugs B .standard 1000 (fun _ => false) slugs) :
    runTests slugs (tests [⟨true, counterText⟩] [⟨false, unluckyText⟩]) = .done ∧ runTests slugs (tests [⟨false, unluckyText⟩] [⟨true, counterText⟩]) ≠ .done := by
  rw [C88_done hs (by decide) _ _ (by simp [counter_example.1, unlucky_example.1]), Ne, C88_done hs (by decide) _ _ (by simp [counter_example.1, unlucky_example.1])]
  simp [counter_example.2, unlucky_example.2]

/-- The copy of a compiled file. -/
example : copied txt!"[INPUT]\na\n" = txt!"[INPUT]\n\na\n\n" := by decide +kernel

end Slugs.Props
