import Verif.Lemmas.SlugsFuzzer
import Verif.Lemmas.NuSmvRead

/-! The files that the fuzzer of slugs generates. -/

namespace Slugs.Model.SlugsFuzzer

open Slugs.Spec Slugs.Spec.LtlText
open Slugs.Model.Structured (printLines splitLines_printLines)
open Slugs.Model.AisyFuzzer (Draws several)

/-- The text of a constraint. -/
def constraintText : Ltl → List Char
  | .globally (.eventually f) => txt!"[]<>(" ++ ltlText f ++ txt!")"
  | .globally f => txt!"[](" ++ ltlText f ++ txt!")"
  | _ => []

/-- A constraint that is generated. -/
def Part (c : Ltl) : Prop := ∃ f later, later ⊆ aps ∧ Ltl.Random aps later f ∧ (c = .globally f ∨ later = [] ∧ c = .globally (.eventually f))

theorem constraintText_always {f : Ltl} {now later : List Word} (h : f.Random now later) : constraintText (.globally f) = txt!"[](" ++ ltlText f ++ txt!")" := by
  cases f <;> first | rfl | exact h.elim

theorem role_always {f : Ltl} {now later : List Word} (h : f.Random now later) : (Ltl.globally f).role = (.safety, f) := by
  cases f <;> first | rfl | exact h.elim

theorem lexes_part {c : Ltl} (h : Part c) : ∃ ts, Always (constraintText c) ts ∧ Infix 5 ts c ∧ PlainNames ts ∧ '\n' ∉ constraintText c ∧ ∃ body, constraintText c = '[' :: body ++ [')'] := by
  obtain ⟨f, later, h1, h2, rfl | ⟨rfl, rfl⟩⟩ := h
  · obtain ⟨ts, i1, i2, i3, i4⟩ := lexes_formula f _ _ (List.Subset.refl aps) h1 h2
    rw [constraintText_always h2]
    refine ⟨[charTok '[', charTok ']'] ++ (charTok '(' :: ts ++ [charTok ')']), ?_, infix_le (by omega) (by omega) (.globally (by decide) (infix_brackets (by omega)
      (infix_le (by omega) (by omega) i2))), plain_append (plain_of (by decide)) (plain_append (plain_append (ts := [charTok '(']) (plain_of (by decide)) i3) (plain_of (by decide))),
      by simpa using i4, txt!"](" ++ ltlText f, by simp⟩
    have k1 : Always (txt!")") [charTok ')'] := .char (by decide) (by decide) .nil
    have k2 : Always (ltlText f ++ txt!")") (ts ++ [charTok ')']) := i1.then (by decide) k1
    have k3 : Always (txt!"[](" ++ (ltlText f ++ txt!")")) (charTok '[' :: charTok ']' :: charTok '(' :: (ts ++ [charTok ')'])) :=
      .char (by decide) (by decide) (.char (by decide) (by decide) (.char (by decide) (by decide) k2))
    simpa using k3
  · obtain ⟨ts, i1, i2, i3, i4⟩ := lexes_formula f _ _ (List.Subset.refl aps) h1 h2
    refine ⟨[charTok '[', charTok ']'] ++ ([charTok '<', charTok '>'] ++ (charTok '(' :: ts ++ [charTok ')'])), ?_, infix_le (by omega) (by omega) (.globally (by decide) (.eventually (by decide)
      (infix_brackets (by omega) (infix_le (by omega) (by omega) i2)))), plain_append (plain_of (by decide)) (plain_append (plain_of (by decide))
      (plain_append (plain_append (ts := [charTok '(']) (plain_of (by decide)) i3) (plain_of (by decide)))), by simpa [constraintText] using i4, txt!"]<>(" ++ ltlText f, by simp [constraintText]⟩
    have k1 : Always (txt!")") [charTok ')'] := .char (by decide) (by decide) .nil
    have k2 : Always (ltlText f ++ txt!")") (ts ++ [charTok ')']) := i1.then (by decide) k1
    have k3 : Always (txt!"[]<>(" ++ (ltlText f ++ txt!")")) (charTok '[' :: charTok ']' :: charTok '<' :: charTok '>' :: charTok '(' :: (ts ++ [charTok ')'])) :=
      .char (by decide) (by decide) (.char (by decide) (by decide) (.char (by decide) (by decide) (.char (by decide) (by decide) (.char (by decide) (by decide) k2))))
    simpa [constraintText] using k3

/-- A conjunction. -/
def conj (cs : List Ltl) : Ltl := cs.foldl .and .tt

/-- The lines for a conjunction, as they are written. -/
def blockLines : List Ltl → List (List Char)
  | [] => [txt!"\t\tTRUE  );"]
  | c :: cs => (txt!"\t\tTRUE    &  " ++ constraintText c) :: (cs.map (fun c => txt!"  &  " ++ constraintText c) ++ [txt!");"])

/-- The lines for a conjunction, without white space around them. -/
def blockTrimmed : List Ltl → List (List Char)
  | [] => [txt!"TRUE  );"]
  | c :: cs => (txt!"TRUE    &  " ++ constraintText c) :: (cs.map (fun c => txt!"&  " ++ constraintText c) ++ [txt!");"])

theorem block_text (cs : List Ltl) : printLines (blockLines cs) = txt!"\t\tTRUE  " ++ cs.flatMap (fun c => txt!"  &  " ++ constraintText c ++ ['\n']) ++ txt!");\n" := by
  have h : ∀ cs : List Ltl, printLines (cs.map (fun c => txt!"  &  " ++ constraintText c) ++ [txt!");"]) = cs.flatMap (fun c => txt!"  &  " ++ constraintText c ++ ['\n']) ++ txt!");\n" := by
    intro cs
    induction cs with
    | nil => rfl
    | cons c cs ih =>
      rw [List.map_cons, List.cons_append, printLines, ih, List.flatMap_cons]
      simp only [List.append_assoc, List.singleton_append, List.cons_append, List.nil_append]
  cases cs with
  | nil => rfl
  | cons c cs => rw [blockLines, printLines, h]; simp

theorem trim_core {a s : List Char} {x : Char} {body : List Char} (ha : ∀ c ∈ a, isSpace c = true) (hs : s = x :: body ++ [')']) (hx : isSpace x = false) : trim (a ++ s) = s := by
  have := Slugs.Model.NuSmv.trim_eq (a := a) (s := s) (b := []) ha (by simp) (by subst hs; simpa using hx) (by subst hs; simp [List.getLast?_cons, List.getLast?_append]; decide) (by subst hs; simp)
  simpa using this

theorem block_trim {cs : List Ltl} (h : ∀ c ∈ cs, Part c) : (blockLines cs).map trim = blockTrimmed cs := by
  cases cs with
  | nil => decide
  | cons c cs =>
    obtain ⟨-, -, -, -, -, body, hb⟩ := lexes_part (h c (by simp))
    rw [blockLines, blockTrimmed, List.map_cons, List.map_append, List.map_map]
    congr 1
    · exact trim_core (a := txt!"\t\t") (s := txt!"TRUE    &  " ++ constraintText c) (x := 'T') (body := txt!"RUE    &  [" ++ body) (by decide) (by rw [hb]; simp) (by decide)
    · congr 1
      refine List.map_congr_left fun d hd => ?_
      obtain ⟨-, -, -, -, -, body, hb⟩ := lexes_part (h d (by simp [hd]))
      exact trim_core (a := txt!"  ") (s := txt!"&  " ++ constraintText d) (x := '&') (body := txt!"  [" ++ body) (by decide) (by rw [hb]; simp) (by decide)

theorem block_heads (cs : List Ltl) : ∀ l ∈ blockTrimmed cs, l.head? ≠ some 'L' := by
  cases cs with
  | nil => decide
  | cons c cs =>
    intro l hl
    simp only [blockTrimmed, List.mem_cons, List.mem_append, List.mem_map, List.not_mem_nil, or_false] at hl
    rcases hl with rfl | ⟨d, -, rfl⟩ | rfl
    · simp
    · simp
    · simp

theorem block_clean {cs : List Ltl} (h : ∀ c ∈ cs, Part c) : ∀ l ∈ blockLines cs, '\n' ∉ l := by
  cases cs with
  | nil => decide
  | cons c cs =>
    intro l hl
    simp only [blockLines, List.mem_cons, List.mem_append, List.mem_map, List.not_mem_nil, or_false] at hl
    rcases hl with rfl | ⟨d, hd, rfl⟩ | rfl
    · obtain ⟨-, -, -, -, hn, -⟩ := lexes_part (h c (by simp))
      simpa using hn
    · obtain ⟨-, -, -, -, hn, -⟩ := lexes_part (h d (by simp [hd]))
      simpa using hn
    · decide

/-- The text of a conjunction, with the lines put together. -/
def wholeText (cs : List Ltl) : List Char := (txt!"(" :: blockTrimmed cs).flatMap (' ' :: ·)

theorem lexes_rest : ∀ (cs : List Ltl), (∀ c ∈ cs, Part c) → ∃ us, Always ((cs.map (fun c => txt!"&  " ++ constraintText c)).flatMap (' ' :: ·)) us ∧ PlainNames us ∧
    ∀ vs φ, Infix 4 vs φ → Infix 4 (vs ++ us) (cs.foldl .and φ)
  | [], _ => ⟨[], .nil, plain_of (by simp), fun vs φ h => by simpa using h⟩
  | c :: cs, h => by
    obtain ⟨ts, i1, i2, i3, -⟩ := lexes_part (h c (by simp))
    obtain ⟨us, j1, j2, j3⟩ := lexes_rest cs (fun d hd => h d (by simp [hd]))
    refine ⟨charTok '&' :: ts ++ us, ?_, plain_append (plain_append (ts := [charTok '&']) (plain_of (by decide)) i3) j2, fun vs φ hv => ?_⟩
    · have k1 : Always (txt!" &  " ++ (constraintText c ++ (cs.map (fun c => txt!"&  " ++ constraintText c)).flatMap (' ' :: ·))) (charTok '&' :: (ts ++ us)) :=
        .space (by decide) (.char (by decide) (by decide) (.space (by decide) (.space (by decide) (i1.append j1))))
      simpa using k1
    · have := j3 (vs ++ [charTok '&'] ++ ts) (.and φ c) (.and hv (by decide) i2)
      simpa using this

theorem isFormula_whole {cs : List Ltl} (h : ∀ c ∈ cs, Part c) : IsFormula (wholeText cs) (conj cs) := by
  have hend : Always (txt!" );") [charTok ')', charTok ';'] := .space (by decide) (.char (by decide) (by decide) (.char (by decide) (by decide) .nil))
  have htt : Infix 4 [wordTok txt!"TRUE"] .tt := infix_le (by omega) (le_refl 7) (.tt rfl)
  have fin : ∀ us : List Tok, ∀ φ : Ltl, Infix 4 ([wordTok txt!"TRUE"] ++ us) φ → PlainNames us → ∀ text, Always text us → ∀ c s, text ++ txt!" );" = c :: s → wordChar c = false →
      IsFormula (txt!" ( TRUE" ++ (text ++ txt!" );")) φ := by
    intro us φ h1 h2 text h3 c s hcs hc
    have k1 : Always (text ++ txt!" );") (us ++ [charTok ')', charTok ';']) := h3.append hend
    rw [hcs] at k1
    have k2 := (opens_word (w := txt!"TRUE") (by decide) (by decide)).then hc k1
    have k3 : Always (txt!" ( " ++ (txt!"TRUE" ++ c :: s)) (charTok '(' :: ([wordTok txt!"TRUE"] ++ (us ++ [charTok ')', charTok ';']))) :=
      .space (by decide) (.char (by decide) (by decide) (.space (by decide) k2))
    have k4 := k3 [] [] .nil
    refine ⟨charTok '(' :: ([wordTok txt!"TRUE"] ++ us) ++ [charTok ')'], charTok ';', ?_, plain_append (plain_append (ts := [charTok '(', wordTok txt!"TRUE"]) (plain_of (by decide)) h2)
      (plain_of (by decide)), infix_brackets (by omega) (infix_le (by omega) (by omega) h1), rfl⟩
    rw [hcs]
    simpa using k4
  cases cs with
  | nil =>
    have := fin [] .tt (by simpa using htt) (plain_of (by simp)) (txt!" ") (.space (by decide) .nil) ' ' txt!" );" rfl (by decide)
    exact this
  | cons c cs =>
    obtain ⟨ts, i1, i2, i3, -⟩ := lexes_part (h c (by simp))
    obtain ⟨us, j1, j2, j3⟩ := lexes_rest cs (fun d hd => h d (by simp [hd]))
    have k1 : Always (txt!"    &  " ++ (constraintText c ++ (cs.map (fun c => txt!"&  " ++ constraintText c)).flatMap (' ' :: ·))) (charTok '&' :: (ts ++ us)) :=
      .space (by decide) (.space (by decide) (.space (by decide) (.space (by decide) (.char (by decide) (by decide) (.space (by decide) (.space (by decide) (i1.append j1)))))))
    have k2 := j3 _ _ (.and htt (show [charTok '&'].map Tok.kind ∈ _ by decide) i2)
    have := fin (charTok '&' :: (ts ++ us)) (conj (c :: cs)) (by simpa [conj] using k2)
      (plain_append (ts := [charTok '&']) (plain_of (by decide)) (plain_append i3 j2)) _ k1 ' ' _ rfl (by decide)
    have he : wholeText (c :: cs) = txt!" ( TRUE" ++ ((txt!"    &  " ++ (constraintText c ++ (cs.map (fun c => txt!"&  " ++ constraintText c)).flatMap (' ' :: ·))) ++ txt!" );") := by
      simp [wholeText, blockTrimmed]
    rw [he]
    exact this

/-! ### The LTL file -/

/-- The file for assumptions and guarantees. -/
def ltlFileOf (as gs : List Ltl) : List Char :=
  txt!"LTLSPEC -- Assumptions\n\t( \n\t\tTRUE  " ++ as.flatMap (fun c => txt!"  &  " ++ constraintText c ++ ['\n']) ++ txt!");\n" ++
  (txt!"LTLSPEC -- Guarantees\n\t( \n\t\tTRUE  " ++ gs.flatMap (fun c => txt!"  &  " ++ constraintText c ++ ['\n']) ++ txt!");\n")

theorem headers_no {l : List Char} (h : l.head? ≠ some 'L') : l ∉ [txt!"LTLSPEC -- Assumptions", txt!"LTLSPEC -- Guarantees"] := by
  intro hm
  simp only [List.mem_cons, List.not_mem_nil, or_false] at hm
  rcases hm with rfl | rfl <;> exact h rfl

theorem parts_assumptions {rest as gs : List (List Char)} (h : LtlParts (some false) rest as gs) : ∀ ls : List (List Char), (∀ l ∈ ls, (trim l).head? ≠ some 'L') →
    LtlParts (some false) (ls ++ rest) (ls.map trim ++ as) gs
  | [], _ => h
  | l :: ls, hl => .assumption (headers_no (hl l (by simp))) (parts_assumptions h ls fun m hm => hl m (by simp [hm]))

theorem parts_guarantees {rest as gs : List (List Char)} (h : LtlParts (some true) rest as gs) : ∀ ls : List (List Char), (∀ l ∈ ls, (trim l).head? ≠ some 'L') →
    LtlParts (some true) (ls ++ rest) as (ls.map trim ++ gs)
  | [], _ => h
  | l :: ls, hl => .guarantee (headers_no (hl l (by simp))) (parts_guarantees h ls fun m hm => hl m (by simp [hm]))

theorem printLines_append : ∀ a b : List (List Char), printLines (a ++ b) = printLines a ++ printLines b
  | [], _ => rfl
  | l :: a, b => by simp [printLines, printLines_append a b]

theorem ltlFile_of {as gs : List Ltl} (ha : ∀ c ∈ as, Part c) (hg : ∀ c ∈ gs, Part c) : LtlFile (ltlFileOf as gs) (wholeText as) (wholeText gs) := by
  have ht : ltlFileOf as gs = printLines (txt!"LTLSPEC -- Assumptions" :: (txt!"\t( " :: blockLines as) ++ (txt!"LTLSPEC -- Guarantees" :: (txt!"\t( " :: blockLines gs) ++ [])) := by
    rw [printLines_append, List.append_nil, printLines, printLines, printLines, printLines, block_text, block_text]
    simp [ltlFileOf]
  have hl : ∀ cs : List Ltl, (∀ c ∈ cs, Part c) → ∀ l ∈ txt!"\t( " :: blockLines cs, (trim l).head? ≠ some 'L' := by
    intro cs hcs l hl
    rcases List.mem_cons.mp hl with rfl | hl
    · decide
    · exact block_heads cs (trim l) (block_trim hcs ▸ List.mem_map_of_mem hl)
  refine ⟨txt!"(" :: blockTrimmed as, txt!"(" :: blockTrimmed gs, ?_, rfl, rfl⟩
  rw [ht, splitLines_printLines]
  · refine .assumptions (by decide) ?_
    have h2 : LtlParts (some true) ((txt!"\t( " :: blockLines gs) ++ []) [] (txt!"(" :: blockTrimmed gs) := by
      have := parts_guarantees .nil _ (hl gs hg)
      rw [List.map_cons, block_trim hg] at this
      simpa [show trim txt!"\t( " = txt!"(" by decide] using this
    have h1 := parts_assumptions (.guarantees (cur := some false) (l := txt!"LTLSPEC -- Guarantees") (by decide) h2) _ (hl as ha)
    rw [List.map_cons, block_trim ha, show trim txt!"\t( " = txt!"(" by decide, List.append_nil (as := _ :: blockTrimmed as)] at h1
    exact h1
  · intro l hm
    simp only [List.cons_append, List.mem_cons, List.mem_append, List.append_nil] at hm
    rcases hm with rfl | rfl | hm | rfl | rfl | hm
    · decide
    · decide
    · exact block_clean ha l hm
    · decide
    · decide
    · exact block_clean hg l hm

theorem Random.mono : ∀ {f : Ltl} {now later now' later' : List Word}, f.Random now later → now ⊆ now' → later ⊆ later' → f.Random now' later' := by
  intro f
  induction f with
  | tt => intros; trivial
  | lit x v => rintro now later now' later' ⟨h1, h2⟩ h3 _; exact ⟨h1, h3 h2⟩
  | not f ih => intro now later now' later' h h1 h2; exact ih (now := now) (later := later) h h1 h2
  | next f ih =>
    rintro now later now' later' ⟨h1, h2⟩ _ h3
    refine ⟨fun he => h1 (List.subset_nil.mp (he ▸ h3)), ih h2 h3 (by simp)⟩
  | and f g ihf ihg => rintro now later now' later' ⟨h1, h2⟩ h3 h4; exact ⟨ihf h1 h3 h4, ihg h2 h3 h4⟩
  | or f g ihf ihg => rintro now later now' later' ⟨h1, h2⟩ h3 h4; exact ⟨ihf h1 h3 h4, ihg h2 h3 h4⟩
  | _ => intro now later now' later' h; exact h.elim

theorem oneStep_of : ∀ {f : Ltl} {now later : List Word} {nx : Bool}, f.Random now later → (nx = true → later = []) → f.OneStep nx := by
  intro f
  induction f with
  | tt => intros; trivial
  | lit x v => intros; trivial
  | not f ih => intro now later nx h h1; exact ih (now := now) (later := later) h h1
  | next f ih =>
    rintro now later nx ⟨h1, h2⟩ h3
    refine ⟨?_, ih h2 (fun _ => rfl)⟩
    cases nx with
    | false => rfl
    | true => exact absurd (h3 rfl) h1
  | and f g ihf ihg => rintro now later nx ⟨h1, h2⟩ h3; exact ⟨ihf h1 h3, ihg h2 h3⟩
  | or f g ihf ihg => rintro now later nx ⟨h1, h2⟩ h3; exact ⟨ihf h1 h3, ihg h2 h3⟩
  | _ => intro now later nx h; exact h.elim

theorem uses_of : ∀ {f : Ltl} {now later : List Word} {nx : Bool}, f.Random now later → ∀ u ∈ f.uses nx, u.1 ∈ now ∧ u.2 = nx ∨ u.1 ∈ later ∧ u.2 = true := by
  intro f
  induction f with
  | tt => intro _ _ _ _ u hu; simp [Ltl.uses] at hu
  | lit x v => rintro now later nx ⟨_, h⟩ u hu; simp only [Ltl.uses, List.mem_singleton] at hu; subst hu; exact .inl ⟨h, rfl⟩
  | not f ih => intro now later nx h u hu; exact ih (now := now) (later := later) h u hu
  | next f ih =>
    rintro now later nx ⟨_, h⟩ u hu
    rcases ih h u hu with h | h
    · exact .inr h
    · simp at h
  | and f g ihf ihg =>
    rintro now later nx ⟨h1, h2⟩ u hu
    rcases List.mem_append.mp hu with hu | hu
    · exact ihf h1 u hu
    · exact ihg h2 u hu
  | or f g ihf ihg =>
    rintro now later nx ⟨h1, h2⟩ u hu
    rcases List.mem_append.mp hu with hu | hu
    · exact ihf h1 u hu
    · exact ihg h2 u hu
  | _ => intro now later nx h; exact h.elim

theorem positive_of : ∀ {f : Ltl} {now later : List Word}, f.Random now later → f.Positive := by
  intro f
  induction f with
  | tt => intros; trivial
  | lit x v => rintro now later ⟨rfl, _⟩; simp [Ltl.Positive]
  | not f ih => intro now later h; exact ih (now := now) (later := later) h
  | next f ih => rintro now later ⟨_, h⟩; exact ih h
  | and f g ihf ihg => rintro now later ⟨h1, h2⟩; exact ⟨ihf h1, ihg h2⟩
  | or f g ihf ihg => rintro now later ⟨h1, h2⟩; exact ⟨ihf h1, ihg h2⟩
  | _ => intro now later h; exact h.elim

theorem conjuncts_foldl {φ : Ltl} : ∀ {cs : List Ltl}, (∀ c ∈ cs, c.conjuncts = [c]) → (cs.foldl .and φ).conjuncts = φ.conjuncts ++ cs := by
  intro cs
  induction cs generalizing φ with
  | nil => intro _; simp
  | cons c cs ih =>
    intro h
    rw [List.foldl_cons, ih (fun d hd => h d (by simp [hd])), Ltl.conjuncts, h c (by simp)]
    simp

theorem uses_foldl {φ : Ltl} {nx : Bool} {cs : List Ltl} : (cs.foldl .and φ).uses nx = φ.uses nx ++ cs.flatMap (·.uses nx) := by
  induction cs generalizing φ with
  | nil => simp
  | cons c cs ih => rw [List.foldl_cons, ih]; simp [Ltl.uses]

theorem positive_foldl {φ : Ltl} {cs : List Ltl} : (cs.foldl .and φ).Positive ↔ φ.Positive ∧ ∀ c ∈ cs, c.Positive := by
  induction cs generalizing φ with
  | nil => simp
  | cons c cs ih => rw [List.foldl_cons, ih]; simp [Ltl.Positive, and_assoc]

theorem holds_foldl {σ : Nat → Word → Bool} {n : Nat} {φ : Ltl} {cs : List Ltl} : (cs.foldl .and φ).Holds σ n ↔ φ.Holds σ n ∧ ∀ c ∈ cs, c.Holds σ n := by
  induction cs generalizing φ with
  | nil => simp
  | cons c cs ih => rw [List.foldl_cons, ih]; simp [Ltl.Holds, and_assoc]

theorem holds_conj {σ : Nat → Word → Bool} {n : Nat} {cs : List Ltl} : (conj cs).Holds σ n ↔ ∀ c ∈ cs, c.Holds σ n := by
  rw [conj, holds_foldl]; simp [Ltl.Holds]

end Slugs.Model.SlugsFuzzer
