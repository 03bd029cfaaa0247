import Verif.Lemmas.StructuredLex
import Verif.Lemmas.StructuredCompile
import Verif.Lemmas.Parser

/-!
Which constraints are taken for formulas in the notation of slugs (`isPrefixLine`): all that are, and of the formulas in infix notation only those for which the two
notations agree.
-/

namespace Slugs.Model.Structured

open Slugs.Spec Slugs.Spec.Structured

/-! ### Words separated by blanks -/

theorem isSpace_py {c : Char} (h : isSpace c = true) : pySpace c = true := by
  simp only [isSpace, Bool.or_eq_true, beq_iff_eq] at h
  rcases h with ((((rfl | rfl) | rfl) | rfl) | rfl) | rfl <;> decide

theorem splitAux_blank (cur : List Char) (cs : List Char) : splitAux txt!" " 0 cur (' ' :: cs) = cur.reverse :: splitAux txt!" " 0 [] cs := by
  rw [splitAux, if_pos (by simp [List.isPrefixOf])]
  rfl

theorem splitAux_other (cur : List Char) {c : Char} (hc : c ≠ ' ') (cs : List Char) : splitAux txt!" " 0 cur (c :: cs) = splitAux txt!" " 0 (c :: cur) cs := by
  rw [splitAux, if_neg (by simp [List.isPrefixOf, Ne.symm hc])]

theorem splitAux_word (rest : List Char) : ∀ (w cur : List Char), ' ' ∉ w → splitAux txt!" " 0 cur (w ++ rest) = splitAux txt!" " 0 (w.reverse ++ cur) rest
  | [], cur, _ => by simp
  | c :: w, cur, h => by
    rw [List.mem_cons, not_or] at h
    rw [List.cons_append, splitAux_other _ (Ne.symm h.1), splitAux_word rest w _ h.2]
    simp

/-- The words of a line, separated by blanks. -/
def blankWords (s : List Char) : List Word := (split txt!" " s).filter (· ≠ [])

theorem blankWords_nil : blankWords [] = [] := by decide

theorem blankWords_blank (s : List Char) : blankWords (' ' :: s) = blankWords s := by
  rw [blankWords, split, splitAux_blank]
  simp [blankWords, split]

theorem blankWords_blanks (s : List Char) : ∀ sp : List Char, (∀ c ∈ sp, c = ' ') → blankWords (sp ++ s) = blankWords s
  | [], _ => rfl
  | c :: sp, h => by
    rw [List.forall_mem_cons] at h
    rw [List.cons_append, h.1, blankWords_blank, blankWords_blanks s sp h.2]

theorem blankWords_word {w : Word} (hw : w ≠ []) (hb : ' ' ∉ w) (rest : List Char) (hr : rest = [] ∨ ∃ r, rest = ' ' :: r) :
    blankWords (w ++ rest) = w :: blankWords rest := by
  rw [blankWords, split, splitAux_word rest w [] hb]
  rcases hr with rfl | ⟨r, rfl⟩
  · simp [splitAux, hw, blankWords, split]
  · rw [splitAux_blank, blankWords_blank]
    simp [hw, blankWords, split]

theorem blankWords_start {inp w rest : List Char} (h : StartsWithWord inp w rest) (hb : ∀ c ∈ inp, isSpace c → c = ' ') :
    blankWords inp = w :: blankWords rest := by
  obtain ⟨sp, rfl, h1, h2, h3, h4⟩ := h
  rw [List.append_assoc, blankWords_blanks _ sp fun c hc => hb c (by simp [hc]) (h1 c hc)]
  refine blankWords_word h2 (fun hm => ?_) rest ?_
  · have := h3 _ hm
    revert this; decide
  · cases rest with
    | nil => exact .inl rfl
    | cons c r => exact .inr ⟨r, by rw [hb c (by simp) (h4 c rfl)]⟩

theorem start_mem {inp w rest : List Char} (h : StartsWithWord inp w rest) : ∀ c ∈ rest, c ∈ inp := by
  obtain ⟨sp, rfl, _⟩ := h
  intro c hc; simp [hc]

theorem blankWords_spaces {s : List Char} (h : ∀ c ∈ s, c = ' ') : blankWords s = [] := by
  have := blankWords_blanks [] s h
  rwa [List.append_nil, blankWords_nil] at this

/-! ### Formulas in the notation of slugs -/

/-- No buffers. -/
def Flat : Fml → Prop
  | .const _ => True
  | .var _ => True
  | .not f => Flat f
  | .bin _ f g => Flat f ∧ Flat g
  | _ => False

/-- Reading words (without buffers there is no limit on their number). -/
theorem reads_flat : ∀ (f : Fml) {inp rest : List Char}, Flat f → Spells inp f.words rest → (∀ x ∈ f.vars, x ∉ reserved) → Reads inp f rest
  | .const true, _, _, _, h, _ => by
    simp only [Fml.words] at h
    cases h with | cons h1 h2 => cases h2; exact .true h1
  | .const false, _, _, _, h, _ => by
    simp only [Fml.words] at h
    cases h with | cons h1 h2 => cases h2; exact .false h1
  | .var x, _, _, _, h, hv => by
    simp only [Fml.words] at h
    cases h with | cons h1 h2 => cases h2; exact .var h1 (hv x (by simp [Fml.vars]))
  | .not f, _, _, hf, h, hv => by
    simp only [Fml.words] at h
    cases h with
    | cons h1 h2 => exact .not h1 (reads_flat f hf h2 (by simpa [Fml.vars] using hv))
  | .bin op f g, _, _, hf, h, hv => by
    simp only [Fml.words] at h
    cases h with
    | cons h1 h2 =>
      obtain ⟨r, h3, h4⟩ := h2.split
      exact .bin h1 (reads_flat f hf.1 h3 (fun x hx => hv x (by simp [Fml.vars, hx]))) (reads_flat g hf.2 h4 (fun x hx => hv x (by simp [Fml.vars, hx])))
  | .buffer _, _, _, hf, _, _ => hf.elim
  | .recall _, _, _, hf, _, _ => hf.elim

theorem numbers_mem {inp rest : List Char} {n : Nat} (h : StartsWithNumber inp n rest) : ∀ c ∈ rest, c ∈ inp := by
  obtain ⟨sp, sign, ds, rfl, _⟩ := h
  intro c hc; simp [hc]

mutual

theorem reads_mem : ∀ (φ : Fml) {inp rest : List Char}, Reads inp φ rest → ∀ c ∈ rest, c ∈ inp
  | .const _, _, _, h => by cases h with | true h => exact start_mem h | false h => exact start_mem h
  | .var _, _, _, h => by cases h with | var h _ => exact start_mem h
  | .not f, _, _, h => by cases h with | not h h2 => exact fun c hc => start_mem h c (reads_mem f h2 c hc)
  | .bin _ f g, _, _, h => by cases h with | bin h h2 h3 => exact fun c hc => start_mem h c (reads_mem f h2 c (reads_mem g h3 c hc))
  | .buffer fs, _, _, h => by cases h with | buffer h h2 h3 => exact fun c hc => start_mem h c (numbers_mem h2 c (readsN_mem fs h3 c hc))
  | .recall _, _, _, h => by cases h with | «recall» h h2 => exact fun c hc => start_mem h c (numbers_mem h2 c hc)

theorem readsN_mem : ∀ (fs : List Fml) {inp rest : List Char} {n : Nat}, ReadsN n inp fs rest → ∀ c ∈ rest, c ∈ inp
  | [], _, _, _, h => by cases h; exact fun _ h => h
  | f :: fs, _, _, _, h => by cases h with | cons h h2 => exact fun c hc => reads_mem f h c (readsN_mem fs h2 c hc)

end

theorem reads_words : ∀ (φ : Fml) {inp rest : List Char}, Reads inp φ rest → (∀ c ∈ inp, isSpace c → c = ' ') → φ.Wf 0 →
    txt!"$" ∈ blankWords inp ∨ (blankWords inp = φ.words ++ blankWords rest ∧ Flat φ ∧ ∀ x ∈ φ.vars, x ∉ reserved)
  | .const b, inp, rest, h, hb, _ => by
    right
    cases h with
    | true h => exact ⟨by rw [blankWords_start h hb]; rfl, trivial, by simp [Fml.vars]⟩
    | false h => exact ⟨by rw [blankWords_start h hb]; rfl, trivial, by simp [Fml.vars]⟩
  | .var x, inp, rest, h, hb, _ => by
    right
    cases h with
    | var h hx => exact ⟨by rw [blankWords_start h hb]; rfl, trivial, by simpa [Fml.vars] using hx⟩
  | .not f, inp, rest, h, hb, hw => by
    cases h with
    | not h h2 =>
      rw [Fml.Wf] at hw
      rw [blankWords_start h hb]
      rcases reads_words f h2 (fun c hc => hb c (start_mem h c hc)) hw with h3 | ⟨h3, h4, h5⟩
      · exact .inl (List.mem_cons_of_mem _ h3)
      · right
        refine ⟨by rw [h3, Fml.words]; rfl, h4, by rw [Fml.vars]; exact h5⟩
  | .bin op f g, inp, rest, h, hb, hw => by
    cases h with
    | @bin _ r r' _ _ _ _ h h2 h3 =>
      rw [Fml.Wf] at hw
      rw [blankWords_start h hb]
      have hb1 : ∀ c ∈ r, isSpace c → c = ' ' := fun c hc => hb c (start_mem h c hc)
      rcases reads_words f h2 hb1 hw.1 with h4 | ⟨h4, h5, h6⟩
      · exact .inl (List.mem_cons_of_mem _ h4)
      · have hr : ∀ c ∈ r', isSpace c → c = ' ' := fun c hc => hb1 c (reads_mem f h2 c hc)
        rcases reads_words g h3 hr hw.2 with h7 | ⟨h7, h8, h9⟩
        · exact .inl (List.mem_cons_of_mem _ (by rw [h4]; exact List.mem_append_right _ h7))
        · right
          refine ⟨by rw [h4, h7, Fml.words]; simp, ⟨h5, h8⟩, ?_⟩
          intro x hx
          rw [Fml.vars, List.mem_append] at hx
          exact hx.elim (h6 x) (h9 x)
  | .buffer fs, inp, rest, h, hb, _ => by
    cases h with
    | buffer h h2 h3 => rw [blankWords_start h hb]; exact .inl (List.mem_cons_self ..)
  | .recall i, inp, rest, h, hb, hw => by simp [Fml.Wf] at hw

theorem stackSize_flat {bools : List Word} : ∀ (φ : Fml) (ws : List Word) (n : Nat), Flat φ → (∀ x ∈ φ.vars, x ∉ reserved ∧ unprimed x ∈ bools) →
    stackSize bools n (φ.words.reverse ++ ws) = stackSize bools (n + 1) ws
  | .const b, ws, n, _, _ => by cases b <;> simp [Fml.words, stackSize]
  | .var x, ws, n, _, h => by
    obtain ⟨h1, h2⟩ := h x (by simp [Fml.vars])
    simp only [reserved, List.mem_cons, List.not_mem_nil, or_false, not_or] at h1
    rw [Fml.words, List.reverse_singleton, List.singleton_append, stackSize, if_neg (by tauto), if_neg (by tauto), if_neg (by tauto), unprimed_eq]
    simp only [h2, if_true]
  | .not f, ws, n, hf, h => by
    rw [Fml.words, List.reverse_cons, List.append_assoc, stackSize_flat f _ n hf (by simpa [Fml.vars] using h)]
    simp [stackSize]
  | .bin op f g, ws, n, hf, h => by
    rw [Fml.vars] at h
    rw [Fml.words, List.reverse_cons, List.reverse_append, List.append_assoc, List.append_assoc,
      stackSize_flat g _ n hf.2 (fun x hx => h x (by simp [hx])), stackSize_flat f _ _ hf.1 (fun x hx => h x (by simp [hx]))]
    cases op <;> simp [stackSize, BinOp.word]
  | .buffer _, _, _, hf, _ => hf.elim
  | .recall _, _, _, hf, _ => hf.elim

/-- Formulas in the notation of slugs over declared Boolean variables are recognised. -/
theorem isPrefix_plain {bools : List Word} {line : List Char} {φ : Fml} (h : ReadsLine line φ) (hb : ∀ c ∈ line, isSpace c → c = ' ') (hw : φ.Wf 0)
    (hv : ∀ x ∈ φ.vars, unprimed x ∈ bools) : isPrefixLine bools (split txt!" " line) = true := by
  obtain ⟨rest, hr, hs⟩ := h
  rw [isPrefixLine]
  change (if txt!"$" ∈ blankWords line then true else stackSize bools 0 (blankWords line).reverse == some 1) = true
  rcases reads_words φ hr hb hw with h1 | ⟨h1, h2, h3⟩
  · rw [if_pos h1]
  · split
    · rfl
    · have : blankWords rest = [] := blankWords_spaces fun c hc => hb c (reads_mem φ hr c hc) (hs c hc)
      rw [h1, this, List.append_nil]
      have := stackSize_flat (bools := bools) φ [] 0 h2 fun x hx => ⟨h3 x hx, hv x hx⟩
      rw [List.append_nil] at this
      rw [this]
      rfl

/-! ### The symbols of the words -/

theorem blank_not_name : nameChar ' ' = false := by decide

theorem Lexes.append {bools : List Word} {a : List Char} {t1 : List Tok} (h : Lexes bools a t1) {b : List Char} {t2 : List Tok} (h2 : Lexes bools b t2) :
    Lexes bools (a ++ ' ' :: b) (t1 ++ t2) := by
  induction h with
  | nil => exact .space (by decide) h2
  | space hc _ ih => exact .space hc ih
  | @name c w rest ts hc hw hr _ ih =>
    have := Lexes.name hc hw (rest := rest ++ ' ' :: b) (fun d hd => by
      cases rest with
      | nil => simp only [List.nil_append, List.head?_cons, Option.some.injEq] at hd; subst hd; decide
      | cons e r => exact hr d (by simpa using hd)) ih
    simpa using this
  | @number w rest ts hw hd hr _ ih =>
    have := Lexes.number hw hd (rest := rest ++ ' ' :: b) (fun d hd => by
      cases rest with
      | nil => simp only [List.nil_append, List.head?_cons, Option.some.injEq] at hd; subst hd; decide
      | cons e r => exact hr d (by simpa using hd)) ih
    simpa using this
  | char h1 h2 h3 _ ih => exact .char h1 h2 h3 ih

theorem lexes_split (bools : List Word) : ∀ (s cur : List Char), Lexes bools (cur.reverse ++ s) ((splitAux txt!" " 0 cur s).flatMap (tokenize bools))
  | [], cur => by simp [splitAux, tokenize_lexes]
  | c :: s, cur => by
    by_cases hc : c = ' '
    · subst hc
      rw [splitAux_blank]
      exact Lexes.append (tokenize_lexes bools _) (lexes_split bools s [])
    · rw [splitAux_other _ hc]
      have := lexes_split bools s (c :: cur)
      simpa using this

theorem flatMap_nonempty {bools : List Word} (l : List Word) : (l.filter (· ≠ [])).flatMap (tokenize bools) = l.flatMap (tokenize bools) := by
  induction l with
  | nil => rfl
  | cons w l ih =>
    by_cases hw : w = []
    · subst hw
      simp only [ne_eq, not_true_eq_false, decide_false, Bool.false_eq_true, not_false_eq_true, List.filter_cons_of_neg, List.flatMap_cons]
      rw [show tokenize bools [] = [] from rfl]
      simpa using ih
    · rw [List.filter_cons_of_pos (by simpa using hw), List.flatMap_cons, List.flatMap_cons, ih]

/-- The symbols of a line are those of its words. -/
theorem lexes_words {bools : List Word} {line : List Char} {ts : List Tok} (h : Lexes bools line ts) : ts = (blankWords line).flatMap (tokenize bools) := by
  have := lexes_split bools line []
  rw [List.reverse_nil, List.nil_append] at this
  rw [blankWords, flatMap_nonempty, ← (lexes_iff _ _ _).mp h, (lexes_iff _ _ _).mp this]
  rfl

/-- The Boolean propositions of the compiler are names. -/
def NameLike (w : Word) : Prop := (∃ c, w.head? = some c ∧ nameStart c) ∧ (∀ c ∈ w, nameChar c) ∧ w ∉ keywords

theorem tokenize_name {bools : List Word} {w : Word} (h1 : ∃ c, w.head? = some c ∧ nameStart c) (h2 : ∀ c ∈ w, nameChar c) :
    tokenize bools w = [nameTok bools w] := by
  rw [← lexes_iff]
  obtain ⟨c, hc, hs⟩ := h1
  cases w with
  | nil => cases hc
  | cons d w =>
    cases hc
    have := Lexes.name (bools := bools) (rest := []) (w := w) hs (fun d hd => h2 d (by simp [hd])) (by simp) .nil
    simpa using this

theorem nameTok_other {bools : List Word} {w : Word} (h : w ∉ keywords) : nameTok bools w = if w ∈ bools then ⟨.boolID, w⟩ else ⟨.numID, w⟩ := by
  rw [← word_token, if_neg h]

/-- Words that may occur in formulas in the notation of slugs without buffers. -/
inductive WordKind (bools : List Word) : Word → List Tok → Prop
  | op {w k} : (w, k) ∈ [(txt!"|", Term.bar), (txt!"&", Term.amp), (txt!"^", Term.caret), (txt!"!", Term.bang)] → WordKind bools w [⟨k, w⟩]
  | name {w} : w ∈ bools → NameLike w → WordKind bools w [⟨.boolID, w⟩]
  | bad {w ts} : (∀ t ∈ ts, t.kind = .numeral ∨ t.kind = .numID ∨ t.kind = .boolID) → (∃ t ∈ ts, t.kind = .numeral ∨ t.kind = .numID) →
      WordKind bools w ts

theorem stackSize_kinds {bools : List Word} (hbools : ∀ w ∈ bools, NameLike w) : ∀ (ws : List Word) {n m : Nat}, stackSize bools n ws = some m →
    ∀ w ∈ ws, WordKind bools w (tokenize bools w)
  | [], _, _, _ => by simp
  | v :: ws, n, m, h => by
    rw [List.forall_mem_cons]
    rw [stackSize] at h
    by_cases h1 : v = txt!"|" ∨ v = txt!"&" ∨ v = txt!"^"
    · rw [if_pos h1] at h
      split at h
      · cases h
      · refine ⟨?_, stackSize_kinds hbools ws h⟩
        rcases h1 with rfl | rfl | rfl
        · exact .op (k := .bar) (by decide)
        · exact .op (k := .amp) (by decide)
        · exact .op (k := .caret) (by decide)
    · rw [if_neg h1] at h
      by_cases h2 : v = txt!"!"
      · rw [if_pos h2] at h
        refine ⟨?_, stackSize_kinds hbools ws h⟩
        subst h2
        exact .op (k := .bang) (by decide)
      · rw [if_neg h2] at h
        by_cases h3 : v = txt!"1" ∨ v = txt!"0"
        · rw [if_pos h3] at h
          refine ⟨?_, stackSize_kinds hbools ws h⟩
          rcases h3 with rfl | rfl
          · rw [show tokenize bools txt!"1" = [⟨.numeral, txt!"1"⟩] from rfl]
            exact .bad (by simp) (by simp)
          · rw [show tokenize bools txt!"0" = [⟨.numeral, txt!"0"⟩] from rfl]
            exact .bad (by simp) (by simp)
        · rw [if_neg h3] at h
          dsimp only at h
          rw [unprimed_eq] at h
          by_cases h4 : unprimed v ∈ bools
          · rw [if_pos h4] at h
            refine ⟨?_, stackSize_kinds hbools ws h⟩
            obtain ⟨n1, n2, n3⟩ := hbools _ h4
            by_cases hp : isPrimed v = true
            · have e : v = prime (unprimed v) := by
                have hv : unprimed v = v.dropLast := by rw [unprimed, if_pos hp]
                rw [isPrimed, beq_iff_eq] at hp
                have hne : v ≠ [] := by rintro rfl; cases hp
                rw [hv, prime]
                conv_lhs => rw [← List.dropLast_append_getLast hne]
                rw [List.getLast?_eq_some_getLast hne] at hp
                rw [Option.some.inj hp]
              have k1 : ∃ c, v.head? = some c ∧ nameStart c := by
                obtain ⟨c, hc, hs⟩ := n1
                refine ⟨c, ?_, hs⟩
                rw [e, prime]
                cases hu : unprimed v with
                | nil => rw [hu] at hc; cases hc
                | cons a l => rw [hu] at hc; simpa using hc
              have k2 : ∀ c ∈ v, nameChar c := by
                intro c hc
                rw [e, prime, List.mem_append, List.mem_singleton] at hc
                rcases hc with hc | rfl
                · exact n2 c hc
                · decide
              have k3 : v ∉ keywords := by
                intro hk
                have hq : '\'' ∈ v := by rw [e, prime]; simp
                simp only [keywords, List.mem_cons, List.not_mem_nil, or_false] at hk
                rcases hk with hk | hk | hk | hk | hk | hk | hk | hk | hk <;> (rw [hk] at hq; revert hq; decide)
              rw [tokenize_name k1 k2, nameTok_other k3]
              by_cases hv : v ∈ bools
              · rw [if_pos hv]
                exact .name hv (hbools v hv)
              · rw [if_neg hv]
                exact .bad (by simp) (by simp)
            · have e : unprimed v = v := by rw [unprimed, if_neg hp]
              rw [e] at h4 n1 n2 n3
              rw [tokenize_name n1 n2, nameTok_other n3, if_pos h4]
              exact .name h4 (hbools v h4)
          · rw [if_neg h4] at h
            by_cases h5 : unprimed v = txt!"0" ∨ unprimed v = txt!"1"
            · rw [if_pos h5] at h
              refine ⟨?_, stackSize_kinds hbools ws h⟩
              have hp : isPrimed v = true := by
                by_contra hp
                rw [unprimed, if_neg hp] at h5
                tauto
              have e : v = prime (unprimed v) := by
                have hv : unprimed v = v.dropLast := by rw [unprimed, if_pos hp]
                rw [isPrimed, beq_iff_eq] at hp
                have hne : v ≠ [] := by rintro rfl; cases hp
                rw [hv, prime]
                conv_lhs => rw [← List.dropLast_append_getLast hne]
                rw [List.getLast?_eq_some_getLast hne] at hp
                rw [Option.some.inj hp]
              have key : ∀ d : Char, isDigit d = true → WordKind bools [d, '\''] (tokenize bools [d, '\'']) := by
                intro d hd
                have : Lexes bools [d, '\''] [⟨.numeral, [d]⟩, nameTok bools txt!"'"] := by
                  have h1 := Lexes.name (bools := bools) (c := '\'') (w := []) (rest := []) (by decide) (by simp) (by simp) .nil
                  exact Lexes.number (w := [d]) (by simp) (by simpa using hd) (by simp; decide) h1
                rw [(lexes_iff _ _ _).mp this]
                have hk : nameTok bools txt!"'" = if txt!"'" ∈ bools then ⟨.boolID, txt!"'"⟩ else ⟨.numID, txt!"'"⟩ := nameTok_other (by decide)
                rw [hk]
                refine .bad ?_ ⟨_, List.mem_cons_self .., .inl rfl⟩
                split <;> simp
              rcases h5 with h5 | h5
              · rw [e, h5]; exact key '0' (by decide)
              · rw [e, h5]; exact key '1' (by decide)
            · rw [if_neg h5] at h
              cases h

/-! ### Infix notation -/

theorem sum_tokens {ts : List Tok} {a : NExp} (h : InfixSum ts a) : ∀ t ∈ ts, t.kind ≠ .other ∧ (t.kind = .numID → t.text ∈ a.names) := by
  refine InfixSum.rec (motive_1 := fun ts a _ => ∀ t ∈ ts, t.kind ≠ .other ∧ (t.kind = .numID → t.text ∈ a.names))
    (motive_2 := fun ts a _ => ∀ t ∈ ts, t.kind ≠ .other ∧ (t.kind = .numID → t.text ∈ a.names))
    (motive_3 := fun ts a _ => ∀ t ∈ ts, t.kind ≠ .other ∧ (t.kind = .numID → t.text ∈ a.names)) ?_ ?_ ?_ ?_ ?_ ?_ ?_ h
  · intro ts a _ ih; exact ih
  · intro ts us a b op _ ho _ i1 i2 t ht
    simp only [List.mem_append, List.mem_cons] at ht
    rcases ht with ht | rfl | ht
    · exact ⟨(i1 t ht).1, fun hk => List.mem_append_left _ ((i1 t ht).2 hk)⟩
    · rw [ho]; exact ⟨by decide, fun hk => by cases hk⟩
    · exact ⟨(i2 t ht).1, fun hk => List.mem_append_right _ ((i2 t ht).2 hk)⟩
  · intro ts a _ ih; exact ih
  · intro ts us a b op _ ho _ i1 i2 t ht
    simp only [List.mem_append, List.mem_cons] at ht
    rcases ht with ht | rfl | ht
    · exact ⟨(i1 t ht).1, fun hk => List.mem_append_left _ ((i1 t ht).2 hk)⟩
    · rw [ho]; exact ⟨by decide, fun hk => by cases hk⟩
    · exact ⟨(i2 t ht).1, fun hk => List.mem_append_right _ ((i2 t ht).2 hk)⟩
  · intro u hu t ht
    rw [List.mem_singleton.mp ht, hu]
    exact ⟨by decide, fun _ => by simp [NExp.names]⟩
  · intro u hu t ht
    rw [List.mem_singleton.mp ht, hu]
    exact ⟨by decide, fun hk => by cases hk⟩
  · intro l r ts a hl _ hr ih t ht
    simp only [List.cons_append, List.mem_append, List.mem_cons, List.not_mem_nil, or_false] at ht
    rcases ht with rfl | ht | rfl
    · rw [hl]; exact ⟨by decide, fun hk => by cases hk⟩
    · exact ih t ht
    · rw [hr]; exact ⟨by decide, fun hk => by cases hk⟩

/-- The integer variables as they are written. -/
def rawNumbers : SFml → List Word
  | .tt => []
  | .ff => []
  | .atom _ => []
  | .cmp _ a b => a.names ++ b.names
  | .not f => rawNumbers f
  | .next f => rawNumbers f
  | .and f g => rawNumbers f ++ rawNumbers g
  | .or f g => rawNumbers f ++ rawNumbers g
  | .imp f g => rawNumbers f ++ rawNumbers g
  | .iff f g => rawNumbers f ++ rawNumbers g

/-- Symbols with other kinds are no variables. -/
theorem op_tokens {op : List Tok} {ks : List Term} (h : op.map Tok.kind = ks) (hk : ∀ k ∈ ks, k ≠ .other ∧ k ≠ .numID) (l : List Word) :
    ∀ t ∈ op, t.kind ≠ .other ∧ (t.kind = .numID → t.text ∈ l) := by
  intro t ht
  have := hk t.kind (by rw [← h]; exact List.mem_map_of_mem ht)
  exact ⟨this.1, fun h => absurd h this.2⟩

theorem infix_tokens {n : Nat} {ts : List Tok} {f : SFml} (h : Infix n ts f) : ∀ t ∈ ts, t.kind ≠ .other ∧ (t.kind = .numID → t.text ∈ rawNumbers f) := by
  have bin : ∀ {ts op us : List Tok} {f g : SFml} {ks : List Term}, op.map Tok.kind = ks → (∀ k ∈ ks, k ≠ .other ∧ k ≠ .numID) →
      (∀ t ∈ ts, t.kind ≠ .other ∧ (t.kind = .numID → t.text ∈ rawNumbers f)) → (∀ t ∈ us, t.kind ≠ .other ∧ (t.kind = .numID → t.text ∈ rawNumbers g)) →
      ∀ t ∈ ts ++ op ++ us, t.kind ≠ .other ∧ (t.kind = .numID → t.text ∈ rawNumbers f ++ rawNumbers g) := by
    intro ts op us f g ks h hk i1 i2 t ht
    simp only [List.mem_append] at ht
    rcases ht with (ht | ht) | ht
    · exact ⟨(i1 t ht).1, fun hk => List.mem_append_left _ ((i1 t ht).2 hk)⟩
    · exact op_tokens h hk _ t ht
    · exact ⟨(i2 t ht).1, fun hk => List.mem_append_right _ ((i2 t ht).2 hk)⟩
  have one : ∀ {t : Tok} {k : Term}, t.kind = k → (k ≠ .other ∧ k ≠ .numID) → ∀ l : List Word, ∀ u ∈ [t], u.kind ≠ .other ∧ (u.kind = .numID → u.text ∈ l) := by
    intro t k h hk l u hu
    rw [List.mem_singleton.mp hu, h]
    exact ⟨hk.1, fun h => absurd h hk.2⟩
  induction h with
  | up _ _ ih => exact ih
  | iff _ ho _ i1 i2 => rcases ho with ho | ho <;> exact bin ho (by decide) i1 i2
  | imp _ ho _ i1 i2 => rcases ho with ho | ho <;> exact bin ho (by decide) i1 i2
  | or _ ho _ i1 i2 => rcases ho with ho | ho | ho <;> exact bin ho (by decide) i1 i2
  | and _ ho _ i1 i2 => rcases ho with ho | ho | ho <;> exact bin ho (by decide) i1 i2
  | @not op us f ho _ ih =>
    rw [List.forall_mem_cons]
    refine ⟨?_, ih⟩
    rcases ho with ho | ho <;> exact one ho (by decide) _ _ (List.mem_singleton.mpr rfl)
  | @next op us f ho _ ih =>
    intro t ht
    rcases List.mem_append.mp ht with ht | ht
    · rcases ho with ho | ho | ho <;> exact op_tokens ho (by decide) _ t ht
    · exact ih t ht
  | tt h => exact one h (by decide) _
  | ff h => exact one h (by decide) _
  | atom h => exact one h (by decide) _
  | @cmp ts op us a b o h1 ho h2 =>
    intro t ht
    simp only [List.mem_append] at ht
    rcases ht with (ht | ht) | ht
    · exact ⟨(sum_tokens h1 t ht).1, fun hk => List.mem_append_left _ ((sum_tokens h1 t ht).2 hk)⟩
    · exact op_tokens ho (by cases o <;> decide) _ t ht
    · exact ⟨(sum_tokens h2 t ht).1, fun hk => List.mem_append_right _ ((sum_tokens h2 t ht).2 hk)⟩
  | @brackets l r ts f hb _ ih =>
    intro t ht
    simp only [List.cons_append, List.mem_append, List.mem_cons, List.not_mem_nil, or_false] at ht
    rcases ht with rfl | ht | rfl
    · rcases hb with hb | hb <;> exact one hb.1 (by decide) _ _ (List.mem_singleton.mpr rfl)
    · exact ih t ht
    · rcases hb with hb | hb <;> exact one hb.2 (by decide) _ _ (List.mem_singleton.mpr rfl)

theorem raw_bounds_num {bounds : Bounds} {nx : Bool} : ∀ {a : NExp}, a.Proper bounds nx → ∀ x ∈ a.names, ∃ q, bounds (unprimed x) = some q
  | .num _, _, x, hx => by simp [NExp.names] at hx
  | .var y, h, x, hx => by
    rw [NExp.names, List.mem_singleton] at hx
    obtain ⟨⟨lo, hi, h, _⟩, _⟩ := h
    exact ⟨_, hx ▸ h⟩
  | .add a b, h, x, hx => (List.mem_append.mp hx).elim (raw_bounds_num (a := a) h.1 x) (raw_bounds_num (a := b) h.2 x)
  | .overwrite a b, h, x, hx => (List.mem_append.mp hx).elim (raw_bounds_num (a := a) h.1 x) (raw_bounds_num (a := b) h.2.1 x)

theorem raw_bounds {bounds : Bounds} : ∀ {f : SFml} {nx : Bool}, f.Proper bounds nx → ∀ x ∈ rawNumbers f, ∃ q, bounds (unprimed x) = some q
  | .tt, _, _, _, hx => by simp [rawNumbers] at hx
  | .ff, _, _, _, hx => by simp [rawNumbers] at hx
  | .atom _, _, _, _, hx => by simp [rawNumbers] at hx
  | .cmp _ a b, _, h, x, hx => (List.mem_append.mp hx).elim (raw_bounds_num h.1 x) (raw_bounds_num h.2 x)
  | .not f, _, h, x, hx => raw_bounds (f := f) h x hx
  | .next f, _, h, x, hx => raw_bounds (f := f) h.2 x hx
  | .and f g, _, h, x, hx => (List.mem_append.mp hx).elim (raw_bounds (f := f) h.1 x) (raw_bounds (f := g) h.2 x)
  | .or f g, _, h, x, hx => (List.mem_append.mp hx).elim (raw_bounds (f := f) h.1 x) (raw_bounds (f := g) h.2 x)
  | .imp f g, _, h, x, hx => (List.mem_append.mp hx).elim (raw_bounds (f := f) h.1 x) (raw_bounds (f := g) h.2 x)
  | .iff f g, _, h, x, hx => (List.mem_append.mp hx).elim (raw_bounds (f := f) h.1 x) (raw_bounds (f := g) h.2 x)

/-- More Boolean propositions do not matter if they are not used as integer variables. -/
theorem lexes_more {bools more : List Word} (hm : bools ⊆ more) {s : List Char} {ts : List Tok} (h : Lexes bools s ts)
    (hn : ∀ t ∈ ts, t.kind = .numID → t.text ∉ more) : Lexes more s ts := by
  induction h with
  | nil => exact .nil
  | space hc _ ih => exact .space hc (ih hn)
  | @name c w rest ts hc hw hr _ ih =>
    rw [List.forall_mem_cons] at hn
    have e : nameTok bools (c :: w) = nameTok more (c :: w) := by
      rw [← word_token, ← word_token]
      by_cases hk : c :: w ∈ keywords
      · rw [if_pos hk, if_pos hk]
      · rw [if_neg hk, if_neg hk]
        by_cases hb : c :: w ∈ bools
        · rw [if_pos hb, if_pos (hm hb)]
        · have : c :: w ∉ more := by
            have := hn.1
            rw [nameTok_text, ← word_token, if_neg hk, if_neg hb] at this
            exact this rfl
          rw [if_neg hb, if_neg this]
    rw [e]
    exact .name hc hw hr (ih hn.2)
  | number hw hd hr _ ih => rw [List.forall_mem_cons] at hn; exact .number hw hd hr (ih hn.2)
  | char h1 h2 h3 _ ih => rw [List.forall_mem_cons] at hn; exact .char h1 h2 h3 (ih hn.2)

theorem isFormula_more {bools more : List Word} (hm : bools ⊆ more) {bounds : Bounds} (hn : ∀ x q, bounds (unprimed x) = some q → x ∉ more) {line : List Char}
    {f : SFml} (h : IsFormula bools line f) (hp : f.Proper bounds false) : IsFormula more line f := by
  obtain ⟨ts, h1, h2⟩ := h
  refine ⟨ts, lexes_more hm h1 fun t ht hk => ?_, h2⟩
  obtain ⟨q, hq⟩ := raw_bounds hp _ ((infix_tokens h2 t ht).2 hk)
  exact hn _ q hq

/-! ### Formulas in both notations -/

/-- Negations of a variable. -/
inductive Simple : List Tok → SFml → Prop
  | atom {t} : t.kind = .boolID → Simple [t] (.atom t.text)
  | not {op us f} : op.kind = .bang → Simple us f → Simple (op :: us) (.not f)

/-- The kinds of symbols of words in the notation of slugs. -/
def slugsKinds : List Term := [.bar, .amp, .caret, .bang, .numeral, .numID, .boolID]

theorem infix_simple {n : Nat} {ts : List Tok} {f : SFml} (h : Infix n ts f) (hk : ∀ t ∈ ts, t.kind ∈ slugsKinds) :
    (∀ t ∈ ts, t.kind ≠ .numeral ∧ t.kind ≠ .numID) ∧
    (Simple ts f ∨ ∃ pre op suf g, ts = pre ++ op :: suf ∧ (op.kind = .bar ∨ op.kind = .amp) ∧ Simple suf g) := by
  have no : ∀ {op : List Tok} {ks : List Term}, op.map Tok.kind = ks → (∃ k ∈ ks, k ∉ slugsKinds) → (∀ t ∈ op, t.kind ∈ slugsKinds) → False := by
    rintro op ks h ⟨k, hk, hn⟩ ha
    rw [← h] at hk
    obtain ⟨t, ht, rfl⟩ := List.mem_map.mp hk
    exact hn (ha t ht)
  have bin : ∀ {ts op us : List Tok} {g : SFml} {ks : List Term}, op.map Tok.kind = ks → (∃ k0, ks.getLast? = some k0 ∧ (k0 = .bar ∨ k0 = .amp)) →
      (∀ k ∈ ks, k ≠ .numeral ∧ k ≠ .numID) → (∀ t ∈ ts, t.kind ≠ .numeral ∧ t.kind ≠ .numID) →
      ((∀ t ∈ us, t.kind ≠ .numeral ∧ t.kind ≠ .numID) ∧
        (Simple us g ∨ ∃ pre op suf g', us = pre ++ op :: suf ∧ (op.kind = .bar ∨ op.kind = .amp) ∧ Simple suf g')) →
      (∀ t ∈ ts ++ op ++ us, t.kind ≠ .numeral ∧ t.kind ≠ .numID) ∧
        ∃ pre op' suf g', ts ++ op ++ us = pre ++ op' :: suf ∧ (op'.kind = .bar ∨ op'.kind = .amp) ∧ Simple suf g' := by
    rintro ts op us g ks ho ⟨k0, hk0, hk1⟩ hks h1 ⟨h2, h3⟩
    constructor
    · intro t ht
      simp only [List.mem_append] at ht
      rcases ht with (ht | ht) | ht
      · exact h1 t ht
      · exact hks _ (by rw [← ho]; exact List.mem_map_of_mem ht)
      · exact h2 t ht
    · rcases h3 with h3 | ⟨pre, op', suf, g', rfl, h4, h5⟩
      · obtain ⟨o, hl⟩ : ∃ o, op.getLast? = some o := by
          cases op with
          | nil => rw [← ho] at hk0; cases hk0
          | cons a l => exact ⟨_, List.getLast?_eq_some_getLast (by simp)⟩
        have e : op = op.dropLast ++ [o] := by
          have hne : op ≠ [] := by rintro rfl; cases hl
          conv_lhs => rw [← List.dropLast_append_getLast hne]
          rw [List.getLast?_eq_some_getLast hne] at hl
          rw [Option.some.inj hl]
        have hok : o.kind = k0 := by
          rw [← ho, List.getLast?_map, hl] at hk0
          exact Option.some.inj hk0
        exact ⟨ts ++ op.dropLast, o, us, g, by conv_lhs => rw [e]
                                               simp, by rw [hok]; exact hk1, h3⟩
      · exact ⟨ts ++ op ++ pre, op', suf, g', by simp, h4, h5⟩
  induction h with
  | up _ _ ih => exact ih hk
  | iff _ ho _ i1 i2 =>
    exfalso
    rcases ho with ho | ho <;> exact no ho (by decide) fun t ht => hk t (by simp [ht])
  | imp _ ho _ i1 i2 =>
    exfalso
    rcases ho with ho | ho <;> exact no ho (by decide) fun t ht => hk t (by simp [ht])
  | @or ts op us f g _ ho _ i1 i2 =>
    have i1' := i1 fun t ht => hk t (by simp [ht])
    have i2' := i2 fun t ht => hk t (by simp [ht])
    rcases ho with ho | ho | ho
    · exact ⟨(bin ho (by decide) (by decide) i1'.1 i2').1, .inr (bin ho (by decide) (by decide) i1'.1 i2').2⟩
    · exact ⟨(bin ho (by decide) (by decide) i1'.1 i2').1, .inr (bin ho (by decide) (by decide) i1'.1 i2').2⟩
    · exact (no ho (by decide) fun t ht => hk t (by simp [ht])).elim
  | @and ts op us f g _ ho _ i1 i2 =>
    have i1' := i1 fun t ht => hk t (by simp [ht])
    have i2' := i2 fun t ht => hk t (by simp [ht])
    rcases ho with ho | ho | ho
    · exact ⟨(bin ho (by decide) (by decide) i1'.1 i2').1, .inr (bin ho (by decide) (by decide) i1'.1 i2').2⟩
    · exact ⟨(bin ho (by decide) (by decide) i1'.1 i2').1, .inr (bin ho (by decide) (by decide) i1'.1 i2').2⟩
    · exact (no ho (by decide) fun t ht => hk t (by simp [ht])).elim
  | @not op us f ho _ ih =>
    rw [List.forall_mem_cons] at hk
    have ho' : op.kind = .bang := by
      rcases ho with ho | ho
      · exact ho
      · rw [ho] at hk; exact absurd hk.1 (by decide)
    obtain ⟨i1, i2⟩ := ih hk.2
    refine ⟨?_, ?_⟩
    · rw [List.forall_mem_cons]
      exact ⟨by rw [ho']; decide, i1⟩
    · rcases i2 with i2 | ⟨pre, op', suf, g, rfl, h4, h5⟩
      · exact .inl (.not ho' i2)
      · exact .inr ⟨op :: pre, op', suf, g, rfl, h4, h5⟩
  | next ho _ ih =>
    exfalso
    rcases ho with ho | ho | ho <;> exact no ho (by decide) fun t ht => hk t (by simp [ht])
  | @tt t h => exact absurd (hk t (by simp)) (by rw [h]; decide)
  | @ff t h => exact absurd (hk t (by simp)) (by rw [h]; decide)
  | @atom t h => exact ⟨by simp [h], .inl (.atom h)⟩
  | cmp o _ ho _ =>
    exfalso
    exact no ho (by cases o <;> decide) fun t ht => hk t (by simp [ht])
  | @brackets l r ts f hb _ ih =>
    exfalso
    have := hk l (by simp)
    rcases hb with hb | hb <;> (rw [hb.1] at this; revert this; decide)

theorem keyless {w : Word} {bools : List Word} {ts : List Tok} (h : WordKind bools w ts) : (∀ t ∈ ts, t.kind ∈ slugsKinds) := by
  cases h with
  | op h =>
    simp only [List.mem_cons, Prod.mk.injEq, List.not_mem_nil, or_false] at h
    rcases h with ⟨_, rfl⟩ | ⟨_, rfl⟩ | ⟨_, rfl⟩ | ⟨_, rfl⟩ <;> simp [slugsKinds]
  | name _ _ => simp [slugsKinds]
  | bad h _ =>
    intro t ht
    rcases h t ht with h | h | h <;> simp [slugsKinds, h]

/-- What a word in the notation of slugs is. -/
def Fits (bools : List Word) (w : Word) (t : Tok) : Prop :=
  t.text = w ∧ ((t.kind = .bar ∧ w = txt!"|") ∨ (t.kind = .amp ∧ w = txt!"&") ∨ (t.kind = .caret ∧ w = txt!"^") ∨ (t.kind = .bang ∧ w = txt!"!") ∨
    (t.kind = .boolID ∧ w ∈ bools ∧ NameLike w))

theorem words_fit {bools : List Word} : ∀ {ws : List Word}, (∀ w ∈ ws, WordKind bools w (tokenize bools w)) →
    (∀ t ∈ ws.flatMap (tokenize bools), t.kind ≠ .numeral ∧ t.kind ≠ .numID) → List.Forall₂ (Fits bools) ws (ws.flatMap (tokenize bools))
  | [], _, _ => .nil
  | w :: ws, h, hn => by
    rw [List.forall_mem_cons] at h
    rw [List.flatMap_cons] at hn ⊢
    have ih := words_fit h.2 fun t ht => hn t (List.mem_append_right _ ht)
    have hn' : ∀ t ∈ tokenize bools w, t.kind ≠ .numeral ∧ t.kind ≠ .numID := fun t ht => hn t (List.mem_append_left _ ht)
    revert hn'
    have h1 := h.1
    generalize tokenize bools w = ts at h1
    intro hn'
    cases h1 with
    | op h =>
      simp only [List.mem_cons, Prod.mk.injEq, List.not_mem_nil, or_false] at h
      refine .cons ⟨rfl, ?_⟩ ih
      rcases h with ⟨h, rfl⟩ | ⟨h, rfl⟩ | ⟨h, rfl⟩ | ⟨h, rfl⟩ <;> simp [h]
    | name h1 h2 => exact .cons ⟨rfl, .inr (.inr (.inr (.inr ⟨rfl, h1, h2⟩)))⟩ ih
    | bad _ hb =>
      obtain ⟨t, ht, hk⟩ := hb
      exact (hk.elim (hn' t ht).1 (hn' t ht).2).elim

/-- The formula in the notation of slugs. -/
def simpleFml : SFml → Fml
  | .atom x => .var x
  | .not f => .not (simpleFml f)
  | _ => .const true

theorem simple_flat {ts : List Tok} {f : SFml} (h : Simple ts f) : Flat (simpleFml f) := by
  induction h with
  | atom _ => trivial
  | not _ _ ih => exact ih

theorem name_not_reserved {w : Word} (h : NameLike w) : w ∉ reserved := by
  obtain ⟨⟨c, hc, hs⟩, _⟩ := h
  intro hr
  simp only [reserved, List.mem_cons, List.not_mem_nil, or_false] at hr
  rcases hr with rfl | rfl | rfl | rfl | rfl | rfl | rfl | rfl <;> (cases hc; revert hs; decide)

theorem simple_words {bools : List Word} (hc : ∀ w ∈ bools, unprimed w ∈ bools) {ts : List Tok} {f : SFml} (h : Simple ts f) : ∀ {ws : List Word}, List.Forall₂ (Fits bools) ws ts →
    ws = (simpleFml f).words ∧ (simpleFml f).Wf 0 ∧ (∀ x ∈ (simpleFml f).vars, x ∈ f.atoms false ∧ x ∈ bools ∧ NameLike x) ∧
    (∀ bounds ρ val, (simpleFml f).eval ρ [] = some (f.holds bounds ρ val)) ∧
    ∀ r, stackSize bools 0 (ws.reverse ++ r) = stackSize bools 1 r := by
  induction h with
  | @atom t ht =>
    intro ws hw
    obtain ⟨w, rest, hf, hr, rfl⟩ := List.forall₂_cons_right_iff.mp hw
    cases hr
    obtain ⟨h1, h2⟩ := hf
    have h3 : w ∈ bools ∧ NameLike w := by
      rcases h2 with h2 | h2 | h2 | h2 | h2
      · rw [ht] at h2; cases h2.1
      · rw [ht] at h2; cases h2.1
      · rw [ht] at h2; cases h2.1
      · rw [ht] at h2; cases h2.1
      · exact h2.2
    refine ⟨by rw [simpleFml, Fml.words, h1], by simp [simpleFml, Fml.Wf], ?_, ?_, ?_⟩
    · intro x hx
      rw [simpleFml, Fml.vars, List.mem_singleton] at hx
      subst hx
      rw [h1]
      exact ⟨by simp [SFml.atoms], h3⟩
    · intro bounds ρ val
      rw [simpleFml, Fml.eval, SFml.holds]
    · intro r
      have hres := name_not_reserved h3.2
      simp only [reserved, List.mem_cons, List.not_mem_nil, or_false, not_or] at hres
      rw [List.reverse_singleton, List.singleton_append, stackSize, if_neg (by tauto), if_neg (by tauto), if_neg (by tauto), unprimed_eq]
      simp only [hc w h3.1, if_true]
  | @not op us f ho _ ih =>
    intro ws hw
    obtain ⟨w, rest, hf, hr, rfl⟩ := List.forall₂_cons_right_iff.mp hw
    obtain ⟨h1, h2, h3, h4, h5⟩ := ih hr
    obtain ⟨_, hf⟩ := hf
    have e : w = txt!"!" := by
      rcases hf with h2 | h2 | h2 | h2 | h2
      · rw [ho] at h2; cases h2.1
      · rw [ho] at h2; cases h2.1
      · rw [ho] at h2; cases h2.1
      · exact h2.2
      · rw [ho] at h2; cases h2.1
    subst e
    refine ⟨by rw [simpleFml, Fml.words, h1], by rw [simpleFml, Fml.Wf]; exact h2, by rw [simpleFml, Fml.vars, SFml.atoms]; exact h3, ?_, ?_⟩
    · intro bounds ρ val
      rw [simpleFml, Fml.eval, SFml.holds, h4 bounds]
      rfl
    · intro r
      rw [List.reverse_cons, List.append_assoc, h5]
      simp [stackSize]

theorem forall2_split {A B : Type} {R : A → B → Prop} : ∀ {l1 : List B} {ws : List A} {l2 : List B}, List.Forall₂ R ws (l1 ++ l2) →
    ∃ w1 w2, ws = w1 ++ w2 ∧ List.Forall₂ R w1 l1 ∧ List.Forall₂ R w2 l2
  | [], ws, l2, h => ⟨[], ws, rfl, .nil, h⟩
  | b :: l1, ws, l2, h => by
    obtain ⟨w, rest, hf, hr, rfl⟩ := List.forall₂_cons_right_iff.mp h
    obtain ⟨w1, w2, rfl, h1, h2⟩ := forall2_split hr
    exact ⟨w :: w1, w2, rfl, .cons hf h1, h2⟩

theorem forall2_left {A B : Type} {R : A → B → Prop} {ws : List A} {ts : List B} (h : List.Forall₂ R ws ts) : ∀ w ∈ ws, ∃ t ∈ ts, R w t := by
  induction h with
  | nil => simp
  | cons h _ ih =>
    rw [List.forall_mem_cons]
    refine ⟨⟨_, List.mem_cons_self .., h⟩, fun w hw => ?_⟩
    obtain ⟨t, ht, hr⟩ := ih w hw
    exact ⟨t, List.mem_cons_of_mem _ ht, hr⟩

theorem spells_blank : ∀ (s cur : List Char), (∀ c ∈ cur.reverse ++ s, isSpace c → c = ' ') → ' ' ∉ cur →
    ∃ rest, Spells (cur.reverse ++ s) ((splitAux txt!" " 0 cur s).filter (· ≠ [])) rest ∧ ∀ c ∈ rest, isSpace c
  | [], cur, hs, hb => by
    refine ⟨[], ?_, by simp⟩
    by_cases hc : cur = []
    · subst hc; simpa [splitAux] using Spells.nil
    · have : ((splitAux txt!" " 0 cur []).filter (· ≠ [])) = [cur.reverse] := by simp [splitAux, hc]
      rw [this]
      refine .cons ⟨[], by simp, by simp, by simpa using hc, ?_, by simp⟩ .nil
      intro c hm
      by_contra hn
      have := hs c (by simpa using hm) (by simpa using hn)
      rw [List.mem_reverse] at hm
      exact hb (this ▸ hm)
  | c :: s, cur, hs, hb => by
    by_cases hc : c = ' '
    · subst hc
      rw [splitAux_blank]
      obtain ⟨rest, h1, h2⟩ := spells_blank s [] (fun c hc => hs c (by simp at hc ⊢; tauto)) (by simp)
      rw [List.reverse_nil, List.nil_append] at h1
      have hsp : ∀ {ws r}, Spells s ws r → (∀ w ∈ ws, w ≠ []) → ws ≠ [] → Spells (' ' :: s) ws r := by
        intro ws r h _ hne
        cases h with
        | nil => exact (hne rfl).elim
        | cons h1 h2 =>
          obtain ⟨sp, e, k1, k2, k3, k4⟩ := h1
          refine .cons ⟨' ' :: sp, by rw [e]; simp, ?_, k2, k3, k4⟩ h2
          intro c hc
          rcases List.mem_cons.mp hc with rfl | hc
          · decide
          · exact k1 c hc
      by_cases hcur : cur = []
      · subst hcur
        rw [List.reverse_nil, List.nil_append]
        by_cases hne : (splitAux txt!" " 0 [] s).filter (· ≠ []) = []
        · rw [hne] at h1
          cases h1
          refine ⟨' ' :: s, ?_, ?_⟩
          · have : (([] : List Char) :: splitAux txt!" " 0 [] s).filter (· ≠ []) = [] := by simpa using hne
            rw [this]; exact .nil
          · intro c hc
            rcases List.mem_cons.mp hc with rfl | hc
            · decide
            · exact h2 c hc
        · refine ⟨rest, ?_, h2⟩
          have : (([] : List Char) :: splitAux txt!" " 0 [] s).filter (· ≠ []) = (splitAux txt!" " 0 [] s).filter (· ≠ []) := by simp
          rw [this]
          exact hsp h1 (fun w hw => by simpa using (List.mem_filter.mp hw).2) hne
      · have e : (cur.reverse :: splitAux txt!" " 0 [] s).filter (· ≠ []) = cur.reverse :: (splitAux txt!" " 0 [] s).filter (· ≠ []) :=
          List.filter_cons_of_pos (by simpa using hcur)
        rw [e]
        have hw : StartsWithWord (cur.reverse ++ ' ' :: s) cur.reverse (' ' :: s) := by
          refine ⟨[], by simp, by simp, by simpa using hcur, ?_, by simp; decide⟩
          intro c hm
          by_contra hn
          have := hs c (by simp at hm ⊢; tauto) (by simpa using hn)
          rw [List.mem_reverse] at hm
          exact hb (this ▸ hm)
        by_cases hne : (splitAux txt!" " 0 [] s).filter (· ≠ []) = []
        · rw [hne] at h1 ⊢
          cases h1
          refine ⟨' ' :: s, .cons hw .nil, ?_⟩
          intro c hc
          rcases List.mem_cons.mp hc with rfl | hc
          · decide
          · exact h2 c hc
        · exact ⟨rest, .cons hw (hsp h1 (fun w hw => by simpa using (List.mem_filter.mp hw).2) hne), h2⟩
    · rw [splitAux_other _ hc]
      obtain ⟨rest, h1, h2⟩ := spells_blank s (c :: cur) (fun d hd => hs d (by simpa using hd)) (by simp [hb, Ne.symm hc])
      exact ⟨rest, by simpa using h1, h2⟩

theorem mem_splitAux {c : Char} (hc : c ≠ ' ') : ∀ (s cur : List Char), c ∈ cur.reverse ++ s → ∃ w ∈ splitAux txt!" " 0 cur s, c ∈ w
  | [], cur, h => ⟨cur.reverse, by simp [splitAux], by simpa using h⟩
  | d :: s, cur, h => by
    by_cases hd : d = ' '
    · subst hd
      rw [splitAux_blank]
      simp only [List.mem_append, List.mem_cons] at h
      rcases h with h | h | h
      · exact ⟨_, List.mem_cons_self .., h⟩
      · exact absurd h hc
      · obtain ⟨w, hw, hm⟩ := mem_splitAux hc s [] (by simpa using h)
        exact ⟨w, List.mem_cons_of_mem _ hw, hm⟩
    · rw [splitAux_other _ hd]
      exact mem_splitAux hc s (d :: cur) (by simpa using h)

theorem mem_blankWords {c : Char} {line : List Char} (h : c ∈ line) (hc : c ≠ ' ') : ∃ w ∈ blankWords line, c ∈ w := by
  obtain ⟨w, hw, hm⟩ := mem_splitAux hc line [] (by simpa using h)
  exact ⟨w, List.mem_filter.mpr ⟨hw, by simpa using List.ne_nil_of_mem hm⟩, hm⟩

theorem nameChar_not_space {c : Char} (h : nameChar c = true) : isSpace c = false := by
  rw [Bool.eq_false_iff]
  intro hs
  have := isSpace_py hs
  rw [nameChar, Bool.or_eq_true] at h
  rcases h with h | h
  · have := name_not_space h; rw [isspace_eq] at this; simp_all
  · have := digit_not_space h; rw [isspace_eq] at this; simp_all

/-- A formula in infix notation that is taken for one in the notation of slugs is one, with the same meaning. -/
theorem isPrefix_infix {bools : List Word} (hbools : ∀ w ∈ bools, NameLike w) (hc : ∀ w ∈ bools, unprimed w ∈ bools) {line : List Char} {f : SFml}
    (hf : IsFormula bools line f) (hp : isPrefixLine bools (split txt!" " line) = true) :
    ∃ φ, ReadsLine line φ ∧ φ.Wf 0 ∧ (∀ x ∈ φ.vars, x ∈ f.atoms false) ∧ ∀ bounds ρ val, φ.eval ρ [] = some (f.holds bounds ρ val) := by
  obtain ⟨ts, h1, h2⟩ := hf
  have e := lexes_words h1
  rw [isPrefixLine] at hp
  change (if txt!"$" ∈ blankWords line then true else stackSize bools 0 (blankWords line).reverse == some 1) = true at hp
  by_cases hd : txt!"$" ∈ blankWords line
  · exfalso
    have : (⟨.other, txt!"$"⟩ : Tok) ∈ ts := by
      rw [e]
      exact List.mem_flatMap.mpr ⟨_, hd, by rw [show tokenize bools txt!"$" = [⟨.other, txt!"$"⟩] from rfl]; simp⟩
    exact (infix_tokens h2 _ this).1 rfl
  · rw [if_neg hd, beq_iff_eq] at hp
    have hk : ∀ w ∈ blankWords line, WordKind bools w (tokenize bools w) := fun w hw => stackSize_kinds hbools _ hp w (by simpa using hw)
    obtain ⟨h3, h4⟩ := infix_simple h2 (by
      rw [e]
      intro t ht
      obtain ⟨w, hw, ht⟩ := List.mem_flatMap.mp ht
      exact keyless (hk w hw) t ht)
    have hfit := words_fit hk (by rw [← e]; exact h3)
    rw [← e] at hfit
    rcases h4 with h4 | ⟨pre, op, suf, g, rfl, h5, h6⟩
    · obtain ⟨w1, w2, w3, w4, _⟩ := simple_words hc h4 hfit
      have hsp : ∀ c ∈ line, isSpace c → c = ' ' := by
        intro c hcl hs
        by_contra hne
        obtain ⟨w, hw, hm⟩ := mem_blankWords hcl hne
        obtain ⟨t, _, hft⟩ := forall2_left hfit w hw
        rcases hft.2 with ⟨_, rfl⟩ | ⟨_, rfl⟩ | ⟨_, rfl⟩ | ⟨_, rfl⟩ | ⟨_, _, hn⟩
        · rw [List.mem_singleton.mp hm] at hs; revert hs; decide
        · rw [List.mem_singleton.mp hm] at hs; revert hs; decide
        · rw [List.mem_singleton.mp hm] at hs; revert hs; decide
        · rw [List.mem_singleton.mp hm] at hs; revert hs; decide
        · rw [nameChar_not_space (hn.2.1 c hm)] at hs; cases hs
      obtain ⟨rest, s1, s2⟩ := spells_blank line [] (by simpa using hsp) (by simp)
      rw [List.reverse_nil, List.nil_append] at s1
      change Spells line (blankWords line) rest at s1
      rw [w1] at s1
      exact ⟨simpleFml f, ⟨rest, reads_flat _ (simple_flat h4) s1 (fun x hx => name_not_reserved (w3 x hx).2.2), s2⟩, w2, fun x hx => (w3 x hx).1, w4⟩
    · exfalso
      obtain ⟨u1, u2, hu, f1, f2⟩ := forall2_split hfit
      obtain ⟨w, u3, hw, f3, rfl⟩ := List.forall₂_cons_right_iff.mp f2
      obtain ⟨_, _, _, _, w5⟩ := simple_words hc h6 f3
      rw [hu, List.reverse_append, List.reverse_cons, List.append_assoc, w5] at hp
      have hwop : w = txt!"|" ∨ w = txt!"&" ∨ w = txt!"^" := by
        rcases hw.2 with h | h | h | h | h
        · exact .inl h.2
        · exact .inr (.inl h.2)
        · exact .inr (.inr h.2)
        · rw [h.1] at h5; simp at h5
        · rw [h.1] at h5; simp at h5
      rw [List.singleton_append, stackSize, if_pos hwop] at hp
      simp at hp

end Slugs.Model.Structured
