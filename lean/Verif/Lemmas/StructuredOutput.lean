import Verif.Lemmas.StructuredLines
import Verif.Props.StructuredFormulas

/-!
The output of the structured slugs compiler.
-/

namespace Slugs.Model.Structured

open Slugs.Spec Slugs.Spec.Structured

/-! ### Names -/

theorem isDecl_ok {line : List Char} {d : Decl} (h : IsDecl line d) : Tidy d.name ∧ ∀ lo hi, d.range = some (lo, hi) → 0 ≤ lo ∧ lo ≤ hi := by
  cases h with
  | bool hx => exact ⟨hx, fun lo hi h => (by cases h)⟩
  | num hx _ _ _ h0 hl => exact ⟨hx, fun lo hi h => (by cases h; exact ⟨h0, hl⟩)⟩

theorem nameLike_tidy {x : Word} (h : Tidy x) : NameLike x := ⟨h.1, h.2.1, h.2.2.2.2⟩

theorem nameLike_prime {x : Word} (h : NameLike x) (hn : '\'' ∉ x) : NameLike (prime x) := by
  obtain ⟨⟨c, h1, h2⟩, h3, h4⟩ := h
  refine ⟨⟨c, ?_, h2⟩, ?_, ?_⟩
  · cases x with
    | nil => cases h1
    | cons d x => exact h1
  · intro d hd
    rw [prime, List.mem_append, List.mem_singleton] at hd
    rcases hd with hd | rfl
    · exact h3 d hd
    · decide
  · intro hk
    have : '\'' ∈ prime x := by simp [prime]
    revert hk this
    generalize prime x = y
    intro hk
    simp only [Slugs.Model.Structured.keywords, List.mem_cons, List.not_mem_nil, or_false] at hk
    rcases hk with rfl | rfl | rfl | rfl | rfl | rfl | rfl | rfl | rfl <;> decide

theorem strInt_digits {z : Int} (h : 0 ≤ z) : ∀ c ∈ strInt z, isDigit c = true := by
  intro c hc
  cases z with
  | ofNat n => exact decimal_digits n c hc
  | negSucc n => simp at h

theorem nameLike_bit {d : Decl} (h1 : Tidy d.name) (h2 : ∀ lo hi, d.range = some (lo, hi) → 0 ≤ lo ∧ lo ≤ hi) {b : Word} (hb : b ∈ bitsOf d) : NameLike b := by
  rcases mem_bitsOf.mp hb with ⟨_, rfl⟩ | ⟨lo, hi, k, hr, _, rfl⟩
  · exact nameLike_tidy h1
  · obtain ⟨h3, h4⟩ := h2 lo hi hr
    obtain ⟨⟨c, k1, k2⟩, k3, _⟩ := h1
    refine ⟨⟨c, ?_, k2⟩, ?_, ?_⟩
    · cases hx : d.name with
      | nil => rw [hx] at k1; cases k1
      | cons e x => rw [hx] at k1; exact k1
    · intro c hc
      have dg : ∀ {c}, isDigit c = true → nameChar c = true := fun h => by rw [nameChar, h, Bool.or_true]
      simp only [bitName, List.mem_append, List.mem_singleton] at hc
      rcases hc with ((hc | rfl) | hc) | hc
      · exact k3 c hc
      · decide
      · exact dg (decimal_digits _ c hc)
      · split at hc
        · simp only [List.mem_append, List.mem_singleton] at hc
          rcases hc with ((rfl | hc) | rfl) | hc
          · decide
          · exact dg (strInt_digits h3 c hc)
          · decide
          · exact dg (strInt_digits (by omega) c hc)
        · cases hc
    · intro hk
      have := at_bitName d.name lo hi k
      revert hk this
      generalize bitName d.name lo hi k = y
      intro hk
      simp only [Slugs.Model.Structured.keywords, List.mem_cons, List.not_mem_nil, or_false] at hk
      rcases hk with rfl | rfl | rfl | rfl | rfl | rfl | rfl | rfl | rfl <;> decide

/-- A line that is printed: its ends are no white space, and it does not start like a header. -/
structure OutLine (l : List Char) : Prop where
  tight : Tight l
  header : l.head? ≠ some '['

/-- The characters of the words of formulas. -/
def plainChar (c : Char) : Prop := pySpace c = false ∧ c ≠ '#' ∧ c ≠ '['

theorem outLine_of {l : List Char} (h1 : ∀ c, l.head? = some c → plainChar c) (h2 : ∀ c, l.getLast? = some c → plainChar c) (h3 : '\n' ∉ l) (hne : l ≠ []) :
    OutLine l ∧ isItem l = true :=
  ⟨⟨⟨fun c hc => (h1 c hc).1, fun c hc => (h2 c hc).1, h3⟩, fun h => (h1 _ h).2.2 rfl⟩, isItem_iff.mpr ⟨hne, fun h => (h1 _ h).2.1 rfl⟩⟩

theorem plain_name {c : Char} (h : nameChar c = true) : plainChar c := by
  refine ⟨?_, ?_, ?_⟩
  · rw [nameChar, Bool.or_eq_true] at h
    rcases h with hn | hn
    · have := name_not_space hn; rwa [isspace_pySpace] at this
    · exact digit_not_py hn
  all_goals rintro rfl; revert h; decide

theorem nameLike_out {w : Word} (h : NameLike w) : OutLine w ∧ isItem w = true := by
  obtain ⟨⟨c, h1, _⟩, h2, _⟩ := h
  refine outLine_of (fun c hc => plain_name (h2 c (List.mem_of_head? hc))) (fun c hc => plain_name (h2 c (List.mem_of_getLast? hc))) ?_ (fun e => (by rw [e] at h1; cases h1))
  intro hm
  have := h2 _ hm
  revert this; decide

/-! ### The text of formulas -/

theorem plain_digit {c : Char} (h : isDigit c = true) : plainChar c := plain_name (by rw [nameChar, h, Bool.or_true])

mutual
theorem words_plain : ∀ f : Fml, (∀ x ∈ f.vars, x ≠ [] ∧ ∀ c ∈ x, plainChar c) → ∀ w ∈ f.words, w ≠ [] ∧ ∀ c ∈ w, plainChar c
  | .const true, _ => by simp [Fml.words, plainChar]; decide
  | .const false, _ => by simp [Fml.words, plainChar]; decide
  | .var x, h => by simpa [Fml.words, Fml.vars] using h
  | .not f, h => by
    intro w hw
    simp only [Fml.words, List.mem_cons] at hw
    rcases hw with rfl | hw
    · simp [plainChar]; decide
    · exact words_plain f (by simpa [Fml.vars] using h) w hw
  | .bin op f g, h => by
    intro w hw
    simp only [Fml.words, List.mem_cons, List.mem_append] at hw
    rcases hw with rfl | hw | hw
    · cases op <;> simp [BinOp.word, plainChar] <;> decide
    · exact words_plain f (fun x hx => h x (by simp [Fml.vars, hx])) w hw
    · exact words_plain g (fun x hx => h x (by simp [Fml.vars, hx])) w hw
  | .buffer fs, h => by
    intro w hw
    simp only [Fml.words, List.mem_cons] at hw
    rcases hw with rfl | rfl | hw
    · simp [plainChar]; decide
    · exact ⟨decimal_ne_nil _, fun c hc => plain_digit (decimal_digits _ c hc)⟩
    · exact wordsBuffer_plain fs (by simpa [Fml.vars] using h) w hw
  | .recall i, _ => by
    intro w hw
    simp only [Fml.words, List.mem_cons, List.not_mem_nil, or_false] at hw
    rcases hw with rfl | rfl
    · simp [plainChar]; decide
    · exact ⟨decimal_ne_nil _, fun c hc => plain_digit (decimal_digits _ c hc)⟩
theorem wordsBuffer_plain : ∀ fs : List Fml, (∀ x ∈ Fml.varsBuffer fs, x ≠ [] ∧ ∀ c ∈ x, plainChar c) → ∀ w ∈ Fml.wordsBuffer fs, w ≠ [] ∧ ∀ c ∈ w, plainChar c
  | [], _ => by simp [Fml.wordsBuffer]
  | f :: fs, h => by
    intro w hw
    simp only [Fml.wordsBuffer, List.mem_append] at hw
    rcases hw with hw | hw
    · exact words_plain f (fun x hx => h x (by simp [Fml.varsBuffer, hx])) w hw
    · exact wordsBuffer_plain fs (fun x hx => h x (by simp [Fml.varsBuffer, hx])) w hw
end

theorem joinWords_ends : ∀ ws : List Word, (∀ w ∈ ws, w ≠ [] ∧ ∀ c ∈ w, plainChar c) → ws ≠ [] →
    joinWords ws ≠ [] ∧ (∀ c, (joinWords ws).head? = some c → plainChar c) ∧ (∀ c, (joinWords ws).getLast? = some c → plainChar c) ∧
    ∀ c ∈ joinWords ws, plainChar c ∨ c = ' '
  | [], _, h => absurd rfl h
  | [w], h, _ => by
    obtain ⟨h1, h2⟩ := h w (by simp)
    exact ⟨h1, fun c hc => h2 c (List.mem_of_head? hc), fun c hc => h2 c (List.mem_of_getLast? hc), fun c hc => .inl (h2 c hc)⟩
  | w :: w' :: ws, h, _ => by
    obtain ⟨h1, h2⟩ := h w (by simp)
    obtain ⟨i1, i2, i3, i4⟩ := joinWords_ends (w' :: ws) (fun x hx => h x (List.mem_cons_of_mem _ hx)) (by simp)
    rw [joinWords]
    refine ⟨by simp [h1], ?_, ?_, ?_⟩
    · intro c hc
      obtain ⟨d, r, rfl⟩ := List.exists_cons_of_ne_nil h1
      simp only [List.cons_append, List.head?_cons, Option.some.injEq] at hc
      exact hc ▸ h2 d (by simp)
    · intro c hc
      rw [List.getLast?_append_of_ne_nil _ (by simp)] at hc
      obtain ⟨d, r, e⟩ := List.exists_cons_of_ne_nil i1
      rw [e, List.getLast?_cons_cons, ← e] at hc
      exact i3 c hc
    · intro c hc
      simp only [List.mem_append, List.mem_cons] at hc
      rcases hc with hc | rfl | hc
      · exact .inl (h2 c hc)
      · exact .inr rfl
      · exact i4 c hc
    · simp

theorem words_ne (f : Fml) : f.words ≠ [] := by
  have := Fml.words_pos f
  intro e; rw [e] at this; simp at this

theorem nameLike_plain {x : Word} (h : NameLike x) : x ≠ [] ∧ ∀ c ∈ x, plainChar c := by
  obtain ⟨⟨c, h1, _⟩, h2, _⟩ := h
  exact ⟨fun e => (by rw [e] at h1; cases h1), fun c hc => plain_name (h2 c hc)⟩

theorem text_out {φ : Fml} (h : ∀ x ∈ φ.vars, NameLike x) : OutLine φ.text ∧ isItem φ.text = true ∧ ∀ c ∈ φ.text, isSpace c = true → c = ' ' := by
  obtain ⟨h1, h2, h3, h4⟩ := joinWords_ends φ.words (words_plain φ fun x hx => nameLike_plain (h x hx)) (words_ne φ)
  have hn : '\n' ∉ φ.text := by
    intro hm
    rcases h4 _ hm with h | h
    · have := h.1; revert this; decide
    · revert h; decide
  obtain ⟨k1, k2⟩ := outLine_of h2 h3 hn h1
  refine ⟨k1, k2, fun c hc hs => ?_⟩
  rcases h4 c hc with h | h
  · have := isSpace_py hs; rw [h.1] at this; cases this
  · exact h

theorem limit_flat (names : List Word) (n : Nat) : Flat (limitF names n) := by
  rw [limitF]
  generalize names.zip (List.range names.length) = l
  have : ∀ φ, Flat φ → Flat (l.foldl (fun acc (q : Word × Nat) => if 2 ^ q.2 &&& n ≠ 0 then .bin .or (.not (.var q.1)) acc else .bin .and (.not (.var q.1)) acc) φ) := by
    induction l with
    | nil => exact fun _ h => h
    | cons a l ih =>
      intro φ h
      rw [List.foldl_cons]
      refine ih _ ?_
      split
      · exact ⟨trivial, h⟩
      · exact ⟨trivial, h⟩
  exact this _ trivial

theorem limit_reads {names : List Word} {n : Nat} (h : ∀ x ∈ names, NameLike x) : ReadsLine (limitF names n).text (limitF names n) := by
  have hv : ∀ x ∈ (limitF names n).vars, NameLike x := fun x hx => h x ((limit_syn names n).2 x hx)
  refine ⟨[], reads_flat _ (limit_flat names n) (Spells.joinWords _ (Fml.words_good _ fun x hx => ?_)) (fun x hx => name_not_reserved (hv x hx)), by simp⟩
  exact ⟨(nameLike_plain (hv x hx)).1, fun c hc => not_space ((nameLike_plain (hv x hx)).2 c hc).1⟩

/-! ### All declarations -/

/-- The tables after all declarations. -/
def specConv (t : Bool) (S : SSpec) (io : List (List Char × List Char)) : Conv where
  booleanAPs := (S.inputs ++ S.outputs).flatMap apsOf
  numbers := (S.inputs ++ S.outputs).flatMap numbersOf
  io := io
  extra := S.inputs.flatMap (extraOf t txt!"[ENV") ++ S.outputs.flatMap (extraOf t txt!"[SYS")

theorem declareLines_decls (t : Bool) (v : List Char) : ∀ (L : List (List Char)) (ds : List Decl) (c : Conv), List.Forall₂ IsDecl (L.filter isItem) ds →
    (∀ l ∈ L, OutLine l) → ∃ J : List (List Char), declareLines t v L c = some ⟨c.booleanAPs ++ ds.flatMap apsOf, c.numbers ++ ds.flatMap numbersOf,
      c.io ++ J.map (fun l => (v, l)), c.extra ++ ds.flatMap (extraOf t (destOf v))⟩ ∧ J.filter isItem = flatNames ds ∧ ∀ l ∈ J, OutLine l
  | [], ds, c, h, _ => by
    cases h
    exact ⟨[], by simp [declareLines], rfl, by simp⟩
  | l :: L, ds, c, h, ho => by
    rw [List.forall_mem_cons] at ho
    by_cases hi : isItem l = true
    · rw [List.filter_cons_of_pos hi] at h
      cases h with
      | @cons _ d _ ds h1 h2 =>
        obtain ⟨J, h3, h4, h5⟩ := declareLines_decls t v L ds (addDecl t v d c) h2 ho.2
        obtain ⟨k1, k2⟩ := isDecl_ok h1
        refine ⟨bitsOf d ++ J, ?_, ?_, ?_⟩
        · rw [declareLines, declare_decl t v h1, Option.bind_some, h3]
          simp [addDecl]
        · rw [List.filter_append, h4, List.filter_eq_self.mpr (fun b hb => (nameLike_out (nameLike_bit k1 k2 hb)).2)]
          rfl
        · intro b hb
          rcases List.mem_append.mp hb with hb | hb
          · exact (nameLike_out (nameLike_bit k1 k2 hb)).1
          · exact h5 b hb
    · rw [List.filter_cons_of_neg hi] at h
      obtain ⟨J, h3, h4, h5⟩ := declareLines_decls t v L ds { c with io := c.io ++ [(v, strip l)] } h ho.2
      refine ⟨l :: J, ?_, by rw [List.filter_cons_of_neg hi, h4], by rw [List.forall_mem_cons]; exact ⟨ho.1, h5⟩⟩
      have hd : declare t v l c = some { c with io := c.io ++ [(v, strip l)] } := by
        rw [declare, if_pos]
        rw [isItem_iff] at hi
        tauto
      rw [declareLines, hd, Option.bind_some, h3, ho.1.tight.strip]
      simp

theorem linesOf_other {lines : List (List Char × List Char)} {items : List (Section × List Char)} (h : Collected lines items) {v : List Char}
    (hv : ∀ s : Section, s.header ≠ v) : linesOf v lines = [] := by
  rw [linesOf, List.filter_eq_nil_iff.mpr]
  · rfl
  · intro e he
    obtain ⟨⟨s, hs⟩, _⟩ := h.lines e he
    rw [hs]
    simpa using hv s

theorem linesOf_out {lines : List (List Char × List Char)} {items : List (Section × List Char)} (h : Collected lines items) {v : List Char} :
    ∀ l ∈ linesOf v lines, OutLine l := by
  intro l hl
  rw [linesOf] at hl
  obtain ⟨e, he, rfl⟩ := List.mem_map.mp hl
  have := h.lines e (List.mem_filter.mp he).1
  exact ⟨this.2.1, this.2.2⟩

theorem declareAll_conv (t : Bool) {S : SSpec} {lines : List (List Char × List Char)} {items : List (Section × List Char)} (h : Collected lines items)
    (h1 : List.Forall₂ IsDecl (itemsOf .input items) S.inputs) (h2 : List.Forall₂ IsDecl (itemsOf .output items) S.outputs) :
    ∃ J1 J2 : List (List Char), declareAll t lines variableTypes ⟨[], [], [], []⟩ =
        some (specConv t S (J1.map (fun l => (txt!"[INPUT]", l)) ++ J2.map (fun l => (txt!"[OUTPUT]", l)))) ∧
      (J1.filter isItem = flatNames S.inputs ∧ ∀ l ∈ J1, OutLine l) ∧ (J2.filter isItem = flatNames S.outputs ∧ ∀ l ∈ J2, OutLine l) := by
  rw [← h.items .input] at h1
  rw [← h.items .output] at h2
  obtain ⟨J1, a1, a2, a3⟩ := declareLines_decls t txt!"[INPUT]" _ S.inputs ⟨[], [], [], []⟩ h1 (linesOf_out h)
  obtain ⟨J2, b1, b2, b3⟩ := declareLines_decls t txt!"[OUTPUT]" _ S.outputs
    ⟨[] ++ S.inputs.flatMap apsOf, [] ++ S.inputs.flatMap numbersOf, [] ++ J1.map (fun l => (txt!"[INPUT]", l)), [] ++ S.inputs.flatMap (extraOf t (destOf txt!"[INPUT]"))⟩ h2
    (linesOf_out h)
  refine ⟨J1, J2, ?_, ⟨a2, a3⟩, b2, b3⟩
  have o1 : linesOf txt!"[OBSERVABLE_INPUT]" lines = [] := linesOf_other h (by intro s; cases s <;> decide)
  have o2 : linesOf txt!"[UNOBSERVABLE_INPUT]" lines = [] := linesOf_other h (by intro s; cases s <;> decide)
  have o3 : linesOf txt!"[CONTROLLABLE_INPUT]" lines = [] := linesOf_other h (by intro s; cases s <;> decide)
  simp only [Section.header] at a1 b1
  simp only [variableTypes, declareAll]
  rw [a1, Option.bind_some, b1, Option.bind_some, o1, o2, o3]
  simp only [declareLines, Option.bind_some, specConv, List.nil_append, List.flatMap_append]
  rfl

/-! ### The tables -/

theorem find_reverse {A : Type} {p : A → Bool} {l : List A} (h : ∀ a ∈ l, ∀ b ∈ l, p a = true → p b = true → a = b) : l.reverse.find? p = l.find? p := by
  cases h1 : l.find? p with
  | none =>
    rw [List.find?_eq_none] at h1 ⊢
    intro a ha; exact h1 a (by simpa using ha)
  | some a =>
    have ha := List.mem_of_find?_eq_some h1
    have hp := List.find?_some h1
    cases h2 : l.reverse.find? p with
    | none =>
      rw [List.find?_eq_none] at h2
      exact absurd hp (h2 a (by simpa using ha))
    | some b =>
      rw [h b (by simpa using List.mem_of_find?_eq_some h2) a ha (List.find?_some h2) hp]

theorem mem_numbersOf {d : Decl} {e : Word × (Int × Int) × List Word} : e ∈ numbersOf d ↔ ∃ q, d.range = some q ∧ e = (d.name, q, bitsOf d) := by
  rw [numbersOf]
  cases d.range with
  | none => simp
  | some q => simp

theorem find_numbers {x : Word} : ∀ {ds : List Decl}, DeclsOk ds → ((ds.flatMap numbersOf).find? fun e => e.1 = x) =
    (ds.find? fun d => d.name = x).bind fun d => d.range.map fun q => (d.name, q, bitsOf d)
  | [], _ => rfl
  | d :: ds, h => by
    have h' : DeclsOk ds := DeclsOk.right (a := [d]) h
    have hn : d.name ∉ ds.map Decl.name := by have := h.nodup; rw [List.map_cons, List.nodup_cons] at this; exact this.1
    rw [List.flatMap_cons, List.find?_append, find_numbers h']
    by_cases hx : d.name = x
    · rw [List.find?_cons_of_pos (by simpa using hx)]
      cases hr : d.range with
      | none =>
        have : (ds.find? fun d => d.name = x) = none := by
          rw [List.find?_eq_none]
          intro e he hh
          simp only [decide_eq_true_eq] at hh
          exact hn (by rw [hx, ← hh]; exact List.mem_map_of_mem he)
        rw [this]
        simp [numbersOf, hr]
      | some q => simp [numbersOf, hr, hx]
    · rw [List.find?_cons_of_neg (by simpa using hx)]
      have : ((numbersOf d).find? fun e => e.1 = x) = none := by
        rw [List.find?_eq_none]
        intro e he
        obtain ⟨q, _, rfl⟩ := mem_numbersOf.mp he
        simpa using hx
      rw [this, Option.none_or]

theorem specConv_names {t : Bool} {S : SSpec} {io : List (List Char × List Char)} (hok : DeclsOk (S.inputs ++ S.outputs)) : (specConv t S io).names = specNames S := by
  have key : ∀ x, ((specConv t S io).numbers.reverse.find? fun e => e.1 = x) =
      ((S.inputs ++ S.outputs).find? fun d => d.name = x).bind fun d => d.range.map fun q => (d.name, q, bitsOf d) := by
    intro x
    rw [find_reverse, ← find_numbers hok]
    · rfl
    · intro a ha b hb hpa hpb
      obtain ⟨d, hd, ha⟩ := List.mem_flatMap.mp ha
      obtain ⟨e, he, hb⟩ := List.mem_flatMap.mp hb
      obtain ⟨q, hq, rfl⟩ := mem_numbersOf.mp ha
      obtain ⟨q', hq', rfl⟩ := mem_numbersOf.mp hb
      simp only [decide_eq_true_eq] at hpa hpb
      have := hok.same hd he (hpa.trans hpb.symm)
      subst this
      rw [hq] at hq'
      cases hq'
      rfl
  rw [Conv.names]
  simp only [key]
  rw [specNames]
  congr 1
  · funext x
    rw [SSpec.bounds, Option.map_bind]
    congr 1
    funext d
    simp only [Function.comp]
    cases d.range <;> rfl
  · funext x
    rw [Option.map_bind]
    congr 1
    funext d
    simp only [Function.comp]
    cases d.range <;> rfl

theorem mem_apsOf {d : Decl} {x : Word} : x ∈ apsOf d ↔ (d.range = none ∧ (x = d.name ∨ x = prime d.name)) ∨ (d.range ≠ none ∧ x ∈ bitsOf d) := by
  rw [apsOf]
  cases hr : d.range with
  | none => simp
  | some q => simp

theorem aps_bools (S : SSpec) : S.bools ⊆ (S.inputs ++ S.outputs).flatMap apsOf := by
  intro x hx
  rw [SSpec.bools] at hx
  rcases List.mem_append.mp hx with hx | hx
  · obtain ⟨d, hd, hr, rfl⟩ := mem_boolsOf.mp hx
    exact List.mem_flatMap.mpr ⟨d, hd, mem_apsOf.mpr (.inl ⟨hr, .inl rfl⟩)⟩
  · obtain ⟨y, hy, rfl⟩ := List.mem_map.mp hx
    obtain ⟨d, hd, hr, rfl⟩ := mem_boolsOf.mp hy
    exact List.mem_flatMap.mpr ⟨d, hd, mem_apsOf.mpr (.inl ⟨hr, .inr rfl⟩)⟩

theorem unprimed_plain {x : Word} (h : '\'' ∉ x) : unprimed x = x := by
  rw [unprimed, if_neg]
  intro hp
  rw [isPrimed, beq_iff_eq] at hp
  exact h (List.mem_of_getLast? hp)

variable {S : SSpec}

theorem aps_names (hok : DeclsOk (S.inputs ++ S.outputs)) : ∀ w ∈ (S.inputs ++ S.outputs).flatMap apsOf, NameLike w := by
  intro w hw
  obtain ⟨d, hd, hw⟩ := List.mem_flatMap.mp hw
  rcases mem_apsOf.mp hw with ⟨_, rfl | rfl⟩ | ⟨_, hw⟩
  · exact nameLike_tidy (hok.tidy d hd)
  · exact nameLike_prime (nameLike_tidy (hok.tidy d hd)) (hok.tidy d hd).2.2.1
  · exact nameLike_bit (hok.tidy d hd) (hok.range d hd) hw

theorem aps_unprimed (hok : DeclsOk (S.inputs ++ S.outputs)) : ∀ w ∈ (S.inputs ++ S.outputs).flatMap apsOf, unprimed w ∈ (S.inputs ++ S.outputs).flatMap apsOf := by
  intro w hw
  obtain ⟨d, hd, hw⟩ := List.mem_flatMap.mp hw
  refine List.mem_flatMap.mpr ⟨d, hd, ?_⟩
  rcases mem_apsOf.mp hw with ⟨h, rfl | rfl⟩ | ⟨h, hw'⟩
  · rw [unprimed_plain (hok.tidy d hd).2.2.1]; exact hw
  · rw [unprimed_prime]; exact mem_apsOf.mpr (.inl ⟨h, .inl rfl⟩)
  · rw [unprimed_plain (prime_not_bit (hok.tidy d hd) hw')]; exact hw

theorem aps_no_number (hok : DeclsOk (S.inputs ++ S.outputs)) : ∀ x q, S.bounds (unprimed x) = some q → x ∉ (S.inputs ++ S.outputs).flatMap apsOf := by
  intro x q hq hx
  obtain ⟨lo, hi⟩ := q
  obtain ⟨d, hd, hn, hr⟩ := bounds_iff hq
  obtain ⟨e, he, hx⟩ := List.mem_flatMap.mp hx
  rcases mem_apsOf.mp hx with ⟨h, rfl | rfl⟩ | ⟨h, hw⟩
  · rw [unprimed_plain (hok.tidy e he).2.2.1] at hn
    rw [hok.same hd he hn, h] at hr
    cases hr
  · rw [unprimed_prime] at hn
    rw [hok.same hd he hn, h] at hr
    cases hr
  · rw [unprimed_plain (prime_not_bit (hok.tidy e he) hw)] at hn
    rcases mem_bitsOf.mp hw with ⟨h', _⟩ | ⟨lo', hi', k, _, _, rfl⟩
    · exact h h'
    · exact (hok.tidy d hd).2.2.2.1 (hn ▸ at_bitName ..)

theorem flat_nameLike (hok : DeclsOk (S.inputs ++ S.outputs)) {s : Section} {x : Word} (h : x ∈ usable s (flatNames S.inputs) (flatNames S.outputs)) : NameLike x := by
  have key : ∀ y ∈ flatNames (S.inputs ++ S.outputs), NameLike y ∧ '\'' ∉ y := by
    intro y hy
    obtain ⟨d, hd, hy⟩ := List.mem_flatMap.mp hy
    exact ⟨nameLike_bit (hok.tidy d hd) (hok.range d hd) hy, prime_not_bit (hok.tidy d hd) hy⟩
  have h := usable_names h
  rw [flatNames_append] at key
  simp only [List.mem_append, List.mem_map] at h key
  rcases h with ((h | h) | ⟨y, hy, rfl⟩) | ⟨y, hy, rfl⟩
  · exact (key x (.inl h)).1
  · exact (key x (.inr h)).1
  · exact nameLike_prime (key y (.inl hy)).1 (key y (.inl hy)).2
  · exact nameLike_prime (key y (.inr hy)).1 (key y (.inr hy)).2

/-! ### Constraints -/

theorem skip_iff {l : List Char} (h : Tight l) : ((strip l).length = 0 ∨ (strip l).take 1 = txt!"#") ↔ isItem l = false := by
  rw [h.strip, ← Bool.not_eq_true, isItem_iff]
  cases l with
  | nil => simp
  | cons c l => simp

/-- What is printed for a constraint. -/
def Converted (S : SSpec) (s : Section) (c : Constraint) (out : List Char) : Prop := out.length < 2 ^ 32 → ∃ φ, ReadsLine out φ ∧ Tr S s c φ

theorem convert_constraint (t : Bool) (io : List (List Char × List Char)) (hok : DeclsOk (S.inputs ++ S.outputs)) {s : Section} {line : List Char} {c : Constraint}
    (hc : IsConstraint S.bools line c) (ha : S.Allows s c) (ho : OutLine line) (hi : isItem line = true) :
    ∃ out, convertLine (specConv t S io) line = .ok out ∧ OutLine out ∧ isItem out = true ∧ Converted S s c out := by
  have h0 : ¬ ((strip line).length = 0 ∨ (strip line).take 1 = txt!"#") := by rw [skip_iff ho.tight, hi]; simp
  rw [convertLine, if_neg h0, ho.tight.strip, specConv_names hok]
  change ∃ out, (if isPrefixLine ((S.inputs ++ S.outputs).flatMap apsOf) (split txt!" " line) = true then Py.ok line
    else translateLine (specNames S) ((S.inputs ++ S.outputs).flatMap apsOf) line) = .ok out ∧ _
  cases hc with
  | @plain φ h1 h2 =>
    have hv : ∀ x ∈ φ.vars, unprimed x ∈ (S.inputs ++ S.outputs).flatMap apsOf := by
      intro x hx
      exact aps_unprimed hok x (aps_bools S (plain_bools (ha.2 x hx)))
    rw [if_pos (isPrefix_plain h1 (fun c hc hs => h2 c hc (isSpace_py hs)) ha.1 hv)]
    exact ⟨line, rfl, ho, hi, fun _ => ⟨φ, h1, tr_plain hok ha⟩⟩
  | @«infix» f hf =>
    have hf' := isFormula_more (aps_bools S) (aps_no_number hok) hf ha.1
    by_cases hp : isPrefixLine ((S.inputs ++ S.outputs).flatMap apsOf) (split txt!" " line) = true
    · rw [if_pos hp]
      obtain ⟨φ, h1, h2, h3, h4⟩ := isPrefix_infix (aps_names hok) (aps_unprimed hok) hf' hp
      exact ⟨line, rfl, ho, hi, fun _ => ⟨φ, h1, tr_infix hok hf ha h2 (fun w hw => .inl (h3 w hw)) (fun ρ val _ => h4 _ ρ val)⟩⟩
    · rw [if_neg hp]
      obtain ⟨out, h1⟩ := (Slugs.Props.C57_accepted_iff (specNames S) (specNames_ok hok) _ line).mpr ⟨f, hf', ha.1⟩
      obtain ⟨φ, rfl, h2, h3, h4⟩ := Slugs.Props.C58_translation_right (specNames S) (specNames_ok hok) hf' h1
      have tr := tr_infix hok hf ha h2 h3 h4
      have hn : ∀ x ∈ φ.vars, NameLike x := fun x hx => flat_nameLike hok (tr.vars x hx)
      obtain ⟨k1, k2, _⟩ := text_out hn
      refine ⟨φ.text, h1, k1, k2, fun hl => ⟨φ, Slugs.Props.reads_text φ h2 (fun x hx => ⟨⟨(nameLike_plain (hn x hx)).1, fun c hc => ?_⟩, name_not_reserved (hn x hx)⟩) hl, tr⟩⟩
      exact not_space ((nameLike_plain (hn x hx)).2 c hc).1

theorem convertLines_constraints (t : Bool) (io : List (List Char × List Char)) (hok : DeclsOk (S.inputs ++ S.outputs)) {s : Section} :
    ∀ (L : List (List Char)) (cs : List Constraint), List.Forall₂ (IsConstraint S.bools) (L.filter isItem) cs → (∀ c ∈ cs, S.Allows s c) →
    (∀ l ∈ L, OutLine l) → ∃ J, convertLines (specConv t S io) L = .ok J ∧ List.Forall₂ (Converted S s) cs (J.filter isItem) ∧ ∀ l ∈ J, OutLine l
  | [], cs, h, _, _ => by
    cases h
    exact ⟨[], rfl, .nil, by simp⟩
  | l :: L, cs, h, ha, ho => by
    rw [List.forall_mem_cons] at ho
    by_cases hi : isItem l = true
    · rw [List.filter_cons_of_pos hi] at h
      cases h with
      | @cons _ c _ cs h1 h2 =>
        rw [List.forall_mem_cons] at ha
        obtain ⟨J, k1, k2, k3⟩ := convertLines_constraints t io hok L cs h2 ha.2 ho.2
        obtain ⟨out, e1, e2, e3, e4⟩ := convert_constraint t io hok h1 ha.1 ho.1 hi
        refine ⟨out :: J, ?_, ?_, ?_⟩
        · rw [convertLines, e1, Py.bind, k1, Py.bind]
        · rw [List.filter_cons_of_pos e3]; exact .cons e4 k2
        · rw [List.forall_mem_cons]; exact ⟨e2, k3⟩
    · rw [List.filter_cons_of_neg hi] at h
      obtain ⟨J, k1, k2, k3⟩ := convertLines_constraints t io hok L cs h ha ho.2
      have e : convertLine (specConv t S io) l = .ok l := by
        rw [convertLine, if_pos ((skip_iff ho.1.tight).mpr (by simpa using hi))]
      refine ⟨l :: J, ?_, ?_, ?_⟩
      · rw [convertLines, e, Py.bind, k1, Py.bind]
      · rw [List.filter_cons_of_neg hi]; exact k2
      · rw [List.forall_mem_cons]; exact ⟨ho.1, k3⟩

theorem convertLines_append (c : Conv) {J' : List (List Char)} {L' : List (List Char)} (h' : convertLines c L' = .ok J') :
    ∀ {L J : List (List Char)}, convertLines c L = .ok J → convertLines c (L ++ L') = .ok (J ++ J')
  | [], J, h => by
    cases h
    exact h'
  | l :: L, J, h => by
    rw [convertLines] at h
    cases h1 : convertLine c l with
    | ok o =>
      rw [h1, Py.bind] at h
      cases h2 : convertLines c L with
      | ok Q =>
        rw [h2, Py.bind] at h
        cases h
        rw [List.cons_append, convertLines, h1, Py.bind, convertLines_append c h' h2, Py.bind]
        rfl
      | exc => rw [h2] at h; cases h
      | loops => rw [h2] at h; cases h
    | exc => rw [h1] at h; cases h
    | loops => rw [h1] at h; cases h

theorem convertLines_copy (c : Conv) : ∀ {L : List (List Char)}, (∀ l ∈ L, convertLine c l = .ok l) → convertLines c L = .ok L
  | [], _ => rfl
  | l :: L, h => by
    rw [List.forall_mem_cons] at h
    rw [convertLines, h.1, Py.bind, convertLines_copy c h.2, Py.bind]

theorem convertLines_length (c : Conv) : ∀ {L J : List (List Char)}, convertLines c L = .ok J → J.length = L.length
  | [], J, h => by cases h; rfl
  | l :: L, J, h => by
    rw [convertLines] at h
    cases h1 : convertLine c l with
    | ok o =>
      rw [h1, Py.bind] at h
      cases h2 : convertLines c L with
      | ok Q =>
        rw [h2, Py.bind] at h
        cases h
        rw [List.length_cons, List.length_cons, convertLines_length c h2]
      | exc => rw [h2] at h; cases h
      | loops => rw [h2] at h; cases h
    | exc => rw [h1] at h; cases h
    | loops => rw [h1] at h; cases h

/-! ### Limits -/

/-- The limits of the variables that a section gets. -/
def limitsFor (t : Bool) (S : SSpec) : Section → List Fml
  | .envInit => limits S.inputs bitsOf
  | .sysInit => limits S.outputs bitsOf
  | .envTrans => limitsT t S.inputs
  | .sysTrans => limitsT t S.outputs
  | _ => []

theorem note_out {p : List Char} (hp : '\n' ∉ p) {d : Decl} (hd : Tidy d.name) {lo hi : Int} (h0 : 0 ≤ lo) (h1 : lo ≤ hi) :
    OutLine (limitNote p d.name lo hi) ∧ isItem (limitNote p d.name lo hi) = false := by
  have hh : (limitNote p d.name lo hi).head? = some '#' := rfl
  have dg : ∀ c, isDigit c = true → c ≠ '\n' := by rintro c h rfl; revert h; decide
  have hne : strInt hi ≠ [] := by
    have : 0 ≤ hi := by omega
    cases hi with
    | ofNat n => exact decimal_ne_nil n
    | negSucc n => simp at this
  refine ⟨⟨⟨?_, ?_, ?_⟩, ?_⟩, ?_⟩
  · intro c hc; rw [hh] at hc; cases hc; decide
  · intro c hc
    rw [limitNote, List.getLast?_append_of_ne_nil _ (by simp [hne]), List.getLast?_append_of_ne_nil _ hne] at hc
    exact digit_not_py (strInt_digits (by omega) c (List.mem_of_getLast? hc))
  · intro hm
    simp only [limitNote, List.mem_append] at hm
    rcases hm with (((hm | hm) | hm) | hm) | ((hm | hm) | hm)
    · revert hm; decide
    · exact dg _ (strInt_digits h0 _ hm) rfl
    · revert hm; decide
    · have := hd.2.1 _ hm; revert this; decide
    · exact hp hm
    · revert hm; decide
    · exact dg _ (strInt_digits (by omega) _ hm) rfl
  · rw [hh]; decide
  · rw [← Bool.not_eq_true, isItem_iff, hh]; simp

theorem extra_decl (t : Bool) (dest h : List Char) {d : Decl} (hd : Tidy d.name) (hr : ∀ lo hi, d.range = some (lo, hi) → 0 ≤ lo ∧ lo ≤ hi) :
    (linesOf h (extraOf t dest d)).filter isItem = (if h = dest ++ txt!"_INIT]" then (limits [d] bitsOf).map Fml.text
      else if h = dest ++ txt!"_TRANS]" then (limitsT t [d]).map Fml.text else []) ∧
    ∀ l ∈ linesOf h (extraOf t dest d), OutLine l := by
  rw [extraOf]
  simp only [limits, limitsT, List.flatMap_cons, List.flatMap_nil, List.append_nil]
  cases hq : d.range with
  | none => simp [linesOf]
  | some q =>
    obtain ⟨lo, hi⟩ := q
    obtain ⟨h0, h1⟩ := hr lo hi hq
    dsimp only
    by_cases hs : 2 ^ bitsFor (hi - lo) = sizeOf lo hi
    · simp [hs, linesOf]
    · simp only [if_neg hs]
      have n1 := note_out (p := []) (by simp) hd h0 h1
      have n2 := note_out (p := txt!"'") (by decide) hd h0 h1
      have b1 : ∀ x ∈ (limitF (bitsOf d) (sizeOf lo hi)).vars, NameLike x := fun x hx => nameLike_bit hd hr ((limit_syn _ _).2 x hx)
      have b2 : ∀ x ∈ (limitF ((bitsOf d).map prime) (sizeOf lo hi)).vars, NameLike x := by
        intro x hx
        obtain ⟨y, hy, rfl⟩ := List.mem_map.mp ((limit_syn _ _).2 x hx)
        exact nameLike_prime (nameLike_bit hd hr hy) (prime_not_bit hd hy)
      have t1 := text_out b1
      have t2 := text_out b2
      have ne : dest ++ txt!"_INIT]" ≠ dest ++ txt!"_TRANS]" := by
        intro e; have := List.append_cancel_left e; revert this; decide
      by_cases c1 : h = dest ++ txt!"_INIT]"
      · subst c1
        cases t <;> simp [linesOf, n1, t1, ne.symm]
      · by_cases c2 : h = dest ++ txt!"_TRANS]"
        · subst c2
          cases t <;> simp [linesOf, n1, n2, t1, t2, ne]
        · have c1' : ¬ dest ++ txt!"_INIT]" = h := fun e => c1 e.symm
          have c2' : ¬ dest ++ txt!"_TRANS]" = h := fun e => c2 e.symm
          cases t <;> simp [linesOf, c1, c2, c1', c2']

theorem extra_decls (t : Bool) (dest h : List Char) : ∀ {ds : List Decl}, DeclsOk ds →
    (linesOf h (ds.flatMap (extraOf t dest))).filter isItem = (if h = dest ++ txt!"_INIT]" then (limits ds bitsOf).map Fml.text
      else if h = dest ++ txt!"_TRANS]" then (limitsT t ds).map Fml.text else []) ∧
    ∀ l ∈ linesOf h (ds.flatMap (extraOf t dest)), OutLine l
  | [], _ => by simp [linesOf, limits, limitsT]
  | d :: ds, hok => by
    obtain ⟨i1, i2⟩ := extra_decls t dest h (DeclsOk.right (a := [d]) hok)
    obtain ⟨j1, j2⟩ := extra_decl t dest h (hok.tidy d (by simp)) (hok.range d (by simp))
    rw [List.flatMap_cons, linesOf_append, List.filter_append, i1, j1]
    refine ⟨?_, fun l hl => ?_⟩
    · have e1 : limits (d :: ds) bitsOf = limits [d] bitsOf ++ limits ds bitsOf := by simp [limits]
      have e2 : limitsT t (d :: ds) = limitsT t [d] ++ limitsT t ds := by simp [limitsT]
      rw [e1, e2, List.map_append, List.map_append]
      split
      · rfl
      · split <;> simp
    · rcases List.mem_append.mp hl with hl | hl
      · exact j2 l hl
      · exact i2 l hl

theorem extra_section (t : Bool) (io : List (List Char × List Char)) (hok : DeclsOk (S.inputs ++ S.outputs)) (s : Section) :
    (linesOf s.header (specConv t S io).extra).filter isItem = (limitsFor t S s).map Fml.text ∧ ∀ l ∈ linesOf s.header (specConv t S io).extra, OutLine l := by
  obtain ⟨h1, h2⟩ := extra_decls t txt!"[ENV" s.header hok.left
  obtain ⟨h3, h4⟩ := extra_decls t txt!"[SYS" s.header hok.right
  rw [specConv]
  dsimp only
  rw [linesOf_append, List.filter_append, h1, h3]
  refine ⟨?_, fun l hl => ?_⟩
  · cases s <;> simp [Section.header, limitsFor]
  · rcases List.mem_append.mp hl with hl | hl
    · exact h2 l hl
    · exact h4 l hl

theorem limitsFor_vars (t : Bool) {s : Section} {φ : Fml} (h : φ ∈ limitsFor t S s) :
    φ.Wf 0 ∧ (∀ x ∈ φ.vars, x ∈ usable s (flatNames S.inputs) (flatNames S.outputs)) ∧ ∃ names n, φ = limitF names n := by
  have hl : ∀ {ds : List Decl} {f : Decl → List Word}, φ ∈ limits ds f → ∃ names n, φ = limitF names n := by
    intro ds f h
    obtain ⟨d, _, lo, hi, _, _, rfl⟩ := mem_limits.mp h
    exact ⟨_, _, rfl⟩
  have hlT : ∀ {ds : List Decl}, φ ∈ limitsT t ds → ∃ names n, φ = limitF names n := by
    intro ds h
    rcases mem_limitsT.mp h with ⟨_, h⟩ | h <;> exact hl h
  cases s with
  | envInit => exact ⟨(limits_vars h).1, (limits_vars h).2, hl h⟩
  | sysInit => exact ⟨(limits_vars h).1, fun x hx => List.mem_append_right _ ((limits_vars h).2 x hx), hl h⟩
  | envTrans =>
    refine ⟨(limitsT_vars h).1, fun x hx => ?_, hlT h⟩
    have := (limitsT_vars h).2 x hx
    simp only [usable, List.mem_append] at this ⊢
    tauto
  | sysTrans =>
    refine ⟨(limitsT_vars h).1, fun x hx => ?_, hlT h⟩
    have := (limitsT_vars h).2 x hx
    simp only [usable, List.mem_append] at this ⊢
    tauto
  | _ => cases h

theorem limitsFor_reads (t : Bool) (hok : DeclsOk (S.inputs ++ S.outputs)) {s : Section} {φ : Fml} (h : φ ∈ limitsFor t S s) : ReadsLine φ.text φ := by
  obtain ⟨h1, h2, names, n, rfl⟩ := limitsFor_vars t h
  have hv : ∀ x ∈ (limitF names n).vars, NameLike x := fun x hx => flat_nameLike hok (h2 x hx)
  refine ⟨[], reads_flat _ (limit_flat names n) (Spells.joinWords _ (Fml.words_good _ fun x hx => ?_)) (fun x hx => name_not_reserved (hv x hx)), by simp⟩
  exact ⟨(nameLike_plain (hv x hx)).1, fun c hc => not_space ((nameLike_plain (hv x hx)).2 c hc).1⟩

theorem flat_aps (hok : DeclsOk (S.inputs ++ S.outputs)) {s : Section} {x : Word} (h : x ∈ usable s (flatNames S.inputs) (flatNames S.outputs)) :
    unprimed x ∈ (S.inputs ++ S.outputs).flatMap apsOf := by
  have key : ∀ y ∈ flatNames (S.inputs ++ S.outputs), '\'' ∉ y ∧ y ∈ (S.inputs ++ S.outputs).flatMap apsOf := by
    intro y hy
    obtain ⟨d, hd, hy⟩ := List.mem_flatMap.mp hy
    refine ⟨prime_not_bit (hok.tidy d hd) hy, List.mem_flatMap.mpr ⟨d, hd, mem_apsOf.mpr ?_⟩⟩
    rcases mem_bitsOf.mp hy with ⟨h1, h2⟩ | ⟨lo, hi, k, h1, _⟩
    · exact .inl ⟨h1, .inl h2⟩
    · exact .inr ⟨by rw [h1]; simp, hy⟩
  have h := usable_names h
  rw [flatNames_append] at key
  simp only [List.mem_append, List.mem_map] at h key
  rcases h with ((h | h) | ⟨y, hy, rfl⟩) | ⟨y, hy, rfl⟩
  · rw [unprimed_plain (key x (.inl h)).1]; exact (key x (.inl h)).2
  · rw [unprimed_plain (key x (.inr h)).1]; exact (key x (.inr h)).2
  · rw [unprimed_prime]; exact (key y (.inl hy)).2
  · rw [unprimed_prime]; exact (key y (.inr hy)).2

theorem convertLines_extra (t : Bool) (io : List (List Char × List Char)) (hok : DeclsOk (S.inputs ++ S.outputs)) (s : Section) :
    convertLines (specConv t S io) (linesOf s.header (specConv t S io).extra) = .ok (linesOf s.header (specConv t S io).extra) := by
  obtain ⟨h1, h2⟩ := extra_section t io hok s
  refine convertLines_copy _ fun l hl => ?_
  have ho := h2 l hl
  by_cases hi : isItem l = true
  · have : l ∈ (limitsFor t S s).map Fml.text := by rw [← h1]; exact List.mem_filter.mpr ⟨hl, hi⟩
    obtain ⟨φ, hφ, rfl⟩ := List.mem_map.mp this
    obtain ⟨k1, k2, _⟩ := limitsFor_vars t hφ
    obtain ⟨_, _, k4⟩ := text_out (φ := φ) fun x hx => flat_nameLike hok (k2 x hx)
    rw [convertLine, if_neg (by rw [skip_iff ho.tight, hi]; simp), ho.tight.strip, if_pos]
    exact isPrefix_plain (limitsFor_reads t hok hφ) k4 k1 fun x hx => flat_aps hok (k2 x hx)
  · rw [convertLine, if_pos ((skip_iff ho.tight).mpr (by simpa using hi))]

/-! ### The printed file -/

/-- The lines printed for a section. -/
def block (s : Section) (L : List (List Char)) : List (List Char) := if L.length > 0 then [s.header] ++ L ++ [[]] else []

theorem content_lines {s : Section} {rest : List (List Char)} {items : List (Section × List Char)} (h : Content (some s) rest items) :
    ∀ {L : List (List Char)}, (∀ l ∈ L, OutLine l) → Content (some s) (L ++ rest) ((L.filter isItem).map (fun l => (s, l)) ++ items)
  | [], _ => h
  | l :: L, ho => by
    rw [List.forall_mem_cons] at ho
    have ih := content_lines h ho.2
    by_cases hi : isItem l = true
    · have := isItem_iff.mp hi
      rw [List.filter_cons_of_pos hi, List.map_cons, List.cons_append, List.cons_append]
      have e := ho.1.tight.trim
      have := Content.item (s := s) (l := l) (by rw [e]; exact this.1) (by rw [e]; exact this.2) (by rw [e]; exact ho.1.header) ih
      rwa [e] at this
    · rw [List.filter_cons_of_neg hi, List.cons_append]
      refine .skip ?_ ih
      rw [isItem_iff] at hi
      rw [ho.1.tight.trim]
      tauto

theorem content_block {s : Section} {rest : List (List Char)} {items : List (Section × List Char)} (h : ∀ cur, Content cur rest items) {L : List (List Char)}
    (ho : ∀ l ∈ L, OutLine l) (cur : Option Section) : Content cur (block s L ++ rest) ((L.filter isItem).map (fun l => (s, l)) ++ items) := by
  rw [block]
  split
  · rw [List.append_assoc, List.append_assoc]
    refine .header s ?_ (content_lines (.skip (.inl rfl) (h _)) ho)
    cases s <;> decide
  · rename_i hn
    have : L = [] := by simpa using hn
    subst this
    exact h cur

theorem content_blocks {J : Section → List (List Char)} : ∀ (ss : List Section), (∀ s ∈ ss, ∀ l ∈ J s, OutLine l) → ∀ cur,
    Content cur (ss.flatMap fun s => block s (J s)) (ss.flatMap fun s => ((J s).filter isItem).map fun l => (s, l))
  | [], _ => fun _ => .nil
  | s :: ss, h => by
    rw [List.forall_mem_cons] at h
    rw [List.flatMap_cons, List.flatMap_cons]
    exact content_block (content_blocks ss h.2) h.1

/-- The order in which sections are printed. -/
def properties : List Section := [.envTrans, .envInit, .sysTrans, .sysInit, .envLiveness, .sysLiveness]

theorem printProperties_eq (c : Conv) (lines : List (List Char × List Char)) (J : Section → List (List Char)) : ∀ (ss : List Section),
    (∀ s ∈ ss, convertLines c (linesOf s.header lines) = .ok (J s)) → printProperties c lines (ss.map Section.header) = .ok (ss.flatMap fun s => block s (J s))
  | [], _ => rfl
  | s :: ss, h => by
    rw [List.forall_mem_cons] at h
    have ih := printProperties_eq c lines J ss h.2
    have hl := convertLines_length c h.1
    rw [List.map_cons, printProperties, List.flatMap_cons, block, hl]
    split
    · rw [h.1, Py.bind, ih, Py.bind]
    · exact ih

theorem itemsOf_blocks {F : Section → List (List Char)} (s : Section) : ∀ {ss : List Section}, ss.Nodup → s ∈ ss →
    itemsOf s (ss.flatMap fun s => (F s).map fun l => (s, l)) = F s
  | s' :: ss, hn, hm => by
    rw [List.nodup_cons] at hn
    have app : ∀ a b, itemsOf s (a ++ b) = itemsOf s a ++ itemsOf s b := by intro a b; simp [itemsOf]
    have other : ∀ {ss : List Section}, s ∉ ss → itemsOf s (ss.flatMap fun s => (F s).map fun l => (s, l)) = [] := by
      intro ss hs
      rw [itemsOf, List.filter_eq_nil_iff.mpr]
      · rfl
      · intro e he
        obtain ⟨r, hr, he⟩ := List.mem_flatMap.mp he
        obtain ⟨l, _, rfl⟩ := List.mem_map.mp he
        simp only [decide_eq_true_eq]
        rintro rfl
        exact hs hr
    rw [List.flatMap_cons, app]
    by_cases h : s = s'
    · subst h
      rw [other hn.1, List.append_nil, itemsOf, List.filter_eq_self.mpr]
      · simp [Function.comp_def]
      · intro e he
        obtain ⟨l, _, rfl⟩ := List.mem_map.mp he
        simp
    · rw [itemsOf_blocks s hn.2 ((List.mem_cons.mp hm).resolve_left h)]
      have : itemsOf s ((F s').map fun l => (s', l)) = [] := by
        rw [itemsOf, List.filter_eq_nil_iff.mpr]
        · rfl
        · intro e he
          obtain ⟨l, _, rfl⟩ := List.mem_map.mp he
          simp only [decide_eq_true_eq]
          exact fun e => h e.symm
      rw [this, List.nil_append]

/-- The constraints of a section. -/
def constraintsOf (S : SSpec) : Section → List Constraint
  | .envInit => S.envInit
  | .sysInit => S.sysInit
  | .envTrans => S.envTrans
  | .sysTrans => S.sysTrans
  | .envLiveness => S.envLiveness
  | .sysLiveness => S.sysLiveness
  | _ => []

theorem denotes_decls {text : List Char} (h : SDenotes text S) : DeclsOk (S.inputs ++ S.outputs) := by
  obtain ⟨items, _, h1, h2, _⟩ := h.content
  have hd : ∀ d ∈ S.inputs ++ S.outputs, ∃ line, IsDecl line d := by
    intro d hd
    rcases List.mem_append.mp hd with hd | hd
    · obtain ⟨l, _, hl⟩ := (forall2_mem h1).2 d hd; exact ⟨l, hl⟩
    · obtain ⟨l, _, hl⟩ := (forall2_mem h2).2 d hd; exact ⟨l, hl⟩
  refine ⟨fun d hm => ?_, ?_, fun d hm => ?_⟩
  · obtain ⟨l, hl⟩ := hd d hm; exact (isDecl_ok hl).1
  · have := h.nodup; rwa [SSpec.names, SSpec.inputNames, SSpec.outputNames, ← List.map_append] at this
  · obtain ⟨l, hl⟩ := hd d hm; exact (isDecl_ok hl).2

theorem denotes_sections {text : List Char} (h : SDenotes text S) : ∃ items, SContent none (splitLines (universal text)) items ∧
    List.Forall₂ IsDecl (itemsOf .input items) S.inputs ∧ List.Forall₂ IsDecl (itemsOf .output items) S.outputs ∧
    ∀ s, s ∈ properties → List.Forall₂ (IsConstraint S.bools) (itemsOf s items) (constraintsOf S s) ∧ ∀ c ∈ constraintsOf S s, S.Allows s c := by
  obtain ⟨items, h0, h1, h2, c1, c2, c3, c4, c5, c6⟩ := h.content
  refine ⟨items, h0, h1, h2, fun s hs => ?_⟩
  cases s with
  | input => exact absurd hs (by decide)
  | output => exact absurd hs (by decide)
  | envInit => exact ⟨c1, h.envInit⟩
  | sysInit => exact ⟨c2, h.sysInit⟩
  | envTrans => exact ⟨c3, h.envTrans⟩
  | sysTrans => exact ⟨c4, h.sysTrans⟩
  | envLiveness => exact ⟨c5, h.envLiveness⟩
  | sysLiveness => exact ⟨c6, h.sysLiveness⟩

theorem converted_all {s : Section} : ∀ {cs : List Constraint} {outs : List (List Char)}, List.Forall₂ (Converted S s) cs outs → (∀ l ∈ outs, l.length < 2 ^ 32) →
    ∃ es, List.Forall₂ (Tr S s) cs es ∧ List.Forall₂ ReadsLine outs es
  | _, _, .nil, _ => ⟨[], .nil, .nil⟩
  | _, _, .cons h hs, hl => by
    rw [List.forall_mem_cons] at hl
    obtain ⟨es, h1, h2⟩ := converted_all hs hl.2
    obtain ⟨φ, h3, h4⟩ := h hl.1
    exact ⟨φ :: es, .cons h4 h1, .cons h3 h2⟩

theorem reads_append {a b : List (List Char)} {x y : List Fml} (h : List.Forall₂ ReadsLine a x) (h' : List.Forall₂ ReadsLine b y) :
    List.Forall₂ ReadsLine (a ++ b) (x ++ y) := by
  induction h with
  | nil => exact h'
  | cons h _ ih => exact .cons h ih

theorem reads_map {l : List Fml} (h : ∀ φ ∈ l, ReadsLine φ.text φ) : List.Forall₂ ReadsLine (l.map Fml.text) l := by
  induction l with
  | nil => exact .nil
  | cons φ l ih =>
    rw [List.forall_mem_cons] at h
    exact .cons h.1 (ih h.2)

theorem linesOf_tag (v w : List Char) (J : List (List Char)) : linesOf v (J.map fun l => (w, l)) = if v = w then J else [] := by
  rw [linesOf]
  split
  · rename_i h
    subst h
    rw [List.filter_eq_self.mpr (by simp)]
    simp [Function.comp_def]
  · rename_i h
    rw [List.filter_eq_nil_iff.mpr]
    · rfl
    · simp only [List.mem_map, decide_eq_true_eq]
      rintro _ ⟨l, _, rfl⟩ e
      exact h e.symm

theorem before_block {A R before after : List (Section × List Char)} {s : Section} {line : List Char} (h : A ++ R = before ++ (s, line) :: after)
    (hA : ∀ e ∈ A, e.1 = .input ∨ e.1 = .output) (hs : s ≠ .input ∧ s ≠ .output) : ∃ b, before = A ++ b := by
  rcases List.append_eq_append_iff.mp h with ⟨b, hb, _⟩ | ⟨c, hc, h2⟩
  · exact ⟨b, hb⟩
  · cases c with
    | nil => exact ⟨[], by simp [hc]⟩
    | cons e c =>
      rw [List.cons_append, List.cons.injEq] at h2
      have := hA (s, line) (by rw [hc, h2.1]; simp)
      rcases this with h | h
      · exact absurd h hs.1
      · exact absurd h hs.2

/-- The compiler prints a file whose game encodes the game of the structured specification. -/
theorem convert_denotes (t : Bool) {text : List Char} (h : SDenotes text S) :
    ∃ out, convert t text = .ok out ∧ ∀ cap, (∀ l ∈ splitLines out, l.length ≤ cap) → cap < 2 ^ 32 →
      ∃ sp, Denotes out sp ∧ ProperFile cap out ∧ (∃ f g, Embeds S.game sp.game f g ∧ (∀ i x, f i x = enc S.inputs i.1 x.1) ∧ ∀ o x, g o x = enc S.outputs o.1 x.1) ∧ sp.inputs = flatNames S.inputs ∧ sp.outputs = flatNames S.outputs := by
  have hok := denotes_decls h
  obtain ⟨items, h0, h1, h2, hc⟩ := denotes_sections h
  obtain ⟨lines, hr, hcol⟩ := readSections_collected h0 (splitLines_clean _)
  obtain ⟨J1, J2, hd, ⟨j1, o1⟩, j2, o2⟩ := declareAll_conv t hcol h1 h2
  set io := J1.map (fun l => (txt!"[INPUT]", l)) ++ J2.map (fun l => (txt!"[OUTPUT]", l)) with hio
  have hs : ∀ s, s ∈ properties → ∃ J K, convertLines (specConv t S io) (linesOf s.header (lines ++ (specConv t S io).extra)) = .ok J ∧ (∀ l ∈ J, OutLine l) ∧
      J.filter isItem = K ++ (limitsFor t S s).map Fml.text ∧ List.Forall₂ (Converted S s) (constraintsOf S s) K := by
    intro s hs
    have hh := (hc s hs).1
    rw [← hcol.items s] at hh
    obtain ⟨J, k1, k2, k3⟩ := convertLines_constraints t io hok _ _ hh (hc s hs).2 (linesOf_out hcol)
    obtain ⟨e1, e2⟩ := extra_section t io hok s
    refine ⟨J ++ linesOf s.header (specConv t S io).extra, J.filter isItem, ?_, ?_, ?_, k2⟩
    · rw [linesOf_append]
      exact convertLines_append _ (convertLines_extra t io hok s) k1
    · intro l hl
      rcases List.mem_append.mp hl with hl | hl
      · exact k3 l hl
      · exact e2 l hl
    · rw [List.filter_append, e1]
  choose! J0 K hJ hJo hJi hJc using hs
  set J : Section → List (List Char) := fun s => match s with | .input => J1 | .output => J2 | s => J0 s with hJdef
  have eJ : ∀ s ∈ properties, J s = J0 s := by
    intro s hs
    cases s with
    | input => exact absurd hs (by decide)
    | output => exact absurd hs (by decide)
    | _ => rfl
  set ss : List Section := [.input, .output] ++ properties with hss
  have ho : ∀ s ∈ ss, ∀ l ∈ J s, OutLine l := by
    intro s hs
    rw [hss] at hs
    rcases List.mem_append.mp hs with hs | hs
    · simp only [List.mem_cons, List.not_mem_nil, or_false] at hs
      rcases hs with rfl | rfl
      · exact o1
      · exact o2
    · rw [eJ s hs]; exact hJo s hs
  have hcont := content_blocks ss ho none
  have hbl : ∀ l ∈ ss.flatMap fun s => block s (J s), '\n' ∉ l := by
    intro l hl
    obtain ⟨s, hs, hl⟩ := List.mem_flatMap.mp hl
    rw [block] at hl
    split at hl
    · simp only [List.mem_append, List.mem_singleton] at hl
      rcases hl with (rfl | hl) | rfl
      · cases s <;> decide
      · exact (ho s hs l hl).tight.line
      · simp
    · cases hl
  have hit : ∀ s, itemsOf s (ss.flatMap fun s => ((J s).filter isItem).map fun l => (s, l)) = (J s).filter isItem := by
    intro s
    exact itemsOf_blocks (F := fun s => (J s).filter isItem) s (by decide) (by cases s <;> decide)
  refine ⟨printLines (ss.flatMap fun s => block s (J s)), ?_, ?_⟩
  · have hp : printProperties (specConv t S io) (lines ++ (specConv t S io).extra) propertyTypes = .ok (properties.flatMap fun s => block s (J s)) := by
      refine printProperties_eq _ _ J properties fun s hs => ?_
      rw [eJ s hs]; exact hJ s hs
    have hv : variableTypes.flatMap (printDeclarations (specConv t S io).io) = block .input J1 ++ block .output J2 := by
      change variableTypes.flatMap (printDeclarations io) = _
      have e : ∀ v, linesOf v io = (if v = txt!"[INPUT]" then J1 else []) ++ if v = txt!"[OUTPUT]" then J2 else [] := by
        intro v; rw [hio, linesOf_append, linesOf_tag, linesOf_tag]
      simp only [variableTypes, List.flatMap_cons, List.flatMap_nil, printDeclarations, e, block, Section.header]
      simp
    rw [convert, pyLines_eq]
    change readSections [] _ = _ at hr
    rw [hr, Py.ofOption, Py.bind, hd, Py.ofOption, Py.bind, hp, Py.bind, hv]
    congr 2
    rw [hss, List.flatMap_append]
    simp [hJdef]
  · intro cap hcap h32
    rw [splitLines_printLines _ hbl] at hcap
    have hlen : ∀ s ∈ ss, ∀ l ∈ J s, l.length ≤ cap := by
      intro s hs l hl
      refine hcap l (List.mem_flatMap.mpr ⟨s, hs, ?_⟩)
      rw [block, if_pos (List.length_pos_of_mem hl)]
      simp [hl]
    have hss' : ∀ s ∈ properties, s ∈ ss := fun s hs => List.mem_append_right _ hs
    have he : ∀ s, s ∈ properties → ∃ es, List.Forall₂ (Tr S s) (constraintsOf S s) es ∧ List.Forall₂ ReadsLine (K s) es := by
      intro s hs
      refine converted_all (hJc s hs) fun l hl => ?_
      have : l ∈ (J0 s).filter isItem := by rw [hJi s hs]; exact List.mem_append_left _ hl
      have := hlen s (hss' s hs) l (by rw [eJ s hs]; exact (List.mem_filter.mp this).1)
      omega
    choose! es hT hR using he
    have hreads : ∀ s, s ∈ properties → List.Forall₂ ReadsLine ((J s).filter isItem) (es s ++ limitsFor t S s) := by
      intro s hs
      rw [eJ s hs, hJi s hs]
      exact reads_append (hR s hs) (reads_map fun φ hφ => limitsFor_reads t hok hφ)
    refine ⟨fullSpec t S (es .envInit) (es .sysInit) (es .envTrans) (es .sysTrans) (es .envLiveness) (es .sysLiveness), ?_, ?_, ?_, rfl, rfl⟩
    · refine ⟨_, by rw [splitLines_printLines _ hbl]; exact hcont, ?_, ?_, ?_, ?_, ?_, ?_, ?_, ?_⟩
      · rw [hit]; exact j1.symm
      · rw [hit]; exact j2.symm
      · rw [hit]; exact hreads .envInit (by decide)
      · rw [hit]; exact hreads .sysInit (by decide)
      · rw [hit]; exact hreads .envTrans (by decide)
      · rw [hit]; exact hreads .sysTrans (by decide)
      · rw [hit]; have := hreads .envLiveness (by decide); simpa [limitsFor, fullSpec] using this
      · rw [hit]; have := hreads .sysLiveness (by decide); simpa [limitsFor, fullSpec] using this
    · refine ⟨_, by rw [splitLines_printLines _ hbl]; exact hcont, ?_, ?_⟩
      · rw [hit, hit, show (J .input).filter isItem = flatNames S.inputs from j1, show (J .output).filter isItem = flatNames S.outputs from j2,
          List.append_assoc, ← List.map_append, ← flatNames_append, List.nodup_append]
        refine ⟨flatNames_nodup hok, (flatNames_nodup hok).map fun x y h => prime_inj h, ?_⟩
        rintro x hx y hy rfl
        obtain ⟨z, _, rfl⟩ := List.mem_map.mp hy
        exact flat_prime hok z hx
      · intro before s line after hsplit n1 n2
        have hsp : s ∈ properties := by cases s <;> first | decide | exact absurd rfl n1 | exact absurd rfl n2
        have hmem : line ∈ (J s).filter isItem := by
          rw [← hit s, hsplit, itemsOf]
          simp
        refine ⟨hlen s (hss' s hsp) line (List.mem_filter.mp hmem).1, ?_⟩
        obtain ⟨φ, hφ, hrd⟩ := (forall2_mem (hreads s hsp)).1 line hmem
        have hwf : φ.Wf 0 ∧ ∀ x ∈ φ.vars, x ∈ usable s (flatNames S.inputs) (flatNames S.outputs) := by
          rcases List.mem_append.mp hφ with hφ | hφ
          · obtain ⟨c, _, hc⟩ := (forall2_mem (hT s hsp)).2 φ hφ
            exact ⟨hc.wf, hc.vars⟩
          · obtain ⟨k1, k2, _⟩ := limitsFor_vars t hφ
            exact ⟨k1, k2⟩
        refine ⟨φ, hrd, hwf.1, ?_⟩
        rw [hss, List.flatMap_append] at hsplit
        obtain ⟨b, hb⟩ := before_block hsplit (by
          intro e he
          obtain ⟨r, hr, he⟩ := List.mem_flatMap.mp he
          obtain ⟨l, _, rfl⟩ := List.mem_map.mp he
          simpa using hr) ⟨n1, n2⟩
        have hA : ∀ r : Section, r = .input ∨ r = .output → (J r).filter isItem ⊆ itemsOf r before := by
          intro r hr l hl
          rw [hb, itemsOf]
          refine List.mem_map.mpr ⟨(r, l), List.mem_filter.mpr ⟨List.mem_append_left _ (List.mem_flatMap.mpr ⟨r, by simpa using hr, List.mem_map.mpr ⟨l, hl, rfl⟩⟩), by simp⟩, rfl⟩
        have i1 : flatNames S.inputs ⊆ itemsOf .input before := by rw [← j1]; exact hA .input (.inl rfl)
        have i2 : flatNames S.outputs ⊆ itemsOf .output before := by rw [← j2]; exact hA .output (.inr rfl)
        intro x hx
        exact usable_map (fun h => i1 h) (fun h => i2 h) (fun h => List.map_subset _ i1 h) (fun h => List.map_subset _ i2 h) (hwf.2 x hx)
    · exact ⟨_, _, full_embeds t hok (hT .envInit (by decide)) (hT .sysInit (by decide)) (hT .envTrans (by decide)) (hT .sysTrans (by decide))
        (hT .envLiveness (by decide)) (hT .sysLiveness (by decide)), fun _ _ => rfl, fun _ _ => rfl⟩

end Slugs.Model.Structured
