import Verif.Lemmas.StuckAtGame

/-!
The files that `analyzeStuckAtConstant.py` checks, and its report.
-/

namespace Slugs.Model.StuckAt

open Slugs.Spec Slugs.Spec.Structured Slugs.Model Slugs.Model.Structured Slugs.Model.Core

variable {S : SSpec}

/-! ### The lines that are added -/

theorem kept_of {l : List Char} (hne : l ≠ []) (h1 : ∀ c, l.head? = some c → pySpace c = false ∧ c ≠ '[') (h2 : ∀ c, l.getLast? = some c → pySpace c = false)
    (h3 : ∀ c ∈ l, pySpace c = true → c = ' ') : Kept l where
  tight := ⟨fun c hc => (h1 c hc).1, h2, fun hm => by have := h3 _ hm (by decide); revert this; decide⟩
  ne := hne
  bracket h := (h1 _ h).2 rfl
  simple c hc hs := .inl (h3 c hc hs)

theorem fixLine_kept (hok : DeclsOk (S.inputs ++ S.outputs)) {d : Decl} (hd : d ∈ S.inputs ++ S.outputs) {x : Word} (hx : Of d x) {v : Int} (hv : v ∈ d.values) :
    Kept (fixLine d x v) ∧ isItem (fixLine d x v) = true := by
  have hn := of_nameLike hok hd hx
  have hc := nameLike_char hn
  have hne : x ≠ [] := by rintro rfl; obtain ⟨⟨c, h, _⟩, _⟩ := hn; cases h
  obtain ⟨a, r, e⟩ := List.exists_cons_of_ne_nil hne
  have ha := hc a (by simp [e])
  unfold fixLine
  cases d.range with
  | none =>
    dsimp only
    split
    · refine ⟨kept_of (by simp) ?_ ?_ ?_, isItem_iff.mpr ⟨by simp, by simp⟩⟩
      · rintro c hc'
        cases hc'
        decide
      · intro c hc'
        rw [List.getLast?_append_of_ne_nil _ hne] at hc'
        exact (hc c (List.mem_of_getLast? hc')).1
      · intro c hc' hs
        rcases List.mem_append.mp hc' with hc' | hc'
        · simp only [List.mem_cons, List.not_mem_nil, or_false] at hc'
          rcases hc' with rfl | rfl
          · revert hs; decide
          · rfl
        · rw [(hc c hc').1] at hs; cases hs
    · refine ⟨kept_of hne ?_ ?_ ?_, isItem_iff.mpr ⟨hne, ?_⟩⟩
      · exact fun c hc' => ⟨(hc c (List.mem_of_head? hc')).1, (hc c (List.mem_of_head? hc')).2.2⟩
      · exact fun c hc' => (hc c (List.mem_of_getLast? hc')).1
      · intro c hc' hs
        rw [(hc c hc').1] at hs; cases hs
      · exact fun h => (hc _ (List.mem_of_head? h)).2.1 rfl
  | some r' =>
    dsimp only
    rw [Decoder.strInt_nonneg (values_nonneg hok hd hv)]
    obtain ⟨hs1, hs2⟩ := strNat_digits v.toNat
    have hh : (x ++ txt!"=" ++ strNat v.toNat).head? = some a := by simp [e]
    refine ⟨kept_of (by simp) ?_ ?_ ?_, isItem_iff.mpr ⟨by simp, ?_⟩⟩
    · intro c hc'
      rw [hh] at hc'
      cases hc'
      exact ⟨ha.1, ha.2.2⟩
    · intro c hc'
      rw [List.getLast?_append_of_ne_nil _ hs1] at hc'
      exact digit_not_py (hs2 c (List.mem_of_getLast? hc'))
    · intro c hc' hs
      simp only [List.mem_append, List.mem_singleton] at hc'
      rcases hc' with (hc' | rfl) | hc'
      · rw [(hc c hc').1] at hs; cases hs
      · revert hs; decide
      · rw [digit_not_py (hs2 c hc')] at hs; cases hs
    · rw [hh]
      intro h
      cases h
      exact ha.2.1 rfl

/-- The file in which the variable always has the value `v`. -/
def fixedFile (J : Categories) (b a : Section) (d : Decl) (v : Int) : List Char :=
  writeSlugsFile (modified J b (fixLine d (prime d.name) v) a (fixLine d d.name v))

theorem fixed_output {J : Categories} (hok : DeclsOk (S.inputs ++ S.outputs)) (hJ : Good S J) {d : Decl} (hd : d ∈ S.outputs) {v : Int} (hv : v ∈ d.values) :
    ∃ S', SDenotes (fixedFile J .sysTrans .sysInit d v) S' ∧ (S'.game.Realizable ↔ (S.fixOutput d.name v).Realizable) := by
  have hm : d ∈ S.inputs ++ S.outputs := List.mem_append_right _ hd
  have hn : d.name ∈ S.outputNames := List.mem_map_of_mem hd
  obtain ⟨a1, a2⟩ := fixLine_kept hok hm (.inr rfl : Of d (prime d.name)) hv
  obtain ⟨b1, b2⟩ := fixLine_kept hok hm (.inl rfl : Of d d.name) hv
  have g1 := hJ.addTo (s := .sysTrans) (by decide) a1 a2 (fix_constraint hok hm (.inr rfl) hv) (allows_fix hok hm (.inr rfl) (by
    simp only [usable, List.mem_append, List.mem_map]; exact .inr ⟨_, hn, rfl⟩))
  have g2 := g1.addTo (s := .sysInit) (by decide) b1 b2 (fix_constraint (S := S) hok hm (.inl rfl) hv) (allows_fix (S := S) hok hm (.inl rfl) (by
    simp only [usable, List.mem_append]; exact .inr hn))
  exact ⟨_, g2.denotes, game_output hok hd hv⟩

theorem fixed_input {J : Categories} (hok : DeclsOk (S.inputs ++ S.outputs)) (hJ : Good S J) {d : Decl} (hd : d ∈ S.inputs) {v : Int} (hv : v ∈ d.values) :
    ∃ S', SDenotes (fixedFile J .envTrans .envInit d v) S' ∧ (S'.game.Realizable ↔ (S.fixInput d.name v).Realizable) := by
  have hm : d ∈ S.inputs ++ S.outputs := List.mem_append_left _ hd
  have hn : d.name ∈ S.inputNames := List.mem_map_of_mem hd
  obtain ⟨a1, a2⟩ := fixLine_kept hok hm (.inr rfl : Of d (prime d.name)) hv
  obtain ⟨b1, b2⟩ := fixLine_kept hok hm (.inl rfl : Of d d.name) hv
  have g1 := hJ.addTo (s := .envTrans) (by decide) a1 a2 (fix_constraint hok hm (.inr rfl) hv) (allows_fix hok hm (.inr rfl) (by
    simp only [usable, List.mem_append, List.mem_map]; exact .inr ⟨_, hn, rfl⟩))
  have g2 := g1.addTo (s := .envInit) (by decide) b1 b2 (fix_constraint (S := S) hok hm (.inl rfl) hv) (allows_fix (S := S) hok hm (.inl rfl) (by
    simp only [usable]; exact hn))
  exact ⟨_, g2.denotes, game_input hok hd hv⟩

/-! ### The values that are tried -/

theorem int2_of {s : List Char} (h1 : '_' ∉ s) (h2 : Simple s) : int2 s = toInt s := by
  rw [int2, if_neg]
  rintro (h | ⟨c, hc, h3, h4⟩)
  · exact h1 h
  · rw [isspace_pySpace, h2.iff c hc] at h3
    rw [h3] at h4
    cases h4

theorem number_no_underscore {a : List Char} {z : Int} (h : IsNumber a z) : '_' ∉ a := by
  obtain ⟨ds, _, h2, h | h⟩ := h <;> rw [h.1]
  · exact fun hm => by have := h2 _ hm; revert this; decide
  · intro hm
    rcases List.mem_cons.mp hm with hm | hm
    · revert hm; decide
    · have := h2 _ hm; revert this; decide

theorem trials_decl (J : Categories) (b a : Section) {line : List Char} {d : Decl} (h : IsDecl line d) (hk : Kept line) :
    trials J b a line = some (d.name, d.values.map fun v => ⟨d.shown v, fixedFile J b a d v⟩) := by
  cases h with
  | bool hx =>
    obtain ⟨h1, h2⟩ := tidy_chars hx
    rw [trials, if_neg (fun hm => (h2 _ hm).2.1 rfl)]
    dsimp only
    rw [hk.tight.trim]
    simp [Decl.values, Decl.shown, fixedFile, fixLine, prime]
  | @num x s1 s2 a' s3 s4 b' lo hi hx hs ha hb h0 hl =>
    obtain ⟨h1, h2⟩ := tidy_chars hx
    obtain ⟨a1, a2⟩ := number_ends ha
    obtain ⟨b1, b2⟩ := number_ends hb
    have sp : ∀ c, pySpace c = true → c ≠ '.' ∧ c ≠ ':' ∧ c ≠ '_' := by
      intro c hc
      refine ⟨?_, ?_, ?_⟩ <;> rintro rfl <;> revert hc <;> decide
    simp only [List.mem_append] at hs
    have hs1 : ∀ c ∈ s1, pySpace c = true := fun c hc => hs c (by simp [hc])
    have hs2 : ∀ c ∈ s2, pySpace c = true := fun c hc => hs c (by simp [hc])
    have hs3 : ∀ c ∈ s3, pySpace c = true := fun c hc => hs c (by simp [hc])
    have hs4 : ∀ c ∈ s4, pySpace c = true := fun c hc => hs c (by simp [hc])
    have hsim := hk.simple
    have e1 : x ++ s1 ++ ':' :: s2 ++ a' ++ s3 ++ txt!"..." ++ s4 ++ b' = (x ++ s1) ++ ':' :: (s2 ++ ((a' ++ s3) ++ txt!"..." ++ (s4 ++ b'))) := by simp
    rw [e1] at hsim ⊢
    have e2 : split txt!":" ((x ++ s1) ++ ':' :: (s2 ++ ((a' ++ s3) ++ txt!"..." ++ (s4 ++ b')))) = [x ++ s1, s2 ++ ((a' ++ s3) ++ txt!"..." ++ (s4 ++ b'))] := by
      refine split_one ?_ ?_
      · intro hm
        rcases List.mem_append.mp hm with hm | hm
        · exact (h2 _ hm).2.1 rfl
        · exact (sp _ (hs1 _ hm)).2.1 rfl
      · intro hm
        simp only [List.mem_append, List.mem_cons, List.not_mem_nil, or_false] at hm
        rcases hm with hm | ((hm | hm) | (hm | hm | hm)) | hm | hm
        · exact (sp _ (hs2 _ hm)).2.1 rfl
        · exact (a2 _ hm).2.2.1 rfl
        · exact (sp _ (hs3 _ hm)).2.1 rfl
        · revert hm; decide
        · revert hm; decide
        · revert hm; decide
        · exact (sp _ (hs4 _ hm)).2.1 rfl
        · exact (b2 _ hm).2.2.1 rfl
    have q1 : Simple (x ++ s1) := hsim.sub fun c hc => List.mem_append_left _ hc
    have q2 : Simple (s2 ++ ((a' ++ s3) ++ txt!"..." ++ (s4 ++ b'))) := hsim.sub fun c hc => List.mem_append_right _ (List.mem_cons_of_mem _ hc)
    have e3 : trim (x ++ s1) = x := by
      rw [q1.trim]
      have := pyTrim_around (a := []) (by simp) hs1 (fun c hc => (h2 c (List.mem_of_head? hc)).1) (fun c hc => (h2 c (List.mem_of_getLast? hc)).1) h1
      simpa using this
    have e4 : trim (s2 ++ ((a' ++ s3) ++ txt!"..." ++ (s4 ++ b'))) = (a' ++ s3) ++ txt!"..." ++ (s4 ++ b') := by
      rw [q2.trim]
      have := pyTrim_around (a := s2) (s := (a' ++ s3) ++ txt!"..." ++ (s4 ++ b')) (b := []) hs2 (by simp) ?_ ?_ (by simp)
      · rw [List.append_nil] at this; exact this
      · intro c hc
        obtain ⟨d, r, rfl⟩ := List.exists_cons_of_ne_nil a1
        simp only [List.cons_append, List.head?_cons, Option.some.injEq] at hc
        subst hc
        exact (a2 d (by simp)).1
      · intro c hc
        rw [← List.append_assoc, List.getLast?_append_of_ne_nil _ b1] at hc
        exact (b2 c (List.mem_of_getLast? hc)).1
    have e5 : split txt!"..." ((a' ++ s3) ++ txt!"..." ++ (s4 ++ b')) = [a' ++ s3, s4 ++ b'] := by
      refine split_dots ?_ ?_
      · intro hm
        rcases List.mem_append.mp hm with hm | hm
        · exact (a2 _ hm).2.1 rfl
        · exact (sp _ (hs3 _ hm)).1 rfl
      · intro hm
        rcases List.mem_append.mp hm with hm | hm
        · exact (sp _ (hs4 _ hm)).1 rfl
        · exact (b2 _ hm).2.1 rfl
    have e6 : int2 (a' ++ s3) = some lo := by
      rw [int2_of]
      · have := toInt_number (s := []) ha (by simp) hs3; simpa using this
      · intro hm
        rcases List.mem_append.mp hm with hm | hm
        · exact number_no_underscore ha hm
        · exact (sp _ (hs3 _ hm)).2.2 rfl
      · exact q2.sub fun c hc => by simp only [List.mem_append] at hc ⊢; tauto
    have e7 : int2 (s4 ++ b') = some hi := by
      rw [int2_of]
      · have := toInt_number (t := []) hb hs4 (by simp); simpa using this
      · intro hm
        rcases List.mem_append.mp hm with hm | hm
        · exact (sp _ (hs4 _ hm)).2.2 rfl
        · exact number_no_underscore hb hm
      · exact q2.sub fun c hc => by simp only [List.mem_append] at hc ⊢; tauto
    rw [trials, if_pos (by simp), e2]
    simp only [List.map_cons, List.map_nil, e3, e4]
    rw [e5]
    simp only [e6, e7]
    rw [if_neg (by omega)]
    simp [Decl.values, Decl.shown, fixedFile, fixLine, prime, xrange, Decoder.strInt_eq]

/-! ### The report -/

theorem listValues_tail {n : Nat} (hn : 2 < n) : ∀ (l : List (List Char)) (i : Nat), 0 < i → i + l.length = n → l ≠ [] →
    listValues n i l = (l.dropLast.map fun x => txt!", " ++ x).flatten ++ txt!", or " ++ l.getLastD []
  | [], _, _, _, h => absurd rfl h
  | [x], i, hi, hl, _ => by
    rw [listValues, if_pos hi, if_neg (by omega), if_pos ⟨by simp at hl; omega, hi⟩]
    simp [listValues]
  | x :: y :: l, i, hi, hl, _ => by
    rw [listValues, if_pos hi, if_neg (by omega), if_neg (fun h => by simp at hl; omega), listValues_tail hn (y :: l) (i + 1) (by omega) (by simp at hl ⊢; omega) (by simp)]
    simp

theorem intercalate_cons {sep a : List Char} : ∀ l : List (List Char), sep.intercalate (a :: l) = a ++ (l.map fun x => sep ++ x).flatten
  | [] => by simp [List.intercalate]
  | b :: l => by
    have := intercalate_cons (sep := sep) (a := b) l
    rw [List.intercalate, List.intersperse_cons_cons] at *
    rw [List.flatten_cons, List.flatten_cons, List.map_cons, List.flatten_cons, List.append_assoc, ← this]

theorem listValues_eq (l : List (List Char)) : listValues l.length 0 l = enumeration l := by
  match l with
  | [] => rfl
  | [a] => simp [listValues, enumeration]
  | [a, b] => simp [listValues, enumeration]
  | a :: b :: c :: l =>
    rw [listValues, listValues_tail (by simp) (b :: c :: l) 1 (by omega) (by simp; omega) (by simp), enumeration, intercalate_cons]
    simp

theorem resultLine_eq (kind : List Char) (d : Decl) (vs : List Int) : resultLine kind d.name (vs.map d.shown) = stuckLine kind d vs := by
  rw [resultLine, stuckLine, listValues_eq]
  simp only [List.length_eq_zero_iff, List.map_eq_nil_iff]

theorem nonDifference_eq {check : List Char → Option Bool} {b : Bool} {sh file : Int → List Char} {P : Int → Bool} : ∀ {vs : List Int},
    (∀ v ∈ vs, check (file v) = some (P v)) →
    nonDifferenceCausing check b (vs.map fun v => ⟨sh v, file v⟩) = some ((vs.filter fun v => P v = b).map sh)
  | [], _ => rfl
  | v :: vs, h => by
    rw [List.forall_mem_cons] at h
    rw [List.map_cons, nonDifferenceCausing, h.1]
    dsimp only
    rw [nonDifference_eq h.2, List.filter_cons]
    by_cases e : P v = b <;> simp [e]

theorem mapM_forall₂ {α β γ : Type} {R : α → β → Prop} {f : α → Option γ} {g : β → γ} : ∀ {as : List α} {bs : List β}, List.Forall₂ R as bs →
    (∀ a ∈ as, ∀ b ∈ bs, R a b → f a = some (g b)) → as.mapM f = some (bs.map g)
  | [], [], _, _ => rfl
  | a :: as, b :: bs, .cons h1 h2, h => by
    rw [List.mapM_cons, h a (by simp) b (by simp) h1, mapM_forall₂ h2 fun a ha b hb => h a (by simp [ha]) b (by simp [hb])]
    rfl

theorem filter_items {J : Categories} (h : ∀ s, ∀ l ∈ J s, Kept l) (s : Section) : ((J s).filter fun l => l.head? ≠ some '#') = (J s).filter isItem := by
  refine List.filter_congr fun l hl => ?_
  have := (h s l hl).ne
  rw [Bool.eq_iff_iff, isItem_iff]
  simp [this]

theorem forall₂_right {α β : Type} {R : α → β → Prop} : ∀ {as : List α} {bs : List β}, List.Forall₂ R as bs → ∀ {b}, b ∈ bs → ∃ a ∈ as, R a b
  | [], [], _, _, h => by cases h
  | a :: as, c :: bs, .cons h1 h2, b, h => by
    rcases List.mem_cons.mp h with rfl | h
    · exact ⟨a, by simp, h1⟩
    · obtain ⟨a', h3, h4⟩ := forall₂_right h2 h
      exact ⟨a', by simp [h3], h4⟩

/-- The files that are checked for a variable. -/
def triedFiles (J : Categories) (b a : Section) (d : Decl) : List (List Char) := d.values.map (fixedFile J b a d)

theorem tried_checked {file : List Char} {J : Categories} (h : readSlugsFile [] (fun _ => []) (splitLines file) = some J) (hJ : Good S J) :
    (∀ d ∈ S.outputs, ∀ t ∈ triedFiles J .sysTrans .sysInit d, t ∈ checkedFiles file) ∧ ∀ d ∈ S.inputs, ∀ t ∈ triedFiles J .envTrans .envInit d, t ∈ checkedFiles file := by
  rw [checkedFiles, h]
  dsimp only
  have key : ∀ {b a s : Section} {ds : List Decl}, List.Forall₂ IsDecl ((J s).filter isItem) ds → ∀ d ∈ ds, ∀ t ∈ triedFiles J b a d,
      t ∈ (((J s).filter fun l => l.head? ≠ some '#').flatMap fun line => match trials J b a line with | none => [] | some (_, ts) => ts.map Trial.file) := by
    intro b a s ds hf d hd t ht
    obtain ⟨l, hl, hld⟩ := forall₂_right hf hd
    rw [filter_items hJ.kept]
    refine List.mem_flatMap.mpr ⟨l, hl, ?_⟩
    rw [trials_decl J b a hld (hJ.kept s l (List.mem_filter.mp hl).1)]
    simpa [triedFiles] using ht
  exact ⟨fun d hd t ht => List.mem_cons_of_mem _ (List.mem_append_left _ (key hJ.outputs d hd t ht)),
    fun d hd t ht => List.mem_cons_of_mem _ (List.mem_append_right _ (key hJ.inputs d hd t ht))⟩

open Classical in
/-- If the verdicts on the files are right, then the report is right. -/
theorem analyze_eq {file : List Char} {J : Categories} (h : readSlugsFile [] (fun _ => []) (splitLines file) = some J) (hJ : Good S J)
    {check : List Char → Option Bool} (h0 : check file = some (decide S.game.Realizable))
    (h1 : ∀ d ∈ S.outputs, ∀ v ∈ d.values, check (fixedFile J .sysTrans .sysInit d v) = some (decide (S.fixOutput d.name v).Realizable))
    (h2 : ∀ d ∈ S.inputs, ∀ v ∈ d.values, check (fixedFile J .envTrans .envInit d v) = some (decide (S.fixInput d.name v).Realizable)) :
    analyze check file = some (stuckReport S) := by
  rw [analyze, h, h0, stuckReport]
  by_cases hr : S.game.Realizable
  · rw [decide_eq_true hr, if_pos hr]
    dsimp only
    rw [filter_items hJ.kept, mapM_forall₂ (g := fun d => stuckLine txt!"output signal" d (d.values.filter fun v => decide (S.fixOutput d.name v).Realizable)) hJ.outputs]
    · rfl
    · intro l hl d hd hld
      rw [analyzeLine, trials_decl J _ _ hld (hJ.kept _ l (List.mem_filter.mp hl).1)]
      dsimp only
      rw [nonDifference_eq (h1 d hd), Option.map_some, resultLine_eq]
      simp
  · rw [decide_eq_false hr, if_neg hr]
    dsimp only
    rw [filter_items hJ.kept, mapM_forall₂ (g := fun d => stuckLine txt!"input signal" d (d.values.filter fun v => decide (¬ (S.fixInput d.name v).Realizable))) hJ.inputs]
    · rfl
    · intro l hl d hd hld
      rw [analyzeLine, trials_decl J _ _ hld (hJ.kept _ l (List.mem_filter.mp hl).1)]
      dsimp only
      rw [nonDifference_eq (h2 d hd), Option.map_some, resultLine_eq]
      simp

end Slugs.Model.StuckAt
