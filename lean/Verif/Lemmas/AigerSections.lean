import Verif.Lemmas.AigerEncode

/-!
The conjunction of the lines of a section, and the dictionaries.
-/

namespace Slugs.Model.Aiger

open Slugs.Spec Slugs.Spec.Aag
open Slugs.Model.Structured (words_ne_nil)

/-- The conjunction as the program writes it. -/
def conj : List Fml → Fml
  | [] => .const true
  | f :: fs => fs.foldl (.bin .and) f

theorem joinWords_append {ws ws' : List Word} (h : ws ≠ []) (h' : ws' ≠ []) : joinWords (ws ++ ws') = joinWords ws ++ ' ' :: joinWords ws' := by
  induction ws with
  | nil => exact absurd rfl h
  | cons w ws ih =>
    cases ws with
    | nil =>
      cases ws' with
      | nil => exact absurd rfl h'
      | cons w' ws' => simp [joinWords]
    | cons w2 ws =>
      have := ih (by simp)
      simp only [List.cons_append, joinWords] at this ⊢
      rw [this]; simp

theorem flatMap_words_ne {f : Fml} {fs : List Fml} : (f :: fs).flatMap Fml.words ≠ [] := by
  rw [List.flatMap_cons]
  exact fun h => words_ne_nil f (List.append_eq_nil_iff.mp h).1

theorem joinWords_texts (f : Fml) (fs : List Fml) : joinWords ((f :: fs).map Fml.text) = joinWords ((f :: fs).flatMap Fml.words) := by
  induction fs generalizing f with
  | nil => simp [joinWords, Fml.text]
  | cons g fs ih =>
    rw [List.flatMap_cons, joinWords_append (words_ne_nil f) flatMap_words_ne, ← ih g]
    simp [joinWords, Fml.text]

theorem joinWords_ands (n : Nat) {ws : List Word} (h : ws ≠ []) : (List.replicate n txt!"& ").flatten ++ joinWords ws = joinWords (List.replicate n txt!"&" ++ ws) := by
  induction n with
  | zero => rfl
  | succ n ih =>
    rw [List.replicate_succ, List.flatten_cons, List.append_assoc, ih, List.replicate_succ, List.cons_append]
    cases hw : List.replicate n txt!"&" ++ ws with
    | nil => exact absurd (List.append_eq_nil_iff.mp hw).2 h
    | cons w ws' => 
      change _ = joinWords (['&'] :: (List.replicate n ['&'] ++ ws))
      rw [hw]; rfl

theorem foldl_words (fs : List Fml) : ∀ f : Fml, (fs.foldl (.bin .and) f).words = List.replicate fs.length txt!"&" ++ (f :: fs).flatMap Fml.words := by
  induction fs with
  | nil => intro f; simp
  | cons g fs ih =>
    intro f
    rw [List.foldl_cons, ih]
    simp only [List.flatMap_cons, Fml.words, BinOp.word, List.length_cons, List.replicate_succ']
    simp

theorem conjunction_text (f : Fml) (fs : List Fml) : conjunction ((f :: fs).map Fml.text) = (conj (f :: fs)).text := by
  rw [conjunction, joinWords_texts, joinWords_ands _ flatMap_words_ne, Fml.text, conj, foldl_words]
  simp

theorem conj_vars {fs : List Fml} {x : Word} (h : x ∈ (conj fs).vars) : ∃ f ∈ fs, x ∈ f.vars := by
  cases fs with
  | nil => simp [conj, Fml.vars] at h
  | cons f fs =>
    rw [conj] at h
    induction fs generalizing f with
    | nil => exact ⟨f, by simp, h⟩
    | cons g fs ih =>
      rw [List.foldl_cons] at h
      obtain ⟨f', hf', hx⟩ := ih _ h
      rcases List.mem_cons.mp hf' with rfl | hf'
      · rcases List.mem_append.mp (by simpa only [Fml.vars] using hx) with hx | hx
        · exact ⟨f, by simp, hx⟩
        · exact ⟨g, by simp, hx⟩
      · exact ⟨f', by simp [hf'], hx⟩

theorem conj_wf {fs : List Fml} (h : ∀ f ∈ fs, f.Wf 0) : (conj fs).Wf 0 := by
  cases fs with
  | nil => simp [conj, Fml.Wf]
  | cons f fs =>
    rw [conj]
    induction fs generalizing f with
    | nil => exact h f (by simp)
    | cons g fs ih =>
      rw [List.foldl_cons]
      refine ih _ fun f' hf' => ?_
      rcases List.mem_cons.mp hf' with rfl | hf'
      · exact ⟨h f (by simp), h g (by simp)⟩
      · exact h f' (by simp [hf'])

theorem bin_and_true {ρ : Word → Bool} {f g : Fml} : (Fml.bin .and f g).eval ρ [] = some true ↔ f.eval ρ [] = some true ∧ g.eval ρ [] = some true := by
  rw [Fml.eval]
  cases h1 : f.eval ρ [] with
  | none => simp
  | some a =>
    cases h2 : g.eval ρ [] with
    | none => simp
    | some b => simp [BinOp.apply]

theorem conj_eval {fs : List Fml} {ρ : Word → Bool} : (conj fs).eval ρ [] = some true ↔ ∀ f ∈ fs, f.eval ρ [] = some true := by
  cases fs with
  | nil => simp [conj, Fml.eval]
  | cons f fs =>
    rw [conj]
    induction fs generalizing f with
    | nil => simp
    | cons g fs ih =>
      rw [List.foldl_cons, ih]
      simp only [List.forall_mem_cons, bin_and_true, and_assoc]

/-- The lines of a section, one more if there are none. -/
def fillLines (l : List (List Char)) : List (List Char) := if l.length = 0 then [txt!"1"] else l

theorem encodeSection_spec (d : Dict) (fs : List Fml) (s : St) (hw : ∀ f ∈ fs, f.Wf 0) (hx : ∀ f ∈ fs, ∀ x ∈ f.vars, Usable d x) :
    ∃ G r, encodeSection d (fillLines (fs.map Fml.text)) s = some (r, emit s G) ∧ Computes d [] (conj fs) s.used G r := by
  have e : conjunction (fillLines (fs.map Fml.text)) = (conj fs).text := by
    cases fs with
    | nil => decide
    | cons f fs => rw [← conjunction_text, fillLines, if_neg (by simp)]
  have hl : (conj fs).words.length ≤ (conj fs).text.length + 1 := length_joinWords _
  obtain ⟨G, r, h1, h2⟩ := encode_spec d (conj fs) [] [] s ((conj fs).text.length + 1) hl (conj_wf hw) (fun x h => let ⟨f, hf, hxf⟩ := conj_vars h; hx f hf x hxf)
  refine ⟨G, r, ?_, h2⟩
  rw [List.append_nil] at h1
  rw [encodeSection]
  dsimp only
  rw [e]
  have h1' : encode d ((conj fs).text.length + 1) [] (conj fs).text s = some (joinWords [], r, emit s G) := h1
  rw [h1']
  simp [joinWords]

/-! ### Dictionaries -/

theorem lookup_set (d : Dict) (x y : Word) (n : Nat) : (d.set x n).lookup y = if y = x then some n else d.lookup y := by
  rw [Dict.set, List.lookup_append]
  by_cases h : y = x
  · subst h
    have : (d.filter fun e => e.1 ≠ y).lookup y = none := by
      rw [List.lookup_eq_none_iff]
      intro p hp
      have := (List.mem_filter.mp hp).2
      simp only [ne_eq, decide_eq_true_eq] at this
      simpa using fun e => this e.symm
    rw [this, if_pos rfl]
    simp
  · rw [if_neg h]
    have h0 : List.lookup y [(x, n)] = none := by simp [List.lookup, beq_false_of_ne h]
    rw [h0, Option.or_none]
    induction d with
    | nil => rfl
    | cons e d ih =>
      obtain ⟨z, k⟩ := e
      rw [List.filter_cons]
      by_cases hz : z = x
      · subst hz
        simp only [ne_eq, not_true_eq_false, decide_false, Bool.false_eq_true, if_false]
        rw [List.lookup_cons, beq_false_of_ne h, ih]
      · simp only [ne_eq, hz, not_false_eq_true, decide_true, if_true]
        rw [List.lookup_cons, List.lookup_cons, ih]

theorem length_set {d : Dict} {x : Word} (n : Nat) (h : d.lookup x = none) : (d.set x n).length = d.length + 1 := by
  rw [Dict.set, List.length_append, List.filter_eq_self.mpr]
  · simp
  · intro e he
    rw [List.lookup_eq_none_iff] at h
    have := h e he
    simp only [ne_eq, decide_eq_true_eq]
    rintro rfl
    simp at this

/-- What `numberVariables` yields. -/
theorem numberVariables_spec (xs : List Word) : ∀ (d : Dict) (s : St), xs.Nodup → (∀ x ∈ xs, d.lookup x = none) →
    ∃ d', numberVariables xs d s = (d', ⟨s.used + xs.length, s.nofGates, s.lines ++ (List.range' (s.used + 1) xs.length).map fun n => [2 * n]⟩) ∧
      d'.length = d.length + xs.length ∧ (∀ k x, xs[k]? = some x → d'.lookup x = some (2 * (s.used + 1 + k))) ∧ ∀ y, y ∉ xs → d'.lookup y = d.lookup y := by
  induction xs with
  | nil => intro d s _ _; exact ⟨d, by simp [numberVariables], by simp, by simp, by simp⟩
  | cons x xs ih =>
    intro d s hn hd
    rw [List.nodup_cons] at hn
    obtain ⟨d', h1, h2, h3, h4⟩ := ih (d.set x ((s.use 1).used * 2)) ((s.use 1).line [(s.use 1).used * 2]) hn.2 (fun y hy => by
      rw [lookup_set, if_neg (by rintro rfl; exact hn.1 hy)]; exact hd y (by simp [hy]))
    refine ⟨d', ?_, ?_, fun k y hk => ?_, fun y hy => ?_⟩
    · rw [numberVariables, h1]
      simp [St.use, St.line, List.range'_succ, Nat.mul_comm]; omega
    · rw [h2, length_set _ (hd x (by simp))]; simp; omega
    · cases k with
      | zero =>
        simp only [List.getElem?_cons_zero, Option.some.injEq] at hk
        subst hk
        rw [h4 x hn.1, lookup_set, if_pos rfl]
        simp [St.use]; omega
      | succ k =>
        rw [List.getElem?_cons_succ] at hk
        rw [h3 k y hk]
        simp [St.use, St.line]; omega
    · rw [List.mem_cons, not_or] at hy
      rw [h4 y hy.2, lookup_set, if_neg hy.1]

/-- What `oldValues` yields. -/
theorem oldValues_spec {d : Dict} (m : Nat) (xs : List Word) : ∀ (d0 : Dict) (s : St) (j : Nat), (xs ++ xs.map prime).Nodup →
    (∀ k x, xs[k]? = some x → d.lookup x = some (2 * (m + j + k))) →
    ∃ d', oldValues d xs d0 s = some (d', ⟨s.used + xs.length, s.nofGates, s.lines ++ (List.range xs.length).map fun k => [2 * (s.used + 1 + k), 2 * (m + j + k)]⟩) ∧
      (∀ k x, xs[k]? = some x → d'.lookup x = some (2 * (s.used + 1 + k)) ∧ d'.lookup (prime x) = some (2 * (m + j + k))) ∧
      ∀ y, y ∉ xs → y ∉ xs.map prime → d'.lookup y = d0.lookup y := by
  induction xs with
  | nil => intro d0 s j _ _; exact ⟨d0, by simp [oldValues], by simp, by simp⟩
  | cons x xs ih =>
    intro d0 s j hn hd
    simp only [List.map_cons, List.cons_append, List.nodup_cons, List.mem_append, List.mem_cons, not_or] at hn
    obtain ⟨⟨n1, n2, n3⟩, n4⟩ := hn
    have n5 : (xs ++ xs.map prime).Nodup := by
      rw [List.nodup_middle] at n4
      exact (List.nodup_cons.mp n4).2
    have n6 : prime x ∉ xs ∧ prime x ∉ xs.map prime := by
      rw [List.nodup_middle] at n4
      have := (List.nodup_cons.mp n4).1
      simp only [List.mem_append, not_or] at this
      exact this
    have hx : d.lookup x = some (2 * (m + j)) := by have := hd 0 x rfl; simpa using this
    obtain ⟨d', h1, h2, h3⟩ := ih ((d0.set x ((s.use 1).used * 2)).set (x ++ txt!"'") (2 * (m + j))) ((s.use 1).line [(s.use 1).used * 2, 2 * (m + j)]) (j + 1) n5
      (fun k y hk => by have := hd (k + 1) y (by simpa using hk); rw [this]; congr 1; omega)
    refine ⟨d', ?_, fun k y hk => ?_, fun y hy hy' => ?_⟩
    · rw [oldValues]
      simp only [hx, Option.bind_eq_bind, Option.bind_some]
      rw [h1]
      simp only [St.use, St.line, List.length_cons, List.range_succ_eq_map, List.map_cons, List.map_map, List.append_assoc, List.singleton_append, Option.some.injEq,
        Prod.mk.injEq, St.mk.injEq, true_and]
      refine ⟨by omega, ?_⟩
      congr 2
      · rw [show (s.used + 1) * 2 = 2 * (s.used + 1 + 0) by omega]; rfl
      · apply List.map_congr_left
        intro k _
        simp only [Function.comp]
        congr 1
        · omega
        · congr 1; omega
    · cases k with
      | zero =>
        simp only [List.getElem?_cons_zero, Option.some.injEq] at hk
        subst hk
        rw [h3 x n1 n3, h3 (prime x) n6.1 n6.2, lookup_set, lookup_set, if_neg (show ¬ x = x ++ txt!"'" from n2), if_pos rfl, lookup_set,
          if_pos (show prime x = x ++ txt!"'" from rfl)]
        simp [St.use]; omega
      | succ k =>
        rw [List.getElem?_cons_succ] at hk
        obtain ⟨e1, e2⟩ := h2 k y hk
        rw [e1, e2]
        simp [St.use, St.line]; omega
    · simp only [List.mem_cons, List.map_cons, not_or] at hy hy'
      rw [h3 y hy.2 hy'.2, lookup_set, if_neg (show ¬ y = x ++ txt!"'" from hy'.1), lookup_set, if_neg hy.1]

end Slugs.Model.Aiger
