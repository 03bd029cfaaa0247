import Verif.Model.AisyFuzzer
import Verif.Spec.Fuzzer
import Verif.Lemmas.Regroup
import Verif.Lemmas.StructuredEncode

/-! What the fuzzer generates. -/

namespace Slugs.Model.AisyFuzzer

open Slugs.Spec Slugs.Model.Structured

theorem joinWords_append {a b : List Word} (ha : a ≠ []) (hb : b ≠ []) : joinWords (a ++ b) = joinWords a ++ ' ' :: joinWords b := by
  induction a with
  | nil => exact absurd rfl ha
  | cons w ws ih =>
    cases ws with
    | nil =>
      cases b with
      | nil => exact absurd rfl hb
      | cons v vs => simp [joinWords]
    | cons w' ws =>
      have := ih (by simp)
      simp only [List.cons_append] at this ⊢
      simp [joinWords, this]

theorem words_ne (f : Fml) : f.words ≠ [] := by
  cases f with
  | const b => cases b <;> simp [Fml.words]
  | _ => simp [Fml.words]

/-- The texts of the elements of a buffer, with a blank before each. -/
def partsText (fs : List Fml) : List Char := fs.flatMap fun f => ' ' :: f.text

theorem joinWords_parts {a : List Word} (ha : a ≠ []) (fs : List Fml) : joinWords (a ++ Fml.wordsBuffer fs) = joinWords a ++ partsText fs := by
  induction fs generalizing a with
  | nil => simp [Fml.wordsBuffer, partsText]
  | cons f fs ih =>
    rw [Fml.wordsBuffer, ← List.append_assoc, ih (by simp [ha]), joinWords_append ha (words_ne f)]
    simp [partsText, Fml.text]

theorem text_not (f : Fml) : (Fml.not f).text = txt!"! " ++ f.text := by
  rw [Fml.text, Fml.words]
  exact joinWords_append (a := [txt!"!"]) (by simp) (words_ne f)

theorem text_bin (op : BinOp) (f g : Fml) : (Fml.bin op f g).text = op.word ++ ' ' :: f.text ++ ' ' :: g.text := by
  rw [Fml.text, Fml.words]
  have := joinWords_append (a := [op.word]) (by simp) (b := f.words ++ g.words) (by simp [words_ne])
  rw [joinWords_append (words_ne f) (words_ne g)] at this
  simpa [joinWords, Fml.text] using this

theorem text_buffer (fs : List Fml) : (Fml.buffer fs).text = txt!"$ " ++ strNat fs.length ++ partsText fs := by
  rw [Fml.text, Fml.words]
  have := joinWords_parts (a := [txt!"$", decimal fs.length]) (by simp) fs
  simpa [joinWords, strNat_eq] using this

theorem text_recall (i : Nat) : (Fml.recall i).text = txt!"? " ++ strNat i := by simp [Fml.text, Fml.words, joinWords, strNat_eq]

/-- The elements of the buffer that can be used. -/
def recalls (k : Nat) : List (List Char) := (List.range k).map fun i => txt!"? " ++ strNat i

theorem recalls_succ (k : Nat) : recalls (k + 1) = recalls k ++ [txt!"? " ++ strNat k] := by simp [recalls, List.range_succ]

theorem recalls_zero {k : Nat} : txt!"? 0" ∈ recalls k ↔ k ≠ 0 := by
  constructor
  · rintro h rfl; simp [recalls] at h
  · intro h
    exact List.mem_map.mpr ⟨0, by simp; omega, by decide⟩

section

variable {names : List Word}

theorem choice_some {A : Type} {l : List A} {ds ds' : Draws} {a : A} (h : choice l ds = some (a, ds')) : a ∈ l := by
  cases ds with
  | nil => cases h
  | cons d ds =>
    rw [choice, Option.map_eq_some_iff] at h
    obtain ⟨b, hb, he⟩ := h
    cases he
    exact List.mem_of_getElem? hb

theorem choice_mem {A : Type} {l : List A} {a : A} (h : a ∈ l) : ∃ d, ∀ ds, choice l (d :: ds) = some (a, ds) := by
  obtain ⟨i, hi, rfl⟩ := List.getElem_of_mem h
  refine ⟨i, fun ds => ?_⟩
  rw [choice, Nat.mod_eq_of_lt hi]
  simp [hi]

theorem elements_sound {gen : List (List Char) → Draws → Option (List Char × Draws)}
    (hg : ∀ k ds t ds', gen (names ++ recalls k) ds = some (t, ds') → ∃ f : Fml, f.Random names k ∧ t = f.text) :
    ∀ n i all ds t ds', elements gen n i (names ++ recalls i) all ds = some (t, ds') → ∃ fs : List Fml, fs.length = n ∧ Fml.RandomBuffer names i fs ∧ t = all ++ partsText fs
  | 0, i, all, ds, t, ds', h => by
    simp only [elements, Option.some.injEq, Prod.mk.injEq] at h
    exact ⟨[], rfl, by simp [Fml.RandomBuffer], by simp [partsText, h.1]⟩
  | n + 1, i, all, ds, t, ds', h => by
    rw [elements] at h
    split at h
    · cases h
    · rename_i t1 ds1 h1
      obtain ⟨f, hf, rfl⟩ := hg _ _ _ _ h1
      rw [List.append_assoc, ← recalls_succ] at h
      obtain ⟨fs, h2, h3, rfl⟩ := elements_sound hg n (i + 1) _ ds1 t ds' h
      exact ⟨f :: fs, by simp [h2], by rw [Fml.RandomBuffer]; exact ⟨hf, h3⟩, by simp [partsText]⟩

/-- Only the formulas of the specification are generated. -/
theorem make_sound : ∀ depth k ds t ds', makeAProperty depth (names ++ recalls k) ds = some (t, ds') → ∃ f : Fml, f.Random names k ∧ t = f.text
  | 0, _, _, _, _, h => by cases h
  | depth + 1, k, ds, t, ds', h => by
    have ih := make_sound depth
    rw [makeAProperty] at h
    split at h
    · cases h
    · rename_i op ds1 h1
      have hop := choice_some h1
      split at h
      · split at h
        · cases h
        · rename_i t1 ds2 h2
          obtain ⟨f, hf, rfl⟩ := ih _ _ _ _ h2
          cases h
          exact ⟨.not f, by rw [Fml.Random]; exact hf, (text_not f).symm⟩
      · split at h
        · rename_i hb
          split at h
          · cases h
          · rename_i t1 ds2 h2
            split at h
            · cases h
            · rename_i t2 ds3 h3
              obtain ⟨f, hf, rfl⟩ := ih _ _ _ _ h2
              obtain ⟨g, hg, rfl⟩ := ih _ _ _ _ h3
              cases h
              rcases hb with rfl | rfl
              · exact ⟨.bin .and f g, by rw [Fml.Random]; exact ⟨.inl rfl, hf, hg⟩, (text_bin .and f g).symm⟩
              · exact ⟨.bin .or f g, by rw [Fml.Random]; exact ⟨.inr rfl, hf, hg⟩, (text_bin .or f g).symm⟩
        · split at h
          · rcases List.mem_append.mp (choice_some h) with hm | hm
            · exact ⟨.var t, by rw [Fml.Random]; exact hm, by simp [Fml.text, Fml.words, joinWords]⟩
            · obtain ⟨i, hi, rfl⟩ := List.mem_map.mp hm
              exact ⟨.recall i, by rw [Fml.Random]; exact List.mem_range.mp hi, (text_recall i).symm⟩
          · split at h
            · rename_i hd
              split at h
              · cases h
              · rename_i n ds2 h2
                have hk : k = 0 := by
                  by_contra hk
                  exact hd.2 (List.mem_append_right _ (recalls_zero.mpr hk))
                subst hk
                obtain ⟨fs, e1, e2, rfl⟩ := elements_sound ih n 0 _ ds2 t ds' h
                have hn : 1 ≤ n ∧ n ≤ 5 := by
                  cases ds1 with
                  | nil => cases h2
                  | cons d ds1 =>
                    simp only [randint, Option.some.injEq, Prod.mk.injEq] at h2
                    omega
                refine ⟨.buffer fs, ?_, by rw [text_buffer, e1]⟩
                rw [Fml.Random, e1]
                exact ⟨rfl, hn.1, hn.2, e2⟩
            · cases h
              exact ⟨.const true, by rw [Fml.Random], rfl⟩

/-- All of them can be generated. -/
theorem make_complete (hq : txt!"? 0" ∉ names) : ∀ (f : Fml) (k : Nat), f.Random names k → ∃ D, ∀ depth, D ≤ depth → ∀ rest, ∃ ds, makeAProperty depth (names ++ recalls k) ds = some (f.text, rest) := by
  have hop : ∀ op ∈ ops, ∃ d, ∀ ds, choice ops (d :: ds) = some (op, ds) := fun op h => choice_mem h
  intro f
  induction f using Fml.rec (motive_2 := fun fs => ∀ i, Fml.RandomBuffer names i fs → ∃ D, ∀ depth, D ≤ depth → ∀ all rest, ∃ ds,
      elements (makeAProperty depth) fs.length i (names ++ recalls i) all ds = some (all ++ partsText fs, rest)) with
  | const b =>
    intro k h
    rw [Fml.Random] at h
    subst h
    obtain ⟨d, hd⟩ := hop txt!"TRUE" (by decide)
    refine ⟨1, fun depth h1 rest => ⟨d :: rest, ?_⟩⟩
    obtain ⟨depth, rfl⟩ := Nat.exists_eq_add_of_le' h1
    rw [makeAProperty, hd]
    rfl
  | var x =>
    intro k h
    rw [Fml.Random] at h
    obtain ⟨d, hd⟩ := hop txt!"AP" (by decide)
    obtain ⟨e, he⟩ := choice_mem (List.mem_append_left (recalls k) h)
    refine ⟨1, fun depth h1 rest => ⟨d :: e :: rest, ?_⟩⟩
    obtain ⟨depth, rfl⟩ := Nat.exists_eq_add_of_le' h1
    rw [makeAProperty, hd]
    simp only [show ¬ (txt!"AP" = txt!"!") by decide, show ¬ (txt!"AP" = txt!"&" ∨ txt!"AP" = txt!"|") by decide, if_false, if_true, he]
    rfl
  | «recall» i =>
    intro k h
    rw [Fml.Random] at h
    obtain ⟨d, hd⟩ := hop txt!"AP" (by decide)
    have hm : txt!"? " ++ strNat i ∈ recalls k := List.mem_map.mpr ⟨i, List.mem_range.mpr h, rfl⟩
    obtain ⟨e, he⟩ := choice_mem (List.mem_append_right names hm)
    refine ⟨1, fun depth h1 rest => ⟨d :: e :: rest, ?_⟩⟩
    obtain ⟨depth, rfl⟩ := Nat.exists_eq_add_of_le' h1
    rw [makeAProperty, hd]
    simp only [show ¬ (txt!"AP" = txt!"!") by decide, show ¬ (txt!"AP" = txt!"&" ∨ txt!"AP" = txt!"|") by decide, if_false, if_true, he]
    rw [text_recall]
  | not f ih =>
    intro k h
    rw [Fml.Random] at h
    obtain ⟨D, hD⟩ := ih k h
    obtain ⟨d, hd⟩ := hop txt!"!" (by decide)
    refine ⟨D + 1, fun depth h1 rest => ?_⟩
    obtain ⟨depth, rfl⟩ := Nat.exists_eq_add_of_le' (Nat.le_trans (Nat.le_add_left 1 D) h1)
    obtain ⟨ds, hds⟩ := hD depth (by omega) rest
    refine ⟨d :: ds, ?_⟩
    rw [makeAProperty, hd]
    simp only [if_true, hds, text_not]
  | bin op f g ih1 ih2 =>
    intro k h
    rw [Fml.Random] at h
    obtain ⟨D1, hD1⟩ := ih1 k h.2.1
    obtain ⟨D2, hD2⟩ := ih2 k h.2.2
    obtain ⟨d, hd⟩ := hop op.word (by rcases h.1 with rfl | rfl <;> decide)
    refine ⟨max D1 D2 + 1, fun depth h1 rest => ?_⟩
    obtain ⟨depth, rfl⟩ := Nat.exists_eq_add_of_le' (Nat.le_trans (Nat.le_add_left 1 _) h1)
    obtain ⟨ds2, hds2⟩ := hD2 depth (by omega) rest
    obtain ⟨ds1, hds1⟩ := hD1 depth (by omega) ds2
    refine ⟨d :: ds1, ?_⟩
    rw [makeAProperty, hd]
    have h1 : ¬ op.word = txt!"!" := by rcases h.1 with rfl | rfl <;> decide
    have h2 : op.word = txt!"&" ∨ op.word = txt!"|" := by rcases h.1 with rfl | rfl <;> decide
    simp only [if_neg h1, if_pos h2, hds1, hds2, text_bin]
  | buffer fs ih =>
    intro k h
    rw [Fml.Random] at h
    obtain ⟨rfl, h1, h2, h3⟩ := h
    obtain ⟨D, hD⟩ := ih 0 h3
    obtain ⟨d, hd⟩ := hop txt!"$" (by decide)
    refine ⟨D + 1, fun depth hd1 rest => ?_⟩
    obtain ⟨depth, rfl⟩ := Nat.exists_eq_add_of_le' (Nat.le_trans (Nat.le_add_left 1 D) hd1)
    obtain ⟨ds, hds⟩ := hD depth (by omega) (txt!"$ " ++ strNat fs.length) rest
    refine ⟨d :: (fs.length - 1) :: ds, ?_⟩
    rw [makeAProperty, hd]
    have hno : txt!"? 0" ∉ names ++ recalls 0 := by simpa [recalls] using hq
    have hr : randint ((fs.length - 1) :: ds) = some (fs.length, ds) := by
      rw [randint, Nat.mod_eq_of_lt (by omega)]
      congr 2
      omega
    simp only [show ¬ (txt!"$" = txt!"!") by decide, show ¬ (txt!"$" = txt!"&" ∨ txt!"$" = txt!"|") by decide, show ¬ (txt!"$" = txt!"AP") by decide, if_false, hr]
    rw [if_pos ⟨trivial, hno⟩, hds, text_buffer]
  | nil =>
    exact ⟨0, fun depth _ all rest => ⟨rest, by simp [elements, partsText]⟩⟩
  | cons f fs ih1 ih2 =>
    rename_i i h
    rw [Fml.RandomBuffer] at h
    obtain ⟨D1, hD1⟩ := ih1 i h.1
    obtain ⟨D2, hD2⟩ := ih2 (i + 1) h.2
    refine ⟨max D1 D2, fun depth h1 all rest => ?_⟩
    obtain ⟨ds2, hds2⟩ := hD2 depth (by omega) (all ++ ' ' :: f.text) rest
    obtain ⟨ds1, hds1⟩ := hD1 depth (by omega) ds2
    refine ⟨ds1, ?_⟩
    rw [List.length_cons, elements, hds1]
    dsimp only
    rw [List.append_assoc, ← recalls_succ, hds2]
    simp [partsText]

end

theorem several_sound {gen : Draws → Option (List Char × Draws)} {P : List Char → Prop} (hg : ∀ ds t ds', gen ds = some (t, ds') → P t) :
    ∀ n ds ts ds', several gen n ds = some (ts, ds') → ∀ t ∈ ts, P t
  | 0, _, _, _, h => by cases h
  | n + 1, ds, ts, ds', h => by
    rw [several] at h
    split at h
    · cases h
    · cases h; simp
    · split at h
      · cases h
      · rename_i t ds2 h2
        split at h
        · cases h
        · rename_i ts' ds3 h3
          cases h
          intro t' ht'
          rcases List.mem_cons.mp ht' with rfl | ht'
          · exact hg _ _ _ h2
          · exact several_sound hg n _ _ _ h3 t' ht'

end Slugs.Model.AisyFuzzer
