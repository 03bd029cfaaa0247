import Verif.Model.SlugsFuzzer
import Verif.Spec.LtlFuzzer
import Verif.Lemmas.AisyFuzzer
import Verif.Lemmas.StructuredLines

/-! What the fuzzer of slugs generates. -/

namespace Slugs.Model.SlugsFuzzer

open Slugs.Spec Slugs.Spec.LtlText
open Slugs.Model.AisyFuzzer (Draws choice several coin choice_some choice_mem)

/-- The text of a formula. -/
def ltlText : Ltl → List Char
  | .tt => txt!"TRUE"
  | .lit x _ => x
  | .not f => txt!"!" ++ ltlText f
  | .next f => txt!"next(" ++ ltlText f ++ txt!")"
  | .and f g => txt!"((" ++ ltlText f ++ txt!")&(" ++ ltlText g ++ txt!"))"
  | .or f g => txt!"((" ++ ltlText f ++ txt!")|(" ++ ltlText g ++ txt!"))"
  | _ => []

theorem pickOp_some {later : List Word} : ∀ {ds ds' : Draws} {op : List Char}, pickOp later ds = some (op, ds') → op ∈ ops ∧ (op = txt!"next" → later ≠ [])
  | [], _, _, h => by cases h
  | d :: ds, ds', op, h => by
    rw [pickOp] at h
    split at h
    · cases h
    · rename_i o ho
      split at h
      · exact pickOp_some h
      · rename_i hn
        cases h
        refine ⟨List.mem_of_getElem? ho, fun he hl => hn ⟨he, by simp [hl]⟩⟩

theorem pickOp_mem {later : List Word} {op : List Char} (h : op ∈ ops) (hn : op = txt!"next" → later ≠ []) : ∃ d, ∀ ds, pickOp later (d :: ds) = some (op, ds) := by
  obtain ⟨i, hi, rfl⟩ := List.getElem_of_mem h
  refine ⟨i, fun ds => ?_⟩
  rw [pickOp, Nat.mod_eq_of_lt hi, List.getElem?_eq_getElem hi]
  simp only
  rw [if_neg]
  rintro ⟨h1, h2⟩
  exact hn h1 (List.length_eq_zero_iff.mp h2)

/-- Only the formulas of the specification are generated. -/
theorem make_sound : ∀ depth now later ds t ds', makeAProperty depth now later ds = some (t, ds') → ∃ f : Ltl, f.Random now later ∧ t = ltlText f
  | 0, _, _, _, _, _, h => by cases h
  | depth + 1, now, later, ds, t, ds', h => by
    have ih := make_sound depth
    rw [makeAProperty] at h
    split at h
    · cases h
    · rename_i op ds1 h1
      obtain ⟨hop, hnx⟩ := pickOp_some h1
      split at h
      · split at h
        · cases h
        · rename_i t1 ds2 h2
          obtain ⟨f, hf, rfl⟩ := ih _ _ _ _ _ h2
          cases h
          exact ⟨.not f, hf, rfl⟩
      · split at h
        · rename_i hnext
          split at h
          · cases h
          · rename_i t1 ds2 h2
            obtain ⟨f, hf, rfl⟩ := ih _ _ _ _ _ h2
            cases h
            exact ⟨.next f, ⟨hnx hnext, hf⟩, rfl⟩
        · split at h
          · rename_i hbin
            split at h
            · cases h
            · rename_i t1 ds2 h2
              split at h
              · cases h
              · rename_i t2 ds3 h3
                obtain ⟨f, hf, rfl⟩ := ih _ _ _ _ _ h2
                obtain ⟨g, hg, rfl⟩ := ih _ _ _ _ _ h3
                cases h
                rcases hbin with rfl | rfl
                · exact ⟨.and f g, ⟨hf, hg⟩, by simp [ltlText]⟩
                · exact ⟨.or f g, ⟨hf, hg⟩, by simp [ltlText]⟩
          · split at h
            · exact ⟨.lit t none, ⟨rfl, choice_some h⟩, rfl⟩
            · cases h
              exact ⟨.tt, trivial, rfl⟩

/-- All formulas of the specification can be generated. -/
theorem make_complete : ∀ (f : Ltl) (now later : List Word), f.Random now later → ∃ D, ∀ depth, D ≤ depth → ∃ es, ∀ ds, makeAProperty depth now later (es ++ ds) = some (ltlText f, ds) := by
  intro f
  induction f with
  | tt =>
    intro now later _
    obtain ⟨d, hd⟩ := pickOp_mem (later := later) (op := txt!"TRUE") (by decide) (fun h => absurd h (by decide))
    refine ⟨1, fun depth hdp => ⟨[d], fun ds => ?_⟩⟩
    obtain ⟨k, rfl⟩ := Nat.exists_eq_add_of_le' hdp
    rw [makeAProperty, List.singleton_append, hd]
    rfl
  | lit x v =>
    rintro now later ⟨rfl, hx⟩
    obtain ⟨d, hd⟩ := pickOp_mem (later := later) (op := txt!"AP") (by decide) (fun h => absurd h (by decide))
    obtain ⟨e, he⟩ := choice_mem hx
    refine ⟨1, fun depth hdp => ⟨[d, e], fun ds => ?_⟩⟩
    obtain ⟨k, rfl⟩ := Nat.exists_eq_add_of_le' hdp
    have hl : now.length > 0 := List.length_pos_of_mem hx
    rw [makeAProperty, List.cons_append, hd]
    simp only
    rw [if_neg (by decide), if_neg (by decide), if_neg (by decide), if_pos ⟨by decide, hl⟩, List.singleton_append, he]
    rfl
  | not f ih =>
    intro now later h
    obtain ⟨D, hD⟩ := ih now later h
    obtain ⟨d, hd⟩ := pickOp_mem (later := later) (op := txt!"!") (by decide) (fun h => absurd h (by decide))
    refine ⟨D + 1, fun depth hdp => ?_⟩
    obtain ⟨k, rfl⟩ := Nat.exists_eq_add_of_le' hdp
    obtain ⟨es, hes⟩ := hD (k + D) (by omega)
    refine ⟨d :: es, fun ds => ?_⟩
    show makeAProperty ((k + D) + 1) _ _ _ = _
    rw [makeAProperty, List.cons_append, hd]
    simp only [if_true, hes]
    rfl
  | next f ih =>
    rintro now later ⟨hl, h⟩
    obtain ⟨D, hD⟩ := ih later [] h
    obtain ⟨d, hd⟩ := pickOp_mem (later := later) (op := txt!"next") (by decide) (fun _ => hl)
    refine ⟨D + 1, fun depth hdp => ?_⟩
    obtain ⟨k, rfl⟩ := Nat.exists_eq_add_of_le' hdp
    obtain ⟨es, hes⟩ := hD (k + D) (by omega)
    refine ⟨d :: es, fun ds => ?_⟩
    show makeAProperty ((k + D) + 1) _ _ _ = _
    rw [makeAProperty, List.cons_append, hd]
    simp only
    rw [if_neg (by decide), if_pos (by decide), hes]
    rfl
  | and f g ihf ihg =>
    rintro now later ⟨h1, h2⟩
    obtain ⟨D, hD⟩ := ihf now later h1
    obtain ⟨E, hE⟩ := ihg now later h2
    obtain ⟨d, hd⟩ := pickOp_mem (later := later) (op := txt!"&") (by decide) (fun h => absurd h (by decide))
    refine ⟨(D + E) + 1, fun depth hdp => ?_⟩
    obtain ⟨k, rfl⟩ := Nat.exists_eq_add_of_le' hdp
    obtain ⟨es, hes⟩ := hD (k + (D + E)) (by omega)
    obtain ⟨es', hes'⟩ := hE (k + (D + E)) (by omega)
    refine ⟨d :: (es ++ es'), fun ds => ?_⟩
    show makeAProperty ((k + (D + E)) + 1) _ _ _ = _
    rw [makeAProperty, List.cons_append, hd]
    simp only
    rw [if_neg (by decide), if_neg (by decide), if_pos (by simp), List.append_assoc, hes]
    simp only [hes']
    simp [ltlText]
  | or f g ihf ihg =>
    rintro now later ⟨h1, h2⟩
    obtain ⟨D, hD⟩ := ihf now later h1
    obtain ⟨E, hE⟩ := ihg now later h2
    obtain ⟨d, hd⟩ := pickOp_mem (later := later) (op := txt!"|") (by decide) (fun h => absurd h (by decide))
    refine ⟨(D + E) + 1, fun depth hdp => ?_⟩
    obtain ⟨k, rfl⟩ := Nat.exists_eq_add_of_le' hdp
    obtain ⟨es, hes⟩ := hD (k + (D + E)) (by omega)
    obtain ⟨es', hes'⟩ := hE (k + (D + E)) (by omega)
    refine ⟨d :: (es ++ es'), fun ds => ?_⟩
    show makeAProperty ((k + (D + E)) + 1) _ _ _ = _
    rw [makeAProperty, List.cons_append, hd]
    simp only
    rw [if_neg (by decide), if_neg (by decide), if_pos (by simp), List.append_assoc, hes]
    simp only [hes']
    simp [ltlText]
  | _ => intro now later h; exact h.elim

theorem several_sound {gen : Draws → Option (List Char × Draws)} {P : Ltl → Prop} (hg : ∀ ds t ds', gen ds = some (t, ds') → ∃ f : Ltl, P f ∧ t = ltlText f) :
    ∀ n ds ts ds', several gen n ds = some (ts, ds') → ∃ fs : List Ltl, (∀ f ∈ fs, P f) ∧ ts = fs.map ltlText
  | 0, _, _, _, h => by cases h
  | n + 1, ds, ts, ds', h => by
    rw [several] at h
    split at h
    · cases h
    · cases h; exact ⟨[], by simp, rfl⟩
    · split at h
      · cases h
      · rename_i t ds2 h2
        split at h
        · cases h
        · rename_i ts' ds3 h3
          cases h
          obtain ⟨f, hf, rfl⟩ := hg _ _ _ h2
          obtain ⟨fs, hfs, rfl⟩ := several_sound hg n _ _ _ h3
          exact ⟨f :: fs, by simpa using ⟨hf, hfs⟩, rfl⟩

theorem several_complete {gen : Nat → Draws → Option (List Char × Draws)} :
    ∀ fs : List Ltl, (∀ f ∈ fs, ∃ D, ∀ depth, D ≤ depth → ∃ es, ∀ ds, gen depth (es ++ ds) = some (ltlText f, ds)) →
      ∃ D, ∀ depth, D ≤ depth → ∃ es : Draws, fs.length < es.length ∧ ∀ n ds, fs.length < n → several (gen depth) n (es ++ ds) = some (fs.map ltlText, ds)
  | [], _ => ⟨0, fun depth _ => ⟨[0], by simp, fun n ds hn => by
      obtain ⟨k, rfl⟩ := Nat.exists_eq_add_of_le' hn
      rfl⟩⟩
  | f :: fs, h => by
    obtain ⟨D, hD⟩ := h f (by simp)
    obtain ⟨E, hE⟩ := several_complete fs (fun g hg => h g (by simp [hg]))
    refine ⟨D + E, fun depth hd => ?_⟩
    obtain ⟨es, hes⟩ := hD depth (by omega)
    obtain ⟨es', hl, hes'⟩ := hE depth (by omega)
    refine ⟨1 :: (es ++ es'), by simp; omega, fun n ds hn => ?_⟩
    obtain ⟨k, rfl⟩ : ∃ k, n = k + 1 := ⟨n - 1, by simp at hn; omega⟩
    rw [List.cons_append, several]
    have := hes' k ds (by simp at hn; omega)
    simp [coin, List.append_assoc, hes, this]

/-! ### Symbols -/

/-- The text has these symbols, if no word goes on after it. -/
def Opens (t : List Char) (ts : List Tok) : Prop := ∀ rest us, (∀ d, rest.head? = some d → wordChar d = false) → Lexes rest us → Lexes (t ++ rest) (ts ++ us)

/-- The text has these symbols, whatever comes after it. -/
def Always (t : List Char) (ts : List Tok) : Prop := ∀ rest us, Lexes rest us → Lexes (t ++ rest) (ts ++ us)

theorem Always.append {s t : List Char} {ts us : List Tok} (h1 : Always s ts) (h2 : Always t us) : Always (s ++ t) (ts ++ us) := fun rest vs h => by
  rw [List.append_assoc, List.append_assoc]; exact h1 _ _ (h2 _ _ h)

theorem Always.opens {s t : List Char} {ts us : List Tok} (h1 : Always s ts) (h2 : Opens t us) : Opens (s ++ t) (ts ++ us) := fun rest vs hr h => by
  rw [List.append_assoc, List.append_assoc]; exact h1 _ _ (h2 _ _ hr h)

theorem Opens.then {s : List Char} {ts : List Tok} {c : Char} {t : List Char} {us : List Tok} (h1 : Opens s ts) (hc : wordChar c = false) (h2 : Always (c :: t) us) :
    Always (s ++ c :: t) (ts ++ us) := fun rest vs h => by
  rw [List.append_assoc, List.append_assoc]; exact h1 _ _ (by simp [hc]) (h2 _ _ h)

theorem Always.nil : Always [] [] := fun _ _ h => h

theorem Always.char {c : Char} {t : List Char} {ts : List Tok} (h1 : isSpace c = false) (h2 : wordChar c = false) (h : Always t ts) : Always (c :: t) (charTok c :: ts) :=
  fun _ _ hr => .char h1 h2 (h _ _ hr)

theorem Always.space {c : Char} {t : List Char} {ts : List Tok} (h1 : isSpace c = true) (h : Always t ts) : Always (c :: t) ts :=
  fun _ _ hr => .space h1 (h _ _ hr)

theorem Always.toOpens {t : List Char} {ts : List Tok} (h : Always t ts) : Opens t ts := fun _ _ _ hr => h _ _ hr

theorem opens_word {w : Word} (h1 : w ≠ []) (h2 : ∀ d ∈ w, wordChar d) : Opens w [wordTok w] := fun _ _ hr h => .word h1 h2 hr h

/-- The names of variables. -/
def aps : List Word := fuzzInputs ++ fuzzOutputs

theorem aps_word : ∀ x ∈ aps, x ≠ [] ∧ (∀ d ∈ x, wordChar d) ∧ (wordTok x).kind = .id ∧ (¬ txt!"FALSE" <+: x ∧ ¬ txt!"TRUE" <+: x ∧ ¬ txt!"next" <+: x) ∧ x[1]? = some '.' ∧
    '\n' ∉ x := by decide +kernel

theorem plain_append {ts us : List Tok} (h1 : PlainNames ts) (h2 : PlainNames us) : PlainNames (ts ++ us) := fun t ht => by
  rcases List.mem_append.mp ht with h | h
  · exact h1 t h
  · exact h2 t h

theorem plain_of {ts : List Tok} (h : ∀ t ∈ ts, t.kind ≠ .id) : PlainNames ts := fun t ht hk => absurd hk (h t ht)

theorem infix_le {m : Nat} {ts : List Tok} {f : Ltl} : ∀ {n : Nat}, n ≤ m → m ≤ 7 → Infix m ts f → Infix n ts f := by
  intro n hn hm h
  induction hn using Nat.decreasingInduction with
  | self => exact h
  | of_succ k hk ih => exact .up (by omega) ih

theorem infix_brackets {n : Nat} {ts : List Tok} {f : Ltl} (hn : n ≤ 7) (h : Infix 0 ts f) : Infix n (charTok '(' :: ts ++ [charTok ')']) f :=
  infix_le hn (le_refl 7) (.brackets (.inl ⟨rfl, rfl⟩) h)

/-- The symbols of a generated formula. -/
theorem lexes_formula : ∀ (f : Ltl) (now later : List Word), now ⊆ aps → later ⊆ aps → f.Random now later →
    ∃ ts, Opens (ltlText f) ts ∧ Infix 6 ts f ∧ PlainNames ts ∧ '\n' ∉ ltlText f := by
  intro f
  induction f with
  | tt =>
    intro _ _ _ _ _
    exact ⟨[wordTok txt!"TRUE"], opens_word (by decide) (by decide), infix_le (by omega) (le_refl 7) (.tt rfl), plain_of (by decide), by decide⟩
  | lit x v =>
    rintro now later h1 _ ⟨rfl, hx⟩
    obtain ⟨a1, a2, a3, a4, -, a6⟩ := aps_word x (h1 hx)
    exact ⟨[wordTok x], opens_word a1 a2, infix_le (by omega) (le_refl 7) (.name (t := wordTok x) a3), fun t ht _ => by rw [List.mem_singleton.mp ht]; exact a4, a6⟩
  | not f ih =>
    intro now later h1 h2 h
    obtain ⟨ts, i1, i2, i3, i4⟩ := ih now later h1 h2 h
    refine ⟨[charTok '!'] ++ ts, Always.opens (s := txt!"!") (.char (by decide) (by decide) .nil) i1, .not (by decide) i2, plain_append (plain_of (by decide)) i3, ?_⟩
    simpa [ltlText] using i4
  | next f ih =>
    rintro now later _ h2 ⟨_, h⟩
    obtain ⟨ts, i1, i2, i3, i4⟩ := ih later [] h2 (by simp) h
    refine ⟨[wordTok txt!"next"] ++ (charTok '(' :: ts ++ [charTok ')']), ?_, .next (by decide) (infix_brackets (by omega) (infix_le (by omega) (by omega) i2)),
      plain_append (plain_of (by decide)) (plain_append (plain_append (ts := [charTok '(']) (plain_of (by decide)) i3) (plain_of (by decide))), by simpa [ltlText] using i4⟩
    have k1 : Always (txt!")") [charTok ')'] := .char (by decide) (by decide) .nil
    have k2 : Always (ltlText f ++ txt!")") (ts ++ [charTok ')']) := i1.then (by decide) k1
    have k3 : Always ('(' :: (ltlText f ++ txt!")")) (charTok '(' :: (ts ++ [charTok ')'])) := k2.char (by decide) (by decide)
    have k4 := (opens_word (w := txt!"next") (by decide) (by decide)).then (by decide) k3
    simpa [ltlText] using k4.toOpens
  | and f g ihf ihg =>
    rintro now later h1 h2 ⟨hf, hg⟩
    obtain ⟨ts, i1, i2, i3, i4⟩ := ihf now later h1 h2 hf
    obtain ⟨us, j1, j2, j3, j4⟩ := ihg now later h1 h2 hg
    refine ⟨charTok '(' :: ((charTok '(' :: ts ++ [charTok ')']) ++ [charTok '&'] ++ (charTok '(' :: us ++ [charTok ')'])) ++ [charTok ')'], ?_,
      infix_brackets (by omega) (infix_le (by omega) (by omega) (.and (infix_brackets (by omega) (infix_le (by omega) (by omega) i2)) (by decide)
        (infix_brackets (by omega) (infix_le (by omega) (by omega) j2)))), ?_, by simp [ltlText, i4, j4]⟩
    · have k1 : Always (txt!"))") [charTok ')', charTok ')'] := .char (by decide) (by decide) (.char (by decide) (by decide) .nil)
      have k2 : Always (ltlText g ++ txt!"))") (us ++ [charTok ')', charTok ')']) := j1.then (by decide) k1
      have k3 : Always (txt!")&(" ++ (ltlText g ++ txt!"))")) (charTok ')' :: charTok '&' :: charTok '(' :: (us ++ [charTok ')', charTok ')'])) :=
        .char (by decide) (by decide) (.char (by decide) (by decide) (.char (by decide) (by decide) k2))
      have k4 := i1.then (by decide) k3
      have k5 : Always ('(' :: '(' :: (ltlText f ++ (txt!")&(" ++ (ltlText g ++ txt!"))"))))
          (charTok '(' :: charTok '(' :: (ts ++ (charTok ')' :: charTok '&' :: charTok '(' :: (us ++ [charTok ')', charTok ')'])))) :=
        .char (by decide) (by decide) (.char (by decide) (by decide) k4)
      simpa [ltlText] using k5.toOpens
    · have p : ∀ c : Char, (charTok c).kind ≠ .id → PlainNames [charTok c] := fun c hc => plain_of (by simpa using hc)
      have := plain_append (plain_append (p '(' (by decide)) (plain_append (plain_append (plain_append (plain_append (p '(' (by decide)) i3) (p ')' (by decide))) (p '&' (by decide)))
        (plain_append (plain_append (p '(' (by decide)) j3) (p ')' (by decide))))) (p ')' (by decide))
      simpa using this
  | or f g ihf ihg =>
    rintro now later h1 h2 ⟨hf, hg⟩
    obtain ⟨ts, i1, i2, i3, i4⟩ := ihf now later h1 h2 hf
    obtain ⟨us, j1, j2, j3, j4⟩ := ihg now later h1 h2 hg
    refine ⟨charTok '(' :: ((charTok '(' :: ts ++ [charTok ')']) ++ [charTok '|'] ++ (charTok '(' :: us ++ [charTok ')'])) ++ [charTok ')'], ?_,
      infix_brackets (by omega) (infix_le (by omega) (by omega) (.or (infix_brackets (by omega) (infix_le (by omega) (by omega) i2)) (by decide)
        (infix_brackets (by omega) (infix_le (by omega) (by omega) j2)))), ?_, by simp [ltlText, i4, j4]⟩
    · have k1 : Always (txt!"))") [charTok ')', charTok ')'] := .char (by decide) (by decide) (.char (by decide) (by decide) .nil)
      have k2 : Always (ltlText g ++ txt!"))") (us ++ [charTok ')', charTok ')']) := j1.then (by decide) k1
      have k3 : Always (txt!")|(" ++ (ltlText g ++ txt!"))")) (charTok ')' :: charTok '|' :: charTok '(' :: (us ++ [charTok ')', charTok ')'])) :=
        .char (by decide) (by decide) (.char (by decide) (by decide) (.char (by decide) (by decide) k2))
      have k4 := i1.then (by decide) k3
      have k5 : Always ('(' :: '(' :: (ltlText f ++ (txt!")|(" ++ (ltlText g ++ txt!"))"))))
          (charTok '(' :: charTok '(' :: (ts ++ (charTok ')' :: charTok '|' :: charTok '(' :: (us ++ [charTok ')', charTok ')'])))) :=
        .char (by decide) (by decide) (.char (by decide) (by decide) k4)
      simpa [ltlText] using k5.toOpens
    · have p : ∀ c : Char, (charTok c).kind ≠ .id → PlainNames [charTok c] := fun c hc => plain_of (by simpa using hc)
      have := plain_append (plain_append (p '(' (by decide)) (plain_append (plain_append (plain_append (plain_append (p '(' (by decide)) i3) (p ')' (by decide))) (p '|' (by decide)))
        (plain_append (plain_append (p '(' (by decide)) j3) (p ')' (by decide))))) (p ')' (by decide))
      simpa using this
  | _ => intro now later _ _ h; exact h.elim

end Slugs.Model.SlugsFuzzer
