import Verif.Lemmas.Stream
import Verif.Model.Parser

/-! The formula reader agrees with the grammar and the meaning of formulas. -/

namespace Slugs.Spec

open Slugs.Model

/-! ### Grammar facts -/

theorem startsWithWord_det {s w w' r r' : List Char} (h : StartsWithWord s w r) (h' : StartsWithWord s w' r') :
    w = w' ∧ r = r' := by
  have := (readWord_complete h).symm.trans (readWord_complete h')
  simpa using this

theorem startsWithNumber_det {s r r' : List Char} {n n' : Nat} (h : StartsWithNumber s n r)
    (h' : StartsWithNumber s n' r') : n = n' ∧ r = r' := by
  have := (readUnsigned_complete h).symm.trans (readUnsigned_complete h')
  simpa using this

theorem startsWithWord_length {s w rest : List Char} (h : StartsWithWord s w rest) : rest.length < s.length := by
  obtain ⟨sp, rfl, _, hw, _, _⟩ := h
  have := List.length_pos_iff.mpr hw
  simp; omega

theorem startsWithNumber_length {s r : List Char} {n : Nat} (h : StartsWithNumber s n r) : r.length < s.length := by
  obtain ⟨sp, sign, ds, rfl, _, hds, _⟩ := h
  have := List.length_pos_iff.mpr hds
  simp; omega

theorem ReadsN.length_eq {n : Nat} {inp rest : List Char} {fs : List Fml} (h : ReadsN n inp fs rest) : fs.length = n := by
  induction fs generalizing n inp with
  | nil => cases h; rfl
  | cons f fs ih => cases h with | cons h1 h2 => simp [ih h2]

mutual
theorem Reads.length : ∀ {inp f rest}, Reads inp f rest → rest.length < inp.length
  | _, _, _, .true h => startsWithWord_length h
  | _, _, _, .false h => startsWithWord_length h
  | _, _, _, .var h _ => startsWithWord_length h
  | _, _, _, .not h h1 => Nat.lt_trans h1.length (startsWithWord_length h)
  | _, _, _, .bin h h1 h2 => Nat.lt_trans h2.length (Nat.lt_trans h1.length (startsWithWord_length h))
  | _, _, _, .buffer h h1 h2 => by
    have a1 := startsWithWord_length h
    have a2 := startsWithNumber_length h1
    have a3 := h2.length
    omega
  | _, _, _, .recall h h1 => Nat.lt_trans (startsWithNumber_length h1) (startsWithWord_length h)
theorem ReadsN.length : ∀ {n inp fs rest}, ReadsN n inp fs rest → rest.length + n ≤ inp.length
  | _, _, _, _, .nil => Nat.le_refl _
  | _, _, _, _, .cons h1 h2 => by
    have a1 := h1.length
    have a2 := h2.length
    omega
end

theorem BinOp.word_inj {a b : BinOp} (h : a.word = b.word) : a = b := by cases a <;> cases b <;> simp_all [BinOp.word]

theorem BinOp.word_reserved (a : BinOp) : a.word ∈ reserved := by cases a <;> decide

theorem BinOp.word_cases (a : BinOp) :
    a.word ≠ ['!'] ∧ a.word ≠ ['1'] ∧ a.word ≠ ['0'] ∧ a.word ≠ ['$'] ∧ a.word ≠ ['?'] := by
  cases a <;> decide

/-- A text is the text of at most one formula. -/
theorem Reads.det_aux : ∀ (k : Nat),
    (∀ {inp f f' rest rest'}, inp.length ≤ k → Reads inp f rest → Reads inp f' rest' → f = f' ∧ rest = rest') := by
  intro k
  induction k with
  | zero => intro inp f f' rest rest' hl h; exact absurd h.length (by omega)
  | succ k ih =>
    have ihN : ∀ {n inp fs fs' rest rest'}, inp.length ≤ k → ReadsN n inp fs rest → ReadsN n inp fs' rest' →
        fs = fs' ∧ rest = rest' := by
      intro n
      induction n with
      | zero =>
        intro inp fs fs' rest rest' _ h h'
        cases h; cases h'; exact ⟨rfl, rfl⟩
      | succ n ihn =>
        intro inp fs fs' rest rest' hl h h'
        cases h with
        | cons h1 h2 =>
          cases h' with
          | cons h1' h2' =>
            obtain ⟨rfl, rfl⟩ := ih hl h1 h1'
            have := h1.length
            obtain ⟨rfl, rfl⟩ := ihn (by omega) h2 h2'
            exact ⟨rfl, rfl⟩
    intro inp f f' rest rest' hl h h'
    have hres : ∀ {x}, x ∉ reserved → ∀ w ∈ reserved, w ≠ x := fun hx w hw e => hx (e ▸ hw)
    cases h with
    | true h =>
      cases h' with
      | true h' => exact ⟨rfl, (startsWithWord_det h h').2⟩
      | false h' => exact absurd (startsWithWord_det h h').1 (by decide)
      | var h' hx => exact absurd (startsWithWord_det h h').1 (hres hx _ (by decide))
      | not h' _ => exact absurd (startsWithWord_det h h').1 (by decide)
      | bin h' _ _ => exact absurd (startsWithWord_det h' h).1 (BinOp.word_cases _).2.1
      | buffer h' _ _ => exact absurd (startsWithWord_det h h').1 (by decide)
      | recall h' _ => exact absurd (startsWithWord_det h h').1 (by decide)
    | false h =>
      cases h' with
      | true h' => exact absurd (startsWithWord_det h h').1 (by decide)
      | false h' => exact ⟨rfl, (startsWithWord_det h h').2⟩
      | var h' hx => exact absurd (startsWithWord_det h h').1 (hres hx _ (by decide))
      | not h' _ => exact absurd (startsWithWord_det h h').1 (by decide)
      | bin h' _ _ => exact absurd (startsWithWord_det h' h).1 (BinOp.word_cases _).2.2.1
      | buffer h' _ _ => exact absurd (startsWithWord_det h h').1 (by decide)
      | recall h' _ => exact absurd (startsWithWord_det h h').1 (by decide)
    | var h hx =>
      cases h' with
      | true h' => exact absurd (startsWithWord_det h' h).1 (hres hx _ (by decide))
      | false h' => exact absurd (startsWithWord_det h' h).1 (hres hx _ (by decide))
      | var h' hx =>
        obtain ⟨rfl, rfl⟩ := startsWithWord_det h h'
        exact ⟨rfl, rfl⟩
      | not h' _ => exact absurd (startsWithWord_det h' h).1 (hres hx _ (by decide))
      | bin h' _ _ => exact absurd (startsWithWord_det h' h).1 (hres hx _ (BinOp.word_reserved _))
      | buffer h' _ _ => exact absurd (startsWithWord_det h' h).1 (hres hx _ (by decide))
      | recall h' _ => exact absurd (startsWithWord_det h' h).1 (hres hx _ (by decide))
    | not h h1 =>
      cases h' with
      | true h' => exact absurd (startsWithWord_det h' h).1 (by decide)
      | false h' => exact absurd (startsWithWord_det h' h).1 (by decide)
      | var h' hx => exact absurd (startsWithWord_det h h').1 (hres hx _ (by decide))
      | not h' h1' =>
        obtain ⟨_, rfl⟩ := startsWithWord_det h h'
        have := startsWithWord_length h
        obtain ⟨rfl, rfl⟩ := ih (by omega) h1 h1'
        exact ⟨rfl, rfl⟩
      | bin h' _ _ => exact absurd (startsWithWord_det h' h).1 (BinOp.word_cases _).1
      | buffer h' _ _ => exact absurd (startsWithWord_det h' h).1 (by decide)
      | recall h' _ => exact absurd (startsWithWord_det h' h).1 (by decide)
    | bin h h1 h2 =>
      cases h' with
      | true h' => exact absurd (startsWithWord_det h h').1 (BinOp.word_cases _).2.1
      | false h' => exact absurd (startsWithWord_det h h').1 (BinOp.word_cases _).2.2.1
      | var h' hx => exact absurd (startsWithWord_det h h').1 (hres hx _ (BinOp.word_reserved _))
      | not h' _ => exact absurd (startsWithWord_det h h').1 (BinOp.word_cases _).1
      | bin h' h1' h2' =>
        obtain ⟨e, rfl⟩ := startsWithWord_det h h'
        obtain rfl := BinOp.word_inj e
        have := startsWithWord_length h
        obtain ⟨rfl, rfl⟩ := ih (by omega) h1 h1'
        have := h1.length
        obtain ⟨rfl, rfl⟩ := ih (by omega) h2 h2'
        exact ⟨rfl, rfl⟩
      | buffer h' _ _ => exact absurd (startsWithWord_det h h').1 (BinOp.word_cases _).2.2.2.1
      | recall h' _ => exact absurd (startsWithWord_det h h').1 (BinOp.word_cases _).2.2.2.2
    | buffer h h1 h2 =>
      cases h' with
      | true h' => exact absurd (startsWithWord_det h h').1 (by decide)
      | false h' => exact absurd (startsWithWord_det h h').1 (by decide)
      | var h' hx => exact absurd (startsWithWord_det h h').1 (hres hx _ (by decide))
      | not h' _ => exact absurd (startsWithWord_det h h').1 (by decide)
      | bin h' _ _ => exact absurd (startsWithWord_det h' h).1 (BinOp.word_cases _).2.2.2.1
      | buffer h' h1' h2' =>
        obtain ⟨_, rfl⟩ := startsWithWord_det h h'
        obtain ⟨rfl, rfl⟩ := startsWithNumber_det h1 h1'
        have := startsWithWord_length h
        have := startsWithNumber_length h1
        obtain ⟨rfl, rfl⟩ := ihN (by omega) h2 h2'
        exact ⟨rfl, rfl⟩
      | recall h' _ => exact absurd (startsWithWord_det h' h).1 (by decide)
    | recall h h1 =>
      cases h' with
      | true h' => exact absurd (startsWithWord_det h h').1 (by decide)
      | false h' => exact absurd (startsWithWord_det h h').1 (by decide)
      | var h' hx => exact absurd (startsWithWord_det h h').1 (hres hx _ (by decide))
      | not h' _ => exact absurd (startsWithWord_det h h').1 (by decide)
      | bin h' _ _ => exact absurd (startsWithWord_det h' h).1 (BinOp.word_cases _).2.2.2.2
      | buffer h' h1' h2' => exact absurd (startsWithWord_det h h').1 (by decide)
      | recall h' h1' =>
        obtain ⟨_, rfl⟩ := startsWithWord_det h h'
        obtain ⟨rfl, rfl⟩ := startsWithNumber_det h1 h1'
        exact ⟨rfl, rfl⟩

theorem Reads.det {inp f f' rest rest'} (h : Reads inp f rest) (h' : Reads inp f' rest') : f = f' ∧ rest = rest' :=
  Reads.det_aux inp.length (Nat.le_refl _) h h'

theorem ReadsLine.det {line f f'} (h : ReadsLine line f) (h' : ReadsLine line f') : f = f' := by
  obtain ⟨_, h, _⟩ := h
  obtain ⟨_, h', _⟩ := h'
  exact (h.det h').1

/-! ### Meaning -/

theorem Fml.eval_replicate (ρ : Word → Bool) (st : List (Option Bool)) (k : Nat) :
    ∀ f : Fml, f.eval ρ (st ++ List.replicate k none) = f.eval ρ st
  | .const _ => by simp [Fml.eval]
  | .var _ => by simp [Fml.eval]
  | .not f => by simp [Fml.eval, Fml.eval_replicate ρ st k f]
  | .bin _ f g => by simp [Fml.eval, Fml.eval_replicate ρ st k f, Fml.eval_replicate ρ st k g]
  | .buffer _ => by simp [Fml.eval]
  | .recall i => by
    simp only [Fml.eval]
    by_cases hi : i < st.length
    · rw [List.getElem?_append_left hi]
    · rw [List.getElem?_append_right (by omega), List.getElem?_replicate, List.getElem?_eq_none (by omega)]
      split <;> rfl

mutual
theorem Fml.eval_congr {ρ ρ' : Word → Bool} : ∀ (f : Fml) (st : List (Option Bool)), (∀ x ∈ f.vars, ρ x = ρ' x) →
    f.eval ρ st = f.eval ρ' st
  | .const _, _, _ => by simp [Fml.eval]
  | .var x, _, h => by simp [Fml.eval, h x (by simp [Fml.vars])]
  | .not f, st, h => by simp [Fml.eval, Fml.eval_congr f st (by simpa [Fml.vars] using h)]
  | .bin _ f g, st, h => by
    simp [Fml.eval, Fml.eval_congr f st (fun x hx => h x (by simp [Fml.vars, hx])),
      Fml.eval_congr g st (fun x hx => h x (by simp [Fml.vars, hx]))]
  | .buffer fs, _, h => by simp [Fml.eval, Fml.evalBuffer_congr fs [] (by simpa [Fml.vars] using h)]
  | .recall _, _, _ => by simp [Fml.eval]
theorem Fml.evalBuffer_congr {ρ ρ' : Word → Bool} : ∀ (fs : List Fml) (st : List (Option Bool)),
    (∀ x ∈ Fml.varsBuffer fs, ρ x = ρ' x) → Fml.evalBuffer ρ st fs = Fml.evalBuffer ρ' st fs
  | [], _, _ => by simp [Fml.evalBuffer]
  | f :: fs, st, h => by
    simp [Fml.evalBuffer, Fml.eval_congr f st (fun x hx => h x (by simp [Fml.varsBuffer, hx])),
      Fml.evalBuffer_congr fs _ (fun x hx => h x (by simp [Fml.varsBuffer, hx]))]
end

theorem BinOp.apply_comm (op : BinOp) (a b : Bool) : op.apply a b = op.apply b a := by
  cases op <;> cases a <;> cases b <;> rfl

/-! ### Words -/

theorem Spells.split {ws ws' : List Word} : ∀ {inp rest}, Spells inp (ws ++ ws') rest →
    ∃ r, Spells inp ws r ∧ Spells r ws' rest := by
  induction ws with
  | nil => intro inp rest h; exact ⟨inp, .nil, h⟩
  | cons w ws ih =>
    intro inp rest h
    cases h with
    | cons h1 h2 =>
      obtain ⟨r, h3, h4⟩ := ih h2
      exact ⟨r, .cons h1 h3, h4⟩

theorem Spells.length {ws : List Word} : ∀ {inp rest}, Spells inp ws rest → rest.length + ws.length ≤ inp.length := by
  induction ws with
  | nil => intro inp rest h; cases h; simp
  | cons w ws ih =>
    intro inp rest h
    cases h with
    | cons h1 h2 =>
      have := ih h2
      have := startsWithWord_length h1
      simp; omega

theorem space_not_digit {c : Char} (h : isSpace c = true) : isDigit c = false := by
  by_contra hd
  have := (isDigit_not_space (by simpa using hd)).1
  rw [this] at h; cases h

theorem startsWithNumber_decimal {inp rest : List Char} {n : Nat} (h : StartsWithWord inp (decimal n) rest)
    (hn : n < 2 ^ 32) : StartsWithNumber inp n rest := by
  obtain ⟨sp, rfl, h1, h2, h3, h4⟩ := h
  exact ⟨sp, [], decimal n, by simp, h1, h2, decimal_digits n, fun c hc => space_not_digit (h4 c hc),
    by rw [digitsVal_decimal]; exact hn, .inl ⟨.inl rfl, (digitsVal_decimal n).symm⟩⟩

mutual
theorem Fml.words_pos : ∀ f : Fml, 0 < f.words.length
  | .const true => by simp [Fml.words]
  | .const false => by simp [Fml.words]
  | .var _ => by simp [Fml.words]
  | .not _ => by simp [Fml.words]
  | .bin _ _ _ => by simp [Fml.words]
  | .buffer _ => by simp [Fml.words]
  | .recall _ => by simp [Fml.words]
theorem Fml.wordsBuffer_length : ∀ fs : List Fml, fs.length ≤ (Fml.wordsBuffer fs).length
  | [] => by simp
  | f :: fs => by
    have := Fml.words_pos f
    have := Fml.wordsBuffer_length fs
    simp [Fml.wordsBuffer]; omega
end

mutual
theorem Spells.reads : ∀ (f : Fml) {inp rest : List Char} (n : Nat), Spells inp f.words rest → inp.length < 2 ^ 32 →
    n ≤ 2 ^ 32 → f.Wf n → (∀ x ∈ f.vars, x ∉ reserved) → Reads inp f rest
  | .const true, _, _, _, h, _, _, _, _ => by
    simp only [Fml.words] at h
    cases h with | cons h1 h2 => cases h2; exact .true h1
  | .const false, _, _, _, h, _, _, _, _ => by
    simp only [Fml.words] at h
    cases h with | cons h1 h2 => cases h2; exact .false h1
  | .var x, _, _, _, h, _, _, _, hv => by
    simp only [Fml.words] at h
    cases h with | cons h1 h2 => cases h2; exact .var h1 (hv x (by simp [Fml.vars]))
  | .not f, _, _, n, h, hl, hn, hw, hv => by
    simp only [Fml.words] at h
    cases h with
    | cons h1 h2 =>
      have := startsWithWord_length h1
      exact .not h1 (Spells.reads f n h2 (by omega) hn (by simpa [Fml.Wf] using hw) (by simpa [Fml.vars] using hv))
  | .bin op f g, _, _, n, h, hl, hn, hw, hv => by
    simp only [Fml.words] at h
    simp only [Fml.Wf] at hw
    cases h with
    | cons h1 h2 =>
      have := startsWithWord_length h1
      obtain ⟨r, h3, h4⟩ := h2.split
      have := h3.length
      exact .bin h1 (Spells.reads f n h3 (by omega) hn hw.1 (fun x hx => hv x (by simp [Fml.vars, hx])))
        (Spells.reads g n h4 (by omega) hn hw.2 (fun x hx => hv x (by simp [Fml.vars, hx])))
  | .buffer fs, _, _, n, h, hl, hn, hw, hv => by
    simp only [Fml.words] at h
    simp only [Fml.Wf] at hw
    cases h with
    | cons h1 h2 =>
      cases h2 with
      | cons h2 h3 =>
        have := startsWithWord_length h1
        have := startsWithWord_length h2
        have := h3.length
        have := Fml.wordsBuffer_length fs
        exact .buffer h1 (startsWithNumber_decimal h2 (by omega))
          (Spells.readsN fs 0 h3 (by omega) (by omega) hw.2 (by simpa [Fml.vars] using hv))
  | .recall i, _, _, n, h, hl, hn, hw, hv => by
    simp only [Fml.words] at h
    simp only [Fml.Wf] at hw
    cases h with
    | cons h1 h2 =>
      cases h2 with
      | cons h2 h3 => cases h3; exact .recall h1 (startsWithNumber_decimal h2 (by omega))
theorem Spells.readsN : ∀ (fs : List Fml) {inp rest : List Char} (n : Nat), Spells inp (Fml.wordsBuffer fs) rest →
    inp.length < 2 ^ 32 → n + fs.length ≤ 2 ^ 32 → Fml.WfBuffer n fs → (∀ x ∈ Fml.varsBuffer fs, x ∉ reserved) →
    ReadsN fs.length inp fs rest
  | [], _, _, _, h, _, _, _, _ => by simp only [Fml.wordsBuffer] at h; cases h; exact .nil
  | f :: fs, _, _, n, h, hl, hn, hw, hv => by
    simp only [Fml.wordsBuffer] at h
    simp only [Fml.WfBuffer] at hw
    simp only [List.length_cons] at hn
    obtain ⟨r, h3, h4⟩ := h.split
    have := h3.length
    exact .cons (Spells.reads f n h3 hl (by omega) hw.1 (fun x hx => hv x (by simp [Fml.varsBuffer, hx])))
      (Spells.readsN fs (n + 1) h4 (by omega) (by omega) hw.2 (fun x hx => hv x (by simp [Fml.varsBuffer, hx])))
end

theorem Spells.joinWords : ∀ ws : List Word, (∀ w ∈ ws, w ≠ [] ∧ ∀ c ∈ w, isSpace c = false) →
    Spells (joinWords ws) ws []
  | [], _ => .nil
  | [w], h => .cons ⟨[], by simp [Spec.joinWords], by simp, (h w (by simp)).1, (h w (by simp)).2, by simp⟩ .nil
  | w :: w' :: ws, h => by
    have ih := Spells.joinWords (w' :: ws) (fun x hx => h x (by simp [List.mem_cons.mp hx]))
    refine .cons (r := ' ' :: Spec.joinWords (w' :: ws)) ⟨[], by simp [Spec.joinWords], by simp, (h w (by simp)).1, (h w (by simp)).2,
      by simp [isSpace]⟩ ?_
    cases ih with
    | cons h1 h2 =>
      obtain ⟨sp, e, a1, a2, a3, a4⟩ := h1
      refine .cons ⟨' ' :: sp, by simp [e], ?_, a2, a3, a4⟩ h2
      intro c hc
      rcases List.mem_cons.mp hc with rfl | hc
      · rfl
      · exact a1 c hc

mutual
theorem Fml.words_good : ∀ f : Fml, (∀ x ∈ f.vars, x ≠ [] ∧ ∀ c ∈ x, isSpace c = false) →
    ∀ w ∈ f.words, w ≠ [] ∧ ∀ c ∈ w, isSpace c = false
  | .const true, _ => by simp [Fml.words]; decide
  | .const false, _ => by simp [Fml.words]; decide
  | .var x, h => by simpa [Fml.words, Fml.vars] using h
  | .not f, h => by
    intro w hw
    simp only [Fml.words, List.mem_cons] at hw
    rcases hw with rfl | hw
    · simp; decide
    · exact Fml.words_good f (by simpa [Fml.vars] using h) w hw
  | .bin op f g, h => by
    intro w hw
    simp only [Fml.words, List.mem_cons, List.mem_append] at hw
    rcases hw with rfl | hw | hw
    · cases op <;> simp [BinOp.word] <;> decide
    · exact Fml.words_good f (fun x hx => h x (by simp [Fml.vars, hx])) w hw
    · exact Fml.words_good g (fun x hx => h x (by simp [Fml.vars, hx])) w hw
  | .buffer fs, h => by
    intro w hw
    simp only [Fml.words, List.mem_cons] at hw
    rcases hw with rfl | rfl | hw
    · simp; decide
    · exact ⟨decimal_ne_nil _, fun c hc => (isDigit_not_space (decimal_digits _ c hc)).1⟩
    · exact Fml.wordsBuffer_good fs (by simpa [Fml.vars] using h) w hw
  | .recall i, _ => by
    intro w hw
    simp only [Fml.words, List.mem_cons, List.not_mem_nil, or_false] at hw
    rcases hw with rfl | rfl
    · simp; decide
    · exact ⟨decimal_ne_nil _, fun c hc => (isDigit_not_space (decimal_digits _ c hc)).1⟩
theorem Fml.wordsBuffer_good : ∀ fs : List Fml, (∀ x ∈ Fml.varsBuffer fs, x ≠ [] ∧ ∀ c ∈ x, isSpace c = false) →
    ∀ w ∈ Fml.wordsBuffer fs, w ≠ [] ∧ ∀ c ∈ w, isSpace c = false
  | [], _ => by simp [Fml.wordsBuffer]
  | f :: fs, h => by
    intro w hw
    simp only [Fml.wordsBuffer, List.mem_append] at hw
    rcases hw with hw | hw
    · exact Fml.words_good f (fun x hx => h x (by simp [Fml.varsBuffer, hx])) w hw
    · exact Fml.wordsBuffer_good fs (fun x hx => h x (by simp [Fml.varsBuffer, hx])) w hw
end

/-- What follows after the text of a formula is a suffix of the input. -/
theorem startsWithWord_suffix {inp w rest : List Char} (h : StartsWithWord inp w rest) : rest <:+ inp := by
  obtain ⟨sp, rfl, _⟩ := h
  exact ⟨sp ++ w, rfl⟩

theorem startsWithNumber_suffix {inp rest : List Char} {n : Nat} (h : StartsWithNumber inp n rest) : rest <:+ inp := by
  obtain ⟨sp, s, d, rfl, _⟩ := h
  exact ⟨sp ++ s ++ d, rfl⟩

mutual
theorem Reads.suffix : ∀ {inp f rest}, Reads inp f rest → rest <:+ inp
  | _, _, _, .true h => startsWithWord_suffix h
  | _, _, _, .false h => startsWithWord_suffix h
  | _, _, _, .var h _ => startsWithWord_suffix h
  | _, _, _, .not h h1 => h1.suffix.trans (startsWithWord_suffix h)
  | _, _, _, .bin h h1 h2 => h2.suffix.trans (h1.suffix.trans (startsWithWord_suffix h))
  | _, _, _, .buffer h h1 h2 => h2.suffix.trans ((startsWithNumber_suffix h1).trans (startsWithWord_suffix h))
  | _, _, _, .recall h h1 => (startsWithNumber_suffix h1).trans (startsWithWord_suffix h)
theorem ReadsN.suffix : ∀ {n inp fs rest}, ReadsN n inp fs rest → rest <:+ inp
  | _, _, _, _, .nil => List.suffix_refl _
  | _, _, _, _, .cons h1 h2 => h2.suffix.trans h1.suffix
end

end Slugs.Spec

namespace Slugs.Model

open Slugs.Spec

variable {B : Type} [DecidableEq B] [L : BddLib B]

/-- The word is the name of a variable of an allowed type. -/
def Declared (tab : VarTable) (allowed : List VarType) (x : Word) : Prop :=
  tab.names.idxOf x < tab.names.length ∧ ∃ t, tab.types[tab.names.idxOf x]? = some t ∧ t ∈ allowed

theorem lookupVar_eq (word : List Char) (allowed : List VarType) (rest : List Char) :
    ∀ (ns : List Name) (ts : List VarType) (i : Nat),
    (lookupVar (B := B) word allowed rest i ns ts = .ok (some (L.var (i + ns.idxOf word)), rest) ∧
      ns.idxOf word < ns.length ∧ ∃ t, ts[ns.idxOf word]? = some t ∧ t ∈ allowed) ∨
    (¬ (ns.idxOf word < ns.length ∧ ∃ t, ts[ns.idxOf word]? = some t ∧ t ∈ allowed) ∧
      (lookupVar (B := B) word allowed rest i ns ts = .err .unknownVar ∨
       lookupVar (B := B) word allowed rest i ns ts = .err .notAllowed)) := by
  intro ns
  induction ns with
  | nil => intro ts i; right; simp [lookupVar]
  | cons n ns ih =>
    intro ts i
    cases ts with
    | nil => right; simp [lookupVar]
    | cons t ts =>
      by_cases hn : n = word
      · subst hn
        by_cases ht : t ∈ allowed
        · left; simp [lookupVar, ht]
        · right; simp [lookupVar, ht]
      · have e : (n :: ns).idxOf word = ns.idxOf word + 1 := by simp [List.idxOf_cons, beq_eq_false_iff_ne.mpr hn]
        simp only [lookupVar, hn, if_false, e]
        have := ih ts (i + 1)
        simp only [List.length_cons, Nat.add_lt_add_iff_right, List.getElem?_cons_succ]
        rw [show i + (ns.idxOf word + 1) = i + 1 + ns.idxOf word by omega]
        exact this

theorem lookupVar_ok {word : List Char} {allowed : List VarType} {rest : List Char} {tab : VarTable}
    {r : Option B × List Char} (h : lookupVar word allowed rest 0 tab.names tab.types = .ok r) :
    Declared tab allowed word ∧ r = (some (L.var (tab.names.idxOf word)), rest) := by
  rcases lookupVar_eq (B := B) word allowed rest tab.names tab.types 0 with ⟨h1, h2⟩ | ⟨_, h1 | h1⟩ <;> rw [h1] at h
  · simp only [Res.ok.injEq, Nat.zero_add] at h
    exact ⟨h2, h.symm⟩
  · cases h
  · cases h

theorem lookupVar_declared {word : List Char} {allowed : List VarType} (rest : List Char) {tab : VarTable}
    (h : Declared tab allowed word) :
    lookupVar (B := B) word allowed rest 0 tab.names tab.types = .ok (some (L.var (tab.names.idxOf word)), rest) := by
  rcases lookupVar_eq (B := B) word allowed rest tab.names tab.types 0 with ⟨h1, _⟩ | ⟨h1, _⟩
  · simpa using h1
  · exact absurd h h1

/-- Value of an optional BF. -/
def ev (a : Asg) : Option B → Option Bool := Option.map (fun b => L.eval b a)

/-- Values of the variables under an assignment of the BDD variables. -/
def nameVal (tab : VarTable) (a : Asg) (x : Word) : Bool := a (tab.names.idxOf x)

/-- What a successful read means. -/
def ReadOk (tab : VarTable) (allowed : List VarType) (mem : List (Option B)) (inp : List Char) (v : Option B)
    (rest : List Char) : Prop :=
  ∃ φ, Reads inp φ rest ∧ (∀ x ∈ φ.vars, Declared tab allowed x) ∧
    ∀ a, φ.eval (nameVal tab a) (mem.map (ev a)) = ev a v

theorem bufLoop_sound {tab : VarTable} {allowed : List VarType}
    {p : List (Option B) → List Char → Res ReadErr (Option B × List Char)}
    (hp : ∀ mem inp v rest, p mem inp = .ok (v, rest) → ReadOk tab allowed mem inp v rest) :
    ∀ (k : Nat) (stored : List (Option B)) (inp : List Char) (cells : List (Option B)) (rest : List Char),
    bufLoop p k stored inp = .ok (cells, rest) →
    ∃ fs, ReadsN k inp fs rest ∧ (∀ x ∈ Fml.varsBuffer fs, Declared tab allowed x) ∧
      ∀ a, Fml.evalBuffer (nameVal tab a) (stored.map (ev a)) fs = cells.map (ev a) := by
  intro k
  induction k with
  | zero =>
    intro stored inp cells rest h
    simp only [bufLoop, Res.ok.injEq, Prod.mk.injEq] at h
    obtain ⟨rfl, rfl⟩ := h
    exact ⟨[], .nil, by simp [Fml.varsBuffer], by simp [Fml.evalBuffer]⟩
  | succ k ih =>
    intro stored inp cells rest h
    rw [bufLoop] at h
    cases hr : p (stored ++ List.replicate (k + 1) none) inp with
    | err e => simp [hr] at h
    | ub => simp [hr] at h
    | stuck => simp [hr] at h
    | ok r =>
      obtain ⟨v, r⟩ := r
      simp only [hr] at h
      obtain ⟨φ, h1, h2, h3⟩ := hp _ _ _ _ hr
      obtain ⟨fs, h4, h5, h6⟩ := ih _ _ _ _ h
      refine ⟨φ :: fs, .cons h1 h4, ?_, ?_⟩
      · intro x hx
        simp only [Fml.varsBuffer, List.mem_append] at hx
        exact hx.elim (h2 x) (h5 x)
      · intro a
        rw [Fml.evalBuffer, ← h6 a]
        have := h3 a
        rw [List.map_append, List.map_replicate] at this
        rw [show ev a (none : Option B) = none from rfl, Fml.eval_replicate] at this
        rw [this]; simp

omit [DecidableEq B] L in
theorem binOp_ok {op : B → B → B} {a b v : Option B} {rest rest' : List Char} (h : binOp op a b rest = .ok (v, rest')) :
    ∃ x y, a = some x ∧ b = some y ∧ v = some (op x y) ∧ rest' = rest := by
  cases a <;> cases b <;> simp only [binOp] at h <;> try cases h
  exact ⟨_, _, rfl, rfl, rfl, rfl⟩

/-- Whatever the reader accepts is the text of a formula, and the result is its meaning. -/
theorem parse_sound (tab : VarTable) (allowed : List VarType) (cap : Nat) (order : List Char → Bool) :
    ∀ (fuel : Nat) (mem : List (Option B)) (inp : List Char) (v : Option B) (rest : List Char),
    parseRec tab allowed cap order fuel mem inp = .ok (v, rest) → ReadOk tab allowed mem inp v rest := by
  intro fuel
  induction fuel with
  | zero => intro mem inp v rest h; simp [parseRec] at h
  | succ fuel ih =>
    intro mem inp v rest h
    cases hw : readWord inp with
    | mk word r =>
    rw [parseRec] at h
    simp only [hw] at h
    have two : ∀ (op : BinOp) (bop : B → B → B), (∀ x y a, L.eval (bop x y) a = op.apply (L.eval x a) (L.eval y a)) →
        word = op.word →
        (match parseRec tab allowed cap order fuel mem r with
          | .ok (a, rest1) =>
            match parseRec tab allowed cap order fuel mem rest1 with
            | .ok (b, rest2) => if order r then binOp bop b a rest2 else binOp bop a b rest2
            | .err e => .err e
            | .ub => .ub
            | .stuck => .stuck
          | .err e => .err e
          | .ub => .ub
          | .stuck => .stuck) = Res.ok (v, rest) → ReadOk tab allowed mem inp v rest := by
      intro op bop hbop hop hm
      cases h1 : parseRec tab allowed cap order fuel mem r with
      | err e => simp [h1] at hm
      | ub => simp [h1] at hm
      | stuck => simp [h1] at hm
      | ok r1 =>
        obtain ⟨x, r1⟩ := r1
        simp only [h1] at hm
        cases h2 : parseRec tab allowed cap order fuel mem r1 with
        | err e => simp [h2] at hm
        | ub => simp [h2] at hm
        | stuck => simp [h2] at hm
        | ok r2 =>
          obtain ⟨y, r2⟩ := r2
          simp only [h2] at hm
          obtain ⟨φ, a1, a2, a3⟩ := ih _ _ _ _ h1
          obtain ⟨ψ, b1, b2, b3⟩ := ih _ _ _ _ h2
          have hword : StartsWithWord inp op.word r := by
            rw [← hop]; exact readWord_sound hw (by rw [hop]; cases op <;> simp [BinOp.word])
          have : ∃ x' y', x = some x' ∧ y = some y' ∧ rest = r2 ∧
              ((v = some (bop x' y')) ∨ v = some (bop y' x')) := by
            split at hm
            · obtain ⟨p, q, rfl, rfl, rfl, rfl⟩ := binOp_ok hm
              exact ⟨q, p, rfl, rfl, rfl, .inr rfl⟩
            · obtain ⟨p, q, rfl, rfl, rfl, rfl⟩ := binOp_ok hm
              exact ⟨p, q, rfl, rfl, rfl, .inl rfl⟩
          obtain ⟨p, q, rfl, rfl, rfl, hv⟩ := this
          refine ⟨.bin op φ ψ, .bin hword a1 b1, ?_, ?_⟩
          · intro x hx
            simp only [Fml.vars, List.mem_append] at hx
            exact hx.elim (a2 x) (b2 x)
          · intro a
            rw [Fml.eval, a3 a, b3 a]
            rcases hv with rfl | rfl <;> simp [ev, hbop, BinOp.apply_comm]
    by_cases h0 : word = []
    · simp [h0] at h
    have hsw := readWord_sound hw h0
    simp only [h0, if_false] at h
    by_cases h1 : word = ['|']
    · simp only [h1, if_true] at h
      exact two .or _ (fun x y a => L.eval_or x y a) h1 h
    simp only [h1, if_false] at h
    by_cases h2 : word = ['^']
    · simp only [h2, if_true] at h
      exact two .xor _ (fun x y a => L.eval_xor x y a) h2 h
    simp only [h2, if_false] at h
    by_cases h3 : word = ['&']
    · simp only [h3, if_true] at h
      exact two .and _ (fun x y a => L.eval_and x y a) h3 h
    simp only [h3, if_false] at h
    by_cases h4 : word = ['!']
    · simp only [h4, if_true] at h
      cases h1 : parseRec tab allowed cap order fuel mem r with
      | err e => simp [h1] at h
      | ub => simp [h1] at h
      | stuck => simp [h1] at h
      | ok r1 =>
        obtain ⟨x, r1⟩ := r1
        cases x with
        | none => simp [h1] at h
        | some x =>
          simp only [h1, Res.ok.injEq, Prod.mk.injEq] at h
          obtain ⟨rfl, rfl⟩ := h
          obtain ⟨φ, a1, a2, a3⟩ := ih _ _ _ _ h1
          refine ⟨.not φ, .not (h4 ▸ hsw) a1, by simpa [Fml.vars] using a2, ?_⟩
          intro a
          rw [Fml.eval, a3 a]; simp [ev, L.eval_not]
    simp only [h4, if_false] at h
    by_cases h5 : word = ['1']
    · simp only [h5, if_true, Res.ok.injEq, Prod.mk.injEq] at h
      obtain ⟨rfl, rfl⟩ := h
      exact ⟨.const true, .true (h5 ▸ hsw), by simp [Fml.vars], fun a => by simp [Fml.eval, ev, L.eval_tt]⟩
    simp only [h5, if_false] at h
    by_cases h6 : word = ['0']
    · simp only [h6, if_true, Res.ok.injEq, Prod.mk.injEq] at h
      obtain ⟨rfl, rfl⟩ := h
      exact ⟨.const false, .false (h6 ▸ hsw), by simp [Fml.vars], fun a => by simp [Fml.eval, ev, L.eval_ff]⟩
    simp only [h6, if_false] at h
    by_cases h7 : word = ['$']
    · simp only [h7, if_true] at h
      cases hu : readUnsigned r with
      | none => simp [hu] at h
      | some nr =>
        obtain ⟨n, r1⟩ := nr
        simp only [hu] at h
        split at h
        · simp at h
        · cases hb : bufLoop (parseRec tab allowed cap order fuel) n ([] : List (Option B)) r1 with
          | err e => simp [hb] at h
          | ub => simp [hb] at h
          | stuck => simp [hb] at h
          | ok cr =>
            obtain ⟨cells, r2⟩ := cr
            simp only [hb] at h
            obtain ⟨fs, a1, a2, a3⟩ := bufLoop_sound ih _ _ _ _ _ hb
            cases hg : cells.getLast? with
            | none => simp [hg] at h
            | some w =>
              simp only [hg, Res.ok.injEq, Prod.mk.injEq] at h
              obtain ⟨rfl, rfl⟩ := h
              refine ⟨.buffer fs, .buffer (h7 ▸ hsw) (readUnsigned_sound hu) a1, by simpa [Fml.vars] using a2, ?_⟩
              intro a
              have := a3 a
              simp only [List.map_nil] at this
              rw [Fml.eval, this, List.getLast?_map, hg]; rfl
    simp only [h7, if_false] at h
    by_cases h8 : word = ['?']
    · simp only [h8, if_true] at h
      cases hu : readUnsigned r with
      | none => simp [hu] at h
      | some nr =>
        obtain ⟨n, r1⟩ := nr
        simp only [hu] at h
        cases hg : mem[n]? with
        | none => simp [hg] at h
        | some w =>
          simp only [hg, Res.ok.injEq, Prod.mk.injEq] at h
          obtain ⟨rfl, rfl⟩ := h
          refine ⟨.recall n, .recall (h8 ▸ hsw) (readUnsigned_sound hu), by simp [Fml.vars], ?_⟩
          intro a
          rw [Fml.eval, List.getElem?_map, hg]; rfl
    simp only [h8, if_false] at h
    obtain ⟨hd, he⟩ := lookupVar_ok h
    simp only [Prod.mk.injEq] at he
    obtain ⟨rfl, rfl⟩ := he
    refine ⟨.var word, .var hsw ?_, by simpa [Fml.vars] using hd, ?_⟩
    · simp only [reserved, List.mem_cons, List.not_mem_nil, or_false]
      rintro (e | e | e | e | e | e | e | e) <;> contradiction
    · intro a
      simp [Fml.eval, ev, L.eval_var, nameVal]

/-! ### Completeness -/

/-- Memory as the reader sees it: the elements stored so far, then cells not filled yet. -/
def memOf (stored : List B) (m : Nat) : List (Option B) := stored.map some ++ List.replicate m none

omit [DecidableEq B] L in
theorem bufLoop_complete {tab : VarTable} {allowed : List VarType} {len : Nat}
    {p : List (Option B) → List Char → Res ReadErr (Option B × List Char)}
    (hp : ∀ (φ : Fml) (stored : List B) (m : Nat) (inp rest : List Char), inp.length ≤ len → Reads inp φ rest →
      φ.Wf stored.length → (∀ x ∈ φ.vars, Declared tab allowed x) → ∃ v, p (memOf stored m) inp = .ok (some v, rest)) :
    ∀ (fs : List Fml) (k : Nat) (stored : List B) (inp rest : List Char), inp.length ≤ len → ReadsN k inp fs rest →
    Fml.WfBuffer stored.length fs → (∀ x ∈ Fml.varsBuffer fs, Declared tab allowed x) →
    ∃ cells : List B, cells.length = stored.length + k ∧ bufLoop p k (stored.map some) inp = .ok (cells.map some, rest) := by
  intro fs
  induction fs with
  | nil =>
    intro k stored inp rest _ h _ _
    cases h
    exact ⟨stored, rfl, rfl⟩
  | cons f fs ih =>
    intro k stored inp rest hl h hwf hv
    cases h with
    | @cons k _ r _ _ _ h1 h2 =>
      simp only [Fml.WfBuffer] at hwf
      obtain ⟨v, hv1⟩ := hp f stored (k + 1) inp r hl h1 hwf.1 (fun x hx => hv x (by simp [Fml.varsBuffer, hx]))
      have := h1.length
      obtain ⟨cells, hc, hb⟩ := ih k (stored ++ [v]) r rest (by omega) h2 (by simpa using hwf.2)
        (fun x hx => hv x (by simp [Fml.varsBuffer, hx]))
      refine ⟨cells, by simp at hc; omega, ?_⟩
      rw [bufLoop, show stored.map some ++ List.replicate (k + 1) none = memOf stored (k + 1) from rfl, hv1]
      simpa using hb

/-- Every well-formed formula over declared variables is accepted. -/
theorem parse_complete (tab : VarTable) (allowed : List VarType) (cap : Nat) (order : List Char → Bool) :
    ∀ (fuel : Nat) (φ : Fml) (stored : List B) (m : Nat) (inp rest : List Char), inp.length < fuel → inp.length ≤ cap →
    Reads inp φ rest → φ.Wf stored.length → (∀ x ∈ φ.vars, Declared tab allowed x) →
    ∃ v, parseRec tab allowed cap order fuel (memOf stored m) inp = .ok (some v, rest) := by
  intro fuel
  induction fuel with
  | zero => intro φ stored m inp rest h; omega
  | succ fuel ih =>
    intro φ stored m inp rest hl hcap hr hwf hv
    have hlen := hr.length
    rw [parseRec]
    cases hr with
    | true h => rw [readWord_complete h]; simp
    | false h => rw [readWord_complete h]; simp
    | var h hx =>
      rw [readWord_complete h]
      have hne := h.choose_spec.2.2.1
      simp only [reserved, List.mem_cons, List.not_mem_nil, or_false, not_or] at hx
      obtain ⟨x1, x2, x3, x4, x5, x6, x7, x8⟩ := hx
      simp only [hne, x1, x2, x3, x4, x5, x6, x7, x8, if_false]
      exact ⟨_, lookupVar_declared _ (hv _ (by simp [Fml.vars]))⟩
    | not h h1 =>
      have := startsWithWord_length h
      obtain ⟨v, e⟩ := ih _ stored m _ _ (by omega) (by omega) h1 (by simpa [Fml.Wf] using hwf) (by simpa [Fml.vars] using hv)
      rw [readWord_complete h]
      simp [e]
    | @bin _ r r' _ op f g h h1 h2 =>
      have := startsWithWord_length h
      have := h1.length
      simp only [Fml.Wf] at hwf
      obtain ⟨v1, e1⟩ := ih _ stored m _ _ (by omega) (by omega) h1 hwf.1 (fun x hx => hv x (by simp [Fml.vars, hx]))
      obtain ⟨v2, e2⟩ := ih _ stored m _ _ (by omega) (by omega) h2 hwf.2 (fun x hx => hv x (by simp [Fml.vars, hx]))
      rw [readWord_complete h]
      cases op <;> simp only [BinOp.word] <;> simp only [e1, e2] <;> cases order r <;> simp [binOp]
    | @buffer _ r r' _ n fs h h1 h2 =>
      have a1 := startsWithWord_length h
      have a2 := startsWithNumber_length h1
      have a3 := h2.length
      simp only [Fml.Wf] at hwf
      obtain ⟨cells, hc, hb⟩ := bufLoop_complete (len := r'.length) (p := parseRec tab allowed cap order fuel)
        (fun φ st m inp rest hl hr hw hv => ih φ st m inp rest (by omega) (by omega) hr hw hv) fs n [] r' rest
        (Nat.le_refl _) h2 (by simpa using hwf.2) (by simpa [Fml.vars] using hv)
      rw [readWord_complete h]
      simp only [readUnsigned_complete h1]
      have hn : ¬ n ≥ cap := by omega
      have hne : n ≠ 0 := by
        intro h0
        have := h2.length_eq
        rw [h0] at this
        exact hwf.1 (List.length_eq_zero_iff.mp this)
      simp only [List.map_nil] at hb
      simp only [hn, hb, if_false, List.cons_ne_nil, List.cons.injEq, and_true, if_true]
      simp only [List.getLast?_map]
      cases hg : cells.getLast? with
      | none =>
        rw [List.getLast?_eq_none_iff] at hg
        subst hg
        simp at hc; omega
      | some v => simp
    | @recall _ r i _ h h1 =>
      rw [readWord_complete h]
      simp only [readUnsigned_complete h1]
      simp only [Fml.Wf] at hwf
      have : (memOf stored m)[i]? = some (some stored[i]) := by
        rw [memOf, List.getElem?_append_left (by simpa using hwf)]
        simp [hwf]
      simp [this]

/-! ### The model's bound on the recursion depth is never reached -/

theorem bufLoop_not_stuck {tab : VarTable} {allowed : List VarType} {len : Nat}
    {p : List (Option B) → List Char → Res ReadErr (Option B × List Char)}
    (hs : ∀ mem inp v rest, p mem inp = .ok (v, rest) → ReadOk tab allowed mem inp v rest)
    (hp : ∀ mem inp, inp.length ≤ len → p mem inp ≠ .stuck) :
    ∀ (k : Nat) (stored : List (Option B)) (inp : List Char), inp.length ≤ len → bufLoop p k stored inp ≠ .stuck := by
  intro k
  induction k with
  | zero => intro stored inp _; simp [bufLoop]
  | succ k ih =>
    intro stored inp hl
    rw [bufLoop]
    have := hp (stored ++ List.replicate (k + 1) none) inp hl
    cases h : p (stored ++ List.replicate (k + 1) none) inp with
    | ok r =>
      obtain ⟨v, r⟩ := r
      obtain ⟨φ, h1, _⟩ := hs _ _ _ _ h
      have := h1.length
      exact ih _ _ (by omega)
    | err e => simp
    | ub => simp
    | stuck => exact absurd h this

theorem parse_not_stuck (tab : VarTable) (allowed : List VarType) (cap : Nat) (order : List Char → Bool) :
    ∀ (fuel : Nat) (mem : List (Option B)) (inp : List Char), inp.length < fuel →
    parseRec tab allowed cap order fuel mem inp ≠ .stuck := by
  intro fuel
  induction fuel with
  | zero => intro mem inp h; omega
  | succ fuel ih =>
    intro mem inp hl
    cases hw : readWord inp with
    | mk word r =>
    rw [parseRec]
    simp only [hw]
    by_cases h0 : word = []
    · simp [h0]
    have hsw := startsWithWord_length (readWord_sound hw h0)
    have two : ∀ (bop : B → B → B),
        (match parseRec tab allowed cap order fuel mem r with
          | .ok (a, rest1) =>
            match parseRec tab allowed cap order fuel mem rest1 with
            | .ok (b, rest2) => if order r then binOp bop b a rest2 else binOp bop a b rest2
            | .err e => .err e
            | .ub => .ub
            | .stuck => .stuck
          | .err e => .err e
          | .ub => .ub
          | .stuck => .stuck) ≠ Res.stuck := by
      intro bop
      have := ih mem r (by omega)
      cases h1 : parseRec tab allowed cap order fuel mem r with
      | err e => simp
      | ub => simp
      | stuck => exact absurd h1 this
      | ok r1 =>
        obtain ⟨x, r1⟩ := r1
        obtain ⟨φ, a1, _⟩ := parse_sound _ _ _ _ _ _ _ _ _ h1
        have := a1.length
        have := ih mem r1 (by omega)
        cases h2 : parseRec tab allowed cap order fuel mem r1 with
        | err e => simp [h2]
        | ub => simp [h2]
        | stuck => exact absurd h2 this
        | ok r2 =>
          obtain ⟨y, r2⟩ := r2
          simp only [h2]
          cases x <;> cases y <;> split <;> simp [binOp]
    simp only [h0, if_false]
    split
    · exact two _
    split
    · exact two _
    split
    · exact two _
    split
    · have := ih mem r (by omega)
      cases h1 : parseRec tab allowed cap order fuel mem r with
      | err e => simp
      | ub => simp
      | stuck => exact absurd h1 this
      | ok r1 =>
        obtain ⟨x, r1⟩ := r1
        cases x <;> simp
    split
    · simp
    split
    · simp
    split
    · cases hu : readUnsigned r with
      | none => simp
      | some nr =>
        obtain ⟨n, r1⟩ := nr
        have := startsWithNumber_length (readUnsigned_sound hu)
        simp only
        split
        · simp
        · have := bufLoop_not_stuck (len := r1.length) (p := parseRec tab allowed cap order fuel)
            (parse_sound tab allowed cap order fuel)
            (fun mem inp hl => ih mem inp (by omega)) n ([] : List (Option B)) r1 (Nat.le_refl _)
          cases hb : bufLoop (parseRec tab allowed cap order fuel) n ([] : List (Option B)) r1 with
          | err e => simp
          | ub => simp
          | stuck => exact absurd hb this
          | ok cr =>
            obtain ⟨cells, r2⟩ := cr
            simp only
            cases cells.getLast? <;> simp
    split
    · cases hu : readUnsigned r with
      | none => simp
      | some nr =>
        obtain ⟨n, r1⟩ := nr
        simp only
        cases mem[n]? <;> simp
    · rcases lookupVar_eq (B := B) word allowed r tab.names tab.types 0 with ⟨h1, h2⟩ | ⟨_, h1 | h1⟩ <;> rw [h1] <;> simp

/-! ### Evaluation order -/

theorem bdd_or_comm (a b : B) : L.or a b = L.or b a :=
  L.eval_inj _ _ fun v => by rw [L.eval_or, L.eval_or, Bool.or_comm]

theorem bdd_and_comm (a b : B) : L.and a b = L.and b a :=
  L.eval_inj _ _ fun v => by rw [L.eval_and, L.eval_and, Bool.and_comm]

theorem bdd_xor_comm (a b : B) : L.xor a b = L.xor b a :=
  L.eval_inj _ _ fun v => by rw [L.eval_xor, L.eval_xor]; cases L.eval a v <;> cases L.eval b v <;> rfl

omit [DecidableEq B] L in
theorem binOp_comm {op : B → B → B} (h : ∀ a b, op a b = op b a) (a b : Option B) (r : List Char) :
    binOp op a b r = binOp op b a r := by
  cases a <;> cases b <;> simp [binOp, h]

theorem parse_order (tab : VarTable) (allowed : List VarType) (cap : Nat) (order order' : List Char → Bool) :
    ∀ (fuel : Nat), parseRec (B := B) tab allowed cap order fuel = parseRec tab allowed cap order' fuel := by
  intro fuel
  induction fuel with
  | zero => funext mem inp; rfl
  | succ fuel ih =>
    funext mem inp
    rw [parseRec, parseRec]
    have e1 : ∀ (r : List Char) (op : B → B → B) a b rest2, (∀ a b, op a b = op b a) →
        (if order r then binOp op b a rest2 else binOp op a b rest2) =
        (if order' r then binOp op b a rest2 else binOp op a b rest2) := by
      intro r op a b rest2 hop
      rw [binOp_comm hop b a]; simp
    simp only [ih, e1 _ _ _ _ _ bdd_or_comm, e1 _ _ _ _ _ bdd_and_comm, e1 _ _ _ _ _ bdd_xor_comm]

/-! ### Undefined behaviour -/

omit [DecidableEq B] L in
theorem bufLoop_wf {len : Nat}
    {p : List (Option B) → List Char → Res ReadErr (Option B × List Char)}
    (hp : ∀ (φ : Fml) (stored : List B) (m : Nat) (inp rest : List Char), inp.length ≤ len → Reads inp φ rest →
      φ.Wf stored.length → (∃ v, p (memOf stored m) inp = .ok (some v, rest)) ∨ ∃ e, p (memOf stored m) inp = .err e) :
    ∀ (fs : List Fml) (k : Nat) (stored : List B) (inp rest : List Char), inp.length ≤ len → ReadsN k inp fs rest →
    Fml.WfBuffer stored.length fs →
    (∃ cells : List B, cells.length = stored.length + k ∧ bufLoop p k (stored.map some) inp = .ok (cells.map some, rest)) ∨
      ∃ e, bufLoop p k (stored.map some) inp = .err e := by
  intro fs
  induction fs with
  | nil =>
    intro k stored inp rest _ h _
    cases h
    exact .inl ⟨stored, rfl, rfl⟩
  | cons f fs ih =>
    intro k stored inp rest hl h hwf
    cases h with
    | @cons k _ r _ _ _ h1 h2 =>
      simp only [Fml.WfBuffer] at hwf
      have hm : stored.map some ++ List.replicate (k + 1) none = memOf stored (k + 1) := rfl
      rcases hp f stored (k + 1) inp r hl h1 hwf.1 with ⟨v, hv1⟩ | ⟨e, he⟩
      · have := h1.length
        rcases ih k (stored ++ [v]) r rest (by omega) h2 (by simpa using hwf.2) with ⟨cells, hc, hb⟩ | ⟨e, he⟩
        · refine .inl ⟨cells, by simp at hc; omega, ?_⟩
          rw [bufLoop, hm, hv1]
          simpa using hb
        · refine .inr ⟨e, ?_⟩
          rw [bufLoop, hm, hv1]
          simpa using he
      · refine .inr ⟨e, ?_⟩
        rw [bufLoop, hm, he]

/-- Reading the text of a well-formed formula has no undefined behaviour, whatever the declared variables. -/
theorem parse_wf (tab : VarTable) (allowed : List VarType) (cap : Nat) (order : List Char → Bool) :
    ∀ (fuel : Nat) (φ : Fml) (stored : List B) (m : Nat) (inp rest : List Char), inp.length < fuel →
    Reads inp φ rest → φ.Wf stored.length →
    (∃ v, parseRec tab allowed cap order fuel (memOf stored m) inp = .ok (some v, rest)) ∨
      ∃ e, parseRec tab allowed cap order fuel (memOf stored m) inp = .err e := by
  intro fuel
  induction fuel with
  | zero => intro φ stored m inp rest h; omega
  | succ fuel ih =>
    intro φ stored m inp rest hl hr hwf
    have hlen := hr.length
    rw [parseRec]
    cases hr with
    | true h => rw [readWord_complete h]; simp
    | false h => rw [readWord_complete h]; simp
    | @var _ x _ h hx =>
      rw [readWord_complete h]
      have hne := h.choose_spec.2.2.1
      simp only [reserved, List.mem_cons, List.not_mem_nil, or_false, not_or] at hx
      obtain ⟨x1, x2, x3, x4, x5, x6, x7, x8⟩ := hx
      simp only [hne, x1, x2, x3, x4, x5, x6, x7, x8, if_false]
      rcases lookupVar_eq (B := B) x allowed rest tab.names tab.types 0 with ⟨h1, h2⟩ | ⟨_, h1 | h1⟩ <;> rw [h1] <;> simp
    | not h h1 =>
      have := startsWithWord_length h
      rw [readWord_complete h]
      rcases ih _ stored m _ _ (by omega) h1 (by simpa [Fml.Wf] using hwf) with ⟨v, e⟩ | ⟨e, he⟩
      · simp [e]
      · simp [he]
    | @bin _ r r' _ op f g h h1 h2 =>
      have := startsWithWord_length h
      have := h1.length
      simp only [Fml.Wf] at hwf
      rw [readWord_complete h]
      rcases ih _ stored m _ _ (by omega) h1 hwf.1 with ⟨v1, e1⟩ | ⟨e, he⟩
      · rcases ih _ stored m _ _ (by omega) h2 hwf.2 with ⟨v2, e2⟩ | ⟨e, he⟩
        · cases op <;> simp only [BinOp.word] <;> simp only [e1, e2] <;> cases order r <;> simp [binOp]
        · cases op <;> simp only [BinOp.word] <;> simp only [e1, he] <;> simp
      · cases op <;> simp only [BinOp.word] <;> simp only [he] <;> simp
    | @buffer _ r r' _ n fs h h1 h2 =>
      have a1 := startsWithWord_length h
      have a2 := startsWithNumber_length h1
      have a3 := h2.length
      simp only [Fml.Wf] at hwf
      rw [readWord_complete h]
      simp only [readUnsigned_complete h1]
      by_cases hn : n ≥ cap
      · simp [hn]
      rcases bufLoop_wf (len := r'.length) (p := parseRec tab allowed cap order fuel)
        (fun φ st m inp rest hl hr hw => ih φ st m inp rest (by omega) hr hw) fs n [] r' rest
        (Nat.le_refl _) h2 (by simpa using hwf.2) with ⟨cells, hc, hb⟩ | ⟨e, he⟩
      · have hne : n ≠ 0 := by
          intro h0
          have := h2.length_eq
          rw [h0] at this
          exact hwf.1 (List.length_eq_zero_iff.mp this)
        simp only [List.map_nil] at hb
        simp only [hn, hb, if_false, List.cons_ne_nil, List.cons.injEq, and_true, if_true]
        simp only [List.getLast?_map]
        cases hg : cells.getLast? with
        | none =>
          rw [List.getLast?_eq_none_iff] at hg
          subst hg
          simp at hc; omega
        | some v => simp
      · simp only [List.map_nil] at he
        simp [hn, he]
    | @recall _ r i _ h h1 =>
      rw [readWord_complete h]
      simp only [readUnsigned_complete h1]
      simp only [Fml.Wf] at hwf
      have : (memOf stored m)[i]? = some (some stored[i]) := by
        rw [memOf, List.getElem?_append_left (by simpa using hwf)]
        simp [hwf]
      simp [this]

/-- A BF or a reported error. -/
def GoodRes (q : Res ReadErr (Option B × List Char)) : Prop := (∃ v rest, q = .ok (some v, rest)) ∨ ∃ e, q = .err e

/-- Without a `$` there is no undefined behaviour. -/
theorem parse_no_dollar (tab : VarTable) (allowed : List VarType) (cap : Nat) (order : List Char → Bool) :
    ∀ (fuel : Nat) (inp : List Char), inp.length < fuel → '$' ∉ inp →
    GoodRes (parseRec (B := B) tab allowed cap order fuel [] inp) := by
  intro fuel
  induction fuel with
  | zero => intro inp h; omega
  | succ fuel ih =>
    intro inp hl hd
    cases hw : readWord inp with
    | mk word r =>
    rw [parseRec]
    simp only [hw]
    by_cases h0 : word = []
    · simp [h0, GoodRes]
    have hst := readWord_sound hw h0
    have hsw := startsWithWord_length hst
    have hr : '$' ∉ r := fun hm => hd ((startsWithWord_suffix hst).subset hm)
    have two : ∀ (bop : B → B → B) (q : Res ReadErr (Option B × List Char)), q =
        (match parseRec tab allowed cap order fuel [] r with
          | .ok (a, rest1) =>
            match parseRec tab allowed cap order fuel [] rest1 with
            | .ok (b, rest2) => if order r then binOp bop b a rest2 else binOp bop a b rest2
            | .err e => .err e
            | .ub => .ub
            | .stuck => .stuck
          | .err e => .err e
          | .ub => .ub
          | .stuck => .stuck) → GoodRes q := by
      intro bop q hq
      rcases ih r (by omega) hr with ⟨v, r1, e1⟩ | ⟨e, e1⟩
      · obtain ⟨φ, a1, _⟩ := parse_sound _ _ _ _ _ _ _ _ _ e1
        have := a1.length
        have hr1 : '$' ∉ r1 := fun hm => hr (a1.suffix.subset hm)
        rcases ih r1 (by omega) hr1 with ⟨v2, r2, e2⟩ | ⟨e, e2⟩
        · subst hq; simp only [e1, e2]; cases order r <;> simp [binOp, GoodRes]
        · subst hq; simp only [e1, e2]; simp [GoodRes]
      · subst hq; simp only [e1]; simp [GoodRes]
    simp only [h0, if_false]
    split
    · exact two _ _ rfl
    split
    · exact two _ _ rfl
    split
    · exact two _ _ rfl
    split
    · rcases ih r (by omega) hr with ⟨v, r1, e1⟩ | ⟨e, e1⟩ <;> simp [e1, GoodRes]
    split
    · simp [GoodRes]
    split
    · simp [GoodRes]
    split
    · rename_i h7
      exfalso
      apply hd
      obtain ⟨sp, rfl, _⟩ := hst
      simp [h7]
    split
    · cases hu : readUnsigned r with
      | none => simp [GoodRes]
      | some nr => simp [GoodRes]
    · rcases lookupVar_eq (B := B) word allowed r tab.names tab.types 0 with ⟨h1, h2⟩ | ⟨_, h1 | h1⟩ <;> rw [h1] <;> simp [GoodRes]

end Slugs.Model
