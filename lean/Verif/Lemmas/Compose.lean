import Verif.Lemmas.Regroup

/-!
Texts of formulas that are put together from the texts of other formulas.
-/

namespace Slugs.Model

open Slugs.Spec

/-- The text is empty or starts with white space. -/
def Gap (s : List Char) : Prop := ∀ c, s.head? = some c → isSpace c = true

theorem gap_append {a b : List Char} (ha : ∀ c, a.head? = some c → isSpace c = true) (hb : Gap b) : Gap (a ++ b) := by
  cases a with
  | nil => exact hb
  | cons c a => exact fun d hd => ha d (by simpa using hd)

theorem startsWithWord_frame {inp w rest more : List Char} (h : StartsWithWord inp w rest) (hm : Gap more) : StartsWithWord (inp ++ more) w (rest ++ more) := by
  obtain ⟨sp, e, h1, h2, h3, h4⟩ := h
  exact ⟨sp, by rw [e]; simp, h1, h2, h3, gap_append h4 hm⟩

theorem not_digit_of_space {c : Char} (h : isSpace c = true) : isDigit c = false := by
  simp only [isSpace, Bool.or_eq_true, beq_iff_eq] at h
  rcases h with ((((h | h) | h) | h) | h) | h <;> subst h <;> decide

theorem startsWithNumber_frame {inp rest more : List Char} {n : Nat} (h : StartsWithNumber inp n rest) (hm : Gap more) : StartsWithNumber (inp ++ more) n (rest ++ more) := by
  obtain ⟨sp, sign, ds, e, h1, h2, h3, h4, h5⟩ := h
  refine ⟨sp, sign, ds, by rw [e]; simp, h1, h2, h3, ?_, h5⟩
  cases rest with
  | nil => exact fun c hc => not_digit_of_space (hm c hc)
  | cons c rest => exact fun d hd => h4 d (by simpa using hd)

mutual

theorem reads_frame {more : List Char} (hm : Gap more) : ∀ {inp f rest}, Reads inp f rest → Reads (inp ++ more) f (rest ++ more)
  | _, _, _, .true h => .true (startsWithWord_frame h hm)
  | _, _, _, .false h => .false (startsWithWord_frame h hm)
  | _, _, _, .var h hr => .var (startsWithWord_frame h hm) hr
  | _, _, _, .not h h' => .not (startsWithWord_frame h hm) (reads_frame hm h')
  | _, _, _, .bin h h' h'' => .bin (startsWithWord_frame h hm) (reads_frame hm h') (reads_frame hm h'')
  | _, _, _, .buffer h h' h'' => .buffer (startsWithWord_frame h hm) (startsWithNumber_frame h' hm) (readsN_frame hm h'')
  | _, _, _, .recall h h' => .recall (startsWithWord_frame h hm) (startsWithNumber_frame h' hm)

theorem readsN_frame {more : List Char} (hm : Gap more) : ∀ {n inp fs rest}, ReadsN n inp fs rest → ReadsN n (inp ++ more) fs (rest ++ more)
  | _, _, _, _, .nil => .nil
  | _, _, _, _, .cons h h' => .cons (reads_frame hm h) (readsN_frame hm h')

end

theorem startsWithWord_pad {inp w rest : List Char} (h : StartsWithWord inp w rest) : StartsWithWord (' ' :: inp) w rest := by
  obtain ⟨sp, e, h1, h2⟩ := h
  refine ⟨' ' :: sp, by rw [e]; simp, fun c hc => ?_, h2⟩
  rcases List.mem_cons.mp hc with rfl | hc
  · decide
  · exact h1 c hc

theorem reads_pad {inp : List Char} {f : Fml} {rest : List Char} : Reads inp f rest → Reads (' ' :: inp) f rest
  | .true h => .true (startsWithWord_pad h)
  | .false h => .false (startsWithWord_pad h)
  | .var h hr => .var (startsWithWord_pad h) hr
  | .not h h' => .not (startsWithWord_pad h) h'
  | .bin h h' h'' => .bin (startsWithWord_pad h) h' h''
  | .buffer h h' h'' => .buffer (startsWithWord_pad h) h' h''
  | .recall h h' => .recall (startsWithWord_pad h) h'

/-- The text is exactly the text of the formula. -/
def Writes (l : List Char) (φ : Fml) : Prop := Reads l φ []

theorem Writes.reads {l : List Char} {φ : Fml} (h : Writes l φ) {more : List Char} (hm : Gap more) : Reads (l ++ more) φ more := reads_frame hm h

theorem Writes.line {l : List Char} {φ : Fml} (h : Writes l φ) : ReadsLine l φ := ⟨[], h, by simp⟩

theorem startsWithWord_word {w more : List Char} (h : w ≠ []) (h' : ∀ c ∈ w, isSpace c = false) (hm : Gap more) : StartsWithWord (w ++ more) w more :=
  ⟨[], by simp, by simp, h, h', hm⟩

theorem writes_true : Writes txt!"1" (.const true) := Reads.true (startsWithWord_word (w := txt!"1") (more := []) (by simp) (by decide) (by simp [Gap]))

theorem writes_false : Writes txt!"0" (.const false) := Reads.false (startsWithWord_word (w := txt!"0") (more := []) (by simp) (by decide) (by simp [Gap]))

theorem writes_var {x : List Char} (h : x ≠ []) (h' : ∀ c ∈ x, isSpace c = false) (hr : x ∉ reserved) : Writes x (.var x) := by
  have := startsWithWord_word (more := []) h h' (by simp [Gap])
  rw [List.append_nil] at this
  exact Reads.var this hr

theorem writes_not {a : List Char} {φ : Fml} (h : Writes a φ) : Writes (txt!"! " ++ a) (.not φ) :=
  Reads.not (startsWithWord_word (w := txt!"!") (more := ' ' :: a) (by simp) (by decide) (by intro c hc; cases hc; decide)) (reads_pad h)

theorem op_word (op : BinOp) : op.word ≠ [] ∧ ∀ c ∈ op.word, isSpace c = false := by cases op <;> decide

theorem writes_bin {a b : List Char} {φ ψ : Fml} (op : BinOp) (h : Writes a φ) (h' : Writes b ψ) : Writes (op.word ++ txt!" " ++ a ++ txt!" " ++ b) (.bin op φ ψ) := by
  have e : op.word ++ txt!" " ++ a ++ txt!" " ++ b = op.word ++ (' ' :: (a ++ (' ' :: b))) := by simp
  rw [e]
  refine Reads.bin (startsWithWord_word (op_word op).1 (op_word op).2 (by intro c hc; cases hc; decide)) (r' := ' ' :: b) ?_ (reads_pad h')
  exact reads_pad (h.reads (by intro c hc; cases hc; decide))

/-- Operators before the first of their operands. -/
theorem writes_chain (op : BinOp) : ∀ {as : List (List Char)} {φs : List Fml} {a : List Char} {φ : Fml}, Writes a φ → List.Forall₂ Writes as φs →
    Writes ((List.replicate as.length (op.word ++ txt!" ")).flatten ++ joinWords (a :: as)) (φs.foldl (.bin op) φ)
  | [], _, a, φ, h, .nil => by simpa [joinWords] using h
  | b :: as, ψ :: φs, a, φ, h, .cons h' hs => by
    have := writes_chain op (writes_bin op h h') hs
    rw [List.foldl_cons]
    convert this using 1
    rw [List.length_cons, List.replicate_succ', List.flatten_append, List.append_assoc, List.append_assoc]
    congr 1
    cases as <;> simp [joinWords]

theorem ItemLine.writes {l : List Char} (hl : ItemLine l) {φ : Fml} (h : ReadsLine l φ) : Writes l φ := by
  obtain ⟨rest, h1, h2⟩ := h
  obtain ⟨pre, e⟩ := Reads.suffix h1
  rcases List.eq_nil_or_concat rest with rfl | ⟨r, c, rfl⟩
  · exact h1
  · exfalso
    have hc : isSpace c = true := h2 c (by simp)
    have ht := hl.tight
    have : (trim l).getLast? = some c := by
      rw [ht, ← e]
      simp
    have := (Structured.trimWith_ends isSpace l).2 c this
    rw [hc] at this
    cases this

/-! ### The meaning of such formulas -/

mutual

theorem eval_wf (ρ : Word → Bool) : ∀ (φ : Fml) (m : List (Option Bool)), (∀ x ∈ m, x.isSome = true) → φ.Wf m.length → (φ.eval ρ m).isSome = true
  | .const _, _, _, _ => rfl
  | .var _, _, _, _ => rfl
  | .not f, m, hm, h => by
    rw [Fml.Wf] at h
    simpa [Fml.eval] using eval_wf ρ f m hm h
  | .bin op f g, m, hm, h => by
    rw [Fml.Wf] at h
    have h1 := eval_wf ρ f m hm h.1
    have h2 := eval_wf ρ g m hm h.2
    rw [Option.isSome_iff_exists] at h1 h2
    obtain ⟨a, h1⟩ := h1
    obtain ⟨b, h2⟩ := h2
    simp [Fml.eval, h1, h2]
  | .buffer fs, m, hm, h => by
    rw [Fml.Wf] at h
    obtain ⟨h1, h2⟩ := evalBuffer_wf ρ fs [] (by simp) h.2
    rw [Fml.eval]
    have : Fml.evalBuffer ρ [] fs ≠ [] := by
      intro e
      rw [e] at h2
      exact h.1 (List.length_eq_zero_iff.mp (by simpa using h2.symm))
    rw [List.getLast?_eq_some_getLast this]
    exact h1 _ (List.getLast_mem this)
  | .recall i, m, hm, h => by
    rw [Fml.Wf] at h
    rw [Fml.eval, List.getElem?_eq_getElem h]
    exact hm _ (List.getElem_mem h)

theorem evalBuffer_wf (ρ : Word → Bool) : ∀ (fs : List Fml) (m : List (Option Bool)), (∀ x ∈ m, x.isSome = true) → Fml.WfBuffer m.length fs →
    (∀ x ∈ Fml.evalBuffer ρ m fs, x.isSome = true) ∧ (Fml.evalBuffer ρ m fs).length = m.length + fs.length
  | [], m, hm, _ => by simpa [Fml.evalBuffer] using hm
  | f :: fs, m, hm, h => by
    rw [Fml.WfBuffer] at h
    rw [Fml.evalBuffer]
    obtain ⟨h1, h2⟩ := evalBuffer_wf ρ fs (m ++ [f.eval ρ m]) (fun x hx => by
      rcases List.mem_append.mp hx with hx | hx
      · exact hm x hx
      · rw [List.mem_singleton.mp hx]
        exact eval_wf ρ f m hm h.1) (by simpa using h.2)
    refine ⟨h1, ?_⟩
    rw [h2]
    simp
    omega

end

/-- The formula is true. -/
def Yes (ρ : Word → Bool) (φ : Fml) : Prop := φ.eval ρ [] = some true

theorem yes_cases (ρ : Word → Bool) {φ : Fml} (h : φ.Wf 0) : ∃ b, φ.eval ρ [] = some b := Option.isSome_iff_exists.mp (eval_wf ρ φ [] (by simp) h)

theorem yes_not {ρ : Word → Bool} {φ : Fml} (h : φ.Wf 0) : Yes ρ (.not φ) ↔ ¬ Yes ρ φ := by
  obtain ⟨b, e⟩ := yes_cases ρ h
  rw [Yes, Yes, Fml.eval, e]
  cases b <;> simp

theorem yes_or {ρ : Word → Bool} {φ ψ : Fml} (h : φ.Wf 0) (h' : ψ.Wf 0) : Yes ρ (.bin .or φ ψ) ↔ Yes ρ φ ∨ Yes ρ ψ := by
  obtain ⟨b, e⟩ := yes_cases ρ h
  obtain ⟨b', e'⟩ := yes_cases ρ h'
  rw [Yes, Yes, Yes, Fml.eval, e, e']
  cases b <;> cases b' <;> simp [BinOp.apply]

theorem yes_and {ρ : Word → Bool} {φ ψ : Fml} (h : φ.Wf 0) (h' : ψ.Wf 0) : Yes ρ (.bin .and φ ψ) ↔ Yes ρ φ ∧ Yes ρ ψ := by
  obtain ⟨b, e⟩ := yes_cases ρ h
  obtain ⟨b', e'⟩ := yes_cases ρ h'
  rw [Yes, Yes, Yes, Fml.eval, e, e']
  cases b <;> cases b' <;> simp [BinOp.apply]

theorem foldl_wf (op : BinOp) : ∀ {φs : List Fml} {φ : Fml}, φ.Wf 0 → (∀ ψ ∈ φs, ψ.Wf 0) → (φs.foldl (.bin op) φ).Wf 0
  | [], _, h, _ => h
  | ψ :: φs, φ, h, hs => by
    rw [List.forall_mem_cons] at hs
    exact foldl_wf op (φ := .bin op φ ψ) ⟨h, hs.1⟩ hs.2

theorem foldl_vars (op : BinOp) : ∀ (φs : List Fml) (φ : Fml) (x : Word), x ∈ (φs.foldl (.bin op) φ).vars ↔ x ∈ φ.vars ∨ ∃ ψ ∈ φs, x ∈ ψ.vars
  | [], φ, x => by simp
  | ψ :: φs, φ, x => by
    rw [List.foldl_cons, foldl_vars op φs]
    simp [Fml.vars, or_assoc]

theorem yes_foldl_or {ρ : Word → Bool} : ∀ {φs : List Fml} {φ : Fml}, φ.Wf 0 → (∀ ψ ∈ φs, ψ.Wf 0) → (Yes ρ (φs.foldl (.bin .or) φ) ↔ Yes ρ φ ∨ ∃ ψ ∈ φs, Yes ρ ψ)
  | [], _, _, _ => by simp
  | ψ :: φs, φ, h, hs => by
    rw [List.forall_mem_cons] at hs
    rw [List.foldl_cons, yes_foldl_or (φ := .bin .or φ ψ) ⟨h, hs.1⟩ hs.2, yes_or h hs.1]
    simp [or_assoc]

theorem yes_foldl_and {ρ : Word → Bool} : ∀ {φs : List Fml} {φ : Fml}, φ.Wf 0 → (∀ ψ ∈ φs, ψ.Wf 0) → (Yes ρ (φs.foldl (.bin .and) φ) ↔ Yes ρ φ ∧ ∀ ψ ∈ φs, Yes ρ ψ)
  | [], _, _, _ => by simp
  | ψ :: φs, φ, h, hs => by
    rw [List.forall_mem_cons] at hs
    rw [List.foldl_cons, yes_foldl_and (φ := .bin .and φ ψ) ⟨h, hs.1⟩ hs.2, yes_and h hs.1]
    simp [and_assoc]

end Slugs.Model
