import Verif.Model.Estimator
import Verif.Lemmas.Parser
import Verif.Lemmas.StructuredCompile
import Verif.Lemmas.StructuredMeaning
import Mathlib.Data.Finset.Card

/-! The formula that `--computeIncompleteInformationEstimator` prints for a BDD. -/

namespace Slugs.Model

open Slugs.Spec

/-- The assignment of the BDD variables given by values for their names. -/
def eAsgOf (names : List Name) (ρ : Word → Bool) : Asg := fun k => match names[k]? with | some x => ρ x | none => false

def eSetVar (a : Asg) (v : Nat) (b : Bool) : Asg := fun k => if k = v then b else a k

theorem eSetVar_self (a : Asg) (v : Nat) : eSetVar a v (a v) = a := by
  funext k; by_cases h : k = v <;> simp [eSetVar, h]

theorem eSetVar_comm (a : Asg) {v w : Nat} (h : v ≠ w) (b c : Bool) : eSetVar (eSetVar a v b) w c = eSetVar (eSetVar a w c) v b := by
  funext k
  simp only [eSetVar]
  by_cases h1 : k = v
  · rw [if_pos h1, if_pos h1, if_neg (fun h2 => h (h1.symm.trans h2))]
  · rw [if_neg h1, if_neg h1]

theorem eSetVar_setVar (a : Asg) (v : Nat) (b c : Bool) : eSetVar (eSetVar a v b) v c = eSetVar a v c := by
  funext k; by_cases h : k = v <;> simp [eSetVar, h]

variable {B : Type} [DecidableEq B] [L : BddLib B]

/-- The function depends on the variable. -/
def Depends (b : B) (k : Nat) : Prop := ∃ a, L.eval b (eSetVar a k true) ≠ L.eval b (eSetVar a k false)

theorem eval_cofTrue (b : B) (v : Nat) (a : Asg) : L.eval (L.exist [v] (L.and b (L.var v))) a = L.eval b (eSetVar a v true) := by
  rw [Bool.eq_iff_iff, L.eval_exist]
  constructor
  · rintro ⟨w, h1, h2⟩
    rw [L.eval_and, L.eval_var, Bool.and_eq_true] at h2
    have : eSetVar a v true = w := by
      funext k
      by_cases hk : k = v
      · simp [eSetVar, hk, h2.2]
      · simp only [eSetVar, hk, if_false]; exact h1 k (by simpa using hk)
    rw [this]; exact h2.1
  · intro h
    refine ⟨_, fun k hk => ?_, by rw [L.eval_and, h, L.eval_var]; simp [eSetVar]⟩
    have : k ≠ v := by simpa using hk
    simp [eSetVar, this]

theorem eval_cofFalse (b : B) (v : Nat) (a : Asg) : L.eval (L.exist [v] (L.and b (L.not (L.var v)))) a = L.eval b (eSetVar a v false) := by
  rw [Bool.eq_iff_iff, L.eval_exist]
  constructor
  · rintro ⟨w, h1, h2⟩
    rw [L.eval_and, L.eval_not, L.eval_var, Bool.and_eq_true, Bool.not_eq_true'] at h2
    have : eSetVar a v false = w := by
      funext k
      by_cases hk : k = v
      · simp [eSetVar, hk, h2.2]
      · simp only [eSetVar, hk, if_false]; exact h1 k (by simpa using hk)
    rw [this]; exact h2.1
  · intro h
    refine ⟨_, fun k hk => ?_, by rw [L.eval_and, h, L.eval_not, L.eval_var]; simp [eSetVar]⟩
    have : k ≠ v := by simpa using hk
    simp [eSetVar, this]

theorem depends_cof {b b' : B} {v : Nat} {x : Bool} (h : ∀ a, L.eval b' a = L.eval b (eSetVar a v x)) {k : Nat} (hk : Depends b' k) :
    Depends b k ∧ k ≠ v := by
  obtain ⟨a, ha⟩ := hk
  rw [h, h] at ha
  have hne : k ≠ v := by
    rintro rfl
    rw [eSetVar_setVar, eSetVar_setVar] at ha
    exact ha rfl
  refine ⟨⟨eSetVar a v x, ?_⟩, hne⟩
  rwa [eSetVar_comm _ hne, eSetVar_comm _ hne] at ha

/-! ### Buffers -/

theorem evalBuffer_push (ρ : Word → Bool) (fs : List Fml) (f : Fml) :
    Fml.evalBuffer ρ [] (fs ++ [f]) = Fml.evalBuffer ρ [] fs ++ [f.eval ρ (Fml.evalBuffer ρ [] fs)] := by
  rw [Structured.evalBuffer_append, Fml.evalBuffer, Fml.evalBuffer]

theorem evalBuffer_len (ρ : Word → Bool) : ∀ (fs : List Fml) st, (Fml.evalBuffer ρ st fs).length = st.length + fs.length
  | [], st => by simp [Fml.evalBuffer]
  | f :: fs, st => by rw [Fml.evalBuffer, evalBuffer_len ρ fs]; simp; omega

theorem evalBuffer_prefix (ρ : Word → Bool) {fs fs' : List Fml} (h : fs <+: fs') : Fml.evalBuffer ρ [] fs <+: Fml.evalBuffer ρ [] fs' := by
  obtain ⟨r, rfl⟩ := h
  induction r using List.reverseRecOn with
  | nil => simp
  | append_singleton r f ih =>
    rw [← List.append_assoc, evalBuffer_push]
    exact ih.trans (List.prefix_append _ _)

theorem wfBuffer_push : ∀ (fs : List Fml) (n : Nat) (f : Fml), Fml.WfBuffer n fs → f.Wf (n + fs.length) → Fml.WfBuffer n (fs ++ [f])
  | [], n, f, _, h => by simp only [List.nil_append, Fml.WfBuffer]; exact ⟨by simpa using h, trivial⟩
  | g :: fs, n, f, h1, h2 => by
    simp only [Fml.WfBuffer, List.cons_append] at h1 ⊢
    exact ⟨h1.1, wfBuffer_push fs (n + 1) f h1.2 (by simpa [Nat.add_assoc, Nat.add_comm 1] using h2)⟩

theorem varsBuffer_append : ∀ (fs gs : List Fml), Fml.varsBuffer (fs ++ gs) = Fml.varsBuffer fs ++ Fml.varsBuffer gs
  | [], _ => rfl
  | f :: fs, gs => by simp only [List.cons_append, Fml.varsBuffer, varsBuffer_append fs gs, List.append_assoc]

/-- The stored formula has the value of the function. -/
def StoresAt (names : List Name) (fs : List Fml) (b : B) (i : Nat) : Prop :=
  i < fs.length ∧ ∀ ρ, (Fml.evalBuffer ρ [] fs)[i]? = some (some (L.eval b (eAsgOf names ρ)))

theorem StoresAt.mono {names : List Name} {fs fs' : List Fml} {b : B} {i : Nat} (h : StoresAt names fs b i) (hp : fs <+: fs') :
    StoresAt names fs' b i := by
  refine ⟨Nat.lt_of_lt_of_le h.1 hp.length_le, fun ρ => ?_⟩
  rw [← h.2 ρ]
  obtain ⟨r, hr⟩ := evalBuffer_prefix ρ hp
  rw [← hr, List.getElem?_append_left (by rw [evalBuffer_len]; simpa using h.1)]

/-- The printer's state stands for the buffer `fs`. -/
structure PInv (names : List Name) (K : Nat → Prop) (st : PState B) (fs : List Fml) : Prop where
  parts : st.parts = fs.map Fml.text
  wf : Fml.WfBuffer 0 fs
  vars : ∀ x ∈ Fml.varsBuffer fs, ∃ k, K k ∧ names[k]? = some x
  nodes : ∀ p ∈ st.nodes, StoresAt names fs p.1 p.2

theorem findNode_mem {b : B} {i : Nat} : ∀ {l : List (B × Nat)}, findNode b l = some i → (b, i) ∈ l
  | [], h => by simp [findNode] at h
  | (b', j) :: r, h => by
    rw [findNode] at h
    by_cases hb : b' = b
    · rw [if_pos hb] at h; cases h; rw [hb]; exact List.mem_cons_self
    · rw [if_neg hb] at h; exact List.mem_cons_of_mem _ (findNode_mem h)

theorem PInv.push {names : List Name} {K : Nat → Prop} {st : PState B} {fs : List Fml} (h : PInv names K st fs) (b : B) (f : Fml)
    (hwf : f.Wf fs.length) (hv : ∀ x ∈ f.vars, ∃ k, K k ∧ names[k]? = some x)
    (he : ∀ ρ, f.eval ρ (Fml.evalBuffer ρ [] fs) = some (L.eval b (eAsgOf names ρ))) :
    PInv names K (st.push b f.text).2 (fs ++ [f]) ∧ StoresAt names (fs ++ [f]) b (st.push b f.text).1 := by
  have hl : st.parts.length = fs.length := by rw [h.parts]; simp
  have hs : StoresAt names (fs ++ [f]) b (st.push b f.text).1 := by
    refine ⟨by simp [PState.push, hl], fun ρ => ?_⟩
    rw [evalBuffer_push, he ρ]
    simp only [PState.push, hl]
    rw [List.getElem?_append_right (by rw [evalBuffer_len]; simp)]
    simp [evalBuffer_len]
  refine ⟨⟨?_, ?_, ?_, ?_⟩, hs⟩
  · simp [PState.push, h.parts]
  · exact wfBuffer_push fs 0 f h.wf (by simpa using hwf)
  · intro x hx
    rw [varsBuffer_append, List.mem_append] at hx
    rcases hx with hx | hx
    · exact h.vars x hx
    · simp only [Fml.varsBuffer, List.append_nil] at hx; exact hv x hx
  · intro p hp
    simp only [PState.push, List.mem_cons] at hp
    rcases hp with rfl | hp
    · exact hs
    · exact (h.nodes p hp).mono (List.prefix_append _ _)

/-- The formula of an inner node. -/
def nodeFml (name : Name) (qTrue qFalse : Nat) : Fml :=
  .bin .or (.bin .and (.var name) (.recall qTrue)) (.bin .and (.not (.var name)) (.recall qFalse))

theorem partText_eq (name : Name) (qTrue qFalse : Nat) : partText name qTrue qFalse = (nodeFml name qTrue qFalse).text := by
  simp [partText, nodeFml, Fml.text, Fml.words, joinWords, BinOp.word]

variable [T : BddTop B]

theorem printRec_ok {names : List Name} {K : Nat → Prop} : ∀ (n : Nat) (b : B) (st : PState B) (fs : List Fml) (S : Finset Nat),
    PInv names K st fs → (∀ k, Depends b k → k ∈ S ∧ K k ∧ k < names.length) → S.card < n →
    ∃ i st' fs', printRec names n b st = .ok (i, st') ∧ PInv names K st' fs' ∧ fs <+: fs' ∧ StoresAt names fs' b i ∧
      (fs' = fs ∨ i + 1 = fs'.length) := by
  intro n
  induction n with
  | zero => intro b st fs S _ _ h; exact absurd h (Nat.not_lt_zero _)
  | succ n ih =>
    intro b st fs S hinv hdep hcard
    rw [printRec]
    cases hf : findNode b st.nodes with
    | some i => exact ⟨i, st, fs, rfl, hinv, List.prefix_refl _, hinv.nodes _ (findNode_mem hf), .inl rfl⟩
    | none =>
      dsimp only
      have hlen : st.parts.length = fs.length := by rw [hinv.parts]; simp
      by_cases h0 : b = L.ff
      · rw [if_pos h0]
        obtain ⟨h1, h2⟩ := hinv.push b (.const false) trivial (by simp [Fml.vars]) (fun ρ => by rw [h0, L.eval_ff]; rfl)
        exact ⟨_, _, _, rfl, h1, List.prefix_append _ _, h2, .inr (by simp [PState.push, hlen])⟩
      · rw [if_neg h0]
        by_cases h1 : b = L.tt
        · rw [if_pos h1]
          obtain ⟨h2, h3⟩ := hinv.push b (.const true) trivial (by simp [Fml.vars]) (fun ρ => by rw [h1, L.eval_tt]; rfl)
          exact ⟨_, _, _, rfl, h2, List.prefix_append _ _, h3, .inr (by simp [PState.push, hlen])⟩
        · rw [if_neg h1]
          have htop : Depends b (T.top b) := T.top_dep b h1 h0
          obtain ⟨hS, hK, hlt⟩ := hdep _ htop
          have hcard' : (S.erase (T.top b)).card < n := by
            rw [Finset.card_erase_of_mem hS]
            have := Finset.card_pos.mpr ⟨_, hS⟩
            omega
          have hsucc : ∀ (b' : B) (x : Bool), (∀ a, L.eval b' a = L.eval b (eSetVar a (T.top b) x)) →
              ∀ k, Depends b' k → k ∈ S.erase (T.top b) ∧ K k ∧ k < names.length := by
            intro b' x hb' k hk
            obtain ⟨h2, h3⟩ := depends_cof hb' hk
            obtain ⟨h4, h5, h6⟩ := hdep k h2
            exact ⟨Finset.mem_erase.mpr ⟨h3, h4⟩, h5, h6⟩
          rw [List.getElem?_eq_getElem hlt]
          dsimp only
          obtain ⟨i1, st1, fs1, e1, p1, q1, r1, -⟩ := ih _ st fs (S.erase (T.top b)) hinv (hsucc _ true (eval_cofTrue b (T.top b))) hcard'
          rw [e1]
          dsimp only
          obtain ⟨i2, st2, fs2, e2, p2, q2, r2, -⟩ := ih _ st1 fs1 (S.erase (T.top b)) p1 (hsucc _ false (eval_cofFalse b (T.top b))) hcard'
          rw [e2]
          dsimp only
          have r1' := r1.mono q2
          have hlen2 : st2.parts.length = fs2.length := by rw [p2.parts]; simp
          obtain ⟨h2, h3⟩ := p2.push b (nodeFml names[T.top b] i1 i2) ⟨⟨trivial, r1'.1⟩, trivial, r2.1⟩
            (by
              intro x hx
              simp only [nodeFml, Fml.vars, List.append_nil, List.mem_append, List.mem_singleton, or_self] at hx
              exact ⟨_, hK, by rw [hx, List.getElem?_eq_getElem hlt]⟩)
            (by
              intro ρ
              have ea : eAsgOf names ρ (T.top b) = ρ names[T.top b] := by simp [eAsgOf, List.getElem?_eq_getElem hlt]
              simp only [nodeFml, Fml.eval, r1'.2 ρ, r2.2 ρ, Option.join_some, Option.bind_some, Option.map_some, BinOp.apply,
                eval_cofTrue, eval_cofFalse]
              rw [← ea]
              have hs := eSetVar_self (eAsgOf names ρ) (T.top b)
              cases hv : eAsgOf names ρ (T.top b) <;> rw [hv] at hs <;> simp [hs])
          rw [partText_eq]
          exact ⟨_, _, _, rfl, h2, (q1.trans q2).trans (List.prefix_append _ _), h3, .inr (by simp [PState.push, hlen2])⟩

theorem words_ne_nil (f : Fml) : f.words ≠ [] := by
  cases f with
  | const b => cases b <;> simp [Fml.words]
  | _ => simp [Fml.words]

theorem joinWords_buffer : ∀ (fs : List Fml) (ws : List Word), ws ≠ [] →
    joinWords (ws ++ Fml.wordsBuffer fs) = joinWords ws ++ (fs.map Fml.text).flatMap (fun p => ' ' :: p)
  | [], ws, _ => by simp [Fml.wordsBuffer]
  | f :: fs, ws, h => by
    rw [Fml.wordsBuffer, ← List.append_assoc, joinWords_buffer fs (ws ++ f.words) (by simp [h]), Structured.joinWords_append h (words_ne_nil f)]
    simp [Fml.text]

/-- The text that is printed for a function is a formula for this function over the variables on which it depends. -/
theorem printFormula_ok {names : List Name} {fuel : Nat} (b : B) (hb : ∀ k, Depends b k → k < names.length) (hf : names.length < fuel) :
    ∃ fs, printFormula names fuel b = .ok (Fml.buffer fs).text ∧ (Fml.buffer fs).Wf 0 ∧
      (∀ x ∈ (Fml.buffer fs).vars, ∃ k, Depends b k ∧ names[k]? = some x) ∧
      ∀ ρ, (Fml.buffer fs).eval ρ [] = some (L.eval b (eAsgOf names ρ)) := by
  obtain ⟨i, st, fs, e, h1, -, h2, h3⟩ := printRec_ok (names := names) (K := Depends b) fuel b ⟨[], []⟩ [] (Finset.range names.length)
    ⟨rfl, trivial, by simp [Fml.varsBuffer], by simp⟩ (fun k hk => ⟨Finset.mem_range.mpr (hb k hk), hk, hb k hk⟩) (by simpa using hf)
  have hne : fs ≠ [] := by rintro rfl; exact absurd h2.1 (Nat.not_lt_zero _)
  have hi : i + 1 = fs.length := by
    rcases h3 with h3 | h3
    · exact absurd h3 hne
    · exact h3
  refine ⟨fs, ?_, ⟨hne, h1.wf⟩, h1.vars, fun ρ => ?_⟩
  · rw [printFormula, e]
    simp only [h1.parts, List.length_map, Fml.text, Fml.words]
    have := joinWords_buffer fs [txt!"$", decimal fs.length] (by simp)
    simp only [List.cons_append, List.nil_append] at this
    rw [this]
    simp [joinWords]
  · rw [Fml.eval, List.getLast?_eq_getElem?, evalBuffer_len]
    simp only [List.length_nil, Nat.zero_add, ← hi, Nat.add_sub_cancel, h2.2 ρ, Option.join_some]

end Slugs.Model
