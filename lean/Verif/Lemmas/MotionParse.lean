import Verif.Lemmas.Motion
import Verif.Model.Motion
import Verif.Lemmas.Order

/-! The reader of `--nonDeterministicMotion`: formulas with named BDDs, BDD files and lines. -/

namespace Slugs.Model

open Slugs.Spec

variable {B : Type} [DecidableEq B] [L : BddLib B]

/-! ### Formulas -/

/-- The word is understood, and stands for a BDD with the given values. -/
def KnownAs (named : List (Name × B)) (tab : VarTable) (allowed : List VarType) (val : Asg → Word → Bool) (x : Word) : Prop :=
  ∃ v : B, (∀ rest, (match named.find? fun p => p.1 = x with
      | some p => (.ok (some p.2, rest) : Res ReadErr (Option B × List Char))
      | none => lookupVar x allowed rest 0 tab.names tab.types) = .ok (some v, rest)) ∧
    ∀ a, L.eval v a = val a x

theorem bufLoopEx_complete {Q : Word → Prop} {val : Asg → Word → Bool} {len : Nat}
    {p : List (Option B) → List Char → Res ReadErr (Option B × List Char)}
    (hp : ∀ (φ : Fml) (stored : List B) (m : Nat) (inp rest : List Char), inp.length ≤ len → Reads inp φ rest →
      φ.Wf stored.length → (∀ x ∈ φ.vars, Q x) →
      ∃ v, p (memOf stored m) inp = .ok (some v, rest) ∧ ∀ a, φ.eval (val a) (stored.map fun b => some (L.eval b a)) = some (L.eval v a)) :
    ∀ (fs : List Fml) (k : Nat) (stored : List B) (inp rest : List Char), inp.length ≤ len → ReadsN k inp fs rest →
    Fml.WfBuffer stored.length fs → (∀ x ∈ Fml.varsBuffer fs, Q x) →
    ∃ cells : List B, cells.length = stored.length + k ∧ bufLoop p k (stored.map some) inp = .ok (cells.map some, rest) ∧
      ∀ a, Fml.evalBuffer (val a) (stored.map fun b => some (L.eval b a)) fs = cells.map fun b => some (L.eval b a) := by
  intro fs
  induction fs with
  | nil =>
    intro k stored inp rest _ h _ _
    cases h
    exact ⟨stored, rfl, rfl, fun a => by rw [Fml.evalBuffer]⟩
  | cons f fs ih =>
    intro k stored inp rest hl h hwf hv
    cases h with
    | @cons k _ r _ _ _ h1 h2 =>
      simp only [Fml.WfBuffer] at hwf
      obtain ⟨v, hv1, hv2⟩ := hp f stored (k + 1) inp r hl h1 hwf.1 (fun x hx => hv x (by simp [Fml.varsBuffer, hx]))
      have := h1.length
      obtain ⟨cells, hc, hb, he⟩ := ih k (stored ++ [v]) r rest (by omega) h2 (by simpa using hwf.2)
        (fun x hx => hv x (by simp [Fml.varsBuffer, hx]))
      refine ⟨cells, by simp at hc; omega, ?_, fun a => ?_⟩
      · rw [bufLoop, show stored.map some ++ List.replicate (k + 1) none = memOf stored (k + 1) from rfl, hv1]
        simpa using hb
      · rw [Fml.evalBuffer, hv2 a, ← he a]
        simp

theorem parseEx_complete (named : List (Name × B)) (tab : VarTable) (allowed : List VarType) (cap : Nat) (order : List Char → Bool)
    (val : Asg → Word → Bool) :
    ∀ (fuel : Nat) (φ : Fml) (stored : List B) (m : Nat) (inp rest : List Char), inp.length < fuel → inp.length ≤ cap →
    Reads inp φ rest → φ.Wf stored.length → (∀ x ∈ φ.vars, KnownAs named tab allowed val x) →
    ∃ v, parseRecEx named tab allowed cap order fuel (memOf stored m) inp = .ok (some v, rest) ∧
      ∀ a, φ.eval (val a) (stored.map fun b => some (L.eval b a)) = some (L.eval v a) := by
  intro fuel
  induction fuel with
  | zero => intro φ stored m inp rest h; omega
  | succ fuel ih =>
    intro φ stored m inp rest hl hcap hr hwf hv
    have hlen := hr.length
    rw [parseRecEx]
    cases hr with
    | true h => rw [readWord_complete h]; exact ⟨L.tt, by simp, fun a => by simp [Fml.eval, L.eval_tt]⟩
    | false h => rw [readWord_complete h]; exact ⟨L.ff, by simp, fun a => by simp [Fml.eval, L.eval_ff]⟩
    | @var _ x _ h hx =>
      rw [readWord_complete h]
      have hne := h.choose_spec.2.2.1
      simp only [reserved, List.mem_cons, List.not_mem_nil, or_false, not_or] at hx
      obtain ⟨x1, x2, x3, x4, x5, x6, x7, x8⟩ := hx
      simp only [hne, x1, x2, x3, x4, x5, x6, x7, x8, if_false]
      obtain ⟨v, h1, h2⟩ := hv x (by simp [Fml.vars])
      exact ⟨v, h1 _, fun a => by rw [h2, Fml.eval]⟩
    | not h h1 =>
      have := startsWithWord_length h
      obtain ⟨v, e, e'⟩ := ih _ stored m _ _ (by omega) (by omega) h1 (by simpa [Fml.Wf] using hwf) (by simpa [Fml.vars] using hv)
      rw [readWord_complete h]
      exact ⟨L.not v, by simp [e], fun a => by simp [Fml.eval, e', L.eval_not]⟩
    | @bin _ r r' _ op f g h h1 h2 =>
      have := startsWithWord_length h
      have := h1.length
      simp only [Fml.Wf] at hwf
      obtain ⟨v1, e1, e1'⟩ := ih _ stored m _ _ (by omega) (by omega) h1 hwf.1 (fun x hx => hv x (by simp [Fml.vars, hx]))
      obtain ⟨v2, e2, e2'⟩ := ih _ stored m _ _ (by omega) (by omega) h2 hwf.2 (fun x hx => hv x (by simp [Fml.vars, hx]))
      rw [readWord_complete h]
      cases op <;> simp only [BinOp.word] <;> simp only [e1, e2] <;> cases order r <;>
        simp [binOp, Fml.eval, e1', e2', BinOp.apply, L.eval_and, L.eval_or, L.eval_xor, Bool.and_comm, Bool.or_comm, Bool.xor_comm]
    | @buffer _ r r' _ n fs h h1 h2 =>
      have a1 := startsWithWord_length h
      have a2 := startsWithNumber_length h1
      have a3 := h2.length
      simp only [Fml.Wf] at hwf
      obtain ⟨cells, hc, hb, he⟩ := bufLoopEx_complete (len := r'.length) (p := parseRecEx named tab allowed cap order fuel) (val := val)
        (fun φ st m inp rest hl hr hw hv => ih φ st m inp rest (by omega) (by omega) hr hw hv) fs n [] r' rest
        (Nat.le_refl _) h2 (by simpa using hwf.2) (by simpa [Fml.vars] using hv)
      rw [readWord_complete h]
      simp only [readUnsigned_complete h1]
      have hn : ¬ n ≥ cap := by omega
      have hne : n ≠ 0 := by
        intro h0
        have := h2.length_eq
        rw [h0] at this
        exact hwf.1 (List.length_eq_zero_iff.mp this)
      simp only [List.map_nil] at hb he
      simp only [hn, hb, if_false, List.cons_ne_nil, List.cons.injEq, and_true, if_true]
      simp only [List.getLast?_map]
      cases hg : cells.getLast? with
      | none =>
        rw [List.getLast?_eq_none_iff] at hg
        subst hg
        simp at hc; omega
      | some v => exact ⟨v, by simp, fun a => by rw [Fml.eval, he, List.getLast?_map, hg]; rfl⟩
    | @recall _ r i _ h h1 =>
      rw [readWord_complete h]
      simp only [readUnsigned_complete h1]
      simp only [Fml.Wf] at hwf
      have : (memOf stored m)[i]? = some (some stored[i]) := by
        rw [memOf, List.getElem?_append_left (by simpa using hwf)]
        simp [hwf]
      exact ⟨stored[i], by simp [this], fun a => by simp [Fml.eval, hwf]⟩

theorem parseFormulaEx_complete {named : List (Name × B)} {tab : VarTable} {allowed : List VarType} {cap : Nat} {order : List Char → Bool}
    {val : Asg → Word → Bool} {line : List Char} {φ : Fml} (hr : ReadsLine line φ) (hwf : φ.Wf 0) (hd : ∀ x ∈ φ.vars, KnownAs named tab allowed val x)
    (hcap : line.length ≤ cap) : ∃ b : B, parseFormulaEx named tab allowed cap order line = .ok (some b) ∧
      ∀ a, φ.eval (val a) [] = some (L.eval b a) := by
  obtain ⟨rest, h1, h2⟩ := hr
  obtain ⟨b, hb, he⟩ := parseEx_complete (B := B) named tab allowed cap order val (line.length + 1) φ [] 0 line rest (Nat.lt_succ_self _)
    hcap h1 (by simpa using hwf) hd
  simp only [memOf, List.map_nil, List.replicate_zero, List.append_nil] at hb
  refine ⟨b, ?_, he⟩
  rw [parseFormulaEx, hb]
  simp only [readWord_nil.mpr h2, if_true]

/-! ### BDD files -/

theorem eval_readBdd : ∀ (ks : List Nat) (f : BitPred) (a : Asg), L.eval (readBdd (B := B) ks f) a = f (ks.map a) := by
  intro ks
  induction ks with
  | nil => intro f a; rw [readBdd]; cases h : f [] <;> simp [L.eval_tt, L.eval_ff, h]
  | cons k ks ih =>
    intro f a
    rw [readBdd, L.eval_or, L.eval_and, L.eval_and, L.eval_not, L.eval_var, ih, ih, List.map_cons]
    cases a k <;> simp

/-! ### Lines and items -/

/-- Processing one item. -/
def mItem (bddFile : List Char → Option BitPred) (cap : Nat) (order : List Char → Bool) (st : VarTable × List (Name × B) × Ctx B)
    (p : MSection × List Char) : Res MotionErr (VarTable × List (Name × B) × Ctx B) :=
  match mLine bddFile cap order ⟨st.1, st.2.1, st.2.2, some p.1⟩ p.2 with
  | .ok st => .ok (st.table, st.named, st.ctx)
  | .err e => .err e
  | .ub => .ub
  | .stuck => .stuck

def mItems (bddFile : List Char → Option BitPred) (cap : Nat) (order : List Char → Bool) : VarTable × List (Name × B) × Ctx B →
    List (MSection × List Char) → Res MotionErr (VarTable × List (Name × B) × Ctx B)
  | st, [] => .ok st
  | st, p :: ps =>
    match mItem bddFile cap order st p with
    | .ok st => mItems bddFile cap order st ps
    | .err e => .err e
    | .ub => .ub
    | .stuck => .stuck

def dropMMode : Res MotionErr (MState B) → Res MotionErr (VarTable × List (Name × B) × Ctx B)
  | .ok st => .ok (st.table, st.named, st.ctx)
  | .err e => .err e
  | .ub => .ub
  | .stuck => .stuck

theorem mSectionOf_iff {l : List Char} {s : MSection} : mSectionOf l = some s ↔ l = s.header := by
  constructor
  · intro h
    have key : ∀ {c : Prop} [Decidable c] {x s : MSection} {r : Option MSection}, (if c then some x else r) = some s → c ∧ x = s ∨ r = some s := by
      intro c _ x s r h
      by_cases hc : c
      · rw [if_pos hc] at h; exact .inl ⟨hc, Option.some.inj h⟩
      · rw [if_neg hc] at h; exact .inr h
    unfold mSectionOf at h
    rcases key h with ⟨e, rfl⟩ | h
    · exact e
    rcases key h with ⟨e, rfl⟩ | h
    · exact e
    rcases key h with ⟨e, rfl⟩ | h
    · exact e
    rcases key h with ⟨e, rfl⟩ | h
    · exact e
    rcases key h with ⟨e, rfl⟩ | h
    · exact e
    rcases key h with ⟨e, rfl⟩ | h
    · exact e
    rcases key h with ⟨e, rfl⟩ | h
    · exact e
    rcases key h with ⟨e, rfl⟩ | h
    · exact e
    rcases key h with ⟨e, rfl⟩ | h
    · exact e
    rcases key h with ⟨e, rfl⟩ | h
    · exact e
    rcases key h with ⟨e, rfl⟩ | h
    · exact e
    cases h
  · rintro rfl; cases s <;> decide

theorem mHeader_head (s : MSection) : s.header ≠ [] ∧ s.header.head? = some '[' := by cases s <;> decide

variable {bddFile : List Char → Option BitPred} {cap : Nat} {order : List Char → Bool}

theorem mLine_skip (st : MState B) {l : List Char}
    (h : l = [] ∨ l.head? = some '#') : mLine bddFile cap order st l = .ok st := by
  cases l with
  | nil => rfl
  | cons c l =>
    simp only [reduceCtorEq, List.head?_cons, Option.some.injEq, false_or] at h
    simp [mLine, h]

theorem mLine_header (st : MState B) (s : MSection) :
    mLine bddFile cap order st s.header = .ok { st with mode := some s } := by
  cases s <;> rfl

theorem mLine_mode (st st' : MState B) {s : MSection} {l : List Char} (hm : st.mode = some s) (h0 : l ≠ []) (h1 : l.head? ≠ some '#')
    (h2 : l.head? ≠ some '[') (h : mLine bddFile cap order st l = .ok st') : st'.mode = st.mode := by
  cases l with
  | nil => exact absurd rfl h0
  | cons c l =>
    simp only [List.head?_cons, ne_eq, Option.some.injEq] at h1 h2
    simp only [mLine, h1, h2, if_false, hm] at h
    cases s
    case input => cases h; rw [hm]
    case motionState => cases h; rw [hm]
    case motionControl => cases h; rw [hm]
    case otherOutput => cases h; rw [hm]
    case regions =>
      dsimp only at h
      split at h
      · split at h
        · cases h
        · split at h
          · cases h
          · cases h; rw [hm]
      · cases h
    all_goals
      dsimp only at h
      split at h
      · cases h; rw [hm]
      all_goals cases h

theorem mLines_items : ∀ (ls : List (List Char)) (st : MState B)
    (items : List (MSection × List Char)), MContent st.mode ls items →
    dropMMode (mLines bddFile cap order st ls) = mItems bddFile cap order (st.table, st.named, st.ctx) items := by
  intro ls
  induction ls with
  | nil =>
    intro st items h
    generalize st.mode = cur at h
    cases h; rfl
  | cons l ls ih =>
    intro st items h
    rw [mLines]
    generalize hcur : st.mode = cur at h
    cases h with
    | skip h1 h2 => rw [mLine_skip st h1]; exact ih st items (hcur ▸ h2)
    | header s h1 h2 => rw [h1, mLine_header st s]; exact ih { st with mode := some s } items h2
    | @item s _ _ items' h0 h1 h2 h3 =>
      have e2 := fun st' => mLine_mode (bddFile := bddFile) (cap := cap) (order := order) st st' hcur h0 h1 h2
      rw [mItems, mItem]
      simp only
      rw [show (⟨st.table, st.named, st.ctx, some s⟩ : MState B) = st by rw [← hcur]]
      cases hl : mLine bddFile cap order st (trim l) with
      | ok st' => exact ih st' items' (by rw [e2 st' hl, hcur]; exact h3)
      | err e => rfl
      | ub => rfl
      | stuck => rfl

theorem MContent.det {cur ls items items'} (h : MContent cur ls items) (h' : MContent cur ls items') : items = items' := by
  induction h generalizing items' with
  | nil => cases h'; rfl
  | skip h1 _ ih =>
    cases h' with
    | skip _ h2 => exact ih h2
    | header s h2 _ =>
      exfalso; rw [h2] at h1
      have := mHeader_head s
      rcases h1 with h1 | h1
      · exact this.1 h1
      · rw [this.2] at h1; cases h1
    | item h2 h3 _ _ => exact absurd h1 (by simp [h2, h3])
  | header s h1 _ ih =>
    have hs := mHeader_head s
    cases h' with
    | skip h2 _ =>
      exfalso; rw [h1] at h2
      rcases h2 with h2 | h2
      · exact hs.1 h2
      · rw [hs.2] at h2; cases h2
    | header s' h2 h3 =>
      have : some s = some s' := by rw [← mSectionOf_iff.mpr h1, mSectionOf_iff.mpr h2]
      cases this
      exact ih h3
    | item _ _ h2 _ => rw [h1] at h2; exact absurd hs.2 h2
  | item h0 h1 h2 _ ih =>
    cases h' with
    | skip h3 _ => exact absurd h3 (by simp [h0, h1])
    | header s' h3 _ => rw [h3] at h2; exact absurd (mHeader_head s').2 h2
    | item _ _ _ h3 => rw [ih h3]

theorem MContent.lines {cur ls items} (h : MContent cur ls items) : ∀ p ∈ items, p.2 ≠ [] ∧ p.2.head? ≠ some '#' ∧ p.2.head? ≠ some '[' := by
  induction h with
  | nil => simp
  | skip _ _ ih => exact ih
  | header _ _ _ ih => exact ih
  | item h0 h1 h2 _ ih => exact List.forall_mem_cons.mpr ⟨⟨h0, h1, h2⟩, ih⟩

end Slugs.Model
