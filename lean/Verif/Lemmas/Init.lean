import Verif.Lemmas.Parser
import Verif.Lemmas.Table

/-!
Reading a specification file: what an accepted file denotes.
-/

namespace Slugs.Model

open Slugs.Spec

variable {B : Type} [DecidableEq B] [L : BddLib B]

/-! ### Lines and items -/

/-- Processing one item. -/
def initItem (cap : Nat) (order : List Char → Bool) (st : VarTable × Ctx B) (p : Section × List Char) :
    Res InitErr (VarTable × Ctx B) :=
  match p.1 with
  | .input => .ok ((st.1.add .preInput p.2).add .postInput (p.2 ++ ['\'']), st.2)
  | .output => .ok ((st.1.add .preOutput p.2).add .postOutput (p.2 ++ ['\'']), st.2)
  | m =>
    match parseFormula st.1 (allowedIn m) cap order p.2 with
    | .ok (some f) => .ok (st.1, addConstraint st.2 f m)
    | .ok none => .ub
    | .err e => .err (.formula e)
    | .ub => .ub
    | .stuck => .stuck

def initItems (cap : Nat) (order : List Char → Bool) : VarTable × Ctx B → List (Section × List Char) →
    Res InitErr (VarTable × Ctx B)
  | st, [] => .ok st
  | st, p :: ps =>
    match initItem cap order st p with
    | .ok st => initItems cap order st ps
    | .err e => .err e
    | .ub => .ub
    | .stuck => .stuck

def dropMode : Res InitErr (InitState B) → Res InitErr (VarTable × Ctx B)
  | .ok st => .ok (st.table, st.ctx)
  | .err e => .err e
  | .ub => .ub
  | .stuck => .stuck

theorem sectionOf_iff {l : List Char} {s : Section} : sectionOf l = some s ↔ l = s.header := by
  constructor
  · intro h
    simp only [sectionOf] at h
    repeat' split at h
    all_goals first | (cases h; done) | (cases h; assumption)
  · rintro rfl; cases s <;> decide

theorem header_head (s : Section) : s.header ≠ [] ∧ s.header.head? = some '[' := by cases s <;> decide

theorem initLine_skip {cap : Nat} {order : List Char → Bool} (st : InitState B) {l : List Char}
    (h : l = [] ∨ l.head? = some '#') : initLine cap order st l = .ok st := by
  cases l with
  | nil => rfl
  | cons c l =>
    simp only [reduceCtorEq, List.head?_cons, Option.some.injEq, false_or] at h
    simp [initLine, h]

theorem initLine_header {cap : Nat} {order : List Char → Bool} (st : InitState B) (s : Section) :
    initLine cap order st s.header = .ok { st with mode := some s } := by
  cases s <;> rfl

theorem initLine_item {cap : Nat} {order : List Char → Bool} (st : InitState B) {s : Section} {l : List Char}
    (hm : st.mode = some s) (h0 : l ≠ []) (h1 : l.head? ≠ some '#') (h2 : l.head? ≠ some '[') :
    dropMode (initLine cap order st l) = initItem cap order (st.table, st.ctx) (s, l) ∧
    ∀ st', initLine cap order st l = .ok st' → st'.mode = st.mode := by
  cases l with
  | nil => exact absurd rfl h0
  | cons c l =>
    simp only [List.head?_cons, ne_eq, Option.some.injEq] at h1 h2
    simp only [initLine, h1, h2, if_false, hm, initItem]
    cases s
    case input => exact ⟨rfl, by rintro _ ⟨⟩; rfl⟩
    case output => exact ⟨rfl, by rintro _ ⟨⟩; rfl⟩
    all_goals
      dsimp only
      generalize parseFormula (B := B) _ _ _ _ _ = r
      rcases r with (_ | f) | e | _ | _
      all_goals exact ⟨rfl, by rintro _ ⟨⟩ <;> rfl⟩

/-- The state after reading depends only on the items. -/
theorem initLines_items {cap : Nat} {order : List Char → Bool} : ∀ (ls : List (List Char)) (st : InitState B)
    (items : List (Section × List Char)), Content st.mode ls items →
    dropMode (initLines cap order st ls) = initItems cap order (st.table, st.ctx) items := by
  intro ls
  induction ls with
  | nil =>
    intro st items h
    generalize st.mode = cur at h
    cases h; rfl
  | cons l ls ih =>
    intro st items h
    rw [initLines]
    generalize hcur : st.mode = cur at h
    cases h with
    | skip h1 h2 => rw [initLine_skip st h1]; exact ih st items (hcur ▸ h2)
    | header s h1 h2 => rw [h1, initLine_header st s]; exact ih { st with mode := some s } items h2
    | @item s _ _ items' h0 h1 h2 h3 =>
      obtain ⟨e1, e2⟩ := initLine_item (cap := cap) (order := order) st hcur h0 h1 h2
      rw [initItems]
      cases hl : initLine cap order st (trim l) with
      | ok st' =>
        rw [hl] at e1
        simp only [dropMode] at e1
        rw [← e1]
        exact ih st' items' (by rw [e2 st' hl, hcur]; exact h3)
      | err e => rw [hl] at e1; simp only [dropMode] at e1 ⊢; rw [← e1]
      | ub => rw [hl] at e1; simp only [dropMode] at e1 ⊢; rw [← e1]
      | stuck => rw [hl] at e1; simp only [dropMode] at e1 ⊢; rw [← e1]

/-- If reading succeeds, the lines consist of items. -/
theorem initLines_content {cap : Nat} {order : List Char → Bool} : ∀ (ls : List (List Char)) (st st' : InitState B),
    initLines cap order st ls = .ok st' → ∃ items, Content st.mode ls items := by
  intro ls
  induction ls with
  | nil => intro st st' h; exact ⟨[], .nil⟩
  | cons l ls ih =>
    intro st st' h
    rw [initLines] at h
    by_cases h0 : trim l = [] ∨ (trim l).head? = some '#'
    · rw [initLine_skip st h0] at h
      obtain ⟨items, hc⟩ := ih st st' h
      exact ⟨items, .skip h0 hc⟩
    · simp only [not_or] at h0
      by_cases hb : (trim l).head? = some '['
      · cases hs : sectionOf (trim l) with
        | some s =>
          have := sectionOf_iff.mp hs
          rw [this, initLine_header] at h
          obtain ⟨items, hc⟩ := ih _ st' h
          exact ⟨items, .header s this hc⟩
        | none =>
          exfalso
          generalize hl : trim l = t at *
          cases t with
          | nil => exact h0.1 rfl
          | cons c t =>
            simp only [List.head?_cons, Option.some.injEq] at hb
            subst hb
            rw [initLine] at h
            simp only [Char.reduceEq, if_false, if_true, hs] at h
            cases h
      · cases hm : st.mode with
        | none =>
          exfalso
          generalize hl : trim l = t at *
          cases t with
          | nil => exact h0.1 rfl
          | cons c t =>
            simp only [List.head?_cons, Option.some.injEq] at hb h0
            rw [initLine] at h
            simp only [h0.2, hb, if_false, hm] at h
            cases h
        | some s =>
          obtain ⟨e1, e2⟩ := initLine_item (cap := cap) (order := order) st hm h0.1 h0.2 hb
          cases hl : initLine cap order st (trim l) with
          | ok st1 =>
            rw [hl] at h
            obtain ⟨items, hc⟩ := ih st1 st' h
            rw [e2 st1 hl, hm] at hc
            exact ⟨_, .item h0.1 h0.2 hb hc⟩
          | err e => rw [hl] at h; cases h
          | ub => rw [hl] at h; cases h
          | stuck => rw [hl] at h; cases h

/-- The items of a text are determined. -/
theorem Content.det {cur ls items items'} (h : Content cur ls items) (h' : Content cur ls items') : items = items' := by
  induction h generalizing items' with
  | nil => cases h'; rfl
  | skip h1 _ ih =>
    cases h' with
    | skip _ h2 => exact ih h2
    | header s h2 _ =>
      exfalso; rw [h2] at h1
      have := header_head s
      rcases h1 with h1 | h1
      · exact this.1 h1
      · rw [this.2] at h1; cases h1
    | item h2 h3 _ _ => exact absurd h1 (by simp [h2, h3])
  | header s h1 _ ih =>
    have hs := header_head s
    cases h' with
    | skip h2 _ =>
      exfalso; rw [h1] at h2
      rcases h2 with h2 | h2
      · exact hs.1 h2
      · rw [hs.2] at h2; cases h2
    | header s' h2 h3 =>
      have : some s = some s' := by rw [← sectionOf_iff.mpr h1, sectionOf_iff.mpr h2]
      cases this
      exact ih h3
    | item _ _ h2 _ => rw [h1] at h2; exact absurd hs.2 h2
  | item h0 h1 h2 _ ih =>
    cases h' with
    | skip h3 _ => exact absurd h3 (by simp [h0, h1])
    | header s' h3 _ => rw [h3] at h2; exact absurd (header_head s').2 h2
    | item _ _ _ h3 => rw [ih h3]

/-! ### What the items mean -/

theorem itemsOf_append (s : Section) (l l' : List (Section × List Char)) :
    itemsOf s (l ++ l') = itemsOf s l ++ itemsOf s l' := by
  simp [itemsOf]

/-- The meaning of the context that has been built, in terms of formulas for each section. -/
structure CtxMeans (tab : VarTable) (c : Ctx B) (F : Section → List Fml) : Prop where
  initEnv : ∀ a, L.eval c.initEnv a = true ↔ ∀ φ ∈ F .envInit, φ.eval (nameVal tab a) [] = some true
  initSys : ∀ a, L.eval c.initSys a = true ↔ ∀ φ ∈ F .sysInit, φ.eval (nameVal tab a) [] = some true
  safetyEnv : ∀ a, L.eval c.safetyEnv a = true ↔ ∀ φ ∈ F .envTrans, φ.eval (nameVal tab a) [] = some true
  safetySys : ∀ a, L.eval c.safetySys a = true ↔ ∀ φ ∈ F .sysTrans, φ.eval (nameVal tab a) [] = some true
  assumptions : List.Forall₂ (fun b φ => ∀ a, L.eval b a = true ↔ φ.eval (nameVal tab a) [] = some true)
    c.livenessAssumptions (F .envLiveness)
  guarantees : List.Forall₂ (fun b φ => ∀ a, L.eval b a = true ↔ φ.eval (nameVal tab a) [] = some true)
    c.livenessGuarantees (F .sysLiveness)

structure ItemsInv (st : VarTable × Ctx B) (items : List (Section × List Char)) (ds : Decls) (F : Section → List Fml) :
    Prop where
  table : st.1 = tableOf ds
  inputs : inputsOf ds = itemsOf .input items
  outputs : outputsOf ds = itemsOf .output items
  noInputs : F .input = []
  noOutputs : F .output = []
  reads : ∀ s, s ≠ .input → s ≠ .output → List.Forall₂ ReadsLine (itemsOf s items) (F s)
  declared : ∀ s, ∀ φ ∈ F s, ∀ x ∈ φ.vars, Declared st.1 (allowedIn s) x
  meaningful : ∀ s, ∀ φ ∈ F s, ∀ a, ∃ b, φ.eval (nameVal st.1 a) [] = some b
  means : CtxMeans st.1 st.2 F

theorem tableOf_snoc_input (ds : Decls) (x : Name) :
    tableOf (ds ++ [(true, x)]) = ((tableOf ds).add .preInput x).add .postInput (x ++ ['\'']) := by
  simp [tableOf, entriesOf, declPair, VarTable.add, prime]

theorem tableOf_snoc_output (ds : Decls) (x : Name) :
    tableOf (ds ++ [(false, x)]) = ((tableOf ds).add .preOutput x).add .postOutput (x ++ ['\'']) := by
  simp [tableOf, entriesOf, declPair, VarTable.add, prime]

/-- Extending a table keeps what has been declared. -/
theorem declared_extend (ds : Decls) (d : Bool × Name) {al : List VarType} {x : Word} (h : Declared (tableOf ds) al x) :
    Declared (tableOf (ds ++ [d])) al x ∧ ∀ a, nameVal (tableOf (ds ++ [d])) a x = nameVal (tableOf ds) a x := by
  have e : (tableOf (ds ++ [d])).names = (tableOf ds).names ++ (declPair d).map Prod.fst := by
    simp [tableOf, entriesOf]
  have e' : (tableOf (ds ++ [d])).types = (tableOf ds).types ++ (declPair d).map Prod.snd := by
    simp [tableOf, entriesOf]
  obtain ⟨h1, t, h2, h3⟩ := h
  have hm : x ∈ (tableOf ds).names := List.idxOf_lt_length_iff.mp h1
  have hi : (tableOf (ds ++ [d])).names.idxOf x = (tableOf ds).names.idxOf x := by
    rw [e, List.idxOf_append_of_mem hm]
  refine ⟨⟨?_, t, ?_, h3⟩, fun a => ?_⟩
  · rw [hi, e, List.length_append]; omega
  · rw [hi, e', List.getElem?_append_left, h2]
    by_contra hk
    rw [List.getElem?_eq_none (by omega)] at h2; cases h2
  · rw [nameVal, nameVal, hi]

theorem eval_extend {ds : Decls} (d : Bool × Name) {al : List VarType} {φ : Fml}
    (h : ∀ x ∈ φ.vars, Declared (tableOf ds) al x) (a : Asg) :
    φ.eval (nameVal (tableOf (ds ++ [d])) a) [] = φ.eval (nameVal (tableOf ds) a) [] :=
  Fml.eval_congr φ [] fun x hx => (declared_extend ds d (h x hx)).2 a

theorem forall₂_congr_right {α β : Type} {R S : α → β → Prop} {l : List α} {l' : List β} (h : List.Forall₂ R l l')
    (hRS : ∀ a, ∀ b ∈ l', R a b → S a b) : List.Forall₂ S l l' := by
  induction h with
  | nil => exact .nil
  | cons h1 _ ih =>
    exact .cons (hRS _ _ (by simp) h1) (ih fun a b hb => hRS a b (by simp [hb]))

/-- Adding a declaration. -/
theorem ItemsInv.declare {tab : VarTable} {c : Ctx B} {items : List (Section × List Char)} {ds : Decls}
    {F : Section → List Fml} (h : ItemsInv (tab, c) items ds F) (d : Bool × Name) :
    ItemsInv (tableOf (ds ++ [d]), c) (items ++ [(if d.1 then .input else .output, d.2)]) (ds ++ [d]) F := by
  have ht : tab = tableOf ds := h.table
  subst ht
  have hev : ∀ s, ∀ φ ∈ F s, ∀ a, φ.eval (nameVal (tableOf (ds ++ [d])) a) [] = φ.eval (nameVal (tableOf ds) a) [] :=
    fun s φ hφ a => eval_extend d (h.declared s φ hφ) a
  have hall : ∀ s a, (∀ φ ∈ F s, φ.eval (nameVal (tableOf (ds ++ [d])) a) [] = some true) ↔
      ∀ φ ∈ F s, φ.eval (nameVal (tableOf ds) a) [] = some true := fun s a =>
    forall_congr' fun φ => imp_congr_right fun hφ => by rw [hev s φ hφ a]
  refine ⟨rfl, ?_, ?_, h.noInputs, h.noOutputs, ?_, ?_, ?_, ?_⟩
  · rw [itemsOf_append, ← h.inputs]
    obtain ⟨b, x⟩ := d
    cases b <;> simp [inputsOf, itemsOf]
  · rw [itemsOf_append, ← h.outputs]
    obtain ⟨b, x⟩ := d
    cases b <;> simp [outputsOf, itemsOf]
  · intro s h1 h2
    rw [itemsOf_append]
    have : itemsOf s [(if d.1 then Section.input else Section.output, d.2)] = [] := by
      obtain ⟨b, x⟩ := d
      cases b <;> simp [itemsOf, Ne.symm h1, Ne.symm h2]
    rw [this, List.append_nil]
    exact h.reads s h1 h2
  · exact fun s φ hφ x hx => (declared_extend ds d (h.declared s φ hφ x hx)).1
  · intro s φ hφ a; rw [hev s φ hφ a]; exact h.meaningful s φ hφ a
  · refine ⟨?_, ?_, ?_, ?_, ?_, ?_⟩
    · intro a; rw [hall]; exact h.means.initEnv a
    · intro a; rw [hall]; exact h.means.initSys a
    · intro a; rw [hall]; exact h.means.safetyEnv a
    · intro a; rw [hall]; exact h.means.safetySys a
    · exact forall₂_congr_right h.means.assumptions fun b φ hφ hb a => by rw [hev _ φ hφ a]; exact hb a
    · exact forall₂_congr_right h.means.guarantees fun b φ hφ hb a => by rw [hev _ φ hφ a]; exact hb a

/-- What a successfully read line is. -/
theorem parseFormula_sound {tab : VarTable} {allowed : List VarType} {cap : Nat} {order : List Char → Bool}
    {line : List Char} {b : B} (h : parseFormula tab allowed cap order line = .ok (some b)) :
    ∃ φ, ReadsLine line φ ∧ (∀ x ∈ φ.vars, Declared tab allowed x) ∧
      ∀ a, φ.eval (nameVal tab a) [] = some (L.eval b a) := by
  rw [parseFormula] at h
  cases hp : parseRec (B := B) tab allowed cap order (line.length + 1) [] line with
  | err e => simp [hp] at h
  | ub => simp [hp] at h
  | stuck => simp [hp] at h
  | ok r =>
    obtain ⟨v, r⟩ := r
    simp only [hp] at h
    split at h
    · rename_i hr
      simp only [Res.ok.injEq] at h
      subst h
      obtain ⟨φ, h1, h2, h3⟩ := parse_sound _ _ _ _ _ _ _ _ _ hp
      exact ⟨φ, ⟨r, h1, readWord_nil.mp hr⟩, h2, fun a => h3 a⟩
    · cases h

/-- Adding a constraint. -/
theorem ItemsInv.constrain {tab : VarTable} {c : Ctx B} {items : List (Section × List Char)} {ds : Decls}
    {F : Section → List Fml} (h : ItemsInv (tab, c) items ds F) {s : Section} (h1 : s ≠ .input) (h2 : s ≠ .output)
    {line : List Char} {φ : Fml} {b : B} (hr : ReadsLine line φ) (hd : ∀ x ∈ φ.vars, Declared tab (allowedIn s) x)
    (he : ∀ a, φ.eval (nameVal tab a) [] = some (L.eval b a)) :
    ItemsInv (tab, addConstraint c b s) (items ++ [(s, line)]) ds (fun s' => if s' = s then F s' ++ [φ] else F s') := by
  have hb : ∀ a, φ.eval (nameVal tab a) [] = some true ↔ L.eval b a = true := fun a => by rw [he a]; simp
  refine ⟨h.table, ?_, ?_, ?_, ?_, ?_, ?_, ?_, ?_⟩
  · rw [itemsOf_append, ← h.inputs]; simp [itemsOf, h1]
  · rw [itemsOf_append, ← h.outputs]; simp [itemsOf, h2]
  · simp [Ne.symm h1, h.noInputs]
  · simp [Ne.symm h2, h.noOutputs]
  · intro s' h1' h2'
    rw [itemsOf_append]
    by_cases hs : s' = s
    · subst hs
      simp only [if_true]
      refine List.rel_append (h.reads s' h1' h2') ?_
      simp [itemsOf, hr]
    · simp only [hs, if_false]
      have : itemsOf s' [(s, line)] = [] := by simp [itemsOf, Ne.symm hs]
      rw [this, List.append_nil]
      exact h.reads s' h1' h2'
  · intro s' ψ hψ
    beta_reduce at hψ
    split at hψ
    · rename_i hs; subst hs
      rcases List.mem_append.mp hψ with hψ | hψ
      · exact h.declared _ ψ hψ
      · simp at hψ; subst hψ; exact hd
    · exact h.declared s' ψ hψ
  · intro s' ψ hψ a
    beta_reduce at hψ
    split at hψ
    · rename_i hs; subst hs
      rcases List.mem_append.mp hψ with hψ | hψ
      · exact h.meaningful _ ψ hψ a
      · simp at hψ; subst hψ; exact ⟨_, he a⟩
    · exact h.meaningful s' ψ hψ a
  · have hm := h.means
    have hand : ∀ (d : B) (Fs : List Fml), (∀ a, L.eval d a = true ↔ ∀ φ ∈ Fs, φ.eval (nameVal tab a) [] = some true) →
        ∀ a, L.eval (L.and d b) a = true ↔ ∀ ψ ∈ Fs ++ [φ], ψ.eval (nameVal tab a) [] = some true := by
      intro d Fs hd' a
      rw [L.eval_and, Bool.and_eq_true, hd', ← hb]
      simp only [List.mem_append, List.mem_cons, List.not_mem_nil, or_false]
      constructor
      · rintro ⟨g1, g2⟩ ψ (hψ | rfl)
        · exact g1 ψ hψ
        · exact g2
      · intro g; exact ⟨fun ψ hψ => g ψ (.inl hψ), g φ (.inr rfl)⟩
    have hlist : ∀ (l : List B) (Fs : List Fml),
        List.Forall₂ (fun b φ => ∀ a, L.eval b a = true ↔ φ.eval (nameVal tab a) [] = some true) l Fs →
        List.Forall₂ (fun b φ => ∀ a, L.eval b a = true ↔ φ.eval (nameVal tab a) [] = some true) (l ++ [b]) (Fs ++ [φ]) :=
      fun l Fs hl => List.rel_append hl (.cons (fun a => (hb a).symm) .nil)
    cases s
    · exact absurd rfl h1
    · exact absurd rfl h2
    · exact ⟨hand _ _ hm.initEnv, hm.initSys, hm.safetyEnv, hm.safetySys, hm.assumptions, hm.guarantees⟩
    · exact ⟨hm.initEnv, hand _ _ hm.initSys, hm.safetyEnv, hm.safetySys, hm.assumptions, hm.guarantees⟩
    · exact ⟨hm.initEnv, hm.initSys, hand _ _ hm.safetyEnv, hm.safetySys, hm.assumptions, hm.guarantees⟩
    · exact ⟨hm.initEnv, hm.initSys, hm.safetyEnv, hand _ _ hm.safetySys, hm.assumptions, hm.guarantees⟩
    · exact ⟨hm.initEnv, hm.initSys, hm.safetyEnv, hm.safetySys, hlist _ _ hm.assumptions, hm.guarantees⟩
    · exact ⟨hm.initEnv, hm.initSys, hm.safetyEnv, hm.safetySys, hm.assumptions, hlist _ _ hm.guarantees⟩

theorem initItem_inv {cap : Nat} {order : List Char → Bool} {st st' : VarTable × Ctx B}
    {items : List (Section × List Char)} {ds : Decls} {F : Section → List Fml} (h : ItemsInv st items ds F)
    {p : Section × List Char} (hi : initItem cap order st p = .ok st') :
    ∃ ds' F', ItemsInv st' (items ++ [p]) ds' F' := by
  obtain ⟨tab, c⟩ := st
  obtain ⟨s, line⟩ := p
  have ht : tab = tableOf ds := h.table
  by_cases h1 : s = .input
  · subst h1
    simp only [initItem] at hi
    cases hi
    rw [ht, ← tableOf_snoc_input]
    exact ⟨_, F, h.declare (true, line)⟩
  by_cases h2 : s = .output
  · subst h2
    simp only [initItem] at hi
    cases hi
    rw [ht, ← tableOf_snoc_output]
    exact ⟨_, F, h.declare (false, line)⟩
  have hi' : ∃ b, parseFormula tab (allowedIn s) cap order line = .ok (some b) ∧ st' = (tab, addConstraint c b s) := by
    cases s <;> simp only [initItem] at hi <;> try contradiction
    all_goals
      split at hi
      · rename_i f hf
        cases hi
        exact ⟨f, hf, rfl⟩
      all_goals cases hi
  obtain ⟨b, hb, rfl⟩ := hi'
  obtain ⟨φ, hr, hd, he⟩ := parseFormula_sound hb
  exact ⟨ds, _, h.constrain h1 h2 hr hd he⟩

theorem initItems_inv {cap : Nat} {order : List Char → Bool} : ∀ (ps items : List (Section × List Char))
    (st st' : VarTable × Ctx B) (ds : Decls) (F : Section → List Fml), ItemsInv st items ds F →
    initItems cap order st ps = .ok st' → ∃ ds' F', ItemsInv st' (items ++ ps) ds' F' := by
  intro ps
  induction ps with
  | nil =>
    intro items st st' ds F h hi
    simp only [initItems, Res.ok.injEq] at hi
    subst hi
    exact ⟨ds, F, by simpa using h⟩
  | cons p ps ih =>
    intro items st st' ds F h hi
    rw [initItems] at hi
    cases hp : initItem cap order st p with
    | err e => simp [hp] at hi
    | ub => simp [hp] at hi
    | stuck => simp [hp] at hi
    | ok st1 =>
      simp only [hp] at hi
      obtain ⟨ds1, F1, h1⟩ := initItem_inv h hp
      obtain ⟨ds2, F2, h2⟩ := ih _ _ _ _ _ h1 hi
      exact ⟨ds2, F2, by simpa using h2⟩

theorem ItemsInv.start : ItemsInv (B := B) ((initStart (B := B)).table, (initStart (B := B)).ctx) [] [] (fun _ => []) := by
  refine ⟨rfl, rfl, rfl, rfl, rfl, fun s _ _ => .nil, by simp, by simp, ?_⟩
  refine ⟨?_, ?_, ?_, ?_, .nil, .nil⟩ <;> intro a <;> simp [initStart, L.eval_tt]

/-- The specification made of declarations and formulas. -/
def specOf (ds : Decls) (F : Section → List Fml) : SpecFile where
  inputs := inputsOf ds
  outputs := outputsOf ds
  envInit := F .envInit
  sysInit := F .sysInit
  envTrans := F .envTrans
  sysTrans := F .sysTrans
  envLiveness := F .envLiveness
  sysLiveness := F .sysLiveness

/-- Everything that is known about an accepted file. -/
theorem initContext_ok {cap : Nat} {order : List Char → Bool} {text : List Char} {tab : VarTable} {c : Ctx B}
    (h : initContext cap order text = .ok (tab, c)) :
    ∃ items ds F c0, Content none (splitLines text) items ∧ ItemsInv (B := B) (tab, c0) items ds F ∧
      tab.names.Nodup ∧ c = { c0 with
        livenessAssumptions := if c0.livenessAssumptions = [] then [L.tt] else c0.livenessAssumptions
        livenessGuarantees := if c0.livenessGuarantees = [] then [L.tt] else c0.livenessGuarantees } := by
  rw [initContext] at h
  cases hl : initLines (B := B) cap order initStart (splitLines text) with
  | err e => simp [hl] at h
  | ub => simp [hl] at h
  | stuck => simp [hl] at h
  | ok st =>
    simp only [hl] at h
    split at h
    · rename_i hn
      simp only [Res.ok.injEq, Prod.mk.injEq] at h
      obtain ⟨rfl, rfl⟩ := h
      obtain ⟨items, hc⟩ := initLines_content _ _ _ hl
      have hi := initLines_items (cap := cap) (order := order) _ (initStart (B := B)) items hc
      rw [hl] at hi
      obtain ⟨ds, F, hinv⟩ := initItems_inv _ _ _ _ _ _ ItemsInv.start hi.symm
      exact ⟨items, ds, F, st.ctx, hc, by simpa using hinv, hn, rfl⟩
    · cases h

end Slugs.Model
