import Verif.Lemmas.LtlTree
import Verif.Lemmas.StructuredPrefix

/-!
The translation of formulas about one step.
-/

namespace Slugs.Model.LtlText

open Slugs.Spec (Word Fml BinOp prime joinWords)
open Slugs.Spec.LtlText
open Slugs.Model.Structured (join)

/-- The name of a value in the translation. -/
def valueName (name : Word → Word) (u : Word × Bool) : Word := if u.2 then prime (name u.1) else name u.1

/-- How names occur in trees, after the name itself. -/
def LitRest (v : Option Bool) (rest : List Tree) : Prop :=
  v = none ∧ rest = [] ∨ ∃ e w, rest = [e, .leaf w] ∧ (v = some false ∧ w.kind = .zero ∨ v = some true ∧ w.kind = .one)

/-- What the translation of names is like: the names in the translation, the names that are translated, and when a negation is added. -/
structure Style where
  name : Word → Word
  ok : Word → Option Bool → Prop
  neg : Option Bool → Bool

def Style.fml (st : Style) (x : Word) (v : Option Bool) (p : Bool) : Fml :=
  if st.neg v then .not (.var (valueName st.name (x, p))) else .var (valueName st.name (x, p))

def Style.Of (st : Style) (atoms : Atoms) : Prop :=
  ∀ x v rest p, LitRest v rest → (st.ok x v ∧ atoms x rest p = some (st.fml x v p).words) ∨ (¬ st.ok x v ∧ atoms x rest p = none)

/-- The translator from LTLMop. -/
def ltlmopStyle : Style := ⟨fun x => x.drop 2, fun x _ => x[1]? = some '.', fun _ => false⟩

/-- The translator from RATSY. -/
def ratsyStyle : Style := ⟨id, fun _ v => v ≠ none, fun v => v == some false⟩

theorem ltlmop_style : ltlmopStyle.Of ltlmopAtom := by
  intro x v rest p _
  by_cases h : x[1]? = some '.'
  · refine .inl ⟨h, ?_⟩
    rw [ltlmopAtom, if_pos h]
    cases p <;> rfl
  · exact .inr ⟨h, by rw [ltlmopAtom, if_neg h]⟩

theorem ratsy_style : ratsyStyle.Of ratsyAtom := by
  rintro x v rest p (⟨rfl, rfl⟩ | ⟨e, w, rfl, ⟨rfl, hw⟩ | ⟨rfl, hw⟩⟩)
  · exact .inr ⟨fun h => h rfl, rfl⟩
  · refine .inl ⟨by simp [ratsyStyle], ?_⟩
    simp only [ratsyAtom, hw]
    cases p <;> rfl
  · refine .inl ⟨by simp [ratsyStyle], ?_⟩
    simp only [ratsyAtom, hw]
    cases p <;> rfl

/-- All comparisons are translated. -/
def Lits (ok : Word → Option Bool → Prop) : Ltl → Prop
  | .lit x v => ok x v
  | .tt | .ff => True
  | .not f | .next f | .eventually f | .globally f => Lits ok f
  | .and f g | .or f g | .xor f g | .imp f g | .iff f g | .strongUntil f g | .weakUntil f g => Lits ok f ∧ Lits ok g

/-- The value of a formula about one step. -/
def value (st : Style) (ρ : Word → Bool) : Bool → Ltl → Bool
  | _, .tt => true
  | _, .ff => false
  | p, .lit x v => st.neg v ^^ ρ (valueName st.name (x, p))
  | p, .not f => !value st ρ p f
  | _, .next f => value st ρ true f
  | p, .and f g => value st ρ p f && value st ρ p g
  | p, .or f g => value st ρ p f || value st ρ p g
  | p, .imp f g => !value st ρ p f || value st ρ p g
  | p, .iff f g => value st ρ p f == value st ρ p g
  | _, _ => false

/-- The formula is translated. -/
def Can (st : Style) (f : Ltl) (p : Bool) : Prop := f.OneStep p ∧ Lits st.ok f

/-- The translation of a formula. -/
structure Tr (st : Style) (f : Ltl) (p : Bool) (φ : Fml) : Prop where
  wf : φ.Wf 0
  flat : Structured.Flat φ
  eval : ∀ ρ, φ.eval ρ [] = some (value st ρ p f)
  vars : ∀ x, x ∈ φ.vars ↔ ∃ u ∈ f.uses p, x = valueName st.name u

/-- What the result of a translation is to be. -/
def Out (st : Style) (f : Ltl) (p : Bool) (r : Option (List Word)) : Prop :=
  (Can st f p ∧ ∃ φ : Fml, r = some φ.words ∧ Tr st f p φ) ∨ (¬ Can st f p ∧ r = none)

/-- Conjunctions (`true`) and disjunctions (`false`). -/
def conNT : Bool → NT
  | true => .Conjunction
  | false => .Disjunction

def con : Bool → Ltl → Ltl → Ltl
  | true => .and
  | false => .or

def conOp : Bool → BinOp
  | true => .and
  | false => .or

theorem reps_con (k : Bool) (f g : Ltl) (u : Tree) :
    Reps (con k f g) u ↔ ∃ cs ds, u = .node (conNT k) (cs ++ ds) ∧ Part (conNT k) (Reps f) cs ∧ Part (conNT k) (Reps g) ds := by
  cases k <;> rfl

theorem reps_con_inv {k : Bool} {f : Ltl} {cs : List Tree} (h : Reps f (.node (conNT k) cs)) : ∃ f1 f2, f = con k f1 f2 := by
  cases k <;> cases f
  all_goals first
    | exact ⟨_, _, rfl⟩
    | (exfalso; simp [Reps, conNT] at h; done)

theorem simple_con (atoms : Atoms) (k : Bool) (cs : List Tree) (p : Bool) :
    simple atoms (.node (conNT k) cs) p = foldOp (conOp k).word (simpleAll atoms cs p) := by
  cases k <;> (simp only [conNT, simple]; rfl)

theorem can_con (st : Style) (k : Bool) (f g : Ltl) (p : Bool) : Can st (con k f g) p ↔ Can st f p ∧ Can st g p := by
  cases k <;> simp only [con, Can, Ltl.OneStep, Lits] <;> tauto

theorem Tr.con {st : Style} {k : Bool} {f g : Ltl} {p : Bool} {φ ψ : Fml} (h1 : Tr st f p φ) (h2 : Tr st g p ψ) : Tr st (con k f g) p (.bin (conOp k) φ ψ) := by
  refine ⟨⟨h1.wf, h2.wf⟩, ⟨h1.flat, h2.flat⟩, fun ρ => ?_, fun x => ?_⟩
  · rw [Fml.eval, h1.eval, h2.eval]
    cases k <;> simp [LtlText.con, conOp, BinOp.apply, value]
  · rw [Fml.vars, List.mem_append, h1.vars, h2.vars]
    cases k <;> simp only [LtlText.con, Ltl.uses, List.mem_append] <;> constructor
    all_goals first
      | (rintro (⟨u, h, e⟩ | ⟨u, h, e⟩) <;> exact ⟨u, by tauto, e⟩)
      | (rintro ⟨u, h | h, e⟩ <;> first | exact .inl ⟨u, h, e⟩ | exact .inr ⟨u, h, e⟩)

theorem Tr.assoc {st : Style} {k : Bool} {f g h : Ltl} {p : Bool} {φ : Fml} (t : Tr st (LtlText.con k (LtlText.con k f g) h) p φ) :
    Tr st (LtlText.con k f (LtlText.con k g h)) p φ := by
  refine ⟨t.wf, t.flat, fun ρ => ?_, fun x => ?_⟩
  · rw [t.eval]
    cases k <;> simp [LtlText.con, value, Bool.and_assoc, Bool.or_assoc]
  · rw [t.vars]
    cases k <;> simp [LtlText.con, Ltl.uses, List.append_assoc]

variable {st : Style} {atoms : Atoms}

theorem simpleAll_append (atoms : Atoms) (cs ds : List Tree) (p : Bool) : simpleAll atoms (cs ++ ds) p = simpleAll atoms cs p ++ simpleAll atoms ds p := by
  induction cs with
  | nil => rfl
  | cons c cs ih => simp only [List.cons_append, simpleAll, ih]

/-- The loop of `foldOp`. -/
def foldFrom (op : Word) (r : Option (List Word)) (rs : List (Option (List Word))) : Option (List Word) :=
  rs.foldl (fun ret a => ret.bind fun ret => a.map fun a => op :: ret ++ a) r

theorem foldFrom_none (op : Word) (rs : List (Option (List Word))) : foldFrom op none rs = none := by
  induction rs with
  | nil => rfl
  | cons r rs ih => exact ih

theorem foldFrom_append (op : Word) (r : Option (List Word)) (a b : List (Option (List Word))) : foldFrom op r (a ++ b) = foldFrom op (foldFrom op r a) b := List.foldl_append

theorem foldOp_append {op : Word} {a : List (Option (List Word))} (ha : a ≠ []) (b : List (Option (List Word))) : foldOp op (a ++ b) = foldFrom op (foldOp op a) b := by
  cases a with
  | nil => exact absurd rfl ha
  | cons r a => exact foldFrom_append op r a b

/-- The claim for trees. -/
def Main (st : Style) (atoms : Atoms) (f : Ltl) : Prop := ∀ u p, Reps f u → Out st f p (simple atoms u p)

/-- The claims for parts of conjunctions and disjunctions. -/
def Parts (st : Style) (atoms : Atoms) (f : Ltl) : Prop :=
  ∀ k cs p, Part (conNT k) (Reps f) cs → cs ≠ [] ∧ Out st f p (foldOp (conOp k).word (simpleAll atoms cs p)) ∧
    ∀ g (ψ : Fml), Tr st g p ψ →
      (Can st f p ∧ ∃ φ : Fml, foldFrom (conOp k).word (some ψ.words) (simpleAll atoms cs p) = some φ.words ∧ Tr st (con k g f) p φ) ∨
        (¬ Can st f p ∧ foldFrom (conOp k).word (some ψ.words) (simpleAll atoms cs p) = none)

theorem parts_con {k : Bool} {f1 f2 : Ltl} {cs ds : List Tree} {p : Bool} (i1 : Parts st atoms f1) (i2 : Parts st atoms f2)
    (h1 : Part (conNT k) (Reps f1) cs) (h2 : Part (conNT k) (Reps f2) ds) :
    Out st (con k f1 f2) p (foldOp (conOp k).word (simpleAll atoms (cs ++ ds) p)) := by
  obtain ⟨n1, o1, _⟩ := i1 k cs p h1
  obtain ⟨_, _, c2⟩ := i2 k ds p h2
  rw [simpleAll_append, foldOp_append (by cases cs with | nil => exact absurd rfl n1 | cons _ _ => simp [simpleAll])]
  rcases o1 with ⟨e1, φ, r1, t1⟩ | ⟨e1, r1⟩
  · rw [r1]
    rcases c2 f1 φ t1 with ⟨e2, φ2, r2, t2⟩ | ⟨e2, r2⟩
    · exact .inl ⟨(can_con _ _ _ _ _).mpr ⟨e1, e2⟩, φ2, r2, t2⟩
    · exact .inr ⟨fun h => e2 ((can_con _ _ _ _ _).mp h).2, r2⟩
  · rw [r1, foldFrom_none]
    exact .inr ⟨fun h => e1 ((can_con _ _ _ _ _).mp h).1, rfl⟩

theorem parts_of {f : Ltl} (hm : Main st atoms f) (ih : ∀ k f1 f2, f = con k f1 f2 → Parts st atoms f1 ∧ Parts st atoms f2) : Parts st atoms f := by
  rintro k cs p (h | ⟨v, rfl, h, _⟩)
  · obtain ⟨f1, f2, rfl⟩ := reps_con_inv h
    obtain ⟨i1, i2⟩ := ih k f1 f2 rfl
    obtain ⟨cs', ds, e, h1, h2⟩ := (reps_con k f1 f2 _).mp h
    obtain rfl : cs = cs' ++ ds := by injection e
    refine ⟨fun e => (i1 k cs' p h1).1 (List.append_eq_nil_iff.mp e).1, parts_con i1 i2 h1 h2, fun g ψ t => ?_⟩
    rw [simpleAll_append, foldFrom_append]
    rcases (i1 k cs' p h1).2.2 g ψ t with ⟨e1, φ, r1, t1⟩ | ⟨e1, r1⟩
    · rw [r1]
      rcases (i2 k ds p h2).2.2 _ φ t1 with ⟨e2, φ2, r2, t2⟩ | ⟨e2, r2⟩
      · exact .inl ⟨(can_con _ _ _ _ _).mpr ⟨e1, e2⟩, φ2, r2, t2.assoc⟩
      · exact .inr ⟨fun h => e2 ((can_con _ _ _ _ _).mp h).2, r2⟩
    · rw [r1, foldFrom_none]
      exact .inr ⟨fun h => e1 ((can_con _ _ _ _ _).mp h).1, rfl⟩
  · refine ⟨by simp, hm v p h, fun g ψ t => ?_⟩
    rcases hm v p h with ⟨e1, φ, r1, t1⟩ | ⟨e1, r1⟩
    · exact .inl ⟨e1, .bin (conOp k) ψ φ, by simp [simpleAll, foldFrom, r1, Fml.words], t.con t1⟩
    · exact .inr ⟨e1, by simp [simpleAll, foldFrom, r1]⟩

theorem translates (hs : st.Of atoms) (f : Ltl) : Main st atoms f ∧ Parts st atoms f := by
  induction f with
  | tt =>
    have hm : Main st atoms .tt := by
      rintro u p ⟨t, rfl, hk⟩
      exact .inl ⟨⟨trivial, trivial⟩, .const true, by rw [simple, if_pos hk]; rfl, trivial, trivial, fun ρ => rfl, fun x => by simp [Fml.vars, Ltl.uses]⟩
    exact ⟨hm, parts_of hm fun k _ _ e => by cases k <;> cases e⟩
  | ff =>
    have hm : Main st atoms .ff := by
      rintro u p ⟨t, rfl, hk⟩
      exact .inl ⟨⟨trivial, trivial⟩, .const false, by rw [simple, hk]; rfl, trivial, trivial, fun ρ => rfl, fun x => by simp [Fml.vars, Ltl.uses]⟩
    exact ⟨hm, parts_of hm fun k _ _ e => by cases k <;> cases e⟩
  | lit x v =>
    have hm : Main st atoms (.lit x v) := by
      rintro u p ⟨t, rest, rfl, rfl, hr⟩
      rw [simple]
      rcases hs t.text v rest p hr with ⟨h1, h2⟩ | ⟨h1, h2⟩
      · refine .inl ⟨⟨trivial, h1⟩, _, h2, ?_, ?_, fun ρ => ?_, fun x => ?_⟩ <;> rw [Style.fml] <;> cases hn : st.neg v
        all_goals simp [Fml.Wf, Structured.Flat, Fml.eval, Fml.vars, value, hn, Ltl.uses]
      · exact .inr ⟨fun h => h1 h.2, h2⟩
    exact ⟨hm, parts_of hm fun k _ _ e => by cases k <;> cases e⟩
  | not f ih =>
    have hm : Main st atoms (.not f) := by
      rintro u p ⟨os, c, rfl, hr⟩
      rw [simple]
      rcases ih.1 c p hr with ⟨e, φ, r, t⟩ | ⟨e, r⟩
      · refine .inl ⟨e, .not φ, by simp [r, Fml.words], t.wf, t.flat, fun ρ => ?_, t.vars⟩
        rw [Fml.eval, t.eval]; rfl
      · exact .inr ⟨e, by simp [r]⟩
    exact ⟨hm, parts_of hm fun k _ _ e => by cases k <;> cases e⟩
  | next f ih =>
    have hm : Main st atoms (.next f) := by
      rintro u p ⟨os, c, rfl, hr⟩
      rw [simple]
      cases p with
      | true => exact .inr ⟨fun h => absurd h.1.1 (by decide), rfl⟩
      | false =>
        rcases ih.1 c true hr with ⟨e, φ, r, t⟩ | ⟨e, r⟩
        · exact .inl ⟨⟨⟨rfl, e.1⟩, e.2⟩, φ, by simp [r], t.wf, t.flat, t.eval, t.vars⟩
        · exact .inr ⟨fun h => e ⟨h.1.2, h.2⟩, by simp [r]⟩
    exact ⟨hm, parts_of hm fun k _ _ e => by cases k <;> cases e⟩
  | eventually f ih =>
    have hm : Main st atoms (.eventually f) := by
      rintro u p ⟨os, c, rfl, hr⟩
      exact .inr ⟨fun h => h.1, by simp [simple]⟩
    exact ⟨hm, parts_of hm fun k _ _ e => by cases k <;> cases e⟩
  | globally f ih =>
    have hm : Main st atoms (.globally f) := by
      rintro u p ⟨os, c, rfl, hr⟩
      exact .inr ⟨fun h => h.1, by simp [simple]⟩
    exact ⟨hm, parts_of hm fun k _ _ e => by cases k <;> cases e⟩
  | and f g i1 i2 =>
    have hm : Main st atoms (.and f g) := by
      rintro u p ⟨cs, ds, rfl, h1, h2⟩
      have := parts_con (k := true) (p := p) i1.2 i2.2 h1 h2
      rw [← simple_con] at this
      exact this
    exact ⟨hm, parts_of hm fun k f1 f2 e => by cases k <;> cases e; exact ⟨i1.2, i2.2⟩⟩
  | or f g i1 i2 =>
    have hm : Main st atoms (.or f g) := by
      rintro u p ⟨cs, ds, rfl, h1, h2⟩
      have := parts_con (k := false) (p := p) i1.2 i2.2 h1 h2
      rw [← simple_con] at this
      exact this
    exact ⟨hm, parts_of hm fun k f1 f2 e => by cases k <;> cases e; exact ⟨i1.2, i2.2⟩⟩
  | xor f g i1 i2 =>
    have hm : Main st atoms (.xor f g) := by
      rintro u p ⟨cs, ds, rfl, h1, h2⟩
      exact .inr ⟨fun h => h.1, by simp [simple]⟩
    exact ⟨hm, parts_of hm fun k _ _ e => by cases k <;> cases e⟩
  | imp f g i1 i2 =>
    have hm : Main st atoms (.imp f g) := by
      rintro u p ⟨a, b, rfl, h1, h2⟩
      simp only [simple, simpleAll]
      rcases i1.1 a p h1 with ⟨e1, φ1, r1, t1⟩ | ⟨e1, r1⟩
      · rcases i2.1 b p h2 with ⟨e2, φ2, r2, t2⟩ | ⟨e2, r2⟩
        · refine .inl ⟨⟨⟨e1.1, e2.1⟩, e1.2, e2.2⟩, .bin .or (.not φ1) φ2, by simp [r1, r2, Fml.words, BinOp.word], ⟨t1.wf, t2.wf⟩, ⟨t1.flat, t2.flat⟩, fun ρ => ?_, fun x => ?_⟩
          · simp [Fml.eval, t1.eval, t2.eval, value, BinOp.apply]
          · simp only [Fml.vars, List.mem_append, t1.vars, t2.vars, Ltl.uses]
            constructor
            · rintro (⟨u, h, e⟩ | ⟨u, h, e⟩) <;> exact ⟨u, by tauto, e⟩
            · rintro ⟨u, h | h, e⟩ <;> first | exact .inl ⟨u, h, e⟩ | exact .inr ⟨u, h, e⟩
        · exact .inr ⟨fun h => e2 ⟨h.1.2, h.2.2⟩, by simp [r1, r2]⟩
      · exact .inr ⟨fun h => e1 ⟨h.1.1, h.2.1⟩, by simp [r1]⟩
    exact ⟨hm, parts_of hm fun k _ _ e => by cases k <;> cases e⟩
  | iff f g i1 i2 =>
    have hm : Main st atoms (.iff f g) := by
      rintro u p ⟨a, b, rfl, h1, h2⟩
      simp only [simple, simpleAll]
      rcases i1.1 a p h1 with ⟨e1, φ1, r1, t1⟩ | ⟨e1, r1⟩
      · rcases i2.1 b p h2 with ⟨e2, φ2, r2, t2⟩ | ⟨e2, r2⟩
        · refine .inl ⟨⟨⟨e1.1, e2.1⟩, e1.2, e2.2⟩, .bin .or (.bin .and (.not φ1) (.not φ2)) (.bin .and φ1 φ2), by simp [r1, r2, Fml.words, BinOp.word],
            ⟨⟨t1.wf, t2.wf⟩, t1.wf, t2.wf⟩, ⟨⟨t1.flat, t2.flat⟩, t1.flat, t2.flat⟩, fun ρ => ?_, fun x => ?_⟩
          · simp only [Fml.eval, t1.eval, t2.eval, value]
            cases value st ρ p f <;> cases value st ρ p g <;> rfl
          · simp only [Fml.vars, List.mem_append, t1.vars, t2.vars, Ltl.uses]
            constructor
            · rintro ((⟨u, h, e⟩ | ⟨u, h, e⟩) | (⟨u, h, e⟩ | ⟨u, h, e⟩)) <;> exact ⟨u, by tauto, e⟩
            · rintro ⟨u, h | h, e⟩ <;> first | exact .inl (.inl ⟨u, h, e⟩) | exact .inl (.inr ⟨u, h, e⟩)
        · exact .inr ⟨fun h => e2 ⟨h.1.2, h.2.2⟩, by simp [r1, r2]⟩
      · exact .inr ⟨fun h => e1 ⟨h.1.1, h.2.1⟩, by simp [r1]⟩
    exact ⟨hm, parts_of hm fun k _ _ e => by cases k <;> cases e⟩
  | strongUntil f g i1 i2 =>
    have hm : Main st atoms (.strongUntil f g) := by
      rintro u p ⟨a, o, b, rfl, h1, h2⟩
      exact .inr ⟨fun h => h.1, by simp [simple]⟩
    exact ⟨hm, parts_of hm fun k _ _ e => by cases k <;> cases e⟩
  | weakUntil f g i1 i2 =>
    have hm : Main st atoms (.weakUntil f g) := by
      rintro u p ⟨a, o, b, rfl, h1, h2⟩
      exact .inr ⟨fun h => h.1, by simp [simple]⟩
    exact ⟨hm, parts_of hm fun k _ _ e => by cases k <;> cases e⟩

end Slugs.Model.LtlText
