import Verif.Lemmas.SubstitutorMeaning
import Verif.Lemmas.StructuredOutput

/-!
The tool that replaces integer variables: the ends of the printed lines.
-/

namespace Slugs.Model.Substitutor

open Slugs.Spec (Word isDigit digitsVal prime)
open Slugs.Spec.Structured
open Slugs.Model.Structured

/-- No line end. -/
def NoEnd (s : List Char) : Prop := '\n' ∉ s ∧ '\r' ∉ s

instance (s : List Char) : Decidable (NoEnd s) := inferInstanceAs (Decidable (_ ∧ _))

theorem noEnd_nil : NoEnd [] := by simp [NoEnd]

theorem noEnd_cons {c : Char} {s : List Char} : NoEnd (c :: s) ↔ (c ≠ '\n' ∧ c ≠ '\r') ∧ NoEnd s := by
  simp only [NoEnd, List.mem_cons, not_or]
  constructor
  · rintro ⟨⟨a, b⟩, c, d⟩; exact ⟨⟨Ne.symm a, Ne.symm c⟩, b, d⟩
  · rintro ⟨⟨a, b⟩, c, d⟩; exact ⟨⟨Ne.symm a, c⟩, Ne.symm b, d⟩

theorem noEnd_append {a b : List Char} : NoEnd (a ++ b) ↔ NoEnd a ∧ NoEnd b := by
  simp only [NoEnd, List.mem_append, not_or]
  tauto

/-- Both ends are characters of a formula, and there is no line end. -/
structure Solid (s : List Char) : Prop where
  ne : s ≠ []
  head : ∀ c, s.head? = some c → plainChar c
  last : ∀ c, s.getLast? = some c → plainChar c
  line : NoEnd s

theorem solid_all {s : List Char} (hne : s ≠ []) (h : ∀ c ∈ s, plainChar c) : Solid s := by
  refine ⟨hne, fun c hc => h c (List.mem_of_mem_head? hc), fun c hc => h c (List.mem_of_getLast? hc), fun hc => ?_, fun hc => ?_⟩
  · have := (h _ hc).1
    revert this
    decide
  · have := (h _ hc).1
    revert this
    decide

theorem solid_append {a b c : List Char} (ha : Solid a) (hb : NoEnd b) (hc : Solid c) : Solid (a ++ b ++ c) := by
  refine ⟨by simp [ha.ne], fun d hd => ha.head d ?_, fun d hd => hc.last d ?_, ?_⟩
  · cases a with
    | nil => exact absurd rfl ha.ne
    | cons x a => exact hd
  · rw [List.getLast?_append_of_ne_nil _ hc.ne] at hd
    exact hd
  · simp [noEnd_append, ha.line, hb, hc.line]

theorem solid_two {a c : List Char} (ha : Solid a) (hc : Solid c) : Solid (a ++ c) := by
  have := solid_append ha (b := []) noEnd_nil hc
  simpa using this

theorem plain_open : plainChar '(' := by unfold plainChar; decide

theorem solid_open : Solid ['('] := solid_all (by simp) (by simp [plain_open])

theorem solid_close : Solid [')'] := solid_all (by simp) (by unfold plainChar; decide)

theorem solid_bang : Solid ['!'] := solid_all (by simp) (by unfold plainChar; decide)

theorem solid_name {bools : List Word} {t : Tok} (ht : Shaped bools t) (hk : t.kind = .boolID ∨ t.kind = .numID ∨ t.kind = .numeral) : Solid t.text := by
  have key : t.kind = .boolID ∨ t.kind = .numID → Solid t.text := by
    intro hk
    obtain ⟨c, w, k1, k2, k3⟩ := ht.name hk
    have e : t.text = c :: w := by rw [k3, nameTok_text]
    rw [e]
    refine solid_all (by simp) fun d hd => plain_name ?_
    rcases List.mem_cons.mp hd with rfl | hd
    · rw [nameChar, k1]; rfl
    · exact k2 d hd
  rcases hk with hk | hk | hk
  · exact key (.inl hk)
  · exact key (.inr hk)
  · obtain ⟨_, k2, k3⟩ := ht.numeral hk
    exact solid_all k2 fun d hd => plain_digit (k3 d hd)

variable {bools : List Word} {repl : Replacements}

/-- The texts that are put in. -/
def SolidTexts (repl : Replacements) : Prop := ∀ x a b, repl x = some (a, b) → Solid a ∧ Solid b

theorem solid_number (hR : SolidTexts repl) {T : Tree} {a : NExp} (h : NumTree bools T a) :
    ∀ {T' : Tree} {bs : List (List Char)}, replaceExpr repl T = some (T', bs) → (∀ {p : Bool} {s : List Char}, printTree T' p = some s → Solid s) ∧
      ∀ b ∈ bs, Solid b := by
  induction h with
  | @var t ht hk =>
    intro T' bs h
    rw [replaceExpr, if_neg (by rw [hk]; decide), if_pos hk] at h
    cases e : repl t.text with
    | none =>
      rw [e] at h
      cases h
      refine ⟨fun {p s} hs => ?_, by simp⟩
      rw [printTree, hk] at hs
      cases p with
      | true => cases hs
      | false => cases hs; exact solid_name ht (.inr (.inl hk))
    | some q =>
      obtain ⟨w, v⟩ := q
      rw [e] at h
      cases h
      refine ⟨fun {p s} hs => ?_, by simpa using (hR _ _ _ e).2⟩
      cases p with
      | true => cases hs
      | false => cases hs; exact (hR _ _ _ e).1
  | @num t ht hk =>
    intro T' bs h
    rw [replaceExpr, if_pos hk] at h
    cases h
    refine ⟨fun {p s} hs => ?_, by simp⟩
    rw [printTree, hk] at hs
    cases hs
    exact solid_name ht (.inr (.inr hk))
  | @single T a _ ih =>
    intro T' bs h
    rw [replaceExpr, if_neg (by decide), replaceExprAll, replaceExprAll] at h
    cases hr : replaceExpr repl T with
    | none => rw [hr] at h; cases h
    | some q =>
      obtain ⟨c, b⟩ := q
      rw [hr] at h
      have h : some (c, b ++ []) = some (T', bs) := h
      rw [List.append_nil] at h
      cases h
      exact ih hr
  | @add T1 T2 a b cs _ _ i1 i2 =>
    intro T' bs h
    rw [replaceExpr, if_neg (by decide)] at h
    obtain ⟨⟨L, bs'⟩, h1, h2⟩ := map_some (x := replaceExprAll repl _) h
    cases h2
    obtain ⟨T1', op, T2', b1, b2, b3, k1, k2, k3, rfl, rfl⟩ := replaceExprAll_three h1
    rw [replaceExpr, if_pos rfl] at k2
    cases k2
    refine ⟨fun {p s} hs => ?_, fun b hb => ?_⟩
    · obtain ⟨s1, e1, hs⟩ := bind_some (x := printTree T1' p) hs
      obtain ⟨s2, e2, rfl⟩ := map_some (x := printTree T2' p) hs
      have j1 := (i1 k1).1 e1
      have j2 := (i2 k3).1 e2
      have := solid_append (a := ['(']) (b := '(' :: s1 ++ txt!")+(" ++ s2 ++ [')']) (c := [')']) solid_open (by simp [noEnd_append, noEnd_cons, noEnd_nil, j1.line, j2.line]) solid_close
      simpa using this
    · simp only [List.mem_append, List.not_mem_nil, false_or] at hb
      rcases hb with hb | hb
      · exact (i1 k1).2 b hb
      · exact (i2 k3).2 b hb
  | @brackets T a l r hk _ _ =>
    intro T' bs h
    rw [replaceExpr, if_neg (by decide), replaceExprAll, replaceExpr, if_neg (by rw [hk]; decide), if_neg (by rw [hk]; decide)] at h
    cases h

theorem line_join : ∀ {bs : List (List Char)}, (∀ b ∈ bs, Solid b) → NoEnd (plusJoin bs)
  | [], _ => by simp [noEnd_nil, plusJoin]
  | [b], h => by simpa [plusJoin] using (h b (by simp)).line
  | b :: c :: bs, h => by
    have e : plusJoin (b :: c :: bs) = b ++ '+' :: plusJoin (c :: bs) := by rw [plusJoin]; simp
    rw [e]
    have h1 := line_join (bs := c :: bs) fun x hx => h x (by simp [List.mem_cons.mp hx])
    have h2 := (h b (by simp)).line
    simp [noEnd_append, noEnd_cons, h1, h2]

theorem solid_side {T : Tree} {bs : List (List Char)} {p : Bool} {s : List Char} (h : printTree (withAdded T bs) p = some s)
    (hT : ∀ {s0}, printTree T p = some s0 → Solid s0) (hb : ∀ b ∈ bs, Solid b) : Solid s := by
  obtain ⟨s0, h1, h2⟩ := side_printed h
  rcases h2 with ⟨_, rfl⟩ | ⟨_, rfl⟩
  · exact hT h1
  · have := solid_append (a := ['(']) (b := '(' :: s0 ++ txt!")+(" ++ plusJoin bs ++ [')']) (c := [')']) solid_open (by simp [noEnd_append, noEnd_cons, noEnd_nil, (hT h1).line, line_join hb]) solid_close
    simpa using this

/-- What is printed for a tree. -/
def SMain (repl : Replacements) (T : Tree) : Prop := ∀ T', treeReplace repl T = some T' → ∀ p s, printTree T' p = some s → Solid s

def SAll (repl : Replacements) (T : Tree) : Prop :=
  SMain repl T ∧ (∀ C ∈ splice .Conjunction [T], SMain repl C) ∧ ∀ C ∈ splice .Disjunction [T], SMain repl C

theorem SMain.all {T : Tree} (h : SMain repl T) (h1 : splice .Conjunction [T] = [T]) (h2 : splice .Disjunction [T] = [T]) : SAll repl T :=
  ⟨h, by rw [h1]; simpa using h, by rw [h2]; simpa using h⟩

theorem solid_list : ∀ {L L' : List Tree} {p : Bool} {ws : List (List Char)}, (∀ C ∈ L, SMain repl C) → treeReplaceAll repl L = some L' →
    (printTrees L' p).mapM id = some ws → ∀ w ∈ ws, Solid w
  | [], L', p, ws, _, h1, h2 => by
    cases h1
    cases h2
    simp
  | C :: L, L', p, ws, h, h1, h2 => by
    rw [treeReplaceAll] at h1
    obtain ⟨c', k1, h1⟩ := bind_some h1
    obtain ⟨L1, k2, rfl⟩ := map_some h1
    have h2 : ((printTree c' p).bind fun w => ((printTrees L1 p).mapM id).bind fun ws => some (w :: ws)) = some ws := by
      have := h2
      simp only [printTrees, List.mapM_cons] at this
      exact this
    obtain ⟨w, k3, h2⟩ := bind_some h2
    obtain ⟨ws', k4, h2⟩ := bind_some h2
    cases h2
    rw [List.forall_mem_cons] at h ⊢
    exact ⟨h.1 c' k1 p w k3, solid_list h.2 k2 k4⟩

theorem line_bracketJoin (c : Char) (hc : c ≠ '\n' ∧ c ≠ '\r') : ∀ {ws : List (List Char)}, (∀ w ∈ ws, Solid w) → NoEnd (bracketJoin [c] ws)
  | [], _ => by simp [noEnd_nil, bracketJoin]
  | [w], h => by simpa [noEnd_append, noEnd_cons, noEnd_nil, bracketJoin] using (h w (by simp)).line
  | w :: v :: ws, h => by
    rw [bracketJoin]
    have h1 := line_bracketJoin c hc (ws := v :: ws) fun x hx => h x (by simp [List.mem_cons.mp hx])
    have h2 := (h w (by simp)).line
    simp [noEnd_append, noEnd_cons, noEnd_nil, h1, h2, hc]
    simp

theorem solid_joined {X : NT} (c : Char) (hc : c ≠ '\n' ∧ c ≠ '\r') (h1 : X ≠ .CalculationSubformula) (h2 : X ≠ .Assignment)
    (hX : ∀ (cs : List Tree) (p : Bool), printTree (.node X cs) p = ((printTrees cs p).mapM id).map fun ws => '(' :: bracketJoin [c] ws ++ txt!")")
    {L : List Tree} (h : ∀ C ∈ L, SMain repl C) : SMain repl (.node X L) := by
  intro T' hT p s hp
  rw [treeReplace_other h1 h2] at hT
  obtain ⟨L', hL, rfl⟩ := map_some hT
  rw [hX] at hp
  obtain ⟨ws, hw, rfl⟩ := map_some hp
  have := solid_append (a := ['(']) (b := bracketJoin [c] ws) (c := [')']) solid_open (line_bracketJoin c hc (solid_list h hL hw)) solid_close
  simpa using this

theorem solid_infix {X : NT} {op : List Char} (ho : NoEnd op) (h1 : X ≠ .CalculationSubformula) (h2 : X ≠ .Assignment)
    (hX : ∀ (T1 T2 : Tree) (p : Bool), printTree (.node X [T1, T2]) p = (printTree T1 p).bind fun b1 => (printTree T2 p).map fun b2 =>
      txt!"((" ++ b1 ++ op ++ b2 ++ txt!"))") {T1 T2 : Tree} (i1 : SMain repl T1) (i2 : SMain repl T2) : SMain repl (.node X [T1, T2]) := by
  intro T' h p s hs
  obtain ⟨T1', T2', k1, k2, rfl⟩ := replace_two h1 h2 h
  rw [hX] at hs
  obtain ⟨s1, e1, hs⟩ := bind_some hs
  obtain ⟨s2, e2, rfl⟩ := map_some hs
  have := solid_append (a := ['(']) (b := '(' :: s1 ++ op ++ s2 ++ [')']) (c := [')']) solid_open
    (by simp [noEnd_append, noEnd_cons, noEnd_nil, (i1 T1' k1 p s1 e1).line, (i2 T2' k2 p s2 e2).line, ho]) solid_close
  simpa using this

theorem solid_formula (hR : SolidTexts repl) {T : Tree} {g : SFml} (h : FmlTree bools T g) : SAll repl T := by
  induction h with
  | @tt t hk =>
    refine SMain.all ?_ rfl rfl
    intro T' h p s hs
    cases h
    rw [printTree, if_pos hk] at hs
    cases hs
    exact solid_all (by simp) (by unfold plainChar; decide)
  | @ff t hk =>
    refine SMain.all ?_ rfl rfl
    intro T' h p s hs
    cases h
    rw [printTree, if_neg (by rw [hk]; decide), if_pos hk] at hs
    cases hs
    exact solid_all (by simp) (by unfold plainChar; decide)
  | @atom t ht hk =>
    refine SMain.all ?_ rfl rfl
    intro T' h p s hs
    have h : some (Spec.Structured.Tree.node .Assignment [.leaf t]) = some T' := h
    cases h
    have hs : (if p then if '\'' ∈ t.text then none else some (t.text ++ txt!"'") else some t.text) = some s := hs
    cases p with
    | false => cases hs; exact solid_name ht (.inl hk)
    | true =>
      rw [if_pos rfl] at hs
      by_cases hq : '\'' ∈ t.text
      · rw [if_pos hq] at hs; cases hs
      · rw [if_neg hq] at hs
        cases hs
        exact solid_two (solid_name ht (.inl hk)) (solid_all (by simp) (by unfold plainChar; decide))
  | @cmp T1 T2 a b cs o t1 t2 =>
    refine SMain.all ?_ rfl rfl
    intro T' h p s hs
    rw [treeReplace, if_pos rfl] at h
    obtain ⟨⟨T1', b1⟩, k1, h⟩ := bind_some h
    obtain ⟨⟨T2', b2⟩, k2, rfl⟩ := map_some h
    obtain ⟨s1, e1, hs⟩ := bind_some (x := printTree (withAdded T1' b2) p) hs
    obtain ⟨s2, e2, hs⟩ := bind_some (x := printTree (withAdded T2' b1) p) hs
    obtain ⟨w, e3, rfl⟩ := map_some hs
    have j1 := solid_number hR t1 k1
    have j2 := solid_number hR t2 k2
    refine solid_append (solid_side e1 (fun h => j1.1 h) j2.2) ?_ (solid_side e2 (fun h => j2.1 h) j1.2)
    cases o <;> · cases e3; decide
  | @not T f cs _ ih =>
    refine SMain.all ?_ rfl rfl
    intro T' h p s hs
    obtain ⟨T1', T2', k1, k2, rfl⟩ := replace_two (by decide) (by decide) h
    obtain ⟨cs', rfl⟩ := replace_op (by decide) (by decide) k1
    obtain ⟨s1, e1, rfl⟩ := map_some (x := printTree T2' p) hs
    exact solid_append (a := ['!']) (b := [' ']) solid_bang (by decide) (ih.1 T2' k2 p s1 e1)
  | @next T f cs _ ih =>
    refine SMain.all ?_ rfl rfl
    intro T' h p s hs
    obtain ⟨T1', T2', k1, k2, rfl⟩ := replace_two (by decide) (by decide) h
    obtain ⟨cs', rfl⟩ := replace_op (by decide) (by decide) k1
    cases p with
    | true => cases hs
    | false => exact ih.1 T2' k2 true s hs
  | @and T1 T2 f g _ _ i1 i2 =>
    have hl : ∀ C ∈ splice .Conjunction [T1, T2], SMain repl C := by
      rw [splice_two]
      intro C hC
      exact (List.mem_append.mp hC).elim (i1.2.1 C) (i2.2.1 C)
    have hm : SMain repl (.node .Conjunction (splice .Conjunction [T1, T2])) :=
      solid_joined '&' (by decide) (by decide) (by decide) (fun _ _ => by rw [printTree]; rfl) hl
    refine ⟨hm, ?_, ?_⟩
    · rw [spliced_two, ← splice_two]; exact hl
    · intro C hC
      have hC : C ∈ [Spec.Structured.Tree.node .Conjunction (splice .Conjunction [T1, T2])] := hC
      rw [List.mem_singleton.mp hC]; exact hm
  | @or T1 T2 f g _ _ i1 i2 =>
    have hl : ∀ C ∈ splice .Disjunction [T1, T2], SMain repl C := by
      rw [splice_two]
      intro C hC
      exact (List.mem_append.mp hC).elim (i1.2.2 C) (i2.2.2 C)
    have hm : SMain repl (.node .Disjunction (splice .Disjunction [T1, T2])) :=
      solid_joined '|' (by decide) (by decide) (by decide) (fun _ _ => by rw [printTree]; rfl) hl
    refine ⟨hm, ?_, ?_⟩
    · intro C hC
      have hC : C ∈ [Spec.Structured.Tree.node .Disjunction (splice .Disjunction [T1, T2])] := hC
      rw [List.mem_singleton.mp hC]; exact hm
    · rw [spliced_two, ← splice_two]; exact hl
  | @imp T1 T2 f g _ _ i1 i2 =>
    exact SMain.all (solid_infix (op := txt!") -> (") (by decide) (by decide) (by decide) (fun _ _ _ => by rw [printTree]; rfl) i1.1 i2.1) rfl rfl
  | @iff T1 T2 f g _ _ i1 i2 =>
    exact SMain.all (solid_infix (op := txt!") <-> (") (by decide) (by decide) (by decide) (fun _ _ _ => by rw [printTree]; rfl) i1.1 i2.1) rfl rfl

/-- The printed line. -/
theorem solid_line (hR : SolidTexts repl) {line s : List Char} {g : SFml} (hg : IsFormula bools line g) (hp : g.Plain)
    (h : substLine repl bools line = .ok s) : Solid s := by
  obtain ⟨T, T', h1, h2, h3⟩ := substLine_tree hg hp h
  exact (solid_formula hR h1).1 T' h2 false s h3

end Slugs.Model.Substitutor
