import Verif.Lemmas.StructuredNumbers

/-!
Formulas are translated in finitely many steps unless an integer variable has a negative lower bound.
-/

namespace Slugs.Model.Structured

open Slugs.Spec (Word isDigit)
open Slugs.Spec.Structured

mutual

/-- The tokens of a tree. -/
def leaves : Tree → List Tok
  | .leaf t => [t]
  | .node _ cs => leavesAll cs

def leavesAll : List Tree → List Tok
  | [] => []
  | c :: cs => leaves c ++ leavesAll cs

end

theorem mem_leavesAll {t : Tok} {cs : List Tree} : t ∈ leavesAll cs ↔ ∃ c ∈ cs, t ∈ leaves c := by
  induction cs with
  | nil => simp [leavesAll]
  | cons c cs ih => rw [leavesAll, List.mem_append, ih]; simp

mutual

theorem derives_leaves : ∀ {s : Sym} {T : Tree} {ts : List Tok}, Derives s T ts → leaves T = ts
  | _, _, _, .leaf => by rw [leaves]
  | _, _, _, .node _ h => by rw [leaves]; exact derivesAll_leaves' h

theorem derivesAll_leaves' : ∀ {ss : List Sym} {cs : List Tree} {ts : List Tok}, DerivesAll ss cs ts → leavesAll cs = ts
  | _, _, _, .nil => by rw [leavesAll]
  | _, _, _, .cons h1 h2 => by rw [leavesAll, derives_leaves h1, derivesAll_leaves' h2]

end

theorem mapM_id {cs : List (Option Tree)} {ds : List Tree} (h : cs.mapM id = some ds) : cs = ds.map some := by
  induction cs generalizing ds with
  | nil => simp at h; subst h; rfl
  | cons c cs ih =>
    rw [List.mapM_cons] at h
    cases c with
    | none => simp at h
    | some c =>
      cases hm : cs.mapM id with
      | none => rw [hm] at h; simp at h
      | some es =>
        rw [hm] at h
        simp at h
        subst h
        rw [ih hm]
        rfl

/-- The results for the children only have tokens of the tree. -/
theorem cleanNode_leaves {X : NT} {cs : List Tree} {r : List (Option Tree)} {T' : Tree} {L : List Tok} (hr : ∀ c, some c ∈ r → ∀ t ∈ leaves c, t ∈ L)
    (hc : ∀ t ∈ leavesAll cs, t ∈ L) (h : cleanNode X cs r = some T') : ∀ t ∈ leaves T', t ∈ L := by
  have at_ok : ∀ {i : Nat} {c : Tree}, (r[i]?).join = some c → ∀ t ∈ leaves c, t ∈ L := by
    intro i c hi
    refine hr c ?_
    cases hri : r[i]? with
    | none => rw [hri] at hi; cases hi
    | some o => rw [hri] at hi; exact List.mem_of_getElem? (hri.trans (congrArg some hi))
  have all_ok : ∀ {ds : List Tree}, r.mapM id = some ds → ∀ t ∈ leavesAll ds, t ∈ L := by
    intro ds hd t ht
    obtain ⟨c, hc1, hc2⟩ := mem_leavesAll.mp ht
    exact hr c (by rw [mapM_id hd]; exact List.mem_map_of_mem hc1) t hc2
  have two : ∀ {i j : Nat} {T : Tree}, (do return Spec.Structured.Tree.node X [← (r[i]?).join, ← (r[j]?).join] : Option Tree) = some T → ∀ t ∈ leaves T, t ∈ L := by
    intro i j T hT t ht
    cases h1 : (r[i]?).join with
    | none => rw [h1] at hT; cases hT
    | some a =>
      cases h2 : (r[j]?).join with
      | none => rw [h1, h2] at hT; cases hT
      | some b =>
        rw [h1, h2] at hT
        cases hT
        simp only [leaves, leavesAll, List.append_nil, List.mem_append] at ht
        rcases ht with ht | ht
        · exact at_ok h1 t ht
        · exact at_ok h2 t ht
  have three : ∀ {T : Tree}, (do return Spec.Structured.Tree.node X [← (r[0]?).join, ← (r[1]?).join, ← (r[2]?).join] : Option Tree) = some T → ∀ t ∈ leaves T, t ∈ L := by
    intro T hT t ht
    cases h1 : (r[0]?).join with
    | none => rw [h1] at hT; cases hT
    | some a =>
      cases h2 : (r[1]?).join with
      | none => rw [h1, h2] at hT; cases hT
      | some b =>
        cases h3 : (r[2]?).join with
        | none => rw [h1, h2, h3] at hT; cases hT
        | some c =>
          rw [h1, h2, h3] at hT
          cases hT
          simp only [leaves, leavesAll, List.append_nil, List.mem_append] at ht
          rcases ht with ht | ht | ht
          · exact at_ok h1 t ht
          · exact at_ok h2 t ht
          · exact at_ok h3 t ht
  have node : (r.mapM id).map (Spec.Structured.Tree.node X) = some T' → ∀ t ∈ leaves T', t ∈ L := by
    intro hT
    obtain ⟨ds, hd, rfl⟩ := Option.map_eq_some_iff.mp hT
    rw [leaves]
    exact all_ok hd
  by_cases hl : cs.length = 1
  · cases X <;> simp only [cleanNode, hl, if_true] at h <;> first | exact at_ok h | exact node h | (cases h; rw [leaves]; exact hc)
  · cases X <;> simp only [cleanNode, hl, if_false] at h <;>
      first | exact two h | exact three h | exact at_ok h | exact node h | cases h
    all_goals (rw [leaves]; exact hc)

mutual

theorem clean_leaves : ∀ (T T' : Tree), clean T = some T' → ∀ t ∈ leaves T', t ∈ leaves T
  | .leaf t, T', h => by rw [clean] at h; cases h; exact fun _ h => h
  | .node X cs, T', h => by
    rw [clean] at h
    rw [leaves]
    refine cleanNode_leaves (fun c hc => ?_) (fun _ h => h) h
    exact cleanAll_leaves' cs c hc

theorem cleanAll_leaves' : ∀ (cs : List Tree) (c : Tree), some c ∈ cleanAll cs → ∀ t ∈ leaves c, t ∈ leavesAll cs
  | [], c, h => by rw [cleanAll] at h; cases h
  | d :: cs, c, h => by
    rw [cleanAll] at h
    intro t ht
    rw [leavesAll, List.mem_append]
    rcases List.mem_cons.mp h with h | h
    · exact .inl (clean_leaves d c h.symm t ht)
    · exact .inr (cleanAll_leaves' cs c h t ht)

end

theorem splice_leaves (X : NT) (cs : List Tree) : leavesAll (splice X cs) = leavesAll cs := by
  have app : ∀ l1 l2, leavesAll (l1 ++ l2) = leavesAll l1 ++ leavesAll l2 := by
    intro l1 l2
    induction l1 with
    | nil => rw [leavesAll]; rfl
    | cons c l ih => rw [List.cons_append, leavesAll, leavesAll, ih, List.append_assoc]
  induction cs with
  | nil => rfl
  | cons c cs ih =>
    cases c with
    | leaf t => rw [splice, leavesAll, leavesAll, ih]
    | node Y ds =>
      rw [splice]
      by_cases h : Y = X
      · rw [if_pos h, app, leavesAll, leaves, ih]
      · rw [if_neg h, leavesAll, leavesAll, ih]

mutual

theorem flatten_leaves : ∀ (T : Tree), leaves (flatten T) = leaves T
  | .leaf t => by rw [flatten]
  | .node X cs => by
    rw [flatten, leaves]
    have : leaves (flattenNode X (flattenAll cs)) = leavesAll (flattenAll cs) := by
      cases X <;> simp only [flattenNode, leaves, splice_leaves]
    rw [this, flattenAll_leaves' cs]

theorem flattenAll_leaves' : ∀ (cs : List Tree), leavesAll (flattenAll cs) = leavesAll cs
  | [] => by rw [flattenAll]
  | c :: cs => by rw [flattenAll, leavesAll, leavesAll, flatten_leaves c, flattenAll_leaves' cs]

end

/-- No numeral is negative. -/
def NumOk (L : List Tok) : Prop := ∀ t ∈ L, t.kind = .numeral → ∀ k, toInt t.text ≠ some (.negSucc k)

mutual

theorem addMinimum_ok {nm : Names} (hn : ∀ x q, nm.limits x = some q → 0 ≤ q.1) : ∀ (T T' : Tree), addMinimum nm T = some T' → NumOk (leaves T) → NumOk (leaves T')
  | .leaf t, T', h, hT => by
    rw [addMinimum] at h
    by_cases hk : t.kind = .numID
    · rw [if_pos hk] at h
      cases hl : nm.limits (if endsWithPrime t.text then t.text.dropLast else t.text) with
      | none => rw [hl] at h; cases h
      | some q =>
        obtain ⟨lo, hi⟩ := q
        rw [hl] at h
        simp only at h
        by_cases h0 : lo = 0
        · rw [if_pos h0] at h; cases h; exact hT
        · rw [if_neg h0] at h
          cases h
          intro t' ht' hk' k
          simp only [leaves, leavesAll, List.append_nil, List.nil_append, List.mem_append, List.mem_singleton] at ht'
          rcases ht' with rfl | rfl
          · rw [hk] at hk'; cases hk'
          · rw [toInt_strInt]
            intro e
            have := hn _ _ hl
            cases e
            simp at this
    · rw [if_neg hk] at h; cases h; exact hT
  | .node X cs, T', h, hT => by
    rw [addMinimum] at h
    obtain ⟨ds, hd, rfl⟩ := Option.map_eq_some_iff.mp h
    rw [leaves] at hT ⊢
    exact addMinimumAll_ok hn cs ds hd hT

theorem addMinimumAll_ok {nm : Names} (hn : ∀ x q, nm.limits x = some q → 0 ≤ q.1) : ∀ (cs ds : List Tree), addMinimumAll nm cs = some ds → NumOk (leavesAll cs) →
    NumOk (leavesAll ds)
  | [], ds, h, hT => by rw [addMinimumAll] at h; cases h; exact hT
  | c :: cs, ds, h, hT => by
    rw [addMinimumAll] at h
    obtain ⟨c', hc, h⟩ := Option.bind_eq_some_iff.mp h
    obtain ⟨cs', hcs, rfl⟩ := Option.map_eq_some_iff.mp h
    rw [leavesAll] at hT ⊢
    intro t ht
    rcases List.mem_append.mp ht with ht | ht
    · exact addMinimum_ok hn c c' hc (fun t ht => hT t (List.mem_append_left _ ht)) t ht
    · exact addMinimumAll_ok hn cs cs' hcs (fun t ht => hT t (List.mem_append_right _ ht)) t ht

end

theorem Py.bind_ne_loops {A B : Type} {x : Py A} {f : A → Py B} (h1 : x ≠ .loops) (h2 : ∀ a, x = .ok a → f a ≠ .loops) : x.bind f ≠ .loops := by
  cases x with
  | ok a => exact h2 a rfl
  | exc => exact fun h => by cases h
  | loops => exact absurd rfl h1

theorem numIDBits_ends (nm : Names) (p : Bool) (x : Word) : numIDBits nm p x ≠ .loops := by
  rw [numIDBits]
  dsimp only
  split
  · exact fun h => by cases h
  · split
    · exact fun h => by cases h
    · split <;> exact fun h => by cases h

theorem recurse_ends (nm : Names) (p : Bool) : ∀ (T : Tree) (mem : Parts), NumOk (leaves T) → recurse nm p T mem ≠ .loops
  | .leaf t, mem, h => by
    rw [recurse]
    by_cases hk : t.kind = .numeral
    · rw [if_pos hk]
      refine Py.bind_ne_loops ?_ fun a _ h => by cases h
      have := h t (by simp [leaves]) hk
      rw [numeralOf]
      cases ht : toInt t.text with
      | none => exact fun h => by cases h
      | some n =>
        cases n with
        | ofNat n => exact fun h => by cases h
        | negSucc k => exact absurd ht (this k)
    · rw [if_neg hk]
      by_cases hk2 : t.kind = .numID
      · rw [if_pos hk2]
        exact Py.bind_ne_loops (numIDBits_ends _ _ _) fun a _ h => by cases h
      · rw [if_neg hk2]
        exact fun h => by cases h
  | .node X cs, mem, h => by
    rw [leaves] at h
    have hc : ∀ c ∈ cs, NumOk (leaves c) := fun c hc t ht => h t (mem_leavesAll.mpr ⟨c, hc, ht⟩)
    rw [recurse.eq_def]
    split
    · rename_i e; cases e
    · rename_i _ a op b e
      cases e
      refine Py.bind_ne_loops (recurse_ends nm p a _ (hc a (by simp))) fun x _ => ?_
      refine Py.bind_ne_loops (recurse_ends nm p b _ (hc b (by simp))) fun y _ => ?_
      dsimp only
      split <;> exact fun h => by cases h
    · rename_i _ l a r e
      cases e
      split
      · split
        · exact recurse_ends nm p a _ (hc a (by simp))
        · exact fun h => by cases h
      · exact fun h => by cases h
    · rename_i _ a u b us e
      cases e
      refine Py.bind_ne_loops (recurse_ends nm p a _ (hc a (by simp))) fun x _ => ?_
      refine Py.bind_ne_loops (recurse_ends nm p b _ (hc b (by simp))) fun y _ => ?_
      dsimp only
      split <;> exact fun h => by cases h
    · exact fun h => by cases h

theorem Py.ofOption_ends {A : Type} (o : Option A) : Py.ofOption o ≠ .loops := by cases o <;> exact fun h => by cases h

theorem calculation_ends {nm : Names} (hn : ∀ x q, nm.limits x = some q → 0 ≤ q.1) (p : Bool) (a op b : Tree) (ha : NumOk (leaves a)) (hb : NumOk (leaves b)) :
    calculation nm p a op b ≠ .loops := by
  rw [calculation]
  refine Py.bind_ne_loops (Py.ofOption_ends _) fun a' ha' => ?_
  refine Py.bind_ne_loops (recurse_ends nm p a' _ (addMinimum_ok hn a a' (Py.ofOption_ok.mp ha') ha)) fun x _ => ?_
  refine Py.bind_ne_loops (Py.ofOption_ends _) fun b' hb' => ?_
  refine Py.bind_ne_loops (recurse_ends nm p b' _ (addMinimum_ok hn b b' (Py.ofOption_ok.mp hb') hb)) fun y _ => ?_
  dsimp only
  split <;> exact fun h => by cases h

theorem foldOp_ends (op : List Char) (l : List (Py (List (List Char)))) (h : ∀ x ∈ l, x ≠ .loops) : foldOp op l ≠ .loops := by
  cases l with
  | nil => exact fun h => by cases h
  | cons r rs =>
    rw [foldOp]
    have key : ∀ (rs : List (Py (List (List Char)))) (r : Py (List (List Char))), r ≠ .loops → (∀ x ∈ rs, x ≠ .loops) →
        rs.foldl (fun ret a => ret.bind fun x => a.bind fun y => .ok ([op] ++ x ++ y)) r ≠ .loops := by
      intro rs
      induction rs with
      | nil => exact fun r h _ => h
      | cons s rs ih =>
        intro r hr hrs
        rw [List.foldl_cons]
        refine ih _ ?_ fun x hx => hrs x (by simp [hx])
        exact Py.bind_ne_loops hr fun x _ => Py.bind_ne_loops (hrs s (by simp)) fun y _ h => by cases h
    exact key rs r (h r (by simp)) fun x hx => h x (by simp [hx])

theorem simpleNode_ends {nm : Names} (hn : ∀ x q, nm.limits x = some q → 0 ≤ q.1) (X : NT) (cs : List Tree) (r : Bool → List (Py (List (List Char)))) (p : Bool)
    (hr : ∀ p, ∀ x ∈ r p, x ≠ .loops) (hc : ∀ c ∈ cs, NumOk (leaves c)) : simpleNode nm X cs r p ≠ .loops := by
  have at_ok : ∀ (p : Bool) (i : Nat), ((r p)[i]?).getD .exc ≠ .loops := by
    intro p i
    cases h : (r p)[i]? with
    | none => exact fun h => by cases h
    | some x => exact hr p x (List.mem_of_getElem? h)
  cases X <;> simp only [simpleNode] <;> try exact fun h => by cases h
  · split
    · exact at_ok _ _
    · exact fun h => by cases h
  · exact Py.bind_ne_loops (at_ok _ _) fun x _ => Py.bind_ne_loops (at_ok _ _) fun y _ h => by cases h
  · exact Py.bind_ne_loops (at_ok _ _) fun x _ => Py.bind_ne_loops (at_ok _ _) fun y _ h => by cases h
  · exact foldOp_ends _ _ (hr p)
  · exact foldOp_ends _ _ (hr p)
  · split
    · exact Py.bind_ne_loops (at_ok _ _) fun x _ h => by cases h
    · split
      · exact fun h => by cases h
      · exact at_ok _ _
    · exact fun h => by cases h
  · split
    · split
      · split <;> exact fun h => by cases h
      · exact fun h => by cases h
    · exact fun h => by cases h
  · split
    · exact calculation_ends hn p _ _ _ (hc _ (by simp)) (hc _ (by simp))
    · exact fun h => by cases h

mutual

theorem simple_ends {nm : Names} (hn : ∀ x q, nm.limits x = some q → 0 ≤ q.1) : ∀ (T : Tree) (p : Bool), NumOk (leaves T) → simple nm T p ≠ .loops
  | .leaf t, p, h => by
    rw [simple]
    split
    · exact fun h => by cases h
    · split <;> exact fun h => by cases h
  | .node X cs, p, h => by
    rw [simple]
    rw [leaves] at h
    have hc : ∀ c ∈ cs, NumOk (leaves c) := fun c hc t ht => h t (mem_leavesAll.mpr ⟨c, hc, ht⟩)
    exact simpleNode_ends hn X cs _ p (fun p x hx => simpleAll_ends hn cs p hc x hx) hc

theorem simpleAll_ends {nm : Names} (hn : ∀ x q, nm.limits x = some q → 0 ≤ q.1) : ∀ (cs : List Tree) (p : Bool), (∀ c ∈ cs, NumOk (leaves c)) →
    ∀ x ∈ simpleAll nm cs p, x ≠ .loops
  | [], p, _, x, hx => by rw [simpleAll] at hx; cases hx
  | c :: cs, p, h, x, hx => by
    rw [simpleAll] at hx
    rcases List.mem_cons.mp hx with hx | hx
    · rw [hx]; exact simple_ends hn c p (h c (by simp))
    · exact simpleAll_ends hn cs p (fun d hd => h d (by simp [hd])) x hx

end

/-- The translation of a line ends, if no lower bound is negative. -/
theorem translateLine_ends {nm : Names} (hn : ∀ x q, nm.limits x = some q → 0 ≤ q.1) (bools : List Word) (line : List Char) :
    translateLine nm bools line ≠ .loops := by
  rw [translateLine]
  cases hp : parse (tokenize bools line) with
  | error => exact fun h => by cases h
  | running => exact absurd hp (parse_total _)
  | tree t =>
    dsimp only
    have ok := Lexes.ok (tokenize_lexes bools line)
    refine Py.bind_ne_loops (Py.ofOption_ends _) fun t' ht' => ?_
    refine Py.bind_ne_loops (simple_ends hn _ false fun a ha hk k => ?_) fun _ _ h => by cases h
    rw [flatten_leaves] at ha
    have h1 := clean_leaves t t' (Py.ofOption_ok.mp ht') a ha
    have hd := parse_sound (fun a ha => (ok a ha).eof) hp
    rw [derives_leaves hd] at h1
    obtain ⟨n1, n2⟩ := (ok a h1).numeral hk
    rw [toInt_digits n1 n2]
    exact fun h => by cases h

end Slugs.Model.Structured
