import Verif.Model.Graphviz
import Verif.Spec.Dot
import Verif.Lemmas.Decoder

/-!
What the program for GraphViz does with the text of a strategy.
-/

namespace Slugs.Model.Graphviz

open Slugs.Spec Slugs.Spec.Structured Slugs.Model Slugs.Model.Structured Slugs.Model.Decoder

/-! ### Strings -/

theorem joinCommas_eq (l : List (List Char)) : joinCommas l = (txt!",").intercalate l := by
  induction l with
  | nil => rfl
  | cons a l ih =>
    cases l with
    | nil => simp [joinCommas, List.intercalate]
    | cons b l => rw [joinCommas, ih]; simp [List.intercalate]

theorem strip_space (a : List Char) : strip (' ' :: a) = strip a := by
  rw [strip, strip, List.dropWhile_cons_of_pos (by decide)]

theorem split_comma_spaces : ∀ (a : List Char) (l : List (List Char)), (∀ b ∈ a :: l, ',' ∉ b) → split [','] (withCommas (a :: l)) = a :: l.map fun b => ' ' :: b
  | a, [], h => by rw [withCommas, split_none (h a (by simp))]; rfl
  | a, b :: l, h => by
    have ih := split_comma_spaces b l fun x hx => h x (List.mem_cons_of_mem _ hx)
    have e : withCommas (a :: b :: l) = a ++ ',' :: (' ' :: withCommas (b :: l)) := by simp [withCommas]
    rw [e, split_cons (h a (by simp))]
    congr 1
    have key : ∀ t : List Char, split [','] (' ' :: t) = ((split [','] t).modifyHead (' ' :: ·)) := by
      intro t
      have hsh : ∀ (t cur : List Char) (c : Char), splitAux [','] 0 (cur ++ [c]) t = (splitAux [','] 0 cur t).modifyHead (c :: ·) := by
        intro t
        induction t with
        | nil => intro cur c; simp [splitAux]
        | cons d t ih =>
          intro cur c
          rw [splitAux, splitAux]
          split
          · simp
          · rw [← List.cons_append]; exact ih _ _
      rw [split, splitAux, if_neg (by simp [List.isPrefixOf])]
      exact hsh t [] ' '
    rw [key, ih]
    rfl

/-- Components that are separated by commas and blanks. -/
theorem comma_items {l : List (List Char)} (hne : l ≠ []) (h1 : ∀ b ∈ l, ',' ∉ b) (h2 : ∀ b ∈ l, strip b = b) : (split [','] (withCommas l)).map strip = l := by
  obtain ⟨a, l, rfl⟩ := List.exists_cons_of_ne_nil hne
  rw [split_comma_spaces a l h1, List.map_cons, h2 a (by simp), List.map_map]
  congr 1
  conv_rhs => rw [← List.map_id l]
  refine List.map_congr_left fun b hb => ?_
  rw [Function.comp_apply, strip_space, h2 b (List.mem_cons_of_mem _ hb), id]

theorem strip_clean {s : List Char} (h : ∀ c ∈ s, pySpace c = false) : strip s = s := by
  rw [strip_eq]
  refine pyTrim_self (fun c hc => h c (List.mem_of_mem_head? hc)) (fun c hc => h c (List.mem_of_getLast? hc))

theorem strip_around {a s b : List Char} (ha : ∀ c ∈ a, pySpace c = true) (hb : ∀ c ∈ b, pySpace c = true) (h1 : ∀ c, s.head? = some c → pySpace c = false)
    (h2 : ∀ c, s.getLast? = some c → pySpace c = false) (hne : s ≠ []) : strip (a ++ s ++ b) = s := by
  rw [strip_eq]
  exact pyTrim_around ha hb h1 h2 hne

theorem decimal_clean (n : Nat) : ∀ c ∈ decimal n, pySpace c = false := fun c hc => digit_not_py (decimal_digits n c hc)

theorem setItem_new {V : Type} {k : List Char} {v : V} : ∀ {d : List (List Char × V)}, k ∉ d.map Prod.fst → setItem k v d = d ++ [(k, v)]
  | [], _ => rfl
  | e :: d, h => by
    rw [List.map_cons, List.mem_cons, not_or] at h
    rw [setItem, if_neg (fun he => h.1 he.symm), setItem_new h.2]
    rfl

/-! ### Lines -/

/-- Names for which the text of a state can be read. -/
def Readable (x : Word) : Prop := ∀ c ∈ x, pySpace c = false ∧ c ≠ '<' ∧ c ≠ ',' ∧ c ≠ ':'

def itemText (l : Word × Bool) : List Char := l.1 ++ [':'] ++ bitText l.2

theorem bitText_chars {b : Bool} : ∀ c ∈ bitText b, pySpace c = false ∧ c ≠ '<' ∧ c ≠ ',' ∧ c ≠ ':' ∧ c ≠ '\n' ∧ c ≠ '\r' := by cases b <;> decide

theorem item_clean {l : Word × Bool} (h : Readable l.1) : ∀ c ∈ itemText l, pySpace c = false ∧ c ≠ '<' ∧ c ≠ ',' := by
  intro c hc
  simp only [itemText, List.mem_append, List.mem_singleton] at hc
  rcases hc with (hc | rfl) | hc
  · exact ⟨(h c hc).1, (h c hc).2.1, (h c hc).2.2.1⟩
  · decide
  · exact ⟨(bitText_chars c hc).1, (bitText_chars c hc).2.1, (bitText_chars c hc).2.2.1⟩

theorem not_space_ne {c : Char} (h : pySpace c = false) : c ≠ '\n' ∧ c ≠ '\r' := by
  constructor <;> (rintro rfl; revert h; decide)

/-- The line with the values of a state. -/
def line1 (st : PState) : List Char :=
  txt!"State " ++ decimal st.num ++ txt!" with rank " ++ decimal st.rank ++ txt!" -> " ++ '<' :: (labelText st.label ++ ['>'])

/-- The line with the successors of a state. -/
def line2 (st : PState) : List Char := txt!"\tWith successors : " ++ withCommas (st.succ.map decimal)

def entry (st : PState) : List Char × List Char × List (List Char) := (decimal st.num, decimal st.rank, st.label.map fun l => bitText l.2)

theorem label_not_mem {label : List (Word × Bool)} (h : ∀ l ∈ label, Readable l.1) {d : Char} (hd : d = '<' ∨ d = '\n' ∨ d = '\r') : d ∉ labelText label := by
  refine commas_not_mem (by rcases hd with rfl | rfl | rfl <;> decide) fun a ha => ?_
  obtain ⟨l, hl, rfl⟩ := List.mem_map.mp ha
  intro hm
  have := item_clean (h l hl) d hm
  rcases hd with rfl | rfl | rfl
  · exact this.2.1 rfl
  · exact (not_space_ne this.1).1 rfl
  · exact (not_space_ne this.1).2 rfl

theorem split_line1 (n r : Nat) : split [' '] (txt!"State " ++ decimal n ++ txt!" with rank " ++ decimal r ++ txt!" -> ") =
    [txt!"State", decimal n, txt!"with", txt!"rank", decimal r, txt!"->", []] := by
  have e : txt!"State " ++ decimal n ++ txt!" with rank " ++ decimal r ++ txt!" -> " =
      txt!"State" ++ ' ' :: (decimal n ++ ' ' :: (txt!"with" ++ ' ' :: (txt!"rank" ++ ' ' :: (decimal r ++ ' ' :: (txt!"->" ++ ' ' :: []))))) := by simp
  have hd : ∀ m, ' ' ∉ decimal m := fun m => decimal_not_mem m (by decide)
  rw [e, split_cons (by decide), split_cons (hd n), split_cons (by decide), split_cons (by decide), split_cons (hd r), split_cons (by decide), split_none (by simp)]

theorem stateLine_eq {st : PState} (hne : st.label ≠ []) (h : ∀ l ∈ st.label, Readable l.1) (s : State) (hp : s.propositions = none ∨ s.propositions = some (st.label.map Prod.fst))
    (hn : decimal st.num ∉ s.states.map Prod.fst) : stateLine (line1 st ++ ['\n']) s =
      some { s with propositions := some (st.label.map Prod.fst), states := s.states ++ [entry st], stateNo := some (decimal st.num) } := by
  have hP : '<' ∉ txt!"State " ++ decimal st.num ++ txt!" with rank " ++ decimal st.rank ++ txt!" -> " := by
    simp [decimal_not_mem st.num (d := '<') (by decide), decimal_not_mem st.rank (d := '<') (by decide)]
  have hL := label_not_mem h (d := '<') (.inl rfl)
  have e : line1 st ++ ['\n'] = (txt!"State " ++ decimal st.num ++ txt!" with rank " ++ decimal st.rank ++ txt!" -> ") ++ '<' :: (labelText st.label ++ txt!">\n") := by
    simp [line1]
  have hA : ∀ a ∈ txt!"State " ++ decimal st.num ++ txt!" with rank " ++ decimal st.rank ++ txt!" -> ", (decide (a ≠ '<')) = true := by
    intro a ha; simp only [ne_eq, decide_eq_true_eq]; rintro rfl; exact hP ha
  have htake : (line1 st ++ ['\n']).takeWhile (· ≠ '<') = txt!"State " ++ decimal st.num ++ txt!" with rank " ++ decimal st.rank ++ txt!" -> " := by
    rw [e, List.takeWhile_append_of_pos hA]; simp
  have hdrop : (line1 st ++ ['\n']).dropWhile (· ≠ '<') = '<' :: (labelText st.label ++ txt!">\n") := by
    rw [e, List.dropWhile_append_of_pos hA]; simp
  have hcount : (line1 st ++ ['\n']).count '<' = 1 := by
    rw [e, List.count_append, List.count_eq_zero_of_not_mem hP, List.count_cons_self, List.count_append, List.count_eq_zero_of_not_mem hL]
    rfl
  have hstrip : strip ('<' :: (labelText st.label ++ txt!">\n")) = '<' :: (labelText st.label ++ ['>']) := by
    have := strip_around (a := []) (s := '<' :: (labelText st.label ++ ['>'])) (b := ['\n']) (by simp) (by decide) (by simp; decide)
      (by
        intro c hc
        rw [← List.cons_append, List.getLast?_append] at hc
        simp only [List.getLast?_singleton, Option.some_or, Option.some.injEq] at hc
        subst hc
        decide) (by simp)
    simpa using this
  have hparts : (split [','] (labelText st.label)).map (fun a => split [':'] (strip a)) = st.label.map fun l => [l.1, bitText l.2] := by
    have hit : (split [','] (labelText st.label)).map strip = st.label.map itemText := by
      refine comma_items (by simpa using hne) ?_ ?_
      · intro b hb hc
        obtain ⟨l, hl, rfl⟩ := List.mem_map.mp hb
        exact (item_clean (h l hl) ',' hc).2.2 rfl
      · intro b hb
        obtain ⟨l, hl, rfl⟩ := List.mem_map.mp hb
        exact strip_clean fun c hc => (item_clean (h l hl) c hc).1
    have : (split [','] (labelText st.label)).map (fun a => split [':'] (strip a)) = ((split [','] (labelText st.label)).map strip).map (split [':']) := by
      rw [List.map_map]; rfl
    rw [this, hit, List.map_map]
    refine List.map_congr_left fun l hl => ?_
    rw [Function.comp_apply, itemText, List.append_assoc, List.singleton_append]
    exact split_one (fun hc => (h l hl ':' hc).2.2.2 rfl) (fun hc => (bitText_chars ':' hc).2.2.2.1 rfl)
  rw [stateLine, if_neg (by rw [hcount]; simp)]
  simp only [htake, hdrop, hstrip, split_line1]
  simp only [List.getElem?_cons_succ, List.getElem?_cons_zero]
  rw [if_pos ⟨rfl, by rw [← List.cons_append, List.getLast?_append]; rfl⟩]
  simp only [List.drop_succ_cons, List.drop_zero, List.dropLast_concat, hparts]
  rw [List.mapM_map]
  have hv : st.label.mapM ((fun x : List (List Char) => x[1]?) ∘ fun l => [l.1, bitText l.2]) = some (st.label.map fun l => bitText l.2) := mapM_some fun l _ => rfl
  rw [hv]
  have hhead : (st.label.map fun l => [l.1, bitText l.2]).map (fun x => x.headD []) = st.label.map Prod.fst := by
    rw [List.map_map]; rfl
  simp only [hhead]
  rw [if_pos hp, setItem_new hn]
  rfl

theorem decimals_chars {l : List Nat} {d : Char} (hd : isDigit d = false) (hc : d ≠ ',' ∧ d ≠ ' ') : d ∉ withCommas (l.map decimal) := by
  refine commas_not_mem hc fun a ha => ?_
  obtain ⟨n, _, rfl⟩ := List.mem_map.mp ha
  exact decimal_not_mem _ hd

theorem withCommas_last : ∀ (l : List Nat), l ≠ [] → ∀ c, (withCommas (l.map decimal)).getLast? = some c → pySpace c = false
  | [], h, _, _ => absurd rfl h
  | [n], _, c, hc => decimal_clean n c (List.mem_of_getLast? hc)
  | n :: m :: l, _, c, hc => by
    rw [List.map_cons, List.map_cons, withCommas, List.getLast?_append] at hc
    have ih := withCommas_last (m :: l) (by simp)
    rw [List.map_cons] at ih
    cases hg : (withCommas (decimal m :: l.map decimal)).getLast? with
    | some d =>
      rw [hg] at hc
      simp only [Option.some_or, Option.some.injEq] at hc
      subst hc
      exact ih d hg
    | none =>
      rw [List.getLast?_eq_none_iff] at hg
      exfalso
      cases l with
      | nil => exact decimal_ne_nil m (by simpa [withCommas] using hg)
      | cons k l => simp [withCommas] at hg

/-- The line with the successors: it is recognised if there are any. -/
theorem strip_line2 {st : PState} (h : st.succ ≠ []) : strip (line2 st ++ ['\n']) = txt!"With successors : " ++ withCommas (st.succ.map decimal) := by
  have := strip_around (a := ['\t']) (s := txt!"With successors : " ++ withCommas (st.succ.map decimal)) (b := ['\n']) (by decide) (by decide) (by simp; decide)
    (by
      intro c hc
      rw [List.getLast?_append] at hc
      cases hg : (withCommas (st.succ.map decimal)).getLast? with
      | some d =>
        rw [hg] at hc
        simp only [Option.some_or, Option.some.injEq] at hc
        subst hc
        exact withCommas_last _ h d hg
      | none =>
        rw [List.getLast?_eq_none_iff] at hg
        exfalso
        obtain ⟨n, l, e⟩ := List.exists_cons_of_ne_nil h
        rw [e] at hg
        cases l with
        | nil => exact decimal_ne_nil n (by simpa [withCommas] using hg)
        | cons k l => simp [withCommas] at hg) (by simp)
  simpa [line2] using this

theorem readLine_state {st : PState} (hne : st.label ≠ []) (h : ∀ l ∈ st.label, Readable l.1) (s : State) (hp : s.propositions = none ∨ s.propositions = some (st.label.map Prod.fst))
    (hn : decimal st.num ∉ s.states.map Prod.fst) : readLine s (line1 st ++ ['\n']) =
      some { s with propositions := some (st.label.map Prod.fst), states := s.states ++ [entry st], stateNo := some (decimal st.num) } := by
  have h1 : txt!"State".isPrefixOf (line1 st ++ ['\n']) = true := by
    rw [line1]; rfl
  have hstrip : ∃ t, strip (line1 st ++ ['\n']) = 'S' :: t := by
    have := strip_around (a := []) (s := line1 st) (b := ['\n']) (by simp) (by decide) (by simp [line1]; decide)
      (by
        intro c hc
        have e : line1 st = (txt!"State " ++ decimal st.num ++ txt!" with rank " ++ decimal st.rank ++ txt!" -> " ++ '<' :: labelText st.label) ++ ['>'] := by simp [line1]
        rw [e, List.getLast?_append] at hc
        simp only [List.getLast?_singleton, Option.some_or, Option.some.injEq] at hc
        subst hc
        decide) (by simp [line1])
    refine ⟨(line1 st).tail, ?_⟩
    rw [List.nil_append] at this
    rw [this, line1]
    rfl
  obtain ⟨t, ht⟩ := hstrip
  rw [readLine, if_pos h1, stateLine_eq hne h s hp hn]
  simp only
  rw [ht, if_neg (by simp [List.isPrefixOf])]

theorem readLine_succ {st : PState} (s : State) (hs : s.stateNo = some (decimal st.num)) (hn : decimal st.num ∉ s.transitions.map Prod.fst) :
    readLine s (line2 st ++ ['\n']) = some { s with transitions := s.transitions ++ if st.succ = [] then [] else [(decimal st.num, st.succ.map decimal)] } := by
  have h1 : txt!"State".isPrefixOf (line2 st ++ ['\n']) = false := by
    rw [line2]; rfl
  rw [readLine, if_neg (by rw [h1]; simp)]
  simp only
  by_cases he : st.succ = []
  · have e : strip (line2 st ++ ['\n']) = txt!"With successors :" := by rw [line2, he]; decide
    rw [e, if_neg (by decide), if_pos he, List.append_nil]
  · rw [strip_line2 he, if_pos (by rfl), if_neg he, successorsLine, hs]
    simp only
    rw [strip_line2 he]
    have hd : (txt!"With successors : " ++ withCommas (st.succ.map decimal)).drop 18 = withCommas (st.succ.map decimal) := by
      rw [List.drop_append_of_le_length (by decide)]; rfl
    rw [hd, comma_items (by simpa using he)]
    · rw [setItem_new hn]
    · intro b hb hc
      obtain ⟨n, _, rfl⟩ := List.mem_map.mp hb
      exact decimal_not_mem n (by decide) hc
    · intro b hb
      obtain ⟨n, _, rfl⟩ := List.mem_map.mp hb
      exact strip_clean (decimal_clean n)

/-- The transitions of the states with successors. -/
def transOf (sts : List PState) : List (List Char × List (List Char)) := (sts.filter fun st => !st.succ.isEmpty).map fun st => (decimal st.num, st.succ.map decimal)

theorem readlines_state (st : PState) (h : ∀ l ∈ st.label, Readable l.1) (rest : List Char) :
    readlines (stateText st ++ rest) = (line1 st ++ ['\n']) :: (line2 st ++ ['\n']) :: readlines rest := by
  have e : stateText st ++ rest = line1 st ++ '\n' :: (line2 st ++ '\n' :: rest) := by simp [stateText, line1, line2]
  have hnum : ∀ d, isDigit d = false → d ∉ decimal st.num ∧ d ∉ decimal st.rank := fun d hd => ⟨decimal_not_mem _ hd, decimal_not_mem _ hd⟩
  rw [e, readlines_line, readlines_line]
  · simp [line2, decimals_chars (l := st.succ) (d := '\n') (by decide) (by decide)]
  · simp [line2, decimals_chars (l := st.succ) (d := '\r') (by decide) (by decide)]
  · simp [line1, hnum '\n' (by decide), label_not_mem h (d := '\n') (by simp)]
  · simp [line1, hnum '\r' (by decide), label_not_mem h (d := '\r') (by simp)]

/-- Reading a strategy. -/
theorem read_states {names : List Word} (hne : names ≠ []) (hr : ∀ x ∈ names, Readable x) : ∀ (sts : List PState) (s : State), (∀ st ∈ sts, st.label.map Prod.fst = names) →
    (s.states.map Prod.fst ++ sts.map fun st => decimal st.num).Nodup → (∀ k ∈ s.transitions.map Prod.fst, k ∈ s.states.map Prod.fst) →
    (s.propositions = none ∨ s.propositions = some names) →
    ∃ s', (readlines (sts.map stateText).flatten).foldlM readLine s = some s' ∧ s'.states = s.states ++ sts.map entry ∧ s'.transitions = s.transitions ++ transOf sts ∧
      (s'.propositions = if sts = [] then s.propositions else some names)
  | [], s, _, _, _, _ => ⟨s, rfl, by simp, by simp [transOf], by simp⟩
  | st :: sts, s, hl, hn, ht, hp => by
    have hst := hl st (by simp)
    have hlab : st.label ≠ [] := by intro e; rw [e] at hst; exact hne hst.symm
    have hread : ∀ l ∈ st.label, Readable l.1 := fun l hm => hr l.1 (hst ▸ List.mem_map_of_mem hm)
    have hnew : decimal st.num ∉ s.states.map Prod.fst := fun hm => (List.nodup_append.mp hn).2.2 _ hm (decimal st.num) (by simp) rfl
    have r1 := readLine_state hlab hread s (by rw [hst]; exact hp) hnew
    set s1 : State := { s with propositions := some (st.label.map Prod.fst), states := s.states ++ [entry st], stateNo := some (decimal st.num) } with hs1
    have r2 := readLine_succ (st := st) s1 rfl (fun hm => hnew (ht _ hm))
    set s2 : State := { s1 with transitions := s1.transitions ++ if st.succ = [] then [] else [(decimal st.num, st.succ.map decimal)] } with hs2
    obtain ⟨s', k1, k2, k3, k4⟩ := read_states hne hr sts s2 (fun st hm => hl st (List.mem_cons_of_mem _ hm))
      (by
        have : s2.states.map Prod.fst = s.states.map Prod.fst ++ [decimal st.num] := by simp [s2, s1, entry]
        rw [this, List.append_assoc]
        exact hn)
      (by
        intro k hk
        have e1 : s2.states.map Prod.fst = s.states.map Prod.fst ++ [decimal st.num] := by simp [s2, s1, entry]
        rw [e1]
        have e2 : s2.transitions.map Prod.fst = s.transitions.map Prod.fst ++ if st.succ = [] then [] else [decimal st.num] := by
          simp only [s2, s1, List.map_append]
          split <;> rfl
        rw [e2] at hk
        rcases List.mem_append.mp hk with hk | hk
        · exact List.mem_append_left _ (ht k hk)
        · split at hk
          · cases hk
          · exact List.mem_append_right _ hk)
      (.inr (congrArg some hst))
    refine ⟨s', ?_, ?_, ?_, ?_⟩
    · rw [List.map_cons, List.flatten_cons, readlines_state st hread, List.foldlM_cons, r1, Option.bind_eq_bind, Option.bind_some, List.foldlM_cons, r2, Option.bind_eq_bind,
        Option.bind_some]
      exact k1
    · rw [k2]; simp [s2, s1]
    · rw [k3]
      simp only [s2, s1, transOf, List.filter_cons]
      by_cases he : st.succ = []
      · simp [he]
      · simp [he]
    · rw [k4]
      simp only [reduceCtorEq, if_false]
      split
      · exact congrArg some hst
      · rfl

theorem lookup_trans {sts : List PState} (hn : (sts.map PState.num).Nodup) {st : PState} (hst : st ∈ sts) :
    (transOf sts).lookup (decimal st.num) = if st.succ = [] then none else some (st.succ.map decimal) := by
  induction sts with
  | nil => cases hst
  | cons a l ih =>
    rw [List.map_cons, List.nodup_cons] at hn
    have hnone : ∀ (l : List PState), st.num ∉ l.map PState.num → (transOf l).lookup (decimal st.num) = none := by
      intro l
      induction l with
      | nil => intro _; rfl
      | cons b l ihl =>
        intro hb
        rw [List.map_cons, List.mem_cons, not_or] at hb
        by_cases he : b.succ = []
        · simp only [transOf, List.filter_cons, he, List.isEmpty_nil, Bool.not_true, Bool.false_eq_true, if_false]; exact ihl hb.2
        · have : transOf (b :: l) = (decimal b.num, b.succ.map decimal) :: transOf l := by simp [transOf, he]
          rw [this, List.lookup_cons, show (decimal st.num == decimal b.num) = false by simpa using fun h => hb.1 (decimal_inj h)]
          exact ihl hb.2
    rcases List.mem_cons.mp hst with rfl | hst
    · by_cases he : st.succ = []
      · rw [if_pos he]
        have : transOf (st :: l) = transOf l := by simp [transOf, he]
        rw [this]
        exact hnone l hn.1
      · have : transOf (st :: l) = (decimal st.num, st.succ.map decimal) :: transOf l := by simp [transOf, he]
        rw [this, List.lookup_cons, if_neg he]
        simp
    · have hne : st.num ≠ a.num := fun e => hn.1 (e ▸ List.mem_map_of_mem hst)
      by_cases he : a.succ = []
      · have : transOf (a :: l) = transOf l := by simp [transOf, he]
        rw [this]
        exact ih hn.2 hst
      · have : transOf (a :: l) = (decimal a.num, a.succ.map decimal) :: transOf l := by simp [transOf, he]
        rw [this, List.lookup_cons, show (decimal st.num == decimal a.num) = false by simpa using fun h => hne (decimal_inj h)]
        exact ih hn.2 hst

theorem mapM_none {α β : Type} {f : α → Option β} : ∀ {l : List α} {a : α}, a ∈ l → f a = none → l.mapM f = none
  | b :: l, a, h, ha => by
    rw [List.mapM_cons]
    rcases List.mem_cons.mp h with rfl | h
    · rw [ha]; rfl
    · cases f b with
      | none => rfl
      | some y => rw [mapM_none h ha]; rfl

theorem nodeText_entry (st : PState) : nodeText (entry st) = dotNode st := by
  have : (st.label.map fun l => bitText l.2).flatten = st.label.map fun l => if l.2 = true then '1' else '0' := by
    generalize st.label = label
    induction label with
    | nil => rfl
    | cons a l ih => rw [List.map_cons, List.flatten_cons, ih, List.map_cons]; cases a.2 <;> rfl
  simp only [nodeText, entry, dotNode, this]

/-- The graph of a strategy. -/
theorem graphviz_eq {names : List Word} (hne : names ≠ []) (hr : ∀ x ∈ names, Readable x) {sts : List PState} (hl : ∀ st ∈ sts, st.label.map Prod.fst = names)
    (hn : (sts.map PState.num).Nodup) : graphviz (sts.map stateText).flatten =
      if sts = [] then some dotEmpty else if ∃ st ∈ sts, st.succ = [] then none else some (dotGraph names sts) := by
  have hnd : (sts.map fun st => decimal st.num).Nodup := by
    have : (sts.map fun st => decimal st.num) = (sts.map PState.num).map decimal := by rw [List.map_map]; rfl
    rw [this]
    exact hn.map fun a b => decimal_inj
  obtain ⟨s, h1, h2, h3, h4⟩ := read_states hne hr sts {} hl (by simpa using hnd) (by simp) (.inl rfl)
  simp only [List.nil_append] at h2 h3
  rw [graphviz, h1]
  simp only [h2, h3, h4, List.map_eq_nil_iff]
  by_cases he : sts = []
  · rw [if_pos he, if_pos he]; rfl
  · rw [if_neg he, if_neg he, if_neg he]
    by_cases hd : ∃ st ∈ sts, st.succ = []
    · rw [if_pos hd]
      obtain ⟨st, hs, hsu⟩ := hd
      have : edgesText (transOf sts) (entry st) = none := by
        rw [edgesText, entry]
        simp only
        rw [lookup_trans hn hs, if_pos hsu]
        rfl
      rw [mapM_none (List.mem_map_of_mem hs) this]
    · rw [if_neg hd]
      have hm : (sts.map entry).mapM (edgesText (transOf sts)) = some (sts.map fun st => (st.succ.map (dotEdge st.num)).flatten) := by
        rw [List.mapM_map]
        refine mapM_some fun st hs => ?_
        have hsu : st.succ ≠ [] := fun e => hd ⟨st, hs, e⟩
        rw [Function.comp_apply, edgesText, entry]
        simp only
        rw [lookup_trans hn hs, if_neg hsu, Option.map_some, List.map_map]
        congr 2
      rw [hm]
      simp only [dotGraph, joinCommas_eq, List.map_map, Option.some.injEq]
      congr 2
      · congr 2
        refine List.map_congr_left fun st _ => nodeText_entry st
      · rw [List.flatMap_def, List.flatten_flatten, List.map_map]
        rfl

end Slugs.Model.Graphviz
