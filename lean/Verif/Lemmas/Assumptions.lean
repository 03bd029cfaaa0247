import Verif.Lemmas.AssumptionsHom
import Verif.Lemmas.Checked

/-! Lemmas about the analysis of assumptions: reading the file, and all findings. -/

namespace Slugs.Model

open Slugs.Spec Slugs.Props

/-! ### Reading -/

section read
variable {B : Type} [DecidableEq B] [L : BddLib B]

/-- A stored safety assumption means the formula. -/
def PartMeans (tab : VarTable) (b : B) (φ : Fml) : Prop :=
  (∀ x ∈ φ.vars, Declared tab (allowedIn .envTrans) x) ∧ ∀ a, φ.eval (nameVal tab a) [] = some (L.eval b a)

theorem PartMeans.declare {ds : Decls} {b : B} {φ : Fml} (h : PartMeans (tableOf ds) b φ) (d : Bool × Name) :
    PartMeans (tableOf (ds ++ [d])) b φ :=
  ⟨fun x hx => (declared_extend ds d (h.1 x hx)).1, fun a => by rw [← h.2 a, eval_extend d h.1 a]⟩

/-- The names of some items. -/
def nameAll (default : List Char) (l : List (Section × List Char)) : List (List Char) :=
  (l.zipIdx 1).map fun p => if p.1.2 = [] then default ++ Nat.toDigits 10 p.2 else p.1.2

theorem nameAll_snoc (default : List Char) (l : List (Section × List Char)) (s : Section) (n : List Char) :
    nameAll default (l ++ [(s, n)]) = nameAll default l ++ [partName default n (l.length + 1)] := by
  rw [nameAll, nameAll, List.zipIdx_append, List.map_append]
  congr 1
  simp only [List.zipIdx_cons, List.zipIdx_nil, List.map_cons, List.map_nil, partName]
  rw [Nat.add_comm]
  cases n <;> simp

theorem initLineParts_proj {cap : Nat} {order : List Char → Bool} {s s' : PartState B} {l : List Char}
    (h : initLineParts cap order s l = .ok s') : initLine cap order s.st l = .ok s'.st := by
  rw [initLineParts.eq_def] at h
  cases hl : initLine cap order s.st l with
  | err e => rw [hl] at h; cases h
  | ub => rw [hl] at h; cases h
  | stuck => rw [hl] at h; cases h
  | ok st =>
    rw [hl] at h
    simp only at h
    repeat' split at h
    all_goals first | (cases h; done) | (cases h; rfl)

theorem initLinesParts_proj {cap : Nat} {order : List Char → Bool} : ∀ (ls : List (List Char)) (s s' : PartState B),
    initLinesParts cap order s ls = .ok s' → initLines cap order s.st ls = .ok s'.st := by
  intro ls
  induction ls with
  | nil => intro s s' h; cases h; rfl
  | cons l ls ih =>
    intro s s' h
    rw [initLinesParts] at h
    cases hl : initLineParts cap order s (trim l) with
    | err e => rw [hl] at h; cases h
    | ub => rw [hl] at h; cases h
    | stuck => rw [hl] at h; cases h
    | ok s1 =>
      rw [hl] at h
      rw [initLines, initLineParts_proj hl]
      exact ih s1 s' h

/-- Lines that the other modes accept are accepted here as well. -/
theorem initLineParts_total {cap : Nat} {order : List Char → Bool} {s : PartState B} {l : List Char} {st : InitState B}
    (h : initLine cap order s.st l = .ok st) : ∃ s', initLineParts cap order s l = .ok s' := by
  rw [initLineParts.eq_def, h]
  simp only
  split
  · exact ⟨_, rfl⟩
  · cases l with
    | nil => exact ⟨_, rfl⟩
    | cons c l =>
      by_cases h1 : c = '#'
      · simp only [h1, if_true]; exact ⟨_, rfl⟩
      by_cases h2 : c = '['
      · simp only [h1, if_false, if_pos h2]; exact ⟨_, rfl⟩
      simp only [h1, h2, if_false]
      rw [initLine] at h
      simp only [h1, h2, if_false] at h
      cases hmode : s.st.mode with
      | none => exact ⟨_, rfl⟩
      | some sec =>
        rw [hmode] at h
        cases sec
        case envTrans =>
          simp only at h
          split at h
          · rename_i f hf; simp only [hf]; exact ⟨_, rfl⟩
          all_goals cases h
        all_goals exact ⟨_, rfl⟩

theorem initLinesParts_total {cap : Nat} {order : List Char → Bool} : ∀ (ls : List (List Char)) (s : PartState B) (st : InitState B),
    initLines cap order s.st ls = .ok st → ∃ s', initLinesParts cap order s ls = .ok s' := by
  intro ls
  induction ls with
  | nil => intro s st _; exact ⟨_, rfl⟩
  | cons l ls ih =>
    intro s st h
    rw [initLines] at h
    cases hl : initLine cap order s.st (trim l) with
    | err e => rw [hl] at h; cases h
    | ub => rw [hl] at h; cases h
    | stuck => rw [hl] at h; cases h
    | ok st1 =>
      rw [hl] at h
      obtain ⟨s1, h1⟩ := initLineParts_total hl
      rw [initLinesParts, h1]
      have := initLineParts_proj h1
      rw [hl] at this
      cases this
      exact ih s1 st h

/-- What has been read so far: the items with their names, the formulas of the safety assumptions, and the number of liveness assumptions. -/
structure PartsInv (s : PartState B) (named : List (Section × List Char)) (items : List (Section × List Char)) (fs : List Fml) : Prop where
  reads : List.Forall₂ ReadsLine (itemsOf .envTrans items) fs
  means : List.Forall₂ (PartMeans s.st.table) s.parts fs
  safetyNames : s.safetyNames = nameAll txt!"Safety Assumption " (named.filter fun p => p.1 = .envTrans)
  livenessNames : s.livenessNames = nameAll txt!"Liveness Assumption " (named.filter fun p => p.1 = .envLiveness)
  safetyLength : s.parts.length = (named.filter fun p => p.1 = .envTrans).length
  livenessLength : s.st.ctx.livenessAssumptions.length = (named.filter fun p => p.1 = .envLiveness).length
  livenessItems : s.st.ctx.livenessAssumptions.length = (itemsOf .envLiveness items).length

/-- What one line does. -/
theorem initLineParts_step {cap : Nat} {order : List Char → Bool} {s s' : PartState B} {l : List Char} (h : initLineParts cap order s l = .ok s')
    {ds : Decls} {named items : List (Section × List Char)} {fs : List Fml} (ht : s.st.table = tableOf ds) (hi : PartsInv s named items fs) :
    (∃ ds', s'.st.table = tableOf ds') ∧
    ((l.take 2 = ['#', '#'] → s'.st.mode = s.st.mode ∧ s'.current = trim (l.drop 2) ∧ PartsInv s' named items fs) ∧
    (l.take 2 ≠ ['#', '#'] → l = [] ∨ l.head? = some '#' → s'.st.mode = s.st.mode ∧ s'.current = s.current ∧ PartsInv s' named items fs) ∧
    (l.head? = some '[' → ∃ sec, headerOf l = some sec ∧ s'.st.mode = some sec ∧ s'.current = s.current ∧ PartsInv s' named items fs) ∧
    (l ≠ [] → l.head? ≠ some '#' → l.head? ≠ some '[' → ∃ sec, s.st.mode = some sec ∧ s'.st.mode = some sec ∧ s'.current = [] ∧
      ∃ new, PartsInv s' (named ++ [(sec, s.current)]) (items ++ [(sec, l)]) (fs ++ new))) := by
  have hp := initLineParts_proj h
  cases l with
  | nil =>
    rw [initLineParts] at h
    simp only [initLine] at h
    cases h
    exact ⟨⟨ds, ht⟩, fun h => (by simp at h), fun _ _ => ⟨rfl, rfl, hi⟩, fun h => (by simp at h), fun h => absurd rfl h⟩
  | cons c l =>
    by_cases h1 : c = '#'
    · subst h1
      rw [initLineParts, initLine_skip _ (.inr rfl)] at h
      simp only [if_true] at h
      split at h
      · rename_i h2
        cases h
        exact ⟨⟨ds, ht⟩, fun _ => ⟨rfl, rfl, ⟨hi.1, hi.2, hi.3, hi.4, hi.5, hi.6, hi.7⟩⟩, fun h => absurd h2 h, fun h => (by simp at h),
          fun _ h => absurd rfl h⟩
      · rename_i h2
        cases h
        exact ⟨⟨ds, ht⟩, fun h => absurd h h2, fun _ _ => ⟨rfl, rfl, ⟨hi.1, hi.2, hi.3, hi.4, hi.5, hi.6, hi.7⟩⟩, fun h => (by simp at h),
          fun _ h => absurd rfl h⟩
    have hh0 : (c :: l).take 2 ≠ ['#', '#'] := by simp [h1]
    have hh1 : (c :: l).head? ≠ some '#' := by simpa using h1
    by_cases h2 : c = '['
    · subst h2
      rw [initLineParts.eq_def, hp] at h
      simp only [hh0, Char.reduceEq, if_false, if_true] at h
      rw [initLine] at hp
      simp only [Char.reduceEq, if_false, if_true] at hp
      cases hs : sectionOf ('[' :: l) with
      | none => rw [hs] at hp; cases hp
      | some m =>
        rw [hs] at hp
        simp only [Res.ok.injEq] at hp h
        rw [← h]
        refine ⟨⟨ds, by rw [← hp]; exact ht⟩, fun h => absurd h hh0, fun _ h => (by simp at h), fun _ => ?_, fun _ _ h => absurd rfl h⟩
        rw [sectionOf_eq_headerOf, hs]
        refine ⟨m, rfl, by rw [← hp], rfl, ?_⟩
        rw [← hp]
        exact ⟨hi.1, hi.2, hi.3, hi.4, hi.5, hi.6, hi.7⟩
    · have hh2 : (c :: l).head? ≠ some '[' := by simpa using h2
      suffices hsuff : ∃ ds', s'.st.table = tableOf ds' ∧ ∃ sec, s.st.mode = some sec ∧ s'.st.mode = some sec ∧ s'.current = [] ∧
          ∃ new, PartsInv s' (named ++ [(sec, s.current)]) (items ++ [(sec, c :: l)]) (fs ++ new) by
        obtain ⟨ds', h3, h4⟩ := hsuff
        exact ⟨⟨ds', h3⟩, fun h => absurd h hh0, fun _ h => absurd h (by simp [h1]), fun h => absurd h hh2, fun _ _ _ => h4⟩
      cases hmode : s.st.mode with
      | none =>
        rw [initLine] at hp
        simp only [h1, h2, if_false, hmode] at hp
        cases hp
      | some sec =>
        have hmode' := (initLine_item (cap := cap) (order := order) s.st hmode (by simp) hh1 hh2).2 _ hp
        rw [hmode] at hmode'
        rw [initLineParts.eq_def, hp] at h
        simp only [hh0, h1, h2, if_false, hmode] at h
        rw [initLine] at hp
        simp only [h1, h2, if_false, hmode] at hp
        -- an item of another section
        have other : ∀ (st : InitState B), sec ≠ .envTrans → sec ≠ .envLiveness →
            st.ctx.livenessAssumptions.length = s.st.ctx.livenessAssumptions.length → List.Forall₂ (PartMeans st.table) s.parts fs →
            PartsInv { s with st := st, current := [] } (named ++ [(sec, s.current)]) (items ++ [(sec, c :: l)]) (fs ++ []) := by
          intro st n1 n2 hl hm
          rw [List.append_nil]
          refine ⟨?_, hm, ?_, ?_, ?_, ?_, ?_⟩
          · rw [itemsOf_append, show itemsOf .envTrans [(sec, c :: l)] = [] by simp [itemsOf, n1], List.append_nil]; exact hi.reads
          · rw [List.filter_append, show List.filter (fun p : Section × List Char => decide (p.1 = .envTrans)) [(sec, s.current)] = [] by simp [n1],
              List.append_nil]; exact hi.safetyNames
          · rw [List.filter_append, show List.filter (fun p : Section × List Char => decide (p.1 = .envLiveness)) [(sec, s.current)] = [] by simp [n2],
              List.append_nil]; exact hi.livenessNames
          · rw [List.filter_append, show List.filter (fun p : Section × List Char => decide (p.1 = .envTrans)) [(sec, s.current)] = [] by simp [n1],
              List.append_nil]; exact hi.safetyLength
          · rw [List.filter_append, show List.filter (fun p : Section × List Char => decide (p.1 = .envLiveness)) [(sec, s.current)] = [] by simp [n2],
              List.append_nil]; exact hl.trans hi.livenessLength
          · rw [itemsOf_append, show itemsOf .envLiveness [(sec, c :: l)] = [] by simp [itemsOf, n2], List.append_nil]
            exact hl.trans hi.livenessItems
        have hmean : ∀ d, List.Forall₂ (PartMeans (tableOf (ds ++ [d]))) s.parts fs := fun d =>
          (ht ▸ hi.means : List.Forall₂ (PartMeans (tableOf ds)) s.parts fs).imp fun _ _ hb => hb.declare d
        cases sec
        case input =>
          simp only at h hp
          simp only [Res.ok.injEq] at h hp
          rw [← h]
          simp only
          rw [← hp, ht, ← tableOf_snoc_input]
          exact ⟨_, rfl, .input, by trivial, by trivial, by trivial, [], other _ (by decide) (by decide) rfl (hmean _)⟩
        case output =>
          simp only at h hp
          simp only [Res.ok.injEq] at h hp
          rw [← h]
          simp only
          rw [← hp, ht, ← tableOf_snoc_output]
          exact ⟨_, rfl, .output, by trivial, by trivial, by trivial, [], other _ (by decide) (by decide) rfl (hmean _)⟩
        case envTrans =>
          simp only at h hp
          cases hf : parseFormula (B := B) s.st.table (allowedIn .envTrans) cap order (c :: l) with
          | err e => rw [hf] at h; cases h
          | ub => rw [hf] at h; cases h
          | stuck => rw [hf] at h; cases h
          | ok r =>
            cases r with
            | none => rw [hf] at h; cases h
            | some f =>
              rw [hf] at h hp
              simp only [Res.ok.injEq] at h hp
              obtain ⟨φ, hr, hd, he⟩ := parseFormula_sound hf
              rw [← h]
              simp only
              rw [← hp]
              refine ⟨ds, ht, .envTrans, by trivial, by trivial, by trivial, [φ], ?_, ?_, ?_, ?_, ?_, ?_, ?_⟩
              · rw [itemsOf_append]; exact List.rel_append hi.reads (.cons hr .nil)
              · exact List.rel_append hi.means (.cons ⟨hd, he⟩ .nil)
              · rw [List.filter_append, show List.filter (fun p : Section × List Char => decide (p.1 = .envTrans)) [(Section.envTrans, s.current)] =
                  [(.envTrans, s.current)] from rfl, nameAll_snoc, ← hi.safetyNames, ← hi.safetyLength]
              · rw [List.filter_append, show List.filter (fun p : Section × List Char => decide (p.1 = .envLiveness)) [(Section.envTrans, s.current)] = []
                  from rfl, List.append_nil]; exact hi.livenessNames
              · rw [List.filter_append, List.length_append, List.length_append, hi.safetyLength]; rfl
              · rw [List.filter_append, show List.filter (fun p : Section × List Char => decide (p.1 = .envLiveness)) [(Section.envTrans, s.current)] = []
                  from rfl, List.append_nil]; exact hi.livenessLength
              · rw [itemsOf_append, show itemsOf .envLiveness [(Section.envTrans, c :: l)] = [] from rfl, List.append_nil]; exact hi.livenessItems
        case envLiveness =>
          simp only at h hp
          cases hf : parseFormula (B := B) s.st.table (allowedIn .envLiveness) cap order (c :: l) with
          | err e => rw [hf] at hp; cases hp
          | ub => rw [hf] at hp; cases hp
          | stuck => rw [hf] at hp; cases hp
          | ok r =>
            cases r with
            | none => rw [hf] at hp; cases hp
            | some f =>
              rw [hf] at hp
              simp only [Res.ok.injEq] at h hp
              rw [← h]
              simp only
              rw [← hp]
              refine ⟨ds, ht, .envLiveness, by trivial, by trivial, by trivial, [], ?_, ?_, ?_, ?_, ?_, ?_, ?_⟩
              · rw [itemsOf_append, show itemsOf .envTrans [(Section.envLiveness, c :: l)] = [] from rfl, List.append_nil, List.append_nil]
                exact hi.reads
              · rw [List.append_nil]; exact hi.means
              · rw [List.filter_append, show List.filter (fun p : Section × List Char => decide (p.1 = .envTrans)) [(Section.envLiveness, s.current)] = []
                  from rfl, List.append_nil]; exact hi.safetyNames
              · rw [List.filter_append, show List.filter (fun p : Section × List Char => decide (p.1 = .envLiveness)) [(Section.envLiveness, s.current)] =
                  [(.envLiveness, s.current)] from rfl, nameAll_snoc, ← hi.livenessNames, ← hi.livenessLength]
                simp [addConstraint]
              · rw [List.filter_append, show List.filter (fun p : Section × List Char => decide (p.1 = .envTrans)) [(Section.envLiveness, s.current)] = []
                  from rfl, List.append_nil]; exact hi.safetyLength
              · rw [List.filter_append, List.length_append, ← hi.livenessLength]; simp [addConstraint]
              · rw [itemsOf_append, List.length_append, ← hi.livenessItems]; simp [addConstraint, itemsOf]
        all_goals
          simp only at h hp
          split at hp
          · simp only [Res.ok.injEq] at h hp
            rw [← h]
            simp only
            rw [← hp]
            exact ⟨ds, ht, _, by trivial, by trivial, by trivial, [], other _ (by decide) (by decide) rfl hi.means⟩
          all_goals cases hp

/-- What the lines do. -/
theorem initLinesParts_inv {cap : Nat} {order : List Char → Bool} : ∀ (ls : List (List Char)) (s s' : PartState B) (ds : Decls)
    (named items : List (Section × List Char)) (fs : List Fml), s.st.table = tableOf ds → PartsInv s named items fs →
    initLinesParts cap order s ls = .ok s' →
    ∃ items' fs', Content s.st.mode ls items' ∧ PartsInv s' (named ++ namedItems s.st.mode s.current ls) (items ++ items') (fs ++ fs') := by
  intro ls
  induction ls with
  | nil =>
    intro s s' ds named items fs ht hi h
    cases h
    exact ⟨[], [], .nil, by simpa [namedItems] using hi⟩
  | cons l ls ih =>
    intro s s' ds named items fs ht hi h
    rw [initLinesParts] at h
    cases hl : initLineParts cap order s (trim l) with
    | err e => rw [hl] at h; cases h
    | ub => rw [hl] at h; cases h
    | stuck => rw [hl] at h; cases h
    | ok s1 =>
      rw [hl] at h
      obtain ⟨⟨ds', hds⟩, c1, c2, c3, c4⟩ := initLineParts_step hl ht hi
      rw [namedItems]
      by_cases h1 : (trim l).take 2 = ['#', '#']
      · rw [if_pos h1]
        obtain ⟨e1, e2, e3⟩ := c1 h1
        obtain ⟨items', fs', hc, hinv⟩ := ih s1 s' ds' named items fs hds e3 h
        rw [e1, e2] at hinv
        rw [e1] at hc
        refine ⟨items', fs', .skip (.inr ?_) hc, hinv⟩
        cases ht : trim l with
        | nil => rw [ht] at h1; simp at h1
        | cons c t => rw [ht] at h1; simp at h1; simp [h1.1]
      rw [if_neg h1]
      by_cases h2 : trim l = [] ∨ (trim l).head? = some '#'
      · rw [if_pos h2]
        obtain ⟨e1, e2, e3⟩ := c2 h1 h2
        obtain ⟨items', fs', hc, hinv⟩ := ih s1 s' ds' named items fs hds e3 h
        rw [e1, e2] at hinv
        rw [e1] at hc
        exact ⟨items', fs', .skip h2 hc, hinv⟩
      rw [if_neg h2]
      push Not at h2
      by_cases h3 : (trim l).head? = some '['
      · rw [if_pos h3]
        obtain ⟨sec, e0, e1, e2, e3⟩ := c3 h3
        obtain ⟨items', fs', hc, hinv⟩ := ih s1 s' ds' named items fs hds e3 h
        rw [e1, e2] at hinv
        rw [e1] at hc
        refine ⟨items', fs', .header sec ?_ hc, by rw [e0]; exact hinv⟩
        rw [sectionOf_eq_headerOf] at e0
        exact sectionOf_iff.mp e0
      rw [if_neg h3]
      obtain ⟨sec, e0, e1, e2, new, e3⟩ := c4 h2.1 h2.2 h3
      obtain ⟨items', fs', hc, hinv⟩ := ih s1 s' ds' _ _ _ hds e3 h
      rw [e1, e2] at hinv
      rw [e1] at hc
      rw [e0]
      refine ⟨(sec, trim l) :: items', new ++ fs', .item h2.1 h2.2 h3 hc, ?_⟩
      simpa [List.append_assoc] using hinv

/-- Everything about an accepted file. -/
theorem initContextParts_spec {cap : Nat} {order : List Char → Bool} {text : List Char} {ld : Loaded B}
    (h : initContextParts cap order text = .ok ld) :
    initContext cap order text = .ok (ld.table, ld.ctx) ∧
    ∃ (ds : Decls) (F : Section → List Fml) (hn : (tableOf ds).names.Nodup),
      ld.table = tableOf ds ∧ Denotes text (specOf ds F) ∧
      ld.ctx = (gameCtx (padGame (specOf ds F).game)).map ((tableLayout ds hn).enc B) ∧
      ld.parts = (((specOf ds F).envTrans.map fun φ (s t : Pos (specOf ds F).In (specOf ds F).Out) =>
        (specOf ds F).holds s (t.1, fun _ => false) φ)).map ((tableLayout ds hn).enc B) ∧
      ld.safetyNames = namesIn .envTrans txt!"Safety Assumption " text ∧
      ld.livenessNames = (if (specOf ds F).envLiveness = [] then [txt!"Automatically added TRUE liveness assumption"]
        else namesIn .envLiveness txt!"Liveness Assumption " text) ∧
      ld.safetyNames.length = ld.parts.length ∧ ld.livenessNames.length = ld.ctx.livenessAssumptions.length := by
  rw [initContextParts] at h
  cases hl : initLinesParts (B := B) cap order { st := initStart, parts := [], safetyNames := [], livenessNames := [], current := [] }
      (splitLines text) with
  | err e => rw [hl] at h; cases h
  | ub => rw [hl] at h; cases h
  | stuck => rw [hl] at h; cases h
  | ok s =>
    rw [hl] at h
    simp only at h
    split at h
    · rename_i hnd
      simp only [Res.ok.injEq] at h
      have hi : initContext (B := B) cap order text = .ok (ld.table, ld.ctx) := by
        rw [initContext, initLinesParts_proj _ _ _ hl]
        simp only
        rw [if_pos hnd, ← h]
      refine ⟨hi, ?_⟩
      obtain ⟨ds, F, hn, e1, e2, _, _, _, e6⟩ := initContext_spec hi
      obtain ⟨items, fs, hc, hinv⟩ := initLinesParts_inv (splitLines text) _ _ [] [] [] [] rfl
        ⟨.nil, .nil, rfl, rfl, rfl, rfl, rfl⟩ hl
      simp only [List.nil_append] at hinv
      have e2' := e2
      obtain ⟨items', hc', _, _, _, _, r5, _, r7, _⟩ := e2'
      obtain rfl := Content.det hc hc'
      have hfs : fs = (specOf ds F).envTrans := @forall₂_unique _ _ ReadsLine (fun _ _ _ => ReadsLine.det) _ _ _ hinv.reads r5
      subst hfs
      have htab : s.st.table = tableOf ds := by rw [← e1, ← h]
      have hlive : s.st.ctx.livenessAssumptions = [] ↔ (specOf ds F).envLiveness = [] := by
        rw [← List.length_eq_zero_iff, ← List.length_eq_zero_iff, hinv.livenessItems, r7.length_eq]
      have hlen : s.livenessNames.length = s.st.ctx.livenessAssumptions.length := by
        rw [hinv.livenessNames, hinv.livenessLength, nameAll]; simp
      refine ⟨ds, F, hn, e1, e2, e6, ?_, ?_, ?_, ?_, ?_⟩
      · rw [← h]
        simp only
        have hm := hinv.means
        rw [htab] at hm
        have key : ∀ (l : List B) (l' : List Fml), List.Forall₂ (PartMeans (tableOf ds)) l l' →
            l = (l'.map fun φ (s t : Pos (specOf ds F).In (specOf ds F).Out) =>
              (specOf ds F).holds s (t.1, fun _ => false) φ).map ((tableLayout ds hn).enc B) := by
          intro l l' hll
          induction hll with
          | nil => rfl
          | @cons b φ l l' hb _ ih =>
            refine congrArg₂ List.cons ?_ ih
            refine (tableLayout ds hn).eq_enc B fun a => ?_
            have := hb.2 a
            rw [eval_slots F hn hb.1 a (curPos ((tableLayout ds hn).get a)) ((nxtPos ((tableLayout ds hn).get a)).1, fun _ => false)] at this
            · show L.eval b a = true ↔ Fml.eval ((specOf ds F).look (curPos ((tableLayout ds hn).get a))
                ((nxtPos ((tableLayout ds hn).get a)).1, fun _ => false)) [] φ = some true
              rw [this]; simp
            · rintro (z | z | z | z) hz <;> simp [slotEntry, allowedIn] at hz <;> rfl
        exact key _ _ hm
      · rw [← h]; exact hinv.safetyNames
      · rw [← h]
        simp only
        by_cases hz : s.st.ctx.livenessAssumptions = []
        · rw [if_pos hz, if_pos (hlive.mp hz)]
          have : s.livenessNames = [] := by rw [← List.length_eq_zero_iff, hlen, hz]; rfl
          rw [this]; rfl
        · rw [if_neg hz, if_neg (fun e => hz (hlive.mpr e))]
          exact hinv.livenessNames
      · rw [← h]
        simp only
        rw [hinv.safetyNames, hinv.safetyLength, nameAll]
        simp
      · rw [← h]
        simp only
        by_cases hz : s.st.ctx.livenessAssumptions = []
        · rw [if_pos hz, if_pos hz, List.length_append, hlen, hz]; rfl
        · rw [if_neg hz, if_neg hz, hlen]
    · cases h

/-- A file is accepted here if and only if the other modes accept it. -/
theorem initContextParts_total {cap : Nat} {order : List Char → Bool} {text : List Char} {tab : VarTable} {c : Ctx B}
    (h : initContext cap order text = .ok (tab, c)) : ∃ ld, initContextParts (B := B) cap order text = .ok ld := by
  rw [initContext] at h
  cases hl : initLines (B := B) cap order initStart (splitLines text) with
  | err e => rw [hl] at h; cases h
  | ub => rw [hl] at h; cases h
  | stuck => rw [hl] at h; cases h
  | ok st =>
    rw [hl] at h
    simp only at h
    split at h
    · rename_i hnd
      obtain ⟨s', hs'⟩ := initLinesParts_total (splitLines text)
        { st := initStart, parts := [], safetyNames := [], livenessNames := [], current := [] } st hl
      have := initLinesParts_proj _ _ _ hs'
      rw [hl] at this
      cases this
      rw [initContextParts, hs']
      simp only
      rw [if_pos hnd]
      exact ⟨_, rfl⟩
    · cases h

end read

/-! ### Findings -/

section sem
variable {I O : Type}

theorem foldl_skip_none {α β : Type} (f : β → α → β) (i : Nat) : ∀ (l : List α) (n : Nat) (b : β), i < n →
    (l.zipIdx n).foldl (fun acc p => if i ≠ p.2 then f acc p.1 else acc) b = l.foldl f b := by
  intro l
  induction l with
  | nil => intro n b _; rfl
  | cons a l ih =>
    intro n b h
    rw [List.zipIdx_cons, List.foldl_cons, List.foldl_cons, if_pos (by simp only; omega), ih _ _ (by omega)]

theorem foldl_skip {α β : Type} (f : β → α → β) : ∀ (l : List α) (i n : Nat) (b : β),
    (l.zipIdx n).foldl (fun acc p => if n + i ≠ p.2 then f acc p.1 else acc) b = (l.eraseIdx i).foldl f b := by
  intro l
  induction l with
  | nil => intro i n b; rfl
  | cons a l ih =>
    intro i n b
    rw [List.zipIdx_cons, List.foldl_cons]
    cases i with
    | zero =>
      rw [if_neg (by simp), List.eraseIdx_cons_zero]
      exact foldl_skip_none f _ l (n + 1) b (by omega)
    | succ i =>
      rw [if_pos (by simp), List.eraseIdx_cons_succ, List.foldl_cons, ← ih i (n + 1)]
      simp only [Nat.add_right_comm n 1 i]
      rfl

theorem filterMap_skip_none {α : Type} (i : Nat) : ∀ (l : List α) (n : Nat), i < n →
    (l.zipIdx n).filterMap (fun p => if i ≠ p.2 then some p.1 else none) = l := by
  intro l
  induction l with
  | nil => intro n _; rfl
  | cons a l ih =>
    intro n h
    rw [List.zipIdx_cons, List.filterMap_cons, if_pos (by simp only; omega)]
    simp only
    rw [ih _ (by omega)]

theorem filterMap_skip {α : Type} : ∀ (l : List α) (i n : Nat),
    (l.zipIdx n).filterMap (fun p => if n + i ≠ p.2 then some p.1 else none) = l.eraseIdx i := by
  intro l
  induction l with
  | nil => intro i n; rfl
  | cons a l ih =>
    intro i n
    rw [List.zipIdx_cons, List.filterMap_cons]
    cases i with
    | zero =>
      rw [if_neg (by simp), List.eraseIdx_cons_zero]
      exact filterMap_skip_none _ l (n + 1) (by omega)
    | succ i =>
      rw [if_pos (by simp), List.eraseIdx_cons_succ, ← ih i (n + 1)]
      simp only [Nat.add_right_comm n 1 i]
      rfl

theorem livenessWithout_eq {α : Type} (l : List α) (i : Nat) : livenessWithout l i = l.eraseIdx i := by
  have := filterMap_skip l i 0
  simp only [Nat.zero_add] at this
  exact this

theorem foldl_and (l : List (T I O)) (b : T I O) :
    l.foldl (semMgr I O).and b = fun s t => b s t ∧ ∀ p ∈ l, p s t := by
  induction l generalizing b with
  | nil => funext s t; simp
  | cons a l ih =>
    rw [List.foldl_cons, ih]
    funext s t
    simp [semMgr, and_assoc]

theorem safetyWithout_eq (ps : List (T I O)) (i : Nat) :
    safetyWithout (semMgr I O) ps i = fun s t => ∀ p ∈ ps.eraseIdx i, p s t := by
  have := foldl_skip (semMgr I O).and ps i 0 (semMgr I O).tt
  simp only [Nat.zero_add] at this
  rw [safetyWithout, this, foldl_and]
  funext s t
  simp [semMgr]

theorem mapM_some {α β : Type} {P : α → β → Prop} {f : α → Option β} : ∀ (l : List α), (∀ a ∈ l, ∃ b, f a = some b ∧ P a b) →
    ∃ bs, l.mapM f = some bs ∧ List.Forall₂ P l bs := by
  intro l
  induction l with
  | nil => intro _; exact ⟨[], rfl, .nil⟩
  | cons a l ih =>
    intro h
    obtain ⟨b, hb, hp⟩ := h a (by simp)
    obtain ⟨bs, h1, h2⟩ := ih fun x hx => h x (by simp [hx])
    exact ⟨b :: bs, by rw [List.mapM_cons, hb, h1]; rfl, .cons hp h2⟩

/-- What a finding says, in terms of fixpoints. -/
def FoundSem (g g' : Game I O) (red : Prop) : Finding → Prop
  | .crucial => ¬ ∀ i, g.initEnv i → ∃ o, g.initSys (i, o) ∧ (i, o) ∈ nuZ g'
  | .morePositions b => (∀ i, g.initEnv i → ∃ o, g.initSys (i, o) ∧ (i, o) ∈ nuZ g') ∧ (∃ s, s ∈ nuZ g ∧ s ∉ nuZ g') ∧
      (b = true ↔ ∃ s : Pos I O, g.initEnv s.1 ∧ s ∈ nuZ g ∧ s ∉ nuZ g')
  | .redundant => (∀ i, g.initEnv i → ∃ o, g.initSys (i, o) ∧ (i, o) ∈ nuZ g') ∧ nuZ g = nuZ g' ∧ red
  | .superfluous => (∀ i, g.initEnv i → ∃ o, g.initSys (i, o) ∧ (i, o) ∈ nuZ g') ∧ nuZ g = nuZ g' ∧ ¬ red ∧
      ∀ G ∈ g.guarantees, ∀ k, approx g G (nuZ g) k = approx g' G (nuZ g') k
  | .easier needs => (∀ i, g.initEnv i → ∃ o, g.initSys (i, o) ∧ (i, o) ∈ nuZ g') ∧ nuZ g = nuZ g' ∧ ¬ red ∧ needs ≠ [] ∧
      (needs.map Prod.fst).Pairwise (· < ·) ∧ ∀ j, j ∈ needs.map Prod.fst ↔
        ∃ G, g.guarantees[j]? = some G ∧ ∃ k, approx g G (nuZ g) k ≠ approx g' G (nuZ g') k

theorem found_sem [Nonempty I] [Nonempty O] {g g' : Game I O} (hh : Harder g g') {D D' : List (List (T I O))}
    (h : List.Forall₂ (fun G d => DistOf g G (nuZ g) d) g.guarantees D) (h' : List.Forall₂ (fun G d => DistOf g' G (nuZ g') d) g'.guarantees D')
    (R : T I O) (red red' : Prop) [Decidable red] (hr : red ↔ red') :
    FoundSem g g' red' (finding (semMgr I O) (gameCtx g) (pre (nuZ g)) D R red (pre (nuZ g')) D') := by
  rcases finding_sem hh h h' R red with ⟨e, h1⟩ | ⟨h0, ⟨b, e, h1⟩ | ⟨h1, ⟨e, h2⟩ | ⟨h2, ⟨e, h3⟩ | ⟨needs, e, h3⟩⟩⟩⟩
  · rw [e]; exact h1
  · rw [e]; exact ⟨h0, h1⟩
  · rw [e]; exact ⟨h0, h1, hr.mp h2⟩
  · rw [e]; exact ⟨h0, h1, fun h => h2 (hr.mpr h), h3⟩
  · rw [e]; exact ⟨h0, h1, fun h => h2 (hr.mpr h), h3⟩

/-- The game without the `i`-th part of the safety assumptions. -/
def withoutSafety (g : Game I O) (ps : List (Pos I O → I → Prop)) (i : Nat) : Game I O :=
  { g with safetyEnv := fun s x => ∀ p ∈ ps.eraseIdx i, p s x }

/-- The game without the `i`-th liveness assumption and without safety assumptions. -/
def withoutLiveness (g : Game I O) (i : Nat) : Game I O :=
  { g with safetyEnv := fun _ _ => True, assumptions := g.assumptions.eraseIdx i }

theorem analyzeAssumptions_eq [Finite I] [Finite O] [Nonempty I] [Nonempty O] (g : Game I O) (ps : List (Pos I O → I → Prop))
    (hps : ∀ s x, g.safetyEnv s x ↔ ∀ p ∈ ps, p s x) (fuel : Nat) (hf : Nat.card (Pos I O) < fuel) :
    (analyzeAssumptions (semMgr I O) (gameCtx g) (ps.map fun p s t => p s t.1) fuel = some .unrealizable ∧
      ¬ ∀ i, g.initEnv i → ∃ o, g.initSys (i, o) ∧ (i, o) ∈ nuZ g) ∨
    ((∀ i, g.initEnv i → ∃ o, g.initSys (i, o) ∧ (i, o) ∈ nuZ g) ∧
      ∃ S L, analyzeAssumptions (semMgr I O) (gameCtx g) (ps.map fun p s t => p s t.1) fuel = some (.findings S L) ∧
        List.Forall₂ (fun i f => FoundSem g (withoutSafety g ps i) (∀ s x, (withoutSafety g ps i).safetyEnv s x → g.safetyEnv s x) f)
          (List.range ps.length) S ∧
        List.Forall₂ (fun i f => FoundSem g (withoutLiveness g i) False f) (List.range g.assumptions.length) L) := by
  obtain ⟨D, St, hD, hdist⟩ := reactiveDistances_eq g fuel hf
  rw [analyzeAssumptions, hD]
  simp only
  by_cases hp : passes (semMgr I O) (gameCtx g) (pre (nuZ g))
  swap
  · rw [if_neg hp]
    exact .inl ⟨rfl, fun hq => hp ((passes_iff g _).mpr hq)⟩
  rw [if_pos hp]
  refine .inr ⟨(passes_iff g _).mp hp, ?_⟩
  obtain ⟨R, hR⟩ := reachableInGeneral_eq g fuel hf St
  rw [hR]
  simp only
  have hT : ∀ i, safetyWithout (semMgr I O) (ps.map fun p (s t : Pos I O) => p s t.1) i =
      fun s t => (withoutSafety g ps i).safetyEnv s t.1 := by
    intro i
    rw [safetyWithout_eq, List.eraseIdx_map]
    funext s t
    simp [withoutSafety]
  obtain ⟨S, hS, hS2⟩ := mapM_some (P := fun i f => FoundSem g (withoutSafety g ps i)
      (∀ s x, (withoutSafety g ps i).safetyEnv s x → g.safetyEnv s x) f)
    (f := fun i => (reactiveDistances (semMgr I O)
        { gameCtx g with safetyEnv := safetyWithout (semMgr I O) (ps.map fun p (s t : Pos I O) => p s t.1) i } fuel).map fun r =>
        finding (semMgr I O) (gameCtx g) (pre (nuZ g)) D R
          ((gameCtx g).safetyEnv = safetyWithout (semMgr I O) (ps.map fun p (s t : Pos I O) => p s t.1) i) r.1 r.2.1)
    (List.range ps.length) (by
      intro i _
      obtain ⟨D', St', hD', hdist'⟩ := reactiveDistances_eq (withoutSafety g ps i) fuel hf
      have hc : ({ gameCtx g with safetyEnv := safetyWithout (semMgr I O) (ps.map fun p (s t : Pos I O) => p s t.1) i } : Ctx (T I O)) =
          gameCtx (withoutSafety g ps i) := by rw [hT]; rfl
      refine ⟨_, by rw [hc, hD']; rfl, ?_⟩
      have hsub : ∀ s x, g.safetyEnv s x → (withoutSafety g ps i).safetyEnv s x := fun s x h p hp =>
        (hps s x).mp h p (List.mem_of_mem_eraseIdx hp)
      refine found_sem ⟨hsub, rfl, fun _ h => h, rfl⟩ hdist hdist' R _ _ ?_
      rw [hT]
      refine ⟨fun h s x hx => ?_, fun h => ?_⟩
      · obtain ⟨o⟩ := ‹Nonempty O›
        have := congrFun (congrFun h s) (x, o)
        exact (iff_of_eq this).mpr hx
      · funext s t
        exact propext ⟨hsub s t.1, h s t.1⟩)
  obtain ⟨Lf, hL, hL2⟩ := mapM_some (P := fun i f => FoundSem g (withoutLiveness g i) False f)
    (f := fun i => (reactiveDistances (semMgr I O)
        { gameCtx g with
          safetyEnv := (semMgr I O).tt, livenessAssumptions := livenessWithout (gameCtx g).livenessAssumptions i } fuel).map fun r =>
        finding (semMgr I O) (gameCtx g) (pre (nuZ g)) D R False r.1 r.2.1)
    (List.range g.assumptions.length) (by
      intro i _
      obtain ⟨D', St', hD', hdist'⟩ := reactiveDistances_eq (withoutLiveness g i) fuel hf
      have hc : ({ gameCtx g with
          safetyEnv := (semMgr I O).tt, livenessAssumptions := livenessWithout (gameCtx g).livenessAssumptions i } : Ctx (T I O)) =
          gameCtx (withoutLiveness g i) := by rw [livenessWithout_eq]; rfl
      refine ⟨_, by rw [hc, hD']; rfl, ?_⟩
      exact found_sem (g := g) (g' := withoutLiveness g i) ⟨fun _ _ _ => trivial, rfl, fun _ h => List.mem_of_mem_eraseIdx h, rfl⟩ hdist hdist' R _ _ Iff.rfl)
  refine ⟨S, Lf, ?_, hS2, hL2⟩
  rw [findings, List.length_map, hS]
  simp only
  have : (gameCtx g).livenessAssumptions.length = g.assumptions.length := rfl
  rw [this, hL]
  rfl

end sem

end Slugs.Model
