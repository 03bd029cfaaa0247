import Verif.Lemmas.MotionTable

/-! What `--nonDeterministicMotion` reads from a proper file. -/

namespace Slugs.Model

open Slugs.Spec

variable {B : Type} [DecidableEq B] [L : BddLib B]

/-! ### The specification that a proper file denotes -/

open Classical in
/-- The formula of a line. -/
noncomputable def rdLine (l : List Char) : Fml := if h : ∃ φ, ReadsLine l φ then h.choose else .const true

theorem rdLine_eq {l : List Char} {φ : Fml} (h : ReadsLine l φ) : rdLine l = φ := by
  have h' : ∃ φ, ReadsLine l φ := ⟨φ, h⟩
  rw [rdLine, dif_pos h']
  exact ReadsLine.det h'.choose_spec h

/-- The region of a line. -/
def regOf (bddFile : List Char → Option BitPred) (line : List Char) : Word × BitPred :=
  (line.takeWhile (· ≠ ' '), (bddFile ((line.dropWhile (· ≠ ' ')).drop 1)).getD fun _ => false)

theorem regionLine_split {line name f : List Char} (h : RegionLine line name f) :
    line.takeWhile (· ≠ ' ') = name ∧ (line.dropWhile (· ≠ ' ')).drop 1 = f ∧ ' ' ∈ line := by
  obtain ⟨rfl, hn⟩ := h
  have h1 : ∀ c ∈ name, decide (c ≠ ' ') = true := fun c hc => by
    simp only [decide_eq_true_eq]; rintro rfl; exact hn hc
  refine ⟨?_, ?_, by simp⟩
  · rw [List.takeWhile_append_of_pos h1]; simp
  · rw [List.dropWhile_append_of_pos h1]; simp

/-- The section of a file with motion that corresponds to a section of an ordinary file. -/
def mOf : Section → MSection
  | .input => .input
  | .output => .otherOutput
  | .envInit => .envInit
  | .sysInit => .sysInit
  | .envTrans => .envTrans
  | .sysTrans => .sysTrans
  | .envLiveness => .envLiveness
  | .sysLiveness => .sysLiveness

noncomputable def mF (items : List (MSection × List Char)) (s : Section) : List Fml := (mItemsOf (mOf s) items).map rdLine

/-- The specification. -/
noncomputable def mSpec (bddFile : List Char → Option BitPred) (robot : BitPred) (items : List (MSection × List Char)) : MotionSpec where
  file := specOf (mDecls items) (mF items)
  motion := mItemsOf .motionState items
  controls := mItemsOf .motionControl items
  regions := (mItemsOf .regions items).map (regOf bddFile)
  robot := robot

theorem mDenotes_eq {bddFile : List Char → Option BitPred} {robot : BitPred} {text : List Char} {m : MotionSpec} {items : List (MSection × List Char)}
    (hc : MContent none (splitLines text) items) (h : MDenotes bddFile robot text m) : m = mSpec bddFile robot items := by
  obtain ⟨items', hc', h1, h2, h3, h4, h5, h6, h7, h8, h9, h10, h11, h12⟩ := h
  have := MContent.det hc hc'
  subst this
  have hr : ∀ {ls : List (List Char)} {fs : List Fml}, List.Forall₂ ReadsLine ls fs → fs = ls.map rdLine := by
    intro ls fs h
    induction h with
    | nil => rfl
    | cons h _ ih => rw [List.map_cons, ← ih, rdLine_eq h]
  have hg : ∀ {ls : List (List Char)} {rs : List (Word × BitPred)},
      List.Forall₂ (fun line (r : Word × BitPred) => ∃ f, RegionLine line r.1 f ∧ bddFile f = some r.2) ls rs → rs = ls.map (regOf bddFile) := by
    intro ls rs h
    induction h with
    | nil => rfl
    | @cons l r _ _ h _ ih =>
      obtain ⟨f, h1, h2⟩ := h
      obtain ⟨e1, e2, -⟩ := regionLine_split h1
      rw [List.map_cons, ← ih, regOf, e1, e2, h2]
      rfl
  obtain ⟨file, motion, controls, regions, rob⟩ := m
  obtain ⟨i, o, f1, f2, f3, f4, f5, f6⟩ := file
  dsimp only at h1 h2 h3 h4 h5 h6 h7 h8 h9 h10 h11 h12
  subst h1 h2 h3 h4 h6
  rw [hr h7, hr h8, hr h9, hr h10, hr h11, hr h12, hg h5]
  simp only [mSpec, specOf, inputsOf_m, outputsOf_m]
  rfl

theorem mDenotes_mSpec {bddFile : List Char → Option BitPred} (robot : BitPred) {cap : Nat} {text : List Char} (h : MProperFile cap bddFile text) :
    ∃ items, MContent none (splitLines text) items ∧ MDenotes bddFile robot text (mSpec bddFile robot items) := by
  obtain ⟨items, hc, -, -, hr, hall⟩ := h
  refine ⟨items, hc, items, hc, inputsOf_m items, outputsOf_m items, rfl, rfl, ?_, rfl, ?_⟩
  · have : ∀ l ∈ mItemsOf .regions items, ∃ f, RegionLine l (regOf bddFile l).1 f ∧ bddFile f = some (regOf bddFile l).2 := by
      intro l hl
      simp only [mItemsOf, List.mem_map, List.mem_filter, decide_eq_true_eq] at hl
      obtain ⟨⟨s, l⟩, ⟨hm, rfl⟩, rfl⟩ := hl
      obtain ⟨b, a, rfl⟩ := List.append_of_mem hm
      obtain ⟨-, name, f, h1, h2⟩ := hr _ _ _ rfl
      obtain ⟨e1, e2, -⟩ := regionLine_split h1
      obtain ⟨p, hp⟩ := Option.isSome_iff_exists.mp h2
      refine ⟨f, ?_, ?_⟩
      · simpa only [regOf, e1] using h1
      · simp only [regOf, e2, hp, Option.getD_some]
    simp only [mSpec, List.forall₂_map_right_iff]
    exact List.forall₂_same.mpr this
  · have : ∀ s : MSection, s.IsConstraint → List.Forall₂ ReadsLine (mItemsOf s items) ((mItemsOf s items).map rdLine) := by
      intro s hs
      rw [List.forall₂_map_right_iff]
      refine List.forall₂_same.mpr fun l hl => ?_
      simp only [mItemsOf, List.mem_map, List.mem_filter, decide_eq_true_eq] at hl
      obtain ⟨⟨s', l⟩, ⟨hm, rfl⟩, rfl⟩ := hl
      obtain ⟨b, a, rfl⟩ := List.append_of_mem hm
      obtain ⟨-, φ, h1, -⟩ := hall _ _ _ _ rfl hs
      rw [rdLine_eq h1]
      exact h1
    exact ⟨this _ (by simp [MSection.IsConstraint]), this _ (by simp [MSection.IsConstraint]), this _ (by simp [MSection.IsConstraint]),
      this _ (by simp [MSection.IsConstraint]), this _ (by simp [MSection.IsConstraint]), this _ (by simp [MSection.IsConstraint])⟩

/-! ### The values of names -/

section
variable (bddFile : List Char → Option BitPred) (robot : BitPred) {items : List (MSection × List Char)}

theorem regOf_names (its : List (MSection × List Char)) : ((mItemsOf .regions its).map (regOf bddFile)).map Prod.fst = regionNames its := by
  rw [List.map_map]; rfl

theorem find_region {rs : List (Word × BitPred)} (hn : (rs.map Prod.fst).Nodup) {r : Word × BitPred} (hr : r ∈ rs) :
    (rs.find? fun r' => r'.1 = r.1) = some r ∧ (rs.find? fun r' => prime r'.1 = prime r.1) = some r := by
  have : ∀ (q : Word × BitPred → Bool), (∀ r' ∈ rs, q r' = true ↔ r'.1 = r.1) → rs.find? q = some r := by
    intro q hq
    cases hf : rs.find? q with
    | none =>
      rw [List.find?_eq_none] at hf
      exact absurd ((hq r hr).mpr rfl) (hf r hr)
    | some r' =>
      have h1 := List.mem_of_find?_eq_some hf
      have h2 := List.find?_some hf
      rw [List.inj_on_of_nodup_map hn h1 hr ((hq r' h1).mp h2)]
  refine ⟨this _ fun r' _ => by simp, this _ fun r' _ => ?_⟩
  simp only [decide_eq_true_eq]
  exact ⟨prime_inj, fun h => by rw [h]⟩

variable (hN : ((tableOf (mDecls items)).names ++ regionNames items ++ (regionNames items).map prime).Nodup)
include hN

theorem mNodup : (tableOf (mDecls items)).names.Nodup := (List.nodup_append.mp (List.nodup_append.mp hN).1).1

theorem mNodup_regions : (regionNames items).Nodup := (List.nodup_append.mp (List.nodup_append.mp hN).1).2.1

theorem look_region {line : List Char} (hl : line ∈ mItemsOf .regions items) (p q : Pos (mSpec bddFile robot items).file.In (mSpec bddFile robot items).file.Out) :
    (mSpec bddFile robot items).look p q (regOf bddFile line).1 = (regOf bddFile line).2 ((mSpec bddFile robot items).bits p.2 (mItemsOf .motionState items)) ∧
    (mSpec bddFile robot items).look p q (prime (regOf bddFile line).1) =
      (regOf bddFile line).2 ((mSpec bddFile robot items).bits q.2 (mItemsOf .motionState items)) := by
  have hn : (((mItemsOf .regions items).map (regOf bddFile)).map Prod.fst).Nodup := by rw [regOf_names]; exact mNodup_regions hN
  have hr : regOf bddFile line ∈ (mItemsOf .regions items).map (regOf bddFile) := List.mem_map_of_mem hl
  have hf := find_region hn hr
  constructor
  · rw [MotionSpec.look]
    simp only [mSpec, hf.1]
  · have h0 : ((mItemsOf .regions items).map (regOf bddFile)).find? (fun r => r.1 = prime (regOf bddFile line).1) = none := by
      rw [List.find?_eq_none]
      intro r hr' he
      simp only [decide_eq_true_eq] at he
      have h1 : r.1 ∈ (tableOf (mDecls items)).names ++ regionNames items := by
        rw [List.mem_append, ← regOf_names bddFile items]; exact .inr (List.mem_map_of_mem hr')
      have h2 : r.1 ∈ (regionNames items).map prime := by
        rw [he, ← regOf_names bddFile items]; exact List.mem_map_of_mem (List.mem_map_of_mem hr)
      exact (List.nodup_append.mp hN).2.2 _ h1 _ h2 rfl
    rw [MotionSpec.look]
    simp only [mSpec, h0, hf.2]

theorem look_name {x : Word} (hx : x ∈ (tableOf (mDecls items)).names)
    (p q : Pos (mSpec bddFile robot items).file.In (mSpec bddFile robot items).file.Out) :
    (mSpec bddFile robot items).look p q x = (mSpec bddFile robot items).file.look p q x := by
  have h1 : ((mItemsOf .regions items).map (regOf bddFile)).find? (fun r => r.1 = x) = none := by
    rw [List.find?_eq_none]
    intro r hr he
    simp only [decide_eq_true_eq] at he
    have h2 : x ∈ regionNames items := by rw [← he, ← regOf_names bddFile items]; exact List.mem_map_of_mem hr
    exact (List.nodup_append.mp (List.nodup_append.mp hN).1).2.2 _ hx _ h2 rfl
  have h2 : ((mItemsOf .regions items).map (regOf bddFile)).find? (fun r => prime r.1 = x) = none := by
    rw [List.find?_eq_none]
    intro r hr he
    simp only [decide_eq_true_eq] at he
    have h2 : x ∈ (regionNames items).map prime := by
      rw [← he, ← regOf_names bddFile items]; exact List.mem_map_of_mem (List.mem_map_of_mem hr)
    exact (List.nodup_append.mp hN).2.2 x (by simp [hx]) _ h2 rfl
  rw [MotionSpec.look]
  simp only [mSpec, h1, h2]

end

section
variable (bddFile : List Char → Option BitPred) (robot : BitPred) {items : List (MSection × List Char)}
  (hn : (tableOf (mDecls items)).names.Nodup)

/-- The current position of an assignment. -/
noncomputable def mCur (a : Asg) : Pos (mSpec bddFile robot items).file.In (mSpec bddFile robot items).file.Out := curPos ((tableLayout (mDecls items) hn).get a)

/-- The next position of an assignment. -/
noncomputable def mNxt (a : Asg) : Pos (mSpec bddFile robot items).file.In (mSpec bddFile robot items).file.Out := nxtPos ((tableLayout (mDecls items) hn).get a)

/-- The value of a name under an assignment. -/
noncomputable def mVal (a : Asg) (x : Word) : Bool := (mSpec bddFile robot items).look (mCur bddFile robot hn a) (mNxt bddFile robot hn a) x

theorem bits_cur (a : Asg) {names : List Word} (h : ∀ x ∈ names, x ∈ mOutputs items) :
    (mSpec bddFile robot items).bits (mCur bddFile robot hn a).2 names = names.reverse.map fun x => a ((tableOf (mDecls items)).names.idxOf x) := by
  refine List.map_congr_left fun x hx => ?_
  have hx' : x ∈ (mSpec bddFile robot items).file.outputs := by
    change x ∈ outputsOf (mDecls items)
    rw [outputsOf_m]; exact h x (List.mem_reverse.mp hx)
  rw [dif_pos hx']
  rfl

theorem bits_nxt (a : Asg) {names : List Word} (h : ∀ x ∈ names, x ∈ mOutputs items) :
    (mSpec bddFile robot items).bits (mNxt bddFile robot hn a).2 names = names.reverse.map fun x => a ((tableOf (mDecls items)).names.idxOf (prime x)) := by
  refine List.map_congr_left fun x hx => ?_
  have hx' : x ∈ (mSpec bddFile robot items).file.outputs := by
    change x ∈ outputsOf (mDecls items)
    rw [outputsOf_m]; exact h x (List.mem_reverse.mp hx)
  rw [dif_pos hx']
  rfl

/-- The value of a declared name. -/
theorem mVal_slot (hN : ((tableOf (mDecls items)).names ++ regionNames items ++ (regionNames items).map prime).Nodup) (a : Asg)
    (z : DSlot (mDecls items)) : mVal bddFile robot hn a (slotEntry z).1 = a (slotCode z) := by
  rw [mVal, look_name bddFile robot hN (slotName_mem z)]
  have := look_slot (mF items) hn (mCur bddFile robot hn a) (mNxt bddFile robot hn a) z
  refine this.trans ?_
  exact congrFun (slots_pos ((tableLayout (mDecls items) hn).get a)) z

end

/-! ### Reading the items -/

section
variable (bddFile : List Char → Option BitPred) (robot : BitPred) (items : List (MSection × List Char))
  (hn : (tableOf (mDecls items)).names.Nodup)

/-- The line holds under an assignment. -/
def MHolds (a : Asg) (l : List Char) : Prop := (rdLine l).eval (mVal bddFile robot hn a) [] = some true

/-- What is known after reading some of the items. -/
structure MInv (before : List (MSection × List Char)) (st : VarTable × List (Name × B) × Ctx B) : Prop where
  table : st.1 = mTab (mDecls before) (isMotionIn items)
  named : ∀ x ∈ regionNames before ++ (regionNames before).map prime, ∃ b, (st.2.1.find? fun p => p.1 = x) = some (x, b) ∧
    ∀ a, L.eval b a = mVal bddFile robot hn a x
  unnamed : ∀ x, x ∉ regionNames before ++ (regionNames before).map prime → (st.2.1.find? fun p => p.1 = x) = none
  initEnv : ∀ a, L.eval st.2.2.initEnv a = true ↔ ∀ l ∈ mItemsOf .envInit before, MHolds bddFile robot items hn a l
  initSys : ∀ a, L.eval st.2.2.initSys a = true ↔ ∀ l ∈ mItemsOf .sysInit before, MHolds bddFile robot items hn a l
  safetyEnv : ∀ a, L.eval st.2.2.safetyEnv a = true ↔ ∀ l ∈ mItemsOf .envTrans before, MHolds bddFile robot items hn a l
  safetySys : ∀ a, L.eval st.2.2.safetySys a = true ↔ ∀ l ∈ mItemsOf .sysTrans before, MHolds bddFile robot items hn a l
  assumptions : List.Forall₂ (fun b l => ∀ a, L.eval b a = true ↔ MHolds bddFile robot items hn a l) st.2.2.livenessAssumptions (mItemsOf .envLiveness before)
  guarantees : List.Forall₂ (fun b l => ∀ a, L.eval b a = true ↔ MHolds bddFile robot items hn a l) st.2.2.livenessGuarantees (mItemsOf .sysLiveness before)

theorem MInv.start : MInv (B := B) bddFile robot items hn [] ((initStart (B := B)).table, [], (initStart (B := B)).ctx) := by
  refine ⟨rfl, by simp [regionNames, mItemsOf], by simp, ?_, ?_, ?_, ?_, .nil, .nil⟩ <;> simp [initStart, L.eval_tt, mItemsOf]

variable {bddFile robot items hn}

theorem regionNames_append (a b : List (MSection × List Char)) : regionNames (a ++ b) = regionNames a ++ regionNames b := by
  simp [regionNames, mItemsOf_append]

theorem mItemsOf_snoc (t s : MSection) (line : List Char) (before : List (MSection × List Char)) :
    mItemsOf t (before ++ [(s, line)]) = if s = t then mItemsOf t before ++ [line] else mItemsOf t before := by
  rw [mItemsOf_append]
  by_cases h : s = t <;> simp [mItemsOf, h]

/-- Adding a constraint. -/
theorem MInv.addFormula {before : List (MSection × List Char)} {s : MSection} {line : List Char} {tab : VarTable} {named : List (Name × B)} {c : Ctx B}
    (h : MInv bddFile robot items hn before (tab, named, c)) (hs : s.IsConstraint) {b : B}
    (hev : ∀ a, MHolds bddFile robot items hn a line ↔ L.eval b a = true) :
    MInv bddFile robot items hn (before ++ [(s, line)]) (tab, named, addConstraint c b (mPlain s)) := by
  have hand : ∀ (x : B) (ls : List (List Char)), (∀ a, L.eval x a = true ↔ ∀ l ∈ ls, MHolds bddFile robot items hn a l) →
      ∀ a, L.eval (L.and x b) a = true ↔ ∀ l ∈ ls ++ [line], MHolds bddFile robot items hn a l := by
    intro x ls hx a
    rw [L.eval_and, Bool.and_eq_true, hx, List.forall_mem_append, List.forall_mem_singleton, hev]
  have hnames : regionNames (before ++ [(s, line)]) = regionNames before := by
    rw [regionNames, regionNames, mItemsOf_snoc, if_neg]
    rintro rfl
    simp [MSection.IsConstraint] at hs
  have hdecls : mDecls (before ++ [(s, line)]) = mDecls before := by
    rw [mDecls_append]
    simp only [MSection.IsConstraint, List.mem_cons, List.not_mem_nil, or_false] at hs
    rcases hs with rfl | rfl | rfl | rfl | rfl | rfl <;> exact List.append_nil _
  have h1 := h.table
  have h2 := h.named
  have h3 := h.unnamed
  rw [← hnames] at h2 h3
  rw [← hdecls] at h1
  simp only [MSection.IsConstraint, List.mem_cons, List.not_mem_nil, or_false] at hs
  rcases hs with rfl | rfl | rfl | rfl | rfl | rfl
  all_goals
    refine ⟨h1, h2, h3, ?_, ?_, ?_, ?_, ?_, ?_⟩ <;> rw [mItemsOf_snoc]
  · exact hand _ _ h.initEnv
  · exact h.initSys
  · exact h.safetyEnv
  · exact h.safetySys
  · exact h.assumptions
  · exact h.guarantees
  · exact h.initEnv
  · exact hand _ _ h.initSys
  · exact h.safetyEnv
  · exact h.safetySys
  · exact h.assumptions
  · exact h.guarantees
  · exact h.initEnv
  · exact h.initSys
  · exact hand _ _ h.safetyEnv
  · exact h.safetySys
  · exact h.assumptions
  · exact h.guarantees
  · exact h.initEnv
  · exact h.initSys
  · exact h.safetyEnv
  · exact hand _ _ h.safetySys
  · exact h.assumptions
  · exact h.guarantees
  · exact h.initEnv
  · exact h.initSys
  · exact h.safetyEnv
  · exact h.safetySys
  · exact List.rel_append h.assumptions (.cons (fun a => (hev a).symm) .nil)
  · exact h.guarantees
  · exact h.initEnv
  · exact h.initSys
  · exact h.safetyEnv
  · exact h.safetySys
  · exact h.assumptions
  · exact List.rel_append h.guarantees (.cons (fun a => (hev a).symm) .nil)

variable (hN : ((tableOf (mDecls items)).names ++ regionNames items ++ (regionNames items).map prime).Nodup)
include hN

/-- A declared name is understood. -/
theorem MInv.known_slot {before after : List (MSection × List Char)} (hi : items = before ++ after) {st : VarTable × List (Name × B) × Ctx B}
    (h : MInv bddFile robot items hn before st) {al : List VarType} (z : DSlot (mDecls before))
    (hz : mType (isMotionIn items) (slotEntry z) ∈ al) : KnownAs st.2.1 st.1 al (mVal bddFile robot hn) (slotEntry z).1 := by
  have hds : mDecls items = mDecls before ++ mDecls after := by rw [hi, mDecls_append]
  have hn' : (tableOf (mDecls before)).names.Nodup := by
    have := hn
    rw [hds, names_append] at this
    exact (List.nodup_append.mp this).1
  have hm : (slotEntry z).1 ∈ (tableOf (mDecls items)).names := by rw [hds, names_append]; exact List.mem_append_left _ (slotName_mem z)
  have hnot : (slotEntry z).1 ∉ regionNames before ++ (regionNames before).map prime := by
    intro hx
    rw [List.append_assoc] at hN
    refine (List.nodup_append.mp hN).2.2 _ hm _ ?_ rfl
    rw [hi, regionNames_append]
    simp only [List.map_append, List.mem_append] at hx ⊢
    tauto
  refine ⟨L.var ((tableOf (mDecls before)).names.idxOf (slotEntry z).1), fun rest => ?_, fun a => ?_⟩
  · rw [h.unnamed _ hnot, h.table]
    exact lookupVar_declared rest (declared_m hn' _ z hz)
  · rw [L.eval_var]
    have h1 : ∀ (es : Decls) (e : mDecls items = mDecls before ++ es), ∃ z' : DSlot (mDecls items), slotEntry z' = slotEntry z ∧ slotCode z' = slotCode z := by
      intro es e
      rw [e]
      exact ⟨liftSlot es z, liftSlot_entry es z, liftSlot_code es z⟩
    obtain ⟨z', e1, e2⟩ := h1 _ hds
    rw [← e1, mVal_slot bddFile robot hn hN a z', e2, e1, slotCode]

theorem MInv.known {before after : List (MSection × List Char)} (hi : items = before ++ after) {st : VarTable × List (Name × B) × Ctx B}
    (h : MInv bddFile robot items hn before st) (hmo : (mOutputs items).Nodup) {s : MSection} {x : Word} (hx : x ∈ mUsable s before) :
    KnownAs st.2.1 st.1 (mAllowedIn s) (mVal bddFile robot hn) x := by
  have hreg : x ∈ regionNames before ++ (regionNames before).map prime → KnownAs st.2.1 st.1 (mAllowedIn s) (mVal bddFile robot hn) x := by
    intro hx
    obtain ⟨b, h1, h2⟩ := h.named x hx
    exact ⟨b, fun rest => by rw [h1], h2⟩
  have hin : ∀ y, y ∈ mItemsOf .input before → y ∈ inputsOf (mDecls before) := fun y hy => by rw [inputsOf_m]; exact hy
  have hmot : ∀ y, y ∈ mItemsOf .motionState before → y ∈ outputsOf (mDecls before) ∧ isMotionIn items y = true := fun y hy => by
    simp only [mItemsOf, List.mem_map, List.mem_filter, decide_eq_true_eq] at hy
    obtain ⟨⟨s', l⟩, ⟨hm, rfl⟩, rfl⟩ := hy
    refine ⟨?_, isMotionIn_motion _ _ (by rw [hi]; exact List.mem_append_left _ hm)⟩
    rw [outputsOf_m]
    exact List.mem_map.mpr ⟨_, List.mem_filter.mpr ⟨hm, by simp⟩, rfl⟩
  have hctl : ∀ y, y ∈ mItemsOf .motionControl before → y ∈ outputsOf (mDecls before) ∧ isMotionIn items y = false := fun y hy => by
    simp only [mItemsOf, List.mem_map, List.mem_filter, decide_eq_true_eq] at hy
    obtain ⟨⟨s', l⟩, ⟨hm, rfl⟩, rfl⟩ := hy
    refine ⟨?_, isMotionIn_control hmo _ (by rw [hi]; exact List.mem_append_left _ hm)⟩
    rw [outputsOf_m]
    exact List.mem_map.mpr ⟨_, List.mem_filter.mpr ⟨hm, by simp⟩, rfl⟩
  have k1 : .preInput ∈ mAllowedIn s → x ∈ mItemsOf .input before → KnownAs st.2.1 st.1 (mAllowedIn s) (mVal bddFile robot hn) x := fun hal hx =>
    h.known_slot hN hi (.ci ⟨x, hin x hx⟩) (by rw [mType_slot]; exact hal)
  have k2 : .preMotionState ∈ mAllowedIn s → x ∈ mItemsOf .motionState before → KnownAs st.2.1 st.1 (mAllowedIn s) (mVal bddFile robot hn) x := fun hal hx =>
    h.known_slot hN hi (.co ⟨x, (hmot x hx).1⟩) (by rw [mType_slot]; simpa only [(hmot x hx).2, if_true] using hal)
  have k3 : .postInput ∈ mAllowedIn s → x ∈ (mItemsOf .input before).map prime → KnownAs st.2.1 st.1 (mAllowedIn s) (mVal bddFile robot hn) x := fun hal hx => by
    obtain ⟨y, hy, rfl⟩ := List.mem_map.mp hx
    exact h.known_slot hN hi (.ni ⟨y, hin y hy⟩) (by rw [mType_slot]; exact hal)
  have k4 : .postMotionState ∈ mAllowedIn s → x ∈ (mItemsOf .motionState before).map prime → KnownAs st.2.1 st.1 (mAllowedIn s) (mVal bddFile robot hn) x :=
    fun hal hx => by
    obtain ⟨y, hy, rfl⟩ := List.mem_map.mp hx
    exact h.known_slot hN hi (.no ⟨y, (hmot y hy).1⟩) (by rw [mType_slot]; simpa only [(hmot y hy).2, if_true] using hal)
  have k5 : .postMotionControlOutput ∈ mAllowedIn s → x ∈ (mItemsOf .motionControl before).map prime →
      KnownAs st.2.1 st.1 (mAllowedIn s) (mVal bddFile robot hn) x := fun hal hx => by
    obtain ⟨y, hy, rfl⟩ := List.mem_map.mp hx
    exact h.known_slot hN hi (.no ⟨y, (hctl y hy).1⟩) (by rw [mType_slot]; simpa only [(hctl y hy).2, Bool.false_eq_true, if_false] using hal)
  rw [List.mem_append] at hreg
  cases s <;> simp only [mUsable, List.mem_append, List.not_mem_nil] at hx
  case envInit => exact k1 (by decide) hx
  case sysInit =>
    rcases hx with (hx | hx) | hx
    · exact k1 (by decide) hx
    · exact k2 (by decide) hx
    · exact hreg (.inl hx)
  case envTrans =>
    rcases hx with ((hx | hx) | hx) | hx
    · exact k1 (by decide) hx
    · exact k2 (by decide) hx
    · exact hreg (.inl hx)
    · exact k3 (by decide) hx
  case envLiveness =>
    rcases hx with ((hx | hx) | hx) | hx
    · exact k1 (by decide) hx
    · exact k2 (by decide) hx
    · exact hreg (.inl hx)
    · exact k3 (by decide) hx
  case sysTrans =>
    rcases hx with (((((hx | hx) | hx) | hx) | hx) | hx) | hx
    · exact k1 (by decide) hx
    · exact k2 (by decide) hx
    · exact hreg (.inl hx)
    · exact k3 (by decide) hx
    · exact k4 (by decide) hx
    · exact hreg (.inr hx)
    · exact k5 (by decide) hx
  case sysLiveness =>
    rcases hx with (((((hx | hx) | hx) | hx) | hx) | hx) | hx
    · exact k1 (by decide) hx
    · exact k2 (by decide) hx
    · exact hreg (.inl hx)
    · exact k3 (by decide) hx
    · exact k4 (by decide) hx
    · exact hreg (.inr hx)
    · exact k5 (by decide) hx

variable {cap : Nat} {order : List Char → Bool}

set_option maxHeartbeats 400000 in
/-- Reading one more item. -/
theorem MInv.step {before after : List (MSection × List Char)} {s : MSection} {line : List Char} (hi : items = before ++ (s, line) :: after)
    {st : VarTable × List (Name × B) × Ctx B} (h : MInv bddFile robot items hn before st) (hmo : (mOutputs items).Nodup)
    (hl : line ≠ [] ∧ line.head? ≠ some '#' ∧ line.head? ≠ some '[') (ho : s ≠ .otherOutput)
    (hreg : s = .regions → mItemsOf .motionState after = [] ∧ ∃ name f, RegionLine line name f ∧ (bddFile f).isSome)
    (hcon : s.IsConstraint → line.length ≤ cap ∧ ∃ φ, ReadsLine line φ ∧ φ.Wf 0 ∧ ∀ x ∈ φ.vars, x ∈ mUsable s before) :
    ∃ st', mItem bddFile cap order st (s, line) = .ok st' ∧ MInv bddFile robot items hn (before ++ [(s, line)]) st' := by
  obtain ⟨tab, named, c⟩ := st
  obtain ⟨c0, l0, rfl⟩ : ∃ c0 l0, line = c0 :: l0 := by
    cases line with
    | nil => exact absurd rfl hl.1
    | cons c0 l0 => exact ⟨c0, l0, rfl⟩
  have hc1 : ¬ c0 = '#' := fun e => hl.2.1 (by rw [e]; rfl)
  have hc2 : ¬ c0 = '[' := fun e => hl.2.2 (by rw [e]; rfl)
  have hdecl : ∀ (d : Bool × Name), mDecl (s, c0 :: l0) = some d → mDecls (before ++ [(s, c0 :: l0)]) = mDecls before ++ [d] := by
    intro d hd
    simp [mDecls, hd]
  have htab : ∀ (b : Bool) (t t' : VarType), mDecl (s, c0 :: l0) = some (b, c0 :: l0) →
      mType (isMotionIn items) (c0 :: l0, if b then .preInput else .preOutput) = t →
      mType (isMotionIn items) (prime (c0 :: l0), if b then .postInput else .postOutput) = t' →
      (tab.add t (c0 :: l0)).add t' (c0 :: l0 ++ ['\'']) = mTab (mDecls (before ++ [(s, c0 :: l0)])) (isMotionIn items) := by
    intro b t t' hd ht ht'
    have := h.table
    dsimp only at this
    subst this
    rw [hdecl _ hd, show c0 :: l0 ++ ['\''] = prime (c0 :: l0) from rfl]
    simp only [mTab, VarTable.add, mTypes, tableOf, entriesOf, declPair, List.flatMap_append, List.map_append, List.flatMap_cons, List.flatMap_nil,
      List.append_nil, List.map_cons, List.map_nil, ht, ht', List.append_assoc, List.cons_append, List.nil_append]
  have hmem : (s, c0 :: l0) ∈ items := by rw [hi]; simp
  have hcstep : s.IsConstraint → ∀ b, parseFormulaEx named tab (mAllowedIn s) cap order (c0 :: l0) = .ok (some b) →
      mItem bddFile cap order (tab, named, c) (s, c0 :: l0) = .ok (tab, named, addConstraint c b (mPlain s)) := by
    intro hs b hb
    simp only [MSection.IsConstraint, List.mem_cons, List.not_mem_nil, or_false] at hs
    rcases hs with rfl | rfl | rfl | rfl | rfl | rfl <;> simp only [mItem, mLine, hc1, hc2, if_false, hb]
  cases s
  case otherOutput => exact absurd rfl ho
  case input =>
    refine ⟨((tab.add .preInput (c0 :: l0)).add .postInput (c0 :: l0 ++ ['\'']), named, c), by simp only [mItem, mLine, hc1, hc2, if_false], ⟨htab true _ _ rfl rfl rfl, ?_, ?_, ?_, ?_, ?_, ?_, ?_, ?_⟩⟩
    · simpa [regionNames, mItemsOf] using h.named
    · simpa [regionNames, mItemsOf] using h.unnamed
    · simpa [mItemsOf] using h.initEnv
    · simpa [mItemsOf] using h.initSys
    · simpa [mItemsOf] using h.safetyEnv
    · simpa [mItemsOf] using h.safetySys
    · simpa [mItemsOf] using h.assumptions
    · simpa [mItemsOf] using h.guarantees
  case motionState =>
    have hP := isMotionIn_motion items _ hmem
    have e : (prime (c0 :: l0)).dropLast = c0 :: l0 := List.dropLast_concat
    refine ⟨((tab.add .preMotionState (c0 :: l0)).add .postMotionState (c0 :: l0 ++ ['\'']), named, c), by simp only [mItem, mLine, hc1, hc2, if_false], ⟨htab false _ _ rfl (by simp [mType, hP]) (by simp [mType, e, hP]), ?_, ?_, ?_, ?_, ?_, ?_, ?_, ?_⟩⟩
    · simpa [regionNames, mItemsOf] using h.named
    · simpa [regionNames, mItemsOf] using h.unnamed
    · simpa [mItemsOf] using h.initEnv
    · simpa [mItemsOf] using h.initSys
    · simpa [mItemsOf] using h.safetyEnv
    · simpa [mItemsOf] using h.safetySys
    · simpa [mItemsOf] using h.assumptions
    · simpa [mItemsOf] using h.guarantees
  case motionControl =>
    have hP := isMotionIn_control hmo _ hmem
    have e : (prime (c0 :: l0)).dropLast = c0 :: l0 := List.dropLast_concat
    refine ⟨((tab.add .preMotionControlOutput (c0 :: l0)).add .postMotionControlOutput (c0 :: l0 ++ ['\'']), named, c), by simp only [mItem, mLine, hc1, hc2, if_false], ⟨htab false _ _ rfl (by simp [mType, hP]) (by simp [mType, e, hP]), ?_, ?_, ?_, ?_, ?_, ?_, ?_, ?_⟩⟩
    · simpa [regionNames, mItemsOf] using h.named
    · simpa [regionNames, mItemsOf] using h.unnamed
    · simpa [mItemsOf] using h.initEnv
    · simpa [mItemsOf] using h.initSys
    · simpa [mItemsOf] using h.safetyEnv
    · simpa [mItemsOf] using h.safetySys
    · simpa [mItemsOf] using h.assumptions
    · simpa [mItemsOf] using h.guarantees
  case regions =>
    obtain ⟨hafter, name, f, hr, hf⟩ := hreg rfl
    obtain ⟨e1, e2, e3⟩ := regionLine_split hr
    obtain ⟨p, hp⟩ := Option.isSome_iff_exists.mp hf
    have ht : tab = mTab (mDecls before) (isMotionIn items) := h.table
    subst ht
    have hds : mDecls items = mDecls before ++ mDecls after := by
      rw [hi, mDecls_append]
      rfl
    have hnames : (tableOf (mDecls items)).names = (tableOf (mDecls before)).names ++ (tableOf (mDecls after)).names := by rw [hds, names_append]
    have hn' : (tableOf (mDecls before)).names.Nodup := by
      have := hn
      rw [hnames] at this
      exact (List.nodup_append.mp this).1
    have hrn : regionNames items = regionNames before ++ name :: regionNames after := by
      rw [hi, regionNames_append]
      simp only [regionNames, mItemsOf, List.filter_cons, decide_true, if_true, List.map_cons, e1]
    have hrn' : regionNames (before ++ [(.regions, c0 :: l0)]) = regionNames before ++ [name] := by
      rw [regionNames_append]
      simp only [regionNames, mItemsOf, List.filter_cons, decide_true, if_true, List.map_cons, e1, List.filter_nil, List.map_nil]
    have hmot : mItemsOf .motionState items = mItemsOf .motionState before := by
      rw [hi, mItemsOf_append, show mItemsOf .motionState ((MSection.regions, c0 :: l0) :: after) = mItemsOf .motionState after from rfl, hafter, List.append_nil]
    have hP1 : ∀ l, (MSection.motionState, l) ∈ before → isMotionIn items l = true := fun l hl =>
      isMotionIn_motion _ _ (by rw [hi]; exact List.mem_append_left _ hl)
    have hP2 : ∀ l, (MSection.motionControl, l) ∈ before → isMotionIn items l = false := fun l hl =>
      isMotionIn_control hmo _ (by rw [hi]; exact List.mem_append_left _ hl)
    have hvars : varsDown (mTypes (mDecls before) (isMotionIn items)) .preMotionState =
        (mItemsOf .motionState before).reverse.map fun x => (tableOf (mDecls before)).names.idxOf x := by
      rw [(varsDown_eq hn' _).1, outputsOf_m, (filter_outputs hP1 hP2).1]
    have hsub : ∀ x ∈ mItemsOf .motionState before, x ∈ outputsOf (mDecls before) := by
      intro x hx
      rw [outputsOf_m, ← (filter_outputs hP1 hP2).1] at *
      exact (List.mem_filter.mp hx).1
    have hsub' : ∀ x ∈ mItemsOf .motionState items, x ∈ mOutputs items := by
      intro x hx
      rw [hmot] at hx
      have := hsub x hx
      rw [← outputsOf_m, hds, mem_outputsOf]
      exact List.mem_append_left _ (mem_outputsOf.mp this)
    have hidx : ∀ x ∈ mItemsOf .motionState before, (tableOf (mDecls items)).names.idxOf x = (tableOf (mDecls before)).names.idxOf x ∧
        (tableOf (mDecls items)).names.idxOf (prime x) = (tableOf (mDecls before)).names.idxOf (prime x) := by
      intro x hx
      have hx' := hsub x hx
      rw [hnames]
      exact ⟨List.idxOf_append_of_mem (slotName_mem (.co ⟨x, hx'⟩ : DSlot (mDecls before))),
        List.idxOf_append_of_mem (slotName_mem (.no ⟨x, hx'⟩ : DSlot (mDecls before)))⟩
    have hline : c0 :: l0 ∈ mItemsOf .regions items := List.mem_map.mpr ⟨_, List.mem_filter.mpr ⟨hmem, by simp⟩, rfl⟩
    have hrego : regOf bddFile (c0 :: l0) = (name, p) := by rw [regOf, e1, e2, hp]; rfl
    have hval : ∀ a, mVal bddFile robot hn a name = p ((mItemsOf .motionState before).reverse.map fun x => a ((tableOf (mDecls before)).names.idxOf x)) ∧
        mVal bddFile robot hn a (prime name) = p ((mItemsOf .motionState before).reverse.map fun x => a ((tableOf (mDecls before)).names.idxOf (prime x))) := by
      intro a
      have hlk := look_region bddFile robot hN hline (mCur bddFile robot hn a) (mNxt bddFile robot hn a)
      rw [hrego, bits_cur bddFile robot hn a hsub', bits_nxt bddFile robot hn a hsub', hmot] at hlk
      constructor
      · rw [mVal, hlk.1]
        exact congrArg p (List.map_congr_left fun x hx => by rw [(hidx x (List.mem_reverse.mp hx)).1])
      · rw [mVal, hlk.2]
        exact congrArg p (List.map_congr_left fun x hx => by rw [(hidx x (List.mem_reverse.mp hx)).2])
    have hNr : (regionNames before ++ name :: regionNames after ++ (regionNames before ++ name :: regionNames after).map prime).Nodup := by
      rw [← hrn]
      rw [List.append_assoc] at hN
      exact (List.nodup_append.mp hN).2.1
    have hnot : name ∉ regionNames before ++ (regionNames before).map prime := by
      have h1 := List.nodup_append.mp hNr
      have h2 := List.nodup_append.mp h1.1
      rw [List.mem_append]
      rintro (hm | hm)
      · exact h2.2.2 _ hm _ (by simp) rfl
      · exact h1.2.2 name (by simp) name (by simp only [List.map_append, List.mem_append]; exact .inl hm) rfl
    have hne : name ≠ prime name := by
      intro e
      have := congrArg List.length e
      simp [prime] at this
    have hnone : (named.find? fun q => decide (q.1 = name)) = none := h.unnamed name hnot
    refine ⟨(mTab (mDecls before) (isMotionIn items), (name ++ ['\''], (bddMgr B (mTab (mDecls before) (isMotionIn items)).types).swap
          (readBdd (varsDown (mTab (mDecls before) (isMotionIn items)).types .preMotionState) p)) ::
        (name, readBdd (varsDown (mTab (mDecls before) (isMotionIn items)).types .preMotionState) p) :: named, c),
      by simp only [mItem, mLine, hc1, hc2, if_false, e3, if_true, e2, hp, e1, hnone, Option.isSome_none, Bool.false_eq_true], ⟨?_, ?_, ?_, ?_, ?_, ?_, ?_, ?_, ?_⟩⟩
    · dsimp only
      rw [mDecls_append, show mDecls [(MSection.regions, c0 :: l0)] = [] from rfl, List.append_nil]
    · intro x hx
      rw [hrn'] at hx
      dsimp only
      rw [List.find?_cons, List.find?_cons]
      by_cases hx1 : x = prime name
      · subst hx1
        refine ⟨(bddMgr B (mTab (mDecls before) (isMotionIn items)).types).swap
          (readBdd (varsDown (mTab (mDecls before) (isMotionIn items)).types .preMotionState) p), by simp [prime], fun a => ?_⟩
        rw [show (mTab (mDecls before) (isMotionIn items)).types = mTypes (mDecls before) (isMotionIn items) from rfl, bddMgr_m]
        simp only [bddMgr]
        rw [L.eval_swap, eval_readBdd, (hval a).2, hvars, List.map_map]
        refine congrArg p (List.map_congr_left fun x hx => ?_)
        have hx' := hsub x (List.mem_reverse.mp hx)
        exact congrArg a ((tableLayout (mDecls before) hn').swap_co ⟨x, hx'⟩)
      · by_cases hx2 : x = name
        · subst hx2
          refine ⟨readBdd (varsDown (mTab (mDecls before) (isMotionIn items)).types .preMotionState) p, ?_, fun a => ?_⟩
          · have : decide (x ++ ['\''] = x) = false := by simp
            simp only [this, decide_true]
          · rw [show (mTab (mDecls before) (isMotionIn items)).types = mTypes (mDecls before) (isMotionIn items) from rfl, eval_readBdd, (hval a).1, hvars,
              List.map_map]
            rfl
        · have h1 : decide (name ++ ['\''] = x) = false := by
            rw [decide_eq_false_iff_not]; exact fun e => hx1 e.symm
          have h2 : decide (name = x) = false := by
            rw [decide_eq_false_iff_not]; exact fun e => hx2 e.symm
          simp only [h1, h2]
          refine h.named x ?_
          simp only [List.map_append, List.mem_append, List.mem_cons, List.not_mem_nil, or_false, List.map_cons, List.map_nil] at hx ⊢
          tauto
    · intro x hx
      rw [hrn'] at hx
      simp only [List.map_append, List.mem_append, List.mem_cons, List.not_mem_nil, or_false, List.map_cons, List.map_nil, not_or] at hx
      dsimp only
      rw [List.find?_cons, List.find?_cons]
      have h1 : decide (name ++ ['\''] = x) = false := by
        rw [decide_eq_false_iff_not]; exact fun e => hx.2.2 e.symm
      have h2 : decide (name = x) = false := by
        rw [decide_eq_false_iff_not]; exact fun e => hx.1.2 e.symm
      simp only [h1, h2]
      refine h.unnamed x ?_
      rw [List.mem_append]
      tauto
    · simpa [mItemsOf] using h.initEnv
    · simpa [mItemsOf] using h.initSys
    · simpa [mItemsOf] using h.safetyEnv
    · simpa [mItemsOf] using h.safetySys
    · simpa [mItemsOf] using h.assumptions
    · simpa [mItemsOf] using h.guarantees
  all_goals
    obtain ⟨hcap, φ, hr, hwf, hv⟩ := hcon (by simp [MSection.IsConstraint])
    obtain ⟨b, hb, he⟩ := parseFormulaEx_complete (order := order) hr hwf (fun x hx => h.known hN hi hmo (hv x hx)) hcap
    exact ⟨_, hcstep (by simp [MSection.IsConstraint]) b hb, h.addFormula (by simp [MSection.IsConstraint]) fun a => by
      rw [MHolds, rdLine_eq hr, he a, Option.some.injEq]⟩

end

end Slugs.Model
