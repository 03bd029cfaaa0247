import Verif.Lemmas.ExplicitHom
import Verif.Lemmas.TextGame

/-! What the extraction of explicit strategies yields, in terms of the game and in terms of the file. -/

namespace Slugs.Model

open Slugs.Spec

variable {I O : Type}

/-- The transitions that the extraction starts from for goal `j`. -/
def moves (g : Game I O) (perm : Bool) (dump : Dump (T I O)) (j : Nat) : T I O :=
  if perm then PermT g (entries dump j) else strat (entries dump j)

theorem moves_mem {g : Game I O} {perm : Bool} {dump : Dump (T I O)} {j : Nat} {s t : Pos I O} (h : moves g perm dump j s t) :
    ∃ d ∈ entries dump j, d s t := by
  cases perm
  · exact strat_mem h
  · exact PermT.mem h

theorem moves_used {g : Game I O} {perm : Bool} {dump : Dump (T I O)} {j : Nat} {s t : Pos I O} (h : moves g perm dump j s t)
    (hi : g.safetyEnv s t.1) : Used g (entries dump j) s t := by
  cases perm
  · exact strat_used h hi
  · exact PermT.used h hi

theorem moves_exists {g : Game I O} {perm : Bool} {dump : Dump (T I O)} {j : Nat} {s : Pos I O}
    (h : s ∈ Covered g (entries dump j)) {i : I} (hi : g.safetyEnv s i) : ∃ o, moves g perm dump j s (i, o) := by
  cases perm
  · exact strat_exists g h hi
  · rw [← cox_PermT] at h
    exact h i hi

/-- The initial positions of the extraction. -/
def startSet (g : Game I O) (perm recovery : Bool) (Z : Set (Pos I O)) : Set (Pos I O) :=
  {s | s ∈ Z ∧ (perm = true ∨ (g.initSys s ∧ (recovery = true ∨ g.initEnv s.1)))}

open Classical in
/-- What is printed. -/
structure Extracted (g : Game I O) (vs : Vars (T I O)) (perm recovery : Bool) (Z : Set (Pos I O)) (dump : Dump (T I O))
    (ks : List (Pos I O × Nat)) (sts : List PState) : Prop where
  nodup : ks.Nodup
  win : ∀ k ∈ ks, k.1 ∈ Z
  rank : ∀ k ∈ ks, k.2 < g.guarantees.length
  length : sts.length = ks.length
  start : ∀ s ∈ startSet g perm recovery Z, (s, 0) ∈ ks
  first : ∃ n, ∀ (m : Nat) (k : Pos I O × Nat), ks[m]? = some k → (m < n ↔ k.1 ∈ startSet g perm recovery Z ∧ k.2 = 0)
  state : ∀ m st, sts[m]? = some st → StateOK g vs perm
    (fun j s => {t | moves g perm dump j s t ∧ (recovery = true ∨ g.safetyEnv s t.1)}) ks m st
  reach : ∀ k ∈ ks, (k.1 ∈ startSet g perm recovery Z ∧ k.2 = 0) ∨ ∃ st ∈ sts, ks.idxOf k ∈ st.succ ∧ st.num < ks.idxOf k

theorem extractStrategy_spec [Finite I] [Finite O] (g : Game I O) (hg : g.guarantees ≠ []) {vs : Vars (T I O)} (hv : VarsOK vs)
    (perm recovery : Bool) {Z : Set (Pos I O)} {dump : Dump (T I O)} (hf : Family g Z (entries dump))
    (fuel : Nat) (hfuel : Nat.card (Pos I O) * g.guarantees.length < fuel) :
    ∃ ks sts, extractStrategy (semMgr I O) (gameCtx g) vs perm recovery fuel (pre Z) dump = some sts ∧
      Extracted g vs perm recovery Z dump ks sts := by
  classical
  have hpos : 0 < g.guarantees.length := List.length_pos_iff.mpr hg
  have hfuel' : Nat.card (Pos I O) < fuel := lt_of_le_of_lt (Nat.le_mul_of_pos_right _ hpos) hfuel
  have e1 : (if perm = true then pre Z else if recovery = true then (semMgr I O).and (pre Z) (gameCtx g).initSys
      else (semMgr I O).and ((semMgr I O).and (pre Z) (gameCtx g).initSys) (gameCtx g).initEnv) =
      pre (startSet g perm recovery Z) := by
    funext s t
    cases perm <;> cases recovery <;> simp only [pre, startSet, semMgr, gameCtx, Set.mem_ofPred_eq, Bool.false_eq_true, if_false, if_true,
      eq_iff_iff] <;> tauto
  have e2 : (if perm = true then permissive (semMgr I O) (gameCtx g) dump else positional (semMgr I O) dump) = moves g perm dump := by
    funext j
    cases perm
    · exact positional_eq dump j
    · exact permissive_eq g dump j
  rw [extractStrategy, e1, e2]
  obtain ⟨ks, w, h1, h2, h3⟩ := initLoop_spec hv fuel (startSet g perm recovery Z) [] _
    (lt_of_le_of_lt (Set.ncard_le_card _) hfuel') WorkInv.nil (by simp)
  rw [h1]
  rw [List.nil_append] at h2
  obtain ⟨ks', sts, h4, h5, h6, h7, h8, -, h9⟩ := extractLoop_spec g hv perm recovery (moves g perm dump)
    (fun k => k.1 ∈ Z ∧ k.2 < g.guarantees.length) (fun k hk => hk.2)
    (fun k hk t j hm hj => ⟨(hf k.2 _ (List.getElem?_eq_getElem hk.2)).stays (moves_mem hm), hj⟩)
    fuel hfuel' fuel ks w [] (by simpa using hfuel) h2
    (fun k hk => by
      have := (h3 k).mp hk
      exact ⟨this.1.1, this.2 ▸ hpos⟩)
    (by simp)
  refine ⟨ks ++ ks', sts, h4, h5, fun k hk => (h6 k hk).1, fun k hk => (h6 k hk).2, h7,
    fun s hs => List.mem_append_left _ ((h3 _).mpr ⟨hs, rfl⟩), ⟨ks.length, fun m k hm => ?_⟩, h8,
    fun k hk => (List.mem_append.mp hk).imp (fun h => (h3 k).mp h) (h9 k)⟩
  rw [← h3 k]
  constructor
  · intro hlt
    rw [List.getElem?_append_left hlt] at hm
    exact List.mem_of_getElem? hm
  · intro hk
    by_contra hge
    rw [List.getElem?_append_right (by omega)] at hm
    exact (List.nodup_append.mp h5).2.2 k hk k (List.mem_of_getElem? hm) rfl

/-! ### The variables of a table -/

/-- The variable with number `k` as a function of two positions. -/
def codeVar (ds : Decls) (k : Nat) : T ({x // x ∈ inputsOf ds} → Bool) ({x // x ∈ outputsOf ds} → Bool) :=
  fun s t => ∃ z : DSlot ds, slotCode z = k ∧ slots s t z = true

theorem codeVar_slot {ds : Decls} (hn : (tableOf ds).names.Nodup) (z : DSlot ds)
    (s t : Pos ({x // x ∈ inputsOf ds} → Bool) ({x // x ∈ outputsOf ds} → Bool)) :
    codeVar ds (slotCode z) s t ↔ slots s t z = true :=
  ⟨fun ⟨z', h, h'⟩ => slotCode_inj hn h ▸ h', fun h => ⟨z, rfl, h⟩⟩

def semVars (ds : Decls) : Vars (T ({x // x ∈ inputsOf ds} → Bool) ({x // x ∈ outputsOf ds} → Bool)) where
  preVars := (varsOfType (tableOf ds).types .pre).map (codeVar ds)
  postVars := (varsOfType (tableOf ds).types .post).map (codeVar ds)
  labels := (varsOfType (tableOf ds).types .pre).map fun k => ((tableOf ds).names.getD k [], codeVar ds k)

theorem mem_pre {ds : Decls} (hn : (tableOf ds).names.Nodup) {k : Nat} :
    k ∈ varsOfType (tableOf ds).types .pre ↔ (∃ x, slotCode (.ci x : DSlot ds) = k) ∨ ∃ x, slotCode (.co x : DSlot ds) = k := by
  rw [mem_varsOfType hn]
  constructor
  · rintro ⟨z | z | z | z, h, h'⟩
    · exact .inl ⟨z, h⟩
    · exact .inr ⟨z, h⟩
    · exact absurd h' (by simp only [slotEntry]; decide)
    · exact absurd h' (by simp only [slotEntry]; decide)
  · rintro (⟨x, h⟩ | ⟨x, h⟩)
    · exact ⟨_, h, by simp only [slotEntry]; decide⟩
    · exact ⟨_, h, by simp only [slotEntry]; decide⟩

theorem mem_post {ds : Decls} (hn : (tableOf ds).names.Nodup) {k : Nat} :
    k ∈ varsOfType (tableOf ds).types .post ↔ (∃ x, slotCode (.ni x : DSlot ds) = k) ∨ ∃ x, slotCode (.no x : DSlot ds) = k := by
  rw [mem_varsOfType hn]
  constructor
  · rintro ⟨z | z | z | z, h, h'⟩
    · exact absurd h' (by simp only [slotEntry]; decide)
    · exact absurd h' (by simp only [slotEntry]; decide)
    · exact .inl ⟨z, h⟩
    · exact .inr ⟨z, h⟩
  · rintro (⟨x, h⟩ | ⟨x, h⟩)
    · exact ⟨_, h, by simp only [slotEntry]; decide⟩
    · exact ⟨_, h, by simp only [slotEntry]; decide⟩

theorem semVars_ok {ds : Decls} (hn : (tableOf ds).names.Nodup) : VarsOK (semVars ds) where
  pre_indep := by
    intro v hv s t t'
    obtain ⟨k, hk, rfl⟩ := List.mem_map.mp hv
    rcases (mem_pre hn).mp hk with ⟨x, rfl⟩ | ⟨x, rfl⟩ <;> rw [codeVar_slot hn, codeVar_slot hn] <;> rfl
  pre_sep := by
    intro s s' t t' h
    have key : ∀ z : DSlot ds, (∃ x, z = .ci x) ∨ (∃ x, z = .co x) → slots s t z = slots s' t' z := by
      intro z hz
      have := h (codeVar ds (slotCode z)) (List.mem_map.mpr ⟨_, (mem_pre hn).mpr (hz.imp (fun ⟨x, h⟩ => ⟨x, by rw [h]⟩)
        (fun ⟨x, h⟩ => ⟨x, by rw [h]⟩)), rfl⟩)
      rw [codeVar_slot hn, codeVar_slot hn] at this
      exact Bool.eq_iff_iff.mpr this
    refine Prod.ext ?_ ?_
    · funext x; exact key (.ci x) (.inl ⟨x, rfl⟩)
    · funext x; exact key (.co x) (.inr ⟨x, rfl⟩)
  post_sep := by
    intro s t t' h
    have key : ∀ z : DSlot ds, (∃ x, z = .ni x) ∨ (∃ x, z = .no x) → slots s t z = slots s t' z := by
      intro z hz
      have := h (codeVar ds (slotCode z)) (List.mem_map.mpr ⟨_, (mem_post hn).mpr (hz.imp (fun ⟨x, h⟩ => ⟨x, by rw [h]⟩)
        (fun ⟨x, h⟩ => ⟨x, by rw [h]⟩)), rfl⟩)
      rw [codeVar_slot hn, codeVar_slot hn] at this
      exact Bool.eq_iff_iff.mpr this
    refine Prod.ext ?_ ?_
    · funext x; exact key (.ni x) (.inl ⟨x, rfl⟩)
    · funext x; exact key (.no x) (.inr ⟨x, rfl⟩)
  label_indep := by
    intro v hv s t t'
    obtain ⟨k, hk, rfl⟩ := List.mem_map.mp hv
    change codeVar ds k s t ↔ codeVar ds k s t'
    rcases (mem_pre hn).mp hk with ⟨x, rfl⟩ | ⟨x, rfl⟩ <;> rw [codeVar_slot hn, codeVar_slot hn] <;> rfl

theorem tableVars_eq (B : Type) [DecidableEq B] [L : BddLib B] {ds : Decls} (hn : (tableOf ds).names.Nodup) :
    tableVars B (tableOf ds) = (semVars ds).map ((tableLayout ds hn).enc B) := by
  have hz : ∀ z : DSlot ds, L.var (slotCode z) = (tableLayout ds hn).enc B (codeVar ds (slotCode z)) := by
    intro z
    refine (tableLayout ds hn).eq_enc B fun a => ?_
    rw [codeVar_slot hn, L.eval_var, congrFun (slots_pos _) z]
    rfl
  have hpre : ∀ k ∈ varsOfType (tableOf ds).types .pre, L.var k = (tableLayout ds hn).enc B (codeVar ds k) := by
    intro k hk
    rcases (mem_pre hn).mp hk with ⟨x, rfl⟩ | ⟨x, rfl⟩ <;> exact hz _
  have hpost : ∀ k ∈ varsOfType (tableOf ds).types .post, L.var k = (tableLayout ds hn).enc B (codeVar ds k) := by
    intro k hk
    rcases (mem_post hn).mp hk with ⟨x, rfl⟩ | ⟨x, rfl⟩ <;> exact hz _
  simp only [tableVars, semVars, Vars.map, List.map_map, Vars.mk.injEq]
  exact ⟨List.map_congr_left hpre, List.map_congr_left hpost,
    List.map_congr_left fun k hk => Prod.ext rfl (hpre k hk)⟩

/-! ### Labels -/

theorem getD_slot {ds : Decls} (hn : (tableOf ds).names.Nodup) (z : DSlot ds) :
    (tableOf ds).names.getD (slotCode z) [] = (slotEntry z).1 := by
  have h := (getElem_slotCode hn).mpr (rfl : slotCode z = slotCode z)
  simp only [tableOf, List.getD_eq_getElem?_getD, List.getElem?_map, h, Option.map_some, Option.getD_some]

theorem label_names {ds : Decls} (F : Section → List Fml) (hn : (tableOf ds).names.Nodup)
    (s : Pos ({x // x ∈ inputsOf ds} → Bool) ({x // x ∈ outputsOf ds} → Bool)) :
    ((labelAt (semVars ds) s).map Prod.fst).Perm ((specOf ds F).inputs ++ (specOf ds F).outputs) := by
  have e : (labelAt (semVars ds) s).map Prod.fst =
      (varsOfType (tableOf ds).types .pre).map fun k => (tableOf ds).names.getD k [] := by
    simp [labelAt, semVars, Function.comp_def]
  rw [e]
  have hall : (specOf ds F).names.Nodup := (names_perm ds F).nodup_iff.mpr hn
  have h2 : ((specOf ds F).inputs ++ (specOf ds F).outputs).Nodup := by
    rw [SpecFile.names, List.append_assoc] at hall
    exact (List.nodup_append.mp hall).1
  have h1 : ((varsOfType (tableOf ds).types .pre).map fun k => (tableOf ds).names.getD k []).Nodup := by
    refine List.Nodup.map_on ?_ (List.Nodup.filter _ List.nodup_range)
    intro k hk k' hk' he
    have key : ∀ k ∈ varsOfType (tableOf ds).types .pre, ∃ z : DSlot ds, slotCode z = k := fun k hk => by
      rcases (mem_pre hn).mp hk with ⟨x, h⟩ | ⟨x, h⟩ <;> exact ⟨_, h⟩
    obtain ⟨z, rfl⟩ := key k hk
    obtain ⟨z', rfl⟩ := key k' hk'
    rw [getD_slot hn, getD_slot hn] at he
    rw [slotName_inj hn he]
  rw [List.perm_ext_iff_of_nodup h1 h2]
  intro x
  simp only [List.mem_map, List.mem_append]
  constructor
  · rintro ⟨k, hk, rfl⟩
    rcases (mem_pre hn).mp hk with ⟨y, rfl⟩ | ⟨y, rfl⟩ <;> rw [getD_slot hn]
    · exact .inl y.2
    · exact .inr y.2
  · rintro (hx | hx)
    · exact ⟨_, (mem_pre hn).mpr (.inl ⟨⟨x, hx⟩, rfl⟩), getD_slot hn _⟩
    · exact ⟨_, (mem_pre hn).mpr (.inr ⟨⟨x, hx⟩, rfl⟩), getD_slot hn _⟩

theorem lookup_of_mem {α β : Type} [BEq α] [LawfulBEq α] {l : List (α × β)} (hn : (l.map Prod.fst).Nodup) {a : α} {b : β}
    (h : (a, b) ∈ l) : l.lookup a = some b := by
  induction l with
  | nil => cases h
  | cons e l ih =>
    obtain ⟨a', b'⟩ := e
    simp only [List.map_cons, List.nodup_cons] at hn
    rcases List.mem_cons.mp h with h | h'
    · cases h; simp
    · have : a ≠ a' := by
        rintro rfl
        exact hn.1 (List.mem_map.mpr ⟨(a, b), h', rfl⟩)
      rw [List.lookup_cons, show (a == a') = false by simpa using this]
      exact ih hn.2 h'

theorem label_pos {ds : Decls} (F : Section → List Fml) (hn : (tableOf ds).names.Nodup) {st : PState}
    {s : Pos ({x // x ∈ inputsOf ds} → Bool) ({x // x ∈ outputsOf ds} → Bool)} (h : st.label = labelAt (semVars ds) s) :
    st.pos (specOf ds F) = s := by
  have hall : (specOf ds F).names.Nodup := (names_perm ds F).nodup_iff.mpr hn
  have h2 : ((specOf ds F).inputs ++ (specOf ds F).outputs).Nodup := by
    rw [SpecFile.names, List.append_assoc] at hall
    exact (List.nodup_append.mp hall).1
  have h1 := (label_names F hn s).nodup_iff.mpr h2
  have key : ∀ z : DSlot ds, (∃ x, z = .ci x) ∨ (∃ x, z = .co x) →
      (st.label.lookup (slotEntry z).1 == some true) = slots s s z := by
    intro z hz
    have hm : ((slotEntry z).1, slots s s z) ∈ labelAt (semVars ds) s := by
      simp only [labelAt, semVars, List.map_map, List.mem_map]
      refine ⟨slotCode z, (mem_pre hn).mpr (hz.imp (fun ⟨x, h⟩ => ⟨x, by rw [h]⟩) (fun ⟨x, h⟩ => ⟨x, by rw [h]⟩)), ?_⟩
      refine Prod.ext (getD_slot hn z) ?_
      classical
      rw [Bool.eq_iff_iff]
      exact decide_eq_true_iff.trans (codeVar_slot hn z s s)
    rw [h, lookup_of_mem h1 hm]
    cases slots s s z <;> rfl
  refine Prod.ext ?_ ?_
  · funext x; exact key (.ci x) (.inl ⟨x, rfl⟩)
  · funext x; exact key (.co x) (.inr ⟨x, rfl⟩)

/-! ### The printed strategy -/

/-- The printed states follow the preferred transitions `dump` in the game `g` and never leave `Z`. -/
structure Follows (sp : SpecFile) (g : Game sp.In sp.Out) (Z : Set (Pos sp.In sp.Out)) (perm recovery : Bool)
    (dump : Dump (T sp.In sp.Out)) (sts : List PState) : Prop where
  wf : WellFormed sp sts
  win : ∀ st ∈ sts, st.pos sp ∈ Z
  rank : ∀ st ∈ sts, st.rank < g.guarantees.length
  length : sts.length ≤ Nat.card (Pos sp.In sp.Out) * g.guarantees.length
  start : ∀ s ∈ startSet g perm recovery Z, ∃ st ∈ sts, st.pos sp = s ∧ st.rank = 0
  first : ∃ n, ∀ st ∈ sts, st.num < n ↔ (st.pos sp ∈ startSet g perm recovery Z ∧ st.rank = 0)
  total : ∀ st ∈ sts, ∀ i, g.safetyEnv (st.pos sp) i → ∃ st', Edge sts st st' ∧ (st'.pos sp).1 = i
  det : perm = false → Deterministic sp sts
  edge : ∀ st st', Edge sts st st' → moves g perm dump st.rank (st.pos sp) (st'.pos sp) ∧
    (recovery = true ∨ g.safetyEnv (st.pos sp) (st'.pos sp).1) ∧
    GoalStep g (st.pos sp) (st'.pos sp) st.rank st'.rank
  reach : ∀ st ∈ sts, (st.pos sp ∈ startSet g perm recovery Z ∧ st.rank = 0) ∨ ∃ st', Edge sts st' st ∧ st'.num < st.num

theorem follows_of_extracted {ds : Decls} (F : Section → List Fml) (hn : (tableOf ds).names.Nodup) (perm recovery : Bool)
    {g : Game (specOf ds F).In (specOf ds F).Out} {Z : Set (Pos (specOf ds F).In (specOf ds F).Out)}
    {dump : Dump (T (specOf ds F).In (specOf ds F).Out)}
    {ks : List (Pos (specOf ds F).In (specOf ds F).Out × Nat)} {sts : List PState}
    (hf : Family g Z (entries dump))
    (h : Extracted g (semVars ds) perm recovery Z dump ks sts) :
    Follows (specOf ds F) g Z perm recovery dump sts := by
  classical
  have hst : ∀ (m : Nat) (st : PState), sts[m]? = some st → ∃ k : Pos (specOf ds F).In (specOf ds F).Out × Nat, ks[m]? = some k ∧ st.num = m ∧ st.rank = k.2 ∧ st.pos (specOf ds F) = k.1 ∧
      st.Complete (specOf ds F) ∧ ∃ ts : List (Pos (specOf ds F).In (specOf ds F).Out × Nat),
        st.succ = ts.map (fun t => ks.idxOf t) ∧ (∀ t ∈ ts, t ∈ ks) ∧
        SuccOK g perm k.1 k.2 {t | moves g perm dump k.2 k.1 t ∧
          (recovery = true ∨ g.safetyEnv k.1 t.1)} ts := by
    intro m st hm
    obtain ⟨k, ts, h1, h2, h3, h4, h5, h6, h7⟩ := h.state m st hm
    refine ⟨k, h1, h2, h3, label_pos F hn h4, ?_, ts, by rw [h5]; congr!, h6, h7⟩
    rw [PState.Complete, h4]
    exact label_names F hn k.1
  have hidx : ∀ {st : PState}, st ∈ sts → sts[st.num]? = some st := by
    intro st hst'
    obtain ⟨m, hm, rfl⟩ := List.getElem_of_mem hst'
    obtain ⟨k, _, h2, _⟩ := hst m _ (List.getElem?_eq_getElem hm)
    rw [h2, List.getElem?_eq_getElem hm]
  -- every table entry is printed
  have hout : ∀ k ∈ ks, ∃ st ∈ sts, st.num = ks.idxOf k ∧ st.rank = k.2 ∧ st.pos (specOf ds F) = k.1 := by
    intro k hk
    have hlt : ks.idxOf k < sts.length := by rw [h.length]; exact List.idxOf_lt_length_of_mem hk
    obtain ⟨k', h1, h2, h3, h4, _⟩ := hst _ _ (List.getElem?_eq_getElem hlt)
    rw [List.getElem?_eq_getElem (List.idxOf_lt_length_of_mem hk), List.getElem_idxOf] at h1
    cases h1
    exact ⟨_, List.getElem_mem hlt, h2, h3, h4⟩
  -- edges
  have hedge : ∀ {st st' : PState}, Edge sts st st' → ∃ k k' : Pos (specOf ds F).In (specOf ds F).Out × Nat, k ∈ ks ∧ k' ∈ ks ∧ st.rank = k.2 ∧ st.pos (specOf ds F) = k.1 ∧
      st'.rank = k'.2 ∧ st'.pos (specOf ds F) = k'.1 ∧ st'.num = ks.idxOf k' ∧
      ∃ ts : List (Pos (specOf ds F).In (specOf ds F).Out × Nat), k' ∈ ts ∧
        st.succ = ts.map (fun t => ks.idxOf t) ∧ (∀ t ∈ ts, t ∈ ks) ∧
        SuccOK g perm k.1 k.2 {t | moves g perm dump k.2 k.1 t ∧
          (recovery = true ∨ g.safetyEnv k.1 t.1)} ts := by
    rintro st st' ⟨h1, h2, h3⟩
    obtain ⟨k, hk, a1, a2, a3, _, ts, a5, a6, a7⟩ := hst _ _ (hidx h1)
    obtain ⟨k', hk', b1, b2, b3, _⟩ := hst _ _ (hidx h2)
    rw [a5] at h3
    obtain ⟨t, ht, he⟩ := List.mem_map.mp h3
    have : t = k' := by
      have h4 := List.idxOf_lt_length_of_mem (a6 t ht)
      rw [← he, List.getElem?_eq_getElem h4, List.getElem_idxOf] at hk'
      exact Option.some.inj hk'
    subst this
    exact ⟨k, t, List.mem_of_getElem? hk, a6 t ht, a2, a3, b2, b3, he.symm, ts, ht, a5, a6, a7⟩
  constructor
  · constructor
    · apply List.ext_getElem (by simp)
      intro m h1 h2
      simp only [List.length_map] at h1
      obtain ⟨k, _, h3, _⟩ := hst m _ (List.getElem?_eq_getElem h1)
      simp [h3]
    · have e : (sts.map fun st => (st.pos (specOf ds F), st.rank)) = ks := by
        apply List.ext_getElem (by simp [h.length])
        intro m h1 h2
        simp only [List.length_map] at h1
        obtain ⟨k, h3, _, h4, h5, _⟩ := hst m _ (List.getElem?_eq_getElem h1)
        rw [List.getElem?_eq_getElem h2] at h3
        cases h3
        rw [List.getElem_map]
        exact Prod.ext h5 h4
      rw [e]
      exact h.nodup
    · intro st hm
      obtain ⟨k, _, _, _, _, h1, _⟩ := hst _ _ (hidx hm)
      exact h1
    · intro st hm n hn
      obtain ⟨k, _, _, _, _, _, ts, h1, h2, _⟩ := hst _ _ (hidx hm)
      rw [h1] at hn
      obtain ⟨t, ht, rfl⟩ := List.mem_map.mp hn
      rw [h.length]
      exact List.idxOf_lt_length_of_mem (h2 t ht)
    · intro st hm
      obtain ⟨k, _, _, _, _, _, ts, h1, h2, h3⟩ := hst _ _ (hidx hm)
      rw [h1]
      have hself : ∀ t : Pos (specOf ds F).In (specOf ds F).Out, captured perm t t := fun t => by cases perm <;> simp [captured]
      have hnd : ts.Nodup := h3.once.imp (by rintro a b hab rfl; exact hab (hself _))
      refine List.Nodup.map_on ?_ hnd
      intro t ht t' ht' he
      exact (List.idxOf_inj (h2 t ht)).mp he
  · intro st hm
    obtain ⟨k, hk, _, _, h1, _⟩ := hst _ _ (hidx hm)
    rw [h1]
    exact h.win k (List.mem_of_getElem? hk)
  · intro st hm
    obtain ⟨k, hk, _, h1, _⟩ := hst _ _ (hidx hm)
    rw [h1]
    exact h.rank k (List.mem_of_getElem? hk)
  · rw [h.length]
    exact length_le_of_nodup h.nodup h.rank
  · intro s hs
    obtain ⟨st, h1, _, h2, h3⟩ := hout (s, 0) (h.start s hs)
    exact ⟨st, h1, h3, h2⟩
  · obtain ⟨n, hn'⟩ := h.first
    refine ⟨n, fun st hm => ?_⟩
    obtain ⟨k, hk, h1, h2, h3, _⟩ := hst _ _ (hidx hm)
    rw [hn' _ _ hk, h2, h3]
  · intro st hm i hi
    obtain ⟨k, hk, h1, h2, h3, _, ts, h4, h5, h6⟩ := hst _ _ (hidx hm)
    have hkm := List.mem_of_getElem? hk
    rw [h3] at hi
    obtain ⟨o, ho⟩ := moves_exists (g := g) (perm := perm) (dump := dump) (j := k.2) (s := k.1)
      ((hf k.2 _ (List.getElem?_eq_getElem (h.rank k hkm))).covers (h.win k hkm)) hi
    obtain ⟨t, ht, hc⟩ := h6.all (i, o) ⟨ho, .inr hi⟩
    obtain ⟨st', h7, h8, h9, h10⟩ := hout t (h5 t ht)
    refine ⟨st', ⟨hm, h7, ?_⟩, ?_⟩
    · rw [h4, h8]; exact List.mem_map.mpr ⟨t, ht, rfl⟩
    · rw [h10]
      cases perm
      · exact (show i = t.1.1 from hc).symm
      · exact (congrArg Prod.fst (show (i, o) = t.1 from hc)).symm
  · intro hp st st1 st2 h1 h2 he
    subst hp
    obtain ⟨k, k', a1, a2, a3, a4, a5, a6, a7, ts, a8, a9, a10, a11⟩ := hedge h1
    obtain ⟨l, l', b1, b2, b3, b4, b5, b6, b7, ts', b8, b9, b10, b11⟩ := hedge h2
    have hts : l' ∈ ts := by
      have h3 := h2.2.2
      rw [a9, b7] at h3
      obtain ⟨t, ht, he⟩ := List.mem_map.mp h3
      rwa [← (List.idxOf_inj (a10 t ht)).mp he]
    rw [a6, b6] at he
    have hkl : k' = l' := by
      by_contra hne
      have := a11.once
      obtain ⟨m, hm, rfl⟩ := List.getElem_of_mem a8
      obtain ⟨m', hm', rfl⟩ := List.getElem_of_mem hts
      rw [List.pairwise_iff_getElem] at this
      have hmm : m ≠ m' := fun e => hne (by subst e; rfl)
      rcases Nat.lt_or_gt_of_ne hmm with hlt | hlt
      · exact this m m' hm hm' hlt he.symm
      · exact this m' m hm' hm hlt he
    have h5 := hidx h1.2.1
    have h6 := hidx h2.2.1
    rw [a7, hkl, ← b7, h6] at h5
    exact (Option.some.inj h5).symm
  · intro st st' h1
    obtain ⟨k, k', a1, a2, a3, a4, a5, a6, a7, ts, a8, a9, a10, a11⟩ := hedge h1
    rw [a3, a4, a5, a6]
    exact ⟨(a11.mem k' a8).1, (a11.mem k' a8).2, a11.step k' a8⟩
  · intro st hm
    obtain ⟨k, hk, h1, h2, h3, _⟩ := hst _ _ (hidx hm)
    have hi : st.num = ks.idxOf k := by
      have hlt : st.num < ks.length := (List.getElem?_eq_some_iff.mp hk).1
      have he : ks[st.num] = k := (List.getElem?_eq_some_iff.mp hk).2
      rw [← he, h.nodup.idxOf_getElem]
    rcases h.reach k (List.mem_of_getElem? hk) with ⟨h4, h5⟩ | ⟨st', h4, h5, h6⟩
    · exact .inl ⟨by rw [h3]; exact h4, h2.trans h5⟩
    · refine .inr ⟨st', ⟨h4, hm, ?_⟩, ?_⟩
      · rw [hi]; convert h5
      · rw [hi]; convert h6

/-- Runs of printed states on which the environment obeys the safety assumptions. -/
theorem Follows.live {sp : SpecFile} {g : Game sp.In sp.Out} {Z : Set (Pos sp.In sp.Out)} {perm recovery : Bool}
    {dump : Dump (T sp.In sp.Out)} {sts : List PState} (h : Follows sp g Z perm recovery dump sts) (hf : Family g Z (entries dump))
    (r : Nat → PState) (hr : ∀ n, Edge sts (r n) (r (n + 1)))
    (henv : ∀ n, g.safetyEnv ((r n).pos sp) ((r (n + 1)).pos sp).1) : g.Live fun n => (r n).pos sp := by
  refine family_live g hf _ (fun n => (r n).rank) (fun n => h.rank _ (hr n).1) (h.win _ (hr 0).1) ?_ ?_
  · intro n
    exact moves_used (h.edge _ _ (hr n)).1 (henv n)
  · intro n
    exact (h.edge _ _ (hr n)).2.2

theorem Follows.safe {sp : SpecFile} {g : Game sp.In sp.Out} {Z : Set (Pos sp.In sp.Out)} {perm recovery : Bool}
    {dump : Dump (T sp.In sp.Out)} {sts : List PState} (h : Follows sp g Z perm recovery dump sts) (hf : Family g Z (entries dump))
    (st st' : PState) (he : Edge sts st st') : g.safetySys (st.pos sp) (st'.pos sp) :=
  (hf st.rank _ (List.getElem?_eq_getElem (h.rank _ he.1))).safe (moves_mem (h.edge _ _ he).1)

/-- The printed states as an implementation of the specification. -/
structure Printed (sp : SpecFile) (perm recovery : Bool) (sts : List PState) : Prop where
  wf : WellFormed sp sts
  win : ∀ st ∈ sts, sp.game.SysWins (st.pos sp)
  length : sts.length ≤ Nat.card (Pos sp.In sp.Out) * max 1 sp.game.guarantees.length
  start : ∀ s, sp.game.SysWins s → (perm = true ∨ (sp.game.initSys s ∧ (recovery = true ∨ sp.game.initEnv s.1))) →
    ∃ st ∈ sts, st.pos sp = s ∧ st.rank = 0
  first : ∃ n, ∀ st ∈ sts, st.num < n ↔ (st.rank = 0 ∧ sp.game.SysWins (st.pos sp) ∧
    (perm = true ∨ (sp.game.initSys (st.pos sp) ∧ (recovery = true ∨ sp.game.initEnv (st.pos sp).1))))
  total : Complete sp sts
  det : perm = false → Deterministic sp sts
  strict : recovery = false → ∀ st st', Edge sts st st' → sp.game.safetyEnv (st.pos sp) (st'.pos sp).1
  safe : Safe sp sts
  live : LiveRuns sp sts
  reach : ∀ st ∈ sts, (st.rank = 0 ∧ sp.game.SysWins (st.pos sp) ∧
    (perm = true ∨ (sp.game.initSys (st.pos sp) ∧ (recovery = true ∨ sp.game.initEnv (st.pos sp).1)))) ∨
    ∃ st', Edge sts st' st ∧ st'.num < st.num

theorem printed_of_extracted {ds : Decls} (F : Section → List Fml) (hn : (tableOf ds).names.Nodup) (perm recovery : Bool)
    {dump : Dump (T (specOf ds F).In (specOf ds F).Out)}
    {ks : List (Pos (specOf ds F).In (specOf ds F).Out × Nat)} {sts : List PState}
    (hf : Family (padGame (specOf ds F).game) (nuZ (padGame (specOf ds F).game)) (entries dump))
    (hZ : ∀ s, s ∈ nuZ (padGame (specOf ds F).game) ↔ (specOf ds F).game.SysWins s)
    (h : Extracted (padGame (specOf ds F).game) (semVars ds) perm recovery (nuZ (padGame (specOf ds F).game)) dump ks sts) :
    Printed (specOf ds F) perm recovery sts := by
  have hF := follows_of_extracted F hn perm recovery hf h
  refine ⟨hF.wf, fun st hm => (hZ _).mp (hF.win st hm), ?_, fun s hs hi => hF.start s ⟨(hZ s).mpr hs, hi⟩, ?_, hF.total, hF.det, ?_,
    hF.safe hf, ?_, fun st hm => (hF.reach st hm).imp (fun ⟨h1, h2⟩ => ⟨h2, (hZ _).mp h1.1, h1.2⟩) id⟩
  · have e : (padGame (specOf ds F).game).guarantees.length = max 1 (specOf ds F).game.guarantees.length := by
      simp only [padGame]
      cases (specOf ds F).game.guarantees <;> simp [padLive]
    have := hF.length
    rwa [e] at this
  · obtain ⟨n, hn'⟩ := hF.first
    refine ⟨n, fun st hm => ?_⟩
    rw [hn' st hm, ← hZ]
    exact and_comm
  · intro hr st st' h1
    refine (hF.edge st st' h1).2.1.elim (fun e => ?_) id
    rw [hr] at e; cases e
  · intro r hr henv
    rw [← padGame_live]
    exact hF.live hf r hr henv

end Slugs.Model
