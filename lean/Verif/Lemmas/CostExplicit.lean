import Verif.Lemmas.CostSound
import Verif.Lemmas.Fuel
import Verif.Spec.Cost

/-! The extraction of an explicit strategy from the result of the search for cost-optimal strategies. -/

namespace Slugs.Model

open Slugs.Spec

variable {I O : Type}

open Classical in
/-- What is printed, whatever the recorded transitions are. -/
structure ExtractedAny (g : Game I O) (vs : Vars (T I O)) (perm recovery : Bool) (Z : Set (Pos I O)) (dump : Dump (T I O))
    (ks : List (Pos I O × Nat)) (sts : List PState) : Prop where
  nodup : ks.Nodup
  rank : ∀ k ∈ ks, k.2 < g.guarantees.length
  length : sts.length = ks.length
  start : ∀ s ∈ startSet g perm recovery Z, (s, 0) ∈ ks
  first : ∃ n, ∀ (m : Nat) (k : Pos I O × Nat), ks[m]? = some k → (m < n ↔ k.1 ∈ startSet g perm recovery Z ∧ k.2 = 0)
  state : ∀ m st, sts[m]? = some st → StateOK g vs perm
    (fun j s => {t | moves g perm dump j s t ∧ (recovery = true ∨ g.safetyEnv s t.1)}) ks m st
  reach : ∀ k ∈ ks, (k.1 ∈ startSet g perm recovery Z ∧ k.2 = 0) ∨ ∃ st ∈ sts, ks.idxOf k ∈ st.succ ∧ st.num < ks.idxOf k

theorem extractStrategy_any [Finite I] [Finite O] (g : Game I O) (hg : g.guarantees ≠ []) {vs : Vars (T I O)} (hv : VarsOK vs)
    (perm recovery : Bool) {Z : Set (Pos I O)} {dump : Dump (T I O)}
    (fuel : Nat) (hfuel : Nat.card (Pos I O) * g.guarantees.length < fuel) :
    ∃ ks sts, extractStrategy (semMgr I O) (gameCtx g) vs perm recovery fuel (pre Z) dump = some sts ∧
      ExtractedAny g vs perm recovery Z dump ks sts := by
  classical
  have hpos : 0 < g.guarantees.length := List.length_pos_iff.mpr hg
  have hfuel' : Nat.card (Pos I O) < fuel := lt_of_le_of_lt (Nat.le_mul_of_pos_right _ hpos) hfuel
  have e1 : (if perm = true then pre Z else if recovery = true then (semMgr I O).and (pre Z) (gameCtx g).initSys
      else (semMgr I O).and ((semMgr I O).and (pre Z) (gameCtx g).initSys) (gameCtx g).initEnv) =
      pre (startSet g perm recovery Z) := by
    funext s t
    cases perm <;> cases recovery <;> simp only [pre, startSet, semMgr, gameCtx, Set.mem_ofPred_eq, Bool.false_eq_true, if_false, if_true,
      eq_iff_iff] <;> tauto
  have e2 : (if perm = true then permissive (semMgr I O) (gameCtx g) dump else positional (semMgr I O) dump) = moves g perm dump := by
    funext j
    cases perm
    · exact positional_eq dump j
    · exact permissive_eq g dump j
  rw [extractStrategy, e1, e2]
  obtain ⟨ks, w, h1, h2, h3⟩ := initLoop_spec hv fuel (startSet g perm recovery Z) [] _
    (lt_of_le_of_lt (Set.ncard_le_card _) hfuel') WorkInv.nil (by simp)
  rw [h1]
  rw [List.nil_append] at h2
  obtain ⟨ks', sts, h4, h5, h6, h7, h8, -, h9⟩ := extractLoop_spec g hv perm recovery (moves g perm dump)
    (fun k => k.2 < g.guarantees.length) (fun k hk => hk) (fun k _ t j _ hj => hj)
    fuel hfuel' fuel ks w [] (by simpa using hfuel) h2
    (fun k hk => ((h3 k).mp hk).2 ▸ hpos)
    (by simp)
  refine ⟨ks ++ ks', sts, h4, h5, h6, h7,
    fun s hs => List.mem_append_left _ ((h3 _).mpr ⟨hs, rfl⟩), ⟨ks.length, fun m k hm => ?_⟩, h8,
    fun k hk => (List.mem_append.mp hk).imp (fun h => (h3 k).mp h) (h9 k)⟩
  rw [← h3 k]
  constructor
  · intro hlt
    rw [List.getElem?_append_left hlt] at hm
    exact List.mem_of_getElem? hm
  · intro hk
    by_contra hge
    rw [List.getElem?_append_right (by omega)] at hm
    exact (List.nodup_append.mp h5).2.2 k hk k (List.mem_of_getElem? hm) rfl

/-! ### Labels -/

theorem lookup_append_left {α β : Type} [BEq α] [LawfulBEq α] {l r : List (α × β)} {a : α} (h : a ∈ l.map Prod.fst) : (l ++ r).lookup a = l.lookup a := by
  induction l with
  | nil => cases h
  | cons e l ih =>
    obtain ⟨b, v⟩ := e
    rw [List.cons_append, List.lookup_cons, List.lookup_cons]
    by_cases hb : a = b
    · subst hb; simp
    · have : (a == b) = false := by simpa using hb
      rw [this]
      refine ih ?_
      rcases List.mem_cons.mp h with h | h
      · exact absurd h hb
      · exact h

section Labels

variable {B : Type} [DecidableEq B] [L : BddLib B] {ds : Decls} (hn : (tableOf ds).names.Nodup) (m p : Nat)

theorem ext_label (tab : VarTable) {ns : List Name} (ht : tab.names = (tableOf ds).names ++ ns) (s : Pos (ExtX ds → Bool) (ExtY ds m → Bool)) :
    ∃ extra, labelAt (extVars B hn m p tab) s = labelAt (semVars ds) (basePos s) ++ extra := by
  classical
  simp only [labelAt, extVars, semVars]
  rw [varsOfType_ext _ _ _ _ (by decide), List.map_append, List.map_append]
  simp only [List.map_map]
  refine ⟨_, congrArg (· ++ _) (List.map_congr_left fun k hk => ?_)⟩
  have hlen : (tableOf ds).names.length = (tableOf ds).types.length := by simp [tableOf]
  have key : ∀ (z : DSlot ds) (z' : Slot (ExtX ds) (ExtY ds m)), (extLayout ds hn m p).code z' = slotCode z → slots (basePos s) (basePos s) z = slots s s z' →
      tab.names.getD (slotCode z) [] = (tableOf ds).names.getD (slotCode z) [] ∧
      ((extLayout ds hn m p).dec B (L.var (slotCode z)) s s ↔ codeVar ds (slotCode z) (basePos s) (basePos s)) := by
    intro z z' hz hs
    constructor
    · rw [ht, List.getD_eq_getElem?_getD, List.getD_eq_getElem?_getD, List.getElem?_append_left]
      rw [hlen]
      exact slotCode_lt z
    · rw [codeVar_slot hn, hs, ← hz, dec_var]
  rcases (mem_pre hn).mp hk with ⟨x, rfl⟩ | ⟨x, rfl⟩
  · obtain ⟨h1, h2⟩ := key (.ci x) (.ci x) rfl rfl
    refine Prod.ext h1 ?_
    simp only [Function.comp]
    exact Bool.eq_iff_iff.mpr (decide_eq_true_iff.trans (h2.trans decide_eq_true_iff.symm))
  · obtain ⟨h1, h2⟩ := key (.co x) (.co (.inl x)) rfl rfl
    refine Prod.ext h1 ?_
    simp only [Function.comp]
    exact Bool.eq_iff_iff.mpr (decide_eq_true_iff.trans (h2.trans decide_eq_true_iff.symm))

theorem ext_label_pos (F : Section → List Fml) (tab : VarTable) {ns : List Name} (ht : tab.names = (tableOf ds).names ++ ns)
    {s : Pos (ExtX ds → Bool) (ExtY ds m → Bool)} {st : PState} (h : st.label = labelAt (extVars B hn m p tab) s) :
    st.pos (specOf ds F) = basePos s ∧ ∃ l extra, st.label = l ++ extra ∧ (l.map Prod.fst).Perm ((specOf ds F).inputs ++ (specOf ds F).outputs) := by
  obtain ⟨extra, he⟩ := ext_label (B := B) hn m p tab ht s
  have hp := label_names F hn (basePos s)
  refine ⟨?_, _, extra, h.trans he, hp⟩
  rw [← label_pos F hn (st := { st with label := labelAt (semVars ds) (basePos s) }) rfl]
  have key : ∀ x ∈ (specOf ds F).inputs ++ (specOf ds F).outputs, st.label.lookup x = (labelAt (semVars ds) (basePos s)).lookup x := by
    intro x hx
    rw [h, he, lookup_append_left (hp.mem_iff.mpr hx)]
  refine Prod.ext ?_ ?_
  · funext x
    exact congrArg (· == some true) (key x.1 (List.mem_append_left _ x.2))
  · funext x
    exact congrArg (· == some true) (key x.1 (List.mem_append_right _ x.2))

end Labels

/-! ### What is printed -/

/-- The game with additional bits and other initial states. -/
def withInit {X Y F : Type} (g : Game (X → Bool) (Y → Bool)) (f : ET X Y F) : Game (X → Bool) (Y ⊕ F → Bool) :=
  { extGame (F := F) g with initSys := fun s => f s s }

/-- The context with another value of `initSys`. -/
def setInit {A : Type} (c : Ctx A) (i : A) : Ctx A := { c with initSys := i }

theorem gameCtx_withInit {X Y F : Type} (g : Game (X → Bool) (Y → Bool)) {f : ET X Y F} (hf : PreOnly f) :
    setInit (eCtx F g) f = gameCtx (withInit g f) := by
  have e : f = fun s _ => f s s := by
    funext s t
    exact propext (hf s t s)
  conv_lhs => rw [e]
  rfl

theorem costPrinted_core (sp : SpecFile) {N : Type} {vs : Vars (ET {x // x ∈ sp.inputs} {x // x ∈ sp.outputs} N)} (perm recovery : Bool)
    (hvs : ∀ (st : PState) (s : EPos {x // x ∈ sp.inputs} {x // x ∈ sp.outputs} N), st.label = labelAt vs s → st.pos sp = basePos s ∧
      ∃ l extra, st.label = l ++ extra ∧ (l.map Prod.fst).Perm (sp.inputs ++ sp.outputs))
    (hZ : ∀ s, s ∈ nuZ (padGame sp.game) ↔ sp.game.SysWins s)
    {f : ET {x // x ∈ sp.inputs} {x // x ∈ sp.outputs} N} (hfi : ∀ s t, f s t → sp.game.initSys (basePos s))
    {dump : Dump (ET {x // x ∈ sp.inputs} {x // x ∈ sp.outputs} N)} (hd : ∀ e ∈ dump, GoodT (padGame sp.game) e.2)
    {ks : List (EPos {x // x ∈ sp.inputs} {x // x ∈ sp.outputs} N × Nat)} {sts : List PState}
    (h : ExtractedAny (withInit (padGame sp.game) f) vs perm recovery {s | basePos s ∈ nuZ (padGame sp.game)} dump ks sts) :
    CostPrinted sp perm recovery sts := by
  classical
  have hg : padGame sp.game = padGame sp.game := rfl
  generalize hgd : padGame sp.game = g at h hd hZ
  have hinE : ∀ s i, g.safetyEnv s i ↔ sp.game.safetyEnv s i := fun s i => by rw [← hgd]; rfl
  have hinS : ∀ s t, g.safetySys s t ↔ sp.game.safetySys s t := fun s i => by rw [← hgd]; rfl
  have hinI : ∀ i, g.initEnv i ↔ sp.game.initEnv i := fun i => by rw [← hgd]; rfl
  generalize hG : withInit g f = G at h
  have hGE : ∀ s i, G.safetyEnv s i ↔ sp.game.safetyEnv (basePos s) i := fun s i => by rw [← hG]; exact hinE _ _
  have hlen : G.guarantees.length = max 1 sp.game.guarantees.length := by
    simp only [← hG, withInit, extGame, List.length_map, ← hgd, padGame]
    cases sp.game.guarantees <;> simp [padLive]
  have hst : ∀ (n : Nat) (st : PState), sts[n]? = some st → ∃ k : EPos {x // x ∈ sp.inputs} {x // x ∈ sp.outputs} N × Nat, ks[n]? = some k ∧ st.num = n ∧ st.rank = k.2 ∧
      st.pos sp = basePos k.1 ∧
      (∃ l extra, st.label = l ++ extra ∧ (l.map Prod.fst).Perm (sp.inputs ++ sp.outputs)) ∧
      ∃ ts : List (EPos {x // x ∈ sp.inputs} {x // x ∈ sp.outputs} N × Nat),
        st.succ = ts.map (fun t => ks.idxOf t) ∧ (∀ t ∈ ts, t ∈ ks) ∧
        SuccOK G perm k.1 k.2 {t | moves G perm dump k.2 k.1 t ∧ (recovery = true ∨ G.safetyEnv k.1 t.1)} ts := by
    intro n st hm
    obtain ⟨k, ts, h1, h2, h3, h4, h5, h6, h7⟩ := h.state n st hm
    obtain ⟨h8, h9⟩ := hvs st k.1 h4
    exact ⟨k, h1, h2, h3, h8, h9, ts, by rw [h5]; congr!, h6, h7⟩
  have hidx : ∀ {st : PState}, st ∈ sts → sts[st.num]? = some st := by
    intro st hst'
    obtain ⟨n, hm, rfl⟩ := List.getElem_of_mem hst'
    obtain ⟨k, _, h2, _⟩ := hst n _ (List.getElem?_eq_getElem hm)
    rw [h2, List.getElem?_eq_getElem hm]
  have hedge : ∀ {st st' : PState}, Edge sts st st' → ∃ k k' : EPos {x // x ∈ sp.inputs} {x // x ∈ sp.outputs} N × Nat, k ∈ ks ∧ k' ∈ ks ∧ st.rank = k.2 ∧
      st.pos sp = basePos k.1 ∧ st'.rank = k'.2 ∧ st'.pos sp = basePos k'.1 ∧ st'.num = ks.idxOf k' ∧
      ∃ ts : List (EPos {x // x ∈ sp.inputs} {x // x ∈ sp.outputs} N × Nat), k' ∈ ts ∧
        st.succ = ts.map (fun t => ks.idxOf t) ∧ (∀ t ∈ ts, t ∈ ks) ∧
        SuccOK G perm k.1 k.2 {t | moves G perm dump k.2 k.1 t ∧ (recovery = true ∨ G.safetyEnv k.1 t.1)} ts := by
    rintro st st' ⟨h1, h2, h3⟩
    obtain ⟨k, hk, a1, a2, a3, _, ts, a5, a6, a7⟩ := hst _ _ (hidx h1)
    obtain ⟨k', hk', b1, b2, b3, _⟩ := hst _ _ (hidx h2)
    rw [a5] at h3
    obtain ⟨t, ht, he⟩ := List.mem_map.mp h3
    have : t = k' := by
      have h4 := List.idxOf_lt_length_of_mem (a6 t ht)
      rw [← he, List.getElem?_eq_getElem h4, List.getElem_idxOf] at hk'
      exact Option.some.inj hk'
    subst this
    exact ⟨k, t, List.mem_of_getElem? hk, a6 t ht, a2, a3, b2, b3, he.symm, ts, ht, a5, a6, a7⟩
  constructor
  · apply List.ext_getElem (by simp)
    intro n h1 h2
    simp only [List.length_map] at h1
    obtain ⟨k, _, h3, _⟩ := hst n _ (List.getElem?_eq_getElem h1)
    simp [h3]
  · intro st hm
    obtain ⟨k, _, _, _, _, h1, _⟩ := hst _ _ (hidx hm)
    exact h1
  · intro st hm n hn
    obtain ⟨k, _, _, _, _, _, ts, h1, h2, _⟩ := hst _ _ (hidx hm)
    rw [h1] at hn
    obtain ⟨t, ht, rfl⟩ := List.mem_map.mp hn
    rw [h.length]
    exact List.idxOf_lt_length_of_mem (h2 t ht)
  · intro st hm
    obtain ⟨k, _, _, _, _, _, ts, h1, h2, h3⟩ := hst _ _ (hidx hm)
    rw [h1]
    have hself : ∀ t : EPos {x // x ∈ sp.inputs} {x // x ∈ sp.outputs} N, captured perm t t := fun t => by cases perm <;> simp [captured]
    have hnd : ts.Nodup := h3.once.imp (by rintro a b hab rfl; exact hab (hself _))
    refine List.Nodup.map_on ?_ hnd
    intro t ht t' ht' he
    exact (List.idxOf_inj (h2 t ht)).mp he
  · intro st hm
    obtain ⟨k, hk, _, h1, _⟩ := hst _ _ (hidx hm)
    rw [h1, ← hlen]
    exact h.rank k (List.mem_of_getElem? hk)
  · intro hp st st1 st2 h1 h2 he
    subst hp
    obtain ⟨k, k', a1, a2, a3, a4, a5, a6, a7, ts, a8, a9, a10, a11⟩ := hedge h1
    obtain ⟨l, l', b1, b2, b3, b4, b5, b6, b7, ts', b8, b9, b10, b11⟩ := hedge h2
    have hts : l' ∈ ts := by
      have h3 := h2.2.2
      rw [a9, b7] at h3
      obtain ⟨t, ht, he⟩ := List.mem_map.mp h3
      rwa [← (List.idxOf_inj (a10 t ht)).mp he]
    rw [a6, b6] at he
    have hkl : k' = l' := by
      by_contra hne
      have := a11.once
      obtain ⟨m, hm, rfl⟩ := List.getElem_of_mem a8
      obtain ⟨m', hm', rfl⟩ := List.getElem_of_mem hts
      rw [List.pairwise_iff_getElem] at this
      have hmm : m ≠ m' := fun e => hne (by subst e; rfl)
      rcases Nat.lt_or_gt_of_ne hmm with hlt | hlt
      · exact this m m' hm hm' hlt he.symm
      · exact this m' m hm' hm hlt he
    have h5 := hidx h1.2.1
    have h6 := hidx h2.2.1
    rw [a7, hkl, ← b7, h6] at h5
    exact (Option.some.inj h5).symm
  · intro hr st st' h1
    obtain ⟨k, k', a1, a2, a3, a4, a5, a6, a7, ts, a8, a9, a10, a11⟩ := hedge h1
    rw [a4, a6]
    refine (a11.mem k' a8).2.elim (fun e => ?_) fun h => (hGE _ _).mp h
    rw [hr] at e; cases e
  · intro st st' h1
    obtain ⟨k, k', a1, a2, a3, a4, a5, a6, a7, ts, a8, a9, a10, a11⟩ := hedge h1
    rw [a3, a4, a5, a6]
    intro henv
    obtain ⟨d, hd1, hd2⟩ := moves_mem (a11.mem k' a8).1
    obtain ⟨e, he, rfl⟩ : ∃ e ∈ dump, e.2 = d := by
      obtain ⟨e, he, rfl⟩ := List.mem_map.mp hd1
      exact ⟨e, (List.mem_filter.mp he).1, rfl⟩
    obtain ⟨h2, h3⟩ := hd e he k.1 k'.1 hd2 ((hinE _ _).mpr henv)
    refine ⟨(hinS _ _).mp h2, (hZ _).mp h3, fun hne => ?_⟩
    have hgu : g.guarantees = sp.game.guarantees := by
      simp only [← hgd, padGame]
      cases hc : sp.game.guarantees with
      | nil => exact absurd hc hne
      | cons _ _ => rfl
    have hGl : G.guarantees.length = sp.game.guarantees.length := by
      rw [← hgu]; simp [← hG, withInit, extGame]
    have hgoal : ∀ j (hj : j < sp.game.guarantees.length), goalAt G j k.1 k'.1 ↔ sp.game.guarantees[j] (basePos k.1) (basePos k'.1) := by
      intro j hj
      have : G.guarantees[j]? = some (extLift fun s t => sp.game.guarantees[j] s t ∧ t ∈ nuZ g) := by
        simp only [← hG, withInit, extGame, hgu, List.getElem?_map, List.getElem?_eq_getElem hj, Option.map_some]
      simp only [goalAt, this, Option.some.injEq, exists_eq_left']
      exact ⟨fun h => h.1, fun h => ⟨h, h3⟩⟩
    intro hj
    obtain ⟨h4, h5⟩ := a11.step k' a8
    rw [hgoal _ hj] at h4 h5
    refine ⟨h4, fun h => ?_⟩
    obtain ⟨n, h6, h7, h8, h9⟩ := h5 h
    rw [hGl] at h7 h8 h9
    exact ⟨n, h6, h7, h8, fun l hl hlk => (hgoal _ hl).mp (h9 l hlk)⟩
  · intro st hm
    obtain ⟨k, hk, h1, h2, h3, _⟩ := hst _ _ (hidx hm)
    have hi : st.num = ks.idxOf k := by
      have hlt : st.num < ks.length := (List.getElem?_eq_some_iff.mp hk).1
      have he : ks[st.num] = k := (List.getElem?_eq_some_iff.mp hk).2
      rw [← he, h.nodup.idxOf_getElem]
    rcases h.reach k (List.mem_of_getElem? hk) with ⟨h4, h5⟩ | ⟨st', h4, h5, h6⟩
    · refine .inl ⟨h2.trans h5, ?_⟩
      rw [h3]
      subst hG
      exact ⟨(hZ _).mp h4.1, h4.2.imp id fun h => ⟨hfi _ _ h.1, h.2.imp id fun h => (hinI _).mp h⟩⟩
    · refine .inr ⟨st', ⟨h4, hm, ?_⟩, ?_⟩
      · rw [hi]; convert h5
      · rw [hi]; convert h6

theorem costPrinted {B : Type} [DecidableEq B] [L : BddLib B] {ds : Decls} (F : Section → List Fml) (hn : (tableOf ds).names.Nodup) (m p : Nat) (tab : VarTable)
    {ns : List Name} (ht : tab.names = (tableOf ds).names ++ ns) (perm recovery : Bool)
    (hZ : ∀ s, s ∈ nuZ (padGame (specOf ds F).game) ↔ (specOf ds F).game.SysWins s)
    {f : ET (ExtX ds) {x // x ∈ outputsOf ds} (Fin (m + 1))} (hfi : ∀ s t, f s t → (specOf ds F).game.initSys (basePos s))
    {dump : Dump (ET (ExtX ds) {x // x ∈ outputsOf ds} (Fin (m + 1)))} (hd : ∀ e ∈ dump, GoodT (padGame (specOf ds F).game) e.2)
    {ks : List (Pos (ExtX ds → Bool) (ExtY ds m → Bool) × Nat)} {sts : List PState}
    (h : ExtractedAny (withInit (padGame (specOf ds F).game) f) (extVars B hn m p tab) perm recovery {s | basePos s ∈ nuZ (padGame (specOf ds F).game)} dump ks sts) :
    CostPrinted (specOf ds F) perm recovery sts :=
  costPrinted_core (specOf ds F) perm recovery (fun _ _ h => ext_label_pos hn m p F tab ht h) hZ hfi hd h

end Slugs.Model
