import Verif.Spec.Substitution
import Verif.Lemmas.GameEmbed
import Verif.Lemmas.StructuredOutput

/-!
The tool that replaces integer variables: the game after the replacement is the same one, with other names and shifted values.
-/

namespace Slugs.Model.Substitutor

open Slugs.Spec Slugs.Spec.Structured
open Slugs.Model.Structured

/-- By how much the values of the variable are shifted. -/
def amt (rs : List Shift) (d : Decl) : Int :=
  match rs.find? (fun r => r.x = d.name), d.range with
  | some r, some _ => r.amount
  | _, _ => 0

theorem shift_bool {rs : List Shift} {d : Decl} (h : d.range = none) : d.shift rs = d ∧ amt rs d = 0 := by
  rw [Decl.shift, amt, h]
  constructor <;> · split <;> simp_all

theorem shift_range {rs : List Shift} {d : Decl} {lo hi : Int} (h : d.range = some (lo, hi)) : (d.shift rs).range = some (lo + amt rs d, hi + amt rs d) := by
  rw [Decl.shift, amt, h]
  cases rs.find? fun r => r.x = d.name with
  | none => simp [h]
  | some r => rfl

theorem shift_none {rs : List Shift} {d : Decl} (h : ∀ r ∈ rs, r.x ≠ d.name) : d.shift rs = d ∧ amt rs d = 0 := by
  have : rs.find? (fun r => decide (r.x = d.name)) = none := by
    rw [List.find?_eq_none]
    simpa using h
  rw [Decl.shift, amt, this]
  exact ⟨rfl, rfl⟩

theorem shift_some {rs : List Shift} (hn : (rs.map Shift.x).Nodup) {d : Decl} {r : Shift} (hr : r ∈ rs) (h : r.x = d.name) {lo hi : Int} (hd : d.range = some (lo, hi)) :
    d.shift rs = ⟨r.y, some (lo + r.amount, hi + r.amount)⟩ ∧ amt rs d = r.amount := by
  have : rs.find? (fun r => decide (r.x = d.name)) = some r := by
    cases e : rs.find? (fun r => decide (r.x = d.name)) with
    | none => exact absurd h (by have := List.find?_eq_none.mp e r hr; simpa using this)
    | some r' =>
      have h1 := List.mem_of_find?_eq_some e
      have h2 := List.find?_some e
      rw [List.inj_on_of_nodup_map hn h1 hr ((by simpa using h2 : r'.x = d.name).trans h.symm)]
  rw [Decl.shift, amt, this, hd]
  exact ⟨rfl, rfl⟩

/-! ### Values -/

variable {rs : List Shift}

/-- The values after the replacement. -/
def shiftFun (rs : List Shift) (ds : List Decl) (v : Word → Int) (w : Word) : Int :=
  match ds.find? (fun d => (d.shift rs).name = w) with
  | some d => v d.name + amt rs d
  | none => 0

theorem find_key {A K : Type} [DecidableEq K] {key : A → K} {ds : List A} (hn : (ds.map key).Nodup) {d : A} (hd : d ∈ ds) :
    ds.find? (fun e => decide (key e = key d)) = some d := by
  cases e : ds.find? (fun e => decide (key e = key d)) with
  | none => have := List.find?_eq_none.mp e d hd; simp at this
  | some d' =>
    have h1 := List.mem_of_find?_eq_some e
    have h2 := List.find?_some e
    rw [List.inj_on_of_nodup_map hn h1 hd (by simpa using h2)]

theorem shiftFun_name {ds : List Decl} (hn : (ds.map fun d => (d.shift rs).name).Nodup) (v : Word → Int) {d : Decl} (hd : d ∈ ds) :
    shiftFun rs ds v (d.shift rs).name = v d.name + amt rs d := by
  rw [shiftFun, find_key hn hd]

theorem shift_ok {d : Decl} {z : Int} : (d.shift rs).Ok (z + amt rs d) ↔ d.Ok z := by
  cases h : d.range with
  | none =>
    rw [(shift_bool h).1, (shift_bool h).2, Int.add_zero]
  | some q =>
    obtain ⟨lo, hi⟩ := q
    rw [Decl.Ok, shift_range h, Decl.Ok, h]
    dsimp only
    omega

/-- The values after the replacement, as a valuation. -/
def shiftVal (rs : List Shift) (ds : List Decl) (hn : (ds.map fun d => (d.shift rs).name).Nodup) (v : Valuation ds) : Valuation (ds.map (Decl.shift rs)) :=
  ⟨shiftFun rs ds v.1, by
    refine ⟨?_, ?_⟩
    · intro d' hd'
      obtain ⟨d, hd, rfl⟩ := List.mem_map.mp hd'
      rw [shiftFun_name hn v.1 hd, shift_ok]
      exact v.2.1 d hd
    · intro x hx
      rw [shiftFun]
      cases e : ds.find? (fun d => (d.shift rs).name = x) with
      | none => rfl
      | some d =>
        have h1 := List.mem_of_find?_eq_some e
        have h2 := List.find?_some e
        exact absurd (List.mem_map.mpr ⟨_, List.mem_map.mpr ⟨d, h1, rfl⟩, by simpa using h2⟩) hx⟩

theorem shiftVal_inj {ds : List Decl} (hn : (ds.map fun d => (d.shift rs).name).Nodup) : Function.Injective (shiftVal rs ds hn) := by
  intro v v' h
  apply Subtype.ext
  funext x
  by_cases hx : x ∈ ds.map Decl.name
  · obtain ⟨d, hd, rfl⟩ := List.mem_map.mp hx
    have : shiftFun rs ds v.1 (d.shift rs).name = shiftFun rs ds v'.1 (d.shift rs).name := congrFun (congrArg Subtype.val h) _
    rw [shiftFun_name hn v.1 hd, shiftFun_name hn v'.1 hd] at this
    omega
  · rw [v.2.2 x hx, v'.2.2 x hx]

/-- The values before the replacement. -/
def unshiftFun (rs : List Shift) (ds : List Decl) (v' : Word → Int) (x : Word) : Int :=
  match ds.find? (fun e => e.name = x) with
  | some e => v' (e.shift rs).name - amt rs e
  | none => 0

theorem unshiftFun_name {ds : List Decl} (ho : (ds.map Decl.name).Nodup) (v' : Word → Int) {d : Decl} (hd : d ∈ ds) :
    unshiftFun rs ds v' d.name = v' (d.shift rs).name - amt rs d := by
  rw [unshiftFun, find_key ho hd]

theorem unshiftFun_ok {ds : List Decl} (ho : (ds.map Decl.name).Nodup) (v' : Valuation (ds.map (Decl.shift rs))) :
    (∀ d ∈ ds, d.Ok (unshiftFun rs ds v'.1 d.name)) ∧ ∀ x, x ∉ ds.map Decl.name → unshiftFun rs ds v'.1 x = 0 := by
  refine ⟨?_, ?_⟩
  · intro d hd
    rw [unshiftFun_name ho v'.1 hd, ← shift_ok (rs := rs), Int.sub_add_cancel]
    exact v'.2.1 _ (List.mem_map.mpr ⟨d, hd, rfl⟩)
  · intro x hx
    have : ds.find? (fun e => decide (e.name = x)) = none := by
      rw [List.find?_eq_none]
      intro e he h
      exact hx (List.mem_map.mpr ⟨e, he, by simpa using h⟩)
    rw [unshiftFun, this]

theorem shiftVal_surj {ds : List Decl} (hn : (ds.map fun d => (d.shift rs).name).Nodup) (ho : (ds.map Decl.name).Nodup) (v' : Valuation (ds.map (Decl.shift rs))) :
    ∃ v, v' = shiftVal rs ds hn v := by
  refine ⟨⟨unshiftFun rs ds v'.1, unshiftFun_ok ho v'⟩, ?_⟩
  apply Subtype.ext
  funext x
  by_cases hx : x ∈ (ds.map (Decl.shift rs)).map Decl.name
  · obtain ⟨d', hd', rfl⟩ := List.mem_map.mp hx
    obtain ⟨d, hd, rfl⟩ := List.mem_map.mp hd'
    change _ = shiftFun rs ds (unshiftFun rs ds v'.1) _
    rw [shiftFun_name hn _ hd, unshiftFun_name ho _ hd, Int.sub_add_cancel]
  · exact (v'.2.2 x hx).trans ((shiftVal rs ds hn ⟨unshiftFun rs ds v'.1, unshiftFun_ok ho v'⟩).2.2 x hx).symm

/-! ### Positions -/

/-- What is used of the declarations. -/
structure ShiftOk (rs : List Shift) (S : SSpec) : Prop where
  tidy : ∀ d ∈ S.inputs ++ S.outputs, Tidy d.name ∧ Tidy (d.shift rs).name
  nodup : S.names.Nodup
  fresh : ((S.inputs ++ S.outputs).map fun d => (d.shift rs).name).Nodup

variable {S : SSpec}

theorem ShiftOk.old (h : ShiftOk rs S) : ((S.inputs ++ S.outputs).map Decl.name).Nodup := by
  have := h.nodup
  rw [SSpec.names, SSpec.inputNames, SSpec.outputNames, ← List.map_append] at this
  exact this

theorem ShiftOk.inputs (h : ShiftOk rs S) : (S.inputs.map fun d => (d.shift rs).name).Nodup := by
  have := h.fresh
  rw [List.map_append] at this
  exact this.of_append_left

theorem ShiftOk.outputs (h : ShiftOk rs S) : (S.outputs.map fun d => (d.shift rs).name).Nodup := by
  have := h.fresh
  rw [List.map_append] at this
  exact this.of_append_right

/-- The specification after the replacement, with any constraints. -/
def shifted (rs : List Shift) (S : SSpec) (c1 c2 c3 c4 c5 c6 : List Constraint) : SSpec :=
  ⟨S.inputs.map (Decl.shift rs), S.outputs.map (Decl.shift rs), c1, c2, c3, c4, c5, c6⟩

variable {c1 c2 c3 c4 c5 c6 : List Constraint}

/-- The positions after the replacement. -/
def eIn (h : ShiftOk rs S) : S.In → (shifted rs S c1 c2 c3 c4 c5 c6).In := shiftVal rs S.inputs h.inputs

def eOut (h : ShiftOk rs S) : S.Out → (shifted rs S c1 c2 c3 c4 c5 c6).Out := shiftVal rs S.outputs h.outputs

theorem shifted_names : (shifted rs S c1 c2 c3 c4 c5 c6).names = (S.inputs ++ S.outputs).map fun d => (d.shift rs).name := by
  rw [SSpec.names, SSpec.inputNames, SSpec.outputNames, shifted]
  simp [List.map_append, Function.comp_def]

theorem now_shift (h : ShiftOk rs S) (p : Pos S.In S.Out) {d : Decl} (hd : d ∈ S.inputs ++ S.outputs) :
    (shifted rs S c1 c2 c3 c4 c5 c6).now (embPos (eIn h) (eOut h) p) (d.shift rs).name = S.now p d.name + amt rs d := by
  have hin : (d.shift rs).name ∈ (shifted rs S c1 c2 c3 c4 c5 c6).inputNames ↔ d ∈ S.inputs := by
    constructor
    · intro hm
      obtain ⟨d', hd', e⟩ := List.mem_map.mp hm
      obtain ⟨d2, hd2, rfl⟩ := List.mem_map.mp hd'
      have := List.inj_on_of_nodup_map h.fresh (List.mem_append_left _ hd2) hd e
      exact this ▸ hd2
    · exact fun hm => List.mem_map.mpr ⟨_, List.mem_map.mpr ⟨d, hm, rfl⟩, rfl⟩
  have hin' : d.name ∈ S.inputNames ↔ d ∈ S.inputs := by
    constructor
    · intro hm
      obtain ⟨d2, hd2, e⟩ := List.mem_map.mp hm
      have := List.inj_on_of_nodup_map h.old (List.mem_append_left _ hd2) hd e
      exact this ▸ hd2
    · exact fun hm => List.mem_map.mpr ⟨d, hm, rfl⟩
  rw [SSpec.now, SSpec.now]
  by_cases hi : d ∈ S.inputs
  · rw [if_pos (hin.mpr hi), if_pos (hin'.mpr hi)]
    exact shiftFun_name h.inputs p.1.1 hi
  · rw [if_neg (fun hm => hi (hin.mp hm)), if_neg (fun hm => hi (hin'.mp hm))]
    exact shiftFun_name h.outputs p.2.1 ((List.mem_append.mp hd).resolve_left hi)

theorem prime_not_tidy {x : Word} (h : Tidy (prime x)) : False := h.2.2.1 (by simp [prime])

theorem look_shift (h : ShiftOk rs S) (p q : Pos S.In S.Out) {d : Decl} (hd : d ∈ S.inputs ++ S.outputs) :
    (shifted rs S c1 c2 c3 c4 c5 c6).look (embPos (eIn h) (eOut h) p) (embPos (eIn h) (eOut h) q) (d.shift rs).name = S.look p q d.name + amt rs d := by
  rw [SSpec.look, if_pos (by rw [shifted_names]; exact List.mem_map.mpr ⟨d, hd, rfl⟩), SSpec.look,
    if_pos (by rw [SSpec.names, SSpec.inputNames, SSpec.outputNames, ← List.map_append]; exact List.mem_map.mpr ⟨d, hd, rfl⟩)]
  exact now_shift h p hd

theorem look_shift_next (h : ShiftOk rs S) (p q : Pos S.In S.Out) {d : Decl} (hd : d ∈ S.inputs ++ S.outputs) :
    (shifted rs S c1 c2 c3 c4 c5 c6).look (embPos (eIn h) (eOut h) p) (embPos (eIn h) (eOut h) q) (prime (d.shift rs).name) =
      S.look p q (prime d.name) + amt rs d := by
  have e1 : prime (d.shift rs).name ∉ (shifted rs S c1 c2 c3 c4 c5 c6).names := by
    rw [shifted_names]
    intro hm
    obtain ⟨d2, hd2, e⟩ := List.mem_map.mp hm
    exact prime_not_tidy (e ▸ (h.tidy d2 hd2).2)
  have e2 : prime d.name ∉ S.names := by
    rw [SSpec.names, SSpec.inputNames, SSpec.outputNames, ← List.map_append]
    intro hm
    obtain ⟨d2, hd2, e⟩ := List.mem_map.mp hm
    exact prime_not_tidy (e ▸ (h.tidy d2 hd2).1)
  have e3 : ∀ x : Word, (prime x).dropLast = x := fun x => by simp [prime]
  rw [SSpec.look, if_neg e1, SSpec.look, if_neg e2, e3, e3]
  exact now_shift h q hd

/-! ### The game -/

/-- The constraint says the same after the replacement. -/
def SameHolds (h : ShiftOk rs S) (c c' : Constraint) : Prop :=
  ∀ p q : Pos S.In S.Out, (shifted rs S [] [] [] [] [] []).holds (embPos (eIn h) (eOut h) p) (embPos (eIn h) (eOut h) q) c' ↔ S.holds p q c

theorem forall2_iff {A B : Type} {R : A → B → Prop} {P : A → Prop} {Q : B → Prop} {l : List A} {l' : List B} (h : List.Forall₂ R l l')
    (hr : ∀ a b, R a b → (Q b ↔ P a)) : (∀ b ∈ l', Q b) ↔ ∀ a ∈ l, P a := by
  induction h with
  | nil => simp
  | cons h1 _ ih => rw [List.forall_mem_cons, List.forall_mem_cons, ih, hr _ _ h1]

theorem shifted_embeds (h : ShiftOk rs S) (h1 : List.Forall₂ (SameHolds h) S.envInit c1) (h2 : List.Forall₂ (SameHolds h) S.sysInit c2)
    (h3 : List.Forall₂ (SameHolds h) S.envTrans c3) (h4 : List.Forall₂ (SameHolds h) S.sysTrans c4) (h5 : List.Forall₂ (SameHolds h) S.envLiveness c5)
    (h6 : List.Forall₂ (SameHolds h) S.sysLiveness c6) :
    Embeds S.game (shifted rs S c1 c2 c3 c4 c5 c6).game (eIn h) (eOut h) := by
  have hol : ∀ p' q' c', (shifted rs S c1 c2 c3 c4 c5 c6).holds p' q' c' ↔ (shifted rs S [] [] [] [] [] []).holds p' q' c' := fun _ _ _ => Iff.rfl
  have same : ∀ {c c'}, SameHolds h c c' → ∀ p q : Pos S.In S.Out,
      (shifted rs S c1 c2 c3 c4 c5 c6).holds (embPos (eIn h) (eOut h) p) (embPos (eIn h) (eOut h) q) c' ↔ S.holds p q c := fun hs p q => hs p q
  have si : ∀ i', ∃ i, i' = eIn (c1 := c1) (c2 := c2) (c3 := c3) (c4 := c4) (c5 := c5) (c6 := c6) h i := by
    have : (S.inputs.map Decl.name).Nodup := by have := h.old; rw [List.map_append] at this; exact this.of_append_left
    exact shiftVal_surj h.inputs this
  have so : ∀ o', ∃ o, o' = eOut (c1 := c1) (c2 := c2) (c3 := c3) (c4 := c4) (c5 := c5) (c6 := c6) h o := by
    have : (S.outputs.map Decl.name).Nodup := by have := h.old; rw [List.map_append] at this; exact this.of_append_right
    exact shiftVal_surj h.outputs this
  have ii : Function.Injective (eIn (c1 := c1) (c2 := c2) (c3 := c3) (c4 := c4) (c5 := c5) (c6 := c6) h) := shiftVal_inj h.inputs
  have io : Function.Injective (eOut (c1 := c1) (c2 := c2) (c3 := c3) (c4 := c4) (c5 := c5) (c6 := c6) h) := shiftVal_inj h.outputs
  refine ⟨ii, io, ?_, ?_, ?_, ?_, ?_, ?_⟩
  · intro i'
    obtain ⟨i, rfl⟩ := si i'
    have e : (shifted rs S c1 c2 c3 c4 c5 c6).game.initEnv (eIn h i) ↔ S.game.initEnv i := by
      refine forall2_iff h1 fun c c' hc => ?_
      constructor
      · exact fun hh o => (same hc (i, o) (i, o)).mp (hh (eOut h o))
      · intro hh o'
        obtain ⟨o, rfl⟩ := so o'
        exact (same hc (i, o) (i, o)).mpr (hh o)
    exact ⟨fun hh => ⟨i, rfl, e.mp hh⟩, fun ⟨j, hj, hh⟩ => e.mpr (ii hj ▸ hh)⟩
  · intro i o'
    obtain ⟨o, rfl⟩ := so o'
    have e : (shifted rs S c1 c2 c3 c4 c5 c6).game.initSys (eIn h i, eOut h o) ↔ S.game.initSys (i, o) :=
      forall2_iff h2 fun c c' hc => same hc (i, o) (i, o)
    exact ⟨fun hh => ⟨o, rfl, e.mp hh⟩, fun ⟨j, hj, hh⟩ => e.mpr (io hj ▸ hh)⟩
  · intro p i'
    obtain ⟨i, rfl⟩ := si i'
    have e : (shifted rs S c1 c2 c3 c4 c5 c6).game.safetyEnv (embPos (eIn h) (eOut h) p) (eIn h i) ↔ S.game.safetyEnv p i := by
      refine forall2_iff h3 fun c c' hc => ?_
      constructor
      · exact fun hh o => (same hc p (i, o)).mp (hh (eOut h o))
      · intro hh o'
        obtain ⟨o, rfl⟩ := so o'
        exact (same hc p (i, o)).mpr (hh o)
    exact ⟨fun hh => ⟨i, rfl, e.mp hh⟩, fun ⟨j, hj, hh⟩ => e.mpr (ii hj ▸ hh)⟩
  · intro p i o'
    obtain ⟨o, rfl⟩ := so o'
    have e : (shifted rs S c1 c2 c3 c4 c5 c6).game.safetySys (embPos (eIn h) (eOut h) p) (eIn h i, eOut h o) ↔ S.game.safetySys p (i, o) :=
      forall2_iff h4 fun c c' hc => same hc p (i, o)
    exact ⟨fun hh => ⟨o, rfl, e.mp hh⟩, fun ⟨j, hj, hh⟩ => e.mpr (io hj ▸ hh)⟩
  · exact List.forall₂_map_left_iff.mpr (List.forall₂_map_right_iff.mpr (h5.imp fun c c' hc p q => same hc p q))
  · exact List.forall₂_map_left_iff.mpr (List.forall₂_map_right_iff.mpr (h6.imp fun c c' hc p q => same hc p q))

end Slugs.Model.Substitutor
