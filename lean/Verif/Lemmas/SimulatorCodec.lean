import Verif.Model.CursesSimulator
import Mathlib.Data.List.Nodup
import Mathlib.Data.List.Dedup
import Mathlib.Data.List.Perm.Basic
import Mathlib.Tactic.Ring
import Mathlib.Algebra.BigOperators.Group.List.Basic

/-!
# Values and strings of bits in the simulator
-/

namespace Slugs.Model.Curses

open Slugs.Spec

/-! ### Numbers and their bits -/

/-- The number with the given bits. -/
def total (f : Nat → Bool) (w : Nat) : Int := ((List.range w).map fun a => if f a = true then (2 : Int) ^ a else 0).sum

theorem total_succ (f : Nat → Bool) (w : Nat) : total f (w + 1) = total f w + if f w = true then (2 : Int) ^ w else 0 := by
  simp [total, List.range_succ]

theorem total_bounds (f : Nat → Bool) (w : Nat) : 0 ≤ total f w ∧ total f w < 2 ^ w := by
  induction w with
  | zero => simp [total]
  | succ w ih =>
    rw [total_succ, pow_succ]
    split <;> omega

theorem total_inj {f g : Nat → Bool} {w : Nat} (h : total f w = total g w) : ∀ a < w, f a = g a := by
  induction w with
  | zero => intro a ha; omega
  | succ w ih =>
    rw [total_succ, total_succ] at h
    have hf := total_bounds f w
    have hg := total_bounds g w
    have hw : f w = g w ∧ total f w = total g w := by
      cases hfw : f w <;> cases hgw : g w <;> simp [hfw, hgw] at h ⊢ <;> omega
    intro a ha
    rcases Nat.lt_succ_iff_lt_or_eq.mp ha with ha | rfl
    · exact ih hw.2 a ha
    · exact hw.1

theorem total_bitOf (e : Int) (w : Nat) : total (bitOf e) w = e % 2 ^ w := by
  induction w with
  | zero => simp [total, Int.emod_one]
  | succ w ih =>
    rw [total_succ, ih, pow_succ]
    have h2 : (0 : Int) < 2 ^ w := Int.pow_pos (by decide)
    have h1 : e % (2 ^ w * 2) = e % 2 ^ w + 2 ^ w * (e / 2 ^ w % 2) := by
      rw [Int.emod_def e (2 ^ w * 2), Int.emod_def e (2 ^ w), Int.emod_def (e / 2 ^ w) 2, Int.ediv_ediv_of_nonneg (Int.le_of_lt h2)]
      ring
    rw [h1, bitOf]
    have h3 : e / 2 ^ w % 2 = 0 ∨ e / 2 ^ w % 2 = 1 := by omega
    rcases h3 with h3 | h3 <;> simp [h3]

/-- The value of a variable in terms of the bits in the order of their numbers. -/
theorem valueAt_eq {v : ShownVar} (hp : (v.bits.map Prod.fst).Perm (List.range v.bits.length)) (values : List Bool) (f : Nat → Bool)
    (hf : ∀ ab ∈ v.bits, f ab.1 = values.getD ab.2 false) : v.valueAt values = v.lo + total f v.bits.length := by
  have h1 : (v.bits.map fun ab => if values.getD ab.2 false = true then (2 : Int) ^ ab.1 else 0) =
      (v.bits.map Prod.fst).map (fun a => if f a = true then (2 : Int) ^ a else 0) := by
    rw [List.map_map]
    refine List.map_congr_left fun ab hab => ?_
    simp only [Function.comp, hf ab hab]
  rw [ShownVar.valueAt, h1, total, (hp.map _).sum_eq]

/-- The bit with the given number, as it is found among the propositions. -/
def bitFn (v : ShownVar) (values : List Bool) (a : Nat) : Bool := values.getD ((v.bits.lookup a).getD 0) false

theorem lookup_of_mem {α : Type} : ∀ {l : List (Nat × α)}, (l.map Prod.fst).Nodup → ∀ {ab}, ab ∈ l → l.lookup ab.1 = some ab.2 := by
  intro l
  induction l with
  | nil => intro _ ab h; simp at h
  | cons x l ih =>
    intro hn ab h
    simp only [List.map_cons, List.nodup_cons] at hn
    rcases List.mem_cons.mp h with rfl | h'
    · rw [List.lookup_cons, beq_self_eq_true]
    · have hne : (ab.1 == x.1) = false := by
        have : ab.1 ∈ l.map Prod.fst := List.mem_map_of_mem h'
        simp only [beq_eq_false_iff_ne, ne_eq]
        intro he
        exact hn.1 (he ▸ this)
      obtain ⟨xa, xb⟩ := x
      simp only at hne
      simp [List.lookup_cons, hne, ih hn.2 h']

theorem valueAt_bitFn {v : ShownVar} (hp : (v.bits.map Prod.fst).Perm (List.range v.bits.length)) (values : List Bool) :
    v.valueAt values = v.lo + total (bitFn v values) v.bits.length := by
  refine valueAt_eq hp values _ fun ab hab => ?_
  rw [bitFn, lookup_of_mem (hp.nodup_iff.mpr List.nodup_range) hab]
  rfl

theorem valueAt_inj {v : ShownVar} (hp : (v.bits.map Prod.fst).Perm (List.range v.bits.length)) {x y : List Bool} (h : v.valueAt x = v.valueAt y) :
    ∀ ab ∈ v.bits, x.getD ab.2 false = y.getD ab.2 false := by
  rw [valueAt_bitFn hp, valueAt_bitFn hp] at h
  intro ab hab
  have h1 := total_inj (by omega : total (bitFn v x) v.bits.length = total (bitFn v y) v.bits.length) ab.1
    (List.mem_range.mp (hp.mem_iff.mp (List.mem_map_of_mem hab)))
  rw [bitFn, bitFn, lookup_of_mem (hp.nodup_iff.mpr List.nodup_range) hab] at h1
  exact h1

variable {n : Nat} {vars : List ShownVar}

theorem getD_of_lt {x : List Bool} {k : Nat} (h : k < x.length) : x.getD k false = x[k] := by
  rw [List.getD_eq_getElem?_getD, List.getElem?_eq_getElem h]
  rfl

/-- Different values of the propositions are shown as different values of the variables. -/
theorem values_inj (hN : Numbering n vars) {x y : List Bool} (hx : x.length = n) (hy : y.length = n)
    (h : vars.map (fun v => v.valueAt x) = vars.map (fun v => v.valueAt y)) : x = y := by
  refine List.ext_getElem (hx.trans hy.symm) fun k h1 h2 => ?_
  have hk : k ∈ vars.flatMap fun v => v.bits.map Prod.snd := hN.positions.mem_iff.mpr (List.mem_range.mpr (hx ▸ h1))
  obtain ⟨v, hv, hk⟩ := List.mem_flatMap.mp hk
  obtain ⟨ab, hab, rfl⟩ := List.mem_map.mp hk
  have := valueAt_inj (hN.numbers v hv) (List.map_inj_left.mp h v hv) ab hab
  rwa [getD_of_lt h1, getD_of_lt h2] at this

/-! ### Encoding -/

theorem entries_keys (all : Bool) : ∀ (vars : List ShownVar) (cells : List Cell), cells.length = vars.length →
    (entries all vars cells).map Prod.fst = vars.flatMap fun v => v.bits.map Prod.snd := by
  intro vars
  induction vars with
  | nil => intro cells _; simp [entries]
  | cons v vars ih =>
    intro cells h
    cases cells with
    | nil => simp at h
    | cons c cells =>
      have h1 := ih cells (by simpa using h)
      simp only [entries] at h1
      simp only [entries, List.zip_cons_cons, List.flatMap_cons, List.map_append, h1, List.map_map]
      rfl

/-- The character for a bit. -/
def charOf (all : Bool) (v : ShownVar) (c : Cell) (a : Nat) : Char :=
  if all = false ∧ c.tag ≠ edited then '.' else if bitOf (c.val - v.lo) a then '1' else '0'

theorem entries_mem {all : Bool} {vars : List ShownVar} {cells : List Cell} {i : Nat} {v : ShownVar} {c : Cell} {ab : Nat × Nat}
    (hv : vars[i]? = some v) (hc : cells[i]? = some c) (hab : ab ∈ v.bits) : (ab.2, charOf all v c ab.1) ∈ entries all vars cells := by
  refine List.mem_flatMap.mpr ⟨(v, c), ?_, List.mem_map.mpr ⟨ab, hab, rfl⟩⟩
  refine List.mem_iff_getElem?.mpr ⟨i, ?_⟩
  rw [List.getElem?_zip_eq_some]
  exact ⟨hv, hc⟩

theorem mapM_isSome {α β : Type} {f : α → Option β} : ∀ {l : List α}, (∀ x ∈ l, ∃ y, f x = some y) →
    ∃ r, l.mapM f = some r ∧ r.length = l.length ∧ ∀ (i : Nat) (x : α), l[i]? = some x → r[i]? = f x := by
  intro l
  induction l with
  | nil => intro _; exact ⟨[], rfl, rfl, by simp⟩
  | cons x l ih =>
    intro h
    obtain ⟨y, hy⟩ := h x (List.mem_cons_self ..)
    obtain ⟨r, h1, h2, h3⟩ := ih fun z hz => h z (List.mem_cons_of_mem _ hz)
    refine ⟨y :: r, by simp [List.mapM_cons, hy, h1], by simp [h2], fun i z hz => ?_⟩
    cases i with
    | zero => simp at hz; subst hz; simp [hy]
    | succ i => exact h3 i z (by simpa using hz)

/-- Strings of bits: at the position of every bit of a variable there is the character for it. -/
theorem encode_spec (hN : Numbering n vars) (all : Bool) {cells : List Cell} (hl : cells.length = vars.length) :
    ∃ t, encode all vars cells = some t ∧ t.length = n ∧ ∀ (i : Nat) v c, vars[i]? = some v → cells[i]? = some c → ∀ ab ∈ v.bits,
      t[ab.2]? = some (charOf all v c ab.1) := by
  have hk := entries_keys all vars cells hl
  have hp : ((entries all vars cells).map Prod.fst).Perm (List.range n) := hk ▸ hN.positions
  have hnd : ((entries all vars cells).map Prod.fst).Nodup := hp.nodup_iff.mpr List.nodup_range
  have hlen : ((entries all vars cells).map Prod.fst).dedup.length = n := by rw [List.Nodup.dedup hnd, hp.length_eq, List.length_range]
  have hnd' : ((entries all vars cells).reverse.map Prod.fst).Nodup := by rw [List.map_reverse, List.nodup_reverse]; exact hnd
  have hlook : ∀ x ∈ entries all vars cells, (entries all vars cells).reverse.lookup x.1 = some x.2 :=
    fun x hx => lookup_of_mem hnd' (List.mem_reverse.mpr hx)
  obtain ⟨t, h1, h2, h3⟩ := mapM_isSome (f := fun k => (entries all vars cells).reverse.lookup k) (l := List.range n) fun k hk => by
    obtain ⟨x, hx, rfl⟩ := List.mem_map.mp (hp.mem_iff.mpr hk)
    exact ⟨_, hlook x hx⟩
  refine ⟨t, ?_, by simpa using h2, fun i v c hv hc ab hab => ?_⟩
  · rw [encode]
    simp only [hlen]
    exact h1
  · have hm := entries_mem (all := all) hv hc hab
    have hlt : ab.2 ∈ List.range n := hp.mem_iff.mp (List.mem_map_of_mem hm)
    rw [h3 ab.2 ab.2 (List.getElem?_range (List.mem_range.mp hlt))]
    exact hlook _ hm

/-- Values that fit to the characters for a variable between its bounds give the value of the variable. -/
theorem valueAt_of_fits {v : ShownVar} {c : Cell} {all : Bool} {t : List Char} {values : List Bool}
    (hp : (v.bits.map Prod.fst).Perm (List.range v.bits.length)) (hr : v.lo ≤ c.val ∧ c.val - v.lo < 2 ^ v.bits.length)
    (ha : all = true ∨ c.tag = edited) (ht : ∀ ab ∈ v.bits, t[ab.2]? = some (charOf all v c ab.1)) (hl : t.length = values.length)
    (hf : Fits t values) : v.valueAt values = c.val := by
  rw [valueAt_eq hp values (bitOf (c.val - v.lo)) fun ab hab => ?_, total_bitOf, Int.emod_eq_of_lt (by omega) hr.2]
  · omega
  · have h1 := ht ab hab
    have hlt : ab.2 < values.length := by
      rw [← hl]
      exact (List.getElem?_eq_some_iff.mp h1).1
    have h2 := hf ab.2 _ _ h1 (List.getElem?_eq_getElem hlt)
    rw [getD_of_lt hlt]
    have h3 : ¬ (all = false ∧ c.tag ≠ edited) := by
      rintro ⟨rfl, h⟩
      rcases ha with ha | ha
      · cases ha
      · exact h ha
    rw [charOf, if_neg h3] at h2
    cases hb : bitOf (c.val - v.lo) ab.1 with
    | true => rw [hb] at h2; exact (h2.2 rfl).symm
    | false => rw [hb] at h2; exact (h2.1 rfl).symm

/-! ### Decoding -/

/-- Letters for the given values. -/
def LettersFor (letters : List Char) (values : List Bool) : Prop :=
  ∀ (k : Nat) (b : Bool), values[k]? = some b → ∃ c t, letters[k]? = some c ∧ letter c = some (b, t) ∧ t ≠ edited

theorem decodeVar_spec {letters : List Char} {values : List Bool} (hL : LettersFor letters values) {v : ShownVar} (hne : v.bits ≠ [])
    (hlt : ∀ ab ∈ v.bits, ab.2 < values.length) : ∃ c, decodeVar letters v = some c ∧ c.val = v.valueAt values ∧ c.tag ≠ edited := by
  have key : ∀ l : List (Nat × Nat), (∀ ab ∈ l, ab.2 < values.length) → ∃ found : List (Int × Nat),
      (l.mapM fun ab => do
        let (b, t) ← letter (← letters[ab.2]?)
        pure (if b = true then (2 : Int) ^ ab.1 else 0, t)) = some found ∧
      found.map Prod.fst = (l.map fun ab => if values.getD ab.2 false = true then (2 : Int) ^ ab.1 else 0) ∧ found.length = l.length ∧
      ∀ x ∈ found, x.2 ≠ edited := by
    intro l
    induction l with
    | nil => intro _; exact ⟨[], rfl, rfl, rfl, by simp⟩
    | cons ab l ih =>
      intro h
      obtain ⟨found, h1, h2, h3, h4⟩ := ih fun x hx => h x (List.mem_cons_of_mem _ hx)
      have hb := h ab (List.mem_cons_self ..)
      obtain ⟨c, t, hc, hl, hte⟩ := hL ab.2 _ (List.getElem?_eq_getElem hb)
      refine ⟨(if values[ab.2] = true then (2 : Int) ^ ab.1 else 0, t) :: found, ?_, ?_, by simp [h3], ?_⟩
      · rw [List.mapM_cons, h1]
        simp [hc, hl]
      · simp [h2, List.getElem?_eq_getElem hb]
      · intro x hx
        rcases List.mem_cons.mp hx with rfl | hx
        · exact hte
        · exact h4 x hx
  obtain ⟨found, h1, h2, h3, h4⟩ := key v.bits hlt
  have hf : found.map Prod.snd ≠ [] := by
    intro h
    rw [List.map_eq_nil_iff] at h
    rw [h] at h3
    exact hne (List.length_eq_zero_iff.mp h3.symm)
  obtain ⟨m, hm⟩ : ∃ m, (found.map Prod.snd).min? = some m := Option.isSome_iff_exists.mp (List.isSome_min?_iff.mpr hf)
  refine ⟨⟨v.lo + (found.map Prod.fst).sum, m⟩, ?_, ?_, ?_⟩
  · rw [decodeVar, h1]
    simp [hm]
  · rw [h2]; rfl
  · have : m ∈ found.map Prod.snd := List.min?_mem hm
    obtain ⟨x, hx, rfl⟩ := List.mem_map.mp this
    exact h4 x hx

theorem decode_spec (hN : Numbering n vars) {letters : List Char} {values : List Bool} (hl : values.length = n) (hL : LettersFor letters values) :
    ∃ cells, decode vars letters = some cells ∧ cells.map Cell.val = vars.map (fun v => v.valueAt values) ∧ ∀ c ∈ cells, c.tag ≠ edited := by
  have hpos : ∀ v ∈ vars, ∀ ab ∈ v.bits, ab.2 < values.length := by
    intro v hv ab hab
    rw [hl]
    exact List.mem_range.mp (hN.positions.mem_iff.mp (List.mem_flatMap.mpr ⟨v, hv, List.mem_map_of_mem hab⟩))
  have hvar : ∀ v ∈ vars, ∃ c, decodeVar letters v = some c ∧ c.val = v.valueAt values ∧ c.tag ≠ edited :=
    fun v hv => decodeVar_spec hL (hN.nonempty v hv) (hpos v hv)
  clear hpos hN
  induction vars with
  | nil => exact ⟨[], rfl, rfl, by simp⟩
  | cons v vars ih =>
    obtain ⟨c, h1, h2, h3⟩ := hvar v (List.mem_cons_self ..)
    obtain ⟨cells, h4, h5, h6⟩ := ih fun x hx => hvar x (List.mem_cons_of_mem _ hx)
    refine ⟨c :: cells, ?_, by simp [h2, h5], ?_⟩
    · rw [decode, List.mapM_cons, h1, show vars.mapM (decodeVar letters) = some cells from h4]
      rfl
    · intro x hx
      rcases List.mem_cons.mp hx with rfl | hx
      · exact h3
      · exact h6 x hx

/-- The letters that slugs prints. -/
theorem lettersFor_lettersOf {W : Type} (bits : W → List Bool) (Ps : List (Char × (W → Prop)))
    (hc : ∀ x ∈ Ps, x.1 = 'a' ∨ x.1 = 'g' ∨ x.1 = 's') (w : W) : LettersFor (lettersOf bits Ps w) (bits w) := by
  intro k b hk
  have h1 : (lettersOf bits Ps w)[k]? = some (letterOf bits Ps k b) := by
    rw [lettersOf, List.getElem?_mapIdx, hk]
    rfl
  suffices ∃ t, letter (letterOf bits Ps k b) = some (b, t) ∧ t ≠ edited by
    obtain ⟨t, h2, h3⟩ := this
    exact ⟨_, t, h1, h2, h3⟩
  clear h1 hk
  induction Ps with
  | nil => cases b <;> exact ⟨0, rfl, by decide⟩
  | cons x Ps ih =>
    obtain ⟨c, P⟩ := x
    rw [letterOf]
    split
    · rcases hc (c, P) (List.mem_cons_self ..) with h | h | h <;> simp only at h <;> subst h
      · cases b <;> exact ⟨2, by decide, by decide⟩
      · cases b <;> exact ⟨3, by decide, by decide⟩
      · cases b <;> exact ⟨4, by decide, by decide⟩
    · exact ih fun x hx => hc x (List.mem_cons_of_mem _ hx)

/-! ### Merging -/

theorem merge_spec : ∀ {cs ds : List Cell}, cs.length = ds.length →
    (∀ (i : Nat) (c d : Cell), cs[i]? = some c → ds[i]? = some d → c.tag = edited → c.val = d.val) →
    ∃ r, merge cs ds = some r ∧ r.map Cell.val = ds.map Cell.val ∧
      ∀ (i : Nat) (x : Cell), r[i]? = some x → cs[i]? = some x ∧ x.tag = edited ∨ ds[i]? = some x := by
  intro cs
  induction cs with
  | nil =>
    intro ds h _
    cases ds with
    | nil => exact ⟨[], rfl, rfl, by simp⟩
    | cons d ds => simp at h
  | cons c cs ih =>
    intro ds h hv
    cases ds with
    | nil => simp at h
    | cons d ds =>
      obtain ⟨r, h1, h2, h3⟩ := ih (by simpa using h) fun i c d hc hd => hv (i + 1) c d (by simpa using hc) (by simpa using hd)
      by_cases ht : c.tag = edited
      · have hcd := hv 0 c d rfl rfl ht
        refine ⟨c :: r, by simp [merge, h1, ht, hcd], by simp [h2, hcd], fun i x hx => ?_⟩
        cases i with
        | zero => simp at hx; subst hx; exact .inl ⟨rfl, ht⟩
        | succ i => simpa using h3 i x (by simpa using hx)
      · refine ⟨d :: r, by simp [merge, h1, ht], by simp [h2], fun i x hx => ?_⟩
        cases i with
        | zero => simp at hx; subst hx; exact .inr rfl
        | succ i => simpa using h3 i x (by simpa using hx)

end Slugs.Model.Curses
