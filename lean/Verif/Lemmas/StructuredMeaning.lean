import Verif.Lemmas.StructuredCompile

/-!
The meaning of translated formulas.
-/

namespace Slugs.Model.Structured

open Slugs.Spec (Word Fml BinOp joinWords prime decimal)
open Slugs.Spec.Structured

/-! ### Well-formedness -/

theorem wf_mono {n m : Nat} (h : n ≤ m) : ∀ (φ : Fml), φ.Wf n → φ.Wf m
  | .const _, _ => trivial
  | .var _, _ => trivial
  | .not f, hf => wf_mono h f hf
  | .bin _ f g, hf => ⟨wf_mono h f hf.1, wf_mono h g hf.2⟩
  | .buffer _, hf => hf
  | .recall i, hf => by
    rw [Fml.Wf] at hf ⊢
    omega

/-- A well-formed formula over the allowed variables, as an element of a buffer with `n` elements before it. -/
def Syn (V : Word → Prop) (n : Nat) (φ : Fml) : Prop := φ.Wf n ∧ ∀ x ∈ φ.vars, V x

theorem Syn.mono {V : Word → Prop} {n m : Nat} {φ : Fml} (h : Syn V n φ) (hm : n ≤ m) : Syn V m φ := ⟨wf_mono hm φ h.1, h.2⟩

theorem Syn.weaken {V V' : Word → Prop} {n : Nat} {φ : Fml} (h : Syn V n φ) (hv : ∀ w, V w → V' w) : Syn V' n φ := ⟨h.1, fun x hx => hv x (h.2 x hx)⟩

theorem Syn.bin {V : Word → Prop} {n : Nat} {φ ψ : Fml} {op : BinOp} (h1 : Syn V n φ) (h2 : Syn V n ψ) : Syn V n (.bin op φ ψ) :=
  ⟨⟨h1.1, h2.1⟩, fun x hx => (List.mem_append.mp hx).elim (h1.2 x) (h2.2 x)⟩

theorem Syn.not {V : Word → Prop} {n : Nat} {φ : Fml} (h1 : Syn V n φ) : Syn V n (.not φ) := h1

theorem Syn.recall {V : Word → Prop} {n i : Nat} (h : i < n) : Syn V n (.recall i) := ⟨h, fun x hx => absurd hx (by simp [Fml.vars])⟩

theorem Syn.const {V : Word → Prop} {n : Nat} (b : Bool) : Syn V n (.const b) := ⟨trivial, fun x hx => absurd hx (by simp [Fml.vars])⟩

theorem Syn.var {V : Word → Prop} {n : Nat} {x : Word} (h : V x) : Syn V n (.var x) :=
  ⟨trivial, fun y hy => by rw [Fml.vars, List.mem_singleton] at hy; rw [hy]; exact h⟩

/-- A well-formed buffer. -/
def SynMem (V : Word → Prop) (fs : List Fml) : Prop := ∀ i φ, fs[i]? = some φ → Syn V i φ

theorem SynMem.nil {V : Word → Prop} : SynMem V [] := fun i φ h => by simp at h

theorem SynMem.snoc {V : Word → Prop} {fs : List Fml} {φ : Fml} (h : SynMem V fs) (hp : Syn V fs.length φ) : SynMem V (fs ++ [φ]) := by
  intro i ψ hi
  by_cases h1 : i < fs.length
  · rw [List.getElem?_append_left h1] at hi
    exact h i ψ hi
  · rw [List.getElem?_append_right (by omega)] at hi
    have : i - fs.length = 0 := by
      by_contra hne
      rw [List.getElem?_eq_none (by simp; omega)] at hi
      cases hi
    rw [this] at hi
    cases hi
    have : i = fs.length := by omega
    rw [this]
    exact hp

theorem syn_buffer {V : Word → Prop} {fs : List Fml} (h : SynMem V fs) (hn : fs ≠ []) (n : Nat) : Syn V n (.buffer fs) := by
  have key : ∀ (gs : List Fml) (k : Nat), (∀ i φ, gs[i]? = some φ → Syn V (k + i) φ) → Fml.WfBuffer k gs ∧ ∀ x ∈ Fml.varsBuffer gs, V x := by
    intro gs
    induction gs with
    | nil => exact fun k _ => ⟨trivial, fun x hx => absurd hx (by simp [Fml.varsBuffer])⟩
    | cons g gs ih =>
      intro k hk
      have h0 := hk 0 g rfl
      obtain ⟨h1, h2⟩ := ih (k + 1) fun i φ hi => by
        have := hk (i + 1) φ (by simpa using hi)
        rwa [show k + 1 + i = k + (i + 1) by omega]
      exact ⟨⟨h0.1, h1⟩, fun x hx => (List.mem_append.mp hx).elim (h0.2 x) (h2 x)⟩
  obtain ⟨h1, h2⟩ := key fs 0 fun i φ hi => by rw [Nat.zero_add]; exact h i φ hi
  exact ⟨⟨hn, h1⟩, h2⟩

theorem syn_joint {V : Word → Prop} : ∀ (l : List (Fml × Fml)) {fs : List Fml}, 0 < fs.length → (∀ q ∈ l, Syn V fs.length q.1 ∧ Syn V fs.length q.2) →
    SynMem V fs → SynMem V (addJointF l fs) ∧ (addJointF l fs).length = fs.length + 2 * l.length
  | [], _, _, _, h => ⟨h, rfl⟩
  | (a, b) :: l, fs, h0, hl, h => by
    rw [addJointF]
    obtain ⟨ha, hb⟩ := hl (a, b) (by simp)
    have hr : Syn V fs.length (.recall (fs.length - 1)) := Syn.recall (by omega)
    have h1 := h.snoc (φ := .bin .xor (.bin .xor a b) (.recall (fs.length - 1))) ((ha.bin hb).bin hr)
    have h2 := h1.snoc (φ := .bin .or (.bin .or (.bin .and a b) (.bin .and (.recall (fs.length - 1)) a)) (.bin .and (.recall (fs.length - 1)) b))
      ((((ha.bin hb).bin (hr.bin ha)).bin (hr.bin hb)).mono (by simp))
    obtain ⟨k1, k2⟩ := syn_joint l (fs := fs ++ [.bin .xor (.bin .xor a b) (.recall (fs.length - 1))] ++
      [.bin .or (.bin .or (.bin .and a b) (.bin .and (.recall (fs.length - 1)) a)) (.bin .and (.recall (fs.length - 1)) b)]) (by simp)
      (fun q hq => ⟨(hl q (by simp [hq])).1.mono (by simp), (hl q (by simp [hq])).2.mono (by simp)⟩) h2
    refine ⟨k1, ?_⟩
    rw [k2]
    simp only [List.length_append, List.length_cons, List.length_nil]
    omega

theorem syn_rest {V : Word → Prop} : ∀ (l : List Fml) {fs : List Fml}, 0 < fs.length → (∀ q ∈ l, Syn V fs.length q) →
    SynMem V fs → SynMem V (addRestF l fs) ∧ (addRestF l fs).length = fs.length + 2 * l.length
  | [], _, _, _, h => ⟨h, rfl⟩
  | b :: l, fs, h0, hl, h => by
    rw [addRestF]
    have hb := hl b (by simp)
    have hr : Syn V fs.length (.recall (fs.length - 1)) := Syn.recall (by omega)
    have h1 := h.snoc (φ := .bin .xor b (.recall (fs.length - 1))) (hb.bin hr)
    have h2 := h1.snoc (φ := .bin .and b (.recall (fs.length - 1))) ((hb.bin hr).mono (by simp))
    obtain ⟨k1, k2⟩ := syn_rest l (fs := fs ++ [.bin .xor b (.recall (fs.length - 1))] ++ [.bin .and b (.recall (fs.length - 1))]) (by simp)
      (fun q hq => (hl q (by simp [hq])).mono (by simp)) h2
    refine ⟨k1, ?_⟩
    rw [k2]
    simp only [List.length_append, List.length_cons, List.length_nil]
    omega

theorem syn_sorted {V : Word → Prop} {p1 p2 fs : List Fml} (h : SynMem V fs) (h1 : ∀ φ ∈ p1, Syn V fs.length φ) (h2 : ∀ φ ∈ p2, Syn V fs.length φ)
    (hl : p1.length ≤ p2.length) :
    SynMem V (addSortedF p1 p2 fs).2 ∧ fs.length ≤ (addSortedF p1 p2 fs).2.length ∧ ∀ φ ∈ (addSortedF p1 p2 fs).1, Syn V (addSortedF p1 p2 fs).2.length φ := by
  cases p1 with
  | nil => exact ⟨h, le_refl _, h2⟩
  | cons a p1 =>
    cases p2 with
    | nil => exact ⟨h, le_refl _, h2⟩
    | cons b p2 =>
      have ha := h1 a (by simp)
      have hb := h2 b (by simp)
      have s1 := (h.snoc (φ := .bin .xor a b) (ha.bin hb)).snoc (φ := .bin .and a b) ((ha.bin hb).mono (by simp))
      obtain ⟨k1, k2⟩ := syn_joint (V := V) (p1.zip p2) (fs := fs ++ [.bin .xor a b] ++ [.bin .and a b]) (by simp)
        (fun q hq => ⟨(h1 q.1 (by simp [(List.of_mem_zip hq).1])).mono (by simp), (h2 q.2 (by simp [(List.of_mem_zip hq).2])).mono (by simp)⟩) s1
      obtain ⟨k3, k4⟩ := syn_rest (V := V) (p2.drop p1.length) (fs := addJointF (p1.zip p2) (fs ++ [.bin .xor a b] ++ [.bin .and a b]))
        (by rw [k2]; simp)
        (fun q hq => (h2 q (by simp [List.mem_of_mem_drop hq])).mono (by rw [k2]; simp; omega)) k1
      have len : (addSortedF (a :: p1) (b :: p2) fs).2.length = fs.length + 2 * (p2.length + 1) := by
        simp only [addSortedF]
        rw [k4, k2]
        simp only [List.length_cons] at hl
        simp only [List.length_append, List.length_cons, List.length_nil, List.length_zip, List.length_drop]
        omega
      refine ⟨k3, by omega, fun φ hφ => ?_⟩
      rw [len]
      simp only [addSortedF] at hφ
      rcases List.mem_append.mp hφ with hφ | hφ
      · obtain ⟨i, hi, rfl⟩ := List.mem_map.mp hφ
        rw [List.mem_range, List.length_cons] at hi
        exact Syn.recall (by omega)
      · rw [List.mem_singleton] at hφ
        subst hφ
        simp only [addSortedF] at len
        rw [len]
        exact Syn.recall (by omega)

/-- A number whose bits are well-formed, and the buffer they refer to. -/
structure SynNum (V : Word → Prop) (fs : List Fml) (r : List Fml × List Fml) : Prop where
  mem : SynMem V r.2
  more : fs.length ≤ r.2.length
  bits : ∀ φ ∈ r.1, Syn V r.2.length φ

theorem syn_add {V : Word → Prop} {p1 p2 fs : List Fml} (h : SynMem V fs) (h1 : ∀ φ ∈ p1, Syn V fs.length φ) (h2 : ∀ φ ∈ p2, Syn V fs.length φ) :
    SynNum V fs (addBitsF p1 p2 fs) := by
  rw [addBitsF]
  by_cases e1 : p1.length = 0
  · rw [if_pos e1]; exact ⟨h, le_refl _, h2⟩
  · rw [if_neg e1]
    by_cases e2 : p2.length = 0
    · rw [if_pos e2]; exact ⟨h, le_refl _, h1⟩
    · rw [if_neg e2]
      by_cases e3 : p2.length < p1.length
      · rw [if_pos e3]
        obtain ⟨a, b, c⟩ := syn_sorted h h2 h1 (by omega)
        exact ⟨a, b, c⟩
      · rw [if_neg e3]
        obtain ⟨a, b, c⟩ := syn_sorted h h1 h2 (by omega)
        exact ⟨a, b, c⟩

theorem syn_numeral {V : Word → Prop} {m : Nat} : ∀ k n, ∀ φ ∈ numeralF k n, Syn V m φ
  | 0, _, φ, h => absurd h (by simp [numeralF])
  | k + 1, n, φ, h => by
    rw [numeralF] at h
    by_cases h0 : n = 0
    · rw [if_pos h0] at h; simp at h
    · rw [if_neg h0] at h
      rcases List.mem_cons.mp h with rfl | h
      · exact Syn.const _
      · exact syn_numeral k _ φ h

/-- The names of bits that the translation of a number uses. -/
def NumVar (nm : Names) (p : Bool) (a : NExp) (w : Word) : Prop :=
  ∃ x bs, x ∈ a.names ∧ nm.bits (unprimed x) = some bs ∧ ∃ b ∈ bs, w = if isPrimed x || p then prime b else b

theorem syn_num {nm : Names} {p : Bool} {V : Word → Prop} : ∀ (a : NExp) {fs : List Fml}, (∀ w, NumVar nm p a w → V w) → SynMem V fs →
    SynNum V fs (compN nm p a fs)
  | .num n, fs, _, h => ⟨h, le_refl _, syn_numeral _ _⟩
  | .var x, fs, hV, h => by
    have hx : ∀ m, ∀ φ ∈ varF nm p x, Syn V m φ := by
      intro m φ hφ
      rw [varF] at hφ
      obtain ⟨b, hb, rfl⟩ := List.mem_map.mp hφ
      cases hbs : nm.bits (unprimed x) with
      | none => rw [hbs] at hb; simp at hb
      | some bs =>
        rw [hbs] at hb
        exact Syn.var (hV _ ⟨x, bs, by simp [NExp.names], hbs, b, hb, rfl⟩)
    rw [compN]
    cases nm.limits (unprimed x) with
    | none => exact ⟨h, le_refl _, fun φ hφ => absurd hφ (by simp)⟩
    | some q =>
      dsimp only
      by_cases h0 : q.1 = 0
      · rw [if_pos h0]; exact ⟨h, le_refl _, hx _⟩
      · rw [if_neg h0]; exact syn_add h (hx _) (syn_numeral _ _)
  | .add a b, fs, hV, h => by
    have s1 := syn_num a (fs := fs) (V := V) (fun w ⟨x, bs, h1, h2⟩ => hV w ⟨x, bs, List.mem_append_left _ h1, h2⟩) h
    have s2 := syn_num b (fs := (compN nm p a fs).2) (V := V) (fun w ⟨x, bs, h1, h2⟩ => hV w ⟨x, bs, List.mem_append_right _ h1, h2⟩) s1.mem
    have s3 := syn_add s2.mem (fun φ hφ => (s1.bits φ hφ).mono s2.more) s2.bits
    exact ⟨s3.mem, le_trans s1.more (le_trans s2.more s3.more), s3.bits⟩
  | .overwrite a b, fs, hV, h => by
    have s1 := syn_num a (fs := fs) (V := V) (fun w ⟨x, bs, h1, h2⟩ => hV w ⟨x, bs, List.mem_append_left _ h1, h2⟩) h
    have s2 := syn_num b (fs := (compN nm p a fs).2) (V := V) (fun w ⟨x, bs, h1, h2⟩ => hV w ⟨x, bs, List.mem_append_right _ h1, h2⟩) s1.mem
    refine ⟨s2.mem, le_trans s1.more s2.more, fun φ hφ => ?_⟩
    rcases List.mem_append.mp hφ with hφ | hφ
    · exact (s1.bits φ hφ).mono s2.more
    · exact s2.bits φ (List.mem_of_mem_drop hφ)

theorem syn_foldl {A : Type} {V : Word → Prop} {n : Nat} (l : List A) (F : Fml → A → Fml) (h : ∀ φ, ∀ a ∈ l, Syn V n φ → Syn V n (F φ a)) :
    ∀ φ, Syn V n φ → Syn V n (l.foldl F φ) := by
  induction l with
  | nil => exact fun _ h => h
  | cons a l ih => exact fun φ hp => ih (fun ψ b hb => h ψ b (by simp [hb])) _ (h φ a (by simp) hp)

theorem syn_cmp {V : Word → Prop} {n : Nat} (o : Cmp) {p1 p2 : List Fml} (h1 : ∀ φ ∈ p1, Syn V n φ) (h2 : ∀ φ ∈ p2, Syn V n φ) : Syn V n (cmpF o p1 p2) := by
  have z1 : ∀ q ∈ p1.zip p2, Syn V n q.1 := fun q hq => h1 _ (List.of_mem_zip hq).1
  have z2 : ∀ q ∈ p1.zip p2, Syn V n q.2 := fun q hq => h2 _ (List.of_mem_zip hq).2
  have d1 : ∀ k, ∀ φ ∈ p1.drop k, Syn V n φ := fun k φ hφ => h1 φ (List.mem_of_mem_drop hφ)
  have d2 : ∀ k, ∀ φ ∈ p2.drop k, Syn V n φ := fun k φ hφ => h2 φ (List.mem_of_mem_drop hφ)
  have g : ∀ s, Syn V n (greaterF s p1 p2) := by
    intro s
    refine syn_foldl _ _ (fun φ a ha h => (d1 _ a ha).bin h) _ (syn_foldl _ _ (fun φ a ha h => (d2 _ a ha).not.bin h) _ (syn_foldl _ _ (fun φ q hq h => ?_) _ (Syn.const _)))
    exact ((z1 q hq).bin (z2 q hq).not).bin (((z2 q hq).not.bin (z1 q hq)).bin h)
  have s : ∀ s, Syn V n (smallerF s p1 p2) := by
    intro s
    refine syn_foldl _ _ (fun φ a ha h => (d2 _ a ha).bin h) _ (syn_foldl _ _ (fun φ a ha h => (d1 _ a ha).not.bin h) _ (syn_foldl _ _ (fun φ q hq h => ?_) _ (Syn.const _)))
    exact ((z1 q hq).not.bin (z2 q hq)).bin (((z2 q hq).bin (z1 q hq).not).bin h)
  have e : Syn V n (equalF p1 p2) := by
    refine syn_foldl _ _ (fun φ a ha h => (d2 _ a ha).not.bin h) _ (syn_foldl _ _ (fun φ a ha h => (d1 _ a ha).not.bin h) _ (syn_foldl _ _ (fun φ q hq h => ?_) _ (Syn.const _)))
    exact ((z1 q hq).bin (z2 q hq)).not.bin h
  cases o with
  | gt => exact g true
  | ge => exact g false
  | lt => exact s true
  | le => exact s false
  | eq => exact e
  | ne => exact e.not

theorem unprimed_prime (x : Word) : unprimed (prime x) = x := by
  have : isPrimed (prime x) = true := by simp [isPrimed, prime]
  rw [unprimed, if_pos this, prime, List.dropLast_concat]

theorem isPrimed_prime (x : Word) : isPrimed (prime x) = true := by simp [isPrimed, prime]

/-- The variables that the translation of a formula can use. -/
def Usable (nm : Names) (atoms numbers : List Word) (w : Word) : Prop :=
  w ∈ atoms ∨ ∃ x ∈ numbers, ∃ bs, nm.bits (unprimed x) = some bs ∧ ∃ b ∈ bs, w = if isPrimed x then prime b else b

theorem Usable.mono {nm : Names} {as ns as' ns' : List Word} {w : Word} (h : Usable nm as ns w) (h1 : as ⊆ as') (h2 : ns ⊆ ns') : Usable nm as' ns' w := by
  rcases h with h | ⟨x, h, r⟩
  · exact .inl (h1 h)
  · exact .inr ⟨x, h2 h, r⟩

theorem numVar_usable {nm : Names} {bounds : Bounds} {p : Bool} {a : NExp} {w : Word} (ha : a.Proper bounds p) (h : NumVar nm p a w) (as : List Word) :
    Usable nm as (a.names.map fun x => if p then prime x else x) w := by
  obtain ⟨x, bs, h1, h2, b, hb, rfl⟩ := h
  refine .inr ⟨_, List.mem_map_of_mem h1, ?_⟩
  have hx : ∀ (a : NExp), a.Proper bounds p → x ∈ a.names → (p → isPrimed x = false) := by
    intro a
    induction a with
    | num n => intro _ h; simp [NExp.names] at h
    | var y => intro h1 h2; simp only [NExp.names, List.mem_singleton] at h2; rw [h2]; exact h1.2
    | add a b iha ihb => exact fun h1 h2 => (List.mem_append.mp h2).elim (iha h1.1) (ihb h1.2)
    | overwrite a b iha ihb => exact fun h1 h2 => (List.mem_append.mp h2).elim (iha h1.1) (ihb h1.2.1)
  cases p with
  | false => exact ⟨bs, h2, b, hb, by simp⟩
  | true =>
    have hp := hx a ha h1 rfl
    have hu : unprimed x = x := by rw [unprimed, hp]; rfl
    rw [hu] at h2
    refine ⟨bs, by rw [if_pos rfl, unprimed_prime]; exact h2, b, hb, ?_⟩
    rw [if_pos rfl, isPrimed_prime]
    simp

theorem syn_compF {nm : Names} {bounds : Bounds} : ∀ (f : SFml) (p : Bool), f.Proper bounds p → ∀ n, Syn (Usable nm (f.atoms p) (f.numbers p)) n (compF nm f p)
  | .tt, _, _, _ => Syn.const _
  | .ff, _, _, _ => Syn.const _
  | .atom x, p, h, _ => Syn.var (.inl (by simp [SFml.atoms]))
  | .cmp o a b, p, h, n => by
    have s1 := syn_num (nm := nm) (p := p) (V := Usable nm [] ((a.names ++ b.names).map fun x => if p then prime x else x)) a
      (fun w hw => (numVar_usable h.1 hw []).mono (List.Subset.refl _) (by rw [List.map_append]; exact List.subset_append_left _ _)) SynMem.nil
    have s2 := syn_num (nm := nm) (p := p) (V := Usable nm [] ((a.names ++ b.names).map fun x => if p then prime x else x)) b
      (fun w hw => (numVar_usable h.2 hw []).mono (List.Subset.refl _) (by rw [List.map_append]; exact List.subset_append_right _ _)) s1.mem
    exact syn_buffer (s2.mem.snoc (syn_cmp o (fun φ hφ => (s1.bits φ hφ).mono s2.more) s2.bits)) (by simp) n
  | .not f, p, h, n => syn_compF f p h n
  | .next f, _, h, n => syn_compF f true h.2 n
  | .and f g, p, h, n =>
    ((syn_compF f p h.1 n).weaken fun w hw => hw.mono (List.subset_append_left _ _) (List.subset_append_left _ _)).bin
      ((syn_compF g p h.2 n).weaken fun w hw => hw.mono (List.subset_append_right _ _) (List.subset_append_right _ _))
  | .or f g, p, h, n =>
    ((syn_compF f p h.1 n).weaken fun w hw => hw.mono (List.subset_append_left _ _) (List.subset_append_left _ _)).bin
      ((syn_compF g p h.2 n).weaken fun w hw => hw.mono (List.subset_append_right _ _) (List.subset_append_right _ _))
  | .imp f g, p, h, n =>
    ((syn_compF f p h.1 n).weaken fun w hw => hw.mono (List.subset_append_left _ _) (List.subset_append_left _ _)).not.bin
      ((syn_compF g p h.2 n).weaken fun w hw => hw.mono (List.subset_append_right _ _) (List.subset_append_right _ _))
  | .iff f g, p, h, n => by
    have h1 := (syn_compF f p h.1 n).weaken (V' := Usable nm ((f.iff g).atoms p) ((f.iff g).numbers p))
      fun w hw => hw.mono (List.subset_append_left _ _) (List.subset_append_left _ _)
    have h2 := (syn_compF g p h.2 n).weaken (V' := Usable nm ((f.iff g).atoms p) ((f.iff g).numbers p))
      fun w hw => hw.mono (List.subset_append_right _ _) (List.subset_append_right _ _)
    exact (h1.not.bin h2.not).bin (h1.bin h2)

/-! ### Values -/

theorem binary_append (l1 l2 : List Bool) : binary (l1 ++ l2) = binary l1 + 2 ^ l1.length * binary l2 := by
  induction l1 with
  | nil => simp [binary]
  | cons b l ih => rw [List.cons_append, binary, ih, binary, List.length_cons, pow_succ]; ring

theorem binary_lt (l : List Bool) : binary l < 2 ^ l.length := by
  induction l with
  | nil => simp [binary]
  | cons b l ih =>
    rw [binary, List.length_cons, pow_succ]
    have := Bool.toNat_le b
    omega

/-- Whatever is stored later, the formula has this value. -/
def Ev (ρ : Word → Bool) (vs : List Bool) (φ : Fml) (x : Bool) : Prop := ∀ us, φ.eval ρ ((vs ++ us).map some) = some x

theorem Ev.more {ρ : Word → Bool} {vs : List Bool} {φ : Fml} {x : Bool} (h : Ev ρ vs φ x) (us : List Bool) : Ev ρ (vs ++ us) φ x := fun ws => by
  rw [List.append_assoc]; exact h _

theorem Ev.now {ρ : Word → Bool} {vs : List Bool} {φ : Fml} {x : Bool} (h : Ev ρ vs φ x) : φ.eval ρ (vs.map some) = some x := by
  have := h []
  rwa [List.append_nil] at this

theorem Ev.const {ρ : Word → Bool} {vs : List Bool} (b : Bool) : Ev ρ vs (.const b) b := fun _ => rfl

theorem Ev.var {ρ : Word → Bool} {vs : List Bool} (x : Word) : Ev ρ vs (.var x) (ρ x) := fun _ => rfl

theorem Ev.not {ρ : Word → Bool} {vs : List Bool} {φ : Fml} {x : Bool} (h : Ev ρ vs φ x) : Ev ρ vs (.not φ) (!x) := fun us => by
  rw [Fml.eval, h us]; rfl

theorem Ev.bin {ρ : Word → Bool} {vs : List Bool} {φ ψ : Fml} {x y : Bool} {op : BinOp} (h : Ev ρ vs φ x) (h2 : Ev ρ vs ψ y) :
    Ev ρ vs (.bin op φ ψ) (op.apply x y) := fun us => by
  rw [Fml.eval, h us, h2 us]; rfl

theorem Ev.recall {ρ : Word → Bool} {vs : List Bool} {i : Nat} {x : Bool} (h : vs[i]? = some x) : Ev ρ vs (.recall i) x := fun us => by
  have hi : i < vs.length := (List.getElem?_eq_some_iff.mp h).1
  rw [Fml.eval, List.getElem?_map, List.getElem?_append_left hi, h]
  rfl

/-- The values stored. -/
def Stores (ρ : Word → Bool) (fs : List Fml) (vs : List Bool) : Prop := Fml.evalBuffer ρ [] fs = vs.map some

theorem evalBuffer_append (ρ : Word → Bool) (l1 l2 : List Fml) : ∀ st, Fml.evalBuffer ρ st (l1 ++ l2) = Fml.evalBuffer ρ (Fml.evalBuffer ρ st l1) l2 := by
  induction l1 with
  | nil => intro st; rw [List.nil_append, Fml.evalBuffer]
  | cons f l ih => intro st; rw [List.cons_append, Fml.evalBuffer, ih, Fml.evalBuffer]

theorem Stores.nil {ρ : Word → Bool} : Stores ρ [] [] := by rw [Stores, Fml.evalBuffer]; rfl

theorem Stores.snoc {ρ : Word → Bool} {fs : List Fml} {vs : List Bool} {φ : Fml} {x : Bool} (h : Stores ρ fs vs) (hp : Ev ρ vs φ x) :
    Stores ρ (fs ++ [φ]) (vs ++ [x]) := by
  rw [Stores, evalBuffer_append, h, Fml.evalBuffer, Fml.evalBuffer, hp.now, List.map_append]
  rfl

theorem Stores.length {ρ : Word → Bool} {fs : List Fml} {vs : List Bool} (h : Stores ρ fs vs) : vs.length = fs.length := by
  have key : ∀ (l : List Fml) (st : List (Option Bool)), (Fml.evalBuffer ρ st l).length = st.length + l.length := by
    intro l
    induction l with
    | nil => intro st; rw [Fml.evalBuffer]; rfl
    | cons f l ih => intro st; rw [Fml.evalBuffer, ih]; simp; omega
  have := congrArg List.length h
  rw [key] at this
  simpa using this.symm

/-- A full adder: sums and carries. -/
def adder : Bool → List (Bool × Bool) → List (Bool × Bool)
  | _, [] => []
  | c, (a, b) :: l => ((a != b) != c, ((a && b) || (c && a)) || (c && b)) :: adder (((a && b) || (c && a)) || (c && b)) l

def lastCarry (c : Bool) (ys : List (Bool × Bool)) : Bool := ((ys.map Prod.snd).getLast?).getD c

theorem adder_length (c : Bool) (l : List (Bool × Bool)) : (adder c l).length = l.length := by
  induction l generalizing c with
  | nil => rfl
  | cons q l ih => obtain ⟨a, b⟩ := q; rw [adder, List.length_cons, List.length_cons, ih]

theorem lastCarry_cons (c : Bool) (y : Bool × Bool) (ys : List (Bool × Bool)) : lastCarry c (y :: ys) = lastCarry y.2 ys := by
  cases ys with
  | nil => rfl
  | cons z zs =>
    simp only [lastCarry, List.map_cons, List.getLast?_cons_cons]
    cases h : (z.2 :: List.map Prod.snd zs).getLast? with
    | none => simp at h
    | some _ => rfl

theorem adder_value (c : Bool) (l : List (Bool × Bool)) :
    binary ((adder c l).map Prod.fst) + 2 ^ l.length * (lastCarry c (adder c l)).toNat = binary (l.map Prod.fst) + binary (l.map Prod.snd) + c.toNat := by
  induction l generalizing c with
  | nil => simp [adder, binary, lastCarry]
  | cons q l ih =>
    obtain ⟨a, b⟩ := q
    rw [adder, lastCarry_cons]
    have := ih (((a && b) || (c && a)) || (c && b))
    simp only [List.map_cons, binary, List.length_cons, pow_succ]
    generalize (lastCarry (((a && b) || (c && a)) || (c && b)) (adder (((a && b) || (c && a)) || (c && b)) l)).toNat = z at this ⊢
    have e : 2 ^ l.length * 2 * z = 2 * (2 ^ l.length * z) := by ring
    rw [e]
    cases a <;> cases b <;> cases c <;> simp at this ⊢ <;> omega

theorem adder_append (c : Bool) (l1 l2 : List (Bool × Bool)) : adder c (l1 ++ l2) = adder c l1 ++ adder (lastCarry c (adder c l1)) l2 := by
  induction l1 generalizing c with
  | nil => rfl
  | cons q l ih =>
    obtain ⟨a, b⟩ := q
    rw [List.cons_append, adder, ih, adder, lastCarry_cons]
    rfl

theorem lastCarry_append (c : Bool) (l1 l2 : List (Bool × Bool)) : lastCarry c (l1 ++ l2) = lastCarry (lastCarry c l1) l2 := by
  induction l1 generalizing c with
  | nil => rfl
  | cons q l ih => rw [List.cons_append, lastCarry_cons, lastCarry_cons, ih]

/-- Sums and carries, as they are stored. -/
def woven (ys : List (Bool × Bool)) : List Bool := ys.flatMap fun y => [y.1, y.2]

theorem woven_cons (y : Bool × Bool) (ys : List (Bool × Bool)) : woven (y :: ys) = y.1 :: y.2 :: woven ys := rfl

theorem woven_append (l1 l2 : List (Bool × Bool)) : woven (l1 ++ l2) = woven l1 ++ woven l2 := List.flatMap_append

theorem woven_last (c : Bool) (pre : List Bool) (ys : List (Bool × Bool)) : (pre ++ [c] ++ woven ys).getLast? = some (lastCarry c ys) := by
  induction ys generalizing c pre with
  | nil => simp [woven, lastCarry]
  | cons y ys ih =>
    rw [woven_cons, lastCarry_cons]
    have := ih y.2 (pre ++ [c] ++ [y.1])
    simpa using this

theorem woven_length (ys : List (Bool × Bool)) : (woven ys).length = 2 * ys.length := by
  induction ys with
  | nil => rfl
  | cons y ys ih => rw [woven_cons]; simp only [List.length_cons, ih]; omega

theorem woven_get (ys : List (Bool × Bool)) (i : Nat) : (woven ys)[i * 2]? = (ys.map Prod.fst)[i]? := by
  induction ys generalizing i with
  | nil => rfl
  | cons y ys ih =>
    cases i with
    | zero => rfl
    | succ i =>
      rw [woven_cons, show (i + 1) * 2 = i * 2 + 1 + 1 by omega, List.getElem?_cons_succ, List.getElem?_cons_succ, ih]
      rfl

theorem stores_last {vs : List Bool} {c : Bool} (h : vs.getLast? = some c) {fs : List Fml} {ρ : Word → Bool} (hs : Stores ρ fs vs) :
    Ev ρ vs (.recall (fs.length - 1)) c := by
  refine Ev.recall ?_
  rw [← hs.length, ← List.getLast?_eq_getElem?]
  exact h

theorem sem_joint {ρ : Word → Bool} : ∀ (l : List (Fml × Fml)) (xs : List (Bool × Bool)) {fs : List Fml} {vs : List Bool} {c : Bool},
    Stores ρ fs vs → vs.getLast? = some c → List.Forall₂ (fun q x => Ev ρ vs q.1 x.1 ∧ Ev ρ vs q.2 x.2) l xs →
    Stores ρ (addJointF l fs) (vs ++ woven (adder c xs))
  | [], _, fs, vs, c, h, hc, .nil => by simpa [addJointF, adder, woven] using h
  | (a, b) :: l, x :: xs, fs, vs, c, h, hc, .cons ⟨ha, hb⟩ hl => by
    obtain ⟨x1, x2⟩ := x
    have hr := stores_last hc h
    have h1 := h.snoc ((ha.bin (op := .xor) hb).bin (op := .xor) hr)
    have h2 := h1.snoc ((((ha.bin (op := .and) hb).bin (op := .or) (hr.bin (op := .and) ha)).bin (op := .or) (hr.bin (op := .and) hb)).more _)
    have h3 := sem_joint l xs h2 (c := ((x1 && x2) || (c && x1)) || (c && x2)) (by simp [BinOp.apply])
      (hl.imp fun q y hq => ⟨(hq.1.more _).more _, (hq.2.more _).more _⟩)
    rw [addJointF, adder, woven_cons]
    simpa [BinOp.apply] using h3

theorem sem_rest {ρ : Word → Bool} : ∀ (l : List Fml) (xs : List Bool) {fs : List Fml} {vs : List Bool} {c : Bool},
    Stores ρ fs vs → vs.getLast? = some c → List.Forall₂ (Ev ρ vs) l xs →
    Stores ρ (addRestF l fs) (vs ++ woven (adder c (xs.map fun x => (false, x))))
  | [], _, fs, vs, c, h, hc, .nil => by simpa [addRestF, adder, woven] using h
  | b :: l, x :: xs, fs, vs, c, h, hc, .cons hb hl => by
    have hr := stores_last hc h
    have h1 := h.snoc (hb.bin (op := .xor) hr)
    have h2 := h1.snoc ((hb.bin (op := .and) hr).more _)
    have h3 := sem_rest l xs h2 (c := c && x) (by simp [BinOp.apply, Bool.and_comm]) (hl.imp fun q y hq => (hq.more _).more _)
    rw [addRestF, List.map_cons, adder, woven_cons]
    simpa [BinOp.apply, Bool.and_comm] using h3

theorem binary_zeros {A : Type} (l : List A) : binary (l.map fun _ => false) = 0 := by
  induction l with
  | nil => rfl
  | cons a l ih => rw [List.map_cons, binary, ih]; rfl

theorem map_fst_zip_take {A B : Type} : ∀ (xs : List A) (ys : List B), (xs.zip ys).map Prod.fst = xs.take ys.length
  | [], _ => by simp
  | _ :: _, [] => by simp
  | x :: xs, y :: ys => by simp [map_fst_zip_take xs ys]

theorem map_snd_zip_take {A B : Type} : ∀ (xs : List A) (ys : List B), (xs.zip ys).map Prod.snd = ys.take xs.length
  | [], _ => by simp
  | _ :: _, [] => by simp
  | x :: xs, y :: ys => by simp [map_snd_zip_take xs ys]

/-- The values of the bits of a number. -/
def Bits (ρ : Word → Bool) (vs : List Bool) (p : List Fml) (xs : List Bool) : Prop := List.Forall₂ (Ev ρ vs) p xs

theorem Bits.more {ρ : Word → Bool} {vs : List Bool} {p : List Fml} {xs : List Bool} (h : Bits ρ vs p xs) (us : List Bool) : Bits ρ (vs ++ us) p xs :=
  List.Forall₂.imp (fun _ _ h => Ev.more h us) h

theorem forall2_zip {A B C D : Type} {R : A → B → Prop} {S : C → D → Prop} : ∀ {l1 : List A} {m1 : List B} {l2 : List C} {m2 : List D},
    List.Forall₂ R l1 m1 → List.Forall₂ S l2 m2 → List.Forall₂ (fun q x => R q.1 x.1 ∧ S q.2 x.2) (l1.zip l2) (m1.zip m2)
  | _, _, _, _, .nil, _ => by simp
  | _, _, _, _, .cons _ _, .nil => by simp
  | _, _, _, _, .cons h1 t1, .cons h2 t2 => .cons ⟨h1, h2⟩ (forall2_zip t1 t2)

theorem sem_sorted {ρ : Word → Bool} {p1 p2 fs : List Fml} {vs xs ys : List Bool} (h : Stores ρ fs vs) (h1 : Bits ρ vs p1 xs) (h2 : Bits ρ vs p2 ys)
    (hl : p1.length ≤ p2.length) (hne : p1 ≠ []) :
    ∃ us zs, Stores ρ (addSortedF p1 p2 fs).2 (vs ++ us) ∧ Bits ρ (vs ++ us) (addSortedF p1 p2 fs).1 zs ∧ binary zs = binary xs + binary ys := by
  cases h1 with
  | nil => exact absurd rfl hne
  | @cons a x p1 xs ha h1 =>
    cases h2 with
    | nil => simp at hl
    | @cons b y p2 ys hb h2 =>
      have e1 : xs.length = p1.length := h1.length_eq.symm
      have e2 : ys.length = p2.length := h2.length_eq.symm
      simp only [List.length_cons, Nat.add_le_add_iff_right] at hl
      have s1 := h.snoc (ha.bin (op := .xor) hb)
      have s2 := s1.snoc ((ha.bin (op := .and) hb).more _)
      have s3 := sem_joint (p1.zip p2) (xs.zip ys) s2 (c := x && y) (by simp [BinOp.apply])
        ((forall2_zip h1 h2).imp fun q y hq => ⟨(hq.1.more _).more _, (hq.2.more _).more _⟩)
      have s4 := sem_rest (p2.drop p1.length) (ys.drop p1.length) s3 (c := lastCarry (x && y) (adder (x && y) (xs.zip ys)))
        (by
          have := woven_last (x && y) (vs ++ [x != y]) (adder (x && y) (xs.zip ys))
          simpa [BinOp.apply] using this)
        ((List.forall₂_drop p1.length h2).imp fun q y hq => ((hq.more _).more _).more _)
      generalize hP : xs.zip ys ++ (ys.drop p1.length).map (fun x => (false, x)) = P
      have hw : vs ++ [x != y] ++ [x && y] ++ woven (adder (x && y) (xs.zip ys)) ++
          woven (adder (lastCarry (x && y) (adder (x && y) (xs.zip ys))) ((ys.drop p1.length).map fun x => (false, x))) =
          vs ++ woven (adder false ((x, y) :: P)) := by
        rw [adder, ← hP]
        have : ((x && y || false && x) || false && y) = (x && y) := by simp
        rw [this, adder_append, woven_cons, woven_append]
        simp
      have hP1 : P.length = p2.length := by
        rw [← hP]
        simp only [List.length_append, List.length_zip, List.length_map, List.length_drop, e1, e2]
        omega
      have hP2 : P.map Prod.snd = ys := by
        rw [← hP, List.map_append, List.map_map, map_snd_zip_take]
        have : (ys.drop p1.length).map (Prod.snd ∘ fun x => (false, x)) = ys.drop p1.length := by
          have : (Prod.snd ∘ fun x : Bool => (false, x)) = id := rfl
          rw [this, List.map_id]
        rw [this, e1]
        exact List.take_append_drop _ _
      have hP3 : binary (P.map Prod.fst) = binary xs := by
        rw [← hP, List.map_append, List.map_map, List.map_fst_zip (by omega), binary_append]
        have : binary ((ys.drop p1.length).map (Prod.fst ∘ fun x => (false, x))) = 0 := binary_zeros _
        rw [this]
        simp
      have s5 : Stores ρ (addSortedF (a :: p1) (b :: p2) fs).2 (vs ++ woven (adder false ((x, y) :: P))) := by
        rw [← hw]
        exact s4
      refine ⟨_, ((adder false ((x, y) :: P)).map Prod.fst) ++ [lastCarry false (adder false ((x, y) :: P))], s5, ?_, ?_⟩
      · have hlen : (addSortedF (a :: p1) (b :: p2) fs).1 =
            (List.range (p2.length + 1)).map (fun i => .recall (i * 2 + fs.length)) ++ [.recall ((addSortedF (a :: p1) (b :: p2) fs).2.length - 1)] := by
          simp only [addSortedF, List.length_cons]
        rw [hlen]
        refine List.rel_append ?_ (.cons ?_ .nil)
        · rw [List.forall₂_iff_get]
          have el : (adder false ((x, y) :: P)).length = p2.length + 1 := by rw [adder_length, List.length_cons, hP1]
          refine ⟨by simp [el], fun i hi1 hi2 => ?_⟩
          simp only [List.get_eq_getElem, List.getElem_map, List.getElem_range]
          refine Ev.recall ?_
          rw [List.getElem?_append_right (by rw [h.length]; omega), h.length, Nat.add_sub_cancel, woven_get, List.getElem?_map]
          rw [List.length_map] at hi2
          rw [List.getElem?_eq_getElem hi2]
          rfl
        · refine stores_last ?_ s5
          rw [adder]
          have := woven_last ((x && y || false && x) || false && y) (vs ++ [(x != y) != false]) (adder ((x && y || false && x) || false && y) P)
          rw [lastCarry_cons, woven_cons]
          simpa using this
      · have := adder_value false ((x, y) :: P)
        rw [binary_append, List.length_map, adder_length]
        rw [List.map_cons, List.map_cons, binary, binary, hP2, hP3] at this
        rw [binary, binary]
        simpa [binary] using this

theorem sem_add {ρ : Word → Bool} {p1 p2 fs : List Fml} {vs xs ys : List Bool} (h : Stores ρ fs vs) (h1 : Bits ρ vs p1 xs) (h2 : Bits ρ vs p2 ys) :
    ∃ us zs, Stores ρ (addBitsF p1 p2 fs).2 (vs ++ us) ∧ Bits ρ (vs ++ us) (addBitsF p1 p2 fs).1 zs ∧ binary zs = binary xs + binary ys := by
  rw [addBitsF]
  by_cases e1 : p1.length = 0
  · rw [if_pos e1]
    have : p1 = [] := List.length_eq_zero_iff.mp e1
    subst this
    cases h1
    exact ⟨[], ys, by simpa using h, by simpa using h2, by simp [binary]⟩
  · rw [if_neg e1]
    by_cases e2 : p2.length = 0
    · rw [if_pos e2]
      have : p2 = [] := List.length_eq_zero_iff.mp e2
      subst this
      cases h2
      exact ⟨[], xs, by simpa using h, by simpa using h1, by simp [binary]⟩
    · rw [if_neg e2]
      have n1 : p1 ≠ [] := fun e => e1 (by rw [e]; rfl)
      have n2 : p2 ≠ [] := fun e => e2 (by rw [e]; rfl)
      by_cases e3 : p2.length < p1.length
      · rw [if_pos e3]
        obtain ⟨us, zs, k1, k2, k3⟩ := sem_sorted h h2 h1 (by omega) n2
        exact ⟨us, zs, k1, k2, by omega⟩
      · rw [if_neg e3]
        exact sem_sorted h h1 h2 (by omega) n1

theorem sem_numeral {ρ : Word → Bool} {vs : List Bool} : ∀ k n, n < k → ∃ xs, Bits ρ vs (numeralF k n) xs ∧ binary xs = n
  | 0, _, h => absurd h (by omega)
  | k + 1, n, h => by
    rw [numeralF]
    by_cases h0 : n = 0
    · rw [if_pos h0]; exact ⟨[], .nil, by rw [h0]; rfl⟩
    · rw [if_neg h0]
      obtain ⟨xs, k1, k2⟩ := sem_numeral (ρ := ρ) (vs := vs) k (n / 2) (by omega)
      refine ⟨(n % 2 == 1) :: xs, .cons (Ev.const _) k1, ?_⟩
      rw [binary, k2]
      rcases Nat.mod_two_eq_zero_or_one n with h | h
      · simp only [h]; simp; omega
      · simp only [h]; simp; omega

theorem prime_unprimed {x : Word} (h : isPrimed x = true) : prime (unprimed x) = x := by
  rw [unprimed, if_pos h, prime]
  rw [isPrimed, beq_iff_eq] at h
  obtain ⟨hne, hl⟩ := List.getLast?_eq_some_iff.mp h |>.imp fun _ h => h
  rw [hl]
  simp

theorem sem_num {nm : Names} {bounds : Bounds} (hn : NamesOk nm bounds) {p : Bool} {ρ : Word → Bool} {val : Word → Int} (he : Encodes nm.limits nm.bits ρ val) :
    ∀ (a : NExp), a.Proper bounds p → ∀ {fs : List Fml} {vs : List Bool}, Stores ρ fs vs →
    ∃ us xs, Stores ρ (compN nm p a fs).2 (vs ++ us) ∧ Bits ρ (vs ++ us) (compN nm p a fs).1 xs ∧
      ((binary xs : Nat) : Int) = a.value bounds (if p then fun x => val (prime x) else val)
  | .num n, _, fs, vs, h => by
    obtain ⟨xs, k1, k2⟩ := sem_numeral (ρ := ρ) (vs := vs) (n + 1) n (by omega)
    exact ⟨[], xs, by simpa [compN] using h, by simpa [compN] using k1, by rw [k2]; rfl⟩
  | .var x, hx, fs, vs, h => by
    obtain ⟨⟨lo, hi, h1, h2⟩, h3⟩ := hx
    obtain ⟨bs, e1, e2⟩ := hn.bits _ lo hi h1
    obtain ⟨k1, k2⟩ := he _ lo hi bs (by rw [hn.limits]; exact h1) e1
    have hb : ∀ ws : List Bool, Bits ρ ws (varF nm p x) (bs.map fun b => ρ (if isPrimed x || p then prime b else b)) := by
      intro ws
      rw [varF, e1, Option.getD_some, Bits, List.forall₂_map_left_iff, List.forall₂_map_right_iff]
      exact List.forall₂_same.mpr fun b _ => Ev.var _
    have hv : ((binary (bs.map fun b => ρ (if isPrimed x || p then prime b else b)) : Nat) : Int) =
        (if p then fun x => val (prime x) else val) x - lo := by
      cases p with
      | true =>
        have hp := h3 rfl
        have hu : unprimed x = x := by rw [unprimed, hp]; rfl
        rw [hu] at k2
        simpa using k2
      | false =>
        cases hp : isPrimed x with
        | true => rw [prime_unprimed hp] at k2; simpa using k2
        | false =>
          have hu : unprimed x = x := by rw [unprimed, hp]; rfl
          rw [hu] at k1
          simpa using k1
    rw [compN, hn.limits, h1, NExp.value]
    dsimp only
    by_cases h0 : lo = 0
    · rw [if_pos h0]
      refine ⟨[], _, by simpa using h, hb _, ?_⟩
      rw [hv, h0, sub_zero]
    · rw [if_neg h0]
      obtain ⟨ys, j1, j2⟩ := sem_numeral (ρ := ρ) (vs := vs) (lo.toNat + 1) lo.toNat (by omega)
      obtain ⟨us, zs, i1, i2, i3⟩ := sem_add h (hb _) j1
      refine ⟨us, zs, i1, i2, ?_⟩
      rw [i3, j2]
      push_cast
      rw [hv, Int.toNat_of_nonneg h2]
      ring
  | .add a b, hx, fs, vs, h => by
    obtain ⟨us, xs, i1, i2, i3⟩ := sem_num hn he a hx.1 h
    obtain ⟨us', ys, j1, j2, j3⟩ := sem_num hn he b hx.2 i1
    obtain ⟨us'', zs, k1, k2, k3⟩ := sem_add j1 (i2.more us') j2
    refine ⟨us ++ us' ++ us'', zs, ?_, ?_, ?_⟩
    · simpa [compN] using k1
    · simpa [compN] using k2
    · rw [NExp.value, ← i3, ← j3, k3]; push_cast; rfl
  | .overwrite a b, hx, fs, vs, h => by
    obtain ⟨us, xs, i1, i2, i3⟩ := sem_num hn he a hx.1 h
    obtain ⟨us', ys, j1, j2, j3⟩ := sem_num hn he b hx.2.1 i1
    refine ⟨us ++ us', xs ++ ys.drop (compN nm p a fs).1.length, ?_, ?_, ?_⟩
    · simpa [compN] using j1
    · have := List.rel_append (i2.more us') (List.forall₂_drop (compN nm p a fs).1.length j2)
      simpa [compN, Bits] using this
    · have l1 : xs.length = a.width bounds := by rw [← compN_width hn hx.1 fs]; exact i2.length_eq.symm
      rw [NExp.value, ← i3, ← j3, binary_append, compN_width hn hx.1 fs, l1]
      have : binary ys = binary (ys.take (a.width bounds)) + 2 ^ (ys.take (a.width bounds)).length * binary (ys.drop (a.width bounds)) := by
        rw [← binary_append, List.take_append_drop]
      have lt := binary_lt (ys.take (a.width bounds))
      have lw : (ys.take (a.width bounds)).length = a.width bounds := by
        have : ys.length = b.width bounds := by rw [← compN_width hn hx.2.1 (compN nm p a fs).2]; exact j2.length_eq.symm
        rw [List.length_take, this]
        have := hx.2.2
        omega
      rw [lw] at this lt
      rw [this]
      push_cast
      have pos : (0 : Int) < 2 ^ a.width bounds := by positivity
      rw [Int.add_mul_ediv_left _ _ (ne_of_gt pos), Int.ediv_eq_zero_of_lt (by positivity) (by exact_mod_cast lt)]
      ring

/-! ### Comparisons -/

theorem ev_foldl {A B : Type} {ρ : Word → Bool} {vs : List Bool} {R : A → B → Prop} {F : Fml → A → Fml} {G : Bool → B → Bool}
    (h : ∀ φ x a b, Ev ρ vs φ x → R a b → Ev ρ vs (F φ a) (G x b)) {l : List A} {m : List B} (hl : List.Forall₂ R l m) :
    ∀ φ x, Ev ρ vs φ x → Ev ρ vs (l.foldl F φ) (m.foldl G x) := by
  induction hl with
  | nil => exact fun _ _ h => h
  | cons h1 _ ih => exact fun φ x hp => ih _ _ (h _ _ _ _ hp h1)

def gtB (acc : Bool) (q : Bool × Bool) : Bool := (q.1 && !q.2) || ((!q.2 || q.1) && acc)

def ltB (acc : Bool) (q : Bool × Bool) : Bool := (!q.1 && q.2) || ((q.2 || !q.1) && acc)

def eqB (acc : Bool) (q : Bool × Bool) : Bool := !(q.1 != q.2) && acc

theorem gt_fold (l : List (Bool × Bool)) (acc : Bool) : l.foldl gtB acc =
    (decide (binary (l.map Prod.fst) > binary (l.map Prod.snd)) || (decide (binary (l.map Prod.fst) = binary (l.map Prod.snd)) && acc)) := by
  induction l generalizing acc with
  | nil => simp [binary]
  | cons q l ih =>
    rw [List.foldl_cons, ih, List.map_cons, List.map_cons, binary, binary]
    generalize binary (l.map Prod.fst) = x
    generalize binary (l.map Prod.snd) = y
    obtain ⟨a, b⟩ := q
    rw [Bool.eq_iff_iff]
    cases a <;> cases b <;> cases acc <;> simp [gtB] <;> omega

theorem lt_fold (l : List (Bool × Bool)) (acc : Bool) : l.foldl ltB acc =
    (decide (binary (l.map Prod.fst) < binary (l.map Prod.snd)) || (decide (binary (l.map Prod.fst) = binary (l.map Prod.snd)) && acc)) := by
  induction l generalizing acc with
  | nil => simp [binary]
  | cons q l ih =>
    rw [List.foldl_cons, ih, List.map_cons, List.map_cons, binary, binary]
    generalize binary (l.map Prod.fst) = x
    generalize binary (l.map Prod.snd) = y
    obtain ⟨a, b⟩ := q
    rw [Bool.eq_iff_iff]
    cases a <;> cases b <;> cases acc <;> simp [ltB] <;> omega

theorem eq_fold (l : List (Bool × Bool)) (acc : Bool) : l.foldl eqB acc =
    (decide (binary (l.map Prod.fst) = binary (l.map Prod.snd)) && acc) := by
  induction l generalizing acc with
  | nil => simp [binary]
  | cons q l ih =>
    rw [List.foldl_cons, ih, List.map_cons, List.map_cons, binary, binary]
    generalize binary (l.map Prod.fst) = x
    generalize binary (l.map Prod.snd) = y
    obtain ⟨a, b⟩ := q
    rw [Bool.eq_iff_iff]
    cases a <;> cases b <;> cases acc <;> simp [eqB] <;> omega

theorem none_fold (l : List Bool) (acc : Bool) : l.foldl (fun acc b => !b && acc) acc = (decide (binary l = 0) && acc) := by
  induction l generalizing acc with
  | nil => simp [binary]
  | cons b l ih =>
    rw [List.foldl_cons, ih, binary]
    rw [Bool.eq_iff_iff]
    cases b <;> cases acc <;> simp

theorem some_fold (l : List Bool) (acc : Bool) : l.foldl (fun acc b => b || acc) acc = (decide (binary l > 0) || acc) := by
  induction l generalizing acc with
  | nil => simp [binary]
  | cons b l ih =>
    rw [List.foldl_cons, ih, binary]
    rw [Bool.eq_iff_iff]
    cases b <;> cases acc <;> simp

/-- The common bits and the remaining ones. -/
theorem split_val (xs ys : List Bool) :
    (binary xs = binary ((xs.zip ys).map Prod.fst) + 2 ^ (min xs.length ys.length) * binary (xs.drop ys.length)) ∧
    (binary ys = binary ((xs.zip ys).map Prod.snd) + 2 ^ (min xs.length ys.length) * binary (ys.drop xs.length)) ∧
    binary ((xs.zip ys).map Prod.fst) < 2 ^ (min xs.length ys.length) ∧ binary ((xs.zip ys).map Prod.snd) < 2 ^ (min xs.length ys.length) ∧
    (binary (xs.drop ys.length) = 0 ∨ binary (ys.drop xs.length) = 0) := by
  have e1 : (xs.zip ys).map Prod.fst = xs.take ys.length := map_fst_zip_take _ _
  have e2 : (xs.zip ys).map Prod.snd = ys.take xs.length := map_snd_zip_take _ _
  rw [e1, e2]
  have t1 : binary xs = binary (xs.take ys.length) + 2 ^ (xs.take ys.length).length * binary (xs.drop ys.length) := by
    rw [← binary_append, List.take_append_drop]
  have t2 : binary ys = binary (ys.take xs.length) + 2 ^ (ys.take xs.length).length * binary (ys.drop xs.length) := by
    rw [← binary_append, List.take_append_drop]
  have l1 := binary_lt (xs.take ys.length)
  have l2 := binary_lt (ys.take xs.length)
  rw [List.length_take] at t1 t2 l1 l2
  rw [Nat.min_comm] at t1 l1
  refine ⟨t1, t2, l1, l2, ?_⟩
  rcases Nat.le_total xs.length ys.length with h | h
  · left; rw [List.drop_eq_nil_of_le h]; rfl
  · right; rw [List.drop_eq_nil_of_le h]; rfl

theorem sem_cmp {ρ : Word → Bool} {vs xs ys : List Bool} {p1 p2 : List Fml} (h1 : Bits ρ vs p1 xs) (h2 : Bits ρ vs p2 ys) (o : Cmp) :
    Ev ρ vs (cmpF o p1 p2) (o.holds (binary xs) (binary ys)) := by
  have l1 : p1.length = xs.length := h1.length_eq
  have l2 : p2.length = ys.length := h2.length_eq
  have hz := forall2_zip h1 h2
  obtain ⟨s1, s2, s3, s4, s5⟩ := split_val xs ys
  generalize hk : (2 : Nat) ^ (min xs.length ys.length) = k at s1 s2 s3 s4
  have hN : ∀ φ x a b, Ev ρ vs φ x → Ev ρ vs a b → Ev ρ vs (.bin .and (.not a) φ) (!b && x) := fun φ x a b hp ha => ha.not.bin hp
  have hO : ∀ φ x a b, Ev ρ vs φ x → Ev ρ vs a b → Ev ρ vs (.bin .or a φ) (b || x) := fun φ x a b hp ha => ha.bin hp
  have g : ∀ strict, Ev ρ vs (greaterF strict p1 p2) (decide (binary xs > binary ys) || (decide (binary xs = binary ys) && !strict)) := by
    intro strict
    have := ev_foldl hO (List.forall₂_drop p2.length h1) _ _ (ev_foldl hN (List.forall₂_drop p1.length h2) _ _ (ev_foldl (R := fun (q : Fml × Fml) (x : Bool × Bool) => Ev ρ vs q.1 x.1 ∧ Ev ρ vs q.2 x.2)
      (F := fun acc q => .bin .or (.bin .and q.1 (.not q.2)) (.bin .and (.bin .or (.not q.2) q.1) acc)) (G := gtB)
      (fun φ x a b hp hq => (hq.1.bin (op := .and) hq.2.not).bin (op := .or) ((hq.2.not.bin (op := .or) hq.1).bin (op := .and) hp)) hz _ _ (Ev.const (!strict))))
    rw [some_fold, none_fold, gt_fold, l1, l2] at this
    convert this using 1
    · simp only [greaterF, l1, l2]
    rw [Bool.eq_iff_iff]
    generalize binary ((xs.zip ys).map Prod.fst) = a at *
    generalize binary ((xs.zip ys).map Prod.snd) = b at *
    generalize binary (xs.drop ys.length) = c at *
    generalize binary (ys.drop xs.length) = d at *
    rcases s5 with rfl | rfl
    · rcases Nat.eq_zero_or_pos d with rfl | hd
      · cases strict <;> simp <;> omega
      · have : k ≤ k * d := Nat.le_mul_of_pos_right k hd
        cases strict <;> simp <;> omega
    · rcases Nat.eq_zero_or_pos c with rfl | hd
      · cases strict <;> simp <;> omega
      · have : k ≤ k * c := Nat.le_mul_of_pos_right k hd
        cases strict <;> simp <;> omega
  have s : ∀ strict, Ev ρ vs (smallerF strict p1 p2) (decide (binary xs < binary ys) || (decide (binary xs = binary ys) && !strict)) := by
    intro strict
    have := ev_foldl hO (List.forall₂_drop p1.length h2) _ _ (ev_foldl hN (List.forall₂_drop p2.length h1) _ _ (ev_foldl (R := fun (q : Fml × Fml) (x : Bool × Bool) => Ev ρ vs q.1 x.1 ∧ Ev ρ vs q.2 x.2)
      (F := fun acc q => .bin .or (.bin .and (.not q.1) q.2) (.bin .and (.bin .or q.2 (.not q.1)) acc)) (G := ltB)
      (fun φ x a b hp hq => (hq.1.not.bin (op := .and) hq.2).bin (op := .or) ((hq.2.bin (op := .or) hq.1.not).bin (op := .and) hp)) hz _ _ (Ev.const (!strict))))
    rw [some_fold, none_fold, lt_fold, l1, l2] at this
    convert this using 1
    · simp only [smallerF, l1, l2]
    rw [Bool.eq_iff_iff]
    generalize binary ((xs.zip ys).map Prod.fst) = a at *
    generalize binary ((xs.zip ys).map Prod.snd) = b at *
    generalize binary (xs.drop ys.length) = c at *
    generalize binary (ys.drop xs.length) = d at *
    rcases s5 with rfl | rfl
    · rcases Nat.eq_zero_or_pos d with rfl | hd
      · cases strict <;> simp <;> omega
      · have : k ≤ k * d := Nat.le_mul_of_pos_right k hd
        cases strict <;> simp <;> omega
    · rcases Nat.eq_zero_or_pos c with rfl | hd
      · cases strict <;> simp <;> omega
      · have : k ≤ k * c := Nat.le_mul_of_pos_right k hd
        cases strict <;> simp <;> omega
  have e : Ev ρ vs (equalF p1 p2) (decide (binary xs = binary ys)) := by
    have := ev_foldl hN (List.forall₂_drop p1.length h2) _ _ (ev_foldl hN (List.forall₂_drop p2.length h1) _ _ (ev_foldl (R := fun (q : Fml × Fml) (x : Bool × Bool) => Ev ρ vs q.1 x.1 ∧ Ev ρ vs q.2 x.2)
      (F := fun acc q => .bin .and (.not (.bin .xor q.1 q.2)) acc) (G := eqB)
      (fun φ x a b hp hq => (hq.1.bin (op := .xor) hq.2).not.bin (op := .and) hp) hz _ _ (Ev.const true)))
    rw [none_fold, none_fold, eq_fold, l1, l2] at this
    convert this using 1
    · simp only [equalF, l1, l2]
    rw [Bool.eq_iff_iff]
    generalize binary ((xs.zip ys).map Prod.fst) = a at *
    generalize binary ((xs.zip ys).map Prod.snd) = b at *
    generalize binary (xs.drop ys.length) = c at *
    generalize binary (ys.drop xs.length) = d at *
    rcases s5 with rfl | rfl
    · rcases Nat.eq_zero_or_pos d with rfl | hd
      · simp; omega
      · have : k ≤ k * d := Nat.le_mul_of_pos_right k hd
        simp; omega
    · rcases Nat.eq_zero_or_pos c with rfl | hd
      · simp; omega
      · have : k ≤ k * c := Nat.le_mul_of_pos_right k hd
        simp; omega
  cases o with
  | gt =>
    have : Cmp.gt.holds (binary xs) (binary ys) = (decide (binary xs > binary ys) || (decide (binary xs = binary ys) && !true)) := by simp [Cmp.holds]
    rw [this]; exact g true
  | ge =>
    have : Cmp.ge.holds (binary xs) (binary ys) = (decide (binary xs > binary ys) || (decide (binary xs = binary ys) && !false)) := by
      rw [Bool.eq_iff_iff]; simp [Cmp.holds]; omega
    rw [this]; exact g false
  | lt =>
    have : Cmp.lt.holds (binary xs) (binary ys) = (decide (binary xs < binary ys) || (decide (binary xs = binary ys) && !true)) := by simp [Cmp.holds]
    rw [this]; exact s true
  | le =>
    have : Cmp.le.holds (binary xs) (binary ys) = (decide (binary xs < binary ys) || (decide (binary xs = binary ys) && !false)) := by
      rw [Bool.eq_iff_iff]; simp [Cmp.holds]; omega
    rw [this]; exact s false
  | eq =>
    have : Cmp.eq.holds (binary xs) (binary ys) = decide (binary xs = binary ys) := by simp [Cmp.holds]
    rw [this]; exact e
  | ne =>
    have : Cmp.ne.holds (binary xs) (binary ys) = !decide (binary xs = binary ys) := by simp [Cmp.holds]
    rw [this]; exact e.not

/-! ### Formulas -/

/-- **The translation of a formula has the meaning of the formula.** -/
theorem sem_compF {nm : Names} {bounds : Bounds} (hn : NamesOk nm bounds) {ρ : Word → Bool} {val : Word → Int} (he : Encodes nm.limits nm.bits ρ val) :
    ∀ (f : SFml) (p : Bool), f.Proper bounds p → ∀ st, (compF nm f p).eval ρ st =
      some (f.holds bounds (if p then fun x => ρ (prime x) else ρ) (if p then fun x => val (prime x) else val))
  | .tt, _, _, _ => rfl
  | .ff, _, _, _ => rfl
  | .atom x, p, _, _ => by cases p <;> rfl
  | .cmp o a b, p, h, st => by
    obtain ⟨us, xs, i1, i2, i3⟩ := sem_num hn he a h.1 Stores.nil
    obtain ⟨us', ys, j1, j2, j3⟩ := sem_num hn he b h.2 i1
    have := j1.snoc (sem_cmp (i2.more us') j2 o)
    rw [compF, Fml.eval]
    rw [Stores] at this
    rw [this, SFml.holds, ← i3, ← j3]
    simp
  | .not f, p, h, st => by rw [compF, Fml.eval, sem_compF hn he f p h st]; rfl
  | .next f, p, h, st => by
    obtain ⟨rfl, h⟩ := h
    exact sem_compF hn he f true h st
  | .and f g, p, h, st => by rw [compF, Fml.eval, sem_compF hn he f p h.1 st, sem_compF hn he g p h.2 st]; rfl
  | .or f g, p, h, st => by rw [compF, Fml.eval, sem_compF hn he f p h.1 st, sem_compF hn he g p h.2 st]; rfl
  | .imp f g, p, h, st => by
    rw [compF, Fml.eval, Fml.eval, sem_compF hn he f p h.1 st, sem_compF hn he g p h.2 st]; rfl
  | .iff f g, p, h, st => by
    rw [compF, Fml.eval, Fml.eval, Fml.eval, Fml.eval, Fml.eval, sem_compF hn he f p h.1 st, sem_compF hn he g p h.2 st, SFml.holds]
    simp only [Option.map_some, Option.bind_some, BinOp.apply]
    congr 1
    generalize SFml.holds bounds _ _ f = x
    generalize SFml.holds bounds _ _ g = y
    cases x <;> cases y <;> rfl

end Slugs.Model.Structured
