import Verif.Lemmas.ResilienceMixed

/-!
The game of a file of the second search is the game with a counter of violations.
-/

namespace Slugs.Model.Resilience

open Slugs.Spec Slugs.Model.Core

variable {sp : SpecFile} {hard soft : List Fml} {ess : List (List Char)} {c : Categories} {b : Nat}

/-! ### The counter in bits -/

/-- The specification with the bits as additional outputs. -/
def withBits (sp : SpecFile) (b : Nat) (f1 f2 f3 f4 f5 f6 : List Fml) : SpecFile := ⟨sp.inputs, sp.outputs ++ bitNames b, f1, f2, f3, f4, f5, f6⟩

/-- The outputs, and the bits of the counter. -/
def enc (sp : SpecFile) (b : Nat) (o : sp.Out) (n : Nat) : {x // x ∈ sp.outputs ++ bitNames b} → Bool :=
  fun x => if h : x.1 ∈ sp.outputs then o ⟨x.1, h⟩ else n.testBit ((bitNames b).idxOf x.1)

theorem idxOf_bit {j : Nat} (hj : j < b) : (bitNames b).idxOf (counterName j) = j := by
  have hl : j < (bitNames b).length := by rwa [bitNames_length]
  have : (bitNames b)[j] = counterName j := by simp [bitNames]
  rw [← this]
  exact (bitNames_nodup b).idxOf_getElem j hl

theorem Fresh.bit (h : Fresh sp) (j : Nat) : counterName j ∉ sp.inputs ∧ counterName j ∉ sp.outputs :=
  ⟨fun hx => h _ (List.mem_append_left _ hx) (prefix_counter j), fun hx => h _ (List.mem_append_right _ hx) (prefix_counter j)⟩

theorem Fresh.bit' (h : Fresh sp) (j : Nat) : prime (counterName j) ∉ sp.inputs ∧ prime (counterName j) ∉ sp.outputs :=
  ⟨fun hx => h _ (List.mem_append_left _ hx) (prefix_counter' j), fun hx => h _ (List.mem_append_right _ hx) (prefix_counter' j)⟩

theorem enc_old (o : sp.Out) (n : Nat) {x : Word} (hx : x ∈ sp.outputs) (hx' : x ∈ sp.outputs ++ bitNames b) : enc sp b o n ⟨x, hx'⟩ = o ⟨x, hx⟩ := dif_pos hx

theorem enc_bit (hf : Fresh sp) (o : sp.Out) (n : Nat) {j : Nat} (hj : j < b) (hx' : counterName j ∈ sp.outputs ++ bitNames b) :
    enc sp b o n ⟨counterName j, hx'⟩ = n.testBit j := by
  rw [enc, dif_neg (hf.bit j).2, idxOf_bit hj]

theorem enc_inj (hf : Fresh sp) {o o' : sp.Out} {n n' : Nat} (hn : n < 2 ^ b) (hn' : n' < 2 ^ b) (h : enc sp b o n = enc sp b o' n') : o = o' ∧ n = n' := by
  constructor
  · funext x
    have := congrFun h ⟨x.1, List.mem_append_left _ x.2⟩
    rwa [enc_old _ _ x.2, enc_old _ _ x.2] at this
  · refine Nat.eq_of_testBit_eq fun j => ?_
    by_cases hj : j < b
    · have := congrFun h ⟨counterName j, List.mem_append_right _ (mem_bitNames.mpr ⟨j, hj, rfl⟩)⟩
      rwa [enc_bit hf _ _ hj, enc_bit hf _ _ hj] at this
    · have : (2 : Nat) ^ b ≤ 2 ^ j := Nat.pow_le_pow_right (by omega) (by omega)
      rw [Nat.testBit_lt_two_pow (by omega), Nat.testBit_lt_two_pow (by omega)]

theorem enc_surj (hf : Fresh sp) (o' : {x // x ∈ sp.outputs ++ bitNames b} → Bool) : ∃ (o : sp.Out) (n : Nat), n < 2 ^ b ∧ o' = enc sp b o n := by
  classical
  let n := Nat.ofBits fun j : Fin b => o' ⟨counterName j, List.mem_append_right _ (mem_bitNames.mpr ⟨j, j.2, rfl⟩)⟩
  refine ⟨fun x => o' ⟨x.1, List.mem_append_left _ x.2⟩, n, Nat.ofBits_lt_two_pow _, ?_⟩
  funext ⟨x, hx⟩
  by_cases ho : x ∈ sp.outputs
  · rw [enc_old _ _ ho]
  · obtain ⟨j, hj, rfl⟩ := mem_bitNames.mp ((List.mem_append.mp hx).resolve_left ho)
    rw [enc_bit hf _ _ hj]
    exact (Nat.testBit_ofBits_lt (fun j : Fin b => o' ⟨counterName j, List.mem_append_right _ (mem_bitNames.mpr ⟨j, j.2, rfl⟩)⟩) j hj).symm

theorem enc_false : (fun _ => false : {x // x ∈ sp.outputs ++ bitNames b} → Bool) = enc sp b (fun _ => false) 0 := by
  funext x
  rw [enc]
  split
  · rfl
  · rw [Nat.zero_testBit]

section look

variable {f1 f2 f3 f4 f5 f6 : List Fml}

theorem now_old (i : sp.In) (o : sp.Out) (n : Nat) {x : Word} (hx : x ∈ sp.inputs ++ sp.outputs) :
    (withBits sp b f1 f2 f3 f4 f5 f6).now i (enc sp b o n) x = sp.now i o x := by
  unfold SpecFile.now
  by_cases hi : x ∈ sp.inputs
  · rw [dif_pos hi, dif_pos (show x ∈ (withBits sp b f1 f2 f3 f4 f5 f6).inputs from hi)]
    rfl
  · have ho := (List.mem_append.mp hx).resolve_left hi
    rw [dif_neg hi, dif_neg (show x ∉ (withBits sp b f1 f2 f3 f4 f5 f6).inputs from hi), dif_pos ho,
      dif_pos (show x ∈ (withBits sp b f1 f2 f3 f4 f5 f6).outputs from List.mem_append_left _ ho)]
    exact enc_old o n ho _

theorem now_bit (hf : Fresh sp) (i : sp.In) (o : sp.Out) (n : Nat) {j : Nat} (hj : j < b) :
    (withBits sp b f1 f2 f3 f4 f5 f6).now i (enc sp b o n) (counterName j) = n.testBit j := by
  unfold SpecFile.now
  rw [dif_neg (show counterName j ∉ (withBits sp b f1 f2 f3 f4 f5 f6).inputs from (hf.bit j).1),
    dif_pos (show counterName j ∈ (withBits sp b f1 f2 f3 f4 f5 f6).outputs from List.mem_append_right _ (mem_bitNames.mpr ⟨j, hj, rfl⟩))]
  exact enc_bit hf o n hj _

/-- The values of the old names. -/
theorem look_old (i i' : sp.In) (o o' : sp.Out) (n n' : Nat) {x : Word} (hx : x ∈ sp.names) :
    (withBits sp b f1 f2 f3 f4 f5 f6).look (i, enc sp b o n) (i', enc sp b o' n') x = sp.look (i, o) (i', o') x := by
  rw [SpecFile.look, SpecFile.look]
  by_cases h : x ∈ sp.inputs ++ sp.outputs
  · have h' : x ∈ (withBits sp b f1 f2 f3 f4 f5 f6).inputs ++ (withBits sp b f1 f2 f3 f4 f5 f6).outputs := by
      simp only [withBits, List.mem_append] at h ⊢
      tauto
    rw [if_pos h, if_pos h']
    exact now_old i o n h
  · obtain ⟨y, hy, rfl⟩ : ∃ y ∈ sp.inputs ++ sp.outputs, prime y = x := by
      simp only [SpecFile.names, List.mem_append, List.mem_map] at hx h ⊢
      rcases hx with (hx | ⟨y, hy, e⟩) | ⟨y, hy, e⟩
      · exact absurd hx h
      · exact ⟨y, .inl hy, e⟩
      · exact ⟨y, .inr hy, e⟩
    have h' : prime y ∉ (withBits sp b f1 f2 f3 f4 f5 f6).inputs ++ (withBits sp b f1 f2 f3 f4 f5 f6).outputs := by
      simp only [withBits, List.mem_append] at h ⊢
      rintro (h1 | h1 | h1)
      · exact h (.inl h1)
      · exact h (.inr h1)
      · obtain ⟨j, _, e⟩ := mem_bitNames.mp h1
        exact prime_ne_counter e.symm
    have e : (prime y).dropLast = y := by simp [prime]
    rw [if_neg h, if_neg h', e]
    exact now_old i' o' n' hy

theorem look_shows (hf : Fresh sp) (i : sp.In) (o : sp.Out) (n : Nat) (Q) : Shows b ((withBits sp b f1 f2 f3 f4 f5 f6).look (i, enc sp b o n) Q) n := by
  intro j hj
  have : counterName j ∈ (withBits sp b f1 f2 f3 f4 f5 f6).inputs ++ (withBits sp b f1 f2 f3 f4 f5 f6).outputs :=
    List.mem_append_right _ (List.mem_append_right _ (mem_bitNames.mpr ⟨j, hj, rfl⟩))
  rw [SpecFile.look, if_pos this]
  exact now_bit hf i o n hj

theorem look_showsNext (hf : Fresh sp) (P) (i : sp.In) (o : sp.Out) (n : Nat) : ShowsNext b ((withBits sp b f1 f2 f3 f4 f5 f6).look P (i, enc sp b o n)) n := by
  intro j hj
  have : prime (counterName j) ∉ (withBits sp b f1 f2 f3 f4 f5 f6).inputs ++ (withBits sp b f1 f2 f3 f4 f5 f6).outputs := by
    simp only [withBits, List.mem_append]
    rintro (h1 | h1 | h1)
    · exact (hf.bit' j).1 h1
    · exact (hf.bit' j).2 h1
    · obtain ⟨_, _, e⟩ := mem_bitNames.mp h1
      exact prime_ne_counter e.symm
  have e : (prime (counterName j)).dropLast = counterName j := by simp [prime]
  rw [SpecFile.look, if_neg this, e]
  exact now_bit hf i o n hj

theorem holds_old (i i' : sp.In) (o o' : sp.Out) (n n' : Nat) {φ : Fml} (hx : ∀ x ∈ φ.vars, x ∈ sp.names) :
    (withBits sp b f1 f2 f3 f4 f5 f6).holds (i, enc sp b o n) (i', enc sp b o' n') φ ↔ sp.holds (i, o) (i', o') φ := by
  rw [SpecFile.holds, SpecFile.holds, Fml.eval_congr φ [] fun x h => look_old i i' o o' n n' (hx x h)]

end look

/-! ### The game with a counter that is at most `k` -/

/-- The game, restricted to some outputs. -/
def pull {I O O' : Type} (g : Game I O') (e : O → O') : Game I O where
  initEnv := g.initEnv
  initSys p := g.initSys (p.1, e p.2)
  safetyEnv p i := g.safetyEnv (p.1, e p.2) i
  safetySys p q := g.safetySys (p.1, e p.2) (q.1, e q.2)
  assumptions := g.assumptions.map fun a p q => a (p.1, e p.2) (q.1, e q.2)
  guarantees := g.guarantees.map fun a p q => a (p.1, e p.2) (q.1, e q.2)

theorem pull_play {I O O' : Type} {g : Game I O'} {e : O → O'} (he : Function.Injective e) (h1 : ∀ i o', g.initSys (i, o') → ∃ o, o' = e o)
    (h2 : ∀ (p : Pos I O) i o', g.safetyEnv (p.1, e p.2) i → g.safetySys (p.1, e p.2) (i, o') → ∃ o, o' = e o) : EmbedsPlay (pull g e) g id e where
  injI := Function.injective_id
  injO := he
  initEnv i' := ⟨fun h => ⟨i', rfl, h⟩, by rintro ⟨i, rfl, h⟩; exact h⟩
  initSys i o' := ⟨fun h => by obtain ⟨o, rfl⟩ := h1 _ _ h; exact ⟨o, rfl, h⟩, by rintro ⟨o, rfl, h⟩; exact h⟩
  safetyEnv p i' := ⟨fun h => ⟨i', rfl, h⟩, by rintro ⟨i, rfl, h⟩; exact h⟩
  safetySys p i o' hs := ⟨fun h => by obtain ⟨o, rfl⟩ := h2 p i o' hs h; exact ⟨o, rfl, h⟩, by rintro ⟨o, rfl, h⟩; exact h⟩
  assumptions := by
    rw [pull, List.forall₂_map_left_iff, List.forall₂_same]
    exact fun _ _ _ _ => Iff.rfl
  guarantees := by
    rw [pull, List.forall₂_map_left_iff, List.forall₂_same]
    exact fun _ _ _ _ => Iff.rfl

/-- The counter is never greater than `k`. -/
def cutOut (sp : SpecFile) (k : Nat) (x : sp.Out × Fin (k + 1)) : sp.Out × Nat := (x.1, x.2.val)

theorem cut_play (sp : SpecFile) (hard soft : List Fml) (v : List Nat) (k : Nat) :
    EmbedsPlay (pull (sp.resilient hard soft v k) (cutOut sp k)) (sp.resilient hard soft v k) id (cutOut sp k) := by
  refine pull_play ?_ ?_ ?_
  · rintro ⟨o, n⟩ ⟨o', n'⟩ h
    obtain ⟨h1, h2⟩ := Prod.mk.inj h
    exact Prod.ext h1 (Fin.ext h2)
  · rintro i ⟨o, n⟩ ⟨_, h⟩
    exact ⟨(o, 0), Prod.ext rfl h⟩
  · rintro p i ⟨o, n⟩ ⟨_, h1⟩ ⟨_, h2⟩
    exact ⟨(o, ⟨n, by have := h2.trans h1; simp only at this; omega⟩), rfl⟩

/-! ### The game of the file -/

theorem Base.names_sub (h : Base sp hard soft ess c) {s : Section} {x : Word} (hx : x ∈ usable s (c .input) (c .output)) : x ∈ sp.names := by
  rw [SpecFile.names, h.inputs, h.outputs]
  exact usable_names hx

theorem Base.unambiguous (h : Base sp hard soft ess c) : sp.Unambiguous := by
  rw [SpecFile.Unambiguous, SpecFile.names, h.inputs, h.outputs]
  exact h.names

/-- Which assumptions are violated. -/
theorem Base.bad_eq (h : Base sp hard soft ess c) {f1 f2 f3 f4 f5 f6 : List Fml} (i i' : sp.In) (o o' : sp.Out) (n n' : Nat) {l : List Char} (hl : l ∈ ess ++ c .envTrans) :
    bad ((withBits sp b f1 f2 f3 f4 f5 f6).look (i, enc sp b o n) (i', enc sp b o' n')) l = sp.violates (i, o) i' (rdLine l) := by
  obtain ⟨_, _, _, hv⟩ := h.assumption hl
  rw [bad, SpecFile.violates]
  congr 2
  refine Fml.eval_congr _ [] fun x hx => ?_
  rw [look_old i i' o o' n n' (h.names_sub (hv x hx))]
  exact look_next (by rw [h.inputs, h.outputs]; exact hv x hx) h.unambiguous _ _ _

theorem Base.count_eq (h : Base sp hard soft ess c) {v : List Nat} (hv : v.length = soft.length) (f : Nat → Bool) {f1 f2 f3 f4 f5 f6 : List Fml} (i i' : sp.In) (o o' : sp.Out)
    (n n' : Nat) :
    (atLevel 0 v f (c .envTrans)).countP (bad ((withBits sp b f1 f2 f3 f4 f5 f6).look (i, enc sp b o n) (i', enc sp b o' n'))) =
      (pick f v soft).countP (sp.violates (i, o) i') := by
  have hlen : v.length = (c .envTrans).length := by rw [hv, h.softEq, List.length_map]
  rw [h.softEq, ← pick_lines 0 hlen, List.countP_map]
  refine List.countP_congr fun l hl => ?_
  rw [h.bad_eq i i' o o' n n' (List.mem_append_right _ (atLevel_sub _ _ _ _ hl))]
  rfl

theorem Base.bad_exists (h : Base sp hard soft ess c) {v : List Nat} (hv : v.length = soft.length) (f : Nat → Bool) {f1 f2 f3 f4 f5 f6 : List Fml} (i i' : sp.In) (o o' : sp.Out)
    (n n' : Nat) :
    (∃ a ∈ atLevel 0 v f (c .envTrans), bad ((withBits sp b f1 f2 f3 f4 f5 f6).look (i, enc sp b o n) (i', enc sp b o' n')) a = true) ↔
      ∃ φ ∈ pick f v soft, sp.violates (i, o) i' φ = true := by
  have := h.count_eq (b := b) hv f (f1 := f1) (f2 := f2) (f3 := f3) (f4 := f4) (f5 := f5) (f6 := f6) i i' o o' n n'
  rw [← List.countP_pos_iff, this, List.countP_pos_iff]

theorem Base.mixed_play (h : Base sp hard soft ess c) (hfr : Fresh sp) {k : Nat} (hb : 0 < b) (hk : k < 2 ^ b) {v : List Nat} (hv : v.length = soft.length)
    {f2 f3 f4 f5 f6 : List Fml} (e2 : f2 = (mixedLines b ess c v k .sysInit).map rdLine) (e3 : f3 = (mixedLines b ess c v k .envTrans).map rdLine)
    (e4 : f4 = (mixedLines b ess c v k .sysTrans).map rdLine) (e5 : f5 = (mixedLines b ess c v k .envLiveness).map rdLine)
    (e6 : f6 = (mixedLines b ess c v k .sysLiveness).map rdLine) :
    EmbedsPlay (pull (sp.resilient hard soft v k) (cutOut sp k)) (withBits sp b sp.envInit f2 f3 f4 f5 f6).game id (fun x => enc sp b x.1 x.2.val) := by
  have hlen : v.length = (c .envTrans).length := by rw [hv, h.softEq, List.length_map]
  have lt : ∀ n : Fin (k + 1), n.val < 2 ^ b := fun n => by have := n.2; omega
  have old : ∀ {s}, s ≠ .input → s ≠ .output → ∀ l ∈ c s, ∀ x ∈ (rdLine l).vars, x ∈ sp.names :=
    fun h1 h2 l hl x hx => h.names_sub ((h.constraint h1 h2 hl).2.2.2 x hx)
  have okU : ∀ f, ∀ a ∈ atLevel 0 v f (c .envTrans), Ok (fun _ => True) a := fun f a ha => (h.okMasked (b := b) v _ a ha).mono fun _ _ => trivial
  -- the safety assumptions
  have env : ∀ (i i' : sp.In) (o : sp.Out) (n : Nat), n ≤ k →
      ((withBits sp b sp.envInit f2 f3 f4 f5 f6).game.safetyEnv (i, enc sp b o n) i' ↔ (sp.resilient hard soft v k).safetyEnv (i, (o, n)) i') := by
    intro i i' o n hn
    have e : f3 = hard ++ pick (· == 0) v soft ++ (limitLines b k (atLevel 0 v (· == 1) (c .envTrans))).map rdLine := by
      rw [e3, mixedLines, List.map_append, List.map_append, pick_lines 0 hlen, h.hardEq, h.softEq]
    have g : (withBits sp b sp.envInit f2 f3 f4 f5 f6).game.safetyEnv (i, enc sp b o n) i' ↔
        ∀ φ ∈ f3, (withBits sp b sp.envInit f2 f3 f4 f5 f6).holds (i, enc sp b o n) (i', enc sp b (fun _ => false) 0) φ := by
      rw [← enc_false]
      rfl
    have g3 : (∀ φ ∈ f3, (withBits sp b sp.envInit f2 f3 f4 f5 f6).holds (i, enc sp b o n) (i', enc sp b (fun _ => false) 0) φ) ↔
        (∀ φ ∈ hard ++ pick (· == 0) v soft, (withBits sp b sp.envInit f2 f3 f4 f5 f6).holds (i, enc sp b o n) (i', enc sp b (fun _ => false) 0) φ) ∧
        ∀ l ∈ limitLines b k (atLevel 0 v (· == 1) (c .envTrans)), mean ((withBits sp b sp.envInit f2 f3 f4 f5 f6).look (i, enc sp b o n) (i', enc sp b (fun _ => false) 0)) l := by
      have : ∀ P : Fml → Prop, (∀ φ ∈ f3, P φ) ↔ (∀ φ ∈ hard ++ pick (· == 0) v soft, P φ) ∧ ∀ l ∈ limitLines b k (atLevel 0 v (· == 1) (c .envTrans)), P (rdLine l) := by
        intro P
        rw [e, List.forall_mem_append, List.forall_mem_map]
      exact this _
    rw [g, g3]
    refine and_congr ?_ ?_
    · refine forall_congr' fun φ => forall_congr' fun hφ => ?_
      obtain ⟨l, hl, rfl⟩ : ∃ l ∈ ess ++ c .envTrans, rdLine l = φ := by
        rcases List.mem_append.mp hφ with hφ | hφ
        · rw [h.hardEq] at hφ
          obtain ⟨l, hl, rfl⟩ := List.mem_map.mp hφ
          exact ⟨l, List.mem_append_left _ hl, rfl⟩
        · rw [h.softEq, ← pick_lines 0 hlen] at hφ
          obtain ⟨l, hl, rfl⟩ := List.mem_map.mp hφ
          exact ⟨l, List.mem_append_right _ (atLevel_sub _ _ _ _ hl), rfl⟩
      rw [← h.bad_eq (b := b) i i' o (fun _ => false) n 0 hl (f1 := sp.envInit) (f2 := f2) (f3 := f3) (f4 := f4) (f5 := f5) (f6 := f6), bad_eq_false]
      rfl
    · rw [(ok_limits hk (fun j _ => trivial) (okU _)).2 _ n hn (look_shows hfr i o n _), h.count_eq hv]
  -- the safety guarantees
  have sys : ∀ (i i' : sp.In) (o o' : sp.Out) (n n' : Nat), n' < 2 ^ b → (sp.resilient hard soft v k).safetyEnv (i, (o, n)) i' →
      ((withBits sp b sp.envInit f2 f3 f4 f5 f6).game.safetySys (i, enc sp b o n) (i', enc sp b o' n') ↔ (sp.resilient hard soft v k).safetySys (i, (o, n)) (i', (o', n'))) := by
    intro i i' o o' n n' hn' he
    have : ∀ P : Fml → Prop, (∀ φ ∈ f4, P φ) ↔ (∀ φ ∈ sp.sysTrans, P φ) ∧ ∀ l ∈ countLines b k (atLevel 0 v (· == 1) (c .envTrans)), P (rdLine (trim l)) := by
      intro P
      rw [e4, mixedLines, List.map_append, List.forall_mem_append, h.sysTrans, List.map_map, List.forall_mem_map]
      refine and_congr Iff.rfl ?_
      rw [List.forall_mem_map]
      rfl
    refine (this _).trans (and_congr ?_ ?_)
    · refine forall_congr' fun φ => forall_congr' fun hφ => holds_old i i' o o' n n' ?_
      rw [h.sysTrans] at hφ
      obtain ⟨l, hl, rfl⟩ := List.mem_map.mp hφ
      exact old (by decide) (by decide) l hl
    · have := (ok_counts hk (fun j _ => trivial) (fun j _ => trivial) (okU (· == 1))).2 _ n n' hn' (look_shows hfr i o n _)
        (look_showsNext hfr (b := b) (f1 := sp.envInit) (f2 := f2) (f3 := f3) (f4 := f4) (f5 := f5) (f6 := f6) (i, enc sp b o n) i' o' n')
      rw [h.count_eq hv] at this
      exact this he.2
  refine ⟨Function.injective_id, ?_, ?_, ?_, ?_, ?_, ?_, ?_⟩
  · rintro ⟨o, n⟩ ⟨o', n'⟩ heq
    obtain ⟨h1, h2⟩ := enc_inj hfr (lt n) (lt n') heq
    exact Prod.ext h1 (Fin.ext h2)
  · intro i'
    have : (withBits sp b sp.envInit f2 f3 f4 f5 f6).game.initEnv i' ↔ sp.game.initEnv i' := by
      refine forall_congr' fun φ => forall_congr' fun hφ => ?_
      rw [show (fun _ => false : (withBits sp b sp.envInit f2 f3 f4 f5 f6).Out) = enc sp b (fun _ => false) 0 from enc_false]
      refine holds_old (sp := sp) i' i' _ _ 0 0 ?_
      have hφ' : φ ∈ sp.envInit := hφ
      rw [h.envInit] at hφ'
      obtain ⟨l, hl, rfl⟩ := List.mem_map.mp hφ'
      exact old (by decide) (by decide) l hl
    rw [this]
    exact ⟨fun h => ⟨i', rfl, h⟩, by rintro ⟨i, rfl, h⟩; exact h⟩
  · have ini : ∀ (i : sp.In) (o : sp.Out) (n : Nat), n < 2 ^ b →
        ((withBits sp b sp.envInit f2 f3 f4 f5 f6).game.initSys (i, enc sp b o n) ↔ sp.game.initSys (i, o) ∧ n = 0) := by
      intro i o n hn
      have : ∀ P : Fml → Prop, (∀ φ ∈ f2, P φ) ↔ (∀ φ ∈ sp.sysInit, P φ) ∧ ∀ x ∈ bitNames b, P (rdLine (txt!"! " ++ x)) := by
        intro P
        rw [e2, mixedLines, List.map_append, List.forall_mem_append, h.sysInit, List.map_map, List.forall_mem_map]
        refine and_congr Iff.rfl ?_
        rw [List.forall_mem_map]
        rfl
      refine (this _).trans (and_congr ?_ ?_)
      · refine forall_congr' fun φ => forall_congr' fun hφ => holds_old i i o o n n ?_
        rw [h.sysInit] at hφ
        obtain ⟨l, hl, rfl⟩ := List.mem_map.mp hφ
        exact old (by decide) (by decide) l hl
      · have m : ∀ j, j < b → ((withBits sp b sp.envInit f2 f3 f4 f5 f6).holds (i, enc sp b o n) (i, enc sp b o n) (rdLine (txt!"! " ++ counterName j)) ↔ n.testBit j = false) := by
          intro j hj
          have h1 := ok_counter (U := fun _ => True) (i := j) trivial
          refine ((ok_not h1.1).2 _).trans ?_
          rw [h1.2, look_shows hfr i o n _ j hj]
          simp
        constructor
        · intro hall
          exact eq_zero_of_bits hn fun j hj => (m j hj).mp (hall _ (mem_bitNames.mpr ⟨j, hj, rfl⟩))
        · rintro rfl x hx
          obtain ⟨j, hj, rfl⟩ := mem_bitNames.mp hx
          exact (m j hj).mpr (by simp)
    intro i o'
    constructor
    · intro hi
      obtain ⟨o, n, hn, rfl⟩ := enc_surj hfr o'
      obtain ⟨h1, rfl⟩ := (ini i o n hn).mp hi
      exact ⟨(o, 0), rfl, h1, rfl⟩
    · rintro ⟨⟨o, n⟩, rfl, h1, h2⟩
      exact (ini i o n.val (lt n)).mpr ⟨h1, h2⟩
  · rintro ⟨i, o, n⟩ i'
    refine (env i i' o n.val (by have := n.2; omega)).trans ⟨fun h => ⟨i', rfl, h⟩, ?_⟩
    rintro ⟨i, rfl, h⟩
    exact h
  · rintro ⟨i, o, n⟩ i' o' he
    constructor
    · intro hs
      obtain ⟨o', n', hn', rfl⟩ := enc_surj hfr o'
      have := (sys i i' o o' n.val n' hn' he).mp hs
      have hle : n' ≤ k := this.2.trans he.2
      exact ⟨(o', ⟨n', by omega⟩), rfl, this⟩
    · rintro ⟨⟨o', n'⟩, rfl, hs⟩
      exact (sys i i' o o' n.val n'.val (lt n') he).mpr hs
  · have e : f5 = (c .envLiveness).map fun a => rdLine (ops b '|' ++ joinWords (bitNames b) ++ txt!" " ++ a) := by
      rw [e5, mixedLines, List.map_map]
      rfl
    show List.Forall₂ _ (((sp.envLiveness.map _).map _).map _) (f5.map _)
    rw [e, h.envLiveness, List.map_map, List.map_map, List.map_map, List.map_map, List.forall₂_map_left_iff, List.forall₂_map_right_iff, List.forall₂_same]
    rintro l hl ⟨i, o, n⟩ ⟨i', o', n'⟩
    have ok := h.okOld (b := b) (s := .envLiveness) (by decide) (by decide) hl
    refine ((ok_liveness hb (fun j hj => usable_bit (.inr (.inr (.inr (.inl rfl)))) hj) ok).2 _ n.val (lt n) (look_shows hfr i o n.val _)).trans ?_
    exact or_congr Iff.rfl (holds_old i i' o o' n.val n'.val (old (by decide) (by decide) l hl))
  · have e : f6 = (c .sysLiveness).map (fun l => rdLine (violationPrefix (atLevel 0 v (0 < ·) (c .envTrans)) ++ l)) ++
        [rdLine (violationPrefix (atLevel 0 v (0 < ·) (c .envTrans)) ++ zeroLine b)] := by
      rw [e6, mixedLines, List.map_map, List.map_append]
      rfl
    have pre : ∀ {l}, Ok (fun _ => True) l → ∀ (i i' : sp.In) (o o' : sp.Out) (n n' : Nat),
        ((withBits sp b sp.envInit f2 f3 f4 f5 f6).holds (i, enc sp b o n) (i', enc sp b o' n') (rdLine (violationPrefix (atLevel 0 v (0 < ·) (c .envTrans)) ++ l)) ↔
        (withBits sp b sp.envInit f2 f3 f4 f5 f6).holds (i, enc sp b o n) (i', enc sp b o' n') (rdLine l) ∨ ∃ φ ∈ pick (0 < ·) v soft, sp.violates (i, o) i' φ = true) := by
      intro l hl i i' o o' n n'
      refine ((ok_prefix (okU _) hl).2 _).trans (or_congr Iff.rfl (h.bad_exists hv _ i i' o o' n n'))
    have eg : (withBits sp b sp.envInit f2 f3 f4 f5 f6).game.guarantees = (c .sysLiveness).map (fun l p q =>
          (withBits sp b sp.envInit f2 f3 f4 f5 f6).holds p q (rdLine (violationPrefix (atLevel 0 v (0 < ·) (c .envTrans)) ++ l))) ++
        [fun p q => (withBits sp b sp.envInit f2 f3 f4 f5 f6).holds p q (rdLine (violationPrefix (atLevel 0 v (0 < ·) (c .envTrans)) ++ zeroLine b))] := by
      refine (congrArg (List.map _) e).trans ?_
      rw [List.map_append, List.map_map]
      rfl
    have el : (pull (sp.resilient hard soft v k) (cutOut sp k)).guarantees = (c .sysLiveness).map (fun l (p q : Pos sp.In (sp.Out × Fin (k + 1))) =>
          sp.holds (p.1, p.2.1) (q.1, q.2.1) (rdLine l) ∨ ∃ φ ∈ pick (0 < ·) v soft, sp.violates (p.1, p.2.1) q.1 φ = true) ++
        [fun p q => q.2.2.val = 0 ∨ ∃ φ ∈ pick (0 < ·) v soft, sp.violates (p.1, p.2.1) q.1 φ = true] := by
      simp only [pull, SpecFile.resilient, SpecFile.game, List.map_append, List.map_map, h.sysLiveness]
      rfl
    rw [eg, el]
    refine List.rel_append ?_ (.cons ?_ .nil)
    · rw [List.forall₂_map_left_iff, List.forall₂_map_right_iff, List.forall₂_same]
      rintro l hl ⟨i, o, n⟩ ⟨i', o', n'⟩
      have ok := (h.okOld (b := b) (s := .sysLiveness) (by decide) (by decide) hl).mono (U' := fun _ => True) fun _ _ => trivial
      refine (pre ok i i' o o' n.val n'.val).trans (or_congr ?_ Iff.rfl)
      exact holds_old i i' o o' n.val n'.val (old (by decide) (by decide) l hl)
    · rintro ⟨i, o, n⟩ ⟨i', o', n'⟩
      have ok := ok_zeroLine (U := fun _ => True) (b := b) fun _ _ => trivial
      refine (pre ok.1 i i' o o' n.val n'.val).trans (or_congr ?_ Iff.rfl)
      exact ok.2 _ n'.val (lt n') (look_showsNext hfr _ i' o' n'.val)

/-- The file is realizable if and only if the system wins the game with the counter. -/
theorem Base.mixed_eq (h : Base sp hard soft ess c) (hfr : Fresh sp) {k : Nat} (hb : 0 < b) (hk : k < 2 ^ b) {v : List Nat} (hv : v.length = soft.length) :
    (specLines (mixedLines b ess c v k)).game.Realizable ↔ (sp.resilient hard soft v k).Realizable := by
  have e : specLines (mixedLines b ess c v k) = withBits sp b sp.envInit ((mixedLines b ess c v k .sysInit).map rdLine) ((mixedLines b ess c v k .envTrans).map rdLine)
      ((mixedLines b ess c v k .sysTrans).map rdLine) ((mixedLines b ess c v k .envLiveness).map rdLine) ((mixedLines b ess c v k .sysLiveness).map rdLine) := by
    rw [specLines, withBits, SpecFile.mk.injEq]
    exact ⟨h.inputs.symm, by rw [h.outputs]; rfl, h.envInit.symm, rfl, rfl, rfl, rfl, rfl⟩
  rw [e]
  exact (h.mixed_play hfr hb hk hv rfl rfl rfl rfl rfl).realizable.trans (cut_play sp hard soft v k).realizable.symm

end Slugs.Model.Resilience
