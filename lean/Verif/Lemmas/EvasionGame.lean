import Verif.Lemmas.EvasionFile
import Verif.Lemmas.CinderellaGame

/-! The game that the benchmark about the moving obstacle denotes (C87). -/

namespace Slugs.Model.Evasion

open Slugs.Spec Slugs.Spec.Structured Slugs.Model.Structured Slugs.Model.Cinderella Slugs.Model.InfixTree Slugs.Spec.Evasion

variable {w h most : Nat}

/-! ### Values -/

abbrev E (w h most : Nat) : SSpec := theSpec w h most

/-- The value of a variable. -/
def iv (i : (E w h most).In) (x : Word) : Nat := (i.1 x).toNat
def ov (o : (E w h most).Out) (x : Word) : Nat := (o.1 x).toNat

theorem in_range (i : (E w h most).In) {x : Word} {k : Nat} (hx : (⟨x, some (0, (k : Int))⟩ : Decl) ∈ (E w h most).inputs) : i.1 x = iv i x ∧ iv i x ≤ k := by
  have := i.2.1 _ hx
  simp only [Decl.Ok] at this
  rw [iv]
  omega

theorem out_range (o : (E w h most).Out) {x : Word} {k : Nat} (hx : (⟨x, some (0, (k : Int))⟩ : Decl) ∈ (E w h most).outputs) : o.1 x = ov o x ∧ ov o x ≤ k := by
  have := o.2.1 _ hx
  simp only [Decl.Ok] at this
  rw [ov]
  omega

theorem obsx_range (i : (E w h most).In) : i.1 txt!"obsx" = iv i txt!"obsx" ∧ iv i txt!"obsx" ≤ w - 2 := in_range i (by simp [theSpec])
theorem obsy_range (i : (E w h most).In) : i.1 txt!"obsy" = iv i txt!"obsy" ∧ iv i txt!"obsy" ≤ h - 2 := in_range i (by simp [theSpec])
theorem robx_range (i : (E w h most).In) : i.1 txt!"robx" = iv i txt!"robx" ∧ iv i txt!"robx" ≤ w - 1 := in_range i (by simp [theSpec])
theorem roby_range (i : (E w h most).In) : i.1 txt!"roby" = iv i txt!"roby" ∧ iv i txt!"roby" ≤ h - 1 := in_range i (by simp [theSpec])
theorem glitches_range (i : (E w h most).In) : i.1 txt!"glitches" = iv i txt!"glitches" ∧ iv i txt!"glitches" ≤ most := in_range i (by simp [theSpec])
theorem movx_range (o : (E w h most).Out) : o.1 txt!"movx" = ov o txt!"movx" ∧ ov o txt!"movx" ≤ 2 := out_range o (by simp [theSpec])
theorem movy_range (o : (E w h most).Out) : o.1 txt!"movy" = ov o txt!"movy" ∧ ov o txt!"movy" ≤ 2 := out_range o (by simp [theSpec])

def inOf (s : State) (h1 : s.obsx ≤ w - 2) (h2 : s.obsy ≤ h - 2) (h3 : s.robx ≤ w - 1) (h4 : s.roby ≤ h - 1) (h5 : s.glitches ≤ most) : (E w h most).In :=
  mkVal _ (fun x => if x = txt!"obsx" then (s.obsx : Int) else if x = txt!"obsy" then (s.obsy : Int) else if x = txt!"robx" then (s.robx : Int)
    else if x = txt!"roby" then (s.roby : Int) else (s.glitches : Int)) (by
    intro d hd
    simp only [theSpec, List.mem_cons, List.not_mem_nil, or_false] at hd
    rcases hd with rfl | rfl | rfl | rfl | rfl <;> simp [Decl.Ok] <;> omega)

def outOf (dx dy : Nat) (r : Bool) (h1 : dx ≤ 2) (h2 : dy ≤ 2) : (E w h most).Out :=
  mkVal _ (fun x => if x = txt!"movx" then (dx : Int) else if x = txt!"movy" then (dy : Int) else if r then 1 else 0) (by
    intro d hd
    simp only [theSpec, List.mem_cons, List.not_mem_nil, or_false] at hd
    rcases hd with rfl | rfl | rfl
    · simp [Decl.Ok]; omega
    · simp [Decl.Ok]; omega
    · cases r <;> simp [Decl.Ok])

/-- The input has the values of the state. -/
structure Matches (i : (E w h most).In) (s : State) : Prop where
  obsx : iv i txt!"obsx" = s.obsx
  obsy : iv i txt!"obsy" = s.obsy
  robx : iv i txt!"robx" = s.robx
  roby : iv i txt!"roby" = s.roby

theorem inOf_matches {s : State} {h1 : s.obsx ≤ w - 2} {h2 : s.obsy ≤ h - 2} {h3 : s.robx ≤ w - 1} {h4 : s.roby ≤ h - 1} {h5 : s.glitches ≤ most} :
    Matches (inOf s h1 h2 h3 h4 h5) s ∧ iv (inOf s h1 h2 h3 h4 h5) txt!"glitches" = s.glitches := by
  have key : ∀ x ∈ inNames, (inOf s h1 h2 h3 h4 h5).1 x = if x = txt!"obsx" then (s.obsx : Int) else if x = txt!"obsy" then (s.obsy : Int)
      else if x = txt!"robx" then (s.robx : Int) else if x = txt!"roby" then (s.roby : Int) else (s.glitches : Int) := fun x hx => mkVal_mem hx
  refine ⟨⟨?_, ?_, ?_, ?_⟩, ?_⟩ <;> rw [iv, key _ (by decide)] <;> simp

theorem outOf_values {dx dy : Nat} {r : Bool} {h1 : dx ≤ 2} {h2 : dy ≤ 2} : ov (outOf (w := w) (h := h) (most := most) dx dy r h1 h2) txt!"movx" = dx ∧
    ov (outOf (w := w) (h := h) (most := most) dx dy r h1 h2) txt!"movy" = dy ∧ ((outOf (w := w) (h := h) (most := most) dx dy r h1 h2).1 txt!"obsmove" = 1 ↔ r = true) := by
  have key : ∀ x ∈ outNames, (outOf (w := w) (h := h) (most := most) dx dy r h1 h2).1 x = if x = txt!"movx" then (dx : Int) else if x = txt!"movy" then (dy : Int)
      else if r then 1 else 0 := fun x hx => mkVal_mem hx
  refine ⟨?_, ?_, ?_⟩
  · rw [ov, key _ (by decide)]; simp
  · rw [ov, key _ (by decide)]; simp
  · rw [key _ (by decide)]; cases r <;> simp

/-! ### Looking up names -/

variable {p q : Pos (E w h most).In (E w h most).Out}

theorem look_in {x : Word} (hx : x ∈ inNames) : (E w h most).look p q x = p.1.1 x := by
  rw [SSpec.look, SSpec.names, theSpec_inputs, if_pos (List.mem_append_left _ hx), SSpec.now, theSpec_inputs, if_pos hx]

theorem apart : ∀ x ∈ outNames, x ∉ inNames := by decide

theorem look_out {x : Word} (hx : x ∈ outNames) : (E w h most).look p q x = p.2.1 x := by
  rw [SSpec.look, SSpec.names, theSpec_outputs, if_pos (List.mem_append_right _ hx), SSpec.now, theSpec_inputs, if_neg (apart x hx)]

theorem primes : ∀ x ∈ inNames ++ outNames, prime x ∉ inNames ++ outNames := by decide

theorem look_in' {x : Word} (hx : x ∈ inNames) : (E w h most).look p q (prime x) = q.1.1 x := by
  rw [SSpec.look, SSpec.names, theSpec_inputs, theSpec_outputs, if_neg (primes x (List.mem_append_left _ hx)), SSpec.now, theSpec_inputs, prime, List.dropLast_concat,
    if_pos hx]

theorem look_out' {x : Word} (hx : x ∈ outNames) : (E w h most).look p q (prime x) = q.2.1 x := by
  rw [SSpec.look, SSpec.names, theSpec_inputs, theSpec_outputs, if_neg (primes x (List.mem_append_right _ hx)), SSpec.now, theSpec_inputs, prime, List.dropLast_concat,
    if_neg (apart x hx)]

theorem l_obsx : (E w h most).look p q txt!"obsx" = iv p.1 txt!"obsx" := by rw [look_in (by decide), (obsx_range p.1).1]
theorem l_obsy : (E w h most).look p q txt!"obsy" = iv p.1 txt!"obsy" := by rw [look_in (by decide), (obsy_range p.1).1]
theorem l_robx : (E w h most).look p q txt!"robx" = iv p.1 txt!"robx" := by rw [look_in (by decide), (robx_range p.1).1]
theorem l_roby : (E w h most).look p q txt!"roby" = iv p.1 txt!"roby" := by rw [look_in (by decide), (roby_range p.1).1]
theorem l_glitches : (E w h most).look p q txt!"glitches" = iv p.1 txt!"glitches" := by rw [look_in (by decide), (glitches_range p.1).1]
theorem l_movx : (E w h most).look p q txt!"movx" = ov p.2 txt!"movx" := by rw [look_out (by decide), (movx_range p.2).1]
theorem l_movy : (E w h most).look p q txt!"movy" = ov p.2 txt!"movy" := by rw [look_out (by decide), (movy_range p.2).1]
theorem l_obsmove : (E w h most).look p q txt!"obsmove" = p.2.1 txt!"obsmove" := look_out (by decide)
theorem n_obsx : (E w h most).look p q txt!"obsx'" = iv q.1 txt!"obsx" := by rw [show txt!"obsx'" = prime txt!"obsx" from rfl, look_in' (by decide), (obsx_range q.1).1]
theorem n_obsy : (E w h most).look p q txt!"obsy'" = iv q.1 txt!"obsy" := by rw [show txt!"obsy'" = prime txt!"obsy" from rfl, look_in' (by decide), (obsy_range q.1).1]
theorem n_robx : (E w h most).look p q txt!"robx'" = iv q.1 txt!"robx" := by rw [show txt!"robx'" = prime txt!"robx" from rfl, look_in' (by decide), (robx_range q.1).1]
theorem n_roby : (E w h most).look p q txt!"roby'" = iv q.1 txt!"roby" := by rw [show txt!"roby'" = prime txt!"roby" from rfl, look_in' (by decide), (roby_range q.1).1]
theorem n_glitches : (E w h most).look p q txt!"glitches'" = iv q.1 txt!"glitches" := by
  rw [show txt!"glitches'" = prime txt!"glitches" from rfl, look_in' (by decide), (glitches_range q.1).1]
theorem n_obsmove : (E w h most).look p q txt!"obsmove'" = q.2.1 txt!"obsmove" := look_out' (x := txt!"obsmove") (by decide)

/-! ### The game -/

/-- The obstacle does not move from `i` to `i'`. -/
def Still (i i' : (E w h most).In) : Prop := iv i' txt!"obsx" = iv i txt!"obsx" ∧ iv i' txt!"obsy" = iv i txt!"obsy"

theorem game_initEnv (d : (E w h most).Out) (i : (E w h most).In) : (E w h most).game.initEnv i ↔
    Matches i (start w h) ∧ iv i txt!"glitches" = 0 := by
  have key : ∀ o, (∀ c ∈ (E w h most).envInit, (E w h most).holds (i, o) (i, o) c) ↔ Matches i (start w h) ∧ iv i txt!"glitches" = 0 := by
    intro o
    simp only [theSpec, List.forall_mem_cons, List.not_mem_nil, IsEmpty.forall_iff, implies_true, and_true, SSpec.holds, t_ei1, t_ei2, t_ei3, t_ei4, t_ei5, FTree.fml, SFml.holds, Cmp.holds, NExp.value]
    simp only [l_robx, l_roby, l_obsx, l_obsy, l_glitches, decide_eq_true_eq]
    constructor
    · rintro ⟨h1, h2, h3, h4, h5⟩
      exact ⟨⟨by simp only [start]; omega, by simp only [start]; omega, by simp only [start]; omega, by simp only [start]; omega⟩, by omega⟩
    · rintro ⟨⟨h1, h2, h3, h4⟩, h5⟩
      simp only [start] at h1 h2 h3 h4
      omega
  rw [← key d]
  constructor
  · intro hh c hc; exact hh c hc d
  · intro hh c hc o
    exact ((key o).mpr ((key d).mp hh)) c hc

theorem game_initSys : (E w h most).game.initSys p ↔ p.2.1 txt!"obsmove" ≠ 1 := by
  show (∀ c ∈ (E w h most).sysInit, (E w h most).holds p p c) ↔ _
  simp only [theSpec, List.forall_mem_cons, List.not_mem_nil, IsEmpty.forall_iff, implies_true, and_true, SSpec.holds, t_si1, FTree.fml, SFml.holds]
  simp only [l_obsmove]
  simp

theorem game_safetySys : (E w h most).game.safetySys p q ↔
    ¬ (iv p.1 txt!"obsx" ≤ iv p.1 txt!"robx" ∧ iv p.1 txt!"robx" ≤ iv p.1 txt!"obsx" + 1 ∧ iv p.1 txt!"obsy" ≤ iv p.1 txt!"roby" ∧ iv p.1 txt!"roby" ≤ iv p.1 txt!"obsy" + 1) ∧
    (q.2.1 txt!"obsmove" = 1 ↔ Still p.1 q.1) := by
  show (∀ c ∈ (E w h most).sysTrans, (E w h most).holds p q c) ↔ _
  simp only [theSpec, List.forall_mem_cons, List.not_mem_nil, IsEmpty.forall_iff, implies_true, and_true, SSpec.holds, t_st1, t_st2, t_st3, FTree.fml, SFml.holds, Cmp.holds, NExp.value]
  simp only [l_robx, l_roby, l_obsx, l_obsy, n_obsx, n_obsy, n_obsmove, Still]
  simp only [Bool.or_eq_true, Bool.and_eq_true, Bool.not_eq_true', decide_eq_true_eq, decide_eq_false_iff_not, Bool.not_not, Bool.and_eq_false_iff]
  by_cases hm : q.2.1 txt!"obsmove" = 1
  · simp only [hm, not_true_eq_false, false_or, true_or, and_true, true_iff]
    omega
  · simp only [hm, not_false_eq_true, true_or, true_and, false_or, false_iff]
    omega

theorem game_safetyEnv (d : (E w h most).Out) (hw : 2 ≤ w) (hh : 2 ≤ h) (i : (E w h most).In) : (E w h most).game.safetyEnv p i ↔
    (iv i txt!"robx" = moved w (iv p.1 txt!"robx") (ov p.2 txt!"movx") ∧ iv i txt!"roby" = moved h (iv p.1 txt!"roby") (ov p.2 txt!"movy")) ∧
    (Near (iv p.1 txt!"obsx") (iv i txt!"obsx") ∧ Near (iv p.1 txt!"obsy") (iv i txt!"obsy")) ∧
    iv p.1 txt!"glitches" ≤ iv i txt!"glitches" ∧ (p.2.1 txt!"obsmove" = 1 ∨ Still p.1 i ∨ iv p.1 txt!"glitches" < iv i txt!"glitches") := by
  have b1 := (robx_range p.1).2
  have b2 := (roby_range p.1).2
  have b3 := (robx_range i).2
  have b4 := (roby_range i).2
  have b5 := (movx_range p.2).2
  have b6 := (movy_range p.2).2
  have key : ∀ o, (∀ c ∈ (E w h most).envTrans, (E w h most).holds p (i, o) c) ↔
      (iv i txt!"robx" = moved w (iv p.1 txt!"robx") (ov p.2 txt!"movx") ∧ iv i txt!"roby" = moved h (iv p.1 txt!"roby") (ov p.2 txt!"movy")) ∧
      (Near (iv p.1 txt!"obsx") (iv i txt!"obsx") ∧ Near (iv p.1 txt!"obsy") (iv i txt!"obsy")) ∧
      iv p.1 txt!"glitches" ≤ iv i txt!"glitches" ∧ (p.2.1 txt!"obsmove" = 1 ∨ Still p.1 i ∨ iv p.1 txt!"glitches" < iv i txt!"glitches") := by
    intro o
    simp only [theSpec, List.forall_mem_cons, List.not_mem_nil, IsEmpty.forall_iff, implies_true, and_true, SSpec.holds, t_et1, t_et2, t_et3, t_et4, FTree.fml, SFml.holds, Cmp.holds, NExp.value]
    simp only [l_robx, l_roby, l_obsx, l_obsy, l_glitches, l_movx, l_movy, l_obsmove, n_obsx, n_obsy, n_robx, n_roby, n_glitches, Still, Near, moved]
    simp only [Bool.or_eq_true, Bool.and_eq_true, decide_eq_true_eq]
    generalize iv i txt!"robx" = a1 at *
    generalize iv i txt!"roby" = a2 at *
    generalize iv p.1 txt!"robx" = a3 at *
    generalize iv p.1 txt!"roby" = a4 at *
    generalize ov p.2 txt!"movx" = a5 at *
    generalize ov p.2 txt!"movy" = a6 at *
    generalize iv i txt!"obsx" = a7 at *
    generalize iv i txt!"obsy" = a8 at *
    generalize iv p.1 txt!"obsx" = a9 at *
    generalize iv p.1 txt!"obsy" = a10 at *
    generalize iv i txt!"glitches" = a11 at *
    generalize iv p.1 txt!"glitches" = a12 at *
    have X : ∀ (size a a' d : Nat), 2 ≤ size → a ≤ size - 1 → a' ≤ size - 1 → d ≤ 2 →
        ((((((a : Int) = (0 : Nat) ∧ (a' : Int) = (0 : Nat)) ∧ (d : Int) ≤ (1 : Nat)) ∨ (a' : Int) + (1 : Nat) ≤ a + d) ∧
          ((((a : Int) = (size - 1 : Nat) ∧ (a' : Int) = (size - 1 : Nat)) ∧ (d : Int) ≥ (1 : Nat)) ∨ (a' : Int) + (1 : Nat) ≥ a + d)) ↔ a' = min (a + d - 1) (size - 1)) := by
      intro size a a' d h1 h2 h3 h4
      rcases Nat.le_total (a + d - 1) (size - 1) with hm | hm
      · rw [Nat.min_eq_left hm]; omega
      · rw [Nat.min_eq_right hm]; omega
    have X1 := X w a3 a1 a5 hw b1 b3 b5
    have X2 := X h a4 a2 a6 hh b2 b4 b6
    rw [and_assoc (b := _ ∨ (a2 : Int) + (1 : Nat) ≤ _), X2, X1]
    by_cases hm : p.2.1 txt!"obsmove" = 1
    · simp only [hm, true_or, and_true]
      rcases Nat.le_total (a3 + a5 - 1) (w - 1) with hm1 | hm1 <;> rcases Nat.le_total (a4 + a6 - 1) (h - 1) with hm2 | hm2 <;>
        simp only [Nat.min_eq_left, Nat.min_eq_right, hm1, hm2] <;> omega
    · simp only [hm, false_or]
      rcases Nat.le_total (a3 + a5 - 1) (w - 1) with hm1 | hm1 <;> rcases Nat.le_total (a4 + a6 - 1) (h - 1) with hm2 | hm2 <;>
        simp only [Nat.min_eq_left, Nat.min_eq_right, hm1, hm2] <;> omega
  rw [← key d]
  constructor
  · intro hs c hc; exact hs c hc d
  · intro hs c hc o
    exact ((key o).mpr ((key d).mp hs)) c hc

theorem moved_le {size x d : Nat} : moved size x d ≤ size - 1 := Nat.min_le_right _ _

theorem near_refl (a : Nat) : Near a a := ⟨by omega, by omega⟩

theorem realizable_iff (hw : 2 ≤ w) (hh : 2 ≤ h) : (E w h most).game.Realizable ↔ Evades w h most := by
  classical
  have d : (E w h most).Out := outOf 0 0 false (by decide) (by decide)
  constructor
  · intro hr
    let i0 : (E w h most).In := inOf (start w h) (Nat.le_refl _) (Nat.le_refl _) (Nat.zero_le _) (Nat.zero_le _) (Nat.zero_le _)
    have hi0 : Matches i0 (start w h) ∧ iv i0 txt!"glitches" = (start w h).glitches := inOf_matches
    obtain ⟨o0, h0, hw0⟩ := hr i0 ((game_initEnv d i0).mpr hi0)
    rw [game_initSys] at h0
    refine ⟨fun s => ∃ p, (E w h most).game.SysWins p ∧ Matches p.1 s ∧ iv p.1 txt!"glitches" = s.glitches ∧ (p.2.1 txt!"obsmove" = 1 ↔ s.rested = true), ?_, ?_⟩
    · exact ⟨_, hw0, hi0.1, hi0.2, iff_of_false h0 (by simp [start])⟩
    · rintro s ⟨p, hp, hm, hg, ho⟩
      have r1 := (obsx_range p.1).2
      have r2 := (obsy_range p.1).2
      have r3 := (glitches_range p.1).2
      refine ⟨?_, ov p.2 txt!"movx", ov p.2 txt!"movy", (movx_range p.2).2, (movy_range p.2).2, ?_⟩
      · -- the obstacle can stay
        let s1 : State := ⟨moved w (iv p.1 txt!"robx") (ov p.2 txt!"movx"), moved h (iv p.1 txt!"roby") (ov p.2 txt!"movy"), iv p.1 txt!"obsx", iv p.1 txt!"obsy",
          iv p.1 txt!"glitches", false⟩
        let i : (E w h most).In := inOf s1 r1 r2 moved_le moved_le r3
        have hi : Matches i s1 ∧ iv i txt!"glitches" = s1.glitches := inOf_matches
        obtain ⟨o, hs, _⟩ := wins_step hp ((game_safetyEnv d hw hh i).mpr ⟨⟨hi.1.robx, hi.1.roby⟩, ⟨by rw [hi.1.obsx]; exact near_refl _, by rw [hi.1.obsy]; exact near_refl _⟩,
          by rw [hi.2], .inr (.inl ⟨hi.1.obsx, hi.1.obsy⟩)⟩)
        have := (game_safetySys.mp hs).1
        rw [hm.obsx, hm.obsy, hm.robx, hm.roby] at this
        exact this
      · intro s' hs
        let i : (E w h most).In := inOf s' (by have := hs.insidex; omega) (by have := hs.insidey; omega) (by rw [hs.robx]; exact moved_le) (by rw [hs.roby]; exact moved_le) hs.most
        have hi : Matches i s' ∧ iv i txt!"glitches" = s'.glitches := inOf_matches
        have hst : Still p.1 i ↔ Stays s s' := by rw [Still, Stays, hi.1.obsx, hi.1.obsy, hm.obsx, hm.obsy]
        have he : (E w h most).game.safetyEnv p i := by
          refine (game_safetyEnv d hw hh i).mpr ⟨⟨?_, ?_⟩, ⟨?_, ?_⟩, ?_, ?_⟩
          · rw [hi.1.robx, hs.robx, hm.robx]
          · rw [hi.1.roby, hs.roby, hm.roby]
          · rw [hi.1.obsx, hm.obsx]; exact hs.nearx
          · rw [hi.1.obsy, hm.obsy]; exact hs.neary
          · rw [hi.2, hg]
            by_cases hc : Stays s s' ∨ s.rested = true
            · rw [hs.allowed hc]
            · rw [hs.glitch hc]; omega
          · rw [hi.2, hg, ho, hst]
            by_cases hc : Stays s s' ∨ s.rested = true
            · rcases hc with hc | hc
              · exact .inr (.inl hc)
              · exact .inl hc
            · right; right; rw [hs.glitch hc]; omega
        obtain ⟨o, hsy, hwo⟩ := wins_step hp he
        refine ⟨_, hwo, hi.1, hi.2, ?_⟩
        have := (game_safetySys.mp hsy).2
        rw [this, hs.rested]
        exact hst
  · rintro ⟨W, h0, hW⟩
    -- the invariant: the state is winning with as many or fewer glitches, and the moves are right for it
    let inv : Pos (E w h most).In (E w h most).Out → Prop := fun p => ∃ s, W s ∧ Matches p.1 s ∧ s.glitches ≤ iv p.1 txt!"glitches" ∧
      (p.2.1 txt!"obsmove" = 1 ↔ s.rested = true) ∧ ∀ s', Step w h most (ov p.2 txt!"movx") (ov p.2 txt!"movy") s s' → W s'
    have hstep : ∀ p, inv p → ∀ i, (E w h most).game.safetyEnv p i → ∃ o, (E w h most).game.safetySys p (i, o) ∧ inv (i, o) := by
      rintro p ⟨s, hs, hm, hg, ho, hn⟩ i hi
      rw [game_safetyEnv d hw hh] at hi
      obtain ⟨⟨i1, i2⟩, ⟨i3, i4⟩, i5, i6⟩ := hi
      let s0 : State := ⟨iv i txt!"robx", iv i txt!"roby", iv i txt!"obsx", iv i txt!"obsy",
        if Still p.1 i ∨ s.rested = true then s.glitches else s.glitches + 1, decide (Still p.1 i)⟩
      have hst : Stays s s0 ↔ Still p.1 i := by rw [Still, Stays, hm.obsx, hm.obsy]
      have r1 := (obsx_range i).2
      have r2 := (obsy_range i).2
      have r3 := (glitches_range i).2
      have hgl : s0.glitches ≤ iv i txt!"glitches" := by
        simp only [s0]
        split
        · omega
        · rename_i hc
          rw [not_or, ← ho] at hc
          rcases i6 with i6 | i6 | i6
          · exact absurd i6 hc.2
          · exact absurd i6 hc.1
          · omega
      have hS : Step w h most (ov p.2 txt!"movx") (ov p.2 txt!"movy") s s0 := {
        robx := by rw [← hm.robx]; exact i1
        roby := by rw [← hm.roby]; exact i2
        nearx := by rw [← hm.obsx]; exact i3
        neary := by rw [← hm.obsy]; exact i4
        insidex := by simp only [s0]; omega
        insidey := by simp only [s0]; omega
        rested := by rw [hst]; simp only [s0, decide_eq_true_eq]
        allowed := by rw [hst]; intro hc; simp only [s0, if_pos hc]
        glitch := by rw [hst]; intro hc; simp only [s0, if_neg hc]
        most := Nat.le_trans hgl r3 }
      have hw' := hn s0 hS
      obtain ⟨_, dx, dy, h1, h2, hx⟩ := hW s0 hw'
      have hv := outOf_values (w := w) (h := h) (most := most) (dx := dx) (dy := dy) (r := s0.rested) (h1 := h1) (h2 := h2)
      refine ⟨outOf dx dy s0.rested h1 h2, game_safetySys.mpr ⟨?_, ?_⟩, s0, hw', ⟨rfl, rfl, rfl, rfl⟩, hgl, hv.2.2, ?_⟩
      · have := (hW s hs).1
        rw [State.Hit] at this
        rw [hm.obsx, hm.obsy, hm.robx, hm.roby]
        exact this
      · rw [hv.2.2]
        simp only [s0, decide_eq_true_eq]
      · rw [hv.1, hv.2.1]
        exact hx
    intro i hi
    rw [game_initEnv d] at hi
    obtain ⟨_, dx, dy, h1, h2, hx⟩ := hW _ h0
    have hv := outOf_values (w := w) (h := h) (most := most) (dx := dx) (dy := dy) (r := false) (h1 := h1) (h2 := h2)
    refine ⟨outOf dx dy false h1 h2, game_initSys.mpr ?_, wins_invariant rfl inv d hstep ⟨start w h, h0, hi.1, Nat.zero_le _, hv.2.2, ?_⟩⟩
    · rw [Ne, hv.2.2]; simp
    · rw [hv.1, hv.2.1]
      exact hx

end Slugs.Model.Evasion
