import Verif.Lemmas.AigerSections
import Verif.Lemmas.AigerRun

/-!
The circuit that is built: it is well-formed, and its signals have the intended values.
-/

namespace Slugs.Model.Aiger

open Slugs.Spec Slugs.Spec.Aag
open Slugs.Model.Core (Categories readLines)

/-- The gates that `checkGates` writes. -/
def checks (g a neg init trans u : Nat) : List (Nat × Nat × Nat) :=
  [(g, a, u * 2 + 2 + neg), (u * 2 + 2, u * 2 + 5, u * 2 + 7), (u * 2 + 4, init ^^^ 1, 5), (u * 2 + 6, trans ^^^ 1, 4)]

/-- The gates and literals for the four kinds of constraints. -/
structure Pieces where
  (G1 G2 G3 G4 : List (Nat × Nat × Nat))
  (r1 r2 r3 r4 : Nat)

/-- The last variable before the first checks, when there are `n` variables in the specification. -/
def Pieces.mid (P : Pieces) (n : Nat) : Nat := 2 * n + 5 + (P.G1 ++ P.G2).length

/-- The last variable before the second checks. -/
def Pieces.top (P : Pieces) (n : Nat) : Nat := P.mid n + 3 + (P.G3 ++ P.G4).length

/-- All gates. -/
def Pieces.gates (P : Pieces) (n : Nat) : List (Nat × Nat × Nat) :=
  (P.G1 ++ P.G2) ++ checks (2 * (n + 4)) (2 * (n + 3) + 1) 0 P.r1 P.r2 (P.mid n) ++ ((P.G3 ++ P.G4) ++ checks (2 * (n + 5)) (2 * (n + 4)) 1 P.r3 P.r4 (P.top n))

/-- The circuit. -/
def theAag (ins outs : List Word) (comment : List Char) (P : Pieces) : Aag where
  maxVar := (P.top (ins ++ outs).length + 3) * 2
  inputs := (List.range' 3 (ins ++ outs).length).map (2 * ·)
  latches := (4, 1) :: (List.range (ins ++ outs).length).map (fun k => (2 * ((ins ++ outs).length + 6 + k), 2 * (3 + k))) ++
    [(2 * ((ins ++ outs).length + 3), 2 * ((ins ++ outs).length + 4) + 1)]
  outputs := [2 * ((ins ++ outs).length + 5)]
  gates := P.gates (ins ++ outs).length
  inputNames := ins ++ outs.map (txt!"controllable_" ++ ·)
  latchNames := txt!"IsNotFirstRound" :: (ins ++ outs).map (txt!"prev_" ++ ·) ++ [txt!"AssumptionsAlreadyViolated"]
  outputNames := [txt!"err"]
  comment := comment

/-- What the pieces compute. -/
structure Built (sp : SpecFile) (d d' : Dict) (P : Pieces) : Prop where
  look : ∀ k x, (sp.inputs ++ sp.outputs)[k]? = some x → d.lookup x = some (2 * (3 + k))
  lookT : ∀ k x, (sp.inputs ++ sp.outputs)[k]? = some x →
    d'.lookup x = some (2 * ((sp.inputs ++ sp.outputs).length + 6 + k)) ∧ d'.lookup (prime x) = some (2 * (3 + k))
  c1 : Computes d [] (conj sp.envInit) (2 * (sp.inputs ++ sp.outputs).length + 5) P.G1 P.r1
  c2 : Computes d' [] (conj sp.envTrans) (2 * (sp.inputs ++ sp.outputs).length + 5 + P.G1.length) P.G2 P.r2
  c3 : Computes d [] (conj sp.sysInit) (P.mid (sp.inputs ++ sp.outputs).length + 3) P.G3 P.r3
  c4 : Computes d' [] (conj sp.sysTrans) (P.mid (sp.inputs ++ sp.outputs).length + 3 + P.G3.length) P.G4 P.r4

/-! ### The program -/

/-- The formulas can be translated. -/
structure Plain (sp : SpecFile) : Prop where
  wf : ∀ φ ∈ sp.envInit ++ sp.sysInit ++ sp.envTrans ++ sp.sysTrans, φ.Wf 0
  names : ∀ φ ∈ sp.envInit ++ sp.sysInit ++ sp.envTrans ++ sp.sysTrans, ∀ x ∈ φ.vars, x ∉ reserved ∧ ' ' ∉ x

theorem checkGates_eq (g a neg init trans : Nat) (s : St) : checkGates g a neg init trans 4 s =
    ⟨s.used + 3, s.nofGates + 4, s.lines ++ (checks g a neg init trans s.used).map fun g => [g.1, g.2.1, g.2.2]⟩ := by
  simp [checkGates, checks, St.line, St.count, St.use]

/-- The numbers in the file. -/
def Aag.payload (A : Aag) : List (List Nat) :=
  A.inputs.map (fun l => [l]) ++ A.latches.map (fun l => [l.1, l.2]) ++ A.outputs.map (fun l => [l]) ++ A.gates.map fun g => [g.1, g.2.1, g.2.2]

theorem circuit_spec {c : Categories} {sp : SpecFile} (comment : List Char) (hi : c .input = sp.inputs) (ho : c .output = sp.outputs)
    (h1 : c .envInit = fillLines (sp.envInit.map Fml.text)) (h2 : c .sysInit = fillLines (sp.sysInit.map Fml.text))
    (h3 : c .envTrans = fillLines (sp.envTrans.map Fml.text)) (h4 : c .sysTrans = fillLines (sp.sysTrans.map Fml.text))
    (hu : sp.Unambiguous) (hw : sp.WellScoped) (hp : Plain sp) :
    ∃ d d' P, Built sp d d' P ∧ circuit c = some (d, ⟨P.top (sp.inputs ++ sp.outputs).length + 3, (P.gates (sp.inputs ++ sp.outputs).length).length,
      Aag.payload (theAag sp.inputs sp.outputs comment P)⟩) ∧ d.length = (sp.inputs ++ sp.outputs).length := by
  obtain ⟨xs, hxs⟩ : ∃ xs, xs = sp.inputs ++ sp.outputs := ⟨_, rfl⟩
  have hn : (xs ++ xs.map prime).Nodup := by
    have := hu
    rw [SpecFile.Unambiguous, SpecFile.names] at this
    rw [hxs, List.map_append]
    simpa using this
  obtain ⟨d, a1, a2, a3, _⟩ := numberVariables_spec xs [] (St.use ⟨1, 0, []⟩ 1) (List.nodup_append.mp hn).1 (by simp)
  have a3' : ∀ k x, xs[k]? = some x → d.lookup x = some (2 * (3 + 0 + k)) := fun k x hk => by rw [a3 k x hk]; simp [St.use]
  obtain ⟨s1, hs1⟩ : ∃ s1 : St, s1 = St.line (St.use ⟨(St.use ⟨1, 0, []⟩ 1).used + xs.length, (St.use ⟨1, 0, []⟩ 1).nofGates,
    (St.use ⟨1, 0, []⟩ 1).lines ++ (List.range' ((St.use ⟨1, 0, []⟩ 1).used + 1) xs.length).map fun n => [2 * n]⟩ 3) [4, 1] := ⟨_, rfl⟩
  have u1 : s1.used = xs.length + 5 := by rw [hs1]; simp [St.use, St.line]; omega
  obtain ⟨d', b1, b2, _⟩ := oldValues_spec (d := d) 3 xs [] s1 0 hn a3'
  have usable : ∀ x ∈ xs, ∃ l, d.lookup x = some l := fun x hx => by
    obtain ⟨k, hk⟩ := List.mem_iff_getElem?.mp hx
    exact ⟨_, a3' k x hk⟩
  have usableT : ∀ x ∈ sp.names, ∃ l, d'.lookup x = some l := fun x hx => by
    have : x ∈ xs ∨ ∃ y ∈ xs, prime y = x := by
      simp only [SpecFile.names, List.mem_append, List.mem_map] at hx
      simp only [hxs, List.mem_append]
      rcases hx with ((hx | hx) | ⟨y, hy, rfl⟩) | ⟨y, hy, rfl⟩
      · exact .inl (.inl hx)
      · exact .inl (.inr hx)
      · exact .inr ⟨y, .inl hy, rfl⟩
      · exact .inr ⟨y, .inr hy, rfl⟩
    rcases this with hx | ⟨y, hy, rfl⟩
    · obtain ⟨k, hk⟩ := List.mem_iff_getElem?.mp hx
      exact ⟨_, (b2 k x hk).1⟩
    · obtain ⟨k, hk⟩ := List.mem_iff_getElem?.mp hy
      exact ⟨_, (b2 k y hk).2⟩
  obtain ⟨s2, hs2⟩ : ∃ s2 : St, s2 = St.line (St.line ⟨s1.used + xs.length, s1.nofGates, s1.lines ++ (List.range xs.length).map fun k =>
    [2 * (s1.used + 1 + k), 2 * (3 + 0 + k)]⟩ [2 * (xs.length + 3), 2 * (xs.length + 4) + 1]) [2 * (xs.length + 5)] := ⟨_, rfl⟩
  have u2 : s2.used = 2 * xs.length + 5 := by rw [hs2]; simp [St.line, u1]; omega
  obtain ⟨G1, r1, e1, c1⟩ := encodeSection_spec d sp.envInit s2 (fun f hf => hp.wf f (by simp [hf])) (fun f hf x hx =>
    ⟨(hp.names f (by simp [hf]) x hx).1, (hp.names f (by simp [hf]) x hx).2, usable x (by rw [hxs]; exact List.mem_append_left _ (hw.envInit f hf x hx))⟩)
  obtain ⟨G2, r2, e2, c2⟩ := encodeSection_spec d' sp.envTrans (emit s2 G1) (fun f hf => hp.wf f (by simp [hf])) (fun f hf x hx =>
    ⟨(hp.names f (by simp [hf]) x hx).1, (hp.names f (by simp [hf]) x hx).2, usableT x (List.mem_append_left _ (hw.envTrans f hf x hx))⟩)
  rw [emit_emit] at e2
  obtain ⟨s3, hs3⟩ : ∃ s3 : St, s3 = checkGates (2 * (xs.length + 4)) (2 * (xs.length + 3) + 1) 0 r1 r2 4 (emit s2 (G1 ++ G2)) := ⟨_, rfl⟩
  obtain ⟨G3, r3, e3, c3⟩ := encodeSection_spec d sp.sysInit s3 (fun f hf => hp.wf f (by simp [hf])) (fun f hf x hx =>
    ⟨(hp.names f (by simp [hf]) x hx).1, (hp.names f (by simp [hf]) x hx).2, usable x (by rw [hxs]; exact hw.sysInit f hf x hx)⟩)
  obtain ⟨G4, r4, e4, c4⟩ := encodeSection_spec d' sp.sysTrans (emit s3 G3) (fun f hf => hp.wf f (by simp [hf])) (fun f hf x hx =>
    ⟨(hp.names f (by simp [hf]) x hx).1, (hp.names f (by simp [hf]) x hx).2, usableT x (hw.sysTrans f hf x hx)⟩)
  rw [emit_emit] at e4
  have u3 : s3.used = 2 * xs.length + 5 + (G1 ++ G2).length + 3 := by rw [hs3, checkGates_eq]; simp [emit, u2]
  refine ⟨d, d', ⟨G1, G2, G3, G4, r1, r2, r3, r4⟩, ⟨?_, ?_, ?_, ?_, ?_, ?_⟩, ?_, ?_⟩
  · rw [← hxs]; exact a3'
  · rw [← hxs]
    intro k x hk
    obtain ⟨g1, g2⟩ := b2 k x hk
    rw [g1, g2, u1]
    exact ⟨rfl, rfl⟩
  · rw [← hxs, ← u2]; exact c1
  · rw [← hxs, ← u2]; exact c2
  · rw [← hxs, Pieces.mid]
    dsimp only
    rw [← u3]; exact c3
  · rw [← hxs, Pieces.mid]
    dsimp only
    rw [← u3]; exact c4
  · rw [circuit]
    dsimp only
    rw [hi, ho, ← hxs, a1]
    dsimp only
    have q1 : (St.use ⟨1, 0, []⟩ 1).used + xs.length = xs.length + 2 := by simp [St.use]; omega
    rw [show (⟨1, 0, []⟩ : St).used * 2 + 2 = 4 from rfl, ← hs1, b1, q1]
    simp only [Option.bind_eq_bind, Option.bind_some]
    rw [show ((xs.length + 2) * 2 + 4) ^^^ 1 = 2 * (xs.length + 4) + 1 by rw [← xor_one_even]; congr 1; omega,
      show (xs.length + 2) * 2 + 2 = 2 * (xs.length + 3) by omega, show (xs.length + 2) * 2 + 6 = 2 * (xs.length + 5) by omega,
      show (xs.length + 2) * 2 + 4 = 2 * (xs.length + 4) by omega, ← hs2, h1, e1]
    simp only [Option.bind_some]
    rw [h3, e2]
    simp only [Option.bind_some]
    rw [xor_one_even, ← hs3, h2, e3]
    simp only [Option.bind_some]
    rw [h4, e4]
    simp only [Option.bind_some]
    rw [checkGates_eq]
    have q2 : (emit s3 (G3 ++ G4)).used = Pieces.top ⟨G1, G2, G3, G4, r1, r2, r3, r4⟩ xs.length := by
      simp only [emit, Pieces.top, Pieces.mid, u3]
    have q3 : (emit s2 (G1 ++ G2)).used = Pieces.mid ⟨G1, G2, G3, G4, r1, r2, r3, r4⟩ xs.length := by
      simp only [emit, Pieces.mid, u2]
    rw [q2]
    congr 3
    · simp only [emit, Pieces.gates, hs3, checkGates_eq, q3, hs2, hs1]
      simp [St.use, St.line, checks]
      omega
    · simp only [Aag.payload, theAag, ← hxs, Pieces.gates, List.map_append]
      rw [show (emit s3 (G3 ++ G4)).lines = s3.lines ++ (G3 ++ G4).map fun g => [g.1, g.2.1, g.2.2] from rfl, hs3, checkGates_eq, q3,
        show (emit s2 (G1 ++ G2)).lines = s2.lines ++ (G1 ++ G2).map fun g => [g.1, g.2.1, g.2.2] from rfl, hs2]
      simp only [St.line, u1, hs1, St.use, List.map_append, List.map_cons, List.map_nil, List.map_map, List.append_assoc, List.nil_append, List.cons_append]
      congr 4
      funext k
      simp only [Function.comp]
      congr 1
      omega
  · rw [a2, ← hxs]; simp

/-! ### The circuit is well-formed -/

variable {sp : SpecFile} {d d' : Dict} {P : Pieces}

/-- The variables that are defined. -/
def definedVars (n : Nat) (P : Pieces) : List Nat :=
  List.range' 3 n ++ (2 :: List.range' (n + 6) n ++ [n + 3]) ++
    (List.range' (2 * n + 5 + 1) (P.G1 ++ P.G2).length ++ [n + 4, P.mid n + 1, P.mid n + 2, P.mid n + 3] ++
      (List.range' (P.mid n + 3 + 1) (P.G3 ++ P.G4).length ++ [n + 5, P.top n + 1, P.top n + 2, P.top n + 3]))

theorem defined_eq (h : Built sp d d' P) (comment : List Char) :
    (theAag sp.inputs sp.outputs comment P).defined = (definedVars (sp.inputs ++ sp.outputs).length P).map (2 * ·) := by
  have n1 := h.c1.numbered.append h.c2.numbered
  have n2 := h.c3.numbered.append h.c4.numbered
  rw [Numbered] at n1 n2
  simp only [Aag.defined, theAag, Pieces.gates, definedVars, checks, List.map_append, List.map_cons, List.map_nil, List.map_map] at n1 n2 ⊢
  rw [← List.map_append, ← List.map_append (f := Prod.fst), List.map_append, n1, List.map_append, n2]
  generalize (sp.inputs ++ sp.outputs).length = n
  congr 1
  · congr 2
    congr 1
    rw [List.range'_eq_map_range, List.map_map]
    rfl
  · congr 1
    · congr 2
      congr 1
      · omega
      · congr 1
        · omega
        · congr 1; omega
    · congr 2
      congr 1
      · omega
      · congr 1
        · omega
        · congr 1; omega

theorem mem_definedVars {n : Nat} {j : Nat} : j ∈ definedVars n P → 2 ≤ j ∧ j ≤ P.top n + 3 := by
  simp only [definedVars, List.mem_append, List.mem_cons, List.mem_range'_1, List.not_mem_nil, or_false, Pieces.top, Pieces.mid]
  omega

theorem definedVars_nodup (n : Nat) (P : Pieces) : (definedVars n P).Nodup := by
  simp only [definedVars, Pieces.top, Pieces.mid]
  generalize (P.G1 ++ P.G2).length = a
  generalize (P.G3 ++ P.G4).length = b
  simp only [List.nodup_append, List.nodup_cons, List.nodup_range', List.mem_append, List.mem_cons, List.mem_range'_1, List.not_mem_nil, or_false]
  and_intros <;> first | trivial | exact List.nodup_nil | exact List.nodup_range' .. | (intros; omega)

theorem getElem_mem_names {x : Word} (hx : x ∈ sp.inputs ++ sp.outputs) : ∃ k < (sp.inputs ++ sp.outputs).length, (sp.inputs ++ sp.outputs)[k]? = some x := by
  obtain ⟨k, hk⟩ := List.mem_iff_getElem?.mp hx
  exact ⟨k, (List.getElem?_eq_some_iff.mp hk).1, hk⟩

/-- The literals of inputs and latches. -/
def known (n : Nat) : List Nat := (List.range' 3 n).map (2 * ·) ++ ((4 :: (List.range n).map fun k => 2 * (n + 6 + k)) ++ [2 * (n + 3)])

theorem over_input {n k : Nat} (hk : k < n) : Over (known n) (2 * (3 + k)) := by
  refine .inr (List.mem_append_left _ (List.mem_map.mpr ⟨3 + k, List.mem_range'_1.mpr (by omega), by omega⟩))

theorem over_old {n k : Nat} (hk : k < n) : Over (known n) (2 * (n + 6 + k)) := by
  refine .inr (List.mem_append_right _ (List.mem_append_left _ (List.mem_cons_of_mem _ (List.mem_map.mpr ⟨k, List.mem_range.mpr hk, by omega⟩))))

theorem over_four (n : Nat) : Over (known n) 4 := .inr (List.mem_append_right _ (List.mem_append_left _ (List.mem_cons_self ..)))

theorem over_five (n : Nat) : Over (known n) 5 := .inr (List.mem_append_right _ (List.mem_append_left _ (List.mem_cons_self ..)))

theorem over_violated (n : Nat) : Over (known n) (2 * (n + 3) + 1) := by
  refine .inr (List.mem_append_right _ (List.mem_append_right _ (List.mem_singleton.mpr ?_))); omega

theorem Built.scoped (h : Built sp d d' P) {K : List Nat} (hK : ∀ l, Over (known (sp.inputs ++ sp.outputs).length) l → Over K l) {xs : List Word}
    (hx : ∀ x ∈ xs, x ∈ sp.inputs ++ sp.outputs) : Scoped d K xs := by
  intro x hxs l hl
  obtain ⟨k, hk, e⟩ := getElem_mem_names (hx x hxs)
  rw [h.look k x e, Option.some.injEq] at hl
  rw [← hl]
  exact hK _ (over_input hk)

theorem Built.scopedT (h : Built sp d d' P) {K : List Nat} (hK : ∀ l, Over (known (sp.inputs ++ sp.outputs).length) l → Over K l) {xs : List Word}
    (hx : ∀ x ∈ xs, x ∈ sp.names) : Scoped d' K xs := by
  intro x hxs l hl
  have : x ∈ sp.inputs ++ sp.outputs ∨ ∃ y ∈ sp.inputs ++ sp.outputs, prime y = x := by
    have := hx x hxs
    simp only [SpecFile.names, List.mem_append, List.mem_map] at this ⊢
    rcases this with ((hx | hx) | ⟨y, hy, rfl⟩) | ⟨y, hy, rfl⟩
    · exact .inl (.inl hx)
    · exact .inl (.inr hx)
    · exact .inr ⟨y, .inl hy, rfl⟩
    · exact .inr ⟨y, .inr hy, rfl⟩
  rcases this with hx | ⟨y, hy, rfl⟩
  · obtain ⟨k, hk, e⟩ := getElem_mem_names hx
    rw [(h.lookT k x e).1, Option.some.injEq] at hl
    rw [← hl]
    exact hK _ (over_old hk)
  · obtain ⟨k, hk, e⟩ := getElem_mem_names hy
    rw [(h.lookT k y e).2, Option.some.injEq] at hl
    rw [← hl]
    exact hK _ (over_input hk)

/-- The order in which the checks can be computed. -/
def checksOrder (g a neg init trans u : Nat) : List (Nat × Nat × Nat) :=
  [(u * 2 + 4, init ^^^ 1, 5), (u * 2 + 6, trans ^^^ 1, 4), (u * 2 + 2, u * 2 + 5, u * 2 + 7), (g, a, u * 2 + 2 + neg)]

theorem checksOrder_perm (g a neg init trans u : Nat) : (checksOrder g a neg init trans u).Perm (checks g a neg init trans u) := by
  refine List.Perm.trans (List.perm_append_comm (l₁ := [_, _]) (l₂ := [_, _])) ?_
  exact List.Perm.swap ..

theorem checks_ordered {K : List Nat} {g a neg init trans u : Nat} (hn : neg < 2) (h1 : Over K init) (h2 : Over K trans) (h3 : Over K a) (h4 : Over K 4) (h5 : Over K 5) :
    Ordered K (checksOrder g a neg init trans u) := by
  have m : ∀ {k : Nat} {l : List Nat} {j : Nat}, Over l j → Over (k :: l) j := fun h => over_mono (fun _ hk => List.mem_cons_of_mem _ hk) h
  refine .cons (over_xor h1) h5 (.cons (m (over_xor h2)) (m h4) (.cons (m (.inr ?_)) (.inr ?_) (.cons (m (m (m h3))) (.inr ?_) .nil)))
  · exact List.mem_cons.mpr (.inl (by omega))
  · exact List.mem_cons.mpr (.inl (by omega))
  · exact List.mem_cons.mpr (.inl (by omega))

theorem Built.valid (h : Built sp d d' P) (hw : sp.WellScoped) (comment : List Char) : (theAag sp.inputs sp.outputs comment P).Valid := by
  have hmem : ∀ j, j ∈ definedVars (sp.inputs ++ sp.outputs).length P → ∀ l, l / 2 = j → Over (theAag sp.inputs sp.outputs comment P).defined l := by
    intro j hj l hl
    refine .inr ?_
    rw [defined_eq h, hl]
    exact List.mem_map_of_mem (f := (2 * ·)) hj
  refine ⟨?_, ?_, ?_, ?_, ?_, ?_, ?_, ?_⟩
  · intro l hl
    rw [defined_eq h] at hl
    obtain ⟨j, hj, rfl⟩ := List.mem_map.mp hl
    have := mem_definedVars hj
    simp only [theAag]
    omega
  · rw [defined_eq h]
    exact (definedVars_nodup _ P).map (fun a b e => by simpa using e)
  · intro l hl
    simp only [theAag, List.mem_append, List.mem_cons, List.mem_map, List.mem_range, List.not_mem_nil, or_false] at hl
    rcases hl with (rfl | ⟨k, hk, rfl⟩) | rfl
    · exact .inl (by decide)
    · exact hmem (3 + k) (List.mem_append_left _ (List.mem_append_left _ (List.mem_range'_1.mpr (by omega)))) _ (by omega)
    · exact hmem ((sp.inputs ++ sp.outputs).length + 4) (by simp [definedVars]) _ (by omega)
  · intro l hl
    simp only [theAag, List.mem_singleton] at hl
    subst hl
    exact hmem ((sp.inputs ++ sp.outputs).length + 5) (by simp [definedVars]) _ (by omega)
  · generalize hn : (sp.inputs ++ sp.outputs).length = n at *
    refine ⟨(P.G1 ++ P.G2) ++ checksOrder (2 * (n + 4)) (2 * (n + 3) + 1) 0 P.r1 P.r2 (P.mid n) ++
      ((P.G3 ++ P.G4) ++ checksOrder (2 * (n + 5)) (2 * (n + 4)) 1 P.r3 P.r4 (P.top n)), ?_, ?_⟩
    · simp only [theAag, hn, Pieces.gates]
      exact ((List.Perm.refl _).append (checksOrder_perm ..)).append ((List.Perm.refl _).append (checksOrder_perm ..))
    · have hK : (theAag sp.inputs sp.outputs comment P).inputs ++ (theAag sp.inputs sp.outputs comment P).latches.map Prod.fst = known n := by
        simp [theAag, hn, known, Function.comp_def]
      rw [hK]
      have up : ∀ {G : List (Nat × Nat × Nat)} {K : List Nat} (l : Nat), Over K l → Over (G.map Prod.fst ++ K) l :=
        fun l hl => over_mono (fun k hk => List.mem_append_right _ hk) hl
      have sc : ∀ {K : List Nat}, (∀ l, Over (known n) l → Over K l) → ∀ {xs : List Word}, (∀ x ∈ xs, x ∈ sp.inputs ++ sp.outputs) → Scoped d K xs :=
        fun hK' _ hx => h.scoped (by rw [hn]; exact hK') hx
      have scT : ∀ {K : List Nat}, (∀ l, Over (known n) l → Over K l) → ∀ {xs : List Word}, (∀ x ∈ xs, x ∈ sp.names) → Scoped d' K xs :=
        fun hK' _ hx => h.scopedT (by rw [hn]; exact hK') hx
      obtain ⟨o1, w1⟩ := h.c1.ordered (known n) (sc (fun l hl => hl) fun x hx => by
        obtain ⟨f, hf, hxf⟩ := conj_vars hx
        exact List.mem_append_left _ (hw.envInit f hf x hxf)) (by simp)
      obtain ⟨o2, w2⟩ := h.c2.ordered (P.G1.map Prod.fst ++ known n) (scT (fun l hl => up l hl) fun x hx => by
        obtain ⟨f, hf, hxf⟩ := conj_vars hx
        exact List.mem_append_left _ (hw.envTrans f hf x hxf)) (by simp)
      have o12 := ordered_append o1 o2
      obtain ⟨K2, hK2⟩ : ∃ K2, K2 = (P.G1 ++ P.G2).map Prod.fst ++ known n := ⟨_, rfl⟩
      have up2 : ∀ l, Over (known n) l → Over K2 l := by rw [hK2]; exact fun l hl => up l hl
      have oc := checks_ordered (K := K2) (g := 2 * (n + 4)) (a := 2 * (n + 3) + 1) (neg := 0) (init := P.r1) (trans := P.r2) (u := P.mid n) (by decide)
        (by rw [hK2]; exact over_assoc (over_left w1)) (by rw [hK2]; exact over_assoc w2) (up2 _ (over_violated n)) (up2 _ (over_four n)) (up2 _ (over_five n))
      rw [hK2] at oc
      have oa := ordered_append o12 oc
      obtain ⟨K3, hK3⟩ : ∃ K3, K3 = ((P.G1 ++ P.G2) ++ checksOrder (2 * (n + 4)) (2 * (n + 3) + 1) 0 P.r1 P.r2 (P.mid n)).map Prod.fst ++ known n := ⟨_, rfl⟩
      have up3 : ∀ l, Over (known n) l → Over K3 l := by rw [hK3]; exact fun l hl => up l hl
      obtain ⟨o3, w3⟩ := h.c3.ordered K3 (sc up3 fun x hx => by
        obtain ⟨f, hf, hxf⟩ := conj_vars hx
        exact hw.sysInit f hf x hxf) (by simp)
      obtain ⟨o4, w4⟩ := h.c4.ordered (P.G3.map Prod.fst ++ K3) (scT (fun l hl => up l (up3 l hl)) fun x hx => by
        obtain ⟨f, hf, hxf⟩ := conj_vars hx
        exact hw.sysTrans f hf x hxf) (by simp)
      have af : Over K3 (2 * (n + 4)) := by
        rw [hK3]
        refine .inr (List.mem_append_left _ (List.mem_map.mpr ⟨(2 * (n + 4), 2 * (n + 3) + 1, P.mid n * 2 + 2 + 0), List.mem_append_right _ ?_, ?_⟩))
        · simp [checksOrder]
        · dsimp only; omega
      have od := checks_ordered (K := (P.G3 ++ P.G4).map Prod.fst ++ K3) (g := 2 * (n + 5)) (a := 2 * (n + 4)) (neg := 1) (init := P.r3) (trans := P.r4) (u := P.top n)
        (by decide) (over_assoc (over_left w3)) (over_assoc w4) (up _ af) (up _ (up3 _ (over_four n))) (up _ (up3 _ (over_five n)))
      have ob := ordered_append (ordered_append o3 o4) od
      rw [hK3] at ob
      exact ordered_append oa ob
  · simp [theAag]
  · simp [theAag]; omega
  · simp [theAag]

end Slugs.Model.Aiger
