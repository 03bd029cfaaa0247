import Verif.Lemmas.ResilienceCount
import Verif.Lemmas.GameEmbed

/-!
The files of the second search of `kResilientRealizabilityChecker.py`: when they are realizable.
-/

namespace Slugs.Model.Resilience

open Slugs.Spec Slugs.Model.Core

variable {sp : SpecFile} {hard soft : List Fml} {ess : List (List Char)} {c : Categories}

/-- The names of the bits. -/
def bitNames (b : Nat) : List (List Char) := (List.range b).map counterName

theorem mem_bitNames {b : Nat} {x : List Char} : x ∈ bitNames b ↔ ∃ j, j < b ∧ counterName j = x := by simp [bitNames]

theorem bitNames_length (b : Nat) : (bitNames b).length = b := by simp [bitNames]

theorem bitNames_nodup (b : Nat) : (bitNames b).Nodup := List.nodup_range.map fun _ _ h => counterName_inj h

/-- No variable has a name like those of the bits. -/
def Fresh (sp : SpecFile) : Prop := ∀ x ∈ sp.inputs ++ sp.outputs, ¬ txt!"_ResilienceCounter_" <+: x

/-! ### The lines -/

/-- The goal that is added: the counter is 0. -/
def zeroLine (b : Nat) : List Char := ops b '&' ++ joinWords ((bitNames b).map (fun x => txt!"! " ++ prime x) ++ [txt!"1"])

/-- The lines of the file for the second search. -/
def mixedLines (b : Nat) (ess : List (List Char)) (c : Categories) (v : List Nat) (k : Nat) : Categories
  | .output => c .output ++ bitNames b
  | .input => c .input
  | .envInit => c .envInit
  | .envLiveness => (c .envLiveness).map fun a => ops b '|' ++ joinWords (bitNames b) ++ txt!" " ++ a
  | .sysInit => c .sysInit ++ (bitNames b).map (txt!"! " ++ ·)
  | .envTrans => ess ++ atLevel 0 v (· == 0) (c .envTrans) ++ limitLines b k (atLevel 0 v (· == 1) (c .envTrans))
  | .sysTrans => c .sysTrans ++ (countLines b k (atLevel 0 v (· == 1) (c .envTrans))).map trim
  | .sysLiveness => (c .sysLiveness ++ [zeroLine b]).map (violationPrefix (atLevel 0 v (0 < ·) (c .envTrans)) ++ ·)

/-- The same lines, as they are written. -/
def mixedBlocks (b : Nat) (ess : List (List Char)) (c : Categories) (v : List Nat) (k : Nat) : List (Section × List (List Char)) :=
  [(.output, mixedLines b ess c v k .output ++ [[]]), (.input, mixedLines b ess c v k .input ++ [[]]), (.envInit, mixedLines b ess c v k .envInit ++ [[]]),
    (.envLiveness, mixedLines b ess c v k .envLiveness ++ [[]]), (.sysInit, mixedLines b ess c v k .sysInit ++ [[]]), (.envTrans, mixedLines b ess c v k .envTrans ++ [[]]),
    (.sysTrans, c .sysTrans ++ countLines b k (atLevel 0 v (· == 1) (c .envTrans)) ++ [[]]), (.sysLiveness, mixedLines b ess c v k .sysLiveness)]

theorem mixedFile_eq (bits : Nat → Nat) (ess : List (List Char)) (c : Categories) (v : List Nat) (k : Nat) :
    mixedFile bits ess c v k = writeLines (blockLines (mixedBlocks (bits k) ess c v k)) := by
  rw [mixedFile, mixedBlocks]
  refine congrArg writeLines ?_
  simp only [blockLines, List.flatMap_cons, List.flatMap_nil, mixedLines, zeroLine, bitNames, List.append_assoc, List.cons_append, List.nil_append, List.append_nil,
    List.map_append, List.map_cons, List.map_nil]

theorem usable_names {s : Section} {i o : List Word} {x : Word} (h : x ∈ usable s i o) : x ∈ i ++ o ++ i.map prime ++ o.map prime := by
  cases s <;> simp only [usable, List.mem_append, List.not_mem_nil] at h ⊢ <;> tauto

theorem joinWords_append {as : List (List Char)} (h : as ≠ []) (a : List Char) : joinWords (as ++ [a]) = joinWords as ++ txt!" " ++ a := by
  induction as with
  | nil => exact absurd rfl h
  | cons x as ih =>
    cases as with
    | nil => simp [joinWords]
    | cons y as =>
      have := ih (by simp)
      rw [List.cons_append] at this ⊢
      rw [List.cons_append, joinWords, this]
      · conv_rhs => rw [joinWords.eq_def]
        simp
      · simp

variable {b : Nat}

theorem ok_liveness {U : Word → Prop} (hb : 0 < b) (hu : ∀ j, j < b → U (counterName j)) {a : List Char} (ha : Ok U a) :
    Ok U (ops b '|' ++ joinWords (bitNames b) ++ txt!" " ++ a) ∧
    ∀ ρ n, n < 2 ^ b → Shows b ρ n → (mean ρ (ops b '|' ++ joinWords (bitNames b) ++ txt!" " ++ a) ↔ n ≠ 0 ∨ mean ρ a) := by
  have hne : bitNames b ≠ [] := by
    intro h
    have := congrArg List.length h
    rw [bitNames_length] at this
    simp at this
    omega
  obtain ⟨h1, h2⟩ := ok_ors_last (as := bitNames b) ha (by
    intro x hx
    obtain ⟨j, hj, rfl⟩ := mem_bitNames.mp hx
    exact (ok_counter (hu j hj)).1)
  rw [bitNames_length, joinWords_append hne] at h1 h2
  have e : ops b '|' ++ joinWords (bitNames b) ++ txt!" " ++ a = ops b '|' ++ (joinWords (bitNames b) ++ txt!" " ++ a) := by simp
  rw [e]
  refine ⟨h1, fun ρ n hn hs => (h2 ρ).trans (or_congr ?_ Iff.rfl)⟩
  constructor
  · rintro ⟨x, hx, hm⟩ rfl
    obtain ⟨j, hj, rfl⟩ := mem_bitNames.mp hx
    rw [(ok_counter (hu j hj)).2, hs j hj] at hm
    simp at hm
  · intro h0
    by_contra hall
    refine h0 (Nat.eq_of_testBit_eq fun j => ?_)
    rw [Nat.zero_testBit]
    by_cases hj : j < b
    · by_contra ht
      rw [Bool.not_eq_false, ← hs j hj] at ht
      exact hall ⟨_, mem_bitNames.mpr ⟨j, hj, rfl⟩, ((ok_counter (hu j hj)).2 ρ).mpr ht⟩
    · exact Nat.testBit_lt_two_pow (hn.trans_le (Nat.pow_le_pow_right (by omega) (by omega)))

theorem eq_zero_of_bits {n : Nat} (hn : n < 2 ^ b) (h : ∀ j, j < b → n.testBit j = false) : n = 0 := by
  refine Nat.eq_of_testBit_eq fun j => ?_
  rw [Nat.zero_testBit]
  by_cases hj : j < b
  · exact h j hj
  · exact Nat.testBit_lt_two_pow (hn.trans_le (Nat.pow_le_pow_right (by omega) (by omega)))

theorem ok_zeroLine {U : Word → Prop} (hu : ∀ j, j < b → U (prime (counterName j))) :
    Ok U (zeroLine b) ∧ ∀ ρ n, n < 2 ^ b → ShowsNext b ρ n → (mean ρ (zeroLine b) ↔ n = 0) := by
  obtain ⟨h1, h2⟩ := ok_ands_last (as := (bitNames b).map (fun x => txt!"! " ++ prime x)) (ok_true (U := U)).1 (by
    intro x hx
    obtain ⟨y, hy, rfl⟩ := List.mem_map.mp hx
    obtain ⟨j, hj, rfl⟩ := mem_bitNames.mp hy
    exact (ok_not (ok_counter' (hu j hj)).1).1)
  rw [List.length_map, bitNames_length] at h1 h2
  refine ⟨h1, fun ρ n hn hs => (h2 ρ).trans ?_⟩
  have m : ∀ j, j < b → (mean ρ (txt!"! " ++ prime (counterName j)) ↔ n.testBit j = false) := by
    intro j hj
    rw [(ok_not (ok_counter' (hu j hj)).1).2, (ok_counter' (hu j hj)).2, hs j hj]
    simp
  constructor
  · rintro ⟨h, -⟩
    exact eq_zero_of_bits hn fun j hj => (m j hj).mp (h _ (List.mem_map.mpr ⟨_, mem_bitNames.mpr ⟨j, hj, rfl⟩, rfl⟩))
  · rintro rfl
    refine ⟨fun x hx => ?_, (ok_true (U := U)).2 ρ⟩
    obtain ⟨y, hy, rfl⟩ := List.mem_map.mp hx
    obtain ⟨j, hj, rfl⟩ := mem_bitNames.mp hy
    exact (m j hj).mpr (by simp)

/-- A formula of the file. -/
theorem Base.okOld (h : Base sp hard soft ess c) {s : Section} (h1 : s ≠ .input) (h2 : s ≠ .output) {l : List Char} (hl : l ∈ c s) :
    Ok (· ∈ usable s (c .input) (c .output ++ bitNames b)) l := by
  obtain ⟨h3, h4, h5, h6⟩ := h.constraint h1 h2 hl
  exact ⟨h3, h4, h5, fun x hx => usable_mono (fun _ h => h) (fun _ h => List.mem_append_left _ h) (h6 x hx)⟩

theorem Base.okAssumption (h : Base sp hard soft ess c) {l : List Char} (hl : l ∈ ess ++ c .envTrans) : Ok (· ∈ usable .envTrans (c .input) (c .output ++ bitNames b)) l := by
  obtain ⟨h3, h4, h5, h6⟩ := h.assumption hl
  exact ⟨h3, h4, h5, fun x hx => usable_mono (fun _ h => h) (fun _ h => List.mem_append_left _ h) (h6 x hx)⟩

theorem Base.okMasked (h : Base sp hard soft ess c) (v : List Nat) (f : Nat → Bool) :
    ∀ a ∈ atLevel 0 v f (c .envTrans), Ok (· ∈ usable .envTrans (c .input) (c .output ++ bitNames b)) a :=
  fun _ ha => h.okAssumption (List.mem_append_right _ (atLevel_sub _ _ _ _ ha))

theorem usable_trans {i o : List Word} {x : Word} (h : x ∈ usable .envTrans i o) : x ∈ usable .sysTrans i o := by
  simp only [usable, List.mem_append] at h ⊢
  exact .inl h

theorem usable_live {i o : List Word} {x : Word} (h : x ∈ usable .envTrans i o) : x ∈ usable .sysLiveness i o := usable_trans h

theorem usable_bit {i o : List Word} {s : Section} (hs : s = .sysInit ∨ s = .envTrans ∨ s = .sysTrans ∨ s = .envLiveness ∨ s = .sysLiveness) {j : Nat} (hj : j < b) :
    counterName j ∈ usable s i (o ++ bitNames b) := by
  have := mem_bitNames.mpr ⟨j, hj, rfl⟩
  rcases hs with rfl | rfl | rfl | rfl | rfl <;> simp only [usable, List.mem_append] <;> tauto

theorem usable_bit' {i o : List Word} {s : Section} (hs : s = .sysTrans ∨ s = .sysLiveness) {j : Nat} (hj : j < b) : prime (counterName j) ∈ usable s i (o ++ bitNames b) := by
  have := List.mem_map_of_mem (f := prime) (mem_bitNames.mpr ⟨j, hj, rfl⟩)
  rcases hs with rfl | rfl <;> simp only [usable, List.mem_append, List.map_append] <;> tauto

theorem Base.mixedOk (h : Base sp hard soft ess c) {k : Nat} (hb : 0 < b) (hk : k < 2 ^ b) (v : List Nat) {s : Section} (h1 : s ≠ .input) (h2 : s ≠ .output) {l : List Char}
    (hl : l ∈ mixedLines b ess c v k s) : Ok (· ∈ usable s (c .input) (c .output ++ bitNames b)) l := by
  cases s
  case input => exact absurd rfl h1
  case output => exact absurd rfl h2
  case envInit => exact h.okOld h1 h2 hl
  case sysInit =>
    rcases List.mem_append.mp hl with hl | hl
    · exact h.okOld h1 h2 hl
    · obtain ⟨x, hx, rfl⟩ := List.mem_map.mp hl
      obtain ⟨j, hj, rfl⟩ := mem_bitNames.mp hx
      exact (ok_not (ok_counter (usable_bit (.inl rfl) hj)).1).1
  case envTrans =>
    rcases List.mem_append.mp hl with hl | hl
    · refine h.okAssumption ?_
      rcases List.mem_append.mp hl with hl | hl
      · exact List.mem_append_left _ hl
      · exact List.mem_append_right _ (atLevel_sub _ _ _ _ hl)
    · exact (ok_limits hk (fun j hj => usable_bit (.inr (.inl rfl)) hj) (h.okMasked v _)).1 l hl
  case sysTrans =>
    rcases List.mem_append.mp hl with hl | hl
    · exact h.okOld h1 h2 hl
    · obtain ⟨x, hx, rfl⟩ := List.mem_map.mp hl
      exact ((ok_counts hk (fun j hj => usable_bit (.inr (.inr (.inl rfl))) hj) (fun j hj => usable_bit' (.inl rfl) hj)
        fun a ha => (h.okMasked v _ a ha).mono fun _ h => usable_trans h).1 x hx).1
  case envLiveness =>
    obtain ⟨x, hx, rfl⟩ := List.mem_map.mp hl
    exact (ok_liveness hb (fun j hj => usable_bit (.inr (.inr (.inr (.inl rfl)))) hj) (h.okOld h1 h2 hx)).1
  case sysLiveness =>
    obtain ⟨x, hx, rfl⟩ := List.mem_map.mp hl
    refine (ok_prefix (fun a ha => (h.okMasked v _ a ha).mono fun _ h => usable_live h) ?_).1
    rcases List.mem_append.mp hx with hx | hx
    · exact h.okOld h1 h2 hx
    · rw [List.mem_singleton.mp hx]
      exact (ok_zeroLine fun j hj => usable_bit' (.inr rfl) hj).1

theorem prime_ne_counter {x : List Char} {j : Nat} : prime x ≠ counterName j := by
  intro h
  have : '\'' ∈ counterName j := by rw [← h]; simp [prime]
  exact (counterName_chars j _ this).2 rfl

theorem prefix_counter (j : Nat) : txt!"_ResilienceCounter_" <+: counterName j := ⟨_, rfl⟩

theorem prefix_counter' (j : Nat) : txt!"_ResilienceCounter_" <+: prime (counterName j) := (prefix_counter j).trans ⟨_, rfl⟩

theorem Base.mixedNames (h : Base sp hard soft ess c) (hfr : Fresh sp) (b : Nat) :
    (c .input ++ (c .output ++ bitNames b) ++ (c .input).map prime ++ (c .output ++ bitNames b).map prime).Nodup := by
  have hfr' : ∀ x ∈ c .input ++ c .output, ¬ txt!"_ResilienceCounter_" <+: x := by
    rw [← h.inputs, ← h.outputs]
    exact hfr
  have hp : ((c .input ++ c .output ++ (c .input).map prime ++ (c .output).map prime) ++ (bitNames b ++ (bitNames b).map prime)).Nodup := by
    rw [List.nodup_append]
    refine ⟨h.names, ?_, ?_⟩
    · rw [List.nodup_append]
      refine ⟨bitNames_nodup b, (bitNames_nodup b).map fun x y e => by simpa [prime] using e, ?_⟩
      intro x hx y hy e
      obtain ⟨j, hj, rfl⟩ := mem_bitNames.mp hx
      obtain ⟨z, hz, rfl⟩ := List.mem_map.mp hy
      exact prime_ne_counter e.symm
    · intro x hx y hy e
      subst e
      have hx' : x ∈ c .input ++ c .output ∨ ∃ z ∈ c .input ++ c .output, prime z = x := by
        simp only [List.mem_append, List.mem_map] at hx ⊢
        rcases hx with ((hx | hx) | ⟨z, hz, e⟩) | ⟨z, hz, e⟩
        · exact .inl (.inl hx)
        · exact .inl (.inr hx)
        · exact .inr ⟨z, .inl hz, e⟩
        · exact .inr ⟨z, .inr hz, e⟩
      rcases List.mem_append.mp hy with hy | hy
      · obtain ⟨j, hj, rfl⟩ := mem_bitNames.mp hy
        rcases hx' with hx | ⟨z, _, e⟩
        · exact hfr' _ hx (prefix_counter j)
        · exact prime_ne_counter e
      · obtain ⟨y, hy', rfl⟩ := List.mem_map.mp hy
        obtain ⟨j, hj, rfl⟩ := mem_bitNames.mp hy'
        rcases hx' with hx | ⟨z, hz, e⟩
        · exact hfr' _ hx (prefix_counter' j)
        · have : z = counterName j := by simpa [prime] using e
          subst this
          exact hfr' _ hz (prefix_counter j)
  refine (List.Perm.nodup_iff ?_).mp hp
  rw [List.perm_iff_count]
  intro x
  simp only [List.count_append, List.map_append]
  omega

theorem Base.mixedGood (h : Base sp hard soft ess c) (hfr : Fresh sp) {bits : Nat → Nat} (hbits : ∀ k, k < 2 ^ bits k) (v : List Nat) {k : Nat} (hk : 0 < k) {cap : Nat}
    (hcap : (mixedFile bits ess c v k).length ≤ cap) : GoodLines cap (mixedLines (bits k) ess c v k) := by
  have hb : 0 < bits k := by
    have := hbits k
    rcases Nat.eq_zero_or_pos (bits k) with h0 | h0
    · rw [h0] at this
      omega
    · exact h0
  have len : ∀ s, ∀ l ∈ mixedLines (bits k) ess c v k s, ∃ l', l.length ≤ l'.length ∧ l' ∈ blockLines (mixedBlocks (bits k) ess c v k) := by
    intro s l hl
    have fin : ∀ {L}, (s, L) ∈ mixedBlocks (bits k) ess c v k → ∀ x, x ∈ L → x ∈ blockLines (mixedBlocks (bits k) ess c v k) := by
      intro L hL x hx
      rw [blockLines, List.mem_flatMap]
      exact ⟨_, hL, List.mem_cons_of_mem _ hx⟩
    cases s
    case output => exact ⟨l, le_rfl, fin (.head _) l (List.mem_append_left _ hl)⟩
    case input => exact ⟨l, le_rfl, fin (.tail _ (.head _)) l (List.mem_append_left _ hl)⟩
    case envInit => exact ⟨l, le_rfl, fin (.tail _ (.tail _ (.head _))) l (List.mem_append_left _ hl)⟩
    case envLiveness => exact ⟨l, le_rfl, fin (.tail _ (.tail _ (.tail _ (.head _)))) l (List.mem_append_left _ hl)⟩
    case sysInit => exact ⟨l, le_rfl, fin (.tail _ (.tail _ (.tail _ (.tail _ (.head _))))) l (List.mem_append_left _ hl)⟩
    case envTrans => exact ⟨l, le_rfl, fin (.tail _ (.tail _ (.tail _ (.tail _ (.tail _ (.head _)))))) l (List.mem_append_left _ hl)⟩
    case sysLiveness => exact ⟨l, le_rfl, fin (.tail _ (.tail _ (.tail _ (.tail _ (.tail _ (.tail _ (.tail _ (.head _)))))))) l hl⟩
    case sysTrans =>
      have hm := fin (.tail _ (.tail _ (.tail _ (.tail _ (.tail _ (.tail _ (.head _)))))))
      rcases List.mem_append.mp hl with hl | hl
      · exact ⟨l, le_rfl, hm _ (List.mem_append_left _ (List.mem_append_left _ hl))⟩
      · obtain ⟨x, hx, rfl⟩ := List.mem_map.mp hl
        refine ⟨x, ?_, hm _ (List.mem_append_left _ (List.mem_append_right _ hx))⟩
        exact ((ok_counts (U := (· ∈ usable .sysTrans (c .input) (c .output ++ bitNames (bits k)))) (hbits k) (fun j hj => usable_bit (.inr (.inr (.inl rfl))) hj)
          (fun j hj => usable_bit' (.inl rfl) hj) fun a ha => (h.okMasked v _ a ha).mono fun _ h => usable_trans h).1 x hx).2.1
  refine ⟨?_, h.mixedNames hfr _, ?_⟩
  · intro s l hl
    by_cases h1 : s = .input
    · subst h1
      exact h.line _ l hl
    by_cases h2 : s = .output
    · subst h2
      rcases List.mem_append.mp hl with hl | hl
      · exact h.line _ l hl
      · obtain ⟨j, hj, rfl⟩ := mem_bitNames.mp hl
        exact (ok_counter (U := fun _ => True) trivial).1.line
    exact (h.mixedOk hb (hbits k) v h1 h2 hl).line
  · intro s h1 h2 l hl
    have ok := h.mixedOk hb (hbits k) v h1 h2 hl
    refine ⟨?_, _, ok.writes.line, ok.wf, ok.vars⟩
    obtain ⟨l', hl1, hl2⟩ := len s l hl
    rw [mixedFile_eq] at hcap
    exact hl1.trans ((length_le_writeLines hl2).trans hcap)

end Slugs.Model.Resilience
