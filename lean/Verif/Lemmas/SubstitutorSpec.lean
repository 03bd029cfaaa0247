import Verif.Lemmas.SubstitutorFile

/-!
The tool that replaces integer variables: the constraints that it prints.
-/

namespace Slugs.Model.Substitutor

open Slugs.Spec Slugs.Spec.Structured
open Slugs.Model.Structured

variable {rs : List Shift} {S : SSpec}

/-- What is used of the specification and the replacements. -/
structure Setup (rs : List Shift) (S : SSpec) : Prop where
  fit : Shifts rs S
  nodup : S.names.Nodup
  tidy : ∀ d ∈ S.inputs ++ S.outputs, Tidy d.name

theorem Setup.old (h : Setup rs S) : ((S.inputs ++ S.outputs).map Decl.name).Nodup := by
  have := h.nodup
  rwa [SSpec.names, SSpec.inputNames, SSpec.outputNames, ← List.map_append] at this

theorem Setup.cases (h : Setup rs S) {d : Decl} (hd : d ∈ S.inputs ++ S.outputs) :
    ((∀ r ∈ rs, r.x ≠ d.name) ∧ d.shift rs = d ∧ amt rs d = 0) ∨
    ∃ r ∈ rs, ∃ lo hi, r.x = d.name ∧ d.range = some (lo, hi) ∧ IsDecl r.new ⟨r.y, some (lo + r.amount, hi + r.amount)⟩ ∧
      d.shift rs = ⟨r.y, some (lo + r.amount, hi + r.amount)⟩ ∧ amt rs d = r.amount := by
  by_cases he : ∃ r ∈ rs, r.x = d.name
  · obtain ⟨r, hr, e⟩ := he
    obtain ⟨lo, hi, h1, h2⟩ := h.fit.declared r hr
    have : d = ⟨r.x, some (lo, hi)⟩ := List.inj_on_of_nodup_map h.old hd h1 e.symm
    have hd' : d.range = some (lo, hi) := by rw [this]
    obtain ⟨h3, h4⟩ := shift_some h.fit.once hr e hd'
    exact .inr ⟨r, hr, lo, hi, e, hd', h2, h3, h4⟩
  · have he : ∀ r ∈ rs, r.x ≠ d.name := fun r hr e => he ⟨r, hr, e⟩
    exact .inl ⟨he, shift_none he⟩

theorem Setup.x (h : Setup rs S) {r : Shift} (hr : r ∈ rs) : Tidy r.x := by
  obtain ⟨lo, hi, h1, _⟩ := h.fit.declared r hr
  exact h.tidy _ h1

theorem Setup.y (h : Setup rs S) {r : Shift} (hr : r ∈ rs) : Tidy r.y := by
  obtain ⟨lo, hi, _, h2⟩ := h.fit.declared r hr
  exact (declares_ok (decl_declares h2)).1

theorem Setup.ok (h : Setup rs S) : ShiftOk rs S := by
  refine ⟨fun d hd => ⟨h.tidy d hd, ?_⟩, h.nodup, h.fit.fresh⟩
  rcases h.cases hd with ⟨_, e, _⟩ | ⟨r, hr, _, _, _, _, _, e, _⟩
  · rw [e]; exact h.tidy d hd
  · rw [e]; exact h.y hr

/-- The specification after the replacement, without constraints. -/
abbrev bare (rs : List Shift) (S : SSpec) : SSpec := shifted rs S [] [] [] [] [] []

theorem boolsOf_shift : ∀ ds : List Decl, SSpec.boolsOf (ds.map (Decl.shift rs)) = SSpec.boolsOf ds
  | [] => rfl
  | d :: ds => by
    have ih := boolsOf_shift ds
    rw [SSpec.boolsOf] at ih ⊢
    rw [SSpec.boolsOf] at ih ⊢
    cases h : d.range with
    | none =>
      rw [List.map_cons, (shift_bool h).1, List.filter_cons_of_pos (by rw [h]; rfl), List.filter_cons_of_pos (by rw [h]; rfl), List.map_cons, List.map_cons, ih]
    | some q =>
      rw [List.map_cons, List.filter_cons_of_neg (by rw [shift_range (lo := q.1) (hi := q.2) h]; simp), List.filter_cons_of_neg (by rw [h]; simp), ih]

theorem bools_shift : (bare rs S).bools = S.bools := by
  rw [SSpec.bools, SSpec.bools]
  have : SSpec.boolsOf ((bare rs S).inputs ++ (bare rs S).outputs) = SSpec.boolsOf (S.inputs ++ S.outputs) := by
    rw [← boolsOf_shift (rs := rs) (S.inputs ++ S.outputs), List.map_append]
    rfl
  rw [this]

theorem mem_boolsOf {ds : List Decl} {x : Word} (h : x ∈ SSpec.boolsOf ds) : ∃ d ∈ ds, d.range = none ∧ d.name = x := by
  rw [SSpec.boolsOf] at h
  obtain ⟨d, hd, e⟩ := List.mem_map.mp h
  obtain ⟨h1, h2⟩ := List.mem_filter.mp hd
  exact ⟨d, h1, by simpa using h2, e⟩

theorem mem_bools_cases {x : Word} (h : x ∈ S.bools) : ∃ d ∈ S.inputs ++ S.outputs, d.range = none ∧ (x = d.name ∨ x = prime d.name) := by
  rw [SSpec.bools] at h
  rcases List.mem_append.mp h with h | h
  · obtain ⟨d, h1, h2, h3⟩ := mem_boolsOf h
    exact ⟨d, h1, h2, .inl h3.symm⟩
  · obtain ⟨y, hy, rfl⟩ := List.mem_map.mp h
    obtain ⟨d, h1, h2, rfl⟩ := mem_boolsOf hy
    exact ⟨d, h1, h2, .inr rfl⟩

theorem Setup.nameLike (h : Setup rs S) : ∀ w ∈ S.bools, NameLike w := by
  intro w hw
  obtain ⟨d, hd, _, rfl | rfl⟩ := mem_bools_cases hw
  · exact nameLike_tidy (h.tidy d hd)
  · exact nameLike_prime (nameLike_tidy (h.tidy d hd)) (h.tidy d hd).2.2.1

theorem unprimed_tidy {x : Word} (h : Tidy x) : unprimed x = x := by
  rw [unprimed, if_neg]
  intro hp
  exact h.2.2.1 (by
    rw [isPrimed, beq_iff_eq] at hp
    exact List.mem_of_getLast? hp)

theorem unprimed_prime (x : Word) : unprimed (prime x) = x := by
  rw [unprimed, if_pos (by simp [isPrimed, prime])]
  simp [prime]

theorem Setup.unprimed (h : Setup rs S) : ∀ w ∈ S.bools, Slugs.Spec.Structured.unprimed w ∈ S.bools := by
  intro w hw
  obtain ⟨d, hd, hr, e⟩ := mem_bools_cases hw
  have : d.name ∈ SSpec.boolsOf (S.inputs ++ S.outputs) := by
    rw [SSpec.boolsOf]
    exact List.mem_map.mpr ⟨d, List.mem_filter.mpr ⟨hd, by rw [hr]; rfl⟩, rfl⟩
  have hm : d.name ∈ S.bools := by rw [SSpec.bools]; exact List.mem_append_left _ this
  rcases e with rfl | rfl
  · rwa [unprimed_tidy (h.tidy d hd)]
  · rwa [unprimed_prime]

/-- The names that are put in are not Boolean. -/
theorem Setup.fresh (h : Setup rs S) {r : Shift} (hr : r ∈ rs) : r.y ∉ S.bools ∧ prime r.y ∉ S.bools := by
  obtain ⟨lo, hi, h1, h2⟩ := h.fit.declared r hr
  have e := (shift_some h.fit.once hr (d := ⟨r.x, some (lo, hi)⟩) rfl rfl).1
  have key : ∀ d ∈ S.inputs ++ S.outputs, d.range = none → d.name ≠ r.y := by
    intro d hd hn e2
    have : d = ⟨r.x, some (lo, hi)⟩ := List.inj_on_of_nodup_map h.fit.fresh hd h1 (by
      change (d.shift rs).name = (Decl.shift rs ⟨r.x, some (lo, hi)⟩).name
      rw [(shift_bool hn).1, e]
      exact e2)
    rw [this] at hn
    cases hn
  constructor
  · intro hm
    obtain ⟨d, hd, hn, e2 | e2⟩ := mem_bools_cases hm
    · exact key d hd hn e2.symm
    · exact prime_not_tidy (e2 ▸ h.y hr)
  · intro hm
    obtain ⟨d, hd, hn, e2 | e2⟩ := mem_bools_cases hm
    · exact prime_not_tidy (e2 ▸ h.tidy d hd)
    · exact key d hd hn (prime_inj e2).symm

/-! ### Names in the specification after the replacement -/

theorem Setup.bounds (h : Setup rs S) {d : Decl} (hd : d ∈ S.inputs ++ S.outputs) : (bare rs S).bounds (d.shift rs).name = (d.shift rs).range := by
  rw [SSpec.bounds]
  have e : (bare rs S).inputs ++ (bare rs S).outputs = (S.inputs ++ S.outputs).map (Decl.shift rs) := by rw [List.map_append]; rfl
  have hn : (((S.inputs ++ S.outputs).map (Decl.shift rs)).map Decl.name).Nodup := by
    rw [List.map_map]
    exact h.fit.fresh
  rw [e, find_key hn (List.mem_map.mpr ⟨d, hd, rfl⟩)]
  rfl

theorem Setup.oldBounds (h : Setup rs S) {d : Decl} (hd : d ∈ S.inputs ++ S.outputs) : S.bounds d.name = d.range := by
  rw [SSpec.bounds, find_key h.old hd]
  rfl

theorem name_inputs (h : Setup rs S) {ds : List Decl} (hs : ∀ d ∈ ds, d ∈ S.inputs ++ S.outputs) {d : Decl} (hd : d ∈ S.inputs ++ S.outputs)
    (hm : d.name ∈ ds.map Decl.name) : (d.shift rs).name ∈ (ds.map (Decl.shift rs)).map Decl.name := by
  obtain ⟨e, he, hn⟩ := List.mem_map.mp hm
  have : e = d := List.inj_on_of_nodup_map h.old (hs e he) hd hn
  subst this
  exact List.mem_map.mpr ⟨_, List.mem_map.mpr ⟨e, he, rfl⟩, rfl⟩

theorem not_prime_name (h : Setup rs S) {ds : List Decl} (hs : ∀ d ∈ ds, d ∈ S.inputs ++ S.outputs) {x : Word} (hm : prime x ∈ ds.map Decl.name) : False := by
  obtain ⟨e, he, hn⟩ := List.mem_map.mp hm
  exact prime_not_tidy (hn ▸ h.tidy e (hs e he))

theorem Setup.usable (h : Setup rs S) {s : Section} {d : Decl} (hd : d ∈ S.inputs ++ S.outputs) :
    (d.name ∈ usable s S.inputNames S.outputNames → (d.shift rs).name ∈ Slugs.Spec.usable s (bare rs S).inputNames (bare rs S).outputNames) ∧
    (prime d.name ∈ Slugs.Spec.usable s S.inputNames S.outputNames → prime (d.shift rs).name ∈ Slugs.Spec.usable s (bare rs S).inputNames (bare rs S).outputNames) := by
  have hi : ∀ d ∈ S.inputs, d ∈ S.inputs ++ S.outputs := fun d hd => List.mem_append_left _ hd
  have ho : ∀ d ∈ S.outputs, d ∈ S.inputs ++ S.outputs := fun d hd => List.mem_append_right _ hd
  have np : ∀ {l : List Word}, d.name ∉ l.map prime := by
    intro l hm
    obtain ⟨y, _, e⟩ := List.mem_map.mp hm
    exact prime_not_tidy (e.symm ▸ h.tidy d hd)
  constructor
  · exact usable_map (name_inputs h hi hd) (name_inputs h ho hd) (fun hm => absurd hm np) (fun hm => absurd hm np)
  · exact usable_map (fun hm => (not_prime_name h hi hm).elim) (fun hm => (not_prime_name h ho hm).elim)
      (fun hm => mem_prime.mpr (name_inputs h hi hd (mem_prime.mp hm))) (fun hm => mem_prime.mpr (name_inputs h ho hd (mem_prime.mp hm)))

theorem Setup.usableBool (h : Setup rs S) {s : Section} {x : Word} (hb : x ∈ S.bools) (hu : x ∈ Slugs.Spec.usable s S.inputNames S.outputNames) :
    x ∈ Slugs.Spec.usable s (bare rs S).inputNames (bare rs S).outputNames := by
  obtain ⟨d, hd, hr, rfl | rfl⟩ := mem_bools_cases hb
  · have := (h.usable hd).1 hu
    rwa [(shift_bool hr).1] at this
  · have := (h.usable hd).2 hu
    rwa [(shift_bool hr).1] at this

theorem Setup.lookBool (h : Setup rs S) (p q : Pos S.In S.Out) {x : Word} (hb : x ∈ S.bools) :
    (bare rs S).look (embPos (eIn h.ok) (eOut h.ok) p) (embPos (eIn h.ok) (eOut h.ok) q) x = S.look p q x := by
  obtain ⟨d, hd, hr, rfl | rfl⟩ := mem_bools_cases hb
  · have := look_shift (c1 := []) (c2 := []) (c3 := []) (c4 := []) (c5 := []) (c6 := []) h.ok p q hd
    rwa [(shift_bool hr).1, (shift_bool hr).2, Int.add_zero] at this
  · have := look_shift_next (c1 := []) (c2 := []) (c3 := []) (c4 := []) (c5 := []) (c6 := []) h.ok p q hd
    rwa [(shift_bool hr).1, (shift_bool hr).2, Int.add_zero] at this

/-- The integer variables that a constraint can use. -/
theorem Setup.number (h : Setup rs S) {s : Section} {x : Word} (hu : x ∈ Slugs.Spec.usable s S.inputNames S.outputNames)
    (hb : ∃ q, S.bounds (Slugs.Spec.Structured.unprimed x) = some q) :
    ∃ d ∈ S.inputs ++ S.outputs, ∃ lo hi, d.range = some (lo, hi) ∧ (x = d.name ∨ x = prime d.name) := by
  have hx : ∃ d ∈ S.inputs ++ S.outputs, x = d.name ∨ x = prime d.name := by
    have := usable_names hu
    simp only [List.mem_append, SSpec.inputNames, SSpec.outputNames, List.mem_map] at this
    rcases this with ((⟨d, hd, e⟩ | ⟨d, hd, e⟩) | ⟨_, ⟨d, hd, rfl⟩, e⟩) | ⟨_, ⟨d, hd, rfl⟩, e⟩
    · exact ⟨d, by simp [hd], .inl e.symm⟩
    · exact ⟨d, by simp [hd], .inl e.symm⟩
    · exact ⟨d, by simp [hd], .inr e.symm⟩
    · exact ⟨d, by simp [hd], .inr e.symm⟩
  obtain ⟨d, hd, e⟩ := hx
  obtain ⟨q, hq⟩ := hb
  refine ⟨d, hd, q.1, q.2, ?_, e⟩
  have : Slugs.Spec.Structured.unprimed x = d.name := by
    rcases e with rfl | rfl
    · exact unprimed_tidy (h.tidy d hd)
    · exact unprimed_prime _
  rw [this, h.oldBounds hd] at hq
  exact hq

/-- The terms for a variable. -/
theorem Setup.terms (h : Setup rs S) {d : Decl} (hd : d ∈ S.inputs ++ S.outputs) :
    (d.shift rs = d ∧ amt rs d = 0 ∧ termsOf rs d.name = none ∧ termsOf rs (prime d.name) = none) ∨
    ∃ r ∈ rs, (d.shift rs).name = r.y ∧ amt rs d = r.amount ∧ termsOf rs d.name = some (.var r.y, .num r.amount) ∧
      termsOf rs (prime d.name) = some (.var (prime r.y), .num r.amount) := by
  rcases h.cases hd with ⟨h1, h2, h3⟩ | ⟨r, hr, lo, hi, h1, h2, _, h4, h5⟩
  · refine .inl ⟨h2, h3, terms_other fun r hr => ⟨(h1 r hr).symm, ?_⟩, terms_other fun r hr => ⟨?_, fun e => h1 r hr (prime_inj e).symm⟩⟩
    · exact fun e => prime_not_tidy (e ▸ h.tidy d hd)
    · exact fun e => prime_not_tidy (e ▸ h.x hr)
  · refine .inr ⟨r, hr, by rw [h4], h5, ?_, ?_⟩
    · rw [← h1]; exact terms_now h.fit.once hr
    · rw [← h1]; exact terms_next h.fit.once (fun r hr => h.x hr) hr

theorem Setup.fits (h : Setup rs S) (p q : Pos S.In S.Out) {d : Decl} (hd : d ∈ S.inputs ++ S.outputs) {x : Word} (hx : x = d.name ∨ x = prime d.name) :
    FitsAt (termsOf rs) (bare rs S).bounds (S.look p q) ((bare rs S).look (embPos (eIn h.ok) (eOut h.ok) p) (embPos (eIn h.ok) (eOut h.ok) q)) x := by
  have l1 := look_shift (c1 := []) (c2 := []) (c3 := []) (c4 := []) (c5 := []) (c6 := []) h.ok p q hd
  have l2 := look_shift_next (c1 := []) (c2 := []) (c3 := []) (c4 := []) (c5 := []) (c6 := []) h.ok p q hd
  rw [FitsAt]
  rcases h.terms hd with ⟨e1, e2, t1, t2⟩ | ⟨r, hr, e1, e2, t1, t2⟩
  · rw [e1, e2, Int.add_zero] at l1 l2
    rcases hx with rfl | rfl
    · rw [t1]; exact l1
    · rw [t2]; exact l2
  · rw [e1, e2] at l1 l2
    rcases hx with rfl | rfl
    · rw [t1]
      dsimp only [NExp.value]
      rw [l1]
      omega
    · rw [t2]
      dsimp only [NExp.value]
      rw [l2]
      omega

theorem Setup.low (h : Setup rs S) {d : Decl} (hd : d ∈ S.inputs ++ S.outputs) {lo hi : Int} (hr : (d.shift rs).range = some (lo, hi)) : 0 ≤ lo := by
  rcases h.cases hd with ⟨h1, h2, _⟩ | ⟨r, hr', lo', hi', h1, h2, h3, h4, h5⟩
  · rw [h2] at hr
    exact h.fit.rest d hd lo hi hr h1
  · rw [h4] at hr
    have hr : some (lo' + (r.amount : Int), hi' + (r.amount : Int)) = some (lo, hi) := hr
    rw [Option.some.injEq, Prod.mk.injEq] at hr
    have := (isDecl_ok h3).2 _ _ rfl
    omega

theorem Setup.proper (h : Setup rs S) {d : Decl} (hd : d ∈ S.inputs ++ S.outputs) {q : Int × Int} (hr : d.range = some q) {x : Word}
    (hx : x = (d.shift rs).name ∨ x = prime (d.shift rs).name) : (NExp.var x).Proper (bare rs S).bounds false := by
  have e : Slugs.Spec.Structured.unprimed x = (d.shift rs).name := by
    rcases hx with rfl | rfl
    · exact unprimed_tidy (h.ok.tidy d hd).2
    · exact unprimed_prime _
  rw [NExp.Proper, e, h.bounds hd]
  have := shift_range (rs := rs) (lo := q.1) (hi := q.2) hr
  exact ⟨⟨_, _, this, h.low hd this⟩, fun h => by cases h⟩

theorem Setup.properAt (h : Setup rs S) {d : Decl} (hd : d ∈ S.inputs ++ S.outputs) {q : Int × Int} (hr : d.range = some q) {x : Word}
    (hx : x = d.name ∨ x = prime d.name) : ProperAt (termsOf rs) (bare rs S).bounds x := by
  rw [ProperAt]
  rcases h.terms hd with ⟨e1, e2, t1, t2⟩ | ⟨r, hr', e1, e2, t1, t2⟩
  · rcases hx with rfl | rfl
    · rw [t1]; exact h.proper hd hr (.inl (by rw [e1]))
    · rw [t2]; exact h.proper hd hr (.inr (by rw [e1]))
  · rcases hx with rfl | rfl
    · rw [t1]; exact ⟨h.proper hd hr (.inl e1.symm), trivial⟩
    · rw [t2]; exact ⟨h.proper hd hr (.inr (by rw [e1])), trivial⟩

theorem Setup.names (h : Setup rs S) {s : Section} {d : Decl} (hd : d ∈ S.inputs ++ S.outputs) {x : Word} (hx : x = d.name ∨ x = prime d.name)
    (hu : x ∈ Slugs.Spec.usable s S.inputNames S.outputNames) :
    ∀ y ∈ namesFor (termsOf rs) x, y ∈ Slugs.Spec.usable s (bare rs S).inputNames (bare rs S).outputNames := by
  intro y hy
  rw [namesFor] at hy
  rcases h.terms hd with ⟨e1, e2, t1, t2⟩ | ⟨r, hr', e1, e2, t1, t2⟩
  · rcases hx with rfl | rfl
    · rw [t1] at hy
      rw [List.mem_singleton.mp hy]
      have := (h.usable hd).1 hu
      rwa [e1] at this
    · rw [t2] at hy
      rw [List.mem_singleton.mp hy]
      have := (h.usable hd).2 hu
      rwa [e1] at this
  · rcases hx with rfl | rfl
    · rw [t1] at hy
      have hy : y ∈ [r.y] ++ [] := hy
      rw [List.append_nil, List.mem_singleton] at hy
      have := (h.usable hd).1 hu
      rwa [e1, ← hy] at this
    · rw [t2] at hy
      have hy : y ∈ [prime r.y] ++ [] := hy
      rw [List.append_nil, List.mem_singleton] at hy
      have := (h.usable hd).2 hu
      rwa [e1, ← hy] at this

end Slugs.Model.Substitutor
