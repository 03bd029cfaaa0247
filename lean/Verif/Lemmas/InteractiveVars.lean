import Verif.Lemmas.Interactive

/-! Values of variables and positions in the interactive shell. -/

namespace Slugs.Model

open Slugs.Spec

theorem lits_fits {I O : Type} {typed : List Char} {vs : List (Name × T I O)} {bits : List Bool} {s t : Pos I O}
    (h : ∀ k < typed.length, ∀ b : Bool, bits[k]? = some b ↔ ∃ v, vs[k]? = some v ∧ (b = true ↔ v.2 s t)) :
    Lits typed vs s t ↔ Fits typed bits := by
  constructor
  · intro hl k c b hc hb
    obtain ⟨v, hv, hbv⟩ := (h k (List.getElem?_eq_some_iff.mp hc).1 b).mp hb
    obtain ⟨h0, h1⟩ := hl k c v hc hv
    exact ⟨fun e => by have := h0 e; rw [← hbv] at this; simpa using this, fun e => hbv.mpr (h1 e)⟩
  · intro hf k c v hc hv
    classical
    have hb := (h k (List.getElem?_eq_some_iff.mp hc).1 (decide (v.2 s t))).mpr ⟨v, hv, by simp⟩
    obtain ⟨h0, h1⟩ := hf k c _ hc hb
    exact ⟨fun e => by simpa using h0 e, fun e => by simpa using h1 e⟩

namespace IVarsOK

variable {sp : SpecFile} {vs : IVars (T sp.In sp.Out)} (hv : IVarsOK sp vs)
include hv

theorem nodup : (sp.inputs ++ sp.outputs).Nodup := by
  have := hv.names
  rw [SpecFile.names, List.append_assoc] at this
  exact (List.nodup_append.mp this).1

theorem pre_bits (s t : Pos sp.In sp.Out) (k : Nat) (b : Bool) :
    (bitsOf sp s)[k]? = some b ↔ ∃ v, (vs.preIn ++ vs.preOut)[k]? = some v ∧ (b = true ↔ v.2 s t) := by
  rw [hv.preIn, hv.preOut, bitsOf]
  by_cases hk : k < sp.inputs.length
  · rw [List.getElem?_append_left (by simpa using hk), List.getElem?_append_left (by simpa using hk)]
    simp only [List.getElem?_map, List.getElem?_eq_getElem (show k < sp.inputs.attach.length by simpa using hk), Option.map_some,
      Option.some.injEq]
    constructor
    · rintro rfl; exact ⟨_, rfl, Iff.rfl⟩
    · rintro ⟨v, rfl, h⟩; exact (Bool.eq_iff_iff.mpr h).symm
  · rw [List.getElem?_append_right (by simpa using hk), List.getElem?_append_right (by simpa using hk)]
    simp only [List.getElem?_map, List.length_map, List.length_attach]
    cases sp.outputs.attach[k - sp.inputs.length]? with
    | none => simp
    | some y =>
      simp only [Option.map_some, Option.some.injEq]
      constructor
      · rintro rfl; exact ⟨_, rfl, Iff.rfl⟩
      · rintro ⟨v, rfl, h⟩; exact (Bool.eq_iff_iff.mpr h).symm

theorem post_bits (s t : Pos sp.In sp.Out) (k : Nat) (b : Bool) :
    (bitsOf sp t)[k]? = some b ↔ ∃ v, (vs.postIn ++ vs.postOut)[k]? = some v ∧ (b = true ↔ v.2 s t) := by
  rw [hv.postIn, hv.postOut, bitsOf]
  by_cases hk : k < sp.inputs.length
  · rw [List.getElem?_append_left (by simpa using hk), List.getElem?_append_left (by simpa using hk)]
    simp only [List.getElem?_map, List.getElem?_eq_getElem (show k < sp.inputs.attach.length by simpa using hk), Option.map_some,
      Option.some.injEq]
    constructor
    · rintro rfl; exact ⟨_, rfl, Iff.rfl⟩
    · rintro ⟨v, rfl, h⟩; exact (Bool.eq_iff_iff.mpr h).symm
  · rw [List.getElem?_append_right (by simpa using hk), List.getElem?_append_right (by simpa using hk)]
    simp only [List.getElem?_map, List.length_map, List.length_attach]
    cases sp.outputs.attach[k - sp.inputs.length]? with
    | none => simp
    | some y =>
      simp only [Option.map_some, Option.some.injEq]
      constructor
      · rintro rfl; exact ⟨_, rfl, Iff.rfl⟩
      · rintro ⟨v, rfl, h⟩; exact (Bool.eq_iff_iff.mpr h).symm

theorem lits_pre (typed : List Char) (s t : Pos sp.In sp.Out) :
    Lits typed (vs.preIn ++ vs.preOut) s t ↔ Fits typed (bitsOf sp s) := lits_fits fun k _ b => hv.pre_bits s t k b

theorem lits_post (typed : List Char) (s t : Pos sp.In sp.Out) :
    Lits typed (vs.postIn ++ vs.postOut) s t ↔ Fits typed (bitsOf sp t) := lits_fits fun k _ b => hv.post_bits s t k b

theorem lits_postIn {typed : List Char} (hl : typed.length = vs.postIn.length) (s t : Pos sp.In sp.Out) :
    Lits typed vs.postIn s t ↔ Fits typed (bitsOf sp t) := by
  refine lits_fits fun k hk b => ?_
  rw [hv.post_bits s t k b, List.getElem?_append_left (by omega)]

theorem length_postIn : vs.postIn.length = sp.inputs.length := by rw [hv.postIn]; simp

theorem length_pre : (vs.preIn ++ vs.preOut).length = sp.inputs.length + sp.outputs.length := by rw [hv.preIn, hv.preOut]; simp

theorem length_post : (vs.postIn ++ vs.postOut).length = sp.inputs.length + sp.outputs.length := by rw [hv.postIn, hv.postOut]; simp

/-- The printed values of a single position. -/
theorem bits_single (p : Pos sp.In sp.Out) :
    bitsIn (semMgr sp.In sp.Out) vs.preIn (pre {p}) ++ bitsIn (semMgr sp.In sp.Out) vs.preOut (pre {p}) = bitsOf sp p := by
  have key : ∀ f : T sp.In sp.Out, (∀ s t t', f s t ↔ f s t') →
      ((semMgr sp.In sp.Out).and f (pre {p}) = (semMgr sp.In sp.Out).ff ↔ ¬ f p p) := by
    intro f hf
    constructor
    · intro h hp
      have := congrFun (congrFun h p) p
      simp only [semMgr, pre, Set.mem_singleton_iff, and_true, eq_iff_iff] at this
      exact this.mp hp
    · intro h
      funext s t
      simp only [semMgr, pre, Set.mem_singleton_iff, eq_iff_iff, iff_false, not_and]
      rintro hst rfl
      exact h ((hf _ _ _).mp hst)
  rw [bitsOf, hv.preIn, hv.preOut]
  simp only [bitsIn, List.map_map]
  congr 1
  · refine List.map_congr_left fun x _ => ?_
    simp only [Function.comp]
    rw [if_congr (key (fun s _ => s.1 x = true) (fun _ _ _ => Iff.rfl)) rfl rfl]
    cases p.1 x <;> simp
  · refine List.map_congr_left fun x _ => ?_
    simp only [Function.comp]
    rw [if_congr (key (fun s _ => s.2 x = true) (fun _ _ _ => Iff.rfl)) rfl rfl]
    cases p.2 x <;> simp

/-- The values printed if there is no position. -/
theorem bits_none : bitsIn (semMgr sp.In sp.Out) vs.preIn (semMgr sp.In sp.Out).ff ++ bitsIn (semMgr sp.In sp.Out) vs.preOut (semMgr sp.In sp.Out).ff =
    List.replicate (sp.inputs.length + sp.outputs.length) false := by
  have key : ∀ l : List (Name × T sp.In sp.Out), bitsIn (semMgr sp.In sp.Out) l (semMgr sp.In sp.Out).ff = List.replicate l.length false := by
    intro l
    rw [bitsIn, ← List.map_const']
    refine List.map_congr_left fun v _ => ?_
    rw [if_pos]
    funext s t
    simp [semMgr]
  rw [key, key, List.replicate_append_replicate, hv.preIn, hv.preOut]
  simp

theorem posOfBits_bitsOf (p : Pos sp.In sp.Out) : posOfBits sp (bitsOf sp p) = p := by
  have hnd := List.nodup_append.mp hv.nodup
  have key : ∀ (l : List Word) (hl : l.Nodup) (f : {x // x ∈ l} → Bool) (x : {x // x ∈ l}), (l.attach.map f)[l.idxOf x.1]? = some (f x) := by
    intro l hl f x
    rw [List.getElem?_map, List.getElem?_eq_getElem (show l.idxOf x.1 < l.attach.length by
      simpa using List.idxOf_lt_length_of_mem x.2), Option.map_some, List.getElem_attach]
    congr 2
    exact Subtype.ext (List.getElem_idxOf _)
  refine Prod.ext ?_ ?_
  · funext x
    simp only [posOfBits, bitsOf, List.getD_eq_getElem?_getD]
    rw [List.getElem?_append_left (by simpa using List.idxOf_lt_length_of_mem x.2), key _ hnd.1]
    rfl
  · funext y
    simp only [posOfBits, bitsOf, List.getD_eq_getElem?_getD]
    rw [List.getElem?_append_right (by simp), List.length_map, List.length_attach, Nat.add_sub_cancel_left, key _ hnd.2.1]
    rfl

theorem vars_ok : VarsOK (I := sp.In) (O := sp.Out) { preVars := vs.pre.map Prod.snd, postVars := vs.post.map Prod.snd, labels := vs.pre } := by
  have hpre : ∀ v ∈ vs.pre, v.1 ∈ sp.inputs ∨ v.1 ∈ sp.outputs := fun v h =>
    List.mem_append.mp (hv.pre_names.mem_iff.mp (List.mem_map.mpr ⟨v, h, rfl⟩))
  have hex : ∀ n, n ∈ sp.inputs ∨ n ∈ sp.outputs → ∃ f, (n, f) ∈ vs.pre := by
    intro n hn
    obtain ⟨v, hv', rfl⟩ := List.mem_map.mp (hv.pre_names.mem_iff.mpr (List.mem_append.mpr hn))
    exact ⟨v.2, hv'⟩
  have hex' : ∀ n, n ∈ sp.inputs ∨ n ∈ sp.outputs → ∃ f, (prime n, f) ∈ vs.post := by
    intro n hn
    obtain ⟨v, hv', he⟩ := List.mem_map.mp (hv.post_names.mem_iff.mpr (List.mem_map.mpr ⟨n, List.mem_append.mpr hn, rfl⟩))
    exact ⟨v.2, by rw [← he]; exact hv'⟩
  have hindep : ∀ v ∈ vs.pre, ∀ s t t', v.2 s t ↔ v.2 s t' := by
    intro v h s t t'
    rcases hpre v h with hx | hx
    · rw [hv.pre_in ⟨v.1, hx⟩ v.2 h, hv.pre_in ⟨v.1, hx⟩ v.2 h]
    · rw [hv.pre_out ⟨v.1, hx⟩ v.2 h, hv.pre_out ⟨v.1, hx⟩ v.2 h]
  refine ⟨?_, ?_, ?_, hindep⟩
  · intro v h
    obtain ⟨v', h', rfl⟩ := List.mem_map.mp h
    exact hindep v' h'
  · intro s s' t t' h
    refine Prod.ext ?_ ?_
    · funext x
      obtain ⟨f, hf⟩ := hex x.1 (.inl x.2)
      have := h f (List.mem_map.mpr ⟨_, hf, rfl⟩)
      rw [hv.pre_in x f hf, hv.pre_in x f hf] at this
      exact Bool.eq_iff_iff.mpr this
    · funext x
      obtain ⟨f, hf⟩ := hex x.1 (.inr x.2)
      have := h f (List.mem_map.mpr ⟨_, hf, rfl⟩)
      rw [hv.pre_out x f hf, hv.pre_out x f hf] at this
      exact Bool.eq_iff_iff.mpr this
  · intro s t t' h
    refine Prod.ext ?_ ?_
    · funext x
      obtain ⟨f, hf⟩ := hex' x.1 (.inl x.2)
      have := h f (List.mem_map.mpr ⟨_, hf, rfl⟩)
      rw [hv.post_in x f hf, hv.post_in x f hf] at this
      exact Bool.eq_iff_iff.mpr this
    · funext x
      obtain ⟨f, hf⟩ := hex' x.1 (.inr x.2)
      have := h f (List.mem_map.mpr ⟨_, hf, rfl⟩)
      rw [hv.post_out x f hf, hv.post_out x f hf] at this
      exact Bool.eq_iff_iff.mpr this

/-- A label of current values determines the position. -/
theorem label_iff {l : Label} (hl : l.map Prod.fst = vs.pre.map Prod.fst) (s t : Pos sp.In sp.Out) :
    List.Forall₂ (fun (e : Word × Bool) v => e.2 = true ↔ v.2 s t) l vs.pre ↔ s = posOfLabel sp l := by
  have hnl : (l.map Prod.fst).Nodup := by rw [hl]; exact hv.pre_names.nodup_iff.mpr hv.nodup
  have hlen : l.length = vs.pre.length := by simpa using congrArg List.length hl
  have hget : ∀ (k : Nat) (h1 : k < l.length) (h2 : k < vs.pre.length), l[k].1 = vs.pre[k].1 := by
    intro k h1 h2
    have := congrArg (fun m => m[k]?) hl
    simpa [List.getElem?_eq_getElem h1, List.getElem?_eq_getElem h2] using this
  have hlook : ∀ (k : Nat) (h1 : k < l.length), l.lookup l[k].1 = some l[k].2 := fun k h1 =>
    lookup_of_mem hnl (List.getElem_mem h1)
  rw [List.forall₂_iff_get]
  constructor
  · rintro ⟨_, h⟩
    have key : ∀ n, n ∈ sp.inputs ∨ n ∈ sp.outputs → ∃ (k : Nat) (h1 : k < l.length) (h2 : k < vs.pre.length), vs.pre[k].1 = n := by
      intro n hn
      have := hv.pre_names.mem_iff.mpr (List.mem_append.mpr hn)
      obtain ⟨k, hk, he⟩ := List.getElem_of_mem this
      simp only [List.length_map] at hk
      exact ⟨k, by omega, hk, by simpa using he⟩
    refine Prod.ext ?_ ?_
    · funext x
      obtain ⟨k, h1, h2, h3⟩ := key x.1 (.inl x.2)
      have h4 := h k h1 h2
      simp only [List.get_eq_getElem] at h4
      rw [hv.pre_in x vs.pre[k].2 (by rw [← h3]; exact List.getElem_mem h2)] at h4
      have h5 := hlook k h1
      rw [hget k h1 h2, h3] at h5
      simp only [posOfLabel, h5]
      rw [← Bool.eq_iff_iff] at h4
      rw [← h4]
      cases l[k].2 <;> rfl
    · funext x
      obtain ⟨k, h1, h2, h3⟩ := key x.1 (.inr x.2)
      have h4 := h k h1 h2
      simp only [List.get_eq_getElem] at h4
      rw [hv.pre_out x vs.pre[k].2 (by rw [← h3]; exact List.getElem_mem h2)] at h4
      have h5 := hlook k h1
      rw [hget k h1 h2, h3] at h5
      simp only [posOfLabel, h5]
      rw [← Bool.eq_iff_iff] at h4
      rw [← h4]
      cases l[k].2 <;> rfl
  · rintro rfl
    refine ⟨hlen, fun k h1 h2 => ?_⟩
    simp only [List.get_eq_getElem]
    have h5 := hlook k h1
    rw [hget k h1 h2] at h5
    rcases List.mem_append.mp (hv.pre_names.mem_iff.mp (List.mem_map.mpr ⟨_, List.getElem_mem h2, rfl⟩)) with hx | hx
    · rw [hv.pre_in ⟨_, hx⟩ vs.pre[k].2 (List.getElem_mem h2)]
      simp only [posOfLabel, h5]
      cases l[k].2 <;> simp
    · rw [hv.pre_out ⟨_, hx⟩ vs.pre[k].2 (List.getElem_mem h2)]
      simp only [posOfLabel, h5]
      cases l[k].2 <;> simp

/-- A label of next values determines the position. -/
theorem nextLabel_iff {l : Label} (hl : l.map Prod.fst = vs.post.map Prod.fst) (s t : Pos sp.In sp.Out) :
    List.Forall₂ (fun (e : Word × Bool) v => e.2 = true ↔ v.2 s t) l vs.post ↔ t = posOfNextLabel sp l := by
  have hnp : ((sp.inputs ++ sp.outputs).map prime).Nodup := by
    have := hv.names
    rw [SpecFile.names, List.append_assoc, ← List.map_append] at this
    exact (List.nodup_append.mp this).2.1
  have hnl : (l.map Prod.fst).Nodup := by rw [hl]; exact hv.post_names.nodup_iff.mpr hnp
  have hlen : l.length = vs.post.length := by simpa using congrArg List.length hl
  have hget : ∀ (k : Nat) (h1 : k < l.length) (h2 : k < vs.post.length), l[k].1 = vs.post[k].1 := by
    intro k h1 h2
    have := congrArg (fun m => m[k]?) hl
    simpa [List.getElem?_eq_getElem h1, List.getElem?_eq_getElem h2] using this
  have hlook : ∀ (k : Nat) (h1 : k < l.length), l.lookup l[k].1 = some l[k].2 := fun k h1 =>
    lookup_of_mem hnl (List.getElem_mem h1)
  rw [List.forall₂_iff_get]
  constructor
  · rintro ⟨_, h⟩
    have key : ∀ n, n ∈ sp.inputs ∨ n ∈ sp.outputs → ∃ (k : Nat) (h1 : k < l.length) (h2 : k < vs.post.length), vs.post[k].1 = prime n := by
      intro n hn
      have := hv.post_names.mem_iff.mpr (List.mem_map.mpr ⟨n, List.mem_append.mpr hn, rfl⟩)
      obtain ⟨k, hk, he⟩ := List.getElem_of_mem this
      simp only [List.length_map] at hk
      exact ⟨k, by omega, hk, by simpa using he⟩
    refine Prod.ext ?_ ?_
    · funext x
      obtain ⟨k, h1, h2, h3⟩ := key x.1 (.inl x.2)
      have h4 := h k h1 h2
      simp only [List.get_eq_getElem] at h4
      rw [hv.post_in x vs.post[k].2 (by rw [← h3]; exact List.getElem_mem h2)] at h4
      have h5 := hlook k h1
      rw [hget k h1 h2, h3] at h5
      simp only [posOfNextLabel, h5]
      rw [← Bool.eq_iff_iff] at h4
      rw [← h4]
      cases l[k].2 <;> rfl
    · funext x
      obtain ⟨k, h1, h2, h3⟩ := key x.1 (.inr x.2)
      have h4 := h k h1 h2
      simp only [List.get_eq_getElem] at h4
      rw [hv.post_out x vs.post[k].2 (by rw [← h3]; exact List.getElem_mem h2)] at h4
      have h5 := hlook k h1
      rw [hget k h1 h2, h3] at h5
      simp only [posOfNextLabel, h5]
      rw [← Bool.eq_iff_iff] at h4
      rw [← h4]
      cases l[k].2 <;> rfl
  · rintro rfl
    refine ⟨hlen, fun k h1 h2 => ?_⟩
    simp only [List.get_eq_getElem]
    have h5 := hlook k h1
    rw [hget k h1 h2] at h5
    obtain ⟨n, hn, he⟩ := List.mem_map.mp (hv.post_names.mem_iff.mp (List.mem_map.mpr ⟨_, List.getElem_mem h2, rfl⟩))
    rw [← he] at h5
    have hm : (prime n, vs.post[k].2) ∈ vs.post := by rw [he]; exact List.getElem_mem h2
    rcases List.mem_append.mp hn with hx | hx
    · rw [hv.post_in ⟨n, hx⟩ vs.post[k].2 hm]
      simp only [posOfNextLabel, h5]
      cases l[k].2 <;> simp
    · rw [hv.post_out ⟨n, hx⟩ vs.post[k].2 hm]
      simp only [posOfNextLabel, h5]
      cases l[k].2 <;> simp

end IVarsOK

end Slugs.Model
