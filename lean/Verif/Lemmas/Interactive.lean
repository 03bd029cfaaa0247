import Verif.Lemmas.InteractiveHom
import Verif.Lemmas.CounterText

/-! Reading and printing of values in the interactive shell, in terms of positions. -/

namespace Slugs.Model

open Slugs.Spec

/-! ### Reading -/

section
variable {I O : Type}

/-- The literals for the characters `0` and `1`. -/
def Lits (typed : List Char) (vs : List (Name × T I O)) : T I O := fun s t =>
  ∀ (k : Nat) (c : Char) (v : Name × T I O), typed[k]? = some c → vs[k]? = some v → (c = '0' → ¬ v.2 s t) ∧ (c = '1' → v.2 s t)

theorem lits_cons (c : Char) (typed : List Char) (v : Name × T I O) (vs : List (Name × T I O)) (s t : Pos I O) :
    Lits (c :: typed) (v :: vs) s t ↔ ((c = '0' → ¬ v.2 s t) ∧ (c = '1' → v.2 s t)) ∧ Lits typed vs s t := by
  constructor
  · intro h
    exact ⟨h 0 c v rfl rfl, fun k c' v' h1 h2 => h (k + 1) c' v' (by simpa using h1) (by simpa using h2)⟩
  · rintro ⟨h0, h⟩ k c' v' h1 h2
    cases k with
    | zero => cases h1; cases h2; exact h0
    | succ k => exact h k c' v' (by simpa using h1) (by simpa using h2)

theorem readForced_sem : ∀ (vs : List (Name × T I O)) (i : Stdin) (acc : T I O) {typed : List Char} {f : T I O} {i' : Stdin},
    readForced (semMgr I O) vs i acc = some (typed, f, i') →
    typed.length = vs.length ∧ ∀ s t, f s t ↔ acc s t ∧ Lits typed vs s t := by
  intro vs
  induction vs with
  | nil =>
    intro i acc typed f i' h
    cases h
    exact ⟨rfl, fun s t => ⟨fun h => ⟨h, fun k c v h1 => by simp at h1⟩, fun h => h.1⟩⟩
  | cons v vs ih =>
    intro i acc typed f i' h
    rw [readForced] at h
    cases hc : readChar i with
    | none => rw [hc] at h; cases h
    | some r =>
      obtain ⟨c, i1⟩ := r
      rw [hc] at h
      dsimp only at h
      cases hr : readForced (semMgr I O) vs i1 (if c = '0' then (semMgr I O).and acc ((semMgr I O).not v.2) else
          if c = '1' then (semMgr I O).and acc v.2 else acc) with
      | none => rw [hr] at h; cases h
      | some r =>
        obtain ⟨cs, f', i2⟩ := r
        rw [hr] at h
        cases h
        obtain ⟨h1, h2⟩ := ih _ _ hr
        refine ⟨by simp [h1], fun s t => ?_⟩
        rw [h2, lits_cons]
        by_cases h0 : c = '0'
        · subst h0
          simp [semMgr, and_assoc]
        · by_cases h1 : c = '1'
          · subst h1
            simp [semMgr, and_assoc]
          · simp [h0, h1]

theorem readValues_sem : ∀ (vs : List (Name × T I O)) (i : Stdin) (acc : T I O),
    (readValues (semMgr I O) vs i acc).1.map Prod.fst = vs.map Prod.fst ∧
    ∀ s t, (readValues (semMgr I O) vs i acc).2.1 s t ↔ acc s t ∧
      List.Forall₂ (fun (l : Name × Bool) v => l.2 = true ↔ v.2 s t) (readValues (semMgr I O) vs i acc).1 vs := by
  intro vs
  induction vs with
  | nil => intro i acc; exact ⟨rfl, fun s t => ⟨fun h => ⟨h, .nil⟩, fun h => h.1⟩⟩
  | cons v vs ih =>
    intro i acc
    rw [readValues]
    dsimp only
    generalize hb : decide ((readInt i).1.getD 0 ≠ 0) = b
    obtain ⟨h1, h2⟩ := ih (readInt i).2 (if b = true then (semMgr I O).and acc v.2 else (semMgr I O).and acc ((semMgr I O).not v.2))
    refine ⟨by simp [h1], fun s t => ?_⟩
    rw [h2, List.forall₂_cons]
    cases b <;> simp [semMgr, and_assoc]

end

/-! ### The variables -/

/-- The variables of a specification in the shell. -/
structure IVarsOK (sp : SpecFile) (vs : IVars (T sp.In sp.Out)) : Prop where
  names : sp.names.Nodup
  preIn : vs.preIn = sp.inputs.attach.map fun x => (x.1, fun s _ => s.1 x = true)
  preOut : vs.preOut = sp.outputs.attach.map fun y => (y.1, fun s _ => s.2 y = true)
  postIn : vs.postIn = sp.inputs.attach.map fun x => (prime x.1, fun _ t => t.1 x = true)
  postOut : vs.postOut = sp.outputs.attach.map fun y => (prime y.1, fun _ t => t.2 y = true)
  pre_names : (vs.pre.map Prod.fst).Perm (sp.inputs ++ sp.outputs)
  pre_in : ∀ (x : {x // x ∈ sp.inputs}) (f : T sp.In sp.Out), (x.1, f) ∈ vs.pre → ∀ s t, f s t ↔ s.1 x = true
  pre_out : ∀ (y : {y // y ∈ sp.outputs}) (f : T sp.In sp.Out), (y.1, f) ∈ vs.pre → ∀ s t, f s t ↔ s.2 y = true
  post_names : (vs.post.map Prod.fst).Perm ((sp.inputs ++ sp.outputs).map prime)
  post_in : ∀ (x : {x // x ∈ sp.inputs}) (f : T sp.In sp.Out), (prime x.1, f) ∈ vs.post → ∀ s t, f s t ↔ t.1 x = true
  post_out : ∀ (y : {y // y ∈ sp.outputs}) (f : T sp.In sp.Out), (prime y.1, f) ∈ vs.post → ∀ s t, f s t ↔ t.2 y = true

def semIVars (ds : Decls) : IVars (T ({x // x ∈ inputsOf ds} → Bool) ({x // x ∈ outputsOf ds} → Bool)) where
  preIn := (inputsOf ds).attach.map fun x => (x.1, fun s _ => s.1 x = true)
  preOut := (outputsOf ds).attach.map fun y => (y.1, fun s _ => s.2 y = true)
  postIn := (inputsOf ds).attach.map fun x => (prime x.1, fun _ t => t.1 x = true)
  postOut := (outputsOf ds).attach.map fun y => (prime y.1, fun _ t => t.2 y = true)
  pre := (varsOfType (tableOf ds).types .pre).map fun k => ((tableOf ds).names.getD k [], codeVar ds k)
  post := (varsOfType (tableOf ds).types .post).map fun k => ((tableOf ds).names.getD k [], codeVar ds k)

/-- The names of the variables of a type are those of the entries of this type. -/
theorem ivarsOfType_names (es : List (Name × VarType)) (ty : VarType) :
    (varsOfType (es.map Prod.snd) ty).map (fun k => (es.map Prod.fst).getD k []) =
      (es.filter fun e => e.2.closure.contains ty).map Prod.fst := by
  induction es using List.reverseRecOn with
  | nil => rfl
  | append_singleton es e ih =>
    simp only [List.map_append, varsOfType_append, List.filter_append]
    rw [← ih]
    congr 1
    · refine List.map_congr_left fun k hk => ?_
      have hk' : k < es.length := by
        have := List.mem_range.mp (List.mem_filter.mp hk).1
        simpa using this
      simp [List.getD_eq_getElem?_getD, List.getElem?_append_left, hk']
    · simp only [varsOfType, List.map_cons, List.map_nil, List.length_map, List.length_singleton, List.range_one, List.filter_cons, List.filter_nil]
      by_cases h : e.2.closure.contains ty = true
      · have h' : ty ∈ e.2.closure := by simpa using h
        simp [h', List.getD_eq_getElem?_getD]
      · have h' : ty ∉ e.2.closure := by simpa using h
        simp [h']

theorem names_preInput (ds : Decls) :
    (varsOfType (tableOf ds).types .preInput).map (fun k => (tableOf ds).names.getD k []) = inputsOf ds := by
  rw [tableOf, ivarsOfType_names]
  induction ds with
  | nil => rfl
  | cons d ds ih =>
    obtain ⟨b, x⟩ := d
    rw [entriesOf, List.flatMap_cons, ← entriesOf, List.filter_append, List.map_append, ih]
    cases b <;> rfl

theorem names_preOutput (ds : Decls) :
    (varsOfType (tableOf ds).types .preOutput).map (fun k => (tableOf ds).names.getD k []) = outputsOf ds := by
  rw [tableOf, ivarsOfType_names]
  induction ds with
  | nil => rfl
  | cons d ds ih =>
    obtain ⟨b, x⟩ := d
    rw [entriesOf, List.flatMap_cons, ← entriesOf, List.filter_append, List.map_append, ih]
    cases b <;> rfl

theorem names_postInput (ds : Decls) :
    (varsOfType (tableOf ds).types .postInput).map (fun k => (tableOf ds).names.getD k []) = (inputsOf ds).map prime := by
  rw [tableOf, ivarsOfType_names]
  induction ds with
  | nil => rfl
  | cons d ds ih =>
    obtain ⟨b, x⟩ := d
    rw [entriesOf, List.flatMap_cons, ← entriesOf, List.filter_append, List.map_append, ih]
    cases b <;> rfl

theorem names_postOutput (ds : Decls) :
    (varsOfType (tableOf ds).types .postOutput).map (fun k => (tableOf ds).names.getD k []) = (outputsOf ds).map prime := by
  rw [tableOf, ivarsOfType_names]
  induction ds with
  | nil => rfl
  | cons d ds ih =>
    obtain ⟨b, x⟩ := d
    rw [entriesOf, List.flatMap_cons, ← entriesOf, List.filter_append, List.map_append, ih]
    cases b <;> rfl

theorem mem_preOutput {ds : Decls} (hn : (tableOf ds).names.Nodup) {k : Nat} :
    k ∈ varsOfType (tableOf ds).types .preOutput ↔ ∃ x, slotCode (.co x : DSlot ds) = k := by
  rw [mem_varsOfType hn]
  constructor
  · rintro ⟨z | z | z | z, h, h'⟩
    · exact absurd h' (by simp only [slotEntry]; decide)
    · exact ⟨z, h⟩
    · exact absurd h' (by simp only [slotEntry]; decide)
    · exact absurd h' (by simp only [slotEntry]; decide)
  · rintro ⟨x, h⟩
    exact ⟨_, h, by simp only [slotEntry]; decide⟩

theorem var_enc (B : Type) [DecidableEq B] [L : BddLib B] {ds : Decls} (hn : (tableOf ds).names.Nodup) (z : DSlot ds) :
    L.var (slotCode z) = (tableLayout ds hn).enc B (codeVar ds (slotCode z)) := by
  refine (tableLayout ds hn).eq_enc B fun a => ?_
  rw [codeVar_slot hn, L.eval_var, congrFun (slots_pos _) z]
  rfl

theorem var_enc' (B : Type) [DecidableEq B] [L : BddLib B] {ds : Decls} (hn : (tableOf ds).names.Nodup) (z : DSlot ds)
    {f : T ({x // x ∈ inputsOf ds} → Bool) ({x // x ∈ outputsOf ds} → Bool)} (hf : ∀ s t, f s t ↔ slots s t z = true) :
    L.var (slotCode z) = (tableLayout ds hn).enc B f := by
  rw [var_enc B hn]
  congr 1
  funext s t
  rw [eq_iff_iff, hf, codeVar_slot hn]

theorem tableIVars_eq (B : Type) [DecidableEq B] [L : BddLib B] {ds : Decls} (hn : (tableOf ds).names.Nodup) :
    tableIVars B (tableOf ds) = (semIVars ds).map ((tableLayout ds hn).enc B) := by
  have hpre : ∀ k ∈ varsOfType (tableOf ds).types .pre, L.var k = (tableLayout ds hn).enc B (codeVar ds k) := by
    intro k hk
    rcases (mem_pre hn).mp hk with ⟨x, rfl⟩ | ⟨x, rfl⟩ <;> exact var_enc B hn _
  have hpost : ∀ k ∈ varsOfType (tableOf ds).types .post, L.var k = (tableLayout ds hn).enc B (codeVar ds k) := by
    intro k hk
    rcases (mem_post hn).mp hk with ⟨x, rfl⟩ | ⟨x, rfl⟩ <;> exact var_enc B hn _
  -- the variables as functions of their names
  have key : ∀ (ty : VarType) (l : List Name) (pr : Name → Name)
      (f : {x // x ∈ l} → T ({x // x ∈ inputsOf ds} → Bool) ({x // x ∈ outputsOf ds} → Bool)),
      (varsOfType (tableOf ds).types ty).map (fun k => (tableOf ds).names.getD k []) = l.map pr → Function.Injective pr →
      (∀ k ∈ varsOfType (tableOf ds).types ty, ∃ x : {x // x ∈ l}, (tableOf ds).names.getD k [] = pr x.1 ∧
        L.var k = (tableLayout ds hn).enc B (f x)) →
      (varsOfType (tableOf ds).types ty).map (fun k => ((tableOf ds).names.getD k [], L.var k)) =
        mapVars ((tableLayout ds hn).enc B) (l.attach.map fun x => (pr x.1, f x)) := by
    classical
    intro ty l pr f h1 hpr h2
    let G : Name → B := fun n => if h : ∃ x : {x // x ∈ l}, pr x.1 = n then (tableLayout ds hn).enc B (f h.choose) else L.ff
    have hG : ∀ x : {x // x ∈ l}, G (pr x.1) = (tableLayout ds hn).enc B (f x) := by
      intro x
      have hex : ∃ x' : {x // x ∈ l}, pr x'.1 = pr x.1 := ⟨x, rfl⟩
      have : hex.choose = x := Subtype.ext (hpr hex.choose_spec)
      simp only [G, dif_pos hex, this]
    have e1 : (varsOfType (tableOf ds).types ty).map (fun k => ((tableOf ds).names.getD k [], L.var k)) =
        ((varsOfType (tableOf ds).types ty).map (fun k => (tableOf ds).names.getD k [])).map fun n => (n, G n) := by
      rw [List.map_map]
      refine List.map_congr_left fun k hk => ?_
      obtain ⟨x, hx, hv⟩ := h2 k hk
      simp only [Function.comp, hx, hG, hv]
    rw [e1, h1, mapVars, List.map_map, List.map_map]
    conv_lhs => rw [← List.attach_map_val (l := l)]
    refine List.map_congr_left fun x _ => ?_
    simp only [Function.comp, hG]
  simp only [tableIVars, semIVars, IVars.map, IVars.mk.injEq]
  refine ⟨?_, ?_, ?_, ?_, ?_, ?_⟩
  · refine key .preInput (inputsOf ds) id _ (by rw [names_preInput, List.map_id]) Function.injective_id fun k hk => ?_
    obtain ⟨x, rfl⟩ := (mem_preInput hn).mp hk
    exact ⟨x, getD_slot hn _, var_enc' B hn _ fun s t => Iff.rfl⟩
  · refine key .preOutput (outputsOf ds) id _ (by rw [names_preOutput, List.map_id]) Function.injective_id fun k hk => ?_
    obtain ⟨x, rfl⟩ := (mem_preOutput hn).mp hk
    exact ⟨x, getD_slot hn _, var_enc' B hn _ fun s t => Iff.rfl⟩
  · refine key .postInput (inputsOf ds) prime _ (names_postInput ds) (fun _ _ => prime_inj) fun k hk => ?_
    obtain ⟨x, rfl⟩ := (mem_postInput hn).mp hk
    exact ⟨x, getD_slot hn _, var_enc' B hn _ fun s t => Iff.rfl⟩
  · refine key .postOutput (outputsOf ds) prime _ (names_postOutput ds) (fun _ _ => prime_inj) fun k hk => ?_
    obtain ⟨x, rfl⟩ := (mem_postOutput hn).mp hk
    exact ⟨x, getD_slot hn _, var_enc' B hn _ fun s t => Iff.rfl⟩
  · simp only [mapVars, List.map_map]
    exact List.map_congr_left fun k hk => Prod.ext rfl (hpre k hk)
  · simp only [mapVars, List.map_map]
    exact List.map_congr_left fun k hk => Prod.ext rfl (hpost k hk)

theorem semIVars_ok {ds : Decls} (F : Section → List Fml) (hn : (tableOf ds).names.Nodup) : IVarsOK (specOf ds F) (semIVars ds) := by
  have hall : (specOf ds F).names.Nodup := (names_perm ds F).nodup_iff.mpr hn
  have hpre : ∀ (z : DSlot ds) f, ((slotEntry z).1, f) ∈ (semIVars ds).pre → ∀ s t, f s t ↔ slots s t z = true := by
    intro z f hf s t
    obtain ⟨k, hk, he⟩ := List.mem_map.mp hf
    rcases (mem_pre hn).mp hk with ⟨x, rfl⟩ | ⟨x, rfl⟩ <;>
    · have h1 := congrArg Prod.fst he
      rw [getD_slot hn] at h1
      rw [← slotName_inj hn h1, ← show codeVar ds _ = f from congrArg Prod.snd he, codeVar_slot hn]
  have hpost : ∀ (z : DSlot ds) f, ((slotEntry z).1, f) ∈ (semIVars ds).post → ∀ s t, f s t ↔ slots s t z = true := by
    intro z f hf s t
    obtain ⟨k, hk, he⟩ := List.mem_map.mp hf
    rcases (mem_post hn).mp hk with ⟨x, rfl⟩ | ⟨x, rfl⟩ <;>
    · have h1 := congrArg Prod.fst he
      rw [getD_slot hn] at h1
      rw [← slotName_inj hn h1, ← show codeVar ds _ = f from congrArg Prod.snd he, codeVar_slot hn]
  refine ⟨hall, rfl, rfl, rfl, rfl, ?_, ?_, ?_, ?_, ?_, ?_⟩
  · have := label_names F hn (fun _ => false, fun _ => false)
    have e : (labelAt (semVars ds) (fun _ => false, fun _ => false)).map Prod.fst = (semIVars ds).pre.map Prod.fst := by
      simp [labelAt, semVars, semIVars, Function.comp_def]
    rwa [e] at this
  · intro x f hf s t
    exact hpre (.ci x) f hf s t
  · intro x f hf s t
    exact hpre (.co x) f hf s t
  · have e : (semIVars ds).post.map Prod.fst = (varsOfType (tableOf ds).types .post).map fun k => (tableOf ds).names.getD k [] := by
      simp [semIVars, Function.comp_def]
    refine (List.Perm.of_eq e).trans ?_
    have h1 : ((varsOfType (tableOf ds).types .post).map fun k => (tableOf ds).names.getD k []).Nodup := by
      refine List.Nodup.map_on ?_ (List.Nodup.filter _ List.nodup_range)
      intro k hk k' hk' he
      have key : ∀ k ∈ varsOfType (tableOf ds).types .post, ∃ z : DSlot ds, slotCode z = k := fun k hk => by
        rcases (mem_post hn).mp hk with ⟨x, h⟩ | ⟨x, h⟩ <;> exact ⟨_, h⟩
      obtain ⟨z, rfl⟩ := key k hk
      obtain ⟨z', rfl⟩ := key k' hk'
      rw [getD_slot hn, getD_slot hn] at he
      rw [slotName_inj hn he]
    have h2 : (((specOf ds F).inputs ++ (specOf ds F).outputs).map prime).Nodup := by
      rw [SpecFile.names, List.append_assoc, ← List.map_append] at hall
      exact (List.nodup_append.mp hall).2.1
    rw [List.perm_ext_iff_of_nodup h1 h2]
    intro x
    simp only [List.mem_map, List.mem_append]
    constructor
    · rintro ⟨k, hk, rfl⟩
      rcases (mem_post hn).mp hk with ⟨y, rfl⟩ | ⟨y, rfl⟩ <;> rw [getD_slot hn]
      · exact ⟨y.1, .inl y.2, rfl⟩
      · exact ⟨y.1, .inr y.2, rfl⟩
    · rintro ⟨y, hy | hy, rfl⟩
      · exact ⟨_, (mem_post hn).mpr (.inl ⟨⟨y, hy⟩, rfl⟩), getD_slot hn _⟩
      · exact ⟨_, (mem_post hn).mpr (.inr ⟨⟨y, hy⟩, rfl⟩), getD_slot hn _⟩
  · intro x f hf s t
    exact hpost (.ni x) f hf s t
  · intro x f hf s t
    exact hpost (.no x) f hf s t

end Slugs.Model
