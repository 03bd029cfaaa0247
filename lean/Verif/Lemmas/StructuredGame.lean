import Verif.Lemmas.StructuredEncode
import Verif.Lemmas.StructuredPrefix
import Verif.Lemmas.GameEmbed

/-!
The game of a structured specification is encoded in the game of its translation.
-/

namespace Slugs.Model.Structured

open Slugs.Spec Slugs.Spec.Structured

/-- The variables of the translation. -/
def flatSpec (S : SSpec) : SpecFile := ⟨flatNames S.inputs, flatNames S.outputs, [], [], [], [], [], []⟩

noncomputable def eI (S : SSpec) (i : S.In) : (flatSpec S).In := fun x => enc S.inputs i.1 x.1

noncomputable def eO (S : SSpec) (o : S.Out) : (flatSpec S).Out := fun x => enc S.outputs o.1 x.1

/-- The tables of the compiler. -/
def specNames (S : SSpec) : Names where
  limits := S.bounds
  bits x := ((S.inputs ++ S.outputs).find? fun d => d.name = x).bind fun d => d.range.map fun _ => bitsOf d

variable {S : SSpec}

theorem DeclsOk.left {a b : List Decl} (h : DeclsOk (a ++ b)) : DeclsOk a :=
  ⟨fun d hd => h.tidy d (by simp [hd]), by have := h.nodup; rw [List.map_append] at this; exact (List.nodup_append.mp this).1,
    fun d hd => h.range d (by simp [hd])⟩

theorem DeclsOk.right {a b : List Decl} (h : DeclsOk (a ++ b)) : DeclsOk b :=
  ⟨fun d hd => h.tidy d (by simp [hd]), by have := h.nodup; rw [List.map_append] at this; exact (List.nodup_append.mp this).2.1,
    fun d hd => h.range d (by simp [hd])⟩

theorem DeclsOk.apart {a b : List Decl} (h : DeclsOk (a ++ b)) {d : Decl} (hd : d ∈ b) : d.name ∉ a.map Decl.name := by
  have := h.nodup
  rw [List.map_append] at this
  intro hm
  exact (List.nodup_append.mp this).2.2 _ hm _ (List.mem_map_of_mem hd) rfl

theorem flatNames_append (a b : List Decl) : flatNames (a ++ b) = flatNames a ++ flatNames b := List.flatMap_append

theorem flat_apart {a b : List Decl} (h : DeclsOk (a ++ b)) {w : Word} (hw : w ∈ flatNames b) : w ∉ flatNames a := by
  have := flatNames_nodup h
  rw [flatNames_append] at this
  intro hm
  exact (List.nodup_append.mp this).2.2 _ hm _ hw rfl

theorem flat_prime {ds : List Decl} (h : DeclsOk ds) (w : Word) : prime w ∉ flatNames ds := by
  intro hm
  obtain ⟨d, hd, hw⟩ := List.mem_flatMap.mp hm
  exact prime_not_bit (h.tidy d hd) hw (by simp [prime])

theorem name_prime {ds : List Decl} (h : DeclsOk ds) (w : Word) : prime w ∉ ds.map Decl.name := by
  intro hm
  obtain ⟨d, hd, hw⟩ := List.mem_map.mp hm
  exact (h.tidy d hd).2.2.1 (by rw [hw]; simp [prime])

/-- Values and bits agree (for the same declarations in a larger list). -/
theorem enc_part {ds all : List Decl} (h : DeclsOk ds) (ha : DeclsOk all) (hs : ds ⊆ all) {v v' : Word → Int} (hv : ∀ d ∈ ds, v d.name = v' d.name) {w : Word}
    (hw : w ∈ flatNames ds) : enc ds v w = enc all v' w := by
  obtain ⟨d, hd, hw⟩ := List.mem_flatMap.mp hw
  rcases mem_bitsOf.mp hw with ⟨hn, rfl⟩ | ⟨lo, hi, k, hs', hk, rfl⟩
  · rw [enc_bool h hd hn, enc_bool ha (hs hd) hn, hv d hd]
  · rw [enc_bit h hd hs' _ hk, enc_bit ha (hs hd) hs' _ hk, hv d hd]

theorem now_input (hok : DeclsOk (S.inputs ++ S.outputs)) (p : Pos S.In S.Out) {d : Decl} (hd : d ∈ S.inputs) : S.now p d.name = p.1.1 d.name := by
  rw [SSpec.now, if_pos (show d.name ∈ S.inputNames from List.mem_map_of_mem hd)]

theorem now_output (hok : DeclsOk (S.inputs ++ S.outputs)) (p : Pos S.In S.Out) {d : Decl} (hd : d ∈ S.outputs) : S.now p d.name = p.2.1 d.name := by
  rw [SSpec.now, if_neg (show d.name ∉ S.inputNames from hok.apart hd)]

theorem now_ok (hok : DeclsOk (S.inputs ++ S.outputs)) (p : Pos S.In S.Out) : ∀ d ∈ S.inputs ++ S.outputs, d.Ok (S.now p d.name) := by
  intro d hd
  rcases List.mem_append.mp hd with h | h
  · rw [now_input hok p h]; exact p.1.2.1 d h
  · rw [now_output hok p h]; exact p.2.2.1 d h

theorem flat_now (hok : DeclsOk (S.inputs ++ S.outputs)) (p : Pos S.In S.Out) {w : Word} (hw : w ∈ flatNames (S.inputs ++ S.outputs)) :
    (flatSpec S).now (eI S p.1) (eO S p.2) w = enc (S.inputs ++ S.outputs) (S.now p) w := by
  rw [flatNames_append] at hw
  rcases List.mem_append.mp hw with hw | hw
  · rw [SpecFile.now, dif_pos (show w ∈ (flatSpec S).inputs from hw)]
    exact enc_part hok.left hok (fun d hd => by simp [hd]) (fun d hd => (now_input hok p hd).symm) hw
  · rw [SpecFile.now, dif_neg (show w ∉ (flatSpec S).inputs from flat_apart hok hw), dif_pos (show w ∈ (flatSpec S).outputs from hw)]
    exact enc_part hok.right hok (fun d hd => by simp [hd]) (fun d hd => (now_output hok p hd).symm) hw

theorem flat_look (hok : DeclsOk (S.inputs ++ S.outputs)) (p q : Pos S.In S.Out) {w : Word} (hw : w ∈ flatNames (S.inputs ++ S.outputs)) :
    (flatSpec S).look (embPos (eI S) (eO S) p) (embPos (eI S) (eO S) q) w = enc (S.inputs ++ S.outputs) (S.now p) w ∧
    (flatSpec S).look (embPos (eI S) (eO S) p) (embPos (eI S) (eO S) q) (prime w) = enc (S.inputs ++ S.outputs) (S.now q) w := by
  constructor
  · rw [SpecFile.look, if_pos (by rw [flatNames_append] at hw; exact hw)]
    exact flat_now hok p hw
  · rw [SpecFile.look, if_neg (by have := flat_prime hok w; rw [flatNames_append] at this; exact this)]
    rw [show (prime w).dropLast = w by simp [prime]]
    exact flat_now hok q hw

theorem spec_look (hok : DeclsOk (S.inputs ++ S.outputs)) (p q : Pos S.In S.Out) {x : Word} (hx : x ∈ S.names) :
    S.look p q x = S.now p x ∧ S.look p q (prime x) = S.now q x := by
  constructor
  · rw [SSpec.look, if_pos hx]
  · rw [SSpec.look, if_neg (by have := name_prime hok x; rw [List.map_append] at this; exact this), show (prime x).dropLast = x by simp [prime]]

theorem find_name (hok : DeclsOk (S.inputs ++ S.outputs)) {d : Decl} (hd : d ∈ S.inputs ++ S.outputs) :
    ((S.inputs ++ S.outputs).find? fun e => e.name = d.name) = some d := by
  cases hf : (S.inputs ++ S.outputs).find? fun e => e.name = d.name with
  | none => rw [List.find?_eq_none] at hf; exact absurd (decide_eq_true rfl) (hf d hd)
  | some e =>
    have h1 := List.mem_of_find?_eq_some hf
    have h2 := List.find?_some hf
    simp only [decide_eq_true_eq] at h2
    rw [hok.same h1 hd h2]

theorem bounds_iff {x : Word} {lo hi : Int} (h : S.bounds x = some (lo, hi)) : ∃ d ∈ S.inputs ++ S.outputs, d.name = x ∧ d.range = some (lo, hi) := by
  rw [SSpec.bounds] at h
  obtain ⟨d, h1, h2⟩ := Option.bind_eq_some_iff.mp h
  have := List.find?_some h1
  exact ⟨d, List.mem_of_find?_eq_some h1, by simpa using this, h2⟩

theorem bits_eq (hok : DeclsOk (S.inputs ++ S.outputs)) {d : Decl} (hd : d ∈ S.inputs ++ S.outputs) {q : Int × Int} (hr : d.range = some q) :
    (specNames S).bits d.name = some (bitsOf d) := by
  simp only [specNames, find_name hok hd, Option.bind_some, hr, Option.map_some]

theorem specNames_ok (hok : DeclsOk (S.inputs ++ S.outputs)) :
    ∀ x lo hi, (specNames S).limits x = some (lo, hi) → ∃ bs, (specNames S).bits x = some bs ∧ bs.length = bitsFor (hi - lo) := by
  intro x lo hi h
  obtain ⟨d, hd, rfl, hr⟩ := bounds_iff h
  refine ⟨_, bits_eq hok hd hr, ?_⟩
  rw [bitsOf, hr]
  simp [bitNames_eq]

theorem spec_encodes (hok : DeclsOk (S.inputs ++ S.outputs)) (p q : Pos S.In S.Out) :
    Encodes (specNames S).limits (specNames S).bits ((flatSpec S).look (embPos (eI S) (eO S) p) (embPos (eI S) (eO S) q)) (S.look p q) := by
  intro x lo hi bs h1 h2
  obtain ⟨d, hd, rfl, hr⟩ := bounds_iff h1
  rw [bits_eq hok hd hr] at h2
  cases h2
  have hm : ∀ w ∈ bitsOf d, w ∈ flatNames (S.inputs ++ S.outputs) := fun w hw => List.mem_flatMap.mpr ⟨d, hd, hw⟩
  have hn : d.name ∈ S.names := by
    have := List.mem_map_of_mem (f := Decl.name) hd
    rw [List.map_append] at this
    exact this
  have ok1 := now_ok hok p d hd
  have ok2 := now_ok hok q d hd
  rw [List.map_congr_left (fun w hw => (flat_look hok p q (hm w hw)).1), List.map_congr_left (fun w hw => (flat_look hok p q (hm w hw)).2),
    binary_bits hok hd hr ok1, binary_bits hok hd hr ok2, (spec_look hok p q hn).1, (spec_look hok p q hn).2]
  rw [Decl.Ok, hr] at ok1 ok2
  dsimp only at ok1 ok2
  omega

theorem mem_boolsOf {ds : List Decl} {x : Word} : x ∈ SSpec.boolsOf ds ↔ ∃ d ∈ ds, d.range = none ∧ d.name = x := by
  simp [SSpec.boolsOf, and_assoc]

theorem boolsOf_flat {ds : List Decl} {x : Word} (h : x ∈ SSpec.boolsOf ds) : x ∈ flatNames ds := by
  obtain ⟨d, hd, hr, rfl⟩ := mem_boolsOf.mp h
  exact List.mem_flatMap.mpr ⟨d, hd, mem_bitsOf.mpr (.inl ⟨hr, rfl⟩)⟩

theorem boolsOf_names {ds : List Decl} {x : Word} (h : x ∈ SSpec.boolsOf ds) : x ∈ ds.map Decl.name := by
  obtain ⟨d, hd, hr, rfl⟩ := mem_boolsOf.mp h
  exact List.mem_map_of_mem hd

/-- Boolean variables have the same values. -/
theorem bool_look (hok : DeclsOk (S.inputs ++ S.outputs)) (p q : Pos S.In S.Out) {x : Word} (hx : x ∈ S.bools) :
    (flatSpec S).look (embPos (eI S) (eO S) p) (embPos (eI S) (eO S) q) x = decide (S.look p q x = 1) := by
  have key : ∀ y ∈ SSpec.boolsOf (S.inputs ++ S.outputs), ∀ p, enc (S.inputs ++ S.outputs) (S.now p) y = decide (S.now p y = 1) := by
    intro y hy p
    obtain ⟨d, hd, hr, rfl⟩ := mem_boolsOf.mp hy
    exact enc_bool hok hd hr _
  have hn : ∀ y ∈ SSpec.boolsOf (S.inputs ++ S.outputs), y ∈ S.names := by
    intro y hy
    have := boolsOf_names hy
    rw [List.map_append] at this
    exact this
  rw [SSpec.bools] at hx
  rcases List.mem_append.mp hx with hx | hx
  · rw [(flat_look hok p q (boolsOf_flat hx)).1, key x hx, (spec_look hok p q (hn x hx)).1]
  · obtain ⟨y, hy, rfl⟩ := List.mem_map.mp hx
    rw [(flat_look hok p q (boolsOf_flat hy)).2, key y hy, (spec_look hok p q (hn y hy)).2]

/-! ### Which names are used -/

theorem holds_congr {bounds : Bounds} {val : Word → Int} {B B' : Word → Bool} : ∀ (f : SFml) (nx : Bool), f.Proper bounds nx → (∀ x ∈ f.atoms nx, B x = B' x) →
    f.holds bounds (fun x => B (if nx then prime x else x)) val = f.holds bounds (fun x => B' (if nx then prime x else x)) val := by
  intro f
  induction f generalizing val with
  | tt => intro nx _ _; rfl
  | ff => intro nx _ _; rfl
  | atom x => intro nx _ h; exact h _ (by simp [SFml.atoms])
  | cmp o a b => intro nx _ _; rfl
  | not f ih =>
    intro nx hp h
    simp only [SFml.holds]
    rw [ih nx hp h]
  | next f ih =>
    intro nx hp h
    obtain ⟨rfl, hp⟩ := hp
    have := ih (val := fun x => val (prime x)) true hp h
    simpa [SFml.holds] using this
  | and f g i1 i2 =>
    intro nx hp h
    rw [SFml.atoms] at h
    simp only [SFml.holds]
    rw [i1 nx hp.1 (fun x hx => h x (by simp [hx])), i2 nx hp.2 (fun x hx => h x (by simp [hx]))]
  | or f g i1 i2 =>
    intro nx hp h
    rw [SFml.atoms] at h
    simp only [SFml.holds]
    rw [i1 nx hp.1 (fun x hx => h x (by simp [hx])), i2 nx hp.2 (fun x hx => h x (by simp [hx]))]
  | imp f g i1 i2 =>
    intro nx hp h
    rw [SFml.atoms] at h
    simp only [SFml.holds]
    rw [i1 nx hp.1 (fun x hx => h x (by simp [hx])), i2 nx hp.2 (fun x hx => h x (by simp [hx]))]
  | iff f g i1 i2 =>
    intro nx hp h
    rw [SFml.atoms] at h
    simp only [SFml.holds]
    rw [i1 nx hp.1 (fun x hx => h x (by simp [hx])), i2 nx hp.2 (fun x hx => h x (by simp [hx]))]

/-- Atoms as they are written. -/
def rawAtoms : SFml → List Word
  | .tt => []
  | .ff => []
  | .atom x => [x]
  | .cmp _ _ _ => []
  | .not f => rawAtoms f
  | .next f => rawAtoms f
  | .and f g => rawAtoms f ++ rawAtoms g
  | .or f g => rawAtoms f ++ rawAtoms g
  | .imp f g => rawAtoms f ++ rawAtoms g
  | .iff f g => rawAtoms f ++ rawAtoms g

theorem atom_tokens {n : Nat} {ts : List Tok} {f : SFml} (h : Infix n ts f) : ∀ x ∈ rawAtoms f, ∃ t ∈ ts, t.kind = .boolID ∧ t.text = x := by
  have bin : ∀ {ts op us : List Tok} {f g : SFml}, (∀ x ∈ rawAtoms f, ∃ t ∈ ts, t.kind = .boolID ∧ t.text = x) →
      (∀ x ∈ rawAtoms g, ∃ t ∈ us, t.kind = .boolID ∧ t.text = x) → ∀ x ∈ rawAtoms f ++ rawAtoms g, ∃ t ∈ ts ++ op ++ us, t.kind = .boolID ∧ t.text = x := by
    intro ts op us f g h1 h2 x hx
    rcases List.mem_append.mp hx with hx | hx
    · obtain ⟨t, ht, h⟩ := h1 x hx; exact ⟨t, by simp [ht], h⟩
    · obtain ⟨t, ht, h⟩ := h2 x hx; exact ⟨t, by simp [ht], h⟩
  induction h with
  | up _ _ ih => exact ih
  | iff _ _ _ i1 i2 => exact bin i1 i2
  | imp _ _ _ i1 i2 => exact bin i1 i2
  | or _ _ _ i1 i2 => exact bin i1 i2
  | and _ _ _ i1 i2 => exact bin i1 i2
  | not _ _ ih => intro x hx; obtain ⟨t, ht, h⟩ := ih x hx; exact ⟨t, by simp [ht], h⟩
  | next _ _ ih => intro x hx; obtain ⟨t, ht, h⟩ := ih x hx; exact ⟨t, by simp [ht], h⟩
  | tt _ => simp [rawAtoms]
  | ff _ => simp [rawAtoms]
  | @atom t h => intro x hx; rw [rawAtoms, List.mem_singleton] at hx; exact ⟨t, by simp, h, hx.symm⟩
  | cmp _ _ _ _ => simp [rawAtoms]
  | brackets _ _ ih => intro x hx; obtain ⟨t, ht, h⟩ := ih x hx; exact ⟨t, by simp [ht], h⟩

theorem atoms_raw {bounds : Bounds} {nx : Bool} : ∀ {f : SFml}, f.Proper bounds nx → ∀ x ∈ f.atoms nx, x ∈ rawAtoms f ∨ ∃ y ∈ rawAtoms f, '\'' ∉ y ∧ x = prime y := by
  intro f
  induction f generalizing nx with
  | tt => intro _ x hx; simp [SFml.atoms] at hx
  | ff => intro _ x hx; simp [SFml.atoms] at hx
  | atom y =>
    intro hp x hx
    rw [SFml.atoms, List.mem_singleton] at hx
    cases nx with
    | false => left; simp [rawAtoms, hx]
    | true => right; exact ⟨y, by simp [rawAtoms], hp rfl, by simpa using hx⟩
  | cmp o a b => intro _ x hx; simp [SFml.atoms] at hx
  | not f ih => exact fun hp => ih hp
  | next f ih => exact fun hp => ih hp.2
  | and f g i1 i2 =>
    intro hp x hx
    simp only [rawAtoms, List.mem_append]
    rcases List.mem_append.mp hx with hx | hx
    · rcases i1 hp.1 x hx with h | ⟨y, h1, h2⟩
      · exact .inl (.inl h)
      · exact .inr ⟨y, .inl h1, h2⟩
    · rcases i2 hp.2 x hx with h | ⟨y, h1, h2⟩
      · exact .inl (.inr h)
      · exact .inr ⟨y, .inr h1, h2⟩
  | or f g i1 i2 =>
    intro hp x hx
    simp only [rawAtoms, List.mem_append]
    rcases List.mem_append.mp hx with hx | hx
    · rcases i1 hp.1 x hx with h | ⟨y, h1, h2⟩
      · exact .inl (.inl h)
      · exact .inr ⟨y, .inl h1, h2⟩
    · rcases i2 hp.2 x hx with h | ⟨y, h1, h2⟩
      · exact .inl (.inr h)
      · exact .inr ⟨y, .inr h1, h2⟩
  | imp f g i1 i2 =>
    intro hp x hx
    simp only [rawAtoms, List.mem_append]
    rcases List.mem_append.mp hx with hx | hx
    · rcases i1 hp.1 x hx with h | ⟨y, h1, h2⟩
      · exact .inl (.inl h)
      · exact .inr ⟨y, .inl h1, h2⟩
    · rcases i2 hp.2 x hx with h | ⟨y, h1, h2⟩
      · exact .inl (.inr h)
      · exact .inr ⟨y, .inr h1, h2⟩
  | iff f g i1 i2 =>
    intro hp x hx
    simp only [rawAtoms, List.mem_append]
    rcases List.mem_append.mp hx with hx | hx
    · rcases i1 hp.1 x hx with h | ⟨y, h1, h2⟩
      · exact .inl (.inl h)
      · exact .inr ⟨y, .inl h1, h2⟩
    · rcases i2 hp.2 x hx with h | ⟨y, h1, h2⟩
      · exact .inl (.inr h)
      · exact .inr ⟨y, .inr h1, h2⟩

/-- The atoms of a formula are Boolean variables. -/
theorem atoms_bools {line : List Char} {f : SFml} (hf : IsFormula S.bools line f) {bounds : Bounds} (hp : f.Proper bounds false) :
    ∀ x ∈ f.atoms false, x ∈ S.bools := by
  obtain ⟨ts, h1, h2⟩ := hf
  have raw : ∀ x ∈ rawAtoms f, x ∈ S.bools := by
    intro x hx
    obtain ⟨t, ht, hk, rfl⟩ := atom_tokens h2 x hx
    exact ((Lexes.ok h1 t ht).boolID hk).1
  intro x hx
  rcases atoms_raw hp x hx with h | ⟨y, h1, h2, rfl⟩
  · exact raw x h
  · have := raw y h1
    rw [SSpec.bools] at this ⊢
    rcases List.mem_append.mp this with h | h
    · exact List.mem_append_right _ (List.mem_map_of_mem h)
    · obtain ⟨z, _, rfl⟩ := List.mem_map.mp h
      exact absurd (by simp [prime]) h2

/-- From the variables that a section allows to their bits. -/
theorem usable_map {s : Section} {I O I' O' : List Word} {x x' : Word} (h1 : x ∈ I → x' ∈ I') (h2 : x ∈ O → x' ∈ O')
    (h3 : x ∈ I.map prime → x' ∈ I'.map prime) (h4 : x ∈ O.map prime → x' ∈ O'.map prime) (h : x ∈ usable s I O) : x' ∈ usable s I' O' := by
  cases s <;> simp only [usable, List.mem_append] at h ⊢ <;> tauto

theorem usable_names {s : Section} {I O : List Word} {x : Word} (h : x ∈ usable s I O) : x ∈ I ++ O ++ I.map prime ++ O.map prime := by
  cases s <;> simp only [usable, List.mem_append] at h ⊢ <;> tauto

theorem prime_inj {x y : Word} (h : prime x = prime y) : x = y := by
  simpa [prime] using h

theorem mem_prime {l : List Word} {x : Word} : prime x ∈ l.map prime ↔ x ∈ l := by
  constructor
  · intro h
    obtain ⟨y, hy, e⟩ := List.mem_map.mp h
    rwa [← prime_inj e]
  · exact List.mem_map_of_mem

theorem decl_side (hok : DeclsOk (S.inputs ++ S.outputs)) {d : Decl} (hd : d ∈ S.inputs ++ S.outputs) :
    (d.name ∈ S.inputNames → d ∈ S.inputs) ∧ (d.name ∈ S.outputNames → d ∈ S.outputs) := by
  constructor
  · intro h
    obtain ⟨e, he, hn⟩ := List.mem_map.mp h
    rwa [hok.same hd (by simp [he]) hn.symm]
  · intro h
    obtain ⟨e, he, hn⟩ := List.mem_map.mp h
    rwa [hok.same hd (by simp [he]) hn.symm]

/-- The variable or the next value `x` of the declaration `d`, and the corresponding values of a bit `b`. -/
theorem usable_bit (hok : DeclsOk (S.inputs ++ S.outputs)) {d : Decl} (hd : d ∈ S.inputs ++ S.outputs) {b : Word} (hb : b ∈ bitsOf d) {s : Section} :
    (d.name ∈ usable s S.inputNames S.outputNames → b ∈ usable s (flatNames S.inputs) (flatNames S.outputs)) ∧
    (prime d.name ∈ usable s S.inputNames S.outputNames → prime b ∈ usable s (flatNames S.inputs) (flatNames S.outputs)) := by
  obtain ⟨s1, s2⟩ := decl_side hok hd
  have m : ∀ {ds : List Decl}, d ∈ ds → b ∈ flatNames ds := fun h => List.mem_flatMap.mpr ⟨d, h, hb⟩
  have np : ∀ (l : List Decl), l ⊆ S.inputs ++ S.outputs → d.name ∉ (l.map Decl.name).map prime := by
    intro l _ h
    obtain ⟨y, _, e⟩ := List.mem_map.mp h
    exact name_prime hok y (e ▸ List.mem_map_of_mem hd)
  have np' : ∀ (l : List Decl), l ⊆ S.inputs ++ S.outputs → prime d.name ∉ l.map Decl.name := by
    intro l hl h
    obtain ⟨y, hy, e⟩ := List.mem_map.mp h
    exact name_prime hok d.name (e ▸ List.mem_map_of_mem (hl hy))
  constructor
  · refine usable_map (fun h => m (s1 h)) (fun h => m (s2 h)) (fun h => absurd h (np _ (by simp))) (fun h => absurd h (np _ (by simp)))
  · refine usable_map (fun h => absurd h (np' _ (by simp))) (fun h => absurd h (np' _ (by simp))) (fun h => ?_) (fun h => ?_)
    · exact mem_prime.mpr (m (s1 (mem_prime.mp h)))
    · exact mem_prime.mpr (m (s2 (mem_prime.mp h)))

theorem usable_bool (hok : DeclsOk (S.inputs ++ S.outputs)) {x : Word} (hx : x ∈ S.bools) {s : Section} (h : x ∈ usable s S.inputNames S.outputNames) :
    x ∈ usable s (flatNames S.inputs) (flatNames S.outputs) := by
  rw [SSpec.bools] at hx
  rcases List.mem_append.mp hx with hx | hx
  · obtain ⟨d, hd, hr, rfl⟩ := mem_boolsOf.mp hx
    exact (usable_bit hok hd (mem_bitsOf.mpr (.inl ⟨hr, rfl⟩))).1 h
  · obtain ⟨y, hy, rfl⟩ := List.mem_map.mp hx
    obtain ⟨d, hd, hr, rfl⟩ := mem_boolsOf.mp hy
    exact (usable_bit hok hd (mem_bitsOf.mpr (.inl ⟨hr, rfl⟩))).2 h

/-! ### Constraints and their translations -/

/-- `φ` is the translation of the constraint `c` of section `s`. -/
structure Tr (S : SSpec) (s : Section) (c : Constraint) (φ : Fml) : Prop where
  wf : φ.Wf 0
  vars : ∀ x ∈ φ.vars, x ∈ usable s (flatNames S.inputs) (flatNames S.outputs)
  holds : ∀ p q, (flatSpec S).holds (embPos (eI S) (eO S) p) (embPos (eI S) (eO S) q) φ ↔ S.holds p q c

theorem boolsOf_sub {a b : List Decl} (h : a ⊆ b) : SSpec.boolsOf a ⊆ SSpec.boolsOf b := by
  intro x hx
  obtain ⟨d, hd, hr, rfl⟩ := mem_boolsOf.mp hx
  exact mem_boolsOf.mpr ⟨d, h hd, hr, rfl⟩

theorem plain_bools {s : Section} {x : Word} (h : x ∈ usable s (SSpec.boolsOf S.inputs) (SSpec.boolsOf S.outputs)) : x ∈ S.bools := by
  have h := usable_names h
  have e : SSpec.boolsOf S.inputs ++ SSpec.boolsOf S.outputs = SSpec.boolsOf (S.inputs ++ S.outputs) := by simp [SSpec.boolsOf]
  rw [SSpec.bools, ← e, List.map_append]
  simp only [List.mem_append] at h ⊢
  tauto

theorem tr_plain (hok : DeclsOk (S.inputs ++ S.outputs)) {s : Section} {φ : Fml} (h : S.Allows s (.plain φ)) : Tr S s (.plain φ) φ := by
  obtain ⟨h1, h2⟩ := h
  refine ⟨h1, fun x hx => ?_, fun p q => ?_⟩
  · refine usable_map boolsOf_flat boolsOf_flat ?_ ?_ (h2 x hx)
    · intro h; obtain ⟨y, hy, rfl⟩ := List.mem_map.mp h; exact List.mem_map_of_mem (boolsOf_flat hy)
    · intro h; obtain ⟨y, hy, rfl⟩ := List.mem_map.mp h; exact List.mem_map_of_mem (boolsOf_flat hy)
  · rw [SpecFile.holds, SSpec.holds, Fml.eval_congr φ [] (fun x hx => bool_look hok p q (plain_bools (h2 x hx)))]

theorem tr_infix (hok : DeclsOk (S.inputs ++ S.outputs)) {s : Section} {line : List Char} {f : SFml} {φ : Fml} (hf : IsFormula S.bools line f) (h : S.Allows s (.infix f))
    (hw : φ.Wf 0)
    (hv : ∀ w ∈ φ.vars, w ∈ f.atoms false ∨
      ∃ x ∈ f.numbers false, ∃ bs, (specNames S).bits (unprimed x) = some bs ∧ ∃ b ∈ bs, w = if isPrimed x then prime b else b)
    (he : ∀ ρ val, Encodes (specNames S).limits (specNames S).bits ρ val → φ.eval ρ [] = some (f.holds (specNames S).limits ρ val)) :
    Tr S s (.infix f) φ := by
  obtain ⟨h1, h2, h3⟩ := h
  have ha := atoms_bools hf h1
  refine ⟨hw, fun w hw => ?_, fun p q => ?_⟩
  · rcases hv w hw with hm | ⟨x, hx, bs, hb, b, hbb, rfl⟩
    · exact usable_bool hok (ha w hm) (h2 w hm)
    · have hu := h3 x hx
      have : ∃ d ∈ S.inputs ++ S.outputs, d.name = unprimed x ∧ bs = bitsOf d := by
        simp only [specNames] at hb
        obtain ⟨d, k1, k2⟩ := Option.bind_eq_some_iff.mp hb
        have := List.find?_some k1
        refine ⟨d, List.mem_of_find?_eq_some k1, by simpa using this, ?_⟩
        cases hr : d.range with
        | none => rw [hr] at k2; cases k2
        | some q => rw [hr] at k2; cases k2; rfl
      obtain ⟨d, hd, hn, rfl⟩ := this
      rw [unprimed] at hn
      cases hp : isPrimed x with
      | false =>
        rw [hp] at hn
        simp only [Bool.false_eq_true, if_false] at hn ⊢
        exact (usable_bit hok hd hbb).1 (hn ▸ hu)
      | true =>
        rw [hp] at hn
        simp only [if_true] at hn ⊢
        refine (usable_bit hok hd hbb).2 ?_
        have : prime x.dropLast = x := by
          rw [isPrimed, beq_iff_eq] at hp
          rw [prime]
          exact List.dropLast_append_getLast? _ (by simp [hp])
        rw [hn, this]
        exact hu
  · rw [SpecFile.holds, he _ _ (spec_encodes hok p q), SSpec.holds, Option.some_inj]
    have := holds_congr (bounds := S.bounds) (val := S.look p q) (B := (flatSpec S).look (embPos (eI S) (eO S) p) (embPos (eI S) (eO S) q))
      (B' := fun x => decide (S.look p q x = 1)) f false h1 (fun x hx => bool_look hok p q (ha x hx))
    simp only [Bool.false_eq_true, if_false] at this
    rw [show (specNames S).limits = S.bounds from rfl, this]

/-! ### The limits of integer variables -/

/-- The number of values. -/
def sizeOf (lo hi : Int) : Nat := (hi - lo + 1).toNat

/-- The constraints that keep the bits of variables within their limits. -/
def limits (ds : List Decl) (names : Decl → List Word) : List Fml := ds.flatMap fun d =>
  match d.range with
  | none => []
  | some (lo, hi) => if 2 ^ bitsFor (hi - lo) = sizeOf lo hi then [] else [limitF (names d) (sizeOf lo hi)]

/-- The same for transitions; if `t` then for the current values, too. -/
def limitsT (t : Bool) (ds : List Decl) : List Fml := ds.flatMap fun d =>
  match d.range with
  | none => []
  | some (lo, hi) => if 2 ^ bitsFor (hi - lo) = sizeOf lo hi then [] else
    (if t then [limitF (bitsOf d) (sizeOf lo hi)] else []) ++ [limitF ((bitsOf d).map prime) (sizeOf lo hi)]

theorem size_bits {lo hi : Int} (h : lo ≤ hi) : sizeOf lo hi ≤ 2 ^ bitsFor (hi - lo) := by
  have := lt_bitsFor (lo := lo) (hi := hi) (v := hi) ⟨h, le_refl _⟩
  rw [sizeOf]
  omega

theorem bits_length {d : Decl} {lo hi : Int} (hr : d.range = some (lo, hi)) : (bitsOf d).length = bitsFor (hi - lo) := by
  rw [bitsOf, hr]
  simp [bitNames_eq]

theorem limit_one {d : Decl} {lo hi : Int} (hr : d.range = some (lo, hi)) (hl : lo ≤ hi) (hn : 2 ^ bitsFor (hi - lo) ≠ sizeOf lo hi) {names : List Word}
    (hk : names.length = (bitsOf d).length) (ρ : Word → Bool) :
    (limitF names (sizeOf lo hi)).eval ρ [] = some true ↔ binary (names.map ρ) < (hi - lo + 1).toNat := by
  rw [limit_eval, Option.some_inj, decide_eq_true_iff, hk, bits_length hr, Nat.mod_eq_of_lt (by have := size_bits hl; omega)]
  rfl

theorem limit_all {d : Decl} {lo hi : Int} (hr : d.range = some (lo, hi)) (hn : 2 ^ bitsFor (hi - lo) = sizeOf lo hi) {names : List Word}
    (hk : names.length = (bitsOf d).length) (ρ : Word → Bool) : binary (names.map ρ) < (hi - lo + 1).toNat := by
  have := binary_lt (names.map ρ)
  rw [List.length_map, hk, bits_length hr, hn] at this
  exact this

theorem mem_limits {ds : List Decl} {names : Decl → List Word} {φ : Fml} : φ ∈ limits ds names ↔
    ∃ d ∈ ds, ∃ lo hi, d.range = some (lo, hi) ∧ 2 ^ bitsFor (hi - lo) ≠ sizeOf lo hi ∧ φ = limitF (names d) (sizeOf lo hi) := by
  rw [limits, List.mem_flatMap]
  refine exists_congr fun d => and_congr_right fun _ => ?_
  cases d.range with
  | none => simp
  | some q =>
    obtain ⟨lo, hi⟩ := q
    dsimp only
    by_cases h : 2 ^ bitsFor (hi - lo) = sizeOf lo hi
    · rw [if_pos h]
      simp only [List.not_mem_nil, false_iff]
      rintro ⟨lo', hi', e, h', _⟩
      cases e
      exact h' h
    · rw [if_neg h, List.mem_singleton]
      constructor
      · intro e; exact ⟨lo, hi, rfl, h, e⟩
      · rintro ⟨lo', hi', e, _, h'⟩; cases e; exact h'

theorem mem_limitsT {t : Bool} {ds : List Decl} {φ : Fml} : φ ∈ limitsT t ds ↔ (t = true ∧ φ ∈ limits ds bitsOf) ∨ φ ∈ limits ds (fun d => (bitsOf d).map prime) := by
  rw [mem_limits, mem_limits, limitsT, List.mem_flatMap]
  constructor
  · rintro ⟨d, hd, h⟩
    cases hr : d.range with
    | none => rw [hr] at h; cases h
    | some q =>
      obtain ⟨lo, hi⟩ := q
      rw [hr] at h
      dsimp only at h
      split at h
      · cases h
      · rename_i hn
        rcases List.mem_append.mp h with h | h
        · cases t with
          | false => simp at h
          | true => exact .inl ⟨rfl, d, hd, lo, hi, hr, hn, by simpa using h⟩
        · exact .inr ⟨d, hd, lo, hi, hr, hn, by simpa using h⟩
  · rintro (⟨rfl, d, hd, lo, hi, hr, hn, rfl⟩ | ⟨d, hd, lo, hi, hr, hn, rfl⟩)
    · exact ⟨d, hd, by rw [hr]; dsimp only; rw [if_neg hn]; simp⟩
    · exact ⟨d, hd, by rw [hr]; dsimp only; rw [if_neg hn]; simp⟩

theorem limits_range {ds : List Decl} (h : DeclsOk ds) {names : Decl → List Word} (hk : ∀ d, (names d).length = (bitsOf d).length) (ρ : Word → Bool) :
    (∀ φ ∈ limits ds names, φ.eval ρ [] = some true) ↔ ∀ d ∈ ds, ∀ lo hi, d.range = some (lo, hi) → binary ((names d).map ρ) < (hi - lo + 1).toNat := by
  constructor
  · intro ha d hd lo hi hr
    by_cases hn : 2 ^ bitsFor (hi - lo) = sizeOf lo hi
    · exact limit_all hr hn (hk d) ρ
    · exact (limit_one hr (h.range d hd lo hi hr).2 hn (hk d) ρ).1 (ha _ (mem_limits.mpr ⟨d, hd, lo, hi, hr, hn, rfl⟩))
  · intro ha φ hφ
    obtain ⟨d, hd, lo, hi, hr, hn, rfl⟩ := mem_limits.mp hφ
    exact (limit_one hr (h.range d hd lo hi hr).2 hn (hk d) ρ).2 (ha d hd lo hi hr)

theorem limits_inRange {ds : List Decl} (h : DeclsOk ds) (ρ : Word → Bool) : (∀ φ ∈ limits ds bitsOf, φ.eval ρ [] = some true) ↔ InRange ds ρ :=
  limits_range h (fun _ => rfl) ρ

theorem limitsT_inRange {t : Bool} {ds : List Decl} (h : DeclsOk ds) (ρ : Word → Bool) :
    (∀ φ ∈ limitsT t ds, φ.eval ρ [] = some true) ↔ (t = true → InRange ds ρ) ∧ InRange ds (fun w => ρ (prime w)) := by
  have e : InRange ds (fun w => ρ (prime w)) ↔ ∀ φ ∈ limits ds (fun d => (bitsOf d).map prime), φ.eval ρ [] = some true := by
    rw [limits_range h (fun d => List.length_map ..) ρ]
    simp only [List.map_map]
    exact Iff.rfl
  rw [e, ← limits_inRange h]
  simp only [mem_limitsT]
  constructor
  · intro hh; exact ⟨fun ht φ hφ => hh φ (.inl ⟨ht, hφ⟩), fun φ hφ => hh φ (.inr hφ)⟩
  · rintro ⟨h1, h2⟩ φ (⟨ht, hφ⟩ | hφ)
    · exact h1 ht φ hφ
    · exact h2 φ hφ

/-- What the constraints on limits use. -/
theorem limits_syn {ds : List Decl} {names : Decl → List Word} {φ : Fml} (h : φ ∈ limits ds names) : φ.Wf 0 ∧ ∀ x ∈ φ.vars, ∃ d ∈ ds, x ∈ names d := by
  obtain ⟨d, hd, lo, hi, hr, hn, rfl⟩ := mem_limits.mp h
  exact ⟨(limit_syn _ _).1, fun x hx => ⟨d, hd, (limit_syn _ _).2 x hx⟩⟩

theorem limits_vars {ds : List Decl} {φ : Fml} (h : φ ∈ limits ds bitsOf) : φ.Wf 0 ∧ ∀ x ∈ φ.vars, x ∈ flatNames ds :=
  ⟨(limits_syn h).1, fun x hx => List.mem_flatMap.mpr ((limits_syn h).2 x hx)⟩

theorem limitsT_vars {t : Bool} {ds : List Decl} {φ : Fml} (h : φ ∈ limitsT t ds) : φ.Wf 0 ∧ ∀ x ∈ φ.vars, x ∈ flatNames ds ++ (flatNames ds).map prime := by
  rcases mem_limitsT.mp h with ⟨_, h⟩ | h
  · exact ⟨(limits_vars h).1, fun x hx => List.mem_append_left _ ((limits_vars h).2 x hx)⟩
  · refine ⟨(limits_syn h).1, fun x hx => List.mem_append_right _ ?_⟩
    obtain ⟨d, hd, hx⟩ := (limits_syn h).2 x hx
    obtain ⟨y, hy, rfl⟩ := List.mem_map.mp hx
    exact List.mem_map_of_mem (List.mem_flatMap.mpr ⟨d, hd, hy⟩)

/-! ### The two games -/

/-- The translation of a specification. -/
def fullSpec (t : Bool) (S : SSpec) (e1 e2 e3 e4 e5 e6 : List Fml) : SpecFile :=
  ⟨flatNames S.inputs, flatNames S.outputs, e1 ++ limits S.inputs bitsOf, e2 ++ limits S.outputs bitsOf, e3 ++ limitsT t S.inputs, e4 ++ limitsT t S.outputs, e5, e6⟩

theorem look_flat_now {p q : Pos (flatSpec S).In (flatSpec S).Out} {w : Word} (h : w ∈ flatNames (S.inputs ++ S.outputs)) :
    (flatSpec S).look p q w = (flatSpec S).now p.1 p.2 w := by
  rw [SpecFile.look, if_pos (by rw [flatNames_append] at h; exact h)]

theorem look_flat_next (hok : DeclsOk (S.inputs ++ S.outputs)) {p q : Pos (flatSpec S).In (flatSpec S).Out} (w : Word) :
    (flatSpec S).look p q (prime w) = (flatSpec S).now q.1 q.2 w := by
  rw [SpecFile.look, if_neg (by have := flat_prime hok w; rw [flatNames_append] at this; exact this), show (prime w).dropLast = w by simp [prime]]

theorem now_flat_input {i : (flatSpec S).In} {o : (flatSpec S).Out} {w : Word} (h : w ∈ flatNames S.inputs) : (flatSpec S).now i o w = i ⟨w, h⟩ := by
  rw [SpecFile.now, dif_pos (show w ∈ (flatSpec S).inputs from h)]

theorem now_flat_output (hok : DeclsOk (S.inputs ++ S.outputs)) {i : (flatSpec S).In} {o : (flatSpec S).Out} {w : Word} (h : w ∈ flatNames S.outputs) :
    (flatSpec S).now i o w = o ⟨w, h⟩ := by
  rw [SpecFile.now, dif_neg (show w ∉ (flatSpec S).inputs from flat_apart hok h), dif_pos (show w ∈ (flatSpec S).outputs from h)]

theorem holds_flat_congr {p q p' q' : Pos (flatSpec S).In (flatSpec S).Out} {φ : Fml} (h : ∀ x ∈ φ.vars, (flatSpec S).look p q x = (flatSpec S).look p' q' x) :
    (flatSpec S).holds p q φ ↔ (flatSpec S).holds p' q' φ := by
  rw [SpecFile.holds, SpecFile.holds, Fml.eval_congr φ [] h]

theorem enc_exists {ds : List Decl} (h : DeclsOk ds) (f : {x // x ∈ flatNames ds} → Bool) {ρ : Word → Bool} (hρ : ∀ w (hw : w ∈ flatNames ds), ρ w = f ⟨w, hw⟩) :
    InRange ds ρ ↔ ∃ v : Valuation ds, f = fun x => enc ds v.1 x.1 := by
  constructor
  · intro hr
    obtain ⟨v, hv⟩ := exists_enc h hr
    exact ⟨v, funext fun x => (hρ x.1 x.2).symm.trans (hv x.1 x.2)⟩
  · rintro ⟨v, rfl⟩
    exact (inRange_enc h v).congr (fun w hw => (hρ w hw).symm)

noncomputable def someValue (ds : List Decl) (h : DeclsOk ds) : Valuation ds := by
  classical
  refine ⟨fun x => if x ∈ ds.map Decl.name then (((ds.find? fun d => d.name = x).bind Decl.range).map Prod.fst).getD 0 else 0, fun d hd => ?_, fun x hx => if_neg hx⟩
  beta_reduce
  rw [if_pos (List.mem_map_of_mem hd)]
  have : (ds.find? fun e => e.name = d.name) = some d := by
    cases hf : ds.find? fun e => e.name = d.name with
    | none => rw [List.find?_eq_none] at hf; exact absurd (decide_eq_true rfl) (hf d hd)
    | some e =>
      have h1 := List.mem_of_find?_eq_some hf
      have h2 := List.find?_some hf
      simp only [decide_eq_true_eq] at h2
      rw [h.same h1 hd h2]
  rw [this, Option.bind_some]
  rw [Decl.Ok]
  cases hr : d.range with
  | none => exact .inl rfl
  | some q => exact ⟨le_refl _, (h.range d hd q.1 q.2 hr).2⟩

theorem forall2_mem {α β : Type} {R : α → β → Prop} {l : List α} {l' : List β} (h : List.Forall₂ R l l') :
    (∀ a ∈ l, ∃ b ∈ l', R a b) ∧ ∀ b ∈ l', ∃ a ∈ l, R a b := by
  induction h with
  | nil => simp
  | cons h1 h2 ih =>
    constructor
    · intro a ha
      rcases List.mem_cons.mp ha with rfl | ha
      · exact ⟨_, by simp, h1⟩
      · obtain ⟨b, hb, hr⟩ := ih.1 a ha; exact ⟨b, by simp [hb], hr⟩
    · intro b hb
      rcases List.mem_cons.mp hb with rfl | hb
      · exact ⟨_, by simp, h1⟩
      · obtain ⟨a, ha, hr⟩ := ih.2 b hb; exact ⟨a, by simp [ha], hr⟩

theorem forall2_all {α β : Type} {R : α → β → Prop} {P : α → Prop} {Q : β → Prop} {l : List α} {l' : List β} (h : List.Forall₂ R l l')
    (hR : ∀ a ∈ l, ∀ b, R a b → (Q b ↔ P a)) : (∀ b ∈ l', Q b) ↔ ∀ a ∈ l, P a := by
  constructor
  · intro hq a ha
    obtain ⟨b, hb, hr⟩ := (forall2_mem h).1 a ha
    exact (hR a ha b hr).1 (hq b hb)
  · intro hp b hb
    obtain ⟨a, ha, hr⟩ := (forall2_mem h).2 b hb
    exact (hR a ha b hr).2 (hp a ha)

/-- The game of a specification is encoded in the game of its translation. -/
theorem full_embeds (t : Bool) (hok : DeclsOk (S.inputs ++ S.outputs)) {e1 e2 e3 e4 e5 e6 : List Fml}
    (h1 : List.Forall₂ (Tr S .envInit) S.envInit e1) (h2 : List.Forall₂ (Tr S .sysInit) S.sysInit e2)
    (h3 : List.Forall₂ (Tr S .envTrans) S.envTrans e3) (h4 : List.Forall₂ (Tr S .sysTrans) S.sysTrans e4)
    (h5 : List.Forall₂ (Tr S .envLiveness) S.envLiveness e5) (h6 : List.Forall₂ (Tr S .sysLiveness) S.sysLiveness e6) :
    Embeds S.game (fullSpec t S e1 e2 e3 e4 e5 e6).game (eI S) (eO S) where
  injI := by
    intro i j h
    exact enc_inj hok.left fun w hw => congrFun h ⟨w, hw⟩
  injO := by
    intro i j h
    exact enc_inj hok.right fun w hw => congrFun h ⟨w, hw⟩
  initEnv := by
    intro i'
    change (∀ φ ∈ e1 ++ limits S.inputs bitsOf, (flatSpec S).holds (i', fun _ => false) (i', fun _ => false) φ) ↔ _
    have hI : ∀ w (hw : w ∈ flatNames S.inputs), (flatSpec S).look (i', fun _ => false) (i', fun _ => false) w = i' ⟨w, hw⟩ := fun w hw => by
      rw [look_flat_now (by rw [flatNames_append]; simp [hw]), now_flat_input hw]; rfl
    rw [List.forall_mem_append]
    change _ ∧ (∀ φ ∈ limits S.inputs bitsOf, φ.eval _ [] = some true) ↔ _
    rw [limits_inRange hok.left, enc_exists hok.left i' hI, and_comm, ← exists_and_right]
    refine exists_congr fun i => and_congr_right fun hi => ?_
    have hi : i' = eI S i := hi
    subst hi
    refine forall2_all h1 fun c hc φ htr => ?_
    have key : ∀ o, (flatSpec S).holds (eI S i, fun _ => false) (eI S i, fun _ => false) φ ↔ S.holds (i, o) (i, o) c := by
      intro o
      rw [← htr.holds]
      refine holds_flat_congr fun x hx => ?_
      have hx : x ∈ flatNames S.inputs := htr.vars x hx
      rw [hI x hx, look_flat_now (by rw [flatNames_append]; simp [hx])]
      exact (now_flat_input hx).symm
    constructor
    · exact fun h o => (key o).1 h
    · exact fun h => (key (someValue S.outputs hok.right)).2 (h _)
  initSys := by
    intro i o'
    change (∀ φ ∈ e2 ++ limits S.outputs bitsOf, (flatSpec S).holds (eI S i, o') (eI S i, o') φ) ↔ _
    have hO : ∀ w (hw : w ∈ flatNames S.outputs), (flatSpec S).look (eI S i, o') (eI S i, o') w = o' ⟨w, hw⟩ := fun w hw => by
      rw [look_flat_now (by rw [flatNames_append]; simp [hw]), now_flat_output hok hw]; rfl
    rw [List.forall_mem_append]
    change _ ∧ (∀ φ ∈ limits S.outputs bitsOf, φ.eval _ [] = some true) ↔ _
    rw [limits_inRange hok.right, enc_exists hok.right o' hO, and_comm, ← exists_and_right]
    refine exists_congr fun o => and_congr_right fun ho => ?_
    have ho : o' = eO S o := ho
    subst ho
    exact forall2_all h2 fun c hc φ htr => htr.holds (i, o) (i, o)
  safetyEnv := by
    intro p i'
    change (∀ φ ∈ e3 ++ limitsT t S.inputs, (flatSpec S).holds (embPos (eI S) (eO S) p) (i', fun _ => false) φ) ↔ _
    have hI : ∀ w (hw : w ∈ flatNames S.inputs), (flatSpec S).look (embPos (eI S) (eO S) p) (i', fun _ => false) (prime w) = i' ⟨w, hw⟩ := fun w hw => by
      rw [look_flat_next hok, now_flat_input hw]; rfl
    have hP : InRange S.inputs ((flatSpec S).look (embPos (eI S) (eO S) p) (i', fun _ => false)) := by
      refine (inRange_enc hok.left p.1).congr fun w hw => ?_
      rw [look_flat_now (by rw [flatNames_append]; simp [hw]), now_flat_input hw]
      rfl
    rw [List.forall_mem_append]
    change _ ∧ (∀ φ ∈ limitsT t S.inputs, φ.eval _ [] = some true) ↔ _
    rw [limitsT_inRange hok.left, enc_exists hok.left i' hI, and_iff_right (fun _ => hP), and_comm, ← exists_and_right]
    refine exists_congr fun i => and_congr_right fun hi => ?_
    have hi : i' = eI S i := hi
    subst hi
    refine forall2_all h3 fun c hc φ htr => ?_
    have key : ∀ o, (flatSpec S).holds (embPos (eI S) (eO S) p) (eI S i, fun _ => false) φ ↔ S.holds p (i, o) c := by
      intro o
      rw [← htr.holds]
      refine holds_flat_congr fun x hx => ?_
      have hx := htr.vars x hx
      simp only [usable, List.mem_append] at hx
      rcases hx with hx | hx
      · rw [look_flat_now (by rw [flatNames_append, List.mem_append]; exact hx), look_flat_now (by rw [flatNames_append, List.mem_append]; exact hx)]
      · obtain ⟨y, hy, rfl⟩ := List.mem_map.mp hx
        rw [hI y hy, look_flat_next hok]
        exact (now_flat_input hy).symm
    constructor
    · exact fun h o => (key o).1 h
    · exact fun h => (key (someValue S.outputs hok.right)).2 (h _)
  safetySys := by
    intro p i o'
    change (∀ φ ∈ e4 ++ limitsT t S.outputs, (flatSpec S).holds (embPos (eI S) (eO S) p) (eI S i, o') φ) ↔ _
    have hO : ∀ w (hw : w ∈ flatNames S.outputs), (flatSpec S).look (embPos (eI S) (eO S) p) (eI S i, o') (prime w) = o' ⟨w, hw⟩ := fun w hw => by
      rw [look_flat_next hok, now_flat_output hok hw]; rfl
    have hP : InRange S.outputs ((flatSpec S).look (embPos (eI S) (eO S) p) (eI S i, o')) := by
      refine (inRange_enc hok.right p.2).congr fun w hw => ?_
      rw [look_flat_now (by rw [flatNames_append]; simp [hw]), now_flat_output hok hw]
      rfl
    rw [List.forall_mem_append]
    change _ ∧ (∀ φ ∈ limitsT t S.outputs, φ.eval _ [] = some true) ↔ _
    rw [limitsT_inRange hok.right, enc_exists hok.right o' hO, and_iff_right (fun _ => hP), and_comm, ← exists_and_right]
    refine exists_congr fun o => and_congr_right fun ho => ?_
    have ho : o' = eO S o := ho
    subst ho
    exact forall2_all h4 fun c hc φ htr => htr.holds p (i, o)
  assumptions := by
    change List.Forall₂ _ (S.envLiveness.map _) (e5.map _)
    rw [List.forall₂_map_left_iff, List.forall₂_map_right_iff]
    exact h5.imp fun c φ h p q => h.holds p q
  guarantees := by
    change List.Forall₂ _ (S.sysLiveness.map _) (e6.map _)
    rw [List.forall₂_map_left_iff, List.forall₂_map_right_iff]
    exact h6.imp fun c φ h p q => h.holds p q

end Slugs.Model.Structured
