import Verif.Lemmas.AisyFuzzer
import Verif.Lemmas.AigerText
import Verif.Props.Aiger

/-! The file that the fuzzer writes. -/

namespace Slugs.Model.AisyFuzzer

open Slugs.Spec Slugs.Model.Structured

mutual

theorem random_wf (names : List Word) : ∀ (f : Fml) (k : Nat), f.Random names k → f.Wf k ∧ ∀ x ∈ f.vars, x ∈ names
  | .const _, _, _ => by simp [Fml.Wf, Fml.vars]
  | .var x, _, h => by rw [Fml.Random] at h; simpa [Fml.Wf, Fml.vars] using h
  | .not f, k, h => by
    rw [Fml.Random] at h
    simpa [Fml.Wf, Fml.vars] using random_wf names f k h
  | .bin _ f g, k, h => by
    rw [Fml.Random] at h
    obtain ⟨a1, a2⟩ := random_wf names f k h.2.1
    obtain ⟨b1, b2⟩ := random_wf names g k h.2.2
    refine ⟨by rw [Fml.Wf]; exact ⟨a1, b1⟩, fun x hx => ?_⟩
    rw [Fml.vars] at hx
    exact (List.mem_append.mp hx).elim (a2 x) (b2 x)
  | .buffer fs, k, h => by
    rw [Fml.Random] at h
    obtain ⟨a1, a2⟩ := randomBuffer_wf names fs 0 h.2.2.2
    rw [Fml.Wf, Fml.vars]
    exact ⟨⟨List.length_pos_iff.mp h.2.1, a1⟩, a2⟩
  | .recall i, k, h => by
    rw [Fml.Random] at h
    simpa [Fml.Wf, Fml.vars] using h

theorem randomBuffer_wf (names : List Word) : ∀ (fs : List Fml) (k : Nat), Fml.RandomBuffer names k fs → Fml.WfBuffer k fs ∧ ∀ x ∈ Fml.varsBuffer fs, x ∈ names
  | [], _, _ => by simp [Fml.WfBuffer, Fml.varsBuffer]
  | f :: fs, k, h => by
    rw [Fml.RandomBuffer] at h
    obtain ⟨a1, a2⟩ := random_wf names f k h.1
    obtain ⟨b1, b2⟩ := randomBuffer_wf names fs (k + 1) h.2
    refine ⟨by rw [Fml.WfBuffer]; exact ⟨a1, b1⟩, fun x hx => ?_⟩
    rw [Fml.varsBuffer] at hx
    exact (List.mem_append.mp hx).elim (a2 x) (b2 x)

end

/-- All names. -/
def apNames : List Word := apsInput ++ apsOutput ++ apsInputPost ++ apsOutputPost

theorem names_plain : ∀ x ∈ apNames, (x ≠ [] ∧ ∀ c ∈ x, plainChar c) ∧ x ∉ reserved := by
  unfold plainChar
  decide +kernel

theorem item_of {ws : List Word} (h : ∀ w ∈ ws, w ≠ [] ∧ ∀ c ∈ w, plainChar c) (hne : ws ≠ []) : ItemLine (joinWords ws) := by
  obtain ⟨h1, h2, h3, h4⟩ := joinWords_ends ws h hne
  refine ⟨trim_self (fun c hc => not_space (h2 c hc).1) fun c hc => not_space (h3 c hc).1, h1, fun hc => (h2 _ hc).2.1 rfl, fun hc => (h2 _ hc).2.2 rfl, fun hc => ?_⟩
  rcases h4 _ hc with h | h
  · exact absurd h.1 (by decide)
  · exact absurd h (by decide)

/-- The texts of constraints over some of the names. -/
def Lines (names : List Word) (ls : List (List Char)) : Prop := ∀ l ∈ ls, ∃ f : Fml, f.Random names 0 ∧ l = f.text

theorem several_lines {names : List Word} {depth n : Nat} {ds ds' : Draws} {ls : List (List Char)} (h : several (makeAProperty depth names) n ds = some (ls, ds')) : Lines names ls := by
  refine several_sound (P := fun t => ∃ f : Fml, f.Random names 0 ∧ t = f.text) (fun ds t ds' h => ?_) n ds ls ds' h
  refine make_sound (names := names) depth 0 ds t ds' ?_
  rw [show names ++ recalls 0 = names by simp [recalls]]
  exact h

theorem line_props {names : List Word} (hn : ∀ x ∈ names, x ∈ apNames) {f : Fml} (h : f.Random names 0) (hl : f.text.length < 2 ^ 32) :
    ItemLine f.text ∧ ReadsLine f.text f ∧ f.Wf 0 ∧ ∀ x ∈ f.vars, x ∈ names := by
  obtain ⟨h1, h2⟩ := random_wf names f 0 h
  have hp := fun x hx => names_plain x (hn x (h2 x hx))
  exact ⟨item_of (words_plain f fun x hx => (hp x hx).1) (words_ne f),
    Props.reads_plain f h1 (fun x hx => ⟨⟨(hp x hx).1.1, fun c hc => not_space ((hp x hx).1.2 c hc).1⟩, (hp x hx).2⟩) hl, h1, h2⟩

theorem sub_all : (∀ x ∈ apsInput, x ∈ apNames) ∧ (∀ x ∈ apsOutput, x ∈ apNames) ∧ (∀ x ∈ apsInput ++ apsOutput ++ apsInputPost, x ∈ apNames) := by decide +kernel

/-- The formulas in the lines. -/
theorem lines_formulas {names : List Word} {ls : List (List Char)} (h : Lines names ls) : ∃ fs : List Fml, ls = fs.map Fml.text ∧ ∀ f ∈ fs, f.Random names 0 := by
  induction ls with
  | nil => exact ⟨[], rfl, by simp⟩
  | cons l ls ih =>
    obtain ⟨f, hf, rfl⟩ := h l (by simp)
    obtain ⟨fs, rfl, hfs⟩ := ih fun x hx => h x (by simp [hx])
    exact ⟨f :: fs, rfl, by simpa using ⟨hf, hfs⟩⟩

/-- The specification in the file. -/
def specOf (envInit envTrans sysInit sysTrans : List Fml) : SpecFile :=
  ⟨apsInput, apsOutput, envInit, sysInit, envTrans, sysTrans, [], []⟩

theorem items_order (J : Core.Categories) (h1 : J .envLiveness = []) (h2 : J .sysLiveness = []) (s : Section) : itemsOf s (Core.sectionItems order J) = J s := by
  by_cases hs : s ∈ order
  · exact Core.itemsOf_sections (by decide) hs
  · have : itemsOf s (Core.sectionItems order J) = [] := by
      rw [itemsOf, List.filter_eq_nil_iff.mpr, List.map_nil]
      intro p hp
      obtain ⟨t, ht, hp⟩ := List.mem_flatMap.mp hp
      obtain ⟨l, _, rfl⟩ := List.mem_map.mp hp
      simp only [decide_eq_true_eq]
      rintro rfl
      exact hs ht
    rw [this]
    cases s <;> first | exact h1.symm | exact h2.symm | exact absurd (by decide) hs

theorem file_of {e1 e2 s1 s2 : List Fml} (h1 : ∀ f ∈ e1, f.Random apsInput 0) (h2 : ∀ f ∈ e2, f.Random (apsInput ++ apsOutput ++ apsInputPost) 0)
    (h3 : ∀ f ∈ s1, f.Random apsOutput 0) (h4 : ∀ f ∈ s2, f.Random apNames 0) {cap : Nat} (h32 : cap < 2 ^ 32)
    (hl : ∀ f ∈ e1 ++ e2 ++ s1 ++ s2, f.text.length ≤ cap) :
    ProperFile cap (slugsFile (propertiesOf (e1.map Fml.text) (e2.map Fml.text) (s1.map Fml.text) (s2.map Fml.text))) ∧
    Denotes (slugsFile (propertiesOf (e1.map Fml.text) (e2.map Fml.text) (s1.map Fml.text) (s2.map Fml.text))) (specOf e1 e2 s1 s2) ∧
    WrittenPlainly (slugsFile (propertiesOf (e1.map Fml.text) (e2.map Fml.text) (s1.map Fml.text) (s2.map Fml.text))) (specOf e1 e2 s1 s2) := by
  obtain ⟨a1, a2, a3⟩ := sub_all
  have p1 := fun f hf => line_props a1 (h1 f hf) (by have := hl f (by simp [hf]); omega)
  have p2 := fun f hf => line_props a3 (h2 f hf) (by have := hl f (by simp [hf]); omega)
  have p3 := fun f hf => line_props a2 (h3 f hf) (by have := hl f (by simp [hf]); omega)
  have p4 := fun f hf => line_props (fun _ h => h) (h4 f hf) (by have := hl f (by simp [hf]); omega)
  have hnames : ∀ x ∈ apNames, ItemLine x := fun x hx => item_of (ws := [x]) (by simpa using (names_plain x hx).1) (by simp)
  have hitems := items_order (propertiesOf (e1.map Fml.text) (e2.map Fml.text) (s1.map Fml.text) (s2.map Fml.text)) rfl rfl
  have good : Core.GoodLines cap (propertiesOf (e1.map Fml.text) (e2.map Fml.text) (s1.map Fml.text) (s2.map Fml.text)) := by
    refine ⟨fun s l hl => ?_, show (apsInput ++ apsOutput ++ apsInput.map prime ++ apsOutput.map prime).Nodup by decide +kernel, fun s n1 n2 l hls => ?_⟩
    · cases s <;> simp only [propertiesOf, List.mem_map, List.not_mem_nil] at hl
      · exact hnames l (a1 l hl)
      · exact hnames l (a2 l hl)
      · obtain ⟨f, hf, rfl⟩ := hl; exact (p1 f hf).1
      · obtain ⟨f, hf, rfl⟩ := hl; exact (p3 f hf).1
      · obtain ⟨f, hf, rfl⟩ := hl; exact (p2 f hf).1
      · obtain ⟨f, hf, rfl⟩ := hl; exact (p4 f hf).1
    · cases s <;> simp only [propertiesOf, List.mem_map, List.not_mem_nil] at hls
      · exact absurd rfl n1
      · exact absurd rfl n2
      · obtain ⟨f, hf, rfl⟩ := hls
        exact ⟨hl f (by simp [hf]), f, (p1 f hf).2.1, (p1 f hf).2.2.1, (p1 f hf).2.2.2⟩
      · obtain ⟨f, hf, rfl⟩ := hls
        exact ⟨hl f (by simp [hf]), f, (p3 f hf).2.1, (p3 f hf).2.2.1, fun x hx => List.mem_append_right _ ((p3 f hf).2.2.2 x hx)⟩
      · obtain ⟨f, hf, rfl⟩ := hls
        exact ⟨hl f (by simp [hf]), f, (p2 f hf).2.1, (p2 f hf).2.2.1, (p2 f hf).2.2.2⟩
      · obtain ⟨f, hf, rfl⟩ := hls
        exact ⟨hl f (by simp [hf]), f, (p4 f hf).2.1, (p4 f hf).2.2.1, (p4 f hf).2.2.2⟩
  have hc : Content none (splitLines (slugsFile (propertiesOf (e1.map Fml.text) (e2.map Fml.text) (s1.map Fml.text) (s2.map Fml.text)))) _ :=
    Core.sections_content (gap := [[]]) (by simp) fun s _ => good.line s
  have rd : ∀ fs : List Fml, (∀ f ∈ fs, ReadsLine f.text f) → List.Forall₂ ReadsLine (fs.map Fml.text) fs := by
    intro fs h
    induction fs with
    | nil => exact .nil
    | cons f fs ih => exact .cons (h f (by simp)) (ih fun x hx => h x (by simp [hx]))
  refine ⟨good.properFileOf (by simp) hitems ⟨[.envInit, .envTrans, .sysInit, .sysTrans], rfl, by decide, by decide⟩, ⟨_, hc, ?_⟩, ⟨_, hc, ?_⟩⟩
  · simp only [hitems]
    exact ⟨rfl, rfl, rd _ fun f hf => (p1 f hf).2.1, rd _ fun f hf => (p3 f hf).2.1, rd _ fun f hf => (p2 f hf).2.1, rd _ fun f hf => (p4 f hf).2.1, .nil, .nil⟩
  · simp only [hitems]
    exact ⟨rfl, rfl, rfl, rfl⟩

theorem generate_some {depth : Nat} {ds ds' : Draws} {c : Core.Categories} (h : generate depth ds = some (c, ds')) :
    ∃ e1 e2 s1 s2 : List Fml, c = propertiesOf (e1.map Fml.text) (e2.map Fml.text) (s1.map Fml.text) (s2.map Fml.text) ∧ (∀ f ∈ e1, f.Random apsInput 0) ∧
      (∀ f ∈ e2, f.Random (apsInput ++ apsOutput ++ apsInputPost) 0) ∧ (∀ f ∈ s1, f.Random apsOutput 0) ∧ ∀ f ∈ s2, f.Random apNames 0 := by
  rw [generate] at h
  split at h
  · cases h
  · rename_i e2 ds1 h1
    split at h
    · cases h
    · rename_i e1 ds2 h2
      split at h
      · cases h
      · rename_i s1 ds3 h3
        split at h
        · cases h
        · rename_i s2 ds4 h4
          cases h
          obtain ⟨e2, rfl, k2⟩ := lines_formulas (several_lines h1)
          obtain ⟨e1, rfl, k1⟩ := lines_formulas (several_lines h2)
          obtain ⟨s1, rfl, k3⟩ := lines_formulas (several_lines h3)
          obtain ⟨s2, rfl, k4⟩ := lines_formulas (several_lines h4)
          exact ⟨e1, e2, s1, s2, rfl, k1, k2, k3, k4⟩

/-! ### Every such file can be generated -/

theorem elements_shrinks {gen : List (List Char) → Draws → Option (List Char × Draws)} (hg : ∀ aps ds t ds', gen aps ds = some (t, ds') → ds'.length ≤ ds.length) :
    ∀ n i aps all ds t ds', elements gen n i aps all ds = some (t, ds') → ds'.length ≤ ds.length
  | 0, _, _, _, _, _, _, h => by cases h; exact Nat.le_refl _
  | n + 1, i, aps, all, ds, t, ds', h => by
    rw [elements] at h
    split at h
    · cases h
    · rename_i t1 ds1 h1
      exact Nat.le_trans (elements_shrinks hg n _ _ _ _ _ _ h) (hg _ _ _ _ h1)

theorem choice_shrinks {A : Type} {l : List A} {ds ds' : Draws} {a : A} (h : choice l ds = some (a, ds')) : ds'.length ≤ ds.length := by
  cases ds with
  | nil => cases h
  | cons d ds =>
    rw [choice, Option.map_eq_some_iff] at h
    obtain ⟨b, _, he⟩ := h
    cases he
    simp

theorem make_shrinks : ∀ depth aps ds t ds', makeAProperty depth aps ds = some (t, ds') → ds'.length ≤ ds.length
  | 0, _, _, _, _, h => by cases h
  | depth + 1, aps, ds, t, ds', h => by
    have ih := make_shrinks depth
    rw [makeAProperty] at h
    split at h
    · cases h
    · rename_i op ds1 h1
      refine Nat.le_trans ?_ (choice_shrinks h1)
      split at h
      · split at h
        · cases h
        · rename_i h2; cases h; exact ih _ _ _ _ h2
      · split at h
        · split at h
          · cases h
          · rename_i h2
            split at h
            · cases h
            · rename_i h3; cases h; exact Nat.le_trans (ih _ _ _ _ h3) (ih _ _ _ _ h2)
        · split at h
          · exact choice_shrinks h
          · split at h
            · split at h
              · cases h
              · rename_i n ds2 h2
                refine Nat.le_trans (elements_shrinks ih _ _ _ _ _ _ _ h) ?_
                cases ds1 with
                | nil => cases h2
                | cons d ds1 => cases h2; simp
            · cases h; exact Nat.le_refl _

theorem several_complete {names : List Word} (hq : txt!"? 0" ∉ names) : ∀ fs : List Fml, (∀ f ∈ fs, f.Random names 0) → ∃ D, ∀ depth, D ≤ depth → ∀ rest, ∃ ds,
    fs.length + 1 + rest.length ≤ ds.length ∧ ∀ n, fs.length + 1 ≤ n → several (makeAProperty depth names) n ds = some (fs.map Fml.text, rest)
  | [], _ => ⟨0, fun depth _ rest => ⟨0 :: rest, by simp; omega, fun n hn => by
      obtain ⟨n, rfl⟩ := Nat.exists_eq_add_of_le' hn
      simp [several, coin]⟩⟩
  | f :: fs, h => by
    obtain ⟨D2, hD2⟩ := several_complete hq fs fun x hx => h x (by simp [hx])
    obtain ⟨D1, hD1⟩ := make_complete hq f 0 (h f (by simp))
    refine ⟨max D1 D2, fun depth hd rest => ?_⟩
    obtain ⟨ds2, hl2, hs2⟩ := hD2 depth (by omega) rest
    obtain ⟨ds1, hs1⟩ := hD1 depth (by omega) ds2
    rw [show names ++ recalls 0 = names by simp [recalls]] at hs1
    have := make_shrinks _ _ _ _ _ hs1
    refine ⟨1 :: ds1, by simp; omega, fun n hn => ?_⟩
    obtain ⟨n, rfl⟩ := Nat.exists_eq_add_of_le' (Nat.le_trans (by simp) hn : 1 ≤ n)
    rw [several]
    simp only [coin, decide_true, Nat.reduceMod, hs1]
    rw [hs2 n (by simp only [List.length_cons] at hn; omega)]
    rfl

theorem generate_complete {e1 e2 s1 s2 : List Fml} (h1 : ∀ f ∈ e1, f.Random apsInput 0) (h2 : ∀ f ∈ e2, f.Random (apsInput ++ apsOutput ++ apsInputPost) 0)
    (h3 : ∀ f ∈ s1, f.Random apsOutput 0) (h4 : ∀ f ∈ s2, f.Random apNames 0) :
    ∃ D, ∀ depth, D ≤ depth → ∀ rest, ∃ ds, generate depth ds = some (propertiesOf (e1.map Fml.text) (e2.map Fml.text) (s1.map Fml.text) (s2.map Fml.text), rest) := by
  obtain ⟨D1, k1⟩ := several_complete (by decide +kernel) e1 h1
  obtain ⟨D2, k2⟩ := several_complete (by decide +kernel) e2 h2
  obtain ⟨D3, k3⟩ := several_complete (by decide +kernel) s1 h3
  obtain ⟨D4, k4⟩ := several_complete (by decide +kernel) s2 h4
  refine ⟨max (max D1 D2) (max D3 D4), fun depth hd rest => ?_⟩
  obtain ⟨d4, l4, m4⟩ := k4 depth (by omega) rest
  obtain ⟨d3, l3, m3⟩ := k3 depth (by omega) d4
  obtain ⟨d1, l1, m1⟩ := k1 depth (by omega) d3
  obtain ⟨d2, l2, m2⟩ := k2 depth (by omega) d1
  refine ⟨d2, ?_⟩
  rw [generate, m2 _ (by omega)]
  dsimp only
  rw [m1 _ (by omega)]
  dsimp only
  rw [m3 _ (by omega)]
  dsimp only
  have := m4 (d4.length + 1) (by omega)
  rw [apNames] at this
  rw [this]

end Slugs.Model.AisyFuzzer
