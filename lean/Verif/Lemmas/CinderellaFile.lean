import Verif.Lemmas.CinderellaText
import Verif.Lemmas.StructuredOutput
import Verif.Lemmas.StuckAt

/-! What the file with the benchmark denotes (C86). -/

namespace Slugs.Model.Cinderella

open Slugs.Spec Slugs.Spec.Structured Slugs.Model.Structured

/-! ### Lines -/

def okChar (c : Char) : Bool := c != '\n' && c != '\r'

theorem all_strNat (k : Nat) : (strNat k).all okChar = true := by
  rw [List.all_eq_true]
  intro c hc
  have := strNat_digits k c hc
  rw [okChar, Bool.and_eq_true, bne_iff_ne, bne_iff_ne]
  constructor <;> rintro rfl <;> revert this <;> decide

structure GoodLine (l : List Char) : Prop where
  ends : l.all okChar = true
  head : ∃ c, l.head? = some c ∧ pySpace c = false ∧ c ≠ '#' ∧ c ≠ '['
  last : ∀ c, l.getLast? = some c → pySpace c = false

theorem last_append {a b : List Char} (hb : b ≠ []) (h : ∀ c, b.getLast? = some c → pySpace c = false) : ∀ c, (a ++ b).getLast? = some c → pySpace c = false := by
  intro c hc
  apply h c
  rw [List.getLast?_append] at hc
  cases hl : b.getLast? with
  | none => exact absurd (List.getLast?_eq_none_iff.mp hl) hb
  | some d => rw [hl] at hc; simpa using hc

theorem last_cons {a : Char} {b : List Char} (hb : b ≠ []) (h : ∀ c, b.getLast? = some c → pySpace c = false) : ∀ c, (a :: b).getLast? = some c → pySpace c = false :=
  last_append (a := [a]) hb h

theorem last_strNat (k : Nat) : ∀ c, (strNat k).getLast? = some c → pySpace c = false :=
  fun c hc => digit_not_py (strNat_digits k c (List.mem_of_getLast? hc))

theorem last_prime : ∀ c, (txt!"'").getLast? = some c → pySpace c = false := by
  intro c hc
  simp at hc
  rw [← hc]; decide

theorem GoodLine.trim {l : List Char} (h : GoodLine l) : pyTrim l = l := by
  obtain ⟨c, hc, hs, _⟩ := h.head
  refine pyTrim_self ?_ h.last
  intro d hd
  rw [hc] at hd
  cases hd
  exact hs

theorem content_items {s : Section} {rest : List (List Char)} {items : List (Section × List Char)} (h : SContent (some s) rest items) :
    ∀ {L : List (List Char)}, (∀ l ∈ L, GoodLine l) → SContent (some s) (L ++ rest) (L.map (fun l => (s, l)) ++ items)
  | [], _ => h
  | l :: L, hL => by
    rw [List.forall_mem_cons] at hL
    obtain ⟨c, hc, _, h1, h2⟩ := hL.1.head
    have := SContent.item (s := s) (l := l) (by rw [hL.1.trim]; rintro rfl; cases hc) (by rw [hL.1.trim, hc]; simpa using h1) (by rw [hL.1.trim, hc]; simpa using h2)
      (content_items h hL.2)
    rwa [hL.1.trim] at this

theorem joined_lines : ∀ {L : List (List Char)}, L ≠ [] → ∀ (rest : List Char), joined txt!"\n" L ++ '\n' :: rest = printLines L ++ rest
  | [], h, _ => absurd rfl h
  | [a], _, rest => by simp [joined, printLines]
  | a :: b :: L, _, rest => by
    have := joined_lines (L := b :: L) (by simp) rest
    rw [joined, printLines, List.append_assoc, List.append_assoc, this]
    simp

theorem printLines_append : ∀ (a b : List (List Char)), printLines (a ++ b) = printLines a ++ printLines b
  | [], _ => rfl
  | l :: a, b => by rw [List.cons_append, printLines, printLines, printLines_append a b]; simp

theorem printLines_chars {L : List (List Char)} (h : ∀ l ∈ L, l.all okChar = true) : '\r' ∉ printLines L := by
  induction L with
  | nil => simp [printLines]
  | cons l L ih =>
    rw [List.forall_mem_cons] at h
    rw [printLines, List.mem_append, List.mem_cons, not_or, not_or]
    refine ⟨fun hm => ?_, by decide, ih h.2⟩
    have := List.all_eq_true.mp h.1 _ hm
    revert this; decide

theorem okChar_line {l : List Char} (h : l.all okChar = true) : '\n' ∉ l := by
  intro hm
  have := List.all_eq_true.mp h _ hm
  revert this; decide

/-! ### The lines of the benchmark -/

variable (n power capacity units : Nat)

def eLine : List Char := txt!"e:0..." ++ strNat (n - 1)

def fileLines : List (List Char) :=
  txt!"[INPUT]" :: (inLines n units ++ ([] :: txt!"[OUTPUT]" :: (outLines n capacity ++ ([eLine n] ++ ([] :: txt!"[ENV_TRANS]" :: ([restriction n units] ++
    ([] :: txt!"[ENV_INIT]" :: (envInit n ++ ([] :: txt!"[SYS_INIT]" :: (sysInit n ++ ([] :: txt!"[SYS_TRANS]" :: (sysTransA n power ++ (sysTransB n power ++ [[]]))))))))))))) 

theorem map_ne {n : Nat} (hn : 1 ≤ n) (f : Nat → List Char) : (List.range n).map f ≠ [] := by
  intro h
  rw [List.map_eq_nil_iff, List.range_eq_nil] at h
  omega

theorem benchmark_lines (hn : 1 ≤ n) : benchmark n power capacity units = printLines (fileLines n power capacity units) := by
  have e1 : ∀ rest, joined txt!"\n" (inLines n units) ++ '\n' :: rest = _ := joined_lines (map_ne hn _)
  have e2 : ∀ rest, joined txt!"\n" (outLines n capacity) ++ '\n' :: rest = _ := joined_lines (map_ne hn _)
  have e3 : ∀ rest, joined txt!"\n" (envInit n) ++ '\n' :: rest = _ := joined_lines (map_ne hn _)
  have e4 : ∀ rest, joined txt!"\n" (sysInit n) ++ '\n' :: rest = _ := joined_lines (map_ne hn _)
  have e5 : ∀ rest, joined txt!"\n" (sysTransA n power) ++ '\n' :: rest = _ := joined_lines (map_ne hn _)
  have e6 : ∀ rest, joined txt!"\n" (sysTransB n power) ++ '\n' :: rest = _ := joined_lines (map_ne hn _)
  unfold benchmark fileLines eLine
  rw [strInt_pred hn]
  simp only [printLines_append, printLines, List.cons_append, List.nil_append, e1, e2, e3, e4, e5, e6, List.append_assoc]

theorem good_in {l : List Char} (h : l ∈ inLines n units) : GoodLine l := by
  obtain ⟨i, _, rfl⟩ := List.mem_map.mp h
  exact ⟨by simp [xName, all_strNat, okChar], ⟨'x', rfl, by decide, by decide, by decide⟩,
    last_append (by simp) (last_append (strNat_ne _) (last_strNat _))⟩

theorem good_out {l : List Char} (h : l ∈ outLines n capacity) : GoodLine l := by
  obtain ⟨i, _, rfl⟩ := List.mem_map.mp h
  exact ⟨by simp [yName, all_strNat, okChar], ⟨'y', rfl, by decide, by decide, by decide⟩,
    last_append (by simp) (last_append (strNat_ne _) (last_strNat _))⟩

theorem good_e : GoodLine (eLine n) :=
  ⟨by simp [eLine, all_strNat, okChar], ⟨'e', rfl, by decide, by decide, by decide⟩, last_append (strNat_ne _) (last_strNat _)⟩

theorem joined_all (f : Nat → List Char) (hf : ∀ i, (f i).all okChar = true) : ∀ (is : List Nat), (joined txt!"+" (is.map f)).all okChar = true
  | [] => rfl
  | [a] => hf a
  | a :: b :: is => by
    have := joined_all f hf (b :: is)
    rw [List.map_cons] at this
    rw [List.map_cons, List.map_cons, joined, List.all_append, List.all_append, this, hf]
    decide

theorem joined_head (c : Char) (f : Nat → List Char) (i : Nat) (is : List Nat) : (joined txt!"+" ((i :: is).map fun i => c :: f i)).head? = some c := by
  cases is <;> simp [joined]

theorem good_restriction (hn : 1 ≤ n) : GoodLine (restriction n units) := by
  refine ⟨?_, ⟨'x', ?_, by decide, by decide, by decide⟩, last_append (by simp) (last_append (strNat_ne _) (last_strNat _))⟩
  · rw [restriction, List.all_append, joined_all]
    · simp [all_strNat, okChar]
    · intro i; simp [xName, all_strNat, okChar]
  · rw [restriction, List.head?_append]
    cases hl : List.range n with
    | nil => rw [List.range_eq_nil] at hl; omega
    | cons i is =>
      have := joined_head 'x' (fun i => strNat i ++ txt!"'") i is
      rw [show (fun i => xName i ++ txt!"'") = fun i => 'x' :: (strNat i ++ txt!"'") from rfl, this]
      rfl

theorem good_envInit {l : List Char} (h : l ∈ envInit n) : GoodLine l := by
  obtain ⟨i, _, rfl⟩ := List.mem_map.mp h
  exact ⟨by simp [xName, all_strNat, okChar], ⟨'x', rfl, by decide, by decide, by decide⟩,
    last_append (by simp) (by intro c hc; simp at hc; rw [← hc]; decide)⟩

theorem good_sysInit {l : List Char} (h : l ∈ sysInit n) : GoodLine l := by
  obtain ⟨i, _, rfl⟩ := List.mem_map.mp h
  exact ⟨by simp [yName, all_strNat, okChar], ⟨'y', rfl, by decide, by decide, by decide⟩,
    last_append (by simp) (by intro c hc; simp at hc; rw [← hc]; decide)⟩

theorem all_emptied (hp : 1 ≤ power) (i : Nat) : (emptiedText n power i).all okChar = true := by
  unfold emptiedText
  rw [strInt_pred hp]
  simp [all_strNat, okChar]

theorem good_transA (hp : 1 ≤ power) {l : List Char} (h : l ∈ sysTransA n power) : GoodLine l := by
  obtain ⟨i, _, rfl⟩ := List.mem_map.mp h
  refine ⟨?_, ⟨'!', rfl, by decide, by decide, by decide⟩, ?_⟩
  · have := all_emptied n power hp i
    rw [List.all_cons, List.all_append, this]
    simp [xName, yName, all_strNat, okChar]
  · exact last_cons (by simp) (last_append (by simp) (last_append (by simp) (last_append (by simp) (last_append (by simp) (last_append (by simp)
      (last_append (by simp) (last_append (by simp) last_prime)))))))

theorem good_transB (hp : 1 ≤ power) {l : List Char} (h : l ∈ sysTransB n power) : GoodLine l := by
  obtain ⟨i, _, rfl⟩ := List.mem_map.mp h
  refine ⟨?_, ⟨'(', rfl, by decide, by decide, by decide⟩, ?_⟩
  · have := all_emptied n power hp i
    rw [List.all_append, this]
    simp [xName, yName, all_strNat, okChar]
  · exact last_append (by simp) (last_append (by simp) (last_append (by simp) (last_append (by simp) (last_append (by simp) last_prime))))

def fileItems : List (Section × List Char) :=
  (inLines n units).map (fun l => (Section.input, l)) ++ ((outLines n capacity).map (fun l => (Section.output, l)) ++ ([eLine n].map (fun l => (Section.output, l)) ++
    ([restriction n units].map (fun l => (Section.envTrans, l)) ++ ((envInit n).map (fun l => (Section.envInit, l)) ++ ((sysInit n).map (fun l => (Section.sysInit, l)) ++
    ((sysTransA n power).map (fun l => (Section.sysTrans, l)) ++ ((sysTransB n power).map (fun l => (Section.sysTrans, l)) ++ [])))))))

theorem file_content (hn : 1 ≤ n) (hp : 1 ≤ power) : SContent none (fileLines n power capacity units) (fileItems n power capacity units) := by
  refine .header .input (by decide) (content_items ?_ fun l h => good_in n units h)
  refine .skip (.inl rfl) (.header .output (by decide) (content_items (content_items ?_ ?_) fun l h => good_out n capacity h))
  · refine .skip (.inl rfl) (.header .envTrans (by decide) (content_items ?_ ?_))
    · refine .skip (.inl rfl) (.header .envInit (by decide) (content_items ?_ fun l h => good_envInit n h))
      refine .skip (.inl rfl) (.header .sysInit (by decide) (content_items ?_ fun l h => good_sysInit n h))
      refine .skip (.inl rfl) (.header .sysTrans (by decide) (content_items (content_items ?_ fun l h => good_transB n power hp h) fun l h => good_transA n power hp h))
      exact .skip (.inl rfl) .nil
    · intro l h; rw [List.mem_singleton.mp h]; exact good_restriction n units hn
  · intro l h; rw [List.mem_singleton.mp h]; exact good_e n

theorem file_ok (hn : 1 ≤ n) (hp : 1 ≤ power) : ∀ l ∈ fileLines n power capacity units, l.all okChar = true := by
  intro l h
  simp only [fileLines, List.mem_cons, List.mem_append, List.not_mem_nil, or_false] at h
  rcases h with rfl | h | rfl | rfl | h | rfl | rfl | rfl | rfl | rfl | rfl | h | rfl | rfl | h | rfl | rfl | h | h | rfl
  · decide
  · exact (good_in n units h).ends
  · rfl
  · decide
  · exact (good_out n capacity h).ends
  · exact (good_e n).ends
  · rfl
  · decide
  · exact (good_restriction n units hn).ends
  · rfl
  · decide
  · exact (good_envInit n h).ends
  · rfl
  · decide
  · exact (good_sysInit n h).ends
  · rfl
  · decide
  · exact (good_transA n power hp h).ends
  · exact (good_transB n power hp h).ends
  · rfl

theorem benchmark_split (hn : 1 ≤ n) (hp : 1 ≤ power) : splitLines (universal (benchmark n power capacity units)) = fileLines n power capacity units := by
  have ho := file_ok n power capacity units hn hp
  rw [benchmark_lines n power capacity units hn, StuckAt.universal_self (printLines_chars ho), splitLines_printLines _ fun l h => okChar_line (ho l h)]

/-! ### The specification -/

def theSpec : SSpec where
  inputs := (List.range n).map fun i => ⟨xName i, some (0, (units : Int))⟩
  outputs := (List.range n).map (fun i => ⟨yName i, some (0, (capacity : Int))⟩) ++ [⟨txt!"e", some (0, ((n - 1 : Nat) : Int))⟩]
  envInit := (List.range n).map fun i => .infix (zeroFml (xName i))
  sysInit := (List.range n).map fun i => .infix (zeroFml (yName i))
  envTrans := [.infix (sumFml units (List.range n))]
  sysTrans := (List.range n).map (fun i => .infix (keepFml n power i)) ++ (List.range n).map fun i => .infix (emptyFml n power i)
  envLiveness := []
  sysLiveness := []

theorem itemsOf_tagged (s t : Section) (L : List (List Char)) : itemsOf s (L.map fun l => (t, l)) = if t = s then L else [] := by
  rw [itemsOf, List.filter_map]
  split
  · rename_i h; subst h
    simp [Function.comp_def]
  · rename_i h
    simp [Function.comp_def, h]

theorem items_append (s : Section) (a b : List (Section × List Char)) : itemsOf s (a ++ b) = itemsOf s a ++ itemsOf s b := by
  simp [itemsOf]

theorem forall2_range {A : Type} {R : List Char → A → Prop} {f : Nat → List Char} {g : Nat → A} (h : ∀ i, R (f i) (g i)) :
    ∀ (is : List Nat), List.Forall₂ R (is.map f) (is.map g)
  | [] => .nil
  | i :: is => .cons (h i) (forall2_range h is)

theorem name_tidy {c : Char} (hc : nameStart c = true) (h1 : c ≠ '\'') (h2 : c ≠ '@') (i : Nat) (hk : c :: strNat i ∉ Slugs.Spec.Structured.keywords) : Tidy (c :: strNat i) := by
  refine ⟨⟨c, rfl, hc⟩, ?_, ?_, ?_, hk⟩
  · intro d hd
    rcases List.mem_cons.mp hd with rfl | hd
    · simp [nameChar, hc]
    · exact digit_nameChar (strNat_digits i d hd)
  · intro hm
    rcases List.mem_cons.mp hm with h | h
    · exact h1 h.symm
    · have := strNat_digits i _ h; revert this; decide
  · intro hm
    rcases List.mem_cons.mp hm with h | h
    · exact h2 h.symm
    · have := strNat_digits i _ h; revert this; decide

theorem x_tidy (i : Nat) : Tidy (xName i) := name_tidy (by decide) (by decide) (by decide) i (x_keyword _)
theorem y_tidy (i : Nat) : Tidy (yName i) := name_tidy (by decide) (by decide) (by decide) i (y_keyword _)
theorem e_tidy : Tidy txt!"e" := ⟨⟨'e', rfl, by decide⟩, by decide, by decide, by decide, by decide⟩

theorem isNumber_strNat (k : Nat) : IsNumber (strNat k) k := ⟨strNat k, strNat_ne k, strNat_digits k, .inl ⟨rfl, by rw [show digitsVal (strNat k) = k from digitsVal_decimal k]⟩⟩

theorem isDecl_range {w : Word} (h : Tidy w) (k : Nat) : IsDecl (w ++ (txt!":0..." ++ strNat k)) ⟨w, some (0, (k : Int))⟩ := by
  have := IsDecl.num (x := w) (s1 := []) (s2 := []) (s3 := []) (s4 := []) (a := txt!"0") (b := strNat k) (lo := 0) (hi := (k : Int)) h (by simp)
    (isNumber_strNat 0) (isNumber_strNat k) (by simp) (by simp)
  simpa using this

theorem theSpec_bools : (theSpec n power capacity units).bools = [] := by
  simp [SSpec.bools, SSpec.boolsOf, theSpec, List.filter_append, List.filter_map, Function.comp_def]

theorem strNat_inj {i j : Nat} (h : strNat i = strNat j) : i = j := by
  have := congrArg digitsVal h
  rwa [show digitsVal (strNat i) = i from digitsVal_decimal i, show digitsVal (strNat j) = j from digitsVal_decimal j] at this

theorem x_inj : Function.Injective xName := fun i j h => strNat_inj (by simpa [xName] using h)
theorem y_inj : Function.Injective yName := fun i j h => strNat_inj (by simpa [yName] using h)

theorem theSpec_inputs : (theSpec n power capacity units).inputNames = (List.range n).map xName := by
  simp [SSpec.inputNames, theSpec, Function.comp_def]

theorem theSpec_outputs : (theSpec n power capacity units).outputNames = (List.range n).map yName ++ [txt!"e"] := by
  simp [SSpec.outputNames, theSpec, Function.comp_def]

theorem theSpec_nodup : (theSpec n power capacity units).names.Nodup := by
  rw [SSpec.names, theSpec_inputs, theSpec_outputs, List.nodup_append, List.nodup_append]
  refine ⟨List.nodup_range.map x_inj, ⟨List.nodup_range.map y_inj, by simp, ?_⟩, ?_⟩
  · intro a ha b hb
    obtain ⟨i, _, rfl⟩ := List.mem_map.mp ha
    rw [List.mem_singleton.mp hb]
    simp [yName]
  · intro a ha b hb
    obtain ⟨i, _, rfl⟩ := List.mem_map.mp ha
    rcases List.mem_append.mp hb with hb | hb
    · obtain ⟨j, _, rfl⟩ := List.mem_map.mp hb
      simp [xName, yName]
    · rw [List.mem_singleton.mp hb]
      simp [xName]

theorem theSpec_decls : DeclsOk ((theSpec n power capacity units).inputs ++ (theSpec n power capacity units).outputs) where
  tidy := by
    intro d hd
    simp only [theSpec, List.mem_append, List.mem_map, List.mem_singleton] at hd
    rcases hd with ⟨i, _, rfl⟩ | ⟨i, _, rfl⟩ | rfl
    · exact x_tidy i
    · exact y_tidy i
    · exact e_tidy
  nodup := by
    rw [List.map_append]
    exact theSpec_nodup n power capacity units
  range := by
    intro d hd lo hi hr
    simp only [theSpec, List.mem_append, List.mem_map, List.mem_singleton] at hd
    rcases hd with ⟨i, _, rfl⟩ | ⟨i, _, rfl⟩ | rfl <;> cases hr <;> simp

theorem bounds_of {S : SSpec} (hok : DeclsOk (S.inputs ++ S.outputs)) {d : Decl} (hd : d ∈ S.inputs ++ S.outputs) : S.bounds d.name = d.range := by
  rw [SSpec.bounds]
  cases hf : (S.inputs ++ S.outputs).find? fun e => e.name = d.name with
  | none =>
    have := List.find?_eq_none.mp hf d hd
    simp at this
  | some e =>
    have h1 := List.find?_some hf
    rw [hok.same (List.mem_of_find?_eq_some hf) hd (by simpa using h1)]
    rfl

theorem bounds_x {i : Nat} (hi : i < n) : (theSpec n power capacity units).bounds (xName i) = some (0, (units : Int)) :=
  bounds_of (theSpec_decls n power capacity units) (d := ⟨xName i, some (0, (units : Int))⟩)
    (List.mem_append_left _ (List.mem_map.mpr ⟨i, List.mem_range.mpr hi, rfl⟩))

theorem bounds_y {i : Nat} (hi : i < n) : (theSpec n power capacity units).bounds (yName i) = some (0, (capacity : Int)) :=
  bounds_of (theSpec_decls n power capacity units) (d := ⟨yName i, some (0, (capacity : Int))⟩)
    (List.mem_append_right _ (List.mem_append_left _ (List.mem_map.mpr ⟨i, List.mem_range.mpr hi, rfl⟩)))

theorem bounds_e : (theSpec n power capacity units).bounds txt!"e" = some (0, ((n - 1 : Nat) : Int)) :=
  bounds_of (theSpec_decls n power capacity units) (d := ⟨txt!"e", some (0, ((n - 1 : Nat) : Int))⟩)
    (List.mem_append_right _ (List.mem_append_right _ (List.mem_singleton.mpr rfl)))

/-- A number for the current value of a variable is proper. -/
theorem proper_now {S : SSpec} {w : Word} {lo hi : Int} (hw : '\'' ∉ w) (hb : S.bounds w = some (lo, hi)) (h0 : 0 ≤ lo) : (NExp.var w).Proper S.bounds false :=
  ⟨⟨lo, hi, by rw [unprimed_plain hw]; exact hb, h0⟩, by simp⟩

theorem proper_next {S : SSpec} {w : Word} {lo hi : Int} (hb : S.bounds w = some (lo, hi)) (h0 : 0 ≤ lo) : (NExp.var (prime w)).Proper S.bounds false :=
  ⟨⟨lo, hi, by rw [unprimed_prime]; exact hb, h0⟩, by simp⟩

theorem x_plain (i : Nat) : '\'' ∉ xName i := (x_tidy i).2.2.1
theorem y_plain (i : Nat) : '\'' ∉ yName i := (y_tidy i).2.2.1

theorem emptied_proper (i : Nat) : (emptiedFml n power i).Proper (theSpec n power capacity units).bounds false := by
  have he := proper_now (S := theSpec n power capacity units) (w := txt!"e") (by decide) (bounds_e n power capacity units) (by simp)
  exact ⟨⟨⟨he, trivial⟩, ⟨he, trivial⟩, trivial⟩, ⟨he, trivial⟩, trivial⟩

theorem sumExp_proper : ∀ (is : List Nat) (i : Nat), (∀ j ∈ i :: is, j < n) → (sumExp i is).Proper (theSpec n power capacity units).bounds false
  | [], i, h => proper_next (bounds_x n power capacity units (h i (by simp))) (by simp)
  | j :: is, i, h => ⟨proper_next (bounds_x n power capacity units (h i (by simp))) (by simp), sumExp_proper is j fun k hk => h k (List.mem_cons_of_mem _ hk)⟩

theorem sumExp_names : ∀ (is : List Nat) (i : Nat), (sumExp i is).names = (i :: is).map fun j => prime (xName j)
  | [], i => rfl
  | j :: is, i => by rw [sumExp, NExp.names, sumExp_names is j]; rfl

theorem allows_sum : (theSpec n power capacity units).Allows .envTrans (.infix (sumFml units (List.range n))) := by
  have hl : ∀ j ∈ List.range n, j < n := fun j h => List.mem_range.mp h
  cases he : List.range n with
  | nil => exact ⟨trivial, by simp [sumFml, SFml.atoms], by simp [sumFml, SFml.numbers]⟩
  | cons i is =>
    rw [he] at hl
    refine ⟨⟨sumExp_proper n power capacity units is i hl, trivial⟩, by simp [sumFml, SFml.atoms], ?_⟩
    intro x hx
    simp only [sumFml, SFml.numbers, sumExp_names, NExp.names, List.append_nil, Bool.false_eq_true, if_false, List.map_id'] at hx
    obtain ⟨j, hj, rfl⟩ := List.mem_map.mp hx
    rw [usable]
    refine List.mem_append_right _ (List.mem_map.mpr ⟨xName j, ?_, rfl⟩)
    rw [theSpec_inputs]
    exact List.mem_map.mpr ⟨j, List.mem_range.mpr (hl j hj), rfl⟩

theorem mem_x {i : Nat} (hi : i < n) : xName i ∈ (theSpec n power capacity units).inputNames := by
  rw [theSpec_inputs]
  exact List.mem_map.mpr ⟨i, List.mem_range.mpr hi, rfl⟩

theorem mem_y {i : Nat} (hi : i < n) : yName i ∈ (theSpec n power capacity units).outputNames := by
  rw [theSpec_outputs]
  exact List.mem_append_left _ (List.mem_map.mpr ⟨i, List.mem_range.mpr hi, rfl⟩)

theorem mem_e : txt!"e" ∈ (theSpec n power capacity units).outputNames := by
  rw [theSpec_outputs]
  exact List.mem_append_right _ (List.mem_singleton.mpr rfl)

theorem allows_keep {i : Nat} (hi : i < n) : (theSpec n power capacity units).Allows .sysTrans (.infix (keepFml n power i)) := by
  refine ⟨⟨emptied_proper n power capacity units i, proper_next (bounds_y n power capacity units hi) (by simp),
    proper_now (y_plain i) (bounds_y n power capacity units hi) (by simp), proper_next (bounds_x n power capacity units hi) (by simp)⟩,
    by simp [keepFml, emptiedFml, SFml.atoms], ?_⟩
  have h1 := mem_x n power capacity units hi
  have h2 := mem_y n power capacity units hi
  have h3 := mem_e n power capacity units
  intro x hx
  simp only [keepFml, emptiedFml, SFml.numbers, NExp.names, List.append_nil, Bool.false_eq_true, if_false, List.map_id', List.mem_append, List.mem_singleton,
    or_assoc, or_self] at hx
  simp only [usable, List.mem_append]
  rcases hx with rfl | rfl | rfl | rfl | rfl | rfl <;> first
    | exact .inl (.inl (.inr h3))
    | exact .inl (.inl (.inr h2))
    | exact .inl (.inr (List.mem_map_of_mem h1))
    | exact .inr (List.mem_map_of_mem h2)

theorem allows_empty {i : Nat} (hi : i < n) : (theSpec n power capacity units).Allows .sysTrans (.infix (emptyFml n power i)) := by
  refine ⟨⟨emptied_proper n power capacity units i, proper_next (bounds_y n power capacity units hi) (by simp),
    proper_next (bounds_x n power capacity units hi) (by simp)⟩, by simp [emptyFml, emptiedFml, SFml.atoms], ?_⟩
  have h1 := mem_x n power capacity units hi
  have h2 := mem_y n power capacity units hi
  have h3 := mem_e n power capacity units
  intro x hx
  simp only [emptyFml, emptiedFml, SFml.numbers, NExp.names, List.append_nil, Bool.false_eq_true, if_false, List.map_id', List.mem_append, List.mem_singleton,
    or_assoc, or_self] at hx
  simp only [usable, List.mem_append]
  rcases hx with rfl | rfl | rfl | rfl | rfl <;> first
    | exact .inl (.inl (.inr h3))
    | exact .inl (.inr (List.mem_map_of_mem h1))
    | exact .inr (List.mem_map_of_mem h2)

theorem benchmark_denotes (hn : 1 ≤ n) (hp : 1 ≤ power) : SDenotes (benchmark n power capacity units) (theSpec n power capacity units) where
  content := by
    refine ⟨fileItems n power capacity units, ?_, ?_⟩
    · rw [benchmark_split n power capacity units hn hp]
      exact file_content n power capacity units hn hp
    · rw [theSpec_bools]
      simp only [fileItems, items_append, itemsOf_tagged]
      simp only [reduceCtorEq, if_true, if_false, List.append_nil, List.nil_append, show ∀ s, itemsOf s [] = [] from fun _ => rfl]
      refine ⟨forall2_range (fun i => isDecl_range (x_tidy i) units) _, List.rel_append (forall2_range (fun i => isDecl_range (y_tidy i) capacity) _)
        (.cons (isDecl_range e_tidy (n - 1)) .nil), forall2_range (fun i => .infix (xZero_formula i)) _, forall2_range (fun i => .infix (yZero_formula i)) _,
        .cons (.infix (restriction_formula hn)) .nil, List.rel_append (forall2_range (fun i => .infix (keep_formula hp)) _)
        (forall2_range (fun i => .infix (empty_formula hp)) _), .nil, .nil⟩
  nodup := theSpec_nodup n power capacity units
  envInit := by
    intro c hc
    obtain ⟨i, hi, rfl⟩ := List.mem_map.mp hc
    have hi := List.mem_range.mp hi
    refine ⟨⟨proper_now (x_plain i) (bounds_x n power capacity units hi) (by simp), trivial⟩, by simp [zeroFml, SFml.atoms], ?_⟩
    intro x hx
    simp only [zeroFml, SFml.numbers, NExp.names, List.append_nil, Bool.false_eq_true, if_false, List.map_id', List.mem_singleton] at hx
    rw [hx]
    exact mem_x n power capacity units hi
  sysInit := by
    intro c hc
    obtain ⟨i, hi, rfl⟩ := List.mem_map.mp hc
    have hi := List.mem_range.mp hi
    refine ⟨⟨proper_now (y_plain i) (bounds_y n power capacity units hi) (by simp), trivial⟩, by simp [zeroFml, SFml.atoms], ?_⟩
    intro x hx
    simp only [zeroFml, SFml.numbers, NExp.names, List.append_nil, Bool.false_eq_true, if_false, List.map_id', List.mem_singleton] at hx
    rw [hx]
    exact List.mem_append_right _ (mem_y n power capacity units hi)
  envTrans := by
    intro c hc
    rw [List.mem_singleton.mp hc]
    exact allows_sum n power capacity units
  sysTrans := by
    intro c hc
    rcases List.mem_append.mp hc with hc | hc
    · obtain ⟨i, hi, rfl⟩ := List.mem_map.mp hc
      exact allows_keep n power capacity units (List.mem_range.mp hi)
    · obtain ⟨i, hi, rfl⟩ := List.mem_map.mp hc
      exact allows_empty n power capacity units (List.mem_range.mp hi)
  envLiveness := by intro c hc; cases hc
  sysLiveness := by intro c hc; cases hc

end Slugs.Model.Cinderella
