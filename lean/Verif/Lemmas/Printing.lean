import Verif.Model.Printing
import Verif.Lemmas.Json
import Verif.Lemmas.Stream

/-!
The printed texts: the JSON format is JSON, and the texts determine the strategies.
-/

namespace Slugs.Model

open Slugs.Spec

/-! ### Numerals -/

theorem digit_iff (c : Char) : isJsonDigit c = isDigit c := rfl

theorem decimal_inj {m n : Nat} (h : decimal m = decimal n) : m = n := by rw [← digitsVal_decimal m, h, digitsVal_decimal]

theorem decimal_head (n : Nat) : n ≠ 0 → (decimal n).head? ≠ some '0' := by
  induction n using Nat.strongRecOn with
  | _ n ih =>
    intro hn
    by_cases hlt : n < 10
    · rw [show decimal n = [n.digitChar] from Nat.toDigits_of_lt_base hlt]
      have : ∀ m : Nat, m < 10 → m ≠ 0 → [m.digitChar].head? ≠ some '0' := by decide
      exact this n hlt hn
    · have e : decimal n = decimal (n / 10) ++ [(n % 10).digitChar] := Nat.toDigits_of_base_le (by decide) (by omega)
      have := ih (n / 10) (by omega) (by omega)
      rw [e, List.head?_append_of_ne_nil _ (decimal_ne_nil _)]
      exact this

theorem decimal_number (n : Nat) : JsonNumber (decimal n) := by
  refine ⟨[], decimal n, [], [], by simp, .inl rfl, ?_, .inl rfl, .inl rfl⟩
  by_cases h0 : n = 0
  · subst h0; exact .inl (by decide)
  · right
    have h1 := decimal_head n h0
    have h2 := decimal_digits n
    cases hd : decimal n with
    | nil => exact absurd hd (decimal_ne_nil n)
    | cons d ds =>
      rw [hd] at h1 h2
      exact ⟨d, ds, rfl, h2 d List.mem_cons_self, by simpa using h1, fun c hc => h2 c (List.mem_cons_of_mem _ hc)⟩

theorem decimal_chars (n : Nat) : JsonChars ((decimal n).map Char.toNat) (decimal n) := by
  have h := decimal_digits n
  revert h
  generalize decimal n = l
  intro h
  induction l with
  | nil => exact .nil
  | cons c cs ih =>
    have hc := h c List.mem_cons_self
    refine .plain ?_ ?_ ?_ (ih fun d hd => h d (List.mem_cons_of_mem _ hd))
    · simp only [isDigit, Bool.and_eq_true, decide_eq_true_eq] at hc
      have := hc.1
      rw [Char.le_def, UInt32.le_iff_toNat_le] at this
      have h48 : ('0' : Char).val.toNat = 48 := by decide
      rw [h48] at this
      exact Nat.le_trans (by decide) this
    · rintro rfl; revert hc; decide
    · rintro rfl; revert hc; decide

theorem decimal_append {m n : Nat} {c d : Char} {X Y : List Char} (hc : isDigit c = false) (hd : isDigit d = false)
    (h : decimal m ++ c :: X = decimal n ++ d :: Y) : m = n ∧ c = d ∧ X = Y := by
  have key : ∀ (k : Nat) (e : Char) (Z : List Char), isDigit e = false → (decimal k ++ e :: Z).takeWhile isDigit = decimal k := by
    intro k e Z he
    rw [List.takeWhile_append_of_pos (decimal_digits k), List.takeWhile_cons_of_neg (by simp [he]), List.append_nil]
  have h1 : decimal m = decimal n := by rw [← key m c X hc, h, key n d Y hd]
  rw [h1] at h
  have := List.append_cancel_left h
  exact ⟨decimal_inj h1, by injection this, by injection this⟩

/-! ### JSON -/

/-- A name that can be written between quotation marks as it is. -/
def Plain (x : List Char) : Prop := ∀ c ∈ x, 0x20 ≤ c.toNat ∧ c ≠ '"' ∧ c ≠ '\\'

theorem plain_chars {x : List Char} (h : Plain x) : JsonChars (x.map Char.toNat) x := by
  induction x with
  | nil => exact .nil
  | cons c x ih =>
    have := h c List.mem_cons_self
    exact .plain this.1 this.2.1 this.2.2 (ih fun d hd => h d (List.mem_cons_of_mem _ hd))

theorem elements_space {vs : List Json} {s w : List Char} (hw : JsonSpace w) (h : JsonElements vs s) : JsonElements vs (w ++ s) := by
  cases h with
  | one h1 h2 h3 => rw [← List.append_assoc]; exact .one (fun c hc => (List.mem_append.1 hc).elim (hw c) (h1 c)) h2 h3
  | cons h1 h2 h3 h4 => rw [← List.append_assoc]; exact .cons (fun c hc => (List.mem_append.1 hc).elim (hw c) (h1 c)) h2 h3 h4

theorem members_space {ms : List (List Nat × Json)} {s w : List Char} (hw : JsonSpace w) (h : JsonMembers ms s) : JsonMembers ms (w ++ s) := by
  cases h with
  | one h1 h2 h3 h4 h5 h6 => rw [← List.append_assoc]; exact .one (fun c hc => (List.mem_append.1 hc).elim (hw c) (h1 c)) h2 h3 h4 h5 h6
  | cons h1 h2 h3 h4 h5 h6 h7 => rw [← List.append_assoc]; exact .cons (fun c hc => (List.mem_append.1 hc).elim (hw c) (h1 c)) h2 h3 h4 h5 h6 h7

theorem space_nil : JsonSpace [] := by intro c hc; cases hc

theorem array_value {α : Type} (f : α → Json) (g : α → List Char) (l : List α) (h : ∀ a ∈ l, JsonValue (f a) (g a)) :
    JsonValue (.arr (l.map f)) ('[' :: (withCommas (l.map g) ++ [']'])) := by
  cases l with
  | nil => exact .emptyArr space_nil
  | cons a l =>
    refine .arr ?_
    induction l generalizing a with
    | nil =>
      have := JsonElements.one space_nil (h a List.mem_cons_self) space_nil
      simpa [withCommas] using this
    | cons b l ih =>
      have h1 := ih b fun c hc => h c (List.mem_cons_of_mem _ hc)
      have h2 := elements_space (w := [' ']) (by intro c hc; simp at hc; subst hc; decide) h1
      have := JsonElements.cons space_nil (h a List.mem_cons_self) space_nil h2
      simpa [withCommas] using this

theorem nat_value (n : Nat) : JsonValue (.nat n) (decimal n) := .num (decimal_number n)

theorem bit_value (b : Bool) : JsonValue (.nat (if b then 1 else 0)) (bitText b) := by
  cases b
  · exact nat_value 0
  · exact nat_value 1

theorem name_value {x : List Char} (h : Plain x) : JsonValue (.text x) (['"'] ++ x ++ ['"']) := .str (plain_chars h)

theorem key_chars (k : List Char) (h : Plain k := by decide) : JsonChars (k.map Char.toNat) k := plain_chars h

instance (x : List Char) : Decidable (Plain x) := by unfold Plain; infer_instance

instance (x : List Char) : Decidable (JsonSpace x) := by unfold JsonSpace; infer_instance

/-- The part of a state after its number. -/
def stateBody (st : PState) : List Char :=
  txt!"{\n\t\"rank\": " ++ decimal st.rank ++ txt!",\n\t\"state\": [" ++ withCommas (st.label.map fun l => bitText l.2) ++
    txt!"],\n\t\"trans\": [" ++ withCommas (st.succ.map decimal) ++ txt!"]\n}"

theorem state_value (st : PState) : JsonValue st.json (stateBody st) := by
  have h1 := array_value (fun l : Word × Bool => Json.nat (if l.2 then 1 else 0)) (fun l => bitText l.2) st.label fun l _ => bit_value l.2
  have h2 := array_value Json.nat decimal st.succ fun n _ => nat_value n
  have m3 := JsonMembers.one (w1 := txt!"\n\t") (w2 := []) (w3 := [' ']) (w4 := ['\n']) (by decide +kernel) (key_chars txt!"trans" (by decide +kernel))
    (by decide +kernel) (by decide +kernel) h2 (by decide +kernel)
  have m2 := JsonMembers.cons (w1 := txt!"\n\t") (w2 := []) (w3 := [' ']) (w4 := []) (by decide +kernel) (key_chars txt!"state" (by decide +kernel))
    (by decide +kernel) (by decide +kernel) h1 (by decide +kernel) m3
  have m1 := JsonMembers.cons (w1 := txt!"\n\t") (w2 := []) (w3 := [' ']) (w4 := []) (by decide +kernel) (key_chars txt!"rank" (by decide +kernel))
    (by decide +kernel) (by decide +kernel) (nat_value st.rank) (by decide +kernel) m2
  have := JsonValue.obj m1
  simpa [stateBody, PState.json] using this

theorem states_members (st : PState) (sts : List PState) :
    JsonMembers ((st :: sts).map fun st => ((decimal st.num).map Char.toNat, st.json)) (statesJson (st :: sts)) := by
  induction sts generalizing st with
  | nil =>
    have := JsonMembers.one (w1 := []) (w2 := []) (w3 := [' ']) (w4 := ['\n', '\n']) (by decide +kernel) (decimal_chars st.num)
      (by decide +kernel) (by decide +kernel) (state_value st) (by decide +kernel)
    simpa [statesJson, stateJson, stateBody] using this
  | cons st' sts ih =>
    have h2 := members_space (w := ['\n', '\n']) (by decide +kernel) (ih st')
    have := JsonMembers.cons (w1 := []) (w2 := []) (w3 := [' ']) (w4 := []) (by decide +kernel) (decimal_chars st.num)
      (by decide +kernel) (by decide +kernel) (state_value st) (by decide +kernel) h2
    simpa [statesJson, stateJson, stateBody] using this

theorem nodes_value (sts : List PState) :
    JsonValue (.obj (sts.map fun st => ((decimal st.num).map Char.toNat, st.json))) ('{' :: ('\n' :: statesJson sts ++ ['}'])) := by
  cases sts with
  | nil => exact .emptyObj (by decide +kernel)
  | cons st sts => exact .obj (members_space (w := ['\n']) (by decide +kernel) (states_members st sts))

theorem jsonListing_text {names : List Name} (h : ∀ x ∈ names, Plain x) (sts : List PState) : JsonText (strategyJson names sts) (jsonListing names sts) := by
  have h1 := array_value Json.text (fun x => ['"'] ++ x ++ ['"']) names fun x hx => name_value (h x hx)
  have m4 := JsonMembers.one (w1 := txt!"\n\n ") (w2 := []) (w3 := [' ']) (w4 := []) (by decide +kernel) (key_chars txt!"nodes" (by decide +kernel))
    (by decide +kernel) (by decide +kernel) (nodes_value sts) (by decide +kernel)
  have m3 := JsonMembers.cons (w1 := txt!"\n\n ") (w2 := []) (w3 := [' ']) (w4 := []) (by decide +kernel) (key_chars txt!"variables" (by decide +kernel))
    (by decide +kernel) (by decide +kernel) h1 (by decide +kernel) m4
  have m2 := JsonMembers.cons (w1 := txt!"\n ") (w2 := []) (w3 := [' ']) (w4 := []) (by decide +kernel) (key_chars txt!"slugs" (by decide +kernel))
    (by decide +kernel) (by decide +kernel) (name_value (x := txt!"0.0.1") (by decide +kernel)) (by decide +kernel) m3
  have m1 := JsonMembers.cons (w1 := []) (w2 := []) (w3 := [' ']) (w4 := []) (by decide +kernel) (key_chars txt!"version" (by decide +kernel))
    (by decide +kernel) (by decide +kernel) (nat_value 0) (by decide +kernel) m2
  refine ⟨[], _, ['\n'], ?_, space_nil, JsonValue.obj m1, by decide +kernel⟩
  have h0 : decimal 0 = ['0'] := by decide +kernel
  simp [jsonListing, h0]

/-! ### The JSON value determines the strategy -/

theorem toNat_inj {x y : List Char} (h : x.map Char.toNat = y.map Char.toNat) : x = y :=
  List.map_injective_iff.2 (fun a b hab => Char.toNat_inj.1 hab) h

theorem map_inj_on {α β : Type} {f : α → β} : ∀ {l l' : List α}, (∀ a ∈ l, ∀ b ∈ l', f a = f b → a = b) → l.map f = l'.map f → l = l'
  | [], [], _, _ => rfl
  | [], _ :: _, _, h => by cases h
  | _ :: _, [], _, h => by cases h
  | a :: l, b :: l', hi, h => by
    simp only [List.map_cons, List.cons.injEq] at h
    rw [hi a List.mem_cons_self b List.mem_cons_self h.1,
      map_inj_on (fun a' ha b' hb => hi a' (List.mem_cons_of_mem _ ha) b' (List.mem_cons_of_mem _ hb)) h.2]

theorem nat_inj {m n : Nat} (h : Json.nat m = Json.nat n) : m = n := decimal_inj (by injection h)

theorem label_inj {l l' : List (Name × Bool)} (h1 : l.map Prod.fst = l'.map Prod.fst) (h2 : l.map Prod.snd = l'.map Prod.snd) : l = l' := by
  induction l generalizing l' with
  | nil => cases l' with
    | nil => rfl
    | cons _ _ => cases h1
  | cons a l ih => cases l' with
    | nil => cases h1
    | cons b l' =>
      simp only [List.map_cons, List.cons.injEq] at h1 h2
      rw [Prod.ext h1.1 h2.1, ih h1.2 h2.2]

theorem state_inj {st st' : PState} (hn : st.num = st'.num) (hl : st.label.map Prod.fst = st'.label.map Prod.fst) (h : st.json = st'.json) : st = st' := by
  simp only [PState.json, Json.obj.injEq, List.cons.injEq, Prod.mk.injEq, true_and, and_true] at h
  obtain ⟨h1, h2, h3⟩ := h
  have h2' : st.label.map Prod.snd = st'.label.map Prod.snd := by
    injection h2 with h2
    have e : ∀ l : List (Word × Bool), (l.map fun l => Json.nat (if l.2 then 1 else 0)) = (l.map Prod.snd).map fun b => Json.nat (if b then 1 else 0) := by
      intro l; rw [List.map_map]; rfl
    rw [e, e] at h2
    refine map_inj_on ?_ h2
    intro a _ b _ hab
    have := nat_inj hab
    cases a <;> cases b <;> first | rfl | (simp at this)
  have h3' : st.succ = st'.succ := by
    injection h3 with h3
    exact map_inj_on (fun a _ b _ => nat_inj) h3
  have := label_inj hl h2'
  have := nat_inj h1
  cases st; cases st'; simp_all

theorem strategyJson_inj {names names' : List Name} {sts sts' : List PState} (h1 : ∀ st ∈ sts, st.label.map Prod.fst = names)
    (h2 : ∀ st ∈ sts', st.label.map Prod.fst = names') (h : strategyJson names sts = strategyJson names' sts') : names = names' ∧ sts = sts' := by
  simp only [strategyJson, Json.obj.injEq, List.cons.injEq, Prod.mk.injEq, true_and, and_true] at h
  obtain ⟨h3, h4⟩ := h
  have hn : names = names' := by
    injection h3 with h3
    refine map_inj_on ?_ h3
    intro a _ b _ hab
    injection hab with hab
    exact toNat_inj hab
  subst hn
  refine ⟨rfl, map_inj_on ?_ h4⟩
  intro a ha b hb hab
  simp only [Prod.mk.injEq] at hab
  exact state_inj (decimal_inj (toNat_inj hab.1)) ((h1 a ha).trans (h2 b hb).symm) hab.2

/-! ### The other formats -/

theorem bit_append {b b' : Bool} {X Y : List Char} (h : bitText b ++ X = bitText b' ++ Y) : b = b' ∧ X = Y := by
  cases b <;> cases b' <;> simp [bitText] at h <;> simp [h]

theorem label_append : ∀ {l l' : List (Name × Bool)} {X Y : List Char}, l.map Prod.fst = l'.map Prod.fst → labelText l ++ X = labelText l' ++ Y → l = l' ∧ X = Y
  | [], [], _, _, _, h => ⟨rfl, by simpa [labelText, withCommas] using h⟩
  | [], _ :: _, _, _, h, _ => by cases h
  | _ :: _, [], _, _, h, _ => by cases h
  | [a], [b], X, Y, hn, h => by
    simp only [List.map_cons, List.cons.injEq] at hn
    simp only [labelText, List.map_cons, List.map_nil, withCommas, hn.1, List.append_assoc] at h
    obtain ⟨h1, h2⟩ := bit_append (List.cons.inj (List.append_cancel_left h)).2
    exact ⟨by rw [Prod.ext hn.1 h1], h2⟩
  | [_], _ :: _ :: _, _, _, h, _ => by simp at h
  | _ :: _ :: _, [_], _, _, h, _ => by simp at h
  | a :: a2 :: l, b :: b2 :: l', X, Y, hn, h => by
    rw [List.map_cons, List.map_cons (l := b2 :: l'), List.cons.injEq] at hn
    have e : ∀ (a a2 : Name × Bool) (l : List (Name × Bool)) (X : List Char),
        labelText (a :: a2 :: l) ++ X = a.1 ++ ':' :: (bitText a.2 ++ ',' :: ' ' :: (labelText (a2 :: l) ++ X)) := by
      intro a a2 l X; simp [labelText, withCommas]
    rw [e, e, hn.1] at h
    obtain ⟨h1, h2⟩ := bit_append (List.cons.inj (List.append_cancel_left h)).2
    have h3 := (List.cons.inj (List.cons.inj h2).2).2
    obtain ⟨h4, h5⟩ := label_append hn.2 h3
    exact ⟨by rw [Prod.ext hn.1 h1, h4], h5⟩

theorem numbers_append : ∀ {l l' : List Nat} {X Y : List Char}, withCommas (l.map decimal) ++ '\n' :: X = withCommas (l'.map decimal) ++ '\n' :: Y → l = l' ∧ X = Y
  | [], [], _, _, h => ⟨rfl, by simpa [withCommas] using h⟩
  | [], [b], X, Y, h => by
    exfalso
    have := decimal_digits b
    cases hb : decimal b with
    | nil => exact decimal_ne_nil b hb
    | cons c cs =>
      simp only [List.map_nil, List.map_cons, withCommas, List.nil_append, hb, List.cons_append, List.cons.injEq] at h
      rw [hb] at this
      have := this c List.mem_cons_self
      rw [← h.1] at this
      revert this; decide
  | [], b :: b2 :: l, X, Y, h => by
    exfalso
    have := decimal_digits b
    cases hb : decimal b with
    | nil => exact decimal_ne_nil b hb
    | cons c cs =>
      simp only [List.map_nil, List.map_cons, withCommas, List.nil_append, hb, List.cons_append, List.cons.injEq] at h
      rw [hb] at this
      have := this c List.mem_cons_self
      rw [← h.1] at this
      revert this; decide
  | [b], [], X, Y, h => by
    exfalso
    have := decimal_digits b
    cases hb : decimal b with
    | nil => exact decimal_ne_nil b hb
    | cons c cs =>
      simp only [List.map_nil, List.map_cons, withCommas, List.nil_append, hb, List.cons_append, List.cons.injEq] at h
      rw [hb] at this
      have := this c List.mem_cons_self
      rw [h.1] at this
      revert this; decide
  | b :: b2 :: l, [], X, Y, h => by
    exfalso
    have := decimal_digits b
    cases hb : decimal b with
    | nil => exact decimal_ne_nil b hb
    | cons c cs =>
      simp only [List.map_nil, List.map_cons, withCommas, List.nil_append, hb, List.cons_append, List.cons.injEq] at h
      rw [hb] at this
      have := this c List.mem_cons_self
      rw [h.1] at this
      revert this; decide
  | [a], [b], X, Y, h => by
    obtain ⟨h1, _, h2⟩ := decimal_append (by decide) (by decide) h
    exact ⟨by rw [h1], h2⟩
  | [a], b :: b2 :: l, X, Y, h => by
    have h : decimal a ++ '\n' :: X = decimal b ++ ',' :: (' ' :: (withCommas ((b2 :: l).map decimal) ++ '\n' :: Y)) := by
      simpa [withCommas] using h
    obtain ⟨_, h1, _⟩ := decimal_append (by decide) (by decide) h
    exact absurd h1 (by decide)
  | b :: b2 :: l, [a], X, Y, h => by
    have h : decimal b ++ ',' :: (' ' :: (withCommas ((b2 :: l).map decimal) ++ '\n' :: X)) = decimal a ++ '\n' :: Y := by
      simpa [withCommas] using h
    obtain ⟨_, h1, _⟩ := decimal_append (by decide) (by decide) h
    exact absurd h1 (by decide)
  | a :: a2 :: l, b :: b2 :: l', X, Y, h => by
    have h : decimal a ++ ',' :: (' ' :: (withCommas ((a2 :: l).map decimal) ++ '\n' :: X)) =
        decimal b ++ ',' :: (' ' :: (withCommas ((b2 :: l').map decimal) ++ '\n' :: Y)) := by
      simpa [withCommas] using h
    obtain ⟨h1, _, h2⟩ := decimal_append (by decide) (by decide) h
    obtain ⟨h3, h4⟩ := numbers_append (List.cons.inj h2).2
    exact ⟨by rw [h1, h3], h4⟩

theorem lines_append : ∀ {l l' : List Nat} {X Y : List Char},
    (l.map fun n => decimal n ++ ['\n']).flatten ++ '\n' :: X = (l'.map fun n => decimal n ++ ['\n']).flatten ++ '\n' :: Y → l = l' ∧ X = Y
  | [], [], _, _, h => ⟨rfl, by simpa using h⟩
  | [], b :: l, X, Y, h => by
    exfalso
    have := decimal_digits b
    cases hb : decimal b with
    | nil => exact decimal_ne_nil b hb
    | cons c cs =>
      simp only [List.map_nil, List.map_cons, List.flatten_nil, List.flatten_cons, List.nil_append, hb, List.cons_append, List.cons.injEq] at h
      rw [hb] at this
      have := this c List.mem_cons_self
      rw [← h.1] at this
      revert this; decide
  | b :: l, [], X, Y, h => by
    exfalso
    have := decimal_digits b
    cases hb : decimal b with
    | nil => exact decimal_ne_nil b hb
    | cons c cs =>
      simp only [List.map_nil, List.map_cons, List.flatten_nil, List.flatten_cons, List.nil_append, hb, List.cons_append, List.cons.injEq] at h
      rw [hb] at this
      have := this c List.mem_cons_self
      rw [h.1] at this
      revert this; decide
  | a :: l, b :: l', X, Y, h => by
    have h : decimal a ++ '\n' :: ((l.map fun n => decimal n ++ ['\n']).flatten ++ '\n' :: X) =
        decimal b ++ '\n' :: ((l'.map fun n => decimal n ++ ['\n']).flatten ++ '\n' :: Y) := by
      simpa using h
    obtain ⟨h1, _, h2⟩ := decimal_append (by decide) (by decide) h
    obtain ⟨h3, h4⟩ := lines_append h2
    exact ⟨by rw [h1, h3], h4⟩

theorem stateText_append {st st' : PState} {X Y : List Char} (hn : st.label.map Prod.fst = st'.label.map Prod.fst)
    (h : stateText st ++ X = stateText st' ++ Y) : st = st' ∧ X = Y := by
  have e : ∀ (st : PState) (X : List Char), stateText st ++ X =
      txt!"State " ++ (decimal st.num ++ ' ' :: (txt!"with rank " ++ (decimal st.rank ++ ' ' :: (txt!"-> <" ++ (labelText st.label ++
        (txt!">\n\tWith successors : " ++ (withCommas (st.succ.map decimal) ++ '\n' :: X))))))) := by
    intro st X; simp [stateText]
  rw [e, e] at h
  obtain ⟨h1, _, h⟩ := decimal_append (by decide) (by decide) (List.append_cancel_left h)
  obtain ⟨h2, _, h⟩ := decimal_append (by decide) (by decide) (List.append_cancel_left h)
  obtain ⟨h3, h⟩ := label_append hn (List.append_cancel_left h)
  obtain ⟨h4, h⟩ := numbers_append (List.append_cancel_left h)
  cases st; cases st'; simp_all

theorem permText_append {st st' : PState} {X Y : List Char} (hn : st.label.map Prod.fst = st'.label.map Prod.fst)
    (h : permText st ++ X = permText st' ++ Y) : st = st' ∧ X = Y := by
  have e : ∀ (st : PState) (X : List Char), permText st ++ X =
      txt!"State " ++ (decimal st.num ++ ' ' :: (txt!"with rank " ++ (decimal st.rank ++ '\n' :: (labelText st.label ++
        ('\n' :: ((st.succ.map fun n => decimal n ++ ['\n']).flatten ++ '\n' :: X)))))) := by
    intro st X; simp [permText]
  rw [e, e] at h
  obtain ⟨h1, _, h⟩ := decimal_append (by decide) (by decide) (List.append_cancel_left h)
  obtain ⟨h2, _, h⟩ := decimal_append (by decide) (by decide) (List.append_cancel_left h)
  obtain ⟨h3, h⟩ := label_append hn h
  obtain ⟨h4, h⟩ := lines_append (List.cons.inj h).2
  cases st; cases st'; simp_all

theorem newline_append {a b X Y : List Char} (ha : '\n' ∉ a) (hb : '\n' ∉ b) (h : a ++ '\n' :: X = b ++ '\n' :: Y) : a = b ∧ X = Y := by
  have key : ∀ (a X : List Char), '\n' ∉ a → (a ++ '\n' :: X).takeWhile (fun c => c != '\n') = a := by
    intro a X ha
    rw [List.takeWhile_append_of_pos, List.takeWhile_cons_of_neg (by simp), List.append_nil]
    intro c hc
    simp only [bne_iff_ne, ne_eq]
    rintro rfl
    exact ha hc
  have h1 : a = b := by rw [← key a X ha, h, key b Y hb]
  subst h1
  exact ⟨rfl, (List.cons.inj (List.append_cancel_left h)).2⟩

theorem labelText_clean {l : List (Name × Bool)} (h : ∀ x ∈ l.map Prod.fst, '\n' ∉ x) : '\n' ∉ labelText l := by
  induction l with
  | nil => simp [labelText, withCommas]
  | cons a l ih =>
    have ha := h a.1 (by simp)
    have hl := ih fun x hx => h x (by simp only [List.map_cons, List.mem_cons]; exact .inr hx)
    have hb : '\n' ∉ bitText a.2 := by cases a.2 <;> simp [bitText]
    cases l with
    | nil => simp [labelText, withCommas, ha, hb]
    | cons b l =>
      have e : labelText (a :: b :: l) = a.1 ++ ':' :: (bitText a.2 ++ ',' :: ' ' :: labelText (b :: l)) := by simp [labelText, withCommas]
      rw [e]
      simp [ha, hb, hl]

/-- The names of a state of a counterstrategy: `names` with successors, `inputs` without. -/
def CNamed (names inputs : List Name) (st : CState) : Prop := st.label.map Prod.fst = if st.succ = none then inputs else names

theorem cstateText_append {names inputs : List Name} (h1 : ∀ x ∈ names, '\n' ∉ x) (h2 : ∀ x ∈ inputs, '\n' ∉ x) {st st' : CState} {X Y : List Char}
    (hn : CNamed names inputs st) (hn' : CNamed names inputs st') (h : cstateText st ++ X = cstateText st' ++ Y) : st = st' ∧ X = Y := by
  have e : ∀ (st : CState) (X : List Char), cstateText st ++ X =
      txt!"State " ++ (decimal st.num ++ ' ' :: (txt!"with rank (" ++ (decimal st.rank.1 ++ ',' :: (decimal st.rank.2 ++ ')' :: (txt!" -> <" ++
        (labelText st.label ++ (txt!">\n\t" ++ ((match st.succ with
          | some succ => txt!"With successors : " ++ withCommas (succ.map decimal)
          | none => txt!"With no successors.") ++ '\n' :: X)))))))) := by
    intro st X; cases hs : st.succ <;> simp [cstateText, hs]
  rw [e, e] at h
  obtain ⟨a1, _, h⟩ := decimal_append (by decide) (by decide) (List.append_cancel_left h)
  obtain ⟨a2, _, h⟩ := decimal_append (by decide) (by decide) (List.append_cancel_left h)
  obtain ⟨a3, _, h⟩ := decimal_append (by decide) (by decide) h
  have h := List.append_cancel_left h
  have hc : ∀ st : CState, CNamed names inputs st → ∀ x ∈ st.label.map Prod.fst, '\n' ∉ x := by
    intro st hst
    rw [hst]
    split <;> assumption
  have hr : st.rank = st'.rank := Prod.ext a2 a3
  obtain ⟨num, rank, label, succ⟩ := st
  obtain ⟨num', rank', label', succ'⟩ := st'
  dsimp only at *
  cases succ with
  | none =>
    cases succ' with
    | none =>
      obtain ⟨a4, h⟩ := label_append (hn.trans hn'.symm) h
      have := (List.cons.inj (List.append_cancel_left (List.append_cancel_left h))).2
      exact ⟨by cases a1; cases hr; cases a4; rfl, this⟩
    | some l' =>
      exfalso
      have k : labelText label ++ ['>'] ++ '\n' :: (txt!"\tWith no successors." ++ '\n' :: X) =
        labelText label' ++ ['>'] ++ '\n' :: (txt!"\tWith successors : " ++ (withCommas (l'.map decimal) ++ '\n' :: Y)) := by simpa using h
      obtain ⟨_, k⟩ := newline_append (by have := labelText_clean (hc _ hn); simpa using this) (by have := labelText_clean (hc _ hn'); simpa using this) k
      simp at k
  | some l =>
    cases succ' with
    | none =>
      exfalso
      have k : labelText label ++ ['>'] ++ '\n' :: (txt!"\tWith successors : " ++ (withCommas (l.map decimal) ++ '\n' :: X)) =
        labelText label' ++ ['>'] ++ '\n' :: (txt!"\tWith no successors." ++ '\n' :: Y) := by simpa using h
      obtain ⟨_, k⟩ := newline_append (by have := labelText_clean (hc _ hn); simpa using this) (by have := labelText_clean (hc _ hn'); simpa using this) k
      simp at k
    | some l' =>
      obtain ⟨a4, h⟩ := label_append (hn.trans hn'.symm) h
      have k := List.append_cancel_left h
      dsimp only at k
      rw [List.append_assoc, List.append_assoc] at k
      obtain ⟨a5, k⟩ := numbers_append (List.append_cancel_left k)
      exact ⟨by cases a1; cases hr; cases a4; cases a5; rfl, k⟩

theorem flatten_inj {α : Type} {f : α → List Char} {P : α → Prop} (hne : ∀ a, f a ≠ [])
    (h : ∀ a b X Y, P a → P b → f a ++ X = f b ++ Y → a = b ∧ X = Y) : ∀ {l l' : List α}, (∀ a ∈ l, P a) → (∀ a ∈ l', P a) →
      (l.map f).flatten = (l'.map f).flatten → l = l'
  | [], [], _, _, _ => rfl
  | [], b :: l', _, _, e => by
    simp only [List.map_nil, List.flatten_nil, List.map_cons, List.flatten_cons] at e
    exact absurd (List.append_eq_nil_iff.1 e.symm).1 (hne b)
  | a :: l, [], _, _, e => by
    simp only [List.map_nil, List.flatten_nil, List.map_cons, List.flatten_cons] at e
    exact absurd (List.append_eq_nil_iff.1 e).1 (hne a)
  | a :: l, b :: l', h1, h2, e => by
    simp only [List.map_cons, List.flatten_cons] at e
    obtain ⟨e1, e2⟩ := h a b _ _ (h1 a List.mem_cons_self) (h2 b List.mem_cons_self) e
    rw [e1, flatten_inj hne h (fun a ha => h1 a (List.mem_cons_of_mem _ ha)) (fun a ha => h2 a (List.mem_cons_of_mem _ ha)) e2]

end Slugs.Model
