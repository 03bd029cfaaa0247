import Verif.Spec.Json

/-!
A reader for JSON texts.  It finds the value of each JSON text, so that a text has at most one value.
-/

namespace Slugs

open Spec

/-- The characters that numbers consist of. -/
def isNumberChar (c : Char) : Bool := isJsonDigit c || c == '-' || c == '+' || c == '.' || c == 'e' || c == 'E'

def readSpace (s : List Char) : List Char := s.dropWhile isJsonSpace

/-- The rest of a string, with the quotation mark at its end. -/
def readChars : List Char → Option (List Nat × List Char)
  | [] => none
  | c :: r =>
    if c = '"' then some ([], r)
    else if c = '\\' then
      match r with
      | [] => none
      | d :: r' =>
        if d = 'u' then
          match r' with
          | x :: y :: z :: u :: r'' =>
            match jsonHex x, jsonHex y, jsonHex z, jsonHex u with
            | some i, some j, some k, some l => (readChars r'').map fun p => ((((16 * i + j) * 16 + k) * 16 + l) :: p.1, p.2)
            | _, _, _, _ => none
          | _ => none
        else
          match jsonEscape d with
          | some n => (readChars r').map fun p => (n :: p.1, p.2)
          | none => none
    else if c.toNat < 0x20 then none
    else (readChars r).map fun p => (c.toNat :: p.1, p.2)

mutual

def readValue : Nat → List Char → Option (Json × List Char)
  | 0, _ => none
  | _ + 1, [] => none
  | n + 1, c :: r =>
    if c = '"' then (readChars r).map fun p => (.str p.1, p.2)
    else if c = '[' then
      if (readSpace r).head? = some ']' then some (.arr [], (readSpace r).tail)
      else
        match readElements n r with
        | some (vs, d :: r') => if d = ']' then some (.arr vs, r') else none
        | _ => none
    else if c = '{' then
      if (readSpace r).head? = some '}' then some (.obj [], (readSpace r).tail)
      else
        match readMembers n r with
        | some (ms, d :: r') => if d = '}' then some (.obj ms, r') else none
        | _ => none
    else if c = 'n' then (if r.take 3 = txt!"ull" then some (.null, r.drop 3) else none)
    else if c = 't' then (if r.take 3 = txt!"rue" then some (.bool true, r.drop 3) else none)
    else if c = 'f' then (if r.take 4 = txt!"alse" then some (.bool false, r.drop 4) else none)
    else if isJsonDigit c || c == '-' then some (.num ((c :: r).takeWhile isNumberChar), (c :: r).dropWhile isNumberChar)
    else none

def readElements : Nat → List Char → Option (List Json × List Char)
  | 0, _ => none
  | n + 1, s =>
    match readValue n (readSpace s) with
    | none => none
    | some (v, r) =>
      match readSpace r with
      | [] => some ([v], [])
      | d :: r' => if d = ',' then (readElements n r').map fun p => (v :: p.1, p.2) else some ([v], d :: r')

def readMembers : Nat → List Char → Option (List (List Nat × Json) × List Char)
  | 0, _ => none
  | n + 1, s =>
    match readSpace s with
    | [] => none
    | q :: r =>
      if q = '"' then
        match readChars r with
        | none => none
        | some (k, r1) =>
          match readSpace r1 with
          | [] => none
          | e :: r2 =>
            if e = ':' then
              match readValue n (readSpace r2) with
              | none => none
              | some (v, r3) =>
                match readSpace r3 with
                | [] => some ([(k, v)], [])
                | d :: r4 => if d = ',' then (readMembers n r4).map fun p => ((k, v) :: p.1, p.2) else some ([(k, v)], d :: r4)
            else none
      else none

end

/-! ### Completeness -/

/-- What may follow a value. -/
def Stops (r : List Char) : Prop := ∀ c ∈ r.head?, isNumberChar c = false

/-- What may follow a sequence. -/
def Closes (r : List Char) : Prop := ∃ c t, r = c :: t ∧ (c = ']' ∨ c = '}')

theorem readSpace_append {w : List Char} (h : JsonSpace w) {r : List Char} (hr : ∀ c ∈ r.head?, isJsonSpace c = false) : readSpace (w ++ r) = r := by
  unfold readSpace
  rw [List.dropWhile_append_of_pos h]
  cases r with
  | nil => rfl
  | cons c t => rw [List.dropWhile_cons_of_neg]; have := hr c rfl; simp [this]

theorem readChars_complete {cs : List Nat} {s : List Char} (h : JsonChars cs s) (r : List Char) : readChars (s ++ '"' :: r) = some (cs, r) := by
  induction h with
  | nil => rw [List.nil_append, readChars.eq_def]; dsimp only; rw [if_pos rfl]
  | @plain c cs s h1 h2 h3 _ ih =>
    rw [List.cons_append, readChars.eq_def]
    dsimp only
    rw [if_neg h2, if_neg h3, if_neg (by omega), ih]
    rfl
  | @escape c n cs s h1 _ ih =>
    rw [List.cons_append, List.cons_append, readChars.eq_def]
    dsimp only
    rw [if_neg (by decide), if_pos rfl, if_neg, h1]
    · dsimp only
      rw [ih]
      rfl
    · rintro rfl
      revert h1
      decide +revert
  | @unicode a b c d i j k l cs s h1 h2 h3 h4 _ ih =>
    simp only [List.cons_append]
    rw [readChars.eq_def]
    dsimp only
    rw [if_neg (by decide), if_pos rfl, if_pos rfl, h1, h2, h3, h4]
    dsimp only
    rw [ih]
    rfl

theorem number_chars {s : List Char} (h : JsonNumber s) : (∀ c ∈ s, isNumberChar c = true) ∧ ∃ c t, s = c :: t ∧ (isJsonDigit c || c == '-') = true := by
  obtain ⟨m, i, f, e, rfl, hm, hi, hf, he⟩ := h
  have dig : ∀ c, isJsonDigit c = true → isNumberChar c = true := fun c h => by simp [isNumberChar, h]
  have hi' : ∀ c ∈ i, isJsonDigit c = true := by
    rcases hi with rfl | ⟨d, ds, rfl, h1, _, h3⟩
    · decide
    · exact List.forall_mem_cons.2 ⟨h1, h3⟩
  have hi0 : ∃ c t, i = c :: t := by
    rcases hi with rfl | ⟨d, ds, rfl, _⟩ <;> exact ⟨_, _, rfl⟩
  refine ⟨?_, ?_⟩
  · intro c hc
    simp only [List.mem_append] at hc
    rcases hc with ((hc | hc) | hc) | hc
    · rcases hm with rfl | rfl
      · simp at hc
      · simp only [List.mem_singleton] at hc; subst hc; decide
    · exact dig _ (hi' c hc)
    · rcases hf with rfl | ⟨ds, rfl, _, h⟩
      · simp at hc
      · rcases List.mem_cons.1 hc with rfl | hc
        · decide
        · exact dig _ (h c hc)
    · rcases he with rfl | ⟨e', sg, ds, rfl, h1, h2, _, h⟩
      · simp at hc
      · rcases List.mem_cons.1 hc with rfl | hc
        · rcases h1 with rfl | rfl <;> decide
        · rcases List.mem_append.1 hc with hc | hc
          · rcases h2 with rfl | rfl | rfl
            · simp at hc
            · simp only [List.mem_singleton] at hc; subst hc; decide
            · simp only [List.mem_singleton] at hc; subst hc; decide
          · exact dig _ (h c hc)
  · obtain ⟨c, t, rfl⟩ := hi0
    rcases hm with rfl | rfl
    · exact ⟨c, t ++ f ++ e, by simp only [List.nil_append, List.cons_append], by rw [hi' c List.mem_cons_self]; rfl⟩
    · exact ⟨'-', c :: (t ++ f ++ e), by simp only [List.nil_append, List.cons_append], by decide⟩

/-- A value begins with a character that is neither white space nor a closing bracket. -/
theorem value_head {v : Json} {s : List Char} (h : JsonValue v s) : ∃ c t, s = c :: t ∧ isJsonSpace c = false ∧ c ≠ ']' ∧ c ≠ '}' := by
  cases h with
  | null => exact ⟨_, _, rfl, by decide, by decide, by decide⟩
  | true => exact ⟨_, _, rfl, by decide, by decide, by decide⟩
  | false => exact ⟨_, _, rfl, by decide, by decide, by decide⟩
  | num h =>
    obtain ⟨_, c, t, rfl, hc⟩ := number_chars h
    refine ⟨c, t, rfl, ?_, ?_, ?_⟩
    · by_contra hs
      simp only [isJsonSpace, Bool.not_eq_false, Bool.or_eq_true, beq_iff_eq] at hs
      rcases hs with ((rfl | rfl) | rfl) | rfl <;> revert hc <;> decide
    · rintro rfl; revert hc; decide
    · rintro rfl; revert hc; decide
  | str => exact ⟨_, _, rfl, by decide, by decide, by decide⟩
  | emptyArr => exact ⟨_, _, rfl, by decide, by decide, by decide⟩
  | arr => exact ⟨_, _, rfl, by decide, by decide, by decide⟩
  | emptyObj => exact ⟨_, _, rfl, by decide, by decide, by decide⟩
  | obj => exact ⟨_, _, rfl, by decide, by decide, by decide⟩

theorem space_head {w : List Char} (h : JsonSpace w) {r : List Char} (hr : ∀ c ∈ r.head?, isNumberChar c = false) : Stops (w ++ r) := by
  intro c hc
  cases w with
  | nil => exact hr c hc
  | cons d w =>
    simp only [List.cons_append, List.head?_cons, Option.mem_some_iff] at hc
    subst hc
    have := h d List.mem_cons_self
    simp only [isJsonSpace, Bool.or_eq_true, beq_iff_eq] at this
    rcases this with ((rfl | rfl) | rfl) | rfl <;> decide

theorem readSpace_value {v : Json} {s w : List Char} (hw : JsonSpace w) (h : JsonValue v s) (r : List Char) : readSpace (w ++ (s ++ r)) = s ++ r := by
  obtain ⟨c, t, rfl, hc, _⟩ := value_head h
  exact readSpace_append hw (by intro d hd; simp at hd; subst hd; exact hc)

theorem elements_head {vs : List Json} {s : List Char} (h : JsonElements vs s) (r : List Char) : (readSpace (s ++ r)).head? ≠ some ']' := by
  cases h with
  | @one w w' s v hw hv hw' =>
    obtain ⟨c, t, rfl, _, h1, _⟩ := value_head hv
    rw [List.append_assoc, List.append_assoc, readSpace_value hw hv]
    simpa using h1
  | @cons w w' s t v vs hw hv hw' ht =>
    obtain ⟨c, t, rfl, _, h1, _⟩ := value_head hv
    rw [List.append_assoc, List.append_assoc, readSpace_value hw hv]
    simpa using h1

theorem members_head {ms : List (List Nat × Json)} {s : List Char} (h : JsonMembers ms s) (r : List Char) : (readSpace (s ++ r)).head? ≠ some '}' := by
  cases h with
  | one hw =>
    rw [List.append_assoc, readSpace_append hw (by intro d hd; simp at hd; subst hd; decide)]
    simp
  | cons hw =>
    rw [List.append_assoc, readSpace_append hw (by intro d hd; simp at hd; subst hd; decide)]
    simp

theorem closes_stops {r : List Char} (h : Closes r) : ∀ c ∈ r.head?, isNumberChar c = false ∧ isJsonSpace c = false := by
  obtain ⟨c, t, rfl, rfl | rfl⟩ := h <;> · intro d hd; simp at hd; subst hd; decide

mutual

theorem readValue_complete {v : Json} {s : List Char} (h : JsonValue v s) {n : Nat} (hn : 2 * s.length + 1 ≤ n) {r : List Char} (hr : Stops r) :
    readValue n (s ++ r) = some (v, r) := by
  obtain ⟨n, rfl⟩ : ∃ m, n = m + 1 := ⟨n - 1, by omega⟩
  cases h with
  | null => rfl
  | true => rfl
  | false => rfl
  | num h =>
    obtain ⟨h1, c, t, rfl, hc⟩ := number_chars h
    have hne : ∀ d : Char, (isJsonDigit d || d == '-') = false → c ≠ d := by rintro d hd rfl; rw [hc] at hd; cases hd
    rw [List.cons_append, readValue.eq_def]
    dsimp only
    rw [if_neg (hne _ (by decide)), if_neg (hne _ (by decide)), if_neg (hne _ (by decide)), if_neg (hne _ (by decide)), if_neg (hne _ (by decide)),
      if_neg (hne _ (by decide)), if_pos hc, ← List.cons_append, List.takeWhile_append_of_pos h1, List.dropWhile_append_of_pos h1]
    cases r with
    | nil => simp
    | cons d r =>
      have := hr d rfl
      simp [this]
  | str h =>
    rw [List.cons_append, List.append_assoc, readValue.eq_def]
    dsimp only
    rw [if_pos rfl, List.singleton_append, readChars_complete h]
    rfl
  | emptyArr hw =>
    rw [List.cons_append, List.append_assoc, readValue.eq_def]
    dsimp only
    rw [if_neg (by decide), if_pos rfl, readSpace_append hw (by intro d hd; simp at hd; subst hd; decide)]
    rfl
  | @arr vs s h =>
    rw [List.cons_append, List.append_assoc, readValue.eq_def]
    dsimp only
    rw [if_neg (by decide), if_pos rfl, if_neg (elements_head h _), List.singleton_append, readElements_complete h (by simp at hn; omega) ⟨_, _, rfl, Or.inl rfl⟩]
    simp
  | emptyObj hw =>
    rw [List.cons_append, List.append_assoc, readValue.eq_def]
    dsimp only
    rw [if_neg (by decide), if_neg (by decide), if_pos rfl, readSpace_append hw (by intro d hd; simp at hd; subst hd; decide)]
    rfl
  | @obj ms s h =>
    rw [List.cons_append, List.append_assoc, readValue.eq_def]
    dsimp only
    rw [if_neg (by decide), if_neg (by decide), if_pos rfl, if_neg (members_head h _), List.singleton_append, readMembers_complete h (by simp at hn; omega) ⟨_, _, rfl, Or.inr rfl⟩]
    simp

theorem readElements_complete {vs : List Json} {s : List Char} (h : JsonElements vs s) {n : Nat} (hn : 2 * s.length + 2 ≤ n) {r : List Char} (hr : Closes r) :
    readElements n (s ++ r) = some (vs, r) := by
  obtain ⟨n, rfl⟩ : ∃ m, n = m + 1 := ⟨n - 1, by omega⟩
  cases h with
  | @one w w' s v hw hv hw' =>
    rw [readElements.eq_def]
    dsimp only
    rw [List.append_assoc, List.append_assoc, readSpace_value hw hv,
      readValue_complete hv (by simp at hn; omega) (space_head hw' fun c hc => (closes_stops hr c hc).1)]
    dsimp only
    rw [readSpace_append hw' fun c hc => (closes_stops hr c hc).2]
    obtain ⟨c, t, rfl, hc⟩ := hr
    dsimp only
    rw [if_neg]
    rcases hc with rfl | rfl <;> decide
  | @cons w w' s t v vs hw hv hw' ht =>
    rw [readElements.eq_def]
    dsimp only
    rw [List.append_assoc, List.append_assoc, List.append_assoc, readSpace_value hw hv,
      readValue_complete hv (by simp at hn; omega) (space_head hw' (by intro d hd; simp at hd; subst hd; decide))]
    dsimp only
    rw [readSpace_append hw' (by intro d hd; simp at hd; subst hd; decide)]
    rw [List.cons_append]
    dsimp only
    rw [if_pos rfl, readElements_complete ht (by simp at hn; omega) hr]
    rfl

theorem readMembers_complete {ms : List (List Nat × Json)} {s : List Char} (h : JsonMembers ms s) {n : Nat} (hn : 2 * s.length + 2 ≤ n) {r : List Char}
    (hr : Closes r) : readMembers n (s ++ r) = some (ms, r) := by
  obtain ⟨n, rfl⟩ : ∃ m, n = m + 1 := ⟨n - 1, by omega⟩
  cases h with
  | @one w1 w2 w3 w4 k s cs v h1 hk h2 h3 hv h4 =>
    rw [readMembers.eq_def]
    dsimp only
    simp only [List.append_assoc, List.cons_append]
    rw [readSpace_append h1 (by intro d hd; simp at hd; subst hd; decide)]
    dsimp only
    rw [if_pos rfl, readChars_complete hk]
    dsimp only
    rw [readSpace_append h2 (by intro d hd; simp at hd; subst hd; decide)]
    dsimp only
    rw [if_pos rfl, readSpace_value h3 hv, readValue_complete hv (by simp at hn; omega) (space_head h4 fun c hc => (closes_stops hr c hc).1)]
    dsimp only
    rw [readSpace_append h4 fun c hc => (closes_stops hr c hc).2]
    obtain ⟨c, t, rfl, hc⟩ := hr
    dsimp only
    rw [if_neg]
    rcases hc with rfl | rfl <;> decide
  | @cons w1 w2 w3 w4 k s t cs v ms h1 hk h2 h3 hv h4 ht =>
    rw [readMembers.eq_def]
    dsimp only
    simp only [List.append_assoc, List.cons_append]
    rw [readSpace_append h1 (by intro d hd; simp at hd; subst hd; decide)]
    dsimp only
    rw [if_pos rfl, readChars_complete hk]
    dsimp only
    rw [readSpace_append h2 (by intro d hd; simp at hd; subst hd; decide)]
    dsimp only
    rw [if_pos rfl, readSpace_value h3 hv, readValue_complete hv (by simp at hn; omega) (space_head h4 (by intro d hd; simp at hd; subst hd; decide))]
    dsimp only
    rw [readSpace_append h4 (by intro d hd; simp at hd; subst hd; decide)]
    dsimp only
    rw [if_pos rfl, readMembers_complete ht (by simp at hn; omega) hr]
    rfl

end

/-- The value of a JSON text and the rest after it. -/
def readText (s : List Char) : Option (Json × List Char) := readValue (2 * s.length + 1) (readSpace s)

theorem readText_complete {v : Json} {s : List Char} (h : JsonText v s) : ∃ w, JsonSpace w ∧ readText s = some (v, w) := by
  obtain ⟨w, s', w', rfl, hw, hv, hw'⟩ := h
  refine ⟨w', hw', ?_⟩
  unfold readText
  rw [readSpace_value hw hv]
  exact readValue_complete hv (by simp; omega) (by have := space_head hw' (r := []) (by simp); simpa using this)

/-- A text has at most one value. -/
theorem jsonText_unique {v v' : Json} {s : List Char} (h : JsonText v s) (h' : JsonText v' s) : v = v' := by
  obtain ⟨w, _, e⟩ := readText_complete h
  obtain ⟨w', _, e'⟩ := readText_complete h'
  rw [e] at e'
  exact (congrArg Prod.fst (Option.some.inj e'))

end Slugs
