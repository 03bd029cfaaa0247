import Verif.Lemmas.SimulatorCodec

/-!
# The main loop of the simulator
-/

namespace Slugs.Model.Curses

open Slugs.Spec

theorem bitsOf_len {sp : SpecFile} (p : Pos sp.In sp.Out) : (bitsOf sp p).length = sp.inputs.length + sp.outputs.length := by
  simp [bitsOf]

theorem bitsOf_injective {sp : SpecFile} {p q : Pos sp.In sp.Out} (h : bitsOf sp p = bitsOf sp q) : p = q := by
  obtain ⟨h1, h2⟩ := List.append_inj h (by simp)
  refine Prod.ext (funext fun x => ?_) (funext fun y => ?_)
  · exact List.map_inj_left.mp h1 x (List.mem_attach _ _)
  · exact List.map_inj_left.mp h2 y (List.mem_attach _ _)

/-- What is known about the exchanges with slugs. -/
structure Answers (sp : SpecFile) (real : Bool) (S : Nat → Pos sp.In sp.Out → Pos sp.In sp.Out → Prop) (es : List Exchange) : Prop where
  init : ∀ typed answer, .completeInit typed answer ∈ es → InitAnswer sp real typed answer
  trans : ∀ src typed la lg answer, .strategyTransition src typed la lg answer ∈ es →
    TransitionAnswer sp real (S (if real = true then lg else la)) (PrintedNumbers sp la lg) src typed la lg answer

/-- Values entered by hand are within their bounds. -/
def CellsOk (vars : List ShownVar) (cells : List Cell) : Prop :=
  cells.length = vars.length ∧ ∀ (i : Nat) v c, vars[i]? = some v → cells[i]? = some c → c.tag = edited → v.lo ≤ c.val ∧ c.val ≤ v.hi

/-- What always holds in the main loop. -/
structure Inv (vars : List ShownVar) (hopes goals : Nat) (st : St) : Prop where
  cursor : st.cursor < vars.length
  len : st.last.cells.length = vars.length
  ok : ∀ (i : Nat) v c, vars[i]? = some v → st.last.cells[i]? = some c → c.tag = edited →
    (v.lo ≤ c.val ∧ c.val ≤ v.hi) ∨ (i = st.cursor ∧ st.last.flags.oob = true)
  oob : st.last.flags.oob = true → ∀ v c, vars[st.cursor]? = some v → st.last.cells[st.cursor]? = some c → ¬ (v.lo ≤ c.val ∧ c.val ≤ v.hi)
  past : ∀ e ∈ st.past, CellsOk vars e.cells ∧ e.flags.any = false
  post : ∀ cs ∈ st.post, CellsOk vars cs
  goals : ∀ e ∈ st.all, e.goals.1 < hopes ∧ e.goals.2 < goals
  first : st.all.head?.map Entry.goals = some (0, 0)

def Entry.column (e : Entry) : Column := ⟨e.cells.map Cell.val, e.goals, e.flags.any⟩

theorem columns_eq (st : St) : st.columns = st.past.map Entry.column ++ [st.last.column] := by
  simp [St.columns, St.all, Entry.column]

theorem cellsOk_unfixed (vars : List ShownVar) : CellsOk vars (unfixed vars) := by
  refine ⟨by simp [unfixed], fun i v c _ hc ht => ?_⟩
  rw [unfixed, List.getElem?_map] at hc
  cases hv : vars[i]? with
  | none => rw [hv] at hc; simp at hc
  | some w =>
    rw [hv] at hc
    simp only [Option.map_some, Option.some.injEq] at hc
    subst hc
    exact absurd ht (by simp [edited])

theorem inv_start {vars : List ShownVar} {hopes goals : Nat} (hv : vars ≠ []) (hh : 0 < hopes) (hg : 0 < goals) : Inv vars hopes goals (start vars) where
  cursor := List.length_pos_iff.mpr hv
  len := (cellsOk_unfixed vars).1
  ok := fun i v c h1 h2 h3 => .inl ((cellsOk_unfixed vars).2 i v c h1 h2 h3)
  oob := by intro h; simp [start] at h
  past := by simp [start]
  post := by simp [start]
  goals := by simp [start, St.all, hh, hg]
  first := rfl

/-! ### Keys -/

theorem truncate_ok {v : ShownVar} {c : Cell} (hv : v.lo ≤ v.hi) : v.lo ≤ (truncate v c).val ∧ (truncate v c).val ≤ v.hi := by
  unfold truncate
  by_cases h1 : c.val < v.lo
  · rw [if_pos h1]
    simp only
    rw [if_neg (by omega)]
    exact ⟨Int.le_refl _, hv⟩
  · rw [if_neg h1]
    by_cases h2 : c.val > v.hi
    · simp only [if_pos h2]; omega
    · simp only [if_neg h2]; omega

theorem truncate_same {v : ShownVar} {c : Cell} (h : v.lo ≤ c.val ∧ c.val ≤ v.hi) : truncate v c = c := by
  have h1 : ¬ c.val < v.lo := by omega
  simp only [truncate, if_neg h1]
  exact if_neg (by omega)

theorem all_leave_goals {v : ShownVar} {c : Cell} {st : St} {P : Nat × Nat → Prop} (h : ∀ e ∈ st.all, P e.goals) :
    ∀ e ∈ (leave v c st).all, P e.goals := by
  intro e he
  simp only [leave, St.setCell, St.setOob, St.all, List.mem_append, List.mem_singleton] at he
  rcases he with he | rfl
  · exact h e (by simp [St.all, he])
  · exact h st.last (by simp [St.all])

/-- The first numbers, after changes of the last entry that keep its numbers. -/
theorem first_congr {st st' : St} (hp : st'.past = st.past) (hg : st'.last.goals = st.last.goals)
    (h : st.all.head?.map Entry.goals = some (0, 0)) : st'.all.head?.map Entry.goals = some (0, 0) := by
  rw [St.all] at h ⊢
  rw [hp]
  cases hq : st.past with
  | nil => rw [hq] at h; simpa [hg] using h
  | cons e past => rw [hq] at h; simpa using h

variable {vars : List ShownVar} {hopes goals : Nat} {st : St}

/-- Leaving a value makes all values within their bounds. -/
theorem leave_inv (hb : ∀ v ∈ vars, v.lo ≤ v.hi) (hI : Inv vars hopes goals st) {v : ShownVar} {c : Cell} (hv : vars[st.cursor]? = some v) :
    CellsOk vars (leave v c st).last.cells ∧ (leave v c st).last.flags.oob = false := by
  refine ⟨⟨by simp [leave, St.setCell, St.setOob, hI.len], fun i w d hw hd ht => ?_⟩, rfl⟩
  simp only [leave, St.setCell, St.setOob] at hd
  rw [List.getElem?_set] at hd
  split at hd
  · rename_i heq
    subst heq
    rw [hv] at hw
    cases hw
    split at hd
    · cases hd
      exact truncate_ok (hb v (List.mem_of_getElem? hv))
    · cases hd
  · rename_i hne
    rcases hI.ok i w d hw hd ht with h | ⟨h, _⟩
    · exact h
    · exact absurd h.symm hne

/-- A state in which everything is within its bounds. -/
theorem inv_of_ok (hc : st.cursor < vars.length) (hl : CellsOk vars st.last.cells) (ho : st.last.flags.oob = false)
    (hp : ∀ e ∈ st.past, CellsOk vars e.cells ∧ e.flags.any = false) (hq : ∀ cs ∈ st.post, CellsOk vars cs)
    (hg : ∀ e ∈ st.all, e.goals.1 < hopes ∧ e.goals.2 < goals) (hf : st.all.head?.map Entry.goals = some (0, 0)) : Inv vars hopes goals st where
  cursor := hc
  len := hl.1
  ok := fun i v c h1 h2 h3 => .inl (hl.2 i v c h1 h2 h3)
  oob := by intro h; rw [ho] at h; cases h
  past := hp
  post := hq
  goals := hg
  first := hf

theorem edit_inv (hI : Inv vars hopes goals st) {v : ShownVar} {c : Cell} {k : Option (Fin 10)} {st' : St} (hv : vars[st.cursor]? = some v)
    (h : edit v c k st = some st') : Inv vars hopes goals st' ∧ st'.past = st.past := by
  unfold edit at h
  simp only [Option.bind_eq_bind, Option.bind_eq_some_iff, Option.pure_def] at h
  obtain ⟨j, _, e, _, d, _, h⟩ := h
  split at h
  · cases h
    refine ⟨?_, rfl⟩
    refine ⟨hI.cursor, by simp [St.setCell, St.setOob, hI.len], ?_, ?_, hI.past, hI.post, ?_, first_congr (st := st) rfl rfl hI.first⟩
    · intro i w x hw hx ht
      simp only [St.setCell, St.setOob] at hx ⊢
      rw [List.getElem?_set] at hx
      split at hx
      · rename_i heq
        subst heq
        rw [hv] at hw
        cases hw
        split at hx
        · cases hx
          by_cases hb : v.lo ≤ (newCell v c st.editing k).1.val ∧ (newCell v c st.editing k).1.val ≤ v.hi
          · exact .inl hb
          · exact .inr ⟨rfl, by rw [decide_eq_true_eq]; omega⟩
        · cases hx
      · rename_i hne
        rcases hI.ok i w x hw hx ht with h | ⟨h, _⟩
        · exact .inl h
        · exact absurd h.symm hne
    · intro ho w x hw hx
      simp only [St.setCell, St.setOob, decide_eq_true_eq] at ho hx hw
      rw [hv] at hw
      cases hw
      rw [List.getElem?_set, if_pos rfl] at hx
      split at hx
      · cases hx; omega
      · cases hx
    · intro x hx
      simp only [St.setCell, St.setOob, St.all, List.mem_append, List.mem_singleton] at hx
      rcases hx with hx | rfl
      · exact hI.goals x (by simp [St.all, hx])
      · exact hI.goals st.last (by simp [St.all])
  · cases h
    exact ⟨hI, rfl⟩

theorem leave_past {v : ShownVar} {c : Cell} : (leave v c st).past = st.past := rfl
theorem leave_post {v : ShownVar} {c : Cell} : (leave v c st).post = st.post := rfl
theorem leave_cursor {v : ShownVar} {c : Cell} : (leave v c st).cursor = st.cursor := rfl

/-- Every key keeps what always holds. -/
theorem press_inv (hb : ∀ v ∈ vars, v.lo ≤ v.hi) (hh : 0 < hopes) (hg : 0 < goals) (hI : Inv vars hopes goals st) {key : Key} {st' : St}
    (h : press vars key st = some st') : Inv vars hopes goals st' := by
  unfold press at h
  simp only [Option.bind_eq_bind, Option.bind_eq_some_iff] at h
  obtain ⟨v, hv, c, hc, h⟩ := h
  have hL := leave_inv hb hI hv (c := c)
  have hG := all_leave_goals (v := v) (c := c) (P := fun g => g.1 < hopes ∧ g.2 < goals) hI.goals
  have hF : (leave v c st).all.head?.map Entry.goals = some (0, 0) := first_congr (st := st) rfl rfl hI.first
  cases key with
  | down =>
    simp only [Option.pure_def, Option.some.injEq] at h
    subst h
    split
    · rename_i hlt
      exact inv_of_ok (by simpa using hlt) hL.1 hL.2 hI.past hI.post hG hF
    · exact inv_of_ok hI.cursor hL.1 hL.2 hI.past hI.post hG hF
  | up =>
    simp only [Option.pure_def, Option.some.injEq] at h
    subst h
    exact inv_of_ok (by have := hI.cursor; simp [leave_cursor]; omega) hL.1 hL.2 hI.past hI.post hG hF
  | right =>
    simp only [Option.pure_def, Option.some.injEq] at h
    subst h
    unfold goRight
    split
    · exact inv_of_ok hI.cursor hL.1 hL.2 hI.past hI.post hG hF
    · rename_i hflag
      have hpast : ∀ e ∈ (leave v c st).past ++ [(leave v c st).last], CellsOk vars e.cells ∧ e.flags.any = false := by
        intro e he
        rcases List.mem_append.mp he with he | he
        · exact hI.past e he
        · rw [List.mem_singleton.mp he]
          exact ⟨hL.1, by simpa using hflag⟩
      have hhead : ∀ x : Entry, (((leave v c st).past ++ [(leave v c st).last]) ++ [x]).head?.map Entry.goals = some (0, 0) := by
        intro x
        rw [List.head?_append_of_ne_nil _ (by simp)]
        exact hF
      split
      · rename_i d post hpost
        rw [leave_post] at hpost
        refine inv_of_ok hI.cursor (hI.post d (by simp [hpost])) rfl hpast (fun cs hcs => hI.post cs (by simp [hpost, hcs])) (fun e he => ?_) (hhead _)
        rcases List.mem_append.mp he with he | he
        · exact hG e he
        · rw [List.mem_singleton.mp he]
          exact ⟨hh, hg⟩
      · refine inv_of_ok hI.cursor (cellsOk_unfixed vars) rfl hpast hI.post (fun e he => ?_) (hhead _)
        rcases List.mem_append.mp he with he | he
        · exact hG e he
        · rw [List.mem_singleton.mp he]
          exact ⟨hh, hg⟩
  | left =>
    simp only [Option.pure_def, Option.some.injEq] at h
    subst h
    unfold goLeft
    split
    · exact inv_of_ok hI.cursor hL.1 hL.2 hI.past hI.post hG hF
    · rename_i e he
      rw [leave_past] at he
      have hm : e ∈ st.past := List.mem_of_getLast? he
      refine inv_of_ok hI.cursor (hI.past e hm).1 ?_ (fun x hx => hI.past x (List.dropLast_subset _ hx)) ?_ ?_ ?_
      · have := (hI.past e hm).2
        simp only [Flags.any, Bool.or_eq_false_iff] at this
        exact this.2
      · intro cs hcs
        rcases List.mem_cons.mp hcs with rfl | hcs
        · exact hL.1
        · exact hI.post cs hcs
      · intro x hx
        rcases List.mem_append.mp hx with hx | hx
        · exact hI.goals x (List.mem_append_left _ (List.dropLast_subset _ hx))
        · rw [List.mem_singleton.mp hx]
          exact hI.goals e (by simp [St.all, hm])
      · have h3 : st.past.dropLast ++ [e] = st.past := List.dropLast_append_getLast? e he
        show (st.past.dropLast ++ [e]).head?.map Entry.goals = some (0, 0)
        rw [h3]
        have h4 := hI.first
        rwa [St.all, List.head?_append_of_ne_nil _ (by rintro h; rw [h] at hm; cases hm)] at h4
  | digit k => exact (edit_inv hI hv h).1
  | backspace => exact (edit_inv hI hv h).1
  | quit => cases h; exact hI
  | help =>
    simp only [Option.pure_def, Option.some.injEq] at h
    subst h
    exact ⟨hI.cursor, hI.len, hI.ok, hI.oob, hI.past, hI.post, hI.goals, hI.first⟩
  | other => cases h; exact hI

theorem draw_inv (large : Bool) (hI : Inv vars hopes goals st) : Inv vars hopes goals (draw large st) := by
  unfold draw
  split
  · exact ⟨hI.cursor, hI.len, hI.ok, hI.oob, hI.past, hI.post, hI.goals, hI.first⟩
  · exact hI

/-- If the table has just been drawn, then no key stops the program with an exception. -/
theorem press_some (hI : Inv vars hopes goals st) (hd : st.drawn = some st.past.length) (key : Key) : ∃ st', press vars key st = some st' := by
  have hcur := hI.cursor
  have h1 := List.getElem?_eq_getElem hcur
  have hc : st.cursor < st.last.cells.length := hI.len ▸ hI.cursor
  have h2 := List.getElem?_eq_getElem hc
  have he : ∀ k, ∃ st', edit vars[st.cursor] st.last.cells[st.cursor] k st = some st' := by
    intro k
    have h3 : st.all[st.past.length]? = some st.last := by simp [St.all]
    unfold edit
    simp only [Option.bind_eq_bind, hd, Option.bind_some, h3, h2, Option.pure_def]
    split <;> exact ⟨_, rfl⟩
  unfold press
  simp only [Option.bind_eq_bind, h1, h2, Option.bind_some]
  cases key with
  | digit k => exact he _
  | backspace => exact he _
  | _ => exact ⟨_, rfl⟩

end Slugs.Model.Curses
