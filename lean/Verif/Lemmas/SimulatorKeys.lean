import Verif.Lemmas.SimulatorRun

/-! What the keys of the simulator do to the table (C85). -/

namespace Slugs.Model.Curses

open Slugs.Spec Slugs.Model

variable {vars : List ShownVar}

theorem merge_kept : ∀ {cs ds rs : List Cell}, merge cs ds = some rs → ∀ (i : Nat) c, cs[i]? = some c → c.tag = edited → rs[i]? = some c := by
  intro cs
  induction cs with
  | nil => intro ds rs _ i c hc; simp at hc
  | cons a cs ih =>
    intro ds rs h i c hc ht
    cases ds with
    | nil => simp [merge] at h
    | cons d ds =>
      simp only [merge, Option.bind_eq_bind, Option.bind_eq_some_iff] at h
      obtain ⟨rest, h1, h2⟩ := h
      cases i with
      | zero =>
        simp only [List.getElem?_cons_zero, Option.some.injEq] at hc
        subst hc
        rw [if_pos ht] at h2
        split at h2
        · cases h2; rfl
        · cases h2
      | succ i =>
        rw [List.getElem?_cons_succ] at hc
        have h3 := ih h1 i c hc ht
        split at h2
        · split at h2
          · cases h2; rw [List.getElem?_cons_succ]; exact h3
          · cases h2
        · cases h2; rw [List.getElem?_cons_succ]; exact h3

/-- What the answers of slugs do not change. -/
structure Kept (st st' : St) : Prop where
  past : st'.past = st.past
  post : st'.post = st.post
  cursor : st'.cursor = st.cursor
  editing : st'.editing = st.editing
  help : st'.help = st.help
  cells : ∀ (i : Nat) c, st.last.cells[i]? = some c → c.tag = edited → st'.last.cells[i]? = some c

theorem absorbInit_kept {st st' : St} {answer : Answer Unit} (h : absorbInit vars st answer = some st') : Kept st st' := by
  unfold absorbInit at h
  cases answer with
  | found letters next =>
    simp only [Option.bind_eq_bind, Option.bind_eq_some_iff, Option.pure_def, Option.some.injEq] at h
    obtain ⟨new, _, cells, hm, rfl⟩ := h
    exact ⟨rfl, rfl, rfl, rfl, rfl, merge_kept hm⟩
  | _ => cases h; exact ⟨rfl, rfl, rfl, rfl, rfl, fun _ _ hc _ => hc⟩

theorem absorbTrans_kept {st st' : St} {answer : Answer (Nat × Nat)} (h : absorbTrans vars st answer = some st') : Kept st st' := by
  unfold absorbTrans at h
  cases answer with
  | found letters next =>
    simp only [Option.bind_eq_bind, Option.bind_eq_some_iff, Option.pure_def, Option.some.injEq] at h
    obtain ⟨new, _, cells, hm, rfl⟩ := h
    exact ⟨rfl, rfl, rfl, rfl, rfl, merge_kept hm⟩
  | failGuarantees letters next =>
    simp only [Option.bind_eq_bind, Option.bind_eq_some_iff, Option.pure_def, Option.some.injEq] at h
    obtain ⟨new, _, cells, hm, rfl⟩ := h
    exact ⟨rfl, rfl, rfl, rfl, rfl, merge_kept hm⟩
  | _ => cases h; exact ⟨rfl, rfl, rfl, rfl, rfl, fun _ _ hc _ => hc⟩

theorem update_kept {st st' : St} {es rest : List Exchange} (h : update vars st es = .goesOn st' rest) : Kept st st' := by
  unfold update at h
  split at h
  · cases h; exact ⟨rfl, rfl, rfl, rfl, rfl, fun _ _ hc _ => hc⟩
  · cases h
  · split at h
    · split at h
      · split at h
        · rename_i hs; cases h; exact absorbInit_kept hs
        · cases h
      · cases h
    · split at h
      · split at h
        · rename_i hs; cases h; exact absorbTrans_kept hs
        · cases h
      · cases h
    · cases h

/-- The last key. -/
theorem run_snoc {keys : List (Bool × Key)} {large : Bool} {k : Key} : ∀ {st : St} {es : List Exchange} {st2 : St} {rest2 : List Exchange},
    run vars (keys ++ [(large, k)]) st es = .goesOn st2 rest2 →
    ∃ st1 rest1 s, run vars keys st es = .goesOn st1 rest1 ∧ press vars k (draw large st1) = some s ∧ update vars s rest1 = .goesOn st2 rest2 := by
  induction keys with
  | nil =>
    intro st es st2 rest2 h
    rw [List.nil_append, run] at h
    split at h
    · rename_i st1 rest1 hu
      split at h
      · cases h
      · split at h
        · rename_i s hs
          exact ⟨st1, rest1, s, hu, hs, h⟩
        · cases h
    · rename_i o ho; exact absurd h (ho st2 rest2)
  | cons x keys ih =>
    intro st es st2 rest2 h
    rw [List.cons_append, run] at h
    rw [run]
    split at h
    · rename_i st1 rest1 hu
      split at h
      · cases h
      · rename_i hq
        split at h
        · rename_i s hs
          obtain ⟨st3, rest3, s3, h1, h2, h3⟩ := ih h
          refine ⟨st3, rest3, s3, ?_, h2, h3⟩
          rw [if_neg hq]
          exact h1
        · cases h
    · rename_i o ho; exact absurd h (ho st2 rest2)

theorem draw_kept (large : Bool) (st : St) : (draw large st).past = st.past ∧ (draw large st).last = st.last ∧ (draw large st).cursor = st.cursor ∧
    (draw large st).post = st.post ∧ (draw large st).help = st.help ∧ (draw large st).editing = st.editing := by
  unfold draw
  split <;> exact ⟨rfl, rfl, rfl, rfl, rfl, rfl⟩

/-- The keys other than digits, backspace and the one for the help texts. -/
inductive Pressed (vars : List ShownVar) (st : St) (v : ShownVar) (c : Cell) : Key → St → Prop
  | up : Pressed vars st v c .up { leave v c st with cursor := st.cursor - 1 }
  | down : Pressed vars st v c .down (if st.cursor + 1 < vars.length then { leave v c st with cursor := st.cursor + 1 } else leave v c st)
  | left : Pressed vars st v c .left (goLeft (leave v c st))
  | right : Pressed vars st v c .right (goRight vars (leave v c st))
  | digit {n s} : edit v c (some n) st = some s → Pressed vars st v c (.digit n) s
  | backspace {s} : edit v c none st = some s → Pressed vars st v c .backspace s
  | help : Pressed vars st v c .help { st with help := (st.help + 1) % 3 }
  | quit : Pressed vars st v c .quit st
  | other : Pressed vars st v c .other st

theorem press_cases {st s : St} {k : Key} (h : press vars k st = some s) :
    ∃ v c, vars[st.cursor]? = some v ∧ st.last.cells[st.cursor]? = some c ∧ Pressed vars st v c k s := by
  unfold press at h
  simp only [Option.bind_eq_bind, Option.bind_eq_some_iff] at h
  obtain ⟨v, hv, c, hc, h⟩ := h
  refine ⟨v, c, hv, hc, ?_⟩
  cases k <;> simp only [Option.pure_def, Option.some.injEq] at h
  · subst h; exact .up
  · subst h; exact .down
  · subst h; exact .left
  · subst h; exact .right
  · exact .digit h
  · exact .backspace h
  · subst h; exact .quit
  · subst h; exact .help
  · subst h; exact .other

/-- Digits and backspace change the value under the cursor. -/
theorem edit_cases {st s : St} {v : ShownVar} {c : Cell} {k : Option (Fin 10)} (h : edit v c k st = some s) :
    s = st ∨ s = ({ st with editing := (newCell v c st.editing k).2 }.setCell (newCell v c st.editing k).1).setOob
      (decide ((newCell v c st.editing k).1.val < v.lo ∨ (newCell v c st.editing k).1.val > v.hi)) := by
  unfold edit at h
  simp only [Option.bind_eq_bind, Option.bind_eq_some_iff, Option.pure_def] at h
  obtain ⟨_, _, _, _, _, _, h⟩ := h
  split at h
  · cases h; exact .inr rfl
  · cases h; exact .inl rfl

theorem run_help {keys : List (Bool × Key)} (hk : ∀ x ∈ keys, x.2 ≠ .help) {es : List Exchange} : ∀ {st : St} {rest : List Exchange},
    run vars keys (start vars) es = .goesOn st rest → st.help = 0 := by
  induction keys using List.reverseRecOn with
  | nil => intro st rest h; rw [run] at h; exact (update_kept h).help
  | append_singleton keys x ih =>
    intro st rest h
    obtain ⟨st1, rest1, s, h1, h2, h3⟩ := run_snoc h
    have h4 := ih (fun y hy => hk y (List.mem_append_left _ hy)) h1
    have h5 := hk x (List.mem_append_right _ (List.mem_singleton_self x))
    rw [(update_kept h3).help]
    have hd : (draw x.1 st1).help = 0 := (draw_kept x.1 st1).2.2.2.2.1.trans h4
    obtain ⟨v, c, _, _, hp⟩ := press_cases h2
    revert h5
    generalize x.2 = k at hp
    intro h5
    cases hp with
    | up => exact hd
    | down => split <;> exact hd
    | left => unfold goLeft; split <;> exact hd
    | right => unfold goRight; split; exact hd; split <;> exact hd
    | digit h => rcases edit_cases h with rfl | rfl <;> exact hd
    | backspace h => rcases edit_cases h with rfl | rfl <;> exact hd
    | help => exact absurd rfl h5
    | quit => exact hd
    | other => exact hd

def isArrow (k : Key) : Prop := k = .up ∨ k = .down ∨ k = .left ∨ k = .right

theorem run_arrow {keys : List (Bool × Key)} (hk : ∀ x ∈ keys.getLast?, isArrow x.2) {es : List Exchange} {st : St} {rest : List Exchange}
    (h : run vars keys (start vars) es = .goesOn st rest) : st.editing = false := by
  induction keys using List.reverseRecOn with
  | nil => rw [run] at h; exact (update_kept h).editing
  | append_singleton keys x _ =>
    obtain ⟨st1, rest1, s, h1, h2, h3⟩ := run_snoc h
    have h5 := hk x (by simp)
    rw [(update_kept h3).editing]
    obtain ⟨v, c, _, _, hp⟩ := press_cases h2
    revert h5
    generalize x.2 = k at hp
    intro h5
    cases hp with
    | up => rfl
    | down => split <;> rfl
    | left => unfold goLeft; split <;> rfl
    | right => unfold goRight; split; rfl; split <;> rfl
    | _ => simp [isArrow] at h5

theorem typedNumber_snoc (ds : List (Fin 10)) (d : Fin 10) : typedNumber (ds ++ [d]) = 10 * typedNumber ds + d.val := by
  simp [typedNumber]

theorem draw_true {st : St} (h : st.help = 0) : (draw true st).drawn = some st.past.length := by
  simp [draw, h]

/-- One digit. -/
theorem edit_digit {st s : St} {v : ShownVar} {c : Cell} {n : Fin 10} (hd : st.drawn = some st.past.length) (hc : st.last.cells[st.cursor]? = some c)
    (ho : c.tag = edited ∨ (st.last.flags.a = false ∧ st.last.flags.g = false ∧ st.last.flags.l = false)) (h : edit v c (some n) st = some s) :
    s.past = st.past ∧ s.cursor = st.cursor ∧ s.editing = true ∧ s.last.cells[s.cursor]? = some (newCell v c st.editing (some n)).1 := by
  have e1 : st.all[st.past.length]? = some st.last := by simp [St.all]
  unfold edit at h
  rw [hd] at h
  simp only [Option.bind_eq_bind, Option.bind_some, e1, hc] at h
  have hcond : c.tag = edited ∨ ¬ ((st.last.flags.a = true) ∨ st.last.flags.g = true ∨ st.last.flags.l = true) := by
    rcases ho with h | ⟨h1, h2, h3⟩
    · exact .inl h
    · right; simp [h1, h2, h3]
  rw [if_pos hcond] at h
  cases h
  refine ⟨rfl, rfl, ?_, ?_⟩
  · cases he : st.editing <;> simp [newCell, St.setCell, St.setOob]
  · have hlt := (List.getElem?_eq_some_iff.mp hc).1
    simp only [St.setCell, St.setOob]
    rw [List.getElem?_set_self hlt]

/-- Typing a number. -/
theorem run_digits {keys : List (Bool × Key)} (hk : ∀ x ∈ keys, x.2 ≠ .help) (ha : ∀ x ∈ keys.getLast?, isArrow x.2) {es : List Exchange} {st : St}
    {rest : List Exchange} (h : run vars keys (start vars) es = .goesOn st rest) (hf : st.last.flags.any = false) (ds : List (Fin 10)) :
    ∀ {st' : St} {rest' : List Exchange}, run vars (keys ++ ds.map fun d => (true, .digit d)) (start vars) es = .goesOn st' rest' →
      st'.past = st.past ∧ st'.cursor = st.cursor ∧
      (ds = [] ∧ st' = st ∨ ds ≠ [] ∧ st'.editing = true ∧ st'.last.cells[st'.cursor]? = some ⟨min maxOverall (typedNumber ds), edited⟩) := by
  induction ds using List.reverseRecOn with
  | nil =>
    intro st' rest' h'
    rw [List.map_nil, List.append_nil, h] at h'
    cases h'
    exact ⟨rfl, rfl, .inl ⟨rfl, rfl⟩⟩
  | append_singleton ds d ih =>
    intro st' rest' h'
    rw [List.map_append, List.map_singleton, ← List.append_assoc] at h'
    obtain ⟨st1, rest1, s, h1, h2, h3⟩ := run_snoc h'
    obtain ⟨i1, i2, i3⟩ := ih h1
    have hh : st1.help = 0 := by
      refine run_help (fun x hx => ?_) h1
      rcases List.mem_append.mp hx with hx | hx
      · exact hk x hx
      · obtain ⟨e, _, rfl⟩ := List.mem_map.mp hx
        simp
    obtain ⟨v, c, hv, hc, hp⟩ := press_cases h2
    obtain ⟨d1, d2, d3, d4, d5, d6⟩ := draw_kept true st1
    have hdr : (draw true st1).drawn = some (draw true st1).past.length := by rw [d1]; exact draw_true hh
    have hK := update_kept h3
    cases hp with
    | digit he =>
      have hc1 : st1.last.cells[st1.cursor]? = some c := by rw [d2, d3] at hc; exact hc
      have ho : c.tag = edited ∨ ((draw true st1).last.flags.a = false ∧ (draw true st1).last.flags.g = false ∧ (draw true st1).last.flags.l = false) := by
        rcases i3 with ⟨_, rfl⟩ | ⟨_, _, i4⟩
        · right
          rw [d2]
          simp only [Flags.any, Bool.or_eq_false_iff] at hf
          exact ⟨hf.1.1.1, hf.1.1.2, hf.1.2⟩
        · left
          rw [hc1] at i4
          cases i4
          rfl
      obtain ⟨e1, e2, e3, e4⟩ := edit_digit hdr hc ho he
      refine ⟨hK.past.trans (e1.trans (d1.trans i1)), hK.cursor.trans (e2.trans (d3.trans i2)), .inr ⟨by simp, hK.editing.trans e3, ?_⟩⟩
      have e5 : (newCell v c (draw true st1).editing (some d)).1 = ⟨min maxOverall (typedNumber (ds ++ [d])), edited⟩ := by
        rw [d6]
        rcases i3 with ⟨rfl, rfl⟩ | ⟨_, i4, i5⟩
        · rw [run_arrow ha h]
          have : min maxOverall ((d.val : Nat) : Int) = (d.val : Nat) := by
            have := d.isLt
            simp only [maxOverall]
            omega
          simp [newCell, typedNumber, this]
        · rw [hc1] at i5
          cases i5
          rw [i4, typedNumber_snoc]
          simp only [newCell, if_true, Cell.mk.injEq, and_true, maxOverall]
          have := d.isLt
          push_cast
          omega
      rw [hK.cursor]
      refine hK.cells _ _ (e4.trans (congrArg some e5)) rfl

/-- Backspace. -/
theorem edit_backspace {st s : St} {v : ShownVar} {c : Cell} (hd : st.drawn = some st.past.length) (hc : st.last.cells[st.cursor]? = some c)
    (ht : c.tag = edited) (h : edit v c none st = some s) :
    s.past = st.past ∧ s.cursor = st.cursor ∧ s.last.cells[s.cursor]? = some (newCell v c st.editing none).1 := by
  have e1 : st.all[st.past.length]? = some st.last := by simp [St.all]
  unfold edit at h
  rw [hd] at h
  simp only [Option.bind_eq_bind, Option.bind_some, e1, hc] at h
  rw [if_pos (.inl ht)] at h
  cases h
  refine ⟨rfl, rfl, ?_⟩
  have hlt := (List.getElem?_eq_some_iff.mp hc).1
  simp only [St.setCell, St.setOob]
  rw [List.getElem?_set_self hlt]

theorem leave_same {st : St} {v : ShownVar} {c : Cell} (hc : st.last.cells[st.cursor]? = some c) (hb : v.lo ≤ c.val ∧ c.val ≤ v.hi) :
    (leave v c st).last.cells = st.last.cells := by
  simp only [leave, St.setCell, St.setOob]
  rw [truncate_same hb]
  obtain ⟨h1, h2⟩ := List.getElem?_eq_some_iff.mp hc
  rw [← h2, List.set_getElem_self]

theorem leave_cells {st : St} {v : ShownVar} {c : Cell} {i : Nat} (hi : i ≠ st.cursor) : (leave v c st).last.cells[i]? = st.last.cells[i]? := by
  simp only [leave, St.setCell, St.setOob]
  rw [List.getElem?_set_ne (Ne.symm hi)]

theorem columns_of_past {st st' : St} (h : st'.past = st.past) :
    st'.columns.length = st.columns.length ∧ st'.columns.take (st.columns.length - 1) = st.columns.take (st.columns.length - 1) := by
  rw [columns_eq, columns_eq, h]
  simp [List.take_left']

end Slugs.Model.Curses
