import Verif.Lemmas.SimulatorUpdate

/-!
# Runs of the simulator
-/

namespace Slugs.Model.Curses

open Slugs.Spec

variable {sp : SpecFile} {real : Bool} {S : Nat → Pos sp.In sp.Out → Pos sp.In sp.Out → Prop} {vars : List ShownVar} {st : St}

theorem showsPlay_prefix {cols cols' : List Column} (h : ShowsPlay sp real S vars (cols ++ cols')) : ShowsPlay sp real S vars cols := by
  obtain ⟨p, hp⟩ := h
  refine ⟨p, fun i c hc hf => ?_⟩
  have hi := (List.getElem?_eq_some_iff.mp hc).1
  obtain ⟨h1, h2, h3⟩ := hp i c (by rw [List.getElem?_append_left hi]; exact hc) hf
  exact ⟨h1, h2, fun j b hj hb => h3 j b hj (by rw [List.getElem?_append_left (by omega)]; exact hb)⟩

/-- The value under the cursor is within its bounds. -/
def InBounds (vars : List ShownVar) (st : St) : Prop :=
  ∀ v x, vars[st.cursor]? = some v → (st.last.cells.map Cell.val)[st.cursor]? = some x → v.lo ≤ x ∧ x ≤ v.hi

theorem press_shows {hopes goals : Nat} (hI : Inv vars hopes goals st) (hS : ShowsPlay sp real S vars st.columns) {key : Key}
    (hk : key = .right → InBounds vars st) {st' : St} (h : press vars key st = some st') :
    ShowsPlay sp real S vars (st'.past.map Entry.column) := by
  rw [columns_eq] at hS
  have hP := showsPlay_prefix hS
  unfold press at h
  simp only [Option.bind_eq_bind, Option.bind_eq_some_iff] at h
  obtain ⟨v, hv, c, hc, h⟩ := h
  cases key with
  | down =>
    simp only [Option.pure_def, Option.some.injEq] at h
    subst h
    split <;> exact hP
  | up =>
    simp only [Option.pure_def, Option.some.injEq] at h
    subst h
    exact hP
  | right =>
    simp only [Option.pure_def, Option.some.injEq] at h
    subst h
    have hb := hk rfl v c.val hv (by rw [List.getElem?_map, hc]; rfl)
    have ho : st.last.flags.oob = false := by
      cases ho : st.last.flags.oob with
      | false => rfl
      | true => exact absurd hb (hI.oob ho v c hv hc)
    have hsame : (leave v c st).last = st.last := by
      have h1 : st.last.cells.set st.cursor c = st.last.cells := by
        rw [List.getElem?_eq_some_iff] at hc
        obtain ⟨hl, rfl⟩ := hc
        exact List.set_getElem_self hl
      have h2 : { st.last.flags with oob := false } = st.last.flags := by rw [← ho]
      simp only [leave, St.setCell, St.setOob, truncate_same hb, h1, h2]
    unfold goRight
    split
    · exact hP
    · split <;> simpa [leave_past, hsame] using hS
  | left =>
    simp only [Option.pure_def, Option.some.injEq] at h
    subst h
    unfold goLeft
    split
    · exact hP
    · rename_i e he
      rw [leave_past] at he
      have h3 : st.past.dropLast ++ [e] = st.past := List.dropLast_append_getLast? e he
      rw [← h3, List.map_append] at hP
      exact showsPlay_prefix hP
  | digit k => rw [(edit_inv hI hv h).2]; exact hP
  | backspace => rw [(edit_inv hI hv h).2]; exact hP
  | quit => cases h; exact hP
  | help =>
    simp only [Option.pure_def, Option.some.injEq] at h
    subst h
    exact hP
  | other => cases h; exact hP

theorem draw_past (large : Bool) : (draw large st).past = st.past ∧ (draw large st).last = st.last ∧ (draw large st).cursor = st.cursor ∧
    (draw large st).help = st.help := by
  unfold draw
  split <;> exact ⟨rfl, rfl, rfl, rfl⟩

theorem Answers.suffix {used rest : List Exchange} (h : Answers sp real S (used ++ rest)) : Answers sp real S rest :=
  ⟨fun t a hm => h.init t a (List.mem_append_right _ hm), fun s t la lg a hm => h.trans s t la lg a (List.mem_append_right _ hm)⟩

/-- The value under the cursor is within its bounds whenever the right arrow key is pressed. -/
def Careful (vars : List ShownVar) (keys : List (Bool × Key)) (st : St) (es : List Exchange) : Prop :=
  ∀ before large after, keys = before ++ (large, .right) :: after → ∀ s rest, run vars before st es = .goesOn s rest → InBounds vars s

theorem run_spec (hN : Numbering (size sp) vars) : ∀ (keys : List (Bool × Key)) (st : St) (es : List Exchange),
    Inv vars sp.hopes sp.goals st → Answers sp real S es →
    (st.help = 0 → (∀ x ∈ keys, x.1 = true ∧ x.2 ≠ .help) → run vars keys st es ≠ .crashed) ∧
    ∀ st' rest, run vars keys st es = .goesOn st' rest → Inv vars sp.hopes sp.goals st' ∧
      (∃ used, es = used ++ rest ∧ ∀ e ∈ used, Sent sp e) ∧
      (ShowsPlay sp real S vars (st.past.map Entry.column) → Careful vars keys st es → ShowsPlay sp real S vars st'.columns) := by
  have hh : 0 < sp.hopes := by simp [SpecFile.hopes]
  have hg : 0 < sp.goals := by simp [SpecFile.goals]
  have hb : ∀ v ∈ vars, v.lo ≤ v.hi := fun v hv => (hN.bounds v hv).1
  intro keys
  induction keys with
  | nil =>
    intro st es hI hE
    rw [run]
    rcases update_spec hN hI hE with h | ⟨st1, used, rest1, h, h1, h2, h3⟩
    · rw [h]
      exact ⟨fun _ _ => by simp, by simp⟩
    · rw [h]
      refine ⟨fun _ _ => by simp, fun st' rest he => ?_⟩
      cases he
      exact ⟨h3.inv, ⟨used, h1, h2⟩, fun hs _ => h3.shows hs⟩
  | cons x keys ih =>
    obtain ⟨large, key⟩ := x
    intro st es hI hE
    rcases update_spec hN hI hE with h | ⟨st1, used, rest1, h, h1, h2, h3⟩
    · rw [run, h]
      exact ⟨fun _ _ => by simp, by simp⟩
    · have hD := draw_inv large h3.inv
      obtain ⟨d1, d2, d3, d4⟩ := draw_past (st := st1) large
      subst h1
      by_cases hq : key = .quit
      · have hrun : run vars ((large, key) :: keys) st (used ++ rest1) = .quit := by
          rw [run, h]
          exact if_pos hq
        rw [hrun]
        exact ⟨fun _ _ => by simp, by simp⟩
      · cases hp : press vars key (draw large st1) with
        | none =>
          have hrun : run vars ((large, key) :: keys) st (used ++ rest1) = .crashed := by
            rw [run, h]
            dsimp only
            rw [if_neg hq, hp]
          rw [hrun]
          refine ⟨fun hz hk => ?_, by simp⟩
          have hl := hk (large, key) (List.mem_cons_self ..)
          have hdr : (draw large st1).drawn = some (draw large st1).past.length := by
            have h5 : st1.help = 0 := h3.help.trans hz
            rw [draw, if_pos ⟨hl.1, h5⟩]
          obtain ⟨_, h6⟩ := press_some hD hdr key
          rw [hp] at h6
          cases h6
        | some st2 =>
          have hrun : run vars ((large, key) :: keys) st (used ++ rest1) = run vars keys st2 rest1 := by
            rw [run, h]
            dsimp only
            rw [if_neg hq, hp]
          have hI2 := press_inv hb hh hg hD hp
          obtain ⟨ih1, ih2⟩ := ih st2 rest1 hI2 hE.suffix
          rw [hrun]
          refine ⟨fun hz hk => ih1 ?_ fun y hy => hk y (List.mem_cons_of_mem _ hy), fun st' rest he => ?_⟩
          · have hl := hk (large, key) (List.mem_cons_self ..)
            exact (press_help hl.2 hp).trans (d4.trans (h3.help.trans hz))
          · obtain ⟨j1, ⟨used2, j2, j3⟩, j4⟩ := ih2 st' rest he
            refine ⟨j1, ⟨used ++ used2, by rw [j2, List.append_assoc], fun e he => ?_⟩, fun hs hc => ?_⟩
            · rcases List.mem_append.mp he with he | he
              · exact h2 e he
              · exact j3 e he
            · refine j4 (press_shows hD ?_ ?_ hp) ?_
              · rw [columns_eq, d1, d2, ← columns_eq]
                exact h3.shows hs
              · intro hr
                have := hc [] large keys (by rw [hr]; rfl) st1 rest1 (by rw [run]; exact h)
                intro v y hv hy
                rw [d3] at hv hy
                rw [d2] at hy
                exact this v y hv hy
              · intro before large' after hk s r hs'
                refine hc ((large, key) :: before) large' after (by rw [hk]; rfl) s r ?_
                rw [run, h]
                dsimp only
                rw [if_neg hq, hp]
                exact hs'
where
  press_help {st st' : St} {key : Key} (hk : key ≠ .help) (h : press vars key st = some st') : st'.help = st.help := by
    unfold press at h
    simp only [Option.bind_eq_bind, Option.bind_eq_some_iff] at h
    obtain ⟨v, hv, c, hc, h⟩ := h
    have he : ∀ k, edit v c k st = some st' → st'.help = st.help := by
      intro k h
      unfold edit at h
      simp only [Option.bind_eq_bind, Option.bind_eq_some_iff, Option.pure_def] at h
      obtain ⟨j, _, e, _, d, _, h⟩ := h
      split at h <;> cases h <;> rfl
    cases key with
    | down => simp only [Option.pure_def, Option.some.injEq] at h; subst h; split <;> rfl
    | up => simp only [Option.pure_def, Option.some.injEq] at h; subst h; rfl
    | right =>
      simp only [Option.pure_def, Option.some.injEq] at h
      subst h
      unfold goRight
      split
      · rfl
      · split <;> rfl
    | left =>
      simp only [Option.pure_def, Option.some.injEq] at h
      subst h
      unfold goLeft
      split <;> rfl
    | digit k => exact he _ h
    | backspace => exact he _ h
    | quit => cases h; rfl
    | help => exact absurd rfl hk
    | other => cases h; rfl

end Slugs.Model.Curses
