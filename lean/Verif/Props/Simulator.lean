import Verif.Lemmas.SimulatorRun
import Verif.Lemmas.SimulatorTable
import Verif.Lemmas.SimulatorKeys
import Verif.Props.Interactive

/-!
# C85: the simulator on the terminal

`Curses.run` is the model of the main loop of `tools/cursesSimulator.py`, as a function of the keys pressed and of the exchanges in the session with
`slugs --interactiveStrategy`.  `Spec/Simulator.lean` says what the columns of the table should show.
-/

namespace Slugs.Props

open Slugs.Spec Slugs.Model Slugs.Model.Curses

variable {B : Type} [DecidableEq B] [L : BddLib B]
variable {cap : Nat} {order : List Char → Bool} {text : List Char} {tab : VarTable} {c : Ctx B} {sp : SpecFile} {alg : Algorithm}

/-- The answers in a session, as the simulator uses them. -/
theorem answers_of_session (h : initContext cap order text = .ok (tab, c)) (hd : Denotes text sp) :
    ∃ S, (sp.game.Realizable → SystemMoves sp S) ∧ (¬ sp.game.Realizable → EnvironmentMoves sp S) ∧
      ∀ real es e, IsSession B alg cap order text real es e → ∀ before after, es = before ++ after → Answers sp real S after := by
  obtain ⟨S, h1, h2, h3⟩ := C50_strategyTransition_partial (alg := alg) h hd
  refine ⟨S, h1, h2, fun real es e hs before after he => ⟨fun typed answer hm => ?_, fun src typed la lg answer hm => ?_⟩⟩
  · exact (C49_completeInit h hd hs (by rw [he]; exact List.mem_append_right _ hm)).2
  · exact (h3 real es e hs src typed la lg answer (by rw [he]; exact List.mem_append_right _ hm)).2.2

/-- **C85, partial.** Whatever keys are pressed: if the value under the cursor is within its bounds whenever the right arrow key is pressed, then all columns without
flags show a play in which the player who wins follows their strategy; only the last column can have flags. -/
theorem C85_play_partial (h : initContext cap order text = .ok (tab, c)) (hd : Denotes text sp) :
    ∃ S, (sp.game.Realizable → SystemMoves sp S) ∧ (¬ sp.game.Realizable → EnvironmentMoves sp S) ∧
      ∀ real before es e, IsSession B alg cap order text real (before ++ es) e →
      ∀ vars, Numbering (sp.inputs.length + sp.outputs.length) vars → vars ≠ [] → ∀ keys st rest, run vars keys (start vars) es = .goesOn st rest →
        (∀ keys1 large keys2, keys = keys1 ++ (large, .right) :: keys2 → ∀ s r, run vars keys1 (start vars) es = .goesOn s r → InBounds vars s) →
        ShowsPlay sp real S vars st.columns ∧ ∀ i col, st.columns[i]? = some col → i + 1 < st.columns.length → col.flagged = false := by
  obtain ⟨S, h1, h2, h3⟩ := answers_of_session (alg := alg) h hd
  refine ⟨S, h1, h2, fun real before es e hs vars hN hv keys st rest hr hc => ?_⟩
  have hI : Inv vars sp.hopes sp.goals (start vars) := inv_start hv (by simp [SpecFile.hopes]) (by simp [SpecFile.goals])
  obtain ⟨i1, _, i2⟩ := (run_spec (S := S) hN keys _ es hI (h3 real _ e hs before es rfl)).2 st rest hr
  refine ⟨i2 showsPlay_nil hc, fun i col hcol hi => ?_⟩
  rw [columns_eq] at hcol hi
  rw [List.getElem?_append_left (by simpa using hi)] at hcol
  obtain ⟨en, hen, rfl⟩ := List.mem_map.mp (List.mem_of_getElem? hcol)
  exact (i1.past en hen).2

/-- **C85.** As long as the table is on the screen (the terminal is large enough, and the help texts are not called up), no key makes the program stop with an exception or
a failed assertion; in particular, the values that slugs chooses always agree with the values entered by hand. -/
theorem C85_no_crash (h : initContext cap order text = .ok (tab, c)) (hd : Denotes text sp) {real : Bool} {before es : List Exchange} {e : SessionEnd}
    (hs : IsSession B alg cap order text real (before ++ es) e) {vars : List ShownVar} (hN : Numbering (sp.inputs.length + sp.outputs.length) vars)
    (hv : vars ≠ []) {keys : List (Bool × Key)} (hk : ∀ x ∈ keys, x.1 = true ∧ x.2 ≠ .help) : run vars keys (start vars) es ≠ .crashed := by
  obtain ⟨S, _, _, h3⟩ := answers_of_session (alg := alg) h hd
  exact (run_spec (S := S) hN keys _ es (inv_start hv (by simp [SpecFile.hopes]) (by simp [SpecFile.goals])) (h3 real _ e hs before es rfl)).1 rfl hk

/-- **C85.** All requests sent have the right numbers of characters, and the numbers of the liveness properties in them exist. -/
theorem C85_requests (h : initContext cap order text = .ok (tab, c)) (hd : Denotes text sp) {real : Bool} {before es : List Exchange} {e : SessionEnd}
    (hs : IsSession B alg cap order text real (before ++ es) e) {vars : List ShownVar} (hN : Numbering (sp.inputs.length + sp.outputs.length) vars)
    (hv : vars ≠ []) {keys : List (Bool × Key)} {st : St} {rest : List Exchange} (hr : run vars keys (start vars) es = .goesOn st rest) :
    ∃ used, es = used ++ rest ∧ ∀ x ∈ used,
      (∃ typed answer, x = .completeInit typed answer ∧ typed.length = sp.inputs.length + sp.outputs.length) ∨
      ∃ src typed la lg answer, x = .strategyTransition src typed la lg answer ∧ src.length = sp.inputs.length + sp.outputs.length ∧
        typed.length = sp.inputs.length + sp.outputs.length ∧ la < sp.hopes ∧ lg < sp.goals := by
  obtain ⟨S, _, _, h3⟩ := answers_of_session (alg := alg) h hd
  obtain ⟨_, ⟨used, h1, h2⟩, _⟩ :=
    (run_spec (S := S) hN keys _ es (inv_start hv (by simp [SpecFile.hopes]) (by simp [SpecFile.goals])) (h3 real _ e hs before es rfl)).2 st rest hr
  refine ⟨used, h1, fun x hx => ?_⟩
  have := h2 x hx
  cases x with
  | completeInit typed answer => exact .inl ⟨typed, answer, rfl, this⟩
  | strategyTransition src typed la lg answer => exact .inr ⟨src, typed, la, lg, answer, rfl, this⟩
  | _ => exact this.elim

/-- **C85.** Within a column, a value entered by hand is within the bounds of the variable, unless there is a flag. -/
theorem C85_bounds (h : initContext cap order text = .ok (tab, c)) (hd : Denotes text sp) {real : Bool} {before es : List Exchange} {e : SessionEnd}
    (hs : IsSession B alg cap order text real (before ++ es) e) {vars : List ShownVar} (hN : Numbering (sp.inputs.length + sp.outputs.length) vars)
    (hv : vars ≠ []) {keys : List (Bool × Key)} {st : St} {rest : List Exchange} (hr : run vars keys (start vars) es = .goesOn st rest) :
    ∀ en ∈ st.past ++ [st.last], en.flags.any = false → ∀ (i : Nat) v cell, vars[i]? = some v → en.cells[i]? = some cell → cell.tag = edited →
      v.lo ≤ cell.val ∧ cell.val ≤ v.hi := by
  obtain ⟨S, _, _, h3⟩ := answers_of_session (alg := alg) h hd
  obtain ⟨hI, _, _⟩ :=
    (run_spec (S := S) hN keys _ es (inv_start hv (by simp [SpecFile.hopes]) (by simp [SpecFile.goals])) (h3 real _ e hs before es rfl)).2 st rest hr
  intro en hen hf i v cell h1 h2 h4
  rcases List.mem_append.mp hen with hen | hen
  · exact (hI.past en hen).1.2 i v cell h1 h2 h4
  · rw [List.mem_singleton.mp hen] at hf h2
    rcases hI.ok i v cell h1 h2 h4 with h5 | ⟨_, h5⟩
    · exact h5
    · simp [Flags.any, h5] at hf

/-- **C85.** Typing the digits of a number sets the value under the cursor to it (but to 999999 at most), in a column without a flag and while the table is on the screen; the number is
marked as entered by hand, and the earlier columns stay as they are.  (Whether the number is in the bounds is shown by the flag, see `C85_bounds`.) -/
theorem C85_typed {vars : List ShownVar} {es : List Exchange} {keys : List (Bool × Key)} (hk : ∀ x ∈ keys, x.2 ≠ .help) (ha : ∀ x ∈ keys.getLast?, isArrow x.2) {st : St}
    {rest : List Exchange} (h : run vars keys (start vars) es = .goesOn st rest) (hf : ∀ c ∈ st.columns.getLast?, c.flagged = false)
    {ds : List (Fin 10)} (hds : ds ≠ []) {st' : St} {rest' : List Exchange}
    (h' : run vars (keys ++ ds.map fun d => (true, .digit d)) (start vars) es = .goesOn st' rest') :
    st'.cursor = st.cursor ∧ st'.columns.dropLast = st.columns.dropLast ∧
      st'.last.cells[st.cursor]? = some ⟨min 999999 (typedNumber ds), edited⟩ := by
  have hf' : st.last.flags.any = false := hf st.last.column (by rw [columns_eq]; simp)
  obtain ⟨h1, h2, h3⟩ := run_digits hk ha h hf' ds h'
  refine ⟨h2, by rw [columns_eq, columns_eq, h1]; simp, ?_⟩
  rcases h3 with ⟨h3, _⟩ | ⟨_, _, h3⟩
  · exact absurd h3 hds
  · rw [← h2]; exact h3

/-- **C85.** Backspace removes the last digit of a number that has just been typed. -/
theorem C85_backspace {vars : List ShownVar} {es : List Exchange} {keys : List (Bool × Key)} (hk : ∀ x ∈ keys, x.2 ≠ .help) (ha : ∀ x ∈ keys.getLast?, isArrow x.2)
    {st : St} {rest : List Exchange} (h : run vars keys (start vars) es = .goesOn st rest) (hf : ∀ c ∈ st.columns.getLast?, c.flagged = false)
    {ds : List (Fin 10)} (hds : typedNumber ds ≠ 0) {st' : St} {rest' : List Exchange}
    (h' : run vars ((keys ++ ds.map fun d => (true, .digit d)) ++ [(true, .backspace)]) (start vars) es = .goesOn st' rest') :
    st'.cursor = st.cursor ∧ st'.columns.dropLast = st.columns.dropLast ∧
      st'.last.cells[st.cursor]? = some ⟨(min 999999 (typedNumber ds) : Int) / 10, edited⟩ := by
  have hne : ds ≠ [] := by rintro rfl; exact hds rfl
  have hf' : st.last.flags.any = false := hf st.last.column (by rw [columns_eq]; simp)
  obtain ⟨st1, rest1, s, h1, h2, h3⟩ := run_snoc h'
  obtain ⟨i1, i2, i3⟩ := run_digits hk ha h hf' ds h1
  have hh : st1.help = 0 := by
    refine run_help (fun x hx => ?_) h1
    rcases List.mem_append.mp hx with hx | hx
    · exact hk x hx
    · obtain ⟨e, _, rfl⟩ := List.mem_map.mp hx
      simp
  obtain ⟨_, i4, i5⟩ := i3.resolve_left fun h => hne h.1
  obtain ⟨d1, d2, d3, d4, d5, d6⟩ := draw_kept true st1
  have hdr : (draw true st1).drawn = some (draw true st1).past.length := by rw [d1]; exact draw_true hh
  obtain ⟨v, c, hv, hc, hp⟩ := press_cases h2
  have hK := update_kept h3
  cases hp with
  | backspace he =>
    have hc1 := hc
    rw [d2, d3, i5] at hc1
    cases hc1
    obtain ⟨e1, e2, e3⟩ := edit_backspace hdr hc rfl he
    have e4 : (newCell v ⟨min maxOverall (typedNumber ds), edited⟩ (draw true st1).editing none).1 = ⟨(min 999999 (typedNumber ds) : Int) / 10, edited⟩ := by
      have : ¬ ((draw true st1).editing = false ∨ (min maxOverall (typedNumber ds) : Int) = 0) := by
        rw [d6, i4]
        simp only [maxOverall]
        rintro (h | h)
        · cases h
        · omega
      simp only [newCell]
      rw [if_neg this]
      rfl
    have hcur : s.cursor = st.cursor := e2.trans (d3.trans i2)
    refine ⟨hK.cursor.trans hcur, ?_, ?_⟩
    · rw [columns_eq, columns_eq, hK.past, e1, d1, i1]; simp
    · rw [← hcur]
      exact hK.cells _ _ (e3.trans (congrArg some e4)) rfl

/-- **C85.** The arrow keys.  To the right, the columns stay as they are and there is one more, unless there is a flag; to the left, the last one is removed; with all
other keys the number of columns and all columns except for the last one stay as they are. -/
theorem C85_keys {vars : List ShownVar} {es : List Exchange} {keys : List (Bool × Key)} {large : Bool} {k : Key} {st' : St} {rest' : List Exchange}
    (h : run vars (keys ++ [(large, k)]) (start vars) es = .goesOn st' rest') :
    ∃ st rest, run vars keys (start vars) es = .goesOn st rest ∧
      (k = .right → st.last.flags.any = false → InBounds vars st →
        st'.columns.length = st.columns.length + 1 ∧ st'.columns.take st.columns.length = st.columns) ∧
      (k = .right → st.last.flags.a = true ∨ st.last.flags.g = true ∨ st.last.flags.l = true → st'.columns.length = st.columns.length) ∧
      (k = .left → st'.columns.length = max 1 (st.columns.length - 1)) ∧
      (k = .left → st'.columns.take (st.columns.length - 2) = st.columns.take (st.columns.length - 2)) ∧
      (k ≠ .left → k ≠ .right → st'.columns.length = st.columns.length) ∧
      (k ≠ .left → st'.columns.take (st.columns.length - 1) = st.columns.take (st.columns.length - 1)) ∧
      st'.cursor = (if k = .up then st.cursor - 1 else if k = .down ∧ st.cursor + 1 < vars.length then st.cursor + 1 else st.cursor) := by
  obtain ⟨st, rest, s, h1, h2, h3⟩ := run_snoc h
  refine ⟨st, rest, h1, ?_⟩
  obtain ⟨v, c, hv, hc, hp⟩ := press_cases h2
  obtain ⟨d1, d2, d3, d4, d5, d6⟩ := draw_kept large st
  have hK := update_kept h3
  have same : s.past = st.past → st'.columns.length = st.columns.length ∧ st'.columns.take (st.columns.length - 1) = st.columns.take (st.columns.length - 1) :=
    fun e => columns_of_past (hK.past.trans e)
  rw [hK.cursor]
  have hlen : ∀ x : St, x.columns.length = x.past.length + 1 := fun x => by rw [columns_eq]; simp
  cases hp with
  | up => have := same d1; exact ⟨by simp, by simp, by simp, by simp, fun _ _ => this.1, fun _ => this.2, by simp [d3]⟩
  | down =>
    have e : (if (draw large st).cursor + 1 < vars.length then { leave v c (draw large st) with cursor := (draw large st).cursor + 1 }
        else leave v c (draw large st)).past = st.past := by split <;> exact d1
    have := same e
    refine ⟨by simp, by simp, by simp, by simp, fun _ _ => this.1, fun _ => this.2, ?_⟩
    rw [d3]
    by_cases hl : st.cursor + 1 < vars.length
    · simp [hl]
    · simp [hl, leave, St.setCell, St.setOob, d3]
  | left =>
    refine ⟨by simp, by simp, fun _ => ?_, fun _ => ?_, by simp, by simp, ?_⟩
    · rw [hlen, hlen, hK.past]
      unfold goLeft
      split
      · rename_i hg
        have : st.past = [] := by rw [← d1]; simpa [leave_past] using hg
        rw [leave_past, d1, this]
        simp
      · rename_i e hg
        have : st.past ≠ [] := by
          rintro h0
          rw [leave_past, d1, h0] at hg
          simp at hg
        have h0 := List.length_pos_iff.mpr this
        simp only [leave_past, d1, List.length_dropLast]
        omega
    · rw [hlen]
      rw [columns_eq, columns_eq, hK.past]
      have e : (goLeft (leave v c (draw large st))).past = st.past.dropLast := by
        unfold goLeft
        split
        · rename_i hg
          have : st.past = [] := by rw [← d1]; simpa [leave_past] using hg
          rw [leave_past, d1, this]
          rfl
        · simp only [leave_past, d1]
      rw [e, show st.past.length + 1 - 2 = st.past.length - 1 by omega]
      rw [List.take_append_of_le_length (by simp), List.take_append_of_le_length (by simp)]
      rw [← List.map_take, ← List.map_take, List.dropLast_eq_take, List.take_take, Nat.min_self]
    · unfold goLeft
      split <;> simp [leave, St.setCell, St.setOob, d3]
  | right =>
    have hany : st.last.flags.any = false → InBounds vars st → (goRight vars (leave v c (draw large st))).past = st.past ++ [st.last] := by
      intro hf hb
      have hbc : v.lo ≤ c.val ∧ c.val ≤ v.hi := by
        rw [d3] at hv
        rw [d2, d3] at hc
        exact hb v c.val hv (by rw [List.getElem?_map, hc]; rfl)
      have e1 := leave_same hc hbc
      rw [d2] at e1
      have e2 : (leave v c (draw large st)).last = st.last := by
        have e3 : (leave v c (draw large st)).last.goals = st.last.goals := by simp [leave, St.setCell, St.setOob, d2]
        have e4 : (leave v c (draw large st)).last.flags = st.last.flags := by
          simp only [Flags.any, Bool.or_eq_false_iff] at hf
          have := hf.2
          simp only [leave, St.setCell, St.setOob, d2]
          rw [← this]
        generalize (leave v c (draw large st)).last = x at e1 e3 e4
        obtain ⟨x1, x2, x3⟩ := x
        subst e1; subst e3; subst e4
        rfl
      unfold goRight
      rw [e2, hf, leave_past, d1]
      simp only [Bool.false_eq_true, if_false]
      split <;> rfl
    have hpre : ∃ more, (goRight vars (leave v c (draw large st))).past = st.past ++ more := by
      unfold goRight
      split
      · exact ⟨[], by rw [leave_past, d1, List.append_nil]⟩
      · split <;> exact ⟨_, by rw [leave_past, d1]⟩
    refine ⟨fun _ hf hb => ?_, fun _ hf => ?_, by simp, by simp, by simp, fun _ => ?_, ?_⟩
    · have e := hK.past.trans (hany hf hb)
      refine ⟨by rw [hlen, hlen, e]; simp, ?_⟩
      rw [hlen, columns_eq st', e, columns_eq st, List.map_append]
      exact List.take_left' (by simp)
    · have e : (goRight vars (leave v c (draw large st))).past = st.past := by
        unfold goRight
        rw [if_pos]
        · rw [leave_past, d1]
        · simp only [leave, St.setCell, St.setOob, d2, Flags.any]
          rcases hf with h | h | h <;> simp [h]
      exact (same e).1
    · obtain ⟨more, e⟩ := hpre
      have e' := hK.past.trans e
      rw [hlen, columns_eq st', e', columns_eq st]
      simp
    · unfold goRight
      split
      · simp [leave, St.setCell, St.setOob, d3]
      · split <;> simp [leave, St.setCell, St.setOob, d3]
  | digit he =>
    have e : s.past = st.past ∧ s.cursor = st.cursor := by rcases edit_cases he with rfl | rfl <;> exact ⟨d1, d3⟩
    have := same e.1
    exact ⟨by simp, by simp, by simp, by simp, fun _ _ => this.1, fun _ => this.2, by simp [e.2]⟩
  | backspace he =>
    have e : s.past = st.past ∧ s.cursor = st.cursor := by rcases edit_cases he with rfl | rfl <;> exact ⟨d1, d3⟩
    have := same e.1
    exact ⟨by simp, by simp, by simp, by simp, fun _ _ => this.1, fun _ => this.2, by simp [e.2]⟩
  | help => have := same d1; exact ⟨by simp, by simp, by simp, by simp, fun _ _ => this.1, fun _ => this.2, by simp [d3]⟩
  | quit => have := same d1; exact ⟨by simp, by simp, by simp, by simp, fun _ _ => this.1, fun _ => this.2, by simp [d3]⟩
  | other => have := same d1; exact ⟨by simp, by simp, by simp, by simp, fun _ _ => this.1, fun _ => this.2, by simp [d3]⟩

/-- **C85.** The numbers entered by hand are kept: when the cursor is moved up or down, and when the user goes back to the column before and returns. -/
theorem C85_kept {vars : List ShownVar} {es : List Exchange} {keys : List (Bool × Key)} {st : St} {rest : List Exchange}
    (h : run vars keys (start vars) es = .goesOn st rest) (hb : InBounds vars st) {i : Nat} {cell : Cell} (hcell : st.last.cells[i]? = some cell)
    (ht : cell.tag = edited) :
    (∀ large k st' rest', k = .up ∨ k = .down → run vars (keys ++ [(large, k)]) (start vars) es = .goesOn st' rest' → st'.last.cells[i]? = some cell) ∧
    ∀ large1 large2 st' rest', 1 < st.columns.length → run vars (keys ++ [(large1, .left)] ++ [(large2, .right)]) (start vars) es = .goesOn st' rest' →
      st'.columns.length = st.columns.length → st'.last.cells[i]? = some cell := by
  have hleft : ∀ large v c, vars[(draw large st).cursor]? = some v → (draw large st).last.cells[(draw large st).cursor]? = some c →
      (leave v c (draw large st)).last.cells = st.last.cells := by
    intro large v c hv hc
    obtain ⟨d1, d2, d3, d4, d5, d6⟩ := draw_kept large st
    have hbc : v.lo ≤ c.val ∧ c.val ≤ v.hi := by
      rw [d3] at hv
      rw [d2, d3] at hc
      exact hb v c.val hv (by rw [List.getElem?_map, hc]; rfl)
    rw [leave_same hc hbc, d2]
  refine ⟨fun large k st' rest' hk h' => ?_, fun large1 large2 st' rest' hlen h' hsame => ?_⟩
  · obtain ⟨st1, rest1, s, h1, h2, h3⟩ := run_snoc h'
    rw [h] at h1
    cases h1
    obtain ⟨v, c, hv, hc, hp⟩ := press_cases h2
    have hl := hleft large v c hv hc
    refine (update_kept h3).cells i cell ?_ ht
    cases hp with
    | up => rw [← hcell, ← hl]
    | down => rw [← hcell, ← hl]; split <;> rfl
    | _ => simp at hk
  · obtain ⟨st2, rest2, s2, h1, h2, h3⟩ := run_snoc h'
    obtain ⟨st1, rest1, s1, g1, g2, g3⟩ := run_snoc h1
    rw [h] at g1
    cases g1
    obtain ⟨v, c, hv, hc, hp⟩ := press_cases g2
    have hl := hleft large1 v c hv hc
    obtain ⟨d1, d2, d3, d4, d5, d6⟩ := draw_kept large1 st
    have hpast : st.past ≠ [] := by
      rintro h0
      rw [columns_eq, h0] at hlen
      simp at hlen
    cases hp with
    | left =>
      have e : ∃ post, (goLeft (leave v c (draw large1 st))).post = st.last.cells :: post ∧ (goLeft (leave v c (draw large1 st))).past.length + 1 = st.past.length := by
        unfold goLeft
        rw [leave_past, d1]
        split
        · rename_i hg; exact absurd (by simpa using hg) hpast
        · refine ⟨_, by rw [hl], ?_⟩
          have := List.length_pos_iff.mpr hpast
          simp only [List.length_dropLast]
          omega
      obtain ⟨post, e1, e2⟩ := e
      have hK1 := update_kept g3
      rw [← hK1.post] at e1
      rw [← hK1.past] at e2
      obtain ⟨w, b, hw, hbc, hp2⟩ := press_cases h2
      obtain ⟨f1, f2, f3, f4, f5, f6⟩ := draw_kept large2 st2
      have hK2 := update_kept h3
      refine hK2.cells i cell ?_ ht
      cases hp2 with
      | right =>
        have hlen' : ∀ x : St, x.columns.length = x.past.length + 1 := fun x => by rw [columns_eq]; simp
        rw [hlen', hlen', hK2.past] at hsame
        unfold goRight at hsame ⊢
        split at hsame
        · rw [leave_past, f1] at hsame
          omega
        · rename_i hany
          rw [if_neg hany]
          have ep : (leave w b (draw large2 st2)).post = st.last.cells :: post := by rw [leave_post, f4, e1]
          rw [ep]
          exact hcell

def keyVars : List ShownVar := [⟨txt!"x", 0, 20, [(0, 0), (1, 1), (2, 2), (3, 3), (4, 4)], false⟩, ⟨txt!"y", 0, 1, [(0, 5)], true⟩]

def keyExchanges : List Exchange := [.completeInit txt!"......" (.found txt!"101000" ()), .completeInit txt!"10000." (.found txt!"100001" ()),
  .completeInit txt!"00110." (.found txt!"001100" ()), .strategyTransition txt!"001100" txt!"......" 0 0 (.found txt!"00000S" (0, 0)),
  .strategyTransition txt!"001100" txt!"11000." 0 0 (.found txt!"110000" (0, 0)), .completeInit txt!"00110." (.found txt!"001100" ()),
  .strategyTransition txt!"001100" txt!"11000." 0 0 (.found txt!"110000" (0, 0))]

/-- The hypotheses are met: at first slugs chooses 5; the user types 12, goes to the right, types 3, goes back and to the right again. -/
example : ∃ st rest, run keyVars [(true, .digit 1), (true, .digit 2), (true, .right), (true, .digit 3), (true, .left), (true, .right)] (start keyVars) keyExchanges = .goesOn st rest ∧
    st.columns = [⟨[12, 0], (0, 0), false⟩, ⟨[3, 0], (0, 0), false⟩] := by
  refine ⟨⟨[⟨[⟨12, 1⟩, ⟨0, 0⟩], (0, 0), {}⟩], ⟨[⟨3, 1⟩, ⟨0, 0⟩], (0, 0), {}⟩, [], 0, false, 0, some 0⟩, [], ?_, ?_⟩ <;> decide +kernel

/-- **C85.** For the propositions of a compiled file, the table has one line for every variable (except those that can only have one value), with its name and its bounds,
and the bits of the line are the propositions of the variable; so every proposition belongs to exactly one line, as the theorems above need it. -/
theorem C85_table {ins outs : List Spec.Structured.Decl} (hn : ((ins ++ outs).map Spec.Structured.Decl.name).Nodup)
    (hat : ∀ d ∈ ins ++ outs, '@' ∉ d.name) (hr : ∀ d ∈ ins ++ outs, ∀ lo hi, d.range = some (lo, hi) → 0 ≤ lo ∧ lo ≤ hi) :
    ∃ vars, readTable (ins.flatMap propNames) (outs.flatMap propNames) = some vars ∧
      vars.Perm (linesOf false 0 ins ++ linesOf true (ins.flatMap propNames).length outs) ∧
      Numbering ((ins.flatMap propNames).length + (outs.flatMap propNames).length) vars := by
  rw [List.map_append] at hn
  have hi : ∀ d ∈ ins, d ∈ ins ++ outs := fun d h => List.mem_append_left _ h
  have ho : ∀ d ∈ outs, d ∈ ins ++ outs := fun d h => List.mem_append_right _ h
  obtain ⟨v1, e1, p1⟩ := readNames_spec false 0 (base := []) (fun d h => hat d (hi d h)) (fun d h => hr d (hi d h))
    (by simpa using (List.nodup_append.mp hn).1)
  obtain ⟨v2, e2, p2⟩ := readNames_spec true (ins.flatMap propNames).length (base := v1) (fun d h => hat d (ho d h)) (fun d h => hr d (ho d h))
    (((p1.map ShownVar.name).append_right _).nodup_iff.mpr (hn.sublist (List.Sublist.append_right (linesOf_names false ins 0) _)))
  refine ⟨v1 ++ v2, ?_, p1.append p2, ?_⟩
  · rw [readTable, e1]
    exact e2
  · obtain ⟨a1, a2⟩ := linesOf_spec false ins 0 fun d h lo hi' e => (hr d (hi d h) lo hi' e).2
    obtain ⟨b1, b2⟩ := linesOf_spec true outs (ins.flatMap propNames).length fun d h lo hi' e => (hr d (ho d h) lo hi' e).2
    refine numbering_of_perm (p1.append p2) (fun v hv => ?_) ?_
    · rcases List.mem_append.mp hv with hv | hv
      · exact a1 v hv
      · exact b1 v hv
    · rw [List.flatMap_append, a2, b2, List.range_eq_range']
      have := List.range'_append_1 (s := 0) (m := (ins.flatMap propNames).length) (n := (outs.flatMap propNames).length)
      rwa [Nat.zero_add] at this

/-- The hypotheses are met by a truth value and a number as inputs, and a number as output; the line of the truth value comes after that of the number. -/
example : readTable (List.flatMap propNames [⟨txt!"a", none⟩, ⟨txt!"x", some (3, 12)⟩]) (List.flatMap propNames [⟨txt!"y", some (0, 2)⟩]) =
    some [⟨txt!"x", 3, 12, [(0, 1), (1, 2), (2, 3), (3, 4)], false⟩, ⟨txt!"a", 0, 1, [(0, 0)], false⟩, ⟨txt!"y", 0, 2, [(0, 5), (1, 6)], true⟩] := by
  decide +kernel

/-! ### An example, and the defect -/

def simText : List Char := txt!"[OUTPUT]\ny\n[SYS_INIT]\n! y"

def simSpec : SpecFile where
  inputs := []
  outputs := [txt!"y"]
  envInit := []
  sysInit := [.not (.var txt!"y")]
  envTrans := []
  sysTrans := []
  envLiveness := []
  sysLiveness := []

theorem simSpec_denotes : Denotes simText simSpec := by
  refine ⟨[(.output, txt!"y"), (.sysInit, txt!"! y")], ?_, by decide, by decide, ?_, ?_, ?_, ?_, ?_, ?_⟩
  · have : splitLines simText = [txt!"[OUTPUT]", txt!"y", txt!"[SYS_INIT]", txt!"! y"] := by decide
    rw [this]
    refine .header .output (by decide) (.item (by decide) (by decide) (by decide) ?_)
    exact .header .sysInit (by decide) (.item (by decide) (by decide) (by decide) .nil)
  all_goals
    simp only [simSpec, itemsOf]
  · exact .nil
  · exact .cons (reads_text (.not (.var txt!"y")) (by simp [Fml.Wf]) (by decide) (by decide)) .nil
  · exact .nil
  · exact .nil
  · exact .nil
  · exact .nil

def simVars : List ShownVar := [⟨txt!"y", 0, 1, [(0, 0)], true⟩]

theorem simVars_numbering : Numbering (simSpec.inputs.length + simSpec.outputs.length) simVars :=
  ⟨by decide, by decide, by decide, by decide⟩

/-- The table of the example is what the simulator reads. -/
example : readTable [] [txt!"y"] = some simVars := by decide

/-- Two steps; in the second one, 1 is entered for `y`.  The text of the requests is the one that the simulator writes. -/
theorem sim_session : runInteractive ROBDD .standard 1000 (fun _ => true) 50 simText
      txt!"XPRINTINPUTS\nXPRINTOUTPUTS\nXCOMPLETEINIT\n.XSTRATEGYTRANSITION\n0.\n0\n0\nXSTRATEGYTRANSITION\n01\n0\n0\n" [] =
    .session true [.printInputs [], .printOutputs [['y']], .completeInit ['.'] (.found ['g'] ()), .strategyTransition ['0'] ['.'] 0 0 (.found ['0'] (0, 0)),
      .strategyTransition ['0'] ['1'] 0 0 (.found ['A'] (0, 0))] .quit := by rfl

/-- The run of the simulator in this session. -/
example : ∃ st, run simVars [(true, .right), (true, .digit 1)] (start simVars)
      [.completeInit ['.'] (.found ['g'] ()), .strategyTransition ['0'] ['.'] 0 0 (.found ['0'] (0, 0)),
      .strategyTransition ['0'] ['1'] 0 0 (.found ['A'] (0, 0))] = .goesOn st [] ∧
    st.columns = [⟨[0], (0, 0), false⟩, ⟨[1], (0, 0), false⟩] := ⟨_, rfl, rfl⟩

theorem sim_session2 : runInteractive ROBDD .standard 1000 (fun _ => true) 50 simText
      txt!"XPRINTINPUTS\nXPRINTOUTPUTS\nXCOMPLETEINIT\n.XSTRATEGYTRANSITION\n1.\n0\n0\n" [] =
    .session true [.printInputs [], .printOutputs [['y']], .completeInit ['.'] (.found ['g'] ()),
      .strategyTransition ['1'] ['.'] 0 0 (.found ['0'] (0, 0))] .quit := by rfl

/-- **C85** does not hold in general: after 9 has been entered for a proposition, the right arrow key turns it into 1 and goes on to the next column without asking slugs
(`tools/cursesSimulator.py:478-505`); there is no flag, although no first position that the specification allows has this value. -/
theorem C85_play_violated : ∃ (text : List Char) (sp : SpecFile) (before es : List Exchange) (vars : List ShownVar) (keys : List (Bool × Key)) (st : St),
    Denotes text sp ∧ IsSession ROBDD .standard 1000 (fun _ => true) text true (before ++ es) .quit ∧
    Numbering (sp.inputs.length + sp.outputs.length) vars ∧ run vars keys (start vars) es = .goesOn st [] ∧
    (∀ col ∈ st.columns, col.flagged = false) ∧ ∀ S, ¬ ShowsPlay sp true S vars st.columns := by
  refine ⟨simText, simSpec, [.printInputs [], .printOutputs [['y']]], [.completeInit ['.'] (.found ['g'] ()),
      .strategyTransition ['1'] ['.'] 0 0 (.found ['0'] (0, 0))], simVars, [(true, .digit 9), (true, .right)], _, simSpec_denotes,
    ⟨_, _, _, sim_session2⟩, simVars_numbering, rfl, by decide, ?_⟩
  rintro S ⟨p, hp⟩
  obtain ⟨h1, h2, _⟩ := hp 0 _ rfl rfl
  obtain ⟨_, _, hi, _⟩ := h2 rfl
  have h3 : (p 0).2 ⟨txt!"y", by decide⟩ = false := by
    have h5 : simSpec.holds (p 0) (p 0) (.not (.var txt!"y")) := hi _ (by simp [simSpec])
    have h6 : simSpec.holds (p 0) (p 0) (.not (.var txt!"y")) ↔ some (!(p 0).2 ⟨txt!"y", by decide⟩) = some true := Iff.rfl
    simpa using h6.mp h5
  have h4 : bitsOf simSpec (p 0) = [(p 0).2 ⟨txt!"y", by decide⟩] := rfl
  rw [h4, h3] at h1
  exact absurd h1 (by decide)

end Slugs.Props
