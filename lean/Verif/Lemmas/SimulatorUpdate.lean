import Verif.Lemmas.SimulatorPlay

/-!
# Updating the trace
-/

namespace Slugs.Model.Curses

open Slugs.Spec

variable {sp : SpecFile} {real : Bool} {S : Nat → Pos sp.In sp.Out → Pos sp.In sp.Out → Prop} {vars : List ShownVar} {st : St}

/-- What holds after an update. -/
structure Updated (sp : SpecFile) (real : Bool) (S : Nat → Pos sp.In sp.Out → Pos sp.In sp.Out → Prop) (vars : List ShownVar) (st st' : St) : Prop where
  inv : Inv vars sp.hopes sp.goals st'
  past : st'.past = st.past
  help : st'.help = st.help
  shows : ShowsPlay sp real S vars (st.past.map Entry.column) → ShowsPlay sp real S vars st'.columns

/-- A new last entry with values within their bounds. -/
theorem inv_newLast {hopes goals : Nat} (hI : Inv vars hopes goals st) {e : Entry} (hc : CellsOk vars e.cells) (ho : e.flags.oob = false)
    (hg : e.goals.1 < hopes ∧ e.goals.2 < goals) (hf : st.past = [] → e.goals = (0, 0)) : Inv vars hopes goals { st with last := e } := by
  refine inv_of_ok hI.cursor hc ho hI.past hI.post (fun x hx => ?_) ?_
  · rcases List.mem_append.mp hx with hx | hx
    · exact hI.goals x (List.mem_append_left _ hx)
    · rw [List.mem_singleton.mp hx]; exact hg
  · have h1 := hI.first
    show (st.past ++ [e]).head?.map Entry.goals = some (0, 0)
    rw [St.all] at h1
    cases hp : st.past with
    | nil => simp [hf hp]
    | cons a past => rw [hp] at h1; simpa using h1

/-- A last entry with a flag. -/
theorem updated_flagged (hI : Inv vars sp.hopes sp.goals st) (ho : st.last.flags.oob = false) {e : Entry} (hc : CellsOk vars e.cells)
    (hoe : e.flags.oob = false) (hg : e.goals.1 < sp.hopes ∧ e.goals.2 < sp.goals) (hf : st.past = [] → e.goals = (0, 0)) (ha : e.flags.any = true) :
    Updated sp real S vars st { st with last := e } :=
  ⟨inv_newLast hI hc hoe hg hf, rfl, rfl, fun h => by rw [columns_eq]; exact showsPlay_snoc_flagged h ha⟩

theorem last_goals {hopes goals : Nat} (hI : Inv vars hopes goals st) : st.last.goals.1 < hopes ∧ st.last.goals.2 < goals :=
  hI.goals st.last (by simp [St.all])

theorem last_first {hopes goals : Nat} (hI : Inv vars hopes goals st) (hp : st.past = []) : st.last.goals = (0, 0) := by
  have := hI.first
  rw [St.all, hp] at this
  simpa using this

theorem absorbInit_spec (hN : Numbering (size sp) vars) (hI : Inv vars sp.hopes sp.goals st) (ho : st.last.flags.oob = false) (hp : st.past = [])
    {typed : List Char} (ht : encode false vars st.last.cells = some typed) {answer : Answer Unit} (hA : InitAnswer sp real typed answer) :
    ∃ st', absorbInit vars st answer = some st' ∧ Updated sp real S vars st st' := by
  have hC := cellsOk_of_inv hI ho
  have hG := last_goals hI
  have hF := last_first hI
  cases answer with
  | failAssumptions => exact ⟨_, rfl, updated_flagged hI ho hC ho hG hF rfl⟩
  | failGuarantees letters u => exact ⟨_, rfl, updated_flagged hI ho hC ho hG hF (by simp [Flags.any])⟩
  | forcedNonWinning => exact ⟨_, rfl, updated_flagged hI ho hC ho hG hF (by simp [Flags.any])⟩
  | found letters u =>
    have hA' : ∃ p : Pos sp.In sp.Out, Begins sp real p ∧ Fits typed (bitsOf sp p) ∧ LettersFor letters (bitsOf sp p) := by
      cases real with
      | true =>
        obtain ⟨p, ⟨⟨⟨h1, h2⟩, h3⟩, h4⟩, h5⟩ := hA
        exact ⟨p, ⟨h1, h3, h4⟩, h2, h5 ▸ lettersFor_lettersOf _ _ (by simp) p⟩
      | false =>
        obtain ⟨p, ⟨⟨⟨h1, h2⟩, h4⟩, h3⟩, h5⟩ := hA
        exact ⟨p, ⟨h1, h3, h4⟩, h2, h5 ▸ lettersFor_lettersOf _ _ (by simp) p⟩
    obtain ⟨p, hB, hf, hL⟩ := hA'
    obtain ⟨r, ds, h1, h2, h3, h4⟩ := merge_letters hN hC ht hf hL
    refine ⟨_, by simp only [absorbInit, h1, h2, Option.bind_eq_bind, Option.bind_some, Option.pure_def]; rfl, ?_⟩
    refine ⟨inv_newLast hI h4 ho hG hF, rfl, rfl, fun h => ?_⟩
    rw [columns_eq]
    obtain ⟨q, hq⟩ := h
    refine showsPlay_snoc (q := p) hq h3 (fun _ => ⟨hF hp, hB⟩) ?_
    intro j b hj hb
    simp [hp] at hj

theorem absorbTrans_spec (hN : Numbering (size sp) vars) (hI : Inv vars sp.hopes sp.goals st) (ho : st.last.flags.oob = false) {e : Entry}
    (he : st.past.getLast? = some e) {src typed : List Char} (hs : encode true vars e.cells = some src)
    (ht : encode false vars st.last.cells = some typed) {answer : Answer (Nat × Nat)}
    (hA : TransitionAnswer sp real (S (if real = true then e.goals.2 else e.goals.1)) (PrintedNumbers sp e.goals.1 e.goals.2) src typed
      e.goals.1 e.goals.2 answer) :
    ∃ st', absorbTrans vars st answer = some st' ∧ Updated sp real S vars st st' := by
  have hC := cellsOk_of_inv hI ho
  have hG := last_goals hI
  have hF := last_first hI
  have hem : e ∈ st.past := List.mem_of_getLast? he
  have hne : st.past ≠ [] := by rintro h; rw [h] at hem; cases hem
  have heg := hI.goals e (List.mem_append_left _ hem)
  cases answer with
  | failAssumptions => exact ⟨_, rfl, updated_flagged hI ho hC ho hG hF rfl⟩
  | forcedNonWinning => exact ⟨_, rfl, updated_flagged hI ho hC ho hG hF (by simp [Flags.any])⟩
  | failGuarantees letters next =>
    obtain ⟨hn, hA⟩ := hA
    have hA' : ∃ p : Pos sp.In sp.Out, Fits typed (bitsOf sp p) ∧ LettersFor letters (bitsOf sp p) := by
      cases real with
      | true =>
        obtain ⟨_, w, ⟨_, _, h2⟩, h5⟩ := hA
        exact ⟨w.2, h2, h5 ▸ lettersFor_lettersOf (fun w : Pos sp.In sp.Out × Pos sp.In sp.Out => bitsOf sp w.2) _ (by simp) w⟩
      | false =>
        obtain ⟨_, w, ⟨⟨_, _, h2⟩, _⟩, h5⟩ := hA
        exact ⟨w.2, h2, h5 ▸ lettersFor_lettersOf (fun w : Pos sp.In sp.Out × Pos sp.In sp.Out => bitsOf sp w.2) _ (by simp) w⟩
    obtain ⟨p, hf, hL⟩ := hA'
    obtain ⟨r, ds, h1, h2, h3, h4⟩ := merge_letters hN hC ht hf hL
    refine ⟨_, by simp only [absorbTrans, h1, h2, Option.bind_eq_bind, Option.bind_some, Option.pure_def]; rfl, ?_⟩
    refine updated_flagged hI ho h4 ho ?_ (fun h => absurd h hne) (by simp [Flags.any])
    rw [hn]
    exact ⟨Nat.mod_lt _ (by omega), Nat.mod_lt _ (by omega)⟩
  | found letters next =>
    have hA' : ∃ w : Pos sp.In sp.Out × Pos sp.In sp.Out, Fits src (bitsOf sp w.1) ∧ Moves sp real S e.goals next w.1 w.2 ∧
        (next.1 < sp.hopes ∧ next.2 < sp.goals) ∧ Fits typed (bitsOf sp w.2) ∧ LettersFor letters (bitsOf sp w.2) := by
      obtain ⟨w, hb, _, hnum, h5⟩ := hA
      have hnum' := printed_moves hnum hb heg.1 heg.2
      have hlt := printed_lt hnum
      refine ⟨w, ?_⟩
      cases real with
      | true =>
        obtain ⟨⟨⟨h1, h2, h3⟩, h4⟩, h6⟩ := hb
        refine ⟨h1, ⟨h2, h4, h6, hnum'⟩, hlt, h3, ?_⟩
        exact h5 ▸ lettersFor_lettersOf (fun w : Pos sp.In sp.Out × Pos sp.In sp.Out => bitsOf sp w.2) _ (by simp) w
      | false =>
        obtain ⟨⟨⟨h1, h2, h3⟩, h6⟩, h4⟩ := hb
        refine ⟨h1, ⟨h2, h4, h6, hnum'⟩, hlt, h3, ?_⟩
        exact h5 ▸ lettersFor_lettersOf (fun w : Pos sp.In sp.Out × Pos sp.In sp.Out => bitsOf sp w.2) _ (by simp) w
    obtain ⟨w, hfs, hM, hlt, hf, hL⟩ := hA'
    obtain ⟨r, ds, h1, h2, h3, h4⟩ := merge_letters hN hC ht hf hL
    refine ⟨_, by simp only [absorbTrans, h1, h2, Option.bind_eq_bind, Option.bind_some, Option.pure_def]; rfl, ?_⟩
    refine ⟨inv_newLast hI h4 ho hlt (fun h => absurd h hne), rfl, rfl, fun h => ?_⟩
    rw [columns_eq]
    obtain ⟨q, hq⟩ := h
    refine showsPlay_snoc (q := w.2) hq h3 (fun h => absurd (List.map_eq_nil_iff.mp h) hne) ?_
    intro j b hj hb
    have hb' : b = e.column := by
      rw [List.length_map] at hj
      rw [List.getElem?_map] at hb
      rw [List.getLast?_eq_getElem?, hj, Nat.add_sub_cancel] at he
      rw [he] at hb
      simpa using hb.symm
    subst hb'
    have hv : e.column.values = valuesAt sp vars (q j) := (hq j _ hb (hI.past e hem).2).1
    have := pos_of_fits hN hs hv hfs
    rw [← this]
    exact hM

/-- The requests that the simulator sends: there are as many characters as propositions, and the numbers are in range. -/
def Sent (sp : SpecFile) : Exchange → Prop
  | .completeInit typed _ => (Request.completeInit typed).Suits sp
  | .strategyTransition src typed la lg _ => src.length = size sp ∧ typed.length = size sp ∧ la < sp.hopes ∧ lg < sp.goals
  | _ => False

theorem update_spec (hN : Numbering (size sp) vars) (hI : Inv vars sp.hopes sp.goals st) {es : List Exchange} (hE : Answers sp real S es) :
    update vars st es = .noAnswer ∨ ∃ st' used rest, update vars st es = .goesOn st' rest ∧ es = used ++ rest ∧ (∀ e ∈ used, Sent sp e) ∧
      Updated sp real S vars st st' := by
  unfold update
  cases ho : st.last.flags.oob with
  | true =>
    have hr : request vars st = none := by simp [request, ho]
    rw [hr]
    refine .inr ⟨st, [], es, rfl, rfl, by simp, hI, rfl, rfl, fun h => ?_⟩
    rw [columns_eq]
    exact showsPlay_snoc_flagged h (by simp [Entry.column, Flags.any, ho])
  | false =>
    obtain ⟨typed, ht, htl, _⟩ := encode_spec hN false hI.len
    cases hp : st.past.getLast? with
    | none =>
      have hnil : st.past = [] := List.getLast?_eq_none_iff.mp hp
      have hr : request vars st = some (some (.completeInit typed)) := by simp [request, ho, hp, ht]
      rw [hr]
      dsimp only
      cases es with
      | nil => exact .inl rfl
      | cons e es =>
        cases e with
        | completeInit typed' answer =>
          dsimp only
          by_cases he : typed' = typed
          · subst he
            rw [if_pos rfl]
            obtain ⟨st', h1, h2⟩ := absorbInit_spec (S := S) hN hI ho hnil ht (hE.init _ _ (List.mem_cons_self ..))
            rw [h1]
            refine .inr ⟨st', [_], es, rfl, rfl, ?_, h2⟩
            intro x hx
            rw [List.mem_singleton.mp hx]
            exact htl
          · rw [if_neg he]; exact .inl rfl
        | _ => exact .inl rfl
    | some e0 =>
      have hem : e0 ∈ st.past := List.mem_of_getLast? hp
      obtain ⟨src, hs, hsl, _⟩ := encode_spec hN true (hI.past e0 hem).1.1
      have hr : request vars st = some (some (.strategyTransition src typed e0.goals.1 e0.goals.2)) := by simp [request, ho, hp, ht, hs]
      rw [hr]
      dsimp only
      cases es with
      | nil => exact .inl rfl
      | cons e es =>
        cases e with
        | strategyTransition src' typed' la lg answer =>
          dsimp only
          by_cases he : src' = src ∧ typed' = typed ∧ la = e0.goals.1 ∧ lg = e0.goals.2
          · obtain ⟨rfl, rfl, rfl, rfl⟩ := he
            rw [if_pos ⟨rfl, rfl, rfl, rfl⟩]
            obtain ⟨st', h1, h2⟩ := absorbTrans_spec (S := S) hN hI ho hp hs ht (hE.trans _ _ _ _ _ (List.mem_cons_self ..))
            rw [h1]
            refine .inr ⟨st', [_], es, rfl, rfl, ?_, h2⟩
            intro x hx
            rw [List.mem_singleton.mp hx]
            have hg := hI.goals e0 (List.mem_append_left _ hem)
            exact ⟨hsl, htl, hg.1, hg.2⟩
          · rw [if_neg he]; exact .inl rfl
        | _ => exact .inl rfl

end Slugs.Model.Curses
