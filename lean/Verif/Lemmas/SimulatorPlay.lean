import Verif.Lemmas.Simulator

/-!
# What the simulator takes over from the answers, and the plays that it shows
-/

namespace Slugs.Model.Curses

open Slugs.Spec

variable {sp : SpecFile} {real : Bool} {S : Nat → Pos sp.In sp.Out → Pos sp.In sp.Out → Prop} {vars : List ShownVar} {st : St} {hopes goals : Nat}

/-- The number of propositions. -/
def size (sp : SpecFile) : Nat := sp.inputs.length + sp.outputs.length

/-- The values of the variables at a position. -/
def valuesAt (sp : SpecFile) (vars : List ShownVar) (p : Pos sp.In sp.Out) : List Int := vars.map fun v => v.valueAt (bitsOf sp p)

theorem cellsOk_of_inv (hI : Inv vars hopes goals st) (ho : st.last.flags.oob = false) : CellsOk vars st.last.cells := by
  refine ⟨hI.len, fun i v c h1 h2 h3 => ?_⟩
  rcases hI.ok i v c h1 h2 h3 with h | ⟨_, h⟩
  · exact h
  · rw [ho] at h; cases h

/-- Taking over the letters for values that agree with the values entered by hand. -/
theorem merge_letters (hN : Numbering (size sp) vars) {cells : List Cell} (hC : CellsOk vars cells) {typed letters : List Char}
    (ht : encode false vars cells = some typed) {p : Pos sp.In sp.Out} (hf : Fits typed (bitsOf sp p)) (hL : LettersFor letters (bitsOf sp p)) :
    ∃ r ds, decode vars letters = some ds ∧ merge cells ds = some r ∧ r.map Cell.val = valuesAt sp vars p ∧ CellsOk vars r := by
  obtain ⟨ds, h1, h2, h3⟩ := decode_spec hN (bitsOf_len p) hL
  obtain ⟨t, h4, h5, h6⟩ := encode_spec hN false hC.1
  rw [ht] at h4
  cases h4
  have hlen : ds.length = vars.length := by simpa using congrArg List.length h2
  have hval : ∀ (i : Nat) v d, vars[i]? = some v → ds[i]? = some d → d.val = v.valueAt (bitsOf sp p) := by
    intro i v d hv hd
    have := congrArg (fun l => l[i]?) h2
    simpa [hv, hd] using this
  obtain ⟨r, h7, h8, h9⟩ := merge_spec (cs := cells) (ds := ds) (hC.1.trans hlen.symm) fun i c d hc hd hce => by
    have hi : i < vars.length := hC.1 ▸ (List.getElem?_eq_some_iff.mp hc).1
    have hv := List.getElem?_eq_getElem hi
    have hm := List.getElem_mem hi
    have hb := hC.2 i _ c hv hc hce
    have hB := hN.bounds _ hm
    rw [hval i _ d hv hd]
    exact (valueAt_of_fits (hN.numbers _ hm) ⟨hb.1, by omega⟩ (.inr hce) (h6 i _ c hv hc) (by rw [h5, bitsOf_len]; rfl) hf).symm
  refine ⟨r, ds, h1, h7, h8.trans h2, ?_, ?_⟩
  · simpa using congrArg List.length (h8.trans h2)
  · intro i v x hv hx hxe
    rcases h9 i x hx with ⟨h, _⟩ | h
    · exact hC.2 i v x hv h hxe
    · exact absurd hxe (h3 x (List.mem_of_getElem? h))

/-- A position whose values agree with all the characters for a column is the position shown in this column. -/
theorem pos_of_fits (hN : Numbering (size sp) vars) {cells : List Cell} {src : List Char} (hs : encode true vars cells = some src)
    {p q : Pos sp.In sp.Out} (hp : cells.map Cell.val = valuesAt sp vars p) (hf : Fits src (bitsOf sp q)) : q = p := by
  have hlen : cells.length = vars.length := by simpa [valuesAt] using congrArg List.length hp
  obtain ⟨t, h4, h5, h6⟩ := encode_spec hN true hlen
  rw [hs] at h4
  cases h4
  refine bitsOf_injective (values_inj hN (bitsOf_len q) (bitsOf_len p) (List.map_congr_left fun v hv => ?_))
  obtain ⟨i, hi⟩ := List.mem_iff_getElem?.mp hv
  have hil : i < cells.length := hlen ▸ (List.getElem?_eq_some_iff.mp hi).1
  have hc := List.getElem?_eq_getElem hil
  have hval : cells[i].val = v.valueAt (bitsOf sp p) := by
    have := congrArg (fun l => l[i]?) hp
    simpa [valuesAt, hi, hc] using this
  rw [← hval]
  refine valueAt_of_fits (hN.numbers v hv) ?_ (.inl rfl) (h6 i v _ hi hc) (by rw [h5, bitsOf_len]; rfl) hf
  rw [hval, valueAt_bitFn (hN.numbers v hv)]
  have := total_bounds (bitFn v (bitsOf sp p)) v.bits.length
  omega

/-! ### Plays -/

theorem showsPlay_nil : ShowsPlay sp real S vars [] := ⟨fun _ => (fun _ => false, fun _ => false), by simp⟩

/-- Positions that the columns show. -/
def Plays (sp : SpecFile) (real : Bool) (S : Nat → Pos sp.In sp.Out → Pos sp.In sp.Out → Prop) (vars : List ShownVar) (cols : List Column)
    (p : Nat → Pos sp.In sp.Out) : Prop :=
  ∀ (i : Nat) c, cols[i]? = some c → c.flagged = false →
    c.values = vars.map (fun v => v.valueAt (bitsOf sp (p i))) ∧ (i = 0 → c.goals = (0, 0) ∧ Begins sp real (p 0)) ∧
    ∀ j b, i = j + 1 → cols[j]? = some b → Moves sp real S b.goals c.goals (p j) (p i)

theorem showsPlay_snoc_flagged {cols : List Column} {c : Column} (h : ShowsPlay sp real S vars cols) (hc : c.flagged = true) :
    ShowsPlay sp real S vars (cols ++ [c]) := by
  obtain ⟨p, hp⟩ := h
  refine ⟨p, fun i d hd hf => ?_⟩
  rw [List.getElem?_append] at hd
  split at hd
  · rename_i hi
    obtain ⟨h1, h2, h3⟩ := hp i d hd hf
    refine ⟨h1, h2, fun j b hj hb => h3 j b hj ?_⟩
    rwa [List.getElem?_append_left (by omega)] at hb
  · have := List.mem_of_getElem? hd
    rw [List.mem_singleton] at this
    rw [this, hc] at hf
    cases hf

theorem showsPlay_snoc {cols : List Column} {c : Column} {p : Nat → Pos sp.In sp.Out} (hp : Plays sp real S vars cols p) {q : Pos sp.In sp.Out}
    (hv : c.values = valuesAt sp vars q) (h0 : cols = [] → c.goals = (0, 0) ∧ Begins sp real q)
    (hm : ∀ j b, cols.length = j + 1 → cols[j]? = some b → Moves sp real S b.goals c.goals (p j) q) : ShowsPlay sp real S vars (cols ++ [c]) := by
  obtain ⟨p', hq, hne⟩ : ∃ p' : Nat → Pos sp.In sp.Out, p' cols.length = q ∧ ∀ i, i ≠ cols.length → p' i = p i :=
    ⟨fun i => if i = cols.length then q else p i, if_pos rfl, fun i hi => if_neg hi⟩
  refine ⟨p', fun i d hd hf => ?_⟩
  rw [List.getElem?_append] at hd
  split at hd
  · rename_i hi
    obtain ⟨h1, h2, h3⟩ := hp i d hd hf
    refine ⟨?_, ?_, fun j b hj hb => ?_⟩
    · rw [hne i (by omega)]; exact h1
    · intro hi0
      rw [hne 0 (by omega)]
      exact h2 hi0
    · rw [hne i (by omega), hne j (by omega)]
      rw [List.getElem?_append_left (by omega)] at hb
      exact h3 j b hj hb
  · rename_i hi
    have hi' : i = cols.length := by
      have := (List.getElem?_eq_some_iff.mp hd).1
      simp only [List.length_singleton] at this
      omega
    subst hi'
    have hdc : d = c := by simpa using hd.symm
    subst hdc
    refine ⟨?_, ?_, fun j b hj hb => ?_⟩
    · rw [hq]; exact hv
    · intro h
      have e : p' 0 = q := by rw [h] at hq; exact hq
      rw [e]
      exact h0 (List.length_eq_zero_iff.mp h)
    · rw [hne j (by omega), hq]
      rw [List.getElem?_append_left (by omega)] at hb
      exact hm j b hj hb

/-- The numbers printed. -/
theorem printed_moves {la lg : Nat} {P : Pos sp.In sp.Out × Pos sp.In sp.Out → Prop} {w : Pos sp.In sp.Out × Pos sp.In sp.Out} {next : Nat × Nat}
    (h : PrintedNumbers sp la lg P w next) (hP : P w) (hla : la < sp.hopes) (hlg : lg < sp.goals) :
    (next.1 = la ∨ sp.Fulfils la w.1 w.2 ∧ next.1 = (la + 1) % sp.hopes) ∧ (next.2 = lg ∨ sp.Reaches lg w.1 w.2 ∧ next.2 = (lg + 1) % sp.goals) := by
  have h' : next = (_, _) := h
  rw [h']
  constructor
  · simp only [after]
    split
    · rename_i hr; exact .inr ⟨hr.1 w.1 hP, rfl⟩
    · exact .inl (Nat.mod_eq_of_lt hla)
  · simp only [after]
    split
    · rename_i hr; exact .inr ⟨hr.1 w.1 hP, rfl⟩
    · exact .inl (Nat.mod_eq_of_lt hlg)

theorem printed_lt {la lg : Nat} {P : Pos sp.In sp.Out × Pos sp.In sp.Out → Prop} {w : Pos sp.In sp.Out × Pos sp.In sp.Out} {next : Nat × Nat}
    (h : PrintedNumbers sp la lg P w next) : next.1 < sp.hopes ∧ next.2 < sp.goals := by
  have h' : next = (_, _) := h
  have hh : 0 < sp.hopes := by simp [SpecFile.hopes]
  have hg : 0 < sp.goals := by simp [SpecFile.goals]
  rw [h']
  constructor
  · simp only [after]; split <;> exact Nat.mod_lt _ hh
  · simp only [after]; split <;> exact Nat.mod_lt _ hg

end Slugs.Model.Curses
