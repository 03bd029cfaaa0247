import Verif.Lemmas.Cnf
import Verif.Lemmas.TextGame

/-! The clauses and cubes that are printed, in terms of the specification. -/

namespace Slugs.Model

open Slugs.Spec

variable {B : Type} [DecidableEq B] [L : BddLib B]

/-! ### Lines of an output -/

theorem clauseLines_ok {types : List VarType} {rest : B} (hr : DependsBelow types.length (L.eval rest)) {kind : ClauseKind} {fuel : Nat}
    {r : Res CnfError (List CnfLine)} (h : clauseLines types fuel kind rest = r) (hne : r ≠ .stuck) :
    ∃ kepts, r = .ok (kepts.map fun k => CnfLine.clause kind (clauseLiterals k)) ∧
      CubeCover types.length (fun w => L.eval rest w = false) (L.not rest) kepts := by
  rw [clauseLines] at h
  cases e : clauseLoop types rest fuel L.ff [] with
  | none => rw [e] at h; exact absurd h.symm hne
  | some x =>
    obtain ⟨found, cs⟩ := x
    obtain ⟨kepts, rfl, hc, hf⟩ := clauseLoop_spec hr fuel L.ff [] found cs .nil e
    rw [e] at h
    simp only at h
    rw [if_neg (by simp [hf])] at h
    exact ⟨kepts, by rw [← h]; simp [Function.comp_def], hf ▸ hc⟩

theorem clauseLines_terminates {types : List VarType} {rest : B} (hr : DependsBelow types.length (L.eval rest)) {kind : ClauseKind} {fuel : Nat}
    (hf : 2 ^ types.length < fuel) : clauseLines types fuel kind rest ≠ .stuck := by
  obtain ⟨r, hr'⟩ := clauseLoop_terminates hr fuel L.ff [] .nil ((uncovered_le _ _).trans_lt hf)
  rw [clauseLines]
  simp only [List.map_nil] at hr'
  rw [hr']
  simp only
  split <;> simp

theorem liveLines_ok {types : List VarType} {guarantee : Bool} {fuel : Nat} : ∀ (goals : List B), (∀ g ∈ goals, DependsBelow types.length (L.eval g)) →
    ∀ {r : Res CnfError (List CnfLine)}, liveLines types fuel guarantee goals = r → r ≠ .stuck →
    ∃ keptss : List (List (List (Nat × Bool))), r = .ok (keptss.map fun kepts => CnfLine.cubes guarantee (kepts.map (cubeLiterals types))) ∧
      List.Forall₂ (fun kepts goal => CubeCover types.length (fun w => L.eval goal w = true) goal kepts) keptss goals
  | [], _, _, h, _ => ⟨[], by rw [← h]; rfl, .nil⟩
  | goal :: goals, hd, r, h, hne => by
    rw [liveLines] at h
    cases e : cubeLoop types goal fuel L.ff [] with
    | none => rw [e] at h; exact absurd h.symm hne
    | some x =>
      obtain ⟨found, cs⟩ := x
      obtain ⟨kepts, rfl, hc, hf⟩ := cubeLoop_spec (hd goal List.mem_cons_self) fuel L.ff [] found cs .nil e
      rw [e] at h
      simp only at h
      rw [if_neg (by simp [hf])] at h
      cases e' : liveLines types fuel guarantee goals with
      | stuck => rw [e'] at h; exact absurd h.symm hne
      | ub =>
        obtain ⟨_, h', _⟩ := liveLines_ok goals (fun g hg => hd g (List.mem_cons_of_mem _ hg)) e' nofun
        cases h'
      | err _ =>
        obtain ⟨_, h', _⟩ := liveLines_ok goals (fun g hg => hd g (List.mem_cons_of_mem _ hg)) e' nofun
        cases h'
      | ok ls =>
        obtain ⟨keptss, h', hF⟩ := liveLines_ok goals (fun g hg => hd g (List.mem_cons_of_mem _ hg)) e' nofun
        rw [e'] at h
        refine ⟨kepts :: keptss, ?_, .cons (hf ▸ hc) hF⟩
        rw [← h]
        injection h' with h'
        simp only [h', List.map_cons]

theorem liveLines_terminates {types : List VarType} {guarantee : Bool} {fuel : Nat} (hf : 2 ^ types.length < fuel) :
    ∀ (goals : List B), (∀ g ∈ goals, DependsBelow types.length (L.eval g)) → liveLines types fuel guarantee goals ≠ .stuck
  | [], _ => by rw [liveLines]; simp
  | goal :: goals, hd => by
    obtain ⟨r, hr'⟩ := cubeLoop_terminates (hd goal List.mem_cons_self) fuel L.ff [] .nil ((uncovered_le _ _).trans_lt hf)
    simp only [List.map_nil] at hr'
    have := liveLines_terminates (guarantee := guarantee) hf goals (fun g hg => hd g (List.mem_cons_of_mem _ hg))
    rw [liveLines, hr']
    simp only
    split
    · simp
    · cases e' : liveLines types fuel guarantee goals with
      | stuck => exact absurd e' this
      | _ => simp

/-! ### Numbers of variables -/

/-- The lines that declare the variables. -/
def declsFrom : Nat → Decls → List CnfLine
  | _, [] => []
  | i, d :: ds => (if d.1 then CnfLine.input d.2 (i + 1) (i + 2) else CnfLine.output d.2 (i + 1) (i + 2)) :: declsFrom (i + 2) ds

theorem declLines_eq : ∀ (i : Nat) (ds : Decls), declLines i (entriesOf ds) = .ok (declsFrom i ds)
  | _, [] => rfl
  | i, (true, x) :: ds => by
    show declLines i ((x, .preInput) :: (prime x, .postInput) :: entriesOf ds) = _
    simp [declLines, prime, declLines_eq (i + 2) ds, declsFrom, Except.map]
  | i, (false, x) :: ds => by
    show declLines i ((x, .preOutput) :: (prime x, .postOutput) :: entriesOf ds) = _
    simp [declLines, prime, declLines_eq (i + 2) ds, declsFrom, Except.map]

theorem zip_table (ds : Decls) : (tableOf ds).names.zip (tableOf ds).types = entriesOf ds := by
  simp only [tableOf]
  induction entriesOf ds with
  | nil => rfl
  | cons e es ih => simp [ih]

theorem mem_declsFrom {x : Name} {k1 k2 : Nat} : ∀ {i : Nat} {ds : Decls},
    (CnfLine.input x k1 k2 ∈ declsFrom i ds ∨ CnfLine.output x k1 k2 ∈ declsFrom i ds) ↔
      ∃ j b, ds[j]? = some (b, x) ∧ k1 = i + 2 * j + 1 ∧ k2 = i + 2 * j + 2
  | _, [] => by simp [declsFrom]
  | i, d :: ds => by
    have ih := mem_declsFrom (x := x) (k1 := k1) (k2 := k2) (i := i + 2) (ds := ds)
    have e : (CnfLine.input x k1 k2 ∈ declsFrom i (d :: ds) ∨ CnfLine.output x k1 k2 ∈ declsFrom i (d :: ds)) ↔
        (x = d.2 ∧ k1 = i + 1 ∧ k2 = i + 2) ∨ (CnfLine.input x k1 k2 ∈ declsFrom (i + 2) ds ∨ CnfLine.output x k1 k2 ∈ declsFrom (i + 2) ds) := by
      obtain ⟨b, y⟩ := d
      cases b <;> simp [declsFrom] <;> tauto
    rw [e, ih]
    constructor
    · rintro (⟨rfl, rfl, rfl⟩ | ⟨j, b, h1, rfl, rfl⟩)
      · exact ⟨0, d.1, rfl, rfl, rfl⟩
      · exact ⟨j + 1, b, by simpa using h1, by omega, by omega⟩
    · rintro ⟨j, b, h1, h2, h3⟩
      cases j with
      | zero =>
        left
        simp only [List.getElem?_cons_zero, Option.some.injEq] at h1
        rw [h1]
        exact ⟨rfl, by omega, by omega⟩
      | succ j => exact .inr ⟨j, b, by simpa using h1, by omega, by omega⟩

theorem entries_even : ∀ (ds : Decls) (j : Nat), (entriesOf ds)[2 * j]? = ds[j]?.map fun d => (d.2, if d.1 then VarType.preInput else .preOutput)
  | [], j => by simp [entriesOf]
  | d :: ds, 0 => by simp [entriesOf, declPair]
  | d :: ds, j + 1 => by
    have : entriesOf (d :: ds) = declPair d ++ entriesOf ds := by simp [entriesOf]
    rw [this, List.getElem?_append_right (by simp only [declPair, List.length_cons, List.length_nil]; omega)]
    have e : 2 * (j + 1) - (declPair d).length = 2 * j := by simp only [declPair, List.length_cons, List.length_nil]; omega
    rw [e, entries_even ds j, List.getElem?_cons_succ]

theorem entries_odd : ∀ (ds : Decls) (j : Nat),
    (entriesOf ds)[2 * j + 1]? = ds[j]?.map fun d => (prime d.2, if d.1 then VarType.postInput else .postOutput)
  | [], j => by simp [entriesOf]
  | d :: ds, 0 => by simp [entriesOf, declPair]
  | d :: ds, j + 1 => by
    have : entriesOf (d :: ds) = declPair d ++ entriesOf ds := by simp [entriesOf]
    rw [this, List.getElem?_append_right (by simp only [declPair, List.length_cons, List.length_nil]; omega)]
    have e : 2 * (j + 1) + 1 - (declPair d).length = 2 * j + 1 := by simp only [declPair, List.length_cons, List.length_nil]; omega
    rw [e, entries_odd ds j, List.getElem?_cons_succ]

/-- The lines that declare variables are those of `ds`. -/
def DeclaresOf (ls : List CnfLine) (ds : Decls) : Prop :=
  ∀ x k1 k2, (CnfLine.input x k1 k2 ∈ ls ∨ CnfLine.output x k1 k2 ∈ ls) ↔ (CnfLine.input x k1 k2 ∈ declsFrom 0 ds ∨ CnfLine.output x k1 k2 ∈ declsFrom 0 ds)

theorem numberOf_iff {ls : List CnfLine} {ds : Decls} (hls : DeclaresOf ls ds) {k : Nat} {y : Name} :
    NumberOf ls k y ↔ ∃ i, k = i + 1 ∧ (tableOf ds).names[i]? = some y := by
  have hnames : ∀ i : Nat, (tableOf ds).names[i]? = (entriesOf ds)[i]?.map Prod.fst := fun i => by
    simp only [tableOf, List.getElem?_map]
  simp only [NumberOf, hls _ _ _, mem_declsFrom, Nat.zero_add]
  constructor
  · rintro ⟨x, k1, k2, ⟨j, b, hj, rfl, rfl⟩, ⟨rfl, rfl⟩ | ⟨rfl, rfl⟩⟩
    · exact ⟨2 * j, rfl, by rw [hnames, entries_even, hj]; rfl⟩
    · exact ⟨2 * j + 1, rfl, by rw [hnames, entries_odd, hj]; rfl⟩
  · rintro ⟨i, rfl, hi⟩
    rw [hnames] at hi
    rcases Nat.even_or_odd' i with ⟨j, rfl | rfl⟩
    · rw [entries_even] at hi
      cases hj : ds[j]? with
      | none => rw [hj] at hi; cases hi
      | some d =>
        rw [hj] at hi
        simp only [Option.map_some, Option.some.injEq] at hi
        exact ⟨d.2, _, _, ⟨j, d.1, hj, rfl, rfl⟩, .inl ⟨rfl, hi.symm⟩⟩
    · rw [entries_odd] at hi
      cases hj : ds[j]? with
      | none => rw [hj] at hi; cases hi
      | some d =>
        rw [hj] at hi
        simp only [Option.map_some, Option.some.injEq] at hi
        exact ⟨d.2, _, _, ⟨j, d.1, hj, rfl, rfl⟩, .inr ⟨rfl, hi.symm⟩⟩

/-! ### Values of literals -/

theorem Layout.eval_of_get {X Y : Type} {types : List VarType} (lay : Layout X Y types) {a : Asg} {p q : Pos (X → Bool) (Y → Bool)}
    (h : lay.get a = slots p q) (f : T (X → Bool) (Y → Bool)) : L.eval (lay.enc B f) a = true ↔ f p q := by
  rw [lay.eval_enc, h]
  exact Iff.rfl

theorem Layout.enc_depends {X Y : Type} {types : List VarType} (lay : Layout X Y types) (f : T (X → Bool) (Y → Bool)) :
    DependsBelow types.length (L.eval (lay.enc B f)) := by
  intro a a' h
  rw [Bool.eq_iff_iff, lay.eval_enc, lay.eval_enc]
  have : lay.get a = lay.get a' := by
    funext z; exact h _ (lay.bound z)
  rw [this]

section

variable {ds : Decls} (F : Section → List Fml)

/-- The values of the variables in a transition. -/
def asgOf (p q : Pos (specOf ds F).In (specOf ds F).Out) : Asg := fun k => (specOf ds F).look p q ((tableOf ds).names.getD k [])

theorem get_asgOf (hn : (tableOf ds).names.Nodup) (p q : Pos (specOf ds F).In (specOf ds F).Out) : (tableLayout ds hn).get (asgOf F p q) = slots p q := by
  funext z
  show (specOf ds F).look p q ((tableOf ds).names.getD (slotCode z) []) = _
  have : (tableOf ds).names[slotCode z]? = some (slotEntry z).1 := by
    have := (getElem_slotCode hn (z := z)).mpr rfl
    simp [tableOf, this]
  rw [List.getD_eq_getElem?_getD, this]
  exact look_slot F hn p q z

theorem eval_asgOf (hn : (tableOf ds).names.Nodup) (f : T (specOf ds F).In (specOf ds F).Out) (p q : Pos (specOf ds F).In (specOf ds F).Out) :
    L.eval ((tableLayout ds hn).enc B f) (asgOf F p q) = true ↔ f p q :=
  (tableLayout ds hn).eval_of_get (get_asgOf F hn p q) f

/-- Every assignment is that of a transition. -/
theorem exists_asgOf (hn : (tableOf ds).names.Nodup) (w : Asg) :
    ∃ p q : Pos (specOf ds F).In (specOf ds F).Out, ∀ k < (tableOf ds).types.length, asgOf F p q k = w k := by
  refine ⟨curPos ((tableLayout ds hn).get w), nxtPos ((tableLayout ds hn).get w), fun k hk => ?_⟩
  have hk' : k < (entriesOf ds).length := by simpa [tableOf] using hk
  obtain ⟨z, hz⟩ := mem_entriesOf.mp (List.getElem_mem hk')
  have hc : slotCode z = k := (getElem_slotCode hn).mp (by rw [List.getElem?_eq_getElem hk', hz])
  have h := congrFun (get_asgOf F hn (curPos ((tableLayout ds hn).get w)) (nxtPos ((tableLayout ds hn).get w))) z
  rw [← hc]
  exact h.trans (congrFun (slots_pos _) z)

theorem enc_depends (hn : (tableOf ds).names.Nodup) (f : T (specOf ds F).In (specOf ds F).Out) :
    DependsBelow (tableOf ds).types.length (L.eval ((tableLayout ds hn).enc B f)) :=
  (tableLayout ds hn).enc_depends f

/-- The literal for a variable and a value. -/
def litOf (e : Nat × Bool) : Int := if e.2 then (e.1 : Int) + 1 else -(e.1 : Int) - 1

theorem litOf_abs (e : Nat × Bool) : (litOf e).natAbs = e.1 + 1 := by
  obtain ⟨i, b⟩ := e
  cases b <;> simp only [litOf] <;> simp <;> omega

theorem litOf_pos (e : Nat × Bool) : decide (0 < litOf e) = e.2 := by
  obtain ⟨i, b⟩ := e
  cases b
  · simp only [litOf]; simp
  · simp only [litOf]; simp

theorem literal_iff {ls : List CnfLine} (hls : DeclaresOf ls ds) {e : Nat × Bool} (he : e.1 < (tableOf ds).types.length)
    (p q : Pos (specOf ds F).In (specOf ds F).Out) : LiteralHolds (specOf ds F) ls p q (litOf e) ↔ asgOf F p q e.1 = e.2 := by
  have hl : (tableOf ds).names.length = (tableOf ds).types.length := by simp [tableOf]
  simp only [LiteralHolds, numberOf_iff hls, litOf_abs, litOf_pos]
  constructor
  · rintro ⟨y, ⟨i, hi, hy⟩, hv⟩
    obtain rfl : i = e.1 := by omega
    rw [asgOf, List.getD_eq_getElem?_getD, hy]
    exact hv
  · intro h
    have : (tableOf ds).names[e.1]? = some (tableOf ds).names[e.1] := List.getElem?_eq_getElem (by omega)
    refine ⟨_, ⟨e.1, rfl, this⟩, ?_⟩
    rw [asgOf, List.getD_eq_getElem?_getD, this] at h
    exact h

theorem clause_iff {ls : List CnfLine} (hls : DeclaresOf ls ds) {kept : List (Nat × Bool)} (hk : ∀ e ∈ kept, e.1 < (tableOf ds).types.length)
    (p q : Pos (specOf ds F).In (specOf ds F).Out) :
    ClauseHolds (specOf ds F) ls p q (clauseLiterals kept) ↔ ¬ KeptHolds (asgOf F p q) kept := by
  have e : clauseLiterals kept = kept.map fun e => litOf (e.1, !e.2) := by
    rw [clauseLiterals]
    refine List.map_congr_left fun e _ => ?_
    obtain ⟨i, b⟩ := e
    cases b <;> rfl
  rw [e]
  simp only [ClauseHolds, KeptHolds, List.mem_map, not_forall]
  constructor
  · rintro ⟨_, ⟨e, he, rfl⟩, h⟩
    refine ⟨e, he, ?_⟩
    rw [literal_iff F hls (e := (e.1, !e.2)) (hk e he)] at h
    simp [h]
  · rintro ⟨e, he, h⟩
    refine ⟨_, ⟨e, he, rfl⟩, ?_⟩
    rw [literal_iff F hls (e := (e.1, !e.2)) (hk e he)]
    revert h
    cases asgOf F p q e.1 <;> cases e.2 <;> simp

/-- All variables of a cube are next values. -/
def AllPost (types : List VarType) (kept : List (Nat × Bool)) : Prop := ∀ e ∈ kept, types[e.1]? = some .postInput ∨ types[e.1]? = some .postOutput

theorem cubeLiterals_eq (types : List VarType) (kept : List (Nat × Bool)) :
    (AllPost types kept ∧ cubeLiterals types kept = (kept.map litOf).map fun l => l - l.sign) ∨ (¬ AllPost types kept ∧ cubeLiterals types kept = kept.map litOf) := by
  rw [cubeLiterals]
  have e : (kept.map fun x : Nat × Bool => match x with | (i, b) => if b = true then (i : Int) + 1 else -(i : Int) - 1) = kept.map litOf := rfl
  by_cases h : AllPost types kept
  · left
    refine ⟨h, ?_⟩
    rw [if_pos, e]
    rw [List.all_eq_true]
    intro x hx
    simpa using h x hx
  · right
    refine ⟨h, ?_⟩
    rw [if_neg, e]
    intro hall
    rw [List.all_eq_true] at hall
    exact h fun x hx => by simpa using hall x hx

theorem post_index {i : Nat} (h : (tableOf ds).types[i]? = some .postInput ∨ (tableOf ds).types[i]? = some .postOutput) :
    ∃ j d, i = 2 * j + 1 ∧ ds[j]? = some d := by
  have ht : (tableOf ds).types[i]? = (entriesOf ds)[i]?.map Prod.snd := by simp only [tableOf, List.getElem?_map]
  rw [ht] at h
  rcases Nat.even_or_odd' i with ⟨j, rfl | rfl⟩
  · rw [entries_even] at h
    cases hj : ds[j]? with
    | none => rw [hj] at h; simp at h
    | some d =>
      rw [hj] at h
      simp only [Option.map_some, Option.some.injEq] at h
      cases hb : d.1 <;> rw [hb] at h <;> simp at h
  · rw [entries_odd] at h
    cases hj : ds[j]? with
    | none => rw [hj] at h; simp at h
    | some d => exact ⟨j, d, rfl, hj⟩

theorem asg_shift (hn : (tableOf ds).names.Nodup) {j : Nat} {d : Bool × Name} (hj : ds[j]? = some d) (o p q : Pos (specOf ds F).In (specOf ds F).Out) :
    asgOf F o p (2 * j + 1) = asgOf F p q (2 * j) := by
  have hnames : ∀ i : Nat, (tableOf ds).names.getD i [] = ((entriesOf ds)[i]?.map Prod.fst).getD [] := fun i => by
    simp only [tableOf, List.getD_eq_getElem?_getD, List.getElem?_map]
  simp only [asgOf, hnames, entries_even, entries_odd, hj, Option.map_some, Option.getD_some]
  have hm : d ∈ ds := List.mem_of_getElem? hj
  obtain ⟨b, x⟩ := d
  cases b
  · have h1 := look_slot F hn o p (.no ⟨x, mem_outputsOf.mpr hm⟩)
    have h2 := look_slot F hn p q (.co ⟨x, mem_outputsOf.mpr hm⟩)
    exact h1.trans h2.symm
  · have h1 := look_slot F hn o p (.ni ⟨x, mem_inputsOf.mpr hm⟩)
    have h2 := look_slot F hn p q (.ci ⟨x, mem_inputsOf.mpr hm⟩)
    exact h1.trans h2.symm

theorem cube_plain {ls : List CnfLine} (hls : DeclaresOf ls ds) {kept : List (Nat × Bool)} (hk : ∀ e ∈ kept, e.1 < (tableOf ds).types.length)
    (p q : Pos (specOf ds F).In (specOf ds F).Out) : CubeHolds (specOf ds F) ls p q (kept.map litOf) ↔ KeptHolds (asgOf F p q) kept := by
  simp only [CubeHolds, KeptHolds, List.forall_mem_map]
  exact forall₂_congr fun e he => literal_iff F hls (hk e he) p q

theorem cube_shifted (hn : (tableOf ds).names.Nodup) {ls : List CnfLine} (hls : DeclaresOf ls ds) {kept : List (Nat × Bool)}
    (hk : ∀ e ∈ kept, e.1 < (tableOf ds).types.length) (hp : AllPost (tableOf ds).types kept) (o p q : Pos (specOf ds F).In (specOf ds F).Out) :
    CubeHolds (specOf ds F) ls p q ((kept.map litOf).map fun l => l - l.sign) ↔ KeptHolds (asgOf F o p) kept := by
  simp only [CubeHolds, KeptHolds, List.forall_mem_map]
  refine forall₂_congr fun e he => ?_
  obtain ⟨j, d, hj, hd⟩ := post_index (hp e he)
  have hl : litOf e - (litOf e).sign = litOf (2 * j, e.2) := by
    obtain ⟨i, b⟩ := e
    simp only at hj
    subst hj
    cases b
    · simp only [litOf, Bool.false_eq_true, if_false]
      rw [Int.sign_eq_neg_one_of_neg (by omega)]
      omega
    · simp only [litOf, if_true]
      rw [Int.sign_eq_one_of_pos (by omega)]
      omega
  have hb := hk e he
  rw [hl, literal_iff F hls (by omega), hj, asg_shift F hn hd o p q]

/-- What is printed for a liveness constraint holds infinitely often exactly if the constraint does. -/
theorem cubes_infOften (hn : (tableOf ds).names.Nodup) {ls : List CnfLine} (hls : DeclaresOf ls ds) {G : T (specOf ds F).In (specOf ds F).Out}
    {kepts : List (List (Nat × Bool))}
    (hc : CubeCover (tableOf ds).types.length (fun w => L.eval ((tableLayout ds hn).enc B G) w = true) ((tableLayout ds hn).enc B G) kepts)
    (π : Nat → Pos (specOf ds F).In (specOf ds F).Out) :
    InfOften (fun p q => ∃ c ∈ kepts.map (cubeLiterals (tableOf ds).types), CubeHolds (specOf ds F) ls p q c) π ↔ InfOften G π := by
  have hG : ∀ p q, G p q ↔ ∃ k ∈ kepts, KeptHolds (asgOf F p q) k := fun p q => (eval_asgOf (B := B) F hn G p q).symm.trans (hc.eval _)
  have hone : ∀ k ∈ kepts, ∀ m, (KeptHolds (asgOf F (π m) (π (m + 1))) k →
      CubeHolds (specOf ds F) ls (π m) (π (m + 1)) (cubeLiterals (tableOf ds).types k) ∨
        CubeHolds (specOf ds F) ls (π (m + 1)) (π (m + 2)) (cubeLiterals (tableOf ds).types k)) := by
    intro k hk m h
    rcases cubeLiterals_eq (tableOf ds).types k with ⟨hp, e⟩ | ⟨_, e⟩
    · right; rw [e]; exact (cube_shifted F hn hls (hc.below k hk) hp _ _ _).mpr h
    · left; rw [e]; exact (cube_plain F hls (hc.below k hk) _ _).mpr h
  have htwo : ∀ k ∈ kepts, ∀ m, CubeHolds (specOf ds F) ls (π (m + 1)) (π (m + 2)) (cubeLiterals (tableOf ds).types k) →
      KeptHolds (asgOf F (π m) (π (m + 1))) k ∨ KeptHolds (asgOf F (π (m + 1)) (π (m + 2))) k := by
    intro k hk m h
    rcases cubeLiterals_eq (tableOf ds).types k with ⟨hp, e⟩ | ⟨_, e⟩
    · left; rw [e] at h; exact (cube_shifted F hn hls (hc.below k hk) hp _ _ _).mp h
    · right; rw [e] at h; exact (cube_plain F hls (hc.below k hk) _ _).mp h
  constructor
  · intro h n
    obtain ⟨m, hm, c, hcm, hholds⟩ := h (n + 1)
    obtain ⟨k, hk, rfl⟩ := List.mem_map.mp hcm
    obtain ⟨m, rfl⟩ : ∃ m', m = m' + 1 := ⟨m - 1, by omega⟩
    rcases htwo k hk m hholds with h | h
    · exact ⟨m, by omega, (hG _ _).mpr ⟨k, hk, h⟩⟩
    · exact ⟨m + 1, by omega, (hG _ _).mpr ⟨k, hk, h⟩⟩
  · intro h n
    obtain ⟨m, hm, hg⟩ := h n
    obtain ⟨k, hk, hkm⟩ := (hG _ _).mp hg
    rcases hone k hk m hkm with h | h
    · exact ⟨m, hm, _, List.mem_map_of_mem hk, h⟩
    · exact ⟨m + 1, by omega, _, List.mem_map_of_mem hk, h⟩

/-- The clauses of one constraint. -/
theorem clauses_iff (hn : (tableOf ds).names.Nodup) {ls : List CnfLine} (hls : DeclaresOf ls ds) {f : T (specOf ds F).In (specOf ds F).Out}
    {kepts : List (List (Nat × Bool))}
    (hc : CubeCover (tableOf ds).types.length (fun w => L.eval ((tableLayout ds hn).enc B f) w = false) (L.not ((tableLayout ds hn).enc B f)) kepts)
    (p q : Pos (specOf ds F).In (specOf ds F).Out) :
    (∀ k ∈ kepts, ClauseHolds (specOf ds F) ls p q (clauseLiterals k)) ↔ f p q := by
  rw [← eval_asgOf (B := B) F hn f p q]
  have h := hc.eval (asgOf F p q)
  rw [L.eval_not, Bool.not_eq_true'] at h
  constructor
  · intro hk
    by_contra hf
    obtain ⟨k, hk', hh⟩ := h.mp (by simpa using hf)
    exact (clause_iff F hls (hc.below k hk') p q).mp (hk k hk') hh
  · intro hf k hk
    rw [clause_iff F hls (hc.below k hk)]
    intro hh
    have := h.mpr ⟨k, hk, hh⟩
    rw [hf] at this
    cases this

/-- No literal of a clause can be left out. -/
theorem clause_prime (hn : (tableOf ds).names.Nodup) {ls : List CnfLine} (hls : DeclaresOf ls ds) {f : T (specOf ds F).In (specOf ds F).Out}
    {kepts : List (List (Nat × Bool))}
    (hc : CubeCover (tableOf ds).types.length (fun w => L.eval ((tableLayout ds hn).enc B f) w = false) (L.not ((tableLayout ds hn).enc B f)) kepts)
    {k : List (Nat × Bool)} (hk : k ∈ kepts) {l : Int} (hl : l ∈ clauseLiterals k) :
    ∃ p q, f p q ∧ ∀ l' ∈ clauseLiterals k, l' ≠ l → ¬ LiteralHolds (specOf ds F) ls p q l' := by
  have e : clauseLiterals k = k.map fun e => litOf (e.1, !e.2) := by
    rw [clauseLiterals]
    refine List.map_congr_left fun e _ => ?_
    obtain ⟨i, b⟩ := e
    cases b <;> rfl
  rw [e] at hl ⊢
  obtain ⟨e0, he0, rfl⟩ := List.mem_map.mp hl
  obtain ⟨w, hw, hw'⟩ := hc.prime k hk e0 he0
  obtain ⟨p, q, hpq⟩ := exists_asgOf F hn w
  refine ⟨p, q, ?_, ?_⟩
  · rw [← eval_asgOf (B := B) F hn f p q]
    have := enc_depends (B := B) F hn f (asgOf F p q) w hpq
    exact this.trans (by simpa using hw)
  · intro l' hl' hne
    obtain ⟨e1, he1, rfl⟩ := List.mem_map.mp hl'
    rw [literal_iff F hls (e := (e1.1, !e1.2)) (hc.below k hk e1 he1)]
    by_cases h1 : e1.1 = e0.1
    · obtain ⟨a, ha⟩ := hc.sat k hk
      refine absurd ?_ hne
      have h2 : e1.2 = e0.2 := by rw [← ha e1 he1, ← ha e0 he0, h1]
      rw [h1, h2]
    · rw [hpq _ (hc.below k hk e1 he1), hw' e1 he1 h1]
      simp

end

end Slugs.Model
