import Verif.Lemmas.Init
import Verif.Props.Core
import Verif.Model.Run

/-!
The context built from an accepted file represents the game that the file denotes.
-/

namespace Slugs.Model

open Slugs.Spec

variable {B : Type} [DecidableEq B] [L : BddLib B]

/-! ### Uniqueness of the denoted specification -/

theorem forall₂_unique {α β : Type} {R : α → β → Prop} (h : ∀ a b b', R a b → R a b' → b = b') :
    ∀ {l : List α} {m m' : List β}, List.Forall₂ R l m → List.Forall₂ R l m' → m = m' := by
  intro l m m' h1
  induction h1 generalizing m' with
  | nil => intro h2; cases h2; rfl
  | cons hr _ ih =>
    intro h2
    cases h2 with
    | cons hr' h2 => rw [h _ _ _ hr hr', ih h2]

theorem Denotes.det {text : List Char} {sp sp' : SpecFile} (h : Denotes text sp) (h' : Denotes text sp') : sp = sp' := by
  obtain ⟨items, hc, h1, h2, h3, h4, h5, h6, h7, h8⟩ := h
  obtain ⟨items', hc', h1', h2', h3', h4', h5', h6', h7', h8'⟩ := h'
  have := Content.det hc hc'
  subst this
  cases sp; cases sp'
  simp only at *
  have u := @forall₂_unique _ _ ReadsLine fun _ _ _ => ReadsLine.det
  rw [h1, h1', h2, h2', u h3 h3', u h4 h4', u h5 h5', u h6 h6', u h7 h7', u h8 h8']

theorem ItemsInv.denotes {st : VarTable × Ctx B} {items : List (Section × List Char)} {ds : Decls}
    {F : Section → List Fml} (h : ItemsInv st items ds F) {text : List Char}
    (hc : Content none (splitLines text) items) : Denotes text (specOf ds F) :=
  ⟨items, hc, h.inputs, h.outputs, h.reads _ (by decide) (by decide), h.reads _ (by decide) (by decide),
    h.reads _ (by decide) (by decide), h.reads _ (by decide) (by decide), h.reads _ (by decide) (by decide),
    h.reads _ (by decide) (by decide)⟩

/-! ### Names -/

theorem names_perm (ds : Decls) (F : Section → List Fml) : (specOf ds F).names.Perm (tableOf ds).names := by
  rw [List.perm_iff_count]
  intro x
  simp only [SpecFile.names, specOf]
  induction ds with
  | nil => simp [inputsOf, outputsOf, tableOf, entriesOf]
  | cons d ds ih =>
    have e : (tableOf (d :: ds)).names = d.2 :: prime d.2 :: (tableOf ds).names := by
      simp [tableOf, entriesOf, declPair]
    rw [e]
    simp only [List.count_append, List.count_cons] at ih ⊢
    obtain ⟨b, y⟩ := d
    cases b
    · have e1 : inputsOf ((false, y) :: ds) = inputsOf ds := rfl
      have e2 : outputsOf ((false, y) :: ds) = y :: outputsOf ds := rfl
      rw [e1, e2, List.map_cons, List.count_cons, List.count_cons]
      dsimp only
      omega
    · have e1 : inputsOf ((true, y) :: ds) = y :: inputsOf ds := rfl
      have e2 : outputsOf ((true, y) :: ds) = outputsOf ds := rfl
      rw [e1, e2, List.map_cons, List.count_cons, List.count_cons]
      dsimp only
      omega

theorem declared_slot {ds : Decls} {al : List VarType} {x : Word} (h : Declared (tableOf ds) al x) :
    ∃ z : DSlot ds, (slotEntry z).1 = x ∧ (slotEntry z).2 ∈ al := by
  obtain ⟨h1, t, h2, h3⟩ := h
  have hk : (tableOf ds).names.idxOf x < (entriesOf ds).length := by simpa [tableOf] using h1
  obtain ⟨z, hz⟩ := mem_entriesOf.mp (List.getElem_mem hk)
  refine ⟨z, ?_, ?_⟩
  · rw [hz]
    have := List.getElem_idxOf h1
    rw [← List.getElem_map Prod.fst (l := entriesOf ds) (h := by simpa using hk)]
    exact this
  · rw [hz]
    have : (entriesOf ds)[(tableOf ds).names.idxOf x].2 = t := by
      have h2' : ((entriesOf ds).map Prod.snd)[(tableOf ds).names.idxOf x]? = some t := h2
      rw [List.getElem?_map, List.getElem?_eq_getElem hk] at h2'
      exact Option.some.inj h2'
    rw [this]; exact h3

theorem look_slot {ds : Decls} (F : Section → List Fml) (hn : (tableOf ds).names.Nodup)
    (p q : Pos (specOf ds F).In (specOf ds F).Out) (z : DSlot ds) :
    (specOf ds F).look p q (slotEntry z).1 = slots p q z := by
  have hin : ∀ x, x ∈ (specOf ds F).inputs → ∃ z : DSlot ds, (∃ y, z = .ci y) ∧ (slotEntry z).1 = x :=
    fun x hx => ⟨.ci ⟨x, hx⟩, ⟨_, rfl⟩, rfl⟩
  have hout : ∀ x, x ∈ (specOf ds F).outputs → ∃ z : DSlot ds, (∃ y, z = .co y) ∧ (slotEntry z).1 = x :=
    fun x hx => ⟨.co ⟨x, hx⟩, ⟨_, rfl⟩, rfl⟩
  have hnow : ∀ (i : (specOf ds F).In) (o : (specOf ds F).Out),
      (∀ y : {x // x ∈ inputsOf ds}, (specOf ds F).now i o y.1 = i y) ∧
      (∀ y : {x // x ∈ outputsOf ds}, (specOf ds F).now i o y.1 = o y) := by
    intro i o
    constructor
    · rintro ⟨y, hy⟩
      have hy' : y ∈ (specOf ds F).inputs := hy
      rw [SpecFile.now, dif_pos hy']; rfl
    · rintro ⟨y, hy⟩
      have hy' : y ∈ (specOf ds F).outputs := hy
      have hni : y ∉ (specOf ds F).inputs := by
        intro hm
        obtain ⟨z, ⟨w, rfl⟩, h2⟩ := hin y hm
        have := slotName_inj hn (z := .ci w) (z' := .co ⟨y, hy⟩) h2
        cases this
      rw [SpecFile.now, dif_neg hni, dif_pos hy']; rfl
  have hprime : ∀ z : DSlot ds, (∀ w, z ≠ .ci w) → (∀ w, z ≠ .co w) →
      (slotEntry z).1 ∉ (specOf ds F).inputs ++ (specOf ds F).outputs := by
    intro z h1 h2 hm
    rcases List.mem_append.mp hm with hm | hm
    · obtain ⟨z', ⟨w, rfl⟩, h⟩ := hin _ hm
      exact h1 w (slotName_inj hn h).symm
    · obtain ⟨z', ⟨w, rfl⟩, h⟩ := hout _ hm
      exact h2 w (slotName_inj hn h).symm
  rcases z with z | z | z | z
  · have : z.1 ∈ (specOf ds F).inputs ++ (specOf ds F).outputs := List.mem_append.mpr (.inl z.2)
    change (specOf ds F).look p q z.1 = p.1 z
    rw [SpecFile.look, if_pos this]; exact (hnow p.1 p.2).1 z
  · have : z.1 ∈ (specOf ds F).inputs ++ (specOf ds F).outputs := List.mem_append.mpr (.inr z.2)
    change (specOf ds F).look p q z.1 = p.2 z
    rw [SpecFile.look, if_pos this]; exact (hnow p.1 p.2).2 z
  · have : prime z.1 ∉ (specOf ds F).inputs ++ (specOf ds F).outputs := hprime (.ni z) (by simp) (by simp)
    change (specOf ds F).look p q (prime z.1) = q.1 z
    rw [SpecFile.look, if_neg this]
    rw [show (prime z.1).dropLast = z.1 by simp [prime]]; exact (hnow q.1 q.2).1 z
  · have : prime z.1 ∉ (specOf ds F).inputs ++ (specOf ds F).outputs := hprime (.no z) (by simp) (by simp)
    change (specOf ds F).look p q (prime z.1) = q.2 z
    rw [SpecFile.look, if_neg this]
    rw [show (prime z.1).dropLast = z.1 by simp [prime]]; exact (hnow q.1 q.2).2 z

/-- Evaluating a formula by variable numbers and by names. -/
theorem eval_slots {ds : Decls} (F : Section → List Fml) (hn : (tableOf ds).names.Nodup) {φ : Fml} {al : List VarType}
    (hd : ∀ x ∈ φ.vars, Declared (tableOf ds) al x) (a : Asg) (p q : Pos (specOf ds F).In (specOf ds F).Out)
    (h : ∀ z : DSlot ds, (slotEntry z).2 ∈ al → slots p q z = (tableLayout ds hn).get a z) :
    φ.eval (nameVal (tableOf ds) a) [] = φ.eval ((specOf ds F).look p q) [] := by
  refine Fml.eval_congr φ [] fun x hx => ?_
  obtain ⟨z, rfl, hz⟩ := declared_slot (hd x hx)
  rw [look_slot F hn, h z hz]
  rfl

/-! ### The game -/

/-- A non-empty list of liveness constraints. -/
def padLive {I O : Type} : List (T I O) → List (T I O)
  | [] => [fun _ _ => True]
  | a :: l => a :: l

/-- Making sure that there are liveness constraints does not change the game. -/
def padGame {I O : Type} (g : Game I O) : Game I O :=
  { g with
    assumptions := padLive g.assumptions
    guarantees := padLive g.guarantees }

theorem padGame_live {I O : Type} (g : Game I O) (p : Nat → Pos I O) : (padGame g).Live p ↔ g.Live p := by
  have ht : InfOften (fun _ _ => True) p := fun n => ⟨n, Nat.le_refl n, trivial⟩
  have h1 : (∀ a ∈ (padGame g).assumptions, InfOften a p) ↔ ∀ a ∈ g.assumptions, InfOften a p := by
    simp only [padGame]
    cases g.assumptions with
    | nil => simp [padLive, ht]
    | cons a l => rfl
  have h2 : (∀ a ∈ (padGame g).guarantees, InfOften a p) ↔ ∀ a ∈ g.guarantees, InfOften a p := by
    simp only [padGame]
    cases g.guarantees with
    | nil => simp [padLive, ht]
    | cons a l => rfl
  rw [Game.Live, Game.Live, h1, h2]

/-- Two games that only differ in how liveness is written down are won from the same positions. -/
theorem sysWins_congr {I O : Type} {g g' : Game I O} (he : g.safetyEnv = g'.safetyEnv) (hs : g.safetySys = g'.safetySys)
    (hl : ∀ p, g.Live p → g'.Live p) {s : Pos I O} (h : g.SysWins s) : g'.SysWins s := by
  obtain ⟨σ, h1, h2⟩ := h
  have hh : ∀ h, g'.SysHist σ s h → g.SysHist σ s h := by
    intro h hh
    induction hh with
    | start => exact .start
    | step _ hi ih => exact .step ih (he ▸ hi)
  refine ⟨σ, fun cur h i hc hi => ?_, fun p hp => hl p (h2 p fun n => hh _ (hp n))⟩
  rw [← hs]
  exact h1 cur h i (hh _ hc) (he ▸ hi)

theorem padGame_sysWins {I O : Type} (g : Game I O) (s : Pos I O) : (padGame g).SysWins s ↔ g.SysWins s :=
  ⟨sysWins_congr (g := padGame g) (g' := g) rfl rfl fun p => (padGame_live g p).mp,
    sysWins_congr (g := g) (g' := padGame g) rfl rfl fun p => (padGame_live g p).mpr⟩

theorem padGame_realizable {I O : Type} (g : Game I O) : (padGame g).Realizable ↔ g.Realizable := by
  simp only [Game.Realizable, padGame_sysWins]
  rfl

theorem padGame_robotics {I O : Type} (g : Game I O) : (padGame g).RoboticsRealizable ↔ g.RoboticsRealizable := by
  simp only [Game.RoboticsRealizable, padGame_sysWins]
  rfl

theorem padGame_assumptions {I O : Type} (g : Game I O) : (padGame g).assumptions ≠ [] := by
  simp only [padGame, padLive]; split <;> simp_all

theorem padGame_guarantees {I O : Type} (g : Game I O) : (padGame g).guarantees ≠ [] := by
  simp only [padGame, padLive]; split <;> simp_all

theorem slots_pos {X Y : Type} (u : Slot X Y → Bool) : slots (curPos u) (nxtPos u) = u := by
  funext z; cases z <;> rfl

/-- The context represents the game. -/
theorem ctx_eq {tab : VarTable} {c0 : Ctx B} {items : List (Section × List Char)} {ds : Decls} {F : Section → List Fml}
    (h : ItemsInv (tab, c0) items ds F) (hn : (tableOf ds).names.Nodup) :
    { c0 with
      livenessAssumptions := if c0.livenessAssumptions = [] then [L.tt] else c0.livenessAssumptions
      livenessGuarantees := if c0.livenessGuarantees = [] then [L.tt] else c0.livenessGuarantees } =
    (gameCtx (padGame (specOf ds F).game)).map ((tableLayout ds hn).enc B) := by
  have ht : tab = tableOf ds := h.table
  subst ht
  have hm := h.means
  have hall : ∀ (s : Section) (al : List VarType), allowedIn s = al → ∀ (a : Asg) (p q : Pos (specOf ds F).In (specOf ds F).Out),
      (∀ z : DSlot ds, (slotEntry z).2 ∈ al → slots p q z = (tableLayout ds hn).get a z) →
      ((∀ φ ∈ F s, φ.eval (nameVal (tableOf ds) a) [] = some true) ↔
        ∀ φ ∈ F s, φ.eval ((specOf ds F).look p q) [] = some true) := by
    intro s al hal a p q hz
    refine forall_congr' fun φ => imp_congr_right fun hφ => ?_
    rw [eval_slots F hn (fun x hx => hal ▸ h.declared s φ hφ x hx) a p q hz]
  have hlive : ∀ (s : Section) (l : List B) , s = .envLiveness ∨ s = .sysLiveness →
      List.Forall₂ (fun b φ => ∀ a, L.eval b a = true ↔ φ.eval (nameVal (tableOf ds) a) [] = some true) l (F s) →
      (if l = [] then [L.tt] else l) =
        (padLive ((F s).map (fun φ p q => (specOf ds F).holds p q φ))).map ((tableLayout ds hn).enc B) := by
    intro s l hs hl
    cases hF : F s with
    | nil =>
      rw [hF] at hl
      cases hl
      rw [if_pos rfl]
      exact congrArg (fun b => [b]) ((tableLayout ds hn).eq_enc B fun a => by simp [L.eval_tt])
    | cons φ Fs =>
      have hsub : ∀ ψ ∈ φ :: Fs, ψ ∈ F s := fun ψ hψ => hF ▸ hψ
      rw [hF] at hl
      have key : ∀ (l : List B) (Fs : List Fml), (∀ ψ ∈ Fs, ψ ∈ F s) →
          List.Forall₂ (fun b φ => ∀ a, L.eval b a = true ↔ φ.eval (nameVal (tableOf ds) a) [] = some true) l Fs →
          l = (Fs.map (fun φ p q => (specOf ds F).holds p q φ)).map ((tableLayout ds hn).enc B) := by
        intro l Fs hsub hl
        induction hl with
        | nil => rfl
        | @cons b φ l Fs hb _ ih =>
          refine congr (congrArg List.cons ((tableLayout ds hn).eq_enc B fun a => ?_))
            (ih fun ψ hψ => hsub ψ (by simp [hψ]))
          rw [hb a, eval_slots F hn (h.declared s φ (hsub φ (by simp))) a (curPos ((tableLayout ds hn).get a))
            (nxtPos ((tableLayout ds hn).get a)) fun z _ => congrFun (slots_pos _) z]
          rfl
      cases hl with
      | cons hb hl =>
        simp only [reduceCtorEq, if_false]
        exact key _ _ hsub (.cons hb hl)
  simp only [Ctx.map, gameCtx, padGame, Ctx.mk.injEq]
  refine ⟨?_, ?_, ?_, ?_, ?_, ?_⟩
  · exact hlive .envLiveness _ (.inl rfl) hm.assumptions
  · exact hlive .sysLiveness _ (.inr rfl) hm.guarantees
  · refine (tableLayout ds hn).eq_enc B fun a => (hm.initEnv a).trans (hall .envInit _ rfl a _ _ ?_)
    rintro (z | z | z | z) hz <;> simp [slotEntry, allowedIn] at hz
    rfl
  · refine (tableLayout ds hn).eq_enc B fun a => (hm.initSys a).trans (hall .sysInit _ rfl a _ _ ?_)
    rintro (z | z | z | z) hz <;> simp [slotEntry, allowedIn] at hz <;> rfl
  · refine (tableLayout ds hn).eq_enc B fun a => (hm.safetyEnv a).trans (hall .envTrans _ rfl a _ _ ?_)
    rintro (z | z | z | z) hz <;> simp [slotEntry, allowedIn] at hz <;> rfl
  · refine (tableLayout ds hn).eq_enc B fun a => (hm.safetySys a).trans (hall .sysTrans _ rfl a _ _ ?_)
    rintro (z | z | z | z) hz <;> rfl

/-- Everything about an accepted file: it denotes a specification, and the context represents its game. -/
theorem initContext_spec {cap : Nat} {order : List Char → Bool} {text : List Char} {tab : VarTable} {c : Ctx B}
    (h : initContext cap order text = .ok (tab, c)) :
    ∃ (ds : Decls) (F : Section → List Fml) (hn : (tableOf ds).names.Nodup),
      tab = tableOf ds ∧ Denotes text (specOf ds F) ∧ (specOf ds F).Unambiguous ∧ (specOf ds F).WellScoped ∧
      (specOf ds F).Meaningful ∧
      c = (gameCtx (padGame (specOf ds F).game)).map ((tableLayout ds hn).enc B) := by
  obtain ⟨items, ds, F, c0, hc, hinv, hn, rfl⟩ := initContext_ok h
  have ht : tab = tableOf ds := hinv.table
  subst ht
  refine ⟨ds, F, hn, rfl, hinv.denotes hc, ?_, ?_, ?_, ctx_eq hinv hn⟩
  · exact (names_perm ds F).nodup_iff.mpr hn
  · have key : ∀ s, ∀ φ ∈ F s, ∀ x ∈ φ.vars, ∃ z : DSlot ds, (slotEntry z).1 = x ∧ (slotEntry z).2 ∈ allowedIn s :=
      fun s φ hφ x hx => declared_slot (hinv.declared s φ hφ x hx)
    have hall : ∀ z : DSlot ds, (slotEntry z).1 ∈ (specOf ds F).names := by
      intro z
      exact (names_perm ds F).mem_iff.mpr (slotName_mem z)
    constructor
    · intro φ hφ x hx
      obtain ⟨z, rfl, hz⟩ := key .envInit φ hφ x hx
      rcases z with z | z | z | z <;> simp [slotEntry, allowedIn] at hz
      exact z.2
    · intro φ hφ x hx
      obtain ⟨z, rfl, hz⟩ := key .sysInit φ hφ x hx
      rcases z with z | z | z | z <;> simp [slotEntry, allowedIn] at hz
      · exact List.mem_append.mpr (.inl z.2)
      · exact List.mem_append.mpr (.inr z.2)
    · intro φ hφ x hx
      obtain ⟨z, rfl, hz⟩ := key .envTrans φ hφ x hx
      rcases z with z | z | z | z <;> simp [slotEntry, allowedIn] at hz
      · exact List.mem_append.mpr (.inl (List.mem_append.mpr (.inl z.2)))
      · exact List.mem_append.mpr (.inl (List.mem_append.mpr (.inr z.2)))
      · exact List.mem_append.mpr (.inr (List.mem_map.mpr ⟨_, z.2, rfl⟩))
    all_goals
      intro φ hφ x hx
      obtain ⟨z, rfl, hz⟩ := key _ φ hφ x hx
      exact hall z
  · have key : ∀ s, ∀ φ ∈ F s, ∀ ρ, ∃ b, φ.eval ρ [] = some b := by
      intro s φ hφ ρ
      let a : Asg := fun k => match (tableOf ds).names[k]? with | some x => ρ x | none => false
      obtain ⟨b, hb⟩ := hinv.meaningful s φ hφ a
      refine ⟨b, ?_⟩
      rw [← hb]
      refine Fml.eval_congr φ [] fun x hx => ?_
      obtain ⟨h1, _⟩ := hinv.declared s φ hφ x hx
      simp only [nameVal, a]
      have h1' : (tableOf ds).names.idxOf x < (tableOf ds).names.length := h1
      rw [List.getElem?_eq_getElem h1', List.getElem_idxOf h1']
    intro φ hφ
    simp only [specOf, List.mem_append] at hφ
    rcases hφ with ((((hφ | hφ) | hφ) | hφ) | hφ) | hφ <;> exact key _ φ hφ

end Slugs.Model
