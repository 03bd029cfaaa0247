import Verif.Lemmas.ResilienceFirst
import Verif.Props.Aiger

/-!
C70: the assumptions that can be violated any number of times (`tools/kResilientRealizabilityChecker.py`, first part).
-/

namespace Slugs.Props

open Slugs.Spec Slugs.Model Slugs.Model.Resilience

/-- **C70.** For every proper file, the first search ends, and it finds exactly the maximal sets of assumptions (written as vectors of truth values) whose violations can be
tolerated, each of them once.  The assumptions that are marked as limits of variables are never violated. -/
theorem C70_any_number {cap : Nat} {text : List Char} {sp : SpecFile} {hard soft : List Fml} (hf : ProperFile cap text) (hd : Denotes text sp) (ha : Assumes text hard soft) :
    ∃ N, ∀ (B : Type) [DecidableEq B] [BddLib B] (alg : Algorithm) (order : List Char → Bool) (cap fuel : Nat), N ≤ cap → N ≤ fuel →
      ∃ L, firstSearch (askSlugs B alg cap order fuel) text = some L ∧ L.Nodup ∧
        ∀ v, v ∈ L ↔ v.length = soft.length ∧ (sp.tolerant hard soft v).Realizable ∧
          ∀ w, List.Forall₂ (· ≤ ·) v w → (sp.tolerant hard soft w).Realizable → w = v := by
  obtain ⟨ess, c, hr, hb⟩ := base_of hf hd ha
  obtain ⟨N, hN⟩ := hb.infty_found
  refine ⟨N, fun B _ _ alg order cap fuel h1 h2 => ?_⟩
  rw [firstSearch, hr]
  exact hN B alg order cap fuel h1 h2

/-- Every set of assumptions whose violations can be tolerated is contained in one that is found. -/
theorem C70_all_below {cap : Nat} {text : List Char} {sp : SpecFile} {hard soft : List Fml} (hf : ProperFile cap text) (hd : Denotes text sp) (ha : Assumes text hard soft) :
    ∃ N, ∀ (B : Type) [DecidableEq B] [BddLib B] (alg : Algorithm) (order : List Char → Bool) (cap fuel : Nat), N ≤ cap → N ≤ fuel →
      ∃ L, firstSearch (askSlugs B alg cap order fuel) text = some L ∧
        ∀ v, v.length = soft.length → ((sp.tolerant hard soft v).Realizable ↔ ∃ w ∈ L, List.Forall₂ (· ≤ ·) v w) := by
  obtain ⟨N, hN⟩ := C70_any_number hf hd ha
  refine ⟨N, fun B _ _ alg order cap fuel h1 h2 => ?_⟩
  obtain ⟨L, hL, _, hm⟩ := hN B alg order cap fuel h1 h2
  refine ⟨L, hL, fun v hv => ⟨fun hr => ?_, ?_⟩⟩
  · obtain ⟨w, h3, h4, h5⟩ := infty_maximal (P := fun v => (sp.tolerant hard soft v).Realizable) hr
    exact ⟨w, (hm w).mpr ⟨h3.length_eq.symm.trans hv, h4, h5⟩, h3⟩
  · rintro ⟨w, hw, hle⟩
    exact tolerant_anti hle ((hm w).mp hw).2.1

/-- Nothing is found if and only if the specification is unrealizable (then the program prints that it is, and stops). -/
theorem C70_unrealizable {cap : Nat} {text : List Char} {sp : SpecFile} (hf : ProperFile cap text) (hd : Denotes text sp) :
    ∃ N, ∀ (B : Type) [DecidableEq B] [BddLib B] (alg : Algorithm) (order : List Char → Bool) (cap fuel : Nat), N ≤ cap → N ≤ fuel →
      ∃ L, firstSearch (askSlugs B alg cap order fuel) text = some L ∧ (L = [] ↔ ¬ sp.game.Realizable) := by
  obtain ⟨hard, soft, ha⟩ := assumes_exists hf
  obtain ⟨N, hN⟩ := C70_any_number hf hd ha
  obtain ⟨ess, c, _, hb⟩ := base_of hf hd ha
  refine ⟨N, fun B _ _ alg order cap fuel h1 h2 => ?_⟩
  obtain ⟨L, hL, _, hm⟩ := hN B alg order cap fuel h1 h2
  refine ⟨L, hL, ?_⟩
  rw [← hb.tolerant_none]
  constructor
  · rintro rfl hr
    obtain ⟨w, h3, h4, h5⟩ := infty_maximal (P := fun v => (sp.tolerant hard soft v).Realizable) hr
    have := (hm w).mpr ⟨h3.length_eq.symm.trans List.length_replicate, h4, h5⟩
    cases this
  · refine fun h => List.eq_nil_iff_forall_not_mem.mpr fun w hw => h ?_
    obtain ⟨h3, h4, _⟩ := (hm w).mp hw
    exact tolerant_anti (replicate_le h3) h4

/-- What it means that violations are tolerated: if the liveness assumptions hold, and there are finitely many violations, then all goals are reached infinitely often. -/
theorem C70_meaning (sp : SpecFile) (hard soft : List Fml) (v : List Bool) (p : Nat → Pos sp.In sp.Out) :
    (sp.tolerant hard soft v).Live p ↔
      ((∀ a ∈ sp.game.assumptions, InfOften a p) → (∃ n, ∀ m, n ≤ m → ∀ φ ∈ pick id v soft, sp.violates (p m) (p (m + 1)).1 φ = false) → ∀ b ∈ sp.game.guarantees, InfOften b p) := by
  constructor
  · rintro h ha ⟨n, hn⟩ b hb k
    obtain ⟨m, h1, h2⟩ := h ha _ (List.mem_map.mpr ⟨b, hb, rfl⟩) (max n k)
    rcases h2 with h2 | ⟨φ, hφ, hv⟩
    · exact ⟨m, (le_max_right _ _).trans h1, h2⟩
    · rw [hn m ((le_max_left _ _).trans h1) φ hφ] at hv
      cases hv
  · intro h ha b' hb' k
    obtain ⟨b, hb, rfl⟩ := List.mem_map.mp hb'
    by_cases hn : ∃ n, ∀ m, n ≤ m → ∀ φ ∈ pick id v soft, sp.violates (p m) (p (m + 1)).1 φ = false
    · obtain ⟨m, h1, h2⟩ := h ha hn b hb k
      exact ⟨m, h1, .inl h2⟩
    · push Not at hn
      obtain ⟨m, h1, φ, h2, h3⟩ := hn k
      exact ⟨m, h1, .inr ⟨φ, h2, by simpa using h3⟩⟩

/-! ### An example -/

/-- Every request is granted at once, but there are no two grants in a row.  It is assumed that there are no two requests in a row, and that there is no request after a grant. -/
def grantText : List Char := txt!"[INPUT]\nr\n[OUTPUT]\ng\n[ENV_TRANS]\n! & r r'\n## Variable limits: r\n| r' ! r'\n| ! g ! r'\n[SYS_TRANS]\n| ! r' g'\n! & g g'\n"

def grantItems : List (Bool × Section × List Char) :=
  [(false, .input, txt!"r"), (false, .output, txt!"g"), (false, .envTrans, txt!"! & r r'"), (true, .envTrans, txt!"| r' ! r'"), (false, .envTrans, txt!"| ! g ! r'"),
    (false, .sysTrans, txt!"| ! r' g'"), (false, .sysTrans, txt!"! & g g'")]

def noTwo : Fml := .not (.bin .and (.var txt!"r") (.var txt!"r'"))
def range : Fml := .bin .or (.var txt!"r'") (.not (.var txt!"r'"))
def noNext : Fml := .bin .or (.not (.var txt!"g")) (.not (.var txt!"r'"))
def granted : Fml := .bin .or (.not (.var txt!"r'")) (.var txt!"g'")
def pause : Fml := .not (.bin .and (.var txt!"g") (.var txt!"g'"))

def grant : SpecFile := ⟨[txt!"r"], [txt!"g"], [], [], [noTwo, range, noNext], [granted, pause], [], []⟩

theorem grant_marked : MarkedContent none false (splitLines grantText) grantItems := by
  have : splitLines grantText = [txt!"[INPUT]", txt!"r", txt!"[OUTPUT]", txt!"g", txt!"[ENV_TRANS]", txt!"! & r r'", txt!"## Variable limits: r", txt!"| r' ! r'",
    txt!"| ! g ! r'", txt!"[SYS_TRANS]", txt!"| ! r' g'", txt!"! & g g'"] := by decide
  rw [this]
  refine .header .input (by decide) (.item (by decide) (by decide) (by decide) ?_)
  refine .header .output (by decide) (.item (by decide) (by decide) (by decide) ?_)
  refine .header .envTrans (by decide) (.item (by decide) (by decide) (by decide) ?_)
  refine .limits (by decide) (.item (by decide) (by decide) (by decide) ?_)
  refine .item (by decide) (by decide) (by decide) ?_
  refine .header .sysTrans (by decide) (.item (by decide) (by decide) (by decide) ?_)
  exact .item (by decide) (by decide) (by decide) .nil

theorem grant_wf : ∀ φ ∈ [noTwo, range, noNext, granted, pause], φ.Wf 0 := by simp [noTwo, range, noNext, granted, pause, Fml.Wf]

theorem grant_reads : ∀ φ ∈ [noTwo, range, noNext, granted, pause], ReadsLine φ.text φ := by
  intro φ hφ
  have hw := grant_wf φ hφ
  simp only [List.mem_cons, List.not_mem_nil, or_false] at hφ
  rcases hφ with rfl | rfl | rfl | rfl | rfl <;> exact reads_plain _ hw (by decide) (by decide)

theorem grant_denotes : Denotes grantText grant :=
  ⟨_, marked_content grant_marked, rfl, rfl, .nil, .nil,
    .cons (grant_reads noTwo (by simp)) (.cons (grant_reads range (by simp)) (.cons (grant_reads noNext (by simp)) .nil)),
    .cons (grant_reads granted (by simp)) (.cons (grant_reads pause (by simp)) .nil), .nil, .nil⟩

theorem grant_assumes : Assumes grantText [range] [noTwo, noNext] :=
  ⟨_, grant_marked, .cons (grant_reads range (by simp)) .nil, .cons (grant_reads noTwo (by simp)) (.cons (grant_reads noNext (by simp)) .nil)⟩

theorem grant_proper : ProperFile 1000 grantText := by
  refine ⟨_, marked_content grant_marked, by decide, ?_⟩
  intro before s line after h h1 h2
  rcases before with _ | ⟨p1, _ | ⟨p2, _ | ⟨p3, _ | ⟨p4, _ | ⟨p5, _ | ⟨p6, _ | ⟨p7, before⟩⟩⟩⟩⟩⟩⟩ <;>
    simp only [grantItems, List.map_cons, List.map_nil, List.cons_append, List.nil_append, List.cons.injEq, Prod.mk.injEq] at h
  · exact absurd h.1.1.symm h1
  · exact absurd h.2.1.1.symm h2
  · obtain ⟨rfl, rfl, ⟨rfl, rfl⟩, _⟩ := h
    exact ⟨by decide, noTwo, grant_reads noTwo (by simp), grant_wf noTwo (by simp), by decide⟩
  · obtain ⟨rfl, rfl, rfl, ⟨rfl, rfl⟩, _⟩ := h
    exact ⟨by decide, range, grant_reads range (by simp), grant_wf range (by simp), by decide⟩
  · obtain ⟨rfl, rfl, rfl, rfl, ⟨rfl, rfl⟩, _⟩ := h
    exact ⟨by decide, noNext, grant_reads noNext (by simp), grant_wf noNext (by simp), by decide⟩
  · obtain ⟨rfl, rfl, rfl, rfl, rfl, ⟨rfl, rfl⟩, _⟩ := h
    exact ⟨by decide, granted, grant_reads granted (by simp), grant_wf granted (by simp), by decide⟩
  · obtain ⟨rfl, rfl, rfl, rfl, rfl, rfl, ⟨rfl, rfl⟩, _⟩ := h
    exact ⟨by decide, pause, grant_reads pause (by simp), grant_wf pause (by simp), by decide⟩
  · simp at h

/-- The request. -/
def reqOf (i : grant.In) : Bool := i ⟨txt!"r", by decide⟩

/-- The grant. -/
def grOf (o : grant.Out) : Bool := o ⟨txt!"g", by decide⟩

theorem grant_look (p q : Pos grant.In grant.Out) :
    grant.look p q txt!"r" = reqOf p.1 ∧ grant.look p q txt!"g" = grOf p.2 ∧ grant.look p q txt!"r'" = reqOf q.1 ∧ grant.look p q txt!"g'" = grOf q.2 := by
  refine ⟨?_, ?_, ?_, ?_⟩
  · rw [SpecFile.look, if_pos (by decide), SpecFile.now, dif_pos (by decide)]; rfl
  · rw [SpecFile.look, if_pos (by decide), SpecFile.now, dif_neg (by decide), dif_pos (by decide)]; rfl
  · rw [SpecFile.look, if_neg (by decide), SpecFile.now, dif_pos (by decide)]; rfl
  · rw [SpecFile.look, if_neg (by decide), SpecFile.now, dif_neg (by decide), dif_pos (by decide)]; rfl

theorem grant_violates (p : Pos grant.In grant.Out) (i : grant.In) :
    grant.violates p i range = false ∧ grant.violates p i noTwo = (reqOf p.1 && reqOf i) ∧ grant.violates p i noNext = (grOf p.2 && reqOf i) := by
  obtain ⟨h1, h2, h3, _⟩ := grant_look p (i, fun _ => false)
  simp only [SpecFile.violates, range, noTwo, noNext, Fml.eval, h1, h2, h3, BinOp.apply]
  cases reqOf p.1 <;> cases reqOf i <;> cases grOf p.2 <;> decide

theorem grant_sys (p q : Pos grant.In grant.Out) : grant.game.safetySys p q ↔ (reqOf q.1 = true → grOf q.2 = true) ∧ ¬ (grOf p.2 = true ∧ grOf q.2 = true) := by
  obtain ⟨h1, h2, h3, h4⟩ := grant_look p q
  have e : grant.game.safetySys p q ↔ grant.holds p q granted ∧ grant.holds p q pause := by
    rw [SpecFile.game]
    simp only [show grant.sysTrans = [granted, pause] from rfl, List.mem_cons, List.not_mem_nil, or_false, forall_eq_or_imp, forall_eq]
  rw [e]
  simp only [SpecFile.holds, granted, pause, Fml.eval, h2, h3, h4]
  cases grOf p.2 <;> cases reqOf q.1 <;> cases grOf q.2 <;> decide

/-- Each of the assumptions can be violated, as long as the other one is not. -/
theorem grant_one {v : List Bool} (h : v = [true, false] ∨ v = [false, true]) : (grant.tolerant [range] [noTwo, noNext] v).Realizable := by
  intro i _
  refine ⟨fun _ => false, fun φ hφ => absurd hφ (List.not_mem_nil), fun _ i _ => reqOf i, ?_, ?_⟩
  · intro cur l j hh he
    have inv : grOf cur.2 = true → reqOf cur.1 = true := by
      cases hh with
      | start => intro h; cases h
      | step _ _ => exact id
    refine (grant_sys _ _).mpr ⟨id, fun hg => ?_⟩
    obtain ⟨_, h2, h3⟩ := grant_violates cur j
    rcases h with rfl | rfl
    · have := he noNext (by simp [pick])
      rw [h3, hg.1] at this
      exact absurd hg.2 (by simpa [grOf] using this)
    · have := he noTwo (by simp [pick])
      rw [h2, inv hg.1] at this
      exact absurd hg.2 (by simpa [grOf] using this)
  · intro p _ _ b hb
    cases hb

/-- They cannot both be violated. -/
theorem grant_both : ¬ (grant.tolerant [range] [noTwo, noNext] [true, true]).Realizable := by
  intro h
  obtain ⟨o, _, σ, h1, _⟩ := h (fun _ => true) (fun φ hφ => absurd hφ (List.not_mem_nil))
  have env : ∀ p, (grant.tolerant [range] [noTwo, noNext] [true, true]).safetyEnv p fun _ => true := by
    intro p φ hφ
    have : φ = range := by
      have e : [range] ++ pick (! ·) [true, true] [noTwo, noNext] = [range] := rfl
      rw [e] at hφ
      simpa using hφ
    subst this
    exact (grant_violates _ _).1
  have s1 := (grant_sys _ _).mp (h1 _ _ _ .start (env _))
  have s2 := (grant_sys _ _).mp (h1 _ _ _ (.step .start (env _)) (env _))
  exact s2.2 ⟨s1.1 rfl, s2.1 rfl⟩

/-- The two sets are found. -/
example : ∃ N, ∀ (B : Type) [DecidableEq B] [BddLib B] (alg : Algorithm) (order : List Char → Bool) (cap fuel : Nat), N ≤ cap → N ≤ fuel →
    ∃ L, firstSearch (askSlugs B alg cap order fuel) grantText = some L ∧ L.Perm [[true, false], [false, true]] := by
  obtain ⟨N, hN⟩ := C70_any_number grant_proper grant_denotes grant_assumes
  refine ⟨N, fun B _ _ alg order cap fuel h1 h2 => ?_⟩
  obtain ⟨L, hL, hnd, hm⟩ := hN B alg order cap fuel h1 h2
  refine ⟨L, hL, (List.perm_ext_iff_of_nodup hnd (by decide)).mpr fun v => ?_⟩
  rw [hm v]
  have two : ∀ u : List Bool, u.length = 2 → u = [true, true] ∨ u = [true, false] ∨ u = [false, true] ∨ u = [false, false] := by
    intro u hu
    obtain ⟨a, b, rfl⟩ := List.length_eq_two.mp hu
    cases a <;> cases b <;> simp
  constructor
  · rintro ⟨hl, hr, hmax⟩
    rcases two v hl with rfl | rfl | rfl | rfl
    · exact absurd hr grant_both
    · simp
    · simp
    · exact absurd (hmax [true, false] (by decide) (grant_one (.inl rfl))) (by decide)
  · intro hv
    have hv' : v = [true, false] ∨ v = [false, true] := by simpa using hv
    refine ⟨by rcases hv' with rfl | rfl <;> rfl, grant_one hv', fun w hw hr => ?_⟩
    rcases two w (by rw [← hw.length_eq]; rcases hv' with rfl | rfl <;> rfl) with rfl | rfl | rfl | rfl
    · exact absurd hr grant_both
    all_goals rcases hv' with rfl | rfl <;> first | rfl | exact absurd hw (by decide)

end Slugs.Props
