import Verif.Lemmas.Decoder
import Verif.Lemmas.StructuredOutput
import Verif.Props.Printing
import Verif.Props.StructuredFiles

/-!
# C66: explicit strategies for structured specifications

`convert` is the model of the structured slugs compiler, `runPrinted` the one of a run of slugs with `--explicitStrategy`, and `decodeText` the one of
`tools/explicitImplementationIntegerDecoder.py`.  `Spec/Decoded.lean` says what an explicit strategy for a structured specification is, and how it is written.
-/

namespace Slugs.Spec

variable {I O I' O' : Type} {g : Game I O} {g' : Game I' O'} {eI : I → I'} {eO : O → O'}

theorem Embeds.initEnv_emb (h : Embeds g g' eI eO) (i : I) : g'.initEnv (eI i) ↔ g.initEnv i := by
  rw [h.initEnv]
  exact ⟨fun ⟨j, e, hj⟩ => h.injI e ▸ hj, fun hi => ⟨i, rfl, hi⟩⟩

theorem Embeds.initSys_emb (h : Embeds g g' eI eO) (p : Pos I O) : g'.initSys (embPos eI eO p) ↔ g.initSys p := by
  rw [embPos, h.initSys]
  exact ⟨fun ⟨j, e, hj⟩ => by rw [← h.injO e] at hj; exact hj, fun hi => ⟨p.2, rfl, hi⟩⟩

theorem Embeds.safetyEnv_emb (h : Embeds g g' eI eO) (p : Pos I O) (i : I) : g'.safetyEnv (embPos eI eO p) (eI i) ↔ g.safetyEnv p i := by
  rw [h.safetyEnv]
  exact ⟨fun ⟨j, e, hj⟩ => h.injI e ▸ hj, fun hi => ⟨i, rfl, hi⟩⟩

theorem Embeds.safetySys_emb (h : Embeds g g' eI eO) (p q : Pos I O) : g'.safetySys (embPos eI eO p) (embPos eI eO q) ↔ g.safetySys p q := by
  rw [show embPos eI eO q = (eI q.1, eO q.2) from rfl, h.safetySys]
  exact ⟨fun ⟨j, e, hj⟩ => by rw [← h.injO e] at hj; exact hj, fun hi => ⟨q.2, rfl, hi⟩⟩

end Slugs.Spec

namespace Slugs.Props

open Slugs.Spec Slugs.Spec.Structured Slugs.Model Slugs.Model.Structured Slugs.Model.Decoder

variable {B : Type} [DecidableEq B] [L : BddLib B] {alg : Algorithm}

/-! ### The printed states are encodings -/

/-- All printed states are encodings of positions of the encoded game. -/
theorem printed_encodes {sp : SpecFile} {I O : Type} {g : Game I O} {eI : I → sp.In} {eO : O → sp.Out} (he : Embeds g sp.game eI eO) {sts : List PState}
    (hp : Printed sp false false sts) : ∀ st ∈ sts, ∃ p, st.pos sp = embPos eI eO p := by
  intro st hst
  generalize hk : st.num = k
  induction k using Nat.strong_induction_on generalizing st with
  | _ k ih =>
    rcases hp.reach st hst with ⟨_, _, h⟩ | ⟨st', h1, h2⟩
    · simp only [Bool.false_eq_true, false_or] at h
      obtain ⟨i, e1, _⟩ := (he.initEnv _).mp h.2
      have hs := h.1
      rw [show st.pos sp = (eI i, (st.pos sp).2) from Prod.ext e1 rfl] at hs
      obtain ⟨o, e2, _⟩ := (he.initSys _ _).mp hs
      exact ⟨(i, o), Prod.ext e1 e2⟩
    · obtain ⟨p, e⟩ := ih st'.num (by omega) st' h1.1 rfl
      have h3 := hp.strict rfl _ _ h1
      have h4 := hp.safe _ _ h1
      rw [e] at h3 h4
      obtain ⟨i, e1, _⟩ := (he.safetyEnv _ _).mp h3
      rw [show st.pos sp = (eI i, (st.pos sp).2) from Prod.ext e1 rfl] at h4
      obtain ⟨o, e2, _⟩ := (he.safetySys _ _ _).mp h4
      exact ⟨(i, o), Prod.ext e1 e2⟩

/-- The states, as states for the encoded game. -/
noncomputable def decoded {S : SSpec} {sp : SpecFile} (D : Pos sp.In sp.Out → Pos S.In S.Out) (st : PState) : IState S := ⟨st.num, st.rank, D (st.pos sp), st.succ⟩

theorem iedge_iff {S : SSpec} {sp : SpecFile} (D : Pos sp.In sp.Out → Pos S.In S.Out) {sts : List PState} {a b : IState S} :
    IEdge (sts.map (decoded D)) a b ↔ ∃ st st', a = decoded D st ∧ b = decoded D st' ∧ Edge sts st st' := by
  constructor
  · rintro ⟨h1, h2, h3⟩
    obtain ⟨st, hs, rfl⟩ := List.mem_map.mp h1
    obtain ⟨st', hs', rfl⟩ := List.mem_map.mp h2
    exact ⟨st, st', rfl, rfl, hs, hs', h3⟩
  · rintro ⟨st, st', rfl, rfl, h1, h2, h3⟩
    exact ⟨List.mem_map_of_mem h1, List.mem_map_of_mem h2, h3⟩

theorem implements_of_printed {S : SSpec} {sp : SpecFile} {eI : S.In → sp.In} {eO : S.Out → sp.Out} (he : Embeds S.game sp.game eI eO) {robotics : Bool}
    (hw : Wins robotics sp) {sts : List PState} (hp : Printed sp false false sts) {D : Pos sp.In sp.Out → Pos S.In S.Out}
    (hD : ∀ st ∈ sts, embPos eI eO (D (st.pos sp)) = st.pos sp) : Implements S robotics (sts.map (decoded D)) := by
  have hDp : ∀ st ∈ sts, ∀ p, st.pos sp = embPos eI eO p → D (st.pos sp) = p := fun st hst p e => embPos_inj he.injI he.injO ((hD st hst).trans e)
  have hnum : ∀ {a b : PState}, a ∈ sts → b ∈ sts → a.num = b.num → a = b := by
    intro a b ha hb e
    have : (sts.map PState.num).Nodup := by rw [hp.wf.numbers]; exact List.nodup_range
    exact List.inj_on_of_nodup_map this ha hb e
  constructor
  · rw [List.map_map, List.length_map, ← hp.wf.numbers]; rfl
  · have := hp.wf.distinct
    rw [List.map_map]
    refine List.Nodup.of_map (fun q => (embPos eI eO q.1, q.2)) ?_
    rw [List.map_map]
    rw [List.map_congr_left (g := fun st => (st.pos sp, st.rank))]
    · exact this
    · intro st hst
      simp only [Function.comp_apply, decoded, hD st hst]
  · intro a ha n hn
    obtain ⟨st, hs, rfl⟩ := List.mem_map.mp ha
    rw [List.length_map]
    exact hp.wf.targets st hs n hn
  · rintro rfl i hi
    obtain ⟨o, h1, h2⟩ := hw (eI i) ((he.initEnv_emb i).mpr hi)
    obtain ⟨o', rfl, h3⟩ := (he.initSys _ _).mp h1
    obtain ⟨st, h4, h5, h6⟩ := hp.start (eI i, eO o') h2 (.inr ⟨h1, .inr ((he.initEnv_emb i).mpr hi)⟩)
    have e := hDp st h4 (i, o') h5
    refine ⟨decoded D st, List.mem_map_of_mem h4, h6, ?_, ?_⟩
    · simp only [decoded, e]
    · simp only [decoded, e]; exact h3
  · rintro rfl p hi hs
    have h1 := (he.initEnv_emb p.1).mpr hi
    have h2 := (he.initSys_emb p).mpr hs
    obtain ⟨st, h4, h5, h6⟩ := hp.start (embPos eI eO p) (hw _ _ h1 h2) (.inr ⟨h2, .inr h1⟩)
    exact ⟨decoded D st, List.mem_map_of_mem h4, h6, hDp st h4 p h5⟩
  · intro a ha i hi
    obtain ⟨st, hs, rfl⟩ := List.mem_map.mp ha
    have hi' : sp.game.safetyEnv (st.pos sp) (eI i) := by rw [← hD st hs]; exact (he.safetyEnv_emb _ _).mpr hi
    obtain ⟨st', h1, h2⟩ := hp.total st hs (eI i) hi'
    have hfst : ∀ st'' ∈ sts, ((st''.pos sp).1 = eI i ↔ (D (st''.pos sp)).1 = i) := by
      intro st'' hst
      have := congrArg Prod.fst (hD st'' hst)
      rw [← this]
      exact he.injI.eq_iff
    refine ⟨decoded D st', ⟨(iedge_iff D).mpr ⟨st, st', rfl, rfl, h1⟩, (hfst st' h1.2.1).mp h2⟩, ?_⟩
    rintro b ⟨hb, hbi⟩
    obtain ⟨s1, s2, e1, rfl, h3⟩ := (iedge_iff D).mp hb
    have e1 : st = s1 := hnum hs h3.1 (congrArg IState.num e1)
    subst e1
    rw [hp.det rfl st s2 st' h3 h1 (((hfst s2 h3.2.1).mpr hbi).trans h2.symm)]
  · intro a b hab
    obtain ⟨st, st', rfl, rfl, h⟩ := (iedge_iff D).mp hab
    have := hp.strict rfl _ _ h
    rw [← hD st h.1, ← hD st' h.2.1] at this
    exact (he.safetyEnv_emb _ _).mp this
  · intro a b hab
    obtain ⟨st, st', rfl, rfl, h⟩ := (iedge_iff D).mp hab
    have := hp.safe _ _ h
    rw [← hD st h.1, ← hD st' h.2.1] at this
    exact (he.safetySys_emb _ _).mp this
  · intro r hr
    have hex : ∀ n, ∃ st ∈ sts, r n = decoded D st := fun n => by
      obtain ⟨st, hs, e⟩ := List.mem_map.mp (hr n).1
      exact ⟨st, hs, e.symm⟩
    choose q hq1 hq2 using hex
    have hedge : ∀ n, Edge sts (q n) (q (n + 1)) := by
      intro n
      refine ⟨hq1 n, hq1 _, ?_⟩
      have := (hr n).2.2
      rw [hq2, hq2] at this
      exact this
    have hl := hp.live q hedge fun n => hp.strict rfl _ _ (hedge n)
    have e : (fun n => (q n).pos sp) = fun n => embPos eI eO ((r n).pos) := by
      funext n
      rw [hq2 n]
      exact (hD _ (hq1 n)).symm
    rw [e, he.live] at hl
    exact hl

/-! ### The texts -/

theorem label_lookup {label : List (Word × Bool)} (h : (label.map Prod.fst).Nodup) : label = (label.map Prod.fst).map fun w => (w, label.lookup w == some true) := by
  rw [List.map_map]
  conv_lhs => rw [← List.map_id label]
  refine List.map_congr_left fun a ha => ?_
  rw [Function.comp_apply, lookup_of_mem h ha]
  cases ha2 : a.2 <;> (obtain ⟨x, y⟩ := a; simp at ha2; subst ha2; rfl)

theorem decode_enc {ds : List Decl} (h : DeclsOk ds) {d : Decl} (hd : d ∈ ds) {v : Word → Int} (hv : d.Ok (v d.name)) {ρ : Word → Bool}
    (hρ : ∀ w ∈ flatNames ds, ρ w = enc ds v w) : decode ρ d = v d.name := by
  have hm : ∀ w ∈ bitsOf d, ρ w = enc ds v w := fun w hw => hρ w (List.mem_flatMap.mpr ⟨d, hd, hw⟩)
  cases hr : d.range with
  | none =>
    rw [decode, hr]
    dsimp only
    rw [hm d.name (by rw [bitsOf, hr]; simp), enc_bool h hd hr]
    rw [Decl.Ok, hr] at hv
    rcases hv with hv | hv <;> simp [hv]
  | some q =>
    obtain ⟨lo, hi⟩ := q
    rw [decode, hr]
    dsimp only
    rw [List.map_congr_left hm, binary_bits h hd hr hv]
    rw [Decl.Ok, hr] at hv
    dsimp only at hv
    omega

/-- **C66.** A structured specification is compiled, and slugs prints an explicit strategy for the result.  Then the decoder prints a list of states in which all
integer variables have their values, and these states are an implementation of the structured specification.  (Variables with only one value do not appear in the text; if
no variable appears, the decoder fails, see `C66_no_variables`.) -/
theorem C66_decoded_partial {thorough robotics : Bool} {text out : List Char} {S : SSpec} (h : SDenotes text S) (hc : convert thorough text = .ok out) {cap : Nat}
    {order : List Char → Bool} {fuel : Nat} (hcap : ∀ l ∈ splitLines out, l.length ≤ cap) (h32 : cap < 2 ^ 32) {printed : List Char}
    (hp : runPrinted B alg robotics false .plain cap order fuel out = some printed) (hv : ∃ d ∈ S.inputs ++ S.outputs, d.visible = true) :
    ∃ (vars : List Decl) (sts : List (IState S)), vars.Perm ((S.inputs ++ S.outputs).filter Decl.visible) ∧
      decodeText printed = some (sts.map (IState.text vars)).flatten ∧ Implements S robotics sts := by
  have hok := denotes_decls h
  obtain ⟨out', h1, h2⟩ := convert_denotes thorough h
  rw [hc] at h1
  cases h1
  obtain ⟨sp, hd, _, ⟨eI, eO, he, hI, hO⟩, hin, hout⟩ := h2 cap hcap h32
  obtain ⟨tab, c, sts, h3, h4, rfl⟩ := runPrinted_some hp
  simp only [reduceCtorEq, decide_false] at h4
  obtain ⟨hw, hpr⟩ := runExplicit_printed h4 hd
  have hperm : (preNames tab).Perm (flatNames (S.inputs ++ S.outputs)) := by
    rw [flatNames_append, ← hin, ← hout]; exact preNames_perm h3 hd
  have hnd : (preNames tab).Nodup := hperm.nodup_iff.mpr (flatNames_nodup hok)
  have hex := printed_encodes he hpr
  have : Nonempty (Pos S.In S.Out) := ⟨(someValue S.inputs hok.left, someValue S.outputs hok.right)⟩
  have hD : ∀ st ∈ sts, embPos eI eO (Function.invFun (embPos eI eO) (st.pos sp)) = st.pos sp := by
    intro st hst
    obtain ⟨p, e⟩ := hex st hst
    exact Function.invFun_eq ⟨p, e.symm⟩
  set D := Function.invFun (embPos eI eO) with hDdef
  refine ⟨(preNames tab).filterMap (leader (S.inputs ++ S.outputs)), sts.map (decoded D), ?_, ?_, implements_of_printed he hw hpr hD⟩
  · rw [← leaders hok]
    exact hperm.filterMap _
  have hvars : ∀ d ∈ (preNames tab).filterMap (leader (S.inputs ++ S.outputs)), d ∈ S.inputs ++ S.outputs := by
    intro d hd'
    obtain ⟨w, _, hw'⟩ := List.mem_filterMap.mp hd'
    exact List.mem_of_find?_eq_some hw'
  have hne : preNames tab ≠ [] := by
    intro e
    obtain ⟨d, hd1, hd2⟩ := hv
    have : d ∈ (flatNames (S.inputs ++ S.outputs)).filterMap (leader (S.inputs ++ S.outputs)) := by
      rw [leaders hok]; exact List.mem_filter.mpr ⟨hd1, hd2⟩
    rw [e] at hperm
    rw [List.nil_perm.mp hperm] at this
    cases this
  have hlab : ∀ st ∈ sts, st.label = (preNames tab).map fun w => (w, st.label.lookup w == some true) := by
    intro st hst
    have e := runExplicit_names h3 h4 st hst
    have := label_lookup (label := st.label) (by rw [e]; exact hnd)
    rwa [e] at this
  have henc : ∀ st ∈ sts, ∀ w ∈ flatNames (S.inputs ++ S.outputs), (st.label.lookup w == some true) = enc (S.inputs ++ S.outputs) (S.now (D (st.pos sp))) w := by
    intro st hst w hwm
    have e := hD st hst
    rw [flatNames_append] at hwm
    rcases List.mem_append.mp hwm with hwm | hwm
    · have := congrFun (congrArg Prod.fst e) ⟨w, by rw [hin]; exact hwm⟩
      rw [show (embPos eI eO (D (st.pos sp))).1 = eI (D (st.pos sp)).1 from rfl, hI] at this
      exact this.symm.trans (enc_part hok.left hok (fun d hd => by simp [hd]) (fun d hd => (now_input hok _ hd).symm) hwm)
    · have := congrFun (congrArg Prod.snd e) ⟨w, by rw [hout]; exact hwm⟩
      rw [show (embPos eI eO (D (st.pos sp))).2 = eO (D (st.pos sp)).2 from rfl, hO] at this
      exact this.symm.trans (enc_part hok.right hok (fun d hd => by simp [hd]) (fun d hd => (now_output hok _ hd).symm) hwm)
  have hchars : ∀ st ∈ sts, ∀ c ∈ special, c ≠ ',' ∧ c ≠ ' ' → c ≠ ':' → c ∉ labelText st.label := by
    intro st hst c hc hcc hc2
    rw [hlab st hst, labelText, List.map_map]
    refine commas_not_mem hcc fun a ha => ?_
    obtain ⟨w, hw', rfl⟩ := List.mem_map.mp ha
    have h5 := flat_chars hok (hperm.mem_iff.mp hw') hc
    have h6 : ∀ b, c ∉ bitText b := by
      simp only [special, List.mem_cons, List.not_mem_nil, or_false] at hc
      rcases hc with rfl | rfl | rfl | rfl | rfl | rfl | rfl <;> intro b <;> cases b <;> decide
    simp [h5, h6, hc2]
  rw [show listing (preNames tab) sts .plain = (sts.map stateText).flatten from rfl]
  rw [decodeText_states (fun st => withCommas (((preNames tab).filterMap (leader (S.inputs ++ S.outputs))).map fun d => valueText d (S.now (D (st.pos sp)) d.name)))]
  · congr 2
    rw [List.map_map]
    refine List.map_congr_left fun st hst => ?_
    simp [stateWith, IState.text, decoded, withCommas_eq]
  · intro st hst
    refine ⟨hchars st hst _ (by decide) (by decide) (by decide), hchars st hst _ (by decide) (by decide) (by decide), hchars st hst _ (by decide) (by decide) (by decide), ?_⟩
    rw [hlab st hst, decodeState_eq hok hperm hne]
    congr 2
    refine List.map_congr_left fun d hd' => ?_
    rw [decode_enc hok (hvars d hd') (now_ok hok _ d (hvars d hd')) (henc st hst)]

/-! ### A concrete file -/

def counterPrinted : List Char :=
  txt!"State 0 with rank 0 -> <x:0, n@0.0.2:0, n@1:0>\n\tWith successors : 0, 1\nState 1 with rank 0 -> <x:1, n@0.0.2:0, n@1:0>\n\tWith successors : 0, 1\n"

theorem counter_printed : runPrinted ROBDD .standard false false .plain 1000 (fun _ => true) 20 counterOut = some counterPrinted := by decide +kernel

/-- The hypotheses of `C66_decoded_partial` hold for the counter of C59. -/
example : ∃ (vars : List Decl) (sts : List (IState counter)), vars.Perm (counter.inputs ++ counter.outputs) ∧
    decodeText counterPrinted = some (sts.map (IState.text vars)).flatten ∧ Implements counter false sts :=
  C66_decoded_partial counter_denotes counter_out (by decide +kernel) (by decide) counter_printed ⟨⟨txt!"x", none⟩, by simp [counter], rfl⟩

example : decodeText counterPrinted =
    some txt!"State 0 with rank 0 -> <x:0, n=0>\n\tWith successors : 0, 1\nState 1 with rank 0 -> <x:1, n=0>\n\tWith successors : 0, 1\n" := by decide +kernel

/-- The bits can be in any order, and the lower bound is added. -/
example : decodeText txt!"State 0 with rank 0 -> <n@2:1, m@0.0.1:1, n@0.10.15:0, b:1, n@1:1>\n" =
    some txt!"State 0 with rank 0 -> <m=1, n=16, b:1>\n" := by decide +kernel

/-! ### What fails -/

/-- A constant: a variable with only one value. -/
def constant : SSpec := ⟨[], [⟨txt!"n", some (4, 4)⟩], [], [], [], [], [], []⟩

theorem constant_denotes : SDenotes txt!"[OUTPUT]\nn : 4...4\n" constant where
  content := by
    refine ⟨[(.output, txt!"n : 4...4")], ?_, .nil, ?_, .nil, .nil, .nil, .nil, .nil, .nil⟩
    · have e : splitLines (universal txt!"[OUTPUT]\nn : 4...4\n") = [txt!"[OUTPUT]", txt!"n : 4...4"] := by decide +kernel
      rw [e]
      exact .header .output (by decide) (SContent.item (l := txt!"n : 4...4") (by decide) (by decide) (by decide) .nil)
    · refine .cons ?_ .nil
      exact IsDecl.num (x := txt!"n") (s1 := txt!" ") (s2 := txt!" ") (a := txt!"4") (s3 := []) (s4 := []) (b := txt!"4") (lo := 4) (hi := 4)
        ⟨⟨'n', rfl, by decide⟩, by decide, by decide, by decide, by decide⟩ (by decide)
        ⟨txt!"4", by decide, by decide, .inl ⟨rfl, by decide⟩⟩ ⟨txt!"4", by decide, by decide, .inl ⟨rfl, by decide⟩⟩ (by decide) (by decide)
  nodup := by decide
  envInit := by intro c hc; cases hc
  sysInit := by intro c hc; cases hc
  envTrans := by intro c hc; cases hc
  sysTrans := by intro c hc; cases hc
  envLiveness := by intro c hc; cases hc
  sysLiveness := by intro c hc; cases hc

/-- If no variable has more than one value, the decoder fails: it takes the empty list of values for a list with one (empty) value. -/
theorem C66_no_variables : ∃ text S out printed, SDenotes text S ∧ convert false text = .ok out ∧
    runPrinted ROBDD .standard false false .plain 1000 (fun _ => true) 20 out = some printed ∧ decodeText printed = none :=
  ⟨txt!"[OUTPUT]\nn : 4...4\n", constant, [], txt!"State 0 with rank 0 -> <>\n\tWith successors : 0\n", constant_denotes, by decide +kernel, by decide +kernel, by decide +kernel⟩

/-- With `--simpleRecovery`, integer inputs can be listed with values out of their bounds: here `n` is declared with the bounds 0 and 2. -/
theorem C66_recovery_out_of_bounds : ∃ out printed, convert false txt!"[INPUT]\nn : 0...2\n" = .ok out ∧
    runPrinted ROBDD .standard false true .plain 1000 (fun _ => true) 20 out = some printed ∧
    decodeText printed = some txt!"State 0 with rank 0 -> <n=0>\n\tWith successors : 0, 1, 2, 3\nState 1 with rank 0 -> <n=2>\n\tWith successors : 0, 1, 2, 3\nState 2 with rank 0 -> <n=1>\n\tWith successors : 0, 1, 2, 3\nState 3 with rank 0 -> <n=3>\n\tWith successors : 0, 1, 2, 3\n" := by
  refine ⟨txt!"[INPUT]\nn@0.0.2\nn@1\n\n[ENV_TRANS]\n## Variable limits: 0<=n'<=2\n| ! n@1' | ! n@0.0.2' 0\n\n[ENV_INIT]\n## Variable limits: 0<=n<=2\n| ! n@1 | ! n@0.0.2 0\n\n", txt!"State 0 with rank 0 -> <n@0.0.2:0, n@1:0>\n\tWith successors : 0, 1, 2, 3\nState 1 with rank 0 -> <n@0.0.2:0, n@1:1>\n\tWith successors : 0, 1, 2, 3\nState 2 with rank 0 -> <n@0.0.2:1, n@1:0>\n\tWith successors : 0, 1, 2, 3\nState 3 with rank 0 -> <n@0.0.2:1, n@1:1>\n\tWith successors : 0, 1, 2, 3\n", ?_, ?_, ?_⟩ <;> decide +kernel

end Slugs.Props
