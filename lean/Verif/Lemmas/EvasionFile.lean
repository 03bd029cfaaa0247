import Verif.Spec.Evasion
import Verif.Model.Evasion
import Verif.Lemmas.InfixTree

/-! What the file with the benchmark about the moving obstacle denotes (C87). -/

namespace Slugs.Model.Evasion

open Slugs.Spec Slugs.Spec.Structured Slugs.Model.Structured Slugs.Model.Cinderella Slugs.Model.InfixTree

/-! ### Good lines -/

def chOk (c : Char) : Bool := okChar c && (!pySpace c && (c != '#' && c != '['))

def headOk : List Piece → Bool
  | .ch c :: _ => chOk c
  | .name (c :: _) :: _ => chOk c
  | _ => false

def lastOk : List Piece → Bool
  | [] => false
  | [.sp] => false
  | [.ch c] => !pySpace c
  | [.name w] => match w.getLast? with | some c => !pySpace c | none => false
  | [.num _] => true
  | _ :: p :: ps => lastOk (p :: ps)

def endsOk : Piece → Bool
  | .sp => true
  | .ch c => okChar c
  | .name w => w.all okChar
  | .num _ => true

theorem ends_spec : ∀ {ps : List Piece}, ps.all endsOk = true → (pText ps).all okChar = true
  | [], _ => rfl
  | p :: ps, h => by
    rw [List.all_cons, Bool.and_eq_true] at h
    have ih := ends_spec h.2
    cases p with
    | sp => rw [pText, List.all_cons, ih]; decide
    | ch c => rw [pText, List.all_cons, ih, show okChar c = true from h.1]; rfl
    | name w => rw [pText, List.all_append, ih, show w.all okChar = true from h.1]; rfl
    | num k => rw [pText, List.all_append, ih, all_strNat]; rfl

theorem last_spec : ∀ {ps : List Piece}, lastOk ps = true → pText ps ≠ [] ∧ ∀ c, (pText ps).getLast? = some c → pySpace c = false
  | [], h => by simp [lastOk] at h
  | [.sp], h => by simp [lastOk] at h
  | [.ch c], h => by
    refine ⟨by simp [pText], fun d hd => ?_⟩
    simp only [pText, List.getLast?_singleton, Option.some.injEq] at hd
    rw [← hd]
    simpa [lastOk] using h
  | [.name w], h => by
    simp only [lastOk] at h
    split at h
    · rename_i c hc
      refine ⟨?_, fun d hd => ?_⟩
      · intro he
        simp only [pText, List.append_nil] at he
        rw [he] at hc; cases hc
      · simp only [pText, List.append_nil, hc, Option.some.injEq] at hd
        rw [← hd]
        simpa using h
    · cases h
  | [.num k], _ => by
    simp only [pText, List.append_nil]
    exact ⟨strNat_ne k, last_strNat k⟩
  | p :: q :: ps, h => by
    have h' : lastOk (q :: ps) = true := by
      cases p <;> simpa [lastOk] using h
    obtain ⟨h1, h2⟩ := last_spec h'
    cases p with
    | sp => exact ⟨by simp [pText], last_cons h1 h2⟩
    | ch c => exact ⟨by simp [pText], last_cons h1 h2⟩
    | name w => exact ⟨by rw [pText]; simp [h1], by rw [pText]; exact last_append h1 h2⟩
    | num k => exact ⟨by rw [pText]; simp [h1], by rw [pText]; exact last_append h1 h2⟩

def pGood (ps : List Piece) : Bool := headOk ps && (lastOk ps && ps.all endsOk)

theorem chOk_spec {c : Char} (h : chOk c = true) : pySpace c = false ∧ c ≠ '#' ∧ c ≠ '[' := by
  simp only [chOk, Bool.and_eq_true, Bool.not_eq_true', bne_iff_ne] at h
  exact ⟨h.2.1, h.2.2.1, h.2.2.2⟩

theorem good_spec {ps : List Piece} (h : pGood ps = true) : GoodLine (pText ps) := by
  simp only [pGood, Bool.and_eq_true] at h
  refine ⟨ends_spec h.2.2, ?_, (last_spec h.2.1).2⟩
  have h1 := h.1
  unfold headOk at h1
  split at h1
  · rename_i c _; exact ⟨c, rfl, chOk_spec h1⟩
  · rename_i c _ _; exact ⟨c, rfl, chOk_spec h1⟩
  · cases h1

/-- A line with a blank behind the item. -/
theorem content_spaced {s : Section} {rest : List (List Char)} {items : List (Section × List Char)} {l : List Char} (hl : GoodLine l)
    (h : SContent (some s) rest items) : SContent (some s) ((l ++ [' ']) :: rest) ((s, l) :: items) := by
  obtain ⟨c, hc, hs, h1, h2⟩ := hl.head
  have ht : pyTrim (l ++ [' ']) = l := by
    have he := hl.trim
    cases l with
    | nil => cases hc
    | cons d l =>
      have hd : d = c := by simpa using hc
      subst hd
      have e1 : (d :: l).dropWhile pySpace = d :: l := by rw [List.dropWhile_cons, hs]; rfl
      have e2 : ((d :: l) ++ [' ']).dropWhile pySpace = (d :: l) ++ [' '] := by rw [List.cons_append, List.dropWhile_cons, hs]; rfl
      rw [pyTrim, e1] at he
      rw [pyTrim, e2, List.reverse_append]
      simpa [show pySpace ' ' = true by decide] using he
  have := SContent.item (s := s) (l := l ++ [' ']) (by rw [ht]; rintro rfl; cases hc) (by rw [ht, hc]; simpa using h1) (by rw [ht, hc]; simpa using h2) h
  rwa [ht] at this

/-! ### The constraints -/

def p_si1 : List Piece :=
  [.ch '!', .sp, .name txt!"obsmove"]

def t_si1 : FTree :=
  .not (.atom txt!"obsmove")

def p_st1 : List Piece :=
  [.ch '(', .name txt!"robx", .sp, .ch '<', .sp, .name txt!"obsx", .ch ')', .sp, .ch '|', .sp, .ch '(', .name txt!"robx", .sp, .ch '>', .ch '=', .sp, .name txt!"obsx", .ch '+', .num 2, .ch ')', .sp, .ch '|', .sp, .ch '(', .name txt!"roby", .sp, .ch '<', .sp, .name txt!"obsy", .ch ')', .sp, .ch '|', .sp, .ch '(', .name txt!"roby", .sp, .ch '>', .ch '=', .sp, .name txt!"obsy", .ch '+', .num 2, .ch ')']

def t_st1 : FTree :=
  .or (.or (.or (.par (.cmp .lt (.var txt!"robx") (.var txt!"obsx"))) (.par (.cmp .ge (.var txt!"robx") (.add (.var txt!"obsx") (.num 2))))) (.par (.cmp .lt (.var txt!"roby") (.var txt!"obsy")))) (.par (.cmp .ge (.var txt!"roby") (.add (.var txt!"obsy") (.num 2))))

def p_st2 : List Piece :=
  [.ch '(', .name txt!"obsmove'", .sp, .ch '-', .ch '>', .sp, .ch '(', .sp, .ch '(', .name txt!"obsx", .ch '=', .name txt!"obsx'", .ch ')', .sp, .ch '&', .sp, .ch '(', .name txt!"obsy", .ch '=', .name txt!"obsy'", .ch ')', .sp, .ch ')', .sp, .ch ')']

def t_st2 : FTree :=
  .par (.imp (.atom txt!"obsmove'") (.par (.and (.par (.cmp .eq (.var txt!"obsx") (.var txt!"obsx'"))) (.par (.cmp .eq (.var txt!"obsy") (.var txt!"obsy'"))))))

def p_st3 : List Piece :=
  [.ch '(', .ch '(', .ch '!', .sp, .name txt!"obsmove'", .ch ')', .sp, .ch '-', .ch '>', .sp, .ch '!', .sp, .ch '(', .sp, .ch '(', .name txt!"obsx", .ch '=', .name txt!"obsx'", .ch ')', .sp, .ch '&', .sp, .ch '(', .name txt!"obsy", .ch '=', .name txt!"obsy'", .ch ')', .sp, .ch ')', .sp, .ch ')']

def t_st3 : FTree :=
  .par (.imp (.par (.not (.atom txt!"obsmove'"))) (.not (.par (.and (.par (.cmp .eq (.var txt!"obsx") (.var txt!"obsx'"))) (.par (.cmp .eq (.var txt!"obsy") (.var txt!"obsy'")))))))

def p_ei1 : List Piece :=
  [.name txt!"robx", .sp, .ch '=', .sp, .num 0]

def t_ei1 : FTree :=
  .cmp .eq (.var txt!"robx") (.num 0)

def p_ei2 : List Piece :=
  [.name txt!"roby", .sp, .ch '=', .sp, .num 0]

def t_ei2 : FTree :=
  .cmp .eq (.var txt!"roby") (.num 0)

def p_ei3 (w : Nat) : List Piece :=
  [.name txt!"obsx", .sp, .ch '=', .sp, .num (w - 2)]

def t_ei3 (w : Nat) : FTree :=
  .cmp .eq (.var txt!"obsx") (.num (w - 2))

def p_ei4 (h : Nat) : List Piece :=
  [.name txt!"obsy", .sp, .ch '=', .sp, .num (h - 2)]

def t_ei4 (h : Nat) : FTree :=
  .cmp .eq (.var txt!"obsy") (.num (h - 2))

def p_ei5 : List Piece :=
  [.name txt!"glitches", .sp, .ch '=', .sp, .num 0]

def t_ei5 : FTree :=
  .cmp .eq (.var txt!"glitches") (.num 0)

def p_et1 : List Piece :=
  [.ch '(', .name txt!"obsx'", .sp, .ch '<', .ch '=', .sp, .name txt!"obsx", .ch '+', .num 1, .ch ')', .sp, .ch '&', .sp, .ch '(', .name txt!"obsy'", .sp, .ch '<', .ch '=', .sp, .name txt!"obsy", .ch '+', .num 1, .ch ')', .sp, .ch '&', .sp, .ch '(', .name txt!"obsx", .sp, .ch '<', .ch '=', .sp, .name txt!"obsx'", .ch '+', .num 1, .ch ')', .sp, .ch '&', .sp, .ch '(', .name txt!"obsy", .sp, .ch '<', .ch '=', .sp, .name txt!"obsy'", .ch '+', .num 1, .ch ')', .sp, .ch '&', .sp, .ch '(', .name txt!"robx'", .sp, .ch '<', .ch '=', .sp, .name txt!"robx", .ch '+', .num 1, .ch ')', .sp, .ch '&', .sp, .ch '(', .name txt!"roby'", .sp, .ch '<', .ch '=', .sp, .name txt!"roby", .ch '+', .num 1, .ch ')', .sp, .ch '&', .sp, .ch '(', .name txt!"robx", .sp, .ch '<', .ch '=', .sp, .name txt!"robx'", .ch '+', .num 1, .ch ')', .sp, .ch '&', .sp, .ch '(', .name txt!"roby", .sp, .ch '<', .ch '=', .sp, .name txt!"roby'", .ch '+', .num 1, .ch ')']

def t_et1 : FTree :=
  .and (.and (.and (.and (.and (.and (.and (.par (.cmp .le (.var txt!"obsx'") (.add (.var txt!"obsx") (.num 1)))) (.par (.cmp .le (.var txt!"obsy'") (.add (.var txt!"obsy") (.num 1))))) (.par (.cmp .le (.var txt!"obsx") (.add (.var txt!"obsx'") (.num 1))))) (.par (.cmp .le (.var txt!"obsy") (.add (.var txt!"obsy'") (.num 1))))) (.par (.cmp .le (.var txt!"robx'") (.add (.var txt!"robx") (.num 1))))) (.par (.cmp .le (.var txt!"roby'") (.add (.var txt!"roby") (.num 1))))) (.par (.cmp .le (.var txt!"robx") (.add (.var txt!"robx'") (.num 1))))) (.par (.cmp .le (.var txt!"roby") (.add (.var txt!"roby'") (.num 1))))

def p_et2 (w h : Nat) : List Piece :=
  [.ch '(', .name txt!"robx", .ch '=', .num 0, .sp, .ch '&', .sp, .name txt!"robx'", .ch '=', .num 0, .sp, .ch '&', .sp, .name txt!"movx", .ch '<', .ch '=', .num 1, .sp, .ch '|', .sp, .name txt!"robx'", .ch '+', .num 1, .sp, .ch '<', .ch '=', .sp, .name txt!"robx", .ch '+', .name txt!"movx", .ch ')', .sp, .ch '&', .sp, .ch '(', .name txt!"robx", .ch '=', .num (w - 1), .sp, .ch '&', .sp, .name txt!"robx'", .ch '=', .num (w - 1), .sp, .ch '&', .sp, .name txt!"movx", .sp, .ch '>', .ch '=', .sp, .num 1, .sp, .ch '|', .sp, .name txt!"robx'", .ch '+', .num 1, .sp, .ch '>', .ch '=', .sp, .name txt!"robx", .ch '+', .name txt!"movx", .ch ')', .sp, .ch '&', .sp, .ch '(', .name txt!"roby", .ch '=', .num 0, .sp, .ch '&', .sp, .name txt!"roby'", .ch '=', .num 0, .sp, .ch '&', .sp, .name txt!"movy", .sp, .ch '<', .ch '=', .sp, .num 1, .sp, .ch '|', .sp, .name txt!"roby'", .ch '+', .num 1, .sp, .ch '<', .ch '=', .sp, .name txt!"roby", .ch '+', .name txt!"movy", .ch ')', .sp, .ch '&', .sp, .ch '(', .name txt!"roby", .ch '=', .num (h - 1), .sp, .ch '&', .sp, .name txt!"roby'", .ch '=', .num (h - 1), .sp, .ch '&', .sp, .name txt!"movy", .ch '>', .ch '=', .num 1, .sp, .ch '|', .sp, .name txt!"roby'", .ch '+', .num 1, .sp, .ch '>', .ch '=', .sp, .name txt!"roby", .ch '+', .name txt!"movy", .ch ')']

def t_et2 (w h : Nat) : FTree :=
  .and (.and (.and (.par (.or (.and (.and (.cmp .eq (.var txt!"robx") (.num 0)) (.cmp .eq (.var txt!"robx'") (.num 0))) (.cmp .le (.var txt!"movx") (.num 1))) (.cmp .le (.add (.var txt!"robx'") (.num 1)) (.add (.var txt!"robx") (.var txt!"movx"))))) (.par (.or (.and (.and (.cmp .eq (.var txt!"robx") (.num (w - 1))) (.cmp .eq (.var txt!"robx'") (.num (w - 1)))) (.cmp .ge (.var txt!"movx") (.num 1))) (.cmp .ge (.add (.var txt!"robx'") (.num 1)) (.add (.var txt!"robx") (.var txt!"movx")))))) (.par (.or (.and (.and (.cmp .eq (.var txt!"roby") (.num 0)) (.cmp .eq (.var txt!"roby'") (.num 0))) (.cmp .le (.var txt!"movy") (.num 1))) (.cmp .le (.add (.var txt!"roby'") (.num 1)) (.add (.var txt!"roby") (.var txt!"movy")))))) (.par (.or (.and (.and (.cmp .eq (.var txt!"roby") (.num (h - 1))) (.cmp .eq (.var txt!"roby'") (.num (h - 1)))) (.cmp .ge (.var txt!"movy") (.num 1))) (.cmp .ge (.add (.var txt!"roby'") (.num 1)) (.add (.var txt!"roby") (.var txt!"movy")))))

def p_et3 : List Piece :=
  [.name txt!"glitches'", .sp, .ch '>', .ch '=', .sp, .name txt!"glitches"]

def t_et3 : FTree :=
  .cmp .ge (.var txt!"glitches'") (.var txt!"glitches")

def p_et4 : List Piece :=
  [.ch '(', .name txt!"obsmove", .sp, .ch '|', .sp, .ch '(', .name txt!"obsx", .ch '=', .name txt!"obsx'", .ch ')', .ch ')', .sp, .ch '&', .sp, .ch '(', .name txt!"obsmove", .sp, .ch '|', .sp, .ch '(', .name txt!"obsy", .ch '=', .name txt!"obsy'", .ch ')', .ch ')', .sp, .ch '|', .sp, .ch '(', .name txt!"glitches'", .sp, .ch '>', .ch '=', .sp, .name txt!"glitches", .ch '+', .num 1, .ch ')']

def t_et4 : FTree :=
  .or (.and (.par (.or (.atom txt!"obsmove") (.par (.cmp .eq (.var txt!"obsx") (.var txt!"obsx'"))))) (.par (.or (.atom txt!"obsmove") (.par (.cmp .eq (.var txt!"obsy") (.var txt!"obsy'")))))) (.par (.cmp .ge (.var txt!"glitches'") (.add (.var txt!"glitches") (.num 1))))

/-! ### The file -/

variable (w h most : Nat)

def pDecl (x : Word) (k : Nat) : List Piece := [.name x, .ch ':', .sp, .num 0, .ch '.', .ch '.', .ch '.', .num k]

def insP : List (List Piece) :=
  [pDecl txt!"obsx" (w - 2), pDecl txt!"obsy" (h - 2), pDecl txt!"robx" (w - 1), pDecl txt!"roby" (h - 1), pDecl txt!"glitches" most]

def outsP : List (List Piece) := [pDecl txt!"movx" 2, pDecl txt!"movy" 2, [.name txt!"obsmove"]]

def eiP : List (List Piece) := [p_ei1, p_ei2, p_ei3 w, p_ei4 h, p_ei5]

def fileLines : List (List Char) :=
  txt!"[INPUT]" :: ((insP w h most).map pText ++ ([] :: txt!"[OUTPUT]" :: (outsP.map pText ++ ([] :: txt!"[SYS_INIT]" :: ([p_si1].map pText ++
    ([] :: [] :: txt!"[SYS_TRANS]" :: ([p_st1].map pText ++ ((pText p_st2 ++ [' ']) :: ([p_st3].map pText ++ ([] :: [] :: txt!"[ENV_INIT]" :: ((eiP w h).map pText ++
    ([] :: txt!"[ENV_TRANS]" :: (pText p_et1 ++ [' ']) :: [] :: (pText (p_et2 w h) ++ [' ']) :: [] :: ([p_et3, p_et4].map pText ++ [[]])))))))))))))

set_option maxRecDepth 20000 in
theorem benchmark_lines (hw : 2 ≤ w) (hh : 2 ≤ h) : benchmark w h most = printLines (fileLines w h most) := by
  have e0 : strNat 0 = txt!"0" := rfl
  have e1 : strNat 1 = txt!"1" := rfl
  have e2 : strNat 2 = txt!"2" := rfl
  have a1 : strInt ((w : Int) - 2) = strNat (w - 2) := by rw [show (w : Int) - 2 = ((w - 2 : Nat) : Int) by omega]; rfl
  have a2 : strInt ((h : Int) - 2) = strNat (h - 2) := by rw [show (h : Int) - 2 = ((h - 2 : Nat) : Int) by omega]; rfl
  have a3 : strInt ((w : Int) - 1) = strNat (w - 1) := by rw [show (w : Int) - 1 = ((w - 1 : Nat) : Int) by omega]; rfl
  have a4 : strInt ((h : Int) - 1) = strNat (h - 1) := by rw [show (h : Int) - 1 = ((h - 1 : Nat) : Int) by omega]; rfl
  unfold benchmark
  rw [a1, a2, a3, a4]
  simp only [fileLines, insP, outsP, eiP, pDecl, p_si1, p_st1, p_st2, p_st3, p_ei1, p_ei2, p_ei3, p_ei4, p_ei5, p_et1, p_et2, p_et3, p_et4, printLines, pText, List.map_cons,
    List.map_nil, List.cons_append, List.nil_append, List.append_assoc, e0, e1, e2]

def fileItems : List (Section × List Char) :=
  ((insP w h most).map pText).map (fun l => (Section.input, l)) ++ ((outsP.map pText).map (fun l => (Section.output, l)) ++
    (([p_si1].map pText).map (fun l => (Section.sysInit, l)) ++ (([p_st1].map pText).map (fun l => (Section.sysTrans, l)) ++ ((Section.sysTrans, pText p_st2) ::
    (([p_st3].map pText).map (fun l => (Section.sysTrans, l)) ++ (((eiP w h).map pText).map (fun l => (Section.envInit, l)) ++
    ((Section.envTrans, pText p_et1) :: (Section.envTrans, pText (p_et2 w h)) :: (([p_et3, p_et4].map pText).map (fun l => (Section.envTrans, l)) ++ []))))))))

theorem good_map {ps : List (List Piece)} (h : ps.all pGood = true) : ∀ l ∈ ps.map pText, GoodLine l := by
  intro l hl
  obtain ⟨p, hp, rfl⟩ := List.mem_map.mp hl
  exact good_spec (List.all_eq_true.mp h p hp)

theorem file_content : SContent none (fileLines w h most) (fileItems w h most) := by
  refine .header .input (by decide) (content_items ?_ (good_map rfl))
  refine .skip (.inl rfl) (.header .output (by decide) (content_items ?_ (good_map rfl)))
  refine .skip (.inl rfl) (.header .sysInit (by decide) (content_items ?_ (good_map rfl)))
  refine .skip (.inl rfl) (.skip (.inl rfl) (.header .sysTrans (by decide) (content_items (content_spaced (good_spec rfl) (content_items ?_ (good_map rfl))) (good_map rfl))))
  refine .skip (.inl rfl) (.skip (.inl rfl) (.header .envInit (by decide) (content_items ?_ (good_map rfl))))
  refine .skip (.inl rfl) (.header .envTrans (by decide) (content_spaced (good_spec rfl) (.skip (.inl rfl) (content_spaced (good_spec rfl) (.skip (.inl rfl)
    (content_items ?_ (good_map rfl)))))))
  exact .skip (.inl rfl) .nil

theorem spaced_ok {l : List Char} (h : GoodLine l) : (l ++ [' ']).all okChar = true := by
  rw [List.all_append, h.ends]; decide

theorem file_ok : ∀ l ∈ fileLines w h most, l.all okChar = true := by
  have g : ∀ {ps : List (List Piece)}, ps.all pGood = true → ∀ l ∈ ps.map pText, l.all okChar = true := fun h l hl => (good_map h l hl).ends
  intro l hl
  simp only [fileLines, List.mem_cons, List.mem_append, List.not_mem_nil, or_false] at hl
  rcases hl with rfl | hl | rfl | rfl | hl | rfl | rfl | hl | rfl | rfl | rfl | hl | rfl | hl | rfl | rfl | rfl | hl | rfl | rfl | rfl | rfl | rfl | rfl | hl | rfl
  · decide
  · exact g (ps := insP w h most) rfl l hl
  · rfl
  · decide
  · exact g (ps := outsP) rfl l hl
  · rfl
  · decide
  · exact g (ps := [p_si1]) rfl l hl
  · rfl
  · rfl
  · decide
  · exact g (ps := [p_st1]) rfl l hl
  · exact spaced_ok (good_spec rfl)
  · exact g (ps := [p_st3]) rfl l hl
  · rfl
  · rfl
  · decide
  · exact g (ps := eiP w h) rfl l hl
  · rfl
  · decide
  · exact spaced_ok (good_spec rfl)
  · rfl
  · exact spaced_ok (good_spec rfl)
  · rfl
  · exact g (ps := [p_et3, p_et4]) rfl l hl
  · rfl

theorem benchmark_split (hw : 2 ≤ w) (hh : 2 ≤ h) : splitLines (universal (benchmark w h most)) = fileLines w h most := by
  have ho := file_ok w h most
  rw [benchmark_lines w h most hw hh, StuckAt.universal_self (printLines_chars ho), splitLines_printLines _ fun l h => okChar_line (ho l h)]

/-! ### The specification -/

def theSpec : SSpec where
  inputs := [⟨txt!"obsx", some (0, ((w - 2 : Nat) : Int))⟩, ⟨txt!"obsy", some (0, ((h - 2 : Nat) : Int))⟩, ⟨txt!"robx", some (0, ((w - 1 : Nat) : Int))⟩,
    ⟨txt!"roby", some (0, ((h - 1 : Nat) : Int))⟩, ⟨txt!"glitches", some (0, (most : Int))⟩]
  outputs := [⟨txt!"movx", some (0, ((2 : Nat) : Int))⟩, ⟨txt!"movy", some (0, ((2 : Nat) : Int))⟩, ⟨txt!"obsmove", none⟩]
  envInit := [.infix t_ei1.fml, .infix t_ei2.fml, .infix (t_ei3 w).fml, .infix (t_ei4 h).fml, .infix t_ei5.fml]
  sysInit := [.infix t_si1.fml]
  envTrans := [.infix t_et1.fml, .infix (t_et2 w h).fml, .infix t_et3.fml, .infix t_et4.fml]
  sysTrans := [.infix t_st1.fml, .infix t_st2.fml, .infix t_st3.fml]
  envLiveness := []
  sysLiveness := []

def theBools : List Word := [txt!"obsmove", txt!"obsmove'"]
def inNames : List Word := [txt!"obsx", txt!"obsy", txt!"robx", txt!"roby", txt!"glitches"]
def outNames : List Word := [txt!"movx", txt!"movy", txt!"obsmove"]
def intNames : List Word := [txt!"obsx", txt!"obsy", txt!"robx", txt!"roby", txt!"glitches", txt!"movx", txt!"movy"]

theorem theSpec_bools : (theSpec w h most).bools = theBools := rfl
theorem theSpec_inputs : (theSpec w h most).inputNames = inNames := rfl
theorem theSpec_outputs : (theSpec w h most).outputNames = outNames := rfl

theorem theSpec_bounds : ∀ x ∈ intNames, ∃ lo hi, (theSpec w h most).bounds x = some (lo, hi) ∧ 0 ≤ lo := by
  intro x hx
  simp only [intNames, List.mem_cons, List.not_mem_nil, or_false] at hx
  rcases hx with rfl | rfl | rfl | rfl | rfl | rfl | rfl <;> exact ⟨0, _, rfl, Int.le_refl 0⟩

theorem isDecl_spaced {x : Word} (hx : Tidy x) (k : Nat) : IsDecl (pText (pDecl x k)) ⟨x, some (0, (k : Int))⟩ := by
  have := IsDecl.num (x := x) (s1 := []) (s2 := [' ']) (s3 := []) (s4 := []) (a := txt!"0") (b := strNat k) (lo := 0) (hi := (k : Int)) hx (by decide)
    (isNumber_strNat 0) (isNumber_strNat k) (by simp) (by simp)
  simpa [pDecl, pText, show strNat 0 = txt!"0" from rfl] using this

theorem tidy_of {x : Word} (h1 : isName x = true) (h2 : '\'' ∉ x ∧ '@' ∉ x ∧ x ∉ Slugs.Spec.Structured.keywords) : Tidy x := by
  cases x with
  | nil => simp [isName] at h1
  | cons c x =>
    simp only [isName, Bool.and_eq_true, List.all_eq_true] at h1
    refine ⟨⟨c, rfl, h1.1⟩, fun d hd => ?_, h2⟩
    rcases List.mem_cons.mp hd with rfl | hd
    · simp [nameChar, h1.1]
    · exact h1.2 d hd

theorem con {ps : List Piece} {t : FTree} (h1 : pOk ps = true) (h2 : t.ok theBools 0 = true) (h3 : pToks theBools ps = t.toks theBools) :
    IsConstraint theBools (pText ps) (.infix t.fml) :=
  .infix (isFormula_tree h1 h2 h3)

theorem allows {s : Section} {t : FTree} (h1 : t.proper intNames = true)
    (h2 : ((t.fml.atoms false ++ t.fml.numbers false).all fun x => decide (x ∈ usable s inNames outNames)) = true) : (theSpec w h most).Allows s (.infix t.fml) :=
  allows_tree rfl rfl (theSpec_bounds w h most) h1 h2

theorem benchmark_denotes (hw : 2 ≤ w) (hh : 2 ≤ h) : SDenotes (benchmark w h most) (theSpec w h most) where
  content := by
    refine ⟨fileItems w h most, ?_, ?_⟩
    · rw [benchmark_split w h most hw hh]
      exact file_content w h most
    · rw [theSpec_bools]
      refine ⟨?_, ?_, ?_, ?_, ?_, ?_, .nil, .nil⟩
      · exact .cons (isDecl_spaced (tidy_of rfl (by decide)) _) (.cons (isDecl_spaced (tidy_of rfl (by decide)) _) (.cons (isDecl_spaced (tidy_of rfl (by decide)) _)
          (.cons (isDecl_spaced (tidy_of rfl (by decide)) _) (.cons (isDecl_spaced (tidy_of rfl (by decide)) _) .nil))))
      · exact .cons (isDecl_spaced (tidy_of rfl (by decide)) _) (.cons (isDecl_spaced (tidy_of rfl (by decide)) _) (.cons (.bool (tidy_of rfl (by decide))) .nil))
      · exact .cons (con rfl rfl rfl) (.cons (con rfl rfl rfl) (.cons (con rfl rfl rfl) (.cons (con rfl rfl rfl) (.cons (con rfl rfl rfl) .nil))))
      · exact .cons (con rfl rfl rfl) .nil
      · exact .cons (con rfl rfl rfl) (.cons (con rfl rfl rfl) (.cons (con rfl rfl rfl) (.cons (con rfl rfl rfl) .nil)))
      · exact .cons (con rfl rfl rfl) (.cons (con rfl rfl rfl) (.cons (con rfl rfl rfl) .nil))
  nodup := by
    rw [SSpec.names, theSpec_inputs, theSpec_outputs]
    decide
  envInit := by
    intro c hc
    simp only [theSpec, List.mem_cons, List.not_mem_nil, or_false] at hc
    rcases hc with rfl | rfl | rfl | rfl | rfl <;> exact allows w h most rfl rfl
  sysInit := by
    intro c hc
    simp only [theSpec, List.mem_cons, List.not_mem_nil, or_false] at hc
    rcases hc with rfl
    exact allows w h most rfl rfl
  envTrans := by
    intro c hc
    simp only [theSpec, List.mem_cons, List.not_mem_nil, or_false] at hc
    rcases hc with rfl | rfl | rfl | rfl <;> exact allows w h most rfl rfl
  sysTrans := by
    intro c hc
    simp only [theSpec, List.mem_cons, List.not_mem_nil, or_false] at hc
    rcases hc with rfl | rfl | rfl <;> exact allows w h most rfl rfl
  envLiveness := by intro c hc; cases hc
  sysLiveness := by intro c hc; cases hc

end Slugs.Model.Evasion
