import Verif.Proofs.JsonText
import Verif.Spec.StdMacro

/-!
# The texts of the macro `delegate`
-/

namespace Tiny
open Spec

variable {strtod : List UInt8 → BitVec 64}

theorem argName_ident (i : Nat) : IsIdent (argName i) := by
  have hd := decimal_digits i
  have hw : IsWord (argName i) := by
    show IsWord (97 :: decimal i)
    exact ⟨by decide, fun c hc => .inr (.inl (hd c hc))⟩
  have hn : ∀ w : List UInt8, (∀ c ∈ w, ¬ Digit c) → argName i ≠ w := by
    intro w h e
    cases hx : decimal i with
    | nil => exact decimal_ne_nil i hx
    | cons d ds =>
      refine h d ?_ (hd d (by rw [hx]; simp))
      rw [← e, argName, hx]
      simp
  refine identOf hw (fun k hk => hn _ ?_) (hn _ (by decide)) (hn _ (by decide))
  revert k
  decide +kernel

theorem argName_inj {i j : Nat} (h : argName i = argName j) : i = j := by
  have := List.append_cancel_left h
  rw [← decimal_value i, this, decimal_value]

/-! ## Tokens -/

def paramToks : Nat → List Name → List (Token × Nat)
  | _, [] => []
  | i, [t] => [(.ident (argName i), 1), (.sym .colon, 1), (.ident t, 1)]
  | i, t :: u :: ts => (.ident (argName i), 1) :: (.sym .colon, 1) :: (.ident t, 1) :: (.sym .comma, 1) :: paramToks (i + 1) (u :: ts)

def idToks : Nat → List Name → List (Token × Nat)
  | _, [] => []
  | i, [_] => [(.ident (argName i), 1)]
  | i, _ :: u :: ts => (.ident (argName i), 1) :: (.sym .comma, 1) :: idToks (i + 1) (u :: ts)

theorem intercalate_two (sep x y : List UInt8) (l : List (List UInt8)) :
    List.intercalate sep (x :: y :: l) = x ++ (sep ++ List.intercalate sep (y :: l)) := by
  simp [List.intercalate]

theorem intercalate_one (sep x : List UInt8) : List.intercalate sep [x] = x := by simp [List.intercalate]

theorem lines_params : ∀ {ts : List Name} (i : Nat), (∀ t ∈ ts, IsIdent t) → ∀ {u : List UInt8} {ks : List (Token × Nat)} {m : Nat}, NoWord u → LinesIs 1 u ks m →
    LinesIs 1 (List.intercalate (bytes ", ") (delegateArgTexts i ts) ++ u) (paramToks i ts ++ ks) m
  | [], _, _, _, _, _, _, hl => by simpa [delegateArgTexts, paramToks, List.intercalate] using hl
  | [t], i, h, u, ks, m, hu, hl => by
    have h1 := hl.ident (h t (by simp)) hu
    have h2 := h1.blank.sym (x := ":") (k := .colon) (by decide) (noLonger_colon _)
    have h3 := h2.ident (argName_ident i) (noWord_cons (by decide))
    simp only [delegateArgTexts, intercalate_one, paramToks]
    have e : argName i ++ bytes ": " ++ t ++ u = argName i ++ (bytes ":" ++ 32 :: (t ++ u)) := by simp [bytes]
    rw [e]
    exact h3
  | t :: t' :: ts, i, h, u, ks, m, hu, hl => by
    have h0 := lines_params (ts := t' :: ts) (i + 1) (fun x hx => h x (by simp [hx])) hu hl
    have h1 := (h0.blank.sym (x := ",") (k := .comma) (by decide) (noLonger_comma _)).ident (h t (by simp)) (noWord_cons (by decide))
    have h2 := h1.blank.sym (x := ":") (k := .colon) (by decide) (noLonger_colon _)
    have h3 := h2.ident (argName_ident i) (noWord_cons (by decide))
    have e : List.intercalate (bytes ", ") (delegateArgTexts i (t :: t' :: ts)) ++ u =
        argName i ++ (bytes ":" ++ 32 :: (t ++ (bytes "," ++ 32 :: (List.intercalate (bytes ", ") (delegateArgTexts (i + 1) (t' :: ts)) ++ u)))) := by
      simp only [delegateArgTexts, intercalate_two]
      simp [bytes]
    rw [e]
    exact h3

theorem lines_ids : ∀ {ts : List Name} (i : Nat), ∀ {u : List UInt8} {ks : List (Token × Nat)} {m : Nat}, NoWord u → LinesIs 1 u ks m →
    LinesIs 1 (List.intercalate (bytes ", ") (delegateIdTexts i ts) ++ u) (idToks i ts ++ ks) m
  | [], _, _, _, _, _, hl => by simpa [delegateIdTexts, idToks, List.intercalate] using hl
  | [t], i, u, ks, m, hu, hl => by
    have h1 := hl.ident (argName_ident i) hu
    simp only [delegateIdTexts, intercalate_one, idToks]
    exact h1
  | t :: t' :: ts, i, u, ks, m, hu, hl => by
    have h0 := lines_ids (ts := t' :: ts) (i + 1) hu hl
    have h1 := (h0.blank.sym (x := ",") (k := .comma) (by decide) (noLonger_comma _)).ident (argName_ident i) (noWord_cons (by decide))
    have e : List.intercalate (bytes ", ") (delegateIdTexts i (t :: t' :: ts)) ++ u =
        argName i ++ (bytes "," ++ 32 :: (List.intercalate (bytes ", ") (delegateIdTexts (i + 1) (t' :: ts)) ++ u)) := by
      simp only [delegateIdTexts, intercalate_two]
      simp [bytes]
    rw [e]
    exact h1


/-- The tokens of the function which calls. -/
def callToks (D : Name) (ts : List Name) (r : Option Name) : List (Token × Nat) :=
  (.sym .funcTok, 1) :: (.ident (callName D), 1) :: (.sym .openParen, 1) :: (.ident (bytes "f"), 1) :: (.sym .colon, 1) :: (.ident D, 1) ::
    (.sym .comma, 1) :: (paramToks 0 ts ++ (.sym .closeParen, 1) ::
    match r with
    | some r => (.sym .colon, 1) :: (.ident r, 1) :: (.sym .openCurly, 1) :: (.sym .returnTok, 1) :: (.sym .castTok, 1) :: (.sym .openParen, 1) ::
        (.ident (bytes "call_function"), 1) :: (.sym .openParen, 1) :: (.ident (bytes "f"), 1) :: (.sym .comma, 1) :: (idToks 0 ts ++
        [(.sym .closeParen, 1), (.sym .comma, 1), (.ident r, 1), (.sym .closeParen, 1), (.sym .closeCurly, 1)])
    | none => (.sym .openCurly, 1) :: (.ident (bytes "call_function"), 1) :: (.sym .openParen, 1) :: (.ident (bytes "f"), 1) :: (.sym .comma, 1) ::
        (idToks 0 ts ++ [(.sym .closeParen, 1), (.sym .closeCurly, 1)]))

/-- The tokens of the function which creates. -/
def createToks (g D n : Name) : List (Token × Nat) :=
  [(.sym .funcTok, 1), (.ident g, 1), (.sym .openParen, 1), (.sym .closeParen, 1), (.sym .colon, 1), (.ident D, 1), (.sym .openCurly, 1),
    (.sym .returnTok, 1), (.sym .castTok, 1), (.sym .openParen, 1), (.ident (bytes "get_function_index"), 1), (.sym .openParen, 1), (.str n, 1),
    (.sym .closeParen, 1), (.sym .comma, 1), (.ident D, 1), (.sym .closeParen, 1), (.sym .closeCurly, 1)]

theorem f_ident : IsIdent (bytes "f") := identOf ⟨by decide, by decide⟩ (by decide) (by decide) (by decide)
theorem callf_ident : IsIdent (bytes "call_function") := identOf ⟨by decide, by decide +kernel⟩ (by decide +kernel) (by decide) (by decide)
theorem getf_ident : IsIdent (bytes "get_function_index") := identOf ⟨by decide, by decide +kernel⟩ (by decide +kernel) (by decide) (by decide)

theorem callName_ident {D : Name} (h : IsIdent D) : IsIdent (callName D) := under_ident h (by decide +kernel) (by decide +kernel)

theorem lines_close {m : Nat} {u : List UInt8} {ks : List (Token × Nat)} (h : LinesIs 1 u ks m) :
    LinesIs 1 (bytes ")" ++ u) ((.sym .closeParen, 1) :: ks) m := h.sym (x := ")") (k := .closeParen) (by decide) (noLonger_close _)

theorem lines_uncurly : LinesIs 1 (bytes "}") [(.sym .closeCurly, 1)] 1 := by
  have := LinesIs.nil (n := 1).sym (x := "}") (k := .closeCurly) (by decide) (noLonger_uncurly _)
  rwa [List.append_nil] at this

theorem lines_call {D : Name} (hD : IsIdent D) {ts : List Name} (ht : ∀ t ∈ ts, IsIdent t) {r : Option Name} (hr : ∀ t ∈ r, IsIdent t) :
    LinesIs 1 (delegateCallSource D ts r) (callToks D ts r) 1 := by
  -- the beginning
  have head : ∀ {u : List UInt8} {ks : List (Token × Nat)}, LinesIs 1 u ks 1 →
      LinesIs 1 (bytes "func " ++ callName D ++ bytes "(f: " ++ D ++ bytes ", " ++ List.intercalate (bytes ", ") (delegateArgTexts 0 ts) ++ bytes ")" ++ u)
        ((.sym .funcTok, 1) :: (.ident (callName D), 1) :: (.sym .openParen, 1) :: (.ident (bytes "f"), 1) :: (.sym .colon, 1) :: (.ident D, 1) ::
          (.sym .comma, 1) :: (paramToks 0 ts ++ (.sym .closeParen, 1) :: ks)) 1 := by
    intro u ks h
    have h1 := lines_params 0 ht (noWord_cons (by decide)) (lines_close h)
    have h2 := (h1.blank.sym (x := ",") (k := .comma) (by decide) (noLonger_comma _)).ident hD (noWord_cons (by decide))
    have h3 := (h2.blank.sym (x := ":") (k := .colon) (by decide) (noLonger_colon _)).ident f_ident (noWord_cons (by decide))
    have h4 := (h3.sym (x := "(") (k := .openParen) (by decide) (noLonger_open _)).ident (callName_ident hD) (noWord_cons (by decide))
    have h5 := h4.blank.keyword (x := "func") (k := .funcTok) (by decide) (noWord_cons (by decide))
    have e : bytes "func " ++ callName D ++ bytes "(f: " ++ D ++ bytes ", " ++ List.intercalate (bytes ", ") (delegateArgTexts 0 ts) ++ bytes ")" ++ u =
        bytes "func" ++ 32 :: (callName D ++ (bytes "(" ++ (bytes "f" ++ (bytes ":" ++ 32 :: (D ++ (bytes "," ++ 32 ::
          (List.intercalate (bytes ", ") (delegateArgTexts 0 ts) ++ (bytes ")" ++ u)))))))) := by
      simp [bytes]
    rw [e]
    exact h5
  -- the call
  have callp : ∀ {u : List UInt8} {ks : List (Token × Nat)}, LinesIs 1 u ks 1 →
      LinesIs 1 (bytes "call_function" ++ (bytes "(" ++ (bytes "f" ++ (bytes "," ++ 32 :: (List.intercalate (bytes ", ") (delegateIdTexts 0 ts) ++ (bytes ")" ++ u))))))
        ((.ident (bytes "call_function"), 1) :: (.sym .openParen, 1) :: (.ident (bytes "f"), 1) :: (.sym .comma, 1) :: (idToks 0 ts ++ (.sym .closeParen, 1) :: ks)) 1 := by
    intro u ks h
    have h1 := lines_ids (ts := ts) 0 (noWord_cons (by decide)) (lines_close h)
    have h2 := (h1.blank.sym (x := ",") (k := .comma) (by decide) (noLonger_comma _)).ident f_ident (noWord_cons (by decide))
    exact (h2.sym (x := "(") (k := .openParen) (by decide) (noLonger_open _)).ident callf_ident (noWord_cons (by decide))
  cases r with
  | none =>
    have h1 := callp lines_uncurly.blank
    have h2 := head (h1.blank.sym (x := "{") (k := .openCurly) (by decide) (noLonger_curly _)).blank
    have e : delegateCallSource D ts none = bytes "func " ++ callName D ++ bytes "(f: " ++ D ++ bytes ", " ++ List.intercalate (bytes ", ") (delegateArgTexts 0 ts) ++ bytes ")" ++
        32 :: (bytes "{" ++ 32 :: (bytes "call_function" ++ (bytes "(" ++ (bytes "f" ++ (bytes "," ++ 32 :: (List.intercalate (bytes ", ") (delegateIdTexts 0 ts) ++ (bytes ")" ++ 32 :: bytes "}"))))))) := by
      simp [delegateCallSource, bytes]
    rw [e]
    exact h2
  | some r =>
    have hr := hr r (by simp)
    have h0 := (lines_close lines_uncurly.blank).ident hr (noWord_cons (by decide))
    have h1 := callp (h0.blank.sym (x := ",") (k := .comma) (by decide) (noLonger_comma _))
    have h2 := (h1.sym (x := "(") (k := .openParen) (by decide) (noLonger_open _)).keyword (x := "cast") (k := .castTok) (by decide) (noWord_cons (by decide))
    have h3 := h2.blank.keyword (x := "return") (k := .returnTok) (by decide) (noWord_cons (by decide))
    have h4 := (h3.blank.sym (x := "{") (k := .openCurly) (by decide) (noLonger_curly _)).blank.ident hr (noWord_cons (by decide))
    have h5 := head (h4.blank.sym (x := ":") (k := .colon) (by decide) (noLonger_colon _))
    have e : delegateCallSource D ts (some r) = bytes "func " ++ callName D ++ bytes "(f: " ++ D ++ bytes ", " ++ List.intercalate (bytes ", ") (delegateArgTexts 0 ts) ++ bytes ")" ++
        (bytes ":" ++ 32 :: (r ++ 32 :: (bytes "{" ++ 32 :: (bytes "return" ++ 32 :: (bytes "cast" ++ (bytes "(" ++ (bytes "call_function" ++ (bytes "(" ++ (bytes "f" ++ (bytes "," ++ 32 :: (List.intercalate (bytes ", ") (delegateIdTexts 0 ts) ++ (bytes ")" ++
          (bytes "," ++ 32 :: (r ++ (bytes ")" ++ 32 :: bytes "}"))))))))))))))) := by
      simp [delegateCallSource, bytes]
    rw [e]
    exact h5

theorem lines_create {g D n : Name} (hg : IsIdent g) (hD : IsIdent D) (hn : IsIdent n) : LinesIs 1 (delegateCreateSource g D n) (createToks g D n) 1 := by
  have h0 := (lines_close lines_uncurly.blank).ident hD (noWord_cons (by decide))
  have h1 := lines_close (h0.blank.sym (x := ",") (k := .comma) (by decide) (noLonger_comma _))
  have h2 := h1.str (q := n) (b := n) (by have := quoted_word (isWord_all hn.word) .nil; simpa using this)
  have h3 := (h2.sym (x := "(") (k := .openParen) (by decide) (noLonger_open _)).ident getf_ident (noWord_cons (by decide))
  have h4 := (h3.sym (x := "(") (k := .openParen) (by decide) (noLonger_open _)).keyword (x := "cast") (k := .castTok) (by decide) (noWord_cons (by decide))
  have h5 := h4.blank.keyword (x := "return") (k := .returnTok) (by decide) (noWord_cons (by decide))
  have h6 := (h5.blank.sym (x := "{") (k := .openCurly) (by decide) (noLonger_curly _)).blank.ident hD (noWord_cons (by decide))
  have h7 := lines_close (h6.blank.sym (x := ":") (k := .colon) (by decide) (noLonger_colon _))
  have h8 := (h7.sym (x := "(") (k := .openParen) (by decide) (noLonger_open _)).ident hg (noWord_cons (by decide))
  have h9 := h8.blank.keyword (x := "func") (k := .funcTok) (by decide) (noWord_cons (by decide))
  have e : delegateCreateSource g D n = bytes "func" ++ 32 :: (g ++ (bytes "(" ++ (bytes ")" ++ (bytes ":" ++ 32 :: (D ++ 32 :: (bytes "{" ++ 32 ::
      (bytes "return" ++ 32 :: (bytes "cast" ++ (bytes "(" ++ (bytes "get_function_index" ++ (bytes "(" ++ 34 :: (n ++ 34 :: (bytes ")" ++ (bytes "," ++ 32 ::
      (D ++ (bytes ")" ++ 32 :: bytes "}")))))))))))))))) := by
    simp [delegateCreateSource, bytes]
  rw [e]
  exact h9

/-! ## The trees -/

theorem params_toks : ∀ {ts : List Name} (i : Nat), ∀ {L : List Tk} {ks : List (Token × Nat)}, AreToks strtod L (paramToks i ts ++ (.sym .closeParen, 1) :: ks) →
    ∃ us vs, L = us ++ vs ∧ ParamsAre (delegateParams i ts) us ∧ AreToks strtod vs ks
  | [], _, L, ks, h => by
    obtain ⟨a4, vs, rfl, b4, -, h⟩ := AreToks.sym h
    exact ⟨[a4], vs, rfl, .nil b4, h⟩
  | [t], i, L, ks, h => by
    obtain ⟨a1, _, rfl, b1, c1, -, h⟩ := h.ident
    obtain ⟨a2, _, rfl, b2, -, h⟩ := h.sym
    obtain ⟨a3, _, rfl, b3, c3, -, h⟩ := h.ident
    obtain ⟨a4, vs, rfl, b4, -, h⟩ := AreToks.sym h
    refine ⟨[a1, a2, a3, a4], vs, rfl, ?_, h⟩
    have := ParamsAre.last b1 b2 (TypeIs.plain b3 (nx := a4) (by rw [b4]; decide)) b4
    rw [c1, c3] at this
    exact this
  | t :: t' :: ts, i, L, ks, h => by
    obtain ⟨a1, _, rfl, b1, c1, -, h⟩ := h.ident
    obtain ⟨a2, _, rfl, b2, -, h⟩ := h.sym
    obtain ⟨a3, _, rfl, b3, c3, -, h⟩ := h.ident
    obtain ⟨a4, _, rfl, b4, -, h⟩ := h.sym
    obtain ⟨us, vs, rfl, h1, h2⟩ := params_toks (ts := t' :: ts) (i + 1) h
    refine ⟨a1 :: a2 :: a3 :: a4 :: us, vs, rfl, ?_, h2⟩
    have := ParamsAre.cons b1 b2 (TypeIs.plain b3 (nx := a4) (by rw [b4]; decide)) b4 h1
    rw [c1, c3] at this
    exact this

theorem id_expr {t nx : Tk} {x : Name} (h : t.kind = .ident) (e : t.lexeme = x) (hp : nx.kind ≠ .openParen) (hn : isSuffix nx.kind = false) :
    ExprIs (.id x ()) [t] nx := by
  subst e
  exact .fac (.val (.id h hp)) hn

theorem ids_toks : ∀ {ts : List Name} (i : Nat), ∀ {L : List Tk} {ks : List (Token × Nat)}, AreToks strtod L (idToks i ts ++ (.sym .closeParen, 1) :: ks) →
    ∃ us vs, L = us ++ vs ∧ ArgsIs (delegateIds i ts) us ∧ AreToks strtod vs ks
  | [], _, L, ks, h => by
    obtain ⟨a4, vs, rfl, b4, -, h⟩ := AreToks.sym h
    exact ⟨[a4], vs, rfl, .nil b4, h⟩
  | [t], i, L, ks, h => by
    obtain ⟨a1, _, rfl, b1, c1, -, h⟩ := h.ident
    obtain ⟨a4, vs, rfl, b4, -, h⟩ := AreToks.sym h
    refine ⟨[a1, a4], vs, rfl, ?_, h⟩
    exact .last (us := [a1]) (id_expr b1 c1 (by rw [b4]; decide) (by rw [b4]; rfl)) b4
  | t :: t' :: ts, i, L, ks, h => by
    obtain ⟨a1, _, rfl, b1, c1, -, h⟩ := h.ident
    obtain ⟨a4, _, rfl, b4, -, h⟩ := h.sym
    obtain ⟨us, vs, rfl, h1, h2⟩ := ids_toks (ts := t' :: ts) (i + 1) h
    refine ⟨a1 :: a4 :: us, vs, rfl, ?_, h2⟩
    exact .cons (us := [a1]) (id_expr b1 c1 (by rw [b4]; decide) (by rw [b4]; rfl)) b4 h1

theorem prog_call {D : Name} {ts : List Name} {r : Option Name} {L : List Tk} (h : AreToks strtod L (callToks D ts r)) {nx : Tk}
    (hx : nx.kind = .eofTok) : ProgIs [delegateCallFn D ts r] L nx := by
  obtain ⟨a1, _, rfl, b1, l1, h⟩ := h.sym
  obtain ⟨a2, _, rfl, b2, c2, -, h⟩ := h.ident
  obtain ⟨a3, _, rfl, b3, -, h⟩ := h.sym
  obtain ⟨a4, _, rfl, b4, c4, -, h⟩ := h.ident
  obtain ⟨a5, _, rfl, b5, -, h⟩ := h.sym
  obtain ⟨a6, _, rfl, b6, c6, -, h⟩ := h.ident
  obtain ⟨a7, _, rfl, b7, -, h⟩ := h.sym
  obtain ⟨us, _, rfl, k1, h⟩ := params_toks 0 h
  have k2 : ParamsAre ((bytes "f", D, false) :: delegateParams 0 ts) (a4 :: a5 :: [a6] ++ a7 :: us) := by
    have := ParamsAre.cons b4 b5 (TypeIs.plain b6 (nx := a7) (by rw [b7]; decide)) b7 k1
    rw [c4, c6] at this
    exact this
  cases r with
  | none =>
    obtain ⟨d1, _, rfl, e1, m1, h⟩ := h.sym
    obtain ⟨d2, _, rfl, e2, f2, m2, h⟩ := h.ident
    obtain ⟨d3, _, rfl, e3, m3, h⟩ := h.sym
    obtain ⟨d4, _, rfl, e4, f4, -, h⟩ := h.ident
    obtain ⟨d5, _, rfl, e5, -, h⟩ := h.sym
    obtain ⟨vs, _, rfl, k3, h⟩ := ids_toks 0 h
    obtain ⟨d6, _, rfl, e6, -, h⟩ := h.sym
    cases h.done
    have k4 : ArgsIs (.id (bytes "f") () :: delegateIds 0 ts) (d4 :: d5 :: vs) :=
      .cons (us := [d4]) (id_expr e4 f4 (by rw [e5]; decide) (by rw [e5]; rfl)) e5 k3
    have k5 : StmtIs (.node 1 (.call (bytes "call_function") (.id (bytes "f") () :: delegateIds 0 ts))) (d2 :: d3 :: d4 :: d5 :: vs) d6 := by
      rw [← f2, ← m3]
      exact .call (.val (.call e2 e3 k4)) (by rw [e6]; rfl)
    have k6 := StmtIs.block (nx := nx) e1 (.cons (vs := []) k5 .nil) e6
    rw [List.append_nil, m1] at k6
    have k7 : RetIs none [] d1 := .no (by rw [e1]; decide)
    have k8 := StmtIs.func (nx := nx) b1 b2 b3 k2 (vs := []) (ws := d1 :: (d2 :: d3 :: d4 :: d5 :: vs) ++ [d6]) (r := none) k7 k6
    rw [l1, c2] at k8
    have := ProgIs.stmt (vs := []) (nx := nx) k8 (.nil hx)
    simpa [delegateCallFn] using this
  | some r =>
    obtain ⟨g1, _, rfl, i1, -, h⟩ := h.sym
    obtain ⟨g2, _, rfl, i2, j2, -, h⟩ := h.ident
    obtain ⟨d1, _, rfl, e1, m1, h⟩ := h.sym
    obtain ⟨g3, _, rfl, i3, n3, h⟩ := h.sym
    obtain ⟨g4, _, rfl, i4, -, h⟩ := h.sym
    obtain ⟨g5, _, rfl, i5, -, h⟩ := h.sym
    obtain ⟨d2, _, rfl, e2, f2, m2, h⟩ := h.ident
    obtain ⟨d3, _, rfl, e3, m3, h⟩ := h.sym
    obtain ⟨d4, _, rfl, e4, f4, -, h⟩ := h.ident
    obtain ⟨d5, _, rfl, e5, -, h⟩ := h.sym
    obtain ⟨vs, _, rfl, k3, h⟩ := ids_toks 0 h
    obtain ⟨g6, _, rfl, i6, -, h⟩ := h.sym
    obtain ⟨g7, _, rfl, i7, j7, -, h⟩ := h.ident
    obtain ⟨g8, _, rfl, i8, -, h⟩ := h.sym
    obtain ⟨d6, _, rfl, e6, -, h⟩ := h.sym
    cases h.done
    have k4 : ArgsIs (.id (bytes "f") () :: delegateIds 0 ts) (d4 :: d5 :: vs) :=
      .cons (us := [d4]) (id_expr e4 f4 (by rw [e5]; decide) (by rw [e5]; rfl)) e5 k3
    have k5 : ExprIs (.call (bytes "call_function") (.id (bytes "f") () :: delegateIds 0 ts)) (d2 :: d3 :: d4 :: d5 :: vs) g6 :=
      call_expr e2 f2 e3 k4 (by rw [i6]; rfl)
    have k51 : ExprIs (.cast (.call (bytes "call_function") (.id (bytes "f") () :: delegateIds 0 ts)) (r, false))
        (g4 :: g5 :: (d2 :: d3 :: d4 :: d5 :: vs) ++ g6 :: [g7] ++ [g8]) d6 := by
      have := ValIs.cast (nx := d6) i4 i5 k5 i6 (TypeIs.plain i7 (nx := g8) (by rw [i8]; decide)) i8
      rw [j7] at this
      exact .fac (.val this) (by rw [e6]; rfl)
    have k52 := StmtIs.ret i3 k51 (by rw [e6]; rfl)
    rw [n3] at k52
    have k6 := StmtIs.block (nx := nx) e1 (.cons (vs := []) k52 .nil) e6
    rw [List.append_nil, m1] at k6
    have k7 : RetIs (some (r, false)) [g1, g2] d1 := by
      have := RetIs.yes i1 (TypeIs.plain i2 (nx := d1) (by rw [e1]; decide))
      rw [j2] at this
      exact this
    have k8 := StmtIs.func (nx := nx) b1 b2 b3 k2 (vs := [g1, g2]) (r := some (r, false)) (ws := d1 :: (g3 :: (g4 :: g5 :: (d2 :: d3 :: d4 :: d5 :: vs) ++ g6 :: [g7] ++ [g8])) ++ [d6]) k7 k6
    rw [l1, c2] at k8
    have := ProgIs.stmt (vs := []) (nx := nx) k8 (.nil hx)
    simpa [delegateCallFn] using this

theorem prog_create {g D n : Name} {L : List Tk} (h : AreToks strtod L (createToks g D n)) {nx : Tk} (hx : nx.kind = .eofTok) :
    ProgIs [delegateCreateFn g D n] L nx := by
  obtain ⟨a1, _, rfl, b1, l1, h⟩ := h.sym
  obtain ⟨a2, _, rfl, b2, c2, -, h⟩ := h.ident
  obtain ⟨a3, _, rfl, b3, -, h⟩ := h.sym
  obtain ⟨a4, _, rfl, b4, -, h⟩ := h.sym
  obtain ⟨g1, _, rfl, i1, -, h⟩ := h.sym
  obtain ⟨g2, _, rfl, i2, j2, -, h⟩ := h.ident
  obtain ⟨d1, _, rfl, e1, m1, h⟩ := h.sym
  obtain ⟨g3, _, rfl, i3, n3, h⟩ := h.sym
  obtain ⟨g4, _, rfl, i4, -, h⟩ := h.sym
  obtain ⟨g5, _, rfl, i5, -, h⟩ := h.sym
  obtain ⟨d2, _, rfl, e2, f2, m2, h⟩ := h.ident
  obtain ⟨d3, _, rfl, e3, m3, h⟩ := h.sym
  obtain ⟨d4, _, rfl, e4, f4, -, h⟩ := h.str
  obtain ⟨d5, _, rfl, e5, -, h⟩ := h.sym
  obtain ⟨g6, _, rfl, i6, -, h⟩ := h.sym
  obtain ⟨g7, _, rfl, i7, j7, -, h⟩ := h.ident
  obtain ⟨g8, _, rfl, i8, -, h⟩ := h.sym
  obtain ⟨d6, _, rfl, e6, -, h⟩ := h.sym
  cases h.done
  have k4 : ArgsIs [.str n] ([d4] ++ [d5]) := .last (str_expr e4 f4 (by rw [e5]; rfl)) e5
  have k5 : ExprIs (.call (bytes "get_function_index") [.str n]) [d2, d3, d4, d5] g6 := call_expr e2 f2 e3 k4 (by rw [i6]; rfl)
  have k51 : ExprIs (.cast (.call (bytes "get_function_index") [.str n]) (D, false)) (g4 :: g5 :: [d2, d3, d4, d5] ++ g6 :: [g7] ++ [g8]) d6 := by
    have := ValIs.cast (nx := d6) i4 i5 k5 i6 (TypeIs.plain i7 (nx := g8) (by rw [i8]; decide)) i8
    rw [j7] at this
    exact .fac (.val this) (by rw [e6]; rfl)
  have k52 := StmtIs.ret i3 k51 (by rw [e6]; rfl)
  rw [n3] at k52
  have k6 := StmtIs.block (nx := nx) e1 (.cons (vs := []) k52 .nil) e6
  rw [List.append_nil, m1] at k6
  have k7 : RetIs (some (D, false)) [g1, g2] d1 := by
    have := RetIs.yes i1 (TypeIs.plain i2 (nx := d1) (by rw [e1]; decide))
    rw [j2] at this
    exact this
  have k8 := StmtIs.func (nx := nx) b1 b2 b3 (.nil b4) (vs := [g1, g2]) (r := some (D, false)) (ws := d1 :: (g3 :: (g4 :: g5 :: [d2, d3, d4, d5] ++ g6 :: [g7] ++ [g8])) ++ [d6]) k7 k6
  rw [l1, c2] at k8
  have := ProgIs.stmt (vs := []) (nx := nx) k8 (.nil hx)
  simpa [delegateCreateFn] using this

end Tiny
