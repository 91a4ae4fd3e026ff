import Verif.Proofs.LinesText
import Verif.Props.StdBind
import Verif.Model.StdMacro
import Verif.Spec.StdMacro

/-!
# The text written by the macro `json`
-/

namespace Tiny
open Spec

variable {strtod : List UInt8 → BitVec 64}

/-! ## From texts to the tokens the parser sees -/

/-- The tokens, on their lines. -/
def AreToks (strtod : List UInt8 → BitVec 64) : List Tk → List (Token × Nat) → Prop :=
  List.Forall₂ fun t p => tkToken strtod t = some p.1 ∧ t.line = p.2

theorem AreToks.next {L : List Tk} {p : Token × Nat} {ts : List (Token × Nat)} (h : AreToks strtod L (p :: ts)) :
    ∃ t us, L = t :: us ∧ tkToken strtod t = some p.1 ∧ t.line = p.2 ∧ AreToks strtod us ts := by
  cases h with
  | cons h1 h2 => exact ⟨_, _, rfl, h1.1, h1.2, h2⟩

theorem AreToks.done {L : List Tk} (h : AreToks strtod L []) : L = [] := by cases h; rfl

theorem AreToks.sym {L : List Tk} {k : Tok} {n : Nat} {ts : List (Token × Nat)} (h : AreToks strtod L ((.sym k, n) :: ts)) :
    ∃ t us, L = t :: us ∧ t.kind = k ∧ t.line = n ∧ AreToks strtod us ts := by
  obtain ⟨t, us, e, h1, h2, h3⟩ := h.next
  exact ⟨t, us, e, tk_sym h1, h2, h3⟩

theorem AreToks.ident {L : List Tk} {x : Name} {n : Nat} {ts : List (Token × Nat)} (h : AreToks strtod L ((.ident x, n) :: ts)) :
    ∃ t us, L = t :: us ∧ t.kind = .ident ∧ t.lexeme = x ∧ t.line = n ∧ AreToks strtod us ts := by
  obtain ⟨t, us, e, h1, h2, h3⟩ := h.next
  exact ⟨t, us, e, (tk_ident h1).1, (tk_ident h1).2, h2, h3⟩

theorem tk_str {t : Tk} {x : Name} (h : tkToken strtod t = some (.str x)) : t.kind = .string ∧ t.lexeme = x := by
  obtain ⟨k, x', v, l⟩ := t
  unfold tkToken tokenOf at h
  split at h <;> simp_all

theorem AreToks.str {L : List Tk} {x : Name} {n : Nat} {ts : List (Token × Nat)} (h : AreToks strtod L ((.str x, n) :: ts)) :
    ∃ t us, L = t :: us ∧ t.kind = .string ∧ t.lexeme = x ∧ t.line = n ∧ AreToks strtod us ts := by
  obtain ⟨t, us, e, h1, h2, h3⟩ := h.next
  exact ⟨t, us, e, (tk_str h1).1, (tk_str h1).2, h2, h3⟩

theorem reads_short {n m : Nat} {src : List UInt8} {ts : List Spec.Item} (h : Reads n src ts m) : ts.length ≤ src.length := by
  induction h with
  | done => simp
  | token _ hs _ _ ih =>
    obtain ⟨d, ds, rfl, -⟩ := hs.class.head
    simp only [List.length_cons, List.length_append]
    omega

/-- The parser sees the tokens of the text, then the end of the file. -/
theorem source_lines {src : List UInt8} (hz : 0 ∉ src) {ts : List (Token × Nat)} {m : Nat} (h : LinesIs 1 src ts m) :
    ∃ L nx rest, sourceTokens strtod src = L ++ nx :: rest ∧ nx.kind = .eofTok ∧ AreToks strtod L ts ∧
      (sourceTokens strtod src).length = src.length + 4 := by
  obtain ⟨is, h1, h2⟩ := h
  have hlen := reads_short h1
  obtain ⟨L, E, k1, k2, k3, k4⟩ := stream_reads strtod (Reads.blank h1) (src.length + 4) (init_view hz) (l := Lexer.init src) rfl
    (fuel := src.length + 2) (by simp) (by omega)
  have hL : L.length = is.length := by simpa using congrArg List.length k2
  cases E with
  | nil => simp at k3; omega
  | cons nx rest =>
    refine ⟨L, nx, rest, k1, (k4 nx (by simp)).1, ?_, ?_⟩
    · rw [← h2]
      clear k1 k3 k4 hlen h1 h2
      induction L generalizing is with
      | nil =>
        cases is with
        | nil => exact .nil
        | cons => simp at hL
      | cons t L ih =>
        cases is with
        | nil => simp at hL
        | cons i is =>
          simp only [List.map_cons, List.cons.injEq, Prod.mk.injEq] at k2
          exact .cons k2.1 (ih _ k2.2 (by simpa using hL))
    · show (Lexer.stream _ _ _ _).length = _
      rw [k1, List.length_append]
      omega

/-! ## The text -/

/-- The fields. -/
def jsonFieldsText : List (Name × Name) → List UInt8
  | [] => []
  | [p] => jsonField p.1 p.2
  | p :: q :: ps => jsonField p.1 p.2 ++ jsonSep ++ jsonFieldsText (q :: ps)

/-- The whole. -/
def jsonText (t : Name) (fs : List (Name × Name)) : List UInt8 := jsonHead t ++ jsonFieldsText fs ++ jsonTail

/-- Its tokens, for the fields, from line `n` on. -/
def jsonFieldToks (n : Nat) : List (Name × Name) → List (Token × Nat)
  | [] => [(.sym .comma, n), (.str (bytes "}"), n + 1), (.sym .closeParen, n + 1), (.sym .closeCurly, n + 2)]
  | [p] => (.str (jsonKey p.1), n) :: (.sym .comma, n) :: (.ident (jsonFn p.2), n) :: (.sym .openParen, n) ::
      (.ident (bytes "v"), n) :: (.sym .dot, n) :: (.ident p.1, n) :: (.sym .closeParen, n) ::
      [(.sym .comma, n), (.str (bytes "}"), n + 1), (.sym .closeParen, n + 1), (.sym .closeCurly, n + 2)]
  | p :: q :: ps => (.str (jsonKey p.1), n) :: (.sym .comma, n) :: (.ident (jsonFn p.2), n) :: (.sym .openParen, n) ::
      (.ident (bytes "v"), n) :: (.sym .dot, n) :: (.ident p.1, n) :: (.sym .closeParen, n) ::
      (.sym .comma, n) :: (.str (bytes ","), n) :: (.sym .comma, n) :: jsonFieldToks (n + 1) (q :: ps)

def jsonToks (t : Name) (fs : List (Name × Name)) : List (Token × Nat) :=
  (.sym .funcTok, 1) :: (.ident (jsonFn t), 1) :: (.sym .openParen, 1) :: (.ident (bytes "v"), 1) :: (.sym .colon, 1) ::
    (.ident t, 1) :: (.sym .closeParen, 1) :: (.sym .colon, 1) :: (.ident (bytes "str"), 1) :: (.sym .openCurly, 1) ::
    (.sym .returnTok, 2) :: (.ident (bytes "strcat"), 2) :: (.sym .openParen, 2) :: (.str (bytes "{"), 2) :: (.sym .comma, 2) ::
    jsonFieldToks 3 fs

theorem jsonFn_ident {t : Name} (h : IsIdent t) : IsIdent (jsonFn t) := under_ident h (by decide +kernel) (by decide +kernel)

theorem v_ident : IsIdent (bytes "v") := identOf ⟨by decide, by decide⟩ (by decide) (by decide) (by decide)
theorem str_ident : IsIdent (bytes "str") := identOf ⟨by decide, by decide⟩ (by decide) (by decide) (by decide)
theorem strcat_ident : IsIdent (bytes "strcat") := identOf ⟨by decide, by decide⟩ (by decide) (by decide) (by decide)

theorem noLonger_dot {u : List UInt8} (h : ∀ c ∈ u.head?, Letter c) : NoLonger "." u := by
  intro c hc
  have h1 := h c hc
  have : ∀ c : UInt8, Letter c → (∀ e ∈ symbols, ¬ (bytes "." ++ [c] <+: bytes e.1)) ∧ bytes "." ++ [c] ≠ bytes "//" := by
    intro c
    exact byte_all (p := fun c => Letter c → (∀ e ∈ symbols, ¬ (bytes "." ++ [c] <+: bytes e.1)) ∧ bytes "." ++ [c] ≠ bytes "//")
      (by decide +kernel) c
  exact this c h1

theorem noLonger_curly (u : List UInt8) : NoLonger "{" u := noLonger_any (by decide +kernel) u
theorem noLonger_uncurly (u : List UInt8) : NoLonger "}" u := noLonger_any (by decide +kernel) u

theorem quoted_word {s : List UInt8} (h : ∀ c ∈ s, wordByte c = true) {q b : List UInt8} (hq : Quoted q b) : Quoted (s ++ q) (s ++ b) := by
  induction s with
  | nil => exact hq
  | cons c s ih =>
    have hc : c ≠ 34 ∧ c ≠ 92 := by
      have := h c (by simp)
      exact ⟨fun e => by subst e; exact absurd this (by decide), fun e => by subst e; exact absurd this (by decide)⟩
    exact .plain hc.1 hc.2 (ih fun d hd => h d (by simp [hd]))

/-- `\"name\":` -/
theorem quoted_key {f : Name} (h : IsIdent f) : Quoted (92 :: 34 :: (f ++ [92, 34, 58])) (jsonKey f) := by
  have h1 : Quoted [92, 34, 58] [34, 58] := .escape (c := 34) (.plain (by decide) (by decide) .nil)
  have := Quoted.escape (c := 34) (quoted_word (isWord_all h.word) h1)
  simpa [jsonKey, bytes, show unescape 34 = 34 from rfl] using this

theorem lines_tail (n : Nat) : LinesIs n jsonTail (jsonFieldToks n []) (n + 2) := by
  have h1 : LinesIs (n + 2) (bytes "}") [(.sym .closeCurly, n + 2)] (n + 2) := by
    have := LinesIs.nil (n := n + 2).sym (x := "}") (k := .closeCurly) (by decide) (noLonger_uncurly _)
    rwa [List.append_nil] at this
  have h2 := h1.newline.sym (x := ")") (k := .closeParen) (by decide) (noLonger_close _)
  have h3 := h2.str (q := [125]) (b := [125]) (.plain (by decide) (by decide) .nil)
  have h4 := h3.tab.newline.sym (x := ",") (k := .comma) (by decide) (noLonger_comma _)
  exact h4

theorem noWord_cons {c : UInt8} {u : List UInt8} (h : wordByte c = false) : NoWord (c :: u) := by
  intro d hd
  simp only [List.head?_cons, Option.mem_def, Option.some.injEq] at hd
  exact hd ▸ h

theorem word_head {s u : List UInt8} (h : IsWord s) : ∀ c ∈ (s ++ u).head?, Letter c := by
  cases s with
  | nil => exact h.elim
  | cons c s =>
    intro d hd
    simp only [List.cons_append, List.head?_cons, Option.mem_def, Option.some.injEq] at hd
    exact hd ▸ h.1

theorem lines_field {f t : Name} (hf : IsIdent f) (ht : IsIdent t) {n m : Nat} {u : List UInt8} {ts : List (Token × Nat)}
    (h : LinesIs n u ts m) : LinesIs n (jsonField f t ++ u) ((.str (jsonKey f), n) :: (.sym .comma, n) :: (.ident (jsonFn t), n) ::
      (.sym .openParen, n) :: (.ident (bytes "v"), n) :: (.sym .dot, n) :: (.ident f, n) :: (.sym .closeParen, n) :: ts) m := by
  have h1 := h.sym (x := ")") (k := .closeParen) (by decide) (noLonger_close _)
  have h2 := h1.ident hf (noWord_cons (by decide))
  have h3 := h2.sym (x := ".") (k := .dot) (by decide) (noLonger_dot (word_head hf.word))
  have h4 := h3.ident v_ident (noWord_cons (by decide))
  have h5 := h4.sym (x := "(") (k := .openParen) (by decide) (noLonger_open _)
  have h6 := h5.ident (jsonFn_ident ht) (noWord_cons (by decide))
  have h7 := h6.blank.sym (x := ",") (k := .comma) (by decide) (noLonger_comma _)
  have h8 := h7.str (quoted_key hf)
  have e : jsonField f t ++ u = 34 :: (92 :: 34 :: (f ++ [92, 34, 58]) ++ 34 :: (bytes "," ++ 32 :: (jsonFn t ++ (bytes "(" ++
      (bytes "v" ++ (bytes "." ++ (f ++ (bytes ")" ++ u)))))))) := by
    simp [jsonField, jsonFn, nameOf, bytes]
  rw [e]
  exact h8

theorem lines_sep {n m : Nat} {u : List UInt8} {ts : List (Token × Nat)} (h : LinesIs (n + 1) u ts m) :
    LinesIs n (jsonSep ++ u) ((.sym .comma, n) :: (.str (bytes ","), n) :: (.sym .comma, n) :: ts) m := by
  have h1 := h.tab.tab.newline.sym (x := ",") (k := .comma) (by decide) (noLonger_comma _)
  have h2 := h1.str (q := [44]) (b := [44]) (.plain (by decide) (by decide) .nil)
  have h3 := h2.blank.sym (x := ",") (k := .comma) (by decide) (noLonger_comma _)
  exact h3

theorem lines_fields : ∀ {fs : List (Name × Name)}, fs ≠ [] → (∀ p ∈ fs, IsIdent p.1 ∧ IsIdent p.2) → ∀ n,
    ∃ m, LinesIs n (jsonFieldsText fs ++ jsonTail) (jsonFieldToks n fs) m
  | [], h, _, _ => absurd rfl h
  | [p], _, h, n => ⟨_, lines_field (h p (by simp)).1 (h p (by simp)).2 (lines_tail n)⟩
  | p :: q :: ps, _, h, n => by
    obtain ⟨m, hm⟩ := lines_fields (fs := q :: ps) (by simp) (fun x hx => h x (by simp [hx])) (n + 1)
    refine ⟨m, ?_⟩
    have := lines_field (h p (by simp)).1 (h p (by simp)).2 (lines_sep hm)
    rw [show jsonFieldsText (p :: q :: ps) ++ jsonTail = jsonField p.1 p.2 ++ (jsonSep ++ (jsonFieldsText (q :: ps) ++ jsonTail)) by
      simp [jsonFieldsText]]
    exact this

theorem lines_json {t : Name} (ht : IsIdent t) {fs : List (Name × Name)} (h0 : fs ≠ []) (h : ∀ p ∈ fs, IsIdent p.1 ∧ IsIdent p.2) :
    ∃ m, LinesIs 1 (jsonText t fs) (jsonToks t fs) m := by
  obtain ⟨m, hm⟩ := lines_fields h0 h 3
  refine ⟨m, ?_⟩
  have h1 := hm.tab.tab.newline.sym (x := ",") (k := .comma) (by decide) (noLonger_comma _)
  have h2 := h1.str (q := [123]) (b := [123]) (.plain (by decide) (by decide) .nil)
  have h3 := h2.sym (x := "(") (k := .openParen) (by decide) (noLonger_open _)
  have h4 := h3.ident strcat_ident (noWord_cons (by decide))
  have h5 := h4.blank.keyword (x := "return") (k := .returnTok) (by decide) (noWord_cons (by decide))
  have h6 := h5.tab.newline.sym (x := "{") (k := .openCurly) (by decide) (noLonger_curly _)
  have h7 := h6.blank.ident str_ident (noWord_cons (by decide))
  have h8 := h7.blank.sym (x := ":") (k := .colon) (by decide) (noLonger_colon _)
  have h9 := h8.sym (x := ")") (k := .closeParen) (by decide) (noLonger_close _)
  have h10 := h9.ident ht (noWord_cons (by decide))
  have h11 := h10.blank.sym (x := ":") (k := .colon) (by decide) (noLonger_colon _)
  have h12 := h11.ident v_ident (noWord_cons (by decide))
  have h13 := h12.sym (x := "(") (k := .openParen) (by decide) (noLonger_open _)
  have h14 := h13.ident (jsonFn_ident ht) (noWord_cons (by decide))
  have h15 := h14.blank.keyword (x := "func") (k := .funcTok) (by decide) (noWord_cons (by decide))
  have e : jsonText t fs = bytes "func" ++ 32 :: (jsonFn t ++ (bytes "(" ++ (bytes "v" ++ (bytes ":" ++ 32 :: (t ++ (bytes ")" ++ (bytes ":" ++ 32 ::
      (bytes "str" ++ 32 :: (bytes "{" ++ 10 :: 9 :: (bytes "return" ++ 32 :: (bytes "strcat" ++ (bytes "(" ++ 34 :: ([123] ++ 34 :: (bytes "," ++ 10 :: 9 :: 9 ::
      (jsonFieldsText fs ++ jsonTail))))))))))))))) := by
    simp [jsonText, jsonHead, jsonFn, nameOf, bytes]
  rw [e]
  exact h15

/-! ## The tree -/

theorem str_expr {t nx : Tk} {x : Name} (h : t.kind = .string) (e : t.lexeme = x) (hn : isSuffix nx.kind = false) : ExprIs (.str x) [t] nx := by
  subst e
  exact .fac (.val (.str h)) hn

theorem call_expr {t lp nx : Tk} {x : Name} {as : List SExpr} {us : List Tk} (h : t.kind = .ident) (e : t.lexeme = x) (hl : lp.kind = .openParen)
    (ha : ArgsIs as us) (hn : isSuffix nx.kind = false) : ExprIs (.call x as) (t :: lp :: us) nx := by
  subst e
  exact .fac (.val (.call h hl ha)) hn

theorem dot_expr {t d f nx : Tk} {x y : Name} (h : t.kind = .ident) (e : t.lexeme = x) (hd : d.kind = .dot) (hf : f.kind = .ident)
    (e' : f.lexeme = y) (hn : isSuffix nx.kind = false) : ExprIs (.dot (.id x ()) y) [t, d, f] nx := by
  subst e e'
  exact .fac (.dot (us := [t]) (.val (.id h (by rw [hd]; decide))) hd hf) hn

theorem args_json : ∀ {fs : List (Name × Name)}, fs ≠ [] → ∀ {n : Nat} {L : List Tk}, AreToks strtod L (jsonFieldToks n fs) →
    ∃ us rc, L = us ++ [rc] ∧ rc.kind = .closeCurly ∧ ArgsIs (jsonArgs fs ++ [.str (bytes "}")]) us
  | [], h, _, _, _ => absurd rfl h
  | [p], _, n, L, h => by
    obtain ⟨a1, _, rfl, b1, c1, -, h⟩ := h.str
    obtain ⟨a2, _, rfl, b2, -, h⟩ := h.sym
    obtain ⟨a3, _, rfl, b3, c3, -, h⟩ := h.ident
    obtain ⟨a4, _, rfl, b4, -, h⟩ := h.sym
    obtain ⟨a5, _, rfl, b5, c5, -, h⟩ := h.ident
    obtain ⟨a6, _, rfl, b6, -, h⟩ := h.sym
    obtain ⟨a7, _, rfl, b7, c7, -, h⟩ := h.ident
    obtain ⟨a8, _, rfl, b8, -, h⟩ := h.sym
    obtain ⟨a9, _, rfl, b9, -, h⟩ := h.sym
    obtain ⟨d1, _, rfl, e1, f1, -, h⟩ := h.str
    obtain ⟨d2, _, rfl, e2, -, h⟩ := h.sym
    obtain ⟨d3, _, rfl, e3, -, h⟩ := h.sym
    cases h.done
    refine ⟨[a1, a2, a3, a4, a5, a6, a7, a8, a9, d1, d2], d3, rfl, e3, ?_⟩
    have k1 : ArgsIs [.str (bytes "}")] ([d1] ++ [d2]) := .last (str_expr e1 f1 (by rw [e2]; rfl)) e2
    have k2 : ArgsIs [.dot (.id (bytes "v") ()) p.1] ([a5, a6, a7] ++ [a8]) :=
      .last (dot_expr b5 c5 b6 b7 c7 (by rw [b8]; rfl)) b8
    have k3 : ExprIs (.call (jsonFn p.2) [.dot (.id (bytes "v") ()) p.1]) [a3, a4, a5, a6, a7, a8] a9 :=
      call_expr b3 c3 b4 k2 (by rw [b9]; rfl)
    exact .cons (us := [a1]) (str_expr b1 c1 (by rw [b2]; rfl)) b2 (.cons (us := [a3, a4, a5, a6, a7, a8]) k3 b9 k1)
  | p :: q :: ps, _, n, L, h => by
    obtain ⟨a1, _, rfl, b1, c1, -, h⟩ := h.str
    obtain ⟨a2, _, rfl, b2, -, h⟩ := h.sym
    obtain ⟨a3, _, rfl, b3, c3, -, h⟩ := h.ident
    obtain ⟨a4, _, rfl, b4, -, h⟩ := h.sym
    obtain ⟨a5, _, rfl, b5, c5, -, h⟩ := h.ident
    obtain ⟨a6, _, rfl, b6, -, h⟩ := h.sym
    obtain ⟨a7, _, rfl, b7, c7, -, h⟩ := h.ident
    obtain ⟨a8, _, rfl, b8, -, h⟩ := h.sym
    obtain ⟨a9, _, rfl, b9, -, h⟩ := h.sym
    obtain ⟨d1, _, rfl, e1, f1, -, h⟩ := h.str
    obtain ⟨d2, _, rfl, e2, -, h⟩ := h.sym
    obtain ⟨us, rc, rfl, e3, k1⟩ := args_json (fs := q :: ps) (by simp) h
    refine ⟨a1 :: a2 :: a3 :: a4 :: a5 :: a6 :: a7 :: a8 :: a9 :: d1 :: d2 :: us, rc, rfl, e3, ?_⟩
    have k2 : ArgsIs [.dot (.id (bytes "v") ()) p.1] ([a5, a6, a7] ++ [a8]) :=
      .last (dot_expr b5 c5 b6 b7 c7 (by rw [b8]; rfl)) b8
    have k3 : ExprIs (.call (jsonFn p.2) [.dot (.id (bytes "v") ()) p.1]) [a3, a4, a5, a6, a7, a8] a9 :=
      call_expr b3 c3 b4 k2 (by rw [b9]; rfl)
    exact .cons (us := [a1]) (str_expr b1 c1 (by rw [b2]; rfl)) b2 (.cons (us := [a3, a4, a5, a6, a7, a8]) k3 b9
      (.cons (us := [d1]) (str_expr e1 f1 (by rw [e2]; rfl)) e2 k1))

theorem prog_json {t : Name} {fs : List (Name × Name)} (h0 : fs ≠ []) {L : List Tk} (h : AreToks strtod L (jsonToks t fs)) {nx : Tk}
    (hx : nx.kind = .eofTok) : ProgIs [jsonFunc t fs] L nx := by
  obtain ⟨a1, _, rfl, b1, l1, h⟩ := h.sym
  obtain ⟨a2, _, rfl, b2, c2, -, h⟩ := h.ident
  obtain ⟨a3, _, rfl, b3, -, h⟩ := h.sym
  obtain ⟨a4, _, rfl, b4, c4, -, h⟩ := h.ident
  obtain ⟨a5, _, rfl, b5, -, h⟩ := h.sym
  obtain ⟨a6, _, rfl, b6, c6, -, h⟩ := h.ident
  obtain ⟨a7, _, rfl, b7, -, h⟩ := h.sym
  obtain ⟨a8, _, rfl, b8, -, h⟩ := h.sym
  obtain ⟨a9, _, rfl, b9, c9, -, h⟩ := h.ident
  obtain ⟨d1, _, rfl, e1, m1, h⟩ := h.sym
  obtain ⟨d2, _, rfl, e2, m2, h⟩ := h.sym
  obtain ⟨d3, _, rfl, e3, f3, -, h⟩ := h.ident
  obtain ⟨d4, _, rfl, e4, -, h⟩ := h.sym
  obtain ⟨d5, _, rfl, e5, f5, -, h⟩ := h.str
  obtain ⟨d6, _, rfl, e6, -, h⟩ := h.sym
  obtain ⟨us, rc, rfl, e7, k1⟩ := args_json h0 h
  have k2 : ArgsIs (.str (bytes "{") :: (jsonArgs fs ++ [.str (bytes "}")])) (d5 :: d6 :: us) :=
    .cons (us := [d5]) (str_expr e5 f5 (by rw [e6]; rfl)) e6 k1
  have k3 : ExprIs (.call (bytes "strcat") (.str (bytes "{") :: (jsonArgs fs ++ [.str (bytes "}")]))) (d3 :: d4 :: d5 :: d6 :: us) rc :=
    call_expr e3 f3 e4 k2 (by rw [e7]; rfl)
  have k4 : StmtIs (.node 2 (.ret (some (.call (bytes "strcat") (.str (bytes "{") :: jsonArgs fs ++ [.str (bytes "}")])))))
      (d2 :: d3 :: d4 :: d5 :: d6 :: us) rc := m2 ▸ .ret e2 k3 (by rw [e7]; rfl)
  have k5 : StmtIs (.node 1 (.block [.node 2 (.ret (some (.call (bytes "strcat") (.str (bytes "{") :: jsonArgs fs ++ [.str (bytes "}")]))))]))
      (d1 :: (d2 :: d3 :: d4 :: d5 :: d6 :: us) ++ [rc]) nx := by
    have := StmtIs.block (nx := nx) e1 (.cons (vs := []) k4 .nil) e7
    rw [List.append_nil, m1] at this
    exact this
  have k6 : ParamsAre [(bytes "v", t, false)] (a4 :: a5 :: [a6] ++ [a7]) := by
    have := ParamsAre.last b4 b5 (TypeIs.plain b6 (nx := a7) (by rw [b7]; decide)) b7
    rw [c4, c6] at this
    exact this
  have k7 : RetIs (some (bytes "str", false)) [a8, a9] d1 := by
    have := RetIs.yes b8 (TypeIs.plain b9 (nx := d1) (by rw [e1]; decide))
    rw [c9] at this
    exact this
  have k8 := StmtIs.func (nx := nx) b1 b2 b3 k6 (vs := [a8, a9]) (ws := d1 :: (d2 :: d3 :: d4 :: d5 :: d6 :: us) ++ [rc]) (r := some (bytes "str", false)) k7 k5
  rw [l1, c2] at k8
  have := ProgIs.stmt (vs := []) (nx := nx) k8 (.nil hx)
  simpa [jsonFunc] using this

end Tiny
