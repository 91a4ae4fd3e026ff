import Verif.Proofs.Printer
import Verif.Proofs.ParseFront
import Verif.Proofs.Stream
import Verif.Proofs.KernelRfl

/-!
# C16, C17, C45, C46: the parser

The grammar is in `Verif/Spec/Grammar.lean`, precedence in `Verif/Spec/Precedence.lean`, printing in
`Verif/Spec/Printer.lean`. The theorems hold for every implementation `o` of the symbol table operations: the
parser's result is what naming the tree from left to right gives (`nameExpr`, `nameStmts`); with `synOps`, which do
nothing, it is the tree itself.
-/

namespace Tiny
open Spec

section
variable {σ V S T F : Type}

theorem conv_out {τ α : Type} {m : Nat → Act τ α} {a : Act τ α} (h : Conv m a) {s : τ} {r : Out τ α} (hr : a s = r) :
    ∃ N, ∀ n, N ≤ n → m n s = r := by
  obtain ⟨N, hN⟩ := h.out s
  exact ⟨N, fun n hn => by rw [hN n hn, hr]⟩

/-! ## C45: the parser accepts the grammar, and nothing else -/

/-- **C45.** The tokens of a program are parsed, completely, to the tree the grammar gives them. Errors can only come
from looking up and declaring names. -/
theorem c45_program (o : Ops σ V S T F) {ss : List SStmt} {us : List Tk} {nx : Tk} (h : ProgIs ss us nx)
    (rest : List Tk) (s : σ) :
    ∃ N, ∀ n, N ≤ n → parseItems o n ⟨us ++ nx :: rest, s⟩ = lift (nameStmts o ss) ⟨nx :: rest, s⟩ :=
  conv_out (PIt_conv o) (prog_complete o h rest s)

/-- **C45**, converse: whatever the parser accepts is a program of the grammar. -/
theorem c45_program_sound (o : Ops σ V S T F) {n : Nat} {ts : List Tk} {s : σ} {x : List (PStmt V S T F)} {q : PS σ}
    (h : parseItems o n ⟨ts, s⟩ = .ok x q) :
    ∃ ss us nx rest s', ts = us ++ nx :: rest ∧ q = ⟨nx :: rest, s'⟩ ∧ ProgIs ss us nx ∧
      nameStmts o ss s = .ok x s' :=
  prog_sound n h

/-- **C45** for a single statement. -/
theorem c45_statement (o : Ops σ V S T F) {b : SStmt} {us : List Tk} {nx : Tk} (h : StmtIs b us nx)
    (rest : List Tk) (s : σ) :
    ∃ N, ∀ n, N ≤ n → parseStmt o n ⟨us ++ nx :: rest, s⟩ = lift (nameStmt o b) ⟨nx :: rest, s⟩ :=
  conv_out (PSt_conv o) (stmt_complete o h rest s)

theorem c45_statement_sound (o : Ops σ V S T F) {n : Nat} {ts : List Tk} {s : σ} {x : PStmt V S T F} {q : PS σ}
    (h : parseStmt o n ⟨ts, s⟩ = .ok x q) :
    ∃ b us nx rest s', ts = us ++ nx :: rest ∧ q = ⟨nx :: rest, s'⟩ ∧ StmtIs b us nx ∧ nameStmt o b s = .ok x s' :=
  (soundS n).1 h

/-- **C45** for an expression. -/
theorem c45_expr (o : Ops σ V S T F) {e : SExpr} {us : List Tk} {nx : Tk} (h : ExprIs e us nx)
    (hn : level nx.kind = none) (rest : List Tk) (s : σ) :
    ∃ N, ∀ n, N ≤ n → parseExpr o n ⟨us ++ nx :: rest, s⟩ = lift (nameExpr o e) ⟨nx :: rest, s⟩ :=
  conv_out (PE_conv o) ((expr_complete o h).read hn rest s)

theorem c45_expr_sound (o : Ops σ V S T F) {n : Nat} {ts : List Tk} {s : σ} {x : PExpr V S T} {q : PS σ}
    (h : parseExpr o n ⟨ts, s⟩ = .ok x q) :
    ∃ e us nx rest s', ts = us ++ nx :: rest ∧ q = ⟨nx :: rest, s'⟩ ∧ ExprIs e us nx ∧ level nx.kind = none ∧
      nameExpr o e s = .ok x s' :=
  (soundE n).expr h

end

/-! The grammar gives a program one tree. -/

theorem syn_params : ∀ ps : List (Name × SType), nameParams synOps ps = pure ps
  | [] => rfl
  | p :: ps => by rw [nameParams, syn_type, syn_params ps]; rfl

theorem syn_ret : ∀ r : Option SType, nameRet synOps r = pure r
  | none => rfl
  | some t => by rw [nameRet, syn_type]; rfl

theorem syn_fields (n : Name) : ∀ fs : List (Name × SType), nameFields synOps n fs = pure fs
  | [] => rfl
  | f :: fs => by rw [nameFields, syn_type, syn_fields n fs]; rfl

theorem syn_assign (op : Tok) (l r : SExpr) : nameAssign synOps op l r = pure (.assign op none l r) := by
  rw [nameAssign, syn_expr, syn_expr, Act.pure_bind', Act.pure_bind']
  split <;> rfl

theorem syn_decl (op : Tok) (ann : Option SType) (n : Name) (r : SExpr) :
    nameDecl synOps op ann n r = pure (.assign op ann (.id n ()) r) := by
  cases ann with
  | none => rw [nameDecl]; simp only [syn_expr]; rfl
  | some t => rw [nameDecl]; simp only [syn_expr, syn_type]; rfl

theorem nameStmt_assign {σ V S T F : Type} (o : Ops σ V S T F) {op : Tok} {l : SExpr} (h : op ≠ .declare) (r : SExpr) :
    nameStmt o (.assign op none l r) = nameAssign o op l r := by
  unfold nameStmt
  split
  all_goals first | rfl | simp_all

mutual
theorem syn_stmt : ∀ {b : SStmt} {us : List Tk} {nx : Tk}, StmtIs b us nx → nameStmt synOps b = pure b
  | _, _, _, .block _ h _ => by rw [nameStmt, nameStmt, syn_stmts h]; rfl
  | _, _, _, .func _ _ _ _ _ h => by rw [nameStmt, nameStmt, syn_params, syn_ret, syn_stmt h]; rfl
  | _, _, _, .ifThen _ _ _ h _ => by rw [nameStmt, nameStmt, syn_expr, syn_stmt h]; rfl
  | _, _, _, .ifElse _ _ _ h _ h' => by rw [nameStmt, nameStmt, syn_expr, syn_stmt h, syn_stmt h']; rfl
  | _, _, _, .while _ _ _ h => by rw [nameStmt, nameStmt, syn_expr, syn_stmt h]; rfl
  | _, _, _, .for _ h _ _ _ h' h'' => by
    rw [nameStmt, nameStmt, syn_expr, syn_stmt h, syn_stmt h', syn_stmt h'']; rfl
  | _, _, _, .retNone _ _ => by rw [nameStmt, nameStmt]; rfl
  | _, _, _, .ret _ _ _ => by rw [nameStmt, nameStmt, syn_expr]; rfl
  | _, _, _, .brk _ => by rw [nameStmt, nameStmt]; rfl
  | _, _, _, .cont _ => by rw [nameStmt, nameStmt]; rfl
  | _, _, _, .use _ _ _ _ _ => by rw [nameStmt, nameStmt]; rfl
  | _, _, _, .call _ _ => by rw [nameStmt, nameStmt, syn_exprs]; rfl
  | _, _, _, .declare _ _ _ _ => by rw [nameStmt, nameStmt, syn_decl]; rfl
  | _, _, _, .typed _ _ _ _ _ _ => by rw [nameStmt, nameStmt, syn_decl]; rfl
  | _, _, _, .assign _ _ _ _ h _ _ _ _ => by rw [nameStmt, nameStmt_assign _ h, syn_assign]; rfl
theorem syn_stmts : ∀ {ss : List SStmt} {us : List Tk} {nx : Tk}, StmtsAre ss us nx → nameStmts synOps ss = pure ss
  | _, _, _, .nil => by rw [nameStmts]
  | _, _, _, .cons h h' => by rw [nameStmts, syn_stmt h, syn_stmts h']; rfl
end

theorem syn_prog {ss : List SStmt} {us : List Tk} {nx : Tk} (h : ProgIs ss us nx) : nameStmts synOps ss = pure ss := by
  induction h with
  | nil => rw [nameStmts]
  | stmt h _ ih => rw [nameStmts, syn_stmt h, ih]; rfl
  | struct _ _ _ _ _ _ ih => rw [nameStmts, nameStmt, syn_fields, ih]; rfl

/-- The tokens before the first of a kind. -/
theorem c45_no_eof {ss : List SStmt} {us : List Tk} {nx : Tk} (h : ProgIs ss us nx) : nx.kind = .eofTok := by
  induction h <;> assumption

/-- **C45**, uniqueness: the grammar is unambiguous. -/
theorem c45_unique {ss ss' : List SStmt} {us : List Tk} {nx : Tk} (h : ProgIs ss us nx) (h' : ProgIs ss' us nx) :
    ss = ss' := by
  have h1 := prog_complete synOps h [] ()
  have h2 := prog_complete synOps h' [] ()
  rw [syn_prog h] at h1
  rw [syn_prog h', h1] at h2
  cases h2
  rfl

/-! ## C16: precedence -/

/-- **C16.** For every sequence of operands and binary operators there is exactly one tree which, read from left to
right, is this sequence, and in which no operator has a weaker-binding one as left child nor a weaker or equally
binding one as right child; and this is the tree the parser builds. -/
theorem c16_grouping {items : List Piece} {us : List Tk} {nx : Tk} (h : ChainIs items us nx)
    (hn : level nx.kind = none) :
    ∃ e, flat e = items ∧ Grouped e ∧ (∀ e', flat e' = items → Grouped e' → e' = e) ∧
      ∀ {σ V S T F : Type} (o : Ops σ V S T F) (rest : List Tk) (s : σ),
        ∃ N, ∀ n, N ≤ n → parseExpr o n ⟨us ++ nx :: rest, s⟩ = lift (nameExpr o e) ⟨nx :: rest, s⟩ := by
  obtain ⟨⟨e, he, hf⟩, -⟩ := chain_tree h
  have hE : ExprIs e us nx := grouped_expr he (hf ▸ h)
  refine ⟨e, hf, he, fun e' hf' he' => ?_, fun o rest s => c45_expr o hE hn rest s⟩
  exact expr_unique (grouped_expr he' (hf' ▸ h)) hE hn

/-- **C16**, converse: every expression the parser accepts is such a sequence, grouped so. -/
theorem c16_all {σ V S T F : Type} (o : Ops σ V S T F) {n : Nat} {ts : List Tk} {s : σ} {x : PExpr V S T} {q : PS σ}
    (h : parseExpr o n ⟨ts, s⟩ = .ok x q) :
    ∃ e us nx rest s', ts = us ++ nx :: rest ∧ q = ⟨nx :: rest, s'⟩ ∧ ChainIs (flat e) us nx ∧ Grouped e ∧
      nameExpr o e s = .ok x s' := by
  obtain ⟨e, us, nx, rest, s', h1, h2, h3, -, h5⟩ := c45_expr_sound o h
  exact ⟨e, us, nx, rest, s', h1, h2, (expr_grouped h3).2, (expr_grouped h3).1, h5⟩

/-! ## C17: printing and parsing -/

/-- **C17.** Every tree with sufficient parentheses, written as tokens, is parsed back to the same tree; the token after
it is left unread. -/
theorem c17_roundtrip {σ V S T F : Type} (o : Ops σ V S T F) (ln : Nat) {e : SExpr} (h : enough e = true) {nx : Tk}
    (h1 : level nx.kind = none) (h2 : isSuffix nx.kind = false) (h3 : nx.kind ≠ .openParen) (rest : List Tk) (s : σ) :
    ∃ N, ∀ n, N ≤ n → parseExpr o n ⟨toks ln e ++ nx :: rest, s⟩ = lift (nameExpr o e) ⟨nx :: rest, s⟩ :=
  c45_expr o ((printed ln e h nx (.stop h2 h3 h1)).2 h2) h1 rest s

/-- **C17**, with the symbol table left out: the tree itself comes back. -/
theorem c17_same (ln : Nat) {e : SExpr} (h : enough e = true) {nx : Tk}
    (h1 : level nx.kind = none) (h2 : isSuffix nx.kind = false) (h3 : nx.kind ≠ .openParen) (rest : List Tk) :
    ∃ N, ∀ n, N ≤ n → parseExpr synOps n ⟨toks ln e ++ nx :: rest, ()⟩ = .ok e ⟨nx :: rest, ()⟩ := by
  have := c17_roundtrip synOps ln h h1 h2 h3 rest ()
  rwa [syn_expr] at this

/-- **C17.** Every tree can be given sufficient parentheses; none are added where they suffice already. -/
theorem c17_parentheses {e : SExpr} (h : writable e = true) :
    enough (deco e) = true ∧ strip (deco e) = strip e ∧ (enough e = true → deco e = e) :=
  ⟨deco_enough e h, deco_strip e, deco_same e⟩

/-- **C17.** So printing any tree with parentheses where they are needed and parsing it gives the same tree up to
parentheses. -/
theorem c17_print_parse (ln : Nat) {e : SExpr} (h : writable e = true) {nx : Tk}
    (h1 : level nx.kind = none) (h2 : isSuffix nx.kind = false) (h3 : nx.kind ≠ .openParen) (rest : List Tk) :
    ∃ e', strip e' = strip e ∧
      ∃ N, ∀ n, N ≤ n → parseExpr synOps n ⟨toks ln (deco e) ++ nx :: rest, ()⟩ = .ok e' ⟨nx :: rest, ()⟩ :=
  ⟨_, deco_strip e, c17_same ln (deco_enough e h) h1 h2 h3 rest⟩

/-- **C17.** "Sufficient" is exact: every tree the parser returns has sufficient parentheses. -/
theorem c17_exact {n : Nat} {ts : List Tk} {e : SExpr} {q : PS Unit} (h : parseExpr synOps n ⟨ts, ()⟩ = .ok e q) :
    enough e = true := by
  obtain ⟨e', us, nx, rest, s', -, -, h3, -, h5⟩ := c45_expr_sound synOps h
  rw [syn_expr] at h5
  cases h5
  exact enough_of h3

/-! ## C46: the parser comes to an end and keeps the tables -/

/-- **C46.** On every token stream which ends in end-of-file or error tokens, the parser returns; it has no undefined
behaviour. Whether it succeeds or reports an error, everything which was in the symbol tables is still there, and no
number of a variable or function is given twice. After success it is outside every function again. An assertion can fail
only because there are more than `MAX_STRINGS` different strings in the table and the source. -/
theorem c46_parse {f : Front} {ts : List Tk} (ht : Tail3 ts) (hf : f.currFunc = .none) :
    ∃ N, ∀ n, N ≤ n → match parseProgram n ⟨ts, f⟩ with
      | .ok _ q => Keeps f q.st ∧ q.st.currFunc = .none
      | .err q => Keeps f q.st
      | .abort => TooMany f (Literal ts)
      | .ub => False
      | .timeout => False := by
  obtain ⟨N, hN⟩ := safe_parse (frontOps_safe f (Literal ts)) ⟨ht, fun t h k => ⟨t, h, k, rfl⟩⟩ (s := f)
    ⟨⟨Keeps.refl f, by simpa using hf⟩, [], by simp, .nil, by simp⟩
  refine ⟨N, fun n hn => ?_⟩
  have := hN n hn
  unfold Safe at this
  unfold parseProgram
  cases hp : parseItems frontOps n ⟨ts, f⟩ with
  | ok x q => rw [hp] at this; exact ⟨this.1.1, by simpa using this.1.2⟩
  | _ => rw [hp] at this; exact this

/-! ## C45, C46 for source texts -/

/-- **C45** for a source text: the tokens of the source (C11), followed by ends of file, are what the parser sees; if
they form a program, the parser builds its tree. -/
theorem c45_source (strtod : List UInt8 → BitVec 64) {src : List UInt8} (hz : 0 ∉ src) {ts : List Item} {e : Nat}
    (h : Reads 1 src ts e) (m : Nat) (hm : ts.length < m) :
    ∃ L nx rest, Lexer.stream strtod (src.length + 2) m (Lexer.init src) = L ++ nx :: rest ∧
      L.map (fun t => (tkToken strtod t, t.line)) = ts.map (fun x => (some x.tok, x.line)) ∧
      nx.kind = .eofTok ∧ nx.line = e ∧
      ∀ {ss : List SStmt}, ProgIs ss L nx → ∀ {σ V S T F : Type} (o : Ops σ V S T F) (s : σ), ∃ N, ∀ n, N ≤ n →
        parseItems o n ⟨Lexer.stream strtod (src.length + 2) m (Lexer.init src), s⟩ =
          lift (nameStmts o ss) ⟨nx :: rest, s⟩ := by
  obtain ⟨L, E, h1, h2, h3, h4⟩ := stream_reads strtod (Reads.blank h) m (init_view hz) (l := Lexer.init src) rfl
    (fuel := src.length + 2) (by simp) (by omega)
  cases E with
  | nil => simp at h3; omega
  | cons nx rest =>
    obtain ⟨k1, k2⟩ := h4 nx (by simp)
    refine ⟨L, nx, rest, h1, h2, k1, k2, fun hp _ _ _ _ _ o s => ?_⟩
    rw [h1]
    exact c45_program o hp rest s

/-- **C46** for a source text: if no call of `Tiny_GetToken` hangs (it does only in an unterminated string literal,
C12), the parser returns, and so on. -/
theorem c46_source (strtod : List UInt8 → BitVec 64) {src : List UInt8} (hz : 0 ∉ src) {f : Front}
    (hf : f.currFunc = .none) {m : Nat} (hm : src.length + 4 ≤ m)
    (hr : (Lexer.stream strtod (src.length + 2) m (Lexer.init src)).length = m) :
    ∃ N, ∀ n, N ≤ n →
      match parseProgram n ⟨Lexer.stream strtod (src.length + 2) m (Lexer.init src), f⟩ with
      | .ok _ q => Keeps f q.st ∧ q.st.currFunc = .none
      | .err q => Keeps f q.st
      | .abort => TooMany f (Literal (Lexer.stream strtod (src.length + 2) m (Lexer.init src)))
      | .ub => False
      | .timeout => False := by
  rcases stream_tail strtod (init_view hz) (fuel := src.length + 2) (m := m) (by simp) (by simp; omega) with h | h
  · omega
  · exact c46_parse h hf

/-- The lexer does not hang on a source without string literals, nor on one which consists of tokens. -/
theorem c46_no_hang (strtod : List UInt8 → BitVec 64) {src : List UInt8} (hz : 0 ∉ src)
    (h : 34 ∉ src ∨ ∃ ts e, Reads 1 src ts e) (m : Nat) :
    (Lexer.stream strtod (src.length + 2) m (Lexer.init src)).length = m := by
  rcases h with h | ⟨ts, e, h⟩
  · exact stream_full strtod (init_view hz) (by simp) (by simp [h])
  · obtain ⟨L, E, h1, h2, h3, h4⟩ := stream_reads strtod (Reads.blank h) (m + ts.length) (init_view hz)
      (l := Lexer.init src) rfl (fuel := src.length + 2) (by simp) (by omega)
    have h5 := congrArg List.length h2
    simp only [List.length_map] at h5
    rw [stream_take strtod _ m ts.length, h1, List.length_take, List.length_append]
    omega

/-! ## Concrete cases -/

/-- `a - b - c * d`, then the end of the file. -/
def sampleTokens : List Tk :=
  [word 1 (nameOf "a"), tok 1 .minus, word 1 (nameOf "b"), tok 1 .minus, word 1 (nameOf "c"), tok 1 .star,
    word 1 (nameOf "d")]

/-- `(a - b) - (c * d)` -/
def sampleTree : SExpr :=
  .bin .minus (.bin .minus (.id (nameOf "a") ()) (.id (nameOf "b") ())) (.bin .star (.id (nameOf "c") ()) (.id (nameOf "d") ()))

theorem sample_chain : ChainIs (flat sampleTree) sampleTokens (tok 1 .eofTok) :=
  .cons (e := .id (nameOf "a") ()) (l := 1) (us := [word 1 (nameOf "a")]) (op := tok 1 .minus) (j := 4)
    (.val (.id (t := word 1 (nameOf "a")) rfl (by decide))) rfl
    (.cons (e := .id (nameOf "b") ()) (l := 1) (us := [word 1 (nameOf "b")]) (op := tok 1 .minus) (j := 4)
      (.val (.id (t := word 1 (nameOf "b")) rfl (by decide))) rfl
      (.cons (e := .id (nameOf "c") ()) (l := 1) (us := [word 1 (nameOf "c")]) (op := tok 1 .star) (j := 5)
        (.val (.id (t := word 1 (nameOf "c")) rfl (by decide))) rfl
        (.one (l := 1) (.val (.id (t := word 1 (nameOf "d")) rfl (by decide))) rfl)))

/-- The hypotheses of `c16_grouping` and what the parser makes of it. -/
example : level (tok 1 .eofTok).kind = none ∧ Grouped sampleTree ∧
    parseExpr synOps 20 ⟨sampleTokens ++ [tok 1 .eofTok], ()⟩ = .ok sampleTree ⟨[tok 1 .eofTok], ()⟩ :=
  ⟨rfl, ⟨⟨4, rfl, ⟨4, rfl, by decide⟩, ⟨5, rfl, by decide⟩⟩, ⟨⟨4, rfl, trivial, trivial⟩, trivial, trivial⟩,
    ⟨5, rfl, trivial, trivial⟩, trivial, trivial⟩, rfl⟩

/-- The other grouping needs a parenthesis, and gets it. -/
example : writable (.bin .minus (.id (nameOf "a") ()) (.bin .minus (.id (nameOf "b") ()) (.id (nameOf "c") ()))) = true ∧
    deco (.bin .minus (.id (nameOf "a") ()) (.bin .minus (.id (nameOf "b") ()) (.id (nameOf "c") ()))) =
      .bin .minus (.id (nameOf "a") ()) (.paren (.bin .minus (.id (nameOf "b") ()) (.id (nameOf "c") ()))) ∧
    enough sampleTree = true ∧ toks 1 sampleTree = sampleTokens := ⟨rfl, rfl, rfl, rfl⟩

/-- A source: a function, a global variable and a call. -/
def sampleSource : List UInt8 :=
  bytes "func f(a : int) : int { return a - 1 * 2 } x := 3\nf(x)"

def sampleStream : List Tk := Lexer.stream (fun _ => 0) (sampleSource.length + 2) 70 (Lexer.init sampleSource)

/-- Its tree. -/
def sampleProgram : List SStmt :=
  [.node 1 (.proc () (nameOf "f") [(nameOf "a", (nameOf "int", false))] (some (nameOf "int", false))
      (.node 1 (.block [.node 1 (.ret (some (.bin .minus (.id (nameOf "a") ()) (.bin .star (.int 1) (.int 2)))))]))),
    .node 1 (.assign .declare none (.id (nameOf "x") ()) (.int 3)),
    .node 2 (.call (nameOf "f") [.id (nameOf "x") ()])]

theorem sample_parsed :
    parseItems synOps 60 ⟨sampleStream, ()⟩ = .ok sampleProgram ⟨sampleStream.drop 24, ()⟩ := by
  kernel_rfl

/-- The sample is a program of the grammar. -/
example : ∃ us nx rest, sampleStream = us ++ nx :: rest ∧ ProgIs sampleProgram us nx := by
  obtain ⟨ss, us, nx, rest, s', h1, -, h3, h4⟩ := c45_program_sound synOps sample_parsed
  rw [syn_prog h3] at h4
  cases h4
  exact ⟨us, nx, rest, h1, h3⟩

/-- The hypotheses of `c46_source`; the C parser accepts the sample. -/
example : (0 : UInt8) ∉ sampleSource ∧ sampleSource.length + 4 ≤ 70 ∧ sampleStream.length = 70 ∧
    ({} : Front).currFunc = .none ∧
    (match parseProgram 60 ⟨sampleStream, { syms := [] }⟩ with | .ok x _ => x.length | _ => 0) = 3 := by decide +kernel

/-- A table with `MAX_STRINGS` strings. -/
def fullTable : Front := { strings := (List.range 1024).map fun i => [UInt8.ofNat (i % 256), UInt8.ofNat (i / 256)] }

/-- With a full table, one more string is too many (the assertion fails), one of the old ones is not. -/
example : (match parseProgram 60 ⟨Lexer.stream (fun _ => 0) 20 20 (Lexer.init (bytes "x := \"abc\"")), fullTable⟩ with
      | .abort => true
      | _ => false) = true ∧
    (match parseProgram 60 ⟨Lexer.stream (fun _ => 0) 20 20 (Lexer.init (bytes "x := \"a\"")), { strings := [bytes "a"] }⟩ with
      | .ok _ q => q.st.strings.length == 1
      | _ => false) = true := by decide +kernel

example : TooMany fullTable (Literal [⟨.string, bytes "abc", .none, 1⟩]) :=
  ⟨[bytes "abc"], by simp, fun x hx => ⟨by rw [List.mem_singleton.1 hx]; decide +kernel,
    ⟨_, List.mem_singleton.2 rfl, rfl, (List.mem_singleton.1 hx).symm⟩⟩, by simp [fullTable, maxStrings]⟩

end Tiny
