import Verif.Spec.Grammar

/-!
# The parser without fuel

More fuel does not change a result. The limits satisfy the equations of the parser without fuel.
-/

namespace Tiny

section Monad
variable {τ α β γ : Type}

theorem Act.bind_apply (a : Act τ α) (f : α → Act τ β) (s : τ) :
    (a >>= f) s = match a s with
      | .ok x s => f x s
      | .err s => .err s
      | .abort => .abort
      | .ub => .ub
      | .timeout => .timeout := rfl

instance : LawfulMonad (Act τ) := LawfulMonad.mk'
  (id_map := by intro α x; funext s; show (x >>= fun a => pure a) s = x s; rw [Act.bind_apply]; cases x s <;> rfl)
  (pure_bind := by intros; rfl)
  (bind_assoc := by
    intro α β γ x f g
    funext s
    show ((x >>= f) >>= g) s = (x >>= fun a => f a >>= g) s
    simp only [Act.bind_apply]
    cases x s <;> rfl)

/-- `a` is `b` cut off. -/
structure Act.le (a b : Act τ α) : Prop where
  out : ∀ s, a s = .timeout ∨ a s = b s

theorem Act.le_refl (a : Act τ α) : a.le a := ⟨fun _ => .inr rfl⟩

theorem Act.le_timeout (a : Act τ α) : Act.le (fun _ => .timeout) a := ⟨fun _ => .inl rfl⟩

theorem Act.le_trans {a b c : Act τ α} (h : a.le b) (h' : b.le c) : a.le c := by
  constructor
  intro s
  rcases h.out s with h | h
  · exact .inl h
  · rw [h]; exact h'.out s

theorem Act.le_bind {a b : Act τ α} {f g : α → Act τ β} (h : a.le b) (h' : ∀ x, (f x).le (g x)) :
    (a >>= f).le (b >>= g) := by
  constructor
  intro s
  rcases h.out s with h | h
  · left; rw [Act.bind_apply, h]
  · rw [Act.bind_apply, Act.bind_apply, ← h]
    cases a s with
    | ok x t => exact (h' x).out t
    | _ => exact .inr rfl

theorem Act.le_ite {c : Prop} [Decidable c] {a b a' b' : Act τ α} (h : a.le a') (h' : b.le b') :
    (if c then a else b).le (if c then a' else b') := by
  by_cases hc : c <;> simp only [hc, if_true, if_false] <;> assumption

/-- More fuel does not change a result. -/
def Mono (m : Nat → Act τ α) : Prop := ∀ n, Act.le (m n) (m (n + 1))

theorem Mono.le {m : Nat → Act τ α} (h : Mono m) {n k : Nat} (hk : n ≤ k) : Act.le (m n) (m k) := by
  induction hk with
  | refl => exact Act.le_refl _
  | step _ ih => exact Act.le_trans ih (h _)

/-- `a` is the limit of `m`. -/
structure Conv (m : Nat → Act τ α) (a : Act τ α) : Prop where
  out : ∀ s, ∃ N, ∀ n, N ≤ n → m n s = a s

theorem Conv.unique {m : Nat → Act τ α} {a b : Act τ α} (h : Conv m a) (h' : Conv m b) : a = b := by
  funext s
  obtain ⟨N, hN⟩ := h.out s
  obtain ⟨M, hM⟩ := h'.out s
  rw [← hN (max N M) (by omega), ← hM (max N M) (by omega)]

theorem Conv.const (a : Act τ α) : Conv (fun _ => a) a := ⟨fun _ => ⟨0, fun _ _ => rfl⟩⟩

theorem Conv.succ {m : Nat → Act τ α} {a : Act τ α} (h : Conv m a) : Conv (fun n => m (n + 1)) a := by
  constructor
  intro s
  obtain ⟨N, hN⟩ := h.out s
  exact ⟨N, fun n hn => hN _ (by omega)⟩

theorem Conv.bind {m : Nat → Act τ α} {a : Act τ α} {f : Nat → α → Act τ β} {g : α → Act τ β} (h : Conv m a)
    (h' : ∀ x, Conv (fun n => f n x) (g x)) : Conv (fun n => m n >>= f n) (a >>= g) := by
  constructor
  intro s
  obtain ⟨N, hN⟩ := h.out s
  cases ha : a s with
  | ok x t =>
    obtain ⟨M, hM⟩ := (h' x).out t
    refine ⟨max N M, fun n hn => ?_⟩
    show (m n >>= f n) s = _
    rw [Act.bind_apply, Act.bind_apply, hN n (by omega), ha]
    exact hM n (by omega)
  | _ => exact ⟨N, fun n hn => by show (m n >>= f n) s = _; rw [Act.bind_apply, Act.bind_apply, hN n hn, ha]⟩

theorem Conv.ite {c : Prop} [Decidable c] {m m' : Nat → Act τ α} {a a' : Act τ α} (h : Conv m a) (h' : Conv m' a') :
    Conv (fun n => if c then m n else m' n) (if c then a else a') := by
  by_cases hc : c <;> simp only [hc, if_true, if_false] <;> assumption

open Classical in
/-- The limit. -/
noncomputable def lim (m : Nat → Act τ α) : Act τ α := fun s =>
  if h : ∃ n, m n s ≠ .timeout then m h.choose s else .timeout

theorem lim_conv {m : Nat → Act τ α} (hm : Mono m) : Conv m (lim m) := by
  constructor
  intro s
  by_cases h : ∃ n, m n s ≠ .timeout
  · refine ⟨h.choose, fun n hn => ?_⟩
    have := (hm.le hn).out s
    simp only [lim, h, dite_true]
    rcases this with e | e
    · exact absurd e h.choose_spec
    · exact e.symm
  · refine ⟨0, fun n _ => ?_⟩
    simp only [lim, h, dite_false]
    exact Classical.not_not.1 fun e => h ⟨n, e⟩

/-- The result with enough fuel. -/
theorem lim_eq {m : Nat → Act τ α} (hm : Mono m) {n : Nat} {s : τ} {r : Out τ α} (h : m n s = r) (hr : r ≠ .timeout) :
    lim m s = r := by
  obtain ⟨N, hN⟩ := (lim_conv hm).out s
  rw [← hN (max N n) (by omega)]
  rcases (hm.le (Nat.le_max_right N n)).out s with e | e
  · rw [h] at e; exact absurd e hr
  · rw [← e, h]

end Monad

/-- Unfold monotonicity goals. -/
macro "mono" : tactic => `(tactic|
  repeat' first
    | (with_reducible exact Act.le_refl _)
    | (with_reducible assumption)
    | (with_reducible apply Act.le_bind)
    | (with_reducible apply Act.le_ite)
    | (intro x))

section
variable {σ V S T F : Type} (o : Ops σ V S T F)

/-- All parts of the expression parser together. -/
structure MonoE (n : Nat) : Prop where
  expr : (parseExpr o n).le (parseExpr o (n + 1))
  factor : (parseFactor o n).le (parseFactor o (n + 1))
  bin : ∀ p l, (parseBinRhs o n p l).le (parseBinRhs o (n + 1) p l)
  suffix : ∀ l, (parseSuffix o n l).le (parseSuffix o (n + 1) l)
  call : (parseCall o n).le (parseCall o (n + 1))
  args : (parseArgs o n).le (parseArgs o (n + 1))
  ctor : (parseCtorArgs o n).le (parseCtorArgs o (n + 1))
  dots : ∀ l, (parseDots o n l).le (parseDots o (n + 1) l)
  value : (parseValue o n).le (parseValue o (n + 1))

theorem monoE (n : Nat) : MonoE o n := by
  induction n with
  | zero =>
    constructor
    all_goals (intros; simp only [parseExpr, parseFactor, parseBinRhs, parseSuffix, parseCall, parseArgs, parseCtorArgs,
      parseDots, parseValue])
    all_goals exact Act.le_timeout _
  | succ n ih =>
    obtain ⟨h1, h2, h3, h4, h5, h6, h7, h8, h9⟩ := ih
    constructor
    · rw [parseExpr, parseExpr]
      repeat' first | (with_reducible exact h3 _ _) | mono
    · rw [parseFactor, parseFactor]
      repeat' first | (with_reducible exact h4 _) | mono
    · intro p l
      rw [parseBinRhs, parseBinRhs]
      repeat' first | (with_reducible exact h3 _ _) | mono
    · intro l
      rw [parseSuffix, parseSuffix]
      repeat' first | (with_reducible exact h4 _) | mono
    · rw [parseCall, parseCall]
      mono
    · rw [parseArgs, parseArgs]
      mono
    · rw [parseCtorArgs, parseCtorArgs]
      mono
    · intro l
      rw [parseDots, parseDots]
      repeat' first | (with_reducible exact h8 _) | mono
    · rw [parseValue, parseValue]
      refine Act.le_bind (Act.le_refl _) ?_
      rintro ⟨k, lx, v, line⟩
      cases k <;> (dsimp only; repeat' first | (with_reducible exact h8 _) | mono)

theorem parseUseArgs_mono : Mono (parseUseArgs (σ := σ)) := by
  intro n
  induction n with
  | zero => exact Act.le_timeout _
  | succ n ih =>
    rw [parseUseArgs, parseUseArgs]
    mono

theorem parseParams_mono : Mono (parseParams o) := by
  intro n
  induction n with
  | zero => exact Act.le_timeout _
  | succ n ih =>
    rw [parseParams, parseParams]
    mono

theorem parseFields_mono (nm : Name) : Mono (parseFields o nm) := by
  intro n
  induction n with
  | zero => exact Act.le_timeout _
  | succ n ih =>
    rw [parseFields, parseFields]
    mono

theorem parseAssign_mono (lhs : PExpr V S T) : Mono fun n => parseAssign o n lhs := by
  intro n
  have h1 := (monoE o n).expr
  unfold parseAssign
  mono

theorem parseSimple_mono : Mono (parseSimple o) := by
  intro n
  have h := monoE o n
  have h1 := h.expr
  have h2 := h.factor
  unfold parseSimple
  refine Act.le_bind h2 ?_
  rintro ⟨e, l⟩
  cases e <;> (dsimp only; first | (with_reducible exact Act.le_refl _) | exact parseAssign_mono o _ n)

/-- Statements and blocks. -/
structure MonoS (n : Nat) : Prop where
  stmt : (parseStmt o n).le (parseStmt o (n + 1))
  block : (parseBlock o n).le (parseBlock o (n + 1))

theorem monoS (n : Nat) : MonoS o n := by
  induction n with
  | zero =>
    constructor
    all_goals (intros; simp only [parseStmt, parseBlock])
    all_goals exact Act.le_timeout _
  | succ n ih =>
    obtain ⟨h1, h2⟩ := ih
    have h3 := (monoE o n).expr
    have h4 := parseSimple_mono o n
    have h5 := parseParams_mono o n
    have h6 := parseUseArgs_mono (σ := σ) n
    constructor
    · rw [parseStmt, parseStmt]
      refine Act.le_bind (Act.le_refl _) ?_
      rintro ⟨k, lx, v, line⟩
      cases k <;> (dsimp only; mono)
    · rw [parseBlock, parseBlock]
      mono

theorem parseStruct_mono : Mono (parseStruct o) := by
  intro n
  have h1 := fun nm => parseFields_mono o nm n
  unfold parseStruct
  repeat' first | (with_reducible exact h1 _) | mono

theorem parseItems_mono : Mono (parseItems o) := by
  intro n
  induction n with
  | zero => exact Act.le_timeout _
  | succ n ih =>
    have h1 := parseStruct_mono o n
    have h2 := (monoS o n).stmt
    rw [parseItems, parseItems]
    mono

end

/-- Unfold convergence goals. -/
macro "convs" : tactic => `(tactic|
  repeat' first
    | (with_reducible exact Conv.const _)
    | (with_reducible assumption)
    | (with_reducible apply Conv.bind)
    | (with_reducible apply Conv.ite)
    | (intro x))

section
variable {σ V S T F : Type} (o : Ops σ V S T F)

/-- `parseExpr` without fuel. -/
noncomputable def PE := lim fun n => parseExpr o n 
theorem PE_conv : Conv (fun n => parseExpr o n) (PE o) := lim_conv (fun n => (monoE o n).expr)

/-- `parseFactor` without fuel. -/
noncomputable def PF := lim fun n => parseFactor o n 
theorem PF_conv : Conv (fun n => parseFactor o n) (PF o) := lim_conv (fun n => (monoE o n).factor)

/-- `parseBinRhs` without fuel. -/
noncomputable def PB (exprPrec : Int) (lhs : PExpr V S T) := lim fun n => parseBinRhs o n exprPrec lhs
theorem PB_conv (exprPrec : Int) (lhs : PExpr V S T) : Conv (fun n => parseBinRhs o n exprPrec lhs) (PB o exprPrec lhs) := lim_conv (fun n => (monoE o n).bin _ _)

/-- `parseSuffix` without fuel. -/
noncomputable def PSx (lhs : PExpr V S T × Nat) := lim fun n => parseSuffix o n lhs
theorem PSx_conv (lhs : PExpr V S T × Nat) : Conv (fun n => parseSuffix o n lhs) (PSx o lhs) := lim_conv (fun n => (monoE o n).suffix _)

/-- `parseCall` without fuel. -/
noncomputable def PC := lim fun n => parseCall o n 
theorem PC_conv : Conv (fun n => parseCall o n) (PC o) := lim_conv (fun n => (monoE o n).call)

/-- `parseArgs` without fuel. -/
noncomputable def PA := lim fun n => parseArgs o n 
theorem PA_conv : Conv (fun n => parseArgs o n) (PA o) := lim_conv (fun n => (monoE o n).args)

/-- `parseCtorArgs` without fuel. -/
noncomputable def PI := lim fun n => parseCtorArgs o n 
theorem PI_conv : Conv (fun n => parseCtorArgs o n) (PI o) := lim_conv (fun n => (monoE o n).ctor)

/-- `parseDots` without fuel. -/
noncomputable def PD (lhs : PExpr V S T × Nat) := lim fun n => parseDots o n lhs
theorem PD_conv (lhs : PExpr V S T × Nat) : Conv (fun n => parseDots o n lhs) (PD o lhs) := lim_conv (fun n => (monoE o n).dots _)

/-- `parseValue` without fuel. -/
noncomputable def PV := lim fun n => parseValue o n 
theorem PV_conv : Conv (fun n => parseValue o n) (PV o) := lim_conv (fun n => (monoE o n).value)

/-- `parseUseArgs` without fuel. -/
noncomputable def PUse := lim (parseUseArgs (σ := σ))
theorem PUse_conv : Conv (parseUseArgs (σ := σ)) PUse := lim_conv parseUseArgs_mono
/-- `parseParams` without fuel. -/
noncomputable def PPar := lim (parseParams o)
theorem PPar_conv : Conv (parseParams o) (PPar o) := lim_conv (parseParams_mono o)
/-- `parseFields` without fuel. -/
noncomputable def PFld (name : Name) := lim (parseFields o name)
theorem PFld_conv (name : Name) : Conv (parseFields o name) (PFld o name) := lim_conv (parseFields_mono o name)
/-- `parseAssign` without fuel. -/
noncomputable def PAs (lhs : PExpr V S T) := lim fun n => parseAssign o n lhs
theorem PAs_conv (lhs : PExpr V S T) : Conv (fun n => parseAssign o n lhs) (PAs o lhs) := lim_conv (parseAssign_mono o lhs)
/-- `parseSimple` without fuel. -/
noncomputable def PSimple := lim (parseSimple o)
theorem PSimple_conv : Conv (parseSimple o) (PSimple o) := lim_conv (parseSimple_mono o)
/-- `parseStmt` without fuel. -/
noncomputable def PSt := lim (parseStmt o)
theorem PSt_conv : Conv (parseStmt o) (PSt o) := lim_conv fun n => (monoS o n).stmt
/-- `parseBlock` without fuel. -/
noncomputable def PBl := lim (parseBlock o)
theorem PBl_conv : Conv (parseBlock o) (PBl o) := lim_conv fun n => (monoS o n).block
/-- `parseStruct` without fuel. -/
noncomputable def PStr := lim (parseStruct o)
theorem PStr_conv : Conv (parseStruct o) (PStr o) := lim_conv (parseStruct_mono o)
/-- `parseItems` without fuel. -/
noncomputable def PIt := lim (parseItems o)
theorem PIt_conv : Conv (parseItems o) (PIt o) := lim_conv (parseItems_mono o)

theorem PE_eq : PE o = (do
    let f ← PF o
    PB o 0 f.1) := by
  have hPE := PE_conv o
  have hPF := PF_conv o
  have hPC := PC_conv o
  have hPA := PA_conv o
  have hPI := PI_conv o
  have hPV := PV_conv o
  refine Conv.unique (m := fun n => parseExpr o (n + 1)) (PE_conv o).succ ?_
  simp only [parseExpr]
  repeat' first | (with_reducible exact PB_conv o _ _) | (with_reducible exact PSx_conv o _) | (with_reducible exact PD_conv o _) | convs

theorem PF_eq : PF o = (do
    let v ← PV o
    PSx o v) := by
  have hPE := PE_conv o
  have hPF := PF_conv o
  have hPC := PC_conv o
  have hPA := PA_conv o
  have hPI := PI_conv o
  have hPV := PV_conv o
  refine Conv.unique (m := fun n => parseFactor o (n + 1)) (PF_conv o).succ ?_
  simp only [parseFactor]
  repeat' first | (with_reducible exact PB_conv o _ _) | (with_reducible exact PSx_conv o _) | (with_reducible exact PD_conv o _) | convs

theorem PB_eq (exprPrec : Int) (lhs : PExpr V S T) : PB o exprPrec lhs = (do
    let t ← cur
    if tokenPrec t.kind < exprPrec then pure lhs
    else do
      next
      let rhs ← PF o
      let t2 ← cur
      let rhs ← if tokenPrec t.kind < tokenPrec t2.kind then PB o (tokenPrec t.kind + 1) rhs.1 else pure rhs.1
      PB o exprPrec (.bin t.kind lhs rhs)) := by
  have hPE := PE_conv o
  have hPF := PF_conv o
  have hPC := PC_conv o
  have hPA := PA_conv o
  have hPI := PI_conv o
  have hPV := PV_conv o
  refine Conv.unique (m := fun n => parseBinRhs o (n + 1) exprPrec lhs) (PB_conv o exprPrec lhs).succ ?_
  simp only [parseBinRhs]
  repeat' first | (with_reducible exact PB_conv o _ _) | (with_reducible exact PSx_conv o _) | (with_reducible exact PD_conv o _) | convs

theorem PSx_eq (lhs : PExpr V S T × Nat) : PSx o lhs = (do
    let t ← cur
    if t.kind = .openSquare then do
      next
      let t ← cur
      let e ← PE o
      expect .closeSquare
      next
      PSx o (.index lhs.1 e, t.line)
    else if t.kind = .arrow then do
      getExpect .ident
      let f ← cur
      getExpect .openParen
      let c ← PC o
      PSx o (.call f.lexeme (lhs.1 :: c.1), lhs.2)
    else if t.kind = .dot then do
      getExpect .ident
      let f ← cur
      next
      PSx o (.dot lhs.1 f.lexeme, t.line)
    else pure lhs) := by
  have hPE := PE_conv o
  have hPF := PF_conv o
  have hPC := PC_conv o
  have hPA := PA_conv o
  have hPI := PI_conv o
  have hPV := PV_conv o
  refine Conv.unique (m := fun n => parseSuffix o (n + 1) lhs) (PSx_conv o lhs).succ ?_
  simp only [parseSuffix]
  repeat' first | (with_reducible exact PB_conv o _ _) | (with_reducible exact PSx_conv o _) | (with_reducible exact PD_conv o _) | convs

theorem PC_eq : PC o = (do
    let t ← cur
    next
    let args ← PA o
    next
    pure (args, t.line)) := by
  have hPE := PE_conv o
  have hPF := PF_conv o
  have hPC := PC_conv o
  have hPA := PA_conv o
  have hPI := PI_conv o
  have hPV := PV_conv o
  refine Conv.unique (m := fun n => parseCall o (n + 1)) (PC_conv o).succ ?_
  simp only [parseCall]
  repeat' first | (with_reducible exact PB_conv o _ _) | (with_reducible exact PSx_conv o _) | (with_reducible exact PD_conv o _) | convs

theorem PA_eq : PA o = (do
    let t ← cur
    if t.kind = .closeParen then pure []
    else do
      let e ← PE o
      let t ← cur
      if t.kind = .comma then do
        next
        let es ← PA o
        pure (e :: es)
      else if t.kind = .closeParen then do
        let es ← PA o
        pure (e :: es)
      else reject) := by
  have hPE := PE_conv o
  have hPF := PF_conv o
  have hPC := PC_conv o
  have hPA := PA_conv o
  have hPI := PI_conv o
  have hPV := PV_conv o
  refine Conv.unique (m := fun n => parseArgs o (n + 1)) (PA_conv o).succ ?_
  simp only [parseArgs]
  repeat' first | (with_reducible exact PB_conv o _ _) | (with_reducible exact PSx_conv o _) | (with_reducible exact PD_conv o _) | convs

theorem PI_eq : PI o = (do
    let t ← cur
    if t.kind = .closeCurly then pure ([], [])
    else do
      let name ← if t.kind = .dot then do
          getExpect .ident
          let f ← cur
          getExpect .equal
          next
          pure [f.lexeme]
        else pure []
      let e ← PE o
      let t ← cur
      if t.kind ≠ .closeCurly ∧ t.kind ≠ .comma then reject
      else do
        if t.kind = .comma then next else pure ()
        let r ← PI o
        pure (name ++ r.1, e :: r.2)) := by
  have hPE := PE_conv o
  have hPF := PF_conv o
  have hPC := PC_conv o
  have hPA := PA_conv o
  have hPI := PI_conv o
  have hPV := PV_conv o
  refine Conv.unique (m := fun n => parseCtorArgs o (n + 1)) (PI_conv o).succ ?_
  simp only [parseCtorArgs]
  repeat' first | (with_reducible exact PB_conv o _ _) | (with_reducible exact PSx_conv o _) | (with_reducible exact PD_conv o _) | convs

theorem PD_eq (lhs : PExpr V S T × Nat) : PD o lhs = (do
    let t ← cur
    if t.kind = .dot then do
      getExpect .ident
      let f ← cur
      next
      PD o (.dot lhs.1 f.lexeme, t.line)
    else pure lhs) := by
  have hPE := PE_conv o
  have hPF := PF_conv o
  have hPC := PC_conv o
  have hPA := PA_conv o
  have hPI := PI_conv o
  have hPV := PV_conv o
  refine Conv.unique (m := fun n => parseDots o (n + 1) lhs) (PD_conv o lhs).succ ?_
  simp only [parseDots]
  repeat' first | (with_reducible exact PB_conv o _ _) | (with_reducible exact PSx_conv o _) | (with_reducible exact PD_conv o _) | convs

theorem PV_eq : PV o = (do
    let t ← cur
    match t.kind with
    | .null => do next; pure (.null, t.line)
    | .bool => do next; pure (.bool t.bValue, t.line)
    | .ident => do
      next
      let t2 ← cur
      if t2.kind = .openParen then do
        let c ← PC o
        pure (.call t.lexeme c.1, c.2)
      else do
        let v ← lift (o.ref t.lexeme)
        pure (.id t.lexeme v, t.line)
    | .minus => do
      next
      let t2 ← cur
      let e ← PF o
      pure (.un .minus e.1, t2.line)
    | .bang => do
      next
      let t2 ← cur
      let e ← PF o
      pure (.un .bang e.1, t2.line)
    | .char => do next; pure (.char t.iValue, t.line)
    | .int => do next; pure (.int t.iValue, t.line)
    | .float => do next; pure (.float t.fValue, t.line)
    | .string => do
      let s ← lift (o.str t.lexeme)
      next
      pure (.str s, t.line)
    | .openParen => do
      next
      let e ← PE o
      expect .closeParen
      next
      let t2 ← cur
      pure (.paren e, t2.line)
    | .newTok => do
      next
      let t2 ← cur
      lift (o.struct t2.lexeme)
      getExpect .openCurly
      next
      let r ← PI o
      next
      pure (.ctor t2.lexeme r.1 r.2, t.line)
    | .castTok => do
      getExpect .openParen
      next
      let e ← PE o
      expect .comma
      next
      let ty ← parseType o
      expect .closeParen
      next
      PD o (.cast e ty, t.line)
    | .ifTok => do
      next
      let c ← PE o
      let a ← PE o
      expect .elseTok
      next
      let b ← PE o
      pure (.ite c a b, t.line)
    | _ => reject) := by
  have hPE := PE_conv o
  have hPF := PF_conv o
  have hPC := PC_conv o
  have hPA := PA_conv o
  have hPI := PI_conv o
  have hPV := PV_conv o
  refine Conv.unique (m := fun n => parseValue o (n + 1)) (PV_conv o).succ ?_
  simp only [parseValue]
  refine Conv.bind (Conv.const _) ?_
  rintro ⟨k, lx, v, line⟩
  cases k <;> (dsimp only; repeat' first | (with_reducible exact PD_conv o _) | convs)

theorem PUse_eq : PUse (σ := σ) = (do
    let t ← cur
    if t.kind = .closeParen then pure []
    else do
      expect .string
      next
      let t2 ← cur
      if t2.kind = .comma then next else pure ()
      let r ← PUse
      pure (t.lexeme :: r)) := by
  have hU := PUse_conv (σ := σ)
  refine Conv.unique (m := fun n => parseUseArgs (σ := σ) (n + 1)) (PUse_conv (σ := σ)).succ ?_
  simp only [parseUseArgs]
  convs

theorem PPar_eq : PPar o = (do
    let t ← cur
    if t.kind = .closeParen then pure []
    else do
      expect .ident
      let t ← cur
      getExpect .colon
      next
      let ty ← parseType o
      let t2 ← cur
      if t2.kind ≠ .closeParen ∧ t2.kind ≠ .comma then reject
      else do
        if t2.kind = .comma then next else pure ()
        let ps ← PPar o
        pure ((t.lexeme, ty) :: ps)) := by
  have hPE := PE_conv o
  have hPF := PF_conv o
  have hU := PUse_conv (σ := σ)
  have hP := PPar_conv o
  have hS := PSimple_conv o
  have hSt := PSt_conv o
  have hBl := PBl_conv o
  have hStr := PStr_conv o
  have hIt := PIt_conv o
  refine Conv.unique (m := fun n => parseParams o (n + 1)) (PPar_conv o).succ ?_
  simp only [parseParams]
  repeat' first | (with_reducible exact PB_conv o _ _) | (with_reducible exact PSx_conv o _) | (with_reducible exact PD_conv o _) | convs

theorem PFld_eq (name : Name) : PFld o name = (do
    let t ← cur
    if t.kind = .closeCurly then pure []
    else do
      expect .ident
      let t ← cur
      lift (o.checkField name t.lexeme)
      getExpect .colon
      next
      let ty ← parseType o
      lift (o.addField name t.lexeme ty)
      let fs ← PFld o name
      pure ((t.lexeme, ty) :: fs)) := by
  have hPE := PE_conv o
  have hPF := PF_conv o
  have hU := PUse_conv (σ := σ)
  have hP := PPar_conv o
  have hS := PSimple_conv o
  have hSt := PSt_conv o
  have hBl := PBl_conv o
  have hStr := PStr_conv o
  have hIt := PIt_conv o
  have hF := PFld_conv o name
  refine Conv.unique (m := fun n => parseFields o name (n + 1)) (PFld_conv o name).succ ?_
  simp only [parseFields]
  repeat' first | (with_reducible exact PB_conv o _ _) | (with_reducible exact PSx_conv o _) | (with_reducible exact PD_conv o _) | convs

theorem PSt_eq : PSt o = (do
    let t ← cur
    match t.kind with
    | .openCurly => do
      next
      lift o.openScope
      let ss ← PBl o
      next
      lift o.closeScope
      pure (.node t.line (.block ss))
    | .funcTok => do
      lift o.noFunc
      getExpect .ident
      let name ← cur
      let f ← lift (o.beginFunc name.lexeme)
      getExpect .openParen
      next
      let ps ← PPar o
      lift (o.params ps)
      next
      let r ← parseRet o
      lift (o.setRet r)
      lift o.openScope
      let b ← PSt o
      lift o.closeScope
      lift o.endFunc
      pure (.node t.line (.proc f name.lexeme ps r b))
    | .ifTok => do
      next
      let c ← PE o
      let b ← PSt o
      let t2 ← cur
      if t2.kind = .elseTok then do
        next
        let a ← PSt o
        pure (.node t.line (.ifElse c b a))
      else pure (.node t.line (.ifThen c b))
    | .whileTok => do
      next
      let t2 ← cur
      let c ← PE o
      lift o.openScope
      let b ← PSt o
      lift o.closeScope
      pure (.node t2.line (.while c b))
    | .forTok => do
      next
      let t2 ← cur
      lift o.openScope
      let i ← PSt o
      expect .semi
      next
      let c ← PE o
      expect .semi
      next
      let s ← PSt o
      let b ← PSt o
      lift o.closeScope
      pure (.node t2.line (.for i c s b))
    | .returnTok => do
      lift o.inFunc
      next
      let t2 ← cur
      if t2.kind = .semi then do
        next
        pure (.node t.line (.ret none))
      else do
        lift o.valueFunc
        let e ← PE o
        pure (.node t.line (.ret (some e)))
    | .breakTok => do
      next
      let t2 ← cur
      pure (.node t2.line .brk)
    | .continueTok => do
      next
      pure (.node t.line .cont)
    | .useTok => do
      lift o.topLevel
      getExpect .ident
      let m ← cur
      getExpect .openParen
      next
      let args ← PUse
      next
      let a ← parseUseAs
      pure (.node t.line (.use m.lexeme args a))
    | _ => PSimple o) := by
  have hPE := PE_conv o
  have hPF := PF_conv o
  have hU := PUse_conv (σ := σ)
  have hP := PPar_conv o
  have hS := PSimple_conv o
  have hSt := PSt_conv o
  have hBl := PBl_conv o
  have hStr := PStr_conv o
  have hIt := PIt_conv o
  refine Conv.unique (m := fun n => parseStmt o (n + 1)) (PSt_conv o).succ ?_
  simp only [parseStmt]
  refine Conv.bind (Conv.const _) ?_
  rintro ⟨k, lx, v, line⟩
  cases k <;> (dsimp only; repeat' first | (with_reducible exact PD_conv o _) | convs)

theorem PBl_eq : PBl o = (do
    let t ← cur
    if t.kind = .closeCurly then pure []
    else do
      let s ← PSt o
      let ss ← PBl o
      pure (s :: ss)) := by
  have hPE := PE_conv o
  have hPF := PF_conv o
  have hU := PUse_conv (σ := σ)
  have hP := PPar_conv o
  have hS := PSimple_conv o
  have hSt := PSt_conv o
  have hBl := PBl_conv o
  have hStr := PStr_conv o
  have hIt := PIt_conv o
  refine Conv.unique (m := fun n => parseBlock o (n + 1)) (PBl_conv o).succ ?_
  simp only [parseBlock]
  repeat' first | (with_reducible exact PB_conv o _ _) | (with_reducible exact PSx_conv o _) | (with_reducible exact PD_conv o _) | convs

theorem PIt_eq : PIt o = (do
    let t ← cur
    if t.kind = .eofTok then pure []
    else do
      let s ← if t.kind = .structTok then PStr o else PSt o
      let ss ← PIt o
      pure (s :: ss)) := by
  have hPE := PE_conv o
  have hPF := PF_conv o
  have hU := PUse_conv (σ := σ)
  have hP := PPar_conv o
  have hS := PSimple_conv o
  have hSt := PSt_conv o
  have hBl := PBl_conv o
  have hStr := PStr_conv o
  have hIt := PIt_conv o
  refine Conv.unique (m := fun n => parseItems o (n + 1)) (PIt_conv o).succ ?_
  simp only [parseItems]
  repeat' first | (with_reducible exact PB_conv o _ _) | (with_reducible exact PSx_conv o _) | (with_reducible exact PD_conv o _) | convs

theorem PAs_eq (lhs : PExpr V S T) : PAs o lhs = (do
    let t ← cur
    let d ← if t.kind = .declare ∨ t.kind = .colon then parseDeclare o t lhs else pure (lhs, none, t.kind)
    if 0 ≤ tokenPrec d.2.2 then reject
    else do
      next
      let rhs ← PE o
      parseConst o d.2.2 d.1 rhs
      pure (.node t.line (.assign d.2.2 d.2.1 d.1 rhs))) := by
  have hPE := PE_conv o
  refine Conv.unique (PAs_conv o lhs) ?_
  unfold parseAssign
  convs

theorem PSimple_eq : PSimple o = (do
    let l ← PF o
    match l with
    | (.call f args, line) => pure (.node line (.call f args))
    | (lhs, _) => PAs o lhs) := by
  refine Conv.unique (PSimple_conv o) ?_
  unfold parseSimple
  refine Conv.bind (PF_conv o) ?_
  rintro ⟨e, l⟩
  cases e <;> (dsimp only; first | (with_reducible exact Conv.const _) | exact PAs_conv o _)

theorem PStr_eq : PStr o = (do
  lift o.noFunc
  getExpect .ident
  let t ← cur
  lift (o.beginStruct t.lexeme)
  getExpect .openCurly
  next
  let fs ← PFld o t.lexeme
  next
  lift (o.endStruct t.lexeme)
  pure (.struct t.lexeme fs)) := by
  have hPE := PE_conv o
  have hPF := PF_conv o
  have hU := PUse_conv (σ := σ)
  have hP := PPar_conv o
  have hS := PSimple_conv o
  have hSt := PSt_conv o
  have hBl := PBl_conv o
  have hStr := PStr_conv o
  have hIt := PIt_conv o
  refine Conv.unique hStr ?_
  unfold parseStruct
  repeat' first | (with_reducible exact PFld_conv o _) | convs

end

end Tiny
