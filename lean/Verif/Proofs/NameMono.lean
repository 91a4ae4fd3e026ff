import Verif.Proofs.NameTables

/-!
# What naming a tree does to the symbol table: relations which every operation keeps
-/

namespace Tiny
open Spec

section
variable {σ V S T F : Type}

/-- Whenever the action succeeds, the states before and after are related. -/
def Rel {α : Type} (R : σ → σ → Prop) (a : Act σ α) : Prop := ∀ s x s', a s = .ok x s' → R s s'

/-- A reflexive and transitive relation every operation of the symbol table keeps. -/
structure OpsRel (R : σ → σ → Prop) (o : Ops σ V S T F) : Prop where
  refl : ∀ s, R s s
  trans : ∀ {s t u}, R s t → R t u → R s u
  ref : ∀ n, Rel R (o.ref n)
  str : ∀ s, Rel R (o.str s)
  struct : ∀ n, Rel R (o.struct n)
  named : ∀ n, Rel R (o.named n)
  nullable : ∀ t, Rel R (o.nullable t)
  openScope : Rel R o.openScope
  closeScope : Rel R o.closeScope
  noFunc : Rel R o.noFunc
  inFunc : Rel R o.inFunc
  valueFunc : Rel R o.valueFunc
  topLevel : Rel R o.topLevel
  params : ∀ ps, Rel R (o.params ps)
  setRet : ∀ r, Rel R (o.setRet r)
  endFunc : Rel R o.endFunc
  declare : ∀ n, Rel R (o.declare n)
  setTag : ∀ v t, Rel R (o.setTag v t)
  const : ∀ n l, Rel R (o.const n l)
  beginStruct : ∀ n, Rel R (o.beginStruct n)
  checkField : ∀ n m, Rel R (o.checkField n m)
  addField : ∀ n m t, Rel R (o.addField n m t)
  endStruct : ∀ n, Rel R (o.endStruct n)

variable {R : σ → σ → Prop} {o : Ops σ V S T F}

theorem OpsRel.pure {α : Type} (h : OpsRel R o) (a : α) : Rel R (Pure.pure a : Act σ α) := by
  intro s x s' e; cases e; exact h.refl s

theorem OpsRel.bind {α β : Type} (h : OpsRel R o) {x : Act σ α} {f : α → Act σ β} (hx : Rel R x)
    (hf : ∀ a, Rel R (f a)) : Rel R (x >>= f) := by
  intro s b s' e
  obtain ⟨a, s1, h1, h2⟩ := Act.ok_inv e
  exact h.trans (hx s a s1 h1) (hf a s1 b s' h2)

theorem rel_type (h : OpsRel R o) (t : SType) : Rel R (nameType o t) := by
  unfold nameType
  refine h.bind (h.named _) fun _ => ?_
  split
  · exact h.nullable _
  · exact h.pure _

mutual
theorem rel_expr (h : OpsRel R o) : ∀ e : SExpr, Rel R (nameExpr o e)
  | .null | .bool _ | .int _ | .char _ | .float _ => by unfold nameExpr; exact h.pure _
  | .str s => by unfold nameExpr; exact h.bind (h.str s) fun _ => h.pure _
  | .id n _ => by unfold nameExpr; exact h.bind (h.ref n) fun _ => h.pure _
  | .call _ as => by unfold nameExpr; exact h.bind (rel_exprs h as) fun _ => h.pure _
  | .paren e => by unfold nameExpr; exact h.bind (rel_expr h e) fun _ => h.pure _
  | .bin _ l r => by
    unfold nameExpr; exact h.bind (rel_expr h l) fun _ => h.bind (rel_expr h r) fun _ => h.pure _
  | .un _ e => by unfold nameExpr; exact h.bind (rel_expr h e) fun _ => h.pure _
  | .dot e _ => by unfold nameExpr; exact h.bind (rel_expr h e) fun _ => h.pure _
  | .index a i => by
    unfold nameExpr; exact h.bind (rel_expr h a) fun _ => h.bind (rel_expr h i) fun _ => h.pure _
  | .ctor n _ as => by
    unfold nameExpr; exact h.bind (h.struct n) fun _ => h.bind (rel_exprs h as) fun _ => h.pure _
  | .cast e t => by
    unfold nameExpr; exact h.bind (rel_expr h e) fun _ => h.bind (rel_type h t) fun _ => h.pure _
  | .ite c a b => by
    unfold nameExpr
    exact h.bind (rel_expr h c) fun _ => h.bind (rel_expr h a) fun _ => h.bind (rel_expr h b) fun _ => h.pure _
theorem rel_exprs (h : OpsRel R o) : ∀ es : List SExpr, Rel R (nameExprs o es)
  | [] => by unfold nameExprs; exact h.pure _
  | e :: es => by unfold nameExprs; exact h.bind (rel_expr h e) fun _ => h.bind (rel_exprs h es) fun _ => h.pure _
end

theorem rel_params (h : OpsRel R o) : ∀ ps, Rel R (nameParams o ps)
  | [] => by unfold nameParams; exact h.pure _
  | p :: ps => by unfold nameParams; exact h.bind (rel_type h _) fun _ => h.bind (rel_params h ps) fun _ => h.pure _

theorem rel_ret (h : OpsRel R o) : ∀ r, Rel R (nameRet o r)
  | none => by unfold nameRet; exact h.pure _
  | some t => by unfold nameRet; exact h.bind (rel_type h t) fun _ => h.pure _

theorem rel_decl (h : OpsRel R o) (op : Tok) (ann : Option SType) (n : Name) (r : SExpr) : Rel R (nameDecl o op ann n r) := by
  unfold nameDecl
  refine h.bind (h.ref n) fun _ => h.bind (h.declare n) fun v => ?_
  cases ann with
  | none => exact h.bind (rel_expr h r) fun _ => h.pure _
  | some t => exact h.bind (rel_type h t) fun t' => h.bind (h.setTag v t') fun _ => h.bind (rel_expr h r) fun _ => h.pure _

theorem rel_assign (h : OpsRel R o) (op : Tok) (l r : SExpr) : Rel R (nameAssign o op l r) := by
  unfold nameAssign
  refine h.bind (rel_expr h l) fun _ => h.bind (rel_expr h r) fun r' => ?_
  split
  · exact h.bind (h.const _ _) fun _ => h.pure _
  · exact h.pure _

theorem rel_fields (h : OpsRel R o) (n : Name) : ∀ fs, Rel R (nameFields o n fs)
  | [] => by unfold nameFields; exact h.pure _
  | f :: fs => by
    unfold nameFields
    exact h.bind (h.checkField n _) fun _ => h.bind (rel_type h _) fun t => h.bind (h.addField n _ t) fun _ =>
      h.bind (rel_fields h n fs) fun _ => h.pure _

mutual
/-- The functions defined in a statement. -/
def procPos : PStmt V S T F → List F
  | .node _ s => procPos s
  | .block ss => procPosL ss
  | .proc d _ _ _ b => d :: procPos b
  | .ifThen _ b => procPos b
  | .ifElse _ b a => procPos b ++ procPos a
  | .while _ b => procPos b
  | .for i _ s b => procPos i ++ (procPos s ++ procPos b)
  | _ => []
/-- See `procPos`. -/
def procPosL : List (PStmt V S T F) → List F
  | [] => []
  | s :: ss => procPos s ++ procPosL ss
end

/-- Whenever the action succeeds, the functions in its result are, in order, between the states before and after. -/
def Spans {α : Type} (R : σ → σ → Prop) (P : σ → σ → List F → Prop) (ps : α → List F) (a : Act σ α) : Prop :=
  ∀ s x s', a s = .ok x s' → P s s' (ps x)

/-- How lists of functions combine. -/
structure SpanRel (R : σ → σ → Prop) (P : σ → σ → List F → Prop) (o : Ops σ V S T F) : Prop extends OpsRel R o where
  none : ∀ {s t}, R s t → P s t []
  append : ∀ {s t u ps qs}, P s t ps → P t u qs → P s u (ps ++ qs)
  first : ∀ {s t u n d ps}, o.beginFunc n s = .ok d t → P t u ps → P s u (d :: ps)

variable {P : σ → σ → List F → Prop}

theorem SpanRel.before (h : SpanRel R P o) {s t u : σ} {ps : List F} (a : R s t) (b : P t u ps) : P s u ps := by
  have := h.append (h.none a) b; simpa using this

theorem SpanRel.after (h : SpanRel R P o) {s t u : σ} {ps : List F} (b : P s t ps) (a : R t u) : P s u ps := by
  have := h.append b (h.none a); simpa using this

theorem decl_form {op : Tok} {ann : Option SType} {n : Name} {r : SExpr} {s s' : σ} {x : PStmt V S T F}
    (h : nameDecl o op ann n r s = .ok x s') : procPos x = [] := by
  unfold nameDecl at h
  obtain ⟨_, _, _, h⟩ := Act.ok_inv h
  obtain ⟨_, _, _, h⟩ := Act.ok_inv h
  cases ann with
  | none =>
    obtain ⟨_, _, _, h⟩ := Act.ok_inv h
    cases h; simp [procPos]
  | some t =>
    obtain ⟨_, _, _, h⟩ := Act.ok_inv h
    obtain ⟨_, _, _, h⟩ := Act.ok_inv h
    obtain ⟨_, _, _, h⟩ := Act.ok_inv h
    cases h; simp [procPos]

theorem assign_form {op : Tok} {l r : SExpr} {s s' : σ} {x : PStmt V S T F}
    (h : nameAssign o op l r s = .ok x s') : procPos x = [] := by
  unfold nameAssign at h
  obtain ⟨_, _, _, h⟩ := Act.ok_inv h
  obtain ⟨r', _, _, h⟩ := Act.ok_inv h
  generalize r'.lit = q at h
  split at h
  · obtain ⟨_, _, _, h⟩ := Act.ok_inv h
    cases h; simp [procPos]
  · cases h; simp [procPos]

theorem span_decl (h : SpanRel R P o) {op : Tok} {ann : Option SType} {n : Name} {r : SExpr} {s s' : σ} {x : PStmt V S T F}
    (e : nameDecl o op ann n r s = .ok x s') : P s s' (procPos x) := by
  rw [decl_form e]; exact h.none (rel_decl h.toOpsRel op ann n r s x s' e)

theorem span_assign (h : SpanRel R P o) {op : Tok} {l r : SExpr} {s s' : σ} {x : PStmt V S T F}
    (e : nameAssign o op l r s = .ok x s') : P s s' (procPos x) := by
  rw [assign_form e]; exact h.none (rel_assign h.toOpsRel op l r s x s' e)

mutual
theorem span_stmt (h : SpanRel R P o) : ∀ (b : SStmt) {s s' : σ} {x : PStmt V S T F}, nameStmt o b s = .ok x s' →
    P s s' (procPos x)
  | .node line b, s, s', x, e => by
    unfold nameStmt at e
    obtain ⟨y, f1, h1, e⟩ := Act.ok_inv e
    cases e
    simpa [procPos] using span_stmt h b h1
  | .call g args, s, s', x, e => by
    unfold nameStmt at e
    obtain ⟨y, f1, h1, e⟩ := Act.ok_inv e
    cases e
    simpa [procPos] using h.none (rel_exprs h.toOpsRel args _ _ _ h1)
  | .block ss, s, s', x, e => by
    unfold nameStmt at e
    obtain ⟨_, f1, h1, e⟩ := Act.ok_inv e
    obtain ⟨y, f2, h2, e⟩ := Act.ok_inv e
    obtain ⟨_, f3, h3, e⟩ := Act.ok_inv e
    cases e
    simpa [procPos] using h.after (h.before (h.openScope _ _ _ h1) (span_stmts h ss h2)) (h.closeScope _ _ _ h3)
  | .proc _ n ps r b, s, s', x, e => by
    unfold nameStmt at e
    obtain ⟨_, f0, h0, e⟩ := Act.ok_inv e
    obtain ⟨d, f1, h1, e⟩ := Act.ok_inv e
    obtain ⟨ps', f2, h2, e⟩ := Act.ok_inv e
    obtain ⟨_, f3, h3, e⟩ := Act.ok_inv e
    obtain ⟨r', f4, h4, e⟩ := Act.ok_inv e
    obtain ⟨_, f5, h5, e⟩ := Act.ok_inv e
    obtain ⟨_, f6, h6, e⟩ := Act.ok_inv e
    obtain ⟨b', f7, h7, e⟩ := Act.ok_inv e
    obtain ⟨_, f8, h8, e⟩ := Act.ok_inv e
    obtain ⟨_, f9, h9, e⟩ := Act.ok_inv e
    cases e
    have k := span_stmt h b h7
    have k := h.after (h.after k (h.closeScope _ _ _ h8)) (h.endFunc _ _ _ h9)
    have k := h.before (h.trans (rel_params h.toOpsRel ps _ _ _ h2) (h.trans (h.params _ _ _ _ h3) (h.trans (rel_ret h.toOpsRel r _ _ _ h4)
      (h.trans (h.setRet _ _ _ _ h5) (h.openScope _ _ _ h6))))) k
    simpa [procPos] using h.before (h.noFunc _ _ _ h0) (h.first h1 k)
  | .ifThen c b, s, s', x, e => by
    unfold nameStmt at e
    obtain ⟨c', f1, h1, e⟩ := Act.ok_inv e
    obtain ⟨b', f2, h2, e⟩ := Act.ok_inv e
    cases e
    simpa [procPos] using h.before (rel_expr h.toOpsRel c _ _ _ h1) (span_stmt h b h2)
  | .ifElse c b a, s, s', x, e => by
    unfold nameStmt at e
    obtain ⟨c', f1, h1, e⟩ := Act.ok_inv e
    obtain ⟨b', f2, h2, e⟩ := Act.ok_inv e
    obtain ⟨e', f3, h3, e⟩ := Act.ok_inv e
    cases e
    simpa [procPos] using h.before (rel_expr h.toOpsRel c _ _ _ h1) (h.append (span_stmt h b h2) (span_stmt h a h3))
  | .while c b, s, s', x, e => by
    unfold nameStmt at e
    obtain ⟨c', f1, h1, e⟩ := Act.ok_inv e
    obtain ⟨_, f2, h2, e⟩ := Act.ok_inv e
    obtain ⟨b', f3, h3, e⟩ := Act.ok_inv e
    obtain ⟨_, f4, h4, e⟩ := Act.ok_inv e
    cases e
    simpa [procPos] using h.before (h.trans (rel_expr h.toOpsRel c _ _ _ h1) (h.openScope _ _ _ h2))
      (h.after (span_stmt h b h3) (h.closeScope _ _ _ h4))
  | .for i c t b, s, s', x, e => by
    unfold nameStmt at e
    obtain ⟨_, f1, h1, e⟩ := Act.ok_inv e
    obtain ⟨i', f2, h2, e⟩ := Act.ok_inv e
    obtain ⟨c', f3, h3, e⟩ := Act.ok_inv e
    obtain ⟨s', f4, h4, e⟩ := Act.ok_inv e
    obtain ⟨b', f5, h5, e⟩ := Act.ok_inv e
    obtain ⟨_, f6, h6, e⟩ := Act.ok_inv e
    cases e
    have k := h.after (h.append (span_stmt h t h4) (span_stmt h b h5)) (h.closeScope _ _ _ h6)
    have k := h.append (span_stmt h i h2) (h.before (rel_expr h.toOpsRel c _ _ _ h3) k)
    simpa [procPos] using h.before (h.openScope _ _ _ h1) k
  | .ret none, s, s', x, e => by
    unfold nameStmt at e
    obtain ⟨_, f1, h1, e⟩ := Act.ok_inv e
    cases e
    simpa [procPos] using h.none (h.inFunc _ _ _ h1)
  | .ret (some a), s, s', x, e => by
    unfold nameStmt at e
    obtain ⟨_, f1, h1, e⟩ := Act.ok_inv e
    obtain ⟨_, f2, h2, e⟩ := Act.ok_inv e
    obtain ⟨_, f3, h3, e⟩ := Act.ok_inv e
    cases e
    simpa [procPos] using h.none (h.trans (h.inFunc _ _ _ h1) (h.trans (h.valueFunc _ _ _ h2) (rel_expr h.toOpsRel a _ _ _ h3)))
  | .brk, s, s', x, e => by
    cases e; simpa [procPos] using h.none (h.refl s)
  | .cont, s, s', x, e => by
    cases e; simpa [procPos] using h.none (h.refl s)
  | .use m as a, s, s', x, e => by
    unfold nameStmt at e
    obtain ⟨_, f1, h1, e⟩ := Act.ok_inv e
    cases e
    simpa [procPos] using h.none (h.topLevel _ _ _ h1)
  | .struct n fs, s, s', x, e => by
    unfold nameStmt at e
    obtain ⟨_, f1, h1, e⟩ := Act.ok_inv e
    obtain ⟨_, f2, h2, e⟩ := Act.ok_inv e
    obtain ⟨_, f3, h3, e⟩ := Act.ok_inv e
    obtain ⟨_, f4, h4, e⟩ := Act.ok_inv e
    cases e
    simpa [procPos] using h.none (h.trans (h.noFunc _ _ _ h1) (h.trans (h.beginStruct _ _ _ _ h2)
      (h.trans (rel_fields h.toOpsRel n fs _ _ _ h3) (h.endStruct _ _ _ _ h4))))
  | .assign op ann l r, s, s', x, e => by
    by_cases h1 : ∃ n u, l = .id n u ∧ (ann.isSome = true ∨ op = .declare)
    · obtain ⟨n, u, rfl, h1⟩ := h1
      cases ann with
      | some ty =>
        unfold nameStmt at e
        exact span_decl h e
      | none =>
        rcases h1 with h1 | rfl
        · cases h1
        · unfold nameStmt at e
          exact span_decl h e
    · have q : nameStmt o (.assign op ann l r) = nameAssign o op l r := by
        rw [nameStmt]
        · rintro ty n u rfl rfl; exact h1 ⟨n, u, rfl, .inl rfl⟩
        · rintro n u rfl rfl rfl; exact h1 ⟨n, u, rfl, .inr rfl⟩
      rw [q] at e
      exact span_assign h e
theorem span_stmts (h : SpanRel R P o) : ∀ (ss : List SStmt) {s s' : σ} {xs : List (PStmt V S T F)},
    nameStmts o ss s = .ok xs s' → P s s' (procPosL xs)
  | [], s, s', xs, e => by
    cases e; simpa [procPosL] using h.none (h.refl s)
  | b :: bs, s, s', xs, e => by
    unfold nameStmts at e
    obtain ⟨y, f1, h1, e⟩ := Act.ok_inv e
    obtain ⟨ys, f2, h2, e⟩ := Act.ok_inv e
    cases e
    simpa [procPosL] using h.append (span_stmt h b h1) (span_stmts h bs h2)
end

end

/-! ## The symbol table -/

/-- Symbols are only added. -/
def Grows (f f' : Front) : Prop := f.syms.length ≤ f'.syms.length

theorem adds_le {f f' : Front} (a : Adds f f') : Grows f f' := by
  obtain ⟨k, hk⟩ := a.syms
  have := congrArg List.length hk
  simp only [List.length_map, List.length_append, List.length_replicate] at this
  unfold Grows; omega

theorem updateFunc_le {upd : FuncInfo → FuncInfo} {f f' : Front} {u} (h : updateFunc upd f = .ok u f') : Grows f f' := by
  unfold updateFunc at h
  split at h
  · cases h
  · cases h
  · split at h
    · cases h; simp [Grows]
    · cases h

theorem args_le (n : Nat) : ∀ (ps : List (Name × Tag)), Rel Grows (declareArguments n ps)
  | [], s, x, s', h => by cases h; exact Nat.le_refl _
  | p :: ps, s, x, s', h => by
    unfold declareArguments at h
    obtain ⟨_, f1, h1, h⟩ := Act.ok_inv h
    refine Nat.le_trans ?_ (args_le n ps _ _ _ h)
    unfold declareArgument at h1
    obtain ⟨q, f2, h2, h1⟩ := Act.ok_inv h1
    have e2 : f2 = s := by
      unfold currentFunc at h2
      split at h2
      · cases h2; rfl
      · cases h2
      · split at h2
        · cases h2; rfl
        · cases h2
    subst e2
    cases q with
    | none => cases h1
    | some fi =>
      simp only at h1
      split at h1
      · cases h1
      · exact updateFunc_le h1

theorem ref_le {n : Name} : Rel Grows (referenceVariable n) := fun _ _ _ h => adds_le (adds_ref h)

theorem setTag_le (v : Option SymRef) (t : Tag) : Rel Grows (setVarTag v t) := by
  intro s x s' h
  unfold setVarTag at h
  split at h
  · exact updateFunc_le h
  · exact updateFunc_le h
  · split at h
    · cases h; simp [Grows]
    · cases h
  · cases h

theorem declareVar_le (n : Name) : Rel Grows (declareVar n) := by
  intro s x s' h
  unfold declareVar at h
  simp only [act_bind, Act.get] at h
  split at h
  · replace h := Act.ok_inv h
    obtain ⟨k, f1, h1, h⟩ := h
    cases h
    unfold declareLocal at h1
    obtain ⟨q, f2, h2, h1⟩ := Act.ok_inv h1
    have e2 : f2 = s := by
      unfold currentFunc at h2
      split at h2
      · cases h2; rfl
      · cases h2
      · split at h2
        · cases h2; rfl
        · cases h2
    subst e2
    cases q with
    | none => cases h1
    | some fi =>
      simp only at h1
      split at h1
      · cases h1
      · simp only [act_bind, Act.get] at h1
        obtain ⟨_, f3, h3, h1⟩ := Act.ok_inv h1
        cases h1
        exact updateFunc_le h3
  · replace h := Act.ok_inv h
    obtain ⟨k, f1, h1, h⟩ := h
    cases h
    unfold declareGlobalVar at h1
    obtain ⟨q, f2, h2, h1⟩ := Act.ok_inv h1
    replace h2 := ref_le _ _ _ h2
    refine Nat.le_trans h2 ?_
    split at h1
    · cases h1
    · cases h1; simp

/-- Function positions, in order, between the lengths of the table. -/
def Positions (f f' : Front) (ps : List Nat) : Prop :=
  Grows f f' ∧ ps.Pairwise (· < ·) ∧ ∀ j ∈ ps, f.syms.length ≤ j ∧ j < f'.syms.length

theorem frontOps_span : SpanRel Grows Positions frontOps where
  refl := fun _ => Nat.le_refl _
  trans := Nat.le_trans
  ref := fun _ => ref_le
  str := fun _ _ _ _ h => adds_le (adds_str h)
  struct := fun _ _ _ _ h => adds_le (adds_struct h)
  named := fun _ _ _ _ h => adds_le (adds_named h)
  nullable := fun _ _ _ _ h => adds_le (adds_nullable h)
  openScope := fun _ _ _ h => adds_le (adds_open h)
  closeScope := fun _ _ _ h => adds_le (adds_close h)
  noFunc := fun _ _ _ h => by rw [(adds_require h).1]; exact Nat.le_refl _
  inFunc := fun _ _ _ h => by rw [(adds_require h).1]; exact Nat.le_refl _
  valueFunc := fun _ _ _ h => by rw [adds_value h]; exact Nat.le_refl _
  topLevel := fun _ _ _ h => by rw [adds_top h]; exact Nat.le_refl _
  params := fun ps => args_le _ ps
  setRet := fun _ _ _ _ h => updateFunc_le h
  endFunc := fun _ _ _ h => by cases h; exact Nat.le_refl _
  declare := declareVar_le
  setTag := setTag_le
  const := fun n l s x s' h => by
    change declareConst n l.const.1 l.const.2 s = _ at h
    unfold declareConst at h
    obtain ⟨o, f1, h1, h⟩ := Act.ok_inv h
    refine Nat.le_trans (ref_le _ _ _ h1) ?_
    cases o with
    | some _ => cases h
    | none => cases h; simp
  beginStruct := fun _ _ _ _ h => adds_le (adds_beginStruct h)
  checkField := fun _ _ _ _ _ h => adds_le (adds_checkField h)
  addField := fun _ _ _ _ _ _ h => adds_le (adds_addField h)
  endStruct := fun _ _ _ _ h => adds_le (adds_endStruct h)
  none := fun h => ⟨h, .nil, by simp⟩
  append := fun {s t u ps qs} h k => ⟨Nat.le_trans h.1 k.1, List.pairwise_append.2 ⟨h.2.1, k.2.1, fun a ha b hb =>
    Nat.lt_of_lt_of_le (h.2.2 a ha).2 (k.2.2 b hb).1⟩, fun j hj => by
      have h1 := h.1
      have h2 := k.1
      unfold Grows at h1 h2
      rcases List.mem_append.1 hj with hj | hj
      · have := h.2.2 j hj; omega
      · have := k.2.2 j hj; omega⟩
  first := fun {s t u n d ps} h k => by
    have e : d = s.syms.length ∧ t.syms.length = s.syms.length + 1 := by cases h; simp
    obtain ⟨rfl, e⟩ := e
    have h1 := k.1
    unfold Grows at h1
    refine ⟨by unfold Grows; omega, List.pairwise_cons.2 ⟨fun a ha => ?_, k.2.1⟩, fun j hj => ?_⟩
    · have := k.2.2 a ha; omega
    · rcases List.mem_cons.1 hj with rfl | hj
      · omega
      · have := k.2.2 j hj; omega

/-- The functions of a program are new symbols, in order. -/
theorem named_positions {ss : List SStmt} {f f' : Front} {xs : List CStmt} (h : nameStmts frontOps ss f = .ok xs f') :
    Positions f f' (procPosL xs) := span_stmts frontOps_span ss h

/-! ## All functions are in the tree -/

/-- There is a function at this place of the table. -/
def HasFn (f : Front) (j : Nat) : Prop := ∃ fi, f.syms[j]? = some (.func fi)

/-- No function is added. -/
def NoNew (f f' : Front) : Prop := ∀ j, HasFn f' j → HasFn f j

theorem hasFn_core {f : Front} {j : Nat} : HasFn f j ↔ ∃ fi, (f.syms.map Sym.core)[j]? = some (.func fi) := by
  constructor
  · rintro ⟨fi, h⟩
    exact ⟨_, by rw [List.getElem?_map, h]; rfl⟩
  · rintro ⟨fi, h⟩
    rw [List.getElem?_map] at h
    obtain ⟨x, h1, h2⟩ := Option.map_eq_some_iff.1 h
    obtain ⟨g, rfl, -⟩ := core_func h2
    exact ⟨g, h1⟩

theorem adds_noNew {f f' : Front} (a : Adds f f') : NoNew f f' := by
  intro j h
  obtain ⟨k, hk⟩ := a.syms
  rw [hasFn_core] at h ⊢
  obtain ⟨fi, h⟩ := h
  rw [hk] at h
  by_cases hj : j < (f.syms.map Sym.core).length
  · rw [List.getElem?_append_left hj] at h
    exact ⟨fi, h⟩
  · rw [List.getElem?_append_right (by omega), List.getElem?_replicate] at h
    split at h <;> cases h

theorem updateFunc_noNew {upd : FuncInfo → FuncInfo} {f f' : Front} {u} (h : updateFunc upd f = .ok u f') : NoNew f f' := by
  unfold updateFunc at h
  split at h
  · cases h
  · cases h
  · next i _ =>
    split at h
    · next fi hi =>
      cases h
      rintro j ⟨gi, hj⟩
      by_cases e : i = j
      · subst e; exact ⟨fi, hi⟩
      · simp only at hj
        rw [List.getElem?_set_ne e] at hj
        exact ⟨gi, hj⟩
    · cases h

theorem push_noNew {f f' : Front} {x : Sym} (h : f'.syms = f.syms ++ [x]) (hx : ∀ fi, x ≠ .func fi) : NoNew f f' := by
  rintro j ⟨fi, hj⟩
  rw [h] at hj
  by_cases e : j < f.syms.length
  · rw [List.getElem?_append_left e] at hj
    exact ⟨fi, hj⟩
  · rw [List.getElem?_append_right (by omega), List.getElem?_singleton] at hj
    split at hj
    · exact (hx fi (Option.some.inj hj)).elim
    · cases hj

theorem args_noNew (n : Nat) : ∀ (ps : List (Name × Tag)), Rel NoNew (declareArguments n ps)
  | [], s, x, s', h => by cases h; exact fun _ h => h
  | p :: ps, s, x, s', h => by
    unfold declareArguments at h
    obtain ⟨_, f1, h1, h⟩ := Act.ok_inv h
    refine fun j hj => ?_
    have hj := args_noNew n ps _ _ _ h j hj
    unfold declareArgument at h1
    obtain ⟨q, f2, h2, h1⟩ := Act.ok_inv h1
    rw [currentFunc_state h2] at h1
    cases q with
    | none => cases h1
    | some fi =>
      simp only at h1
      split at h1
      · cases h1
      · exact updateFunc_noNew h1 j hj

theorem setTag_noNew (v : Option SymRef) (t : Tag) : Rel NoNew (setVarTag v t) := by
  intro s x s' h
  unfold setVarTag at h
  split at h
  · exact updateFunc_noNew h
  · exact updateFunc_noNew h
  · next i =>
    split at h
    · cases h
      rintro j ⟨gi, hj⟩
      by_cases e : i = j
      · subst e
        simp only at hj
        rw [List.getElem?_set_self' ] at hj
        cases hq : s.syms[i]? with
        | none => rw [hq] at hj; cases hj
        | some y => rw [hq] at hj; cases hj
      · simp only at hj
        rw [List.getElem?_set_ne e] at hj
        exact ⟨gi, hj⟩
    · cases h
  · cases h

theorem declareVar_noNew (n : Name) : Rel NoNew (declareVar n) := by
  intro s x s' h
  unfold declareVar at h
  simp only [act_bind, Act.get] at h
  split at h
  · obtain ⟨k, f1, h1, h⟩ := Act.ok_inv h
    cases h
    unfold declareLocal at h1
    obtain ⟨q, f2, h2, h1⟩ := Act.ok_inv h1
    rw [currentFunc_state h2] at h1
    cases q with
    | none => cases h1
    | some fi =>
      simp only at h1
      split at h1
      · cases h1
      · simp only [act_bind, Act.get] at h1
        obtain ⟨_, f3, h3, h1⟩ := Act.ok_inv h1
        cases h1
        exact updateFunc_noNew h3
  · obtain ⟨k, f1, h1, h⟩ := Act.ok_inv h
    cases h
    unfold declareGlobalVar at h1
    obtain ⟨q, f2, h2, h1⟩ := Act.ok_inv h1
    refine fun j hj => adds_noNew (adds_ref h2) j ?_
    split at h1
    · cases h1
    · cases h1; exact push_noNew (f' := { f2 with syms := _, numGlobalVars := _ }) rfl (by simp) j hj

/-- All functions of the second table are in the first or among these. -/
def Covers (f f' : Front) (ps : List Nat) : Prop := ∀ j, HasFn f' j → HasFn f j ∨ j ∈ ps

theorem frontOps_cover : SpanRel NoNew Covers frontOps where
  refl := fun _ _ h => h
  trans := fun h k j hj => h j (k j hj)
  ref := fun _ _ _ _ h => adds_noNew (adds_ref h)
  str := fun _ _ _ _ h => adds_noNew (adds_str h)
  struct := fun _ _ _ _ h => adds_noNew (adds_struct h)
  named := fun _ _ _ _ h => adds_noNew (adds_named h)
  nullable := fun _ _ _ _ h => adds_noNew (adds_nullable h)
  openScope := fun _ _ _ h => adds_noNew (adds_open h)
  closeScope := fun _ _ _ h => adds_noNew (adds_close h)
  noFunc := fun _ _ _ h => by rw [(adds_require h).1]; exact fun _ h => h
  inFunc := fun _ _ _ h => by rw [(adds_require h).1]; exact fun _ h => h
  valueFunc := fun _ _ _ h => by rw [adds_value h]; exact fun _ h => h
  topLevel := fun _ _ _ h => by rw [adds_top h]; exact fun _ h => h
  params := fun ps => args_noNew _ ps
  setRet := fun _ _ _ _ h => updateFunc_noNew h
  endFunc := fun _ _ _ h => by cases h; exact fun _ h => h
  declare := declareVar_noNew
  setTag := setTag_noNew
  const := fun n l s x s' h => by
    change declareConst n l.const.1 l.const.2 s = _ at h
    unfold declareConst at h
    obtain ⟨o, f1, h1, h⟩ := Act.ok_inv h
    refine fun j hj => adds_noNew (adds_ref h1) j ?_
    cases o with
    | some _ => cases h
    | none => cases h; exact push_noNew (f' := { f1 with syms := _ }) rfl (by simp) j hj
  beginStruct := fun _ _ _ _ h => adds_noNew (adds_beginStruct h)
  checkField := fun _ _ _ _ _ h => adds_noNew (adds_checkField h)
  addField := fun _ _ _ _ _ _ h => adds_noNew (adds_addField h)
  endStruct := fun _ _ _ _ h => adds_noNew (adds_endStruct h)
  none := fun h j hj => .inl (h j hj)
  append := fun {s t u ps qs} h k j hj => by
    rcases k j hj with hj | hj
    · rcases h j hj with hj | hj
      · exact .inl hj
      · exact .inr (List.mem_append.2 (.inl hj))
    · exact .inr (List.mem_append.2 (.inr hj))
  first := fun {s t u n d ps} h k j hj => by
    rcases k j hj with ⟨fi, hj⟩ | hj
    · cases h
      simp only at hj
      by_cases e : j < s.syms.length
      · rw [List.getElem?_append_left e] at hj
        exact .inl ⟨fi, hj⟩
      · rw [List.getElem?_append_right (by omega), List.getElem?_singleton] at hj
        split at hj
        · exact .inr (List.mem_cons.2 (.inl (by omega)))
        · cases hj
    · exact .inr (List.mem_cons_of_mem _ hj)

/-- All new functions are in the tree. -/
theorem named_covers {ss : List SStmt} {f f' : Front} {xs : List CStmt} (h : nameStmts frontOps ss f = .ok xs f') :
    Covers f f' (procPosL xs) := span_stmts frontOps_cover ss h

end Tiny
