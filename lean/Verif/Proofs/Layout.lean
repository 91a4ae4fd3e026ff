import Verif.Proofs.CodegenStmt

/-!
# Where the code of each statement starts

The end of the code of an item depends only on where it starts: `itemFin`. With it the statements inside a
statement can be listed with the positions of their code (`logS`); the code generator's line records are exactly
these (`compileS_log`), and the code of each of them is there (`At.logged`).
-/

namespace Tiny
open Spec

/-- The end of an instruction at `pos`. -/
def Instr.fin (pos : Nat) : Instr → Nat
  | .op _ => pos + 1
  | .opB _ _ => pos + 2
  | .opV _ n _ => alignUp (pos + 1) n + n
  | .opBV _ _ _ => alignUp (pos + 2) 4 + 4

theorem fin_op (pos : Nat) (o : Op) : (Instr.op o).fin pos = pos + 1 := rfl
theorem fin_opB (pos : Nat) (o : Op) (b : UInt8) : (Instr.opB o b).fin pos = pos + 2 := rfl
theorem fin_opV (pos : Nat) (o : Op) (n v : Nat) : (Instr.opV o n v).fin pos = alignUp (pos + 1) n + n := rfl
theorem fin_opBV (pos : Nat) (o : Op) (b : UInt8) (v : Nat) :
    (Instr.opBV o b v).fin pos = alignUp (pos + 2) 4 + 4 := rfl

theorem AtI.fin {P : List UInt8} {pos next : Nat} : ∀ {i : Instr}, AtI P pos i next → next = i.fin pos
  | .op _, h => h.2
  | .opB _ _, h => h.2.2
  | .opV _ _ _, h => readValueAt_next h.2.2
  | .opBV _ _ _, h => readValueAt_next h.2.2

/-- One after the other. -/
def chain (ks : List (Nat → Nat)) (pos : Nat) : Nat := ks.foldl (fun p k => k p) pos

/-- The arguments given for the fields, in the order of the fields. -/
def chainFields (args : List (Name × (Nat → Nat))) (fs : List Name) (pos : Nat) : Nat :=
  fs.foldl (fun p f => match args.find? (·.1 = f) with | some (_, k) => k p | none => p) pos

/-- A jump at `pos`. -/
abbrev jumpFin (pos : Nat) : Nat := (Instr.goto 0).fin pos

/-- A call instruction at `pos`. -/
abbrev callFin (pos : Nat) : Nat := (Instr.opBV .call 0 0).fin pos

theorem callI_fin (n : Nat) (f : FnSym) (pos : Nat) : (callI n f).fin pos = callFin pos := by
  cases f <;> rfl

mutual
/-- The end of the code of an expression at `pos`. -/
def finE (g : Globals) : Expr → Nat → Nat
  | .paren e, pos => finE g e pos
  | .cast e _, pos => finE g e pos
  | .index arr elem _ _, pos => callFin (finE g elem (finE g arr pos)) + 1
  | .dot l _ _, pos => finE g l pos + 2
  | .call _ args, pos => callFin (chain (finL g args) pos) + 1
  | .ctor _ none args, pos => chain (finL g args) pos + 2
  | .ctor name (some names) args, pos =>
    chainFields (names.zip (finL g args)) (((g.structs name).getD []).map Prod.fst) pos + 2
  | .bin op l r, pos =>
    if (op = .plus ∨ op = .minus) ∧ r.isOne = true then finE g l pos + 1
    else if op = .notEquals then finE g r (finE g l pos) + 2
    else if op = .logAnd then jumpFin (finE g r (jumpFin (finE g l pos))) + 1
    else if op = .logOr then finE g r (jumpFin (jumpFin (finE g l pos) + 1))
    else finE g r (finE g l pos) + 1
  | .un op e, pos =>
    if op = .bang then finE g e pos + 1
    else if e.isInt = true then (Instr.opV .pushInt 8 0).fin pos
    else (Instr.opV .pushInt 8 0).fin (finE g e pos) + 1
  | .ite c a b, pos => finE g b (jumpFin (finE g a (jumpFin (finE g c pos))))
  | .null, pos => pos + 1
  | .bool _, pos => pos + 1
  | .int i, pos => (pushIntI (i.signExtend 64)).fin pos
  | .char i, pos => (pushIntI (i.signExtend 64)).fin pos
  | .float _, pos => (Instr.opV .pushFloat 8 0).fin pos
  | .str i, pos => (pushStrI i).fin pos
  | .id _ (some s), pos => (getVarI s).fin pos
  | .id _ none, pos => pos
/-- The same for each of a list. -/
def finL (g : Globals) : List Expr → List (Nat → Nat)
  | [] => []
  | e :: es => finE g e :: finL g es
end

theorem finL_eq (g : Globals) : ∀ es, finL g es = es.map (finE g)
  | [] => by simp [finL]
  | e :: es => by simp [finL, finL_eq g es]

/-- The end of the code computing the value of an assignment. -/
def finRhs (g : Globals) (op : Tok) (lhs rhs : Expr) (pos : Nat) : Nat :=
  if compoundOp op = none then finE g rhs pos
  else if (op = .plusEqual ∨ op = .minusEqual) ∧ rhs.isOne = true then finE g lhs pos + 1
  else finE g rhs (finE g lhs pos) + 1

/-- The end of the code storing it. -/
def finStore (g : Globals) : Expr → Nat → Nat
  | .index _ _ _ _, pos => callFin pos
  | .dot l _ _, pos => finE g l pos + 2
  | _, pos => (Instr.opV .set 4 0).fin pos

/-- The end of what comes before. -/
def finPre (g : Globals) : Expr → Nat → Nat
  | .index arr elem _ _, pos => finE g elem (finE g arr pos)
  | _, pos => pos

mutual
/-- The end of the code of a statement at `pos`. -/
def finS (g : Globals) : Stmt → Nat → Nat
  | .node _ s, pos => finS g s pos
  | .call _ args, pos => callFin (chain (finL g args) pos)
  | .block ss, pos => finSs g ss pos
  | .assign op lhs rhs, pos =>
    if op = .declareConst then pos else finStore g lhs (finRhs g op lhs rhs (finPre g lhs pos))
  | .proc _ _ nlocals body, pos => finS g body (jumpFin pos + if nlocals = 0 then 0 else 2) + 1
  | .ifThen c body, pos => finS g body (jumpFin (finE g c pos))
  | .ifElse c body alt, pos => finS g alt (jumpFin (finS g body (jumpFin (finE g c pos))))
  | .while c body, pos => jumpFin (finS g body (jumpFin (finE g c pos)))
  | .for init c step body, pos => jumpFin (finS g step (finS g body (jumpFin (finE g c (finS g init pos)))))
  | .ret none, pos => pos + 1
  | .ret (some e), pos => finE g e pos + 1
  | .brk _, pos => jumpFin pos
  | .cont _, pos => jumpFin pos
  | .use, pos => pos
  | .expr _, pos => pos
/-- The same for consecutive statements. -/
def finSs (g : Globals) : List Stmt → Nat → Nat
  | [], pos => pos
  | s :: ss, pos => finSs g ss (finS g s pos)
end

mutual
/-- The statements in a statement whose code is at `pos`, from the outside in and in the order of the source: where
the code of each starts, its line, and the statement. -/
def logS (g : Globals) : Stmt → Nat → List (Nat × Nat × Stmt)
  | .node line s, pos => (pos, line, s) :: logS g s pos
  | .block ss, pos => logSs g ss pos
  | .proc _ _ nlocals body, pos => logS g body (jumpFin pos + if nlocals = 0 then 0 else 2)
  | .ifThen c body, pos => logS g body (jumpFin (finE g c pos))
  | .ifElse c body alt, pos =>
    logS g body (jumpFin (finE g c pos)) ++ logS g alt (jumpFin (finS g body (jumpFin (finE g c pos))))
  | .while c body, pos => logS g body (jumpFin (finE g c pos))
  | .for init c step body, pos =>
    logS g init pos ++ logS g body (jumpFin (finE g c (finS g init pos))) ++
      logS g step (finS g body (jumpFin (finE g c (finS g init pos))))
  | .call _ _, _ | .assign _ _ _, _ | .ret _, _ | .brk _, _ | .cont _, _ | .use, _ | .expr _, _ => []
/-- The same for consecutive statements. -/
def logSs (g : Globals) : List Stmt → Nat → List (Nat × Nat × Stmt)
  | [], _ => []
  | s :: ss, pos => logS g s pos ++ logSs g ss (finS g s pos)
end

/-- The end of the code of an item at `pos`. -/
def itemFin (g : Globals) (pos : Nat) : Item → Nat
  | .e e => finE g e pos
  | .es xs => chain (finL g xs) pos
  | .fields args fs => chainFields (args.map fun a => (a.1, finE g a.2)) fs pos
  | .rhs op lhs rhs => finRhs g op lhs rhs pos
  | .store lhs => finStore g lhs pos
  | .pre lhs => finPre g lhs pos
  | .s _ _ s _ => finS g s pos
  | .ss _ _ ss _ => finSs g ss pos

theorem At.fin {g : Globals} {fp : Nat → Option Nat} {P : List UInt8} {pos fin : Nat} {it : Item}
    (h : At g fp P pos it fin) : fin = itemFin g pos it := by
  induction h
  case proc nl _ _ _ _ h1 _ _ h2 _ h3 ih =>
    have e1 := h1.fin; have e3 := h3.fin
    simp only [itemFin, finS, fin_opV, fin_op] at *
    subst e3
    rw [ih]
    split at h2
    · next h => rw [h2, e1, if_pos h]
    · next h => rw [h2.fin, e1, if_neg h]; rfl
  case leaf e i h1 h2 =>
    rw [h2.fin]
    cases e
    case id n s => cases s <;> simp [leafI] at h1; subst h1; simp [itemFin, finE]
    all_goals (simp [leafI] at h1; try (subst h1; simp [itemFin, finE, fin_opV, boolI, fin_op]))
  all_goals
    fwd AtI.fin
    simp only [itemFin, callI_fin, fin_op, fin_opB, fin_opV, fin_opBV] at *
  case ctorNamed h1 h2 h3 h4 h5 =>
    rw [h5, h4]
    simp only [finE, h1, finL_eq, List.zip_map_right]
    rfl
  case bin h1 h2 h3 h4 h5 h6 h7 h8 =>
    rw [h8, h7, h6]
    simp only [finE]
    rename_i op _ r _
    have n1 : ¬ ((op = .plus ∨ op = .minus) ∧ r.isOne = true) := fun h => by simp [h2 h.1] at h
    rw [if_neg n1]
    cases op <;> simp_all [binOpcode]
  case rhsOp h1 h2 h3 h4 h5 h6 h7 h8 =>
    rw [h8, h7, h6]
    rename_i op _ r _
    have n1 : ¬ ((op = .plusEqual ∨ op = .minusEqual) ∧ r.isOne = true) := fun h => by simp [h2 h.1] at h
    simp only [finRhs]
    rw [if_neg (by simp [h1]), if_neg n1]
  case rhsAdd1 h1 h2 h3 h4 h5 => simp [finRhs, h1, h4, h5, compoundOp]
  case rhsSub1 h1 h2 h3 h4 h5 => simp [finRhs, h1, h4, h5, compoundOp]
  case fieldsCons h1 h2 h3 h4 h5 =>
    rw [h5, h4]
    simp [chainFields, List.find?_map, Function.comp_def, h1]
  case fieldsMissing h1 h2 h3 =>
    rw [h3]
    simp [chainFields, List.find?_map, Function.comp_def, h1]
  all_goals try
    subst_vars
  all_goals try
    (simp only [finE, finL, finS, finSs, finRhs, finStore, finPre, chain, chainFields, fin_op, fin_opB, fin_opV, fin_opBV, List.foldl_nil, List.foldl_cons]; done)
  all_goals try
    (simp [finE, finL, finS, finSs, finRhs, finStore, finPre, chain, fin_op, fin_opB, fin_opV, fin_opBV, Expr.isInt, *]; done)
  case neg h _ _ _ => simp [finE, h, fin_opV]
  case assign h _ _ _ =>
    have : ¬ (‹Tok› = .declareConst) := by rintro rfl; simp [compoundOp] at h
    simp [finS, this]

/-- The code of a statement of the program is at `pos`. -/
def CodeOf (g : Globals) (fp : Nat → Option Nat) (P : List UInt8) (pos : Nat) (st : Stmt) : Prop :=
  ∃ b c a fin, At g fp P pos (.s b c st a) fin

/-- The statements in an item and where their code starts. -/
def itemLog (g : Globals) (pos : Nat) : Item → List (Nat × Nat × Stmt)
  | .s _ _ s _ => logS g s pos
  | .ss _ _ ss _ => logSs g ss pos
  | _ => []

theorem At.logged {g : Globals} {fp : Nat → Option Nat} {P : List UInt8} {pos fin : Nat} {it : Item}
    (h : At g fp P pos it fin) : ∀ r ∈ itemLog g pos it, pos ≤ r.1 ∧ r.1 ≤ fin ∧ CodeOf g fp P r.1 r.2.2 := by
  induction h
  case proc p3 fin b c i na nl body a h1 _ _ h2 h3 h4 ih =>
    have e1 := h1.fin; have e3 := h4.fin
    have l1 := h1.lt
    have l3 := h3.le
    simp only [itemLog, logS, fin_opV, fin_op] at *
    split at h2
    · next h =>
      rw [if_pos h]
      rw [Nat.add_zero, ← e1, ← h2]
      intro r hr
      have := ih r hr
      exact ⟨by omega, by omega, this.2.2⟩
    · next h =>
      rw [if_neg h]
      have e2 := h2.fin
      have l2 := h2.lt
      simp only [fin_opB] at e2
      rw [← e1, ← e2]
      intro r hr
      have := ih r hr
      exact ⟨by omega, by omega, this.2.2⟩
  case node line h ih =>
    simp only [itemLog, logS, List.mem_cons] at *
    rintro r (rfl | hr)
    · exact ⟨Nat.le_refl _, h.le, _, _, _, _, h⟩
    · exact ih r hr
  case block ih => exact ih
  case ifThen h1 h2 h3 _ ih =>
    have e1 := h1.fin; have e2 := h2.fin; have l1 := h1.le; have l2 := h2.lt; have l3 := h3.le
    simp only [itemLog, logS, itemFin, fin_opV] at *
    rw [← e1, ← e2]
    intro r hr
    have := ih r hr
    exact ⟨by omega, by omega, this.2.2⟩
  case ifElse h1 h2 h3 h4 h5 _ ih1 ih2 =>
    have e1 := h1.fin; have e2 := h2.fin; have e3 := h3.fin; have e4 := h4.fin
    have l1 := h1.le; have l2 := h2.lt; have l3 := h3.le; have l4 := h4.lt; have l5 := h5.le
    simp only [itemLog, logS, itemFin, fin_opV, List.mem_append] at *
    rw [← e1, ← e2, ← e3, ← e4]
    rintro r (hr | hr)
    · have := ih1 r hr
      exact ⟨by omega, by omega, this.2.2⟩
    · have := ih2 r hr
      exact ⟨by omega, by omega, this.2.2⟩
  case «while» h1 h2 h3 h4 _ ih =>
    have e1 := h1.fin; have e2 := h2.fin; have l1 := h1.le; have l2 := h2.lt; have l3 := h3.le; have l4 := h4.lt
    simp only [itemLog, logS, itemFin, fin_opV] at *
    rw [← e1, ← e2]
    intro r hr
    have := ih r hr
    exact ⟨by omega, by omega, this.2.2⟩
  case «for» h0 h1 h2 h3 h5 h4 ih0 _ ih1 ih2 =>
    have e0 := h0.fin; have e1 := h1.fin; have e2 := h2.fin; have e3 := h3.fin; have e4 := h4.fin
    have l0 := h0.le; have l1 := h1.le; have l2 := h2.lt; have l3 := h3.le; have l4 := h4.lt; have l5 := h5.le
    simp only [itemLog, logS, itemFin, fin_opV, List.mem_append] at *
    rw [← e0, ← e1, ← e2, ← e3]
    rintro r ((hr | hr) | hr)
    · have := ih0 r hr
      exact ⟨by omega, by omega, this.2.2⟩
    · have := ih1 r hr
      exact ⟨by omega, by omega, this.2.2⟩
    · have := ih2 r hr
      exact ⟨by omega, by omega, this.2.2⟩
  case ssCons h1 h2 ih1 ih2 =>
    have e1 := h1.fin; have l1 := h1.le; have l2 := h2.le
    simp only [itemLog, logSs, itemFin, List.mem_append] at *
    rw [← e1]
    rintro r (hr | hr)
    · have := ih1 r hr
      exact ⟨by omega, by omega, this.2.2⟩
    · have := ih2 r hr
      exact ⟨by omega, by omega, this.2.2⟩
  all_goals (intro r hr; simp [itemLog, logS, logSs] at hr)

/-- The positions never go back. -/
theorem At.sorted {g : Globals} {fp : Nat → Option Nat} {P : List UInt8} {pos fin : Nat} {it : Item}
    (h : At g fp P pos it fin) : (itemLog g pos it).Pairwise (fun x y => x.1 ≤ y.1) := by
  induction h
  case proc p3 fin b c i na nl body a h1 _ _ h2 h3 h4 ih =>
    have e1 := h1.fin
    simp only [itemLog, logS, fin_opV] at *
    split at h2
    · next h => rw [if_pos h, Nat.add_zero, ← e1, ← h2]; exact ih
    · next h =>
      have e2 := h2.fin
      simp only [fin_opB] at e2
      rw [if_neg h, ← e1, ← e2]; exact ih
  case node line h ih =>
    have q := h.logged
    simp only [itemLog, logS, List.pairwise_cons] at *
    exact ⟨fun r hr => (q r hr).1, ih⟩
  case block ih => exact ih
  case ifThen h1 h2 h3 _ ih =>
    have e1 := h1.fin; have e2 := h2.fin
    simp only [itemLog, logS, itemFin, fin_opV] at *
    rw [← e1, ← e2]; exact ih
  case ifElse h1 h2 h3 h4 h5 _ ih1 ih2 =>
    have e1 := h1.fin; have e2 := h2.fin; have e3 := h3.fin; have e4 := h4.fin; have l4 := h4.lt
    have q1 := h3.logged; have q2 := h5.logged
    simp only [itemLog, logS, itemFin, fin_opV, List.pairwise_append] at *
    rw [← e1, ← e2, ← e3, ← e4]
    exact ⟨ih1, ih2, fun x hx y hy => by have := q1 x hx; have := q2 y hy; omega⟩
  case «while» h1 h2 h3 h4 _ ih =>
    have e1 := h1.fin; have e2 := h2.fin
    simp only [itemLog, logS, itemFin, fin_opV] at *
    rw [← e1, ← e2]; exact ih
  case «for» h0 h1 h2 h3 h5 h4 ih0 _ ih1 ih2 =>
    have e0 := h0.fin; have e1 := h1.fin; have e2 := h2.fin; have e3 := h3.fin
    have l1 := h1.le; have l2 := h2.lt; have l3 := h3.le
    have q0 := h0.logged; have q1 := h3.logged; have q2 := h5.logged
    simp only [itemLog, logS, itemFin, fin_opV, List.pairwise_append, List.mem_append] at *
    rw [← e0, ← e1, ← e2, ← e3]
    refine ⟨⟨ih0, ih1, fun x hx y hy => by have := q0 x hx; have := q1 y hy; omega⟩, ih2, ?_⟩
    rintro x (hx | hx) y hy
    · have := q0 x hx; have := q2 y hy; omega
    · have := q1 x hx; have := q2 y hy; omega
  case ssCons h1 h2 ih1 ih2 =>
    have e1 := h1.fin
    have q1 := h1.logged; have q2 := h2.logged
    simp only [itemLog, logSs, itemFin, List.pairwise_append] at *
    rw [← e1]
    exact ⟨ih1, ih2, fun x hx y hy => by have := q1 x hx; have := q2 y hy; omega⟩
  all_goals simp [itemLog, logS, logSs]

/-! ## The records the code generator adds -/

/-- Add the records of some statements. -/
def addLog (file : Option Nat) (rs : List LineRec) (l : List (Nat × Nat × Stmt)) : List LineRec :=
  l.foldl (fun rs x => addRecord rs ⟨x.1, file, x.2.1⟩) rs

theorem addLog_append (file : Option Nat) (rs : List LineRec) (l l' : List (Nat × Nat × Stmt)) :
    addLog file rs (l ++ l') = addLog file (addLog file rs l) l' := by simp [addLog]

theorem Made.len {g : Globals} {s s' : CS} {it : Item} (h : Made g s s' it) (hl : s'.program.length < 2 ^ 32) :
    s'.program.length = itemFin g s.program.length it := (h.2 hl (fun _ => none)).fin

theorem SMade.len {g : Globals} {s s' : CS} {l : List Nat} {it : Item} (h : SMade g s s' l it)
    (hl : s'.program.length < 2 ^ 32) (hn : l.Nodup) : s'.program.length = itemFin g s.program.length it :=
  (h.2.2.2 hl hn (fun i => s'.functionPcs[i]?) (fun _ _ => rfl)).fin

theorem genJump_len {o : Op} {v j : Nat} {s s' : CS} (h : genJump o v s = .ok j s') :
    s'.program.length = jumpFin s.program.length := by
  obtain ⟨_, p, l, _⟩ := genJump_ok h
  rw [l, p]; rfl

/-- The records after a statement. -/
def Logs (g : Globals) (s s' : CS) (it : Item) : Prop :=
  s'.log = (addLog s.file s.lines (itemLog g s.program.length it), s.file)

theorem Logs.quiet {g : Globals} {s s' : CS} {it : Item} (h : s'.log = s.log)
    (hi : itemLog g s.program.length it = []) : Logs g s s' it := by
  unfold Logs; rw [hi, h]; rfl

theorem patchBC_log {b c : Nat} {a : Stmt} {S S' : CS} {lo hi : Nat} (hp : PatchIn lo hi a) (e : patchBC b c a S = .ok () S') :
    S'.log = S.log := (patchBC_within hp e).lines

set_option maxHeartbeats 1000000 in
mutual
theorem compileS_log (g : Globals) (st : Stmt) (s s' : CS) (a : Stmt) (h : compileS g st s = .ok a s')
    (hl : s'.program.length < 2 ^ 32) (hn : (ids st).Nodup) : Logs g s s' (.s 0 0 st a) := by
  have M := compileS_made g st s s' a h
  match st with
  | .node line st =>
    rw [compileS] at h
    obtain ⟨_, s0, h0, h⟩ := CG.bind_ok.1 h
    obtain ⟨a', s1, h1, h⟩ := CG.bind_ok.1 h
    obtain ⟨rfl, rfl⟩ := CG.pure_ok.1 h
    have q := compileS_log g st s0 s' a' h1 hl (by simpa [ids, procs] using hn)
    unfold addLine at h0
    cases h0
    unfold Logs at q ⊢
    simpa [itemLog, logS, addLog] using q
  | .call callee args =>
    rw [compileS] at h
    obtain ⟨_, s1, h1, h⟩ := CG.bind_ok.1 h
    obtain ⟨rfl, rfl⟩ := CG.pure_ok.1 h
    unfold compileCall at h1
    obtain ⟨n, s2, h2, h3⟩ := CG.bind_ok.1 h1
    cases hf : g.funcs callee with
    | none => rw [hf] at h3; exact absurd h3 CG.err_ok
    | some f =>
      rw [hf] at h3
      obtain ⟨m1, _, _⟩ := compileArgs_made g 0 args s s2 n h2
      exact .quiet ((genCall_ok h3).1.lines.trans m1.1.lines) rfl
  | .block ss =>
    rw [compileS] at h
    obtain ⟨a', s1, h1, h⟩ := CG.bind_ok.1 h
    obtain ⟨rfl, rfl⟩ := CG.pure_ok.1 h
    exact compileSs_log g ss s s' a' h1 hl (by simpa [ids, procs] using hn)
  | .assign op lhs rhs =>
    rw [compileS] at h
    obtain ⟨_, s1, h1, h⟩ := CG.bind_ok.1 h
    obtain ⟨rfl, rfl⟩ := CG.pure_ok.1 h
    exact .quiet (compileAssign_made h1).1.lines rfl
  | .proc i nargs nlocals body =>
    rw [compileS] at h
    obtain ⟨j, s1, h1, h⟩ := CG.bind_ok.1 h
    obtain ⟨n1, _, hn1, h⟩ := CG.bind_ok.1 h
    obtain ⟨rfl, eq⟩ := programCount_ok hn1
    rw [eq] at h; clear eq
    obtain ⟨_, s2, h2, h⟩ := CG.bind_ok.1 h
    have lg2 : s2.log = s1.log ∧ s2.program = s1.program := by
      unfold setFunctionPc at h2
      split at h2
      · cases h2; exact ⟨rfl, rfl⟩
      · cases h2
    by_cases c : 0xff < nlocals
    · rw [if_pos c] at h; exact absurd (CG.bind_ok.1 h).choose_spec.choose_spec.1 CG.err_ok
    rw [if_neg c] at h
    have room : ∃ s3, s3.log = s2.log ∧
        s3.program.length = s2.program.length + (if nlocals = 0 then 0 else 2) ∧
        (do let body ← compileS g body
            genOp .ret
            patchJump j (← programCount)
            pure (.proc i nargs nlocals body) : CG Stmt) s3 = .ok a s' := by
      by_cases c0 : 0 < nlocals
      · rw [if_pos c0] at h
        obtain ⟨_, s3a, h3, h⟩ := CG.bind_ok.1 h
        obtain ⟨_, s3, h4, h⟩ := CG.bind_ok.1 h
        have m := genOpB_ok h3 h4
        exact ⟨s3, m.1.lines, by rw [if_neg (by omega)]; exact m.2.fin, h⟩
      · rw [if_neg c0] at h
        exact ⟨s2, rfl, by rw [if_pos (by omega)]; rfl, h⟩
    obtain ⟨s3, e3, r3, h⟩ := room
    obtain ⟨a', s4, h4, h⟩ := CG.bind_ok.1 h
    obtain ⟨_, s5, h5, h⟩ := CG.bind_ok.1 h
    obtain ⟨n1, _, hn1, h⟩ := CG.bind_ok.1 h
    obtain ⟨rfl, eq⟩ := programCount_ok hn1
    rw [eq] at h; clear eq
    obtain ⟨_, s6, h6, h⟩ := CG.bind_ok.1 h
    obtain ⟨rfl, rfl⟩ := CG.pure_ok.1 h
    have m5 := genOp_ok h5
    have p6 := patchJump_ok h6
    have x5 := m5.1.le; have x6 := p6.len
    simp only [ids, procs, List.map_cons, List.nodup_cons] at hn
    have q := compileS_log g body s3 s4 a' h4 (by omega) hn.2
    have lg : s3.log = s.log := by rw [e3, lg2.1, (genJump_ok h1).1.lines]
    have ll : s3.program.length = jumpFin s.program.length + if nlocals = 0 then 0 else 2 := by
      rw [r3, lg2.2, genJump_len h1]
    unfold Logs at q ⊢
    rw [p6.lines, m5.1.lines, q, ll]
    simp only [CS.log, Prod.mk.injEq] at lg
    rw [lg.1, lg.2]
    simp [itemLog, logS]
  | .ifThen cond body =>
    rw [compileS] at h
    obtain ⟨_, s1, h1, h⟩ := CG.bind_ok.1 h
    obtain ⟨j1, s2, h2, h⟩ := CG.bind_ok.1 h
    obtain ⟨a1, s3, h3, h⟩ := CG.bind_ok.1 h
    obtain ⟨n1, _, hn1, h⟩ := CG.bind_ok.1 h
    obtain ⟨rfl, eq⟩ := programCount_ok hn1
    rw [eq] at h; clear eq
    obtain ⟨_, s5, h5, h⟩ := CG.bind_ok.1 h
    obtain ⟨rfl, rfl⟩ := CG.pure_ok.1 h
    have m1 := compileE_made g cond s s1 h1
    have m3 := compileS_made g body s2 s3 a1 h3
    have p5 := patchJump_ok h5
    have x5 := p5.len; have x3 := m3.1.le; have x2 := (genJump_ok h2).1.le
    have q := compileS_log g body s2 s3 a1 h3 (by omega) (by simpa [ids, procs] using hn)
    have ll := genJump_len h2
    rw [m1.len (by omega)] at ll
    have lg : s2.log = s.log := by rw [(genJump_ok h2).1.lines, m1.1.lines]
    unfold Logs at q ⊢
    rw [p5.lines, q, ll]
    simp only [CS.log, Prod.mk.injEq] at lg
    rw [lg.1, lg.2]
    simp only [itemLog, logS, itemFin]
  | .ifElse cond body alt =>
    rw [compileS] at h
    obtain ⟨_, s1, h1, h⟩ := CG.bind_ok.1 h
    obtain ⟨j1, s2, h2, h⟩ := CG.bind_ok.1 h
    obtain ⟨a1, s3, h3, h⟩ := CG.bind_ok.1 h
    obtain ⟨j2, s4, h4, h⟩ := CG.bind_ok.1 h
    obtain ⟨n1, _, hn1, h⟩ := CG.bind_ok.1 h
    obtain ⟨rfl, eq⟩ := programCount_ok hn1
    rw [eq] at h; clear eq
    obtain ⟨_, s5, h5, h⟩ := CG.bind_ok.1 h
    obtain ⟨a2, s6, h6, h⟩ := CG.bind_ok.1 h
    obtain ⟨n2, _, hn2, h⟩ := CG.bind_ok.1 h
    obtain ⟨rfl, eq⟩ := programCount_ok hn2
    rw [eq] at h; clear eq
    obtain ⟨_, s7, h7, h⟩ := CG.bind_ok.1 h
    obtain ⟨rfl, rfl⟩ := CG.pure_ok.1 h
    simp only [ids, procs, List.map_append] at hn
    have nd := List.nodup_append.1 hn
    have m1 := compileE_made g cond s s1 h1
    have m3 := compileS_made g body s2 s3 a1 h3
    have m6 := compileS_made g alt s5 s6 a2 h6
    have p5 := patchJump_ok h5
    have p7 := patchJump_ok h7
    have x7 := p7.len; have x6 := m6.1.le; have x5 := p5.len; have x4 := (genJump_ok h4).1.le
    have x3 := m3.1.le; have x2 := (genJump_ok h2).1.le
    have q1 := compileS_log g body s2 s3 a1 h3 (by omega) nd.1
    have q2 := compileS_log g alt s5 s6 a2 h6 (by omega) nd.2.1
    have l2 := genJump_len h2
    have l4 := genJump_len h4
    rw [m3.len (by omega) nd.1, l2, m1.len (by omega)] at l4
    rw [m1.len (by omega)] at l2
    have lg2 : s2.log = s.log := by rw [(genJump_ok h2).1.lines, m1.1.lines]
    have lg5 : s5.log = s3.log := by rw [p5.lines, (genJump_ok h4).1.lines]
    unfold Logs at q1 q2 ⊢
    rw [q1] at lg5
    simp only [CS.log, Prod.mk.injEq] at lg2 lg5
    rw [p7.lines, q2, x5, l4, lg5.1, lg5.2, l2, lg2.1, lg2.2]
    simp only [itemLog, logS, itemFin, addLog_append]
  | .while cond body =>
    rw [compileS] at h
    obtain ⟨n0, _, hn0, h⟩ := CG.bind_ok.1 h
    obtain ⟨rfl, eq⟩ := programCount_ok hn0
    rw [eq] at h; clear eq
    obtain ⟨_, s1, h1, h⟩ := CG.bind_ok.1 h
    obtain ⟨j1, s2, h2, h⟩ := CG.bind_ok.1 h
    obtain ⟨a1, s3, h3, h⟩ := CG.bind_ok.1 h
    obtain ⟨j2, s4, h4, h⟩ := CG.bind_ok.1 h
    obtain ⟨n1, _, hn1, h⟩ := CG.bind_ok.1 h
    obtain ⟨rfl, eq⟩ := programCount_ok hn1
    rw [eq] at h; clear eq
    obtain ⟨_, s5, h5, h⟩ := CG.bind_ok.1 h
    obtain ⟨n2, _, hn2, h⟩ := CG.bind_ok.1 h
    obtain ⟨rfl, eq⟩ := programCount_ok hn2
    rw [eq] at h; clear eq
    obtain ⟨_, s6, h6, h⟩ := CG.bind_ok.1 h
    obtain ⟨rfl, rfl⟩ := CG.pure_ok.1 h
    have m1 := compileE_made g cond _ s1 h1
    have m3 := compileS_made g body s2 s3 a1 h3
    have p5 := patchJump_ok h5
    have w6 := patchBC_within (lo := s2.program.length) (hi := s3.program.length) m3.2.2.1 h6
    have x6 := w6.len; have x5 := p5.len; have x4 := (genJump_ok h4).1.le; have x3 := m3.1.le
    have x2 := (genJump_ok h2).1.le
    have q := compileS_log g body s2 s3 a1 h3 (by omega) (by simpa [ids, procs] using hn)
    have ll := genJump_len h2
    rw [m1.len (by omega)] at ll
    have lg : s2.log = s.log := by rw [(genJump_ok h2).1.lines, m1.1.lines]
    unfold Logs at q ⊢
    rw [w6.lines, p5.lines, (genJump_ok h4).1.lines, q, ll]
    simp only [CS.log, Prod.mk.injEq] at lg
    rw [lg.1, lg.2]
    simp only [itemLog, logS, itemFin]
  | .for init cond step body =>
    rw [compileS] at h
    obtain ⟨ai, s0, h0, h⟩ := CG.bind_ok.1 h
    obtain ⟨n0, _, hn0, h⟩ := CG.bind_ok.1 h
    obtain ⟨rfl, eq⟩ := programCount_ok hn0
    rw [eq] at h; clear eq
    obtain ⟨_, s1, h1, h⟩ := CG.bind_ok.1 h
    obtain ⟨j1, s2, h2, h⟩ := CG.bind_ok.1 h
    obtain ⟨a1, s3, h3, h⟩ := CG.bind_ok.1 h
    obtain ⟨n3, _, hn3, h⟩ := CG.bind_ok.1 h
    obtain ⟨rfl, eq⟩ := programCount_ok hn3
    rw [eq] at h; clear eq
    obtain ⟨as, s3', h3', h⟩ := CG.bind_ok.1 h
    obtain ⟨j2, s4, h4, h⟩ := CG.bind_ok.1 h
    obtain ⟨n1, _, hn1, h⟩ := CG.bind_ok.1 h
    obtain ⟨rfl, eq⟩ := programCount_ok hn1
    rw [eq] at h; clear eq
    obtain ⟨_, s5, h5, h⟩ := CG.bind_ok.1 h
    obtain ⟨n2, _, hn2, h⟩ := CG.bind_ok.1 h
    obtain ⟨rfl, eq⟩ := programCount_ok hn2
    rw [eq] at h; clear eq
    obtain ⟨_, s6, h6, h⟩ := CG.bind_ok.1 h
    obtain ⟨rfl, rfl⟩ := CG.pure_ok.1 h
    simp only [ids, procs, List.map_append] at hn
    have nd := List.nodup_append.1 hn
    have nd1 := List.nodup_append.1 nd.1
    have m0 := compileS_made g init _ _ ai h0
    have m1 := compileE_made g cond _ s1 h1
    have m3 := compileS_made g body s2 _ a1 h3
    have m3' := compileS_made g step _ s3' as h3'
    have p5 := patchJump_ok h5
    have w6 := patchBC_within (lo := s2.program.length) (hi := s3.program.length) m3.2.2.1 h6
    have x6 := w6.len; have x5 := p5.len; have x4 := (genJump_ok h4).1.le; have x3 := m3.1.le
    have x3' := m3'.1.le; have x2 := (genJump_ok h2).1.le; have x1 := m1.1.le
    have q0 := compileS_log g init _ _ ai h0 (by omega) nd1.1
    have q1 := compileS_log g body _ _ a1 h3 (by omega) nd1.2.1
    have q2 := compileS_log g step _ _ as h3' (by omega) nd.2.1
    have l0 := m0.len (by omega) nd1.1
    have l1 := m1.len (by omega)
    have l2 := genJump_len h2
    have l3 := m3.len (by omega) nd1.2.1
    simp only [itemFin] at l0 l1 l3
    have lg2 : s2.log = s0.log := by rw [(genJump_ok h2).1.lines, m1.1.lines]
    unfold Logs at q0 q1 q2 ⊢
    rw [q0] at lg2
    simp only [CS.log, Prod.mk.injEq] at lg2 q1 q2
    rw [w6.lines, p5.lines, (genJump_ok h4).1.lines]
    simp only [CS.log, Prod.mk.injEq]
    rw [q2.1, q2.2, q1.1, q1.2, lg2.1, lg2.2, l3, l2, l1, l0]
    simp only [itemLog, logS, addLog_append, and_self]
  | .ret none =>
    rw [compileS] at h
    obtain ⟨_, s1, h1, h⟩ := CG.bind_ok.1 h
    obtain ⟨rfl, rfl⟩ := CG.pure_ok.1 h
    exact .quiet (genOp_ok h1).1.lines rfl
  | .ret (some e) =>
    rw [compileS] at h
    obtain ⟨_, s1, h1, h⟩ := CG.bind_ok.1 h
    obtain ⟨_, s2, h2, h⟩ := CG.bind_ok.1 h
    obtain ⟨rfl, rfl⟩ := CG.pure_ok.1 h
    exact .quiet ((genOp_ok h2).1.lines.trans (compileE_made g e s s1 h1).1.lines) rfl
  | .brk q =>
    rw [compileS] at h
    obtain ⟨p, s1, h1, h⟩ := CG.bind_ok.1 h
    obtain ⟨rfl, rfl⟩ := CG.pure_ok.1 h
    exact .quiet (genJump_ok h1).1.lines rfl
  | .cont q =>
    rw [compileS] at h
    obtain ⟨p, s1, h1, h⟩ := CG.bind_ok.1 h
    obtain ⟨rfl, rfl⟩ := CG.pure_ok.1 h
    exact .quiet (genJump_ok h1).1.lines rfl
  | .use =>
    rw [compileS] at h
    obtain ⟨rfl, rfl⟩ := CG.pure_ok.1 h
    exact .quiet rfl rfl
  | .expr e =>
    rw [compileS] at h
    exact absurd h CG.err_ok
termination_by sizeOf st

theorem compileSs_log (g : Globals) (st : List Stmt) (s s' : CS) (a : List Stmt) (h : compileSs g st s = .ok a s')
    (hl : s'.program.length < 2 ^ 32) (hn : (idsL st).Nodup) : Logs g s s' (.ss 0 0 st a) := by
  match st with
  | [] =>
    rw [compileSs] at h
    obtain ⟨rfl, rfl⟩ := CG.pure_ok.1 h
    exact .quiet rfl rfl
  | st :: ss =>
    rw [compileSs] at h
    obtain ⟨a1, s1, h1, h⟩ := CG.bind_ok.1 h
    obtain ⟨a2, s2, h2, h⟩ := CG.bind_ok.1 h
    obtain ⟨rfl, rfl⟩ := CG.pure_ok.1 h
    simp only [idsL, procsL, List.map_append] at hn
    have nd := List.nodup_append.1 hn
    have m1 := compileS_made g st s s1 a1 h1
    have x := (compileSs_made g ss s1 s' a2 h2).1.le
    have q1 := compileS_log g st s s1 a1 h1 (by omega) nd.1
    have q2 := compileSs_log g ss s1 s' a2 h2 hl nd.2.1
    have l1 := m1.len (by omega) nd.1
    simp only [itemFin] at l1
    unfold Logs at q1 q2 ⊢
    simp only [CS.log, Prod.mk.injEq] at q1 q2 ⊢
    rw [q2.1, q2.2, q1.1, q1.2, l1]
    simp only [itemLog, logSs, addLog_append, and_self]
termination_by sizeOf st
end

end Tiny
