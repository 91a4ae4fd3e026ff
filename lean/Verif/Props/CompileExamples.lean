import Verif.Props.CompileDefects

/-!
# A program which meets the hypotheses of C20–C24

```
func s(n: int): int { if n <= 0 { return 0 } return n + s(n - 1) }
x := 0
while x < 5 { x += 2  if x == 2 { continue } else { break } }
p(s(x))
```
-/

namespace Tiny.Example
open Spec

def nameS : Name := [115]
def nameP : Name := [112]

def globals : Globals where
  funcs := fun n => if n = nameS then some (.tiny 0) else if n = nameP then some (.foreign 0 1 false) else none

/-- The argument `n` is in slot -1. -/
def n : Expr := .id [110] (some (.loc (-1)))
def x : Expr := .id [120] (some (.glob 0))

def bodyS : Stmt := .block [
  .ifThen (.bin .lte n (.int 0#32)) (.ret (some (.int 0#32))),
  .ret (some (.bin .plus n (.call nameS [.bin .minus n (.int 1#32)])))]

def prog : List Stmt := [
  .node 1 (.proc 0 1 0 bodyS),
  .node 2 (.assign .declare x (.int 0#32)),
  .node 3 (.while (.bin .lt x (.int 5#32)) (.block [
    .assign .plusEqual x (.int 2#32),
    .ifElse (.bin .equals x (.int 2#32)) (.cont 0) (.brk 0)])),
  .node 4 (.call nameP [.call nameS [x]])]

/-- The bytes of the program. -/
def code : List UInt8 := [33, 44, 44, 44, 52, 0, 0, 0, 39, 44, 44, 44, 255, 255, 255, 255, 5, 24, 34, 44, 26, 0, 0, 0, 5, 37,
  39, 44, 255, 255, 255, 255, 39, 44, 44, 44, 255, 255, 255, 255, 28, 35, 1, 44, 0, 0, 0, 0, 42, 14, 37, 36, 5, 31, 44, 44, 0,
  0, 0, 0, 32, 44, 44, 44, 0, 0, 0, 0, 4, 44, 44, 44, 5, 0, 0, 0, 0, 0, 0, 0, 23, 34, 44, 44, 184, 0, 0, 0, 32, 44, 44, 44, 0,
  0, 0, 0, 4, 44, 44, 44, 44, 44, 44, 44, 2, 0, 0, 0, 0, 0, 0, 0, 14, 31, 44, 44, 0, 0, 0, 0, 32, 44, 44, 44, 0, 0, 0, 0, 4, 44,
  44, 44, 44, 44, 44, 44, 2, 0, 0, 0, 0, 0, 0, 0, 29, 34, 44, 44, 168, 0, 0, 0, 33, 44, 44, 44, 60, 0, 0, 0, 33, 44, 44, 44, 176,
  0, 0, 0, 33, 44, 44, 44, 184, 0, 0, 0, 33, 44, 44, 44, 60, 0, 0, 0, 32, 44, 44, 44, 0, 0, 0, 0, 35, 1, 44, 44, 0, 0, 0, 0, 42,
  38, 1, 44, 0, 0, 0, 0, 43]

/-- Some floating point. -/
def fl : FloatOps := ⟨fun a _ => a, fun a _ => a, fun a _ => a, fun a _ => a, id, fun _ _ => true, fun _ _ => true⟩

def ctx : Ctx where
  globals := globals
  fns := fun i => if i = 0 then some ⟨1, 0, bodyS⟩ else none
  numForeign := 1
  foreign := fun _ _ w => .ok (.null, w)
  fl := fl
  numStrings := 0
  cmem := fun _ => []

def env : Env where
  program := code
  functionPcs := [8]
  numForeign := 1
  foreign := fun _ _ w => .ok (.null, w)
  fl := fl

theorem code_length : code.length = 209 := by decide +kernel

theorem sameWorld : SameWorld ctx env where
  fl := rfl
  numForeign := rfl
  foreign := rfl
  numStrings := rfl
  cmem := rfl
  stack := by decide
  fewForeign := by decide
  size := by show code.length < 2 ^ 31; rw [code_length]; decide

set_option maxRecDepth 100000 in
theorem compiled : compileUnits [(globals, 1, prog)] {} =
    .ok () { program := code, functionPcs := [8], lines := [⟨0, none, 1⟩, ⟨52, none, 2⟩, ⟨60, none, 3⟩, ⟨184, none, 4⟩] } := by
  simp (maxSteps := 1000000) [compileUnits, compileState, compileSs, compileS, prog, bodyS, bind, pure, compileE, genJump, genOp,
    genByte, genValue, genGetVar, compileArgs, genCall, setFunctionPc, programCount, patchJump, writeAt, leBytes, alignUp,
    indexBits, genPushInt, globals, nameS, nameP, addLine, addRecord, compileAssign, compileRhs, compileStore,
    Expr.isLhs, Expr.isOne, compoundOp, binOpcode, compileCall, patchBC, patchBCs, n, x]
  rfl

theorem builtFrom : BuiltFrom [(globals, 1, prog)] ctx env where
  toSameWorld := sameWorld
  nonempty := by simp
  globals := by
    intro u hu
    simp only [List.mem_singleton] at hu
    subst hu
    exact ⟨fun _ _ h => h, fun _ _ h => h⟩
  compiled := ⟨_, compiled, rfl, rfl⟩
  fns := by
    intro i fn h
    simp only [ctx] at h
    split at h <;> cases h
    subst i
    simp [allStmts, prog, procsL, procs]
  ids := by simp [allStmts, prog, procsL, procs, bodyS]
  idsFit := by simp [allStmts, prog, procsL, procs, bodyS]

theorem foreignOk : ForeignParametric env := by
  intro i args w w' others hg _ hs
  have hsub : Sub w.heap (Value.null :: w.globals ++ others) (args ++ w.globals ++ others) := by
    intro v hv o ho
    simp only [List.mem_cons, List.mem_append, List.cons_append] at hv
    rcases hv with rfl | hv | hv
    · cases ho
    · exact .root (by simp [hv]) ho
    · exact .root (by simp [hv]) ho
  exact ⟨rfl, hg, ⟨hs.wf.sub hsub, hs.next, hs.natRefs, fun o r => hs.same o (hsub.reach r)⟩⟩

/-- The language says: `p(10)` is called, and `x` is 4 at the end. -/
theorem meaning : runProgram ctx 60 1 (allStmts [(globals, 1, prog)]) =
    .ok { globals := [.int 4#64], trace := [(0, [.int 10#64])] } := by
  rfl

/-- And so it happens. -/
example : (match run env 100 (startThread 1) with
    | .ok t => decide (t.pc = -1 ∧ t.stack = [] ∧ t.world.trace = [(0, [.int 10#64])] ∧ t.world.globals = [.int 4#64])
    | _ => false) = true := by decide +kernel

/-- What `c20_program` says of this program. -/
example : (∃ fuel, run env fuel (startThread 1) = .limit) ∨ MeetsCycle env (startThread 1) ∨
    ∃ fuel t, run env fuel (startThread 1) = .ok t ∧ t.pc < 0 ∧ t.stack = [] ∧ t.frames = [] ∧
      t.world.globals = [.int 4#64] ∧ t.world.trace = [(0, [.int 10#64])] ∧ HeapSim t.world.heap {} t.roots :=
  (c20_program builtFrom foreignOk 1).1 _ _ meaning

set_option maxRecDepth 100000 in
/-- The function `s`, compiled on its own at the start of a program. -/
theorem compiledS : compileS globals (.proc 0 1 0 bodyS) { functionPcs := [0] } =
    .ok (.proc 0 1 0 bodyS) { program := code.take 52, functionPcs := [8] } := by
  simp (maxSteps := 1000000) [compileSs, compileS, bodyS, bind, pure, compileE, genJump, genOp,
    genByte, genValue, genGetVar, compileArgs, genCall, setFunctionPc, programCount, patchJump, writeAt, leBytes, alignUp,
    indexBits, genPushInt, globals, nameS, nameP, Expr.isOne, binOpcode, n]
  rfl

/-- The hypotheses of `c20_expression`, `c22_statement`, `c23_call_compiled`, `c24_call_function`. -/
theorem loaded : Loaded ctx env where
  toSameWorld := sameWorld
  fns := by
    intro i fn h
    simp only [ctx] at h
    split at h <;> cases h
    subst i
    refine ⟨by decide, _, _, _, compiledS, ⟨?_, ?_⟩, ?_, ?_⟩
    · show (code.take 52).length ≤ code.length
      rw [List.length_take]; omega
    · intro k _ hk
      simp only [List.length_take, code_length] at hk
      simp only [env]
      rw [List.getElem?_take, if_pos (by omega)]
    · simp [procsL, procs, bodyS]
    · simp [procsL, procs, bodyS, env]

/-- `c24_call_function` for the call of `s(3)` by the host on a fresh thread. -/
example : call ctx 40 (.tiny 0) [.int 3#64] (startThread 1).world = .ok (.int 6#64, (startThread 1).world) ∧
    WfHeap (startThread 1).world.heap ((startThread 1).retVal :: ((startThread 1).stack ++ [.int 3#64] ++ (startThread 1).world.globals)) ∧
    (match callFunction env 100 (startThread 1) 0 [.int 3#64] with
      | .ok (v, t) => decide (v = .int 6#64 ∧ t.pc = 0 ∧ t.stack = [])
      | _ => false) = true := by
  refine ⟨rfl, ?_, by decide +kernel⟩
  have := startThread_wf 1
  refine Spec.WfHeap.sub this ?_
  intro v hv o ho
  simp only [startThread, List.mem_cons, List.nil_append, List.cons_append, List.mem_replicate] at hv
  rcases hv with rfl | rfl | ⟨_, rfl⟩ <;> cases ho

end Tiny.Example
