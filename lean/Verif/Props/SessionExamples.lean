import Verif.Props.Session
import Verif.Props.SoundExamples
import Verif.Proofs.KernelRfl

/-!
# C48: a session

The host binds the macro `m`. Its source `use m() x := d(3)` uses it, and `m` compiles
`func d(a : int) : int { return a + a }`. Then the host compiles `y := d(true)`, which fails.
-/

namespace Tiny
open Spec

namespace Session1

def inner : List UInt8 := bytes "func d(a : int) : int { return a + a }"
def outer : List UInt8 := bytes "use m() x := d(3)"
def wrong : List UInt8 := bytes "y := d(true)"

def nameM : Name := bytes "m"
def nameD : Name := bytes "d"
def nameX : Name := bytes "x"
def nameA : Name := bytes "a"

/-- The host: `m` compiles `inner`. -/
def host : CompileEnv := { plainHost with macros := fun _ _ _ => compileString plainHost none inner }

def f0 : Front := { syms := [.module nameM] }

theorem setup : Setup f0 := .call .new (.module (n := nameM) rfl)

def symX : Option Tag → Bool → Sym := fun t i => .glob ⟨nameX, 0, 0, false, t, i⟩
def symD : Sym := .func ⟨nameD, 0, [⟨nameA, -1, 0, false, some .int, false⟩], [], some .int⟩

/-- After the parser. -/
def f1 : Front := { syms := [.module nameM, symX none false], numGlobalVars := 1 }

def outerTree : List CStmt := [.node 1 (.use nameM [] none),
  .node 1 (.assign .declare none (.id nameX (some (.glob 1))) (.call nameD [.int 3#32]))]

/-- After `m`. -/
def f2 : Front := { syms := [.module nameM, symX none false, symD], numGlobalVars := 1, numFunctions := 1 }

def code2 : List UInt8 := [33, 44, 44, 44, 27, 0, 0, 0, 39, 44, 44, 44, 255, 255, 255, 255, 39, 44, 44, 44, 255, 255, 255, 255, 14,
  37, 36, 43]

def s2 : TState := { front := f2, program := code2, lines := [⟨0, none, 1⟩, ⟨8, none, 1⟩], functionPcs := [8], nest := 1 }

def innerTree : List CStmt := [.node 1 (.proc 2 nameD [(nameA, .int)] (some .int)
  (.node 1 (.block [.node 1 (.ret (some (.bin .plus (.id nameA (some (.arg 0))) (.id nameA (some (.arg 0))))))])))]

def bodyD : Stmt := .node 1 (.block [.node 1 (.ret (some (.bin .plus (.id nameA (some (.loc (-1)))) (.id nameA (some (.loc (-1)))))))])

def innerProg : List Stmt := [.node 1 (.proc 0 1 0 bodyD)]

def outerProg : List Stmt := [.node 1 .use, .node 1 (.assign .declare (.id nameX (some (.glob 0))) (.call nameD [.int 3#32]))]

/-- After the type checker. -/
def f3 : Front := { f2 with syms := [.module nameM, symX (some .int) false, symD] }

def code3 : List UInt8 := [33, 44, 44, 44, 27, 0, 0, 0, 39, 44, 44, 44, 255, 255, 255, 255, 39, 44, 44, 44, 255, 255, 255, 255, 14,
  37, 36, 4, 44, 44, 44, 44, 3, 0, 0, 0, 0, 0, 0, 0, 35, 1, 44, 44, 0, 0, 0, 0, 42, 31, 44, 44, 0, 0, 0, 0, 43]

def f4 : Front := { f3 with syms := [.module nameM, symX (some .int) true, symD] }

def lines3 : List LineRec := [⟨0, none, 1⟩, ⟨8, none, 1⟩, ⟨27, none, 1⟩]

def s3 : TState := ⟨f4, code3, lines3, [8], [], 0⟩

/-- After the failed compilation: there is a slot which no variable has. -/
def s4 : TState := ⟨{ f4 with numGlobalVars := 2 }, code3, lines3, [8], [], 0⟩

theorem tail_of {src : List UInt8} {strtod : List UInt8 → BitVec 64} (hz : 0 ∉ src)
    (hl : (sourceTokens strtod src).length = src.length + 4) : Tail3 (sourceTokens strtod src) := by
  rcases stream_tail strtod (init_view hz) (fuel := src.length + 2) (m := src.length + 4) (by simp) (by simp) with h | h
  · exact absurd hl (by unfold sourceTokens; omega)
  · exact h

theorem tailInner : Tail3 (sourceTokens plainHost.strtod inner) := tail_of (by decide +kernel) (by decide +kernel)
theorem tailOuter : Tail3 (sourceTokens host.strtod outer) := tail_of (by decide +kernel) (by decide +kernel)
theorem tailWrong : Tail3 (sourceTokens plainHost.strtod wrong) := tail_of (by decide +kernel) (by decide +kernel)


def restOf (n : Nat) (ts : List Tk) (f : Front) : List Tk :=
  match parseProgram n ⟨ts, f⟩ with
  | .ok _ q => q.toks
  | _ => []

theorem parseOuter : parseProgram host.fuel ⟨sourceTokens host.strtod outer, f0⟩ =
    .ok outerTree ⟨restOf host.fuel (sourceTokens host.strtod outer) f0, f1⟩ := by kernel_rfl

theorem parseInner : parseProgram plainHost.fuel ⟨sourceTokens plainHost.strtod inner, f1⟩ =
    .ok innerTree ⟨restOf plainHost.fuel (sourceTokens plainHost.strtod inner) f1, f2⟩ := by kernel_rfl

theorem resolveInner : resolveSs innerTree f2 = .ok innerProg f2 := by kernel_rfl

theorem compileInner : compileTokens plainHost none (sourceTokens plainHost.strtod inner) ⟨f1, [], [], [], [], 1⟩ = .ok true s2 := by
  kernel_rfl

theorem macros : useMacros host outerTree ⟨f1, [], [], [], [], 1⟩ = .ok () s2 := by kernel_rfl

theorem resolveOuter : resolveSs outerTree f2 = .ok outerProg f3 := by kernel_rfl

theorem compileOuter : compileTokens host none (sourceTokens host.strtod outer) ⟨f0, [], [], [], [], 0⟩ = .ok true s3 := by
  kernel_rfl

theorem compileWrong : compileTokens plainHost none (sourceTokens plainHost.strtod wrong) s3 = .ok false s4 := by kernel_rfl

theorem wrongTypes : (match parseProgram plainHost.fuel ⟨sourceTokens plainHost.strtod wrong, f4⟩ with
    | .ok [.node 1 (.assign op ann l r)] q => (match resolveSs [.node 1 (.assign op ann l r)] q.st with | .ok _ _ => false | _ => true)
    | _ => false) = true := by kernel_rfl

/-- What `m` does is a session. -/
theorem nested : Session ⟨f1, [], [], [], [], 1⟩ s2 [(f2, innerProg)] :=
  .compile (ps := []) (ps' := []) .start tailInner parseInner (t := ⟨f2, [], [], [], [], 2⟩) rfl .start resolveInner compileInner

theorem session : Session { front := f0 } s4 [(f2, innerProg), (f3, outerProg)] := by
  have h : Session { front := f0 } s3 [(f2, innerProg), (f3, outerProg)] :=
    .compile (E := host) (s := ⟨f0, [], [], [], [], 0⟩) (t := s2) (ps := []) .start tailOuter parseOuter macros nested resolveOuter compileOuter
  refine .fail (E := plainHost) h tailWrong ?_ compileWrong rfl
  clear h
  intro xs q h
  have := wrongTypes
  rw [show f4 = s3.front from rfl, h] at this
  split at this
  · next e =>
    cases e
    refine ⟨fun a b c d hm => ?_, fun ss f k => ?_⟩
    · simp at hm
    · rw [k] at this; cases this
  · cases this

def prog : List Stmt := program [(f2, innerProg), (f3, outerProg)]

def nothing : Nat → List Value → World → Res (Value × World) := fun _ _ w => .ok (.null, w)

def env : Env := { program := code3, functionPcs := [8], numForeign := 0, «foreign» := nothing, fl := Example.fl, numStrings := 0, cmem := fun _ => [] }

def ctx : Ctx := ⟨globalsOf s4.front, fun i => List.lookup i (procsL prog), 0, nothing, Example.fl, 0, fun _ => []⟩

theorem machine : MachineOf s4 prog ctx env := by
  refine ⟨⟨rfl, rfl, rfl, rfl, rfl, ?_, ?_, ?_⟩, rfl, rfl, rfl, rfl, rfl, lookup_mem ?_, ?_⟩
  · show 128 ≤ 2 ^ 31; decide
  · show 0 ≤ 2 ^ 32; decide
  · show 57 < 2 ^ 31; decide
  · exact (session_start setup session).nodup
  · show 1 ≤ 2 ^ 32; decide

theorem foreignOk : ForeignParametric env := by
  intro i args w w' others hg _ hs
  have hsub : Sub w.heap (Value.null :: w.globals ++ others) (args ++ w.globals ++ others) := by
    intro v hv o ho
    simp only [List.mem_cons, List.mem_append, List.cons_append] at hv
    rcases hv with rfl | hv | hv
    · cases ho
    · exact .root (by simp [hv]) ho
    · exact .root (by simp [hv]) ho
  exact ⟨rfl, hg, ⟨hs.wf.sub hsub, hs.next, hs.natRefs, fun o r => hs.same o (hsub.reach r)⟩⟩

/-- The language says that `x` is 6 at the end. -/
theorem meaning : runProgram ctx 60 2 prog = .ok { globals := [.int 6#64, .null] } := by kernel_rfl

/-- What `c48_run` says. -/
example : (∃ fuel, run env fuel (startThread 2) = .limit) ∨ MeetsCycle env (startThread 2) ∨
    ∃ fuel t, run env fuel (startThread 2) = .ok t ∧ t.pc < 0 ∧ t.stack = [] ∧ t.frames = [] ∧
      t.world.globals = [.int 6#64, .null] ∧ t.world.trace = [] ∧ HeapSim t.world.heap {} t.roots :=
  (c48_run setup session (by simp) machine foreignOk).1 _ _ meaning

/-- The function `d` of the source `m` compiled is called (`c48_function`, `c48_call`). -/
example : ∃ fn, (0, fn) ∈ procsL prog ∧ fn.nargs = 1 :=
  c48_function setup session (n := nameD) (fi := ⟨nameD, 0, [⟨nameA, -1, 0, false, some .int, false⟩], [], some .int⟩) (by kernel_rfl)

example : Checked (baseEnv f3) none (.block outerProg) := (c48_checked setup session (p := (f3, outerProg)) (by simp)).1

theorem funcD : (baseEnv s4.front).func nameD = some (.tiny 0, ⟨[.int], false, .int⟩) := by kernel_rfl

open Example (disc hostTypes ready)

theorem core : CoreSession s4 [(f2, innerProg), (f3, outerProg)] disc hostTypes nothing (plus (fun _ => False) (.glob 0)) where
  mono := fun _ _ _ _ _ _ h => h.elim
  named := fun n fs h => by cases h
  host := by
    intro n i ts va r h
    simp [s4, f4, symX, symD] at h
  fns := by
    intro i fn L r h hb
    simp only [program, innerProg, outerProg, List.flatMap_cons, List.flatMap_nil, procsL, procs, List.append_nil, List.cons_append,
      List.nil_append, List.mem_cons, List.not_mem_nil, or_false, bodyD, Prod.mk.injEq] at h
    obtain ⟨rfl, rfl⟩ := h
    refine ⟨⟨_, .node (.cons (.node (.ret fun x e => ?_)) .nil)⟩, .inr (.inl trivial)⟩
    cases e
    have : ∀ {I : VarSym → Prop}, I (.loc (-1)) → CoreE ((baseEnv s4.front).enter L) disc I (.id nameA (some (.loc (-1)))) := by
      intro I hI
      rw [CoreE]
      · exact hI
      · simp
    rw [CoreE]
    exact ⟨this (.inr ⟨-1, rfl, by decide⟩), this (.inr ⟨-1, rfl, by decide⟩)⟩
  flow := by
    refine .cons (.node .proc) (.cons (.node .use) (.cons (.node (.declare ?_ (by simp))) .nil))
    rw [CoreE]
    refine ⟨⟨?_, trivial⟩, _, _, funcD, .inl rfl, ready⟩
    rw [CoreE] <;> simp

theorem setters (p : Front × List Stmt) (hp : p ∈ [(f2, innerProg), (f3, outerProg)]) : SameSetters (baseEnv p.1) (baseEnv s4.front) := by
  intro t g _
  have key : ∀ n, (baseEnv p.1).func n = (baseEnv s4.front).func n := by
    intro n
    simp only [List.mem_cons, List.not_mem_nil, or_false] at hp
    rcases hp with rfl | rfl <;> rfl
  exact (key _).symm

/-- What `c48_sound` says. -/
example : MeetsCycle env (startThread 2) ∨ ∀ fuel, run env fuel (startThread 2) ≠ .abort ∧ run env fuel (startThread 2) ≠ .ub :=
  (c48_sound setup session (by simp) machine foreignOk core setters (runProgram_defined meaning)).2

end Session1

/-! ## A bound function -/

namespace Session2

def nameP : Name := bytes "p"

def src : List UInt8 := bytes "p(4)"

def f0 : Front := { syms := [.foreign nameP 0 [.int] false .void], numForeign := 1 }

theorem setup : Setup f0 := .call .new (.bind (n := nameP) (as := [.int]) (va := false) (r := .void) rfl)

def s1 : TState := ⟨f0, [4, 44, 44, 44, 44, 44, 44, 44, 4, 0, 0, 0, 0, 0, 0, 0, 38, 1, 44, 44, 0, 0, 0, 0, 43],
  [⟨0, none, 1⟩], [], [some nameP], 0⟩

theorem compiled : compileString plainHost none src { front := f0 } = .ok true s1 := by kernel_rfl

theorem noUse (xs : List CStmt) (q : PS Front) (h : parseProgram plainHost.fuel ⟨sourceTokens plainHost.strtod src, f0⟩ = .ok xs q) : NoUse xs := by
  have : (match parseProgram plainHost.fuel ⟨sourceTokens plainHost.strtod src, f0⟩ with
    | .ok [.node 1 (.call _ _)] _ => true
    | _ => false) = true := by kernel_rfl
  rw [h] at this
  split at this
  · next e =>
    cases e
    intro a b c d hm
    simp at hm
  · cases this

/-- What `c48_source` says: the statements of the source are those of its tree. -/
example : ∃ s' us nx rest tree xs q ss f, sourceTokens plainHost.strtod src = us ++ nx :: rest ∧ nx.kind = .eofTok ∧ ProgIs tree us nx ∧
      nameStmts frontOps tree f0 = .ok xs q ∧ ResolvedS q (.block xs) (.block ss) ∧
      Session { front := f0 } s' [(f, ss)] := by
  exact ⟨s1, c48_source setup .start (by decide +kernel) (by decide +kernel) noUse compiled⟩

theorem session : Session { front := f0 } s1 [(f0, [.node 1 (.call nameP [.int 4#32])])] :=
  .compile (E := plainHost) (s := ⟨f0, [], [], [], [], 0⟩) (t := ⟨f0, [], [], [], [], 1⟩) (ps := []) (ps' := []) .start
    (ts := sourceTokens plainHost.strtod src) (xs := [.node 1 (.call nameP [.int 4#32])])
    (q := ⟨Session1.restOf plainHost.fuel (sourceTokens plainHost.strtod src) f0, f0⟩)
    (Session1.tail_of (by decide +kernel) (by decide +kernel)) (by kernel_rfl) rfl .start (by kernel_rfl) compiled

/-- What `c48_bound` says. -/
example : s1.foreignFns[0]? = some (some nameP) ∧ 0 < s1.front.numForeign :=
  (c48_bound setup session (p := (f0, [.node 1 (.call nameP [.int 4#32])])) (by simp) (n := nameP) (i := 0) (ts := [.int]) (va := false) (r := .void)
    (by simp [f0])).2

end Session2

end Tiny
