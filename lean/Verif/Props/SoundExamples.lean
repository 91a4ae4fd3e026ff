import Verif.Props.Sound

/-!
# C37: a program with structs and strings; programs outside the core language
-/

namespace Tiny
open Spec

/-- A new string object. -/
theorem allocStr_ty {Γ : TyEnv} {Φ : HostTypes} (hΦ : HostMono Φ) {S : ObjTypes} {I : VarSym → Prop} {w : World} (h : WorldTy Γ Φ S I w) (b : List UInt8) :
    Later S w.heap S (w.heap.alloc (.str b)).2 ∧ WorldTy Γ Φ S I { w with heap := (w.heap.alloc (.str b)).2 } ∧
      ValTy Φ S (w.heap.alloc (.str b)).2 (.str w.heap.next) .str := by
  have hnew : ∀ o ∈ w.heap.list, o ≠ w.heap.next := fun o ho e => by
    have := h.heap.fresh o ho
    omega
  have lat : Later S w.heap S (w.heap.alloc (.str b)).2 := by
    refine ⟨fun o m e => e, fun o ho => List.mem_cons_of_mem _ ho, fun o b ho e => ?_, fun o a p ho e => ?_⟩
    · simp [Heap.alloc, upd, hnew o ho, e]
    · simp [Heap.alloc, upd, hnew o ho, e]
  refine ⟨lat, ⟨⟨fun o ho => ?_, fun o m e => ?_⟩, fun i t e => ?_⟩, .inr ⟨_, b, rfl, List.mem_cons_self .., by simp [Heap.alloc, upd]⟩⟩
  · rcases List.mem_cons.1 ho with rfl | ho
    · exact Nat.lt_succ_self _
    · exact Nat.lt_succ_of_lt (h.heap.fresh o ho)
  · obtain ⟨a, fs, vs, h1, h2, h3, h4⟩ := h.heap.structs o m e
    refine ⟨List.mem_cons_of_mem _ a, fs, vs, h1, ?_, h3, fun k v f k1 k2 => (h4 k v f k1 k2).mono hΦ lat⟩
    simp [Heap.alloc, upd, hnew o a, h2]
  · obtain ⟨v, h1, h2⟩ := h.globs i t e
    exact ⟨v, h1, fun k => (h2 k).mono hΦ lat⟩

/-!
```
struct P { a : int  b : any }
func g(p : P) : int { return p.a }
q := new P{1, null}
q.b = cat("x", q)
q.a += 3
x := g(q)
```
with a foreign function `cat : (any...) -> str` which allocates its result.
-/

namespace Example2

def nameP : Name := bytes "P"
def nameG : Name := bytes "g"
def nameCat : Name := bytes "cat"
def fields : List (Name × Tag) := [(bytes "a", .int), (bytes "b", .any)]
def tagP : Tag := .named nameP

def p : Expr := .id (bytes "p") (some (.loc (-1)))
def q : Expr := .id (bytes "q") (some (.glob 0))
def x : Expr := .id (bytes "x") (some (.glob 1))

def bodyG : Stmt := .block [.ret (some (.dot p (bytes "a") (some tagP)))]

def prog : List Stmt := [
  .proc 0 1 0 bodyG,
  .assign .declare q (.ctor nameP none [.int 1#32, .null]),
  .assign .equal (.dot q (bytes "b") (some tagP)) (.call nameCat [.str 0, q]),
  .assign .plusEqual (.dot q (bytes "a") (some tagP)) (.int 3#32),
  .assign .declare x (.call nameG [q])]

def varsG : Int → Option Tag := fun i => if i = -1 then some tagP else none

def sigG : Sig := ⟨[tagP], false, .int⟩
def sigCat : Sig := ⟨[], true, .str⟩

def types : TyEnv where
  var := fun s => match s with
    | .glob i => if i = 0 then some tagP else if i = 1 then some .int else none
    | .loc _ => none
    | .const v => some (constTag v)
  func := fun n => if n = nameG then some (.tiny 0, sigG) else if n = nameCat then some (.foreign 0 0 true, sigCat) else none
  fields := fun n => if n = nameP then some fields else none
  body := fun i => if i = 0 then some (varsG, .int) else none
  getIndex := fun _ => []
  setIndex := fun _ => []

/-- The result of `cat`: some string. -/
def cat : Nat → List Value → World → Res (Value × World) := fun _ _ w =>
  .ok (.str w.heap.next, { w with heap := (w.heap.alloc (.str (bytes "xyz"))).2 })

def ctx : Ctx where
  globals := { funcs := fun n => (types.func n).map Prod.fst, structs := types.fields }
  fns := fun i => if i = 0 then some ⟨1, 0, bodyG⟩ else none
  numForeign := 1
  foreign := cat
  fl := Example.fl
  numStrings := 1
  cmem := fun _ => []

open Example (disc ready)

/-- The host has registered no types: names mean structs. -/
def hostTypes : HostTypes := fun n S _ v => ∃ o, v = .struct o ∧ S o = some n

theorem hostMono : HostMono hostTypes := fun _ _ _ _ _ _ ⟨o, h1, h2⟩ l => ⟨o, h1, l.types _ _ h2⟩

theorem funcG : types.func nameG = some (.tiny 0, sigG) := rfl
theorem funcCat : types.func nameCat = some (.foreign 0 0 true, sigCat) := by decide +kernel
theorem fieldsP : types.fields nameP = some fields := rfl

theorem one {Γ : TyEnv} {as : List Expr} {e : Expr} {t : Tag} (h : HasType Γ e t) (ha : as = [e]) :
    ∀ (k : Nat) a t', as[k]? = some a → [t][k]? = some t' → HasType Γ a t' := by
  subst ha
  intro k a t' h1 h2
  cases k with
  | zero => cases h1; cases h2; exact h
  | succ k => simp at h1

theorem two {Γ : TyEnv} {e1 e2 : Expr} {t1 t2 : Tag} (h : HasType Γ e1 t1) (h' : HasType Γ e2 t2) :
    ∀ (k : Nat) a t', [e1, e2][k]? = some a → [t1, t2][k]? = some t' → HasType Γ a t' := by
  intro k a t' h1 h2
  cases k with
  | zero => cases h1; cases h2; exact h
  | succ k => exact one h' rfl k a t' h1 h2

theorem typeA {Γ : TyEnv} {e : Expr} (hf : Γ.fields = types.fields ∧ Γ.hidden = types.hidden) (h : HasType Γ e tagP) :
    HasType Γ (.dot e (bytes "a") (some tagP)) .int := by
  have ht : tagP = Γ.structTag nameP := by unfold TyEnv.structTag; rw [hf.2]; rfl
  rw [ht] at h ⊢
  exact .dot h (by rw [hf.1]; exact fieldsP) (by decide +kernel)

theorem typeB {Γ : TyEnv} {e : Expr} (hf : Γ.fields = types.fields ∧ Γ.hidden = types.hidden) (h : HasType Γ e tagP) :
    HasType Γ (.dot e (bytes "b") (some tagP)) .any := by
  have ht : tagP = Γ.structTag nameP := by unfold TyEnv.structTag; rw [hf.2]; rfl
  rw [ht] at h ⊢
  exact .dot h (by rw [hf.1]; exact fieldsP) (by decide +kernel)

theorem assignable_any {t : Tag} (h : t ≠ .void) : Assignable t .any := .toAny h
theorem assignable_int : Assignable .int .int := .same (by simp) (by simp) (by simp)
theorem assignable_P : Assignable tagP tagP := .same (by simp [tagP]) (by simp [tagP]) (by simp [tagP])

theorem checkedG : Checked (types.enter varsG) (some .int) bodyG := by
  refine .block ?_
  intro s hs
  simp only [List.mem_cons, List.not_mem_nil, or_false] at hs
  subst hs
  exact .ret (typeA ⟨rfl, rfl⟩ (.id rfl)) assignable_int

theorem typeQ : HasType types q tagP := .id rfl

theorem typeNew : HasType types (.ctor nameP none [.int 1#32, .null]) tagP := by
  refine .ctor (fs := fields) (ts := [.int, .any]) fieldsP rfl (two .int .null) (by decide) ?_
  intro k t f h1 h2
  match k with
  | 0 => cases h1; cases h2; exact assignable_int
  | 1 => cases h1; cases h2; exact assignable_any (by simp)
  | k + 2 => simp at h1

theorem typeCat : HasType types (.call nameCat [.str 0, q]) .str := by
  refine .call (sig := sigCat) (ts := [.str, tagP]) funcCat rfl (two .str typeQ) (.inl rfl) ?_
  intro k t f _ h2
  simp [sigCat] at h2

theorem typeG : HasType types (.call nameG [q]) .int := by
  refine .call (sig := sigG) (ts := [tagP]) funcG rfl (one typeQ rfl) (.inr (by decide)) ?_
  intro k t f h1 h2
  match k with
  | 0 => cases h1; cases h2; exact assignable_P
  | k + 1 => simp at h1

theorem checked : Checked types none (.block prog) := by
  refine .block ?_
  intro s hs
  simp only [prog, List.mem_cons, List.not_mem_nil, or_false] at hs
  rcases hs with rfl | rfl | rfl | rfl | rfl
  · exact .proc rfl checkedG
  · exact .declare rfl typeNew (by simp [tagP])
  · exact .assign (.inl rfl) (typeB ⟨rfl, rfl⟩ typeQ) typeCat (assignable_any (by simp))
  · exact .assign (.inr rfl) (typeA ⟨rfl, rfl⟩ typeQ) .int assignable_int
  · exact .declare rfl typeG (by simp)

theorem coreVar {Γ : TyEnv} {I : VarSym → Prop} {n : Name} {s : VarSym} (h : I s) : CoreE Γ disc I (.id n (some s)) := by
  cases s with
  | const v => unfold CoreE; trivial
  | glob i => rw [CoreE] <;> first | exact h | simp
  | loc i => rw [CoreE] <;> first | exact h | simp

theorem coreDot {Γ : TyEnv} {I : VarSym → Prop} {e : Expr} {f : Name} {t : Option Tag} (h : CoreE Γ disc I e) : CoreE Γ disc I (.dot e f t) := by
  rw [CoreE]; exact h

theorem coreLit {I : VarSym → Prop} : CoreE types disc I .null ∧ (∀ i, CoreE types disc I (.int i)) ∧ ∀ i, CoreE types disc I (.str i) := by
  refine ⟨?_, fun i => ?_, fun i => ?_⟩ <;> unfold CoreE <;> trivial

/-- The variables initialized in the end. -/
def done : VarSym → Prop := plus (plus (fun _ => False) (.glob 0)) (.glob 1)

theorem coreProgram : CoreProgram types disc hostTypes ctx 2 prog done where
  funcs := fun _ => rfl
  structs := fun _ => rfl
  consts := fun v t h => (Option.some.inj h).symm
  mono := hostMono
  named := fun _ _ _ _ _ _ _ => Iff.rfl
  «foreign» := by
    intro m i na va sig h
    simp only [types] at h
    split at h
    · cases h
    · split at h
      · cases h
        refine ⟨by decide, rfl, rfl, fun S I w vs hw _ _ _ _ => ?_⟩
        obtain ⟨a, b, d⟩ := allocStr_ty (Γ := types) (Φ := hostTypes) hostMono hw (bytes "xyz")
        exact Good.ok ⟨S, a, b, d⟩
      · cases h
  tiny := by
    intro m i sig h
    simp only [types] at h
    split at h
    · cases h
      refine ⟨rfl, ⟨1, 0, bodyG⟩, varsG, by simp [prog, procsL, procs], rfl, rfl, rfl, ?_, ?_, ⟨_, .cons (.ret fun e h => ?_) .nil⟩, .inr ?_⟩
      · intro k t h
        cases k with
        | zero => cases h; rfl
        | succ k => simp [sigG] at h
      · intro i t h
        unfold varsG at h
        split at h
        · subst i; decide
        · cases h
      · cases h
        exact coreDot (coreVar (.inr ⟨-1, rfl, by decide⟩))
      · exact .inl trivial
    · split at h <;> cases h
  globals := by
    intro i t h
    simp only [types] at h
    split at h
    · subst i; decide
    · split at h
      · subst i; decide
      · cases h
  locals := fun _ => rfl
  flow := by
    have hI : plus (fun _ => False) (.glob 0) (.glob 0) := .inl rfl
    have hq := coreVar (Γ := types) (n := bytes "q") hI
    obtain ⟨l1, l2, l3⟩ := coreLit (I := fun _ => False)
    obtain ⟨m1, m2, m3⟩ := coreLit (I := plus (fun _ => False) (.glob 0))
    refine .cons .proc (.cons (.declare ?_ (by simp)) (.cons (.field hq ?_) (.cons ?_ (.cons (.declare ?_ (by simp)) .nil))))
    · rw [CoreE]
      exact ⟨⟨l2 _, l1, trivial⟩, fields, fieldsP, by decide, rfl⟩
    · rw [CoreE]
      exact ⟨⟨m3 0, hq, trivial⟩, _, _, funcCat, .inr ⟨rfl, by decide⟩, ready⟩
    · exact .compound (o := .plus) rfl (coreDot hq) (m2 _) (typeA ⟨rfl, rfl⟩ typeQ) .int (.ints (by simp)) assignable_int (.inr ⟨_, _, _, rfl⟩)
    · rw [CoreE]
      exact ⟨⟨hq, trivial⟩, _, _, funcG, .inl rfl, ready⟩

/-- What `c37_program` says of it, and what it does. -/
example : (∀ n, Good (runProgram ctx n 2 prog) fun w => ∃ S, WorldTy types hostTypes S done w) ∧
    ∃ w, runProgram ctx 30 2 prog = .ok w ∧ w.globals = [.struct 0, .int 4#64] ∧ w.heap.obj 0 = .struct [.int 4#64, .str 1] :=
  ⟨c37_program coreProgram checked, _, rfl, rfl, rfl⟩

end Example2

/-! ## Outside the core language

Programs the compiler accepts, whose compiled code uses a value as what it is not (in C: undefined behaviour). Each
breaks one rule of `Flow` or `CoreE`. -/

/-- If the source is accepted: the code, the code positions of the functions, the number of global variables, the
number of strings. -/
def accepted (text : String) : Option (List UInt8 × List Nat × Nat × Nat) :=
  match compileAll [text] {} with
  | some ([true], s) => some (s.program, s.functionPcs, s.front.numGlobalVars, s.front.strings.length)
  | _ => none

/-- A machine with this code and no foreign functions. -/
def plainEnv (program : List UInt8) (pcs : List Nat) (strings : Nat) : Env where
  program := program
  functionPcs := pcs
  numForeign := 0
  foreign := fun _ _ w => .ok (.null, w)
  fl := Example.fl
  numStrings := strings

/-- Undefined behaviour. -/
def isUb : Res Thread → Bool
  | .ub => true
  | _ => false

/-- The program is accepted, and running it is undefined behaviour. -/
def GoesWrong (text : String) : Prop :=
  ∃ program pcs globals strings, accepted text = some (program, pcs, globals, strings) ∧
    isUb (run (plainEnv program pcs strings) 200 (startThread globals)) = true

/-- A variable is read before it is initialized: in its own declaration; after a declaration which was not executed. -/
theorem c37_uninitialized : GoesWrong "x : int = x + 1" ∧
    GoesWrong "if false x : int = 5 y := x + 1" :=
  ⟨⟨[32, 44, 44, 44, 0, 0, 0, 0, 27, 31, 44, 44, 0, 0, 0, 0, 43],
    [], 1, 0, by decide +kernel, by decide +kernel⟩,
  ⟨[3, 34, 44, 44, 32, 0, 0, 0, 4, 44, 44, 44, 44, 44, 44, 44, 5, 0, 0, 0, 0, 0, 0, 0, 31, 44, 44, 44, 0, 0, 0, 0, 32, 44, 44, 44, 0, 0, 0, 0, 27, 31, 44, 44, 1, 0, 0, 0, 43],
    [], 2, 0, by decide +kernel, by decide +kernel⟩⟩

/-- A function with a result type need not return anything. -/
theorem c37_no_return : GoesWrong "func f() : int { } x := f() + 1" :=
  ⟨[33, 44, 44, 44, 9, 0, 0, 0, 36, 35, 0, 44, 0, 0, 0, 0, 42, 27, 31, 44, 0, 0, 0, 0, 43],
    [8], 1, 0, by decide +kernel, by decide +kernel⟩

/-- Calls and constructors may have too few arguments. -/
theorem c37_too_few : GoesWrong "func f(a : int) : int { return a + 1 } x := f()" ∧
    GoesWrong "struct P { a : int b : int } p := new P{1} x := p.b + 1" ∧
    GoesWrong "struct P { a : int b : int } p := new P{.b = 1} x := p.b + 1" :=
  ⟨⟨[33, 44, 44, 44, 19, 0, 0, 0, 39, 44, 44, 44, 255, 255, 255, 255, 27, 37, 36, 35, 0, 44, 44, 44, 0, 0, 0, 0, 42, 31, 44, 44, 0, 0, 0, 0, 43],
    [8], 1, 0, by decide +kernel, by decide +kernel⟩,
  ⟨[6, 11, 2, 31, 0, 0, 0, 0, 32, 44, 44, 44, 0, 0, 0, 0, 12, 1, 27, 31, 1, 0, 0, 0, 43],
    [], 2, 0, by decide +kernel, by decide +kernel⟩,
  ⟨[6, 11, 2, 31, 0, 0, 0, 0, 32, 44, 44, 44, 0, 0, 0, 0, 12, 1, 27, 31, 1, 0, 0, 0, 43],
    [], 2, 0, by decide +kernel, by decide +kernel⟩⟩

/-- The operator of a compound assignment is not checked. -/
theorem c37_compound : GoesWrong "s := \"a\" s += \"b\"" :=
  ⟨[10, 0, 31, 44, 0, 0, 0, 0, 32, 44, 44, 44, 0, 0, 0, 0, 10, 1, 14, 31, 0, 0, 0, 0, 43],
    [], 1, 2, by decide +kernel, by decide +kernel⟩

/-- Casts are not checked at run time. -/
theorem c37_cast : GoesWrong "x := cast(cast(true, any), int) + 1" :=
  ⟨[2, 27, 31, 44, 0, 0, 0, 0, 43],
    [], 1, 0, by decide +kernel, by decide +kernel⟩

/-- What the host sees of one call of a function of the program after another. -/
def callTwice (env : Env) (fuel : Nat) (t : Thread) (f g : Nat) : Res (Value × Value) := do
  let (v, t) ← callFunction env fuel t f []
  let (w, _) ← callFunction env fuel t g []
  .ok (v, w)

/-- A program which allocates in two functions, and leaves an object as the result of its last call. -/
def staleSource : String :=
  "struct P { x : int } func one() : int { return 1 } func make() : P { return new P{1} } \
   func f() { one() i := 0 while i < 9 { p := new P{i} i = i + 1 } } \
   func g() { i := 0 while i < 30 { p := new P{i} i = i + 1 } } make()"

/-- The program, started and run to its end. -/
def staleRun (k : Env → Thread → Bool) : Bool :=
  match accepted staleSource with
  | some (p, pcs, g, st) =>
    let env := plainEnv p pcs st
    match run env 400 (startThread g) with
    | .ok t => t.pc < 0 && k env t
    | _ => false
  | none => false

/-- **C24, defect.** `Tiny_CallFunction` puts the old return value back, which the collector did not see as in use
during the call: after `Tiny_Run`, the host may call `f` or `g`; but `f` and then `g` marks an object already freed, which is undefined. -/
theorem c24_stale_result :
    staleRun (fun env t => match callFunction env 2000 t 2 [] with | .ok _ => true | _ => false) = true ∧
    staleRun (fun env t => match callFunction env 2000 t 3 [] with | .ok _ => true | _ => false) = true ∧
    staleRun (fun env t => match callTwice env 2000 t 2 3 with | .ub => true | _ => false) = true := by
  decide +kernel

end Tiny
