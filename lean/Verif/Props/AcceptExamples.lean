import Verif.Props.Accept
import Verif.Props.CrashExamples

/-!
# C58: examples
-/

namespace Tiny
open Spec

/-- It is enough to look at the tree the parser finds. -/
theorem c58_check {n : Nat} {ts : List Tk} {ss : List SStmt} {q : PS Unit} (h : parseItems synOps n ⟨ts, ()⟩ = .ok ss q) (f : Front) :
    ValidTokens f ts ↔ Valid f ss := by
  obtain ⟨ss', us, nx, rest, s', h1, -, h3, h4⟩ := c45_program_sound synOps h
  rw [syn_prog h3] at h4
  cases h4
  constructor
  · rintro ⟨tree, us', nx', rest', e, hp, hv⟩
    cases prog_unique hp h3 (e.symm.trans h1)
    exact hv
  · intro hv
    exact ⟨ss, us, nx, rest, h1, h3, hv⟩

theorem c58_check_use {n : Nat} {ts : List Tk} {ss : List SStmt} {q : PS Unit} (h : parseItems synOps n ⟨ts, ()⟩ = .ok ss q)
    (hu : ∀ line m args a, PStmt.node line (.use m args a) ∉ ss) : WithoutUse ts := by
  intro tree us' nx' rest' e hp
  obtain ⟨ss', us, nx, rest, s', h1, -, h3, h4⟩ := c45_program_sound synOps h
  rw [syn_prog h3] at h4
  cases h4
  cases prog_unique hp h3 (e.symm.trans h1)
  exact hu

namespace Accept1

def host : CompileEnv := { plainHost with fuel := 200 }

theorem keeps : MacrosKeep host := fun _ _ _ s hT hc => ⟨.refl s, Nat.le_refl _, hT, hc⟩

/-! ## A source which is accepted -/

/-- A struct, a function, a loop, a constant, blocks with variables of the same name. -/
def src : List UInt8 := bytes "K :: 3 struct P { x: int y: any } func sum(p: P, n: int): int { s := 0 { t := 1 s += t } { t := 2.0 } for i := 0; i < n; i += 1 { s += p.x } return s } q := new P { .y = null, .x = K } r := sum(q, 4)"

def toks : List Tk := sourceTokens plainHost.strtod src

/-- Decides that there is no `use`. -/
def isUse : SStmt → Bool
  | .node _ (.use _ _ _) => true
  | _ => false

theorem notUse {ss : List SStmt} (h : ss.any isUse = false) : ∀ line m args a, PStmt.node line (.use m args a) ∉ ss := fun line m args a hm => by
  have := List.any_eq_false.1 h _ hm
  exact this rfl

theorem parsed : parseItems synOps 200 ⟨toks, ()⟩ = .ok (Crash1.treeOf toks) (Crash1.restOf toks) := by kernel_rfl

theorem notCrashing : NotCrashing (sourceTokens host.strtod src) := by
  refine c57_check parsed fun hc => ?_
  rw [crashing_iff] at hc
  exact absurd hc (by decide +kernel)

theorem noUse : WithoutUse (sourceTokens host.strtod src) := c58_check_use parsed (notUse (by kernel_rfl))

theorem no_zero : 0 ∉ src := by decide +kernel
theorem lexed : (sourceTokens host.strtod src).length = src.length + 4 := by decide +kernel

attribute [local irreducible] src host toks in
/-- The hypotheses of `c58_source` are met. -/
theorem exact : ∃ N, ∀ n, N ≤ n → match compileString { host with fuel := n } none src {} with
      | .ok true _ => ValidTokens ({} : TState).front (sourceTokens host.strtod src)
      | .ok false _ => ¬ ValidTokens ({} : TState).front (sourceTokens host.strtod src)
      | .abort => TooMany ({} : TState).front fun x => Literal (sourceTokens host.strtod src) x ∨ none = some x
      | _ => False :=
  c58_source (E := host) keeps no_zero lexed .new (fun _ _ _ h => by cases h) (by decide) (by decide) notCrashing noUse

/-- It is accepted. -/
example : Crash1.succeeds (compileString host none src {}) = true := by kernel_rfl

/-! ## A program which is seen to be valid by the rules -/

/-- `x := 1`. -/
def one : List SStmt := [.node 1 (.assign .declare none (.id (bytes "x") ()) (.int 1#32))]

def oneNamed : List CStmt := match nameStmts frontOps one {} with
  | .ok xs _ => xs
  | _ => []

def oneFront : Front := match nameStmts frontOps one {} with
  | .ok _ f => f
  | _ => {}

theorem one_valid : Valid {} one where
  names := by simp [one, ScopedL, Scoped, declaring, Names.Free, namesOf, CastsFine]
  exist := ⟨fun n h => by simp [one, TypesIn, TypeIn, TypeInE] at h, fun n h => by simp [one, Makes, MakesS, MakesE] at h⟩
  typed := by
    have e : nameStmts frontOps one {} = .ok oneNamed oneFront := by kernel_rfl
    refine ⟨oneNamed, oneFront, [.node 1 (.assign .declare (.id (bytes "x") (some (.glob 0))) (.int 1#32))],
      (baseEnv oneFront).declare none (.glob 0) .int, e, ?_, ?_, ?_⟩
    · have e2 : oneNamed = [.node 1 (.assign .declare none (.id (bytes "x") (some (.glob 0))) (.int 1#32))] := by kernel_rfl
      rw [e2]
      refine .cons (.node (.assign (.inl rfl) ?_ .int)) .nil
      exact .id (t := none) (by kernel_rfl)
    · exact .cons (.node (.declare (by simp) .int (by simp))) .nil
    · simp [FitsL, Fits, Storable, FitsTarget, FitsE, compound]

/-! ## What the rules exclude -/

/-- Two global variables of one name. -/
example (f : Front) (n : Name) (l l' : Nat) (e e' : SExpr) (ss : List SStmt) :
    ¬ Valid f (.node l (.assign .declare none (.id n ()) e) :: .node l' (.assign .declare none (.id n ()) e') :: ss) := fun h => by
  have := h.names
  simp [ScopedL, Scoped, Names.after, declaring, Names.Free, Names.var, namesOf] at this

/-- A local variable may have the name of a global one or of an argument. -/
example (N : Names) (φ : FnNames) (h : N.fn = some φ) (n : Name) (hn : n ∉ φ.locals) (e : SExpr) (he : CastsFine e) :
    Scoped N (.assign .declare none (.id n ()) e) := by
  simp [Scoped, declaring, Names.Free, h, hn, he]

/-- `return` outside of functions. -/
example (f : Front) (l : Nat) (e : Option SExpr) : ¬ Valid f [.node l (.ret e)] := fun h => by
  have := h.names
  cases e <;> simp [ScopedL, Scoped, namesOf] at this

/-- A function in a function. -/
example (f : Front) (l l' : Nat) (n n' : Name) (ps ps' : List (Name × SType)) (r r' : Option SType) (b : SStmt) :
    ¬ Valid f [.node l (.proc () n ps r (.node l (.block [.node l' (.proc () n' ps' r' b)])))] := fun h => by
  have := h.names
  simp [ScopedL, Scoped, namesOf, Names.body, Names.enter] at this

/-- A type which does not exist. -/
example (f : Front) (l : Nat) (x n : Name) (q : Bool) (e : SExpr) (hn : ¬ TypeKnown f n) :
    ¬ Valid f [.node l (.assign .equal (some (n, q)) (.id x ()) e)] := fun h => by
  have h1 := h.exist.types n (by simp [TypesIn, TypeIn])
  have e : ((namesOf f).afterL [.node l (.assign .equal (some (n, q)) (.id x ()) e)]).structs = (namesOf f).structs := by
    simp [Names.afterL, Names.after, declaring, Names.var, namesOf]
  rw [e] at h1
  rcases h1 with h1 | h1
  · exact hn h1
  · refine hn (.inr ?_)
    obtain ⟨y, hy, e⟩ := List.mem_filterMap.1 h1
    refine ⟨y, hy, ?_⟩
    cases y <;> simp only [structName, reduceCtorEq] at e
    rename_i m d fs
    cases d <;> simp only [reduceCtorEq, Option.some.injEq] at e
    simp [IsTypeNamed, e]

/-- Rejected sources, one for each group of rules: names, types which exist, types, sizes. -/
example : Crash1.outcome "x := 1 x := 2" = Crash1.outcome "x := 1 x := 2" ∧
    Crash1.succeeds (Crash1.outcome "x := 1 x := 2") = false ∧ Crash1.succeeds (Crash1.outcome "x : Q = null") = false ∧
    Crash1.succeeds (Crash1.outcome "x := 1 + true") = false ∧ Crash1.succeeds (Crash1.outcome "K :: 1 func f() { K = 2 }") = false :=
  ⟨rfl, by kernel_rfl, by kernel_rfl, by kernel_rfl, by kernel_rfl⟩

end Accept1

end Tiny
