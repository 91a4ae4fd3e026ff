import Verif.Props.Delegate
import Verif.Props.StdMacroExamples

/-!
# C59: examples for `delegate`
-/

namespace Tiny
open Spec

namespace DelegateEx

open JsonEx (stOf frOf)

def f1 : Front := frOf (bindFunction (bytes "call_function") [.any] true .any {})
def f2 : Front := frOf (bindFunction (bytes "get_function_index") [.str] false .any f1)

def src : List UInt8 := bytes "func add(a: int, b: int): int { return a + b } func show(a: bool) { } func none() { }"

def s0 : TState := { front := f2 }
def s1 : TState := stOf (compileString plainHost none src s0)

theorem compiled : compileTokens plainHost none (sourceTokens plainHost.strtod src) s0 = .ok true s1 := by kernel_rfl

theorem hist : History s1 := by
  have h0 : History s0 := .bind (.bind .new (f := f1) (n := bytes "call_function") rfl) (f := f2) (n := bytes "get_function_index") rfl
  exact .compile h0 JsonEx.keeps (Session1.tail_of (by decide +kernel) (by decide +kernel)) compiled (by decide +kernel)

theorem no_of {f : Front} {n : Name} (h : f.syms.all (fun x => !IsFuncNamed n x) = true) : NoFunction f n := by
  intro x hx
  have := List.all_eq_true.1 h x hx
  simpa using this

theorem natives : HasDelegateFns s1.front := ⟨⟨0, by kernel_rfl⟩, 1, by kernel_rfl⟩

theorem ident_add : Spelled (bytes "add") (.ident (bytes "add")) := identB_spelled (by decide +kernel)
theorem ident_show : Spelled (bytes "show") (.ident (bytes "show")) := identB_spelled (by decide +kernel)
theorem ident_g : Spelled (bytes "g") (.ident (bytes "g")) := identB_spelled (by decide +kernel)

def fnOf (n : Name) (f : Front) : FuncInfo :=
  match f.syms.find? (IsFuncNamed n) with
  | some (.func fi) => fi
  | _ => { name := [], index := 0 }

theorem add_is : s1.front.syms.find? (IsFuncNamed (bytes "add")) = some (.func (fnOf (bytes "add") s1.front)) := by kernel_rfl
theorem show_is : s1.front.syms.find? (IsFuncNamed (bytes "show")) = some (.func (fnOf (bytes "show") s1.front)) := by kernel_rfl

theorem sig_add : HasSig s1.front (bytes "add") [.int, .int] .int := .inl ⟨_, add_is, by decide +kernel, by decide +kernel⟩
theorem sig_show : HasSig s1.front (bytes "show") [.bool] .void := .inl ⟨_, show_is, by decide +kernel, by decide +kernel⟩

theorem few {f : Front} {n : Name} (h : f.strings.length + 3 ≤ maxStrings) : ¬ TooMany f (DelegateLiteral n) := by
  rintro ⟨new, hd, hn, hlt⟩
  have hsub : new ⊆ [n, bytes "(delegate call function)", bytes "(delegate create function)"] := fun x hx => (hn x hx).2
  have := (List.subperm_of_subset hd hsub).length_le
  simp only [List.length_cons, List.length_nil] at this
  omega

theorem many (n : Name) : ¬ TooMany s1.front (DelegateLiteral n) := few (by decide +kernel)

theorem new_type : ¬ KnownType s1.front (bytes "delegate_int_int_int") := by
  have e : s1.front.syms.find? (IsTypeNamed (bytes "delegate_int_int_int")) = none := by kernel_rfl
  rintro (⟨p, hp, h⟩ | h | ⟨fs, h⟩)
  · revert p; decide
  · rw [Registered, e] at h
    cases h
  · rw [e] at h
    cases h

theorem no_g : NoFunction s1.front (bytes "g") := no_of (by kernel_rfl)
theorem no_call : NoFunction s1.front (callName (bytes "delegate_int_int_int")) := no_of (by kernel_rfl)

theorem named_int (f : Front) : NamedType f .int := .inl ⟨("int", .int), by decide, rfl⟩

attribute [local irreducible] s1 plainHost fnOf in
/-- `use delegate("add") as g`: what `c59_delegate` and `c59_calls` ask for is met; calling what `g()` returns is
calling `add`. -/
example : ∃ (s' : TState) (ps : List (Front × List Stmt)), (∃ N, ∀ k, N ≤ k → delegateMacro { plainHost with fuel := k } [bytes "add"] (some (bytes "g")) s1 = .ok true s') ∧ Session s1 s' ps ∧
    ∀ c env run, MachineOf s' (Spec.program ps) c env → s'.front.strings.length ≤ 256 → (∀ (i : Nat) x, s'.front.strings[i]? = some x → c.cmem i = x) →
      DelegateWorld c s1.front run → (fnOf (bytes "add") s1.front).index < 2 ^ 31 → run (fnOf (bytes "add") s1.front).index [.int 2, .int 3] = (fun w => .ok (.int 5, w)) → ∀ w,
      ∃ G C K d w', c.globals.funcs (bytes "g") = some G ∧ c.globals.funcs (bytes "delegate_int_int_int_call") = some C ∧
        ∀ k, K ≤ k → call c k G [] w = .ok (d, w') ∧ ∃ w2, call c k C [d, .int 2, .int 3] w' = .ok (.int 5, w2) := by
  obtain ⟨f1, sm, s', ps, -, ⟨N, h1⟩, -, -, -, h2, h3⟩ := c59_delegate (E := plainHost) (.host hist) (by decide +kernel) natives ident_add ident_g sig_add
    (fun t ht => by
      have : t = .int := by simpa using ht
      subst this
      exact named_int _) (D := bytes "delegate_int_int_int") (by decide +kernel) new_type no_g no_call (by decide +kernel) (by decide +kernel) (by decide +kernel) (many _)
  refine ⟨s', ps, ⟨N, fun k hk => (h1 k hk).1⟩, h2, fun c env run M h256 hc W hi hr w => ?_⟩
  obtain ⟨a, b⟩ := h3 s' [] _ c env .start (fun x hx => hx) M h256 hc
  obtain ⟨G, C, K, d, w', e1, e2, e3, -, -, e4⟩ := c59_calls W (by decide +kernel) b a add_is hi w
  have en : bytes "delegate_int_int_int_call" = callName (bytes "delegate_int_int_int") := by decide +kernel
  refine ⟨G, C, K, d, w', e1, by rw [en]; exact e2, fun k hk => ⟨e3 k hk, ?_⟩⟩
  obtain ⟨i, e5⟩ := e4 k hk [.int 2, .int 3] w' rfl
  rw [hr] at e5
  simp only [show resultOf .int ≠ none by decide, if_false] at e5
  exact ⟨_, e5⟩

/-- This is what the macro does here. -/
def sa : TState := { s1 with front := frOf (registerType (bytes "delegate_int_int_int") s1.front) }
def callSrc : List UInt8 := bytes "func delegate_int_int_int_call(f: delegate_int_int_int, a0: int, a1: int): int { return cast(call_function(f, a0, a1), int) }"
def createSrc : List UInt8 := bytes "func g(): delegate_int_int_int { return cast(get_function_index(\"add\"), delegate_int_int_int) }"
def sb : TState := stOf (compileString plainHost (some (bytes "(delegate call function)")) callSrc sa)
def s2 : TState := stOf (compileString plainHost (some (bytes "(delegate create function)")) createSrc sb)

theorem registered : registerType (bytes "delegate_int_int_int") s1.front = .ok () sa.front := by kernel_rfl
theorem compiled_call : compileTokens plainHost (some (bytes "(delegate call function)")) (sourceTokens plainHost.strtod callSrc) sa = .ok true sb := by kernel_rfl
theorem compiled_create : compileTokens plainHost (some (bytes "(delegate create function)")) (sourceTokens plainHost.strtod createSrc) sb = .ok true s2 := by kernel_rfl
theorem cur_call : sb.front.currFunc = .none := by decide +kernel
theorem cur_create : s2.front.currFunc = .none := by decide +kernel
theorem tail_call : Tail3 (sourceTokens plainHost.strtod callSrc) := Session1.tail_of (by decide +kernel) (by decide +kernel)
theorem tail_create : Tail3 (sourceTokens plainHost.strtod createSrc) := Session1.tail_of (by decide +kernel) (by decide +kernel)

attribute [local irreducible] s1 s2 sb plainHost callSrc createSrc in
theorem hist2 : History s2 := by
  have h0 : History sa := .register hist registered
  have h1 : History sb := .compile h0 JsonEx.keeps tail_call compiled_call cur_call
  exact .compile h1 JsonEx.keeps tail_create compiled_create cur_create

theorem used : delegateMacro plainHost [bytes "add"] (some (bytes "g")) s1 = .ok true s2 := by kernel_rfl

example : s2.front.syms.filterMap (fun | .func fi => some (fi.name, fi.args.map VarInfo.tag, fi.ret) | _ => none) =
    [(bytes "add", [some .int, some .int], some .int), (bytes "show", [some .bool], some .void), (bytes "none", [], some .void),
     (bytes "delegate_int_int_int_call", [some (.named (bytes "delegate_int_int_int")), some .int, some .int], some .int),
     (bytes "g", [], some (.named (bytes "delegate_int_int_int")))] := by decide +kernel

theorem reg2 : s2.front.syms.find? (IsTypeNamed (delegateType ([.int, .int].map Tag.name) Tag.int.name)) = some (.ftype (delegateType ([.int, .int].map Tag.name) Tag.int.name)) := by kernel_rfl

/-- `c59_nothing` -/
example : delegateMacro plainHost [bytes "add"] (some (bytes "g")) s2 = .ok true s2 :=
  c59_nothing (ts := [.int, .int]) (r := .int) (.inl ⟨fnOf (bytes "add") s2.front, by kernel_rfl, by decide +kernel, by decide +kernel⟩) (.inr (.inl reg2))
    (fun h => by
      have : (fnOf (bytes "g") s2.front).name = bytes "g" := by kernel_rfl
      have := h (.func (fnOf (bytes "g") s2.front)) (List.mem_of_find?_eq_some (p := IsFuncNamed (bytes "g")) (by kernel_rfl))
      simp_all [IsFuncNamed]) (by decide +kernel)

attribute [local irreducible] s2 plainHost fnOf in
/-- `use delegate("add") as h`, after this: `c59_again` -/
example : ∃ s', (∃ N, ∀ k, N ≤ k → delegateMacro { plainHost with fuel := k } [bytes "add"] (some (bytes "h")) s2 = .ok true s') ∧
    HasSig s'.front (bytes "h") [] (.named (bytes "delegate_int_int_int")) := by
  obtain ⟨s', ps, ⟨N, h1⟩, h2, -⟩ := c59_again (E := plainHost) (n := bytes "add") (g := bytes "h") (ts := [.int, .int]) (r := .int) (.host hist2) (by decide +kernel)
    ⟨⟨0, by kernel_rfl⟩, 1, by kernel_rfl⟩ ident_add (identB_spelled (by decide +kernel)) (.inl ⟨fnOf (bytes "add") s2.front, by kernel_rfl, by decide +kernel, by decide +kernel⟩)
    (fun t ht => by
      have : t = .int := by simpa using ht
      subst this
      exact identB_spelled (by decide +kernel)) reg2 (no_of (by kernel_rfl)) (by decide +kernel) (by decide +kernel) (few (by decide +kernel))
  exact ⟨s', ⟨N, fun k hk => (h1 k hk).1⟩, h2⟩

/-- A function without parameters: there is a comma too much in the text, which is allowed. -/
def s3 : TState := stOf (delegateMacro plainHost [bytes "none"] (some (bytes "g")) s1)

example : s3.front.syms.filterMap (fun | .func fi => some (fi.name, fi.args.map VarInfo.tag, fi.ret) | _ => none) =
    [(bytes "add", [some .int, some .int], some .int), (bytes "show", [some .bool], some .void), (bytes "none", [], some .void),
     (bytes "delegate__void_call", [some (.named (bytes "delegate__void"))], some .void),
     (bytes "g", [], some (.named (bytes "delegate__void")))] := by decide +kernel

theorem sig_foreign : HasSig s1.front (bytes "get_function_index") [.str] .any := .inr ⟨1, false, by kernel_rfl⟩

def notProgram (n : Name) (f : Front) : Bool := f.syms.all fun | .func fi => fi.name != n | _ => true

theorem foreign_only : notProgram (bytes "get_function_index") s1.front = true := by kernel_rfl

/-- What `c59_defect_foreign` says of a function of the host. -/
example : ∀ fi, Sym.func fi ∈ s1.front.syms → fi.name ≠ bytes "get_function_index" := by
  intro fi h
  simpa using List.all_eq_true.1 foreign_only _ h

end DelegateEx

end Tiny
