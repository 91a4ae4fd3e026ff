import Verif.Props.StdMacro
import Verif.Props.StdLib
import Verif.Props.SessionExamples
import Mathlib.Data.List.Perm.Subperm

/-!
# C56: examples
-/

namespace Tiny
open Spec

namespace JsonEx

/-! ## A state in which `use json("Q")` can be used -/

def stOf {α : Type} : Out TState α → TState
  | .ok _ s => s
  | _ => {}

def frOf {α : Type} : Out Front α → Front
  | .ok _ s => s
  | _ => {}

def f1 : Front := frOf (bindFunction (bytes "strcat") [.str, .str] true .str {})
def f2 : Front := frOf (bindFunction (bytes "int_to_json") [] true .any f1)
def f3 : Front := frOf (bindFunction (bytes "bool_to_json") [] true .any f2)

/-- `Q` has a field of type `P`. -/
def src : List UInt8 := bytes "struct P { x: int y: bool } struct Q { p: P n: int } q := new Q { .p = new P { .x = 1, .y = true }, .n = 2 }"

def s0 : TState := { front := f3 }
def s1 : TState := stOf (compileString plainHost none src s0)

theorem compiled : compileTokens plainHost none (sourceTokens plainHost.strtod src) s0 = .ok true s1 := by kernel_rfl

theorem keeps : MacrosKeep plainHost := fun _ _ _ s hT hc => ⟨.refl s, Nat.le_refl _, hT, hc⟩

theorem hist : History s1 := by
  have h0 : History s0 := .bind (.bind (.bind .new (f := f1) (n := bytes "strcat") rfl) (f := f2) (n := bytes "int_to_json") rfl) (n := bytes "bool_to_json") rfl
  exact .compile h0 keeps (Session1.tail_of (by decide +kernel) (by decide +kernel)) compiled (by decide +kernel)

def fsP : List (Name × Tag) := [(bytes "x", .int), (bytes "y", .bool)]
def fsQ : List (Name × Tag) := [(bytes "p", .named (bytes "P")), (bytes "n", .int)]

theorem typeP : s1.front.syms.find? (IsTypeNamed (bytes "P")) = some (.struct (bytes "P") true fsP) := by kernel_rfl
theorem typeQ : s1.front.syms.find? (IsTypeNamed (bytes "Q")) = some (.struct (bytes "Q") true fsQ) := by kernel_rfl
theorem fnInt : s1.front.syms.find? (IsFuncNamed (jsonFn (bytes "int"))) = some (.foreign (bytes "int_to_json") 1 [] true .any) := by kernel_rfl
theorem fnBool : s1.front.syms.find? (IsFuncNamed (jsonFn (bytes "bool"))) = some (.foreign (bytes "bool_to_json") 2 [] true .any) := by kernel_rfl
theorem noP : NoFunction s1.front (jsonFn (bytes "P")) := by unfold NoFunction; decide +kernel
theorem noQ : NoFunction s1.front (jsonFn (bytes "Q")) := by unfold NoFunction; decide +kernel
theorem strcatIs : HasStrcat s1.front := ⟨0, by kernel_rfl⟩

theorem writable_int : Writable s1.front .int := .known fnInt (.inl ⟨rfl, rfl⟩)
theorem writable_bool : Writable s1.front .bool := .known fnBool (.inl ⟨rfl, rfl⟩)

theorem writable_P : Writable s1.front (.named (bytes "P")) := by
  refine .struct typeP (by decide +kernel) noP (identB_spelled (by decide +kernel)) (by decide) (by decide +kernel) ?_ (by decide +kernel) ?_
  · intro p hp
    simp only [fsP, List.mem_cons, List.not_mem_nil, or_false] at hp
    rcases hp with rfl | rfl <;> exact ⟨identB_spelled (by decide +kernel), identB_spelled (by decide +kernel)⟩
  · intro p hp
    simp only [fsP, List.mem_cons, List.not_mem_nil, or_false] at hp
    rcases hp with rfl | rfl
    · exact writable_int
    · exact writable_bool

theorem writable_Q : Writable s1.front (.named (bytes "Q")) := by
  refine .struct typeQ (by decide +kernel) noQ (identB_spelled (by decide +kernel)) (by decide) (by decide +kernel) ?_ (by decide +kernel) ?_
  · intro p hp
    simp only [fsQ, List.mem_cons, List.not_mem_nil, or_false] at hp
    rcases hp with rfl | rfl <;> exact ⟨identB_spelled (by decide +kernel), identB_spelled (by decide +kernel)⟩
  · intro p hp
    simp only [fsQ, List.mem_cons, List.not_mem_nil, or_false] at hp
    rcases hp with rfl | rfl
    · exact writable_P
    · exact writable_int

/-- The literals, as a list. -/
def literalList (f : Front) : List Name :=
  [bytes "{", bytes "}", bytes ",", bytes "(json mod)"] ++ f.syms.flatMap fun
    | .struct _ true fs => fs.map fun p => jsonKey p.1
    | _ => []

theorem few {f : Front} (h : f.strings.length + (literalList f).length ≤ maxStrings) : ¬ TooMany f (JsonLiteral f) := by
  rintro ⟨new, hd, hn, hlt⟩
  have hsub : new ⊆ literalList f := by
    intro x hx
    rcases (hn x hx).2 with h | ⟨n, fs, p, h1, h2, rfl⟩
    · exact List.mem_append_left _ h
    · exact List.mem_append_right _ (List.mem_flatMap.2 ⟨_, h1, List.mem_map.2 ⟨p, h2, rfl⟩⟩)
  have := (List.subperm_of_subset hd hsub).length_le
  omega

theorem not_many : ¬ TooMany s1.front (JsonLiteral s1.front) := few (by decide +kernel)

attribute [local irreducible] s1 plainHost in
/-- What `c56_json` asks for is met; two functions are compiled. -/
example : ∃ (us : List (Name × List (Name × Tag))) (s' : TState), (∃ K N, ∀ k, K ≤ k → ∀ m, N ≤ m → jsonMacro { plainHost with fuel := m } k [bytes "Q"] none s1 = .ok true s') ∧
    (bytes "Q", fsQ) ∈ us := by
  obtain ⟨us, ps, s', ⟨K, N, h⟩, h2, -⟩ := c56_json (E := plainHost) (.host hist) (by decide +kernel) strcatIs typeQ writable_Q noQ not_many none
  exact ⟨us, s', ⟨K, N, fun k hk m hm => (h k hk m hm).1⟩, h2⟩

/-- This is what the macro does here: the functions `P_to_json` and `Q_to_json` are there. -/
def s2 : TState := stOf (jsonMacro plainHost 5 [bytes "Q"] none s1)

theorem used : jsonMacro plainHost 5 [bytes "Q"] none s1 = .ok true s2 := by kernel_rfl

example : s2.front.syms.filterMap (fun | .func fi => some (fi.name, fi.ret) | _ => none) =
    [(jsonFn (bytes "P"), some .str), (jsonFn (bytes "Q"), some .str)] := by decide +kernel

/-- `c56_again` -/
example : jsonMacro plainHost 7 [bytes "P"] none s2 = .ok true s2 :=
  c56_again (fs := fsP) (by decide +kernel) (by kernel_rfl) (fun h => absurd h (by unfold NoFunction; decide +kernel)) (by decide) none

/-- `c56_not_struct` -/
example : jsonMacro plainHost 7 [bytes "int"] none s1 = .ok false s1 := c56_not_struct (.inl ⟨("int", .int), by decide, rfl⟩) none

/-- `c56_defect_unknown` -/
example : jsonMacro plainHost 7 [bytes "Z"] none s1 = .ub :=
  c56_defect_unknown (fun h => by
    rcases h with ⟨p, hp, h⟩ | h | ⟨fs, h⟩
    · revert p; decide
    · have e : s1.front.syms.find? (IsTypeNamed (bytes "Z")) = none := by kernel_rfl
      rw [Registered, e] at h
      cases h
    · have e : s1.front.syms.find? (IsTypeNamed (bytes "Z")) = none := by kernel_rfl
      rw [e] at h
      cases h) none

/-- `struct A { v: any }`: there is no `any_to_json`. -/
def anyState : TState := { front := { f3 with syms := f3.syms ++ [.struct (bytes "A") true [(bytes "v", .any)]] } }

/-- `c56_flat`: the macro fails. -/
example : ∃ s, jsonMacro plainHost 7 [bytes "A"] none anyState = .ok false s := by
  rw [c56_flat (fs := [(bytes "v", .any)]) (by decide +kernel) (by decide +kernel) (by unfold NoFunction; decide +kernel)
    (fun p hp => by
      rw [List.mem_singleton.1 hp]
      exact .inl ⟨("any", .any), by decide, rfl⟩) (by decide +kernel)]
  have e : (match compileString plainHost (some (bytes "(json mod)")) (jsonSource (bytes "A") (namedFields [(bytes "v", .any)])) anyState with
    | .ok false _ => true
    | _ => false) = true := by kernel_rfl
  cases hx : compileString plainHost (some (bytes "(json mod)")) (jsonSource (bytes "A") (namedFields [(bytes "v", .any)])) anyState with
  | ok b s =>
    rw [hx] at e
    cases b with
    | false => exact ⟨s, rfl⟩
    | true => cases e
  | _ => rw [hx] at e; cases e

/-- `c59_defect_unknown` -/
example : delegateMacro plainHost [bytes "nosuch"] (some (bytes "g")) s1 = .ub := c59_defect_unknown (by unfold NoFunction; decide +kernel)

/-! ## A list -/

/-- `struct L { v: int next: L }` -/
def list : TState := { front := { syms := [.struct (bytes "L") true [(bytes "v", .int), (bytes "next", .named (bytes "L"))]] } }

/-- **C56, defect.** -/
theorem c56_list (E : CompileEnv) (k : Nat) : jsonMacro E k [bytes "L"] none list = .timeout :=
  c56_defect_recursive (L := (· = bytes "L")) (fun n hn => by
    subst hn
    exact ⟨by decide +kernel, by unfold NoFunction; decide +kernel, [(bytes "v", .int)], bytes "next", bytes "L", [], by decide +kernel, by decide +kernel,
      fun q hq => by
        rw [List.mem_singleton.1 hq]
        exact .inl ⟨("int", .int), by decide, rfl⟩, rfl⟩) rfl k none

/-! ## A struct of 80 fields -/

/-- `struct W { a: int aa: int ... }` -/
def wide : TState := { front := { syms := [.struct (bytes "W") true ((List.range 80).map fun i => (List.replicate (i + 1) 97, .int))] } }

/-- **C56, defect.** -/
theorem c56_wide (E : CompileEnv) (k : Nat) : jsonMacro E (k + 2) [bytes "W"] none wide = .ub :=
  c56_defect_long (fs := (List.range 80).map fun i => (List.replicate (i + 1) 97, .int)) (by decide +kernel) (by decide +kernel) (by unfold NoFunction; decide +kernel) (by decide)
    (fun p hp => by
      obtain ⟨i, -, rfl⟩ := List.mem_map.1 hp
      exact .inl ⟨("int", .int), by decide, rfl⟩) (by decide +kernel) none

/-! ## What is written -/

/-- An object of type `Q`, the field `p` of which is an object of type `P`. -/
def heap : Heap := { next := 2, list := [1, 0], obj := fun o => if o = 0 then .struct [.int 1, .bool true] else .struct [.struct 0, .int 2], numObjects := 2 }

attribute [local irreducible] s1 plainHost in
/-- The text of it: `{"p":{"x":1,"y":true},"n":2}`. -/
example : ∃ (ps : List (Front × List Stmt)) (s' : TState), Session s1 s' ps ∧ ∀ c env lit fmtG ofInt, MachineOf s' (Spec.program ps) c env →
    s'.front.strings.length ≤ 256 → (∀ (i : Nat) x, s'.front.strings[i]? = some x → c.cmem i = x) → ForeignIs c 0 (Std.strcat c.cmem) →
    ForeignIs c 1 (Std.primitiveToJson lit fmtG ofInt) → ForeignIs c 2 (Std.primitiveToJson lit fmtG ofInt) →
    (∀ x ∈ [bytes "null", bytes "true", bytes "false"], c.cmem (lit x) = x ++ [0]) → fmtG (ofInt 1) = bytes "1" → fmtG (ofInt 2) = bytes "2" →
    ∃ g, c.globals.funcs (bytes "Q_to_json") = some g ∧ WritesAs c g heap (.struct 1) (bytes "{\"p\":{\"x\":1,\"y\":true},\"n\":2}") := by
  obtain ⟨us, ps, s', -, h2, -, h4, h5, h6, h7⟩ := c56_json (E := plainHost) (.host hist) (by decide +kernel) strcatIs typeQ writable_Q noQ not_many none
  refine ⟨ps, s', h6, ?_⟩
  intro c env lit fmtG ofInt M h256 hc hf0 hf1 hf2 hl e1 e2
  have hP : (bytes "P", fsP) ∈ us := by
    obtain ⟨u, hu, e⟩ := List.mem_map.1 (h5 _ h2 (bytes "p", .named (bytes "P")) (by simp [fsQ]) noP)
    have := (h4 u hu).1
    rw [show u.1 = bytes "P" from e, typeP] at this
    cases u with
    | mk n fs =>
      cases e
      cases this
      exact hu
  obtain ⟨hT, hcur⟩ := atUse_tables (.host hist)
  have gl := globals_le (session_keeps h6 hT hcur).1.syms
  rw [← M.globals] at gl
  have fcat : c.globals.funcs (bytes "strcat") = some (.foreign 0 2 true) := by
    obtain ⟨i, h⟩ := strcatIs
    exact gl.funcs _ _ (by kernel_rfl)
  have fint : c.globals.funcs (jsonFn (bytes "int")) = some (.foreign 1 0 true) := gl.funcs _ _ (by kernel_rfl)
  have fbool : c.globals.funcs (jsonFn (bytes "bool")) = some (.foreign 2 0 true) := gl.funcs _ _ (by kernel_rfl)
  have hall := h7 s' [] _ c env .start (fun x hx => hx) M h256 hc (fun S hS => by
    rw [fcat] at hS
    cases hS
    exact c56_strcat hf0)
  obtain ⟨-, -, -, hint, -⟩ := c56_primitives hf1 hl heap
  obtain ⟨-, htrue, -, -, -⟩ := c56_primitives hf2 hl heap
  have b1 : WritesAs c (.foreign 1 0 true) heap (.int 1) (bytes "1") := e1 ▸ hint 1
  have b2 : WritesAs c (.foreign 1 0 true) heap (.int 2) (bytes "2") := e2 ▸ hint 2
  have ex : bytes "{\"p\":{\"x\":1,\"y\":true},\"n\":2}" =
      jsonObject [(bytes "p", jsonObject [(bytes "x", bytes "1"), (bytes "y", bytes "true")]), (bytes "n", bytes "2")] := by decide +kernel
  have en : bytes "Q_to_json" = jsonFn (bytes "Q") := by decide +kernel
  rw [ex, en]
  refine c56_nested hall (h := heap) (by decide) ?_
  exact .object h2 (by decide) rfl (.cons (.object hP (by decide) rfl (.cons (.base fint b1) (.cons (.base fbool htrue) .nil))) (.cons (.base fint b2) .nil))

end JsonEx

end Tiny
