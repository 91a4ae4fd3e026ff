import Verif.Props.Crash
import Verif.Props.StdLibExamples

/-!
# C57 with the standard library
-/

namespace Tiny
open Spec

/-- What it does when it succeeds is to bind functions, constants, macros and types. -/
def BindsOnly {α : Type} (x : Act TState α) : Prop := ∀ s a s', x s = .ok a s' → Relation.ReflTransGen Binding s.front s'.front

theorem BindsOnly.bind {α β : Type} {x : Act TState α} {y : α → Act TState β} (hx : BindsOnly x) (hy : ∀ a, BindsOnly (y a)) : BindsOnly (x >>= y) := by
  intro s b s' h
  obtain ⟨a, s1, h1, h2⟩ := Act.ok_inv h
  exact (hx s a s1 h1).trans (hy a s1 b s' h2)

theorem BindsOnly.pure {α : Type} (a : α) : BindsOnly (Pure.pure a : Act TState α) := by
  intro s b s' h
  cases h
  exact .refl

theorem bindsOnly_get : BindsOnly (Act.get : Act TState TState) := by
  intro s b s' h
  cases h
  exact .refl

theorem bindsOnly_register (n : Name) : BindsOnly (onFront (registerType n)) := by
  intro s b s' h
  unfold onFront at h
  cases e : registerType n s.front with
  | ok a f => rw [e] at h; cases h; exact .single (.type e)
  | _ => rw [e] at h; cases h

theorem bindFunction_ok {strtod : List UInt8 → BitVec 64} {x : List UInt8} {s s' : TState} {u : Unit} (h : tinyBindFunction strtod x s = .ok u s') :
    ∃ q, bindSig (x.length + 5) ⟨sourceTokens strtod x, s.front⟩ = .ok () q ∧ s' = { s with front := q.st } := by
  unfold tinyBindFunction at h
  cases e : bindSig (x.length + 5) ⟨sourceTokens strtod x, s.front⟩ with
  | ok a q => rw [e] at h; cases h; exact ⟨q, rfl, rfl⟩
  | err q =>
    rw [e] at h
    simp only at h
    split at h <;> cases h
  | _ => rw [e] at h; cases h

theorem bindsOnly_function (strtod : List UInt8 → BitVec 64) (x : List UInt8) : BindsOnly (tinyBindFunction strtod x) := by
  intro s b s' h
  obtain ⟨q, e, rfl⟩ := bindFunction_ok h
  exact .single (.function e)

theorem bindsOnly_texts (strtod : List UInt8 → BitVec 64) : ∀ xs, BindsOnly (bindTexts strtod xs)
  | [] => .pure ()
  | x :: xs => (bindsOnly_function strtod x).bind fun _ => bindsOnly_texts strtod xs

/-- **C57.** The macro `array` of the standard library is of the kind `MacrosFine` asks for. -/
theorem c57_array (strtod : List UInt8 → BitVec 64) (args : List Name) (a : Option Name) : BindsOnly (arrayMacro strtod args a) := by
  unfold arrayMacro
  split
  · refine bindsOnly_get.bind fun s => ?_
    split
    · exact .pure _
    · split
      · exact .pure _
      · exact (bindsOnly_register _).bind fun _ => (bindsOnly_texts _ _).bind fun _ => .pure _
  · exact .pure _

/-- **C57.** Whatever a host binds of the standard library, the state is one of those from which compiling is safe. -/
theorem c57_std (strtod : List UInt8 → BitVec 64) : ∀ (L : List StdCall) {s s' : TState}, Clean s → runStd strtod L s = .ok () s' → Clean s'
  | [], s, s', hs, h => by cases h; exact hs
  | c :: L, s, s', hs, h => by
    unfold runStd at h
    obtain ⟨u, s1, h1, h2⟩ := Act.ok_inv h
    refine c57_std strtod L ?_ h2
    cases c with
    | type n =>
      unfold StdCall.run onFront at h1
      simp only at h1
      cases e : registerType (nameOf n) s.front with
      | ok a f => rw [e] at h1; cases h1; exact .type hs e
      | _ => rw [e] at h1; cases h1
    | func x =>
      obtain ⟨q, e, rfl⟩ := bindFunction_ok (strtod := strtod) (x := nameOf x) h1
      exact .function hs e
    | «macro» n =>
      unfold StdCall.run onFront at h1
      simp only at h1
      cases e : bindMacro (nameOf n) s.front with
      | ok a f => rw [e] at h1; cases h1; exact .module hs e
      | _ => rw [e] at h1; cases h1
    | constInt n v =>
      unfold StdCall.run onFront at h1
      simp only at h1
      cases e : declareConst (nameOf n) .int (.int v) s.front with
      | ok a f => rw [e] at h1; cases h1; exact .const (v := .int v) hs e
      | err f =>
        rw [e] at h1
        simp only at h1
        split at h1 <;> cases h1
      | _ => rw [e] at h1; cases h1

/-- To check `UsesFine`, one tree is enough. -/
theorem c57_uses {n : Nat} {E : CompileEnv} {ts : List Tk} {s : TState} {xs : List CStmt} {q : PS Front} (h : parseProgram n ⟨ts, s.front⟩ = .ok xs q)
    (hm : MacrosFine E xs { s with nest := s.nest + 1, front := q.st })
    (hk : ∀ t, useMacros E xs { s with nest := s.nest + 1, front := q.st } = .ok () t →
      ∀ k, Makes k xs → (∃ d fs, Sym.struct k d fs ∈ q.st.syms) → ∃ d fs, Sym.struct k d fs ∈ t.front.syms) : UsesFine E ts s := by
  intro n' xs' q' h'
  have key : (Out.ok xs q : Out (PS Front) (List CStmt)) = .ok xs' q' := by
    unfold parseProgram at h h'
    rcases ((parseItems_mono frontOps).le (Nat.le_max_left n n')).1 ⟨ts, s.front⟩ with h1 | h1
    · rw [h] at h1; cases h1
    · rcases ((parseItems_mono frontOps).le (Nat.le_max_right n n')).1 ⟨ts, s.front⟩ with h2 | h2
      · rw [h'] at h2; cases h2
      · rw [← h, h1, ← h2, h']
  cases key
  exact ⟨hm, hk⟩

end Tiny
