import Verif.Spec.Lang

/-!
# More fuel changes nothing
-/

namespace Tiny
open Spec

/-- `y` is `x`, unless `x` is a timeout. -/
def FuelLe {α : Type} (x y : Res α) : Prop := x = .timeout ∨ y = x

theorem FuelLe.refl {α : Type} (x : Res α) : FuelLe x x := .inr rfl

theorem FuelLe.timeout {α : Type} {y : Res α} : FuelLe .timeout y := .inl rfl

theorem FuelLe.bind {α β : Type} {x y : Res α} {f g : α → Res β} (h : FuelLe x y) (hf : ∀ a, FuelLe (f a) (g a)) :
    FuelLe (x >>= f) (y >>= g) := by
  rcases h with rfl | rfl
  · exact .inl rfl
  · cases y with
    | ok a => exact hf a
    | _ => exact .inr rfl

theorem FuelLe.bindR {α β : Type} {x : Res α} {f g : α → Res β} (hf : ∀ a, FuelLe (f a) (g a)) :
    FuelLe (x >>= f) (x >>= g) := FuelLe.bind (.refl x) hf

structure FuelAll (c : Ctx) (n : Nat) : Prop where
  e : ∀ e ρ w, FuelLe (evalE c n e ρ w) (evalE c (n + 1) e ρ w)
  es : ∀ es ρ w, FuelLe (evalList c n es ρ w) (evalList c (n + 1) es ρ w)
  fields : ∀ args fs ρ w, FuelLe (evalNamed c n args fs ρ w) (evalNamed c (n + 1) args fs ρ w)
  call : ∀ f vs w, FuelLe (call c n f vs w) (call c (n + 1) f vs w)
  rhs : ∀ op l r ρ w, FuelLe (evalRhs c n op l r ρ w) (evalRhs c (n + 1) op l r ρ w)
  assign : ∀ op l r ρ w, FuelLe (execAssign c n op l r ρ w) (execAssign c (n + 1) op l r ρ w)
  s : ∀ s ρ w, FuelLe (execS c n s ρ w) (execS c (n + 1) s ρ w)
  ss : ∀ s ρ w, FuelLe (execSs c n s ρ w) (execSs c (n + 1) s ρ w)
  loop : ∀ cond st b ρ w, FuelLe (execLoop c n cond st b ρ w) (execLoop c (n + 1) cond st b ρ w)

theorem fuelAll (c : Ctx) : ∀ n, FuelAll c n
  | 0 => by
    constructor <;> intros <;> left
    · rw [evalE]
    · rw [evalList]
    · rw [evalNamed]
    · rw [call]
    · rw [evalRhs]
    · rw [execAssign]
    · rw [execS]
    · rw [execSs]
    · rw [execLoop]
  | n + 1 => by
    have ih := fuelAll c n
    constructor
    · intro e ρ w
      cases e with
      | null | bool | int | char | float | str => simp only [evalE]; exact .refl _
      | id _ s => cases s <;> (simp only [evalE]; exact .refl _)
      | paren e => rw [evalE, evalE]; exact ih.e _ _ _
      | cast e => rw [evalE, evalE]; exact ih.e _ _ _
      | call f args =>
        rw [evalE, evalE]
        refine (ih.es _ _ _).bind fun a => ?_
        dsimp only
        split
        · exact .refl _
        · exact ih.call _ _ _
      | index a e g s =>
        rw [evalE, evalE]
        refine (ih.e _ _ _).bind fun a => ?_
        refine (ih.e _ _ _).bind fun a => ?_
        dsimp only
        split
        · exact .refl _
        · exact ih.call _ _ _
      | dot l f t =>
        rw [evalE, evalE]
        exact (ih.e _ _ _).bind fun a => .refl _
      | ctor name names args =>
        rw [evalE, evalE]
        split
        · exact .refl _
        split
        · exact .refl _
        split
        · exact (ih.es _ _ _).bind fun a => .refl _
        · exact (ih.fields _ _ _ _).bind fun a => .refl _
      | un op e =>
        cases op <;> rw [evalE, evalE] <;> first | exact .refl _ | exact (ih.e _ _ _).bind fun a => .refl _ | simp
      | bin op l r =>
        by_cases h1 : op = .logAnd
        · subst h1
          rw [evalE, evalE]
          refine (ih.e _ _ _).bind fun a => .bindR fun b => ?_
          split
          · exact ih.e _ _ _
          · exact .refl _
        by_cases h2 : op = .logOr
        · subst h2
          rw [evalE, evalE]
          refine (ih.e _ _ _).bind fun a => .bindR fun b => ?_
          split
          · exact .refl _
          · exact ih.e _ _ _
        rw [evalE, evalE]
        · exact (ih.e _ _ _).bind fun a => (ih.e _ _ _).bind fun b => .refl _
        all_goals assumption
      | ite cond a b =>
        rw [evalE, evalE]
        refine (ih.e _ _ _).bind fun a => .bindR fun b => ?_
        split
        · exact ih.e _ _ _
        · exact ih.e _ _ _
    · intro es ρ w
      cases es with
      | nil => simp only [evalList]; exact .refl _
      | cons e es =>
        rw [evalList, evalList]
        exact (ih.e _ _ _).bind fun a => (ih.es _ _ _).bind fun b => .refl _
    · intro args fs ρ w
      cases fs with
      | nil => simp only [evalNamed]; exact .refl _
      | cons f fs =>
        rw [evalNamed, evalNamed]
        split
        · exact .refl _
        · exact (ih.e _ _ _).bind fun a => (ih.fields _ _ _ _).bind fun b => .refl _
    · intro f vs w
      cases f with
      | foreign i na va => simp only [call]; exact .refl _
      | tiny i =>
        rw [call, call]
        dsimp only
        split
        · exact .refl _
        · split
          · exact (ih.s _ _ _).bind fun a => .refl _
          · exact .refl _
    · intro op l r ρ w
      rw [evalRhs, evalRhs]
      split
      · exact ih.e _ _ _
      · exact (ih.e _ _ _).bind fun a => (ih.e _ _ _).bind fun b => .refl _
    · intro op l r ρ w
      unfold execAssign
      by_cases h1 : op = .declareConst
      · rw [if_pos h1, if_pos h1]; exact .refl _
      rw [if_neg h1, if_neg h1]
      by_cases h2 : op = .equal ∨ op = .declare ∨ (compound op).isSome
      rotate_left
      · rw [if_neg h2, if_neg h2]; exact .refl _
      rw [if_pos h2, if_pos h2]
      split
      · exact (ih.rhs _ _ _ _ _).bind fun a => .refl _
      · exact (ih.rhs _ _ _ _ _).bind fun a => .refl _
      · exact (ih.rhs _ _ _ _ _).bind fun a => (ih.e _ _ _).bind fun a => .refl _
      · refine (ih.e _ _ _).bind fun a => (ih.e _ _ _).bind fun b => (ih.rhs _ _ _ _ _).bind fun x => ?_
        dsimp only
        split
        · exact .refl _
        · exact (ih.call _ _ _).bind fun a => .refl _
      · exact .refl _
    · intro s ρ w
      cases s with
      | node l s => rw [execS, execS]; exact ih.s _ _ _
      | call f args =>
        rw [execS, execS]
        refine (ih.es _ _ _).bind fun a => ?_
        dsimp only
        split
        · exact .refl _
        · exact (ih.call _ _ _).bind fun a => .refl _
      | block ss => rw [execS, execS]; exact ih.ss _ _ _
      | assign => rw [execS, execS]; exact (ih.assign _ _ _ _ _).bind fun a => .refl _
      | proc | brk | cont | use | expr => simp only [execS]; exact .refl _
      | ifThen =>
        rw [execS, execS]
        refine (ih.e _ _ _).bind fun a => .bindR fun b => ?_
        split
        · exact ih.s _ _ _
        · exact .refl _
      | ifElse =>
        rw [execS, execS]
        refine (ih.e _ _ _).bind fun a => .bindR fun b => ?_
        split
        · exact ih.s _ _ _
        · exact ih.s _ _ _
      | «while» => rw [execS, execS]; exact ih.loop _ _ _ _ _
      | «for» =>
        rw [execS, execS]
        refine (ih.s _ _ _).bind fun a => ?_
        obtain ⟨o, ρ1, w1⟩ := a
        cases o with
        | normal => exact ih.loop _ _ _ _ _
        | _ => exact .refl _
      | ret e =>
        cases e with
        | none => rw [execS, execS]; exact .refl _
        | some e => rw [execS, execS]; exact (ih.e _ _ _).bind fun a => .refl _
    · intro s ρ w
      cases s with
      | nil => simp only [execSs]; exact .refl _
      | cons s ss =>
        rw [execSs, execSs]
        refine (ih.s _ _ _).bind fun a => ?_
        obtain ⟨o, ρ1, w1⟩ := a
        cases o with
        | normal => exact ih.ss _ _ _
        | _ => exact .refl _
    · intro cond st b ρ w
      rw [execLoop, execLoop]
      refine (ih.e _ _ _).bind fun a => .bindR fun t => ?_
      split
      rotate_left
      · exact .refl _
      refine (ih.s _ _ _).bind fun a => ?_
      obtain ⟨o, ρ1, w1⟩ := a
      cases o with
      | brk => exact .refl _
      | ret => exact .refl _
      | _ =>
        cases st with
        | none => exact ih.loop _ _ _ _ _
        | some st =>
          refine (ih.s _ _ _).bind fun a => ?_
          obtain ⟨o, ρ1, w1⟩ := a
          cases o with
          | normal => exact ih.loop _ _ _ _ _
          | _ => exact .refl _

theorem FuelLe.many {α : Type} {f : Nat → Res α} (h : ∀ n, FuelLe (f n) (f (n + 1))) {n m : Nat} (hnm : n ≤ m)
    (hn : f n ≠ .timeout) : f m = f n := by
  induction hnm with
  | refl => rfl
  | step _ ih =>
    rcases h _ with h | h
    · exact absurd (ih.symm.trans h) hn
    · exact h.trans ih

theorem evalE_fuel {c : Ctx} {n m : Nat} {e ρ w} (hnm : n ≤ m) (hn : evalE c n e ρ w ≠ .timeout) :
    evalE c m e ρ w = evalE c n e ρ w :=
  FuelLe.many (f := fun n => evalE c n e ρ w) (fun n => (fuelAll c n).e e ρ w) hnm hn

end Tiny
