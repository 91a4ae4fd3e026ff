import Verif.Proofs.FreshTree
import Verif.Proofs.Checked
import Verif.Spec.Reached
import Verif.Props.Parse
import Verif.Props.Symbols

/-!
# C47: the type checker accepts exactly the programs which follow the rules

The rules are in `Verif/Spec/Types.lean`: `HasType Γ e t` for expressions, `Checks Γ cur s Γ'` for statements in the
order they are checked, `Checked` for finished programs. `Verif/Spec/TypeTables.lean` says which types and functions
a symbol table stands for (`tyEnv`, `baseEnv`) and what it means that a tree was resolved (`Resolved`, `ResolvedS`).
-/

namespace Tiny
open Spec

/-! ## Tables -/

theorem tables_register {n : Name} {f f' : Front} (ht : Tables f) (h : registerType n f = .ok () f') :
    Tables f' ∧ f'.currFunc = f.currFunc := by
  have hs : Slots f' := runTable_slots (e := .register n) ht.slots h
  unfold registerType at h
  split at h
  · cases h; exact ⟨ht, rfl⟩
  · simp only [act_bind, Act.get] at h
    cases hx : f.syms.find? (fun x => (x.asType n).isSome) with
    | none =>
      rw [hx] at h
      cases h
      refine ⟨⟨hs, ?_, ?_, ?_⟩, rfl⟩
      · intro m t c hm
        exact ht.consts m t c (by simpa using hm)
      · intro fi hm
        exact ht.args fi (by simpa using hm)
      · intro fi hm
        exact ht.rets fi (by simpa using hm)
    | some x =>
      rw [hx] at h
      cases x with
      | struct m d fs =>
        cases d with
        | false =>
          cases h
          obtain ⟨A, B, h1, h2, -⟩ := convertType_split hx
          have hm : ∀ y : Sym, y ≠ .ftype n → y ∈ convertType n f.syms → y ∈ f.syms := by
            intro y hy hm
            rw [h2] at hm
            rw [h1]
            simp only [List.mem_append, List.mem_cons] at hm ⊢
            rcases hm with hm | hm | hm
            · exact .inl hm
            · exact absurd hm hy
            · exact .inr (.inr hm)
          exact ⟨⟨hs, fun m t c h => ht.consts m t c (hm _ (by simp) h), fun fi h => ht.args fi (hm _ (by simp) h),
            fun fi h => ht.rets fi (hm _ (by simp) h)⟩, rfl⟩
        | true => cases h; exact ⟨ht, rfl⟩
      | _ => cases h; exact ⟨ht, rfl⟩

theorem tables_push {f f' : Front} {x : Sym} (ht : Tables f) (hs : Slots f') (e : f'.syms = f.syms ++ [x])
    (h1 : ∀ n t c, x = .const n t c → t = constTag c) (h2 : ∀ fi, x ≠ .func fi) : Tables f' := by
  have hm : ∀ {y : Sym}, y ∈ f'.syms → y ∈ f.syms ∨ y = x := by
    intro y hy
    rw [e] at hy
    simpa using hy
  refine ⟨hs, ?_, ?_, ?_⟩
  · intro n t c h
    rcases hm h with h | h
    · exact ht.consts n t c h
    · exact h1 n t c h.symm
  · intro fi h
    rcases hm h with h | h
    · exact ht.args fi h
    · exact absurd h.symm (h2 fi)
  · intro fi h
    rcases hm h with h | h
    · exact ht.rets fi h
    · exact absurd h.symm (h2 fi)

/-- The tables of a host meet the hypotheses of the theorems below. -/
theorem reached_tables {f : Front} (h : Reached f) : Tables f ∧ f.currFunc = .none := by
  induction h with
  | new => exact ⟨⟨by constructor <;> simp, by simp, by simp, by simp⟩, rfl⟩
  | @bind f f' n as va r _ e ih =>
    have hs : Slots f' := runTable_slots (e := .bind n as va r) ih.1.slots e
    simp only [bindFunction, act_bind, Act.get] at e
    split at e
    · cases e
    · cases e
      exact ⟨tables_push ih.1 hs rfl (by simp) (by simp), ih.2⟩
  | @const f f' n v _ e ih =>
    unfold declareConst at e
    obtain ⟨o, f1, h1, e⟩ := Act.ok_inv e
    rw [referenceVariable_state h1] at e
    cases o with
    | some _ => cases e
    | none =>
      cases e
      exact ⟨tables_push ih.1 (ih.1.slots.push rfl rfl rfl) rfl (by
        intro n t c h
        cases h
        rfl) (by simp), ih.2⟩
  | string _ e ih => exact ⟨(adds_str e).step.tables ih.1, (adds_str e).cur.trans ih.2⟩
  | register _ e ih =>
    obtain ⟨a, b⟩ := tables_register ih.1 e
    exact ⟨a, b.trans ih.2⟩
  | typeName _ e ih => exact ⟨(adds_named e).step.tables ih.1, (adds_named e).cur.trans ih.2⟩
  | @nullable f f' u t _ e ih =>
    have a : Adds f f' := by
      simp only [getOrCreateNullable, act_bind, Act.get] at e
      split at e
      · cases e; exact .refl _
      · cases e; exact adds_push rfl
    exact ⟨a.step.tables ih.1, a.cur.trans ih.2⟩
  | @compile f f' n ts xs q ss _ hp hr ih =>
    obtain ⟨ss', us, nx, rest, s', h1, rfl, h3, h4⟩ := c45_program_sound frontOps hp
    obtain ⟨a, b, c, -⟩ := named_program ih.1 ih.2 (plain_prog h3) h4
    have k := (resolveSs_has xs a c hr).like
    exact ⟨k.tables a, k.cur.trans b⟩

/-! ## C47 -/

/-- **C47**, expressions: the checker accepts an expression, with a type, iff the rules give it that type. -/
theorem c47_expr {f : Front} (ht : Tables f) (e : CExpr) (e' : Expr) (t : Tag) :
    resolveE f e = .ok (e', t) ↔ Resolved f e e' ∧ HasType (tyEnv f) e' t :=
  ⟨fun h => resolveE_has ht e h, fun h => resolveE_complete ht h.2 h.1⟩

/-- Hence an expression has at most one type, and one resolved form. -/
theorem c47_unique {f : Front} (ht : Tables f) {e : CExpr} {e₁ e₂ : Expr} {t₁ t₂ : Tag}
    (h₁ : Resolved f e e₁) (k₁ : HasType (tyEnv f) e₁ t₁) (h₂ : Resolved f e e₂) (k₂ : HasType (tyEnv f) e₂ t₂) :
    e₁ = e₂ ∧ t₁ = t₂ := by
  have a := (c47_expr ht e e₁ t₁).2 ⟨h₁, k₁⟩
  rw [(c47_expr ht e e₂ t₂).2 ⟨h₂, k₂⟩] at a
  cases a
  exact ⟨rfl, rfl⟩

/-- **C47**, statements: the checker accepts a statement iff it follows the rules; afterwards the types are those the
rules give. -/
theorem c47_statement {f : Front} (ht : Tables f) {s : CStmt} (ho : DeclaresOwn s) (s' : Stmt) (Γ' : TyEnv) :
    (∃ f', resolveS s f = .ok s' f' ∧ baseEnv f' = Γ') ↔
      ResolvedS f s s' ∧ Checks (baseEnv f) (curFn f) s' Γ' := by
  constructor
  · rintro ⟨f', h, rfl⟩
    have a := resolveS_has s ht ho h
    exact ⟨a.resolved, a.checks⟩
  · rintro ⟨h, k⟩
    exact resolveS_complete s ht ho h k

/-- **C47**, programs. Of the trees the parser makes, the checker accepts exactly those which follow the rules; and the
accepted program, taken as a whole and in any order, follows the rules for the types its variables have in the end. -/
theorem c47_program {f : Front} (hf : Reached f) {n : Nat} {ts : List Tk} {xs : List CStmt}
    {q : PS Front} (hp : parseProgram n ⟨ts, f⟩ = .ok xs q) :
    (∀ ss' Γ', (∃ f', resolveSs xs q.st = .ok ss' f' ∧ baseEnv f' = Γ') ↔
      ResolvedS q.st (.block xs) (.block ss') ∧ Checks (baseEnv q.st) none (.block ss') Γ') ∧
    (∀ ss' f', resolveSs xs q.st = .ok ss' f' → Checked (baseEnv f') none (.block ss')) := by
  obtain ⟨ht, hc⟩ := reached_tables hf
  obtain ⟨ss, us, nx, rest, s', h1, rfl, h3, h4⟩ := c45_program_sound frontOps hp
  obtain ⟨a, b, c, d⟩ := named_program ht hc (plain_prog h3) h4
  have e : curFn s' = none := by simp [curFn, b]
  constructor
  · intro ss' Γ'
    constructor
    · rintro ⟨f', h, rfl⟩
      have k := resolveSs_has xs a c h
      exact ⟨k.resolved, by rw [← e]; exact k.checks⟩
    · rintro ⟨h, k⟩
      exact resolveSs_complete xs a c h (by rw [e]; exact k)
  · intro ss' f' h
    have k := resolveSs_has xs a c h
    have kc := k.checks
    rw [e] at kc
    have := (kc.checked (d ss' k.resolved)).2 (baseEnv f') (TyLe.refl _)
    have e1 : (baseEnv f').result none = none := rfl
    have e2 : (baseEnv f').at none = baseEnv f' := by
      unfold TyEnv.at
      have : (fun i => (Option.bind none (baseEnv f').body).bind fun b => b.1 i) = (fun _ : Int => (none : Option Tag)) := by
        funext i; rfl
      rw [this]
      exact TyEnv.ext' (fun s => by cases s <;> rfl) (fun _ => rfl) (fun _ => rfl) (fun _ => rfl) (fun _ => rfl) rfl rfl
    rw [e1, e2] at this
    exact this

/-! ## Concrete cases -/

/-- What the checker says about a source, in a new state: the number of statements if it accepts it. -/
def checkSource (text : String) : Option (Option Nat) :=
  match parseProgram 60 ⟨Lexer.stream (fun _ => 0) (text.length + 2) 70 (Lexer.init (bytes text)), {}⟩ with
  | .ok xs q =>
    match resolveSs xs q.st with
    | .ok ss _ => some (some ss.length)
    | _ => some none
  | _ => none

/-- The hypotheses of `c47_program` hold of the sample (a function, a global variable, a call), which the checker
accepts. -/
theorem sample_checked : ∃ xs q ss f', Reached {} ∧ parseProgram 60 ⟨sampleStream, {}⟩ = .ok xs q ∧ xs.length = 3 ∧
    resolveSs xs q.st = .ok ss f' ∧ ss.length = 3 := by
  have h : checkSource "func f(a : int) : int { return a - 1 * 2 } x := 3\nf(x)" = some (some 3) := by decide +kernel
  have e : Lexer.stream (fun _ => 0) ("func f(a : int) : int { return a - 1 * 2 } x := 3\nf(x)".length + 2) 70
      (Lexer.init (bytes "func f(a : int) : int { return a - 1 * 2 } x := 3\nf(x)")) = sampleStream := by decide +kernel
  have e3 : (match parseProgram 60 ⟨sampleStream, {}⟩ with | .ok x _ => x.length | _ => 0) = 3 := by decide +kernel
  unfold checkSource at h
  rw [e] at h
  cases hp : parseProgram 60 ⟨sampleStream, {}⟩ with
  | ok xs q =>
    rw [hp] at h e3
    cases hr : resolveSs xs q.st with
    | ok ss f' =>
      simp only [hr, Option.some.injEq] at h
      exact ⟨xs, q, ss, f', .new, rfl, e3, hr, h⟩
    | _ => simp [hr] at h
  | _ => rw [hp] at h; cases h

/-- So the rules hold of it. -/
example : ∃ ss' Γ', ss'.length = 3 ∧ Checked Γ' none (.block ss') := by
  obtain ⟨xs, q, ss, f', h1, h2, -, h4, h5⟩ := sample_checked
  exact ⟨ss, baseEnv f', h5, (c47_program h1 h2).2 ss f' h4⟩

/-- Programs which parse but break a rule. -/
example : checkSource "func f(a : int) : int { return a } f(1.5)" = some none ∧
    checkSource "func f(a : int) : int { return 2 == a }" = some none ∧
    checkSource "x := 3 x = true" = some none ∧ checkSource "if 1 { }" = some none ∧
    checkSource "struct P { a : int } p := new P{true}" = some none ∧
    checkSource "struct P { a : int } p := new P{4} p.a = 5" = some (some 3) := by decide +kernel

end Tiny
