import Verif.Proofs.SoundRun
import Verif.Props.Compile
import Verif.Proofs.Fuel
import Verif.Props.CompileExamples
import Verif.Props.Types
import Verif.Props.Rollback

/-!
# C37: accepted programs of the core language do not go wrong

The specification is `Verif/Spec/Sound.lean`: what it means that a value has a type, and which programs belong to the core
language. `Good` excludes failed run-time checks (`abort`) and everything about which the language says nothing because
values are not what they are used as (`limit`).
-/

namespace Tiny
open Spec

/-- **C37, expressions.** An accepted expression, evaluated where variables and objects have values of their types, gives a
value of its type, if it ends, and leaves variables and objects with values of their types. -/
theorem c37_expression {Γ : TyEnv} {D : Discipline} {Φ : HostTypes} {c : Ctx} (hs : Setting Γ D Φ c) {L : Int → Option Tag} {I : VarSym → Prop}
    {e : Expr} {t : Tag} (ht : HasType (Γ.enter L) e t) (hc : CoreE (Γ.enter L) D I e) {S : ObjTypes} {w : World} {ρ : Vars}
    (hw : WorldTy Γ Φ S I w) (hl : LocalsTy (Γ.enter L) Φ S I w.heap ρ) (n : Nat) :
    Good (evalE c n e ρ w) fun r => ∃ S', Later S w.heap S' r.2.heap ∧ WorldTy Γ Φ S' I r.2 ∧
      LocalsTy (Γ.enter L) Φ S' I r.2.heap ρ ∧ ValTy Φ S' r.2.heap r.1 t :=
  ((sound_all hs n).e ht hc hw hl).mono fun _ ⟨S', l, a, b⟩ => ⟨S', l, a, hl.later hs.mono l, b⟩

/-- **C37, statements.** If the statement ends normally, the variables in `I'` are initialized; if by `return`, the
value has the result type of the function; only in a loop can it end by `break` or `continue`. -/
theorem c37_statement {Γ : TyEnv} {D : Discipline} {Φ : HostTypes} {c : Ctx} (hs : Setting Γ D Φ c) {L : Int → Option Tag} {I I' : VarSym → Prop}
    {s : Stmt} {loop : Bool} {ret : Option Tag} (ht : Checked (Γ.enter L) ret s) (hc : Flow (Γ.enter L) D loop I s I') {S : ObjTypes} {w : World} {ρ : Vars}
    (hw : WorldTy Γ Φ S I w) (hl : LocalsTy (Γ.enter L) Φ S I w.heap ρ) (n : Nat) :
    Good (execS c n s ρ w) fun r => ∃ S', Later S w.heap S' r.2.2.heap ∧
      (∀ J, (J = I ∨ r.1 = .normal ∧ J = I') → WorldTy Γ Φ S' J r.2.2 ∧ LocalsTy (Γ.enter L) Φ S' J r.2.2.heap r.2.1) ∧
      (r.1 = .brk ∨ r.1 = .cont → loop = true) ∧
      ∀ v, r.1 = .ret v → ∃ t, ret = some t ∧ ValTy Φ S' r.2.2.heap v t :=
  ((sound_all hs n).s ht hc hw hl).mono fun _ ⟨S', l, a, b, d, e, f⟩ => ⟨S', l, fun J k => by
    rcases k with rfl | ⟨k, rfl⟩
    · exact ⟨a, b⟩
    · exact d k, e, f⟩

/-- **C37, functions.** Called with values of the types of its parameters, a function gives a value of its result type. -/
theorem c37_call {Γ : TyEnv} {D : Discipline} {Φ : HostTypes} {c : Ctx} (hs : Setting Γ D Φ c) {I : VarSym → Prop} {name : Name} {f : FnSym} {sig : Sig}
    (hf : Γ.func name = some (f, sig)) (hr : Spec.Ready D I f) {S : ObjTypes} {w : World} {vs : List Value} (hw : WorldTy Γ Φ S I w)
    (hl : vs.length = sig.params.length)
    (hv : ∀ (k : Nat) v t, vs[k]? = some v → sig.params[k]? = some t → ValTy Φ S w.heap v t) (n : Nat) :
    Good (call c n f vs w) fun r => ∃ S', Later S w.heap S' r.2.heap ∧ WorldTy Γ Φ S' I r.2 ∧ ValTy Φ S' r.2.heap r.1 sig.ret :=
  (sound_all hs n).call hf hr (.inl hl) (ValsTy.sane ⟨hl, hv⟩) hv hw

/-! ## Whole programs -/

theorem enter_enter (Γ : TyEnv) (L L' : Int → Option Tag) : (Γ.enter L).enter L' = Γ.enter L' := by
  unfold TyEnv.enter
  congr 1
  funext s
  cases s <;> rfl

theorem enter_none {Γ : TyEnv} (h : ∀ i, Γ.var (.loc i) = none) : Γ.enter (fun _ => none) = Γ := by
  unfold TyEnv.enter
  cases Γ
  congr 1
  funext s
  cases s with
  | loc i => exact (h i).symm
  | _ => rfl

mutual
/-- The functions of an accepted program are accepted. -/
theorem procs_checked {Γ : TyEnv} {i : Nat} {fn : Fn} : ∀ (s : Stmt) {L : Int → Option Tag} {ret : Option Tag}, Checked (Γ.enter L) ret s →
    (i, fn) ∈ procs s → ∃ L r, Γ.body i = some (L, r) ∧ Checked (Γ.enter L) (some r) fn.body
  | .node _ s, L, ret, h, m => by
    cases h with
    | node h => exact procs_checked s h m
  | .block ss, L, ret, h, m => by
    cases h with
    | block h => exact procsL_checked ss h m
  | .proc k na nl b, L, ret, h, m => by
    cases h with
    | @proc _ _ _ _ _ _ L' r h1 h2 =>
      rw [enter_enter] at h2
      rw [procs] at m
      rcases List.mem_cons.1 m with m | m
      · cases m
        exact ⟨L', r, h1, h2⟩
      · exact procs_checked b h2 m
  | .ifThen _ b, L, ret, h, m => by
    cases h with
    | ifThen _ h => exact procs_checked b h m
  | .ifElse _ b a, L, ret, h, m => by
    cases h with
    | ifElse _ h1 h2 =>
      rw [procs] at m
      rcases List.mem_append.1 m with m | m
      · exact procs_checked b h1 m
      · exact procs_checked a h2 m
  | .while _ b, L, ret, h, m => by
    cases h with
    | «while» _ h => exact procs_checked b h m
  | .for x _ y b, L, ret, h, m => by
    cases h with
    | «for» h1 _ h2 h3 =>
      rw [procs] at m
      rcases List.mem_append.1 m with m | m
      · rcases List.mem_append.1 m with m | m
        · exact procs_checked x h1 m
        · exact procs_checked b h3 m
      · exact procs_checked y h2 m
  | .call _ _, _, _, _, m => by simp [procs] at m
  | .assign _ _ _, _, _, _, m => by simp [procs] at m
  | .ret _, _, _, _, m => by simp [procs] at m
  | .brk _, _, _, _, m => by simp [procs] at m
  | .cont _, _, _, _, m => by simp [procs] at m
  | .use, _, _, _, m => by simp [procs] at m
  | .expr _, _, _, _, m => by simp [procs] at m
theorem procsL_checked {Γ : TyEnv} {i : Nat} {fn : Fn} : ∀ (ss : List Stmt) {L : Int → Option Tag} {ret : Option Tag},
    (∀ s ∈ ss, Checked (Γ.enter L) ret s) →
    (i, fn) ∈ procsL ss → ∃ L r, Γ.body i = some (L, r) ∧ Checked (Γ.enter L) (some r) fn.body
  | [], _, _, _, m => by simp [procsL] at m
  | s :: ss, L, ret, h, m => by
    rw [procsL] at m
    rcases List.mem_append.1 m with m | m
    · exact procs_checked s (h s (List.mem_cons_self ..)) m
    · exact procsL_checked ss (fun s k => h s (List.mem_cons_of_mem _ k)) m
end

/-- The functions of an accepted core program are all as `c37_call` wants them. -/
theorem Spec.CoreProgram.setting {Γ : TyEnv} {D : Discipline} {Φ : HostTypes} {c : Ctx} {g : Nat} {prog : List Stmt} {I' : VarSym → Prop}
    (hc : CoreProgram Γ D Φ c g prog I') (ht : Checked Γ none (.block prog)) : Setting Γ D Φ c where
  toSurroundings := hc.toSurroundings
  tiny := by
    intro n i sig h
    obtain ⟨a, fn, L, b, d, e, f⟩ := hc.tiny n i sig h
    refine ⟨a, fn, L, d, f, ?_⟩
    cases ht with
    | block ht =>
      rw [← enter_none hc.locals] at ht
      obtain ⟨L', r, h1, h2⟩ := procsL_checked prog ht b
      rw [e] at h1
      cases h1
      exact h2

/-- **C37, programs.** An accepted program of the core language does not fail a run-time check; at its end the
variables it has initialized have values of their types, and so have the fields of all objects. -/
theorem c37_program {Γ : TyEnv} {D : Discipline} {Φ : HostTypes} {c : Ctx} {g : Nat} {prog : List Stmt} {I' : VarSym → Prop}
    (hc : CoreProgram Γ D Φ c g prog I') (ht : Checked Γ none (.block prog)) (n : Nat) :
    Good (runProgram c n g prog) fun w => ∃ S, WorldTy Γ Φ S I' w := by
  have hs := hc.setting ht
  have ht' := ht
  have hfl := hc.flow
  rw [← enter_none hc.locals] at ht' hfl
  unfold runProgram
  have hw : WorldTy Γ Φ (fun _ => none) (fun _ => False) { globals := List.replicate g .null } := by
    refine ⟨⟨fun o h => (by cases h), fun o n h => (by cases h)⟩, fun i t h => ⟨.null, ?_, fun k => k.elim⟩⟩
    rw [List.getElem?_replicate, if_pos (hc.globals i t h)]
  have hl : LocalsTy (Γ.enter fun _ => none) Φ (fun _ => none) (fun _ => False) ({ globals := List.replicate g .null } : World).heap {} :=
    fun i t h => by cases h
  cases ht' with
  | block ht' =>
    refine ((sound_all hs n).ss ht' hfl hw hl).bind ?_
    rintro ⟨o, ρ, w⟩ ⟨S, -, -, -, h1, h2, h3⟩
    cases o with
    | normal => exact ⟨S, (h1 rfl).1⟩
    | ret v =>
      obtain ⟨t, e, -⟩ := h3 v rfl
      cases e
    | brk => exact absurd (h2 (.inl rfl)) (by simp)
    | cont => exact absurd (h2 (.inr rfl)) (by simp)

theorem run_more {env : Env} {t : Thread} {n : Nat} {r : Res Thread} (h : run env n t = r) (hr : r ≠ .timeout) : ∀ k, run env (n + k) t = r := by
  induction n generalizing t with
  | zero => rw [run] at h; exact absurd h.symm hr
  | succ n ih =>
    intro k
    rw [show n + 1 + k = (n + k) + 1 by omega]
    rw [run] at h ⊢
    cases hc : cycle env t with
    | ok x =>
      rw [hc] at h
      obtain ⟨b, t1⟩ := x
      cases b with
      | true => exact ih h k
      | false => exact h
    | _ => rw [hc] at h; exact h

theorem run_unique {env : Env} {t : Thread} {n m : Nat} {r r' : Res Thread} (h : run env n t = r) (h' : run env m t = r') (hr : r ≠ .timeout) :
    r' = r ∨ r' = .timeout := by
  by_cases hr' : r' = .timeout
  · exact .inr hr'
  · have a := run_more h hr m
    have b := run_more h' hr' n
    rw [Nat.add_comm] at a
    rw [← a, ← b]
    exact .inl rfl

theorem runProgram_fuel (c : Ctx) (g : Nat) (prog : List Stmt) (n : Nat) : FuelLe (runProgram c n g prog) (runProgram c (n + 1) g prog) :=
  FuelLe.bind ((fuelAll c n).ss prog _ _) fun _ => .refl _

/-- A program which ends is defined. -/
theorem runProgram_defined {c : Ctx} {n g : Nat} {prog : List Stmt} {w : World} (h : runProgram c n g prog = .ok w) (m : Nat) :
    runProgram c m g prog ≠ .ub := by
  intro k
  have a := FuelLe.many (f := fun n => runProgram c n g prog) (runProgram_fuel c g prog) (Nat.le_add_right n m) (by simp [h])
  have b := FuelLe.many (f := fun n => runProgram c n g prog) (runProgram_fuel c g prog) (Nat.le_add_left m n) (by simp [k])
  simp only [h, k] at a b
  rw [a] at b
  cases b

/-- **C37, the machine.** The code compiled from an accepted core program: `Tiny_Run` fails no assertion – it ends, or
goes on for ever, or hits a limit of the machine – unless arithmetic goes wrong or the collector meets a cycle (C27). -/
theorem c37_machine {us : List (Globals × Nat × List Stmt)} {c : Ctx} {env : Env} (L : BuiltFrom us c env) (hf : ForeignParametric env)
    {Γ : TyEnv} {D : Discipline} {Φ : HostTypes} {g : Nat} {I' : VarSym → Prop}
    (hc : CoreProgram Γ D Φ c g (allStmts us) I') (ht : Checked Γ none (.block (allStmts us)))
    (hu : ∀ n, runProgram c n g (allStmts us) ≠ .ub) :
    MeetsCycle env (startThread g) ∨ ∀ fuel, run env fuel (startThread g) ≠ .abort ∧ run env fuel (startThread g) ≠ .ub := by
  obtain ⟨h1, -, h3⟩ := c20_program L hf g
  by_cases hn : ∀ n, runProgram c n g (allStmts us) = .timeout
  · right
    intro fuel
    rcases h3 hn fuel with e | e <;> rw [e] <;> simp
  · obtain ⟨n, hn⟩ := Classical.not_forall.1 hn
    have key := c37_program hc ht n
    cases e : runProgram c n g (allStmts us) with
    | timeout => exact absurd e hn
    | ub => exact absurd e (hu n)
    | abort => rw [e] at key; exact key.elim
    | limit => rw [e] at key; exact key.elim
    | ok w =>
      rcases h1 n w e with ⟨m, h⟩ | h | ⟨m, t, h, -⟩
      · right
        intro fuel
        rcases run_unique h rfl (by simp) (m := fuel) with k | k <;> rw [k] <;> simp
      · exact .inl h
      · right
        intro fuel
        rcases run_unique h rfl (by simp) (m := fuel) with k | k <;> rw [k] <;> simp

/-! ## A program which meets the hypotheses

The one of `Verif/Props/CompileExamples.lean`: a recursive function, a loop with `break` and `continue`, a foreign
function. -/

namespace Example

/-- The variables of `s`. -/
def varsS : Int → Option Tag := fun i => if i = -1 then some .int else none

def types : TyEnv where
  var := fun s => match s with
    | .glob i => if i = 0 then some .int else none
    | .loc _ => none
    | .const v => some (constTag v)
  func := fun n => if n = nameS then some (.tiny 0, ⟨[.int], false, .int⟩)
    else if n = nameP then some (.foreign 0 1 false, ⟨[.int], false, .void⟩) else none
  fields := fun _ => none
  body := fun i => if i = 0 then some (varsS, .int) else none
  getIndex := fun _ => []
  setIndex := fun _ => []

/-- No function of the program reads a variable it has not assigned. -/
def disc : Discipline := ⟨fun _ => False, fun _ => False⟩

def hostTypes : HostTypes := fun _ _ _ _ => False

theorem ready {I : VarSym → Prop} {f : FnSym} : Spec.Ready disc I f := fun _ _ h => h.elim

theorem lit {Γ : TyEnv} {i : BitVec 32} : HasType Γ (.int i) .int := .int

theorem callS {L : Int → Option Tag} {e : Expr} (h : HasType (types.enter L) e .int) : HasType (types.enter L) (.call nameS [e]) .int := by
  refine .call (f := .tiny 0) (sig := ⟨[.int], false, .int⟩) (ts := [.int]) rfl rfl ?_ (.inr (by simp)) ?_
  · intro k a t h1 h2
    cases k with
    | zero => cases h1; cases h2; exact h
    | succ k => simp at h1
  · intro k t p h1 h2
    cases k with
    | zero => cases h1; cases h2; exact .same (by simp) (by simp) (by simp)
    | succ k => simp at h1

theorem coreCallS {Γ : TyEnv} (hΓ : Γ.func nameS = some (.tiny 0, ⟨[.int], false, .int⟩)) {I : VarSym → Prop} {e : Expr} (h : CoreE Γ disc I e) :
    CoreE Γ disc I (.call nameS [e]) := by
  rw [CoreE]
  exact ⟨⟨h, trivial⟩, _, _, hΓ, .inl rfl, ready⟩

theorem checkedS : Checked (types.enter varsS) (some .int) bodyS := by
  have hn : HasType (types.enter varsS) n .int := .id rfl
  refine .block ?_
  intro s hs
  simp only [List.mem_cons, List.not_mem_nil, or_false] at hs
  rcases hs with rfl | rfl
  · exact .ifThen (.bin hn lit (.order (by simp) .int .int)) (.ret lit (.same (by simp) (by simp) (by simp)))
  · exact .ret (.bin hn (callS (.bin hn lit (.ints (by simp)))) (.ints (by simp))) (.same (by simp) (by simp) (by simp))

theorem flowS {I : VarSym → Prop} (hI : I (.loc (-1))) : Flow (types.enter varsS) disc false I bodyS fun _ => True := by
  have hn : CoreE (types.enter varsS) disc I n := by
    show CoreE _ _ _ (.id _ (some (.loc (-1))))
    rw [CoreE]
    · exact hI
    · simp
  have hl : ∀ {i : BitVec 32}, CoreE (types.enter varsS) disc I (.int i) := by intro i; unfold CoreE; trivial
  refine .cons (.ifThen ?_ (.ret fun x e => ?_)) (.cons (.ret fun x e => ?_) .nil)
  · rw [CoreE]; exact ⟨hn, hl⟩
  · cases e; exact hl
  · cases e
    rw [CoreE]
    refine ⟨hn, coreCallS rfl ?_⟩
    rw [CoreE]
    exact ⟨hn, hl⟩

theorem checked : Checked types none (.block prog) := by
  have hx : HasType (types.enter fun _ => none) x .int := .id rfl
  have he : types.enter (fun _ => none) = types := enter_none fun _ => rfl
  refine .block ?_
  intro s hs
  simp only [prog, List.mem_cons, List.not_mem_nil, or_false] at hs
  rcases hs with rfl | rfl | rfl | rfl
  · exact .node (.proc rfl checkedS)
  · exact .node (.declare rfl lit (by simp))
  · rw [he] at hx
    refine .node (.while (.bin hx lit (.order (by simp) .int .int)) (.block ?_))
    intro s hs
    simp only [List.mem_cons, List.not_mem_nil, or_false] at hs
    rcases hs with rfl | rfl
    · exact .assign (.inr rfl) hx lit (.same (by simp) (by simp) (by simp))
    · exact .ifElse (.bin hx lit (.equality (by simp) (by simp) (by simp))) .cont .brk
  · have := callS hx
    rw [he] at this
    refine .node (.call (.call (f := .foreign 0 1 false) (sig := ⟨[.int], false, .void⟩) (ts := [.int]) rfl rfl ?_ (.inr (by simp)) ?_))
    · intro k a t h1 h2
      cases k with
      | zero => cases h1; cases h2; exact this
      | succ k => simp at h1
    · intro k t p h1 h2
      cases k with
      | zero => cases h1; cases h2; exact .same (by simp) (by simp) (by simp)
      | succ k => simp at h1

theorem coreX {I : VarSym → Prop} (h : I (.glob 0)) : CoreE types disc I x := by
  show CoreE _ _ _ (.id _ (some (.glob 0)))
  rw [CoreE]
  · exact h
  · simp

theorem coreLit {I : VarSym → Prop} {i : BitVec 32} : CoreE types disc I (.int i) := by unfold CoreE; trivial

theorem coreProgram : CoreProgram types disc hostTypes ctx 1 prog (plus (fun _ => False) (.glob 0)) where
  funcs := by
    intro m
    simp only [ctx, globals, types]
    split
    · rfl
    · split <;> rfl
  structs := fun _ => rfl
  consts := fun v t h => (Option.some.inj h).symm
  mono := fun _ _ _ _ _ _ h => h.elim
  named := fun _ _ h => by cases h
  «foreign» := by
    intro m i na va sig h
    simp only [types] at h
    split at h
    · cases h
    · split at h
      · cases h
        refine ⟨by decide, rfl, rfl, fun S I w vs hw _ _ _ _ => ?_⟩
        exact Good.ok ⟨S, .refl _ _, hw, trivial⟩
      · cases h
  tiny := by
    intro m i sig h
    simp only [types] at h
    split at h
    · cases h
      refine ⟨rfl, ⟨1, 0, bodyS⟩, varsS, by simp [prog, procsL, procs], rfl, rfl, rfl, ?_, ?_, ⟨_, flowS (.inr ⟨-1, rfl, by decide⟩)⟩, .inr ?_⟩
      · intro k t h
        cases k with
        | zero => cases h; rfl
        | succ k => simp at h
      · intro i t h
        unfold varsS at h
        split at h
        · subst i; decide
        · cases h
      · exact .inr (.inl trivial)
    · split at h <;> cases h
  globals := by
    intro i t h
    simp only [types] at h
    split at h
    · subst i; decide
    · cases h
  locals := fun _ => rfl
  flow := by
    have hI : plus (fun _ => False) (.glob 0) (.glob 0) := .inl rfl
    refine .cons (.node .proc) (.cons (.node (.declare coreLit (by simp))) (.cons (.node (.while (I₁ := fun _ => True) ?_ ?_)) (.cons (.node (.call ?_)) .nil)))
    · rw [CoreE]; exact ⟨coreX hI, coreLit⟩
    · refine .cons (.compound (o := .plus) (tl := .int) (tr := .int) (t := .int) rfl (coreX hI) coreLit (.id rfl) .int (.ints (by simp))
        (.same (by simp) (by simp) (by simp)) (.inl ⟨_, _, rfl, by simp⟩)) (.cons (I₁ := fun _ => True ∧ True) (.ifElse ?_ .cont .brk) ?_)
      · rw [CoreE]; exact ⟨coreX hI, coreLit⟩
      · simp only [and_self]; exact .nil
    · rw [CoreE]
      exact ⟨⟨coreCallS rfl (coreX hI), trivial⟩, _, _, rfl, .inl rfl, ready⟩

/-- What `c37_machine` says about it. -/
example : MeetsCycle env (startThread 1) ∨ ∀ fuel, run env fuel (startThread 1) ≠ .abort ∧ run env fuel (startThread 1) ≠ .ub := by
  have e : allStmts [(globals, 1, prog)] = prog := by simp [allStmts]
  refine c37_machine builtFrom foreignOk (Γ := types) (D := disc) (Φ := hostTypes) (I' := plus (fun _ => False) (.glob 0)) ?_ ?_ ?_
  · rw [e]; exact coreProgram
  · rw [e]; exact checked
  · exact runProgram_defined meaning

end Example

end Tiny
