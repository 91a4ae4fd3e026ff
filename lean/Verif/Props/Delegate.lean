import Verif.Proofs.DelegateFns
import Verif.Props.StdMacro
import Verif.Props.StdLib

/-!
# C59: the macro `delegate`
-/

namespace Tiny
open Spec

/-! ## Types and functions after a type is registered -/

theorem no_type {f : Front} {n : Name} (h : ¬ KnownType f n) : findTypeSymbol n f = none := by
  have hb : ∀ p ∈ builtinTypes, bytes p.1 ≠ n := fun p hp e => h (.inl ⟨p, hp, e⟩)
  unfold findTypeSymbol
  simp only [prim_none.2 hb, type_named]
  cases hx : f.syms.find? (IsTypeNamed n) with
  | none => rfl
  | some x =>
    have hn := List.find?_some hx
    cases x with
    | ftype m =>
      have : m = n := by simpa [IsTypeNamed] using hn
      exact (h (.inr (.inl (this ▸ hx)))).elim
    | struct m d fs =>
      have : m = n := by simpa [IsTypeNamed] using hn
      subst this
      cases d with
      | true => exact (h (.inr (.inr ⟨fs, hx⟩))).elim
      | false => rfl
    | _ => cases hn

theorem a_type {f : Front} {n : Name} (h : KnownType f n) : (findTypeSymbol n f).isSome := by
  by_cases hb : ∀ p ∈ builtinTypes, bytes p.1 ≠ n
  · rcases h with ⟨p, hp, e⟩ | h | ⟨fs, h⟩
    · exact (hb p hp e).elim
    · rw [Registered] at h
      unfold findTypeSymbol
      simp only [prim_none.2 hb, type_named, h]
      simp [Sym.asType]
    · unfold findTypeSymbol
      simp only [prim_none.2 hb, type_named, h]
      simp [Sym.asType]
  · unfold findTypeSymbol
    cases hq : primTag n with
    | some t => rfl
    | none => exact (hb (prim_none.1 hq)).elim

theorem registers_find {f f' : Front} {n m : Name} (h : Registers f n f') : f'.syms.find? (IsFuncNamed m) = f.syms.find? (IsFuncNamed m) := by
  rcases h with ⟨-, rfl⟩ | ⟨A, B, fs, h, -, rfl⟩
  · simp [List.find?_append, IsFuncNamed]
  · simp [h, List.find?_append, IsFuncNamed]

theorem registers_type {f f' : Front} {n m : Name} (h : Registers f n f') (hm : (f.syms.find? (IsTypeNamed m)).isSome) : (f'.syms.find? (IsTypeNamed m)).isSome := by
  rw [List.find?_isSome] at hm ⊢
  obtain ⟨x, hx, hm⟩ := hm
  rcases h with ⟨-, rfl⟩ | ⟨A, B, fs, h, -, rfl⟩
  · exact ⟨x, List.mem_append_left _ hx, hm⟩
  · rw [h, List.mem_append, List.mem_cons] at hx
    rcases hx with hx | rfl | hx
    · exact ⟨x, by simp [hx], hm⟩
    · exact ⟨.ftype n, by simp, hm⟩
    · exact ⟨x, by simp [hx], hm⟩

theorem registers_same {f f' : Front} {n : Name} (h : Registers f n f') : f'.strings = f.strings ∧ f'.currFunc = f.currFunc ∧ f'.numFunctions = f.numFunctions := by
  rcases h with ⟨-, rfl⟩ | ⟨A, B, fs, h, -, rfl⟩ <;> exact ⟨rfl, rfl, rfl⟩

theorem registers_named {f f' : Front} {n : Name} {t : Tag} (h : Registers f n f') (ht : NamedType f t) : NamedType f' t := by
  rcases ht with ht | ⟨m, rfl, h1, h2, h3⟩
  · exact .inl ht
  · exact .inr ⟨m, rfl, h1, h2, registers_type h h3⟩

theorem named_ident {f : Front} {t : Tag} (h : NamedType f t) : IsIdent t.name := by
  rcases h with ⟨p, hp, rfl⟩ | ⟨n, rfl, h, -⟩
  · simp only [builtinTypes, List.mem_cons, List.not_mem_nil, or_false] at hp
    rcases hp with rfl | rfl | rfl | rfl | rfl | rfl <;> exact identB_spelled (by decide +kernel)
  · exact h

theorem named_means {f : Front} {t : Tag} (h : NamedType f t) : Means f t.name t := by
  rcases h with ⟨p, hp, rfl⟩ | ⟨n, rfl, -, h, h'⟩
  · left
    simp only [builtinTypes, List.mem_cons, List.not_mem_nil, or_false] at hp
    rcases hp with rfl | rfl | rfl | rfl | rfl | rfl <;> decide +kernel
  · right
    refine ⟨prim_none.2 h, ?_⟩
    rw [findSome_named]
    obtain ⟨x, hx⟩ := Option.isSome_iff_exists.1 h'
    show Option.map _ (List.find? (IsTypeNamed n) _) = _
    rw [hx]
    rfl

theorem named_assignable {f : Front} {t : Tag} (h : NamedType f t) (hv : t ≠ .void) : isTagAssignableTo t t = true := by
  rcases h with ⟨p, hp, rfl⟩ | ⟨n, rfl, -, h, h'⟩
  · simp only [builtinTypes, List.mem_cons, List.not_mem_nil, or_false] at hp
    rcases hp with rfl | rfl | rfl | rfl | rfl | rfl <;> first | decide | exact (hv rfl).elim
  · simp [isTagAssignableTo]

theorem registers_means {f f' : Front} {n : Name} (h : Registers f n f') (hb : ∀ p ∈ builtinTypes, bytes p.1 ≠ n) : Means f' n (.named n) := by
  have := registers_registered h
  rw [Registered] at this
  refine .inr ⟨prim_none.2 hb, ?_⟩
  rw [findSome_named, this]
  rfl

/-! ## What the functions do -/

theorem call_foreign {c : Ctx} {i a : Nat} {va : Bool} {vs : List Value} {w : World} (n m : Nat) : call c (n + 1) (.foreign i a va) vs w = call c (m + 1) (.foreign i a va) vs w := by
  rw [call, call]

theorem call_passes {c : Ctx} {D : Name} {ts : List Tag} {r : Option Tag} {i j : Nat} (hf : c.fns i = some ⟨ts.length + 1, 0, .node 1 (.block [.node 1 (callBody D ts r)])⟩)
    (hc : c.globals.funcs (bytes "call_function") = some (.foreign j 1 true)) {k : Nat} (hk : ts.length + 12 ≤ k) (d : Value) {vs : List Value} (hv : vs.length = ts.length) (w : World) :
    call c k (.tiny i) (d :: vs) w = match call c k (.foreign j 1 true) (d :: vs) w with
      | .ok (v, w') => .ok (if r = none then .null else v, w')
      | e => e := by
  obtain ⟨k, rfl⟩ : ∃ m, k = m + 9 := ⟨k - 9, by omega⟩
  have hl : (callParams D ts).length = (d :: vs).length := by simp [callParams, delegateTags_length, hv]
  have ev : ∀ n, ts.length + 2 < n → evalList c n (passed (callParams D ts).length 0 (callParams D ts)) ⟨d :: vs, []⟩ w = .ok (d :: vs, w) := by
    intro n hn
    refine eval_passed hl.symm w _ 0 n (by simp) ?_
    rw [hl]
    simp [hv, hn]
  rw [call.eq_def]
  simp only [hf, List.length_cons, hv, if_true]
  rw [show (List.replicate 0 Value.null) = [] from rfl]
  cases r with
  | none =>
    simp only [callBody]
    rw [execS, execS, execSs, execS, execS]
    simp only [ev (k + 3) (by omega), Res.bind_ok, hc, call_foreign (k + 2) (k + 8)]
    cases call c (k + 9) (.foreign j 1 true) (d :: vs) w with
    | ok p => simp only [Res.bind_ok]; rw [execSs]; rfl
    | _ => rfl
  | some r =>
    simp only [callBody]
    rw [execS, execS, execSs, execS, execS, evalE, evalE]
    simp only [ev (k + 1) (by omega), Res.bind_ok, hc, call_foreign k (k + 8)]
    cases call c (k + 9) (.foreign j 1 true) (d :: vs) w with
    | ok p => rfl
    | _ => rfl

theorem call_creates {c : Ctx} {D : Name} {i j p : Nat} (hf : c.fns i = some ⟨0, 0, .node 1 (.block [.node 1 (.ret (some (.cast (.call (bytes "get_function_index") [.str p]) (.named D))))])⟩)
    (hc : c.globals.funcs (bytes "get_function_index") = some (.foreign j 1 false)) (hp : p < c.numStrings ∧ p ≤ 255) {k : Nat} (hk : 12 ≤ k) (w : World) :
    call c k (.tiny i) [] w = call c k (.foreign j 1 false) [.cstr p] w := by
  obtain ⟨k, rfl⟩ : ∃ m, k = m + 12 := ⟨k - 12, by omega⟩
  rw [call.eq_def]
  simp only [hf, List.length_nil, if_true]
  have ev : evalList c (k + 4) [.str p] ⟨[], []⟩ w = .ok ([.cstr p], w) := by
    rw [evalList, evalE]
    simp only [strConst, hp, and_self, if_true, Res.bind_ok]
    rw [evalList]
    rfl
  rw [show (List.replicate 0 Value.null) = [] from rfl, execS, execS, execSs, execS, execS, evalE, evalE]
  simp only [ev, Res.bind_ok, hc, call_foreign (k + 3) (k + 11)]
  cases call c (k + 12) (.foreign j 1 false) [.cstr p] w with
  | ok p => rfl
  | _ => rfl

/-! ## In later programs -/

theorem funcs_of {f : Front} {s : TState} (le : FrontLe f s.front) {prog : List Stmt} {c : Ctx} {env : Env} (M : MachineOf s prog c env) {n : Name} {x : Sym} {F : FnSym}
    (h : referenceFunction f.syms n = some x) (hx : x.fnSym = some F) : c.globals.funcs n = some F := by
  have gl := globals_le le
  rw [← M.globals] at gl
  refine gl.funcs _ _ ?_
  unfold globalsOf
  simp only [h, Option.bind_some, hx]

theorem line_find {f : Front} {n : Name} (h : NoFunction f n) (ps : List (Name × Tag)) (r : Tag) (σ : List (List UInt8)) :
    referenceFunction (lineAfter f n ps r σ).syms n = some (.func (lineFunc f n ps r)) := by
  unfold referenceFunction
  show (f.syms ++ _).find? _ = _
  rw [List.find?_append, no_find h]
  simp [Sym.isFunc, lineFunc]

theorem line_keep {f : Front} {m : Name} {x : Sym} (h : f.syms.find? (IsFuncNamed m) = some x) (n : Name) (ps : List (Name × Tag)) (r : Tag) (σ : List (List UInt8)) :
    (lineAfter f n ps r σ).syms.find? (IsFuncNamed m) = some x := by
  show (f.syms ++ _).find? _ = _
  rw [List.find?_append, h]
  rfl

theorem line_none {f : Front} {m n : Name} (h : NoFunction f m) (hne : m ≠ n) (ps : List (Name × Tag)) (r : Tag) (σ : List (List UInt8)) :
    NoFunction (lineAfter f n ps r σ) m := by
  intro x hx
  rcases List.mem_append.1 hx with hx | hx
  · exact h x hx
  · rw [List.mem_singleton.1 hx]
    simpa [IsFuncNamed, lineFunc] using fun e => hne e.symm

theorem unit_call {f : Front} {D : Name} {ts : List Tag} {r : Option Tag} {σ : List (List UInt8)} (hn : NoFunction f (callName D)) (hd : HasDelegateFns f) {s : TState}
    (le : FrontLe (lineAfter f (callName D) (callParams D ts) (r.getD .void) σ) s.front) {prog : List Stmt}
    (hin : Stmt.node 1 (.proc f.numFunctions (ts.length + 1) 0 (.node 1 (.block [.node 1 (callBody D ts r)]))) ∈ prog) {c : Ctx} {env : Env} (M : MachineOf s prog c env) :
    PassesOn c (callName D) ts.length r := by
  obtain ⟨⟨i, hi⟩, -⟩ := hd
  have h1 := funcs_of le M (line_find hn _ _ _) rfl
  have h2 := funcs_of le M (named_find (line_keep hi _ _ _ _)) rfl
  have hfn : c.fns f.numFunctions = some ⟨ts.length + 1, 0, .node 1 (.block [.node 1 (callBody D ts r)])⟩ := by
    rw [M.fns]
    exact mem_procs hin (by simp [procs])
  exact ⟨_, _, ts.length + 12, h1, h2, fun k hk d vs w hv => call_passes hfn h2 hk d hv w⟩

theorem unit_create {f : Front} {g D n : Name} {σ : List (List UInt8)} {j : Nat} (hn : NoFunction f g) (hd : HasDelegateFns f) (hj : σ[j]? = some n) {s : TState}
    (le : FrontLe (lineAfter f g [] (.named D) σ) s.front) (hs : σ <+: s.front.strings) (h256 : σ.length ≤ 256) {prog : List Stmt}
    (hin : Stmt.node 1 (.proc f.numFunctions 0 0 (.node 1 (.block [.node 1 (.ret (some (.cast (.call (bytes "get_function_index") [.str j]) (.named D))))]))) ∈ prog) {c : Ctx} {env : Env}
    (M : MachineOf s prog c env) (hc : ∀ (i : Nat) x, s.front.strings[i]? = some x → c.cmem i = x) : Creates c g n := by
  obtain ⟨-, ⟨i, hi⟩⟩ := hd
  have h1 := funcs_of le M (line_find hn _ _ _) rfl
  have h2 := funcs_of le M (named_find (line_keep hi _ _ _ _)) rfl
  have hfn : c.fns f.numFunctions = some ⟨0, 0, .node 1 (.block [.node 1 (.ret (some (.cast (.call (bytes "get_function_index") [.str j]) (.named D))))])⟩ := by
    rw [M.fns]
    exact mem_procs hin (by simp [procs])
  have hlt := (List.getElem?_eq_some_iff.1 hj).1
  have hlen := hs.length_le
  refine ⟨_, _, 12, j, h1, h2, hc j n ?_, fun k hk w => call_creates hfn h2 ⟨by rw [M.strings]; omega, by omega⟩ hk w⟩
  obtain ⟨t, ht⟩ := hs
  rw [← ht, List.getElem?_append_left hlt]
  exact hj

/-! ## The macro -/

theorem tags_mapM {as : List VarInfo} {ts : List Tag} (h : as.map VarInfo.tag = ts.map some) : as.mapM (m := Option) VarInfo.tag = some ts := by
  induction as generalizing ts with
  | nil =>
    cases ts with
    | nil => rfl
    | cons t ts => cases h
  | cons a as ih =>
    cases ts with
    | nil => cases h
    | cons t ts =>
      simp only [List.map_cons, List.cons.injEq] at h
      simp [List.mapM_cons, h.1, ih h.2]

theorem sig_of {f : Front} {n : Name} {ts : List Tag} {r : Tag} (h : HasSig f n ts r) : (findFuncSymbol n f).bind Sym.delegateSig = some (ts, r) := by
  rcases h with ⟨fi, h1, h2, h3⟩ | ⟨i, va, h1⟩
  · unfold findFuncSymbol
    rw [named_find h1]
    simp [Sym.delegateSig, tags_mapM h2, h3]
  · unfold findFuncSymbol
    rw [named_find h1]
    rfl

/-- The source of the function which calls, for the tags. -/
abbrev callSource (ts : List Tag) (r : Tag) : List UInt8 :=
  delegateCallSource (delegateType (ts.map Tag.name) r.name) (ts.map Tag.name) ((resultOf r).map Tag.name)

theorem call_source {ts : List Tag} {r : Tag} (hl : (callSource ts r).length < 512) :
    delegateCall (delegateType (ts.map Tag.name) r.name) (List.intercalate (bytes ", ") (delegateArgTexts 0 (ts.map Tag.name)))
      (List.intercalate (bytes ", ") (delegateIdTexts 0 (ts.map Tag.name))) r = callSource ts r := by
  have e : delegateCall (delegateType (ts.map Tag.name) r.name) (List.intercalate (bytes ", ") (delegateArgTexts 0 (ts.map Tag.name)))
      (List.intercalate (bytes ", ") (delegateIdTexts 0 (ts.map Tag.name))) r = snprintf512 (callSource ts r) := by
    unfold delegateCall callSource resultOf
    by_cases h : r = .void
    · simp only [if_pos h, Option.map_none, delegateCallSource, callName, ← bytes_nameOf]
      simp only [List.append_assoc]
      rfl
    · simp only [if_neg h, Option.map_some, delegateCallSource, callName, ← bytes_nameOf]
      simp only [List.append_assoc]
      rfl
  rw [e]
  exact List.take_of_length_le (by omega)

theorem create_source {g D n : Name} (hl : (delegateCreateSource g D n).length < 512) : delegateCreate g D n = delegateCreateSource g D n :=
  List.take_of_length_le (by show (delegateCreateSource g D n).length ≤ 511; omega)

theorem source_parts {ts : List Tag} {r : Tag} (hl : (callSource ts r).length < 512) :
    (delegateType (ts.map Tag.name) r.name).length < 512 ∧ (List.intercalate (bytes ", ") (delegateArgTexts 0 (ts.map Tag.name))).length < 512 ∧
      (List.intercalate (bytes ", ") (delegateIdTexts 0 (ts.map Tag.name))).length < 512 := by
  unfold callSource at hl
  cases h : (resultOf r).map Tag.name <;> simp only [h, delegateCallSource, callName, List.length_append] at hl <;> refine ⟨?_, ?_, ?_⟩ <;> omega

/-- The macro, when the texts fit. -/
theorem delegate_eq {E : CompileEnv} {s : TState} {n g : Name} {ts : List Tag} {r : Tag} (h : HasSig s.front n ts r) (hl : (callSource ts r).length < 512) :
    delegateMacro E [n] (some g) s = (do
      if (findTypeSymbol (delegateType (ts.map Tag.name) r.name) s.front).isSome then pure ()
      else do
        onFront (registerType (delegateType (ts.map Tag.name) r.name))
        let _ ← compileString E (some (bytes "(delegate call function)")) (callSource ts r)
      let s ← Act.get
      if (findFuncSymbol g s.front).isSome then pure true
      else do
        let _ ← compileString E (some (bytes "(delegate create function)")) (delegateCreate g (delegateType (ts.map Tag.name) r.name) n)
        pure true : Act TState Bool) s := by
  obtain ⟨l1, l2, l3⟩ := source_parts hl
  have l0 : (bytes "delegate_" ++ List.intercalate (bytes "_") (ts.map Tag.name) ++ (bytes "_" ++ r.name)).length < delegateCap := by
    show _ < 512
    simpa [delegateType] using l1
  have l1' : (bytes "delegate_" ++ List.intercalate (bytes "_") (ts.map Tag.name)).length < 512 := by
    rw [List.length_append] at l0
    have : delegateCap = 512 := rfl
    omega
  have e0 : TextBuf.add delegateCap {} (nameOf "delegate_") = pure ⟨(bytes "delegate_").length, bytes "delegate_"⟩ := buf_add (x := []) (y := bytes "delegate_") (by decide +kernel)
  have e1 := delegate_bufs l1' l2 l3
  have e2 := buf_add l0
  have e3 : bytes "delegate_" ++ List.intercalate (bytes "_") (ts.map Tag.name) ++ (bytes "_" ++ r.name) = delegateType (ts.map Tag.name) r.name := by simp [delegateType]
  have e4 : bufsOf (bytes "delegate_") [] [] = { type := ⟨(bytes "delegate_").length, bytes "delegate_"⟩ } := rfl
  rw [e3] at e2
  unfold delegateMacro
  rw [← call_source hl]
  simp only [Act.bind_apply, act_get_ok, sig_of h, e0, act_pure_ok]
  rw [← e4, e1]
  simp only [act_pure_ok, bufsOf]
  rw [show nameOf "_" ++ r.name = bytes "_" ++ r.name from rfl, e2]
  simp only [act_pure_ok]
  rfl

theorem func_sig {f : Front} {n : Name} (h : NoFunction f n) (ps : List (Name × Tag)) (r : Tag) (σ : List (List UInt8)) : HasSig (lineAfter f n ps r σ) n (ps.map Prod.snd) r := by
  left
  refine ⟨lineFunc f n ps r, ?_, ?_, rfl⟩
  · have := line_find h ps r σ
    unfold referenceFunction at this
    rwa [isFunc_named] at this
  · have : ∀ (N i : Nat) (ps : List (Name × Tag)), (lineArgs N i ps).map VarInfo.tag = (ps.map Prod.snd).map some := by
      intro N i ps
      induction ps generalizing i with
      | nil => rfl
      | cons p ps ih => simp [lineArgs, ih]
    exact this _ _ _

theorem sig_keep {f : Front} {m : Name} {ts : List Tag} {t : Tag} (h : HasSig f m ts t) (n : Name) (ps : List (Name × Tag)) (r : Tag) (σ : List (List UInt8)) :
    HasSig (lineAfter f n ps r σ) m ts t := by
  rcases h with ⟨fi, h1, h2, h3⟩ | ⟨i, va, h1⟩
  · exact .inl ⟨fi, line_keep h1 _ _ _ _, h2, h3⟩
  · exact .inr ⟨i, va, line_keep h1 _ _ _ _⟩

theorem fns_keep {f : Front} (h : HasDelegateFns f) (n : Name) (ps : List (Name × Tag)) (r : Tag) (σ : List (List UInt8)) : HasDelegateFns (lineAfter f n ps r σ) := by
  obtain ⟨⟨i, hi⟩, j, hj⟩ := h
  exact ⟨⟨i, line_keep hi _ _ _ _⟩, j, line_keep hj _ _ _ _⟩

theorem registered_keep {f : Front} {m : Name} (h : Registered f m) (n : Name) (ps : List (Name × Tag)) (r : Tag) (σ : List (List UInt8)) : Registered (lineAfter f n ps r σ) m := by
  rw [Registered] at h ⊢
  show (f.syms ++ _).find? _ = _
  rw [List.find?_append, h]
  rfl

theorem resultOf_getD (r : Tag) : (resultOf r).getD .void = r := by
  unfold resultOf
  by_cases h : r = .void <;> simp [h]

theorem line_prefix (f : Front) (n : Name) (ps : List (Name × Tag)) (r : Tag) {σ : List (List UInt8)} (h : f.strings <+: σ) : PrefixTo f (lineAfter f n ps r σ) :=
  ⟨List.prefix_append _ _, h⟩

theorem registered_means {f : Front} {n : Name} (h : Registered f n) (hb : ∀ p ∈ builtinTypes, bytes p.1 ≠ n) : Means f n (.named n) := by
  rw [Registered] at h
  refine .inr ⟨prim_none.2 hb, ?_⟩
  rw [findSome_named, h]
  rfl

theorem delegate_not_builtin (ts : List Name) (r : Name) : ∀ p ∈ builtinTypes, bytes p.1 ≠ delegateType ts r := by
  intro p hp e
  have h9 : (delegateType ts r).length ≥ 9 := by
    have : (bytes "delegate_").length = 9 := by decide +kernel
    simp only [delegateType, List.length_append]
    omega
  rw [← e] at h9
  clear e
  revert p
  decide +kernel

/-- **C59, the second `use delegate(...)` for functions of these types.** There is the type already: only the function `g` is
compiled, which in every later program gets the number of the function `n`. -/
theorem c59_again {E : CompileEnv} {s : TState} (h : AtUse s) (hn : s.nest < maxNest) (hd : HasDelegateFns s.front) {n g : Name} (hni : Spelled n (.ident n))
    (hg : Spelled g (.ident g)) {ts : List Tag} {r : Tag} (hs : HasSig s.front n ts r) (hr : ∀ t ∈ r :: ts, Spelled t.name (.ident t.name))
    (hD : Registered s.front (delegateType (ts.map Tag.name) r.name)) (hgn : NoFunction s.front g)
    (hl : (delegateCallSource (delegateType (ts.map Tag.name) r.name) (ts.map Tag.name) ((resultOf r).map Tag.name)).length < 512)
    (hl' : (delegateCreateSource g (delegateType (ts.map Tag.name) r.name) n).length < 512) (hm : ¬ TooMany s.front (DelegateLiteral n)) :
    ∃ (s' : TState) (ps : List (Front × List Stmt)), (∃ N, ∀ k, N ≤ k → delegateMacro { E with fuel := k } [n] (some g) s = .ok true s' ∧
        Compiles { E with fuel := k } (bytes "(delegate create function)") [delegateCreateFn g (delegateType (ts.map Tag.name) r.name) n] s s') ∧
      HasSig s'.front g [] (.named (delegateType (ts.map Tag.name) r.name)) ∧ Session s s' ps ∧
      ∀ s2 qs prog c env, Session s' s2 qs → (∀ x ∈ Spec.program ps, x ∈ prog) → MachineOf s2 prog c env →
        s'.front.strings.length ≤ 256 → (∀ (i : Nat) x, s2.front.strings[i]? = some x → c.cmem i = x) → Creates c g n := by
  obtain ⟨hT, hc⟩ := atUse_tables h
  have hDi : IsIdent (delegateType (ts.map Tag.name) r.name) := delegate_ident (fun t ht => by
    obtain ⟨u, hu, rfl⟩ := List.mem_map.1 ht
    exact hr u (by simp [hu])) (hr r (by simp))
  obtain ⟨j, hj⟩ := hd.2
  obtain ⟨N, s', σ, ρ, p, us, nx, rest, a1, a2, a3, a4, a5, a6, a7, a8, a9, a10⟩ := compile_create (E := E) hm hT hc hn .refl hg hDi hni
    (registered_means hD (delegate_not_builtin _ _)) (named_find hj) (L := DelegateLiteral n) (by simp [DelegateLiteral]) (by simp [DelegateLiteral])
  have hcr := create_source hl'
  refine ⟨s', _, ⟨N, fun k hk => ⟨?_, .cons a1 a2 (a3 k hk) .nil⟩⟩, ?_, a4, ?_⟩
  · rw [delegate_eq hs hl]
    simp only [Act.bind_apply, a_type (.inr (.inl hD)), if_true, act_pure_ok, act_get_ok, show findFuncSymbol g s.front = none from no_find hgn, Option.isSome_none,
      Bool.false_eq_true, if_false, hcr, a3 k hk]
  · rw [a5]
    exact func_sig hgn [] _ _
  · intro s2 qs prog c env hs2 hin M h256 hcm
    obtain ⟨c1, -, -, -⟩ := session_keeps hs2 a10 (by rw [a5]; exact hc)
    have le : FrontLe (lineAfter s.front g [] (.named (delegateType (ts.map Tag.name) r.name)) σ) s2.front := by
      refine FrontLe.trans (prefix_frontLe ?_) c1.syms
      rw [a5]
      exact List.prefix_refl _
    have hpre : σ <+: s'.front.strings := by rw [a5]; exact List.prefix_append _ _
    exact unit_create hgn hd a7 le (hpre.trans c1.strings) (Nat.le_trans hpre.length_le h256) (hin _ (by simp [Spec.program])) M hcm

/-- If there is a function called `g` already, too, nothing is done. -/
theorem c59_nothing {E : CompileEnv} {s : TState} {n g : Name} {ts : List Tag} {r : Tag} (hs : HasSig s.front n ts r)
    (hD : KnownType s.front (delegateType (ts.map Tag.name) r.name)) (hgn : ¬ NoFunction s.front g)
    (hl : (delegateCallSource (delegateType (ts.map Tag.name) r.name) (ts.map Tag.name) ((resultOf r).map Tag.name)).length < 512) :
    delegateMacro E [n] (some g) s = .ok true s := by
  have e : (findFuncSymbol g s.front).isSome := by
    unfold findFuncSymbol referenceFunction
    rw [isFunc_named, List.find?_isSome]
    rw [NoFunction] at hgn
    simp only [not_forall, Bool.not_eq_false] at hgn
    obtain ⟨x, hx, hf⟩ := hgn
    exact ⟨x, hx, hf⟩
  rw [delegate_eq hs hl]
  simp only [Act.bind_apply, a_type hD, if_true, act_pure_ok, act_get_ok, e]

/-- **C59, `use delegate("n") as g`.** Where a macro can be called, for a function of the program or of the host, if
the types of its parameters and its result have names: the macro succeeds. It registers the type `D`, compiles the function `D_call`, and then the function
`g`. The names are declared as one expects: `D_call` takes a `D` and what `n` takes, and has its result; `g` returns a `D`. In every
later program, `D_call` hands everything over to `call_function`, and `g` gets the number of the function `n`. -/
theorem c59_delegate {E : CompileEnv} {s : TState} (h : AtUse s) (hn : s.nest < maxNest) (hd : HasDelegateFns s.front) {n g : Name} (hni : Spelled n (.ident n))
    (hg : Spelled g (.ident g)) {ts : List Tag} {r : Tag} (hs : HasSig s.front n ts r) (hr : ∀ t ∈ r :: ts, NamedType s.front t) {D : Name}
    (eD : D = delegateType (ts.map Tag.name) r.name) (hD : ¬ KnownType s.front D) (hgn : NoFunction s.front g) (hcn : NoFunction s.front (callName D)) (hne : g ≠ callName D)
    (hl : (delegateCallSource D (ts.map Tag.name) ((resultOf r).map Tag.name)).length < 512) (hl' : (delegateCreateSource g D n).length < 512)
    (hm : ¬ TooMany s.front (DelegateLiteral n)) :
    ∃ (f1 : Front) (sm s' : TState) (ps : List (Front × List Stmt)), Registers s.front D f1 ∧
      (∃ N, ∀ k, N ≤ k → delegateMacro { E with fuel := k } [n] (some g) s = .ok true s' ∧
        Compiles { E with fuel := k } (bytes "(delegate call function)") [delegateCallFn D (ts.map Tag.name) ((resultOf r).map Tag.name)] { s with front := f1 } sm ∧
        Compiles { E with fuel := k } (bytes "(delegate create function)") [delegateCreateFn g D n] sm s') ∧
      Registered s'.front D ∧ HasSig s'.front (callName D) (.named D :: ts) r ∧ HasSig s'.front g [] (.named D) ∧ Session s s' ps ∧
      ∀ s2 qs prog c env, Session s' s2 qs → (∀ x ∈ Spec.program ps, x ∈ prog) → MachineOf s2 prog c env →
        s'.front.strings.length ≤ 256 → (∀ (i : Nat) x, s2.front.strings[i]? = some x → c.cmem i = x) →
        PassesOn c (callName D) ts.length (resultOf r) ∧ Creates c g n := by
  obtain ⟨hT, hc⟩ := atUse_tables h
  have hb : ∀ p ∈ builtinTypes, bytes p.1 ≠ D := by rw [eD]; exact delegate_not_builtin _ _
  have hDi : IsIdent D := by
    rw [eD]
    refine delegate_ident (fun t ht => ?_) (named_ident (hr r (by simp)))
    obtain ⟨u, hu, rfl⟩ := List.mem_map.1 ht
    exact named_ident (hr u (by simp [hu]))
  obtain ⟨f1, hreg, hR⟩ := registerType_new hD
  obtain ⟨e1, e2, e3⟩ := registers_same hR
  have hses : Session s { s with front := f1 } [] := .call .start (.register hreg)
  obtain ⟨-, -, hT1, hc1⟩ := session_keeps hses hT hc
  have hn1 : ∀ m, NoFunction s.front m → NoFunction f1 m := fun m => (registers_funcs (m := m) hR).1.2
  have hd1 : HasDelegateFns f1 := by
    obtain ⟨⟨i, hi⟩, j, hj⟩ := hd
    exact ⟨⟨i, by rw [registers_find hR]; exact hi⟩, j, by rw [registers_find hR]; exact hj⟩
  obtain ⟨⟨i, hi⟩, -⟩ := id hd1
  have hrn : ∀ t ∈ r :: ts, NamedType f1 t := fun t ht => registers_named hR (hr t ht)
  obtain ⟨N, sm, ρ, us, nx, rest, a1, a2, a3, a4, a5, a6, a7, a8⟩ := compile_call (E := E) (s := { s with front := f1 }) (L := DelegateLiteral n) hm hT1 hc1 hn
    (by show Room _ _ f1.strings; rw [e1]; exact .refl) hDi (registers_means hR hb)
    (fun t ht => ⟨named_ident (hrn t (by simp [ht])), named_means (hrn t (by simp [ht]))⟩) (r := resultOf r) (fun t ht => by
      unfold resultOf at ht
      by_cases hv : r = .void
      · rw [if_pos hv] at ht
        cases ht
      · rw [if_neg hv] at ht
        cases ht
        exact ⟨named_ident (hrn r (by simp)), named_means (hrn r (by simp)), hv, named_assignable (hrn r (by simp)) hv⟩) hl (named_find hi) (by simp [DelegateLiteral])
  rw [resultOf_getD] at a4 a5
  have hdm : HasDelegateFns sm.front := by rw [a5]; exact fns_keep hd1 _ _ _ _
  have hgm : NoFunction sm.front g := by rw [a5]; exact line_none (hn1 g hgn) hne _ _ _
  have hDm : Registered sm.front D := by rw [a5]; exact registered_keep (registers_registered hR) _ _ _ _
  have hcm : sm.front.currFunc = .none := by rw [a5]; exact hc1
  have hRm : Room (DelegateLiteral n) s.front.strings sm.front.strings := by rw [a5]; exact a6
  obtain ⟨j, hj⟩ := hdm.2
  obtain ⟨N', s', σ, ρ', p, us', nx', rest', b1, b2, b3, b4, b5, b6, b7, b8, b9, b10⟩ := compile_create (E := E) hm a8 hcm (by rw [a7]; exact hn) hRm hg hDi hni
    (registered_means hDm hb) (named_find hj) (by simp [DelegateLiteral]) (by simp [DelegateLiteral])
  have hcr := create_source hl'
  refine ⟨f1, sm, s', _, hR, ⟨N + N', fun k hk => ⟨?_, .cons a1 a2 (a3 k (by omega)) .nil, .cons b1 b2 (b3 k (by omega)) .nil⟩⟩, ?_, ?_, ?_, session_trans (session_trans hses a4) b4, ?_⟩
  · subst eD
    have a3' := a3 k (by omega)
    have b3' := b3 k (by omega)
    rw [delegate_eq hs hl]
    simp only [Act.bind_apply, no_type hD, Option.isSome_none, Bool.false_eq_true, if_false, onFront, hreg, a3', act_get_ok, act_pure_ok, show findFuncSymbol g sm.front = none from no_find hgm,
      hcr, b3']
  · rw [b5]
    exact registered_keep hDm _ _ _ _
  · rw [b5]
    refine sig_keep ?_ _ _ _ _
    rw [a5]
    have := func_sig (hn1 _ hcn) (callParams D ts) r (f1.strings ++ ρ)
    simpa only [callParams, List.map_cons, delegateTags_tags] using this
  · rw [b5]
    exact func_sig hgm [] _ _
  · intro s2 qs prog c env hs2 hin M h256 hcmem
    obtain ⟨c1, -, -, -⟩ := session_keeps hs2 b10 (by rw [b5]; exact hcm)
    have p1 : (lineAfter f1 (callName D) (callParams D ts) r f1.strings).syms <+: s'.front.syms := by
      rw [b5]
      refine List.IsPrefix.trans ?_ (List.prefix_append _ _)
      rw [a5]
      exact List.prefix_refl _
    have le1 : FrontLe (lineAfter f1 (callName D) (callParams D ts) ((resultOf r).getD .void) f1.strings) s2.front := by
      rw [resultOf_getD]
      exact FrontLe.trans (prefix_frontLe p1) c1.syms
    have le2 : FrontLe (lineAfter sm.front g [] (.named D) σ) s2.front := by
      refine FrontLe.trans (prefix_frontLe ?_) c1.syms
      rw [b5]
      exact List.prefix_refl _
    have hpre : σ <+: s'.front.strings := by rw [b5]; exact List.prefix_append _ _
    refine ⟨unit_call (hn1 _ hcn) hd1 le1 (hin _ (by simp [Spec.program])) M, ?_⟩
    exact unit_create hgm hdm b7 le2 (hpre.trans c1.strings) (Nat.le_trans hpre.length_le h256) (hin _ (by simp [Spec.program])) M hcmem

/-! ## Calling a delegate -/

theorem index_of {f : Front} {n : Name} {fi : FuncInfo} (h : f.syms.find? (IsFuncNamed n) = some (.func fi)) : getFunctionIndex f n = fi.index := by
  have key : ∀ l : List Sym, l.find? (IsFuncNamed n) = some (.func fi) → l.find? (Sym.isTinyFunc n) = some (.func fi) := by
    intro l hl
    induction l with
    | nil => cases hl
    | cons x l ih =>
      rw [List.find?_cons] at hl ⊢
      cases x with
      | func gi =>
        by_cases e : gi.name == n
        · simpa [IsFuncNamed, Sym.isTinyFunc, e] using hl
        · simp only [IsFuncNamed, Sym.isTinyFunc, e] at hl ⊢
          exact ih hl
      | «foreign» m i ts va r =>
        by_cases e : m == n
        · simp [IsFuncNamed, e] at hl
        · simp only [IsFuncNamed, Sym.isTinyFunc, e] at hl ⊢
          exact ih hl
      | _ => exact ih hl
  unfold getFunctionIndex
  rw [key _ h]

theorem creates_int {c : Ctx} {f : Front} {run : Nat → List Value → World → Res (Value × World)} (W : DelegateWorld c f run) {g n : Name} (h0 : 0 ∉ n) (hc : Creates c g n) (w : World) :
    ∃ G K w', c.globals.funcs g = some G ∧ (∀ k, K ≤ k → call c k G [] w = .ok (Std.newInt (getFunctionIndex f n), w')) ∧ w'.heap = w.heap ∧ w'.globals = w.globals := by
  obtain ⟨G, F, K, p, h1, h2, h3, h4⟩ := hc
  obtain ⟨j, e1, e2, e3⟩ := W.index
  rw [e1] at h2
  cases h2
  refine ⟨G, K + 1, { w with trace := w.trace ++ [(j, [.cstr p])] }, h1, fun k hk => ?_, rfl, rfl⟩
  obtain ⟨k, rfl⟩ : ∃ m, k = m + 1 := ⟨k - 1, by omega⟩
  have hz : n.takeWhile (· ≠ 0) = n := takeWhile_no_nul h0
  have e4 : Std.functionIndex f c.cmem [.cstr p] w.heap = .ok (Std.newInt (getFunctionIndex f n), w.heap) := by
    unfold Std.functionIndex Std.toStr
    simp only [Res.bind_ok, h3, hz]
    rw [List.takeWhile_append_of_pos (by
      intro c hc
      simp only [decide_eq_true_eq]
      exact fun e => h0 (e ▸ hc))]
    simp
  rw [h4 (k + 1) (by omega), call]
  simp only [List.length_cons, List.length_nil, true_or, e2, and_self, if_true, e3, e4, Res.bind_ok]

theorem newInt_back {i : Nat} (h : i < 2 ^ 31) : ((Std.toInt (Std.newInt i)).setWidth 32).toInt = i := by
  unfold Std.newInt Std.toInt
  have : ((BitVec.ofInt 32 (i : Int)).signExtend 64).setWidth 32 = BitVec.ofInt 32 (i : Int) := by
    apply BitVec.eq_of_getLsbD_eq
    intro k hk
    rw [BitVec.getLsbD_setWidth, BitVec.getLsbD_signExtend]
    simp only [hk, decide_true, Bool.true_and, if_true, show k < 64 by omega]
  rw [this, BitVec.toInt_ofInt]
  exact Int.bmod_eq_of_le (by omega) (by omega)

/-- **C59, calls through a delegate.** For a function of the program: what `g()` returns, handed to `D_call` with arguments - at
once or later - calls this function with these arguments, and returns what it returns. -/
theorem c59_calls {c : Ctx} {f : Front} {run : Nat → List Value → World → Res (Value × World)} (W : DelegateWorld c f run) {g m n : Name} {arity : Nat} {r : Option Tag}
    (h0 : 0 ∉ n) (hg : Creates c g n) (hp : PassesOn c m arity r) {fi : FuncInfo} (hf : f.syms.find? (IsFuncNamed n) = some (.func fi)) (hi : fi.index < 2 ^ 31) (w : World) :
    ∃ G C K d w', c.globals.funcs g = some G ∧ c.globals.funcs m = some C ∧ (∀ k, K ≤ k → call c k G [] w = .ok (d, w')) ∧ w'.heap = w.heap ∧ w'.globals = w.globals ∧
      ∀ k, K ≤ k → ∀ vs w1, vs.length = arity → ∃ i, call c k C (d :: vs) w1 =
        match run fi.index vs w1 with
        | .ok (v, w2) => .ok (if r = none then .null else v, { w2 with trace := w1.trace ++ [(i, d :: vs)] })
        | .abort => .abort
        | .ub => .ub
        | .limit => .limit
        | .timeout => .timeout := by
  obtain ⟨G, K, w', h1, h2, h3, h4⟩ := creates_int W h0 hg w
  rw [index_of hf] at h2
  obtain ⟨C, F, K', p1, p2, p3⟩ := hp
  obtain ⟨i, e1, e2, e3⟩ := W.call
  rw [e1] at p2
  cases p2
  refine ⟨G, C, K + K' + 1, _, w', h1, p1, fun k hk => h2 k (by omega), h3, h4, fun k hk vs w1 hv => ⟨i, ?_⟩⟩
  obtain ⟨k, rfl⟩ : ∃ m, k = m + 1 := ⟨k - 1, by omega⟩
  have e4 : Std.callBack run (Std.newInt fi.index :: vs) w1 = run fi.index vs w1 := by
    unfold Std.callBack
    simp only [newInt_back hi]
    rw [if_neg (by omega)]
    rfl
  rw [p3 (k + 1) (by omega) _ _ _ hv, call]
  simp only [List.length_cons, Nat.le_add_left, and_self, or_true, e2, if_true, e3, e4]
  cases run fi.index vs w1 with
  | ok p => rfl
  | _ => rfl

/-- **C59, defect.** The macro accepts functions of the host (std.c:1062), but they have no number (tiny.c:554): `g()` returns -1, and when
this is called, an assertion fails (tiny.c:585). -/
theorem c59_defect_foreign {c : Ctx} {f : Front} {run : Nat → List Value → World → Res (Value × World)} (W : DelegateWorld c f run) {g m n : Name} {arity : Nat} {r : Option Tag}
    (h0 : 0 ∉ n) (hg : Creates c g n) (hp : PassesOn c m arity r) (hf : ∀ fi, Sym.func fi ∈ f.syms → fi.name ≠ n) (w : World) :
    ∃ G C K w', c.globals.funcs g = some G ∧ c.globals.funcs m = some C ∧ (∀ k, K ≤ k → call c k G [] w = .ok (.int (-1), w')) ∧
      ∀ k, K ≤ k → ∀ vs w1, vs.length = arity → call c k C (.int (-1) :: vs) w1 = .abort := by
  obtain ⟨G, K, w', h1, h2, -, -⟩ := creates_int W h0 hg w
  have hx : getFunctionIndex f n = -1 := by
    have : f.syms.find? (Sym.isTinyFunc n) = none := by
      rw [List.find?_eq_none]
      intro x hx
      cases x with
      | func fi => simpa [Sym.isTinyFunc] using hf fi hx
      | _ => simp [Sym.isTinyFunc]
    unfold getFunctionIndex
    rw [this]
  rw [hx] at h2
  have e0 : Std.newInt (-1) = .int (-1) := by decide
  rw [e0] at h2
  obtain ⟨C, F, K', p1, p2, p3⟩ := hp
  obtain ⟨i, e1, e2, e3⟩ := W.call
  rw [e1] at p2
  cases p2
  refine ⟨G, C, K + K' + 1, w', h1, p1, fun k hk => h2 k (by omega), fun k hk vs w1 hv => ?_⟩
  obtain ⟨k, rfl⟩ : ∃ m, k = m + 1 := ⟨k - 1, by omega⟩
  have e4 : Std.callBack run (.int (-1) :: vs) w1 = .abort := by
    rfl
  rw [p3 (k + 1) (by omega) _ _ _ hv, call]
  simp only [List.length_cons, Nat.le_add_left, and_self, or_true, e2, if_true, e3, e4]
  rfl

end Tiny
